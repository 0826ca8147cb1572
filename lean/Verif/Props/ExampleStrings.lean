import Verif.Model.Vcg.Example
import Verif.Props.LexerStringTokens
/-!
# C80: strings in examples read back
-/
namespace Verif.Props
open Verif.Model Verif.Spec Verif.Lemmas

/-- what one would expect: the text shown for a string, followed by the end of the line, is read as a string with
that value -/
def C80_full : Prop := ∀ (content : List Char) (k : Nat) (ws v rest : List Char),
  (afterCalls content k).todo = ws ++ stringText v ++ '\n' :: rest → (∀ c ∈ ws, isSpace c = true) →
  ∃ t s', token (afterCalls content k) = (.tok t, s') ∧ t.kind = .STRING ∧ t.value = .str v ∧ s'.todo = '\n' :: rest

theorem escape_plain : ∀ {v : List Char}, '"' ∉ v → escape v = v
  | [], _ => rfl
  | c :: v, h => by
    have hc : c ≠ '"' := fun e => h (by simp [e])
    have ih := escape_plain (v := v) fun hm => h (List.mem_cons_of_mem _ hm)
    simp_all [escape]

/-- **C80** (partial): in any file, where the text shown for a string without line breaks and without quotes that
does not end in a backslash stands at the end of a line, it is read as a string with exactly that value.  Missing:
strings with quotes or line breaks and those that end in a backslash (see `C80_violated_quote`,
`C80_violated_backslash`, `C80_violated_lines`). -/
theorem C80_partial (content : List Char) (k : Nat) (ws v rest : List Char)
    (hahead : (afterCalls content k).todo = ws ++ stringText v ++ '\n' :: rest)
    (hws : ∀ c ∈ ws, isSpace c = true)
    (hnl : '\n' ∉ v) (hq : '"' ∉ v) (hbs : ∀ l, v ≠ l ++ ['\\']) :
    ∃ t s', token (afterCalls content k) = (.tok t, s') ∧ t.kind = .STRING ∧ t.value = .str v ∧ s'.todo = '\n' :: rest := by
  have h : (afterCalls content k).todo = ws ++ '"' :: escape v ++ '"' :: ('\n' :: rest) := by
    rw [hahead, escape_plain hq]
    unfold stringText
    rw [if_neg hnl]
    simp
  obtain ⟨t, s', h1, h2, h3, -, h4⟩ := C05_string_round_trip content k ws v ('\n' :: rest) h hws
    (fun c hc e => hnl (e ▸ hc)) hbs (fun _ => by simp)
  exact ⟨t, s', h1, h2, h3, h4⟩

/-! ## Exactly which strings read back -/

private theorem span_unique {a a' m m' : List Char} (h : a ++ m = a' ++ m') (ha : ∀ c ∈ a, isSpace c = true)
    (ha' : ∀ c ∈ a', isSpace c = true) (hm : ∀ c, m.head? = some c → isSpace c = false)
    (hm' : ∀ c, m'.head? = some c → isSpace c = false) : m = m' := by
  induction a generalizing a' with
  | nil =>
    cases a' with
    | nil => simpa using h
    | cons d a' =>
      simp only [List.nil_append, List.cons_append] at h
      have := hm d (by rw [h]; rfl)
      rw [ha' d (by simp)] at this
      cases this
  | cons c a ih =>
    cases a' with
    | nil =>
      simp only [List.nil_append, List.cons_append] at h
      have := hm' c (by rw [← h]; rfl)
      rw [ha c (by simp)] at this
      cases this
    | cons d a' =>
      simp only [List.cons_append, List.cons.injEq] at h
      exact ih h.2 (fun c hc => ha c (by simp [hc])) fun c hc => ha' c (by simp [hc])

theorem rtrimmed_unique {l m m' : List Char} (h : IsRTrimmed l m) (h' : IsRTrimmed l m') : m = m' := by
  obtain ⟨b, e, hb, hl⟩ := h
  obtain ⟨b', e', hb', hl'⟩ := h'
  have : b.reverse ++ m.reverse = b'.reverse ++ m'.reverse := by
    rw [← List.reverse_append, ← List.reverse_append, ← e, ← e']
  have := span_unique this (by simpa using hb) (by simpa using hb') (by simpa using hl) (by simpa using hl')
  simpa using this

theorem trimmed_unique {l m m' : List Char} (h : IsTrimmed l m) (h' : IsTrimmed l m') : m = m' := by
  obtain ⟨a, b, e, ha, hb, hf, hl⟩ := h
  obtain ⟨a', b', e', ha', hb', hf', hl'⟩ := h'
  by_cases hn : Blank l
  · rw [(isTrimmed_nil ⟨a, b, e, ha, hb, hf, hl⟩).2 hn, (isTrimmed_nil ⟨a', b', e', ha', hb', hf', hl'⟩).2 hn]
  · have n1 : m ≠ [] := fun h => hn ((isTrimmed_nil ⟨a, b, e, ha, hb, hf, hl⟩).1 h)
    have n2 : m' ≠ [] := fun h => hn ((isTrimmed_nil ⟨a', b', e', ha', hb', hf', hl'⟩).1 h)
    have : m ++ b = m' ++ b' := by
      refine span_unique (a := a) (a' := a') (by rw [← List.append_assoc, ← List.append_assoc, ← e, ← e']) ha ha' ?_ ?_
      · cases m with
        | nil => exact absurd rfl n1
        | cons c m => simpa using hf
      · cases m' with
        | nil => exact absurd rfl n2
        | cons c m' => simpa using hf'
    exact rtrimmed_unique ⟨b, rfl, hb, hl⟩ ⟨b', this, hb', hl'⟩

theorem forall2_unique {α β : Type _} {R : α → β → Prop} (hR : ∀ a b c, R a b → R a c → b = c) :
    ∀ {l : List α} {m m' : List β}, List.Forall₂ R l m → List.Forall₂ R l m' → m = m'
  | [], _, _, .nil, .nil => rfl
  | _ :: _, _, _, .cons h1 h2, .cons h1' h2' => by rw [hR _ _ _ h1 h1', forall2_unique hR h2 h2']

/-- a triple-quoted string has one value -/
theorem codeValue_unique {body v v' : List Char} (h : CodeValue body v) (h' : CodeValue body v') : v = v' := by
  obtain ⟨m, hm, h⟩ := h
  obtain ⟨m', hm', h'⟩ := h'
  obtain rfl := trimmed_unique hm hm'
  rcases h with ⟨e, h⟩ | ⟨first, rest, ind, tr, h1, h2, h3, h4⟩
  · rcases h' with ⟨-, h'⟩ | ⟨first', rest', ind', tr', h1', -⟩
    · rw [h, h']
    · rw [e] at h1'
      cases h1'
  · rcases h' with ⟨e, -⟩ | ⟨first', rest', ind', tr', h1', h2', h3', h4'⟩
    · rw [e] at h1
      cases h1
    · rw [h1] at h1'
      cases h1'
      rw [h4, h4']
      by_cases hr : rest = []
      · subst hr
        cases h3
        cases h3'
        rfl
      · have e : ind = ind' := by
          have a := h2.resolve_left hr
          have b := h2'.resolve_left hr
          exact (b.2.2 ind a.1 a.2.1).eq_of_length_le (a.2.2 ind' b.1 b.2.1).length_le
        subst e
        rw [forall2_unique (R := fun (l t : List Char) => IsRTrimmed (l.drop ind.length) t) (fun _ _ _ h h' => rtrimmed_unique h h') h3 h3']

private theorem splitlines_head_le (t cur : List Char) : ∀ {f ls}, splitlinesAux t cur = f :: ls →
    f.length ≤ t.length + cur.length := by
  fun_induction splitlinesAux t cur with
  | case1 => intro f ls h; cases h
  | case2 cur hne => intro f ls h; cases h; simp
  | case3 r cur ih => intro f ls h; cases h; simp
  | case4 c r cur _ hb ih => intro f ls h; cases h; simp
  | case5 c r cur _ hb ih =>
    intro f ls h
    have := ih h
    simp at this ⊢
    omega

/-- a value without line breaks is not longer than the text -/
private theorem codeValue_short {body v : List Char} (h : CodeValue body v) (hn : '\n' ∉ v) : v.length ≤ body.length := by
  obtain ⟨m, ⟨a, b, e, -⟩, h⟩ := h
  rcases h with ⟨-, h⟩ | ⟨first, rest, ind, tr, h1, -, h3, h4⟩
  · simp [h]
  · cases tr with
    | nil =>
      have := splitlines_head_le m [] h1
      rw [h4, e]
      simp [joinLines] at this ⊢
      omega
    | cons x tr => exact absurd (by rw [h4]; simp [joinLines]) hn

private theorem escape_fixed : ∀ {v : List Char}, (escape v).length = v.length → '"' ∉ v
  | [], _ => by simp
  | c :: v, h => by
    have le : ∀ v : List Char, v.length ≤ (escape v).length := by
      intro v
      induction v with
      | nil => simp
      | cons d v ih =>
        simp only [escape, List.flatMap_cons, List.length_append, List.length_cons] at ih ⊢
        split
        · simp only [List.length_cons, List.length_nil]; omega
        · simp only [List.length_cons, List.length_nil]; omega
    by_cases hc : c = '"'
    · have := le v
      simp only [escape, hc, List.flatMap_cons, if_true, List.length_append, List.length_cons, List.length_nil] at h this
      omega
    · have : (escape v).length = v.length := by simpa [escape, hc] using h
      have := escape_fixed this
      simp [this, Ne.symm hc]

/-- the strings shown that read back: a string on one line if it has no quote and does not end in a backslash, a string
with line breaks if it does not contain the closing quotes and if the layout rules for triple-quoted strings leave it
alone -/
def Survives (v : List Char) : Prop :=
  ('\n' ∉ v ∧ '"' ∉ v ∧ ∀ l, v ≠ l ++ ['\\']) ∨ ('\n' ∈ v ∧ ClosedBody '\'' v ∧ CodeValue v v)

/-- **C80**, exactly which strings read back: in any file, the text shown for a string that stands at the end of a line is
read as a string with exactly that value if and only if the string is one of `Survives`. -/
theorem C80_exactly (content : List Char) (k : Nat) (ws v rest : List Char)
    (hahead : (afterCalls content k).todo = ws ++ stringText v ++ '\n' :: rest)
    (hws : ∀ c ∈ ws, isSpace c = true) :
    (∃ t s', token (afterCalls content k) = (.tok t, s') ∧ t.kind = .STRING ∧ t.value = .str v ∧ s'.todo = '\n' :: rest) ↔
      Survives v := by
  constructor
  · rintro ⟨t, s', htok, hk, hv, hrest⟩
    obtain ⟨⟨ws', hws', he⟩, hshape⟩ := string_token_of (afterCalls_inv content k) htok hk
    rw [hahead, hrest] at he
    have he := List.append_cancel_right he
    have hh : ∀ x, slice (afterCalls content k).content t.startPos t.endPos = x →
        (∀ c, x.head? = some c → isSpace c = false) → x = stringText v := by
      rintro x rfl hx
      refine (span_unique he hws hws' ?_ hx).symm
      intro c hc
      unfold stringText at hc
      split at hc
      · cases hc; decide
      · cases hc; decide
    rcases hshape with ⟨v', h1, -, h3, h4⟩ | ⟨q, body, v', hq, h1, h2, h3, h4⟩
    · have e := hh _ h1 (by intro c hc; cases hc; decide)
      rw [hv] at h3
      cases h3
      unfold stringText at e
      split at e
      · cases e
      · next hn =>
        refine .inl ⟨hn, escape_fixed ?_, h4⟩
        have := congrArg List.length e
        simpa using this
    · have e := hh _ h1 (by intro c hc; cases hc; rcases hq with rfl | rfl <;> decide)
      rw [hv] at h3
      cases h3
      unfold stringText at e
      split at e
      · next hn =>
        have hq' : q = '\'' := by
          have := congrArg List.head? e
          simpa using this
        subst hq'
        have hb : body = v := by simpa using e
        subst hb
        exact .inr ⟨hn, h2, h4⟩
      · next hn =>
        have := congrArg List.length e
        have := codeValue_short h4 hn
        simp at *
        omega
  · rintro (⟨h1, h2, h3⟩ | ⟨h1, h2, h3⟩)
    · exact C80_partial content k ws v rest hahead hws h1 h2 h3
    · obtain ⟨t, s', v', g1, g2, g3, g4, -, g5⟩ := C46_triple_string_partial content k ws v ('\n' :: rest) '\'' (.inr rfl)
        (by rw [hahead]; unfold stringText; rw [if_pos h1]; rfl) hws h2 (by simp)
      refine ⟨t, s', g1, g2, ?_, g5⟩
      rw [g3, codeValue_unique g4 h3]

private theorem splitlines_line : ∀ (l r cur : List Char), (∀ c ∈ l, isLineBreak c = false) →
    splitlinesAux (l ++ '\n' :: r) cur = (cur.reverse ++ l) :: splitlinesAux r []
  | [], r, cur, _ => by simp [splitlinesAux, show isLineBreak '\n' = true by decide]
  | c :: l, r, cur, h => by
    have hc := h c (by simp)
    have hr : ∀ x, c = '\r' → ¬ (l ++ '\n' :: r = '\n' :: x) := by rintro x rfl; exact absurd hc (by decide)
    rw [List.cons_append, splitlinesAux, if_neg (by simp [hc]), splitlines_line l r _ fun d hd => h d (by simp [hd])]
    · simp
    · intro x e; exact hr x e

private theorem splitlines_end : ∀ (l cur : List Char), (∀ c ∈ l, isLineBreak c = false) → cur.reverse ++ l ≠ [] →
    splitlinesAux l cur = [cur.reverse ++ l]
  | [], cur, _, hne => by
    rw [splitlinesAux]
    · simp
    · intro e; rw [e] at hne; simp at hne
  | c :: l, cur, h, hne => by
    have hc := h c (by simp)
    rw [splitlinesAux, if_neg (by simp [hc]), splitlines_end l _ (fun d hd => h d (by simp [hd])) (by simp)]
    · simp
    · rintro x rfl; exact absurd hc (by decide)

private theorem splitlines_join : ∀ (ls : List (List Char)), (∀ l ∈ ls, ∀ c ∈ l, isLineBreak c = false) →
    (∀ l, ls.getLast? = some l → l ≠ []) → splitlines (joinLines ls) = ls
  | [], _, _ => rfl
  | [l], h, hl => by
    unfold splitlines joinLines
    rw [splitlines_end l [] (h l (by simp)) (by simpa using hl l rfl)]
    simp
  | l :: m :: ls, h, hl => by
    have ih := splitlines_join (m :: ls) (fun l hm => h l (by simp [hm])) (by simpa using hl)
    unfold splitlines at ih ⊢
    rw [joinLines, splitlines_line l _ [] (h l (by simp)), ih]
    · simp
    · simp

private theorem join_head (l : List Char) (ls : List (List Char)) (hl : l ≠ []) : (joinLines (l :: ls)).head? = l.head? := by
  cases l with
  | nil => exact absurd rfl hl
  | cons c l => cases ls <;> rfl

private theorem join_last : ∀ (ls : List (List Char)) (l : List Char), ls.getLast? = some l → l ≠ [] →
    (joinLines ls).getLast? = l.getLast?
  | [], _, h, _ => by cases h
  | [m], l, h, _ => by cases h; rfl
  | m :: n :: ls, l, h, hl => by
    have ih := join_last (n :: ls) l (by simpa using h) hl
    rw [joinLines]
    · rw [List.getLast?_append, List.getLast?_cons, ih]
      cases hx : l.getLast? with
      | none => exact absurd (List.getLast?_eq_none_iff.1 hx) hl
      | some c => simp
    · simp

/-- **C80**, strings with line breaks: a string of two or more lines reads back if it does not contain three single quotes
and does not end in one, does not begin or end with white space, no line after the first ends in white space, and some
line after the first begins with something other than white space (so there is no common indentation to take away). -/
theorem C80_lines (content : List Char) (k : Nat) (ws first rest' : List Char) (rest : List (List Char))
    (hahead : (afterCalls content k).todo = ws ++ stringText (joinLines (first :: rest)) ++ '\n' :: rest')
    (hws : ∀ c ∈ ws, isSpace c = true) (hclosed : ClosedBody '\'' (joinLines (first :: rest)))
    (hbreak : ∀ l ∈ first :: rest, ∀ c ∈ l, isLineBreak c = false)
    (hfirst : ∃ c, first.head? = some c ∧ isSpace c = false)
    (hend : ∀ l ∈ rest, ∀ c, l.getLast? = some c → isSpace c = false)
    (hlast : ∀ l, rest.getLast? = some l → l ≠ [])
    (hmargin : ∃ l ∈ rest, ∃ c, l.head? = some c ∧ isSpace c = false) :
    ∃ t s', token (afterCalls content k) = (.tok t, s') ∧ t.kind = .STRING ∧
      t.value = .str (joinLines (first :: rest)) ∧ s'.todo = '\n' :: rest' := by
  refine (C80_exactly content k ws _ rest' hahead hws).2 (.inr ⟨?_, hclosed, ?_⟩)
  · obtain ⟨l, hl, -⟩ := hmargin
    cases rest with
    | nil => cases hl
    | cons m rest => simp [joinLines]
  · obtain ⟨l0, hl0, c0, hc0, hs0⟩ := hmargin
    obtain ⟨c, hc, hs⟩ := hfirst
    obtain ⟨z, hz⟩ : ∃ z, rest.getLast? = some z := by
      cases hr : rest.getLast? with
      | none => rw [List.getLast?_eq_none_iff.1 hr] at hl0; cases hl0
      | some z => exact ⟨z, rfl⟩
    have hz' : (first :: rest).getLast? = some z := by rw [List.getLast?_cons, hz]; rfl
    refine ⟨joinLines (first :: rest), ⟨[], [], by simp, by simp, by simp, ?_, ?_⟩, .inr ⟨first, rest, [], rest, ?_, .inr ?_, ?_, rfl⟩⟩
    · intro d hd
      rw [join_head _ _ (by rintro rfl; cases hc), hc] at hd
      cases hd
      exact hs
    · intro d hd
      rw [join_last _ z hz' (hlast z hz)] at hd
      exact hend z (List.mem_of_getLast? hz) d hd
    · exact splitlines_join _ hbreak (by rw [hz']; rintro l ⟨⟩; exact hlast z hz)
    · refine ⟨(by intro c hc; cases hc), fun _ _ _ => by simp, fun p hp hall => ?_⟩
      have := hall l0 hl0 fun hb => by
        have := hb c0 (List.mem_of_head? hc0)
        rw [hs0] at this
        cases this
      cases p with
      | nil => simp
      | cons d p =>
        obtain ⟨u, rfl⟩ := this
        cases hc0
        rcases hp c0 (by simp) with rfl | rfl
        · exact absurd hs0 (by decide)
        · exact absurd hs0 (by decide)
    · have : ∀ ls : List (List Char), (∀ l ∈ ls, ∀ c, l.getLast? = some c → isSpace c = false) →
          List.Forall₂ (fun l t => IsRTrimmed (l.drop ([] : List Char).length) t) ls ls := by
        intro ls h
        induction ls with
        | nil => exact .nil
        | cons l ls ih => exact .cons ⟨[], by simp, by simp, h l (by simp)⟩ (ih fun m hm => h m (by simp [hm]))
      exact this rest hend

/-- the hypotheses are met -/
example : let first := "it's".toList; let rest := ["  a".toList, [], "b".toList]
    (afterCalls ("x = ".toList ++ stringText (joinLines (first :: rest)) ++ "\n y".toList) 2).todo =
      " ".toList ++ stringText (joinLines (first :: rest)) ++ '\n' :: " y".toList ∧
    (∀ l ∈ first :: rest, ∀ c ∈ l, isLineBreak c = false) ∧ (∃ c, first.head? = some c ∧ isSpace c = false) ∧
    (∀ l ∈ rest, ∀ c, l.getLast? = some c → isSpace c = false) ∧ (∀ l, rest.getLast? = some l → l ≠ []) ∧
    ∃ l ∈ rest, ∃ c, l.head? = some c ∧ isSpace c = false := by
  refine ⟨by decide +kernel, by decide +kernel, ⟨'i', by decide +kernel⟩, ?_, ?_, "b".toList, by decide +kernel, 'b', by decide +kernel⟩
  · simp only [List.mem_cons, List.not_mem_nil, or_false]
    rintro l (rfl | rfl | rfl) c hc
    · cases hc; decide
    · cases hc
    · cases hc; decide
  · rintro l ⟨⟩; decide

example : ClosedBody '\'' "it's\n  a\n\nb".toList := by
  intro i hi
  have : i < 11 := hi
  interval_cases i <;> decide +kernel

/-- what is read for the text shown for a string -/
def readBack (v : List Char) : TokVal × Bool :=
  match (token (afterCalls (stringText v ++ "\n".toList) 0)).1 with
  | .tok t => (t.value, true)
  | _ => (.none, false)

theorem readBack_of_full (h : C80_full) (v : List Char) : readBack v = (.str v, true) := by
  obtain ⟨t, s', h1, -, h3, -⟩ := h (stringText v ++ "\n".toList) 0 [] v [] rfl (by simp)
  unfold readBack
  rw [h1, ← h3]

/-- quotes are not escaped: the text shown for `a"b` is read as the string `a` -/
theorem C80_violated_quote : readBack "a\"b".toList = (.str "a".toList, true) := by decide +kernel
/-- the text shown for a string that ends in a backslash is not terminated -/
theorem C80_violated_backslash : readBack "a\\".toList = (.none, false) := by decide +kernel
/-- blanks at the ends of lines, indentation and line breaks at the ends get lost -/
theorem C80_violated_lines : readBack "a\n  b \n".toList = (.str "a\nb".toList, true) := by decide +kernel

/-- strings in examples do not always read back -/
theorem C80_violated : ¬ C80_full := by
  intro h
  have := readBack_of_full h "a\"b".toList
  rw [C80_violated_quote] at this
  exact absurd this (by decide)

/-- the hypotheses are met -/
example : (afterCalls ("x = ".toList ++ stringText "a \\ b".toList ++ "\n y".toList) 2).todo =
    " ".toList ++ stringText "a \\ b".toList ++ '\n' :: " y".toList := by decide +kernel

end Verif.Props
