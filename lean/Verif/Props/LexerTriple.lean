import Verif.Lemmas.LexExact
import Verif.Props.LexerNumbers
import Mathlib.Data.List.TakeWhile
/-!
# C45, C46: triple-quoted strings
-/
namespace Verif.Props
open Verif.Model Verif.Spec Verif.Lemmas

/-! ## Specification -/

/-- The body of a string opened by `qqq` is closed by the `qqq` after it, not
earlier: no three consecutive quotes start inside the body. -/
def ClosedBody (q : Char) (body : List Char) : Prop :=
  ∀ i, i < body.length → ¬ [q, q, q] <+: (body ++ [q, q, q]).drop i

/-- `m` is `s` without leading and trailing white space. -/
def IsTrimmed (s m : List Char) : Prop :=
  ∃ a b, s = a ++ m ++ b ∧ (∀ c ∈ a, isSpace c = true) ∧ (∀ c ∈ b, isSpace c = true) ∧
    (∀ c, m.head? = some c → isSpace c = false) ∧ (∀ c, m.getLast? = some c → isSpace c = false)

/-- `m` is `s` without trailing white space. -/
def IsRTrimmed (s m : List Char) : Prop :=
  ∃ b, s = m ++ b ∧ (∀ c ∈ b, isSpace c = true) ∧ (∀ c, m.getLast? = some c → isSpace c = false)

/-- A blank line -/
def Blank (l : List Char) : Prop := ∀ c ∈ l, isSpace c = true

/-- Characters of an indentation -/
def IsIndent (p : List Char) : Prop := ∀ c ∈ p, c = ' ' ∨ c = '\t'

/-- `ind` is the longest indentation common to all non-blank lines. -/
def CommonIndent (lines : List (List Char)) (ind : List Char) : Prop :=
  IsIndent ind ∧ (∀ l ∈ lines, ¬ Blank l → ind <+: l) ∧
  ∀ p, IsIndent p → (∀ l ∈ lines, ¬ Blank l → p <+: l) → p <+: ind

/-- Lines joined by newline characters. -/
def joinLines : List (List Char) → List Char
  | []      => []
  | [l]     => l
  | l :: ls => l ++ '\n' :: joinLines ls

/-- The value of a triple-quoted string according to the implementation's reading:
like `LrmValue`, but trailing white space of the first line is kept. -/
def CodeValue (body v : List Char) : Prop :=
  ∃ m, IsTrimmed body m ∧
    ((m = [] ∧ v = []) ∨
     ∃ first rest ind trimmed, splitlines m = first :: rest ∧
       (rest = [] ∨ CommonIndent rest ind) ∧
       List.Forall₂ (fun l t => IsRTrimmed (l.drop ind.length) t) rest trimmed ∧
       v = joinLines (first :: trimmed))

/-- The value of a triple-quoted string according to the LRM
(`Complex_String_Value`): trimmed, common indentation of the lines after the first
removed, trailing white space of *every* line removed. -/
def LrmValue (body v : List Char) : Prop :=
  ∃ m, IsTrimmed body m ∧
    ((m = [] ∧ v = []) ∨
     ∃ first rest ind first' trimmed, splitlines m = first :: rest ∧
       (rest = [] ∨ CommonIndent rest ind) ∧ IsRTrimmed first first' ∧
       List.Forall₂ (fun l t => IsRTrimmed (l.drop ind.length) t) rest trimmed ∧
       v = joinLines (first' :: trimmed))

/-! ## Strings -/

theorem rstrip_spec (s : List Char) : IsRTrimmed s (rstrip s) := by
  unfold rstrip
  refine ⟨(s.reverse.takeWhile isSpace).reverse, ?_, ?_, ?_⟩
  · rw [← List.reverse_append, List.takeWhile_append_dropWhile, List.reverse_reverse]
  · intro c hc
    simp only [List.mem_reverse] at hc
    exact List.mem_takeWhile_imp hc
  · intro c hc
    rw [List.getLast?_reverse] at hc
    have := List.head?_dropWhile_not isSpace s.reverse
    rw [hc] at this
    simpa using this

theorem strip_spec (s : List Char) : IsTrimmed s (strip s) := by
  unfold strip lstrip
  obtain ⟨b, h1, h2, h3⟩ := rstrip_spec (s.dropWhile isSpace)
  refine ⟨s.takeWhile isSpace, b, ?_, fun c hc => List.mem_takeWhile_imp hc, h2, ?_, h3⟩
  · rw [List.append_assoc, ← h1, List.takeWhile_append_dropWhile]
  · intro c hc
    have := List.head?_dropWhile_not isSpace s
    rw [h1, List.head?_append, hc] at this
    simpa using this

theorem isTrimmed_nil {s m : List Char} (h : IsTrimmed s m) : m = [] ↔ Blank s := by
  obtain ⟨a, b, rfl, ha, hb, h1, _⟩ := h
  constructor
  · rintro rfl c hc
    simp at hc; exact hc.elim (ha c) (hb c)
  · intro hbl
    cases m with
    | nil => rfl
    | cons c m =>
      have := h1 c rfl
      rw [hbl c (by simp)] at this; cases this

theorem strip_isEmpty (s : List Char) : (strip s).isEmpty = true ↔ Blank s := by
  rw [List.isEmpty_iff]; exact isTrimmed_nil (strip_spec s)

theorem isLineBreak_space {c : Char} (h : isLineBreak c = true) : isSpace c = true := by
  simp only [isLineBreak, isSpace, Bool.or_eq_true, Bool.and_eq_true, decide_eq_true_eq, beq_iff_eq] at *
  omega

/-- The last line of a text that ends in a non-space character ends in that character. -/
theorem splitlines_last (t : List Char) (cur : List Char) (c : Char)
    (hl : t.getLast? = some c ∨ (t = [] ∧ cur.head? = some c)) (hc : isSpace c = false) :
    ∃ ls l, splitlinesAux t cur = ls ++ [l] ∧ l.getLast? = some c := by
  fun_induction splitlinesAux t cur with
  | case1 => simp at hl
  | case2 cur hne =>
    rcases hl with hl | ⟨_, hl⟩
    · simp at hl
    · exact ⟨[], cur.reverse, rfl, by simpa using hl⟩
  | case3 r cur ih =>
    rcases hl with hl | ⟨h0, _⟩
    · cases r with
      | nil => simp at hl; subst hl; simp [isSpace] at hc
      | cons x xs =>
        obtain ⟨ls, l, h1, h2⟩ := ih (Or.inl (by simpa using hl))
        exact ⟨_ :: ls, l, by rw [h1]; rfl, h2⟩
    · cases h0
  | case4 x r cur _ hb ih =>
    rcases hl with hl | ⟨h0, _⟩
    · cases r with
      | nil =>
        simp at hl; subst hl
        rw [isLineBreak_space hb] at hc; cases hc
      | cons y ys =>
        obtain ⟨ls, l, h1, h2⟩ := ih (Or.inl (by simpa using hl))
        exact ⟨_ :: ls, l, by rw [h1]; rfl, h2⟩
    · cases h0
  | case5 x r cur _ hb ih =>
    rcases hl with hl | ⟨h0, _⟩
    · cases r with
      | nil => exact ih (Or.inr ⟨rfl, by simpa using hl⟩)
      | cons y ys => exact ih (Or.inl (by simpa using hl))
    · cases h0

/-- The first line of a text that starts with a non-space character starts with it. -/
theorem splitlines_first (t : List Char) (cur : List Char) (c : Char)
    (hf : cur.getLast? = some c ∨ (cur = [] ∧ t.head? = some c)) (hc : isSpace c = false) :
    ∃ l ls, splitlinesAux t cur = l :: ls ∧ l.head? = some c := by
  fun_induction splitlinesAux t cur with
  | case1 => simp at hf
  | case2 cur hne =>
    rcases hf with hf | ⟨h0, hf⟩
    · exact ⟨cur.reverse, [], rfl, by simpa using hf⟩
    · simp at hf
  | case3 r cur ih =>
    rcases hf with hf | ⟨h0, hf⟩
    · exact ⟨_, _, rfl, by simpa using hf⟩
    · simp at hf; subst hf; simp [isSpace] at hc
  | case4 x r cur _ hb ih =>
    rcases hf with hf | ⟨h0, hf⟩
    · exact ⟨_, _, rfl, by simpa using hf⟩
    · simp at hf; subst hf
      rw [isLineBreak_space hb] at hc; cases hc
  | case5 x r cur _ hb ih =>
    apply ih
    left
    rcases hf with hf | ⟨h0, hf⟩
    · cases cur with
      | nil => simp at hf
      | cons y ys => simpa using hf
    · subst h0; simpa using hf

/-! ## Common indentation -/

theorem commonPrefix_left : ∀ (ws l : List Char), commonPrefix ws l <+: ws
  | [], _ => by simp [commonPrefix]
  | w :: ws, [] => by simp [commonPrefix]
  | w :: ws, c :: cs => by
    unfold commonPrefix
    split
    · exact (List.cons_prefix_cons).mpr ⟨rfl, commonPrefix_left ws cs⟩
    · simp

theorem commonPrefix_right : ∀ (ws l : List Char), commonPrefix ws l <+: l
  | [], _ => by simp [commonPrefix]
  | w :: ws, [] => by simp [commonPrefix]
  | w :: ws, c :: cs => by
    unfold commonPrefix
    split
    · rename_i h; subst h; exact (List.cons_prefix_cons).mpr ⟨rfl, commonPrefix_right ws cs⟩
    · simp

theorem commonPrefix_greatest : ∀ (p ws l : List Char), p <+: ws → p <+: l → p <+: commonPrefix ws l
  | [], _, _, _, _ => by simp
  | x :: p, [], _, h, _ => by simp at h
  | x :: p, _ :: _, [], _, h => by simp at h
  | x :: p, w :: ws, c :: cs, h1, h2 => by
    obtain ⟨e1, h1'⟩ := List.cons_prefix_cons.mp h1
    obtain ⟨e2, h2'⟩ := List.cons_prefix_cons.mp h2
    subst e1 e2
    unfold commonPrefix
    simp only [if_true]
    exact List.cons_prefix_cons.mpr ⟨rfl, commonPrefix_greatest p ws cs h1' h2'⟩

theorem fold_common (lines : List (List Char)) : ∀ ws : List Char,
    let r := lines.foldl (fun ws line => if (strip line).isEmpty then ws else commonPrefix ws line) ws
    r <+: ws ∧ (∀ l ∈ lines, ¬ Blank l → r <+: l) ∧
    ∀ p, p <+: ws → (∀ l ∈ lines, ¬ Blank l → p <+: l) → p <+: r := by
  induction lines with
  | nil => intro ws; simp
  | cons l ls ih =>
    intro ws
    simp only [List.foldl_cons]
    by_cases hb : (strip l).isEmpty = true
    · simp only [hb, if_true]
      obtain ⟨h1, h2, h3⟩ := ih ws
      refine ⟨h1, ?_, fun p hp hl => h3 p hp (fun l' hl' => hl l' (List.mem_cons_of_mem _ hl'))⟩
      intro l' hl' hnb
      rcases List.mem_cons.mp hl' with rfl | hl'
      · exact (hnb ((strip_isEmpty l').mp hb)).elim
      · exact h2 l' hl' hnb
    · simp only [hb, if_false]
      obtain ⟨h1, h2, h3⟩ := ih (commonPrefix ws l)
      have hnb : ¬ Blank l := fun h => hb ((strip_isEmpty l).mpr h)
      refine ⟨h1.trans (commonPrefix_left ws l), ?_, ?_⟩
      · intro l' hl' hnb'
        rcases List.mem_cons.mp hl' with rfl | hl'
        · exact h1.trans (commonPrefix_right ws l')
        · exact h2 l' hl' hnb'
      · intro p hp hl
        exact h3 p (commonPrefix_greatest p ws l hp (hl l (by simp) hnb))
          (fun l' hl' => hl l' (List.mem_cons_of_mem _ hl'))

theorem indent_prefix : ∀ (p l : List Char), IsIndent p → p <+: l →
    p <+: l.takeWhile (fun c => c = ' ' || c = '\t')
  | [], _, _, _ => by simp
  | x :: p, [], _, h => by simp at h
  | x :: p, c :: cs, hi, h => by
    obtain ⟨e, h'⟩ := List.cons_prefix_cons.mp h
    subst e
    have hx := hi x (by simp)
    have : (decide (x = ' ') || decide (x = '\t')) = true := by simpa using hx
    rw [List.takeWhile_cons, if_pos this]
    exact List.cons_prefix_cons.mpr ⟨rfl, indent_prefix p cs (fun c hc => hi c (by simp [hc])) h'⟩

theorem foldl_join (rest : List (List Char)) (f : List Char → List Char) : ∀ first : List Char,
    rest.foldl (fun v line => v ++ '\n' :: f line) first = joinLines (first :: rest.map f) := by
  induction rest with
  | nil => intro first; rfl
  | cons l ls ih =>
    intro first
    rw [List.foldl_cons, ih]
    cases ls with
    | nil => simp [joinLines]
    | cons l2 ls2 => simp [joinLines]

/-! ## C45 -/

private theorem forall2_map {α β} (R : α → β → Prop) (f : α → β) (h : ∀ a, R a (f a)) :
    ∀ l : List α, List.Forall₂ R l (l.map f)
  | [] => .nil
  | a :: l => .cons (h a) (forall2_map R f h l)

/-- **C45** as implemented, for every body. -/
theorem C45_triple_value (q : Char) (body : List Char) :
    CodeValue body (tripleQuotedValue ([q,q,q] ++ body ++ [q,q,q])) := by
  have hbody : ((([q,q,q] ++ body ++ [q,q,q]).drop 3).take (([q,q,q] ++ body ++ [q,q,q]).length - 6)) = body := by
    simp
  have htrim := strip_spec body
  refine ⟨strip body, htrim, ?_⟩
  unfold tripleQuotedValue
  simp only [hbody]
  rcases hm : strip body with _ | ⟨c0, m'⟩
  · left; simp [splitlines, splitlinesAux]
  · right
    obtain ⟨_, _, _, _, _, hfirst, hlast⟩ := htrim
    rw [hm] at hfirst hlast
    have hc0 := hfirst c0 rfl
    obtain ⟨l0, ls, hsp, hl0⟩ := splitlines_first (c0 :: m') [] c0 (Or.inr ⟨rfl, rfl⟩) hc0
    obtain ⟨cl, hcl⟩ : ∃ cl, (c0 :: m').getLast? = some cl := by
      cases h : (c0 :: m').getLast? with
      | none => simp at h
      | some x => exact ⟨x, rfl⟩
    obtain ⟨init, l1, hsp', hl1⟩ := splitlines_last (c0 :: m') [] cl (Or.inl hcl) (hlast cl hcl)
    have hnb0 : ¬ Blank l0 := by
      intro hb
      have : c0 ∈ l0 := List.mem_of_mem_head? hl0
      rw [hb c0 this] at hc0; cases hc0
    have hnb1 : ¬ Blank l1 := by
      intro hb
      have h := hlast cl hcl
      rw [hb cl (List.mem_of_getLast? hl1)] at h; cases h
    have hspl : splitlines (c0 :: m') = l0 :: ls := hsp
    rw [hspl]
    have he0 : (strip l0).isEmpty = false := by
      rw [Bool.eq_false_iff]; exact fun h => hnb0 ((strip_isEmpty l0).mp h)
    have hfil : (l0 :: ls).filter (fun l => !(strip l).isEmpty)
        = l0 :: ls.filter (fun l => !(strip l).isEmpty) := by
      rw [List.filter_cons_of_pos (by simp [he0])]
    simp only [hfil]
    rcases hls : ls.filter (fun l => !(strip l).isEmpty) with _ | ⟨second, more⟩
    · -- only one non-blank line: no further line at all
      have hnil : ls = [] := by
        rcases List.eq_nil_or_concat ls with h | ⟨ini, x, h⟩
        · exact h
        · exfalso
          rw [hsp] at hsp'
          have hx : x = l1 := by
            have := congrArg List.getLast? hsp'
            rw [h, List.concat_eq_append, ← List.cons_append, List.getLast?_append,
              List.getLast?_append] at this
            simpa using this
          have : x ∈ ls.filter (fun l => !(strip l).isEmpty) := by
            refine List.mem_filter.mpr ⟨by rw [h]; simp, ?_⟩
            rw [hx]
            have : (strip l1).isEmpty = false := by
              rw [Bool.eq_false_iff]; exact fun h => hnb1 ((strip_isEmpty l1).mp h)
            simp [this]
          rw [hls] at this; cases this
      subst hnil
      exact ⟨l0, [], [], [], rfl, Or.inl rfl, .nil, by simp [joinLines]⟩
    · simp only
      have hsec : second ∈ ls ∧ ¬ Blank second := by
        have : second ∈ ls.filter (fun l => !(strip l).isEmpty) := by rw [hls]; simp
        obtain ⟨h1, h2⟩ := List.mem_filter.mp this
        exact ⟨h1, fun hb => by rw [(strip_isEmpty second).mpr hb] at h2; cases h2⟩
      generalize hws : second.takeWhile (fun c => c = ' ' || c = '\t') = ws
      obtain ⟨f1, f2, f3⟩ := fold_common (ls.drop 1) ws
      generalize hcom : (ls.drop 1).foldl
        (fun ws line => if (strip line).isEmpty then ws else commonPrefix ws line) ws = common at *
      have hws_sec : ws <+: second := by rw [← hws]; exact List.takeWhile_prefix _
      have hws_ind : IsIndent ws := by
        intro c hc
        rw [← hws] at hc
        have := List.mem_takeWhile_imp hc
        simpa using this
      refine ⟨l0, ls, common, ls.map (fun l => rstrip (l.drop common.length)), rfl, Or.inr ⟨?_, ?_, ?_⟩,
        forall2_map _ _ (fun l => rstrip_spec _) ls, foldl_join ls _ l0⟩
      · intro c hc; exact hws_ind c (f1.subset hc)
      · intro l hl hnb
        cases ls with
        | nil => cases hl
        | cons x xs =>
          rcases List.mem_cons.mp hl with rfl | hl
          · have hnbx : (strip l).isEmpty = false := by
              rw [Bool.eq_false_iff]; exact fun h => hnb ((strip_isEmpty l).mp h)
            rw [List.filter_cons_of_pos (by simp [hnbx])] at hls
            rw [(List.cons.inj hls).1]
            exact f1.trans hws_sec
          · exact f2 l (by simpa using hl) hnb
      · intro p hp hall
        apply f3 p
        · rw [← hws]; exact indent_prefix p second hp (hall second hsec.1 hsec.2)
        · intro l hl hnb; exact hall l (List.mem_of_mem_drop hl) hnb

/-- **C45 is violated**: trailing white space on the first line stays in the value.
The body is `a ` + newline + `b`; the only value the LRM allows is `a\nb`. -/
theorem C45_first_line_trailing_space_kept :
    tripleQuotedValue "'''a \nb'''".toList = "a \nb".toList ∧
    ¬ LrmValue "a \nb".toList "a \nb".toList := by
  refine ⟨by decide +kernel, ?_⟩
  rintro ⟨m, htrim, h⟩
  have hm : m = "a \nb".toList := by
    obtain ⟨a, b, hab, ha, hb, _, _⟩ := htrim
    have ha' : a = [] := by
      cases a with
      | nil => rfl
      | cons x xs =>
        have : x = 'a' := by simp at hab; exact hab.1.symm
        have := ha x (by simp); subst_vars; simp [isSpace] at this
    have hb' : b = [] := by
      rcases List.eq_nil_or_concat b with h | ⟨ini, x, h⟩
      · exact h
      · have h2 := congrArg List.getLast? hab
        rw [h, List.concat_eq_append, ← List.append_assoc, List.getLast?_append] at h2
        have : x = 'b' := by simp at h2; exact h2.symm
        have := hb x (by simp [h]); subst_vars; simp [isSpace] at this
    subst ha' hb'; simpa using hab.symm
  subst hm
  rcases h with ⟨h, _⟩ | ⟨first, rest, ind, first', trimmed, hsp, _, hf, _, hv⟩
  · cases h
  · have hsp' : splitlines "a \nb".toList = ["a ".toList, "b".toList] := by decide +kernel
    rw [hsp'] at hsp
    obtain ⟨rfl, rfl⟩ := List.cons.inj hsp
    obtain ⟨b, hfb, hb, hlast⟩ := hf
    -- `first'` is `a`
    have hcases : first' = [] ∨ first' = ['a'] ∨ first' = ['a', ' '] := by
      match first', hfb with
      | [], _ => left; rfl
      | [x], h => simp at h; right; left; rw [← h.1]
      | [x, y], h => simp at h; right; right; rw [← h.1, ← h.2.1]
      | x :: y :: z :: r, h => simp at h
    rcases hcases with rfl | rfl | rfl
    · simp at hfb; have := hb 'a' (by simp [← hfb]); simp [isSpace] at this
    · cases trimmed with
      | nil => simp [joinLines] at hv
      | cons t ts => simp [joinLines] at hv
    · have := hlast ' ' rfl; simp [isSpace] at this

private theorem rtrimmed_self {l : List Char} (h : ∀ c, l.getLast? = some c → isSpace c = false) :
    IsRTrimmed l l := ⟨[], by simp, by simp, h⟩

/-- **C45, what holds of the LRM rule**: if the first line of the trimmed text has no
trailing white space the value is the one the LRM prescribes.  Missing: the case
of `C45_first_line_trailing_space_kept`. -/
theorem C45_lrm_value_partial (q : Char) (body : List Char)
    (hfirst : ∀ m first rest c, IsTrimmed body m → splitlines m = first :: rest →
      first.getLast? = some c → isSpace c = false) :
    LrmValue body (tripleQuotedValue ([q,q,q] ++ body ++ [q,q,q])) := by
  obtain ⟨m, htrim, h⟩ := C45_triple_value q body
  refine ⟨m, htrim, ?_⟩
  rcases h with h | ⟨first, rest, ind, trimmed, h1, h2, h3, h4⟩
  · exact Or.inl h
  · exact Or.inr ⟨first, rest, ind, first, trimmed, h1, h2,
      rtrimmed_self (fun c hc => hfirst m first rest c htrim h1 hc), h3, h4⟩

example : tripleQuotedValue "'''\n  foo\n    bar  \n\n   baz\n  '''".toList = "foo\n bar\n\nbaz".toList := by
  decide +kernel

/-! ## C46 -/

private theorem replicate_prefix {q : Char} {n : Nat} {l : List Char} (h : 3 ≤ n) :
    [q,q,q] <+: List.replicate n q ++ l := by
  obtain ⟨k, rfl⟩ : ∃ k, n = k + 3 := ⟨n - 3, by omega⟩
  refine ⟨List.replicate k q ++ l, ?_⟩
  rw [Nat.add_comm, List.replicate_add]
  simp [List.replicate_succ]

private theorem tripleLoop_closed (q : Char) (st : Nat) : ∀ (body rest : List Char) (s : LexState) (n : Nat),
    s.todo = body ++ [q,q,q] ++ rest →
    (∀ i, i < n + body.length → ¬ [q,q,q] <+: (List.replicate n q ++ body ++ [q,q,q]).drop i) →
    tripleLoop q st s.todo s n =
      if rest = [] then lexError (advN (body.length + 3) s) .unterminatedTriple st
          (advN (body.length + 3) s).lexpos
      else .ok (advN (body.length + 3) s) .STRING 0 := by
  intro body
  induction body with
  | nil =>
    intro rest s n htodo hcl
    have hn : n = 0 := by
      rcases Nat.eq_zero_or_pos n with h | h
      · exact h
      · exfalso
        apply hcl 0 (by simpa using h)
        simp only [List.drop_zero, List.append_nil]
        have := @replicate_prefix q (n + 3) [] (by omega)
        rw [List.replicate_add] at this
        simpa [List.replicate_succ] using this
    subst hn
    simp only [List.nil_append, List.cons_append] at htodo
    rw [htodo]
    have e1 : s.advance.cc = some q := by simp [LexState.advance, htodo]
    have t1 : s.advance.todo = q :: q :: rest := by simp [htodo]
    have e2 : s.advance.advance.cc = some q := by simp [LexState.advance, htodo]
    have t2 : s.advance.advance.todo = q :: rest := by simp [htodo]
    have e3 : s.advance.advance.advance.cc = some q := by simp [LexState.advance, htodo]
    have t3 : s.advance.advance.advance.todo = rest := by simp [htodo]
    unfold tripleLoop
    simp only [e1, LexState.nc, t1, if_true, List.head?_cons, reduceCtorEq, if_false]
    rw [if_pos (by omega)]
    unfold tripleLoop
    simp only [e2, LexState.nc, t2, if_true, List.head?_cons, reduceCtorEq, if_false]
    rw [if_pos (by omega)]
    unfold tripleLoop
    simp only [e3, LexState.nc, t3, if_true, List.head?_eq_none_iff,
      show ¬ (0 + 1 + 1 + 1 < 3) by omega, if_false]
    rfl
  | cons c b ih =>
    intro rest s n htodo hcl
    have t1 : s.advance.todo = b ++ [q,q,q] ++ rest := by simp [htodo]
    have e1 : s.advance.cc = some c := by simp [LexState.advance, htodo]
    have hnc : s.advance.nc ≠ none := by
      rw [LexState.nc, t1]; cases b <;> simp
    have hstep : tripleLoop q st s.todo s n =
        tripleLoop q st s.advance.todo s.advance (if c = q then n + 1 else 0) := by
      rw [htodo]
      simp only [List.cons_append]
      conv => lhs; unfold tripleLoop
      simp only [e1, hnc, if_false, Option.some.injEq]
      by_cases hq : c = q
      · subst hq
        have hn : n + 1 < 3 := by
          by_contra hge
          apply hcl 0 (by simp)
          have := @replicate_prefix c (n + 1) (b ++ [c,c,c]) (by omega)
          rw [List.replicate_succ'] at this
          simpa using this
        simp only [if_true, hn]
        rw [t1]
      · simp only [hq, if_false, show 0 < 3 by omega, if_true]
        rw [t1]
    rw [hstep]
    have hlen : advN (b.length + 3) s.advance = advN ((c :: b).length + 3) s := by
      rw [show (c :: b).length + 3 = (b.length + 3) + 1 by simp +arith]
      rfl
    by_cases hq : c = q
    · subst hq
      simp only [if_true]
      rw [ih rest s.advance (n + 1) t1, hlen]
      intro i hi
      have := hcl i (by simp; omega)
      rw [List.replicate_succ']
      simpa using this
    · simp only [hq, if_false]
      rw [ih rest s.advance 0 t1, hlen]
      intro i hi
      have := hcl (n + 1 + i) (by simp; omega)
      rw [List.append_assoc, List.drop_append] at this
      simp only [List.length_replicate, Nat.add_assoc] at this
      rw [List.drop_eq_nil_of_le (by simp)] at this
      have e : n + (1 + i) - n = i + 1 := by omega
      rw [e] at this
      simpa using this

private theorem scan_triple {s : LexState} {q : Char} (hq : q = '"' ∨ q = '\'') {body rest : List Char}
    (htodo : s.todo = [q, q] ++ (body ++ [q,q,q] ++ rest)) (hcl : ClosedBody q body) :
    scan s q = if rest = [] then lexError (advN (body.length + 5) s) .unterminatedTriple s.lexpos
          (advN (body.length + 5) s).lexpos
      else .ok (advN (body.length + 5) s) .STRING 0 := by
  have t2 : s.advance.advance.todo = body ++ [q,q,q] ++ rest := by simp [htodo]
  have hloop := tripleLoop_closed q s.lexpos body rest s.advance.advance 0 t2
    (by intro i hi; exact hcl i (by simpa using hi))
  have hlen : advN (body.length + 3) s.advance.advance = advN (body.length + 5) s := rfl
  rw [hlen] at hloop
  rcases hq with rfl | rfl
  · have hnt : s.nc = some '"' ∧ s.nnc = some '"' := by simp [LexState.nc, LexState.nnc, htodo]
    unfold scan
    simp only [show ('"' : Char) ≠ '/' by decide, show isAlpha '"' = false by decide,
      show punctuation '"' = none by decide, show ('"' : Char) ≠ '=' by decide,
      show ('"' : Char) ≠ '.' by decide, show ('"' : Char) ≠ '<' by decide,
      show ('"' : Char) ≠ '>' by decide, show ('"' : Char) ≠ '!' by decide,
      show ('"' : Char) ≠ '*' by decide, false_and, if_false, or_self, if_true, hnt,
      Bool.false_eq_true, and_self, hloop]
  · have e1 : s.advance.cc = some '\'' := by simp [LexState.advance, htodo]
    have e2 : s.advance.advance.cc = some '\'' := by simp [LexState.advance, htodo]
    unfold scan
    simp only [show ('\'' : Char) ≠ '/' by decide, show isAlpha '\'' = false by decide,
      show punctuation '\'' = none by decide, show ('\'' : Char) ≠ '=' by decide,
      show ('\'' : Char) ≠ '.' by decide, show ('\'' : Char) ≠ '<' by decide,
      show ('\'' : Char) ≠ '>' by decide, show ('\'' : Char) ≠ '!' by decide,
      show ('\'' : Char) ≠ '*' by decide, show ('\'' : Char) ≠ '"' by decide, false_and, if_false, or_self, if_true,
      Bool.false_eq_true, singleQuote, e1, e2, ne_eq, not_true_eq_false, hloop]

/-- **C46, what holds**: a closed triple-quoted string that is not the very last
thing in the file is one STRING token with the value of C45.  Missing: the string
closed exactly at the end of the file, which is rejected
(`C46_closed_at_eof_rejected`). -/
theorem C46_triple_string_partial (content : List Char) (k : Nat) (ws body rest : List Char) (q : Char)
    (hq : q = '"' ∨ q = '\'')
    (hahead : (afterCalls content k).todo = ws ++ ([q,q,q] ++ body ++ [q,q,q]) ++ rest)
    (hws : ∀ c ∈ ws, isSpace c = true) (hcl : ClosedBody q body) (hrest : rest ≠ []) :
    ∃ t s' v, token (afterCalls content k) = (.tok t, s') ∧ t.kind = .STRING ∧ t.value = .str v ∧
      CodeValue body v ∧ t.endPos + 1 = t.startPos + (body.length + 6) ∧ s'.todo = rest := by
  have hi := afterCalls_inv content k
  generalize afterCalls content k = s at *
  have hahead' : s.todo = ws ++ q :: ([q, q] ++ (body ++ [q,q,q] ++ rest)) := by rw [hahead]; simp
  have htodo := advN_todo_cons hahead'
  have hscan := scan_triple hq htodo hcl
  simp only [hrest, if_false] at hscan
  have hsp : isSpace q = false := by rcases hq with rfl | rfl <;> decide
  have htok := token_exact hi hahead' hws hsp (by simp) hscan
  have htake : ([q, q] ++ (body ++ [q,q,q] ++ rest)).take (body.length + 5) = [q,q] ++ body ++ [q,q,q] := by
    have : ([q, q] ++ (body ++ [q,q,q] ++ rest)) = ([q,q] ++ body ++ [q,q,q]) ++ rest := by simp
    rw [this, show body.length + 5 = ([q,q] ++ body ++ [q,q,q]).length by simp, List.take_left]
  rw [htake] at htok
  have hfin : finishToken .STRING 0 (q :: ([q,q] ++ body ++ [q,q,q]))
      = (.STRING, .str (tripleQuotedValue ([q,q,q] ++ body ++ [q,q,q]))) := by
    rcases hq with rfl | rfl <;> simp [finishToken, List.isPrefixOf]
  rw [hfin] at htok
  refine ⟨_, _, _, htok, rfl, rfl, C45_triple_value q body, by simp; omega, ?_⟩
  rw [token_exact_todo hahead']
  have : ([q, q] ++ (body ++ [q,q,q] ++ rest)) = ([q,q] ++ body ++ [q,q,q]) ++ rest := by simp
  rw [this, show body.length + 5 = ([q,q] ++ body ++ [q,q,q]).length by simp, List.drop_left]

/-- **C46 is violated**: *every* properly closed triple-quoted string that ends
exactly at the end of the file is rejected as unterminated. -/
theorem C46_closed_at_eof_rejected (content : List Char) (k : Nat) (ws body : List Char) (q : Char)
    (hq : q = '"' ∨ q = '\'')
    (hahead : (afterCalls content k).todo = ws ++ ([q,q,q] ++ body ++ [q,q,q]))
    (hws : ∀ c ∈ ws, isSpace c = true) (hcl : ClosedBody q body) :
    ∃ a b, (token (afterCalls content k)).1 = .error .unterminatedTriple a b := by
  have hi := afterCalls_inv content k
  generalize afterCalls content k = s at *
  have hahead' : s.todo = ws ++ q :: ([q, q] ++ (body ++ [q,q,q] ++ [])) := by rw [hahead]; simp
  have htodo := advN_todo_cons hahead'
  have hscan := scan_triple hq htodo hcl
  simp only [if_true] at hscan
  have hsp : isSpace q = false := by rcases hq with rfl | rfl <;> decide
  have hcc : (advN (ws.length + 1) s).cc = some q := by
    rw [advN_cc, hahead']; simp
  have hlen := inv_todo_length hi
  have hlen2 : s.todo.length = ws.length + (body.length + 6) := by rw [hahead']; simp
  rw [lexError, if_pos (by simp only [LexState.lexpos, advN_pos, advN_content]; omega)] at hscan
  unfold token
  simp only [skip_exact hahead' hws hsp, hcc, hscan]
  exact ⟨_, _, rfl⟩

example : ClosedBody '\'' "it''s".toList ∧ ¬ ClosedBody '\'' "a'''b".toList := by
  unfold ClosedBody
  constructor
  · intro i hi
    have : i < 5 := hi
    match i, this with
    | 0, _ => decide +kernel
    | 1, _ => decide +kernel
    | 2, _ => decide +kernel
    | 3, _ => decide +kernel
    | 4, _ => decide +kernel
  · intro h; exact h 1 (by decide +kernel) (by decide +kernel)

example : (match (token (afterCalls "x = '''it''s''' ".toList 2)).1 with
    | .tok t => (t.kind, t.value) | _ => (.COMMENT, .none)) = (.STRING, .str "it''s".toList) := by
  decide +kernel

example : (token (afterCalls "x = '''it''s'''".toList 2)).1 = .error .unterminatedTriple 4 14 := by
  decide +kernel

end Verif.Props
