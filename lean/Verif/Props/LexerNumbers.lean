import Verif.Lemmas.LexNumbers
import Verif.Props.LexerSpans
import Mathlib.Tactic.IntervalCases
/-!
# C06, C07: number literals denote the number that is written

The literals and their values are specified in `Verif.Spec.Numbers`.
-/
namespace Verif.Props
open Verif.Model Verif.Spec Verif.Lemmas

/-! ## Helper lemmas -/

theorem afterCalls_inv (content : List Char) (k : Nat) : Inv (afterCalls content k) := by
  induction k with
  | zero => exact inv_init content
  | succ k ih => exact (token_inv ih (o := (token (afterCalls content k)).1) rfl).1

private theorem scan_digit {s : LexState} {c : Char} (hc : c ∈ decDigits) :
    scan s c = number s.lexpos s c := by
  simp only [decDigits, List.mem_cons, List.not_mem_nil, or_false] at hc
  rcases hc with rfl | rfl | rfl | rfl | rfl | rfl | rfl | rfl | rfl | rfl <;>
  · unfold scan
    simp (decide := true) only [false_and, if_false, or_self, if_true]
    rfl

private theorem isNumeric_dec {c : Char} (h : isNumeric c = true) : c ∈ decDigits := by
  simp only [isNumeric, Bool.and_eq_true, decide_eq_true_eq] at h
  have e : c = Char.ofNat c.toNat := by simp
  have h1 : 48 ≤ c.toNat := h.1
  have h2 : c.toNat ≤ 57 := h.2
  generalize c.toNat = n at *
  subst e
  interval_cases n <;> decide

private theorem scan_number_only {s s' : LexState} {c : Char} {k : Kind} {b : Nat}
    (h : scan s c = .ok s' k b) (hk : k = .INTEGER ∨ k = .DECIMAL) :
    c ∈ decDigits ∧ number s.lexpos s c = .ok s' k b := by
  suffices hn : isNumeric c = true by
    have := isNumeric_dec hn
    exact ⟨this, by rw [← scan_digit this]; exact h⟩
  revert h
  fun_cases scan s c
  all_goals intro h
  all_goals first
    | exact (not_lexError_ok h).elim
    | (have := tripleLoop_kind _ _ _ _ _ _ _ _ h; subst this; simp at hk; done)
    | (have := simpleString_kind _ _ _ _ _ _ h; subst this; simp at hk; done)
    | (have := singleQuote_kind _ _ _ _ _ h; subst this; simp at hk; done)
    | assumption
    | (simp_all; done)
    | (exfalso; injections; subst_vars; simp at hk; done)
    | (exfalso; rename_i hp; cases h; unfold punctuation at hp; split at hp <;> first | (simp_all; done) | (cases hp; simp at hk))

private theorem finish_number {k k' : Kind} {b : Nat} {text : List Char} {v : TokVal}
    (h : (k', v) = finishToken k b text) (hk : k' = .INTEGER ∨ k' = .DECIMAL) : k = k' := by
  revert h
  fun_cases finishToken k b text
  all_goals intro h; simp_all
  by_cases hkw : String.ofList text ∈ KEYWORDS <;> simp [hkw] at hk

/-- Shape and value of every scanned number. -/
private theorem number_sound {s s' : LexState} {c : Char} {k : Kind} {b : Nat} (hc : c ∈ decDigits)
    (h : number s.lexpos s c = .ok s' k b) :
    ∃ m, m ≤ s.todo.length ∧ s' = advN m s ∧
      ((k = .INTEGER ∧ ∃ n, IntLiteral (c :: s.todo.take m) n ∧
          finishToken k b (c :: s.todo.take m) = (.INTEGER, .int n)) ∨
       (k = .DECIMAL ∧ ∃ q, DecLiteral (c :: s.todo.take m) q ∧
          finishToken k b (c :: s.todo.take m) = (.DECIMAL, .frac q))) := by
  have hc' : IsDigit 10 c := (isDigit_dec c).mpr hc
  unfold number at h
  split at h
  · rename_i hp
    obtain ⟨rfl, hnc⟩ := hp
    obtain ⟨m, hm, hs, hb, hcase⟩ := numLoop_shape _ _ _ _ _ _ _ (Or.inl rfl) h rfl
    rcases hcase with ⟨hk, ht⟩ | ⟨hd, _⟩
    · rcases htd : s.todo with _ | ⟨x, r⟩
      · simp [LexState.nc, htd] at hnc
      · simp only [LexState.nc, htd, List.head?_cons, Option.some.injEq] at hnc
        subst hnc
        have hadv : s.advance.todo = r := by simp [htd]
        rw [hadv] at ht hm
        refine ⟨m + 1, by simp; omega, hs, Or.inl ⟨hk, ?_⟩⟩
        simp only [List.take_succ_cons]
        have hg : Groups (IsDigit 2) (r.take m) := by
          rcases ht with ht | ⟨h0, _⟩
          · exact groups_mono (fun c hc => (isDigit_bin c).mpr hc) ht
          · cases h0
        refine ⟨_, .bin hg (groups_denotes hg), ?_⟩
        dsimp only at hk hb
        subst hk hb
        simp (decide := true) [finishToken]
    · cases hd
  · split at h
    · rename_i hp
      obtain ⟨rfl, hnc⟩ := hp
      obtain ⟨m, hm, hs, hb, hcase⟩ := numLoop_shape _ _ _ _ _ _ _ (Or.inl rfl) h rfl
      rcases hcase with ⟨hk, ht⟩ | ⟨hd, _⟩
      · rcases htd : s.todo with _ | ⟨x, r⟩
        · simp [LexState.nc, htd] at hnc
        · simp only [LexState.nc, htd, List.head?_cons, Option.some.injEq] at hnc
          subst hnc
          have hadv : s.advance.todo = r := by simp [htd]
          rw [hadv] at ht hm
          refine ⟨m + 1, by simp; omega, hs, Or.inl ⟨hk, ?_⟩⟩
          simp only [List.take_succ_cons]
          have hg : Groups (IsDigit 16) (r.take m) := by
            rcases ht with ht | ⟨h0, _⟩
            · exact groups_mono (fun c hc => (isDigit_hex c).mpr hc) ht
            · cases h0
          refine ⟨_, .hex hg (groups_denotes hg), ?_⟩
          dsimp only at hk hb
          subst hk hb
          simp [finishToken]
      · cases hd
    · obtain ⟨m, hm, hs, hb, hcase⟩ := numLoop_shape _ _ _ _ _ _ _ (Or.inl rfl) h rfl
      refine ⟨m, hm, hs, ?_⟩
      dsimp only at hcase hb
      subst hb
      have up : ∀ l, Tail (· ∈ decDigits) false l → Groups (IsDigit 10) (c :: l) := fun l hl =>
        groups_mono (fun c hc => (isDigit_dec c).mpr hc) (tail_cons hc hl)
      rcases hcase with ⟨hk, ht⟩ | ⟨_, hk, a, g, hag, ha, hg⟩
      · left
        refine ⟨hk, _, .dec (up _ ht) (groups_denotes (up _ ht)), ?_⟩
        subst hk
        rfl
      · right
        have hi := up _ ha
        have hf : Groups (IsDigit 10) g := groups_mono (fun c hc => (isDigit_dec c).mpr hc) hg
        rw [hag]
        refine ⟨hk, _, .mk hi hf (groups_denotes hi) (groups_denotes hf), ?_⟩
        subst hk
        have := pyFraction_literal hi hf
        simp only [finishToken, ← List.cons_append]
        rw [← this]

theorem number_token_of {content : List Char} {t : Token} {s1 s2 : LexState} (hi : Inv s1)
    (hcon : s1.content = content) (htok : token s1 = (.tok t, s2)) {text : List Char} (htext : text = (content.drop t.startPos).take (t.endPos + 1 - t.startPos))
    (hk : t.kind = .INTEGER ∨ t.kind = .DECIMAL) :
    (t.kind = .INTEGER ∧ ∃ n, IntLiteral text n ∧ t.value = .int n) ∨
    (t.kind = .DECIMAL ∧ ∃ q, DecLiteral text q ∧ t.value = .frac q) := by
  obtain ⟨n, m, c, e1, e2, _, hlt, _, hc, _, _, _, k, b, hscan, hs2, hfin⟩ := token_span hi htok
  have hkk := finish_number hfin hk
  rw [hcon] at e2 hlt hc hfin
  obtain ⟨hcd, hnum⟩ := scan_number_only hscan (hkk ▸ hk)
  obtain ⟨m', hm', hs', hcase⟩ := number_sound hcd hnum
  have hmm : m' = m := by
    apply advN_inj_pos (s := advN (n + 1) s1)
    rw [← hs', hs2]
  subst hmm
  have hinv' := inv_advN hi (n + 1)
  have hlen := inv_todo_length hinv'
  simp only [advN_pos, advN_content, hcon] at hlen
  have hsl : text = c :: (advN (n + 1) s1).todo.take m' := by
    rw [htext, e1, e2]
    have hend : s1.pos + n + m' < content.length := by omega
    have := slice_eq content (s1.pos + n) m' hend
    unfold slice at this
    rw [this, hinv'.todo]
    simp only [advN_pos, advN_content, hcon]
    rw [List.drop_eq_getElem_cons hlt]
    rw [List.getElem?_eq_getElem hlt] at hc
    rw [Option.some.inj hc, List.take_succ_cons, Nat.add_assoc]
  have hsl' : slice content t.startPos t.endPos = text := by rw [htext]; rfl
  rw [hsl'] at hfin
  rw [← hsl] at hcase
  rcases hcase with ⟨hk1, x, hl, hf⟩ | ⟨hk1, x, hl, hf⟩
  · rw [hf] at hfin
    exact Or.inl ⟨congrArg Prod.fst hfin, x, hl, congrArg Prod.snd hfin⟩
  · rw [hf] at hfin
    exact Or.inr ⟨congrArg Prod.fst hfin, x, hl, congrArg Prod.snd hfin⟩

private theorem number_token {content : List Char} {t : Token} (h : t ∈ (lexAll content).1)
    {text : List Char} (htext : text = (content.drop t.startPos).take (t.endPos + 1 - t.startPos))
    (hk : t.kind = .INTEGER ∨ t.kind = .DECIMAL) :
    (t.kind = .INTEGER ∧ ∃ n, IntLiteral text n ∧ t.value = .int n) ∨
    (t.kind = .DECIMAL ∧ ∃ q, DecLiteral text q ∧ t.value = .frac q) := by
  obtain ⟨s1, s2, hi, hc1, _, htok⟩ := mem_tokens _ _ (inv_init content) h
  exact number_token_of hi hc1 htok htext hk

/-! ## C06 -/

/-- **C06** (what is accepted): every INTEGER token, in any text, is written as an
integer literal of the LRM, and its value is the number which the literal denotes. -/
theorem C06_integer_tokens (content : List Char) (t : Token) (h : t ∈ (lexAll content).1)
    (hk : t.kind = .INTEGER) :
    ∃ n, IntLiteral ((content.drop t.startPos).take (t.endPos + 1 - t.startPos)) n ∧
      t.value = .int n := by
  rcases number_token h rfl (Or.inl hk) with ⟨_, n, h1, h2⟩ | ⟨h1, _⟩
  · exact ⟨n, h1, h2⟩
  · rw [hk] at h1; cases h1

/-- **C07** (what is accepted): every DECIMAL token, in any text, is written as a
decimal literal of the LRM, and its value is exactly the number it denotes. -/
theorem C07_decimal_tokens (content : List Char) (t : Token) (h : t ∈ (lexAll content).1)
    (hk : t.kind = .DECIMAL) :
    ∃ q, DecLiteral ((content.drop t.startPos).take (t.endPos + 1 - t.startPos)) q ∧
      t.value = .frac q := by
  rcases number_token h rfl (Or.inr hk) with ⟨h1, _⟩ | ⟨_, n, h1, h2⟩
  · rw [hk] at h1; cases h1
  · exact ⟨n, h1, h2⟩

/-- A literal denotes only one value. -/
theorem C06_value_unique {t : List Char} {m n : Nat} (h1 : IntLiteral t m) (h2 : IntLiteral t n) :
    m = n := by
  have no : ∀ x (r : List Char), ¬ IsDigit 10 x → x ≠ '_' → ¬ Groups (IsDigit 10) ('0' :: x :: r) := by
    intro x r hx hu hg
    cases hg with
    | digit _ hg' => cases hg' with
      | single h => exact hx h
      | digit h _ => exact hx h
      | under h _ => exact hx h
    | under _ _ => exact hu rfl
  have hb : ¬ IsDigit 10 'b' := by rw [isDigit_dec]; decide
  have hx : ¬ IsDigit 10 'x' := by rw [isDigit_dec]; decide
  cases h1 with
  | dec g1 d1 =>
    cases h2 with
    | dec g2 d2 => exact denotes_unique d1 d2
    | bin g2 d2 => exact (no _ _ hb (by decide) g1).elim
    | hex g2 d2 => exact (no _ _ hx (by decide) g1).elim
  | bin g1 d1 =>
    cases h2 with
    | dec g2 d2 => exact (no _ _ hb (by decide) g2).elim
    | bin g2 d2 => exact denotes_unique d1 d2
  | hex g1 d1 =>
    cases h2 with
    | dec g2 d2 => exact (no _ _ hx (by decide) g2).elim
    | hex g2 d2 => exact denotes_unique d1 d2

private theorem groups_head {D : Char → Prop} {t : List Char} (h : Groups D t) :
    ∃ c r, t = c :: r ∧ D c := by
  cases h with
  | single h => exact ⟨_, _, rfl, h⟩
  | digit h _ => exact ⟨_, _, rfl, h⟩
  | under h _ => exact ⟨_, _, rfl, h⟩

private theorem groups_second {t : List Char} {c d : Char} {r : List Char}
    (h : Groups (IsDigit 10) t) (e : t = c :: d :: r) : IsDigit 10 d ∨ d = '_' := by
  subst e
  cases h with
  | digit _ hg => obtain ⟨c', r', e, h⟩ := groups_head hg; cases e; exact Or.inl h
  | under _ _ => exact Or.inr rfl

private theorem dec_space {c : Char} (h : c ∈ decDigits) : isSpace c = false := by
  revert c; decide

/-- An integer literal ahead of the lexer -/
theorem integer_ahead {s : LexState} (hi : Inv s) (ws lit rest : List Char) (n : Nat)
    (hahead : s.todo = ws ++ lit ++ rest) (hws : ∀ c ∈ ws, isSpace c = true)
    (hlit : IntLiteral lit n) (hend : NumEnd rest) (hx : lit = ['0'] → rest.head? ≠ some 'x') :
    ∃ t s', token s = (.tok t, s') ∧ t.kind = .INTEGER ∧ t.value = .int n ∧
      t.endPos + 1 = t.startPos + lit.length ∧ s'.todo = rest := by
  have main : ∀ (c : Char) (r : List Char) (b : Nat), lit = c :: r → c ∈ decDigits →
      (∀ s' : LexState, s'.todo = r ++ rest →
        number s'.lexpos s' c = .ok (advN r.length s') .INTEGER b) →
      finishToken .INTEGER b lit = (.INTEGER, .int n) →
      ∃ t s', token s = (.tok t, s') ∧ t.kind = .INTEGER ∧ t.value = .int n ∧
        t.endPos + 1 = t.startPos + lit.length ∧ s'.todo = rest := by
    rintro c r b rfl hcd hnum hfin
    have hahead' : s.todo = ws ++ c :: (r ++ rest) := by rw [hahead]; simp
    have htodo := advN_todo_cons hahead'
    have hscan := hnum _ htodo
    rw [← scan_digit hcd] at hscan
    have htok := token_exact hi hahead' hws (dec_space hcd) (by simp) hscan
    have htake : (r ++ rest).take r.length = r := by simp
    rw [htake, hfin] at htok
    exact ⟨_, _, htok, rfl, rfl, by simp; omega, by rw [token_exact_todo hahead']; simp⟩
  cases hlit with
  | dec hg hden =>
    obtain ⟨c, r, rfl, hc⟩ := groups_head hg
    have hcd := (isDigit_dec c).mp hc
    refine main c r 10 rfl hcd ?_ ?_
    · intro s' hs'
      have hnot : ∀ x, (x = 'b' ∨ x = 'x') → ¬ (c = '0' ∧ s'.nc = some x) := by
        rintro x hxx ⟨rfl, hnc⟩
        simp only [LexState.nc, hs'] at hnc
        cases r with
        | nil =>
          simp only [List.nil_append] at hnc
          rcases hxx with rfl | rfl
          · cases rest with
            | nil => simp at hnc
            | cons d rest' =>
              simp at hnc; subst hnc
              exact (hend _ _ rfl).1 ((isDigit_hex _).mpr (by decide))
          · exact hx rfl hnc
        | cons d r' =>
          simp at hnc; subst hnc
          rcases hxx with rfl | rfl <;>
          · rcases groups_second hg rfl with h | h
            · rw [isDigit_dec] at h; revert h; decide
            · revert h; decide
      unfold number
      rw [if_neg (hnot 'b' (Or.inl rfl)), if_neg (hnot 'x' (Or.inr rfl)), hs',
        numLoop_tail _ hg _ _ rest rfl (fun c hc => (isDigit_dec c).mp hc) (by decide) (by decide)]
      exact numLoop_end _ _ _ _ (by simp [hs']) hend rfl
        (fun c hc => (isDigit_hex c).mpr (List.mem_append_left _ hc))
        (fun c hc => (isDigit_hex c).mpr (List.mem_append_right _ hc))
    · have := pyInt_of_denotes hden
      simp only [finishToken, if_true]
      rw [← this]
  | @bin t _ hg hden =>
    refine main '0' ('b' :: t) 2 rfl (by decide) ?_ ?_
    · intro s' hs'
      have hnc : s'.nc = some 'b' := by simp [LexState.nc, hs']
      have hadv : s'.advance.todo = t ++ rest := by simp [hs']
      unfold number
      rw [if_pos ⟨rfl, hnc⟩]
      simp only [hadv]
      rw [numLoop_groups _ hg _ _ rest (fun c hc => (isDigit_bin c).mp hc) (by decide) (by decide)]
      exact numLoop_end _ _ _ _ (by rw [advN_todo, hadv]; simp) hend rfl
        (fun c hc => (isDigit_hex c).mpr ((by decide : ∀ c ∈ ['0','1'], c ∈ decDigits ++ hexLetters) c hc))
        (fun c hc => (isDigit_hex c).mpr ((by decide : ∀ c ∈ ['2','3','4','5','6','7','8','9'] ++ hexLetters,
          c ∈ decDigits ++ hexLetters) c hc))
    · have := pyInt_of_denotes hden
      simp [finishToken]
      rw [← this]; simp
  | @hex t _ hg hden =>
    refine main '0' ('x' :: t) 16 rfl (by decide) ?_ ?_
    · intro s' hs'
      have hnc : s'.nc = some 'x' := by simp [LexState.nc, hs']
      have hadv : s'.advance.todo = t ++ rest := by simp [hs']
      unfold number
      rw [if_neg (by rw [hnc]; decide), if_pos ⟨rfl, hnc⟩]
      simp only [hadv]
      rw [numLoop_groups _ hg _ _ rest (fun c hc => (isDigit_hex c).mp hc) (by decide) (by decide)]
      exact numLoop_end _ _ _ _ (by rw [advN_todo, hadv]; simp) hend rfl
        (fun c hc => (isDigit_hex c).mpr hc) (by simp)
    · have := pyInt_of_denotes hden
      simp [finishToken]
      rw [← this]; simp

/-- **C06** (what is not lost): every integer literal of the LRM that is ahead of the
lexer (after any number of calls of `token()`), not immediately followed by
something that continues a number, is returned as one INTEGER token with the value
that the literal denotes. -/
theorem C06_integer_literals (content : List Char) (k : Nat) (ws lit rest : List Char) (n : Nat)
    (hahead : (afterCalls content k).todo = ws ++ lit ++ rest)
    (hws : ∀ c ∈ ws, isSpace c = true)
    (hlit : IntLiteral lit n) (hend : NumEnd rest) (hx : lit = ['0'] → rest.head? ≠ some 'x') :
    ∃ t s', token (afterCalls content k) = (.tok t, s') ∧ t.kind = .INTEGER ∧ t.value = .int n ∧
      t.endPos + 1 = t.startPos + lit.length ∧ s'.todo = rest :=
  integer_ahead (afterCalls_inv content k) ws lit rest n hahead hws hlit hend hx

/-- **C07** (what is not lost): every decimal literal of the LRM that is ahead of
the lexer, not immediately followed by something that continues a number, is
returned as one DECIMAL token whose value is exactly the number it denotes. -/
theorem C07_decimal_literals (content : List Char) (k : Nat) (ws lit rest : List Char) (q : Rat)
    (hahead : (afterCalls content k).todo = ws ++ lit ++ rest)
    (hws : ∀ c ∈ ws, isSpace c = true)
    (hlit : DecLiteral lit q) (hend : NumEnd rest) :
    ∃ t s', token (afterCalls content k) = (.tok t, s') ∧ t.kind = .DECIMAL ∧ t.value = .frac q ∧
      t.endPos + 1 = t.startPos + lit.length ∧ s'.todo = rest := by
  have hi := afterCalls_inv content k
  generalize afterCalls content k = s at *
  cases hlit with
  | @mk i f ni nf hgi hgf hdi hdf =>
    obtain ⟨c, r, rfl, hc⟩ := groups_head hgi
    have hcd := (isDigit_dec c).mp hc
    have hahead' : s.todo = ws ++ c :: (r ++ '.' :: f ++ rest) := by rw [hahead]; simp
    have htodo := advN_todo_cons hahead'
    obtain ⟨fc, fr, hfe, hfd⟩ := groups_head hgf
    have hnum : ∀ s' : LexState, s'.todo = r ++ '.' :: f ++ rest →
        number s'.lexpos s' c = .ok (advN (r ++ '.' :: f).length s') .DECIMAL 10 := by
      intro s' hs'
      have hnot : ∀ x, (x = 'b' ∨ x = 'x') → ¬ (c = '0' ∧ s'.nc = some x) := by
        rintro x hxx ⟨rfl, hnc⟩
        simp only [LexState.nc, hs'] at hnc
        cases r with
        | nil => simp at hnc; subst hnc; simp at hxx
        | cons d r' =>
          simp at hnc; subst hnc
          rcases hxx with rfl | rfl <;>
          · rcases groups_second hgi rfl with h | h
            · rw [isDigit_dec] at h; revert h; decide
            · revert h; decide
      unfold number
      rw [if_neg (hnot 'b' (Or.inl rfl)), if_neg (hnot 'x' (Or.inr rfl)), hs', List.append_assoc,
        numLoop_tail _ hgi _ _ _ rfl (fun c hc => (isDigit_dec c).mp hc) (by decide) (by decide)]
      have hnnc : (advN r.length s').nnc ≠ some '.' := by
        simp only [LexState.nnc, advN_todo, hs', hfe]
        simp
        exact IsDigit.ne_dot hfd
      simp only [List.cons_append]
      conv => lhs; unfold numLoop
      simp only [show decDigits.contains '.' = false by decide,
        show hexLetters.contains '.' = false by decide, Bool.false_eq_true, if_false,
        show ('.' : Char) ≠ '_' by decide, hnnc, and_false, if_true]
      rw [numLoop_groups _ hgf _ _ rest (fun c hc => (isDigit_dec c).mp hc) (by decide) (by decide)]
      have e : (advN f.length (advN r.length s').advance) = advN (r ++ '.' :: f).length s' := by
        rw [show (r ++ '.' :: f).length = r.length + (1 + f.length) by simp; omega]
        rw [advN_add, advN_add]; rfl
      rw [e]
      exact numLoop_end _ _ _ _ (by simp [hs']) hend rfl
        (fun c hc => (isDigit_hex c).mpr (List.mem_append_left _ hc))
        (fun c hc => (isDigit_hex c).mpr (List.mem_append_right _ hc))
    have hscan := hnum _ htodo
    rw [← scan_digit hcd] at hscan
    have htok := token_exact hi hahead' hws (dec_space hcd) (by simp) hscan
    have htake : (r ++ '.' :: f ++ rest).take (r ++ '.' :: f).length = r ++ '.' :: f := by
      rw [List.take_left]
    have hfin : finishToken .DECIMAL 10 (c :: (r ++ '.' :: f)) = (.DECIMAL, .frac
        ((ni : Rat) + (nf : Rat) / (10 : Rat) ^ (f.filter (· ≠ '_')).length)) := by
      have := pyFraction_literal hgi hgf
      rw [pyInt_of_denotes hdi, pyInt_of_denotes hdf] at this
      rw [← this]
      rfl
    rw [htake, hfin] at htok
    refine ⟨_, _, htok, rfl, rfl, by simp; omega, ?_⟩
    rw [token_exact_todo hahead', List.drop_left]

/-! ## Concrete cases -/

example : Groups (IsDigit 16) "f_F0".toList :=
  .under (by rw [isDigit_hex]; decide)
    (.digit (by rw [isDigit_hex]; decide) (.single (by rw [isDigit_hex]; decide)))

example : (match (token (afterCalls "x = 0xf_F0;".toList 2)).1 with
    | .tok t => (t.kind, t.value) | _ => (.COMMENT, .none)) = (.INTEGER, .int 4080) := by
  decide +kernel

example : (match (token (afterCalls "x = 1_0.2_5 ".toList 2)).1 with
    | .tok t => (t.kind, t.value) | _ => (.COMMENT, .none)) = (.DECIMAL, .frac (41/4)) := by
  decide +kernel

example : NumEnd "..5".toList ∧ NumEnd ";".toList ∧ ¬ NumEnd ".5".toList := by
  refine ⟨?_, ?_, ?_⟩
  · rintro c r h; cases h
    exact ⟨by rw [isDigit_hex]; decide, by decide, by decide⟩
  · rintro c r h; cases h
    exact ⟨by rw [isDigit_hex]; decide, by decide, by decide⟩
  · intro h; exact absurd ((h '.' ['5'] rfl).2.2 rfl) (by decide)

end Verif.Props
