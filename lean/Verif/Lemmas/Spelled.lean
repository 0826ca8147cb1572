import Verif.Lemmas.LexExact
import Verif.Lemmas.LexTokens
import Verif.Props.LexerWords
import Verif.Props.LexerNumbers
import Verif.Props.ExampleNumbers
import Verif.Spec.Grammar
/-! Texts that are put together from pieces are read as the tokens of the pieces. -/
namespace Verif.Lemmas
open Verif.Model Verif.Spec Verif.Props

/-- calls of `token()` that return these tokens -/
inductive Lexes : LexState → List Token → LexState → Prop
  | nil {s} : Lexes s [] s
  | cons {s s1 s' t ts} : token s = (.tok t, s1) → t.kind ≠ .COMMENT → Lexes s1 ts s' → Lexes s (t :: ts) s'

theorem Lexes.append {s1 s2 s3 : LexState} {a b : List Token} (h : Lexes s1 a s2) (h' : Lexes s2 b s3) :
    Lexes s1 (a ++ b) s3 := by
  induction h with
  | nil => exact h'
  | cons h1 h2 _ ih => exact .cons h1 h2 (ih h')

/-- The text, with something behind it that `stop` allows, is read as tokens of this kind. -/
def Spelled (stop : List Char → Prop) (cs : List Char) (P : List Token → Prop) : Prop :=
  ∀ (s : LexState) (ws rest : List Char), Inv s → s.todo = ws ++ (cs ++ rest) → (∀ c ∈ ws, isSpace c = true) →
    stop rest → ∃ ts s', P ts ∧ Lexes s ts s' ∧ Inv s' ∧ s'.todo = rest

variable {stop stop' : List Char → Prop} {a b : List Char} {P Q R : List Token → Prop}

theorem Spelled.append (ha : Spelled stop a P) (hb : Spelled stop' b Q)
    (hs : ∀ rest, stop' rest → stop (b ++ rest)) (h : ∀ x y, P x → Q y → R (x ++ y)) :
    Spelled stop' (a ++ b) R := by
  intro s ws rest hi ht hws hst
  obtain ⟨x, s1, hx, hl, hi1, ht1⟩ := ha s ws (b ++ rest) hi (by rw [ht]; simp) hws (hs _ hst)
  obtain ⟨y, s2, hy, hl2, hi2, ht2⟩ := hb s1 [] rest hi1 (by rw [ht1]; simp) (by simp) hst
  exact ⟨_, s2, h x y hx hy, hl.append hl2, hi2, ht2⟩

theorem Spelled.space (ha : Spelled stop a P) : Spelled stop (' ' :: a) P := by
  intro s ws rest hi ht hws hst
  refine ha s (ws ++ [' ']) rest hi (by rw [ht]; simp) ?_ hst
  intro c hc
  rcases List.mem_append.1 hc with h | h
  · exact hws c h
  · simp only [List.mem_singleton] at h
    subst h
    decide

theorem Spelled.mono (ha : Spelled stop a P) (hs : ∀ rest, stop' rest → stop rest) (h : ∀ x, P x → Q x) :
    Spelled stop' a Q := by
  intro s ws rest hi ht hws hst
  obtain ⟨x, s1, hx, r⟩ := ha s ws rest hi ht hws (hs _ hst)
  exact ⟨x, s1, h x hx, r⟩

/-- one token -/
theorem spelled_one {c : Char} {r : List Char} {k : Kind} {b : Nat} (hc : isSpace c = false)
    (hk : (finishToken k b (c :: r)).1 ≠ .COMMENT)
    (hscan : ∀ (s : LexState) (rest : List Char), s.todo = r ++ rest → stop rest →
      scan s c = .ok (advN r.length s) k b) :
    Spelled stop (c :: r) (fun ts => ∃ t, ts = [t] ∧ t.kind = (finishToken k b (c :: r)).1 ∧
      t.value = (finishToken k b (c :: r)).2) := by
  intro s ws rest hi ht hws hst
  have ht' : s.todo = ws ++ c :: (r ++ rest) := by rw [ht]; simp
  have htodo := advN_todo_cons ht'
  have htok := token_exact hi ht' hws hc (m := r.length) (by simp) (hscan _ rest htodo hst)
  have htake : (r ++ rest).take r.length = r := by simp
  rw [htake] at htok
  refine ⟨_, _, ⟨_, rfl, rfl, rfl⟩, .cons htok hk .nil, (token_inv hi htok).1, ?_⟩
  rw [token_exact_todo ht']; simp

/-- A word is not followed by a character that continues it. -/
def EndsWord (rest : List Char) : Prop := ∀ c ∈ rest.head?, ¬ IsWordChar c

theorem isSpace_letter {c : Char} (h : isAlpha c = true) : isSpace c = false := by
  cases hs : isSpace c with
  | false => rfl
  | true =>
    exfalso
    unfold isSpace at hs
    unfold isAlpha at h
    simp at hs h
    have e1 : 'a'.toNat = 97 := rfl
    have e2 : 'z'.toNat = 122 := rfl
    have e3 : 'A'.toNat = 65 := rfl
    have e4 : 'Z'.toNat = 90 := rfl
    omega

theorem spelled_word {w : List Char} (hw : IsWord w) :
    Spelled EndsWord w (fun ts => ∃ t, ts = [t] ∧
      t.kind = (if String.ofList w ∈ reservedWords then .KEYWORD else .IDENTIFIER) ∧ t.value = .str w) := by
  obtain ⟨c, cs, rfl, hl, hcs⟩ := hw
  have ha := (isAlpha_iff c).2 hl
  have hmem : KEYWORDS.contains (String.ofList (c :: cs)) = decide (String.ofList (c :: cs) ∈ reservedWords) := by
    rw [Bool.eq_iff_iff, List.contains_iff_mem, decide_eq_true_eq]; exact Iff.rfl
  have hf : finishToken .IDENTIFIER 0 (c :: cs) =
      (if String.ofList (c :: cs) ∈ reservedWords then .KEYWORD else .IDENTIFIER, .str (c :: cs)) := by
    simp only [finishToken, hmem, decide_eq_true_eq]
  have := spelled_one (stop := EndsWord) (c := c) (r := cs) (k := .IDENTIFIER) (b := 0) (isSpace_letter ha)
    (by rw [hf]; dsimp only; split <;> simp) (fun s rest ht hst => by
      rw [scan_alpha ha]
      obtain ⟨m, hm1, hm2, hm3, hm4⟩ := advWhile_eq (ncIs (fun d => isAlnum d || d == '_')) s.todo s rfl
      have hmm : m = cs.length := by
        rcases Nat.lt_trichotomy m cs.length with hlt | heq | hgt
        · exfalso
          have hx := hm4 (by rw [ht]; simp; omega)
          have hd : s.todo[m]? = some cs[m] := by
            rw [ht, List.getElem?_append_left hlt, List.getElem?_eq_getElem hlt]
          simp only [ncIs, LexState.nc, advN_todo, List.head?_drop, hd, Option.any_some] at hx
          rw [(isWordChar_iff _).2 (hcs _ (List.getElem_mem hlt))] at hx
          cases hx
        · exact heq
        · exfalso
          have hx := hm3 cs.length hgt
          simp only [ncIs, LexState.nc, advN_todo, List.head?_drop] at hx
          have hd : s.todo[cs.length]? = rest.head? := by
            rw [ht, List.getElem?_append_right (Nat.le_refl _)]; simp [List.head?_eq_getElem?]
          rw [hd] at hx
          cases hr : rest.head? with
          | none => rw [hr] at hx; cases hx
          | some d =>
            rw [hr, Option.any_some] at hx
            exact hst d hr ((isWordChar_iff _).1 hx)
      rw [hm2, hmm])
  rw [hf] at this
  exact this

/-- A name: a word that is not reserved -/
def NameWord (w : List Char) : Prop := IsWord w ∧ String.ofList w ∉ reservedWords

theorem spelled_name {w : List Char} (hw : NameWord w) :
    Spelled EndsWord w (fun ts => ∃ t, ts = [t] ∧ t.kind = .IDENTIFIER ∧ t.text = w) :=
  (spelled_word hw.1).mono (fun _ h => h) (by
    rintro x ⟨t, rfl, h1, h2⟩
    exact ⟨t, rfl, by rw [h1, if_neg hw.2], by unfold Token.text; rw [h2]⟩)

theorem spelled_kw (v : String) (hw : IsWord v.toList) (hr : v ∈ reservedWords) :
    Spelled EndsWord v.toList (fun ts => ∃ t, ts = [t] ∧ IsKw v t) :=
  (spelled_word hw).mono (fun _ h => h) (by
    rintro x ⟨t, rfl, h1, h2⟩
    exact ⟨t, rfl, by rw [h1, String.ofList_toList, if_pos hr], h2⟩)

/-- anything may follow -/
def Any (_ : List Char) : Prop := True

/-- a space or the end follows -/
def SpaceNext (rest : List Char) : Prop := ∃ r, rest = ' ' :: r

theorem spelled_punct {c : Char} {k : Kind} (h : punctuation c = some k) (hc : isSpace c = false)
    (ha : isAlpha c = false) (hk : k ≠ .OPERATOR) (hk' : k ≠ .COMMENT) (hk2 : k ≠ .IDENTIFIER) (hk3 : k ≠ .STRING)
    (hk4 : k ≠ .INTEGER) (hk5 : k ≠ .DECIMAL) (hsl : c ≠ '/') :
    Spelled Any [c] (fun ts => ∃ t, ts = [t] ∧ t.kind = k) := by
  have hf : (finishToken k 0 [c]).1 = k := by
    unfold finishToken
    split <;> first | contradiction | rfl
  have := spelled_one (stop := Any) (c := c) (r := []) (k := k) (b := 0) hc (by rw [hf]; exact hk') (fun s rest _ _ => by
    unfold scan
    simp only [hsl, false_and, if_false, ha, h]
    rfl)
  exact this.mono (fun _ h => h) (by rintro x ⟨t, rfl, h1, _⟩; exact ⟨t, rfl, by rw [h1, hf]⟩)

theorem spelled_op1 {c : Char} (hc : c ∈ ['+', '-', '%']) :
    Spelled Any [c] (fun ts => ∃ t, ts = [t] ∧ IsOp (String.ofList [c]) t) := by
  have h2 : punctuation c = some .OPERATOR ∧ isSpace c = false ∧ isAlpha c = false ∧ c ≠ '/' := by
    simp only [List.mem_cons, List.not_mem_nil, or_false] at hc
    rcases hc with rfl | rfl | rfl <;> decide
  have := spelled_one (stop := Any) (c := c) (r := []) (k := .OPERATOR) (b := 0) h2.2.1 (by simp [finishToken])
    (fun s rest _ _ => by
      unfold scan
      simp only [h2.2.2.2, false_and, if_false, h2.2.2.1, h2.1]
      rfl)
  exact this.mono (fun _ h => h) (by
    rintro x ⟨t, rfl, h1, h3⟩; exact ⟨t, rfl, h1, by unfold Token.text; rw [h3]; simp [finishToken]⟩)

/-- operators that a longer operator or a comment could begin with, with a space behind them -/
theorem spelled_op1s {c : Char} (hc : c ∈ ['/', '*', '<', '>']) :
    Spelled SpaceNext [c] (fun ts => ∃ t, ts = [t] ∧ IsOp (String.ofList [c]) t) := by
  have h2 : isSpace c = false := by
    simp only [List.mem_cons, List.not_mem_nil, or_false] at hc
    rcases hc with rfl | rfl | rfl | rfl <;> decide
  have := spelled_one (stop := SpaceNext) (c := c) (r := []) (k := .OPERATOR) (b := 0) h2 (by simp [finishToken])
    (fun s rest ht hst => by
      obtain ⟨r, rfl⟩ := hst
      have hn : s.nc = some ' ' := by simp [LexState.nc, ht]
      simp only [List.mem_cons, List.not_mem_nil, or_false] at hc
      rcases hc with rfl | rfl | rfl | rfl <;>
      · unfold scan
        simp (decide := true) [hn, advN, punctuation])
  exact this.mono (fun _ h => h) (by
    rintro x ⟨t, rfl, h1, h3⟩; exact ⟨t, rfl, h1, by unfold Token.text; rw [h3]; simp [finishToken]⟩)

/-- operators of two characters -/
theorem spelled_op2 {c d : Char} (hc : (c, d) ∈ [('=', '='), ('!', '='), ('<', '='), ('>', '='), ('*', '*')]) :
    Spelled Any [c, d] (fun ts => ∃ t, ts = [t] ∧ IsOp (String.ofList [c, d]) t) := by
  have h2 : isSpace c = false := by
    simp only [List.mem_cons, List.not_mem_nil, or_false, Prod.mk.injEq] at hc
    rcases hc with h | h | h | h | h <;> obtain ⟨rfl, rfl⟩ := h <;> decide
  have := spelled_one (stop := Any) (c := c) (r := [d]) (k := .OPERATOR) (b := 0) h2 (by simp [finishToken])
    (fun s rest ht hst => by
      have hn : s.nc = some d := by simp [LexState.nc, ht]
      simp only [List.mem_cons, List.not_mem_nil, or_false, Prod.mk.injEq] at hc
      rcases hc with h | h | h | h | h <;> obtain ⟨rfl, rfl⟩ := h <;>
      · unfold scan
        simp (decide := true) [hn, advN, punctuation])
  exact this.mono (fun _ h => h) (by
    rintro x ⟨t, rfl, h1, h3⟩; exact ⟨t, rfl, h1, by unfold Token.text; rw [h3]; simp [finishToken]⟩)

theorem spelled_arrow : Spelled Any ['=', '>'] (fun ts => ∃ t, ts = [t] ∧ t.kind = .ARROW) :=
  (spelled_one (stop := Any) (c := '=') (r := ['>']) (k := .ARROW) (b := 0) (by decide) (by simp [finishToken])
    (fun s rest ht hst => by
      have hn : s.nc = some '>' := by simp [LexState.nc, ht]
      unfold scan
      simp (decide := true) [hn, advN, punctuation])).mono (fun _ h => h)
    (by rintro x ⟨t, rfl, h1, h3⟩; exact ⟨t, rfl, h1⟩)

theorem spelled_range : Spelled Any ['.', '.'] (fun ts => ∃ t, ts = [t] ∧ t.kind = .RANGE) :=
  (spelled_one (stop := Any) (c := '.') (r := ['.']) (k := .RANGE) (b := 0) (by decide) (by simp [finishToken])
    (fun s rest ht hst => by
      have hn : s.nc = some '.' := by simp [LexState.nc, ht]
      unfold scan
      simp (decide := true) [hn, advN, punctuation])).mono (fun _ h => h)
    (by rintro x ⟨t, rfl, h1, h3⟩; exact ⟨t, rfl, h1⟩)

/-- a dot before something that is not a dot -/
theorem spelled_dot : Spelled (fun rest => rest.head? ≠ some '.') ['.'] (fun ts => ∃ t, ts = [t] ∧ t.kind = .DOT) :=
  (spelled_one (c := '.') (r := []) (k := .DOT) (b := 0) (by decide) (by simp [finishToken])
    (fun s rest ht hst => by
      have hn : s.nc ≠ some '.' := by simpa [LexState.nc, ht] using hst
      unfold scan
      simp (decide := true) [hn, advN, punctuation])).mono (fun _ h => h)
    (by rintro x ⟨t, rfl, h1, h3⟩; exact ⟨t, rfl, h1⟩)

/-- What follows an expression -/
def EndsExpr (rest : List Char) : Prop := ∀ c ∈ rest.head?, c ∈ [' ', ')', ',', ']']

theorem spelled_nat (n : Nat) :
    Spelled EndsExpr (natText n) (fun ts => ∃ t, ts = [t] ∧ t.kind = .INTEGER ∧ t.value = .int n) := by
  intro s ws rest hi ht hws hst
  have hne : ∀ c r, rest = c :: r → c ∈ [' ', ')', ',', ']'] := fun c r h => hst c (by rw [h]; rfl)
  obtain ⟨t, s', h1, h2, h3, -, h5⟩ := integer_ahead hi ws (natText n) rest n (by rw [ht]; simp) hws (natText_literal n)
    (fun c r h => by
      have := hne c r h
      simp only [List.mem_cons, List.not_mem_nil, or_false] at this
      refine ⟨?_, ?_, ?_⟩
      · rw [isDigit_hex]; rcases this with rfl | rfl | rfl | rfl <;> decide
      · rcases this with rfl | rfl | rfl | rfl <;> decide
      · rcases this with rfl | rfl | rfl | rfl <;> intro h <;> exact absurd h (by decide))
    (fun _ h => by have := hst 'x' h; simp at this)
  exact ⟨_, _, ⟨t, rfl, h2, h3⟩, .cons h1 (by rw [h2]; simp) .nil, (token_inv hi h1).1, h5⟩

end Verif.Lemmas
