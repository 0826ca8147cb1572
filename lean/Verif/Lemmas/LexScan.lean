import Verif.Lemmas.LexTokens
/-!
# Lemmas about single scans
-/
namespace Verif.Lemmas
open Verif.Model Verif.Spec

theorem advN_inj_pos {a b : Nat} {s : LexState} (h : advN a s = advN b s) : a = b := by
  have := congrArg LexState.pos h
  simp at this; exact this

theorem not_lexError_ok {s : LexState} {k a b s' k' b'}
    (h : lexError s k a b = .ok s' k' b') : False := lexError_ne_ok _ _ _ _ _ _ _ h

theorem numLoop_kind (st : Nat) : ∀ (l : List Char) (s : LexState) (v : NumSt) (s' k b),
    (v.kind = .INTEGER ∨ v.kind = .DECIMAL) → numLoop st l s v = .ok s' k b →
    k = .INTEGER ∨ k = .DECIMAL
  | [], s, v, s', k, b, hv, h => by
    unfold numLoop at h
    split at h
    · exact (not_lexError_ok h).elim
    · cases h; exact hv
  | c :: r, s, v, s', k, b, hv, h => by
    have ih := fun s v => numLoop_kind st r s v s' k b
    unfold numLoop at h
    repeat' split at h
    all_goals first
      | exact (not_lexError_ok h).elim
      | exact ih _ _ (by exact hv) h
      | exact ih _ _ (Or.inr rfl) h
      | (cases h; exact hv)

theorem number_kind (st : Nat) (s : LexState) (c : Char) (s' k b)
    (h : number st s c = .ok s' k b) : k = .INTEGER ∨ k = .DECIMAL := by
  unfold number at h
  repeat' split at h
  all_goals exact numLoop_kind _ _ _ _ _ _ _ (Or.inl rfl) h

theorem tripleLoop_kind (q : Char) (st : Nat) : ∀ (l : List Char) (s : LexState) (n : Nat) (s' k b),
    tripleLoop q st l s n = .ok s' k b → k = .STRING
  | [], s, n, s', k, b, h => by unfold tripleLoop at h; exact (not_lexError_ok h).elim
  | c :: r, s, n, s', k, b, h => by
    have ih := fun s n => tripleLoop_kind q st r s n s' k b
    unfold tripleLoop at h
    dsimp only at h
    generalize (if s.advance.cc = some q then n + 1 else 0) = seen' at h
    split at h
    · exact (not_lexError_ok h).elim
    · split at h
      · exact ih _ _ h
      · cases h; rfl

theorem simpleString_kind (st : Nat) (l : List Char) (s : LexState) (s' k b)
    (h : simpleString st l s = .ok s' k b) : k = .STRING := by
  fun_induction simpleString st l s
  case case1 => exact (not_lexError_ok h).elim
  case case2 => cases h; rfl
  case case3 => exact (not_lexError_ok h).elim
  case case4 ih => exact ih h
  case case5 ih => exact ih h
  case case6 ih => exact ih h

theorem singleQuote_kind (st : Nat) (s : LexState) (s' k b)
    (h : singleQuote st s = .ok s' k b) : k = .STRING := by
  unfold singleQuote at h
  dsimp only at h
  split at h
  · exact (not_lexError_ok h).elim
  · split at h
    · exact (not_lexError_ok h).elim
    · exact tripleLoop_kind _ _ _ _ _ _ _ _ h

theorem punct_kind {c : Char} {k : Kind} (h : punctuation c = some k) :
    k ≠ .IDENTIFIER ∧ k ≠ .KEYWORD ∧ k ≠ .INTEGER ∧ k ≠ .DECIMAL ∧ k ≠ .STRING ∧ k ≠ .COMMENT := by
  unfold punctuation at h
  split at h <;> first | (cases h; decide) | cases h

theorem alpha_ne {c d : Char} (h : isAlpha c = true) (hd : isAlpha d = false) : c ≠ d := by
  rintro rfl; rw [h] at hd; cases hd

theorem scan_alpha {s : LexState} {c : Char} (h : isAlpha c = true) :
    scan s c = .ok (advWhile (ncIs (fun d => isAlnum d || d == '_')) s.todo s) .IDENTIFIER 0 := by
  have : c ≠ '/' := alpha_ne h (by decide)
  unfold scan
  simp [this, h]

/-- The kinds that a scan of a word-free start can give. -/
theorem scan_nonalpha_kind {s s' : LexState} {c : Char} {k : Kind} {b : Nat}
    (hc : isAlpha c = false) (h : scan s c = .ok s' k b) : k ≠ .IDENTIFIER ∧ k ≠ .KEYWORD := by
  revert h
  fun_cases scan s c
  all_goals intro h
  all_goals first
    | exact (not_lexError_ok h).elim
    | (have := tripleLoop_kind _ _ _ _ _ _ _ _ h; subst this; simp; done)
    | (have := simpleString_kind _ _ _ _ _ _ h; subst this; simp; done)
    | (have := singleQuote_kind _ _ _ _ _ h; subst this; simp; done)
    | (rcases number_kind _ _ _ _ _ _ h with rfl | rfl <;> simp; done)
    | (simp_all; done)
    | (rename_i hp; cases h; have := punct_kind hp; exact ⟨this.1, this.2.1⟩)
    | (cases h; simp)

/-- Text of a token whose scan took `m` steps and did not run past the end. -/
theorem slice_eq (content : List Char) (p m : Nat) (h : p + m < content.length) :
    slice content p (min (p + m) (content.length - 1)) = (content.drop p).take (m + 1) := by
  unfold slice
  have : min (p + m) (content.length - 1) = p + m := by omega
  rw [this]; congr 1; omega

theorem finish_word {k : Kind} {b : Nat} {text : List Char} {k' : Kind} {v : TokVal}
    (h : (k', v) = finishToken k b text) :
    (k' = .IDENTIFIER ∨ k' = .KEYWORD) ↔ (k = .IDENTIFIER ∨ k = .KEYWORD) := by
  unfold finishToken at h
  split at h
  all_goals
    first
    | (split at h <;> (simp only [Prod.mk.injEq] at h; obtain ⟨rfl, _⟩ := h; simp_all; done))
    | (simp only [Prod.mk.injEq] at h; obtain ⟨rfl, _⟩ := h; split <;> simp_all; done)
    | (simp only [Prod.mk.injEq] at h; obtain ⟨rfl, _⟩ := h; simp_all; done)
    | (repeat' split at h
       all_goals (simp only [Prod.mk.injEq] at h; obtain ⟨rfl, _⟩ := h; simp_all; done))
    | (dsimp only at h
       repeat' split at h
       all_goals (simp only [Prod.mk.injEq] at h; obtain ⟨rfl, _⟩ := h; simp_all; done))

end Verif.Lemmas
