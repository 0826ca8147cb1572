import Verif.Props.ExampleStrings
/-!
# C45: when the value of a triple-quoted string is the one of the reference manual
-/
namespace Verif.Props
open Verif.Model Verif.Spec Verif.Lemmas

private theorem join_cancel {a b : List Char} : ∀ {l : List (List Char)}, joinLines (a :: l) = joinLines (b :: l) → a = b
  | [], h => h
  | c :: l, h => by
    simp only [joinLines] at h
    exact List.append_cancel_right h

/-- **C45**, exactly when the rule of the reference manual holds: the value of a triple-quoted string is the one the
reference manual prescribes if and only if the first line of the trimmed text has no trailing white space. -/
theorem C45_lrm_iff (q : Char) (body : List Char) :
    LrmValue body (tripleQuotedValue ([q,q,q] ++ body ++ [q,q,q])) ↔
      ∀ m first rest c, IsTrimmed body m → splitlines m = first :: rest → first.getLast? = some c → isSpace c = false := by
  refine ⟨fun h => ?_, C45_lrm_value_partial q body⟩
  intro m first rest c hm hsp hc
  have hcode := C45_triple_value q body
  obtain ⟨m1, hm1, h⟩ := h
  obtain ⟨m2, hm2, h'⟩ := hcode
  obtain rfl := trimmed_unique hm hm1
  obtain rfl := trimmed_unique hm hm2
  rcases h with ⟨e, -⟩ | ⟨f1, r1, i1, g1, t1, a1, a2, a3, a4, a5⟩
  · rw [e] at hsp
    cases hsp
  rcases h' with ⟨e, -⟩ | ⟨f2, r2, i2, t2, b1, b2, b4, b5⟩
  · rw [e] at hsp
    cases hsp
  rw [hsp] at a1 b1
  cases a1
  cases b1
  have ht : t1 = t2 := by
    by_cases hr : rest = []
    · subst hr
      cases a4
      cases b4
      rfl
    · have e : i1 = i2 := by
        have a := a2.resolve_left hr
        have b := b2.resolve_left hr
        exact (b.2.2 i1 a.1 a.2.1).eq_of_length_le (a.2.2 i2 b.1 b.2.1).length_le
      subst e
      exact forall2_unique (R := fun (l t : List Char) => IsRTrimmed (l.drop i1.length) t)
        (fun _ _ _ h h' => rtrimmed_unique h h') a4 b4
  subst ht
  rw [a5] at b5
  obtain rfl := join_cancel b5
  obtain ⟨-, -, -, h⟩ := a3
  exact h c hc

/-- the right side holds of a text with indentation and of one without -/
example : ∀ m first rest c, IsTrimmed "a\n  b ".toList m → splitlines m = first :: rest → first.getLast? = some c →
    isSpace c = false := by
  intro m first rest c hm hs hc
  obtain rfl : m = "a\n  b".toList := trimmed_unique hm ⟨[], [' '], rfl, by simp, by simp; decide,
    by intro c hc; cases hc; decide, by intro c hc; cases hc; decide⟩
  have : splitlines "a\n  b".toList = ["a".toList, "  b".toList] := by decide +kernel
  rw [this] at hs
  cases hs
  cases hc
  decide

end Verif.Props
