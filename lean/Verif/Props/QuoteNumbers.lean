import Verif.Model.Quote
import Verif.Props.ExampleNumbers
/-!
# C81: how decimal literals are quoted
-/
namespace Verif.Props
open Verif.Model Verif.Spec

/-- a number written as integer or as quotient of integers in lowest terms -/
inductive ShowsRat : List Char → Rat → Prop
  | whole {t : List Char} {i : Int} : ShowsInt t i → ShowsRat t i
  | quotient {t u : List Char} {i : Int} {n : Nat} : ShowsInt t i → IntLiteral u n → 1 < n → i.natAbs.Coprime n →
      ShowsRat (t ++ '/' :: u) ((i : Rat) / n)

theorem pyFractionText_spec (q : Rat) : ShowsRat (pyFractionText q) q := by
  unfold pyFractionText
  split
  · next h =>
    have := ShowsRat.whole (C79_integer q.num)
    rwa [show ((q.num : Int) : Rat) = q from Rat.coe_int_num_of_den_eq_one h] at this
  · next h =>
    have := ShowsRat.quotient (C79_integer q.num) (natText_literal q.den)
      (by have := q.den_pos; omega) q.reduced
    rwa [Rat.num_div_den] at this

theorem intText_no_slash (i : Int) : '/' ∉ intText i := by
  have key : ∀ n, '/' ∉ natText n := by
    intro n
    have key : ∀ d < 10, digitText d ≠ '/' := by decide
    unfold natText
    split
    · decide
    · intro hc
      obtain ⟨d, hd, e⟩ := List.mem_map.1 hc
      exact key d (Nat.digits_lt_base (by norm_num) (List.mem_reverse.1 hd)) e
  unfold intText
  split
  · intro h
    rcases List.mem_cons.1 h with h | h
    · exact absurd h (by decide)
    · exact key _ h
  · exact key _

theorem intText_inj {i j : Int} (h : intText i = intText j) : i = j := by
  have key : ∀ n, '-' ∉ natText n := by
    intro n
    have key : ∀ d < 10, digitText d ≠ '-' := by decide
    unfold natText
    split
    · decide
    · intro hc
      obtain ⟨d, hd, e⟩ := List.mem_map.1 hc
      exact key d (Nat.digits_lt_base (by norm_num) (List.mem_reverse.1 hd)) e
  unfold intText at h
  split at h <;> split at h
  · have := natText_inj (List.cons.inj h).2
    omega
  · exact absurd (h ▸ List.mem_cons_self) (key j.natAbs)
  · exact absurd (h ▸ List.mem_cons_self) (key i.natAbs)
  · have := natText_inj h
    omega

/-- **C81**, what can be told from the text of a decimal literal: it shows the value as integer or fraction, and
different values are shown differently. -/
theorem C81_decimal (names : Nat → String) (q : Rat) : ShowsRat (Expr.quote names (.dec q)) q ∧
    ∀ q', Expr.quote names (.dec q) = Expr.quote names (.dec q') → q = q' := by
  refine ⟨?_, ?_⟩
  · unfold Expr.quote
    exact pyFractionText_spec q
  · intro q' h
    unfold Expr.quote at h
    unfold pyFractionText at h
    split at h <;> split at h
    · next h1 h2 =>
      have := intText_inj h
      exact Rat.ext this (h1.trans h2.symm)
    · exact absurd (h ▸ (by simp)) (intText_no_slash q.num)
    · exact absurd (h ▸ (by simp)) (intText_no_slash q'.num)
    · obtain ⟨e1, e2⟩ := first_split (intText_no_slash _) (intText_no_slash _) h
      exact Rat.ext (intText_inj e1) (natText_inj e2)

example : Expr.quote (fun _ => "") (.dec (-3/2)) = "-3/2".toList := by decide +kernel

end Verif.Props
