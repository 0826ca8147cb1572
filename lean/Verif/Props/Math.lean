import Verif.Model.Math
import Mathlib.Tactic.Ring
import Mathlib.Tactic.Linarith
import Mathlib.Tactic.FieldSimp
import Mathlib.Algebra.Order.Field.Basic
/-!
# Properties C08 and C09 (and the arithmetic part of C24)
-/
namespace Verif.Props
open Verif.Model

/-! ## Specification (C08) -/

/-- LRM `Remainder_Semantics`: `x = y*N + r` for some `N`, and `r` is 0 or has the
sign of `y` and an absolute value less than that of `y`. -/
def LrmRemainder (x y r : Int) : Prop :=
  (∃ N, x = y * N + r) ∧ (r = 0 ∨ (r.sign = y.sign ∧ r.natAbs < y.natAbs))

/-- The remainder of truncating division, described without division: it differs
from `x` by a multiple of `y`, is smaller than `y` in absolute value, and is 0 or
has the sign of `x`. -/
def TruncRemainder (x y r : Int) : Prop :=
  (∃ N, x = y * N + r) ∧ r.natAbs < y.natAbs ∧ (r = 0 ∨ r.sign = x.sign)

/-! ## Theorems -/

private theorem remainder_eq_tmod (x y : Int) (hy : y ≠ 0) :
    remainder x y = some (x.tmod y) := by
  have hb : y.natAbs ≠ 0 := by omega
  have e : x.tmod y = if 0 ≤ x then ((x.natAbs % y.natAbs : Nat) : Int)
      else -((x.natAbs % y.natAbs : Nat) : Int) := by
    cases x with
    | ofNat m => cases y <;> simp [Int.tmod]
    | negSucc m =>
      have : ¬ (0 ≤ Int.negSucc m) := by omega
      cases y <;> simp [Int.tmod]
  unfold remainder pyNatMod
  simp only [hb, if_false, ge_iff_le, e]
  split <;> rfl

private theorem tmod_spec (x y : Int) (hy : y ≠ 0) : TruncRemainder x y (x.tmod y) := by
  refine ⟨⟨x.tdiv y, ?_⟩, ?_, ?_⟩
  · have := Int.mul_tdiv_add_tmod x y; omega
  · have := Int.natAbs_tmod x y
    rw [this]; exact Nat.mod_lt _ (by omega)
  · by_cases h0 : x.tmod y = 0
    · exact Or.inl h0
    · right
      rcases Int.lt_trichotomy x 0 with hx | hx | hx
      · have h1 : 0 ≤ (-x).tmod y := Int.tmod_nonneg y (by omega)
        rw [Int.neg_tmod] at h1
        rw [Int.sign_eq_neg_one_of_neg hx, Int.sign_eq_neg_one_of_neg (by omega)]
      · subst hx; simp at h0
      · have h1 : 0 ≤ x.tmod y := Int.tmod_nonneg y (by omega)
        rw [Int.sign_eq_one_of_pos hx, Int.sign_eq_one_of_pos (by omega)]

/-- **C08 (what the code does, for all operands).**  For every non-zero divisor
the remainder exists and is *the* truncating remainder: no other number satisfies
`TruncRemainder`; and negating the dividend negates the result. -/
theorem C08_remainder_is_truncating (x y : Int) (hy : y ≠ 0) :
    ∃ r, remainder x y = some r ∧ TruncRemainder x y r
      ∧ (∀ r', TruncRemainder x y r' → r' = r)
      ∧ remainder (-x) y = some (-r) := by
  refine ⟨x.tmod y, remainder_eq_tmod x y hy, tmod_spec x y hy, ?_, ?_⟩
  · rintro r' ⟨⟨N, hN⟩, hlt, hs⟩
    obtain ⟨⟨M, hM⟩, hlt', hs'⟩ := tmod_spec x y hy
    generalize x.tmod y = r at *
    -- r' - r is a multiple of y with absolute value below |y|
    have hmul : r' - r = y * (M - N) := by rw [Int.mul_sub]; omega
    have hlt2 : (r' - r).natAbs < y.natAbs := by
      rcases Int.lt_trichotomy x 0 with hx | hx | hx
      · have e := Int.sign_eq_neg_one_of_neg hx
        have a : r' ≤ 0 := by
          rcases hs with h | h
          · omega
          · rw [e] at h; exact Int.le_of_lt (Int.sign_eq_neg_one_iff_neg.mp h)
        have b : r ≤ 0 := by
          rcases hs' with h | h
          · omega
          · rw [e] at h; exact Int.le_of_lt (Int.sign_eq_neg_one_iff_neg.mp h)
        omega
      · subst hx
        have a : r' = 0 := by
          rcases hs with h | h
          · exact h
          · exact Int.sign_eq_zero_iff_zero.mp (by simpa using h)
        have b : r = 0 := by
          rcases hs' with h | h
          · exact h
          · exact Int.sign_eq_zero_iff_zero.mp (by simpa using h)
        omega
      · have e := Int.sign_eq_one_of_pos hx
        have a : 0 ≤ r' := by
          rcases hs with h | h
          · omega
          · rw [e] at h; exact Int.le_of_lt (Int.sign_eq_one_iff_pos.mp h)
        have b : 0 ≤ r := by
          rcases hs' with h | h
          · omega
          · rw [e] at h; exact Int.le_of_lt (Int.sign_eq_one_iff_pos.mp h)
        omega
    rw [hmul, Int.natAbs_mul] at hlt2
    have : (M - N).natAbs = 0 := by
      rcases Nat.eq_zero_or_pos (M - N).natAbs with h | h
      · exact h
      · have := Nat.le_mul_of_pos_right y.natAbs h; omega
    have : M - N = 0 := by omega
    rw [this] at hmul; omega
  · rw [remainder_eq_tmod _ _ hy, Int.neg_tmod]

example : (7 : Int) ≠ 0 ∧ remainder (-5) 7 = some (-5) := by decide

/-- The zero divisor is the only operand without a remainder (Python raises
`ZeroDivisionError`; the evaluator guards against it, see C24). -/
theorem C08_remainder_zero (x y : Int) : remainder x y = none ↔ y = 0 := by
  constructor
  · intro h
    by_cases hy : y = 0
    · exact hy
    · rw [remainder_eq_tmod x y hy] at h; cases h
  · rintro rfl; simp [remainder, pyNatMod]

/-- **C08 is violated by the code**: the reference manual's sign rule fails. -/
theorem C08_lrm_sign_rule_violated :
    ∃ x y r, y ≠ 0 ∧ remainder x y = some r ∧ ¬ LrmRemainder x y r :=
  ⟨-5, 2, -1, by decide, by decide, by
    rintro ⟨_, h | ⟨h, _⟩⟩
    · exact absurd h (by decide)
    · exact absurd h (by decide)⟩

/-- **C08 (partial)**: the code agrees with the manual exactly when the remainder
is 0 or dividend and divisor have the same sign.  (Missing for the full property:
operands of opposite sign with non-zero remainder, where the code is wrong.) -/
theorem C08_lrm_remainder_partial (x y : Int) (hy : y ≠ 0) :
    ∃ r, remainder x y = some r ∧
      (LrmRemainder x y r ↔ (r = 0 ∨ x.sign = y.sign)) := by
  refine ⟨x.tmod y, remainder_eq_tmod x y hy, ?_⟩
  obtain ⟨hN, hlt, hs⟩ := tmod_spec x y hy
  unfold LrmRemainder
  constructor
  · rintro ⟨_, h | ⟨h, _⟩⟩
    · exact Or.inl h
    · rcases hs with h' | h'
      · exact Or.inl h'
      · exact Or.inr (h' ▸ h)
  · intro h
    refine ⟨hN, ?_⟩
    rcases hs with h' | h'
    · exact Or.inl h'
    · rcases h with h | h
      · exact Or.inl h
      · exact Or.inr ⟨h' ▸ h, hlt⟩

/-! ## C09 -/

/-- "rounds to the nearest integral, away from zero in the case of ties"
(LRM `Integer_Conversion_Semantics`). -/
def NearestAway (v : Rat) (n : Int) : Prop :=
  (∀ m : Int, |v - n| ≤ |v - m|) ∧ (∀ m : Int, |v - m| = |v - n| → |(m : Rat)| ≤ |(n : Rat)|)

private theorem nearest_of_bounds_nonneg (v : Rat) (n : Int) (hv : 0 ≤ v)
    (h1 : (n : Rat) ≤ v + 1/2) (h2 : v + 1/2 < n + 1) : NearestAway v n := by
  have key : ∀ m : Int, m ≠ n → m ≤ n - 1 ∨ n + 1 ≤ m := fun m h => by omega
  have hn0 : (0 : Rat) ≤ n := by
    have : (-1 : Rat) < n := by linarith
    have : (-1 : Int) < n := by exact_mod_cast this
    have : (0 : Int) ≤ n := by omega
    exact_mod_cast this
  constructor
  · intro m
    by_cases hm : m = n
    · rw [hm]
    rcases key m hm with h | h
    · have h' : (m : Rat) ≤ n - 1 := by exact_mod_cast h
      rw [abs_of_nonneg (by linarith : (0 : Rat) ≤ v - m)]
      apply abs_le.mpr; constructor <;> linarith
    · have h' : (n : Rat) + 1 ≤ m := by exact_mod_cast h
      rw [abs_of_nonpos (by linarith : v - (m : Rat) ≤ 0)]
      apply abs_le.mpr; constructor <;> linarith
  · intro m he
    by_cases hm : m = n
    · rw [hm]
    rcases key m hm with h | h
    · have h' : (m : Rat) ≤ n - 1 := by exact_mod_cast h
      rw [abs_of_nonneg hn0]
      rw [abs_of_nonneg (by linarith : (0 : Rat) ≤ v - m)] at he
      have hle : |v - (n : Rat)| ≤ 1/2 := by apply abs_le.mpr; constructor <;> linarith
      apply abs_le.mpr; constructor <;> linarith
    · have h' : (n : Rat) + 1 ≤ m := by exact_mod_cast h
      rw [abs_of_nonpos (by linarith : v - (m : Rat) ≤ 0)] at he
      have hle : |v - (n : Rat)| ≤ 1/2 := by apply abs_le.mpr; constructor <;> linarith
      exfalso; linarith

private theorem round_neg (v : Rat) (hv : v < 0) :
    roundNearestAway v = - roundNearestAway (-v) := by
  unfold roundNearestAway
  rw [if_neg (by linarith), if_pos (by linarith : (-v : Rat) ≥ 0)]
  have : v - 1/2 = -(-v + 1/2) := by ring
  rw [this, Rat.ceil_eq_neg_floor_neg, neg_neg]

/-- **C09**: `Integer(d)` is a nearest integer, and the one farthest from zero
among the nearest ones; it is the only integer with this property. -/
theorem C09_round_nearest_away (v : Rat) :
    NearestAway v (roundNearestAway v)
      ∧ (∀ n, NearestAway v n → n = roundNearestAway v) := by
  have main : ∀ v : Rat, 0 ≤ v → NearestAway v (roundNearestAway v) := by
    intro v hv
    apply nearest_of_bounds_nonneg v _ hv
    · unfold roundNearestAway; rw [if_pos hv]; exact Rat.floor_le _
    · unfold roundNearestAway; rw [if_pos hv]
      have := Rat.lt_floor_add_one (v + 1/2); push_cast at this; exact this
  have all : NearestAway v (roundNearestAway v) := by
    rcases lt_or_ge v 0 with hv | hv
    · rw [round_neg v hv]
      obtain ⟨h1, h2⟩ := main (-v) (by linarith)
      generalize roundNearestAway (-v) = n at *
      have conv : ∀ k : Int, |v - ((-k : Int) : Rat)| = |-v - (k : Rat)| := by
        intro k; rw [← abs_neg]; congr 1; push_cast; ring
      have conv' : ∀ k : Int, |v - (k : Rat)| = |-v - ((-k : Int) : Rat)| := by
        intro k; rw [← abs_neg]; congr 1; push_cast; ring
      constructor
      · intro m; rw [conv n, conv' m]; exact h1 (-m)
      · intro m hm
        rw [conv n, conv' m] at hm
        have := h2 (-m) hm
        push_cast at this ⊢
        rw [abs_neg] at this ⊢; exact this
    · exact main v hv
  refine ⟨all, ?_⟩
  intro n hn
  obtain ⟨a1, a2⟩ := all
  obtain ⟨b1, b2⟩ := hn
  generalize roundNearestAway v = r at *
  have e : |v - (n : Rat)| = |v - (r : Rat)| := le_antisymm (b1 r) (a1 n)
  have ea : |(n : Rat)| = |(r : Rat)| := le_antisymm (a2 n e) (b2 r e.symm)
  rcases abs_eq_abs.mp ea with h | h
  · exact_mod_cast h
  · -- n = -r : then r is no farther than 0 from v; forces r = 0
    rw [h] at e
    have z := a1 0
    simp only [Int.cast_zero, sub_zero] at z
    have hz : (r : Rat) = 0 := by
      rcases abs_eq_abs.mp e with h' | h'
      · linarith
      · have hv0 : v = 0 := by linarith
        rw [hv0] at z; simp at z; exact_mod_cast z
    rw [hz] at h; 
    have : (n : Rat) = (r : Rat) := by rw [h, hz]; simp
    exact_mod_cast this

example : roundNearestAway (5/2) = 3 ∧ roundNearestAway (-5/2) = -3
    ∧ roundNearestAway (-(1/2)) = -1 ∧ roundNearestAway (12/5) = 2 := by decide +kernel

/-- **C09 (symmetry)**. -/
theorem C09_round_odd (v : Rat) : roundNearestAway (-v) = - roundNearestAway v := by
  rcases lt_trichotomy v 0 with h | h | h
  · rw [round_neg v h]; simp
  · subst h; decide +kernel
  · have := round_neg (-v) (by linarith); simpa using this

/-! ## C24, arithmetic part: floor division -/

/-- `a // b` is the unique `q` with `b*q ≤ a < b*(q+1)` for positive divisors and
`b*(q+1) < a ≤ b*q` for negative ones, i.e. the floor of the exact quotient. -/
theorem C24_floor_division (a b : Int) (hb : b ≠ 0) :
    ∃ q : Int, pyFloorDiv a b = some q ∧ (q : Rat) ≤ (a : Rat) / b ∧ (a : Rat) / b < q + 1 := by
  refine ⟨a.fdiv b, by simp [pyFloorDiv, hb], ?_⟩
  have h1 := Int.mul_fdiv_add_fmod a b
  have hcast : (a : Rat) = b * (a.fdiv b : Int) + (a.fmod b : Int) := by exact_mod_cast h1.symm
  rcases lt_or_gt_of_ne hb with h | h
  · have hlt : (b : Rat) < 0 := by exact_mod_cast h
    have f1 : a.fmod b ≤ 0 := by
      have h2 := Int.fmod_nonneg_of_pos (-a) (b := -b) (by omega)
      have h3 : a.fmod b = -((-a).fmod (-b)) := by
        have := Int.neg_fmod_neg a b; omega
      omega
    have f2 : b < a.fmod b := by
      have h2 := Int.fmod_lt_of_pos (-a) (b := -b) (by omega)
      have h3 : a.fmod b = -((-a).fmod (-b)) := by
        have := Int.neg_fmod_neg a b; omega
      omega
    have f1' : ((a.fmod b : Int) : Rat) ≤ 0 := by exact_mod_cast f1
    have f2' : (b : Rat) < ((a.fmod b : Int) : Rat) := by exact_mod_cast f2
    constructor
    · have : (a : Rat) / b = (a.fdiv b : Int) + (a.fmod b : Int) / b := by
        rw [hcast]; field_simp
      rw [this]; have := div_nonneg_of_nonpos f1' hlt.le; linarith
    · have : (a : Rat) / b = (a.fdiv b : Int) + (a.fmod b : Int) / b := by
        rw [hcast]; field_simp
      rw [this]
      have : ((a.fmod b : Int) : Rat) / b < 1 := by
        rw [← neg_div_neg_eq, div_lt_one (by linarith)]; linarith
      linarith
  · have hgt : (0 : Rat) < b := by exact_mod_cast h
    have f1 := Int.fmod_nonneg_of_pos a h
    have f2 := Int.fmod_lt_of_pos a h
    have f1' : (0 : Rat) ≤ ((a.fmod b : Int) : Rat) := by exact_mod_cast f1
    have f2' : ((a.fmod b : Int) : Rat) < b := by exact_mod_cast f2
    constructor
    · rw [le_div_iff₀ hgt]; linarith
    · rw [div_lt_iff₀ hgt]; linarith

/-- Exactly division by zero has no result. -/
theorem C24_floor_division_zero (a b : Int) : pyFloorDiv a b = none ↔ b = 0 := by
  unfold pyFloorDiv; split <;> simp_all

/-- Division and remainder do *not* fit together (`a = (a/b)*b + a%b` fails),
since `/` floors while `%` truncates. -/
theorem C24_div_mod_mismatch :
    ∃ a b q r, b ≠ 0 ∧ pyFloorDiv a b = some q ∧ remainder a b = some r ∧ a ≠ q * b + r :=
  ⟨-5, 2, -3, -1, by decide⟩

end Verif.Props
