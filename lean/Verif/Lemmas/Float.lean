import Verif.Spec.Export
import Mathlib.Tactic.Linarith
import Mathlib.Tactic.Ring
import Mathlib.Tactic.FieldSimp
import Mathlib.Tactic.NormNum
import Mathlib.Tactic.Positivity
import Mathlib.Algebra.Order.Field.Power
import Mathlib.Algebra.Order.AbsoluteValue.Basic
/-!
# Rounding to double precision
-/
namespace Verif.Lemmas
open Verif.Model Verif.Spec

theorem roundHalfEven_near (q : Rat) (k : Int) : |q - roundHalfEven q| ≤ |q - k| := by
  have h0 : (q.floor : Rat) ≤ q := Rat.floor_le q
  have h1 : q < q.floor + 1 := by
    have := Rat.lt_floor_add_one q
    push_cast at this
    exact this
  generalize hf : q.floor = f at *
  have key : ∀ k : Int, (k ≤ f ∧ (k : Rat) ≤ f) ∨ (f + 1 ≤ k ∧ (f : Rat) + 1 ≤ k) := by
    intro k
    rcases lt_or_ge f k with h | h
    · right; exact ⟨h, by exact_mod_cast h⟩
    · left; exact ⟨h, by exact_mod_cast h⟩
  unfold roundHalfEven
  rw [hf]
  have ka : |q - (f : Rat)| = q - f := abs_of_nonneg (by linarith)
  have kb : |q - ((f + 1 : Int) : Rat)| = f + 1 - q := by
    push_cast
    rw [abs_of_nonpos (by linarith)]
    ring
  have lo : ∀ k : Int, (k : Rat) ≤ f → q - f ≤ |q - k| := fun k h => by
    rw [abs_of_nonneg (by linarith)]; linarith
  have hi : ∀ k : Int, (f : Rat) + 1 ≤ k → f + 1 - q ≤ |q - k| := fun k h => by
    rw [abs_of_nonpos (by linarith)]; linarith
  split
  · rw [ka]
    rcases key k with ⟨-, h⟩ | ⟨-, h⟩
    · exact lo k h
    · have := hi k h; linarith
  · split
    · rw [kb]
      rcases key k with ⟨-, h⟩ | ⟨-, h⟩
      · have := lo k h; linarith
      · exact hi k h
    · have he : q - f = 1 / 2 := by linarith
      split
      · rw [ka]
        rcases key k with ⟨-, h⟩ | ⟨-, h⟩
        · exact lo k h
        · have := hi k h; linarith
      · rw [kb]
        rcases key k with ⟨-, h⟩ | ⟨-, h⟩
        · have := lo k h; linarith
        · exact hi k h

theorem roundHalfEven_le {q : Rat} {k : Int} (h : q ≤ k) : roundHalfEven q ≤ k := by
  by_contra hc
  have h1 := roundHalfEven_near q k
  have h2 : (k : Rat) + 1 ≤ roundHalfEven q := by exact_mod_cast Int.add_one_le_of_lt (Int.not_le.1 hc)
  rw [abs_of_nonpos (by linarith), abs_of_nonpos (by linarith)] at h1
  linarith

theorem le_roundHalfEven {q : Rat} {k : Int} (h : k ≤ q) : k ≤ roundHalfEven q := by
  by_contra hc
  have h1 := roundHalfEven_near q k
  have h2 : (roundHalfEven q : Rat) + 1 ≤ k := by exact_mod_cast Int.add_one_le_of_lt (Int.not_le.1 hc)
  rw [abs_of_nonneg (by linarith), abs_of_nonneg (by linarith)] at h1
  linarith

theorem two_pos' (e : Int) : (0 : Rat) < 2 ^ e := by positivity

theorem split_pow {e e' : Int} (h : e ≤ e') : ∃ k : Int, (2 : Rat) ^ e' = k * 2 ^ e := by
  refine ⟨2 ^ (e' - e).toNat, ?_⟩
  have : e' = ((e' - e).toNat : Int) + e := by omega
  conv => lhs; rw [this, zpow_add₀ (by norm_num)]
  push_cast
  rw [zpow_natCast]

theorem isDouble_neg {r : Rat} (h : IsDouble r) : IsDouble (-r) := by
  obtain ⟨m, e, h1, h2, h3, rfl⟩ := h
  exact ⟨-m, e, by rwa [abs_neg], h2, h3, by push_cast; ring⟩

theorem nearest_neg {q r : Rat} (h : Nearest q r) : Nearest (-q) (-r) := by
  refine ⟨by rw [abs_neg]; exact h.1, isDouble_neg h.2.1, fun d hd => ?_⟩
  have := h.2.2 (-d) (isDouble_neg hd)
  rw [show -q - -r = -(q - r) by ring, show -q - d = -(q - -d) by ring, abs_neg, abs_neg]
  exact this

/-- the rounded number, as an integer multiple of the last bit, is next to `q` among these -/
theorem rounded_near {q : Rat} (e k : Int) :
    |q - (roundHalfEven (q / 2 ^ e) : Rat) * 2 ^ e| ≤ |q - k * 2 ^ e| := by
  have h := roundHalfEven_near (q / 2 ^ e) k
  have hp := two_pos' e
  have t : ∀ x : Rat, |q - x * 2 ^ e| = |q / 2 ^ e - x| * 2 ^ e := by
    intro x
    rw [← abs_of_pos hp, ← abs_mul, abs_of_pos hp, sub_mul, div_mul_cancel₀ _ hp.ne']
  rw [t, t]
  exact mul_le_mul_of_nonneg_right h hp.le

theorem log_bounds {q : Rat} (h : 0 < q) : (2 : Rat) ^ Int.log 2 q ≤ q ∧ q < 2 ^ (Int.log 2 q + 1) := by
  refine ⟨?_, ?_⟩
  · have := Int.zpow_log_le_self (b := 2) (by norm_num) h
    simpa using this
  · have := Int.lt_zpow_succ_log_self (b := 2) (by norm_num) q
    simpa using this

theorem toFloatPos_big {q : Rat} (h : 2 ^ (1024 : Int) ≤ q) : toFloatPos q = none := by
  have hq : 0 < q := lt_of_lt_of_le (by positivity) h
  obtain ⟨-, hl2⟩ := log_bounds hq
  obtain ⟨hl1, -⟩ := log_bounds hq
  have h1 : (2 : Rat) ^ (1024 : Int) < 2 ^ (Int.log 2 q + 1) := h.trans_lt hl2
  have h2 := (zpow_lt_zpow_iff_right₀ (by norm_num : (1 : Rat) < 2)).1 h1
  have he : floatExp q = Int.log 2 q - 52 := by unfold floatExp; rw [max_eq_left]; omega
  unfold toFloatPos
  dsimp only
  rw [if_pos]
  rw [he]
  have hp := two_pos' (Int.log 2 q - 52)
  have h3 : ((2 ^ 52 : Int) : Rat) * 2 ^ (Int.log 2 q - 52) = 2 ^ Int.log 2 q := by
    have : Int.log 2 q = 52 + (Int.log 2 q - 52) := by omega
    conv => rhs; rw [this, zpow_add₀ (by norm_num)]
    exact_mod_cast rfl
  have h4 : (2 ^ 52 : Int) ≤ roundHalfEven (q / 2 ^ (Int.log 2 q - 52)) :=
    le_roundHalfEven (by rw [le_div_iff₀ hp, h3]; exact hl1)
  have h5 : (2 : Rat) ^ (1024 : Int) ≤ 2 ^ Int.log 2 q := zpow_le_zpow_right₀ (by norm_num) (by omega)
  refine h5.trans ?_
  rw [← h3]
  refine mul_le_mul_of_nonneg_right ?_ hp.le
  exact_mod_cast h4

theorem toFloatPos_nearest {q r : Rat} (hq : 0 < q) (h : toFloatPos q = some r) : Nearest q r := by
  refine ⟨?_, ?_⟩
  · rw [abs_of_pos hq]
    by_contra hc
    rw [toFloatPos_big (le_of_not_gt hc)] at h
    cases h
  unfold toFloatPos at h
  dsimp only at h
  split at h
  · cases h
  next hr =>
  injection h with h
  rw [h] at hr
  have hlt : r < 2 ^ (1024 : Int) := lt_of_not_ge hr
  obtain ⟨hl1, hl2⟩ := log_bounds hq
  have hp := two_pos' (floatExp q)
  have hmin : -1074 ≤ floatExp q := le_max_right _ _
  have hge : Int.log 2 q - 52 ≤ floatExp q := le_max_left _ _
  set e := floatExp q with he
  set m := roundHalfEven (q / 2 ^ e) with hm
  have hnear : ∀ k : Int, |q - r| ≤ |q - k * 2 ^ e| := by
    intro k
    rw [← h]
    exact rounded_near e k
  -- the mantissa
  have hq53 : q ≤ (2 ^ 53 : Int) * 2 ^ e := by
    refine hl2.le.trans ?_
    have : (2 : Rat) ^ (Int.log 2 q + 1) ≤ 2 ^ (53 + e) := zpow_le_zpow_right₀ (by norm_num) (by omega)
    rw [zpow_add₀ (by norm_num) 53 e] at this
    push_cast
    exact this
  have hm0 : 0 ≤ m := le_roundHalfEven (by push_cast; positivity)
  have hm1 : m ≤ 2 ^ 53 := roundHalfEven_le (by rw [div_le_iff₀ hp]; exact hq53)
  have hbig : -1074 < e → (2 ^ 52 : Int) * (2 : Rat) ^ e ≤ q ∧ 2 ^ 52 ≤ m := by
    intro h1
    have h2 : e = Int.log 2 q - 52 := by
      rw [he] at h1 ⊢
      unfold floatExp at h1 ⊢
      rcases max_choice (Int.log 2 q - 52) (-1074) with h3 | h3
      · exact h3
      · omega
    have h3 : (2 ^ 52 : Int) * (2 : Rat) ^ e ≤ q := by
      refine le_trans ?_ hl1
      have : Int.log 2 q = 52 + e := by omega
      rw [this, zpow_add₀ (by norm_num)]
      exact_mod_cast le_refl _
    exact ⟨h3, le_roundHalfEven (by rw [le_div_iff₀ hp]; exact h3)⟩
  have he971 : e ≤ 971 ∧ (m = 2 ^ 53 → e ≤ 970) := by
    by_cases h1 : -1074 < e
    · have h2 := (hbig h1).2
      have h3 : (2 : Rat) ^ (52 + e) ≤ r := by
        rw [← h, zpow_add₀ (by norm_num)]
        refine mul_le_mul_of_nonneg_right ?_ hp.le
        exact_mod_cast h2
      have h4 : (2 : Rat) ^ (52 + e) < 2 ^ (1024 : Int) := h3.trans_lt hlt
      have h5 := (zpow_lt_zpow_iff_right₀ (by norm_num : (1 : Rat) < 2)).1 h4
      refine ⟨by omega, fun hmm => ?_⟩
      have h6 : (2 : Rat) ^ (53 + e) ≤ r := by
        rw [← h, zpow_add₀ (by norm_num), hmm]
        exact_mod_cast le_refl _
      have h7 : (2 : Rat) ^ (53 + e) < 2 ^ (1024 : Int) := h6.trans_lt hlt
      have h8 := (zpow_lt_zpow_iff_right₀ (by norm_num : (1 : Rat) < 2)).1 h7
      omega
    · exact ⟨by omega, fun _ => by omega⟩
  refine ⟨?_, ?_⟩
  · rcases Int.lt_or_eq_of_le hm1 with h1 | h1
    · exact ⟨m, e, by rw [abs_of_nonneg hm0]; exact h1, hmin, he971.1, h.symm⟩
    · refine ⟨2 ^ 52, e + 1, by norm_num, by omega, by have := he971.2 h1; omega, ?_⟩
      rw [← h, h1, zpow_add₀ (by norm_num)]
      push_cast
      ring
  · rintro d ⟨k, e', h1, h2, h3, rfl⟩
    by_cases h4 : e ≤ e'
    · obtain ⟨j, hj⟩ := split_pow h4
      have := hnear (k * j)
      rw [hj]
      push_cast at this
      rwa [← mul_assoc]
    · have h4 : e' < e := Int.not_le.1 h4
      obtain ⟨h5, -⟩ := hbig (by omega)
      have h6 := hnear (2 ^ 52)
      have h7 : |(k : Rat) * 2 ^ e'| ≤ (2 ^ 52 : Int) * 2 ^ e := by
        rw [abs_mul, abs_of_pos (two_pos' e')]
        have h8 : (2 : Rat) ^ (e' + 1) ≤ 2 ^ e := zpow_le_zpow_right₀ (by norm_num) (by omega)
        rw [zpow_add₀ (by norm_num)] at h8
        have h9 : |(k : Rat)| ≤ 2 ^ 53 := by exact_mod_cast h1.le
        have := two_pos' e'
        push_cast
        nlinarith
      push_cast at h5 h6 h7
      rw [abs_of_nonneg (a := q - 4503599627370496 * 2 ^ e) (by norm_num at h5 ⊢; linarith)] at h6
      norm_num at h5 h7
      have h10 := le_abs_self ((k : Rat) * 2 ^ e')
      rw [abs_mul, abs_of_pos (two_pos' e')] at h10
      have h11 := le_abs_self (q - (k : Rat) * 2 ^ e')
      linarith

theorem maxDouble_lt : maxDouble < 2 ^ (1024 : Int) := by
  unfold maxDouble
  have h : (2 : Rat) ^ (1024 : Int) = 2 ^ 53 * 2 ^ (971 : Int) := by
    rw [show (1024 : Int) = 53 + 971 by norm_num, zpow_add₀ (by norm_num)]
    congr 1
  rw [h]
  refine mul_lt_mul_of_pos_right ?_ (two_pos' 971)
  norm_num

theorem isDouble_le {d : Rat} (h : IsDouble d) : |d| ≤ maxDouble := by
  obtain ⟨m, e, h1, -, h3, rfl⟩ := h
  rw [abs_mul, abs_of_pos (two_pos' e)]
  unfold maxDouble
  have h4 : (2 : Rat) ^ e ≤ 2 ^ (971 : Int) := zpow_le_zpow_right₀ (by norm_num) h3
  have h5 : |(m : Rat)| ≤ 2 ^ 53 - 1 := by
    have : |m| ≤ 2 ^ 53 - 1 := by omega
    exact_mod_cast this
  exact mul_le_mul h5 h4 (two_pos' e).le (by norm_num)

theorem toFloatPos_none {q : Rat} (hq : 0 < q) (h : toFloatPos q = none) : maxDouble < q := by
  by_contra hc
  have hc : q ≤ maxDouble := le_of_not_gt hc
  unfold toFloatPos at h
  dsimp only at h
  split at h
  · next hr =>
    obtain ⟨hl1, -⟩ := log_bounds hq
    have h1 : (2 : Rat) ^ Int.log 2 q < 2 ^ (1024 : Int) := hl1.trans_lt (hc.trans_lt maxDouble_lt)
    have h2 := (zpow_lt_zpow_iff_right₀ (by norm_num : (1 : Rat) < 2)).1 h1
    have h3 : floatExp q ≤ 971 := max_le (by omega) (by omega)
    obtain ⟨j, hj⟩ := split_pow h3
    have hp := two_pos' (floatExp q)
    have h7 : maxDouble = (((2 ^ 53 - 1) * j : Int) : Rat) * 2 ^ floatExp q := by
      unfold maxDouble
      rw [hj]
      push_cast
      ring
    have h8 : roundHalfEven (q / 2 ^ floatExp q) ≤ (2 ^ 53 - 1) * j := by
      refine roundHalfEven_le ?_
      rw [div_le_iff₀ hp, ← h7]
      exact hc
    have h9 : (roundHalfEven (q / 2 ^ floatExp q) : Rat) * 2 ^ floatExp q ≤ maxDouble := by
      rw [h7]
      refine mul_le_mul_of_nonneg_right ?_ hp.le
      exact_mod_cast h8
    exact absurd (hr.trans h9) (not_le_of_gt maxDouble_lt)
  · cases h

theorem isDouble_zero : IsDouble 0 := ⟨0, 0, by norm_num, by norm_num, by norm_num, by norm_num⟩

theorem toFloat_nearest {q r : Rat} (h : toFloat q = some r) : Nearest q r := by
  unfold toFloat at h
  split at h
  · next h0 =>
    cases h
    subst h0
    exact ⟨by rw [abs_zero]; exact two_pos' _, isDouble_zero, fun d _ => by rw [sub_zero, abs_zero]; exact abs_nonneg _⟩
  · next h0 =>
    split at h
    · next hp => exact toFloatPos_nearest hp h
    · next hp =>
      have hn : 0 < -q := by
        rcases lt_trichotomy q 0 with h1 | h1 | h1
        · linarith
        · exact absurd h1 h0
        · exact absurd h1 hp
      cases h2 : toFloatPos (-q) with
      | none => rw [h2] at h; cases h
      | some x =>
        rw [h2] at h
        cases h
        have := nearest_neg (toFloatPos_nearest hn h2)
        rwa [neg_neg] at this

theorem toFloat_none {q : Rat} (h : toFloat q = none) : maxDouble < |q| := by
  unfold toFloat at h
  split at h
  · cases h
  · next h0 =>
    split at h
    · next hp => rw [abs_of_pos hp]; exact toFloatPos_none hp h
    · next hp =>
      have hn : 0 < -q := by
        rcases lt_trichotomy q 0 with h1 | h1 | h1
        · linarith
        · exact absurd h1 h0
        · exact absurd h1 hp
      rw [abs_of_neg (by linarith)]
      refine toFloatPos_none hn ?_
      cases h2 : toFloatPos (-q) with
      | none => rfl
      | some x => rw [h2] at h; cases h

theorem toFloat_big {q : Rat} (h : 2 ^ (1024 : Int) ≤ |q|) : toFloat q = none := by
  have hpos : (0 : Rat) < 2 ^ (1024 : Int) := two_pos' _
  unfold toFloat
  split
  · next h0 => rw [h0, abs_zero] at h; exact absurd h (not_le_of_gt hpos)
  · split
    · next hp => rw [abs_of_pos hp] at h; exact toFloatPos_big h
    · next hp =>
      rw [abs_of_nonpos (le_of_not_gt hp)] at h
      rw [toFloatPos_big h]
      rfl

/-- A double is not changed. -/
theorem toFloat_double {q : Rat} (h : IsDouble q) : toFloat q = some q := by
  cases h1 : toFloat q with
  | none => exact absurd (toFloat_none h1) (not_lt_of_ge (isDouble_le h))
  | some r =>
    have := (toFloat_nearest h1).2.2 q h
    rw [sub_self, abs_zero] at this
    have h2 : q - r = 0 := abs_eq_zero.1 (le_antisymm this (abs_nonneg _))
    rw [show r = q by linarith]

end Verif.Lemmas
