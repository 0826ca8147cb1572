import Mathlib.Tactic.Ring
import Mathlib.Tactic.Linarith
import Mathlib.Tactic.FieldSimp
import Mathlib.Tactic.Positivity
import Mathlib.Data.Nat.Prime.Basic
import Mathlib.Data.Rat.Lemmas
import Mathlib.Data.Nat.Digits.Lemmas
import Verif.Model.Vcg.Example
import Verif.Spec.Numbers
import Verif.Lemmas.LexNumbers
/-!
# C79: numbers in examples are exact
-/
namespace Verif.Props
open Verif.Model Verif.Spec

/-- an Integer as written in a trlc file -/
def ShowsInt (t : List Char) (i : Int) : Prop :=
  (∃ n : Nat, i = n ∧ IntLiteral t n) ∨ ∃ (n : Nat) (u : List Char), i = -n ∧ t = '-' :: u ∧ IntLiteral u n

/-- a Decimal as written in a trlc file -/
def ShowsDec (t : List Char) (q : Rat) : Prop :=
  DecLiteral t q ∨ ∃ u, t = '-' :: u ∧ DecLiteral u (-q)

theorem digit_text {d : Nat} (h : d < 10) : Digit 10 (digitText d) d ∧ digitText d ≠ '_' := by
  have : ∀ d < 10, Digit 10 (digitText d) d ∧ digitText d ≠ '_' := by
    unfold Digit; decide
  exact this d h

theorem digits_groups : ∀ ds : List Nat, ds ≠ [] → (∀ d ∈ ds, d < 10) → Groups (IsDigit 10) (ds.map digitText)
  | [], h, _ => absurd rfl h
  | [d], _, h => .single ⟨d, (digit_text (h d (by simp))).1⟩
  | d :: e :: ds, _, h => .digit ⟨d, (digit_text (h d (by simp))).1⟩ (digits_groups (e :: ds) (by simp) fun x hx => h x (List.mem_cons_of_mem _ hx))

theorem digits_filter : ∀ ds : List Nat, (∀ d ∈ ds, d < 10) → (ds.map digitText).filter (· ≠ '_') = ds.map digitText := by
  intro ds h
  rw [List.filter_eq_self]
  intro c hc
  obtain ⟨d, hd, rfl⟩ := List.mem_map.1 hc
  simpa using (digit_text (h d hd)).2

theorem digits_denote (ds : List Nat) (h : ∀ d ∈ ds, d < 10) : Denotes 10 (ds.map digitText) (positional 10 ds) := by
  refine ⟨ds, ?_, rfl⟩
  rw [digits_filter ds h]
  clear * - h
  induction ds with
  | nil => exact .nil
  | cons d ds ih => exact .cons (digit_text (h d (by simp))).1 (ih fun x hx => h x (List.mem_cons_of_mem _ hx))

theorem positional_append (b : Nat) (xs ys : List Nat) : positional b (xs ++ ys) = positional b xs * b ^ ys.length + positional b ys := by
  induction xs with
  | nil => simp [positional]
  | cons x xs ih => simp only [List.cons_append, positional, ih, List.length_append, pow_add]; ring

theorem positional_reverse (b : Nat) (ds : List Nat) : positional b ds.reverse = Nat.ofDigits b ds := by
  induction ds with
  | nil => rfl
  | cons d ds ih => rw [List.reverse_cons, positional_append, ih, Nat.ofDigits_cons]; simp [positional]; ring

/-- the text of a natural number -/
theorem natText_spec (n : Nat) : Groups (IsDigit 10) (natText n) ∧ Denotes 10 (natText n) n := by
  unfold natText
  split
  · next h =>
    subst h
    exact ⟨digits_groups [0] (by simp) (by simp), digits_denote [0] (by simp)⟩
  · next h =>
    have hd : ∀ d ∈ (Nat.digits 10 n).reverse, d < 10 := fun d hd => Nat.digits_lt_base (by norm_num) (List.mem_reverse.1 hd)
    refine ⟨digits_groups _ (by simpa [Nat.digits_eq_nil_iff_eq_zero] using h) hd, ?_⟩
    have := digits_denote _ hd
    rwa [positional_reverse, Nat.ofDigits_digits] at this

theorem natText_literal (n : Nat) : IntLiteral (natText n) n := .dec (natText_spec n).1 (natText_spec n).2

/-- **C79**, Integers: the text is an integer literal, with a sign if needed, that denotes the value. -/
theorem C79_integer (i : Int) : ShowsInt (intText i) i := by
  unfold intText
  split
  · exact .inr ⟨i.natAbs, _, by omega, rfl, natText_literal _⟩
  · exact .inl ⟨i.natAbs, by omega, natText_literal _⟩

/-! ### Decimals -/

theorem onlyTwoFive_spec : ∀ fuel tmp, 0 < tmp → tmp ≤ fuel → (onlyTwoFive fuel tmp = true ↔ ∃ a b, tmp = 2 ^ a * 5 ^ b)
  | 0, tmp, h, h' => by omega
  | fuel + 1, tmp, h, h' => by
    unfold onlyTwoFive
    split
    · next h1 =>
      have : tmp = 1 := by omega
      subst this
      exact ⟨fun _ => ⟨0, 0, rfl⟩, fun _ => rfl⟩
    · next h1 =>
      split
      · next h2 =>
        rw [onlyTwoFive_spec fuel (tmp / 2) (by omega) (by omega)]
        constructor
        · rintro ⟨a, b, e⟩
          refine ⟨a + 1, b, ?_⟩
          have : tmp = 2 * (tmp / 2) := by omega
          rw [this, e]; ring
        · rintro ⟨a, b, e⟩
          cases a with
          | zero =>
            exfalso
            have : (5 ^ b) % 2 = 1 := by rw [Nat.pow_mod]; simp
            omega
          | succ a => exact ⟨a, b, by rw [e, pow_succ]; rw [show 2 ^ a * 2 * 5 ^ b = 2 * (2 ^ a * 5 ^ b) by ring]; simp⟩
      · next h2 =>
        split
        · next h3 =>
          rw [onlyTwoFive_spec fuel (tmp / 5) (by omega) (by omega)]
          constructor
          · rintro ⟨a, b, e⟩
            refine ⟨a, b + 1, ?_⟩
            have : tmp = 5 * (tmp / 5) := by omega
            rw [this, e]; ring
          · rintro ⟨a, b, e⟩
            cases b with
            | zero =>
              exfalso
              cases a with
              | zero => simp at e; omega
              | succ a => rw [pow_succ] at e; omega
            | succ b => exact ⟨a, b, by rw [e, pow_succ]; rw [show 2 ^ a * (5 ^ b * 5) = 5 * (2 ^ a * 5 ^ b) by ring]; simp⟩
        · next h3 =>
          simp only [Bool.false_eq_true, false_iff]
          rintro ⟨a, b, e⟩
          cases a with
          | succ a => rw [pow_succ] at e; rw [show 2 ^ a * 2 * 5 ^ b = 2 * (2 ^ a * 5 ^ b) by ring] at e; omega
          | zero =>
            cases b with
            | succ b => rw [pow_succ] at e; rw [show 2 ^ 0 * (5 ^ b * 5) = 5 * (5 ^ b) by ring] at e; omega
            | zero => simp at e; omega

/-- the digits denote the fraction -/
theorem fractionDigits_spec {den : Nat} (hd : 0 < den) : ∀ (fuel i : Nat) (ds : List Nat), i < den → fractionDigits den fuel i = some ds →
    (∀ d ∈ ds, d < 10) ∧ (0 < i → ds ≠ []) ∧ (positional 10 ds : Nat) * den = i * 10 ^ ds.length
  | 0, i, ds, hi, h => by
    unfold fractionDigits at h
    split at h
    · next h0 => cases h; subst h0; simp [positional]
    · cases h
  | fuel + 1, i, ds, hi, h => by
    unfold fractionDigits at h
    split at h
    · next h0 => cases h; subst h0; simp [positional]
    · obtain ⟨ds', h1, rfl⟩ := Option.map_eq_some_iff.1 h
      obtain ⟨h2, -, h3⟩ := fractionDigits_spec hd fuel _ ds' (Nat.mod_lt _ hd) h1
      refine ⟨?_, by simp, ?_⟩
      · intro d hdm
        rcases List.mem_cons.1 hdm with rfl | hdm
        · rw [Nat.div_lt_iff_lt_mul hd]; omega
        · exact h2 d hdm
      · simp only [positional, List.length_cons, pow_succ]
        have := Nat.div_add_mod (i * 10) den
        calc (i * 10 / den * 10 ^ ds'.length + positional 10 ds') * den
            = (i * 10 / den) * den * 10 ^ ds'.length + positional 10 ds' * den := by ring
          _ = (den * (i * 10 / den) + i * 10 % den) * 10 ^ ds'.length := by rw [h3]; ring
          _ = i * (10 ^ ds'.length * 10) := by rw [this]; ring

/-- the loop ends if the denominator divides a power of ten -/
theorem fractionDigits_ends {den : Nat} : ∀ (fuel i : Nat), den ∣ i * 10 ^ fuel → i < den → (fractionDigits den fuel i).isSome = true
  | 0, i, h, hi => by
    unfold fractionDigits
    rw [pow_zero, mul_one] at h
    rw [if_pos (Nat.eq_zero_of_dvd_of_lt h hi)]
    rfl
  | fuel + 1, i, h, hi => by
    unfold fractionDigits
    split
    · rfl
    · have : den ∣ (i * 10 % den) * 10 ^ fuel := by
        have h1 : den ∣ (i * 10) * 10 ^ fuel := by rw [pow_succ] at h; rwa [mul_assoc, mul_comm 10, ]
        have h2 := Nat.div_add_mod (i * 10) den
        rw [← h2, add_mul, mul_assoc] at h1
        exact (Nat.dvd_add_right (Dvd.intro _ rfl)).1 h1
      simpa using fractionDigits_ends fuel _ this (Nat.mod_lt _ (by omega))

theorem twoFive_dvd {den a b : Nat} (h : den = 2 ^ a * 5 ^ b) : den ∣ 10 ^ den := by
  have ha : a < 2 ^ a := Nat.lt_two_pow_self
  have hb : b < 5 ^ b := Nat.lt_pow_self (by norm_num)
  have h1 : 1 ≤ 2 ^ a := Nat.one_le_two_pow
  have h2 : 1 ≤ 5 ^ b := Nat.one_le_pow _ _ (by norm_num)
  have la : a ≤ den := by rw [h]; nlinarith
  have lb : b ≤ den := by rw [h]; nlinarith
  have : (10 : Nat) ^ den = 2 ^ den * 5 ^ den := by rw [← mul_pow]; norm_num
  rw [this]
  conv_lhs => rw [h]
  exact Nat.mul_dvd_mul (pow_dvd_pow 2 la) (pow_dvd_pow 5 lb)

/-- a number with a finite decimal expansion -/
def Finite (q : Rat) : Prop := ∃ (n : Int) (k : Nat), q = n / 10 ^ k

theorem finite_iff (q : Rat) : Finite q ↔ ∃ a b, q.den = 2 ^ a * 5 ^ b := by
  constructor
  · rintro ⟨n, k, rfl⟩
    have h : ((((n : Rat) / ((10 ^ k : Int) : Rat)).den : Int)) ∣ (10 ^ k : Int) := by
      rw [← Rat.divInt_eq_div]; exact Rat.den_dvd n (10 ^ k)
    have h' : ((n : Rat) / 10 ^ k).den ∣ 2 ^ k * 5 ^ k := by
      rw [← mul_pow]
      push_cast at h
      exact_mod_cast h
    obtain ⟨x, y, hx, hy, e⟩ := (Nat.dvd_mul).1 h'
    obtain ⟨a, -, rfl⟩ := (Nat.dvd_prime_pow Nat.prime_two).1 hx
    obtain ⟨b, -, rfl⟩ := (Nat.dvd_prime_pow Nat.prime_five).1 hy
    exact ⟨a, b, e.symm⟩
  · rintro ⟨a, b, h⟩
    obtain ⟨c, hc⟩ := twoFive_dvd h
    refine ⟨q.num * c, q.den, ?_⟩
    have hq : (q.den : Rat) ≠ 0 := by exact_mod_cast q.den_ne_zero
    have hc' : (10 : Rat) ^ q.den = q.den * c := by exact_mod_cast hc
    have hc0 : (c : Rat) ≠ 0 := by
      intro h0
      rw [h0, mul_zero] at hc'
      exact absurd hc' (by positivity)
    rw [hc']
    push_cast
    rw [mul_div_mul_right _ _ hc0, Rat.num_div_den]

/-- what a decimal literal denotes has a finite decimal expansion -/
theorem decLiteral_finite {t : List Char} {q : Rat} (h : DecLiteral t q) : Finite q := by
  cases h with
  | @mk i f ni nf =>
    refine ⟨ni * 10 ^ (f.filter (· ≠ '_')).length + nf, (f.filter (· ≠ '_')).length, ?_⟩
    push_cast
    rw [add_div, mul_div_cancel_right₀ _ (by positivity)]

theorem showsDec_finite {t : List Char} {q : Rat} (h : ShowsDec t q) : Finite q := by
  rcases h with h | ⟨u, -, h⟩
  · exact decLiteral_finite h
  · obtain ⟨n, k, e⟩ := decLiteral_finite h
    refine ⟨-n, k, ?_⟩
    push_cast
    rw [neg_div, ← e, neg_neg]

/-- **C79**, Decimals: the text is always produced.  It is a decimal literal, with a sign if needed, that denotes
the value, if there is one; otherwise it is the numerator and the denominator. -/
theorem C79_decimal (q : Rat) : ∃ t, decimalText q = some t ∧
    (ShowsDec t q ∨
     ((∀ u, ¬ ShowsDec u q) ∧ ∃ n d, t = n ++ " / ".toList ++ d ∧ ShowsInt n q.num ∧ IntLiteral d q.den)) := by
  unfold decimalText fractionText
  have hd := q.den_pos
  split
  · next h =>
    refine ⟨_, rfl, .inr ⟨fun u hu => ?_, _, _, rfl, C79_integer _, natText_literal _⟩⟩
    have hu := showsDec_finite hu
    rw [finite_iff, ← onlyTwoFive_spec q.den q.den hd le_rfl, h.2] at hu
    cases hu
  · next h =>
    have hf : ∃ a b, q.den = 2 ^ a * 5 ^ b := by
      by_cases h2 : 2 < q.den
      · rw [← onlyTwoFive_spec q.den q.den hd le_rfl]
        simpa [h2] using h
      · have : q.den = 1 ∨ q.den = 2 := by omega
        rcases this with e | e <;> rw [e]
        · exact ⟨0, 0, rfl⟩
        · exact ⟨1, 0, rfl⟩
    obtain ⟨a, b, hab⟩ := id hf
    have hs := fractionDigits_ends (den := q.den) q.den (q.num.natAbs % q.den) (Dvd.dvd.mul_left (twoFive_dvd hab) _) (Nat.mod_lt _ hd)
    obtain ⟨ds, hds⟩ := Option.isSome_iff_exists.1 hs
    obtain ⟨k1, k2, k3⟩ := fractionDigits_spec hd _ _ ds (Nat.mod_lt _ hd) hds
    rw [hds]
    refine ⟨_, rfl, .inl ?_⟩
    have key : DecLiteral (natText (q.num.natAbs / q.den) ++ '.' ::
        (if 0 < q.num.natAbs % q.den then ds.map digitText else ['0'])) ((q.num.natAbs : Rat) / q.den) := by
      have hq : (q.den : Rat) ≠ 0 := by exact_mod_cast q.den_ne_zero
      have e := Nat.div_add_mod q.num.natAbs q.den
      split
      · next hp =>
        have := DecLiteral.mk (natText_spec (q.num.natAbs / q.den)).1 (digits_groups ds (k2 hp) k1) (natText_spec _).2 (digits_denote ds k1)
        rw [digits_filter ds k1, List.length_map] at this
        convert this using 1
        have k3' : (positional 10 ds : Rat) * q.den = ((q.num.natAbs % q.den : Nat) : Rat) * 10 ^ ds.length := by exact_mod_cast k3
        have e' : (q.num.natAbs : Rat) = q.den * ((q.num.natAbs / q.den : Nat) : Rat) + ((q.num.natAbs % q.den : Nat) : Rat) := by exact_mod_cast e.symm
        rw [div_eq_iff hq, e']
        have h10 : (10 : Rat) ^ ds.length ≠ 0 := by positivity
        have : ((q.num.natAbs % q.den : Nat) : Rat) = (positional 10 ds : Rat) / 10 ^ ds.length * q.den := by
          field_simp
          linarith
        rw [this]; ring
      · next hp =>
        have hz : q.num.natAbs % q.den = 0 := by omega
        have := DecLiteral.mk (natText_spec (q.num.natAbs / q.den)).1 (digits_groups [0] (by simp) (by simp)) (natText_spec _).2 (digits_denote [0] (by simp))
        have e' : (q.num.natAbs : Rat) = q.den * ((q.num.natAbs / q.den : Nat) : Rat) := by rw [hz, add_zero] at e; exact_mod_cast e.symm
        have e2 : (q.num.natAbs : Rat) / q.den = ((q.num.natAbs / q.den : Nat) : Rat) := by
          rw [div_eq_iff hq]; linarith
        rw [e2]
        have h0 : ((positional 10 [0] : Nat) : Rat) = 0 := by simp [positional]
        rw [h0, zero_div, add_zero] at this
        exact this
    by_cases hn : q.num < 0
    · have e : (q.num.natAbs : Rat) / q.den = -q := by
        have h1 : (q.num.natAbs : Int) = - q.num := by omega
        have h2 : ((q.num.natAbs : Int) : Rat) = ((- q.num : Int) : Rat) := by rw [h1]
        rw [Int.cast_natCast] at h2
        rw [h2, Int.cast_neg, neg_div, Rat.num_div_den]
      rw [e] at key
      simp only [if_pos hn]
      exact .inr ⟨_, rfl, key⟩
    · have e : (q.num.natAbs : Rat) / q.den = q := by
        have h1 : (q.num.natAbs : Int) = q.num := by omega
        have h2 : ((q.num.natAbs : Int) : Rat) = ((q.num : Int) : Rat) := by rw [h1]
        rw [Int.cast_natCast] at h2
        rw [h2, Rat.num_div_den]
      rw [e] at key
      simp only [if_neg hn]
      exact .inl key

/-! ### References -/

theorem natText_inj {n m : Nat} (h : natText n = natText m) : n = m := by
  have h1 := (natText_spec n).2
  rw [h] at h1
  exact Lemmas.denotes_unique h1 (natText_spec m).2

theorem natText_chars (n : Nat) : ∀ c ∈ natText n, c ≠ '_' ∧ c ≠ '.' := by
  have key : ∀ d < 10, digitText d ≠ '_' ∧ digitText d ≠ '.' := by decide
  unfold natText
  split
  · simp
  · intro c hc
    obtain ⟨d, hd, rfl⟩ := List.mem_map.1 hc
    exact key d (Nat.digits_lt_base (by norm_num) (List.mem_reverse.1 hd))

theorem instanceNumber_nonneg (v : Int) : 0 ≤ instanceNumber v := by
  unfold instanceNumber; split <;> omega

theorem instanceNumber_inj {v w : Int} (h : instanceNumber v = instanceNumber w) : v = w := by
  unfold instanceNumber at h; split at h <;> split at h <;> omega

theorem first_split {c : Char} : ∀ {x y s t : List Char}, c ∉ x → c ∉ y → x ++ c :: s = y ++ c :: t → x = y ∧ s = t
  | [], [], _, _, _, _, h => ⟨rfl, (List.cons.inj h).2⟩
  | [], y :: ys, _, _, _, hy, h => absurd (List.cons.inj h).1 fun e => hy (by simp [e])
  | x :: xs, [], _, _, hx, _, h => absurd (List.cons.inj h).1 fun e => hx (by simp [e])
  | x :: xs, y :: ys, s, t, hx, hy, h => by
    obtain ⟨e, h⟩ := List.cons.inj h
    obtain ⟨e1, e2⟩ := first_split (c := c) (fun hm => hx (List.mem_cons_of_mem _ hm)) (fun hm => hy (List.mem_cons_of_mem _ hm)) h
    exact ⟨by rw [e, e1], e2⟩

theorem last_split {c : Char} {x y s t : List Char} (hx : c ∉ x) (hy : c ∉ y) (h : s ++ c :: x = t ++ c :: y) : x = y ∧ s = t := by
  have h' := congrArg List.reverse h
  simp only [List.reverse_append, List.reverse_cons, List.append_assoc, List.cons_append, List.nil_append] at h'
  obtain ⟨e1, e2⟩ := first_split (c := c) (by simpa using hx) (by simpa using hy) h'
  exact ⟨List.reverse_inj.1 e1, List.reverse_inj.1 e2⟩

theorem objectName_inj {a b : String} {v w : Int}
    (h : a.toList ++ "_instance_".toList ++ intText (instanceNumber v) = b.toList ++ "_instance_".toList ++ intText (instanceNumber w)) :
    a = b ∧ v = w := by
  have hv := instanceNumber_nonneg v
  have hw := instanceNumber_nonneg w
  unfold intText at h
  rw [if_neg (by omega), if_neg (by omega)] at h
  have e : "_instance_".toList = "_instance".toList ++ ['_'] := by decide
  simp only [e, List.append_assoc, List.cons_append, List.nil_append] at h
  rw [← List.append_assoc, ← List.append_assoc] at h
  obtain ⟨h1, h2⟩ := last_split (fun hm => (natText_chars _ _ hm).1 rfl) (fun hm => (natText_chars _ _ hm).1 rfl) h
  have h3 := natText_inj h1
  refine ⟨String.toList_inj.1 (List.append_cancel_right h2), instanceNumber_inj (by omega)⟩

theorem objectName_no_dot {a : String} (h : '.' ∉ a.toList) (v : Int) :
    '.' ∉ a.toList ++ "_instance_".toList ++ intText (instanceNumber v) := by
  have hv := instanceNumber_nonneg v
  unfold intText
  rw [if_neg (by omega)]
  intro hm
  simp only [List.append_assoc, List.mem_append] at hm
  rcases hm with hm | hm | hm
  · exact h hm
  · exact absurd hm (by decide)
  · exact (natText_chars _ _ hm).2 rfl

/-- **C79**, references: the name shown for an object tells its type and the object: two references are shown in the
same way only if they are to objects of the same type that are the same for the solver.  (Names of packages and types
contain no period.) -/
theorem C79_references {own : String} {r r' : String × String} {v v' : Int}
    (hr : '.' ∉ r.1.toList ∧ '.' ∉ r.2.toList) (hr' : '.' ∉ r'.1.toList ∧ '.' ∉ r'.2.toList)
    (h : instanceText own r v = instanceText own r' v') : r = r' ∧ v = v' := by
  unfold instanceText at h
  split at h <;> split at h
  · next h1 h2 =>
    obtain ⟨e1, e2⟩ := objectName_inj h
    exact ⟨Prod.ext (h1.trans h2.symm) e1, e2⟩
  · exact absurd (h ▸ List.mem_append_right _ (List.mem_cons_self)) (objectName_no_dot hr.2 v)
  · exact absurd (h.symm ▸ List.mem_append_right _ (List.mem_cons_self)) (objectName_no_dot hr'.2 v')
  · obtain ⟨e1, e2⟩ := first_split hr.1 hr'.1 h
    obtain ⟨e3, e4⟩ := objectName_inj e2
    exact ⟨Prod.ext (String.toList_inj.1 e1) e3, e4⟩

/-! ### Cases -/

/-- a number that has a literal -/
example : decimalText (-25 / 8) = some "-3.125".toList := by decide +kernel
/-- a number that has none -/
example : decimalText (1 / 3) = some "1 / 3".toList := by decide +kernel
/-- references to different objects -/
example : instanceText "P" ("P", "T") (-1) = "T_instance_1".toList ∧ instanceText "P" ("Q", "T") 1 = "Q.T_instance_2".toList := by
  decide +kernel

end Verif.Props
