import Verif.Props.Eval
/-!
# C56, C57: arithmetic, comparison and string operators in checks
-/
namespace Verif.Props
open Verif.Model

variable {env : EvEnv} {ctx : Ctx}

/-- **C56** (integers): `+`, `-`, `*`, unary minus, `abs` and `**` with a non-negative exponent
are the exact mathematical operations, without any overflow. -/
theorem C56_integer_arithmetic (l r : Expr) (a b : Int) (hl : Gives env ctx l (.int a))
    (hr : Gives env ctx r (.int b)) :
    Gives env ctx (.binary (some .int) .plus l r) (.int (a + b)) ∧
    Gives env ctx (.binary (some .int) .minus l r) (.int (a - b)) ∧
    Gives env ctx (.binary (some .int) .times l r) (.int (a * b)) ∧
    (∀ n : Nat, b = n → Gives env ctx (.binary (some .int) .power l r) (.int (a ^ n))) ∧
    Gives env ctx (.unary (some .int) .minus l) (.int (-a)) ∧
    Gives env ctx (.unary (some .int) .plus l) (.int a) ∧
    Gives env ctx (.unary (some .int) .abs l) (.int |a|) ∧
    Gives env ctx (.unary (some .dec) .toDec l) (.dec a) ∧
    Gives env ctx (.unary (some .int) .toInt l) (.int a) := by
  obtain ⟨t, hl⟩ := hl
  obtain ⟨t', hr⟩ := hr
  refine ⟨⟨some .int, ?_⟩, ⟨some .int, ?_⟩, ⟨some .int, ?_⟩, ?_, ⟨some .int, ?_⟩, ⟨some .int, ?_⟩,
    ⟨some .int, ?_⟩, ⟨some .dec, ?_⟩, ⟨some .int, ?_⟩⟩
  · simp [Expr.eval, hl, hr, Ev.bind, Val.isNull, BinOp.allowsNull, binaryOp, arith, numPair, mkValue]
  · simp [Expr.eval, hl, hr, Ev.bind, Val.isNull, BinOp.allowsNull, binaryOp, arith, numPair, mkValue]
  · simp [Expr.eval, hl, hr, Ev.bind, Val.isNull, BinOp.allowsNull, binaryOp, arith, numPair, mkValue]
  · rintro n rfl
    refine ⟨some .int, ?_⟩
    have h0 : ¬ ((n : Int) < 0) := by omega
    simp [Expr.eval, hl, hr, Ev.bind, Val.isNull, BinOp.allowsNull, binaryOp, mkValue]
  · simp [Expr.eval, hl, Ev.bind, Val.isNull, unary, unaryOp, mkValue]
  · simp [Expr.eval, hl, Ev.bind, Val.isNull, unary, unaryOp, mkValue]
  · by_cases h : a < 0
    · simp [Expr.eval, hl, Ev.bind, Val.isNull, unary, unaryOp, mkValue, h, abs_of_neg h]
    · simp [Expr.eval, hl, Ev.bind, Val.isNull, unary, unaryOp, mkValue, h, abs_of_nonneg (not_lt.1 h)]
  · simp [Expr.eval, hl, Ev.bind, Val.isNull, unary, unaryOp, mkValue]
  · simp [Expr.eval, hl, Ev.bind, Val.isNull, unary, unaryOp, mkValue]

/-- **C56** (decimals): the same operations on decimals are exact rational arithmetic (no
rounding); the exponent is an integer. -/
theorem C56_decimal_arithmetic (l r : Expr) (a b : Rat) (hl : Gives env ctx l (.dec a))
    (hr : Gives env ctx r (.dec b)) :
    Gives env ctx (.binary (some .dec) .plus l r) (.dec (a + b)) ∧
    Gives env ctx (.binary (some .dec) .minus l r) (.dec (a - b)) ∧
    Gives env ctx (.binary (some .dec) .times l r) (.dec (a * b)) ∧
    (∀ e (n : Nat), Gives env ctx e (.int n) →
      Gives env ctx (.binary (some .dec) .power l e) (.dec (a ^ n))) ∧
    Gives env ctx (.unary (some .dec) .minus l) (.dec (-a)) ∧
    Gives env ctx (.unary (some .dec) .abs l) (.dec |a|) ∧
    (∃ i : Int, Gives env ctx (.unary (some .int) .toInt l) (.int i) ∧ NearestAway a i) := by
  obtain ⟨t, hl⟩ := hl
  obtain ⟨t', hr⟩ := hr
  refine ⟨⟨some .dec, ?_⟩, ⟨some .dec, ?_⟩, ⟨some .dec, ?_⟩, ?_, ⟨some .dec, ?_⟩,
    ⟨some .dec, ?_⟩, ⟨roundNearestAway a, ⟨some .int, ?_⟩, ?_⟩⟩
  · simp [Expr.eval, hl, hr, Ev.bind, Val.isNull, BinOp.allowsNull, binaryOp, arith, numPair, mkValue]
  · simp [Expr.eval, hl, hr, Ev.bind, Val.isNull, BinOp.allowsNull, binaryOp, arith, numPair, mkValue]
  · simp [Expr.eval, hl, hr, Ev.bind, Val.isNull, BinOp.allowsNull, binaryOp, arith, numPair, mkValue]
  · rintro e n ⟨t'', he⟩
    refine ⟨some .dec, ?_⟩
    have h0 : ¬ ((n : Int) < 0) := by omega
    simp [Expr.eval, hl, he, Ev.bind, Val.isNull, BinOp.allowsNull, binaryOp, mkValue]
    rw [if_neg (fun h => h0 h.1), if_neg h0]
  · simp [Expr.eval, hl, Ev.bind, Val.isNull, unary, unaryOp, mkValue]
  · by_cases h : a < 0
    · simp [Expr.eval, hl, Ev.bind, Val.isNull, unary, unaryOp, mkValue, h, abs_of_neg h]
    · simp [Expr.eval, hl, Ev.bind, Val.isNull, unary, unaryOp, mkValue, h, abs_of_nonneg (not_lt.1 h)]
  · simp [Expr.eval, hl, Ev.bind, Val.isNull, unary, unaryOp, mkValue]
  · exact (C09_round_nearest_away a).1

/-- **C56** (comparisons): the six comparison operators on two integers, and on two decimals,
are the comparisons of the numbers. -/
theorem C56_comparisons (l r : Expr) :
    (∀ a b : Int, Gives env ctx l (.int a) → Gives env ctx r (.int b) →
      ∀ (op : BinOp) (p : Prop), (op, p) ∈ [(.lt, a < b), (.leq, a ≤ b), (.gt, a > b), (.geq, a ≥ b),
          (.eq, a = b), (.neq, a ≠ b)] →
        ∃ c, Gives env ctx (.binary (some .bool) op l r) (.bool c) ∧ (c = true ↔ p)) ∧
    (∀ a b : Rat, Gives env ctx l (.dec a) → Gives env ctx r (.dec b) →
      ∀ (op : BinOp) (p : Prop), (op, p) ∈ [(.lt, a < b), (.leq, a ≤ b), (.gt, a > b), (.geq, a ≥ b),
          (.eq, a = b), (.neq, a ≠ b)] →
        ∃ c, Gives env ctx (.binary (some .bool) op l r) (.bool c) ∧ (c = true ↔ p)) := by
  constructor
  all_goals
    rintro a b ⟨t, hl⟩ ⟨t', hr⟩ op p hp
    simp only [List.mem_cons, Prod.mk.injEq, List.not_mem_nil, or_false] at hp
    rcases hp with ⟨rfl, rfl⟩ | ⟨rfl, rfl⟩ | ⟨rfl, rfl⟩ | ⟨rfl, rfl⟩ | ⟨rfl, rfl⟩ | ⟨rfl, rfl⟩ <;>
      refine ⟨_, ⟨some .bool, by
        simp only [Expr.eval, hl, hr, Ev.bind, Val.isNull, BinOp.allowsNull, binaryOp, numPair,
          mkValue, Val.pyEq, Val.num, compareNum, Bool.false_and, Bool.false_eq_true, if_false,
          Option.isNone_some, if_true]; rfl⟩, ?_⟩ <;>
      simp

/-! ### Strings -/

private theorem isInfix_iff (s t : List Char) : isInfix s t = true ↔ ∃ p q, t = p ++ s ++ q := by
  induction t with
  | nil =>
    simp only [isInfix, List.isEmpty_iff]
    constructor
    · rintro rfl; exact ⟨[], [], rfl⟩
    · rintro ⟨p, q, h⟩
      have := congrArg List.length h
      simp only [List.length_nil, List.length_append] at this
      exact List.length_eq_zero_iff.1 (by omega)
  | cons c t ih =>
    simp only [isInfix, Bool.or_eq_true, ih, List.isPrefixOf_iff_prefix]
    constructor
    · rintro (⟨q, h⟩ | ⟨p, q, rfl⟩)
      · exact ⟨[], q, by simp [h]⟩
      · exact ⟨c :: p, q, by simp⟩
    · rintro ⟨p, q, h⟩
      cases p with
      | nil => exact Or.inl ⟨q, by simpa using h.symm⟩
      | cons d p =>
        right
        simp only [List.cons_append, List.cons.injEq] at h
        exact ⟨p, q, h.2⟩

/-- **C57** (strings): on two strings `+` is concatenation, `s in t` holds iff `s` occurs in `t`
as a contiguous part, `startswith(s, t)` iff `s` begins with `t`, `endswith(s, t)` iff `s` ends
with `t`, `==` iff they are the same string, and `len` counts characters. -/
theorem C57_strings (l r : Expr) (s t : List Char) (hl : Gives env ctx l (.str s))
    (hr : Gives env ctx r (.str t)) :
    Gives env ctx (.binary (some .str) .plus l r) (.str (s ++ t)) ∧
    (∃ c, Gives env ctx (.binary (some .bool) .strContains l r) (.bool c) ∧
      (c = true ↔ ∃ p q, t = p ++ s ++ q)) ∧
    (∃ c, Gives env ctx (.binary (some .bool) .startsWith l r) (.bool c) ∧
      (c = true ↔ ∃ q, s = t ++ q)) ∧
    (∃ c, Gives env ctx (.binary (some .bool) .endsWith l r) (.bool c) ∧
      (c = true ↔ ∃ p, s = p ++ t)) ∧
    (∃ c, Gives env ctx (.binary (some .bool) .eq l r) (.bool c) ∧ (c = true ↔ s = t)) ∧
    Gives env ctx (.unary (some .int) .strLen l) (.int s.length) := by
  obtain ⟨t1, hl⟩ := hl
  obtain ⟨t2, hr⟩ := hr
  refine ⟨⟨some .str, ?_⟩, ⟨_, ⟨some .bool, ?_⟩, isInfix_iff s t⟩,
    ⟨t.isPrefixOf s, ⟨some .bool, ?_⟩, ?_⟩, ⟨t.isSuffixOf s, ⟨some .bool, ?_⟩, ?_⟩,
    ⟨s == t, ⟨some .bool, ?_⟩, by simp⟩, ⟨some .int, ?_⟩⟩
  · simp [Expr.eval, hl, hr, Ev.bind, Val.isNull, BinOp.allowsNull, binaryOp, mkValue]
  · simp [Expr.eval, hl, hr, Ev.bind, Val.isNull, BinOp.allowsNull, binaryOp, mkValue]
  · simp [Expr.eval, hl, hr, Ev.bind, Val.isNull, BinOp.allowsNull, binaryOp, mkValue]
  · rw [List.isPrefixOf_iff_prefix]
    exact ⟨fun ⟨q, h⟩ => ⟨q, h.symm⟩, fun ⟨q, h⟩ => ⟨q, h.symm⟩⟩
  · simp [Expr.eval, hl, hr, Ev.bind, Val.isNull, BinOp.allowsNull, binaryOp, mkValue]
  · rw [List.isSuffixOf_iff_suffix]
    exact ⟨fun ⟨q, h⟩ => ⟨q, h.symm⟩, fun ⟨q, h⟩ => ⟨q, h.symm⟩⟩
  · simp [Expr.eval, hl, hr, Ev.bind, Val.isNull, BinOp.allowsNull, binaryOp, mkValue, Val.pyEq]
  · simp [Expr.eval, hl, Ev.bind, Val.isNull, unary, unaryOp, mkValue]

/-- **C57** (arrays): `len` of an array is the number of its elements. -/
theorem C57_array_length (a : Expr) (es : List (Option Ty × Val)) (ha : Gives env ctx a (.arr es)) :
    Gives env ctx (.unary (some .int) .arrLen a) (.int es.length) := by
  obtain ⟨t, ha⟩ := ha
  exact ⟨some .int, by simp [Expr.eval, ha, Ev.bind, Val.isNull, unary, unaryOp, mkValue]⟩

example : Gives env0 none (.str ['a', 'b']) (.str ['a', 'b']) ∧
    Gives env0 none (.unary (some .dec) .toDec (.int 2)) (.dec 2) := ⟨⟨_, rfl⟩, ⟨_, rfl⟩⟩

end Verif.Props
