import Verif.Model.Elab
import Verif.Props.Math
import Mathlib.Tactic.Ring
import Mathlib.Tactic.FieldSimp
import Mathlib.Tactic.Linarith
import Mathlib.Data.List.Basic
/-!
# C17-C24: meaning of the operators in check expressions

`Val.null` is the null value; `eval` returns a value, a reported error, or an internal
exception.
-/
namespace Verif.Props
open Verif.Model

/-! ## Specification -/

/-- The result of a logical operator if its left operand alone decides it. -/
def decides : SCOp → Bool → Option Bool
  | .and, false => some false
  | .or, true => some true
  | .implies, false => some true
  | _, _ => none

/-- The truth function of a logical operator. -/
def truth : SCOp → Bool → Bool → Prop
  | .and, a, b => a = true ∧ b = true
  | .or, a, b => a = true ∨ b = true
  | .implies, a, b => a = true → b = true

/-- `e` evaluates to the value `v` (of some type). -/
def Gives (env : EvEnv) (ctx : Ctx) (e : Expr) (v : Val) : Prop :=
  ∃ t, e.eval env ctx = .ok ⟨t, v⟩

/-- Evaluating `e` reports an error. -/
def Reports (env : EvEnv) (ctx : Ctx) (e : Expr) : Prop :=
  ∃ r, e.eval env ctx = .err r

/-- Evaluating `e` raises an internal exception. -/
def Crashes (env : EvEnv) (ctx : Ctx) (e : Expr) : Prop :=
  ∃ r, e.eval env ctx = .crash r

/-- The chain `if c1 then e1 elsif c2 then e2 ... else <rest>`. -/
def chainActs : List (Expr × Expr) → Acts → Acts
  | [], rest => rest
  | (c, e) :: cs, rest => .act c e (chainActs cs rest)

/-- The parameters of a function call from a list. -/
def exprList : List Expr → Exprs
  | [] => .nil
  | e :: es => .cons e (exprList es)

/-- A small environment for the examples: no record objects, no regular expressions. -/
def env0 : EvEnv := ⟨fun _ => none, fun _ _ => false⟩

variable {env : EvEnv} {ctx : Ctx}

/-! ## C17 -/

/-- **C17** (short circuit): if the left operand evaluates to a Boolean that decides the
result, this is the result whatever the right operand is (even if evaluating it would fail);
otherwise the result - value, error or exception - is that of the right operand. -/
theorem C17_short_circuit (op : SCOp) (l r : Expr) (b : Bool) (hl : Gives env ctx l (.bool b)) :
    (∀ d, decides op b = some d → Gives env ctx (.logic op l r) (.bool d)) ∧
      (decides op b = none → (Expr.logic op l r).eval env ctx = r.eval env ctx) := by
  obtain ⟨t, hl⟩ := hl
  cases op <;> cases b <;>
    simp [decides, Gives, Expr.eval, hl, Ev.bind, Val.isNull, mkValue]

example : Gives env0 (some [("x", .int 0)])
    (.logic .and (.bool false)
      (.binary (some .bool) .eq (.binary (some .int) .divide (.int 1) (.name "x" .int)) (.int 1)))
    (.bool false) :=
  (C17_short_circuit .and _ _ false ⟨_, rfl⟩).1 false rfl

/-- **C17** (failing left operand): an error or exception of the left operand is the outcome. -/
theorem C17_left_fails (op : SCOp) (l r : Expr) :
    (∀ e, l.eval env ctx = .err e → (Expr.logic op l r).eval env ctx = .err e) ∧
      (∀ e, l.eval env ctx = .crash e → (Expr.logic op l r).eval env ctx = .crash e) := by
  constructor <;> intro e h <;> simp [Expr.eval, h, Ev.bind]

/-- **C17** (truth functions): on Boolean operands the operators are conjunction, disjunction
and implication; `xor` is exclusive or and `not` negation. -/
theorem C17_truth_table (op : SCOp) (l r : Expr) (a b : Bool)
    (hl : Gives env ctx l (.bool a)) (hr : Gives env ctx r (.bool b)) :
    (∃ c, Gives env ctx (.logic op l r) (.bool c) ∧ (c = true ↔ truth op a b)) ∧
      (∃ c, Gives env ctx (.binary (some .bool) .xor l r) (.bool c) ∧ (c = true ↔ a ≠ b)) ∧
      (∃ c, Gives env ctx (.unary (some .bool) .logicalNot l) (.bool c) ∧ (c = true ↔ a ≠ true)) := by
  obtain ⟨t, hl⟩ := hl
  obtain ⟨t', hr⟩ := hr
  refine ⟨?_, ?_, ?_⟩
  · cases op <;> cases a <;> cases b <;>
      simp [Gives, Expr.eval, hl, hr, Ev.bind, Val.isNull, mkValue, truth]
  · cases a <;> cases b <;>
      simp [Gives, Expr.eval, hl, hr, Ev.bind, Val.isNull, mkValue, binaryOp, BinOp.allowsNull]
  · cases a <;>
      simp [Gives, Expr.eval, hl, Ev.bind, Val.isNull, mkValue, unary, unaryOp]

example : Gives env0 none (.bool true) (.bool true) ∧ Gives env0 none (.bool false) (.bool false) :=
  ⟨⟨_, rfl⟩, ⟨_, rfl⟩⟩

/-! ## C18 -/

/-- **C18** (strict operators, partial): a null operand of a unary operator, of a binary
operator other than `==` and `!=`, of a range test, a null left operand of `and`, `or`,
`implies`, a null condition, a null prefix of a field access and a null quantification source
are reported as errors.  Missing: the right operand of `and`, `or`, `implies` and the
parameters of `oneof`, see `C18_null_and_accepted`, `C18_null_oneof_accepted`. -/
theorem C18_null_rejected_partial (e a b : Expr) (he : Gives env ctx e .null) :
    (∀ t op, Reports env ctx (.unary t op e)) ∧
    (∀ t op, op ≠ .eq → op ≠ .neq → Reports env ctx (.binary t op e a)) ∧
    (∀ t op v, op ≠ .eq → op ≠ .neq → Gives env ctx a v → Reports env ctx (.binary t op a e)) ∧
    (∀ op, Reports env ctx (.logic op e a)) ∧
    Reports env ctx (.range e a b) ∧
    (∀ v, Gives env ctx a v → Reports env ctx (.range a e b)) ∧
    (∀ v w, Gives env ctx a v → Gives env ctx b w → Reports env ctx (.range a b e)) ∧
    (∀ t rest, Reports env ctx (.cond t (.act e a rest))) ∧
    (∀ n t, Reports env ctx (.field e n t)) := by
  obtain ⟨t, he⟩ := he
  refine ⟨?_, ?_, ?_, ?_, ?_, ?_, ?_, ?_, ?_⟩
  · intro t op; exact ⟨_, by simp [Expr.eval, he, Ev.bind, unary, Val.isNull]; rfl⟩
  · intro t op h1 h2
    have : op.allowsNull = false := by cases op <;> simp_all [BinOp.allowsNull]
    exact ⟨_, by simp [Expr.eval, he, Ev.bind, Val.isNull, this]; rfl⟩
  · rintro t op v h1 h2 ⟨t', ha⟩
    have : op.allowsNull = false := by cases op <;> simp_all [BinOp.allowsNull]
    by_cases hv : v.isNull = true
    · exact ⟨_, by simp [Expr.eval, ha, hv, Ev.bind, this]; rfl⟩
    · have hv : v.isNull = false := by simpa using hv
      have hn : Val.null.isNull = true := rfl
      exact ⟨.nullRhs, by simp [Expr.eval, he, ha, hv, Ev.bind, this, hn]⟩
  · intro op; exact ⟨_, by simp [Expr.eval, he, Ev.bind, Val.isNull]; rfl⟩
  · exact ⟨_, by simp [Expr.eval, he, Ev.bind, Val.isNull]; rfl⟩
  · rintro v ⟨t', ha⟩
    by_cases hv : v.isNull = true
    · exact ⟨_, by simp [Expr.eval, ha, hv, Ev.bind]; rfl⟩
    · have hv : v.isNull = false := by simpa using hv
      have hn : Val.null.isNull = true := rfl
      exact ⟨.nullRange, by simp [Expr.eval, he, ha, hv, Ev.bind, hn]⟩
  · rintro v w ⟨t', ha⟩ ⟨t'', hb⟩
    by_cases hv : v.isNull = true
    · exact ⟨_, by simp [Expr.eval, ha, hv, Ev.bind]; rfl⟩
    · by_cases hw : w.isNull = true
      · exact ⟨_, by simp [Expr.eval, ha, hb, hv, hw, Ev.bind]; rfl⟩
      · have hv : v.isNull = false := by simpa using hv
        have hw : w.isNull = false := by simpa using hw
        have hn : Val.null.isNull = true := rfl
        exact ⟨.nullRange, by simp [Expr.eval, he, ha, hb, hv, hw, Ev.bind, hn]⟩
  · intro t rest; exact ⟨_, by simp [Expr.eval, Acts.eval, he, Ev.bind, Val.isNull]; rfl⟩
  · intro n t; exact ⟨_, by simp [Expr.eval, he, Ev.bind]; rfl⟩

/-- **C18** (quantification over null): reported. -/
theorem C18_null_source (u : Bool) (x src : String) (body : Expr) (c : List (String × FExpr))
    (h : c.lookup src = some .inull) : Reports env (some c) (.quant u x src body) :=
  ⟨.nullSource, by simp [Expr.eval, h]⟩

example : Gives env0 (some [("a", .inull)]) (.name "a" .int) .null := ⟨none, rfl⟩

/-- **C18** (equality): `==` and `!=` never fail once their operands have values, they are
negations of each other, null equals null, and null is different from everything else. -/
theorem C18_equality (l r : Expr) (v w : Val) (hl : Gives env ctx l v) (hr : Gives env ctx r w) :
    ∃ b, Gives env ctx (.binary (some .bool) .eq l r) (.bool b) ∧
      Gives env ctx (.binary (some .bool) .neq l r) (.bool (!b)) ∧
      (v = .null → w = .null → b = true) ∧ (v = .null → w ≠ .null → b = false) ∧
      (v ≠ .null → w = .null → b = false) := by
  obtain ⟨t, hl⟩ := hl
  obtain ⟨t', hr⟩ := hr
  refine ⟨v.pyEq w, ⟨some .bool, ?_⟩, ⟨some .bool, ?_⟩, ?_, ?_, ?_⟩
  · simp [Expr.eval, hl, hr, Ev.bind, BinOp.allowsNull, binaryOp, mkValue, Val.isNull]
  · simp [Expr.eval, hl, hr, Ev.bind, BinOp.allowsNull, binaryOp, mkValue, Val.isNull]
  · rintro rfl rfl; simp [Val.pyEq, Val.isNull]
  · rintro rfl h; cases w <;> simp_all [Val.pyEq, Val.isNull]
  · rintro h rfl; cases v <;> simp_all [Val.pyEq, Val.num]

example : Gives env0 (some [("a", .inull)]) (.name "a" .int) .null ∧
    Gives env0 (some [("a", .inull)]) (.int 3) (.int 3) := ⟨⟨none, rfl⟩, ⟨_, rfl⟩⟩

/-- **C18 is violated** by the right operand of `and`: `true and a` with `a` null evaluates to
null without an error. -/
theorem C18_null_and_accepted :
    ∃ (c : Ctx) (e : Expr), Gives env0 c e .null ∧ Gives env0 c (.logic .and (.bool true) e) .null :=
  ⟨some [("a", .inull)], .name "a" .bool, ⟨none, rfl⟩, ⟨none, rfl⟩⟩

/-- What happens to a null on the right of a logical operator in general: if it is looked at, it is the result. -/
theorem C18_logic_right (l r : Expr) (b : Bool) (hl : Gives env ctx l (.bool b)) (hr : Gives env ctx r .null) :
    Gives env ctx (.logic .and l r) (if b then .null else .bool false) ∧
    Gives env ctx (.logic .or l r) (if b then .bool true else .null) ∧
    Gives env ctx (.logic .implies l r) (if b then .null else .bool true) := by
  obtain ⟨t, hl⟩ := hl
  obtain ⟨t', hr⟩ := hr
  cases b
  · exact ⟨⟨t, by simp [Expr.eval, hl, Ev.bind, Val.isNull]⟩, ⟨t', by simp [Expr.eval, hl, hr, Ev.bind, Val.isNull]⟩,
      ⟨some .bool, by simp [Expr.eval, hl, Ev.bind, Val.isNull, mkValue]⟩⟩
  · exact ⟨⟨t', by simp [Expr.eval, hl, hr, Ev.bind, Val.isNull]⟩, ⟨t, by simp [Expr.eval, hl, Ev.bind, Val.isNull]⟩,
      ⟨t', by simp [Expr.eval, hl, hr, Ev.bind, Val.isNull]⟩⟩

/-- **C18 and C21 are violated** by `oneof`: `oneof(true, a)` with `a` null is true, though
not all other parameters are false. -/
theorem C18_null_oneof_accepted :
    ∃ (c : Ctx) (e : Expr), Gives env0 c e .null ∧
      Gives env0 c (.oneof (exprList [.bool true, e])) (.bool true) :=
  ⟨some [("a", .inull)], .name "a" .bool, ⟨none, rfl⟩, ⟨some .bool, by
    simp [exprList, Expr.eval, Exprs.eval, Ev.bind, FExpr.eval, mkValue, Val.isNull, countTrue,
      Val.pyEq, Val.num]⟩⟩

/-! ## C19 -/

private theorem quant_all (f : FExpr → Ev TV) (p : FExpr → Bool) (es : List FExpr)
    (h : ∀ e ∈ es, ∃ t, f e = .ok ⟨t, .bool (p e)⟩) :
    quantLoop true f es = .ok ⟨some .bool, .bool (es.all p)⟩ ∧
      quantLoop false f es = .ok ⟨some .bool, .bool (es.any p)⟩ := by
  induction es with
  | nil => simp [quantLoop, mkValue, Val.isNull]
  | cons e es ih =>
    obtain ⟨t, he⟩ := h e (by simp)
    have ih := ih (fun e he => h e (by simp [he]))
    cases hp : p e <;> simp [quantLoop, he, hp, Ev.bind, ih, mkValue, Val.isNull]

/-- **C19** (quantifiers): if the body evaluates to a Boolean for every element of the array,
`forall` is true iff it is true for all elements, `exists` iff it is true for some element. -/
theorem C19_quantifiers (x src : String) (body : Expr) (c : List (String × FExpr)) (ty : Ty)
    (es : List FExpr) (p : FExpr → Bool) (hs : c.lookup src = some (.arr ty es))
    (h : ∀ e ∈ es, Gives env (some ((x, e) :: c)) body (.bool (p e))) :
    (∃ b, Gives env (some c) (.quant true x src body) (.bool b) ∧
      (b = true ↔ ∀ e ∈ es, p e = true)) ∧
    (∃ b, Gives env (some c) (.quant false x src body) (.bool b) ∧
      (b = true ↔ ∃ e ∈ es, p e = true)) := by
  have := quant_all (fun b => body.eval env (some ((x, b) :: c))) p es h
  refine ⟨⟨es.all p, ⟨_, by simp only [Expr.eval, hs]; exact this.1⟩, by simp⟩,
    ⟨es.any p, ⟨_, by simp only [Expr.eval, hs]; exact this.2⟩, by simp⟩⟩

/-- **C19** (duality): `forall x in a => p` is the negation of `exists x in a => not p`. -/
theorem C19_duality (x src : String) (body : Expr) (c : List (String × FExpr)) (ty : Ty)
    (es : List FExpr) (hs : c.lookup src = some (.arr ty es))
    (h : ∀ e ∈ es, ∃ b, Gives env (some ((x, e) :: c)) body (.bool b)) :
    ∃ b, Gives env (some c) (.quant true x src body) (.bool b) ∧
      Gives env (some c) (.quant false x src (.unary (some .bool) .logicalNot body)) (.bool (!b)) := by
  classical
  let p : FExpr → Bool := fun e =>
    if h : ∃ b, Gives env (some ((x, e) :: c)) body (.bool b) then h.choose else true
  have hp : ∀ e ∈ es, Gives env (some ((x, e) :: c)) body (.bool (p e)) := by
    intro e he
    have := h e he
    simp only [p, this, dite_true]
    exact this.choose_spec
  have h1 := quant_all (fun b => body.eval env (some ((x, b) :: c))) p es hp
  have h2 := quant_all
    (fun b => (Expr.unary (some .bool) .logicalNot body).eval env (some ((x, b) :: c)))
    (fun e => !p e) es (by
      intro e he
      obtain ⟨t, ht⟩ := hp e he
      exact ⟨some .bool, by simp [Expr.eval, ht, Ev.bind, unary, unaryOp, Val.isNull, mkValue]⟩)
  refine ⟨es.all p, ⟨_, by simp only [Expr.eval, hs]; exact h1.1⟩, ⟨some .bool, ?_⟩⟩
  have := h2.2
  simp only [Expr.eval, hs] at this ⊢
  rw [this]
  congr 3
  clear * -
  induction es with
  | nil => rfl
  | cons e es ih => simp only [List.any_cons, List.all_cons, Bool.not_and, ih]

/-- **C19** (evaluation order): the elements are visited in order and the first one that
decides the quantifier ends the evaluation, so later elements can not cause errors. -/
theorem C19_first_decides (u : Bool) (x src : String) (body : Expr) (c : List (String × FExpr))
    (ty : Ty) (pre : List FExpr) (e : FExpr) (post : List FExpr)
    (hs : c.lookup src = some (.arr ty (pre ++ e :: post)))
    (hpre : ∀ d ∈ pre, Gives env (some ((x, d) :: c)) body (.bool u))
    (he : Gives env (some ((x, e) :: c)) body (.bool (!u))) :
    Gives env (some c) (.quant u x src body) (.bool (!u)) := by
  refine ⟨some .bool, ?_⟩
  simp only [Expr.eval, hs]
  clear hs
  induction pre with
  | nil =>
    obtain ⟨t, he⟩ := he
    cases u <;> simp [quantLoop, he, Ev.bind, mkValue, Val.isNull]
  | cons d pre ih =>
    obtain ⟨t, hd⟩ := hpre d (by simp)
    have ih := ih (fun d hd => hpre d (by simp [hd]))
    cases u <;> simpa [quantLoop, hd, Ev.bind] using ih

example : ([("a", FExpr.arr (.arr 0 .int 0 none) [.int 1, .int 2])] : List (String × FExpr)).lookup "a"
    = some (.arr (.arr 0 .int 0 none) [.int 1, .int 2]) ∧
    ∀ e ∈ [FExpr.int 1, .int 2],
      Gives env0 (some (("x", e) :: [("a", FExpr.arr (.arr 0 .int 0 none) [.int 1, .int 2])]))
        (.binary (some .bool) .gt (.name "x" .int) (.int 0)) (.bool true) := by
  refine ⟨rfl, ?_⟩
  intro e he
  simp only [List.mem_cons, List.not_mem_nil, or_false] at he
  rcases he with rfl | rfl <;> exact ⟨some .bool, rfl⟩

/-! ## C20 -/

/-- **C20** (range test on integers and decimals): `x in a .. b` is true iff `a <= x` and
`x <= b`, and `not (x in a .. b)` - which is how `x not in a .. b` is represented - iff
`x < a` or `b < x`. -/
theorem C20_range (e lo up : Expr) :
    (∀ x a b : Int, Gives env ctx e (.int x) → Gives env ctx lo (.int a) → Gives env ctx up (.int b) →
      ∃ r, Gives env ctx (.range e lo up) (.bool r) ∧
        Gives env ctx (.unary (some .bool) .logicalNot (.range e lo up)) (.bool (!r)) ∧
        (r = true ↔ a ≤ x ∧ x ≤ b) ∧ (r = false ↔ x < a ∨ b < x)) ∧
    (∀ x a b : Rat, Gives env ctx e (.dec x) → Gives env ctx lo (.dec a) → Gives env ctx up (.dec b) →
      ∃ r, Gives env ctx (.range e lo up) (.bool r) ∧
        Gives env ctx (.unary (some .bool) .logicalNot (.range e lo up)) (.bool (!r)) ∧
        (r = true ↔ a ≤ x ∧ x ≤ b) ∧ (r = false ↔ x < a ∨ b < x)) := by
  constructor
  all_goals
    rintro x a b ⟨t1, h1⟩ ⟨t2, h2⟩ ⟨t3, h3⟩
    refine ⟨decide (a ≤ x) && decide (x ≤ b), ⟨some .bool, ?_⟩, ⟨some .bool, ?_⟩, ?_, ?_⟩
    · simp [Expr.eval, h1, h2, h3, Ev.bind, Val.isNull, mkValue]
    · simp [Expr.eval, h1, h2, h3, Ev.bind, Val.isNull, mkValue, unary, unaryOp]
    · simp
    · simp only [Bool.and_eq_false_iff, decide_eq_false_iff_not, not_le]

/-- **C20** (empty ranges): a range whose lower bound is above its upper bound contains
nothing. -/
theorem C20_empty_range (e lo up : Expr) (x a b : Int) (hx : Gives env ctx e (.int x))
    (ha : Gives env ctx lo (.int a)) (hb : Gives env ctx up (.int b)) (h : b < a) :
    Gives env ctx (.range e lo up) (.bool false) := by
  obtain ⟨r, h1, _, h2, _⟩ := (C20_range (env := env) (ctx := ctx) e lo up).1 x a b hx ha hb
  cases r with
  | false => exact h1
  | true => have := h2.1 rfl; omega

/-- **C20** (source form): the expression built for `e [not] in a .. b` is the range test, with
a negation around it for `not in`. -/
theorem C20_source (E : ElEnv) (sc : TScope) (neg : Bool) (e a b : Raw) (r : Expr)
    (h : (Raw.inRange neg e a b).elab E sc = .ok r) :
    ∃ e' a' b', e.elab E sc = .ok e' ∧ a.elab E sc = .ok a' ∧ b.elab E sc = .ok b' ∧
      r = if neg then .unary (some .bool) .logicalNot (.range e' a' b') else .range e' a' b' := by
  simp only [Raw.elab] at h
  cases h1 : e.elab E sc with
  | err _ => simp [h1, El.bind] at h
  | crash _ => simp [h1, El.bind] at h
  | ok e' =>
    cases h2 : a.elab E sc with
    | err _ => simp [h1, h2, El.bind] at h
    | crash _ => simp [h1, h2, El.bind] at h
    | ok a' =>
      cases h3 : b.elab E sc with
      | err _ => simp [h1, h2, h3, El.bind] at h
      | crash _ => simp [h1, h2, h3, El.bind] at h
      | ok b' =>
        refine ⟨e', a', b', rfl, rfl, rfl, ?_⟩
        simp only [h1, h2, h3, El.bind] at h
        unfold mkRange at h
        cases h4 : ensureClass e'.typ Ty.isNumeric with
        | err _ => simp [h4, El.bind] at h
        | crash _ => simp [h4, El.bind] at h
        | ok _ =>
          cases h5 : ensureTy a'.typ e'.typ with
          | err _ => simp [h4, h5, El.bind] at h
          | crash _ => simp [h4, h5, El.bind] at h
          | ok _ =>
            cases h6 : ensureTy b'.typ e'.typ with
            | err _ => simp [h4, h5, h6, El.bind] at h
            | crash _ => simp [h4, h5, h6, El.bind] at h
            | ok _ =>
              simp only [h4, h5, h6, El.bind] at h
              cases neg <;>
                simp [mkNot, mkUnary, ensureClass, Expr.typ, Ty.isInst, Ty.cls, El.bind] at h <;>
                simp [h]

example : Gives env0 none (.int 3) (.int 3) ∧ Gives env0 none (.int 1) (.int 1) ∧
    Gives env0 none (.int 5) (.int 5) := ⟨⟨_, rfl⟩, ⟨_, rfl⟩, ⟨_, rfl⟩⟩

/-! ## C21 -/

private theorem exprs_eval (cs : List Expr) (bs : List Bool)
    (h : List.Forall₂ (fun e b => Gives env ctx e (.bool b)) cs bs) :
    (exprList cs).eval env ctx = .ok (bs.map Val.bool) := by
  induction h with
  | nil => simp [exprList, Exprs.eval]
  | cons h _ ih =>
    obtain ⟨t, h⟩ := h
    simp [exprList, Exprs.eval, h, ih, Ev.bind]

private theorem countTrue_eq (bs : List Bool) : countTrue (bs.map Val.bool) = bs.count true := by
  induction bs with
  | nil => rfl
  | cons b bs ih =>
    cases b <;> simp [countTrue, ih, Val.pyEq, Val.num, List.count_cons] <;> omega

private theorem count_one_iff (bs : List Bool) :
    bs.count true = 1 ↔ ∃ i : Nat, bs[i]? = some true ∧ ∀ j : Nat, bs[j]? = some true → j = i := by
  induction bs with
  | nil => simp
  | cons b bs ih =>
    cases b
    · rw [List.count_cons_of_ne (by simp), ih]
      constructor
      · rintro ⟨i, h1, h2⟩
        refine ⟨i + 1, by simpa using h1, ?_⟩
        intro j hj
        cases j with
        | zero => simp at hj
        | succ j => have := h2 j (by simpa using hj); omega
      · rintro ⟨i, h1, h2⟩
        cases i with
        | zero => simp at h1
        | succ i =>
          refine ⟨i, by simpa using h1, ?_⟩
          intro j hj
          have := h2 (j + 1) (by simpa using hj)
          omega
    · rw [List.count_cons_self]
      constructor
      · intro h
        have h0 : bs.count true = 0 := by omega
        refine ⟨0, by simp, ?_⟩
        intro j hj
        cases j with
        | zero => rfl
        | succ j =>
          have : true ∈ bs := List.mem_of_getElem? (by simpa using hj)
          exact absurd (List.count_pos_iff.2 this) (by omega)
      · rintro ⟨i, h1, h2⟩
        have hi : i = 0 := (h2 0 (by simp)).symm
        subst hi
        have : bs.count true = 0 := by
          rw [List.count_eq_zero]
          intro hm
          obtain ⟨j, hj⟩ := List.mem_iff_getElem?.1 hm
          have := h2 (j + 1) (by simpa using hj)
          omega
        omega

/-- **C21** (partial): when all parameters evaluate to Booleans, `oneof` is true iff exactly
one of them is true.  Missing: null parameters, which the code counts as not true
(`C18_null_oneof_accepted`). -/
theorem C21_oneof_partial (cs : List Expr) (bs : List Bool)
    (h : List.Forall₂ (fun e b => Gives env ctx e (.bool b)) cs bs) :
    ∃ r, Gives env ctx (.oneof (exprList cs)) (.bool r) ∧
      (r = true ↔ ∃ i : Nat, bs[i]? = some true ∧ ∀ j : Nat, bs[j]? = some true → j = i) := by
  refine ⟨bs.count true == 1, ⟨some .bool, ?_⟩, ?_⟩
  · simp [Expr.eval, exprs_eval cs bs h, Ev.bind, mkValue, Val.isNull, countTrue_eq]
  · rw [← count_one_iff]; simp

example : List.Forall₂ (fun e b => Gives env0 none e (.bool b))
    [.bool false, .bool true, .bool false] [false, true, false] :=
  .cons ⟨_, rfl⟩ (.cons ⟨_, rfl⟩ (.cons ⟨_, rfl⟩ .nil))

/-- what a parameter can be: null or a Boolean -/
def valOf (b : Option Bool) : Val := b.elim .null .bool

private theorem exprs_eval_opt (cs : List Expr) (bs : List (Option Bool))
    (h : List.Forall₂ (fun e b => Gives env ctx e (valOf b)) cs bs) :
    (exprList cs).eval env ctx = .ok (bs.map valOf) := by
  induction h with
  | nil => simp [exprList, Exprs.eval]
  | cons h _ ih =>
    obtain ⟨t, h⟩ := h
    simp [exprList, Exprs.eval, h, ih, Ev.bind]

private theorem countTrue_opt (bs : List (Option Bool)) : countTrue (bs.map valOf) = (bs.map (· == some true)).count true := by
  induction bs with
  | nil => rfl
  | cons b bs ih =>
    simp only [List.map_cons, countTrue, ih]
    rcases b with _ | _ | _
    · have : (valOf none).pyEq (.bool true) = false := by simp [valOf, Val.pyEq, Val.isNull]
      simp [this]
    · have : (valOf (some false)).pyEq (.bool true) = false := by simp [valOf, Val.pyEq, Val.num]
      simp [this]
    · have : (valOf (some true)).pyEq (.bool true) = true := by simp [valOf, Val.pyEq, Val.num]
      simp [this]
      omega

/-- **C21** with null parameters: whatever the parameters are, `oneof` is true iff exactly one of them is true, and false otherwise. -/
theorem C21_oneof_null (cs : List Expr) (bs : List (Option Bool))
    (h : List.Forall₂ (fun e b => Gives env ctx e (valOf b)) cs bs) :
    ∃ r, Gives env ctx (.oneof (exprList cs)) (.bool r) ∧
      (r = true ↔ ∃ i : Nat, bs[i]? = some (some true) ∧ ∀ j : Nat, bs[j]? = some (some true) → j = i) := by
  refine ⟨(bs.map (· == some true)).count true == 1, ⟨some .bool, ?_⟩, ?_⟩
  · simp [Expr.eval, exprs_eval_opt cs bs h, Ev.bind, mkValue, Val.isNull, countTrue_opt]
  · have e : ∀ i : Nat, (bs.map (· == some true))[i]? = some true ↔ bs[i]? = some (some true) := by
      intro i
      rw [List.getElem?_map]
      cases bs[i]? with
      | none => simp
      | some b => simp
    rw [beq_iff_eq, count_one_iff]
    simp only [e]

example : List.Forall₂ (fun e b => Gives env0 (some [("a", .inull)]) e (valOf b))
    [.bool false, .name "a" .bool, .bool true] [some false, none, some true] :=
  .cons ⟨_, rfl⟩ (.cons ⟨_, rfl⟩ (.cons ⟨_, rfl⟩ .nil))

/-! ## C22 -/

private theorem acts_skip (pre : List (Expr × Expr)) (rest : Acts)
    (h : ∀ p ∈ pre, Gives env ctx p.1 (.bool false)) :
    (chainActs pre rest).eval env ctx = rest.eval env ctx := by
  induction pre with
  | nil => rfl
  | cons p pre ih =>
    obtain ⟨t, hp⟩ := h p (by simp)
    obtain ⟨c, e⟩ := p
    simp only at hp
    simp [chainActs, Acts.eval, hp, Ev.bind, Val.isNull, ih (fun p hp => h p (by simp [hp]))]

/-- **C22** (conditional expressions): if the first conditions are false and the next one is
true, the outcome is that of its dependent expression, whatever the later conditions and the
other dependent expressions are; if all conditions are false it is that of the else part. -/
theorem C22_conditional (ty : Ty) (pre : List (Expr × Expr))
    (hpre : ∀ p ∈ pre, Gives env ctx p.1 (.bool false)) :
    (∀ c e rest, Gives env ctx c (.bool true) →
      (Expr.cond ty (chainActs pre (.act c e rest))).eval env ctx = e.eval env ctx) ∧
    (∀ e, (Expr.cond ty (chainActs pre (.els e))).eval env ctx = e.eval env ctx) := by
  constructor
  · rintro c e rest ⟨t, hc⟩
    simp [Expr.eval, acts_skip pre _ hpre, Acts.eval, hc, Ev.bind, Val.isNull]
  · intro e
    simp [Expr.eval, acts_skip pre _ hpre, Acts.eval]

example : ∀ p ∈ [((Expr.bool false), (Expr.int 1))], Gives env0 none p.1 (.bool false) := by
  intro p hp
  simp only [List.mem_cons, List.not_mem_nil, or_false] at hp
  subst hp
  exact ⟨_, rfl⟩

/-! ## C23 -/

/-- **C23** (array indexing, partial): for an array value of a type without upper bound, or
that respects its upper bound, `a[i]` is the i-th element when `0 <= i < len(a)`; a negative
index and an index above the length are reported.  Missing: `i = len(a)`, see
`C23_index_at_length`. -/
theorem C23_index_partial (a i : Expr) (t : Option Ty) (elem : Ty) (id lo : Nat) (hi : Option Nat)
    (es : List (Option Ty × Val)) (k : Int)
    (ha : a.eval env ctx = .ok ⟨some (.arr id elem lo hi), .arr es⟩)
    (hes : ∀ e ∈ es, e.2 ≠ .null)
    (hlen : ∀ u, hi = some u → es.length ≤ u)
    (hk : Gives env ctx i (.int k)) :
    (∀ n : Nat, ∀ e, k = n → es[n]? = some e →
      Gives env ctx (.binary (some elem) .index a i) e.2) ∧
    (k < 0 → Reports env ctx (.binary t .index a i)) ∧
    (es.length < k → Reports env ctx (.binary t .index a i)) := by
  obtain ⟨t', hk⟩ := hk
  refine ⟨?_, ?_, ?_⟩
  · rintro n e rfl he
    have hn : n < es.length := by
      by_contra h
      rw [List.getElem?_eq_none (by omega)] at he
      cases he
    have hmem : e ∈ es := List.mem_of_getElem? he
    have hne := hes e hmem
    have hnn : e.2.isNull = false := by
      cases h : e.2 <;> simp_all [Val.isNull]
    have hany : (hi.any fun (u : Nat) => decide ((u : Int) < (n : Int))) = false := by
      cases hi with
      | none => rfl
      | some u => have := hlen u rfl; simp; omega
    have hget : es[n]'hn = e := by
      rw [List.getElem?_eq_getElem hn] at he
      exact Option.some.inj he
    refine ⟨some elem, ?_⟩
    have h0 : ¬ ((n : Int) < 0) := by omega
    have h1 : ¬ ((es.length : Int) < n) := by omega
    have hn1 : (Val.arr es).isNull = false := rfl
    have hn2 : (Val.int n).isNull = false := rfl
    simp only [Expr.eval, ha, hk, Ev.bind, hn1, hn2, BinOp.allowsNull, binaryOp, indexOp, hany,
      mkValue, h0, h1, Int.toNat_natCast, he, hnn, Bool.false_and, Bool.false_eq_true, if_false,
      Option.isNone_some, if_true]
  · intro hneg
    exact ⟨.indexNegative, by
      simp [Expr.eval, ha, hk, Ev.bind, Val.isNull, BinOp.allowsNull, binaryOp, indexOp, hneg]⟩
  · intro hbig
    have h0 : ¬ k < 0 := by omega
    by_cases hany : (hi.any fun (u : Nat) => decide ((u : Int) < k)) = true
    · exact ⟨.indexAboveBound, by
        simp [Expr.eval, ha, hk, Ev.bind, Val.isNull, BinOp.allowsNull, binaryOp, indexOp, h0, hany]⟩
    · exact ⟨.indexAboveLength, by
        simp [Expr.eval, ha, hk, Ev.bind, Val.isNull, BinOp.allowsNull, binaryOp, indexOp, h0, hany,
          hbig]⟩

example : (Expr.name "a" (.arr 0 .int 0 (some 3))).eval env0
      (some [("a", .arr (.arr 0 .int 0 (some 3)) [.int 7, .int 8])])
    = .ok ⟨some (.arr 0 .int 0 (some 3)), .arr [(some .int, .int 7), (some .int, .int 8)]⟩ := rfl

/-- **C23 and C16 are violated** for the index one past the end: for every array value whose
type has no upper bound below its length, `a[len(a)]` raises an internal exception. -/
theorem C23_index_at_length (a i : Expr) (t : Option Ty) (elem : Ty) (id lo : Nat) (hi : Option Nat)
    (es : List (Option Ty × Val))
    (ha : a.eval env ctx = .ok ⟨some (.arr id elem lo hi), .arr es⟩)
    (hlen : ∀ u, hi = some u → es.length ≤ u)
    (hk : Gives env ctx i (.int es.length)) :
    Crashes env ctx (.binary t .index a i) := by
  obtain ⟨t', hk⟩ := hk
  have hany : (hi.any fun (u : Nat) => decide ((u : Int) < (es.length : Int))) = false := by
    cases hi with
    | none => rfl
    | some u => have := hlen u rfl; simp; omega
  have h0 : ¬ ((es.length : Int) < 0) := by omega
  have h1 : ¬ ((es.length : Int) < es.length) := by omega
  have hn1 : (Val.arr es).isNull = false := rfl
  have hn2 : (Val.int es.length).isNull = false := rfl
  have he : es[es.length]? = none := by simp
  exact ⟨.indexError, by
    simp only [Expr.eval, ha, hk, Ev.bind, hn1, hn2, BinOp.allowsNull, binaryOp, indexOp, hany,
      h0, h1, Int.toNat_natCast, he, Bool.false_and, Bool.false_eq_true, if_false]⟩

/-! ## C24 -/

/-- **C24** (division in checks): integer division is the floor of the quotient, decimal
division the exact quotient; dividing by zero - also with `%` - is a reported error. -/
theorem C24_division (l r : Expr) (t : Option Ty) :
    (∀ a b : Int, Gives env ctx l (.int a) → Gives env ctx r (.int b) → b ≠ 0 →
      ∃ q, Gives env ctx (.binary (some .int) .divide l r) (.int q) ∧
        (q : Rat) ≤ (a : Rat) / b ∧ (a : Rat) / b < q + 1) ∧
    (∀ a b : Rat, Gives env ctx l (.dec a) → Gives env ctx r (.dec b) → b ≠ 0 →
      ∃ q, Gives env ctx (.binary (some .dec) .divide l r) (.dec q) ∧ q * b = a) ∧
    (∀ a : Int, Gives env ctx l (.int a) → Gives env ctx r (.int 0) →
      Reports env ctx (.binary t .divide l r) ∧ Reports env ctx (.binary t .remainder l r)) ∧
    (∀ a : Rat, Gives env ctx l (.dec a) → Gives env ctx r (.dec 0) →
      Reports env ctx (.binary t .divide l r)) := by
  refine ⟨?_, ?_, ?_, ?_⟩
  · rintro a b ⟨t1, h1⟩ ⟨t2, h2⟩ hb
    obtain ⟨q, hq, hq1, hq2⟩ := C24_floor_division a b hb
    refine ⟨q, ⟨some .int, ?_⟩, hq1, hq2⟩
    simp [Expr.eval, h1, h2, Ev.bind, Val.isNull, BinOp.allowsNull, binaryOp, numPair, hq, mkValue]
  · rintro a b ⟨t1, h1⟩ ⟨t2, h2⟩ hb
    refine ⟨a / b, ⟨some .dec, ?_⟩, by field_simp⟩
    simp [Expr.eval, h1, h2, Ev.bind, Val.isNull, BinOp.allowsNull, binaryOp, numPair, hb, mkValue]
  · rintro a ⟨t1, h1⟩ ⟨t2, h2⟩
    constructor
    · exact ⟨.divByZero, by
        simp [Expr.eval, h1, h2, Ev.bind, Val.isNull, BinOp.allowsNull, binaryOp, numPair, pyFloorDiv]⟩
    · exact ⟨.divByZero, by
        simp [Expr.eval, h1, h2, Ev.bind, Val.isNull, BinOp.allowsNull, binaryOp, remainder, pyNatMod]⟩
  · rintro a ⟨t1, h1⟩ ⟨t2, h2⟩
    exact ⟨.divByZero, by
      simp [Expr.eval, h1, h2, Ev.bind, Val.isNull, BinOp.allowsNull, binaryOp, numPair]⟩

example : Gives env0 none (.unary (some .int) .minus (.int 7)) (.int (-7)) ∧
    Gives env0 none (.int 2) (.int 2) := ⟨⟨_, rfl⟩, ⟨_, rfl⟩⟩

end Verif.Props
