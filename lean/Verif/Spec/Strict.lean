import Verif.Model.Eval
import Verif.Spec.TypeRules
/-!
# Evaluation that needs every part

The value of a check expression if all parts that are needed for it have values: operands of `and`,
`or`, `implies` that are evaluated, branches that are taken, choices of `oneof` and the body of a
quantifier **for every element** must have a value that is not null.  Where this gives a value,
evaluation gives the same (`Lemmas/Vcg/Strict.lean`).
-/
namespace Verif.Spec
open Verif.Model

/-- the value, if there is one -/
def _root_.Verif.Model.Ev.get {α : Type} : Ev α → Option α
  | .ok a => some a
  | _ => none

/-- a value that is not null -/
def solid (x : Option TV) : Option TV := x.bind fun v => if v.val.isNull then none else some v

/-- the results of a body for all elements -/
def allBools (f : FExpr → Option TV) : List FExpr → Option (List Bool)
  | [] => some []
  | b :: bs =>
    (f b).bind fun r =>
      match r.val with
      | .bool x => (allBools f bs).bind fun ys => some (x :: ys)
      | _ => none

/-- a field of a value that is not null -/
def fieldOf (heap : Nat → Option Fields) (v : Val) (n : String) : Option TV :=
  match v with
  | .tup fs =>
    match fs.lookup n with
    | none => some ⟨none, .null⟩
    | some v => some ⟨v.1, v.2⟩
  | .recv fs =>
    match fs.lookup n with
    | none => some ⟨none, .null⟩
    | some v => (v.expr.eval heap).get
  | _ => none

/-- `lo <= x <= up` -/
def inRange (lo x up : Val) : Option Bool :=
  match lo, x, up with
  | .int a, .int x, .int b => some (decide (a ≤ x) && decide (x ≤ b))
  | .dec a, .dec x, .dec b => some (decide (a ≤ x) && decide (x ≤ b))
  | _, _, _ => none

mutual
/-- the value of an expression with all its parts -/
def strict (env : EvEnv) (c : List (String × FExpr)) : Expr → Option TV
  | .null => some ⟨none, .null⟩
  | .bool b => some ⟨some .bool, .bool b⟩
  | .int i => some ⟨some .int, .int i⟩
  | .dec q => some ⟨some .dec, .dec q⟩
  | .str s => some ⟨some .str, .str s⟩
  | .enum t l => some ⟨some (.enum t), .enum t l⟩
  | .name n _ => (c.lookup n).bind fun e => (e.eval env.heap).get
  | .unary t op e => (solid (strict env c e)).bind fun v => (unaryOp op t v.val).get
  | .binary t op l r =>
    if op.allowsNull then
      (strict env c l).bind fun vl => (strict env c r).bind fun vr => (binaryOp env.rx op t vl vr).get
    else
      (solid (strict env c l)).bind fun vl => (solid (strict env c r)).bind fun vr => (binaryOp env.rx op t vl vr).get
  | .logic op l r =>
    (solid (strict env c l)).bind fun vl =>
      match op, vl.val with
      | .and, .bool b => if b then solid (strict env c r) else some vl
      | .or, .bool b => if b then some vl else solid (strict env c r)
      | .implies, .bool b => if b then solid (strict env c r) else some ⟨some .bool, .bool true⟩
      | _, _ => none
  | .field p n _ => (solid (strict env c p)).bind fun v => fieldOf env.heap v.val n
  | .range e lo up =>
    (solid (strict env c e)).bind fun v =>
      (solid (strict env c lo)).bind fun vlo =>
        (solid (strict env c up)).bind fun vup =>
          (inRange vlo.val v.val vup.val).map fun b => ⟨some .bool, .bool b⟩
  | .oneof cs => (stricts env c cs).map fun vs => ⟨some .bool, .bool (countTrue vs == 1)⟩
  | .cond _ as => strictA env c as
  | .quant u x src body =>
    match c.lookup src with
    | some (.arr _ es) =>
      (allBools (fun b => strict env ((x, b) :: c) body) es).map fun bs =>
        ⟨some .bool, .bool (if u then bs.all id else bs.any id)⟩
    | _ => none
/-- the values of all choices -/
def stricts (env : EvEnv) (c : List (String × FExpr)) : Exprs → Option (List Val)
  | .nil => some []
  | .cons e es => (solid (strict env c e)).bind fun v => (stricts env c es).map fun vs => v.val :: vs
/-- the value of the branch that is taken -/
def strictA (env : EvEnv) (c : List (String × FExpr)) : Acts → Option TV
  | .els e => solid (strict env c e)
  | .act k e rest =>
    (solid (strict env c k)).bind fun v =>
      match v.val with
      | .bool b => if b then solid (strict env c e) else strictA env c rest
      | _ => none
end

mutual
/-- The comparisons of an expression are between types that can be compared, `in` looks for a value
of the type of the elements, and `oneof` chooses between booleans. -/
def Exact (D : Decls) : Expr → Prop
  | .null | .bool _ | .int _ | .dec _ | .str _ | .enum _ _ | .name _ _ => True
  | .unary _ _ e => Exact D e
  | .binary _ op l r => Exact D l ∧ Exact D r ∧ (op.allowsNull = true → Comparable D l.typ r.typ) ∧
      (op = .arrContains → ∃ id σ lo hi, l.typ = some σ ∧ r.typ = some (.arr id σ lo hi))
  | .logic _ l r => Exact D l ∧ Exact D r
  | .field p _ _ => Exact D p
  | .range e lo up => Exact D e ∧ Exact D lo ∧ Exact D up
  | .oneof cs => Exacts D cs
  | .cond _ as => ExactA D as
  | .quant _ _ _ body => Exact D body
/-- the choices of `oneof` -/
def Exacts (D : Decls) : Exprs → Prop
  | .nil => True
  | .cons e es => Exact D e ∧ e.typ = some .bool ∧ Exacts D es
/-- the branches of a conditional expression -/
def ExactA (D : Decls) : Acts → Prop
  | .els e => Exact D e
  | .act k e rest => Exact D k ∧ Exact D e ∧ ExactA D rest
end

mutual
/-- No array in a value is longer than the upper bound of its type. -/
def Bounded : Val → Option Ty → Prop
  | .arr es, t => (∀ id elem lo hi, t = some (.arr id elem lo (some hi)) → es.length ≤ hi) ∧ BoundedL es
  | .tup fs, _ => BoundedF fs
  | _, _ => True
/-- the elements of an array -/
def BoundedL : List (Option Ty × Val) → Prop
  | [] => True
  | x :: xs => BoundedT x ∧ BoundedL xs
/-- a value with its type -/
def BoundedT : Option Ty × Val → Prop
  | (t, v) => Bounded v t
/-- the fields of a tuple -/
def BoundedF : List (String × Option Ty × Val) → Prop
  | [] => True
  | f :: fs => BoundedG f ∧ BoundedF fs
/-- one field -/
def BoundedG : String × Option Ty × Val → Prop
  | (_, t, v) => Bounded v t
end

/-- The value of a component is within its bounds. -/
def InBounds (heap : Nat → Option Fields) (e : FExpr) : Prop := ∀ v, e.eval heap = .ok v → Bounded v.val v.typ

/-- The values of all components of all objects are within their bounds. -/
def HeapInBounds (heap : Nat → Option Fields) : Prop :=
  ∀ o fs, heap o = some fs → ∀ f ∈ fs, InBounds heap f.2.expr

end Verif.Spec
