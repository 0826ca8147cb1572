import Verif.Spec.Extension
import Verif.Model.Elab
/-!
# The typing rules of check expressions (LRM, "Expressions")

Which type a syntax tree has in a scope; `none` is the type of `null`, which no operator other
than `==` and `!=` accepts.  The rules refer to the declarations only.  Two operands have to be
known while the check is read (the exponent of `**` and the pattern of `matches`); what they
evaluate to is a parameter (`known`).
-/
namespace Verif.Spec
open Verif.Model

/-- `Integer` or `Decimal` -/
def NumTy (t : Ty) : Prop := t = .int ∨ t = .dec

/-- `String` or `Markup_String` -/
def StrTy (t : Ty) : Prop := t = .str ∨ t = .markup

/-- an array type -/
def ArrTy (t : Ty) : Prop := ∃ id elem lo hi, t = .arr id elem lo hi

/-- Objects of record type `m` are what a reference of the type refers to. -/
def RefersTo : Ty → Nat → Prop
  | .record t, m => m = t
  | .union _ ms, m => m ∈ ms
  | _, _ => False

/-- a union type -/
def UnionTy (t : Ty) : Prop := ∃ id ms, t = .union id ms

/-- `==` and `!=`: the same type, or null, or references one of which is a union, and some object
could be both. -/
def Comparable (D : Decls) : Option Ty → Option Ty → Prop
  | some a, some b =>
    (¬ UnionTy a ∧ ¬ UnionTy b ∧ a = b) ∨
    ((UnionTy a ∨ UnionTy b) ∧
      ∃ m n, RefersTo a m ∧ RefersTo b n ∧ (Extends D m n ∨ Extends D n m))
  | _, _ => True

/-- the arithmetic operators -/
def ArithRule : ArOp → Ty → Ty → Ty → Prop
  | .plus, a, b, t => (NumTy a ∧ b = a ∧ t = a) ∨ (StrTy a ∧ StrTy b ∧ t = .str)
  | .minus, a, b, t | .times, a, b, t | .divide, a, b, t => NumTy a ∧ b = a ∧ t = a
  | .remainder, a, b, t => a = .int ∧ b = .int ∧ t = .int

/-- the comparison operators -/
def CmpRule (D : Decls) : CmpOp → Option Ty → Option Ty → Prop
  | .eq, a, b | .neq, a, b => Comparable D a b
  | _, a, b => ∃ t, NumTy t ∧ a = some t ∧ b = some t

/-- `in`: a string in a string, or a value in an array whose elements are of the same kind of
type.  (The reference manual asks for the same type.) -/
def InRule (a b : Ty) : Prop :=
  (StrTy a ∧ StrTy b) ∨
  ∃ id elem lo hi, b = .arr id elem lo hi ∧ (a.cls = elem.cls ∨ (a = .markup ∧ elem = .str))

/-- the builtin functions and conversions -/
def CallRule (f : String) (ts : List (Option Ty)) (t : Option Ty) : Prop :=
  (f = "len" ∧ t = some .int ∧ ∃ a, ts = [some a] ∧ (StrTy a ∨ ArrTy a)) ∨
  ((f = "startswith" ∨ f = "endswith" ∨ f = "matches") ∧ t = some .bool ∧
    ∃ a b, ts = [some a, some b] ∧ StrTy a ∧ StrTy b) ∨
  (f = "oneof" ∧ t = some .bool ∧ ts ≠ [] ∧ ∀ a ∈ ts, a = some .bool) ∨
  (f = "Integer" ∧ t = some .int ∧ ∃ a, ts = [some a] ∧ NumTy a) ∨
  (f = "Decimal" ∧ t = some .dec ∧ ∃ a, ts = [some a] ∧ NumTy a)

/-- `.f` on a tuple, a record declared with this component, or a union -/
def FieldRule (D : Decls) (f : String) : Ty → Ty → Prop
  | .tup t, ty => ∃ c, (D.fields t).find? (·.name == f) = some c ∧ c.memberOf = .tup t ∧ ty = c.ty
  | .record t, ty => ∃ c, HasComp D t c ∧ c.name = f ∧ c.memberOf = .record t ∧ ty = c.ty
  | .union _ ms, ty =>
    (∃ m ∈ ms, ∃ c, HasComp D m c ∧ c.name = f) ∧ ∀ m ∈ ms, ∀ c, HasComp D m c → c.name = f → c.ty = ty
  | _, _ => False

/-- A name that means something already -/
def InScope (sc : TScope) (x : String) : Prop :=
  (∃ t, (x, t) ∈ sc.vars) ∨ (∃ c, sc.comp x = some c) ∨ sc.other x = true

/-- The innermost quantified variable of this name has the type. -/
def VarTy : List (String × Ty) → String → Ty → Prop
  | [], _, _ => False
  | (y, u) :: vs, x, t => (y = x ∧ t = u) ∨ (y ≠ x ∧ VarTy vs x t)

/-- A name that is not a quantified variable -/
def NotVar (sc : TScope) (x : String) : Prop := ∀ t, (x, t) ∉ sc.vars

mutual
/-- The syntax tree has the type. -/
def HasTy (D : Decls) (known : TScope → Raw → Val → Prop) (okPattern : List Char → Prop)
    (sc : TScope) : Raw → Option Ty → Prop
  | .null, t => t = none
  | .bool _, t => t = some .bool
  | .int _, t => t = some .int
  | .dec _, t => t = some .dec
  | .str _, t => t = some .str
  | .enumLit path lit, t =>
    ∃ n ls, sc.enums path = some n ∧ D.enums[n]? = some ls ∧ lit ∈ ls ∧ t = some (.enum n)
  | .name x, t =>
    (∃ u, VarTy sc.vars x u ∧ t = some u) ∨ (NotVar sc x ∧ ∃ c, sc.comp x = some c ∧ t = some c.ty)
  | .dot p f, t =>
    ∃ a b, HasTy D known okPattern sc p (some a) ∧ FieldRule D f a b ∧ t = some b
  | .index p i, t =>
    ∃ id elem lo hi, HasTy D known okPattern sc p (some (.arr id elem lo hi)) ∧
      HasTy D known okPattern sc i (some .int) ∧ t = some elem
  | .call f args, t =>
    (∃ ts, HasTys D known okPattern sc args ts ∧ CallRule f ts t) ∧
    (f = "matches" → ∃ a b s, args = .cons a (.cons b .nil) ∧ known sc b (.str s) ∧ okPattern s)
  | .sign _ e, t | .abs e, t => ∃ a, HasTy D known okPattern sc e (some a) ∧ NumTy a ∧ t = some a
  | .not e, t => HasTy D known okPattern sc e (some .bool) ∧ t = some .bool
  | .power l r, t =>
    (∃ a, HasTy D known okPattern sc l (some a) ∧ NumTy a ∧ t = some a) ∧
    HasTy D known okPattern sc r (some .int) ∧ ∃ i, known sc r (.int i) ∧ 0 ≤ i
  | .arith op l r, t =>
    ∃ a b c, HasTy D known okPattern sc l (some a) ∧ HasTy D known okPattern sc r (some b) ∧
      ArithRule op a b c ∧ t = some c
  | .cmp op l r, t =>
    ∃ a b, HasTy D known okPattern sc l a ∧ HasTy D known okPattern sc r b ∧ CmpRule D op a b ∧
      t = some .bool
  | .isIn _ e a, t =>
    ∃ x y, HasTy D known okPattern sc e (some x) ∧ HasTy D known okPattern sc a (some y) ∧
      InRule x y ∧ t = some .bool
  | .inRange _ e a b, t =>
    ∃ x, NumTy x ∧ HasTy D known okPattern sc e (some x) ∧ HasTy D known okPattern sc a (some x) ∧
      HasTy D known okPattern sc b (some x) ∧ t = some .bool
  | .logic _ l r, t =>
    HasTy D known okPattern sc l (some .bool) ∧ HasTy D known okPattern sc r (some .bool) ∧
      t = some .bool
  | .cond c e rest, t =>
    HasTy D known okPattern sc c (some .bool) ∧ ∃ a, HasTy D known okPattern sc e (some a) ∧
      t = some a ∧ HasTyActs D known okPattern sc a rest
  | .quant _ x src body, t =>
    ¬ InScope sc x ∧ NotVar sc src ∧ t = some .bool ∧
      ∃ c id elem lo hi, sc.comp src = some c ∧ c.ty = .arr id elem lo hi ∧
        HasTy D known okPattern { sc with vars := (x, elem) :: sc.vars } body (some .bool)

/-- The parameters have the types. -/
def HasTys (D : Decls) (known : TScope → Raw → Val → Prop) (okPattern : List Char → Prop)
    (sc : TScope) : Raws → List (Option Ty) → Prop
  | .nil, ts => ts = []
  | .cons e es, ts =>
    ∃ t us, HasTy D known okPattern sc e t ∧ HasTys D known okPattern sc es us ∧ ts = t :: us

/-- All conditions are Boolean, all branches have the type. -/
def HasTyActs (D : Decls) (known : TScope → Raw → Val → Prop) (okPattern : List Char → Prop)
    (sc : TScope) (t : Ty) : RActs → Prop
  | .els e => HasTy D known okPattern sc e (some t)
  | .act c e rest =>
    HasTy D known okPattern sc c (some .bool) ∧ HasTy D known okPattern sc e (some t) ∧
      HasTyActs D known okPattern sc t rest
end

end Verif.Spec
