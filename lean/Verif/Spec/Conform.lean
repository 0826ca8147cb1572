import Verif.Model.Values
import Verif.Spec.Extension
/-!
# When a record object conforms to its type (LRM, "Record object declarations")

`objTy` gives the record type of every record object.  A conforming object has a value for
every component of its type (declared or inherited) and for nothing else; the value has the
component's type, and only optional components are null.
-/
namespace Verif.Spec
open Verif.Model

/-- An object of record type `t` may be referred to where `τ` is expected: `τ` is a record
type that `t` is or extends, or a union of which some member is. -/
def Referable (D : Decls) (t : Nat) : Ty → Prop
  | .record s => Extends D t s
  | .union _ ms => ∃ m ∈ ms, Extends D t m
  | _ => False

mutual
/-- A value expression (other than the implicit null) has type `τ`. -/
def FOk (D : Decls) (objTy : Nat → Option Nat) : FExpr → Ty → Prop
  | .inull, _ => False
  | .bool _, τ => τ = .bool
  | .int _, τ => τ = .int
  | .dec _, τ => τ = .dec
  | .str _, τ => τ = .str
  | .markup _, τ => τ = .markup
  | .enum t l, τ => τ = .enum t ∧ ∃ ls, D.enums[t]? = some ls ∧ l ∈ ls
  | .neg e, τ => (τ = .int ∧ ∃ i, e = .int i) ∨ (τ = .dec ∧ ∃ q, e = .dec q)
  | .pos e, τ => (τ = .int ∧ ∃ i, e = .int i) ∨ (τ = .dec ∧ ∃ q, e = .dec q)
  | .arr t es, τ => τ = t ∧ ∃ id elem lo hi, t = .arr id elem lo hi ∧ AllOk D objTy es elem
  | .tup t fs, τ => τ = .tup t ∧ ∃ cs, D.tups[t]? = some cs ∧ FieldsOk D objTy fs cs
  | .ref t target, τ => τ = t ∧ ∃ o u, target = some o ∧ objTy o = some u ∧ Referable D u t

/-- All elements have type `τ`. -/
def AllOk (D : Decls) (objTy : Nat → Option Nat) : List FExpr → Ty → Prop
  | [], _ => True
  | e :: es, τ => FOk D objTy e τ ∧ AllOk D objTy es τ

/-- The fields of a tuple are those of its type, in the declared order. -/
def FieldsOk (D : Decls) (objTy : Nat → Option Nat) : List (String × FExpr) → List Comp → Prop
  | [], [] => True
  | f :: fs, c :: cs => FieldOk D objTy f c ∧ FieldsOk D objTy fs cs
  | _, _ => False

/-- The value of one field: null if optional, or a value of the type of the field. -/
def FieldOk (D : Decls) (objTy : Nat → Option Nat) : String × FExpr → Comp → Prop
  | (n, e), c => n = c.name ∧ ((c.optional = true ∧ e = .inull) ∨ FOk D objTy e c.ty)
end

/-- The fields of a record object conform to the record type `t`. -/
def ObjOk (D : Decls) (objTy : Nat → Option Nat) (fs : Fields) (t : Nat) : Prop :=
  (∀ c, HasComp D t c → ∃ n, fs.lookup c.name = some n ∧
    ((c.optional = true ∧ n.expr = .inull) ∨ FOk D objTy n.expr c.ty)) ∧
  (∀ k, (fs.lookup k).isSome → ∃ c, HasComp D t c ∧ c.name = k)

/-- All record objects exist and conform to their types. -/
def HeapOk (D : Decls) (objTy : Nat → Option Nat) (heap : Nat → Option Fields) : Prop :=
  ∀ o t, objTy o = some t → ∃ fs, heap o = some fs ∧ ObjOk D objTy fs t

end Verif.Spec
