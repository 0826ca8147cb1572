import Verif.Model.Parse.State
import Verif.Spec.Conform
/-!
# When a parsed value has a type, and which type declarations are possible

Like `Spec/Conform.lean`, but references are still names.
-/
namespace Verif.Spec
open Verif.Model

/-- References can only be written where a record type or a union is expected. -/
def RefTy : Ty → Prop
  | .record _ => True
  | .union .. => True
  | _ => False

mutual
/-- A parsed value (other than the implicit null) has type `τ`. -/
def VOk (D : Decls) : PVal → Ty → Prop
  | .inull, _ => False
  | .bool _, τ => τ = .bool
  | .int _, τ => τ = .int
  | .dec _, τ => τ = .dec
  | .str _, τ => τ = .str
  | .markup _ _, τ => τ = .markup
  | .enum t l, τ => τ = .enum t ∧ ∃ ls, D.enums[t]? = some ls ∧ l ∈ ls
  | .neg e, τ => (τ = .int ∧ ∃ i, e = .int i) ∨ (τ = .dec ∧ ∃ q, e = .dec q)
  | .pos e, τ => (τ = .int ∧ ∃ i, e = .int i) ∨ (τ = .dec ∧ ∃ q, e = .dec q)
  | .arr t es, τ => τ = t ∧ ∃ id elem lo hi, t = .arr id elem lo hi ∧ AllVOk D es elem
  | .tup t fs, τ => τ = .tup t ∧ ∃ cs, D.tups[t]? = some cs ∧ FieldsVOk D fs cs
  | .ref t _ _, τ => τ = t ∧ RefTy t

/-- All elements have type `τ`. -/
def AllVOk (D : Decls) : List PVal → Ty → Prop
  | [], _ => True
  | e :: es, τ => VOk D e τ ∧ AllVOk D es τ

/-- The fields of a tuple are those of its type, in the declared order. -/
def FieldsVOk (D : Decls) : List (String × PVal) → List Comp → Prop
  | [], [] => True
  | f :: fs, c :: cs => FieldVOk D f c ∧ FieldsVOk D fs cs
  | _, _ => False

/-- The value of one field: null if optional, or a value of the type of the field. -/
def FieldVOk (D : Decls) : String × PVal → Comp → Prop
  | (n, e), c => n = c.name ∧ ((c.optional = true ∧ e = .inull) ∨ VOk D e c.ty)
end

/-- The number of elements lies within the bounds of the array type (`exact = false`: a
declared upper bound of 0 is ignored). -/
def LengthOk (exact : Bool) (n : Nat) : Ty → Prop
  | .arr _ _ lo hi => lo ≤ n ∧ ∀ h, hi = some h → (exact = false ∧ h = 0) ∨ n ≤ h
  | _ => False

mutual
/-- All arrays in a value respect the bounds of their type. -/
def BoundsOk (exact : Bool) : PVal → Prop
  | .arr t es => LengthOk exact es.length t ∧ AllBoundsOk exact es
  | .tup _ fs => FieldsBoundsOk exact fs
  | .neg e => BoundsOk exact e
  | .pos e => BoundsOk exact e
  | _ => True

/-- … for all elements -/
def AllBoundsOk (exact : Bool) : List PVal → Prop
  | [] => True
  | e :: es => BoundsOk exact e ∧ AllBoundsOk exact es

/-- … for all fields -/
def FieldsBoundsOk (exact : Bool) : List (String × PVal) → Prop
  | [] => True
  | f :: fs => FieldBoundsOk exact f ∧ FieldsBoundsOk exact fs

/-- … for one field -/
def FieldBoundsOk (exact : Bool) : String × PVal → Prop
  | (_, e) => BoundsOk exact e
end

/-- How deeply a type refers to tuple types and arrays. -/
def tyRank : Ty → Nat
  | .tup t => t + 1
  | .arr _ e _ _ => tyRank e + 1
  | _ => 0

/-- The tuple types a type refers to exist. -/
def TyOk (D : Decls) : Ty → Prop
  | .tup t => t < D.tups.length
  | .arr _ e _ _ => TyOk D e
  | _ => True

/-- Once a field is optional, so are all later ones. -/
def OptionalTail : List Comp → Prop
  | [] => True
  | c :: cs => (c.optional = true → ∀ c' ∈ cs, c'.optional = true) ∧ OptionalTail cs

/-- Well-formed tuple types: at least one field, the first one not optional, optional fields
at the end, distinct field names, and fields of a tuple type only of an earlier declared
one. -/
structure TupleOk (D : Decls) (t : Nat) (cs : List Comp) : Prop where
  first : ∃ c cs', cs = c :: cs' ∧ c.optional = false
  tail : OptionalTail cs
  names : (cs.map (·.name)).Nodup
  types : ∀ c ∈ cs, TyOk D c.ty
  earlier : ∀ c ∈ cs, tyRank c.ty ≤ t

/-- All tuple types are well-formed. -/
def TuplesOk (D : Decls) : Prop := ∀ t cs, D.tups[t]? = some cs → TupleOk D t cs

end Verif.Spec
