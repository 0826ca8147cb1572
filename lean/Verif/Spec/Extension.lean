import Verif.Model.Types
/-!
# What it means for a record type to extend another one (LRM, "Record types")

Stated with the declarations only (`parent` links and declared components); the functions of
the model that follow these links are not used.
-/
namespace Verif.Spec
open Verif.Model

/-- Record type `p` is the direct parent of record type `t`. -/
def ParentOf (D : Decls) (t p : Nat) : Prop := ∃ r, D.recs[t]? = some r ∧ r.parent = some p

/-- Every parent is declared, and is declared before its extensions (a type can only extend a
type that exists already). -/
def WFDecls (D : Decls) : Prop := ∀ t p, ParentOf D t p → p < t

/-- `t` is the record type `s` or extends it, directly or through other types. -/
inductive Extends (D : Decls) : Nat → Nat → Prop
  | refl {t : Nat} : t < D.recs.length → Extends D t t
  | step {t p s : Nat} : ParentOf D t p → Extends D p s → Extends D t s

/-- Component `c` is declared in the record type `t` itself. -/
def Declares (D : Decls) (t : Nat) (c : Comp) : Prop := ∃ r, D.recs[t]? = some r ∧ c ∈ r.own

/-- Record type `t` has component `c`: it or a type it extends declares `c`. -/
def HasComp (D : Decls) (t : Nat) (c : Comp) : Prop := ∃ s, Extends D t s ∧ Declares D s c

end Verif.Spec
