import Verif.Spec.Parsed
import Verif.Spec.CheckSafety
/-!
# Complete record objects (LRM, "Record object declarations")
-/
namespace Verif.Spec
open Verif.Model

/-- The component `name` of record type `t` is frozen, with the value `node`: the type or one
it extends says so. -/
def FrozenIn (D : Decls) (infos : List RecInfo) (t : Nat) (name : String) (node : VNode) : Prop :=
  ∃ a i, Extends D t a ∧ infos[a]? = some i ∧ i.frozen.lookup name = some node

/-- Every component of the type of the object has a value: the frozen one if the component is
frozen; otherwise a value of the type of the component, or null if the component is
optional.  The object has no other values. -/
def ObjComplete (D : Decls) (infos : List RecInfo) (ob : Obj) : Prop :=
  (∀ c, HasComp D ob.typ c → ∃ n, ob.fields.lookup c.name = some n ∧
    (FrozenIn D infos ob.typ c.name n ∨
      ((∀ m, ¬ FrozenIn D infos ob.typ c.name m) ∧
        ((c.optional = true ∧ n.val = .inull) ∨ VOk D n.val c.ty)))) ∧
  (∀ k, (ob.fields.lookup k).isSome → ∃ c, HasComp D ob.typ c ∧ c.name = k) ∧
  (ob.fields.map Prod.fst).Nodup

/-- The values of the object are those of the assignments `asg`: every component assigned is a
component of the type, is not frozen and is assigned once; it has the assigned value.  Of the
other components the frozen ones have the frozen value, and the others are optional and
null.  The type is not abstract. -/
def ObjFrom (D : Decls) (infos : List RecInfo) (asg : List (String × PVal)) (ob : Obj) : Prop :=
  (∀ i, infos[ob.typ]? = some i → i.isAbstract = false) ∧
  (asg.map Prod.fst).Nodup ∧
  (∀ p ∈ asg, ∃ c, HasComp D ob.typ c ∧ c.name = p.1) ∧
  (∀ p ∈ asg, ∀ m, ¬ FrozenIn D infos ob.typ p.1 m) ∧
  (∀ c, HasComp D ob.typ c → ∃ n, ob.fields.lookup c.name = some n ∧
    ((∃ v, (c.name, v) ∈ asg ∧ n.val = v) ∨
     (c.name ∉ asg.map Prod.fst ∧ FrozenIn D infos ob.typ c.name n) ∨
     (c.name ∉ asg.map Prod.fst ∧ (∀ m, ¬ FrozenIn D infos ob.typ c.name m) ∧
       c.optional = true ∧ n.val = .inull)))

/-- What the declaration of types guarantees (`trlc/parser.py:428-770`): the parent of a record
type is declared before it, component names are unique, components say to which type they
belong, tuple types are well-formed, the types of components exist, and frozen values have the type of the component they freeze. -/
structure WorldOk (D : Decls) (infos : List RecInfo) : Prop where
  wf : WFDecls D
  unique : UniqueNames D
  owner : ∀ t c, Declares D t c → c.memberOf = .record t
  distinct : ∀ (t : Nat) (r : RecDecl), D.recs[t]? = some r → (r.own.map (·.name)).Nodup
  tuples : TuplesOk D
  types : ∀ t c, HasComp D t c → TyOk D c.ty ∧ tyRank c.ty < D.tups.length + 3
  frozen : ∀ t i name node, infos[t]? = some i → i.frozen.lookup name = some node →
    ∃ c, HasComp D t c ∧ c.name = name ∧ VOk D node.val c.ty

end Verif.Spec
