import Verif.Spec.Objects
/-!
# What holds of all declared types (LRM, "Type declarations")
-/
namespace Verif.Spec
open Verif.Model

/-- The types a type refers to are declared. -/
def TyIn (D : Decls) : Ty → Prop
  | .enum t => t < D.enums.length
  | .tup t => t < D.tups.length
  | .record t => t < D.recs.length
  | .arr _ e _ _ => TyIn D e
  | .union _ ms => ∀ m ∈ ms, m < D.recs.length
  | _ => True

/-- Two names differ only in capitalisation and underscores. -/
def SameName (a b : String) : Prop := simplifiedName a.toList = simplifiedName b.toList

/-- The name `n` is frozen in record type `t` itself. -/
def Freezes (infos : List RecInfo) (t : Nat) (n : String) : Prop :=
  ∃ i, infos[t]? = some i ∧ n ∈ i.frozen.map Prod.fst

/-- Record type `t` is final. -/
def Final (infos : List RecInfo) (t : Nat) : Prop := ∃ i, infos[t]? = some i ∧ i.isFinal = true

/-- What the declarations of types guarantee, at any point while they are read. -/
structure SoundDecls (D : Decls) (infos : List RecInfo) (seps : List (List Sep)) : Prop where
  world : WorldOk D infos
  infoLen : infos.length = D.recs.length
  sepLen : seps.length = D.tups.length
  /-- the types of components and fields are declared -/
  recTypes : ∀ t c, Declares D t c → TyIn D c.ty
  tupTypes : ∀ (t : Nat) (cs : List Comp), D.tups[t]? = some cs → ∀ c ∈ cs, TyIn D c.ty
  /-- no two components, fields or literals have similar names -/
  similar : ∀ t c c', HasComp D t c → HasComp D t c' → SameName c.name c'.name → c = c'
  similarFields : ∀ (t : Nat) (cs : List Comp), D.tups[t]? = some cs → cs.Pairwise fun c c' => ¬ SameName c.name c'.name
  similarLits : ∀ (t : Nat) (ls : List String), D.enums[t]? = some ls → ls.Pairwise fun l l' => ¬ SameName l l'
  /-- fields know their tuple type -/
  fieldOwner : ∀ (t : Nat) (cs : List Comp), D.tups[t]? = some cs → ∀ c ∈ cs, c.memberOf = .tup t
  /-- a tuple type has a separator between any two fields, or no separators at all -/
  separated : ∀ (t : Nat) (cs : List Comp) (ss : List Sep), D.tups[t]? = some cs → seps[t]? = some ss → ss = [] ∨ ss.length + 1 = cs.length
  /-- fields are optional only in tuple types with separators -/
  optional : ∀ (t : Nat) (cs : List Comp), D.tups[t]? = some cs → seps[t]? = some [] → ∀ c ∈ cs, c.optional = false
  /-- a tuple type with separators has no field of a tuple type with separators -/
  noNesting : ∀ (t : Nat) (cs : List Comp) (ss : List Sep) (u : Nat) (us : List Sep), D.tups[t]? = some cs → seps[t]? = some ss → ss ≠ [] →
    (∃ c ∈ cs, c.ty = .tup u) → seps[u]? = some us → us = []
  /-- extensions of a final type are final and have no further components -/
  final : ∀ t p, ParentOf D t p → Final infos p → Final infos t ∧ ∀ c, ¬ Declares D t c
  /-- along a chain of extensions a component is frozen at most once -/
  frozenOnce : ∀ t a b n, Extends D t a → Extends D t b → Freezes infos a n → Freezes infos b n → a = b
  frozenNames : ∀ (t : Nat) (i : RecInfo), infos[t]? = some i → (i.frozen.map Prod.fst).Nodup

end Verif.Spec
