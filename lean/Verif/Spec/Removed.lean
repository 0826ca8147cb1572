import Verif.Spec.Rearrange
/-!
# Removing requirements
-/
namespace Verif.Spec
open Verif.Model

/-- It is the declaration of the object `n` of package `p`. -/
def Piece.Names (k : Piece) (p : Nat) (n : List Char) : Prop :=
  k.env.pkg = p ∧ ∃ a x b r, k.toks = a ++ x :: b :: r ∧ NameShape a ∧ x.kind = .IDENTIFIER ∧ b.kind = .C_BRA ∧ n = x.text

/-- The files `fs'` have the declarations `ks` of the files `fs` and no others, in any order and distributed in any way. -/
def Thinned (fs fs' : List OpenFile) (ks : List Piece) : Prop :=
  ∃ ps rs ps', FilePieces fs ps ∧ FilePieces fs' ps' ∧ ps.Perm (ks ++ rs) ∧ List.Forall₂ SamePiece ks ps'

/-- It is one of the objects that are declared there. -/
def Stays (ks : List Piece) (p : Nat) (n : List Char) : Prop := ∃ k ∈ ks, k.Names p n

/-- The objects declared there do not refer to others. -/
def SelfContained (ks : List Piece) (objs : List Obj) : Prop :=
  ∀ o ∈ objs, Stays ks o.pkg o.name → ∀ f ∈ o.fields,
    (∀ τ p n, HasRef f.2.val τ p n → Stays ks p n) ∧ ∀ r, HasMark f.2.val r → Stays ks r.pkg r.name

end Verif.Spec
