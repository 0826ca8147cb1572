import Verif.Spec.Rearrange
/-!
# Reordering the assignments of an object
-/
namespace Verif.Spec
open Verif.Model

/-- What an assignment looks like: a name, `=`, and something without `=` -/
def AssignShape (ts : List Token) : Prop :=
  ∃ x y v, ts = x :: y :: v ∧ x.kind = .IDENTIFIER ∧ y.kind = .ASSIGN ∧ ∀ t ∈ v, t.kind ≠ .ASSIGN

/-- The assignment does not start with one of the separators. -/
def NoSeparator (seps : List (List Sep)) (a : List Token) : Prop :=
  ∀ t, a.head? = some t → ∀ ss ∈ seps, ∀ sp ∈ ss, ¬ SepTok sp t

/-- The same declaration with the assignments in another order, possibly in other sections, in a file of the same package with
the same imports; none of the components assigned has the name of one of the separators `seps`. -/
structure Reordered (seps : List (List Sep)) (p p' : Piece) : Prop extends SamePlace p p' where
  toks : ∃ (n : List Token) (x b : Token) (as as' : List (List Token)) (k : Token), p.toks = n ++ x :: b :: as.flatten ++ [k] ∧ NameShape n ∧ x.kind = .IDENTIFIER ∧ b.kind = .C_BRA ∧
    k.kind = .C_KET ∧ (∀ a ∈ as, AssignShape a ∧ NoSeparator seps a) ∧ as.Perm as' ∧
    List.Forall₂ (SameTok p.env p'.env) (n ++ x :: b :: as'.flatten ++ [k]) p'.toks

end Verif.Spec
