import Verif.Spec.Written
/-!
# Values of tuple types with separators (LRM, "Tuple type declarations")

"Lists values in field order, separated by exactly the declared separators, where only a
trailing run of optional fields together with their separators may be missing."
-/
namespace Verif.Spec
open Verif.Model

/-- After a field: for each further field its separator and its value; from some point on the
fields may be missing, if they are all optional (and then they are null).  `nx` is the token
behind the value. -/
def SepTail (E : FileEnv) (N : Names) :
    List (String × PVal) → List Comp → List Sep → List Token → Option Token → Prop
  | [], [], _, ts, _ => ts = []
  | f :: fs, c :: cs, sp :: seps, ts, nx =>
      (ts = [] ∧ (∀ d ∈ c :: cs, d.optional = true) ∧ Absent (f :: fs) (c :: cs)) ∨
      (∃ x a b, ts = x :: a ++ b ∧ SepTok sp x ∧ WrittenField E N f c a (follow b nx) ∧
        SepTail E N fs cs seps b nx)
  | _, _, _, _, _ => False

/-- The tokens are a value, with the given fields, of a tuple type with separators. -/
def SepForm (E : FileEnv) (N : Names) :
    List (String × PVal) → List Comp → List Sep → List Token → Option Token → Prop
  | f :: fs, c :: cs, seps, ts, nx =>
      ∃ a b, ts = a ++ b ∧ WrittenField E N f c a (follow b nx) ∧ SepTail E N fs cs seps b nx
  | _, _, _, _, _ => False

end Verif.Spec
