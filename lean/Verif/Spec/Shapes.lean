import Verif.Spec.Analysis
import Verif.Spec.Parsed
/-!
# The shape of values: sizes of arrays, and which fields of tuples are null
-/
namespace Verif.Spec
open Verif.Model

mutual
/-- In all tuples in a value, the null fields come last. -/
def TailsNull : PVal → Prop
  | .arr _ es => AllTailsNull es
  | .tup _ fs => fs.Pairwise (fun a b => a.2 = .inull → b.2 = .inull) ∧ FieldsTailsNull fs
  | _ => True
/-- … for all elements -/
def AllTailsNull : List PVal → Prop
  | [] => True
  | e :: es => TailsNull e ∧ AllTailsNull es
/-- … for all fields -/
def FieldsTailsNull : List (String × PVal) → Prop
  | [] => True
  | f :: fs => FieldTailsNull f ∧ FieldsTailsNull fs
/-- … for one field -/
def FieldTailsNull : String × PVal → Prop
  | (_, e) => TailsNull e
end

mutual
/-- All arrays in a value respect the bounds of their type (an upper bound of 0 is no bound), and in all
tuples the null fields come last. -/
def InForm : FExpr → Prop
  | .arr t es => LengthOk false es.length t ∧ AllInForm es
  | .tup _ fs => NullsLast fs ∧ FieldsInForm fs
  | _ => True
/-- … for all elements -/
def AllInForm : List FExpr → Prop
  | [] => True
  | e :: es => InForm e ∧ AllInForm es
/-- … for all fields -/
def FieldsInForm : List (String × FExpr) → Prop
  | [] => True
  | f :: fs => FieldInForm f ∧ FieldsInForm fs
/-- … for one field -/
def FieldInForm : String × FExpr → Prop
  | (_, e) => InForm e
end

/-- An array type with an upper bound of 0 does not occur. -/
def NoZero : Ty → Prop
  | .arr _ e _ hi => hi ≠ some 0 ∧ NoZero e
  | _ => True

end Verif.Spec
