import Mathlib.Data.Int.Log
import Mathlib.Data.Rat.Floor
import Mathlib.Algebra.Order.Field.Rat
import Verif.Model.Run.Process
/-!
# Record objects as Python objects (`to_python_object`, `to_python_dict`)
(`trlc/ast.py:628-629, 685-686, 733-734, 781-782, 834-835, 875-876, 923-924, 987-988, 1082-1084,
1179-1180, 1386-1393, 3274-3299, 3450-3461`, `trlc/trlc.py:731-739`)
-/
namespace Verif.Model

/-- The Python objects that occur.  (`trlc/ast.py:628-1393`; a float is represented by the rational
number it stands for, and negative zero by zero.) -/
inductive PyObj
  | none
  | bool (b : Bool)
  | int (i : Int)
  | float (r : Rat)
  | str (s : List Char)
  | list (es : List PyObj)
  | dict (fs : List (String × PyObj))
  deriving Repr

/-- Python exceptions: `OverflowError` for a number that is no float, `AttributeError` for a
reference without target, `TypeError` for the negation of something that is no number.
(`trlc/ast.py:782, 1180, 1391`) -/
inductive ExportErr
  | overflow
  | attribute
  | type
  deriving Repr, DecidableEq

/-- Rounding to an integer, ties to the even one: how Python divides two integers, used by `float()`
on a fraction (`trlc/ast.py:782`) -/
def roundHalfEven (q : Rat) : Int :=
  if q - q.floor < 1 / 2 then q.floor
  else if 1 / 2 < q - q.floor then q.floor + 1
  else if q.floor % 2 = 0 then q.floor else q.floor + 1

/-- The exponent of the last bit of the float next to the positive number `q` (`trlc/ast.py:782`) -/
def floatExp (q : Rat) : Int := max (Int.log 2 q - 52) (-1074)

/-- A positive number as a float; `none` is `OverflowError`. (`trlc/ast.py:782`) -/
def toFloatPos (q : Rat) : Option Rat :=
  let r := (roundHalfEven (q / 2 ^ floatExp q) : Rat) * 2 ^ floatExp q
  if 2 ^ (1024 : Int) ≤ r then none else some r

/-- `float(q)` for a fraction: the quotient of numerator and denominator as a double precision
number (`trlc/ast.py:782`) -/
def toFloat (q : Rat) : Option Rat :=
  if q = 0 then some 0
  else if 0 < q then toFloatPos q
  else (toFloatPos (-q)).map Neg.neg

/-- `-val` (`trlc/ast.py:1391`) -/
def negPy : PyObj → Except ExportErr PyObj
  | .bool b => .ok (.int (if b then -1 else 0))
  | .int i => .ok (.int (-i))
  | .float r => .ok (.float (-r))
  | _ => .error .type

mutual
/-- `to_python_object` of the values of components (`trlc/ast.py:628-629, 685-686, 733-734, 781-782,
834-835, 875-876, 923-924, 987-988, 1082-1084, 1179-1180, 1386-1393`); `fqn` gives the full name of
the objects. -/
def exportVal (fqn : Nat → Option (List Char)) : FExpr → Except ExportErr PyObj
  | .inull => .ok .none
  | .bool b => .ok (.bool b)
  | .int i => .ok (.int i)
  | .dec q => match toFloat q with
    | none => .error .overflow
    | some r => .ok (.float r)
  | .str v => .ok (.str v)
  | .markup v => .ok (.str v)
  | .enum _ l => .ok (.str l.toList)
  | .neg e => match exportVal fqn e with
    | .error x => .error x
    | .ok v => negPy v
  | .pos e => exportVal fqn e
  | .arr _ es => match exportVals fqn es with
    | .error x => .error x
    | .ok vs => .ok (.list vs)
  | .tup _ fs => match exportFields fqn fs with
    | .error x => .error x
    | .ok vs => .ok (.dict vs)
  | .ref _ none => .error .attribute
  | .ref _ (some o) => match fqn o with
    | none => .error .attribute
    | some n => .ok (.str n)

/-- … of the elements of an array (`trlc/ast.py:987-988`) -/
def exportVals (fqn : Nat → Option (List Char)) : List FExpr → Except ExportErr (List PyObj)
  | [] => .ok []
  | e :: es => match exportVal fqn e with
    | .error x => .error x
    | .ok v => match exportVals fqn es with
      | .error x => .error x
      | .ok vs => .ok (v :: vs)

/-- … of the fields of a tuple (`trlc/ast.py:1082-1084`) -/
def exportFields (fqn : Nat → Option (List Char)) :
    List (String × FExpr) → Except ExportErr (List (String × PyObj))
  | [] => .ok []
  | f :: fs => match exportField fqn f with
    | .error x => .error x
    | .ok v => match exportFields fqn fs with
      | .error x => .error x
      | .ok vs => .ok (v :: vs)

/-- … of one field (`trlc/ast.py:1082-1084`) -/
def exportField (fqn : Nat → Option (List Char)) : String × FExpr → Except ExportErr (String × PyObj)
  | (n, e) => match exportVal fqn e with
    | .error x => .error x
    | .ok v => .ok (n, v)
end

/-- The name of a package (`trlc/ast.py:3274-3280`) -/
def pkgName (g : STab) (p : Nat) : Option (List Char) :=
  (g.own.find? fun x => isPackage x.2 && x.2.id == p).map (·.2.name)

/-- `trlc/ast.py:3274-3280` `fully_qualified_name` of a record object -/
def PS.fqn (s : PS) (g : STab) (o : Nat) : Option (List Char) :=
  match s.objs[o]? with
  | none => none
  | some ob => (pkgName g ob.pkg).map fun p => p ++ ".".toList ++ ob.name

/-- `trlc/ast.py:3282-3296` `to_python_dict` for the components of an object -/
def exportNodes (fqn : Nat → Option (List Char)) (fs : Fields) : Except ExportErr (List (String × PyObj)) :=
  exportFields fqn (fs.map fun f => (f.1, f.2.expr))

/-- `trlc/ast.py:3282-3296` `to_python_dict`, once all references are resolved -/
def PS.toPythonDict (s : PS) (g : STab) (o : Nat) : Except ExportErr (List (String × PyObj)) :=
  match s.heap o with
  | none => .error .attribute
  | some fs => exportNodes (s.fqn g) fs

/-- `trlc/ast.py:3298-3299` `is_component_implicit_null` (`none`: `KeyError`) -/
def isComponentImplicitNull (fs : Fields) (comp : String) : Option Bool :=
  (fs.lookup comp).map fun n => match n.expr with
    | .inull => false
    | _ => true

/-- `d[k] = v` in a Python dictionary (`trlc/trlc.py:734`) -/
def pySet {α β : Type} [DecidableEq α] (d : List (α × β)) (k : α) (v : β) : List (α × β) :=
  if d.any fun x => x.1 = k then d.map fun x => if x.1 = k then (k, v) else x else d ++ [(k, v)]

/-- `trlc/ast.py:3450-3461` `iter_record_objects`: the packages and the objects in a package in the
order in which they were entered -/
def PS.iterObjects (s : PS) (g : STab) : List Nat :=
  (g.own.filter fun x => isPackage x.2).flatMap fun p =>
    ((s.tab p.2.id).own.filter fun x => x.2.cls == clsObject).map (·.2.id)

/-- `trlc/trlc.py:733-737` the loop over the objects.  (The values are no fractions, so the inner
loop does nothing.) -/
def PS.dumpLoop (s : PS) (g : STab) : List Nat → List (List Char × List (String × PyObj)) →
    Except ExportErr (List (List Char × List (String × PyObj)))
  | [], d => .ok d
  | o :: os, d => match s.objs[o]? with
    | none => s.dumpLoop g os d
    | some ob => match s.toPythonDict g o with
      | .error x => .error x
      | .ok v => s.dumpLoop g os (pySet d ob.name v)

/-- `trlc/trlc.py:731-739` what `--debug-api-dump` prints, as a dictionary -/
def PS.apiDump (s : PS) (g : STab) : Except ExportErr (List (List Char × List (String × PyObj))) :=
  s.dumpLoop g (s.iterObjects g) []

end Verif.Model
