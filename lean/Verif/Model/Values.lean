import Verif.Model.Types
import Verif.Model.Math
/-!
# Values in record objects and values of expressions (`trlc/ast.py:50-98, 585-1183`)

Source locations are not part of the model.
-/
namespace Verif.Model

/-- The expressions that can occur as the value of a component of a record object
(`trlc/ast.py:3246-3256`): `Implicit_Null`, the literals, a signed number
(`Unary_Expression` over a literal, `trlc/parser.py:1687-1719`), `Array_Aggregate`,
`Tuple_Aggregate`, `Record_Reference`.  The target of a reference is the number of the
record object once the reference is resolved. -/
inductive FExpr
  | inull
  | bool (b : Bool)
  | int (i : Int)
  | dec (q : Rat)
  | str (s : List Char)
  | markup (s : List Char)
  | enum (ty : Nat) (lit : String)
  | neg (e : FExpr)
  | pos (e : FExpr)
  | arr (ty : Ty) (es : List FExpr)
  | tup (ty : Nat) (fs : List (String × FExpr))
  | ref (ty : Ty) (target : Option Nat)
  deriving Repr

/-- A value expression as an object in memory: `id` is its identity.  (Expressions have no
`__eq__`, so two of them compare equal only if they are the same object.)
(`trlc/ast.py:485-495`) -/
structure FNode where
  id   : Nat
  expr : FExpr
  deriving Repr

/-- `trlc/ast.py:3261-3280` the `field` dictionary of a record object. -/
abbrev Fields := List (String × FNode)

/-- `trlc/ast.py:50-88` the attribute `value` of a `Value` (without its type); `null` is
`None`, `recv` is the copied `field` dictionary of a record object. -/
inductive Val
  | null
  | bool (b : Bool)
  | int (i : Int)
  | dec (q : Rat)
  | str (s : List Char)
  | enum (ty : Nat) (lit : String)
  | arr (es : List (Option Ty × Val))
  | tup (fs : List (String × Option Ty × Val))
  | recv (fs : Fields)
  deriving Repr

/-- `trlc/ast.py:50-86` `Value`: type and value. -/
structure TV where
  typ : Option Ty
  val : Val
  deriving Repr

/-- `self.value is None` (`trlc/ast.py:50-98`) -/
def Val.isNull : Val → Bool
  | .null => true
  | _ => false

/-- The number a Python value compares as (`bool` is a subclass of `int`).
(`trlc/ast.py:88-89`) -/
def Val.num : Val → Option Rat
  | .bool b => some (if b then 1 else 0)
  | .int i => some i
  | .dec q => some q
  | _ => none

/-- Python's `==` on two dictionaries of expressions: same keys, identical objects.
(`trlc/ast.py:88-89`) -/
def fieldsEq (xs ys : Fields) : Bool :=
  xs.length == ys.length &&
    xs.all fun (k, n) => match ys.lookup k with
      | none => false
      | some m => n.id == m.id

mutual
/-- Python's `==` on the attribute `value` of two `Value`s: numbers by value, strings,
enumeration literals (objects that exist once), lists element by element and tuples
(dictionaries) entry by entry with `Value.__eq__` (`trlc/ast.py:88-89`), record dictionaries
by identity of the entries.  A tuple dictionary is never compared to a record dictionary
(the types differ); the model says `false` there. -/
def Val.pyEq : Val → Val → Bool
  | .null, b => b.isNull
  | .str s, .str t => s == t
  | .str _, _ => false
  | .enum t l, .enum t' l' => t == t' && l == l'
  | .enum .., _ => false
  | .arr xs, .arr ys => eqList xs ys
  | .arr _, _ => false
  | .tup xs, .tup ys => xs.length == ys.length && eqFields xs ys
  | .tup _, _ => false
  | .recv xs, .recv ys => fieldsEq xs ys
  | .recv _, _ => false
  | .bool b, c => match c.num with
    | some q => (if b then 1 else 0) == q
    | none => false
  | .int i, c => match c.num with
    | some q => (i : Rat) == q
    | none => false
  | .dec p, c => match c.num with
    | some q => p == q
    | none => false

/-- `==` on two lists of `Value` (`trlc/ast.py:88-89`) -/
def eqList : List (Option Ty × Val) → List (Option Ty × Val) → Bool
  | [], [] => true
  | x :: xs, y :: ys => eqTV x y && eqList xs ys
  | _, _ => false

/-- `trlc/ast.py:88-89` `Value.__eq__` -/
def eqTV : Option Ty × Val → Option Ty × Val → Bool
  | (t, v), (t', v') => t == t' && v.pyEq v'

/-- `==` on two dictionaries of `Value`: every entry of the first has an equal entry in the
second (the lengths are compared by the caller).
(`trlc/ast.py:88-89`) -/
def eqFields : List (String × Option Ty × Val) → List (String × Option Ty × Val) → Bool
  | [], _ => true
  | x :: xs, ys => eqField x ys && eqFields xs ys

/-- one entry of the dictionary comparison (`trlc/ast.py:88-89`) -/
def eqField : String × Option Ty × Val → List (String × Option Ty × Val) → Bool
  | (k, x), ys => match ys.lookup k with
    | none => false
    | some y => eqTV x y
end

end Verif.Model
