import Verif.Model.Export
import Verif.Spec.References
/-!
# What the Python API hands out for a record object

`IsDouble` are the finite IEEE 754 double precision numbers.  `Nearest` says which of them may stand
for a decimal.  `InPython` relates a value as written to a Python object, and `Mirrors` relates what
a check sees to a Python object.
-/
namespace Verif.Spec
open Verif.Model

/-- A finite double precision number -/
def IsDouble (r : Rat) : Prop := ∃ m e : Int, |m| < 2 ^ 53 ∧ -1074 ≤ e ∧ e ≤ 971 ∧ r = m * 2 ^ e

/-- `q` is in the range of these numbers, and `r` is a double next to `q`: none is nearer. -/
def Nearest (q r : Rat) : Prop :=
  |q| < 2 ^ (1024 : Int) ∧ IsDouble r ∧ ∀ d, IsDouble d → |q - r| ≤ |q - d|

/-- The largest double -/
def maxDouble : Rat := (2 ^ 53 - 1) * 2 ^ (971 : Int)

mutual
/-- The Python object for a value as it is written; `named p n` says that package `p` has the name
`n`. -/
inductive InPython (named : Nat → List Char → Prop) : PVal → PyObj → Prop
  | null : InPython named .inull .none
  | bool (b) : InPython named (.bool b) (.bool b)
  | int (i) : InPython named (.int i) (.int i)
  | dec {q r} : Nearest q r → InPython named (.dec q) (.float r)
  | str (v) : InPython named (.str v) (.str v)
  | markup (v refs) : InPython named (.markup v refs) (.str v)
  | enum (t l) : InPython named (.enum t l) (.str l.toList)
  | minusInt (i) : InPython named (.neg (.int i)) (.int (-i))
  | minusDec {q r} : Nearest (-q) r → InPython named (.neg (.dec q)) (.float r)
  | plusInt (i) : InPython named (.pos (.int i)) (.int i)
  | plusDec {q r} : Nearest q r → InPython named (.pos (.dec q)) (.float r)
  | arr {t es vs} : AllInPython named es vs → InPython named (.arr t es) (.list vs)
  | tup {t fs vs} : FieldsInPython named fs vs → InPython named (.tup t fs) (.dict vs)
  | ref {t p n pn} : named p pn → InPython named (.ref t p n) (.str (pn ++ '.' :: n))

/-- … for all elements -/
inductive AllInPython (named : Nat → List Char → Prop) : List PVal → List PyObj → Prop
  | nil : AllInPython named [] []
  | cons {e es v vs} : InPython named e v → AllInPython named es vs → AllInPython named (e :: es) (v :: vs)

/-- … for all fields -/
inductive FieldsInPython (named : Nat → List Char → Prop) :
    List (String × PVal) → List (String × PyObj) → Prop
  | nil : FieldsInPython named [] []
  | cons {n e fs v vs} : InPython named e v → FieldsInPython named fs vs →
      FieldsInPython named ((n, e) :: fs) ((n, v) :: vs)
end

mutual
/-- The decimal `q` is part of the value. -/
def Contains (q : Rat) : PVal → Prop
  | .dec p => p = q
  | .neg e => Contains q e
  | .pos e => Contains q e
  | .arr _ es => ContainsAny q es
  | .tup _ fs => ContainsField q fs
  | _ => False

/-- … of some element -/
def ContainsAny (q : Rat) : List PVal → Prop
  | [] => False
  | e :: es => Contains q e ∨ ContainsAny q es

/-- … of some field -/
def ContainsField (q : Rat) : List (String × PVal) → Prop
  | [] => False
  | f :: fs => ContainsIn q f ∨ ContainsField q fs

/-- … of this field -/
def ContainsIn (q : Rat) : String × PVal → Prop
  | (_, e) => Contains q e
end

/-- What a check sees and what the Python API hands out are the same: `obj n fs` says that the object
with the full name `n` has the components `fs`. -/
inductive Mirrors (obj : List Char → Fields → Prop) : Val → PyObj → Prop
  | null : Mirrors obj .null .none
  | bool (b) : Mirrors obj (.bool b) (.bool b)
  | int (i) : Mirrors obj (.int i) (.int i)
  | dec {q r} : Nearest q r → Mirrors obj (.dec q) (.float r)
  | str (v) : Mirrors obj (.str v) (.str v)
  | enum (t l) : Mirrors obj (.enum t l) (.str l.toList)
  | arr {es vs} : es.length = vs.length →
      (∀ (i : Nat) e v, es[i]? = some e → vs[i]? = some v → Mirrors obj e.2 v) →
      Mirrors obj (.arr es) (.list vs)
  | tup {fs vs} : fs.map Prod.fst = vs.map Prod.fst →
      (∀ (i : Nat) f v, fs[i]? = some f → vs[i]? = some v → Mirrors obj f.2.2 v.2) →
      Mirrors obj (.tup fs) (.dict vs)
  | ref {n fs} : obj n fs → Mirrors obj (.recv fs) (.str n)

/-- Package `p` has the name `n`. -/
def PkgNamed (g : STab) (p : Nat) (n : List Char) : Prop :=
  ∃ k e, (k, e) ∈ g.own ∧ e.cls = clsPackage ∧ e.id = p ∧ e.name = n

end Verif.Spec
