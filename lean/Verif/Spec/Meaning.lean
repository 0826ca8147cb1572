import Verif.Spec.TypeRules
import Verif.Props.Math
/-!
# The meaning of check expressions (LRM, "Expressions")

`HasMeaning … r v`: in a context that gives the components and quantified variables their values, the
syntax tree `r` has the value `v`.  An expression that has no value is one for which an error is
reported: a null operand, a division by zero, an index outside of the array, and so on.  The
relation refers to syntax trees and values; no typed expression nodes occur in it.
-/
namespace Verif.Spec
open Verif.Model Verif.Props

/-- the opposite of a number -/
def Negated (w v : Val) : Prop :=
  (∃ i, w = .int i ∧ v = .int (-i)) ∨ (∃ q, w = .dec q ∧ v = .dec (-q))

/-- a number -/
def IsNumber (v : Val) : Prop := (∃ i, v = .int i) ∨ (∃ q, v = .dec q)

/-- The type of the value written for a component -/
def writtenTy : FExpr → Option Ty
  | .inull => none
  | .bool _ => some .bool
  | .int _ => some .int
  | .dec _ => some .dec
  | .str _ => some .str
  | .markup _ => some .markup
  | .enum t _ => some (.enum t)
  | .neg e | .pos e => writtenTy e
  | .arr t _ => some t
  | .tup t _ => some (.tup t)
  | .ref t _ => some t

mutual
/-- What is written for a component has the value; the value of a reference are the fields of
the object it refers to. -/
def ValueOf (heap : Nat → Option Fields) : FExpr → Val → Prop
  | .inull, v => v = .null
  | .bool b, v => v = .bool b
  | .int i, v => v = .int i
  | .dec q, v => v = .dec q
  | .str s, v | .markup s, v => v = .str s
  | .enum t l, v => v = .enum t l
  | .neg e, v => ∃ w, ValueOf heap e w ∧ Negated w v
  | .pos e, v => ValueOf heap e v ∧ IsNumber v
  | .arr _ es, v => ∃ vs, ValuesOf heap es vs ∧ v = .arr vs
  | .tup _ fs, v => ∃ vs, FieldValuesOf heap fs vs ∧ v = .tup vs
  | .ref _ target, v => ∃ o fs, target = some o ∧ heap o = some fs ∧ v = .recv fs

/-- the elements of an array, with their types -/
def ValuesOf (heap : Nat → Option Fields) : List FExpr → List (Option Ty × Val) → Prop
  | [], vs => vs = []
  | e :: es, vs => ∃ v ws, ValueOf heap e v ∧ ValuesOf heap es ws ∧ vs = (writtenTy e, v) :: ws

/-- the fields of a tuple, with their types -/
def FieldValuesOf (heap : Nat → Option Fields) :
    List (String × FExpr) → List (String × Option Ty × Val) → Prop
  | [], vs => vs = []
  | f :: fs, vs => ∃ v ws, FieldValueOf heap f v ∧ FieldValuesOf heap fs ws ∧ vs = v :: ws

/-- one field of a tuple -/
def FieldValueOf (heap : Nat → Option Fields) : String × FExpr → String × Option Ty × Val → Prop
  | (n, e), x => ∃ v, ValueOf heap e v ∧ x = (n, writtenTy e, v)
end

/-- the two are numbers of the same type -/
def SameNumbers (a b : Val) (x y : Rat) : Prop :=
  (∃ i j : Int, a = .int i ∧ b = .int j ∧ x = i ∧ y = j) ∨ (a = .dec x ∧ b = .dec y)

/-- the arithmetic operators: division of integers rounds down, the remainder has the sign of the
dividend -/
def ArithMeans : ArOp → Val → Val → Val → Prop
  | .plus, a, b, v =>
    (∃ i j, a = .int i ∧ b = .int j ∧ v = .int (i + j)) ∨
    (∃ p q, a = .dec p ∧ b = .dec q ∧ v = .dec (p + q)) ∨
    (∃ s t, a = .str s ∧ b = .str t ∧ v = .str (s ++ t))
  | .minus, a, b, v =>
    (∃ i j, a = .int i ∧ b = .int j ∧ v = .int (i - j)) ∨
    (∃ p q, a = .dec p ∧ b = .dec q ∧ v = .dec (p - q))
  | .times, a, b, v =>
    (∃ i j, a = .int i ∧ b = .int j ∧ v = .int (i * j)) ∨
    (∃ p q, a = .dec p ∧ b = .dec q ∧ v = .dec (p * q))
  | .divide, a, b, v =>
    (∃ i j n : Int, a = .int i ∧ b = .int j ∧ j ≠ 0 ∧ (n : Rat) ≤ (i : Rat) / j ∧
      (i : Rat) / j < n + 1 ∧ v = .int n) ∨
    (∃ p q, a = .dec p ∧ b = .dec q ∧ q ≠ 0 ∧ v = .dec (p / q))
  | .remainder, a, b, v =>
    ∃ i j n, a = .int i ∧ b = .int j ∧ j ≠ 0 ∧ TruncRemainder i j n ∧ v = .int n

/-- the comparison operators; `pyEq` is the equality of values (see C60 in
`Props/` for what it means) -/
def CmpMeans : CmpOp → Val → Val → Val → Prop
  | .eq, a, b, v => v = .bool (a.pyEq b)
  | .neq, a, b, v => v = .bool (!a.pyEq b)
  | .lt, a, b, v => ∃ x y d, SameNumbers a b x y ∧ v = .bool d ∧ (d = true ↔ x < y)
  | .leq, a, b, v => ∃ x y d, SameNumbers a b x y ∧ v = .bool d ∧ (d = true ↔ x ≤ y)
  | .gt, a, b, v => ∃ x y d, SameNumbers a b x y ∧ v = .bool d ∧ (d = true ↔ y < x)
  | .geq, a, b, v => ∃ x y d, SameNumbers a b x y ∧ v = .bool d ∧ (d = true ↔ y ≤ x)

/-- the builtin functions and the conversions -/
def CallMeans (rx : List Char → List Char → Bool) (f : String) (vs : List Val) (v : Val) : Prop :=
  (f = "len" ∧ ((∃ s, vs = [.str s] ∧ v = .int s.length) ∨ (∃ es, vs = [.arr es] ∧ v = .int es.length))) ∨
  (f = "startswith" ∧ ∃ s t d, vs = [.str s, .str t] ∧ v = .bool d ∧ (d = true ↔ ∃ q, s = t ++ q)) ∨
  (f = "endswith" ∧ ∃ s t d, vs = [.str s, .str t] ∧ v = .bool d ∧ (d = true ↔ ∃ p, s = p ++ t)) ∨
  (f = "matches" ∧ ∃ s t, vs = [.str s, .str t] ∧ v = .bool (rx t s)) ∨
  (f = "oneof" ∧ ∃ d, v = .bool d ∧
    (d = true ↔ ∃ pre post, vs = pre ++ .bool true :: post ∧ .bool true ∉ pre ∧ .bool true ∉ post)) ∨
  (f = "Integer" ∧ ((∃ i, vs = [.int i] ∧ v = .int i) ∨
    (∃ q n, vs = [.dec q] ∧ NearestAway q n ∧ v = .int n))) ∨
  (f = "Decimal" ∧ ((∃ i : Int, vs = [.int i] ∧ v = .dec i) ∨ (∃ q, vs = [.dec q] ∧ v = .dec q)))

/-- `not`, if it is there -/
def MaybeNot (neg : Bool) (b : Bool) (v : Val) : Prop := v = .bool (if neg then !b else b)

/-- Quantification with the body `P`: the elements are tried in order; the first one that decides
ends it, and then the others need not have a value. -/
def QuantMeans (universal : Bool) (P : FExpr → Val → Prop) (es : List FExpr) (v : Val) : Prop :=
  ((∀ e ∈ es, P e (.bool universal)) ∧ v = .bool universal) ∨
  (∃ pre e post, es = pre ++ e :: post ∧ (∀ a ∈ pre, P a (.bool universal)) ∧
    P e (.bool !universal) ∧ v = .bool !universal)

mutual
/-- The syntax tree has the value; `ty` is the typing relation (used for arrays and for
membership, where types that differ are never equal). -/
def HasMeaning (heap : Nat → Option Fields) (rx : List Char → List Char → Bool)
    (ty : TScope → Raw → Option Ty → Prop) (sc : TScope) (c : List (String × FExpr)) :
    Raw → Val → Prop
  | .null, v => v = .null
  | .bool b, v => v = .bool b
  | .int n, v => v = .int n
  | .dec q, v => v = .dec q
  | .str s, v => v = .str s
  | .enumLit path lit, v => ∃ t, sc.enums path = some t ∧ v = .enum t lit
  | .name x, v => ∃ e, c.lookup x = some e ∧ ValueOf heap e v
  | .dot p f, v =>
    (∃ fs, HasMeaning heap rx ty sc c p (.tup fs) ∧
      ((∃ t, fs.lookup f = some (t, v)) ∨ (fs.lookup f = none ∧ v = .null))) ∨
    (∃ fs, HasMeaning heap rx ty sc c p (.recv fs) ∧
      ((∃ e, fs.lookup f = some e ∧ ValueOf heap e.expr v) ∨ (fs.lookup f = none ∧ v = .null)))
  | .index p i, v =>
    ∃ es k t id elem lo hi, HasMeaning heap rx ty sc c p (.arr es) ∧ HasMeaning heap rx ty sc c i (.int k) ∧
      ty sc p (some (.arr id elem lo hi)) ∧ 0 ≤ k ∧ (∀ u, hi = some u → k ≤ (u : Nat)) ∧
      es[k.toNat]? = some (t, v)
  | .call f args, v => ∃ vs, HaveMeanings heap rx ty sc c args vs ∧ CallMeans rx f vs v
  | .sign minus e, v =>
    ∃ w, HasMeaning heap rx ty sc c e w ∧ (if minus then Negated w v else IsNumber w ∧ v = w)
  | .not e, v => ∃ b, HasMeaning heap rx ty sc c e (.bool b) ∧ v = .bool !b
  | .abs e, v =>
    (∃ i, HasMeaning heap rx ty sc c e (.int i) ∧ v = .int |i|) ∨
    (∃ q, HasMeaning heap rx ty sc c e (.dec q) ∧ v = .dec |q|)
  | .power l r, v =>
    ∃ k : Nat, HasMeaning heap rx ty sc c r (.int k) ∧
      ((∃ i, HasMeaning heap rx ty sc c l (.int i) ∧ v = .int (i ^ k)) ∨
       (∃ q, HasMeaning heap rx ty sc c l (.dec q) ∧ v = .dec (q ^ k)))
  | .arith op l r, v =>
    ∃ a b, HasMeaning heap rx ty sc c l a ∧ HasMeaning heap rx ty sc c r b ∧ ArithMeans op a b v
  | .cmp op l r, v =>
    ∃ a b, HasMeaning heap rx ty sc c l a ∧ HasMeaning heap rx ty sc c r b ∧ CmpMeans op a b v
  | .isIn neg e a, v =>
    (∃ s t d, HasMeaning heap rx ty sc c e (.str s) ∧ HasMeaning heap rx ty sc c a (.str t) ∧
      (d = true ↔ ∃ p q, t = p ++ s ++ q) ∧ MaybeNot neg d v) ∨
    (∃ x es d xt id elem lo hi, HasMeaning heap rx ty sc c e x ∧ HasMeaning heap rx ty sc c a (.arr es) ∧
      x ≠ .null ∧ ty sc e (some xt) ∧ ty sc a (some (.arr id elem lo hi)) ∧
      (d = true ↔ xt = elem ∧ ∃ y ∈ es, x.pyEq y.2 = true) ∧ MaybeNot neg d v)
  | .inRange neg e a b, v =>
    ∃ w l u x y z d, HasMeaning heap rx ty sc c e w ∧ HasMeaning heap rx ty sc c a l ∧
      HasMeaning heap rx ty sc c b u ∧ SameNumbers l w x y ∧ SameNumbers w u y z ∧
      (d = true ↔ x ≤ y ∧ y ≤ z) ∧ MaybeNot neg d v
  | .logic .and l r, v =>
    (HasMeaning heap rx ty sc c l (.bool false) ∧ v = .bool false) ∨
    (HasMeaning heap rx ty sc c l (.bool true) ∧ HasMeaning heap rx ty sc c r v)
  | .logic .or l r, v =>
    (HasMeaning heap rx ty sc c l (.bool true) ∧ v = .bool true) ∨
    (HasMeaning heap rx ty sc c l (.bool false) ∧ HasMeaning heap rx ty sc c r v)
  | .logic .implies l r, v =>
    (HasMeaning heap rx ty sc c l (.bool false) ∧ v = .bool true) ∨
    (HasMeaning heap rx ty sc c l (.bool true) ∧ HasMeaning heap rx ty sc c r v)
  | .logic .xor l r, v =>
    ∃ a b, HasMeaning heap rx ty sc c l (.bool a) ∧ HasMeaning heap rx ty sc c r (.bool b) ∧
      v = .bool (a != b)
  | .cond d e rest, v =>
    (HasMeaning heap rx ty sc c d (.bool true) ∧ HasMeaning heap rx ty sc c e v) ∨
    (HasMeaning heap rx ty sc c d (.bool false) ∧ ActsMean heap rx ty sc c rest v)
  | .quant universal x src body, v =>
    ∃ cmp id elem lo hi t es, sc.comp src = some cmp ∧ cmp.ty = .arr id elem lo hi ∧
      c.lookup src = some (.arr t es) ∧
      QuantMeans universal
        (fun b w => HasMeaning heap rx ty { sc with vars := (x, elem) :: sc.vars } ((x, b) :: c) body w) es v

/-- The parameters have the values. -/
def HaveMeanings (heap : Nat → Option Fields) (rx : List Char → List Char → Bool)
    (ty : TScope → Raw → Option Ty → Prop) (sc : TScope) (c : List (String × FExpr)) :
    Raws → List Val → Prop
  | .nil, vs => vs = []
  | .cons e es, vs =>
    ∃ v ws, HasMeaning heap rx ty sc c e v ∧ HaveMeanings heap rx ty sc c es ws ∧ vs = v :: ws

/-- The first true condition decides, otherwise the `else` part. -/
def ActsMean (heap : Nat → Option Fields) (rx : List Char → List Char → Bool)
    (ty : TScope → Raw → Option Ty → Prop) (sc : TScope) (c : List (String × FExpr)) :
    RActs → Val → Prop
  | .els e, v => HasMeaning heap rx ty sc c e v
  | .act d e rest, v =>
    (HasMeaning heap rx ty sc c d (.bool true) ∧ HasMeaning heap rx ty sc c e v) ∨
    (HasMeaning heap rx ty sc c d (.bool false) ∧ ActsMean heap rx ty sc c rest v)
end

end Verif.Spec
