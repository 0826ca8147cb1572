import Mathlib.Data.List.Forall2
/-!
# Specification vocabulary for number literals (LRM `Integers`, `Decimals`)
-/
namespace Verif.Spec

/-- Digits and their values, up to base 16. -/
def digitTable : List (Char × Nat) :=
  [('0',0),('1',1),('2',2),('3',3),('4',4),('5',5),('6',6),('7',7),('8',8),('9',9),
   ('a',10),('b',11),('c',12),('d',13),('e',14),('f',15),
   ('A',10),('B',11),('C',12),('D',13),('E',14),('F',15)]

/-- `c` is a digit of the given base with value `n`. -/
def Digit (base : Nat) (c : Char) (n : Nat) : Prop := (c, n) ∈ digitTable ∧ n < base

/-- `c` is a digit of the given base. -/
def IsDigit (base : Nat) (c : Char) : Prop := ∃ n, Digit base c n

/-- Digit groups `D+(_D+)*`: digits with single underscores between digits. -/
inductive Groups (D : Char → Prop) : List Char → Prop
  | single {c} : D c → Groups D [c]
  | digit {c l} : D c → Groups D l → Groups D (c :: l)
  | under {c l} : D c → Groups D l → Groups D (c :: '_' :: l)

/-- Positional value of a sequence of digit values, most significant first. -/
def positional (base : Nat) : List Nat → Nat
  | [] => 0
  | d :: ds => d * base ^ ds.length + positional base ds

/-- The digit string `text` (underscores are ignored) denotes `n` in base `base`. -/
def Denotes (base : Nat) (text : List Char) (n : Nat) : Prop :=
  ∃ ds, List.Forall₂ (Digit base) (text.filter (· ≠ '_')) ds ∧ n = positional base ds

/-- The integer literals and their values. -/
inductive IntLiteral : List Char → Nat → Prop
  | dec {t n} : Groups (IsDigit 10) t → Denotes 10 t n → IntLiteral t n
  | bin {t n} : Groups (IsDigit 2) t → Denotes 2 t n → IntLiteral ('0' :: 'b' :: t) n
  | hex {t n} : Groups (IsDigit 16) t → Denotes 16 t n → IntLiteral ('0' :: 'x' :: t) n

/-- The decimal literals `I.F` and their values `I + F / 10^len(F)` (underscores do
not count). -/
inductive DecLiteral : List Char → Rat → Prop
  | mk {i f : List Char} {ni nf : Nat} : Groups (IsDigit 10) i → Groups (IsDigit 10) f →
      Denotes 10 i ni → Denotes 10 f nf →
      DecLiteral (i ++ '.' :: f) ((ni : Rat) + (nf : Rat) / (10 : Rat) ^ (f.filter (· ≠ '_')).length)

/-- What may follow a number: not a digit of base 16, no underscore, and a period
only if it starts a `..` token. -/
def NumEnd (rest : List Char) : Prop :=
  ∀ c r, rest = c :: r → ¬ IsDigit 16 c ∧ c ≠ '_' ∧ (c = '.' → r.head? = some '.')

end Verif.Spec
