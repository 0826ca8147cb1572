import Mathlib.Data.Nat.Digits.Defs
import Mathlib.Data.Rat.Defs
/-!
# Numbers, strings and references in the example that goes with a finding of the verification (`trlc/vcg.py:441-516`)
-/
namespace Verif.Model

/-- a digit (`str` of a number below ten, `trlc/vcg.py:464`) -/
def digitText (d : Nat) : Char := ("0123456789".toList).getD d '0'

/-- `str(n)` of a number that is not negative (`trlc/vcg.py:453, 455`) -/
def natText (n : Nat) : List Char :=
  if n = 0 then ['0'] else (Nat.digits 10 n).reverse.map digitText

/-- `str(n)`, the text of an Integer (`trlc/vcg.py:453, 477-478`) -/
def intText (i : Int) : List Char := if i < 0 then '-' :: natText i.natAbs else natText i.natAbs

/-- `trlc/vcg.py:447-453` the first loop of `fraction_to_decimal_string`: whether there are only factors 2
and 5.  `fuel` bounds the number of rounds; `tmp` decreases in every round. -/
def onlyTwoFive : Nat → Nat → Bool
  | 0, _ => true
  | fuel + 1, tmp =>
    if tmp ≤ 1 then true
    else if tmp % 2 = 0 then onlyTwoFive fuel (tmp / 2)
    else if tmp % 5 = 0 then onlyTwoFive fuel (tmp / 5)
    else false

/-- `trlc/vcg.py:462-465` the second loop: the digits after the point; `none` if the loop does not come to
an end within `fuel` rounds.  (`C79_decimal` shows that it ends within the number of rounds given by
the denominator.) -/
def fractionDigits (den : Nat) : Nat → Nat → Option (List Nat)
  | 0, i => if i = 0 then some [] else none
  | fuel + 1, i =>
    if i = 0 then some []
    else (fractionDigits den fuel (i * 10 % den)).map (i * 10 / den :: ·)

/-- `trlc/vcg.py:441-472` `fraction_to_decimal_string` -/
def fractionText (num : Int) (den : Nat) : Option (List Char) :=
  if 2 < den ∧ onlyTwoFive den den = false then
    some (intText num ++ " / ".toList ++ natText den)
  else
    (fractionDigits den den (num.natAbs % den)).map fun ds =>
      (if num < 0 then ['-'] else []) ++ (natText (num.natAbs / den) ++ '.' ::
        (if 0 < num.natAbs % den then ds.map digitText else ['0']))

/-- `trlc/vcg.py:480-487` the text of a Decimal given as a fraction; Python's fractions are in lowest terms and have
a positive denominator, as those of Lean, so lines 485-486 are never reached.  (Values that are not fractions are shown as a
comment, line 488, and are not modelled.) -/
def decimalText (q : Rat) : Option (List Char) := fractionText q.num q.den

/-- `trlc/vcg.py:504-507` the number in the name of an object the solver refers to as `v` -/
def instanceNumber (v : Int) : Int := if v < 0 then v * -2 - 1 else v * 2

/-- `trlc/vcg.py:508-514` the name of the object for a reference to a record type, given by its package and name;
`own` is the package of the type that is verified -/
def instanceText (own : String) (r : String × String) (v : Int) : List Char :=
  if r.1 = own then r.2.toList ++ "_instance_".toList ++ intText (instanceNumber v)
  else r.1.toList ++ '.' :: (r.2.toList ++ "_instance_".toList ++ intText (instanceNumber v))

/-- `trlc/vcg.py:496-500` the text of a String -/
def stringText (s : List Char) : List Char :=
  if '\n' ∈ s then "'''".toList ++ s ++ "'''".toList else '"' :: s ++ ['"']

end Verif.Model
