/-!
# Model of `trlc/math.py`
-/
namespace Verif.Model

/-- Python's `a % b` for non-negative `a` and positive `b`, and `ZeroDivisionError`
(`none`) for `b = 0`.  Only used on absolute values, as in the code.
(`trlc/math.py:29`) -/
def pyNatMod (a b : Nat) : Option Nat :=
  if b = 0 then none else some (a % b)

/-- `trlc/math.py:25-34` `remainder(lhs, rhs)`.  `none` models the Python
`ZeroDivisionError` of `abs(lhs) % abs(rhs)` when `rhs` is 0. -/
def remainder (lhs rhs : Int) : Option Int :=
  match pyNatMod lhs.natAbs rhs.natAbs with
  | none     => none
  | some mod => if lhs ≥ 0 then some (mod : Int) else some (-(mod : Int))

/-- `trlc/math.py:37-43` `round_nearest_away(value)`; `Fraction` is an exact
rational, `math.floor`/`math.ceil` on it are exact. -/
def roundNearestAway (value : Rat) : Int :=
  if value ≥ 0 then (value + 1/2).floor else (value - 1/2).ceil

/-- Python's `a // b` on `int` (floor division), used in `trlc/ast.py:1759-1773`
(`Binary_Expression.evaluate`, `DIVIDE`).  `none` is `ZeroDivisionError`. -/
def pyFloorDiv (a b : Int) : Option Int :=
  if b = 0 then none else some (a.fdiv b)

end Verif.Model
