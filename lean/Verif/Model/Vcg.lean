import Verif.Model.Checks
import Verif.Model.CanBeNull
/-!
# The order in which the verification goes through checks (`trlc/vcg.py:318-356`)

Only the order and the assumptions are modelled, not the translation of expressions to SMTLIB.
-/
namespace Verif.Model

/-- `trlc/ast.py:347-364` `Check.uses_field_access` -/
def Check.usesFieldAccess (c : Check) : Bool := c.expr.usesFieldAccess

/-- One round of the outer loop of `trlc/vcg.py:344-353` on the checks and their positions.  `acc`
are the positions of the checks that `self.start` comes after: `tr_check` attaches the check, and
`self.start` is put back unless the check is fatal.  Returns the position of every check together
with the positions of the checks it is attached after. -/
def vcgPhase (phase : Bool) : List (Check × Nat) → List Nat → List (Nat × List Nat) × List Nat
  | [], acc => ([], acc)
  | (c, i) :: rest, acc =>
    if c.usesFieldAccess ≠ phase then vcgPhase phase rest acc
    else
      let r := vcgPhase phase rest (if c.sev = .fatal then acc ++ [i] else acc)
      ((i, acc) :: r.1, r.2)

/-- `trlc/vcg.py:344-353`: both phases -/
def vcgChecks (cs : List Check) : List (Nat × List Nat) :=
  let a := vcgPhase false cs.zipIdx []
  a.1 ++ (vcgPhase true cs.zipIdx a.2).1

end Verif.Model
