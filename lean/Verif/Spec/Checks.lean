import Verif.Model.Checks
import Verif.Spec.Conform
/-!
# What checks should report (LRM, "Check blocks", "Evaluation of checks")

Stated with the result of evaluating the expression of a check only; the functions of the model
that perform checks are not used.
-/
namespace Verif.Spec
open Verif.Model

/-- The check is true for these values. -/
def Holds (env : EvEnv) (ctx : List (String × FExpr)) (c : Check) : Prop :=
  ∃ t, c.expr.eval env (some ctx) = .ok ⟨t, .bool true⟩

/-- The check is false for these values. -/
def Fails (env : EvEnv) (ctx : List (String × FExpr)) (c : Check) : Prop :=
  ∃ t, c.expr.eval env (some ctx) = .ok ⟨t, .bool false⟩

/-- The check has no truth value: it is null, or an error was reported while evaluating it. -/
def Undefined (env : EvEnv) (ctx : List (String × FExpr)) (c : Check) : Prop :=
  (∃ t, c.expr.eval env (some ctx) = .ok ⟨t, .null⟩) ∨ ∃ x, c.expr.eval env (some ctx) = .err x

/-- Evaluating the check does not end with an internal exception and gives no value other than
a Boolean or null. -/
def Judgeable (env : EvEnv) (ctx : List (String × FExpr)) (c : Check) : Prop :=
  Holds env ctx c ∨ Fails env ctx c ∨ Undefined env ctx c

/-- The check counts as a warning. -/
def Warns (env : EvEnv) (ctx : List (String × FExpr)) (c : Check) : Prop :=
  Fails env ctx c ∧ c.sev = .warning

/-- The check counts as an error. -/
def Errs (env : EvEnv) (ctx : List (String × FExpr)) (c : Check) : Prop :=
  Undefined env ctx c ∨ (Fails env ctx c ∧ c.sev ≠ .warning)

/-- No further check of the same object is evaluated. -/
def Stops (env : EvEnv) (ctx : List (String × FExpr)) (c : Check) : Prop :=
  Undefined env ctx c ∨ (Fails env ctx c ∧ c.sev = .fatal)

/-- The check is true, or only a warning. -/
def Passes (env : EvEnv) (ctx : List (String × FExpr)) (c : Check) : Prop :=
  Holds env ctx c ∨ Warns env ctx c

/-- Where the message of a check is put: at the object, or at the component it is anchored to -/
def Anchored (k : Composite) (c : Check) (loc : String) : Prop :=
  (c.anchor = none ∧ loc = k.loc) ∨ ∃ n, c.anchor = some n ∧ loc = k.fieldLoc n

/-- The messages for a list of checks, in order: none for a check that holds, the message of the
check with its severity for one that fails, one system error for one without truth value. -/
inductive CheckMessages (env : EvEnv) (k : Composite) : List Check → List MHCall → Prop
  | nil : CheckMessages env k [] []
  | holds {c cs l} : Holds env k.ctx c → CheckMessages env k cs l → CheckMessages env k (c :: cs) l
  | warning {c cs l loc} : Fails env k.ctx c → c.sev = .warning → Anchored k c loc →
      CheckMessages env k cs l → CheckMessages env k (c :: cs) (.warning loc c.msg true :: l)
  | error {c cs l loc} : Fails env k.ctx c → c.sev = .error → Anchored k c loc →
      CheckMessages env k cs l → CheckMessages env k (c :: cs) (.error loc c.msg false true :: l)
  | fatal {c cs l loc} : Fails env k.ctx c → c.sev = .fatal → Anchored k c loc →
      CheckMessages env k cs l → CheckMessages env k (c :: cs) (.error loc c.msg true true :: l)
  | undefined {c cs l loc text} : Undefined env k.ctx c → CheckMessages env k cs l →
      CheckMessages env k (c :: cs) (.error loc text true false :: l)

/-- `TupleIn e t fs`: the value `e` contains a tuple of type `t` with the values `fs`: it is one, or
it is an array or a tuple that has a value which contains it. -/
inductive TupleIn : FExpr → Nat → List (String × FExpr) → Prop
  | here {t fs} : TupleIn (.tup t fs) t fs
  | elem {τ es e t fs} : e ∈ es → TupleIn e t fs → TupleIn (.arr τ es) t fs
  | nested {t' fs' n e t fs} : (n, e) ∈ fs' → TupleIn e t fs → TupleIn (.tup t' fs') t fs

/-- the same without tuples in tuples -/
inductive DirectTuple : FExpr → Nat → List (String × FExpr) → Prop
  | here {t fs} : DirectTuple (.tup t fs) t fs
  | elem {τ es e t fs} : e ∈ es → DirectTuple e t fs → DirectTuple (.arr τ es) t fs

/-- the checks that apply to objects of record type `t` -/
def AppliesTo (D : Decls) (C : CheckTab) (t : Nat) (c : Check) : Prop :=
  ∃ s cs, Extends D t s ∧ C.recs[s]? = some cs ∧ c ∈ cs

/-- the checks of tuple type `t` -/
def TupleCheck (C : CheckTab) (t : Nat) (c : Check) : Prop := ∃ cs, C.tups[t]? = some cs ∧ c ∈ cs

end Verif.Spec
