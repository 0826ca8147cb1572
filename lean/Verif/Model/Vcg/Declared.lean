import Verif.Model.Vcg.Graph
import Verif.Model.Run.Process
/-!
# The types handed to the verification (`trlc/lint.py:160-164, 187-191`)
-/
namespace Verif.Model

/-- A freezing expression as the translation sees it, `trlc/vcg.py:615-629`.  It is not supported unless it
is a literal or a signed number, so that what is in an aggregate or where a reference points does not
matter. -/
def PVal.frozenExpr : PVal → FExpr
  | .inull => .inull
  | .bool b => .bool b
  | .int i => .int i
  | .dec q => .dec q
  | .str s => .str s
  | .markup s _ => .markup s
  | .enum t l => .enum t l
  | .neg e => .neg e.frozenExpr
  | .pos e => .pos e.frozenExpr
  | .arr t _ => .arr t []
  | .tup t _ => .tup t []
  | .ref t _ _ => .ref t none

/-- `is_frozen` and `get_freezing_expression` in `trlc/vcg.py:615-629` -/
def PS.frozenFor (s : PS) (t : Nat) (name : String) : Option FExpr :=
  (s.freezing t name).map fun n => n.val.frozenExpr

/-- `VCG(n_ctyp = ..).analyze()` of a declared type up to the calls of the solver,
`trlc/lint.py:160-164, 187-191`, `trlc/vcg.py:316-353` -/
def PS.verify (s : PS) (rx : List Char → List Char → Bool) : CompositeTy → TrM Unit
  | .record t => vcgGraph ⟨s.decls, rx⟩ s.checks (recordVcg s.decls s.checks (s.frozenFor t) t)
  | .tup t => vcgGraph ⟨s.decls, rx⟩ s.checks (tupleVcg s.decls s.checks t)

/-- The category of a message, `trlc/vcg.py:69, 178-180, 199-201, 220-222, 243-254, 272-275` -/
def Feedback.category : Feedback → String
  | .null => "vcg-evaluation-of-null"
  | .divByZero => "vcg-div-by-zero"
  | .indexBelow | .indexAbove => "vcg-array-index"
  | .alwaysTrue _ => "vcg-always-true"

/-- What the linter gets from elsewhere if checks are verified (`trlc/vcg.py:316-413`): the answers of
the solver for the paths through a graph, and locations and texts of the messages. -/
structure Verification where
  render      : LintMsg → String × String
  solve       : CompositeTy → TS → List Solved
  tell        : CompositeTy → Report → String × String
  unsupported : CompositeTy → String × String

/-- `trlc/vcg.py:316-413` `analyze`: the messages, or an internal exception.  (Making an example from the
answer of the solver is part of the text.) -/
def PS.analyze (s : PS) (V : Verification) (rx : List Char → List Char → Bool) (ct : CompositeTy) :
    Option (List MHCall) :=
  match s.verify rx ct TS.empty with
  | .ok _ G => some ((solveAll (V.solve ct G)).map fun r => .check (V.tell ct r).1 (V.tell ct r).2 r.2.category)
  | .unsupported => some [.warning (V.unsupported ct).1 (V.unsupported ct).2 false]
  | .crash => none

/-- `isinstance(n_typ, (ast.Record_Type, ast.Tuple_Type))`, `trlc/lint.py:75-84` -/
def Ty.composite? : Ty → Option CompositeTy
  | .record t => some (.record t)
  | .tup t => some (.tup t)
  | _ => none

/-- the types one after the other (`trlc/lint.py:42-51, 160-164, 187-191`) -/
def PS.analyzeAll (s : PS) (V : Verification) (rx : List Char → List Char → Bool) :
    List CompositeTy → Option (List MHCall)
  | [] => some []
  | ct :: r => do
    let ms ← s.analyze V rx ct
    let rest ← s.analyzeAll V rx r
    pure (ms ++ rest)

/-- The linter with verification of checks (`trlc/lint.py:42-62, 160-164, 187-191`).  Every record and
tuple type is declared in some package and visited once, so that every one is verified once.  (In the code
the messages for a type come directly after those of the linter on it and on types reached from it; here
those of the verification come last, and messages before an internal exception are not kept.) -/
def verifying (V : Verification) (rx : List Char → List Char → Bool) (g : STab) (s : PS) : LintOut :=
  match s.sanityChecks g with
  | .error _ => ⟨[], none⟩
  | .ok ms =>
    match s.analyzeAll V rx ((s.declaredTypes g).filterMap Ty.composite?) with
    | none => ⟨[], none⟩
    | some cs => ⟨ms.map (fun m => .check (V.render m).1 (V.render m).2 m.category) ++ cs, some true⟩

end Verif.Model
