import Verif.Model.Vcg.Translate
/-!
# The graph built for the checks of a type, and what is reported (`trlc/vcg.py:316-413, 560-672,
746-762`)
-/
namespace Verif.Model

/-- `tr_expression` with `self.functional` on a freezing expression, `trlc/vcg.py:623-627, 764-816`:
literals and signed numbers; aggregates and references are not supported -/
def frozenTerm : FExpr → FR Smt
  | .bool b => .ok (.bool b)
  | .int i => .ok (.int i)
  | .dec q => .ok (.real q)
  | .str s | .markup s => .ok (.str s)
  | .enum t l => .ok (.enum t l)
  | .neg (.int i) => .ok (.un .negInt (.int i))
  | .neg (.dec q) => .ok (.un .negReal (.real q))
  | .neg _ => .crash
  | .pos e => frozenTerm e
  | .inull | .arr .. | .tup .. | .ref .. => .unsupported

/-- The fields of a tuple value as names, `trlc/vcg.py:822-831` -/
def tupleNames (D : Decls) (t : Nat) (base : Smt) : NameTrs := fun n =>
  ((D.fields t).find? (·.name == n)).map fun c =>
    ⟨.field base (.value n), if c.optional then .field base (.valid n) else .bool true, c.ty⟩

/-- `trlc/vcg.py:585-603` once a field is null, all that follow are.  (Access to the missing flag of
a field that is not optional fails; such fields do not follow optional ones.) -/
def suffixTerms (base : Smt) : List Comp → FR (List Smt)
  | [] => .ok []
  | c :: cs =>
    if c.optional then
      match cs with
      | [] => .ok []
      | d :: ds =>
        if (d :: ds).all (·.optional) then
          (suffixTerms base (d :: ds)).bind fun rest =>
            .ok (.bin .imp (.un .not (.field base (.valid c.name)))
              (conjTerm ((d :: ds).map fun x => .un .not (.field base (.valid x.name)))) :: rest)
        else .crash
    else suffixTerms base cs

/-- `trlc/vcg.py:574-580` the checks of the tuple type other than warnings -/
def tupleCheckTerms (T : TrEnv) (ρ : NameTrs) : List Check → FR (List Smt)
  | [] => .ok []
  | c :: cs =>
    if c.sev = .warning then tupleCheckTerms T ρ cs
    else
      (c.expr.trF T ρ).bind fun p => (FR.need p.1).bind fun a =>
        (tupleCheckTerms T ρ cs).bind fun rest => .ok (a :: rest)

/-- `trlc/vcg.py:560-609` `emit_tuple_constraints` -/
def tupleConstraints (T : TrEnv) (C : CheckTab) (t : Nat) (base : Smt) : FR (List Smt) :=
  (tupleCheckTerms T (tupleNames T.decls t base) (C.ofTup t)).bind fun xs =>
    (suffixTerms base (T.decls.fields t)).bind fun ys => .ok (xs ++ ys)

/-- `trlc/vcg.py:645-660` the bounds of the length of an array -/
def boundTerms (a : Smt) (lo : Nat) (hi : Option Nat) : List Smt :=
  (if lo > 0 then [.bin .geq (.un .seqLen a) (.int lo)] else []) ++
    match hi with
    | none => []
    | some u => [.bin .leq (.un .seqLen a) (.int u)]

/-- what is asserted about the value of a component, `trlc/vcg.py:640-660` -/
def compConstraints (T : TrEnv) (C : CheckTab) (c : Comp) : FR (List Smt) :=
  match c.ty with
  | .tup t => tupleConstraints T C t (.sym (.value c.name))
  | .arr _ _ lo hi => .ok (boundTerms (.sym (.value c.name)) lo hi)
  | _ => .ok []

/-- the value of a frozen component, `trlc/vcg.py:615-629` -/
def frozenValue (frozen : String → Option FExpr) (c : Comp) : FR (Option Smt) :=
  match frozen c.name with
  | none => .ok none
  | some e => (frozenTerm e).bind fun a => .ok (some a)

/-- `trlc/vcg.py:611-672` `tr_component_decl` -/
def componentStmts (T : TrEnv) (C : CheckTab) (frozen : String → Option FExpr) (c : Comp) :
    FR (List SStmt) :=
  (frozenValue frozen c).bind fun v =>
    (compConstraints T C c).bind fun cs =>
      .ok (.declare (.value c.name) c.ty.srt v :: cs.map .assert ++
        [.declare (.valid c.name) .bool
          (if c.optional = true ∧ frozen c.name = none then none else some (.bool true))])

/-- `trlc/vcg.py:332-334` -/
def preamble (T : TrEnv) (C : CheckTab) (frozen : String → Option FExpr) : List Comp → FR (List SStmt)
  | [] => .ok []
  | c :: cs =>
    (componentStmts T C frozen c).bind fun xs =>
      (preamble T C frozen cs).bind fun ys => .ok (xs ++ ys)

/-- The components as names, `trlc/vcg.py:833-836` -/
def compTrs (cs : List Comp) : NameTrs := fun n =>
  (cs.find? (·.name == n)).map fun c => ⟨.sym (.value n), .sym (.valid n), c.ty⟩

/-- `trlc/vcg.py:260-277` `attach_feasability_check` -/
def checkFeasible (em : Bool) (e : Expr) (a : Smt) : TrM Unit :=
  if em then attachAside [.goal a (.alwaysTrue e)] else pure ()

/-- `trlc/vcg.py:746-762` `tr_check`; `own` if the check is declared in the type itself -/
def trCheck (T : TrEnv) (ρ : NameTrs) (own : Bool) (e : Expr) : TrM Unit := do
  let p ← e.tr T own ρ
  checkValid own p.2
  let a ← TrM.need p.1
  checkFeasible own e a
  attach [.assert a]

/-- `trlc/vcg.py:348-353` one check; only fatal checks move `self.start` -/
def trOne (T : TrEnv) (ρ : NameTrs) (own : Bool) (c : Check) : TrM Unit := do
  let here ← getStart
  trCheck T ρ own c.expr
  if c.sev = .fatal then pure () else setStart here

/-- `trlc/vcg.py:345-353` one round over the checks -/
def trChecks (T : TrEnv) (ρ : NameTrs) (phase : Bool) : List (Bool × Check) → TrM Unit
  | [] => pure ()
  | (own, c) :: cs =>
    if c.usesFieldAccess ≠ phase then trChecks T ρ phase cs
    else do
      trOne T ρ own c
      trChecks T ρ phase cs

/-- What the analysis takes from a record or tuple type: all components, the frozen values, and the
checks of `iter_checks` with whether they are declared in the type itself (`trlc/vcg.py:323-353,
615-618, 753`) -/
structure VcgType where
  comps  : List Comp
  frozen : String → Option FExpr
  checks : List (Bool × Check)

/-- The graph before anything is done (`trlc/vcg.py:88-92`) -/
def TS.empty : TS := ⟨[[]], [], 0, 0⟩

/-- `trlc/vcg.py:323-353` the graph for a type -/
def vcgGraph (T : TrEnv) (C : CheckTab) (v : VcgType) : TrM Unit := do
  let ss ← FR.lift (preamble T C v.frozen v.comps)
  attach ss
  trChecks T (compTrs v.comps) false v.checks
  trChecks T (compTrs v.comps) true v.checks

/-- The checks of `iter_checks` of a record type with whether they are its own
(`trlc/ast.py:2930-2935`, `trlc/vcg.py:753`) -/
def markedChecks (D : Decls) (C : CheckTab) (t : Nat) : List (Bool × Check) :=
  ((D.ancestors t).reverse.flatMap fun a => (C.ofRec a).map fun c => (decide (a = t), c))

/-- A record type as the analysis sees it (`trlc/vcg.py:323-353`) -/
def recordVcg (D : Decls) (C : CheckTab) (frozen : String → Option FExpr) (t : Nat) : VcgType :=
  { comps := D.allComponents t, frozen, checks := markedChecks D C t }

/-- A tuple type as the analysis sees it (`trlc/vcg.py:323-353`) -/
def tupleVcg (D : Decls) (C : CheckTab) (t : Nat) : VcgType :=
  { comps := D.fields t, frozen := fun _ => none, checks := (C.ofTup t).map fun c => (true, c) }

/-! ### Solving and reporting -/

/-- A verification condition with the answer of the solver: the goal it is about (its feedback
object, identified by node and position), the kind of feedback, and whether the answer is "unsat"
(`trlc/vcg.py:370-404`) -/
structure Solved where
  key   : Nat × Nat
  fb    : Feedback
  unsat : Bool

/-- A reported message: which goal (`trlc/vcg.py:394-398, 410-412`) -/
abbrev Report := (Nat × Nat) × Feedback

/-- The state of the loop: messages so far, `nok_validity_checks`, `nok_feasibility_checks`,
`ok_feasibility_checks` (`trlc/vcg.py:366-368`) -/
structure SolveState where
  msgs  : List Report
  nokV  : List (Nat × Nat)
  nokF  : List Report
  okF   : List (Nat × Nat)

/-- one round of `trlc/vcg.py:370-404` -/
def solveStep (s : SolveState) (v : Solved) : SolveState :=
  if v.fb.expectUnsat = true ∧ v.key ∈ s.nokV then s
  else if v.fb.expectUnsat then
    if v.unsat then s else { s with msgs := s.msgs ++ [(v.key, v.fb)], nokV := v.key :: s.nokV }
  else if v.unsat then { s with nokF := s.nokF ++ [(v.key, v.fb)] }
  else { s with okF := v.key :: s.okF }

/-- `trlc/vcg.py:408-413` -/
def feasLoop : List Report → List (Nat × Nat) → List Report
  | [], _ => []
  | r :: rs, ok => if r.1 ∈ ok then feasLoop rs ok else r :: feasLoop rs (r.1 :: ok)

/-- `trlc/vcg.py:365-413` the messages -/
def solveAll (vs : List Solved) : List Report :=
  let s := vs.foldl solveStep ⟨[], [], [], []⟩
  s.msgs ++ feasLoop s.nokF s.okF

end Verif.Model
