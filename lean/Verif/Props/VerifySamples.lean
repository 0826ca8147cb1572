import Verif.Props.Verify
/-!
# Concrete runs with verification of checks: C78 does not hold in full; the theorems apply
-/
namespace Verif.Props
open Verif.Model Verif.Spec Verif.Lemmas

namespace VerifySample

/-- the goals of a node of the graph, none of which is shown -/
def unshown (i : Nat) (ss : List SStmt) : List Solved :=
  ss.zipIdx.filterMap fun x =>
    match x.1 with
    | .goal _ fb => some ⟨(i, x.2), fb, false⟩
    | _ => none

/-- a solver that shows nothing -/
def V : Verification :=
  ⟨fun _ => ("", ""), fun _ G => G.nodes.zipIdx.flatMap fun x => unshown x.2 x.1, fun _ _ => ("", ""), fun _ => ("", "")⟩

def outside : Outside := { RunSample.outside with lint := verifying V RunSample.outside.rx.search }

/-- `process` on these files -/
def run (required : List CU → Finset PNode) (fs : List SrcFile) : ProcOut :=
  process RunSample.options outside required (RunSample.opened fs).1 (RunSample.opened fs).2

theorem run_any (required : List CU → Finset PNode) (fs : List SrcFile)
    (h : (RunSample.opened fs).1.all (·.file.primary) = true) : run required fs = run (fun _ => ∅) fs :=
  process_primary (by simpa using h) _ _

/-- a range test in a quantifier -/
def ranging : SrcFile := ⟨"p.rsl", .rsl, true, "package P
type R { a Integer[0..*] }
checks R { (forall x in a => x in 1 .. 5), error \"m\" }".toList⟩

/-- a quantifier in a quantifier -/
def nesting : SrcFile := ⟨"p.rsl", .rsl, true, "package P
type R { a Integer[2..*] b Integer[2..*] }
checks R { (forall x in a => (exists y in b => y == x)), error \"m\" }".toList⟩

/-- possible problems outside of quantifiers -/
def dividing : SrcFile := ⟨"p.rsl", .rsl, true, "package P
type R { a Integer[2..*] b optional Integer }
checks R { a[2] / 2 > b, error \"m\" (forall x in a => x > 0), error \"n\" }".toList⟩

set_option maxRecDepth 100000 in
theorem ranging_crash (required) : (run required [ranging]).out = .crash .lint ∧ (run required [ranging]).state.decls.tups = [] := by
  rw [run_any _ _ (by decide +kernel)]
  decide +kernel

set_option maxRecDepth 100000 in
/-- the warning that `C78_report` allows -/
theorem nesting_warning (required) : (run required [nesting]).out = .table ∧ (run required [nesting]).calls = [.warning "" "" false] := by
  rw [run_any _ _ (by decide +kernel)]
  decide +kernel

set_option maxRecDepth 100000 in
theorem dividing_calls (required) : (run required [dividing]).out = .table ∧ (run required [dividing]).calls =
    [.check "" "" "vcg-evaluation-of-null", .check "" "" "vcg-array-index", .check "" "" "vcg-array-index",
     .check "" "" "vcg-div-by-zero", .check "" "" "vcg-evaluation-of-null", .check "" "" "vcg-evaluation-of-null"] := by
  rw [run_any _ _ (by decide +kernel)]
  decide +kernel

attribute [local irreducible] RunSample.opened process

theorem no_tuples {D : Decls} {seps : List (List Sep)} (h : D.tups = []) (t : Nat) : ¬ LintFails D seps t := by
  rintro ⟨i, sep, b, ⟨⟨cs, a, h1, -⟩, -⟩, -⟩
  rw [h] at h1
  simp at h1

theorem ranging_lint (required) (t : Nat) :
    ¬ LintFails (run required [ranging]).state.decls (run required [ranging]).state.seps t :=
  no_tuples (ranging_crash required).2 t

/-- C78_partial applies: there is a type that is not `Verifiable` -/
example (required) : ∃ ct, DeclaredCt (run required [ranging]).state.decls ct ∧ ¬ Verifiable (run required [ranging]).state true ct :=
  (C78_partial (X := outside) (V := V) rfl (RunSample.opened_blank _) (ranging_crash required).1).resolve_left fun ⟨t, h⟩ => ranging_lint required t h

/-- C78_report applies: to a run with messages about goals -/
example (required) : ∃ (msgs : List LintMsg) (cts : List CompositeTy) (f : CompositeTy → List MHCall) (rest : List MHCall),
    (run required [dividing]).calls = msgs.map (fun m => MHCall.check "" "" m.category) ++ cts.flatMap f ++ rest ∧
    LintReport (run required [dividing]).state.decls (run required [dividing]).state.infos (run required [dividing]).state.seps msgs := by
  obtain ⟨msgs, cts, f, rest, h1, h2, -⟩ :=
    C78_report (X := outside) (V := V) rfl rfl (RunSample.opened_blank _) (dividing_calls required).1
  exact ⟨msgs, cts, f, rest, h1, h2⟩

end VerifySample

/-- **C78** in full: verification never ends with an internal exception that the linter alone does not
end with. -/
def C78_full : Prop :=
  ∀ (o : Options) (X : Outside) (V : Verification) (required : List CU → Finset PNode) (fs : List Source) (s : PS),
    X.lint = verifying V X.rx.search → Blank s → (∀ cus, Required cus (required cus)) →
    (process o X required fs s).out = .crash .lint →
    ∃ t, LintFails (process o X required fs s).state.decls (process o X required fs s).state.seps t

attribute [local irreducible] RunSample.opened process in
/-- **C78** does not hold in full: a range test in a quantifier. -/
theorem C78_violated : ¬ C78_full := fun h => by
  obtain ⟨t, ht⟩ := h RunSample.options VerifySample.outside VerifySample.V RunSample.found (RunSample.opened [VerifySample.ranging]).1
    (RunSample.opened [VerifySample.ranging]).2 rfl (RunSample.opened_blank _) RunSample.found_required (VerifySample.ranging_crash _).1
  exact VerifySample.ranging_lint _ t ht

end Verif.Props
