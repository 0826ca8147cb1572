import Verif.Props.Runs
import Verif.Props.Lint
/-!
# Concrete runs: the theorems on whole runs apply; C39 does not hold in full
-/
namespace Verif.Props
open Verif.Model Verif.Spec Verif.Lemmas

variable {o : Options} {X : Outside} {required : List CU → Finset PNode} {fs : List Source} {s : PS}

theorem isSecondary_primary {R : Finset PNode} {cu : CU} (h : cu.file.primary = true) :
    isSecondary R cu = false := by
  unfold isSecondary; rw [h]; rfl

theorem find_congr {α : Type} {p q : α → Bool} {l : List α} (h : ∀ x ∈ l, p x = q x) : l.find? p = l.find? q := by
  induction l with
  | nil => rfl
  | cons x l ih =>
    rw [List.find?_cons, List.find?_cons, h x (by simp), ih fun y hy => h y (List.mem_cons_of_mem _ hy)]

/-- If all files are requested, it does not matter what else is required. -/
theorem process_primary (h : ∀ f ∈ fs, f.file.primary = true) (r r' : List CU → Finset PNode) :
    process o X r fs s = process o X r' fs s := by
  unfold process
  split
  · rfl
  · rfl
  · next g ls s1 h1 =>
    have k := loadAll_ok globalTable_pkgTab h1
    have hp : ∀ l ∈ ls, l.cu.file.primary = true := by
      intro l hl
      rw [(k.same l hl).2.2]
      obtain ⟨f, hf, he⟩ := List.mem_map.1 ((k.perm.mem_iff).1 (List.mem_map_of_mem hl))
      rw [← he]
      exact h f hf
    have e1 : ∀ R R', selectedRsl R (ls.map (·.cu)) = selectedRsl R' (ls.map (·.cu)) := by
      intro R R'
      unfold selectedRsl
      refine List.filter_congr ?_
      intro u hu
      obtain ⟨l, hl, rfl⟩ := List.mem_map.1 hu
      simp [hp l hl]
    have e2 : ∀ R R', parseRslOrder R (ls.map (·.cu)) = parseRslOrder R' (ls.map (·.cu)) := by
      intro R R'
      unfold parseRslOrder
      rw [e1 R R']
    have e3 : ∀ R R', trlcFiles R ls = trlcFiles R' ls := by
      intro R R'
      unfold trlcFiles
      refine List.filter_congr ?_
      intro l hl
      simp [hp l hl]
    have e4 : ∀ R R', rslFiles R ls = rslFiles R' ls := by
      intro R R'
      unfold rslFiles
      rw [e2 R R']
      congr 1
      funext n
      unfold rslMap
      exact find_congr fun l hl => by simp [hp l hl]
    have e5 : ∀ R R', runRsl g o.recover X.rx R ls = runRsl g o.recover X.rx R' ls := by
      intro R R'
      unfold runRsl
      rw [e2 R R', e4 R R']
    have e6 : ∀ R R', runTrlc g o.recover R ls = runTrlc g o.recover R' ls := by
      intro R R'
      unfold runTrlc
      rw [e3 R R']
    have e7 : ∀ R R' ok s, analyse o X g R ls ok s = analyse o X g R' ls ok s := by
      intro R R' ok s
      unfold analyse finish
      rw [e5 R R', e6 R R']
    rw [e7 (r _) (r' _)]

namespace RunSample

/-- the linter, and no other messages from elsewhere -/
def outside : Outside :=
  ⟨⟨fun _ _ => true, fun _ => true⟩, linter fun _ => ("", ""), fun _ _ => [], ⟨fun _ => "", fun _ _ => ""⟩⟩

theorem outside_sane : Outside.Sane outside :=
  ⟨linter_sane.1, linter_sane.2, fun _ _ _ h => (by cases h)⟩

def options : Options := ⟨true, true, true⟩

def rsl : SrcFile := ⟨"p.rsl", .rsl, true, "package P
type B { n optional Integer m Integer r optional B }
type S extends B { freeze n = 1 }
checks B { m > 0, error \"m\" }".toList⟩

def trlc : SrcFile := ⟨"p.trlc", .trlc, true, "package P S x { m = 2 r = y } B y { m = 3 }".toList⟩

def wrong : SrcFile := ⟨"p.trlc", .trlc, true, "package P S x { m = 0 }".toList⟩

def importing : SrcFile := ⟨"p.rsl", .rsl, true, "package P import Q".toList⟩

def indexing : List SrcFile := [⟨"p.rsl", .rsl, true, "package P
type B { a Integer[1..*] }
checks B { a[1] > 0, error \"m\" }".toList⟩, ⟨"p.trlc", .trlc, true, "package P B x { a = [2] }".toList⟩]

/-- an array of at most one element, an abstract type that is not extended, and a separator that
looks like part of a number -/
def linted : SrcFile := ⟨"p.rsl", .rsl, true, "package P
abstract type A { a Integer[0..1] }
tuple U { p Integer separator x q Integer }".toList⟩

/-- two such separators -/
def twice : SrcFile := ⟨"p.rsl", .rsl, true, "package P
tuple U { p Integer separator x q Integer separator x r Integer }".toList⟩

/-- the separator is followed by an enumeration -/
def literal : SrcFile := ⟨"p.rsl", .rsl, true, "package P
enum E { k } tuple U { p Integer separator x q E }".toList⟩

/-- registered files, and the state afterwards -/
def opened (fs : List SrcFile) : List Source × PS :=
  match registerFiles true fs (PS.fresh []) with
  | .ok (x, _) s => (x, s)
  | .err s => ([], s)
  | .crash .. => ([], PS.fresh [])

theorem opened_blank (fs : List SrcFile) : Blank (opened fs).2 := by
  unfold opened
  split
  · next h => exact (fresh_blank []).quiet (registerFiles_ok h).quiet
  · next h => exact absurd h registerFiles_no_err
  · exact fresh_blank []

/-- `process` on these files -/
def run (required : List CU → Finset PNode) (fs : List SrcFile) : ProcOut :=
  process options outside required (opened fs).1 (opened fs).2

/-- what the closure loop finds -/
noncomputable def found (cus : List CU) : Finset PNode := Classical.choose (C14_required_exists cus)

theorem found_required (cus : List CU) : Required cus (found cus) := Classical.choose_spec (C14_required_exists cus)

theorem run_any (required : List CU → Finset PNode) (fs : List SrcFile)
    (h : (opened fs).1.all (·.file.primary) = true) : run required fs = run (fun _ => ∅) fs :=
  process_primary (by simpa using h) _ _

set_option maxRecDepth 100000 in
theorem run_table (required) : (run required [rsl, trlc]).out = .table := by
  rw [run_any _ _ (by decide +kernel)]
  decide +kernel

set_option maxRecDepth 100000 in
theorem run_errs (required) : (run required [rsl, trlc]).state.errs = (opened [rsl, trlc]).2.errs := by
  rw [run_any _ _ (by decide +kernel)]
  decide +kernel

set_option maxRecDepth 100000 in
theorem run_objs (required) : ((run required [rsl, trlc]).state.objs.map (·.name)) = ["x".toList, "y".toList] := by
  rw [run_any _ _ (by decide +kernel)]
  decide +kernel

set_option maxRecDepth 100000 in
theorem run_types (required) : (run required [rsl, trlc]).state.decls.recs.length = 2 := by
  rw [run_any _ _ (by decide +kernel)]
  decide +kernel

set_option maxRecDepth 100000 in
theorem run_frozen (required) : (((run required [rsl, trlc]).state.infos[1]?).bind fun i => i.frozen.lookup "n").isSome = true := by
  rw [run_any _ _ (by decide +kernel)]
  decide +kernel

set_option maxRecDepth 100000 in
theorem run_recs (required) : 1 < (run required [rsl, trlc]).state.decls.recs.length := by
  rw [run_any _ _ (by decide +kernel)]
  decide +kernel

set_option maxRecDepth 100000 in
theorem run_checks (required) : ((run required [rsl, trlc]).state.checks.recs.map List.length) = [1, 0] := by
  rw [run_any _ _ (by decide +kernel)]
  decide +kernel

set_option maxRecDepth 100000 in
/-- a check fails: C39 -/
theorem wrong_none (required) : (run required [rsl, wrong]).out = .none := by
  rw [run_any _ _ (by decide +kernel)]
  decide +kernel

set_option maxRecDepth 100000 in
theorem importing_table (required) : (run required [importing]).out = .table ∧
    (run required [importing]).state.errs = [.sym .unknown] := by
  rw [run_any _ _ (by decide +kernel)]
  decide +kernel

set_option maxRecDepth 100000 in
/-- C40 applies: one run ends with 0, one with 1 -/
example : commandLine false (runTool options outside (fun _ => ∅) [rsl] []) = .code 0 ∧
    commandLine false (runTool options outside (fun _ => ∅) [importing] []) = .code 1 := by decide +kernel

set_option maxRecDepth 100000 in
theorem indexing_crash (required) : (run required indexing).out = .crash (.check (.eval .indexError)) := by
  rw [run_any _ _ (by decide +kernel)]
  decide +kernel

set_option maxRecDepth 100000 in
theorem linted_calls (required) : (run required [linted]).out = .table ∧ (run required [linted]).calls =
    [.check "" "" "weird_array_types", .check "" "" "separator_based_literal_ambiguity",
     .check "" "" "abstract_leaf_types"] := by
  rw [run_any _ _ (by decide +kernel)]
  decide +kernel

set_option maxRecDepth 100000 in
theorem twice_crash (required) : (run required [twice]).out = .crash .lint := by
  rw [run_any _ _ (by decide +kernel)]
  decide +kernel

set_option maxRecDepth 100000 in
theorem literal_crash (required) : (run required [literal]).out = .crash .lint := by
  rw [run_any _ _ (by decide +kernel)]
  decide +kernel

attribute [local irreducible] opened process

/-- C70 applies to a run with messages -/
example (required) : ∃ msgs rest, (run required [linted]).calls = msgs.map (fun m => MHCall.check "" "" m.category) ++ rest ∧
    LintReport (run required [linted]).state.decls (run required [linted]).state.infos (run required [linted]).state.seps msgs :=
  C70_report (X := outside) (render := fun _ => ("", "")) rfl rfl (opened_blank _) (linted_calls required).1

/-- there are two objects, of which C32, C35 and C63 speak -/
example (required) : ∃ ob gs, (run required [rsl, trlc]).state.objs[0]? = some ob ∧ ob.name = "x".toList ∧
    (run required [rsl, trlc]).state.heap 0 = some gs ∧
    ObjComplete (run required [rsl, trlc]).state.decls (run required [rsl, trlc]).state.infos ob ∧
    ResolvedObj (run required [rsl, trlc]).state.decls (run required [rsl, trlc]).state.objs ob.fields gs := by
  have h := run_objs required
  cases ho : (run required [rsl, trlc]).state.objs with
  | nil => rw [ho] at h; cases h
  | cons ob l =>
    rw [ho] at h
    have hi : (run required [rsl, trlc]).state.objs[0]? = some ob := by rw [ho]; rfl
    obtain ⟨gs, h1, h2⟩ := C35_run (opened_blank _) (run_table required) 0 ob hi
    refine ⟨ob, gs, rfl, ?_, h1, (C32_run (opened_blank _) (run_table required) 0 ob hi).1, ?_⟩
    · simpa using (List.cons.inj h).1
    · rw [← ho]; exact h2

/-- there is a frozen component, of which C31 speaks -/
example (required) : ∃ v, FrozenIn (run required [rsl, trlc]).state.decls (run required [rsl, trlc]).state.infos 1 "n" v := by
  have h := run_frozen required
  obtain ⟨v, hv⟩ := Option.isSome_iff_exists.1 h
  obtain ⟨i, h1, h2⟩ := Option.bind_eq_some_iff.1 hv
  exact ⟨v, 1, i, .refl (run_recs required), h1, h2⟩

/-- and C61 applies -/
example : ∃ ls tl files items N, FilesRead (opened [rsl, trlc]).1 ls ∧ tl.Sublist ls ∧
    List.Forall₂ (Opened ls) tl files ∧
    WrittenFiles N 0 files items (namesOf (run found [rsl, trlc]).state) ∧ items.length = 2 := by
  obtain ⟨ls, tl, files, items, N, h1, h2, -, h3, h4, h5, -⟩ := C61_run (opened_blank _) found_required rfl
    (run_table found) (run_errs found)
  refine ⟨ls, tl, files, items, N, h1, h2, h3, h4, ?_⟩
  have := congrArg List.length (run_objs found)
  rw [List.length_map] at this
  have h6 := congrArg List.length h5
  rw [List.length_map] at h6
  rw [← h6]
  exact this

example (required) : 0 < (run required [rsl, wrong]).errors :=
  Nat.lt_of_le_of_lt (Nat.zero_le _) (C39_none_reported (outside_sane.lint) (wrong_none required))

end RunSample

/-- **C39** in full: `process` returns the symbol table only if no error was reported. -/
def C39_full : Prop := ∀ (o : Options) (X : Outside) (required : List CU → Finset PNode) (fs : List Source) (s : PS),
  Outside.Sane X → Blank s → (∀ cus, Required cus (required cus)) →
  (process o X required fs s).out = .table → (process o X required fs s).errors = s.errs.length

/-- **C39** is violated: a file that imports a package that does not exist is an error
("unknown symbol"), but `process` returns the symbol table. -/
theorem C39_violated : ¬ C39_full := by
  intro h
  have h1 := h RunSample.options RunSample.outside RunSample.found (RunSample.opened [RunSample.importing]).1
    (RunSample.opened [RunSample.importing]).2 RunSample.outside_sane (RunSample.opened_blank _)
    RunSample.found_required (RunSample.importing_table _).1
  have h2 : 1 ≤ (RunSample.run RunSample.found [RunSample.importing]).errors := by
    unfold ProcOut.errors
    rw [(RunSample.importing_table _).2]
    simp
  have h3 : (RunSample.opened [RunSample.importing]).2.errs.length = 0 := by decide +kernel
  unfold RunSample.run at h2
  omega

/-- **C63** in full, first half: performing the checks never ends with an internal exception. -/
def C63_full : Prop := ∀ (o : Options) (X : Outside) (required : List CU → Finset PNode) (fs : List Source) (s : PS)
  (c : CheckCrash), Outside.Sane X → Blank s → (∀ cus, Required cus (required cus)) →
  (process o X required fs s).out ≠ .crash (.check c)

/-- **C63** is violated: a check that is accepted stops the run with an `IndexError` for an object
that is accepted. -/
theorem C63_violated : ¬ C63_full := fun h =>
  h RunSample.options RunSample.outside RunSample.found _ _ _ RunSample.outside_sane (RunSample.opened_blank _)
    RunSample.found_required (RunSample.indexing_crash _)

/-- **C71** in full: the linter never ends with an internal exception. -/
def C71_full : Prop := ∀ (o : Options) (X : Outside) (required : List CU → Finset PNode) (fs : List Source) (s : PS)
  (render : LintMsg → String × String), X.lint = linter render → Blank s → (∀ cus, Required cus (required cus)) →
  (process o X required fs s).out ≠ .crash .lint

/-- **C71** is violated: if a tuple type has the separator `x` after an integer and a further
separator, the linter stops the run with an `AssertionError`.  (`RunSample.literal_crash` is the other
case, an `AttributeError`.) -/
theorem C71_violated : ¬ C71_full := fun h =>
  h RunSample.options RunSample.outside RunSample.found _ _ _ rfl (RunSample.opened_blank _)
    RunSample.found_required (RunSample.twice_crash _)

end Verif.Props
