import Verif.Model.Vcg.Declared
import Mathlib.Data.List.Count
/-!
# Linting and verification of checks only add warnings (C98)
-/
namespace Verif.Props
open Verif.Model

/-- a warning that is not from a check written by the user -/
def systemWarning : MHCall → Bool
  | .check .. => true
  | .warning _ _ user => !user
  | _ => false

/-- all other messages -/
def apart (cs : List MHCall) : List MHCall := cs.filter fun c => !systemWarning c

/-- what is done with declarations in lint mode: the linter, with or without verification of checks -/
def Linting (X : Outside) : Prop := (∃ render, X.lint = linter render) ∨ ∃ V, X.lint = verifying V X.rx.search

/-- Everything that is not modelled is the same in two runs, apart from warnings. -/
structure SameApart (X X' : Outside) : Prop where
  rx : X'.rx = X.rx
  locs : X'.locs = X.locs
  notes : ∀ ls s, apart (X'.notes ls s) = apart (X.notes ls s)

theorem apart_append (a b : List MHCall) : apart (a ++ b) = apart a ++ apart b := List.filter_append ..

theorem apart_nil {cs : List MHCall} (h : ∀ c ∈ cs, systemWarning c = true) : apart cs = [] := by
  unfold apart
  rw [List.filter_eq_nil_iff]
  intro c hc
  simp [h c hc]

theorem analyze_warnings {s : PS} {V : Verification} {rx : List Char → List Char → Bool} {ct : CompositeTy} {cs : List MHCall}
    (h : s.analyze V rx ct = some cs) : ∀ c ∈ cs, systemWarning c = true := by
  unfold PS.analyze at h
  split at h
  · cases h
    intro c hc
    obtain ⟨r, -, rfl⟩ := List.mem_map.1 hc
    rfl
  · cases h
    intro c hc
    cases List.mem_singleton.1 hc
    rfl
  · cases h

theorem analyzeAll_warnings {s : PS} {V : Verification} {rx : List Char → List Char → Bool} : ∀ {l : List CompositeTy}
    {cs : List MHCall}, s.analyzeAll V rx l = some cs → ∀ c ∈ cs, systemWarning c = true
  | [], _, h => by cases h; simp
  | ct :: l, cs, h => by
    simp only [PS.analyzeAll] at h
    cases h1 : s.analyze V rx ct with
    | none => rw [h1] at h; cases h
    | some ms =>
      cases h2 : s.analyzeAll V rx l with
      | none => rw [h1, h2] at h; cases h
      | some rest =>
        rw [h1, h2] at h
        cases h
        intro c hc
        rcases List.mem_append.1 hc with hc | hc
        · exact analyze_warnings h1 c hc
        · exact analyzeAll_warnings h2 c hc

/-- the linter fails, or ends well and has only given warnings -/
theorem lint_warnings {X : Outside} (hX : Linting X) (g : STab) (s : PS) :
    (X.lint g s).out = none ∨ (X.lint g s).out = some true ∧ apart (X.lint g s).calls = [] := by
  rcases hX with ⟨render, hX⟩ | ⟨V, hX⟩
  · rw [hX]
    unfold linter
    split
    · refine .inr ⟨rfl, apart_nil fun c hc => ?_⟩
      obtain ⟨r, -, rfl⟩ := List.mem_map.1 hc
      rfl
    · exact .inl rfl
  · rw [hX]
    unfold verifying
    split
    · exact .inl rfl
    · split
      · exact .inl rfl
      · next h =>
        refine .inr ⟨rfl, apart_nil fun c hc => ?_⟩
        rcases List.mem_append.1 hc with hc | hc
        · obtain ⟨r, -, rfl⟩ := List.mem_map.1 hc
          rfl
        · exact analyzeAll_warnings h c hc

section
variable {o : Options} {X X' : Outside} {required : List CU → Finset PNode} {fs : List Source} {s : PS}

/-- two runs differ in warnings only -/
structure SameEnd (r r' : ProcOut) : Prop where
  out : r.out = r'.out
  state : r.state = r'.state
  calls : apart r.calls = apart r'.calls

theorem finish_apart (hs : SameApart X X') {g : STab} {R : Finset PNode} {ls : List Loaded} {ok : Bool} {a b : List MHCall}
    (h : apart a = apart b) : SameEnd (finish o X g R ls ok a s) (finish { o with lint := false } X' g R ls ok b s) := by
  unfold finish
  rw [hs.rx, hs.locs]
  simp only
  split
  · exact ⟨rfl, rfl, h⟩
  · exact ⟨rfl, rfl, h⟩
  · exact ⟨rfl, rfl, h⟩
  · split
    · exact ⟨rfl, rfl, h⟩
    · split
      · exact ⟨rfl, rfl, h⟩
      · split <;> exact ⟨rfl, rfl, by rw [apart_append, apart_append, h]⟩

theorem analyse_apart (hX : Linting X) (hs : SameApart X X') {g : STab} {R : Finset PNode} {ls : List Loaded} {ok : Bool} :
    (analyse o X g R ls ok s).out = .crash .lint ∨
      SameEnd (analyse o X g R ls ok s) (analyse { o with lint := false } X' g R ls ok s) := by
  unfold analyse
  rw [hs.rx]
  simp only [Bool.false_and, Bool.false_eq_true, if_false]
  cases h : runRsl g o.recover X.rx R ls s with
  | crash c s' => exact .inr ⟨rfl, rfl, rfl⟩
  | err s' => exact .inr ⟨rfl, rfl, rfl⟩
  | ok b s' =>
    simp only
    by_cases h1 : (!o.recover && !(ok && b)) = true
    · rw [if_pos h1, if_pos h1]
      exact .inr ⟨rfl, rfl, rfl⟩
    · rw [if_neg h1, if_neg h1]
      have key : ∀ l : LintOut, l.out = some true → apart l.calls = [] →
          SameEnd (if !o.parseTrlc then ⟨if ok && b && true then .table else .none, s', l.calls⟩ else finish o X g R ls (ok && b && true) l.calls s')
            (if !o.parseTrlc then ⟨if ok && b && true then .table else .none, s', []⟩
              else finish { o with lint := false } X' g R ls (ok && b && true) [] s') := by
        intro l _ h4
        by_cases h5 : (!o.parseTrlc) = true
        · rw [if_pos h5, if_pos h5]
          exact ⟨rfl, rfl, h4⟩
        · rw [if_neg h5, if_neg h5]
          exact finish_apart hs h4
      by_cases h2 : (o.lint && (ok && b)) = true
      · rw [if_pos h2]
        rcases lint_warnings hX g s' with h3 | ⟨h3, h4⟩
        · rw [h3]
          exact .inl rfl
        · have := key _ h3 h4
          rw [h3]
          exact .inr this
      · rw [if_neg h2]
        exact .inr (key ⟨[], some true⟩ rfl rfl)

/-- **C98**: linting and verification of checks only add warnings.  Unless the linter raises an internal exception (C71, C78 say
when), the result of a run is the same as without it: it ends in the same way, has the same errors, declarations, checks and
objects, and the same messages, apart from warnings that are not those of checks written by the user. -/
theorem C98_lint (hX : Linting X) (hs : SameApart X X') :
    (process o X required fs s).out = .crash .lint ∨
      SameEnd (process o X required fs s) (process { o with lint := false } X' required fs s) := by
  unfold process
  cases loadAll globalTable fs s with
  | crash c s' => exact .inr ⟨rfl, rfl, rfl⟩
  | err s' => exact .inr ⟨rfl, rfl, rfl⟩
  | ok r s' =>
    obtain ⟨g, ls⟩ := r
    simp only
    rcases analyse_apart (o := o) hX hs (g := g) (R := required (ls.map (·.cu))) (ls := ls) (ok := ls.all fun l => !l.cu.err)
      (s := s'.withPackages g) with h | h
    · exact .inl h
    · refine .inr ⟨h.out, h.state, ?_⟩
      simp only
      rw [apart_append, apart_append, h.calls, h.state, hs.notes]

theorem errors_apart (r : ProcOut) : r.errors = r.state.errs.length + (apart r.calls).countP MHCall.isError := by
  unfold ProcOut.errors apart
  rw [List.countP_filter]
  congr 1
  apply List.countP_congr
  intro c _
  cases c <;> simp [MHCall.isError, systemWarning]

/-- **C98**: in particular the exit code is the same unless warnings are to be treated as errors. -/
theorem C98_exit (hX : Linting X) (hs : SameApart X X') :
    commandLine false (process o X required fs s) = .crash .lint ∨
      commandLine false (process o X required fs s) = commandLine false (process { o with lint := false } X' required fs s) := by
  rcases C98_lint (o := o) (required := required) (fs := fs) (s := s) hX hs with h | h
  · exact .inl (by simp [commandLine, h])
  · refine .inr ?_
    unfold commandLine
    rw [h.out, errors_apart, errors_apart, h.state, h.calls]
    simp

end

end Verif.Props
