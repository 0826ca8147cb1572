import Verif.Lemmas.Blame
import Verif.Lemmas.Registering
import Verif.Props.Passed
/-!
# Whole runs: C39, C40, and what holds after a successful run
-/
namespace Verif.Props
open Verif.Model Verif.Spec Verif.Lemmas

variable {o : Options} {X : Outside} {required : List CU → Finset PNode} {fs : List Source} {s : PS}

/-! ## The parts of a successful run -/

/-- What happened when `process` returned the table -/
structure Succeeded (o : Options) (X : Outside) (R : Finset PNode) (fs : List Source)
    (s s' : PS) (g : STab) (ls : List Loaded) (s1 s2 : PS) : Prop where
  built : Prepared globalTable fs s g ls s1
  noErr : ∀ l ∈ ls, l.cu.err = false
  rsl : runRsl g o.recover X.rx R ls (s1.withPackages g) = .ok true s2
  trlc : o.parseTrlc = true → runTrlc g o.recover R ls s2 = .ok true s' ∧ s'.resolveAll g = [] ∧
    (performChecks s' g s'.checks X.rx.search X.locs).out = .ok true
  rslOnly : o.parseTrlc = false → s' = s2

theorem finish_table {g : STab} {R : Finset PNode} {ls : List Loaded} {ok : Bool} {calls : List MHCall}
    (h : (finish o X g R ls ok calls s).out = .table) :
    ok = true ∧ runTrlc g o.recover R ls s = .ok true (finish o X g R ls ok calls s).state ∧
      (finish o X g R ls ok calls s).state.resolveAll g = [] ∧
      (performChecks (finish o X g R ls ok calls s).state g (finish o X g R ls ok calls s).state.checks
        X.rx.search X.locs).out = .ok true ∧
      (finish o X g R ls ok calls s).calls = calls ++
        (performChecks (finish o X g R ls ok calls s).state g (finish o X g R ls ok calls s).state.checks
        X.rx.search X.locs).calls := by
  unfold finish at h ⊢
  split at h
  · cases h
  · cases h
  · cases h
  · next s1 h1 =>
    dsimp only at h ⊢
    split at h
    · cases h
    · next h2 =>
      have h2 : s1.resolveAll g = [] := by simpa using h2
      split at h
      · cases h
      · next h3 =>
        have e1 : ({ s1 with errs := s1.errs ++ s1.resolveAll g } : PS) = s1 := by rw [h2]; simp
        rw [e1] at h
        rw [e1]
        simp only [h2, ne_eq, not_true_eq_false, if_false, if_neg h3]
        split at h
        · cases h
        · cases h
        · cases h
        · next h4 => exact ⟨by simpa using h3, h1, h2, h4, rfl⟩

theorem analyse_table {g : STab} {R : Finset PNode} {ls : List Loaded} {ok : Bool}
    (h : (analyse o X g R ls ok s).out = .table) :
    ok = true ∧ ∃ s2, runRsl g o.recover X.rx R ls s = .ok true s2 ∧
      (o.parseTrlc = true → runTrlc g o.recover R ls s2 = .ok true (analyse o X g R ls ok s).state ∧
        (analyse o X g R ls ok s).state.resolveAll g = [] ∧
        (performChecks (analyse o X g R ls ok s).state g (analyse o X g R ls ok s).state.checks
          X.rx.search X.locs).out = .ok true) ∧
      (o.parseTrlc = false → (analyse o X g R ls ok s).state = s2) ∧
      ∀ c ∈ (analyse o X g R ls ok s).calls, c.isError = true → c ∈ (X.lint g s2).calls := by
  unfold analyse at h ⊢
  split at h
  · cases h
  · cases h
  · next b s2 h1 =>
    dsimp only at h ⊢
    split at h
    · cases h
    · next h2 =>
      rw [if_neg h2]
      split at h
      · cases h
      · next b2 h3 =>
        split at h
        · next h4 =>
          rw [if_pos h4]
          dsimp only at h ⊢
          split at h
          · next h5 =>
            simp only [Bool.and_eq_true] at h5
            obtain ⟨⟨h6, h7⟩, -⟩ := h5
            subst h6
            subst h7
            refine ⟨rfl, s2, h1, ?_, fun _ => rfl, ?_⟩
            · intro h8; rw [h8] at h4; cases h4
            · intro c hc _
              split at hc
              · exact hc
              · cases hc
          · cases h
        · next h4 =>
          rw [if_neg h4]
          obtain ⟨k1, k2, k3, k4, k5⟩ := finish_table h
          simp only [Bool.and_eq_true] at k1
          obtain ⟨⟨h6, h7⟩, -⟩ := k1
          subst h6
          subst h7
          refine ⟨rfl, s2, h1, fun _ => ⟨k2, k3, k4⟩, ?_, ?_⟩
          · intro h8; rw [h8] at h4; exact absurd rfl h4
          · intro c hc he
            rw [k5] at hc
            have hb := performChecks_blames (finish o X g R ls (true && true && b2)
              (if (o.lint && (true && true)) = true then X.lint g s2 else { calls := [], out := some true }).calls
              s2).state g (finish o X g R ls (true && true && b2)
              (if (o.lint && (true && true)) = true then X.lint g s2 else { calls := [], out := some true }).calls
              s2).state.checks X.rx.search X.locs
            unfold Blames at hb
            rw [k4] at hb
            rcases List.mem_append.1 hc with hc | hc
            · split at hc
              · exact hc
              · cases hc
            · have := hb c hc
              rw [this] at he
              cases he

theorem process_table (h : (process o X required fs s).out = .table) :
    ∃ g ls s1 s2, Succeeded o X (required (ls.map (·.cu))) fs s (process o X required fs s).state g ls s1 s2 ∧
      ∀ c ∈ (process o X required fs s).calls, c.isError = true →
        c ∈ (X.lint g s2).calls ∨ c ∈ X.notes ls (process o X required fs s).state := by
  unfold process at h ⊢
  split at h
  · cases h
  · cases h
  · next g ls s1 h1 =>
    dsimp only at h ⊢
    obtain ⟨k1, s2, k2, k3, k4, k5⟩ := analyse_table h
    refine ⟨g, ls, s1, s2, ⟨loadAll_ok globalTable_pkgTab h1, ?_, k2, k3, k4⟩, ?_⟩
    · intro l hl
      have := List.all_eq_true.1 k1 l hl
      simpa using this
    · intro c hc he
      rcases List.mem_append.1 hc with hc | hc
      · exact .inl (k5 c hc he)
      · exact .inr hc

/-! ## C39 -/

/-- The messages of the linter and the other hints are no errors, and the linter does not return
`False` (`trlc/lint.py`; without verification `perform_sanity_checks` never returns `False`, though it
can raise an internal exception, see `Props/Lint.lean`). -/
structure Outside.Sane (X : Outside) : Prop where
  lint : ∀ g s, (X.lint g s).out ≠ some false
  calls : ∀ g s, ∀ c ∈ (X.lint g s).calls, c.isError = false
  notes : ∀ ls s, ∀ c ∈ X.notes ls s, c.isError = false

/-- The state has the errors of `s` and further ones. -/
def Grown (s s' : PS) : Prop := ∃ es, s'.errs = s.errs ++ es

theorem Grown.trans {a b c : PS} (h : Grown a b) (h' : Grown b c) : Grown a c := by
  obtain ⟨l, hl⟩ := h
  obtain ⟨l', hl'⟩ := h'
  exact ⟨l ++ l', by rw [hl', hl, List.append_assoc]⟩

theorem Grown.le {a b : PS} (h : Grown a b) : a.errs.length ≤ b.errs.length := by
  obtain ⟨l, hl⟩ := h
  rw [hl, List.length_append]
  omega

theorem tells_grown {x : P Bool} (h : Tells x) (s : PS) : Grown s (x s).state := by
  have := h s
  unfold TellsR at this
  split at this
  · next hx => rw [hx]; obtain ⟨l, h1, -⟩ := this; exact ⟨l, h1⟩
  · next hx => rw [hx]; obtain ⟨l, h1, -⟩ := this; exact ⟨l, h1⟩
  · next hx => rw [hx]; obtain ⟨l, h1, -⟩ := this; exact ⟨l, h1⟩
  · next hx => rw [hx]; exact this

theorem tells_fail {x : P Bool} (h : Tells x) {s s' : PS} (hx : x s = .ok false s' ∨ x s = .err s') :
    s.errs.length < s'.errs.length := by
  have := h s
  have h' : ∃ l, s'.errs = s.errs ++ l ∧ l ≠ [] := by
    rcases hx with hx | hx <;> (rw [hx] at this; exact this)
  obtain ⟨l, h1, h2⟩ := h'
  rw [h1, List.length_append]
  have := List.length_pos_iff.2 h2
  omega

theorem countP_pos {l : List MHCall} {p : MHCall → Bool} (h : ∃ c ∈ l, p c = true) : 0 < l.countP p :=
  List.countP_pos_iff.2 h

theorem finish_none {g : STab} {R : Finset PNode} {ls : List Loaded} {ok : Bool} {calls : List MHCall}
    (h : (finish o X g R ls ok calls s).out = .none) :
    s.errs.length ≤ (finish o X g R ls ok calls s).state.errs.length ∧
    (ok = true → s.errs.length < (finish o X g R ls ok calls s).errors) := by
  have ht : Tells (runTrlc g o.recover R ls) := runTrlcFiles_tells _
  have hg := (tells_grown ht s).le
  unfold finish at h ⊢
  split at h
  · cases h
  · next s1 h1 =>
    have := tells_fail ht (.inr h1)
    refine ⟨?_, fun _ => ?_⟩
    · dsimp only; omega
    · unfold ProcOut.errors; dsimp only; omega
  · next s1 h1 =>
    have := tells_fail ht (.inl h1)
    refine ⟨?_, fun _ => ?_⟩
    · dsimp only; omega
    · unfold ProcOut.errors; dsimp only; omega
  · next s1 h1 =>
    rw [h1] at hg
    have hg : s.errs.length ≤ s1.errs.length := hg
    dsimp only at h ⊢
    split at h
    · next h2 =>
      rw [if_pos h2]
      have := List.length_pos_iff.2 h2
      refine ⟨?_, fun _ => ?_⟩
      · dsimp only
        rw [List.length_append]; omega
      · unfold ProcOut.errors
        dsimp only
        rw [List.length_append]; omega
    · next h2 =>
      rw [if_neg h2]
      split at h
      · next h3 =>
        rw [if_pos h3]
        refine ⟨?_, fun h4 => ?_⟩
        · dsimp only
          rw [List.length_append]; omega
        · rw [h4] at h3; cases h3
      · next h3 =>
        rw [if_neg h3]
        have hb := performChecks_blames { s1 with errs := s1.errs ++ s1.resolveAll g } g s1.checks X.rx.search X.locs
        unfold Blames at hb
        split at h
        · cases h
        · next h4 =>
          rw [h4] at hb
          dsimp only at hb
          have hpos := countP_pos hb
          have e0 : s1.resolveAll g = [] := by simpa using h2
          refine ⟨?_, fun _ => ?_⟩
          · dsimp only
            rw [List.length_append]; omega
          · unfold ProcOut.errors
            dsimp only
            rw [List.countP_append]
            refine Nat.lt_of_le_of_lt hg ?_
            rw [List.length_append]
            exact Nat.lt_of_lt_of_le (Nat.lt_add_of_pos_right hpos) (by omega)
        · next h4 =>
          rw [h4] at hb
          dsimp only at hb
          have hpos := countP_pos hb
          have e0 : s1.resolveAll g = [] := by simpa using h2
          refine ⟨?_, fun _ => ?_⟩
          · dsimp only
            rw [List.length_append]; omega
          · unfold ProcOut.errors
            dsimp only
            rw [List.countP_append]
            refine Nat.lt_of_le_of_lt hg ?_
            rw [List.length_append]
            exact Nat.lt_of_lt_of_le (Nat.lt_add_of_pos_right hpos) (by omega)
        · cases h

theorem errors_le {r : ProcOut} : r.state.errs.length ≤ r.errors := by unfold ProcOut.errors; omega

theorem errors_mk {e : ProcEnd} {s : PS} {l : List MHCall} : s.errs.length ≤ (⟨e, s, l⟩ : ProcOut).errors := by
  unfold ProcOut.errors; dsimp only; omega

theorem analyse_none {g : STab} {R : Finset PNode} {ls : List Loaded} {ok : Bool}
    (hX : ∀ g s, (X.lint g s).out ≠ some false) (h : (analyse o X g R ls ok s).out = .none) :
    s.errs.length ≤ (analyse o X g R ls ok s).errors ∧
    (ok = true → s.errs.length < (analyse o X g R ls ok s).errors) := by
  have ht := runRsl_tells g o.recover X.rx R ls
  have hg := (tells_grown ht s).le
  unfold analyse at h ⊢
  split at h
  · cases h
  · next s1 h1 =>
    have := tells_fail ht (.inr h1)
    refine ⟨?_, fun _ => ?_⟩
    · exact Nat.le_trans (Nat.le_of_lt this) errors_mk
    · exact Nat.lt_of_lt_of_le this errors_mk
  · next b s1 h1 =>
    rw [h1] at hg
    have hg : s.errs.length ≤ s1.errs.length := hg
    have key : ok = true → (ok && b) = false → s.errs.length < s1.errs.length := by
      intro h2 h3
      rw [h2] at h3
      cases b
      · exact tells_fail ht (.inl h1)
      · cases h3
    dsimp only at h ⊢
    split at h
    · next h2 =>
      rw [if_pos h2]
      refine ⟨Nat.le_trans hg errors_mk, fun h3 => ?_⟩
      simp only [Bool.and_eq_true, Bool.not_eq_true'] at h2
      exact Nat.lt_of_lt_of_le (key h3 h2.2) errors_mk
    · next h2 =>
      rw [if_neg h2]
      split at h
      · cases h
      · next b2 h3 =>
        have hb2 : b2 = true := by
          cases b2
          · exfalso
            revert h3
            split
            · exact hX _ _
            · simp
          · rfl
        subst hb2
        split at h
        · next h4 =>
          rw [if_pos h4]
          dsimp only at h
          split at h
          · cases h
          · next h5 =>
            refine ⟨Nat.le_trans hg errors_mk, fun h6 => ?_⟩
            refine Nat.lt_of_lt_of_le (key h6 ?_) errors_mk
            simpa using h5
        · next h4 =>
          rw [if_neg h4]
          obtain ⟨k1, k2⟩ := finish_none h
          refine ⟨Nat.le_trans hg (Nat.le_trans k1 errors_le), fun h6 => ?_⟩
          rcases Bool.eq_false_or_eq_true (ok && b) with h7 | h7
          · exact Nat.lt_of_le_of_lt hg (k2 (by rw [h7]; rfl))
          · exact Nat.lt_of_lt_of_le (key h6 h7) (Nat.le_trans k1 errors_le)

/-- **C39**, first half: when `process` returns `None`, at least one error was reported. -/
theorem C39_none_reported (hX : ∀ g s, (X.lint g s).out ≠ some false)
    (h : (process o X required fs s).out = .none) :
    s.errs.length < (process o X required fs s).errors := by
  unfold process at h ⊢
  split at h
  · cases h
  · next h1 => exact absurd h1 loadAll_no_err
  · next g ls s1 h1 =>
    have hb := loadAll_ok globalTable_pkgTab h1
    dsimp only at h ⊢
    obtain ⟨k1, k2⟩ := analyse_none hX h
    have e1 : (s1.withPackages g).errs = s1.errs := rfl
    rw [e1] at k1 k2
    obtain ⟨es, he⟩ := hb.quiet.errs
    have hle : s.errs.length ≤ s1.errs.length := by rw [he, List.length_append]; omega
    have hm : ∀ r : ProcOut, r.errors ≤
        ({ r with calls := r.calls ++ X.notes ls r.state } : ProcOut).errors := by
      intro r
      unfold ProcOut.errors
      dsimp only
      rw [List.countP_append]
      omega
    refine Nat.lt_of_lt_of_le ?_ (hm _)
    cases hok : ls.all fun l => !l.cu.err
    · have : ∃ l ∈ ls, l.cu.err = true := by
        have := List.all_eq_false.1 hok
        simpa using this
      obtain ⟨es, h2, h3⟩ := hb.bad this
      have := List.length_pos_iff.2 h3
      rw [hok] at k1
      have : s.errs.length < s1.errs.length := by rw [h2, List.length_append]; omega
      exact Nat.lt_of_lt_of_le this k1
    · rw [hok] at k2
      exact Nat.lt_of_le_of_lt hle (k2 rfl)

/-- **C39**, second half: when `process` returns the symbol table, no error was reported except for
the kinds that do not count: a missing comma, a wrong number of array elements, a duplicate in a
union type, a line break in a message (`Soft`), and imports that can not be resolved.

Missing: these are errors all the same (`C39_violated`). -/
theorem C39_table_partial (hX : Outside.Sane X) (h : (process o X required fs s).out = .table) :
    (process o X required fs s).calls.countP MHCall.isError = 0 ∧
    ∃ es, (process o X required fs s).state.errs = s.errs ++ es ∧
      ∀ e ∈ es, Soft e ∨ ∃ x, e = .sym x := by
  obtain ⟨g, ls, s1, s2, k, kc⟩ := process_table h
  constructor
  · rw [List.countP_eq_zero]
    intro c hc he
    rcases kc c hc he with hc | hc
    · rw [hX.calls _ _ c hc] at he; cases he
    · rw [hX.notes _ _ c hc] at he; cases he
  · obtain ⟨e1, h1, h2⟩ := k.built.good k.noErr
    have t1 := runRsl_tells g o.recover X.rx (required (ls.map (·.cu))) ls (s1.withPackages g)
    rw [k.rsl] at t1
    obtain ⟨e2, h3, h4⟩ := t1
    have h3 : s2.errs = s1.errs ++ e2 := h3
    cases hp : o.parseTrlc with
    | false =>
      rw [k.rslOnly hp]
      refine ⟨e1 ++ e2, by rw [h3, h1, List.append_assoc], ?_⟩
      intro e he
      rcases List.mem_append.1 he with he | he
      · exact h2 e he
      · exact .inl (h4 e he)
    | true =>
      have t2 := runTrlcFiles_tells
        ((trlcFiles (required (ls.map (·.cu))) ls).map (·.openFile g o.recover)) s2
      have := (k.trlc hp).1
      unfold runTrlc at this
      rw [this] at t2
      obtain ⟨e3, h5, h6⟩ := t2
      refine ⟨e1 ++ e2 ++ e3, by rw [h5, h3, h1]; simp only [List.append_assoc], ?_⟩
      intro e he
      simp only [List.mem_append] at he
      rcases he with (he | he) | he
      · exact h2 e he
      · exact .inl (h4 e he)
      · exact .inl (h6 e he)

/-! ## C40 -/

theorem processAll_none {includes : List SrcFile} (hX : ∀ g s, (X.lint g s).out ≠ some false)
    (h : (processAll o X required fs includes s).out = .none) :
    s.errs.length < (processAll o X required fs includes s).errors := by
  unfold processAll at h ⊢
  split at h
  · cases h
  · next h1 => exact absurd h1 registerFiles_no_err
  · next more b s1 h1 =>
    have hr := registerFiles_ok h1
    obtain ⟨es, he⟩ := hr.quiet.errs
    have := C39_none_reported hX h
    rw [he, List.length_append] at this
    omega

theorem runTool_none {files includes : List SrcFile} (hX : ∀ g s, (X.lint g s).out ≠ some false)
    (h : (runTool o X required files includes).out = .none) :
    0 < (runTool o X required files includes).errors := by
  unfold runTool at h ⊢
  split at h
  · cases h
  · next h1 => exact absurd h1 registerFiles_no_err
  · next srcs b s1 h1 =>
    have hr := registerFiles_ok h1
    split at h
    · next hb =>
      rw [if_pos hb]
      exact Nat.lt_of_le_of_lt (Nat.zero_le _) (processAll_none hX h)
    · next hb =>
      rw [if_neg hb]
      obtain ⟨es, h2, h3⟩ := hr.bad (by simpa using hb)
      refine Nat.lt_of_lt_of_le ?_ errors_le
      dsimp only
      rw [h2, List.length_append]
      have := List.length_pos_iff.2 h3
      omega

/-- **C40**: unless the tool ends with an internal exception, it exits with 0 iff no error was
reported while registering or processing the files and - if warnings are treated as errors - no
warning; otherwise it exits with 1. -/
theorem C40_exit {files includes : List SrcFile} {eow : Bool} (hX : ∀ g s, (X.lint g s).out ≠ some false)
    (hc : ∀ c, (runTool o X required files includes).out ≠ .crash c) :
    commandLine eow (runTool o X required files includes) =
      .code (if (runTool o X required files includes).errors = 0 ∧
        (eow = true → (runTool o X required files includes).warnings = 0) then 0 else 1) := by
  unfold commandLine
  cases h : (runTool o X required files includes).out with
  | crash c => exact absurd h (hc c)
  | none =>
    have := runTool_none hX h
    have hn : ¬ ((runTool o X required files includes).errors = 0 ∧
        (eow = true → (runTool o X required files includes).warnings = 0)) := by
      rintro ⟨h1, -⟩; omega
    rw [if_neg hn]
  | table =>
    dsimp only
    congr 1
    by_cases h1 : (runTool o X required files includes).errors = 0
    · by_cases h2 : (runTool o X required files includes).warnings = 0
      · simp [h1, h2]
      · cases eow <;> simp [h1, h2]
    · simp [h1]

end Verif.Props
