import Verif.Lemmas.Recovery
import Verif.Props.RunSamples
/-!
# C83: error recovery does not change the result

`Source_Manager(error_recovery=False)` and `--no-error-recovery`: files are accepted with the same result, and
files are rejected with the same first error.
-/
namespace Verif.Props
open Verif.Model Verif.Spec Verif.Lemmas
open Verif.Lemmas.Recovery (Agree FileAgree Fails FileFails)

variable {o : Options} {X : Outside} {required : List CU → Finset PNode} {fs : List Source} {s : PS}

/-- With error recovery -/
abbrev _root_.Verif.Model.Options.on (o : Options) : Options := { o with recover := true }

/-- Without error recovery -/
abbrev _root_.Verif.Model.Options.off (o : Options) : Options := { o with recover := false }

/-! ## The parts of a run -/

theorem finish_errs {g : STab} {R : Finset PNode} {ls : List Loaded} {ok : Bool} {calls : List MHCall} :
    (runTrlc g o.recover R ls s).state.errs <+: (finish o X g R ls ok calls s).state.errs := by
  unfold finish
  split
  · next h => rw [h]; exact List.prefix_refl _
  · next h => rw [h]; exact List.prefix_refl _
  · next h => rw [h]; exact List.prefix_refl _
  · next s' h =>
    rw [h]
    have : s'.errs <+: ({ s' with errs := s'.errs ++ s'.resolveAll g } : PS).errs := List.prefix_append ..
    dsimp only
    split
    · exact this
    · split
      · exact this
      · split <;> exact this

theorem analyse_errs {g : STab} {R : Finset PNode} {ls : List Loaded} {ok : Bool} :
    (runRsl g o.recover X.rx R ls s).state.errs <+: (analyse o X g R ls ok s).state.errs := by
  unfold analyse
  split
  · next h => rw [h]; exact List.prefix_refl _
  · next h => rw [h]; exact List.prefix_refl _
  · next b s' h =>
    rw [h]
    dsimp only
    split
    · exact List.prefix_refl _
    · split
      · exact List.prefix_refl _
      · split
        · exact List.prefix_refl _
        · exact (Recovery.prefix_grows (Recovery.Tells.grows (runTrlcFiles_tells _)) (List.prefix_refl _)).trans
            finish_errs

/-- Both runs end without a table, and report the same errors first. -/
structure BothFail (s : PS) (r n : ProcOut) : Prop where
  on   : r.out ≠ .table
  off  : n.out ≠ .table
  errs : ∃ l, l ≠ [] ∧ s.errs ++ l <+: r.state.errs ∧ s.errs ++ l <+: n.state.errs

theorem BothFail.of {s1 : PS} {l : List PErr} {r n : ProcOut} (h : BothFail s1 r n)
    (e : s1.errs = s.errs ++ l) : BothFail s r n :=
  ⟨h.on, h.off, by
    obtain ⟨l', h1, h2, h3⟩ := h.errs
    rw [e, List.append_assoc] at h2 h3
    exact ⟨l ++ l', by simp [h1], h2, h3⟩⟩

theorem finish_agree {g : STab} {R : Finset PNode} {ls : List Loaded} {ok : Bool} {calls : List MHCall} :
    finish o.on X g R ls ok calls s = finish o.off X g R ls ok calls s ∨
      BothFail s (finish o.on X g R ls ok calls s) (finish o.off X g R ls ok calls s) := by
  rcases Recovery.runTrlc_agree g R ls s with h | h
  · exact .inl (by unfold finish; dsimp only; rw [h])
  · obtain ⟨l, h1, h2, h3⟩ := h.errs
    exact .inr ⟨fun k => h.on _ (finish_table k).2.1, fun k => h.off _ (finish_table k).2.1, l, h1,
      h2.trans (finish_errs (o := o.on)), h3.trans (finish_errs (o := o.off))⟩

theorem analyse_agree {g : STab} {R : Finset PNode} {ls : List Loaded} :
    analyse o.on X g R ls true s = analyse o.off X g R ls true s ∨
      BothFail s (analyse o.on X g R ls true s) (analyse o.off X g R ls true s) := by
  have hn : ∀ {o : Options}, (∀ s', runRsl g o.recover X.rx R ls s ≠ .ok true s') →
      (analyse o X g R ls true s).out ≠ .table := fun h k => by
    obtain ⟨-, s2, k, -⟩ := analyse_table k
    exact h _ k
  rcases Recovery.runRsl_agree g X.rx R ls s with h | h
  · have ht := runRsl_tells g true X.rx R ls s
    cases hr : runRsl g true X.rx R ls s with
    | crash c s' =>
      rw [hr] at h
      exact .inl (by unfold analyse; dsimp only; rw [hr, ← h])
    | err s' =>
      rw [hr] at h
      exact .inl (by unfold analyse; dsimp only; rw [hr, ← h])
    | ok b s' =>
      rw [hr] at h ht
      cases b
      · obtain ⟨l, h1, h2⟩ := ht
        refine .inr ⟨hn fun s' => by rw [hr]; simp, hn fun s' => by rw [← h]; simp, l, h2, ?_, ?_⟩
        · have := analyse_errs (o := o.on) (X := X) (s := s) (g := g) (R := R) (ls := ls) (ok := true)
          rw [hr] at this
          rw [← h1]; exact this
        · have := analyse_errs (o := o.off) (X := X) (s := s) (g := g) (R := R) (ls := ls) (ok := true)
          rw [← h] at this
          rw [← h1]; exact this
      · obtain ⟨l, h1, -⟩ := ht
        unfold analyse
        dsimp only
        rw [hr, ← h]
        simp only [Bool.and_true, Bool.not_true, Bool.and_false, Bool.false_eq_true, if_false]
        split
        · exact .inl rfl
        · split
          · exact .inl rfl
          · rcases finish_agree (o := o) (X := X) (s := s') (g := g) (R := R) (ls := ls) with h3 | h3
            · exact .inl h3
            · exact .inr (h3.of h1)
  · obtain ⟨l, h1, h2, h3⟩ := h.errs
    exact .inr ⟨hn h.on, hn h.off, l, h1, h2.trans (analyse_errs (o := o.on)),
      h3.trans (analyse_errs (o := o.off))⟩

theorem analyse_grows {g : STab} {R : Finset PNode} {ls : List Loaded} {ok : Bool} :
    s.errs <+: (analyse o X g R ls ok s).state.errs :=
  (Recovery.prefix_grows (Recovery.Tells.grows (runRsl_tells g o.recover X.rx R ls)) (List.prefix_refl _)).trans
    analyse_errs

theorem process_agree : process o.on X required fs s = process o.off X required fs s ∨
    BothFail s (process o.on X required fs s) (process o.off X required fs s) := by
  unfold process
  split
  · exact .inl rfl
  · exact .inl rfl
  · next g ls s1 h1 =>
    have k := loadAll_ok globalTable_pkgTab h1
    dsimp only
    cases hb : ls.all fun l => !l.cu.err
    · have hx : ∃ l ∈ ls, l.cu.err = true := by
        have := List.all_eq_false.1 hb
        simpa using this
      obtain ⟨es, e1, e2⟩ := k.bad hx
      refine .inr ⟨fun h => ?_, fun h => ?_, es, e2, ?_, ?_⟩
      · cases (analyse_table (o := o.on) h).1
      · cases (analyse_table (o := o.off) h).1
      · rw [← e1]; exact analyse_grows (s := s1.withPackages g)
      · rw [← e1]; exact analyse_grows (s := s1.withPackages g)
    · have hx : ∀ l ∈ ls, l.cu.err = false := fun l hl => by
        have := List.all_eq_true.1 hb l hl
        simpa using this
      obtain ⟨es, e1, -⟩ := k.good hx
      rcases analyse_agree (o := o) (X := X) (s := s1.withPackages g) (g := g)
        (R := required (ls.map (·.cu))) (ls := ls) with h | h
      · exact .inl (by rw [h])
      · obtain ⟨l, h1, h2, h3⟩ := (h.of (s := s) (l := es) e1).errs
        exact .inr ⟨h.on, h.off, l, h1, h2, h3⟩

/-! ## C83 -/

/-- **C83** `process` with and without error recovery: the whole outcome is the same, with the state of all
declarations and objects and all messages; or neither returns a table and both report the same error first. -/
theorem C83_same : process o.on X required fs s = process o.off X required fs s ∨
    ((process o.on X required fs s).out ≠ .table ∧ (process o.off X required fs s).out ≠ .table ∧
      ∃ e, (s.errs ++ [e]) <+: (process o.on X required fs s).state.errs ∧
        (s.errs ++ [e]) <+: (process o.off X required fs s).state.errs) := by
  rcases process_agree (o := o) (X := X) (required := required) (fs := fs) (s := s) with h | ⟨h1, h2, l, h3, h4, h5⟩
  · exact .inl h
  · cases l with
    | nil => exact absurd rfl h3
    | cons e l =>
      have : s.errs ++ [e] <+: s.errs ++ e :: l := ⟨l, by simp⟩
      exact .inr ⟨h1, h2, e, this.trans h4, this.trans h5⟩

/-- **C83** a table is returned with error recovery if and only if it is returned without, and then nothing else
differs. -/
theorem C83_table : ((process o.on X required fs s).out = .table ↔ (process o.off X required fs s).out = .table) ∧
    ((process o.on X required fs s).out = .table → process o.on X required fs s = process o.off X required fs s) := by
  rcases C83_same (o := o) (X := X) (required := required) (fs := fs) (s := s) with h | ⟨h1, h2, -⟩
  · rw [h]; exact ⟨Iff.rfl, fun _ => rfl⟩
  · exact ⟨⟨fun h => absurd h h1, fun h => absurd h h2⟩, fun h => absurd h h1⟩

/-- **C83** if one of the runs reports no error while it reads files, nothing differs. -/
theorem C83_clean (h : (process o.on X required fs s).state.errs = s.errs ∨
    (process o.off X required fs s).state.errs = s.errs) :
    process o.on X required fs s = process o.off X required fs s := by
  rcases C83_same (o := o) (X := X) (required := required) (fs := fs) (s := s) with h1 | ⟨-, -, e, h2, h3⟩
  · exact h1
  · rcases h with h | h
    · rw [h] at h2
      have := h2.length_le
      simp at this
    · rw [h] at h3
      have := h3.length_le
      simp at this

/-- **C83** one requirement file: with the same declarations and objects so far, nothing differs, or the file is
rejected in both cases, and what is reported without recovery is what is reported first with recovery. -/
theorem C83_trlc {f : OpenFile} (hf : f.env.recover = true) :
    runTrlcFile f s = runTrlcFile { f with env := { f.env with recover := false } } s ∨
    ((∀ s', runTrlcFile f s ≠ .ok true s') ∧
      (∀ s', runTrlcFile { f with env := { f.env with recover := false } } s ≠ .ok true s') ∧
      (runTrlcFile { f with env := { f.env with recover := false } } s).state.errs <+:
        (runTrlcFile f s).state.errs) := by
  have e : Recovery.setFile f true = f := by
    unfold Recovery.setFile Recovery.set
    rw [← hf]
  have := Recovery.runTrlcFile_agree f s
  rw [e] at this
  exact this.imp id fun h => ⟨h.on, h.off, h.errs⟩

/-- **C83** the same for a file with declarations. -/
theorem C83_rsl {rx : Regex} {f : OpenFile} (hf : f.env.recover = true) :
    runRslFile rx f s = runRslFile rx { f with env := { f.env with recover := false } } s ∨
    ((∀ s', runRslFile rx f s ≠ .ok true s') ∧
      (∀ s', runRslFile rx { f with env := { f.env with recover := false } } s ≠ .ok true s') ∧
      (runRslFile rx { f with env := { f.env with recover := false } } s).state.errs <+:
        (runRslFile rx f s).state.errs) := by
  have e : Recovery.setFile f true = f := by
    unfold Recovery.setFile Recovery.set
    rw [← hf]
  have := Recovery.runRslFile_agree rx f s
  rw [e] at this
  exact this.imp id fun h => ⟨h.on, h.off, h.errs⟩

/-- **C83** the command line tool: unless one of the runs ends with an internal exception, the exit code is the
same with and without `--no-error-recovery`. -/
theorem C83_exit {w : Bool} {files includes : List SrcFile} {a b : Nat}
    (h1 : commandLine w (runTool o.on X required files includes) = .code a)
    (h2 : commandLine w (runTool o.off X required files includes) = .code b) : a = b := by
  unfold runTool at h1 h2
  dsimp only at h1 h2
  split at h1
  · next h => rw [h] at h2; cases h1
  · next h => rw [h] at h2; exact Exit.code.inj (h1.symm.trans h2)
  · next h =>
    rw [h] at h2
    dsimp only at h2
    split at h1
    · next hk =>
      rw [if_pos hk] at h2
      unfold processAll at h1 h2
      dsimp only at h1 h2
      split at h1
      · cases h1
      · next h => rw [h] at h2; exact Exit.code.inj (h1.symm.trans h2)
      · next h =>
        rw [h] at h2
        dsimp only at h2
        rcases process_agree (o := o) (X := X) (required := required) with k | k
        · rw [k] at h1
          exact Exit.code.inj (h1.symm.trans h2)
        · have hx : ∀ {r : ProcOut} {c : Nat}, r.out ≠ .table → commandLine w r = .code c → c = 1 := by
            intro r c hr hc
            unfold commandLine at hc
            split at hc
            · cases hc
            · cases hc; rfl
            · next h => exact absurd h hr
          rw [hx k.on h1, hx k.off h2]
    · next hk =>
      rw [if_neg hk] at h2
      exact Exit.code.inj (h1.symm.trans h2)

/-! ## Samples -/

namespace RecoverySample

/-- two wrong declarations -/
def rsl : SrcFile := ⟨"p.rsl", .rsl, true, "package P
type A { n Missing }
type B { m Integer }
type C extends D { k Integer }".toList⟩

def run (b : Bool) (fs : List SrcFile) : ProcOut :=
  process { RunSample.options with recover := b } RunSample.outside (fun _ => ∅) (RunSample.opened fs).1
    (RunSample.opened fs).2

set_option maxRecDepth 100000 in
/-- with recovery both errors are reported, without recovery only the first -/
example : (run true [rsl]).state.errs.length = 2 ∧ (run false [rsl]).state.errs.length = 1 ∧
    (run true [rsl]).out = .none ∧ (run false [rsl]).out = .none := by decide +kernel

/-- a declaration after a wrong one, and a file that needs it -/
def files : List SrcFile := [⟨"p.rsl", .rsl, true, "package P
type A { n Missing }
type B { m Integer }".toList⟩, ⟨"q.rsl", .rsl, true, "package Q import P
type C { k P.B }".toList⟩]

set_option maxRecDepth 100000 in
/-- only the first error is common: without recovery there can be errors that are not reported with recovery,
since the declarations after the first error are missing -/
example : (run true files).state.errs.length = 1 ∧ (run false files).state.errs.length = 2 ∧
    (run true files).state.errs.head? = (run false files).state.errs.head? := by decide +kernel

attribute [local irreducible] RunSample.opened process in
/-- files that are accepted: C83 applies -/
example : (run false [RunSample.rsl, RunSample.trlc]).out = .table :=
  (C83_table (o := RunSample.options)).1.1 (RunSample.run_table fun _ => ∅)

end RecoverySample

end Verif.Props
