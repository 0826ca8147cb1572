import Verif.Lemmas.Process
/-!
# Registering files
-/
namespace Verif.Lemmas
open Verif.Model Verif.Spec

/-- The parser of the file stands before the first token. -/
def AtStart (f : Source) : Prop :=
  sourceWords f = tokensOf (lexStream (f.file.content.length + 1) (LexState.init f.file.content))

theorem createParser_ok {f : SrcFile} {x : Source} {s s' : PS} (h : createParser f s = .ok x s') :
    Quiet s s' ∧ s'.errs = s.errs ∧ x.file = f ∧ AtStart x := by
  unfold createParser at h
  split at h
  · next u s1 h1 =>
    cases h
    have q := (advance_sp.ok h1).1
    obtain ⟨nt, rest, e⟩ := advanceLoop_same _ _ _ h1
    refine ⟨⟨q.decls, q.infos, q.seps, q.tabs, q.objs, q.nid, q.checks, q.errs⟩, by rw [e], rfl, ?_⟩
    exact advanceLoop_words _ _ _ h1
  · cases h
  · cases h

theorem createParser_err {f : SrcFile} {s s' : PS} (h : createParser f s = .err s') :
    Quiet s s' ∧ ∃ es, s'.errs = s.errs ++ es ∧ es ≠ [] := by
  unfold createParser at h
  split at h
  · cases h
  · next s1 h1 =>
    cases h
    have q := advance_sp.err h1
    obtain ⟨l, h2, h3⟩ := (inferInstance : Says P.advance).err h1
    exact ⟨⟨q.decls, q.infos, q.seps, q.tabs, q.objs, q.nid, q.checks, q.errs⟩, l, h2, h3⟩
  · cases h

/-- What is known after files were registered -/
structure Registered (parseTrlc : Bool) (fs : List SrcFile) (s : PS) (srcs : List Source) (ok : Bool)
    (s' : PS) : Prop where
  quiet : Quiet s s'
  good : ok = true → s'.errs = s.errs ∧
    srcs.map (·.file) = fs.filter fun f => !(decide (f.kind = .trlc) && !parseTrlc)
  bad : ok = false → ∃ es, s'.errs = s.errs ++ es ∧ es ≠ []
  start : ∀ x ∈ srcs, AtStart x ∧ x.file ∈ fs

theorem registerFile_ok {pt : Bool} {f : SrcFile} {s s' : PS} {r : Option Source} {b : Bool}
    (h : registerFile pt f s = .ok (r, b) s') : Registered pt [f] s r.toList b s' := by
  unfold registerFile at h
  split at h
  · next hc =>
    cases h
    refine ⟨Quiet.refl _, fun _ => ⟨rfl, ?_⟩, by simp, by simp⟩
    simp only [Bool.and_eq_true, decide_eq_true_eq, Bool.not_eq_true'] at hc
    simp [hc.1, hc.2]
  · next hc =>
    unfold P.tryCatch at h
    rw [bind_apply] at h
    cases h1 : createParser f s with
    | ok x s1 =>
      rw [h1] at h
      cases h
      obtain ⟨h2, h3, h4, h5⟩ := createParser_ok h1
      refine ⟨h2, fun _ => ⟨h3, ?_⟩, by simp, ?_⟩
      · rw [List.filter_cons_of_pos (by cases pt <;> simp_all)]
        simp [h4]
      · intro y hy
        simp only [Option.toList_some, List.mem_singleton] at hy
        subst hy
        exact ⟨h5, by rw [h4]; simp⟩
    | err s1 =>
      rw [h1] at h
      cases h
      obtain ⟨h2, h3⟩ := createParser_err h1
      exact ⟨h2, by simp, fun _ => h3, by simp⟩
    | crash c s1 => rw [h1] at h; cases h

theorem registerFile_no_err {pt : Bool} {f : SrcFile} {s s' : PS} : registerFile pt f s ≠ .err s' := by
  unfold registerFile
  split
  · intro h; cases h
  · unfold P.tryCatch
    rw [bind_apply]
    cases h1 : createParser f s <;> (intro h; cases h)

theorem registerFiles_ok {pt : Bool} {fs : List SrcFile} {s s' : PS} {srcs : List Source} {b : Bool}
    (h : registerFiles pt fs s = .ok (srcs, b) s') : Registered pt fs s srcs b s' := by
  induction fs generalizing s srcs b with
  | nil => cases h; exact ⟨Quiet.refl _, fun _ => ⟨rfl, rfl⟩, by simp, by simp⟩
  | cons f fs ih =>
    unfold registerFiles at h
    rw [bind_apply] at h
    split at h
    · next r s1 h1 =>
      obtain ⟨o, b1⟩ := r
      have k1 := registerFile_ok h1
      rw [bind_apply] at h
      split at h
      · next r2 s2 h2 =>
        obtain ⟨srcs2, b2⟩ := r2
        cases h
        have k2 := ih h2
        refine ⟨k1.quiet.trans k2.quiet, ?_, ?_, ?_⟩
        · intro hb
          simp only [Bool.and_eq_true] at hb
          obtain ⟨e1, e2⟩ := k1.good hb.1
          obtain ⟨e3, e4⟩ := k2.good hb.2
          refine ⟨e3.trans e1, ?_⟩
          rw [List.map_append, e2, e4, ← List.filter_append]
          rfl
        · intro hb
          obtain ⟨l1, q1⟩ := k1.quiet.errs
          obtain ⟨l2, q2⟩ := k2.quiet.errs
          rcases Bool.and_eq_false_iff.1 hb with hb | hb
          · obtain ⟨es, e1, e2⟩ := k1.bad hb
            exact ⟨es ++ l2, by rw [q2, e1, List.append_assoc], by simp [e2]⟩
          · obtain ⟨es, e1, e2⟩ := k2.bad hb
            exact ⟨l1 ++ es, by rw [e1, q1, List.append_assoc], by simp [e2]⟩
        · intro x hx
          rcases List.mem_append.1 hx with hx | hx
          · obtain ⟨a, b⟩ := k1.start x hx
            exact ⟨a, by simp at b; simp [b]⟩
          · obtain ⟨a, b⟩ := k2.start x hx
            exact ⟨a, List.mem_cons_of_mem _ b⟩
      · cases h
      · cases h
    · cases h
    · cases h

theorem registerFiles_no_err {pt : Bool} {fs : List SrcFile} {s s' : PS} :
    registerFiles pt fs s ≠ .err s' := by
  induction fs generalizing s with
  | nil => intro h; cases h
  | cons f fs ih =>
    intro h
    unfold registerFiles at h
    rw [bind_apply] at h
    split at h
    · rw [bind_apply] at h
      split at h
      · cases h
      · next h2 => cases h; exact ih h2
      · cases h
    · next h1 => exact registerFile_no_err h1
    · cases h

end Verif.Lemmas
