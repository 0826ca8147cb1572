import Verif.Lemmas.Registering
import Verif.Props.Registration
/-!
# C49: the order in which files are given does not matter for the whole run
-/
namespace Verif.Props
open Verif.Model Verif.Spec Verif.Lemmas

namespace RunOrder

/-- Two states differ at most in what belongs to the parser of one file. -/
def Near (s s' : PS) : Prop := ∃ ct nt rest, s' = { s with ct := ct, nt := nt, rest := rest }

theorem Near.refl (s : PS) : Near s s := ⟨_, _, _, rfl⟩

theorem Near.symm {s s' : PS} (h : Near s s') : Near s' s := by
  obtain ⟨ct, nt, rest, rfl⟩ := h
  exact ⟨s.ct, s.nt, s.rest, rfl⟩

theorem Near.trans {s s' s'' : PS} (h : Near s s') (h' : Near s' s'') : Near s s'' := by
  obtain ⟨_, _, _, rfl⟩ := h
  obtain ⟨ct, nt, rest, rfl⟩ := h'
  exact ⟨ct, nt, rest, rfl⟩

theorem Near.use {s s' : PS} (h : Near s s') (f : Source) : s'.use f = s.use f := by
  obtain ⟨_, _, _, rfl⟩ := h
  rfl

theorem createParser_near {f : SrcFile} {s s' : PS} (h : Near s s') : createParser f s' = createParser f s := by
  obtain ⟨_, _, _, rfl⟩ := h
  rfl

/-- Registering a file gives the same parser and messages, whatever was registered before. -/
theorem registerFile_near {pt : Bool} {f : SrcFile} {s s' : PS} (h : Near s s') :
    match registerFile pt f s with
    | .ok x a => ∃ a', registerFile pt f s' = .ok x a' ∧ Near a a' ∧ (x.2 = true → Near s a)
    | .err a => registerFile pt f s' = .err a
    | .crash c a => registerFile pt f s' = .crash c a := by
  unfold registerFile
  by_cases hc : (decide (f.kind = .trlc) && !pt) = true
  · rw [if_pos hc]
    exact ⟨s', rfl, h, fun _ => Near.refl s⟩
  · rw [if_neg hc]
    unfold P.tryCatch
    simp only [bind_apply, createParser_near h]
    cases e : createParser f s with
    | ok x a =>
      refine ⟨a, rfl, .refl a, fun _ => ?_⟩
      unfold createParser at e
      split at e
      · next u a' e' =>
        cases e
        obtain ⟨nt, rest, e2⟩ := advanceLoop_same _ _ _ e'
        exact ⟨_, _, _, e2⟩
      · cases e
      · cases e
    | err a => exact ⟨a, rfl, .refl a, fun h => by cases h⟩
    | crash c a => rfl

theorem registerFiles_near {pt : Bool} : ∀ (fs : List SrcFile) {s s' : PS}, Near s s' →
    match registerFiles pt fs s with
    | .ok x a => ∃ a', registerFiles pt fs s' = .ok x a' ∧ Near a a' ∧ (x.2 = true → Near s a)
    | .err a => registerFiles pt fs s' = .err a
    | .crash c a => registerFiles pt fs s' = .crash c a
  | [], s, s', h => ⟨s', rfl, h, fun _ => Near.refl s⟩
  | f :: fs, s, s', h => by
    have k := registerFile_near (pt := pt) (f := f) h
    unfold registerFiles
    simp only [bind_apply]
    split at k
    · next x a e =>
      obtain ⟨a', e', h1, h2⟩ := k
      rw [e, e']
      dsimp only
      have k2 := registerFiles_near (pt := pt) fs h1
      split at k2
      · next y b e2 =>
        obtain ⟨b', e2', h3, h4⟩ := k2
        rw [e2, e2']
        refine ⟨b', rfl, h3, fun hb => ?_⟩
        have hb := Bool.and_eq_true_iff.1 hb
        exact (h2 hb.1).trans (h4 hb.2)
      · next b e2 =>
        rw [e2, k2]
      · next c b e2 =>
        rw [e2, k2]
    · next a e =>
      rw [e, k]
    · next c a e =>
      rw [e, k]

/-- Registration of several files succeeds iff it succeeds for each of them. -/
theorem registerFiles_cons {pt : Bool} {f : SrcFile} {fs : List SrcFile} {s a : PS} {xs : List Source} :
    registerFiles pt (f :: fs) s = .ok (xs, true) a ↔
      ∃ x b ys, registerFile pt f s = .ok (x, true) b ∧ registerFiles pt fs b = .ok (ys, true) a ∧ xs = x.toList ++ ys := by
  conv_lhs => unfold registerFiles
  simp only [bind_apply]
  constructor
  · intro h
    split at h
    · next r b e =>
      split at h
      · next q c e2 =>
        obtain ⟨x, b1⟩ := r
        obtain ⟨ys, b2⟩ := q
        simp only [pure_apply, PR.ok.injEq, Prod.mk.injEq, Bool.and_eq_true] at h
        obtain ⟨⟨rfl, rfl, rfl⟩, rfl⟩ := h
        exact ⟨x, b, ys, e, e2, rfl⟩
      · cases h
      · cases h
    · cases h
    · cases h
  · rintro ⟨x, b, ys, e, e2, rfl⟩
    rw [e]
    dsimp only
    rw [e2]
    rfl

theorem registerFile_moved {pt : Bool} {f : SrcFile} {s s' a : PS} {x : Option Source} (h : Near s s')
    (e : registerFile pt f s = .ok (x, true) a) : ∃ a', registerFile pt f s' = .ok (x, true) a' ∧ Near s' a' := by
  have k := registerFile_near (pt := pt) (f := f) h
  rw [e] at k
  obtain ⟨a', e', h1, h2⟩ := k
  exact ⟨a', e', (h.symm.trans (h2 rfl)).trans h1⟩

theorem registerFiles_moved {pt : Bool} {fs : List SrcFile} {s s' a : PS} {xs : List Source} (h : Near s s')
    (e : registerFiles pt fs s = .ok (xs, true) a) : ∃ a', registerFiles pt fs s' = .ok (xs, true) a' ∧ Near s' a' := by
  have k := registerFiles_near (pt := pt) fs h
  rw [e] at k
  obtain ⟨a', e', h1, h2⟩ := k
  exact ⟨a', e', (h.symm.trans (h2 rfl)).trans h1⟩

theorem registerFiles_perm {pt : Bool} {fs fs' : List SrcFile} (hp : fs.Perm fs') : ∀ {s a : PS} {xs : List Source},
    registerFiles pt fs s = .ok (xs, true) a →
    ∃ xs' a', registerFiles pt fs' s = .ok (xs', true) a' ∧ xs.Perm xs' ∧ Near a a' := by
  have near : ∀ {fs : List SrcFile} {s a : PS} {xs : List Source}, registerFiles pt fs s = .ok (xs, true) a → Near s a := by
    intro fs s a xs e
    have k := registerFiles_near (pt := pt) fs (Near.refl s)
    rw [e] at k
    obtain ⟨_, _, _, h⟩ := k
    exact h rfl
  induction hp with
  | nil => intro s a xs e; exact ⟨xs, a, e, .refl _, .refl _⟩
  | cons f _ ih =>
    intro s a xs e
    obtain ⟨x, b, ys, e1, e2, rfl⟩ := registerFiles_cons.1 e
    obtain ⟨ys', a', e3, hp, hn⟩ := ih e2
    exact ⟨_, a', registerFiles_cons.2 ⟨x, b, ys', e1, e3, rfl⟩, hp.append_left _, hn⟩
  | swap f g fs =>
    intro s a xs e
    obtain ⟨x, b, ys, e1, e2, rfl⟩ := registerFiles_cons.1 e
    obtain ⟨y, c, zs, e3, e4, rfl⟩ := registerFiles_cons.1 e2
    have hb : Near s b := by
      obtain ⟨b', e', h⟩ := registerFile_moved (Near.refl s) e1
      rw [e1] at e'
      cases e'
      exact h
    have hc : Near b c := by
      obtain ⟨b', e', h⟩ := registerFile_moved (Near.refl b) e3
      rw [e3] at e'
      cases e'
      exact h
    obtain ⟨b', e5, h5⟩ := registerFile_moved hb.symm e3
    obtain ⟨c', e6, h6⟩ := registerFile_moved h5 e1
    have hcc : Near c c' := hc.symm.trans (hb.symm.trans (h5.trans h6))
    obtain ⟨a', e7, h7⟩ := registerFiles_moved hcc e4
    refine ⟨_, a', registerFiles_cons.2 ⟨y, b', _, e5, registerFiles_cons.2 ⟨x, c', _, e6, e7, rfl⟩, rfl⟩, ?_,
      (near e4).symm.trans (hcc.trans h7)⟩
    rw [← List.append_assoc, ← List.append_assoc]
    exact List.perm_append_comm.append_right _
  | trans _ _ ih1 ih2 =>
    intro s a xs e
    obtain ⟨ys, b, e1, h1, n1⟩ := ih1 e
    obtain ⟨zs, c, e2, h2, n2⟩ := ih2 e1
    exact ⟨zs, c, e2, h1.trans h2, n1.trans n2⟩

theorem registerFiles_sublist {pt : Bool} : ∀ {fs : List SrcFile} {s a : PS} {x : List Source × Bool},
    registerFiles pt fs s = .ok x a → (x.1.map (·.file)).Sublist fs
  | [], _, _, _, h => by cases h; exact List.Sublist.refl _
  | f :: fs, s, a, x, h => by
    unfold registerFiles at h
    simp only [bind_apply] at h
    split at h
    · next r b e =>
      split at h
      · next q c e2 =>
        cases h
        have k := registerFiles_sublist e2
        have k1 := (registerFile_ok (r := r.1) (b := r.2) e).start
        have hl : ∀ o : Option Source, (∀ y ∈ o.toList, y.file ∈ [f]) → (o.toList.map (·.file)).Sublist [f] := by
          intro o ho
          cases o with
          | none => exact List.nil_sublist _
          | some y =>
            have := List.mem_singleton.1 (ho y (by simp))
            simp [this]
        rw [List.map_append]
        exact (hl r.1 fun y hy => (k1 y hy).2).append k
      · cases h
      · cases h
    · cases h
    · cases h

theorem sortSources_perm {fs fs' : List Source} (h : fs.Perm fs') (hn : (fs.map (·.file.name)).Nodup) (k : FKind) :
    sortSources (fs.filter (·.file.kind = k)) = sortSources (fs'.filter (·.file.kind = k)) := by
  unfold sortSources
  apply pySort_eq_of_perm
  · intro a b; exact pyLe_total _ _
  · intro a b c; exact pyLe_trans
  · exact h.filter _
  · intro a ha b hb h1 h2
    have he : a.file.name = b.file.name := String.toList_inj.mp (pyLe_antisymm h1 h2)
    exact List.inj_on_of_nodup_map hn (List.mem_filter.mp ha).1 (List.mem_filter.mp hb).1 he

theorem loadPreambles_near {g : STab} : ∀ (fs : List Source) {s s' : PS}, Near s s' → fs ≠ [] →
    loadPreambles g fs s' = loadPreambles g fs s
  | [], _, _, _, h => absurd rfl h
  | f :: fs, s, s', h, _ => by
    have e : loadPreamble g f s' = loadPreamble g f s := by unfold loadPreamble; rw [h.use f]
    unfold loadPreambles
    simp only [bind_apply, e]

theorem loadAll_near {g : STab} {fs : List Source} {s s' : PS} (h : Near s s') (hf : fs ≠ []) :
    loadAll g fs s' = loadAll g fs s := by
  unfold loadAll
  by_cases h1 : sortSources (fs.filter (·.file.kind = .rsl)) = []
  · have h2 : sortSources (fs.filter (·.file.kind = .trlc)) ≠ [] := by
      intro h2
      have p1 := pySort_perm (fun a b : Source => pyLe a.file.name.toList b.file.name.toList) (fs.filter (·.file.kind = .rsl))
      have p2 := pySort_perm (fun a b : Source => pyLe a.file.name.toList b.file.name.toList) (fs.filter (·.file.kind = .trlc))
      unfold sortSources at h1 h2
      rw [h1] at p1
      rw [h2] at p2
      obtain ⟨f, hm⟩ := List.exists_mem_of_ne_nil _ hf
      have a1 := List.filter_eq_nil_iff.1 p1.nil_eq.symm f hm
      have a2 := List.filter_eq_nil_iff.1 p2.nil_eq.symm f hm
      cases hk : f.file.kind <;> simp [hk] at a1 a2
    rw [h1]
    unfold loadPreambles resolveLoaded
    simp only [bind_apply, pure_apply, P.modify]
    have h3 : Near { s with errs := s.errs ++ List.flatMap (fun l : Loaded => importErrors g l.cu) [] }
        { s' with errs := s'.errs ++ List.flatMap (fun l : Loaded => importErrors g l.cu) [] } := by
      obtain ⟨_, _, _, rfl⟩ := h
      exact ⟨_, _, _, rfl⟩
    cases hl : sortSources (fs.filter (·.file.kind = .trlc)) with
    | nil => exact absurd hl h2
    | cons x xs =>
      dsimp only
      have k := loadPreambles_near (g := g) (x :: xs) h3 (by simp)
      unfold loadPreambles at k
      rw [k]
  · simp only [bind_apply, loadPreambles_near _ h h1]

/-- what the run does with registered files does not depend on their order -/
theorem process_perm {o : Options} {X : Outside} {required : List CU → Finset PNode} {fs fs' : List Source} {s s' : PS}
    (hp : fs.Perm fs') (hn : (fs.map (·.file.name)).Nodup) (h : Near s s') (he : fs = [] → s' = s) :
    process o X required fs' s' = process o X required fs s := by
  have e1 : loadAll globalTable fs' s' = loadAll globalTable fs s' := by
    unfold loadAll
    rw [sortSources_perm hp hn, sortSources_perm hp hn]
  have e2 : loadAll globalTable fs s' = loadAll globalTable fs s := by
    by_cases hf : fs = []
    · rw [he hf]
    · exact loadAll_near h hf
  unfold process
  rw [e1, e2]

theorem registerFiles_none {pt : Bool} : ∀ {fs : List SrcFile} {s a : PS}, registerFiles pt fs s = .ok ([], true) a → a = s
  | [], _, _, h => by cases h; rfl
  | f :: fs, s, a, h => by
    obtain ⟨x, b, ys, e1, e2, e3⟩ := registerFiles_cons.1 h
    obtain ⟨h1, rfl⟩ := List.nil_eq_append_iff.1 e3
    rw [registerFiles_none e2]
    unfold registerFile at e1
    split at e1
    · cases e1; rfl
    · unfold P.tryCatch at e1
      rw [bind_apply] at e1
      cases hc : createParser f s <;> rw [hc] at e1 <;> cases e1
      cases h1

end RunOrder

open RunOrder

/-- **C49**: if all files given can be registered, the whole run is the same for any order of them:
result, messages in the same order, types, checks and objects.  (The names of the files are different:
a file that is given twice is registered once, see C55.) -/
theorem C49_run {o : Options} {X : Outside} {required : List CU → Finset PNode} {files files' inc : List SrcFile}
    (hp : files.Perm files') (hn : ((files ++ inc).map (·.name)).Nodup)
    (hr : ∃ fs s, registerFiles o.parseTrlc files (PS.fresh []) = .ok (fs, true) s) :
    runTool o X required files' inc = runTool o X required files inc := by
  obtain ⟨fs, s, hr⟩ := hr
  obtain ⟨fs', s', hr', hpf, hs⟩ := registerFiles_perm hp hr
  unfold runTool
  rw [hr, hr']
  dsimp only
  rw [if_pos rfl, if_pos rfl]
  unfold processAll
  have k := registerFiles_near (pt := o.parseTrlc) inc hs
  cases hi : registerFiles o.parseTrlc inc s with
  | err a => exact absurd hi registerFiles_no_err
  | ok x a =>
    rw [hi] at k
    obtain ⟨a', hi', ha, -⟩ := k
    rw [hi']
    dsimp only
    refine process_perm (hpf.append_right _) ?_ ha ?_
    · have h1 := (registerFiles_sublist hr).append (registerFiles_sublist hi)
      have h2 := (h1.map (·.name)).nodup hn
      simpa [List.map_append, List.map_map, Function.comp_def] using h2
    · intro h0
      obtain ⟨rfl, -⟩ := List.append_eq_nil_iff.1 h0
      obtain rfl := hpf.nil_eq
      have h1 := registerFiles_none hr
      have h2 := registerFiles_none hr'
      subst h1 h2
      rw [hi] at hi'
      cases hi'
      rfl
  | crash c a =>
    rw [hi] at k
    rw [k]

/-- **C49**: the order in which files are found in include directories does not matter either, if all of
them can be registered.  (Lexical errors in these files are reported in the order of the files.) -/
theorem C49_run_includes {o : Options} {X : Outside} {required : List CU → Finset PNode} {files inc inc' : List SrcFile}
    (hp : inc.Perm inc') (hn : ((files ++ inc).map (·.name)).Nodup)
    (hr : ∃ fs s, registerFiles o.parseTrlc inc (PS.fresh []) = .ok (fs, true) s) :
    runTool o X required files inc' = runTool o X required files inc := by
  obtain ⟨xs, r, hr⟩ := hr
  unfold runTool
  cases hf : registerFiles o.parseTrlc files (PS.fresh []) with
  | err s => rfl
  | crash c s => rfl
  | ok y s =>
    obtain ⟨fs, ok⟩ := y
    dsimp only
    cases ok with
    | false => rfl
    | true =>
      rw [if_pos rfl, if_pos rfl]
      have hs : Near (PS.fresh []) s := by
        obtain ⟨a', e', h⟩ := registerFiles_moved (Near.refl _) hf
        rw [hf] at e'
        cases e'
        exact h
      obtain ⟨a, hi, -⟩ := registerFiles_moved hs hr
      obtain ⟨xs', a', hi', hpx, ha⟩ := registerFiles_perm hp hi
      unfold processAll
      rw [hi, hi']
      dsimp only
      refine process_perm (hpx.append_left _) ?_ ha ?_
      · have h1 := (registerFiles_sublist hf).append (registerFiles_sublist hi)
        have h2 := (h1.map (·.name)).nodup hn
        simpa [List.map_append, List.map_map, Function.comp_def] using h2
      · intro h0
        obtain ⟨-, rfl⟩ := List.append_eq_nil_iff.1 h0
        obtain rfl := hpx.nil_eq
        rw [registerFiles_none hi, registerFiles_none hi']

/-- **C49**: whether the run succeeds does not depend on the order of the files, and a run that
succeeds is the same for any order of the files. -/
theorem C49_run_table {o : Options} {X : Outside} {required : List CU → Finset PNode} {files files' inc : List SrcFile}
    (hp : files.Perm files') (hn : ((files ++ inc).map (·.name)).Nodup) :
    ((runTool o X required files inc).out = .table ↔ (runTool o X required files' inc).out = .table) ∧
    ((runTool o X required files inc).out = .table → runTool o X required files' inc = runTool o X required files inc) := by
  have key : ∀ {fs : List SrcFile}, (runTool o X required fs inc).out = .table →
      ∃ xs s, registerFiles o.parseTrlc fs (PS.fresh []) = .ok (xs, true) s := by
    intro fs h
    unfold runTool at h
    split at h
    · cases h
    · cases h
    · next xs ok s e =>
      split at h
      · next hk => exact ⟨xs, s, by rw [e, hk]⟩
      · cases h
  have hn' : ((files' ++ inc).map (·.name)).Nodup := ((hp.append_right inc).map _).nodup_iff.1 hn
  refine ⟨⟨fun h => ?_, fun h => ?_⟩, fun h => C49_run hp hn (key h)⟩
  · rw [C49_run hp hn (key h)]
    exact h
  · rw [C49_run hp.symm hn' (key h)]
    exact h

/-- **C49**: the exit code does not depend on the order of the files. -/
theorem C49_run_exit {o : Options} {X : Outside} {required : List CU → Finset PNode} {files files' inc : List SrcFile} {w : Bool}
    {a b : Nat} (hp : files.Perm files') (hn : ((files ++ inc).map (·.name)).Nodup)
    (ha : commandLine w (runTool o X required files inc) = .code a)
    (hb : commandLine w (runTool o X required files' inc) = .code b) : a = b := by
  obtain ⟨h1, h2⟩ := C49_run_table (o := o) (X := X) (required := required) hp hn
  by_cases hk : (runTool o X required files inc).out = .table
  · rw [h2 hk, ha] at hb
    cases hb
    rfl
  · have hk' : (runTool o X required files' inc).out ≠ .table := fun h => hk (h1.2 h)
    have key : ∀ {r : ProcOut} {n : Nat}, r.out ≠ .table → commandLine w r = .code n → n = 1 := by
      intro r n h e
      unfold commandLine at e
      split at e
      · cases e
      · cases e; rfl
      · next h' => exact absurd h' h
    rw [key hk ha, key hk' hb]

end Verif.Props
