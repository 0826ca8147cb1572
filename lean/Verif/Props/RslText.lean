import Verif.Props.RunSamples
import Verif.Props.ParseOrder
import Verif.Lemmas.RslText
/-!
# The types and checks are those written in the rsl files
-/
namespace Verif.Props
open Verif.Model Verif.Spec Verif.Lemmas

variable {o : Options} {X : Outside} {required : List CU → Finset PNode} {fs : List Source} {s : PS}

/-- **C72** for one file: if parsing an rsl file succeeds and no error is reported, then the tokens of the
file are a sequence of declarations and check blocks, and what is declared afterwards is what they
say. -/
theorem C72_file {E : FileEnv} {rx : Regex} {s s' : PS} {b : Bool} (hi : RslInv E.global s)
    (h : parseRslFile E rx s = .ok b s') (he : s'.errs = s.errs) :
    RslText E rx (worldOf s) (words s) (worldOf s') := by
  obtain ⟨ts, -, rfl, h2⟩ := parseRslFile_rw (rx := rx) hi b s' h he
  exact h2

/-! ## Which files are parsed, and in which order -/

theorem inj_of_filterMap_nodup {α β : Type} {f : α → Option β} {l : List α} (h : (l.filterMap f).Nodup) {a b : α}
    {x : β} (ha : a ∈ l) (hb : b ∈ l) (ea : f a = some x) (eb : f b = some x) : a = b := by
  induction l with
  | nil => cases ha
  | cons c l ih =>
    have hl : (l.filterMap f).Nodup := by
      cases hc : f c with
      | none => rw [List.filterMap_cons_none hc] at h; exact h
      | some y => rw [List.filterMap_cons_some hc] at h; exact h.of_cons
    have hn : f c = some x → ∀ d ∈ l, f d ≠ some x := by
      intro hc d hd he
      rw [List.filterMap_cons_some hc, List.nodup_cons] at h
      exact h.1 (List.mem_filterMap.2 ⟨d, hd, he⟩)
    rcases List.mem_cons.1 ha with rfl | ha'
    · rcases List.mem_cons.1 hb with rfl | hb'
      · rfl
      · exact absurd eb (hn ea b hb')
    · rcases List.mem_cons.1 hb with rfl | hb'
      · exact absurd ea (hn eb a ha')
      · exact ih hl ha' hb'

section
variable {g : STab} {ls : List Loaded} {s1 : PS}

/-- at most one rsl file for each package -/
theorem prepared_once (k : Prepared globalTable fs s g ls s1) {l l' : Loaded} (hl : l ∈ ls) (hl' : l' ∈ ls)
    (h : l.cu.file.kind = .rsl) (h' : l'.cu.file.kind = .rsl) {p : List Char} (hp : l.cu.package = some p)
    (hp' : l'.cu.package = some p) : l = l' := by
  have h1 := C14_declared_once globalTable globalTable_built (ls.map (·.cu.file))
  rw [k.agree] at h1
  dsimp only at h1
  have h2 : ((ls.filter (fun l => decide (l.cu.file.kind = .rsl))).filterMap (fun l => l.cu.package)).Nodup := by
    have e : (List.map (fun x => x.cu) ls).filter (fun x => decide (x.file.kind = .rsl)) =
        (ls.filter (fun l => decide (l.cu.file.kind = .rsl))).map (·.cu) := by
      rw [List.filter_map]; rfl
    rw [e, List.filterMap_map] at h1
    refine List.Pairwise.imp ?_ h1
    rintro a b hab rfl
    exact hab rfl
  exact inj_of_filterMap_nodup h2 (List.mem_filter.2 ⟨hl, by simpa using h⟩) (List.mem_filter.2 ⟨hl', by simpa using h'⟩)
    hp hp'

theorem rslMap_some {R : Finset PNode} {n : PNode} {l : Loaded} (h : rslMap R ls n = some l) :
    l ∈ ls ∧ l.cu.file.kind = .rsl ∧ l.cu.package = some n.1 ∧ l.cu ∈ selectedRsl R (ls.map (·.cu)) := by
  have h1 := List.mem_of_find?_eq_some h
  have h2 := List.find?_some h
  simp only [Bool.and_eq_true, decide_eq_true_eq, beq_iff_eq] at h2
  obtain ⟨⟨h3, h4⟩, h5⟩ := h2
  refine ⟨h1, h3, h4, List.mem_filter.2 ⟨List.mem_map_of_mem h1, ?_⟩⟩
  rw [h4, h5]
  simp [h3]

theorem rslMap_ex {R : Finset PNode} {n : PNode}
    (hn : ∃ u ∈ selectedRsl R (ls.map (·.cu)), u.package = some n.1) :
    ∃ l, rslMap R ls n = some l := by
  obtain ⟨u, hu, hp⟩ := hn
  obtain ⟨hm, hu⟩ := List.mem_filter.1 hu
  obtain ⟨l, hl, rfl⟩ := List.mem_map.1 hm
  rw [← Option.isSome_iff_exists]
  unfold rslMap
  rw [List.find?_isSome]
  refine ⟨l, hl, ?_⟩
  simp only [Bool.and_eq_true, decide_eq_true_eq] at hu
  simp only [Bool.and_eq_true, decide_eq_true_eq, hp, hu.1.1, BEq.rfl, true_and]
  exact hu.2

/-- The rsl files that are parsed -/
theorem prepared_rsl {R : Finset PNode} (k : Prepared globalTable fs s g ls s1) (he : ∀ l ∈ ls, l.cu.err = false)
    (hR : Required (ls.map (·.cu)) R) (hc : (parseRslOrder R (ls.map (·.cu))).2 = false) :
    (rslFiles R ls).Nodup ∧
    (∀ l, l ∈ rslFiles R ls ↔ l ∈ ls ∧ l.src.file.kind = .rsl ∧
        ∃ p, l.cu.package = some p ∧ Wanted (ls.map (·.cu)) (p, .rsl)) ∧
    (∀ a l b, rslFiles R ls = a ++ l :: b → ∀ p is, l.cu.file.pre = .pkg p is false → ∀ i ∈ is, ∀ l' ∈ ls,
        l'.src.file.kind = .rsl → l'.cu.package = some i → l' ∈ a) := by
  have hu : ((selectedRsl R (ls.map (·.cu))).filterMap (·.package)).Nodup := by
    have h1 := C14_declared_once globalTable globalTable_built (ls.map (·.cu.file))
    rw [k.agree] at h1
    dsimp only at h1
    have h2 : (((ls.map (·.cu)).filter (fun u => decide (u.file.kind = .rsl))).filterMap (·.package)).Nodup := by
      refine List.Pairwise.imp ?_ h1
      rintro a b hab rfl
      exact hab rfl
    refine h2.sublist (List.Sublist.filterMap _ ?_)
    unfold selectedRsl
    refine List.monotone_filter_right _ ?_
    intro u hu
    simp only [Bool.and_eq_true] at hu
    exact hu.1.1
  obtain ⟨o1, o2⟩ := C15_parsed_once (ls.map (·.cu)) R hu
  have hord : ∀ n ∈ (parseRslOrder R (ls.map (·.cu))).1, ∃ l, rslMap R ls n = some l := fun n hn =>
    rslMap_ex (o1 n hn)
  refine ⟨?_, ?_, ?_⟩
  · unfold rslFiles
    unfold List.Nodup
    rw [List.pairwise_filterMap]
    refine List.Pairwise.imp_of_mem ?_ o2
    rintro n n' hn hn' hne l hl l' hl' rfl
    obtain ⟨-, -, h1, -⟩ := rslMap_some hl
    obtain ⟨-, -, h2, -⟩ := rslMap_some hl'
    rw [h1] at h2
    refine hne (Prod.ext (Option.some.inj h2) ?_)
    rw [C15_rsl_only _ R n hn, C15_rsl_only _ R n' hn']
  · intro l
    unfold rslFiles
    rw [List.mem_filterMap]
    constructor
    · rintro ⟨n, hn, hl⟩
      obtain ⟨h1, h2, h3, h4⟩ := rslMap_some hl
      refine ⟨h1, by rw [← (k.same l h1).2.1]; exact h2, n.1, h3, ?_⟩
      have := (C14_files_parsed _ R hR l.cu (List.mem_map_of_mem h1) (he l h1) n.1 h3).1 (.inl h4)
      rwa [h2] at this
    · rintro ⟨h1, h2, p, h3, h4⟩
      rw [← (k.same l h1).2.1] at h2
      have h5 : l.cu ∈ selectedRsl R (ls.map (·.cu)) := by
        rcases (C14_files_parsed _ R hR l.cu (List.mem_map_of_mem h1) (he l h1) p h3).2 (by rw [h2]; exact h4) with h | h
        · exact h
        · have := (List.mem_filter.1 h).2
          simp [h2] at this
      have h6 := C15_all_parsed _ R hc l.cu h5 p h3
      obtain ⟨l', h7⟩ := hord _ h6
      obtain ⟨a1, a2, a3, -⟩ := rslMap_some h7
      have := prepared_once k h1 a1 h2 a2 h3 a3
      subst this
      exact ⟨_, h6, h7⟩
  · intro a l b hab p is hpre i hi l' hl' hk hp
    unfold rslFiles at hab
    obtain ⟨x, y, hxy, ha, hy⟩ := List.filterMap_eq_append_iff.1 hab
    obtain ⟨y1, n, y2, hy12, hnone, hn, -⟩ := List.filterMap_eq_cons_iff.1 hy
    obtain ⟨b1, b2, b3, b4⟩ := rslMap_some hn
    rw [← (k.same l' hl').2.1] at hk
    have hcu : (buildCUs globalTable (ls.map (·.cu.file))).2 = ls.map (·.cu) := by rw [k.agree]
    obtain ⟨p', is', e1, e2, e3, js, e4, e5⟩ := C14_imports globalTable globalTable_built globalTable_no_pkg
      (ls.map (·.cu.file)) l.cu (by rw [hcu]; exact List.mem_map_of_mem b1) (he l b1)
    rw [hpre] at e1
    cases e1
    rw [b3] at e2
    cases e2
    rw [hcu] at e5
    have hneed := Needs.imp (List.mem_map_of_mem b1) (he l b1) b3 e4
      ((e5 i).2 ⟨hi, l'.cu, List.mem_map_of_mem hl', hp, fun _ => hk⟩)
    have hn2 : n.2 = .rsl := C15_rsl_only (ls.map (·.cu)) R n (by rw [hxy, hy12]; simp)
    rw [b2, show (n.1, FKind.rsl) = n by rw [← hn2]] at hneed
    have hin := C15_imports_first (ls.map (·.cu)) R (x ++ y1) y2 n (by rw [hxy, hy12, List.append_assoc]) _ hneed
    obtain ⟨l'', h7⟩ := hord (i, .rsl) (by
      rw [hxy, hy12, ← List.append_assoc]
      exact List.mem_append_left _ hin)
    obtain ⟨a1, a2, a3, -⟩ := rslMap_some h7
    have := prepared_once k hl' a1 hk a2 hp a3
    subst this
    rcases List.mem_append.1 hin with h | h
    · rw [← ha]
      exact List.mem_filterMap.2 ⟨_, h, h7⟩
    · rw [hnone _ h] at h7
      cases h7

end

/-- The rsl files of a successful run -/
theorem succeeded_rsl {s' : PS} {g : STab} {ls : List Loaded} {s1 s2 : PS} (hb : Blank s)
    (k : Succeeded o X (required (ls.map (·.cu))) fs s s' g ls s1 s2) (r : Ready g X.rx s2)
    (hR : ∀ cus, Required cus (required cus)) (he : s'.errs = s.errs) :
    ∃ rl files W0, FilesRead fs ls ∧ rl.Nodup ∧
      (∀ l, l ∈ rl ↔ l ∈ ls ∧ l.src.file.kind = .rsl ∧
        ∃ p, l.cu.package = some p ∧ Wanted (ls.map (·.cu)) (p, .rsl)) ∧
      (∀ a l b, rl = a ++ l :: b → ∀ p is, l.cu.file.pre = .pkg p is false → ∀ i ∈ is, ∀ l' ∈ ls,
        l'.src.file.kind = .rsl → l'.cu.package = some i → l' ∈ a) ∧
      List.Forall₂ (Opened ls) rl files ∧ (∃ g, World.Bare W0 g ∧ ∀ f ∈ files, f.env.global = g) ∧
      RslFilesText X.rx W0 files (worldOf s2) ∧
      s'.decls = s2.decls ∧ s'.infos = s2.infos ∧ s'.seps = s2.seps ∧ s'.checks = s2.checks := by
  obtain ⟨e1, e2, e3, e4⟩ := succeeded_kept k r
  -- no errors in any part
  obtain ⟨q1, h1, -⟩ := k.built.good k.noErr
  have t1 := runRsl_tells g o.recover X.rx (required (ls.map (·.cu))) ls (s1.withPackages g)
  rw [k.rsl] at t1
  obtain ⟨q2, h3, -⟩ := t1
  have h3 : s2.errs = s1.errs ++ q2 := h3
  have h4 : ∃ q3, s'.errs = s2.errs ++ q3 := by
    cases hp : o.parseTrlc with
    | false => exact ⟨[], by rw [k.rslOnly hp, List.append_nil]⟩
    | true =>
      have t2 := runTrlcFiles_tells
        ((trlcFiles (required (ls.map (·.cu))) ls).map (·.openFile g o.recover)) s2
      have ht := (k.trlc hp).1
      unfold runTrlc at ht
      rw [ht] at t2
      exact ⟨_, t2.choose_spec.1⟩
  obtain ⟨q3, h4⟩ := h4
  have hno : s2.errs = s1.errs := by
    have hl := congrArg List.length (h4.symm.trans he)
    rw [h3, h1] at hl
    simp only [List.length_append] at hl
    have : q2 = [] := List.length_eq_zero_iff.1 (by omega)
    rw [h3, this, List.append_nil]
  have hbl := hb.quiet k.built.quiet
  obtain ⟨hi, ha⟩ := start_inv (rx := X.rx) k.built.tab hbl
  have hrun := k.rsl
  unfold runRsl at hrun
  rw [bind_apply] at hrun
  cases hx : runRslFiles X.rx ((rslFiles (required (ls.map (·.cu))) ls).map (·.openFile g o.recover))
      (s1.withPackages g) with
  | err s3 => rw [hx] at hrun; cases hrun
  | crash c s3 => rw [hx] at hrun; cases hrun
  | ok b s3 =>
    rw [hx] at hrun
    dsimp only at hrun
    split at hrun
    · cases hrun
    · next hc =>
      cases hrun
      have hg : ∀ f ∈ (rslFiles (required (ls.map (·.cu))) ls).map (·.openFile g o.recover), f.env.global = g := by
        intro f hf
        obtain ⟨l, -, rfl⟩ := List.mem_map.1 hf
        rfl
      have hw := runRslFiles_rw (rx := X.rx) (g := g) _ _ hg hi ha true s2 hx hno
      obtain ⟨p1, p2, p3⟩ := prepared_rsl (R := required (ls.map (·.cu))) k.built k.noErr (hR _) (by simpa using hc)
      refine ⟨_, _, _, ⟨k.noErr, k.built.text, prepared_numbers k.built k.noErr⟩, p1, p2, p3, ?_, ⟨g, ?_, hg⟩,
        hw, e1, e2, e3, e4⟩
      · rw [List.forall₂_map_right_iff, List.forall₂_same]
        intro l hl
        have hl' := ((p2 l).1 hl).1
        exact prepared_opened k.built o.recover hl' (k.noErr l hl')
      · refine ⟨hbl.decls, hbl.infos, hbl.seps, hbl.checks, by show List.map _ s1.objs = []; rw [hbl.objs]; rfl, hbl.nid, ?_⟩
        intro T hT
        rw [List.eq_of_mem_replicate (show T ∈ List.replicate _ (STab.importing g) from hT)]
        exact ⟨rfl, rfl, rfl⟩

/-- **C72**: if `process` returns the symbol table and no error was reported, then each file starts
with a preamble; the rsl files that are wanted are read, each once, after those of the packages it
imports; and the types and checks are exactly those written in these files: starting with empty
packages, each declaration adds what it says (`RslFilesText`), and there is nothing else. -/
theorem C72_run (hb : Blank s) (hR : ∀ cus, Required cus (required cus))
    (h : (process o X required fs s).out = .table) (he : (process o X required fs s).state.errs = s.errs) :
    ∃ ls rl files W0 W, FilesRead fs ls ∧ rl.Nodup ∧
      (∀ l, l ∈ rl ↔ l ∈ ls ∧ l.src.file.kind = .rsl ∧
        ∃ p, l.cu.package = some p ∧ Wanted (ls.map (·.cu)) (p, .rsl)) ∧
      (∀ a l b, rl = a ++ l :: b → ∀ p is, l.cu.file.pre = .pkg p is false → ∀ i ∈ is, ∀ l' ∈ ls,
        l'.src.file.kind = .rsl → l'.cu.package = some i → l' ∈ a) ∧
      List.Forall₂ (Opened ls) rl files ∧ (∃ g, World.Bare W0 g ∧ ∀ f ∈ files, f.env.global = g) ∧
      RslFilesText X.rx W0 files W ∧
      (process o X required fs s).state.decls = W.decls ∧ (process o X required fs s).state.infos = W.infos ∧
      (process o X required fs s).state.seps = W.seps ∧ (process o X required fs s).state.checks = W.checks := by
  obtain ⟨g, ls, s1, s2, k, r⟩ := run_ready hb h
  obtain ⟨rl, files, W0, h⟩ := succeeded_rsl hb k r hR he
  exact ⟨ls, rl, files, W0, worldOf s2, h⟩

/-- **C72** with **C61**: the whole of a project.  After a successful run without errors the types and
checks are those written in the rsl files, and the objects are those written in the trlc files,
where names mean what the rsl files declare. -/
theorem C72_project (hb : Blank s) (hR : ∀ cus, Required cus (required cus)) (hp : o.parseTrlc = true)
    (h : (process o X required fs s).out = .table) (he : (process o X required fs s).state.errs = s.errs) :
    ∃ ls rl rfiles tl tfiles items W0 W, FilesRead fs ls ∧
      -- the rsl files
      rl.Nodup ∧ (∀ l, l ∈ rl ↔ l ∈ ls ∧ l.src.file.kind = .rsl ∧
        ∃ p, l.cu.package = some p ∧ Wanted (ls.map (·.cu)) (p, .rsl)) ∧
      (∀ a l b, rl = a ++ l :: b → ∀ p is, l.cu.file.pre = .pkg p is false → ∀ i ∈ is, ∀ l' ∈ ls,
        l'.src.file.kind = .rsl → l'.cu.package = some i → l' ∈ a) ∧
      List.Forall₂ (Opened ls) rl rfiles ∧ (∃ g, World.Bare W0 g ∧ ∀ f ∈ rfiles, f.env.global = g) ∧
      RslFilesText X.rx W0 rfiles W ∧
      (process o X required fs s).state.decls = W.decls ∧ (process o X required fs s).state.infos = W.infos ∧
      (process o X required fs s).state.seps = W.seps ∧ (process o X required fs s).state.checks = W.checks ∧
      -- the trlc files
      tl.Sublist ls ∧ (∀ l ∈ ls, l ∈ tl ↔ l.src.file.kind = .trlc ∧
        ∃ p, l.cu.package = some p ∧ Wanted (ls.map (·.cu)) (p, .trlc)) ∧
      List.Forall₂ (Opened ls) tl tfiles ∧
      WrittenFiles W.names 0 tfiles items (namesOf (process o X required fs s).state) ∧
      (process o X required fs s).state.objs = items.map Prod.fst ∧
      ∀ x ∈ items, ObjFrom W.decls W.infos x.2 x.1 := by
  obtain ⟨g, ls, s1, s2, k, r⟩ := run_ready hb h
  obtain ⟨rl, files, W0, h1, h2, h3, h4, h5, h6, h7, h8, h9, h10, h11⟩ := succeeded_rsl hb k r hR he
  obtain ⟨tl, tfiles, items, -, i2, i3, i4, i5, i6, i7⟩ := succeeded_written k r hR hp he
  rw [h8, h9] at i7
  exact ⟨ls, rl, files, tl, tfiles, items, W0, worldOf s2, h1, h2, h3, h4, h5, h6, h7, h8, h9, h10, h11,
    i2, i3, i4, i5, i6, i7⟩

attribute [local irreducible] RunSample.opened process in
example : ∃ ls rl rfiles tl tfiles items W0 W, FilesRead (RunSample.opened [RunSample.rsl, RunSample.trlc]).1 ls ∧
    List.Forall₂ (Opened ls) rl rfiles ∧ RslFilesText RunSample.outside.rx W0 rfiles W ∧
    W.decls.recs.length = 2 ∧ List.Forall₂ (Opened ls) tl tfiles ∧ WrittenFiles W.names 0 tfiles items
      (namesOf (RunSample.run RunSample.found [RunSample.rsl, RunSample.trlc]).state) ∧ items.length = 2 := by
  obtain ⟨ls, rl, rfiles, tl, tfiles, items, W0, W, h1, -, -, -, h5, -, h7, h8, -, -, -, -, -, i4, i5, i6, -⟩ :=
    C72_project (RunSample.opened_blank _) RunSample.found_required rfl
      (RunSample.run_table RunSample.found) (RunSample.run_errs RunSample.found)
  refine ⟨ls, rl, rfiles, tl, tfiles, items, W0, W, h1, h5, h7, ?_, i4, i5, ?_⟩
  · have h := RunSample.run_types RunSample.found
    unfold RunSample.run at h
    rw [h8] at h
    exact h
  · have := congrArg List.length (RunSample.run_objs RunSample.found)
    rw [List.length_map] at this
    have h6 := congrArg List.length i6
    rw [List.length_map] at h6
    rw [← h6]
    exact this

end Verif.Props
