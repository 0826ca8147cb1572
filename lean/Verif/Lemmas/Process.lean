import Verif.Lemmas.Preamble
import Verif.Lemmas.RslChecks
import Verif.Lemmas.ChecksKept
import Verif.Lemmas.Run
/-!
# A whole run: the state in which the trlc files are parsed
-/
namespace Verif.Lemmas
open Verif.Model Verif.Spec

variable {rx : Regex}

/-- Nothing is declared yet. -/
structure Blank (s : PS) : Prop where
  decls : s.decls = ⟨[], [], []⟩
  infos : s.infos = []
  seps : s.seps = []
  objs : s.objs = []
  nid : s.nid = 0
  checks : s.checks = ⟨[], []⟩

theorem fresh_blank (errs : List PErr) : Blank (PS.fresh errs) := ⟨rfl, rfl, rfl, rfl, rfl, rfl⟩

theorem Blank.quiet {s s' : PS} (h : Blank s) (q : Quiet s s') : Blank s' :=
  ⟨q.decls.trans h.decls, q.infos.trans h.infos, q.seps.trans h.seps, q.objs.trans h.objs,
    q.nid.trans h.nid, q.checks.trans h.checks⟩

theorem empty_sound : SoundDecls ⟨[], [], []⟩ [] [] := by
  have hp : ∀ t p, ¬ ParentOf ⟨[], [], []⟩ t p := by
    rintro t p ⟨r, h, -⟩; cases h
  have hd : ∀ t c, ¬ Declares ⟨[], [], []⟩ t c := by
    rintro t c ⟨r, h, -⟩; cases h
  have hc : ∀ t c, ¬ HasComp ⟨[], [], []⟩ t c := by
    rintro t c ⟨a, -, h⟩; exact hd a c h
  refine ⟨⟨?_, ?_, ?_, ?_, ?_, ?_, ?_⟩, rfl, rfl, ?_, ?_, ?_, ?_, ?_, ?_, ?_, ?_, ?_, ?_, ?_, ?_⟩
  · exact fun t p h => absurd h (hp t p)
  · exact fun t c c' h => absurd h (hc t c)
  · exact fun t c h => absurd h (hd t c)
  · intro t r h; cases h
  · intro t cs h; cases h
  · exact fun t c h => absurd h (hc t c)
  · intro t i n node h; cases h
  · exact fun t c h => absurd h (hd t c)
  · intro t cs h; cases h
  · exact fun t c c' h => absurd h (hc t c)
  · intro t cs h; cases h
  · intro t cs h; cases h
  · intro t cs h; cases h
  · intro t cs ss h; cases h
  · intro t cs h; cases h
  · intro t cs ss u us h; cases h
  · exact fun t p h => absurd h (hp t p)
  · rintro t a b n h h' ⟨i, hi, -⟩; cases hi
  · intro t i h; cases h

theorem start_inv {g : STab} {s : PS} (ht : PkgTab g) (h : Blank s) :
    RslInv g (s.withPackages g) ∧ AllAcc rx (s.withPackages g) := by
  have tab : ∀ (p : Nat) (T : STab), (s.withPackages g).tabs[p]? = some T → T = STab.importing g := by
    intro p T hT
    have := List.mem_of_getElem? hT
    exact List.eq_of_mem_replicate this
  constructor
  · refine ⟨ht.glob, ?_, ?_, ?_, h.objs, ?_, ?_, ?_, ?_, ?_, ?_⟩
    · show SoundDecls s.decls s.infos s.seps
      rw [h.decls, h.infos, h.seps]
      exact empty_sound
    · show s.checks.recs.length = s.decls.recs.length
      rw [h.checks, h.decls]; rfl
    · show s.checks.tups.length = s.decls.tups.length
      rw [h.checks, h.decls]; rfl
    · intro p T hT
      rw [tab p T hT]
      exact ⟨rfl, by simp [STab.importing, ht.glob.parents]⟩
    · intro p T k e hT he
      rw [tab p T hT] at he
      cases he
    · intro p T hT
      rw [tab p T hT]
      simp [STab.importing]
    · intro cls i hi
      have : cnt (s.withPackages g).decls cls = 0 := by
        show cnt s.decls cls = 0
        rw [h.decls]
        unfold cnt
        split
        · rfl
        · split
          · rfl
          · split <;> rfl
      omega
    · intro p p' T T' k k' e e' hT hT' he
      rw [tab p T hT] at he
      cases he
    · show FrozenIds s.infos s.nid
      rw [h.infos]
      exact ⟨fun i hi => absurd hi (by simp), fun i hi => absurd hi (by simp)⟩
  · intro ct c hc
    exfalso
    have : (s.withPackages g).checks = ⟨[], []⟩ := h.checks
    rw [this] at hc
    cases ct <;> simp [CkIn] at hc

theorem start_pkgs {g : STab} {s : PS} (ht : PkgTab g) : PkgsKnown g (s.withPackages g) := by
  intro p hp
  have hlen : (s.withPackages g).tabs.length = (pkgsOf g).length := by
    show (List.replicate _ _).length = _
    rw [List.length_replicate]
    rfl
  rw [hlen] at hp
  have : p ∈ (pkgsOf g).map (·.2.id) := by rw [ht.nums]; exact List.mem_range.2 hp
  obtain ⟨x, hx, rfl⟩ := List.mem_map.1 this
  unfold pkgsOf at hx
  rw [List.mem_filter] at hx
  exact ⟨x.1, x.2, hx.1, by simpa [isPackage] using hx.2, rfl⟩

/-- What is known after rsl files were parsed, however this ended. -/
structure RslDone (g : STab) (rx : Regex) (s s' : PS) : Prop where
  inv : RslInv g s'
  acc : AllAcc rx s'
  tabs : s'.tabs.length = s.tabs.length

theorem runRslFiles_done (g : STab) : ∀ (fs : List OpenFile) (s : PS), (∀ f ∈ fs, f.env.global = g) →
    RslInv g s → AllAcc rx s → RslDone g rx s (runRslFiles rx fs s).state ∧
      ∀ c s', runRslFiles rx fs s = .crash c s' → c ≠ .fuel ∧ c ≠ .keyError := by
  intro fs
  induction fs with
  | nil => intro s _ hi ha; exact ⟨⟨hi, ha, rfl⟩, by intro c s' h; cases h⟩
  | cons f fs ih =>
    intro s hg hi ha
    have hf : f.env.global = g := hg f (by simp)
    have hi' : RslInv g (s.enter f) := ⟨hi.glob, hi.sound, hi.crecs, hi.ctups, hi.objs, hi.sees, hi.ents,
      hi.keys, hi.entered, hi.once, hi.frozenBefore⟩
    have ha' : AllAcc rx (s.enter f) := ha
    have h1 := parseRslFile_sp (E := f.env) (rx := rx) (s := s.enter f) (by rw [hf]; exact hi')
    rw [hf] at h1
    have hr := h1.rel
    obtain ⟨i1, a1⟩ := hr.inv hi' ha'
    unfold runRslFiles
    rw [bind_apply]
    have e1 : runRslFile rx f s = P.tryCatch (parseRslFile f.env rx) (pure false) (s.enter f) := rfl
    rw [e1]
    unfold P.tryCatch
    have rest : ∀ (a : Bool) (s1 : PS), RslInv g s1 → AllAcc rx s1 → s1.tabs.length = s.tabs.length →
        RslDone g rx s ((do let b ← runRslFiles rx fs; pure (a && b) : P Bool) s1).state ∧
        ∀ c s', (do let b ← runRslFiles rx fs; pure (a && b) : P Bool) s1 = .crash c s' → c ≠ .fuel ∧ c ≠ .keyError := by
      intro a s1 j1 j2 j3
      obtain ⟨k1, k2⟩ := ih s1 (fun f hf => hg f (List.mem_cons_of_mem _ hf)) j1 j2
      rw [bind_apply]
      cases h2 : runRslFiles rx fs s1 with
      | ok b s2 =>
        rw [h2] at k1
        exact ⟨⟨k1.inv, k1.acc, k1.tabs.trans j3⟩, by intro c s' h; cases h⟩
      | err s2 =>
        rw [h2] at k1
        exact ⟨⟨k1.inv, k1.acc, k1.tabs.trans j3⟩, by intro c s' h; cases h⟩
      | crash c s2 =>
        rw [h2] at k1
        refine ⟨⟨k1.inv, k1.acc, k1.tabs.trans j3⟩, ?_⟩
        intro c' s' h
        cases h
        exact k2 _ _ h2
    cases hx : parseRslFile f.env rx (s.enter f) with
    | ok b s1 =>
      rw [hx] at i1 a1 hr
      exact rest b s1 i1 a1 hr.tabs
    | err s1 =>
      rw [hx] at i1 a1 hr
      exact rest false s1 i1 a1 hr.tabs
    | crash c s1 =>
      rw [hx] at i1 a1 hr
      refine ⟨⟨i1, a1, hr.tabs⟩, ?_⟩
      intro c' s' h
      cases h
      exact (h1.crash hx).2

theorem RslInv.errs {g : STab} {s : PS} (hi : RslInv g s) (l : List PErr) : RslInv g { s with errs := l } :=
  ⟨hi.glob, hi.sound, hi.crecs, hi.ctups, hi.objs, hi.sees, hi.ents,
      hi.keys, hi.entered, hi.once, hi.frozenBefore⟩

theorem runRsl_done {g : STab} {recover : Bool} {required : Finset PNode} {ls : List Loaded} {s : PS}
    (hi : RslInv g s) (ha : AllAcc rx s) :
    RslDone g rx s (runRsl g recover rx required ls s).state ∧
      ∀ c s', runRsl g recover rx required ls s = .crash c s' → c ≠ .fuel ∧ c ≠ .keyError := by
  have hg : ∀ f ∈ (rslFiles required ls).map (·.openFile g recover), f.env.global = g := by
    intro f hf
    obtain ⟨l, -, rfl⟩ := List.mem_map.1 hf
    rfl
  obtain ⟨k1, k2⟩ := runRslFiles_done g _ s hg hi ha
  unfold runRsl
  rw [bind_apply]
  cases h : runRslFiles rx ((rslFiles required ls).map (·.openFile g recover)) s with
  | ok b s1 =>
    rw [h] at k1
    dsimp only
    split
    · exact ⟨⟨k1.inv.errs _, k1.acc, k1.tabs⟩, by intro c s' h; cases h⟩
    · exact ⟨k1, by intro c s' h; cases h⟩
  | err s1 =>
    rw [h] at k1
    exact ⟨k1, by intro c s' h; cases h⟩
  | crash c s1 =>
    rw [h] at k1
    refine ⟨k1, ?_⟩
    intro c' s' h'
    cases h'
    exact k2 _ _ h

theorem sound_unique {D : Decls} {infos : List RecInfo} {seps : List (List Sep)}
    (h : SoundDecls D infos seps) : UniqueNames D := by
  intro t c c' h1 h2 h3
  exact h.similar t c c' h1 h2 (by unfold SameName; rw [h3])

end Verif.Lemmas
