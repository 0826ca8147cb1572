import Verif.Props.Process
import Verif.Props.Sources
/-!
# What holds after a successful run
-/
namespace Verif.Props
open Verif.Model Verif.Spec Verif.Lemmas

variable {o : Options} {X : Outside} {required : List CU → Finset PNode} {fs : List Source} {s : PS}

/-! ## The state between rsl files and trlc files -/

theorem noObjects_of_inv {g : STab} {s : PS} (h : RslInv g s) : NoObjects s := by
  refine ⟨h.objs, ?_, ?_, ?_, h.keys⟩
  · intro p T k e hT he
    obtain ⟨h1, h2⟩ := h.ents p T k e hT he
    refine ⟨?_, h2⟩
    rcases cnt_pos h1 with h | h | h <;> rw [h] <;> decide
  · intro p T f k e hT hf
    rw [(h.sees p T hT).1] at hf
    cases hf
  · intro p T c f k e hT hc hf he
    rw [(h.sees p T hT).2] at hc
    simp only [List.mem_singleton] at hc
    subst hc
    simp only [List.mem_singleton] at hf
    subst hf
    rcases h.glob.own _ he with h | h | h <;> (dsimp only at h; rw [h]; decide)

/-- A successful run, and what is known about the state in which the trlc files are parsed. -/
structure Ready (g : STab) (rx : Regex) (s2 : PS) : Prop where
  inv : RslInv g s2
  acc : AllAcc rx s2
  noObjects : NoObjects s2
  pkgs : PkgsKnown g s2

theorem rsl_ready {g : STab} {recover : Bool} {R : Finset PNode} {ls : List Loaded} {rx : Regex} {s1 s2 : PS}
    {b : Bool} (hb : Blank s1) (ht : PkgTab g) (h : runRsl g recover rx R ls (s1.withPackages g) = .ok b s2) :
    Ready g rx s2 := by
  obtain ⟨i, a⟩ := start_inv (rx := rx) ht hb
  obtain ⟨d, -⟩ := runRsl_done (recover := recover) (required := R) (ls := ls) i a
  rw [h] at d
  exact ⟨d.inv, d.acc, noObjects_of_inv d.inv, fun p hp => start_pkgs ht p (by rw [← d.tabs]; exact hp)⟩

theorem run_ready (hb : Blank s) (h : (process o X required fs s).out = .table) :
    ∃ g ls s1 s2, Succeeded o X (required (ls.map (·.cu))) fs s (process o X required fs s).state g ls s1 s2 ∧
      Ready g X.rx s2 := by
  obtain ⟨g, ls, s1, s2, k, -⟩ := process_table h
  exact ⟨g, ls, s1, s2, k, rsl_ready (hb.quiet k.built.quiet) k.built.tab k.rsl⟩

/-- What the trlc files do not change -/
theorem succeeded_kept {R : Finset PNode} {s' : PS} {g : STab} {ls : List Loaded} {s1 s2 : PS}
    (k : Succeeded o X R fs s s' g ls s1 s2) (r : Ready g X.rx s2) :
    s'.decls = s2.decls ∧ s'.infos = s2.infos ∧ s'.seps = s2.seps ∧ s'.checks = s2.checks := by
  cases hp : o.parseTrlc with
  | false => rw [k.rslOnly hp]; exact ⟨rfl, rfl, rfl, rfl⟩
  | true =>
    have ht := (k.trlc hp).1
    have hk := run_kept r.inv.sound.world ht
    have hc := (runTrlcFiles_cks ((trlcFiles R ls).map (·.openFile g o.recover))).rep s2
    unfold runTrlc at ht
    rw [ht] at hc
    exact ⟨hk.decls, hk.infos, hk.seps, hc⟩

/-! ## Declarations -/

/-- **C69**: after a successful run all declarations are well-formed, see `SoundDecls`. -/
theorem C69_declarations (hb : Blank s) (h : (process o X required fs s).out = .table) :
    SoundDecls (process o X required fs s).state.decls (process o X required fs s).state.infos
      (process o X required fs s).state.seps := by
  obtain ⟨g, ls, s1, s2, k, r⟩ := run_ready hb h
  obtain ⟨e1, e2, e3, -⟩ := succeeded_kept k r
  rw [e1, e2, e3]
  exact r.inv.sound

/-- **C69**: and every check was accepted by the typing rules for the type it belongs to. -/
theorem C69_checks (hb : Blank s) (h : (process o X required fs s).out = .table) (ct : CompositeTy)
    (c : Check) (hc : CkIn (process o X required fs s).state.checks ct c) :
    AccIn (process o X required fs s).state.decls X.rx ct c := by
  obtain ⟨g, ls, s1, s2, k, r⟩ := run_ready hb h
  obtain ⟨e1, -, -, e4⟩ := succeeded_kept k r
  rw [e1]
  rw [e4] at hc
  exact r.acc ct c hc

/-! ## Objects -/

/-- **C32** for whole runs: when `process` returns the symbol table, every object has a value for
every component of its type, see `ObjComplete` and `ObjFrom`. -/
theorem C32_run (hb : Blank s) (h : (process o X required fs s).out = .table) (i : Nat) (ob : Obj)
    (hi : (process o X required fs s).state.objs[i]? = some ob) :
    ObjComplete (process o X required fs s).state.decls (process o X required fs s).state.infos ob ∧
    ∃ asg, ObjFrom (process o X required fs s).state.decls (process o X required fs s).state.infos asg ob := by
  obtain ⟨g, ls, s1, s2, k, r⟩ := run_ready hb h
  obtain ⟨e1, e2, -⟩ := succeeded_kept k r
  rw [e1, e2]
  cases hp : o.parseTrlc with
  | false => rw [k.rslOnly hp, r.inv.objs] at hi; cases hi
  | true => exact C32_all_complete r.inv.sound.world r.inv.objs (k.trlc hp).1 i ob hi

/-- **C35** for whole runs: every reference in an object points to the object it names, and
that object has the right type, see `ResolvedObj`. -/
theorem C35_run (hb : Blank s) (h : (process o X required fs s).out = .table) (i : Nat) (ob : Obj)
    (hi : (process o X required fs s).state.objs[i]? = some ob) :
    ∃ gs, (process o X required fs s).state.heap i = some gs ∧
      ResolvedObj (process o X required fs s).state.decls (process o X required fs s).state.objs ob.fields gs := by
  obtain ⟨g, ls, s1, s2, k, r⟩ := run_ready hb h
  obtain ⟨e1, -⟩ := succeeded_kept k r
  rw [e1]
  cases hp : o.parseTrlc with
  | false => rw [k.rslOnly hp, r.inv.objs] at hi; cases hi
  | true =>
    exact C35_references r.inv.sound.world r.noObjects r.pkgs (k.trlc hp).1 (k.trlc hp).2.1 i ob hi

/-- **C63** for whole runs: when `process` returns the symbol table, for every object all checks of
its type and of the types it extends are true or only warnings, and so are all checks of the tuples
in its components (directly or in arrays). -/
theorem C63_run (hb : Blank s) (h : (process o X required fs s).out = .table) (i : Nat) (ob : Obj) (gs : Fields)
    (hi : (process o X required fs s).state.objs[i]? = some ob)
    (hg : (process o X required fs s).state.heap i = some gs) :
    (∀ c, AppliesTo (process o X required fs s).state.decls (process o X required fs s).state.checks ob.typ c →
      Passes ⟨(process o X required fs s).state.heap, X.rx.search⟩ (recordCtx gs) c) ∧
    ∀ k n, gs.lookup k = some n → TuplesPass (process o X required fs s).state.checks
      ⟨(process o X required fs s).state.heap, X.rx.search⟩ n.expr := by
  obtain ⟨g, ls, s1, s2, k, r⟩ := run_ready hb h
  obtain ⟨e1, -⟩ := succeeded_kept k r
  rw [e1]
  cases hp : o.parseTrlc with
  | false => rw [k.rslOnly hp, r.inv.objs] at hi; cases hi
  | true =>
    exact (C63_passes_iff r.inv.sound.world r.noObjects r.pkgs (k.trlc hp).1 (k.trlc hp).2.1 X.locs).1
      (k.trlc hp).2.2 i ob gs hi hg

/-! ## Frozen components (C31) -/

theorem frozenIn_unique {D : Decls} {infos : List RecInfo} {seps : List (List Sep)}
    (h : SoundDecls D infos seps) {t : Nat} {n : String} {v w : VNode} (h1 : FrozenIn D infos t n v)
    (h2 : FrozenIn D infos t n w) : v = w := by
  obtain ⟨a, i, ha, hi, hv⟩ := h1
  obtain ⟨b, j, hb, hj, hw⟩ := h2
  have fr : ∀ (l : List (String × VNode)) (n : String) (v : VNode), l.lookup n = some v → n ∈ l.map Prod.fst := by
    intro l n v hl
    induction l with
    | nil => cases hl
    | cons x l ih =>
      rw [List.lookup_cons] at hl
      split at hl
      · next hx => simp [(beq_iff_eq.1 hx)]
      · exact List.mem_cons_of_mem _ (ih hl)
  have := h.frozenOnce t a b n ha hb ⟨i, hi, fr _ _ _ hv⟩ ⟨j, hj, fr _ _ _ hw⟩
  subst this
  rw [hi] at hj
  cases hj
  rw [hv] at hw
  cases hw
  rfl

theorem extends_trans {D : Decls} {a b c : Nat} (h : Extends D a b) (h' : Extends D b c) : Extends D a c := by
  induction h with
  | refl _ => exact h'
  | step hp _ ih => exact .step hp (ih h')

/-- **C31**: after a successful run, a component that is frozen in a type is frozen in all its
extensions, with the same value and no other; every object of the type or of an extension has
that value, and its declaration does not assign the component; along a chain of extensions the
component is frozen in one place only. -/
theorem C31_frozen (hb : Blank s) (h : (process o X required fs s).out = .table) (t : Nat) (n : String) (v : VNode)
    (hf : FrozenIn (process o X required fs s).state.decls (process o X required fs s).state.infos t n v) :
    (∀ u, Extends (process o X required fs s).state.decls u t →
      ∀ w, FrozenIn (process o X required fs s).state.decls (process o X required fs s).state.infos u n w ↔ w = v) ∧
    (∀ (i : Nat) (ob : Obj), (process o X required fs s).state.objs[i]? = some ob →
      Extends (process o X required fs s).state.decls ob.typ t →
      ob.fields.lookup n = some v ∧ ∃ asg, ObjFrom (process o X required fs s).state.decls
        (process o X required fs s).state.infos asg ob ∧ n ∉ asg.map Prod.fst) ∧
    ∀ u a b, Extends (process o X required fs s).state.decls u a →
      Extends (process o X required fs s).state.decls u b → Freezes (process o X required fs s).state.infos a n →
      Freezes (process o X required fs s).state.infos b n → a = b := by
  have hs := C69_declarations hb h
  have inh : ∀ u, Extends (process o X required fs s).state.decls u t →
      FrozenIn (process o X required fs s).state.decls (process o X required fs s).state.infos u n v := by
    intro u hu
    obtain ⟨a, i, ha, hi, hl⟩ := hf
    exact ⟨a, i, extends_trans hu ha, hi, hl⟩
  refine ⟨?_, ?_, fun u a b => hs.frozenOnce u a b n⟩
  · intro u hu w
    constructor
    · intro hw; exact frozenIn_unique hs hw (inh u hu)
    · rintro rfl; exact inh u hu
  · intro i ob hi hu
    obtain ⟨h1, asg, h2⟩ := C32_run hb h i ob hi
    have hfr := inh ob.typ hu
    constructor
    · obtain ⟨a, j, ha, hj, hl⟩ := hfr
      obtain ⟨c, hc, rfl, -⟩ := hs.world.frozen a j n v hj hl
      obtain ⟨d, hd, hcd⟩ := hc
      obtain ⟨m, hm, h3⟩ := h1.1 c ⟨d, extends_trans ha hd, hcd⟩
      rcases h3 with h3 | ⟨h3, -⟩
      · rw [hm, frozenIn_unique hs h3 (inh ob.typ hu)]
      · exact absurd (inh ob.typ hu) (h3 v)
    · refine ⟨asg, h2, ?_⟩
      intro hm
      obtain ⟨x, hx, rfl⟩ := List.mem_map.1 hm
      exact h2.2.2.2.1 x hx v hfr

/-! ## The files (C61) -/

theorem globalTable_built : Built globalTable := C11_history .empty _

theorem globalTable_no_pkg : ∀ e ∈ visible globalTable, e.cls ≠ clsPackage := by decide +kernel

theorem lookup_pkg {g : STab} (ht : PkgTab g) {p : List Char} {e : Ent}
    (h : g.lookup p (some isPackage) = .ok e) : e.name = p ∧ ∃ k, (k, e) ∈ pkgsOf g := by
  unfold STab.lookup STab.lookupDirect at h
  rw [flat_find ht.glob.parents ht.glob.imported] at h
  cases hg : g.own.get (simplifiedName p) with
  | none => rw [hg] at h; cases h
  | some d =>
    rw [hg] at h
    simp only at h
    split at h
    · cases h
    · next hx =>
      split at h
      · cases h
      · next hs =>
        cases h
        refine ⟨by simpa using hx, simplifiedName p, ?_⟩
        unfold pkgsOf
        rw [List.mem_filter]
        refine ⟨?_, by simpa using hs⟩
        unfold Frame.get at hg
        obtain ⟨x, hx1, hx2⟩ := Option.map_eq_some_iff.1 hg
        have hm := List.mem_of_find?_eq_some hx1
        have hk := List.find?_some hx1
        simp only [decide_eq_true_eq] at hk
        rw [← hk, ← hx2]
        exact hm

theorem numbers_distinct {g : STab} (ht : PkgTab g) {p q : List Char} {e d : Ent}
    (h1 : g.lookup p (some isPackage) = .ok e) (h2 : g.lookup q (some isPackage) = .ok d) (h : e.id = d.id) :
    p = q := by
  obtain ⟨a1, k1, b1⟩ := lookup_pkg ht h1
  obtain ⟨a2, k2, b2⟩ := lookup_pkg ht h2
  have hn : ((pkgsOf g).map (·.2.id)).Nodup := by rw [ht.nums]; exact List.nodup_range
  have := List.inj_on_of_nodup_map hn b1 b2 h
  cases this
  rw [← a1, ← a2]

theorem prepared_numbers {g : STab} {ls : List Loaded} {s1 : PS} (k : Prepared globalTable fs s g ls s1)
    (he : ∀ l ∈ ls, l.cu.err = false) : ∀ l ∈ ls, ∀ l' ∈ ls, l.cu.package = l'.cu.package ↔ l.pid = l'.pid := by
  intro l hl l' hl'
  cases h1 : l.cu.package with
  | none => exact absurd h1 (k.pkg l hl (he l hl))
  | some p =>
    cases h2 : l'.cu.package with
    | none => exact absurd h2 (k.pkg l' hl' (he l' hl'))
    | some q =>
      obtain ⟨e, a1, a2⟩ := k.pid l hl p h1
      obtain ⟨d, b1, b2⟩ := k.pid l' hl' q h2
      constructor
      · intro h
        cases h
        rw [a1] at b1
        cases b1
        rw [← a2, ← b2]
      · intro h
        rw [numbers_distinct k.tab a1 b1 (by rw [a2, b2, h])]

theorem prepared_opened {g : STab} {ls : List Loaded} {s1 : PS} (k : Prepared globalTable fs s g ls s1)
    (recover : Bool) {l : Loaded} (hl : l ∈ ls) (he : l.cu.err = false) :
    Opened ls l (l.openFile g recover) := by
  have hag := k.agree
  have hcu : (buildCUs globalTable (ls.map (·.cu.file))).2 = ls.map (·.cu) := by rw [hag]
  obtain ⟨p, is, e1, e2, e3, js, e4, e5⟩ := C14_imports globalTable globalTable_built globalTable_no_pkg
    (ls.map (·.cu.file)) l.cu (by rw [hcu]; exact List.mem_map_of_mem hl) he
  rw [hcu] at e5
  refine ⟨rfl, rfl, ?_, ?_, fun l' hl' p hp => k.pid l' hl' p hp⟩
  · show l.cu.imports.isSome = true
    rw [e4]; rfl
  · intro p' is' h' q
    rw [e1] at h'
    cases h'
    show q ∈ (l.cu.imports.getD []).filterMap (pkgNumber g) ↔ _
    rw [e4, Option.getD_some, List.mem_filterMap]
    constructor
    · rintro ⟨i, hi, hq⟩
      obtain ⟨h1, v, hv, h2, h3⟩ := (e5 i).1 hi
      obtain ⟨l', hl', rfl⟩ := List.mem_map.1 hv
      refine ⟨i, h1, l', hl', h2, ?_, ?_⟩
      · obtain ⟨e, a1, a2⟩ := k.pid l' hl' i h2
        unfold pkgNumber at hq
        rw [a1] at hq
        cases hq
        rw [a2]
      · rw [← (k.same l hl).2.1, ← (k.same l' hl').2.1]
        exact h3
    · rintro ⟨i, h1, l', hl', h2, rfl, h3⟩
      refine ⟨i, (e5 i).2 ⟨h1, l'.cu, List.mem_map_of_mem hl', h2, ?_⟩, ?_⟩
      · rw [(k.same l hl).2.1, (k.same l' hl').2.1]
        exact h3
      · obtain ⟨e, a1, a2⟩ := k.pid l' hl' i h2
        unfold pkgNumber
        rw [a1]
        exact congrArg some a2

/-- The trlc files of a successful run -/
theorem succeeded_written {s' : PS} {g : STab} {ls : List Loaded} {s1 s2 : PS}
    (k : Succeeded o X (required (ls.map (·.cu))) fs s s' g ls s1 s2) (r : Ready g X.rx s2)
    (hR : ∀ cus, Required cus (required cus)) (hp : o.parseTrlc = true) (he : s'.errs = s.errs) :
    ∃ tl files items, FilesRead fs ls ∧ tl.Sublist ls ∧
      (∀ l ∈ ls, l ∈ tl ↔ l.src.file.kind = .trlc ∧
        ∃ p, l.cu.package = some p ∧ Wanted (ls.map (·.cu)) (p, .trlc)) ∧
      List.Forall₂ (Opened ls) tl files ∧
      WrittenFiles (namesOf s2) 0 files items (namesOf s') ∧
      s'.objs = items.map Prod.fst ∧ ∀ x ∈ items, ObjFrom s'.decls s'.infos x.2 x.1 := by
  obtain ⟨e1, e2, -⟩ := succeeded_kept k r
  have ht := (k.trlc hp).1
  -- no errors in any part
  obtain ⟨q1, h1, -⟩ := k.built.good k.noErr
  have t1 := runRsl_tells g o.recover X.rx (required (ls.map (·.cu))) ls (s1.withPackages g)
  rw [k.rsl] at t1
  obtain ⟨q2, h3, -⟩ := t1
  have h3 : s2.errs = s1.errs ++ q2 := h3
  have t2 := runTrlcFiles_tells
    ((trlcFiles (required (ls.map (·.cu))) ls).map (·.openFile g o.recover)) s2
  have ht' := ht
  unfold runTrlc at ht'
  rw [ht'] at t2
  obtain ⟨q3, h5, -⟩ := t2
  have hno : s'.errs = s2.errs := by
    have hl := congrArg List.length (h5.symm.trans he)
    rw [h3, h1] at hl
    simp only [List.length_append] at hl
    have : q3 = [] := List.length_eq_zero_iff.1 (by omega)
    rw [h5, this, List.append_nil]
  obtain ⟨items, i1, i2, i3⟩ := C61_objects_written r.inv.sound.world r.inv.objs ht' hno
  refine ⟨trlcFiles (required (ls.map (·.cu))) ls, _, items, ⟨k.noErr, k.built.text, ?_⟩,
    List.filter_sublist, ?_, ?_, i2, i1, by rw [e1, e2]; exact i3⟩
  · exact prepared_numbers k.built k.noErr
  · intro l hl
    have hpk := k.built.pkg l hl (k.noErr l hl)
    obtain ⟨p, hpk⟩ := Option.ne_none_iff_exists'.1 hpk
    have := C14_required_exact _ _ (hR (ls.map (·.cu))) (p, .trlc)
    unfold trlcFiles
    rw [List.mem_filter]
    simp only [hl, true_and, k.noErr l hl, Bool.not_false, Bool.and_true, Bool.and_eq_true, Bool.or_eq_true,
      decide_eq_true_eq, (k.built.same l hl).2.1, hpk]
    refine and_congr_right fun hk => ?_
    have hsec : isSecondary (required (ls.map (·.cu))) l.cu = true ↔
        l.cu.file.primary = false ∧ Wanted (ls.map (·.cu)) (p, .trlc) := by
      rw [← this]
      simp [isSecondary, k.noErr l hl, hpk, (k.built.same l hl).2.1, hk]
    rw [hsec]
    constructor
    · rintro (hq | hq)
      · refine ⟨p, rfl, ?_⟩
        have := Wanted.root (List.mem_map_of_mem hl) hq hpk ⟨l.cu, List.mem_map_of_mem hl, k.noErr l hl, hpk⟩
        rw [(k.built.same l hl).2.1, hk] at this
        exact this
      · exact ⟨p, rfl, hq.2⟩
    · rintro ⟨p', hp', hw⟩
      cases hp'
      cases hq : l.cu.file.primary
      · exact .inr ⟨rfl, hw⟩
      · exact .inl rfl
  · rw [List.forall₂_map_right_iff, List.forall₂_same]
    intro l hl
    have hl' := (List.mem_filter.1 hl).1
    exact prepared_opened k.built o.recover hl' (k.noErr l hl')

/-- **C61** for whole runs: if `process` returns the symbol table and no error was reported, then
each file starts with a preamble; the trlc files that are wanted are read, in order of their names,
each as part of the package and with the imports its preamble says; and the objects are exactly
those written in these files, in this order, with the values written there (`WrittenFiles`). -/
theorem C61_run (hb : Blank s) (hR : ∀ cus, Required cus (required cus)) (hp : o.parseTrlc = true)
    (h : (process o X required fs s).out = .table) (he : (process o X required fs s).state.errs = s.errs) :
    ∃ ls tl files items N, FilesRead fs ls ∧ tl.Sublist ls ∧
      (∀ l ∈ ls, l ∈ tl ↔ l.src.file.kind = .trlc ∧
        ∃ p, l.cu.package = some p ∧ Wanted (ls.map (·.cu)) (p, .trlc)) ∧
      List.Forall₂ (Opened ls) tl files ∧
      WrittenFiles N 0 files items (namesOf (process o X required fs s).state) ∧
      (process o X required fs s).state.objs = items.map Prod.fst ∧
      ∀ x ∈ items, ObjFrom (process o X required fs s).state.decls (process o X required fs s).state.infos x.2 x.1 := by
  obtain ⟨g, ls, s1, s2, k, r⟩ := run_ready hb h
  obtain ⟨tl, files, items, h⟩ := succeeded_written k r hR hp he
  exact ⟨ls, tl, files, items, namesOf s2, h⟩

/-! ## C37 -/

theorem loadPreambles_crash {g : STab} {fs : List Source} {s s' : PS} {c : PCrash}
    (h : loadPreambles g fs s = .crash c s') : c ≠ .fuel := by
  induction fs generalizing g s with
  | nil => cases h
  | cons f fs ih =>
    unfold loadPreambles at h
    rw [bind_apply] at h
    split at h
    · rw [bind_apply] at h
      split at h
      · cases h
      · cases h
      · next h2 => cases h; exact ih h2
    · cases h
    · next h1 => cases h; exact (loadPreamble_crash h1).1

theorem loadAll_crash {g : STab} {fs : List Source} {s s' : PS} {c : PCrash}
    (h : loadAll g fs s = .crash c s') : c ≠ .fuel := by
  unfold loadAll at h
  rw [bind_apply] at h
  split at h
  · next r1 s1 h1 =>
    rw [bind_apply] at h
    obtain ⟨x, s2, hx⟩ := resolveLoaded_total r1.1 r1.2 s1
    rw [hx] at h
    dsimp only at h
    rw [bind_apply] at h
    split at h
    · next r2 s3 h2 =>
      rw [bind_apply] at h
      obtain ⟨y, s4, hy⟩ := resolveLoaded_total r2.1 r2.2 s3
      rw [hy] at h
      cases h
    · cases h
    · next h2 => cases h; exact loadPreambles_crash h2
  · cases h
  · next h1 => cases h; exact loadPreambles_crash h1

/-- **C37** for whole runs: the parsers never exhaust the fuel that stands for Python's loops and
recursion, whatever the files contain and in whatever way the run ends. -/
theorem C37_run (hb : Blank s) : (process o X required fs s).out ≠ .crash (.parse .fuel) := by
  intro h
  unfold process at h
  split at h
  · next h1 => cases h; exact loadAll_crash h1 rfl
  · cases h
  · next g ls s1 h1 =>
    dsimp only at h
    have hp := loadAll_ok globalTable_pkgTab h1
    obtain ⟨i, a⟩ := start_inv (rx := X.rx) hp.tab (hb.quiet hp.quiet)
    obtain ⟨d, d'⟩ := runRsl_done (recover := o.recover) (required := required (ls.map (·.cu))) (ls := ls) i a
    unfold analyse at h
    split at h
    · next h2 => cases h; exact (d' _ _ h2).1 rfl
    · cases h
    · next b s2 h2 =>
      rw [h2] at d
      dsimp only at h
      split at h
      · cases h
      · split at h
        · cases h
        · split at h
          · dsimp only at h
            split at h <;> cases h
          · unfold finish at h
            split at h
            · next h3 => cases h; exact C37_run_terminates d.inv.sound.world h3 rfl
            · cases h
            · cases h
            · dsimp only at h
              split at h
              · cases h
              · split at h
                · cases h
                · split at h <;> cases h

/-! ## Checks never stop a run, up to known exceptions (C63) -/

theorem finish_check_crash {g : STab} {R : Finset PNode} {ls : List Loaded} {ok : Bool} {calls : List MHCall}
    {c : CheckCrash} (h : (finish o X g R ls ok calls s).out = .crash (.check c)) :
    runTrlc g o.recover R ls s = .ok true (finish o X g R ls ok calls s).state ∧
      (finish o X g R ls ok calls s).state.resolveAll g = [] ∧
      (performChecks (finish o X g R ls ok calls s).state g (finish o X g R ls ok calls s).state.checks
        X.rx.search X.locs).out = .crash c := by
  unfold finish at h ⊢
  split at h
  · cases h
  · cases h
  · cases h
  · next s1 h1 =>
    dsimp only at h ⊢
    split at h
    · cases h
    · next h2 =>
      have h2 : s1.resolveAll g = [] := by simpa using h2
      split at h
      · cases h
      · next h3 =>
        have e1 : ({ s1 with errs := s1.errs ++ s1.resolveAll g } : PS) = s1 := by rw [h2]; simp
        rw [e1] at h
        rw [e1]
        simp only [h2, ne_eq, not_true_eq_false, if_false, if_neg h3]
        split at h
        · next h4 => cases h; exact ⟨h1, h2, h4⟩
        · cases h
        · cases h
        · cases h

/-- The side conditions for a check of a type, see `Side`: no `[]`, no quantifier over a body that
may be null, no ambiguous access to fields of unions -/
def SideOf (D : Decls) (ct : CompositeTy) (c : Check) : Prop :=
  match ct with
  | .record t => Side D False False (recordΓ D t) c.expr
  | .tup t => Side D False False (tupleΓ D t) c.expr

/-- **C63** for whole runs: whatever the files contain, performing the checks never ends with an
internal exception - unless there is a check with `[]`, with a quantifier over a body that may be
null, or with an ambiguous access to a field of a union (`SideOf`).

Missing: the exceptions (`C16_index_crash`, `C16_quantifier_crash`, `C16_union_crash`). -/
theorem C63_no_crash_partial (hb : Blank s) {c : CheckCrash}
    (h : (process o X required fs s).out = .crash (.check c)) :
    ∃ ct ck, CkIn (process o X required fs s).state.checks ct ck ∧
      ¬ SideOf (process o X required fs s).state.decls ct ck := by
  by_contra hn
  have hs : ∀ ct ck, CkIn (process o X required fs s).state.checks ct ck →
      SideOf (process o X required fs s).state.decls ct ck := by
    intro ct ck h1
    by_contra h2
    exact hn ⟨ct, ck, h1, h2⟩
  clear hn
  revert hs
  unfold process at h ⊢
  split at h
  · cases h
  · cases h
  · next g ls s1 h1 =>
    dsimp only at h ⊢
    have hp := loadAll_ok globalTable_pkgTab h1
    unfold analyse at h ⊢
    split at h
    · cases h
    · cases h
    · next b s2 h2 =>
      have r := rsl_ready (hb.quiet hp.quiet) hp.tab h2
      dsimp only at h ⊢
      split at h
      · cases h
      · next h3 =>
        rw [if_neg h3]
        split at h
        · cases h
        · split at h
          · dsimp only at h
            split at h <;> cases h
          · next h4 =>
            rw [if_neg h4]
            intro hs
            obtain ⟨k1, k2, k3⟩ := finish_check_crash h
            have hk := run_kept r.inv.sound.world k1
            have hc := (runTrlcFiles_cks ((trlcFiles (required (ls.map (·.cu))) ls).map
              (·.openFile g o.recover))).rep s2
            unfold runTrlc at k1
            rw [k1] at hc
            dsimp only [PR.state] at hc
            rw [hk.decls, hc] at hs
            have hA : ChecksAccepted ⟨s2.decls, X.rx.search, X.rx.valid⟩ s2.checks := by
              constructor
              · intro t cs ck h5 h6
                have hin : CkIn s2.checks (.record t) ck := ⟨cs, h5, h6⟩
                obtain ⟨-, ⟨other, enums, r, -, he⟩, -⟩ := r.acc _ _ hin
                exact ⟨other, enums, r, he, hs _ _ hin⟩
              · intro t cs ck h5 h6
                have hin : CkIn s2.checks (.tup t) ck := ⟨cs, h5, h6⟩
                obtain ⟨-, ⟨other, enums, r, -, he⟩, -⟩ := r.acc _ _ hin
                exact ⟨other, enums, r, he, hs _ _ hin⟩
            obtain ⟨b, hb, -⟩ := C63_all_checks_partial rfl r.inv.sound.world (sound_unique r.inv.sound)
              r.noObjects r.pkgs hA k1 k2 X.locs
            rw [hc] at k3
            rw [k3] at hb
            cases hb

end Verif.Props
