import Verif.Props.Export
import Verif.Props.Verify
import Verif.Lemmas.DumpLines
import Verif.Lemmas.TabsKept
/-!
# C93: dumping the symbol table
-/
namespace Verif.Props
open Verif.Model Verif.Spec Verif.Lemmas Verif.Lemmas.Dump

variable {o : Options} {X : Outside} {required : List CU → Finset PNode} {fs : List Source} {s : PS}
  {g : STab} {ls : List Loaded} {s1 : PS}

/-! ## The state after a run -/

/-- the global table has the builtin names and packages only -/
def BuiltinsAnd (g : STab) : Prop := ∃ P : Frame, g.own = globalTable.own ++ P ∧ ∀ x ∈ P, x.2.cls = clsPackage

theorem parsePreamble_builtins {g : STab} (f : FileIn) (h : BuiltinsAnd g) : BuiltinsAnd (parsePreamble g f).1 := by
  obtain ⟨P, h1, h2⟩ := h
  unfold parsePreamble
  split
  · exact ⟨P, h1, h2⟩
  · dsimp only
    split
    · split
      · next g' hr =>
        obtain ⟨-, rfl⟩ := register_entry hr
        refine ⟨P ++ [_], by dsimp only; rw [h1, List.append_assoc], fun x hx => ?_⟩
        rcases List.mem_append.1 hx with hx | hx
        · exact h2 x hx
        · rw [List.mem_singleton] at hx; rw [hx]
      · exact ⟨P, h1, h2⟩
    · split
      · exact ⟨P, h1, h2⟩
      · exact ⟨P, h1, h2⟩

theorem parsePreambles_builtins (fs : List FileIn) : ∀ {g : STab}, BuiltinsAnd g → BuiltinsAnd (parsePreambles g fs).1 := by
  induction fs with
  | nil => exact fun h => h
  | cons f fs ih =>
    intro g h
    unfold parsePreambles
    exact ih (parsePreamble_builtins f h)

/-- What is known about the symbol tables and checks after a run -/
structure Dumpable (g : STab) (s : PS) : Prop where
  sound : SoundDecls s.decls s.infos s.seps
  fit : ChecksFit s.decls s.checks
  ctIn : ∀ ct c, CheckOf s.checks ct c → CtIn s.decls ct
  glob : ∃ P : Frame, g.own = globalTable.own ++ P ∧ (∀ x ∈ P, x.2.cls = clsPackage) ∧ P.map (·.2.id) = List.range s.tabs.length
  noParents : g.parents = []
  parents : ∀ T ∈ s.tabs, T.parents = []
  ents : ∀ (p : Nat) (T : STab) (k : List Char) (e : Ent), s.tabs[p]? = some T → (k, e) ∈ T.own →
    (e.cls = clsObject ∧ ∃ ob, s.objs[e.id]? = some ob ∧ ob.name = e.name ∧ ob.pkg = p) ∨ e.id < cnt s.decls e.cls
  entered : ∀ cls i, i < cnt s.decls cls → ∃ T ∈ s.tabs, ∃ k e, (k, e) ∈ T.own ∧ e.cls = cls ∧ e.id = i
  objs : ∀ (i : Nat) (ob : Obj), s.objs[i]? = some ob → (∀ f ∈ ob.fields, f.2.val = .inull ∨ ∃ τ, VOk s.decls f.2.val τ) ∧
    ∃ T ∈ s.tabs, ∃ k e, (k, e) ∈ T.own ∧ e.cls = clsObject ∧ e.id = i
  keys : ∀ T ∈ s.tabs, (T.own.map Prod.fst).Nodup
  simple : ∀ T ∈ s.tabs, ∀ x ∈ T.own, x.1 = simplifiedName x.2.name

theorem tabs_like {D : Decls} {s s' : PS} {objs : List Obj} (hm : MoreObjs s.tabs s'.tabs) (hi : RslInv g s) (hD : s.decls = D)
    (hown : ∀ (p : Nat) (T : STab) (k : List Char) (e : Ent), s'.tabs[p]? = some T → (k, e) ∈ T.own → e.cls = clsObject →
      ∃ ob : Obj, objs[e.id]? = some ob ∧ ob.name = e.name ∧ ob.pkg = p) :
    (∀ T ∈ s'.tabs, T.parents = []) ∧
    (∀ (p : Nat) (T : STab) (k : List Char) (e : Ent), s'.tabs[p]? = some T → (k, e) ∈ T.own →
      (e.cls = clsObject ∧ ∃ ob, objs[e.id]? = some ob ∧ ob.name = e.name ∧ ob.pkg = p) ∨ e.id < cnt D e.cls) ∧
    ∀ cls i, i < cnt D cls → ∃ T ∈ s'.tabs, ∃ k e, (k, e) ∈ T.own ∧ e.cls = cls ∧ e.id = i := by
  subst hD
  refine ⟨?_, ?_, ?_⟩
  · intro T hT
    obtain ⟨p, hp⟩ := List.getElem?_of_mem hT
    cases h : s.tabs[p]? with
    | none => rw [(hm p).1 h] at hp; cases hp
    | some T0 =>
      obtain ⟨l, h1, -⟩ := (hm p).2 T0 h
      rw [h1] at hp
      cases hp
      exact (hi.sees p T0 h).1
  · intro p T k e hp he
    cases h : s.tabs[p]? with
    | none => rw [(hm p).1 h] at hp; cases hp
    | some T0 =>
      obtain ⟨l, h1, h2⟩ := (hm p).2 T0 h
      have hp' := hp
      rw [h1] at hp
      cases hp
      rcases List.mem_append.1 he with hx | hx
      · exact .inr (hi.ents p T0 k e h hx).1
      · have hc : e.cls = clsObject := h2 _ hx
        exact .inl ⟨hc, hown p _ k e hp' he hc⟩
  · intro cls i hlt
    obtain ⟨p, T, k, e, h1, h2, h3, h4⟩ := hi.entered cls i hlt
    obtain ⟨l, h5, -⟩ := (hm p).2 T h1
    exact ⟨_, List.mem_of_getElem? h5, k, e, List.mem_append_left _ h2, h3, h4⟩

theorem run_dumpable (hb : Blank s) (hl : loadAll globalTable fs s = .ok (g, ls) s1)
    (h : (process o X required fs s).out = .table) : Dumpable g (process o X required fs s).state := by
  obtain ⟨s2, k, r⟩ := run_at hb hl h
  obtain ⟨e1, e2, e3, e4⟩ := succeeded_kept k r
  have hwf := r.inv.sound.world.wf
  have hacc : ∀ ct c, CheckOf s2.checks ct c → AccIn s2.decls X.rx ct c := fun ct c hc =>
    r.acc ct c (by cases ct <;> exact hc)
  -- the tables
  have hinv : TabInv (process o X required fs s).state ∧ MoreObjs s2.tabs (process o X required fs s).state.tabs ∧
      ∀ (i : Nat) (ob : Obj), (process o X required fs s).state.objs[i]? = some ob →
        ObjComplete s2.decls s2.infos ob := by
    cases hp : o.parseTrlc with
    | false =>
      rw [k.rslOnly hp]
      refine ⟨r.noObjects.tabInv, .refl _, fun i ob hi => ?_⟩
      rw [r.inv.objs] at hi
      cases hi
    | true =>
      have ht := (k.trlc hp).1
      have hk := run_kept r.inv.sound.world ht
      have hm := (runTrlcFiles_tbk ((trlcFiles (required (ls.map (·.cu))) ls).map (·.openFile g o.recover))).rep s2
      unfold runTrlc at ht
      rw [ht] at hm
      exact ⟨hk.inv r.noObjects.tabInv, hm, fun i ob hi => (C32_all_complete r.inv.sound.world r.inv.objs ht i ob hi).1⟩
  obtain ⟨hti, hm, hoc⟩ := hinv
  obtain ⟨t1, t2, t3⟩ := tabs_like (objs := (process o X required fs s).state.objs) hm r.inv rfl hti.own
  have hlen : (process o X required fs s).state.tabs.length = (pkgsOf g).length := by
    have h1 : (process o X required fs s).state.tabs.length = s2.tabs.length := by
      have hsome : ∀ p : Nat, ((process o X required fs s).state.tabs[p]?).isSome = (s2.tabs[p]?).isSome := by
        intro p
        cases h2 : s2.tabs[p]? with
        | none => rw [(hm p).1 h2]
        | some T =>
          obtain ⟨l, h3, -⟩ := (hm p).2 T h2
          rw [h3]
          rfl
      apply Nat.le_antisymm
      · by_contra hlt
        have := hsome s2.tabs.length
        rw [List.getElem?_eq_none (Nat.le_refl _), List.getElem?_eq_getElem (by omega)] at this
        cases this
      · by_contra hlt
        have := hsome (process o X required fs s).state.tabs.length
        rw [List.getElem?_eq_none (Nat.le_refl _), List.getElem?_eq_getElem (by omega)] at this
        cases this
    obtain ⟨i, a⟩ := start_inv (rx := X.rx) k.built.tab (hb.quiet k.built.quiet)
    obtain ⟨d, -⟩ := runRsl_done (recover := o.recover) (required := required (ls.map (·.cu))) (ls := ls) i a
    rw [k.rsl] at d
    rw [h1]
    refine d.tabs.trans ?_
    simp [PS.withPackages, pkgsOf]
  refine ⟨by rw [e1, e2, e3]; exact r.inv.sound, ?_, ?_, ?_, k.built.tab.glob.parents, t1, by rw [e1]; exact t2, by rw [e1]; exact t3, ?_,
    ?_, ?_⟩
  · intro ct c hc
    rw [e4] at hc
    rw [e1]
    refine ⟨wt_typed _ _ (acc_wt hwf (hacc ct c hc)).1, ?_⟩
    obtain ⟨-, ⟨other, enums, raw, -, hr⟩, -⟩ := hacc ct c hc
    exact elab_arrs raw _ _ (elabCheck_ok hr).1
  · intro ct c hc
    rw [e4] at hc
    rw [e1]
    exact (hacc ct c hc).1
  · have hB : BuiltinsAnd g := by
      have hag := k.built.agree
      unfold buildCUs at hag
      dsimp only at hag
      rw [← (Prod.mk.inj hag).1]
      exact parsePreambles_builtins _ (parsePreambles_builtins _ ⟨[], by simp, by simp⟩)
    obtain ⟨P, h1, h2⟩ := hB
    have hpk : pkgsOf g = P := by
      unfold pkgsOf
      rw [h1, List.filter_append, List.filter_eq_nil_iff.2 (by decide +kernel), List.nil_append, List.filter_eq_self]
      intro x hx
      simp [isPackage, h2 x hx]
    refine ⟨P, h1, h2, ?_⟩
    have := k.built.tab.nums
    rw [hpk] at this hlen
    rw [hlen]
    exact this
  · intro i ob hi
    refine ⟨?_, ?_⟩
    · have := object_values r.inv.sound.world (hoc i ob hi)
      rwa [e1]
    · obtain ⟨T, k', e, h1, h2, h3, h4⟩ := hti.reg i ob hi
      exact ⟨T, List.mem_of_getElem? h1, k', e, h2, h4, h3⟩
  · intro T hT
    obtain ⟨p, hp⟩ := List.getElem?_of_mem hT
    exact hti.keys p T hp
  · intro T hT x hx
    obtain ⟨p, hp⟩ := List.getElem?_of_mem hT
    exact hti.simple p T x.1 x.2 hp hx

/-! ## Whether it ends -/

/-- the type of an entry -/
theorem ent_ty {D : Decls} {e : Ent} (h : e.id < cnt D e.cls) :
    e.cls ≠ clsObject ∧ ∃ t, e.ty? = some t ∧ entryItem e = .type t ∧
      ((e.cls = clsRecord ∧ t = .record e.id) ∨ (e.cls = clsTuple ∧ t = .tup e.id) ∨ (e.cls = clsEnum ∧ t = .enum e.id)) := by
  obtain ⟨n, id, cls⟩ := e
  rcases cnt_pos h with rfl | rfl | rfl
  · exact ⟨by show _ ≠ _; dsimp only; decide, .record id, rfl, rfl, .inl ⟨rfl, rfl⟩⟩
  · exact ⟨by show _ ≠ _; dsimp only; decide, .tup id, rfl, rfl, .inr (.inl ⟨rfl, rfl⟩)⟩
  · exact ⟨by show _ ≠ _; dsimp only; decide, .enum id, rfl, rfl, .inr (.inr ⟨rfl, rfl⟩)⟩

namespace Dumpable
variable {s : PS} (d : Dumpable g s)
include d

theorem entry_ok (fuel i : Nat) (T : STab) (hT : T ∈ s.tabs) (x : List Char × Ent) (hx : x ∈ T.own) :
    (x.2.cls = clsObject ∧ Ok (s.dumpEntry fuel i x.2)) ∨
      ∃ t, x.2.ty? = some t ∧ s.dumpEntry fuel i x.2 = dumpTy s.decls s.seps s.checks fuel i t := by
  obtain ⟨p, hp⟩ := List.getElem?_of_mem hT
  unfold PS.dumpEntry
  rcases d.ents p T x.1 x.2 hp hx with ⟨h1, ob, h2, -, -⟩ | h
  · rw [if_pos h1, h2]
    exact .inl ⟨h1, obj_ok (d.objs _ _ h2).1 _ _⟩
  · obtain ⟨h1, t, h2, -⟩ := ent_ty h
    rw [if_neg h1, h2]
    exact .inr ⟨t, rfl, rfl⟩

/-- the table of a package -/
theorem pkg_tab {P : Frame} (hP : P.map (·.2.id) = List.range s.tabs.length) {x : List Char × Ent} (hx : x ∈ P) :
    s.tab x.2.id ∈ s.tabs := by
  have : x.2.id ∈ P.map (·.2.id) := List.mem_map_of_mem hx
  rw [hP, List.mem_range] at this
  unfold PS.tab
  rw [List.getElem?_eq_getElem this]
  exact List.getElem_mem _

theorem table_all {f : Ent → DumpR} {Q : DumpR → Prop} (h0 : Q (.ok [])) (hf : ∀ a b, Q a → Q b → Q (a.followed b)) {T : STab}
    (hT : T ∈ s.tabs) (h : ∀ x ∈ T.own, Q (f x.2)) : Q (dumpTable f T) := by
  unfold dumpTable
  rw [d.parents T hT, dumpAll, dumpAll]
  refine hf _ _ ?_ h0
  have : ∀ F : Frame, (∀ x ∈ F, Q (f x.2)) → Q (dumpAll (fun x => f x.2) F) := by
    intro F
    induction F with
    | nil => exact fun _ => h0
    | cons x F ih => exact fun h => hf _ _ (h x (by simp)) (ih fun y hy => h y (by simp [hy]))
  exact this _ h

theorem dump_eq (fuel : Nat) : s.dump g fuel = DumpR.followed (.ok [(0, .symbolTable)])
    ((dumpAll (fun x => s.dumpGlobal fuel 1 x.2) g.own).followed (.ok [])) := by
  unfold PS.dump dumpTable
  rw [d.noParents]
  rfl

theorem fine (fuel : Nat) : Fine (s.dump g fuel) := by
  rw [d.dump_eq]
  refine fine_head (fine_followed (fine_dumpAll fun x hx => ?_) fine_ok)
  obtain ⟨P, h1, h2, h3⟩ := d.glob
  rw [h1] at hx
  rcases List.mem_append.1 hx with hx | hx
  · have : ∀ x ∈ globalTable.own, x.2.cls ≠ clsPackage ∧ (x.2.cls = clsFunction ∨ x.2.ty? ≠ none) := by decide +kernel
    obtain ⟨h4, h5⟩ := this x hx
    unfold PS.dumpGlobal
    rw [if_neg h4]
    by_cases h6 : x.2.cls = clsFunction
    · rw [if_pos h6]
      exact fine_ok
    · rw [if_neg h6]
      cases h7 : x.2.ty? with
      | none => exact absurd h7 (h5.resolve_left h6)
      | some t => exact fine_ok
  · unfold PS.dumpGlobal
    rw [if_pos (h2 x hx)]
    refine fine_head (d.table_all fine_ok (fun a b => fine_followed) (d.pkg_tab h3 hx) fun y hy => ?_)
    rcases d.entry_ok fuel 2 _ (d.pkg_tab h3 hx) y hy with ⟨-, h⟩ | ⟨t, -, h⟩
    · exact .inr h
    · rw [h]
      exact dumpTy_fine d.sound d.fit _ _ _

/-- it ends iff the dump of every type does -/
theorem ok_iff (fuel : Nat) : Ok (s.dump g fuel) ↔
    ∀ T ∈ s.tabs, ∀ x ∈ T.own, ∀ t, x.2.cls ≠ clsObject → x.2.ty? = some t → Within s.decls s.checks fuel t := by
  obtain ⟨P, h1, h2, h3⟩ := d.glob
  have hpk : ∀ x ∈ P, Ok (s.dumpGlobal fuel 1 x.2) ↔
      ∀ y ∈ (s.tab x.2.id).own, ∀ t, y.2.cls ≠ clsObject → y.2.ty? = some t → Within s.decls s.checks fuel t := by
    intro x hx
    have hT := d.pkg_tab h3 hx
    unfold PS.dumpGlobal dumpTable
    rw [if_pos (h2 x hx), ok_head, d.parents _ hT, ok_dumpAll]
    simp only [List.mem_singleton, forall_eq, ok_dumpAll]
    refine forall_congr' fun y => forall_congr' fun hy => ?_
    obtain ⟨p, hp⟩ := List.getElem?_of_mem hT
    rcases d.entry_ok fuel 2 _ hT y hy with ⟨h4, h⟩ | ⟨t, h4, h⟩
    · exact iff_of_true h fun t h5 => absurd h4 h5
    · have h5 : y.2.cls ≠ clsObject := by
        intro e
        have : y.2.ty? = none := by
          obtain ⟨_, n, id, cls⟩ := y
          cases e
          rfl
        rw [this] at h4
        cases h4
      rw [h, dumpTy_ok d.sound d.fit]
      constructor
      · intro h6 t' _ e
        rw [h4] at e
        cases e
        exact h6
      · exact fun h6 => h6 t h5 h4
  rw [d.dump_eq, ok_head, ok_followed, ok_dumpAll]
  constructor
  · rintro ⟨h, -⟩ T hT
    obtain ⟨p, hp⟩ := List.getElem?_of_mem hT
    have : p ∈ P.map (·.2.id) := by rw [h3, List.mem_range]; exact (List.getElem?_eq_some_iff.1 hp).1
    obtain ⟨x, hx, rfl⟩ := List.mem_map.1 this
    have := (hpk x hx).1 (h x (by rw [h1]; exact List.mem_append_right _ hx))
    unfold PS.tab at this
    rw [hp] at this
    exact this
  · intro h
    refine ⟨fun x hx => ?_, ok_ok⟩
    rw [h1] at hx
    rcases List.mem_append.1 hx with hx | hx
    · have : ∀ x ∈ globalTable.own, x.2.cls ≠ clsPackage ∧ (x.2.cls = clsFunction ∨ x.2.ty? ≠ none) := by decide +kernel
      obtain ⟨h4, h5⟩ := this x hx
      unfold PS.dumpGlobal
      rw [if_neg h4]
      by_cases h6 : x.2.cls = clsFunction
      · rw [if_pos h6]
        exact ok_ok
      · rw [if_neg h6]
        cases h7 : x.2.ty? with
        | none => exact absurd h7 (h5.resolve_left h6)
        | some t => exact ok_ok
    · exact (hpk x hx).2 (h _ (d.pkg_tab h3 hx))

/-- quantifiers are in the checks of declared types -/
theorem source {t u : Ty} (h : RangesOver s.decls s.checks t u) :
    t ∈ composites s.decls.recs.length s.decls.tups.length := by
  obtain ⟨ct, k, c, id, lo, hi, rfl, hk, -⟩ := h
  have := d.ctIn ct k hk
  unfold composites
  cases ct with
  | record r => exact List.mem_append_left _ (List.mem_map_of_mem (List.mem_range.2 this))
  | tup r => exact List.mem_append_right _ (List.mem_map_of_mem (List.mem_range.2 this))

/-- declared record and tuple types are dumped -/
theorem dumped {t : Ty} (h : t ∈ composites s.decls.recs.length s.decls.tups.length) :
    ∃ T ∈ s.tabs, ∃ x ∈ T.own, x.2.cls ≠ clsObject ∧ x.2.ty? = some t := by
  unfold composites at h
  rcases List.mem_append.1 h with h | h
  · obtain ⟨r, hr, rfl⟩ := List.mem_map.1 h
    obtain ⟨T, hT, k, e, h1, h2, h3⟩ := d.entered clsRecord r (List.mem_range.1 hr)
    refine ⟨T, hT, (k, e), h1, by rw [h2]; decide, ?_⟩
    obtain ⟨n, id, cls⟩ := e
    cases h2; cases h3
    rfl
  · obtain ⟨r, hr, rfl⟩ := List.mem_map.1 h
    obtain ⟨T, hT, k, e, h1, h2, h3⟩ := d.entered clsTuple r (List.mem_range.1 hr)
    refine ⟨T, hT, (k, e), h1, by rw [h2]; decide, ?_⟩
    obtain ⟨n, id, cls⟩ := e
    cases h2; cases h3
    rfl

end Dumpable

/-- the full claim: dumping the symbol table of an accepted set of files ends -/
def C93_full : Prop := ∀ (o : Options) (X : Outside) (required : List CU → Finset PNode) (fs : List Source) (s : PS)
  (g : STab) (ls : List Loaded) (s1 : PS), Blank s → loadAll globalTable fs s = .ok (g, ls) s1 →
  (process o X required fs s).out = .table → ∃ fuel out, (process o X required fs s).state.dump g fuel = .ok out

/-- **C93**: dumping the symbol table of an accepted set of files prints the table, or the calls are nested too deep;
there is no other exception. -/
theorem C93_outcome (hb : Blank s) (hl : loadAll globalTable fs s = .ok (g, ls) s1)
    (h : (process o X required fs s).out = .table) (fuel : Nat) :
    (process o X required fs s).state.dump g fuel = .error .recursion ∨
      ∃ out, (process o X required fs s).state.dump g fuel = .ok out :=
  (run_dumpable hb hl h).fine fuel

/-- **C93** (partial, see `C93_full`): it ends iff no type reaches itself along quantifiers in checks: the elements of the array
a check of the first type quantifies over have the second type, and so on. -/
theorem C93_partial (hb : Blank s) (hl : loadAll globalTable fs s = .ok (g, ls) s1)
    (h : (process o X required fs s).out = .table) :
    (∃ fuel out, (process o X required fs s).state.dump g fuel = .ok out) ↔
      ¬ ∃ t, Relation.TransGen
        (RangesOver (process o X required fs s).state.decls (process o X required fs s).state.checks) t t := by
  have d := run_dumpable hb hl h
  constructor
  · rintro ⟨fuel, out, ho⟩ ⟨t, ht⟩
    obtain ⟨u, hu, -⟩ := Relation.TransGen.head'_iff.1 ht
    obtain ⟨T, hT, x, hx, h1, h2⟩ := d.dumped (d.source hu)
    exact cycle_within fuel t ht ((d.ok_iff fuel).1 ⟨out, ho⟩ T hT x hx t h1 h2)
  · intro hn
    refine ⟨_, (d.ok_iff _).2 fun T hT x hx t _ _ => acyclic_within (fun t u => d.source) (fun t ht => hn ⟨t, ht⟩) t⟩

/-- **C93**: then types are nested in each other at most as deeply as there are record and tuple types. -/
theorem C93_depth (hb : Blank s) (hl : loadAll globalTable fs s = .ok (g, ls) s1)
    (h : (process o X required fs s).out = .table)
    (hn : ¬ ∃ t, Relation.TransGen
      (RangesOver (process o X required fs s).state.decls (process o X required fs s).state.checks) t t) (fuel : Nat)
    (hf : (process o X required fs s).state.decls.recs.length + (process o X required fs s).state.decls.tups.length < fuel) :
    ∃ out, (process o X required fs s).state.dump g fuel = .ok out := by
  have d := run_dumpable hb hl h
  refine (d.ok_iff _).2 fun T hT x hx t _ _ => ?_
  have := acyclic_within (fun t u => d.source) (fun t ht => hn ⟨t, ht⟩) t
  obtain ⟨out, e⟩ := (dumpTy_ok d.sound d.fit _ 0 t).2 this
  exact (dumpTy_ok d.sound d.fit _ 0 t).1 ⟨out, dumpTy_more hf 0 t out e⟩

/-! ## What is printed -/

theorem keeps_table {f f' : Ent → DumpR} (h : ∀ e, Keeps (f e) (f' e)) (T : STab) : Keeps (dumpTable f T) (dumpTable f' T) := by
  unfold dumpTable
  exact .all (fun F => .all (fun x : List Char × Ent => h x.2) F) _

/-- **C93**: what is printed does not depend on how deeply calls may be nested. -/
theorem C93_same (s : PS) (g : STab) {n m : Nat} (h : n ≤ m) {out : List DLine} (ho : s.dump g n = .ok out) :
    s.dump g m = .ok out := by
  refine ((Keeps.refl _).followed (keeps_table (fun e => ?_) g)) out ho
  unfold PS.dumpGlobal
  split
  · refine (Keeps.refl _).followed (keeps_table (fun e => ?_) _)
    unfold PS.dumpEntry
    split
    · exact .refl _
    · split
      · exact .refl _
      · exact dumpTy_more h _ _
  · exact .refl _

namespace Dumpable
variable {s : PS} (d : Dumpable g s)
include d

/-- the lines of an entry -/
theorem entry_lines {fuel i : Nat} {T : STab} (hT : T ∈ s.tabs) {x : List Char × Ent} (hx : x ∈ T.own) {ls : List DLine}
    (h : s.dumpEntry fuel i x.2 = .ok ls) : ∃ sub, ls = (i, entryItem x.2) :: sub ∧ ∀ l ∈ sub, i + 1 ≤ l.1 := by
  obtain ⟨p, hp⟩ := List.getElem?_of_mem hT
  unfold PS.dumpEntry at h
  rcases d.ents p T x.1 x.2 hp hx with ⟨h1, ob, h2, -, -⟩ | h'
  · rw [if_pos h1, h2] at h
    obtain ⟨sub, e1, e2, -⟩ := obj_lines h
    refine ⟨sub, ?_, e2⟩
    rw [e1]
    unfold entryItem
    rw [if_pos h1]
  · obtain ⟨h1, t, h2, h3, -⟩ := ent_ty h'
    rw [if_neg h1, h2] at h
    obtain ⟨sub, e1, e2⟩ := ty_block _ _ _ _ h
    exact ⟨sub, by rw [e1, h3], e2⟩

/-- the lines of a package -/
theorem pkg_lines {fuel : Nat} {P : Frame} (hP : P.map (·.2.id) = List.range s.tabs.length) (hc : ∀ x ∈ P, x.2.cls = clsPackage)
    {x : List Char × Ent} (hx : x ∈ P) {ls : List DLine} (h : s.dumpGlobal fuel 1 x.2 = .ok ls) :
    ∃ sub, ls = (1, .package x.2.id) :: (2, .late) :: sub ∧
      dumpAll (fun y => s.dumpEntry fuel 2 y.2) (s.tab x.2.id).own = .ok sub ∧ ∀ l ∈ sub, 2 ≤ l.1 := by
  have hT := d.pkg_tab hP hx
  unfold PS.dumpGlobal dumpTable at h
  rw [if_pos (hc x hx), d.parents _ hT] at h
  obtain ⟨a, b, e1, e2, rfl⟩ := followed_ok.1 h
  cases e1
  obtain ⟨y, z, e3, e4, rfl⟩ := dumpAll_cons_ok.1 e2
  cases e4
  rw [List.append_nil]
  refine ⟨y, rfl, e3, fun l hl => ?_⟩
  obtain ⟨a, ha, b, hb, hl⟩ := dumpAll_mem e3 l hl
  obtain ⟨sub, rfl, hs⟩ := d.entry_lines hT ha hb
  rcases List.mem_cons.1 hl with rfl | hl
  · exact Nat.le_refl _
  · exact Nat.le_of_succ_le (hs l hl)

theorem builtin_lines {fuel : Nat} {x : List Char × Ent} (hx : x ∈ globalTable.own) {ls : List DLine}
    (h : s.dumpGlobal fuel 1 x.2 = .ok ls) : ∃ i, ls = [(1, i)] ∧
      i = (if x.2.cls = clsFunction then .function x.2.name else .type (x.2.ty?.getD .bool)) := by
  have : ∀ x ∈ globalTable.own, x.2.cls ≠ clsPackage := by decide +kernel
  unfold PS.dumpGlobal at h
  rw [if_neg (this x hx)] at h
  refine ⟨_, ?_, rfl⟩
  by_cases h6 : x.2.cls = clsFunction
  · rw [if_pos h6] at h ⊢
    cases h
    rfl
  · rw [if_neg h6] at h ⊢
    cases h7 : x.2.ty? with
    | none => rw [h7] at h; cases h
    | some t => rw [h7] at h; cases h; rfl

theorem dump_lines {fuel : Nat} {out : List DLine} (h : s.dump g fuel = .ok out) :
    ∃ P : Frame, (∀ x ∈ P, x.2.cls = clsPackage) ∧ P.map (·.2.id) = List.range s.tabs.length ∧
    ∃ bs ps, out = (0, .symbolTable) :: bs ++ ps ∧ dumpAll (fun x => s.dumpGlobal fuel 1 x.2) globalTable.own = .ok bs ∧
      dumpAll (fun x => s.dumpGlobal fuel 1 x.2) P = .ok ps := by
  obtain ⟨P, h1, h2, h3⟩ := d.glob
  rw [d.dump_eq, h1] at h
  obtain ⟨a, b, e1, e2, rfl⟩ := followed_ok.1 h
  cases e1
  obtain ⟨y, z, e3, e4, rfl⟩ := followed_ok.1 e2
  cases e4
  refine ⟨P, h2, h3, ?_⟩
  have key : ∀ (as bs : Frame) (ls : List DLine), dumpAll (fun x : List Char × Ent => s.dumpGlobal fuel 1 x.2) (as ++ bs) = .ok ls →
      ∃ x y, ls = x ++ y ∧ dumpAll (fun x : List Char × Ent => s.dumpGlobal fuel 1 x.2) as = .ok x ∧
        dumpAll (fun x : List Char × Ent => s.dumpGlobal fuel 1 x.2) bs = .ok y := by
    intro as bs
    induction as with
    | nil => exact fun ls h => ⟨[], ls, rfl, rfl, h⟩
    | cons a as ih =>
      intro ls h
      obtain ⟨u, v, h1, h2, rfl⟩ := dumpAll_cons_ok.1 h
      obtain ⟨x, y, rfl, h3, h4⟩ := ih v h2
      exact ⟨u ++ x, y, by simp, dumpAll_cons_ok.2 ⟨u, x, h1, h3, rfl⟩, h4⟩
  obtain ⟨bs, ps, rfl, k1, k2⟩ := key _ _ y e3
  exact ⟨bs, ps, by simp, k1, k2⟩

theorem entries_outline {fuel : Nat} {T : STab} (hT : T ∈ s.tabs) {sub : List DLine}
    (h : dumpAll (fun y => s.dumpEntry fuel 2 y.2) T.own = .ok sub) : outline 2 sub = T.own.map fun x => entryItem x.2 := by
  rw [outline_all (g := fun x => [entryItem x.2]) ?_ h, ← List.map_eq_flatMap]
  intro y hy z hz
  obtain ⟨sub, rfl, hs⟩ := d.entry_lines hT hy hz
  rw [outline_cons_eq, outline_deep hs (Nat.lt_succ_self _)]

/-- where an entry is dumped -/
theorem entry_block {fuel : Nat} {out : List DLine} (h : s.dump g fuel = .ok out) {T : STab} (hT : T ∈ s.tabs)
    {x : List Char × Ent} (hx : x ∈ T.own) :
    ∃ sub, s.dumpEntry fuel 2 x.2 = .ok ((2, entryItem x.2) :: sub) ∧ Block 2 (entryItem x.2) sub out := by
  obtain ⟨P, h2, h3, bs, ps, rfl, -, hps⟩ := d.dump_lines h
  obtain ⟨p, hp⟩ := List.getElem?_of_mem hT
  have : p ∈ P.map (·.2.id) := by rw [h3, List.mem_range]; exact (List.getElem?_eq_some_iff.1 hp).1
  obtain ⟨e, he, rfl⟩ := List.mem_map.1 this
  have htab : s.tab e.2.id = T := by unfold PS.tab; rw [hp]; rfl
  obtain ⟨-, hpart⟩ := part (P := fun ls => ∀ l, ls.head? = some l → l.1 ≤ 2) (by simp) (fun a ha x y hxa l hl => by
    obtain ⟨sub, rfl, -⟩ := d.pkg_lines h3 h2 ha hxa
    cases hl
    exact Nat.le_succ 1) hps
  obtain ⟨pre, y, post, rfl, hy, hpost⟩ := hpart e he
  obtain ⟨sub, rfl, hsub, -⟩ := d.pkg_lines h3 h2 he hy
  rw [htab] at hsub
  obtain ⟨-, hpart⟩ := part (P := fun ls => ∀ l, ls.head? = some l → l.1 ≤ 2) (by simp) (fun a ha x y hxa l hl => by
    obtain ⟨sub, rfl, -⟩ := d.entry_lines hT ha hxa
    cases hl
    exact Nat.le_refl _) hsub
  obtain ⟨pre', z, post', rfl, hz, hpost'⟩ := hpart x hx
  obtain ⟨sub', rfl, hs'⟩ := d.entry_lines hT hx hz
  refine ⟨sub', hz, (0, .symbolTable) :: bs ++ pre ++ [(1, .package e.2.id), (2, .late)] ++ pre', post' ++ post, by simp, hs', ?_⟩
  intro l hl
  cases post' with
  | nil => exact hpost l hl
  | cons a as => exact hpost' l hl

end Dumpable

/-- **C93**: what is printed about builtin types and functions, and about every package and what is in its table, in the
order of declaration -/
theorem C93_outline (hb : Blank s) (hl : loadAll globalTable fs s = .ok (g, ls) s1)
    (h : (process o X required fs s).out = .table) (fuel : Nat) (out : List DLine)
    (ho : (process o X required fs s).state.dump g fuel = .ok out) :
    outline 0 out = [.symbolTable] ∧
    outline 1 out = builtinItems ++ (List.range (process o X required fs s).state.tabs.length).map .package ∧
    outline 2 out = (process o X required fs s).state.tabs.flatMap fun T => .late :: T.own.map fun x => entryItem x.2 := by
  have d := run_dumpable hb hl h
  revert d ho
  generalize (process o X required fs s).state = s'
  intro ho d
  obtain ⟨P, h2, h3, bs, ps, rfl, hbs, hps⟩ := d.dump_lines ho
  have hbs0 : ∀ l ∈ bs, 1 ≤ l.1 ∧ l.1 ≤ 1 := by
    intro l hl
    obtain ⟨a, ha, b, hb, hl⟩ := dumpAll_mem hbs l hl
    obtain ⟨i, rfl, -⟩ := d.builtin_lines ha hb
    rw [List.mem_singleton] at hl
    subst hl
    simp
  have hps0 : ∀ l ∈ ps, 1 ≤ l.1 := by
    intro l hl
    obtain ⟨a, ha, b, hb, hl⟩ := dumpAll_mem hps l hl
    obtain ⟨sub, rfl, -, hs⟩ := d.pkg_lines h3 h2 ha hb
    simp only [List.mem_cons] at hl
    rcases hl with rfl | rfl | hl
    · simp
    · simp
    · exact Nat.le_of_succ_le (hs l hl)
  refine ⟨?_, ?_, ?_⟩
  · rw [List.cons_append, outline_cons_eq, outline_append, outline_deep (fun l hl => (hbs0 l hl).1) Nat.zero_lt_one,
      outline_deep hps0 Nat.zero_lt_one]
    rfl
  · rw [List.cons_append, outline_cons_ne _ _ (by decide), outline_append,
      outline_all (g := fun x => [if x.2.cls = clsFunction then .function x.2.name else .type (x.2.ty?.getD .bool)]) ?_ hbs,
      outline_all (g := fun x => [.package x.2.id]) ?_ hps, ← List.map_eq_flatMap, ← List.map_eq_flatMap, ← h3, List.map_map]
    · congr 1
    · intro x hx y hy
      obtain ⟨sub, rfl, -, hs⟩ := d.pkg_lines h3 h2 hx hy
      rw [outline_cons_eq, outline_cons_ne _ _ (by decide), outline_deep hs (by decide)]
    · intro x hx y hy
      obtain ⟨i, rfl, rfl⟩ := d.builtin_lines hx hy
      exact outline_cons_eq _ _ _
  · rw [List.cons_append, outline_cons_ne _ _ (by decide), outline_append,
      outline_all (g := fun x => DItem.late :: (s'.tab x.2.id).own.map fun x => entryItem x.2) ?_ hps]
    · have e0 : outline 2 bs = [] := by
        simp only [outline, List.map_eq_nil_iff, List.filter_eq_nil_iff, beq_iff_eq]
        intro l hl e
        have := (hbs0 l hl).2
        omega
      rw [e0, List.nil_append]
      have e1 : P.flatMap (fun x => DItem.late :: (s'.tab x.2.id).own.map fun x => entryItem x.2) =
          (P.map (·.2.id)).flatMap (fun p => DItem.late :: (s'.tab p).own.map fun x => entryItem x.2) := by
        rw [List.flatMap_map]
      have e2 : s'.tabs = (List.range s'.tabs.length).map s'.tab := by
        apply List.ext_getElem?
        intro i
        rw [List.getElem?_map]
        by_cases hi : i < s'.tabs.length
        · rw [List.getElem?_range hi, List.getElem?_eq_getElem hi]
          simp [PS.tab, hi]
        · rw [List.getElem?_eq_none (by omega), List.getElem?_eq_none (by simpa using hi)]
          rfl
      rw [e1, h3]
      conv_rhs => rw [e2]
      rw [List.flatMap_map]
    · intro x hx y hy
      obtain ⟨sub, rfl, hsub, -⟩ := d.pkg_lines h3 h2 hx hy
      rw [outline_cons_ne _ _ (by decide), outline_cons_eq, d.entries_outline (d.pkg_tab h3 hx) hsub]

/-- **C93**: every object is printed: its type, its fields in order, and the innermost section it is in. -/
theorem C93_objects (hb : Blank s) (hl : loadAll globalTable fs s = .ok (g, ls) s1)
    (h : (process o X required fs s).out = .table) (fuel : Nat) (out : List DLine)
    (ho : (process o X required fs s).state.dump g fuel = .ok out) (i : Nat) (ob : Obj)
    (hi : (process o X required fs s).state.objs[i]? = some ob) :
    ∃ sub, Block 2 (.object i) sub out ∧
      outline 3 sub = .typ (.record ob.typ) :: ob.fields.map (fun f => .field f.1) ++ (ob.sects.getLast?.map DItem.sect).toList := by
  have d := run_dumpable hb hl h
  obtain ⟨T, hT, k, e, h1, h2, rfl⟩ := (d.objs i ob hi).2
  obtain ⟨sub, hs, hbl⟩ := d.entry_block ho hT h1
  dsimp only at hs hbl
  have he : entryItem e = .object e.id := by unfold entryItem; rw [if_pos h2]
  rw [he] at hs hbl
  refine ⟨sub, hbl, ?_⟩
  unfold PS.dumpEntry at hs
  rw [if_pos h2, hi] at hs
  obtain ⟨sub', e1, -, e3⟩ := obj_lines hs
  cases e1
  exact e3

/-! ### Every object once -/

theorem objectsIn_entries (F : Frame) : objectsIn (F.map fun x => entryItem x.2) =
    F.filterMap fun x => if x.2.cls = clsObject then some x.2.id else none := by
  unfold objectsIn
  rw [List.filterMap_map]
  congr 1
  funext x
  simp only [Function.comp_apply, entryItem]
  by_cases h : x.2.cls = clsObject
  · simp [h]
  · rw [if_neg h, if_neg h]
    by_cases h1 : x.2.cls = clsRecord
    · rw [if_pos h1]
    · rw [if_neg h1]
      by_cases h2 : x.2.cls = clsTuple
      · rw [if_pos h2]
      · rw [if_neg h2]

theorem objectsIn_tabs : ∀ Ts : List STab, objectsIn (Ts.flatMap fun T => .late :: T.own.map fun x => entryItem x.2) =
    Ts.flatMap fun T => T.own.filterMap fun x => if x.2.cls = clsObject then some x.2.id else none
  | [] => rfl
  | T :: Ts => by
    rw [List.flatMap_cons, List.flatMap_cons, ← objectsIn_tabs Ts, ← objectsIn_entries]
    unfold objectsIn
    rw [List.filterMap_append, List.filterMap_cons]

/-- **C93**: every object is listed exactly once. -/
theorem C93_once (hb : Blank s) (hl : loadAll globalTable fs s = .ok (g, ls) s1)
    (h : (process o X required fs s).out = .table) (fuel : Nat) (out : List DLine)
    (ho : (process o X required fs s).state.dump g fuel = .ok out) :
    (objectsIn (outline 2 out)).Perm (List.range (process o X required fs s).state.objs.length) := by
  have d := run_dumpable hb hl h
  rw [(C93_outline hb hl h fuel out ho).2.2, objectsIn_tabs]
  revert d
  generalize (process o X required fs s).state = s'
  intro d
  have hmem : ∀ (T : STab) (p i : Nat), s'.tabs[p]? = some T →
      i ∈ T.own.filterMap (fun x => if x.2.cls = clsObject then some x.2.id else none) →
      ∃ ob, s'.objs[i]? = some ob ∧ ob.pkg = p := by
    intro T p i hp hi
    obtain ⟨x, hx, hxi⟩ := List.mem_filterMap.1 hi
    split at hxi
    · next hc =>
      cases hxi
      rcases d.ents p T x.1 x.2 hp hx with ⟨-, ob, h1, -, h2⟩ | hlt
      · exact ⟨ob, h1, h2⟩
      · exact absurd hc (ent_ty hlt).1
    · cases hxi
  refine (List.perm_ext_iff_of_nodup ?_ List.nodup_range).2 fun i => ?_
  · rw [List.nodup_flatMap]
    constructor
    · intro T hT
      obtain ⟨p, hp⟩ := List.getElem?_of_mem hT
      have hk : T.own.Pairwise fun x y => x.1 ≠ y.1 := List.pairwise_map.1 (d.keys T hT)
      have hk' : T.own.Pairwise fun x y => x.2.cls = clsObject → y.2.cls = clsObject → x.2.id ≠ y.2.id := by
        refine hk.imp_of_mem fun {x y} hx hy hne h1 h2 he => hne ?_
        rcases d.ents p T x.1 x.2 hp hx with ⟨-, ob, a1, a2, -⟩ | hlt
        · rcases d.ents p T y.1 y.2 hp hy with ⟨-, ob', b1, b2, -⟩ | hlt
          · rw [he, b1] at a1
            cases a1
            rw [d.simple T hT x hx, d.simple T hT y hy, ← a2, ← b2]
          · exact absurd h2 (ent_ty hlt).1
        · exact absurd h1 (ent_ty hlt).1
      refine List.Pairwise.filterMap _ ?_ hk'
      intro x y hxy b hb b' hb'
      split at hb
      · next h1 =>
        split at hb'
        · next h2 =>
          cases hb; cases hb'
          exact hxy h1 h2
        · cases hb'
      · cases hb
    · rw [List.pairwise_iff_getElem]
      intro p q hp hq hpq
      intro i h1 h2
      obtain ⟨ob, a1, a2⟩ := hmem _ p i (List.getElem?_eq_getElem hp) h1
      obtain ⟨ob', b1, b2⟩ := hmem _ q i (List.getElem?_eq_getElem hq) h2
      rw [a1] at b1
      cases b1
      omega
  · rw [List.mem_range, List.mem_flatMap]
    constructor
    · rintro ⟨T, hT, hi⟩
      obtain ⟨p, hp⟩ := List.getElem?_of_mem hT
      obtain ⟨ob, h1, -⟩ := hmem T p i hp hi
      exact (List.getElem?_eq_some_iff.1 h1).1
    · intro hi
      obtain ⟨-, T, hT, k, e, h1, h2, h3⟩ := d.objs i _ (List.getElem?_eq_getElem hi)
      exact ⟨T, hT, List.mem_filterMap.2 ⟨(k, e), h1, by simp [h2, h3]⟩⟩

/-! ### Record types -/

theorem checks_outline {var : Nat → String → DumpR} (hv : ∀ j n, Deep j (var j n)) {i : Nat} {cs : List Check} {ls : List DLine}
    (h : dumpChecks var i cs = .ok ls) : outline i ls = [if cs = [] then .noChecks else .checks] := by
  cases cs with
  | nil => cases h; exact outline_cons_eq _ _ _
  | cons c cs =>
    rw [dumpChecks] at h
    obtain ⟨a, b, e1, e2, rfl⟩ := followed_ok.1 h
    cases e1
    rw [List.singleton_append, outline_cons_eq, outline_deep (deep_all (fun k => check_deep hv _ k) _ b e2) (Nat.lt_succ_self _)]
    rfl

/-- **C93**: every record type is printed with its own and its inherited components, and whether it has checks. -/
theorem C93_records (hb : Blank s) (hl : loadAll globalTable fs s = .ok (g, ls) s1)
    (h : (process o X required fs s).out = .table) (fuel : Nat) (out : List DLine)
    (ho : (process o X required fs s).state.dump g fuel = .ok out) (r : Nat) (R : RecDecl)
    (hr : (process o X required fs s).state.decls.recs[r]? = some R) :
    ∃ (sub : List DLine) (cs : List Comp), Block 2 (.type (.record r)) sub out ∧
      (∀ c, c ∈ cs ↔ HasComp (process o X required fs s).state.decls r c) ∧
      ∃ x, outline 3 sub = (R.parent.map DItem.extends).toList ++ cs.map (fun c => .component c.name) ++ [x] ∧
        (x = .checks ↔ ∃ k, CheckOf (process o X required fs s).state.checks (.record r) k) ∧
        (x = .noChecks ↔ ¬ ∃ k, CheckOf (process o X required fs s).state.checks (.record r) k) := by
  have d := run_dumpable hb hl h
  revert d ho hr
  generalize (process o X required fs s).state = s'
  intro ho hr d
  obtain ⟨T, hT, k, e, h1, h2, rfl⟩ := d.entered clsRecord r (List.getElem?_eq_some_iff.1 hr).1
  obtain ⟨sub, hs, hbl⟩ := d.entry_block ho hT h1
  have he : entryItem e = .type (.record e.id) := by
    unfold entryItem
    rw [h2]
    rfl
  dsimp only at hs hbl
  rw [he] at hs hbl
  refine ⟨sub, (s'.decls.ancestors e.id).flatMap s'.decls.own, hbl, ?_, ?_⟩
  · intro c
    simp only [List.mem_flatMap, mem_ancestors d.sound.world.wf, mem_own, HasComp]
  · unfold PS.dumpEntry at hs
    have hty : e.ty? = some (.record e.id) := by
      obtain ⟨n, id, cls⟩ := e
      cases h2
      rfl
    rw [if_neg (by rw [h2]; decide), hty] at hs
    cases fuel with
    | zero => dsimp only at hs; rw [dumpTy] at hs; cases hs
    | succ fuel =>
      have hs' : dumpTy s'.decls s'.seps s'.checks (fuel + 1) 2 (tyOf (.record e.id)) = .ok ((2, .type (.record e.id)) :: sub) := hs
      rw [dumpTy_composite] at hs'
      obtain ⟨a, b, e1, e2, e3⟩ := followed_ok.1 hs'
      cases e1
      unfold typeHead at e3
      dsimp only at e3
      rw [hr] at e3
      simp only [List.cons_append, List.cons.injEq, true_and] at e3
      have hvar : ∀ j n, Deep j (varOf s'.decls s'.seps s'.checks fuel (.record e.id) j n) := by
        intro j n
        unfold varOf
        split
        · exact deep_error
        · intro ls' e' l' hl'
          obtain ⟨sub, rfl, hs⟩ := ty_block fuel _ _ ls' e'
          rcases List.mem_cons.1 hl' with rfl | hl'
          · exact Nat.le_refl _
          · exact Nat.le_of_succ_le (hs l' hl')
      refine ⟨if s'.checks.of (.record e.id) = [] then .noChecks else .checks, ?_, ?_, ?_⟩
      · rw [e3, outline_append, outline_append, checks_outline hvar e2]
        congr 2
        · rw [Option.bind_some]
          cases R.parent <;> rfl
        · induction (s'.decls.ancestors e.id).flatMap s'.decls.own with
          | nil => rfl
          | cons c cs ih =>
            rw [List.flatMap_cons, outline_append, ih]
            simp [outline, Comp.dump]
      · simp only [← mem_of]
        cases s'.checks.of (.record e.id) <;> simp
      · simp only [← mem_of]
        cases s'.checks.of (.record e.id) <;> simp

end Verif.Props
