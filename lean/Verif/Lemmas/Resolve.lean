import Verif.Lemmas.Run
namespace Verif.Lemmas
open Verif.Model Verif.Spec

/-! ## Looking up objects -/

theorem get_mem {f : Frame} {k : List Char} {e : Ent} (h : f.get k = some e) : (k, e) ∈ f := by
  unfold Frame.get at h
  cases hf : f.find? (fun p => p.1 = k) with
  | none => rw [hf] at h; cases h
  | some x =>
    rw [hf] at h
    simp only [Option.map_some, Option.some.injEq] at h
    have h1 := List.find?_some hf
    have h2 := List.mem_of_find?_eq_some hf
    simp only [decide_eq_true_eq] at h1
    obtain ⟨a, b⟩ := x
    simp only at h h1
    subst h h1
    exact h2

theorem mem_get {f : Frame} {k : List Char} {e : Ent} (hn : (f.map Prod.fst).Nodup)
    (h : (k, e) ∈ f) : f.get k = some e := by
  unfold Frame.get
  induction f with
  | nil => cases h
  | cons x f ih =>
    simp only [List.map_cons, List.nodup_cons] at hn
    rw [List.find?_cons]
    rcases List.mem_cons.1 h with h | h
    · subst h
      simp
    · by_cases hk : x.1 = k
      · exfalso
        apply hn.1
        rw [hk]
        exact List.mem_map.2 ⟨_, h, rfl⟩
      · simp only [hk, decide_false]
        exact ih hn.2 h

theorem chainGet_mem {fs : List Frame} {k : List Char} {e : Ent} (h : chainGet fs k = some e) :
    ∃ f ∈ fs, (k, e) ∈ f := by
  induction fs with
  | nil => cases h
  | cons f fs ih =>
    unfold chainGet at h
    split at h
    · next x hx =>
      injection h with h
      subst h
      exact ⟨f, List.mem_cons_self, get_mem hx⟩
    · obtain ⟨g, h1, h2⟩ := ih h
      exact ⟨g, List.mem_cons_of_mem _ h1, h2⟩

theorem find_mem {T : STab} {k : List Char} {e : Ent} (h : T.find k = some e) :
    (k, e) ∈ T.own ∨ (∃ f ∈ T.parents, (k, e) ∈ f) ∨ ∃ c ∈ T.imported, ∃ f ∈ c, (k, e) ∈ f := by
  unfold STab.find at h
  obtain ⟨c, hc, hg⟩ := List.exists_of_findSome?_eq_some h
  obtain ⟨f, hf, hm⟩ := chainGet_mem hg
  rcases List.mem_cons.1 hc with hc | hc
  · subst hc
    rcases List.mem_cons.1 hf with hf | hf
    · subst hf; exact .inl hm
    · exact .inr (.inl ⟨f, hf, hm⟩)
  · exact .inr (.inr ⟨c, hc, f, hf, hm⟩)

theorem find_own {T : STab} {k : List Char} {e : Ent} (hn : (T.own.map Prod.fst).Nodup)
    (h : (k, e) ∈ T.own) : T.find k = some e := by
  unfold STab.find
  rw [List.findSome?_cons]
  have : chainGet (T.own :: T.parents) k = some e := by
    unfold chainGet
    rw [mem_get hn h]
  rw [this]

variable {s : PS}

theorem tab_some {p : Nat} {T : STab} (h : s.tabs[p]? = some T) : s.tab p = T := by
  simp [PS.tab, h]

theorem lookup_object (hi : TabInv s) {p : Nat} {n : List Char} {e : Ent}
    (h : (s.tab p).lookupDirect n (some fun e => e.cls = clsObject) false = .ok e) :
    ∃ o, IsNamed s.objs e.id p n o := by
  cases hT : s.tabs[p]? with
  | none =>
    simp only [PS.tab, hT, Option.getD_none] at h
    simp [STab.lookupDirect, STab.find, STab.empty, chainGet, Frame.get] at h
  | some T =>
    rw [tab_some hT] at h
    unfold STab.lookupDirect at h
    split at h
    · next rv hf =>
      split at h
      · cases h
      · next h1 =>
        split at h
        · cases h
        · next h2 =>
          injection h with h
          subst h
          simp only [Bool.not_false, Bool.true_and, decide_eq_true_eq, ne_eq, not_not] at h1
          simp only [Option.any_some, Bool.not_eq_true', decide_eq_false_iff_not, not_not] at h2
          rcases find_mem hf with hm | ⟨f, hf', hm⟩ | ⟨c, hc, f, hf', hm⟩
          · obtain ⟨o, k1, k2, k3⟩ := hi.own p T _ _ hT hm h2
            exact ⟨o, k1, k3, k2.trans h1⟩
          · exact absurd h2 (hi.parents p T f _ _ hT hf' hm)
          · exact absurd h2 (hi.imported p T c f _ _ hT hc hf' hm)
    · cases h

theorem lookup_named (hi : TabInv s) {i p : Nat} {n : List Char} {o : Obj}
    (h : IsNamed s.objs i p n o) :
    ∃ e, e.id = i ∧ (s.tab p).lookupDirect n (some fun e => e.cls = clsObject) false = .ok e := by
  obtain ⟨h1, h2, h3⟩ := h
  obtain ⟨T, k, e, k1, k2, k3, k4⟩ := hi.reg i o h1
  rw [h2] at k1
  obtain ⟨o', l1, l2, l3⟩ := hi.own p T k e k1 k2 k4
  rw [k3, h1] at l1
  injection l1 with l1
  subst l1
  have hk := hi.simple p T k e k1 k2
  have hen : e.name = n := by rw [← l2, h3]
  have hf := find_own (hi.keys p T k1) k2
  rw [hk, hen] at hf
  refine ⟨e, k3, ?_⟩
  rw [tab_some k1]
  unfold STab.lookupDirect
  rw [hf]
  simp [hen, k4]

theorem named_unique (hi : TabInv s) {i j p : Nat} {n : List Char} {o o' : Obj}
    (h : IsNamed s.objs i p n o) (h' : IsNamed s.objs j p n o') : i = j := by
  obtain ⟨e, h1, h2⟩ := lookup_named hi h
  obtain ⟨e', h3, h4⟩ := lookup_named hi h'
  rw [h2] at h4
  injection h4 with h4
  rw [← h1, ← h3, h4]

theorem compatible_iff {D : Decls} (wf : WFDecls D) {ms : List Nat} {t : Nat} :
    D.isCompatible ms t = true ↔ ∃ m ∈ ms, Extends D t m := by
  simp only [Decls.isCompatible, List.any_eq_true, isSubclassOf_iff wf]

theorem resolveRef_iff (hi : TabInv s) (wf : WFDecls s.decls) {τ : Ty} {p : Nat} {n : List Char}
    {i : Nat} : s.resolveRef τ p n = .ok i ↔
      ∃ o, IsNamed s.objs i p n o ∧ Referable s.decls o.typ τ := by
  constructor
  · intro h
    unfold PS.resolveRef at h
    split at h
    · cases h
    · next e he =>
      obtain ⟨o, ho⟩ := lookup_object hi he
      rw [ho.1] at h
      simp only at h
      cases τ with
      | union id ms =>
        simp only at h
        split at h
        · next hc => injection h with h; subst h; exact ⟨o, ho, (compatible_iff wf).1 hc⟩
        · cases h
      | record r =>
        simp only at h
        split at h
        · next hc => injection h with h; subst h; exact ⟨o, ho, (isSubclassOf_iff wf _ _).1 hc⟩
        · cases h
      | _ => cases h
  · rintro ⟨o, ho, hr⟩
    obtain ⟨e, he, hl⟩ := lookup_named hi ho
    unfold PS.resolveRef
    rw [hl]
    simp only
    rw [he, ho.1]
    simp only
    cases τ with
    | union id ms => simp only; rw [if_pos ((compatible_iff wf).2 hr)]
    | record r => simp only; rw [if_pos ((isSubclassOf_iff wf _ _).2 hr)]
    | _ => cases hr

theorem resolveMRefs_iff (hi : TabInv s) : ∀ (rs : List MRef),
    (∃ os, s.resolveMRefs rs = .ok os) ↔ ∀ r ∈ rs, ∃ i o, IsNamed s.objs i r.pkg r.name o := by
  intro rs
  induction rs with
  | nil => simp [PS.resolveMRefs]
  | cons r rs ih =>
    have hr : (∃ i, s.resolveMRef r = .ok i) ↔ ∃ i o, IsNamed s.objs i r.pkg r.name o := by
      constructor
      · rintro ⟨i, h⟩
        unfold PS.resolveMRef at h
        split at h
        · cases h
        · next e he =>
          obtain ⟨o, ho⟩ := lookup_object hi he
          exact ⟨e.id, o, ho⟩
      · rintro ⟨i, o, ho⟩
        obtain ⟨e, he, hl⟩ := lookup_named hi ho
        exact ⟨e.id, by unfold PS.resolveMRef; rw [hl]⟩
    simp only [List.mem_cons, forall_eq_or_imp]
    rw [← ih, ← hr]
    have he : s.resolveMRefs (r :: rs) = match s.resolveMRef r with
      | .error e => .error e
      | .ok o => match s.resolveMRefs rs with
        | .error e => .error e
        | .ok os => .ok (o :: os) := rfl
    rw [he]
    cases h1 : s.resolveMRef r <;> cases h2 : s.resolveMRefs rs <;> simp

/-! ## Values -/

mutual
theorem resolveVal_iff (hi : TabInv s) (wf : WFDecls s.decls) : (v : PVal) → (f : FExpr) →
    (s.resolveVal v = .ok f ↔ Resolved s.decls s.objs v f)
  | .inull, f => by simp [PS.resolveVal, Resolved, eq_comm]
  | .bool b, f => by simp [PS.resolveVal, Resolved, eq_comm]
  | .int i, f => by simp [PS.resolveVal, Resolved, eq_comm]
  | .dec q, f => by simp [PS.resolveVal, Resolved, eq_comm]
  | .str v, f => by simp [PS.resolveVal, Resolved, eq_comm]
  | .enum t l, f => by simp [PS.resolveVal, Resolved, eq_comm]
  | .markup v refs, f => by
    have h := resolveMRefs_iff hi refs
    simp only [PS.resolveVal, Resolved, ← h]
    cases hr : s.resolveMRefs refs <;> simp [eq_comm]
  | .neg e, f => by
    have h := resolveVal_iff hi wf e
    simp only [PS.resolveVal, Resolved, ← h]
    cases hr : s.resolveVal e <;> simp [eq_comm]
  | .pos e, f => by
    have h := resolveVal_iff hi wf e
    simp only [PS.resolveVal, Resolved, ← h]
    cases hr : s.resolveVal e <;> simp [eq_comm]
  | .arr t es, f => by
    have h := resolveVals_iff hi wf es
    simp only [PS.resolveVal, Resolved, ← h]
    cases hr : s.resolveVals es <;> simp [eq_comm]
  | .tup t fs, f => by
    have h := resolveFields_iff hi wf fs
    simp only [PS.resolveVal, Resolved, ← h]
    cases hr : s.resolveFields fs <;> simp [eq_comm]
  | .ref τ p n, f => by
    simp only [PS.resolveVal, Resolved]
    constructor
    · intro h
      split at h
      · cases h
      · next o ho =>
        injection h with h
        obtain ⟨ob, h1, h2⟩ := (resolveRef_iff hi wf).1 ho
        exact ⟨o, ob, h.symm, h1, h2⟩
    · rintro ⟨i, o, rfl, h1, h2⟩
      rw [(resolveRef_iff hi wf).2 ⟨o, h1, h2⟩]

theorem resolveVals_iff (hi : TabInv s) (wf : WFDecls s.decls) : (es : List PVal) →
    (gs : List FExpr) → (s.resolveVals es = .ok gs ↔ ResolvedAll s.decls s.objs es gs)
  | [], gs => by simp [PS.resolveVals, ResolvedAll, eq_comm]
  | e :: es, gs => by
    have h1 := resolveVal_iff hi wf e
    have h2 := resolveVals_iff hi wf es
    simp only [PS.resolveVals, ResolvedAll, ← h1, ← h2]
    cases hr : s.resolveVal e <;> cases hs : s.resolveVals es <;> simp [eq_comm]

theorem resolveFields_iff (hi : TabInv s) (wf : WFDecls s.decls) : (es : List (String × PVal)) →
    (gs : List (String × FExpr)) →
    (s.resolveFields es = .ok gs ↔ ResolvedFields s.decls s.objs es gs)
  | [], gs => by simp [PS.resolveFields, ResolvedFields, eq_comm]
  | e :: es, gs => by
    have h1 := resolveField_iff hi wf e
    have h2 := resolveFields_iff hi wf es
    simp only [PS.resolveFields, ResolvedFields, ← h1, ← h2]
    cases hr : s.resolveField e <;> cases hs : s.resolveFields es <;> simp [eq_comm]

theorem resolveField_iff (hi : TabInv s) (wf : WFDecls s.decls) : (e : String × PVal) →
    (g : String × FExpr) → (s.resolveField e = .ok g ↔ ResolvedField s.decls s.objs e g)
  | (n, e), (m, g) => by
    have h1 := resolveVal_iff hi wf e
    simp only [PS.resolveField, ResolvedField, ← h1]
    cases hr : s.resolveVal e <;> simp [eq_comm]
end

theorem resolveNodes_iff (hi : TabInv s) (wf : WFDecls s.decls) : ∀ (fs : List (String × VNode))
    (gs : Fields), s.resolveNodes fs = .ok gs ↔ ResolvedObj s.decls s.objs fs gs := by
  intro fs
  induction fs with
  | nil => intro gs; simp [PS.resolveNodes, ResolvedObj, eq_comm]
  | cons f fs ih =>
    intro gs
    obtain ⟨n, v⟩ := f
    have h1 := resolveVal_iff hi wf v.val
    simp only [PS.resolveNodes, ResolvedObj, ← h1, ← ih]
    cases hr : s.resolveVal v.val <;> cases hs : s.resolveNodes fs <;> simp [eq_comm]

/-! ## All objects are visited -/

theorem mem_values {T : STab} {cls : Nat} {e : Ent} : e ∈ T.values cls ↔
    e.cls = cls ∧ ∃ k, (k, e) ∈ T.own ∨ ∃ f ∈ T.parents, (k, e) ∈ f := by
  unfold STab.values
  simp only [List.mem_flatMap, List.mem_append, List.mem_reverse, List.mem_singleton,
    List.mem_filter, List.mem_map, beq_iff_eq]
  constructor
  · rintro ⟨f, hf, ⟨x, hx, rfl⟩, hc⟩
    have hx : x ∈ f := (pySort_perm _ _).mem_iff.1 hx
    refine ⟨hc, x.1, ?_⟩
    rcases hf with hf | hf
    · exact .inr ⟨f, hf, hx⟩
    · subst hf; exact .inl hx
  · rintro ⟨hc, k, h | ⟨f, hf, h⟩⟩
    · exact ⟨T.own, .inr rfl, ⟨(k, e), (pySort_perm _ _).mem_iff.2 h, rfl⟩, hc⟩
    · exact ⟨f, .inl hf, ⟨(k, e), (pySort_perm _ _).mem_iff.2 h, rfl⟩, hc⟩

theorem visited_all (hi : TabInv s) {global : STab} (hp : PkgsKnown global s) {i : Nat} {o : Obj}
    (h : s.objs[i]? = some o) : i ∈ s.visited global := by
  obtain ⟨T, k, e, h1, h2, h3, h4⟩ := hi.reg i o h
  obtain ⟨k', g, h5, h6, h7⟩ := hp o.pkg (List.getElem?_eq_some_iff.1 h1).1
  unfold PS.visited
  refine List.mem_flatMap.2 ⟨g, mem_values.2 ⟨h6, k', .inl h5⟩, ?_⟩
  refine List.mem_map.2 ⟨e, mem_values.2 ⟨h4, k, .inl ?_⟩, h3⟩
  rw [h7, tab_some h1]
  exact h2

theorem resolveAll_iff (hi : TabInv s) (wf : WFDecls s.decls) {global : STab}
    (hp : PkgsKnown global s) : s.resolveAll global = [] ↔
      ∀ (i : Nat) (o : Obj), s.objs[i]? = some o →
        ∃ fs, ResolvedObj s.decls s.objs o.fields fs := by
  unfold PS.resolveAll
  rw [List.filterMap_eq_nil_iff]
  constructor
  · intro h i o ho
    have := h i (visited_all hi hp ho)
    unfold PS.resolveOne at this
    rw [ho] at this
    simp only at this
    split at this
    · cases this
    · next fs hfs => exact ⟨fs, (resolveNodes_iff hi wf _ _).1 hfs⟩
  · intro h i _
    unfold PS.resolveOne
    cases ho : s.objs[i]? with
    | none => rfl
    | some o =>
      obtain ⟨fs, hfs⟩ := h i o ho
      simp only
      rw [(resolveNodes_iff hi wf _ _).2 hfs]

/-! ## Resolved values have their types -/

mutual
theorem resolved_ok {D : Decls} {objs : List Obj} : (v : PVal) → (τ : Ty) → (f : FExpr) →
    VOk D v τ → Resolved D objs v f → FOk D (fun o => (objs[o]?).map (·.typ)) f τ
  | .inull, τ, f, h, _ => h.elim
  | .bool b, τ, f, h, h' => by simp only [Resolved] at h'; subst h'; exact h
  | .int i, τ, f, h, h' => by simp only [Resolved] at h'; subst h'; exact h
  | .dec q, τ, f, h, h' => by simp only [Resolved] at h'; subst h'; exact h
  | .str v, τ, f, h, h' => by simp only [Resolved] at h'; subst h'; exact h
  | .enum t l, τ, f, h, h' => by simp only [Resolved] at h'; subst h'; exact h
  | .markup v refs, τ, f, h, h' => by
    simp only [Resolved] at h'
    obtain ⟨rfl, -⟩ := h'
    exact h
  | .neg e, τ, f, h, h' => by
    simp only [Resolved] at h'
    obtain ⟨g, rfl, hg⟩ := h'
    rcases h with ⟨rfl, i, rfl⟩ | ⟨rfl, q, rfl⟩ <;> simp only [Resolved] at hg <;> subst hg
    · exact .inl ⟨rfl, i, rfl⟩
    · exact .inr ⟨rfl, q, rfl⟩
  | .pos e, τ, f, h, h' => by
    simp only [Resolved] at h'
    obtain ⟨g, rfl, hg⟩ := h'
    rcases h with ⟨rfl, i, rfl⟩ | ⟨rfl, q, rfl⟩ <;> simp only [Resolved] at hg <;> subst hg
    · exact .inl ⟨rfl, i, rfl⟩
    · exact .inr ⟨rfl, q, rfl⟩
  | .arr t es, τ, f, h, h' => by
    simp only [Resolved] at h'
    obtain ⟨gs, rfl, hg⟩ := h'
    simp only [VOk] at h
    obtain ⟨rfl, id, elem, lo, hi, rfl, ha⟩ := h
    exact ⟨rfl, id, elem, lo, hi, rfl, resolvedAll_ok es elem gs ha hg⟩
  | .tup t fs, τ, f, h, h' => by
    simp only [Resolved] at h'
    obtain ⟨gs, rfl, hg⟩ := h'
    simp only [VOk] at h
    obtain ⟨rfl, cs, hcs, ha⟩ := h
    exact ⟨rfl, cs, hcs, resolvedFields_ok fs cs gs ha hg⟩
  | .ref t p n, τ, f, h, h' => by
    simp only [Resolved] at h'
    obtain ⟨i, o, rfl, hn, hr⟩ := h'
    simp only [VOk] at h
    obtain ⟨rfl, -⟩ := h
    exact ⟨rfl, i, o.typ, rfl, by simp [hn.1], hr⟩

theorem resolvedAll_ok {D : Decls} {objs : List Obj} : (es : List PVal) → (τ : Ty) →
    (gs : List FExpr) → AllVOk D es τ → ResolvedAll D objs es gs →
    AllOk D (fun o => (objs[o]?).map (·.typ)) gs τ
  | [], τ, gs, _, h' => by simp only [ResolvedAll] at h'; subst h'; trivial
  | e :: es, τ, gs, h, h' => by
    simp only [ResolvedAll] at h'
    obtain ⟨g, hs, rfl, h1, h2⟩ := h'
    exact ⟨resolved_ok e τ g h.1 h1, resolvedAll_ok es τ hs h.2 h2⟩

theorem resolvedFields_ok {D : Decls} {objs : List Obj} : (fs : List (String × PVal)) →
    (cs : List Comp) → (gs : List (String × FExpr)) → FieldsVOk D fs cs →
    ResolvedFields D objs fs gs → FieldsOk D (fun o => (objs[o]?).map (·.typ)) gs cs
  | [], [], gs, _, h' => by simp only [ResolvedFields] at h'; subst h'; trivial
  | [], _ :: _, gs, h, _ => h.elim
  | _ :: _, [], gs, h, _ => h.elim
  | f :: fs, c :: cs, gs, h, h' => by
    simp only [ResolvedFields] at h'
    obtain ⟨g, hs, rfl, h1, h2⟩ := h'
    exact ⟨resolvedField_ok f c g h.1 h1, resolvedFields_ok fs cs hs h.2 h2⟩

theorem resolvedField_ok {D : Decls} {objs : List Obj} : (f : String × PVal) →
    (c : Comp) → (g : String × FExpr) → FieldVOk D f c →
    ResolvedField D objs f g → FieldOk D (fun o => (objs[o]?).map (·.typ)) g c
  | (n, e), c, (m, g), h, h' => by
    simp only [ResolvedField] at h'
    obtain ⟨rfl, h1⟩ := h'
    obtain ⟨h2, h3⟩ := h
    refine ⟨h2, ?_⟩
    rcases h3 with ⟨h3, h4⟩ | h3
    · subst h4
      simp only [Resolved] at h1
      exact .inl ⟨h3, h1⟩
    · exact .inr (resolved_ok e c.ty g h3 h1)
end

theorem resolvedObj_lookup {D : Decls} {objs : List Obj} : ∀ {fs : List (String × VNode)} {gs : Fields},
    ResolvedObj D objs fs gs → ∀ k,
      (∀ v, fs.lookup k = some v → ∃ e, gs.lookup k = some ⟨v.id, e⟩ ∧ Resolved D objs v.val e) ∧
      (fs.lookup k = none → gs.lookup k = none) := by
  intro fs
  induction fs with
  | nil => intro gs h k; simp only [ResolvedObj] at h; subst h; simp
  | cons f fs ih =>
    intro gs h k
    obtain ⟨n, v⟩ := f
    simp only [ResolvedObj] at h
    obtain ⟨e, hs, rfl, h1, h2⟩ := h
    simp only [List.lookup_cons]
    cases hk : k == n
    · exact ih h2 k
    · simp only
      refine ⟨fun w hw => ?_, fun h => by cases h⟩
      injection hw with hw
      subst hw
      exact ⟨e, rfl, h1⟩

theorem complete_ok {D : Decls} {infos : List RecInfo} (hw : WorldOk D infos) {objs : List Obj}
    {ob : Obj} {gs : Fields} (hc : ObjComplete D infos ob) (hr : ResolvedObj D objs ob.fields gs) :
    ObjOk D (fun o => (objs[o]?).map (·.typ)) gs ob.typ := by
  have hl := resolvedObj_lookup hr
  refine ⟨fun c hcomp => ?_, fun k hk => ?_⟩
  · obtain ⟨n, hn, hv⟩ := hc.1 c hcomp
    obtain ⟨e, he, hres⟩ := (hl c.name).1 n hn
    refine ⟨_, he, ?_⟩
    rcases hv with hf | ⟨-, ⟨h1, h2⟩ | h1⟩
    · obtain ⟨a, i, ha, hi, hlk⟩ := hf
      obtain ⟨c', hc', hcn, hvok⟩ := hw.frozen a i c.name n hi hlk
      have : c' = c := by
        obtain ⟨b, hb, hd⟩ := hc'
        exact hw.unique ob.typ c' c ⟨b, extends_trans ha hb, hd⟩ hcomp hcn
      subst this
      exact .inr (resolved_ok _ _ _ hvok hres)
    · rw [h2] at hres
      simp only [Resolved] at hres
      exact .inl ⟨h1, hres⟩
    · exact .inr (resolved_ok _ _ _ h1 hres)
  · refine hc.2.1 k ?_
    cases hf : ob.fields.lookup k with
    | none => rw [(hl k).2 hf] at hk; exact hk
    | some v => rfl

end Verif.Lemmas
