import Verif.Lemmas.ParseWritten
import Verif.Lemmas.ElabSound
import Verif.Spec.Objects
namespace Verif.Lemmas
open Verif.Model Verif.Spec

/-! ## The relation kept by parsing record objects -/

/-- Entries of package tables that are record objects belong to an object of that name and
package; no record objects are visible in package tables from elsewhere; every object has such
an entry.  The keys are the simplified names, each once. -/
structure TabInv (s : PS) : Prop where
  own : ∀ (p : Nat) (T : STab) (k : List Char) (e : Ent), s.tabs[p]? = some T → (k, e) ∈ T.own →
    e.cls = clsObject → ∃ o : Obj, s.objs[e.id]? = some o ∧ o.name = e.name ∧ o.pkg = p
  parents : ∀ (p : Nat) (T : STab) (f : Frame) (k : List Char) (e : Ent), s.tabs[p]? = some T →
    f ∈ T.parents → (k, e) ∈ f → e.cls ≠ clsObject
  imported : ∀ (p : Nat) (T : STab) (c : List Frame) (f : Frame) (k : List Char) (e : Ent),
    s.tabs[p]? = some T → c ∈ T.imported → f ∈ c → (k, e) ∈ f → e.cls ≠ clsObject
  reg : ∀ (i : Nat) (o : Obj), s.objs[i]? = some o → ∃ (T : STab) (k : List Char) (e : Ent),
    s.tabs[o.pkg]? = some T ∧ (k, e) ∈ T.own ∧ e.id = i ∧ e.cls = clsObject
  keys : ∀ (p : Nat) (T : STab), s.tabs[p]? = some T → (T.own.map Prod.fst).Nodup
  simple : ∀ (p : Nat) (T : STab) (k : List Char) (e : Ent), s.tabs[p]? = some T →
    (k, e) ∈ T.own → k = simplifiedName e.name

/-- The first `n` objects stay as they are; objects are added, nodes numbered, tokens consumed
and errors reported. -/
structure Ro (n : Nat) (s s' : PS) : Prop where
  decls : s'.decls = s.decls
  infos : s'.infos = s.infos
  seps : s'.seps = s.seps
  objs : s'.objs.take n = s.objs.take n
  more : s.objs.length ≤ s'.objs.length
  nid : s.nid ≤ s'.nid
  errs : ∃ l, s'.errs = s.errs ++ l
  toks : s'.toks ≤ s.toks
  inv : TabInv s → TabInv s'
  ntabs : s'.tabs.length = s.tabs.length

theorem TabInv.same {s s' : PS} (h : TabInv s) (ht : s'.tabs = s.tabs)
    (ho : s'.objs.map (fun o => (o.name, o.pkg)) = s.objs.map (fun o => (o.name, o.pkg))) :
    TabInv s' := by
  have key : ∀ (a b : List Obj) (i : Nat) (o : Obj),
      b.map (fun o => (o.name, o.pkg)) = a.map (fun o => (o.name, o.pkg)) → a[i]? = some o →
      ∃ o' : Obj, b[i]? = some o' ∧ o'.name = o.name ∧ o'.pkg = o.pkg := by
    intro a b i o hab hi
    have h1 := congrArg (fun l => l[i]?) hab
    simp only [List.getElem?_map, hi, Option.map_some] at h1
    cases hb : b[i]? with
    | none => rw [hb] at h1; cases h1
    | some o' =>
      rw [hb] at h1
      simp only [Option.map_some, Option.some.injEq, Prod.mk.injEq] at h1
      exact ⟨o', rfl, h1.1, h1.2⟩
  refine ⟨fun p T k e hT hm hc => ?_, by rw [ht]; exact h.parents, by rw [ht]; exact h.imported,
    fun i o hi => ?_, by rw [ht]; exact h.keys, by rw [ht]; exact h.simple⟩
  · rw [ht] at hT
    obtain ⟨o, h1, h2, h3⟩ := h.own p T k e hT hm hc
    obtain ⟨o', k1, k2, k3⟩ := key _ _ _ o ho h1
    exact ⟨o', k1, k2.trans h2, k3.trans h3⟩
  · obtain ⟨o', k1, -, k3⟩ := key _ _ _ o ho.symm hi
    obtain ⟨T, k, e, h1, h2⟩ := h.reg i o' k1
    exact ⟨T, k, e, by rw [ht, ← k3]; exact h1, h2⟩

theorem Ro.refl (n : Nat) (s : PS) : Ro n s s :=
  ⟨rfl, rfl, rfl, rfl, Nat.le_refl _, Nat.le_refl _, ⟨[], by simp⟩, Nat.le_refl _, id, rfl⟩

theorem Ro.trans {n : Nat} {a b c : PS} (h : Ro n a b) (h' : Ro n b c) : Ro n a c := by
  obtain ⟨l, hl⟩ := h.errs
  obtain ⟨l', hl'⟩ := h'.errs
  exact ⟨h'.decls.trans h.decls, h'.infos.trans h.infos, h'.seps.trans h.seps,
    h'.objs.trans h.objs, Nat.le_trans h.more h'.more, Nat.le_trans h.nid h'.nid,
    ⟨l ++ l', by rw [hl', hl, List.append_assoc]⟩, Nat.le_trans h'.toks h.toks,
    fun hi => h'.inv (h.inv hi), h'.ntabs.trans h.ntabs⟩

instance (n : Nat) : PreRel (Ro n) := ⟨Ro.refl n, Ro.trans⟩

theorem Ro.mono {n m : Nat} {s s' : PS} (h : Ro n s s') (hm : m ≤ n) : Ro m s s' := by
  refine ⟨h.decls, h.infos, h.seps, ?_, h.more, h.nid, h.errs, h.toks, h.inv, h.ntabs⟩
  have := congrArg (List.take m) h.objs
  rwa [List.take_take, List.take_take, Nat.min_eq_left hm] at this

theorem Fr.ro {s s' : PS} (h : Fr s s') (n : Nat) : Ro n s s' :=
  ⟨h.decls, h.infos, h.seps, by rw [h.objs], by rw [h.objs]; exact Nat.le_refl _,
    by rw [h.nid]; exact Nat.le_refl _, h.errs, h.toks,
    fun hi => hi.same h.tabs (by rw [h.objs]), by rw [h.tabs]⟩

theorem Sp.ro {α : Type} {x : P α} {s : PS} {Q : α → PS → Prop} (h : Sp Fr x s Q) (n : Nat) :
    Sp (Ro n) x s (fun a s' => Fr s s' ∧ Q a s') := by
  unfold Sp at h ⊢
  cases hx : x s <;> rw [hx] at h
  · exact ⟨h.1.ro n, h.1, h.2⟩
  · exact h.ro n
  · exact ⟨h.1.ro n, h.2⟩

theorem ro_fail {α : Type} {n : Nat} {e : PErr} {s : PS} {Q : α → PS → Prop} :
    Sp (Ro n) (P.fail e : P α) s Q := by
  have := (sp_fail (α := α) (e := e) (s := s) (Q := Q)).ro n
  exact this.mono fun _ _ _ h => h.2

/-! ## Field dictionaries -/

theorem lookup_setKey {α : Type} (d : List (String × α)) (k : String) (v : α) (k' : String) :
    (setKey d k v).lookup k' =
      if k' = k ∧ (d.lookup k).isSome then some v else d.lookup k' := by
  induction d with
  | nil => simp [setKey]
  | cons p d ih =>
    obtain ⟨a, b⟩ := p
    unfold setKey at ih ⊢
    simp only [List.map_cons]
    by_cases hak : a = k
    · subst hak
      by_cases hk : k' = a
      · subst hk; simp [List.lookup_cons]
      · have : (k' == a) = false := by simp [hk]
        simp only [if_true, List.lookup_cons, this, ih]
        simp [hk]
    · have hka : (k == a) = false := by simp [Ne.symm hak]
      simp only [hak, if_false, List.lookup_cons, hka]
      by_cases hk : k' = a
      · subst hk
        simp [hak]
      · have : (k' == a) = false := by simp [hk]
        simp only [this, ih]

theorem freshFields_lookup (cs : List Comp) : ∀ (nid : Nat) (c : Comp), c ∈ cs →
    ∃ n, (freshFields nid cs).lookup c.name = some n ∧ n.val = .inull ∧ nid ≤ n.id ∧
      n.id < nid + cs.length := by
  induction cs with
  | nil => intro _ c h; cases h
  | cons d cs ih =>
    intro nid c hc
    unfold freshFields
    simp only [List.lookup_cons]
    by_cases h : c.name = d.name
    · simp only [h, beq_self_eq_true]
      exact ⟨_, rfl, rfl, Nat.le_refl _, by simp⟩
    · have hb : (c.name == d.name) = false := by simp [h]
      simp only [hb]
      rcases List.mem_cons.1 hc with rfl | hc
      · exact absurd rfl h
      · obtain ⟨n, h1, h2, h3, h4⟩ := ih (nid + 1) c hc
        exact ⟨n, h1, h2, by omega, by simp only [List.length_cons]; omega⟩

theorem freshFields_keys (cs : List Comp) : ∀ (nid : Nat) (k : String),
    ((freshFields nid cs).lookup k).isSome → ∃ c ∈ cs, c.name = k := by
  induction cs with
  | nil => intro _ k h; simp [freshFields] at h
  | cons d cs ih =>
    intro nid k h
    unfold freshFields at h
    simp only [List.lookup_cons] at h
    by_cases hk : k = d.name
    · exact ⟨d, by simp, hk.symm⟩
    · have hb : (k == d.name) = false := by simp [hk]
      simp only [hb] at h
      obtain ⟨c, hc, e⟩ := ih _ _ h
      exact ⟨c, by simp [hc], e⟩

theorem freshFields_fst (cs : List Comp) : ∀ (nid : Nat),
    (freshFields nid cs).map Prod.fst = cs.map (·.name) := by
  induction cs with
  | nil => intro _; rfl
  | cons d cs ih => intro nid; simp [freshFields, ih]

theorem setKey_keys {α : Type} (d : List (String × α)) (k : String) (v : α) :
    (setKey d k v).map Prod.fst = d.map Prod.fst := by
  unfold setKey
  rw [List.map_map]
  refine List.map_congr_left fun p _ => ?_
  simp only [Function.comp_apply]
  split
  · next h => exact h.symm
  · rfl

theorem chain_pairwise {D : Decls} (wf : WFDecls D) : ∀ (n t : Nat),
    (D.chain n t).Pairwise (fun a b => b < a) ∧ ∀ a ∈ D.chain n t, a ≤ t := by
  intro n
  induction n with
  | zero => intro t; simp [Decls.chain]
  | succ n ih =>
    intro t
    unfold Decls.chain
    cases hr : D.recs[t]? with
    | none => simp
    | some r =>
      simp only
      cases hp : r.parent with
      | none => simp
      | some p =>
        have hlt : p < t := wf t p ⟨r, hr, hp⟩
        obtain ⟨h1, h2⟩ := ih p
        simp only [List.pairwise_cons, List.mem_cons]
        refine ⟨⟨fun a ha => ?_, h1⟩, ?_⟩
        · have := h2 a ha
          omega
        · rintro a (rfl | ha)
          · exact Nat.le_refl _
          · have := h2 a ha
            omega

theorem allComponents_nodup {D : Decls} {infos : List RecInfo} (hw : WorldOk D infos) (t : Nat) :
    ((D.allComponents t).map (·.name)).Nodup := by
  unfold Decls.allComponents List.Nodup
  rw [List.pairwise_map, List.pairwise_flatMap]
  have hdec : ∀ {a c}, c ∈ D.own a → Declares D a c := by
    intro a c h
    unfold Decls.own at h
    split at h
    · cases h
    · next r hr => exact ⟨r, hr, h⟩
  constructor
  · intro a _
    unfold Decls.own
    split
    · exact List.Pairwise.nil
    · next r hr => exact (List.pairwise_map.1 (hw.distinct a r hr))
  · have h := (chain_pairwise hw.wf D.recs.length t).1
    have h' : ((D.ancestors t).reverse).Pairwise (fun a b => a < b) := by
      rw [List.pairwise_reverse]
      exact h
    refine (List.Pairwise.imp_of_mem ?_ h')
    intro a b ha hb hlt x hx y hy hxy
    have hx' := hdec hx
    have hy' := hdec hy
    have : x = y := hw.unique t x y ⟨a, (mem_ancestors hw.wf t a).1 (List.mem_reverse.1 ha), hx'⟩
      ⟨b, (mem_ancestors hw.wf t b).1 (List.mem_reverse.1 hb), hy'⟩ hxy
    subst this
    have h1 := hw.owner a x hx'
    rw [hw.owner b x hy'] at h1
    injection h1 with h1
    omega

theorem vok_notNull {D : Decls} {v : PVal} {τ : Ty} (h : VOk D v τ) : v.isNull = false := by
  cases v <;> simp [PVal.isNull, VOk] at h ⊢

/-! ## Frozen components -/

section
variable {s : PS} (wf : WFDecls s.decls)
include wf

theorem frozenIn_iff {t : Nat} {name : String} {node : VNode} :
    FrozenIn s.decls s.infos t name node ↔
      ∃ a ∈ s.decls.ancestors t, (s.info a).frozen.lookup name = some node := by
  constructor
  · rintro ⟨a, i, he, hi, hl⟩
    exact ⟨a, (mem_ancestors wf t a).2 he, by simp [PS.info, hi, hl]⟩
  · rintro ⟨a, ha, hl⟩
    refine ⟨a, _, (mem_ancestors wf t a).1 ha, ?_, hl⟩
    unfold PS.info at hl ⊢
    cases hi : s.infos[a]? with
    | none => rw [hi] at hl; simp at hl
    | some i => simp

theorem isFrozen_iff {t : Nat} {name : String} :
    s.isFrozen t name = true ↔ ∃ node, FrozenIn s.decls s.infos t name node := by
  unfold PS.isFrozen
  rw [List.any_eq_true]
  constructor
  · rintro ⟨a, ha, h⟩
    obtain ⟨n, hn⟩ := Option.isSome_iff_exists.1 h
    exact ⟨n, (frozenIn_iff wf).2 ⟨a, ha, hn⟩⟩
  · rintro ⟨n, hn⟩
    obtain ⟨a, ha, hl⟩ := (frozenIn_iff wf).1 hn
    exact ⟨a, ha, by rw [hl]; rfl⟩

theorem freezing_some {t : Nat} {name : String} {node : VNode} (h : s.freezing t name = some node) :
    FrozenIn s.decls s.infos t name node := by
  obtain ⟨a, ha, hl⟩ := List.exists_of_findSome?_eq_some h
  exact (frozenIn_iff wf).2 ⟨a, ha, hl⟩

theorem freezing_isSome {t : Nat} {name : String} (h : s.isFrozen t name = true) :
    (s.freezing t name).isSome := by
  unfold PS.freezing
  rw [List.findSome?_isSome_iff]
  unfold PS.isFrozen at h
  rw [List.any_eq_true] at h
  exact h

end

/-! ## The object under construction -/

theorem Sp.withRd {α : Type} {x : P α} {s : PS} {Q : α → PS → Prop} {Q' : α → List Token → PS → Prop}
    (h : Sp Fr x s Q) (h' : Rd x s Q') :
    Sp Fr x s (fun a s' => Q a s' ∧ ∃ ts, words s = ts ++ words s' ∧ Q' a ts s') := by
  unfold Sp at h ⊢
  cases hx : x s with
  | ok a s' =>
    rw [hx] at h
    obtain ⟨-, ts, h1, h2⟩ := h' a s' hx
    exact ⟨h.1, h.2, ts, h1, h2⟩
  | err s' => rw [hx] at h; exact h
  | crash c s' => rw [hx] at h; exact h

theorem errs_between {a b c : List PErr} (h : ∃ l, b = a ++ l) (h' : ∃ l, c = b ++ l) (e : c = a) :
    b = a ∧ c = b := by
  obtain ⟨l, rfl⟩ := h
  obtain ⟨l', rfl⟩ := h'
  rw [List.append_assoc] at e
  have h1 : l ++ l' = [] := by simpa using e
  rw [List.append_eq_nil_iff] at h1
  simp [h1.1, h1.2]

theorem mem_of_assoc {α : Type} {l : List (String × α)} {k : String} {v : α}
    (h : l.lookup k = some v) : (k, v) ∈ l := by
  induction l with
  | nil => cases h
  | cons p l ih =>
    obtain ⟨a, b⟩ := p
    rw [List.lookup_cons] at h
    by_cases e : k = a
    · simp only [e, beq_self_eq_true] at h
      injection h with h
      simp [e, h]
    · have : (k == a) = false := by simp [e]
      simp only [this] at h
      exact List.mem_cons_of_mem _ (ih h)

/-- The object under construction is the last one: the objects before it are `pre`; `n0` is the
number of the first node created for it; `asg` are the assignments so far. -/
structure Body (D : Decls) (infos : List RecInfo) (pre : List Obj) (n0 : Nat) (proto : Obj)
    (asg : List (String × PVal)) (s : PS) : Prop where
  decls : s.decls = D
  infos' : s.infos = infos
  sects' : s.sects = proto.sects
  ex : ∃ ob, s.objs = pre ++ [ob] ∧ ob.pkg = proto.pkg ∧ ob.name = proto.name ∧
    ob.typ = proto.typ ∧ ob.sects = proto.sects ∧
    (∀ c, HasComp D proto.typ c → ∃ n, ob.fields.lookup c.name = some n ∧ n0 ≤ n.id ∧
      n.id < s.nid ∧
      match asg.lookup c.name with
      | some v => n.val = v ∧ VOk D v c.ty
      | none => n.val = .inull) ∧
    (∀ k, (ob.fields.lookup k).isSome → ∃ c, HasComp D proto.typ c ∧ c.name = k) ∧
    (ob.fields.map Prod.fst).Nodup
  once : (asg.map Prod.fst).Nodup
  known : ∀ p ∈ asg, ∃ c, HasComp D proto.typ c ∧ c.name = p.1
  free : ∀ p ∈ asg, ∀ m, ¬ FrozenIn D infos proto.typ p.1 m

theorem Body.fr {D : Decls} {infos : List RecInfo} {pre : List Obj} {n0 : Nat} {proto : Obj}
    {asg : List (String × PVal)} {s s' : PS} (h : Body D infos pre n0 proto asg s) (hf : Fr s s') :
    Body D infos pre n0 proto asg s' := by
  refine ⟨hf.decls.trans h.decls, hf.infos.trans h.infos', hf.sects.trans h.sects', ?_, h.once, h.known, h.free⟩
  rw [hf.objs, hf.nid]
  exact h.ex

theorem last_get {pre : List Obj} {ob : Obj} : (pre ++ [ob])[pre.length]? = some ob := by simp

theorem last_modify {pre : List Obj} {ob : Obj} (f : Obj → Obj) :
    (pre ++ [ob]).modify pre.length f = pre ++ [f ob] := by
  induction pre with
  | nil => rfl
  | cons p pre ih => simp [ih]

theorem last_take {pre : List Obj} {ob : Obj} : (pre ++ [ob]).take pre.length = pre := by simp

theorem setField_tabInv {s : PS} {o : Nat} {name : String} {v : VNode} (h : TabInv s) :
    TabInv (s.setField o name v) := by
  refine h.same rfl ?_
  unfold PS.setField
  apply List.ext_getElem?
  intro i
  simp only [List.getElem?_map, List.getElem?_modify]
  cases s.objs[i]? with
  | none => rfl
  | some ob => by_cases hi : o = i <;> simp [hi]

theorem lookup_none_of {α : Type} {l : List (String × α)} {k : String} (h : l.lookup k = none) :
    k ∉ l.map Prod.fst := by
  intro hm
  obtain ⟨p, hp, rfl⟩ := List.mem_map.1 hm
  have : (l.lookup p.1).isSome := by
    clear h hm
    induction l with
    | nil => cases hp
    | cons q l ih =>
      obtain ⟨a, b⟩ := q
      rw [List.lookup_cons]
      by_cases e : p.1 = a
      · simp [e]
      · have : (p.1 == a) = false := by simp [e]
        simp only [this]
        rcases List.mem_cons.1 hp with rfl | hp
        · exact absurd rfl e
        · exact ih hp
  rw [h] at this
  cases this

theorem parseAssignment_sp {E : FileEnv} {D : Decls} {infos : List RecInfo} (hw : WorldOk D infos)
    {pre : List Obj} {n0 : Nat} {proto : Obj} {asg : List (String × PVal)} {s : PS}
    (hb : Body D infos pre n0 proto asg s) :
    Sp (Ro pre.length) (parseAssignment E pre.length proto.typ) s
      (fun _ s' => s'.toks < s.toks ∧ s'.tabs = s.tabs ∧ s'.seps = s.seps ∧
        ∃ a ts, Body D infos pre n0 proto (a :: asg) s' ∧ words s = ts ++ words s' ∧
          (s'.errs = s.errs → WrittenAssign E (namesOf s) proto.typ a ts s'.nt)) := by
  unfold parseAssignment
  refine sp_bind _ ((matchK_sp.withRd matchK_rd).ro _) ?_
  rintro tok s1 - ⟨h1, ⟨-, -, -, hlt1⟩, _, hw1, -, hk1, rfl⟩
  have hb1 := hb.fr h1
  refine sp_get_bind ?_
  have hwf : WFDecls s1.decls := by rw [hb1.decls]; exact hw.wf
  cases hc : s1.decls.component proto.typ (String.ofList tok.text) with
  | none => exact ro_fail
  | some c =>
    obtain ⟨hcomp, hname⟩ := component_hasComp hwf hc
    rw [hb1.decls] at hcomp
    simp only
    cases hfield : s1.field pre.length c.name with
    | none =>
      obtain ⟨ob, hobjs, -, -, -, -, hfs, -, -⟩ := hb1.ex
      obtain ⟨n', hn', -⟩ := hfs c hcomp
      rw [PS.field, hobjs, last_get] at hfield
      rw [Option.bind_some, hn'] at hfield
      cases hfield
    | some n =>
      simp only
      refine sp_ite (fun _ => ro_fail) (fun hnull => ?_)
      refine sp_ite (fun _ => ro_fail) (fun hfrozen => ?_)
      refine sp_bind _ ((matchK_sp.withRd matchK_rd).ro _) ?_
      rintro eq s2 - ⟨h2, ⟨-, -, -, hlt2⟩, _, hw2, -, hk2, rfl⟩
      have hb2 := hb1.fr h2
      have hty := hw.types _ c hcomp
      have hpv := parseValue_sp (E := E) hw.tuples s1.decls.typeDepth c.ty
        (by rw [hb1.decls]; exact hty.2) hty.1 s2 hb2.decls s2 (Fr.refl _)
      have hrd := parseValue_rd (E := E) hw.wf hw.tuples s1.decls.typeDepth c.ty hty.1 s2 hb2.decls s2
        (Fr.refl _)
      refine sp_bind _ ((hpv.withRd hrd).ro _) ?_
      rintro v s3 - ⟨h3, ⟨hlt3, hv, -⟩, ts3, hw3, hwr⟩
      have hb3 := hb2.fr h3
      -- the new node
      have hnn : P.newNode v s3 = .ok { id := s3.nid, val := v } { s3 with nid := s3.nid + 1 } := rfl
      have hro : Ro pre.length s3 { s3 with nid := s3.nid + 1 } :=
        ⟨rfl, rfl, rfl, rfl, Nat.le_refl _, Nat.le_succ _, ⟨[], by simp⟩, Nat.le_refl _,
          fun hi => hi.same rfl rfl, rfl⟩
      refine sp_bind (fun node s4 => node = { id := s3.nid, val := v } ∧
        s4 = { s3 with nid := s3.nid + 1 }) ?_ ?_
      · unfold Sp
        rw [hnn]
        exact ⟨hro, rfl, rfl⟩
      · rintro node s4 - ⟨rfl, rfl⟩
        obtain ⟨ob, hobjs, hpk, hnm, htyp, hsec, hfs, hkeys, hnd⟩ := hb3.ex
        -- the field is still null
        have hsame : s3.field pre.length c.name = some n := by
          unfold PS.field at hfield ⊢
          rw [h3.objs, h2.objs]
          exact hfield
        have hfield' : ob.fields.lookup c.name = some n := by
          unfold PS.field at hsame
          rw [hobjs, last_get] at hsame
          exact hsame
        have hnone : asg.lookup c.name = none := by
          obtain ⟨n', hn', -, -, hm⟩ := hfs c hcomp
          rw [hfield'] at hn'
          injection hn' with hn'
          subst hn'
          cases ha : asg.lookup c.name with
          | none => rfl
          | some w =>
            rw [ha] at hm
            have := vok_notNull hm.2
            rw [← hm.1] at this
            rw [this] at hnull
            simp at hnull
        have hsome : n.val.isNull = true := by simpa using hnull
        have hassign : P.assign pre.length c.name { id := s3.nid, val := v }
            { s3 with nid := s3.nid + 1 } =
            .ok () (PS.setField { s3 with nid := s3.nid + 1 } pre.length c.name
              { id := s3.nid, val := v }) := by
          unfold P.assign
          have : PS.field { s3 with nid := s3.nid + 1 } pre.length c.name = some n := hsame
          rw [this]
          simp only [hsome, if_true]
        have hobjs' : (PS.setField { s3 with nid := s3.nid + 1 } pre.length c.name
            { id := s3.nid, val := v }).objs =
            pre ++ [{ ob with fields := setKey ob.fields c.name { id := s3.nid, val := v } }] := by
          unfold PS.setField
          simp only [hobjs, last_modify]
        unfold Sp
        rw [hassign]
        refine ⟨⟨rfl, rfl, rfl, ?_, ?_, Nat.le_refl _, ⟨[], by simp [PS.setField]⟩, ?_,
          fun hi => setField_tabInv hi, rfl⟩, ?_⟩
        · rw [hobjs']
          show _ = s3.objs.take _
          rw [hobjs, last_take, last_take]
        · rw [hobjs']
          show s3.objs.length ≤ _
          rw [hobjs]
          simp
        · exact Nat.le_refl _
        · refine ⟨?_, ?_, ?_, (c.name, v), tok :: eq :: ts3, ?_, ?_, ?_⟩
          · show s3.toks < s.toks
            omega
          · show s3.tabs = s.tabs
            rw [h3.tabs, h2.tabs, h1.tabs]
          · show s3.seps = s.seps
            rw [h3.seps, h2.seps, h1.seps]
          rotate_left
          · show _ = _ ++ words s3
            rw [hw1, hw2, hw3]
            simp
          · intro herr
            have he := (errs_mid (h1.trans h2) h3 herr).2
            have hnm : namesOf s2 = namesOf s := namesOf_fr (h1.trans h2)
            rw [hnm] at hwr
            refine ⟨tok, eq, ts3, c, rfl, hk1, hk2, hname, ?_, rfl, hwr he⟩
            have : (namesOf s).decls = D := by
              rw [← namesOf_fr h1]; exact hb1.decls
            rw [this]
            exact hcomp
          · refine ⟨hb3.decls, hb3.infos', hb3.sects', ?_, ?_, ?_, ?_⟩
            · refine ⟨_, hobjs', hpk, hnm, htyp, hsec, ?_, ?_, by rw [setKey_keys]; exact hnd⟩
              · intro c' hc'
                obtain ⟨n', hn', hlo, hhi, hm⟩ := hfs c' hc'
                rw [lookup_setKey, hfield']
                by_cases hcc : c'.name = c.name
                · have := hw.unique _ c' c hc' hcomp hcc
                  subst this
                  refine ⟨{ id := s3.nid, val := v }, by simp, ?_, ?_, ?_⟩
                  · simp only; omega
                  · show s3.nid < s3.nid + 1
                    omega
                  · simp [hv]
                · refine ⟨n', by simp [hcc, hn'], hlo, ?_, ?_⟩
                  · show n'.id < s3.nid + 1
                    omega
                  · rw [List.lookup_cons]
                    have : (c'.name == c.name) = false := by simp [hcc]
                    simp only [this]
                    exact hm
              · intro k hk
                rw [lookup_setKey] at hk
                by_cases hkc : k = c.name
                · exact ⟨c, hcomp, hkc.symm⟩
                · simp only [hkc, false_and, if_false] at hk
                  exact hkeys k hk
            · rw [List.map_cons, List.nodup_cons]
              exact ⟨lookup_none_of hnone, hb3.once⟩
            · intro p hp
              rcases List.mem_cons.1 hp with rfl | hp
              · exact ⟨c, hcomp, rfl⟩
              · exact hb3.known p hp
            · intro p hp
              rcases List.mem_cons.1 hp with rfl | hp
              · intro m hm
                apply hfrozen
                rw [isFrozen_iff hwf]
                exact ⟨m, by rw [hb1.decls, hb1.infos']; exact hm⟩
              · exact hb3.free p hp

theorem Body.otyps {D : Decls} {infos : List RecInfo} {pre : List Obj} {n0 : Nat} {proto : Obj}
    {asg : List (String × PVal)} {s : PS} (h : Body D infos pre n0 proto asg s) :
    s.objs.map (·.typ) = pre.map (·.typ) ++ [proto.typ] := by
  obtain ⟨ob, h1, -, -, h4, -⟩ := h.ex
  rw [h1]
  simp [h4]

theorem assignLoop_sp {E : FileEnv} {D : Decls} {infos : List RecInfo} (hw : WorldOk D infos)
    {pre : List Obj} {n0 : Nat} {proto : Obj} : ∀ (k : Nat) (asg : List (String × PVal)) (s : PS),
    s.toks < k → Body D infos pre n0 proto asg s →
    Sp (Ro pre.length) (assignLoop E pre.length proto.typ k) s
      (fun _ s' => s'.tabs = s.tabs ∧ s'.seps = s.seps ∧
        ∃ new ts, Body D infos pre n0 proto (new.reverse ++ asg) s' ∧ words s = ts ++ words s' ∧
          (s'.errs = s.errs → WrittenAssigns E (namesOf s) proto.typ new ts s'.nt)) := by
  intro k
  induction k with
  | zero => intro _ s h; omega
  | succ k ih =>
    intro asg s hk hb
    unfold assignLoop
    refine sp_get_bind ?_
    refine sp_ite (fun _ => sp_pure ⟨rfl, rfl, [], [], by simpa using hb, rfl, fun _ => rfl⟩) (fun _ => ?_)
    refine sp_bind _ (parseAssignment_sp hw hb) ?_
    rintro _ s1 h1 ⟨hlt, ht1, hs1, a, ts, hb1, hw1, hr1⟩
    refine (ih _ s1 (by omega) hb1).mono ?_
    rintro _ s2 h2 ⟨ht2, hs2, new, ts', hb2, hw2, hr2⟩
    refine ⟨ht2.trans ht1, hs2.trans hs1, a :: new, ts ++ ts', by simpa using hb2,
      by rw [hw1, hw2, List.append_assoc], fun he => ?_⟩
    have e := errs_between h1.errs h2.errs he
    have hn : namesOf s1 = namesOf s := by
      unfold namesOf
      rw [ht1, hs1, h1.decls, hb1.otyps, hb.otyps]
    rw [hn] at hr2
    exact ⟨ts, ts', rfl, nt_follow hw2 ▸ hr1 e.1, hr2 e.2⟩

/-! ## Completing the object -/

/-- The state of the object while the loop over all components runs: the components in `done`
have their final values, the others the assigned ones. -/
structure Completing (D : Decls) (infos : List RecInfo) (pre : List Obj) (n0 : Nat) (proto : Obj)
    (asg : List (String × PVal)) (done : List Comp) (s : PS) : Prop where
  decls : s.decls = D
  infos' : s.infos = infos
  sects' : s.sects = proto.sects
  ex : ∃ ob, s.objs = pre ++ [ob] ∧ ob.pkg = proto.pkg ∧ ob.name = proto.name ∧
    ob.typ = proto.typ ∧ ob.sects = proto.sects ∧
    (∀ c, HasComp D proto.typ c → ∃ n, ob.fields.lookup c.name = some n ∧
      ((FrozenIn D infos proto.typ c.name n ∧ n.val.isNull = false ∧ asg.lookup c.name = none) ∨
        (n0 ≤ n.id ∧ n.id < s.nid ∧ ((n.val = .inull ∧ asg.lookup c.name = none) ∨
          (VOk D n.val c.ty ∧ (∀ m, ¬ FrozenIn D infos proto.typ c.name m) ∧
            asg.lookup c.name = some n.val)))) ∧
      (c ∈ done → n.val = .inull → c.optional = true ∧ ∀ m, ¬ FrozenIn D infos proto.typ c.name m)) ∧
    (∀ k, (ob.fields.lookup k).isSome → ∃ c, HasComp D proto.typ c ∧ c.name = k) ∧
    (ob.fields.map Prod.fst).Nodup

theorem Body.completing {D : Decls} {infos : List RecInfo} {pre : List Obj} {n0 : Nat} {proto : Obj}
    {asg : List (String × PVal)} {s : PS} (h : Body D infos pre n0 proto asg s) :
    Completing D infos pre n0 proto asg [] s := by
  obtain ⟨ob, h1, h2, h3, h4, h5, h6, h7⟩ := h.ex
  refine ⟨h.decls, h.infos', h.sects', ob, h1, h2, h3, h4, h5, fun c hc => ?_, h7⟩
  obtain ⟨n, hn, hlo, hhi, hm⟩ := h6 c hc
  refine ⟨n, hn, .inr ⟨hlo, hhi, ?_⟩, fun h => by cases h⟩
  cases ha : asg.lookup c.name with
  | none => rw [ha] at hm; exact .inl ⟨hm, rfl⟩
  | some v =>
    rw [ha] at hm
    refine .inr ⟨by rw [hm.1]; exact hm.2, ?_, by rw [hm.1]⟩
    have : ∃ p ∈ asg, p.1 = c.name := by
      refine Classical.byContradiction fun hne => ?_
      have : asg.lookup c.name = none := by
        rw [List.lookup_eq_none_iff]
        intro p hp
        have : p.1 ≠ c.name := fun e => hne ⟨p, hp, e⟩
        simp [Ne.symm this]
      rw [this] at ha
      cases ha
    obtain ⟨p, hp, e⟩ := this
    rw [← e]
    exact h.free p hp

theorem Completing.fr {D : Decls} {infos : List RecInfo} {pre : List Obj} {n0 : Nat} {proto : Obj}
    {asg : List (String × PVal)} {done : List Comp} {s s' : PS} (h : Completing D infos pre n0 proto asg done s) (hf : Fr s s') :
    Completing D infos pre n0 proto asg done s' := by
  refine ⟨hf.decls.trans h.decls, hf.infos.trans h.infos', hf.sects.trans h.sects', ?_⟩
  rw [hf.objs, hf.nid]
  exact h.ex

theorem completeLoop_sp {D : Decls} {infos : List RecInfo} (hw : WorldOk D infos)
    {pre : List Obj} {n0 : Nat} {proto : Obj} {asg : List (String × PVal)} :
    ∀ (cs done : List Comp) (s : PS),
    (∀ c ∈ cs, HasComp D proto.typ c) → Completing D infos pre n0 proto asg done s →
    Sp (Ro pre.length) (completeLoop pre.length proto.typ cs) s
      (fun _ s' => Completing D infos pre n0 proto asg (cs ++ done) s' ∧ s'.errs = s.errs ∧
        words s' = words s ∧ s'.tabs = s.tabs) := by
  intro cs
  induction cs with
  | nil =>
    intro done s _ h
    exact sp_pure ⟨by simpa using h, rfl, rfl, rfl⟩
  | cons c cs ih =>
    intro done s hcs h
    have hc := hcs c (by simp)
    have hcs' : ∀ c ∈ cs, HasComp D proto.typ c := fun c' h' => hcs c' (by simp [h'])
    have hwf : WFDecls s.decls := by rw [h.decls]; exact hw.wf
    obtain ⟨ob, hobjs, hpk, hnm, htyp, hsec, hfs, hkeys, hnd⟩ := h.ex
    obtain ⟨n, hn, hval, hdone⟩ := hfs c hc
    have hfield : s.field pre.length c.name = some n := by
      unfold PS.field
      rw [hobjs, last_get]
      exact hn
    -- going on without change
    have skip : (n.val = .inull → c.optional = true ∧ ∀ m, ¬ FrozenIn D infos proto.typ c.name m) →
        Sp (Ro pre.length) (completeLoop pre.length proto.typ cs) s
          (fun _ s' => Completing D infos pre n0 proto asg (c :: cs ++ done) s' ∧ s'.errs = s.errs ∧
            words s' = words s ∧ s'.tabs = s.tabs) := by
      intro hnull
      refine (ih (c :: done) s hcs' ⟨h.decls, h.infos', h.sects', ob, hobjs, hpk, hnm, htyp, hsec, ?_, hkeys, hnd⟩).mono ?_
      · intro c' hc'
        obtain ⟨n', hn', hval', hdone'⟩ := hfs c' hc'
        refine ⟨n', hn', hval', fun hm hz => ?_⟩
        rcases List.mem_cons.1 hm with rfl | hm
        · rw [hn] at hn'
          injection hn' with hn'
          subst hn'
          exact hnull hz
        · exact hdone' hm hz
      · rintro _ s' - ⟨hcpl, he⟩
        refine ⟨⟨hcpl.decls, hcpl.infos', hcpl.sects', ?_⟩, he⟩
        obtain ⟨ob', k1, k2, k3, k4, k5, k6, k7⟩ := hcpl.ex
        refine ⟨ob', k1, k2, k3, k4, k5, fun c' hc' => ?_, k7⟩
        obtain ⟨n', a1, a2, a3⟩ := k6 c' hc'
        refine ⟨n', a1, a2, fun hm => a3 ?_⟩
        simp only [List.cons_append, List.mem_cons, List.mem_append] at hm ⊢
        rcases hm with h | h | h
        · exact .inr (.inl h)
        · exact .inl h
        · exact .inr (.inr h)
    unfold completeLoop
    refine sp_get_bind ?_
    rw [hfield]
    simp only
    refine sp_ite (fun hz => ?_) (fun hz => ?_)
    · have hz' : n.val = .inull := by
        cases hv : n.val <;> rw [hv] at hz <;> simp [PVal.isNull] at hz
      refine sp_ite (fun hf => ?_) (fun hf => ?_)
      · cases hfr : s.freezing proto.typ c.name with
        | none => exact sp_crash (by simp)
        | some f =>
          simp only
          have hfi : FrozenIn D infos proto.typ c.name f := by
            have := freezing_some hwf hfr
            rwa [h.decls, h.infos'] at this
          have hfv : f.val.isNull = false := by
            obtain ⟨a, i, he, hi, hl⟩ := hfi
            obtain ⟨c', -, -, hv⟩ := hw.frozen a i c.name f hi hl
            exact vok_notNull hv
          have hasg : asg.lookup c.name = none := by
            rcases hval with ⟨-, h, -⟩ | ⟨-, -, h | h⟩
            · rw [hz'] at h; simp [PVal.isNull] at h
            · exact h.2
            · have := vok_notNull h.1
              rw [hz'] at this
              simp [PVal.isNull] at this
          have hassign : P.assign pre.length c.name f s = .ok () (s.setField pre.length c.name f) := by
            unfold P.assign
            rw [hfield]
            simp only [hz, if_true]
          have hobjs' : (s.setField pre.length c.name f).objs =
              pre ++ [{ ob with fields := setKey ob.fields c.name f }] := by
            unfold PS.setField
            simp only [hobjs, last_modify]
          refine sp_bind (fun _ s1 => s1 = s.setField pre.length c.name f) ?_ ?_
          · unfold Sp
            rw [hassign]
            refine ⟨⟨rfl, rfl, rfl, ?_, ?_, Nat.le_refl _, ⟨[], by simp [PS.setField]⟩,
              Nat.le_refl _, fun hi => setField_tabInv hi, rfl⟩, rfl⟩
            · rw [hobjs', hobjs, last_take, last_take]
            · rw [hobjs', hobjs]; simp
          · rintro _ s1 - rfl
            refine (ih (c :: done) (s.setField pre.length c.name f) hcs' ⟨h.decls, h.infos', h.sects', _, hobjs', hpk, hnm, htyp, hsec, ?_, ?_,
              by rw [setKey_keys]; exact hnd⟩).mono ?_
            · intro c' hc'
              obtain ⟨n', hn', hval', hdone'⟩ := hfs c' hc'
              rw [lookup_setKey, hn]
              by_cases hcc : c'.name = c.name
              · have := hw.unique _ c' c hc' hc hcc
                subst this
                refine ⟨f, by simp, .inl ⟨hfi, hfv, hasg⟩, fun _ hzz => ?_⟩
                rw [hzz] at hfv
                simp [PVal.isNull] at hfv
              · refine ⟨n', by simp [hcc, hn'], hval', fun hm => hdone' ?_⟩
                rcases List.mem_cons.1 hm with rfl | hm
                · exact absurd rfl hcc
                · exact hm
            · intro k hk
              rw [lookup_setKey] at hk
              by_cases hkc : k = c.name
              · exact ⟨c, hc, hkc.symm⟩
              · simp only [hkc, false_and, if_false] at hk
                exact hkeys k hk
            · rintro _ s' - ⟨hcpl, he⟩
              refine ⟨⟨hcpl.decls, hcpl.infos', hcpl.sects', ?_⟩, he⟩
              obtain ⟨ob', k1, k2, k3, k4, k5, k6, k7⟩ := hcpl.ex
              refine ⟨ob', k1, k2, k3, k4, k5, fun c' hc' => ?_, k7⟩
              obtain ⟨n', a1, a2, a3⟩ := k6 c' hc'
              refine ⟨n', a1, a2, fun hm => a3 ?_⟩
              simp only [List.cons_append, List.mem_cons, List.mem_append] at hm ⊢
              rcases hm with h | h | h
              · exact .inr (.inl h)
              · exact .inl h
              · exact .inr (.inr h)
      · refine sp_ite (fun _ => ro_fail) (fun ho => skip fun _ => ⟨by simpa using ho, ?_⟩)
        intro m hm
        apply hf
        rw [isFrozen_iff hwf]
        exact ⟨m, by rw [h.decls, h.infos']; exact hm⟩
    · refine skip fun e => ?_
      rw [e] at hz
      simp [PVal.isNull] at hz

/-- A finished object is complete. -/
theorem Completing.complete {D : Decls} {infos : List RecInfo} {pre : List Obj} {n0 : Nat}
    {proto : Obj} {asg : List (String × PVal)} {done : List Comp} {s : PS}
    (h : Completing D infos pre n0 proto asg done s) (hd : ∀ c, HasComp D proto.typ c → c ∈ done) :
    ∃ ob, s.objs = pre ++ [ob] ∧ ob.pkg = proto.pkg ∧ ob.name = proto.name ∧
      ob.typ = proto.typ ∧ ob.sects = proto.sects ∧ ObjComplete D infos ob ∧
      ((∀ i, infos[proto.typ]? = some i → i.isAbstract = false) → (asg.map Prod.fst).Nodup →
        (∀ p ∈ asg, ∃ c, HasComp D proto.typ c ∧ c.name = p.1) →
        (∀ p ∈ asg, ∀ m, ¬ FrozenIn D infos proto.typ p.1 m) → ObjFrom D infos asg ob) ∧
      (∀ c n, HasComp D proto.typ c → ob.fields.lookup c.name = some n →
        (∀ m, ¬ FrozenIn D infos proto.typ c.name m) → n0 ≤ n.id ∧ n.id < s.nid) := by
  obtain ⟨ob, h1, h2, h3, h4, h5, h6, h7⟩ := h.ex
  refine ⟨ob, h1, h2, h3, h4, h5, ⟨fun c hc => ?_, ?_⟩, ?_, ?_⟩
  · rw [h4] at hc ⊢
    obtain ⟨n, hn, hv, hdn⟩ := h6 c hc
    refine ⟨n, hn, ?_⟩
    rcases hv with ⟨hf, -⟩ | ⟨-, -, ⟨hz, -⟩ | ⟨hv, hm, -⟩⟩
    · exact .inl hf
    · have := hdn (hd c hc) hz
      exact .inr ⟨this.2, .inl ⟨this.1, hz⟩⟩
    · exact .inr ⟨hm, .inr hv⟩
  · rw [h4]; exact h7
  · intro hab hnd hk hfr
    refine ⟨by rw [h4]; exact hab, hnd, by rw [h4]; exact hk, by rw [h4]; exact hfr, fun c hc => ?_⟩
    rw [h4] at hc ⊢
    obtain ⟨n, hn, hv, hdn⟩ := h6 c hc
    refine ⟨n, hn, ?_⟩
    rcases hv with ⟨hf, -, ha⟩ | ⟨-, -, ⟨hz, ha⟩ | ⟨-, hm, ha⟩⟩
    · exact .inr (.inl ⟨lookup_none_of ha, hf⟩)
    · have := hdn (hd c hc) hz
      exact .inr (.inr ⟨lookup_none_of ha, this.2, this.1, hz⟩)
    · exact .inl ⟨n.val, mem_of_assoc ha, rfl⟩
  · intro c n hc hn hm
    obtain ⟨n', hn', hv, -⟩ := h6 c hc
    rw [hn] at hn'
    injection hn' with hn'
    subst hn'
    rcases hv with ⟨hf, -⟩ | ⟨a, b, -⟩
    · exact absurd hf (hm _)
    · exact ⟨a, b⟩

/-- What is known about a newly declared object, apart from its type: it is complete, its values
are those of the assignments `asg` read from the body `ts`, and its nodes (but for the frozen
ones) are new. -/
def NewBody (D : Decls) (infos : List RecInfo) (E : FileEnv) (s s' : PS) (t : Nat)
    (ts : List Token) : Prop :=
  ∃ ob asg, s'.objs = s.objs ++ [ob] ∧ ob.pkg = E.pkg ∧ ob.sects = s.sects ∧ ob.typ = t ∧
    Declared (namesOf s) (namesOf s') E.pkg ob.name ob.typ s.objs.length ∧ ObjComplete D infos ob ∧ ObjFrom D infos asg ob ∧
    (s'.errs = s.errs → WrittenBody E (namesOf s') t ob.name asg ts) ∧
    (∀ c n, HasComp D ob.typ c → ob.fields.lookup c.name = some n →
      (∀ m, ¬ FrozenIn D infos ob.typ c.name m) → s.nid ≤ n.id ∧ n.id < s'.nid)

/-- What is known about a newly declared object. -/
def NewObject (D : Decls) (infos : List RecInfo) (E : FileEnv) (s s' : PS) (ts : List Token) :
    Prop :=
  ∃ ob asg, s'.objs = s.objs ++ [ob] ∧ ob.pkg = E.pkg ∧ ob.sects = s.sects ∧
    Declared (namesOf s) (namesOf s') E.pkg ob.name ob.typ s.objs.length ∧
    ObjComplete D infos ob ∧ ObjFrom D infos asg ob ∧
    (s'.errs = s.errs → WrittenObject E (namesOf s) (namesOf s') ob.typ ob.name asg ts) ∧
    (∀ c n, HasComp D ob.typ c → ob.fields.lookup c.name = some n →
      (∀ m, ¬ FrozenIn D infos ob.typ c.name m) → s.nid ≤ n.id ∧ n.id < s'.nid)

theorem register_own {T T' : STab} {e : Ent} (h : T.register e = .ok T') :
    T' = { T with own := T.own ++ [(simplifiedName e.name, e)] } := by
  unfold STab.register at h
  simp only at h
  split at h
  · split at h
    · split at h <;> cases h
    · cases h
  · cases h; rfl

theorem register_new {T T' : STab} {e : Ent} (h : T.register e = .ok T') :
    simplifiedName e.name ∉ T.own.map Prod.fst := by
  unfold STab.register at h
  simp only at h
  split at h
  · split at h
    · split at h <;> cases h
    · cases h
  · next hc =>
    intro hm
    obtain ⟨⟨k, x⟩, hx, hk⟩ := List.mem_map.1 hm
    apply hc
    unfold STab.containsRaw
    have : ∃ y, T.own.get (simplifiedName e.name) = some y := by
      unfold Frame.get
      cases hf : T.own.find? (fun p => p.1 = simplifiedName e.name) with
      | some y => exact ⟨y.2, rfl⟩
      | none =>
        have := List.find?_eq_none.1 hf _ hx
        simp only [decide_eq_true_eq] at this
        exact absurd hk this
    obtain ⟨y, hy⟩ := this
    rw [hy]
    rfl

theorem newObject_tabInv {s : PS} {E : FileEnv} {T : STab} {ob : Obj} {n : Nat} (h : TabInv s)
    {T0 : STab} (hT0 : s.tabs[E.pkg]? = some T0)
    (hr : T0.register { name := ob.name, id := s.objs.length, cls := clsObject } = .ok T)
    (hp : ob.pkg = E.pkg) :
    TabInv { s with nid := n, tabs := s.tabs.set E.pkg T, objs := s.objs ++ [ob] } := by
  have hold : ∀ (i : Nat) (o : Obj), s.objs[i]? = some o → (s.objs ++ [ob])[i]? = some o := by
    intro i o ho
    have : i < s.objs.length := (List.getElem?_eq_some_iff.1 ho).1
    rw [List.getElem?_append_left this]
    exact ho
  have hT := register_own hr
  have hset : ∀ (p : Nat) (T' : STab), (s.tabs.set E.pkg T)[p]? = some T' →
      s.tabs[p]? = some T' ∨ (p = E.pkg ∧ T' = T ∧ s.tabs[p]? = some T0) := by
    intro p T' hT'
    rw [List.getElem?_set] at hT'
    split at hT'
    · next he =>
      subst he
      split at hT'
      · next hl =>
        injection hT' with hT'
        exact .inr ⟨rfl, hT'.symm, hT0⟩
      · cases hT'
    · exact .inl hT'
  refine ⟨fun p T' k e h1 h2 h3 => ?_, fun p T' f k e h1 h2 h3 => ?_, fun p T' c f k e h1 h2 h3 h4 => ?_,
    fun i o hi => ?_, fun p T' h1 => ?_, fun p T' k e h1 h2 => ?_⟩
  · rcases hset p T' h1 with h1 | ⟨hpp, rfl, g1⟩
    · obtain ⟨o, a1, a2, a3⟩ := h.own p T' k e h1 h2 h3
      exact ⟨o, hold _ _ a1, a2, a3⟩
    · subst hpp
      rw [hT] at h2
      simp only [List.mem_append, List.mem_singleton] at h2
      rcases h2 with h2 | h2
      · obtain ⟨o, a1, a2, a3⟩ := h.own _ _ k e g1 h2 h3
        exact ⟨o, hold _ _ a1, a2, a3⟩
      · injection h2 with _ h2
        subst h2
        exact ⟨ob, by simp, rfl, hp⟩
  · rcases hset p T' h1 with h1 | ⟨hpp, rfl, g1⟩
    · exact h.parents p T' f k e h1 h2 h3
    · rw [hT] at h2
      exact h.parents p _ f k e g1 h2 h3
  · rcases hset p T' h1 with h1 | ⟨hpp, rfl, g1⟩
    · exact h.imported p T' c f k e h1 h2 h3 h4
    · rw [hT] at h2
      exact h.imported p _ c f k e g1 h2 h3 h4
  · have hnew : ∀ (p : Nat) (T' : STab), s.tabs[p]? = some T' → ∃ T'' : STab,
        (s.tabs.set E.pkg T)[p]? = some T'' ∧ ∀ x ∈ T'.own, x ∈ T''.own := by
      intro p T' hT'
      rw [List.getElem?_set]
      by_cases hpe : E.pkg = p
      · subst hpe
        have hl : E.pkg < s.tabs.length := (List.getElem?_eq_some_iff.1 hT0).1
        rw [hT0] at hT'
        injection hT' with hT'
        subst hT'
        simp only [if_true, hl]
        exact ⟨T, rfl, by rw [hT]; simp +contextual⟩
      · simp only [hpe, if_false]
        exact ⟨T', hT', fun _ h => h⟩
    simp only at hi
    by_cases hlt : i < s.objs.length
    · rw [List.getElem?_append_left hlt] at hi
      obtain ⟨T', k, e, a1, a2, a3⟩ := h.reg i o hi
      obtain ⟨T'', b1, b2⟩ := hnew _ _ a1
      exact ⟨T'', k, e, b1, b2 _ a2, a3⟩
    · rw [List.getElem?_append_right (by omega), List.getElem?_singleton] at hi
      split at hi
      · injection hi with hi
        subst hi
        have hl : E.pkg < s.tabs.length := (List.getElem?_eq_some_iff.1 hT0).1
        refine ⟨T, simplifiedName ob.name,
          { name := ob.name, id := s.objs.length, cls := clsObject }, ?_, ?_, ?_, rfl⟩
        · rw [hp, List.getElem?_set]; simp [hl]
        · rw [hT]; simp
        · simp only; omega
      · cases hi
  · rcases hset p T' h1 with h1 | ⟨hpp, rfl, g1⟩
    · exact h.keys p T' h1
    · rw [hT]
      have hk := h.keys p T0 g1
      simp only [List.map_append, List.map_cons, List.map_nil, List.nodup_append]
      refine ⟨hk, by simp, ?_⟩
      intro a ha b hb
      simp only [List.mem_singleton] at hb
      subst hb
      exact fun hab => register_new hr (hab ▸ ha)
  · rcases hset p T' h1 with h1 | ⟨hpp, rfl, g1⟩
    · exact h.simple p T' k e h1 h2
    · rw [hT] at h2
      simp only [List.mem_append, List.mem_singleton] at h2
      rcases h2 with h2 | h2
      · exact h.simple p T0 k e g1 h2
      · injection h2 with h2 h3
        rw [h2, h3]

theorem objFrom_reverse {D : Decls} {infos : List RecInfo} {asg : List (String × PVal)} {ob : Obj}
    (h : ObjFrom D infos asg.reverse ob) : ObjFrom D infos asg ob := by
  obtain ⟨h0, h1, h2, h3, h4⟩ := h
  simp only [List.map_reverse, List.mem_reverse] at h1 h2 h3 h4
  refine ⟨h0, ?_, h2, h3, h4⟩
  rw [List.Nodup, List.pairwise_reverse] at h1
  exact h1.imp fun h => h.symm

theorem parseObjectOf_sp {E : FileEnv} {D : Decls} {infos : List RecInfo} (hw : WorldOk D infos)
    {e : Ent} {s : PS} (hD : s.decls = D) (hI : s.infos = infos) :
    Sp (Ro s.objs.length) (parseObjectOf E e) s (fun o s' => o = s.objs.length ∧
      s'.toks < s.toks ∧ s'.sects = s.sects ∧
      ∃ ts, words s = ts ++ words s' ∧ NewBody D infos E s s' e.id ts) := by
  unfold parseObjectOf
  refine sp_get_bind ?_
  refine sp_ite (fun _ => ro_fail) (fun hab => ?_)
  have hab : ∀ i, infos[e.id]? = some i → i.isAbstract = false := by
    intro i hi
    simpa [PS.info, hI, hi] using hab
  refine sp_bind _ ((matchK_sp.withRd matchK_rd).ro _) ?_
  rintro tok s2 - ⟨h12, ⟨-, -, -, hlt2⟩, _, hw2, -, hk2, rfl⟩
  have hD2 : s2.decls = D := h12.decls.trans hD
  have hI2 : s2.infos = infos := h12.infos.trans hI
  -- creating the object
  let proto : Obj := { pkg := E.pkg, name := tok.text, typ := e.id, sects := s.sects, fields := [] }
  have hlen : s2.objs.length = s.objs.length := by rw [h12.objs]
  refine sp_bind (fun o s3 => o = s.objs.length ∧ s3.toks = s2.toks ∧ words s3 = words s2 ∧
    s3.errs = s2.errs ∧ Declared (namesOf s2) (namesOf s3) E.pkg tok.text e.id s.objs.length ∧ Body D infos s.objs s.nid proto [] s3) ?_ ?_
  · unfold Sp P.newObject
    simp only
    cases hT0 : s2.tabs[E.pkg]? with
    | none => exact ⟨Ro.refl _ _, by simp⟩
    | some T0 =>
    simp only
    cases hreg : T0.register { name := tok.text, id := s2.objs.length, cls := clsObject } with
    | error er =>
      simp only [P.fail]
      exact ⟨rfl, rfl, rfl, rfl, Nat.le_refl _, by simp, ⟨_, rfl⟩, Nat.le_refl _,
        fun hi => hi.same rfl rfl, rfl⟩
    | ok tab =>
      simp only
      refine ⟨⟨rfl, rfl, rfl, ?_, by simp, by simp, ⟨[], by simp⟩, Nat.le_refl _,
        fun hi => newObject_tabInv hi hT0 hreg rfl, by simp⟩, hlen, by first | rfl | trivial, by first | rfl | trivial,
        by first | rfl | trivial, ⟨rfl, rfl, by simp [namesOf], T0, tab, hT0, by rw [← hlen]; exact hreg, rfl⟩, ?_⟩
      · simp only
        rw [List.take_append_of_le_length (by omega)]
      · refine ⟨hD2, hI2, h12.sects, ⟨Obj.mk E.pkg tok.text e.id s2.sects
            (freshFields s2.nid (s2.decls.allComponents e.id)), ?_, rfl, rfl, rfl,
            h12.sects, ?_, ?_, by rw [freshFields_fst, hD2]; exact allComponents_nodup hw _⟩,
            by simp, by simp, by simp⟩
        · simp only
          rw [h12.objs]
        · intro c hc
          have hmem : c ∈ s2.decls.allComponents e.id := by
            rw [hD2]; exact (mem_allComponents hw.wf _ _).2 hc
          obtain ⟨n, a1, a2, a3, a4⟩ := freshFields_lookup _ s2.nid c hmem
          refine ⟨n, a1, by rw [h12.nid] at a3; exact a3, a4, a2⟩
        · intro k hk
          obtain ⟨c, hc, e⟩ := freshFields_keys _ _ _ hk
          rw [hD2] at hc
          exact ⟨c, (mem_allComponents hw.wf _ _).1 hc, e⟩
  · rintro o s3 h3 ⟨rfl, ht3, hw3, he3, hdecl, hb3⟩
    refine sp_bind _ ((matchK_sp.withRd matchK_rd).ro _) ?_
    rintro bra s4 - ⟨h4, ⟨-, -, -, hlt4⟩, _, hw4, -, hk4, rfl⟩
    refine sp_get_bind ?_
    refine sp_bind _ (assignLoop_sp hw (proto := proto) (s4.toks + 1) [] s4 (by omega) (hb3.fr h4)) ?_
    rintro _ s5 h5 ⟨ht5, hs5, asg, ts5, hb5, hw5, hr5⟩
    simp only [List.append_nil] at hb5
    refine sp_get_bind ?_
    have hcs : ∀ c ∈ s5.decls.allComponents e.id, HasComp D proto.typ c := by
      intro c hc
      rw [hb5.decls] at hc
      exact (mem_allComponents hw.wf _ _).1 hc
    refine sp_bind _ (completeLoop_sp hw (proto := proto) (s5.decls.allComponents e.id) [] s5 hcs
      hb5.completing) ?_
    rintro _ s6 h6 ⟨hc6, he6, hw6, ht6⟩
    refine sp_bind _ ((matchK_sp.withRd matchK_rd).ro _) ?_
    rintro ket s7 - ⟨h7, ⟨-, -, -, hlt7⟩, _, hw7, hn6, hk7, rfl⟩
    have hc7 := hc6.fr h7
    have hle5 := h5.toks
    have hle6 := h6.toks
    refine sp_pure ⟨rfl, by omega, ?_⟩
    obtain ⟨ob, k1, k2, k3, k4, k5, k6, kf, k7⟩ := hc7.complete (fun c hc => by
      simp only [List.append_nil]
      rw [hb5.decls]
      exact (mem_allComponents hw.wf _ _).2 hc)
    have hn : namesOf s7 = namesOf s4 := by
      unfold namesOf
      have ho : s7.objs.map (·.typ) = s4.objs.map (·.typ) := by
        rw [k1, (hb3.fr h4).otyps]
        simp [k4, proto]
      rw [h7.tabs, ht6, ht5, h7.seps, h6.seps, hs5, h7.decls, h6.decls, h5.decls, ho]
    have hn5 : s5.nt = some ket := by rw [← words_head s5, ← hw6, words_head, hn6]
    have hn' : namesOf s7 = namesOf s3 := by rw [hn, namesOf_fr h4]
    refine ⟨hc7.sects', tok :: bra :: ts5 ++ [ket], ?_, ob, asg, k1, k2, k5, k4,
      by rw [hn', k3, k4, ← namesOf_fr h12]; exact hdecl, k6, ?_, ?_, ?_⟩
    · rw [hw2, ← hw3, hw4, hw5, ← hw6, hw7]
      simp
    · exact objFrom_reverse (kf hab hb5.once hb5.known hb5.free)
    · intro herr
      have e57 : ∃ l, s7.errs = s5.errs ++ l := by
        obtain ⟨l, hl⟩ := h7.errs
        exact ⟨l, by rw [hl, he6]⟩
      have e45 := h5.errs
      have e04 : ∃ l, s4.errs = s.errs ++ l := by
        obtain ⟨l, hl⟩ := h12.errs
        obtain ⟨l', hl'⟩ := h4.errs
        exact ⟨l ++ l', by rw [hl', he3, hl, List.append_assoc]⟩
      have e05 : ∃ l, s5.errs = s.errs ++ l := by
        obtain ⟨l, hl⟩ := e04
        obtain ⟨l', hl'⟩ := e45
        exact ⟨l ++ l', by rw [hl', hl, List.append_assoc]⟩
      have e1 := errs_between e05 e57 herr
      have e2 := errs_between e04 e45 e1.1
      rw [hn, k3]
      exact ⟨tok, bra, ts5, ket, rfl, hk2, rfl, hk4, hk7, hn5 ▸ hr5 e2.2⟩
    · rw [k4]
      exact k7

theorem parseObject_sp {E : FileEnv} {D : Decls} {infos : List RecInfo} (hw : WorldOk D infos)
    {s : PS} (hD : s.decls = D) (hI : s.infos = infos) :
    Sp (Ro s.objs.length) (parseObject E) s (fun o s' => o = s.objs.length ∧
      s'.toks < s.toks ∧ s'.sects = s.sects ∧
      ∃ ts, words s = ts ++ words s' ∧ NewObject D infos E s s' ts) := by
  unfold parseObject
  refine sp_bind _ ((parseQualifiedName_sp.withRd parseQualifiedName_rd).ro _) ?_
  rintro e s1 - ⟨h1, ⟨hlt1, -⟩, tn, hw1, hname, hcls⟩
  have := parseObjectOf_sp hw (E := E) (e := e) (h1.decls.trans hD) (h1.infos.trans hI)
  rw [h1.objs] at this
  refine this.mono ?_
  rintro o s' hr ⟨h2, h3, h4, ts, hw2, ob, asg, k1, k2, k3, k4, kd, k5, k6, k7, k8⟩
  refine ⟨h2, by omega, h4.trans h1.sects, tn ++ ts, by rw [hw1, hw2, List.append_assoc],
    ob, asg, by rw [← h1.objs]; exact k1, k2, by rw [← h1.sects]; exact k3,
    by rw [← h1.objs, ← namesOf_fr h1]; exact kd, k5, k6, ?_,
    by rw [← h1.nid]; exact k8⟩
  intro herr
  have ee := errs_between h1.errs hr.errs herr
  refine ⟨tn, e, ts, rfl, hname, by simpa using hcls, k4.symm, ?_⟩
  rw [k4]
  exact k7 ee.2

end Verif.Lemmas
