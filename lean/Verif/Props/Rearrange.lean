import Verif.Props.ProjectRun
import Verif.Props.Export
import Verif.Lemmas.RearrangeRefs
import Verif.Lemmas.RearrangeEval
/-!
# Moving requirements between files (C92)
-/
namespace Verif.Props
open Verif.Model Verif.Spec Verif.Lemmas Verif.Lemmas.Rearrange

/-! ## Before the trlc files are parsed -/

theorem base_of_inv {g : STab} {s : PS} (h : RslInv g s) : Rearrange.Base g (namesOf s) := by
  have key : ∀ p, ((namesOf s).tab p).parents = [] ∧ (∀ k e, ((namesOf s).tab p).own.get k = some e → e.cls ≠ clsObject ∧ k = simplifiedName e.name) := by
    intro p
    unfold Names.tab
    cases hT : (namesOf s).tabs[p]? with
    | none => exact ⟨rfl, fun k e h => by cases h⟩
    | some T =>
      refine ⟨(h.sees p T hT).1, fun k e he => ?_⟩
      simp only [Option.getD_some] at he
      have hm : (k, e) ∈ T.own := by
        unfold Frame.get at he
        cases hf : T.own.find? (fun p => decide (p.1 = k)) with
        | none => rw [hf] at he; cases he
        | some x =>
          rw [hf] at he
          cases he
          have h1 := List.find?_some hf
          have h2 := List.mem_of_find?_eq_some hf
          simp only [decide_eq_true_eq] at h1
          subst h1
          exact h2
      obtain ⟨h1, h2⟩ := h.ents p T k e hT hm
      refine ⟨?_, h2⟩
      rcases cnt_pos h1 with h | h | h <;> rw [h] <;> decide
  refine ⟨h.glob, ?_, fun p => (key p).1, fun p hp => ?_, fun p => (key p).2⟩
  · show List.map _ s.objs = []
    rw [h.objs]
    rfl
  · unfold Names.tab
    obtain ⟨T, hT⟩ : ∃ T, (namesOf s).tabs[p]? = some T := ⟨_, List.getElem?_eq_getElem hp⟩
    rw [hT]
    exact (h.sees p T hT).2

theorem sepFields_ok {E : FileEnv} {N : Names} {t n : Nat} {cs : List Comp} {seps : List Sep} {ts : List Token} {n' : Nat}
    (h : SepFieldsText E N t n cs seps ts n') : ∀ sp ∈ seps, sp ≠ .kind .C_BRA ∧ sp ≠ .kind .C_KET ∧ sp ≠ .kind .ASSIGN := by
  induction h with
  | one _ => intro sp h; cases h
  | more _ _ hsep _ ih =>
    intro sp h
    rcases List.mem_append.1 h with h | h
    · exact ih sp h
    · simp only [List.mem_singleton] at h
      subst h
      rcases hsep with ⟨-, rfl⟩ | ⟨hk | hk | hk, rfl⟩
      · exact ⟨by simp, by simp, by simp⟩
      all_goals rw [hk]; exact ⟨by simp, by simp, by simp⟩

theorem item_seps {E : FileEnv} {rx : Regex} {W W' : World} {ts : List Token} (h : ItemText E rx W ts W')
    (hs : SepsOk W.seps) : SepsOk W'.seps := by
  cases h with
  | enum => exact hs
  | record => exact hs
  | checks => 
    unfold World.withChecks
    split <;> exact hs
  | tuple _ _ _ hf _ _ =>
    intro ss hm
    rcases List.mem_append.1 hm with hm | hm
    · exact hs ss hm
    · simp only [List.mem_singleton] at hm
      subst hm
      rcases hf.2 with ⟨h, -⟩ | ⟨-, h, -⟩
      · rw [h]
        intro sp h
        cases h
      · exact sepFields_ok h

theorem text_seps {E : FileEnv} {rx : Regex} {W W' : World} {ts : List Token} (h : RslText E rx W ts W')
    (hs : SepsOk W.seps) : SepsOk W'.seps := by
  induction h with
  | nil => exact hs
  | cons h _ ih => exact ih (item_seps h hs)

theorem files_seps {rx : Regex} {W W' : World} {fs : List OpenFile} (h : RslFilesText rx W fs W')
    (hs : SepsOk W.seps) : SepsOk W'.seps := by
  induction h with
  | nil => exact hs
  | cons h _ ih =>
    apply ih
    clear ih
    exact text_seps h hs

/-! ## Objects -/

theorem sameObject_of {D : Decls} {infos : List RecInfo} {seps : List (List Sep)} (hd : SoundDecls D infos seps)
    {x : Obj × List (String × PVal)} {ob : Obj} (h1 : ObjFrom D infos x.2 x.1) (h2 : AsWritten D infos x ob)
    (c1 : ObjComplete D infos x.1) (c2 : ObjComplete D infos ob) : SameObject x.1 ob := by
  obtain ⟨e1, e2, e3, e4, h2⟩ := h2
  refine ⟨⟨e1, e2, e3, fun k => ?_⟩, e4⟩
  by_cases hk : ∃ c, HasComp D x.1.typ c ∧ c.name = k
  · obtain ⟨c, hc, rfl⟩ := hk
    obtain ⟨-, hn, -, -, h1⟩ := h1
    obtain ⟨-, -, -, -, h2⟩ := h2
    obtain ⟨n, k1, k2⟩ := h1 c hc
    obtain ⟨m, l1, l2⟩ := h2 c (by rw [e3]; exact hc)
    rw [k1, l1]
    simp only [Option.map_some, Option.some.injEq]
    rw [e3] at l2
    have mem : ∀ v, (c.name, v) ∈ x.2 → c.name ∈ x.2.map Prod.fst := fun v hv => List.mem_map.2 ⟨_, hv, rfl⟩
    rcases k2 with ⟨v, a1, rfl⟩ | ⟨a1, a2⟩ | ⟨a1, a2, a3, a4⟩ <;>
      rcases l2 with ⟨w, b1, b2⟩ | ⟨b1, b2⟩ | ⟨b1, b2, b3, b4⟩
    · have := Rearrange.mem_lookup hn a1
      rw [Rearrange.mem_lookup hn b1] at this
      cases this
      exact b2
    · exact absurd (mem _ a1) b1
    · exact absurd (mem _ a1) b1
    · exact absurd (mem _ b1) a1
    · rw [frozenIn_unique hd a2 b2]
    · exact absurd a2 (b2 _)
    · exact absurd (mem _ b1) a1
    · exact absurd b2 (a2 _)
    · rw [a4, b4]
  · have n1 : x.1.fields.lookup k = none := by
      cases h : x.1.fields.lookup k with
      | none => rfl
      | some n => exact absurd (c1.2.1 k (by rw [h]; rfl)) hk
    have n2 : ob.fields.lookup k = none := by
      cases h : ob.fields.lookup k with
      | none => rfl
      | some n => exact absurd (c2.2.1 k (by rw [h]; rfl)) (by rw [e3]; exact hk)
    rw [n1, n2]

theorem sameData_symm {o o' : Obj} (h : SameData o o') : SameData o' o :=
  ⟨h.pkg.symm, h.name.symm, h.typ.symm, fun k => (h.values k).symm⟩

theorem sameObject_symm {o o' : Obj} (h : SameObject o o') : SameObject o' o :=
  ⟨⟨h.pkg.symm, h.name.symm, h.typ.symm, fun k => (h.values k).symm⟩, h.sects.symm⟩

/-- the objects of two runs are the same, in some order -/
def SameObjects (objs objs' : List Obj) : Prop := ∃ qs, objs.Perm qs ∧ List.Forall₂ SameObject qs objs'

theorem forall₂_to {α β : Type} {R : α → β → Prop} {l : List α} {l' : List β} (h : List.Forall₂ R l l') :
    ∀ b ∈ l', ∃ a ∈ l, R a b := by
  induction h with
  | nil => intro b h; cases h
  | cons h1 _ ih =>
    intro b hb
    rcases List.mem_cons.1 hb with rfl | hb
    · exact ⟨_, by simp, h1⟩
    · obtain ⟨a, h2, h3⟩ := ih b hb
      exact ⟨a, by simp [h2], h3⟩

theorem forall₂_from {α β : Type} {R : α → β → Prop} {l : List α} {l' : List β} (h : List.Forall₂ R l l') :
    ∀ a ∈ l, ∃ b ∈ l', R a b := by
  induction h with
  | nil => intro b h; cases h
  | cons h1 _ ih =>
    intro b hb
    rcases List.mem_cons.1 hb with rfl | hb
    · exact ⟨_, by simp, h1⟩
    · obtain ⟨a, h2, h3⟩ := ih b hb
      exact ⟨a, by simp [h2], h3⟩

theorem SameObjects.to {objs objs' : List Obj} (h : SameObjects objs objs') : ∀ o' ∈ objs', ∃ o ∈ objs, SameObject o o' := by
  obtain ⟨qs, h1, h2⟩ := h
  intro o' ho
  obtain ⟨o, h3, h4⟩ := forall₂_to h2 o' ho
  exact ⟨o, h1.mem_iff.2 h3, h4⟩

theorem SameObjects.data {objs objs' : List Obj} (h : SameObjects objs objs') : ∀ o' ∈ objs', ∃ o ∈ objs, SameData o o' := by
  intro o' ho
  obtain ⟨o, h1, h2⟩ := h.to o' ho
  exact ⟨o, h1, h2.toSameData⟩

theorem SameObjects.from {objs objs' : List Obj} (h : SameObjects objs objs') : ∀ o ∈ objs, ∃ o' ∈ objs', SameObject o o' := by
  obtain ⟨qs, h1, h2⟩ := h
  intro o ho
  exact forall₂_from h2 o (h1.mem_iff.1 ho)

/-- the same declarations, apart from checks -/
def SameBut (W W' : World) : Prop := { W with checks := W'.checks } = W'

theorem sameBut_of {W W' : World} (h : W = W') : SameBut W W' := by
  subst h
  rfl

theorem SameBut.eq {W W' : World} (h : SameBut W W') (hc : W.checks = W'.checks) : W = W' := by
  unfold SameBut at h
  rw [← hc] at h
  exact h

/-- trlc files with the same declarations are accepted as well, and have the same objects -/
theorem rearranged_objects {g : STab} {s s1 t : PS} {fs fs' : List OpenFile} (hi : RslInv g s) (hs : SepsOk s.seps)
    (ht : SameBut (worldOf t) (worldOf s))
    (hE : ∀ f ∈ fs, f.env.global = g) (hE' : ∀ f ∈ fs', f.env.global = g) (hc : ∀ f ∈ fs', CleanFile f)
    (hr : Rearranged fs fs') (h : runTrlcFiles fs s = .ok true s1) (he : s1.errs = s.errs)
    (ha : AllResolved s.decls s1.objs) :
    ∃ s2, runTrlcFiles fs' t = .ok true s2 ∧ s2.errs = t.errs ∧ AllResolved s.decls s2.objs ∧ SameObjects s1.objs s2.objs := by
  have hw := hi.sound.world
  have td : t.decls = s.decls := congrArg World.decls ht
  have ti : t.infos = s.infos := congrArg World.infos ht
  have tn : namesOf t = namesOf s := congrArg World.names ht
  have tob : t.objs = [] := by
    have h1 : t.objs.map (·.typ) = s.objs.map (·.typ) := congrArg World.otyps ht
    rw [hi.objs] at h1
    simpa using h1
  have hw' : WorldOk t.decls t.infos := by rw [td, ti]; exact hw
  have hb := base_of_inv hi
  obtain ⟨items, e1, h1, h2⟩ := C61_objects_written hw hi.objs h he
  have fine : ∀ o ∈ s1.objs, ∀ f ∈ o.fields, Fine s.decls s1.objs f.2.val := by
    intro o ho
    obtain ⟨i, hi⟩ := List.mem_iff_getElem?.1 ho
    exact (resolvedObj_fine o.fields).1 (ha i o hi)
  obtain ⟨items', N', p1, p2⟩ := rearranged_written hb hs hE hE' hr h1 (fun hg x hx =>
    refsOk_of hb hg (h2 x hx) (by
      intro f hf
      have := fine x.1 (by rw [e1]; exact List.mem_map_of_mem hx) f hf
      rw [e1] at this
      exact this))
  have h2' : ∀ x ∈ items', ObjFrom s.decls s.infos x.2 x.1 := fun x hx => h2 x (p1.mem_iff.2 hx)
  obtain ⟨s2, k1, k2, -, k3⟩ := C73_trlc_accepted (s := t) hw' tob hc (by rw [tn]; exact p2) (by rw [td, ti]; exact h2')
  rw [td, ti] at k3
  have hso : SameObjects s1.objs s2.objs := by
    refine ⟨items'.map Prod.fst, by rw [e1]; exact p1.map _, ?_⟩
    rw [List.forall₂_map_left_iff]
    have cp : ∀ o ∈ s1.objs, ObjComplete s.decls s.infos o := by
      intro o ho
      obtain ⟨i, hi'⟩ := List.mem_iff_getElem?.1 ho
      exact (C32_all_complete hw hi.objs h i o hi').1
    have cp' : ∀ o ∈ s2.objs, ObjComplete s.decls s.infos o := by
      intro o ho
      obtain ⟨i, hi'⟩ := List.mem_iff_getElem?.1 ho
      have := (C32_all_complete hw' tob k1 i o hi').1
      rw [td, ti] at this
      exact this
    have key : ∀ {l : List (Obj × List (String × PVal))} {l' : List Obj}, List.Forall₂ (AsWritten s.decls s.infos) l l' →
        (∀ x ∈ l, x ∈ items') → (∀ o ∈ l', o ∈ s2.objs) → List.Forall₂ (fun a c => SameObject a.1 c) l l' := by
      intro l l' hl
      induction hl with
      | nil => intro _ _; exact .nil
      | cons h3 _ ih =>
        intro m1 m2
        refine .cons ?_ (ih (fun x hx => m1 x (by simp [hx])) (fun x hx => m2 x (by simp [hx])))
        have hm := m1 _ List.mem_cons_self
        exact sameObject_of hi.sound (h2' _ hm) h3 (cp _ (by rw [e1]; exact List.mem_map_of_mem (p1.mem_iff.2 hm)))
          (cp' _ (m2 _ List.mem_cons_self))
    exact key k3 (fun _ h => h) (fun _ h => h)
  refine ⟨s2, k1, k2, ?_, hso⟩
  intro i ob hob
  rw [resolvedObj_fine]
  intro f hf
  obtain ⟨o, ho, hsame⟩ := hso.to ob (List.mem_of_getElem? hob)
  have hcomp := (C32_all_complete hw' tob k1 i ob hob).1
  have hl := Rearrange.mem_lookup hcomp.2.2 (k := f.1) (v := f.2) hf
  have hv := hsame.values f.1
  rw [hl] at hv
  cases hlo : o.fields.lookup f.1 with
  | none => rw [hlo] at hv; cases hv
  | some n =>
    rw [hlo] at hv
    simp only [Option.map_some, Option.some.injEq] at hv
    rw [hv]
    refine fine_mono (fun x hx => ?_) (fine o ho _ (Rearrange.lookup_mem hlo))
    obtain ⟨y, hy, hxy⟩ := hso.from x hx
    exact ⟨y, hy, hxy.pkg, hxy.name, hxy.typ⟩

/-! ## Checks -/

/-- what is known about the objects of a run -/
structure Settled (D : Decls) (infos : List RecInfo) (n0 : Nat) (s : PS) : Prop where
  good : GoodObjs D infos n0 s
  names : ∀ {i j p n o o'}, IsNamed s.objs i p n o → IsNamed s.objs j p n o' → i = j
  heap : ∀ (i : Nat) (ob : Obj), s.objs[i]? = some ob → ∃ gs, s.heap i = some gs ∧ ResolvedObj D s.objs ob.fields gs

theorem settled_of {s s' : PS} {g : STab} {fs : List OpenFile} (hi : RslInv g s) (hp : PkgsKnown g s)
    (h : runTrlcFiles fs s = .ok true s') (ha : AllResolved s.decls s'.objs) : Settled s.decls s.infos s.nid s' := by
  have hw := hi.sound.world
  have h0 := noObjects_of_inv hi
  obtain ⟨-, hb⟩ := (runTrlcFiles_sp hw s.nid fs s rfl rfl).ok h
  refine ⟨(hb rfl).1 ⟨Nat.le_refl _, by rw [h0.objs]; simp, by rw [h0.objs]; simp, by rw [h0.objs]; simp⟩,
    fun h1 h2 => C35_target_unique hw h0 h h1 h2, ?_⟩
  exact C35_references hw h0 hp h ((C35_resolved_iff hw h0 hp h).2 ha)

/-- the same object of two runs -/
def Paired (s s' : PS) (i j : Nat) : Prop := ∃ o o', s.objs[i]? = some o ∧ s'.objs[j]? = some o' ∧ SameData o o'

section
variable {D : Decls} {infos : List RecInfo} {seps : List (List Sep)} {n0 : Nat} {s s' : PS}

theorem paired_symm {i j : Nat} (h : Paired s s' i j) : Paired s' s j i := by
  obtain ⟨o, o', h1, h2, h3⟩ := h
  exact ⟨o', o, h2, h1, sameData_symm h3⟩

theorem paired_fun (h : Settled D infos n0 s') {i j k : Nat} (h1 : Paired s s' i j) (h2 : Paired s s' i k) : j = k := by
  obtain ⟨o, o', a1, a2, a3⟩ := h1
  obtain ⟨p, p', b1, b2, b3⟩ := h2
  rw [a1] at b1
  cases b1
  exact h.names (p := o.pkg) (n := o.name) ⟨a2, a3.pkg, a3.name⟩ ⟨b2, b3.pkg, b3.name⟩

/-- objects of the same name are the same -/
def Matched (s s' : PS) : Prop := ∀ i j p n o o', IsNamed s.objs i p n o → IsNamed s'.objs j p n o' → Paired s s' i j

theorem Matched.symm (h : Matched s s') : Matched s' s := fun i j p n o o' h1 h2 => paired_symm (h j i p n o' o h2 h1)

theorem matched_of (h : Settled D infos n0 s) (hs : ∀ o' ∈ s'.objs, ∃ o ∈ s.objs, SameData o o') : Matched s s' := by
  intro i j p n o o' h1 h2
  obtain ⟨x, hx, hsame⟩ := hs o' (List.mem_of_getElem? h2.1)
  obtain ⟨k, hk⟩ := List.mem_iff_getElem?.1 hx
  have : k = i := h.names (p := p) (n := n) ⟨hk, hsame.pkg.symm.trans h2.2.1, hsame.name.symm.trans h2.2.2⟩ h1
  subst this
  exact ⟨x, o', hk, h2.1, hsame⟩

mutual
theorem resolved_same (hm : Matched s s') : (v : PVal) → (e f : FExpr) →
    Resolved D s.objs v e → Resolved D s'.objs v f → FSame (Paired s s') e f
  | .inull, e, f, h1, h2 => by simp only [Resolved] at h1 h2; subst h1 h2; simp only [FSame]
  | .bool _, e, f, h1, h2 => by simp only [Resolved] at h1 h2; subst h1 h2; simp only [FSame]
  | .int _, e, f, h1, h2 => by simp only [Resolved] at h1 h2; subst h1 h2; simp only [FSame]
  | .dec _, e, f, h1, h2 => by simp only [Resolved] at h1 h2; subst h1 h2; simp only [FSame]
  | .str _, e, f, h1, h2 => by simp only [Resolved] at h1 h2; subst h1 h2; simp only [FSame]
  | .enum _ _, e, f, h1, h2 => by simp only [Resolved] at h1 h2; subst h1 h2; simp only [FSame]
  | .markup _ _, e, f, h1, h2 => by
    simp only [Resolved] at h1 h2
    obtain ⟨rfl, -⟩ := h1
    obtain ⟨rfl, -⟩ := h2
    simp only [FSame]
  | .neg v, e, f, h1, h2 => by
    simp only [Resolved] at h1 h2
    obtain ⟨g1, rfl, h1⟩ := h1
    obtain ⟨g2, rfl, h2⟩ := h2
    simp only [FSame]
    exact ⟨g2, rfl, resolved_same hm v g1 g2 h1 h2⟩
  | .pos v, e, f, h1, h2 => by
    simp only [Resolved] at h1 h2
    obtain ⟨g1, rfl, h1⟩ := h1
    obtain ⟨g2, rfl, h2⟩ := h2
    simp only [FSame]
    exact ⟨g2, rfl, resolved_same hm v g1 g2 h1 h2⟩
  | .arr t es, e, f, h1, h2 => by
    simp only [Resolved] at h1 h2
    obtain ⟨g1, rfl, h1⟩ := h1
    obtain ⟨g2, rfl, h2⟩ := h2
    simp only [FSame]
    exact ⟨g2, rfl, resolvedAll_same hm es g1 g2 h1 h2⟩
  | .tup t fs, e, f, h1, h2 => by
    simp only [Resolved] at h1 h2
    obtain ⟨g1, rfl, h1⟩ := h1
    obtain ⟨g2, rfl, h2⟩ := h2
    simp only [FSame]
    exact ⟨g2, rfl, resolvedFields_same hm fs g1 g2 h1 h2⟩
  | .ref τ p n, e, f, h1, h2 => by
    simp only [Resolved] at h1 h2
    obtain ⟨i, o, rfl, h1, -⟩ := h1
    obtain ⟨j, o', rfl, h2, -⟩ := h2
    simp only [FSame]
    exact ⟨some j, rfl, .inr ⟨i, j, rfl, rfl, hm _ _ _ _ _ _ h1 h2⟩⟩

theorem resolvedAll_same (hm : Matched s s') : (v : List PVal) → (e f : List FExpr) →
    ResolvedAll D s.objs v e → ResolvedAll D s'.objs v f → FSames (Paired s s') e f
  | [], e, f, h1, h2 => by simp only [ResolvedAll] at h1 h2; subst h1 h2; simp only [FSames]
  | v :: vs, e, f, h1, h2 => by
    simp only [ResolvedAll] at h1 h2
    obtain ⟨g1, hs1, rfl, h1, h1'⟩ := h1
    obtain ⟨g2, hs2, rfl, h2, h2'⟩ := h2
    simp only [FSames]
    exact ⟨g2, hs2, rfl, resolved_same hm v g1 g2 h1 h2, resolvedAll_same hm vs hs1 hs2 h1' h2'⟩

theorem resolvedFields_same (hm : Matched s s') : (v : List (String × PVal)) →
    (e f : List (String × FExpr)) →
    ResolvedFields D s.objs v e → ResolvedFields D s'.objs v f → FSameFields (Paired s s') e f
  | [], e, f, h1, h2 => by simp only [ResolvedFields] at h1 h2; subst h1 h2; simp only [FSameFields]
  | (k, v) :: vs, e, f, h1, h2 => by
    simp only [ResolvedFields, ResolvedField] at h1 h2
    obtain ⟨⟨n1, g1⟩, hs1, rfl, ⟨rfl, h1⟩, h1'⟩ := h1
    obtain ⟨⟨n2, g2⟩, hs2, rfl, ⟨rfl, h2⟩, h2'⟩ := h2
    simp only [FSameFields, FSameField]
    exact ⟨(n2, g2), hs2, rfl, ⟨rfl, resolved_same hm v g1 g2 h1 h2⟩, resolvedFields_same hm vs hs1 hs2 h1' h2'⟩
end

/-- the values of the same component of the same object -/
theorem frozen_or_own (h : Settled D infos n0 s) {i : Nat} {o : Obj} (hi : s.objs[i]? = some o)
    {gs : Fields} (hg : ResolvedObj D s.objs o.fields gs) {k : String} {n : FNode} (hn : gs.lookup k = some n) :
    ∃ c v, HasComp D o.typ c ∧ c.name = k ∧ o.fields.lookup k = some v ∧ n.id = v.id ∧ Resolved D s.objs v.val n.expr ∧
      (FrozenIn D infos o.typ k v ∨ ((∀ m, ¬ FrozenIn D infos o.typ k m) ∧ n0 ≤ v.id)) := by
  have hc := h.good.complete i o hi
  cases hv : o.fields.lookup k with
  | none => rw [(resolvedObj_lookup hg k).2 hv] at hn; cases hn
  | some v =>
    obtain ⟨e, h1, h2⟩ := (resolvedObj_lookup hg k).1 v hv
    rw [h1] at hn
    cases hn
    obtain ⟨c, hc1, rfl⟩ := hc.2.1 k (by rw [hv]; rfl)
    obtain ⟨m, h3, h4⟩ := hc.1 c hc1
    rw [hv] at h3
    cases h3
    refine ⟨c, v, hc1, rfl, rfl, rfl, h2, ?_⟩
    rcases h4 with h4 | ⟨h4, -⟩
    · exact .inl h4
    · exact .inr ⟨h4, (h.good.range i o c v hi hc1 hv h4).1⟩

theorem resolved_keys_nodup (h : Settled D infos n0 s) {i : Nat} {o : Obj} (hi : s.objs[i]? = some o) {gs : Fields}
    (hg : ResolvedObj D s.objs o.fields gs) : (gs.map Prod.fst).Nodup := by
  rw [resolvedObj_keys hg]
  exact (h.good.complete i o hi).2.2

/-- the components of the same objects -/
theorem paired_lookup (hm : Matched s s') {o o' : Obj} {gs gs' : Fields}
    (hsame : SameData o o') (hg : ResolvedObj D s.objs o.fields gs) (hg' : ResolvedObj D s'.objs o'.fields gs') (k : String) :
    OptSame (fun n m => FSame (Paired s s') n.expr m.expr) (gs.lookup k) (gs'.lookup k) := by
  have hv := hsame.values k
  cases h1 : o.fields.lookup k with
  | none =>
    cases h2 : o'.fields.lookup k with
    | none => exact .inl ⟨(resolvedObj_lookup hg k).2 h1, (resolvedObj_lookup hg' k).2 h2⟩
    | some v' => rw [h1, h2] at hv; cases hv
  | some v =>
    cases h2 : o'.fields.lookup k with
    | none => rw [h1, h2] at hv; cases hv
    | some v' =>
      rw [h1, h2] at hv
      simp only [Option.map_some, Option.some.injEq] at hv
      obtain ⟨e, a1, a2⟩ := (resolvedObj_lookup hg k).1 v h1
      obtain ⟨e', b1, b2⟩ := (resolvedObj_lookup hg' k).1 v' h2
      rw [hv] at b2
      exact .inr ⟨_, _, a1, b1, resolved_same hm v.val e e' a2 b2⟩

theorem optSame_some {α β : Type} {R : α → β → Prop} {a : Option α} {b : Option β} (h : OptSame R a b) {y : β} (hb : b = some y) :
    ∃ x, a = some x ∧ R x y := by
  rcases h with ⟨-, h⟩ | ⟨x, y', h1, h2, h3⟩
  · rw [h] at hb; cases hb
  · rw [hb] at h2
    cases h2
    exact ⟨x, h1, h3⟩

theorem same_length (h : Settled D infos n0 s) (h' : Settled D infos n0 s') (hm : Matched s s') {i j : Nat}
    {o o' : Obj} (hi : s.objs[i]? = some o) (hj : s'.objs[j]? = some o') (hsame : SameData o o') {gs gs' : Fields}
    (hg : ResolvedObj D s.objs o.fields gs) (hg' : ResolvedObj D s'.objs o'.fields gs') : gs'.length = gs.length := by
  have n1 := resolved_keys_nodup h hi hg
  have n2 := resolved_keys_nodup h' hj hg'
  have key : ∀ {l : Fields}, ∀ k, k ∈ l.map Prod.fst ↔ l.lookup k ≠ none := by
    intro l k
    induction l with
    | nil => simp
    | cons x l ih =>
      rw [List.lookup_cons, List.map_cons, List.mem_cons, ih]
      by_cases hx : k == x.1
      · simp [beq_iff_eq.1 hx]
      · have : k ≠ x.1 := fun h => hx (beq_iff_eq.2 h)
        simp [hx, this]
  have hp : (gs.map Prod.fst).Perm (gs'.map Prod.fst) := by
    rw [List.perm_ext_iff_of_nodup n1 n2]
    intro k
    rw [key, key]
    rcases paired_lookup hm hsame hg hg' k with ⟨a, b⟩ | ⟨x, y, a, b, -⟩ <;> rw [a, b] <;> simp
  have := hp.length_eq
  simpa using this.symm

/-- equal in one run, equal in the other -/
theorem fieldsEq_same (hd : SoundDecls D infos seps) (hf : FrozenBefore infos n0) (h : Settled D infos n0 s)
    (h' : Settled D infos n0 s') (hm : Matched s s') {i i' j j' : Nat} (hi : Paired s s' i i')
    (hj : Paired s s' j j') {fs fs' gs gs' : Fields} (e1 : s.heap i = some fs) (e2 : s'.heap i' = some fs')
    (e3 : s.heap j = some gs) (e4 : s'.heap j' = some gs') (heq : fieldsEq fs gs = true) : fieldsEq fs' gs' = true := by
  obtain ⟨a, a', ha1, ha2, ha⟩ := id hi
  obtain ⟨b, b', hb1, hb2, hb⟩ := id hj
  obtain ⟨_, r1, ra⟩ := h.heap i a ha1
  rw [e1] at r1; cases r1
  obtain ⟨_, r1, ra'⟩ := h'.heap i' a' ha2
  rw [e2] at r1; cases r1
  obtain ⟨_, r1, rb⟩ := h.heap j b hb1
  rw [e3] at r1; cases r1
  obtain ⟨_, r1, rb'⟩ := h'.heap j' b' hb2
  rw [e4] at r1; cases r1
  rw [fieldsEq_iff] at heq ⊢
  obtain ⟨hl, heq⟩ := heq
  refine ⟨by rw [same_length h h' hm ha1 ha2 ha ra ra', same_length h h' hm hb1 hb2 hb rb rb', hl], ?_⟩
  rintro ⟨k, n'⟩ hmem
  have hn' := Rearrange.mem_lookup (resolved_keys_nodup h' ha2 ra') hmem
  obtain ⟨n, hn, -⟩ := optSame_some (paired_lookup hm ha ra ra' k) hn'
  obtain ⟨m, hm1, hid⟩ := heq (k, n) (Rearrange.lookup_mem hn)
  dsimp only at hm1 hid ⊢
  -- the component in the four objects
  obtain ⟨c, v, c1, rfl, c3, c4, -, c6⟩ := frozen_or_own h ha1 ra hn
  obtain ⟨c', v', c1', cn', c3', c4', -, c6'⟩ := frozen_or_own h' ha2 ra' hn'
  obtain ⟨d, w, d1, dn, d3, d4, -, d6⟩ := frozen_or_own h hb1 rb hm1
  have frz : ∀ {t : Nat} {k : String} {x : VNode}, FrozenIn D infos t k x → x.id < n0 := by
    rintro t k x ⟨a, inf, -, hinf, hlk⟩
    exact hf inf (List.mem_of_getElem? hinf) _ (Rearrange.lookup_mem hlk)
  rcases c6 with c6 | ⟨c6, c7⟩
  · -- frozen
    have hv' : v' = v := by
      rcases c6' with c6' | ⟨c6', -⟩
      · rw [ha.typ] at c6'
        exact frozenIn_unique hd c6' c6
      · exact absurd (by rw [ha.typ]; exact c6) (c6' v)
    have hw : FrozenIn D infos b.typ c.name w := by
      rcases d6 with d6 | ⟨-, d7⟩
      · exact d6
      · have := frz c6
        omega
    obtain ⟨m', hm'⟩ : ∃ m', gs'.lookup c.name = some m' := by
      rcases paired_lookup hm hb rb rb' c.name with ⟨x, y⟩ | ⟨x, y, z1, z2, -⟩
      · rw [hm1] at x; cases x
      · exact ⟨y, z2⟩
    obtain ⟨d', w', d1', dn', d3', d4', -, d6'⟩ := frozen_or_own h' hb2 rb' hm'
    have hw' : w' = w := by
      rcases d6' with d6' | ⟨d6', -⟩
      · rw [hb.typ] at d6'
        exact frozenIn_unique hd d6' hw
      · exact absurd (by rw [hb.typ]; exact hw) (d6' w)
    subst hv' hw'
    exact ⟨m', hm', by omega⟩
  · -- not frozen: it is the same object
    have hw : ∀ x, ¬ FrozenIn D infos b.typ d.name x := by
      rw [dn]
      rcases d6 with d6 | ⟨d6, -⟩
      · have := frz d6
        omega
      · exact d6
    have hij : i = j := by
      rw [← dn] at d3
      rcases Nat.lt_trichotomy i j with hij | hij | hij
      · have := h.good.apart i j a b c d v w hij ha1 hb1 c1 c3 c6 d1 d3 hw
        omega
      · exact hij
      · have := h.good.apart j i b a d c w v hij hb1 ha1 d1 d3 hw c1 c3 c6
        omega
    subst hij
    have := paired_fun h' hi hj
    subst this
    rw [e2] at e4
    cases e4
    exact ⟨n', hn', rfl⟩

theorem sameObjects_symm (hs : SameObjects s.objs s'.objs) : SameObjects s'.objs s.objs := by
  obtain ⟨qs, h1, h2⟩ := hs
  obtain ⟨rs, h3, h4⟩ := Rearrange.f2_perm h1.symm h2
  exact ⟨rs, h3, h4.flip.imp fun _ _ h => sameObject_symm h⟩

theorem corr_of (hd : SoundDecls D infos seps) (hf : FrozenBefore infos n0) (h : Settled D infos n0 s)
    (h' : Settled D infos n0 s') (hm : Matched s s') : Corr (Paired s s') s.heap s'.heap := by
  refine ⟨?_, ?_⟩
  · intro i j hp
    obtain ⟨o, o', h1, h2, h3⟩ := hp
    obtain ⟨gs, a1, a2⟩ := h.heap i o h1
    obtain ⟨gs', b1, b2⟩ := h'.heap j o' h2
    exact .inr ⟨gs, gs', a1, b1, paired_lookup hm h3 a2 b2⟩
  · intro i j i' j' fs fs' gs gs' p1 p2 e1 e2 e3 e4
    rw [Bool.eq_iff_iff]
    constructor
    · exact fieldsEq_same hd hf h h' hm p1 p2 e1 e2 e3 e4
    · exact fieldsEq_same hd hf h' h hm.symm (paired_symm p1) (paired_symm p2) e2 e1 e4 e3

/-- checks that pass for the objects of one run pass for the same objects of another -/
theorem passed_same (hd : SoundDecls D infos seps) (hf : FrozenBefore infos n0) (h : Settled D infos n0 s)
    (h' : Settled D infos n0 s') (hs : ∀ o' ∈ s'.objs, ∃ o ∈ s.objs, SameData o o') {C : CheckTab} {rx : List Char → List Char → Bool}
    (hp : AllPassed D C rx s) : AllPassed D C rx s' := by
  have hm := matched_of h hs
  have hc := corr_of hd hf h h' hm
  intro j o' gs' hj hg'
  obtain ⟨o, ho, hsame⟩ := hs o' (List.mem_of_getElem? hj)
  obtain ⟨i, hi⟩ := List.mem_iff_getElem?.1 ho
  obtain ⟨gs, hg, hres⟩ := h.heap i o hi
  obtain ⟨_, hg2, hres'⟩ := h'.heap j o' hj
  rw [hg'] at hg2
  cases hg2
  have hl := paired_lookup hm hsame hres hres'
  have lk : ∀ (fs : Fields) (n : String), (recordCtx fs).lookup n = (fs.lookup n).map (·.expr) := by
    intro fs n
    induction fs with
    | nil => rfl
    | cons f fs ih =>
      rw [recordCtx, List.map_cons, List.lookup_cons, List.lookup_cons]
      cases n == f.1
      · exact ih
      · rfl
  obtain ⟨h1, h2⟩ := hp i o gs hi hg
  refine ⟨fun c hcheck => ?_, fun k n hn => ?_⟩
  · refine passes_same hc (fun k => ?_) (h1 c (by rw [← hsame.typ]; exact hcheck))
    rw [lk, lk]
    rcases hl k with ⟨x, y⟩ | ⟨x, y, z1, z2, z3⟩
    · rw [x, y]; exact .inl ⟨rfl, rfl⟩
    · rw [z1, z2]; exact .inr ⟨_, _, rfl, rfl, z3⟩
  · obtain ⟨m, hm', hmn⟩ := optSame_some (hl k) hn
    intro u fs' hdt c hcheck
    obtain ⟨fs, k1, k2⟩ := directTuple_same hdt hmn
    exact passes_same hc (fields_ctx k2) (h2 k m hm' u fs k1 c hcheck)

end

/-! ## Whole runs -/

section
variable {o : Options} {X : Outside} {required : List CU → Finset PNode} {fs fs' : List Source} {s : PS}

/-- The objects of the project `fs` have been moved to other places in the project `fs'`: the preambles of all files are
read without message and name the same packages, in the same order of first use; the same rsl files are parsed, in the
same order; and the trlc files that are parsed have the same declarations of objects, in the same sections, and in files with the same package and imports. -/
structure Moved (o : Options) (required : List CU → Finset PNode) (s : PS) (fs fs' : List Source) (g : STab)
    (ls ls' : List Loaded) (s1 s1' : PS) : Prop where
  read     : loadAll globalTable fs s = .ok (g, ls) s1
  read'    : loadAll globalTable fs' s = .ok (g, ls') s1'
  quiet    : s1.errs = s.errs
  quiet'   : s1'.errs = s.errs
  clean    : ∀ f ∈ fs, CleanSource f
  clean'   : ∀ f ∈ fs', CleanSource f
  lexed    : ∀ f ∈ fs, LexerOutput f.nt f.rest
  lexed'   : ∀ f ∈ fs', LexerOutput f.nt f.rest
  rsl      : parseRslOrder (required (ls.map (·.cu))) (ls.map (·.cu)) = parseRslOrder (required (ls'.map (·.cu))) (ls'.map (·.cu))
  rslFiles : Model.rslFiles (required (ls.map (·.cu))) ls = Model.rslFiles (required (ls'.map (·.cu))) ls'
  trlc     : Rearranged ((trlcFiles (required (ls.map (·.cu))) ls).map (·.openFile g o.recover))
    ((trlcFiles (required (ls'.map (·.cu))) ls').map (·.openFile g o.recover))

/-- What the linter says depends on the declarations only. -/
def LintsDecls (X : Outside) : Prop := ∀ g t t', worldOf t = worldOf t' → (X.lint g t).out = (X.lint g t').out

theorem mem_rslFiles {R : Finset PNode} {ls : List Loaded} {l : Loaded} (h : l ∈ Model.rslFiles R ls) : l ∈ ls := by
  unfold Model.rslFiles at h
  obtain ⟨n, -, h⟩ := List.mem_filterMap.1 h
  unfold rslMap at h
  exact List.mem_of_find?_eq_some h

theorem opened_clean {g : STab} {ls : List Loaded} {s1 : PS} (h : loadAll globalTable fs s = .ok (g, ls) s1)
    (he : s1.errs = s.errs) (hc : ∀ f ∈ fs, CleanSource f) (hl : ∀ f ∈ fs, LexerOutput f.nt f.rest) :
    ∀ l ∈ ls, l.cu.err = false ∧ CleanFile (l.openFile g o.recover) ∧
      LexerOutput (l.openFile g o.recover).nt (l.openFile g o.recover).rest := by
  have hpl := projectLoaded (loadAll_good h he).2
  intro l hl'
  obtain ⟨f, hf, p, is, hg⟩ := hpl.of l hl'
  exact ⟨hg.noErr, fun x hx => hc f hf x (hg.suffix.subset hx), hg.trail (hl f hf).1, eofLast_suffix (hl f hf).2 hg.suffix⟩

theorem blank_world {g : STab} {s s' : PS} (h : Blank s) (h' : Blank s') :
    worldOf (s'.withPackages g) = worldOf (s.withPackages g) := by
  unfold worldOf PS.withPackages
  simp only [h.decls, h.infos, h.seps, h.checks, h.objs, h.nid, h'.decls, h'.infos, h'.seps, h'.checks, h'.objs, h'.nid]

theorem moved_lint {g : STab} {R : Finset PNode} {ls : List Loaded} {s2 : PS} (hp : o.parseTrlc = true)
    (hrsl : runRsl g o.recover X.rx R ls s = .ok true s2) {ok : Bool} (h : (analyse o X g R ls ok s).out = .table)
    (ho : o.lint = true) : (X.lint g s2).out = some true := by
  have hk := (analyse_table h).1
  subst hk
  unfold analyse at h
  rw [hrsl] at h
  simp only [ho, hp, Bool.and_true, Bool.not_true, Bool.and_false, Bool.false_eq_true, if_false, if_true] at h
  cases hx : (X.lint g s2).out with
  | none => rw [hx] at h; cases h
  | some b =>
    rw [hx] at h
    dsimp only at h
    rw [(finish_table h).1.symm.trans (Bool.true_and b)]

/-- Two projects with the same rsl files whose preambles are read without message -/
structure Alike (required : List CU → Finset PNode) (s : PS) (fs fs' : List Source) (g : STab)
    (ls ls' : List Loaded) (s1 s1' : PS) : Prop where
  read     : loadAll globalTable fs s = .ok (g, ls) s1
  read'    : loadAll globalTable fs' s = .ok (g, ls') s1'
  quiet    : s1.errs = s.errs
  quiet'   : s1'.errs = s.errs
  clean    : ∀ f ∈ fs, CleanSource f
  clean'   : ∀ f ∈ fs', CleanSource f
  lexed    : ∀ f ∈ fs, LexerOutput f.nt f.rest
  lexed'   : ∀ f ∈ fs', LexerOutput f.nt f.rest
  rsl      : parseRslOrder (required (ls.map (·.cu))) (ls.map (·.cu)) = parseRslOrder (required (ls'.map (·.cu))) (ls'.map (·.cu))
  rslFiles : Model.rslFiles (required (ls.map (·.cu))) ls = Model.rslFiles (required (ls'.map (·.cu))) ls'

/-- The first checks are among the second. -/
def ChecksIn (C' C : CheckTab) : Prop :=
  (∀ (t : Nat) (cs : List Check) (c : Check), C'.recs[t]? = some cs → c ∈ cs → ∃ cs', C.recs[t]? = some cs' ∧ c ∈ cs') ∧
  ∀ t c, TupleCheck C' t c → TupleCheck C t c

theorem passed_fewer {D : Decls} {C C' : CheckTab} {rx : List Char → List Char → Bool} {s : PS} (h : ChecksIn C' C)
    (hp : AllPassed D C rx s) : AllPassed D C' rx s := by
  intro i ob gs h1 h2
  obtain ⟨k1, k2⟩ := hp i ob gs h1 h2
  refine ⟨?_, fun k n hn u gs hd c hc => k2 k n hn u gs hd c (h.2 u c hc)⟩
  rintro c ⟨t, cs, e1, e2, e3⟩
  obtain ⟨cs', e4, e5⟩ := h.1 t cs c e2 e3
  exact k1 c ⟨t, cs', e1, e4, e5⟩

/-- Two projects whose preambles are read without message, and whose rsl files declare the same, apart from checks; the checks of the
second are related to those of the first by `CF`. -/
structure AlikeBut (CF : CheckTab → CheckTab → Prop) (o : Options) (required : List CU → Finset PNode) (s : PS)
    (fs fs' : List Source) (g : STab) (ls ls' : List Loaded) (s1 s1' : PS) : Prop where
  read     : loadAll globalTable fs s = .ok (g, ls) s1
  read'    : loadAll globalTable fs' s = .ok (g, ls') s1'
  quiet    : s1.errs = s.errs
  quiet'   : s1'.errs = s.errs
  clean    : ∀ f ∈ fs, CleanSource f
  clean'   : ∀ f ∈ fs', CleanSource f
  lexed    : ∀ f ∈ fs, LexerOutput f.nt f.rest
  lexed'   : ∀ f ∈ fs', LexerOutput f.nt f.rest
  rsl      : parseRslOrder (required (ls.map (·.cu))) (ls.map (·.cu)) = parseRslOrder (required (ls'.map (·.cu))) (ls'.map (·.cu))
  rslText  : ∀ rx W0 W, RslFilesText rx W0 ((Model.rslFiles (required (ls.map (·.cu))) ls).map (·.openFile g o.recover)) W →
    SepsOk W0.seps → W0.checks = ⟨[], []⟩ → ∃ W', SameBut W' W ∧ CF W'.checks W.checks ∧
      RslFilesText rx W0 ((Model.rslFiles (required (ls'.map (·.cu))) ls').map (·.openFile g o.recover)) W'

theorem Alike.similar {g : STab} {ls ls' : List Loaded} {s1 s1' : PS} (m : Alike required s fs fs' g ls ls' s1 s1') :
    AlikeBut (fun C' C => C' = C) o required s fs fs' g ls ls' s1 s1' :=
  ⟨m.read, m.read', m.quiet, m.quiet', m.clean, m.clean', m.lexed, m.lexed', m.rsl, fun _ _ W h _ _ => by
    rw [m.rslFiles] at h
    exact ⟨W, rfl, rfl, h⟩⟩

/-- if the trlc files of the second project are accepted and have no other objects, then the second project is processed iff the
references in these objects can be resolved -/
theorem run_similar {g : STab} {ls ls' : List Loaded} {s1 s1' : PS} {Q : List Obj → List Obj → Prop} {CF : CheckTab → CheckTab → Prop} (hb : Blank s) (hp : o.parseTrlc = true)
    (hX : o.lint = true → ∀ t t', SameBut (worldOf t) (worldOf t') → CF t.checks t'.checks →
      (X.lint g t).out = (X.lint g t').out) (m : AlikeBut CF o required s fs fs' g ls ls' s1 s1')
    (hCF : ∀ C C', CF C' C → ChecksIn C' C)
    (h : (process o X required fs s).out = .table) (he : (process o X required fs s).state.errs = s.errs)
    (hQ : ∀ objs objs', Q objs objs' → ∀ o' ∈ objs', ∃ o ∈ objs, SameData o o')
    (step : ∀ s2 t : PS, RslInv g s2 → SepsOk s2.seps → SameBut (worldOf t) (worldOf s2) → CF t.checks s2.checks →
      (∀ f ∈ (trlcFiles (required (ls.map (·.cu))) ls).map (·.openFile g o.recover), f.env.global = g) →
      (∀ f ∈ (trlcFiles (required (ls'.map (·.cu))) ls').map (·.openFile g o.recover), f.env.global = g) →
      (∀ f ∈ (trlcFiles (required (ls'.map (·.cu))) ls').map (·.openFile g o.recover), CleanFile f) →
      runTrlcFiles ((trlcFiles (required (ls.map (·.cu))) ls).map (·.openFile g o.recover)) s2 =
        .ok true (process o X required fs s).state →
      (process o X required fs s).state.errs = s2.errs → AllResolved s2.decls (process o X required fs s).state.objs →
      ∃ s3, runTrlcFiles ((trlcFiles (required (ls'.map (·.cu))) ls').map (·.openFile g o.recover)) t = .ok true s3 ∧
        s3.errs = t.errs ∧ Q (process o X required fs s).state.objs s3.objs) :
    ∃ s3 : PS, s3.errs = s.errs ∧ s3.decls = (process o X required fs s).state.decls ∧
      s3.infos = (process o X required fs s).state.infos ∧ s3.seps = (process o X required fs s).state.seps ∧
      CF s3.checks (process o X required fs s).state.checks ∧ Q (process o X required fs s).state.objs s3.objs ∧
      (AllResolved s3.decls s3.objs → (process o X required fs' s).out = .table ∧ (process o X required fs' s).state = s3) ∧
      ((process o X required fs' s).out = .table → AllResolved s3.decls s3.objs ∧ (process o X required fs' s).state = s3) := by
  obtain ⟨s2, k, r⟩ := run_at hb m.read h
  have lex := opened_clean (o := o) m.read m.quiet m.clean m.lexed
  have lex' := opened_clean (o := o) m.read' m.quiet' m.clean' m.lexed'
  have kp' := loadAll_ok globalTable_pkgTab m.read'
  have hbl := hb.quiet k.built.quiet
  have hbl' := hb.quiet kp'.quiet
  obtain ⟨t1, t2, t3⟩ := k.trlc hp
  have hrsl := k.rsl
  generalize hS : (process o X required fs s).state = S at *
  have e1 := m.rslText
  have e2 := m.rsl
  generalize hR' : required (ls'.map (·.cu)) = R' at *
  generalize hR : required (ls.map (·.cu)) = R at *
  -- errors
  have q2 := runRsl_tells g o.recover X.rx R ls (s1.withPackages g)
  rw [hrsl] at q2
  obtain ⟨q2, h3, -⟩ := q2
  have h3 : s2.errs = s1.errs ++ q2 := h3
  have q3 := runTrlcFiles_tells ((trlcFiles R ls).map (·.openFile g o.recover)) s2
  have t1' : runTrlcFiles ((trlcFiles R ls).map (·.openFile g o.recover)) s2 = .ok true S := t1
  rw [t1'] at q3
  obtain ⟨q3, h4, -⟩ := q3
  have hno : s2.errs = s1.errs ∧ S.errs = s2.errs := by
    have hl := congrArg List.length (h4.symm.trans he)
    rw [h3, m.quiet] at hl
    simp only [List.length_append] at hl
    have z2 : q2 = [] := List.length_eq_zero_iff.1 (by omega)
    have z3 : q3 = [] := List.length_eq_zero_iff.1 (by omega)
    exact ⟨by rw [h3, z2, List.append_nil], by rw [h4, z3, List.append_nil]⟩
  -- the rsl files
  unfold runRsl at hrsl
  rw [bind_apply] at hrsl
  cases hx : runRslFiles X.rx ((Model.rslFiles R ls).map (·.openFile g o.recover)) (s1.withPackages g) with
  | err s3 => rw [hx] at hrsl; cases hrsl
  | crash c s3 => rw [hx] at hrsl; cases hrsl
  | ok b s3 =>
    rw [hx] at hrsl
    dsimp only at hrsl
    split at hrsl
    · cases hrsl
    · next hcy =>
      cases hrsl
      have hgl : ∀ f ∈ (Model.rslFiles R ls).map (·.openFile g o.recover), f.env.global = g := by
        intro f hf
        obtain ⟨l, -, rfl⟩ := List.mem_map.1 hf
        rfl
      have hlx : ∀ f ∈ (Model.rslFiles R ls).map (·.openFile g o.recover), LexerOutput f.nt f.rest := by
        intro f hf
        obtain ⟨l, hl, rfl⟩ := List.mem_map.1 hf
        exact (lex l (mem_rslFiles hl)).2.2
      obtain ⟨hcl, htext⟩ := (C73_rsl_files (rx := X.rx) (W := worldOf s2) k.built.tab hbl hgl hlx).1 ⟨s2, hx, hno.1, rfl⟩
      have hseps : SepsOk s2.seps := files_seps htext (by
        show SepsOk s1.seps
        rw [hbl.seps]
        intro ss h
        cases h)
      rw [← blank_world hbl hbl'] at htext
      obtain ⟨W', w1, w2, htext'⟩ := e1 X.rx _ _ htext (by
        show SepsOk s1'.seps
        rw [hbl'.seps]
        intro ss h
        cases h) hbl'.checks
      have hgl' : ∀ f ∈ (Model.rslFiles R' ls').map (·.openFile g o.recover), f.env.global = g := by
        intro f hf
        obtain ⟨l, -, rfl⟩ := List.mem_map.1 hf
        rfl
      have hlx' : ∀ f ∈ (Model.rslFiles R' ls').map (·.openFile g o.recover), CleanFile f ∧ LexerOutput f.nt f.rest := by
        intro f hf
        obtain ⟨l, hl, rfl⟩ := List.mem_map.1 hf
        exact (lex' l (mem_rslFiles hl)).2
      obtain ⟨s2', x1, x2, x3⟩ := (C73_rsl_files (rx := X.rx) (W := W') kp'.tab hbl' hgl' (fun f hf => (hlx' f hf).2)).2
        ⟨fun f hf => (hlx' f hf).1, htext'⟩
      subst x3
      have x3 : SameBut (worldOf s2') (worldOf s2) := w1
      have x4 : CF s2'.checks s2.checks := w2
      have hrun : runRsl g o.recover X.rx R' ls' (s1'.withPackages g) = .ok true s2' := by
        unfold runRsl
        refine (Lemmas.bind_ok x1).trans ?_
        rw [e2] at hcy
        rw [if_neg hcy]
        rfl
      have r' := rsl_ready hbl' kp'.tab hrun
      have td : s2'.decls = s2.decls := congrArg World.decls x3
      have ti : s2'.infos = s2.infos := congrArg World.infos x3
      have ts : s2'.seps = s2.seps := congrArg World.seps x3
      have tn : s2'.nid = s2.nid := congrArg World.nid x3
      -- the trlc files
      have gl : ∀ R ls, ∀ f ∈ (trlcFiles R ls).map (·.openFile g o.recover), f.env.global = g := by
        intro R ls f hf
        obtain ⟨l, -, rfl⟩ := List.mem_map.1 hf
        rfl
      have hres := (C35_resolved_iff r.inv.sound.world r.noObjects r.pkgs t1').1 t2
      obtain ⟨s3, y1, y2, y4⟩ := step s2 s2' r.inv hseps x3 x4 (gl _ _) (gl _ _)
        (by
          intro f hf
          obtain ⟨l, hl, rfl⟩ := List.mem_map.1 hf
          exact (lex' l (List.mem_filter.1 hl).1).2.1) t1' hno.2 hres
      have hk := run_kept r.inv.sound.world t1'
      have hk' := run_kept r'.inv.sound.world y1
      have ck := (runTrlcFiles_cks ((trlcFiles R ls).map (·.openFile g o.recover))).rep s2
      rw [t1'] at ck
      have ck' := (runTrlcFiles_cks ((trlcFiles R' ls').map (·.openFile g o.recover))).rep s2'
      rw [y1] at ck'
      have ck : S.checks = s2.checks := ck
      have ck' : s3.checks = s2'.checks := ck'
      -- the run
      have hlint : o.lint = true → (X.lint g s2).out = some true := by
        intro ho
        unfold process at h
        rw [m.read] at h
        dsimp only at h
        rw [hR] at h
        exact moved_lint hp k.rsl h ho
      have all' : (ls'.all fun l => !l.cu.err) = true := by
        rw [List.all_eq_true]
        intro l hl'
        simp [(lex' l hl').1]
      obtain ⟨a1, a2⟩ := analyse_iff (o := o) (X := X) (s := s1'.withPackages g) hp
        (fun ho => (hX ho s2' s2 x3 x4).trans (hlint ho)) hrun y1
      have proc : (process o X required fs' s).out = (analyse o X g R' ls' true (s1'.withPackages g)).out ∧
          (process o X required fs' s).state = (analyse o X g R' ls' true (s1'.withPackages g)).state := by
        unfold process
        rw [m.read']
        dsimp only
        rw [hR', all']
        exact ⟨rfl, rfl⟩
      have hd' : s3.decls = s2'.decls := hk'.decls
      refine ⟨s3, y2.trans (x2.trans m.quiet'), ?_, ?_, ?_, ?_, y4, ?_, ?_⟩
      · rw [hk'.decls, hk.decls, td]
      · rw [hk'.infos, hk.infos, ti]
      · rw [hk'.seps, hk.seps, ts]
      · rw [ck, ck']; exact x4
      · intro res'
        rw [hd'] at res'
        -- the checks
        have pass := (C63_passes_iff r.inv.sound.world r.noObjects r.pkgs t1' t2 X.locs).1 t3
        have set1 := settled_of r.inv r.pkgs t1' hres
        have set2 := settled_of r'.inv r'.pkgs y1 res'
        rw [td, ti, tn] at set2
        have pass' := passed_same r.inv.sound r.inv.frozenBefore.before set1 set2 (hQ _ _ y4) pass
        have pass' := passed_fewer (hCF _ _ (by rw [ck, ck']; exact x4) : ChecksIn s3.checks S.checks) pass'
        rw [← td] at pass'
        have res0 := (C35_resolved_iff r'.inv.sound.world r'.noObjects r'.pkgs y1).2 res'
        have fin := (C63_passes_iff r'.inv.sound.world r'.noObjects r'.pkgs y1 res0 X.locs).2 pass'
        have tab := a1.2 ⟨res0, fin⟩
        rw [proc.1, proc.2]
        exact ⟨tab, a2 tab⟩
      · rw [proc.1, proc.2]
        intro tab
        refine ⟨?_, a2 tab⟩
        rw [hd']
        exact (C35_resolved_iff r'.inv.sound.world r'.noObjects r'.pkgs y1).1 (a1.1 tab).1

/-- if the trlc files of the second project are accepted and have no other objects, then the second project is processed iff the
references in these objects can be resolved -/
theorem run_alike {g : STab} {ls ls' : List Loaded} {s1 s1' : PS} {Q : List Obj → List Obj → Prop} (hb : Blank s) (hp : o.parseTrlc = true)
    (hX : o.lint = true → LintsDecls X) (m : Alike required s fs fs' g ls ls' s1 s1')
    (h : (process o X required fs s).out = .table) (he : (process o X required fs s).state.errs = s.errs)
    (hQ : ∀ objs objs', Q objs objs' → ∀ o' ∈ objs', ∃ o ∈ objs, SameData o o')
    (step : ∀ s2 t : PS, RslInv g s2 → SepsOk s2.seps → worldOf t = worldOf s2 →
      (∀ f ∈ (trlcFiles (required (ls.map (·.cu))) ls).map (·.openFile g o.recover), f.env.global = g) →
      (∀ f ∈ (trlcFiles (required (ls'.map (·.cu))) ls').map (·.openFile g o.recover), f.env.global = g) →
      (∀ f ∈ (trlcFiles (required (ls'.map (·.cu))) ls').map (·.openFile g o.recover), CleanFile f) →
      runTrlcFiles ((trlcFiles (required (ls.map (·.cu))) ls).map (·.openFile g o.recover)) s2 =
        .ok true (process o X required fs s).state →
      (process o X required fs s).state.errs = s2.errs → AllResolved s2.decls (process o X required fs s).state.objs →
      ∃ s3, runTrlcFiles ((trlcFiles (required (ls'.map (·.cu))) ls').map (·.openFile g o.recover)) t = .ok true s3 ∧
        s3.errs = t.errs ∧ Q (process o X required fs s).state.objs s3.objs) :
    ∃ s3 : PS, s3.errs = s.errs ∧ s3.decls = (process o X required fs s).state.decls ∧
      s3.infos = (process o X required fs s).state.infos ∧ s3.seps = (process o X required fs s).state.seps ∧
      s3.checks = (process o X required fs s).state.checks ∧ Q (process o X required fs s).state.objs s3.objs ∧
      (AllResolved s3.decls s3.objs → (process o X required fs' s).out = .table ∧ (process o X required fs' s).state = s3) ∧
      ((process o X required fs' s).out = .table → AllResolved s3.decls s3.objs ∧ (process o X required fs' s).state = s3) := by
  refine run_similar hb hp (fun ho t t' h1 h2 => hX ho g t t' (h1.eq h2)) m.similar (by rintro C _ rfl; exact ⟨fun t cs c h1 h2 => ⟨cs, h1, h2⟩, fun _ _ h => h⟩)
    h he hQ fun s2 t h1 h2 h3 h4 => step s2 t h1 h2 (h3.eq h4)

/-- **C92**: if requirements are moved within a file or to another file of the same package with the same imports, without changing the sections they are in, then
nothing changes but the order of the objects.  If the original project is processed without errors, then so is the changed one, the
declarations are the same, and there is a one-to-one correspondence between the objects such that corresponding objects have the same package, name, type, sections and values. -/
theorem C92_moved {g : STab} {ls ls' : List Loaded} {s1 s1' : PS} (hb : Blank s) (hp : o.parseTrlc = true)
    (hX : o.lint = true → LintsDecls X) (m : Moved o required s fs fs' g ls ls' s1 s1')
    (h : (process o X required fs s).out = .table) (he : (process o X required fs s).state.errs = s.errs) :
    (process o X required fs' s).out = .table ∧ (process o X required fs' s).state.errs = s.errs ∧
      (process o X required fs' s).state.decls = (process o X required fs s).state.decls ∧
      (process o X required fs' s).state.infos = (process o X required fs s).state.infos ∧
      (process o X required fs' s).state.seps = (process o X required fs s).state.seps ∧
      (process o X required fs' s).state.checks = (process o X required fs s).state.checks ∧
      SameObjects (process o X required fs s).state.objs (process o X required fs' s).state.objs := by
  obtain ⟨s3, k1, k2, k3, k4, k5, k6, k7, -⟩ := run_alike (Q := fun a b => SameObjects a b ∧ AllResolved (process o X required fs s).state.decls b)
    hb hp hX ⟨m.read, m.read', m.quiet, m.quiet', m.clean, m.clean', m.lexed, m.lexed', m.rsl, m.rslFiles⟩ h he
    (fun _ _ h => h.1.data) (by
      intro s2 t hi hs ht hE hE' hc h1 h2 h3
      obtain ⟨s3, a1, a2, a3, a4⟩ := rearranged_objects hi hs (sameBut_of ht) hE hE' hc m.trlc h1 h2 h3
      exact ⟨s3, a1, a2, a4, by rw [(run_kept hi.sound.world h1).decls]; exact a3⟩)
  obtain ⟨l1, l2⟩ := k7 (by rw [k2]; exact k6.2)
  rw [l2]
  exact ⟨l1, k1, k2, k3, k4, k5, k6.1⟩

theorem sameTok_symm {E E' : FileEnv} {t t' : Token} (h : SameTok E E' t t') : SameTok E' E t' t :=
  ⟨h.kind.symm, h.value.symm, fun hk => (h.markup (h.kind.symm.trans hk)).symm⟩

theorem samePiece_symm {p p' : Piece} (h : SamePiece p p') : SamePiece p' p :=
  ⟨⟨⟨h.global.symm, h.pkg.symm, h.imports.symm, h.resolved.symm⟩, h.toks.flip.imp fun _ _ h => sameTok_symm h⟩, h.sects.symm⟩

theorem rearranged_symm {fs fs' : List OpenFile} (h : Rearranged fs fs') : Rearranged fs' fs := by
  obtain ⟨ps, qs, ps', h1, h2, h3, h4⟩ := h
  obtain ⟨rs, h5, h6⟩ := Rearrange.f2_perm h3.symm h4
  exact ⟨ps', rs, ps, h2, h1, h5, h6.flip.imp fun _ _ h => samePiece_symm h⟩

theorem moved_symm {g : STab} {ls ls' : List Loaded} {s1 s1' : PS} (m : Moved o required s fs fs' g ls ls' s1 s1') :
    Moved o required s fs' fs g ls' ls s1' s1 :=
  ⟨m.read', m.read, m.quiet', m.quiet, m.clean', m.clean, m.lexed', m.lexed, m.rsl.symm, m.rslFiles.symm, rearranged_symm m.trlc⟩

/-- **C92**: in particular the changed project is processed without errors iff the original one is. -/
theorem C92_moved_iff {g : STab} {ls ls' : List Loaded} {s1 s1' : PS} (hb : Blank s) (hp : o.parseTrlc = true)
    (hX : o.lint = true → LintsDecls X) (m : Moved o required s fs fs' g ls ls' s1 s1') :
    ((process o X required fs s).out = .table ∧ (process o X required fs s).state.errs = s.errs) ↔
      (process o X required fs' s).out = .table ∧ (process o X required fs' s).state.errs = s.errs :=
  ⟨fun h => ⟨(C92_moved hb hp hX m h.1 h.2).1, (C92_moved hb hp hX m h.1 h.2).2.1⟩,
    fun h => ⟨(C92_moved hb hp hX (moved_symm m) h.1 h.2).1, (C92_moved hb hp hX (moved_symm m) h.1 h.2).2.1⟩⟩

theorem linter_decls (render : LintMsg → String × String) {X : Outside} (h : X.lint = linter render) : LintsDecls X := by
  intro g t t' ht
  have td : t.decls = t'.decls := congrArg World.decls ht
  have ti : t.infos = t'.infos := congrArg World.infos ht
  have ts : t.seps = t'.seps := congrArg World.seps ht
  have tt : t.tabs = t'.tabs := congrArg World.tabs ht
  have tb : t.tab = t'.tab := by funext p; unfold PS.tab; rw [tt]
  rw [h]
  unfold linter PS.sanityChecks PS.declaredTypes
  rw [td, ti, ts, tb]

end
end Verif.Props
