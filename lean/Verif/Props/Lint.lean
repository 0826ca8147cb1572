import Verif.Lemmas.Lint
import Verif.Props.Runs
/-!
# What the linter reports (C70, C71)
-/
namespace Verif.Props
open Verif.Model Verif.Spec Verif.Lemmas Verif.Lemmas.Lint

variable {D : Decls} {infos : List RecInfo} {seps : List (List Sep)}

/-! ## Abstract types without extensions -/

theorem isAbstractRec_iff {t : Nat} :
    isAbstractRec infos t = true ↔ ∃ i, infos[t]? = some i ∧ i.isAbstract = true := by
  unfold isAbstractRec
  cases infos[t]? <;> simp

theorem takeWhile_ancestors (wf : WFDecls D) {u t : Nat} (h : Extends D u t) (ha : isAbstractRec infos t = true) :
    t ∈ (D.ancestors u).takeWhile (isAbstractRec infos) ∨
    ∃ u', u' < D.recs.length ∧ isAbstractRec infos u' = false ∧
      t ∈ ((D.ancestors u').drop 1).takeWhile (isAbstractRec infos) := by
  induction h with
  | @refl t ht =>
    left
    obtain ⟨l, hl⟩ : ∃ l, D.ancestors t = t :: l := by
      obtain ⟨r, hr⟩ : ∃ r, D.recs[t]? = some r := ⟨_, List.getElem?_eq_getElem ht⟩
      cases hp : r.parent with
      | none => exact ⟨_, ancestors_root hr hp⟩
      | some p => exact ⟨_, ancestors_step wf ⟨r, hr, hp⟩⟩
    rw [hl, List.takeWhile_cons, if_pos ha]
    simp
  | @step u p t hp he ih =>
    rcases ih ha with h | h
    · have hs := ancestors_step wf hp
      cases hu : isAbstractRec infos u with
      | true =>
        left
        rw [hs, List.takeWhile_cons, if_pos hu]
        exact List.mem_cons_of_mem _ h
      | false => exact .inr ⟨u, parent_declared hp, hu, by rw [hs]; exact h⟩
    · exact .inr h

/-- A concrete extension is recorded for every abstract type that has one. -/
theorem recorded_iff (wf : WFDecls D) {vs : List Ty} (hvs : ∀ t, t < D.recs.length → .record t ∈ vs) {t : Nat}
    (ha : isAbstractRec infos t = true) :
    (∃ u, (t, some u) ∈ vs.flatMap (lintExtensions D infos)) ↔ ∃ u, Extends D u t ∧ isAbstractRec infos u = false := by
  constructor
  · rintro ⟨u, h⟩
    rw [List.mem_flatMap] at h
    obtain ⟨τ, -, h⟩ := h
    cases τ with
    | record v =>
      simp only [lintExtensions] at h
      split at h
      · simp at h
      · rename_i hv
        simp only [List.mem_map, Prod.mk.injEq, Option.some.injEq] at h
        obtain ⟨a, h1, rfl, rfl⟩ := h
        refine ⟨v, (mem_ancestors wf v a).1 ?_, by simpa using hv⟩
        exact List.mem_of_mem_drop ((List.takeWhile_prefix _).subset h1)
    | _ => simp [lintExtensions] at h
  · rintro ⟨u, he, hu⟩
    have key : ∃ u', u' < D.recs.length ∧ isAbstractRec infos u' = false ∧
        t ∈ ((D.ancestors u').drop 1).takeWhile (isAbstractRec infos) := by
      rcases takeWhile_ancestors wf he ha with h | h
      · exfalso
        have hd := (extends_declared he).1
        obtain ⟨l, hl⟩ : ∃ l, D.ancestors u = u :: l := by
          obtain ⟨r, hr⟩ : ∃ r, D.recs[u]? = some r := ⟨_, List.getElem?_eq_getElem hd⟩
          cases hp : r.parent with
          | none => exact ⟨_, ancestors_root hr hp⟩
          | some p => exact ⟨_, ancestors_step wf ⟨r, hr, hp⟩⟩
        rw [hl, List.takeWhile_cons, hu] at h
        simp at h
      · exact h
    obtain ⟨u', h1, h2, h3⟩ := key
    refine ⟨u', List.mem_flatMap.2 ⟨_, hvs u' h1, ?_⟩⟩
    simp only [lintExtensions, h2, Bool.false_eq_true, if_false, List.mem_map]
    exact ⟨t, h3, rfl⟩

/-- The abstract types reported, in order -/
def leafTypes (infos : List RecInfo) (ext : List (Nat × Option Nat)) (ts : List Ty) : List Nat :=
  ts.filterMap fun τ =>
    match τ with
    | .record t => if isAbstractRec infos t && !(ext.any fun x => x.1 == t && x.2.isSome) then some t else none
    | _ => none

theorem lintLeaves_ok {ext : List (Nat × Option Nat)} {ts : List Ty}
    (h : ∀ t, .record t ∈ ts → isAbstractRec infos t = true → ∃ x ∈ ext, x.1 = t) :
    lintLeaves infos ext ts = .ok ((leafTypes infos ext ts).map .abstractLeaf) := by
  induction ts with
  | nil => rfl
  | cons τ ts ih =>
    have ih := ih fun t ht => h t (List.mem_cons_of_mem _ ht)
    cases τ with
    | record t =>
      simp only [lintLeaves, leafTypes, List.filterMap_cons]
      cases ha : isAbstractRec infos t with
      | false => simpa [leafTypes] using ih
      | true =>
        obtain ⟨x, hx, hxt⟩ := h t (by simp) ha
        have hall : (ext.all fun x => x.1 != t) = false := by
          rw [List.all_eq_false]
          exact ⟨x, hx, by simp [hxt]⟩
        simp only [if_true, hall, Bool.false_eq_true, if_false, ih, Bool.true_and]
        cases (ext.any fun x => x.1 == t && x.2.isSome) <;> simp [leafTypes]
    | _ => simpa [lintLeaves, leafTypes, List.filterMap_cons] using ih

theorem mem_leafTypes {ext : List (Nat × Option Nat)} {ts : List Ty} {t : Nat} :
    t ∈ leafTypes infos ext ts ↔ .record t ∈ ts ∧ isAbstractRec infos t = true ∧ ¬ ∃ u, (t, some u) ∈ ext := by
  simp only [leafTypes, List.mem_filterMap]
  constructor
  · rintro ⟨τ, hτ, h⟩
    cases τ with
    | record v =>
      simp only at h
      split at h
      · rename_i hc
        cases h
        simp only [Bool.and_eq_true, Bool.not_eq_true', List.any_eq_false, beq_iff_eq] at hc
        refine ⟨hτ, hc.1, ?_⟩
        rintro ⟨u, hu⟩
        exact hc.2 _ hu (by simp)
      · cases h
    | _ => cases h
  · rintro ⟨h1, h2, h3⟩
    refine ⟨_, h1, ?_⟩
    simp only
    rw [if_pos]
    simp only [h2, Bool.true_and, Bool.not_eq_true', List.any_eq_false]
    rintro ⟨a, o⟩ hx hc
    simp only [Bool.and_eq_true, beq_iff_eq] at hc
    obtain ⟨rfl, hs⟩ := hc
    cases o with
    | none => simp at hs
    | some u => exact h3 ⟨u, hx⟩

/-! ## The declared types are found -/

theorem mem_sortedValues {T : STab} {e : Ent} : e ∈ T.sortedValues ↔ ∃ k, (k, e) ∈ T.own := by
  simp only [STab.sortedValues, List.mem_map, (pySort_perm _ _).mem_iff]
  exact ⟨fun ⟨⟨k, e'⟩, h, he⟩ => ⟨k, he ▸ h⟩, fun ⟨k, h⟩ => ⟨_, h, rfl⟩⟩

theorem ent_ty_record {e : Ent} (h : e.cls = clsRecord) : e.ty? = some (.record e.id) := by
  simp [Ent.ty?, h, clsRecord, clsBuiltinType]

theorem ent_ty_tup {e : Ent} (h : e.cls = clsTuple) : e.ty? = some (.tup e.id) := by
  simp [Ent.ty?, h, clsRecord, clsBuiltinType, clsTuple]

theorem ent_ty_enum {e : Ent} (h : e.cls = clsEnum) : e.ty? = some (.enum e.id) := by
  simp [Ent.ty?, h, clsRecord, clsBuiltinType, clsTuple, clsEnum]

/-- A declared type -/
def DeclaredTy (D : Decls) : Ty → Prop
  | .record t => t < D.recs.length
  | .tup t => t < D.tups.length
  | .enum t => t < D.enums.length
  | _ => False

theorem ent_declared {e : Ent} {D : Decls} (h : e.id < cnt D e.cls) {τ : Ty} (hτ : e.ty? = some τ) : DeclaredTy D τ := by
  rcases cnt_pos h with hc | hc | hc
  · rw [ent_ty_record hc] at hτ; cases hτ
    rw [hc] at h
    simpa [cnt, DeclaredTy] using h
  · rw [ent_ty_tup hc] at hτ; cases hτ
    rw [hc] at h
    simpa [cnt, DeclaredTy, clsTuple, clsRecord] using h
  · rw [ent_ty_enum hc] at hτ; cases hτ
    rw [hc] at h
    simpa [cnt, DeclaredTy, clsTuple, clsRecord, clsEnum] using h

theorem ent_ty_inj {e e' : Ent} {D : Decls} (h : e.id < cnt D e.cls) (h' : e'.id < cnt D e'.cls)
    (heq : e.ty? = e'.ty?) : e.cls = e'.cls ∧ e.id = e'.id := by
  rcases cnt_pos h with hc | hc | hc <;> rcases cnt_pos h' with hc' | hc' | hc' <;>
    simp only [ent_ty_record, ent_ty_tup, ent_ty_enum, hc, hc', Option.some.injEq, Ty.record.injEq,
      Ty.tup.injEq, Ty.enum.injEq, reduceCtorEq] at heq <;>
    exact ⟨by rw [hc, hc'], heq⟩

theorem mem_declaredTypes {g : STab} {rx : Regex} {s : PS} (r : Ready g rx s) (τ : Ty) :
    τ ∈ s.declaredTypes g ↔ DeclaredTy s.decls τ := by
  simp only [PS.declaredTypes, List.mem_flatMap, List.mem_filter, List.mem_filterMap, mem_sortedValues]
  constructor
  · rintro ⟨p, -, e, ⟨k, hk⟩, he⟩
    have hT : ∃ T : STab, s.tabs[p.id]? = some T ∧ (k, e) ∈ T.own := by
      unfold PS.tab at hk
      cases ht : s.tabs[p.id]? with
      | none => simp [ht, STab.empty] at hk
      | some T => rw [ht] at hk; exact ⟨T, rfl, hk⟩
    obtain ⟨T, h1, h2⟩ := hT
    exact ent_declared (r.inv.ents _ T k e h1 h2).1 he
  · intro h
    have key : ∃ cls i, i < cnt s.decls cls ∧ ∀ e : Ent, e.cls = cls → e.id = i → e.ty? = some τ := by
      cases τ with
      | record t => exact ⟨clsRecord, t, by simpa [cnt, DeclaredTy] using h, fun e h1 h2 => h2 ▸ ent_ty_record h1⟩
      | tup t => exact ⟨clsTuple, t, by simpa [cnt, DeclaredTy, clsTuple, clsRecord] using h,
          fun e h1 h2 => h2 ▸ ent_ty_tup h1⟩
      | enum t => exact ⟨clsEnum, t, by simpa [cnt, DeclaredTy, clsTuple, clsRecord, clsEnum] using h,
          fun e h1 h2 => h2 ▸ ent_ty_enum h1⟩
      | _ => exact h.elim
    obtain ⟨cls, i, hi, hty⟩ := key
    obtain ⟨p, T, k, e, h1, h2, h3, h4⟩ := r.inv.entered cls i hi
    obtain ⟨k', e', h5, h6, h7⟩ := r.pkgs p (List.getElem?_eq_some_iff.1 h1).1
    refine ⟨e', ⟨⟨k', h5⟩, by simp [isPackage, h6]⟩, e, ⟨k, ?_⟩, hty e h3 h4⟩
    rw [h7]
    simpa [PS.tab, h1] using h2

theorem declaredTypes_nodup {g : STab} {rx : Regex} {s : PS} (r : Ready g rx s) (ht : PkgTab g) :
    (s.declaredTypes g).Nodup := by
  have htab : ∀ (p : Nat) (k : List Char) (e : Ent), (k, e) ∈ (s.tab p).own →
      ∃ T : STab, s.tabs[p]? = some T ∧ (k, e) ∈ T.own := by
    intro p k e hk
    unfold PS.tab at hk
    cases ht : s.tabs[p]? with
    | none => simp [ht, STab.empty] at hk
    | some T => rw [ht] at hk; exact ⟨T, rfl, hk⟩
  unfold PS.declaredTypes List.Nodup
  rw [List.pairwise_flatMap]
  constructor
  · intro p _
    rw [List.pairwise_filterMap]
    have hn : ((s.tab p.id).own).Pairwise fun a b => a.1 ≠ b.1 := by
      unfold PS.tab
      cases h : s.tabs[p.id]? with
      | none => simp [STab.empty]
      | some T =>
        have := r.inv.keys _ T h
        exact List.pairwise_map.1 this
    have hn' := (pySort_perm (fun a b : List Char × Ent => pyLe a.1 b.1) (s.tab p.id).own).symm.pairwise hn
      (fun h => fun e => h e.symm)
    unfold STab.sortedValues
    rw [List.pairwise_map]
    refine List.Pairwise.imp_of_mem ?_ hn'
    rintro ⟨k, e⟩ ⟨k', e'⟩ hm hm' hne τ hτ τ' hτ' heq
    subst heq
    have hm := (pySort_perm _ _).mem_iff.1 hm
    have hm' := (pySort_perm _ _).mem_iff.1 hm'
    obtain ⟨T, h1, h2⟩ := htab _ _ _ hm
    obtain ⟨T', h1', h2'⟩ := htab _ _ _ hm'
    have hk := r.inv.ents _ _ _ _ h1 h2
    have hk' := r.inv.ents _ _ _ _ h1' h2'
    obtain ⟨ec, ei⟩ := ent_ty_inj hk.1 hk'.1 (by rw [hτ, hτ'])
    obtain ⟨-, ee⟩ := r.inv.once _ _ _ _ _ _ _ _ h1 h1' h2 h2' ec ei
    exact hne (by rw [hk.2, hk'.2, ee])
  · have hids : (g.sortedValues.filter isPackage).Pairwise fun a b => a.id ≠ b.id := by
      have h1 : (g.own.filter fun x => isPackage x.2).Pairwise fun a b => a.2.id ≠ b.2.id := by
        have := ht.nums
        have hnd : ((pkgsOf g).map (·.2.id)).Nodup := by rw [this]; exact List.nodup_range
        exact List.pairwise_map.1 hnd
      have hperm : (g.sortedValues.filter isPackage).Perm ((g.own.filter fun x => isPackage x.2).map (·.2)) := by
        have h2 : (g.own.filter fun x => isPackage x.2).map (·.2) = (g.own.map (·.2)).filter isPackage := by
          rw [List.filter_map]; rfl
        rw [h2]
        exact ((pySort_perm _ _).map _).filter _
      exact hperm.symm.pairwise (List.pairwise_map.2 h1) (fun h => fun e => h e.symm)
    refine List.Pairwise.imp ?_ hids
    intro p p' hne τ hτ τ' hτ' heq
    subst heq
    simp only [List.mem_filterMap, mem_sortedValues] at hτ hτ'
    obtain ⟨e, ⟨k, hk⟩, he⟩ := hτ
    obtain ⟨e', ⟨k', hk'⟩, he'⟩ := hτ'
    obtain ⟨T, h1, h2⟩ := htab _ _ _ hk
    obtain ⟨T', h1', h2'⟩ := htab _ _ _ hk'
    obtain ⟨ec, ei⟩ := ent_ty_inj (r.inv.ents _ _ _ _ h1 h2).1 (r.inv.ents _ _ _ _ h1' h2').1 (by rw [he, he'])
    exact hne (r.inv.once _ _ _ _ _ _ _ _ h1 h1' h2 h2' ec ei).1

/-! ## All messages -/

/-- What `perform_sanity_checks` reports: every type that is looked at contributes its messages, once;
then every abstract type without a concrete extension is reported, once. -/
def LintReport (D : Decls) (infos : List RecInfo) (seps : List (List Sep)) (msgs : List LintMsg) : Prop :=
  ∃ (vs : List Ty) (f : Ty → List LintMsg) (leaves : List Nat),
    msgs = vs.flatMap f ++ leaves.map .abstractLeaf ∧
    vs.Nodup ∧ (∀ τ, τ ∈ vs ↔ Relevant D τ) ∧
    (∀ τ ∈ vs, ∀ m, m ∈ f τ ↔ LintWarns D seps τ m) ∧
    (∀ τ ∈ vs, (∀ u us, τ = .union u us → us.Nodup) → (f τ).Nodup) ∧
    leaves.Nodup ∧ ∀ t, t ∈ leaves ↔ AbstractLeaf D infos t

theorem declared_relevant {τ : Ty} (h : DeclaredTy D τ) : Relevant D τ := by
  cases τ with
  | record t => exact .record h
  | tup t => exact .tup h
  | enum t => exact .enum h
  | _ => exact h.elim

/-- The linter on the declarations of all files: it fails only because of some tuple type, and
otherwise it reports what it should. -/
theorem lint_spec {g : STab} {rx : Regex} {s : PS} (r : Ready g rx s) (ht : PkgTab g) :
    (∀ msgs, s.sanityChecks g = .ok msgs → LintReport s.decls s.infos s.seps msgs) ∧
    ((∃ e, s.sanityChecks g = .error e) ↔ ∃ t, LintFails s.decls s.seps t) ∧
    ∀ e, s.sanityChecks g = .error e → e = .assertion ∨ e = .attribute := by
  have hsd := r.inv.sound
  have hvis := visited_fold (visited_one hsd (lintFuel s.decls)) (s.declaredTypes g) ⟨[], [], []⟩
    (fun τ hτ => declared_relevant ((mem_declaredTypes r τ).1 hτ)) .nil (by simp)
    (by simpa using allTys_length)
  have hfails : ∀ x, Relevant s.decls x → ∀ e, lintOwn s.decls s.seps x = .error e →
      (∃ t, LintFails s.decls s.seps t) ∧ (e = .assertion ∨ e = .attribute) := by
    intro x hx e he
    obtain ⟨-, -, h3, h4⟩ := own_spec hsd hx
    obtain ⟨t, -, hf⟩ := h3.1 ⟨e, he⟩
    exact ⟨⟨t, hf⟩, h4 e he⟩
  unfold PS.sanityChecks
  cases hf : (s.declaredTypes g).foldlM (verifyType s.decls s.infos s.seps (lintFuel s.decls)) ⟨[], [], []⟩ with
  | error e =>
    rw [hf] at hvis
    obtain ⟨x, hx, he⟩ := hvis
    obtain ⟨h1, h2⟩ := hfails x hx e he
    refine ⟨fun msgs h => (by cases h), ⟨fun _ => h1, fun _ => ⟨e, rfl⟩⟩, ?_⟩
    intro e' h; cases h; exact h2
  | ok st =>
    rw [hf] at hvis
    obtain ⟨⟨vs, g1, g2, g3, g4, g5, g6⟩, hin⟩ := hvis
    simp only [List.nil_append] at g1 g4 g5
    rw [g1] at g2 g6 hin
    have hvs : ∀ τ, τ ∈ vs ↔ Relevant s.decls τ := by
      intro τ
      refine ⟨fun h => (g3 τ h).1, ?_⟩
      have hdecl : ∀ σ, DeclaredTy s.decls σ → σ ∈ vs := fun σ h => hin σ ((mem_declaredTypes r σ).2 h)
      intro h
      cases h with
      | record h => exact hdecl _ h
      | tup h => exact hdecl _ h
      | enum h => exact hdecl _ h
      | @comp t c hc =>
        obtain ⟨rd, hr, -⟩ := id hc
        have hlt := (List.getElem?_eq_some_iff.1 hr).1
        refine g6 (.record t) (hdecl _ hlt) _ ?_
        simp only [lintNext, List.mem_map, List.mem_flatMap, List.mem_reverse]
        exact ⟨c, ⟨t, (mem_ancestors hsd.world.wf t t).2 (.refl hlt),
          (pySort_perm _ _).mem_iff.2 ((mem_own t c).2 hc)⟩, rfl⟩
      | @field t cs c h1 h2 =>
        refine g6 (.tup t) (hdecl _ (List.getElem?_eq_some_iff.1 h1).1) _ ?_
        simp only [lintNext, List.mem_map]
        exact ⟨c, (pySort_perm _ _).mem_iff.2 (by simpa [Decls.fields, h1] using h2), rfl⟩
    have hrec : ∀ t, t < s.decls.recs.length → Ty.record t ∈ vs := fun t h => (hvs _).2 (.record h)
    have hkeys : ∀ t, .record t ∈ s.declaredTypes g → isAbstractRec s.infos t = true → ∃ x ∈ st.ext, x.1 = t := by
      intro t h1 h2
      rw [g5]
      have hd := (mem_declaredTypes r _).1 h1
      refine ⟨(t, none), List.mem_flatMap.2 ⟨_, hrec t hd, ?_⟩, rfl⟩
      simp [lintExtensions, h2]
    have hno : ¬ ∃ t, LintFails s.decls s.seps t := by
      rintro ⟨t, hft⟩
      have hrel : Relevant s.decls (.tup t) := by
        obtain ⟨i, sep, b, ⟨⟨cs, a, hc, -⟩, -, -⟩, -⟩ := hft
        exact .tup (List.getElem?_eq_some_iff.1 hc).1
      obtain ⟨-, -, h3, -⟩ := own_spec hsd hrel
      obtain ⟨e, he⟩ := h3.2 ⟨t, rfl, hft⟩
      obtain ⟨ms, hm⟩ := (g3 _ ((hvs _).2 hrel)).2
      rw [he] at hm
      cases hm
    simp only [lintLeaves_ok hkeys]
    refine ⟨?_, ⟨fun ⟨e, h⟩ => (by cases h), fun h => (hno h).elim⟩, fun e h => (by cases h)⟩
    intro msgs h
    cases h
    refine ⟨vs, ownMsgs s.decls s.seps, leafTypes s.infos st.ext (s.declaredTypes g), by rw [g4], g2, hvs, ?_, ?_, ?_, ?_⟩
    · intro τ hτ m
      obtain ⟨hrel, ms, hm⟩ := g3 τ hτ
      have : ownMsgs s.decls s.seps τ = ms := by rw [ownMsgs, hm]
      rw [this]
      exact (own_spec hsd hrel).1 ms hm m
    · intro τ hτ hu
      obtain ⟨hrel, ms, hm⟩ := g3 τ hτ
      have : ownMsgs s.decls s.seps τ = ms := by rw [ownMsgs, hm]
      rw [this]
      exact (own_spec hsd hrel).2.1 ms hm hu
    · unfold leafTypes List.Nodup
      rw [List.pairwise_filterMap]
      refine (declaredTypes_nodup r ht).imp ?_
      intro τ τ' hne a ha b hb e
      subst e
      cases τ <;> cases τ' <;> simp only [Option.mem_def, reduceCtorEq] at ha hb
      split at ha
      · split at hb
        · cases ha; cases hb; exact hne rfl
        · cases hb
      · cases ha
    · intro t
      rw [mem_leafTypes, mem_declaredTypes r, AbstractLeaf, ← isAbstractRec_iff]
      constructor
      · rintro ⟨h1, h2, h3⟩
        refine ⟨h2, fun u i hu hi => ?_⟩
        by_contra hna
        refine h3 ?_
        rw [g5]
        refine (recorded_iff hsd.world.wf hrec h2).2 ⟨u, hu, ?_⟩
        simp only [isAbstractRec, hi, Option.map_some, Option.getD_some]
        simpa using hna
      · rintro ⟨h1, h2⟩
        refine ⟨?_, h1, ?_⟩
        · obtain ⟨i, hi, -⟩ := isAbstractRec_iff.1 h1
          have := (List.getElem?_eq_some_iff.1 hi).1
          rw [hsd.infoLen] at this
          exact this
        · rw [g5, recorded_iff hsd.world.wf hrec h1]
          rintro ⟨u, hu, hc⟩
          have hd := (extends_declared hu).1
          rw [← hsd.infoLen] at hd
          have := h2 u _ hu (List.getElem?_eq_getElem hd)
          simp [isAbstractRec, List.getElem?_eq_getElem hd, this] at hc

/-! ## Runs -/

section
variable {o : Options} {X : Outside} {required : List CU → Finset PNode} {fs : List Source} {s : PS}
variable {render : LintMsg → String × String}

/-- The linter never makes `process` return `None`, and it reports no errors. -/
theorem linter_sane : (∀ g s, (linter render g s).out ≠ some false) ∧
    ∀ g s, ∀ c ∈ (linter render g s).calls, c.isError = false := by
  constructor
  · intro g s h
    unfold linter at h
    split at h <;> cases h
  · intro g s c hc
    unfold linter at hc
    split at hc
    · simp only [List.mem_map] at hc
      obtain ⟨m, -, rfl⟩ := hc
      rfl
    · cases hc

theorem finish_calls {g : STab} {R : Finset PNode} {ls : List Loaded} {ok : Bool} {calls : List MHCall} :
    ∃ rest, (finish o X g R ls ok calls s).calls = calls ++ rest := by
  unfold finish
  split
  · exact ⟨[], by simp⟩
  · exact ⟨[], by simp⟩
  · exact ⟨[], by simp⟩
  · dsimp only
    split
    · exact ⟨[], by simp⟩
    · split
      · exact ⟨[], by simp⟩
      · split <;> exact ⟨_, rfl⟩

theorem finish_not_lint {g : STab} {R : Finset PNode} {ls : List Loaded} {ok : Bool} {calls : List MHCall} :
    (finish o X g R ls ok calls s).out ≠ .crash .lint := by
  unfold finish
  split
  · intro h; cases h
  · intro h; cases h
  · intro h; cases h
  · dsimp only
    split
    · intro h; cases h
    · split
      · intro h; cases h
      · split <;> (intro h; cases h)

/-- The linter runs after the rsl files have been parsed without errors. -/
theorem analyse_lint {g : STab} {R : Finset PNode} {ls : List Loaded} {ok : Bool} {s2 : PS} (hl : o.lint = true)
    (hok : ok = true) (h : runRsl g o.recover X.rx R ls s = .ok true s2) :
    (∀ e, s2.sanityChecks g = .error e → X.lint = linter render →
      (analyse o X g R ls ok s).out = .crash .lint ∧ (analyse o X g R ls ok s).state = s2) ∧
    (∀ msgs, s2.sanityChecks g = .ok msgs → X.lint = linter render →
      (analyse o X g R ls ok s).out ≠ .crash .lint ∧
      ∃ rest, (analyse o X g R ls ok s).calls =
        msgs.map (fun m => MHCall.check (render m).1 (render m).2 m.category) ++ rest) := by
  subst hok
  have hex : X.lint = linter render → analyse o X g R ls true s =
      match (linter render g s2).out with
      | none => ⟨.crash .lint, s2, (linter render g s2).calls⟩
      | some b =>
        if !o.parseTrlc then ⟨if b then .table else .none, s2, (linter render g s2).calls⟩
        else finish o X g R ls b (linter render g s2).calls s2 := by
    intro hX
    unfold analyse
    rw [h]
    simp only [hl, hX, Bool.and_self, Bool.not_true, Bool.and_false, Bool.false_eq_true, if_false, if_true, Bool.true_and]
    rfl
  constructor
  · intro e he hX
    rw [hex hX]
    simp only [linter, he]
    simp
  · intro msgs hm hX
    rw [hex hX]
    simp only [linter, hm]
    split
    · exact ⟨fun h => (by cases h), [], by simp⟩
    · exact ⟨finish_not_lint, finish_calls⟩

/-- Otherwise the linter is not called. -/
theorem analyse_crash_lint {g : STab} {R : Finset PNode} {ls : List Loaded} {ok : Bool} (hX : X.lint = linter render)
    (h : (analyse o X g R ls ok s).out = .crash .lint) :
    ∃ s2, o.lint = true ∧ ok = true ∧ runRsl g o.recover X.rx R ls s = .ok true s2 ∧
      ∃ e, s2.sanityChecks g = .error e := by
  cases hr : runRsl g o.recover X.rx R ls s with
  | crash c s' => unfold analyse at h; rw [hr] at h; cases h
  | err s' => unfold analyse at h; rw [hr] at h; cases h
  | ok b s2 =>
    by_cases hc : (o.lint && (ok && b)) = true
    · simp only [Bool.and_eq_true] at hc
      obtain ⟨h1, h2, rfl⟩ := hc
      refine ⟨s2, h1, h2, rfl, ?_⟩
      cases hs : s2.sanityChecks g with
      | error e => exact ⟨e, rfl⟩
      | ok msgs => exact absurd h ((analyse_lint h1 h2 hr).2 msgs hs hX).1
    · exfalso
      unfold analyse at h
      rw [hr] at h
      dsimp only at h
      rw [if_neg hc] at h
      dsimp only at h
      split at h
      · cases h
      · split at h
        · dsimp only at h
          split at h <;> cases h
        · exact finish_not_lint h

/-- **C70**: in a successful run in lint mode the first messages after the errors of the parsers
are those of the linter: about every declared type and about the type of every component exactly
what there is to report, once, followed by the abstract types that no concrete type extends. -/
theorem C70_report (hX : X.lint = linter render) (hl : o.lint = true) (hb : Blank s)
    (h : (process o X required fs s).out = .table) :
    ∃ msgs rest, (process o X required fs s).calls =
        msgs.map (fun m => MHCall.check (render m).1 (render m).2 m.category) ++ rest ∧
      LintReport (process o X required fs s).state.decls (process o X required fs s).state.infos
        (process o X required fs s).state.seps msgs := by
  have key : ∃ g ls s1 s2, Succeeded o X (required (ls.map (·.cu))) fs s (process o X required fs s).state g ls s1 s2 ∧
      ∃ msgs rest, s2.sanityChecks g = .ok msgs ∧ (process o X required fs s).calls =
        msgs.map (fun m => MHCall.check (render m).1 (render m).2 m.category) ++ rest := by
    unfold process at h ⊢
    split at h
    · cases h
    · cases h
    · next g ls s1 h1 =>
      dsimp only at h ⊢
      obtain ⟨k1, s2, k2, k3, k4, -⟩ := analyse_table h
      refine ⟨g, ls, s1, s2, ⟨loadAll_ok globalTable_pkgTab h1, ?_, k2, k3, k4⟩, ?_⟩
      · intro l hl
        have := List.all_eq_true.1 k1 l hl
        simpa using this
      · have ha := analyse_lint (render := render) hl k1 k2
        cases hs : s2.sanityChecks g with
        | error e =>
          have := (ha.1 e hs hX).1
          rw [h] at this
          cases this
        | ok msgs =>
          obtain ⟨rest, hr⟩ := (ha.2 msgs hs hX).2
          exact ⟨msgs, rest ++ X.notes ls (analyse o X g (required (ls.map (·.cu))) ls (ls.all fun l => !l.cu.err)
            (s1.withPackages g)).state, rfl, by rw [hr, List.append_assoc]⟩
  obtain ⟨g, ls, s1, s2, k, msgs, rest, hm, hc⟩ := key
  have r := rsl_ready (hb.quiet k.built.quiet) k.built.tab k.rsl
  obtain ⟨e1, e2, e3, -⟩ := succeeded_kept k r
  rw [e1, e2, e3]
  exact ⟨msgs, rest, hc, (lint_spec r k.built.tab).1 msgs hm⟩

/-- **C71**, what holds: when the linter ends with an internal exception, then because of the
declaration of a tuple type as described by `LintFails`. -/
theorem C71_crash_partial (hX : X.lint = linter render) (hb : Blank s)
    (h : (process o X required fs s).out = .crash .lint) :
    o.lint = true ∧
    ∃ t, LintFails (process o X required fs s).state.decls (process o X required fs s).state.seps t := by
  unfold process at h ⊢
  split at h
  · cases h
  · cases h
  · next g ls s1 h1 =>
    dsimp only at h ⊢
    obtain ⟨s2, h2, h3, h4, e, h5⟩ := analyse_crash_lint hX h
    have k := loadAll_ok globalTable_pkgTab h1
    have r := rsl_ready (hb.quiet k.quiet) k.tab h4
    refine ⟨h2, ?_⟩
    rw [((analyse_lint (render := render) h2 h3 h4).1 e h5 hX).2]
    exact (lint_spec r k.tab).2.1.1 ⟨e, h5⟩

/-- **C71**, conversely: a declaration as described by `LintFails` in rsl files that have no errors
makes a run in lint mode end with an internal exception. -/
theorem C71_crash (hX : X.lint = linter render) (hl : o.lint = true) (hb : Blank s) {g : STab} {ls : List Loaded}
    {s1 s2 : PS} (h1 : loadAll globalTable fs s = .ok (g, ls) s1) (h2 : ∀ l ∈ ls, l.cu.err = false)
    (h3 : runRsl g o.recover X.rx (required (ls.map (·.cu))) ls (s1.withPackages g) = .ok true s2)
    (h4 : ∃ t, LintFails s2.decls s2.seps t) : (process o X required fs s).out = .crash .lint := by
  have k := loadAll_ok globalTable_pkgTab h1
  have r := rsl_ready (hb.quiet k.quiet) k.tab h3
  obtain ⟨e, he⟩ := (lint_spec r k.tab).2.1.2 h4
  unfold process
  rw [h1]
  have hok : (ls.all fun l => !l.cu.err) = true := List.all_eq_true.2 fun l hl => by simp [h2 l hl]
  exact ((analyse_lint (render := render) hl hok h3).1 e he hX).1

end

end Verif.Props
