import Verif.Spec.Lint
import Verif.Lemmas.Extension
import Mathlib.Data.List.Perm.Subperm
/-!
# Facts about the linter
-/
namespace Verif.Lemmas.Lint
open Verif.Model Verif.Spec Verif.Lemmas

variable {D : Decls} {infos : List RecInfo} {seps : List (List Sep)}

/-! ## Examples of values -/

theorem exampleFails_sound : ∀ (f : Nat) (τ : Ty), exampleFails D f τ = true → HasLiteral D τ := by
  intro f
  induction f with
  | zero =>
    intro τ h
    cases τ <;> simp only [exampleFails, Bool.false_eq_true, Bool.not_eq_true', List.isEmpty_eq_false_iff] at h
    rename_i e
    cases he : D.enums[e]? with
    | none => simp [he] at h
    | some ls => exact .enum he (by simpa [he] using h)
  | succ f ih =>
    intro τ h
    cases τ with
    | enum e =>
      simp only [exampleFails, Bool.not_eq_true', List.isEmpty_eq_false_iff] at h
      cases he : D.enums[e]? with
      | none => simp [he] at h
      | some ls => exact .enum he (by simpa [he] using h)
    | tup t =>
      simp only [exampleFails, List.any_eq_true, Decls.fields] at h
      obtain ⟨c, hc, h⟩ := h
      cases ht : D.tups[t]? with
      | none => simp [ht] at hc
      | some cs =>
        rw [ht] at hc
        exact .field ht hc (ih _ h)
    | arr a e lo hi => simp only [exampleFails] at h; exact .elem (ih _ h)
    | _ => simp [exampleFails] at h

theorem exampleFails_complete (ht : TuplesOk D) {τ : Ty} (h : HasLiteral D τ) :
    ∀ f, tyRank τ ≤ f → exampleFails D f τ = true := by
  induction h with
  | enum he hl =>
    intro f _
    cases f <;> simp [exampleFails, he, hl]
  | @field t cs c h1 h2 h3 ih =>
    intro f hf
    have hr := (ht _ _ h1).earlier c h2
    simp only [tyRank] at hf
    obtain ⟨g, rfl⟩ : ∃ g, f = g + 1 := ⟨f - 1, by omega⟩
    simp only [exampleFails, List.any_eq_true, Decls.fields, h1]
    exact ⟨c, h2, ih g (by omega)⟩
  | elem h ih =>
    intro f hf
    simp only [tyRank] at hf
    obtain ⟨g, rfl⟩ : ∃ g, f = g + 1 := ⟨f - 1, by omega⟩
    simp only [exampleFails]
    exact ih g (by omega)

/-! ## The loop over fields and separators -/

/-- A bad separator, in terms of the lists of fields and separators -/
def Bad (cs : List Comp) (ss : List Sep) (i : Nat) (v : List Char) (b : Comp) : Prop :=
  (∃ a, cs[i]? = some a ∧ cs[i + 1]? = some b ∧ a.ty = .int) ∧ ss[i]? = some (.ident v) ∧
    (v = ['x'] ∨ v = ['b'])

theorem lintSequence_comps (t : Nat) (cs : List Comp) (p : Bool) :
    lintSequence D t (iterSequence cs []) p none = .ok [] := by
  induction cs generalizing p with
  | nil => rfl
  | cons c cs ih => simp only [iterSequence, lintSequence]; exact ih _

theorem bad_nil {cs : List Comp} {i : Nat} {v : List Char} {b : Comp} : ¬ Bad cs [] i v b := by
  rintro ⟨-, h, -⟩
  simp at h

theorem bad_succ {c : Comp} {cs : List Comp} {s : Sep} {ss : List Sep} {i : Nat} {v : List Char} {b : Comp} :
    Bad (c :: cs) (s :: ss) (i + 1) v b ↔ Bad cs ss i v b := by
  simp [Bad]

theorem bad_zero {c : Comp} {cs : List Comp} {s : Sep} {ss : List Sep} {v : List Char} {b : Comp} :
    Bad (c :: cs) (s :: ss) 0 v b ↔ cs[0]? = some b ∧ c.ty = .int ∧ s = .ident v ∧ (v = ['x'] ∨ v = ['b']) := by
  simp [Bad, and_assoc]

/-- What the loop finds -/
structure Scanned (D : Decls) (t : Nat) (cs : List Comp) (ss : List Sep) (r : Except LintCrash (List LintMsg)) :
    Prop where
  msgs : ∀ ms, r = .ok ms → ms.length ≤ 1 ∧ ∀ m, m ∈ ms ↔ ∃ i v b, Bad cs ss i v b ∧ m = .separator t v b.ty
  fails : (∃ e, r = .error e) ↔ ∃ i v b, Bad cs ss i v b ∧
    (i + 1 < ss.length ∨ (b.ty ≠ .int ∧ exampleFails D (D.tups.length + 3) b.ty = true))
  how : ∀ e, r = .error e → e = .assertion ∨ e = .attribute

theorem scanned (t : Nat) (cs : List Comp) (ss : List Sep) (h : ss = [] ∨ ss.length + 1 = cs.length) (p : Bool) :
    Scanned D t cs ss (lintSequence D t (iterSequence cs ss) p none) := by
  induction ss generalizing cs p with
  | nil =>
    rw [lintSequence_comps]
    refine ⟨?_, ?_, fun e he => by cases he⟩
    · intro ms hm
      cases hm
      refine ⟨by simp, fun m => ⟨fun h => by simp at h, ?_⟩⟩
      rintro ⟨i, v, b, h, -⟩
      exact (bad_nil h).elim
    · refine ⟨fun ⟨e, he⟩ => (by cases he), ?_⟩
      rintro ⟨i, v, b, h, -⟩
      exact (bad_nil h).elim
  | cons s ss ih =>
    obtain ⟨c, cs, rfl⟩ : ∃ c cs', cs = c :: cs' := by
      cases cs with
      | nil => simp at h
      | cons c cs => exact ⟨c, cs, rfl⟩
    have hl : ss.length + 1 = cs.length := by simpa using h
    have ih := ih cs (.inr hl)
    simp only [iterSequence, lintSequence]
    by_cases hb : c.ty = .int ∧ ∃ v, s = .ident v ∧ (v = ['x'] ∨ v = ['b'])
    · obtain ⟨hc, v, rfl, hv⟩ := hb
      have hif : ((c.ty == Ty.int) && (v == "x".toList || v == "b".toList)) = true := by
        rw [hc]
        rcases hv with rfl | rfl <;> decide
      simp only [lintSequence, hif, if_true]
      obtain ⟨b, cs, rfl⟩ : ∃ c cs', cs = c :: cs' := by
        cases cs with
        | nil => simp at hl
        | cons c cs => exact ⟨c, cs, rfl⟩
      have hz : Bad (c :: b :: cs) (.ident v :: ss) 0 v b := bad_zero.2 ⟨rfl, hc, rfl, hv⟩
      cases ss with
      | nil =>
        obtain rfl : cs = [] := by cases cs with | nil => rfl | cons => simp at hl
        simp only [iterSequence, lintSequence]
        have huniq : ∀ i w d, Bad [c, b] [.ident v] i w d → i = 0 ∧ w = v ∧ d = b := by
          intro i w d hbad
          cases i with
          | zero =>
            obtain ⟨h1, -, h2, -⟩ := bad_zero.1 hbad
            simp at h1 h2
            exact ⟨rfl, h2.symm, h1.symm⟩
          | succ i => exact (bad_nil (bad_succ.1 hbad)).elim
        split
        · rename_i hx
          refine ⟨fun ms hm => (by cases hm), ⟨fun _ => ⟨0, v, b, hz, .inr hx⟩, fun _ => ⟨_, rfl⟩⟩, ?_⟩
          intro e he; cases he; exact .inr rfl
        · rename_i hx
          refine ⟨?_, ⟨fun ⟨e, he⟩ => (by cases he), ?_⟩, fun e he => by cases he⟩
          · intro ms hm
            cases hm
            refine ⟨by simp, fun m => ?_⟩
            rw [List.mem_singleton]
            constructor
            · rintro rfl; exact ⟨0, v, b, hz, rfl⟩
            · rintro ⟨i, w, d, hbad, rfl⟩
              obtain ⟨-, rfl, rfl⟩ := huniq i w d hbad
              rfl
          · rintro ⟨i, w, d, hbad, hor⟩
            obtain ⟨rfl, rfl, rfl⟩ := huniq i w d hbad
            rcases hor with hor | hor
            · simp at hor
            · exact (hx hor).elim
      | cons s' ss =>
        have key : ∃ e, (e = .assertion ∨ e = .attribute) ∧
            lintSequence D t (iterSequence (b :: cs) (s' :: ss)) (c.ty == Ty.int) (some v) = .error e := by
          simp only [iterSequence, lintSequence]
          split
          · exact ⟨_, .inr rfl, rfl⟩
          · exact ⟨_, .inl rfl, rfl⟩
        obtain ⟨e, he, hr⟩ := key
        rw [hr]
        refine ⟨fun ms hm => (by cases hm), ⟨fun _ => ⟨0, v, b, hz, .inl (by simp)⟩, fun _ => ⟨_, rfl⟩⟩, ?_⟩
        intro e' h'; cases h'; exact he
    · have hstep : lintSequence D t (.sep s :: iterSequence cs ss) (c.ty == .int) none =
          lintSequence D t (iterSequence cs ss) false none := by
        cases s with
        | kind k => simp only [lintSequence]
        | ident v =>
          have hif : ((c.ty == Ty.int) && (v == "x".toList || v == "b".toList)) = false := by
            rw [Bool.eq_false_iff]
            intro hh
            simp only [Bool.and_eq_true, beq_iff_eq, Bool.or_eq_true] at hh
            exact hb ⟨hh.1, v, rfl, hh.2⟩
          simp only [lintSequence, hif, Bool.false_eq_true, if_false]
      rw [hstep]
      have ih := ih false
      have hbad : ∀ i v b, Bad (c :: cs) (s :: ss) i v b ↔ ∃ j, i = j + 1 ∧ Bad cs ss j v b := by
        intro i v b
        cases i with
        | zero =>
          rw [bad_zero]
          constructor
          · rintro ⟨-, h1, h2, h3⟩
            exact (hb ⟨h1, v, h2, h3⟩).elim
          · rintro ⟨j, hj, -⟩; omega
        | succ i =>
          rw [bad_succ]
          exact ⟨fun h => ⟨i, rfl, h⟩, fun ⟨j, hj, h⟩ => by obtain rfl : i = j := by omega
                                                            exact h⟩
      refine ⟨?_, ?_, ih.how⟩
      · intro ms hm
        obtain ⟨h1, h2⟩ := ih.msgs ms hm
        refine ⟨h1, fun m => (h2 m).trans ⟨?_, ?_⟩⟩
        · rintro ⟨i, v, b, h, e⟩; exact ⟨i + 1, v, b, bad_succ.2 h, e⟩
        · rintro ⟨i, v, b, h, e⟩
          obtain ⟨j, rfl, h⟩ := (hbad i v b).1 h
          exact ⟨j, v, b, h, e⟩
      · rw [ih.fails]
        constructor
        · rintro ⟨i, v, b, h, e⟩
          exact ⟨i + 1, v, b, bad_succ.2 h, by rcases e with e | e; · left; simp; omega
                                               exact .inr e⟩
        · rintro ⟨i, v, b, h, e⟩
          obtain ⟨j, rfl, h⟩ := (hbad i v b).1 h
          exact ⟨j, v, b, h, by rcases e with e | e; · left; simp at e; omega
                                exact .inr e⟩

theorem ambiguous_iff {t i : Nat} {v : List Char} {b : Comp} {cs : List Comp} {ss : List Sep}
    (h1 : D.tups[t]? = some cs) (h2 : seps[t]? = some ss) : Ambiguous D seps t i v b ↔ Bad cs ss i v b := by
  constructor
  · rintro ⟨⟨cs', a, e1, ha, hb, hi⟩, ⟨ss', e2, hs⟩, hv⟩
    rw [h1] at e1; cases e1
    rw [h2] at e2; cases e2
    exact ⟨⟨a, ha, hb, hi⟩, hs, hv⟩
  · rintro ⟨⟨a, ha, hb, hi⟩, hs, hv⟩
    exact ⟨⟨cs, a, h1, ha, hb, hi⟩, ⟨ss, h2, hs⟩, hv⟩

/-! ## The messages on one type -/

theorem relevant_in (h : SoundDecls D infos seps) {τ : Ty} (hτ : Relevant D τ) : TyIn D τ := by
  induction hτ with
  | record h => exact h
  | tup h => exact h
  | enum h => exact h
  | comp hc => exact h.recTypes _ _ hc
  | field h1 h2 => exact h.tupTypes _ _ h1 _ h2


/-- The messages on a type, nothing in case of an exception -/
def ownMsgs (D : Decls) (seps : List (List Sep)) (τ : Ty) : List LintMsg :=
  match lintOwn D seps τ with
  | .ok ms => ms
  | .error _ => []

theorem lintArray_spec (a lo : Nat) (e : Ty) (hi : Option Nat) (m : LintMsg) :
    m ∈ lintArray a lo hi ↔ LintWarns D seps (.arr a e lo hi) m := by
  cases hi with
  | none => simp [lintArray, LintWarns]
  | some hi =>
    simp only [lintArray, LintWarns]
    split
    · rw [List.mem_singleton]
      constructor
      · intro h; exact .inl ⟨‹_›, h⟩
      · rintro (h | h | h | h)
        · exact h.2
        all_goals omega
    · split
      · rw [List.mem_singleton]
        constructor
        · intro h; exact .inr (.inl ⟨by omega, by omega, h⟩)
        · rintro (h | h | h | h)
          · omega
          · exact h.2.2
          all_goals omega
      · split
        · rw [List.mem_singleton]
          constructor
          · intro h; exact .inr (.inr (.inl ⟨by omega, by omega, h⟩))
          · rintro (h | h | h | h)
            · omega
            · omega
            · exact h.2.2
            · omega
        · split
          · rw [List.mem_singleton]
            constructor
            · intro h; exact .inr (.inr (.inr ⟨by omega, by omega, h⟩))
            · rintro (h | h | h | h)
              · omega
              · omega
              · omega
              · exact h.2.2
          · simp only [List.not_mem_nil, false_iff]
            rintro (h | h | h | h) <;> omega

theorem lintUnion_spec (wf : WFDecls D) (u : Nat) (ms : List Nat) (m : LintMsg) :
    m ∈ lintUnion D u ms ↔ LintWarns D seps (.union u ms) m := by
  simp only [lintUnion, LintWarns, List.mem_append]
  refine or_congr ?_ ?_
  · split <;> simp [*]
  · simp only [List.mem_flatMap, List.mem_filterMap]
    constructor
    · rintro ⟨⟨a, i⟩, ha, ⟨b, j⟩, hb, h⟩
      simp only at h
      split at h
      · rename_i hh
        simp only [Option.some.injEq] at h
        refine ⟨a, ?_, b, ?_, hh.2.1, (isSubclassOf_iff wf a b).1 hh.2.2, h.symm⟩
        · exact (List.mem_zipIdx' ha).2 ▸ List.getElem_mem _
        · exact (List.mem_zipIdx' hb).2 ▸ List.getElem_mem _
      · cases h
    · rintro ⟨a, ha, b, hb, hne, he, rfl⟩
      obtain ⟨i, hi, rfl⟩ := List.getElem_of_mem ha
      obtain ⟨j, hj, rfl⟩ := List.getElem_of_mem hb
      refine ⟨(ms[i], i), ?_, (ms[j], j), ?_, ?_⟩
      · rw [List.mk_mem_zipIdx_iff_getElem?]; simp
      · rw [List.mk_mem_zipIdx_iff_getElem?]; simp
      · simp only
        have hij : i ≠ j := fun e => hne (by subst e; rfl)
        rw [if_pos ⟨hij, hne, (isSubclassOf_iff wf _ _).2 he⟩]

theorem lintUnion_nodup {u : Nat} {ms : List Nat} (h : ms.Nodup) : (lintUnion D u ms).Nodup := by
  unfold lintUnion
  rw [List.nodup_append]
  refine ⟨by split <;> simp, ?_, ?_⟩
  · have hz : ms.zipIdx.Pairwise fun x y => x.1 ≠ y.1 := by
      have := List.pairwise_map.1 (show ((ms.zipIdx).map Prod.fst).Pairwise (· ≠ ·) by
        rw [List.zipIdx_map_fst]; exact h)
      exact this
    unfold List.Nodup
    rw [List.pairwise_flatMap]
    constructor
    · rintro ⟨a, i⟩ -
      rw [List.pairwise_filterMap]
      refine hz.imp ?_
      rintro ⟨x, i1⟩ ⟨y, i2⟩ hne m hm m' hm'
      simp only at hm hm'
      split at hm
      · split at hm'
        · simp only [Option.some.injEq] at hm hm'
          rw [← hm, ← hm']
          intro e
          simp only [LintMsg.unionSubtype.injEq] at e
          exact hne e.2.2
        · cases hm'
      · cases hm
    · refine hz.imp ?_
      intro x y hne m hm m' hm'
      simp only [List.mem_filterMap] at hm hm'
      obtain ⟨⟨b, j⟩, -, hm⟩ := hm
      obtain ⟨⟨b', j'⟩, -, hm'⟩ := hm'
      simp only at hm hm'
      split at hm
      · split at hm'
        · simp only [Option.some.injEq] at hm hm'
          rw [← hm, ← hm']
          intro e
          simp only [LintMsg.unionSubtype.injEq] at e
          exact hne e.2.1
        · cases hm'
      · cases hm
  · intro a ha b hb e
    subst e
    split at ha
    · rw [List.mem_singleton] at ha
      subst ha
      simp only [List.mem_flatMap, List.mem_filterMap] at hb
      obtain ⟨⟨b, j⟩, -, ⟨b', j'⟩, -, hb⟩ := hb
      simp only at hb
      split at hb <;> cases hb
    · simp at ha

/-- What is known about the messages on a type -/
theorem own_spec (h : SoundDecls D infos seps) {τ : Ty} (hτ : Relevant D τ) :
    (∀ ms, lintOwn D seps τ = .ok ms → ∀ m, m ∈ ms ↔ LintWarns D seps τ m) ∧
    (∀ ms, lintOwn D seps τ = .ok ms → (∀ u us, τ = .union u us → us.Nodup) → ms.Nodup) ∧
    ((∃ e, lintOwn D seps τ = .error e) ↔ ∃ t, τ = .tup t ∧ LintFails D seps t) ∧
    ∀ e, lintOwn D seps τ = .error e → e = .assertion ∨ e = .attribute := by
  cases τ with
  | tup t =>
    have ht : t < D.tups.length := relevant_in h hτ
    obtain ⟨cs, hcs⟩ : ∃ cs, D.tups[t]? = some cs := ⟨_, List.getElem?_eq_getElem ht⟩
    obtain ⟨ss, hss⟩ : ∃ ss, seps[t]? = some ss :=
      ⟨_, List.getElem?_eq_getElem (by rw [h.sepLen]; exact ht)⟩
    have hs := scanned (D := D) t cs ss (h.separated t cs ss hcs hss) false
    have hown : lintOwn D seps (.tup t) = lintSequence D t (iterSequence cs ss) false none := by
      simp [lintOwn, Decls.fields, hcs, hss]
    rw [hown]
    refine ⟨?_, ?_, ?_, hs.how⟩
    · intro ms hm m
      rw [(hs.msgs ms hm).2 m]
      simp only [LintWarns, ambiguous_iff hcs hss]
    · intro ms hm _
      have := (hs.msgs ms hm).1
      match ms, this with
      | [], _ => exact .nil
      | [m], _ => simp
    · rw [hs.fails]
      simp only [Ty.tup.injEq, exists_eq_left', LintFails, ambiguous_iff hcs hss]
      refine exists_congr fun i => exists_congr fun v => exists_congr fun b => and_congr_right fun hb => or_congr ?_ ?_
      · rw [hss]
        simp
      · constructor
        · rintro ⟨-, hx⟩; exact exampleFails_sound _ _ hx
        · intro hx
          refine ⟨fun e => (by rw [e] at hx; cases hx), exampleFails_complete h.world.tuples hx _ ?_⟩
          have := (h.world.tuples t cs hcs).earlier b
            (List.mem_of_getElem? (hb.1.choose_spec.2.1))
          omega
  | arr a e lo hi =>
    simp only [lintOwn]
    refine ⟨?_, ?_, ⟨fun ⟨e, he⟩ => (by cases he), fun ⟨t, ht, _⟩ => by cases ht⟩, fun e he => by cases he⟩
    · intro ms hm m; cases hm; exact lintArray_spec a lo e hi m
    · intro ms hm _
      cases hm
      unfold lintArray
      repeat' split
      all_goals simp
  | union u us =>
    simp only [lintOwn]
    refine ⟨?_, ?_, ⟨fun ⟨e, he⟩ => (by cases he), fun ⟨t, ht, _⟩ => by cases ht⟩, fun e he => by cases he⟩
    · intro ms hm m; cases hm; exact lintUnion_spec h.world.wf u us m
    · intro ms hm hn; cases hm; exact lintUnion_nodup (hn u us rfl)
  | _ =>
    simp only [lintOwn]
    refine ⟨?_, ?_, ⟨fun ⟨e, he⟩ => (by cases he), fun ⟨t, ht, _⟩ => by cases ht⟩, fun e he => by cases he⟩
    · intro ms hm m; cases hm; simp [LintWarns]
    · intro ms hm _; cases hm; exact .nil

/-! ## Visiting all types -/

theorem lintNext_relevant (h : SoundDecls D infos seps) {τ : Ty} (hτ : Relevant D τ) : ∀ x ∈ lintNext D τ, Relevant D x := by
  intro x hx
  cases τ with
  | record t =>
    simp only [lintNext, List.mem_map, List.mem_flatMap] at hx
    obtain ⟨c, ⟨a, -, hc⟩, rfl⟩ := hx
    exact .comp ((mem_own a c).1 ((pySort_perm _ _).mem_iff.1 hc))
  | tup t =>
    simp only [lintNext, List.mem_map] at hx
    obtain ⟨c, hc, rfl⟩ := hx
    have hc := (pySort_perm _ _).mem_iff.1 hc
    unfold Decls.fields at hc
    cases ht : D.tups[t]? with
    | none => simp [ht] at hc
    | some cs => rw [ht] at hc; exact .field ht hc
  | union u ms =>
    simp only [lintNext, List.mem_map] at hx
    obtain ⟨m, hm, rfl⟩ := hx
    exact .record (relevant_in h hτ m hm)
  | _ => simp [lintNext] at hx

/-- A list of all relevant types -/
def allTys (D : Decls) : List Ty :=
  (List.range D.recs.length).map .record ++ (List.range D.tups.length).map .tup ++
  (List.range D.enums.length).map .enum ++ D.recs.flatMap (fun r => r.own.map (·.ty)) ++
  D.tups.flatMap (fun cs => cs.map (·.ty))

theorem mem_allTys {τ : Ty} (h : Relevant D τ) : τ ∈ allTys D := by
  simp only [allTys, List.mem_append, List.mem_map, List.mem_range, List.mem_flatMap]
  cases h with
  | record h => exact .inl (.inl (.inl (.inl ⟨_, h, rfl⟩)))
  | tup h => exact .inl (.inl (.inl (.inr ⟨_, h, rfl⟩)))
  | enum h => exact .inl (.inl (.inr ⟨_, h, rfl⟩))
  | comp h =>
    obtain ⟨r, h1, h2⟩ := h
    exact .inl (.inr ⟨r, List.mem_of_getElem? h1, _, h2, rfl⟩)
  | field h1 h2 => exact .inr ⟨_, List.mem_of_getElem? h1, _, h2, rfl⟩

theorem allTys_length : (allTys D).length < lintFuel D := by
  simp only [allTys, lintFuel, List.length_append, List.length_map, List.length_range, List.length_flatMap]
  have : (D.tups.map fun cs => cs.length) = D.tups.map List.length := rfl
  rw [this]
  omega

/-- What visiting a type adds to the state -/
def Grown (D : Decls) (infos : List RecInfo) (seps : List (List Sep)) (st st' : LintState) : Prop :=
  ∃ new : List Ty, st'.checked = st.checked ++ new ∧ st'.checked.Nodup ∧
    (∀ x ∈ new, Relevant D x ∧ ∃ ms, lintOwn D seps x = .ok ms) ∧
    st'.msgs = st.msgs ++ new.flatMap (ownMsgs D seps) ∧
    st'.ext = st.ext ++ new.flatMap (lintExtensions D infos) ∧
    ∀ x ∈ new, ∀ y ∈ lintNext D x, y ∈ st'.checked

theorem Grown.refl {st : LintState} (h : st.checked.Nodup) : Grown D infos seps st st :=
  ⟨[], by simp, h, by simp, by simp, by simp, by simp⟩

theorem Grown.sub {st st' : LintState} (h : Grown D infos seps st st') : ∀ x ∈ st.checked, x ∈ st'.checked := by
  obtain ⟨new, h1, -⟩ := h
  rw [h1]
  exact fun x hx => List.mem_append_left _ hx

theorem Grown.relevant {st st' : LintState} (h : Grown D infos seps st st') (hr : ∀ x ∈ st.checked, Relevant D x) :
    ∀ x ∈ st'.checked, Relevant D x := by
  obtain ⟨new, h1, -, h3, -⟩ := h
  rw [h1]
  intro x hx
  rcases List.mem_append.1 hx with h | h
  · exact hr x h
  · exact (h3 x h).1

theorem Grown.nodup {st st' : LintState} (h : Grown D infos seps st st') : st'.checked.Nodup := by
  obtain ⟨new, -, h2, -⟩ := h
  exact h2

theorem Grown.length {st st' : LintState} (h : Grown D infos seps st st') : st.checked.length ≤ st'.checked.length := by
  obtain ⟨new, h1, -⟩ := h
  rw [h1]
  simp

theorem Grown.trans {st st1 st2 : LintState} (h : Grown D infos seps st st1) (h' : Grown D infos seps st1 st2) :
    Grown D infos seps st st2 := by
  have hs := h'.sub
  obtain ⟨n1, a1, a2, a3, a4, a5, a6⟩ := h
  obtain ⟨n2, b1, b2, b3, b4, b5, b6⟩ := h'
  refine ⟨n1 ++ n2, by rw [b1, a1, List.append_assoc], b2, ?_, by rw [b4, a4]; simp, by rw [b5, a5]; simp, ?_⟩
  · intro x hx
    rcases List.mem_append.1 hx with h | h
    · exact a3 x h
    · exact b3 x h
  · intro x hx y hy
    rcases List.mem_append.1 hx with h | h
    · exact hs y (a6 x h y hy)
    · exact b6 x h y hy

/-- The outcome of visiting the types `ts` -/
def Visited (D : Decls) (infos : List RecInfo) (seps : List (List Sep)) (st : LintState) (ts : List Ty) :
    Except LintCrash LintState → Prop
  | .ok st' => Grown D infos seps st st' ∧ ∀ τ ∈ ts, τ ∈ st'.checked
  | .error e => ∃ x, Relevant D x ∧ lintOwn D seps x = .error e

theorem visited_fold {fuel : Nat}
    (hv : ∀ st τ, Relevant D τ → st.checked.Nodup → (∀ x ∈ st.checked, Relevant D x) →
      (allTys D).length < fuel + st.checked.length →
      Visited D infos seps st [τ] (verifyType D infos seps fuel st τ)) :
    ∀ (ts : List Ty) (st : LintState), (∀ τ ∈ ts, Relevant D τ) → st.checked.Nodup →
      (∀ x ∈ st.checked, Relevant D x) → (allTys D).length < fuel + st.checked.length →
      Visited D infos seps st ts (ts.foldlM (verifyType D infos seps fuel) st) := by
  intro ts
  induction ts with
  | nil =>
    intro st _ hn _ _
    exact ⟨.refl hn, by simp⟩
  | cons τ ts ih =>
    intro st hr hn hc hf
    rw [List.foldlM_cons]
    have h1 := hv st τ (hr τ (by simp)) hn hc hf
    cases hx : verifyType D infos seps fuel st τ with
    | error e => rw [hx] at h1; exact h1
    | ok st1 =>
      rw [hx] at h1
      obtain ⟨g1, m1⟩ := h1
      have h2 := ih st1 (fun x hx => hr x (List.mem_cons_of_mem _ hx)) g1.nodup (g1.relevant hc)
        (by have := g1.length; omega)
      change Visited D infos seps st (τ :: ts) (ts.foldlM (verifyType D infos seps fuel) st1)
      cases hy : ts.foldlM (verifyType D infos seps fuel) st1 with
      | error e => rw [hy] at h2; exact h2
      | ok st2 =>
        rw [hy] at h2
        obtain ⟨g2, m2⟩ := h2
        refine ⟨g1.trans g2, ?_⟩
        intro x hx
        rcases List.mem_cons.1 hx with rfl | hx
        · exact g2.sub _ (m1 _ (by simp))
        · exact m2 x hx

theorem visited_one (h : SoundDecls D infos seps) : ∀ (fuel : Nat) (st : LintState) (τ : Ty), Relevant D τ →
    st.checked.Nodup → (∀ x ∈ st.checked, Relevant D x) → (allTys D).length < fuel + st.checked.length →
    Visited D infos seps st [τ] (verifyType D infos seps fuel st τ) := by
  intro fuel
  induction fuel with
  | zero =>
    intro st τ _ hn hc hf
    have hs : List.Subperm st.checked (allTys D) :=
      hn.subperm fun x hx => mem_allTys (hc x hx)
    have := hs.length_le
    omega
  | succ fuel ih =>
    intro st τ hτ hn hc hf
    rw [verifyType]
    split
    · rename_i hin
      exact ⟨.refl hn, fun x hx => by
        rw [List.mem_singleton] at hx
        subst hx
        exact List.contains_iff_mem.1 hin⟩
    · rename_i hin
      cases ho : lintOwn D seps τ with
      | error e => exact ⟨τ, hτ, ho⟩
      | ok ms =>
        simp only
        have hnot : τ ∉ st.checked := fun hm => hin (List.contains_iff_mem.2 hm)
        have hn' : (st.checked ++ [τ]).Nodup := by
          rw [List.nodup_append]
          refine ⟨hn, by simp, ?_⟩
          intro a ha b hb e
          rw [List.mem_singleton] at hb
          subst hb e
          exact hnot ha
        have hc' : ∀ x ∈ st.checked ++ [τ], Relevant D x := by
          intro x hx
          rcases List.mem_append.1 hx with hx | hx
          · exact hc x hx
          · rw [List.mem_singleton] at hx; subst hx; exact hτ
        have hf' : (allTys D).length < fuel + (st.checked ++ [τ]).length := by simp; omega
        have hv := visited_fold ih (lintNext D τ)
          ⟨st.checked ++ [τ], st.msgs ++ ms, st.ext ++ lintExtensions D infos τ⟩
          (lintNext_relevant h hτ) hn' hc' hf'
        cases hr : (lintNext D τ).foldlM (verifyType D infos seps fuel)
            ⟨st.checked ++ [τ], st.msgs ++ ms, st.ext ++ lintExtensions D infos τ⟩ with
        | error e => rw [hr] at hv; exact hv
        | ok st' =>
          rw [hr] at hv
          obtain ⟨⟨new, a1, a2, a3, a4, a5, a6⟩, hm⟩ := hv
          have hown : ownMsgs D seps τ = ms := by rw [ownMsgs, ho]
          refine ⟨⟨τ :: new, ?_, a2, ?_, ?_, ?_, ?_⟩, ?_⟩
          · rw [a1]; simp
          · intro x hx
            rcases List.mem_cons.1 hx with rfl | hx
            · exact ⟨hτ, ms, ho⟩
            · exact a3 x hx
          · rw [a4]; simp [hown]
          · rw [a5]; simp
          · intro x hx y hy
            rcases List.mem_cons.1 hx with rfl | hx
            · exact hm y hy
            · exact a6 x hx y hy
          · intro x hx
            rw [List.mem_singleton] at hx
            subst hx
            rw [a1]
            simp

end Verif.Lemmas.Lint
