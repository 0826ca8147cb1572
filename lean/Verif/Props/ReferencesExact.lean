import Verif.Props.Guarantee
/-!
# C26: exactly when references are equal
-/
namespace Verif.Props
open Verif.Model Verif.Spec Verif.Lemmas

private theorem frozen_unique {D : Decls} {infos : List RecInfo}
    (honce : ∀ t a b n, Extends D t a → Extends D t b → Freezes infos a n → Freezes infos b n → a = b)
    {t : Nat} {n : String} {m m' : VNode} (h : FrozenIn D infos t n m) (h' : FrozenIn D infos t n m') : m = m' := by
  obtain ⟨a, i, h1, h2, h3⟩ := h
  obtain ⟨a', i', h1', h2', h3'⟩ := h'
  obtain rfl := honce t a a' n h1 h1' ⟨i, h2, List.mem_map.2 ⟨_, mem_of_assoc h3, rfl⟩⟩
    ⟨i', h2', List.mem_map.2 ⟨_, mem_of_assoc h3', rfl⟩⟩
  rw [h2] at h2'
  cases h2'
  rw [h3] at h3'
  cases h3'
  rfl

private theorem keys_iff {D : Decls} {infos : List RecInfo} {o : Obj} (h : ObjComplete D infos o) (k : String) :
    k ∈ o.fields.map Prod.fst ↔ ∃ c, HasComp D o.typ c ∧ c.name = k := by
  constructor
  · intro hk
    refine h.2.1 k ?_
    cases hl : o.fields.lookup k with
    | none => exact absurd hk (lookup_none_of hl)
    | some n => rfl
  · rintro ⟨c, hc, rfl⟩
    obtain ⟨n, hn, -⟩ := h.1 c hc
    exact List.mem_map.2 ⟨_, mem_of_assoc hn, rfl⟩

/-- **C26**, exactly, for two objects of the same type: references to them are equal if and only if they are the same object
or the type has no component that is not frozen. -/
theorem C26_same_type {fs : List OpenFile} {s s' : PS} {global : STab}
    (hw : WorldOk s.decls s.infos) (h0 : NoObjects s) (hf : FrozenBefore s.infos s.nid)
    (honce : ∀ t a b n, Extends s.decls t a → Extends s.decls t b → Freezes s.infos a n → Freezes s.infos b n → a = b)
    (hp : PkgsKnown global s) (h : runTrlcFiles fs s = .ok true s')
    (hr : s'.resolveAll global = []) {i j : Nat} {o o' : Obj} (hi : s'.objs[i]? = some o)
    (hj : s'.objs[j]? = some o') (hty : o.typ = o'.typ)
    (rx : List Char → List Char → Bool) (τ τ' : Ty) :
    ∃ r, Gives ⟨s'.heap, rx⟩ (some (twoRefs τ τ' i j)) (eqExpr (.name "a" τ) (.name "b" τ')) (.bool r) ∧
      (r = true ↔ i = j ∨ ¬ HasOwnValue s.decls s.infos o) := by
  by_cases hown : HasOwnValue s.decls s.infos o
  · obtain ⟨r, h1, h2⟩ := C26_reference_equality_partial hw h0 hf hp h hr hi hj hown rx τ τ'
    exact ⟨r, h1, by rw [h2]; simp [hown]⟩
  · obtain ⟨gs, hgs, hres⟩ := C35_references hw h0 hp h hr i o hi
    obtain ⟨hs, hhs, hres'⟩ := C35_references hw h0 hp h hr j o' hj
    refine ⟨fieldsEq gs hs, ⟨some .bool, ?_⟩, ?_⟩
    · simp [eqExpr, Expr.eval, twoRefs, FExpr.eval, hgs, hhs, mkValue, Val.isNull, Ev.bind,
        BinOp.allowsNull, binaryOp, Val.pyEq, List.lookup]
    · simp only [hown, not_false_eq_true, or_true, iff_true]
      have c1 := (C32_all_complete hw h0.objs h i o hi).1
      have c2 := (C32_all_complete hw h0.objs h j o' hj).1
      have k1 := resolvedObj_keys hres
      have k2 := resolvedObj_keys hres'
      have frozen : ∀ c, HasComp s.decls o.typ c → ∃ m, FrozenIn s.decls s.infos o.typ c.name m := by
        intro c hc
        by_contra hno
        exact hown ⟨c, hc, fun m hm => hno ⟨m, hm⟩⟩
      have value : ∀ (x : Obj) c, x.typ = o.typ → ObjComplete s.decls s.infos x → HasComp s.decls o.typ c →
          ∃ n, x.fields.lookup c.name = some n ∧ FrozenIn s.decls s.infos o.typ c.name n := by
        intro x c hx hcx hc
        obtain ⟨n, hn, hv⟩ := hcx.1 c (by rw [hx]; exact hc)
        rw [hx] at hv
        obtain ⟨m, hm⟩ := frozen c hc
        rcases hv with hv | ⟨hv, -⟩
        · exact ⟨n, hn, hv⟩
        · exact absurd hm (hv m)
      unfold fieldsEq
      simp only [Bool.and_eq_true, beq_iff_eq, List.all_eq_true]
      constructor
      · have : (o.fields.map Prod.fst).Perm (o'.fields.map Prod.fst) :=
          (List.perm_ext_iff_of_nodup c1.2.2 c2.2.2).2 fun k => by rw [keys_iff c1, keys_iff c2, hty]
        have := this.length_eq
        rw [← k1, ← k2] at this
        simpa using this
      · rintro ⟨k, n⟩ hm
        have hk : k ∈ o.fields.map Prod.fst := by rw [← k1]; exact List.mem_map.2 ⟨_, hm, rfl⟩
        obtain ⟨c, hc, rfl⟩ := (keys_iff c1 k).1 hk
        have hl : gs.lookup c.name = some n := lookup_of_mem (by rw [k1]; exact c1.2.2) hm
        obtain ⟨n1, a1, a2⟩ := value o c rfl c1 hc
        obtain ⟨n2, b1, b2⟩ := value o' c hty.symm c2 hc
        obtain rfl := frozen_unique honce a2 b2
        obtain ⟨e1, g1, -⟩ := (resolvedObj_lookup hres c.name).1 n1 a1
        obtain ⟨e2, g2, -⟩ := (resolvedObj_lookup hres' c.name).1 n1 b1
        rw [hl] at g1
        cases g1
        simp only [g2]
        simp

/-- the hypotheses are met: two objects of a type without components -/
example : ∃ s' o o', runTrlcFiles [Sample.openText Sample.env0 "Empty x {} Empty y {}"] Sample.start = .ok true s' ∧
    s'.resolveAll Sample.global = [] ∧ s'.objs[0]? = some o ∧ s'.objs[1]? = some o' ∧ o.typ = o'.typ ∧
    ∀ t a b n, Extends Sample.start.decls t a → Extends Sample.start.decls t b → Freezes Sample.start.infos a n →
      Freezes Sample.start.infos b n → a = b := by
  have h : (match runTrlcFiles [Sample.openText Sample.env0 "Empty x {} Empty y {}"] Sample.start with
    | .ok b s => b && (s.resolveAll Sample.global).isEmpty && (s.objs.map (·.typ)) == [2, 2]
    | _ => false) = true := by decide +kernel
  have once : ∀ a n, Freezes Sample.start.infos a n → a = 1 := by
    rintro a n ⟨i, hi, hm⟩
    match a, hi with
    | 0, hi =>
      simp only [Sample.start, Sample.infos, List.getElem?_cons_zero, Option.some.injEq] at hi
      subst hi
      simp at hm
    | 1, _ => rfl
    | 2, hi =>
      simp only [Sample.start, Sample.infos, List.getElem?_cons_succ, List.getElem?_cons_zero, Option.some.injEq] at hi
      subst hi
      simp at hm
    | a + 3, hi => simp [Sample.start, Sample.infos] at hi
  cases hr : runTrlcFiles [Sample.openText Sample.env0 "Empty x {} Empty y {}"] Sample.start with
  | err s => rw [hr] at h; cases h
  | crash c s => rw [hr] at h; cases h
  | ok b s =>
    rw [hr] at h
    simp only [Bool.and_eq_true, List.isEmpty_iff, beq_iff_eq] at h
    obtain ⟨⟨rfl, h1⟩, h2⟩ := h
    obtain ⟨x, xs, e, hx, h2⟩ := List.map_eq_cons_iff.1 h2
    obtain ⟨y, ys, rfl, hy, -⟩ := List.map_eq_cons_iff.1 h2
    exact ⟨s, x, y, rfl, h1, by rw [e]; rfl, by rw [e]; rfl, by rw [hx, hy],
      fun t a b n _ _ ha hb => (once a n ha).trans (once b n hb).symm⟩

variable {o : Options} {X : Outside} {required : List CU → Finset PNode} {fs : List Source} {s : PS}

/-- **C26** for whole runs, exactly, for two objects of the same type: after a successful run references to them are equal
in a check if and only if they are the same object or the type has no component that is not frozen. -/
theorem C26_run_same_type (hb : Blank s) (h : (process o X required fs s).out = .table) {i j : Nat} {a b : Obj}
    (hi : (process o X required fs s).state.objs[i]? = some a) (hj : (process o X required fs s).state.objs[j]? = some b)
    (hty : a.typ = b.typ) (rx : List Char → List Char → Bool) (τ τ' : Ty) :
    ∃ r, Gives ⟨(process o X required fs s).state.heap, rx⟩ (some (twoRefs τ τ' i j)) (eqExpr (.name "a" τ) (.name "b" τ')) (.bool r) ∧
      (r = true ↔ i = j ∨ ¬ HasOwnValue (process o X required fs s).state.decls (process o X required fs s).state.infos a) := by
  obtain ⟨g, ls, s1, s2, k, r⟩ := run_ready hb h
  obtain ⟨e1, e2, -⟩ := succeeded_kept k r
  rw [e1, e2]
  cases hp : o.parseTrlc with
  | false => rw [k.rslOnly hp, r.inv.objs] at hi; cases hi
  | true =>
    exact C26_same_type r.inv.sound.world r.noObjects r.inv.frozenBefore.before r.inv.sound.frozenOnce r.pkgs (k.trlc hp).1
      (k.trlc hp).2.1 hi hj hty rx τ τ'

end Verif.Props
