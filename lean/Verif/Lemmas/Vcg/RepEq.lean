import Verif.Lemmas.Vcg.Rep
/-! Equal values are represented by the same value. -/
namespace Verif.Lemmas.Vcg
open Verif.Model Verif.Spec

/-- references are numbered such that the same number means equal dictionaries -/
def RefOk (heap : Nat → Option Fields) (ref : Fields → Int) : Prop :=
  ∀ o o' fs fs', heap o = some fs → heap o' = some fs' → (ref fs = ref fs' ↔ fieldsEq fs fs' = true)

/-- no tuple type has two fields of the same name -/
def FieldNames (D : Decls) : Prop := ∀ t, ((D.fields t).map (·.name)).Nodup

variable {D : Decls} {objTy : Nat → Option Nat} {heap : Nat → Option Fields} {ref : Fields → Int}

theorem fieldsOk_keys {fs : List (String × FExpr)} {cs : List Comp}
    {vs : List (String × Option Ty × Val)} (h : FieldsOk D objTy fs cs)
    (hv : evalFields heap fs = .ok vs) : vs.map (·.1) = cs.map (·.name) := by
  induction fs generalizing cs vs with
  | nil =>
    simp only [evalFields, Ev.ok.injEq] at hv
    subst hv
    cases cs <;> simp_all [FieldsOk]
  | cons f fs ih =>
    obtain ⟨k, e⟩ := f
    cases cs with
    | nil => simp [FieldsOk] at h
    | cons d cs =>
      simp only [FieldsOk, FieldOk] at h
      simp only [evalFields, evalField, bind_eq_ok, Ev.ok.injEq] at hv
      obtain ⟨x, ⟨v, hv, rfl⟩, ws, hws, rfl⟩ := hv
      simp [h.1.1, ih h.2 hws]

theorem find_of_mem {cs : List Comp} (hn : (cs.map (·.name)).Nodup) {c : Comp} (h : c ∈ cs) :
    cs.find? (·.name == c.name) = some c := by
  induction cs with
  | nil => simp at h
  | cons d cs ih =>
    simp only [List.map_cons, List.nodup_cons] at hn
    rcases List.mem_cons.1 h with rfl | h
    · simp
    · rw [List.find?_cons_of_neg, ih hn.2 h]
      simp only [beq_iff_eq]
      intro e
      exact hn.1 (e ▸ List.mem_map.2 ⟨c, h, rfl⟩)

/-- what is shown about value expressions -/
def EqClaim (D : Decls) (objTy : Nat → Option Nat) (heap : Nat → Option Fields) (ref : Fields → Int)
    (fe : FExpr) : Prop :=
  ∀ (τ : Ty) (v w : Val), FOk D objTy fe τ → fe.eval heap = .ok ⟨some τ, v⟩ → VT D objTy heap τ w →
    (v.pyEq w = true ↔ rep D ref v (some τ) = rep D ref w (some τ))

theorem vt_eq_simple {τ : Ty} {v w : Val} (hs : τ = .bool ∨ τ = .int ∨ τ = .dec ∨ τ = .str ∨ τ = .markup ∨ ∃ t, τ = .enum t)
    (hv : VT D objTy heap τ v) (hw : VT D objTy heap τ w) :
    v.pyEq w = true ↔ rep D ref v (some τ) = rep D ref w (some τ) := by
  rcases hs with rfl | rfl | rfl | rfl | rfl | ⟨t, rfl⟩ <;> obtain ⟨a, rfl⟩ := hv <;> obtain ⟨b, rfl⟩ := hw
  · cases a <;> cases b <;> simp [Val.pyEq, Val.num, rep] <;> decide
  · simp [Val.pyEq, Val.num, rep, Rat.intCast_inj]
  all_goals simp [Val.pyEq, Val.num, rep]

/-- two references -/
theorem vt_eq_ref (hr : RefOk heap ref) {τ σ : Ty} {v w : Val}
    (h1 : τ.cls = .record ∨ τ.cls = .union) (h2 : σ.cls = .record ∨ σ.cls = .union)
    (hv : VT D objTy heap τ v) (hw : VT D objTy heap σ w) :
    v.pyEq w = true ↔ rep D ref v (some τ) = rep D ref w (some σ) := by
  obtain ⟨o, u, fs, rfl, h3, -⟩ := vt_ref h1 hv
  obtain ⟨o', u', fs', rfl, h4, -⟩ := vt_ref h2 hw
  simp only [Val.pyEq, rep, SV.int.injEq]
  exact (hr o o' fs fs' h3 h4).symm

theorem eqList_rep (hh : HeapOk D objTy heap) {τ : Ty} : ∀ (es es' : List FExpr)
    (vs ws : List (Option Ty × Val)), (∀ e ∈ es, EqClaim D objTy heap ref e) →
    AllOk D objTy es τ → AllOk D objTy es' τ → evalElems heap es = .ok vs → evalElems heap es' = .ok ws →
    (eqList vs ws = true ↔ repL D ref vs = repL D ref ws)
  | [], [], vs, ws, ih, h1, h2, hv, hw => by
    simp only [evalElems, Ev.ok.injEq] at hv hw
    subst hv hw
    simp [eqList, repL]
  | [], e' :: es', vs, ws, ih, h1, h2, hv, hw => by
    simp only [evalElems, bind_eq_ok, Ev.ok.injEq] at hv hw
    obtain ⟨y, hy, ys, hys, rfl⟩ := hw
    subst hv
    simp [eqList, repL]
  | e :: es, [], vs, ws, ih, h1, h2, hv, hw => by
    simp only [evalElems, bind_eq_ok, Ev.ok.injEq] at hv hw
    obtain ⟨y, hy, ys, hys, rfl⟩ := hv
    subst hw
    simp [eqList, repL]
  | e :: es, e' :: es', vs, ws, ih, h1, h2, hv, hw => by
    simp only [AllOk] at h1 h2
    simp only [evalElems, bind_eq_ok, Ev.ok.injEq] at hv hw
    obtain ⟨x, hx, xs, hxs, rfl⟩ := hv
    obtain ⟨y, hy, ys, hys, rfl⟩ := hw
    have tx := (fok_typ hh h1.1 hx).1
    have ty := (fok_typ hh h2.1 hy).1
    rw [tx] at hx ⊢
    rw [ty] at hy ⊢
    have h3 := ih e List.mem_cons_self τ x.val y.val h1.1 hx (fok_vt e' τ y.val h2.1 hy)
    have h4 := eqList_rep hh es es' xs ys (fun a ha => ih a (List.mem_cons_of_mem _ ha)) h1.2 h2.2 hxs hys
    simp only [eqList, eqTV, beq_self_eq_true, Bool.true_and, Bool.and_eq_true, h3, h4, repL, repT,
      List.cons.injEq]

/-- one field of two tuples of the same type -/
theorem field_rep (hh : HeapOk D objTy heap) {cs : List Comp} {fs fs' : List (String × FExpr)}
    {vs ws : List (String × Option Ty × Val)} (ih : ∀ f ∈ fs, EqClaim D objTy heap ref f.2)
    (h1 : FieldsOk D objTy fs cs) (h2 : FieldsOk D objTy fs' cs) (hv : evalFields heap fs = .ok vs)
    (hw : evalFields heap fs' = .ok ws) {n : String} {c : Comp} (hc : cs.find? (·.name == n) = some c) :
    ∃ x y, vs.lookup n = some x ∧ ws.lookup n = some y ∧
      (eqTV x y = true ↔ repF D ref vs n = repF D ref ws n) ∧
      (c.optional = false → (repF D ref vs n).isSome ∧ (repF D ref ws n).isSome) := by
  obtain ⟨e, hm, hl, ho⟩ := fieldsOk_lookup h1 hc
  obtain ⟨e', hm', hl', ho'⟩ := fieldsOk_lookup h2 hc
  rcases evalFields_lookup hv n with ⟨h, -⟩ | ⟨a, x, -, h3, h4, h5⟩
  · rw [hl] at h; cases h
  rw [hl] at h3
  cases h3
  rcases evalFields_lookup hw n with ⟨h, -⟩ | ⟨a, y, -, h3, h6, h7⟩
  · rw [hl'] at h; cases h
  rw [hl'] at h3
  cases h3
  refine ⟨_, _, h5, h7, ?_, ?_⟩
  · rw [repF_lookup, repF_lookup, h5, h7]
    simp only [Option.bind_some]
    rcases ho with ⟨-, rfl⟩ | ho <;> rcases ho' with ⟨-, rfl⟩ | ho'
    · rw [eval_inull] at h4 h6
      cases h4; cases h6
      simp [eqTV, Val.pyEq, Val.isNull]
    · rw [eval_inull] at h4
      cases h4
      obtain ⟨t, hn⟩ := fok_typ hh ho' h6
      rw [t]
      simp [eqTV, hn, show Val.null.isNull = true from rfl]
    · rw [eval_inull] at h6
      cases h6
      obtain ⟨t, hn⟩ := fok_typ hh ho h4
      rw [t]
      simp [eqTV, hn, show Val.null.isNull = true from rfl]
    · obtain ⟨t, hn⟩ := fok_typ hh ho h4
      obtain ⟨t', hn'⟩ := fok_typ hh ho' h6
      rw [t] at h4 ⊢
      rw [t'] at h6 ⊢
      simp only [eqTV, beq_self_eq_true, Bool.true_and, hn, hn', Bool.false_eq_true, if_false, Option.some.injEq]
      exact ih (n, e) hm c.ty x.val y.val ho h4 (fok_vt e' c.ty y.val ho' h6)
  · intro hopt
    rw [repF_lookup, repF_lookup, h5, h7]
    rcases ho with ⟨h, -⟩ | ho
    · rw [hopt] at h; cases h
    rcases ho' with ⟨h, -⟩ | ho'
    · rw [hopt] at h; cases h
    simp [(fok_typ hh ho h4).2, (fok_typ hh ho' h6).2]

theorem tup_rep (hh : HeapOk D objTy heap) (fn : FieldNames D) {t : Nat} {cs : List Comp}
    (hcs : D.tups[t]? = some cs) {fs fs' : List (String × FExpr)}
    {vs ws : List (String × Option Ty × Val)} (ih : ∀ f ∈ fs, EqClaim D objTy heap ref f.2)
    (h1 : FieldsOk D objTy fs cs) (h2 : FieldsOk D objTy fs' cs) (hv : evalFields heap fs = .ok vs)
    (hw : evalFields heap fs' = .ok ws) :
    (Val.tup vs).pyEq (.tup ws) = true ↔ rep D ref (.tup vs) (some (.tup t)) = rep D ref (.tup ws) (some (.tup t)) := by
  have hf : D.fields t = cs := by simp [Decls.fields, hcs]
  have hk1 := fieldsOk_keys h1 hv
  have hk2 := fieldsOk_keys h2 hw
  have hnd := fn t
  rw [hf] at hnd
  have key := fun n c => field_rep (n := n) (c := c) hh ih h1 h2 hv hw
  simp only [Val.pyEq, Bool.and_eq_true, beq_iff_eq, eqFields_iff, rep, SV.record.injEq]
  have hlen : vs.length = ws.length := by
    have := congrArg List.length (hk1.trans hk2.symm)
    simpa using this
  constructor
  · rintro ⟨-, h⟩
    have hall : ∀ n c, cs.find? (·.name == n) = some c → repF D ref vs n = repF D ref ws n := by
      intro n c hc
      obtain ⟨x, y, h3, h4, h5, -⟩ := key n c hc
      obtain ⟨y', h6, h7⟩ := h (n, x) (mem_of_lookup h3)
      rw [h4] at h6
      cases h6
      exact h5.1 h7
    funext k
    cases hk : tupleKey D t k with
    | none => rfl
    | some s =>
      cases k with
      | value n =>
        simp only [tupleKey, hf, Option.map_eq_some_iff] at hk
        obtain ⟨c, hc, -⟩ := hk
        simp only [hall n c hc]
      | valid n =>
        simp only [tupleKey, hf, Option.bind_eq_some_iff] at hk
        obtain ⟨c, hc, -⟩ := hk
        simp only [hall n c hc]
  · intro h
    refine ⟨hlen, fun f hm => ?_⟩
    obtain ⟨n, x⟩ := f
    have hm' : n ∈ cs.map (·.name) := by rw [← hk1]; exact List.mem_map.2 ⟨_, hm, rfl⟩
    obtain ⟨c, hcm, rfl⟩ := List.mem_map.1 hm'
    have hc := find_of_mem hnd hcm
    obtain ⟨x', y, h3, h4, h5, h6⟩ := key c.name c hc
    rw [lookup_of_mem (by rw [hk1]; exact hnd) hm] at h3
    cases h3
    refine ⟨y, h4, h5.2 ?_⟩
    have hval := congrFun h (.value c.name)
    have hkv : tupleKey D t (.value c.name) = some c.ty.srt := by simp [tupleKey, hf, hc]
    rw [hkv] at hval
    simp only at hval
    cases hopt : c.optional with
    | false =>
      obtain ⟨g1, g2⟩ := h6 hopt
      obtain ⟨a, ha⟩ := Option.isSome_iff_exists.1 g1
      obtain ⟨b, hb⟩ := Option.isSome_iff_exists.1 g2
      rw [ha, hb] at hval ⊢
      simpa using hval
    | true =>
      have hvd := congrFun h (.valid c.name)
      have hkd : tupleKey D t (.valid c.name) = some .bool := by simp [tupleKey, hf, hc, hopt]
      rw [hkd] at hvd
      simp only [SV.bool.injEq] at hvd
      cases ha : repF D ref vs c.name <;> cases hb : repF D ref ws c.name <;> rw [ha, hb] at hval hvd
      · simp at hvd
      · simp at hvd
      · simpa using hval

mutual
theorem pyEq_rep (hh : HeapOk D objTy heap) (fn : FieldNames D) (hr : RefOk heap ref) :
    ∀ fe : FExpr, EqClaim D objTy heap ref fe
  | .inull => fun τ v w h => by simp [FOk] at h
  | .bool _ | .int _ | .dec _ | .str _ | .markup _ => fun τ v w h hv hw => by
    have hvt := fok_vt _ τ v h hv
    simp only [FOk] at h
    subst h
    exact vt_eq_simple (by simp) hvt hw
  | .enum _ _ => fun τ v w h hv hw => by
    have hvt := fok_vt _ τ v h hv
    simp only [FOk] at h
    obtain ⟨rfl, -⟩ := h
    exact vt_eq_simple (by simp) hvt hw
  | .neg e | .pos e => fun τ v w h hv hw => by
    have hvt := fok_vt _ τ v h hv
    simp only [FOk] at h
    rcases h with ⟨rfl, -⟩ | ⟨rfl, -⟩ <;> exact vt_eq_simple (by simp) hvt hw
  | .arr t es => fun τ v w h hv hw => by
    simp only [FOk] at h
    obtain ⟨rfl, id, elem, lo, hi, rfl, h⟩ := h
    simp only [FExpr.eval, bind_eq_ok, mkValue_eq_ok, TV.mk.injEq, true_and] at hv
    obtain ⟨vs, h3, -, rfl⟩ := hv
    obtain ⟨es', ws, rfl, h4, h5⟩ := vt_arr hw
    simp only [Val.pyEq, rep, SV.seq.injEq]
    exact eqList_rep hh es es' vs ws (pyEq_reps hh fn hr es) h h4 h3 h5
  | .tup t fs => fun τ v w h hv hw => by
    simp only [FOk] at h
    obtain ⟨rfl, cs, hcs, h⟩ := h
    simp only [FExpr.eval, bind_eq_ok, mkValue_eq_ok, TV.mk.injEq, true_and] at hv
    obtain ⟨vs, h3, -, rfl⟩ := hv
    obtain ⟨fs', ws, cs', rfl, hcs', h4, h5⟩ := vt_tup hw
    rw [hcs] at hcs'
    cases hcs'
    exact tup_rep hh fn hcs (pyEq_repf hh fn hr fs) h h4 h3 h5
  | .ref t target => fun τ v w h hv hw => by
    have hvt := fok_vt _ τ v h hv
    simp only [FOk] at h
    obtain ⟨rfl, o, u, rfl, hu, hrf⟩ := h
    have hc : τ.cls = .record ∨ τ.cls = .union := by
      cases τ <;> simp only [Referable] at hrf <;> simp [Ty.cls]
    exact vt_eq_ref hr hc hc hvt hw

theorem pyEq_reps (hh : HeapOk D objTy heap) (fn : FieldNames D) (hr : RefOk heap ref) :
    ∀ (es : List FExpr), ∀ e ∈ es, EqClaim D objTy heap ref e
  | [], e, h => by simp at h
  | x :: xs, e, h => by
    rcases List.mem_cons.1 h with h' | h'
    · exact h' ▸ pyEq_rep hh fn hr x
    · exact pyEq_reps hh fn hr xs e h'

theorem pyEq_repf (hh : HeapOk D objTy heap) (fn : FieldNames D) (hr : RefOk heap ref) :
    ∀ (fs : List (String × FExpr)), ∀ f ∈ fs, EqClaim D objTy heap ref f.2
  | [], f, h => by simp at h
  | x :: xs, f, h => by
    rcases List.mem_cons.1 h with h' | h'
    · exact h' ▸ pyEq_repg hh fn hr x
    · exact pyEq_repf hh fn hr xs f h'

theorem pyEq_repg (hh : HeapOk D objTy heap) (fn : FieldNames D) (hr : RefOk heap ref) :
    ∀ (f : String × FExpr), EqClaim D objTy heap ref f.2
  | (_, e) => pyEq_rep hh fn hr e
end

/-- values of the same type are equal if and only if their representations are -/
theorem vt_eq (hh : HeapOk D objTy heap) (fn : FieldNames D) (hr : RefOk heap ref) {τ : Ty} {v w : Val}
    (hv : VT D objTy heap τ v) (hw : VT D objTy heap τ w) :
    v.pyEq w = true ↔ rep D ref v (some τ) = rep D ref w (some τ) := by
  have h : (τ = .bool ∨ τ = .int ∨ τ = .dec ∨ τ = .str ∨ τ = .markup ∨ ∃ t, τ = .enum t) ∨
      ∃ fe, FOk D objTy fe τ ∧ fe.eval heap = .ok ⟨some τ, v⟩ := by
    cases τ <;> first
      | exact Or.inr hv
      | exact Or.inl (by simp)
  rcases h with h | ⟨fe, h1, h2⟩
  · exact vt_eq_simple h hv hw
  · exact pyEq_rep hh fn hr fe τ v w h1 h2 hw

end Verif.Lemmas.Vcg
