import Verif.Lemmas.Vcg.World
import Verif.Spec.TypeRules
/-! Terms made for operators mean what the operators compute. -/
namespace Verif.Lemmas.Vcg
open Verif.Model Verif.Spec

/-- the value of a term in a world's declarations -/
noncomputable abbrev World.val (W : World) (I : Interp) (β : Nat → Int) (a : Smt) : SV := value W.D I β a

/-- value and validity stand for a value -/
def Repr (W : World) (I : Interp) (β : Nat → Int) (p : TrPair) (v : TV) : Prop :=
  W.val I β p.2 = .bool (!v.val.isNull) ∧
    (v.val.isNull = false → ∃ a, p.1 = some a ∧ W.val I β a = W.rp v)

variable {W : World} {I : Interp} {β : Nat → Int}

theorem conj_value : ∀ (ps : List Smt) (bs : List Bool), ps.map (W.val I β) = bs.map .bool →
    W.val I β (conjTerm ps) = .bool (bs.all id)
  | [], bs, h => by
    cases bs with
    | nil => simp [conjTerm, value]
    | cons => simp at h
  | p :: ps, [], h => by simp at h
  | p :: ps, b :: bs, h => by
    simp only [List.map_cons, List.cons.injEq] at h
    simp only [conjTerm, List.all_cons, id]
    have gen : ∀ (ps : List Smt) (bs : List Bool) (q : Smt) (c : Bool), W.val I β q = .bool c →
        ps.map (W.val I β) = bs.map .bool →
        W.val I β (ps.foldl (fun a b => .bin .and a b) q) = .bool (c && bs.all id) := by
      intro ps
      induction ps with
      | nil =>
        intro bs q c hq h
        cases bs with
        | nil => simpa using hq
        | cons => simp at h
      | cons p ps ih =>
        intro bs q c hq h
        cases bs with
        | nil => simp at h
        | cons b bs =>
          simp only [List.map_cons, List.cons.injEq] at h
          rw [List.foldl_cons, ih bs _ (c && b) ?_ h.2]
          · simp [Bool.and_assoc]
          · simp only [World.val] at hq h
            simp [World.val, value, binSem, hq, h.1, SV.asBool]
    exact gen ps bs p b h.1 h.2

/-- equal representations of tuples: equal representations of all fields -/
theorem tup_rep_fields {D : Decls} {objTy : Nat → Option Nat} {heap : Nat → Option Fields} {ref : Fields → Int}
    (hh : HeapOk D objTy heap) (fn : FieldNames D) (hr : RefOk heap ref) {t : Nat} {cs : List Comp}
    (hcs : D.tups[t]? = some cs) {fs fs' : List (String × FExpr)}
    {vs ws : List (String × Option Ty × Val)}
    (h1 : FieldsOk D objTy fs cs) (h2 : FieldsOk D objTy fs' cs) (hv : evalFields heap fs = .ok vs)
    (hw : evalFields heap fs' = .ok ws) :
    rep D ref (.tup vs) (some (.tup t)) = rep D ref (.tup ws) (some (.tup t)) ↔
      ∀ c ∈ cs, repF D ref vs c.name = repF D ref ws c.name := by
  have hf : D.fields t = cs := by simp [Decls.fields, hcs]
  have hnd := fn t
  rw [hf] at hnd
  constructor
  · intro h c hcm
    have hc := find_of_mem hnd hcm
    rw [← tup_rep hh fn hcs (fun f _ => pyEq_rep hh fn hr f.2) h1 h2 hv hw] at h
    obtain ⟨x, y, h3, h4, h5, -⟩ := field_rep hh (fun f _ => pyEq_rep hh fn hr f.2) h1 h2 hv hw hc
    simp only [Val.pyEq, Bool.and_eq_true, beq_iff_eq, eqFields_iff] at h
    obtain ⟨y', h6, h7⟩ := h.2 (c.name, x) (mem_of_lookup h3)
    rw [h4] at h6
    cases h6
    exact h5.1 h7
  · intro h
    simp only [rep, SV.record.injEq]
    funext k
    cases hk : tupleKey D t k with
    | none => rfl
    | some s =>
      cases k with
      | value n =>
        simp only [tupleKey, hf, Option.map_eq_some_iff] at hk
        obtain ⟨c, hc, -⟩ := hk
        obtain ⟨hm, rfl⟩ := find_mem hc
        simp only [h c hm]
      | valid n =>
        simp only [tupleKey, hf, Option.bind_eq_some_iff] at hk
        obtain ⟨c, hc, -⟩ := hk
        obtain ⟨hm, rfl⟩ := find_mem hc
        simp only [h c hm]

/-- the field of a tuple value: null, or a value of the type of the field -/
theorem repF_cases {D : Decls} {objTy : Nat → Option Nat} {heap : Nat → Option Fields} {ref : Fields → Int}
    (hh : HeapOk D objTy heap) {cs : List Comp} {fs : List (String × FExpr)}
    {vs : List (String × Option Ty × Val)} (h1 : FieldsOk D objTy fs cs) (hv : evalFields heap fs = .ok vs)
    {n : String} {c : Comp} (hc : cs.find? (·.name == n) = some c) :
    (vs.lookup n = some (none, .null) ∧ repF D ref vs n = none ∧ c.optional = true) ∨
      ∃ v, vs.lookup n = some (some c.ty, v) ∧ v.isNull = false ∧ repF D ref vs n = some (rep D ref v (some c.ty)) ∧
        VT D objTy heap c.ty v := by
  obtain ⟨e, hm, hl, ho⟩ := fieldsOk_lookup h1 hc
  rcases evalFields_lookup hv n with ⟨h, -⟩ | ⟨a, x, -, h3, h4, h5⟩
  · rw [hl] at h; cases h
  rw [hl] at h3
  cases h3
  rcases ho with ⟨hopt, rfl⟩ | ho
  · rw [eval_inull] at h4
    cases h4
    exact Or.inl ⟨h5, by rw [repF_lookup, h5]; rfl, hopt⟩
  · obtain ⟨t, hn⟩ := fok_typ hh ho h4
    rw [t] at h4 h5
    refine Or.inr ⟨x.val, h5, hn, ?_, fok_vt e c.ty x.val ho h4⟩
    rw [repF_lookup, h5]
    simp [hn]

open Classical in
/-- `tr_core_equality` decides whether two representations are equal -/
theorem coreEq_value : ∀ (fuel : Nat) (τ : Ty) (a b : Smt) (v w : Val), VT W.D W.objTy W.heap τ v →
    VT W.D W.objTy W.heap τ w → W.val I β a = rep W.D W.ref v (some τ) → W.val I β b = rep W.D W.ref w (some τ) →
    W.val I β (coreEq W.D fuel τ a b) = .bool (decide (rep W.D W.ref v (some τ) = rep W.D W.ref w (some τ)))
  | 0, τ, a, b, v, w, hv, hw, ha, hb => by
    simp only [World.val] at ha hb
    simp [coreEq, World.val, value, binSem, ha, hb]
  | fuel + 1, τ, a, b, v, w, hv, hw, ha, hb => by
    by_cases ht : ∃ t, τ = .tup t
    · obtain ⟨t, rfl⟩ := ht
      obtain ⟨fs, vs, cs, rfl, hcs, h1, h2⟩ := vt_tup hv
      obtain ⟨fs', ws, cs', rfl, hcs', h1', h2'⟩ := vt_tup hw
      rw [hcs] at hcs'
      cases hcs'
      have hf : W.D.fields t = cs := by simp [Decls.fields, hcs]
      have hnd := W.fn t
      rw [hf] at hnd
      have key := tup_rep_fields W.hh W.fn W.hr hcs h1 h1' h2 h2'
      simp only [coreEq, hf]
      rw [conj_value (bs := cs.map fun c => decide (repF W.D W.ref vs c.name = repF W.D W.ref ws c.name))]
      · congr 1
        rw [Bool.eq_iff_iff, decide_eq_true_iff, key]
        simp
      · rw [List.map_map, List.map_map]
        apply List.map_congr_left
        intro c hcm
        have hc := find_of_mem hnd hcm
        simp only [Function.comp]
        have hkv : tupleKey W.D t (.value c.name) = some c.ty.srt := by simp [tupleKey, hf, hc]
        have fa : W.val I β (.field a (.value c.name)) = (repF W.D W.ref vs c.name).getD (someOf W.D c.ty.srt) := by
          simp only [World.val] at ha
          simp only [World.val, value, ha, rep, hkv]
        have fb : W.val I β (.field b (.value c.name)) = (repF W.D W.ref ws c.name).getD (someOf W.D c.ty.srt) := by
          simp only [World.val] at hb
          simp only [World.val, value, hb, rep, hkv]
        have main : ∀ x y, repF W.D W.ref vs c.name = some x → repF W.D W.ref ws c.name = some y →
            W.val I β (coreEq W.D fuel c.ty (.field a (.value c.name)) (.field b (.value c.name))) =
              .bool (decide (some x = some y)) := by
          intro x y hx hy
          rcases repF_cases (ref := W.ref) W.hh h1 h2 hc with ⟨-, h, -⟩ | ⟨v', -, -, h3, h4⟩
          · rw [hx] at h; cases h
          rcases repF_cases (ref := W.ref) W.hh h1' h2' hc with ⟨-, h, -⟩ | ⟨w', -, -, h5, h6⟩
          · rw [hy] at h; cases h
          have := coreEq_value fuel c.ty (.field a (.value c.name)) (.field b (.value c.name)) v' w' h4 h6
            (by rw [fa, h3]; rfl) (by rw [fb, h5]; rfl)
          rw [this]
          rw [h3] at hx
          rw [h5] at hy
          cases hx
          cases hy
          simp
        cases hopt : c.optional with
        | false =>
          simp only [Bool.false_eq_true, if_false]
          rcases repF_cases (ref := W.ref) W.hh h1 h2 hc with ⟨-, -, h⟩ | ⟨v', -, -, h3, h4⟩
          · rw [hopt] at h; cases h
          rcases repF_cases (ref := W.ref) W.hh h1' h2' hc with ⟨-, -, h⟩ | ⟨w', -, -, h5, h6⟩
          · rw [hopt] at h; cases h
          rw [main _ _ h3 h5, h3, h5]
        | true =>
          simp only [if_true]
          have hkd : tupleKey W.D t (.valid c.name) = some .bool := by simp [tupleKey, hf, hc, hopt]
          have ga : value W.D I β (.field a (.valid c.name)) = .bool (repF W.D W.ref vs c.name).isSome := by
            simp only [World.val] at ha
            simp only [value, ha, rep, hkd]
          have gb : value W.D I β (.field b (.valid c.name)) = .bool (repF W.D W.ref ws c.name).isSome := by
            simp only [World.val] at hb
            simp only [value, hb, rep, hkd]
          have e1 : ∀ x : Smt, W.val I β (.bin .and (.bin .eq (.field a (.valid c.name)) (.field b (.valid c.name)))
              (.bin .imp (.field a (.valid c.name)) x)) =
              .bool (decide ((repF W.D W.ref vs c.name).isSome = (repF W.D W.ref ws c.name).isSome) &&
                (!(repF W.D W.ref vs c.name).isSome || (value W.D I β x).asBool)) := by
            intro x
            have u1 : ∀ x y : Smt, value W.D I β (.bin .and x y) = binSem .and (value W.D I β x) (value W.D I β y) := fun _ _ => rfl
            have u2 : ∀ x y : Smt, value W.D I β (.bin .eq x y) = binSem .eq (value W.D I β x) (value W.D I β y) := fun _ _ => rfl
            have u3 : ∀ x y : Smt, value W.D I β (.bin .imp x y) = binSem .imp (value W.D I β x) (value W.D I β y) := fun _ _ => rfl
            simp only [World.val]
            rw [u1, u2, u3, ga, gb]
            simp [binSem, SV.asBool]
          rw [e1]
          cases hx : repF W.D W.ref vs c.name <;> cases hy : repF W.D W.ref ws c.name
          · simp
          · simp
          · simp
          · have := main _ _ hx hy
            simp only [World.val] at this
            rw [this]
            simp [SV.asBool]
    · have : coreEq W.D (fuel + 1) τ a b = .bin .eq a b := by
        cases τ <;> first | rfl | exact absurd ⟨_, rfl⟩ ht
      rw [this]
      simp only [World.val] at ha hb
      simp [World.val, value, binSem, ha, hb]

end Verif.Lemmas.Vcg
