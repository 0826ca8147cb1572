import Verif.Lemmas.Vcg.Preamble
/-! The interpretation for the components of an object, before any check. -/
namespace Verif.Lemmas.Vcg
open Verif.Model Verif.Spec

/-- the values of the components of an object as far as the analysis depends on them -/
structure Start (W : World) (C : CheckTab) (v : VcgType) (c : List (String × FExpr)) : Prop where
  nodup  : (v.comps.map (·.name)).Nodup
  ctx    : ∀ k ∈ v.comps, ∃ fe, c.lookup k.name = some fe ∧
    ((k.optional = true ∧ fe = .inull) ∨ (FOk W.D W.objTy fe k.ty ∧ Granted C W.env k.ty fe))
  hab    : ∀ k ∈ v.comps, ∃ x, HasSort W.D x k.ty.srt
  poss   : ∀ k ∈ v.comps, c.lookup k.name = some .inull → ∀ xs, compConstraints W.trEnv C k = .ok xs → xs ≠ [] →
    ∃ fe, FOk W.D W.objTy fe k.ty ∧ Granted C W.env k.ty fe
  frozen : ∀ k ∈ v.comps, ∀ e, v.frozen k.name = some e → c.lookup k.name = some e ∧ e ≠ .inull
  tup    : ∀ k ∈ v.comps, ∀ t, k.ty = .tup t → ∀ x ∈ C.ofTup t, x.sev ≠ .warning → Fit W (compΓ (W.D.fields t)) x.expr
  bd     : CtxBounded W.heap c

variable {W : World} {C : CheckTab} {v : VcgType} {c : List (String × FExpr)}

/-- a value for a component -/
def Pick (W : World) (C : CheckTab) (c : List (String × FExpr)) (k : Comp) (x : SV) : Prop :=
  HasSort W.D x k.ty.srt ∧
  (∀ fe v, c.lookup k.name = some fe → fe.eval W.heap = .ok v → v.val.isNull = false → x = W.rp v) ∧
  ∀ I, IOk W I → I.const (.value k.name) = x → ∀ xs, compConstraints W.trEnv C k = .ok xs →
    ∀ y ∈ xs, W.val I zero y = .bool true

theorem Start.pick (h : Start W C v c) {k : Comp} (hk : k ∈ v.comps) : ∃ x, Pick W C c k x := by
  have good : ∀ fe, FOk W.D W.objTy fe k.ty → Granted C W.env k.ty fe → ∃ w, fe.eval W.heap = .ok ⟨some k.ty, w⟩ ∧
      HasSort W.D (W.rp ⟨some k.ty, w⟩) k.ty.srt ∧ ∀ I, IOk W I → I.const (.value k.name) = W.rp ⟨some k.ty, w⟩ →
        ∀ xs, compConstraints W.trEnv C k = .ok xs → ∀ y ∈ xs, W.val I zero y = .bool true := by
    intro fe h1 h2
    obtain ⟨w, h3, -⟩ := fok_eval W.hh fe _ h1
    exact ⟨w, h3, rep_sort W.hh W.hab fe _ w h1 h3, fun I hI hc xs hxs => comp_true hI hxs h1 h2 h3 hc (h.tup k hk)⟩
  obtain ⟨fe, hl, hfe⟩ := h.ctx k hk
  rcases hfe with ⟨-, rfl⟩ | ⟨h1, h2⟩
  · have none : ∀ fe v, c.lookup k.name = some fe → fe.eval W.heap = .ok v → v.val.isNull = false → False := by
      intro fe v h1 h2 h3
      rw [hl] at h1
      cases h1
      simp only [FExpr.eval] at h2
      rw [mkValue_get h2] at h3
      cases h3
    by_cases hx : ∃ xs, compConstraints W.trEnv C k = .ok xs ∧ xs ≠ []
    · obtain ⟨xs, h1, h2⟩ := hx
      obtain ⟨fe, h3, h4⟩ := h.poss k hk hl xs h1 h2
      obtain ⟨w, -, h5, h6⟩ := good fe h3 h4
      exact ⟨_, h5, fun _ _ a b c => absurd (none _ _ a b c) id, h6⟩
    · obtain ⟨x, hs⟩ := h.hab k hk
      refine ⟨x, hs, fun _ _ a b c => absurd (none _ _ a b c) id, fun I hI hc xs hxs y hy => ?_⟩
      exact absurd ⟨xs, hxs, List.ne_nil_of_mem hy⟩ hx
  · obtain ⟨w, h3, h4, h5⟩ := good fe h1 h2
    refine ⟨_, h4, fun fe' v a b _ => ?_, h5⟩
    rw [hl] at a
    cases a
    rw [h3] at b
    cases b
    rfl

open Classical in
/-- the interpretation -/
noncomputable def firstInterp (W : World) (C : CheckTab) (cs : List Comp) (c : List (String × FExpr)) : Interp where
  const
    | .value n =>
      match cs.find? (·.name == n) with
      | some k => if h : ∃ x, Pick W C c k x then h.choose else .bool false
      | none => .bool false
    | .valid n => .bool (decide (∃ fe v, c.lookup n = some fe ∧ fe.eval W.heap = .ok v ∧ v.val.isNull = false))
    | .tmp _ => .bool false
  access := W.access
  rxMatch a b := W.rx b a

theorem first_ok {cs : List Comp} : IOk W (firstInterp W C cs c) := ⟨rfl, fun _ _ => rfl⟩

theorem first_pick (h : Start W C v c) {k : Comp} (hk : k ∈ v.comps) :
    Pick W C c k ((firstInterp W C v.comps c).const (.value k.name)) := by
  have hp := h.pick hk
  simp only [firstInterp, find_of_mem h.nodup hk, dif_pos hp]
  exact hp.choose_spec

theorem first_valid {cs : List Comp} {n : String} {fe : FExpr} {w : TV} (hl : c.lookup n = some fe) (he : fe.eval W.heap = .ok w) :
    (firstInterp W C cs c).const (.valid n) = .bool (!w.val.isNull) := by
  simp only [firstInterp, SV.bool.injEq]
  classical
  rw [Bool.eq_iff_iff]
  refine (@decide_eq_true_iff _ (Classical.propDecidable _)).trans ?_
  constructor
  · rintro ⟨fe', v, h1, h2, h3⟩
    rw [hl] at h1
    cases h1
    rw [he] at h2
    cases h2
    simp [h3]
  · intro h
    exact ⟨fe, w, hl, he, by simpa using h⟩

theorem Start.value (h : Start W C v c) {k : Comp} (hk : k ∈ v.comps) : ∃ fe w, c.lookup k.name = some fe ∧ fe.eval W.heap = .ok w ∧
    (k.optional = false → w.val.isNull = false) ∧ (fe ≠ .inull → FOk W.D W.objTy fe k.ty ∧ w.val.isNull = false) := by
  obtain ⟨fe, hl, hfe⟩ := h.ctx k hk
  rcases hfe with ⟨h1, rfl⟩ | ⟨h1, h2⟩
  · exact ⟨_, ⟨none, .null⟩, hl, by simp [FExpr.eval, mkValue, Val.isNull], by simp [h1], by simp⟩
  · obtain ⟨w, h3, h4⟩ := fok_eval W.hh fe _ h1
    exact ⟨fe, _, hl, h3, fun _ => h4, fun _ => ⟨h1, h4⟩⟩

theorem first_names (h : Start W C v c) : NamesOk W (firstInterp W C v.comps c) zero (compΓ v.comps) (compTrs v.comps) c := by
  intro n x hx
  simp only [compTrs, Option.map_eq_some_iff] at hx
  obtain ⟨k, hk, rfl⟩ := hx
  obtain ⟨hm, rfl⟩ := find_mem hk
  refine ⟨⟨k.optional, by simp [compΓ, hk]⟩, ?_⟩
  obtain ⟨fe, w, h1, h2, -⟩ := h.value hm
  refine ⟨fe, w, h1, h2, ?_, fun hn => ⟨_, rfl, ?_⟩⟩
  · simp only [World.val, Verif.Spec.value]
    exact first_valid h1 h2
  · simp only [World.val, Verif.Spec.value]
    exact (first_pick h hm).2.1 fe w h1 h2 hn

theorem first_stmts (h : Start W C v c) {k : Comp} (hk : k ∈ v.comps) {ss : List SStmt}
    (hs : componentStmts W.trEnv C v.frozen k = .ok ss) :
    ∀ st ∈ ss, Agrees W.D (firstInterp W C v.comps c) st ∧ sbelow 0 st := by
  simp only [componentStmts, fr_bind, FR.ok.injEq] at hs
  obtain ⟨o, ho, xs, hxs, rfl⟩ := hs
  obtain ⟨p1, p2, p3⟩ := first_pick h hk
  obtain ⟨fe, w, h1, h2, h3, h4⟩ := h.value hk
  intro st hst
  simp only [List.cons_append, List.mem_cons, List.mem_append, List.mem_map, List.not_mem_nil, or_false] at hst
  rcases hst with rfl | ⟨x, hx, rfl⟩ | rfl
  · cases hf : v.frozen k.name with
    | none =>
      simp only [frozenValue, hf, FR.ok.injEq] at ho
      subst ho
      exact ⟨p1, trivial⟩
    | some e =>
      simp only [frozenValue, hf, fr_bind, FR.ok.injEq] at ho
      obtain ⟨a, ha, rfl⟩ := ho
      obtain ⟨g1, g2⟩ := h.frozen k hk e hf
      rw [h1] at g1
      cases g1
      obtain ⟨g3, g4⟩ := h4 g2
      obtain ⟨g5, g6⟩ := frozen_value (I := firstInterp W C v.comps c) g3 h2 ha
      exact ⟨by rw [Agrees, g5]; exact p2 _ _ h1 h2 g4, g6⟩
  · have := p3 _ first_ok rfl xs hxs x hx
    simp only [World.val] at this
    exact ⟨by simp only [Agrees, value₀]; rw [this]; rfl, comp_below hxs x hx⟩
  · split
    · exact ⟨by simp only [Agrees]; rw [first_valid h1 h2]; simp [HasSort], trivial⟩
    · next hc =>
      refine ⟨?_, trivial⟩
      simp only [Agrees]
      rw [first_valid h1 h2]
      have : w.val.isNull = false := by
        by_cases ho : k.optional = true
        · cases hf : v.frozen k.name with
          | none => exact absurd ⟨ho, hf⟩ hc
          | some e =>
            obtain ⟨g1, g2⟩ := h.frozen k hk e hf
            rw [h1] at g1
            cases g1
            exact (h4 g2).2
        · exact h3 (by simpa using ho)
      simp [this, value₀, Verif.Spec.value]

theorem first_preamble (h : Start W C v c) : ∀ {cs : List Comp} {ss : List SStmt}, (∀ k ∈ cs, k ∈ v.comps) →
    preamble W.trEnv C v.frozen cs = .ok ss → ∀ st ∈ ss, Agrees W.D (firstInterp W C v.comps c) st ∧ sbelow 0 st
  | [], ss, _, hs => by
    simp only [preamble, FR.ok.injEq] at hs
    subst hs
    simp
  | k :: cs, ss, hm, hs => by
    simp only [preamble, fr_bind, FR.ok.injEq] at hs
    obtain ⟨xs, hxs, ys, hys, rfl⟩ := hs
    intro st hst
    rcases List.mem_append.1 hst with hst | hst
    · exact first_stmts h (hm k List.mem_cons_self) hxs st hst
    · exact first_preamble h (fun k hk => hm k (List.mem_cons_of_mem _ hk)) hys st hst

theorem Start.ctxOk (h : Start W C v c) : CtxOk W.D W.objTy (compΓ v.comps) c := by
  intro n ty b hn
  simp only [compΓ, Option.map_eq_some_iff, Prod.mk.injEq] at hn
  obtain ⟨k, hk, rfl, rfl⟩ := hn
  obtain ⟨hm, rfl⟩ := find_mem hk
  obtain ⟨fe, h1, h2⟩ := h.ctx k hm
  exact ⟨fe, h1, h2.imp id (·.1)⟩

theorem compTrs_below {cs : List Comp} {n : Nat} : NBelow n (compTrs cs) := by
  intro m x hx
  simp only [compTrs, Option.map_eq_some_iff] at hx
  obtain ⟨k, -, rfl⟩ := hx
  exact ⟨trivial, trivial⟩

/-- the situation before the first check -/
theorem Start.sit (h : Start W C v c) {ss : List SStmt} (hs : preamble W.trEnv C v.frozen v.comps = .ok ss) {G : TS}
    (hl : Le (att TS.empty ss) G) :
    Sit W G (firstInterp W C v.comps c) (att TS.empty ss) (compΓ v.comps) (compTrs v.comps) c := by
  refine ⟨att_ok _ _, ?_, first_ok, compTrs_below, first_names h, h.ctxOk, h.bd⟩
  refine live_att ?_ hl (first_preamble h (fun _ h => h) hs)
  exact ⟨[], [], .start, prefix_get hl.nodes (by simp [TS.empty, att]), by simp⟩

end Verif.Lemmas.Vcg
