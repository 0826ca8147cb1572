import Verif.Lemmas.Vcg.Functional
/-! Values of expressions are within the bounds of their types. -/
namespace Verif.Lemmas.Vcg
open Verif.Model Verif.Spec

variable {W : World}

/-- the values of a context are within their bounds -/
def CtxBounded (heap : Nat → Option Fields) (c : List (String × FExpr)) : Prop := ∀ n fe, c.lookup n = some fe → InBounds heap fe

theorem boundedL_mem {es : List (Option Ty × Val)} (h : BoundedL es) : ∀ x ∈ es, Bounded x.2 x.1 := by
  induction es with
  | nil => simp
  | cons e es ih =>
    obtain ⟨t, v⟩ := e
    simp only [BoundedL, BoundedT] at h
    intro x hx
    rcases List.mem_cons.1 hx with rfl | hx
    · exact h.1
    · exact ih h.2 x hx

theorem boundedF_lookup {fs : List (String × Option Ty × Val)} (h : BoundedF fs) {n : String} {x : Option Ty × Val}
    (hx : fs.lookup n = some x) : Bounded x.2 x.1 := by
  have hm := mem_of_lookup hx
  clear hx
  induction fs with
  | nil => simp at hm
  | cons e es ih =>
    obtain ⟨k, t, v⟩ := e
    simp only [BoundedF, BoundedG] at h
    rcases List.mem_cons.1 hm with he | he
    · cases he; exact h.1
    · exact ih h.2 he

theorem bounded_simple {τ : Ty} {v : Val} {t : Option Ty} (h : VT W.D W.objTy W.heap τ v)
    (hτ : (∀ id e lo hi, τ ≠ .arr id e lo hi) ∧ ∀ n, τ ≠ .tup n) : Bounded v t := by
  cases τ <;> simp only [VT] at h
  case arr => exact absurd rfl (hτ.1 _ _ _ _)
  case tup => exact absurd rfl (hτ.2 _)
  case record | union =>
    obtain ⟨fe, h1, h2⟩ := h
    cases fe <;> simp only [FOk, reduceCtorEq, false_and] at h1
    · rcases h1 with ⟨h, -⟩ | ⟨h, -⟩ <;> cases h
    · rcases h1 with ⟨h, -⟩ | ⟨h, -⟩ <;> cases h
    · obtain ⟨h, id, e, lo, hi, h', -⟩ := h1
      rw [← h] at h'; cases h'
    · obtain ⟨-, o, u, rfl, h3, -⟩ := h1
      simp only [FExpr.eval] at h2
      split at h2
      · cases h2
      · have := mkValue_get h2
        cases this
        simp [Bounded]
  all_goals
    obtain ⟨b, rfl⟩ := h
    simp [Bounded]

mutual
theorem eval_bounded (hb : HeapInBounds W.heap) : ∀ (e : Expr) (Γ : Gamma) (c : List (String × FExpr)) (v : TV),
    Expr.eval W.env (some c) e = .ok v → WT W.D W.rx Γ e → Side W.D True True Γ e → CtxOk W.D W.objTy Γ c →
    CtxBounded W.heap c → Bounded v.val v.typ
  | .name n t, Γ, c, v, h, hw, hs, hc, hk => by
    simp only [Expr.eval] at h
    split at h
    · cases h
    · next fe hfe => exact hk n fe hfe v h
  | .field p n t, Γ, c, v, h, hw, hs, hc, hk => by
    rw [eval_field] at h
    obtain ⟨w, h1, h2⟩ := bind_eq_ok.1 h
    simp only [WT] at hw
    simp only [Side] at hs
    have ih := eval_bounded hb p Γ c w h1 hw.1 hs.1 hc hk
    have hg := sound (ai := True) (aq := True) W.wf W.un W.hh W.rx p Γ c hw.1 hs.1 hc
    rw [show Expr.eval ⟨W.heap, W.rx⟩ (some c) p = .ok w from h1] at hg
    unfold fieldEval at h2
    split at h2
    · cases h2
    · next fs hfs =>
      rw [hfs] at ih
      simp only [Bounded] at ih
      split at h2
      · have := mkValue_get h2; subst this; simp [Bounded]
      · next x hx => cases h2; exact boundedF_lookup ih hx
    · next fs hfs =>
      split at h2
      · have := mkValue_get h2; subst this; simp [Bounded]
      · next x hx =>
        have hn : w.val.isNull = false := by rw [hfs]; rfl
        obtain ⟨τ, -, -, t3⟩ := tvok_solid hg.1 hn
        rw [hfs] at t3
        have : ∃ o, W.heap o = some fs := by
          cases τ <;> simp only [VT, reduceCtorEq, exists_false] at t3
          all_goals
            obtain ⟨fe, h1, h2⟩ := t3
            cases fe <;> simp only [FOk, reduceCtorEq, false_and] at h1
            all_goals first
              | (rcases h1 with ⟨h, -⟩ | ⟨h, -⟩ <;> cases h; done)
              | (simp only [FExpr.eval, bind_eq_ok] at h2
                 obtain ⟨vs, -, h2⟩ := h2
                 have := mkValue_get h2
                 cases this; done)
              | (obtain ⟨-, o, u, rfl, h3, -⟩ := h1
                 simp only [FExpr.eval] at h2
                 split at h2
                 · cases h2
                 · next fs' hfs' =>
                   have := mkValue_get h2
                   cases this
                   exact ⟨o, hfs'⟩)
        obtain ⟨o, ho⟩ := this
        exact hb o fs ho (n, x) (mem_of_lookup hx) v h2
    · cases h2
  | .cond t as, Γ, c, v, h, hw, hs, hc, hk => by
    simp only [Expr.eval] at h
    simp only [WT] at hw
    simp only [Side] at hs
    exact acts_bounded hb as Γ c t v h hw hs hc hk
  | .binary t op l r, Γ, c, v, h, hw, hs, hc, hk => by
    by_cases hop : op = .index
    · subst hop
      simp only [WT] at hw
      simp only [Side] at hs
      simp only [Expr.eval, BinOp.allowsNull, Bool.not_false, Bool.and_true] at h
      obtain ⟨vl, h1, h⟩ := bind_eq_ok.1 h
      split at h
      · cases h
      next n1 =>
      obtain ⟨vr, h2, h⟩ := bind_eq_ok.1 h
      split at h
      · cases h
      next n2 =>
      have ih := eval_bounded hb l Γ c vl h1 hw.1 hs.1 hc hk
      have hg := sound (ai := True) (aq := True) W.wf W.un W.hh W.rx l Γ c hw.1 hs.1 hc
      rw [show Expr.eval ⟨W.heap, W.rx⟩ (some c) l = .ok vl from h1] at hg
      simp only [binaryOp, indexOp] at h
      split at h
      · next es i hes hi =>
        split at h
        · next id elem lo hi' hty =>
          split at h; · cases h
          split at h; · cases h
          split at h; · cases h
          split at h
          · cases h
          · next x hx =>
            have := mkValue_get h
            subst this
            obtain ⟨τ, t1, t2, t3⟩ := tvok_solid hg.1 (by simpa using n1)
            rw [hes] at ih t3
            rw [hty] at t2; cases t2
            simp only [Bounded] at ih
            have hm := List.mem_of_getElem? hx
            have := boundedL_mem ih.2 x hm
            have he := arr_elem t3 x hm
            obtain ⟨⟨id', e', lo', hi'', g1, g2⟩, -⟩ := hw.2.2.1
            rw [t1] at g1; cases g1
            rw [g2, ← he.1]
            exact this
        · cases h
      · cases h
    · have hg := sound (ai := True) (aq := True) W.wf W.un W.hh W.rx _ Γ c hw hs hc
      rw [show Expr.eval ⟨W.heap, W.rx⟩ (some c) (.binary t op l r) = .ok v from h] at hg
      rcases hg.1 with rfl | ⟨τ, t1, t2, -, t4⟩
      · simp [Bounded]
      · simp only [Expr.typ] at t1
        simp only [WT] at hw
        have := hw.2.2.1
        refine bounded_simple t4 ?_
        subst t1
        cases op <;> simp only [binOk] at this <;> first
          | exact absurd rfl hop
          | skip
        all_goals
          first
          | (rcases this with ⟨h1 | h1, -, h3⟩ | ⟨-, -, h3⟩ <;> simp_all; done)
          | (rcases this with ⟨h1 | h1, -, h3⟩ <;> simp_all; done)
          | simp_all
  | .null, Γ, c, v, h, hw, hs, hc, hk | .bool _, Γ, c, v, h, hw, hs, hc, hk | .int _, Γ, c, v, h, hw, hs, hc, hk
  | .dec _, Γ, c, v, h, hw, hs, hc, hk | .str _, Γ, c, v, h, hw, hs, hc, hk | .enum _ _, Γ, c, v, h, hw, hs, hc, hk => by
    simp only [Expr.eval] at h
    have := mkValue_get h; subst this; simp [Bounded]
  | .unary t op e, Γ, c, v, h, hw, hs, hc, hk => by
    have hg := sound (ai := True) (aq := True) W.wf W.un W.hh W.rx _ Γ c hw hs hc
    rw [show Expr.eval ⟨W.heap, W.rx⟩ (some c) (.unary t op e) = .ok v from h] at hg
    rcases hg.1 with rfl | ⟨τ, t1, t2, -, t4⟩
    · simp [Bounded]
    · simp only [Expr.typ] at t1
      simp only [WT] at hw
      have := hw.2
      refine bounded_simple t4 ?_
      subst t1
      cases op <;> simp only [unOk] at this
      all_goals
        first
        | (rcases this with ⟨h1 | h1, h3⟩ <;> simp_all; done)
        | simp_all
  | .logic op l r, Γ, c, v, h, hw, hs, hc, hk => by
    have hg := sound (ai := True) (aq := True) W.wf W.un W.hh W.rx _ Γ c hw hs hc
    rw [show Expr.eval ⟨W.heap, W.rx⟩ (some c) (.logic op l r) = .ok v from h] at hg
    rcases hg.1 with rfl | ⟨τ, t1, t2, -, t4⟩
    · simp [Bounded]
    · simp only [Expr.typ] at t1
      cases t1
      exact bounded_simple t4 (by simp)
  | .range a b d, Γ, c, v, h, hw, hs, hc, hk => by
    have hg := sound (ai := True) (aq := True) W.wf W.un W.hh W.rx _ Γ c hw hs hc
    rw [show Expr.eval ⟨W.heap, W.rx⟩ (some c) (.range a b d) = .ok v from h] at hg
    rcases hg.1 with rfl | ⟨τ, t1, t2, -, t4⟩
    · simp [Bounded]
    · simp only [Expr.typ] at t1
      cases t1
      exact bounded_simple t4 (by simp)
  | .oneof cs, Γ, c, v, h, hw, hs, hc, hk => by
    have hg := sound (ai := True) (aq := True) W.wf W.un W.hh W.rx _ Γ c hw hs hc
    rw [show Expr.eval ⟨W.heap, W.rx⟩ (some c) (.oneof cs) = .ok v from h] at hg
    rcases hg.1 with rfl | ⟨τ, t1, t2, -, t4⟩
    · simp [Bounded]
    · simp only [Expr.typ] at t1
      cases t1
      exact bounded_simple t4 (by simp)
  | .quant u x src body, Γ, c, v, h, hw, hs, hc, hk => by
    have hg := sound (ai := True) (aq := True) W.wf W.un W.hh W.rx _ Γ c hw hs hc
    rw [show Expr.eval ⟨W.heap, W.rx⟩ (some c) (.quant u x src body) = .ok v from h] at hg
    rcases hg.1 with rfl | ⟨τ, t1, t2, -, t4⟩
    · simp [Bounded]
    · simp only [Expr.typ] at t1
      cases t1
      exact bounded_simple t4 (by simp)
theorem acts_bounded (hb : HeapInBounds W.heap) : ∀ (as : Acts) (Γ : Gamma) (c : List (String × FExpr)) (t : Ty) (v : TV),
    Acts.eval W.env (some c) as = .ok v → WTa W.D W.rx Γ t as → SideA W.D True True Γ as → CtxOk W.D W.objTy Γ c →
    CtxBounded W.heap c → Bounded v.val v.typ
  | .els e, Γ, c, t, v, h, hw, hs, hc, hk => by
    simp only [Acts.eval] at h
    simp only [WTa] at hw
    simp only [SideA] at hs
    exact eval_bounded hb e Γ c v h hw.1 hs hc hk
  | .act k e rest, Γ, c, t, v, h, hw, hs, hc, hk => by
    simp only [Acts.eval] at h
    simp only [WTa] at hw
    simp only [SideA] at hs
    obtain ⟨w1, w2, w3, w4, w5⟩ := hw
    obtain ⟨vk, h1, h⟩ := bind_eq_ok.1 h
    split at h
    · cases h
    · split at h
      · split at h
        · exact eval_bounded hb e Γ c v h w3 hs.2.1 hc hk
        · exact acts_bounded hb rest Γ c t v h w5 hs.2.2 hc hk
      · cases h
end

/-- inside a bounded array, an index below the length is within the declared bound -/
theorem index_ok {t : Option Ty} {id : Nat} {elem : Ty} {lo : Nat} {hi : Option Nat} {es : List (Option Ty × Val)} {i : Int}
    (hb : Bounded (.arr es) (some (.arr id elem lo hi)))
    (ht : t.isNone = false) (hx : ∀ x ∈ es, x.2.isNull = false) (h0 : 0 ≤ i) (h1 : i < es.length) :
    ∃ x ∈ es, es[i.toNat]? = some x ∧ indexOp t (some (.arr id elem lo hi)) (.arr es) (.int i) = .ok ⟨t, x.2⟩ := by
  have hlt : i.toNat < es.length := by omega
  refine ⟨es[i.toNat], List.getElem_mem hlt, List.getElem?_eq_getElem hlt, ?_⟩
  simp only [indexOp]
  rw [if_neg (by omega)]
  have hu : hi.any (fun (u : Nat) => decide ((u : Int) < i)) = false := by
    cases hi with
    | none => rfl
    | some u =>
      simp only [Bounded] at hb
      have := hb.1 id elem lo u rfl
      simp only [Option.any_some, decide_eq_false_iff_not]
      omega
  rw [hu]
  simp only [Bool.false_eq_true, if_false]
  rw [if_neg (by omega), List.getElem?_eq_getElem hlt]
  simp [mkValue, ht, hx _ (List.getElem_mem hlt)]

end Verif.Lemmas.Vcg
