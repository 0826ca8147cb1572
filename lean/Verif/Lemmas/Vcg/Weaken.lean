import Verif.Lemmas.Vcg.Order
/-! Expressions stay well-typed with more names in scope. -/
namespace Verif.Lemmas.Vcg
open Verif.Model Verif.Spec

/-- more names -/
def Wider (Γ Γ' : Gamma) : Prop := ∀ n x, Γ n = some x → Γ' n = some x

theorem Wider.bind {Γ Γ' : Gamma} (h : Wider Γ Γ') (x : String) (t : Ty) : Wider (Γ.bind x t) (Γ'.bind x t) := by
  intro n y hy
  simp only [Gamma.bind] at hy ⊢
  split at hy
  · next e => rw [if_pos e]; exact hy
  · next e => rw [if_neg e]; exact h n y hy

variable {D : Decls} {rx : List Char → List Char → Bool}

mutual
theorem wt_wider : ∀ (e : Expr) {Γ Γ' : Gamma}, Wider Γ Γ' → WT D rx Γ e → WT D rx Γ' e ∧ (Side D True True Γ e → Side D True True Γ' e)
  | .null, _, _, _, _ | .bool _, _, _, _, _ | .int _, _, _, _, _ | .dec _, _, _, _, _ | .str _, _, _, _, _ | .enum _ _, _, _, _, _ => by
    simp [WT, Side]
  | .name n t, _, _, hw, h => by
    simp only [WT] at h ⊢
    obtain ⟨b, h⟩ := h
    exact ⟨⟨b, hw n _ h⟩, by simp [Side]⟩
  | .unary _ _ e, _, _, hw, h => by
    simp only [WT, Side] at h ⊢
    exact ⟨⟨(wt_wider e hw h.1).1, h.2⟩, (wt_wider e hw h.1).2⟩
  | .binary _ _ l r, _, _, hw, h => by
    simp only [WT, Side] at h ⊢
    exact ⟨⟨(wt_wider l hw h.1).1, (wt_wider r hw h.2.1).1, h.2.2⟩,
      fun g => ⟨(wt_wider l hw h.1).2 g.1, (wt_wider r hw h.2.1).2 g.2.1, g.2.2⟩⟩
  | .logic _ l r, _, _, hw, h => by
    simp only [WT, Side] at h ⊢
    exact ⟨⟨(wt_wider l hw h.1).1, (wt_wider r hw h.2.1).1, h.2.2⟩,
      fun g => ⟨(wt_wider l hw h.1).2 g.1, (wt_wider r hw h.2.1).2 g.2⟩⟩
  | .field p n ty, _, _, hw, h => by
    simp only [WT, Side] at h ⊢
    exact ⟨⟨(wt_wider p hw h.1).1, h.2⟩, fun g => ⟨(wt_wider p hw h.1).2 g.1, g.2⟩⟩
  | .range e lo up, _, _, hw, h => by
    simp only [WT, Side] at h ⊢
    exact ⟨⟨(wt_wider e hw h.1).1, (wt_wider lo hw h.2.1).1, (wt_wider up hw h.2.2.1).1, h.2.2.2⟩,
      fun g => ⟨(wt_wider e hw h.1).2 g.1, (wt_wider lo hw h.2.1).2 g.2.1, (wt_wider up hw h.2.2.1).2 g.2.2⟩⟩
  | .oneof cs, _, _, hw, h => by
    simp only [WT, Side] at h ⊢
    exact wts_wider cs hw h
  | .cond t as, _, _, hw, h => by
    simp only [WT, Side] at h ⊢
    exact wta_wider as hw h
  | .quant u x src body, Γ, Γ', hw, h => by
    simp only [WT, Side] at h ⊢
    obtain ⟨⟨id, elem, lo, hi, b, h1, h2⟩, h3⟩ := h
    have ih := wt_wider body (hw.bind x elem) h2
    refine ⟨⟨⟨id, elem, lo, hi, b, hw _ _ h1, ih.1⟩, h3⟩, fun g id' elem' lo' hi' b' h' => ?_⟩
    rw [hw _ _ h1] at h'
    simp only [Option.some.injEq, Prod.mk.injEq, Ty.arr.injEq] at h'
    obtain ⟨⟨rfl, rfl, rfl, rfl⟩, rfl⟩ := h'
    exact ⟨ih.2 (g _ _ _ _ _ h1).1, .inl trivial⟩
theorem wts_wider : ∀ (es : Exprs) {Γ Γ' : Gamma}, Wider Γ Γ' → WTs D rx Γ es → WTs D rx Γ' es ∧ (Sides D True True Γ es → Sides D True True Γ' es)
  | .nil, _, _, _, _ => by simp [WTs, Sides]
  | .cons e es, _, _, hw, h => by
    simp only [WTs, Sides] at h ⊢
    exact ⟨⟨(wt_wider e hw h.1).1, (wts_wider es hw h.2).1⟩, fun g => ⟨(wt_wider e hw h.1).2 g.1, (wts_wider es hw h.2).2 g.2⟩⟩
theorem wta_wider {t : Ty} : ∀ (as : Acts) {Γ Γ' : Gamma}, Wider Γ Γ' → WTa D rx Γ t as →
    WTa D rx Γ' t as ∧ (SideA D True True Γ as → SideA D True True Γ' as)
  | .els e, _, _, hw, h => by
    simp only [WTa, SideA] at h ⊢
    exact ⟨⟨(wt_wider e hw h.1).1, h.2⟩, (wt_wider e hw h.1).2⟩
  | .act c e rest, _, _, hw, h => by
    simp only [WTa, SideA] at h ⊢
    exact ⟨⟨(wt_wider c hw h.1).1, h.2.1, (wt_wider e hw h.2.2.1).1, h.2.2.2.1, (wta_wider rest hw h.2.2.2.2).1⟩,
      fun g => ⟨(wt_wider c hw h.1).2 g.1, (wt_wider e hw h.2.2.1).2 g.2.1, (wta_wider rest hw h.2.2.2.2).2 g.2.2⟩⟩
end

theorem fit_wider {W : World} {Γ Γ' : Gamma} {e : Expr} (h : Fit W Γ e) (hw : Wider Γ Γ') : Fit W Γ' e :=
  ⟨(wt_wider e hw h.wt).1, (wt_wider e hw h.wt).2 h.side, h.exact⟩

theorem preamble_frozen {T : TrEnv} {C : CheckTab} {frozen : String → Option FExpr} : ∀ {cs : List Comp} {ss : List SStmt},
    preamble T C frozen cs = .ok ss → ∀ k ∈ cs, ∀ e, frozen k.name = some e → e ≠ .inull
  | [], _, _, k, hk => by cases hk
  | c :: cs, ss, h, k, hk => by
    simp only [preamble, fr_bind, FR.ok.injEq] at h
    obtain ⟨xs, hxs, ys, hys, rfl⟩ := h
    intro e he
    rcases List.mem_cons.1 hk with rfl | hk
    · simp only [componentStmts, fr_bind] at hxs
      obtain ⟨o, ho, -⟩ := hxs
      simp only [frozenValue, he, fr_bind] at ho
      obtain ⟨a, ha, -⟩ := ho
      rintro rfl
      cases ha
    · exact preamble_frozen hys k hk e he

end Verif.Lemmas.Vcg
