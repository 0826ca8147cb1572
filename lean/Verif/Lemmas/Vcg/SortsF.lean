import Verif.Lemmas.Vcg.Sorts
/-! The terms of the functional translation are well formed. -/
namespace Verif.Lemmas.Vcg
open Verif.Model Verif.Spec Verif.Lemmas

variable {T : TrEnv} {rx : List Char → List Char → Bool} {K : Sym → Option Srt}

/-- what is known of the declarations -/
structure DeclsOk (D : Decls) : Prop where
  wf : WFDecls D
  unique : UniqueNames D
  tuples : TuplesOk D

theorem psorted_some {D : Decls} {bs : List Nat} {t : Ty} {a : Smt} (h : Sorted D K bs a t.srt) : PSorted D K bs (some t) (some a, .bool true) :=
  ⟨fun b hb => by cases hb; exact ⟨t, rfl, h⟩, fun h => (by cases h), .bool⟩

theorem psorted_some? {D : Decls} {bs : List Nat} {t : Option Ty} {a : Smt} (h : Sorted? D K bs t a) : PSorted D K bs t (some a, .bool true) := by
  obtain ⟨τ, rfl, h⟩ := h
  exact psorted_some h

mutual
theorem trF_sorted (hD : DeclsOk T.decls) : ∀ (e : Expr) (bs : List Nat) (Γ : Gamma) (ρ : NameTrs) (p : TrPair), WT T.decls rx Γ e → Apt T.decls e → Proper e →
    NSorted T.decls K bs Γ ρ → e.trF T ρ = .ok p → PSorted T.decls K bs e.typ p
  | .null, bs, Γ, ρ, p, hw, hg, hp, hn, h => by
    simp only [Expr.trF, FR.ok.injEq] at h
    subst h
    exact ⟨fun a ha => by (cases ha), fun _ => rfl, .bool⟩
  | .bool _, bs, Γ, ρ, p, hw, hg, hp, hn, h => by
    simp only [Expr.trF, FR.ok.injEq] at h
    subst h
    exact psorted_some .bool
  | .int _, bs, Γ, ρ, p, hw, hg, hp, hn, h => by
    simp only [Expr.trF, FR.ok.injEq] at h
    subst h
    exact psorted_some .int
  | .dec _, bs, Γ, ρ, p, hw, hg, hp, hn, h => by
    simp only [Expr.trF, FR.ok.injEq] at h
    subst h
    exact psorted_some .real
  | .str _, bs, Γ, ρ, p, hw, hg, hp, hn, h => by
    simp only [Expr.trF, FR.ok.injEq] at h
    subst h
    exact psorted_some .str
  | .enum _ _, bs, Γ, ρ, p, hw, hg, hp, hn, h => by
    simp only [Expr.trF, FR.ok.injEq] at h
    subst h
    simp only [Apt] at hg
    obtain ⟨ls, h1, h2⟩ := hg
    exact psorted_some (.enum h1 h2)
  | .name n t, bs, Γ, ρ, p, hw, hg, hp, hn, h => by
    simp only [WT] at hw
    obtain ⟨b, hb⟩ := hw
    obtain ⟨x, h1, h2, h3, h4⟩ := hn n t b hb
    simp only [Expr.trF, h1, FR.need, FR.bind, FR.ok.injEq] at h
    subst h
    exact ⟨fun a ha => by cases ha; exact ⟨t, rfl, h3⟩, fun h => (by cases h), h4⟩
  | .unary t op e, bs, Γ, ρ, p, hw, hg, hp, hn, h => by
    simp only [WT] at hw
    simp only [Apt] at hg
    simp only [Proper] at hp
    simp only [Expr.trF, fr_bind, fr_need, FR.ok.injEq] at h
    obtain ⟨q, hq, a, ha, r, hr, rfl⟩ := h
    obtain ⟨σ, hσ, hs⟩ := (trF_sorted hD e bs Γ ρ q hw.1 hg hp.1 hn hq).value a ha
    rw [hσ] at hw hp hr
    exact psorted_some? (unTerm_sorted hw.2 hp.2.1 hp.2.2 hs hr)
  | .binary t op l r, bs, Γ, ρ, p, hw, hg, hp, hn, h => by
    simp only [WT] at hw
    simp only [Apt] at hg
    simp only [Proper] at hp
    simp only [Expr.trF, fr_bind] at h
    obtain ⟨x, hx, y, hy, h⟩ := h
    have hl := trF_sorted hD l bs Γ ρ x hw.1 hg.1 hp.1 hn hx
    have hr := trF_sorted hD r bs Γ ρ y hw.2.1 hg.2.1 hp.2.1 hn hy
    have eqs : op.allowsNull = true → ∀ z, eqTerm T.decls (compTyp l r x.1) x y = some z → Sorted T.decls K bs z .bool := by
      intro ho z hz
      refine eqTerm_sorted hD.tuples (hg.2.2 ho) hl hr ?_ hz
      intro a ha
      simp [compTyp, ha]
    split at h
    · simp only [fr_bind, fr_need, FR.ok.injEq] at h
      obtain ⟨z, hz, rfl⟩ := h
      have ht : t = some .bool := hw.2.2.1
      subst ht
      exact psorted_some (negIf_sorted (eqs rfl z hz))
    · simp only [fr_bind, fr_need, FR.ok.injEq] at h
      obtain ⟨z, hz, rfl⟩ := h
      have ht : t = some .bool := hw.2.2.1
      subst ht
      exact psorted_some (negIf_sorted (eqs rfl z hz))
    · cases h
    · cases h
    · cases h
    · simp only [fr_bind, fr_need, FR.ok.injEq] at h
      obtain ⟨a, ha, b, hb, z, hz, rfl⟩ := h
      exact psorted_some? (binTerm_sorted hw.2.2.1 hp.2.2 (hl.value a ha) (hr.value b hb) hz)
  | .logic op l r, bs, Γ, ρ, p, hw, hg, hp, hn, h => by
    simp only [WT] at hw
    simp only [Apt] at hg
    simp only [Proper] at hp
    simp only [Expr.trF, fr_bind, fr_need] at h
    obtain ⟨x, hx, y, hy, a, ha, b, hb, h⟩ := h
    obtain ⟨τ, h1, hl⟩ := (trF_sorted hD l bs Γ ρ x hw.1 hg.1 hp.1 hn hx).value a ha
    obtain ⟨σ, h2, hr⟩ := (trF_sorted hD r bs Γ ρ y hw.2.1 hg.2 hp.2 hn hy).value b hb
    rw [hw.2.2.1] at h1
    rw [hw.2.2.2] at h2
    cases h1; cases h2
    cases op <;> cases h
    · exact psorted_some (.bin hl hr .and)
    · exact psorted_some (.bin hl hr .or)
    · exact psorted_some (.bin hl hr .imp)
  | .field q n ty, bs, Γ, ρ, p, hw, hg, hp, hn, h => by
    simp only [WT] at hw
    simp only [Apt] at hg
    simp only [Proper] at hp
    simp only [Expr.trF, fr_bind, fr_need] at h
    obtain ⟨x, hx, a, ha, h⟩ := h
    exact fieldTerm_sorted hD.wf hD.unique hw.2 ((trF_sorted hD q bs Γ ρ x hw.1 hg hp hn hx).value a ha) h
  | .range e _ _, bs, Γ, ρ, p, hw, hg, hp, hn, h => by
    simp only [Expr.trF, fr_bind] at h
    obtain ⟨_, _, h⟩ := h
    cases h
  | .oneof .nil, bs, Γ, ρ, p, hw, hg, hp, hn, h => by
    simp only [Expr.trF] at h
    cases h
  | .oneof (.cons e es), bs, Γ, ρ, p, hw, hg, hp, hn, h => by
    simp only [Expr.trF, fr_bind] at h
    obtain ⟨_, _, h⟩ := h
    cases h
  | .cond t as, bs, Γ, ρ, p, hw, hg, hp, hn, h => by
    simp only [WT] at hw
    simp only [Apt] at hg
    simp only [Proper] at hp
    simp only [Expr.trF, fr_bind, FR.ok.injEq] at h
    obtain ⟨x, hx, rfl⟩ := h
    exact psorted_some (trFA_sorted hD as bs Γ ρ t x hw hg hp hn hx)
  | .quant .., bs, Γ, ρ, p, hw, hg, hp, hn, h => by
    simp only [Expr.trF] at h
    cases h

theorem trFA_sorted (hD : DeclsOk T.decls) : ∀ (as : Acts) (bs : List Nat) (Γ : Gamma) (ρ : NameTrs) (t : Ty) (x : Smt), WTa T.decls rx Γ t as → AptA T.decls as → ProperA as →
    NSorted T.decls K bs Γ ρ → as.trF T ρ = .ok x → Sorted T.decls K bs x t.srt
  | .els e, bs, Γ, ρ, t, x, hw, hg, hp, hn, h => by
    simp only [WTa] at hw
    simp only [AptA] at hg
    simp only [ProperA] at hp
    simp only [Acts.trF, fr_bind, fr_need] at h
    obtain ⟨q, hq, ha⟩ := h
    obtain ⟨τ, h1, h2⟩ := (trF_sorted hD e bs Γ ρ q hw.1 hg hp hn hq).value x ha
    rw [hw.2] at h1
    cases h1
    exact h2
  | .act k e rest, bs, Γ, ρ, t, x, hw, hg, hp, hn, h => by
    simp only [WTa] at hw
    simp only [AptA] at hg
    simp only [ProperA] at hp
    simp only [Acts.trF, fr_bind, fr_need, FR.ok.injEq] at h
    obtain ⟨y, hy, p, hpk, c, hc, q, hq, a, ha, rfl⟩ := h
    have ih := trFA_sorted hD rest bs Γ ρ t y hw.2.2.2.2 hg.2.2 hp.2.2 hn hy
    obtain ⟨τ, h1, h2⟩ := (trF_sorted hD k bs Γ ρ p hw.1 hg.1 hp.1 hn hpk).value c hc
    obtain ⟨σ, h3, h4⟩ := (trF_sorted hD e bs Γ ρ q hw.2.2.1 hg.2.1 hp.2.1 hn hq).value a ha
    rw [hw.2.1] at h1
    rw [hw.2.2.2.1] at h3
    cases h1; cases h3
    exact .ite h2 h4 ih
end

end Verif.Lemmas.Vcg
