import Verif.Spec.Extension
/-! Lemmas about the extension chain of record types. -/
namespace Verif.Lemmas
open Verif.Model Verif.Spec

variable {D : Decls}

theorem parent_declared {t p : Nat} (h : ParentOf D t p) : t < D.recs.length := by
  obtain ⟨r, h, -⟩ := h
  exact (List.getElem?_eq_some_iff.1 h).1

theorem parent_unique {t p q : Nat} (h : ParentOf D t p) (h' : ParentOf D t q) : p = q := by
  obtain ⟨r, h1, h2⟩ := h
  obtain ⟨r', h1', h2'⟩ := h'
  simp_all

/-- enough fuel makes no difference -/
theorem chain_fuel (wf : WFDecls D) : ∀ f g t, t < f → t < g → D.chain f t = D.chain g t := by
  intro f
  induction f with
  | zero => intro g t h; omega
  | succ f ih =>
    intro g t hf hg
    obtain ⟨g, rfl⟩ : ∃ g', g = g' + 1 := ⟨g - 1, by omega⟩
    simp only [Decls.chain]
    cases hr : D.recs[t]? with
    | none => rfl
    | some r =>
      simp only
      cases hp : r.parent with
      | none => rfl
      | some p =>
        have := wf t p ⟨r, hr, hp⟩
        simp only
        rw [ih g p (by omega) (by omega)]

theorem ancestors_undeclared {t : Nat} (h : D.recs.length ≤ t) : D.ancestors t = [] := by
  unfold Decls.ancestors
  cases hl : D.recs.length with
  | zero => rfl
  | succ n => simp only [Decls.chain]; rw [List.getElem?_eq_none h]

theorem ancestors_root {t : Nat} {r : RecDecl} (h : D.recs[t]? = some r) (hp : r.parent = none) :
    D.ancestors t = [t] := by
  unfold Decls.ancestors
  have := (List.getElem?_eq_some_iff.1 h).1
  obtain ⟨n, hn⟩ : ∃ n, D.recs.length = n + 1 := ⟨D.recs.length - 1, by omega⟩
  rw [hn]
  simp only [Decls.chain, h, hp]

theorem ancestors_step (wf : WFDecls D) {t p : Nat} (h : ParentOf D t p) :
    D.ancestors t = t :: D.ancestors p := by
  have hlt := wf t p h
  have hdecl := parent_declared h
  obtain ⟨r, h1, h2⟩ := h
  unfold Decls.ancestors
  obtain ⟨n, hn⟩ : ∃ n, D.recs.length = n + 1 := ⟨D.recs.length - 1, by omega⟩
  rw [chain_fuel wf D.recs.length (n + 1) t (by omega) (by omega)]
  simp only [Decls.chain, h1, h2]
  rw [chain_fuel wf n D.recs.length p (by omega) (by omega)]

theorem extends_declared {t s : Nat} (h : Extends D t s) :
    t < D.recs.length ∧ s < D.recs.length := by
  induction h with
  | refl h => exact ⟨h, h⟩
  | step h _ ih => exact ⟨parent_declared h, ih.2⟩

theorem extends_trans {a b c : Nat} (h : Extends D a b) (h' : Extends D b c) : Extends D a c := by
  induction h with
  | refl _ => exact h'
  | step hp _ ih => exact .step hp (ih h')

theorem extends_le (wf : WFDecls D) {a b : Nat} (h : Extends D a b) : b ≤ a := by
  induction h with
  | refl _ => exact Nat.le_refl _
  | step hp _ ih => have := wf _ _ hp; omega

/-- induction along the chain of parents -/
theorem chain_induction (wf : WFDecls D) {P : Nat → Prop}
    (undecl : ∀ t, D.recs.length ≤ t → P t)
    (root : ∀ t r, D.recs[t]? = some r → r.parent = none → P t)
    (step : ∀ t p, ParentOf D t p → P p → P t) : ∀ t, P t := by
  intro t
  induction t using Nat.strongRecOn with
  | _ t ih =>
    cases hr : D.recs[t]? with
    | none => exact undecl t (List.getElem?_eq_none_iff.1 hr)
    | some r =>
      cases hp : r.parent with
      | none => exact root t r hr hp
      | some p => exact step t p ⟨r, hr, hp⟩ (ih p (wf t p ⟨r, hr, hp⟩))

theorem mem_ancestors (wf : WFDecls D) (t s : Nat) : s ∈ D.ancestors t ↔ Extends D t s := by
  induction t using chain_induction wf with
  | undecl t h =>
    rw [ancestors_undeclared h]
    simp only [List.not_mem_nil, false_iff]
    intro h'
    have := (extends_declared h').1
    omega
  | root t r h hp =>
    rw [ancestors_root h hp, List.mem_singleton]
    constructor
    · rintro rfl
      exact .refl (List.getElem?_eq_some_iff.1 h).1
    · intro h'
      cases h' with
      | refl _ => rfl
      | step hq _ =>
        obtain ⟨r', h1, h2⟩ := hq
        simp_all
  | step t p hp ih =>
    rw [ancestors_step wf hp, List.mem_cons, ih]
    constructor
    · rintro (rfl | h)
      · exact .refl (parent_declared hp)
      · exact .step hp h
    · intro h'
      cases h' with
      | refl _ => exact Or.inl rfl
      | step hq h => rw [parent_unique hp hq]; exact Or.inr h

theorem isSubclassOf_iff (wf : WFDecls D) (t s : Nat) :
    D.isSubclassOf t s = true ↔ Extends D t s := by
  rw [Decls.isSubclassOf, List.contains_iff_mem, mem_ancestors wf]

theorem mem_own (t : Nat) (c : Comp) : c ∈ D.own t ↔ Declares D t c := by
  unfold Decls.own Declares
  cases D.recs[t]? <;> simp

theorem mem_allComponents (wf : WFDecls D) (t : Nat) (c : Comp) :
    c ∈ D.allComponents t ↔ HasComp D t c := by
  simp only [Decls.allComponents, List.mem_flatMap, List.mem_reverse, mem_ancestors wf, mem_own,
    HasComp]

theorem allComponents_root {t : Nat} {r : RecDecl} (h : D.recs[t]? = some r)
    (hp : r.parent = none) : D.allComponents t = r.own := by
  simp [Decls.allComponents, ancestors_root h hp, Decls.own, h]

theorem allComponents_step (wf : WFDecls D) {t p : Nat} (h : ParentOf D t p) :
    D.allComponents t = D.allComponents p ++ D.own t := by
  simp [Decls.allComponents, ancestors_step wf h]

end Verif.Lemmas
