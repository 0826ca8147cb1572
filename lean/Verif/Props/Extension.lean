import Verif.Lemmas.Extension
/-!
# C30: type extension is a tree order
-/
namespace Verif.Props
open Verif.Model Verif.Spec Verif.Lemmas

variable {D : Decls}

/-- **C30**: the test for "is or extends" answers exactly the relation given by the
declarations. -/
theorem C30_test_is_extends (wf : WFDecls D) (t s : Nat) :
    D.isSubclassOf t s = true ↔ Extends D t s := isSubclassOf_iff wf t s

/-- **C30**: the test is a partial order on the declared record types. -/
theorem C30_partial_order (wf : WFDecls D) :
    (∀ t < D.recs.length, D.isSubclassOf t t = true) ∧
    (∀ a b c, D.isSubclassOf a b = true → D.isSubclassOf b c = true → D.isSubclassOf a c = true) ∧
    (∀ a b, D.isSubclassOf a b = true → D.isSubclassOf b a = true → a = b) := by
  simp only [isSubclassOf_iff wf]
  refine ⟨fun t h => .refl h, fun a b c => extends_trans, fun a b h h' => ?_⟩
  exact Nat.le_antisymm (extends_le wf h') (extends_le wf h)

/-- **C30**: any two types that one type extends are comparable (the order is a forest). -/
theorem C30_comparable (wf : WFDecls D) (t a b : Nat) (ha : D.isSubclassOf t a = true)
    (hb : D.isSubclassOf t b = true) : D.isSubclassOf a b = true ∨ D.isSubclassOf b a = true := by
  simp only [isSubclassOf_iff wf] at *
  induction ha with
  | refl h => exact Or.inl hb
  | step hp h ih =>
    cases hb with
    | refl _ => exact Or.inr (.step hp h)
    | step hq hb => exact ih (parent_unique hp hq ▸ hb)

/-- **C30**: a type has exactly the components that it or a type it extends declares; in
particular it has all components of every type it extends. -/
theorem C30_components (wf : WFDecls D) (t : Nat) (c : Comp) :
    (c ∈ D.allComponents t ↔ HasComp D t c) ∧
    (∀ s, D.isSubclassOf t s = true → c ∈ D.allComponents s → c ∈ D.allComponents t) := by
  refine ⟨mem_allComponents wf t c, fun s hs hc => ?_⟩
  rw [isSubclassOf_iff wf] at hs
  rw [mem_allComponents wf] at *
  obtain ⟨u, h1, h2⟩ := hc
  exact ⟨u, extends_trans hs h1, h2⟩

/-- **C30**: the components of an extension are those of the extended type, in their order,
followed by further ones; the components a type declares come last, in the order of their
declaration. -/
theorem C30_base_first (wf : WFDecls D) (t : Nat) :
    (∀ s, D.isSubclassOf t s = true → D.allComponents s <+: D.allComponents t) ∧
    (∀ r, D.recs[t]? = some r → r.own <:+ D.allComponents t) := by
  constructor
  · intro s hs
    rw [isSubclassOf_iff wf] at hs
    induction hs with
    | refl _ => exact List.prefix_rfl
    | step hp _ ih =>
      rw [allComponents_step wf hp]
      exact ih.trans (List.prefix_append _ _)
  · intro r hr
    cases hp : r.parent with
    | none => rw [allComponents_root hr hp]; exact List.suffix_rfl
    | some p =>
      rw [allComponents_step wf ⟨r, hr, hp⟩]
      simp [Decls.own, hr]

/-- Looking a name up in the component table of a type finds a component of that type, if it
has one of that name. -/
theorem C30_component_lookup (wf : WFDecls D) (t : Nat) (n : String) :
    (∀ c, D.component t n = some c → HasComp D t c ∧ c.name = n) ∧
    (D.component t n = none ↔ ∀ c, HasComp D t c → c.name ≠ n) := by
  constructor
  · intro c h
    obtain ⟨s, hs, hc⟩ := List.exists_of_findSome?_eq_some h
    have h1 := List.mem_of_find?_eq_some hc
    have h2 := List.find?_some hc
    exact ⟨⟨s, (mem_ancestors wf t s).1 hs, (mem_own s c).1 h1⟩, by simpa using h2⟩
  · rw [Decls.component, List.findSome?_eq_none_iff]
    constructor
    · rintro h c ⟨s, hs, hc⟩ hn
      have := h s ((mem_ancestors wf t s).2 hs)
      rw [List.find?_eq_none] at this
      exact this c ((mem_own s c).2 hc) (by simpa using hn)
    · intro h s hs
      rw [List.find?_eq_none]
      intro c hc hn
      exact h c ⟨s, (mem_ancestors wf t s).1 hs, (mem_own s c).1 hc⟩ (by simpa using hn)

/-- Three types: `B` extends `A`, `C` extends `B`; each declares one component. -/
def decls3 : Decls :=
  { recs := [⟨none, [⟨"a", .int, false, .record 0⟩]⟩, ⟨some 0, [⟨"b", .int, false, .record 1⟩]⟩,
      ⟨some 1, [⟨"c", .str, true, .record 2⟩]⟩], tups := [], enums := [] }

theorem decls3_wf : WFDecls decls3 := by
  rintro t p ⟨r, h, hp⟩
  rcases t with _ | _ | _ | t
  · simp [decls3] at h; subst h; simp at hp
  · simp [decls3] at h; subst h; simp at hp; omega
  · simp [decls3] at h; subst h; simp at hp; omega
  · simp [decls3] at h

example : decls3.isSubclassOf 2 0 = true ∧ decls3.isSubclassOf 0 2 = false ∧
    (decls3.allComponents 2).map (·.name) = ["a", "b", "c"] := by decide +kernel
example : Extends decls3 2 0 := (C30_test_is_extends decls3_wf 2 0).1 (by decide +kernel)

end Verif.Props
