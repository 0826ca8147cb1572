import Verif.Lemmas.Extension
import Verif.Spec.CheckSafety
/-! Checks by computation that concrete declarations and objects are well formed. -/
namespace Verif.Lemmas
open Verif.Model Verif.Spec

/-- every parent comes before its extension -/
def wfCheck (D : Decls) : Bool :=
  (List.range D.recs.length).all fun t =>
    match D.recs[t]? with
    | none => true
    | some r => match r.parent with
      | none => true
      | some p => decide (p < t)

theorem wfCheck_sound {D : Decls} (h : wfCheck D = true) : WFDecls D := by
  rintro t p ⟨r, hr, hp⟩
  have hlt : t < D.recs.length := by
    rcases Nat.lt_or_ge t D.recs.length with h | h
    · exact h
    · rw [List.getElem?_eq_none h] at hr; cases hr
  simp only [wfCheck, List.all_eq_true, List.mem_range] at h
  have := h t hlt
  simpa [hr, hp] using this

/-- no component name twice -/
def uniqueCheck (D : Decls) : Bool :=
  (List.range D.recs.length).all fun t => decide ((D.allComponents t).map (·.name)).Nodup

theorem nodup_unique {cs : List Comp} (h : (cs.map (·.name)).Nodup) {c c' : Comp} (hc : c ∈ cs)
    (hc' : c' ∈ cs) (hn : c.name = c'.name) : c = c' := by
  induction cs with
  | nil => cases hc
  | cons x cs ih =>
    simp only [List.map_cons, List.nodup_cons] at h
    rcases List.mem_cons.1 hc with h1 | h1 <;> rcases List.mem_cons.1 hc' with h2 | h2
    · rw [h1, h2]
    · subst h1
      exact absurd (List.mem_map.2 ⟨c', h2, hn.symm⟩) h.1
    · subst h2
      exact absurd (List.mem_map.2 ⟨c, h1, hn⟩) h.1
    · exact ih h.2 h1 h2

theorem extends_lt_length {D : Decls} {t s : Nat} (h : Extends D t s) : t < D.recs.length := by
  cases h with
  | refl h => exact h
  | step hp _ =>
    obtain ⟨r, hr, -⟩ := hp
    rcases Nat.lt_or_ge t D.recs.length with h | h
    · exact h
    · rw [List.getElem?_eq_none h] at hr; cases hr

theorem uniqueCheck_sound {D : Decls} (hw : wfCheck D = true) (h : uniqueCheck D = true) :
    UniqueNames D := by
  intro t c c' hc hc' hn
  have hlt : t < D.recs.length := by
    obtain ⟨s, hs, -⟩ := hc
    exact extends_lt_length hs
  simp only [uniqueCheck, List.all_eq_true, List.mem_range, decide_eq_true_eq] at h
  exact nodup_unique (h t hlt) ((mem_allComponents (wfCheck_sound hw) t c).2 hc)
    ((mem_allComponents (wfCheck_sound hw) t c').2 hc') hn

theorem objOk_of {D : Decls} (hw : wfCheck D = true) {objTy : Nat → Option Nat} {fs : Fields}
    {t : Nat}
    (h1 : ∀ c ∈ D.allComponents t, ∃ n, fs.lookup c.name = some n ∧
      ((c.optional = true ∧ n.expr = .inull) ∨ FOk D objTy n.expr c.ty))
    (h2 : (fs.all fun f => (D.allComponents t).any fun c => c.name == f.1) = true) :
    ObjOk D objTy fs t := by
  refine ⟨fun c hc => h1 c ((mem_allComponents (wfCheck_sound hw) t c).2 hc), fun k hk => ?_⟩
  simp only [List.all_eq_true, List.any_eq_true, beq_iff_eq] at h2
  have : ∃ n, (k, n) ∈ fs := by
    clear h1 h2
    induction fs with
    | nil => simp at hk
    | cons f fs ih =>
      obtain ⟨j, n⟩ := f
      rw [List.lookup_cons] at hk
      cases hkj : k == j <;> simp only [hkj] at hk
      · obtain ⟨n, h⟩ := ih hk
        exact ⟨n, List.mem_cons_of_mem _ h⟩
      · rw [beq_iff_eq] at hkj
        subst hkj
        exact ⟨n, List.mem_cons_self⟩
  obtain ⟨n, hn⟩ := this
  obtain ⟨c, hc, e⟩ := h2 _ hn
  exact ⟨c, (mem_allComponents (wfCheck_sound hw) t c).1 hc, e⟩

theorem extends_of_check {D : Decls} (hw : wfCheck D = true) {t s : Nat}
    (h : D.isSubclassOf t s = true) : Extends D t s :=
  (isSubclassOf_iff (wfCheck_sound hw) t s).1 h

end Verif.Lemmas
