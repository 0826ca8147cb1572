import Verif.Lemmas.Extension
/-! The field map of a union type (`get_field_map`). -/
namespace Verif.Lemmas
open Verif.Model Verif.Spec

/-- what one more component does to the entry of its name -/
def mergeInfo (c : Comp) : Option FieldInfo → FieldInfo
  | none => { comp := c, ty := some c.ty, count := 1 }
  | some i => { i with count := i.count + 1, ty := if i.ty = some c.ty then i.ty else none }

theorem addField_lookup (m : List (String × FieldInfo)) (c : Comp) (f : String) :
    (addField m c).lookup f = if f = c.name then some (mergeInfo c (m.lookup f)) else m.lookup f := by
  induction m with
  | nil =>
    simp only [addField, List.lookup, beq_iff_eq]
    by_cases h : f = c.name
    · subst h; simp [mergeInfo]
    · rw [if_neg h]
      have : (f == c.name) = false := by simpa using h
      simp [this]
  | cons x m ih =>
    obtain ⟨n, i⟩ := x
    simp only [addField]
    by_cases hn : n = c.name
    · subst hn
      simp only [if_true, List.lookup]
      by_cases h : f = c.name
      · subst h; simp [mergeInfo]
      · have : (f == c.name) = false := by simpa using h
        simp [this, h]
    · rw [if_neg hn]
      simp only [List.lookup]
      by_cases h : f = n
      · subst h; simp [hn]
      · have : (f == n) = false := by simpa using h
        simp only [this]
        exact ih

/-- what the entry of name `f` says about the components `L` that were entered -/
def Describes (f : String) (L : List Comp) : Option FieldInfo → Prop
  | none => ∀ c ∈ L, c.name ≠ f
  | some i =>
    i.comp ∈ L ∧ i.comp.name = f ∧
      (∀ τ, i.ty = some τ → ∀ c ∈ L, c.name = f → c.ty = τ) ∧
      (i.ty = none → ∃ c ∈ L, ∃ c' ∈ L, c.name = f ∧ c'.name = f ∧ c.ty ≠ c'.ty) ∧
      i.count = (L.filter (·.name == f)).length

theorem describes_step (f : String) (L : List Comp) (c : Comp) (o : Option FieldInfo)
    (h : Describes f L o) :
    Describes f (L ++ [c]) (if f = c.name then some (mergeInfo c o) else o) := by
  by_cases hf : f = c.name
  · subst hf
    rw [if_pos rfl]
    cases o with
    | none =>
      simp only [mergeInfo, Describes] at h ⊢
      refine ⟨by simp, trivial, ?_, by simp, ?_⟩
      · intro τ hτ d hd hn
        simp only [Option.some.injEq] at hτ
        subst hτ
        simp only [List.mem_append, List.mem_singleton] at hd
        rcases hd with hd | rfl
        · exact absurd hn (h d hd)
        · rfl
      · have : L.filter (·.name == c.name) = [] := by
          rw [List.filter_eq_nil_iff]
          intro d hd
          simpa using h d hd
        simp [List.filter_append, this]
    | some i =>
      simp only [mergeInfo, Describes] at h ⊢
      obtain ⟨h1, h2, h3, h4, h5⟩ := h
      refine ⟨by simp [h1], h2, ?_, ?_, ?_⟩
      · intro τ hτ d hd hn
        split at hτ
        · next hi =>
          simp only [List.mem_append, List.mem_singleton] at hd
          rcases hd with hd | rfl
          · exact h3 τ hτ d hd hn
          · rw [hi] at hτ; simpa using hτ
        · cases hτ
      · intro hτ
        split at hτ
        · next hi => rw [hi] at hτ; cases hτ
        · next hi =>
          cases hi' : i.ty with
          | none =>
            obtain ⟨d, hd, d', hd', e⟩ := h4 hi'
            exact ⟨d, by simp [hd], d', by simp [hd'], e⟩
          | some τ =>
            refine ⟨i.comp, by simp [h1], c, by simp, h2, rfl, ?_⟩
            rw [h3 τ hi' i.comp h1 h2]
            rintro rfl
            exact hi hi'
      · simp [List.filter_append, h5]
  · rw [if_neg hf]
    have hne : (c.name == f) = false := by
      rw [beq_eq_false_iff_ne]; exact fun h => hf h.symm
    cases o with
    | none =>
      simp only [Describes] at h ⊢
      intro d hd
      simp only [List.mem_append, List.mem_singleton] at hd
      rcases hd with hd | rfl
      · exact h d hd
      · exact fun h => hf h.symm
    | some i =>
      simp only [Describes] at h ⊢
      obtain ⟨h1, h2, h3, h4, h5⟩ := h
      refine ⟨by simp [h1], h2, ?_, ?_, ?_⟩
      · intro τ hτ d hd hn
        simp only [List.mem_append, List.mem_singleton] at hd
        rcases hd with hd | rfl
        · exact h3 τ hτ d hd hn
        · exact absurd hn.symm hf
      · intro hτ
        obtain ⟨d, hd, d', hd', e⟩ := h4 hτ
        exact ⟨d, by simp [hd], d', by simp [hd'], e⟩
      · simp [List.filter_append, h5, hne]

theorem describes_foldl (f : String) (L : List Comp) :
    ∀ (done : List Comp) (m : List (String × FieldInfo)), Describes f done (m.lookup f) →
      Describes f (done ++ L) ((L.foldl addField m).lookup f) := by
  induction L with
  | nil => intro done m h; simpa using h
  | cons c L ih =>
    intro done m h
    have := ih (done ++ [c]) (addField m c) (by
      rw [addField_lookup]
      exact describes_step f done c _ h)
    simpa using this

/-- the components entered into the map of a union -/
def entered (D : Decls) (ms : List Nat) : List Comp :=
  ms.flatMap fun t => firstOfName [] (D.allComponents t)

theorem fieldMap_describes (D : Decls) (ms : List Nat) (f : String) :
    Describes f (entered D ms) ((D.fieldMap ms).lookup f) := by
  have h := describes_foldl f (entered D ms) [] [] (by simp [Describes])
  rw [entered, List.foldl_flatMap] at h
  simpa [Decls.fieldMap, entered] using h

theorem firstOfName_mem {c : Comp} : ∀ (L : List Comp) (seen : List String),
    c ∈ firstOfName seen L → c ∈ L ∧ c.name ∉ seen := by
  intro L
  induction L with
  | nil => intro seen h; simp [firstOfName] at h
  | cons d L ih =>
    intro seen h
    simp only [firstOfName] at h
    split at h
    · next hs => exact ⟨List.mem_cons_of_mem _ (ih seen h).1, (ih seen h).2⟩
    · next hs =>
      rcases List.mem_cons.1 h with rfl | h
      · exact ⟨List.mem_cons_self, by simpa using hs⟩
      · have := ih _ h
        exact ⟨List.mem_cons_of_mem _ this.1, fun hc => this.2 (List.mem_cons_of_mem _ hc)⟩

theorem firstOfName_repr (L : List Comp) : ∀ (seen : List String) (c : Comp), c ∈ L →
    c.name ∉ seen → ∃ d ∈ firstOfName seen L, d.name = c.name := by
  induction L with
  | nil => intro seen c h; simp at h
  | cons d L ih =>
    intro seen c hc hs
    simp only [firstOfName]
    by_cases hd : seen.contains d.name = true
    · rw [if_pos hd]
      rcases List.mem_cons.1 hc with rfl | hc
      · exact absurd (by simpa using hd) hs
      · exact ih seen c hc hs
    · rw [if_neg hd]
      by_cases hn : d.name = c.name
      · exact ⟨d, List.mem_cons_self, hn⟩
      · rcases List.mem_cons.1 hc with rfl | hc
        · exact absurd rfl hn
        · obtain ⟨x, hx, hxn⟩ := ih (d.name :: seen) c hc (by
            simp only [List.mem_cons, not_or]; exact ⟨fun h => hn h.symm, hs⟩)
          exact ⟨x, List.mem_cons_of_mem _ hx, hxn⟩

/-- one entry per name -/
theorem firstOfName_count (L : List Comp) (f : String) : ∀ (seen : List String),
    ((firstOfName seen L).filter (·.name == f)).length =
      if f ∉ seen ∧ ∃ c ∈ L, c.name = f then 1 else 0 := by
  induction L with
  | nil => intro seen; simp [firstOfName]
  | cons d L ih =>
    intro seen
    simp only [firstOfName]
    by_cases hd : seen.contains d.name = true
    · rw [if_pos hd, ih]
      have hd' : d.name ∈ seen := by simpa using hd
      congr 1
      apply propext
      constructor
      · rintro ⟨h1, c, hc, h2⟩; exact ⟨h1, c, List.mem_cons_of_mem _ hc, h2⟩
      · rintro ⟨h1, c, hc, h2⟩
        rcases List.mem_cons.1 hc with rfl | hc
        · exact absurd (h2 ▸ hd') h1
        · exact ⟨h1, c, hc, h2⟩
    · rw [if_neg hd]
      have hd' : d.name ∉ seen := by simpa using hd
      by_cases hn : d.name = f
      · have e : (d.name == f) = true := by simpa using hn
        rw [List.filter_cons_of_pos (p := fun x : Comp => x.name == f) e, List.length_cons, ih,
          if_neg (fun h => h.1 (by simp [hn])), if_pos ⟨hn ▸ hd', d, List.mem_cons_self, hn⟩]
      · have e : ¬ (d.name == f) = true := by simpa using hn
        rw [List.filter_cons_of_neg (p := fun x : Comp => x.name == f) e, ih]
        congr 1
        apply propext
        constructor
        · rintro ⟨h1, c, hc, h2⟩
          exact ⟨fun h => h1 (List.mem_cons_of_mem _ h), c, List.mem_cons_of_mem _ hc, h2⟩
        · rintro ⟨h1, c, hc, h2⟩
          refine ⟨?_, ?_⟩
          · simp only [List.mem_cons, not_or]; exact ⟨fun h => hn h.symm, h1⟩
          · rcases List.mem_cons.1 hc with rfl | hc
            · exact absurd h2 hn
            · exact ⟨c, hc, h2⟩

end Verif.Lemmas
