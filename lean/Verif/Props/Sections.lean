import Verif.Model.Sections
import Mathlib.Data.List.Nodup
/-!
# C50: iteration over record objects by section
-/
namespace Verif.Props
open Verif.Model

/-! ## Specification -/

/-- the objects yielded, in order -/
def yielded (l : List SItem) : List (SObj × Nat) :=
  l.filterMap (fun | .obj o n => some (o, n) | _ => none)

/-- the sections announced, in order -/
def announced (l : List SItem) : List Sect :=
  l.filterMap (fun | .title s _ => some s | _ => none)

/-- the files announced, in order -/
def announcedFiles (l : List SItem) : List String :=
  l.filterMap (fun | .file f => some f | _ => none)

/-- the nesting level of an object: how many sections enclose its section -/
def depth (o : SObj) : Nat := o.sect.length - 1

/-! ## Lemmas -/

private theorem titles_spec (ss : List Sect) : ∀ (st : SState) (lvl : Nat),
    let r := yieldTitles st lvl ss
    r.1.files = st.files ∧ r.1.sects = st.sects ++ announced r.2 ∧
    yielded r.2 = [] ∧ announcedFiles r.2 = [] ∧
    (st.sects.Nodup → r.1.sects.Nodup) ∧
    (∀ s ∈ ss, s ∈ r.1.sects) ∧ (∀ s ∈ announced r.2, s ∈ ss) ∧
    (∀ s n, SItem.title s n ∈ r.2 → ∃ i, n = lvl + i ∧ ss[i]? = some s) := by
  induction ss with
  | nil => intro st lvl; simp [yieldTitles, announced, yielded, announcedFiles]
  | cons s ss ih =>
    intro st lvl
    simp only [yieldTitles]
    by_cases hc : st.sects.contains s = true
    · simp only [hc, if_true]
      obtain ⟨h1, h2, h3, h4, h5, h6, h7, h8⟩ := ih st (lvl + 1)
      refine ⟨h1, h2, h3, h4, h5, ?_, fun x hx => List.mem_cons_of_mem _ (h7 x hx), ?_⟩
      · intro x hx
        rcases List.mem_cons.mp hx with rfl | hx
        · rw [h2]; exact List.mem_append_left _ (by simpa using hc)
        · exact h6 x hx
      · intro x n hx
        obtain ⟨i, hi, hs⟩ := h8 x n hx
        exact ⟨i + 1, by omega, by simpa using hs⟩
    · simp only [hc, Bool.false_eq_true, if_false]
      have hnot : s ∉ st.sects := by simpa using hc
      obtain ⟨h1, h2, h3, h4, h5, h6, h7, h8⟩ := ih { st with sects := st.sects ++ [s] } (lvl + 1)
      refine ⟨h1, ?_, ?_, ?_, ?_, ?_, ?_, ?_⟩
      · rw [h2]; simp [announced]
      · simpa [yielded] using h3
      · simpa [announcedFiles] using h4
      · intro hn
        apply h5
        simp only
        rw [List.nodup_append]
        refine ⟨hn, List.nodup_singleton _, ?_⟩
        intro a ha b hb
        simp only [List.mem_singleton] at hb
        subst hb
        rintro rfl; exact hnot ha
      · intro x hx
        rcases List.mem_cons.mp hx with rfl | hx
        · rw [h2]; simp
        · exact h6 x hx
      · intro x hx
        have hx' : x ∈ s :: announced (yieldTitles { st with sects := st.sects ++ [s] } (lvl + 1) ss).2 := hx
        rcases List.mem_cons.mp hx' with rfl | hx
        · exact List.mem_cons_self
        · exact List.mem_cons_of_mem _ (h7 x hx)
      · intro x n hx
        rcases List.mem_cons.mp hx with hx | hx
        · cases hx; exact ⟨0, rfl, rfl⟩
        · obtain ⟨i, hi, hs⟩ := h8 x n hx
          exact ⟨i + 1, by omega, by simpa using hs⟩

/-! ## C50 -/

private theorem object_spec (st : SState) (o : SObj) :
    let r := yieldObject st o
    ∃ pre, r.2 = pre ++ [.obj o (depth o)] ∧ yielded pre = [] ∧
    r.1.sects = st.sects ++ announced pre ∧ r.1.files = st.files ++ announcedFiles pre ∧
    (st.sects.Nodup → r.1.sects.Nodup) ∧ (st.files.Nodup → r.1.files.Nodup) ∧
    (∀ s ∈ o.sect, s ∈ r.1.sects) ∧ o.file ∈ r.1.files ∧
    (∀ s ∈ announced pre, s ∈ o.sect) ∧ (∀ f ∈ announcedFiles pre, f = o.file) ∧
    (∀ s n, SItem.title s n ∈ pre → o.sect[n]? = some s) := by
  have hd : (if o.sect.isEmpty then 0 else o.sect.length - 1) = depth o := by
    unfold depth; cases o.sect <;> simp
  simp only [yieldObject, hd]
  by_cases hc : st.files.contains o.file = true
  · simp only [hc, if_true]
    obtain ⟨h1, h2, h3, h4, h5, h6, h7, h8⟩ := titles_spec o.sect st 0
    refine ⟨_, rfl, by simpa using h3, by simpa using h2, by simp [h1, h4], h5, by rw [h1]; exact id,
      h6, by rw [h1]; simpa using hc, by simpa using h7, by simp [h4], ?_⟩
    intro s n hx
    obtain ⟨i, hi, hs⟩ := h8 s n (by simpa using hx)
    rw [hi, Nat.zero_add]; exact hs
  · simp only [hc, Bool.false_eq_true, if_false]
    have hnot : o.file ∉ st.files := by simpa using hc
    obtain ⟨h1, h2, h3, h4, h5, h6, h7, h8⟩ :=
      titles_spec o.sect { st with files := st.files ++ [o.file] } 0
    refine ⟨_, rfl, by simpa [yielded] using h3, by simpa [announced] using h2,
      by rw [h1]; simp [announcedFiles] at h4 ⊢; exact h4, h5, ?_,
      h6, by rw [h1]; simp, by simpa [announced] using h7, ?_, ?_⟩
    · intro hn
      rw [h1, List.nodup_append]
      refine ⟨hn, List.nodup_singleton _, ?_⟩
      intro a ha b hb
      simp only [List.mem_singleton] at hb
      subst hb
      rintro rfl; exact hnot ha
    · intro f hf
      have h4' := h4
      simp only [announcedFiles, List.filterMap_append, List.mem_append] at hf h4'
      rw [h4'] at hf
      simpa using hf
    · intro s n hx
      obtain ⟨i, hi, hs⟩ := h8 s n (by simpa using hx)
      rw [hi, Nat.zero_add]; exact hs

/-- **C50**: every record object is yielded exactly once, in order, with the level of its
section, whatever was iterated before. -/
theorem C50_objects (st : SState) (os : List SObj) :
    yielded (bySection st os).2 = os.map (fun o => (o, depth o)) := by
  induction os generalizing st with
  | nil => rfl
  | cons o os ih =>
    obtain ⟨pre, h1, h2, _⟩ := object_spec st o
    simp only [bySection, List.map_cons]
    rw [h1]
    have : ∀ a b, yielded (a ++ b) = yielded a ++ yielded b := by simp [yielded]
    rw [this, this, h2, ih]
    rfl

/-- **C50**: the objects of the global table are those of its packages, in the order of
the tables. -/
theorem C50_all_packages (gs : List GEntry) (o : SObj) :
    o ∈ globalObjects gs ↔ GEntry.obj o ∈ gs ∨ ∃ es, GEntry.pkg es ∈ gs ∧ PEntry.obj o ∈ es := by
  have hp : ∀ es, o ∈ pkgObjects es ↔ PEntry.obj o ∈ es := by
    intro es
    induction es with
    | nil => simp [pkgObjects]
    | cons e es ih => cases e <;> simp [pkgObjects, ih]
  induction gs with
  | nil => simp [globalObjects]
  | cons g gs ih =>
    cases g with
    | pkg es =>
      simp only [globalObjects, List.mem_append, ih, hp, List.mem_cons, reduceCtorEq, false_or,
        GEntry.pkg.injEq]
      constructor
      · rintro (h | h | ⟨es', h1, h2⟩)
        · exact Or.inr ⟨es, Or.inl rfl, h⟩
        · exact Or.inl h
        · exact Or.inr ⟨es', Or.inr h1, h2⟩
      · rintro (h | ⟨es', rfl | h1, h2⟩)
        · exact Or.inr (Or.inl h)
        · exact Or.inl h2
        · exact Or.inr (Or.inr ⟨es', h1, h2⟩)
    | obj o' => simp only [globalObjects, List.mem_cons, ih, GEntry.obj.injEq, reduceCtorEq, false_or]; tauto
    | other => simp [globalObjects, ih]

private theorem by_spec (os : List SObj) : ∀ st : SState,
    let r := bySection st os
    r.1.sects = st.sects ++ announced r.2 ∧ r.1.files = st.files ++ announcedFiles r.2 ∧
    (st.sects.Nodup → r.1.sects.Nodup) ∧ (st.files.Nodup → r.1.files.Nodup) ∧
    (∀ a b o n, r.2 = a ++ .obj o n :: b →
      (∀ s ∈ o.sect, s ∈ st.sects ++ announced a) ∧ o.file ∈ st.files ++ announcedFiles a) ∧
    (∀ s n, SItem.title s n ∈ r.2 → ∃ o ∈ os, o.sect[n]? = some s) ∧
    (∀ f ∈ announcedFiles r.2, ∃ o ∈ os, f = o.file) := by
  induction os with
  | nil => intro st; simp [bySection, announced, announcedFiles]
  | cons o os ih =>
    intro st
    obtain ⟨pre, h1, h2, h3, h4, h5, h6, h7, h8, h9, h10, h11⟩ := object_spec st o
    obtain ⟨i1, i2, i3, i4, i5, i6, i7⟩ := ih (yieldObject st o).1
    simp only [bySection]
    have hA : ∀ a b, announced (a ++ b) = announced a ++ announced b := by simp [announced]
    have hF : ∀ a b, announcedFiles (a ++ b) = announcedFiles a ++ announcedFiles b := by
      simp [announcedFiles]
    have hAo : announced [SItem.obj o (depth o)] = [] := rfl
    have hFo : announcedFiles [SItem.obj o (depth o)] = [] := rfl
    refine ⟨?_, ?_, fun h => i3 (h5 h), fun h => i4 (h6 h), ?_, ?_, ?_⟩
    · rw [i1, h3, h1, hA, hA, hAo]; simp
    · rw [i2, h4, h1, hF, hF, hFo]; simp
    · intro a b o' n hab
      rw [h1] at hab
      generalize hrest : (bySection (yieldObject st o).1 os).2 = rest at *
      rw [List.append_assoc, List.append_eq_append_iff] at hab
      rcases hab with ⟨a', ha, hr⟩ | ⟨c', hc, hr⟩
      · -- `a` is at least `pre`
        cases a' with
        | nil =>
          simp only [List.append_nil] at ha
          simp only [List.singleton_append, List.nil_append, List.cons.injEq, SItem.obj.injEq] at hr
          obtain ⟨⟨rfl, _⟩, _⟩ := hr
          rw [ha, ← h3, ← h4]
          exact ⟨h7, h8⟩
        | cons x a'' =>
          simp only [List.singleton_append, List.cons_append, List.cons.injEq] at hr
          obtain ⟨rfl, hr⟩ := hr
          obtain ⟨j1, j2⟩ := i5 a'' b o' n hr
          rw [h3] at j1
          rw [h4] at j2
          rw [ha]
          constructor
          · intro s hs
            have := j1 s hs
            simp only [hA, List.mem_append] at this ⊢
            have hx : announced (SItem.obj o (depth o) :: a'') = announced a'' := rfl
            rw [hx]
            tauto
          · simp only [hF, List.mem_append] at j2 ⊢
            have hx : announcedFiles (SItem.obj o (depth o) :: a'') = announcedFiles a'' := rfl
            rw [hx]
            tauto
      · -- the object lies within `pre`: impossible unless the cut is at its end
        cases c' with
        | nil =>
          simp only [List.append_nil] at hc
          simp only [List.nil_append, List.singleton_append, List.cons.injEq, SItem.obj.injEq] at hr
          obtain ⟨⟨rfl, _⟩, _⟩ := hr
          rw [← hc, ← h3, ← h4]
          exact ⟨h7, h8⟩
        | cons x c'' =>
          simp only [List.cons_append, List.cons.injEq] at hr
          obtain ⟨rfl, _⟩ := hr
          rw [hc] at h2
          simp [yielded] at h2
    · intro s n hx
      rw [List.mem_append] at hx
      rcases hx with hx | hx
      · rw [h1, List.mem_append] at hx
        rcases hx with hx | hx
        · exact ⟨o, List.mem_cons_self, h11 s n hx⟩
        · simp at hx
      · obtain ⟨o', ho', hs⟩ := i6 s n hx
        exact ⟨o', List.mem_cons_of_mem _ ho', hs⟩
    · intro f hf
      rw [hF, List.mem_append] at hf
      rcases hf with hf | hf
      · rw [h1, hF, hFo, List.append_nil] at hf
        exact ⟨o, List.mem_cons_self, h10 f hf⟩
      · obtain ⟨o', ho', hs⟩ := i7 f hf
        exact ⟨o', List.mem_cons_of_mem _ ho', hs⟩

/-- **C50** (first iteration over a table): the titles of all sections around an object
and its file name come before it; every title and file is announced once only; a title
carries the nesting level of its section; nothing else is announced. -/
theorem C50_titles_partial (os : List SObj) :
    let out := (bySection ⟨[], []⟩ os).2
    (∀ a b o n, out = a ++ .obj o n :: b →
      (∀ s ∈ o.sect, s ∈ announced a) ∧ o.file ∈ announcedFiles a) ∧
    (announced out).Nodup ∧ (announcedFiles out).Nodup ∧
    (∀ s n, SItem.title s n ∈ out → ∃ o ∈ os, o.sect[n]? = some s) ∧
    (∀ f ∈ announcedFiles out, ∃ o ∈ os, f = o.file) := by
  obtain ⟨h1, h2, h3, h4, h5, h6, h7⟩ := by_spec os ⟨[], []⟩
  simp only [List.nil_append, List.nodup_nil, forall_const] at h1 h2 h3 h4 h5
  exact ⟨h5, by rw [← h1]; exact h3, by rw [← h2]; exact h4, h6, h7⟩

private theorem again (os : List SObj) : ∀ st : SState,
    (∀ o ∈ os, o.file ∈ st.files ∧ ∀ s ∈ o.sect, s ∈ st.sects) →
    (bySection st os).2 = os.map (fun o => .obj o (depth o)) := by
  have ht : ∀ (ss : List Sect) (st : SState) (n : Nat), (∀ s ∈ ss, s ∈ st.sects) →
      yieldTitles st n ss = (st, []) := by
    intro ss
    induction ss with
    | nil => intro st n _; rfl
    | cons s ss ih =>
      intro st n h
      simp only [yieldTitles, List.contains_iff_mem, h s List.mem_cons_self, if_true]
      exact ih st _ (fun x hx => h x (List.mem_cons_of_mem _ hx))
  induction os with
  | nil => intro st _; rfl
  | cons o os ih =>
    intro st h
    obtain ⟨hf, hs⟩ := h o List.mem_cons_self
    have hd : (if o.sect.isEmpty then 0 else o.sect.length - 1) = depth o := by
      unfold depth; cases o.sect <;> simp
    have hy : yieldObject st o = (st, [.obj o (depth o)]) := by
      simp only [yieldObject, hd]
      simp [hf, ht o.sect st 0 hs]
    simp only [bySection, hy, List.map_cons]
    rw [ih st (fun o' ho' => h o' (List.mem_cons_of_mem _ ho'))]
    rfl

/-- What the code does instead on a second iteration over the same table: the record of
announced files and sections survives, so *no* file name and *no* section title is
yielded any more.  (Why the theorem above is partial.) -/
theorem C50_second_iteration_has_no_titles (os : List SObj) :
    (bySection (bySection ⟨[], []⟩ os).1 os).2 = os.map (fun o => .obj o (depth o)) := by
  apply again
  obtain ⟨h1, h2, h3, h4, h5, h6, h7⟩ := by_spec os ⟨[], []⟩
  intro o ho
  have : (o, depth o) ∈ yielded (bySection ⟨[], []⟩ os).2 := by
    rw [C50_objects]; exact List.mem_map.mpr ⟨o, ho, rfl⟩
  simp only [yielded, List.mem_filterMap] at this
  obtain ⟨x, hx, hxo⟩ := this
  cases x with
  | file => simp at hxo
  | title => simp at hxo
  | obj o' n =>
    simp only [Option.some.injEq, Prod.mk.injEq] at hxo
    obtain ⟨rfl, rfl⟩ := hxo
    obtain ⟨a, b, hab⟩ := List.append_of_mem hx
    obtain ⟨j1, j2⟩ := h5 a b _ _ hab
    have hA : announced (bySection ⟨[], []⟩ os).2 = announced a ++ announced b := by
      rw [hab]; simp [announced]
    have hF : announcedFiles (bySection ⟨[], []⟩ os).2 = announcedFiles a ++ announcedFiles b := by
      rw [hab]; simp [announcedFiles]
    rw [h1, h2, hA, hF]
    simp only [List.nil_append, List.mem_append] at j1 j2 ⊢
    exact ⟨Or.inl j2, fun s hs => Or.inl (j1 s hs)⟩

private def sA : Sect := ⟨0, "A"⟩
private def sB : Sect := ⟨1, "B"⟩
example : (bySection ⟨[], []⟩ [⟨0, "f", []⟩, ⟨1, "f", [sA]⟩, ⟨2, "f", [sA, sB]⟩, ⟨3, "g", [sA]⟩]).2
    = [.file "f", .obj ⟨0, "f", []⟩ 0, .title sA 0, .obj ⟨1, "f", [sA]⟩ 0, .title sB 1,
       .obj ⟨2, "f", [sA, sB]⟩ 1, .file "g", .obj ⟨3, "g", [sA]⟩ 0] := by decide +kernel
example : (bySection (bySection ⟨[], []⟩ [⟨1, "f", [sA]⟩]).1 [⟨1, "f", [sA]⟩]).2
    = [.obj ⟨1, "f", [sA]⟩ 0] := by decide +kernel

end Verif.Props
