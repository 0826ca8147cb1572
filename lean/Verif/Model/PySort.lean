import Mathlib.Data.List.Sort
/-!
# Python's `sorted` and comparison of strings

`sorted` is stable and its result is determined by the comparison; it is modelled by
insertion sort, which is stable as well.  Strings compare by code points.
-/
namespace Verif.Model

/-- `a <= b` for strings (`trlc/trlc.py:263, 310, 320, 336, 403-420, 439`) -/
def pyLe : List Char → List Char → Bool
  | [], _ => true
  | _ :: _, [] => false
  | a :: as, b :: bs => decide (a.toNat < b.toNat) || (a.toNat == b.toNat && pyLe as bs)

/-- Insert before the first element that is not smaller (`trlc/trlc.py:263, 310, 320, 336, 403-420, 439`) -/
def insertBy {α : Type} (le : α → α → Bool) (x : α) : List α → List α
  | [] => [x]
  | y :: ys => if le x y then x :: y :: ys else y :: insertBy le x ys

/-- `sorted(l)` for the order `le` (`trlc/trlc.py:263, 310, 320, 336, 403-420, 439`) -/
def pySort {α : Type} (le : α → α → Bool) : List α → List α
  | [] => []
  | x :: xs => insertBy le x (pySort le xs)

theorem pyLe_refl (a : List Char) : pyLe a a = true := by
  induction a with
  | nil => rfl
  | cons x xs ih => simp [pyLe, ih]

theorem pyLe_total (a b : List Char) : pyLe a b = true ∨ pyLe b a = true := by
  induction a generalizing b with
  | nil => simp [pyLe]
  | cons x xs ih =>
    cases b with
    | nil => simp [pyLe]
    | cons y ys =>
      simp only [pyLe, Bool.or_eq_true, decide_eq_true_eq, Bool.and_eq_true, beq_iff_eq]
      rcases ih ys with h | h
      · rcases Nat.lt_trichotomy x.toNat y.toNat with h1 | h1 | h1 <;> tauto
      · rcases Nat.lt_trichotomy x.toNat y.toNat with h1 | h1 | h1 <;> tauto

theorem pyLe_trans {a b c : List Char} (h1 : pyLe a b = true) (h2 : pyLe b c = true) : pyLe a c = true := by
  induction a generalizing b c with
  | nil => simp [pyLe]
  | cons x xs ih =>
    cases b with
    | nil => simp [pyLe] at h1
    | cons y ys =>
      cases c with
      | nil => simp [pyLe] at h2
      | cons z zs =>
        simp only [pyLe, Bool.or_eq_true, decide_eq_true_eq, Bool.and_eq_true, beq_iff_eq] at *
        rcases h1 with h1 | ⟨h1, h1'⟩ <;> rcases h2 with h2 | ⟨h2, h2'⟩
        · left; omega
        · left; omega
        · left; omega
        · right; exact ⟨by omega, ih h1' h2'⟩

theorem pyLe_antisymm {a b : List Char} (h1 : pyLe a b = true) (h2 : pyLe b a = true) : a = b := by
  induction a generalizing b with
  | nil => cases b with
    | nil => rfl
    | cons y ys => simp [pyLe] at h2
  | cons x xs ih =>
    cases b with
    | nil => simp [pyLe] at h1
    | cons y ys =>
      simp only [pyLe, Bool.or_eq_true, decide_eq_true_eq, Bool.and_eq_true, beq_iff_eq] at *
      have hxy : x.toNat = y.toNat := by omega
      have : x = y := Char.toNat_inj.mp hxy
      subst this
      rw [ih (b := ys) (by rcases h1 with h | h; · omega
                           exact h.2) (by rcases h2 with h | h; · omega
                                          exact h.2)]

theorem insertBy_perm {α : Type} (le : α → α → Bool) (x : α) (l : List α) : (insertBy le x l).Perm (x :: l) := by
  induction l with
  | nil => exact List.Perm.refl _
  | cons y ys ih =>
    simp only [insertBy]
    split
    · exact List.Perm.refl _
    · exact (ih.cons y).trans (List.Perm.swap x y ys)

theorem pySort_perm {α : Type} (le : α → α → Bool) (l : List α) : (pySort le l).Perm l := by
  induction l with
  | nil => exact List.Perm.refl _
  | cons x xs ih => exact (insertBy_perm le x _).trans (ih.cons x)

theorem pySort_sorted {α : Type} {le : α → α → Bool} (htot : ∀ a b, le a b = true ∨ le b a = true)
    (htr : ∀ a b c, le a b = true → le b c = true → le a c = true) (l : List α) :
    (pySort le l).Pairwise (fun a b => le a b = true) := by
  have hins : ∀ (x : α) (l : List α), l.Pairwise (fun a b => le a b = true) →
      (insertBy le x l).Pairwise (fun a b => le a b = true) := by
    intro x l
    induction l with
    | nil => intro _; simp [insertBy]
    | cons y ys ih =>
      intro h
      rw [List.pairwise_cons] at h
      simp only [insertBy]
      split
      · rename_i hxy
        rw [List.pairwise_cons, List.pairwise_cons]
        refine ⟨?_, h⟩
        intro z hz
        rcases List.mem_cons.mp hz with rfl | hz
        · exact hxy
        · exact htr _ _ _ hxy (h.1 z hz)
      · rename_i hxy
        rw [List.pairwise_cons]
        refine ⟨?_, ih h.2⟩
        intro z hz
        rcases List.mem_cons.mp ((insertBy_perm le x ys).mem_iff.mp hz) with rfl | hz
        · rcases htot z y with h1 | h1
          · exact absurd h1 hxy
          · exact h1
        · exact h.1 z hz
  induction l with
  | nil => simp [pySort]
  | cons x xs ih => exact hins x _ ih

/-- Sorting does not depend on the order of the input if equal keys mean equal
elements. -/
theorem pySort_eq_of_perm {α : Type} {le : α → α → Bool} (htot : ∀ a b, le a b = true ∨ le b a = true)
    (htr : ∀ a b c, le a b = true → le b c = true → le a c = true) {l l' : List α} (hp : l.Perm l')
    (hanti : ∀ a ∈ l, ∀ b ∈ l, le a b = true → le b a = true → a = b) : pySort le l = pySort le l' := by
  refine List.Perm.eq_of_pairwise ?_ (pySort_sorted htot htr l) (pySort_sorted htot htr l')
    ((pySort_perm le l).trans (hp.trans (pySort_perm le l').symm))
  intro a b ha hb hab hba
  exact hanti a ((pySort_perm le l).mem_iff.mp ha) b
    (hp.mem_iff.mpr ((pySort_perm le l').mem_iff.mp hb)) hab hba

end Verif.Model
