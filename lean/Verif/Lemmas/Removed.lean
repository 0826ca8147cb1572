import Verif.Spec.Removed
import Verif.Lemmas.RearrangeRefs
/-!
# Files with some of the declarations
-/
namespace Verif.Lemmas.Rearrange
open Verif.Model Verif.Spec Verif.Lemmas

theorem names_unique {k : Piece} {p p' : Nat} {n n' : List Char} (h : k.Names p n) (h' : k.Names p' n') : p = p' ∧ n = n' := by
  obtain ⟨rfl, a, x, b, r, e, h1, h2, h3, rfl⟩ := h
  obtain ⟨rfl, a', x', b', r', e', h1', h2', h3', rfl⟩ := h'
  rw [e] at e'
  have e1 : (a ++ [x]) ++ b :: r = (a' ++ [x']) ++ b' :: r' := by simpa using e'
  obtain ⟨e2, -, -⟩ := upto_bra (app_noBrace (name_noBrace h1) (one_noBrace (noBrace_of h2)))
    (app_noBrace (name_noBrace h1') (one_noBrace (noBrace_of h2'))) h3 h3' e1
  have := (List.append_inj_right' e2 rfl)
  simp only [List.cons.injEq, and_true] at this
  rw [this]
  exact ⟨rfl, rfl⟩

variable {g : STab} {B : Names}

theorem reads_names {p : Piece} {x : Obj × List (String × PVal)} (h : ReadsAs g B p x) : p.Names x.1.pkg x.1.name := by
  obtain ⟨h1, -, a, e, b, N, ds, h3, h4, -, -, -, -, y, c, r, k, rfl, h6, h7, h8, -⟩ := h
  exact ⟨h1.symm, a, y, c, r ++ [k], by rw [h3]; simp, name_shape h4, h6, h8, h7⟩

/-- the names of the declarations are those of the objects -/
theorem stays_iff {ks : List Piece} {items : List (Obj × List (String × PVal))} (h : List.Forall₂ (ReadsAs g B) ks items)
    {p : Nat} {n : List Char} : Stays ks p n ↔ ∃ x ∈ items, x.1.pkg = p ∧ x.1.name = n := by
  induction h with
  | nil => simp [Stays]
  | cons h1 _ ih =>
    simp only [Stays, List.mem_cons, exists_eq_or_imp] at ih ⊢
    rw [ih]
    refine or_congr ⟨fun h => ?_, ?_⟩ Iff.rfl
    · obtain ⟨a, b⟩ := names_unique (reads_names h1) h
      exact ⟨a, b⟩
    · rintro ⟨rfl, rfl⟩
      exact reads_names h1

theorem thinned_written (hb : Base g B) (hs : SepsOk B.seps) {fs fs' : List OpenFile} {ks : List Piece}
    (hE : ∀ f ∈ fs, f.env.global = g)
    (hE' : ∀ f ∈ fs', f.env.global = g) (hr : Thinned fs fs' ks) {items : List (Obj × List (String × PVal))} {N : Names}
    (h : WrittenFiles B 0 fs items N) (hx : Good g B (items.map dec) → ∀ x ∈ items, RefsOk B (items.map dec) x) :
    ∃ kept gone N', items.Perm (kept ++ gone) ∧ WrittenFiles B 0 fs' kept N' ∧ List.Forall₂ (ReadsAs g B) ks kept ∧
      Good g B (items.map dec) := by
  obtain ⟨ps, rs, ps', p1, p2, p3, p4⟩ := hr
  obtain ⟨ps0, k1, k2, -, k4⟩ := files_pieces hb hs h hE [] rfl (grown_refl hb.otyps)
    ⟨(fun d hd => by cases hd), List.Pairwise.nil⟩
  rw [List.nil_append] at k4
  cases filePieces_unique k1 p1
  obtain ⟨items', i1, i2⟩ := f2_perm p3 k2
  obtain ⟨kept, gone, rfl, i3, -⟩ := f2_append i2
  have hq : ∀ p ∈ ks, p.env.global = g := fun p hp => filePieces_env p1 hE p (p3.mem_iff.2 (List.mem_append_left _ hp))
  have i4 := reads_same hb p4 hq i3
  have hpm : (items.map dec).Perm (kept.map dec ++ gone.map dec) := by rw [← List.map_append]; exact i1.map _
  have hg := good_prefix (good_perm hpm k4) (List.prefix_append _ _)
  obtain ⟨N', hN'⟩ := pieces_files hb hg p2 hE' kept [] B i4 (grown_refl hb.otyps) (by simp)
    (fun x hx' a ha τ p n hh => by
      obtain ⟨q1, q2⟩ := hx k4 x (i1.mem_iff.2 (List.mem_append_left _ hx')) a ha τ p n hh
      exact ⟨q1, fun d hd => q2 d (hpm.mem_iff.2 (List.mem_append_left _ hd))⟩)
  exact ⟨kept, gone, N', i1, hN', i3, k4⟩

end Verif.Lemmas.Rearrange
