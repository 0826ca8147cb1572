import Verif.Lemmas.RenameRun
import Verif.Lemmas.RenameMarkup
import Verif.Lemmas.Project
/-!
# Two runs with different packages: the files
-/
namespace Verif.Lemmas.Rename
open Verif.Model Verif.Lemmas Verif.Spec

/-! ## Reading one preamble -/

/-- The file is read as `l` without errors, by a run that starts in `s`, up to the number of its package. -/
def Reads (s : PS) (f : Source) (l : Loaded) : Prop :=
  ∃ g g1 l0 s1, loadPreamble g f s = .ok (g1, l0) s1 ∧ s1.errs = s.errs ∧
    l.cu = { l0.cu with imports := some l0.cu.raw } ∧ l.src = l0.src

theorem reads_same {s : PS} {f : Source} {l l' : Loaded} (h : Reads s f l) (h' : Reads s f l') :
    l'.cu = l.cu ∧ l'.src = l.src := by
  obtain ⟨g, g1, l0, s1, h1, e1, a, b⟩ := h
  obtain ⟨g', g1', l0', s1', h1', e1', a', b'⟩ := h'
  obtain ⟨p, is, id, k, hd⟩ := loadPreamble_good h1 e1
  obtain ⟨p', is', id', k', hd'⟩ := loadPreamble_good h1' e1'
  have key : l0'.cu = l0.cu ∧ l0'.src = l0.src := by
    have n := k.noErr
    have n' := k'.noErr
    unfold loadPreamble at h1 h1'
    cases hr : readPackage (s.use f) with
    | crash c t => rw [hr] at h1; cases h1
    | err t => rw [hr] at h1; cases h1; cases n
    | ok t s2 =>
      rw [hr] at h1 h1'
      dsimp only at h1 h1'
      cases hx : declarePackage g f.file.kind t.text with
      | error e => rw [hx] at h1; cases h1; cases n
      | ok x =>
        cases hx' : declarePackage g' f.file.kind t.text with
        | error e => rw [hx'] at h1'; cases h1'; cases n'
        | ok x' =>
          rw [hx] at h1
          rw [hx'] at h1'
          dsimp only at h1 h1'
          generalize readImports t.text (s2.toks + 1) s2 = y at h1 h1'
          obtain ⟨is, y⟩ := y
          cases y with
          | crash c t => cases h1
          | err t => cases h1; cases n
          | ok u t => cases h1; cases h1'; exact ⟨rfl, rfl⟩
  rw [a', a, b', b, key.1, key.2]
  exact ⟨rfl, rfl⟩

theorem use_eq {s t : PS} (h : Quiet s t) (he : t.errs = s.errs) (f : Source) : t.use f = s.use f := by
  obtain ⟨_, _, _, _, _, _, _, _, _, _, _, _⟩ := s
  obtain ⟨_, _, _, _, _, _, _, _, _, _, _, _⟩ := t
  obtain ⟨a1, a2, a3, a4, a5, a6, a7, -⟩ := h
  dsimp only at a1 a2 a3 a4 a5 a6 a7 he
  subst a1 a2 a3 a4 a5 a6 a7 he
  rfl

theorem loadPreamble_from {s t : PS} (h : Quiet s t) (he : t.errs = s.errs) (g : STab) (f : Source) :
    loadPreamble g f t = loadPreamble g f s := by
  unfold loadPreamble
  rw [use_eq h he]

/-- one file, before its imports are resolved -/
def Reads0 (s : PS) (f : Source) (l : Loaded) : Prop :=
  ∃ g g1 s1, loadPreamble g f s = .ok (g1, l) s1 ∧ s1.errs = s.errs

theorem loadPreambles_reads {s0 : PS} {g g' : STab} {fs : List Source} {s s' : PS} {ls : List Loaded}
    (ht : PkgTab g) (hq : Quiet s0 s) (hs : s.errs = s0.errs) (h : loadPreambles g fs s = .ok (g', ls) s')
    (he : s'.errs = s.errs) : List.Forall₂ (Reads0 s0) fs ls := by
  induction fs generalizing g s ls with
  | nil =>
    unfold loadPreambles at h
    rw [pure_apply] at h
    cases h
    exact .nil
  | cons f fs ih =>
    unfold loadPreambles at h
    rw [bind_apply] at h
    split at h
    · next r s1 h1 =>
      obtain ⟨g1, l⟩ := r
      have hl := loadPreamble_ok ht h1
      rw [bind_apply] at h
      split at h
      · next r2 s2 h2 =>
        obtain ⟨g2, ls2⟩ := r2
        rw [pure_apply] at h
        cases h
        have ha := loadPreambles_ok hl.tab h2
        obtain ⟨e1, q1⟩ := hl.quiet.errs
        obtain ⟨e2, q2⟩ := ha.quiet.errs
        have he1 : s1.errs = s.errs := by
          rw [q2, q1, List.append_assoc] at he
          have := List.append_right_eq_self.1 he
          rw [List.append_eq_nil_iff] at this
          rw [q1, this.1, List.append_nil]
        refine .cons ⟨g, g1, s1, ?_, he1.trans hs⟩ (ih hl.tab (hq.trans hl.quiet) (he1.trans hs) h2 (he.trans he1.symm))
        rw [← loadPreamble_from hq hs]
        exact h1
      · cases h
      · cases h
    · cases h
    · cases h

theorem resolved_raw {g : STab} {cu : CU} (h1 : cu.err = false) (h2 : cu.package ≠ none) (h : importErrors g cu = []) :
    resolveImports g cu = { cu with imports := some cu.raw } := by
  unfold importErrors at h
  unfold resolveImports
  obtain ⟨p, hp⟩ := Option.ne_none_iff_exists'.1 h2
  rw [h1, hp] at h ⊢
  simp only [Option.isNone_some, Bool.or_self, Bool.false_eq_true, if_false, List.filterMap_eq_nil_iff] at h ⊢
  rw [List.filter_eq_self.2]
  intro i hi
  have := h i hi
  cases hl : g.lookup i (some isPackage) with
  | ok e => rfl
  | error e => rw [hl] at this; cases this

theorem reads_resolved {s : PS} {g : STab} {fs : List Source} {ls : List Loaded} (h : List.Forall₂ (Reads0 s) fs ls)
    (he : (ls.flatMap fun l => importErrors g l.cu) = []) :
    List.Forall₂ (Reads s) fs (ls.map fun l => { l with cu := resolveImports g l.cu }) := by
  induction h with
  | nil => exact .nil
  | cons h1 _ ih =>
    rw [List.flatMap_cons, List.append_eq_nil_iff] at he
    obtain ⟨g0, g1, s1, h2, h3⟩ := h1
    obtain ⟨p, is, id, k, -⟩ := loadPreamble_good h2 h3
    refine .cons ⟨g0, g1, _, s1, h2, h3, ?_, rfl⟩ (ih he.2)
    exact resolved_raw k.noErr (by rw [k.package]; exact Option.some_ne_none p) he.1

/-- What loading without errors leaves behind -/
theorem loadAll_known {fs : List Source} {s s' : PS} {g : STab} {ls : List Loaded}
    (h : loadAll globalTable fs s = .ok (g, ls) s') (he : s'.errs = s.errs) :
    (∃ P, Known g P ∧ ∀ q, q ∈ P ↔ ∃ f ∈ fs, Belongs f q) ∧ List.Forall₂ (Reads s)
      (sortSources (fs.filter (·.file.kind = .rsl)) ++ sortSources (fs.filter (·.file.kind = .trlc))) ls := by
  unfold loadAll at h
  rw [bind_apply] at h
  split at h
  · next r1 s1 h1 =>
    obtain ⟨g1, l1⟩ := r1
    have a1 := loadPreambles_ok globalTable_pkgTab h1
    rw [bind_apply] at h
    split at h
    · next l1' s2 h2 =>
      obtain ⟨e1, e2⟩ := resolveLoaded_ok h2
      rw [bind_apply] at h
      split at h
      · next r3 s3 h3 =>
        obtain ⟨g2, l2⟩ := r3
        have a2 := loadPreambles_ok a1.tab h3
        rw [bind_apply] at h
        split at h
        · next l2' s4 h4 =>
          obtain ⟨e3, e4⟩ := resolveLoaded_ok h4
          rw [pure_apply] at h
          injection h with h h'
          subst h'
          injection h with h h'
          subst h
          subst h'
          dsimp only at e1 e2 e3 e4 a2 h3
          obtain ⟨x1, q1⟩ := a1.quiet.errs
          obtain ⟨x2, q2⟩ := a2.quiet.errs
          have q3 : s2.errs = s1.errs ++ l1.flatMap fun l => importErrors g1 l.cu := by rw [e2]
          have q4 : s4.errs = s3.errs ++ l2.flatMap fun l => importErrors g2 l.cu := by rw [e4]
          rw [q4, q2, q3, q1, List.append_assoc, List.append_assoc, List.append_assoc] at he
          have hn := List.append_right_eq_self.1 he
          simp only [List.append_eq_nil_iff] at hn
          obtain ⟨rfl, n2, rfl, n4⟩ := hn
          rw [n2] at q3
          rw [List.append_nil] at q1 q2 q3
          obtain ⟨b1, ⟨P1, k1, m1⟩, f1⟩ := loadPreambles_good globalTable_pkgTab known_global h1 q1
          obtain ⟨b2, ⟨P2, k2, m2⟩, f2⟩ := loadPreambles_good a1.tab k1 h3 q2
          obtain ⟨m1', m2'⟩ := belongs_kinds m1 m2
          have hq : Quiet s s2 := by
            refine a1.quiet.trans ?_
            rw [e2]
            exact ⟨rfl, rfl, rfl, rfl, rfl, rfl, rfl, _, rfl⟩
          subst e1
          subst e3
          exact ⟨⟨P2, k2, m2'⟩, forall₂_append
            (reads_resolved (loadPreambles_reads globalTable_pkgTab (Quiet.refl s) rfl h1 q1) n2)
            (reads_resolved (loadPreambles_reads a1.tab hq (q3.trans q1) h3 q2) n4)⟩
        · cases h
        · cases h
      · cases h
      · cases h
    · cases h
    · cases h
  · cases h
  · cases h

/-! ## Which files are there -/

/-- The same file, with another number of its package -/
def SameFile (l l' : Loaded) : Prop := l'.cu = l.cu ∧ l'.src = l.src

theorem filter_reads {s : PS} {keep : Source → Bool} {p p' : CU → Bool} {F : List Source} : ∀ {ls ls' : List Loaded},
    List.Forall₂ (Reads s) F ls' → List.Forall₂ (Reads s) (F.filter keep) ls →
    (∀ l ∈ ls, p' l.cu = p l.cu) →
    (∀ f ∈ F, keep f = false → ∀ l ∈ ls', Reads s f l → p' l.cu = false) →
    List.Forall₂ SameFile (ls.filter fun l => p l.cu) (ls'.filter fun l => p' l.cu) := by
  induction F with
  | nil => intro ls ls' h1 h2 _ _; cases h1; cases h2; exact .nil
  | cons f F ih =>
    intro ls ls' h1 h2 hp hk
    cases h1 with
    | @cons _ l' _ ls1' h3 h4 =>
    cases hf : keep f with
    | true =>
      rw [List.filter_cons, if_pos hf] at h2
      cases h2 with
      | @cons _ l _ ls1 h5 h6 =>
      have hs := reads_same h5 h3
      have hi := ih h4 h6 (fun l hl => hp l (List.mem_cons_of_mem _ hl))
        (fun x hx hkx l hl => hk x (List.mem_cons_of_mem _ hx) hkx l (List.mem_cons_of_mem _ hl))
      rw [List.filter_cons, List.filter_cons, hs.1, hp l (List.mem_cons_self ..)]
      cases p l.cu with
      | true => exact .cons hs hi
      | false => exact hi
    | false =>
      rw [List.filter_cons, hf] at h2
      rw [List.filter_cons (x := l'), hk f (List.mem_cons_self ..) hf l' (List.mem_cons_self ..) h3]
      exact ih h4 h2 hp (fun x hx hkx l hl => hk x (List.mem_cons_of_mem _ hx) hkx l (List.mem_cons_of_mem _ hl))

/-- Removing files does not change the order of the others. -/
theorem sort_filter {fs : List Source} (hn : (fs.map (·.file.name)).Nodup) (keep : Source → Bool) :
    sortSources (fs.filter keep) = (sortSources fs).filter keep := by
  have tot : ∀ a b : Source, pyLe a.file.name.toList b.file.name.toList = true ∨
      pyLe b.file.name.toList a.file.name.toList = true := fun a b => pyLe_total _ _
  have tr : ∀ a b c : Source, pyLe a.file.name.toList b.file.name.toList = true →
      pyLe b.file.name.toList c.file.name.toList = true → pyLe a.file.name.toList c.file.name.toList = true :=
    fun a b c => pyLe_trans
  refine List.Perm.eq_of_pairwise (le := fun a b : Source => pyLe a.file.name.toList b.file.name.toList = true) ?_
    (sortSources_sorted _) ((sortSources_sorted _).filter _) ?_
  · intro a b ha hb h1 h2
    have hna : a.file.name = b.file.name := by
      have := pyLe_antisymm h1 h2
      exact String.toList_injective this
    have ha : a ∈ fs := (List.mem_filter.1 (sortSources_mem.1 ha)).1
    have hb : b ∈ fs := sortSources_mem.1 (List.mem_filter.1 hb).1
    exact List.inj_on_of_nodup_map hn ha hb hna
  · exact (pySort_perm _ _).trans ((pySort_perm _ _).filter keep).symm

theorem order_filter {fs : List Source} (hn : (fs.map (·.file.name)).Nodup) (keep : Source → Bool) :
    sortSources ((fs.filter keep).filter (·.file.kind = .rsl)) ++ sortSources ((fs.filter keep).filter (·.file.kind = .trlc)) =
      (sortSources (fs.filter (·.file.kind = .rsl)) ++ sortSources (fs.filter (·.file.kind = .trlc))).filter keep := by
  have sub : ∀ k : FKind, ((fs.filter (·.file.kind = k)).map (·.file.name)).Nodup := fun k =>
    hn.sublist (List.filter_sublist.map _)
  rw [List.filter_append, ← sort_filter (sub .rsl), ← sort_filter (sub .trlc), List.filter_comm keep, List.filter_comm keep]

/-! ## Layers -/

theorem parseLayers_congr {N : Type} [DecidableEq N] {deps deps' : N → List N} {sort : List N → List N} (k : Nat) :
    ∀ (wl processed : List N), (∀ n ∈ wl, deps' n = deps n) →
      parseLayers deps' sort k wl processed = parseLayers deps sort k wl processed := by
  induction k with
  | zero => intro wl p _; rfl
  | succ k ih =>
    intro wl p h
    unfold parseLayers
    have h1 : (wl.filter fun n => (deps' n).all fun d => p.contains d) = wl.filter fun n => (deps n).all fun d => p.contains d :=
      List.filter_congr fun n hn => by rw [h n hn]
    rw [h1]
    dsimp only
    rw [ih _ _ fun n hn => h n (List.mem_filter.1 hn).1]

theorem importEdges_map {n : PNode} : ∀ (ls : List CU), importEdges n ls =
    (ls.filter fun cu => !cu.err && cu.package == some n.1 && cu.file.kind == n.2).flatMap
      fun cu => (cu.imports.getD []).map fun i => (i, n.2) := by
  intro ls
  induction ls with
  | nil => rfl
  | cons cu ls ih =>
    unfold importEdges
    rw [List.filter_cons, ih]
    by_cases h : cu.err = false ∧ cu.package = some n.1 ∧ cu.file.kind = n.2
    · rw [if_pos h, if_pos (by rw [h.1, h.2.1, h.2.2]; simp)]
      rfl
    · rw [if_neg h, if_neg]
      intro hh
      simp only [Bool.and_eq_true, Bool.not_eq_true', beq_iff_eq] at hh
      exact h ⟨hh.1.1, hh.1.2, hh.2⟩

theorem mem_graphKeys {cus : List CU} {n : PNode} :
    n ∈ graphKeys cus ↔ ∃ cu ∈ cus, cu.package = some n.1 ∧ cu.err = false := by
  obtain ⟨q, k⟩ := n
  induction cus with
  | nil => simp [graphKeys]
  | cons cu cus ih =>
    unfold graphKeys
    rw [List.exists_mem_cons_iff]
    split
    · next p h1 h2 =>
      rw [List.mem_cons, List.mem_cons, ih, h1, h2]
      simp only [Prod.mk.injEq, Option.some.injEq, and_true]
      constructor
      · rintro (h | h | h)
        · exact .inl h.1.symm
        · exact .inl h.1.symm
        · exact .inr h
      · rintro (h | h)
        · cases k
          · exact .inl ⟨h.symm, rfl⟩
          · exact .inr (.inl ⟨h.symm, rfl⟩)
        · exact .inr (.inr h)
    · next hh =>
      rw [ih]
      constructor
      · exact fun h => .inr h
      · rintro (h | h)
        · exact absurd h.2 (fun e => hh _ h.1 e)
        · exact h

end Verif.Lemmas.Rename
