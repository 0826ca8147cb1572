import Verif.Model.Sources
import Verif.Props.SymbolTable
import Mathlib.Data.Finset.Card
import Mathlib.Order.WellFounded
import Mathlib.Data.Fintype.Card
import Mathlib.Data.List.Perm.Basic
import Mathlib.Logic.Relation
/-!
# C14: exactly the needed packages are parsed
-/
namespace Verif.Props
open Verif.Model

/-! ## C14: specification -/

/-- A package contributed by a file with a sound preamble -/
def Known (cus : List CU) (p : List Char) : Prop := ∃ u ∈ cus, u.err = false ∧ u.package = some p

/-- A part of a package needs another one: the trlc part needs the rsl part, and every
part needs the same part of the packages its files import. -/
inductive Needs (cus : List CU) : PNode → PNode → Prop
  | own {p : List Char} : Known cus p → Needs cus (p, .trlc) (p, .rsl)
  | imp {u : CU} {p i : List Char} {is : List (List Char)} : u ∈ cus → u.err = false → u.package = some p →
      u.imports = some is → i ∈ is → Needs cus (p, u.file.kind) (i, u.file.kind)

/-- What is wanted: the packages of requested files and everything they need. -/
inductive Wanted (cus : List CU) : PNode → Prop
  | root {u : CU} {p : List Char} : u ∈ cus → u.file.primary = true → u.package = some p → Known cus p →
      Wanted cus (p, u.file.kind)
  | step {m n : PNode} : Wanted cus m → Needs cus m n → Known cus n.1 → Wanted cus n

/-! ## The closure loop on any graph -/

section closure
variable {N : Type} (keys : Finset N) (deps : N → Finset N)

/-- reachable from `roots` inside `keys` -/
inductive ReachIn (roots : Finset N) : N → Prop
  | root {n : N} : n ∈ roots → ReachIn roots n
  | step {m n : N} : ReachIn roots m → n ∈ deps m → n ∈ keys → ReachIn roots n

private structure CInv (roots : Finset N) (s : Finset N × Finset N) : Prop where
  sound : ∀ n, n ∈ s.1 ∨ n ∈ s.2 → ReachIn keys deps roots n
  complete : ∀ n ∈ roots, n ∈ s.1 ∨ n ∈ s.2
  closed : ∀ m ∈ s.2, ∀ n ∈ deps m, n ∈ keys → n ∈ s.1 ∨ n ∈ s.2
  disj : ∀ n ∈ s.1, n ∉ s.2
  sub : s.1 ⊆ keys
  sub2 : s.2 ⊆ keys

variable {keys deps}

private theorem cinv_step [DecidableEq N] {roots : Finset N} {s t : Finset N × Finset N} (h : CInv keys deps roots s)
    (hs : CloseStep keys deps s t) : CInv keys deps roots t := by
  cases hs with
  | @pop wl req n hn =>
    refine ⟨?_, ?_, ?_, ?_, ?_, ?_⟩
    · intro m hm
      simp only [Finset.mem_union, Finset.mem_erase, Finset.mem_inter, Finset.mem_sdiff, Finset.mem_insert] at hm
      have hR : ReachIn keys deps roots n := h.sound n (Or.inl hn)
      rcases hm with (hm | hm) | hm
      · exact h.sound m (Or.inl hm.2)
      · exact .step hR hm.1.1 hm.2
      · rcases hm with rfl | hm
        · exact hR
        · exact h.sound m (Or.inr hm)
    · intro m hm
      simp only [Finset.mem_union, Finset.mem_erase, Finset.mem_inter, Finset.mem_sdiff, Finset.mem_insert]
      by_cases hmn : m = n
      · exact Or.inr (Or.inl hmn)
      · rcases h.complete m hm with h1 | h1
        · exact Or.inl (Or.inl ⟨hmn, h1⟩)
        · exact Or.inr (Or.inr h1)
    · intro m hm k hk hkk
      simp only [Finset.mem_union, Finset.mem_erase, Finset.mem_inter, Finset.mem_sdiff, Finset.mem_insert] at hm ⊢
      by_cases hkn : k = n
      · exact Or.inr (Or.inl hkn)
      · rcases hm with rfl | hm
        · by_cases hkr : k ∈ req
          · exact Or.inr (Or.inr hkr)
          · exact Or.inl (Or.inr ⟨⟨hk, by tauto⟩, hkk⟩)
        · rcases h.closed m hm k hk hkk with h1 | h1
          · exact Or.inl (Or.inl ⟨hkn, h1⟩)
          · exact Or.inr (Or.inr h1)
    · intro m hm
      simp only [Finset.mem_union, Finset.mem_erase, Finset.mem_inter, Finset.mem_sdiff, Finset.mem_insert] at hm ⊢
      rcases hm with hm | hm
      · rintro (rfl | h1)
        · exact hm.1 rfl
        · exact h.disj m hm.2 h1
      · tauto
    · intro m hm
      simp only [Finset.mem_union, Finset.mem_erase, Finset.mem_inter] at hm
      rcases hm with hm | hm
      · exact h.sub hm.2
      · exact hm.2
    · intro m hm
      simp only [Finset.mem_insert] at hm
      rcases hm with rfl | hm
      · exact h.sub hn
      · exact h.sub2 hm

private theorem cinv_run [DecidableEq N] {roots : Finset N} {s t : Finset N × Finset N} (h : CInv keys deps roots s)
    (hs : CloseRun keys deps s t) : CInv keys deps roots t := by
  induction hs with
  | refl => exact h
  | step h1 _ ih => exact ih (cinv_step h h1)

private theorem cinv_init {roots : Finset N} (hr : roots ⊆ keys) : CInv keys deps roots (roots, ∅) :=
  ⟨fun n hn => by simp at hn; exact .root hn, fun n hn => Or.inl hn, by simp, by simp, hr, by simp⟩

/-- Whatever element each round picks, the loop ends with exactly the reachable nodes. -/
theorem close_exact [DecidableEq N] {roots : Finset N} (hr : roots ⊆ keys) {req : Finset N}
    (h : CloseRun keys deps (roots, ∅) (∅, req)) (n : N) : n ∈ req ↔ ReachIn keys deps roots n := by
  have hi := cinv_run (cinv_init hr) h
  constructor
  · exact fun hn => hi.sound n (Or.inr hn)
  · intro hn
    induction hn with
    | root hn => rcases hi.complete _ hn with h1 | h1; · simp at h1
                 exact h1
    | step _ hd hk ih => rcases hi.closed _ ih _ hd hk with h1 | h1; · simp at h1
                         exact h1

/-- Every round shrinks the set of nodes not yet required, so the loop always ends:
there is no infinite sequence of rounds and the loop never stops early. -/
theorem close_terminates [DecidableEq N] {roots : Finset N} {s t : Finset N × Finset N} (h : CInv keys deps roots s)
    (hs : CloseStep keys deps s t) : (keys \ t.2).card < (keys \ s.2).card := by
  cases hs with
  | @pop wl req n hn =>
    apply Finset.card_lt_card
    rw [Finset.ssubset_iff_of_subset]
    · refine ⟨n, ?_, ?_⟩
      · simp [h.sub hn, h.disj n hn]
      · simp
    · intro m hm
      simp only [Finset.mem_sdiff, Finset.mem_insert, not_or] at hm ⊢
      exact ⟨hm.1, hm.2.2⟩

theorem close_exists [DecidableEq N] {roots : Finset N} (hr : roots ⊆ keys) :
    ∃ req, CloseRun keys deps (roots, ∅) (∅, req) := by
  have : ∀ (k : Nat) (s : Finset N × Finset N), CInv keys deps roots s → (keys \ s.2).card = k →
      ∃ req, CloseRun keys deps s (∅, req) := by
    intro k
    induction k using Nat.strong_induction_on with
    | _ k ih =>
      rintro ⟨wl, req⟩ hi hk
      by_cases hw : wl = ∅
      · subst hw; exact ⟨req, .refl _⟩
      · obtain ⟨n, hn⟩ := Finset.nonempty_iff_ne_empty.mpr hw
        have st : CloseStep keys deps (wl, req) _ := .pop hn
        obtain ⟨r, hr⟩ := ih _ (hk ▸ close_terminates hi st) _ (cinv_step hi st) rfl
        exact ⟨r, .step st hr⟩
  exact this _ _ (cinv_init hr) rfl

end closure

/-! ## C14 -/

theorem mem_keys (cus : List CU) (n : PNode) : n ∈ graphKeys cus ↔ Known cus n.1 := by
  obtain ⟨p, k⟩ := n
  induction cus with
  | nil => simp [graphKeys, Known]
  | cons u us ih =>
    have hK : Known (u :: us) p ↔ (u.err = false ∧ u.package = some p) ∨ Known us p := by
      simp [Known]
    simp only at ih
    simp only [graphKeys, hK]
    cases hp : u.package with
    | none => simpa using ih
    | some q =>
      cases he : u.err with
      | true => simpa using ih
      | false =>
        simp only [List.mem_cons, ih, Prod.mk.injEq, Option.some.injEq, true_and]
        cases k <;> simp [eq_comm]

private theorem mem_importEdges (cus : List CU) (m n : PNode) : n ∈ importEdges m cus ↔
    ∃ u ∈ cus, u.err = false ∧ u.package = some m.1 ∧ u.file.kind = m.2 ∧
      ∃ is, u.imports = some is ∧ n.1 ∈ is ∧ n.2 = m.2 := by
  obtain ⟨q, k⟩ := n
  induction cus with
  | nil => simp [importEdges]
  | cons u us ih =>
    simp only [importEdges, List.mem_cons, exists_eq_or_imp]
    split
    · rename_i h
      obtain ⟨h1, h2, h3⟩ := h
      rw [List.mem_append, ih]
      apply or_congr_left
      simp only [h1, h2, h3, true_and, List.mem_map, Prod.mk.injEq]
      cases u.imports with
      | none => simp
      | some is => simp [eq_comm]
    · rename_i h
      rw [ih]
      constructor
      · exact Or.inr
      · rintro (⟨h1, h2, h3, _⟩ | h4)
        · exact absurd ⟨h1, h2, h3⟩ h
        · exact h4

theorem deps_iff (cus : List CU) (m n : PNode) : n ∈ graphDeps cus m ↔ Needs cus m n := by
  unfold graphDeps
  constructor
  · intro h
    split at h
    · rename_i hk
      rw [mem_keys] at hk
      rw [List.mem_append] at h
      rcases h with h | h
      · split at h
        · rename_i ht
          rw [List.mem_singleton] at h
          subst h
          obtain ⟨p, k⟩ := m
          simp only at ht; subst ht
          exact .own hk
        · simp at h
      · rw [mem_importEdges] at h
        obtain ⟨u, hu, h1, h2, h3, is, h4, h5, h6⟩ := h
        obtain ⟨p, k⟩ := m
        obtain ⟨q, k'⟩ := n
        simp only at h2 h3 h5 h6
        subst h6 h3
        exact .imp hu h1 h2 h4 h5
    · simp at h
  · intro h
    cases h with
    | own hk =>
      rw [if_pos ((mem_keys _ _).mpr hk)]
      simp
    | @imp u p i is hu h1 h2 h3 h4 =>
      rw [if_pos ((mem_keys _ _).mpr ⟨u, hu, h1, h2⟩), List.mem_append]
      right
      rw [mem_importEdges]
      exact ⟨u, hu, h1, h2, rfl, is, h3, h4, rfl⟩

theorem roots_iff (cus : List CU) (n : PNode) : n ∈ graphRoots cus ↔
    ∃ u ∈ cus, u.file.primary = true ∧ u.package = some n.1 ∧ u.file.kind = n.2 ∧ Known cus n.1 := by
  obtain ⟨p, k⟩ := n
  simp only [graphRoots, List.mem_filter, List.mem_filterMap, decide_eq_true_eq, mem_keys]
  constructor
  · rintro ⟨⟨u, hu, h⟩, hk⟩
    split at h
    · split at h
      · simp only [Option.some.injEq, Prod.mk.injEq] at h
        obtain ⟨rfl, rfl⟩ := h
        exact ⟨u, hu, by assumption, by assumption, rfl, hk⟩
      · cases h
    · cases h
  · rintro ⟨u, hu, h1, h2, rfl, hk⟩
    exact ⟨⟨u, hu, by simp [h1, h2]⟩, hk⟩

private theorem roots_sub (cus : List CU) : (graphRoots cus).toFinset ⊆ (graphKeys cus).toFinset := by
  intro n hn
  rw [List.mem_toFinset, roots_iff] at hn
  obtain ⟨u, _, _, _, _, hk⟩ := hn
  rw [List.mem_toFinset, mem_keys]; exact hk

/-- **C14**: whatever order the dependencies are visited in, the loop finds exactly the
wanted parts of packages. -/
theorem C14_required_exact (cus : List CU) (R : Finset PNode) (h : Required cus R) (n : PNode) :
    n ∈ R ↔ Wanted cus n := by
  rw [close_exact (roots_sub cus) h]
  constructor
  · intro hr
    induction hr with
    | root hn =>
      rw [List.mem_toFinset, roots_iff] at hn
      obtain ⟨u, hu, h1, h2, h3, hk⟩ := hn
      have := Wanted.root hu h1 h2 hk
      rw [h3] at this
      exact this
    | step _ hd hk ih =>
      rw [List.mem_toFinset, deps_iff] at hd
      rw [List.mem_toFinset, mem_keys] at hk
      exact .step ih hd hk
  · intro hw
    induction hw with
    | root hu h1 h2 hk =>
      refine .root ?_
      rw [List.mem_toFinset, roots_iff]
      exact ⟨_, hu, h1, h2, rfl, hk⟩
    | step _ hd hk ih =>
      refine .step ih ?_ ?_
      · rw [List.mem_toFinset, deps_iff]; exact hd
      · rw [List.mem_toFinset, mem_keys]; exact hk

/-- **C14**: the loop always comes to an end. -/
theorem C14_required_exists (cus : List CU) : ∃ R, Required cus R := close_exists (roots_sub cus)

/-- **C14**: the files parsed, among those with a sound preamble, are exactly those that
belong to a wanted part of a package. -/
theorem C14_files_parsed (cus : List CU) (R : Finset PNode) (h : Required cus R) (u : CU) (hu : u ∈ cus)
    (he : u.err = false) (p : List Char) (hp : u.package = some p) :
    (u ∈ selectedRsl R cus ∨ u ∈ selectedTrlc R cus) ↔ Wanted cus (p, u.file.kind) := by
  have hsec : isSecondary R u = true ↔ u.file.primary = false ∧ Wanted cus (p, u.file.kind) := by
    simp [isSecondary, he, hp, C14_required_exact cus R h]
  have hprim : u.file.primary = true → Wanted cus (p, u.file.kind) :=
    fun h1 => .root hu h1 hp ⟨u, hu, he, hp⟩
  simp only [selectedRsl, selectedTrlc, List.mem_filter, hu, true_and, Bool.and_eq_true, Bool.or_eq_true,
    hsec, hp, he, Option.isSome_some, Bool.not_false, decide_eq_true_eq]
  cases hk : u.file.kind <;> rw [hk] at hprim <;> cases hq : u.file.primary <;>
    simp_all

/-! ### Import names are resolved against the declared packages -/

/-- the packages a table knows -/
private def Pkg (t : STab) (p : List Char) : Prop := ∃ e, t.lookup p (some isPackage) = .ok e

private theorem pkg_iff {t : STab} (h : Built t) (p : List Char) :
    Pkg t p ↔ ∃ e ∈ visible t, e.name = p ∧ e.cls = clsPackage := by
  unfold Pkg
  simp only [C12_lookup_iff h, Option.some.injEq, forall_eq', isPackage, beq_iff_eq]

private theorem preamble_spec {t : STab} (h : Built t) (f : FileIn) :
    Built (parsePreamble t f).1 ∧ (parsePreamble t f).2.file = f ∧ (parsePreamble t f).2.imports = none ∧
    (∀ p, Pkg (parsePreamble t f).1 p ↔ Pkg t p ∨ (parsePreamble t f).2.package = some p) ∧
    (∀ p, (parsePreamble t f).2.package = some p → ∃ is b, f.pre = .pkg p is b ∧
      (parsePreamble t f).2.raw = (addImports p [] is).1 ∧
      (parsePreamble t f).2.err = ((addImports p [] is).2 || b)) ∧
    ((parsePreamble t f).2.package = none → (parsePreamble t f).2.err = true) := by
  unfold parsePreamble
  cases hpre : f.pre with
  | unreadable => exact ⟨h, rfl, rfl, by simp, by simp, by simp⟩
  | pkg p is b =>
    simp only
    split
    · split
      · rename_i t' hr
        refine ⟨.register h hr, rfl, rfl, ?_, ?_, by simp⟩
        · intro q
          rw [pkg_iff h, pkg_iff (.register h hr)]
          rcases C11_register h ⟨p, (t.own.filter (fun x => isPackage x.2)).length, clsPackage⟩ with ⟨-, t'', h1, h2, h3, h4⟩ | ⟨d, -, -, h1⟩
          · rw [hr] at h1
            cases h1
            have hv : ∀ e, e ∈ visible t' ↔ e ∈ visible t ∨ e = ⟨p, (t.own.filter (fun x => isPackage x.2)).length, clsPackage⟩ := by
              intro e
              simp only [visible, h2, h3, h4, List.mem_append, List.mem_singleton]
              tauto
            simp only [hv, Option.some.injEq]
            constructor
            · rintro ⟨e, he | rfl, h5, h6⟩
              · exact Or.inl ⟨e, he, h5, h6⟩
              · exact Or.inr h5
            · rintro (⟨e, he, h5, h6⟩ | rfl)
              · exact ⟨e, Or.inl he, h5, h6⟩
              · exact ⟨_, Or.inr rfl, rfl, rfl⟩
          · rw [hr] at h1; rcases h1 with ⟨-, h1⟩ | ⟨-, h1⟩ <;> cases h1
        · intro q hq; cases hq; exact ⟨is, b, rfl, rfl, rfl⟩
      · exact ⟨h, rfl, rfl, by simp, by simp, by simp⟩
    · split
      · rename_i e hl
        refine ⟨h, rfl, rfl, ?_, ?_, by simp⟩
        · intro q
          constructor
          · exact Or.inl
          · rintro (h1 | h1)
            · exact h1
            · cases h1; exact ⟨e, hl⟩
        · intro q hq; cases hq; exact ⟨is, b, rfl, rfl, rfl⟩
      · exact ⟨h, rfl, rfl, by simp, by simp, by simp⟩

private theorem preambles_spec (fs : List FileIn) : ∀ {t : STab}, Built t →
    Built (parsePreambles t fs).1 ∧ (parsePreambles t fs).2.map (·.file) = fs ∧
    (∀ p, Pkg (parsePreambles t fs).1 p ↔ Pkg t p ∨ ∃ u ∈ (parsePreambles t fs).2, u.package = some p) ∧
    (∀ u ∈ (parsePreambles t fs).2, u.imports = none ∧ (u.package = none → u.err = true) ∧
      ∀ p, u.package = some p → ∃ is b, u.file.pre = .pkg p is b ∧
      u.raw = (addImports p [] is).1 ∧ u.err = ((addImports p [] is).2 || b)) := by
  induction fs with
  | nil => intro t h; exact ⟨h, rfl, by simp [parsePreambles], by simp [parsePreambles]⟩
  | cons f fs ih =>
    intro t h
    obtain ⟨a1, a2, a3, a4, a5, a6⟩ := preamble_spec h f
    obtain ⟨b1, b2, b3, b4⟩ := ih a1
    simp only [parsePreambles]
    refine ⟨b1, by simp [a2, b2], ?_, ?_⟩
    · intro p
      rw [b3, a4]
      simp only [List.mem_cons, exists_eq_or_imp]
      tauto
    · intro u hu
      rcases List.mem_cons.mp hu with rfl | hu
      · refine ⟨a3, a6, ?_⟩
        intro p hp
        obtain ⟨is, b, h1, h2, h3⟩ := a5 p hp
        exact ⟨is, b, by rw [a2]; exact h1, h2, h3⟩
      · exact b4 u hu

private theorem addImports_spec (own : List Char) (is : List (List Char)) : ∀ raw,
    (addImports own raw is).2 = decide (own ∈ is) ∧
    (own ∉ is → ∀ i, i ∈ (addImports own raw is).1 ↔ i ∈ raw ∨ i ∈ is) := by
  induction is with
  | nil => intro raw; simp [addImports]
  | cons j js ih =>
    intro raw
    simp only [addImports]
    split
    · rename_i h; subst h; simp
    · rename_i h
      have h' : own ≠ j := fun e => h e.symm
      split
      · rename_i hc
        obtain ⟨h1, h2⟩ := ih raw
        refine ⟨by simp [h1, h'], fun hn i => ?_⟩
        rw [h2 (fun hm => hn (List.mem_cons_of_mem _ hm)), List.mem_cons]
        have : j ∈ raw := by simpa using hc
        constructor
        · tauto
        · rintro (h3 | rfl | h3) <;> tauto
      · obtain ⟨h1, h2⟩ := ih (raw ++ [j])
        refine ⟨by simp [h1, h'], fun hn i => ?_⟩
        rw [h2 (fun hm => hn (List.mem_cons_of_mem _ hm)), List.mem_append, List.mem_singleton, List.mem_cons]
        tauto

/-- **C14**, the import relation itself: for every file whose preamble is sound, its
package is the one named in the text, it does not import itself, and its resolved imports
are the imported names that are declared: by rsl files for an rsl file, by any file for a
trlc file. -/
theorem C14_imports (stab : STab) (hb : Built stab) (hnp : ∀ e ∈ visible stab, e.cls ≠ clsPackage)
    (fs : List FileIn) (u : CU) (hu : u ∈ (buildCUs stab fs).2) (he : u.err = false) :
    ∃ p is, u.file.pre = .pkg p is false ∧ u.package = some p ∧ p ∉ is ∧
    ∃ js, u.imports = some js ∧ ∀ i, i ∈ js ↔
      i ∈ is ∧ ∃ v ∈ (buildCUs stab fs).2, v.package = some i ∧ (u.file.kind = .rsl → v.file.kind = .rsl) := by
  have hn0 : ∀ p, ¬ Pkg stab p := by
    intro p hp
    rw [pkg_iff hb] at hp
    obtain ⟨e, h1, -, h2⟩ := hp
    exact hnp e h1 h2
  obtain ⟨a1, a2, a3, a4⟩ := preambles_spec (sortFiles (fs.filter (·.kind = .rsl))) hb
  obtain ⟨b1, b2, b3, b4⟩ := preambles_spec (sortFiles (fs.filter (·.kind = .trlc))) a1
  simp only [buildCUs] at hu ⊢
  generalize hr1 : parsePreambles stab (sortFiles (fs.filter (·.kind = .rsl))) = r1 at *
  obtain ⟨s1, c1⟩ := r1
  simp only at a1 a2 a3 a4 b1 b2 b3 b4 hu ⊢
  generalize hr2 : parsePreambles s1 (sortFiles (fs.filter (·.kind = .trlc))) = r2 at *
  obtain ⟨s2, c2⟩ := r2
  simp only at b1 b2 b3 b4 hu ⊢
  have hkind : ∀ (k : FKind) (c : List CU), c.map (·.file) = sortFiles (fs.filter (·.kind = k)) →
      ∀ v ∈ c, v.file.kind = k := by
    intro k c hc v hv
    have : v.file ∈ c.map (·.file) := List.mem_map.mpr ⟨v, hv, rfl⟩
    rw [hc, sortFiles, (pySort_perm _ _).mem_iff, List.mem_filter] at this
    simpa using this.2
  have k1 := hkind .rsl c1 a2
  have k2 := hkind .trlc c2 b2
  have hres : ∀ s (v : CU), (resolveImports s v).package = v.package ∧ (resolveImports s v).file = v.file ∧
      (resolveImports s v).err = v.err := by
    intro s v; unfold resolveImports; split <;> simp
  have hex : ∀ (i : List Char) (P : FKind → Prop),
      (∃ v ∈ c1.map (resolveImports s1) ++ c2.map (resolveImports s2), v.package = some i ∧ P v.file.kind) ↔
      ((∃ v ∈ c1, v.package = some i) ∧ P .rsl) ∨ ((∃ v ∈ c2, v.package = some i) ∧ P .trlc) := by
    intro i P
    simp only [List.mem_append, List.mem_map]
    constructor
    · rintro ⟨v, (⟨w, hw, rfl⟩ | ⟨w, hw, rfl⟩), h1, h2⟩
      · left; rw [(hres s1 w).1] at h1; rw [(hres s1 w).2.1, k1 w hw] at h2; exact ⟨⟨w, hw, h1⟩, h2⟩
      · right; rw [(hres s2 w).1] at h1; rw [(hres s2 w).2.1, k2 w hw] at h2; exact ⟨⟨w, hw, h1⟩, h2⟩
    · rintro (⟨⟨w, hw, h1⟩, h2⟩ | ⟨⟨w, hw, h1⟩, h2⟩)
      · exact ⟨_, Or.inl ⟨w, hw, rfl⟩, by rw [(hres s1 w).1]; exact h1, by rw [(hres s1 w).2.1, k1 w hw]; exact h2⟩
      · exact ⟨_, Or.inr ⟨w, hw, rfl⟩, by rw [(hres s2 w).1]; exact h1, by rw [(hres s2 w).2.1, k2 w hw]; exact h2⟩
  -- one file
  have main : ∀ (s : STab) (w : CU), w.err = false → (w.package = none → w.err = true) →
      (∀ p, w.package = some p → ∃ is b, w.file.pre = .pkg p is b ∧
        w.raw = (addImports p [] is).1 ∧ w.err = ((addImports p [] is).2 || b)) →
      ∃ p is, w.file.pre = .pkg p is false ∧ w.package = some p ∧ p ∉ is ∧
        ∃ js, (resolveImports s w).imports = some js ∧ ∀ i, i ∈ js ↔ i ∈ is ∧ Pkg s i := by
    intro s w hw1 hw2 hw3
    cases hp : w.package with
    | none => rw [hw2 hp] at hw1; cases hw1
    | some p =>
      obtain ⟨is, b, h1, h2, h3⟩ := hw3 p hp
      obtain ⟨g1, g2⟩ := addImports_spec p is []
      rw [hw1, g1] at h3
      have hb0 : b = false := by
        cases b with
        | false => rfl
        | true => simp at h3
      have hself : p ∉ is := by intro hm; simp [hm] at h3
      subst hb0
      refine ⟨p, is, h1, rfl, hself, w.raw.filter (fun i =>
        match s.lookup i (some isPackage) with
        | .ok _ => true
        | .error _ => false), ?_, ?_⟩
      · unfold resolveImports
        rw [if_neg (by simp [hw1, hp])]
        rfl
      · intro i
        rw [List.mem_filter, h2, g2 hself]
        have : (match s.lookup i (some isPackage) with
            | .ok _ => true
            | .error _ => false) = true ↔ Pkg s i := by
          unfold Pkg
          cases s.lookup i (some isPackage) <;> simp
        rw [this]
        simp
  rw [List.mem_append, List.mem_map, List.mem_map] at hu
  rcases hu with ⟨w, hw, rfl⟩ | ⟨w, hw, rfl⟩
  · obtain ⟨-, w2, w3⟩ := a4 w hw
    rw [(hres s1 w).2.2] at he
    obtain ⟨p, is, m1, m2, m3, js, m4, m5⟩ := main s1 w he w2 w3
    rw [(hres s1 w).2.1, (hres s1 w).1]
    refine ⟨p, is, m1, m2, m3, js, m4, ?_⟩
    intro i
    rw [m5, a3, hex i (fun k => w.file.kind = .rsl → k = .rsl), k1 w hw]
    simp [hn0]
  · obtain ⟨-, w2, w3⟩ := b4 w hw
    rw [(hres s2 w).2.2] at he
    obtain ⟨p, is, m1, m2, m3, js, m4, m5⟩ := main s2 w he w2 w3
    rw [(hres s2 w).2.1, (hres s2 w).1]
    refine ⟨p, is, m1, m2, m3, js, m4, ?_⟩
    intro i
    rw [m5, b3, a3, hex i (fun k => w.file.kind = .rsl → k = .rsl), k2 w hw]
    simp [hn0]

/-! ### Packages are declared once, files with errors are left out -/

private theorem preamble_rsl {t : STab} (h : Built t) (f : FileIn) :
    (∀ e ∈ visible t, e ∈ visible (parsePreamble t f).1) ∧
    (f.kind = .rsl → ∀ p, (parsePreamble t f).2.package = some p →
      (∀ d ∈ visible t, ¬ Similar d.name p) ∧ ∃ d ∈ visible (parsePreamble t f).1, d.name = p) := by
  unfold parsePreamble
  cases hpre : f.pre with
  | unreadable => exact ⟨fun e h => h, by simp⟩
  | pkg p is b =>
    simp only
    split
    · split
      · rename_i t' hr
        rcases C11_register h ⟨p, (t.own.filter (fun x => isPackage x.2)).length, clsPackage⟩ with ⟨h0, t'', h1, h2, h3, h4⟩ | ⟨d, -, -, h1⟩
        · rw [hr] at h1
          cases h1
          have hv : ∀ e, e ∈ visible t' ↔ e ∈ visible t ∨ e = ⟨p, (t.own.filter (fun x => isPackage x.2)).length, clsPackage⟩ := by
            intro e
            simp only [visible, h2, h3, h4, List.mem_append, List.mem_singleton]
            tauto
          refine ⟨fun e he => (hv e).2 (Or.inl he), fun _ q hq => ?_⟩
          cases hq
          exact ⟨h0, _, (hv _).2 (Or.inr rfl), rfl⟩
        · rw [hr] at h1; rcases h1 with ⟨-, h1⟩ | ⟨-, h1⟩ <;> cases h1
      · exact ⟨fun e h => h, by simp⟩
    · rename_i hk
      have hk' : f.kind ≠ .rsl := by simp at hk; exact hk.1
      split
      · exact ⟨fun e h => h, fun h => absurd h hk'⟩
      · exact ⟨fun e h => h, by simp⟩

private theorem preambles_rsl (fs : List FileIn) : ∀ {t : STab}, Built t → (∀ f ∈ fs, f.kind = .rsl) →
    (∀ q ∈ (parsePreambles t fs).2.filterMap (·.package), ∀ d ∈ visible t, ¬ Similar d.name q) ∧
    ((parsePreambles t fs).2.filterMap (·.package)).Pairwise (fun a b => ¬ Similar a b) := by
  induction fs with
  | nil => intro t _ _; simp [parsePreambles]
  | cons f fs ih =>
    intro t h hk
    obtain ⟨m1, m2⟩ := preamble_rsl h f
    obtain ⟨i1, i2⟩ := ih (preamble_spec h f).1 fun g hg => hk g (List.mem_cons_of_mem _ hg)
    simp only [parsePreambles, List.filterMap_cons]
    cases hp : (parsePreamble t f).2.package with
    | none => exact ⟨fun q hq d hd => i1 q hq d (m1 d hd), i2⟩
    | some p =>
      obtain ⟨n1, d, n2, n3⟩ := m2 (hk f List.mem_cons_self) p hp
      simp only [List.mem_cons, List.pairwise_cons]
      refine ⟨?_, ?_, i2⟩
      · rintro q (rfl | hq)
        · exact n1
        · exact fun d hd => i1 q hq d (m1 d hd)
      · intro q hq
        have := i1 q hq d n2
        rwa [n3] at this

/-- **C14**: no two rsl files contribute the same package, or packages of similar names: the
second declaration is rejected, and that file then has no package. -/
theorem C14_declared_once (stab : STab) (hb : Built stab) (fs : List FileIn) :
    (((buildCUs stab fs).2.filter (·.file.kind = .rsl)).filterMap (·.package)).Pairwise
      (fun a b => ¬ Similar a b) := by
  obtain ⟨-, a2, -, -⟩ := preambles_spec (sortFiles (fs.filter (·.kind = .rsl))) hb
  have hkr : ∀ f ∈ sortFiles (fs.filter (·.kind = .rsl)), f.kind = .rsl := by
    intro f hf
    rw [sortFiles, (pySort_perm _ _).mem_iff, List.mem_filter] at hf
    simpa using hf.2
  obtain ⟨a1, -, -, -⟩ := preambles_spec (sortFiles (fs.filter (·.kind = .rsl))) hb
  obtain ⟨-, b2, -, -⟩ := preambles_spec (sortFiles (fs.filter (·.kind = .trlc))) a1
  obtain ⟨-, hp⟩ := preambles_rsl _ hb hkr
  simp only [buildCUs]
  generalize hr1 : parsePreambles stab (sortFiles (fs.filter (·.kind = .rsl))) = r1 at *
  obtain ⟨s1, c1⟩ := r1
  simp only at a1 a2 b2 hp ⊢
  generalize hr2 : parsePreambles s1 (sortFiles (fs.filter (·.kind = .trlc))) = r2 at *
  obtain ⟨s2, c2⟩ := r2
  simp only at b2 ⊢
  have hres : ∀ s (v : CU), (resolveImports s v).package = v.package ∧ (resolveImports s v).file = v.file := by
    intro s v; unfold resolveImports; split <;> simp
  have e1 : (c1.map (resolveImports s1)).filter (fun u => decide (u.file.kind = .rsl)) =
      c1.map (resolveImports s1) := by
    rw [List.filter_eq_self]
    intro v hv
    obtain ⟨w, hw, rfl⟩ := List.mem_map.1 hv
    rw [(hres s1 w).2]
    have : w.file ∈ c1.map (·.file) := List.mem_map.mpr ⟨w, hw, rfl⟩
    rw [a2] at this
    simpa using hkr _ this
  have e2 : (c2.map (resolveImports s2)).filter (fun u => decide (u.file.kind = .rsl)) = [] := by
    rw [List.filter_eq_nil_iff]
    intro v hv
    obtain ⟨w, hw, rfl⟩ := List.mem_map.1 hv
    rw [(hres s2 w).2]
    have : w.file ∈ c2.map (·.file) := List.mem_map.mpr ⟨w, hw, rfl⟩
    rw [b2, sortFiles, (pySort_perm _ _).mem_iff, List.mem_filter] at this
    simp at this
    simp [this.2]
  rw [List.filter_append, e1, e2, List.append_nil, List.filterMap_map]
  have : ((·.package) ∘ resolveImports s1 : CU → Option (List Char)) = (·.package) := by
    funext v; exact (hres s1 v).1
  rw [this]
  exact hp

/-- **C14**: of the files whose preamble is not sound only those rsl files are parsed that were
requested and whose package is known. -/
theorem C14_broken_files (cus : List CU) (R : Finset PNode) (u : CU) (hu : u ∈ cus) (he : u.err = true) :
    (u ∈ selectedRsl R cus ∨ u ∈ selectedTrlc R cus) ↔
      u.file.kind = .rsl ∧ u.file.primary = true ∧ ∃ p, u.package = some p := by
  simp only [selectedRsl, selectedTrlc, List.mem_filter, hu, true_and, isSecondary, he]
  cases u.file.kind <;> cases u.file.primary <;> cases u.package <;> simp

/-- two files declare the same package: one of them contributes it, the other has an error -/
example : (buildCUs STab.empty [⟨"a.rsl", .rsl, true, .pkg ['P'] [] false⟩,
    ⟨"b.rsl", .rsl, true, .pkg ['P'] [] false⟩]).2.map (fun u => (u.package, u.err)) =
    [(some ['P'], false), (none, true)] := by decide +kernel

end Verif.Props
