import Verif.Props.Sources
import Mathlib.Data.Set.Finite.List
import Mathlib.Data.Set.Finite.Basic
/-!
# C15: packages are parsed after everything they import
-/
namespace Verif.Props
open Verif.Model

section layers
variable {N : Type} [DecidableEq N] {deps : N → List N} {sort : List N → List N}

/-- Everything the layered loop guarantees, for any number of rounds that is large
enough. -/
private theorem layers_spec (hsort : ∀ l, (sort l).Perm l) :
    ∀ (rounds : Nat) (wl processed : List N), wl.length ≤ rounds →
    let r := parseLayers deps sort rounds wl processed
    (∀ n ∈ r.1, n ∈ wl) ∧
    (∀ a b n, r.1 = a ++ n :: b → ∀ d ∈ deps n, d ∈ processed ++ a) ∧
    (wl.Nodup → r.1.Nodup) ∧
    (r.2 = false → ∀ n ∈ wl, n ∈ r.1) ∧
    (r.2 = true → (∃ n ∈ wl, n ∉ r.1) ∧
      ∀ n ∈ wl, n ∉ r.1 → ∃ d ∈ deps n, d ∉ processed ++ r.1) := by
  intro rounds
  induction rounds with
  | zero =>
    intro wl processed hl
    have : wl = [] := List.length_eq_zero_iff.mp (by omega)
    subst this
    simp [parseLayers]
  | succ k ih =>
    intro wl processed hl
    simp only [parseLayers]
    by_cases hw : wl.isEmpty = true
    · have : wl = [] := by simpa using hw
      subst this
      simp
    · simp only [hw, Bool.false_eq_true, if_false]
      generalize hcand : wl.filter (fun n => (deps n).all (fun d => processed.contains d)) = cand
      have hc : ∀ n, n ∈ cand ↔ n ∈ wl ∧ ∀ d ∈ deps n, d ∈ processed := by
        intro n; rw [← hcand]; simp
      by_cases hce : cand.isEmpty = true
      · simp only [hce, if_true]
        have hnil : cand = [] := by simpa using hce
        obtain ⟨w, ws, rfl⟩ := List.exists_cons_of_ne_nil (by simpa using hw : wl ≠ [])
        refine ⟨by simp, by simp, fun _ => List.nodup_nil, by simp, fun _ => ⟨⟨w, by simp⟩, ?_⟩⟩
        intro n hn _
        by_contra hno
        have : n ∈ cand := (hc n).mpr ⟨hn, fun d hd => by
          by_contra hdn
          exact hno ⟨d, hd, by simpa using hdn⟩⟩
        rw [hnil] at this
        simp at this
      · simp only [hce, Bool.false_eq_true, if_false]
        have hne : cand ≠ [] := by simpa using hce
        obtain ⟨c0, hc0⟩ := List.exists_mem_of_ne_nil _ hne
        have hlen : (wl.filter (fun n => !cand.contains n)).length ≤ k := by
          have : (wl.filter (fun n => !cand.contains n)).length < wl.length := by
            rw [List.length_filter_lt_length_iff_exists]
            exact ⟨c0, ((hc c0).mp hc0).1, by simpa using hc0⟩
          omega
        obtain ⟨i1, i2, i3, i4, i5⟩ := ih (wl.filter (fun n => !cand.contains n)) (processed ++ sort cand) hlen
        have hms : ∀ n, n ∈ sort cand ↔ n ∈ cand := fun n => (hsort cand).mem_iff
        refine ⟨?_, ?_, ?_, ?_, ?_⟩
        · intro n hn
          rw [List.mem_append] at hn
          rcases hn with hn | hn
          · exact ((hc n).mp ((hms n).mp hn)).1
          · exact (List.mem_filter.mp (i1 n hn)).1
        · intro a b n hab d hd
          rw [List.append_eq_append_iff] at hab
          rcases hab with ⟨a', rfl, hr⟩ | ⟨c', hc', hr⟩
          · have := i2 a' b n hr d hd
            rwa [List.append_assoc] at this
          · cases c' with
            | nil =>
              simp only [List.append_nil] at hc'
              simp only [List.nil_append] at hr
              have := i2 [] b n hr.symm d hd
              rw [hc'] at this
              simpa using this
            | cons x c'' =>
              simp only [List.cons_append, List.cons.injEq] at hr
              obtain ⟨rfl, _⟩ := hr
              have hn : n ∈ cand := by rw [← hms, hc']; simp
              exact List.mem_append_left _ (((hc n).mp hn).2 d hd)
        · intro hnd
          rw [List.nodup_append]
          refine ⟨(hsort cand).nodup_iff.mpr (hcand ▸ hnd.filter _), i3 (hnd.filter _), ?_⟩
          intro x hx y hy hxy
          subst hxy
          have := (List.mem_filter.mp (i1 x hy)).2
          simp only [Bool.not_eq_true', List.contains_eq_mem, decide_eq_false_iff_not] at this
          exact this ((hms x).mp hx)
        · intro hf n hn
          rw [List.mem_append]
          by_cases hnc : n ∈ cand
          · exact Or.inl ((hms n).mpr hnc)
          · exact Or.inr (i4 hf n (by simp [hn, hnc]))
        · intro ht
          obtain ⟨⟨n, hn, hn2⟩, h2⟩ := i5 ht
          refine ⟨⟨n, (List.mem_filter.mp hn).1, ?_⟩, ?_⟩
          · rw [List.mem_append, not_or]
            have := (List.mem_filter.mp hn).2
            simp only [Bool.not_eq_true', List.contains_eq_mem, decide_eq_false_iff_not] at this
            exact ⟨fun h => this ((hms n).mp h), hn2⟩
          · intro m hm hmn
            rw [List.mem_append, not_or] at hmn
            obtain ⟨d, hd, hdn⟩ := h2 m (by
              rw [List.mem_filter]
              refine ⟨hm, ?_⟩
              simp only [Bool.not_eq_true', List.contains_eq_mem, decide_eq_false_iff_not]
              exact fun h => hmn.1 ((hms m).mpr h)) hmn.2
            exact ⟨d, hd, by simpa [List.append_assoc] using hdn⟩

/-- `d` is needed by `n` -/
def DepOf (deps : N → List N) (n d : N) : Prop := d ∈ deps n

omit [DecidableEq N] in
private theorem acc_of_order {out : List N}
    (h : ∀ a b n, out = a ++ n :: b → ∀ d ∈ deps n, d ∈ a) :
    ∀ (k : Nat) (a b : List N) (n : N), a.length = k → out = a ++ n :: b →
      Acc (fun d m => DepOf deps m d) n := by
  intro k
  induction k using Nat.strong_induction_on with
  | _ k ih =>
    intro a b n hk hab
    refine Acc.intro n ?_
    intro d hd
    have hda := h a b n hab d hd
    obtain ⟨a1, a2, rfl⟩ := List.append_of_mem hda
    refine ih a1.length ?_ a1 (a2 ++ n :: b) d rfl ?_
    · rw [← hk]; simp
    · rw [hab]; simp

omit [DecidableEq N] in
private theorem acc_no_cycle {n : N} (h : Acc (fun d m => DepOf deps m d) n) :
    ¬ ∃ c, Relation.ReflTransGen (DepOf deps) n c ∧ Relation.TransGen (DepOf deps) c c := by
  rintro ⟨c, h1, h2⟩
  have hacc : Acc (fun d m => DepOf deps m d) c := by
    clear h2
    induction h1 with
    | refl => exact h
    | tail _ hbc ih => exact ih.inv hbc
  have hT : ∀ x, Acc (fun d m => DepOf deps m d) x → ¬ Relation.TransGen (DepOf deps) x x := by
    intro x hx
    induction hx with
    | intro x _ ih =>
      intro hxx
      obtain ⟨y, hxy, hyx⟩ := Relation.TransGen.head'_iff.mp hxx
      exact ih y hxy (Relation.TransGen.tail' hyx hxy)
  exact hT c hacc h2

omit [DecidableEq N] in
/-- In a finite set where every element needs another element of the set, every element
leads to a cycle. -/
private theorem stuck_cycle {S : List N} (h : ∀ n ∈ S, ∃ d ∈ S, DepOf deps n d) {n : N} (hn : n ∈ S) :
    ∃ c ∈ S, Relation.ReflTransGen (DepOf deps) n c ∧ Relation.TransGen (DepOf deps) c c := by
  by_contra hno
  let T := {x : N // x ∈ S ∧ Relation.ReflTransGen (DepOf deps) n x}
  have hfin : Finite T := by
    have : Finite {x : N // x ∈ S} := (List.finite_toSet S).to_subtype
    exact Finite.of_injective (fun t : T => (⟨t.1, t.2.1⟩ : {x : N // x ∈ S}))
      (fun a b hab => Subtype.ext (by simpa using hab))
  let R : T → T → Prop := fun x y => Relation.TransGen (DepOf deps) y.1 x.1
  have : IsTrans T R := ⟨fun a b c hab hbc => Relation.TransGen.trans hbc hab⟩
  have : Std.Irrefl R := ⟨fun a ha => hno ⟨a.1, a.2.1, a.2.2, ha⟩⟩
  have wf := Finite.wellFounded_of_trans_of_irrefl R
  obtain ⟨m, -, hm⟩ := wf.has_min Set.univ ⟨⟨n, hn, .refl⟩, trivial⟩
  obtain ⟨d, hd, hmd⟩ := h m.1 m.2.1
  exact hm ⟨d, hd, m.2.2.tail hmd⟩ trivial (Relation.TransGen.single hmd)

/-- The layered loop on a work list that is closed under dependencies: it handles exactly
the nodes that do not lead to a cycle, and it ends with the error iff there is a cycle. -/
theorem layers_cycles (hsort : ∀ l, (sort l).Perm l) (wl : List N)
    (hclosed : ∀ n ∈ wl, ∀ d ∈ deps n, d ∈ wl) :
    let r := parseLayers deps sort wl.length wl []
    (∀ n, n ∈ r.1 ↔ n ∈ wl ∧
      ¬ ∃ c, Relation.ReflTransGen (DepOf deps) n c ∧ Relation.TransGen (DepOf deps) c c) ∧
    (r.2 = true ↔ ∃ c ∈ wl, Relation.TransGen (DepOf deps) c c) := by
  obtain ⟨h1, h2, h3, h4, h5⟩ := layers_spec (deps := deps) hsort wl.length wl [] (Nat.le_refl _)
  intro r
  have hacc : ∀ n ∈ r.1, ¬ ∃ c, Relation.ReflTransGen (DepOf deps) n c ∧ Relation.TransGen (DepOf deps) c c := by
    intro n hn
    obtain ⟨a, b, hab⟩ := List.append_of_mem hn
    exact acc_no_cycle (acc_of_order (fun a b n h d hd => by simpa using h2 a b n h d hd) _ a b n rfl hab)
  have hstuck : ∀ n ∈ wl, n ∉ r.1 →
      ∃ c ∈ wl, Relation.ReflTransGen (DepOf deps) n c ∧ Relation.TransGen (DepOf deps) c c := by
    intro n hn hnot
    have ht : r.2 = true := by
      by_contra hf
      exact hnot (h4 (by simpa using hf) n hn)
    obtain ⟨c, hc, hh⟩ := stuck_cycle (deps := deps) (S := wl.filter (fun m => !r.1.contains m)) (n := n)
      (by
        intro m hm
        rw [List.mem_filter] at hm
        have hm2 : m ∉ r.1 := by simpa using hm.2
        obtain ⟨d, hd, hdn⟩ := (h5 ht).2 m hm.1 hm2
        refine ⟨d, ?_, hd⟩
        rw [List.mem_filter]
        exact ⟨hclosed m hm.1 d hd, by simpa using hdn⟩)
      (by rw [List.mem_filter]; exact ⟨hn, by simpa using hnot⟩)
    exact ⟨c, (List.mem_filter.mp hc).1, hh⟩
  constructor
  · intro n
    constructor
    · intro hn; exact ⟨h1 n hn, hacc n hn⟩
    · rintro ⟨hn, hno⟩
      by_contra hnot
      obtain ⟨c, _, hh⟩ := hstuck n hn hnot
      exact hno ⟨c, hh⟩
  · constructor
    · intro ht
      obtain ⟨⟨n, hn, hnot⟩, _⟩ := h5 ht
      obtain ⟨c, hc, hh⟩ := hstuck n hn hnot
      exact ⟨c, hc, hh.2⟩
    · rintro ⟨c, hc, hcc⟩
      by_contra hf
      exact hacc c (h4 (by simpa using hf) c hc) ⟨c, .refl, hcc⟩

/-- The layered loop on any work list: it ends with the error iff there is a cycle, or an element
of the work list needs something outside of it. -/
theorem layers_stuck (hsort : ∀ l, (sort l).Perm l) (wl : List N) :
    ((parseLayers deps sort wl.length wl []).2 = true ↔ (∃ c ∈ wl, Relation.TransGen (DepOf deps) c c) ∨ ∃ n ∈ wl, ∃ d ∈ deps n, d ∉ wl) := by
  obtain ⟨h1, h2, h3, h4, h5⟩ := layers_spec (deps := deps) hsort wl.length wl [] (Nat.le_refl _)
  constructor
  · intro ht
    by_cases hc : ∃ n ∈ wl, ∃ d ∈ deps n, d ∉ wl
    · exact .inr hc
    · have hclosed : ∀ n ∈ wl, ∀ d ∈ deps n, d ∈ wl := by
        intro n hn d hd
        by_contra hno
        exact hc ⟨n, hn, d, hd, hno⟩
      exact .inl ((layers_cycles (deps := deps) hsort wl hclosed).2.1 ht)
  · intro h
    by_contra hf
    have hall : ∀ n ∈ wl, n ∈ (parseLayers deps sort wl.length wl []).1 := h4 (by simpa using hf)
    rcases h with ⟨c, hc, hcc⟩ | ⟨n, hn, d, hd, hno⟩
    · obtain ⟨a, b, hab⟩ := List.append_of_mem (hall c hc)
      exact acc_no_cycle (acc_of_order (fun a b n h d hd => by simpa using h2 a b n h d hd) _ a b c rfl hab) ⟨c, .refl, hcc⟩
    · obtain ⟨a, b, hab⟩ := List.append_of_mem (hall n hn)
      have hd' := h2 a b n hab d hd
      rw [List.nil_append] at hd'
      exact hno (h1 d (by rw [hab]; exact List.mem_append_left _ hd'))

/-- More rounds than nodes never change the outcome: the bound in the model is no
restriction. -/
theorem C15_enough_rounds : ∀ (r1 r2 : Nat) (wl processed : List N),
    wl.length ≤ r1 → wl.length ≤ r2 →
    parseLayers deps sort r1 wl processed = parseLayers deps sort r2 wl processed := by
  intro r1
  induction r1 with
  | zero =>
    intro r2 wl processed h1 _
    have : wl = [] := List.length_eq_zero_iff.mp (by omega)
    subst this
    cases r2 <;> simp [parseLayers]
  | succ k ih =>
    intro r2 wl processed h1 h2
    cases r2 with
    | zero =>
      have : wl = [] := List.length_eq_zero_iff.mp (by omega)
      subst this
      simp [parseLayers]
    | succ k2 =>
      simp only [parseLayers]
      generalize hcand : wl.filter (fun n => (deps n).all (fun d => processed.contains d)) = cand
      split
      · rfl
      · split
        · rfl
        · rename_i hce
          have hne : cand ≠ [] := by simpa using hce
          obtain ⟨c0, hc0⟩ := List.exists_mem_of_ne_nil _ hne
          have : (wl.filter (fun n => !cand.contains n)).length < wl.length := by
            rw [List.length_filter_lt_length_iff_exists]
            refine ⟨c0, ?_, by simpa using hc0⟩
            rw [← hcand] at hc0
            exact (List.mem_filter.mp hc0).1
          rw [ih k2 _ _ (by omega) (by omega)]

end layers

/-! ## C15 for packages -/

private theorem sortNodes_perm (l : List PNode) : (sortNodes l).Perm l := pySort_perm _ _

/-- The nodes the loop starts with -/
private def rslNodes (R : Finset PNode) (cus : List CU) : List PNode :=
  (selectedRsl R cus).filterMap (fun cu => cu.package.map (fun p => (p, FKind.rsl)))

private theorem mem_rslNodes (R : Finset PNode) (cus : List CU) (n : PNode) :
    n ∈ rslNodes R cus ↔ n.2 = .rsl ∧ ∃ u ∈ selectedRsl R cus, u.package = some n.1 := by
  obtain ⟨p, k⟩ := n
  simp only [rslNodes, List.mem_filterMap, Option.map_eq_some_iff, Prod.mk.injEq]
  constructor
  · rintro ⟨u, hu, q, hq, rfl, rfl⟩; exact ⟨rfl, u, hu, hq⟩
  · rintro ⟨rfl, u, hu, hq⟩; exact ⟨u, hu, p, hq, rfl, rfl⟩

/-- **C15**: every package is parsed after all packages it imports; this holds for all
projects, cyclic or not, with or without preamble errors. -/
theorem C15_imports_first (cus : List CU) (R : Finset PNode) (a b : List PNode) (n : PNode)
    (h : (parseRslOrder R cus).1 = a ++ n :: b) (d : PNode) (hd : Needs cus n d) : d ∈ a := by
  obtain ⟨-, h2, -⟩ := layers_spec (deps := graphDeps cus) sortNodes_perm _
    (rslNodes R cus) [] (Nat.le_refl _)
  have := h2 a b n h d ((deps_iff cus n d).mpr hd)
  simpa using this

/-- **C15**: every package that is parsed was selected for parsing, and none is parsed
twice. -/
theorem C15_parsed_once (cus : List CU) (R : Finset PNode)
    (hu : ((selectedRsl R cus).filterMap (·.package)).Nodup) :
    (∀ n ∈ (parseRslOrder R cus).1, ∃ u ∈ selectedRsl R cus, u.package = some n.1) ∧
    (parseRslOrder R cus).1.Nodup := by
  obtain ⟨h1, -, h3, -⟩ := layers_spec (deps := graphDeps cus) sortNodes_perm _
    (rslNodes R cus) [] (Nat.le_refl _)
  refine ⟨fun n hn => ((mem_rslNodes R cus n).mp (h1 n hn)).2, h3 ?_⟩
  have : rslNodes R cus = ((selectedRsl R cus).filterMap (·.package)).map (fun p => (p, FKind.rsl)) := by
    rw [rslNodes, List.map_filterMap]
  rw [this]
  exact hu.map (fun a b hab => by simpa using hab)

/-- Only the rsl parts of packages are ordered. -/
theorem C15_rsl_only (cus : List CU) (R : Finset PNode) : ∀ n ∈ (parseRslOrder R cus).1, n.2 = .rsl := by
  obtain ⟨h1, -⟩ := layers_spec (deps := graphDeps cus) sortNodes_perm _
    (rslNodes R cus) [] (Nat.le_refl _)
  exact fun n hn => ((mem_rslNodes R cus n).1 (h1 n hn)).1

/-- **C15**: if the circularity error is not reported, all packages that were selected are parsed. -/
theorem C15_all_parsed (cus : List CU) (R : Finset PNode) (h : (parseRslOrder R cus).2 = false) (u : CU)
    (hu : u ∈ selectedRsl R cus) (p : List Char) (hp : u.package = some p) :
    (p, FKind.rsl) ∈ (parseRslOrder R cus).1 := by
  obtain ⟨-, -, -, h4, -⟩ := layers_spec (deps := graphDeps cus) sortNodes_perm _
    (rslNodes R cus) [] (Nat.le_refl _)
  exact h4 h _ ((mem_rslNodes R cus _).2 ⟨rfl, u, hu, hp⟩)

/-- **C15** for projects whose rsl preambles are sound: the packages parsed are exactly
the selected ones that do not lead to an import cycle, and the circularity error is
reported exactly if some selected package imports itself, directly or indirectly. -/
theorem C15_cycles_partial (stab : STab) (hb : Built stab)
    (hnp : ∀ e ∈ visible stab, e.cls ≠ clsPackage) (fs : List FileIn) (R : Finset PNode)
    (hR : Required (buildCUs stab fs).2 R)
    (hclean : ∀ u ∈ (buildCUs stab fs).2, u.file.kind = .rsl → u.err = false) :
    let cus := (buildCUs stab fs).2
    (∀ p, (p, FKind.rsl) ∈ (parseRslOrder R cus).1 ↔ Wanted cus (p, .rsl) ∧
        (∃ u ∈ cus, u.file.kind = .rsl ∧ u.package = some p) ∧
        ¬ ∃ c, Relation.ReflTransGen (Needs cus) (p, .rsl) c ∧ Relation.TransGen (Needs cus) c c) ∧
    ((parseRslOrder R cus).2 = true ↔
      ∃ p, Wanted cus (p, .rsl) ∧ (∃ u ∈ cus, u.file.kind = .rsl ∧ u.package = some p) ∧
        Relation.TransGen (Needs cus) (p, .rsl) (p, .rsl)) := by
  intro cus
  have hneeds : Needs cus = DepOf (graphDeps cus) := by
    funext m n; exact propext (deps_iff cus m n).symm
  have hsel : ∀ p, (p, FKind.rsl) ∈ rslNodes R cus ↔
      Wanted cus (p, .rsl) ∧ ∃ u ∈ cus, u.file.kind = .rsl ∧ u.package = some p := by
    intro p
    rw [mem_rslNodes]
    simp only [true_and]
    constructor
    · rintro ⟨u, hu, hp⟩
      have hu' := List.mem_filter.mp hu
      have hk : u.file.kind = .rsl := by
        have := hu'.2
        simp only [Bool.and_eq_true, decide_eq_true_eq] at this
        exact this.1.1
      have := (C14_files_parsed cus R hR u hu'.1 (hclean u hu'.1 hk) p hp).mp (Or.inl hu)
      rw [hk] at this
      exact ⟨this, u, hu'.1, hk, hp⟩
    · rintro ⟨hw, u, hu, hk, hp⟩
      refine ⟨u, ?_, hp⟩
      rw [← hk] at hw
      rcases (C14_files_parsed cus R hR u hu (hclean u hu hk) p hp).mpr hw with h | h
      · exact h
      · have := (List.mem_filter.mp h).2
        simp [hk] at this
  have hclosed : ∀ n ∈ rslNodes R cus, ∀ d ∈ graphDeps cus n, d ∈ rslNodes R cus := by
    rintro ⟨p, k⟩ hn d hd
    have hk : k = .rsl := ((mem_rslNodes R cus _).mp hn).1
    subst hk
    have hw := (hsel p).mp hn
    rw [deps_iff] at hd
    generalize hm : (p, FKind.rsl) = m at hd
    cases hd with
    | own h => cases hm
    | @imp u q i is hu h1 h2 h3 h4 =>
      obtain ⟨q', is', g1, g2, g3, js, g4, g5⟩ := C14_imports stab hb hnp fs u hu h1
      have hjs : is = js := by rw [h3] at g4; exact Option.some.inj g4
      subst hjs
      simp only [Prod.mk.injEq] at hm
      obtain ⟨rfl, hk⟩ := hm
      obtain ⟨-, v, hv, hvp, hvk⟩ := (g5 i).mp h4
      have hvr := hvk hk.symm
      rw [← hk]
      refine (hsel i).mpr ⟨.step hw.1 ?_ ⟨v, hv, hclean v hv hvr, hvp⟩, v, hv, hvr, hvp⟩
      have := Needs.imp hu h1 h2 h3 h4
      rwa [← hk] at this
  obtain ⟨c1, c2⟩ := layers_cycles (deps := graphDeps cus) sortNodes_perm (rslNodes R cus) hclosed
  rw [hneeds]
  constructor
  · intro p
    rw [← and_assoc, ← hsel]
    exact c1 (p, .rsl)
  · rw [show (parseRslOrder R cus).2 = (parseLayers (graphDeps cus) sortNodes (rslNodes R cus).length
      (rslNodes R cus) []).2 from rfl, c2]
    constructor
    · rintro ⟨⟨p, k⟩, hc, hcc⟩
      have hk : k = .rsl := ((mem_rslNodes R cus _).mp hc).1
      subst hk
      obtain ⟨h1, h2⟩ := (hsel p).mp hc
      exact ⟨p, h1, h2, hcc⟩
    · rintro ⟨p, h1, h2, hcc⟩
      exact ⟨_, (hsel p).mpr ⟨h1, h2⟩, hcc⟩

/-- **C15** for all projects: the circularity error is reported exactly if a package selected for
parsing imports itself, directly or indirectly, or a sound file that is selected imports a package all
rsl files of which have a wrong preamble and were not given but found in an include directory.  The
latter is what the code should not do. -/
theorem C15_circularity_iff (stab : STab) (hb : Built stab)
    (hnp : ∀ e ∈ visible stab, e.cls ≠ clsPackage) (fs : List FileIn) (R : Finset PNode)
    (hR : Required (buildCUs stab fs).2 R) :
    let cus := (buildCUs stab fs).2
    (parseRslOrder R cus).2 = true ↔
      (∃ u ∈ selectedRsl R cus, ∃ p, u.package = some p ∧ Relation.TransGen (Needs cus) (p, .rsl) (p, .rsl)) ∨
      (∃ u ∈ selectedRsl R cus, u.err = false ∧ ∃ is, u.imports = some is ∧ ∃ i ∈ is,
        ∀ v ∈ cus, v.file.kind = .rsl → v.package = some i → v.err = true ∧ v.file.primary = false) := by
  intro cus
  have hneeds : Needs cus = DepOf (graphDeps cus) := by
    funext m n; exact propext (deps_iff cus m n).symm
  have hsel : ∀ u ∈ selectedRsl R cus, u ∈ cus ∧ u.file.kind = .rsl := by
    intro u hu
    obtain ⟨h1, h2⟩ := List.mem_filter.mp hu
    simp only [Bool.and_eq_true, decide_eq_true_eq] at h2
    exact ⟨h1, h2.1.1⟩
  have huniq : ∀ u ∈ cus, ∀ v ∈ cus, u.file.kind = .rsl → v.file.kind = .rsl → ∀ p, u.package = some p →
      v.package = some p → u = v := by
    intro u hu v hv hku hkv p hpu hpv
    by_contra hne
    have h := (List.pairwise_filterMap.1 (C14_declared_once stab hb fs)).imp
      (S := fun a b : CU => ∀ x, a.package = some x → ∀ y, b.package = some y → x ≠ y)
      (fun {a b} hab x hx y hy hxy => hab x hx y hy (hxy ▸ rfl))
    have hs : ∀ a b : CU, (∀ x, a.package = some x → ∀ y, b.package = some y → x ≠ y) →
        ∀ x, b.package = some x → ∀ y, a.package = some y → x ≠ y := fun a b hab x hx y hy => (hab y hy x hx).symm
    have : Std.Symm fun a b : CU => ∀ x, a.package = some x → ∀ y, b.package = some y → x ≠ y := ⟨hs⟩
    exact List.Pairwise.forall h (List.mem_filter.2 ⟨hu, by simpa using hku⟩)
      (List.mem_filter.2 ⟨hv, by simpa using hkv⟩) hne p hpu p hpv rfl
  rw [show (parseRslOrder R cus).2 = (parseLayers (graphDeps cus) sortNodes (rslNodes R cus).length
      (rslNodes R cus) []).2 from rfl, layers_stuck (deps := graphDeps cus) sortNodes_perm (rslNodes R cus), ← hneeds]
  refine or_congr ⟨?_, ?_⟩ ⟨?_, ?_⟩
  · rintro ⟨⟨p, k⟩, hc, hcc⟩
    obtain ⟨hk, u, hu, hp⟩ := (mem_rslNodes R cus _).mp hc
    obtain rfl : k = .rsl := hk
    exact ⟨u, hu, p, hp, hcc⟩
  · rintro ⟨u, hu, p, hp, hcc⟩
    exact ⟨_, (mem_rslNodes R cus _).mpr ⟨rfl, u, hu, hp⟩, hcc⟩
  · rintro ⟨⟨p, k⟩, hn, d, hd, hno⟩
    obtain ⟨hk, w, hw, hwp⟩ := (mem_rslNodes R cus _).mp hn
    obtain rfl : k = .rsl := hk
    rw [deps_iff] at hd
    generalize hm : (p, FKind.rsl) = m at hd
    cases hd with
    | own h => cases hm
    | @imp u q i is hu h1 h2 h3 h4 =>
      simp only [Prod.mk.injEq] at hm
      obtain ⟨rfl, hk⟩ := hm
      obtain rfl := huniq u hu w (hsel w hw).1 hk.symm (hsel w hw).2 p h2 hwp
      refine ⟨u, hw, h1, is, h3, i, h4, fun v hv hvk hvp => ?_⟩
      have hvn : v ∉ selectedRsl R cus := fun h => hno ((mem_rslNodes R cus _).mpr ⟨hk.symm, v, h, hvp⟩)
      cases hve : v.err with
      | true =>
        refine ⟨rfl, ?_⟩
        by_contra hvq
        exact hvn (((C14_broken_files cus R v hv hve).2 ⟨hvk, by simpa using hvq, i, hvp⟩).resolve_right
          fun h => by have := (List.mem_filter.mp h).2; simp [hvk] at this)
      | false =>
        have hwu : Wanted cus (p, u.file.kind) := (C14_files_parsed cus R hR u hu h1 p h2).1 (.inl hw)
        have hwv : Wanted cus (i, v.file.kind) := by
          rw [hvk, hk]
          exact .step hwu (Needs.imp hu h1 h2 h3 h4) ⟨v, hv, hve, hvp⟩
        rcases (C14_files_parsed cus R hR v hv hve i hvp).2 hwv with h | h
        · exact absurd h hvn
        · have := (List.mem_filter.mp h).2
          simp [hvk] at this
  · rintro ⟨u, hu, h1, is, h3, i, h4, h5⟩
    obtain ⟨hu', hk⟩ := hsel u hu
    obtain ⟨p, js, g1, g2, g3, g4⟩ := C14_imports stab hb hnp fs u hu' h1
    refine ⟨(p, .rsl), (mem_rslNodes R cus _).mpr ⟨rfl, u, hu, g2⟩, (i, .rsl), ?_, ?_⟩
    · rw [deps_iff]
      have := Needs.imp hu' h1 g2 h3 h4
      rwa [hk] at this
    · intro hm
      obtain ⟨-, v, hv, hvp⟩ := (mem_rslNodes R cus _).mp hm
      obtain ⟨hv', hvk⟩ := hsel v hv
      obtain ⟨e1, e2⟩ := h5 v hv' hvk hvp
      have := (C14_broken_files cus R v hv' e1).1 (.inl hv)
      rw [e2] at this
      exact absurd this.2.1 (by simp)

/-! ## Concrete cases -/

private def g : STab := STab.empty.registerAll [⟨"Integer".toList, 0, clsBuiltinType⟩]
private def rsl (f p : String) (is : List String) (prim : Bool) (broken : Bool := false) : FileIn :=
  ⟨f, .rsl, prim, .pkg p.toList (is.map String.toList) broken⟩

private theorem g_built : Built g := C11_history .empty _
private theorem g_nopkg : ∀ e ∈ visible g, e.cls ≠ clsPackage := by decide +kernel

/-- a project: `a` imports `b`, `b` imports `c`, `d` is not needed -/
private def proj : List FileIn :=
  [rsl "a.rsl" "a" ["b"] true, rsl "b.rsl" "b" ["c"] false, rsl "c.rsl" "c" [] false, rsl "d.rsl" "d" ["a"] false]

example : ∀ u ∈ (buildCUs g proj).2, u.file.kind = .rsl → u.err = false := by decide +kernel

private def projR : Finset PNode := {("a".toList, .rsl), ("b".toList, .rsl), ("c".toList, .rsl)}

example : (parseRslOrder projR (buildCUs g proj).2).1 = [("c".toList, .rsl), ("b".toList, .rsl), ("a".toList, .rsl)] := by
  decide +kernel

/-- two packages importing each other -/
private def cyc : List FileIn :=
  [rsl "a.rsl" "a" ["b"] true, rsl "b.rsl" "b" ["a"] false, rsl "c.rsl" "c" [] true]

example : parseRslOrder {("a".toList, .rsl), ("b".toList, .rsl), ("c".toList, .rsl)} (buildCUs g cyc).2
    = ([("c".toList, .rsl)], true) := by decide +kernel

/-- A package whose preamble is broken after the package name, found in an include
directory, imported by a requested package. -/
private def broken : List FileIn := [rsl "a.rsl" "a" ["b"] true, rsl "b.rsl" "b" [] false true]

/-- Why C15 is partial: importing an included package with a broken preamble is reported as
a circular import although nothing imports `a`. -/
theorem C15_spurious_circularity : ∃ (fs : List FileIn) (R : Finset PNode),
    Required (buildCUs g fs).2 R ∧ (parseRslOrder R (buildCUs g fs).2).2 = true ∧
    ¬ ∃ n, Relation.TransGen (Needs (buildCUs g fs).2) n n := by
  refine ⟨broken, {("a".toList, .rsl)}, ?_, by decide +kernel, ?_⟩
  · refine .step (.pop (n := ("a".toList, .rsl)) (by decide +kernel)) ?_
    have : ((graphRoots (buildCUs g broken).2).toFinset.erase ("a".toList, FKind.rsl) ∪
        ((graphDeps (buildCUs g broken).2 ("a".toList, .rsl)).toFinset \
          insert ("a".toList, FKind.rsl) ∅) ∩ (graphKeys (buildCUs g broken).2).toFinset,
        insert ("a".toList, FKind.rsl) (∅ : Finset PNode)) = (∅, {("a".toList, FKind.rsl)}) := by
      decide +kernel
    rw [this]
    exact .refl _
  · rintro ⟨n, hn⟩
    have hb : ∀ m, ¬ Needs (buildCUs g broken).2 ("b".toList, .rsl) m := by
      intro m hm
      rw [← deps_iff] at hm
      have : graphDeps (buildCUs g broken).2 ("b".toList, .rsl) = [] := by decide +kernel
      rw [this] at hm; simp at hm
    have hedge : ∀ m k, Needs (buildCUs g broken).2 m k →
        k = ("b".toList, .rsl) ∨ m = ("a".toList, .trlc) ∧ k = ("a".toList, .rsl) := by
      intro m k hmk
      rw [← deps_iff] at hmk
      have hkey : m ∈ graphKeys (buildCUs g broken).2 := by
        unfold graphDeps at hmk
        split at hmk
        · assumption
        · simp at hmk
      have hkeys : graphKeys (buildCUs g broken).2 = [("a".toList, .rsl), ("a".toList, .trlc)] := by decide +kernel
      rw [hkeys] at hkey
      rcases List.mem_cons.mp hkey with rfl | hkey
      · have : graphDeps (buildCUs g broken).2 ("a".toList, .rsl) = [("b".toList, .rsl)] := by decide +kernel
        rw [this] at hmk; left; simpa using hmk
      · have hm : m = ("a".toList, .trlc) := by simpa using hkey
        subst hm
        have : graphDeps (buildCUs g broken).2 ("a".toList, .trlc) = [("a".toList, .rsl)] := by decide +kernel
        rw [this] at hmk; right; exact ⟨rfl, by simpa using hmk⟩
    -- the target of any chain is `b.rsl` or `a.rsl`
    obtain ⟨y, hy1, hy2⟩ := Relation.TransGen.head'_iff.mp hn
    obtain ⟨z, hz1, hz2⟩ := Relation.TransGen.tail'_iff.mp hn
    rcases hedge z n hz2 with rfl | ⟨rfl, rfl⟩
    · exact hb y hy1
    · rcases hedge _ y hy1 with rfl | ⟨h, _⟩
      · rcases Relation.ReflTransGen.cases_head hy2 with h | ⟨w, hw, _⟩
        · revert h; decide +kernel
        · exact hb w hw
      · revert h; decide +kernel

end Verif.Props
