import Verif.Spec.Solver
/-! The paths and verification conditions of a given graph, as a list. -/
namespace Verif.Lemmas.Vcg
open Verif.Model Verif.Spec

/-- the statements on the paths to a node -/
def pathsTo (G : TS) : Nat → Nat → List (List SStmt)
  | 0, n => if n = 0 then [[]] else []
  | f + 1, n => (if n = 0 then [[]] else []) ++ (G.edges.filter fun e => e.2 == n).flatMap fun e =>
      match G.nodes[e.1]? with
      | some ns => (pathsTo G f e.1).map (· ++ ns)
      | none => []

theorem path_mem {G : TS} (hf : ∀ e ∈ G.edges, e.1 < e.2) {n : Nat} {ss : List SStmt} (h : Path G n ss) :
    ∀ f, n ≤ f → ss ∈ pathsTo G f n := by
  induction h with
  | start => intro f _; cases f <;> simp [pathsTo]
  | @step n m ss ns _ hn he ih =>
    intro f hle
    have hlt := hf _ he
    simp only at hlt
    cases f with
    | zero => omega
    | succ f =>
      rw [pathsTo, List.mem_append, List.mem_flatMap]
      refine .inr ⟨(n, m), List.mem_filter.2 ⟨he, by simp⟩, ?_⟩
      simp only [hn, List.mem_map]
      exact ⟨ss, ih f (by omega), rfl⟩

/-- the goals in a node -/
def goalsOf : List SStmt → List (Nat × Smt × Feedback)
  | ns => ns.zipIdx.filterMap fun x =>
    match x.1 with
    | .goal a fb => some (x.2, a, fb)
    | _ => none

/-- the verification conditions -/
def vcsOf (G : TS) : List VC :=
  (List.range G.nodes.length).flatMap fun n =>
    match G.nodes[n]? with
    | none => []
    | some ns => (goalsOf ns).flatMap fun g => (pathsTo G n n).map fun ss => ⟨n, g.1, ss ++ ns.take g.1, g.2.1, g.2.2⟩

theorem vc_mem {G : TS} (hf : ∀ e ∈ G.edges, e.1 < e.2) {vc : VC} (h : IsVC G vc) : vc ∈ vcsOf G := by
  obtain ⟨ss, ns, h1, h2, h3, h4⟩ := h
  rw [vcsOf, List.mem_flatMap]
  refine ⟨vc.node, ?_, ?_⟩
  · rw [List.mem_range]
    exact (List.getElem?_eq_some_iff.1 h2).1
  · simp only [h2, List.mem_flatMap, List.mem_map]
    refine ⟨(vc.pos, vc.goal, vc.fb), ?_, ss, path_mem hf h1 _ (Nat.le_refl _), ?_⟩
    · rw [goalsOf, List.mem_filterMap]
      refine ⟨(.goal vc.goal vc.fb, vc.pos), ?_, rfl⟩
      rw [List.mem_zipIdx_iff_getElem?]
      exact h3
    · obtain ⟨n, p, asm, g, fb⟩ := vc
      simp only at h4 ⊢
      rw [h4]

theorem mem_path {G : TS} : ∀ (f : Nat) {n : Nat} {ss : List SStmt}, ss ∈ pathsTo G f n → Path G n ss
  | 0, n, ss, h => by
    simp only [pathsTo] at h
    split at h
    · next h0 => subst h0; rw [List.mem_singleton.1 h]; exact .start
    · cases h
  | f + 1, n, ss, h => by
    simp only [pathsTo, List.mem_append, List.mem_flatMap] at h
    rcases h with h | ⟨e, he, h⟩
    · split at h
      · next h0 => subst h0; rw [List.mem_singleton.1 h]; exact .start
      · cases h
    · obtain ⟨he1, he2⟩ := List.mem_filter.1 he
      split at h
      · next ns hns =>
        obtain ⟨ts, hts, rfl⟩ := List.mem_map.1 h
        obtain ⟨a, b⟩ := e
        have := eq_of_beq he2
        subst this
        exact .step (mem_path f hts) hns he1
      · cases h

theorem mem_vc {G : TS} {vc : VC} (h : vc ∈ vcsOf G) : IsVC G vc := by
  rw [vcsOf, List.mem_flatMap] at h
  obtain ⟨n, -, h⟩ := h
  split at h
  · cases h
  · next ns hns =>
    obtain ⟨g, hg, h⟩ := List.mem_flatMap.1 h
    obtain ⟨ss, hss, rfl⟩ := List.mem_map.1 h
    rw [goalsOf, List.mem_filterMap] at hg
    obtain ⟨⟨st, i⟩, hx, hg⟩ := hg
    dsimp only at hg
    split at hg
    · cases hg
      exact ⟨ss, ns, mem_path _ hss, hns, List.mem_zipIdx_iff_getElem?.1 hx, rfl⟩
    · cases hg

end Verif.Lemmas.Vcg
