import Verif.Props.Sorts
/-!
# Concrete runs: C89 does not hold in full; the theorem applies
-/
namespace Verif.Props
open Verif.Model Verif.Spec Verif.Lemmas Verif.Lemmas.Vcg

namespace SortsSample
open VerifySample

/-- the goal of a node, reached by a path, is not well formed -/
def bad (r : ProcOut) (ns : List Nat) (pos : Nat) : Bool :=
  match r.state.verify outside.rx.search (.record 0) TS.empty with
  | .ok _ G => badB r.state.decls G ns pos
  | _ => false

theorem bad_bad {r : ProcOut} {ns : List Nat} {pos : Nat} (h : bad r ns pos = true) :
    ∃ G, r.state.verify outside.rx.search (.record 0) TS.empty = .ok () G ∧ ∃ vc, IsVC G vc ∧ ¬ vc.WellFormed r.state.decls := by
  unfold bad at h
  split at h
  · next G hG => exact ⟨G, hG, badB_bad h⟩
  · cases h

set_option maxRecDepth 100000 in
theorem converting_bad (required) : (run required [converting]).out = .table ∧ 0 < (run required [converting]).state.decls.recs.length ∧
    bad (run required [converting]) [4, 3, 2, 1, 0] 0 = true := by
  rw [run_any _ _ (by decide +kernel)]
  decide +kernel

set_option maxRecDepth 100000 in
theorem mixing_bad (required) : (run required [mixing]).out = .table ∧ 0 < (run required [mixing]).state.decls.recs.length ∧
    bad (run required [mixing]) [7, 6, 4, 3, 2, 1, 0] 0 = true := by
  rw [run_any _ _ (by decide +kernel)]
  decide +kernel

/-- all checks are proper, and there is a goal -/
def fine (r : ProcOut) : Bool :=
  r.state.checks.recs.all (fun cs => cs.all fun c => properB c.expr) && r.state.checks.tups.all (fun cs => cs.all fun c => properB c.expr) &&
  match r.state.verify outside.rx.search (.record 0) TS.empty with
  | .ok _ G => (match along G [3, 2, 1, 0], G.nodes[3]? with
    | some _, some [SStmt.goal _ _, SStmt.goal _ _] => true
    | _, _ => false)
  | _ => false

set_option maxRecDepth 100000 in
theorem dividing_fine (required) : (run required [dividing]).out = .table ∧ fine (run required [dividing]) = true := by
  rw [run_any _ _ (by decide +kernel)]
  decide +kernel

attribute [local irreducible] RunSample.opened process

theorem fine_fine {r : ProcOut} (h : fine r = true) : ProperType r.state (.record 0) ∧
    ∃ G, r.state.verify outside.rx.search (.record 0) TS.empty = .ok () G ∧ ∃ vc, IsVC G vc := by
  unfold fine at h
  rw [Bool.and_eq_true, Bool.and_eq_true, List.all_eq_true, List.all_eq_true] at h
  obtain ⟨⟨h1, h2⟩, h3⟩ := h
  refine ⟨⟨fun c hc => ?_, fun d _ u _ c hc _ => ?_⟩, ?_⟩
  · obtain ⟨a, -, cs, hcs, hm⟩ := hc
    exact properB_proper _ (List.all_eq_true.1 (h1 cs (List.mem_of_getElem? hcs)) c hm)
  · obtain ⟨cs, hcs, hm⟩ := hc
    exact properB_proper _ (List.all_eq_true.1 (h2 cs (List.mem_of_getElem? hcs)) c hm)
  · split at h3
    · next G hG =>
      refine ⟨G, hG, ?_⟩
      split at h3
      · next _ _ ss a f b g h4 h5 => exact ⟨⟨3, 0, ss ++ [], a, f⟩, ss, _, along_path h4, h5, rfl, rfl⟩
      · cases h3
    · cases h3

/-- C89_partial applies: to a run with several goals -/
example (required) : ∃ G, (run required [dividing]).state.verify outside.rx.search (.record 0) TS.empty = .ok () G ∧
    (∃ vc, IsVC G vc) ∧ ∀ vc, IsVC G vc → vc.WellFormed (run required [dividing]).state.decls := by
  obtain ⟨h1, h2⟩ := dividing_fine required
  obtain ⟨hp, G, hG, hv⟩ := fine_fine h2
  exact ⟨G, hG, hv, C89_partial (X := outside) (RunSample.opened_blank _) h1 hp hG⟩

/-- **C89** does not hold in full: an Integer is converted to an Integer. -/
theorem C89_violated : ¬ C89_full := fun h => by
  obtain ⟨h1, h2, h3⟩ := converting_bad fun _ => ∅
  obtain ⟨G, hG, vc, hv, hn⟩ := bad_bad h3
  exact hn (h RunSample.options outside (fun _ => ∅) _ _ (RunSample.opened_blank _) h1 (.record 0) G h2 hG vc hv)

/-- **C89** does not hold in full: a literal is looked for among those of another enumeration. -/
theorem C89_violated_in : ¬ C89_full := fun h => by
  obtain ⟨h1, h2, h3⟩ := mixing_bad fun _ => ∅
  obtain ⟨G, hG, vc, hv, hn⟩ := bad_bad h3
  exact hn (h RunSample.options outside (fun _ => ∅) _ _ (RunSample.opened_blank _) h1 (.record 0) G h2 hG vc hv)

end SortsSample
end Verif.Props
