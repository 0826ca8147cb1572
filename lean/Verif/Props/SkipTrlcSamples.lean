import Verif.Props.SkipTrlc
import Verif.Props.RunSamples
/-!
# C100 applies to concrete files
-/
namespace Verif.Props
open Verif.Model Verif.Spec Verif.Lemmas

namespace SkipSample
open RunSample

/-- the files can be registered and their preambles are fine; every package has an rsl file -/
def ready (files : List SrcFile) : Bool :=
  match registerFiles true files (PS.fresh []) with
  | .ok (fs, true) s =>
    match loadAll globalTable fs s with
    | .ok (_, ls) s1 => s1.errs.isEmpty && ls.all fun l => ls.any fun l' =>
        l'.src.file.kind = .rsl && l'.cu.package == l.cu.package
    | _ => false
  | _ => false

theorem ready_ok {files : List SrcFile} (h : ready files = true) :
    ∃ fs s g ls s1, registerFiles true files (PS.fresh []) = .ok (fs, true) s ∧ loadAll globalTable fs s = .ok (g, ls) s1 ∧
      s1.errs = s.errs ∧ ∀ f ∈ fs, ∀ p, Belongs f p → ∃ f' ∈ fs, f'.file.kind = .rsl ∧ Belongs f' p := by
  unfold ready at h
  split at h
  · next fs s e =>
    split at h
    · next g ls s1 e2 =>
      simp only [Bool.and_eq_true, List.isEmpty_iff, List.all_eq_true, List.any_eq_true, decide_eq_true_eq, beq_iff_eq] at h
      obtain ⟨h1, h2⟩ := h
      have he : s1.errs = s.errs := by
        obtain ⟨l, hl⟩ := (loadAll_ok globalTable_pkgTab e2).quiet.errs
        rw [h1] at hl ⊢
        exact (List.append_eq_nil_iff.1 hl.symm).1.symm
      have hg := projectLoaded (loadAll_good e2 he).2
      refine ⟨fs, s, g, ls, s1, e, e2, he, ?_⟩
      intro f hf p hb
      obtain ⟨l, hl, q, is, k⟩ := hg.all f hf
      obtain ⟨l', hl', a1, a2⟩ := h2 l hl
      obtain ⟨f', hf', q', is', k'⟩ := hg.of l' hl'
      refine ⟨f', hf', by rw [← k'.file]; exact a1, ?_⟩
      rw [k.package, k'.package] at a2
      cases a2
      rw [belongs_unique hb ⟨is, k.reads⟩]
      exact ⟨is', k'.reads⟩
    · cases h
  · cases h

def rsl : SrcFile := ⟨"p.rsl", .rsl, true, "package P type R { n Integer } checks R { n > 0, \"m\", n }".toList⟩
def fine : SrcFile := ⟨"p.trlc", .trlc, true, "package P R x { n = 2 }".toList⟩
def faulty : SrcFile := ⟨"p.trlc", .trlc, true, "package P R x { n = }".toList⟩

set_option maxRecDepth 100000 in
theorem ready_fine : ready [fine, rsl] = true := by decide +kernel
set_option maxRecDepth 100000 in
theorem ready_faulty : ready [faulty, rsl] = true := by decide +kernel
set_option maxRecDepth 100000 in
theorem fine_table : (runTool { options with parseTrlc := true } outside (fun _ => ∅) [fine, rsl] []).out = .table := by decide +kernel
set_option maxRecDepth 100000 in
theorem faulty_none : (runTool { options with parseTrlc := true } outside (fun _ => ∅) [faulty, rsl] []).out = .none := by decide +kernel
set_option maxRecDepth 100000 in
theorem rsl_types : (runTool { options with parseTrlc := false } outside (fun _ => ∅) [faulty, rsl] []).state.decls.recs.length = 1 := by
  decide +kernel

attribute [local irreducible] process runTool registerFiles loadAll in
/-- accepted files -/
example : (runTool { options with parseTrlc := false } outside (fun _ => ∅) [fine, rsl] []).out = .table := by
  obtain ⟨fs, s, g, ls, s1, h1, h2, h3, h4⟩ := ready_ok ready_fine
  exact (C100_run (o := options) (X := outside) (required := fun _ => ∅) (required' := fun _ => ∅) h1 h2 h3 (by decide) h4
    (fun t t' h => by obtain ⟨_, _, _, _, rfl⟩ := h; rfl)).2.2.2.2.2 fine_table

attribute [local irreducible] process runTool registerFiles loadAll in
/-- the trlc file has an error, the types are there anyway -/
example : (runTool { options with parseTrlc := true } outside (fun _ => ∅) [faulty, rsl] []).out = .none ∧
    (runTool { options with parseTrlc := true } outside (fun _ => ∅) [faulty, rsl] []).state.decls.recs.length = 1 := by
  obtain ⟨fs, s, g, ls, s1, h1, h2, h3, h4⟩ := ready_ok ready_faulty
  have h := (C100_run (o := options) (X := outside) (required := fun _ => ∅) (required' := fun _ => ∅) h1 h2 h3 (by decide) h4
    (fun t t' h => by obtain ⟨_, _, _, _, rfl⟩ := h; rfl)).1
  exact ⟨faulty_none, by rw [← h]; exact rsl_types⟩

attribute [local irreducible] process runTool registerFiles loadAll in
/-- two projects with the same rsl file, of which one is accepted -/
example : (runTool { options with parseTrlc := true } outside (fun _ => ∅) [faulty, rsl] []).state.decls =
    (runTool { options with parseTrlc := true } outside (fun _ => ∅) [fine, rsl] []).state.decls := by
  obtain ⟨fs, s, g, ls, s1, h1, h2, h3, h4⟩ := ready_ok ready_fine
  obtain ⟨fs', s', g', ls', s1', k1, k2, k3, k4⟩ := ready_ok ready_faulty
  have hs : [fine, rsl].filter (·.kind = .rsl) = [faulty, rsl].filter (·.kind = .rsl) := rfl
  exact (C100_determined (o := options) (X := outside) (required := fun _ => ∅) (required' := fun _ => ∅) hs h1 h2 h3 (by decide) h4
    k1 k2 k3 (by decide) k4 (fun g t t' h => by obtain ⟨_, _, _, _, rfl⟩ := h; rfl)).1

end SkipSample
end Verif.Props
