import Verif.Props.Builtins
import Verif.Props.LintTags
import Verif.Props.RunSamples
/-!
# `C12_builtin` and `C70_tags` apply to concrete projects
-/
namespace Verif.Props
open Verif.Model Verif.Spec Verif.Lemmas

namespace BuiltinSample

def file : SrcFile := ⟨"p.rsl", .rsl, true, "package integers type T { a Integer }".toList⟩

def loaded : Option (STab × List Loaded × PS) :=
  match loadAll globalTable (RunSample.opened [file]).1 (RunSample.opened [file]).2 with
  | .ok (g, ls) s1 => if s1.errs = (RunSample.opened [file]).2.errs then some (g, ls, s1) else none
  | _ => none

set_option maxRecDepth 100000 in
theorem loaded_some : loaded.isSome = true := by decide +kernel

/-- the hypotheses hold; `integer` can not be declared, `Integers` can (but not in package `integers`) -/
example : ∃ fs s g ls s1, loadAll globalTable fs s = .ok (g, ls) s1 ∧ s1.errs = s.errs ∧ ls ≠ [] := by
  have h := loaded_some
  unfold loaded at h
  split at h
  · next g ls s1 h1 =>
    split at h
    · next h2 =>
      refine ⟨_, _, g, ls, s1, h1, h2, ?_⟩
      rintro rfl
      have h3 := (Rename.loadAll_known h1 h2).2
      generalize hl : sortSources ((RunSample.opened [file]).1.filter (·.file.kind = .rsl)) ++
        sortSources ((RunSample.opened [file]).1.filter (·.file.kind = .trlc)) = l at h3
      cases h3
      have : (sortSources ((RunSample.opened [file]).1.filter (·.file.kind = .rsl)) ++
        sortSources ((RunSample.opened [file]).1.filter (·.file.kind = .trlc))).length = 1 := by decide +kernel
      rw [hl] at this
      cases this
    · cases h
  · cases h

end BuiltinSample

attribute [local irreducible] RunSample.opened process in
/-- it applies to a run with messages -/
example (required) : ∃ msgs cs rest, (RunSample.run required [RunSample.linted]).calls = cs ++ rest ∧
    List.Forall₂ (fun m c => ∃ tag, LintTagged tag m ∧ c = MHCall.check "" "" tag) msgs cs ∧
    LintReport (RunSample.run required [RunSample.linted]).state.decls (RunSample.run required [RunSample.linted]).state.infos
      (RunSample.run required [RunSample.linted]).state.seps msgs :=
  C70_tags (X := RunSample.outside) (render := fun _ => ("", "")) rfl rfl (RunSample.opened_blank _)
    (RunSample.linted_calls required).1

end Verif.Props
