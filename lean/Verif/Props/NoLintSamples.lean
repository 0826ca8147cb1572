import Verif.Props.NoLint
import Verif.Props.ResectionSamples
/-!
# C98 applies to a concrete project
-/
namespace Verif.Props
open Verif.Model Verif.Spec Verif.Lemmas

/-- C98 applies to the project of C96, which is linted without exception. -/
example : SameEnd (process RunSample.options RunSample.outside MoveSample.none' TokenSample.project TokenSample.start)
    (process { RunSample.options with lint := false } RunSample.outside MoveSample.none' TokenSample.project TokenSample.start) := by
  rcases C98_lint (o := RunSample.options) (X := RunSample.outside) (X' := RunSample.outside) (required := MoveSample.none')
    (fs := TokenSample.project) (s := TokenSample.start) (.inl ⟨_, rfl⟩) ⟨rfl, rfl, fun _ _ => rfl⟩ with h | h
  · rw [SectionSample.project_table.1] at h
    cases h
  · exact h

end Verif.Props
