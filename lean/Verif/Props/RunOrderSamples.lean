import Verif.Props.RunOrder
import Verif.Props.RunSamples
/-!
# C49 applies to concrete files
-/
namespace Verif.Props
open Verif.Model Verif.Spec Verif.Lemmas

private def a : SrcFile := ⟨"a.rsl", .rsl, true, "package A import B type T { u B.U }".toList⟩
private def b : SrcFile := ⟨"b.rsl", .rsl, true, "package B tuple U { x Integer }".toList⟩

/-- two files of which the first one needs the second one -/
example : (runTool RunSample.options RunSample.outside (fun _ => ∅) [a, b] []).out = .table ∧
    runTool RunSample.options RunSample.outside (fun _ => ∅) [b, a] [] =
      runTool RunSample.options RunSample.outside (fun _ => ∅) [a, b] [] := by
  have h : (runTool RunSample.options RunSample.outside (fun _ => ∅) [a, b] []).out = .table := by decide +kernel
  exact ⟨h, (C49_run_table (List.Perm.swap b a []) (by decide)).2 h⟩

end Verif.Props
