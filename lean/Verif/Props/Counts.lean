import Verif.Props.Process
import Verif.Props.Messages
/-!
# The counters that decide about the exit code (C40)
-/
namespace Verif.Props
open Verif.Model

/-- **C40**: the numbers of errors and warnings that decide about the exit code are those of the message
handler: one that has counted the errors of the parser counts to them during the rest of the run. -/
theorem C40_counters (r : ProcOut) {mh : MH} (he : mh.errors = r.state.errs.length) (hw : mh.warnings = 0) :
    (mh.run r.calls).1.errors = r.errors ∧ (mh.run r.calls).1.warnings = r.warnings := by
  obtain ⟨h1, h2, -⟩ := run_spec r.calls mh
  rw [he] at h1
  rw [hw, Nat.zero_add] at h2
  have e1 : (isErrorCall : MHCall → Bool) = MHCall.isError := by
    funext c; cases c <;> rfl
  have e2 : (isWarningCall : MHCall → Bool) = MHCall.isWarning := by
    funext c; cases c <;> rfl
  rw [e1] at h1
  rw [e2] at h2
  exact ⟨h1, h2⟩

/-- there is a handler as assumed, and a run with a warning -/
example : ∃ (mh : MH) (r : ProcOut), mh.errors = r.state.errs.length ∧ mh.warnings = 0 ∧ r.warnings = 1 ∧
    r.errors = 2 :=
  ⟨{ MH.init with errors := 1 }, ⟨.none, { PS.fresh [] with errs := [.expected] },
    [.warning "" "" true, .error "" "" false true]⟩, rfl, rfl, rfl, rfl⟩

end Verif.Props
