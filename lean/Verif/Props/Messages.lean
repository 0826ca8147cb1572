import Verif.Model.Messages
/-!
# C10: message handler counters are exact
-/
namespace Verif.Props
open Verif.Model

/-! ## Specification -/

/-- Calls that report an error -/
def isErrorCall : MHCall → Bool
  | .lexError .. | .error .. => true
  | _ => false

/-- Calls that report a warning or an issue -/
def isWarningCall : MHCall → Bool
  | .warning .. | .check .. => true
  | _ => false

/-- Calls that must raise -/
def mustRaise : MHCall → Bool
  | .lexError .. => true
  | .error _ _ fatal _ => fatal
  | _ => false

/-- The message a call reports -/
def message : MHCall → Option Msg
  | .suppress _ => none
  | .lexError l t => some ⟨.SYS_ERROR, l, t, none⟩
  | .error l t _ user => some ⟨if user then .USER_ERROR else .SYS_ERROR, l, t, none⟩
  | .warning l t user => some ⟨if user then .USER_WARNING else .SYS_WARNING, l, t, none⟩
  | .check l t c => some ⟨.SYS_CHECK, l, t, some c⟩

/-- What has to be printed: the messages, in order, whose kind was not suppressed
before (`hidden` is the set of kinds suppressed so far). -/
def printed : (hidden : MsgKind → Prop) → List MHCall → List Msg → Prop
  | _, [], out => out = []
  | hidden, .suppress k :: cs, out => printed (fun k' => k' = k ∨ hidden k') cs out
  | hidden, c :: cs, out =>
    match message c with
    | some m => (hidden m.kind ∧ printed hidden cs out) ∨
                (¬ hidden m.kind ∧ ∃ out', out = m :: out' ∧ printed hidden cs out')
    | none => printed hidden cs out

/-! ## C10 -/

theorem run_spec (cs : List MHCall) : ∀ mh : MH,
    (mh.run cs).1.errors = mh.errors + cs.countP isErrorCall ∧
    (mh.run cs).1.warnings = mh.warnings + cs.countP isWarningCall ∧
    (mh.run cs).2 = cs.map mustRaise ∧
    ∃ out, (mh.run cs).1.out = mh.out ++ out ∧ printed (· ∈ mh.suppressKind) cs out ∧
      (mh.run cs).1.suppressed + out.length = mh.suppressed + cs.countP (fun c => (message c).isSome) := by
  induction cs with
  | nil => intro mh; simp [MH.run, printed]
  | cons c cs ih =>
    intro mh
    rcases hcall : mh.call c with ⟨mh1, r⟩
    obtain ⟨h1, h2, h3, out, h4, h5, h6⟩ := ih mh1
    have hrun : mh.run (c :: cs) = ((mh1.run cs).1, r :: (mh1.run cs).2) := by
      simp [MH.run, hcall]
    rw [hrun]
    simp only [List.countP_cons, List.map_cons, h1, h2, h3, h4]
    cases c with
    | suppress k =>
      simp only [MH.call, MH.suppress, Prod.mk.injEq] at hcall
      obtain ⟨rfl, rfl⟩ := hcall
      refine ⟨by simp [isErrorCall], by simp [isWarningCall], by simp [mustRaise], out, rfl, ?_, ?_⟩
      · simp only [printed]
        simpa [List.mem_cons] using h5
      · simpa [message] using h6
    | lexError l t =>
      simp only [MH.call, MH.lexError, MH.emit] at hcall
      by_cases hs : mh.suppressKind.contains .SYS_ERROR = true
      all_goals
        simp only [hs, if_true, if_false, Bool.false_eq_true, Prod.mk.injEq] at hcall
        obtain ⟨rfl, rfl⟩ := hcall
      · refine ⟨by simp [isErrorCall]; omega, by simp [isWarningCall], by simp [mustRaise], out, rfl, ?_, ?_⟩
        · simp only [printed, message]
          exact Or.inl ⟨by simpa using hs, h5⟩
        · simp only [message] at h6 ⊢; simp at h6 ⊢; omega
      · refine ⟨by simp [isErrorCall]; omega, by simp [isWarningCall], by simp [mustRaise], _ :: out,
          by simp; rfl, ?_, ?_⟩
        · simp only [printed, message]
          exact Or.inr ⟨by simpa using hs, out, rfl, h5⟩
        · simp only [message] at h6 ⊢; simp at h6 ⊢; omega
    | error l t f u =>
      simp only [MH.call, MH.error, MH.emit] at hcall
      by_cases hs : mh.suppressKind.contains (if u then .USER_ERROR else .SYS_ERROR) = true
      all_goals
        simp only [hs, if_true, if_false, Bool.false_eq_true, Prod.mk.injEq] at hcall
        obtain ⟨rfl, rfl⟩ := hcall
      · refine ⟨by simp [isErrorCall]; omega, by simp [isWarningCall], by simp [mustRaise], out, rfl, ?_, ?_⟩
        · simp only [printed, message]
          exact Or.inl ⟨by simpa using hs, h5⟩
        · simp only [message] at h6 ⊢; simp at h6 ⊢; omega
      · refine ⟨by simp [isErrorCall]; omega, by simp [isWarningCall], by simp [mustRaise], _ :: out,
          by simp; rfl, ?_, ?_⟩
        · simp only [printed, message]
          exact Or.inr ⟨by simpa using hs, out, rfl, h5⟩
        · simp only [message] at h6 ⊢; simp at h6 ⊢; omega
    | warning l t u =>
      simp only [MH.call, MH.warning, MH.emit] at hcall
      by_cases hs : mh.suppressKind.contains (if u then .USER_WARNING else .SYS_WARNING) = true
      all_goals
        simp only [hs, if_true, if_false, Bool.false_eq_true, Prod.mk.injEq] at hcall
        obtain ⟨rfl, rfl⟩ := hcall
      · refine ⟨by simp [isErrorCall], by simp [isWarningCall]; omega, by simp [mustRaise], out, rfl, ?_, ?_⟩
        · simp only [printed, message]
          exact Or.inl ⟨by simpa using hs, h5⟩
        · simp only [message] at h6 ⊢; simp at h6 ⊢; omega
      · refine ⟨by simp [isErrorCall], by simp [isWarningCall]; omega, by simp [mustRaise], _ :: out,
          by simp; rfl, ?_, ?_⟩
        · simp only [printed, message]
          exact Or.inr ⟨by simpa using hs, out, rfl, h5⟩
        · simp only [message] at h6 ⊢; simp at h6 ⊢; omega
    | check l t cat =>
      simp only [MH.call, MH.check, MH.emit] at hcall
      by_cases hs : mh.suppressKind.contains .SYS_CHECK = true
      all_goals
        simp only [hs, if_true, if_false, Bool.false_eq_true, Prod.mk.injEq] at hcall
        obtain ⟨rfl, rfl⟩ := hcall
      · refine ⟨by simp [isErrorCall], by simp [isWarningCall]; omega, by simp [mustRaise], out, rfl, ?_, ?_⟩
        · simp only [printed, message]
          exact Or.inl ⟨by simpa using hs, h5⟩
        · simp only [message] at h6 ⊢; simp at h6 ⊢; omega
      · refine ⟨by simp [isErrorCall], by simp [isWarningCall]; omega, by simp [mustRaise], _ :: out,
          by simp; rfl, ?_, ?_⟩
        · simp only [printed, message]
          exact Or.inr ⟨by simpa using hs, out, rfl, h5⟩
        · simp only [message] at h6 ⊢; simp at h6 ⊢; omega

/-- **C10**: after any sequence of calls on a fresh handler the error counter is the
number of error reports, the warning counter the number of warning and issue
reports, the calls that raise are exactly the fatal ones, the printed messages are
exactly those not suppressed at their time, in order, and every report is either
printed or counted as suppressed. -/
theorem C10_counters (cs : List MHCall) :
    (MH.init.run cs).1.errors = cs.countP isErrorCall ∧
    (MH.init.run cs).1.warnings = cs.countP isWarningCall ∧
    (MH.init.run cs).2 = cs.map mustRaise ∧
    printed (fun _ => False) cs (MH.init.run cs).1.out ∧
    (MH.init.run cs).1.out.length + (MH.init.run cs).1.suppressed
      = cs.countP (fun c => (message c).isSome) := by
  obtain ⟨h1, h2, h3, out, h4, h5, h6⟩ := run_spec cs MH.init
  have hout : (MH.init.run cs).1.out = out := by simpa [MH.init] using h4
  have h5' : printed (fun _ => False) cs out := by simpa [MH.init] using h5
  refine ⟨by simpa [MH.init] using h1, by simpa [MH.init] using h2, h3, by rw [hout]; exact h5', ?_⟩
  rw [hout]
  simp only [MH.init, Nat.zero_add] at h6 ⊢
  omega

/-- **C10**: which kinds are suppressed has no influence on counters and on which
calls raise: removing all `suppress` calls from a sequence changes neither. -/
theorem C10_suppression_does_not_count (cs : List MHCall) :
    let cs' := cs.filter (fun c => (message c).isSome)
    (MH.init.run cs').1.errors = (MH.init.run cs).1.errors ∧
    (MH.init.run cs').1.warnings = (MH.init.run cs).1.warnings ∧
    (MH.init.run cs').2.count true = (MH.init.run cs).2.count true := by
  intro cs'
  obtain ⟨a1, a2, a3, _⟩ := C10_counters cs
  obtain ⟨b1, b2, b3, _⟩ := C10_counters cs'
  have aux : ∀ (p : MHCall → Bool), (∀ k, p (.suppress k) = false) → cs'.countP p = cs.countP p := by
    intro p hp
    rw [List.countP_filter]
    congr 1; funext c
    cases c <;> simp [message, hp]
  rw [a1, a2, a3, b1, b2, b3]
  refine ⟨aux _ (fun _ => rfl), aux _ (fun _ => rfl), ?_⟩
  have e : ∀ l : List MHCall, (l.map mustRaise).count true = l.countP mustRaise := by
    intro l; rw [List.count, List.countP_map]; congr 1; funext c; simp
  rw [e, e]
  exact aux _ (fun _ => rfl)

example : let r := MH.init.run [.warning "a" "w" true, .suppress .USER_WARNING, .warning "b" "w" true,
      .error "c" "e" false true, .lexError "d" "l"]
    (r.1.errors, r.1.warnings, r.1.suppressed, r.1.out.map (·.loc), r.2)
      = (2, 2, 1, ["a", "c", "d"], [false, false, false, false, true]) := by decide +kernel

end Verif.Props
