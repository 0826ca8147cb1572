import Verif.Lemmas.Process
/-!
# Failing is always reported
-/
namespace Verif.Lemmas
open Verif.Model

/-- A result other than `True` comes with an error, and `True` comes without. -/
def Blames (x : CR Bool) : Prop :=
  match x.out with
  | .ok true => ∀ c ∈ x.calls, c.isError = false
  | .ok false | .raised => ∃ c ∈ x.calls, c.isError = true
  | .crash _ => True

theorem blames_pure : Blames (CR.pure true) := by
  intro c hc; cases hc

theorem performCheck_blames (env : EvEnv) (k : Composite) (c : Check) : Blames (performCheck env k c) := by
  unfold performCheck
  split
  · exact ⟨_, List.mem_singleton_self _, rfl⟩
  · trivial
  · split
    · exact ⟨_, List.mem_singleton_self _, rfl⟩
    · exact blames_pure
    · split
      · intro c hc
        rw [List.mem_singleton] at hc
        subst hc
        rfl
      · exact ⟨_, List.mem_singleton_self _, rfl⟩
      · exact ⟨_, List.mem_singleton_self _, rfl⟩
    · trivial

/-- Errors so far are not forgotten: `f b` is `False` whenever `b` is. -/
theorem blames_bind {x : CR Bool} {f : Bool → CR Bool} (hx : Blames x) (hf : Blames (f true))
    (hk : (f false).out ≠ .ok true) : Blames (x.bind f) := by
  unfold Blames at hx
  unfold CR.bind
  split at hx
  · next h =>
    rw [h]
    dsimp only
    unfold Blames at hf ⊢
    dsimp only
    split at hf
    · intro c hc
      rcases List.mem_append.1 hc with hc | hc
      · exact hx c hc
      · exact hf c hc
    · obtain ⟨c, h1, h2⟩ := hf; exact ⟨c, List.mem_append_right _ h1, h2⟩
    · obtain ⟨c, h1, h2⟩ := hf; exact ⟨c, List.mem_append_right _ h1, h2⟩
    · trivial
  · next h =>
    rw [h]
    obtain ⟨c, h1, h2⟩ := hx
    unfold Blames
    dsimp only
    split
    · next h' => exact absurd h' hk
    · exact ⟨c, List.mem_append_left _ h1, h2⟩
    · exact ⟨c, List.mem_append_left _ h1, h2⟩
    · trivial
  · next h => rw [h]; exact hx
  · next h => rw [h]; trivial

theorem performAll_false (env : EvEnv) (k : Composite) (cs : List Check) :
    (performAll env k cs false).out ≠ .ok true := by
  induction cs with
  | nil => simp [performAll, CR.pure]
  | cons c cs ih =>
    unfold performAll CR.bind
    split
    · exact ih
    · simp
    · simp

theorem performAll_blames (env : EvEnv) (k : Composite) (cs : List Check) :
    Blames (performAll env k cs true) := by
  induction cs with
  | nil => exact blames_pure
  | cons c cs ih => exact blames_bind (performCheck_blames env k c) ih (performAll_false _ _ _)

theorem performElems_blames (C : CheckTab) (env : EvEnv) (elem : Ty)
    (ih : ∀ v, Blames (performType C env elem v)) (vs : List FExpr) : Blames (performElems C env elem vs) := by
  induction vs with
  | nil => unfold performElems; exact blames_pure
  | cons v vs iv =>
    unfold performElems
    refine blames_bind (ih v) ?_ ?_
    · simpa using iv
    · simp [CR.pure]

theorem performType_blames (C : CheckTab) (env : EvEnv) (τ : Ty) : ∀ v, Blames (performType C env τ v) := by
  induction τ with
  | tup t =>
    intro v
    cases v <;> (unfold performType; first | exact performAll_blames _ _ _ | exact blames_pure | trivial)
  | arr id elem lo hi ih =>
    intro v
    cases v <;> (unfold performType; first | exact performElems_blames _ _ _ ih _ | exact blames_pure | trivial)
  | _ => intro v; unfold performType; exact blames_pure

theorem performComps_false (C : CheckTab) (env : EvEnv) (fs : Fields) (cs : List Comp) :
    (performComps C env fs cs false).out ≠ .ok true := by
  induction cs with
  | nil => simp [performComps, CR.pure]
  | cons c cs ih =>
    unfold performComps
    split
    · simp
    · unfold CR.bind
      split
      · exact ih
      · simp
      · simp

theorem performComps_blames (C : CheckTab) (env : EvEnv) (fs : Fields) (cs : List Comp) :
    Blames (performComps C env fs cs true) := by
  induction cs with
  | nil => exact blames_pure
  | cons c cs ih =>
    unfold performComps
    split
    · trivial
    · exact blames_bind (performType_blames C env _ _) ih (performComps_false _ _ _ _)

theorem performOne_blames (s : PS) (C : CheckTab) (env : EvEnv) (L : Locs) (o : Nat) :
    Blames (performOne s C env L o) := by
  unfold performOne
  split
  · dsimp only
    have h : Blames (performObject s.decls C env ‹Fields› (L.obj o) (L.field o) ‹Obj›.typ) :=
      blames_bind (performComps_blames C env _ _) (performAll_blames _ _ _) (performAll_false _ _ _)
    split
    · next h' =>
      unfold Blames at h
      rw [h'] at h
      exact h
    · exact h
  · exact blames_pure

theorem performObjects_false (s : PS) (C : CheckTab) (env : EvEnv) (L : Locs) (os : List Nat) :
    (performObjects s C env L os false).out ≠ .ok true := by
  induction os with
  | nil => simp [performObjects, CR.pure]
  | cons o os ih =>
    unfold performObjects CR.bind
    split
    · exact ih
    · simp
    · simp

/-- `perform_checks` fails iff it reported an error. -/
theorem performChecks_blames (s : PS) (g : STab) (C : CheckTab) (rx : List Char → List Char → Bool)
    (L : Locs) : Blames (performChecks s g C rx L) := by
  unfold performChecks
  induction s.visited g with
  | nil => exact blames_pure
  | cons o os ih => exact blames_bind (performOne_blames _ _ _ _ o) ih (performObjects_false _ _ _ _ _)

end Verif.Lemmas
