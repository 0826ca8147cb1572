import Verif.Lemmas.Says
/-!
# What is reported while files are parsed
-/
namespace Verif.Lemmas
open Verif.Model

/-- `True` means that no fatal error was reported, and after `False` or an exception at least one
error was reported. -/
def TellsR (s : PS) : PR Bool → Prop
  | .ok true s' => ∃ l, s'.errs = s.errs ++ l ∧ ∀ e ∈ l, Soft e
  | .ok false s' => ∃ l, s'.errs = s.errs ++ l ∧ l ≠ []
  | .err s' => ∃ l, s'.errs = s.errs ++ l ∧ l ≠ []
  | .crash _ s' => ∃ l, s'.errs = s.errs ++ l

/-- See `TellsR`. -/
def Tells (x : P Bool) : Prop := ∀ s, TellsR s (x s)

/-- `ok &= x` followed by `y` -/
theorem tells_and {x y : P Bool} (hx : Tells x) (hy : Tells y) :
    Tells (do let a ← x; let b ← y; pure (a && b)) := by
  intro s
  rw [bind_apply]
  have h1 := hx s
  cases h : x s with
  | ok a s1 =>
    rw [h] at h1
    dsimp only
    rw [bind_apply]
    have h2 := hy s1
    cases h' : y s1 with
    | ok b s2 =>
      rw [h'] at h2
      cases a <;> cases b <;> obtain ⟨l, e1, e2⟩ := h1 <;> obtain ⟨l', e3, e4⟩ := h2 <;>
        refine ⟨l ++ l', by rw [e3, e1, List.append_assoc], ?_⟩
      · simp [e2]
      · simp [e2]
      · simp [e4]
      · intro e he
        rcases List.mem_append.1 he with he | he
        · exact e2 e he
        · exact e4 e he
    | err s2 =>
      rw [h'] at h2
      obtain ⟨l', e3, e4⟩ := h2
      have : ∃ l, s1.errs = s.errs ++ l := by
        cases a <;> exact ⟨_, h1.choose_spec.1⟩
      obtain ⟨l, e1⟩ := this
      exact ⟨l ++ l', by rw [e3, e1, List.append_assoc], by simp [e4]⟩
    | crash c s2 =>
      rw [h'] at h2
      obtain ⟨l', e3⟩ := h2
      have : ∃ l, s1.errs = s.errs ++ l := by
        cases a <;> exact ⟨_, h1.choose_spec.1⟩
      obtain ⟨l, e1⟩ := this
      exact ⟨l ++ l', by rw [e3, e1, List.append_assoc]⟩
  | err s1 => rw [h] at h1; exact h1
  | crash c s1 => rw [h] at h1; exact h1

/-- after an error only more errors can follow -/
def Grows {α : Type} (x : P α) : Prop := ∀ s, ∃ l, (x s).state.errs = s.errs ++ l

theorem Says.grows {α : Type} {x : P α} (h : Says x) : Grows x := by
  intro s
  have := h.rep s
  cases hx : x s <;> rw [hx] at this
  · exact ⟨_, this.choose_spec.1⟩
  · exact ⟨_, this.choose_spec.1⟩
  · exact this

theorem grows_bind {α β : Type} {x : P α} {f : α → P β} (hx : Grows x) (hf : ∀ a, Grows (f a)) :
    Grows (x >>= f) := by
  intro s
  rw [bind_apply]
  have h1 := hx s
  cases h : x s with
  | ok a s1 =>
    rw [h] at h1
    obtain ⟨l, h1⟩ := h1
    obtain ⟨l', h2⟩ := hf a s1
    exact ⟨l ++ l', by rw [h2, ← List.append_assoc, ← h1]; rfl⟩
  | err s1 => rw [h] at h1; exact h1
  | crash c s1 => rw [h] at h1; exact h1

/-- an item of a file, with recovery -/
theorem tells_item {x : P Unit} {h : P Bool} (hx : Says x) (hg : Grows h)
    (hf : ∀ s b s', h s = .ok b s' → b = false) :
    Tells (P.tryCatch (do x; pure true) h) := by
  intro s
  unfold P.tryCatch
  rw [bind_apply]
  cases hs : x s with
  | ok a s1 => exact hx.ok hs
  | crash c s1 => exact hx.crash hs
  | err s1 =>
    obtain ⟨l, h1, h2⟩ := hx.err hs
    obtain ⟨l', h3⟩ := hg s1
    dsimp only
    cases hr : h s1 with
    | ok b s2 =>
      have := hf _ _ _ hr
      subst this
      rw [hr] at h3
      exact ⟨l ++ l', by rw [← List.append_assoc, ← h1]; exact h3, by simp [h2]⟩
    | err s2 =>
      rw [hr] at h3
      exact ⟨l ++ l', by rw [← List.append_assoc, ← h1]; exact h3, by simp [h2]⟩
    | crash c s2 =>
      rw [hr] at h3
      exact ⟨l ++ l', by rw [← List.append_assoc, ← h1]; exact h3⟩

theorem tells_pure : Tells (pure true) := fun s => ⟨[], by simp, by simp⟩

theorem tells_crash {c : PCrash} : Tells (P.crash c) := fun s => ⟨[], by simp⟩

theorem and_assoc_bind {x y : P Bool} {ok : Bool} (s : PS) :
    (do let b ← x; let c ← y; pure (ok && b && c) : P Bool) s =
    (do let b ← (do let b ← x; let c ← y; pure (b && c) : P Bool); pure (ok && b)) s := by
  simp only [bind_apply, pure_apply]
  cases x s with
  | ok a s1 =>
    dsimp only
    cases y s1 <;> simp [Bool.and_assoc]
  | err s1 => rfl
  | crash c s1 => rfl

/-! ## trlc files -/

theorem fileLoop_and (E : FileEnv) (k : Nat) (ok : Bool) (s : PS) :
    fileLoop E k ok s = (do let b ← fileLoop E k true; pure (ok && b) : P Bool) s := by
  induction k generalizing ok s with
  | zero => rfl
  | succ k ih =>
    rw [fileLoop, fileLoop]
    simp only [bind_apply, P.get]
    by_cases hp : (s.peekKw "section" || s.peek .IDENTIFIER) = true
    · simp only [hp, if_true, bind_apply]
      cases h : P.tryCatch (do parseEntry E (2 * s.toks + 2); pure true) (recoverFile E) s with
      | ok b s1 =>
        dsimp only
        rw [ih (ok && b), ih (true && b)]
        simp only [bind_apply, pure_apply]
        cases fileLoop E k true s1 <;> simp [Bool.and_assoc]
      | err s1 => rfl
      | crash c s1 => rfl
    · simp only [hp, if_false]
      simp [pure_apply]

theorem recoverFile_on {E : FileEnv} (h : E.recover = true) : recoverFile E =
    (do P.skipUntilNewline; let s ← P.get; recoverLoop E (s.toks + 1); pure false : P Bool) := by
  unfold recoverFile
  rw [h]
  rfl

theorem recoverFile_off {E : FileEnv} (h : E.recover = false) (s : PS) : recoverFile E s = .err s := by
  unfold recoverFile
  rw [h]
  rfl

theorem recoverFile_false {E : FileEnv} {s s' : PS} {b : Bool} (h : recoverFile E s = .ok b s') :
    b = false := by
  cases hr : E.recover
  · rw [recoverFile_off hr] at h
    cases h
  · rw [recoverFile_on hr] at h
    rw [bind_apply] at h
    split at h
    · rw [bind_apply] at h
      simp only [P.get] at h
      rw [bind_apply] at h
      split at h
      · rw [pure_apply] at h; cases h; rfl
      · cases h
      · cases h
    · cases h
    · cases h

theorem recoverFile_grows {E : FileEnv} : Grows (recoverFile E) := by
  cases hr : E.recover
  · exact fun s => ⟨[], by rw [recoverFile_off hr]; simp [PR.state]⟩
  · rw [recoverFile_on hr]
    exact Says.grows (by spoken)

theorem fileLoop_tells (E : FileEnv) (k : Nat) : Tells (fileLoop E k true) := by
  induction k with
  | zero => exact tells_crash
  | succ k ih =>
    intro s
    rw [fileLoop]
    simp only [bind_apply, P.get]
    split
    · have hit : Tells (P.tryCatch (do parseEntry E (2 * s.toks + 2); pure true) (recoverFile E)) :=
        tells_item inferInstance recoverFile_grows fun s b s' h => recoverFile_false h
      have := tells_and hit ih s
      simp only [bind_apply] at this ⊢
      cases h : P.tryCatch (do parseEntry E (2 * s.toks + 2); pure true) (recoverFile E) s with
      | ok b s1 =>
        rw [h] at this
        dsimp only at this ⊢
        rw [fileLoop_and, bind_apply]
        simpa using this
      | err s1 => rw [h] at this; exact this
      | crash c s1 => rw [h] at this; exact this
    · exact tells_pure s

/-- A loop followed by the test for the end of the file -/
theorem tells_eof {x : P Bool} (hx : Tells x) : Tells (do let ok ← x; P.matchEof; pure ok) := by
  intro s
  rw [bind_apply]
  have h1 := hx s
  cases h : x s with
  | ok a s1 =>
    rw [h] at h1
    dsimp only
    rw [bind_apply]
    have : ∃ l, s1.errs = s.errs ++ l := by
      cases a <;> exact ⟨_, h1.choose_spec.1⟩
    obtain ⟨l, e1⟩ := this
    cases h' : P.matchEof s1 with
    | ok u s2 =>
      have : s2 = s1 := by
        unfold P.matchEof at h'
        split at h'
        · cases h'; rfl
        · cases h'
      subst this
      exact h1
    | err s2 =>
      obtain ⟨l', e3, e4⟩ := says_matchEof.err h'
      exact ⟨l ++ l', by rw [e3, e1, List.append_assoc], by simp [e4]⟩
    | crash c s2 =>
      obtain ⟨l', e3⟩ := says_matchEof.crash h'
      exact ⟨l ++ l', by rw [e3, e1, List.append_assoc]⟩
  | err s1 => rw [h] at h1; exact h1
  | crash c s1 => rw [h] at h1; exact h1

theorem parseTrlcFile_tells (E : FileEnv) : Tells (parseTrlcFile E) := by
  intro s
  unfold parseTrlcFile
  exact tells_eof (fileLoop_tells E (s.toks + 1)) s

/-- `try: … except TRLC_Error: ok = False` -/
theorem tells_file {x : P Bool} {f : OpenFile} (hx : Tells x) :
    Tells (do P.modify fun s => s.enter f; P.tryCatch x (pure false)) := by
  intro s
  have h1 := hx (s.enter f)
  rw [bind_apply]
  simp only [P.modify, P.tryCatch]
  cases h : x (s.enter f) with
  | ok b s1 => rw [h] at h1; cases b <;> exact h1
  | err s1 => rw [h] at h1; exact h1
  | crash c s1 => rw [h] at h1; exact h1

theorem runTrlcFiles_tells (fs : List OpenFile) : Tells (runTrlcFiles fs) := by
  induction fs with
  | nil => exact tells_pure
  | cons f fs ih => exact tells_and (tells_file (parseTrlcFile_tells f.env)) ih

/-! ## rsl files -/

theorem rslLoop_and (E : FileEnv) (rx : Regex) (k : Nat) (ok : Bool) (s : PS) :
    rslLoop E rx k ok s = (do let b ← rslLoop E rx k true; pure (ok && b) : P Bool) s := by
  induction k generalizing ok s with
  | zero => rfl
  | succ k ih =>
    rw [rslLoop, rslLoop]
    simp only [bind_apply, P.get]
    by_cases hp : s.peekEof = true
    · simp only [hp, if_true]
      simp [pure_apply]
    · simp only [hp, bind_apply]
      cases h : P.tryCatch (do parseRslItem E rx; pure true) (recoverRsl E) s with
      | ok b s1 =>
        simp only [Bool.false_eq_true, if_false]
        rw [bind_apply, bind_apply, h]
        dsimp only
        rw [ih (ok && b), ih (true && b)]
        simp only [bind_apply, pure_apply]
        cases rslLoop E rx k true s1 <;> simp [Bool.and_assoc]
      | err s1 =>
        simp only [Bool.false_eq_true, if_false]
        rw [bind_apply, bind_apply, h]
      | crash c s1 =>
        simp only [Bool.false_eq_true, if_false]
        rw [bind_apply, bind_apply, h]

theorem recoverRsl_on {E : FileEnv} (h : E.recover = true) : recoverRsl E =
    (do P.skipUntilNewline; let s ← P.get; recoverRslLoop (s.toks + 1); pure false : P Bool) := by
  unfold recoverRsl
  rw [h]
  rfl

theorem recoverRsl_off {E : FileEnv} (h : E.recover = false) (s : PS) : recoverRsl E s = .err s := by
  unfold recoverRsl
  rw [h]
  rfl

theorem recoverRsl_false {E : FileEnv} {s s' : PS} {b : Bool} (h : recoverRsl E s = .ok b s') :
    b = false := by
  cases hr : E.recover
  · rw [recoverRsl_off hr] at h
    cases h
  · rw [recoverRsl_on hr] at h
    rw [bind_apply] at h
    split at h
    · rw [bind_apply] at h
      simp only [P.get] at h
      rw [bind_apply] at h
      split at h
      · rw [pure_apply] at h; cases h; rfl
      · cases h
      · cases h
    · cases h
    · cases h

theorem recoverRsl_grows {E : FileEnv} : Grows (recoverRsl E) := by
  cases hr : E.recover
  · exact fun s => ⟨[], by rw [recoverRsl_off hr]; simp [PR.state]⟩
  · rw [recoverRsl_on hr]
    exact Says.grows (by spoken)

theorem rslLoop_tells (E : FileEnv) (rx : Regex) (k : Nat) : Tells (rslLoop E rx k true) := by
  induction k with
  | zero => exact tells_crash
  | succ k ih =>
    intro s
    rw [rslLoop]
    simp only [bind_apply, P.get]
    split
    · exact tells_pure s
    · have hit : Tells (P.tryCatch (do parseRslItem E rx; pure true) (recoverRsl E)) :=
        tells_item inferInstance recoverRsl_grows fun s b s' h => recoverRsl_false h
      have := tells_and hit ih s
      simp only [bind_apply] at this ⊢
      cases h : P.tryCatch (do parseRslItem E rx; pure true) (recoverRsl E) s with
      | ok b s1 =>
        rw [h] at this
        dsimp only at this ⊢
        rw [rslLoop_and, bind_apply]
        simpa using this
      | err s1 => rw [h] at this; exact this
      | crash c s1 => rw [h] at this; exact this

theorem parseRslFile_tells (E : FileEnv) (rx : Regex) : Tells (parseRslFile E rx) := by
  intro s
  unfold parseRslFile
  exact tells_eof (rslLoop_tells E rx (s.toks + 1)) s

theorem runRslFiles_tells (rx : Regex) (fs : List OpenFile) : Tells (runRslFiles rx fs) := by
  induction fs with
  | nil => exact tells_pure
  | cons f fs ih => exact tells_and (tells_file (parseRslFile_tells f.env rx)) ih

theorem runRsl_tells (g : STab) (recover : Bool) (rx : Regex) (required : Finset PNode)
    (ls : List Loaded) : Tells (runRsl g recover rx required ls) := by
  intro s
  unfold runRsl
  rw [bind_apply]
  have h1 := runRslFiles_tells rx ((rslFiles required ls).map (·.openFile g recover)) s
  cases h : runRslFiles rx ((rslFiles required ls).map (·.openFile g recover)) s with
  | ok b s1 =>
    rw [h] at h1
    dsimp only
    split
    · have : ∃ l, s1.errs = s.errs ++ l := by
        cases b <;> exact ⟨_, h1.choose_spec.1⟩
      obtain ⟨l, e1⟩ := this
      exact ⟨l ++ [.other 21], by rw [← List.append_assoc, ← e1], by simp⟩
    · exact h1
  | err s1 => rw [h] at h1; exact h1
  | crash c s1 => rw [h] at h1; exact h1

/-- A run over files never ends with `TRLC_Error`. -/
theorem runTrlcFiles_no_err (fs : List OpenFile) (s s' : PS) : runTrlcFiles fs s ≠ .err s' := by
  induction fs generalizing s with
  | nil => simp [runTrlcFiles, pure_apply]
  | cons f fs ih =>
    intro h
    unfold runTrlcFiles at h
    rw [bind_apply] at h
    cases h1 : runTrlcFile f s with
    | ok a s1 =>
      rw [h1] at h
      dsimp only at h
      rw [bind_apply] at h
      cases h2 : runTrlcFiles fs s1 with
      | ok b s2 => rw [h2] at h; cases h
      | err s2 => rw [h2] at h; cases h; exact ih s1 h2
      | crash c s2 => rw [h2] at h; cases h
    | err s1 =>
      unfold runTrlcFile at h1
      rw [bind_apply] at h1
      simp only [P.modify, P.tryCatch] at h1
      split at h1 <;> cases h1
    | crash c s1 => rw [h1] at h; cases h

/-- A run over files never ends with `TRLC_Error`. -/
theorem runRslFiles_no_err (rx : Regex) (fs : List OpenFile) (s s' : PS) :
    runRslFiles rx fs s ≠ .err s' := by
  induction fs generalizing s with
  | nil => simp [runRslFiles, pure_apply]
  | cons f fs ih =>
    intro h
    unfold runRslFiles at h
    rw [bind_apply] at h
    cases h1 : runRslFile rx f s with
    | ok a s1 =>
      rw [h1] at h
      dsimp only at h
      rw [bind_apply] at h
      cases h2 : runRslFiles rx fs s1 with
      | ok b s2 => rw [h2] at h; cases h
      | err s2 => rw [h2] at h; cases h; exact ih s1 h2
      | crash c s2 => rw [h2] at h; cases h
    | err s1 =>
      unfold runRslFile at h1
      rw [bind_apply] at h1
      simp only [P.modify, P.tryCatch] at h1
      split at h1 <;> cases h1
    | crash c s1 => rw [h1] at h; cases h

theorem runRsl_no_err (g : STab) (recover : Bool) (rx : Regex) (required : Finset PNode)
    (ls : List Loaded) (s s' : PS) : runRsl g recover rx required ls s ≠ .err s' := by
  intro h
  unfold runRsl at h
  rw [bind_apply] at h
  cases h1 : runRslFiles rx ((rslFiles required ls).map (·.openFile g recover)) s with
  | ok b s1 =>
    rw [h1] at h
    dsimp only at h
    split at h <;> cases h
  | err s1 => exact runRslFiles_no_err _ _ _ _ h1
  | crash c s1 => rw [h1] at h; cases h

end Verif.Lemmas
