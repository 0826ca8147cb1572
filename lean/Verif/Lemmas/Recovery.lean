import Verif.Lemmas.SaysRun
/-!
# Parsing with and without error recovery
-/
namespace Verif.Lemmas.Recovery
open Verif.Model

/-- The environment of a file with error recovery switched on or off -/
abbrev set (E : FileEnv) (b : Bool) : FileEnv := { E with recover := b }

/-- The file with error recovery switched on or off -/
abbrev setFile (f : OpenFile) (b : Bool) : OpenFile := { f with env := set f.env b }

section
set_option smartUnfolding false

theorem entry_set (E : FileEnv) (b : Bool) (k : Nat) : parseEntry (set E b) k = parseEntry E k := by rfl

theorem item_set (E : FileEnv) (rx : Regex) (b : Bool) :
    parseRslItem (set E b) rx = parseRslItem E rx := by rfl
end

/-- Both failed, and both reported the errors `s.errs ++ l` first. -/
structure Fails (s : PS) (r n : PR Bool) : Prop where
  on   : ∀ s', r ≠ .ok true s'
  off  : ∀ s', n ≠ .ok true s'
  errs : ∃ l, l ≠ [] ∧ s.errs ++ l <+: r.state.errs ∧ s.errs ++ l <+: n.state.errs

/-- Nothing differs, or both fail with the same first errors. -/
def Agree (s : PS) (r n : PR Bool) : Prop := r = n ∨ Fails s r n

theorem prefix_grows {α : Type} {x : P α} (h : Grows x) {l : List PErr} {s : PS} (hl : l <+: s.errs) :
    l <+: (x s).state.errs := by
  obtain ⟨l', e⟩ := h s
  rw [e]
  exact hl.trans (List.prefix_append ..)

theorem Tells.grows {x : P Bool} (h : Tells x) : Grows x := by
  intro s
  have := h s
  cases hx : x s with
  | ok a s1 => rw [hx] at this; cases a <;> exact ⟨_, this.choose_spec.1⟩
  | err s1 => rw [hx] at this; exact ⟨_, this.choose_spec.1⟩
  | crash c s1 => rw [hx] at this; exact this

theorem grows_pure {α : Type} {a : α} : Grows (pure a) := fun s => ⟨[], by simp [pure_apply, PR.state]⟩

theorem fileLoop_grows (E : FileEnv) (k : Nat) (ok : Bool) : Grows (fileLoop E k ok) := by
  intro s
  rw [fileLoop_and]
  exact grows_bind (Tells.grows (fileLoop_tells E k)) (fun _ => grows_pure) s

theorem rslLoop_grows (E : FileEnv) (rx : Regex) (k : Nat) (ok : Bool) : Grows (rslLoop E rx k ok) := by
  intro s
  rw [rslLoop_and]
  exact grows_bind (Tells.grows (rslLoop_tells E rx k)) (fun _ => grows_pure) s

theorem and_false {x : P Bool} {s s' : PS} :
    (do let b ← x; pure (false && b) : P Bool) s ≠ .ok true s' := by
  rw [bind_apply]
  intro h
  split at h
  · rw [pure_apply] at h; cases h
  · cases h
  · cases h

theorem fileLoop_false {E : FileEnv} {k : Nat} {s s' : PS} : fileLoop E k false s ≠ .ok true s' := by
  rw [fileLoop_and]; exact and_false

theorem rslLoop_false {E : FileEnv} {rx : Regex} {k : Nat} {s s' : PS} :
    rslLoop E rx k false s ≠ .ok true s' := by
  rw [rslLoop_and]; exact and_false

/-- How one file compares: nothing differs, or both fail and what is reported without recovery is
what is reported first with recovery. -/
structure FileFails (s : PS) (r n : PR Bool) : Prop where
  on   : ∀ s', r ≠ .ok true s'
  off  : ∀ s', n ≠ .ok true s'
  more : ∃ l, l ≠ [] ∧ n.state.errs = s.errs ++ l
  errs : n.state.errs <+: r.state.errs

def FileAgree (s : PS) (r n : PR Bool) : Prop := r = n ∨ FileFails s r n

theorem FileFails.of {s s1 : PS} {l : List PErr} {r n : PR Bool} (h : FileFails s1 r n)
    (e : s1.errs = s.errs ++ l) : FileFails s r n :=
  ⟨h.on, h.off, by
    obtain ⟨l', h1, h2⟩ := h.more
    exact ⟨l ++ l', by simp [h1], by rw [h2, e, List.append_assoc]⟩, h.errs⟩

/-- one round of a loop over items -/
theorem item_agree {x : P Unit} {hon hoff : P Bool} {loop loop' : Bool → P Bool} (hx : Says x)
    (hg : Grows hon) (hf : ∀ s b s', hon s = .ok b s' → b = false) (hoff' : ∀ s, hoff s = .err s)
    (hl : ∀ s, FileAgree s (loop true s) (loop' true s)) (hlg : ∀ b, Grows (loop b))
    (hlf : ∀ s s', loop false s ≠ .ok true s') (s : PS) :
    FileAgree s
      ((do let b ← P.tryCatch (do x; pure true) hon; loop (true && b) : P Bool) s)
      ((do let b ← P.tryCatch (do x; pure true) hoff; loop' (true && b) : P Bool) s) := by
  simp only [bind_apply, P.tryCatch]
  cases h : x s with
  | ok u s1 =>
    simp only [pure_apply, Bool.true_and]
    obtain ⟨l, e⟩ := hx.grows s
    rw [h] at e
    rcases hl s1 with h1 | h1
    · exact .inl h1
    · exact .inr (h1.of e)
  | crash c s1 => exact .inl rfl
  | err s1 =>
    obtain ⟨l, e1, e2⟩ := hx.err h
    simp only [hoff']
    refine .inr ⟨fun s' => ?_, (fun s' h => by cases h), ⟨l, e2, e1⟩, ?_⟩
    · cases hr : hon s1 with
      | ok b s2 =>
        have := hf _ _ _ hr
        subst this
        exact hlf s2 s'
      | err s2 => intro h; cases h
      | crash c s2 => intro h; cases h
    · have hp : s1.errs <+: (hon s1).state.errs := prefix_grows hg (List.prefix_refl _)
      cases hr : hon s1 with
      | ok b s2 =>
        rw [hr] at hp
        exact prefix_grows (hlg _) hp
      | err s2 => rw [hr] at hp; exact hp
      | crash c s2 => rw [hr] at hp; exact hp

theorem fileLoop_agree (E : FileEnv) (k : Nat) (s : PS) :
    FileAgree s (fileLoop (set E true) k true s) (fileLoop (set E false) k true s) := by
  induction k generalizing s with
  | zero => exact .inl rfl
  | succ k ih =>
    rw [fileLoop, fileLoop]
    simp only [entry_set]
    rw [bind_apply, bind_apply]
    simp only [P.get]
    split
    · exact item_agree (loop := fileLoop (set E true) k) (loop' := fileLoop (set E false) k)
        inferInstance recoverFile_grows (fun _ _ _ h => recoverFile_false h)
        (recoverFile_off rfl) ih (fileLoop_grows _ _) (fun _ _ => fileLoop_false) s
    · exact .inl rfl

theorem rslLoop_agree (E : FileEnv) (rx : Regex) (k : Nat) (s : PS) :
    FileAgree s (rslLoop (set E true) rx k true s) (rslLoop (set E false) rx k true s) := by
  induction k generalizing s with
  | zero => exact .inl rfl
  | succ k ih =>
    rw [rslLoop, rslLoop]
    simp only [item_set]
    rw [bind_apply, bind_apply]
    simp only [P.get]
    split
    · exact .inl rfl
    · exact item_agree (loop := rslLoop (set E true) rx k) (loop' := rslLoop (set E false) rx k)
        inferInstance recoverRsl_grows (fun _ _ _ h => recoverRsl_false h)
        (recoverRsl_off rfl) ih (rslLoop_grows _ _ _) (fun _ _ => rslLoop_false) s

/-- Without recovery, a loop that does not end with `True` ends with an exception. -/
def Raises (x : P Bool) : Prop := ∀ s s', x s ≠ .ok false s'

theorem raises_fileLoop (E : FileEnv) (k : Nat) : Raises (fileLoop (set E false) k true) := by
  induction k with
  | zero => intro s s' h; cases h
  | succ k ih =>
    intro s s' h
    rw [fileLoop] at h
    rw [bind_apply] at h
    simp only [P.get] at h
    split at h
    · rw [bind_apply] at h
      simp only [P.tryCatch, bind_apply] at h
      cases hx : parseEntry (set E false) (2 * s.toks + 2) s with
      | ok u s1 => rw [hx] at h; exact ih _ _ h
      | err s1 => rw [hx] at h; simp only [recoverFile_off (E := set E false) rfl] at h; cases h
      | crash c s1 => rw [hx] at h; cases h
    · cases h

theorem raises_rslLoop (E : FileEnv) (rx : Regex) (k : Nat) : Raises (rslLoop (set E false) rx k true) := by
  induction k with
  | zero => intro s s' h; cases h
  | succ k ih =>
    intro s s' h
    rw [rslLoop] at h
    rw [bind_apply] at h
    simp only [P.get] at h
    split at h
    · cases h
    · rw [bind_apply] at h
      simp only [P.tryCatch, bind_apply] at h
      cases hx : parseRslItem (set E false) rx s with
      | ok u s1 => rw [hx] at h; exact ih _ _ h
      | err s1 => rw [hx] at h; simp only [recoverRsl_off (E := set E false) rfl] at h; cases h
      | crash c s1 => rw [hx] at h; cases h

theorem eof_agree {x y : P Bool} (h : ∀ s, FileAgree s (x s) (y s)) (hy : Raises y) (s : PS) :
    FileAgree s ((do let ok ← x; P.matchEof; pure ok : P Bool) s)
      ((do let ok ← y; P.matchEof; pure ok : P Bool) s) := by
  rw [bind_apply, bind_apply]
  rcases h s with h | h
  · rw [h]; exact .inl rfl
  · have hgt : ∀ a : Bool, Grows (do P.matchEof; pure a : P Bool) := fun a =>
      grows_bind says_matchEof.grows fun _ => grows_pure
    cases hn : y s with
    | ok a s1 =>
      cases a
      · exact absurd hn (hy _ _)
      · exact absurd hn (h.off _)
    | err s1 =>
      rw [hn] at h
      refine .inr ⟨fun s' => ?_, (fun s' h => by cases h), h.more, ?_⟩
      · cases hr : x s with
        | ok a s2 =>
          cases a
          · dsimp only
            rw [bind_apply]
            intro h
            split at h <;> cases h
          · exact absurd hr (h.on _)
        | err s2 => intro h; cases h
        | crash c s2 => intro h; cases h
      · cases hr : x s with
        | ok a s2 =>
          have := h.errs
          rw [hr] at this
          exact prefix_grows (hgt a) this
        | err s2 => have := h.errs; rw [hr] at this; exact this
        | crash c s2 => have := h.errs; rw [hr] at this; exact this
    | crash c s1 =>
      rw [hn] at h
      refine .inr ⟨fun s' => ?_, (fun s' h => by cases h), h.more, ?_⟩
      · cases hr : x s with
        | ok a s2 =>
          cases a
          · dsimp only
            rw [bind_apply]
            intro h
            split at h <;> cases h
          · exact absurd hr (h.on _)
        | err s2 => intro h; cases h
        | crash c s2 => intro h; cases h
      · cases hr : x s with
        | ok a s2 =>
          have := h.errs
          rw [hr] at this
          exact prefix_grows (hgt a) this
        | err s2 => have := h.errs; rw [hr] at this; exact this
        | crash c s2 => have := h.errs; rw [hr] at this; exact this

theorem trlcFile_agree (E : FileEnv) (s : PS) :
    FileAgree s (parseTrlcFile (set E true) s) (parseTrlcFile (set E false) s) := by
  unfold parseTrlcFile
  exact eof_agree (fileLoop_agree E (s.toks + 1)) (raises_fileLoop _ _) s

theorem rslFile_agree (E : FileEnv) (rx : Regex) (s : PS) :
    FileAgree s (parseRslFile (set E true) rx s) (parseRslFile (set E false) rx s) := by
  unfold parseRslFile
  exact eof_agree (rslLoop_agree E rx (s.toks + 1)) (raises_rslLoop _ _ _) s

/-- `try: … except TRLC_Error: ok = False` -/
theorem caught_agree {x y : P Bool} (h : ∀ s, FileAgree s (x s) (y s)) (f : OpenFile) (s : PS) :
    FileAgree s ((do P.modify fun s => s.enter f; P.tryCatch x (pure false) : P Bool) s)
      ((do P.modify fun s => s.enter f; P.tryCatch y (pure false) : P Bool) s) := by
  rw [bind_apply, bind_apply]
  simp only [P.modify, P.tryCatch]
  rcases h (s.enter f) with h | h
  · rw [h]; exact .inl rfl
  · refine .inr ⟨fun s' => ?_, fun s' => ?_, ?_, ?_⟩
    · cases hr : x (s.enter f) with
      | ok a s1 => have := h.on s'; rw [hr] at this; exact this
      | err s1 => intro h; cases h
      | crash c s1 => intro h; cases h
    · cases hr : y (s.enter f) with
      | ok a s1 => have := h.off s'; rw [hr] at this; exact this
      | err s1 => intro h; cases h
      | crash c s1 => intro h; cases h
    · obtain ⟨l, h1, h2⟩ := h.more
      refine ⟨l, h1, ?_⟩
      cases hr : y (s.enter f) <;> rw [hr] at h2 <;> exact h2
    · have := h.errs
      cases hr : x (s.enter f) <;> cases hn : y (s.enter f) <;> rw [hr, hn] at this <;> exact this

theorem runTrlcFile_agree (f : OpenFile) (s : PS) :
    FileAgree s (runTrlcFile (setFile f true) s) (runTrlcFile (setFile f false) s) :=
  caught_agree (trlcFile_agree f.env) f s

theorem runRslFile_agree (rx : Regex) (f : OpenFile) (s : PS) :
    FileAgree s (runRslFile rx (setFile f true) s) (runRslFile rx (setFile f false) s) :=
  caught_agree (rslFile_agree f.env rx) f s

theorem FileFails.fails {s : PS} {r n : PR Bool} (h : FileFails s r n) : Fails s r n := by
  obtain ⟨l, h1, h2⟩ := h.more
  exact ⟨h.on, h.off, l, h1, h2 ▸ h.errs, h2 ▸ List.prefix_refl _⟩

theorem Fails.of {s s1 : PS} {l : List PErr} {r n : PR Bool} (h : Fails s1 r n)
    (e : s1.errs = s.errs ++ l) : Fails s r n :=
  ⟨h.on, h.off, by
    obtain ⟨l', h1, h2, h3⟩ := h.errs
    rw [e, List.append_assoc] at h2 h3
    exact ⟨l ++ l', by simp [h1], h2, h3⟩⟩

theorem and_not {x y : P Bool} {s s' : PS} (h : ∀ s', x s ≠ .ok true s') :
    (do let a ← x; let b ← y; pure (a && b) : P Bool) s ≠ .ok true s' := by
  rw [bind_apply]
  cases hx : x s with
  | ok a s1 =>
    cases a
    · dsimp only
      rw [bind_apply]
      intro h
      split at h
      · rw [pure_apply] at h; cases h
      · cases h
      · cases h
    · exact absurd hx (h _)
  | err s1 => intro h; cases h
  | crash c s1 => intro h; cases h

theorem prefix_bind {α : Type} {x : P α} {f : α → P Bool} (hf : ∀ a, Grows (f a)) {l : List PErr} {s : PS}
    (h : l <+: (x s).state.errs) : l <+: ((x >>= f) s).state.errs := by
  rw [bind_apply]
  cases hx : x s with
  | ok a s1 => rw [hx] at h; exact prefix_grows (hf a) h
  | err s1 => rw [hx] at h; exact h
  | crash c s1 => rw [hx] at h; exact h

/-- two loops over files -/
theorem and_agree {x x' y y' : P Bool} (hx : ∀ s, Agree s (x s) (x' s)) (hy : ∀ s, Agree s (y s) (y' s))
    (gx : Grows x) (gy : Grows y) (gy' : Grows y') (s : PS) :
    Agree s ((do let a ← x; let b ← y; pure (a && b) : P Bool) s)
      ((do let a ← x'; let b ← y'; pure (a && b) : P Bool) s) := by
  rcases hx s with h | h
  · rw [bind_apply, bind_apply, ← h]
    cases hs : x s with
    | err s1 => exact .inl rfl
    | crash c s1 => exact .inl rfl
    | ok a s1 =>
      obtain ⟨l, e⟩ := gx s
      rw [hs] at e
      dsimp only
      rw [bind_apply, bind_apply]
      rcases hy s1 with h1 | h1
      · rw [h1]; exact .inl rfl
      · have h1 := h1.of e
        refine .inr ⟨fun s' => ?_, fun s' => ?_, ?_⟩
        · have := h1.on
          cases hr : y s1 with
          | ok b s2 =>
            rw [hr] at this
            dsimp only
            rw [pure_apply]
            cases b
            · simp
            · exact absurd rfl (this s2)
          | err s2 => intro h; cases h
          | crash c s2 => intro h; cases h
        · have := h1.off
          cases hr : y' s1 with
          | ok b s2 =>
            rw [hr] at this
            dsimp only
            rw [pure_apply]
            cases b
            · simp
            · exact absurd rfl (this s2)
          | err s2 => intro h; cases h
          | crash c s2 => intro h; cases h
        · obtain ⟨l, h2, h3, h4⟩ := h1.errs
          refine ⟨l, h2, ?_, ?_⟩
          · cases hr : y s1 <;> rw [hr] at h3 <;> exact h3
          · cases hr : y' s1 <;> rw [hr] at h4 <;> exact h4
  · obtain ⟨l, h2, h3, h4⟩ := h.errs
    exact .inr ⟨fun s' => and_not h.on, fun s' => and_not h.off, l, h2,
      prefix_bind (fun _ => grows_bind gy fun _ => grows_pure) h3,
      prefix_bind (fun _ => grows_bind gy' fun _ => grows_pure) h4⟩

theorem FileAgree.agree {s : PS} {r n : PR Bool} (h : FileAgree s r n) : Agree s r n :=
  h.imp id FileFails.fails

theorem runTrlcFiles_agree (fs : List OpenFile) (s : PS) :
    Agree s (runTrlcFiles (fs.map (setFile · true)) s) (runTrlcFiles (fs.map (setFile · false)) s) := by
  induction fs generalizing s with
  | nil => exact .inl rfl
  | cons f fs ih =>
    exact and_agree (fun s => (runTrlcFile_agree f s).agree) ih
      (Tells.grows (tells_file (f := setFile f true) (parseTrlcFile_tells _)))
      (Tells.grows (runTrlcFiles_tells _)) (Tells.grows (runTrlcFiles_tells _)) s

theorem runRslFiles_agree (rx : Regex) (fs : List OpenFile) (s : PS) :
    Agree s (runRslFiles rx (fs.map (setFile · true)) s) (runRslFiles rx (fs.map (setFile · false)) s) := by
  induction fs generalizing s with
  | nil => exact .inl rfl
  | cons f fs ih =>
    exact and_agree (fun s => (runRslFile_agree rx f s).agree) ih
      (Tells.grows (tells_file (f := setFile f true) (parseRslFile_tells _ _)))
      (Tells.grows (runRslFiles_tells _ _)) (Tells.grows (runRslFiles_tells _ _)) s

theorem opened_set (g : STab) (b : Bool) (ls : List Loaded) :
    ls.map (·.openFile g b) = (ls.map (·.openFile g true)).map (setFile · b) := by
  rw [List.map_map]
  rfl

theorem runTrlc_agree (g : STab) (R : Finset PNode) (ls : List Loaded) (s : PS) :
    Agree s (runTrlc g true R ls s) (runTrlc g false R ls s) := by
  unfold runTrlc
  have h := runTrlcFiles_agree ((trlcFiles R ls).map (·.openFile g true)) s
  rw [← opened_set g true, ← opened_set g false] at h
  exact h

theorem runRsl_agree (g : STab) (rx : Regex) (R : Finset PNode) (ls : List Loaded) (s : PS) :
    Agree s (runRsl g true rx R ls s) (runRsl g false rx R ls s) := by
  unfold runRsl
  rw [opened_set g false]
  have h := runRslFiles_agree rx ((rslFiles R ls).map (·.openFile g true)) s
  have hm : ((rslFiles R ls).map (·.openFile g true)).map (setFile · true) =
    (rslFiles R ls).map (·.openFile g true) := (opened_set g true _).symm
  rw [hm] at h
  rcases h with h | h
  · rw [bind_apply, bind_apply, h]; exact .inl rfl
  · have hn : ∀ {x : P Bool}, (∀ s', x s ≠ .ok true s') → ∀ s',
        (do let ok ← x
            if (parseRslOrder R (ls.map (·.cu))).2 then do
              P.report (.other 21)
              pure false
            else pure ok : P Bool) s ≠ .ok true s' := by
      intro x hx s'
      rw [bind_apply]
      cases hr : x s with
      | ok a s1 =>
        cases a
        · dsimp only
          split
          · intro h; cases h
          · intro h; cases h
        · exact absurd hr (hx _)
      | err s1 => intro h; cases h
      | crash c s1 => intro h; cases h
    have hg : ∀ ok : Bool, Grows (if (parseRslOrder R (ls.map (·.cu))).2 then do
              P.report (.other 21)
              pure false
            else pure ok : P Bool) := by
      intro ok s
      split
      · exact ⟨[.other 21], rfl⟩
      · exact grows_pure s
    obtain ⟨l, h2, h3, h4⟩ := h.errs
    exact .inr ⟨hn h.on, hn h.off, l, h2, prefix_bind hg h3, prefix_bind hg h4⟩

end Verif.Lemmas.Recovery
