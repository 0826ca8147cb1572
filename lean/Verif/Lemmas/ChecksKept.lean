import Verif.Model.Run.Process
import Verif.Lemmas.ParseRules
/-!
# Parsing trlc files leaves the checks unchanged
-/
namespace Verif.Lemmas
open Verif.Model

/-- `x` does not touch the checks. -/
class Cks {α : Type} (x : P α) : Prop where
  rep : ∀ s, (x s).state.checks = s.checks

variable {α β : Type}

instance cks_bind {x : P α} {f : α → P β} [hx : Cks x] [hf : ∀ a, Cks (f a)] : Cks (x >>= f) := by
  constructor
  intro s
  rw [bind_apply]
  have h1 := hx.rep s
  cases h : x s with
  | ok a s1 =>
    rw [h] at h1
    have := (hf a).rep s1
    exact this.trans h1
  | err s1 => rw [h] at h1; exact h1
  | crash c s1 => rw [h] at h1; exact h1

instance cks_pure {a : α} : Cks (pure a : P α) := ⟨fun s => rfl⟩
instance cks_get : Cks P.get := ⟨fun s => rfl⟩
instance cks_crash {c : PCrash} : Cks (P.crash c : P α) := ⟨fun s => rfl⟩
instance cks_fail {e : PErr} : Cks (P.fail e : P α) := ⟨fun s => rfl⟩
instance cks_report {e : PErr} : Cks (P.report e) := ⟨fun s => rfl⟩

theorem cks_modify {f : PS → PS} (h : ∀ s, (f s).checks = s.checks) : Cks (P.modify f) := ⟨h⟩

instance cks_ite {c : Prop} [Decidable c] {x y : P α} [Cks x] [Cks y] : Cks (if c then x else y) := by
  split <;> infer_instance

instance cks_cond {c : Bool} {x y : P α} [Cks x] [Cks y] : Cks (P.cond c x y) := by
  unfold P.cond
  infer_instance

theorem cks_bind' {x : P α} {f : α → P β} (hx : Cks x) (hf : ∀ a, Cks (f a)) : Cks (x >>= f) := cks_bind
theorem cks_ite' {c : Prop} [Decidable c] {x y : P α} (hx : Cks x) (hy : Cks y) :
    Cks (if c then x else y) := cks_ite
theorem cks_cond' {c : Bool} {x y : P α} (hx : Cks x) (hy : Cks y) : Cks (P.cond c x y) := cks_cond

/-- Composition along the structure of the program -/
macro "kept_cks" : tactic => `(tactic| repeat' (first
  | infer_instance
  | apply cks_bind'
  | apply cks_ite'
  | apply cks_cond'
  | intro _
  | split))

instance cks_liftSym {r : Except SymErr α} : Cks (P.liftSym r) := by
  cases r <;> (unfold P.liftSym; kept_cks)

instance cks_advance : Cks P.advance := ⟨fun s => advance_sp.rel.checks⟩
instance cks_matchK {k : Kind} : Cks (P.matchK k) := ⟨fun s => matchK_sp.rel.checks⟩
instance cks_matchKw {v : String} : Cks (P.matchKw v) := ⟨fun s => matchKw_sp.rel.checks⟩
instance cks_matchEof : Cks P.matchEof := by
  constructor
  intro s
  unfold P.matchEof
  cases h : s.nt <;> rfl

/-! ## Values and objects -/

instance {E : FileEnv} {n : List Char} {sub : Option (Ent → Bool)} : Cks (P.scopeLookup E n sub) := by
  unfold P.scopeLookup; kept_cks
instance {E : FileEnv} : Cks (E.invisible : P α) := by unfold FileEnv.invisible; kept_cks
instance {E : FileEnv} {sub : Ent → Bool} : Cks (parseQualifiedName E sub) := by
  unfold parseQualifiedName; kept_cks
instance : Cks parseBoolean := by unfold parseBoolean; kept_cks
instance {b : Bool} : Cks (parseNumber b) := by unfold parseNumber; kept_cks
instance {E : FileEnv} {τ : Ty} : Cks (parseReference E τ) := by unfold parseReference; kept_cks
instance {E : FileEnv} {t : Nat} : Cks (parseEnum E t) := by unfold parseEnum; kept_cks
instance {E : FileEnv} : Cks (parseMarkup E) := by unfold parseMarkup; kept_cks

instance {pv : P PVal} [Cks pv] {k : Nat} {acc : List PVal} : Cks (arrayLoop pv k acc) := by
  induction k generalizing acc with
  | zero => unfold arrayLoop; kept_cks
  | succ k ih => unfold arrayLoop; kept_cks

instance {pv : P PVal} [Cks pv] {τ : Ty} {lo : Nat} {hi : Option Nat} : Cks (parseArray pv τ lo hi) := by
  unfold parseArray; kept_cks

instance {sp : Sep} : Cks (P.matchSep sp) := by cases sp <;> (unfold P.matchSep; kept_cks)

instance {pv : Ty → P PVal} [∀ τ, Cks (pv τ)] {l : List SeqItem} {b : Bool} {d : List (String × PVal)} :
    Cks (sepLoop pv l b d) := by
  induction l generalizing b d with
  | nil => unfold sepLoop; kept_cks
  | cons i l ih => cases i <;> (unfold sepLoop; kept_cks)

instance {pv : Ty → P PVal} [∀ τ, Cks (pv τ)] {t : Nat} {cs : List Comp} {seps : List Sep} :
    Cks (parseSepTuple pv t cs seps) := by unfold parseSepTuple; kept_cks

instance {pv : Ty → P PVal} [∀ τ, Cks (pv τ)] {b : Bool} {cs : List Comp} {d : List (String × PVal)} :
    Cks (plainLoop pv b cs d) := by
  induction cs generalizing b d with
  | nil => unfold plainLoop; kept_cks
  | cons i l ih => unfold plainLoop; kept_cks

instance {pv : Ty → P PVal} [∀ τ, Cks (pv τ)] {t : Nat} {cs : List Comp} :
    Cks (parsePlainTuple pv t cs) := by unfold parsePlainTuple; kept_cks

instance {E : FileEnv} {n : Nat} {τ : Ty} : Cks (parseValue E n τ) := by
  induction n generalizing τ with
  | zero => unfold parseValue; kept_cks
  | succ n ih => cases τ <;> (unfold parseValue; kept_cks)

instance {v : PVal} : Cks (P.newNode v) := ⟨fun s => rfl⟩

instance {o : Nat} {n : String} {v : VNode} : Cks (P.assign o n v) := by
  constructor
  intro s
  unfold P.assign
  split
  · rfl
  · split
    · rfl
    · rfl

instance {E : FileEnv} {o t : Nat} : Cks (parseAssignment E o t) := by unfold parseAssignment; kept_cks

instance {E : FileEnv} {o t k : Nat} : Cks (assignLoop E o t k) := by
  induction k with
  | zero => unfold assignLoop; kept_cks
  | succ k ih => unfold assignLoop; kept_cks

instance {o t : Nat} {cs : List Comp} : Cks (completeLoop o t cs) := by
  induction cs with
  | nil => unfold completeLoop; kept_cks
  | cons c cs ih => unfold completeLoop; kept_cks

instance {E : FileEnv} {t : Nat} {n : List Char} : Cks (P.newObject E t n) := by
  constructor
  intro s
  unfold P.newObject
  dsimp only
  split
  · rfl
  · split
    · rfl
    · rfl

instance {E : FileEnv} {e : Ent} : Cks (parseObjectOf E e) := by unfold parseObjectOf; kept_cks
instance {E : FileEnv} : Cks (parseObject E) := by unfold parseObject; kept_cks

instance {v : List Char} : Cks (P.modify fun s => { s with sects := s.sects ++ [v] }) :=
  cks_modify fun _ => rfl
instance : Cks (P.modify fun s => { s with sects := s.sects.dropLast }) := cks_modify fun _ => rfl

theorem entry_cks {E : FileEnv} (n : Nat) : Cks (parseEntry E n) ∧ Cks (sectionLoop E n) := by
  induction n with
  | zero => exact ⟨by unfold parseEntry; kept_cks, by unfold sectionLoop; kept_cks⟩
  | succ n ih =>
    have := ih.1
    have := ih.2
    exact ⟨by unfold parseEntry; kept_cks, by unfold sectionLoop; kept_cks⟩

instance {E : FileEnv} {n : Nat} : Cks (parseEntry E n) := (entry_cks n).1

instance {line k : Nat} : Cks (skipLoop line k) := by
  induction k with
  | zero => unfold skipLoop; kept_cks
  | succ k ih =>
    constructor
    intro s
    unfold skipLoop
    split
    · exact (inferInstance : Cks (P.advance >>= fun _ => skipLoop line k)).rep s
    · rfl

instance : Cks P.skipUntilNewline := by
  constructor
  intro s
  unfold P.skipUntilNewline
  split
  · rfl
  · next t _ => exact (inferInstance : Cks (skipLoop t.line (s.toks + 1))).rep s

instance {E : FileEnv} {k : Nat} : Cks (recoverLoop E k) := by
  induction k with
  | zero => unfold recoverLoop; kept_cks
  | succ k ih => unfold recoverLoop; kept_cks

/-! ## Expressions -/


theorem recoverFile_cks {E : FileEnv} (s : PS) : (recoverFile E s).state.checks = s.checks := by
  cases hr : E.recover
  · have : recoverFile E s = .err s := by unfold recoverFile; rw [hr]; rfl
    rw [this]; rfl
  · have : recoverFile E = (do P.skipUntilNewline; let s ← P.get; recoverLoop E (s.toks + 1); pure false : P Bool) := by
      unfold recoverFile; rw [hr]; rfl
    rw [this]
    exact (by kept_cks : Cks _).rep s

instance {E : FileEnv} {k : Nat} {ok : Bool} : Cks (fileLoop E k ok) := by
  induction k generalizing ok with
  | zero => unfold fileLoop; kept_cks
  | succ k ih =>
    unfold fileLoop
    have : ∀ n, Cks (P.tryCatch (do parseEntry E n; pure true) (recoverFile E)) := by
      intro n
      constructor
      intro s
      unfold P.tryCatch
      have h1 := (inferInstance : Cks (do parseEntry E n; pure true)).rep s
      split
      · next h => rw [h] at h1; exact h1
      · next s1 h =>
        rw [h] at h1
        exact (recoverFile_cks s1).trans h1
      · next h => rw [h] at h1; exact h1
    kept_cks

instance {E : FileEnv} : Cks (parseTrlcFile E) := by unfold parseTrlcFile; kept_cks

theorem runTrlcFile_cks (f : OpenFile) : Cks (runTrlcFile f) := by
  unfold runTrlcFile
  apply cks_bind'
  · exact cks_modify fun s => rfl
  · intro _
    constructor
    intro s
    have h1 := (inferInstance : Cks (parseTrlcFile f.env)).rep s
    unfold P.tryCatch
    split
    · next h => rw [h] at h1; exact h1
    · next h => rw [h] at h1; exact h1
    · next h => rw [h] at h1; exact h1

/-- The trlc files are parsed without touching the checks. -/
theorem runTrlcFiles_cks (fs : List OpenFile) : Cks (runTrlcFiles fs) := by
  induction fs with
  | nil => unfold runTrlcFiles; kept_cks
  | cons f fs ih =>
    have := runTrlcFile_cks f
    unfold runTrlcFiles
    kept_cks

end Verif.Lemmas
