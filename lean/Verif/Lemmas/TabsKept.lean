import Verif.Model.Run.Process
import Verif.Lemmas.ParseRules
import Verif.Lemmas.Preamble
/-!
# Parsing trlc files only adds objects to the tables of packages
-/
namespace Verif.Lemmas
open Verif.Model

/-- the same packages, with more objects -/
def MoreObjs (Ts Ts' : List STab) : Prop :=
  ∀ p : Nat, (Ts[p]? = none → Ts'[p]? = none) ∧ ∀ T : STab, Ts[p]? = some T → ∃ l : Frame, Ts'[p]? = some ({ T with own := T.own ++ l } : STab) ∧
    ∀ x ∈ l, x.2.cls = clsObject

theorem MoreObjs.refl (Ts : List STab) : MoreObjs Ts Ts :=
  fun _ => ⟨id, fun T h => ⟨[], by rw [h]; simp, by simp⟩⟩

theorem MoreObjs.of_eq {Ts Ts' : List STab} (h : Ts' = Ts) : MoreObjs Ts Ts' := h ▸ .refl _

theorem MoreObjs.trans {a b c : List STab} (h : MoreObjs a b) (h' : MoreObjs b c) : MoreObjs a c := by
  intro p
  refine ⟨fun e => (h' p).1 ((h p).1 e), fun T hT => ?_⟩
  obtain ⟨l, h1, h2⟩ := (h p).2 T hT
  obtain ⟨l', h3, h4⟩ := (h' p).2 _ h1
  refine ⟨l ++ l', by rw [h3]; simp, fun x hx => ?_⟩
  rcases List.mem_append.1 hx with hx | hx
  · exact h2 x hx
  · exact h4 x hx

/-- `x` only adds objects. -/
class Tbk {α : Type} (x : P α) : Prop where
  rep : ∀ s, MoreObjs s.tabs (x s).state.tabs

variable {α β : Type}

instance tbk_bind {x : P α} {f : α → P β} [hx : Tbk x] [hf : ∀ a, Tbk (f a)] : Tbk (x >>= f) := by
  constructor
  intro s
  rw [bind_apply]
  have h1 := hx.rep s
  cases h : x s with
  | ok a s1 =>
    rw [h] at h1
    exact h1.trans ((hf a).rep s1)
  | err s1 => rw [h] at h1; exact h1
  | crash c s1 => rw [h] at h1; exact h1

instance tbk_pure {a : α} : Tbk (pure a : P α) := ⟨fun s => .refl _⟩
instance tbk_get : Tbk P.get := ⟨fun s => .refl _⟩
instance tbk_crash {c : PCrash} : Tbk (P.crash c : P α) := ⟨fun s => .refl _⟩
instance tbk_fail {e : PErr} : Tbk (P.fail e : P α) := ⟨fun s => .refl _⟩
instance tbk_report {e : PErr} : Tbk (P.report e) := ⟨fun s => .refl _⟩

theorem tbk_modify {f : PS → PS} (h : ∀ s, (f s).tabs = s.tabs) : Tbk (P.modify f) := ⟨fun s => .of_eq (h s)⟩

instance tbk_ite {c : Prop} [Decidable c] {x y : P α} [Tbk x] [Tbk y] : Tbk (if c then x else y) := by
  split <;> infer_instance

instance tbk_cond {c : Bool} {x y : P α} [Tbk x] [Tbk y] : Tbk (P.cond c x y) := by
  unfold P.cond
  infer_instance

theorem tbk_bind' {x : P α} {f : α → P β} (hx : Tbk x) (hf : ∀ a, Tbk (f a)) : Tbk (x >>= f) := tbk_bind
theorem tbk_ite' {c : Prop} [Decidable c] {x y : P α} (hx : Tbk x) (hy : Tbk y) :
    Tbk (if c then x else y) := tbk_ite
theorem tbk_cond' {c : Bool} {x y : P α} (hx : Tbk x) (hy : Tbk y) : Tbk (P.cond c x y) := tbk_cond

/-- Composition along the structure of the program -/
macro "kept_tbk" : tactic => `(tactic| repeat' (first
  | infer_instance
  | apply tbk_bind'
  | apply tbk_ite'
  | apply tbk_cond'
  | intro _
  | split))

instance tbk_liftSym {r : Except SymErr α} : Tbk (P.liftSym r) := by
  cases r <;> (unfold P.liftSym; kept_tbk)

instance tbk_advance : Tbk P.advance := ⟨fun s => .of_eq advance_sp.rel.tabs⟩
instance tbk_matchK {k : Kind} : Tbk (P.matchK k) := ⟨fun s => .of_eq matchK_sp.rel.tabs⟩
instance tbk_matchKw {v : String} : Tbk (P.matchKw v) := ⟨fun s => .of_eq matchKw_sp.rel.tabs⟩
instance tbk_matchEof : Tbk P.matchEof := by
  constructor
  intro s
  unfold P.matchEof
  cases h : s.nt <;> exact .refl _

/-! ## Values and objects -/

instance {E : FileEnv} {n : List Char} {sub : Option (Ent → Bool)} : Tbk (P.scopeLookup E n sub) := by
  unfold P.scopeLookup; kept_tbk
instance {E : FileEnv} : Tbk (E.invisible : P α) := by unfold FileEnv.invisible; kept_tbk
instance {E : FileEnv} {sub : Ent → Bool} : Tbk (parseQualifiedName E sub) := by
  unfold parseQualifiedName; kept_tbk
instance : Tbk parseBoolean := by unfold parseBoolean; kept_tbk
instance {b : Bool} : Tbk (parseNumber b) := by unfold parseNumber; kept_tbk
instance {E : FileEnv} {τ : Ty} : Tbk (parseReference E τ) := by unfold parseReference; kept_tbk
instance {E : FileEnv} {t : Nat} : Tbk (parseEnum E t) := by unfold parseEnum; kept_tbk
instance {E : FileEnv} : Tbk (parseMarkup E) := by unfold parseMarkup; kept_tbk

instance {pv : P PVal} [Tbk pv] {k : Nat} {acc : List PVal} : Tbk (arrayLoop pv k acc) := by
  induction k generalizing acc with
  | zero => unfold arrayLoop; kept_tbk
  | succ k ih => unfold arrayLoop; kept_tbk

instance {pv : P PVal} [Tbk pv] {τ : Ty} {lo : Nat} {hi : Option Nat} : Tbk (parseArray pv τ lo hi) := by
  unfold parseArray; kept_tbk

instance {sp : Sep} : Tbk (P.matchSep sp) := by cases sp <;> (unfold P.matchSep; kept_tbk)

instance {pv : Ty → P PVal} [∀ τ, Tbk (pv τ)] {l : List SeqItem} {b : Bool} {d : List (String × PVal)} :
    Tbk (sepLoop pv l b d) := by
  induction l generalizing b d with
  | nil => unfold sepLoop; kept_tbk
  | cons i l ih => cases i <;> (unfold sepLoop; kept_tbk)

instance {pv : Ty → P PVal} [∀ τ, Tbk (pv τ)] {t : Nat} {cs : List Comp} {seps : List Sep} :
    Tbk (parseSepTuple pv t cs seps) := by unfold parseSepTuple; kept_tbk

instance {pv : Ty → P PVal} [∀ τ, Tbk (pv τ)] {b : Bool} {cs : List Comp} {d : List (String × PVal)} :
    Tbk (plainLoop pv b cs d) := by
  induction cs generalizing b d with
  | nil => unfold plainLoop; kept_tbk
  | cons i l ih => unfold plainLoop; kept_tbk

instance {pv : Ty → P PVal} [∀ τ, Tbk (pv τ)] {t : Nat} {cs : List Comp} :
    Tbk (parsePlainTuple pv t cs) := by unfold parsePlainTuple; kept_tbk

instance {E : FileEnv} {n : Nat} {τ : Ty} : Tbk (parseValue E n τ) := by
  induction n generalizing τ with
  | zero => unfold parseValue; kept_tbk
  | succ n ih => cases τ <;> (unfold parseValue; kept_tbk)

instance {v : PVal} : Tbk (P.newNode v) := ⟨fun s => .refl _⟩

instance {o : Nat} {n : String} {v : VNode} : Tbk (P.assign o n v) := by
  constructor
  intro s
  unfold P.assign
  split
  · exact .refl _
  · split
    · exact .refl _
    · exact .refl _

instance {E : FileEnv} {o t : Nat} : Tbk (parseAssignment E o t) := by unfold parseAssignment; kept_tbk

instance {E : FileEnv} {o t k : Nat} : Tbk (assignLoop E o t k) := by
  induction k with
  | zero => unfold assignLoop; kept_tbk
  | succ k ih => unfold assignLoop; kept_tbk

instance {o t : Nat} {cs : List Comp} : Tbk (completeLoop o t cs) := by
  induction cs with
  | nil => unfold completeLoop; kept_tbk
  | cons c cs ih => unfold completeLoop; kept_tbk

instance {E : FileEnv} {t : Nat} {n : List Char} : Tbk (P.newObject E t n) := by
  constructor
  intro s
  unfold P.newObject
  dsimp only
  split
  · exact .refl _
  next T hT =>
  split
  · exact .refl _
  next tab htab =>
  obtain ⟨-, rfl⟩ := register_entry htab
  intro p
  dsimp only [PR.state]
  rw [List.getElem?_set]
  split
  · next e =>
    subst e
    refine ⟨fun e => (by rw [hT] at e; cases e), fun T' hT' => ?_⟩
    rw [hT] at hT'
    cases hT'
    refine ⟨_, if_pos (List.getElem?_eq_some_iff.1 hT).1, ?_⟩
    intro x hx
    rw [List.mem_singleton] at hx
    rw [hx]
  · exact MoreObjs.refl s.tabs p

instance {E : FileEnv} {e : Ent} : Tbk (parseObjectOf E e) := by unfold parseObjectOf; kept_tbk
instance {E : FileEnv} : Tbk (parseObject E) := by unfold parseObject; kept_tbk

instance {v : List Char} : Tbk (P.modify fun s => { s with sects := s.sects ++ [v] }) :=
  tbk_modify fun _ => rfl
instance : Tbk (P.modify fun s => { s with sects := s.sects.dropLast }) := tbk_modify fun _ => rfl

theorem entry_tbk {E : FileEnv} (n : Nat) : Tbk (parseEntry E n) ∧ Tbk (sectionLoop E n) := by
  induction n with
  | zero => exact ⟨by unfold parseEntry; kept_tbk, by unfold sectionLoop; kept_tbk⟩
  | succ n ih =>
    have := ih.1
    have := ih.2
    exact ⟨by unfold parseEntry; kept_tbk, by unfold sectionLoop; kept_tbk⟩

instance {E : FileEnv} {n : Nat} : Tbk (parseEntry E n) := (entry_tbk n).1

instance {line k : Nat} : Tbk (skipLoop line k) := by
  induction k with
  | zero => unfold skipLoop; kept_tbk
  | succ k ih =>
    constructor
    intro s
    unfold skipLoop
    split
    · exact (inferInstance : Tbk (P.advance >>= fun _ => skipLoop line k)).rep s
    · exact .refl _

instance : Tbk P.skipUntilNewline := by
  constructor
  intro s
  unfold P.skipUntilNewline
  split
  · exact .refl _
  · next t _ => exact (inferInstance : Tbk (skipLoop t.line (s.toks + 1))).rep s

instance {E : FileEnv} {k : Nat} : Tbk (recoverLoop E k) := by
  induction k with
  | zero => unfold recoverLoop; kept_tbk
  | succ k ih => unfold recoverLoop; kept_tbk

theorem recoverFile_tbk {E : FileEnv} (s : PS) : MoreObjs s.tabs (recoverFile E s).state.tabs := by
  cases hr : E.recover
  · have : recoverFile E s = .err s := by unfold recoverFile; rw [hr]; rfl
    rw [this]; exact .refl _
  · have : recoverFile E = (do P.skipUntilNewline; let s ← P.get; recoverLoop E (s.toks + 1); pure false : P Bool) := by
      unfold recoverFile; rw [hr]; rfl
    rw [this]
    exact (by kept_tbk : Tbk _).rep s

instance {E : FileEnv} {k : Nat} {ok : Bool} : Tbk (fileLoop E k ok) := by
  induction k generalizing ok with
  | zero => unfold fileLoop; kept_tbk
  | succ k ih =>
    unfold fileLoop
    have : ∀ n, Tbk (P.tryCatch (do parseEntry E n; pure true) (recoverFile E)) := by
      intro n
      constructor
      intro s
      unfold P.tryCatch
      have h1 := (inferInstance : Tbk (do parseEntry E n; pure true)).rep s
      split
      · next h => rw [h] at h1; exact h1
      · next s1 h =>
        rw [h] at h1
        exact h1.trans (recoverFile_tbk s1)
      · next h => rw [h] at h1; exact h1
    kept_tbk

instance {E : FileEnv} : Tbk (parseTrlcFile E) := by unfold parseTrlcFile; kept_tbk

theorem runTrlcFile_tbk (f : OpenFile) : Tbk (runTrlcFile f) := by
  unfold runTrlcFile
  apply tbk_bind'
  · exact tbk_modify fun s => rfl
  · intro _
    constructor
    intro s
    have h1 := (inferInstance : Tbk (parseTrlcFile f.env)).rep s
    unfold P.tryCatch
    split
    · next h => rw [h] at h1; exact h1
    · next h => rw [h] at h1; exact h1
    · next h => rw [h] at h1; exact h1

/-- Parsing the trlc files only adds objects to the tables. -/
theorem runTrlcFiles_tbk (fs : List OpenFile) : Tbk (runTrlcFiles fs) := by
  induction fs with
  | nil => unfold runTrlcFiles; kept_tbk
  | cons f fs ih =>
    have := runTrlcFile_tbk f
    unfold runTrlcFiles
    kept_tbk

end Verif.Lemmas
