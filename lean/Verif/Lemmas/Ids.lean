import Verif.Model.Run.Process
import Verif.Lemmas.ParseRules
import Verif.Lemmas.ParseObject
import Verif.Lemmas.RslInv
/-!
# Values are numbered: the same number means the same value
-/
namespace Verif.Lemmas
open Verif.Model

/-- a value of an object or frozen by a type -/
def IsNode (objs : List Obj) (infos : List RecInfo) (n : VNode) : Prop :=
  (∃ ob ∈ objs, ∃ f ∈ ob.fields, f.2 = n) ∨ ∃ i ∈ infos, ∃ f ∈ i.frozen, f.2 = n

/-- The values have numbers below `nid`, and those with the same number are the same. -/
structure IdsIn (objs : List Obj) (infos : List RecInfo) (nid : Nat) : Prop where
  before : ∀ n, IsNode objs infos n → n.id < nid
  same : ∀ n m, IsNode objs infos n → IsNode objs infos m → n.id = m.id → n = m

/-- … in a state of the parser -/
def IdInv (s : PS) : Prop := IdsIn s.objs s.infos s.nid

theorem IdInv.fr {s s' : PS} (h : IdInv s) (hf : Fr s s') : IdInv s' := by
  unfold IdInv
  rw [hf.objs, hf.infos, hf.nid]
  exact h

/-- new values have new numbers -/
theorem IdsIn.more {objs objs' : List Obj} {infos infos' : List RecInfo} {n n' : Nat} (h : IdsIn objs infos n) (new : VNode → Prop)
    (hn : n ≤ n') (hnew : ∀ v, new v → n ≤ v.id ∧ v.id < n') (hone : ∀ v w, new v → new w → v.id = w.id → v = w)
    (hs : ∀ v, IsNode objs' infos' v → IsNode objs infos v ∨ new v) : IdsIn objs' infos' n' := by
  constructor
  · intro v hv
    rcases hs v hv with hv | hv
    · exact Nat.lt_of_lt_of_le (h.before v hv) hn
    · exact (hnew v hv).2
  · intro v w hv hw he
    rcases hs v hv with hv | hv <;> rcases hs w hw with hw | hw
    · exact h.same v w hv hw he
    · have := h.before v hv; have := (hnew w hw).1; omega
    · have := h.before w hw; have := (hnew v hv).1; omega
    · exact hone v w hv hw he

/-- `x` keeps the numbering. -/
class Idk {α : Type} (x : P α) : Prop where
  rep : ∀ s, IdInv s → IdInv (x s).state

variable {α β : Type}

instance idk_bind {x : P α} {f : α → P β} [hx : Idk x] [hf : ∀ a, Idk (f a)] : Idk (x >>= f) := by
  constructor
  intro s hs
  rw [bind_apply]
  have h1 := hx.rep s hs
  cases h : x s with
  | ok a s1 =>
    rw [h] at h1
    exact (hf a).rep s1 h1
  | err s1 => rw [h] at h1; exact h1
  | crash c s1 => rw [h] at h1; exact h1

instance idk_pure {a : α} : Idk (pure a : P α) := ⟨fun s h => h⟩
instance idk_get : Idk P.get := ⟨fun s h => h⟩
instance idk_crash {c : PCrash} : Idk (P.crash c : P α) := ⟨fun s h => h⟩
instance idk_fail {e : PErr} : Idk (P.fail e : P α) := ⟨fun s h => h⟩
instance idk_report {e : PErr} : Idk (P.report e) := ⟨fun s h => h⟩

theorem idk_modify {f : PS → PS} (h : ∀ s, (f s).objs = s.objs ∧ (f s).infos = s.infos ∧ (f s).nid = s.nid) : Idk (P.modify f) := by
  constructor
  intro s hs
  obtain ⟨h1, h2, h3⟩ := h s
  show IdsIn (f s).objs (f s).infos (f s).nid
  rw [h1, h2, h3]
  exact hs

instance idk_ite {c : Prop} [Decidable c] {x y : P α} [Idk x] [Idk y] : Idk (if c then x else y) := by
  split <;> infer_instance

instance idk_cond {c : Bool} {x y : P α} [Idk x] [Idk y] : Idk (P.cond c x y) := by
  unfold P.cond
  infer_instance

theorem idk_bind' {x : P α} {f : α → P β} (hx : Idk x) (hf : ∀ a, Idk (f a)) : Idk (x >>= f) := idk_bind
theorem idk_ite' {c : Prop} [Decidable c] {x y : P α} (hx : Idk x) (hy : Idk y) :
    Idk (if c then x else y) := idk_ite
theorem idk_cond' {c : Bool} {x y : P α} (hx : Idk x) (hy : Idk y) : Idk (P.cond c x y) := idk_cond

/-- Composition along the structure of the program -/
macro "kept_idk" : tactic => `(tactic| repeat' (first
  | infer_instance
  | apply idk_bind'
  | apply idk_ite'
  | apply idk_cond'
  | intro _
  | split))

instance idk_liftSym {r : Except SymErr α} : Idk (P.liftSym r) := by
  cases r <;> (unfold P.liftSym; kept_idk)

instance idk_advance : Idk P.advance := ⟨fun s h => h.fr advance_sp.rel⟩
instance idk_matchK {k : Kind} : Idk (P.matchK k) := ⟨fun s h => h.fr matchK_sp.rel⟩
instance idk_matchKw {v : String} : Idk (P.matchKw v) := ⟨fun s h => h.fr matchKw_sp.rel⟩
instance idk_matchEof : Idk P.matchEof := by
  constructor
  intro s hs
  unfold P.matchEof
  cases h : s.nt <;> exact hs

theorem setKey_mem {α : Type} (d : List (String × α)) (k : String) (v : α) : ∀ f ∈ setKey d k v, f ∈ d ∨ f.2 = v := by
  intro f hf
  obtain ⟨p, hp, rfl⟩ := List.mem_map.1 hf
  split
  · exact .inr rfl
  · exact .inl hp

theorem setField_node {s : PS} {o : Nat} {n : String} {v : VNode} {w : VNode} (h : IsNode (s.setField o n v).objs s.infos w) :
    IsNode s.objs s.infos w ∨ w = v := by
  rcases h with ⟨ob, hob, f, hf, rfl⟩ | h
  · obtain ⟨i, hi⟩ := List.getElem?_of_mem hob
    rw [PS.setField, List.getElem?_modify] at hi
    cases ho : s.objs[i]? with
    | none => rw [ho] at hi; cases hi
    | some ob' =>
      rw [ho] at hi
      replace hi := Option.some.inj hi
      have hmem := List.mem_of_getElem? ho
      split at hi
      · subst hi
        rcases setKey_mem _ _ _ f hf with h | h
        · exact .inl (.inl ⟨ob', hmem, f, h, rfl⟩)
        · exact .inr h
      · subst hi
        exact .inl (.inl ⟨_, hmem, f, hf, rfl⟩)
  · exact .inl (.inr h)

/-- a value that is there already is assigned -/
theorem assign_idk {s : PS} (h : IdInv s) {o : Nat} {n : String} {v : VNode} (hv : IsNode s.objs s.infos v) :
    IdInv (P.assign o n v s).state := by
  unfold P.assign
  split
  · exact h
  · split
    · refine IdsIn.more h (fun _ => False) (Nat.le_refl _) (fun _ h => h.elim) (fun _ _ h => h.elim) fun w hw => ?_
      rcases setField_node hw with hw | rfl
      · exact .inl hw
      · exact .inl hv
    · exact h

/-- a new value is assigned -/
instance {v : PVal} {o : Nat} {n : String} : Idk (P.newNode v >>= fun node => P.assign o n node) := by
  constructor
  intro s hs
  have h1 : IdInv { s with nid := s.nid + 1 } :=
    IdsIn.more hs (fun _ => False) (Nat.le_succ _) (fun _ h => h.elim) (fun _ _ h => h.elim) fun w hw => .inl hw
  show IdInv (P.assign o n { id := s.nid, val := v } { s with nid := s.nid + 1 }).state
  unfold P.assign
  split
  · exact h1
  · split
    · refine IdsIn.more hs (fun w => w = { id := s.nid, val := v }) (Nat.le_succ _) ?_ ?_ ?_
      · rintro _ rfl; exact ⟨Nat.le_refl _, Nat.lt_succ_self _⟩
      · rintro _ _ rfl rfl _; rfl
      · intro w hw
        exact setField_node (s := { s with nid := s.nid + 1 }) hw
    · exact h1

/-! ## Values and objects -/

instance {E : FileEnv} {n : List Char} {sub : Option (Ent → Bool)} : Idk (P.scopeLookup E n sub) := by
  unfold P.scopeLookup; kept_idk
instance {E : FileEnv} : Idk (E.invisible : P α) := by unfold FileEnv.invisible; kept_idk
instance {E : FileEnv} {sub : Ent → Bool} : Idk (parseQualifiedName E sub) := by
  unfold parseQualifiedName; kept_idk
instance : Idk parseBoolean := by unfold parseBoolean; kept_idk
instance {b : Bool} : Idk (parseNumber b) := by unfold parseNumber; kept_idk
instance {E : FileEnv} {τ : Ty} : Idk (parseReference E τ) := by unfold parseReference; kept_idk
instance {E : FileEnv} {t : Nat} : Idk (parseEnum E t) := by unfold parseEnum; kept_idk
instance {E : FileEnv} : Idk (parseMarkup E) := by unfold parseMarkup; kept_idk

instance {pv : P PVal} [Idk pv] {k : Nat} {acc : List PVal} : Idk (arrayLoop pv k acc) := by
  induction k generalizing acc with
  | zero => unfold arrayLoop; kept_idk
  | succ k ih => unfold arrayLoop; kept_idk

instance {pv : P PVal} [Idk pv] {τ : Ty} {lo : Nat} {hi : Option Nat} : Idk (parseArray pv τ lo hi) := by
  unfold parseArray; kept_idk

instance {sp : Sep} : Idk (P.matchSep sp) := by cases sp <;> (unfold P.matchSep; kept_idk)

instance {pv : Ty → P PVal} [∀ τ, Idk (pv τ)] {l : List SeqItem} {b : Bool} {d : List (String × PVal)} :
    Idk (sepLoop pv l b d) := by
  induction l generalizing b d with
  | nil => unfold sepLoop; kept_idk
  | cons i l ih => cases i <;> (unfold sepLoop; kept_idk)

instance {pv : Ty → P PVal} [∀ τ, Idk (pv τ)] {t : Nat} {cs : List Comp} {seps : List Sep} :
    Idk (parseSepTuple pv t cs seps) := by unfold parseSepTuple; kept_idk

instance {pv : Ty → P PVal} [∀ τ, Idk (pv τ)] {b : Bool} {cs : List Comp} {d : List (String × PVal)} :
    Idk (plainLoop pv b cs d) := by
  induction cs generalizing b d with
  | nil => unfold plainLoop; kept_idk
  | cons i l ih => unfold plainLoop; kept_idk

instance {pv : Ty → P PVal} [∀ τ, Idk (pv τ)] {t : Nat} {cs : List Comp} :
    Idk (parsePlainTuple pv t cs) := by unfold parsePlainTuple; kept_idk

instance {E : FileEnv} {n : Nat} {τ : Ty} : Idk (parseValue E n τ) := by
  induction n generalizing τ with
  | zero => unfold parseValue; kept_idk
  | succ n ih => cases τ <;> (unfold parseValue; kept_idk)

instance {E : FileEnv} {o t : Nat} : Idk (parseAssignment E o t) := by unfold parseAssignment; kept_idk

instance {E : FileEnv} {o t k : Nat} : Idk (assignLoop E o t k) := by
  induction k with
  | zero => unfold assignLoop; kept_idk
  | succ k ih => unfold assignLoop; kept_idk

theorem freezing_node {s : PS} {t : Nat} {n : String} {v : VNode} (h : s.freezing t n = some v) : IsNode s.objs s.infos v := by
  unfold PS.freezing at h
  obtain ⟨a, -, h⟩ := List.exists_of_findSome?_eq_some h
  unfold PS.info at h
  cases hi : s.infos[a]? with
  | none => rw [hi] at h; cases h
  | some i =>
    rw [hi] at h
    exact .inr ⟨i, List.mem_of_getElem? hi, (n, v), mem_of_assoc h, rfl⟩

instance {o t : Nat} {cs : List Comp} : Idk (completeLoop o t cs) := by
  induction cs with
  | nil => unfold completeLoop; kept_idk
  | cons c cs ih =>
    constructor
    intro s hs
    unfold completeLoop
    rw [bind_apply]
    dsimp only [P.get]
    cases hfld : s.field o c.name with
    | none => split <;> first | exact hs | (split <;> first | exact hs | exact ih.rep s hs)
    | some n =>
      dsimp only
      split
      · split
        · cases hf : s.freezing t c.name with
          | none => exact hs
          | some f =>
            have h1 := assign_idk hs (o := o) (n := c.name) (freezing_node hf)
            dsimp only
            rw [bind_apply]
            cases h : P.assign o c.name f s with
            | ok a s1 => rw [h] at h1; exact ih.rep s1 h1
            | err s1 => rw [h] at h1; exact h1
            | crash c s1 => rw [h] at h1; exact h1
        · split
          · exact hs
          · exact ih.rep s hs
      · exact ih.rep s hs

theorem freshFields_ids : ∀ (cs : List Comp) (nid : Nat) (f : String × VNode), f ∈ freshFields nid cs →
    nid ≤ f.2.id ∧ f.2.id < nid + cs.length ∧ f.2.val = .inull
  | [], _, _, h => by cases h
  | c :: cs, nid, f, h => by
    rcases List.mem_cons.1 h with rfl | h
    · simp
    · obtain ⟨h1, h2, h3⟩ := freshFields_ids cs (nid + 1) f h
      simp only [List.length_cons]
      exact ⟨by omega, by omega, h3⟩

instance {E : FileEnv} {t : Nat} {n : List Char} : Idk (P.newObject E t n) := by
  constructor
  intro s hs
  have h1 : IdInv { s with nid := s.nid + (s.decls.allComponents t).length } :=
    IdsIn.more hs (fun _ => False) (Nat.le_add_right _ _) (fun _ h => h.elim) (fun _ _ h => h.elim) fun w hw => .inl hw
  unfold P.newObject
  dsimp only
  split
  · exact hs
  · split
    · exact h1
    · refine IdsIn.more hs (fun w => ∃ f ∈ freshFields s.nid (s.decls.allComponents t), f.2 = w) (Nat.le_add_right _ _) ?_ ?_ ?_
      · rintro _ ⟨f, hf, rfl⟩
        have := freshFields_ids _ _ f hf
        exact ⟨this.1, this.2.1⟩
      · rintro _ _ ⟨f, hf, rfl⟩ ⟨g, hg, rfl⟩ he
        have h1 := (freshFields_ids _ _ f hf).2.2
        have h2 := (freshFields_ids _ _ g hg).2.2
        cases hf2 : f.2; cases hg2 : g.2
        simp_all
      · rintro w (⟨ob, hob, f, hf, rfl⟩ | hw)
        · rcases List.mem_append.1 hob with hob | hob
          · exact .inl (.inl ⟨ob, hob, f, hf, rfl⟩)
          · rw [List.mem_singleton] at hob
            subst hob
            exact .inr ⟨f, hf, rfl⟩
        · exact .inl (.inr hw)

instance {E : FileEnv} {e : Ent} : Idk (parseObjectOf E e) := by unfold parseObjectOf; kept_idk
instance {E : FileEnv} : Idk (parseObject E) := by unfold parseObject; kept_idk

instance {v : List Char} : Idk (P.modify fun s => { s with sects := s.sects ++ [v] }) :=
  idk_modify fun _ => ⟨rfl, rfl, rfl⟩
instance : Idk (P.modify fun s => { s with sects := s.sects.dropLast }) := idk_modify fun _ => ⟨rfl, rfl, rfl⟩

theorem entry_idk {E : FileEnv} (n : Nat) : Idk (parseEntry E n) ∧ Idk (sectionLoop E n) := by
  induction n with
  | zero => exact ⟨by unfold parseEntry; kept_idk, by unfold sectionLoop; kept_idk⟩
  | succ n ih =>
    have := ih.1
    have := ih.2
    exact ⟨by unfold parseEntry; kept_idk, by unfold sectionLoop; kept_idk⟩

instance {E : FileEnv} {n : Nat} : Idk (parseEntry E n) := (entry_idk n).1

instance {line k : Nat} : Idk (skipLoop line k) := by
  induction k with
  | zero => unfold skipLoop; kept_idk
  | succ k ih =>
    constructor
    intro s hs
    unfold skipLoop
    split
    · exact (inferInstance : Idk (P.advance >>= fun _ => skipLoop line k)).rep s hs
    · exact hs

instance : Idk P.skipUntilNewline := by
  constructor
  intro s hs
  unfold P.skipUntilNewline
  split
  · exact hs
  · next t _ => exact (inferInstance : Idk (skipLoop t.line (s.toks + 1))).rep s hs

instance {E : FileEnv} {k : Nat} : Idk (recoverLoop E k) := by
  induction k with
  | zero => unfold recoverLoop; kept_idk
  | succ k ih => unfold recoverLoop; kept_idk


theorem recoverFile_idk {E : FileEnv} (s : PS) (hs : IdInv s) : IdInv (recoverFile E s).state := by
  cases hr : E.recover
  · have : recoverFile E s = .err s := by unfold recoverFile; rw [hr]; rfl
    rw [this]; exact hs
  · have : recoverFile E = (do P.skipUntilNewline; let s ← P.get; recoverLoop E (s.toks + 1); pure false : P Bool) := by
      unfold recoverFile; rw [hr]; rfl
    rw [this]
    exact (by kept_idk : Idk _).rep s hs

instance {E : FileEnv} {k : Nat} {ok : Bool} : Idk (fileLoop E k ok) := by
  induction k generalizing ok with
  | zero => unfold fileLoop; kept_idk
  | succ k ih =>
    unfold fileLoop
    have : ∀ n, Idk (P.tryCatch (do parseEntry E n; pure true) (recoverFile E)) := by
      intro n
      constructor
      intro s hs
      unfold P.tryCatch
      have h1 := (inferInstance : Idk (do parseEntry E n; pure true)).rep s hs
      split
      · next h => rw [h] at h1; exact h1
      · next s1 h =>
        rw [h] at h1
        exact recoverFile_idk s1 h1
      · next h => rw [h] at h1; exact h1
    kept_idk

instance {E : FileEnv} : Idk (parseTrlcFile E) := by unfold parseTrlcFile; kept_idk

theorem runTrlcFile_idk (f : OpenFile) : Idk (runTrlcFile f) := by
  unfold runTrlcFile
  apply idk_bind'
  · exact idk_modify fun s => ⟨rfl, rfl, rfl⟩
  · intro _
    constructor
    intro s hs
    have h1 := (inferInstance : Idk (parseTrlcFile f.env)).rep s hs
    unfold P.tryCatch
    split
    · next h => rw [h] at h1; exact h1
    · next h => rw [h] at h1; exact h1
    · next h => rw [h] at h1; exact h1

/-- Parsing the trlc files keeps the numbering. -/
theorem runTrlcFiles_idk (fs : List OpenFile) : Idk (runTrlcFiles fs) := by
  induction fs with
  | nil => unfold runTrlcFiles; kept_idk
  | cons f fs ih =>
    have := runTrlcFile_idk f
    unfold runTrlcFiles
    kept_idk

end Verif.Lemmas
