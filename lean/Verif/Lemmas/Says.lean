import Verif.Model.Run.Process
import Verif.Lemmas.ParseRules
/-!
# What the parsers report

`Says x`: if `x` raises `TRLC_Error` an error was reported before; if it ends normally, only
errors that are not fatal were reported.
-/
namespace Verif.Lemmas
open Verif.Model

/-- The errors that are reported without raising `TRLC_Error`: a missing comma, too few or too
many elements in an array, a duplicate in a union type, a line break in a message. -/
def Soft (e : PErr) : Prop :=
  e = .commaMissing ∨ e = .arrayTooShort ∨ e = .arrayTooLong ∨ e = .other 2 ∨ e = .other 7

/-- See the head of this file. -/
def SaysR {α : Type} (s : PS) : PR α → Prop
  | .ok _ s' => ∃ l, s'.errs = s.errs ++ l ∧ ∀ e ∈ l, Soft e
  | .err s' => ∃ l, s'.errs = s.errs ++ l ∧ l ≠ []
  | .crash _ s' => ∃ l, s'.errs = s.errs ++ l

/-- See the head of this file. -/
class Says {α : Type} (x : P α) : Prop where
  rep : ∀ s, SaysR s (x s)

variable {α β : Type}

theorem Says.ok {x : P α} (h : Says x) {s s' : PS} {a : α} (e : x s = .ok a s') :
    ∃ l, s'.errs = s.errs ++ l ∧ ∀ e ∈ l, Soft e := by
  have := h.rep s
  rw [e] at this
  exact this

theorem Says.err {x : P α} (h : Says x) {s s' : PS} (e : x s = .err s') :
    ∃ l, s'.errs = s.errs ++ l ∧ l ≠ [] := by
  have := h.rep s
  rw [e] at this
  exact this

theorem Says.crash {x : P α} (h : Says x) {s s' : PS} {c : PCrash} (e : x s = .crash c s') :
    ∃ l, s'.errs = s.errs ++ l := by
  have := h.rep s
  rw [e] at this
  exact this

instance says_bind {x : P α} {f : α → P β} [hx : Says x] [hf : ∀ a, Says (f a)] : Says (x >>= f) := by
  constructor
  intro s
  rw [bind_apply]
  cases h : x s with
  | ok a s1 =>
    obtain ⟨l, h1, h2⟩ := hx.ok h
    dsimp only
    cases h3 : f a s1 with
    | ok b s2 =>
      obtain ⟨l', h4, h5⟩ := (hf a).ok h3
      refine ⟨l ++ l', by rw [h4, h1, List.append_assoc], ?_⟩
      intro e he
      rcases List.mem_append.1 he with he | he
      · exact h2 e he
      · exact h5 e he
    | err s2 =>
      obtain ⟨l', h4, h5⟩ := (hf a).err h3
      exact ⟨l ++ l', by rw [h4, h1, List.append_assoc], by simp [h5]⟩
    | crash c s2 =>
      obtain ⟨l', h4⟩ := (hf a).crash h3
      exact ⟨l ++ l', by rw [h4, h1, List.append_assoc]⟩
  | err s1 => exact hx.err h
  | crash c s1 => exact hx.crash h

instance says_pure {a : α} : Says (pure a : P α) := ⟨fun s => ⟨[], by simp, by simp⟩⟩
instance says_get : Says P.get := ⟨fun s => ⟨[], by simp, by simp⟩⟩
instance says_crash {c : PCrash} : Says (P.crash c : P α) := ⟨fun s => ⟨[], by simp⟩⟩
instance says_fail {e : PErr} : Says (P.fail e : P α) := ⟨fun s => ⟨[e], rfl, by simp⟩⟩

theorem says_report {e : PErr} (h : Soft e) : Says (P.report e) :=
  ⟨fun s => ⟨[e], rfl, by simpa using h⟩⟩

instance : Says (P.report .commaMissing) := says_report (.inl rfl)
instance : Says (P.report .arrayTooShort) := says_report (.inr (.inl rfl))
instance : Says (P.report .arrayTooLong) := says_report (.inr (.inr (.inl rfl)))
instance : Says (P.report (.other 2)) := says_report (.inr (.inr (.inr (.inl rfl))))
instance : Says (P.report (.other 7)) := says_report (.inr (.inr (.inr (.inr rfl))))

theorem says_modify {f : PS → PS} (h : ∀ s, (f s).errs = s.errs) : Says (P.modify f) :=
  ⟨fun s => ⟨[], by simp [h], by simp⟩⟩

instance says_ite {c : Prop} [Decidable c] {x y : P α} [Says x] [Says y] : Says (if c then x else y) := by
  split <;> infer_instance

instance says_cond {c : Bool} {x y : P α} [Says x] [Says y] : Says (P.cond c x y) := by
  unfold P.cond
  infer_instance

theorem says_bind' {x : P α} {f : α → P β} (hx : Says x) (hf : ∀ a, Says (f a)) : Says (x >>= f) :=
  says_bind
theorem says_ite' {c : Prop} [Decidable c] {x y : P α} (hx : Says x) (hy : Says y) :
    Says (if c then x else y) := says_ite
theorem says_cond' {c : Bool} {x y : P α} (hx : Says x) (hy : Says y) : Says (P.cond c x y) := says_cond

/-- Composition along the structure of the program -/
macro "spoken" : tactic => `(tactic| repeat' (first
  | infer_instance
  | apply says_bind'
  | apply says_ite'
  | apply says_cond'
  | intro _
  | split))

instance says_liftSym {r : Except SymErr α} : Says (P.liftSym r) := by
  cases r <;> (unfold P.liftSym; spoken)

instance says_liftEl {r : El α} : Says (P.liftEl r) := by
  cases r <;> (unfold P.liftEl; spoken)

theorem advanceLoop_says (s0 : PS) : ∀ r s, s.errs = s0.errs → SaysR s0 (advanceLoop s r) := by
  intro r
  induction r with
  | nil => intro s h; exact ⟨[], by simp [h], by simp⟩
  | cons o r ih =>
    intro s h
    cases o with
    | tok t =>
      unfold advanceLoop
      split
      · exact ih s h
      · exact ⟨[], by simp [h], by simp⟩
    | eof => exact ⟨[], by simp [h], by simp⟩
    | error k a b => exact ⟨[.lex k], by simp [h], by simp⟩
    | crash => exact ⟨[], by simp [h]⟩

instance says_advance : Says P.advance := ⟨fun s => advanceLoop_says s s.rest _ rfl⟩

instance says_matchK {k : Kind} : Says (P.matchK k) := by
  constructor
  intro s
  unfold P.matchK
  cases h : s.nt with
  | none => exact (says_fail (α := Token) (e := .expected)).rep s
  | some t =>
    dsimp only
    split
    · exact (says_fail (α := Token) (e := .expected)).rep s
    · exact (inferInstance : Says (P.advance >>= fun _ => pure t)).rep s

instance says_matchKw {v : String} : Says (P.matchKw v) := by
  constructor
  intro s
  unfold P.matchKw
  cases h : s.nt with
  | none => exact (says_fail (α := Token) (e := .expected)).rep s
  | some t =>
    dsimp only
    split
    · exact (says_fail (α := Token) (e := .expected)).rep s
    · split
      · exact (says_fail (α := Token) (e := .expected)).rep s
      · exact (inferInstance : Says (P.advance >>= fun _ => pure t)).rep s

instance says_matchEof : Says P.matchEof := by
  constructor
  intro s
  unfold P.matchEof
  cases h : s.nt with
  | none => exact ⟨[], by simp, by simp⟩
  | some t => exact (says_fail (α := Unit) (e := .expected)).rep s

/-! ## Values and objects -/

instance {E : FileEnv} {n : List Char} {sub : Option (Ent → Bool)} : Says (P.scopeLookup E n sub) := by
  unfold P.scopeLookup; spoken
instance {E : FileEnv} : Says (E.invisible : P α) := by unfold FileEnv.invisible; spoken
instance {E : FileEnv} {sub : Ent → Bool} : Says (parseQualifiedName E sub) := by
  unfold parseQualifiedName; spoken
instance : Says parseBoolean := by unfold parseBoolean; spoken
instance {b : Bool} : Says (parseNumber b) := by unfold parseNumber; spoken
instance {E : FileEnv} {τ : Ty} : Says (parseReference E τ) := by unfold parseReference; spoken
instance {E : FileEnv} {t : Nat} : Says (parseEnum E t) := by unfold parseEnum; spoken
instance {E : FileEnv} : Says (parseMarkup E) := by unfold parseMarkup; spoken

instance {pv : P PVal} [Says pv] {k : Nat} {acc : List PVal} : Says (arrayLoop pv k acc) := by
  induction k generalizing acc with
  | zero => unfold arrayLoop; spoken
  | succ k ih => unfold arrayLoop; spoken

instance {pv : P PVal} [Says pv] {τ : Ty} {lo : Nat} {hi : Option Nat} : Says (parseArray pv τ lo hi) := by
  unfold parseArray; spoken

instance {sp : Sep} : Says (P.matchSep sp) := by cases sp <;> (unfold P.matchSep; spoken)

instance {pv : Ty → P PVal} [∀ τ, Says (pv τ)] {l : List SeqItem} {b : Bool} {d : List (String × PVal)} :
    Says (sepLoop pv l b d) := by
  induction l generalizing b d with
  | nil => unfold sepLoop; spoken
  | cons i l ih => cases i <;> (unfold sepLoop; spoken)

instance {pv : Ty → P PVal} [∀ τ, Says (pv τ)] {t : Nat} {cs : List Comp} {seps : List Sep} :
    Says (parseSepTuple pv t cs seps) := by unfold parseSepTuple; spoken

instance {pv : Ty → P PVal} [∀ τ, Says (pv τ)] {b : Bool} {cs : List Comp} {d : List (String × PVal)} :
    Says (plainLoop pv b cs d) := by
  induction cs generalizing b d with
  | nil => unfold plainLoop; spoken
  | cons i l ih => unfold plainLoop; spoken

instance {pv : Ty → P PVal} [∀ τ, Says (pv τ)] {t : Nat} {cs : List Comp} :
    Says (parsePlainTuple pv t cs) := by unfold parsePlainTuple; spoken

instance {E : FileEnv} {n : Nat} {τ : Ty} : Says (parseValue E n τ) := by
  induction n generalizing τ with
  | zero => unfold parseValue; spoken
  | succ n ih => cases τ <;> (unfold parseValue; spoken)

instance {v : PVal} : Says (P.newNode v) := ⟨fun s => ⟨[], by simp, by simp⟩⟩

instance {o : Nat} {n : String} {v : VNode} : Says (P.assign o n v) := by
  constructor
  intro s
  unfold P.assign
  split
  · exact ⟨[], by simp⟩
  · split
    · exact ⟨[], by simp [PS.setField], by simp⟩
    · exact ⟨[], by simp⟩

instance {E : FileEnv} {o t : Nat} : Says (parseAssignment E o t) := by unfold parseAssignment; spoken

instance {E : FileEnv} {o t k : Nat} : Says (assignLoop E o t k) := by
  induction k with
  | zero => unfold assignLoop; spoken
  | succ k ih => unfold assignLoop; spoken

instance {o t : Nat} {cs : List Comp} : Says (completeLoop o t cs) := by
  induction cs with
  | nil => unfold completeLoop; spoken
  | cons c cs ih => unfold completeLoop; spoken

instance {E : FileEnv} {t : Nat} {n : List Char} : Says (P.newObject E t n) := by
  constructor
  intro s
  unfold P.newObject
  dsimp only
  split
  · exact ⟨[], by simp⟩
  · split
    · next e _ => exact ⟨[.sym e], rfl, by simp⟩
    · exact ⟨[], by simp, by simp⟩

instance {E : FileEnv} {e : Ent} : Says (parseObjectOf E e) := by unfold parseObjectOf; spoken
instance {E : FileEnv} : Says (parseObject E) := by unfold parseObject; spoken

instance {v : List Char} : Says (P.modify fun s => { s with sects := s.sects ++ [v] }) :=
  says_modify fun _ => rfl
instance : Says (P.modify fun s => { s with sects := s.sects.dropLast }) := says_modify fun _ => rfl

theorem entry_says {E : FileEnv} (n : Nat) : Says (parseEntry E n) ∧ Says (sectionLoop E n) := by
  induction n with
  | zero => exact ⟨by unfold parseEntry; spoken, by unfold sectionLoop; spoken⟩
  | succ n ih =>
    have := ih.1
    have := ih.2
    exact ⟨by unfold parseEntry; spoken, by unfold sectionLoop; spoken⟩

instance {E : FileEnv} {n : Nat} : Says (parseEntry E n) := (entry_says n).1

instance {line k : Nat} : Says (skipLoop line k) := by
  induction k with
  | zero => unfold skipLoop; spoken
  | succ k ih =>
    constructor
    intro s
    unfold skipLoop
    split
    · exact (inferInstance : Says (P.advance >>= fun _ => skipLoop line k)).rep s
    · exact ⟨[], by simp, by simp⟩

instance : Says P.skipUntilNewline := by
  constructor
  intro s
  unfold P.skipUntilNewline
  split
  · exact ⟨[], by simp, by simp⟩
  · next t _ => exact (inferInstance : Says (skipLoop t.line (s.toks + 1))).rep s

instance {E : FileEnv} {k : Nat} : Says (recoverLoop E k) := by
  induction k with
  | zero => unfold recoverLoop; spoken
  | succ k ih => unfold recoverLoop; spoken

/-! ## Expressions -/

instance {sc : LScope} {n : List Char} : Says (P.nameLookup sc n) := by unfold P.nameLookup; spoken

instance {pe : P Expr} [Says pe] {k : Nat} : Says (argLoop pe k) := by
  induction k with
  | zero => unfold argLoop; spoken
  | succ k ih => unfold argLoop; spoken

instance {X : ElEnv} {pe : P Expr} [Says pe] {f : String} : Says (parseBuiltin X pe f) := by
  unfold parseBuiltin; spoken

instance {X : ElEnv} {pe : P Expr} [Says pe] {k : Nat} {p : Expr} : Says (nameTail X pe k p) := by
  induction k generalizing p with
  | zero => unfold nameTail; spoken
  | succ k ih => unfold nameTail; spoken

instance {X : ElEnv} {t : Nat} : Says (parseLiteral X t) := by unfold parseLiteral; spoken
instance {X : ElEnv} {pe : P Expr} [Says pe] {e : Ent} : Says (parseEntity X pe e) := by
  unfold parseEntity; spoken
instance {E : FileEnv} {X : ElEnv} {sc : LScope} {pe : P Expr} [Says pe] : Says (parseName E X sc pe) := by
  unfold parseName; spoken
instance {sc : LScope} {pe : LScope → P Expr} [∀ sc, Says (pe sc)] : Says (parseQuantified sc pe) := by
  unfold parseQuantified; spoken

instance {pe : P Expr} [Says pe] {t : Ty} {k : Nat} : Says (condTail pe t k) := by
  induction k with
  | zero => unfold condTail; spoken
  | succ k ih => unfold condTail; spoken

instance {pe : P Expr} [Says pe] : Says (parseConditional pe) := by unfold parseConditional; spoken
instance {E : FileEnv} {X : ElEnv} {sc : LScope} {pe : LScope → P Expr} [∀ sc, Says (pe sc)] :
    Says (parsePrimary E X sc pe) := by unfold parsePrimary; spoken
instance {X : ElEnv} {pp : P Expr} [Says pp] : Says (parseFactor X pp) := by unfold parseFactor; spoken

instance {X : ElEnv} {pf : P Expr} [Says pf] {k : Nat} {l : Expr} : Says (termLoop X pf k l) := by
  induction k generalizing l with
  | zero => unfold termLoop; spoken
  | succ k ih => unfold termLoop; spoken

instance {X : ElEnv} {pf : P Expr} [Says pf] : Says (parseTerm X pf) := by unfold parseTerm; spoken

instance {X : ElEnv} {pt : P Expr} [Says pt] {r : Option Ty} {k : Nat} {l : Expr} :
    Says (simpleLoop X pt r k l) := by
  induction k generalizing l with
  | zero => unfold simpleLoop; spoken
  | succ k ih => unfold simpleLoop; spoken

instance {pt : P Expr} [Says pt] : Says (parseSigned pt) := by unfold parseSigned; spoken
instance {X : ElEnv} {pt : P Expr} [Says pt] : Says (parseSimple X pt) := by unfold parseSimple; spoken
instance {X : ElEnv} {ps : P Expr} [Says ps] : Says (parseRelation X ps) := by unfold parseRelation; spoken

instance {X : ElEnv} {pr : P Expr} [Says pr] {kw : String} {op : LogOp} {k : Nat} {l : Expr} :
    Says (logicLoop X pr kw op k l) := by
  induction k generalizing l with
  | zero => unfold logicLoop; spoken
  | succ k ih => unfold logicLoop; spoken

instance {X : ElEnv} {pr : P Expr} [Says pr] : Says (parseExpression X pr) := by
  unfold parseExpression; spoken

instance {E : FileEnv} {X : ElEnv} {n : Nat} {sc : LScope} : Says (parseExpr E X n sc) := by
  induction n generalizing sc with
  | zero => unfold parseExpr; spoken
  | succ n ih => unfold parseExpr; spoken

/-! ## Declarations and checks -/

instance : Says parseDescribedName := by unfold parseDescribedName; spoken

theorem says_registerType {E : FileEnv} {n : List Char} {id cls : Nat} {upd : PS → PS}
    (h : ∀ s, (upd s).errs = s.errs) : Says (P.registerType E n id cls upd) := by
  constructor
  intro s
  unfold P.registerType
  split
  · exact ⟨[], by simp⟩
  · split
    · next e _ => exact ⟨[.sym e], rfl, by simp⟩
    · exact ⟨[], by simp [h], by simp⟩

instance {t : Nat} {n : List Char} : Says (P.addLiteral t n) := by
  constructor
  intro s
  unfold P.addLiteral
  split
  · next e _ => exact ⟨[.sym e], rfl, by simp⟩
  · exact ⟨[], by simp, by simp⟩

instance {t k : Nat} {b : Bool} : Says (literalLoop t k b) := by
  induction k generalizing b with
  | zero => unfold literalLoop; spoken
  | succ k ih => unfold literalLoop; spoken

instance {E : FileEnv} : Says (parseEnumDecl E) := by
  unfold parseEnumDecl
  have : ∀ n id, Says (P.registerType E n id clsEnum fun s =>
    { s with decls := { s.decls with enums := s.decls.enums ++ [[]] } }) :=
    fun _ _ => says_registerType fun _ => rfl
  spoken

instance : Says P.fresh := ⟨fun s => ⟨[], by simp, by simp⟩⟩

instance {E : FileEnv} {k : Nat} {l : List Nat} : Says (unionLoop E k l) := by
  induction k generalizing l with
  | zero => unfold unionLoop; spoken
  | succ k ih => unfold unionLoop; spoken

instance {seen l : List Nat} : Says (reportDuplicates seen l) := by
  induction l generalizing seen with
  | nil => unfold reportDuplicates; spoken
  | cons t ts ih => unfold reportDuplicates; spoken

instance {E : FileEnv} : Says (parseUnionType E) := by unfold parseUnionType; spoken
instance {E : FileEnv} : Says (parseFieldType E) := by unfold parseFieldType; spoken
instance {t : Token} : Says (P.natOf t) := by unfold P.natOf; spoken
instance : Says parseUpperBound := by unfold parseUpperBound; spoken
instance {τ : Ty} : Says (parseArrayType τ) := by unfold parseArrayType; spoken
instance {E : FileEnv} {t : Nat} {a b : Bool} : Says (parseTupleField E t a b) := by
  unfold parseTupleField; spoken
instance {cs : List Comp} {c : Comp} : Says (P.addField cs c) := by unfold P.addField; spoken
instance {cs : List Comp} {seps : List Sep} : Says (parseSeparator cs seps) := by
  unfold parseSeparator; spoken

instance {E : FileEnv} {t k : Nat} {a b c : Bool} {cs : List Comp} {seps : List Sep} :
    Says (tupleLoop E t k a b c cs seps) := by
  induction k generalizing a b c cs seps with
  | zero => unfold tupleLoop; spoken
  | succ k ih => unfold tupleLoop; spoken

instance {E : FileEnv} : Says (parseTupleDecl E) := by
  unfold parseTupleDecl
  have : ∀ n id cs seps, Says (P.registerType E n id clsTuple fun s =>
    { s with
      decls := { s.decls with tups := s.decls.tups ++ [cs] }
      seps := s.seps ++ [seps]
      checks := { s.checks with tups := s.checks.tups ++ [[]] } }) :=
    fun _ _ _ _ => says_registerType fun _ => rfl
  spoken

instance {E : FileEnv} {t : Nat} : Says (parseComponent E t) := by unfold parseComponent; spoken

instance {t : Nat} {c : Comp} : Says (P.addComponent t c) := by
  constructor
  intro s
  unfold P.addComponent
  split
  · next e _ => exact ⟨[.sym e], rfl, by simp⟩
  · exact ⟨[], by simp, by simp⟩

instance {t : Nat} {n : String} {v : VNode} : Says (P.setFrozen t n v) := ⟨fun s => ⟨[], by simp, by simp⟩⟩
instance {E : FileEnv} {t : Nat} : Says (parseFreeze E t) := by unfold parseFreeze; spoken

instance {E : FileEnv} {t k : Nat} : Says (recordLoop E t k) := by
  induction k with
  | zero => unfold recordLoop; spoken
  | succ k ih => unfold recordLoop; spoken

instance {E : FileEnv} : Says (parseRecordDecl E) := by
  unfold parseRecordDecl
  have : ∀ n id parent isAbstract, Says (P.registerType E n id clsRecord fun s =>
    { s with
      decls := { s.decls with recs := s.decls.recs ++ [{ parent, own := [] }] }
      infos := s.infos ++ [{ frozen := [], isAbstract,
                             isFinal := parent.any fun p => (s.info p).isFinal }]
      checks := { s.checks with recs := s.checks.recs ++ [[]] } }) :=
    fun _ _ _ _ => says_registerType fun _ => rfl
  have : ∀ t, Says (P.modify fun s =>
    { s with infos := s.infos.modify t fun i => { i with isFinal := true } }) :=
    fun _ => says_modify fun _ => rfl
  spoken

instance {E : FileEnv} : Says (parseTypeDecl E) := by unfold parseTypeDecl; spoken
instance : Says parseSeverity := by unfold parseSeverity; spoken
instance : Says parseMessage := by unfold parseMessage; spoken
instance {ct : CompositeTy} : Says (parseAnchor ct) := by unfold parseAnchor; spoken
instance {ct : CompositeTy} : Says (parseExtras ct) := by unfold parseExtras; spoken
instance {ct : CompositeTy} {c : Check} : Says (P.addCheck ct c) := by
  unfold P.addCheck
  refine says_modify fun _ => ?_
  split <;> rfl
instance {E : FileEnv} {rx : Regex} {ct : CompositeTy} : Says (parseCheck E rx ct) := by
  unfold parseCheck; spoken

instance {E : FileEnv} {rx : Regex} {ct : CompositeTy} {k : Nat} : Says (checkLoop E rx ct k) := by
  induction k with
  | zero => unfold checkLoop; spoken
  | succ k ih => unfold checkLoop; spoken

instance {E : FileEnv} {rx : Regex} : Says (parseCheckBlock E rx) := by unfold parseCheckBlock; spoken
instance {E : FileEnv} {rx : Regex} : Says (parseRslItem E rx) := by unfold parseRslItem; spoken

instance {k : Nat} : Says (recoverRslLoop k) := by
  induction k with
  | zero => unfold recoverRslLoop; spoken
  | succ k ih => unfold recoverRslLoop; spoken

end Verif.Lemmas
