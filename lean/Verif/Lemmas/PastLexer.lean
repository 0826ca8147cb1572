import Verif.Model.Run.Process
import Verif.Lemmas.SaysRun
/-!
# A parser that ends normally has met no error of the lexer

`Past x`: if `x` ends normally, then in what it has read the lexer found no error.
-/
namespace Verif.Lemmas
open Verif.Model

/-- The lexer finds no error before the end of the file. -/
def NoLexError : List LexOut → Prop
  | [] => True
  | .tok _ :: r => NoLexError r
  | .eof :: _ => True
  | .error .. :: _ => False
  | .crash :: _ => False

/-- Behind the last token nothing is left. -/
def AtEnd (s : PS) : Prop := s.nt = none → s.rest = []

/-- In what was read from `s` to `s'` the lexer found no error. -/
structure Trail (s s' : PS) : Prop where
  lex : NoLexError s'.rest → NoLexError s.rest
  atEnd : AtEnd s → AtEnd s'
  suffix : s'.rest <:+ s.rest

theorem Trail.refl (s : PS) : Trail s s := ⟨id, id, List.suffix_refl _⟩

theorem Trail.trans {a b c : PS} (h : Trail a b) (h' : Trail b c) : Trail a c :=
  ⟨h.lex ∘ h'.lex, h'.atEnd ∘ h.atEnd, h'.suffix.trans h.suffix⟩

/-- See the head of this file. -/
def PastR {α : Type} (s : PS) : PR α → Prop
  | .ok _ s' => Trail s s'
  | .err _ => True
  | .crash _ _ => True

/-- See the head of this file. -/
class Past {α : Type} (x : P α) : Prop where
  rep : ∀ s, PastR s (x s)

variable {α β : Type}

theorem Past.ok {x : P α} (h : Past x) {s s' : PS} {a : α} (e : x s = .ok a s') : Trail s s' := by
  have := h.rep s
  rw [e] at this
  exact this

instance past_bind {x : P α} {f : α → P β} [hx : Past x] [hf : ∀ a, Past (f a)] : Past (x >>= f) := by
  constructor
  intro s
  rw [bind_apply]
  cases h : x s with
  | ok a s1 =>
    dsimp only
    cases h3 : f a s1 with
    | ok b s2 => exact (hx.ok h).trans ((hf a).ok h3)
    | err s2 => trivial
    | crash c s2 => trivial
  | err s1 => trivial
  | crash c s1 => trivial

instance past_pure {a : α} : Past (pure a : P α) := ⟨fun _ => ⟨id, id, List.suffix_refl _⟩⟩
instance past_get : Past P.get := ⟨fun _ => ⟨id, id, List.suffix_refl _⟩⟩
instance past_crash {c : PCrash} : Past (P.crash c : P α) := ⟨fun _ => trivial⟩
instance past_fail {e : PErr} : Past (P.fail e : P α) := ⟨fun _ => trivial⟩
instance past_report {e : PErr} : Past (P.report e) := ⟨fun _ => ⟨id, id, List.suffix_refl _⟩⟩

theorem past_modify {f : PS → PS} (h : ∀ s, (f s).rest = s.rest ∧ (f s).nt = s.nt) : Past (P.modify f) :=
  ⟨fun s => ⟨by simp [h], by simp [AtEnd, h], by simp [h]⟩⟩

instance past_ite {c : Prop} [Decidable c] {x y : P α} [Past x] [Past y] : Past (if c then x else y) := by
  split <;> infer_instance

instance past_cond {c : Bool} {x y : P α} [Past x] [Past y] : Past (P.cond c x y) := by
  unfold P.cond
  infer_instance

theorem past_bind' {x : P α} {f : α → P β} (hx : Past x) (hf : ∀ a, Past (f a)) : Past (x >>= f) :=
  past_bind
theorem past_ite' {c : Prop} [Decidable c] {x y : P α} (hx : Past x) (hy : Past y) :
    Past (if c then x else y) := past_ite
theorem past_cond' {c : Bool} {x y : P α} (hx : Past x) (hy : Past y) : Past (P.cond c x y) := past_cond

/-- Composition along the structure of the program -/
macro "passed" : tactic => `(tactic| repeat' (first
  | infer_instance
  | apply past_bind'
  | apply past_ite'
  | apply past_cond'
  | intro _
  | split))

instance past_liftSym {r : Except SymErr α} : Past (P.liftSym r) := by
  cases r <;> (unfold P.liftSym; passed)

instance past_liftEl {r : El α} : Past (P.liftEl r) := by
  cases r <;> (unfold P.liftEl; passed)

theorem advanceLoop_past : ∀ (r : List LexOut) (s s' : PS) (u : Unit), advanceLoop s r = .ok u s' →
    (NoLexError s'.rest → NoLexError r) ∧ AtEnd s' ∧ s'.rest <:+ r := by
  intro r
  induction r with
  | nil => intro s s' u h; cases h; exact ⟨id, fun _ => rfl, List.suffix_refl _⟩
  | cons o r ih =>
    intro s s' u h
    cases o with
    | tok t =>
      unfold advanceLoop at h
      split at h
      · obtain ⟨h1, h2, h3⟩ := ih s s' u h
        exact ⟨h1, h2, h3.trans (List.suffix_cons _ _)⟩
      · cases h; exact ⟨id, by simp [AtEnd], List.suffix_cons _ _⟩
    | eof => cases h; exact ⟨fun _ => trivial, fun _ => rfl, List.nil_suffix⟩
    | error k a b => cases h
    | crash => cases h

instance past_advance : Past P.advance := ⟨fun s => by
  cases h : P.advance s with
  | ok u s' => exact ⟨(advanceLoop_past _ _ _ _ h).1, fun _ => (advanceLoop_past _ _ _ _ h).2.1, (advanceLoop_past _ _ _ _ h).2.2⟩
  | err s' => trivial
  | crash c s' => trivial⟩

instance past_matchK {k : Kind} : Past (P.matchK k) := by
  constructor
  intro s
  unfold P.matchK
  cases h : s.nt with
  | none => exact (past_fail (α := Token) (e := .expected)).rep s
  | some t =>
    dsimp only
    split
    · exact (past_fail (α := Token) (e := .expected)).rep s
    · exact (inferInstance : Past (P.advance >>= fun _ => pure t)).rep s

instance past_matchKw {v : String} : Past (P.matchKw v) := by
  constructor
  intro s
  unfold P.matchKw
  cases h : s.nt with
  | none => exact (past_fail (α := Token) (e := .expected)).rep s
  | some t =>
    dsimp only
    split
    · exact (past_fail (α := Token) (e := .expected)).rep s
    · split
      · exact (past_fail (α := Token) (e := .expected)).rep s
      · exact (inferInstance : Past (P.advance >>= fun _ => pure t)).rep s

instance past_matchEof : Past P.matchEof := by
  constructor
  intro s
  unfold P.matchEof
  cases h : s.nt with
  | none => exact ⟨id, id, List.suffix_refl _⟩
  | some t => exact (past_fail (α := Unit) (e := .expected)).rep s

/-! ## Values and objects -/

instance {E : FileEnv} {n : List Char} {sub : Option (Ent → Bool)} : Past (P.scopeLookup E n sub) := by
  unfold P.scopeLookup; passed
instance {E : FileEnv} : Past (E.invisible : P α) := by unfold FileEnv.invisible; passed
instance {E : FileEnv} {sub : Ent → Bool} : Past (parseQualifiedName E sub) := by
  unfold parseQualifiedName; passed
instance : Past parseBoolean := by unfold parseBoolean; passed
instance {b : Bool} : Past (parseNumber b) := by unfold parseNumber; passed
instance {E : FileEnv} {τ : Ty} : Past (parseReference E τ) := by unfold parseReference; passed
instance {E : FileEnv} {t : Nat} : Past (parseEnum E t) := by unfold parseEnum; passed
instance {E : FileEnv} : Past (parseMarkup E) := by unfold parseMarkup; passed

instance {pv : P PVal} [Past pv] {k : Nat} {acc : List PVal} : Past (arrayLoop pv k acc) := by
  induction k generalizing acc with
  | zero => unfold arrayLoop; passed
  | succ k ih => unfold arrayLoop; passed

instance {pv : P PVal} [Past pv] {τ : Ty} {lo : Nat} {hi : Option Nat} : Past (parseArray pv τ lo hi) := by
  unfold parseArray; passed

instance {sp : Sep} : Past (P.matchSep sp) := by cases sp <;> (unfold P.matchSep; passed)

instance {pv : Ty → P PVal} [∀ τ, Past (pv τ)] {l : List SeqItem} {b : Bool} {d : List (String × PVal)} :
    Past (sepLoop pv l b d) := by
  induction l generalizing b d with
  | nil => unfold sepLoop; passed
  | cons i l ih => cases i <;> (unfold sepLoop; passed)

instance {pv : Ty → P PVal} [∀ τ, Past (pv τ)] {t : Nat} {cs : List Comp} {seps : List Sep} :
    Past (parseSepTuple pv t cs seps) := by unfold parseSepTuple; passed

instance {pv : Ty → P PVal} [∀ τ, Past (pv τ)] {b : Bool} {cs : List Comp} {d : List (String × PVal)} :
    Past (plainLoop pv b cs d) := by
  induction cs generalizing b d with
  | nil => unfold plainLoop; passed
  | cons i l ih => unfold plainLoop; passed

instance {pv : Ty → P PVal} [∀ τ, Past (pv τ)] {t : Nat} {cs : List Comp} :
    Past (parsePlainTuple pv t cs) := by unfold parsePlainTuple; passed

instance {E : FileEnv} {n : Nat} {τ : Ty} : Past (parseValue E n τ) := by
  induction n generalizing τ with
  | zero => unfold parseValue; passed
  | succ n ih => cases τ <;> (unfold parseValue; passed)

instance {v : PVal} : Past (P.newNode v) := ⟨fun s => ⟨id, id, List.suffix_refl _⟩⟩

instance {o : Nat} {n : String} {v : VNode} : Past (P.assign o n v) := by
  constructor
  intro s
  unfold P.assign
  split
  · trivial
  · split
    · exact ⟨id, id, List.suffix_refl _⟩
    · trivial

instance {E : FileEnv} {o t : Nat} : Past (parseAssignment E o t) := by unfold parseAssignment; passed

instance {E : FileEnv} {o t k : Nat} : Past (assignLoop E o t k) := by
  induction k with
  | zero => unfold assignLoop; passed
  | succ k ih => unfold assignLoop; passed

instance {o t : Nat} {cs : List Comp} : Past (completeLoop o t cs) := by
  induction cs with
  | nil => unfold completeLoop; passed
  | cons c cs ih => unfold completeLoop; passed

instance {E : FileEnv} {t : Nat} {n : List Char} : Past (P.newObject E t n) := by
  constructor
  intro s
  unfold P.newObject
  dsimp only
  split
  · trivial
  · split
    · trivial
    · exact ⟨id, id, List.suffix_refl _⟩

instance {E : FileEnv} {e : Ent} : Past (parseObjectOf E e) := by unfold parseObjectOf; passed
instance {E : FileEnv} : Past (parseObject E) := by unfold parseObject; passed

instance {v : List Char} : Past (P.modify fun s => { s with sects := s.sects ++ [v] }) :=
  past_modify fun _ => ⟨rfl, rfl⟩
instance : Past (P.modify fun s => { s with sects := s.sects.dropLast }) := past_modify fun _ => ⟨rfl, rfl⟩

theorem entry_past {E : FileEnv} (n : Nat) : Past (parseEntry E n) ∧ Past (sectionLoop E n) := by
  induction n with
  | zero => exact ⟨by unfold parseEntry; passed, by unfold sectionLoop; passed⟩
  | succ n ih =>
    have := ih.1
    have := ih.2
    exact ⟨by unfold parseEntry; passed, by unfold sectionLoop; passed⟩

instance {E : FileEnv} {n : Nat} : Past (parseEntry E n) := (entry_past n).1

instance {line k : Nat} : Past (skipLoop line k) := by
  induction k with
  | zero => unfold skipLoop; passed
  | succ k ih =>
    constructor
    intro s
    unfold skipLoop
    split
    · exact (inferInstance : Past (P.advance >>= fun _ => skipLoop line k)).rep s
    · exact ⟨id, id, List.suffix_refl _⟩

instance : Past P.skipUntilNewline := by
  constructor
  intro s
  unfold P.skipUntilNewline
  split
  · exact ⟨id, id, List.suffix_refl _⟩
  · next t _ => exact (inferInstance : Past (skipLoop t.line (s.toks + 1))).rep s

instance {E : FileEnv} {k : Nat} : Past (recoverLoop E k) := by
  induction k with
  | zero => unfold recoverLoop; passed
  | succ k ih => unfold recoverLoop; passed

/-! ## Expressions -/

instance {sc : LScope} {n : List Char} : Past (P.nameLookup sc n) := by unfold P.nameLookup; passed

instance {pe : P Expr} [Past pe] {k : Nat} : Past (argLoop pe k) := by
  induction k with
  | zero => unfold argLoop; passed
  | succ k ih => unfold argLoop; passed

instance {X : ElEnv} {pe : P Expr} [Past pe] {f : String} : Past (parseBuiltin X pe f) := by
  unfold parseBuiltin; passed

instance {X : ElEnv} {pe : P Expr} [Past pe] {k : Nat} {p : Expr} : Past (nameTail X pe k p) := by
  induction k generalizing p with
  | zero => unfold nameTail; passed
  | succ k ih => unfold nameTail; passed

instance {X : ElEnv} {t : Nat} : Past (parseLiteral X t) := by unfold parseLiteral; passed
instance {X : ElEnv} {pe : P Expr} [Past pe] {e : Ent} : Past (parseEntity X pe e) := by
  unfold parseEntity; passed
instance {E : FileEnv} {X : ElEnv} {sc : LScope} {pe : P Expr} [Past pe] : Past (parseName E X sc pe) := by
  unfold parseName; passed
instance {sc : LScope} {pe : LScope → P Expr} [∀ sc, Past (pe sc)] : Past (parseQuantified sc pe) := by
  unfold parseQuantified; passed

instance {pe : P Expr} [Past pe] {t : Ty} {k : Nat} : Past (condTail pe t k) := by
  induction k with
  | zero => unfold condTail; passed
  | succ k ih => unfold condTail; passed

instance {pe : P Expr} [Past pe] : Past (parseConditional pe) := by unfold parseConditional; passed
instance {E : FileEnv} {X : ElEnv} {sc : LScope} {pe : LScope → P Expr} [∀ sc, Past (pe sc)] :
    Past (parsePrimary E X sc pe) := by unfold parsePrimary; passed
instance {X : ElEnv} {pp : P Expr} [Past pp] : Past (parseFactor X pp) := by unfold parseFactor; passed

instance {X : ElEnv} {pf : P Expr} [Past pf] {k : Nat} {l : Expr} : Past (termLoop X pf k l) := by
  induction k generalizing l with
  | zero => unfold termLoop; passed
  | succ k ih => unfold termLoop; passed

instance {X : ElEnv} {pf : P Expr} [Past pf] : Past (parseTerm X pf) := by unfold parseTerm; passed

instance {X : ElEnv} {pt : P Expr} [Past pt] {r : Option Ty} {k : Nat} {l : Expr} :
    Past (simpleLoop X pt r k l) := by
  induction k generalizing l with
  | zero => unfold simpleLoop; passed
  | succ k ih => unfold simpleLoop; passed

instance {pt : P Expr} [Past pt] : Past (parseSigned pt) := by unfold parseSigned; passed
instance {X : ElEnv} {pt : P Expr} [Past pt] : Past (parseSimple X pt) := by unfold parseSimple; passed
instance {X : ElEnv} {ps : P Expr} [Past ps] : Past (parseRelation X ps) := by unfold parseRelation; passed

instance {X : ElEnv} {pr : P Expr} [Past pr] {kw : String} {op : LogOp} {k : Nat} {l : Expr} :
    Past (logicLoop X pr kw op k l) := by
  induction k generalizing l with
  | zero => unfold logicLoop; passed
  | succ k ih => unfold logicLoop; passed

instance {X : ElEnv} {pr : P Expr} [Past pr] : Past (parseExpression X pr) := by
  unfold parseExpression; passed

instance {E : FileEnv} {X : ElEnv} {n : Nat} {sc : LScope} : Past (parseExpr E X n sc) := by
  induction n generalizing sc with
  | zero => unfold parseExpr; passed
  | succ n ih => unfold parseExpr; passed

/-! ## Declarations and checks -/

instance : Past parseDescribedName := by unfold parseDescribedName; passed

theorem past_registerType {E : FileEnv} {n : List Char} {id cls : Nat} {upd : PS → PS}
    (h : ∀ s, (upd s).rest = s.rest ∧ (upd s).nt = s.nt) : Past (P.registerType E n id cls upd) := by
  constructor
  intro s
  unfold P.registerType
  split
  · trivial
  · split
    · trivial
    · exact ⟨by simp [h], by simp [AtEnd, h], by simp [h]⟩

instance {t : Nat} {n : List Char} : Past (P.addLiteral t n) := by
  constructor
  intro s
  unfold P.addLiteral
  split
  · trivial
  · exact ⟨id, id, List.suffix_refl _⟩

instance {t k : Nat} {b : Bool} : Past (literalLoop t k b) := by
  induction k generalizing b with
  | zero => unfold literalLoop; passed
  | succ k ih => unfold literalLoop; passed

instance {E : FileEnv} : Past (parseEnumDecl E) := by
  unfold parseEnumDecl
  have : ∀ n id, Past (P.registerType E n id clsEnum fun s =>
    { s with decls := { s.decls with enums := s.decls.enums ++ [[]] } }) :=
    fun _ _ => past_registerType fun _ => ⟨rfl, rfl⟩
  passed

instance : Past P.fresh := ⟨fun s => ⟨id, id, List.suffix_refl _⟩⟩

instance {E : FileEnv} {k : Nat} {l : List Nat} : Past (unionLoop E k l) := by
  induction k generalizing l with
  | zero => unfold unionLoop; passed
  | succ k ih => unfold unionLoop; passed

instance {seen l : List Nat} : Past (reportDuplicates seen l) := by
  induction l generalizing seen with
  | nil => unfold reportDuplicates; passed
  | cons t ts ih => unfold reportDuplicates; passed

instance {E : FileEnv} : Past (parseUnionType E) := by unfold parseUnionType; passed
instance {E : FileEnv} : Past (parseFieldType E) := by unfold parseFieldType; passed
instance {t : Token} : Past (P.natOf t) := by unfold P.natOf; passed
instance : Past parseUpperBound := by unfold parseUpperBound; passed
instance {τ : Ty} : Past (parseArrayType τ) := by unfold parseArrayType; passed
instance {E : FileEnv} {t : Nat} {a b : Bool} : Past (parseTupleField E t a b) := by
  unfold parseTupleField; passed
instance {cs : List Comp} {c : Comp} : Past (P.addField cs c) := by unfold P.addField; passed
instance {cs : List Comp} {seps : List Sep} : Past (parseSeparator cs seps) := by
  unfold parseSeparator; passed

instance {E : FileEnv} {t k : Nat} {a b c : Bool} {cs : List Comp} {seps : List Sep} :
    Past (tupleLoop E t k a b c cs seps) := by
  induction k generalizing a b c cs seps with
  | zero => unfold tupleLoop; passed
  | succ k ih => unfold tupleLoop; passed

instance {E : FileEnv} : Past (parseTupleDecl E) := by
  unfold parseTupleDecl
  have : ∀ n id cs seps, Past (P.registerType E n id clsTuple fun s =>
    { s with
      decls := { s.decls with tups := s.decls.tups ++ [cs] }
      seps := s.seps ++ [seps]
      checks := { s.checks with tups := s.checks.tups ++ [[]] } }) :=
    fun _ _ _ _ => past_registerType fun _ => ⟨rfl, rfl⟩
  passed

instance {E : FileEnv} {t : Nat} : Past (parseComponent E t) := by unfold parseComponent; passed

instance {t : Nat} {c : Comp} : Past (P.addComponent t c) := by
  constructor
  intro s
  unfold P.addComponent
  split
  · trivial
  · exact ⟨id, id, List.suffix_refl _⟩

instance {t : Nat} {n : String} {v : VNode} : Past (P.setFrozen t n v) := ⟨fun s => ⟨id, id, List.suffix_refl _⟩⟩
instance {E : FileEnv} {t : Nat} : Past (parseFreeze E t) := by unfold parseFreeze; passed

instance {E : FileEnv} {t k : Nat} : Past (recordLoop E t k) := by
  induction k with
  | zero => unfold recordLoop; passed
  | succ k ih => unfold recordLoop; passed

instance {E : FileEnv} : Past (parseRecordDecl E) := by
  unfold parseRecordDecl
  have : ∀ n id parent isAbstract, Past (P.registerType E n id clsRecord fun s =>
    { s with
      decls := { s.decls with recs := s.decls.recs ++ [{ parent, own := [] }] }
      infos := s.infos ++ [{ frozen := [], isAbstract,
                             isFinal := parent.any fun p => (s.info p).isFinal }]
      checks := { s.checks with recs := s.checks.recs ++ [[]] } }) :=
    fun _ _ _ _ => past_registerType fun _ => ⟨rfl, rfl⟩
  have : ∀ t, Past (P.modify fun s =>
    { s with infos := s.infos.modify t fun i => { i with isFinal := true } }) :=
    fun _ => past_modify fun _ => ⟨rfl, rfl⟩
  passed

instance {E : FileEnv} : Past (parseTypeDecl E) := by unfold parseTypeDecl; passed
instance : Past parseSeverity := by unfold parseSeverity; passed
instance : Past parseMessage := by unfold parseMessage; passed
instance {ct : CompositeTy} : Past (parseAnchor ct) := by unfold parseAnchor; passed
instance {ct : CompositeTy} : Past (parseExtras ct) := by unfold parseExtras; passed
instance {ct : CompositeTy} {c : Check} : Past (P.addCheck ct c) := by
  unfold P.addCheck
  refine past_modify fun _ => ?_
  split <;> exact ⟨rfl, rfl⟩
instance {E : FileEnv} {rx : Regex} {ct : CompositeTy} : Past (parseCheck E rx ct) := by
  unfold parseCheck; passed

instance {E : FileEnv} {rx : Regex} {ct : CompositeTy} {k : Nat} : Past (checkLoop E rx ct k) := by
  induction k with
  | zero => unfold checkLoop; passed
  | succ k ih => unfold checkLoop; passed

instance {E : FileEnv} {rx : Regex} : Past (parseCheckBlock E rx) := by unfold parseCheckBlock; passed
instance {E : FileEnv} {rx : Regex} : Past (parseRslItem E rx) := by unfold parseRslItem; passed

instance {k : Nat} : Past (recoverRslLoop k) := by
  induction k with
  | zero => unfold recoverRslLoop; passed
  | succ k ih => unfold recoverRslLoop; passed

/-! ## Files -/

theorem fileLoop_past {E : FileEnv} : ∀ (k : Nat) (ok : Bool) (s s' : PS), fileLoop E k ok s = .ok true s' →
    ok = true ∧ Trail s s' := by
  intro k
  induction k with
  | zero => intro ok s s' h; cases h
  | succ k ih =>
    intro ok s s' h
    rw [fileLoop] at h
    simp only [bind_apply, P.get] at h
    split at h
    · rw [bind_apply] at h
      unfold P.tryCatch at h
      rw [bind_apply] at h
      cases hx : parseEntry E (2 * s.toks + 2) s with
      | ok a s1 =>
        rw [hx] at h
        simp only [pure_apply] at h
        obtain ⟨h1, h2⟩ := ih _ _ _ h
        exact ⟨by simpa using h1, ((inferInstance : Past (parseEntry E (2 * s.toks + 2))).ok hx).trans h2⟩
      | err s1 =>
        rw [hx] at h
        dsimp only at h
        cases hr : recoverFile E s1 with
        | ok b s2 =>
          rw [hr] at h
          have := recoverFile_false hr
          subst this
          simpa using (ih _ _ _ h).1
        | err s2 => rw [hr] at h; cases h
        | crash c s2 => rw [hr] at h; cases h
      | crash c s1 => rw [hx] at h; cases h
    · cases h
      exact ⟨rfl, .refl s⟩

theorem matchEof_ok {s s' : PS} {u : Unit} (h : P.matchEof s = .ok u s') : s' = s ∧ s.nt = none := by
  unfold P.matchEof at h
  split at h
  · next hn => cases h; exact ⟨rfl, by simpa using hn⟩
  · cases h

theorem parseTrlcFile_past {E : FileEnv} {s s' : PS} (h : parseTrlcFile E s = .ok true s') (ha : AtEnd s) :
    NoLexError s.rest := by
  unfold parseTrlcFile at h
  simp only [bind_apply, P.get] at h
  cases hx : fileLoop E (s.toks + 1) true s with
  | ok b s1 =>
    rw [hx] at h
    dsimp only at h
    cases he : P.matchEof s1 with
    | ok u s2 =>
      rw [he] at h
      cases h
      obtain ⟨rfl, hn⟩ := matchEof_ok he
      have ht := (fileLoop_past _ _ _ _ hx).2
      exact ht.lex (by rw [ht.atEnd ha hn]; trivial)
    | err s2 => rw [he] at h; cases h
    | crash c s2 => rw [he] at h; cases h
  | err s1 => rw [hx] at h; cases h
  | crash c s1 => rw [hx] at h; cases h

theorem rslLoop_past {E : FileEnv} {rx : Regex} : ∀ (k : Nat) (ok : Bool) (s s' : PS),
    rslLoop E rx k ok s = .ok true s' → ok = true ∧ Trail s s' := by
  intro k
  induction k with
  | zero => intro ok s s' h; cases h
  | succ k ih =>
    intro ok s s' h
    rw [rslLoop] at h
    simp only [bind_apply, P.get] at h
    split at h
    · cases h
      exact ⟨rfl, .refl s⟩
    · rw [bind_apply] at h
      unfold P.tryCatch at h
      rw [bind_apply] at h
      cases hx : parseRslItem E rx s with
      | ok a s1 =>
        rw [hx] at h
        simp only [pure_apply] at h
        obtain ⟨h1, h2⟩ := ih _ _ _ h
        exact ⟨by simpa using h1, ((inferInstance : Past (parseRslItem E rx)).ok hx).trans h2⟩
      | err s1 =>
        rw [hx] at h
        dsimp only at h
        cases hr : recoverRsl E s1 with
        | ok b s2 =>
          rw [hr] at h
          have := recoverRsl_false hr
          subst this
          simpa using (ih _ _ _ h).1
        | err s2 => rw [hr] at h; cases h
        | crash c s2 => rw [hr] at h; cases h
      | crash c s1 => rw [hx] at h; cases h

theorem parseRslFile_past {E : FileEnv} {rx : Regex} {s s' : PS} (h : parseRslFile E rx s = .ok true s')
    (ha : AtEnd s) : NoLexError s.rest := by
  unfold parseRslFile at h
  simp only [bind_apply, P.get] at h
  cases hx : rslLoop E rx (s.toks + 1) true s with
  | ok b s1 =>
    rw [hx] at h
    dsimp only at h
    cases he : P.matchEof s1 with
    | ok u s2 =>
      rw [he] at h
      cases h
      obtain ⟨rfl, hn⟩ := matchEof_ok he
      have ht := (rslLoop_past _ _ _ _ hx).2
      exact ht.lex (by rw [ht.atEnd ha hn]; trivial)
    | err s2 => rw [he] at h; cases h
    | crash c s2 => rw [he] at h; cases h
  | err s1 => rw [hx] at h; cases h
  | crash c s1 => rw [hx] at h; cases h

/-- If a run over files ends with `True`, then the lexer found no error in any of them. -/
theorem runFiles_past {one : OpenFile → P Bool} {all : List OpenFile → P Bool}
    (h1 : ∀ f fs, all (f :: fs) = (do let a ← one f; let b ← all fs; pure (a && b)))
    (h2 : ∀ f s s', one f s = .ok true s' → (f.nt = none → f.rest = []) → NoLexError f.rest) :
    ∀ (fs : List OpenFile) (s s' : PS), all fs s = .ok true s' → (∀ f ∈ fs, f.nt = none → f.rest = []) →
      ∀ f ∈ fs, NoLexError f.rest := by
  intro fs
  induction fs with
  | nil => intro s s' _ _ f hf; cases hf
  | cons f fs ih =>
    intro s s' h ha
    rw [h1, bind_apply] at h
    cases hx : one f s with
    | ok a s1 =>
      rw [hx] at h
      dsimp only at h
      rw [bind_apply] at h
      cases hy : all fs s1 with
      | ok b s2 =>
        rw [hy] at h
        simp only [pure_apply, PR.ok.injEq, Bool.and_eq_true] at h
        obtain ⟨⟨rfl, rfl⟩, -⟩ := h
        intro x hf
        rcases List.mem_cons.1 hf with rfl | hf
        · exact h2 _ _ _ hx (ha _ (by simp))
        · exact ih _ _ hy (fun f hf => ha f (by simp [hf])) x hf
      | err s2 => rw [hy] at h; cases h
      | crash c s2 => rw [hy] at h; cases h
    | err s1 => rw [hx] at h; cases h
    | crash c s1 => rw [hx] at h; cases h

theorem runTrlcFiles_past {fs : List OpenFile} {s s' : PS} (h : runTrlcFiles fs s = .ok true s')
    (ha : ∀ f ∈ fs, f.nt = none → f.rest = []) : ∀ f ∈ fs, NoLexError f.rest := by
  refine runFiles_past (one := runTrlcFile) (fun _ _ => rfl) ?_ fs s s' h ha
  intro f s s' h ha
  have e : runTrlcFile f s = P.tryCatch (parseTrlcFile f.env) (pure false) (s.enter f) := rfl
  rw [e] at h
  unfold P.tryCatch at h
  cases hx : parseTrlcFile f.env (s.enter f) with
  | ok b s1 => rw [hx] at h; cases h; exact parseTrlcFile_past hx ha
  | err s1 => rw [hx] at h; cases h
  | crash c s1 => rw [hx] at h; cases h

theorem runRslFiles_past {rx : Regex} {fs : List OpenFile} {s s' : PS} (h : runRslFiles rx fs s = .ok true s')
    (ha : ∀ f ∈ fs, f.nt = none → f.rest = []) : ∀ f ∈ fs, NoLexError f.rest := by
  refine runFiles_past (one := runRslFile rx) (fun _ _ => rfl) ?_ fs s s' h ha
  intro f s s' h ha
  have e : runRslFile rx f s = P.tryCatch (parseRslFile f.env rx) (pure false) (s.enter f) := rfl
  rw [e] at h
  unfold P.tryCatch at h
  cases hx : parseRslFile f.env rx (s.enter f) with
  | ok b s1 => rw [hx] at h; cases h; exact parseRslFile_past hx ha
  | err s1 => rw [hx] at h; cases h
  | crash c s1 => rw [hx] at h; cases h

end Verif.Lemmas
