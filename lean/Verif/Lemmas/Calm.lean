import Verif.Model.Parse.Rsl
import Verif.Lemmas.StaticSound
import Verif.Lemmas.ElabSound
import Verif.Lemmas.ParseRules
/-!
# Which internal exceptions a parser can raise

`Cal Q E x s Post`: run in state `s`, `x` raises only exceptions of the kinds listed in `KnownEnd`; if
it ends normally, its result has the property `Post`.
-/
namespace Verif.Lemmas
open Verif.Model Verif.Spec

/-- The value of a token that is a number is a number. -/
def NumTok (t : Token) : Prop :=
  (t.kind = .INTEGER → ∃ n, t.value = .int n) ∧ (t.kind = .DECIMAL → ∃ q, t.value = .frac q)

/-- What is known about a parser while it reads a file with the environment `E`; `Q` holds if
the lexer fails. -/
structure Inp (Q : Prop) (E : FileEnv) (s : PS) : Prop where
  nt : ∀ t, s.nt = some t → NumTok t
  rest : ∀ t, .tok t ∈ s.rest → NumTok t
  quote : .crash ∈ s.rest → Q
  tabs : E.pkg < s.tabs.length
  markup : E.resolved = true → ∀ t, E.markup t ≠ .crash

/-- The exceptions raised when a node is built -/
def Mild (c : ElCrash) : Prop :=
  c = .arityOfType ∨ c = .membershipOfNull ∨ c = .static .staticQuantifier

/-- The exceptions that can not be excluded.  (That the first two do not happen is shown
elsewhere.) -/
def KnownEnd (Q : Prop) (E : FileEnv) (c : PCrash) (s : PS) : Prop :=
  c = .fuel ∨ c = .keyError ∨ (c = .lexer ∧ Q) ∨ (c = .attribute ∧ s.nt = none) ∨
    (c = .assertion ∧ E.resolved = false) ∨ ∃ x, c = .expr x ∧ Mild x

/-- See the head of this file. -/
def Cal {α : Type} (Q : Prop) (E : FileEnv) (x : P α) (s : PS) (Post : α → Prop) : Prop :=
  match x s with
  | .ok a s' => Inp Q E s' ∧ Post a
  | .err s' => Inp Q E s'
  | .crash c s' => KnownEnd Q E c s'

/-- … in all states -/
def CalmP {α : Type} (Q : Prop) (E : FileEnv) (x : P α) (Post : α → Prop) : Prop :=
  ∀ s, Inp Q E s → Cal Q E x s Post

/-- … without a property of the result -/
class Calm {α : Type} (Q : Prop) (E : FileEnv) (x : P α) : Prop where
  rep : CalmP Q E x fun _ => True

variable {α β : Type} {Q : Prop} {E : FileEnv}

theorem Cal.mono {x : P α} {s : PS} {P P' : α → Prop} (h : Cal Q E x s P) (hp : ∀ a, P a → P' a) :
    Cal Q E x s P' := by
  unfold Cal at h ⊢
  cases hx : x s <;> rw [hx] at h <;> simp only at h ⊢
  · exact ⟨h.1, hp _ h.2⟩
  · exact h
  · exact h

theorem CalmP.calm {x : P α} {Post : α → Prop} (h : CalmP Q E x Post) : Calm Q E x :=
  ⟨fun s hs => (h s hs).mono fun _ _ => trivial⟩

theorem cal_bind {x : P α} {f : α → P β} {s : PS} {Post : β → Prop} (P1 : α → Prop)
    (hx : Cal Q E x s P1) (hf : ∀ a s1, x s = .ok a s1 → Inp Q E s1 → P1 a → Cal Q E (f a) s1 Post) :
    Cal Q E (x >>= f) s Post := by
  unfold Cal at hx ⊢
  rw [bind_apply]
  cases h : x s with
  | ok a s1 =>
    rw [h] at hx
    exact hf a s1 h hx.1 hx.2
  | err s1 => rw [h] at hx; exact hx
  | crash c s1 => rw [h] at hx; exact hx

theorem cal_get {f : PS → P β} {s : PS} {Post : β → Prop} (h : Cal Q E (f s) s Post) :
    Cal Q E (P.get >>= f) s Post := h

theorem calmP_bind {x : P α} {f : α → P β} {Post : β → Prop} (P1 : α → Prop) (hx : CalmP Q E x P1)
    (hf : ∀ a, P1 a → CalmP Q E (f a) Post) : CalmP Q E (x >>= f) Post :=
  fun s hs => cal_bind P1 (hx s hs) fun a s1 _ h1 h2 => hf a h2 s1 h1

theorem calmP_get {f : PS → P β} {Post : β → Prop} (h : ∀ s, CalmP Q E (f s) Post) :
    CalmP Q E (P.get >>= f) Post := fun s hs => h s s hs

theorem calmP_pure {a : α} {Post : α → Prop} (h : Post a) : CalmP Q E (pure a) Post :=
  fun _ hs => ⟨hs, h⟩

theorem calmP_ite {c : Prop} [Decidable c] {x y : P α} {Post : α → Prop} (hx : c → CalmP Q E x Post)
    (hy : ¬ c → CalmP Q E y Post) : CalmP Q E (if c then x else y) Post := by
  split
  · next h => exact hx h
  · next h => exact hy h

theorem calmP_cond {c : Bool} {x y : P α} {Post : α → Prop} (hx : c = true → CalmP Q E x Post)
    (hy : c = false → CalmP Q E y Post) : CalmP Q E (P.cond c x y) Post := by
  cases c
  · exact hy rfl
  · exact hx rfl

theorem Inp.errs {s : PS} (h : Inp Q E s) (l : List PErr) : Inp Q E { s with errs := l } :=
  ⟨h.nt, h.rest, h.quote, h.tabs, h.markup⟩

theorem calmP_fail {e : PErr} {Post : α → Prop} : CalmP Q E (P.fail e : P α) Post := fun _ hs => hs.errs _

theorem calmP_fuel {Post : α → Prop} : CalmP Q E (P.crash .fuel : P α) Post := fun _ _ => .inl rfl

theorem Calm.post {x : P α} (h : Calm Q E x) : CalmP Q E x fun _ => True := h.rep

instance calm_bind {x : P α} {f : α → P β} [hx : Calm Q E x] [hf : ∀ a, Calm Q E (f a)] :
    Calm Q E (x >>= f) := ⟨calmP_bind _ hx.rep fun a _ => (hf a).rep⟩

instance calm_pure {a : α} : Calm Q E (pure a : P α) := ⟨calmP_pure trivial⟩
instance calm_get : Calm Q E P.get := ⟨fun _ hs => ⟨hs, trivial⟩⟩
instance calm_fuel : Calm Q E (P.crash .fuel : P α) := ⟨calmP_fuel⟩
instance calm_keyError : Calm Q E (P.crash .keyError : P α) := ⟨fun _ _ => .inr (.inl rfl)⟩
instance calm_fail {e : PErr} : Calm Q E (P.fail e : P α) := ⟨calmP_fail⟩
instance calm_report {e : PErr} : Calm Q E (P.report e) := ⟨fun _ hs => ⟨hs.errs _, trivial⟩⟩

theorem calm_modify {f : PS → PS} (h : ∀ s, Inp Q E s → Inp Q E (f s)) : Calm Q E (P.modify f) :=
  ⟨fun s hs => ⟨h s hs, trivial⟩⟩

instance calm_ite {c : Prop} [Decidable c] {x y : P α} [Calm Q E x] [Calm Q E y] :
    Calm Q E (if c then x else y) := by
  split <;> infer_instance

instance calm_cond {c : Bool} {x y : P α} [Calm Q E x] [Calm Q E y] : Calm Q E (P.cond c x y) := by
  unfold P.cond
  infer_instance

theorem calm_bind' {x : P α} {f : α → P β} (hx : Calm Q E x) (hf : ∀ a, Calm Q E (f a)) :
    Calm Q E (x >>= f) := calm_bind
theorem calm_ite' {c : Prop} [Decidable c] {x y : P α} (hx : Calm Q E x) (hy : Calm Q E y) :
    Calm Q E (if c then x else y) := calm_ite
theorem calm_cond' {c : Bool} {x y : P α} (hx : Calm Q E x) (hy : Calm Q E y) :
    Calm Q E (P.cond c x y) := calm_cond

/-- Composition along the structure of the program -/
macro "calmed" : tactic => `(tactic| repeat' (first
  | infer_instance
  | apply calm_bind'
  | apply calm_ite'
  | apply calm_cond'
  | intro _
  | split))

theorem calm_tryCatch {x h : P α} (hx : Calm Q E x) (hh : Calm Q E h) : Calm Q E (P.tryCatch x h) := by
  constructor
  intro s hs
  have h1 := hx.rep s hs
  unfold Cal at h1 ⊢
  unfold P.tryCatch
  cases e : x s with
  | ok a s' => rw [e] at h1; exact h1
  | err s' => rw [e] at h1; exact hh.rep s' h1
  | crash c s' => rw [e] at h1; exact h1

instance calm_liftSym {r : Except SymErr α} : Calm Q E (P.liftSym r) := by
  cases r <;> (unfold P.liftSym; calmed)

theorem calmP_liftSym {r : Except SymErr α} : CalmP Q E (P.liftSym r) fun a => r = .ok a := by
  cases r
  · exact calmP_fail
  · exact calmP_pure rfl

theorem calmP_liftEl {r : El α} {Post : α → Prop} (hc : ∀ c, r = .crash c → Mild c)
    (ho : ∀ a, r = .ok a → Post a) : CalmP Q E (P.liftEl r) Post := by
  cases r with
  | ok a => exact calmP_pure (ho a rfl)
  | err e => exact calmP_fail
  | crash c => exact fun _ _ => .inr (.inr (.inr (.inr (.inr ⟨c, rfl, hc c rfl⟩))))

/-! ## Tokens -/

theorem inp_advance : ∀ (r : List LexOut) (s : PS), (∀ t, .tok t ∈ r → NumTok t) → (.crash ∈ r → Q) →
    Inp Q E s → match advanceLoop s r with
      | .ok _ s' => Inp Q E s'
      | .err s' => Inp Q E s'
      | .crash c s' => c = .lexer ∧ Q := by
  intro r
  induction r with
  | nil => intro s _ _ h; exact ⟨by simp, by simp, by simp, h.tabs, h.markup⟩
  | cons o r ih =>
    intro s h1 h2 h
    have h1' : ∀ t, .tok t ∈ r → NumTok t := fun t ht => h1 t (List.mem_cons_of_mem _ ht)
    have h2' : .crash ∈ r → Q := fun ht => h2 (List.mem_cons_of_mem _ ht)
    cases o with
    | tok t =>
      unfold advanceLoop
      by_cases hc : t.kind = .COMMENT
      · simp only [hc, if_true]
        exact ih s h1' h2' h
      · simp only [hc, if_false]
        exact ⟨by rintro t ⟨⟩; exact h1 _ (by simp), h1', h2', h.tabs, h.markup⟩
    | eof => exact ⟨by simp, by simp, by simp, h.tabs, h.markup⟩
    | error k a b => exact ⟨h.nt, h1', h2', h.tabs, h.markup⟩
    | crash => exact ⟨rfl, h2 (by simp)⟩

instance calm_advance : Calm Q E P.advance := ⟨fun s hs => by
  have := inp_advance (Q := Q) (E := E) s.rest { s with ct := s.nt } hs.rest hs.quote
    ⟨hs.nt, hs.rest, hs.quote, hs.tabs, hs.markup⟩
  unfold Cal P.advance
  cases h : advanceLoop { s with ct := s.nt } s.rest with
  | ok u s' => rw [h] at this; exact ⟨this, trivial⟩
  | err s' => rw [h] at this; exact this
  | crash c s' => rw [h] at this; exact .inr (.inr (.inl this))⟩

theorem calmP_matchK {k : Kind} : CalmP Q E (P.matchK k) fun t => NumTok t ∧ t.kind = k := by
  intro s hs
  unfold Cal P.matchK
  cases h : s.nt with
  | none => exact (calmP_fail (α := Token) (e := .expected) (Post := fun t => NumTok t ∧ t.kind = k)) s hs
  | some t =>
    dsimp only
    by_cases hk : t.kind = k
    · simp only [hk, ne_eq, not_true, if_false]
      exact (calmP_bind _ calm_advance.rep fun _ _ =>
        calmP_pure (Post := fun t => NumTok t ∧ t.kind = k) ⟨hs.nt t h, hk⟩) s hs
    · simp only [ne_eq, hk, not_false_eq_true, if_true]
      exact (calmP_fail (α := Token) (e := .expected) (Post := fun t => NumTok t ∧ t.kind = k)) s hs

instance {k : Kind} : Calm Q E (P.matchK k) := calmP_matchK.calm

instance {v : String} : Calm Q E (P.matchKw v) := by
  constructor
  intro s hs
  unfold Cal P.matchKw
  cases h : s.nt with
  | none => exact (calmP_fail (α := Token) (e := .expected) (Post := fun _ => True)) s hs
  | some t =>
    dsimp only
    split
    · next he =>
      split at he
      · cases he
      · split at he
        · cases he
        · have := (inferInstance : Calm Q E (P.advance >>= fun _ => pure t)).rep s hs
          unfold Cal at this
          rwa [he] at this
    · next he =>
      split at he
      · cases he; exact hs.errs _
      · split at he
        · cases he; exact hs.errs _
        · have := (inferInstance : Calm Q E (P.advance >>= fun _ => pure t)).rep s hs
          unfold Cal at this
          rwa [he] at this
    · next he =>
      split at he
      · cases he
      · split at he
        · cases he
        · have := (inferInstance : Calm Q E (P.advance >>= fun _ => pure t)).rep s hs
          unfold Cal at this
          rwa [he] at this

instance : Calm Q E P.matchEof := by
  constructor
  intro s hs
  unfold Cal P.matchEof
  cases h : s.nt with
  | none => exact ⟨hs, trivial⟩
  | some t => exact hs.errs _

instance {line k : Nat} : Calm Q E (skipLoop line k) := by
  induction k with
  | zero => unfold skipLoop; calmed
  | succ k ih =>
    constructor
    intro s hs
    have := (inferInstance : Calm Q E (P.advance >>= fun _ => skipLoop line k)).rep s hs
    unfold Cal at this ⊢
    unfold skipLoop
    by_cases h : s.nt.any (fun t => t.line = line) = true
    · simp only [h, if_true]; exact this
    · simp only [h]; exact ⟨hs, trivial⟩

instance : Calm Q E P.skipUntilNewline := by
  constructor
  intro s hs
  cases h : s.ct with
  | none =>
    unfold Cal P.skipUntilNewline
    rw [h]
    exact ⟨hs, trivial⟩
  | some t =>
    have := (inferInstance : Calm Q E (skipLoop t.line (s.toks + 1))).rep s hs
    unfold Cal at this ⊢
    unfold P.skipUntilNewline
    rw [h]
    exact this

/-! ## Names and values -/

instance {n : List Char} {sub : Option (Ent → Bool)} : Calm Q E (P.scopeLookup E n sub) := by
  unfold P.scopeLookup
  refine calm_bind' inferInstance fun s => ?_
  split
  · next h =>
    unfold PS.scope Scope.lookup at h
    split at h
    · next h' => cases h'
    · split at h <;> cases h
  · infer_instance

theorem calmP_invisible {Post : α → Prop} : CalmP Q E (E.invisible : P α) Post := by
  unfold FileEnv.invisible
  refine calmP_ite (fun _ => calmP_fail) fun h s hs => ?_
  exact .inr (.inr (.inr (.inr (.inl ⟨rfl, by simpa using h⟩))))

instance : Calm Q E (E.invisible : P α) := ⟨calmP_invisible⟩

instance {sub : Ent → Bool} : Calm Q E (parseQualifiedName E sub) := by
  unfold parseQualifiedName; calmed

instance : Calm Q E parseBoolean := by unfold parseBoolean; calmed

instance {b : Bool} : Calm Q E (parseNumber b) := by
  unfold parseNumber
  refine calm_bind' inferInstance fun s => calm_bind' inferInstance fun sign => ?_
  refine calm_bind' (calm_cond' ?_ ?_) fun lit => ?_
  · refine ⟨calmP_bind _ calmP_matchK ?_⟩
    rintro t ⟨h1, h2⟩
    obtain ⟨q, hq⟩ := h1.2 h2
    rw [hq]
    exact calmP_pure trivial
  · refine ⟨calmP_bind _ calmP_matchK ?_⟩
    rintro t ⟨h1, h2⟩
    obtain ⟨q, hq⟩ := h1.1 h2
    rw [hq]
    exact calmP_pure trivial
  · calmed

instance {τ : Ty} : Calm Q E (parseReference E τ) := by unfold parseReference; calmed
instance {t : Nat} : Calm Q E (parseEnum E t) := by unfold parseEnum; calmed

instance : Calm Q E (parseMarkup E) := by
  unfold parseMarkup
  refine calm_bind' inferInstance fun t => ?_
  cases h : E.markup t with
  | ok refs => exact calm_pure
  | error => exact calm_fail
  | crash =>
    refine ⟨fun s hs => .inr (.inr (.inr (.inr (.inl ⟨rfl, ?_⟩))))⟩
    cases hr : E.resolved with
    | false => rfl
    | true => exact absurd h (hs.markup hr t)

instance {pv : P PVal} [Calm Q E pv] {k : Nat} {acc : List PVal} : Calm Q E (arrayLoop pv k acc) := by
  induction k generalizing acc with
  | zero => unfold arrayLoop; calmed
  | succ k ih => unfold arrayLoop; calmed

instance {pv : P PVal} [Calm Q E pv] {τ : Ty} {lo : Nat} {hi : Option Nat} :
    Calm Q E (parseArray pv τ lo hi) := by
  unfold parseArray; calmed

instance {sp : Sep} : Calm Q E (P.matchSep sp) := by cases sp <;> (unfold P.matchSep; calmed)

instance {pv : Ty → P PVal} [∀ τ, Calm Q E (pv τ)] {l : List SeqItem} {b : Bool} {d : List (String × PVal)} :
    Calm Q E (sepLoop pv l b d) := by
  induction l generalizing b d with
  | nil => unfold sepLoop; calmed
  | cons i l ih => cases i <;> (unfold sepLoop; calmed)

/-- at the end of the file there is no next token -/
theorem cal_attribute {s : PS} (h : s.nt = none) {Post : α → Prop} :
    Cal Q E (P.crash .attribute : P α) s Post := .inr (.inr (.inr (.inl ⟨rfl, h⟩)))

instance {pv : Ty → P PVal} [∀ τ, Calm Q E (pv τ)] {t : Nat} {cs : List Comp} {seps : List Sep} :
    Calm Q E (parseSepTuple pv t cs seps) := by
  constructor
  intro s hs
  unfold parseSepTuple
  refine cal_get ?_
  split
  · next h => exact cal_attribute (by simpa using h)
  · exact (inferInstance : Calm Q E _).rep s hs

instance {pv : Ty → P PVal} [∀ τ, Calm Q E (pv τ)] {b : Bool} {cs : List Comp} {d : List (String × PVal)} :
    Calm Q E (plainLoop pv b cs d) := by
  induction cs generalizing b d with
  | nil => unfold plainLoop; calmed
  | cons i l ih => unfold plainLoop; calmed

instance {pv : Ty → P PVal} [∀ τ, Calm Q E (pv τ)] {t : Nat} {cs : List Comp} :
    Calm Q E (parsePlainTuple pv t cs) := by unfold parsePlainTuple; calmed

instance {n : Nat} {τ : Ty} : Calm Q E (parseValue E n τ) := by
  induction n generalizing τ with
  | zero => unfold parseValue; calmed
  | succ n ih => cases τ <;> (unfold parseValue; calmed)

end Verif.Lemmas
