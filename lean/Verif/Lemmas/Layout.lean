import Verif.Lemmas.ParseRules
import Verif.Model.Parse.Rsl
/-!
# Two parsers that see the same words in a different layout

`Sims A x y`: started in states that differ only in the positions of the tokens and in the comments between them,
`x` and `y` end in the same way, with results related by `A`.  (Comments count for the bounds of the loops of the
model, so a run that stops because of such a bound is compared with nothing.)
-/
namespace Verif.Lemmas.Layout
open Verif.Model Verif.Lemmas

/-- Tokens of two files that are the same word -/
class SameWord (L : Token → Token → Prop) : Prop where
  kind  : ∀ {t t'}, L t t' → t'.kind = t.kind
  value : ∀ {t t'}, L t t' → t'.value = t.value

/-- The next tokens are the same word. -/
inductive OptLike (L : Token → Token → Prop) : Option Token → Option Token → Prop
  | none : OptLike L none none
  | some {t t'} : L t t' → OptLike L (some t) (some t')

/-- No further words -/
inductive Ends : List LexOut → Prop
  | nil : Ends []
  | eof {r} : Ends (.eof :: r)

/-- What the two lexers will return: the same words, with different comments. -/
inductive RestLike (L : Token → Token → Prop) : List LexOut → List LexOut → Prop
  | stop {r r'} : Ends r → Ends r' → RestLike L r r'
  | tok {t t' r r'} : L t t' → t.kind ≠ .COMMENT → RestLike L r r' → RestLike L (.tok t :: r) (.tok t' :: r')
  | left {t r r'} : t.kind = .COMMENT → RestLike L r r' → RestLike L (.tok t :: r) r'
  | right {t r r'} : t.kind = .COMMENT → RestLike L r r' → RestLike L r (.tok t :: r')
  | error {k a b a' b' r r'} : RestLike L r r' → RestLike L (.error k a b :: r) (.error k a' b' :: r')
  | crash {r r'} : RestLike L r r' → RestLike L (.crash :: r) (.crash :: r')

/-- The state with other tokens in front of the parser -/
def relay (s : PS) (c n : Option Token) (r : List LexOut) : PS := { s with ct := c, nt := n, rest := r }

/-- The states differ in the layout of what is in front of the parser only. -/
inductive Sim (L : Token → Token → Prop) : PS → PS → Prop
  | mk {s c n r} : OptLike L s.nt n → RestLike L s.rest r → Sim L s (relay s c n r)

/-- See the head of this file. -/
inductive ResR (L : Token → Token → Prop) {α β : Type} (A : α → β → Prop) : PR α → PR β → Prop
  | fuelL {s r} : ResR L A (.crash .fuel s) r
  | fuelR {s r} : ResR L A r (.crash .fuel s)
  | ok {a b s s'} : A a b → Sim L s s' → ResR L A (.ok a s) (.ok b s')
  | err {s s'} : Sim L s s' → ResR L A (.err s) (.err s')
  | crash {c s s'} : Sim L s s' → ResR L A (.crash c s) (.crash c s')

/-- See the head of this file. -/
class Sims (L : Token → Token → Prop) {α β : Type} (A : outParam (α → β → Prop)) (x : P α) (y : P β) : Prop where
  sim : ∀ s s', Sim L s s' → ResR L A (x s) (y s')

variable {L : Token → Token → Prop} [hL : SameWord L] {α β γ δ : Type} {A : α → β → Prop} {B : γ → δ → Prop}

theorem text_like {t t' : Token} (h : L t t') : t'.text = t.text := by
  unfold Token.text
  rw [hL.value h]

/-! ## What is seen of the next token -/

section
variable {s : PS} {c n : Option Token} {r : List LexOut}

omit hL in
theorem any_like {p : Token → Bool} (hp : ∀ t t', L t t' → p t' = p t) {a : Option Token} (h : OptLike L a n) :
    n.any p = a.any p := by
  cases h with
  | none => rfl
  | some h => exact hp _ _ h

omit hL in
theorem isNone_like {a : Option Token} (h : OptLike L a n) : n.isNone = a.isNone := by cases h <;> rfl

theorem relay_peek (h : OptLike L s.nt n) (k : Kind) : (relay s c n r).peek k = s.peek k :=
  any_like (fun t t' h => by rw [hL.kind h]) h

theorem relay_peekKw (h : OptLike L s.nt n) (v : String) : (relay s c n r).peekKw v = s.peekKw v :=
  any_like (fun t t' h => by rw [hL.kind h, hL.value h]) h

omit hL in
theorem relay_peekEof (h : OptLike L s.nt n) : (relay s c n r).peekEof = s.peekEof := isNone_like h

theorem relay_peekSep (h : OptLike L s.nt n) (sp : Sep) : (relay s c n r).peekSep sp = s.peekSep sp := by
  cases sp with
  | kind k => exact relay_peek h k
  | ident v => exact any_like (fun t t' h => by rw [hL.kind h, hL.value h]) h

theorem relay_peekOp {α : Type} (h : OptLike L s.nt n) (ops : List (List Char × α)) :
    (relay s c n r).peekOp ops = s.peekOp ops := by
  unfold PS.peekOp relay
  dsimp only
  cases h' : s.nt with
  | none => rw [h'] at h; cases h; rfl
  | some t =>
    rw [h'] at h
    cases h with
    | some h => dsimp only; rw [hL.kind h, text_like h]

theorem relay_tab (p : Nat) : (relay s c n r).tab p = s.tab p := id rfl
theorem relay_scope (E : FileEnv) : (relay s c n r).scope E = s.scope E := id rfl
theorem relay_decls : (relay s c n r).decls = s.decls := id rfl
theorem relay_seps : (relay s c n r).seps = s.seps := id rfl
theorem relay_info (t : Nat) : (relay s c n r).info t = s.info t := id rfl
theorem relay_frozen (t : Nat) (m : String) : (relay s c n r).isFrozen t m = s.isFrozen t m := id rfl
theorem relay_freezing (t : Nat) (m : String) : (relay s c n r).freezing t m = s.freezing t m := id rfl
theorem relay_field (o : Nat) (m : String) : (relay s c n r).field o m = s.field o m := id rfl
theorem relay_resolveRef (τ : Ty) (p : Nat) (m : List Char) :
    (relay s c n r).resolveRef τ p m = s.resolveRef τ p m := id rfl
theorem relay_isSepTuple (τ : Ty) : (relay s c n r).isSepTuple τ = s.isSepTuple τ := by cases τ <;> rfl
theorem relay_nt : (relay s c n r).nt = n := id rfl
end

/-! ## Composition -/

omit hL in
theorem sims_bind {x : P α} {y : P β} {f : α → P γ} {g : β → P δ} (hx : Sims L A x y)
    (hf : ∀ a b, A a b → Sims L B (f a) (g b)) : Sims L B (x >>= f) (y >>= g) := by
  constructor
  intro s s' h
  rw [bind_apply, bind_apply]
  have h1 := hx.sim s s' h
  generalize x s = a at h1 ⊢
  generalize y s' = b at h1 ⊢
  cases h1 with
  | fuelL => exact .fuelL
  | fuelR => exact .fuelR
  | ok h1 h2 => exact (hf _ _ h1).sim _ _ h2
  | err h1 => exact .err h1
  | crash h1 => exact .crash h1

omit hL in
theorem sims_eq {x y : P α} {f : α → P γ} {g : α → P δ} (hx : Sims L Eq x y)
    (hf : ∀ a, Sims L B (f a) (g a)) : Sims L B (x >>= f) (y >>= g) :=
  sims_bind hx fun a b h => by subst h; exact hf a

omit hL in
theorem sims_tok {x y : P Token} {f : Token → P γ} {g : Token → P δ} (hx : Sims L L x y)
    (hf : ∀ t t', L t t' → Sims L B (f t) (g t')) : Sims L B (x >>= f) (y >>= g) :=
  sims_bind hx hf

omit hL in
instance sims_get0 : Sims L (Sim L) P.get P.get := ⟨fun _ _ h => .ok h h⟩

omit hL in
theorem sims_get {f : PS → P γ} {g : PS → P δ}
    (hf : ∀ s c n r, OptLike L s.nt n → RestLike L s.rest r → Sims L B (f s) (g (relay s c n r))) :
    Sims L B (P.get >>= f) (P.get >>= g) :=
  sims_bind sims_get0 fun a b h => by cases h with | mk h1 h2 => exact hf _ _ _ _ h1 h2

omit hL in
instance sims_pure {a : α} : Sims L Eq (pure a : P α) (pure a) := ⟨fun _ _ h => .ok rfl h⟩
omit hL in
theorem sims_pure_tok {a b : Token} (h : L a b) : Sims L L (pure a : P Token) (pure b) := ⟨fun _ _ h' => .ok h h'⟩
omit hL in
instance sims_crash {c : PCrash} : Sims L (Eq (α := α)) (P.crash c : P α) (P.crash c) := ⟨fun _ _ h => .crash h⟩
omit hL in
theorem sims_crash' {c : PCrash} : Sims L A (P.crash c : P α) (P.crash c : P β) := ⟨fun _ _ h => .crash h⟩
omit hL in
theorem sims_fuelL {y : P β} : Sims L A (P.crash .fuel : P α) y := ⟨fun _ _ _ => .fuelL⟩
omit hL in
theorem sims_fuelR {x : P α} : Sims L A x (P.crash .fuel : P β) := ⟨fun _ _ _ => .fuelR⟩

omit hL in
theorem sim_set {s s' : PS} (f : PS → PS) (hf : ∀ s c n r, f (relay s c n r) = relay (f s) c n r)
    (hn : ∀ s, (f s).nt = s.nt) (hr : ∀ s, (f s).rest = s.rest) (h : Sim L s s') : Sim L (f s) (f s') := by
  cases h with
  | mk h1 h2 =>
    rw [hf]
    exact .mk (by rw [hn]; exact h1) (by rw [hr]; exact h2)

omit hL in
theorem sims_fail' {e : PErr} : Sims L A (P.fail e : P α) (P.fail e : P β) :=
  ⟨fun _ _ h => .err (sim_set (fun s => { s with errs := s.errs ++ [e] }) (fun _ _ _ _ => rfl) (fun _ => rfl)
    (fun _ => rfl) h)⟩
omit hL in
instance sims_fail {e : PErr} : Sims L (Eq (α := α)) (P.fail e : P α) (P.fail e) := sims_fail'
omit hL in
instance sims_report {e : PErr} : Sims L Eq (P.report e) (P.report e) :=
  ⟨fun _ _ h => .ok rfl (sim_set (fun s => { s with errs := s.errs ++ [e] }) (fun _ _ _ _ => rfl) (fun _ => rfl)
    (fun _ => rfl) h)⟩
omit hL in
theorem sims_modify (f : PS → PS) (hf : ∀ s c n r, f (relay s c n r) = relay (f s) c n r)
    (hn : ∀ s, (f s).nt = s.nt) (hr : ∀ s, (f s).rest = s.rest) : Sims L Eq (P.modify f) (P.modify f) :=
  ⟨fun _ _ h => .ok rfl (sim_set f hf hn hr h)⟩

omit hL in
theorem sims_ite {p : Prop} {d d' : Decidable p} {x y : P α} {x' y' : P β} (h1 : Sims L A x x')
    (h2 : Sims L A y y') : Sims L A (@ite _ p d x y) (@ite _ p d' x' y') := by
  by_cases hp : p
  · rw [if_pos hp, if_pos hp]; exact h1
  · rw [if_neg hp, if_neg hp]; exact h2
omit hL in
theorem sims_cond {p : Bool} {x y : P α} {x' y' : P β} (h1 : Sims L A x x') (h2 : Sims L A y y') :
    Sims L A (P.cond p x y) (P.cond p x' y') := by
  unfold P.cond; exact sims_ite h1 h2

omit hL in
instance sims_liftSym {r : Except SymErr α} : Sims L Eq (P.liftSym r) (P.liftSym r) := by
  cases r <;> (unfold P.liftSym; infer_instance)

omit hL in
instance sims_liftEl {r : El α} : Sims L Eq (P.liftEl r) (P.liftEl r) := by
  cases r <;> (unfold P.liftEl; infer_instance)

/-! ## The next token is taken -/

omit hL in
theorem advanceLoop_sim {r r' : List LexOut} (h : RestLike L r r') (hk : ∀ {t t'}, L t t' → t'.kind = t.kind)
    {s s' : PS} (hs : ∃ c n r0, s' = relay s c n r0 ∧ OptLike L s.nt n) :
    ResR L Eq (advanceLoop s r) (advanceLoop s' r') := by
  obtain ⟨c, n, r0, rfl, hn⟩ := hs
  induction h with
  | @stop r r' h1 h2 =>
    have e : ∀ {s : PS} {r : List LexOut}, Ends r → advanceLoop s r = .ok () { s with nt := none, rest := [] } := by
      intro s r h
      cases h <;> rfl
    rw [e h1, e h2]
    exact .ok rfl (Sim.mk (s := { s with nt := none, rest := [] }) .none (.stop .nil .nil))
  | tok h1 h2 h3 ih =>
    rw [advanceLoop, advanceLoop, if_neg h2, if_neg (by rw [hk h1]; exact h2)]
    exact .ok rfl (Sim.mk (s := { s with nt := some _, rest := _ }) (.some h1) h3)
  | left h1 h2 ih => rw [advanceLoop, if_pos h1]; exact ih
  | @right t r r' h1 h2 ih =>
    have : advanceLoop (relay s c n r0) (.tok t :: r') = advanceLoop (relay s c n r0) r' := by
      rw [advanceLoop, if_pos h1]
    rw [this]; exact ih
  | @error k a b a' b' r r' h1 ih =>
    exact .err (Sim.mk (s := { s with rest := r, errs := s.errs ++ [.lex k] }) hn h1)
  | @crash r r' h1 ih => exact .crash (Sim.mk (s := { s with rest := r }) hn h1)

instance sims_advance : Sims L Eq P.advance P.advance := by
  constructor
  intro s s' h
  cases h with
  | mk h1 h2 => exact advanceLoop_sim h2 hL.kind ⟨_, _, _, rfl, h1⟩

theorem sims_matchK' {k : Kind} : Sims L (fun t t' => L t t' ∧ t.kind = k) (P.matchK k) (P.matchK k) := by
  constructor
  intro s s' h
  cases h with
  | @mk c n r h1 h2 =>
    unfold P.matchK
    rw [relay_nt]
    have hs : Sim L s (relay s c n r) := .mk h1 h2
    cases hn : s.nt with
    | none => rw [hn] at h1; cases h1; exact (sims_fail' (L := L)).sim _ _ hs
    | some t =>
      rw [hn] at h1
      cases h1 with
      | some h1 =>
        dsimp only
        rw [hL.kind h1]
        split
        · exact (sims_fail' (L := L)).sim _ _ hs
        · next hk =>
          refine (sims_bind sims_advance fun _ _ _ => ?_).sim _ _ hs
          exact ⟨fun _ _ h' => .ok ⟨h1, Classical.not_not.1 hk⟩ h'⟩

instance sims_matchK {k : Kind} : Sims L L (P.matchK k) (P.matchK k) := by
  constructor
  intro s s' h
  have h1 := (sims_matchK' (L := L) (k := k)).sim s s' h
  generalize P.matchK k s = a at h1 ⊢
  generalize P.matchK k s' = b at h1 ⊢
  cases h1 with
  | fuelL => exact .fuelL
  | fuelR => exact .fuelR
  | ok h1 h2 => exact .ok h1.1 h2
  | err h => exact .err h
  | crash h => exact .crash h

instance sims_matchKw {v : String} : Sims L L (P.matchKw v) (P.matchKw v) := by
  constructor
  intro s s' h
  cases h with
  | @mk c n r h1 h2 =>
    unfold P.matchKw
    rw [relay_nt]
    have hs : Sim L s (relay s c n r) := .mk h1 h2
    cases hn : s.nt with
    | none => rw [hn] at h1; cases h1; exact (sims_fail' (L := L)).sim _ _ hs
    | some t =>
      rw [hn] at h1
      cases h1 with
      | some h1 =>
        dsimp only
        rw [hL.kind h1, hL.value h1]
        split
        · exact (sims_fail' (L := L)).sim _ _ hs
        · split
          · exact (sims_fail' (L := L)).sim _ _ hs
          · exact (sims_bind sims_advance fun _ _ _ => sims_pure_tok h1).sim _ _ hs

omit hL in
instance sims_matchEof : Sims L Eq P.matchEof P.matchEof := by
  constructor
  intro s s' h
  cases h with
  | @mk c n r h1 h2 =>
    unfold P.matchEof
    rw [relay_nt]
    have hs : Sim L s (relay s c n r) := .mk h1 h2
    cases hn : s.nt with
    | none => rw [hn] at h1; cases h1; exact .ok rfl hs
    | some t => rw [hn] at h1; cases h1; exact (sims_fail' (L := L)).sim _ _ hs

/-- Composition along the structure of the program -/
macro "sims" : tactic => `(tactic| repeat' (first
  | with_reducible exact inferInstance
  | (with_reducible refine sims_get fun s c n r hn hr => ?_)
    try simp only [relay_peek hn, relay_peekKw hn, relay_peekEof hn, relay_peekSep hn, relay_peekOp hn, relay_tab,
      relay_scope, relay_decls, relay_seps, relay_info, relay_frozen, relay_freezing, relay_field, relay_resolveRef,
      relay_isSepTuple, relay_nt, isNone_like hn]
  | (with_reducible refine sims_tok inferInstance fun t t' ht => ?_)
    try simp only [SameWord.kind ht, SameWord.value ht, text_like ht]
  | with_reducible refine sims_eq ?_ fun _ => ?_
  | with_reducible apply sims_ite
  | with_reducible apply sims_cond
  | with_reducible exact sims_fail'
  | with_reducible exact sims_crash'
  | with_reducible exact sims_pure_tok (by assumption)
  | split))

/-! ## Names and values -/

/-- The environment of the other file: only the markup strings are at other places. -/
abbrev re (E : FileEnv) (m : Token → MarkupOut) : FileEnv := { E with markup := m }

/-- The same markup strings in the other file -/
class SameMarkup (L : Token → Token → Prop) (E : FileEnv) (m : Token → MarkupOut) : Prop where
  markup : ∀ {t t'}, L t t' → t.kind = .STRING → m t' = E.markup t

variable {E : FileEnv} {m : Token → MarkupOut}

omit hL in
instance {n : List Char} {sub : Option (Ent → Bool)} :
    Sims L Eq (P.scopeLookup E n sub) (P.scopeLookup (re E m) n sub) := by
  unfold P.scopeLookup
  refine sims_get fun s c n' r _ _ => ?_
  have h : (relay s c n' r).scope (re E m) = s.scope E := rfl
  rw [h]
  split <;> infer_instance

omit hL in
theorem sims_invisible : Sims L A (E.invisible : P α) ((re E m).invisible : P β) := by
  unfold FileEnv.invisible
  exact sims_ite sims_fail' sims_crash'

instance {sub : Ent → Bool} : Sims L Eq (parseQualifiedName E sub) (parseQualifiedName (re E m) sub) := by
  unfold parseQualifiedName
  have hv : ∀ p, (re E m).isVisible p = E.isVisible p := fun _ => rfl
  simp only [hv]
  sims
  exact sims_invisible

instance : Sims L Eq parseBoolean parseBoolean := by unfold parseBoolean; sims

theorem sims_sign {s : PS} {n : Option Token} (hn : OptLike L s.nt n) :
    (n.any fun t => decide (t.kind = .OPERATOR ∧ (t.text = ['+'] ∨ t.text = ['-']))) =
      s.nt.any fun t => decide (t.kind = .OPERATOR ∧ (t.text = ['+'] ∨ t.text = ['-'])) :=
  any_like (fun t t' h => by rw [hL.kind h, text_like h]) hn

instance {b : Bool} : Sims L Eq (parseNumber b) (parseNumber b) := by
  unfold parseNumber
  refine sims_get fun s c n r hn hr => ?_
  rw [relay_nt, sims_sign hn]
  sims

instance {τ : Ty} : Sims L Eq (parseReference E τ) (parseReference (re E m) τ) := by
  unfold parseReference
  have hv : ∀ p, (re E m).isVisible p = E.isVisible p := fun _ => rfl
  simp only [hv]
  sims
  exact sims_invisible

instance {t : Nat} : Sims L Eq (parseEnum E t) (parseEnum (re E m) t) := by unfold parseEnum; sims

instance [hm : SameMarkup L E m] : Sims L Eq (parseMarkup E) (parseMarkup (re E m)) := by
  unfold parseMarkup
  refine sims_bind sims_matchK' fun t t' ht => ?_
  rw [show (re E m).markup t' = E.markup t from hm.markup ht.1 ht.2, text_like ht.1]
  sims

theorem sims_arrayLoop {pv pv' : P PVal} [h : Sims L Eq pv pv'] : ∀ (k k' : Nat) (acc : List PVal),
    Sims L Eq (arrayLoop pv k acc) (arrayLoop pv' k' acc)
  | 0, _, _ => sims_fuelL
  | _ + 1, 0, _ => sims_fuelR
  | k + 1, k' + 1, acc => by
    have ih := fun a => sims_arrayLoop (pv := pv) (pv' := pv') k k' a
    unfold arrayLoop
    sims

instance {pv pv' : P PVal} [h : Sims L Eq pv pv'] {k k' : Nat} {acc : List PVal} :
    Sims L Eq (arrayLoop pv k acc) (arrayLoop pv' k' acc) := sims_arrayLoop k k' acc

instance {pv pv' : P PVal} [h : Sims L Eq pv pv'] {τ : Ty} {lo : Nat} {hi : Option Nat} :
    Sims L Eq (parseArray pv τ lo hi) (parseArray pv' τ lo hi) := by
  unfold parseArray; sims

instance {sp : Sep} : Sims L L (P.matchSep sp) (P.matchSep sp) := by
  cases sp <;> (unfold P.matchSep; infer_instance)

theorem sims_sepLoop {pv pv' : Ty → P PVal} [h : ∀ τ, Sims L Eq (pv τ) (pv' τ)] :
    ∀ (items : List SeqItem) (b : Bool) (d : List (String × PVal)),
    Sims L Eq (sepLoop pv items b d) (sepLoop pv' items b d)
  | [], _, _ => by unfold sepLoop; infer_instance
  | .comp c :: items, b, d => by
    have ih := fun b d => sims_sepLoop (pv := pv) (pv' := pv') items b d
    unfold sepLoop
    sims
  | .sep sp :: items, b, d => by
    have ih := fun b d => sims_sepLoop (pv := pv) (pv' := pv') items b d
    unfold sepLoop
    sims

instance {pv pv' : Ty → P PVal} [h : ∀ τ, Sims L Eq (pv τ) (pv' τ)] {items : List SeqItem} {b : Bool}
    {d : List (String × PVal)} : Sims L Eq (sepLoop pv items b d) (sepLoop pv' items b d) := sims_sepLoop items b d

instance {pv pv' : Ty → P PVal} [h : ∀ τ, Sims L Eq (pv τ) (pv' τ)] {t : Nat} {cs : List Comp} {seps : List Sep} :
    Sims L Eq (parseSepTuple pv t cs seps) (parseSepTuple pv' t cs seps) := by
  unfold parseSepTuple; sims

theorem sims_plainLoop {pv pv' : Ty → P PVal} [h : ∀ τ, Sims L Eq (pv τ) (pv' τ)] :
    ∀ (b : Bool) (cs : List Comp) (d : List (String × PVal)),
    Sims L Eq (plainLoop pv b cs d) (plainLoop pv' b cs d)
  | _, [], _ => by unfold plainLoop; infer_instance
  | b, c :: cs, d => by
    have ih := fun b d => sims_plainLoop (pv := pv) (pv' := pv') b cs d
    unfold plainLoop
    sims

instance {pv pv' : Ty → P PVal} [h : ∀ τ, Sims L Eq (pv τ) (pv' τ)] {b : Bool} {cs : List Comp}
    {d : List (String × PVal)} : Sims L Eq (plainLoop pv b cs d) (plainLoop pv' b cs d) := sims_plainLoop b cs d

instance {pv pv' : Ty → P PVal} [h : ∀ τ, Sims L Eq (pv τ) (pv' τ)] {t : Nat} {cs : List Comp} :
    Sims L Eq (parsePlainTuple pv t cs) (parsePlainTuple pv' t cs) := by
  unfold parsePlainTuple; sims

theorem sims_parseValue [hm : SameMarkup L E m] : ∀ (k : Nat) (τ : Ty),
    Sims L Eq (parseValue E k τ) (parseValue (re E m) k τ)
  | 0, _ => sims_fuelL
  | k + 1, τ => by
    have ih := fun τ => sims_parseValue k τ
    cases τ <;> (unfold parseValue; sims)

instance [hm : SameMarkup L E m] {k : Nat} {τ : Ty} : Sims L Eq (parseValue E k τ) (parseValue (re E m) k τ) :=
  sims_parseValue k τ

end Verif.Lemmas.Layout
