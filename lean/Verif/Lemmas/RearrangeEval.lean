import Verif.Spec.Checks
/-!
# Evaluation does not depend on the numbers of objects and nodes
-/
namespace Verif.Lemmas.Rearrange
open Verif.Model Verif.Spec

/-! ### The same values, with other numbers -/

mutual
/-- the same value expression; `P` says which object of the second run stands for one of the first -/
def FSame (P : Nat → Nat → Prop) : FExpr → FExpr → Prop
  | .inull, f => f = .inull
  | .bool b, f => f = .bool b
  | .int i, f => f = .int i
  | .dec q, f => f = .dec q
  | .str v, f => f = .str v
  | .markup v, f => f = .markup v
  | .enum t l, f => f = .enum t l
  | .neg e, f => ∃ g, f = .neg g ∧ FSame P e g
  | .pos e, f => ∃ g, f = .pos g ∧ FSame P e g
  | .arr t es, f => ∃ gs, f = .arr t gs ∧ FSames P es gs
  | .tup t fs, f => ∃ gs, f = .tup t gs ∧ FSameFields P fs gs
  | .ref t i, f => ∃ j, f = .ref t j ∧ ((i = none ∧ j = none) ∨ ∃ a b, i = some a ∧ j = some b ∧ P a b)

/-- … for all elements -/
def FSames (P : Nat → Nat → Prop) : List FExpr → List FExpr → Prop
  | [], gs => gs = []
  | e :: es, gs => ∃ g hs, gs = g :: hs ∧ FSame P e g ∧ FSames P es hs

/-- … for all fields -/
def FSameFields (P : Nat → Nat → Prop) : List (String × FExpr) → List (String × FExpr) → Prop
  | [], gs => gs = []
  | f :: fs, gs => ∃ g hs, gs = g :: hs ∧ FSameField P f g ∧ FSameFields P fs hs

/-- … for one field -/
def FSameField (P : Nat → Nat → Prop) : String × FExpr → String × FExpr → Prop
  | (n, e), g => g.1 = n ∧ FSame P e g.2
end

/-- both nothing, or related -/
def OptSame {α β : Type} (R : α → β → Prop) (a : Option α) (b : Option β) : Prop :=
  (a = none ∧ b = none) ∨ ∃ x y, a = some x ∧ b = some y ∧ R x y

/-- the same heap, with other numbers -/
structure Corr (P : Nat → Nat → Prop) (H H' : Nat → Option Fields) : Prop where
  heap : ∀ {i j}, P i j → OptSame (fun fs fs' => ∀ k, OptSame (fun n m => FSame P n.expr m.expr) (fs.lookup k) (fs'.lookup k))
    (H i) (H' j)
  eq : ∀ {i j i' j' fs fs' gs gs'}, P i i' → P j j' → H i = some fs → H' i' = some fs' → H j = some gs → H' j' = some gs' →
    fieldsEq fs gs = fieldsEq fs' gs'

/-- a context with the same values -/
def CtxSame (P : Nat → Nat → Prop) (c c' : List (String × FExpr)) : Prop :=
  ∀ k, OptSame (FSame P) (c.lookup k) (c'.lookup k)

section
variable (P : Nat → Nat → Prop) (H H' : Nat → Option Fields)

mutual
/-- the same value -/
def VSame : Val → Val → Prop
  | .null, v => v = .null
  | .bool b, v => v = .bool b
  | .int i, v => v = .int i
  | .dec q, v => v = .dec q
  | .str s, v => v = .str s
  | .enum t l, v => v = .enum t l
  | .arr es, v => ∃ es', v = .arr es' ∧ VSames es es'
  | .tup fs, v => ∃ fs', v = .tup fs' ∧ VSameFields fs fs'
  | .recv fs, v => ∃ fs' i j, v = .recv fs' ∧ P i j ∧ H i = some fs ∧ H' j = some fs'

/-- … with its type -/
def PairSame : Option Ty × Val → Option Ty × Val → Prop
  | (t, v), w => w.1 = t ∧ VSame v w.2

/-- … for all elements -/
def VSames : List (Option Ty × Val) → List (Option Ty × Val) → Prop
  | [], gs => gs = []
  | e :: es, gs => ∃ g hs, gs = g :: hs ∧ PairSame e g ∧ VSames es hs

/-- … for all fields -/
def VSameFields : List (String × Option Ty × Val) → List (String × Option Ty × Val) → Prop
  | [], gs => gs = []
  | f :: fs, gs => ∃ g hs, gs = g :: hs ∧ VSameField f g ∧ VSameFields fs hs

/-- … for one field -/
def VSameField : String × Option Ty × Val → String × Option Ty × Val → Prop
  | (n, e), g => g.1 = n ∧ PairSame e g.2
end
end

/-- the same result -/
inductive EvSame {α β : Type} (R : α → β → Prop) : Ev α → Ev β → Prop
  | ok {a b} : R a b → EvSame R (.ok a) (.ok b)
  | err {e} : EvSame R (.err e) (.err e)
  | crash {c} : EvSame R (.crash c) (.crash c)

/-- the same value and type -/
def TVSame (P : Nat → Nat → Prop) (H H' : Nat → Option Fields) (a b : TV) : Prop := b.typ = a.typ ∧ VSame P H H' a.val b.val

theorem EvSame.bind {α β γ δ : Type} {R : α → β → Prop} {S : γ → δ → Prop} {x : Ev α} {y : Ev β} {f : α → Ev γ} {g : β → Ev δ}
    (h : EvSame R x y) (hf : ∀ a b, R a b → EvSame S (f a) (g b)) : EvSame S (x.bind f) (y.bind g) := by
  cases h with
  | ok h => exact hf _ _ h
  | err => exact .err
  | crash => exact .crash

variable {P : Nat → Nat → Prop} {H H' : Nat → Option Fields}

/-- neither an array nor a tuple nor an object -/
def Scalar : Val → Prop
  | .arr _ | .tup _ | .recv _ => False
  | _ => True

theorem vsame_scalar {v w : Val} (h : VSame P H H' v w) (hv : Scalar v) : w = v := by
  cases v <;> first | exact hv.elim | (simp only [VSame] at h; exact h)

theorem vsame_refl {v : Val} (hv : Scalar v) : VSame P H H' v v := by
  cases v <;> first | exact hv.elim | simp [VSame]

theorem vsame_null {v w : Val} (h : VSame P H H' v w) : w.isNull = v.isNull := by
  cases v with
  | arr es => simp only [VSame] at h; obtain ⟨es', rfl, -⟩ := h; rfl
  | tup es => simp only [VSame] at h; obtain ⟨es', rfl, -⟩ := h; rfl
  | recv es => simp only [VSame] at h; obtain ⟨es', i, j, rfl, -⟩ := h; rfl
  | _ => rw [vsame_scalar h trivial]

theorem mk_same {t : Option Ty} {v w : Val} (h : VSame P H H' v w) : EvSame (TVSame P H H') (mkValue t v) (mkValue t w) := by
  unfold mkValue
  rw [vsame_null h]
  split
  · exact .ok ⟨rfl, h⟩
  · exact .crash

theorem mk_scalar {t : Option Ty} {v : Val} (h : Scalar v) : EvSame (TVSame P H H') (mkValue t v) (mkValue t v) :=
  mk_same (vsame_refl h)

theorem vsames_length : ∀ {es es' : List (Option Ty × Val)}, VSames P H H' es es' → es'.length = es.length
  | [], _, h => by simp only [VSames] at h; subst h; rfl
  | e :: es, _, h => by
    simp only [VSames] at h
    obtain ⟨g, hs, rfl, -, h⟩ := h
    simp [vsames_length h]

theorem vsameFields_length : ∀ {es es' : List (String × Option Ty × Val)}, VSameFields P H H' es es' → es'.length = es.length
  | [], _, h => by simp only [VSameFields] at h; subst h; rfl
  | e :: es, _, h => by
    simp only [VSameFields] at h
    obtain ⟨g, hs, rfl, -, h⟩ := h
    simp [vsameFields_length h]

theorem vsameFields_lookup : ∀ {es es' : List (String × Option Ty × Val)}, VSameFields P H H' es es' → ∀ k,
    OptSame (PairSame P H H') (es.lookup k) (es'.lookup k)
  | [], _, h, k => by simp only [VSameFields] at h; subst h; exact .inl ⟨rfl, rfl⟩
  | (n, e) :: es, _, h, k => by
    simp only [VSameFields] at h
    obtain ⟨g, hs, rfl, h1, h⟩ := h
    simp only [VSameField] at h1
    obtain ⟨rfl, h1⟩ := h1
    rw [List.lookup_cons, List.lookup_cons]
    split
    · exact .inr ⟨_, _, rfl, rfl, h1⟩
    · exact vsameFields_lookup h k

theorem vsames_get : ∀ {es es' : List (Option Ty × Val)}, VSames P H H' es es' → ∀ i : Nat,
    OptSame (PairSame P H H') es[i]? es'[i]?
  | [], _, h, i => by simp only [VSames] at h; subst h; exact .inl ⟨rfl, rfl⟩
  | e :: es, _, h, i => by
    simp only [VSames] at h
    obtain ⟨g, hs, rfl, h1, h⟩ := h
    cases i with
    | zero => exact .inr ⟨_, _, rfl, rfl, h1⟩
    | succ i => simpa using vsames_get h i

theorem unary_same {op : UnOp} {t : Option Ty} {v w : TV} (h : TVSame P H H' v w) :
    EvSame (TVSame P H H') (unary op t v) (unary op t w) := by
  obtain ⟨h1, h2⟩ := h
  unfold unary
  rw [vsame_null h2]
  split
  · exact .err
  · generalize v.val = a at h2 ⊢
    generalize w.val = b at h2 ⊢
    cases a with
    | arr es =>
      simp only [VSame] at h2
      obtain ⟨es', rfl, h2⟩ := h2
      cases op with
      | arrLen =>
        simp only [unaryOp]
        rw [vsames_length h2]
        exact mk_scalar trivial
      | _ => exact .crash
    | tup es => simp only [VSame] at h2; obtain ⟨es', rfl, h2⟩ := h2; cases op <;> exact .crash
    | recv es => simp only [VSame] at h2; obtain ⟨es', i, j, rfl, h2⟩ := h2; cases op <;> exact .crash
    | _ =>
      rw [vsame_scalar h2 trivial]
      cases op <;> first | exact mk_scalar trivial | exact .crash

theorem vsame_num {v w : Val} (h : VSame P H H' v w) : w.num = v.num := by
  cases v with
  | arr es => simp only [VSame] at h; obtain ⟨es', rfl, -⟩ := h; rfl
  | tup es => simp only [VSame] at h; obtain ⟨es', rfl, -⟩ := h; rfl
  | recv es => simp only [VSame] at h; obtain ⟨es', i, j, rfl, -⟩ := h; rfl
  | _ => rw [vsame_scalar h trivial]

mutual
theorem pyEq_same (hc : Corr P H H') : (a a' b b' : Val) → VSame P H H' a a' → VSame P H H' b b' → a'.pyEq b' = a.pyEq b
  | .null, a', b, b', ha, hb => by
    cases vsame_scalar ha trivial
    simp only [Val.pyEq]
    exact vsame_null hb
  | .bool x, a', b, b', ha, hb => by
    cases vsame_scalar ha trivial
    simp only [Val.pyEq, vsame_num hb]
  | .int x, a', b, b', ha, hb => by
    cases vsame_scalar ha trivial
    simp only [Val.pyEq, vsame_num hb]
  | .dec x, a', b, b', ha, hb => by
    cases vsame_scalar ha trivial
    simp only [Val.pyEq, vsame_num hb]
  | .str x, a', b, b', ha, hb => by
    cases vsame_scalar ha trivial
    cases b with
    | arr es => simp only [VSame] at hb; obtain ⟨es', rfl, -⟩ := hb; simp only [Val.pyEq]
    | tup es => simp only [VSame] at hb; obtain ⟨es', rfl, -⟩ := hb; simp only [Val.pyEq]
    | recv es => simp only [VSame] at hb; obtain ⟨es', i, j, rfl, -⟩ := hb; simp only [Val.pyEq]
    | _ => rw [vsame_scalar hb trivial]
  | .enum x y, a', b, b', ha, hb => by
    cases vsame_scalar ha trivial
    cases b with
    | arr es => simp only [VSame] at hb; obtain ⟨es', rfl, -⟩ := hb; simp only [Val.pyEq]
    | tup es => simp only [VSame] at hb; obtain ⟨es', rfl, -⟩ := hb; simp only [Val.pyEq]
    | recv es => simp only [VSame] at hb; obtain ⟨es', i, j, rfl, -⟩ := hb; simp only [Val.pyEq]
    | _ => rw [vsame_scalar hb trivial]
  | .arr xs, a', b, b', ha, hb => by
    simp only [VSame] at ha
    obtain ⟨xs', rfl, ha⟩ := ha
    cases b with
    | arr es =>
      simp only [VSame] at hb
      obtain ⟨es', rfl, hb⟩ := hb
      simp only [Val.pyEq]
      exact eqList_same hc xs xs' es es' ha hb
    | tup es => simp only [VSame] at hb; obtain ⟨es', rfl, -⟩ := hb; simp only [Val.pyEq]
    | recv es => simp only [VSame] at hb; obtain ⟨es', i, j, rfl, -⟩ := hb; simp only [Val.pyEq]
    | _ => rw [vsame_scalar hb trivial]; simp only [Val.pyEq]
  | .tup xs, a', b, b', ha, hb => by
    simp only [VSame] at ha
    obtain ⟨xs', rfl, ha⟩ := ha
    cases b with
    | tup es =>
      simp only [VSame] at hb
      obtain ⟨es', rfl, hb⟩ := hb
      simp only [Val.pyEq]
      rw [vsameFields_length ha, vsameFields_length hb, eqFields_same hc xs xs' es es' ha hb]
    | arr es => simp only [VSame] at hb; obtain ⟨es', rfl, -⟩ := hb; simp only [Val.pyEq]
    | recv es => simp only [VSame] at hb; obtain ⟨es', i, j, rfl, -⟩ := hb; simp only [Val.pyEq]
    | _ => rw [vsame_scalar hb trivial]; simp only [Val.pyEq]
  | .recv xs, a', b, b', ha, hb => by
    simp only [VSame] at ha
    obtain ⟨xs', i, j, rfl, h1, h2, h3⟩ := ha
    cases b with
    | recv es =>
      simp only [VSame] at hb
      obtain ⟨es', i', j', rfl, h1', h2', h3'⟩ := hb
      simp only [Val.pyEq]
      exact (hc.eq h1 h1' h2 h3 h2' h3').symm
    | arr es => simp only [VSame] at hb; obtain ⟨es', rfl, -⟩ := hb; simp only [Val.pyEq]
    | tup es => simp only [VSame] at hb; obtain ⟨es', rfl, -⟩ := hb; simp only [Val.pyEq]
    | _ => rw [vsame_scalar hb trivial]; simp only [Val.pyEq]

theorem eqTV_same (hc : Corr P H H') : (a a' b b' : Option Ty × Val) → PairSame P H H' a a' → PairSame P H H' b b' →
    eqTV a' b' = eqTV a b
  | (t, v), (t', v'), (u, w), (u', w'), ha, hb => by
    simp only [PairSame] at ha hb
    obtain ⟨rfl, ha⟩ := ha
    obtain ⟨rfl, hb⟩ := hb
    simp only [eqTV]
    rw [pyEq_same hc v v' w w' ha hb]

theorem eqList_same (hc : Corr P H H') : (a a' b b' : List (Option Ty × Val)) → VSames P H H' a a' → VSames P H H' b b' →
    eqList a' b' = eqList a b
  | [], a', b, b', ha, hb => by
    simp only [VSames] at ha
    subst ha
    cases b with
    | nil => simp only [VSames] at hb; subst hb; rfl
    | cons e es => simp only [VSames] at hb; obtain ⟨g, hs, rfl, -⟩ := hb; simp only [eqList]
  | x :: xs, a', b, b', ha, hb => by
    simp only [VSames] at ha
    obtain ⟨x', xs', rfl, ha1, ha2⟩ := ha
    cases b with
    | nil => simp only [VSames] at hb; subst hb; simp only [eqList]
    | cons e es =>
      simp only [VSames] at hb
      obtain ⟨g, hs, rfl, hb1, hb2⟩ := hb
      simp only [eqList]
      rw [eqTV_same hc x x' e g ha1 hb1, eqList_same hc xs xs' es hs ha2 hb2]

theorem eqFields_same (hc : Corr P H H') : (a a' b b' : List (String × Option Ty × Val)) → VSameFields P H H' a a' →
    VSameFields P H H' b b' → eqFields a' b' = eqFields a b
  | [], a', b, b', ha, hb => by
    simp only [VSameFields] at ha
    subst ha
    simp only [eqFields]
  | x :: xs, a', b, b', ha, hb => by
    simp only [VSameFields] at ha
    obtain ⟨x', xs', rfl, ha1, ha2⟩ := ha
    simp only [eqFields]
    rw [eqField_same hc x x' b b' ha1 hb, eqFields_same hc xs xs' b b' ha2 hb]

theorem eqField_same (hc : Corr P H H') : (a a' : String × Option Ty × Val) → (b b' : List (String × Option Ty × Val)) →
    VSameField P H H' a a' → VSameFields P H H' b b' → eqField a' b' = eqField a b
  | (k, x), (k', x'), b, b', ha, hb => by
    simp only [VSameField] at ha
    obtain ⟨rfl, ha⟩ := ha
    simp only [eqField]
    rcases vsameFields_lookup hb k' with ⟨h1, h2⟩ | ⟨y, y', h1, h2, h3⟩
    · rw [h1, h2]
    · rw [h1, h2]
      exact eqTV_same hc x x' y y' ha h3
end

/-! ### Values of components -/

mutual
theorem feval_same (hc : Corr P H H') : (e f : FExpr) → FSame P e f → EvSame (TVSame P H H') (e.eval H) (f.eval H')
  | .inull, _, h => by simp only [FSame] at h; subst h; exact mk_scalar trivial
  | .bool _, _, h => by simp only [FSame] at h; subst h; exact mk_scalar trivial
  | .int _, _, h => by simp only [FSame] at h; subst h; exact mk_scalar trivial
  | .dec _, _, h => by simp only [FSame] at h; subst h; exact mk_scalar trivial
  | .str _, _, h => by simp only [FSame] at h; subst h; exact mk_scalar trivial
  | .markup _, _, h => by simp only [FSame] at h; subst h; exact mk_scalar trivial
  | .enum _ _, _, h => by simp only [FSame] at h; subst h; exact mk_scalar trivial
  | .neg e, _, h => by
    simp only [FSame] at h
    obtain ⟨g, rfl, h⟩ := h
    simp only [FExpr.eval]
    refine (feval_same hc e g h).bind fun a b hab => ?_
    rw [hab.1]
    exact unary_same hab
  | .pos e, _, h => by
    simp only [FSame] at h
    obtain ⟨g, rfl, h⟩ := h
    simp only [FExpr.eval]
    refine (feval_same hc e g h).bind fun a b hab => ?_
    rw [hab.1]
    exact unary_same hab
  | .arr t es, _, h => by
    simp only [FSame] at h
    obtain ⟨gs, rfl, h⟩ := h
    simp only [FExpr.eval]
    exact (evalElems_same hc es gs h).bind fun a b hab => mk_same (by simp only [VSame]; exact ⟨b, rfl, hab⟩)
  | .tup t es, _, h => by
    simp only [FSame] at h
    obtain ⟨gs, rfl, h⟩ := h
    simp only [FExpr.eval]
    exact (evalFields_same hc es gs h).bind fun a b hab => mk_same (by simp only [VSame]; exact ⟨b, rfl, hab⟩)
  | .ref t i, _, h => by
    simp only [FSame] at h
    obtain ⟨j, rfl, ⟨rfl, rfl⟩ | ⟨a, b, rfl, rfl, h⟩⟩ := h
    · simp only [FExpr.eval]
      exact .crash
    · simp only [FExpr.eval]
      rcases hc.heap h with ⟨h1, h2⟩ | ⟨fs, fs', h1, h2, -⟩
      · rw [h1, h2]
        exact .crash
      · rw [h1, h2]
        exact mk_same (by simp only [VSame]; exact ⟨fs', a, b, rfl, h, h1, h2⟩)

theorem evalElems_same (hc : Corr P H H') : (es fs : List FExpr) → FSames P es fs →
    EvSame (VSames P H H') (evalElems H es) (evalElems H' fs)
  | [], _, h => by
    simp only [FSames] at h
    subst h
    simp only [evalElems]
    exact .ok (by simp only [VSames])
  | e :: es, _, h => by
    simp only [FSames] at h
    obtain ⟨g, hs, rfl, h1, h2⟩ := h
    simp only [evalElems]
    refine (feval_same hc e g h1).bind fun a b hab => (evalElems_same hc es hs h2).bind fun as bs habs => .ok ?_
    simp only [VSames, PairSame]
    exact ⟨_, _, rfl, ⟨hab.1, hab.2⟩, habs⟩

theorem evalFields_same (hc : Corr P H H') : (es fs : List (String × FExpr)) → FSameFields P es fs →
    EvSame (VSameFields P H H') (evalFields H es) (evalFields H' fs)
  | [], _, h => by
    simp only [FSameFields] at h
    subst h
    simp only [evalFields]
    exact .ok (by simp only [VSameFields])
  | e :: es, _, h => by
    simp only [FSameFields] at h
    obtain ⟨g, hs, rfl, h1, h2⟩ := h
    simp only [evalFields]
    refine (evalField_same hc e g h1).bind fun a b hab => (evalFields_same hc es hs h2).bind fun as bs habs => .ok ?_
    simp only [VSameFields]
    exact ⟨_, _, rfl, hab, habs⟩

theorem evalField_same (hc : Corr P H H') : (e f : String × FExpr) → FSameField P e f →
    EvSame (VSameField P H H') (evalField H e) (evalField H' f)
  | (n, e), (n', f), h => by
    simp only [FSameField] at h
    obtain ⟨rfl, h⟩ := h
    simp only [evalField]
    refine (feval_same hc e f h).bind fun a b hab => .ok ?_
    simp only [VSameField, PairSame]
    exact ⟨trivial, hab⟩
end

/-! ### Expressions -/

/-- what operators on plain values can see of a value -/
def shape : Val → Val
  | .arr _ => .arr []
  | .tup _ => .tup []
  | .recv _ => .recv []
  | v => v

theorem shape_same {v w : Val} (h : VSame P H H' v w) : shape w = shape v := by
  cases v with
  | arr es => simp only [VSame] at h; obtain ⟨es', rfl, -⟩ := h; rfl
  | tup es => simp only [VSame] at h; obtain ⟨es', rfl, -⟩ := h; rfl
  | recv es => simp only [VSame] at h; obtain ⟨es', i, j, rfl, -⟩ := h; rfl
  | _ => rw [vsame_scalar h trivial]

theorem any_same (hc : Corr P H H') {a a' : Option Ty × Val} (ha : PairSame P H H' a a') :
    ∀ {es es' : List (Option Ty × Val)}, VSames P H H' es es' → (es'.any fun e => eqTV a' e) = es.any fun e => eqTV a e
  | [], _, h => by simp only [VSames] at h; subst h; rfl
  | e :: es, _, h => by
    simp only [VSames] at h
    obtain ⟨g, hs, rfl, h1, h2⟩ := h
    simp only [List.any_cons]
    rw [eqTV_same hc a a' e g ha h1, any_same hc ha h2]

/-- the operators that work on plain values only -/
def plainOp : BinOp → Bool
  | .eq | .neq | .arrContains | .index => false
  | _ => true

theorem plain_shape {rx : List Char → List Char → Bool} {op : BinOp} (h : plainOp op = true) {t : Option Ty} (l r : TV) :
    binaryOp rx op t l r = binaryOp rx op t ⟨none, shape l.val⟩ ⟨none, shape r.val⟩ := by
  obtain ⟨tl, l⟩ := l
  obtain ⟨tr, r⟩ := r
  cases op <;> first | (cases h; done) | (cases l <;> cases r <;> rfl)

theorem arith_scalar {t : Option Ty} {fi : Int → Int → Int} {fq : Rat → Rat → Rat} {l r : Val} :
    EvSame (TVSame P H H') (arith t fi fq l r) (arith t fi fq l r) := by
  unfold arith
  split
  · exact mk_scalar trivial
  · exact mk_scalar trivial
  · exact .crash

theorem plain_scalar {rx : List Char → List Char → Bool} {op : BinOp} (h : plainOp op = true) {t : Option Ty} (l r : TV) :
    EvSame (TVSame P H H') (binaryOp rx op t l r) (binaryOp rx op t l r) := by
  cases op <;> first
    | (cases h; done)
    | (simp only [binaryOp]
       repeat' split
       all_goals first | exact mk_scalar trivial | exact .crash | exact .err | exact arith_scalar)

theorem binary_same (hc : Corr P H H') {rx : List Char → List Char → Bool} {op : BinOp} {t : Option Ty} {l l' r r' : TV}
    (hl : TVSame P H H' l l') (hr : TVSame P H H' r r') :
    EvSame (TVSame P H H') (binaryOp rx op t l r) (binaryOp rx op t l' r') := by
  cases hp : plainOp op with
  | true =>
    rw [plain_shape hp l' r', shape_same hl.2, shape_same hr.2, ← plain_shape hp l r]
    exact plain_scalar hp l r
  | false =>
    cases op <;> first | (cases hp; done) | skip
    · simp only [binaryOp]
      rw [pyEq_same hc _ _ _ _ hl.2 hr.2]
      exact mk_scalar trivial
    · simp only [binaryOp]
      rw [pyEq_same hc _ _ _ _ hl.2 hr.2]
      exact mk_scalar trivial
    · obtain ⟨tr, rv⟩ := r
      obtain ⟨tr', rv'⟩ := r'
      obtain ⟨rfl, hr⟩ := hr
      dsimp only at hr
      simp only [binaryOp]
      cases rv with
      | arr es =>
        simp only [VSame] at hr
        obtain ⟨es', rfl, hr⟩ := hr
        dsimp only
        rw [any_same hc (a := (l.typ, l.val)) (a' := (l'.typ, l'.val)) (by simp only [PairSame]; exact hl) hr]
        exact mk_scalar trivial
      | tup es => simp only [VSame] at hr; obtain ⟨es', rfl, -⟩ := hr; exact .crash
      | recv es => simp only [VSame] at hr; obtain ⟨es', i, j, rfl, -⟩ := hr; exact .crash
      | _ => rw [vsame_scalar hr trivial]; exact .crash
    · obtain ⟨tl, lv⟩ := l
      obtain ⟨tl', lv'⟩ := l'
      obtain ⟨rfl, hl⟩ := hl
      obtain ⟨tr, rv⟩ := r
      obtain ⟨tr', rv'⟩ := r'
      obtain ⟨rfl, hr⟩ := hr
      dsimp only at hr hl
      simp only [binaryOp]
      have hrs := shape_same hr
      cases lv with
      | arr es =>
        simp only [VSame] at hl
        obtain ⟨es', rfl, hl⟩ := hl
        cases rv with
        | int i =>
          cases vsame_scalar hr trivial
          unfold indexOp
          dsimp only
          rw [vsames_length hl]
          split
          · split
            · exact .err
            · split
              · exact .err
              · split
                · exact .err
                · rcases vsames_get hl i.toNat with ⟨h1, h2⟩ | ⟨x, y, h1, h2, h3⟩
                  · rw [h1, h2]
                    exact .crash
                  · rw [h1, h2]
                    obtain ⟨tx, x⟩ := x
                    simp only [PairSame] at h3
                    exact mk_same h3.2
          · exact .crash
        | arr es => simp only [VSame] at hr; obtain ⟨es', rfl, -⟩ := hr; exact .crash
        | tup es => simp only [VSame] at hr; obtain ⟨es', rfl, -⟩ := hr; exact .crash
        | recv es => simp only [VSame] at hr; obtain ⟨es', i, j, rfl, -⟩ := hr; exact .crash
        | _ => rw [vsame_scalar hr trivial]; exact .crash
      | tup es => simp only [VSame] at hl; obtain ⟨es', rfl, -⟩ := hl; exact .crash
      | recv es => simp only [VSame] at hl; obtain ⟨es', i, j, rfl, -⟩ := hl; exact .crash
      | _ => rw [vsame_scalar hl trivial]; exact .crash

theorem quantLoop_same {u : Bool} {f f' : FExpr → Ev TV} (hf : ∀ e e', FSame P e e' → EvSame (TVSame P H H') (f e) (f' e')) :
    ∀ {es es' : List FExpr}, FSames P es es' → EvSame (TVSame P H H') (quantLoop u f es) (quantLoop u f' es')
  | [], _, h => by
    simp only [FSames] at h
    subst h
    simp only [quantLoop]
    exact mk_scalar trivial
  | e :: es, _, h => by
    simp only [FSames] at h
    obtain ⟨g, hs, rfl, h1, h2⟩ := h
    simp only [quantLoop]
    refine (hf e g h1).bind fun a b hab => ?_
    obtain ⟨ta, a⟩ := a
    obtain ⟨tb, b⟩ := b
    obtain ⟨-, hab⟩ := hab
    dsimp only at hab
    cases a with
    | bool x =>
      cases vsame_scalar hab trivial
      dsimp only
      split
      · exact mk_scalar trivial
      · split
        · exact mk_scalar trivial
        · exact quantLoop_same hf h2
    | arr es => simp only [VSame] at hab; obtain ⟨es', rfl, -⟩ := hab; exact .crash
    | tup es => simp only [VSame] at hab; obtain ⟨es', rfl, -⟩ := hab; exact .crash
    | recv es => simp only [VSame] at hab; obtain ⟨es', i, j, rfl, -⟩ := hab; exact .crash
    | _ => rw [vsame_scalar hab trivial]; exact .crash

/-- the same values, in a list -/
def ValsSame (P : Nat → Nat → Prop) (H H' : Nat → Option Fields) (vs ws : List Val) : Prop := List.Forall₂ (VSame P H H') vs ws

theorem countTrue_same (hc : Corr P H H') {vs ws : List Val} (h : ValsSame P H H' vs ws) : countTrue ws = countTrue vs := by
  unfold ValsSame at h
  induction h with
  | nil => rfl
  | cons h1 _ ih =>
    simp only [countTrue]
    rw [pyEq_same hc _ _ (.bool true) (.bool true) h1 (vsame_refl trivial), ih]

theorem ctx_cons {c c' : List (String × FExpr)} (h : CtxSame P c c') {x : String} {b b' : FExpr} (hb : FSame P b b') :
    CtxSame P ((x, b) :: c) ((x, b') :: c') := by
  intro k
  rw [List.lookup_cons, List.lookup_cons]
  split
  · exact .inr ⟨_, _, rfl, rfl, hb⟩
  · exact h k

variable {rx : List Char → List Char → Bool}

/-- the bool in a value, if there is one -/
theorem bool_cases {a b : Val} (h : VSame P H H' a b) : (∃ x, a = .bool x ∧ b = .bool x) ∨ ((∀ x, a ≠ .bool x) ∧ ∀ x, b ≠ .bool x) := by
  cases a with
  | bool x => exact .inl ⟨x, rfl, vsame_scalar h trivial⟩
  | arr es => simp only [VSame] at h; obtain ⟨es', rfl, -⟩ := h; exact .inr ⟨fun _ => nofun, fun _ => nofun⟩
  | tup es => simp only [VSame] at h; obtain ⟨es', rfl, -⟩ := h; exact .inr ⟨fun _ => nofun, fun _ => nofun⟩
  | recv es => simp only [VSame] at h; obtain ⟨es', i, j, rfl, -⟩ := h; exact .inr ⟨fun _ => nofun, fun _ => nofun⟩
  | _ => rw [vsame_scalar h trivial]; exact .inr ⟨fun _ => nofun, fun _ => nofun⟩

/-- the last step of a membership test in a range -/
def rangeOf (x y z : Val) : Ev TV :=
  match x, y, z with
  | .int a, .int x, .int b => mkValue (some .bool) (.bool (decide (a ≤ x) && decide (x ≤ b)))
  | .dec a, .dec x, .dec b => mkValue (some .bool) (.bool (decide (a ≤ x) && decide (x ≤ b)))
  | _, _, _ => .crash .operand

theorem rangeOf_shape (x y z : Val) : rangeOf x y z = rangeOf (shape x) (shape y) (shape z) := by
  cases x <;> cases y <;> first | rfl | (cases z <;> rfl)

mutual
theorem eval_same (hc : Corr P H H') : (e : Expr) → (c c' : List (String × FExpr)) → CtxSame P c c' →
    EvSame (TVSame P H H') (e.eval ⟨H, rx⟩ (some c)) (e.eval ⟨H', rx⟩ (some c'))
  | .null, _, _, _ => by simp only [Expr.eval]; exact mk_scalar trivial
  | .bool _, _, _, _ => by simp only [Expr.eval]; exact mk_scalar trivial
  | .int _, _, _, _ => by simp only [Expr.eval]; exact mk_scalar trivial
  | .dec _, _, _, _ => by simp only [Expr.eval]; exact mk_scalar trivial
  | .str _, _, _, _ => by simp only [Expr.eval]; exact mk_scalar trivial
  | .enum _ _, _, _, _ => by simp only [Expr.eval]; exact mk_scalar trivial
  | .name n _, c, c', h => by
    simp only [Expr.eval]
    rcases h n with ⟨h1, h2⟩ | ⟨x, y, h1, h2, h3⟩
    · rw [h1, h2]
      exact .crash
    · rw [h1, h2]
      exact feval_same hc x y h3
  | .unary t op e, c, c', h => by
    simp only [Expr.eval]
    exact (eval_same hc e c c' h).bind fun a b hab => unary_same hab
  | .binary t op l r, c, c', h => by
    simp only [Expr.eval]
    refine (eval_same hc l c c' h).bind fun a b hab => ?_
    rw [vsame_null hab.2]
    split
    · exact .err
    · refine (eval_same hc r c c' h).bind fun a' b' hab' => ?_
      rw [vsame_null hab'.2]
      split
      · exact .err
      · exact binary_same hc hab hab'
  | .logic op l r, c, c', h => by
    simp only [Expr.eval]
    refine (eval_same hc l c c' h).bind fun a b hab => ?_
    rw [vsame_null hab.2]
    split
    · exact .err
    · obtain ⟨ta, av⟩ := a
      obtain ⟨tb, bv⟩ := b
      have h2 := hab.2
      dsimp only at h2
      cases av with
      | bool x =>
        cases vsame_scalar h2 trivial
        cases op <;> cases x <;> first | exact eval_same hc r c c' h | exact .ok hab | exact mk_scalar (t := some .bool) (v := .bool true) trivial
      | arr es => simp only [VSame] at h2; obtain ⟨es', rfl, -⟩ := h2; exact .crash
      | tup es => simp only [VSame] at h2; obtain ⟨es', rfl, -⟩ := h2; exact .crash
      | recv es => simp only [VSame] at h2; obtain ⟨es', i, j, rfl, -⟩ := h2; exact .crash
      | _ => cases vsame_scalar h2 trivial; exact .crash
  | .field p n _, c, c', h => by
    simp only [Expr.eval]
    refine (eval_same hc p c c' h).bind fun a b hab => ?_
    obtain ⟨ta, av⟩ := a
    obtain ⟨tb, bv⟩ := b
    have h2 := hab.2
    dsimp only at h2 ⊢
    cases av with
    | null => cases vsame_scalar h2 trivial; exact .err
    | tup es =>
      simp only [VSame] at h2
      obtain ⟨es', rfl, h2⟩ := h2
      dsimp only
      rcases vsameFields_lookup h2 n with ⟨h3, h4⟩ | ⟨x, y, h3, h4, h5⟩
      · rw [h3, h4]
        exact mk_scalar trivial
      · rw [h3, h4]
        obtain ⟨tx, x⟩ := x
        simp only [PairSame] at h5
        exact .ok h5
    | recv es =>
      simp only [VSame] at h2
      obtain ⟨es', i, j, rfl, h2, h3, h4⟩ := h2
      dsimp only
      rcases hc.heap h2 with ⟨h5, -⟩ | ⟨fs, fs', h5, h6, h7⟩
      · rw [h3] at h5
        cases h5
      · rw [h3] at h5
        rw [h4] at h6
        cases h5
        cases h6
        rcases h7 n with ⟨k1, k2⟩ | ⟨x, y, k1, k2, k3⟩
        · rw [k1, k2]
          exact mk_scalar trivial
        · rw [k1, k2]
          exact feval_same hc x.expr y.expr k3
    | arr es => simp only [VSame] at h2; obtain ⟨es', rfl, -⟩ := h2; exact .crash
    | _ => cases vsame_scalar h2 trivial; exact .crash
  | .range e lo up, c, c', h => by
    simp only [Expr.eval]
    refine (eval_same hc e c c' h).bind fun a b hab => ?_
    rw [vsame_null hab.2]
    split
    · exact .err
    · refine (eval_same hc lo c c' h).bind fun a' b' hab' => ?_
      rw [vsame_null hab'.2]
      split
      · exact .err
      · refine (eval_same hc up c c' h).bind fun a'' b'' hab'' => ?_
        rw [vsame_null hab''.2]
        split
        · exact .err
        · show EvSame (TVSame P H H') (rangeOf a'.val a.val a''.val) (rangeOf b'.val b.val b''.val)
          rw [rangeOf_shape a'.val, rangeOf_shape b'.val, shape_same hab.2, shape_same hab'.2, shape_same hab''.2]
          unfold rangeOf
          split
          · exact mk_scalar trivial
          · exact mk_scalar trivial
          · exact .crash
  | .oneof cs, c, c', h => by
    simp only [Expr.eval]
    refine (evals_same hc cs c c' h).bind fun a b hab => ?_
    rw [countTrue_same hc hab]
    exact mk_scalar trivial
  | .cond _ as, c, c', h => by
    simp only [Expr.eval]
    exact acts_same hc as c c' h
  | .quant u x src body, c, c', h => by
    simp only [Expr.eval]
    rcases h src with ⟨h1, h2⟩ | ⟨s, s', h1, h2, h3⟩
    · rw [h1, h2]
      exact .crash
    · rw [h1, h2]
      cases s with
      | inull => simp only [FSame] at h3; subst h3; exact .err
      | arr t es =>
        simp only [FSame] at h3
        obtain ⟨gs, rfl, h3⟩ := h3
        dsimp only
        exact quantLoop_same (fun e e' he => eval_same hc body _ _ (ctx_cons h he)) h3
      | neg e => simp only [FSame] at h3; obtain ⟨g, rfl, -⟩ := h3; exact .crash
      | pos e => simp only [FSame] at h3; obtain ⟨g, rfl, -⟩ := h3; exact .crash
      | tup t e => simp only [FSame] at h3; obtain ⟨g, rfl, -⟩ := h3; exact .crash
      | ref t e => simp only [FSame] at h3; obtain ⟨g, rfl, -⟩ := h3; exact .crash
      | _ => simp only [FSame] at h3; subst h3; exact .crash

theorem evals_same (hc : Corr P H H') : (e : Exprs) → (c c' : List (String × FExpr)) → CtxSame P c c' →
    EvSame (ValsSame P H H') (e.eval ⟨H, rx⟩ (some c)) (e.eval ⟨H', rx⟩ (some c'))
  | .nil, _, _, _ => by simp only [Exprs.eval]; exact .ok .nil
  | .cons e es, c, c', h => by
    simp only [Exprs.eval]
    exact (eval_same hc e c c' h).bind fun a b hab => (evals_same hc es c c' h).bind fun as bs habs => .ok (.cons hab.2 habs)

theorem acts_same (hc : Corr P H H') : (e : Acts) → (c c' : List (String × FExpr)) → CtxSame P c c' →
    EvSame (TVSame P H H') (e.eval ⟨H, rx⟩ (some c)) (e.eval ⟨H', rx⟩ (some c'))
  | .els e, c, c', h => by simp only [Acts.eval]; exact eval_same hc e c c' h
  | .act cd e rest, c, c', h => by
    simp only [Acts.eval]
    refine (eval_same hc cd c c' h).bind fun a b hab => ?_
    rw [vsame_null hab.2]
    split
    · exact .err
    · obtain ⟨ta, av⟩ := a
      obtain ⟨tb, bv⟩ := b
      have h2 := hab.2
      dsimp only at h2
      cases av with
      | bool x =>
        cases vsame_scalar h2 trivial
        cases x
        · exact acts_same hc rest c c' h
        · exact eval_same hc e c c' h
      | arr es => simp only [VSame] at h2; obtain ⟨es', rfl, -⟩ := h2; exact .crash
      | tup es => simp only [VSame] at h2; obtain ⟨es', rfl, -⟩ := h2; exact .crash
      | recv es => simp only [VSame] at h2; obtain ⟨es', i, j, rfl, -⟩ := h2; exact .crash
      | _ => cases vsame_scalar h2 trivial; exact .crash
end

/-- a check that passes for some values passes for the same values with other numbers -/
theorem passes_same (hc : Corr P H H') {c c' : List (String × FExpr)} (h : CtxSame P c c') {k : Check}
    (hk : Passes ⟨H, rx⟩ c k) : Passes ⟨H', rx⟩ c' k := by
  have key : ∀ b t, k.expr.eval ⟨H, rx⟩ (some c) = .ok ⟨t, .bool b⟩ → ∃ t, k.expr.eval ⟨H', rx⟩ (some c') = .ok ⟨t, .bool b⟩ := by
    intro b t ht
    have := eval_same (rx := rx) hc k.expr c c' h
    rw [ht] at this
    generalize k.expr.eval ⟨H', rx⟩ (some c') = y at this
    cases this with
    | ok h =>
      rename_i y
      obtain ⟨ty, y⟩ := y
      obtain ⟨-, h⟩ := h
      dsimp only at h
      rw [vsame_scalar h trivial]
      exact ⟨ty, rfl⟩
  rcases hk with ⟨t, h⟩ | ⟨⟨t, h⟩, hs⟩
  · exact .inl (key true t h)
  · exact .inr ⟨key false t h, hs⟩

/-- tuples that are values, directly or in arrays -/
theorem directTuple_same : ∀ {v' : FExpr} {t : Nat} {fs' : List (String × FExpr)}, DirectTuple v' t fs' → ∀ {v : FExpr},
    FSame P v v' → ∃ fs, DirectTuple v t fs ∧ FSameFields P fs fs' := by
  intro v' t fs' h
  induction h with
  | here =>
    intro v hv
    cases v with
    | tup t fs =>
      simp only [FSame] at hv
      obtain ⟨gs, hv, h⟩ := hv
      cases hv
      exact ⟨fs, .here, h⟩
    | arr t es => simp only [FSame] at hv; obtain ⟨_, hv, _⟩ := hv; cases hv
    | neg e => simp only [FSame] at hv; obtain ⟨_, hv, _⟩ := hv; cases hv
    | pos e => simp only [FSame] at hv; obtain ⟨_, hv, _⟩ := hv; cases hv
    | ref t e => simp only [FSame] at hv; obtain ⟨_, hv, _⟩ := hv; cases hv
    | _ => simp only [FSame] at hv; cases hv
  | @elem τ es' e' t fs' he _ ih =>
    intro v hv
    cases v with
    | arr t es =>
      simp only [FSame] at hv
      obtain ⟨gs, hv, h⟩ := hv
      cases hv
      have key : ∀ {es es' : List FExpr}, FSames P es es' → e' ∈ es' → ∃ e ∈ es, FSame P e e' := by
        intro es
        induction es with
        | nil => intro es' h hm; simp only [FSames] at h; subst h; cases hm
        | cons e es ih =>
          intro es' h hm
          simp only [FSames] at h
          obtain ⟨g, hs, rfl, h1, h2⟩ := h
          rcases List.mem_cons.1 hm with rfl | hm
          · exact ⟨e, by simp, h1⟩
          · obtain ⟨x, hx, hx'⟩ := ih h2 hm
            exact ⟨x, by simp [hx], hx'⟩
      obtain ⟨e, hm, hs⟩ := key h he
      obtain ⟨fs, k1, k2⟩ := ih hs
      exact ⟨fs, .elem hm k1, k2⟩
    | tup t es => simp only [FSame] at hv; obtain ⟨_, hv, _⟩ := hv; cases hv
    | neg e => simp only [FSame] at hv; obtain ⟨_, hv, _⟩ := hv; cases hv
    | pos e => simp only [FSame] at hv; obtain ⟨_, hv, _⟩ := hv; cases hv
    | ref t e => simp only [FSame] at hv; obtain ⟨_, hv, _⟩ := hv; cases hv
    | _ => simp only [FSame] at hv; cases hv

theorem fields_ctx : ∀ {fs fs' : List (String × FExpr)}, FSameFields P fs fs' → CtxSame P fs fs'
  | [], _, h => by simp only [FSameFields] at h; subst h; exact fun _ => .inl ⟨rfl, rfl⟩
  | (n, e) :: fs, _, h => by
    simp only [FSameFields] at h
    obtain ⟨⟨n', e'⟩, hs, rfl, h1, h2⟩ := h
    simp only [FSameField] at h1
    obtain ⟨rfl, h1⟩ := h1
    exact ctx_cons (fields_ctx h2) h1

end Verif.Lemmas.Rearrange
