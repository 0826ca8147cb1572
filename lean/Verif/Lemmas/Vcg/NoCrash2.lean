import Verif.Lemmas.Vcg.NoCrash
import Verif.Lemmas.Vcg.Mono
import Verif.Spec.Verifiable
/-! The translation of accepted checks ends normally or says that it is not supported. -/
namespace Verif.Lemmas.Vcg
open Verif.Model Verif.Spec Verif.Lemmas

/-! ### No crash, and something about the result -/

variable {nest : Bool}

/-- no internal exception, "not supported" only if `nest`, and `P` holds of results -/
def FR.Calm (nest : Bool) {α : Type} (x : FR α) (P : α → Prop) : Prop :=
  x ≠ .crash ∧ (nest = false → x ≠ .unsupported) ∧ ∀ a, x = .ok a → P a

theorem FR.Calm.bind {α β : Type} {x : FR α} {f : α → FR β} {P : α → Prop} {Q : β → Prop}
    (h : FR.Calm nest x P) (hf : ∀ a, P a → FR.Calm nest (f a) Q) : FR.Calm nest (x.bind f) Q := by
  cases x with
  | ok a => exact hf a (h.2.2 a rfl)
  | unsupported => exact ⟨by simp [FR.bind], fun hn => absurd rfl (h.2.1 hn), by simp [FR.bind]⟩
  | crash => exact absurd rfl h.1

theorem FR.calm_ok {α : Type} {a : α} {P : α → Prop} (h : P a) : FR.Calm nest (.ok a) P :=
  ⟨by simp, by simp, by rintro b hb; cases hb; exact h⟩

theorem FR.calm_need {α : Type} {x : Option α} {P : α → Prop} (h : ∃ a, x = some a ∧ P a) : FR.Calm nest (FR.need x) P := by
  obtain ⟨a, rfl, h⟩ := h
  exact FR.calm_ok h

/-- the same for all states -/
def Calm (nest : Bool) {α : Type} (x : TrM α) (P : α → Prop) : Prop :=
  ∀ s, x s ≠ .crash ∧ (nest = false → x s ≠ .unsupported) ∧ ∀ a s', x s = .ok a s' → P a

theorem Calm.bind {α β : Type} {x : TrM α} {f : α → TrM β} {P : α → Prop} {Q : β → Prop}
    (h : Calm nest x P) (hf : ∀ a, P a → Calm nest (f a) Q) : Calm nest (x >>= f) Q := by
  intro s
  show TrM.bind x f s ≠ .crash ∧ (nest = false → TrM.bind x f s ≠ .unsupported) ∧ ∀ a s', TrM.bind x f s = .ok a s' → Q a
  unfold TrM.bind
  have := h s
  cases hx : x s with
  | ok a s' => exact hf a (this.2.2 a s' hx) s'
  | unsupported => exact ⟨by simp, fun hn => absurd hx (this.2.1 hn), by simp⟩
  | crash => exact absurd hx this.1

theorem calm_pure {α : Type} {a : α} {P : α → Prop} (h : P a) : Calm nest (pure a) P := by
  intro s
  refine ⟨?_, fun _ => ?_, ?_⟩
  · show TrR.ok a s ≠ .crash; simp
  · show TrR.ok a s ≠ .unsupported; simp
  · intro b s' hb; rw [trm_pure] at hb; exact hb.1 ▸ h

theorem calm_need {α : Type} {x : Option α} {P : α → Prop} (h : ∃ a, x = some a ∧ P a) : Calm nest (TrM.need x) P := by
  obtain ⟨a, rfl, h⟩ := h
  exact calm_pure h

theorem calm_lift {α : Type} {x : FR α} {P : α → Prop} (h : FR.Calm nest x P) : Calm nest (FR.lift x) P := by
  cases x with
  | ok a => exact calm_pure (h.2.2 a rfl)
  | unsupported => exact fun s => ⟨by simp [FR.lift, TrM.unsupported], fun hn => absurd rfl (h.2.1 hn), by simp [FR.lift, TrM.unsupported]⟩
  | crash => exact absurd rfl h.1

theorem calm_newTemp : Calm nest newTemp fun _ => True := fun s => ⟨by simp [newTemp], by simp [newTemp], fun _ _ _ => trivial⟩
theorem calm_newNode : Calm nest newNode fun _ => True := fun s => ⟨by simp [newNode], by simp [newNode], fun _ _ _ => trivial⟩
theorem calm_getStart : Calm nest getStart fun _ => True := fun s => ⟨by simp [getStart], by simp [getStart], fun _ _ _ => trivial⟩
theorem calm_setStart {n} : Calm nest (setStart n) fun _ => True := fun s => ⟨by simp [setStart], by simp [setStart], fun _ _ _ => trivial⟩
theorem calm_edgeTo {n} : Calm nest (edgeTo n) fun _ => True := fun s => ⟨by simp [edgeTo], by simp [edgeTo], fun _ _ _ => trivial⟩
theorem calm_attach {ss} : Calm nest (attach ss) fun _ => True := fun s => ⟨by simp [attach], by simp [attach], fun _ _ _ => trivial⟩
theorem calm_attachAside {ss} : Calm nest (attachAside ss) fun _ => True := fun s => ⟨by simp [attachAside], by simp [attachAside], fun _ _ _ => trivial⟩
theorem calm_valid {em d} : Calm nest (checkValid em d) fun _ => True := by
  unfold checkValid; split
  · exact calm_attach
  · exact calm_pure trivial
theorem calm_goals {em gs} : Calm nest (checkGoals em gs) fun _ => True := by
  unfold checkGoals; split
  · exact calm_attach
  · exact calm_pure trivial
theorem calm_declare {k s v} : Calm nest (declareTemp k s v) fun _ => True := calm_attach

/-! ### Terms -/

/-- exactly null has no term, and is known to be null -/
def Defd (e : Expr) (p : TrPair) : Prop := (p.1 = none ↔ e.typ = none) ∧ (p.1 = none → p.2 = .bool false)

theorem defd_some {e : Expr} {a d : Smt} (h : e.typ ≠ none) : Defd e (some a, d) := by simp [Defd, h]

theorem Defd.get {e : Expr} {p : TrPair} (h : Defd e p) (ht : e.typ ≠ none) : ∃ a, p.1 = some a ∧ True := by
  cases hp : p.1 with
  | none => exact absurd (h.1.1 hp) ht
  | some a => exact ⟨a, rfl, trivial⟩

theorem calm_return {t v} {e : Expr} (h : e.typ ≠ none) : Calm nest (createReturn t v) (Defd e) :=
  calm_newTemp.bind fun _ _ => calm_declare.bind fun _ _ => calm_pure (defd_some h)

variable {D : Decls} {rx : List Char → List Char → Bool}

/-- every name of the scope has a term and its type -/
def Bound (Γ : Gamma) (ρ : NameTrs) : Prop := ∀ n t b, Γ n = some (t, b) → ∃ x, ρ n = some x ∧ x.ty = t

theorem Bound.bind {Γ : Gamma} {ρ : NameTrs} (h : Bound Γ ρ) (x : String) (a : Smt) (t : Ty) :
    Bound (Γ.bind x t) (ρ.bind x a t) := by
  intro n u b hn
  unfold Gamma.bind at hn
  unfold NameTrs.bind
  split at hn
  · next hx => cases hn; simp [hx]
  · next hx => simp only [hx, if_false]; exact h n u b hn

theorem unOk_typ {op t u} (h : unOk op t u) : t ≠ none ∧ u ≠ none ∧ ∀ a, ∃ r, unTerm op t a = some r ∧ True := by
  cases op <;> simp only [unOk] at h
  case arrLen => obtain ⟨⟨id, e, lo, hi, rfl⟩, rfl⟩ := h; exact ⟨by simp, by simp, fun a => by simp [unTerm]⟩
  case logicalNot => obtain ⟨rfl, rfl⟩ := h; exact ⟨by simp, by simp, fun a => by simp [unTerm]⟩
  all_goals
    obtain ⟨rfl | rfl, rfl⟩ := h <;> exact ⟨by simp, by simp, fun a => by simp [unTerm]⟩

theorem eqTerm_some {l r : Expr} {p q : TrPair} (hp : Defd l p) (hq : Defd r q) :
    ∃ x, eqTerm D (compTyp l r p.1) p q = some x ∧ True := by
  obtain ⟨a, b⟩ := p
  obtain ⟨c, d⟩ := q
  unfold Defd at hp hq
  simp only at hp hq
  cases a with
  | none =>
    have := hp.2 rfl
    subst this
    unfold eqTerm
    simp
    split <;> simp
  | some a =>
    cases c with
    | none =>
      have := hq.2 rfl
      subst this
      unfold eqTerm
      simp
      split <;> simp
    | some c =>
      simp only [compTyp, Option.isNone_some, Bool.false_eq_true, if_false]
      obtain ⟨τ, hτ⟩ : ∃ τ, l.typ = some τ := by
        cases h : l.typ with
        | none => exact absurd (hp.1.2 h) (by simp)
        | some τ => exact ⟨τ, rfl⟩
      unfold eqTerm
      simp only [hτ, Option.map_some]
      split
      · simp
      · split <;> simp

theorem binOk_typ {op a b t} (h : binOk op a b t) : t ≠ none := by
  cases op <;> simp only [binOk] at h
  case index => obtain ⟨⟨id, e, lo, hi, -, rfl⟩, -⟩ := h; simp
  case plus =>
    rcases h with ⟨rfl | rfl, -, rfl⟩ | ⟨-, -, rfl⟩ <;> simp
  case minus | times | divide | power => obtain ⟨rfl | rfl, -, rfl⟩ := h <;> simp
  case eq | neq => simp [h]
  case arrContains => simp [h.2]
  all_goals simp [h.2.2]

theorem binTerm_some {T : TrEnv} {op : BinOp} {l r : Expr} {t : Option Ty} {a b : Smt} (hn : op.allowsNull = false)
    (ho : binOk op l.typ r.typ t)
    (hp : op = .power → ∃ v i, Expr.eval ⟨fun _ => none, T.rx⟩ none r = .ok v ∧ v.val = .int i ∧ 0 ≤ i)
    (hx : op = .regex → ∃ v s, Expr.eval ⟨fun _ => none, T.rx⟩ none r = .ok v ∧ v.val = .str s) :
    ∃ x, binTerm T op l r a b = some x ∧ True := by
  cases op <;> simp only [BinOp.allowsNull, Bool.true_eq_false] at hn <;> simp only [binOk] at ho
  case plus =>
    rcases ho with ⟨h | h, -⟩ | ⟨h | h, -⟩ <;> simp [binTerm, h, arithTerm]
  case minus | times | divide =>
    rcases ho with ⟨h | h, -⟩ <;> simp [binTerm, h, arithTerm]
  case remainder => simp [binTerm, ho.1]
  case regex =>
    obtain ⟨v, s, h1, h2⟩ := hx rfl
    simp [binTerm, TrEnv.static, h1, h2]
  case power =>
    obtain ⟨v, i, h1, h2, h3⟩ := hp rfl
    have : ¬ i < 0 := by omega
    rcases ho with ⟨h | h, -⟩ <;> cases hi : i.toNat <;> simp [binTerm, TrEnv.static, h1, h2, this, h, hi]
  all_goals simp [binTerm]

theorem binOk_left {op a b t} (hn : op.allowsNull = false) (h : binOk op a b t) : op = .arrContains ∨ a ≠ none := by
  cases op <;> simp only [BinOp.allowsNull, Bool.true_eq_false] at hn <;> simp only [binOk, isStr] at h
  case arrContains => simp
  case index => obtain ⟨⟨id, e, lo, hi, rfl, -⟩, -⟩ := h; simp
  case plus => rcases h with ⟨rfl | rfl, -⟩ | ⟨rfl | rfl, -⟩ <;> simp
  case xor | remainder => simp [h.1]
  all_goals obtain ⟨rfl | rfl, -⟩ := h <;> simp

theorem binOk_right {op a b t} (hn : op.allowsNull = false) (h : binOk op a b t) : b ≠ none := by
  cases op <;> simp only [BinOp.allowsNull, Bool.true_eq_false] at hn <;> simp only [binOk, isStr] at h
  case arrContains => obtain ⟨⟨id, e, lo, hi, rfl⟩, -⟩ := h; simp
  case index => simp [h.2]
  case plus => rcases h with ⟨rfl | rfl, rfl, -⟩ | ⟨-, rfl | rfl, -⟩ <;> simp
  case xor | remainder | power => simp [h.2.1]
  case lt | leq | gt | geq | minus | times | divide => obtain ⟨rfl | rfl, rfl, -⟩ := h <;> simp
  all_goals obtain ⟨-, rfl | rfl, -⟩ := h <;> simp

theorem fieldTerm_some (hd : ∀ t c, HasComp D t c → ∃ d, D.component t c.name = some d) {t : Option Ty} {n : String} {ty : Ty} {a : Smt}
    (h : fieldOk D t n ty) : ∃ p, fieldTerm D t a n = some p ∧ p.1 ≠ none := by
  unfold fieldOk at h
  split at h
  · obtain ⟨c, hc, -⟩ := h
    simp [fieldTerm, hc]
  · obtain ⟨c, hc, rfl, -⟩ := h
    obtain ⟨d, hd⟩ := hd _ c hc
    simp [fieldTerm, hd]
  · obtain ⟨i, -, hi, -⟩ := h
    simp [fieldTerm, hi]
  · exact h.elim

theorem fieldOk_typ {t : Option Ty} {n : String} {ty : Ty} (h : fieldOk D t n ty) : t ≠ none := by
  rintro rfl
  simp [fieldOk] at h

theorem oneofTerm_some {xs : List Smt} (h : xs ≠ []) : ∃ x, oneofTerm xs = some x ∧ True := by
  match xs with
  | [] => exact absurd rfl h
  | [a] => simp [oneofTerm]
  | [a, b] => simp [oneofTerm]
  | a :: b :: c :: cs =>
    simp only [oneofTerm, List.length_cons]
    rw [List.range_succ_eq_map]
    simp

/-! ### Without the graph -/

variable {T : TrEnv}

mutual
theorem trF_calm (hd : ∀ t c, HasComp T.decls t c → ∃ d, T.decls.component t c.name = some d) : ∀ (e : Expr) (Γ : Gamma) (ρ : NameTrs),
    WT T.decls T.rx Γ e → Formed T.rx e → Direct nest e → Bound Γ ρ → FR.Calm nest (e.trF T ρ) (Defd e)
  | .null, Γ, ρ, _, _, _, _ => by
    simp only [Expr.trF]
    exact FR.calm_ok (by simp [Defd, Expr.typ])
  | .bool _, Γ, ρ, _, _, _, _ | .int _, Γ, ρ, _, _, _, _ | .dec _, Γ, ρ, _, _, _, _ | .str _, Γ, ρ, _, _, _, _
  | .enum _ _, Γ, ρ, _, _, _, _ => by
    simp only [Expr.trF]
    exact FR.calm_ok (defd_some (by simp [Expr.typ]))
  | .name n t, Γ, ρ, hw, _, _, hb => by
    simp only [WT] at hw
    obtain ⟨b, hw⟩ := hw
    obtain ⟨x, hx, -⟩ := hb n t b hw
    simp only [Expr.trF]
    exact (FR.calm_need (P := fun _ => True) ⟨x, hx, trivial⟩).bind fun _ _ => FR.calm_ok (defd_some (by simp [Expr.typ]))
  | .unary t op e, Γ, ρ, hw, hf, hp, hb => by
    simp only [WT] at hw
    simp only [Formed] at hf
    simp only [Direct] at hp
    obtain ⟨h1, h2, h3⟩ := unOk_typ hw.2
    simp only [Expr.trF]
    exact (trF_calm hd e Γ ρ hw.1 hf hp hb).bind fun p hp => (FR.calm_need (hp.get h1)).bind fun a _ =>
      (FR.calm_need (h3 a)).bind fun r _ => FR.calm_ok (defd_some (by simpa [Expr.typ] using h2))
  | .binary t op l r, Γ, ρ, hw, hf, hp, hb => by
    simp only [WT] at hw
    simp only [Formed] at hf
    simp only [Direct] at hp
    have hty := binOk_typ hw.2.2.1
    simp only [Expr.trF]
    refine (trF_calm hd l Γ ρ hw.1 hf.1 hp.2.1 hb).bind fun p hp' => (trF_calm hd r Γ ρ hw.2.1 hf.2.1 hp.2.2 hb).bind fun q hq => ?_
    have key : op.allowsNull = false → FR.Calm nest ((FR.need p.1).bind fun a => (FR.need q.1).bind fun b =>
        (FR.need (binTerm T op l r a b)).bind fun x => .ok (some x, .bool true)) (Defd (.binary t op l r)) := by
      intro hn
      have hl : l.typ ≠ none := (binOk_left hn hw.2.2.1).elim hf.2.2.2 id
      exact (FR.calm_need (hp'.get hl)).bind fun a _ => (FR.calm_need (hq.get (binOk_right hn hw.2.2.1))).bind fun b _ =>
        (FR.calm_need (binTerm_some hn hw.2.2.1 hw.2.2.2 hf.2.2.1)).bind fun x _ => FR.calm_ok (defd_some (by simpa [Expr.typ] using hty))
    have keyEq : FR.Calm nest ((FR.need (eqTerm T.decls (compTyp l r p.1) p q)).bind fun x => .ok (some (negIf op x), .bool true))
        (Defd (.binary t op l r)) :=
      (FR.calm_need (eqTerm_some hp' hq)).bind fun x _ => FR.calm_ok (defd_some (by simpa [Expr.typ] using hty))
    cases op <;> first
      | exact keyEq
      | exact key rfl
      | (exfalso; have := hp.1; simp [ownPlace] at this)
  | .logic op l r, Γ, ρ, hw, hf, hp, hb => by
    simp only [WT] at hw
    simp only [Formed] at hf
    simp only [Direct] at hp
    simp only [Expr.trF]
    refine (trF_calm hd l Γ ρ hw.1 hf.1 hp.1 hb).bind fun p hp' => (trF_calm hd r Γ ρ hw.2.1 hf.2 hp.2 hb).bind fun q hq =>
      (FR.calm_need (hp'.get (by simp [hw.2.2.1]))).bind fun a _ => (FR.calm_need (hq.get (by simp [hw.2.2.2]))).bind fun b _ => ?_
    cases op <;> exact FR.calm_ok (defd_some (by simp [Expr.typ]))
  | .field p n ty, Γ, ρ, hw, hf, hp, hb => by
    simp only [WT] at hw
    simp only [Formed] at hf
    simp only [Direct] at hp
    simp only [Expr.trF]
    refine (trF_calm hd p Γ ρ hw.1 hf hp hb).bind fun x hx => (FR.calm_need (hx.get (fieldOk_typ hw.2))).bind fun a _ => ?_
    obtain ⟨y, h1, h2⟩ := fieldTerm_some (a := a) hd hw.2
    exact FR.calm_need ⟨y, h1, by simp [Defd, h2, Expr.typ]⟩
  | .range .., Γ, ρ, _, _, hp, _ => by simp only [Direct] at hp
  | .oneof _, Γ, ρ, _, _, hp, _ => by simp only [Direct] at hp
  | .cond t as, Γ, ρ, hw, hf, hp, hb => by
    simp only [WT] at hw
    simp only [Formed] at hf
    simp only [Direct] at hp
    simp only [Expr.trF]
    exact (trFA_calm hd as t Γ ρ hw hf hp hb).bind fun a _ => FR.calm_ok (defd_some (by simp [Expr.typ]))
  | .quant .., Γ, ρ, _, _, hp, _ => by
    simp only [Direct] at hp
    simp only [Expr.trF]
    exact ⟨by simp, by simp [hp], by simp⟩

theorem trFA_calm (hd : ∀ t c, HasComp T.decls t c → ∃ d, T.decls.component t c.name = some d) : ∀ (as : Acts) (t : Ty) (Γ : Gamma) (ρ : NameTrs),
    WTa T.decls T.rx Γ t as → FormedA T.rx as → DirectA nest as → Bound Γ ρ → FR.Calm nest (as.trF T ρ) fun _ => True
  | .els e, t, Γ, ρ, hw, hf, hp, hb => by
    simp only [WTa] at hw
    simp only [FormedA] at hf
    simp only [DirectA] at hp
    simp only [Acts.trF]
    exact (trF_calm hd e Γ ρ hw.1 hf hp hb).bind fun p hp => FR.calm_need (hp.get (by simp [hw.2]))
  | .act c e rest, t, Γ, ρ, hw, hf, hp, hb => by
    simp only [WTa] at hw
    simp only [FormedA] at hf
    simp only [DirectA] at hp
    simp only [Acts.trF]
    exact (trFA_calm hd rest t Γ ρ hw.2.2.2.2 hf.2.2 hp.2.2 hb).bind fun x _ =>
      (trF_calm hd c Γ ρ hw.1 hf.1 hp.1 hb).bind fun p hp' => (FR.calm_need (hp'.get (by simp [hw.2.1]))).bind fun a _ =>
      (trF_calm hd e Γ ρ hw.2.2.1 hf.2.1 hp.2.1 hb).bind fun q hq => (FR.calm_need (hq.get (by simp [hw.2.2.2.1]))).bind fun b _ =>
      FR.calm_ok trivial
end

/-! ### With the graph -/

mutual
theorem tr_calm (hd : ∀ t c, HasComp T.decls t c → ∃ d, T.decls.component t c.name = some d) (em : Bool) : ∀ (e : Expr) (Γ : Gamma) (ρ : NameTrs),
    WT T.decls T.rx Γ e → Formed T.rx e → Plain nest e → Bound Γ ρ → Calm nest (e.tr T em ρ) (Defd e)
  | .null, Γ, ρ, _, _, _, _ => by
    simp only [Expr.tr]
    exact calm_pure (by simp [Defd, Expr.typ])
  | .bool _, Γ, ρ, _, _, _, _ | .int _, Γ, ρ, _, _, _, _ | .dec _, Γ, ρ, _, _, _, _ | .str _, Γ, ρ, _, _, _, _
  | .enum _ _, Γ, ρ, _, _, _, _ => by
    simp only [Expr.tr]
    exact calm_pure (defd_some (by simp [Expr.typ]))
  | .name n t, Γ, ρ, hw, _, _, hb => by
    simp only [WT] at hw
    obtain ⟨b, hw⟩ := hw
    obtain ⟨x, hx, -⟩ := hb n t b hw
    simp only [Expr.tr]
    exact (calm_need (P := fun _ => True) ⟨x, hx, trivial⟩).bind fun _ _ => calm_pure (defd_some (by simp [Expr.typ]))
  | .unary t op e, Γ, ρ, hw, hf, hp, hb => by
    simp only [WT] at hw
    simp only [Formed] at hf
    simp only [Plain] at hp
    obtain ⟨h1, h2, h3⟩ := unOk_typ hw.2
    simp only [Expr.tr]
    exact (tr_calm hd em e Γ ρ hw.1 hf hp hb).bind fun p hp => calm_valid.bind fun _ _ => (calm_need (hp.get h1)).bind fun a _ =>
      (calm_need (h3 a)).bind fun r _ => calm_return (by simpa [Expr.typ] using h2)
  | .binary t op l r, Γ, ρ, hw, hf, hp, hb => by
    simp only [WT] at hw
    simp only [Formed] at hf
    simp only [Plain] at hp
    have hty : (Expr.binary t op l r).typ ≠ none := by simpa [Expr.typ] using binOk_typ hw.2.2.1
    have ihr := tr_calm hd em r Γ ρ hw.2.1 hf.2.1 hp.2 hb
    simp only [Expr.tr]
    refine (tr_calm hd em l Γ ρ hw.1 hf.1 hp.1 hb).bind fun p hp' => ?_
    split
    · exact ihr.bind fun q hq => (calm_need (eqTerm_some hp' hq)).bind fun x _ => calm_return hty
    · next hn =>
      have hn : op.allowsNull = false := by simpa using hn
      have hl : l.typ ≠ none := (binOk_left hn hw.2.2.1).elim hf.2.2.2 id
      exact calm_valid.bind fun _ _ => ihr.bind fun q hq => calm_valid.bind fun _ _ => (calm_need (hp'.get hl)).bind fun a _ =>
        (calm_need (hq.get (binOk_right hn hw.2.2.1))).bind fun b _ => calm_goals.bind fun _ _ =>
        (calm_need (binTerm_some hn hw.2.2.1 hw.2.2.2 hf.2.2.1)).bind fun x _ => calm_return hty
  | .logic op l r, Γ, ρ, hw, hf, hp, hb => by
    simp only [WT] at hw
    simp only [Formed] at hf
    simp only [Plain] at hp
    simp only [Expr.tr]
    exact (tr_calm hd em l Γ ρ hw.1 hf.1 hp.1 hb).bind fun p hp' => calm_valid.bind fun _ _ =>
      (calm_need (hp'.get (by simp [hw.2.2.1]))).bind fun a _ => calm_getStart.bind fun _ _ => calm_newTemp.bind fun _ _ =>
      calm_newNode.bind fun _ _ => calm_attach.bind fun _ _ => calm_declare.bind fun _ _ => calm_edgeTo.bind fun _ _ =>
      calm_setStart.bind fun _ _ => calm_attach.bind fun _ _ => (tr_calm hd em r Γ ρ hw.2.1 hf.2 hp.2 hb).bind fun q _ =>
      calm_valid.bind fun _ _ => calm_declare.bind fun _ _ => calm_edgeTo.bind fun _ _ => calm_setStart.bind fun _ _ =>
      calm_pure (defd_some (by simp [Expr.typ]))
  | .field p n ty, Γ, ρ, hw, hf, hp, hb => by
    simp only [WT] at hw
    simp only [Formed] at hf
    simp only [Plain] at hp
    simp only [Expr.tr]
    refine (tr_calm hd em p Γ ρ hw.1 hf hp hb).bind fun x hx => calm_valid.bind fun _ _ =>
      (calm_need (hx.get (fieldOk_typ hw.2))).bind fun a _ => ?_
    obtain ⟨y, h1, h2⟩ := fieldTerm_some (a := a) hd hw.2
    exact calm_need ⟨y, h1, by simp [Defd, h2, Expr.typ]⟩
  | .range e a b, Γ, ρ, hw, hf, hp, hb => by
    simp only [WT] at hw
    simp only [Formed] at hf
    simp only [Plain] at hp
    have he : e.typ ≠ none := by rcases hw.2.2.2.1 with h | h <;> simp [h]
    simp only [Expr.tr]
    exact (tr_calm hd em e Γ ρ hw.1 hf.1 hp.1 hb).bind fun p hp1 => calm_valid.bind fun _ _ =>
      (tr_calm hd em a Γ ρ hw.2.1 hf.2.1 hp.2.1 hb).bind fun q hq => calm_valid.bind fun _ _ =>
      (tr_calm hd em b Γ ρ hw.2.2.1 hf.2.2 hp.2.2 hb).bind fun r hr => calm_valid.bind fun _ _ =>
      (calm_need (hp1.get he)).bind fun _ _ => (calm_need (hq.get (by rw [hw.2.2.2.2.1]; exact he))).bind fun _ _ =>
      (calm_need (hr.get (by rw [hw.2.2.2.2.2]; exact he))).bind fun _ _ => calm_return (by simp [Expr.typ])
  | .oneof cs, Γ, ρ, hw, hf, hp, hb => by
    simp only [WT] at hw
    simp only [Formed] at hf
    simp only [Plain] at hp
    simp only [Expr.tr]
    exact (trs_calm hd em cs Γ ρ hw hf.1 hp hb).bind fun xs hxs =>
      (calm_need (oneofTerm_some (fun h => hf.2 (hxs h)))).bind fun _ _ => calm_return (by simp [Expr.typ])
  | .cond t as, Γ, ρ, hw, hf, hp, hb => by
    simp only [WT] at hw
    simp only [Formed] at hf
    simp only [Plain] at hp
    simp only [Expr.tr]
    exact calm_newNode.bind fun _ _ => calm_newTemp.bind fun _ _ => (trA_calm hd em as t Γ ρ _ _ _ hw hf hp hb).bind fun _ _ =>
      calm_setStart.bind fun _ _ => calm_pure (defd_some (by simp [Expr.typ]))
  | .quant u x src body, Γ, ρ, hw, hf, hp, hb => by
    simp only [WT] at hw
    simp only [Formed] at hf
    simp only [Plain] at hp
    obtain ⟨⟨id, elem, lo, hi, o, h1, h2⟩, h3⟩ := hw
    obtain ⟨s, h4, h5⟩ := hb src _ o h1
    simp only [Expr.tr]
    refine (calm_need (P := fun y => y.ty = .arr id elem lo hi) ⟨s, h4, h5⟩).bind fun y hy => calm_valid.bind fun _ _ => calm_getStart.bind fun _ _ => ?_
    rw [hy]
    simp only
    refine calm_newTemp.bind fun i _ => calm_newTemp.bind fun k _ => calm_attach.bind fun _ _ =>
      (tr_calm hd em body _ _ h2 hf hp.2 (hb.bind x _ elem)).bind fun p _ => calm_valid.bind fun _ _ => calm_setStart.bind fun _ _ =>
      calm_newTemp.bind fun j _ => (calm_lift (trF_calm hd body _ _ h2 hf hp.1 (hb.bind x _ elem))).bind fun q hq =>
      (calm_need (hq.get (by simp [h3]))).bind fun b _ => ?_
    split <;> exact calm_pure (defd_some (by simp [Expr.typ]))

theorem trs_calm (hd : ∀ t c, HasComp T.decls t c → ∃ d, T.decls.component t c.name = some d) (em : Bool) : ∀ (cs : Exprs) (Γ : Gamma) (ρ : NameTrs),
    WTs T.decls T.rx Γ cs → Formeds T.rx cs → Plains nest cs → Bound Γ ρ → Calm nest (cs.tr T em ρ) fun xs => xs = [] → cs = .nil
  | .nil, Γ, ρ, _, _, _, _ => by
    simp only [Exprs.tr]
    exact calm_pure fun _ => trivial
  | .cons e es, Γ, ρ, hw, hf, hp, hb => by
    simp only [WTs] at hw
    simp only [Formeds] at hf
    simp only [Plains] at hp
    simp only [Exprs.tr]
    exact (tr_calm hd em e Γ ρ hw.1 hf.1 hp.1 hb).bind fun p hp' => calm_valid.bind fun _ _ =>
      (calm_need (hp'.get (by simp [hf.2.1]))).bind fun a _ => (trs_calm hd em es Γ ρ hw.2 hf.2.2 hp.2 hb).bind fun xs _ =>
      calm_pure (by simp)

theorem trA_calm (hd : ∀ t c, HasComp T.decls t c → ∃ d, T.decls.component t c.name = some d) (em : Bool) : ∀ (as : Acts) (t : Ty) (Γ : Gamma) (ρ : NameTrs)
    (k : Nat) (s : Srt) (fin : Nat),
    WTa T.decls T.rx Γ t as → FormedA T.rx as → PlainA nest as → Bound Γ ρ → Calm nest (as.tr T em ρ k s fin) fun _ => True
  | .els e, t, Γ, ρ, k, s, fin, hw, hf, hp, hb => by
    simp only [WTa] at hw
    simp only [FormedA] at hf
    simp only [PlainA] at hp
    simp only [Acts.tr]
    exact (tr_calm hd em e Γ ρ hw.1 hf hp hb).bind fun p _ => calm_valid.bind fun _ _ => calm_declare.bind fun _ _ => calm_edgeTo
  | .act c e rest, t, Γ, ρ, k, s, fin, hw, hf, hp, hb => by
    simp only [WTa] at hw
    simp only [FormedA] at hf
    simp only [PlainA] at hp
    simp only [Acts.tr]
    exact (tr_calm hd em c Γ ρ hw.1 hf.1 hp.1 hb).bind fun p hp' => calm_valid.bind fun _ _ =>
      (calm_need (hp'.get (by simp [hw.2.1]))).bind fun a _ => calm_getStart.bind fun _ _ => calm_attach.bind fun _ _ =>
      (tr_calm hd em e Γ ρ hw.2.2.1 hf.2.1 hp.2.1 hb).bind fun q _ => calm_valid.bind fun _ _ => calm_declare.bind fun _ _ =>
      calm_edgeTo.bind fun _ _ => calm_setStart.bind fun _ _ => calm_attach.bind fun _ _ =>
      trA_calm hd em rest t Γ ρ k s fin hw.2.2.2.2 hf.2.2 hp.2.2 hb
end

end Verif.Lemmas.Vcg
