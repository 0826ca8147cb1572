import Verif.Lemmas.Sound
/-!
# Evaluation in a static context

Without a context only values of simple types can be computed, they are null only if the expression
is written as null, and the only internal exception possible is the failing assertion of a
quantifier.
-/
namespace Verif.Lemmas
open Verif.Model Verif.Spec

/-- the types of literals -/
def SimpleTy : Ty → Prop
  | .bool | .int | .dec | .str | .enum _ => True
  | _ => False

/-- what a static evaluation may give -/
def GoodS (D : Decls) (t : Option Ty) : Ev TV → Prop
  | .ok v => (t = none ∧ v = ⟨none, .null⟩) ∨
    ∃ τ, t = some τ ∧ SimpleTy τ ∧ v.typ = some τ ∧ v.val.isNull = false ∧ VT D (fun _ => none) (fun _ => none) τ v.val
  | .err _ => True
  | .crash c => c = .staticQuantifier

variable {D : Decls}

theorem goodS_bind {t t' : Option Ty} {x : Ev TV} {f : TV → Ev TV} (hx : GoodS D t x)
    (hf : ∀ v, x = .ok v → GoodS D t (.ok v) → GoodS D t' (f v)) : GoodS D t' (x.bind f) := by
  cases x with
  | ok v => exact hf v rfl hx
  | err e => trivial
  | crash c => exact hx

theorem goodS_tvok {t : Option Ty} {v : TV} (h : GoodS D t (.ok v)) :
    TVok D (fun _ => none) (fun _ => none) t v := by
  rcases h with ⟨-, rfl⟩ | ⟨τ, h1, -, h2, h3, h4⟩
  · exact .inl rfl
  · exact .inr ⟨τ, h1, h2, h3, h4⟩

/-- what holds for any evaluation, when the type is simple -/
theorem goodS_of {t : Option Ty} {x : Ev TV} {τ : Ty} (ht : t = some τ) (hs : SimpleTy τ)
    (h : Good D (fun _ => none) (fun _ => none) False False True t x) : GoodS D t x := by
  cases x with
  | ok v =>
    rcases h.1 with rfl | ⟨τ', h1, h2, h3, h4⟩
    · exact absurd (h.2 trivial) (by simp [Val.isNull])
    · rw [ht] at h1
      cases h1
      exact .inr ⟨_, ht, hs, h2, h3, h4⟩
  | err e => trivial
  | crash c => rcases h with ⟨-, h⟩ | ⟨-, h⟩ <;> exact h.elim

theorem goodS_mk {τ : Ty} {v : Val} (hs : SimpleTy τ) (hn : v.isNull = false)
    (hv : VT D (fun _ => none) (fun _ => none) τ v) : GoodS D (some τ) (mkValue (some τ) v) :=
  goodS_of rfl hs (good_mk hn hv)

theorem goodS_simple {τ : Ty} {v : TV} (h : GoodS D (some τ) (.ok v)) :
    SimpleTy τ ∧ v.val.isNull = false ∧ VT D (fun _ => none) (fun _ => none) τ v.val := by
  rcases h with ⟨h, -⟩ | ⟨τ', h1, hs, -, h3, h4⟩
  · cases h
  · cases h1; exact ⟨hs, h3, h4⟩

theorem unOk_simple {op : UnOp} {a t : Option Ty} (h : unOk op a t) : ∃ τ, t = some τ ∧ SimpleTy τ := by
  cases op <;> simp only [unOk] at h
  case minus | plus | abs => obtain ⟨rfl | rfl, rfl⟩ := h <;> exact ⟨_, rfl, trivial⟩
  all_goals obtain ⟨-, rfl⟩ := h; exact ⟨_, rfl, trivial⟩

theorem binOk_simple {op : BinOp} {a b t : Option Ty} (h : binOk op a b t) (hi : op ≠ .index) :
    ∃ τ, t = some τ ∧ SimpleTy τ := by
  cases op <;> simp only [binOk] at h
  case index => exact absurd rfl hi
  case eq | neq => subst h; exact ⟨_, rfl, trivial⟩
  case plus =>
    rcases h with ⟨rfl | rfl, rfl, rfl⟩ | ⟨-, -, rfl⟩ <;> exact ⟨_, rfl, trivial⟩
  case minus | times | divide => obtain ⟨rfl | rfl, rfl, rfl⟩ := h <;> exact ⟨_, rfl, trivial⟩
  case power => obtain ⟨rfl | rfl, -, rfl⟩ := h <;> exact ⟨_, rfl, trivial⟩
  case arrContains => obtain ⟨-, rfl⟩ := h; exact ⟨_, rfl, trivial⟩
  all_goals obtain ⟨-, -, rfl⟩ := h; exact ⟨_, rfl, trivial⟩

theorem no_heap : HeapOk D (fun _ => none) (fun _ => none) := by
  intro o t h; cases h

mutual
/-- see the head of this file -/
theorem static_good (rx : List Char → List Char → Bool) : ∀ (e : Expr) (Γ : Gamma), WT D rx Γ e →
    GoodS D e.typ (Expr.eval ⟨fun _ => none, rx⟩ none e)
  | .null, Γ, hw => by
    simp only [Expr.eval, Expr.typ, mkValue, Val.isNull, Option.isNone_none, if_true]
    exact .inl ⟨rfl, rfl⟩
  | .bool _, Γ, hw | .int _, Γ, hw | .dec _, Γ, hw | .str _, Γ, hw | .enum _ _, Γ, hw => by
    simp only [Expr.eval, Expr.typ]
    exact goodS_mk trivial rfl ⟨_, rfl⟩
  | .name n t, Γ, hw => by
    simp only [Expr.eval]; trivial
  | .unary t op e, Γ, hw => by
    simp only [WT] at hw
    simp only [Expr.eval, Expr.typ]
    obtain ⟨τ, rfl, hs⟩ := unOk_simple hw.2
    exact goodS_bind (static_good rx e Γ hw.1) fun v _ hv =>
      goodS_of rfl hs (unary_good (goodS_tvok hv) hw.2)
  | .binary t op l r, Γ, hw => by
    simp only [WT] at hw
    obtain ⟨hwl, hwr, hb, hpow⟩ := hw
    simp only [Expr.eval, Expr.typ]
    refine goodS_bind (static_good rx l Γ hwl) fun vl _ hl => ?_
    split
    · trivial
    next hnl =>
    refine goodS_bind (static_good rx r Γ hwr) fun vr her hr => ?_
    split
    · trivial
    next hnr =>
    by_cases hi : op = .index
    · subst hi
      simp only [binOk] at hb
      obtain ⟨⟨id, e, lo, hi, h1, -⟩, -⟩ := hb
      rw [h1] at hl
      exact (goodS_simple hl).1.elim
    · obtain ⟨τ, rfl, hs⟩ := binOk_simple hb hi
      refine goodS_of rfl hs (binary_good no_heap (goodS_tvok hl) (goodS_tvok hr) hb hnl hnr (fun h => ?_)
        (fun h => absurd h hi))
      obtain ⟨v, i, h1, h2, h3⟩ := hpow h
      rw [her] at h1
      cases h1
      exact ⟨i, h2, h3⟩
  | .logic op l r, Γ, hw => by
    simp only [WT] at hw
    obtain ⟨hwl, hwr, htl, htr⟩ := hw
    have ihr := static_good rx r Γ hwr
    rw [htr] at ihr
    have ihl := static_good rx l Γ hwl
    rw [htl] at ihl
    simp only [Expr.eval, Expr.typ]
    refine goodS_bind ihl fun vl _ hl => ?_
    split
    · trivial
    obtain ⟨b, hb⟩ := (goodS_simple hl).2.2
    simp only [hb]
    cases op <;> cases b
    · exact hl
    · exact ihr
    · exact ihr
    · exact hl
    · exact goodS_mk (τ := .bool) (v := .bool true) trivial rfl ⟨_, rfl⟩
    · exact ihr
  | .field p n ty, Γ, hw => by
    simp only [WT] at hw
    simp only [Expr.eval, Expr.typ]
    refine goodS_bind (static_good rx p Γ hw.1) fun v _ hv => ?_
    rcases hv with ⟨h, -⟩ | ⟨τ, h, hs, -⟩
    · rw [h] at hw; exact hw.2.elim
    · have := hw.2
      rw [h] at this
      cases τ <;> first | exact hs.elim | exact this.elim
  | .range e lo up, Γ, hw => by
    simp only [WT] at hw
    obtain ⟨h1, h2, h3, ht, ht1, ht2⟩ := hw
    have ih1 := static_good rx e Γ h1
    have ih2 := static_good rx lo Γ h2
    have ih3 := static_good rx up Γ h3
    rw [ht1] at ih2
    rw [ht2] at ih3
    simp only [Expr.eval, Expr.typ]
    refine goodS_bind ih1 fun v _ hv => ?_
    split
    · trivial
    refine goodS_bind ih2 fun v' _ hv' => ?_
    split
    · trivial
    refine goodS_bind ih3 fun v'' _ hv'' => ?_
    split
    · trivial
    rcases ht with ht | ht <;> rw [ht] at hv hv' hv'' <;>
      obtain ⟨-, -, i, hi⟩ := goodS_simple hv <;> obtain ⟨-, -, j, hj⟩ := goodS_simple hv' <;>
      obtain ⟨-, -, k, hk⟩ := goodS_simple hv'' <;> simp only [hi, hj, hk] <;> exact goodS_mk trivial rfl ⟨_, rfl⟩
  | .oneof cs, Γ, hw => by
    simp only [WT] at hw
    have ih := static_goods rx cs Γ hw
    simp only [Expr.eval, Expr.typ]
    cases he : Exprs.eval ⟨fun _ => none, rx⟩ none cs with
    | ok vs => exact goodS_mk trivial rfl ⟨_, rfl⟩
    | err e => trivial
    | crash x => exact ih x he
  | .cond t as, Γ, hw => by
    simp only [WT] at hw
    simp only [Expr.eval, Expr.typ]
    exact static_gooda rx as t Γ hw
  | .quant u x src body, Γ, hw => by
    simp only [Expr.eval]; rfl

theorem static_goods (rx : List Char → List Char → Bool) : ∀ (es : Exprs) (Γ : Gamma), WTs D rx Γ es →
    ∀ x, Exprs.eval ⟨fun _ => none, rx⟩ none es = .crash x → x = .staticQuantifier
  | .nil, Γ, hw => by simp [Exprs.eval]
  | .cons e es, Γ, hw => by
    simp only [WTs] at hw
    intro x hx
    have ih := static_good rx e Γ hw.1
    have ih2 := static_goods rx es Γ hw.2
    simp only [Exprs.eval, bind_eq_crash] at hx
    rcases hx with hx | ⟨a, ha, hx | ⟨b, hb, hx⟩⟩
    · rw [hx] at ih; exact ih
    · exact ih2 x hx
    · cases hx

theorem static_gooda (rx : List Char → List Char → Bool) : ∀ (as : Acts) (t : Ty) (Γ : Gamma),
    WTa D rx Γ t as → GoodS D (some t) (Acts.eval ⟨fun _ => none, rx⟩ none as)
  | .els e, t, Γ, hw => by
    simp only [WTa] at hw
    have := static_good rx e Γ hw.1
    rw [hw.2] at this
    simpa only [Acts.eval] using this
  | .act k e rest, t, Γ, hw => by
    simp only [WTa] at hw
    obtain ⟨h1, h2, h3, h4, h5⟩ := hw
    have ihk := static_good rx k Γ h1
    have ihe := static_good rx e Γ h3
    have ihr := static_gooda rx rest t Γ h5
    rw [h2] at ihk
    rw [h4] at ihe
    simp only [Acts.eval]
    refine goodS_bind ihk fun v _ hv => ?_
    split
    · trivial
    obtain ⟨b, hb⟩ := (goodS_simple hv).2.2
    simp only [hb]
    cases b
    · exact ihr
    · exact ihe
end

end Verif.Lemmas
