import Verif.Model.Eval
/-!
Evaluation in a static context: the result is a number, string, Boolean, literal or null, and
it does not change in any other context.
-/
namespace Verif.Lemmas
open Verif.Model

theorem bind_eq_ok {α β} {x : Ev α} {f : α → Ev β} {v : β} :
    x.bind f = .ok v ↔ ∃ a, x = .ok a ∧ f a = .ok v := by
  cases x <;> simp [Ev.bind]

theorem bind_eq_crash {α β} {x : Ev α} {f : α → Ev β} {c : EvCrash} :
    x.bind f = .crash c ↔ x = .crash c ∨ ∃ a, x = .ok a ∧ f a = .crash c := by
  cases x <;> simp [Ev.bind]

theorem mkValue_eq_ok {t : Option Ty} {v : Val} {w : TV} :
    mkValue t v = .ok w ↔ t.isNone = v.isNull ∧ w = ⟨t, v⟩ := by
  unfold mkValue
  split <;> simp_all [eq_comm]

/-- a value that is no aggregate and no record -/
def Simple : Val → Prop
  | .arr _ | .tup _ | .recv _ => False
  | _ => True

theorem unaryOp_simple {op t v w} (h : unaryOp op t v = .ok w) : Simple w.val := by
  unfold unaryOp at h
  split at h <;> first
    | (cases h; done)
    | (rw [mkValue_eq_ok] at h; obtain ⟨-, rfl⟩ := h; trivial)

theorem unary_simple {op t v w} (h : unary op t v = .ok w) : Simple w.val := by
  unfold unary at h
  split at h
  · cases h
  · exact unaryOp_simple h

theorem arith_simple {t fi fq l r w} (h : arith t fi fq l r = .ok w) : Simple w.val := by
  unfold arith at h
  split at h <;> first
    | (cases h; done)
    | (rw [mkValue_eq_ok] at h; obtain ⟨-, rfl⟩ := h; trivial)

theorem binaryOp_simple {rx op t l r w} (hl : Simple l.val)
    (h : binaryOp rx op t l r = .ok w) : Simple w.val := by
  unfold binaryOp at h
  cases op
  case index =>
    simp only [indexOp] at h
    split at h
    · next h1 h2 => rw [h1] at hl; exact hl.elim
    · cases h
  case plus =>
    simp only at h
    split at h
    · rw [mkValue_eq_ok] at h; obtain ⟨-, rfl⟩ := h; trivial
    · exact arith_simple h
  case minus => exact arith_simple h
  case times => exact arith_simple h
  all_goals
    simp only at h
    repeat' split at h
    all_goals first
      | (cases h; done)
      | (rw [mkValue_eq_ok] at h; obtain ⟨-, rfl⟩ := h; trivial)

mutual
/-- what evaluates in a static context has the same value in every context -/
theorem static_eval (rx) (h1 : Nat → Option Fields) : ∀ (e : Expr) (v : TV),
    Expr.eval ⟨h1, rx⟩ none e = .ok v →
      Simple v.val ∧ ∀ h2 ctx, Expr.eval ⟨h2, rx⟩ ctx e = .ok v
  | .null, v, h | .bool _, v, h | .int _, v, h | .dec _, v, h | .str _, v, h
  | .enum _ _, v, h => by
    refine ⟨?_, fun h2 ctx => by simpa [Expr.eval] using h⟩
    simp only [Expr.eval, mkValue_eq_ok] at h
    obtain ⟨-, rfl⟩ := h
    trivial
  | .name _ _, v, h => by simp [Expr.eval] at h
  | .unary t op e, v, h => by
    simp only [Expr.eval, bind_eq_ok] at h
    obtain ⟨a, ha, hu⟩ := h
    obtain ⟨-, ih⟩ := static_eval rx h1 e a ha
    refine ⟨unary_simple hu, fun h2 ctx => ?_⟩
    simp only [Expr.eval, ih, Ev.bind, hu]
  | .binary t op l r, v, h => by
    simp only [Expr.eval, bind_eq_ok] at h
    obtain ⟨a, ha, hu⟩ := h
    obtain ⟨sl, ihl⟩ := static_eval rx h1 l a ha
    split at hu
    · cases hu
    next hn =>
    rw [bind_eq_ok] at hu
    obtain ⟨b, hb, hu⟩ := hu
    obtain ⟨-, ihr⟩ := static_eval rx h1 r b hb
    split at hu
    · cases hu
    next hn' =>
    refine ⟨binaryOp_simple sl hu, fun h2 ctx => ?_⟩
    simp only [Expr.eval, ihl, ihr, Ev.bind, hu, hn, hn', if_false, Bool.false_eq_true]
  | .logic op l r, v, h => by
    simp only [Expr.eval, bind_eq_ok] at h
    obtain ⟨a, ha, hu⟩ := h
    obtain ⟨sl, ihl⟩ := static_eval rx h1 l a ha
    split at hu
    · cases hu
    next hn =>
    split at hu
    · next b hb =>
      have ihr := static_eval rx h1 r v
      cases op <;> cases b <;>
        simp only [if_true, if_false, Bool.false_eq_true, mkValue_eq_ok, Ev.ok.injEq] at hu
      all_goals first
        | (subst hu
           exact ⟨sl, fun h2 ctx => by simp [Expr.eval, ihl, Ev.bind, hb, Val.isNull]⟩)
        | (replace ihr := ihr hu
           exact ⟨ihr.1, fun h2 ctx => by simp [Expr.eval, ihl, ihr.2, Ev.bind, hb, Val.isNull]⟩)
        | (obtain ⟨hh, rfl⟩ := hu
           exact ⟨trivial, fun h2 ctx => by simp [Expr.eval, ihl, Ev.bind, hb, mkValue, Val.isNull]⟩)
    · cases hu
  | .field p n ty, v, h => by
    simp only [Expr.eval, bind_eq_ok] at h
    obtain ⟨a, ha, hu⟩ := h
    obtain ⟨sp, -⟩ := static_eval rx h1 p a ha
    split at hu
    · cases hu
    · next hv => rw [hv] at sp; exact sp.elim
    · next hv => rw [hv] at sp; exact sp.elim
    · cases hu
  | .range e lo up, v, h => by
    simp only [Expr.eval, bind_eq_ok] at h
    obtain ⟨a, ha, hu⟩ := h
    obtain ⟨-, iha⟩ := static_eval rx h1 e a ha
    split at hu
    · cases hu
    next hn =>
    rw [bind_eq_ok] at hu
    obtain ⟨b, hb, hu⟩ := hu
    obtain ⟨-, ihb⟩ := static_eval rx h1 lo b hb
    split at hu
    · cases hu
    next hn' =>
    rw [bind_eq_ok] at hu
    obtain ⟨c, hc, hu⟩ := hu
    obtain ⟨-, ihc⟩ := static_eval rx h1 up c hc
    split at hu
    · cases hu
    next hn'' =>
    constructor
    · split at hu <;> first
        | (cases hu; done)
        | (rw [mkValue_eq_ok] at hu; obtain ⟨-, rfl⟩ := hu; trivial)
    · intro h2 ctx
      simp only [Expr.eval, iha, ihb, ihc, Ev.bind, hn, hn', hn'', if_false, Bool.false_eq_true]
      exact hu
  | .oneof cs, v, h => by
    simp only [Expr.eval, bind_eq_ok] at h
    obtain ⟨a, ha, hu⟩ := h
    have ih := static_evals rx h1 cs a ha
    constructor
    · rw [mkValue_eq_ok] at hu; obtain ⟨-, rfl⟩ := hu; trivial
    · intro h2 ctx
      simp only [Expr.eval, ih, Ev.bind, hu]
  | .cond t as, v, h => by
    simp only [Expr.eval] at h
    obtain ⟨s, ih⟩ := static_acts rx h1 as v h
    exact ⟨s, fun h2 ctx => by simp only [Expr.eval, ih]⟩
  | .quant u x src body, v, h => by simp [Expr.eval] at h

theorem static_evals (rx) (h1 : Nat → Option Fields) : ∀ (es : Exprs) (vs : List Val),
    Exprs.eval ⟨h1, rx⟩ none es = .ok vs → ∀ h2 ctx, Exprs.eval ⟨h2, rx⟩ ctx es = .ok vs
  | .nil, vs, h => fun h2 ctx => by simpa [Exprs.eval] using h
  | .cons e es, vs, h => fun h2 ctx => by
    simp only [Exprs.eval, bind_eq_ok] at h
    obtain ⟨a, ha, b, hb, hu⟩ := h
    obtain ⟨-, ih⟩ := static_eval rx h1 e a ha
    simp only [Exprs.eval, ih, static_evals rx h1 es b hb, Ev.bind, hu]

theorem static_acts (rx) (h1 : Nat → Option Fields) : ∀ (as : Acts) (v : TV),
    Acts.eval ⟨h1, rx⟩ none as = .ok v →
      Simple v.val ∧ ∀ h2 ctx, Acts.eval ⟨h2, rx⟩ ctx as = .ok v
  | .els e, v, h => by
    simp only [Acts.eval] at h ⊢
    exact static_eval rx h1 e v h
  | .act c e rest, v, h => by
    simp only [Acts.eval, bind_eq_ok] at h
    obtain ⟨a, ha, hu⟩ := h
    obtain ⟨-, iha⟩ := static_eval rx h1 c a ha
    split at hu
    · cases hu
    next hn =>
    split at hu
    · next b hb =>
      cases b
      · simp only [if_false, Bool.false_eq_true] at hu
        obtain ⟨s, ih⟩ := static_acts rx h1 rest v hu
        exact ⟨s, fun h2 ctx => by simp [Acts.eval, iha, ih, Ev.bind, hb, Val.isNull]⟩
      · simp only [if_true] at hu
        obtain ⟨s, ih⟩ := static_eval rx h1 e v hu
        exact ⟨s, fun h2 ctx => by simp [Acts.eval, iha, ih, Ev.bind, hb, Val.isNull]⟩
    · cases hu
end

end Verif.Lemmas
