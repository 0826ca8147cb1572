import Verif.Spec.Strict
import Verif.Lemmas.Vcg.Ops4
/-! What has a value with all its parts evaluates to it. -/
namespace Verif.Lemmas.Vcg
open Verif.Model Verif.Spec

theorem get_eq_some {α : Type} {x : Ev α} {a : α} : x.get = some a ↔ x = .ok a := by
  cases x <;> simp [Ev.get]

theorem solid_eq_some {x : Option TV} {v : TV} : solid x = some v ↔ x = some v ∧ v.val.isNull = false := by
  cases x with
  | none => simp [solid]
  | some w =>
    simp only [solid, Option.bind_some]
    split
    · next h =>
      simp only [reduceCtorEq, Option.some.injEq, false_iff, not_and, Bool.not_eq_false]
      rintro rfl; exact h
    · next h =>
      simp only [Option.some.injEq]
      constructor
      · rintro rfl; exact ⟨rfl, by simpa using h⟩
      · exact (·.1)

theorem fieldOf_eq {heap : Nat → Option Fields} {v : Val} {n : String} {w : TV} :
    fieldOf heap v n = some w ↔ fieldEval heap v n = .ok w := by
  cases v <;> simp only [fieldOf, fieldEval, reduceCtorEq]
  · split <;> rename_i h <;> simp [h, mkValue, Val.isNull]
  · split <;> rename_i h
    · simp [h, mkValue, Val.isNull]
    · simp only [h]; exact get_eq_some

theorem allBools_quant {u : Bool} {f : FExpr → Option TV} {g : FExpr → Ev TV} {es : List FExpr}
    (hfg : ∀ e ∈ es, ∀ v, f e = some v → g e = .ok v) {bs : List Bool} (h : allBools f es = some bs) :
    quantLoop u g es = .ok ⟨some .bool, .bool (if u then bs.all id else bs.any id)⟩ := by
  induction es generalizing bs with
  | nil =>
    simp only [allBools, Option.some.injEq] at h
    subst h
    cases u <;> simp [quantLoop, mkValue, Val.isNull]
  | cons e es ih =>
    simp only [allBools, Option.bind_eq_some_iff] at h
    obtain ⟨r, hr, h⟩ := h
    split at h
    · next x hx =>
      simp only [Option.bind_eq_some_iff, Option.some.injEq] at h
      obtain ⟨ys, hys, rfl⟩ := h
      have ih := ih (fun e he => hfg e (List.mem_cons_of_mem _ he)) hys
      simp only [quantLoop, hfg e List.mem_cons_self r hr, Ev.bind, hx]
      cases u <;> cases x <;> simp_all [mkValue, Val.isNull]
    · cases h

mutual
theorem strict_eval (env : EvEnv) : ∀ (e : Expr) (c : List (String × FExpr)) (v : TV),
    strict env c e = some v → Expr.eval env (some c) e = .ok v
  | .null, c, v, h | .bool _, c, v, h | .int _, c, v, h | .dec _, c, v, h | .str _, c, v, h
  | .enum _ _, c, v, h => by
    simp only [strict, Option.some.injEq] at h
    subst h
    simp [Expr.eval, mkValue, Val.isNull]
  | .name n t, c, v, h => by
    simp only [strict, Option.bind_eq_some_iff, get_eq_some] at h
    obtain ⟨e, h1, h2⟩ := h
    simp [Expr.eval, h1, h2]
  | .unary t op e, c, v, h => by
    simp only [strict, Option.bind_eq_some_iff, get_eq_some, solid_eq_some] at h
    obtain ⟨a, ⟨h1, hn⟩, h2⟩ := h
    simp [Expr.eval, strict_eval env e c a h1, Ev.bind, unary, hn, h2]
  | .binary t op l r, c, v, h => by
    simp only [strict] at h
    split at h
    · next ha =>
      simp only [Option.bind_eq_some_iff, get_eq_some] at h
      obtain ⟨a, h1, b, h2, h3⟩ := h
      simp [Expr.eval, strict_eval env l c a h1, strict_eval env r c b h2, Ev.bind, ha, h3]
    · simp only [Option.bind_eq_some_iff, get_eq_some, solid_eq_some] at h
      obtain ⟨a, ⟨h1, n1⟩, b, ⟨h2, n2⟩, h3⟩ := h
      simp [Expr.eval, strict_eval env l c a h1, strict_eval env r c b h2, Ev.bind, n1, n2, h3]
  | .logic op l r, c, v, h => by
    simp only [strict, Option.bind_eq_some_iff, solid_eq_some] at h
    obtain ⟨a, ⟨h1, n1⟩, h⟩ := h
    have e1 := strict_eval env l c a h1
    have e2 := strict_eval env r c
    simp only [Expr.eval, e1, Ev.bind, n1, Bool.false_eq_true, if_false]
    split at h
    all_goals first
      | (cases h; done)
      | (next b hb =>
          cases b <;> simp only [hb, if_true, if_false, Bool.false_eq_true] at h ⊢ <;> first
            | exact e2 v (solid_eq_some.1 h).1
            | (simp only [Option.some.injEq] at h; subst h; simp [mkValue, Val.isNull]))
  | .field p n t, c, v, h => by
    simp only [strict, Option.bind_eq_some_iff, solid_eq_some, fieldOf_eq] at h
    obtain ⟨a, ⟨h1, n1⟩, h⟩ := h
    rw [eval_field, strict_eval env p c a h1]
    exact h
  | .range e lo up, c, v, h => by
    simp only [strict, Option.bind_eq_some_iff, solid_eq_some, Option.map_eq_some_iff] at h
    obtain ⟨x, ⟨h1, n1⟩, y, ⟨h2, n2⟩, z, ⟨h3, n3⟩, b, h4, rfl⟩ := h
    simp only [Expr.eval, strict_eval env e c x h1, strict_eval env lo c y h2, strict_eval env up c z h3, Ev.bind,
      n1, n2, n3, Bool.false_eq_true, if_false]
    unfold inRange at h4
    split at h4
    · next g1 g2 g3 => cases h4; simp [g1, g2, g3, mkValue, Val.isNull]
    · next g1 g2 g3 => cases h4; simp [g1, g2, g3, mkValue, Val.isNull]
    · cases h4
  | .oneof cs, c, v, h => by
    simp only [strict, Option.map_eq_some_iff] at h
    obtain ⟨vs, h1, rfl⟩ := h
    simp [Expr.eval, stricts_eval env cs c vs h1, Ev.bind, mkValue, Val.isNull]
  | .cond t as, c, v, h => by
    simp only [strict] at h
    simp [Expr.eval, strictA_eval env as c v h]
  | .quant u x src body, c, v, h => by
    simp only [strict] at h
    split at h
    · next t es hs =>
      simp only [Option.map_eq_some_iff] at h
      obtain ⟨bs, h1, rfl⟩ := h
      simp only [Expr.eval, hs]
      exact allBools_quant (fun e _ v => strict_eval env body ((x, e) :: c) v) h1
    · cases h
theorem stricts_eval (env : EvEnv) : ∀ (es : Exprs) (c : List (String × FExpr)) (vs : List Val),
    stricts env c es = some vs → Exprs.eval env (some c) es = .ok vs
  | .nil, c, vs, h => by
    simp only [stricts, Option.some.injEq] at h
    subst h
    simp [Exprs.eval]
  | .cons e es, c, vs, h => by
    simp only [stricts, Option.bind_eq_some_iff, solid_eq_some, Option.map_eq_some_iff] at h
    obtain ⟨a, ⟨h1, -⟩, ws, h2, rfl⟩ := h
    simp [Exprs.eval, strict_eval env e c a h1, stricts_eval env es c ws h2, Ev.bind]
theorem strictA_eval (env : EvEnv) : ∀ (as : Acts) (c : List (String × FExpr)) (v : TV),
    strictA env c as = some v → Acts.eval env (some c) as = .ok v
  | .els e, c, v, h => by
    simp only [strictA, solid_eq_some] at h
    simp [Acts.eval, strict_eval env e c v h.1]
  | .act k e rest, c, v, h => by
    simp only [strictA, Option.bind_eq_some_iff, solid_eq_some] at h
    obtain ⟨a, ⟨h1, n1⟩, h⟩ := h
    simp only [Acts.eval, strict_eval env k c a h1, Ev.bind, n1, Bool.false_eq_true, if_false]
    split at h
    · next b hb =>
      cases b <;> simp only [hb, if_true, if_false, Bool.false_eq_true] at h ⊢
      · exact strictA_eval env rest c v h
      · exact strict_eval env e c v (solid_eq_some.1 h).1
    · cases h
end

end Verif.Lemmas.Vcg
