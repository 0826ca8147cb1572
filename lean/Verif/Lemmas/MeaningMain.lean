import Verif.Lemmas.MeaningElab
/-!
The meaning of accepted check expressions: the induction over syntax trees.
-/
namespace Verif.Lemmas
open Verif.Model Verif.Spec Verif.Props

variable {E : ElEnv} {objTy : Nat → Option Nat} {heap : Nat → Option Fields}

theorem operand (wf : WFDecls E.decls) (un : UniqueNames E.decls) (hh : HeapOk E.decls objTy heap)
    {sc : TScope} {c : List (String × FExpr)} {r : Raw} {e : Expr} (he : r.elab E sc = .ok e)
    (hs : Side E.decls True True (scopeΓ sc) e) (hc : CtxOk E.decls objTy (scopeΓ sc) c)
    (hm : ∀ v, Gives ⟨heap, E.rx⟩ (some c) e v ↔ HasMeaning heap E.rx (Typed E) sc c r v) :
    Operand E objTy heap sc c r e where
  typed := (elab_typed wf un r sc e.typ).1 ⟨e, he, rfl⟩
  tagged := by
    intro x hx
    have := sound wf un hh E.rx e _ c (elab_wt wf r sc e he) hs hc
    rw [hx] at this
    exact this.1
  means := hm

theorem same_type (wf : WFDecls E.decls) (un : UniqueNames E.decls) {sc : TScope} {r : Raw}
    {t u : Option Ty} (ht : Typed E sc r t) (hu : Typed E sc r u) : t = u := by
  obtain ⟨e1, he1, ht1⟩ := (elab_typed wf un r sc _).2 ht
  obtain ⟨e2, he2, ht2⟩ := (elab_typed wf un r sc _).2 hu
  rw [he1] at he2; cases he2; rw [← ht1, ht2]

theorem sides_mem {D : Decls} {ai aq : Prop} {Γ : Gamma} : ∀ {es : Exprs}, Sides D ai aq Γ es →
    ∀ e ∈ es.toList, Side D ai aq Γ e
  | .nil, _, e, h => by simp [Exprs.toList] at h
  | .cons a es, hs, e, h => by
    simp only [Sides] at hs
    simp only [Exprs.toList, List.mem_cons] at h
    rcases h with rfl | h
    · exact hs.1
    · exact sides_mem hs.2 e h

theorem mem_sides {D : Decls} {ai aq : Prop} {Γ : Gamma} : ∀ {es : Exprs},
    (∀ e ∈ es.toList, Side D ai aq Γ e) → Sides D ai aq Γ es
  | .nil, _ => by simp [Sides]
  | .cons a es, hs => by
    simp only [Exprs.toList, List.mem_cons, forall_eq_or_imp] at hs
    exact ⟨hs.1, mem_sides hs.2⟩

/-- the parameters of a call satisfy the side conditions -/
theorem call_sides {D : Decls} {rx : List Char → List Char → Bool} {rxOk : List Char → Bool} {f : String}
    {args : Exprs} {x : Expr} {Γ : Gamma} (h : mkCall D rx rxOk f args = .ok x)
    (hs : Side D True True Γ x) : Sides D True True Γ args := by
  unfold mkCall at h
  apply mem_sides
  split at h
  · split at h
    · next a ha =>
      rw [ha]
      split at h <;>
      · obtain ⟨rfl, -⟩ := mkUnary_iff.1 h
        simpa [Side] using hs
    · cases h
  split at h
  · split at h
    · next a b ha =>
      rw [ha]
      obtain ⟨rfl, -⟩ := mkBinary_iff.1 h
      simp only [Side] at hs
      simp [hs.1, hs.2.1]
    · cases h
  split at h
  · split at h
    · next a b ha =>
      rw [ha]
      obtain ⟨rfl, -⟩ := mkBinary_iff.1 h
      simp only [Side] at hs
      simp [hs.1, hs.2.1]
    · cases h
  split at h
  · split at h
    · next a b ha =>
      rw [ha]
      simp only [el_bind_ok] at h
      obtain ⟨-, -, u, -, h⟩ := h
      split at h
      · split at h
        · obtain ⟨rfl, -⟩ := mkBinary_iff.1 h
          simp only [Side] at hs
          simp [hs.1, hs.2.1]
        · cases h
      · cases h
    · cases h
  split at h
  · split at h
    · cases h
    · obtain ⟨rfl, -⟩ := mkOneOf_iff.1 h
      simp only [Side] at hs
      exact sides_mem hs
  split at h
  · split at h
    · next a ha =>
      rw [ha]
      simp only [el_bind_ok] at h
      obtain ⟨-, -, h⟩ := h
      obtain ⟨rfl, -⟩ := mkUnary_iff.1 h
      simpa [Side] using hs
    · cases h
  split at h
  · split at h
    · next a ha =>
      rw [ha]
      simp only [el_bind_ok] at h
      obtain ⟨-, -, h⟩ := h
      obtain ⟨rfl, -⟩ := mkUnary_iff.1 h
      simpa [Side] using hs
    · cases h
  · cases h

theorem wts_mem {D : Decls} {rx : List Char → List Char → Bool} {Γ : Gamma} : ∀ {es : Exprs}, WTs D rx Γ es →
    ∀ e ∈ es.toList, WT D rx Γ e
  | .nil, _, e, h => by simp [Exprs.toList] at h
  | .cons a es, hs, e, h => by
    simp only [WTs] at hs
    simp only [Exprs.toList, List.mem_cons] at h
    rcases h with rfl | h
    · exact hs.1
    · exact wts_mem hs.2 e h

theorem not_side {neg : Bool} {x y : Expr} {D : Decls} {Γ : Gamma} (h : mkNot neg x = .ok y)
    (hs : Side D True True Γ y) : Side D True True Γ x := by
  unfold mkNot at h
  split at h
  · obtain ⟨rfl, -⟩ := mkUnary_iff.1 h
    simpa [Side] using hs
  · cases h; exact hs

theorem gives_lit {env : EvEnv} {ctx : Ctx} {e : Expr} {t : Ty} {v w : Val} (hw : w.isNull = false)
    (he : e.eval env ctx = mkValue (some t) w) : Gives env ctx e v ↔ v = w := by
  unfold Gives
  rw [he]
  constructor
  · rintro ⟨t, h⟩
    rw [mk_some] at h
    cases h.2
    rfl
  · rintro rfl
    exact ⟨_, mk_some.2 ⟨hw, rfl⟩⟩

section
variable (wf : WFDecls E.decls) (un : UniqueNames E.decls) (hh : HeapOk E.decls objTy heap)
include wf un hh

mutual
theorem elab_means : ∀ (r : Raw) (sc : TScope) (c : List (String × FExpr)) (e : Expr),
    r.elab E sc = .ok e → Side E.decls True True (scopeΓ sc) e → CtxOk E.decls objTy (scopeΓ sc) c →
    ∀ v, Gives ⟨heap, E.rx⟩ (some c) e v ↔ HasMeaning heap E.rx (Typed E) sc c r v
  | .null, sc, c, e, h, hs, hc, v => by
    simp only [Raw.elab, El.ok.injEq] at h
    subst h
    simp only [Gives, Expr.eval, mk_none, HasMeaning]
    constructor
    · rintro ⟨t, -, h⟩; cases h; rfl
    · rintro rfl; exact ⟨none, rfl, rfl⟩
  | .bool b, sc, c, e, h, hs, hc, v => by
    simp only [Raw.elab, El.ok.injEq] at h
    subst h
    simp only [HasMeaning]
    exact gives_lit (t := .bool) rfl (by simp only [Expr.eval])
  | .int b, sc, c, e, h, hs, hc, v => by
    simp only [Raw.elab, El.ok.injEq] at h
    subst h
    simp only [HasMeaning]
    exact gives_lit (t := .int) rfl (by simp only [Expr.eval])
  | .dec b, sc, c, e, h, hs, hc, v => by
    simp only [Raw.elab, El.ok.injEq] at h
    subst h
    simp only [HasMeaning]
    exact gives_lit (t := .dec) rfl (by simp only [Expr.eval])
  | .str b, sc, c, e, h, hs, hc, v => by
    simp only [Raw.elab, El.ok.injEq] at h
    subst h
    simp only [HasMeaning]
    exact gives_lit (t := .str) rfl (by simp only [Expr.eval])
  | .enumLit path lit, sc, c, e, h, hs, hc, v => by
    simp only [Raw.elab] at h
    simp only [HasMeaning]
    split at h
    · cases h
    · next t ht =>
      split at h
      · cases h
        rw [gives_lit (t := .enum t) (w := .enum t lit) rfl (by simp only [Expr.eval])]
        simp [ht]
      · cases h
  | .name x, sc, c, e, h, hs, hc, v => by
    have hx : ∃ t, e = .name x t := by
      simp only [Raw.elab] at h
      split at h
      · cases h; exact ⟨_, rfl⟩
      · split at h
        · cases h; exact ⟨_, rfl⟩
        · cases h
    obtain ⟨t, rfl⟩ := hx
    simp only [Gives, Expr.eval, HasMeaning]
    cases hl : c.lookup x with
    | none => simp
    | some fe =>
      simp only [Option.some.injEq, exists_eq_left', value_iff]
      constructor
      · rintro ⟨t, w, hw, h⟩; cases h; exact hw
      · intro hw; exact ⟨_, v, hw, rfl⟩
  | .dot p f, sc, c, e, h, hs, hc, v => by
    simp only [Raw.elab, el_bind_ok] at h
    obtain ⟨pe, hp, h⟩ := h
    obtain ⟨t, rfl⟩ := mkField_inv h
    simp only [Side] at hs
    have ih := elab_means p sc c pe hp hs.1 hc
    simp only [gives_field, ih, HasMeaning]
  | .index p i, sc, c, e, h, hs, hc, v => by
    simp only [Raw.elab, el_bind_ok] at h
    obtain ⟨pe, hp, ie, hi, h⟩ := h
    obtain ⟨id, elem, lo, hi', ht, rfl⟩ := mkIndex_inv h
    simp only [Side] at hs
    exact means_index hh (operand wf un hh hp hs.1 hc (elab_means p sc c pe hp hs.1 hc))
      (operand wf un hh hi hs.2.1 hc (elab_means i sc c ie hi hs.2.1 hc)) ht wf un v
  | .call f args, sc, c, e, h, hs, hc, v => by
    simp only [Raw.elab, el_bind_ok] at h
    obtain ⟨as, ha, h⟩ := h
    have hs' := call_sides h hs
    have ih := elab_meansAll args sc c as ha hs' hc
    have hw := wts_mem (elabs_wt wf args sc as ha)
    rw [call_means (env := ⟨heap, E.rx⟩) (objTy := objTy) h ?_ v]
    · simp only [HasMeaning, ih]
    · intro e he x hx
      have := sound wf un hh E.rx e _ c (hw e he) (sides_mem hs' e he) hc
      rw [hx] at this
      exact this.1
  | .sign minus a, sc, c, e, h, hs, hc, v => by
    simp only [Raw.elab, el_bind_ok] at h
    obtain ⟨ae, ha, h⟩ := h
    obtain ⟨rfl, t, ht, -⟩ := mkUnary_iff.1 h
    simp only [Side] at hs
    have ih := elab_means a sc c ae ha hs hc
    rw [ht, gives_sign]
    simp only [ih, HasMeaning]
  | .not a, sc, c, e, h, hs, hc, v => by
    simp only [Raw.elab, el_bind_ok] at h
    obtain ⟨ae, ha, h⟩ := h
    obtain ⟨rfl, t, ht, -⟩ := mkUnary_iff.1 h
    simp only [Side] at hs
    have ih := elab_means a sc c ae ha hs hc
    rw [gives_unary]
    simp only [ih, HasMeaning]
    constructor
    · rintro ⟨w, hw, -, x, hx, rfl⟩
      cases w <;> simp only [unaryOp, mk_some, reduceCtorEq] at hx
      exact ⟨_, hw, by rw [hx.2]⟩
    · rintro ⟨b, hb, rfl⟩
      exact ⟨_, hb, rfl, _, mk_some.2 ⟨rfl, rfl⟩, rfl⟩
  | .abs a, sc, c, e, h, hs, hc, v => by
    simp only [Raw.elab, el_bind_ok] at h
    obtain ⟨ae, ha, h⟩ := h
    obtain ⟨rfl, t, ht, -⟩ := mkUnary_iff.1 h
    simp only [Side] at hs
    have ih := elab_means a sc c ae ha hs hc
    rw [ht, gives_abs]
    simp only [ih, HasMeaning]
  | .power l r, sc, c, e, h, hs, hc, v => by
    simp only [Raw.elab, el_bind_ok] at h
    obtain ⟨le, hl, re, hr, h⟩ := h
    obtain ⟨t, i, u, rfl, h1, h2⟩ := mkPower_inv h
    simp only [Side] at hs
    have il := elab_means l sc c le hl hs.1 hc
    have ir := elab_means r sc c re hr hs.2.1 hc
    rw [gives_power ((static_eval E.rx _ re _ h1).2 heap (some c)) h2]
    simp only [il, ir, HasMeaning]
  | .arith op l r, sc, c, e, h, hs, hc, v => by
    simp only [Raw.elab, el_bind_ok] at h
    obtain ⟨le, hl, re, hr, h⟩ := h
    obtain ⟨t, rfl⟩ := mkArith_inv h
    simp only [Side] at hs
    have il := elab_means l sc c le hl hs.1 hc
    have ir := elab_means r sc c re hr hs.2.1 hc
    rw [gives_binary_vals (P := fun a b => ArithMeans op a b v) (fun a b => arith_means)]
    simp only [il, ir, HasMeaning]
  | .cmp op l r, sc, c, e, h, hs, hc, v => by
    simp only [Raw.elab, el_bind_ok] at h
    obtain ⟨le, hl, re, hr, h⟩ := h
    obtain ⟨rfl, -⟩ := mkBinary_iff.1 h
    simp only [Side] at hs
    have il := elab_means l sc c le hl hs.1 hc
    have ir := elab_means r sc c re hr hs.2.1 hc
    rw [gives_binary_vals (P := fun a b => CmpMeans op a b v) (fun a b => cmp_means)]
    simp only [il, ir, HasMeaning]
  | .isIn neg l r, sc, c, e, h, hs, hc, v => by
    simp only [Raw.elab, el_bind_ok] at h
    obtain ⟨le, hl, re, hr, x, hx, h⟩ := h
    have hs' := not_side h hs
    obtain ⟨hs1, hs2⟩ : Side E.decls True True (scopeΓ sc) le ∧ Side E.decls True True (scopeΓ sc) re := by
      rcases mkIn_inv hx with ⟨_, -, -, rfl⟩ | ⟨_, _, _, _, _, -, -, rfl⟩ <;> simp only [Side] at hs' <;>
        exact ⟨hs'.1, hs'.2.1⟩
    have ol := operand wf un hh hl hs1 hc (elab_means l sc c le hl hs1 hc)
    have or := operand wf un hh hr hs2 hc (elab_means r sc c re hr hs2 hc)
    simp only [HasMeaning]
    rcases mkIn_inv hx with ⟨τ, hτ, hst, rfl⟩ | ⟨xt, id, elem, lo, hi, hxt, ht, rfl⟩
    · rw [gives_not (Q := fun d => ∃ s t, HasMeaning heap E.rx (Typed E) sc c l (.str s) ∧
          HasMeaning heap E.rx (Typed E) sc c r (.str t) ∧ (d = true ↔ ∃ p q, t = p ++ s ++ q)) ?_ h]
      · constructor
        · rintro ⟨d, ⟨s, t, h1, h2, h3⟩, h4⟩
          exact Or.inl ⟨s, t, d, h1, h2, h3, h4⟩
        · rintro (⟨s, t, d, h1, h2, h3, h4⟩ | ⟨x, es, d, xt, id, elem, lo, hi, h1, h2, -⟩)
          · exact ⟨d, ⟨s, t, h1, h2, h3⟩, h4⟩
          · exfalso
            obtain ⟨tb, hb⟩ := (or.means _).2 h2
            obtain ⟨σ, h3, -, h4⟩ := tvok_nonnull (or.tagged _ hb) (by simp [Val.isNull])
            rw [hτ] at h3
            cases h3
            obtain ⟨_, h5⟩ := vt_str (by rcases hst with rfl | rfl <;> simp [isStr]) h4
            cases h5
      · intro v
        rw [gives_str2 (g := isInfix) rfl (fun _ _ => rfl)]
        simp only [ol.means, or.means, bool_iff (infix_iff _ _)]
        constructor
        · rintro ⟨s, t, h1, h2, d, h3, h4⟩; exact ⟨d, ⟨s, t, h1, h2, h4⟩, h3⟩
        · rintro ⟨d, ⟨s, t, h1, h2, h4⟩, h3⟩; exact ⟨s, t, h1, h2, d, h3, h4⟩
    · rw [gives_not (means_arrIn hh ol or hxt ht) h]
      constructor
      · rintro ⟨d, ⟨x, es, h1, h2, h3, h4⟩, h5⟩
        exact Or.inr ⟨x, es, d, xt, id, elem, lo, hi, h1, h2, h3, hxt ▸ ol.typed, ht ▸ or.typed, h4, h5⟩
      · rintro (⟨s, t, d, h1, h2, h3, h4⟩ | ⟨x, es, d, xt', id', elem', lo', hi', h1, h2, h3, h4, h5, h6, h7⟩)
        · exfalso
          obtain ⟨tb, hb⟩ := (or.means _).2 h2
          obtain ⟨σ, h3, -, h4⟩ := tvok_nonnull (or.tagged _ hb) (by simp [Val.isNull])
          rw [ht] at h3
          cases h3
          obtain ⟨_, vs, h5, -⟩ := vt_arr h4
          cases h5
        · have e1 := same_type wf un h4 ol.typed
          have e2 := same_type wf un h5 or.typed
          rw [hxt] at e1
          rw [ht] at e2
          cases e1
          cases e2
          exact ⟨d, ⟨x, es, h1, h2, h3, h6⟩, h7⟩
  | .inRange neg a l u, sc, c, e, h, hs, hc, v => by
    simp only [Raw.elab, el_bind_ok] at h
    obtain ⟨ae, ha, le, hl, ue, hu, x, hx, h⟩ := h
    have hs' := not_side h hs
    obtain ⟨rfl, -⟩ := mkRange_iff.1 hx
    simp only [Side] at hs'
    have ia := elab_means a sc c ae ha hs'.1 hc
    have il := elab_means l sc c le hl hs'.2.1 hc
    have iu := elab_means u sc c ue hu hs'.2.2 hc
    rw [gives_not (fun v => gives_range) h]
    simp only [ia, il, iu, HasMeaning]
    constructor
    · rintro ⟨d, ⟨w, l, u, x, y, z, h1, h2, h3, h4, h5, h6⟩, h7⟩
      exact ⟨w, l, u, x, y, z, d, h1, h2, h3, h4, h5, h6, h7⟩
    · rintro ⟨w, l, u, x, y, z, d, h1, h2, h3, h4, h5, h6, h7⟩
      exact ⟨d, ⟨w, l, u, x, y, z, h1, h2, h3, h4, h5, h6⟩, h7⟩
  | .logic op l r, sc, c, e, h, hs, hc, v => by
    simp only [Raw.elab, el_bind_ok] at h
    obtain ⟨le, hl, re, hr, h⟩ := h
    obtain ⟨hs1, hs2⟩ : Side E.decls True True (scopeΓ sc) le ∧ Side E.decls True True (scopeΓ sc) re := by
      rcases mkLogical_inv h with ⟨-, rfl⟩ | ⟨-, rfl⟩ | ⟨-, rfl⟩ | ⟨-, rfl⟩ <;> simp only [Side] at hs
      · exact hs
      · exact hs
      · exact hs
      · exact ⟨hs.1, hs.2.1⟩
    have il := elab_means l sc c le hl hs1 hc
    have ir := elab_means r sc c re hr hs2 hc
    rcases mkLogical_inv h with ⟨rfl, rfl⟩ | ⟨rfl, rfl⟩ | ⟨rfl, rfl⟩ | ⟨rfl, rfl⟩
    · simp only [gives_logic, il, ir, HasMeaning, Bool.exists_bool, decides]
    · simp only [gives_logic, il, ir, HasMeaning, Bool.exists_bool, decides]
      exact or_comm
    · simp only [gives_logic, il, ir, HasMeaning, Bool.exists_bool, decides]
    · rw [gives_binary_vals (P := fun x y => ∃ a b, x = .bool a ∧ y = .bool b ∧ v = .bool (a != b))]
      · simp only [il, ir, HasMeaning]
        constructor
        · rintro ⟨_, _, h1, h2, a, b, rfl, rfl, rfl⟩; exact ⟨a, b, h1, h2, rfl⟩
        · rintro ⟨a, b, h1, h2, rfl⟩; exact ⟨_, _, h1, h2, a, b, rfl, rfl, rfl⟩
      · rintro ⟨tl, l⟩ ⟨tr, r⟩
        cases l <;> cases r <;> simp [Val.isNull, mk_some, binaryOp, BinOp.allowsNull]
        exact eq_comm
  | .cond d a rest, sc, c, e, h, hs, hc, v => by
    simp only [Raw.elab, el_bind_ok] at h
    obtain ⟨de, hd, ae, ha, h⟩ := h
    split at h
    · cases h
    · next t ht =>
      simp only [el_bind_ok] at h
      obtain ⟨-, -, re, hr, h⟩ := h
      cases h
      simp only [Side, SideA] at hs
      have id := elab_means d sc c de hd hs.1 hc
      have ia := elab_means a sc c ae ha hs.2.1 hc
      have ir := elab_meansActs rest sc c t re hr hs.2.2 hc
      simp only [Gives, Expr.eval]
      rw [gives_act]
      simp only [id, ia, ir, HasMeaning]
  | .quant u x src body, sc, c, e, h, hs, hc, v => by
    simp only [Raw.elab] at h
    split at h
    · cases h
    split at h
    · cases h
    next hvar =>
    split at h
    · cases h
    next cmp hcomp =>
    split at h
    · next id elem lo hi hty =>
      simp only [el_bind_ok] at h
      obtain ⟨be, hb, -, -, h⟩ := h
      cases h
      have hΓ : scopeΓ sc src = some (.arr id elem lo hi, cmp.optional) := by
        simp [scopeΓ, hvar, hcomp, hty]
      simp only [Side] at hs
      have hs' := (hs id elem lo hi _ hΓ).1
      rw [← scopeΓ_bind] at hs'
      obtain ⟨fe, hfe, hok⟩ := hc src _ _ hΓ
      simp only [HasMeaning]
      constructor
      · rintro ⟨t, h⟩
        simp only [Expr.eval, hfe] at h
        split at h
        · cases h
        · cases h
        · next ty es heq =>
          cases heq
          refine ⟨cmp, id, elem, lo, hi, ty, es, hcomp, hty, hfe, ?_⟩
          have hall : AllOk E.decls objTy es elem := by
            rcases hok with ⟨-, h⟩ | hok
            · cases h
            · simp only [FOk] at hok
              obtain ⟨h0, id', e', lo', hi', h1, h2⟩ := hok
              rw [h1] at h0
              cases h0
              exact h2
          rw [← quant_congr (P := fun b w => Gives ⟨heap, E.rx⟩ (some ((x, b) :: c)) be w)]
          · exact quant_means.1 ⟨t, h⟩
          · intro b hb' w
            exact elab_means body _ _ be hb hs'
              (by rw [scopeΓ_bind]; exact ctxok_bind hc x (allok_mem hall hb')) w
        · cases h
      · rintro ⟨cmp', id', elem', lo', hi', ty, es, h1, h2, h3, h4⟩
        rw [hcomp] at h1
        cases h1
        rw [hty] at h2
        cases h2
        rw [hfe] at h3
        cases h3
        have hall : AllOk E.decls objTy es elem := by
          rcases hok with ⟨-, h⟩ | hok
          · cases h
          · simp only [FOk] at hok
            obtain ⟨h0, id', e', lo', hi', h1, h2⟩ := hok
            rw [h1] at h0
            cases h0
            exact h2
        rw [← quant_congr (P := fun b w => Gives ⟨heap, E.rx⟩ (some ((x, b) :: c)) be w)] at h4
        · obtain ⟨t, h⟩ := quant_means.2 h4
          exact ⟨t, by simpa only [Expr.eval, hfe] using h⟩
        · intro b hb' w
          exact elab_means body _ _ be hb hs'
            (by rw [scopeΓ_bind]; exact ctxok_bind hc x (allok_mem hall hb')) w
    · cases h

theorem elab_meansAll : ∀ (r : Raws) (sc : TScope) (c : List (String × FExpr)) (es : Exprs),
    r.elab E sc = .ok es → Sides E.decls True True (scopeΓ sc) es → CtxOk E.decls objTy (scopeΓ sc) c →
    ∀ vs, es.eval ⟨heap, E.rx⟩ (some c) = .ok vs ↔ HaveMeanings heap E.rx (Typed E) sc c r vs
  | .nil, sc, c, es, h, hs, hc, vs => by
    simp only [Raws.elab, El.ok.injEq] at h
    subst h
    simp only [Exprs.eval, HaveMeanings, Ev.ok.injEq]
    exact eq_comm
  | .cons a r, sc, c, es, h, hs, hc, vs => by
    simp only [Raws.elab, el_bind_ok, El.ok.injEq] at h
    obtain ⟨ae, ha, re, hr, rfl⟩ := h
    simp only [Sides] at hs
    have ia := elab_means a sc c ae ha hs.1 hc
    have ir := elab_meansAll r sc c re hr hs.2 hc
    simp only [Exprs.eval, bind_eq_ok, Ev.ok.injEq, HaveMeanings, ir, ← ia]
    constructor
    · rintro ⟨⟨t, w⟩, hw, ws, hws, rfl⟩; exact ⟨w, ws, ⟨t, hw⟩, hws, rfl⟩
    · rintro ⟨w, ws, ⟨t, hw⟩, hws, rfl⟩; exact ⟨⟨t, w⟩, hw, ws, hws, rfl⟩

theorem elab_meansActs : ∀ (r : RActs) (sc : TScope) (c : List (String × FExpr)) (t : Ty) (as : Acts),
    r.elab E sc t = .ok as → SideA E.decls True True (scopeΓ sc) as → CtxOk E.decls objTy (scopeΓ sc) c →
    ∀ v, (∃ t, as.eval ⟨heap, E.rx⟩ (some c) = .ok ⟨t, v⟩) ↔ ActsMean heap E.rx (Typed E) sc c r v
  | .els a, sc, c, t, as, h, hs, hc, v => by
    simp only [RActs.elab, el_bind_ok, El.ok.injEq] at h
    obtain ⟨ae, ha, -, -, rfl⟩ := h
    simp only [SideA] at hs
    simp only [Acts.eval, ActsMean]
    exact elab_means a sc c ae ha hs hc v
  | .act d a rest, sc, c, t, as, h, hs, hc, v => by
    simp only [RActs.elab, el_bind_ok, El.ok.injEq] at h
    obtain ⟨de, hd, ae, ha, -, -, -, -, re, hr, rfl⟩ := h
    simp only [SideA] at hs
    have id := elab_means d sc c de hd hs.1 hc
    have ia := elab_means a sc c ae ha hs.2.1 hc
    have ir := elab_meansActs rest sc c t re hr hs.2.2 hc
    rw [gives_act]
    simp only [id, ia, ir, ActsMean]
end
end

end Verif.Lemmas
