import Verif.Lemmas.Vcg.Strict
/-! Terms made without touching the graph have the value of the expression. -/
namespace Verif.Lemmas.Vcg
open Verif.Model Verif.Spec

/-- names have the type and the value they have in the context -/
def NamesOk (W : World) (I : Interp) (β : Nat → Int) (Γ : Gamma) (ρ : NameTrs) (c : List (String × FExpr)) : Prop :=
  ∀ n x, ρ n = some x → (∃ b, Γ n = some (x.ty, b)) ∧
    ∃ fe v, c.lookup n = some fe ∧ fe.eval W.heap = .ok v ∧ Repr W I β (some x.value, x.valid) v

variable {W : World} {I : Interp} {β : Nat → Int}

theorem fr_bind {α γ : Type} {x : FR α} {f : α → FR γ} {b : γ} : x.bind f = .ok b ↔ ∃ a, x = .ok a ∧ f a = .ok b := by
  cases x <;> simp [FR.bind]

theorem fr_need {α : Type} {x : Option α} {a : α} : FR.need x = .ok a ↔ x = some a := by
  cases x <;> simp [FR.need]

theorem strict_tvok {e : Expr} {Γ : Gamma} {c : List (String × FExpr)} {v : TV} (hw : WT W.D W.rx Γ e)
    (hs : Side W.D True True Γ e) (hc : CtxOk W.D W.objTy Γ c) (h : strict W.env c e = some v) :
    TVok W.D W.objTy W.heap e.typ v := by
  have := sound (ai := True) (aq := True) W.wf W.un W.hh W.rx e Γ c hw hs hc
  rw [show Expr.eval ⟨W.heap, W.rx⟩ (some c) e = .ok v from strict_eval W.env e c v h] at this
  exact this.1

theorem tvok_solid {t : Option Ty} {v : TV} (h : TVok W.D W.objTy W.heap t v) (hn : v.val.isNull = false) :
    ∃ τ, t = some τ ∧ v.typ = some τ ∧ VT W.D W.objTy W.heap τ v.val := by
  rcases h with rfl | ⟨τ, h1, h2, -, h4⟩
  · simp [Val.isNull] at hn
  · exact ⟨τ, h1, h2, h4⟩

theorem repr_true {a : Smt} {v : TV} (hn : v.val.isNull = false) (h : W.val I β a = W.rp v) :
    Repr W I β (some a, .bool true) v := by
  refine ⟨by simp [World.val, value, hn], fun _ => ⟨a, rfl, h⟩⟩

theorem repr_solid {p : TrPair} {v : TV} (h : Repr W I β p v) (hn : v.val.isNull = false) :
    ∃ a, p.1 = some a ∧ W.val I β a = W.rp v := h.2 hn

theorem mkValue_get {t : Option Ty} {x : Val} {v : TV} (h : mkValue t x = .ok v) : v = ⟨t, x⟩ := by
  rw [mkValue_eq_ok] at h; exact h.2

/-- the result of `==` and `!=` -/
theorem eq_result {op : BinOp} {t : Option Ty} {vl vr v : TV} {rx} (ha : op.allowsNull = true)
    (ht : binOk op vl.typ vr.typ t ∨ t = some .bool) (h : binaryOp rx op t vl vr = .ok v) {x : Smt}
    (hx : W.val I β x = .bool (vl.val.pyEq vr.val)) : W.val I β (negIf op x) = W.rp v ∧ v.val.isNull = false := by
  cases op <;> simp only [BinOp.allowsNull, Bool.false_eq_true] at ha
  · have := mkValue_get h
    subst this
    simp [negIf, hx, World.rp, rep, Val.isNull]
  · have := mkValue_get h
    subst this
    simp only [World.val] at hx
    simp [negIf, World.val, value, unSem, hx, World.rp, rep, Val.isNull, SV.asBool]

theorem static_value {r : Expr} {c : List (String × FExpr)} {vr : TV} (h : strict W.env c r = some vr) :
    ∀ v, W.trEnv.static r = some v → vr.val = v := by
  intro v hv
  simp only [TrEnv.static, World.trEnv] at hv
  split at hv
  · next w hw =>
    cases hv
    have := (static_eval W.rx (fun _ => none) r w hw).2 W.heap (some c)
    rw [show Expr.eval ⟨W.heap, W.rx⟩ (some c) r = .ok vr from strict_eval W.env r c vr h] at this
    cases this
    rfl
  · cases hv

theorem vt_bool {v : TV} (h : VT W.D W.objTy W.heap .bool v.val) : ∃ b, v.val = .bool b := h

theorem bin_notnull {rx op t vl vr} {w : TV} (ho : op ≠ .index) (h : binaryOp rx op t vl vr = .ok w) : w.val.isNull = false := by
  cases op <;> first | exact absurd rfl ho | skip
  all_goals
    simp only [binaryOp, arith, pyFloorDiv] at h
    repeat' split at h
    all_goals first
      | (cases h; done)
      | (have := mkValue_get h; subst this; rfl)

theorem un_notnull {op t} {v : Val} {w : TV} (h : unaryOp op t v = .ok w) : w.val.isNull = false := by
  unfold unaryOp at h
  split at h
  all_goals first
    | (cases h; done)
    | (have := mkValue_get h; subst this; rfl)

mutual
theorem trF_value (hI : IOk W I) : ∀ (e : Expr) (Γ : Gamma) (ρ : NameTrs) (c : List (String × FExpr)) (p : TrPair) (v : TV),
    Expr.trF W.trEnv ρ e = .ok p → strict W.env c e = some v → WT W.D W.rx Γ e → Side W.D True True Γ e →
    Exact W.D e → CtxOk W.D W.objTy Γ c → NamesOk W I β Γ ρ c → Repr W I β p v
  | .null, Γ, ρ, c, p, v, h, hv, hw, hs, he, hc, hn => by
    simp only [Expr.trF, FR.ok.injEq] at h
    simp only [strict, Option.some.injEq] at hv
    subst h hv
    refine ⟨by simp [World.val, value, Val.isNull], fun h => by simp [Val.isNull] at h⟩
  | .bool _, Γ, ρ, c, p, v, h, hv, hw, hs, he, hc, hn | .int _, Γ, ρ, c, p, v, h, hv, hw, hs, he, hc, hn
  | .dec _, Γ, ρ, c, p, v, h, hv, hw, hs, he, hc, hn | .str _, Γ, ρ, c, p, v, h, hv, hw, hs, he, hc, hn
  | .enum _ _, Γ, ρ, c, p, v, h, hv, hw, hs, he, hc, hn => by
    simp only [Expr.trF, FR.ok.injEq] at h
    simp only [strict, Option.some.injEq] at hv
    subst h hv
    exact repr_true rfl (by simp [World.val, value, World.rp, rep])
  | .name n t, Γ, ρ, c, p, v, h, hv, hw, hs, he, hc, hn => by
    simp only [Expr.trF, fr_bind, fr_need, FR.ok.injEq] at h
    obtain ⟨x, hx, rfl⟩ := h
    simp only [strict, Option.bind_eq_some_iff, get_eq_some] at hv
    obtain ⟨fe, h1, h2⟩ := hv
    obtain ⟨-, fe', v', h3, h4, h5⟩ := hn n x hx
    rw [h1] at h3; cases h3
    simp only [World.env] at h2
    rw [h2] at h4; cases h4
    exact h5
  | .unary t op e, Γ, ρ, c, p, v, h, hv, hw, hs, he, hc, hn => by
    simp only [Expr.trF, fr_bind, fr_need, FR.ok.injEq] at h
    obtain ⟨q, hq, a, ha, x, hx, rfl⟩ := h
    simp only [strict, Option.bind_eq_some_iff, solid_eq_some, get_eq_some] at hv
    obtain ⟨w, ⟨h1, n1⟩, h2⟩ := hv
    simp only [WT] at hw
    simp only [Side] at hs
    simp only [Exact] at he
    have ih := trF_value hI e Γ ρ c q w hq h1 hw.1 hs he hc hn
    obtain ⟨b, hb, hv'⟩ := repr_solid ih n1
    rw [ha] at hb; cases hb
    obtain ⟨τ, t1, t2, t3⟩ := tvok_solid (strict_tvok hw.1 hs hc h1) n1
    rw [t1] at hx hw
    refine repr_true (un_notnull h2) (unTerm_value t3 hw.2 h2 ?_ hx)
    rw [hv', World.rp, t2]
  | .binary t op l r, Γ, ρ, c, p, v, h, hv, hw, hs, he, hc, hn => by
    simp only [Expr.trF, fr_bind] at h
    obtain ⟨p1, hp1, p2, hp2, h⟩ := h
    simp only [WT] at hw
    simp only [Side] at hs
    simp only [Exact] at he
    simp only [strict] at hv
    split at hv
    · next ha =>
      simp only [Option.bind_eq_some_iff, get_eq_some] at hv
      obtain ⟨vl, h1, vr, h2, h3⟩ := hv
      have ihl := trF_value hI l Γ ρ c p1 vl hp1 h1 hw.1 hs.1 he.1 hc hn
      have ihr := trF_value hI r Γ ρ c p2 vr hp2 h2 hw.2.1 hs.2.1 he.2.1 hc hn
      have h' : ∃ x, eqTerm W.D (compTyp l r p1.1) p1 p2 = some x ∧ p = (some (negIf op x), .bool true) := by
        cases op <;> simp only [BinOp.allowsNull, Bool.false_eq_true] at ha <;>
        · simp only [fr_bind, fr_need, FR.ok.injEq] at h
          obtain ⟨x, hx, rfl⟩ := h
          exact ⟨x, hx, rfl⟩
      obtain ⟨x, hx, rfl⟩ := h'
      have := eqTerm_value (strict_tvok hw.1 hs.1 hc h1) (strict_tvok hw.2.1 hs.2.1 hc h2) (he.2.2.1 ha) ihl ihr hx
      have tb : t = some .bool := by
        have := hw.2.2.1
        cases op <;> simp_all [BinOp.allowsNull, binOk]
      have := eq_result ha (Or.inr tb) h3 this
      exact repr_true this.2 this.1
    · next ha =>
      simp only [Option.bind_eq_some_iff, get_eq_some, solid_eq_some] at hv
      obtain ⟨vl, ⟨h1, n1⟩, vr, ⟨h2, n2⟩, h3⟩ := hv
      have ihl := trF_value hI l Γ ρ c p1 vl hp1 h1 hw.1 hs.1 he.1 hc hn
      have ihr := trF_value hI r Γ ρ c p2 vr hp2 h2 hw.2.1 hs.2.1 he.2.1 hc hn
      have h' : op ≠ .index ∧ ∃ a b x, p1.1 = some a ∧ p2.1 = some b ∧ binTerm W.trEnv op l r a b = some x ∧
          p = (some x, .bool true) := by
        cases op <;> simp only [BinOp.allowsNull, not_true_eq_false] at ha <;>
        · simp only [fr_bind, fr_need, FR.ok.injEq, reduceCtorEq] at h
          try
            obtain ⟨a, ha, b, hb, x, hx, rfl⟩ := h
            exact ⟨by simp, a, b, x, ha, hb, hx, rfl⟩
      obtain ⟨hix, a, b, x, ha', hb', hx, rfl⟩ := h'
      obtain ⟨a', e1, va⟩ := repr_solid ihl n1
      obtain ⟨b', e2, vb⟩ := repr_solid ihr n2
      rw [ha'] at e1; cases e1
      rw [hb'] at e2; cases e2
      obtain ⟨σ, s1, s2, s3⟩ := tvok_solid (strict_tvok hw.1 hs.1 hc h1) n1
      obtain ⟨τ, t1, t2, t3⟩ := tvok_solid (strict_tvok hw.2.1 hs.2.1 hc h2) n2
      have hb := hw.2.2.1
      rw [s1, t1] at hb
      have hin : op = .arrContains → ∃ id lo hi, τ = .arr id σ lo hi := by
        intro h
        obtain ⟨id, σ', lo, hi, g1, g2⟩ := he.2.2.2 h
        rw [s1] at g1; cases g1
        rw [t1] at g2; cases g2
        exact ⟨_, _, _, rfl⟩
      exact repr_true (bin_notnull hix h3) (binTerm_value s1 s2 t2 s3 t3 hb (static_value h2) hin h3 va vb hx hI)
  | .logic op l r, Γ, ρ, c, p, v, h, hv, hw, hs, he, hc, hn => by
    simp only [Expr.trF, fr_bind, fr_need] at h
    obtain ⟨p1, hp1, p2, hp2, a, ha, b, hb, h⟩ := h
    simp only [WT] at hw
    simp only [Side] at hs
    simp only [Exact] at he
    simp only [strict, Option.bind_eq_some_iff, solid_eq_some] at hv
    obtain ⟨vl, ⟨h1, n1⟩, hv⟩ := hv
    have ihl := trF_value hI l Γ ρ c p1 vl hp1 h1 hw.1 hs.1 he.1 hc hn
    obtain ⟨a', e1, va⟩ := repr_solid ihl n1
    rw [ha] at e1; cases e1
    have htl := strict_tvok hw.1 hs.1 hc h1
    rw [hw.2.2.1] at htl
    obtain ⟨τ, t1, t2, t3⟩ := tvok_solid htl n1
    cases t1
    obtain ⟨bl, hbl⟩ := t3
    have vr : ∀ w, solid (strict W.env c r) = some w → w.val.isNull = false ∧ ∃ br, w.val = .bool br ∧ W.val I β b = .bool br := by
      intro w hw'
      obtain ⟨h2, n2⟩ := solid_eq_some.1 hw'
      have ihr := trF_value hI r Γ ρ c p2 w hp2 h2 hw.2.1 hs.2 he.2 hc hn
      obtain ⟨b', e2, vb⟩ := repr_solid ihr n2
      rw [hb] at e2; cases e2
      have htr := strict_tvok hw.2.1 hs.2 hc h2
      rw [hw.2.2.2] at htr
      obtain ⟨τ, t1, t2, t3⟩ := tvok_solid htr n2
      cases t1
      obtain ⟨br, hbr⟩ := t3
      exact ⟨n2, br, hbr, by rw [vb, World.rp, hbr]; simp [rep]⟩
    have va' : W.val I β a = .bool bl := by rw [va, World.rp, hbl]; simp [rep]
    simp only [World.val] at va'
    rw [hbl] at hv
    cases op <;> cases bl <;> simp only [if_true, if_false, Bool.false_eq_true, FR.ok.injEq, Option.some.injEq] at h hv <;> subst h
    all_goals first
      | (subst hv
         exact repr_true (by first | exact n1 | rfl) (by
          simp [World.val, value, binSem, va', SV.asBool, World.rp, hbl, rep]))
      | (obtain ⟨n2, br, g1, g2⟩ := vr v hv
         simp only [World.val] at g2
         exact repr_true n2 (by simp [World.val, value, binSem, va', g2, SV.asBool, World.rp, g1, rep]))
  | .field e n t, Γ, ρ, c, p, v, h, hv, hw, hs, he, hc, hn => by
    simp only [Expr.trF, fr_bind, fr_need] at h
    obtain ⟨q, hq, a, ha, h⟩ := h
    simp only [strict, Option.bind_eq_some_iff, solid_eq_some, fieldOf_eq] at hv
    obtain ⟨w, ⟨h1, n1⟩, h2⟩ := hv
    simp only [WT] at hw
    simp only [Side] at hs
    simp only [Exact] at he
    have ih := trF_value hI e Γ ρ c q w hq h1 hw.1 hs.1 he hc hn
    obtain ⟨b, hb, hv'⟩ := repr_solid ih n1
    rw [ha] at hb; cases hb
    obtain ⟨τ, t1, t2, t3⟩ := tvok_solid (strict_tvok hw.1 hs.1 hc h1) n1
    have hw2 := hw.2
    have hs2 := hs.2
    rw [t1] at h hw2 hs2
    simp only [World.rp, t2] at hv'
    exact fieldTerm_value hI t3 hw2 (fun id ms h => hs2 id ms (by rw [h])) h hv' h2
  | .range e lo up, Γ, ρ, c, p, v, h, hv, hw, hs, he, hc, hn => by
    simp only [Expr.trF, fr_bind, reduceCtorEq, and_false, exists_false] at h
  | .oneof cs, Γ, ρ, c, p, v, h, hv, hw, hs, he, hc, hn => by
    cases cs <;> simp only [Expr.trF, fr_bind, reduceCtorEq, and_false, exists_false] at h
  | .cond t as, Γ, ρ, c, p, v, h, hv, hw, hs, he, hc, hn => by
    simp only [Expr.trF, fr_bind, FR.ok.injEq] at h
    obtain ⟨a, ha, rfl⟩ := h
    simp only [strict] at hv
    simp only [WT] at hw
    simp only [Side] at hs
    simp only [Exact] at he
    have := actsF_value hI as Γ ρ c t a v ha hv hw hs he hc hn
    exact repr_true this.1 this.2
  | .quant _ _ _ _, Γ, ρ, c, p, v, h, hv, hw, hs, he, hc, hn => by
    simp only [Expr.trF, reduceCtorEq] at h
theorem actsF_value (hI : IOk W I) : ∀ (as : Acts) (Γ : Gamma) (ρ : NameTrs) (c : List (String × FExpr)) (t : Ty) (a : Smt)
    (v : TV), Acts.trF W.trEnv ρ as = .ok a → strictA W.env c as = some v → WTa W.D W.rx Γ t as → SideA W.D True True Γ as →
    ExactA W.D as → CtxOk W.D W.objTy Γ c → NamesOk W I β Γ ρ c → v.val.isNull = false ∧ W.val I β a = W.rp v
  | .els e, Γ, ρ, c, t, a, v, h, hv, hw, hs, he, hc, hn => by
    simp only [Acts.trF, fr_bind, fr_need] at h
    obtain ⟨p, hp, ha⟩ := h
    simp only [strictA, solid_eq_some] at hv
    simp only [WTa] at hw
    simp only [SideA] at hs
    simp only [ExactA] at he
    have ih := trF_value hI e Γ ρ c p v hp hv.1 hw.1 hs he hc hn
    obtain ⟨b, hb, hv'⟩ := repr_solid ih hv.2
    rw [ha] at hb; cases hb
    exact ⟨hv.2, hv'⟩
  | .act k e rest, Γ, ρ, c, t, a, v, h, hv, hw, hs, he, hc, hn => by
    simp only [Acts.trF, fr_bind, fr_need, FR.ok.injEq] at h
    obtain ⟨x, hx, p, hp, tk, htk, q, hq, ae, hae, rfl⟩ := h
    simp only [strictA, Option.bind_eq_some_iff, solid_eq_some] at hv
    obtain ⟨vk, ⟨h1, n1⟩, hv⟩ := hv
    simp only [WTa] at hw
    simp only [SideA] at hs
    simp only [ExactA] at he
    obtain ⟨w1, w2, w3, w4, w5⟩ := hw
    have ihk := trF_value hI k Γ ρ c p vk hp h1 w1 hs.1 he.1 hc hn
    obtain ⟨b, hb, hvk⟩ := repr_solid ihk n1
    rw [htk] at hb; cases hb
    split at hv
    · next b hb =>
      have va' : W.val I β tk = .bool b := by rw [hvk, World.rp, hb]; simp [rep]
      simp only [World.val] at va'
      cases b
      · simp only [Bool.false_eq_true, if_false] at hv
        have ih := actsF_value hI rest Γ ρ c t x v hx hv w5 hs.2.2 he.2.2 hc hn
        refine ⟨ih.1, ?_⟩
        rw [← ih.2]
        simp [World.val, value, va', SV.asBool]
      · simp only [if_true] at hv
        obtain ⟨h2, n2⟩ := solid_eq_some.1 hv
        have ih := trF_value hI e Γ ρ c q v hq h2 w3 hs.2.1 he.2.1 hc hn
        obtain ⟨b', hb', hv'⟩ := repr_solid ih n2
        rw [hae] at hb'; cases hb'
        refine ⟨n2, ?_⟩
        rw [← hv']
        simp [World.val, value, va', SV.asBool]
    · cases hv
end

end Verif.Lemmas.Vcg
