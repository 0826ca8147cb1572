import Verif.Lemmas.Calm
/-!
# Which internal exceptions can be raised while an expression is parsed
-/
namespace Verif.Lemmas
open Verif.Model Verif.Spec

/-! ## Building nodes -/

theorem el_bind_crash {α β : Type} {x : El α} {f : α → El β} {c : ElCrash} :
    x.bind f = .crash c ↔ x = .crash c ∨ ∃ a, x = .ok a ∧ f a = .crash c := by
  cases x <;> simp [El.bind]

theorem ensureClass_crash {t : Option Ty} {p : Ty → Bool} {c : ElCrash} : ensureClass t p ≠ .crash c := by
  unfold ensureClass
  split
  · simp
  · split <;> simp

theorem ensureTy_crash {t w : Option Ty} {c : ElCrash} : ensureTy t w ≠ .crash c := by
  unfold ensureTy
  split
  · simp
  · split <;> simp

theorem eqTypes_crash {D : Decls} {l r : Option Ty} {c : ElCrash} : eqTypes D l r ≠ .crash c := by
  unfold eqTypes
  repeat' split
  all_goals simp

theorem mkUnary_crash {t : Option Ty} {op : UnOp} {e : Expr} {c : ElCrash} : mkUnary t op e ≠ .crash c := by
  unfold mkUnary
  intro h
  rw [el_bind_crash] at h
  rcases h with h | ⟨a, -, h⟩
  · cases op <;> exact ensureClass_crash h
  · cases h

theorem binaryTypes_crash {D : Decls} {op : BinOp} {l r : Option Ty} {c : ElCrash} :
    binaryTypes D op l r ≠ .crash c := by
  intro h
  cases op <;> simp only [binaryTypes, el_bind_crash, ensureClass_crash, ensureTy_crash, eqTypes_crash,
    and_false, exists_const, or_self] at h
  split at h <;> simp only [el_bind_crash, ensureClass_crash, ensureTy_crash, and_false, exists_const, or_self] at h

theorem mkBinary_crash {D : Decls} {t : Option Ty} {op : BinOp} {l r : Expr} {c : ElCrash} :
    mkBinary D t op l r ≠ .crash c := by
  unfold mkBinary
  intro h
  rw [el_bind_crash] at h
  rcases h with h | ⟨a, -, h⟩
  · exact binaryTypes_crash h
  · cases h

theorem mkLogic_crash {op : SCOp} {l r : Expr} {c : ElCrash} : mkLogic op l r ≠ .crash c := by
  unfold mkLogic
  simp only [ne_eq, el_bind_crash, ensureClass_crash, reduceCtorEq, and_false, exists_const, or_self, not_false_eq_true]

theorem mkField_crash {D : Decls} {p : Expr} {f : String} {c : ElCrash} : mkField D p f ≠ .crash c := by
  unfold mkField
  intro h
  repeat' split at h
  all_goals first | cases h | (simp only [el_bind_crash, ensureTy_crash, reduceCtorEq, and_false, exists_const, or_self] at h)

theorem mkIndex_crash {D : Decls} {p i : Expr} {c : ElCrash} : mkIndex D p i ≠ .crash c := by
  unfold mkIndex
  split
  · exact mkBinary_crash
  · simp

theorem mkArith_crash {D : Decls} {op : ArOp} {l r : Expr} {c : ElCrash} : mkArith D op l r ≠ .crash c := by
  cases op <;> exact mkBinary_crash

theorem mkNot_crash {b : Bool} {e : Expr} {c : ElCrash} : mkNot b e ≠ .crash c := by
  unfold mkNot
  split
  · exact mkUnary_crash
  · simp

theorem mkIn_crash {D : Decls} {e a : Expr} {c : ElCrash} (h : mkIn D e a = .crash c) : Mild c := by
  unfold mkIn at h
  split at h
  · cases h; exact .inr (.inl rfl)
  · split at h
    · exact absurd h mkBinary_crash
    · split at h
      · exact absurd h mkBinary_crash
      · cases h

theorem mkRange_crash {e a b : Expr} {c : ElCrash} : mkRange e a b ≠ .crash c := by
  unfold mkRange
  simp only [ne_eq, el_bind_crash, ensureClass_crash, ensureTy_crash, reduceCtorEq, and_false, exists_const, or_self, not_false_eq_true]

theorem mkLogical_crash {D : Decls} {op : LogOp} {l r : Expr} {c : ElCrash} : mkLogical D op l r ≠ .crash c := by
  cases op
  case xor => exact mkBinary_crash
  all_goals exact mkLogic_crash

theorem mkOneOf_crash {es : Exprs} {c : ElCrash} : mkOneOf es ≠ .crash c := by
  have go := go_tail (c := c)
  unfold mkOneOf
  simp only [ne_eq, el_bind_crash, go, reduceCtorEq, and_false, exists_const, or_self, not_false_eq_true]
where
  go_tail {c : ElCrash} : ∀ es : Exprs, mkOneOf.go es ≠ .crash c
    | .nil => by simp [mkOneOf.go]
    | .cons e es => by
      have := go_tail (c := c) es
      simp only [mkOneOf.go, ne_eq, el_bind_crash, ensureClass_crash, this, and_false, exists_const, or_self, not_false_eq_true]

variable {D : Decls} {rx : List Char → List Char → Bool} {Γ : Gamma}

theorem evalStatic_crash {e : Expr} {c : ElCrash} (hw : WT D rx Γ e) (h : evalStatic rx e = .crash c) :
    Mild c := by
  have := static_good rx e Γ hw
  unfold evalStatic at h
  split at h
  · cases h
  · cases h
  · next x he =>
    rw [he] at this
    cases h
    have : x = .staticQuantifier := this
    subst this
    exact .inr (.inr rfl)

theorem evalStatic_calm {e : Expr} {v : TV} {τ : Ty} (hw : WT D rx Γ e) (h : evalStatic rx e = .ok v)
    (ht : e.typ = some τ) : SimpleTy τ ∧ VT D (fun _ => none) (fun _ => none) τ v.val := by
  have := static_good rx e Γ hw
  unfold evalStatic at h
  split at h
  · next x he =>
    rw [he, ht] at this
    cases h
    exact ⟨(goodS_simple this).1, (goodS_simple this).2.2⟩
  · cases h
  · cases h

theorem mkPower_crash {l r : Expr} {c : ElCrash} (hr : WT D rx Γ r) (h : mkPower D rx l r = .crash c) : Mild c := by
  simp only [mkPower, el_bind_crash, mkBinary_crash, false_or] at h
  rcases h with h | ⟨v, hv, e, he, h⟩
  · exact evalStatic_crash hr h
  · simp only [mkBinary, el_bind_ok, binaryTypes, ensureClass_ok, inst_int] at he
    obtain ⟨-, ⟨-, -, τ, ht, rfl⟩, -⟩ := he
    obtain ⟨i, hi⟩ := (evalStatic_calm hr hv ht).2
    rw [hi] at h
    dsimp only at h
    split at h <;> cases h

theorem mkCall_crash {rxOk : List Char → Bool} {f : String} {args : Exprs} {c : ElCrash}
    (hw : WTs D rx Γ args) (h : mkCall D rx rxOk f args = .crash c) : Mild c := by
  have hl := wts_toList hw
  unfold mkCall at h
  split at h
  · split at h
    · split at h <;> exact absurd h mkUnary_crash
    · cases h
  split at h
  · split at h
    · exact absurd h mkBinary_crash
    · cases h
  split at h
  · split at h
    · exact absurd h mkBinary_crash
    · cases h
  split at h
  · split at h
    · next a b hab =>
      have hb : WT D rx Γ b := hl b (by simp [hab])
      simp only [el_bind_crash, ensureClass_crash, ensureClass_ok, inst_str, false_or] at h
      obtain ⟨-, ⟨τ, ht, hτ⟩, h⟩ := h
      rcases h with h | ⟨v, hv, h⟩
      · exact evalStatic_crash hb h
      · obtain ⟨hs, hvt⟩ := evalStatic_calm hb hv ht
        rcases hτ with rfl | rfl
        · obtain ⟨s, hs⟩ := hvt
          rw [hs] at h
          dsimp only at h
          split at h
          · exact absurd h mkBinary_crash
          · cases h
        · exact hs.elim
    · cases h
  split at h
  · split at h
    · cases h
    · exact absurd h mkOneOf_crash
  split at h
  · split at h
    · simp only [el_bind_crash, ensureClass_crash, mkUnary_crash, and_false, exists_const, or_self] at h
    · cases h; exact .inl rfl
  split at h
  · split at h
    · simp only [el_bind_crash, ensureClass_crash, mkUnary_crash, and_false, exists_const, or_self] at h
    · cases h; exact .inl rfl
  · cases h

/-! ## Parsing -/

/-- the typing of the names in a scope -/
def gam (sc : LScope) : Gamma := scopeΓ ⟨sc.comp, sc.vars, fun _ => false, fun _ => none⟩

variable {α : Type} {Q : Prop} {E : FileEnv} {X : ElEnv}

theorem liftEl_calm {r : El α} (h : ∀ c, r ≠ .crash c) : CalmP Q E (P.liftEl r) fun a => r = .ok a :=
  calmP_liftEl (fun c hc => absurd hc (h c)) fun _ ha => ha

/-- what parses an expression -/
abbrev ExprP (Q : Prop) (E : FileEnv) (X : ElEnv) (Γ : Gamma) (pe : P Expr) : Prop :=
  CalmP Q E pe (WT X.decls X.rx Γ)

variable {pe : P Expr}

theorem argLoop_calm (hp : ExprP Q E X Γ pe) : ∀ k, CalmP Q E (argLoop pe k) (WTs X.decls X.rx Γ)
  | 0 => calmP_fuel
  | k + 1 => by
    unfold argLoop
    refine calmP_get fun s => calmP_ite (fun _ => calmP_pure trivial) fun _ => ?_
    refine calmP_bind _ hp fun e he => calmP_get fun s => calmP_ite (fun _ => ?_) fun _ => ?_
    · refine calmP_bind _ calmP_matchK fun _ _ => calmP_bind _ (argLoop_calm hp k) fun es hes => ?_
      exact calmP_pure ⟨he, hes⟩
    · exact calmP_pure ⟨he, trivial⟩

theorem parseBuiltin_calm (hp : ExprP Q E X Γ pe) {f : String} : ExprP Q E X Γ (parseBuiltin X pe f) := by
  unfold parseBuiltin
  refine calmP_bind _ calmP_matchK fun _ _ => calmP_get fun s => ?_
  refine calmP_bind _ (argLoop_calm hp _) fun es hes => calmP_bind _ calmP_matchK fun _ _ => ?_
  exact calmP_liftEl (fun c hc => mkCall_crash hes hc) fun e he => wt_call hes he

theorem nameTail_calm (wf : WFDecls X.decls) (hp : ExprP Q E X Γ pe) : ∀ k p, WT X.decls X.rx Γ p →
    ExprP Q E X Γ (nameTail X pe k p)
  | 0, _, _ => calmP_fuel
  | k + 1, p, hw => by
    unfold nameTail
    refine calmP_get fun s => calmP_ite (fun _ => ?_) fun _ => calmP_ite (fun _ => ?_) fun _ => calmP_pure hw
    · refine calmP_bind _ (calmP_cond (fun _ => calmP_pure trivial) fun _ => calmP_fail) fun _ (_ : True) => ?_
      refine calmP_bind _ calmP_matchK fun _ _ => calmP_bind _ calmP_matchK fun _ _ => ?_
      exact calmP_bind _ (liftEl_calm fun c => mkField_crash) fun q hq =>
        nameTail_calm wf hp k q (wt_field wf hw hq)
    · refine calmP_bind _ (calmP_cond (fun _ => calmP_pure trivial) fun _ => calmP_fail) fun _ (_ : True) => ?_
      refine calmP_bind _ calmP_matchK fun _ _ => calmP_bind _ hp fun i hi => calmP_bind _ calmP_matchK fun _ _ => ?_
      exact calmP_bind _ (liftEl_calm fun c => mkIndex_crash) fun q hq =>
        nameTail_calm wf hp k q (wt_index hw hi hq)

theorem parseLiteral_calm {t : Nat} : ExprP Q E X Γ (parseLiteral X t) := by
  unfold parseLiteral
  refine calmP_bind _ calmP_matchK fun _ _ => calmP_bind _ calmP_matchK fun _ _ => ?_
  exact calmP_ite (fun _ => calmP_pure (by simp only [WT])) fun _ => calmP_fail

theorem parseEntity_calm (hp : ExprP Q E X Γ pe) {e : Ent} : ExprP Q E X Γ (parseEntity X pe e) := by
  unfold parseEntity
  exact calmP_ite (fun _ => parseLiteral_calm) fun _ => calmP_ite (fun _ => parseBuiltin_calm hp) fun _ => calmP_fail

/-- what a name means -/
theorem nameLookup_calm {sc : LScope} {n : List Char} (hb : sc.base ≠ []) :
    CalmP Q E (P.nameLookup sc n) fun r => match r with
      | .var t => sc.vars.lookup (String.ofList n) = some t
      | .comp c => sc.vars.lookup (String.ofList n) = none ∧ sc.comp (String.ofList n) = some c
      | .ent _ => True := by
  unfold P.nameLookup
  split
  · next t h => exact calmP_pure h
  · next h =>
    split
    · next c hc => exact calmP_pure ⟨h, hc⟩
    · split
      · next h =>
        unfold Scope.lookup at h
        split at h
        · next h' => exact absurd h' hb
        · split at h <;> cases h
      · exact calmP_pure trivial
      · exact calmP_fail

theorem parseName_calm (wf : WFDecls X.decls) {sc : LScope} (hb : sc.base ≠ []) (hp : ExprP Q E X (gam sc) pe) :
    ExprP Q E X (gam sc) (parseName E X sc pe) := by
  unfold parseName
  refine calmP_bind _ calmP_matchK fun t _ => calmP_get fun s => calmP_ite (fun _ => ?_) fun _ => ?_
  · refine calmP_bind _ calmP_liftSym fun e _ => ?_
    exact calmP_ite (fun _ => parseBuiltin_calm hp) fun _ => calmP_fail
  · refine calmP_bind _ (nameLookup_calm hb) fun r hr => ?_
    cases r with
    | var τ =>
      refine nameTail_calm wf hp _ _ ?_
      simp only [WT]
      exact ⟨false, by simp only [gam, scopeΓ, hr]⟩
    | comp c =>
      refine nameTail_calm wf hp _ _ ?_
      simp only [WT]
      exact ⟨c.optional, by simp only [gam, scopeΓ, hr.1, hr.2, Option.map_some]⟩
    | ent e =>
      refine calmP_ite (fun _ => ?_) fun _ => parseEntity_calm hp
      refine calmP_ite (fun _ => calmP_invisible) fun _ => ?_
      refine calmP_bind _ calmP_matchK fun _ _ => calmP_bind _ calmP_matchK fun _ _ => calmP_get fun s => ?_
      exact calmP_bind _ calmP_liftSym fun e _ => parseEntity_calm hp

theorem parseQuantified_calm {sc : LScope} (hb : sc.base ≠ []) {pe : LScope → P Expr}
    (hp : ∀ sc' : LScope, sc'.base = sc.base → ExprP Q E X (gam sc') (pe sc')) :
    ExprP Q E X (gam sc) (parseQuantified sc pe) := by
  unfold parseQuantified
  refine calmP_get fun s => calmP_bind _ (Calm.post ?_) fun u _ => ?_
  · calmed
  refine calmP_bind _ calmP_matchK fun x _ => calmP_ite (fun _ => calmP_fail) fun _ => ?_
  refine calmP_bind _ (Calm.post inferInstance) fun _ _ => calmP_bind _ calmP_matchK fun src _ => ?_
  refine calmP_bind _ (nameLookup_calm hb) fun r hr => ?_
  cases r with
  | var t => exact calmP_fail
  | ent e => exact calmP_fail
  | comp c =>
    dsimp only
    split
    · next id elem lo hi hty =>
      refine calmP_bind _ calmP_matchK fun _ _ => ?_
      refine calmP_bind _ (hp { sc with vars := (String.ofList x.text, elem) :: sc.vars } rfl) fun b hw => ?_
      refine calmP_bind _ (liftEl_calm fun c => ensureClass_crash) fun _ ht => calmP_pure ?_
      obtain ⟨τ, h1, h2⟩ := ensureClass_ok.1 ht
      rw [inst_bool] at h2
      subst h2
      simp only [WT]
      have e1 : gam { sc with vars := (String.ofList x.text, elem) :: sc.vars } =
          (gam sc).bind (String.ofList x.text) elem :=
        scopeΓ_bind ⟨sc.comp, sc.vars, fun _ => false, fun _ => none⟩ _ _
      rw [e1] at hw
      exact ⟨⟨id, elem, lo, hi, c.optional, by simp [gam, scopeΓ, hr.1, hr.2, hty], hw⟩, h1⟩
    · exact calmP_fail

theorem condTail_calm (hp : ExprP Q E X Γ pe) (t : Ty) : ∀ k,
    CalmP Q E (condTail pe t k) (WTa X.decls X.rx Γ t)
  | 0 => calmP_fuel
  | k + 1 => by
    unfold condTail
    refine calmP_get fun s => calmP_ite (fun _ => ?_) fun _ => ?_
    · refine calmP_bind _ (Calm.post inferInstance) fun _ _ => calmP_bind _ hp fun c hc => ?_
      refine calmP_bind _ (Calm.post inferInstance) fun _ _ => calmP_bind _ hp fun e he => ?_
      refine calmP_bind _ (liftEl_calm fun c => ensureClass_crash) fun _ h1 => ?_
      refine calmP_bind _ (liftEl_calm fun c => ensureTy_crash) fun _ h2 => ?_
      refine calmP_bind _ (condTail_calm hp t k) fun rest hr => calmP_pure ?_
      obtain ⟨τ, h1, h1'⟩ := ensureClass_ok.1 h1
      rw [inst_bool] at h1'
      obtain ⟨σ, h2, h3⟩ := ensureTy_ok.1 h2
      cases h3
      subst h1'
      exact ⟨hc, h1, he, h2, hr⟩
    · refine calmP_bind _ (Calm.post inferInstance) fun _ _ => calmP_bind _ hp fun e he => ?_
      refine calmP_bind _ (liftEl_calm fun c => ensureTy_crash) fun _ h2 => calmP_pure ?_
      obtain ⟨σ, h2, h3⟩ := ensureTy_ok.1 h2
      cases h3
      exact ⟨he, h2⟩

theorem parseConditional_calm (hp : ExprP Q E X Γ pe) : ExprP Q E X Γ (parseConditional pe) := by
  unfold parseConditional
  refine calmP_bind _ (Calm.post inferInstance) fun _ _ => calmP_bind _ hp fun c hc => ?_
  refine calmP_bind _ (Calm.post inferInstance) fun _ _ => calmP_bind _ hp fun e he => ?_
  split
  · exact calmP_fail
  · next t ht =>
    refine calmP_bind _ (liftEl_calm fun c => ensureClass_crash) fun _ h1 => calmP_get fun s => ?_
    refine calmP_bind _ (condTail_calm hp t _) fun rest hr => calmP_pure ?_
    obtain ⟨τ, h1, h1'⟩ := ensureClass_ok.1 h1
    rw [inst_bool] at h1'
    subst h1'
    simp only [WT, WTa]
    exact ⟨hc, h1, he, ht, hr⟩

theorem parsePrimary_calm (wf : WFDecls X.decls) {sc : LScope} (hb : sc.base ≠ []) {pe : LScope → P Expr}
    (hp : ∀ sc' : LScope, sc'.base = sc.base → ExprP Q E X (gam sc') (pe sc')) :
    ExprP Q E X (gam sc) (parsePrimary E X sc pe) := by
  unfold parsePrimary
  refine calmP_get fun s => calmP_ite (fun _ => ?_) fun _ => calmP_ite (fun _ => ?_) fun _ =>
    calmP_ite (fun _ => ?_) fun _ => calmP_ite (fun _ => ?_) fun _ => calmP_ite (fun _ => ?_) fun _ =>
    calmP_ite (fun _ => ?_) fun _ => ?_
  · refine calmP_bind _ calmP_matchK fun t ht => ?_
    obtain ⟨n, hn⟩ := ht.1.1 ht.2
    rw [hn]
    exact calmP_pure (by simp only [WT])
  · refine calmP_bind _ calmP_matchK fun t ht => ?_
    obtain ⟨n, hn⟩ := ht.1.2 ht.2
    rw [hn]
    exact calmP_pure (by simp only [WT])
  · exact calmP_bind _ calmP_matchK fun t ht => calmP_pure (by simp only [WT])
  · exact calmP_bind _ calmP_matchK fun t ht => calmP_pure (by simp only [WT])
  · exact calmP_bind _ (Calm.post inferInstance) fun t ht => calmP_pure (by simp only [WT])
  · refine calmP_bind _ calmP_matchK fun t ht => calmP_get fun s => ?_
    refine calmP_bind (WT X.decls X.rx (gam sc)) ?_ fun e he =>
      calmP_bind _ calmP_matchK fun _ _ => calmP_pure he
    exact calmP_cond (fun _ => parseQuantified_calm hb hp) fun _ =>
      calmP_cond (fun _ => parseConditional_calm (hp sc rfl)) fun _ => hp sc rfl
  · exact parseName_calm wf hb (hp sc rfl)

theorem parseFactor_calm (hp : ExprP Q E X Γ pe) : ExprP Q E X Γ (parseFactor X pe) := by
  unfold parseFactor
  refine calmP_get fun s => calmP_ite (fun _ => ?_) fun _ => calmP_ite (fun _ => ?_) fun _ => ?_
  · refine calmP_bind _ (Calm.post inferInstance) fun _ _ => calmP_bind _ hp fun e he => ?_
    exact calmP_liftEl (fun c hc => absurd hc mkUnary_crash) fun x hx => (wt_unary he hx rfl).1
  · refine calmP_bind _ (Calm.post inferInstance) fun _ _ => calmP_bind _ hp fun e he => ?_
    exact calmP_liftEl (fun c hc => absurd hc mkUnary_crash) fun x hx => (wt_unary he hx rfl).1
  · refine calmP_bind _ hp fun l hl => calmP_get fun s => ?_
    split
    · exact calmP_pure hl
    · refine calmP_bind _ calmP_matchK fun _ _ => calmP_bind _ hp fun r hr => ?_
      exact calmP_liftEl (fun c hc => mkPower_crash hr hc) fun x hx => wt_power hl hr hx

theorem termLoop_calm (hp : ExprP Q E X Γ pe) : ∀ k l, WT X.decls X.rx Γ l → ExprP Q E X Γ (termLoop X pe k l)
  | 0, _, _ => calmP_fuel
  | k + 1, l, hl => by
    unfold termLoop
    refine calmP_get fun s => ?_
    split
    · exact calmP_pure hl
    · refine calmP_bind _ calmP_matchK fun _ _ => calmP_bind _ hp fun r hr => ?_
      exact calmP_bind _ (liftEl_calm fun c => mkArith_crash) fun x hx =>
        termLoop_calm hp k x (wt_arith hl hr hx)

theorem parseTerm_calm (hp : ExprP Q E X Γ pe) : ExprP Q E X Γ (parseTerm X pe) := by
  unfold parseTerm
  exact calmP_bind _ hp fun l hl => calmP_get fun s => termLoop_calm hp _ l hl

theorem addOps_op {n : List Char} {op : BinOp} (h : addOps.lookup n = some op) : op = .plus ∨ op = .minus := by
  unfold addOps at h
  simp only [List.lookup] at h
  split at h
  · cases h; exact .inl rfl
  · split at h
    · cases h; exact .inr rfl
    · cases h

theorem peekOp_mem {s : PS} {ops : List (List Char × α)} {a : α} (h : s.peekOp ops = some a) :
    ∃ n, ops.lookup n = some a := by
  unfold PS.peekOp at h
  split at h
  · cases h
  · split at h
    · exact ⟨_, h⟩
    · cases h

theorem chainTyp_idem {t : Option Ty} : chainTyp (chainTyp t) = chainTyp t := by
  cases t with
  | none => rfl
  | some t => cases t <;> rfl

theorem simpleLoop_calm (hp : ExprP Q E X Γ pe) (rt : Option Ty) : ∀ k l, WT X.decls X.rx Γ l →
    chainTyp l.typ = rt → ExprP Q E X Γ (simpleLoop X pe rt k l)
  | 0, _, _, _ => calmP_fuel
  | k + 1, l, hl, ht => by
    unfold simpleLoop
    refine calmP_get fun s => ?_
    split
    · exact calmP_pure hl
    · next op hop =>
      refine calmP_bind _ calmP_matchK fun _ _ => calmP_bind _ hp fun r hr => ?_
      refine calmP_bind _ (liftEl_calm fun c => mkBinary_crash) fun x hx => ?_
      obtain ⟨n, hn⟩ := peekOp_mem hop
      have hx' : mkArith X.decls (if op = .plus then .plus else .minus) l r = .ok x ∧ x.typ = rt := by
        subst ht
        refine ⟨?_, ?_⟩
        · rcases addOps_op hn with rfl | rfl <;> exact hx
        · simp only [mkBinary, el_bind_ok] at hx
          obtain ⟨-, -, hx⟩ := hx
          cases hx
          rfl
      refine simpleLoop_calm hp rt k x (wt_arith hl hr hx'.1) ?_
      rw [hx'.2, ← ht, chainTyp_idem]

theorem parseSigned_calm (hp : ExprP Q E X Γ pe) : ExprP Q E X Γ (parseSigned pe) := by
  unfold parseSigned
  refine calmP_get fun s => ?_
  split
  · exact hp
  · next op hop =>
    refine calmP_bind _ calmP_matchK fun _ _ => calmP_bind _ hp fun e he => ?_
    refine calmP_liftEl (fun c hc => absurd hc mkUnary_crash) fun x hx => (wt_unary he hx ?_).1
    obtain ⟨n, hn⟩ := peekOp_mem hop
    unfold signOps at hn
    simp only [List.lookup] at hn
    split at hn
    · cases hn; rfl
    · split at hn
      · cases hn; rfl
      · cases hn

theorem parseSimple_calm (hp : ExprP Q E X Γ pe) : ExprP Q E X Γ (parseSimple X pe) := by
  unfold parseSimple
  exact calmP_bind _ (parseSigned_calm hp) fun l hl => calmP_get fun s => simpleLoop_calm hp _ _ l hl rfl

theorem parseRelation_calm (hp : ExprP Q E X Γ pe) : ExprP Q E X Γ (parseRelation X pe) := by
  unfold parseRelation
  refine calmP_bind _ hp fun l hl => calmP_get fun s => ?_
  split
  · next op _ =>
    refine calmP_bind _ calmP_matchK fun _ _ => calmP_bind _ hp fun r hr => ?_
    exact calmP_liftEl (fun c hc => absurd hc mkBinary_crash) fun x hx =>
      (wt_binary hl hr hx (by cases op <;> simp [CmpOp.op]) (bt_bool (by cases op <;> simp [CmpOp.op]))).1
  · refine calmP_ite (fun _ => ?_) fun _ => calmP_pure hl
    refine calmP_bind _ (Calm.post ?_) fun neg _ => calmP_bind _ (Calm.post inferInstance) fun _ _ => ?_
    · calmed
    refine calmP_bind _ hp fun a ha => calmP_get fun s => ?_
    refine calmP_bind (WT X.decls X.rx Γ) (calmP_cond (fun _ => ?_) fun _ => ?_) fun e he => ?_
    · refine calmP_bind _ calmP_matchK fun _ _ => calmP_bind _ hp fun b hb => ?_
      exact calmP_liftEl (fun c hc => absurd hc mkRange_crash) fun x hx => wt_range hl ha hb hx
    · exact calmP_liftEl (fun c hc => mkIn_crash hc) fun x hx => wt_in hl ha hx
    · exact calmP_liftEl (fun c hc => absurd hc mkNot_crash) fun x hx => wt_not he hx

theorem logicLoop_calm (hp : ExprP Q E X Γ pe) {kw : String} {op : LogOp} : ∀ k l, WT X.decls X.rx Γ l →
    ExprP Q E X Γ (logicLoop X pe kw op k l)
  | 0, _, _ => calmP_fuel
  | k + 1, l, hl => by
    unfold logicLoop
    refine calmP_get fun s => calmP_ite (fun _ => ?_) fun _ => calmP_pure hl
    refine calmP_bind _ (Calm.post inferInstance) fun _ _ => calmP_bind _ hp fun r hr => ?_
    exact calmP_bind _ (liftEl_calm fun c => mkLogical_crash) fun x hx =>
      logicLoop_calm hp k x (wt_logical hl hr hx)

theorem parseExpression_calm (hp : ExprP Q E X Γ pe) : ExprP Q E X Γ (parseExpression X pe) := by
  unfold parseExpression
  refine calmP_bind _ hp fun l hl => calmP_get fun s => ?_
  refine calmP_ite (fun _ => logicLoop_calm hp _ l hl) fun _ => calmP_ite (fun _ => logicLoop_calm hp _ l hl) fun _ =>
    calmP_ite (fun _ => ?_) fun _ => calmP_ite (fun _ => ?_) fun _ => calmP_pure hl
  · refine calmP_bind _ (Calm.post inferInstance) fun _ _ => calmP_bind _ hp fun r hr => ?_
    exact calmP_liftEl (fun c hc => absurd hc mkLogical_crash) fun x hx => wt_logical hl hr hx
  · refine calmP_bind _ (Calm.post inferInstance) fun _ _ => calmP_bind _ hp fun r hr => ?_
    exact calmP_liftEl (fun c hc => absurd hc mkLogical_crash) fun x hx => wt_logical hl hr hx

/-- Parsing an expression -/
theorem parseExpr_calm (wf : WFDecls X.decls) : ∀ (n : Nat) (sc : LScope), sc.base ≠ [] →
    ExprP Q E X (gam sc) (parseExpr E X n sc)
  | 0, _, _ => calmP_fuel
  | n + 1, sc, hb =>
    parseExpression_calm (parseRelation_calm (parseSimple_calm (parseTerm_calm (parseFactor_calm
      (parsePrimary_calm wf hb fun sc' h => parseExpr_calm wf n sc' (by rw [h]; exact hb))))))

end Verif.Lemmas
