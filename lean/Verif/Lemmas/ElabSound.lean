import Verif.Lemmas.Sound
/-! What the parser accepts is well-typed. -/
namespace Verif.Lemmas
open Verif.Model Verif.Spec

theorem el_bind_ok {α β} {x : El α} {f : α → El β} {v : β} :
    x.bind f = .ok v ↔ ∃ a, x = .ok a ∧ f a = .ok v := by
  cases x <;> simp [El.bind]

theorem ensureClass_ok {t : Option Ty} {p : Ty → Bool} {u : Unit} :
    ensureClass t p = .ok u ↔ ∃ τ, t = some τ ∧ p τ = true := by
  unfold ensureClass
  split
  · simp
  · split <;> simp_all

theorem ensureTy_ok {t w : Option Ty} {u : Unit} : ensureTy t w = .ok u ↔ ∃ τ, t = some τ ∧ w = some τ := by
  unfold ensureTy
  split
  · simp
  · split
    · next h => simp [← h]
    · next h => simp only [reduceCtorEq, false_iff]; rintro ⟨τ, h1, h2⟩; cases h1; exact h h2.symm

/-- the scope as seen by the typing relation -/
def scopeΓ (sc : TScope) : Gamma := fun n =>
  match sc.vars.lookup n with
  | some t => some (t, false)
  | none => (sc.comp n).map fun c => (c.ty, c.optional)

theorem scopeΓ_bind (sc : TScope) (x : String) (t : Ty) :
    scopeΓ { sc with vars := (x, t) :: sc.vars } = (scopeΓ sc).bind x t := by
  funext n
  simp only [scopeΓ, Gamma.bind, List.lookup_cons]
  by_cases h : n = x
  · subst h; simp
  · have : (n == x) = false := by rw [beq_eq_false_iff_ne]; exact h
    simp [this, h]

theorem inst_bool {t : Ty} : t.isInst .boolean = true ↔ t = .bool := by
  cases t <;> simp [Ty.isInst, Ty.cls]
theorem inst_int {t : Ty} : t.isInst .integer = true ↔ t = .int := by
  cases t <;> simp [Ty.isInst, Ty.cls]
theorem inst_str {t : Ty} : t.isInst .string = true ↔ t = .str ∨ t = .markup := by
  cases t <;> simp [Ty.isInst, Ty.cls]
theorem inst_arr {t : Ty} : t.isInst .array = true ↔ ∃ id e lo hi, t = .arr id e lo hi := by
  cases t <;> simp [Ty.isInst, Ty.cls]
theorem numeric_iff {t : Ty} : t.isNumeric = true ↔ t = .int ∨ t = .dec := by
  cases t <;> simp [Ty.isNumeric]

/-- the operand check of a unary operator -/
theorem mkUnary_ok {t : Option Ty} {op : UnOp} {e r : Expr} (h : mkUnary t op e = .ok r) :
    r = .unary t op e ∧ ∃ τ, e.typ = some τ ∧
      match op with
      | .minus | .plus | .abs | .toInt | .toDec => τ = .int ∨ τ = .dec
      | .logicalNot => τ = .bool
      | .strLen => τ = .str ∨ τ = .markup
      | .arrLen => ∃ id x lo hi, τ = .arr id x lo hi := by
  unfold mkUnary at h
  rw [el_bind_ok] at h
  obtain ⟨⟨⟩, h1, h2⟩ := h
  cases h2
  refine ⟨rfl, ?_⟩
  cases op <;> simp only [ensureClass_ok, inst_bool, inst_str, inst_arr, numeric_iff] at h1 ⊢ <;>
    exact h1

variable {D : Decls} {rx : List Char → List Char → Bool} {Γ : Gamma}

theorem wt_unary {t : Option Ty} {op : UnOp} {e r : Expr} (hw : WT D rx Γ e)
    (h : mkUnary t op e = .ok r)
    (ht : match op with
      | .minus | .plus | .abs => t = e.typ
      | .logicalNot => t = some .bool
      | .strLen | .arrLen | .toInt => t = some .int
      | .toDec => t = some .dec) : WT D rx Γ r ∧ r.typ = t := by
  obtain ⟨rfl, τ, h1, h2⟩ := mkUnary_ok h
  refine ⟨?_, rfl⟩
  simp only [WT]
  refine ⟨hw, ?_⟩
  rw [h1] at ht ⊢
  cases op <;> simp only [unOk, Option.some.injEq] at ht h2 ⊢ <;> exact ⟨h2, ht⟩

theorem wt_binary {t : Option Ty} {op : BinOp} {l r x : Expr} (hl : WT D rx Γ l)
    (hr : WT D rx Γ r) (h : mkBinary D t op l r = .ok x) (hp : op ≠ .power)
    (ht : binaryTypes D op l.typ r.typ = .ok () → binOk op l.typ r.typ t) :
    WT D rx Γ x ∧ x.typ = t := by
  unfold mkBinary at h
  rw [el_bind_ok] at h
  obtain ⟨⟨⟩, h1, h2⟩ := h
  cases h2
  refine ⟨?_, rfl⟩
  simp only [WT]
  exact ⟨hl, hr, ht h1, fun h => absurd h hp⟩

theorem bt_bool {op : BinOp} {l r : Option Ty}
    (hop : op = .xor ∨ op = .eq ∨ op = .neq ∨ op = .lt ∨ op = .leq ∨ op = .gt ∨ op = .geq ∨
      op = .strContains ∨ op = .startsWith ∨ op = .endsWith ∨ op = .regex ∨ op = .arrContains)
    (h : binaryTypes D op l r = .ok ()) : binOk op l r (some .bool) := by
  rcases hop with rfl | rfl | rfl | rfl | rfl | rfl | rfl | rfl | rfl | rfl | rfl | rfl <;>
    simp only [binaryTypes, el_bind_ok, ensureClass_ok, ensureTy_ok, inst_bool, inst_str, inst_arr,
      numeric_iff] at h <;> simp only [binOk]
  case inl =>
    obtain ⟨-, ⟨τ, rfl, rfl⟩, σ, rfl, rfl⟩ := h
    simp
  case inr.inr.inr.inr.inr.inr.inr.inr.inr.inr.inr =>
    obtain ⟨-, ⟨τ, rfl, id, e, lo, hi, rfl⟩, -⟩ := h
    exact ⟨⟨id, e, lo, hi, rfl⟩, trivial⟩
  all_goals
    first
    | (obtain ⟨-, ⟨τ, rfl, ha⟩, σ, rfl, hb⟩ := h
       first
       | (cases hb; simpa using ha)
       | exact ⟨by simpa [isStr] using ha, by simpa [isStr] using hb, trivial⟩)

theorem bt_arith {op : BinOp} {l r : Option Ty} (hop : op = .minus ∨ op = .times ∨ op = .divide)
    (h : binaryTypes D op l r = .ok ()) : (l = some .int ∨ l = some .dec) ∧ r = l := by
  rcases hop with rfl | rfl | rfl <;>
  · simp only [binaryTypes, el_bind_ok, ensureClass_ok, ensureTy_ok, numeric_iff] at h
    obtain ⟨-, ⟨τ, rfl, ha⟩, σ, rfl, hb⟩ := h
    cases hb
    simpa using ha

theorem bt_plus {l r : Option Ty} (h : binaryTypes D .plus l r = .ok ()) :
    ((l = some .int ∨ l = some .dec) ∧ r = l) ∨ (isStr l ∧ isStr r) := by
  simp only [binaryTypes] at h
  split at h
  · next hn =>
    rw [ensureTy_ok] at h
    obtain ⟨τ, rfl, rfl⟩ := h
    simp only [Option.any_some, numeric_iff] at hn
    exact Or.inl ⟨by simpa using hn, rfl⟩
  · simp only [el_bind_ok, ensureClass_ok, inst_str] at h
    obtain ⟨-, ⟨τ, rfl, ha⟩, σ, rfl, hb⟩ := h
    exact Or.inr ⟨by simpa [isStr] using ha, by simpa [isStr] using hb⟩

theorem bt_int {l r : Option Ty} (h : binaryTypes D .remainder l r = .ok ()) :
    l = some .int ∧ r = some .int := by
  simp only [binaryTypes, el_bind_ok, ensureClass_ok, inst_int] at h
  obtain ⟨-, ⟨τ, rfl, rfl⟩, σ, rfl, rfl⟩ := h
  exact ⟨rfl, rfl⟩

theorem wt_arith {op : ArOp} {l r x : Expr} (hl : WT D rx Γ l) (hr : WT D rx Γ r)
    (h : mkArith D op l r = .ok x) : WT D rx Γ x := by
  have chain_num : ∀ {t : Option Ty}, (t = some .int ∨ t = some .dec) → chainTyp t = t := by
    rintro t (rfl | rfl) <;> rfl
  cases op <;> simp only [mkArith] at h
  · refine (wt_binary hl hr h (by simp) fun hb => ?_).1
    rcases bt_plus hb with ⟨h1, h2⟩ | ⟨h1, h2⟩
    · exact Or.inl ⟨h1, h2, chain_num h1⟩
    · refine Or.inr ⟨h1, h2, ?_⟩
      rcases h1 with h1 | h1 <;> rw [h1] <;> rfl
  · refine (wt_binary hl hr h (by simp) fun hb => ?_).1
    obtain ⟨h1, h2⟩ := bt_arith (Or.inl rfl) hb
    exact ⟨h1, h2, chain_num h1⟩
  · refine (wt_binary hl hr h (by simp) fun hb => ?_).1
    obtain ⟨h1, h2⟩ := bt_arith (Or.inr (Or.inl rfl)) hb
    exact ⟨h1, h2, rfl⟩
  · refine (wt_binary hl hr h (by simp) fun hb => ?_).1
    obtain ⟨h1, h2⟩ := bt_arith (Or.inr (Or.inr rfl)) hb
    exact ⟨h1, h2, rfl⟩
  · refine (wt_binary hl hr h (by simp) fun hb => ?_).1
    obtain ⟨h1, h2⟩ := bt_int hb
    exact ⟨h1, h2, h1⟩

theorem wt_power {l r x : Expr} (hl : WT D rx Γ l) (hr : WT D rx Γ r)
    (h : mkPower D rx l r = .ok x) : WT D rx Γ x := by
  simp only [mkPower, el_bind_ok] at h
  obtain ⟨v, hv, y, hy, h⟩ := h
  unfold mkBinary at hy
  simp only [el_bind_ok, binaryTypes, ensureClass_ok, numeric_iff, inst_int] at hy
  obtain ⟨⟨⟩, ⟨-, ⟨τ, h1, h2⟩, σ, h3, rfl⟩, hy⟩ := hy
  cases hy
  split at h
  · next i hi =>
    split at h
    · cases h
    next hpos =>
    cases h
    simp only [WT, binOk]
    refine ⟨hl, hr, ⟨by rw [h1]; simpa using h2, h3, trivial⟩, fun _ => ⟨v, i, ?_, hi, by omega⟩⟩
    unfold evalStatic at hv
    split at hv
    · cases hv; assumption
    · cases hv
    · cases hv
  · cases h

theorem component_hasComp (wf : WFDecls D) {t : Nat} {n : String} {c : Comp}
    (h : D.component t n = some c) : HasComp D t c ∧ c.name = n := by
  obtain ⟨s, hs, hc⟩ := List.exists_of_findSome?_eq_some h
  have h1 := List.mem_of_find?_eq_some hc
  have h2 := List.find?_some hc
  exact ⟨⟨s, (mem_ancestors wf t s).1 hs, (mem_own s c).1 h1⟩, by simpa using h2⟩

theorem wt_field (wf : WFDecls D) {p x : Expr} {f : String} (hp : WT D rx Γ p)
    (h : mkField D p f = .ok x) : WT D rx Γ x := by
  unfold mkField at h
  split at h
  · next t ht =>
    split at h
    · cases h
    · next c hc =>
      rw [el_bind_ok] at h
      obtain ⟨-, -, h⟩ := h
      cases h
      simp only [WT, ht, fieldOk]
      exact ⟨hp, c, hc, rfl⟩
  · next t ht =>
    split at h
    · cases h
    · next c hc =>
      rw [el_bind_ok] at h
      obtain ⟨-, -, h⟩ := h
      cases h
      simp only [WT, ht, fieldOk]
      obtain ⟨h1, h2⟩ := component_hasComp wf hc
      exact ⟨hp, c, h1, h2, rfl⟩
  · next id ms ht =>
    split at h
    · cases h
    · next i hi =>
      split at h
      · cases h
      · next τ hτ =>
        cases h
        simp only [WT, ht, fieldOk]
        exact ⟨hp, i, τ, hi, hτ, rfl⟩
  · cases h

theorem wt_index {p i x : Expr} (hp : WT D rx Γ p) (hi : WT D rx Γ i)
    (h : mkIndex D p i = .ok x) : WT D rx Γ x := by
  unfold mkIndex at h
  split at h
  · next id e lo hi' ht =>
    refine (wt_binary hp hi h (by simp) fun hb => ?_).1
    simp only [binaryTypes, el_bind_ok, ensureClass_ok, inst_int] at hb
    obtain ⟨-, -, σ, hσ, rfl⟩ := hb
    exact ⟨⟨id, e, lo, hi', ht, rfl⟩, hσ⟩
  · cases h

theorem wts_toList {es : Exprs} (h : WTs D rx Γ es) : ∀ e ∈ es.toList, WT D rx Γ e := by
  match es with
  | .nil => simp [Exprs.toList]
  | .cons e es =>
    simp only [WTs] at h
    intro x hx
    simp only [Exprs.toList, List.mem_cons] at hx
    rcases hx with rfl | hx
    · exact h.1
    · exact wts_toList h.2 x hx

theorem wt_call {rxOk : List Char → Bool} {f : String} {args : Exprs} {x : Expr}
    (hw : WTs D rx Γ args) (h : mkCall D rx rxOk f args = .ok x) : WT D rx Γ x := by
  have hl := wts_toList hw
  unfold mkCall at h
  split at h
  · split at h
    · next a ha =>
      have hwa : WT D rx Γ a := hl a (by simp [ha])
      split at h
      · exact (wt_unary hwa h rfl).1
      · exact (wt_unary hwa h rfl).1
    · cases h
  split at h
  · split at h
    · next a b ha =>
      exact (wt_binary (hl a (by simp [ha])) (hl b (by simp [ha])) h (by simp)
        (bt_bool (by simp))).1
    · cases h
  split at h
  · split at h
    · next a b ha =>
      exact (wt_binary (hl a (by simp [ha])) (hl b (by simp [ha])) h (by simp)
        (bt_bool (by simp))).1
    · cases h
  split at h
  · split at h
    · next a b ha =>
      simp only [el_bind_ok] at h
      obtain ⟨-, -, v, -, h⟩ := h
      split at h
      · split at h
        · exact (wt_binary (hl a (by simp [ha])) (hl b (by simp [ha])) h (by simp)
            (bt_bool (by simp))).1
        · cases h
      · cases h
    · cases h
  split at h
  · split at h
    · cases h
    · unfold mkOneOf at h
      rw [el_bind_ok] at h
      obtain ⟨-, -, h⟩ := h
      cases h
      simpa only [WT] using hw
  split at h
  · split at h
    · next a ha =>
      rw [el_bind_ok] at h
      obtain ⟨-, -, h⟩ := h
      exact (wt_unary (hl a (by simp [ha])) h rfl).1
    · cases h
  split at h
  · split at h
    · next a ha =>
      rw [el_bind_ok] at h
      obtain ⟨-, -, h⟩ := h
      exact (wt_unary (hl a (by simp [ha])) h rfl).1
    · cases h
  · cases h

theorem wt_logical {op : LogOp} {l r x : Expr} (hl : WT D rx Γ l) (hr : WT D rx Γ r)
    (h : mkLogical D op l r = .ok x) : WT D rx Γ x := by
  have sc : ∀ {op : SCOp}, mkLogic op l r = .ok x → WT D rx Γ x := by
    intro op h
    simp only [mkLogic, el_bind_ok, ensureClass_ok, inst_bool] at h
    obtain ⟨-, ⟨τ, h1, rfl⟩, -, ⟨σ, h2, rfl⟩, h⟩ := h
    cases h
    simp only [WT]
    exact ⟨hl, hr, h1, h2⟩
  cases op <;> simp only [mkLogical] at h
  · exact sc h
  · exact sc h
  · exact (wt_binary hl hr h (by simp) (bt_bool (by simp))).1
  · exact sc h

theorem wt_not {neg : Bool} {e x : Expr} (he : WT D rx Γ e) (h : mkNot neg e = .ok x) :
    WT D rx Γ x := by
  unfold mkNot at h
  split at h
  · exact (wt_unary he h rfl).1
  · cases h; exact he

theorem wt_in {e a x : Expr} (he : WT D rx Γ e) (ha : WT D rx Γ a) (h : mkIn D e a = .ok x) :
    WT D rx Γ x := by
  unfold mkIn at h
  split at h
  · cases h
  · split at h
    · exact (wt_binary he ha h (by simp) (bt_bool (by simp))).1
    · split at h
      · exact (wt_binary he ha h (by simp) (bt_bool (by simp))).1
      · cases h

theorem wt_range {e a b x : Expr} (he : WT D rx Γ e) (ha : WT D rx Γ a) (hb : WT D rx Γ b)
    (h : mkRange e a b = .ok x) : WT D rx Γ x := by
  simp only [mkRange, el_bind_ok, ensureClass_ok, ensureTy_ok, numeric_iff] at h
  obtain ⟨-, ⟨τ, h1, h2⟩, -, ⟨σ, h3, h4⟩, -, ⟨ρ, h5, h6⟩, h⟩ := h
  cases h
  simp only [WT]
  refine ⟨he, ha, hb, by rw [h1]; simpa using h2, by rw [h3, h4], by rw [h5, h6]⟩

variable {E : ElEnv}

mutual
/-- **what the parser accepts is well-typed** -/
theorem elab_wt (wf : WFDecls E.decls) : ∀ (r : Raw) (sc : TScope) (e : Expr),
    Raw.elab E sc r = .ok e → WT E.decls E.rx (scopeΓ sc) e
  | .null, sc, e, h | .bool _, sc, e, h | .int _, sc, e, h | .dec _, sc, e, h
  | .str _, sc, e, h => by
    simp only [Raw.elab, El.ok.injEq] at h
    subst h
    simp only [WT]
  | .enumLit path lit, sc, e, h => by
    simp only [Raw.elab] at h
    split at h
    · cases h
    · split at h
      · cases h; simp only [WT]
      · cases h
  | .name n, sc, e, h => by
    simp only [Raw.elab] at h
    split at h
    · next t ht => cases h; simp only [WT, scopeΓ, ht]; exact ⟨_, rfl⟩
    · next ht =>
      split at h
      · next c hc => cases h; simp only [WT, scopeΓ, ht, hc]; exact ⟨_, rfl⟩
      · cases h
  | .dot p f, sc, e, h => by
    simp only [Raw.elab, el_bind_ok] at h
    obtain ⟨a, ha, h⟩ := h
    exact wt_field wf (elab_wt wf p sc a ha) h
  | .index p i, sc, e, h => by
    simp only [Raw.elab, el_bind_ok] at h
    obtain ⟨a, ha, b, hb, h⟩ := h
    exact wt_index (elab_wt wf p sc a ha) (elab_wt wf i sc b hb) h
  | .call f args, sc, e, h => by
    simp only [Raw.elab, el_bind_ok] at h
    obtain ⟨a, ha, h⟩ := h
    exact wt_call (elabs_wt wf args sc a ha) h
  | .sign m p, sc, e, h => by
    simp only [Raw.elab, el_bind_ok] at h
    obtain ⟨a, ha, h⟩ := h
    cases m
    · exact (wt_unary (elab_wt wf p sc a ha) h rfl).1
    · exact (wt_unary (elab_wt wf p sc a ha) h rfl).1
  | .not p, sc, e, h => by
    simp only [Raw.elab, el_bind_ok] at h
    obtain ⟨a, ha, h⟩ := h
    exact (wt_unary (elab_wt wf p sc a ha) h rfl).1
  | .abs p, sc, e, h => by
    simp only [Raw.elab, el_bind_ok] at h
    obtain ⟨a, ha, h⟩ := h
    exact (wt_unary (elab_wt wf p sc a ha) h rfl).1
  | .power l r, sc, e, h => by
    simp only [Raw.elab, el_bind_ok] at h
    obtain ⟨a, ha, b, hb, h⟩ := h
    exact wt_power (elab_wt wf l sc a ha) (elab_wt wf r sc b hb) h
  | .arith op l r, sc, e, h => by
    simp only [Raw.elab, el_bind_ok] at h
    obtain ⟨a, ha, b, hb, h⟩ := h
    exact wt_arith (elab_wt wf l sc a ha) (elab_wt wf r sc b hb) h
  | .cmp op l r, sc, e, h => by
    simp only [Raw.elab, el_bind_ok] at h
    obtain ⟨a, ha, b, hb, h⟩ := h
    exact (wt_binary (elab_wt wf l sc a ha) (elab_wt wf r sc b hb) h (by cases op <;> simp [CmpOp.op])
      (bt_bool (by cases op <;> simp [CmpOp.op]))).1
  | .isIn neg l r, sc, e, h => by
    simp only [Raw.elab, el_bind_ok] at h
    obtain ⟨a, ha, b, hb, x, hx, h⟩ := h
    exact wt_not (wt_in (elab_wt wf l sc a ha) (elab_wt wf r sc b hb) hx) h
  | .inRange neg l a b, sc, e, h => by
    simp only [Raw.elab, el_bind_ok] at h
    obtain ⟨x, hx, y, hy, z, hz, w, hw, h⟩ := h
    exact wt_not (wt_range (elab_wt wf l sc x hx) (elab_wt wf a sc y hy) (elab_wt wf b sc z hz) hw) h
  | .logic op l r, sc, e, h => by
    simp only [Raw.elab, el_bind_ok] at h
    obtain ⟨a, ha, b, hb, h⟩ := h
    exact wt_logical (elab_wt wf l sc a ha) (elab_wt wf r sc b hb) h
  | .cond c p rest, sc, e, h => by
    simp only [Raw.elab, el_bind_ok] at h
    obtain ⟨a, ha, b, hb, h⟩ := h
    split at h
    · cases h
    · next t ht =>
      simp only [el_bind_ok, mkAction, ensureClass_ok, inst_bool] at h
      obtain ⟨-, ⟨τ, h1, rfl⟩, as, has, h⟩ := h
      cases h
      simp only [WT, WTa]
      exact ⟨elab_wt wf c sc a ha, h1, elab_wt wf p sc b hb, ht, elaba_wt wf rest sc t as has⟩
  | .quant u x src body, sc, e, h => by
    simp only [Raw.elab] at h
    split at h
    · cases h
    split at h
    · cases h
    next hv =>
    split at h
    · cases h
    next c hc =>
    split at h
    · next id elem lo hi hty =>
      simp only [el_bind_ok, ensureClass_ok, inst_bool] at h
      obtain ⟨b, hb, -, ⟨τ, h1, rfl⟩, h⟩ := h
      cases h
      have := elab_wt wf body _ b hb
      rw [scopeΓ_bind] at this
      simp only [WT]
      exact ⟨⟨id, elem, lo, hi, c.optional, by simp [scopeΓ, hv, hc, hty], this⟩, h1⟩
    · cases h

theorem elabs_wt (wf : WFDecls E.decls) : ∀ (rs : Raws) (sc : TScope) (es : Exprs),
    Raws.elab E sc rs = .ok es → WTs E.decls E.rx (scopeΓ sc) es
  | .nil, sc, es, h => by
    simp only [Raws.elab, El.ok.injEq] at h
    subst h
    simp only [WTs]
  | .cons r rs, sc, es, h => by
    simp only [Raws.elab, el_bind_ok] at h
    obtain ⟨a, ha, b, hb, h⟩ := h
    cases h
    simp only [WTs]
    exact ⟨elab_wt wf r sc a ha, elabs_wt wf rs sc b hb⟩

theorem elaba_wt (wf : WFDecls E.decls) : ∀ (rs : RActs) (sc : TScope) (t : Ty) (as : Acts),
    RActs.elab E sc t rs = .ok as → WTa E.decls E.rx (scopeΓ sc) t as
  | .els r, sc, t, as, h => by
    simp only [RActs.elab, el_bind_ok, ensureTy_ok] at h
    obtain ⟨a, ha, -, ⟨τ, h1, h2⟩, h⟩ := h
    cases h
    cases h2
    simp only [WTa]
    exact ⟨elab_wt wf r sc a ha, h1⟩
  | .act c r rest, sc, t, as, h => by
    simp only [RActs.elab, el_bind_ok, ensureTy_ok, mkAction, ensureClass_ok, inst_bool] at h
    obtain ⟨a, ha, b, hb, -, ⟨σ, h0, rfl⟩, -, ⟨τ, h1, h2⟩, x, hx, h⟩ := h
    cases h
    cases h2
    simp only [WTa]
    exact ⟨elab_wt wf c sc a ha, h0, elab_wt wf r sc b hb, h1, elaba_wt wf rest sc t x hx⟩
end

end Verif.Lemmas
