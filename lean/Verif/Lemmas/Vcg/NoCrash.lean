import Verif.Lemmas.ElabSound
import Verif.Model.Vcg.Graph
/-! When the translation of checks ends without internal exception. -/
namespace Verif.Lemmas.Vcg
open Verif.Model Verif.Spec Verif.Lemmas

mutual
/-- what building an expression guarantees, apart from types: patterns are static strings, `in` has a
left operand with a type, and `oneof` has at least one choice -/
def Formed (rx : List Char → List Char → Bool) : Expr → Prop
  | .null | .bool _ | .int _ | .dec _ | .str _ | .enum _ _ | .name _ _ => True
  | .unary _ _ e => Formed rx e
  | .binary _ op l r => Formed rx l ∧ Formed rx r ∧
      (op = .regex → ∃ v s, Expr.eval ⟨fun _ => none, rx⟩ none r = .ok v ∧ v.val = .str s) ∧
      (op = .arrContains → l.typ ≠ none)
  | .logic _ l r => Formed rx l ∧ Formed rx r
  | .field p _ _ => Formed rx p
  | .range e lo up => Formed rx e ∧ Formed rx lo ∧ Formed rx up
  | .oneof cs => Formeds rx cs ∧ cs ≠ .nil
  | .cond _ as => FormedA rx as
  | .quant _ _ _ body => Formed rx body
/-- the choices of `oneof` -/
def Formeds (rx : List Char → List Char → Bool) : Exprs → Prop
  | .nil => True
  | .cons e es => Formed rx e ∧ e.typ = some .bool ∧ Formeds rx es
/-- the branches of a conditional expression -/
def FormedA (rx : List Char → List Char → Bool) : Acts → Prop
  | .els e => Formed rx e
  | .act k e rest => Formed rx k ∧ Formed rx e ∧ FormedA rx rest
end

/-! ### Building expressions -/

variable {D : Decls} {rx : List Char → List Char → Bool}

theorem formed_unary {t : Option Ty} {op : UnOp} {e x : Expr} (he : Formed rx e) (h : mkUnary t op e = .ok x) : Formed rx x := by
  unfold mkUnary at h
  rw [el_bind_ok] at h
  obtain ⟨-, -, h⟩ := h
  cases h
  simpa only [Formed] using he

theorem formed_binary {t : Option Ty} {op : BinOp} {l r x : Expr} (hl : Formed rx l) (hr : Formed rx r)
    (hx : op = .regex → ∃ v s, Expr.eval ⟨fun _ => none, rx⟩ none r = .ok v ∧ v.val = .str s)
    (h : mkBinary D t op l r = .ok x) : Formed rx x := by
  rw [mkBinary, el_bind_ok] at h
  obtain ⟨u, hb, h⟩ := h
  cases h
  simp only [Formed]
  refine ⟨hl, hr, hx, ?_⟩
  rintro rfl
  simp only [binaryTypes, el_bind_ok, ensureClass_ok] at hb
  obtain ⟨-, -, τ, hτ, -⟩ := hb
  rw [hτ]
  simp

/-- all parameters of a call -/
def FormedL (rx : List Char → List Char → Bool) : Exprs → Prop
  | .nil => True
  | .cons e es => Formed rx e ∧ FormedL rx es

theorem formed_toList : ∀ {es : Exprs}, FormedL rx es → ∀ e ∈ es.toList, Formed rx e
  | .nil, _ => by simp [Exprs.toList]
  | .cons e es, h => by
    simp only [FormedL] at h
    intro x hx
    simp only [Exprs.toList, List.mem_cons] at hx
    rcases hx with rfl | hx
    · exact h.1
    · exact formed_toList h.2 x hx

theorem formed_oneof : ∀ {es : Exprs} {u : Unit}, FormedL rx es → mkOneOf.go es = .ok u → Formeds rx es
  | .nil, _, _, _ => by simp only [Formeds]
  | .cons e es, u, h, hg => by
    simp only [FormedL] at h
    simp only [mkOneOf.go, el_bind_ok, ensureClass_ok, inst_bool] at hg
    obtain ⟨-, ⟨τ, h1, rfl⟩, hg⟩ := hg
    simp only [Formeds]
    exact ⟨h.1, h1, formed_oneof h.2 hg⟩

theorem formed_call {rxOk : List Char → Bool} {f : String} {args : Exprs} {x : Expr}
    (hw : FormedL rx args) (h : mkCall D rx rxOk f args = .ok x) : Formed rx x := by
  have hl := formed_toList hw
  unfold mkCall at h
  split at h
  · split at h
    · next a ha =>
      have hwa := hl a (by simp [ha])
      split at h
      · exact formed_unary hwa h
      · exact formed_unary hwa h
    · cases h
  split at h
  · split at h
    · next a b ha => exact formed_binary (hl a (by simp [ha])) (hl b (by simp [ha])) (by simp) h
    · cases h
  split at h
  · split at h
    · next a b ha => exact formed_binary (hl a (by simp [ha])) (hl b (by simp [ha])) (by simp) h
    · cases h
  split at h
  · split at h
    · next a b ha =>
      simp only [el_bind_ok] at h
      obtain ⟨-, -, v, hv, h⟩ := h
      split at h
      · next s hs =>
        split at h
        · refine formed_binary (hl a (by simp [ha])) (hl b (by simp [ha])) (fun _ => ⟨v, s, ?_, hs⟩) h
          unfold evalStatic at hv
          split at hv
          · next hh => cases hv; exact hh
          · cases hv
          · cases hv
        · cases h
      · cases h
    · cases h
  split at h
  · split at h
    · cases h
    · next hne =>
      unfold mkOneOf at h
      rw [el_bind_ok] at h
      obtain ⟨u, hg, h⟩ := h
      cases h
      simp only [Formed]
      refine ⟨formed_oneof hw hg, ?_⟩
      rintro rfl
      simp [Exprs.toList] at hne
  split at h
  · split at h
    · next a ha =>
      rw [el_bind_ok] at h
      obtain ⟨-, -, h⟩ := h
      exact formed_unary (hl a (by simp [ha])) h
    · cases h
  split at h
  · split at h
    · next a ha =>
      rw [el_bind_ok] at h
      obtain ⟨-, -, h⟩ := h
      exact formed_unary (hl a (by simp [ha])) h
    · cases h
  · cases h

theorem formed_field {p x : Expr} {f : String} (hp : Formed rx p) (h : mkField D p f = .ok x) : Formed rx x := by
  unfold mkField at h
  split at h
  · split at h
    · cases h
    · rw [el_bind_ok] at h
      obtain ⟨-, -, h⟩ := h
      cases h
      simpa only [Formed] using hp
  · split at h
    · cases h
    · rw [el_bind_ok] at h
      obtain ⟨-, -, h⟩ := h
      cases h
      simpa only [Formed] using hp
  · split at h
    · cases h
    · split at h
      · cases h
      · cases h
        simpa only [Formed] using hp
  · cases h

theorem formed_logical {op : LogOp} {l r x : Expr} (hl : Formed rx l) (hr : Formed rx r)
    (h : mkLogical D op l r = .ok x) : Formed rx x := by
  have sc : ∀ {op : SCOp}, mkLogic op l r = .ok x → Formed rx x := by
    intro op h
    simp only [mkLogic, el_bind_ok] at h
    obtain ⟨-, -, -, -, h⟩ := h
    cases h
    simp only [Formed]
    exact ⟨hl, hr⟩
  cases op <;> simp only [mkLogical] at h
  · exact sc h
  · exact sc h
  · exact formed_binary hl hr (by simp) h
  · exact sc h

theorem formed_not {neg : Bool} {e x : Expr} (he : Formed rx e) (h : mkNot neg e = .ok x) : Formed rx x := by
  unfold mkNot at h
  split at h
  · exact formed_unary he h
  · cases h; exact he

theorem formed_in {e a x : Expr} (he : Formed rx e) (ha : Formed rx a) (h : mkIn D e a = .ok x) : Formed rx x := by
  unfold mkIn at h
  split at h
  · cases h
  · split at h
    · exact formed_binary he ha (by simp) h
    · split at h
      · exact formed_binary he ha (by simp) h
      · cases h

theorem formed_range {e a b x : Expr} (he : Formed rx e) (ha : Formed rx a) (hb : Formed rx b)
    (h : mkRange e a b = .ok x) : Formed rx x := by
  simp only [mkRange, el_bind_ok] at h
  obtain ⟨-, -, -, -, -, -, h⟩ := h
  cases h
  simp only [Formed]
  exact ⟨he, ha, hb⟩

theorem formed_arith {op : ArOp} {l r x : Expr} (hl : Formed rx l) (hr : Formed rx r)
    (h : mkArith D op l r = .ok x) : Formed rx x := by
  cases op <;> exact formed_binary hl hr (by simp) h

theorem formed_power {l r x : Expr} (hl : Formed rx l) (hr : Formed rx r)
    (h : mkPower D rx l r = .ok x) : Formed rx x := by
  simp only [mkPower, el_bind_ok] at h
  obtain ⟨v, -, e, he, h⟩ := h
  have := formed_binary hl hr (by simp) he
  split at h
  · split at h
    · cases h
    · cases h; exact this
  · cases h

variable {E : ElEnv}

mutual
/-- what the parser accepts is formed -/
theorem elab_formed : ∀ (r : Raw) (sc : TScope) (e : Expr), Raw.elab E sc r = .ok e → Formed E.rx e
  | .null, sc, e, h | .bool _, sc, e, h | .int _, sc, e, h | .dec _, sc, e, h
  | .str _, sc, e, h => by
    simp only [Raw.elab, El.ok.injEq] at h
    subst h
    simp only [Formed]
  | .enumLit path lit, sc, e, h => by
    simp only [Raw.elab] at h
    split at h
    · cases h
    · split at h
      · cases h; simp only [Formed]
      · cases h
  | .name n, sc, e, h => by
    simp only [Raw.elab] at h
    split at h
    · cases h; simp only [Formed]
    · split at h
      · cases h; simp only [Formed]
      · cases h
  | .dot p f, sc, e, h => by
    simp only [Raw.elab, el_bind_ok] at h
    obtain ⟨a, ha, h⟩ := h
    exact formed_field (elab_formed p sc a ha) h
  | .index p i, sc, e, h => by
    simp only [Raw.elab, el_bind_ok] at h
    obtain ⟨a, ha, b, hb, h⟩ := h
    unfold mkIndex at h
    split at h
    · exact formed_binary (elab_formed p sc a ha) (elab_formed i sc b hb) (by simp) h
    · cases h
  | .call f args, sc, e, h => by
    simp only [Raw.elab, el_bind_ok] at h
    obtain ⟨a, ha, h⟩ := h
    exact formed_call (elabs_formed args sc a ha) h
  | .sign m p, sc, e, h => by
    simp only [Raw.elab, el_bind_ok] at h
    obtain ⟨a, ha, h⟩ := h
    cases m
    · exact formed_unary (elab_formed p sc a ha) h
    · exact formed_unary (elab_formed p sc a ha) h
  | .not p, sc, e, h => by
    simp only [Raw.elab, el_bind_ok] at h
    obtain ⟨a, ha, h⟩ := h
    exact formed_unary (elab_formed p sc a ha) h
  | .abs p, sc, e, h => by
    simp only [Raw.elab, el_bind_ok] at h
    obtain ⟨a, ha, h⟩ := h
    exact formed_unary (elab_formed p sc a ha) h
  | .power l r, sc, e, h => by
    simp only [Raw.elab, el_bind_ok] at h
    obtain ⟨a, ha, b, hb, h⟩ := h
    exact formed_power (elab_formed l sc a ha) (elab_formed r sc b hb) h
  | .arith op l r, sc, e, h => by
    simp only [Raw.elab, el_bind_ok] at h
    obtain ⟨a, ha, b, hb, h⟩ := h
    exact formed_arith (elab_formed l sc a ha) (elab_formed r sc b hb) h
  | .cmp op l r, sc, e, h => by
    simp only [Raw.elab, el_bind_ok] at h
    obtain ⟨a, ha, b, hb, h⟩ := h
    exact formed_binary (elab_formed l sc a ha) (elab_formed r sc b hb) (by cases op <;> simp [CmpOp.op]) h
  | .isIn neg l r, sc, e, h => by
    simp only [Raw.elab, el_bind_ok] at h
    obtain ⟨a, ha, b, hb, x, hx, h⟩ := h
    exact formed_not (formed_in (elab_formed l sc a ha) (elab_formed r sc b hb) hx) h
  | .inRange neg l a b, sc, e, h => by
    simp only [Raw.elab, el_bind_ok] at h
    obtain ⟨x, hx, y, hy, z, hz, w, hw, h⟩ := h
    exact formed_not (formed_range (elab_formed l sc x hx) (elab_formed a sc y hy) (elab_formed b sc z hz) hw) h
  | .logic op l r, sc, e, h => by
    simp only [Raw.elab, el_bind_ok] at h
    obtain ⟨a, ha, b, hb, h⟩ := h
    exact formed_logical (elab_formed l sc a ha) (elab_formed r sc b hb) h
  | .cond c p rest, sc, e, h => by
    simp only [Raw.elab, el_bind_ok] at h
    obtain ⟨a, ha, b, hb, h⟩ := h
    split at h
    · cases h
    · next t ht =>
      simp only [el_bind_ok] at h
      obtain ⟨-, -, as, has, h⟩ := h
      cases h
      simp only [Formed, FormedA]
      exact ⟨elab_formed c sc a ha, elab_formed p sc b hb, elaba_formed rest sc t as has⟩
  | .quant u x src body, sc, e, h => by
    simp only [Raw.elab] at h
    split at h
    · cases h
    split at h
    · cases h
    split at h
    · cases h
    split at h
    · simp only [el_bind_ok] at h
      obtain ⟨b, hb, -, -, h⟩ := h
      cases h
      simp only [Formed]
      exact elab_formed body _ b hb
    · cases h

theorem elabs_formed : ∀ (rs : Raws) (sc : TScope) (es : Exprs), Raws.elab E sc rs = .ok es → FormedL E.rx es
  | .nil, sc, es, h => by
    simp only [Raws.elab, El.ok.injEq] at h
    subst h
    simp only [FormedL]
  | .cons r rs, sc, es, h => by
    simp only [Raws.elab, el_bind_ok] at h
    obtain ⟨a, ha, b, hb, h⟩ := h
    cases h
    simp only [FormedL]
    exact ⟨elab_formed r sc a ha, elabs_formed rs sc b hb⟩

theorem elaba_formed : ∀ (rs : RActs) (sc : TScope) (t : Ty) (as : Acts),
    RActs.elab E sc t rs = .ok as → FormedA E.rx as
  | .els r, sc, t, as, h => by
    simp only [RActs.elab, el_bind_ok] at h
    obtain ⟨a, ha, -, -, h⟩ := h
    cases h
    simp only [FormedA]
    exact elab_formed r sc a ha
  | .act c r rest, sc, t, as, h => by
    simp only [RActs.elab, el_bind_ok] at h
    obtain ⟨a, ha, b, hb, -, -, -, -, x, hx, h⟩ := h
    cases h
    simp only [FormedA]
    exact ⟨elab_formed c sc a ha, elab_formed r sc b hb, elaba_formed rest sc t x hx⟩
end

end Verif.Lemmas.Vcg
