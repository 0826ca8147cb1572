import Verif.Lemmas.Vcg.NoCrash
import Verif.Lemmas.TypeRules
/-! Accepted checks compare values of comparable types, and literals of enumerations exist. -/
namespace Verif.Lemmas.Vcg
open Verif.Model Verif.Spec Verif.Lemmas

mutual
/-- `==` and `!=` are between types that can be compared, and literals of enumerations exist -/
def Apt (D : Decls) : Expr → Prop
  | .null | .bool _ | .int _ | .dec _ | .str _ | .name _ _ => True
  | .enum t l => ∃ ls, D.enums[t]? = some ls ∧ l ∈ ls
  | .unary _ _ e => Apt D e
  | .binary _ op l r => Apt D l ∧ Apt D r ∧ (op.allowsNull = true → Comparable D l.typ r.typ)
  | .logic _ l r => Apt D l ∧ Apt D r
  | .field p _ _ => Apt D p
  | .range e lo up => Apt D e ∧ Apt D lo ∧ Apt D up
  | .oneof cs => Apts D cs
  | .cond _ as => AptA D as
  | .quant _ _ _ body => Apt D body
/-- the choices of `oneof` -/
def Apts (D : Decls) : Exprs → Prop
  | .nil => True
  | .cons e es => Apt D e ∧ Apts D es
/-- the branches of a conditional expression -/
def AptA (D : Decls) : Acts → Prop
  | .els e => Apt D e
  | .act k e rest => Apt D k ∧ Apt D e ∧ AptA D rest
end

variable {D : Decls} {rx : List Char → List Char → Bool}

theorem apt_unary {t : Option Ty} {op : UnOp} {e x : Expr} (he : Apt D e) (h : mkUnary t op e = .ok x) : Apt D x := by
  unfold mkUnary at h
  rw [el_bind_ok] at h
  obtain ⟨-, -, h⟩ := h
  cases h
  simpa only [Apt] using he

theorem apt_binary (wf : WFDecls D) {t : Option Ty} {op : BinOp} {l r x : Expr} (hl : Apt D l) (hr : Apt D r)
    (h : mkBinary D t op l r = .ok x) : Apt D x := by
  rw [mkBinary, el_bind_ok] at h
  obtain ⟨u, hb, h⟩ := h
  cases h
  simp only [Apt]
  refine ⟨hl, hr, fun ho => ?_⟩
  cases op <;> simp [BinOp.allowsNull] at ho
  all_goals
    simp only [binaryTypes] at hb
    exact (eqTypes_iff wf).1 hb

theorem apt_toList : ∀ {es : Exprs}, Apts D es → ∀ e ∈ es.toList, Apt D e
  | .nil, _ => by simp [Exprs.toList]
  | .cons e es, h => by
    simp only [Apts] at h
    intro x hx
    simp only [Exprs.toList, List.mem_cons] at hx
    rcases hx with rfl | hx
    · exact h.1
    · exact apt_toList h.2 x hx

theorem apt_call (wf : WFDecls D) {rxOk : List Char → Bool} {f : String} {args : Exprs} {x : Expr}
    (hw : Apts D args) (h : mkCall D rx rxOk f args = .ok x) : Apt D x := by
  have hl := apt_toList hw
  unfold mkCall at h
  split at h
  · split at h
    · next a ha =>
      have hwa := hl a (by simp [ha])
      split at h
      · exact apt_unary hwa h
      · exact apt_unary hwa h
    · cases h
  split at h
  · split at h
    · next a b ha => exact apt_binary wf (hl a (by simp [ha])) (hl b (by simp [ha])) h
    · cases h
  split at h
  · split at h
    · next a b ha => exact apt_binary wf (hl a (by simp [ha])) (hl b (by simp [ha])) h
    · cases h
  split at h
  · split at h
    · next a b ha =>
      simp only [el_bind_ok] at h
      obtain ⟨-, -, v, hv, h⟩ := h
      split at h
      · next s hs =>
        split at h
        · exact apt_binary wf (hl a (by simp [ha])) (hl b (by simp [ha])) h
        · cases h
      · cases h
    · cases h
  split at h
  · split at h
    · cases h
    · unfold mkOneOf at h
      rw [el_bind_ok] at h
      obtain ⟨u, hg, h⟩ := h
      cases h
      simpa only [Apt] using hw
  split at h
  · split at h
    · next a ha =>
      rw [el_bind_ok] at h
      obtain ⟨-, -, h⟩ := h
      exact apt_unary (hl a (by simp [ha])) h
    · cases h
  split at h
  · split at h
    · next a ha =>
      rw [el_bind_ok] at h
      obtain ⟨-, -, h⟩ := h
      exact apt_unary (hl a (by simp [ha])) h
    · cases h
  · cases h

theorem apt_field {p x : Expr} {f : String} (hp : Apt D p) (h : mkField D p f = .ok x) : Apt D x := by
  unfold mkField at h
  split at h
  · split at h
    · cases h
    · rw [el_bind_ok] at h
      obtain ⟨-, -, h⟩ := h
      cases h
      simpa only [Apt] using hp
  · split at h
    · cases h
    · rw [el_bind_ok] at h
      obtain ⟨-, -, h⟩ := h
      cases h
      simpa only [Apt] using hp
  · split at h
    · cases h
    · split at h
      · cases h
      · cases h
        simpa only [Apt] using hp
  · cases h

theorem apt_logical (wf : WFDecls D) {op : LogOp} {l r x : Expr} (hl : Apt D l) (hr : Apt D r)
    (h : mkLogical D op l r = .ok x) : Apt D x := by
  have sc : ∀ {op : SCOp}, mkLogic op l r = .ok x → Apt D x := by
    intro op h
    simp only [mkLogic, el_bind_ok] at h
    obtain ⟨-, -, -, -, h⟩ := h
    cases h
    simp only [Apt]
    exact ⟨hl, hr⟩
  cases op <;> simp only [mkLogical] at h
  · exact sc h
  · exact sc h
  · exact apt_binary wf hl hr h
  · exact sc h

theorem apt_not {neg : Bool} {e x : Expr} (he : Apt D e) (h : mkNot neg e = .ok x) : Apt D x := by
  unfold mkNot at h
  split at h
  · exact apt_unary he h
  · cases h; exact he

theorem apt_in (wf : WFDecls D) {e a x : Expr} (he : Apt D e) (ha : Apt D a) (h : mkIn D e a = .ok x) : Apt D x := by
  unfold mkIn at h
  split at h
  · cases h
  · split at h
    · exact apt_binary wf he ha h
    · split at h
      · exact apt_binary wf he ha h
      · cases h

theorem apt_range {e a b x : Expr} (he : Apt D e) (ha : Apt D a) (hb : Apt D b)
    (h : mkRange e a b = .ok x) : Apt D x := by
  simp only [mkRange, el_bind_ok] at h
  obtain ⟨-, -, -, -, -, -, h⟩ := h
  cases h
  simp only [Apt]
  exact ⟨he, ha, hb⟩

theorem apt_arith (wf : WFDecls D) {op : ArOp} {l r x : Expr} (hl : Apt D l) (hr : Apt D r)
    (h : mkArith D op l r = .ok x) : Apt D x := by
  cases op <;> exact apt_binary wf hl hr h

theorem apt_power (wf : WFDecls D) {l r x : Expr} (hl : Apt D l) (hr : Apt D r)
    (h : mkPower D rx l r = .ok x) : Apt D x := by
  simp only [mkPower, el_bind_ok] at h
  obtain ⟨v, -, e, he, h⟩ := h
  have := apt_binary wf hl hr he
  split at h
  · split at h
    · cases h
    · cases h; exact this
  · cases h

variable {E : ElEnv}

mutual
/-- what the parser accepts is apt -/
theorem elab_apt (wf : WFDecls E.decls) : ∀ (r : Raw) (sc : TScope) (e : Expr), Raw.elab E sc r = .ok e → Apt E.decls e
  | .null, sc, e, h | .bool _, sc, e, h | .int _, sc, e, h | .dec _, sc, e, h
  | .str _, sc, e, h => by
    simp only [Raw.elab, El.ok.injEq] at h
    subst h
    simp only [Apt]
  | .enumLit path lit, sc, e, h => by
    simp only [Raw.elab] at h
    split at h
    · cases h
    · next t ht =>
      split at h
      · next hc =>
        cases h
        simp only [Apt]
        rw [List.contains_iff_mem] at hc
        cases hl : E.decls.enums[t]? with
        | none => rw [hl] at hc; simp at hc
        | some ls => rw [hl] at hc; exact ⟨ls, rfl, hc⟩
      · cases h
  | .name n, sc, e, h => by
    simp only [Raw.elab] at h
    split at h
    · cases h; simp only [Apt]
    · split at h
      · cases h; simp only [Apt]
      · cases h
  | .dot p f, sc, e, h => by
    simp only [Raw.elab, el_bind_ok] at h
    obtain ⟨a, ha, h⟩ := h
    exact apt_field (elab_apt wf p sc a ha) h
  | .index p i, sc, e, h => by
    simp only [Raw.elab, el_bind_ok] at h
    obtain ⟨a, ha, b, hb, h⟩ := h
    unfold mkIndex at h
    split at h
    · exact apt_binary wf (elab_apt wf p sc a ha) (elab_apt wf i sc b hb) h
    · cases h
  | .call f args, sc, e, h => by
    simp only [Raw.elab, el_bind_ok] at h
    obtain ⟨a, ha, h⟩ := h
    exact apt_call wf (elabs_apt wf args sc a ha) h
  | .sign m p, sc, e, h => by
    simp only [Raw.elab, el_bind_ok] at h
    obtain ⟨a, ha, h⟩ := h
    cases m
    · exact apt_unary (elab_apt wf p sc a ha) h
    · exact apt_unary (elab_apt wf p sc a ha) h
  | .not p, sc, e, h => by
    simp only [Raw.elab, el_bind_ok] at h
    obtain ⟨a, ha, h⟩ := h
    exact apt_unary (elab_apt wf p sc a ha) h
  | .abs p, sc, e, h => by
    simp only [Raw.elab, el_bind_ok] at h
    obtain ⟨a, ha, h⟩ := h
    exact apt_unary (elab_apt wf p sc a ha) h
  | .power l r, sc, e, h => by
    simp only [Raw.elab, el_bind_ok] at h
    obtain ⟨a, ha, b, hb, h⟩ := h
    exact apt_power wf (elab_apt wf l sc a ha) (elab_apt wf r sc b hb) h
  | .arith op l r, sc, e, h => by
    simp only [Raw.elab, el_bind_ok] at h
    obtain ⟨a, ha, b, hb, h⟩ := h
    exact apt_arith wf (elab_apt wf l sc a ha) (elab_apt wf r sc b hb) h
  | .cmp op l r, sc, e, h => by
    simp only [Raw.elab, el_bind_ok] at h
    obtain ⟨a, ha, b, hb, h⟩ := h
    exact apt_binary wf (elab_apt wf l sc a ha) (elab_apt wf r sc b hb) h
  | .isIn neg l r, sc, e, h => by
    simp only [Raw.elab, el_bind_ok] at h
    obtain ⟨a, ha, b, hb, x, hx, h⟩ := h
    exact apt_not (apt_in wf (elab_apt wf l sc a ha) (elab_apt wf r sc b hb) hx) h
  | .inRange neg l a b, sc, e, h => by
    simp only [Raw.elab, el_bind_ok] at h
    obtain ⟨x, hx, y, hy, z, hz, w, hw, h⟩ := h
    exact apt_not (apt_range (elab_apt wf l sc x hx) (elab_apt wf a sc y hy) (elab_apt wf b sc z hz) hw) h
  | .logic op l r, sc, e, h => by
    simp only [Raw.elab, el_bind_ok] at h
    obtain ⟨a, ha, b, hb, h⟩ := h
    exact apt_logical wf (elab_apt wf l sc a ha) (elab_apt wf r sc b hb) h
  | .cond c p rest, sc, e, h => by
    simp only [Raw.elab, el_bind_ok] at h
    obtain ⟨a, ha, b, hb, h⟩ := h
    split at h
    · cases h
    · next t ht =>
      simp only [el_bind_ok] at h
      obtain ⟨-, -, as, has, h⟩ := h
      cases h
      simp only [Apt, AptA]
      exact ⟨elab_apt wf c sc a ha, elab_apt wf p sc b hb, elaba_apt wf rest sc t as has⟩
  | .quant u x src body, sc, e, h => by
    simp only [Raw.elab] at h
    split at h
    · cases h
    split at h
    · cases h
    split at h
    · cases h
    split at h
    · simp only [el_bind_ok] at h
      obtain ⟨b, hb, -, -, h⟩ := h
      cases h
      simp only [Apt]
      exact elab_apt wf body _ b hb
    · cases h

theorem elabs_apt (wf : WFDecls E.decls) : ∀ (rs : Raws) (sc : TScope) (es : Exprs), Raws.elab E sc rs = .ok es → Apts E.decls es
  | .nil, sc, es, h => by
    simp only [Raws.elab, El.ok.injEq] at h
    subst h
    simp only [Apts]
  | .cons r rs, sc, es, h => by
    simp only [Raws.elab, el_bind_ok] at h
    obtain ⟨a, ha, b, hb, h⟩ := h
    cases h
    simp only [Apts]
    exact ⟨elab_apt wf r sc a ha, elabs_apt wf rs sc b hb⟩

theorem elaba_apt (wf : WFDecls E.decls) : ∀ (rs : RActs) (sc : TScope) (t : Ty) (as : Acts),
    RActs.elab E sc t rs = .ok as → AptA E.decls as
  | .els r, sc, t, as, h => by
    simp only [RActs.elab, el_bind_ok] at h
    obtain ⟨a, ha, -, -, h⟩ := h
    cases h
    simp only [AptA]
    exact elab_apt wf r sc a ha
  | .act c r rest, sc, t, as, h => by
    simp only [RActs.elab, el_bind_ok] at h
    obtain ⟨a, ha, b, hb, -, -, -, -, x, hx, h⟩ := h
    cases h
    simp only [AptA]
    exact ⟨elab_apt wf c sc a ha, elab_apt wf r sc b hb, elaba_apt wf rest sc t x hx⟩
end

end Verif.Lemmas.Vcg
