import Verif.Spec.Dump
import Verif.Lemmas.RslChecks
import Verif.Lemmas.RslText
import Mathlib.Data.Fintype.Card
import Mathlib.Logic.Relation
/-!
Dumping symbol tables
-/
namespace Verif.Lemmas.Dump
open Verif.Model Verif.Spec Verif.Lemmas

/-! ## One thing after the other -/

/-- it ends -/
def Ok (r : DumpR) : Prop := ∃ ls, r = .ok ls

/-- it ends, or the calls are nested too deep -/
def Fine (r : DumpR) : Prop := r = .error .recursion ∨ Ok r

theorem ok_ok {ls : List DLine} : Ok (.ok ls) := ⟨_, rfl⟩

theorem fine_ok {ls : List DLine} : Fine (.ok ls) := .inr ok_ok

theorem followed_ok {a b : DumpR} {ls : List DLine} : a.followed b = .ok ls ↔ ∃ x y, a = .ok x ∧ b = .ok y ∧ ls = x ++ y := by
  unfold DumpR.followed
  cases a with
  | error e => simp
  | ok x =>
    cases b with
    | error e => simp
    | ok y => simp [eq_comm]

theorem ok_followed {a b : DumpR} : Ok (a.followed b) ↔ Ok a ∧ Ok b := by
  constructor
  · rintro ⟨ls, h⟩
    obtain ⟨x, y, h1, h2, -⟩ := followed_ok.1 h
    exact ⟨⟨x, h1⟩, y, h2⟩
  · rintro ⟨⟨x, rfl⟩, y, rfl⟩
    exact ok_ok

theorem fine_followed {a b : DumpR} (h1 : Fine a) (h2 : Fine b) : Fine (a.followed b) := by
  rcases h1 with rfl | ⟨x, rfl⟩
  · exact .inl rfl
  · rcases h2 with rfl | ⟨y, rfl⟩
    · exact .inl rfl
    · exact fine_ok

theorem ok_dumpAll {α : Type} {f : α → DumpR} {as : List α} : Ok (dumpAll f as) ↔ ∀ a ∈ as, Ok (f a) := by
  induction as with
  | nil => simp [dumpAll, ok_ok]
  | cons a as ih => simp [dumpAll, ok_followed, ih]

theorem fine_dumpAll {α : Type} {f : α → DumpR} {as : List α} (h : ∀ a ∈ as, Fine (f a)) : Fine (dumpAll f as) := by
  induction as with
  | nil => exact fine_ok
  | cons a as ih => exact fine_followed (h a (by simp)) (ih fun b hb => h b (by simp [hb]))

theorem dumpAll_cons_ok {α : Type} {f : α → DumpR} {a : α} {as : List α} {ls : List DLine} :
    dumpAll f (a :: as) = .ok ls ↔ ∃ x y, f a = .ok x ∧ dumpAll f as = .ok y ∧ ls = x ++ y := followed_ok

theorem dumpAll_mem {α : Type} {f : α → DumpR} {as : List α} : ∀ {ls : List DLine}, dumpAll f as = .ok ls →
    ∀ l ∈ ls, ∃ a ∈ as, ∃ x, f a = .ok x ∧ l ∈ x := by
  induction as with
  | nil => intro ls h l hl; cases h; cases hl
  | cons a as ih =>
    intro ls h l hl
    obtain ⟨x, y, h1, h2, rfl⟩ := dumpAll_cons_ok.1 h
    rcases List.mem_append.1 hl with hl | hl
    · exact ⟨a, by simp, x, h1, hl⟩
    · obtain ⟨b, hb, z, h3, h4⟩ := ih h2 l hl
      exact ⟨b, by simp [hb], z, h3, h4⟩

/-! ## Expressions -/

mutual
/-- every operator has a type -/
def Typed : Expr → Prop
  | .null | .bool _ | .int _ | .dec _ | .str _ | .enum _ _ | .name _ _ => True
  | .unary t _ e => t ≠ none ∧ Typed e
  | .binary t _ l r => t ≠ none ∧ Typed l ∧ Typed r
  | .logic _ l r => Typed l ∧ Typed r
  | .field p _ _ => Typed p
  | .range e lo up => Typed e ∧ Typed lo ∧ Typed up
  | .oneof es => Typeds es
  | .cond _ as => TypedA as
  | .quant _ _ _ e => Typed e
/-- … of the parameters -/
def Typeds : Exprs → Prop
  | .nil => True
  | .cons e es => Typed e ∧ Typeds es
/-- … of the branches -/
def TypedA : Acts → Prop
  | .els e => Typed e
  | .act c e as => Typed c ∧ Typed e ∧ TypedA as
end

theorem unOk_typ {op : UnOp} {a t : Option Ty} (h : unOk op a t) : t ≠ none := by
  cases op <;> simp only [unOk] at h <;> first
    | (obtain ⟨h | h, rfl⟩ := h <;> simp [h]; done)
    | (rw [h.2]; simp; done)

theorem binOk_typ {op : BinOp} {a b t : Option Ty} (h : binOk op a b t) : t ≠ none := by
  rintro rfl
  cases op <;> simp [binOk] at h <;> first
    | (rcases h with ⟨h | h, -, h2⟩ | ⟨-, -, h2⟩ <;> simp_all; done)
    | (obtain ⟨h | h, -, h2⟩ := h <;> simp_all; done)
    | simp_all

variable {D : Decls} {rx : List Char → List Char → Bool}

mutual
theorem wt_typed : ∀ (e : Expr) (Γ : Gamma), WT D rx Γ e → Typed e
  | .null, _, _ | .bool _, _, _ | .int _, _, _ | .dec _, _, _ | .str _, _, _ | .enum _ _, _, _ | .name _ _, _, _ => by
    simp only [Typed]
  | .unary t op e, Γ, h => by
    simp only [WT] at h
    simp only [Typed]
    exact ⟨unOk_typ h.2, wt_typed e Γ h.1⟩
  | .binary t op l r, Γ, h => by
    simp only [WT] at h
    simp only [Typed]
    exact ⟨binOk_typ h.2.2.1, wt_typed l Γ h.1, wt_typed r Γ h.2.1⟩
  | .logic op l r, Γ, h => by
    simp only [WT] at h
    simp only [Typed]
    exact ⟨wt_typed l Γ h.1, wt_typed r Γ h.2.1⟩
  | .field p n t, Γ, h => by
    simp only [WT] at h
    simp only [Typed]
    exact wt_typed p Γ h.1
  | .range e lo up, Γ, h => by
    simp only [WT] at h
    simp only [Typed]
    exact ⟨wt_typed e Γ h.1, wt_typed lo Γ h.2.1, wt_typed up Γ h.2.2.1⟩
  | .oneof es, Γ, h => by
    simp only [WT] at h
    simp only [Typed]
    exact wts_typed es Γ h
  | .cond t as, Γ, h => by
    simp only [WT] at h
    simp only [Typed]
    exact wta_typed as Γ t h
  | .quant u x src e, Γ, h => by
    simp only [WT] at h
    obtain ⟨⟨id, elem, lo, hi, b, -, h⟩, -⟩ := h
    simp only [Typed]
    exact wt_typed e _ h
theorem wts_typed : ∀ (es : Exprs) (Γ : Gamma), WTs D rx Γ es → Typeds es
  | .nil, _, _ => by simp only [Typeds]
  | .cons e es, Γ, h => by
    simp only [WTs] at h
    simp only [Typeds]
    exact ⟨wt_typed e Γ h.1, wts_typed es Γ h.2⟩
theorem wta_typed : ∀ (as : Acts) (Γ : Gamma) (t : Ty), WTa D rx Γ t as → TypedA as
  | .els e, Γ, t, h => by
    simp only [WTa] at h
    simp only [TypedA]
    exact wt_typed e Γ h.1
  | .act c e as, Γ, t, h => by
    simp only [WTa] at h
    simp only [TypedA]
    exact ⟨wt_typed c Γ h.1, wt_typed e Γ h.2.2.1, wta_typed as Γ t h.2.2.2.2⟩
end

/-! ### Quantifiers range over components -/

/-- the component is an array -/
def IsArr (comp : String → Option Comp) (n : String) : Prop := ∃ c id u lo hi, comp n = some c ∧ c.ty = .arr id u lo hi

/-- all quantifiers range over arrays -/
def Arrs (comp : String → Option Comp) (e : Expr) : Prop := ∀ n, QuantifiesIn e n → IsArr comp n

variable {comp : String → Option Comp}

theorem arrs_unary {t : Option Ty} {op : UnOp} {e x : Expr} (he : Arrs comp e) (h : mkUnary t op e = .ok x) : Arrs comp x := by
  unfold mkUnary at h
  rw [el_bind_ok] at h
  obtain ⟨-, -, h⟩ := h
  cases h
  exact he

theorem arrs_binary {t : Option Ty} {op : BinOp} {l r x : Expr} (hl : Arrs comp l) (hr : Arrs comp r)
    (h : mkBinary D t op l r = .ok x) : Arrs comp x := by
  unfold mkBinary at h
  rw [el_bind_ok] at h
  obtain ⟨-, -, h⟩ := h
  cases h
  intro n hn
  simp only [QuantifiesIn] at hn
  exact hn.elim (hl n) (hr n)

theorem arrs_field {p x : Expr} {f : String} (hp : Arrs comp p) (h : mkField D p f = .ok x) : Arrs comp x := by
  have key : ∀ τ, Arrs comp (.field p f τ) := fun τ n hn => hp n (by simpa only [QuantifiesIn] using hn)
  unfold mkField at h
  split at h
  · split at h
    · cases h
    · rw [el_bind_ok] at h; obtain ⟨-, -, h⟩ := h; cases h; exact key _
  · split at h
    · cases h
    · rw [el_bind_ok] at h; obtain ⟨-, -, h⟩ := h; cases h; exact key _
  · split at h
    · cases h
    · split at h
      · cases h
      · cases h; exact key _
  · cases h

theorem arrs_index {p i x : Expr} (hp : Arrs comp p) (hi : Arrs comp i) (h : mkIndex D p i = .ok x) : Arrs comp x := by
  unfold mkIndex at h
  split at h
  · exact arrs_binary hp hi h
  · cases h

theorem arrs_power {l r x : Expr} (hl : Arrs comp l) (hr : Arrs comp r) (h : mkPower D rx l r = .ok x) : Arrs comp x := by
  unfold mkPower at h
  simp only [el_bind_ok] at h
  obtain ⟨v, -, e, h1, h2⟩ := h
  split at h2
  · split at h2
    · cases h2
    · cases h2; exact arrs_binary hl hr h1
  · cases h2

theorem arrs_arith {op : ArOp} {l r x : Expr} (hl : Arrs comp l) (hr : Arrs comp r) (h : mkArith D op l r = .ok x) : Arrs comp x := by
  cases op <;> exact arrs_binary hl hr h

theorem arrs_not {neg : Bool} {e x : Expr} (he : Arrs comp e) (h : mkNot neg e = .ok x) : Arrs comp x := by
  unfold mkNot at h
  split at h
  · exact arrs_unary he h
  · cases h; exact he

theorem arrs_in {e a x : Expr} (he : Arrs comp e) (ha : Arrs comp a) (h : mkIn D e a = .ok x) : Arrs comp x := by
  unfold mkIn at h
  split at h
  · cases h
  · split at h
    · exact arrs_binary he ha h
    · split at h
      · exact arrs_binary he ha h
      · cases h

theorem arrs_range {e a b x : Expr} (he : Arrs comp e) (ha : Arrs comp a) (hb : Arrs comp b) (h : mkRange e a b = .ok x) :
    Arrs comp x := by
  unfold mkRange at h
  simp only [el_bind_ok] at h
  obtain ⟨-, -, -, -, -, -, h⟩ := h
  cases h
  intro n hn
  simp only [QuantifiesIn] at hn
  exact hn.elim (he n) fun hn => hn.elim (ha n) (hb n)

theorem arrs_logical {op : LogOp} {l r x : Expr} (hl : Arrs comp l) (hr : Arrs comp r) (h : mkLogical D op l r = .ok x) :
    Arrs comp x := by
  have key : ∀ {op : SCOp}, mkLogic op l r = .ok x → Arrs comp x := by
    intro op h
    unfold mkLogic at h
    simp only [el_bind_ok] at h
    obtain ⟨-, -, -, -, h⟩ := h
    cases h
    intro n hn
    simp only [QuantifiesIn] at hn
    exact hn.elim (hl n) (hr n)
  cases op
  · exact key h
  · exact key h
  · exact arrs_binary hl hr h
  · exact key h

theorem any_mem {n : String} : ∀ {es : Exprs} {e : Expr}, e ∈ es.toList → QuantifiesIn e n → QuantifiesInAny es n
  | .nil, _, h, _ => by simp [Exprs.toList] at h
  | .cons a es, e, h, hn => by
    simp only [Exprs.toList, List.mem_cons] at h
    simp only [QuantifiesInAny]
    rcases h with rfl | h
    · exact .inl hn
    · exact .inr (any_mem h hn)

theorem arrs_call {rxOk : List Char → Bool} {f : String} {args : Exprs} {x : Expr}
    (ha : ∀ n, QuantifiesInAny args n → IsArr comp n) (h : mkCall D rx rxOk f args = .ok x) : Arrs comp x := by
  have hl : ∀ e ∈ args.toList, Arrs comp e := fun e he n hn => ha n (any_mem he hn)
  unfold mkCall at h
  split at h
  · split at h
    · next a e1 =>
      have := hl a (by simp [e1])
      split at h <;> exact arrs_unary this h
    · cases h
  split at h
  · split at h
    · next a b e1 => exact arrs_binary (hl a (by simp [e1])) (hl b (by simp [e1])) h
    · cases h
  split at h
  · split at h
    · next a b e1 => exact arrs_binary (hl a (by simp [e1])) (hl b (by simp [e1])) h
    · cases h
  split at h
  · split at h
    · next a b e1 =>
      simp only [el_bind_ok] at h
      obtain ⟨-, -, v, -, h⟩ := h
      split at h
      · split at h
        · exact arrs_binary (hl a (by simp [e1])) (hl b (by simp [e1])) h
        · cases h
      · cases h
    · cases h
  split at h
  · split at h
    · cases h
    · unfold mkOneOf at h
      rw [el_bind_ok] at h
      obtain ⟨-, -, h⟩ := h
      cases h
      intro n hn
      simp only [QuantifiesIn] at hn
      exact ha n hn
  split at h
  · split at h
    · next a e1 =>
      rw [el_bind_ok] at h
      obtain ⟨-, -, h⟩ := h
      exact arrs_unary (hl a (by simp [e1])) h
    · cases h
  split at h
  · split at h
    · next a e1 =>
      rw [el_bind_ok] at h
      obtain ⟨-, -, h⟩ := h
      exact arrs_unary (hl a (by simp [e1])) h
    · cases h
  cases h

variable {E : ElEnv}

mutual
theorem elab_arrs : ∀ (r : Raw) (sc : TScope) (e : Expr), Raw.elab E sc r = .ok e → Arrs sc.comp e
  | .null, sc, e, h | .bool _, sc, e, h | .int _, sc, e, h | .dec _, sc, e, h | .str _, sc, e, h => by
    simp only [Raw.elab, El.ok.injEq] at h
    subst h
    intro n hn
    simp only [QuantifiesIn] at hn
  | .enumLit path lit, sc, e, h => by
    simp only [Raw.elab] at h
    split at h
    · cases h
    · split at h
      · cases h; intro n hn; simp only [QuantifiesIn] at hn
      · cases h
  | .name n, sc, e, h => by
    simp only [Raw.elab] at h
    split at h
    · cases h; intro n hn; simp only [QuantifiesIn] at hn
    · split at h
      · cases h; intro n hn; simp only [QuantifiesIn] at hn
      · cases h
  | .dot p f, sc, e, h => by
    simp only [Raw.elab, el_bind_ok] at h
    obtain ⟨a, ha, h⟩ := h
    exact arrs_field (elab_arrs p sc a ha) h
  | .index p i, sc, e, h => by
    simp only [Raw.elab, el_bind_ok] at h
    obtain ⟨a, ha, b, hb, h⟩ := h
    exact arrs_index (elab_arrs p sc a ha) (elab_arrs i sc b hb) h
  | .call f args, sc, e, h => by
    simp only [Raw.elab, el_bind_ok] at h
    obtain ⟨a, ha, h⟩ := h
    exact arrs_call (elabs_arrs args sc a ha) h
  | .sign m p, sc, e, h => by
    simp only [Raw.elab, el_bind_ok] at h
    obtain ⟨a, ha, h⟩ := h
    exact arrs_unary (elab_arrs p sc a ha) h
  | .not p, sc, e, h => by
    simp only [Raw.elab, el_bind_ok] at h
    obtain ⟨a, ha, h⟩ := h
    exact arrs_unary (elab_arrs p sc a ha) h
  | .abs p, sc, e, h => by
    simp only [Raw.elab, el_bind_ok] at h
    obtain ⟨a, ha, h⟩ := h
    exact arrs_unary (elab_arrs p sc a ha) h
  | .power l r, sc, e, h => by
    simp only [Raw.elab, el_bind_ok] at h
    obtain ⟨a, ha, b, hb, h⟩ := h
    exact arrs_power (elab_arrs l sc a ha) (elab_arrs r sc b hb) h
  | .arith op l r, sc, e, h => by
    simp only [Raw.elab, el_bind_ok] at h
    obtain ⟨a, ha, b, hb, h⟩ := h
    exact arrs_arith (elab_arrs l sc a ha) (elab_arrs r sc b hb) h
  | .cmp op l r, sc, e, h => by
    simp only [Raw.elab, el_bind_ok] at h
    obtain ⟨a, ha, b, hb, h⟩ := h
    exact arrs_binary (elab_arrs l sc a ha) (elab_arrs r sc b hb) h
  | .isIn neg l r, sc, e, h => by
    simp only [Raw.elab, el_bind_ok] at h
    obtain ⟨a, ha, b, hb, x, hx, h⟩ := h
    exact arrs_not (arrs_in (elab_arrs l sc a ha) (elab_arrs r sc b hb) hx) h
  | .inRange neg l a b, sc, e, h => by
    simp only [Raw.elab, el_bind_ok] at h
    obtain ⟨x, hx, y, hy, z, hz, w, hw, h⟩ := h
    exact arrs_not (arrs_range (elab_arrs l sc x hx) (elab_arrs a sc y hy) (elab_arrs b sc z hz) hw) h
  | .logic op l r, sc, e, h => by
    simp only [Raw.elab, el_bind_ok] at h
    obtain ⟨a, ha, b, hb, h⟩ := h
    exact arrs_logical (elab_arrs l sc a ha) (elab_arrs r sc b hb) h
  | .cond c p rest, sc, e, h => by
    simp only [Raw.elab, el_bind_ok] at h
    obtain ⟨a, ha, b, hb, h⟩ := h
    split at h
    · cases h
    · simp only [el_bind_ok] at h
      obtain ⟨-, -, as, has, h⟩ := h
      cases h
      intro n hn
      simp only [QuantifiesIn, QuantifiesInActs] at hn
      exact hn.elim (elab_arrs c sc a ha n) fun hn => hn.elim (elab_arrs p sc b hb n) (elaba_arrs rest sc _ as has n)
  | .quant u x src body, sc, e, h => by
    simp only [Raw.elab] at h
    split at h
    · cases h
    split at h
    · cases h
    split at h
    · cases h
    next c hc =>
    split at h
    · next id elem lo hi hty =>
      simp only [el_bind_ok] at h
      obtain ⟨b, hb, -, -, h⟩ := h
      cases h
      intro n hn
      simp only [QuantifiesIn] at hn
      rcases hn with rfl | hn
      · exact ⟨c, id, elem, lo, hi, hc, hty⟩
      · exact elab_arrs body _ b hb n hn
    · cases h

theorem elabs_arrs : ∀ (rs : Raws) (sc : TScope) (es : Exprs), Raws.elab E sc rs = .ok es →
    ∀ n, QuantifiesInAny es n → IsArr sc.comp n
  | .nil, sc, es, h => by
    simp only [Raws.elab, El.ok.injEq] at h
    subst h
    intro n hn
    simp only [QuantifiesInAny] at hn
  | .cons r rs, sc, es, h => by
    simp only [Raws.elab, el_bind_ok] at h
    obtain ⟨a, ha, b, hb, h⟩ := h
    cases h
    intro n hn
    simp only [QuantifiesInAny] at hn
    exact hn.elim (elab_arrs r sc a ha n) (elabs_arrs rs sc b hb n)

theorem elaba_arrs : ∀ (rs : RActs) (sc : TScope) (t : Ty) (as : Acts), RActs.elab E sc t rs = .ok as →
    ∀ n, QuantifiesInActs as n → IsArr sc.comp n
  | .els r, sc, t, as, h => by
    simp only [RActs.elab, el_bind_ok] at h
    obtain ⟨a, ha, -, -, h⟩ := h
    cases h
    intro n hn
    simp only [QuantifiesInActs] at hn
    exact elab_arrs r sc a ha n hn
  | .act c r rest, sc, t, as, h => by
    simp only [RActs.elab, el_bind_ok] at h
    obtain ⟨a, ha, b, hb, -, -, -, -, x, hx, h⟩ := h
    cases h
    intro n hn
    simp only [QuantifiesInActs] at hn
    exact hn.elim (elab_arrs c sc a ha n) fun hn => hn.elim (elab_arrs r sc b hb n) (elaba_arrs rest sc t x hx n)
end

end Verif.Lemmas.Dump
