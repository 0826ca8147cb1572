import Verif.Lemmas.Vcg.Live
/-! An expression whose goals hold has a value, and its term has it. -/
namespace Verif.Lemmas.Vcg
open Verif.Model Verif.Spec

/-- bound variables have no value outside of quantifiers -/
abbrev zero : Nat → Int := fun _ => 0

/-- the situation while an expression is translated -/
structure Sit (W : World) (G : TS) (I : Interp) (s : TS) (Γ : Gamma) (ρ : NameTrs) (c : List (String × FExpr)) : Prop where
  ok    : Ok s
  live  : Live W.D G I s
  io    : IOk W I
  nb    : NBelow s.tmp ρ
  names : NamesOk W I zero Γ ρ c
  ctx   : CtxOk W.D W.objTy Γ c
  bd    : CtxBounded W.heap c

variable {W : World} {G : TS} {I I' : Interp} {s s' : TS} {Γ : Gamma} {ρ : NameTrs} {c : List (String × FExpr)}

theorem Sit.next (h : Sit W G I s Γ ρ c) (hs : Same s.tmp I I') (hl : Le s s') (ho : Ok s') (hv : Live W.D G I' s') :
    Sit W G I' s' Γ ρ c :=
  ⟨ho, hv, iok_same h.io hs, h.nb.mono hl.tmp, names_same h.names h.nb hs fun _ _ => rfl, h.ctx, h.bd⟩

/-- well-typed, without clashes, and exact -/
structure Fit (W : World) (Γ : Gamma) (e : Expr) : Prop where
  wt    : WT W.D W.rx Γ e
  side  : Side W.D True True Γ e
  exact : Exact W.D e

/-- what holds after the translation -/
def After (W : World) (G : TS) (I : Interp) (s s' : TS) (c : List (String × FExpr)) (e : Expr) (p : TrPair) : Prop :=
  ∃ v, strict W.env c e = some v ∧ ∃ I', Same s.tmp I I' ∧ Live W.D G I' s' ∧ Repr W I' zero p v

/-- an operand that is checked for null -/
theorem operand {e : Expr} {em : Bool} {p : TrPair} {s1 s2 : TS} {u : Unit} (hs : Sit W G I s Γ ρ c)
    (h1 : Expr.tr W.trEnv em ρ e s = .ok p s1) (h2 : checkValid em p.2 s1 = .ok u s2) (hl : Le s2 G)
    (ih : After W G I s s1 c e p) (hf : Fine W.D G em ((solid (strict W.env c e)).isSome)) :
    ∃ v a, strict W.env c e = some v ∧ v.val.isNull = false ∧ solid (strict W.env c e) = some v ∧ p.1 = some a ∧ below s2.tmp a ∧ PBelow s2.tmp p ∧
      ∃ I', Same s.tmp I I' ∧ Le s s2 ∧ Sit W G I' s2 Γ ρ c ∧ W.val I' zero a = W.rp v ∧ Repr W I' zero p v := by
  obtain ⟨v, hv, I', hs', hl', hr⟩ := ih
  obtain ⟨l1, o1, b1⟩ := tr_mono e ρ s s1 p h1 hs.ok hs.nb
  obtain ⟨l2, o2, e2⟩ := valid_le h2 o1
  obtain ⟨hn, hlive⟩ := valid_live h2 hl hl' (iok_same hs.io hs') b1 hr (hf.imp fun h => by
    rw [hv, Option.isSome_iff_exists] at h
    obtain ⟨w, hw⟩ := h
    obtain ⟨h1, h2⟩ := solid_eq_some.1 hw
    cases h1
    exact h2)
  obtain ⟨a, ha, hva⟩ := hr.2 hn
  exact ⟨v, a, hv, hn, solid_eq_some.2 ⟨hv, hn⟩, ha, e2 ▸ b1.1 a ha, e2 ▸ b1, I', hs', l1.trans l2,
    hs.next hs' (l1.trans l2) o2 hlive, hva, hr⟩

theorem fine_some {D G em} {α : Type} {x : Option α} {y : Prop} (h : Fine D G em x.isSome) (f : ∀ a, x = some a → y) : Fine D G em y :=
  h.imp fun h => by
    obtain ⟨a, ha⟩ := Option.isSome_iff_exists.1 h
    exact f a ha

/-- the value of the variable of a quantifier -/
theorem bind_names {β : Nat → Int} (h : NamesOk W I β Γ ρ c) {x : String} {a : Smt} {t : Ty} {fe : FExpr} {v : TV}
    (he : fe.eval W.heap = .ok v) (hn : v.val.isNull = false) (ha : W.val I β a = W.rp v) :
    NamesOk W I β (Γ.bind x t) (ρ.bind x a t) ((x, fe) :: c) := by
  intro m y hy
  simp only [NameTrs.bind] at hy
  split at hy
  · next e =>
    subst e
    cases hy
    exact ⟨⟨false, by simp [Gamma.bind]⟩, fe, v, by simp, he, repr_true hn ha⟩
  · next e =>
    obtain ⟨⟨b, h1⟩, fe', v', h2, h3, h4⟩ := h m y hy
    refine ⟨⟨b, by simp [Gamma.bind, e, h1]⟩, fe', v', ?_, h3, h4⟩
    have : (m == x) = false := by rw [beq_eq_false_iff_ne]; exact e
    simp [List.lookup_cons, this, h2]

theorem bind_bounded (h : CtxBounded W.heap c) {x : String} {fe : FExpr} (hf : InBounds W.heap fe) :
    CtxBounded W.heap ((x, fe) :: c) := by
  intro m y hy
  rw [List.lookup_cons] at hy
  split at hy
  · cases hy; exact hf
  · exact h m y hy

theorem allBools_some {f : FExpr → Option TV} : ∀ {es : List FExpr} {bs : List Bool}, allBools f es = some bs →
    bs.length = es.length ∧ ∀ (i : Nat) (e : FExpr), es[i]? = some e → ∃ w b, f e = some w ∧ w.val = .bool b ∧ bs[i]? = some b
  | [], bs, h => by
    simp only [allBools, Option.some.injEq] at h
    subst h
    simp
  | e :: es, bs, h => by
    simp only [allBools, Option.bind_eq_some_iff] at h
    obtain ⟨r, hr, h⟩ := h
    split at h
    · next x hx =>
      simp only [Option.bind_eq_some_iff, Option.some.injEq] at h
      obtain ⟨ys, hys, rfl⟩ := h
      obtain ⟨h1, h2⟩ := allBools_some hys
      refine ⟨by simp [h1], fun i e' hi => ?_⟩
      cases i with
      | zero => simp only [List.getElem?_cons_zero, Option.some.injEq] at hi; subst hi; exact ⟨r, x, hr, hx, by simp⟩
      | succ i => simp only [List.getElem?_cons_succ] at hi ⊢; exact h2 i e' hi
    · cases h

theorem allBools_of {f : FExpr → Option TV} : ∀ {es : List FExpr}, (∀ e ∈ es, ∃ w b, f e = some w ∧ w.val = .bool b) →
    ∃ bs, allBools f es = some bs
  | [], _ => ⟨[], rfl⟩
  | e :: es, h => by
    obtain ⟨w, b, h1, h2⟩ := h e List.mem_cons_self
    obtain ⟨bs, hbs⟩ := allBools_of (es := es) fun e he => h e (List.mem_cons_of_mem _ he)
    exact ⟨b :: bs, by simp [allBools, h1, h2, hbs]⟩

theorem elems_index {heap : Nat → Option Fields} : ∀ {es : List FExpr} {vs : List (Option Ty × Val)}, evalElems heap es = .ok vs →
    es.length = vs.length ∧ ∀ (i : Nat) (e : FExpr), es[i]? = some e → ∃ v, e.eval heap = .ok v ∧ vs[i]? = some (v.typ, v.val)
  | [], vs, h => by
    simp only [evalElems, Ev.ok.injEq] at h
    subst h
    simp
  | e :: es, vs, h => by
    simp only [evalElems, bind_eq_ok, Ev.ok.injEq] at h
    obtain ⟨v, hv, ws, hws, rfl⟩ := h
    obtain ⟨h1, h2⟩ := elems_index hws
    refine ⟨by simp [h1], fun i e' hi => ?_⟩
    cases i with
    | zero => simp only [List.getElem?_cons_zero, Option.some.injEq] at hi; subst hi; exact ⟨v, hv, by simp⟩
    | succ i => simp only [List.getElem?_cons_succ] at hi ⊢; exact h2 i e' hi

end Verif.Lemmas.Vcg
