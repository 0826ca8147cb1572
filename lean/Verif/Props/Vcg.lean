import Verif.Model.Vcg
import Verif.Props.Inherited
import Verif.Props.Checks
/-!
# C67: the assumptions of the verification of checks
-/
namespace Verif.Props
open Verif.Model Verif.Spec Verif.Lemmas

/-! ## Which checks follow references -/

mutual
/-- `PartOf x e`: `x` is `e` or a part of `e`. -/
inductive PartOf : Expr → Expr → Prop
  | refl {e} : PartOf e e
  | unary {x t o e} : PartOf x e → PartOf x (.unary t o e)
  | left {x t o l r} : PartOf x l → PartOf x (.binary t o l r)
  | right {x t o l r} : PartOf x r → PartOf x (.binary t o l r)
  | logicLeft {x o l r} : PartOf x l → PartOf x (.logic o l r)
  | logicRight {x o l r} : PartOf x r → PartOf x (.logic o l r)
  | pre {x p n t} : PartOf x p → PartOf x (.field p n t)
  | range {x e lo up} : PartOf x e → PartOf x (.range e lo up)
  | lower {x e lo up} : PartOf x lo → PartOf x (.range e lo up)
  | upper {x e lo up} : PartOf x up → PartOf x (.range e lo up)
  | oneof {x es} : PartOfAny x es → PartOf x (.oneof es)
  | cond {x t as} : PartOfActs x as → PartOf x (.cond t as)
  | body {x u v s b} : PartOf x b → PartOf x (.quant u v s b)
/-- the same for lists -/
inductive PartOfAny : Expr → Exprs → Prop
  | head {x e es} : PartOf x e → PartOfAny x (.cons e es)
  | tail {x e es} : PartOfAny x es → PartOfAny x (.cons e es)
/-- the same for the branches of a conditional expression -/
inductive PartOfActs : Expr → Acts → Prop
  | els {x e} : PartOf x e → PartOfActs x (.els e)
  | cond {x c e r} : PartOf x c → PartOfActs x (.act c e r)
  | val {x c e r} : PartOf x e → PartOfActs x (.act c e r)
  | rest {x c e r} : PartOfActs x r → PartOfActs x (.act c e r)
end

/-- a field access through a reference -/
def Follows (x : Expr) : Prop :=
  ∃ p n t, x = .field p n t ∧ ((∃ r, p.typ = some (.record r)) ∨ ∃ id ms, p.typ = some (.union id ms))

private theorem follows_field {p : Expr} {n : String} {t : Ty} : Follows (.field p n t) ↔
    ((∃ r, p.typ = some (.record r)) ∨ ∃ id ms, p.typ = some (.union id ms)) := by
  constructor
  · rintro ⟨p', n', t', h, h'⟩
    cases h
    exact h'
  · exact fun h => ⟨p, n, t, rfl, h⟩

mutual
private theorem uses_iff : (e : Expr) → (e.usesFieldAccess = true ↔ ∃ x, PartOf x e ∧ Follows x)
  | .null | .bool _ | .int _ | .dec _ | .str _ | .enum _ _ | .name _ _ => by
    simp only [Expr.usesFieldAccess, Bool.false_eq_true, false_iff]
    rintro ⟨x, h, p, n, t, rfl, -⟩
    cases h
  | .unary t o e => by
    simp only [Expr.usesFieldAccess, uses_iff e]
    constructor
    · rintro ⟨x, h, hf⟩; exact ⟨x, .unary h, hf⟩
    · rintro ⟨x, h, hf⟩
      cases h with
      | refl => obtain ⟨_, _, _, h, -⟩ := hf; cases h
      | unary h => exact ⟨x, h, hf⟩
  | .binary t o l r => by
    simp only [Expr.usesFieldAccess, Bool.or_eq_true, uses_iff l, uses_iff r]
    constructor
    · rintro (⟨x, h, hf⟩ | ⟨x, h, hf⟩)
      · exact ⟨x, .left h, hf⟩
      · exact ⟨x, .right h, hf⟩
    · rintro ⟨x, h, hf⟩
      cases h with
      | refl => obtain ⟨_, _, _, h, -⟩ := hf; cases h
      | left h => exact .inl ⟨x, h, hf⟩
      | right h => exact .inr ⟨x, h, hf⟩
  | .logic o l r => by
    simp only [Expr.usesFieldAccess, Bool.or_eq_true, uses_iff l, uses_iff r]
    constructor
    · rintro (⟨x, h, hf⟩ | ⟨x, h, hf⟩)
      · exact ⟨x, .logicLeft h, hf⟩
      · exact ⟨x, .logicRight h, hf⟩
    · rintro ⟨x, h, hf⟩
      cases h with
      | refl => obtain ⟨_, _, _, h, -⟩ := hf; cases h
      | logicLeft h => exact .inl ⟨x, h, hf⟩
      | logicRight h => exact .inr ⟨x, h, hf⟩
  | .field p n t => by
    have key : (Expr.field p n t).usesFieldAccess = true ↔
        Follows (.field p n t) ∨ p.usesFieldAccess = true := by
      rw [follows_field]
      simp only [Expr.usesFieldAccess]
      split
      · next h => simp [h]
      · next h => simp [h]
      · next h1 h2 =>
        constructor
        · exact .inr
        · rintro ((⟨r, h⟩ | ⟨id, ms, h⟩) | h)
          · exact absurd h (h1 r)
          · exact absurd h (h2 id ms)
          · exact h
    rw [key, uses_iff p]
    constructor
    · rintro (h | ⟨x, h, hf⟩)
      · exact ⟨_, .refl, h⟩
      · exact ⟨x, .pre h, hf⟩
    · rintro ⟨x, h, hf⟩
      cases h with
      | refl => exact .inl hf
      | pre h => exact .inr ⟨x, h, hf⟩
  | .range e lo up => by
    simp only [Expr.usesFieldAccess, Bool.or_eq_true, uses_iff e, uses_iff lo, uses_iff up]
    constructor
    · rintro ((⟨x, h, hf⟩ | ⟨x, h, hf⟩) | ⟨x, h, hf⟩)
      · exact ⟨x, .range h, hf⟩
      · exact ⟨x, .lower h, hf⟩
      · exact ⟨x, .upper h, hf⟩
    · rintro ⟨x, h, hf⟩
      cases h with
      | refl => obtain ⟨_, _, _, h, -⟩ := hf; cases h
      | range h => exact .inl (.inl ⟨x, h, hf⟩)
      | lower h => exact .inl (.inr ⟨x, h, hf⟩)
      | upper h => exact .inr ⟨x, h, hf⟩
  | .oneof es => by
    simp only [Expr.usesFieldAccess, uses_iffAny es]
    constructor
    · rintro ⟨x, h, hf⟩; exact ⟨x, .oneof h, hf⟩
    · rintro ⟨x, h, hf⟩
      cases h with
      | refl => obtain ⟨_, _, _, h, -⟩ := hf; cases h
      | oneof h => exact ⟨x, h, hf⟩
  | .cond t as => by
    simp only [Expr.usesFieldAccess, uses_iffActs as]
    constructor
    · rintro ⟨x, h, hf⟩; exact ⟨x, .cond h, hf⟩
    · rintro ⟨x, h, hf⟩
      cases h with
      | refl => obtain ⟨_, _, _, h, -⟩ := hf; cases h
      | cond h => exact ⟨x, h, hf⟩
  | .quant u v s b => by
    simp only [Expr.usesFieldAccess, uses_iff b]
    constructor
    · rintro ⟨x, h, hf⟩; exact ⟨x, .body h, hf⟩
    · rintro ⟨x, h, hf⟩
      cases h with
      | refl => obtain ⟨_, _, _, h, -⟩ := hf; cases h
      | body h => exact ⟨x, h, hf⟩
private theorem uses_iffAny : (es : Exprs) →
    (es.usesFieldAccess = true ↔ ∃ x, PartOfAny x es ∧ Follows x)
  | .nil => by
    simp only [Exprs.usesFieldAccess, Bool.false_eq_true, false_iff]
    rintro ⟨x, h, -⟩
    cases h
  | .cons e es => by
    simp only [Exprs.usesFieldAccess, Bool.or_eq_true, uses_iff e, uses_iffAny es]
    constructor
    · rintro (⟨x, h, hf⟩ | ⟨x, h, hf⟩)
      · exact ⟨x, .head h, hf⟩
      · exact ⟨x, .tail h, hf⟩
    · rintro ⟨x, h, hf⟩
      cases h with
      | head h => exact .inl ⟨x, h, hf⟩
      | tail h => exact .inr ⟨x, h, hf⟩
private theorem uses_iffActs : (as : Acts) →
    (as.usesFieldAccess = true ↔ ∃ x, PartOfActs x as ∧ Follows x)
  | .els e => by
    simp only [Acts.usesFieldAccess, uses_iff e]
    constructor
    · rintro ⟨x, h, hf⟩; exact ⟨x, .els h, hf⟩
    · rintro ⟨x, h, hf⟩
      cases h with
      | els h => exact ⟨x, h, hf⟩
  | .act c e rest => by
    simp only [Acts.usesFieldAccess, Bool.or_eq_true, uses_iff c, uses_iff e, uses_iffActs rest]
    constructor
    · rintro ((⟨x, h, hf⟩ | ⟨x, h, hf⟩) | ⟨x, h, hf⟩)
      · exact ⟨x, .cond h, hf⟩
      · exact ⟨x, .val h, hf⟩
      · exact ⟨x, .rest h, hf⟩
    · rintro ⟨x, h, hf⟩
      cases h with
      | cond h => exact .inl (.inl ⟨x, h, hf⟩)
      | val h => exact .inl (.inr ⟨x, h, hf⟩)
      | rest h => exact .inr ⟨x, h, hf⟩
end

/-- **C67**: `uses_field_access` says exactly whether some part of the expression of the check is a
field access through a reference. -/
theorem C67_uses_field_access (c : Check) :
    c.usesFieldAccess = true ↔ ∃ x, PartOf x c.expr ∧ Follows x :=
  uses_iff c.expr

/-! ## What is assumed -/

private theorem phase_spec (phase : Bool) (L : List (Check × Nat)) : ∀ acc,
    (vcgPhase phase L acc).2 = acc ++ ((L.filter fun p => p.1.usesFieldAccess = phase ∧ p.1.sev = .fatal).map Prod.snd) ∧
    ∀ x, x ∈ (vcgPhase phase L acc).1 ↔ ∃ L1 c L2, L = L1 ++ (c, x.1) :: L2 ∧ c.usesFieldAccess = phase ∧
      x.2 = acc ++ ((L1.filter fun p => p.1.usesFieldAccess = phase ∧ p.1.sev = .fatal).map Prod.snd) := by
  induction L with
  | nil => intro acc; simp [vcgPhase]
  | cons p L ih =>
    intro acc
    obtain ⟨c, i⟩ := p
    simp only [vcgPhase]
    split
    · next hu =>
      obtain ⟨h1, h2⟩ := ih acc
      refine ⟨by rw [h1, List.filter_cons_of_neg (by simp [hu])], fun x => ?_⟩
      rw [h2]
      constructor
      · rintro ⟨L1, d, L2, rfl, h3, h4⟩
        exact ⟨(c, i) :: L1, d, L2, rfl, h3, by rw [h4, List.filter_cons_of_neg (by simp [hu])]⟩
      · rintro ⟨L1, d, L2, h0, h3, h4⟩
        cases L1 with
        | nil => simp only [List.nil_append, List.cons.injEq, Prod.mk.injEq] at h0; exact absurd (h0.1.1 ▸ h3) hu
        | cons q L1 =>
          simp only [List.cons_append, List.cons.injEq] at h0
          obtain ⟨rfl, rfl⟩ := h0
          exact ⟨L1, d, L2, rfl, h3, by rw [h4, List.filter_cons_of_neg (by simp [hu])]⟩
    · next hu =>
      have hu' : c.usesFieldAccess = phase := by simpa using hu
      have hcons : ∀ M : List (Check × Nat), acc ++ (((c, i) :: M).filter fun p => p.1.usesFieldAccess = phase ∧
          p.1.sev = .fatal).map Prod.snd = (if c.sev = .fatal then acc ++ [i] else acc) ++
          (M.filter fun p => p.1.usesFieldAccess = phase ∧ p.1.sev = .fatal).map Prod.snd := by
        intro M
        by_cases hf : c.sev = .fatal
        · rw [List.filter_cons_of_pos (by simp [hu', hf]), if_pos hf]; simp
        · rw [List.filter_cons_of_neg (by simp [hf]), if_neg hf]
      obtain ⟨h1, h2⟩ := ih (if c.sev = .fatal then acc ++ [i] else acc)
      refine ⟨by rw [h1, hcons], fun x => ?_⟩
      rw [List.mem_cons, h2]
      constructor
      · rintro (rfl | ⟨L1, d, L2, rfl, h3, h4⟩)
        · exact ⟨[], c, L, rfl, hu', by simp⟩
        · exact ⟨(c, i) :: L1, d, L2, rfl, h3, by rw [h4, hcons]⟩
      · rintro ⟨L1, d, L2, h0, h3, h4⟩
        cases L1 with
        | nil =>
          simp only [List.nil_append, List.cons.injEq, Prod.mk.injEq] at h0
          left
          obtain ⟨x1, x2⟩ := x
          simp only at h0 h4
          simp [h0.1.2, h4]
        | cons q L1 =>
          simp only [List.cons_append, List.cons.injEq] at h0
          obtain ⟨rfl, rfl⟩ := h0
          exact .inr ⟨L1, d, L2, rfl, h3, by rw [h4, hcons]⟩

private theorem zip_split {cs : List Check} {L1 L2 : List (Check × Nat)} {c : Check} {i : Nat}
    (h : cs.zipIdx = L1 ++ (c, i) :: L2) : cs[i]? = some c ∧ ∀ d j, (d, j) ∈ L1 ↔ cs[j]? = some d ∧ j < i := by
  have hlen : L1.length = i := by
    have := congrArg (fun l => l[L1.length]?) h
    simp only [List.getElem?_zipIdx, List.getElem?_append_right (Nat.le_refl _), Nat.sub_self,
      List.getElem?_cons_zero, Option.map_eq_some_iff, Prod.mk.injEq] at this
    obtain ⟨a, -, -, h⟩ := this
    omega
  have hg : ∀ j : Nat, cs.zipIdx[j]? = (cs[j]?).map fun a => (a, j) := by
    intro j; simp [List.getElem?_zipIdx]
  constructor
  · have := hg i
    rw [h, ← hlen, List.getElem?_append_right (Nat.le_refl _)] at this
    simp only [Nat.sub_self, List.getElem?_cons_zero] at this
    cases hc : cs[L1.length]? with
    | none => rw [hc] at this; cases this
    | some a => rw [hc] at this; simp at this; rw [← hlen, hc, this]
  · intro d j
    constructor
    · intro hm
      obtain ⟨k, hk⟩ := List.getElem?_of_mem hm
      have hkl : k < L1.length := (List.getElem?_eq_some_iff.1 hk).1
      have := hg k
      rw [h, List.getElem?_append_left hkl, hk] at this
      cases hc : cs[k]? with
      | none => rw [hc] at this; cases this
      | some a =>
        rw [hc] at this
        simp only [Option.map_some, Option.some.injEq, Prod.mk.injEq] at this
        obtain ⟨rfl, rfl⟩ := this
        exact ⟨hc, by omega⟩
    · rintro ⟨hc, hj⟩
      have := hg j
      rw [h, List.getElem?_append_left (by omega), hc] at this
      exact List.mem_of_getElem? this

private theorem zip_at {cs : List Check} {i : Nat} {c : Check} (h : cs[i]? = some c) :
    ∃ L1 L2, cs.zipIdx = L1 ++ (c, i) :: L2 := by
  have : (c, i) ∈ cs.zipIdx := by
    have hg : cs.zipIdx[i]? = some (c, i) := by simp [List.getElem?_zipIdx, h]
    exact List.mem_of_getElem? hg
  exact List.append_of_mem this

/-- **C67**: every check is considered, and exactly the fatal checks of the same phase before it, and
all fatal checks of the first phase if it is in the second, are assumed to hold. -/
theorem C67_assumptions (cs : List Check) :
    (∀ i c, cs[i]? = some c → ∃ A, (i, A) ∈ vcgChecks cs) ∧
    ∀ i A, (i, A) ∈ vcgChecks cs → ∃ c, cs[i]? = some c ∧ ∀ j, j ∈ A ↔ ∃ d, cs[j]? = some d ∧ d.sev = .fatal ∧
      ((d.usesFieldAccess = c.usesFieldAccess ∧ j < i) ∨
       (d.usesFieldAccess = false ∧ c.usesFieldAccess = true)) := by
  have hall : ∀ (b : Bool) (j : Nat), (j ∈ (cs.zipIdx.filter fun p => p.1.usesFieldAccess = b ∧
      p.1.sev = .fatal).map Prod.snd) ↔ ∃ d, cs[j]? = some d ∧ d.usesFieldAccess = b ∧ d.sev = .fatal := by
    intro b j
    simp only [List.mem_map, List.mem_filter, decide_eq_true_eq, Bool.decide_and, Bool.and_eq_true]
    constructor
    · rintro ⟨⟨d, k⟩, ⟨hm, h2⟩, rfl⟩
      rw [List.mem_zipIdx_iff_getElem?] at hm
      exact ⟨d, hm, h2⟩
    · rintro ⟨d, hd, h2⟩
      exact ⟨(d, j), ⟨by rw [List.mem_zipIdx_iff_getElem?]; exact hd, h2⟩, rfl⟩
  have hpre : ∀ {b : Bool} {L1 L2 : List (Check × Nat)} {c : Check} {i : Nat}, cs.zipIdx = L1 ++ (c, i) :: L2 →
      ∀ j, (j ∈ (L1.filter fun p => p.1.usesFieldAccess = b ∧ p.1.sev = .fatal).map Prod.snd) ↔
        ∃ d, cs[j]? = some d ∧ d.usesFieldAccess = b ∧ d.sev = .fatal ∧ j < i := by
    intro b L1 L2 c i h j
    simp only [List.mem_map, List.mem_filter, decide_eq_true_eq, Bool.decide_and, Bool.and_eq_true]
    constructor
    · rintro ⟨⟨d, k⟩, ⟨hm, h2⟩, rfl⟩
      have := ((zip_split h).2 d k).1 hm
      exact ⟨d, this.1, h2.1, h2.2, this.2⟩
    · rintro ⟨d, hd, h2, h3, h4⟩
      exact ⟨(d, j), ⟨((zip_split h).2 d j).2 ⟨hd, h4⟩, h2, h3⟩, rfl⟩
  have hall0 := hall false
  obtain ⟨f1, f2⟩ := phase_spec false cs.zipIdx []
  obtain ⟨-, t2⟩ := phase_spec true cs.zipIdx (vcgPhase false cs.zipIdx []).2
  simp only [List.nil_append] at f1 f2
  simp only [vcgChecks, List.mem_append, f2, t2]
  constructor
  · intro i c hc
    obtain ⟨L1, L2, h⟩ := zip_at hc
    cases hu : c.usesFieldAccess with
    | false => exact ⟨_, .inl ⟨L1, c, L2, h, hu, rfl⟩⟩
    | true => exact ⟨_, .inr ⟨L1, c, L2, h, hu, rfl⟩⟩
  · rintro i A (⟨L1, c, L2, h, hu, hA⟩ | ⟨L1, c, L2, h, hu, hA⟩)
    · refine ⟨c, (zip_split h).1, fun j => ?_⟩
      rw [hA, hpre h]
      simp only [hu, Bool.false_eq_true, and_false, or_false]
      constructor
      · rintro ⟨d, a, b, e, f⟩; exact ⟨d, a, e, b, f⟩
      · rintro ⟨d, a, b, e, f⟩; exact ⟨d, a, e, b, f⟩
    · refine ⟨c, (zip_split h).1, fun j => ?_⟩
      rw [hA, List.mem_append, hpre h, f1, hall0]
      simp only [hu, and_true]
      constructor
      · rintro (⟨d, a, b, e⟩ | ⟨d, a, b, e, f⟩)
        · exact ⟨d, a, e, .inr b⟩
        · exact ⟨d, a, e, .inl ⟨b, f⟩⟩
      · rintro ⟨d, a, b, ⟨e, f⟩ | e⟩
        · exact .inr ⟨d, a, e, b, f⟩
        · exact .inl ⟨d, a, e, b⟩

/-! ## Whether the assumptions hold when the check is evaluated -/

private theorem performAll_ok {env : EvEnv} {k : Composite} : ∀ {cs : List Check} {b b' : Bool},
    (performAll env k cs b).out = .ok b' → ∀ c ∈ cs, c.sev = .fatal → Holds env k.ctx c
  | [], _, _, _, _, hc, _ => by cases hc
  | d :: ds, b, b', h, c, hc, hf => by
    simp only [performAll, CR.bind] at h
    split at h
    · next a ha =>
      simp only at h
      rcases List.mem_cons.1 hc with rfl | hc
      · unfold performCheck at ha
        split at ha
        · cases ha
        · cases ha
        · next v hv =>
          split at ha
          · cases ha
          · next hb =>
            obtain ⟨t, w⟩ := v
            simp only at hb
            subst hb
            exact ⟨t, hv⟩
          · rw [hf] at ha; cases ha
          · cases ha
      · exact performAll_ok h c hc hf
    · cases h
    · cases h

/-- C67 in full: a check at position `i` only gets evaluated for an object if all the checks hold
that the verification assumes for it. -/
def C67_full : Prop := ∀ (env : EvEnv) (k : Composite) (cs : List Check) (i : Nat) (A : List Nat),
  (i, A) ∈ vcgChecks cs → (∃ b, (performAll env k (cs.take i) true).out = .ok b) →
  ∀ j ∈ A, ∀ d, cs[j]? = some d → Holds env k.ctx d

/-- **C67, if no fatal check that does not follow references comes after a check that does**: all
assumptions of the verification about a check hold whenever it is evaluated.

Missing from C67: other orders of the checks, for which the claim is false (`C67_violated`). -/
theorem C67_partial (env : EvEnv) (k : Composite) (cs : List Check)
    (hord : ∀ (i j : Nat) (c d : Check), cs[i]? = some c → cs[j]? = some d → c.usesFieldAccess = true →
      d.usesFieldAccess = false → d.sev = .fatal → j < i)
    (i : Nat) (A : List Nat) (hA : (i, A) ∈ vcgChecks cs)
    (hr : ∃ b, (performAll env k (cs.take i) true).out = .ok b) :
    ∀ j ∈ A, ∀ d, cs[j]? = some d → Holds env k.ctx d := by
  intro j hj d hd
  obtain ⟨c, hc, h⟩ := (C67_assumptions cs).2 i A hA
  obtain ⟨d', hd', hf, h2⟩ := (h j).1 hj
  rw [hd] at hd'
  cases hd'
  have hlt : j < i := by
    rcases h2 with h2 | h2
    · exact h2.2
    · exact hord i j c d hc hd h2.2 h2.1 hf
  obtain ⟨b, hb⟩ := hr
  refine performAll_ok hb d ?_ hf
  have : (cs.take i)[j]? = some d := by rw [List.getElem?_take_of_lt hlt]; exact hd
  exact List.mem_of_getElem? this

namespace VcgSample

/-- `checks T { r.n / n > 0, error ""   n != 0, fatal "" }` for
`type T { n Integer   r optional T }` -/
def checks : List Check :=
  [⟨.binary (some .bool) .gt (.binary (some .int) .divide (.field (.name "r" (.record 0)) "n" .int)
      (.name "n" .int)) (.int 0), .error, "", none⟩,
   ⟨.binary (some .bool) .neq (.name "n" .int) (.int 0), .fatal, "", none⟩]

/-- `T x { n = 0  r = x }` -/
def obj : Fields := [("n", ⟨0, .int 0⟩), ("r", ⟨1, .ref (.record 0) (some 0)⟩)]

/-- the only object -/
def heap : Nat → Option Fields := fun o => if o = 0 then some obj else none

/-- the same checks in the other order -/
def ordered : List Check := checks.reverse

end VcgSample

/-- **C67 is violated**: the first of the checks in the sample is evaluated first, though it is
verified under the assumption that the second one holds; for the object in the sample it divides by
zero. -/
theorem C67_violated : ¬ C67_full ∧
    (performAll ⟨VcgSample.heap, fun _ _ => false⟩ (recordComposite VcgSample.obj "" fun _ => "")
      VcgSample.checks true).calls = [.error "" (EvErr.text .divByZero) true false] ∧
    (0, [1]) ∈ vcgChecks VcgSample.checks := by
  have hm : (0, [1]) ∈ vcgChecks VcgSample.checks := by decide +kernel
  refine ⟨fun h => ?_, ?_, hm⟩
  · obtain ⟨t, ht⟩ := h ⟨VcgSample.heap, fun _ _ => false⟩ (recordComposite VcgSample.obj "" fun _ => "")
      VcgSample.checks 0 [1] hm ⟨true, rfl⟩ 1 (by simp) _ rfl
    simp [Expr.eval, recordComposite, VcgSample.obj, FExpr.eval, mkValue, Val.isNull, Ev.bind,
      BinOp.allowsNull, binaryOp, Val.pyEq, Val.num] at ht
  · simp [performAll, performCheck, VcgSample.checks, CR.bind, Expr.eval, recordComposite, VcgSample.obj, VcgSample.heap,
      FExpr.eval, mkValue, Val.isNull, Ev.bind, BinOp.allowsNull, binaryOp, Val.pyEq, Val.num, List.lookup, numPair,
      pyFloorDiv]

/-- The hypotheses of `C67_partial` hold for the other order. -/
example : ∀ (i j : Nat) (c d : Check), VcgSample.ordered[i]? = some c → VcgSample.ordered[j]? = some d →
    c.usesFieldAccess = true → d.usesFieldAccess = false → d.sev = .fatal → j < i := by
  intro i j c d hi hj hc hd _
  match i, j with
  | 0, _ => simp [VcgSample.ordered, VcgSample.checks] at hi; subst hi; simp [Check.usesFieldAccess, Expr.usesFieldAccess] at hc
  | 1, 0 => exact Nat.zero_lt_one
  | 1, 1 => simp [VcgSample.ordered, VcgSample.checks] at hj; subst hj; simp [Check.usesFieldAccess, Expr.usesFieldAccess, Expr.typ] at hd
  | 1, n + 2 => simp [VcgSample.ordered, VcgSample.checks] at hj
  | n + 2, _ => simp [VcgSample.ordered, VcgSample.checks] at hi

end Verif.Props
