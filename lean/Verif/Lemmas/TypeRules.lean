import Verif.Spec.TypeRules
import Verif.Props.Unions
import Verif.Props.Inherited
/-! The type checks while an expression is built are the typing rules of `Spec/TypeRules.lean`. -/
namespace Verif.Lemmas
open Verif.Model Verif.Spec

variable {D : Decls}

theorem mkUnary_iff {t : Option Ty} {op : UnOp} {e x : Expr} :
    mkUnary t op e = .ok x ↔ x = .unary t op e ∧ ∃ τ, e.typ = some τ ∧
      match op with
      | .minus | .plus | .abs | .toInt | .toDec => NumTy τ
      | .logicalNot => τ = .bool
      | .strLen => StrTy τ
      | .arrLen => ArrTy τ := by
  unfold mkUnary
  rw [el_bind_ok]
  cases op <;>
    simp only [ensureClass_ok, inst_bool, inst_str, inst_arr, numeric_iff, El.ok.injEq, NumTy, StrTy,
      ArrTy] <;>
    constructor <;> (first | (rintro ⟨-, h, rfl⟩; exact ⟨rfl, h⟩) | (rintro ⟨rfl, h⟩; exact ⟨(), h, rfl⟩))

theorem mkBinary_iff {t : Option Ty} {op : BinOp} {l r x : Expr} :
    mkBinary D t op l r = .ok x ↔ x = .binary t op l r ∧ binaryTypes D op l.typ r.typ = .ok () := by
  unfold mkBinary
  rw [el_bind_ok]
  constructor
  · rintro ⟨⟨⟩, h, h'⟩; cases h'; exact ⟨rfl, h⟩
  · rintro ⟨rfl, h⟩; exact ⟨(), h, rfl⟩

theorem inst_union {t : Ty} : t.isInst .union = true ↔ UnionTy t := by
  cases t <;> simp [Ty.isInst, Ty.cls, UnionTy]

theorem members_some {t : Ty} {ms : List Nat} (h : t.members = some ms) (m : Nat) :
    RefersTo t m ↔ m ∈ ms := by
  cases t <;> simp only [Ty.members, reduceCtorEq, Option.some.injEq] at h <;> subst h <;>
    simp [RefersTo]

theorem members_none {t : Ty} (h : t.members = none) (m : Nat) : ¬ RefersTo t m := by
  cases t <;> simp [Ty.members, RefersTo] at h ⊢

theorem eqTypes_iff (wf : WFDecls D) {a b : Option Ty} : eqTypes D a b = .ok () ↔ Comparable D a b := by
  unfold eqTypes Comparable
  split
  · next a b =>
    by_cases hu : UnionTy a ∨ UnionTy b
    · have hi : (a.isInst .union || b.isInst .union) = true := by
        rw [Bool.or_eq_true, inst_union, inst_union]; exact hu
      rw [if_pos hi]
      have h1 : ¬ (¬ UnionTy a ∧ ¬ UnionTy b ∧ a = b) := by rintro ⟨x, y, -⟩; exact hu.elim x y
      simp only [h1, false_or, hu, true_and]
      cases ha : a.members with
      | none =>
        simp only [reduceCtorEq, false_iff]
        rintro ⟨m, n, h, -⟩
        exact members_none ha m h
      | some ls =>
        cases hb : b.members with
        | none =>
          simp only [reduceCtorEq, false_iff]
          rintro ⟨m, n, -, h, -⟩
          exact members_none hb n h
        | some rs =>
          simp only [members_some ha, members_some hb]
          split
          · next h =>
            simp only [true_iff]
            simp only [List.any_eq_true, Bool.or_eq_true, isSubclassOf_iff wf] at h
            obtain ⟨m, hm, n, hn, h⟩ := h
            exact ⟨m, n, hm, hn, h⟩
          · next h =>
            simp only [reduceCtorEq, false_iff]
            rintro ⟨m, n, hm, hn, hx⟩
            apply h
            simp only [List.any_eq_true, Bool.or_eq_true, isSubclassOf_iff wf]
            exact ⟨m, hm, n, hn, hx⟩
    · have hi : ¬ (a.isInst .union || b.isInst .union) = true := by
        rw [Bool.or_eq_true, inst_union, inst_union]; exact hu
      rw [if_neg hi]
      have hu' := not_or.1 hu
      simp only [hu'.1, hu'.2, not_false_iff, true_and, or_self, false_and, or_false]
      split
      · next h => simp [h]
      · next h => simp [h]
  · simp_all

theorem cmp_iff (wf : WFDecls D) {op : CmpOp} {a b : Option Ty} :
    binaryTypes D op.op a b = .ok () ↔ CmpRule D op a b := by
  cases op <;> simp only [CmpOp.op, binaryTypes, CmpRule, eqTypes_iff wf] <;>
    simp only [el_bind_ok, ensureClass_ok, ensureTy_ok, numeric_iff, NumTy] <;>
    constructor <;>
    first
    | (rintro ⟨-, ⟨τ, rfl, h⟩, σ, rfl, h2⟩; cases h2; exact ⟨_, h, rfl, rfl⟩)
    | (rintro ⟨t, h, rfl, rfl⟩; exact ⟨(), ⟨t, rfl, h⟩, t, rfl, rfl⟩)

theorem num2_iff {op : BinOp} (hop : op = .minus ∨ op = .times ∨ op = .divide) {a b : Option Ty} :
    binaryTypes D op a b = .ok () ↔ ∃ t, NumTy t ∧ a = some t ∧ b = some t := by
  rcases hop with rfl | rfl | rfl <;>
    simp only [binaryTypes, el_bind_ok, ensureClass_ok, ensureTy_ok, numeric_iff, NumTy] <;>
    constructor <;>
    first
    | (rintro ⟨-, ⟨τ, rfl, h⟩, σ, rfl, h2⟩; cases h2; exact ⟨_, h, rfl, rfl⟩)
    | (rintro ⟨t, h, rfl, rfl⟩; exact ⟨(), ⟨t, rfl, h⟩, t, rfl, rfl⟩)

theorem str2_iff {op : BinOp}
    (hop : op = .strContains ∨ op = .startsWith ∨ op = .endsWith ∨ op = .regex) {a b : Option Ty} :
    binaryTypes D op a b = .ok () ↔ ∃ s t, a = some s ∧ b = some t ∧ StrTy s ∧ StrTy t := by
  rcases hop with rfl | rfl | rfl | rfl <;>
    simp only [binaryTypes, el_bind_ok, ensureClass_ok, inst_str, StrTy] <;>
    constructor <;>
    first
    | (rintro ⟨-, ⟨τ, rfl, h⟩, σ, rfl, h2⟩; exact ⟨_, _, rfl, rfl, h, h2⟩)
    | (rintro ⟨s, t, rfl, rfl, h, h2⟩; exact ⟨(), ⟨s, rfl, h⟩, t, rfl, h2⟩)

theorem rem_iff {a b : Option Ty} :
    binaryTypes D .remainder a b = .ok () ↔ a = some .int ∧ b = some .int := by
  simp only [binaryTypes, el_bind_ok, ensureClass_ok, inst_int]
  constructor
  · rintro ⟨-, ⟨τ, rfl, rfl⟩, σ, rfl, rfl⟩; exact ⟨rfl, rfl⟩
  · rintro ⟨rfl, rfl⟩; exact ⟨(), ⟨_, rfl, rfl⟩, _, rfl, rfl⟩

theorem xor_iff {a b : Option Ty} :
    binaryTypes D .xor a b = .ok () ↔ a = some .bool ∧ b = some .bool := by
  simp only [binaryTypes, el_bind_ok, ensureClass_ok, inst_bool]
  constructor
  · rintro ⟨-, ⟨τ, rfl, rfl⟩, σ, rfl, rfl⟩; exact ⟨rfl, rfl⟩
  · rintro ⟨rfl, rfl⟩; exact ⟨(), ⟨_, rfl, rfl⟩, _, rfl, rfl⟩

theorem power_iff {a b : Option Ty} :
    binaryTypes D .power a b = .ok () ↔ ∃ t, NumTy t ∧ a = some t ∧ b = some .int := by
  simp only [binaryTypes, el_bind_ok, ensureClass_ok, inst_int, numeric_iff, NumTy]
  constructor
  · rintro ⟨-, ⟨τ, rfl, h⟩, σ, rfl, rfl⟩; exact ⟨_, h, rfl, rfl⟩
  · rintro ⟨t, h, rfl, rfl⟩; exact ⟨(), ⟨_, rfl, h⟩, _, rfl, rfl⟩

theorem index_iff {a b : Option Ty} :
    binaryTypes D .index a b = .ok () ↔ (∃ t, ArrTy t ∧ a = some t) ∧ b = some .int := by
  simp only [binaryTypes, el_bind_ok, ensureClass_ok, inst_int, inst_arr, ArrTy]
  constructor
  · rintro ⟨-, ⟨τ, rfl, h⟩, σ, rfl, rfl⟩; exact ⟨⟨_, h, rfl⟩, rfl⟩
  · rintro ⟨⟨t, h, rfl⟩, rfl⟩; exact ⟨(), ⟨_, rfl, h⟩, _, rfl, rfl⟩

theorem plus_iff {a b : Option Ty} :
    binaryTypes D .plus a b = .ok () ↔
      (∃ t, NumTy t ∧ a = some t ∧ b = some t) ∨ ∃ s t, a = some s ∧ b = some t ∧ StrTy s ∧ StrTy t := by
  simp only [binaryTypes]
  split
  · next h =>
    rw [ensureTy_ok]
    cases a with
    | none => simp at h
    | some a =>
      simp only [Option.any_some, numeric_iff] at h
      constructor
      · rintro ⟨τ, rfl, e⟩; cases e; exact .inl ⟨_, h, rfl, rfl⟩
      · rintro (⟨t, -, e, rfl⟩ | ⟨s, t, e, -, hs, -⟩)
        · cases e; exact ⟨_, rfl, rfl⟩
        · cases e
          rcases h with rfl | rfl <;> simp [StrTy] at hs
  · next h =>
    simp only [el_bind_ok, ensureClass_ok, inst_str]
    constructor
    · rintro ⟨-, ⟨τ, rfl, h1⟩, σ, rfl, h2⟩; exact .inr ⟨_, _, rfl, rfl, h1, h2⟩
    · rintro (⟨t, ht, rfl, rfl⟩ | ⟨s, t, rfl, rfl, h1, h2⟩)
      · exact absurd (by simpa [numeric_iff] using (show t = .int ∨ t = .dec from ht)) h
      · exact ⟨(), ⟨_, rfl, h1⟩, _, rfl, h2⟩

theorem chainTyp_num {t : Ty} (h : NumTy t) : chainTyp (some t) = some t := by
  rcases h with rfl | rfl <;> rfl

theorem chainTyp_str {t : Ty} (h : StrTy t) : chainTyp (some t) = some .str := by
  rcases h with rfl | rfl <;> rfl

theorem binary_typ {t : Option Ty} {op : BinOp} {l r : Expr} : (Expr.binary t op l r).typ = t := by simp only [Expr.typ]

theorem mkArith_iff {op : ArOp} {l r : Expr} {t : Option Ty} :
    (∃ x, mkArith D op l r = .ok x ∧ x.typ = t) ↔
      ∃ a b c, l.typ = some a ∧ r.typ = some b ∧ ArithRule op a b c ∧ t = some c := by
  cases op <;> simp only [mkArith, mkBinary_iff, ArithRule]
  case plus =>
    simp only [plus_iff]
    constructor
    · rintro ⟨x, ⟨rfl, h⟩, rfl⟩
      rcases h with ⟨u, hn, ha, hb⟩ | ⟨s, u, ha, hb, hs, hu⟩
      · exact ⟨u, u, u, ha, hb, .inl ⟨hn, rfl, rfl⟩, by simp only [binary_typ, ha, chainTyp_num hn]⟩
      · exact ⟨s, u, .str, ha, hb, .inr ⟨hs, hu, rfl⟩, by simp only [binary_typ, ha, chainTyp_str hs]⟩
    · rintro ⟨a, b, c, ha, hb, h, rfl⟩
      rcases h with ⟨hn, rfl, rfl⟩ | ⟨hs, hu, rfl⟩
      · exact ⟨_, ⟨rfl, .inl ⟨_, hn, ha, hb⟩⟩, by simp only [binary_typ, ha, chainTyp_num hn]⟩
      · exact ⟨_, ⟨rfl, .inr ⟨_, _, ha, hb, hs, hu⟩⟩, by simp only [binary_typ, ha, chainTyp_str hs]⟩
  case remainder =>
    simp only [rem_iff]
    constructor
    · rintro ⟨x, ⟨rfl, ha, hb⟩, rfl⟩
      exact ⟨_, _, .int, ha, hb, ⟨rfl, rfl, rfl⟩, by simp only [binary_typ, ha]⟩
    · rintro ⟨a, b, c, ha, hb, ⟨rfl, rfl, rfl⟩, rfl⟩
      exact ⟨_, ⟨rfl, ha, hb⟩, by simp only [binary_typ, ha]⟩
  all_goals
    simp only [num2_iff (D := D) (.inl rfl), num2_iff (D := D) (.inr (.inl rfl)),
      num2_iff (D := D) (.inr (.inr rfl))]
    constructor
    · rintro ⟨x, ⟨rfl, u, hn, ha, hb⟩, rfl⟩
      exact ⟨u, u, u, ha, hb, ⟨hn, rfl, rfl⟩, by simp only [binary_typ, ha, chainTyp_num hn]⟩
    · rintro ⟨a, b, c, ha, hb, ⟨hn, rfl, rfl⟩, rfl⟩
      exact ⟨_, ⟨rfl, _, hn, ha, hb⟩, by simp only [binary_typ, ha, chainTyp_num hn]⟩

theorem arrContains_iff {a b : Option Ty} :
    binaryTypes D .arrContains a b = .ok () ↔
      ∃ x id elem lo hi, a = some x ∧ b = some (.arr id elem lo hi) ∧
        (x.cls = elem.cls ∨ (x = .markup ∧ elem = .str)) := by
  simp only [binaryTypes, el_bind_ok, ensureClass_ok, inst_arr]
  constructor
  · rintro ⟨-, ⟨τ, rfl, id, e, lo, hi, rfl⟩, x, rfl, h⟩
    refine ⟨x, id, e, lo, hi, rfl, rfl, ?_⟩
    simp only [elemClass, Ty.isInst, Bool.or_eq_true, beq_iff_eq, Bool.and_eq_true] at h
    rcases h with h | ⟨h1, h2⟩
    · exact .inl h
    · right
      cases x <;> simp [Ty.cls] at h2
      cases e <;> simp [Ty.cls] at h1
      exact ⟨rfl, rfl⟩
  · rintro ⟨x, id, e, lo, hi, rfl, rfl, h⟩
    refine ⟨(), ⟨_, rfl, id, e, lo, hi, rfl⟩, x, rfl, ?_⟩
    simp only [elemClass, Ty.isInst, Bool.or_eq_true, beq_iff_eq, Bool.and_eq_true]
    rcases h with h | ⟨rfl, rfl⟩
    · exact .inl h
    · exact .inr ⟨rfl, rfl⟩

theorem mkIn_iff {e a : Expr} :
    (∃ x, mkIn D e a = .ok x) ↔ ∃ s t, e.typ = some s ∧ a.typ = some t ∧ InRule s t := by
  unfold mkIn
  split
  · next h => simp [h]
  · next t h =>
    simp only [h]
    split
    · next hs =>
      rw [inst_str] at hs
      simp only [mkBinary_iff, str2_iff (D := D) (.inl rfl)]
      constructor
      · rintro ⟨x, -, s, u, h1, h2, h3, h4⟩
        rw [h] at h2; cases h2
        exact ⟨s, _, h1, rfl, .inl ⟨h3, h4⟩⟩
      · rintro ⟨s, u, h1, h2, h3⟩
        cases h2
        rcases h3 with ⟨h3, h4⟩ | ⟨id, el, lo, hi, rfl, -⟩
        · exact ⟨_, rfl, _, _, h1, h, h3, h4⟩
        · simp at hs
    · next hs =>
      split
      · next ha =>
        simp only [mkBinary_iff, arrContains_iff]
        constructor
        · rintro ⟨x, -, s, id, el, lo, hi, h1, h2, h3⟩
          rw [h] at h2; cases h2
          exact ⟨s, _, h1, rfl, .inr ⟨id, el, lo, hi, rfl, h3⟩⟩
        · rintro ⟨s, u, h1, h2, h3⟩
          cases h2
          rcases h3 with ⟨h3, h4⟩ | ⟨id, el, lo, hi, rfl, h3⟩
          · rw [inst_str] at hs; exact absurd h4 hs
          · exact ⟨_, rfl, _, _, _, _, _, h1, h, h3⟩
      · next ha =>
        simp only [reduceCtorEq, exists_false, false_iff]
        rintro ⟨s, u, h1, h2, h3⟩
        cases h2
        rcases h3 with ⟨h3, h4⟩ | ⟨id, el, lo, hi, rfl, h3⟩
        · rw [inst_str] at hs; exact hs h4
        · exact ha (by rw [inst_arr]; exact ⟨id, el, lo, hi, rfl⟩)

theorem mkIn_typ {e a x : Expr} (h : mkIn D e a = .ok x) : x.typ = some .bool := by
  unfold mkIn at h
  split at h
  · cases h
  · split at h
    · rw [mkBinary_iff] at h; rw [h.1]; rfl
    · split at h
      · rw [mkBinary_iff] at h; rw [h.1]; rfl
      · cases h

theorem mkNot_iff {neg : Bool} {e : Expr} (he : e.typ = some .bool) :
    ∃ x, mkNot neg e = .ok x ∧ x.typ = some .bool := by
  unfold mkNot
  split
  · exact ⟨_, mkUnary_iff.2 ⟨rfl, .bool, he, rfl⟩, rfl⟩
  · exact ⟨_, rfl, he⟩

theorem mkNot_typ {neg : Bool} {e x : Expr} (he : e.typ = some .bool) (h : mkNot neg e = .ok x) :
    x.typ = some .bool := by
  obtain ⟨y, h1, h2⟩ := mkNot_iff (neg := neg) he
  rw [h] at h1; cases h1; exact h2

theorem mkRange_iff {e a b x : Expr} :
    mkRange e a b = .ok x ↔ x = .range e a b ∧
      ∃ t, NumTy t ∧ e.typ = some t ∧ a.typ = some t ∧ b.typ = some t := by
  simp only [mkRange, el_bind_ok, ensureClass_ok, ensureTy_ok, numeric_iff, NumTy, El.ok.injEq]
  constructor
  · rintro ⟨-, ⟨t, h1, h2⟩, -, ⟨u, h3, h4⟩, -, ⟨v, h5, h6⟩, rfl⟩
    rw [h1] at h4 h6
    cases h4; cases h6
    exact ⟨rfl, t, h2, h1, h3, h5⟩
  · rintro ⟨rfl, t, h, h1, h2, h3⟩
    exact ⟨(), ⟨t, h1, h⟩, (), ⟨t, h2, h1⟩, (), ⟨t, h3, h1⟩, rfl⟩

theorem mkLogical_iff {op : LogOp} {l r : Expr} {t : Option Ty} :
    (∃ x, mkLogical D op l r = .ok x ∧ x.typ = t) ↔
      l.typ = some .bool ∧ r.typ = some .bool ∧ t = some .bool := by
  have hl : ∀ o, (∃ x, mkLogic o l r = .ok x ∧ x.typ = t) ↔
      l.typ = some .bool ∧ r.typ = some .bool ∧ t = some .bool := by
    intro o
    simp only [mkLogic, el_bind_ok, ensureClass_ok, inst_bool, El.ok.injEq]
    constructor
    · rintro ⟨x, ⟨-, ⟨τ, h1, rfl⟩, -, ⟨σ, h2, rfl⟩, rfl⟩, rfl⟩
      exact ⟨h1, h2, rfl⟩
    · rintro ⟨h1, h2, rfl⟩
      exact ⟨_, ⟨(), ⟨_, h1, rfl⟩, (), ⟨_, h2, rfl⟩, rfl⟩, rfl⟩
  cases op
  · exact hl .and
  · exact hl .or
  · simp only [mkLogical, mkBinary_iff, xor_iff]
    constructor
    · rintro ⟨x, ⟨rfl, h1, h2⟩, rfl⟩; exact ⟨h1, h2, rfl⟩
    · rintro ⟨h1, h2, rfl⟩; exact ⟨_, ⟨rfl, h1, h2⟩, rfl⟩
  · exact hl .implies

theorem mkField_iff (wf : WFDecls D) (un : UniqueNames D) {p : Expr} {f : String} {t : Option Ty} :
    (∃ x, mkField D p f = .ok x ∧ x.typ = t) ↔
      ∃ a b, p.typ = some a ∧ FieldRule D f a b ∧ t = some b := by
  cases hp : p.typ with
  | none => simp [mkField, hp]
  | some a =>
    cases a
    case union id ms =>
      constructor
      · rintro ⟨x, h, rfl⟩
        have : ∃ τ, x = .field p f τ := by
          simp only [mkField, hp] at h
          split at h
          · cases h
          · split at h
            · cases h
            · cases h; exact ⟨_, rfl⟩
        obtain ⟨τ, rfl⟩ := this
        exact ⟨_, τ, rfl, (Props.C38_fields wf un p id ms hp f τ).1 h, rfl⟩
      · rintro ⟨a, b, h, h2, rfl⟩
        cases h
        exact ⟨_, (Props.C38_fields wf un p id ms hp f b).2 h2, rfl⟩
    case tup n =>
      simp only [mkField, hp]
      constructor
      · rintro ⟨x, h, rfl⟩
        split at h
        · cases h
        · next c hc =>
          simp only [el_bind_ok, ensureTy_ok] at h
          obtain ⟨-, ⟨τ, h1, h2⟩, h3⟩ := h
          cases h3; cases h1
          exact ⟨_, _, rfl, ⟨c, hc, Option.some.inj h2, rfl⟩, rfl⟩
      · rintro ⟨a, b, h, hf, rfl⟩
        cases h
        obtain ⟨c, hc, hm, rfl⟩ := hf
        rw [hc]
        simp only [hm]
        exact ⟨_, by simp [ensureTy, El.bind]; rfl, rfl⟩
    case record n =>
      simp only [mkField, hp]
      constructor
      · rintro ⟨x, h, rfl⟩
        split at h
        · cases h
        · next c hc =>
          simp only [el_bind_ok, ensureTy_ok] at h
          obtain ⟨-, ⟨τ, h1, h2⟩, h3⟩ := h
          cases h3; cases h1
          obtain ⟨h4, h5⟩ := component_hasComp wf hc
          exact ⟨_, _, rfl, ⟨c, h4, h5, Option.some.inj h2, rfl⟩, rfl⟩
      · rintro ⟨a, b, h, hf, rfl⟩
        cases h
        obtain ⟨c, hc, rfl, hm, rfl⟩ := hf
        rw [Props.component_of_hasComp wf un hc]
        simp only [hm]
        exact ⟨_, by simp [ensureTy, El.bind]; rfl, rfl⟩
    all_goals
      simp only [mkField, hp, reduceCtorEq, false_and, exists_false, false_iff]
      rintro ⟨a, b, h, h2, -⟩
      cases h
      exact h2

theorem mkIndex_iff {p i : Expr} {t : Option Ty} :
    (∃ x, mkIndex D p i = .ok x ∧ x.typ = t) ↔
      ∃ id elem lo hi, p.typ = some (.arr id elem lo hi) ∧ i.typ = some .int ∧ t = some elem := by
  unfold mkIndex
  split
  · next id elem lo hi h =>
    simp only [mkBinary_iff, index_iff]
    constructor
    · rintro ⟨x, ⟨rfl, -, h2⟩, rfl⟩; exact ⟨id, elem, lo, hi, h, h2, rfl⟩
    · rintro ⟨id', elem', lo', hi', h1, h2, rfl⟩
      rw [h] at h1; cases h1
      exact ⟨_, ⟨rfl, ⟨_, ⟨id, elem, lo, hi, rfl⟩, h⟩, h2⟩, rfl⟩
  · next h =>
    simp only [reduceCtorEq, false_and, exists_false, false_iff]
    rintro ⟨id, elem, lo, hi, h1, -⟩
    exact h id elem lo hi h1

/-- What an expression that has to be known while the check is read evaluates to -/
def knownIn (E : ElEnv) (sc : TScope) (r : Raw) (v : Val) : Prop :=
  ∃ e, r.elab E sc = .ok e ∧ ∃ t, e.eval ⟨fun _ => none, E.rx⟩ none = .ok ⟨t, v⟩

theorem evalStatic_ok {rx : List Char → List Char → Bool} {e : Expr} {v : TV} :
    evalStatic rx e = .ok v ↔ e.eval ⟨fun _ => none, rx⟩ none = .ok v := by
  unfold evalStatic
  split <;> simp_all

theorem mkPower_iff {rx : List Char → List Char → Bool} {l r : Expr} {t : Option Ty} :
    (∃ x, mkPower D rx l r = .ok x ∧ x.typ = t) ↔
      (∃ a, l.typ = some a ∧ NumTy a ∧ t = some a) ∧ r.typ = some .int ∧
        ∃ i u, r.eval ⟨fun _ => none, rx⟩ none = .ok ⟨u, .int i⟩ ∧ 0 ≤ i := by
  simp only [mkPower, el_bind_ok, evalStatic_ok, mkBinary_iff, power_iff]
  constructor
  · rintro ⟨x, ⟨⟨u, v⟩, h1, y, ⟨rfl, a, hn, ha, hr⟩, h2⟩, rfl⟩
    dsimp only at h2
    split at h2
    · next i =>
      split at h2
      · cases h2
      · next hi =>
        cases h2
        exact ⟨⟨a, ha, hn, ha⟩, hr, i, u, h1, by omega⟩
    · cases h2
  · rintro ⟨⟨a, ha, hn, rfl⟩, hr, i, u, h1, hi⟩
    refine ⟨.binary l.typ .power l r, ⟨_, h1, _, ⟨rfl, a, hn, ha, hr⟩, ?_⟩, by rw [binary_typ]; exact ha⟩
    dsimp only
    rw [if_neg (by omega)]

theorem mkOneOf_go {es : Exprs} : mkOneOf.go es = .ok () ↔ ∀ e ∈ es.toList, e.typ = some .bool := by
  match es with
  | .nil => simp [mkOneOf.go, Exprs.toList]
  | .cons e es =>
    simp only [mkOneOf.go, el_bind_ok, ensureClass_ok, inst_bool, mkOneOf_go (es := es), Exprs.toList,
      List.mem_cons, forall_eq_or_imp]
    constructor
    · rintro ⟨-, ⟨τ, h, rfl⟩, h2⟩; exact ⟨h, h2⟩
    · rintro ⟨h, h2⟩; exact ⟨(), ⟨_, h, rfl⟩, h2⟩

theorem mkOneOf_iff {es : Exprs} {x : Expr} :
    mkOneOf es = .ok x ↔ x = .oneof es ∧ ∀ e ∈ es.toList, e.typ = some .bool := by
  simp only [mkOneOf, el_bind_ok, ← mkOneOf_go, El.ok.injEq]
  constructor
  · rintro ⟨⟨⟩, h, rfl⟩; exact ⟨rfl, h⟩
  · rintro ⟨rfl, h⟩; exact ⟨(), h, rfl⟩

theorem unary_typ {t : Option Ty} {op : UnOp} {e : Expr} : (Expr.unary t op e).typ = t := by
  simp only [Expr.typ]

theorem map_one {es : List Expr} {a : Option Ty} : es.map Expr.typ = [a] ↔ ∃ e, es = [e] ∧ e.typ = a := by
  rcases es with _ | ⟨e, _ | ⟨e2, es⟩⟩ <;> simp

theorem map_two {es : List Expr} {a b : Option Ty} :
    es.map Expr.typ = [a, b] ↔ ∃ e d, es = [e, d] ∧ e.typ = a ∧ d.typ = b := by
  rcases es with _ | ⟨e, _ | ⟨e2, _ | ⟨e3, es⟩⟩⟩ <;> simp
  constructor
  · rintro ⟨h1, h2⟩; exact ⟨e, e2, ⟨rfl, rfl⟩, h1, h2⟩
  · rintro ⟨x, y, ⟨rfl, rfl⟩, h1, h2⟩; exact ⟨h1, h2⟩

theorem two_iff {op : BinOp}
    (hop : op = .strContains ∨ op = .startsWith ∨ op = .endsWith ∨ op = .regex) {L : List Expr}
    {t : Option Ty} {g : Expr → Expr → El Unit} {R : El Expr}
    (hR : R = match L with
        | [a, b] => (g a b).bind fun _ => mkBinary D (some .bool) op a b
        | _ => .err .arity) :
    (∃ x, R = .ok x ∧ x.typ = t) ↔
      t = some .bool ∧ ∃ a b, L = [a, b] ∧ g a b = .ok () ∧
        ∃ s u, a.typ = some s ∧ b.typ = some u ∧ StrTy s ∧ StrTy u := by
  subst hR
  rcases L with _ | ⟨a, _ | ⟨b, _ | ⟨c, L⟩⟩⟩
  · simp
  · simp
  · simp only [el_bind_ok, mkBinary_iff, str2_iff (D := D) hop]
    constructor
    · rintro ⟨x, ⟨⟨⟩, hg, rfl, s, u, h⟩, rfl⟩
      exact ⟨rfl, a, b, rfl, hg, s, u, h⟩
    · rintro ⟨rfl, a', b', he, hg, h⟩
      cases he
      exact ⟨_, ⟨(), hg, rfl, h⟩, rfl⟩
  · simp

theorem num_iff {op : UnOp} {u : Ty} (hop : op = .toInt ∨ op = .toDec) {c : ElCrash} {L : List Expr}
    {t : Option Ty} {R : El Expr}
    (hR : R = match L with
        | [a] => (ensureClass a.typ Ty.isNumeric).bind fun _ => mkUnary (some u) op a
        | _ => .crash c) :
    (∃ x, R = .ok x ∧ x.typ = t) ↔
      t = some u ∧ ∃ a, L.map Expr.typ = [some a] ∧ NumTy a := by
  subst hR
  rcases L with _ | ⟨a, _ | ⟨b, L⟩⟩
  · simp
  · simp only [el_bind_ok, mkUnary_iff, ensureClass_ok, numeric_iff, List.map_cons, List.map_nil,
      List.cons.injEq, and_true]
    constructor
    · rintro ⟨x, ⟨⟨⟩, ⟨τ, h1, h2⟩, rfl, -⟩, rfl⟩
      exact ⟨unary_typ, τ, h1, h2⟩
    · rintro ⟨rfl, τ, h1, h2⟩
      refine ⟨_, ⟨(), ⟨τ, h1, h2⟩, rfl, τ, h1, ?_⟩, unary_typ⟩
      rcases hop with rfl | rfl <;> exact h2
  · simp

theorem len_iff {L : List Expr} {t : Option Ty} {R : El Expr}
    (hR : R = match L with
        | [a] =>
          if a.typ.any (·.isInst .string) then mkUnary (some .int) .strLen a
          else mkUnary (some .int) .arrLen a
        | _ => .err .arity) :
    (∃ x, R = .ok x ∧ x.typ = t) ↔
      t = some .int ∧ ∃ a, L.map Expr.typ = [some a] ∧ (StrTy a ∨ ArrTy a) := by
  subst hR
  rcases L with _ | ⟨a, _ | ⟨b, L⟩⟩
  · simp
  · simp only [List.map_cons, List.map_nil, List.cons.injEq, and_true]
    split
    · next hs =>
      simp only [mkUnary_iff]
      constructor
      · rintro ⟨x, ⟨rfl, τ, h1, h2⟩, rfl⟩
        exact ⟨unary_typ, τ, h1, .inl h2⟩
      · rintro ⟨rfl, τ, h1, h2⟩
        rw [h1] at hs
        simp only [Option.any_some, inst_str] at hs
        exact ⟨_, ⟨rfl, τ, h1, hs⟩, unary_typ⟩
    · next hs =>
      simp only [mkUnary_iff]
      constructor
      · rintro ⟨x, ⟨rfl, τ, h1, h2⟩, rfl⟩
        exact ⟨unary_typ, τ, h1, .inr h2⟩
      · rintro ⟨rfl, τ, h1, h2⟩
        rw [h1] at hs
        simp only [Option.any_some, inst_str] at hs
        exact ⟨_, ⟨rfl, τ, h1, h2.resolve_left hs⟩, unary_typ⟩
  · simp

theorem matches_iff {rx : List Char → List Char → Bool} {rxOk : List Char → Bool} {L : List Expr}
    {t : Option Ty} {R : El Expr}
    (hR : R = match L with
        | [a, b] =>
          (ensureClass b.typ (·.isInst .string)).bind fun _ =>
            (evalStatic rx b).bind fun v =>
              match v.val with
              | .str s => if rxOk s then mkBinary D (some .bool) .regex a b else .err .badRegex
              | _ => .crash (.static .operand)
        | _ => .err .arity) :
    (∃ x, R = .ok x ∧ x.typ = t) ↔
      (t = some .bool ∧ ∃ a b, L.map Expr.typ = [some a, some b] ∧ StrTy a ∧ StrTy b) ∧
        ∃ a b s u, L = [a, b] ∧ b.eval ⟨fun _ => none, rx⟩ none = .ok ⟨u, .str s⟩ ∧ rxOk s = true := by
  subst hR
  rcases L with _ | ⟨a, _ | ⟨b, _ | ⟨c, L⟩⟩⟩
  · simp
  · simp
  · simp only [el_bind_ok, ensureClass_ok, inst_str, evalStatic_ok, List.map_cons, List.map_nil,
      List.cons.injEq, and_true]
    constructor
    · rintro ⟨x, ⟨-, ⟨τ, hb, hτ⟩, ⟨u, v⟩, hv, h⟩, rfl⟩
      dsimp only at h
      split at h
      · next s =>
        split at h
        · next hok =>
          rw [mkBinary_iff, str2_iff (D := D) (by simp)] at h
          obtain ⟨rfl, s1, s2, ha, hb', h3, h4⟩ := h
          exact ⟨⟨rfl, s1, s2, ⟨ha, hb'⟩, h3, h4⟩, a, b, s, u, ⟨rfl, rfl⟩, hv, hok⟩
        · cases h
      · cases h
    · rintro ⟨⟨rfl, s1, s2, ⟨ha, hb'⟩, h3, h4⟩, a', b', s, u, ⟨rfl, rfl⟩, hv, hok⟩
      refine ⟨.binary (some .bool) .regex a b, ⟨(), ⟨s2, hb', h4⟩, ⟨u, .str s⟩, hv, ?_⟩, rfl⟩
      dsimp only
      rw [if_pos hok, mkBinary_iff, str2_iff (D := D) (by simp)]
      exact ⟨rfl, s1, s2, ha, hb', h3, h4⟩
  · simp

theorem mkCall_iff {rx : List Char → List Char → Bool} {rxOk : List Char → Bool} {f : String}
    {args : Exprs} {t : Option Ty} :
    (∃ x, mkCall D rx rxOk f args = .ok x ∧ x.typ = t) ↔
      CallRule f (args.toList.map Expr.typ) t ∧
        (f = "matches" → ∃ a b s u, args.toList = [a, b] ∧
          b.eval ⟨fun _ => none, rx⟩ none = .ok ⟨u, .str s⟩ ∧ rxOk s = true) := by
  unfold mkCall CallRule
  by_cases h1 : f = "len"
  · subst h1
    simp only [if_true, String.reduceEq, false_and, or_false, true_and, false_or, or_self, false_imp_iff,
      and_true]
    exact len_iff rfl
  rw [if_neg h1]
  by_cases h2 : f = "startswith"
  · subst h2
    simp only [if_true, String.reduceEq, false_and, or_false, true_and, false_or, or_self, false_imp_iff,
      and_true]
    refine (two_iff (D := D) (op := .startsWith) (by simp) (g := fun _ _ => .ok ()) (L := args.toList) rfl).trans ?_
    constructor
    · rintro ⟨rfl, a, b, h, -, s, u, ha, hb, h3⟩
      exact ⟨rfl, s, u, by simp [h, ha, hb], h3⟩
    · rintro ⟨rfl, s, u, h, h3⟩
      obtain ⟨a, b, h, ha, hb⟩ := map_two.1 h
      exact ⟨rfl, a, b, h, rfl, s, u, ha, hb, h3⟩
  rw [if_neg h2]
  by_cases h3 : f = "endswith"
  · subst h3
    simp only [if_true, String.reduceEq, false_and, or_false, true_and, false_or, or_self, false_imp_iff,
      and_true]
    refine (two_iff (D := D) (op := .endsWith) (by simp) (g := fun _ _ => .ok ()) (L := args.toList) rfl).trans ?_
    constructor
    · rintro ⟨rfl, a, b, h, -, s, u, ha, hb, h3⟩
      exact ⟨rfl, s, u, by simp [h, ha, hb], h3⟩
    · rintro ⟨rfl, s, u, h, h3⟩
      obtain ⟨a, b, h, ha, hb⟩ := map_two.1 h
      exact ⟨rfl, a, b, h, rfl, s, u, ha, hb, h3⟩
  rw [if_neg h3]
  by_cases h4 : f = "matches"
  · subst h4
    simp only [if_true, String.reduceEq, false_and, or_false, true_and, false_or, or_self, true_imp_iff]
    exact matches_iff rfl
  rw [if_neg h4]
  by_cases h5 : f = "oneof"
  · subst h5
    simp only [if_true, String.reduceEq, false_and, or_false, true_and, false_or, or_self, false_imp_iff,
      and_true]
    have hm := fun x => mkOneOf_iff (es := args) (x := x)
    obtain ⟨L, hL⟩ : ∃ L, args.toList = L := ⟨_, rfl⟩
    rw [hL] at hm ⊢
    rcases L with _ | ⟨a, L⟩
    · simp
    · dsimp only
      simp only [hm]
      constructor
      · rintro ⟨x, ⟨rfl, h2⟩, rfl⟩
        exact ⟨rfl, by simp, by simpa using h2⟩
      · rintro ⟨rfl, -, h2⟩
        exact ⟨_, ⟨rfl, by simpa using h2⟩, rfl⟩
  rw [if_neg h5]
  by_cases h6 : f = "Integer"
  · subst h6
    simp only [if_true, String.reduceEq, false_and, or_false, true_and, false_or, or_self, false_imp_iff,
      and_true]
    exact num_iff (.inl rfl) rfl
  rw [if_neg h6]
  by_cases h7 : f = "Decimal"
  · subst h7
    simp only [if_true, String.reduceEq, false_and, or_false, true_and, false_or, or_self, false_imp_iff,
      and_true]
    exact num_iff (.inr rfl) rfl
  rw [if_neg h7]
  simp [h1, h2, h3, h4, h5, h6, h7]

variable {E : ElEnv}

theorem varTy_iff {vs : List (String × Ty)} {x : String} {t : Ty} :
    VarTy vs x t ↔ vs.lookup x = some t := by
  induction vs with
  | nil => simp [VarTy]
  | cons v vs ih =>
    obtain ⟨y, u⟩ := v
    simp only [VarTy, ih, List.lookup_cons]
    by_cases h : x = y
    · subst h; simp [eq_comm]
    · have h' : (x == y) = false := by simpa using h
      have : ¬ y = x := fun e => h e.symm
      simp [h', this]

theorem notVar_iff {vs : List (String × Ty)} {x : String} :
    vs.lookup x = none ↔ ∀ t, (x, t) ∉ vs := by
  induction vs with
  | nil => simp
  | cons v vs ih =>
    obtain ⟨y, u⟩ := v
    rw [List.lookup_cons]
    by_cases h : x = y
    · subst h
      simp only [beq_self_eq_true, reduceCtorEq, false_iff]
      intro h; exact h u (by simp)
    · have h' : (x == y) = false := by simpa using h
      simp only [h', ih, List.mem_cons, Prod.mk.injEq, h, false_and, false_or]

theorem declared_iff {sc : TScope} {x : String} : sc.contains x = true ↔ InScope sc x := by
  unfold TScope.contains InScope
  have : (sc.vars.lookup x).isSome = true ↔ ∃ t, (x, t) ∈ sc.vars := by
    cases h : sc.vars.lookup x with
    | none =>
      rw [notVar_iff] at h
      simp [h]
    | some t =>
      simp only [Option.isSome_some, true_iff]
      apply Classical.byContradiction
      intro hn
      rw [notVar_iff.2 (fun t ht => hn ⟨t, ht⟩)] at h
      cases h
  simp only [Bool.or_eq_true, this, Option.isSome_iff_exists, or_assoc]

/-- the rules, for the environment -/
abbrev Typed (E : ElEnv) (sc : TScope) (r : Raw) (t : Option Ty) : Prop :=
  HasTy E.decls (knownIn E) (fun s => E.rxOk s = true) sc r t

mutual
theorem elab_typed (wf : WFDecls E.decls) (un : UniqueNames E.decls) (r : Raw) (sc : TScope) (t : Option Ty) :
    (∃ e, r.elab E sc = .ok e ∧ e.typ = t) ↔ Typed E sc r t := by
  match r with
  | .null =>
    simp only [Raw.elab, El.ok.injEq, exists_eq_left', HasTy]
    exact ⟨fun h => h.symm, fun h => h.symm⟩
  | .bool _ =>
    simp only [Raw.elab, El.ok.injEq, exists_eq_left', HasTy]
    exact ⟨fun h => h.symm, fun h => h.symm⟩
  | .int _ =>
    simp only [Raw.elab, El.ok.injEq, exists_eq_left', HasTy]
    exact ⟨fun h => h.symm, fun h => h.symm⟩
  | .dec _ =>
    simp only [Raw.elab, El.ok.injEq, exists_eq_left', HasTy]
    exact ⟨fun h => h.symm, fun h => h.symm⟩
  | .str _ =>
    simp only [Raw.elab, El.ok.injEq, exists_eq_left', HasTy]
    exact ⟨fun h => h.symm, fun h => h.symm⟩
  | .enumLit path lit =>
    simp only [Raw.elab, HasTy]
    cases sc.enums path with
    | none => simp
    | some n =>
      simp only [Option.some.injEq]
      cases hd : E.decls.enums[n]? with
      | none => simp [hd]
      | some ls =>
        simp only [Option.getD_some]
        by_cases hl : lit ∈ ls
        · rw [if_pos (by simpa using hl)]
          simp only [El.ok.injEq, exists_eq_left', Expr.typ]
          constructor
          · rintro rfl; exact ⟨n, ls, rfl, hd, hl, rfl⟩
          · rintro ⟨_, _, rfl, -, -, h⟩; exact h.symm
        · rw [if_neg (by simpa using hl)]
          simp only [reduceCtorEq, false_and, exists_false, false_iff]
          rintro ⟨_, _, rfl, h, h2, -⟩
          rw [hd] at h; cases h
          exact hl h2
  | .name x =>
    simp only [Raw.elab, HasTy, varTy_iff, NotVar, ← notVar_iff]
    cases sc.vars.lookup x with
    | some u => simp [Expr.typ, eq_comm]
    | none =>
      cases sc.comp x with
      | none => simp
      | some c => simp [Expr.typ, eq_comm]
  | .dot p f =>
    have ih := elab_typed wf un p sc
    simp only [Raw.elab, HasTy, el_bind_ok]
    constructor
    · rintro ⟨x, ⟨e, he, hx⟩, ht⟩
      obtain ⟨a, b, h1, h2, h3⟩ := (mkField_iff wf un).1 ⟨x, hx, ht⟩
      exact ⟨a, b, (ih _).1 ⟨e, he, h1⟩, h2, h3⟩
    · rintro ⟨a, b, h1, h2, h3⟩
      obtain ⟨e, he, h1⟩ := (ih _).2 h1
      obtain ⟨x, hx, ht⟩ := (mkField_iff wf un).2 ⟨a, b, h1, h2, h3⟩
      exact ⟨x, ⟨e, he, hx⟩, ht⟩
  | .index p i =>
    have ih := elab_typed wf un p sc
    have ih2 := elab_typed wf un i sc
    simp only [Raw.elab, HasTy, el_bind_ok]
    constructor
    · rintro ⟨x, ⟨e, he, d, hd, hx⟩, ht⟩
      obtain ⟨id, el, lo, hi, h1, h2, h3⟩ := mkIndex_iff.1 ⟨x, hx, ht⟩
      exact ⟨id, el, lo, hi, (ih _).1 ⟨e, he, h1⟩, (ih2 _).1 ⟨d, hd, h2⟩, h3⟩
    · rintro ⟨id, el, lo, hi, h1, h2, h3⟩
      obtain ⟨e, he, h1⟩ := (ih _).2 h1
      obtain ⟨d, hd, h2⟩ := (ih2 _).2 h2
      obtain ⟨x, hx, ht⟩ := (mkIndex_iff (D := E.decls)).2 ⟨id, el, lo, hi, h1, h2, h3⟩
      exact ⟨x, ⟨e, he, d, hd, hx⟩, ht⟩
  | .call f args =>
    have ih := elabs_typed wf un args sc
    simp only [Raw.elab, HasTy, el_bind_ok]
    constructor
    · rintro ⟨x, ⟨es, he, hx⟩, ht⟩
      obtain ⟨h1, h2⟩ := mkCall_iff.1 ⟨x, hx, ht⟩
      refine ⟨⟨_, (ih _).1 ⟨es, he, rfl⟩, h1⟩, fun hf => ?_⟩
      obtain ⟨a, b, s, u, h3, h4, h5⟩ := h2 hf
      match args, es, he, h3 with
      | .cons ra (.cons rb .nil), .cons _ (.cons _ .nil), he, h3 =>
        simp only [Raws.elab, el_bind_ok, El.ok.injEq] at he
        obtain ⟨ea, hea, es', ⟨eb, heb, -, rfl, rfl⟩, h⟩ := he
        cases h
        cases h3
        exact ⟨ra, rb, s, rfl, ⟨_, heb, _, h4⟩, h5⟩
      | .cons ra (.cons rb .nil), .cons _ (.cons _ (.cons _ _)), he, h3 => simp [Exprs.toList] at h3
      | .cons ra (.cons rb .nil), .cons _ .nil, he, h3 => simp [Exprs.toList] at h3
      | .cons ra (.cons rb .nil), .nil, he, h3 => simp [Exprs.toList] at h3
      | .cons ra (.cons rb (.cons rc rs)), es, he, h3 =>
        simp only [Raws.elab, el_bind_ok, El.ok.injEq] at he
        obtain ⟨ea, hea, es', ⟨eb, heb, _, ⟨ec, hec, es3, h9, rfl⟩, rfl⟩, rfl⟩ := he
        simp [Exprs.toList] at h3
      | .cons ra .nil, es, he, h3 =>
        simp only [Raws.elab, el_bind_ok, El.ok.injEq] at he
        obtain ⟨ea, hea, _, rfl, rfl⟩ := he
        simp [Exprs.toList] at h3
      | .nil, es, he, h3 =>
        simp only [Raws.elab, El.ok.injEq] at he
        subst he
        simp [Exprs.toList] at h3
    · rintro ⟨⟨ts, h1, h2⟩, h3⟩
      obtain ⟨es, he, rfl⟩ := (ih _).2 h1
      have hm : f = "matches" → ∃ a b s u, es.toList = [a, b] ∧
          b.eval ⟨fun _ => none, E.rx⟩ none = .ok ⟨u, .str s⟩ ∧ E.rxOk s = true := by
        intro hf
        obtain ⟨a, b, s, rfl, ⟨eb', hb, u, hu⟩, h5⟩ := h3 hf
        simp only [Raws.elab, el_bind_ok, El.ok.injEq] at he
        obtain ⟨ea, hea, es', ⟨eb, heb, _, rfl, rfl⟩, rfl⟩ := he
        rw [hb] at heb; cases heb
        exact ⟨ea, _, s, u, rfl, hu, h5⟩
      obtain ⟨x, hx, ht⟩ := (mkCall_iff (D := E.decls)).2 ⟨h2, hm⟩
      exact ⟨x, ⟨es, he, hx⟩, ht⟩
  | .sign m e =>
    have ih := elab_typed wf un e sc
    simp only [Raw.elab, HasTy, el_bind_ok, mkUnary_iff]
    constructor
    · rintro ⟨x, ⟨e', he, rfl, τ, h1, h2⟩, rfl⟩
      refine ⟨τ, (ih _).1 ⟨e', he, h1⟩, by cases m <;> exact h2, by rw [unary_typ]; exact h1⟩
    · rintro ⟨a, h1, h2, rfl⟩
      obtain ⟨e', he, h1⟩ := (ih _).2 h1
      exact ⟨_, ⟨e', he, rfl, a, h1, by cases m <;> exact h2⟩, by rw [unary_typ]; exact h1⟩
  | .abs e =>
    have ih := elab_typed wf un e sc
    simp only [Raw.elab, HasTy, el_bind_ok, mkUnary_iff]
    constructor
    · rintro ⟨x, ⟨e', he, rfl, τ, h1, h2⟩, rfl⟩
      exact ⟨τ, (ih _).1 ⟨e', he, h1⟩, h2, by rw [unary_typ]; exact h1⟩
    · rintro ⟨a, h1, h2, rfl⟩
      obtain ⟨e', he, h1⟩ := (ih _).2 h1
      exact ⟨_, ⟨e', he, rfl, a, h1, h2⟩, by rw [unary_typ]; exact h1⟩
  | .not e =>
    have ih := elab_typed wf un e sc
    simp only [Raw.elab, HasTy, el_bind_ok, mkUnary_iff]
    constructor
    · rintro ⟨x, ⟨e', he, rfl, τ, h1, rfl⟩, rfl⟩
      exact ⟨(ih _).1 ⟨e', he, h1⟩, by rw [unary_typ]⟩
    · rintro ⟨h1, rfl⟩
      obtain ⟨e', he, h1⟩ := (ih _).2 h1
      exact ⟨_, ⟨e', he, rfl, _, h1, rfl⟩, unary_typ⟩
  | .power l r =>
    have ih := elab_typed wf un l sc
    have ih2 := elab_typed wf un r sc
    simp only [Raw.elab, HasTy, el_bind_ok]
    constructor
    · rintro ⟨x, ⟨e, he, d, hd, hx⟩, ht⟩
      obtain ⟨⟨a, h1, h2, h3⟩, h4, i, u, h5, h6⟩ := mkPower_iff.1 ⟨x, hx, ht⟩
      exact ⟨⟨a, (ih _).1 ⟨e, he, h1⟩, h2, h3⟩, (ih2 _).1 ⟨d, hd, h4⟩, i, ⟨d, hd, u, h5⟩, h6⟩
    · rintro ⟨⟨a, h1, h2, h3⟩, h4, i, ⟨d', hd', u, h5⟩, h6⟩
      obtain ⟨e, he, h1⟩ := (ih _).2 h1
      obtain ⟨d, hd, h4⟩ := (ih2 _).2 h4
      rw [hd] at hd'; cases hd'
      obtain ⟨x, hx, ht⟩ := (mkPower_iff (D := E.decls)).2 ⟨⟨a, h1, h2, h3⟩, h4, i, u, h5, h6⟩
      exact ⟨x, ⟨e, he, _, hd, hx⟩, ht⟩
  | .arith op l r =>
    have ih := elab_typed wf un l sc
    have ih2 := elab_typed wf un r sc
    simp only [Raw.elab, HasTy, el_bind_ok]
    constructor
    · rintro ⟨x, ⟨e, he, d, hd, hx⟩, ht⟩
      obtain ⟨a, b, c, h1, h2, h3, h4⟩ := mkArith_iff.1 ⟨x, hx, ht⟩
      exact ⟨a, b, c, (ih _).1 ⟨e, he, h1⟩, (ih2 _).1 ⟨d, hd, h2⟩, h3, h4⟩
    · rintro ⟨a, b, c, h1, h2, h3, h4⟩
      obtain ⟨e, he, h1⟩ := (ih _).2 h1
      obtain ⟨d, hd, h2⟩ := (ih2 _).2 h2
      obtain ⟨x, hx, ht⟩ := (mkArith_iff (D := E.decls)).2 ⟨a, b, c, h1, h2, h3, h4⟩
      exact ⟨x, ⟨e, he, d, hd, hx⟩, ht⟩
  | .cmp op l r =>
    have ih := elab_typed wf un l sc
    have ih2 := elab_typed wf un r sc
    simp only [Raw.elab, HasTy, el_bind_ok, mkBinary_iff, cmp_iff wf]
    constructor
    · rintro ⟨x, ⟨e, he, d, hd, rfl, hx⟩, rfl⟩
      exact ⟨_, _, (ih _).1 ⟨e, he, rfl⟩, (ih2 _).1 ⟨d, hd, rfl⟩, hx, binary_typ⟩
    · rintro ⟨a, b, h1, h2, h3, rfl⟩
      obtain ⟨e, he, rfl⟩ := (ih _).2 h1
      obtain ⟨d, hd, rfl⟩ := (ih2 _).2 h2
      exact ⟨_, ⟨e, he, d, hd, rfl, h3⟩, binary_typ⟩
  | .isIn neg l r =>
    have ih := elab_typed wf un l sc
    have ih2 := elab_typed wf un r sc
    simp only [Raw.elab, HasTy, el_bind_ok]
    constructor
    · rintro ⟨x, ⟨e, he, d, hd, y, hy, hx⟩, rfl⟩
      obtain ⟨a, b, h1, h2, h3⟩ := mkIn_iff.1 ⟨y, hy⟩
      exact ⟨a, b, (ih _).1 ⟨e, he, h1⟩, (ih2 _).1 ⟨d, hd, h2⟩, h3, mkNot_typ (mkIn_typ hy) hx⟩
    · rintro ⟨a, b, h1, h2, h3, rfl⟩
      obtain ⟨e, he, h1⟩ := (ih _).2 h1
      obtain ⟨d, hd, h2⟩ := (ih2 _).2 h2
      obtain ⟨y, hy⟩ := (mkIn_iff (D := E.decls)).2 ⟨a, b, h1, h2, h3⟩
      obtain ⟨x, hx, ht⟩ := mkNot_iff (neg := neg) (mkIn_typ hy)
      exact ⟨x, ⟨e, he, d, hd, y, hy, hx⟩, ht⟩
  | .inRange neg l r r2 =>
    have ih := elab_typed wf un l sc
    have ih2 := elab_typed wf un r sc
    have ih3 := elab_typed wf un r2 sc
    simp only [Raw.elab, HasTy, el_bind_ok]
    constructor
    · rintro ⟨x, ⟨e, he, d, hd, d2, hd2, y, hy, hx⟩, rfl⟩
      obtain ⟨rfl, a, h0, h1, h2, h3⟩ := mkRange_iff.1 hy
      exact ⟨a, h0, (ih _).1 ⟨e, he, h1⟩, (ih2 _).1 ⟨d, hd, h2⟩, (ih3 _).1 ⟨d2, hd2, h3⟩,
        mkNot_typ rfl hx⟩
    · rintro ⟨a, h0, h1, h2, h3, rfl⟩
      obtain ⟨e, he, h1⟩ := (ih _).2 h1
      obtain ⟨d, hd, h2⟩ := (ih2 _).2 h2
      obtain ⟨d2, hd2, h3⟩ := (ih3 _).2 h3
      have hy := mkRange_iff.2 ⟨rfl, a, h0, h1, h2, h3⟩
      obtain ⟨x, hx, ht⟩ := mkNot_iff (neg := neg) (e := .range e d d2) rfl
      exact ⟨x, ⟨e, he, d, hd, d2, hd2, _, hy, hx⟩, ht⟩
  | .logic op l r =>
    have ih := elab_typed wf un l sc
    have ih2 := elab_typed wf un r sc
    simp only [Raw.elab, HasTy, el_bind_ok]
    constructor
    · rintro ⟨x, ⟨e, he, d, hd, hx⟩, ht⟩
      obtain ⟨h1, h2, h3⟩ := mkLogical_iff.1 ⟨x, hx, ht⟩
      exact ⟨(ih _).1 ⟨e, he, h1⟩, (ih2 _).1 ⟨d, hd, h2⟩, h3⟩
    · rintro ⟨h1, h2, h3⟩
      obtain ⟨e, he, h1⟩ := (ih _).2 h1
      obtain ⟨d, hd, h2⟩ := (ih2 _).2 h2
      obtain ⟨x, hx, ht⟩ := (mkLogical_iff (D := E.decls)).2 ⟨h1, h2, h3⟩
      exact ⟨x, ⟨e, he, d, hd, hx⟩, ht⟩
  | .cond c e rest =>
    have ihc := elab_typed wf un c sc
    have ihe := elab_typed wf un e sc
    simp only [Raw.elab, HasTy, el_bind_ok]
    constructor
    · rintro ⟨x, ⟨c', hc, e', he, h⟩, rfl⟩
      split at h
      · cases h
      · next τ hτ =>
        simp only [el_bind_ok, mkAction, ensureClass_ok, inst_bool, El.ok.injEq] at h
        obtain ⟨-, ⟨σ, h1, rfl⟩, as, h2, rfl⟩ := h
        exact ⟨(ihc _).1 ⟨c', hc, h1⟩, τ, (ihe _).1 ⟨e', he, hτ⟩, rfl,
          (acts_typed wf un rest sc τ).1 ⟨as, h2⟩⟩
    · rintro ⟨h1, a, h2, rfl, h3⟩
      obtain ⟨c', hc, h1⟩ := (ihc _).2 h1
      obtain ⟨e', he, h2⟩ := (ihe _).2 h2
      obtain ⟨as, h3⟩ := (acts_typed wf un rest sc a).2 h3
      refine ⟨.cond a (.act c' e' as), ⟨c', hc, e', he, ?_⟩, rfl⟩
      rw [h2]
      simp only [el_bind_ok, mkAction, ensureClass_ok, inst_bool]
      exact ⟨(), ⟨_, h1, rfl⟩, as, h3, rfl⟩
  | .quant u x src body =>
    simp only [Raw.elab, HasTy, NotVar, ← notVar_iff, ← declared_iff]
    cases hc : sc.contains x with
    | true => simp
    | false =>
      cases hv : sc.vars.lookup src with
      | some t' => simp
      | none =>
        cases hs : sc.comp src with
        | none => simp
        | some c =>
          simp only [Bool.false_eq_true, if_false, not_false_iff, true_and, Option.some.injEq]
          have ih := fun el => elab_typed wf un body { sc with vars := (x, el) :: sc.vars } (some .bool)
          constructor
          · rintro ⟨e, he, rfl⟩
            split at he
            · next id el lo hi hty =>
              simp only [el_bind_ok, ensureClass_ok, inst_bool, El.ok.injEq] at he
              obtain ⟨b, hb, -, ⟨τ, h1, rfl⟩, rfl⟩ := he
              exact ⟨rfl, c, id, el, lo, hi, rfl, hty, (ih el).1 ⟨b, hb, h1⟩⟩
            · cases he
          · rintro ⟨rfl, c', id, el, lo, hi, rfl, hty, h⟩
            obtain ⟨b, hb, h1⟩ := (ih el).2 h
            refine ⟨.quant u x src b, ?_, rfl⟩
            rw [hty]
            simp only [el_bind_ok, ensureClass_ok, inst_bool]
            exact ⟨b, hb, (), ⟨_, h1, rfl⟩, rfl⟩

theorem elabs_typed (wf : WFDecls E.decls) (un : UniqueNames E.decls) (r : Raws) (sc : TScope) (ts : List (Option Ty)) :
    (∃ es, r.elab E sc = .ok es ∧ es.toList.map Expr.typ = ts) ↔
      HasTys E.decls (knownIn E) (fun s => E.rxOk s = true) sc r ts := by
  match r with
  | .nil =>
    simp only [Raws.elab, HasTys, El.ok.injEq, exists_eq_left', Exprs.toList, List.map_nil]
    exact ⟨fun h => h.symm, fun h => h.symm⟩
  | .cons e es =>
    have ih := elab_typed wf un e sc
    have ih2 := elabs_typed wf un es sc
    simp only [Raws.elab, HasTys, el_bind_ok, El.ok.injEq]
    constructor
    · rintro ⟨x, ⟨e', he, es', hes, rfl⟩, rfl⟩
      exact ⟨_, _, (ih _).1 ⟨e', he, rfl⟩, (ih2 _).1 ⟨es', hes, rfl⟩, rfl⟩
    · rintro ⟨t, us, h1, h2, rfl⟩
      obtain ⟨e', he, rfl⟩ := (ih _).2 h1
      obtain ⟨es', hes, rfl⟩ := (ih2 _).2 h2
      exact ⟨_, ⟨e', he, es', hes, rfl⟩, rfl⟩

theorem acts_typed (wf : WFDecls E.decls) (un : UniqueNames E.decls) (r : RActs) (sc : TScope) (t : Ty) :
    (∃ as, r.elab E sc t = .ok as) ↔
      HasTyActs E.decls (knownIn E) (fun s => E.rxOk s = true) sc t r := by
  match r with
  | .els e =>
    have ih := elab_typed wf un e sc
    simp only [RActs.elab, HasTyActs, el_bind_ok, ensureTy_ok, El.ok.injEq]
    constructor
    · rintro ⟨as, e', he, -, ⟨τ, h1, h2⟩, rfl⟩
      cases h2
      exact (ih _).1 ⟨e', he, h1⟩
    · intro h
      obtain ⟨e', he, h1⟩ := (ih _).2 h
      exact ⟨_, e', he, (), ⟨t, h1, rfl⟩, rfl⟩
  | .act c e rest =>
    have ihc := elab_typed wf un c sc
    have ihe := elab_typed wf un e sc
    simp only [RActs.elab, HasTyActs, el_bind_ok, ensureTy_ok, El.ok.injEq, mkAction, ensureClass_ok,
      inst_bool]
    constructor
    · rintro ⟨as, c', hc, e', he, -, ⟨σ, h0, rfl⟩, -, ⟨τ, h1, h2⟩, r', hr, rfl⟩
      cases h2
      exact ⟨(ihc _).1 ⟨c', hc, h0⟩, (ihe _).1 ⟨e', he, h1⟩, (acts_typed wf un rest sc _).1 ⟨r', hr⟩⟩
    · rintro ⟨h1, h2, h3⟩
      obtain ⟨c', hc, h1⟩ := (ihc _).2 h1
      obtain ⟨e', he, h2⟩ := (ihe _).2 h2
      obtain ⟨as, h3⟩ := (acts_typed wf un rest sc t).2 h3
      exact ⟨_, c', hc, e', he, (), ⟨_, h1, rfl⟩, (), ⟨t, h2, rfl⟩, as, h3, rfl⟩
end

end Verif.Lemmas
