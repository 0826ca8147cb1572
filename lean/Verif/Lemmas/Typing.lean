import Verif.Lemmas.Static
import Verif.Lemmas.FieldMap
import Verif.Spec.CheckSafety
import Verif.Model.Elab
/-!
Type soundness of check expressions: definitions and the evaluation of conforming values.
-/
namespace Verif.Lemmas
open Verif.Model Verif.Spec

/-- operand type and result type of unary operators -/
def unOk : UnOp → Option Ty → Option Ty → Prop
  | .minus, a, t | .plus, a, t | .abs, a, t => (a = some .int ∨ a = some .dec) ∧ t = a
  | .logicalNot, a, t => a = some .bool ∧ t = some .bool
  | .strLen, a, t => (a = some .str ∨ a = some .markup) ∧ t = some .int
  | .arrLen, a, t => (∃ id e lo hi, a = some (.arr id e lo hi)) ∧ t = some .int
  | .toInt, a, t => (a = some .int ∨ a = some .dec) ∧ t = some .int
  | .toDec, a, t => (a = some .int ∨ a = some .dec) ∧ t = some .dec

/-- a string type -/
def isStr (a : Option Ty) : Prop := a = some .str ∨ a = some .markup

/-- operand types and result type of binary operators -/
def binOk : BinOp → Option Ty → Option Ty → Option Ty → Prop
  | .xor, a, b, t => a = some .bool ∧ b = some .bool ∧ t = some .bool
  | .eq, _, _, t | .neq, _, _, t => t = some .bool
  | .lt, a, b, t | .leq, a, b, t | .gt, a, b, t | .geq, a, b, t =>
    (a = some .int ∨ a = some .dec) ∧ b = a ∧ t = some .bool
  | .strContains, a, b, t | .startsWith, a, b, t | .endsWith, a, b, t | .regex, a, b, t =>
    isStr a ∧ isStr b ∧ t = some .bool
  | .arrContains, _, b, t => (∃ id e lo hi, b = some (.arr id e lo hi)) ∧ t = some .bool
  | .plus, a, b, t =>
    ((a = some .int ∨ a = some .dec) ∧ b = a ∧ t = a) ∨ (isStr a ∧ isStr b ∧ t = some .str)
  | .minus, a, b, t | .times, a, b, t | .divide, a, b, t =>
    (a = some .int ∨ a = some .dec) ∧ b = a ∧ t = a
  | .remainder, a, b, t => a = some .int ∧ b = some .int ∧ t = some .int
  | .power, a, b, t => (a = some .int ∨ a = some .dec) ∧ b = some .int ∧ t = a
  | .index, a, b, t => (∃ id e lo hi, a = some (.arr id e lo hi) ∧ t = some e) ∧ b = some .int

/-- the type of a field access -/
def fieldOk (D : Decls) : Option Ty → String → Ty → Prop
  | some (.tup t), n, ty => ∃ c, (D.fields t).find? (·.name == n) = some c ∧ c.ty = ty
  | some (.record t), n, ty => ∃ c, HasComp D t c ∧ c.name = n ∧ c.ty = ty
  | some (.union _ ms), n, ty =>
    ∃ i τ, (D.fieldMap ms).lookup n = some i ∧ i.ty = some τ ∧ i.comp.ty = ty
  | _, _, _ => False

mutual
/-- well-typed expressions -/
def WT (D : Decls) (rx : List Char → List Char → Bool) (Γ : Gamma) : Expr → Prop
  | .null | .bool _ | .int _ | .dec _ | .str _ | .enum _ _ => True
  | .name n t => ∃ b, Γ n = some (t, b)
  | .unary t op e => WT D rx Γ e ∧ unOk op e.typ t
  | .binary t op l r =>
    WT D rx Γ l ∧ WT D rx Γ r ∧ binOk op l.typ r.typ t ∧
      (op = .power → ∃ v i, Expr.eval ⟨fun _ => none, rx⟩ none r = .ok v ∧ v.val = .int i ∧ 0 ≤ i)
  | .logic _ l r => WT D rx Γ l ∧ WT D rx Γ r ∧ l.typ = some .bool ∧ r.typ = some .bool
  | .field p n ty => WT D rx Γ p ∧ fieldOk D p.typ n ty
  | .range e lo up => WT D rx Γ e ∧ WT D rx Γ lo ∧ WT D rx Γ up ∧
      (e.typ = some .int ∨ e.typ = some .dec) ∧ lo.typ = e.typ ∧ up.typ = e.typ
  | .oneof cs => WTs D rx Γ cs
  | .cond t as => WTa D rx Γ t as
  | .quant _ x src body =>
    (∃ id elem lo hi b, Γ src = some (.arr id elem lo hi, b) ∧ WT D rx (Γ.bind x elem) body) ∧
      body.typ = some .bool
/-- all parameters of `oneof` -/
def WTs (D : Decls) (rx : List Char → List Char → Bool) (Γ : Gamma) : Exprs → Prop
  | .nil => True
  | .cons e es => WT D rx Γ e ∧ WTs D rx Γ es
/-- the actions of a conditional of type `t` -/
def WTa (D : Decls) (rx : List Char → List Char → Bool) (Γ : Gamma) (t : Ty) : Acts → Prop
  | .els e => WT D rx Γ e ∧ e.typ = some t
  | .act c e rest =>
    WT D rx Γ c ∧ c.typ = some .bool ∧ WT D rx Γ e ∧ e.typ = some t ∧ WTa D rx Γ t rest
end

/-! ### Values -/

/-- a result has the static type `t`, or is null -/
def TVok (D : Decls) (objTy : Nat → Option Nat) (heap : Nat → Option Fields) (t : Option Ty)
    (v : TV) : Prop :=
  v = ⟨none, .null⟩ ∨ ∃ τ, t = some τ ∧ v.typ = some τ ∧ v.val.isNull = false ∧
    VT D objTy heap τ v.val

variable {D : Decls} {objTy : Nat → Option Nat} {heap : Nat → Option Fields}

mutual
/-- a conforming value expression evaluates -/
theorem fok_eval (hh : HeapOk D objTy heap) : ∀ (fe : FExpr) (τ : Ty), FOk D objTy fe τ →
    ∃ v, fe.eval heap = .ok ⟨some τ, v⟩ ∧ v.isNull = false
  | .inull, τ, h => by simp [FOk] at h
  | .bool _, τ, h | .int _, τ, h | .dec _, τ, h | .str _, τ, h | .markup _, τ, h => by
    simp only [FOk] at h
    subst h
    exact ⟨_, by simp only [FExpr.eval, mkValue, Val.isNull, Option.isNone_some, if_true]; rfl, rfl⟩
  | .enum _ _, τ, h => by
    simp only [FOk] at h
    obtain ⟨rfl, -⟩ := h
    exact ⟨_, by simp only [FExpr.eval, mkValue, Val.isNull, Option.isNone_some, if_true]; rfl, rfl⟩
  | .neg e, τ, h | .pos e, τ, h => by
    simp only [FOk] at h
    rcases h with ⟨rfl, i, rfl⟩ | ⟨rfl, i, rfl⟩
    all_goals exact ⟨_, by
      simp only [FExpr.eval, mkValue, Val.isNull, Option.isNone_some, if_true, Ev.bind, unary,
        unaryOp, if_false, Bool.false_eq_true]; rfl, rfl⟩
  | .arr t es, τ, h => by
    simp only [FOk] at h
    obtain ⟨rfl, id, elem, lo, hi, rfl, h⟩ := h
    obtain ⟨vs, hv⟩ := allok_eval hh es elem h
    exact ⟨.arr vs, by simp [FExpr.eval, hv, Ev.bind, mkValue, Val.isNull], rfl⟩
  | .tup t fs, τ, h => by
    simp only [FOk] at h
    obtain ⟨rfl, cs, -, h⟩ := h
    obtain ⟨vs, hv⟩ := fieldsok_eval hh fs cs h
    exact ⟨.tup vs, by simp [FExpr.eval, hv, Ev.bind, mkValue, Val.isNull], rfl⟩
  | .ref t target, τ, h => by
    simp only [FOk] at h
    obtain ⟨rfl, o, u, rfl, hu, -⟩ := h
    obtain ⟨fs, hf, -⟩ := hh o u hu
    exact ⟨.recv fs, by simp [FExpr.eval, hf, mkValue, Val.isNull], rfl⟩

theorem allok_eval (hh : HeapOk D objTy heap) : ∀ (es : List FExpr) (τ : Ty),
    AllOk D objTy es τ → ∃ vs, evalElems heap es = .ok vs
  | [], τ, h => ⟨[], by simp [evalElems]⟩
  | e :: es, τ, h => by
    simp only [AllOk] at h
    obtain ⟨v, hv, -⟩ := fok_eval hh e τ h.1
    obtain ⟨vs, hvs⟩ := allok_eval hh es τ h.2
    exact ⟨_, by simp only [evalElems, hv, hvs, Ev.bind]; rfl⟩

theorem fieldsok_eval (hh : HeapOk D objTy heap) : ∀ (fs : List (String × FExpr)) (cs : List Comp),
    FieldsOk D objTy fs cs → ∃ vs, evalFields heap fs = .ok vs
  | [], cs, h => ⟨[], by simp [evalFields]⟩
  | f :: fs, [], h => by simp [FieldsOk] at h
  | f :: fs, c :: cs, h => by
    simp only [FieldsOk] at h
    obtain ⟨v, hv⟩ := fieldok_eval hh f c h.1
    obtain ⟨vs, hvs⟩ := fieldsok_eval hh fs cs h.2
    exact ⟨_, by simp only [evalFields, hv, hvs, Ev.bind]; rfl⟩

theorem fieldok_eval (hh : HeapOk D objTy heap) : ∀ (f : String × FExpr) (c : Comp),
    FieldOk D objTy f c → ∃ v, evalField heap f = .ok v
  | (n, e), c, h => by
    simp only [FieldOk] at h
    rcases h.2 with ⟨-, rfl⟩ | h
    · exact ⟨_, by simp only [evalField, FExpr.eval, mkValue, Val.isNull, Option.isNone_none, if_true, Ev.bind]; rfl⟩
    · obtain ⟨v, hv, -⟩ := fok_eval hh e c.ty h
      exact ⟨_, by simp only [evalField, hv, Ev.bind]; rfl⟩
end

/-- ... to a value of its type -/
theorem fok_vt (fe : FExpr) (τ : Ty) (v : Val) (h : FOk D objTy fe τ)
    (hv : fe.eval heap = .ok ⟨some τ, v⟩) : VT D objTy heap τ v := by
  have h0 := h
  cases fe with
  | inull => simp [FOk] at h
  | bool b | int b | dec b | str b | markup b =>
    simp only [FOk] at h
    subst h
    simp only [FExpr.eval, mkValue_eq_ok, TV.mk.injEq, true_and] at hv
    exact ⟨_, hv.2⟩
  | enum t l =>
    simp only [FOk] at h
    obtain ⟨rfl, -⟩ := h
    simp only [FExpr.eval, mkValue_eq_ok, TV.mk.injEq, true_and] at hv
    exact ⟨_, hv.2⟩
  | neg e | pos e =>
    simp only [FOk] at h
    rcases h with ⟨rfl, i, rfl⟩ | ⟨rfl, i, rfl⟩ <;>
    · simp only [FExpr.eval, mkValue, Val.isNull, Option.isNone_some, if_true, Ev.bind, unary,
        unaryOp, if_false, Bool.false_eq_true, Ev.ok.injEq, TV.mk.injEq, true_and] at hv
      exact ⟨_, hv.symm⟩
  | arr t es =>
    simp only [FOk] at h
    obtain ⟨rfl, id, elem, lo, hi, rfl, h⟩ := h
    exact ⟨_, h0, hv⟩
  | tup t fs =>
    simp only [FOk] at h
    obtain ⟨rfl, h⟩ := h
    exact ⟨_, h0, hv⟩
  | ref t o =>
    simp only [FOk] at h
    obtain ⟨rfl, o, u, -, -, h⟩ := h
    cases τ <;> first
      | exact ⟨_, h0, hv⟩
      | exact h.elim

/-- the value of a component, which may be null -/
theorem fok_tvok (hh : HeapOk D objTy heap) {fe : FExpr} {τ : Ty}
    (h : fe = .inull ∨ FOk D objTy fe τ) :
    ∃ v, fe.eval heap = .ok v ∧ TVok D objTy heap (some τ) v ∧
      (FOk D objTy fe τ → v.val.isNull = false) := by
  by_cases hf : FOk D objTy fe τ
  · obtain ⟨v, hv, hn⟩ := fok_eval hh fe τ hf
    exact ⟨_, hv, Or.inr ⟨τ, rfl, rfl, hn, fok_vt fe τ v hf hv⟩, fun _ => hn⟩
  · rcases h with rfl | h
    · exact ⟨⟨none, .null⟩, by simp [FExpr.eval, mkValue, Val.isNull], Or.inl rfl,
        fun h => absurd h hf⟩
    · exact absurd h hf

/-- the elements of an array value -/
theorem elems_get {es : List FExpr} {vs : List (Option Ty × Val)} (h : evalElems heap es = .ok vs)
    {i : Nat} {x : Option Ty × Val} (hx : vs[i]? = some x) :
    ∃ fe ∈ es, fe.eval heap = .ok ⟨x.1, x.2⟩ := by
  induction es generalizing vs i with
  | nil => simp only [evalElems, Ev.ok.injEq] at h; subst h; simp at hx
  | cons e es ih =>
    simp only [evalElems, bind_eq_ok, Ev.ok.injEq] at h
    obtain ⟨v, hv, ws, hws, rfl⟩ := h
    cases i with
    | zero =>
      simp only [List.getElem?_cons_zero, Option.some.injEq] at hx
      subst hx
      exact ⟨e, List.mem_cons_self, hv⟩
    | succ i =>
      simp only [List.getElem?_cons_succ] at hx
      obtain ⟨fe, hm, he⟩ := ih hws hx
      exact ⟨fe, List.mem_cons_of_mem _ hm, he⟩

theorem allok_mem {es : List FExpr} {τ : Ty} (h : AllOk D objTy es τ) {e : FExpr} (he : e ∈ es) :
    FOk D objTy e τ := by
  induction es with
  | nil => simp at he
  | cons x es ih =>
    simp only [AllOk] at h
    rcases List.mem_cons.1 he with rfl | he
    · exact h.1
    · exact ih h.2 he

/-- a field of a tuple value -/
theorem fields_lookup (hh : HeapOk D objTy heap) {fs : List (String × FExpr)} {cs : List Comp}
    {vs : List (String × Option Ty × Val)} (h : FieldsOk D objTy fs cs)
    (he : evalFields heap fs = .ok vs) (n : String) {c : Comp}
    (hc : cs.find? (·.name == n) = some c) :
    ∃ w fe, vs.lookup n = some w ∧ fe.eval heap = .ok ⟨w.1, w.2⟩ ∧
      ((c.optional = true ∧ fe = .inull) ∨ FOk D objTy fe c.ty) := by
  induction fs generalizing cs vs with
  | nil =>
    cases cs with
    | nil => simp at hc
    | cons => simp [FieldsOk] at h
  | cons f fs ih =>
    obtain ⟨k, e⟩ := f
    cases cs with
    | nil => simp at hc
    | cons d cs =>
      simp only [FieldsOk, FieldOk] at h
      obtain ⟨⟨rfl, hd⟩, h⟩ := h
      simp only [evalFields, evalField, bind_eq_ok, Ev.ok.injEq] at he
      obtain ⟨x, ⟨v, hv, rfl⟩, ws, hws, rfl⟩ := he
      by_cases hn : d.name = n
      · subst hn
        rw [List.find?_cons_of_pos (by simp)] at hc
        simp only [Option.some.injEq] at hc
        subst hc
        exact ⟨(v.typ, v.val), e, by simp, hv, hd⟩
      · rw [List.find?_cons_of_neg (by simpa using hn)] at hc
        obtain ⟨w, fe, h1, h2, h3⟩ := ih h hws hc
        refine ⟨w, fe, ?_, h2, h3⟩
        rw [List.lookup_cons]
        have : (n == d.name) = false := by rw [beq_eq_false_iff_ne]; exact fun h => hn h.symm
        simp [this, h1]

end Verif.Lemmas
