import Verif.Spec.Meaning
import Verif.Lemmas.TypeRules
import Verif.Lemmas.Sound
import Verif.Lemmas.ElabSound
import Verif.Props.Eval
/-!
The meaning of check expressions: what `evaluate` returns for an accepted expression is what
`Spec/Meaning.lean` says.
-/
namespace Verif.Lemmas
open Verif.Model Verif.Spec Verif.Props

variable {heap : Nat → Option Fields}

theorem mk_some {t : Ty} {v : Val} {x : TV} :
    mkValue (some t) v = .ok x ↔ v.isNull = false ∧ x = ⟨some t, v⟩ := by
  unfold mkValue
  cases h : v.isNull <;> simp [eq_comm]

theorem mk_none {v : Val} {x : TV} : mkValue none v = .ok x ↔ v.isNull = true ∧ x = ⟨none, v⟩ := by
  unfold mkValue
  cases h : v.isNull <;> simp [eq_comm]

theorem value_null : ∀ (e : FExpr) (v : Val), ValueOf heap e v → ((writtenTy e).isNone = v.isNull)
  | .inull, v, h | .bool _, v, h | .int _, v, h | .dec _, v, h | .str _, v, h | .markup _, v, h
  | .enum _ _, v, h => by
    simp only [ValueOf] at h; subst h; rfl
  | .neg e, v, h => by
    simp only [ValueOf] at h
    obtain ⟨w, hw, hn⟩ := h
    have := value_null e w hw
    simp only [writtenTy, this]
    rcases hn with ⟨_, rfl, rfl⟩ | ⟨_, rfl, rfl⟩ <;> rfl
  | .pos e, v, h => by
    simp only [ValueOf] at h
    have := value_null e v h.1
    simp only [writtenTy, this]
  | .arr t es, v, h => by
    simp only [ValueOf] at h
    obtain ⟨vs, -, rfl⟩ := h
    rfl
  | .tup t es, v, h => by
    simp only [ValueOf] at h
    obtain ⟨vs, -, rfl⟩ := h
    rfl
  | .ref t es, v, h => by
    simp only [ValueOf] at h
    obtain ⟨o, vs, -, -, rfl⟩ := h
    rfl

theorem minus_iff {t : Option Ty} {w : Val} {x : TV} (ht : t.isNone = w.isNull) :
    unary .minus t ⟨t, w⟩ = .ok x ↔ ∃ v, Negated w v ∧ x = ⟨t, v⟩ := by
  unfold unary
  cases w <;> cases t <;>
    simp [Val.isNull, unaryOp, mkValue, Negated, eq_comm] at ht ⊢

theorem plus_iff' {t : Option Ty} {w : Val} {x : TV} (ht : t.isNone = w.isNull) :
    unary .plus t ⟨t, w⟩ = .ok x ↔ IsNumber w ∧ x = ⟨t, w⟩ := by
  unfold unary
  cases w <;> cases t <;>
    simp [Val.isNull, unaryOp, mkValue, IsNumber, eq_comm] at ht ⊢

mutual
theorem value_iff : ∀ (e : FExpr) (x : TV),
    e.eval heap = .ok x ↔ ∃ v, ValueOf heap e v ∧ x = ⟨writtenTy e, v⟩
  | .inull, x => by simp [FExpr.eval, mk_none, ValueOf, writtenTy, Val.isNull]
  | .bool _, x | .int _, x | .dec _, x | .str _, x | .markup _, x | .enum _ _, x => by
    simp [FExpr.eval, mk_some, ValueOf, writtenTy, Val.isNull]
  | .neg e, x => by
    simp only [FExpr.eval, bind_eq_ok, ValueOf, writtenTy, value_iff e]
    constructor
    · rintro ⟨_, ⟨w, hw, rfl⟩, h⟩
      obtain ⟨v, hv, rfl⟩ := (minus_iff (value_null e w hw)).1 h
      exact ⟨v, ⟨w, hw, hv⟩, rfl⟩
    · rintro ⟨v, ⟨w, hw, hv⟩, rfl⟩
      exact ⟨_, ⟨w, hw, rfl⟩, (minus_iff (value_null e w hw)).2 ⟨v, hv, rfl⟩⟩
  | .pos e, x => by
    simp only [FExpr.eval, bind_eq_ok, ValueOf, writtenTy, value_iff e]
    constructor
    · rintro ⟨_, ⟨w, hw, rfl⟩, h⟩
      obtain ⟨hv, rfl⟩ := (plus_iff' (value_null e w hw)).1 h
      exact ⟨w, ⟨hw, hv⟩, rfl⟩
    · rintro ⟨w, ⟨hw, hv⟩, rfl⟩
      exact ⟨_, ⟨w, hw, rfl⟩, (plus_iff' (value_null e w hw)).2 ⟨hv, rfl⟩⟩
  | .arr t es, x => by
    simp only [FExpr.eval, bind_eq_ok, ValueOf, writtenTy, values_iff es, mk_some]
    constructor
    · rintro ⟨vs, h, -, rfl⟩; exact ⟨_, ⟨vs, h, rfl⟩, rfl⟩
    · rintro ⟨_, ⟨vs, h, rfl⟩, rfl⟩; exact ⟨vs, h, rfl, rfl⟩
  | .tup t es, x => by
    simp only [FExpr.eval, bind_eq_ok, ValueOf, writtenTy, fields_iff es, mk_some]
    constructor
    · rintro ⟨vs, h, -, rfl⟩; exact ⟨_, ⟨vs, h, rfl⟩, rfl⟩
    · rintro ⟨_, ⟨vs, h, rfl⟩, rfl⟩; exact ⟨vs, h, rfl, rfl⟩
  | .ref t target, x => by
    simp only [FExpr.eval, ValueOf, writtenTy]
    cases target with
    | none => simp
    | some o =>
      cases h : heap o with
      | none => simp [h]
      | some fs => simp [h, mk_some, Val.isNull]

theorem values_iff : ∀ (es : List FExpr) (vs : List (Option Ty × Val)),
    evalElems heap es = .ok vs ↔ ValuesOf heap es vs
  | [], vs => by simp [evalElems, ValuesOf, eq_comm]
  | e :: es, vs => by
    simp only [evalElems, bind_eq_ok, ValuesOf, value_iff e, values_iff es, Ev.ok.injEq]
    constructor
    · rintro ⟨_, ⟨v, hv, rfl⟩, ws, hw, rfl⟩; exact ⟨v, ws, hv, hw, rfl⟩
    · rintro ⟨v, ws, hv, hw, rfl⟩; exact ⟨_, ⟨v, hv, rfl⟩, ws, hw, rfl⟩

theorem fields_iff : ∀ (es : List (String × FExpr)) (vs : List (String × Option Ty × Val)),
    evalFields heap es = .ok vs ↔ FieldValuesOf heap es vs
  | [], vs => by simp [evalFields, FieldValuesOf, eq_comm]
  | e :: es, vs => by
    simp only [evalFields, bind_eq_ok, FieldValuesOf, field_iff e, fields_iff es, Ev.ok.injEq]
    constructor
    · rintro ⟨v, hv, ws, hw, rfl⟩; exact ⟨v, ws, hv, hw, rfl⟩
    · rintro ⟨v, ws, hv, hw, rfl⟩; exact ⟨v, hv, ws, hw, rfl⟩

theorem field_iff : ∀ (f : String × FExpr) (x : String × Option Ty × Val),
    evalField heap f = .ok x ↔ FieldValueOf heap f x
  | (n, e), x => by
    simp only [evalField, bind_eq_ok, FieldValueOf, value_iff e, Ev.ok.injEq]
    constructor
    · rintro ⟨_, ⟨v, hv, rfl⟩, rfl⟩; exact ⟨v, hv, rfl⟩
    · rintro ⟨v, hv, rfl⟩; exact ⟨_, ⟨v, hv, rfl⟩, rfl⟩
end

/-! ### Operators -/

variable {rx : List Char → List Char → Bool} {ctx : Ctx} {env : EvEnv}

theorem tv_eq {x : TV} {t : Option Ty} {v : Val} : x = ⟨t, v⟩ ↔ x.typ = t ∧ x.val = v := by
  cases x; simp

/-- `evaluate` of an expression with a unary operator -/
theorem gives_unary {t : Ty} {op : UnOp} {e : Expr} {v : Val} :
    Gives env ctx (.unary (some t) op e) v ↔
      ∃ w, Gives env ctx e w ∧ w.isNull = false ∧ ∃ x, unaryOp op (some t) w = .ok x ∧ x.val = v := by
  simp only [Gives, Expr.eval, bind_eq_ok, unary]
  constructor
  · rintro ⟨u, ⟨a, w⟩, he, h⟩
    split at h
    · cases h
    · next hn => exact ⟨w, ⟨a, he⟩, by simpa using hn, _, h, rfl⟩
  · rintro ⟨w, ⟨a, he⟩, hn, ⟨u, _⟩, h, rfl⟩
    exact ⟨u, ⟨a, w⟩, he, by simp [hn, h]⟩

/-- `evaluate` of an expression with a binary operator -/
theorem gives_binary {t : Option Ty} {op : BinOp} {l r : Expr} {v : Val} :
    Gives env ctx (.binary t op l r) v ↔
      ∃ a b, l.eval env ctx = .ok a ∧ r.eval env ctx = .ok b ∧
        (op.allowsNull = true ∨ (a.val.isNull = false ∧ b.val.isNull = false)) ∧
        ∃ x, binaryOp env.rx op t a b = .ok x ∧ x.val = v := by
  simp only [Gives, Expr.eval, bind_eq_ok]
  constructor
  · rintro ⟨u, a, ha, h⟩
    split at h
    · cases h
    · next hn =>
      rw [bind_eq_ok] at h
      obtain ⟨b, hb, h⟩ := h
      split at h
      · cases h
      · next hm =>
        refine ⟨a, b, ha, hb, ?_, _, h, rfl⟩
        simp only [Bool.and_eq_true, Bool.not_eq_true', not_and, Bool.not_eq_false] at hn hm
        cases ho : op.allowsNull
        · right
          constructor
          · cases hx : a.val.isNull
            · rfl
            · exact absurd (hn hx) (by simp [ho])
          · cases hx : b.val.isNull
            · rfl
            · exact absurd (hm hx) (by simp [ho])
        · exact Or.inl rfl
  · rintro ⟨a, b, ha, hb, ho, ⟨u, _⟩, h, rfl⟩
    refine ⟨u, a, ha, ?_⟩
    rw [if_neg (by rcases ho with ho | ho <;> simp [ho]), bind_eq_ok]
    exact ⟨b, hb, by rw [if_neg (by rcases ho with ho | ho <;> simp [ho]), h]⟩

/-- the same for operators that look at the values of their operands only -/
theorem gives_binary_vals {t : Option Ty} {op : BinOp} {l r : Expr} {v : Val} {P : Val → Val → Prop}
    (hP : ∀ a b : TV, ((op.allowsNull = true ∨ (a.val.isNull = false ∧ b.val.isNull = false)) ∧
      ∃ x, binaryOp env.rx op t a b = .ok x ∧ x.val = v) ↔ P a.val b.val) :
    Gives env ctx (.binary t op l r) v ↔
      ∃ a b, Gives env ctx l a ∧ Gives env ctx r b ∧ P a b := by
  rw [gives_binary]
  constructor
  · rintro ⟨a, b, ha, hb, h⟩
    exact ⟨a.val, b.val, ⟨_, ha⟩, ⟨_, hb⟩, (hP a b).1 h⟩
  · rintro ⟨a, b, ⟨t, ha⟩, ⟨u, hb⟩, h⟩
    exact ⟨_, _, ha, hb, (hP _ _).2 h⟩

theorem numPair_iff {a b : Val} {p : NumPair} :
    numPair a b = some p ↔ (∃ i j, a = .int i ∧ b = .int j ∧ p = .ints i j) ∨
      (∃ i j, a = .dec i ∧ b = .dec j ∧ p = .decs i j) := by
  cases a <;> cases b <;> simp [numPair, eq_comm]

theorem floor_unique {q : Rat} {m n : Int} (h1 : (m : Rat) ≤ q) (h2 : q < m + 1) (h3 : (n : Rat) ≤ q)
    (h4 : q < n + 1) : m = n := by
  have a : (m : Rat) < ((n + 1 : Int) : Rat) := by push_cast; linarith
  have b : (n : Rat) < ((m + 1 : Int) : Rat) := by push_cast; linarith
  have a' : m < n + 1 := by exact_mod_cast a
  have b' : n < m + 1 := by exact_mod_cast b
  omega

/-- the binary operator of an arithmetic operator -/
def arOp : ArOp → BinOp
  | .plus => .plus
  | .minus => .minus
  | .times => .times
  | .divide => .divide
  | .remainder => .remainder

theorem arith_means {op : ArOp} {t : Ty} {a b : TV} {v : Val} :
    (((arOp op).allowsNull = true ∨ (a.val.isNull = false ∧ b.val.isNull = false)) ∧
      ∃ x, binaryOp rx (arOp op) (some t) a b = .ok x ∧ x.val = v) ↔ ArithMeans op a.val b.val v := by
  obtain ⟨ta, a⟩ := a
  obtain ⟨tb, b⟩ := b
  cases op
  case plus | minus | times =>
    cases a <;> cases b <;>
      simp [arOp, BinOp.allowsNull, binaryOp, arith, numPair, mkValue, ArithMeans, Val.isNull, eq_comm]
  case divide =>
    cases a <;> cases b <;>
      simp [arOp, BinOp.allowsNull, binaryOp, numPair, mkValue, ArithMeans, Val.isNull]
    case int.int i j =>
      by_cases hj : j = 0
      · simp [pyFloorDiv, hj]
      · obtain ⟨q, hq, h1, h2⟩ := C24_floor_division i j hj
        rw [hq]
        simp only [Ev.ok.injEq, exists_eq_left', hj, not_false_iff, true_and]
        constructor
        · rintro rfl; exact ⟨q, h1, h2, rfl⟩
        · rintro ⟨n, h3, h4, rfl⟩; rw [floor_unique h1 h2 h3 h4]
    case dec.dec p q =>
      by_cases hj : q = 0 <;> simp [hj, eq_comm]
  case remainder =>
    cases a <;> cases b <;>
      simp [arOp, BinOp.allowsNull, binaryOp, mkValue, ArithMeans, Val.isNull]
    case int.int i j =>
      by_cases hj : j = 0
      · have := (C08_remainder_zero i j).2 hj
        rw [this]
        simp [hj]
      · obtain ⟨q, hq, h1, h2, -⟩ := C08_remainder_is_truncating i j hj
        rw [hq]
        simp only [Ev.ok.injEq, exists_eq_left', hj, not_false_iff, true_and]
        constructor
        · rintro rfl; exact ⟨q, h1, rfl⟩
        · rintro ⟨n, h3, rfl⟩; rw [h2 n h3]

theorem cmp_means {op : CmpOp} {a b : TV} {v : Val} :
    ((op.op.allowsNull = true ∨ (a.val.isNull = false ∧ b.val.isNull = false)) ∧
      ∃ x, binaryOp rx op.op (some .bool) a b = .ok x ∧ x.val = v) ↔ CmpMeans op a.val b.val v := by
  obtain ⟨ta, a⟩ := a
  obtain ⟨tb, b⟩ := b
  have key : ∀ (P : Rat → Rat → Prop) (x y : Rat) [Decidable (P x y)],
      Val.bool (decide (P x y)) = v ↔ ∃ d, v = Val.bool d ∧ (d = true ↔ P x y) := by
    intro P x y _
    constructor
    · rintro rfl; exact ⟨_, rfl, by simp⟩
    · rintro ⟨d, rfl, h⟩
      congr 1
      rw [Bool.eq_iff_iff, decide_eq_true_iff, h]
  cases op
  case eq | neq =>
    simp only [CmpOp.op, BinOp.allowsNull, binaryOp, CmpMeans, mk_some, Val.isNull, true_or, true_and]
    constructor
    · rintro ⟨_, rfl, rfl⟩; rfl
    · rintro rfl; exact ⟨_, rfl, rfl⟩
  all_goals
    cases a <;> cases b <;>
      simp only [CmpOp.op, BinOp.allowsNull, binaryOp, CmpMeans, mk_some, Val.isNull, numPair,
        compareNum, SameNumbers, reduceCtorEq, false_and, and_false, exists_false, exists_const,
        or_self, Bool.false_eq_true, true_and, and_self, or_true, false_or, or_false,
        exists_eq_left, Val.int.injEq, Val.dec.injEq]
  case lt.int.int i j => simpa using key (· < ·) (i : Rat) (j : Rat)
  case leq.int.int i j => simpa using key (· ≤ ·) (i : Rat) (j : Rat)
  case gt.int.int i j => simpa using key (· > ·) (i : Rat) (j : Rat)
  case geq.int.int i j => simpa using key (· ≥ ·) (i : Rat) (j : Rat)
  case lt.dec.dec i j => simpa using key (· < ·) i j
  case leq.dec.dec i j => simpa using key (· ≤ ·) i j
  case gt.dec.dec i j => simpa using key (· > ·) i j
  case geq.dec.dec i j => simpa using key (· ≥ ·) i j

/-! ### Inversion of the constructors -/

variable {D : Decls}

theorem mkField_inv {p x : Expr} {f : String} (h : mkField D p f = .ok x) : ∃ t, x = .field p f t := by
  unfold mkField at h
  repeat' split at h
  all_goals first
    | cases h; done
    | (rw [el_bind_ok] at h; obtain ⟨-, -, h⟩ := h; cases h; exact ⟨_, rfl⟩)
    | (cases h; exact ⟨_, rfl⟩)

theorem mkIndex_inv {p i x : Expr} (h : mkIndex D p i = .ok x) :
    ∃ id elem lo hi, p.typ = some (.arr id elem lo hi) ∧ x = .binary (some elem) .index p i := by
  unfold mkIndex at h
  split at h
  · next hp => exact ⟨_, _, _, _, hp, (mkBinary_iff.1 h).1⟩
  · cases h

theorem mkArith_inv {op : ArOp} {l r x : Expr} (h : mkArith D op l r = .ok x) :
    ∃ t, x = .binary (some t) (arOp op) l r := by
  obtain ⟨a, b, c, ha, -, -, hc⟩ := (mkArith_iff (t := x.typ)).1 ⟨x, h, rfl⟩
  cases op <;> simp only [mkArith, mkBinary_iff] at h <;> obtain ⟨rfl, -⟩ := h <;>
    (rw [binary_typ] at hc; rw [hc]; exact ⟨c, rfl⟩)

theorem mkPower_inv {l r x : Expr} (h : mkPower D rx l r = .ok x) :
    ∃ t i u, x = .binary (some t) .power l r ∧
      r.eval ⟨fun _ => none, rx⟩ none = .ok ⟨u, .int i⟩ ∧ 0 ≤ i := by
  obtain ⟨⟨a, ha, -, -⟩, -, i, u, h1, h2⟩ := (mkPower_iff (t := x.typ)).1 ⟨x, h, rfl⟩
  refine ⟨a, i, u, ?_, h1, h2⟩
  simp only [mkPower, el_bind_ok, mkBinary_iff] at h
  obtain ⟨v, -, y, ⟨rfl, -⟩, h⟩ := h
  split at h
  · split at h
    · cases h
    · cases h; rw [ha]
  · cases h

theorem mkIn_inv {e a x : Expr} (h : mkIn D e a = .ok x) :
    (∃ t, a.typ = some t ∧ StrTy t ∧ x = .binary (some .bool) .strContains e a) ∨
    (∃ xt id elem lo hi, e.typ = some xt ∧ a.typ = some (.arr id elem lo hi) ∧
      x = .binary (some .bool) .arrContains e a) := by
  unfold mkIn at h
  split at h
  · cases h
  · next t ht =>
    split at h
    · next hs => exact Or.inl ⟨t, ht, inst_str.1 hs, (mkBinary_iff.1 h).1⟩
    · split at h
      · obtain ⟨rfl, h'⟩ := mkBinary_iff.1 h
        obtain ⟨xt, id, elem, lo, hi, h1, h2, -⟩ := arrContains_iff.1 h'
        exact Or.inr ⟨xt, id, elem, lo, hi, h1, h2, rfl⟩
      · cases h

theorem mkLogical_inv {op : LogOp} {l r x : Expr} (h : mkLogical D op l r = .ok x) :
    (op = .and ∧ x = .logic .and l r) ∨ (op = .or ∧ x = .logic .or l r) ∨
    (op = .implies ∧ x = .logic .implies l r) ∨ (op = .xor ∧ x = .binary (some .bool) .xor l r) := by
  cases op <;> simp only [mkLogical, mkLogic, el_bind_ok, mkBinary_iff, El.ok.injEq] at h
  case xor => exact Or.inr (Or.inr (Or.inr ⟨rfl, h.1⟩))
  all_goals obtain ⟨-, -, -, -, rfl⟩ := h; simp

/-! ### Evaluation and meaning -/

theorem gives_not {neg : Bool} {x y : Expr} {Q : Bool → Prop} {v : Val}
    (hx : ∀ v, Gives env ctx x v ↔ ∃ d, Q d ∧ v = .bool d) (h : mkNot neg x = .ok y) :
    Gives env ctx y v ↔ ∃ d, Q d ∧ MaybeNot neg d v := by
  unfold mkNot at h
  unfold MaybeNot
  split at h
  · next hn =>
    obtain ⟨rfl, -⟩ := mkUnary_iff.1 h
    simp only [gives_unary, hx, hn, if_true]
    constructor
    · rintro ⟨w, ⟨d, hd, rfl⟩, -, x, h, rfl⟩
      simp only [unaryOp, mk_some] at h
      exact ⟨d, hd, by rw [h.2]⟩
    · rintro ⟨d, hd, rfl⟩
      exact ⟨_, ⟨d, hd, rfl⟩, rfl, ⟨_, _⟩, mk_some.2 ⟨rfl, rfl⟩, rfl⟩
  · next hn =>
    cases h
    simp only [hx, hn, Bool.false_eq_true, if_false]

theorem quant_means {u : Bool} {f : FExpr → Ev TV} {es : List FExpr} {v : Val} :
    (∃ t, quantLoop u f es = .ok ⟨t, v⟩) ↔ QuantMeans u (fun b w => ∃ t, f b = .ok ⟨t, w⟩) es v := by
  unfold QuantMeans
  induction es with
  | nil =>
    simp only [quantLoop, mk_some, Val.isNull, true_and]
    constructor
    · rintro ⟨t, h⟩; cases h; exact Or.inl ⟨by simp, rfl⟩
    · rintro (⟨-, rfl⟩ | ⟨pre, e, post, h, -⟩)
      · exact ⟨_, rfl⟩
      · simp at h
  | cons b bs ih =>
    simp only [quantLoop, bind_eq_ok]
    constructor
    · rintro ⟨t, ⟨r, w⟩, hb, h⟩
      split at h
      · next d hd =>
        simp only at hd
        subst hd
        by_cases hdu : d = u
        · subst hdu
          rw [if_neg (by cases d <;> simp), if_neg (by cases d <;> simp)] at h
          rcases ih.1 ⟨t, h⟩ with ⟨h1, rfl⟩ | ⟨pre, e, post, rfl, h1, h2, rfl⟩
          · refine Or.inl ⟨?_, rfl⟩
            intro e he
            rcases List.mem_cons.1 he with rfl | he
            · exact ⟨_, hb⟩
            · exact h1 e he
          · refine Or.inr ⟨b :: pre, e, post, rfl, ?_, h2, rfl⟩
            intro e he
            rcases List.mem_cons.1 he with rfl | he
            · exact ⟨_, hb⟩
            · exact h1 e he
        · have hd : d = !u := by cases d <;> cases u <;> simp at hdu ⊢
          subst hd
          have hv : v = .bool !u := by
            cases u <;> simp [mk_some, Val.isNull] at h <;> exact h.2
          exact Or.inr ⟨[], b, bs, rfl, by simp, ⟨_, hb⟩, hv⟩
      · cases h
    · rintro (⟨h1, rfl⟩ | ⟨pre, e, post, h, h1, h2, rfl⟩)
      · obtain ⟨r, hb⟩ := h1 b (by simp)
        obtain ⟨t, h⟩ := ih.2 (Or.inl ⟨fun e he => h1 e (by simp [he]), rfl⟩)
        refine ⟨t, _, hb, ?_⟩
        cases u <;> simpa using h
      · cases pre with
        | nil =>
          simp only [List.nil_append, List.cons.injEq] at h
          obtain ⟨rfl, rfl⟩ := h
          obtain ⟨r, hb⟩ := h2
          refine ⟨some .bool, _, hb, ?_⟩
          cases u <;> simp [mk_some, Val.isNull]
        | cons a pre =>
          simp only [List.cons_append, List.cons.injEq] at h
          obtain ⟨rfl, rfl⟩ := h
          obtain ⟨r, hb⟩ := h1 b (by simp)
          obtain ⟨t, h⟩ := ih.2 (Or.inr ⟨pre, e, post, rfl, fun e he => h1 e (by simp [he]), h2, rfl⟩)
          refine ⟨t, _, hb, ?_⟩
          cases u <;> simpa using h

theorem quant_congr {u : Bool} {P Q : FExpr → Val → Prop} {es : List FExpr} {v : Val}
    (h : ∀ b ∈ es, ∀ w, P b w ↔ Q b w) : QuantMeans u P es v ↔ QuantMeans u Q es v := by
  unfold QuantMeans
  constructor
  · rintro (⟨h1, h2⟩ | ⟨pre, e, post, rfl, h1, h2, h3⟩)
    · exact Or.inl ⟨fun e he => (h e he _).1 (h1 e he), h2⟩
    · exact Or.inr ⟨pre, e, post, rfl, fun a ha => (h a (by simp [ha]) _).1 (h1 a ha),
        (h e (by simp) _).1 h2, h3⟩
  · rintro (⟨h1, h2⟩ | ⟨pre, e, post, rfl, h1, h2, h3⟩)
    · exact Or.inl ⟨fun e he => (h e he _).2 (h1 e he), h2⟩
    · exact Or.inr ⟨pre, e, post, rfl, fun a ha => (h a (by simp [ha]) _).2 (h1 a ha),
        (h e (by simp) _).2 h2, h3⟩

theorem countTrue_zero {vs : List Val} (hv : ∀ v ∈ vs, v.pyEq (.bool true) = true ↔ v = .bool true) :
    countTrue vs = 0 ↔ Val.bool true ∉ vs := by
  induction vs with
  | nil => simp [countTrue]
  | cons v vs ih =>
    have h1 := hv v (by simp)
    have h2 := ih fun v h => hv v (by simp [h])
    simp only [countTrue, List.mem_cons, not_or, Nat.add_eq_zero_iff, h2]
    by_cases h : v = .bool true
    · have := h1.2 h
      subst h
      simp [this]
    · have : v.pyEq (.bool true) = false := by
        cases hp : v.pyEq (.bool true)
        · rfl
        · exact absurd (h1.1 hp) h
      simp [this, Ne.symm h]

theorem countTrue_one {vs : List Val} (hv : ∀ v ∈ vs, v.pyEq (.bool true) = true ↔ v = .bool true) :
    countTrue vs = 1 ↔
      ∃ pre post, vs = pre ++ .bool true :: post ∧ Val.bool true ∉ pre ∧ Val.bool true ∉ post := by
  induction vs with
  | nil => simp [countTrue]
  | cons v vs ih =>
    have h1 := hv v (by simp)
    have hvs : ∀ v ∈ vs, v.pyEq (.bool true) = true ↔ v = .bool true := fun v h => hv v (by simp [h])
    have h2 := ih hvs
    by_cases h : v = .bool true
    · have : countTrue (v :: vs) = 1 ↔ countTrue vs = 0 := by
        simp [countTrue, h1.2 h]
      rw [this, countTrue_zero hvs]
      constructor
      · intro hn; exact ⟨[], vs, by simp [h], by simp, hn⟩
      · rintro ⟨pre, post, he, hp, hq⟩
        cases pre with
        | nil => simp only [List.nil_append, List.cons.injEq] at he; rw [he.2]; exact hq
        | cons a pre =>
          simp only [List.cons_append, List.cons.injEq] at he
          exact absurd (by simp [← he.1, h]) hp
    · have hf : v.pyEq (.bool true) = false := by
        cases hp : v.pyEq (.bool true)
        · rfl
        · exact absurd (h1.1 hp) h
      have : countTrue (v :: vs) = 1 ↔ countTrue vs = 1 := by simp [countTrue, hf]
      rw [this, h2]
      constructor
      · rintro ⟨pre, post, rfl, hp, hq⟩
        exact ⟨v :: pre, post, rfl, by simp [hp, Ne.symm h], hq⟩
      · rintro ⟨pre, post, he, hp, hq⟩
        cases pre with
        | nil => simp only [List.nil_append, List.cons.injEq] at he; exact absurd he.1 h
        | cons a pre =>
          simp only [List.cons_append, List.cons.injEq] at he
          exact ⟨pre, post, he.2, fun hm => hp (by simp [hm]), hq⟩

theorem infix_iff (s t : List Char) : isInfix s t = true ↔ ∃ p q, t = p ++ s ++ q := by
  induction t with
  | nil =>
    simp only [isInfix, List.isEmpty_iff]
    constructor
    · rintro rfl; exact ⟨[], [], rfl⟩
    · rintro ⟨p, q, h⟩
      simp only [List.nil_eq, List.append_eq_nil_iff] at h
      exact h.1.2
  | cons c t ih =>
    simp only [isInfix, Bool.or_eq_true, ih, List.isPrefixOf_iff_prefix]
    constructor
    · rintro (⟨q, h⟩ | ⟨p, q, rfl⟩)
      · exact ⟨[], q, by simpa using h.symm⟩
      · exact ⟨c :: p, q, by simp⟩
    · rintro ⟨p, q, h⟩
      cases p with
      | nil => exact Or.inl ⟨q, by simpa using h.symm⟩
      | cons a p =>
        simp only [List.cons_append, List.cons.injEq] at h
        exact Or.inr ⟨p, q, h.2⟩

end Verif.Lemmas
