import Verif.Lemmas.PyEq
import Verif.Lemmas.Typing
import Verif.Props.Frame
import Verif.Props.Soundness
/-!
# C25: array membership, C60: `==` is an equivalence relation
-/
namespace Verif.Props
open Verif.Model Verif.Spec Verif.Lemmas

/-- No tuple type has two fields of the same name, no object two entries of the same name. -/
def NamesOnce (D : Decls) (heap : Nat → Option Fields) : Prop :=
  (∀ (t : Nat) (cs : List Comp), D.tups[t]? = some cs → (cs.map (·.name)).Nodup) ∧
  (∀ (o : Nat) (fs : Fields), heap o = some fs → (fs.map (·.1)).Nodup)

section
variable {D : Decls} {objTy : Nat → Option Nat} {heap : Nat → Option Fields}
  (hn : NamesOnce D heap)
include hn

private theorem keysOnce_simple {v : Val} (h : Simple v) : KeysOnce v := by
  cases v <;> simp_all [Simple, KeysOnce]

mutual
private theorem fok_once : (fe : FExpr) → (τ : Ty) → FOk D objTy fe τ → (v : TV) →
    fe.eval heap = .ok v → KeysOnce v.val
  | .inull, _, h, _, _ => by simp [FOk] at h
  | .bool _, _, _, v, h | .int _, _, _, v, h | .dec _, _, _, v, h | .str _, _, _, v, h
  | .markup _, _, _, v, h | .enum _ _, _, _, v, h => by
    simp only [FExpr.eval, mkValue_eq_ok] at h
    obtain ⟨-, rfl⟩ := h
    simp [KeysOnce]
  | .neg e, _, _, v, h => by
    simp only [FExpr.eval, bind_eq_ok] at h
    obtain ⟨_, _, h⟩ := h
    exact keysOnce_simple hn (unary_simple h)
  | .pos e, _, _, v, h => by
    simp only [FExpr.eval, bind_eq_ok] at h
    obtain ⟨_, _, h⟩ := h
    exact keysOnce_simple hn (unary_simple h)
  | .arr t es, τ, hok, v, h => by
    simp only [FExpr.eval, bind_eq_ok, mkValue_eq_ok] at h
    obtain ⟨vs, h, -, rfl⟩ := h
    simp only [FOk] at hok
    obtain ⟨-, _, elem, _, _, -, hok⟩ := hok
    simp only [KeysOnce]
    exact elems_once es elem hok vs h
  | .tup t fs, τ, hok, v, h => by
    simp only [FExpr.eval, bind_eq_ok, mkValue_eq_ok] at h
    obtain ⟨vs, h, -, rfl⟩ := h
    simp only [FOk] at hok
    obtain ⟨-, cs, hcs, hok⟩ := hok
    simp only [KeysOnce]
    have := fields_once fs cs hok vs h
    exact ⟨this.1 ▸ hn.1 t cs hcs, this.2⟩
  | .ref t none, τ, _, v, h => by simp [FExpr.eval] at h
  | .ref t (some o), τ, _, v, h => by
    simp only [FExpr.eval] at h
    cases e : heap o with
    | none => simp [e] at h
    | some fs =>
      simp only [e, mkValue_eq_ok] at h
      obtain ⟨-, rfl⟩ := h
      simpa [KeysOnce] using hn.2 o fs e
private theorem elems_once : (es : List FExpr) → (τ : Ty) → AllOk D objTy es τ →
    (vs : List (Option Ty × Val)) → evalElems heap es = .ok vs → KeysOnceL vs
  | [], _, _, vs, h => by cases h; simp [KeysOnceL]
  | e :: es, τ, hok, vs, h => by
    simp only [evalElems, bind_eq_ok] at h
    obtain ⟨v, hv, ws, hws, h⟩ := h
    cases h
    exact ⟨fok_once e τ hok.1 v hv, elems_once es τ hok.2 ws hws⟩
private theorem fields_once : (fs : List (String × FExpr)) → (cs : List Comp) →
    FieldsOk D objTy fs cs → (vs : List (String × Option Ty × Val)) →
    evalFields heap fs = .ok vs → cs.map (·.name) = vs.map (·.1) ∧ KeysOnceF vs
  | [], [], _, vs, h => by cases h; simp [KeysOnceF]
  | [], _ :: _, hok, _, _ => by simp [FieldsOk] at hok
  | _ :: _, [], hok, _, _ => by simp [FieldsOk] at hok
  | f :: fs, c :: cs, hok, vs, h => by
    simp only [evalFields, bind_eq_ok] at h
    obtain ⟨v, hv, ws, hws, h⟩ := h
    cases h
    have h1 := field_once f c hok.1 v hv
    have h2 := fields_once fs cs hok.2 ws hws
    exact ⟨by simp [h1.1, h2.1], h1.2, h2.2⟩
private theorem field_once : (f : String × FExpr) → (c : Comp) → FieldOk D objTy f c →
    (v : String × Option Ty × Val) → evalField heap f = .ok v → c.name = v.1 ∧ KeysOnceG v
  | (n, e), c, hok, v, h => by
    simp only [evalField, bind_eq_ok] at h
    obtain ⟨w, hw, h⟩ := h
    cases h
    simp only [FieldOk] at hok
    refine ⟨hok.1.symm, ?_⟩
    rcases hok.2 with ⟨-, rfl⟩ | hok
    · simp only [FExpr.eval, mkValue_eq_ok] at hw
      obtain ⟨-, rfl⟩ := hw
      simp [KeysOnceG, KeysOnceT, KeysOnce]
    · exact fok_once e c.ty hok w hw
end

/-- a value of a type has no dictionary with a key twice -/
private theorem vt_once {τ : Ty} {v : Val} (h : VT D objTy heap τ v) : KeysOnce v := by
  unfold VT at h
  split at h
  all_goals first
    | (obtain ⟨_, rfl⟩ := h; simp [KeysOnce]; done)
    | (obtain ⟨fe, h1, h2⟩ := h; exact fok_once hn fe _ h1 _ h2)

/-- `a == b` as a check expression -/
def eqExpr (a b : Expr) : Expr := .binary (some .bool) .eq a b

omit hn in
private theorem eqExpr_eval {env : EvEnv} {ctx : Ctx} {a b : Expr} {ta tb : Option Ty} {u v : Val}
    (ha : a.eval env ctx = .ok ⟨ta, u⟩) (hb : b.eval env ctx = .ok ⟨tb, v⟩) :
    (eqExpr a b).eval env ctx = .ok ⟨some .bool, .bool (u.pyEq v)⟩ := by
  simp [eqExpr, Expr.eval, ha, hb, Ev.bind, BinOp.allowsNull, binaryOp, mkValue, Val.isNull]

/-- **C60**: on expressions whose values are values of some types (null included), `==` is
reflexive, symmetric and transitive, and `!=` is its negation. -/
theorem C60_equivalence {env : EvEnv} {ctx : Ctx} (a b c : Expr) {ta tb tc : Option Ty}
    {u v w : Val} (ha : a.eval env ctx = .ok ⟨ta, u⟩) (hb : b.eval env ctx = .ok ⟨tb, v⟩)
    (hc : c.eval env ctx = .ok ⟨tc, w⟩) (hu : u = .null ∨ ∃ τ, VT D objTy heap τ u)
    (hv : v = .null ∨ ∃ τ, VT D objTy heap τ v) :
    (eqExpr a a).eval env ctx = .ok ⟨some .bool, .bool true⟩ ∧
    (eqExpr a b).eval env ctx = (eqExpr b a).eval env ctx ∧
    ((eqExpr a b).eval env ctx = .ok ⟨some .bool, .bool true⟩ →
      (eqExpr b c).eval env ctx = .ok ⟨some .bool, .bool true⟩ →
      (eqExpr a c).eval env ctx = .ok ⟨some .bool, .bool true⟩) ∧
    (Expr.binary (some .bool) .neq a b).eval env ctx =
      (Expr.unary (some .bool) .logicalNot (eqExpr a b)).eval env ctx := by
  have once : ∀ x : Val, (x = .null ∨ ∃ τ, VT D objTy heap τ x) → KeysOnce x := by
    rintro x (rfl | ⟨τ, h⟩)
    · simp [KeysOnce]
    · exact vt_once hn h
  refine ⟨?_, ?_, ?_, ?_⟩
  · rw [eqExpr_eval ha ha, pyEq_refl u (once u hu)]
  · rw [eqExpr_eval ha hb, eqExpr_eval hb ha]
    have : u.pyEq v = v.pyEq u := by
      rw [Bool.eq_iff_iff]
      exact ⟨pyEq_symm u v (once u hu) (once v hv), pyEq_symm v u (once v hv) (once u hu)⟩
    rw [this]
  · rw [eqExpr_eval ha hb, eqExpr_eval hb hc, eqExpr_eval ha hc]
    simp only [Ev.ok.injEq, TV.mk.injEq, Val.bool.injEq, true_and]
    exact pyEq_trans u v w
  · rw [Expr.eval, eqExpr_eval ha hb]
    simp [Expr.eval, ha, hb, Ev.bind, BinOp.allowsNull, binaryOp, mkValue, Val.isNull, unary,
      unaryOp]

private theorem in_loop (hh : HeapOk D objTy heap) {elem : Ty} {v : Val}
    (hv : VT D objTy heap elem v) (f : FExpr → Ev TV) (ng : Bool) :
    ∀ (es : List FExpr), AllOk D objTy es elem →
    (∀ b ∈ es, ∀ w, b.eval heap = .ok ⟨some elem, w⟩ →
      f b = .ok ⟨some .bool, .bool (if ng then !w.pyEq v else w.pyEq v)⟩) →
    ∀ vs, evalElems heap es = .ok vs →
    quantLoop ng f es = .ok ⟨some .bool, .bool
      (if ng then !vs.any (fun e => eqTV (some elem, v) e)
        else vs.any (fun e => eqTV (some elem, v) e))⟩
  | [], _, _, vs, h => by
    cases h
    cases ng <;> simp [quantLoop, mkValue, Val.isNull]
  | b :: bs, hok, hf, vs, h => by
    simp only [evalElems, bind_eq_ok] at h
    obtain ⟨w, hw, ws, hws, h⟩ := h
    cases h
    obtain ⟨w', hw', -⟩ := fok_eval hh b elem hok.1
    rw [hw] at hw'
    cases hw'
    have ih := in_loop hh hv f ng bs hok.2 (fun b hb => hf b (List.mem_cons_of_mem _ hb)) ws hws
    have hb := hf b List.mem_cons_self w' hw
    have hsym : w'.pyEq v = v.pyEq w' := by
      have hw1 : KeysOnce w' := fok_once hn b elem hok.1 _ hw
      rw [Bool.eq_iff_iff]
      exact ⟨pyEq_symm _ _ hw1 (vt_once hn hv), pyEq_symm _ _ (vt_once hn hv) hw1⟩
    simp only [quantLoop, hb, Ev.bind, List.any_cons, eqTV, beq_self_eq_true, Bool.true_and, hsym]
    cases ng <;> cases v.pyEq w' <;>
      simp only [Bool.not_true, Bool.not_false, Bool.and_true, Bool.and_false, Bool.true_or,
        Bool.false_or, if_true, if_false, Bool.false_eq_true] <;>
      first
        | (simp [mkValue, Val.isNull]; done)
        | simpa using ih

/-- **C25, when both types agree**: `A` is a component with conforming elements of type `elem`;
`x` is an expression that has a value of the same type and does not mention the variable `i`.
Then `x in A` and `(exists i in A => i == x)` have the same result, and so have `x not in A` and
`(forall i in A => i != x)`.

Missing from C25: `x` null (`C25_null`) and `x` of a different type than the elements, which
`in` accepts if the two types belong to the same class of types (`C25_unions`). -/
theorem C25_partial (hh : HeapOk D objTy heap) (rx : List Char → List Char → Bool)
    (c : List (String × FExpr)) (src i : String) (id : Nat) (elem : Ty) (lo : Nat)
    (hi : Option Nat) (es : List FExpr)
    (hsrc : c.lookup src = some (.arr (.arr id elem lo hi) es)) (hes : AllOk D objTy es elem)
    (x : Expr) (v : Val) (hx : x.eval ⟨heap, rx⟩ (some c) = .ok ⟨some elem, v⟩)
    (hnn : v.isNull = false) (hv : VT D objTy heap elem v) (him : ¬ Mentions i x) :
    let A : Expr := .name src (.arr id elem lo hi)
    let isIn : Expr := .binary (some .bool) .arrContains x A
    isIn.eval ⟨heap, rx⟩ (some c) =
      (Expr.quant false i src (.binary (some .bool) .eq (.name i elem) x)).eval ⟨heap, rx⟩ (some c) ∧
    (Expr.unary (some .bool) .logicalNot isIn).eval ⟨heap, rx⟩ (some c) =
      (Expr.quant true i src (.binary (some .bool) .neq (.name i elem) x)).eval ⟨heap, rx⟩
        (some c) ∧
    ∃ b, isIn.eval ⟨heap, rx⟩ (some c) = .ok ⟨some .bool, .bool b⟩ := by
  intro A isIn
  obtain ⟨vs, hvs⟩ : ∃ vs, evalElems heap es = .ok vs := by
    obtain ⟨w, hw, -⟩ := fok_eval hh (.arr (.arr id elem lo hi) es) (.arr id elem lo hi)
      (by simp only [FOk]; exact ⟨trivial, id, elem, lo, hi, rfl, hes⟩)
    simp only [FExpr.eval, bind_eq_ok] at hw
    obtain ⟨vs, h, -⟩ := hw
    exact ⟨vs, h⟩
  have hA : A.eval ⟨heap, rx⟩ (some c) = .ok ⟨some (.arr id elem lo hi), .arr vs⟩ := by
    simp [A, Expr.eval, hsrc, FExpr.eval, hvs, Ev.bind, mkValue, Val.isNull]
  have hin : isIn.eval ⟨heap, rx⟩ (some c) =
      .ok ⟨some .bool, .bool (vs.any fun e => eqTV (some elem, v) e)⟩ := by
    simp only [isIn, Expr.eval, hx, hA, Ev.bind]
    have : (Val.arr vs).isNull = false := rfl
    simp only [hnn, this, Bool.false_and, Bool.false_eq_true, if_false, binaryOp]
    simp [mkValue, Val.isNull]
  have hxb : ∀ b, x.eval ⟨heap, rx⟩ (some ((i, b) :: c)) = .ok ⟨some elem, v⟩ := by
    intro b
    rw [← hx]
    refine C51_mentioned_only _ _ _ x fun n hn' => ?_
    have : (n == i) = false := by
      rw [beq_eq_false_iff_ne]; rintro rfl; exact him hn'
    simp [List.lookup_cons, this]
  refine ⟨?_, ?_, _, hin⟩
  · rw [hin]
    simp only [Expr.eval, hsrc]
    rw [in_loop hn hh hv _ false es hes ?_ vs hvs]
    · simp
    · intro b _ w hw
      simp [hw, hxb, Ev.bind, BinOp.allowsNull, binaryOp, mkValue, Val.isNull]
  · have : (Expr.unary (some .bool) .logicalNot isIn).eval ⟨heap, rx⟩ (some c) =
        .ok ⟨some .bool, .bool (!vs.any fun e => eqTV (some elem, v) e)⟩ := by
      simp only [Expr.eval, hin, Ev.bind, unary]
      simp [Val.isNull, unaryOp, mkValue]
    rw [this]
    simp only [Expr.eval, hsrc]
    rw [in_loop hn hh hv _ true es hes ?_ vs hvs]
    · simp
    · intro b _ w hw
      simp [hw, hxb, Ev.bind, BinOp.allowsNull, binaryOp, mkValue, Val.isNull]
end

/-- `type T { a Boolean [0 .. *]   b optional Boolean }` -/
def nullDecls : Decls :=
  { recs := [⟨none, [⟨"a", .arr 0 .bool 0 none, false, .record 0⟩, ⟨"b", .bool, true, .record 0⟩]⟩],
    tups := [], enums := [] }

/-- `T x { a = [true] }` -/
def nullObj : Fields :=
  [("a", ⟨0, .arr (.arr 0 .bool 0 none) [.bool true]⟩), ("b", ⟨1, .inull⟩)]

/-- **C25 is violated for null**: `b in a` is an error, `(exists i in a => i == b)` is false. -/
theorem C25_null : ∃ e e',
    (Raw.isIn false (.name "b") (.name "a")).elab (envOf nullDecls) (scopeOf nullDecls 0) = .ok e ∧
    (Raw.quant false "i" "a" (.cmp .eq (.name "i") (.name "b"))).elab (envOf nullDecls)
      (scopeOf nullDecls 0) = .ok e' ∧
    e.eval ⟨one nullObj, fun _ _ => false⟩ (some (recordCtx nullObj)) = .err .nullLhs ∧
    e'.eval ⟨one nullObj, fun _ _ => false⟩ (some (recordCtx nullObj)) =
      .ok ⟨some .bool, .bool false⟩ :=
  ⟨_, _, rfl, rfl, rfl, by
    simp [Expr.eval, recordCtx, List.lookup, FExpr.eval, nullObj, mkValue, Val.isNull, Ev.bind,
      quantLoop, CmpOp.op, BinOp.allowsNull, binaryOp, Val.pyEq, Val.num]⟩

/-- `type A {n Integer}  type B {}  type T { u [A, B]   us [A, B] [0 .. *] }` -/
def inUnionDecls : Decls :=
  { recs := [⟨none, [⟨"n", .int, false, .record 0⟩]⟩, ⟨none, []⟩,
      ⟨none, [⟨"u", .union 0 [0, 1], false, .record 2⟩,
        ⟨"us", .arr 0 (.union 1 [0, 1]) 0 none, false, .record 2⟩]⟩], tups := [], enums := [] }

/-- `A a {n = 1}` is object 0, `T t { u = a   us = [a] }` is object 1 -/
def inUnionHeap : Nat → Option Fields
  | 0 => some [("n", ⟨0, .int 1⟩)]
  | 1 => some [("u", ⟨1, .ref (.union 0 [0, 1]) (some 0)⟩),
      ("us", ⟨2, .arr (.arr 0 (.union 1 [0, 1]) 0 none) [.ref (.union 1 [0, 1]) (some 0)]⟩)]
  | _ => none

/-- **C25 is violated for union types**: `u` and the only element of `us` are references to the
same object, the two component types have the same members in the same order; `u in us` is false
and `(exists i in us => i == u)` is true.  (Two union types written in two places are two type
objects, and `in` compares the types by identity.) -/
theorem C25_unions : ∃ e e' fs,
    (Raw.isIn false (.name "u") (.name "us")).elab (envOf inUnionDecls)
      (scopeOf inUnionDecls 2) = .ok e ∧
    (Raw.quant false "i" "us" (.cmp .eq (.name "i") (.name "u"))).elab (envOf inUnionDecls)
      (scopeOf inUnionDecls 2) = .ok e' ∧ inUnionHeap 1 = some fs ∧
    e.eval ⟨inUnionHeap, fun _ _ => false⟩ (some (recordCtx fs)) = .ok ⟨some .bool, .bool false⟩ ∧
    e'.eval ⟨inUnionHeap, fun _ _ => false⟩ (some (recordCtx fs)) = .ok ⟨some .bool, .bool true⟩ := by
  refine ⟨_, _, _, rfl, rfl, rfl, ?_, ?_⟩
  · simp [Expr.eval, recordCtx, List.lookup, FExpr.eval, inUnionHeap, mkValue, Val.isNull, Ev.bind,
      evalElems, binaryOp, eqTV]
  · simp [Expr.eval, recordCtx, List.lookup, FExpr.eval, inUnionHeap, mkValue, Val.isNull, Ev.bind,
      quantLoop, CmpOp.op, BinOp.allowsNull, binaryOp, Val.pyEq, fieldsEq]

/-- The hypotheses of `C25_partial` hold for `1 in a` in `T x { a = [1] }`. -/
example : (Expr.binary (some .bool) .arrContains (.int 1) (.name "a" (.arr 0 .int 0 none))).eval
      ⟨one arrObj, fun _ _ => false⟩ (some (recordCtx arrObj)) =
    (Expr.quant false "i" "a" (.binary (some .bool) .eq (.name "i" .int) (.int 1))).eval
      ⟨one arrObj, fun _ _ => false⟩ (some (recordCtx arrObj)) := by
  have hn : NamesOnce arrDecls (one arrObj) := by
    constructor
    · intro t cs h; simp [arrDecls] at h
    · intro o fs h
      simp only [one] at h
      split at h
      · cases h; decide
      · cases h
  exact (C25_partial (objTy := one 0) hn arrObj_ok (fun _ _ => false) (recordCtx arrObj) "a" "i" 0
    .int 0 none [.int 1] rfl (by simp [AllOk, FOk]) (.int 1) (.int 1) rfl rfl ⟨1, rfl⟩
    (by simp [Mentions])).1

/-- The hypotheses of `C60_equivalence` hold for the components of `T x { a = [1] }`. -/
example : (eqExpr (.name "a" (.arr 0 .int 0 none)) (.name "b" .bool)).eval
      ⟨one arrObj, fun _ _ => false⟩ (some (recordCtx arrObj)) =
    (eqExpr (.name "b" .bool) (.name "a" (.arr 0 .int 0 none))).eval
      ⟨one arrObj, fun _ _ => false⟩ (some (recordCtx arrObj)) := by
  have hn : NamesOnce arrDecls (one arrObj) := by
    refine ⟨fun t cs h => by simp [arrDecls] at h, fun o fs h => ?_⟩
    simp only [one] at h
    split at h
    · cases h; decide
    · cases h
  exact (C60_equivalence (objTy := one 0) hn _ _ (.int 1) rfl rfl rfl
    (Or.inr ⟨.arr 0 .int 0 none, .arr (.arr 0 .int 0 none) [.int 1],
      by simp [FOk, AllOk], rfl⟩) (Or.inl rfl)).2.1

end Verif.Props
