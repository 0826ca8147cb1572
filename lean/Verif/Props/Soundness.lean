import Verif.Lemmas.ElabSound
/-!
# C16: evaluating an accepted check on a conforming object

`HeapOk`, `ObjOk`, `FieldsOk` (conforming objects and tuples) and `Side`, `Definite`, `NoClash`
are in `Spec/Conform.lean` and `Spec/CheckSafety.lean`.
-/
namespace Verif.Props
open Verif.Model Verif.Spec Verif.Lemmas

variable {E : ElEnv} {objTy : Nat → Option Nat} {heap : Nat → Option Fields}

/-- the context in which the checks of a record object are evaluated, `trlc/ast.py:392, 3357` -/
def recordCtx (fs : Fields) : List (String × FExpr) := fs.map fun f => (f.1, f.2.expr)

private theorem lookup_ctx (fs : Fields) (n : String) :
    (recordCtx fs).lookup n = (fs.lookup n).map (·.expr) := by
  induction fs with
  | nil => rfl
  | cons f fs ih =>
    obtain ⟨k, v⟩ := f
    unfold recordCtx at ih ⊢
    rw [List.map_cons, List.lookup_cons, List.lookup_cons]
    cases n == k <;> simp [ih]

/-- the scope of a check block for record type `t`, as a typing context -/
def recordΓ (D : Decls) (t : Nat) : Gamma := fun n => (D.component t n).map fun c => (c.ty, c.optional)

/-- the same for a tuple type -/
def tupleΓ (D : Decls) (t : Nat) : Gamma := fun n =>
  ((D.fields t).find? (·.name == n)).map fun c => (c.ty, c.optional)

/-- the context of a conforming record object has a conforming value for every component of its
type and of every type `s` that it extends -/
theorem C16_record_context (wf : WFDecls E.decls) {t s : Nat} {fs : Fields}
    (hext : Extends E.decls t s) (ho : ObjOk E.decls objTy fs t) :
    CtxOk E.decls objTy (recordΓ E.decls s) (recordCtx fs) := by
  intro n ty b h
  simp only [recordΓ, Option.map_eq_some_iff, Prod.mk.injEq] at h
  obtain ⟨c, hc, rfl, rfl⟩ := h
  obtain ⟨⟨u, hu, hd⟩, rfl⟩ := component_hasComp wf hc
  obtain ⟨x, hx, h2⟩ := ho.1 c ⟨u, extends_trans hext hu, hd⟩
  exact ⟨x.expr, by rw [lookup_ctx, hx]; rfl, h2⟩

private theorem fields_ctx {D : Decls} {fs : List (String × FExpr)} {cs : List Comp}
    (h : FieldsOk D objTy fs cs) (n : String) {c : Comp} (hc : cs.find? (·.name == n) = some c) :
    ∃ fe, fs.lookup n = some fe ∧ ((c.optional = true ∧ fe = .inull) ∨ FOk D objTy fe c.ty) := by
  induction fs generalizing cs with
  | nil =>
    cases cs with
    | nil => simp at hc
    | cons => simp [FieldsOk] at h
  | cons f fs ih =>
    obtain ⟨k, e⟩ := f
    cases cs with
    | nil => simp at hc
    | cons d cs =>
      simp only [FieldsOk, FieldOk] at h
      obtain ⟨⟨rfl, hd⟩, h⟩ := h
      by_cases hn : d.name = n
      · subst hn
        rw [List.find?_cons_of_pos (by simp)] at hc
        simp only [Option.some.injEq] at hc
        subst hc
        exact ⟨e, by simp, hd⟩
      · rw [List.find?_cons_of_neg (by simpa using hn)] at hc
        obtain ⟨fe, h1, h2⟩ := ih h hc
        refine ⟨fe, ?_, h2⟩
        rw [List.lookup_cons]
        have : (n == d.name) = false := by rw [beq_eq_false_iff_ne]; exact fun h => hn h.symm
        simp [this, h1]

theorem C16_tuple_context {t : Nat} {fs : List (String × FExpr)} {cs : List Comp}
    (hcs : E.decls.tups[t]? = some cs) (ho : FieldsOk E.decls objTy fs cs) :
    CtxOk E.decls objTy (tupleΓ E.decls t) fs := by
  intro n ty b h
  have : E.decls.fields t = cs := by simp [Decls.fields, hcs]
  simp only [tupleΓ, this, Option.map_eq_some_iff, Prod.mk.injEq] at h
  obtain ⟨c, hc, rfl, rfl⟩ := h
  exact fields_ctx ho n hc

/-- **C16, for every expression in any scope**: an accepted expression of static type `τ`,
evaluated where every name in scope has a conforming value, gives null or a value of type `τ`, or
reports an error; the only internal exceptions possible are the `IndexError` of `[]` and the
failing assertion of a quantifier.

Missing from C16: these two exceptions (`C16_index_crash`, `C16_quantifier_crash`), and accesses
to union fields for which an extension of a member adds a field of the same name and another type
(`C16_union_crash`); `Side True True` excludes only the latter. -/
theorem C16_expression_partial (wf : WFDecls E.decls) (un : UniqueNames E.decls)
    (hh : HeapOk E.decls objTy heap) (sc : TScope) (r : Raw) (e : Expr) (he : r.elab E sc = .ok e)
    (hs : Side E.decls True True (scopeΓ sc) e) (c : List (String × FExpr))
    (hc : CtxOk E.decls objTy (scopeΓ sc) c) :
    (∃ v, e.eval ⟨heap, E.rx⟩ (some c) = .ok v ∧
      (v = ⟨none, .null⟩ ∨
        ∃ τ, e.typ = some τ ∧ v.typ = some τ ∧ VT E.decls objTy heap τ v.val)) ∨
    (∃ x, e.eval ⟨heap, E.rx⟩ (some c) = .err x) ∨
    e.eval ⟨heap, E.rx⟩ (some c) = .crash .indexError ∨
    e.eval ⟨heap, E.rx⟩ (some c) = .crash .quantifierNotBool := by
  have := sound wf un hh E.rx e _ c (elab_wt wf r sc e he) hs hc
  cases hev : e.eval ⟨heap, E.rx⟩ (some c) with
  | ok v =>
    rw [hev] at this
    refine Or.inl ⟨v, rfl, ?_⟩
    rcases this.1 with h | ⟨τ, h1, h2, -, h3⟩
    · exact Or.inl h
    · exact Or.inr ⟨τ, h1, h2, h3⟩
  | err x => exact Or.inr (Or.inl ⟨x, rfl⟩)
  | crash x =>
    rw [hev] at this
    rcases this with ⟨rfl, -⟩ | ⟨rfl, -⟩
    · exact Or.inr (Or.inr (Or.inl rfl))
    · exact Or.inr (Or.inr (Or.inr rfl))

/-- the outcome of an accepted check on a conforming context -/
private theorem check_outcome (wf : WFDecls E.decls) (un : UniqueNames E.decls)
    (hh : HeapOk E.decls objTy heap) (sc : TScope) (r : Raw) (e : Expr)
    (he : elabCheck E sc r = .ok e) (hs : Side E.decls False False (scopeΓ sc) e)
    (c : List (String × FExpr)) (hc : CtxOk E.decls objTy (scopeΓ sc) c) :
    ((∃ b, e.eval ⟨heap, E.rx⟩ (some c) = .ok ⟨some .bool, .bool b⟩) ∨
      e.eval ⟨heap, E.rx⟩ (some c) = .ok ⟨none, .null⟩ ∨
      ∃ x, e.eval ⟨heap, E.rx⟩ (some c) = .err x) ∧
    (Definite E.decls (scopeΓ sc) e → e.eval ⟨heap, E.rx⟩ (some c) ≠ .ok ⟨none, .null⟩) := by
  simp only [elabCheck, el_bind_ok] at he
  obtain ⟨e', he', h⟩ := he
  split at h
  · next ht =>
    cases h
    have := sound wf un hh E.rx e _ c (elab_wt wf r sc e he') hs hc
    rw [ht] at this
    cases hev : e.eval ⟨heap, E.rx⟩ (some c) with
    | ok v =>
      rw [hev] at this
      constructor
      · rcases this.1 with rfl | ⟨τ, h1, h2, -, h3⟩
        · exact Or.inr (Or.inl rfl)
        · cases h1
          obtain ⟨b, hb⟩ := h3
          left
          exact ⟨b, by rw [← h2, ← hb]⟩
      · rintro hd ⟨⟩
        have := this.2 hd
        simp [Val.isNull] at this
    | err x => exact ⟨Or.inr (Or.inr ⟨x, rfl⟩), by simp⟩
    | crash x =>
      rw [hev] at this
      rcases this with ⟨-, h⟩ | ⟨-, h⟩ <;> exact h.elim
  · cases h

/-- **C16, for the checks of record types**: an accepted check without `[]`, in which the body
of every quantifier is never null and no access to a union field is ambiguous, evaluated for any
conforming object of its type `s` or of an extension `t` of it, gives a Boolean, gives null, or reports an error; there are no
internal exceptions.  If the check itself can not be null it gives a Boolean or reports an
error. -/
theorem C16_record_check_partial (wf : WFDecls E.decls) (un : UniqueNames E.decls)
    (hh : HeapOk E.decls objTy heap) (s t o : Nat) (hext : Extends E.decls t s) (fs : Fields) (hto : objTy o = some t)
    (hfs : heap o = some fs) (other : String → Bool) (enums : List String → Option Nat) (r : Raw)
    (e : Expr) (he : elabCheck E (.ofRecord E.decls s other enums) r = .ok e)
    (hs : Side E.decls False False (recordΓ E.decls s) e) :
    ((∃ b, e.eval ⟨heap, E.rx⟩ (some (recordCtx fs)) = .ok ⟨some .bool, .bool b⟩) ∨
      e.eval ⟨heap, E.rx⟩ (some (recordCtx fs)) = .ok ⟨none, .null⟩ ∨
      ∃ x, e.eval ⟨heap, E.rx⟩ (some (recordCtx fs)) = .err x) ∧
    (Definite E.decls (recordΓ E.decls s) e →
      e.eval ⟨heap, E.rx⟩ (some (recordCtx fs)) ≠ .ok ⟨none, .null⟩) := by
  obtain ⟨fs', h1, h2⟩ := hh o t hto
  rw [hfs] at h1
  cases h1
  have hsc : scopeΓ (.ofRecord E.decls s other enums) = recordΓ E.decls s := rfl
  have := check_outcome wf un hh _ r e he (hsc ▸ hs) (recordCtx fs) (hsc ▸ C16_record_context wf hext h2)
  rwa [hsc] at this

/-- **C16, for the checks of tuple types** -/
theorem C16_tuple_check_partial (wf : WFDecls E.decls) (un : UniqueNames E.decls)
    (hh : HeapOk E.decls objTy heap) (t : Nat) (cs : List Comp) (fs : List (String × FExpr))
    (hcs : E.decls.tups[t]? = some cs) (hfs : FieldsOk E.decls objTy fs cs)
    (other : String → Bool) (enums : List String → Option Nat) (r : Raw) (e : Expr)
    (he : elabCheck E (.ofTuple E.decls t other enums) r = .ok e)
    (hs : Side E.decls False False (tupleΓ E.decls t) e) :
    ((∃ b, e.eval ⟨heap, E.rx⟩ (some fs) = .ok ⟨some .bool, .bool b⟩) ∨
      e.eval ⟨heap, E.rx⟩ (some fs) = .ok ⟨none, .null⟩ ∨
      ∃ x, e.eval ⟨heap, E.rx⟩ (some fs) = .err x) ∧
    (Definite E.decls (tupleΓ E.decls t) e → e.eval ⟨heap, E.rx⟩ (some fs) ≠ .ok ⟨none, .null⟩) := by
  have hsc : scopeΓ (.ofTuple E.decls t other enums) = tupleΓ E.decls t := rfl
  have := check_outcome wf un hh _ r e he (hsc ▸ hs) fs (hsc ▸ C16_tuple_context hcs hfs)
  rwa [hsc] at this

/-! ## The exceptions -/

/-- `type T { a Integer [0 .. *]   b optional Boolean }` -/
def arrDecls : Decls :=
  { recs := [⟨none, [⟨"a", .arr 0 .int 0 none, false, .record 0⟩, ⟨"b", .bool, true, .record 0⟩]⟩],
    tups := [], enums := [] }

/-- `T x { a = [1] }` -/
def arrObj : Fields :=
  [("a", ⟨0, .arr (.arr 0 .int 0 none) [.int 1]⟩), ("b", ⟨1, .inull⟩)]

/-- no regular expressions -/
def envOf (D : Decls) : ElEnv := { decls := D, rx := fun _ _ => false, rxOk := fun _ => true }

/-- the scope of a check block for a record type -/
def scopeOf (D : Decls) (t : Nat) : TScope := .ofRecord D t (fun _ => false) fun _ => none

theorem arrDecls_wf : WFDecls arrDecls := by
  rintro t p ⟨r, h, hp⟩
  rcases t with _ | t
  · simp [arrDecls] at h; subst h; simp at hp
  · simp [arrDecls] at h

private theorem arr_hasComp {t : Nat} {c : Comp} (h : HasComp arrDecls t c) :
    c = ⟨"a", .arr 0 .int 0 none, false, .record 0⟩ ∨ c = ⟨"b", .bool, true, .record 0⟩ := by
  obtain ⟨s, -, r, hr, hc⟩ := h
  rcases s with _ | s
  · simp [arrDecls] at hr; subst hr; simpa using hc
  · simp [arrDecls] at hr

theorem arrDecls_unique : UniqueNames arrDecls := by
  intro t c c' h h' hn
  rcases arr_hasComp h with rfl | rfl <;> rcases arr_hasComp h' with rfl | rfl <;> simp_all

/-- the only object is object 0, of type 0 -/
def one {α} (a : α) : Nat → Option α := fun o => if o = 0 then some a else none

theorem arrObj_ok : HeapOk arrDecls (one 0) (one arrObj) := by
  intro o t h
  simp only [one] at h
  split at h
  · next h0 =>
    cases h
    subst h0
    refine ⟨arrObj, by simp [one], ?_, ?_⟩
    · intro c hc
      rcases arr_hasComp hc with rfl | rfl
      · refine ⟨_, rfl, Or.inr ?_⟩
        simp [FOk, AllOk]
      · exact ⟨_, rfl, Or.inl ⟨rfl, rfl⟩⟩
    · intro k hk
      have hd : ∀ c ∈ arrDecls.own 0, HasComp arrDecls 0 c := fun c hc =>
        ⟨0, .refl (by decide), (mem_own 0 c).1 hc⟩
      simp only [arrObj, List.lookup_cons] at hk
      by_cases h1 : k = "a"
      · subst h1; exact ⟨_, hd _ (by simp [arrDecls, Decls.own]; exact Or.inl rfl), rfl⟩
      · by_cases h2 : k = "b"
        · subst h2; exact ⟨_, hd _ (by simp [arrDecls, Decls.own]; exact Or.inr rfl), rfl⟩
        · have e1 : (k == "a") = false := by simpa using h1
          have e2 : (k == "b") = false := by simpa using h2
          simp [e1, e2] at hk
  · cases h

/-- **C16 is violated**: `checks T { a[1] > 0, error "" }` and `T x { a = [1] }` -/
theorem C16_index_crash : ∃ r e, elabCheck (envOf arrDecls) (scopeOf arrDecls 0) r = .ok e ∧
    e.eval ⟨one arrObj, fun _ _ => false⟩ (some (recordCtx arrObj)) = .crash .indexError :=
  ⟨.cmp .gt (.index (.name "a") (.int 1)) (.int 0), _, rfl, rfl⟩

/-- **C16 is violated**: `checks T { (forall i in a => b), error "" }` and `T x { a = [1] }`
where the optional component `b` is not given -/
theorem C16_quantifier_crash : ∃ r e, elabCheck (envOf arrDecls) (scopeOf arrDecls 0) r = .ok e ∧
    e.eval ⟨one arrObj, fun _ _ => false⟩ (some (recordCtx arrObj)) = .crash .quantifierNotBool :=
  ⟨.quant true "i" "a" (.name "b"), _, rfl, rfl⟩

/-- `type A { x Integer }  type B {}  type B2 extends B { x String }  type T { u [A, B] }` -/
def unionDecls : Decls :=
  { recs := [⟨none, [⟨"x", .int, false, .record 0⟩]⟩, ⟨none, []⟩,
      ⟨some 1, [⟨"x", .str, false, .record 2⟩]⟩,
      ⟨none, [⟨"u", .union 0 [0, 1], false, .record 3⟩]⟩], tups := [], enums := [] }

/-- `B2 b { x = "s" }` is object 0, `T t { u = b }` is object 1 -/
def unionHeap : Nat → Option Fields
  | 0 => some [("x", ⟨0, .str ['s']⟩)]
  | 1 => some [("u", ⟨1, .ref (.union 0 [0, 1]) (some 0)⟩)]
  | _ => none

/-- **C16 is violated** (and C38): `checks T { u.x > 0, error "" }` compares a string to a
number. -/
theorem C16_union_crash : ∃ r e fs, elabCheck (envOf unionDecls) (scopeOf unionDecls 3) r = .ok e ∧
    unionHeap 1 = some fs ∧ unionDecls.isCompatible [0, 1] 2 = true ∧
    e.eval ⟨unionHeap, fun _ _ => false⟩ (some (recordCtx fs)) = .crash .operand :=
  ⟨.cmp .gt (.dot (.name "u") "x") (.int 0), _, _, rfl, rfl, by decide +kernel, rfl⟩

/-! ## Non-trivial instances of the hypotheses -/

/-- `(forall i in a => i > 0) and len(a) >= 1 and (b == null or b)` -/
def sampleCheck : Raw :=
  .logic .and (.logic .and
    (.quant true "i" "a" (.cmp .gt (.name "i") (.int 0)))
    (.cmp .geq (.call "len" (.cons (.name "a") .nil)) (.int 1)))
    (.logic .or (.cmp .eq (.name "b") .null) (.name "b"))

example : ∃ e, elabCheck (envOf arrDecls) (scopeOf arrDecls 0) sampleCheck = .ok e ∧
    Side arrDecls False False (recordΓ arrDecls 0) e ∧
    e.eval ⟨one arrObj, fun _ _ => false⟩ (some (recordCtx arrObj)) = .ok ⟨some .bool, .bool true⟩ :=
  ⟨_, rfl, by
    simp [Side, Definite, CmpOp.op], by
    simp [show (0 : Rat) < 1 by decide, CmpOp.op, Expr.eval, recordCtx, arrObj, quantLoop, FExpr.eval, mkValue, Val.isNull, Ev.bind,
      BinOp.allowsNull, binaryOp, numPair, compareNum, unary, unaryOp, evalElems, Val.pyEq,
      List.lookup]⟩

end Verif.Props
