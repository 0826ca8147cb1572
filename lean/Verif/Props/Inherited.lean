import Verif.Props.Unions
import Verif.Model.CanBeNull
/-!
# C58: components inherited by the type of a record reference, C59: `can_be_null`
-/
namespace Verif.Props
open Verif.Model Verif.Spec Verif.Lemmas

variable {D : Decls}

/-- The attribute `member_of` of a component is the record type that declares it. -/
def MemberOfOk (D : Decls) : Prop := ∀ t c, Declares D t c → c.memberOf = .record t

theorem component_of_hasComp (wf : WFDecls D) (un : UniqueNames D) {t : Nat} {c : Comp}
    (h : HasComp D t c) : D.component t c.name = some c := by
  obtain ⟨s, hs, hc⟩ := h
  cases hd : D.component t c.name with
  | none =>
    exfalso
    simp only [Decls.component, List.findSome?_eq_none_iff] at hd
    have := hd s ((mem_ancestors wf t s).2 hs)
    rw [List.find?_eq_none] at this
    exact this c ((mem_own s c).2 hc) (by simp)
  | some d =>
    obtain ⟨h1, h2⟩ := component_hasComp wf hd
    rw [un t d c h1 ⟨s, hs, hc⟩ h2]

/-- **C58, for components the type declares itself**: `p.f` is accepted.

Missing from C58: inherited components, for which `p.f` is always rejected
(`C58_inherited_rejected`). -/
theorem C58_own_partial (wf : WFDecls D) (un : UniqueNames D) (hm : MemberOfOk D) (p : Expr)
    (t : Nat) (hp : p.typ = some (.record t)) (c : Comp) (hc : Declares D t c)
    (ht : t < D.recs.length) : mkField D p c.name = .ok (.field p c.name c.ty) := by
  simp only [mkField, hp, component_of_hasComp wf un ⟨t, .refl ht, hc⟩, hm t c hc]
  simp [ensureTy, El.bind]

/-- **C58 is violated, in all cases**: whenever record type `t` inherits component `c` from a
type it extends, `p.f` is rejected for every expression `p` of type `t`. -/
theorem C58_inherited_rejected (wf : WFDecls D) (un : UniqueNames D) (hm : MemberOfOk D)
    (p : Expr) (t s : Nat) (hp : p.typ = some (.record t)) (c : Comp) (hs : Extends D t s)
    (hne : s ≠ t) (hc : Declares D s c) : mkField D p c.name = .err .wrongType := by
  simp only [mkField, hp, component_of_hasComp wf un ⟨s, hs, hc⟩, hm s c hc]
  have : ¬ (t = s) := fun h => hne h.symm
  simp [ensureTy, El.bind, this]

/-- Through a union type the same component is accessible: for `p` of a union type
of which `t` is a member, an inherited component is found as any other. -/
theorem C58_through_union (wf : WFDecls D) (un : UniqueNames D) (p : Expr) (id : Nat)
    (ms : List Nat) (hp : p.typ = some (.union id ms)) (c : Comp) (t : Nat) (ht : t ∈ ms)
    (hc : HasComp D t c) (hall : ∀ m ∈ ms, ∀ c', HasComp D m c' → c'.name = c.name → c'.ty = c.ty) :
    mkField D p c.name = .ok (.field p c.name c.ty) :=
  (C38_fields wf un p id ms hp c.name c.ty).2 ⟨⟨t, ht, c, hc, rfl⟩, hall⟩

/-- `type B { x Integer }  type E extends B {}  type T { r E   u [E, B] }` -/
def inheritDecls : Decls :=
  { recs := [⟨none, [⟨"x", .int, false, .record 0⟩]⟩, ⟨some 0, []⟩,
      ⟨none, [⟨"r", .record 1, false, .record 2⟩, ⟨"u", .union 0 [1, 0], false, .record 2⟩]⟩],
    tups := [], enums := [] }

theorem inheritDecls_wf : wfCheck inheritDecls = true := by decide +kernel
theorem inheritDecls_unique : UniqueNames inheritDecls :=
  uniqueCheck_sound inheritDecls_wf (by decide +kernel)

/-- `r.x` is rejected, `u.x` is accepted. -/
theorem C58_witness :
    (Raw.dot (.name "r") "x").elab (envOf inheritDecls) (scopeOf inheritDecls 2) =
      .err .wrongType ∧
    ∃ e, (Raw.dot (.name "u") "x").elab (envOf inheritDecls) (scopeOf inheritDecls 2) = .ok e :=
  ⟨rfl, _, rfl⟩

/-- The hypotheses of `C58_inherited_rejected` hold there. -/
example : mkField inheritDecls (.name "r" (.record 1)) "x" = .err .wrongType := by
  refine C58_inherited_rejected (wfCheck_sound inheritDecls_wf) inheritDecls_unique ?_ _ 1 0 rfl
    ⟨"x", .int, false, .record 0⟩ (extends_of_check inheritDecls_wf (by decide +kernel))
    (by decide) ⟨_, rfl, by simp⟩
  rintro t c ⟨r, hr, hc⟩
  match t with
  | 0 => simp [inheritDecls] at hr; subst hr; simp at hc; subst hc; rfl
  | 1 => simp [inheritDecls] at hr; subst hr; simp at hc
  | 2 => simp [inheritDecls] at hr; subst hr; simp at hc; rcases hc with rfl | rfl <;> rfl
  | n + 3 => simp [inheritDecls] at hr

/-! ## C59: `can_be_null` -/

/-- whether a name in scope is an optional component -/
def optionalIn (sc : TScope) (n : String) : Bool :=
  match sc.vars.lookup n with
  | some _ => false
  | none => match sc.comp n with
    | some c => c.optional
    | none => false

mutual
/-- The value of the expression is not passed on from `and`, `or`, `implies` or from a field. -/
def NotPassedOn : Expr → Prop
  | .logic .. | .field .. => False
  | .cond _ as => NotPassedOnA as
  | _ => True
/-- the same for the branches of a conditional expression -/
def NotPassedOnA : Acts → Prop
  | .els e => NotPassedOn e
  | .act _ e rest => NotPassedOn e ∧ NotPassedOnA rest
end

variable {E : ElEnv} {objTy : Nat → Option Nat} {heap : Nat → Option Fields}

mutual
private theorem definite_of {rx} (sc : TScope) : (e : Expr) → WT D rx (scopeΓ sc) e →
    NotPassedOn e → e.canBeNull D (optionalIn sc) = false → Definite D (scopeΓ sc) e
  | .null, _, _, h => by simp [Expr.canBeNull] at h
  | .bool _, _, _, _ | .int _, _, _, _ | .dec _, _, _, _ | .str _, _, _, _ | .enum _ _, _, _, _
  | .unary .., _, _, _ | .binary .., _, _, _ | .range .., _, _, _ | .oneof _, _, _, _
  | .quant .., _, _, _ => by simp [Definite]
  | .name n t, hw, _, h => by
    simp only [WT] at hw
    obtain ⟨b, hb⟩ := hw
    simp only [Definite]
    refine ⟨t, ?_⟩
    simp only [Expr.canBeNull, optionalIn] at h
    rw [hb]
    simp only [scopeΓ] at hb
    cases hv : sc.vars.lookup n with
    | some t' => simp only [hv, Option.some.injEq, Prod.mk.injEq] at hb; simp [← hb.2]
    | none =>
      simp only [hv] at hb h
      cases hc : sc.comp n with
      | none => simp [hc] at hb
      | some c =>
        simp only [hc, Option.map_some, Option.some.injEq, Prod.mk.injEq] at hb h
        simp [← hb.2, h]
  | .logic .., _, hn, _ => by simp [NotPassedOn] at hn
  | .field .., _, hn, _ => by simp [NotPassedOn] at hn
  | .cond t as, hw, hn, h => by
    simp only [WT, NotPassedOn, Expr.canBeNull, Definite] at hw hn h ⊢
    exact definite_ofA sc t as hw hn h
private theorem definite_ofA {rx} (sc : TScope) (t : Ty) : (as : Acts) →
    WTa D rx (scopeΓ sc) t as → NotPassedOnA as → as.canBeNull D (optionalIn sc) = false →
    DefiniteA D (scopeΓ sc) as
  | .els e, hw, hn, h => by
    simp only [WTa, NotPassedOnA, Acts.canBeNull, DefiniteA] at hw hn h ⊢
    exact definite_of sc e hw.1 hn h
  | .act _ e rest, hw, hn, h => by
    simp only [WTa, NotPassedOnA, Acts.canBeNull, DefiniteA, Bool.or_eq_false_iff] at hw hn h ⊢
    exact ⟨definite_of sc e hw.2.2.1 hn.1 h.1, definite_ofA sc t rest hw.2.2.2.2 hn.2 h.2⟩
end

/-- **C59, except for `and`, `or`, `implies` and field accesses**: if `can_be_null` is false for
an accepted expression, its value is not null, in any context with conforming values.

Missing from C59: expressions whose value is passed on from one of these four; the claim is false
for all of them (`C59_logic`, `C59_tuple_field`, `C59_record_field`, `C59_union_field`). -/
theorem C59_partial (wf : WFDecls E.decls) (un : UniqueNames E.decls)
    (hh : HeapOk E.decls objTy heap) (sc : TScope) (r : Raw) (e : Expr) (he : r.elab E sc = .ok e)
    (hs : Side E.decls True True (scopeΓ sc) e) (c : List (String × FExpr))
    (hc : CtxOk E.decls objTy (scopeΓ sc) c) (hn : NotPassedOn e)
    (h : e.canBeNull E.decls (optionalIn sc) = false) (v : TV)
    (hv : e.eval ⟨heap, E.rx⟩ (some c) = .ok v) : v.val ≠ .null := by
  have hw := elab_wt wf r sc e he
  have := sound wf un hh E.rx e _ c hw hs hc
  rw [hv] at this
  have := this.2 (definite_of sc e hw hn h)
  intro h'
  rw [h'] at this
  simp [Val.isNull] at this

private theorem count_entered (wf : WFDecls D) (f : String) : ∀ ms : List Nat,
    ((entered D ms).filter (·.name == f)).length ≤ ms.length ∧
    (((entered D ms).filter (·.name == f)).length = ms.length ↔
      ∀ m ∈ ms, ∃ c, HasComp D m c ∧ c.name = f)
  | [] => by simp [entered]
  | m :: ms => by
    obtain ⟨h1, h2⟩ := count_entered wf f ms
    have e : entered D (m :: ms) = firstOfName [] (D.allComponents m) ++ entered D ms := rfl
    rw [e, List.filter_append, List.length_append, firstOfName_count]
    have hk : (f ∉ ([] : List String) ∧ ∃ c ∈ D.allComponents m, c.name = f) ↔
        ∃ c, HasComp D m c ∧ c.name = f := by simp [mem_allComponents wf]
    simp only [List.length_cons, List.mem_cons, forall_eq_or_imp]
    by_cases hm : ∃ c, HasComp D m c ∧ c.name = f
    · rw [if_pos (hk.2 hm), ← h2]
      simp only [hm, true_and]
      omega
    · rw [if_neg (fun h => hm (hk.1 h))]
      simp only [hm, false_and, iff_false]
      omega

/-- **C59, fields of unions**: `can_be_null` is false for `p.f` exactly if every member of the
union has a component `f`.  (So a field is not null because it does not exist; it can still be null
if it is optional, `C59_union_field`.) -/
theorem C59_universal_field (wf : WFDecls D) (p : Expr) (f : String) (τ : Ty) (id : Nat)
    (ms : List Nat) (hp : p.typ = some (.union id ms)) (hne : ms ≠ []) (opt : String → Bool) :
    (Expr.field p f τ).canBeNull D opt = false ↔ ∀ m ∈ ms, ∃ c, HasComp D m c ∧ c.name = f := by
  obtain ⟨-, hc⟩ := count_entered wf f ms
  have hd := fieldMap_describes D ms f
  simp only [Expr.canBeNull, hp]
  cases hl : (D.fieldMap ms).lookup f with
  | none =>
    rw [hl] at hd
    simp only [Describes] at hd
    simp only [Bool.true_eq_false, false_iff]
    rw [← hc]
    have : (entered D ms).filter (·.name == f) = [] := by
      rw [List.filter_eq_nil_iff]
      intro c hc
      simpa using hd c hc
    rw [this]
    intro h
    exact hne (List.length_eq_zero_iff.1 h.symm)
  | some i =>
    rw [hl] at hd
    simp only [Describes] at hd
    rw [← hc]
    simp [hd.2.2.2.2]

/-- both members of `[B, E]` have the component `x` -/
example : (∀ m ∈ [0, 1], ∃ c, HasComp inheritDecls m c ∧ c.name = "x") ↔
    (Expr.field (.name "u" (.union 0 [0, 1])) "x" .int).canBeNull inheritDecls (fun _ => false) = false :=
  (C59_universal_field (wfCheck_sound inheritDecls_wf) _ "x" .int 0 [0, 1] rfl (by simp) _).symm

/-- **C59 is violated by `and`**: `true and b` for the optional component `b` of
`T x { a = [1] }` -/
theorem C59_logic : ∃ e, (Raw.logic .and (.bool true) (.name "b")).elab (envOf arrDecls)
      (scopeOf arrDecls 0) = .ok e ∧
    e.canBeNull arrDecls (optionalIn (scopeOf arrDecls 0)) = false ∧
    e.eval ⟨one arrObj, fun _ _ => false⟩ (some (recordCtx arrObj)) = .ok ⟨none, .null⟩ :=
  ⟨_, rfl, rfl, rfl⟩

/-- `tuple P { x Integer separator : y optional Integer }
type T { p P   r optional T   u optional [T, S] }   type S { r optional T }` -/
def nullFieldDecls : Decls :=
  { recs := [⟨none, [⟨"p", .tup 0, false, .record 0⟩, ⟨"r", .record 0, true, .record 0⟩,
        ⟨"u", .union 0 [0, 1], true, .record 0⟩]⟩,
      ⟨none, [⟨"r", .record 0, true, .record 1⟩]⟩],
    tups := [[⟨"x", .int, false, .tup 0⟩, ⟨"y", .int, true, .tup 0⟩]], enums := [] }

/-- `T t { p = 1   r = t2   u = s }` is object 0, `S s {}` is object 1 and `T t2 { p = 1 }` is
object 2. -/
def nullFieldHeap : Nat → Option Fields
  | 0 => some [("p", ⟨0, .tup 0 [("x", .int 1), ("y", .inull)]⟩),
      ("r", ⟨1, .ref (.record 0) (some 2)⟩), ("u", ⟨2, .ref (.union 0 [0, 1]) (some 1)⟩)]
  | 1 => some [("r", ⟨3, .inull⟩)]
  | 2 => some [("p", ⟨4, .tup 0 [("x", .int 1), ("y", .inull)]⟩), ("r", ⟨5, .inull⟩),
      ("u", ⟨6, .inull⟩)]
  | _ => none

private theorem C59_fields (r : Raw) (h : r = .dot (.name "p") "y" ∨ r = .dot (.name "r") "r" ∨
      r = .dot (.name "u") "r") : ∃ e fs, r.elab (envOf nullFieldDecls) (scopeOf nullFieldDecls 0) =
        .ok e ∧ nullFieldHeap 0 = some fs ∧
    e.canBeNull nullFieldDecls (optionalIn (scopeOf nullFieldDecls 0)) = false ∧
    e.eval ⟨nullFieldHeap, fun _ _ => false⟩ (some (recordCtx fs)) = .ok ⟨none, .null⟩ := by
  rcases h with rfl | rfl | rfl
  · exact ⟨_, _, rfl, rfl, rfl, rfl⟩
  · exact ⟨_, _, rfl, rfl, rfl, rfl⟩
  · exact ⟨_, _, rfl, rfl, rfl, rfl⟩

/-- **C59 is violated by fields of tuples**: `p.y` -/
theorem C59_tuple_field : ∃ e fs, (Raw.dot (.name "p") "y").elab (envOf nullFieldDecls)
      (scopeOf nullFieldDecls 0) = .ok e ∧ nullFieldHeap 0 = some fs ∧
    e.canBeNull nullFieldDecls (optionalIn (scopeOf nullFieldDecls 0)) = false ∧
    e.eval ⟨nullFieldHeap, fun _ _ => false⟩ (some (recordCtx fs)) = .ok ⟨none, .null⟩ :=
  C59_fields _ (by simp)

/-- **C59 is violated by components of records**: `r.r` -/
theorem C59_record_field : ∃ e fs, (Raw.dot (.name "r") "r").elab (envOf nullFieldDecls)
      (scopeOf nullFieldDecls 0) = .ok e ∧ nullFieldHeap 0 = some fs ∧
    e.canBeNull nullFieldDecls (optionalIn (scopeOf nullFieldDecls 0)) = false ∧
    e.eval ⟨nullFieldHeap, fun _ _ => false⟩ (some (recordCtx fs)) = .ok ⟨none, .null⟩ :=
  C59_fields _ (by simp)

/-- **C59 is violated by fields of unions** that all members have but as an optional component:
`u.r` -/
theorem C59_union_field : ∃ e fs, (Raw.dot (.name "u") "r").elab (envOf nullFieldDecls)
      (scopeOf nullFieldDecls 0) = .ok e ∧ nullFieldHeap 0 = some fs ∧
    e.canBeNull nullFieldDecls (optionalIn (scopeOf nullFieldDecls 0)) = false ∧
    e.eval ⟨nullFieldHeap, fun _ _ => false⟩ (some (recordCtx fs)) = .ok ⟨none, .null⟩ :=
  C59_fields _ (by simp)

/-- The hypotheses of `C59_partial` hold for `(if b == null then 1 else len(a))` and
`T x { a = [1] }`. -/
example : ∃ e, (Raw.cond (.cmp .eq (.name "b") .null) (.int 1)
      (.els (.call "len" (.cons (.name "a") .nil)))).elab (envOf arrDecls) (scopeOf arrDecls 0) =
        .ok e ∧
    ∀ v, e.eval ⟨one arrObj, fun _ _ => false⟩ (some (recordCtx arrObj)) = .ok v → v.val ≠ .null := by
  refine ⟨_, rfl, ?_⟩
  exact C59_partial (E := envOf arrDecls) (objTy := one 0) arrDecls_wf arrDecls_unique arrObj_ok
    (scopeOf arrDecls 0) (.cond (.cmp .eq (.name "b") .null) (.int 1)
      (.els (.call "len" (.cons (.name "a") .nil)))) _ rfl (by simp [Side, SideA, CmpOp.op]) (recordCtx arrObj)
    (C16_record_context (E := envOf arrDecls) arrDecls_wf (t := 0) (.refl (by decide)) (by
      obtain ⟨fs, h1, h2⟩ := arrObj_ok 0 0 rfl
      cases h1
      exact h2)) (by simp [NotPassedOn, NotPassedOnA]) rfl

end Verif.Props
