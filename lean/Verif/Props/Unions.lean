import Verif.Props.Soundness
import Verif.Lemmas.Witness
/-!
# C38: union types
-/
namespace Verif.Props
open Verif.Model Verif.Spec Verif.Lemmas

variable {D : Decls}

/-- **C38, compatibility**: an object can be used where a union type is expected exactly if its
type is a member of the union or extends one. -/
theorem C38_compatible (wf : WFDecls D) (ms : List Nat) (t : Nat) :
    D.isCompatible ms t = true ↔ ∃ m ∈ ms, Extends D t m := by
  simp only [Decls.isCompatible, List.any_eq_true]
  constructor
  · rintro ⟨m, hm, h⟩; exact ⟨m, hm, (isSubclassOf_iff wf t m).1 h⟩
  · rintro ⟨m, hm, h⟩; exact ⟨m, hm, (isSubclassOf_iff wf t m).2 h⟩

private theorem mem_entered (wf : WFDecls D) (un : UniqueNames D) (ms : List Nat) (c : Comp) :
    c ∈ entered D ms ↔ ∃ m ∈ ms, HasComp D m c := by
  simp only [entered, List.mem_flatMap]
  constructor
  · rintro ⟨m, hm, h⟩
    exact ⟨m, hm, (mem_allComponents wf m c).1 (firstOfName_mem _ _ h).1⟩
  · rintro ⟨m, hm, h⟩
    obtain ⟨d, hd, hdn⟩ := firstOfName_repr (D.allComponents m) [] c
      ((mem_allComponents wf m c).2 h) (by simp)
    have hdm := (mem_allComponents wf m d).1 (firstOfName_mem _ _ hd).1
    have : d = c := un m d c hdm h hdn
    subst this
    exact ⟨m, hm, hd⟩

/-- **C38, fields**: the expression `p.f`, where `p` has a union type, is accepted with type `τ`
exactly if some member type has a component `f` and in every member that has one its type is
`τ`. -/
theorem C38_fields (wf : WFDecls D) (un : UniqueNames D) (p : Expr) (id : Nat) (ms : List Nat)
    (hp : p.typ = some (.union id ms)) (f : String) (τ : Ty) :
    mkField D p f = .ok (.field p f τ) ↔
      (∃ m ∈ ms, ∃ c, HasComp D m c ∧ c.name = f) ∧
      (∀ m ∈ ms, ∀ c, HasComp D m c → c.name = f → c.ty = τ) := by
  have hd := fieldMap_describes D ms f
  simp only [mkField, hp]
  cases hl : (D.fieldMap ms).lookup f with
  | none =>
    rw [hl] at hd
    simp only [Describes, mem_entered wf un] at hd
    constructor
    · intro h; cases h
    · rintro ⟨⟨m, hm, c, hc, hn⟩, -⟩
      exact absurd hn (hd c ⟨m, hm, hc⟩)
  | some i =>
    rw [hl] at hd
    simp only [Describes, mem_entered wf un] at hd
    obtain ⟨⟨m, hm, hc⟩, hn, h3, h4, -⟩ := hd
    cases ht : i.ty with
    | none =>
      obtain ⟨c, ⟨m1, hm1, hc1⟩, c', ⟨m2, hm2, hc2⟩, e1, e2, hne⟩ := h4 ht
      simp only [ht]
      constructor
      · intro h; cases h
      · rintro ⟨-, h⟩
        exact absurd ((h m1 hm1 c hc1 e1).trans (h m2 hm2 c' hc2 e2).symm) hne
    | some τ' =>
      simp only [ht, El.ok.injEq, Expr.field.injEq, true_and]
      constructor
      · rintro rfl
        refine ⟨⟨m, hm, i.comp, hc, hn⟩, fun m' hm' c' hc' hn' => ?_⟩
        rw [h3 τ' ht c' ⟨m', hm', hc'⟩ hn', h3 τ' ht i.comp ⟨m, hm, hc⟩ hn]
      · rintro ⟨-, h⟩
        exact h m hm i.comp hc hn

/-- the same, for the remaining outcomes: an unknown field and a field with several types are
reported as errors -/
theorem C38_rejected (wf : WFDecls D) (un : UniqueNames D) (p : Expr) (id : Nat) (ms : List Nat)
    (hp : p.typ = some (.union id ms)) (f : String) :
    (mkField D p f = .err .unknownField ↔ ∀ m ∈ ms, ∀ c, HasComp D m c → c.name ≠ f) ∧
    (mkField D p f = .err .conflictingField ↔
      ∃ m ∈ ms, ∃ m' ∈ ms, ∃ c c', HasComp D m c ∧ HasComp D m' c' ∧ c.name = f ∧ c'.name = f ∧
        c.ty ≠ c'.ty) := by
  have hd := fieldMap_describes D ms f
  simp only [mkField, hp]
  cases hl : (D.fieldMap ms).lookup f with
  | none =>
    rw [hl] at hd
    simp only [Describes, mem_entered wf un] at hd
    refine ⟨⟨fun _ m hm c hc => hd c ⟨m, hm, hc⟩, fun _ => rfl⟩, ⟨fun h => by simp at h, ?_⟩⟩
    rintro ⟨m, hm, -, -, c, -, hc, -, hn, -⟩
    exact absurd hn (hd c ⟨m, hm, hc⟩)
  | some i =>
    rw [hl] at hd
    simp only [Describes, mem_entered wf un] at hd
    obtain ⟨⟨m, hm, hc⟩, hn, h3, h4, -⟩ := hd
    cases ht : i.ty with
    | none =>
      obtain ⟨c, ⟨m1, hm1, hc1⟩, c', ⟨m2, hm2, hc2⟩, e1, e2, hne⟩ := h4 ht
      simp only [ht]
      refine ⟨⟨fun h => by simp at h, fun h => absurd hn (h m hm _ hc)⟩, ⟨fun _ => ?_, fun _ => trivial⟩⟩
      exact ⟨m1, hm1, m2, hm2, c, c', hc1, hc2, e1, e2, hne⟩
    | some τ' =>
      simp only [ht]
      refine ⟨⟨fun h => by simp at h, fun h => absurd hn (h m hm _ hc)⟩, ⟨fun h => by simp at h, ?_⟩⟩
      rintro ⟨m1, hm1, m2, hm2, c, c', hc1, hc2, e1, e2, hne⟩
      exact absurd ((h3 τ' ht c ⟨m1, hm1, hc1⟩ e1).trans (h3 τ' ht c' ⟨m2, hm2, hc2⟩ e2).symm) hne

/-- **C38, missing fields**: if the object `p` refers to has a type without component `f`, the
value of `p.f` is null; if its type has the component, the value is that of the component. -/
theorem C38_missing_null {objTy : Nat → Option Nat} {heap : Nat → Option Fields}
    (hh : HeapOk D objTy heap) (rx : List Char → List Char → Bool) (ctx : Ctx) (p : Expr)
    (f : String) (τ : Ty) (tp : Option Ty) (o t : Nat) (fs : Fields) (ho : objTy o = some t)
    (hfs : heap o = some fs) (hp : p.eval ⟨heap, rx⟩ ctx = .ok ⟨tp, .recv fs⟩) :
    ((∀ c, HasComp D t c → c.name ≠ f) →
      (Expr.field p f τ).eval ⟨heap, rx⟩ ctx = .ok ⟨none, .null⟩) ∧
    (∀ c, HasComp D t c → c.name = f → ∃ n, fs.lookup f = some n ∧
      (Expr.field p f τ).eval ⟨heap, rx⟩ ctx = n.expr.eval heap) := by
  obtain ⟨fs', h1, h2⟩ := hh o t ho
  rw [hfs] at h1
  cases h1
  simp only [Expr.eval, hp, Ev.bind]
  constructor
  · intro h
    cases hl : fs.lookup f with
    | none => simp [mkValue, Val.isNull]
    | some n =>
      obtain ⟨c, hc, hn⟩ := h2.2 f (by simp [hl])
      exact absurd hn (h c hc)
  · intro c hc hn
    obtain ⟨n, hl, -⟩ := h2.1 c hc
    rw [hn] at hl
    exact ⟨n, hl, by simp [hl]⟩

/-! ### What a user may not expect -/

/-- `type A { l Integer [0 .. *] }  type B { l Integer [0 .. *] }  type T { u [A, B] }` -/
def arrayUnionDecls : Decls :=
  { recs := [⟨none, [⟨"l", .arr 0 .int 0 none, false, .record 0⟩]⟩,
      ⟨none, [⟨"l", .arr 1 .int 0 none, false, .record 1⟩]⟩,
      ⟨none, [⟨"u", .union 0 [0, 1], false, .record 2⟩]⟩], tups := [], enums := [] }

/-- Two array types written in two places are different types, even with the same element type
and bounds: `u.l` is rejected as conflicting (the LRM asks for the same type
object, but the comment at `trlc/ast.py:2645-2649` assumes that equal types are the same object). -/
theorem C38_equal_arrays_conflict :
    (Raw.dot (.name "u") "l").elab (envOf arrayUnionDecls) (scopeOf arrayUnionDecls 2) =
      .err .conflictingField := by
  rfl

theorem unionDecls_wf : wfCheck unionDecls = true := by decide +kernel
theorem unionDecls_unique : UniqueNames unionDecls :=
  uniqueCheck_sound unionDecls_wf (by decide +kernel)

/-- the types of the two objects of `unionHeap` -/
def unionObjTy : Nat → Option Nat
  | 0 => some 2
  | 1 => some 3
  | _ => none

theorem unionHeap_ok : HeapOk unionDecls unionObjTy unionHeap := by
  intro o t h
  match o with
  | 0 =>
    simp only [unionObjTy, Option.some.injEq] at h; subst h
    refine ⟨_, rfl, objOk_of unionDecls_wf ?_ (by decide +kernel)⟩
    rw [show unionDecls.allComponents 2 = [⟨"x", .str, false, .record 2⟩] by decide +kernel]
    intro c hc
    simp only [List.mem_singleton] at hc; subst hc
    exact ⟨_, rfl, Or.inr (by simp [FOk])⟩
  | 1 =>
    simp only [unionObjTy, Option.some.injEq] at h; subst h
    refine ⟨_, rfl, objOk_of unionDecls_wf ?_ (by decide +kernel)⟩
    rw [show unionDecls.allComponents 3 = [⟨"u", .union 0 [0, 1], false, .record 3⟩] by
      decide +kernel]
    intro c hc
    simp only [List.mem_singleton] at hc; subst hc
    refine ⟨_, rfl, Or.inr ?_⟩
    simp only [FOk]
    exact ⟨trivial, 0, 2, rfl, rfl, 1, by simp, extends_of_check unionDecls_wf (by decide +kernel)⟩
  | n + 2 => simp [unionObjTy] at h

/-- **C38 is violated**: `u.x` in the types of `C16_union_crash` is accepted as an Integer; the
declarations and objects are well formed; but the object `u` refers to has a component `x` of
type String, because only the member types are considered and not their extensions. -/
theorem C38_extension_clash : ∃ e fs, (Raw.dot (.name "u") "x").elab (envOf unionDecls)
      (scopeOf unionDecls 3) = .ok e ∧ e.typ = some .int ∧
    WFDecls unionDecls ∧ UniqueNames unionDecls ∧ HeapOk unionDecls unionObjTy unionHeap ∧
    unionObjTy 1 = some 3 ∧ unionHeap 1 = some fs ∧
    e.eval ⟨unionHeap, fun _ _ => false⟩ (some (recordCtx fs)) = .ok ⟨some .str, .str ['s']⟩ :=
  ⟨_, _, rfl, rfl, wfCheck_sound unionDecls_wf, unionDecls_unique, unionHeap_ok, rfl, rfl, rfl⟩

/-- The hypotheses of `C38_fields` hold there. -/
example : mkField unionDecls (.name "u" (.union 0 [0, 1])) "x" =
    .ok (.field (.name "u" (.union 0 [0, 1])) "x" .int) := by
  rw [C38_fields (wfCheck_sound unionDecls_wf) unionDecls_unique _ 0 [0, 1] rfl]
  have hx : HasComp unionDecls 0 ⟨"x", .int, false, .record 0⟩ :=
    (mem_allComponents (wfCheck_sound unionDecls_wf) 0 _).1 (by decide +kernel)
  refine ⟨⟨0, by simp, _, hx, rfl⟩, ?_⟩
  intro m hm c hc hn
  rw [← mem_allComponents (wfCheck_sound unionDecls_wf)] at hc
  simp only [List.mem_cons, List.not_mem_nil, or_false] at hm
  rcases hm with rfl | rfl
  · rw [show unionDecls.allComponents 0 = [⟨"x", .int, false, .record 0⟩] by decide +kernel] at hc
    simp only [List.mem_singleton] at hc; subst hc; rfl
  · rw [show unionDecls.allComponents 1 = [] by decide +kernel] at hc
    cases hc

end Verif.Props
