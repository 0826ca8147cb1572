import Verif.Lemmas.TypeRules
import Verif.Props.Grammar
/-!
# C65: the typing rules of check expressions

The rules are `HasTy` in `Spec/TypeRules.lean`.
-/
namespace Verif.Props
open Verif.Model Verif.Spec Verif.Lemmas

variable {E : ElEnv}

/-- An expression is accepted, with a type, exactly if the rules give it that type. -/
theorem C65_rules (wf : WFDecls E.decls) (un : UniqueNames E.decls) (sc : TScope) (r : Raw)
    (t : Option Ty) :
    (∃ e, r.elab E sc = .ok e ∧ e.typ = t) ↔
      HasTy E.decls (knownIn E) (fun s => E.rxOk s = true) sc r t :=
  elab_typed wf un r sc t

/-- The expression of a check is accepted exactly if the rules give it the type `Boolean`. -/
theorem C65_check (wf : WFDecls E.decls) (un : UniqueNames E.decls) (sc : TScope) (r : Raw) :
    (∃ e, elabCheck E sc r = .ok e) ↔
      HasTy E.decls (knownIn E) (fun s => E.rxOk s = true) sc r (some .bool) := by
  rw [← C65_rules wf un]
  simp only [elabCheck, el_bind_ok]
  constructor
  · rintro ⟨e, e', he, h⟩
    split at h
    · next ht => exact ⟨e', he, ht⟩
    · cases h
  · rintro ⟨e, he, ht⟩
    exact ⟨e, e, he, by rw [if_pos ht]⟩

/-- An expression has one type at most. -/
theorem C65_one_type (wf : WFDecls E.decls) (un : UniqueNames E.decls) (sc : TScope) (r : Raw)
    (t u : Option Ty) (ht : HasTy E.decls (knownIn E) (fun s => E.rxOk s = true) sc r t)
    (hu : HasTy E.decls (knownIn E) (fun s => E.rxOk s = true) sc r u) : t = u := by
  rw [← C65_rules wf un] at ht hu
  obtain ⟨e, he, rfl⟩ := ht
  obtain ⟨e', he', rfl⟩ := hu
  rw [he] at he'
  cases he'
  rfl

/-- From tokens: the parser accepts what is in front of `w` as an expression of type `t` exactly
if it is a phrase of the grammar for which the rules give the type `t`. -/
theorem C65_tokens {F : FileEnv} {comp : String → Option Comp} {vars : List (String × Ty)} {n : Nat}
    {s : PS} {w : List Token} {t : Option Ty} (wf : WFDecls E.decls) (un : UniqueNames E.decls)
    (hn : (words s).length ≤ n) (hc : ∀ o ∈ s.rest, (∃ t, o = .tok t) ∨ o = .eof)
    (hw : ∀ t ∈ w.head?, ¬ Cont 5 t) :
    (∃ e s', parseExpr F E n (scopeFor F s comp vars) s = .ok e s' ∧ words s' = w ∧ e.typ = t) ↔
      ∃ ts r, words s = ts ++ w ∧ GExpr F (namesOf s) (ValueNames comp vars) ts r ∧
        HasTy E.decls (knownIn E) (fun s => E.rxOk s = true) (scopeIn F (namesOf s) comp vars) r t := by
  constructor
  · rintro ⟨e, s', h1, h2, rfl⟩
    obtain ⟨ts, r, h3, h4, h5⟩ := (C36_exact hn hc hw).1 ⟨s', h1, h2⟩
    exact ⟨ts, r, h3, h4, (C65_rules wf un _ r _).1 ⟨e, h5, rfl⟩⟩
  · rintro ⟨ts, r, h1, h2, h3⟩
    obtain ⟨e, h4, rfl⟩ := (C65_rules wf un _ r _).2 h3
    obtain ⟨s', h5, h6⟩ := (C36_exact hn hc hw).2 ⟨ts, r, h1, h2, h4⟩
    exact ⟨e, s', h5, h6, rfl⟩

/-- A quantified variable never has the name of anything else in scope. -/
theorem C65_no_shadowing (wf : WFDecls E.decls) (un : UniqueNames E.decls) (sc : TScope) (u : Bool)
    (x src : String) (body : Raw) (e : Expr) (he : (Raw.quant u x src body).elab E sc = .ok e) :
    ¬ InScope sc x :=
  ((C65_rules wf un sc _ _).1 ⟨e, he, rfl⟩).1

/-- No operator other than `==` and `!=` accepts the literal `null` as an operand. -/
theorem C65_null_operand (wf : WFDecls E.decls) (un : UniqueNames E.decls) (sc : TScope)
    (op : ArOp) (lop : LogOp) (neg m : Bool) (r r' : Raw) (e : Expr) :
    (Raw.arith op .null r).elab E sc ≠ .ok e ∧ (Raw.arith op r .null).elab E sc ≠ .ok e ∧
    (Raw.logic lop .null r).elab E sc ≠ .ok e ∧ (Raw.logic lop r .null).elab E sc ≠ .ok e ∧
    (Raw.isIn neg .null r).elab E sc ≠ .ok e ∧ (Raw.isIn neg r .null).elab E sc ≠ .ok e ∧
    (Raw.inRange neg .null r r').elab E sc ≠ .ok e ∧ (Raw.not .null).elab E sc ≠ .ok e ∧
    (Raw.sign m .null).elab E sc ≠ .ok e ∧ (Raw.abs .null).elab E sc ≠ .ok e ∧
    (Raw.power .null r).elab E sc ≠ .ok e ∧ (Raw.power r .null).elab E sc ≠ .ok e ∧
    (Raw.index r .null).elab E sc ≠ .ok e ∧ (∀ f, (Raw.call f (.cons .null .nil)).elab E sc ≠ .ok e) := by
  refine ⟨?_, ?_, ?_, ?_, ?_, ?_, ?_, ?_, ?_, ?_, ?_, ?_, ?_, ?_⟩ <;>
    first
    | (intro h
       have := (C65_rules wf un sc _ _).1 ⟨e, h, rfl⟩
       simp only [HasTy, reduceCtorEq, false_and, and_false, exists_false] at this)
    | (intro f h
       have := (C65_rules wf un sc _ _).1 ⟨e, h, rfl⟩
       simp only [HasTy, HasTys] at this
       obtain ⟨⟨ts, ⟨t, us, rfl, rfl, rfl⟩, h2⟩, -⟩ := this
       simp [CallRule] at h2)

/-! ## Examples -/
namespace TypeSample

/-- `enum Color {red}  enum Fruit {apple}  type T {c Color  fs Fruit [0..*]  n Integer  d Decimal}` -/
def decls : Decls :=
  { recs := [⟨none, [⟨"c", .enum 0, false, .record 0⟩, ⟨"fs", .arr 0 (.enum 1) 0 none, false, .record 0⟩,
      ⟨"n", .int, false, .record 0⟩, ⟨"d", .dec, false, .record 0⟩]⟩],
    tups := [], enums := [["red"], ["apple"]] }

/-- the scope of its checks -/
def scope : TScope := .ofRecord decls 0 (fun _ => false)
  fun | ["Color"] => some 0 | ["Fruit"] => some 1 | _ => none

theorem decls_wf : WFDecls decls := wfCheck_sound (by decide +kernel)
theorem decls_unique : UniqueNames decls :=
  uniqueCheck_sound (by decide +kernel) (by decide +kernel)

/-- `n + 1 == 2 and (forall f in fs => f == Fruit.apple)` -/
example : HasTy decls (knownIn (envOf decls)) (fun _ => True) scope
    (.logic .and (.cmp .eq (.arith .plus (.name "n") (.int 1)) (.int 2))
      (.quant true "f" "fs" (.cmp .eq (.name "f") (.enumLit ["Fruit"] "apple")))) (some .bool) := by
  have h := (C65_rules (E := envOf decls) decls_wf decls_unique scope
    (.logic .and (.cmp .eq (.arith .plus (.name "n") (.int 1)) (.int 2))
      (.quant true "f" "fs" (.cmp .eq (.name "f") (.enumLit ["Fruit"] "apple")))) (some .bool)).1
  simpa [envOf] using h ⟨_, rfl, rfl⟩

/-- `n == d` is rejected. -/
example : ∀ e, (Raw.cmp .eq (.name "n") (.name "d")).elab (envOf decls) scope ≠ .ok e := by
  intro e h
  have : (Raw.cmp .eq (.name "n") (.name "d")).elab (envOf decls) scope = .err .typeMismatch := rfl
  rw [this] at h
  cases h

end TypeSample

/-- What a user may not expect: `c in fs` is accepted although `c` and the elements of `fs` have
two different enumeration types (it is always false); `c == fs[0]` is rejected. -/
theorem C65_membership_of_other_type :
    (∃ e, (Raw.isIn false (.name "c") (.name "fs")).elab (envOf TypeSample.decls) TypeSample.scope = .ok e) ∧
    (Raw.cmp .eq (.name "c") (.index (.name "fs") (.int 0))).elab (envOf TypeSample.decls) TypeSample.scope =
      .err .typeMismatch := by
  refine ⟨⟨_, rfl⟩, rfl⟩

end Verif.Props
