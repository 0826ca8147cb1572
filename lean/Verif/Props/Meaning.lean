import Verif.Lemmas.MeaningMain
import Verif.Props.TypeRules
import Verif.Spec.Checks
/-!
# C66: the meaning of check expressions

The meaning is `HasMeaning` in `Spec/Meaning.lean`, a relation between syntax trees and values.  An
object, its references and the values of the components in scope are assumed to conform to the
declarations (C32, C33 and C63 derive this for objects that were read without errors); fields of
unions must not clash with a field of another type in an extension of a member (`Side`, see C29).
-/
namespace Verif.Props
open Verif.Model Verif.Spec Verif.Lemmas

variable {E : ElEnv} {objTy : Nat → Option Nat} {heap : Nat → Option Fields}

/-- **C66**: an accepted expression evaluates to a value exactly if that is its meaning.  (It has
no meaning exactly if an error is reported, or the evaluation ends with an internal exception.) -/
theorem C66_meaning (wf : WFDecls E.decls) (un : UniqueNames E.decls)
    (hh : HeapOk E.decls objTy heap) (sc : TScope) (r : Raw) (e : Expr) (he : r.elab E sc = .ok e)
    (hs : Side E.decls True True (scopeΓ sc) e) (c : List (String × FExpr))
    (hc : CtxOk E.decls objTy (scopeΓ sc) c) (v : Val) :
    (∃ t, e.eval ⟨heap, E.rx⟩ (some c) = .ok ⟨t, v⟩) ↔ HasMeaning heap E.rx (Typed E) sc c r v :=
  elab_means wf un hh r sc c e he hs hc v

/-- An accepted expression has one value at most. -/
theorem C66_one_value (wf : WFDecls E.decls) (un : UniqueNames E.decls)
    (hh : HeapOk E.decls objTy heap) (sc : TScope) (r : Raw) (e : Expr) (he : r.elab E sc = .ok e)
    (hs : Side E.decls True True (scopeΓ sc) e) (c : List (String × FExpr))
    (hc : CtxOk E.decls objTy (scopeΓ sc) c) (v w : Val)
    (hv : HasMeaning heap E.rx (Typed E) sc c r v) (hw : HasMeaning heap E.rx (Typed E) sc c r w) : v = w := by
  rw [← C66_meaning wf un hh sc r e he hs c hc] at hv hw
  obtain ⟨t, hv⟩ := hv
  obtain ⟨u, hw⟩ := hw
  rw [hv] at hw
  cases hw
  rfl

/-- **C66** (checks): a check holds for the values of the components exactly if its expression
means true, fails exactly if it means false, and is null exactly if it means null. -/
theorem C66_check (wf : WFDecls E.decls) (un : UniqueNames E.decls)
    (hh : HeapOk E.decls objTy heap) (sc : TScope) (r : Raw) (k : Check)
    (he : elabCheck E sc r = .ok k.expr) (hs : Side E.decls True True (scopeΓ sc) k.expr)
    (c : List (String × FExpr)) (hc : CtxOk E.decls objTy (scopeΓ sc) c) :
    (Holds ⟨heap, E.rx⟩ c k ↔ HasMeaning heap E.rx (Typed E) sc c r (.bool true)) ∧
    (Fails ⟨heap, E.rx⟩ c k ↔ HasMeaning heap E.rx (Typed E) sc c r (.bool false)) ∧
    ∀ v, HasMeaning heap E.rx (Typed E) sc c r v → v = .bool true ∨ v = .bool false ∨ v = .null := by
  have he' : r.elab E sc = .ok k.expr ∧ k.expr.typ = some .bool := by
    simp only [elabCheck, el_bind_ok] at he
    obtain ⟨e, he, h⟩ := he
    split at h
    · next ht => cases h; exact ⟨he, ht⟩
    · cases h
  refine ⟨C66_meaning wf un hh sc r _ he'.1 hs c hc _, C66_meaning wf un hh sc r _ he'.1 hs c hc _, ?_⟩
  intro v hv
  obtain ⟨t, hv⟩ := (C66_meaning wf un hh sc r _ he'.1 hs c hc v).2 hv
  have := sound wf un hh E.rx k.expr _ c (elab_wt wf r sc _ he'.1) hs hc
  rw [hv] at this
  rcases this.1 with h | ⟨τ, h1, -, -, h2⟩
  · cases h; simp
  · rw [he'.2] at h1
    cases h1
    obtain ⟨b, h2⟩ := h2
    simp only at h2
    subst h2
    cases b <;> simp

/-- What a user may not expect: `m in ss` is accepted for a component `m` of type `Markup_String`
and an array `ss` of `String`, but it is never true, whatever the texts are. -/
theorem C66_markup_membership (wf : WFDecls E.decls) (un : UniqueNames E.decls)
    (hh : HeapOk E.decls objTy heap) (sc : TScope) (neg : Bool) (m ss : Raw) (e : Expr)
    (he : (Raw.isIn neg m ss).elab E sc = .ok e) {id lo : Nat} {hi : Option Nat}
    (hm : Typed E sc m (some .markup)) (hss : Typed E sc ss (some (.arr id .str lo hi)))
    (hs : Side E.decls True True (scopeΓ sc) e) (c : List (String × FExpr))
    (hc : CtxOk E.decls objTy (scopeΓ sc) c) (v : Val)
    (hv : ∃ t, e.eval ⟨heap, E.rx⟩ (some c) = .ok ⟨t, v⟩) : v = .bool neg := by
  rw [C66_meaning wf un hh sc _ e he hs c hc] at hv
  simp only [HasMeaning] at hv
  rcases hv with ⟨s, t, d, h1, h2, h3, h4⟩ | ⟨x, es, d, xt, id', elem, lo', hi', h1, h2, h3, h4, h5, h6, h7⟩
  · exfalso
    obtain ⟨le, hl, re, hr, y, hy, h⟩ : ∃ le, m.elab E sc = .ok le ∧ ∃ re, ss.elab E sc = .ok re ∧
        ∃ y, mkIn E.decls le re = .ok y ∧ mkNot neg y = .ok e := by
      simpa only [Raw.elab, el_bind_ok] using he
    have hs' := not_side h hs
    have hs2 : Side E.decls True True (scopeΓ sc) re := by
      rcases mkIn_inv hy with ⟨_, -, -, rfl⟩ | ⟨_, _, _, _, _, -, -, rfl⟩ <;> simp only [Side] at hs' <;>
        exact hs'.2.1
    obtain ⟨u, hg⟩ := (C66_meaning wf un hh sc ss re hr hs2 c hc _).2 h2
    have := sound wf un hh E.rx re _ c (elab_wt wf ss sc _ hr) hs2 hc
    rw [hg] at this
    obtain ⟨e', he', ht'⟩ := (C65_rules wf un sc ss _).2 hss
    rw [hr] at he'
    cases he'
    rcases this.1 with h | ⟨τ, k1, -, -, k2⟩
    · cases h
    · rw [ht'] at k1
      cases k1
      obtain ⟨_, vs, h5, -⟩ := vt_arr k2
      cases h5
  · have e1 := same_type wf un h4 hm
    have e2 := same_type wf un h5 hss
    cases e1
    cases e2
    have : d = false := by
      cases d
      · rfl
      · exact absurd (h6.1 rfl).1 (by decide)
    subst this
    rw [h7]
    cases neg <;> rfl

/-! ## Examples -/
namespace MeaningSample

/-- `type T {n optional Integer  s String  m Markup_String  ss String [0..*]}` -/
def decls : Decls :=
  { recs := [⟨none, [⟨"n", .int, true, .record 0⟩, ⟨"s", .str, false, .record 0⟩,
      ⟨"m", .markup, false, .record 0⟩, ⟨"ss", .arr 0 .str 0 none, false, .record 0⟩]⟩],
    tups := [], enums := [] }

theorem decls_wf : WFDecls decls := wfCheck_sound (by decide +kernel)
theorem decls_unique : UniqueNames decls :=
  uniqueCheck_sound (by decide +kernel) (by decide +kernel)

/-- the scope of its checks -/
def scope : TScope := scopeOf decls 0

/-- the values of an object without references: `n` is null, `s` and `m` are "ab", `ss` is ["ab"] -/
def ctx : List (String × FExpr) :=
  [("n", .inull), ("s", .str ['a', 'b']), ("m", .markup ['a', 'b']),
   ("ss", .arr (.arr 0 .str 0 none) [.str ['a', 'b']])]

theorem ctx_ok : CtxOk decls (fun _ => none) (scopeΓ scope) ctx := by
  intro n t b h
  have h' : (decls.component 0 n).map (fun c => (c.ty, c.optional)) = some (t, b) := h
  simp only [Option.map_eq_some_iff, Prod.mk.injEq] at h'
  obtain ⟨c, hc, rfl, rfl⟩ := h'
  obtain ⟨⟨s, -, r, hr, hc⟩, rfl⟩ := component_hasComp decls_wf hc
  rcases s with _ | s
  · simp only [decls, List.getElem?_cons_zero, Option.some.injEq] at hr
    subst hr
    simp only [List.mem_cons, List.not_mem_nil, or_false] at hc
    rcases hc with rfl | rfl | rfl | rfl
    · exact ⟨_, rfl, Or.inl ⟨rfl, rfl⟩⟩
    · exact ⟨_, rfl, Or.inr (by simp [FOk])⟩
    · exact ⟨_, rfl, Or.inr (by simp [FOk])⟩
    · exact ⟨_, rfl, Or.inr (by simp [FOk, AllOk])⟩
  · simp [decls] at hr

/-- `n == null or n > 0` means true: the right operand is not looked at. -/
example : HasMeaning (fun _ => none) (envOf decls).rx (Typed (envOf decls)) scope ctx
    (.logic .or (.cmp .eq (.name "n") .null) (.cmp .gt (.name "n") (.int 0))) (.bool true) := by
  rw [← C66_meaning (E := envOf decls) decls_wf decls_unique (objTy := fun _ => none) (by intro o t h; cases h)
    scope _ _ rfl (by simp [Side]) ctx ctx_ok]
  exact ⟨some .bool, by
    simp [CmpOp.op, Expr.eval, ctx, FExpr.eval, mkValue, Val.isNull, Ev.bind, BinOp.allowsNull,
      binaryOp, Val.pyEq, List.lookup, evalElems, eqTV]⟩

/-- `m in ss` is false, `s in ss` is true. -/
example : HasMeaning (fun _ => none) (envOf decls).rx (Typed (envOf decls)) scope ctx
    (.isIn false (.name "m") (.name "ss")) (.bool false) ∧
    HasMeaning (fun _ => none) (envOf decls).rx (Typed (envOf decls)) scope ctx
    (.isIn false (.name "s") (.name "ss")) (.bool true) := by
  constructor <;>
  · rw [← C66_meaning (E := envOf decls) decls_wf decls_unique (objTy := fun _ => none) (by intro o t h; cases h)
      scope _ _ rfl (by simp [Side]) ctx ctx_ok]
    exact ⟨some .bool, by
    simp [CmpOp.op, Expr.eval, ctx, FExpr.eval, mkValue, Val.isNull, Ev.bind, BinOp.allowsNull,
      binaryOp, Val.pyEq, List.lookup, evalElems, eqTV]⟩

/-- the operands of `m in ss` are typed as `C66_markup_membership` demands -/
example : Typed (envOf decls) scope (.name "m") (some .markup) ∧
    Typed (envOf decls) scope (.name "ss") (some (.arr 0 .str 0 none)) :=
  ⟨(C65_rules (E := envOf decls) decls_wf decls_unique scope _ _).1 ⟨_, rfl, rfl⟩,
   (C65_rules (E := envOf decls) decls_wf decls_unique scope _ _).1 ⟨_, rfl, rfl⟩⟩

end MeaningSample

end Verif.Props
