import Verif.Lemmas.RenameLoad
import Verif.Spec.Grammar
/-!
# C12: builtin types and functions in every file
-/
namespace Verif.Props
open Verif.Model Verif.Spec Verif.Lemmas

/-- the builtin types -/
def builtinTypes : List (String × Ty) :=
  [("Integer", .int), ("Decimal", .dec), ("Boolean", .bool), ("String", .str), ("Markup_String", .markup)]

/-- the builtin functions -/
def builtinFunctions : List String := ["len", "startswith", "endswith", "matches", "oneof"]

/-- what the name of something builtin stands for -/
def StandsFor (n : String) (e : Ent) : Prop :=
  (∃ ty, (n, ty) ∈ builtinTypes ∧ e.ty? = some ty) ∨ (n ∈ builtinFunctions ∧ e.ty? = none ∧ e.cls = clsFunction)

/-- a table that sees the global table, and has nothing else of that name -/
theorem sees_find {g T : STab} {k : List Char} {e : Ent} (h : g.own.get k = some e) (hp : T.parents = [])
    (hi : T.imported = [[g.own]]) (hn : T.own.get k = none) (es : List Ent) : (T.registerAll es).find k = some e := by
  induction es generalizing T with
  | nil =>
    unfold STab.registerAll STab.find
    rw [hp, hi]
    simp [chainGet, hn, h]
  | cons x es ih =>
    unfold STab.registerAll
    split
    · next T' hr =>
      unfold STab.register at hr
      dsimp only at hr
      split at hr
      · split at hr
        · split at hr <;> cases hr
        · cases hr
      · next hc =>
        cases hr
        refine ih hp hi ?_
        have hne : simplifiedName x.name ≠ k := by
          rintro rfl
          apply hc
          unfold STab.containsRaw
          rw [hn, hp, hi]
          simp [chainContains, h]
        unfold Frame.get at hn ⊢
        rw [Option.map_eq_none_iff] at hn ⊢
        rw [List.find?_append, hn]
        simp [hne]
    · exact ih hp hi hn

theorem global_stands (n : String) (h : (∃ ty, (n, ty) ∈ builtinTypes) ∨ n ∈ builtinFunctions) :
    ∃ e, Frame.get globalTable.own (simplifiedName n.toList) = some e ∧ e.name = n.toList ∧ StandsFor n e := by
  have ht : ∀ x ∈ builtinTypes, ∃ e, Frame.get globalTable.own (simplifiedName x.1.toList) = some e ∧
      e.name = x.1.toList ∧ e.ty? = some x.2 := by
    unfold builtinTypes
    simp only [List.forall_mem_cons, List.not_mem_nil, false_implies, implies_true, and_true]
    exact ⟨⟨⟨"Integer".toList, 1, clsBuiltinType⟩, by decide +kernel⟩, ⟨⟨"Decimal".toList, 2, clsBuiltinType⟩, by decide +kernel⟩,
      ⟨⟨"Boolean".toList, 0, clsBuiltinType⟩, by decide +kernel⟩, ⟨⟨"String".toList, 3, clsBuiltinType⟩, by decide +kernel⟩,
      ⟨⟨"Markup_String".toList, 4, clsBuiltinType⟩, by decide +kernel⟩⟩
  have hf : ∀ n ∈ builtinFunctions, ∃ e, Frame.get globalTable.own (simplifiedName n.toList) = some e ∧
      e.name = n.toList ∧ e.ty? = none ∧ e.cls = clsFunction := by
    unfold builtinFunctions
    simp only [List.forall_mem_cons, List.not_mem_nil, false_implies, implies_true, and_true]
    exact ⟨⟨⟨"len".toList, 0, clsFunction⟩, by decide +kernel⟩, ⟨⟨"startswith".toList, 1, clsFunction⟩, by decide +kernel⟩,
      ⟨⟨"endswith".toList, 2, clsFunction⟩, by decide +kernel⟩, ⟨⟨"matches".toList, 3, clsFunction⟩, by decide +kernel⟩,
      ⟨⟨"oneof".toList, 4, clsFunction⟩, by decide +kernel⟩⟩
  rcases h with ⟨ty, h⟩ | h
  · obtain ⟨e, h1, h2, h3⟩ := ht _ h
    exact ⟨e, h1, h2, .inl ⟨ty, h, h3⟩⟩
  · obtain ⟨e, h1, h2, h3⟩ := hf _ h
    exact ⟨e, h1, h2, .inr ⟨h, h3⟩⟩

/-- **C12**: in every project, and in every file of it, whatever is declared in the packages, the names of builtin
types and functions stand for these. -/
theorem C12_builtin {fs : List Source} {s s1 : PS} {g : STab} {ls : List Loaded}
    (h : loadAll globalTable fs s = .ok (g, ls) s1) (he : s1.errs = s.errs) (es : List Ent) (n : String)
    (hn : (∃ ty, (n, ty) ∈ builtinTypes) ∨ n ∈ builtinFunctions) :
    ∃ e, StandsFor n e ∧ g.lookup n.toList none = .ok e ∧ (g.importing.registerAll es).lookup n.toList none = .ok e := by
  obtain ⟨⟨P, k, -⟩, -⟩ := Rename.loadAll_known h he
  have hg := (loadAll_ok globalTable_pkgTab h).tab.glob
  obtain ⟨e, h1, h2, h3⟩ := global_stands n hn
  have hk := k.base _ _ h1
  refine ⟨e, h3, ?_, ?_⟩
  · have : g.find (simplifiedName n.toList) = some e := by
      unfold STab.find
      rw [hg.parents]
      simp [chainGet, hk]
    unfold STab.lookup STab.lookupDirect
    rw [this]
    simp [h2]
  · have := sees_find (T := g.importing) hk rfl (by simp [STab.importing, hg.parents]) rfl es
    unfold STab.lookup STab.lookupDirect
    rw [this]
    simp [h2]

/-- In the files of every project the builtin functions and conversions can be called (a hypothesis of `C81_partial`). -/
theorem builtinCalls_loaded {fs : List Source} {s s1 : PS} {g : STab} {ls : List Loaded}
    (h : loadAll globalTable fs s = .ok (g, ls) s1) (he : s1.errs = s.errs) :
    ∀ f ∈ ["len", "startswith", "endswith", "matches", "oneof", "Integer", "Decimal"],
    ∃ e, g.lookup f.toList none = .ok e ∧ Callable e := by
  intro f hf
  obtain ⟨e, h1, h2, -⟩ := C12_builtin h he [] f (by
    simp only [List.mem_cons, List.not_mem_nil, or_false] at hf
    rcases hf with rfl | rfl | rfl | rfl | rfl | rfl | rfl <;> simp [builtinTypes, builtinFunctions])
  refine ⟨e, h2, ?_⟩
  rcases h1 with ⟨ty, ht, h1⟩ | ⟨-, -, h1⟩
  · unfold Callable
    rw [h1]
    simp only [List.mem_cons, List.not_mem_nil, or_false] at hf
    rcases hf with rfl | rfl | rfl | rfl | rfl | rfl | rfl <;> simp_all [builtinTypes]
  · exact .inl h1

end Verif.Props
