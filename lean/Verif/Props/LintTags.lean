import Verif.Props.Lint
/-!
# C70: the tags of the messages of the linter
-/
namespace Verif.Props
open Verif.Model Verif.Spec Verif.Lemmas

/-- What the tag at the end of a message of the linter says -/
inductive LintTagged : String → LintMsg → Prop
  | separator (t : Nat) (sep : List Char) (ty : Ty) : LintTagged "separator_based_literal_ambiguity" (.separator t sep ty)
  | single (u : Nat) : LintTagged "union_single_type" (.unionSingle u)
  | subtype (u a b : Nat) : LintTagged "union_redundant_subtype" (.unionSubtype u a b)
  | upper (a : Nat) : LintTagged "impossible_array_types" (.arrUpper a)
  | zero (a : Nat) : LintTagged "impossible_array_types" (.arrZero a)
  | one (a : Nat) : LintTagged "weird_array_types" (.arrOne a)
  | optional (a : Nat) : LintTagged "weird_array_types" (.arrOptional a)
  | leaf (t : Nat) : LintTagged "abstract_leaf_types" (.abstractLeaf t)

theorem lintTagged_iff {c : String} {m : LintMsg} : LintTagged c m ↔ m.category = c := by
  constructor
  · rintro (_ | _ | _ | _ | _ | _ | _ | _) <;> rfl
  · rintro rfl
    cases m
    · exact .separator ..
    · exact .single _
    · exact .subtype ..
    · exact .upper _
    · exact .zero _
    · exact .one _
    · exact .optional _
    · exact .leaf _

/-- **C70**: the messages of the linter in a successful run are those for what there is to report, each with the tag
for its kind. -/
theorem C70_tags {o : Options} {X : Outside} {required : List CU → Finset PNode} {fs : List Source} {s : PS}
    {render : LintMsg → String × String} (hX : X.lint = linter render) (hl : o.lint = true) (hb : Lemmas.Blank s)
    (h : (process o X required fs s).out = .table) :
    ∃ msgs cs rest, (process o X required fs s).calls = cs ++ rest ∧
      List.Forall₂ (fun m c => ∃ tag, LintTagged tag m ∧ c = MHCall.check (render m).1 (render m).2 tag) msgs cs ∧
      LintReport (process o X required fs s).state.decls (process o X required fs s).state.infos
        (process o X required fs s).state.seps msgs := by
  obtain ⟨msgs, rest, h1, h2⟩ := C70_report hX hl hb h
  refine ⟨msgs, _, rest, h1, ?_, h2⟩
  rw [List.forall₂_map_right_iff]
  exact List.forall₂_same.2 fun m _ => ⟨_, lintTagged_iff.2 rfl, rfl⟩

end Verif.Props
