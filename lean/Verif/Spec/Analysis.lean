import Verif.Spec.Strict
import Verif.Spec.CheckSafety
import Verif.Spec.Objects
import Verif.Model.Checks
/-!
# What the analysis of checks takes for granted about values
-/
namespace Verif.Spec
open Verif.Model

/-- components as names: their types and whether they may be null -/
def compΓ (cs : List Comp) : Gamma := fun n => (cs.find? (·.name == n)).map fun c => (c.ty, c.optional)

/-- all null fields come last -/
def NullsLast (fs : List (String × FExpr)) : Prop := fs.Pairwise fun a b => a.2 = .inull → b.2 = .inull

/-- The value `true` -/
def tvTrue : TV := ⟨some .bool, .bool true⟩

/-- What is taken for granted about the value of a component: the length of an array is within the
bounds of its type, the checks of a tuple other than warnings hold, and its null fields come last. -/
def Granted (C : CheckTab) (env : EvEnv) : Ty → FExpr → Prop
  | .arr _ _ lo hi, .arr _ es => lo ≤ es.length ∧ ∀ u, hi = some u → es.length ≤ u
  | .tup t, .tup _ fs =>
    (∀ k ∈ C.ofTup t, k.sev ≠ .warning → strict env fs k.expr = some tvTrue) ∧ NullsLast fs
  | _, _ => True

/-- Components of an enumeration type have a value to choose. -/
def EnumsFilled (D : Decls) : Prop :=
  ∀ c : Comp, (∃ t, c ∈ D.fields t ∨ Declares D t c) → ∀ e, c.ty = .enum e →
    ∃ l ls, D.enums[e]? = some ls ∧ l ∈ ls

/-- Dictionaries have every key once, and the same expression in memory has one content. -/
def HeapIds (heap : Nat → Option Fields) : Prop :=
  (∀ o fs, heap o = some fs → (fs.map (·.1)).Nodup) ∧
  ∀ o o' fs fs', heap o = some fs → heap o' = some fs' →
    ∀ f ∈ fs, ∀ g ∈ fs', f.2.id = g.2.id → f.2.expr = g.2.expr

/-- What is taken for granted about the components of an object: about those that have a value, and,
if arrays or tuples are left out, that there is some value that they could have. -/
def ObjectGranted (D : Decls) (objTy : Nat → Option Nat) (C : CheckTab) (env : EvEnv) (fs : Fields) (t : Nat) : Prop :=
  ∀ c, HasComp D t c → ∀ n, fs.lookup c.name = some n →
    (n.expr ≠ .inull → Granted C env c.ty n.expr) ∧
    (n.expr = .inull → ((∃ u, c.ty = .tup u) ∨ ∃ id e lo hi, c.ty = .arr id e lo hi) →
      ∃ fe, FOk D objTy fe c.ty ∧ Granted C env c.ty fe)

end Verif.Spec
