import Verif.Model.Lint
import Verif.Spec.Declarations
/-!
# What the linter complains about (LRM and `documentation/linter.md`)
-/
namespace Verif.Spec
open Verif.Model

/-- A type that is looked at: a declared one, or the type of a component or field. -/
inductive Relevant (D : Decls) : Ty → Prop
  | record {t : Nat} : t < D.recs.length → Relevant D (.record t)
  | tup {t : Nat} : t < D.tups.length → Relevant D (.tup t)
  | enum {t : Nat} : t < D.enums.length → Relevant D (.enum t)
  | comp {t : Nat} {c : Comp} : Declares D t c → Relevant D c.ty
  | field {t : Nat} {cs : List Comp} {c : Comp} : D.tups[t]? = some cs → c ∈ cs → Relevant D c.ty

/-- The separator number `i` of tuple type `t` is `x` or `b` and comes after an integer: written
without spaces, a based literal would be read. `b` is the field after it. -/
structure Ambiguous (D : Decls) (seps : List (List Sep)) (t i : Nat) (sep : List Char) (b : Comp) : Prop where
  fields : ∃ (cs : List Comp) (a : Comp), D.tups[t]? = some cs ∧ cs[i]? = some a ∧ cs[i + 1]? = some b ∧
    a.ty = .int
  seps : ∃ (ss : List Sep), seps[t]? = some ss ∧ ss[i]? = some (.ident sep)
  letter : sep = ['x'] ∨ sep = ['b']

/-- What is reported about a type by itself. -/
def LintWarns (D : Decls) (seps : List (List Sep)) : Ty → LintMsg → Prop
  | .tup t, m => ∃ i sep b, Ambiguous D seps t i sep b ∧ m = .separator t sep b.ty
  | .union u ms, m =>
    (ms.length = 1 ∧ m = .unionSingle u) ∨
    ∃ a ∈ ms, ∃ b ∈ ms, a ≠ b ∧ Extends D a b ∧ m = .unionSubtype u a b
  | .arr a _ lo (some hi), m =>
    (hi < lo ∧ m = .arrUpper a) ∨ (lo = 0 ∧ hi = 0 ∧ m = .arrZero a) ∨
    (lo = 1 ∧ hi = 1 ∧ m = .arrOne a) ∨ (lo = 0 ∧ hi = 1 ∧ m = .arrOptional a)
  | _, _ => False

/-- An abstract type that no concrete type extends. -/
def AbstractLeaf (D : Decls) (infos : List RecInfo) (t : Nat) : Prop :=
  (∃ i, infos[t]? = some i ∧ i.isAbstract = true) ∧
  ∀ u i, Extends D u t → infos[u]? = some i → i.isAbstract = true

/-- A value of the type contains an enumeration literal. -/
inductive HasLiteral (D : Decls) : Ty → Prop
  | enum {e : Nat} {ls : List String} : D.enums[e]? = some ls → ls ≠ [] → HasLiteral D (.enum e)
  | field {t : Nat} {cs : List Comp} {c : Comp} : D.tups[t]? = some cs → c ∈ cs → HasLiteral D c.ty →
    HasLiteral D (.tup t)
  | elem {a : Nat} {e : Ty} {lo : Nat} {hi : Option Nat} : HasLiteral D e → HasLiteral D (.arr a e lo hi)

/-- The linter fails on tuple type `t`: a separator that is reported is followed by a further
separator, or by a field whose example cannot be given. -/
def LintFails (D : Decls) (seps : List (List Sep)) (t : Nat) : Prop :=
  ∃ i sep b, Ambiguous D seps t i sep b ∧
    ((∃ (ss : List Sep), seps[t]? = some ss ∧ i + 1 < ss.length) ∨ HasLiteral D b.ty)

end Verif.Spec
