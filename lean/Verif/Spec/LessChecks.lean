import Verif.Spec.Rearrange
import Verif.Spec.RslText
/-!
# Removing checks

The text of an rsl file after its preamble consists of blocks: declarations of types, and checks.  `Unchecked` says that
in the second text some of the check blocks of the first are missing.
-/
namespace Verif.Spec
open Verif.Model

/-- Something before an opening brace, and everything up to the closing brace -/
def BlockShape (ts : List Token) : Prop :=
  ∃ h b r k, ts = h ++ b :: (r ++ [k]) ∧ (∀ t ∈ h, NoBrace t) ∧ b.kind = .C_BRA ∧ (∀ t ∈ r, NoBrace t) ∧ k.kind = .C_KET

/-- The second text has the blocks of the first, apart from some blocks of checks. -/
inductive Unchecked (E E' : FileEnv) : List Token → List Token → Prop
  | nil : Unchecked E E' [] []
  | keep {a a' b b'} : BlockShape a → List.Forall₂ (SameTok E E') a a' → Unchecked E E' b b' →
      Unchecked E E' (a ++ b) (a' ++ b')
  | drop {k a b b'} : BlockShape (k :: a) → IsKw "checks" k → Unchecked E E' b b' → Unchecked E E' (k :: a ++ b) b'

/-- The same file, possibly with fewer checks -/
structure LessChecked (f f' : OpenFile) : Prop where
  global   : f'.env.global = f.env.global
  pkg      : f'.env.pkg = f.env.pkg
  imports  : f'.env.imports = f.env.imports
  resolved : f'.env.resolved = f.env.resolved
  words    : Unchecked f.env f'.env (fileWords f) (fileWords f')

/-- Every type has some of the checks, in the same order. -/
structure FewerChecks (C' C : CheckTab) : Prop where
  recs : List.Forall₂ List.Sublist C'.recs C.recs
  tups : List.Forall₂ List.Sublist C'.tups C.tups

end Verif.Spec
