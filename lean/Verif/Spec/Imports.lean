import Verif.Model.Imports
import Verif.Model.Run.Process
import Verif.Spec.Export
/-!
# Imports that are not needed
-/
namespace Verif.Spec
open Verif.Model

/-- Some markup string in the value, however deep, refers to package number `p`. -/
inductive RefersInto (p : Nat) : PVal → Prop
  | markup {s : List Char} {refs : List MRef} {r : MRef} : r ∈ refs → r.pkg = p → RefersInto p (.markup s refs)
  | neg {e : PVal} : RefersInto p e → RefersInto p (.neg e)
  | pos {e : PVal} : RefersInto p e → RefersInto p (.pos e)
  | arr {τ : Ty} {es : List PVal} {e : PVal} : e ∈ es → RefersInto p e → RefersInto p (.arr τ es)
  | tup {t : Nat} {fs : List (String × PVal)} {f : String × PVal} : f ∈ fs → RefersInto p f.2 → RefersInto p (.tup t fs)

/-- Some markup string that is a part of the value (an element of an array, say) refers to package
number `p`. -/
def RefersInside (p : Nat) (v : PVal) : Prop := RefersInto p v ∧ ∀ s refs, v ≠ .markup s refs

/-- States between two files in a run in which no file had errors so far. -/
inductive Reached (rx : Regex) (g : STab) (s0 : PS) : PS → Prop
  | start : Reached rx g s0 s0
  | rsl {s s' : PS} {f : OpenFile} : Reached rx g s0 s → f.env.global = g →
      runRslFile rx f s = .ok true s' → Reached rx g s0 s'
  | trlc {s s' : PS} {f : OpenFile} : Reached rx g s0 s → f.env.global = g →
      runTrlcFile f s = .ok true s' → Reached rx g s0 s'

/-- The file without the imports of one package -/
def without (l : Loaded) (nm : List Char) : Loaded :=
  { l with cu := { l.cu with imports := l.cu.imports.map fun is => is.filter (· ≠ nm) } }

end Verif.Spec
