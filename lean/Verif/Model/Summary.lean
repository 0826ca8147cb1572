import Verif.Model.Run.Process
import Verif.Model.Vcg.Example
/-!
# What the command line tool prints at the end (`trlc/trlc.py:741-807`)
-/
namespace Verif.Model

/-- `trlc/trlc.py:750-757` `count` -/
def countText (parsed total : Nat) (what : String) : List Char :=
  natText parsed ++ ((if parsed < total then " (of ".toList ++ (natText total ++ [')']) else []) ++
    (' ' :: what.toList ++ (if total = 0 ∨ total > 1 then ['s'] else [])))

/-- The numbers in the summary (`trlc/trlc.py:741-748, 770-781`) -/
structure Counts where
  parsedModels : Nat
  totalModels  : Nat
  parsedTrlc   : Nat
  totalTrlc    : Nat
  warnings     : Nat
  errors       : Nat
  suppressed   : Nat
  deriving Repr, DecidableEq

/-- `trlc/trlc.py:770-778` -/
def issuesText (warnings errors : Nat) : List Char :=
  if errors ≠ 0 ∧ warnings ≠ 0 then
    ' ' :: (countText warnings warnings "warning" ++ " and ".toList ++ countText errors errors "error")
  else if warnings ≠ 0 then ' ' :: countText warnings warnings "warning"
  else if errors ≠ 0 then ' ' :: countText errors errors "error"
  else " no issues".toList

/-- `trlc/trlc.py:759-781` the summary -/
def summary (skipTrlc : Bool) (c : Counts) : List Char :=
  "Processed ".toList ++ (countText c.parsedModels c.totalModels "model" ++
    ((if skipTrlc then [] else " and ".toList ++ countText c.parsedTrlc c.totalTrlc "requirement file") ++
    (" and found".toList ++ (issuesText c.warnings c.errors ++
    (if c.suppressed ≠ 0 then " with ".toList ++ (natText c.suppressed ++ " supressed messages".toList) else [])))))

/-- `item.primary or item.secondary` (`trlc/trlc.py:744, 748`) -/
def isParsed (required : Finset PNode) (cu : CU) : Bool := cu.file.primary || isSecondary required cu

/-- The counts after a run (`trlc/trlc.py:741-748`); `r` is the result of `process` on the files `fs` -/
def countsOf (required : List CU → Finset PNode) (ls : List Loaded) (r : ProcOut) (suppressed : Nat) : Counts :=
  let cus := ls.map (·.cu)
  let R := required cus
  { parsedModels := cus.countP fun cu => cu.file.kind = .rsl && isParsed R cu
    totalModels := cus.countP fun cu => cu.file.kind = .rsl
    parsedTrlc := cus.countP fun cu => cu.file.kind = .trlc && isParsed R cu
    totalTrlc := cus.countP fun cu => cu.file.kind = .trlc
    warnings := r.warnings
    errors := r.errors
    suppressed }

/-- `trlc/trlc.py:786-792` `get_status` -/
def statusText (required : Finset PNode) (cu : CU) : String :=
  if cu.file.primary then "[Primary] "
  else if isSecondary required cu then "[Included]"
  else "[Excluded]"

/-- `trlc/trlc.py:794-806` one line of the list of files; `none` is the exception if the package is not known -/
def fileLine (what : String) (required : Finset PNode) (cu : CU) : Option (List Char) :=
  cu.package.map fun p => "> ".toList ++ ((statusText required cu).toList ++ (' ' :: what.toList ++ (' ' ::
    cu.file.name.toList ++ (" (Package ".toList ++ (p ++ [')'])))))

/-- all lines, or `none` if there is an exception (`trlc/trlc.py:794-806`) -/
def fileLines (what : String) (required : Finset PNode) : List CU → Option (List (List Char))
  | [] => some []
  | cu :: cus => do
    let l ← fileLine what required cu
    let ls ← fileLines what required cus
    pure (l :: ls)

/-- `trlc/trlc.py:785-806` the list of files, models first, each kind sorted by name -/
def fileList (skipTrlc : Bool) (required : Finset PNode) (cus : List CU) : Option (List (List Char)) := do
  let sort := pySort fun a b : CU => pyLe a.file.name.toList b.file.name.toList
  let ms ← fileLines "Model" required (sort (cus.filter (·.file.kind = .rsl)))
  let rs ← if skipTrlc then pure [] else fileLines "Requirements" required (sort (cus.filter (·.file.kind = .trlc)))
  pure (ms ++ rs)

end Verif.Model
