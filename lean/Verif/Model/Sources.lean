import Verif.Model.SymbolTable
import Mathlib.Data.Finset.Basic
import Mathlib.Data.Finset.Image
import Verif.Model.PySort
/-!
# Source manager: preambles, dependency graph, order of parsing
(`trlc/trlc.py:118-150`, `306-452`, `trlc/parser.py:1963-2005`, `trlc/ast.py:207-289`)
-/
namespace Verif.Model

/-- The two kinds of files (`trlc/trlc.py:194-232`) -/
inductive FKind | rsl | trlc
  deriving Repr, DecidableEq

/-- The preamble of a file as tokens: either broken before the package is known, or a
package name and a list of imports, after which (`broken`) a syntax error may come.
(`trlc/parser.py:1963-2005`) -/
inductive Preamble
  | unreadable
  | pkg (name : List Char) (imports : List (List Char)) (broken : Bool)
  deriving Repr, DecidableEq

/-- A registered file.  Its content after the preamble is not part of this model.
(`trlc/trlc.py:269-304`) -/
structure FileIn where
  name    : String
  kind    : FKind
  primary : Bool
  pre     : Preamble
  deriving Repr, DecidableEq

/-- A file after `build_graph`: `trlc/ast.py:220-225`, plus whether it was put into
`files_with_preamble_errors` (`trlc/trlc.py:332`). -/
structure CU where
  file    : FileIn
  package : Option (List Char)
  raw     : List (List Char)
  imports : Option (List (List Char))
  err     : Bool
  deriving Repr, DecidableEq

/-- `isinstance(rv, Package)` (`trlc/ast.py:261-274`) -/
def isPackage (e : Ent) : Bool := e.cls == clsPackage

/-- `trlc/parser.py:1999-2005` and `trlc/ast.py:240-258` `add_import`: import names in
order; importing the own package is a fatal error; duplicates are skipped (with a
warning, not modelled).  The flag tells whether an error was raised. -/
def addImports (own : List Char) (raw : List (List Char)) : List (List Char) → List (List Char) × Bool
  | [] => (raw, false)
  | i :: is =>
    if i = own then (raw, true)
    else if raw.contains i then addImports own raw is
    else addImports own (raw ++ [i]) is

/-- `trlc/parser.py:1963-2005` `parse_preamble`; packages are numbered in the order in which they
are declared. -/
def parsePreamble (stab : STab) (f : FileIn) : STab × CU :=
  match f.pre with
  | .unreadable => (stab, ⟨f, none, [], none, true⟩)
  | .pkg p imps broken =>
    let go (stab : STab) : STab × CU :=
      let r := addImports p [] imps
      (stab, ⟨f, some p, r.1, none, r.2 || broken⟩)
    if f.kind = .rsl || !stab.contains p then
      match stab.register ⟨p, (stab.own.filter (fun x => isPackage x.2)).length, clsPackage⟩ with
      | .ok stab' => go stab'
      | .error _ => (stab, ⟨f, none, [], none, true⟩)
    else match stab.lookup p (some isPackage) with
      | .ok _ => go stab
      | .error _ => (stab, ⟨f, none, [], none, true⟩)

/-- `trlc/trlc.py:318-332` all preambles of one kind, in the given order -/
def parsePreambles (stab : STab) : List FileIn → STab × List CU
  | [] => (stab, [])
  | f :: fs =>
    let (stab1, cu) := parsePreamble stab f
    let (stab2, cus) := parsePreambles stab1 fs
    (stab2, cu :: cus)

/-- `trlc/ast.py:260-273` `resolve_imports`; an unknown package is reported and
otherwise ignored (the exception is swallowed).  Skipped after preamble errors
(`trlc/trlc.py:336-341`). -/
def resolveImports (stab : STab) (cu : CU) : CU :=
  if cu.err || cu.package.isNone then cu
  else { cu with imports := some (cu.raw.filter (fun i =>
    match stab.lookup i (some isPackage) with
    | .ok _ => true
    | .error _ => false)) }

/-- Python's `sorted` on file names (code point order) (`trlc/trlc.py:320, 336`) -/
def sortFiles (fs : List FileIn) : List FileIn := 
  pySort (fun a b => pyLe a.name.toList b.name.toList) fs

/-- `trlc/trlc.py:306-348` first half of `build_graph`: global table and compilation
units, rsl files first.  The includes registered at 310-311 are part of `fs` (not
primary). -/
def buildCUs (stab : STab) (fs : List FileIn) : STab × List CU :=
  let (s1, c1) := parsePreambles stab (sortFiles (fs.filter (·.kind = .rsl)))
  let c1 := c1.map (resolveImports s1)
  let (s2, c2) := parsePreambles s1 (sortFiles (fs.filter (·.kind = .trlc)))
  let c2 := c2.map (resolveImports s2)
  (s2, c1 ++ c2)

/-- A node of the dependency graph: a package's rsl or trlc part (`trlc/trlc.py:315-345`) -/
abbrev PNode := List Char × FKind

/-- The keys of `graph` (`trlc/trlc.py:324-327`) -/
def graphKeys : List CU → List PNode
  | [] => []
  | cu :: cus => match cu.package, cu.err with
    | some p, false => (p, .rsl) :: (p, .trlc) :: graphKeys cus
    | _, _ => graphKeys cus

/-- The import edges of `graph[node]` (`trlc/trlc.py:346-348`), collected over all units
instead of by updating a dictionary -/
def importEdges (node : PNode) : List CU → List PNode
  | [] => []
  | cu :: cus =>
    if cu.err = false ∧ cu.package = some node.1 ∧ cu.file.kind = node.2 then
      (cu.imports.getD []).map (fun i => (i, node.2)) ++ importEdges node cus
    else importEdges node cus

/-- `graph[node]` (`trlc/trlc.py:324-327`, `346-348`); no edges outside the keys
(`self.dep_graph.get(node, set())`, line 397) -/
def graphDeps (cus : List CU) (node : PNode) : List PNode :=
  if node ∈ graphKeys cus then
    (if node.2 = .trlc then [(node.1, .rsl)] else []) ++ importEdges node cus
  else []

/-- `trlc/trlc.py:351-357` the initial work list -/
def graphRoots (cus : List CU) : List PNode :=
  (cus.filterMap (fun cu => match cu.package with
    | some p => if cu.file.primary then some (p, cu.file.kind) else none
    | none => none)).filter (fun n => decide (n ∈ graphKeys cus))

/-- One round of the loop at `trlc/trlc.py:359-363`.  `set.pop` removes *some* element, so
this is a relation. -/
inductive CloseStep {N : Type} [DecidableEq N] (keys : Finset N) (deps : N → Finset N) :
    Finset N × Finset N → Finset N × Finset N → Prop
  | pop {wl req : Finset N} {n : N} (h : n ∈ wl) :
      CloseStep keys deps (wl, req) ((wl.erase n) ∪ ((deps n \ insert n req) ∩ keys), insert n req)

/-- Zero or more rounds (`trlc/trlc.py:350-363`) -/
inductive CloseRun {N : Type} [DecidableEq N] (keys : Finset N) (deps : N → Finset N) :
    Finset N × Finset N → Finset N × Finset N → Prop
  | refl (s) : CloseRun keys deps s s
  | step {s t u} : CloseStep keys deps s t → CloseRun keys deps t u → CloseRun keys deps s u

/-- `trlc/trlc.py:350-363`: `required` is a possible outcome of the closure loop. -/
def Required (cus : List CU) (required : Finset PNode) : Prop :=
  CloseRun (graphKeys cus).toFinset (fun n => (graphDeps cus n).toFinset)
    ((graphRoots cus).toFinset, ∅) (∅, required)

/-- `trlc/trlc.py:366-371`: the `secondary` flag -/
def isSecondary (required : Finset PNode) (cu : CU) : Bool :=
  !cu.file.primary && !cu.err && (match cu.package with
    | some p => decide ((p, cu.file.kind) ∈ required)
    | none => false)

/-- `trlc/trlc.py:374`: total number of files that need parsing -/
def progressFinal (required : Finset PNode) (cus : List CU) : Nat :=
  cus.countP (fun cu => !cu.err && (match cu.package with
    | some p => decide ((p, cu.file.kind) ∈ required)
    | none => false))

/-- `trlc/trlc.py:384-388`: rsl files selected for parsing (note: units with preamble
errors are not excluded here) -/
def selectedRsl (required : Finset PNode) (cus : List CU) : List CU :=
  cus.filter (fun cu => cu.file.kind = .rsl && cu.package.isSome &&
    (cu.file.primary || isSecondary required cu))

/-- `trlc/trlc.py:438-445`: trlc files selected for parsing -/
def selectedTrlc (required : Finset PNode) (cus : List CU) : List CU :=
  cus.filter (fun cu => cu.file.kind = .trlc && !cu.err && (cu.file.primary || isSecondary required cu))

/-- `trlc/trlc.py:394-428` the loop of `parse_rsl_files`: layers of nodes whose
dependencies have all been processed.  Returns the nodes in the order they are parsed
and whether the loop ended with the circularity error.  `sort` stands for Python's
`sorted`; `rounds` bounds the number of rounds (every round but the last removes at
least one node, so the length of the work list is enough: theorem
`C15_enough_rounds`). -/
def parseLayers {N : Type} [DecidableEq N] (deps : N → List N) (sort : List N → List N) :
    (rounds : Nat) → (workList processed : List N) → List N × Bool
  | 0, wl, _ => ([], !wl.isEmpty)
  | rounds + 1, wl, processed =>
    if wl.isEmpty then ([], false)
    else
      let cand := wl.filter (fun n => (deps n).all (fun d => processed.contains d))
      if cand.isEmpty then ([], true)
      else
        let (out, circ) := parseLayers deps sort rounds (wl.filter (fun n => !cand.contains n))
          (processed ++ sort cand)
        (sort cand ++ out, circ)

/-- `trlc/trlc.py:410-415`: Python's `sorted` on `(name, kind)` pairs (in a work list all
kinds are `rsl`) -/
def sortNodes (l : List PNode) : List PNode :=
  pySort (fun a b => pyLe a.1 b.1) l

/-- `trlc/trlc.py:378-430` `parse_rsl_files`: order of parsing and circularity error -/
def parseRslOrder (required : Finset PNode) (cus : List CU) : List PNode × Bool :=
  let wl := (selectedRsl required cus).filterMap (fun cu => cu.package.map (fun p => (p, FKind.rsl)))
  parseLayers (graphDeps cus) sortNodes wl.length wl []

/-! ## Registering files (`trlc/trlc.py:167-304`) -/

/-- `self.includes` and the names of registered files.  A path is given by its absolute
form and the spelling used.  The dictionaries for rsl and trlc files are kept as one list
(the extension decides which, so they can not overlap).
(`trlc/trlc.py:74-107, 167-304`) -/
structure Registry where
  includes : List (String × String)
  files    : List (String × String)
  deriving Repr, DecidableEq

/-- `dict.update` for one entry (`trlc/trlc.py:167-192`) -/
def dictSet (d : List (String × String)) (k v : String) : List (String × String) :=
  d.filter (fun e => e.1 ≠ k) ++ [(k, v)]

/-- `trlc/trlc.py:167-192` `register_include`; the argument lists the rsl and trlc files
found by `os.walk`. -/
def Registry.includeDir (r : Registry) (found : List (String × String)) : Registry :=
  { r with includes := found.foldl (fun d e => dictSet d e.1 e.2) r.includes }

/-- `trlc/trlc.py:194-304` `register_file` with `register_rsl_file`/`register_trlc_file`;
`none` is the failing assertion `file_name not in self.rsl_files`.  Reading the file
(lexing) is not modelled. -/
def Registry.file (r : Registry) (abs name : String) : Option Registry :=
  if r.files.any (fun e => e.2 = name) then none
  else some { includes := r.includes.filter (fun e => e.1 ≠ abs), files := r.files ++ [(abs, name)] }

/-- What a caller does before `process` (`trlc/trlc.py:167-304`) -/
inductive RegOp
  | includeDir (found : List (String × String))
  | file (abs name : String)
  deriving Repr, DecidableEq

/-- A sequence of registrations (`trlc/trlc.py:167-304`) -/
def Registry.run (r : Registry) : List RegOp → Option Registry
  | [] => some r
  | .includeDir found :: ops => (r.includeDir found).run ops
  | .file abs name :: ops => match r.file abs name with
    | some r' => r'.run ops
    | none => none

/-- Register the given files one after the other (`trlc/trlc.py:194-232`) -/
def Registry.fileAll (r : Registry) : List (String × String) → Option Registry
  | [] => some r
  | e :: es => match r.file e.1 e.2 with
    | some r' => r'.fileAll es
    | none => none

/-- `trlc/trlc.py:309-311` the includes still there when processing starts are registered
in order of their names -/
def Registry.close (r : Registry) : Option Registry :=
  r.fileAll (pySort (fun a b => pyLe a.2.toList b.2.toList) r.includes)

/-! ## Common root (`trlc/trlc.py:139-150`) -/

/-- Length of the common part found by the `zip` loop: `some n` if characters differ at
`n`, `none` if one path is a prefix of the other (then the root is kept).
(`trlc/trlc.py:139-150`) -/
def firstDiff : List Char → List Char → Option Nat
  | a :: as, b :: bs => if a ≠ b then some 0 else (firstDiff as bs).map (· + 1)
  | _, _ => none

/-- `update_common_root`; the argument is `os.path.dirname(os.path.abspath(file_name))`
(`trlc/trlc.py:139-150`) -/
def updateCommonRoot (root : Option (List Char)) (dir : List Char) : Option (List Char) :=
  match root with
  | none => some dir
  | some r => match firstDiff r dir with
    | some n => some (r.take n)
    | none => some r

/-! ## Progress (`trlc/trlc.py:118-124`) -/

/-- The values passed to `callback_parse_progress` by `n` calls of `signal_progress`,
starting with `progress_current = cur`
(`trlc/trlc.py:118-124`) -/
def progressSignals (final : Nat) : (n cur : Nat) → List Nat
  | 0, _ => []
  | n + 1, cur =>
    min (if final = 0 then 100 else (cur + 1) * 100 / final) 100 :: progressSignals final n (cur + 1)

end Verif.Model
