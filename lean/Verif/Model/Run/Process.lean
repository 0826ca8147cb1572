import Verif.Model.Run.Preamble
import Verif.Model.Checks
import Verif.Model.Lint
/-!
# A whole run (`trlc/trlc.py:378-548, 640-816`)
-/
namespace Verif.Model

/-- `trlc/trlc.py:416-422` parse one rsl file, `try: … except TRLC_Error: ok = False` -/
def runRslFile (rx : Regex) (f : OpenFile) : P Bool := do
  P.modify fun s => s.enter f
  P.tryCatch (parseRslFile f.env rx) (pure false)

/-- `trlc/trlc.py:394-428` the rsl files in the order in which they are parsed -/
def runRslFiles (rx : Regex) : List OpenFile → P Bool
  | [] => pure true
  | f :: fs => do
    let a ← runRslFile rx f
    let b ← runRslFiles rx fs
    pure (a && b)

/-- `rsl_map[node]` (`trlc/trlc.py:384-388`) -/
def rslMap (required : Finset PNode) (ls : List Loaded) (n : PNode) : Option Loaded :=
  ls.find? fun l => l.cu.file.kind = .rsl && l.cu.package == some n.1 &&
    (l.cu.file.primary || isSecondary required l.cu)

/-- the rsl files in the order in which they are parsed (`trlc/trlc.py:378-428`) -/
def rslFiles (required : Finset PNode) (ls : List Loaded) : List Loaded :=
  (parseRslOrder required (ls.map (·.cu))).1.filterMap (rslMap required ls)

/-- `trlc/trlc.py:378-430` `parse_rsl_files`; after a circular dependency no further files are
parsed. -/
def runRsl (g : STab) (recover : Bool) (rx : Regex) (required : Finset PNode) (ls : List Loaded) :
    P Bool := do
  let ok ← runRslFiles rx ((rslFiles required ls).map (·.openFile g recover))
  if (parseRslOrder required (ls.map (·.cu))).2 then
    P.report (.other 21)
    pure false
  else pure ok

/-- `trlc/trlc.py:438-445` the trlc files that are parsed -/
def trlcFiles (required : Finset PNode) (ls : List Loaded) : List Loaded :=
  ls.filter fun l => l.cu.file.kind = .trlc && !l.cu.err &&
    (l.cu.file.primary || isSecondary required l.cu)

/-- `trlc/trlc.py:430-452` `parse_trlc_files` -/
def runTrlc (g : STab) (recover : Bool) (required : Finset PNode) (ls : List Loaded) : P Bool :=
  runTrlcFiles ((trlcFiles required ls).map (·.openFile g recover))

/-- The options of `Source_Manager` (`trlc/trlc.py:88-116`) -/
structure Options where
  lint      : Bool
  parseTrlc : Bool
  recover   : Bool

/-- What the linter does (`trlc/lint.py:26-254`): the calls on the message handler, and whether it ends
with `True`, `False` or an internal exception. -/
structure LintOut where
  calls : List MHCall
  out   : Option Bool

/-- The linter without verification of checks (`verify_mode` is false; see `Model/Lint.lean`);
`render` gives locations and texts of its messages.
(`trlc/lint.py:42-62`) -/
def linter (render : LintMsg → String × String) (g : STab) (s : PS) : LintOut :=
  match s.sanityChecks g with
  | .ok ms => ⟨ms.map fun m => .check (render m).1 (render m).2 m.category, some true⟩
  | .error _ => ⟨[], none⟩

/-- What is not determined here: Python's `re`, what is done with the declarations in lint mode
(`linter`, or `verifying` in `Model/Vcg/Declared.lean` if checks are verified), locations, and the messages that do not influence anything: hints of the parser in lint mode
(`trlc/parser.py:703, 964, 1485`), warnings on imports (`trlc/ast.py:255-257`,
`trlc/lint.py:229-256`). -/
structure Outside where
  rx    : Regex
  lint  : STab → PS → LintOut
  notes : List Loaded → PS → List MHCall
  locs  : Locs

/-- Internal exceptions of a run (`trlc/trlc.py:481-548`) -/
inductive ProcCrash
  | parse (c : PCrash)
  | check (c : CheckCrash)
  | lint
  deriving Repr, DecidableEq

/-- How `process` ends: with the symbol table, with `None`, or with an internal exception.
(`trlc/trlc.py:481-548`) -/
inductive ProcEnd
  | table
  | none
  | crash (c : ProcCrash)
  deriving Repr, DecidableEq

/-- The end of a run: the last state of the parsers, with the errors reported by them, and the
other calls on the message handler.
(`trlc/trlc.py:481-548`) -/
structure ProcOut where
  out   : ProcEnd
  state : PS
  calls : List MHCall

/-- `trlc/trlc.py:518-548` from parsing the trlc files to the end; `ok` is the result so far and
`calls` are the messages so far. -/
def finish (o : Options) (X : Outside) (g : STab) (required : Finset PNode) (ls : List Loaded)
    (ok : Bool) (calls : List MHCall) (s : PS) : ProcOut :=
  match runTrlc g o.recover required ls s with
  | .crash c s' => ⟨.crash (.parse c), s', calls⟩
  | .err s' => ⟨.none, s', calls⟩
  | .ok false s' => ⟨.none, s', calls⟩
  | .ok true s' =>
    let s'' := { s' with errs := s'.errs ++ s'.resolveAll g }
    if s'.resolveAll g ≠ [] then ⟨.none, s'', calls⟩
    else if !ok then ⟨.none, s'', calls⟩
    else
      let r := performChecks s'' g s''.checks X.rx.search X.locs
      match r.out with
      | .crash c => ⟨.crash (.check c), s'', calls ++ r.calls⟩
      | .raised => ⟨.none, s'', calls ++ r.calls⟩
      | .ok false => ⟨.none, s'', calls ++ r.calls⟩
      | .ok true => ⟨.table, s'', calls ++ r.calls⟩

/-- `trlc/trlc.py:495-516` from parsing the rsl files on; `ok` is the result of `build_graph`. -/
def analyse (o : Options) (X : Outside) (g : STab) (required : Finset PNode) (ls : List Loaded)
    (ok : Bool) (s : PS) : ProcOut :=
  match runRsl g o.recover X.rx required ls s with
  | .crash c s' => ⟨.crash (.parse c), s', []⟩
  | .err s' => ⟨.none, s', []⟩
  | .ok b s' =>
    let ok := ok && b
    if !o.recover && !ok then ⟨.none, s', []⟩
    else
      let l : LintOut := if o.lint && ok then X.lint g s' else ⟨[], some true⟩
      match l.out with
      | none => ⟨.crash .lint, s', l.calls⟩
      | some b =>
        let ok := ok && b
        if !o.parseTrlc then ⟨if ok then .table else .none, s', l.calls⟩
        else finish o X g required ls ok l.calls s'

/-- `trlc/ast.py:3730-3755` the table with the builtin types and functions -/
def globalTable : STab := STab.empty.registerAll [
  ⟨"Integer".toList, 1, clsBuiltinType⟩, ⟨"Decimal".toList, 2, clsBuiltinType⟩,
  ⟨"Boolean".toList, 0, clsBuiltinType⟩, ⟨"String".toList, 3, clsBuiltinType⟩,
  ⟨"Markup_String".toList, 4, clsBuiltinType⟩, ⟨"len".toList, 0, clsFunction⟩,
  ⟨"startswith".toList, 1, clsFunction⟩, ⟨"endswith".toList, 2, clsFunction⟩,
  ⟨"matches".toList, 3, clsFunction⟩, ⟨"oneof".toList, 4, clsFunction⟩]

/-- The state of a new source manager with the given message handler (`trlc/trlc.py:74-107`) -/
def PS.fresh (errs : List PErr) : PS :=
  { ct := none, nt := none, rest := [], sects := [], decls := ⟨[], [], []⟩, infos := [], seps := [],
    tabs := [], objs := [], nid := 0, errs }

/-- The symbol tables of all packages (`trlc/ast.py:2765-2774`): empty, and the global table is
visible.  (The code creates them while preambles are parsed; they are used only afterwards.) -/
def PS.withPackages (s : PS) (g : STab) : PS :=
  { s with tabs := List.replicate (g.own.filter (fun x => isPackage x.2)).length (STab.importing g) }

/-- `trlc/trlc.py:481-548` `process` on registered files, including those registered by
`build_graph` (309-311).  `required` is what the loop of `trlc/trlc.py:359-363` finds; it takes
elements out of a set in an order that is not determined, see `Required`. -/
def process (o : Options) (X : Outside) (required : List CU → Finset PNode) (fs : List Source)
    (s : PS) : ProcOut :=
  match loadAll globalTable fs s with
  | .crash c s' => ⟨.crash (.parse c), s', []⟩
  | .err s' => ⟨.none, s', []⟩
  | .ok (g, ls) s' =>
    let r := analyse o X g (required (ls.map (·.cu))) ls (ls.all fun l => !l.cu.err)
      (s'.withPackages g)
    { r with calls := r.calls ++ X.notes ls r.state }

/-- `trlc/trlc.py:306-311` with the files of the include directories that were not registered
before: registering these is the first step; errors are ignored. -/
def processAll (o : Options) (X : Outside) (required : List CU → Finset PNode) (fs : List Source)
    (includes : List SrcFile) (s : PS) : ProcOut :=
  match registerFiles o.parseTrlc includes s with
  | .crash c s' => ⟨.crash (.parse c), s', []⟩
  | .err s' => ⟨.none, s', []⟩
  | .ok (more, _) s' => process o X required (fs ++ more) s'

/-- A call that counts as an error (`trlc/errors.py:278-335`) -/
def MHCall.isError : MHCall → Bool
  | .error .. | .lexError .. => true
  | _ => false

/-- A call that counts as a warning (`trlc/errors.py:337-376`) -/
def MHCall.isWarning : MHCall → Bool
  | .warning .. | .check .. => true
  | _ => false

/-- `errors` of the message handler (`trlc/errors.py:172-191`) -/
def ProcOut.errors (r : ProcOut) : Nat := r.state.errs.length + r.calls.countP MHCall.isError

/-- `warnings` of the message handler (`trlc/errors.py:172-191`) -/
def ProcOut.warnings (r : ProcOut) : Nat := r.calls.countP MHCall.isWarning

/-- `trlc/trlc.py:690-726` the command line tool on the files found for its arguments: register
them, and process if all could be registered. -/
def runTool (o : Options) (X : Outside) (required : List CU → Finset PNode)
    (files includes : List SrcFile) : ProcOut :=
  match registerFiles o.parseTrlc files (PS.fresh []) with
  | .crash c s => ⟨.crash (.parse c), s, []⟩
  | .err s => ⟨.none, s, []⟩
  | .ok (fs, ok) s => if ok then processAll o X required fs includes s else ⟨.none, s, []⟩

/-- How the command line tool ends: with an exit code or an internal exception.
(`trlc/trlc.py:798-816`) -/
inductive Exit
  | code (n : Nat)
  | crash (c : ProcCrash)
  deriving Repr, DecidableEq

/-- `trlc/trlc.py:720-726, 798-805` the exit code -/
def commandLine (errorOnWarnings : Bool) (r : ProcOut) : Exit :=
  match r.out with
  | .crash c => .crash c
  | .none => .code 1
  | .table => .code (if (errorOnWarnings && r.warnings ≠ 0) || r.errors ≠ 0 then 1 else 0)

end Verif.Model
