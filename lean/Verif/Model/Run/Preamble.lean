import Verif.Model.Run.Objects
import Verif.Model.Markup
import Verif.Model.Parse.Rsl
import Verif.Model.Sources
/-!
# From the text of the files to the dependency graph
(`trlc/trlc.py:152-165, 194-348`, `trlc/parser.py:127-152, 286-334, 1963-2005`)

`Model/Sources.lean` models the same code on preambles that are already read;
`Lemmas/Preamble.lean` shows that both agree.
-/
namespace Verif.Model

/-- A file as it is given to `register_file` (`trlc/trlc.py:194-233`); the kind is its
extension. -/
structure SrcFile where
  name    : String
  kind    : FKind
  primary : Bool
  content : List Char
  deriving Repr, DecidableEq

/-- A registered file: the parser object, as far as it belongs to one file.
(`trlc/trlc.py:269-304`) -/
structure Source where
  file : SrcFile
  ct   : Option Token
  nt   : Option Token
  rest : List LexOut

/-- The parser object of a registered file takes over. (`trlc/trlc.py:320-323`) -/
def PS.use (s : PS) (f : Source) : PS :=
  { s with ct := f.ct, nt := f.nt, rest := f.rest, sects := [] }

/-- `trlc/trlc.py:152-165`, `trlc/parser.py:127-143, 300-313` a parser is created; its constructor
asks for the first token. -/
def createParser (f : SrcFile) : P Source := fun s =>
  match P.advance { s with ct := none, nt := none,
                           rest := lexStream (f.content.length + 1) (LexState.init f.content) } with
  | .ok _ s' => .ok ⟨f, s'.ct, s'.nt, s'.rest⟩ s'
  | .err s' => .err s'
  | .crash c s' => .crash c s'

/-- `trlc/trlc.py:194-233, 266-304` `register_file`; the result is the parser if the file could
be registered (with `none` for trlc files if these are not to be parsed), and whether there was
no error.  The file names are assumed to be different, see `Registry`. -/
def registerFile (parseTrlc : Bool) (f : SrcFile) : P (Option Source × Bool) :=
  if f.kind = .trlc && !parseTrlc then pure (none, true)
  else P.tryCatch (do let src ← createParser f; pure (some src, true)) (pure (none, false))

/-- Several files are registered. (`trlc/trlc.py:706-717`) -/
def registerFiles (parseTrlc : Bool) : List SrcFile → P (List Source × Bool)
  | [] => pure ([], true)
  | f :: fs => do
    let r ← registerFile parseTrlc f
    let rs ← registerFiles parseTrlc fs
    pure (r.1.toList ++ rs.1, r.2 && rs.2)

/-- A file after its preamble was parsed: what is known about it, the number of its package (of
no meaning if there is none), and the parser.
(`trlc/trlc.py:313-345`) -/
structure Loaded where
  cu  : CU
  pid : Nat
  src : Source

/-- `trlc/parser.py:1970-1972` -/
def readPackage : P Token := do
  let _ ← P.matchKw "package"
  P.matchK .IDENTIFIER

/-- `trlc/parser.py:1974-1989` declare or look up the package; its number -/
def declarePackage (stab : STab) (kind : FKind) (p : List Char) : Except SymErr (STab × Nat) :=
  if kind = .rsl || !stab.contains p then
    let id := (stab.own.filter (fun x => isPackage x.2)).length
    match stab.register ⟨p, id, clsPackage⟩ with
    | .ok stab' => .ok (stab', id)
    | .error e => .error e
  else match stab.lookup p (some isPackage) with
    | .ok e => .ok (stab, e.id)
    | .error e => .error e

/-- `trlc/parser.py:1998-2005` the loop over the imports: the names read, and how it ends.  The
import of the own package is an error (`trlc/ast.py:248-250`); what happens with the other names
is `addImports`. -/
def readImports (own : List Char) : Nat → PS → List (List Char) × PR Unit
  | 0, s => ([], .crash .fuel s)
  | k + 1, s =>
    if s.peekKw "import" then
      match (do let _ ← P.matchKw "import"; P.matchK .IDENTIFIER : P Token) s with
      | .ok t s' =>
        if t.text = own then ([t.text], P.fail (.other 20) s')
        else
          let r := readImports own k s'
          (t.text :: r.1, r.2)
      | .err s' => ([], .err s')
      | .crash c s' => ([], .crash c s')
    else ([], .ok () s)

/-- The file as `Model/Sources.lean` sees it (`trlc/trlc.py:313-345`) -/
def SrcFile.fileIn (f : SrcFile) (pre : Preamble) : FileIn := ⟨f.name, f.kind, f.primary, pre⟩

/-- A file of which the package could not be read or declared (`trlc/trlc.py:320-333`) -/
def Loaded.broken (src : Source) (pre : Preamble) : Loaded :=
  ⟨⟨src.file.fileIn pre, none, [], none, true⟩, 0, src⟩

/-- A file with a package (`trlc/trlc.py:320-333`) -/
def Loaded.known (src : Source) (p : List Char) (id : Nat) (imps : List (List Char)) (failed : Bool)
    (s : PS) : Loaded :=
  ⟨⟨src.file.fileIn (.pkg p imps failed), some p, (addImports p [] imps).1, none, failed⟩, id,
    ⟨src.file, s.ct, s.nt, s.rest⟩⟩

/-- `trlc/trlc.py:319-332`, `trlc/parser.py:1963-2005` the preamble of one file; an error is
caught. -/
def loadPreamble (stab : STab) (src : Source) : P (STab × Loaded) := fun s =>
  match readPackage (s.use src) with
  | .crash c s' => .crash c s'
  | .err s' => .ok (stab, .broken src .unreadable) s'
  | .ok t s1 =>
    match declarePackage stab src.file.kind t.text with
    | .error e => .ok (stab, .broken src (.pkg t.text [] false)) { s1 with errs := s1.errs ++ [.sym e] }
    | .ok (stab', id) =>
      match readImports t.text (s1.toks + 1) s1 with
      | (_, .crash c s') => .crash c s'
      | (imps, .ok _ s') => .ok (stab', .known src t.text id imps false s') s'
      | (imps, .err s') => .ok (stab', .known src t.text id imps true s') s'

/-- `trlc/trlc.py:318-332` the preambles of all files of one kind -/
def loadPreambles (stab : STab) : List Source → P (STab × List Loaded)
  | [] => pure (stab, [])
  | f :: fs => do
    let r ← loadPreamble stab f
    let rs ← loadPreambles r.1 fs
    pure (rs.1, r.2 :: rs.2)

/-- The errors reported by `resolve_imports` (`trlc/ast.py:260-273`) -/
def importErrors (stab : STab) (cu : CU) : List PErr :=
  if cu.err || cu.package.isNone then []
  else cu.raw.filterMap fun i => match stab.lookup i (some isPackage) with
    | .ok _ => none
    | .error e => some (.sym e)

/-- `trlc/trlc.py:334-343` the imports of all files of one kind -/
def resolveLoaded (stab : STab) (ls : List Loaded) : P (List Loaded) := do
  P.modify fun s => { s with errs := s.errs ++ ls.flatMap fun l => importErrors stab l.cu }
  pure (ls.map fun l => { l with cu := resolveImports stab l.cu })

/-- `sorted(container)` (`trlc/trlc.py:320`) -/
def sortSources (fs : List Source) : List Source :=
  pySort (fun a b => pyLe a.file.name.toList b.file.name.toList) fs

/-- `trlc/trlc.py:313-348` preambles and imports, rsl files first: the global table and all
files.  The result of `build_graph` is `True` iff no file has `err`. -/
def loadAll (stab : STab) (fs : List Source) : P (STab × List Loaded) := do
  let r1 ← loadPreambles stab (sortSources (fs.filter (·.file.kind = .rsl)))
  let l1 ← resolveLoaded r1.1 r1.2
  let r2 ← loadPreambles r1.1 (sortSources (fs.filter (·.file.kind = .trlc)))
  let l2 ← resolveLoaded r2.1 r2.2
  pure (r2.1, l1 ++ l2)

/-- the number of a package that is known by name (`trlc/ast.py:261-274`) -/
def pkgNumber (g : STab) (p : List Char) : Option Nat :=
  match g.lookup p (some isPackage) with
  | .ok e => some e.id
  | .error _ => none

/-- What the parser of a file knows after `build_graph` (`trlc/parser.py:286-334`) -/
def Loaded.openFile (g : STab) (recover : Bool) (l : Loaded) : OpenFile :=
  let imports := (l.cu.imports.getD []).filterMap (pkgNumber g)
  let resolved := l.cu.imports.isSome
  { env := { global := g, pkg := l.pid, imports, recover,
             markup := markupParser ⟨g, l.pid, imports, resolved⟩ l.src.file.content, resolved }
    ct := l.src.ct
    nt := l.src.nt
    rest := l.src.rest }

end Verif.Model
