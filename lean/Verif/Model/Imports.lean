import Verif.Model.Run.Preamble
/-!
# The lint check for unused imports (`trlc/lint.py:224-254`)

The check runs after everything else, and only if there was no error (`trlc/trlc.py:545-546`).  It
looks at every file that was parsed and at every package imported there.  `cu.imports` is a Python
set, so the order of the messages about one file is not determined; the model has the order of the
import statements.
-/
namespace Verif.Model

/-- `trlc/parser.py:739-749, 1926-1936` the values that were written in a file: value nodes are
numbered (`PS.nid`), and `n0` is the first number that was free when the parser of the file took over.
Only the values of components and of `freeze` have a node, so this is the top level only. -/
def PS.written (s : PS) (n0 : Nat) : List PVal :=
  ((s.objs.flatMap (·.fields) ++ s.infos.flatMap (·.frozen)).filter fun f => n0 ≤ f.2.id).map (·.2.val)

/-- `trlc/lint.py:242-246` the references of a value, if it is a string with references that a token
links to.  The links are made at `trlc/parser.py:748-749, 1934-1936`, which is for the value of a
component as a whole: the strings inside arrays and tuples have no link, since
`trlc/parser.py:1878-1884` makes none. -/
def PVal.linkedRefs : PVal → List MRef
  | .markup _ refs => refs
  | _ => []

/-- `trlc/lint.py:224-229` `markup_ref`: is there a reference into the package?  (Packages are compared
by name there; different packages have different names.) -/
def markupRef (p : Nat) (vals : List PVal) : Bool :=
  vals.any fun v => v.linkedRefs.any fun r => r.pkg == p

/-- What is known of a file after it was parsed: all tokens, comments included
(`trlc/lexer.py:641`), the imported packages with their names, and the values written in it -/
structure LintFile where
  tokens  : List Token
  imports : List (List Char × Nat)
  values  : List PVal

/-- `trlc/lint.py:238-248` `len(import_tokens)` for one package -/
def LintFile.uses (f : LintFile) (i : List Char × Nat) : Nat :=
  (f.tokens.filter fun t => t.value = .str i.1).length + (if markupRef i.2 f.values then 1 else 0)

/-- `trlc/lint.py:231-254` `verify_imports` for one file: the names of the imports that are said to be
unused -/
def LintFile.unused (f : LintFile) : List (List Char) :=
  (f.imports.filter fun i => f.uses i = 1).map Prod.fst

/-- `trlc/lint.py:231-241` what the check looks at for a file: `n0` is the number of the first value
that was written in it, `s` the state after it was parsed. -/
def Loaded.lintFile (g : STab) (l : Loaded) (n0 : Nat) (s : PS) : LintFile :=
  { tokens := (lexAll l.src.file.content).1
    imports := (l.cu.imports.getD []).filterMap fun n => (pkgNumber g n).map fun p => (n, p)
    values := s.written n0 }

end Verif.Model
