import Verif.Model.Sources
import Verif.Model.Vcg.Example
/-!
# References to other places in messages (`trlc/trlc.py:126-137`, `trlc/errors.py:211-216`)

`os.path` is that of POSIX systems.  Paths starting with exactly two slashes are treated as if there was one
only.
-/
namespace Verif.Model

/-- `path.split("/")`, used by `os.path` (`trlc/trlc.py:132-137`) -/
def splitSlash : List Char → List (List Char)
  | [] => [[]]
  | c :: cs =>
    if c = '/' then [] :: splitSlash cs
    else match splitSlash cs with
      | w :: ws => (c :: w) :: ws
      | [] => [[c]]

/-- the loop of `os.path.normpath` for absolute paths (`trlc/trlc.py:132-137`) -/
def normStep (done : List (List Char)) (w : List Char) : List (List Char) :=
  if w = [] ∨ w = ['.'] then done
  else if w = ['.', '.'] then done.dropLast
  else done ++ [w]

/-- `os.path.abspath`, as the list of the parts between slashes; `cwd` is the current directory
(`trlc/trlc.py:132-137`) -/
def absParts (cwd path : List Char) : List (List Char) :=
  (splitSlash (if path.head? = some '/' then path else cwd ++ '/' :: path)).foldl normStep []

/-- `len(os.path.commonprefix([a, b]))` for lists of names (`trlc/trlc.py:132-137`) -/
def commonLen : List (List Char) → List (List Char) → Nat
  | a :: as, b :: bs => if a = b then commonLen as bs + 1 else 0
  | _, _ => 0

/-- `os.path.join` of names (`trlc/trlc.py:132-137`) -/
def joinSlash : List (List Char) → List Char
  | [] => []
  | [w] => w
  | w :: ws => w ++ '/' :: joinSlash ws

/-- `os.path.relpath(path, start)` (`trlc/trlc.py:132-137`) -/
def relPath (cwd path start : List Char) : List Char :=
  let p := absParts cwd path
  let s := absParts cwd start
  let i := commonLen s p
  match List.replicate (s.length - i) ['.', '.'] ++ p.drop i with
  | [] => ['.']
  | ws => joinSlash ws

/-- `trlc/trlc.py:126-137` `cross_file_reference`, with `trlc/errors.py:55-75` for the case that there is no
common root -/
def crossRef (cwd : List Char) (root : Option (List Char)) (file : List Char) (line : Option Nat) : List Char :=
  match root with
  | none => file ++ (match line with | some n => ':' :: natText n | none => [])
  | some r => relPath cwd file r ++ (match line with | some n => ':' :: natText n | none => [])

end Verif.Model
