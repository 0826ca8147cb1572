import Verif.Spec.Preamble
import Verif.Spec.Accepted
import Mathlib.Logic.Relation
/-!
# Which sets of files belong together (`trlc/parser.py:1963-2005`, `trlc/trlc.py:306-348`)
-/
namespace Verif.Spec
open Verif.Model

/-- What the lexer says about the text of a file -/
def lexed (f : SrcFile) : List LexOut := lexStream (f.content.length + 1) (LexState.init f.content)

/-- The lexer finds no error in the file. -/
def CleanSource (f : Source) : Prop := ∀ o ∈ f.rest, (∃ t, o = .tok t) ∨ o = .eof

/-- The file starts with `package p` and the imports `is`, and something else follows. -/
def ReadsPreamble (f : Source) (p : List Char) (is : List (List Char)) : Prop :=
  ∃ ts rest, sourceWords f = ts ++ rest ∧ PreambleText ts p is ∧ ∀ t r, rest = t :: r → ¬ IsKw "import" t

/-- The file says that it belongs to package `p`. -/
def Belongs (f : Source) (p : List Char) : Prop := ∃ is, ReadsPreamble f p is

/-- The file imports package `i`. -/
def Imports (f : Source) (i : List Char) : Prop := ∃ p is, ReadsPreamble f p is ∧ i ∈ is

/-- The names differ at most in underscores and in upper and lower case. -/
def Alike (a b : List Char) : Prop := simplifiedName a = simplifiedName b

/-- The names that are always declared. -/
def builtinNames : List String :=
  ["Integer", "Decimal", "Boolean", "String", "Markup_String", "len", "startswith", "endswith", "matches", "oneof"]

/-- The preambles of the files fit together. -/
structure Project (fs : List Source) : Prop where
  /-- every file has a preamble -/
  reads : ∀ f ∈ fs, ∃ p, Belongs f p
  /-- no file imports its own package -/
  self : ∀ f ∈ fs, ∀ i, Imports f i → ¬ Belongs f i
  /-- packages are not named like builtin types and functions -/
  builtin : ∀ f ∈ fs, ∀ p, Belongs f p → ∀ b ∈ builtinNames, ¬ Alike b.toList p
  /-- the names of different packages differ in more than underscores and case -/
  alike : ∀ f ∈ fs, ∀ f' ∈ fs, ∀ p p', Belongs f p → Belongs f' p' → Alike p p' → p = p'
  /-- there is at most one rsl file for each package -/
  once : (fs.filter (·.file.kind = .rsl)).Pairwise fun f f' => ∀ p, Belongs f p → ¬ Belongs f' p
  /-- imported packages exist; for rsl files they have an rsl file -/
  declared : ∀ f ∈ fs, ∀ i, Imports f i →
    ∃ f' ∈ fs, Belongs f' i ∧ (f.file.kind = .rsl → f'.file.kind = .rsl)

/-- A part of a package (its rsl file, or its trlc files) needs another one: the trlc part needs the rsl
part, and every part needs the same part of what its files import. -/
inductive PkgNeeds (fs : List Source) : PNode → PNode → Prop
  | own {f : Source} {p : List Char} : f ∈ fs → Belongs f p → PkgNeeds fs (p, .trlc) (p, .rsl)
  | imp {f : Source} {p i : List Char} : f ∈ fs → Belongs f p → Imports f i →
      PkgNeeds fs (p, f.file.kind) (i, f.file.kind)

/-- The packages of requested files and everything they need -/
inductive PkgWanted (fs : List Source) : PNode → Prop
  | root {f : Source} {p : List Char} : f ∈ fs → f.file.primary = true → Belongs f p → PkgWanted fs (p, f.file.kind)
  | step {m n : PNode} : PkgWanted fs m → PkgNeeds fs m n → PkgWanted fs n

/-- No package that is wanted needs itself. -/
def NoCycle (fs : List Source) : Prop :=
  ∀ p, PkgWanted fs (p, .rsl) → ¬ Relation.TransGen (PkgNeeds fs) (p, .rsl) (p, .rsl)

end Verif.Spec
