import Verif.Spec.Grammar
import Verif.Spec.Written
import Verif.Spec.References
import Mathlib.Data.List.Forall2
import Verif.Model.Run.Preamble
/-!
# Preambles as written (`trlc/parser.py:1963-2005`)
-/
namespace Verif.Spec
open Verif.Model

/-- `import IDENTIFIER`, any number of times -/
inductive ImportsText : List Token → List (List Char) → Prop
  | nil : ImportsText [] []
  | cons {k t : Token} {ts : List Token} {is : List (List Char)} : IsKw "import" k →
      t.kind = .IDENTIFIER → ImportsText ts is → ImportsText (k :: t :: ts) (t.text :: is)

/-- `package IDENTIFIER`, followed by imports -/
def PreambleText (ts : List Token) (p : List Char) (is : List (List Char)) : Prop :=
  ∃ k t ts', ts = k :: t :: ts' ∧ IsKw "package" k ∧ t.kind = .IDENTIFIER ∧ t.text = p ∧
    ImportsText ts' is

/-- The tokens in front of the parser of a file. -/
def sourceWords (f : Source) : List Token :=
  match f.nt with
  | none => []
  | some t => t :: tokensOf f.rest

/-- The preamble of the file `src` was read.  If there was no error, it is written at the start of
the tokens of `src`, and it says to which package the file belongs and what it imports. -/
def FileText (src : Source) (l : Loaded) : Prop :=
  l.src.file = src.file ∧ (l.cu.err = false → ∃ p is ts, l.cu.package = some p ∧
    l.cu.file.pre = .pkg p is false ∧ sourceWords src = ts ++ sourceWords l.src ∧ PreambleText ts p is)

/-- The files of a run: rsl files first, each kind sorted by name; packages are numbered. -/
structure FilesRead (fs : List Source) (ls : List Loaded) : Prop where
  noErr : ∀ l ∈ ls, l.cu.err = false
  text : List.Forall₂ FileText
    (sortSources (fs.filter (·.file.kind = .rsl)) ++ sortSources (fs.filter (·.file.kind = .trlc))) ls
  numbers : ∀ l ∈ ls, ∀ l' ∈ ls, l.cu.package = l'.cu.package ↔ l.pid = l'.pid

/-- What the parser of a file knows when it parses the text after the preamble: the package the
file belongs to; of the packages imported those that some file declares (for rsl files: some
rsl file); and the names of all packages. -/
structure Opened (ls : List Loaded) (l : Loaded) (f : OpenFile) : Prop where
  words : fileWords f = sourceWords l.src
  pkg : f.env.pkg = l.pid
  resolved : f.env.resolved = true
  imports : ∀ p is, l.cu.file.pre = .pkg p is false →
    ∀ q, q ∈ f.env.imports ↔ ∃ i ∈ is, ∃ l' ∈ ls, l'.cu.package = some i ∧ l'.pid = q ∧
      (l.src.file.kind = .rsl → l'.src.file.kind = .rsl)
  names : ∀ l' ∈ ls, ∀ p, l'.cu.package = some p →
    ∃ e, f.env.global.lookup p (some isPackage) = .ok e ∧ e.id = l'.pid

end Verif.Spec
