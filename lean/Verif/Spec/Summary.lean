import Verif.Spec.Project
/-!
# Vocabulary for the summary printed by the command line tool
-/
namespace Verif.Spec
open Verif.Model

/-- words with single spaces between them -/
def spaced : List (List Char) → List Char
  | [] => []
  | [w] => w
  | w :: v :: ws => w ++ ' ' :: spaced (v :: ws)

/-- The text consists of these words. -/
def HasWords (t : List Char) (ws : List (List Char)) : Prop := t = spaced ws ∧ ws ≠ [] ∧ ∀ w ∈ ws, ' ' ∉ w

/-- Word `a` is followed by word `b` somewhere in the text. -/
def Adjacent (t a b : List Char) : Prop := ∃ l r, HasWords t (l ++ a :: b :: r)

/-- A file that is given to the tool, or that is needed by such a file -/
def Needed (fs : List Source) (f : Source) : Prop := ∃ p, Belongs f p ∧ PkgWanted fs (p, f.file.kind)

/-- What the list of files says about a file: it was given to the tool, it is needed, or it is not used. -/
def FileStatus (fs : List Source) (f : Source) (t : String) : Prop :=
  (f.file.primary = true ∧ t = "[Primary] ") ∨ (f.file.primary = false ∧ Needed fs f ∧ t = "[Included]") ∨
  (f.file.primary = false ∧ ¬ Needed fs f ∧ t = "[Excluded]")

/-- how the list names the kinds of files -/
def kindWord : FKind → String
  | .rsl => "Model"
  | .trlc => "Requirements"

/-- The line is the one about the file. -/
def ListsFile (fs : List Source) (f : Source) (line : List Char) : Prop :=
  ∃ st p, FileStatus fs f st ∧ Belongs f p ∧
    line = ("> " ++ st ++ " " ++ kindWord f.file.kind ++ " " ++ f.file.name ++
      " (Package " ++ String.ofList p ++ ")").toList

end Verif.Spec
