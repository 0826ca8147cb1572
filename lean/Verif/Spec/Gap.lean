import Verif.Model.PyStr
/-!
# Texts without meaning

What can be written between the words of a file.
-/
namespace Verif.Spec
open Verif.Model

/-- White space and complete comments -/
inductive Gap : List Char → Prop
  | nil : Gap []
  | white {c : Char} {w : List Char} : isSpace c = true → Gap w → Gap (c :: w)
  | line {body w : List Char} : '\n' ∉ body → Gap w → Gap ('/' :: '/' :: (body ++ '\n' :: w))
  /-- the only `*/` after the `/` is at the end (so `/*/` is not a comment here, although it is one for the lexer) -/
  | block {body w : List Char} : (∀ x y, '*' :: (body ++ ['*']) ≠ x ++ '*' :: '/' :: y) → Gap w →
    Gap ('/' :: '*' :: (body ++ '*' :: '/' :: w))

/-- What can be written after the last word: the last comment need not be followed by a new line -/
inductive Ending : List Char → Prop
  | gap {w : List Char} : Gap w → Ending w
  | comment {w body : List Char} : Gap w → '\n' ∉ body → Ending (w ++ '/' :: '/' :: body)

/-- White space at the beginning -/
def SpaceFirst (w : List Char) : Prop := ∃ c r, w = c :: r ∧ isSpace c = true

end Verif.Spec
