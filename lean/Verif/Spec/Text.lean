/-!
# Specification vocabulary for source texts

Independent of the model: positions, lines and columns of a text.
-/
namespace Verif.Spec

/-- Line number (from 1) of the character at offset `i`. -/
def lineOf (content : List Char) (i : Nat) : Nat := 1 + (content.take i).count '\n'

/-- Column (from 1) of the character at offset `i`: one more than the number of
characters between the preceding newline (or the start of the text) and it. -/
def colOf (content : List Char) (i : Nat) : Nat :=
  1 + ((content.take i).reverse.takeWhile (· ≠ '\n')).length

end Verif.Spec
