import Verif.Model.PyStr
/-!
# Source locations (`trlc/lexer.py:69-123` `Source_Reference`)

The lexer of a reference is modelled by its text `content`; a reference by the line
and column of its start and its first and last character offset.
-/
namespace Verif.Model

/-- `trlc/lexer.py:90-95` first loop of `context_lines`.  The first argument is `n + 1`
(so `0` is `n = -1`); returns the line collected so far and the final `n + 1`.  The
case of `content[n]` out of range can not occur (`n ≤ start_pos < length`). -/
def ctxBack (content : List Char) : Nat → List Char → List Char × Nat
  | 0, line => (line, 0)
  | n + 1, line =>
    match content[n]? with
    | some c => if c = '\n' then (line, n + 1) else ctxBack content n (c :: line)
    | none => (line, n + 1)

/-- `trlc/lexer.py:98-102` second loop of `context_lines`, on the characters from `n` on;
returns the line and the final `n`. -/
def ctxFwd : List Char → Nat → List Char → List Char × Nat
  | [], n, line => (line, n)
  | c :: r, n, line => if c = '\n' then (line, n) else ctxFwd r (n + 1) (line ++ [c])

/-- `" " * n` (empty for negative `n`) and `"^" * n` (`trlc/lexer.py:87-109`) -/
def pyRepeat (c : Char) (n : Int) : List Char := List.replicate n.toNat c

/-- `trlc/lexer.py:87-109` `Source_Reference.context_lines` -/
def contextLines (content : List Char) (startPos endPos : Nat) : List Char × List Char :=
  let (line1, n1) := ctxBack content (startPos + 1) []
  let offset : Int := (startPos : Int) - ((n1 : Int) - 1) - 1
  let (line, n2) := ctxFwd (content.drop (startPos + 1)) (startPos + 1) line1
  let maxtrail : Int := (n2 : Int) - startPos
  let tlen : Int := (endPos : Int) + 1 - startPos
  let stripped := lstrip line
  let strippedOffset : Int := offset - ((line.length : Int) - stripped.length)
  (stripped, pyRepeat ' ' strippedOffset ++ pyRepeat '^' (min tlen maxtrail))

/-- `trlc/lexer.py:118-121` loop of `get_end_location`: `for n in range(end_pos, 1, -1)`.
The argument is the current `n`. -/
def endColLoop (content : List Char) (endPos : Nat) : Nat → Nat
  | n + 2 =>
    if content[n + 2]? = some '\n' then max (endPos - (n + 2)) 1
    else endColLoop content endPos (n + 1)
  | _ => endPos + 1

/-- `trlc/lexer.py:111-123` `Source_Reference.get_end_location`: line and column. -/
def endLocation (content : List Char) (line startPos endPos : Nat) : Nat × Nat :=
  (line + ((content.drop startPos).take (endPos + 1 - startPos)).count '\n',
   endColLoop content endPos endPos)

end Verif.Model
