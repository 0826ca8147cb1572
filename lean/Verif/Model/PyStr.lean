/-!
# Python string primitives used by the modelled code

Python strings are modelled as `List Char` (sequences of code points).  These are
not TRLC functions; they model the parts of Python's `str` that TRLC relies on
(CPython 3 `Objects/unicodeobject.c`, `unicodetype_db.h`).
-/
namespace Verif.Model

/-- `c.isspace()` for a single character: the Unicode characters with
bidirectional class WS, B or S or category Zs (the table in CPython's
`_PyUnicode_IsWhitespace`).
(`trlc/lexer.py:33-44, 64, 224-228`) -/
def isSpace (c : Char) : Bool :=
  let n := c.toNat
  (0x09 ≤ n && n ≤ 0x0d) || (0x1c ≤ n && n ≤ 0x20) || n == 0x85 || n == 0xa0 ||
  n == 0x1680 || (0x2000 ≤ n && n ≤ 0x200a) || n == 0x2028 || n == 0x2029 ||
  n == 0x202f || n == 0x205f || n == 0x3000

/-- Line boundaries of `str.splitlines()` (other than the pair CR LF). (`trlc/lexer.py:27-66`) -/
def isLineBreak (c : Char) : Bool :=
  let n := c.toNat
  (0x0a ≤ n && n ≤ 0x0d) || (0x1c ≤ n && n ≤ 0x1e) || n == 0x85 || n == 0x2028 || n == 0x2029

/-- `s.lstrip()` (`trlc/lexer.py:27-66`) -/
def lstrip (s : List Char) : List Char := s.dropWhile isSpace

/-- `s.rstrip()` (`trlc/lexer.py:27-66`) -/
def rstrip (s : List Char) : List Char := (s.reverse.dropWhile isSpace).reverse

/-- `s.strip()` (`trlc/lexer.py:27-66`) -/
def strip (s : List Char) : List Char := rstrip (lstrip s)

/-- Worker for `splitlines`: the second argument is the current line, reversed.
A line without characters at the end of the text is not a line (a final line
break does not start a new one).
(`trlc/lexer.py:27-66`) -/
def splitlinesAux : List Char → List Char → List (List Char)
  | [],      []      => []
  | [],      cur     => [cur.reverse]
  | '\r' :: '\n' :: r, cur => cur.reverse :: splitlinesAux r []
  | c :: r,  cur     =>
    if isLineBreak c then cur.reverse :: splitlinesAux r []
    else splitlinesAux r (c :: cur)

/-- `s.splitlines()` (`trlc/lexer.py:27-66`) -/
def splitlines (s : List Char) : List (List Char) := splitlinesAux s []

/-- `s.replace('\\"', '"')`: replace, left to right and without overlap, every
backslash-quote pair by a quote.
(`trlc/lexer.py:602`) -/
def unescapeQuotes : List Char → List Char
  | '\\' :: '"' :: r => '"' :: unescapeQuotes r
  | c :: r           => c :: unescapeQuotes r
  | []               => []

/-- `char.isascii() and char.isalpha()` (`trlc/lexer.py:201-203`) -/
def isAlpha (c : Char) : Bool :=
  ('a'.toNat ≤ c.toNat && c.toNat ≤ 'z'.toNat) || ('A'.toNat ≤ c.toNat && c.toNat ≤ 'Z'.toNat)

/-- `char.isascii() and char.isdigit()` (`trlc/lexer.py:206-209`) -/
def isNumeric (c : Char) : Bool := '0'.toNat ≤ c.toNat && c.toNat ≤ '9'.toNat

/-- `char.isascii() and char.isalnum()` (`trlc/lexer.py:212-214`) -/
def isAlnum (c : Char) : Bool := isAlpha c || isNumeric c

/-- Value of an ASCII digit in base 16 or lower (as in Python's `int(s, base)`);
only applied to characters that the lexer let through as digits.
(`trlc/lexer.py:607-614`) -/
def digitVal (c : Char) : Nat :=
  let n := c.toNat
  if '0'.toNat ≤ n && n ≤ '9'.toNat then n - '0'.toNat
  else if 'a'.toNat ≤ n && n ≤ 'f'.toNat then n - 'a'.toNat + 10
  else if 'A'.toNat ≤ n && n ≤ 'F'.toNat then n - 'A'.toNat + 10
  else 0

/-- `int(s, base)` for a non-empty string of digits valid in that base. (`trlc/lexer.py:607-614`) -/
def pyInt (base : Nat) (s : List Char) : Nat :=
  s.foldl (fun acc c => acc * base + digitVal c) 0

/-- `Fraction(s)` for a string of the form `digits [ '.' digits ]`: CPython's
`fractions.py` computes `int(num + decimal) / 10**len(decimal)`. (`trlc/lexer.py:616-618`) -/
def pyFraction (s : List Char) : Rat :=
  let num  := s.takeWhile (· != '.')
  let dec  := (s.dropWhile (· != '.')).drop 1
  mkRat (pyInt 10 (num ++ dec) : Nat) (10 ^ dec.length)

end Verif.Model
