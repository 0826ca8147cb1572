import Verif.Model.PyStr
/-!
# Model of `trlc/lexer.py`

`RawLexer` is a literal transcription of the fields of `Lexer_Base`; `LexState` is
the representation the rest of the model uses (it keeps the not yet consumed part
of the text instead of three look-ahead characters).  The theorem
`Verif.Lemmas.raw_sim` shows that they agree step by step.
-/
namespace Verif.Model

/-! ## The literal state machine -/

/-- `trlc/lexer.py:181-198` the fields of `Lexer_Base` (`mh`, `tokens` omitted). -/
structure RawLexer where
  content : List Char
  lexpos  : Int
  line_no : Nat
  col_no  : Nat
  cc      : Option Char
  nc      : Option Char
  nnc     : Option Char
  deriving Repr, DecidableEq

/-- Python's `content[i] if i < length else None` for `i ≥ 0` (the only indices
`advance` ever uses).
(`trlc/lexer.py:230-242`) -/
def charAt (content : List Char) (i : Int) : Option Char :=
  if i < content.length then content[i.toNat]? else none

/-- `trlc/lexer.py:230-241` `Lexer_Base.advance` -/
def RawLexer.advance (s : RawLexer) : RawLexer :=
  let lexpos := s.lexpos + 1
  let (line, col) :=
    if s.cc = some '\n' ∨ lexpos = 0 then (s.line_no + 1, 0) else (s.line_no, s.col_no)
  let col := if s.nc.isSome then col + 1 else col
  { content := s.content, lexpos := lexpos, line_no := line, col_no := col,
    cc := s.nc, nc := s.nnc, nnc := charAt s.content (lexpos + 2) }

/-- `trlc/lexer.py:182-198` `Lexer_Base.__init__` -/
def RawLexer.init (content : List Char) : RawLexer :=
  RawLexer.advance (RawLexer.advance
    { content := content, lexpos := -3, line_no := 0, col_no := 0,
      cc := none, nc := none, nnc := none })

/-! ## The state used by the model -/

/-- State of the lexer.  `pos` is `lexpos + 1`, the number of characters moved
past; `cc` is the current character (`None` initially and at end of file); `todo`
are the characters after the current one, so that `nc = todo[0]?` and
`nnc = todo[1]?`.  Models the fields of `Lexer_Base`, `trlc/lexer.py:181-198`. -/
structure LexState where
  content : List Char
  cc      : Option Char
  todo    : List Char
  pos     : Nat
  line    : Nat
  col     : Nat
  deriving Repr, DecidableEq

/-- `self.nc` (`trlc/lexer.py:182-199`) -/
def LexState.nc (s : LexState) : Option Char := s.todo.head?
/-- `self.nnc` (`trlc/lexer.py:182-199`) -/
def LexState.nnc (s : LexState) : Option Char := s.todo.tail.head?
/-- `self.lexpos` (only used when it is not negative) (`trlc/lexer.py:182-199`) -/
def LexState.lexpos (s : LexState) : Nat := s.pos - 1

/-- `trlc/lexer.py:230-241` `Lexer_Base.advance`; `lexpos == 0` after the increment
is `pos = 0` before it. -/
def LexState.advance (s : LexState) : LexState :=
  let nl := s.cc = some '\n' ∨ s.pos = 0
  { content := s.content
    cc   := s.todo.head?
    todo := s.todo.tail
    pos  := s.pos + 1
    line := if nl then s.line + 1 else s.line
    col  := (if nl then 0 else s.col) + (if s.todo.head?.isSome then 1 else 0) }

/-- `trlc/lexer.py:182-198` `Lexer_Base.__init__` (after the two `advance` calls:
`lexpos = -1`, no current character, the whole text ahead). -/
def LexState.init (content : List Char) : LexState :=
  { content := content, cc := none, todo := content, pos := 0, line := 0, col := 0 }

/-- The loop `while self.nc and cond: self.advance()`, which occurs several times
in the lexer (`trlc/lexer.py:226, 345, 352, 509`).  The list argument is always `s.todo`; it makes the recursion
structural. -/
def advWhile (cond : LexState → Bool) : List Char → LexState → LexState
  | [],     s => s
  | _ :: r, s => if cond s then advWhile cond r s.advance else s

/-- `nc` satisfies `p` (`trlc/lexer.py:224-228`) -/
def ncIs (p : Char → Bool) (s : LexState) : Bool := s.nc.any p

/-- `trlc/lexer.py:224-228` `skip_whitespace` -/
def skipWhitespace (s : LexState) : LexState :=
  (advWhile (ncIs isSpace) s.todo s).advance

/-- Token kinds, `trlc/lexer.py:136-158`. -/
inductive Kind
  | COMMENT | IDENTIFIER | KEYWORD | BRA | KET | S_BRA | S_KET | C_BRA | C_KET
  | COMMA | AT | SEMICOLON | COLON | DOT | RANGE | ASSIGN | OPERATOR | ARROW
  | INTEGER | DECIMAL | STRING
  deriving Repr, DecidableEq

/-- Token values, `trlc/lexer.py:160-172`. -/
inductive TokVal
  | none
  | str (s : List Char)
  | int (n : Nat)
  | frac (q : Rat)
  deriving Repr, DecidableEq

/-- `trlc/lexer.py:135-178` `Token` with its `Source_Reference` (69-82) inlined. -/
structure Token where
  kind     : Kind
  value    : TokVal
  startPos : Nat
  endPos   : Nat
  line     : Nat
  col      : Nat
  deriving Repr, DecidableEq

/-- The reported lexical errors (`mh.lex_error` calls of `token`). (`trlc/lexer.py:324-634`) -/
inductive LexErrKind
  | malformedNeq            -- 398
  | unterminatedTriple      -- 423, 475
  | unterminatedString      -- 433
  | newlineInString         -- 441
  | malformedTriple         -- 460
  | badDigit                -- 515
  | digitRequired           -- 525
  | decimalPoint            -- 550
  | unfinishedNumber        -- 568
  | unexpectedChar          -- 577
  deriving Repr, DecidableEq

/-- Outcome of one call of `token()`. (`trlc/lexer.py:324-634`) -/
inductive LexOut
  /-- a token was returned -/
  | tok (t : Token)
  /-- `None` was returned -/
  | eof
  /-- `mh.lex_error` raised `TRLC_Error`, reported for the given span -/
  | error (k : LexErrKind) (startPos endPos : Nat)
  /-- an `AssertionError` from the constructor of `Source_Reference` (76) -/
  | crash
  deriving Repr, DecidableEq

/-- `TRLC_Lexer.KEYWORDS`, `trlc/lexer.py:245-278` -/
def KEYWORDS : List String :=
  ["abs", "abstract", "and", "checks", "else", "elsif", "enum", "error", "exists",
   "extends", "false", "fatal", "final", "forall", "freeze", "if", "implies",
   "import", "in", "not", "null", "optional", "or", "package", "section",
   "separator", "then", "true", "tuple", "type", "warning", "xor"]

/-- `TRLC_Lexer.PUNCTUATION`, `trlc/lexer.py:280-295` -/
def punctuation : Char → Option Kind
  | '(' => some .BRA   | ')' => some .KET
  | '{' => some .C_BRA | '}' => some .C_KET
  | '[' => some .S_BRA | ']' => some .S_KET
  | ',' => some .COMMA | '@' => some .AT
  | ':' => some .COLON | ';' => some .SEMICOLON
  | '/' => some .OPERATOR | '%' => some .OPERATOR
  | '+' => some .OPERATOR | '-' => some .OPERATOR
  | _   => none

/-- Result of scanning the characters of a token: the final state and the kind
(and base for numbers), or an error outcome.
(`trlc/lexer.py:324-585`) -/
inductive Scan
  | ok   (s : LexState) (k : Kind) (base : Nat)
  | fail (s : LexState) (o : LexOut)
  deriving Repr, DecidableEq

/-- `mh.lex_error(Source_Reference(start_pos, end_pos), ...)`: the constructor
asserts `0 <= start_pos <= end_pos < length` (`trlc/lexer.py:76`). -/
def lexError (s : LexState) (k : LexErrKind) (startPos endPos : Nat) : Scan :=
  if startPos ≤ endPos ∧ endPos < s.content.length then .fail s (.error k startPos endPos)
  else .fail s .crash

/-- `trlc/lexer.py:339-340` loop of a `//` comment:
`while self.cc and self.nc != "\n": self.advance()` -/
def lineComment : List Char → LexState → LexState
  | [],     s => if s.cc.isSome then s.advance else s
  | _ :: r, s => if s.cc.isSome ∧ s.nc ≠ some '\n' then lineComment r s.advance else s

/-- `trlc/lexer.py:345-347` loop of a block comment and the final `advance`. -/
def blockComment (s : LexState) : LexState :=
  (advWhile (fun s => !(s.cc == some '*' && s.nc == some '/')) s.todo s).advance

/-- `trlc/lexer.py:415-429` and `467-481`: body of a triple-quoted string with
quote character `q`; `startPos` is the start of the token. -/
def tripleLoop (q : Char) (startPos : Nat) : List Char → LexState → Nat → Scan
  | [], s, _ => lexError s.advance .unterminatedTriple startPos s.advance.lexpos
  | _ :: r, s, seen =>
    let s' := s.advance
    let seen' := if s'.cc = some q then seen + 1 else 0
    if s'.nc = none then lexError s' .unterminatedTriple startPos s'.lexpos
    else if seen' < 3 then tripleLoop q startPos r s' seen'
    else .ok s' .STRING 0

/-- `trlc/lexer.py:431-452` body of a simple string and the final `advance`.  The
list argument is `s.todo`; the case `c :: d :: r` covers the iteration that skips
an escaped quote. -/
def simpleString (startPos : Nat) : List Char → LexState → Scan
  | [], s => lexError s .unterminatedString startPos s.lexpos
  | c :: r, s =>
    if c = '"' then .ok s.advance .STRING 0
    else if c = '\n' then lexError s .newlineInString startPos s.lexpos
    else
      match r with
      | d :: r' =>
        if c = '\\' ∧ d = '"' then simpleString startPos r' s.advance.advance
        else simpleString startPos (d :: r') s.advance
      | [] => simpleString startPos [] s.advance

/-- Local variables of the number branch, `trlc/lexer.py:483-507`. -/
structure NumSt where
  allowed   : List Char
  forbidden : List Char
  base      : Nat
  require   : Bool
  decimal   : Bool
  kind      : Kind
  deriving Repr, DecidableEq

/-- `trlc/lexer.py:509-574` the loop of the number branch and the final check.
The list argument is `s.todo`. -/
def numLoop (startPos : Nat) : List Char → LexState → NumSt → Scan
  | [], s, v =>
    if v.require then lexError s .unfinishedNumber startPos s.lexpos else .ok s v.kind v.base
  | c :: r, s, v =>
    if v.allowed.contains c then numLoop startPos r s.advance { v with require := false }
    else if v.forbidden.contains c then lexError s .badDigit (s.lexpos + 1) (s.lexpos + 1)
    else if v.require then lexError s .digitRequired (s.lexpos + 1) (s.lexpos + 1)
    else if c = '_' then numLoop startPos r s.advance { v with require := true }
    else if c = '.' ∧ s.nnc = some '.' then .ok s v.kind v.base
    else if c = '.' then
      if v.decimal then
        numLoop startPos r s.advance { v with decimal := false, require := true, kind := .DECIMAL }
      else lexError s.advance .decimalPoint s.advance.lexpos s.advance.lexpos
    else .ok s v.kind v.base

/-- `"0123456789"` (`trlc/lexer.py:490-504`) -/
def decDigits : List Char := ['0','1','2','3','4','5','6','7','8','9']
/-- `"abcdefABCDEF"` (`trlc/lexer.py:490-504`) -/
def hexLetters : List Char := ['a','b','c','d','e','f','A','B','C','D','E','F']

/-- `trlc/lexer.py:483-574` number branch -/
def number (startPos : Nat) (s : LexState) (c : Char) : Scan :=
  if c = '0' ∧ s.nc = some 'b' then
    let s' := s.advance
    numLoop startPos s'.todo s'
      ⟨['0','1'], ['2','3','4','5','6','7','8','9'] ++ hexLetters, 2, true, false, .INTEGER⟩
  else if c = '0' ∧ s.nc = some 'x' then
    let s' := s.advance
    numLoop startPos s'.todo s' ⟨decDigits ++ hexLetters, [], 16, true, false, .INTEGER⟩
  else
    numLoop startPos s.todo s ⟨decDigits, hexLetters, 10, false, true, .INTEGER⟩

/-- `trlc/lexer.py:454-481` single-quote branch: two more quotes are required, then
the body follows. -/
def singleQuote (startPos : Nat) (s : LexState) : Scan :=
  let s1 := s.advance
  if s1.cc ≠ some '\'' then lexError s1 .malformedTriple startPos s1.lexpos
  else
    let s2 := s1.advance
    if s2.cc ≠ some '\'' then lexError s2 .malformedTriple startPos s2.lexpos
    else tripleLoop '\'' startPos s2.todo s2 0

/-- `trlc/lexer.py:336-578` the branch selection of `token`, on the current
character `c = self.cc`. -/
def scan (s : LexState) (c : Char) : Scan :=
  let start := s.lexpos
  if c = '/' ∧ s.nc = some '/' then .ok (lineComment s.todo s) .COMMENT 0
  else if c = '/' ∧ s.nc = some '*' then .ok (blockComment s) .COMMENT 0
  else if isAlpha c then
    .ok (advWhile (ncIs (fun d => isAlnum d || d == '_')) s.todo s) .IDENTIFIER 0
  else match punctuation c with
  | some k => .ok s k 0
  | none =>
    if c = '=' then
      if s.nc = some '>' then .ok s.advance .ARROW 0
      else if s.nc = some '=' then .ok s.advance .OPERATOR 0
      else .ok s .ASSIGN 0
    else if c = '.' then
      if s.nc = some '.' then .ok s.advance .RANGE 0 else .ok s .DOT 0
    else if c = '<' ∨ c = '>' then
      if s.nc = some '=' then .ok s.advance .OPERATOR 0 else .ok s .OPERATOR 0
    else if c = '!' then
      if s.nc = some '=' then .ok s.advance .OPERATOR 0
      else lexError s .malformedNeq s.lexpos s.lexpos
    else if c = '*' then
      if s.nc = some '*' then .ok s.advance .OPERATOR 0 else .ok s .OPERATOR 0
    else if c = '"' then
      if s.nc = some '"' ∧ s.nnc = some '"' then
        let s2 := s.advance.advance
        tripleLoop '"' start s2.todo s2 0
      else simpleString start s.todo s
    else if c = '\'' then singleQuote start s
    else if isNumeric c then number start s c
    else lexError s .unexpectedChar s.lexpos s.lexpos

/-- Common leading part of the white-space prefix `ws` and `line`: the loop
`trlc/lexer.py:56-61`, which cuts `common_len` at the first index where the line
ends or differs. -/
def commonPrefix : List Char → List Char → List Char
  | w :: ws, c :: cs => if c = w then w :: commonPrefix ws cs else []
  | _, _ => []

/-- `trlc/lexer.py:27-66` `triple_quoted_string_value`, on the raw token text
including its quotes. -/
def tripleQuotedValue (raw : List Char) : List Char :=
  let lines := splitlines (strip ((raw.drop 3).take (raw.length - 6)))
  match lines with
  | [] => []
  | first :: rest =>
    match lines.filter (fun l => !(strip l).isEmpty) with
    | _ :: second :: _ =>
      let ws := second.takeWhile (fun c => c = ' ' || c = '\t')
      let common := (rest.drop 1).foldl
        (fun ws line => if (strip line).isEmpty then ws else commonPrefix ws line) ws
      rest.foldl (fun v line => v ++ '\n' :: rstrip (line.drop common.length)) first
    | _ => first

/-- `Source_Reference.text()` (`trlc/lexer.py:84-85`) for the span of a token. -/
def slice (content : List Char) (startPos endPos : Nat) : List Char :=
  (content.drop startPos).take (endPos + 1 - startPos)

/-- `value[1:-1]` (`trlc/lexer.py:598-605`) -/
def innerText (v : List Char) : List Char := (v.drop 1).dropLast

/-- `v.endswith("*/")` and its removal, `trlc/lexer.py:626-627` -/
def dropBlockEnd (v : List Char) : List Char :=
  match v.reverse with
  | '/' :: '*' :: r => r.reverse
  | _ => v

/-- `trlc/lexer.py:586-631` kind and value of a token from its text. -/
def finishToken (k : Kind) (base : Nat) (text : List Char) : Kind × TokVal :=
  match k with
  | .IDENTIFIER =>
    (if KEYWORDS.contains (String.ofList text) then .KEYWORD else .IDENTIFIER, .str text)
  | .OPERATOR => (k, .str text)
  | .STRING =>
    if ['"','"','"'].isPrefixOf text then (k, .str (tripleQuotedValue text))
    else if ['"'].isPrefixOf text then (k, .str (unescapeQuotes (innerText text)))
    else (k, .str (tripleQuotedValue text))
  | .INTEGER =>
    let t := text.filter (· ≠ '_')
    if base = 10 then (k, .int (pyInt 10 t))
    else if base = 2 then (k, .int (pyInt 2 (t.drop 2)))
    else (k, .int (pyInt 16 (t.drop 2)))
  | .DECIMAL => (k, .frac (pyFraction (text.filter (· ≠ '_'))))
  | .COMMENT =>
    if ['/','/'].isPrefixOf text then (k, .str (strip (text.drop 2)))
    else (k, .str (strip (dropBlockEnd (text.drop 2))))
  | _ => (k, .none)

/-- `trlc/lexer.py:324-633` `TRLC_Lexer.token`: the outcome and the new state. -/
def token (s0 : LexState) : LexOut × LexState :=
  let s := skipWhitespace s0
  match s.cc with
  | none => (.eof, s)
  | some c =>
    match scan s c with
    | .fail s' o => (o, s')
    | .ok s' k base =>
      let endPos := min s'.lexpos (s'.content.length - 1)
      let text := slice s'.content s.lexpos endPos
      let (kind, value) := finishToken k base text
      (.tok { kind := kind, value := value, startPos := s.lexpos, endPos := endPos,
              line := s.line, col := s.col }, s')

/-- Calling `token()` up to `fuel` times until end of file or the first error: the
tokens seen and the last outcome (`none` if `fuel` ran out first).  Models the way
`Token_Stream.token` (`trlc/lexer.py:636-642`) collects tokens. -/
def tokensUpTo : Nat → LexState → List Token × Option LexOut
  | 0, _ => ([], none)
  | n + 1, s =>
    match token s with
    | (.tok t, s') => let (ts, o) := tokensUpTo n s'; (t :: ts, o)
    | (o, _)       => ([], some o)

/-- Lexing a whole text until end of file or the first error. (`trlc/lexer.py:324-634`) -/
def lexAll (content : List Char) : List Token × Option LexOut :=
  tokensUpTo (content.length + 1) (LexState.init content)

end Verif.Model
