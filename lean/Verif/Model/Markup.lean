import Verif.Model.Parse.Value
/-!
# Markup strings (`trlc/parser.py:30-124, 226-280`, `trlc/nested.py`)
-/
namespace Verif.Model

/-! ## The text of a string literal -/

/-- `trlc/nested.py:31-32` `origin_full_text.startswith(('"""', "'''"))` -/
def isMultiString (raw : List Char) : Bool :=
  ['"', '"', '"'].isPrefixOf raw || ['\'', '\'', '\''].isPrefixOf raw

/-- `trlc/nested.py:33-38` the text between the quotes -/
def nestedText (raw : List Char) : List Char :=
  if isMultiString raw then (raw.drop 3).take (raw.length - 6) else unescapeQuotes (innerText raw)

/-- `self.base_offset` (`trlc/nested.py:28-42`) -/
def baseOffset (raw : List Char) : Nat := if isMultiString raw then 3 else 1

/-! ## Tokens -/

/-- `trlc/parser.py:33-40` -/
inductive MKind
  | CHARACTER | BEGIN | END | COMMA | DOT | IDENTIFIER
  deriving Repr, DecidableEq

/-- `trlc/parser.py:30-44` a token with its position in the text between the quotes -/
structure MTok where
  kind     : MKind
  text     : List Char
  startPos : Nat
  endPos   : Nat
  line     : Nat
  col      : Nat
  deriving Repr, DecidableEq

/-- Outcome of one call of `token()`; `error` has the span for which it is reported.
(`trlc/parser.py:56-124`) -/
inductive MOut
  | tok (t : MTok)
  | eof
  | error (startPos endPos line col : Nat)
  deriving Repr, DecidableEq

/-- `self.in_reflist` and the fields of `Lexer_Base` (`trlc/parser.py:47-52`) -/
structure MLex where
  refl : Bool
  s    : LexState
  deriving Repr, DecidableEq

/-- `trlc/parser.py:53-121` `Markup_Lexer.token`.  (The assertions of
`trlc/nested.py:46-49` hold, theorem `C47_in_text`; so they are left out.) -/
def MLex.token (l : MLex) : MOut × MLex :=
  let s := if l.refl then skipWhitespace l.s else l.s.advance
  match s.cc with
  | none => (.eof, ⟨l.refl, s⟩)
  | some c =>
    let mk (k : MKind) (refl : Bool) (s' : LexState) : MOut × MLex :=
      (.tok ⟨k, slice s'.content s.lexpos s'.lexpos, s.lexpos, s'.lexpos, s.line, s.col⟩, ⟨refl, s'⟩)
    if c = '[' ∧ s.nc = some '[' then
      if l.refl then (.error s.lexpos (s.lexpos + 1) s.line s.col, ⟨l.refl, s.advance⟩)
      else mk .BEGIN true s.advance
    else if c = ']' ∧ s.nc = some ']' then
      if l.refl then mk .END false s.advance
      else (.error s.lexpos (s.lexpos + 1) s.line s.col, ⟨l.refl, s.advance⟩)
    else if !l.refl then mk .CHARACTER l.refl s
    else if c = ',' then mk .COMMA l.refl s
    else if c = '.' then mk .DOT l.refl s
    else if isAlpha c then
      mk .IDENTIFIER l.refl (advWhile (ncIs (fun d => isAlnum d || d == '_')) s.todo s)
    else (.error s.lexpos s.lexpos s.line s.col, ⟨l.refl, s⟩)

/-- The results of the calls of `token()`, up to the first `None` or error
(`trlc/parser.py:56-124`) -/
def markupStream : Nat → MLex → List MOut
  | 0, _ => []
  | n + 1, l => match l.token with
    | (.tok t, l') => .tok t :: markupStream n l'
    | (.eof, _) => [.eof]
    | (.error a b c d, _) => [.error a b c d]

/-- The tokens of a text; every token consumes a character. (`trlc/parser.py:56-124`) -/
def markupTokens (text : List Char) : List MOut :=
  markupStream (text.length + 1) ⟨false, LexState.init text⟩

/-! ## Locations (`trlc/nested.py:45-81`) -/

/-- `trlc/lexer.py:69-82` `Source_Reference` -/
structure SrcRef where
  line     : Nat
  col      : Nat
  startPos : Nat
  endPos   : Nat
  deriving Repr, DecidableEq

/-- `trlc/nested.py:45-81` `source_location`; `origin` is the location of the literal and `raw`
its text. -/
def nestedLocation (origin : SrcRef) (raw : List Char) (line col startPos endPos : Nat) : SrcRef :=
  if isMultiString raw then
    { line := origin.line + (line - 1)
      col := if line = 1 then origin.col + baseOffset raw else col
      startPos := origin.startPos + baseOffset raw + startPos
      endPos := origin.startPos + baseOffset raw + endPos }
  else
    let escStart := ((nestedText raw).take startPos).count '"'
    let escEnd := escStart + (slice (nestedText raw) startPos endPos).count '"'
    { line := origin.line
      col := origin.col + baseOffset raw + startPos + escStart
      startPos := origin.startPos + baseOffset raw + startPos + escStart
      endPos := origin.startPos + baseOffset raw + endPos + escEnd }

/-! ## The parser -/

/-- `Markup_Parser`: `self.ct`, `self.nt`, what `self.lexer.token()` will return, and
`self.references`
(`trlc/parser.py:127-152, 226-234`) -/
structure MS where
  ct   : Option MTok
  nt   : Option MTok
  rest : List MOut
  refs : List MRef
  deriving Repr, DecidableEq

/-- How a piece of the parser ends (`trlc/parser.py:226-280`) -/
inductive MR
  | ok (s : MS)
  | error
  | crash
  deriving Repr, DecidableEq

/-- Sequential composition (`trlc/errors.py:274-276`) -/
def MR.bind (x : MR) (f : MS → MR) : MR :=
  match x with
  | .ok s => f s
  | .error => .error
  | .crash => .crash

/-- `trlc/parser.py:145-152` `advance` (there are no comments); nothing is read after an error
or the end. -/
def MS.advance (s : MS) : MR :=
  match s.rest with
  | .tok t :: r => .ok { s with ct := s.nt, nt := some t, rest := r }
  | .eof :: _ => .ok { s with ct := s.nt, nt := none, rest := [] }
  | [] => .ok { s with ct := s.nt, nt := none, rest := [] }
  | .error .. :: _ => .error

/-- `trlc/parser.py:161-164` `peek` -/
def MS.peek (s : MS) (k : MKind) : Bool := s.nt.any fun t => t.kind = k

/-- `trlc/parser.py:174-194` `match` -/
def MS.match (s : MS) (k : MKind) : MR := if s.peek k then s.advance else .error

/-- `self.ct.value` (`trlc/parser.py:127-152`) -/
def MS.value (s : MS) : List Char := (s.ct.map (·.text)).getD []

/-- `trlc/parser.py:276-280` the new reference -/
def MS.add (s : MS) (pkg : Nat) : MR := .ok { s with refs := s.refs ++ [⟨pkg, s.value⟩] }

/-- What the parser for markup strings needs of its parent: `stab`, `cu` (`trlc/parser.py:226-234`) -/
structure MEnv where
  global   : STab
  pkg      : Nat
  imports  : List Nat
  resolved : Bool

/-- `trlc/parser.py:251-280` `parse_qualified_name` -/
def MS.qualifiedName (E : MEnv) (s : MS) : MR :=
  (s.match .IDENTIFIER).bind fun s =>
    if s.peek .DOT then
      match E.global.lookupDirect s.value (some fun e => e.cls = clsPackage) false with
      | .error _ => .error
      | .ok e =>
        if !E.resolved then .crash
        else if e.id == E.pkg || E.imports.contains e.id then
          (s.match .DOT).bind fun s => (s.match .IDENTIFIER).bind fun s => s.add e.id
        else .error
    else s.add E.pkg

/-- `trlc/parser.py:246-248` the loop of `parse_ref_list`; `fuel` bounds the number of rounds,
each of which consumes a token (running out is shown as an exception). -/
def MS.names (E : MEnv) : Nat → MS → MR
  | 0, _ => .crash
  | k + 1, s =>
    if s.peek .COMMA then
      (s.match .COMMA).bind fun s => (s.qualifiedName E).bind fun s => MS.names E k s
    else .ok s

/-- `trlc/parser.py:243-249` `parse_ref_list` -/
def MS.refList (E : MEnv) (s : MS) : MR :=
  (s.match .BEGIN).bind fun s => (s.qualifiedName E).bind fun s =>
    (s.names E (s.rest.length + 1)).bind fun s => s.match .END

/-- `trlc/parser.py:234-241` `parse_all_references`; the final `match_eof` can not fail. -/
def MS.all (E : MEnv) : Nat → MS → MR
  | 0, _ => .crash
  | k + 1, s =>
    if s.nt.isSome then
      (if s.peek .CHARACTER then s.advance else s.refList E).bind fun s => MS.all E k s
    else .ok s

/-- `trlc/parser.py:226-241`, `1881-1883`: parse the references in the given text. -/
def parseMarkupText (E : MEnv) (text : List Char) : MarkupOut :=
  let r := (MS.advance ⟨none, none, markupTokens text, []⟩).bind fun s => s.all E (text.length + 2)
  match r with
  | .ok s => .ok s.refs
  | .error => .error
  | .crash => .crash

/-- `trlc/parser.py:1878-1884`: the parser for the markup strings in a file with the given
content; the token is the string literal. -/
def markupParser (E : MEnv) (content : List Char) (t : Token) : MarkupOut :=
  parseMarkupText E (nestedText (slice content t.startPos t.endPos))

end Verif.Model
