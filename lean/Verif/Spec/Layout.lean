import Verif.Model.Run.Process
/-!
# The words of a file, without its layout

White space, comments and positions are left out; of a string literal the text between the quotes counts as it is
written, since names in markup strings are read from it.
-/
namespace Verif.Spec
open Verif.Model

/-- A word of a file, or the place of a lexical error -/
inductive LWord
  | word (kind : Kind) (value : TokVal) (literal : List Char)
  | error (k : LexErrKind)
  | broken
  deriving Repr, DecidableEq

/-- The text of a string literal, with its quotes; numbers and names are known by their value. -/
def literalText (content : List Char) (t : Token) : List Char :=
  if t.kind = .STRING then (content.drop t.startPos).take (t.endPos + 1 - t.startPos) else []

/-- The words among the results of the lexer -/
def wordsAmong (content : List Char) : List LexOut → List LWord
  | [] => []
  | .eof :: _ => []
  | .tok t :: r =>
    if t.kind = .COMMENT then wordsAmong content r
    else .word t.kind t.value (literalText content t) :: wordsAmong content r
  | .error k _ _ :: r => .error k :: wordsAmong content r
  | .crash :: r => .broken :: wordsAmong content r

/-- The words of a file -/
def wordsOf (content : List Char) : List LWord :=
  wordsAmong content (lexStream (content.length + 1) (LexState.init content))

/-- The same file in another layout -/
structure SameText (f f' : SrcFile) : Prop where
  name    : f'.name = f.name
  kind    : f'.kind = f.kind
  primary : f'.primary = f.primary
  words   : wordsOf f'.content = wordsOf f.content

/-- A message without its location -/
def withoutLoc : MHCall → MHCall
  | .lexError _ m => .lexError "" m
  | .error _ m fatal user => .error "" m fatal user
  | .warning _ m user => .warning "" m user
  | .check _ m category => .check "" m category
  | .suppress k => .suppress k

/-- What can be seen of the state after a run: types, their components and checks, the names in the packages, the
objects with their values, and the errors that were reported -/
structure SameState (s s' : PS) : Prop where
  decls  : s'.decls = s.decls
  infos  : s'.infos = s.infos
  seps   : s'.seps = s.seps
  checks : s'.checks = s.checks
  tabs   : s'.tabs = s.tabs
  objs   : s'.objs = s.objs
  errs   : s'.errs = s.errs

/-- The same outcome of a run, up to locations -/
structure SameOutcome (r r' : ProcOut) : Prop where
  out   : r'.out = r.out
  state : SameState r.state r'.state
  calls : r'.calls.map withoutLoc = r.calls.map withoutLoc

end Verif.Spec
