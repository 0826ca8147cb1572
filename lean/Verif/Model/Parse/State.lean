import Verif.Model.Lexer
import Verif.Model.SymbolTable
import Verif.Model.Types
import Verif.Model.Values
import Verif.Model.Elab
/-!
# State of the parser and its primitive operations (`trlc/parser.py:127-223`)

All parsers of one run work on the same symbol tables and message handler, so the state has
a part that belongs to one file (current token, next token, tokens to come, open sections)
and a part that is shared (declared types, package tables, record objects, reported
errors).

`ast_link`s and locations are not modelled.
-/
namespace Verif.Model

/-- A name inside a markup string, once the package is known (`trlc/parser.py:250-279`). -/
structure MRef where
  pkg  : Nat
  name : List Char
  deriving Repr, DecidableEq

/-- Values as they are parsed (`trlc/parser.py:1683-1884`): like `FExpr`, but a reference is
still a name in a package (`trlc/ast.py:1095-1183`) and a markup string has a list of such
names. -/
inductive PVal
  | inull
  | bool (b : Bool)
  | int (i : Int)
  | dec (q : Rat)
  | str (s : List Char)
  | markup (s : List Char) (refs : List MRef)
  | enum (ty : Nat) (lit : String)
  | neg (e : PVal)
  | pos (e : PVal)
  | arr (ty : Ty) (es : List PVal)
  | tup (ty : Nat) (fs : List (String × PVal))
  | ref (ty : Ty) (pkg : Nat) (name : List Char)
  deriving Repr

/-- A value as an object in memory, with its identity. (`trlc/ast.py:485-495`) -/
structure VNode where
  id  : Nat
  val : PVal
  deriving Repr

/-- `isinstance(value, Implicit_Null)` (`trlc/ast.py:3298-3299`) -/
def PVal.isNull : PVal → Bool
  | .inull => true
  | _ => false

/-- A Python dictionary with string keys; `d[k] = v` for a key that is present.  (For a new
key Python would add an entry; all assignments in the modelled code are to present keys.)
(`trlc/ast.py:1026-1035, 3301-3313`) -/
def setKey {α : Type} (d : List (String × α)) (k : String) (v : α) : List (String × α) :=
  d.map fun p => if p.1 = k then (k, v) else p

/-- `trlc/ast.py:3222-3280` a record object.  `sects` are the names of the enclosing
sections, outermost first. -/
structure Obj where
  pkg    : Nat
  name   : List Char
  typ    : Nat
  sects  : List (List Char)
  fields : List (String × VNode)
  deriving Repr

/-- The syntactic separators of a tuple type (`trlc/ast.py:3123-3150`): one of the tokens
`@`, `:`, `;` or an identifier. -/
inductive Sep
  | kind (k : Kind)
  | ident (v : List Char)
  deriving Repr, DecidableEq

/-- The remaining attributes of a record type (`trlc/ast.py:2886-2935`). -/
structure RecInfo where
  frozen   : List (String × VNode)
  isAbstract : Bool
  isFinal    : Bool
  deriving Repr

/-- `trlc/parser.py:1564-1573` the severities of a check -/
inductive Severity
  | warning | error | fatal
  deriving Repr, DecidableEq

/-- `trlc/ast.py:317-366` `Check`: the expression, the severity, the message and the name of the
component the message is anchored to.  The additional explanation is not modelled. -/
structure Check where
  expr   : Expr
  sev    : Severity
  msg    : String
  anchor : Option String

/-- The checks of every record type and tuple type, in the order in which they were added
(`trlc/ast.py:2803-2822` `Composite_Type.checks`) -/
structure CheckTab where
  recs : List (List Check)
  tups : List (List Check)

/-- Errors reported by the parser (only their number and origin matter). (`trlc/errors.py:287-335`) -/
inductive PErr
  | lex (k : LexErrKind)
  | expected
  | sym (e : SymErr)
  | notImported
  | notBoolean
  | commaMissing
  | arrayTooShort
  | arrayTooLong
  | wrongEnum
  | refType
  | markup
  | abstractType
  | assigned
  | frozen
  | required
  | expr (e : ElErr)
  | other (n : Nat)
  deriving Repr, DecidableEq

/-- Python exceptions that are no `TRLC_Error`, and (`fuel`) the loop bounds of the model
running out.
(`trlc/parser.py:127-2090`) -/
inductive PCrash
  | fuel
  | assertion
  | attribute
  | keyError
  | lexer
  | expr (c : ElCrash)
  deriving Repr, DecidableEq

/-- `self.ct`, `self.nt`, what `self.lexer.token()` will return, `self.section`, and the
shared tables.  `tabs` holds `package.symbols` for every package.  `nid` numbers the value
nodes and the anonymous types.
(`trlc/parser.py:127-143, 286-334`) -/
structure PS where
  ct    : Option Token
  nt    : Option Token
  rest  : List LexOut
  sects : List (List Char)
  decls : Decls
  infos : List RecInfo
  seps  : List (List Sep)
  tabs  : List STab
  objs  : List Obj
  nid   : Nat
  errs  : List PErr
  checks : CheckTab := ⟨[], []⟩

/-- How a piece of the parser ends: normally, with `TRLC_Error` raised after reporting an
error, or with another exception.
(`trlc/errors.py:114-134`) -/
inductive PR (α : Type)
  | ok (a : α) (s : PS)
  | err (s : PS)
  | crash (c : PCrash) (s : PS)

/-- The state in which the parser is left. (`trlc/errors.py:114-134`) -/
def PR.state {α : Type} : PR α → PS
  | .ok _ s => s
  | .err s => s
  | .crash _ s => s

/-- A piece of the parser. (`trlc/parser.py:127-143`) -/
def P (α : Type) := PS → PR α

/-- Sequential composition: exceptions propagate. (`trlc/errors.py:274-276`) -/
def P.bind {α β : Type} (x : P α) (f : α → P β) : P β := fun s =>
  match x s with
  | .ok a s' => f a s'
  | .err s' => .err s'
  | .crash c s' => .crash c s'

/-- one statement after the other: exceptions that stop the parser, `trlc/parser.py:47-2090` -/
instance : Monad P where
  pure a := fun s => .ok a s
  bind := P.bind

/-- Raise a Python exception that is not a `TRLC_Error`. (`trlc/parser.py:127-2090`) -/
def P.crash {α : Type} (c : PCrash) : P α := fun s => .crash c s

/-- `mh.error(…)`, fatal: reported, then `TRLC_Error` is raised (`trlc/errors.py:250-290`) -/
def P.fail {α : Type} (e : PErr) : P α := fun s => .err { s with errs := s.errs ++ [e] }

/-- `mh.error(…, fatal=False)` (`trlc/errors.py:287-335`) -/
def P.report (e : PErr) : P Unit := fun s => .ok () { s with errs := s.errs ++ [e] }

/-- Read the state. (`trlc/parser.py:127-143`) -/
def P.get : P PS := fun s => .ok s s

/-- Change the state. (`trlc/parser.py:127-143`) -/
def P.modify (f : PS → PS) : P Unit := fun s => .ok () (f s)

/-- `if c: x` followed by more statements (`trlc/parser.py:127-2090`) -/
def P.cond {α : Type} (c : Bool) (x y : P α) : P α := if c then x else y

/-- `try: x except TRLC_Error: h` (`trlc/parser.py:2007-2090`) -/
def P.tryCatch {α : Type} (x h : P α) : P α := fun s =>
  match x s with
  | .ok a s' => .ok a s'
  | .err s' => h s'
  | .crash c s' => .crash c s'

/-- The loop of `trlc/parser.py:145-152` `advance`, which skips comments; `ct` is already
set.  If the lexer raises, `nt` keeps its old value. -/
def advanceLoop (s : PS) : List LexOut → PR Unit
  | [] => .ok () { s with nt := none, rest := [] }
  | .tok t :: r => if t.kind = .COMMENT then advanceLoop s r else .ok () { s with nt := some t, rest := r }
  | .eof :: _ => .ok () { s with nt := none, rest := [] }
  | .error k _ _ :: r => .err { s with rest := r, errs := s.errs ++ [.lex k] }
  | .crash :: r => .crash .lexer { s with rest := r }

/-- `trlc/parser.py:145-152` `advance` -/
def P.advance : P Unit := fun s => advanceLoop { s with ct := s.nt } s.rest

/-- The loop of `trlc/parser.py:154-159`; `fuel` bounds the number of rounds, each of which
consumes a token. -/
def skipLoop (line : Nat) : Nat → P Unit
  | 0 => P.crash .fuel
  | k + 1 => fun s =>
    if s.nt.any (fun t => t.line = line) then (P.advance >>= fun _ => skipLoop line k) s
    else .ok () s

/-- The number of tokens that can still be consumed. (`trlc/parser.py:145-151`) -/
def PS.toks (s : PS) : Nat := s.rest.length + (if s.nt.isSome then 1 else 0)

/-- `trlc/parser.py:154-159` `skip_until_newline` -/
def P.skipUntilNewline : P Unit := fun s =>
  match s.ct with
  | none => .ok () s
  | some t => skipLoop t.line (s.toks + 1) s

/-- `trlc/parser.py:161-164` `peek` -/
def PS.peek (s : PS) (k : Kind) : Bool := s.nt.any (fun t => t.kind = k)

/-- `trlc/parser.py:166-167` `peek_eof` -/
def PS.peekEof (s : PS) : Bool := s.nt.isNone

/-- `trlc/parser.py:169-172` `peek_kw` -/
def PS.peekKw (s : PS) (v : String) : Bool :=
  s.nt.any (fun t => t.kind = .KEYWORD ∧ t.value = .str v.toList)

/-- `trlc/parser.py:174-194` `match`; returns the matched token, which is `self.ct` after the
call. -/
def P.matchK (k : Kind) : P Token := fun s =>
  match s.nt with
  | none => P.fail .expected s
  | some t => if t.kind ≠ k then P.fail .expected s else (P.advance >>= fun _ => pure t) s

/-- `trlc/parser.py:203-223` `match_kw` -/
def P.matchKw (v : String) : P Token := fun s =>
  match s.nt with
  | none => P.fail .expected s
  | some t =>
    if t.kind ≠ .KEYWORD then P.fail .expected s
    else if t.value ≠ .str v.toList then P.fail .expected s
    else (P.advance >>= fun _ => pure t) s

/-- `trlc/parser.py:196-201` `match_eof` -/
def P.matchEof : P Unit := fun s =>
  match s.nt with
  | none => .ok () s
  | some _ => P.fail .expected s

/-- The text of an identifier, keyword, operator or string token. (`trlc/lexer.py:135-178`) -/
def Token.text (t : Token) : List Char :=
  match t.value with
  | .str v => v
  | _ => []

/-- What a symbol table lookup returns, as parser step. (`trlc/ast.py:3545-3707`) -/
def P.liftSym {α : Type} : Except SymErr α → P α
  | .ok a => pure a
  | .error e => P.fail (.sym e)

/-- The lexer (`trlc/lexer.py:310-642`) as a stream: the results of the calls of `token()` from the given state on,
up to the first `None`.  After an error the lexer goes on behind the offending text. -/
def lexStream : Nat → LexState → List LexOut
  | 0, _ => []
  | n + 1, s => match token s with
    | (.tok t, s') => .tok t :: lexStream n s'
    | (.eof, _) => [.eof]
    | (.error k a b, s') => .error k a b :: lexStream n s'
    | (.crash, s') => .crash :: lexStream n s'

end Verif.Model
