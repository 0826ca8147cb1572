import Verif.Model.Parse.State
/-!
# Parsing names and values (`trlc/parser.py:349-375, 1674-1884`)
-/
namespace Verif.Model

/-- The type an entity stands for, if it is a type (`isinstance(e, ast.Type)`).
(`trlc/ast.py:2399-2413`) -/
def Ent.ty? (e : Ent) : Option Ty :=
  if e.cls = clsBuiltinType then
    match e.id with
    | 0 => some .bool
    | 1 => some .int
    | 2 => some .dec
    | 3 => some .str
    | 4 => some .markup
    | _ => none
  else if e.cls = clsRecord then some (.record e.id)
  else if e.cls = clsTuple then some (.tup e.id)
  else if e.cls = clsEnum then some (.enum e.id)
  else none

/-- The result of parsing a markup string: the names in it, an error, or an exception.
(`trlc/parser.py:1878-1884`) -/
inductive MarkupOut
  | ok (refs : List MRef)
  | error
  | crash
  deriving Repr, DecidableEq

/-- What does not change while the body of one file is parsed: the global symbol table
(packages and builtins; all preambles are parsed before, `trlc/trlc.py:215-300`), the current
package, the resolved imports (`trlc/ast.py:207-275`), the option `error_recovery`, the
parser for markup strings (`trlc/parser.py:226-280`, see `Model/Markup.lean`), and whether the
imports have been resolved (not if there was an error in the preamble, `trlc/trlc.py:335-343`). -/
structure FileEnv where
  global  : STab
  pkg     : Nat
  imports : List Nat
  recover : Bool
  markup  : Token → MarkupOut
  resolved : Bool

/-- `package.symbols` (`trlc/ast.py:2750-2784`) -/
def PS.tab (s : PS) (p : Nat) : STab := (s.tabs[p]?).getD .empty

/-- `trlc/ast.py:275-279` `is_visible` (false if the assertion fails) -/
def FileEnv.isVisible (E : FileEnv) (p : Nat) : Bool :=
  E.resolved && (p == E.pkg || E.imports.contains p)

/-- What happens if `is_visible` is not true: an error, or the failing assertion
`self.imports is not None`
(`trlc/ast.py:276-280`) -/
def FileEnv.invisible {α : Type} (E : FileEnv) : P α :=
  if E.resolved then P.fail .notImported else P.crash .assertion

/-- `self.default_scope` after the preamble (`trlc/parser.py:331-332, 1994`) -/
def PS.scope (s : PS) (E : FileEnv) : Scope := [E.global, s.tab E.pkg]

/-- `scope.lookup` as parser step; the assertion on an empty scope cannot fail here.
(`trlc/ast.py:3758-3791`) -/
def P.scopeLookup (E : FileEnv) (name : List Char) (sub : Option (Ent → Bool)) : P Ent := do
  let s ← P.get
  match (s.scope E).lookup name sub with
  | none => P.crash .assertion
  | some r => P.liftSym r

/-- `trlc/parser.py:349-375` `parse_qualified_name` (with `match_ident` and
`self.default_scope`); `sub` is the test for `required_subclass`. -/
def parseQualifiedName (E : FileEnv) (sub : Ent → Bool) : P Ent := do
  let t ← P.matchK .IDENTIFIER
  let sym ← P.scopeLookup E t.text none
  if sym.cls = clsPackage then
    if !E.isVisible sym.id then E.invisible
    else
      let _ ← P.matchK .DOT
      let t ← P.matchK .IDENTIFIER
      let s ← P.get
      P.liftSym ((s.tab sym.id).lookup t.text (some sub))
  else P.scopeLookup E t.text (some sub)

/-- `trlc/parser.py:1674-1681` `parse_boolean` -/
def parseBoolean : P PVal := do
  let t ← P.matchK .KEYWORD
  if t.text = "true".toList then pure (.bool true)
  else if t.text = "false".toList then pure (.bool false)
  else P.fail .notBoolean

/-- `trlc/parser.py:1687-1719`: an optional sign, then a literal.  The value of an INTEGER or
DECIMAL token is a number (`C06_integer_tokens`, `C07_decimal_tokens`); for any other token
value the constructor of the literal would fail an assertion. -/
def parseNumber (isDec : Bool) : P PVal := do
  let s ← P.get
  let sign ← P.cond (s.nt.any (fun t => t.kind = .OPERATOR ∧ (t.text = ['+'] ∨ t.text = ['-'])))
    (do let t ← P.matchK .OPERATOR; pure (some t.text))
    (pure none)
  let lit ← P.cond isDec
    (do let t ← P.matchK .DECIMAL
        match t.value with
        | .frac q => pure (PVal.dec q)
        | _ => P.crash .assertion)
    (do let t ← P.matchK .INTEGER
        match t.value with
        | .int n => pure (PVal.int n)
        | _ => P.crash .assertion)
  match sign with
  | none => pure lit
  | some op => pure (if op = ['+'] then .pos lit else .neg lit)

/-- `trlc/ast.py:1151-1180` `Record_Reference.resolve_references` for a reference of type `τ`:
the target object, or the error. -/
def PS.resolveRef (s : PS) (τ : Ty) (p : Nat) (name : List Char) : Except PErr Nat :=
  match (s.tab p).lookupDirect name (some fun e => e.cls = clsObject) false with
  | .error e => .error (.sym e)
  | .ok e =>
    match s.objs[e.id]? with
    | none => .error .refType
    | some o =>
      match τ with
      | .union _ ms => if s.decls.isCompatible ms o.typ then .ok e.id else .error .refType
      | .record r => if s.decls.isSubclassOf o.typ r then .ok e.id else .error .refType
      | _ => .error .refType

/-- `trlc/parser.py:1793-1824`: a reference, looked up early if the target is known. -/
def parseReference (E : FileEnv) (τ : Ty) : P PVal := do
  let t ← P.matchK .IDENTIFIER
  let s ← P.get
  let (p, name) ← P.cond (s.peek .DOT)
    (do let _ ← P.matchK .DOT
        let t' ← P.matchK .IDENTIFIER
        let e ← P.liftSym (E.global.lookup t.text (some fun e => e.cls = clsPackage))
        if !E.isVisible e.id then E.invisible
        else pure (e.id, t'.text))
    (pure (E.pkg, t.text))
  let s ← P.get
  if (s.tab p).contains name then
    match s.resolveRef τ p name with
    | .ok _ => pure (.ref τ p name)
    | .error e => P.fail e
  else pure (.ref τ p name)

/-- `trlc/parser.py:1779-1791`: an enumeration literal.  The table of literals has exactly
one entry per declared literal, so the lookup finds exactly the declared spellings. -/
def parseEnum (E : FileEnv) (t : Nat) : P PVal := do
  let e ← parseQualifiedName E (fun e => e.cls = clsEnum)
  if e.id ≠ t then P.fail .wrongEnum
  else
    let _ ← P.matchK .DOT
    let tok ← P.matchK .IDENTIFIER
    let s ← P.get
    if ((s.decls.enums[t]?).getD []).contains (String.ofList tok.text) then
      pure (.enum t (String.ofList tok.text))
    else P.fail (.sym .unknown)

/-- `trlc/parser.py:1878-1884` `parse_markup_string` -/
def parseMarkup (E : FileEnv) : P PVal := do
  let t ← P.matchK .STRING
  match E.markup t with
  | .ok refs => pure (.markup t.text refs)
  | .error => P.fail .markup
  | .crash => P.crash .assertion

/-- `trlc/parser.py:1745-1757`: the loop over the elements of an array; `pv` parses one
element, `fuel` bounds the number of rounds. -/
def arrayLoop (pv : P PVal) : Nat → List PVal → P (List PVal)
  | 0, _ => P.crash .fuel
  | k + 1, acc => do
    let s ← P.get
    if s.peek .S_KET then pure acc
    else
      let v ← pv
      let s ← P.get
      if s.peek .COMMA then
        let _ ← P.matchK .COMMA
        arrayLoop pv k (acc ++ [v])
      else if s.peek .S_KET || s.nt.isNone then pure (acc ++ [v])
      else
        P.report .commaMissing
        arrayLoop pv k (acc ++ [v])

/-- `trlc/parser.py:1740-1777`: an array.  (A bound of 0 counts as no upper bound, because of
`if typ.upper_bound and …`.) -/
def parseArray (pv : P PVal) (τ : Ty) (lo : Nat) (hi : Option Nat) : P PVal := do
  let _ ← P.matchK .S_BRA
  let s ← P.get
  let es ← arrayLoop pv (s.toks + 1) []
  let _ ← P.matchK .S_KET
  P.cond (es.length < lo) (P.report .arrayTooShort) (pure ())
  P.cond (hi.any fun h => h ≠ 0 ∧ es.length > h) (P.report .arrayTooLong) (pure ())
  pure (.arr τ es)

/-- What `iter_sequence` yields (`trlc/ast.py:3063-3072`) -/
inductive SeqItem
  | comp (c : Comp)
  | sep (s : Sep)
  deriving Repr, DecidableEq

/-- `trlc/ast.py:3063-3072` `iter_sequence` -/
def iterSequence : List Comp → List Sep → List SeqItem
  | [], _ => []
  | c :: cs, [] => .comp c :: iterSequence cs []
  | c :: cs, s :: ss => .comp c :: .sep s :: iterSequence cs ss

/-- The separator token is next: `trlc/parser.py:1836, 1843-1844` -/
def PS.peekSep (s : PS) : Sep → Bool
  | .kind k => s.peek k
  | .ident v => s.nt.any (fun t => t.kind = .IDENTIFIER ∧ t.value = .str v)

/-- `self.match(…)` on the separator, `trlc/parser.py:1837, 1845` -/
def P.matchSep : Sep → P Token
  | .kind k => P.matchK k
  | .ident _ => P.matchK .IDENTIFIER

/-- `trlc/parser.py:1828-1851`: the loop over fields and separators. `pv` parses a value of
the given type; `d` is the dictionary `rv.value`. -/
def sepLoop (pv : Ty → P PVal) : List SeqItem → Bool → List (String × PVal) →
    P (List (String × PVal))
  | [], _, d => pure d
  | .comp c :: items, nextOptional, d =>
    if nextOptional && c.optional then pure d
    else do
      let v ← pv c.ty
      sepLoop pv items nextOptional (setKey d c.name v)
  | .sep sp :: items, nextOptional, d => do
    let s ← P.get
    if s.peekSep sp then
      let _ ← P.matchSep sp
      sepLoop pv items nextOptional d
    else sepLoop pv items true d

/-- `trlc/ast.py:3058-3066, 991-998`: the dictionary of a new tuple aggregate -/
def emptyTuple (cs : List Comp) : List (String × PVal) := cs.map fun c => (c.name, .inull)

/-- `trlc/parser.py:1825-1853`: a tuple with separators; at the end of the file
`self.nt.location` is an attribute error. -/
def parseSepTuple (pv : Ty → P PVal) (t : Nat) (cs : List Comp) (seps : List Sep) : P PVal := do
  let s ← P.get
  if s.nt.isNone then P.crash .attribute
  else
    let d ← sepLoop pv (iterSequence cs seps) false (emptyTuple cs)
    pure (.tup t d)

/-- `trlc/parser.py:1860-1868`: the loop over the fields of a tuple without separators -/
def plainLoop (pv : Ty → P PVal) : Bool → List Comp → List (String × PVal) →
    P (List (String × PVal))
  | _, [], d => pure d
  | first, c :: cs, d => do
    P.cond first (pure ()) (do let _ ← P.matchK .COMMA; pure ())
    let v ← pv c.ty
    plainLoop pv false cs (setKey d c.name v)

/-- `trlc/parser.py:1854-1871`: a tuple without separators -/
def parsePlainTuple (pv : Ty → P PVal) (t : Nat) (cs : List Comp) : P PVal := do
  let _ ← P.matchK .BRA
  let d ← plainLoop pv true cs (emptyTuple cs)
  let _ ← P.matchK .KET
  pure (.tup t d)

/-- `trlc/parser.py:1683-1876` `parse_value`.  The first argument bounds the nesting of types;
`typeRank` many levels are always enough because a tuple type is registered only after
its fields were parsed (`trlc/parser.py:549-552`). -/
def parseValue (E : FileEnv) : Nat → Ty → P PVal
  | 0, _ => P.crash .fuel
  | n + 1, τ =>
    match τ with
    | .dec => parseNumber true
    | .int => parseNumber false
    | .markup => parseMarkup E
    | .str => do
      let t ← P.matchK .STRING
      pure (.str t.text)
    | .bool => parseBoolean
    | .arr id elem lo hi => parseArray (parseValue E n elem) (.arr id elem lo hi) lo hi
    | .enum t => parseEnum E t
    | .record t => parseReference E (.record t)
    | .union id ms => parseReference E (.union id ms)
    | .tup t => do
      let s ← P.get
      let seps := (s.seps[t]?).getD []
      if seps ≠ [] then parseSepTuple (parseValue E n) t (s.decls.fields t) seps
      else parsePlainTuple (parseValue E n) t (s.decls.fields t)

end Verif.Model
