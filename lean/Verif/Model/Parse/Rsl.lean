import Verif.Model.Parse.Object
import Verif.Model.Parse.Expr
/-!
# Parsing rsl files (`trlc/parser.py:336-347, 377-769, 1539-1653, 2007-2044`)

Types get their numbers in the order in which they are entered in a package.  `ast_link`s,
descriptions, locations and the lint message about `final` (`trlc/parser.py:699-708`) are not
modelled.
-/
namespace Verif.Model

/-- `trlc/ast.py:3475-3503` `register` in a table of components or literals: `names` are the names
in the table and in the tables it inherits from.  (`Lemmas/Register.lean` shows that this is
what `STab.register` does.) -/
def registerName (names : List (List Char)) (n : List Char) : Except SymErr Unit :=
  match names.find? (fun m => simplifiedName m = simplifiedName n) with
  | none => .ok ()
  | some m => if m = n then .error .duplicate else .error (.tooSimilar m)

/-- `trlc/ast.py:3679-3690` `lookup` in such a table -/
def lookupName (names : List (List Char)) (n : List Char) : Except SymErr Unit :=
  match names.find? (fun m => simplifiedName m = simplifiedName n) with
  | none => .error .unknown
  | some m => if m = n then .ok () else .error (.spelling m)

/-- the names of components (`trlc/ast.py:2801-2815`) -/
def compNames (cs : List Comp) : List (List Char) := cs.map (·.name.toList)

/-- `trlc/parser.py:336-347` `parse_described_name` -/
def parseDescribedName : P Token := do
  let t ← P.matchK .IDENTIFIER
  let s ← P.get
  P.cond (s.peek .STRING) (do let _ ← P.matchK .STRING; pure t) (pure t)

/-- `self.cu.package.symbols.register`; `upd` enters the type in the list of types.  (The package
of a file always exists; the model says so by an assertion.)
(`trlc/ast.py:3476-3503`) -/
def P.registerType (E : FileEnv) (name : List Char) (id cls : Nat) (upd : PS → PS) : P Unit :=
  fun s =>
    match s.tabs[E.pkg]? with
    | none => .crash .assertion s
    | some T =>
      match T.register { name, id, cls } with
      | .error e => P.fail (.sym e) s
      | .ok T' => .ok () { upd s with tabs := s.tabs.set E.pkg T' }

/-! ## Enumerations -/

/-- `enum.literals.register` (`trlc/parser.py:417`) -/
def P.addLiteral (t : Nat) (name : List Char) : P Unit := fun s =>
  match registerName (((s.decls.enums[t]?).getD []).map String.toList) name with
  | .error e => P.fail (.sym e) s
  | .ok () => .ok () { s with decls := { s.decls with
      enums := s.decls.enums.modify t (· ++ [String.ofList name]) } }

/-- `trlc/parser.py:407-417` the loop over the literals; the result is `not empty` -/
def literalLoop (t : Nat) : Nat → Bool → P Bool
  | 0, _ => P.crash .fuel
  | k + 1, any => do
    let s ← P.get
    if s.peek .C_KET then pure any
    else
      let tok ← parseDescribedName
      P.addLiteral t tok.text
      literalLoop t k true

/-- `trlc/parser.py:388-426` `parse_enum_declaration` -/
def parseEnumDecl (E : FileEnv) : P Unit := do
  let _ ← P.matchKw "enum"
  let name ← parseDescribedName
  let s ← P.get
  P.registerType E name.text s.decls.enums.length clsEnum fun s =>
    { s with decls := { s.decls with enums := s.decls.enums ++ [[]] } }
  let _ ← P.matchK .C_BRA
  let s' ← P.get
  let any ← literalLoop s.decls.enums.length (s'.toks + 1) false
  let _ ← P.matchK .C_KET
  P.cond any (pure ()) (P.fail (.other 1))

/-! ## Types of components -/

/-- a number that was not used before, for an anonymous type (`trlc/parser.py:556-601, 648-653`) -/
def P.fresh : P Nat := fun s => .ok s.nid { s with nid := s.nid + 1 }

/-- `trlc/parser.py:574-580` the loop over the member types of a union -/
def unionLoop (E : FileEnv) : Nat → List Nat → P (List Nat)
  | 0, _ => P.crash .fuel
  | k + 1, acc => do
    let s ← P.get
    if s.peek .COMMA then
      let _ ← P.matchK .COMMA
      let e ← parseQualifiedName E (fun e => e.cls = clsRecord)
      unionLoop E k (acc ++ [e.id])
    else pure acc

/-- `trlc/parser.py:585-593` the duplicates are reported, which is not fatal.  (Types are compared
by their full names, which are different for different types.) -/
def reportDuplicates : List Nat → List Nat → P Unit
  | _, [] => pure ()
  | seen, t :: ts =>
    if seen.contains t then do
      P.report (.other 2)
      reportDuplicates seen ts
    else reportDuplicates (t :: seen) ts

/-- `trlc/parser.py:556-601` `parse_union_type` -/
def parseUnionType (E : FileEnv) : P Ty := do
  let _ ← P.matchK .S_BRA
  let e ← parseQualifiedName E (fun e => e.cls = clsRecord)
  let s ← P.get
  let ms ← unionLoop E (s.toks + 1) [e.id]
  let _ ← P.matchK .S_KET
  reportDuplicates [] ms
  let id ← P.fresh
  pure (.union id ms)

/-- `isinstance(e, ast.Type)` (`trlc/ast.py:2399-2413`) -/
def Ent.isType (e : Ent) : Bool := e.ty?.isSome

/-- `trlc/parser.py:449-454, 617-622` the type of a component: a union, or the name of a type -/
def parseFieldType (E : FileEnv) : P Ty := do
  let s ← P.get
  if s.peek .S_BRA then parseUnionType E
  else
    let e ← parseQualifiedName E Ent.isType
    match e.ty? with
    | some τ => pure τ
    | none => P.crash .assertion

/-- The value of an INTEGER token is a natural number (`C06_integer_tokens`); for any other value
the constructor of the array type would fail an assertion.
(`trlc/parser.py:626-653`) -/
def P.natOf (t : Token) : P Nat :=
  match t.value with
  | .int n => pure n
  | _ => P.crash .assertion

/-- `trlc/parser.py:633-642` the upper bound of an array; at the end of the file
`self.nt.location` is an attribute error. -/
def parseUpperBound : P (Option Nat) := do
  let s ← P.get
  if s.peek .INTEGER then
    let t ← P.matchK .INTEGER
    let n ← P.natOf t
    pure (some n)
  else if s.nt.any (fun t => t.kind = .OPERATOR ∧ t.text = ['*']) then
    let _ ← P.matchK .OPERATOR
    pure none
  else if s.nt.isNone then P.crash .attribute
  else P.fail .expected

/-- `trlc/parser.py:624-657` the bounds, if the component is an array -/
def parseArrayType (τ : Ty) : P Ty := do
  let s ← P.get
  if s.peek .S_BRA then
    let _ ← P.matchK .S_BRA
    let t ← P.matchK .INTEGER
    let lo ← P.natOf t
    let _ ← P.matchK .RANGE
    let hi ← parseUpperBound
    let _ ← P.matchK .S_KET
    let id ← P.fresh
    pure (.arr id τ lo hi)
  else pure τ

/-! ## Tuples -/

/-- `trlc/parser.py:428-471` `parse_tuple_field` for the tuple type with number `t` -/
def parseTupleField (E : FileEnv) (t : Nat) (allowed required : Bool) : P Comp := do
  P.cond (!allowed && required) (P.crash .assertion) (pure ())
  let name ← parseDescribedName
  let s ← P.get
  let optional ← P.cond (required || s.peekKw "optional")
    (do
      let _ ← P.matchKw "optional"
      P.cond allowed (pure true) (P.fail (.other 3)))
    (pure false)
  let τ ← parseFieldType E
  pure { name := String.ofList name.text, ty := τ, optional, memberOf := .tup t }

/-- `n_tuple.components.register` on the fields so far (`trlc/parser.py:496, 530`) -/
def P.addField (cs : List Comp) (c : Comp) : P (List Comp) :=
  match registerName (compNames cs) c.name.toList with
  | .error e => P.fail (.sym e)
  | .ok () => pure (cs ++ [c])

/-- `trlc/parser.py:512-520` an optional separator token after `separator`, with the assertion of
`add_separator` (`trlc/ast.py:3053-3057`) -/
def parseSeparator (cs : List Comp) (seps : List Sep) : P (List Sep) := do
  let s ← P.get
  match s.nt with
  | none => pure seps
  | some t =>
    if t.kind = .IDENTIFIER ∨ t.kind = .AT ∨ t.kind = .COLON ∨ t.kind = .SEMICOLON then
      P.advance
      if seps.length + 1 ≠ cs.length then P.crash .assertion
      else pure (seps ++ [if t.kind = .IDENTIFIER then .ident t.text else .kind t.kind])
    else pure seps

/-- `trlc/parser.py:498-532` the loop over the fields after the first.  `has`, `req` and `alw` are
`has_separators`, `optional_required` and `separator_allowed`. -/
def tupleLoop (E : FileEnv) (t : Nat) : Nat → (has req alw : Bool) → List Comp → List Sep →
    P (Bool × List Comp × List Sep)
  | 0, _, _, _, _, _ => P.crash .fuel
  | k + 1, has, req, alw, cs, seps => do
    let s ← P.get
    if s.peekKw "separator" || s.peek .IDENTIFIER then
      if has || s.peekKw "separator" then
        let _ ← P.matchKw "separator"
        if !alw then P.fail (.other 4)
        else
          let seps ← parseSeparator cs seps
          let c ← parseTupleField E t true req
          let cs ← P.addField cs c
          tupleLoop E t k true (req || c.optional) alw cs seps
      else
        let c ← parseTupleField E t has req
        let cs ← P.addField cs c
        tupleLoop E t k has (req || c.optional) false cs seps
    else pure (has, cs, seps)

/-- `isinstance(n_typ, ast.Tuple_Type) and n_typ.has_separators()` (`trlc/parser.py:537-549`) -/
def PS.isSepTuple (s : PS) : Ty → Bool
  | .tup u => ((s.seps[u]?).getD []) ≠ []
  | _ => false

/-- `trlc/parser.py:473-554` `parse_tuple_declaration` -/
def parseTupleDecl (E : FileEnv) : P Unit := do
  let _ ← P.matchKw "tuple"
  let name ← parseDescribedName
  let _ ← P.matchK .C_BRA
  let s ← P.get
  let c ← parseTupleField E s.decls.tups.length false false
  let cs ← P.addField [] c
  let s' ← P.get
  let (has, cs, seps) ← tupleLoop E s.decls.tups.length (s'.toks + 1) false false true cs []
  let _ ← P.matchK .C_KET
  let s'' ← P.get
  P.cond (has && cs.any fun c => s''.isSepTuple c.ty) (P.fail (.other 5)) (pure ())
  P.registerType E name.text s.decls.tups.length clsTuple fun s =>
    { s with
      decls := { s.decls with tups := s.decls.tups ++ [cs] }
      seps := s.seps ++ [seps]
      checks := { s.checks with tups := s.checks.tups ++ [[]] } }

/-! ## Records -/

/-- `trlc/parser.py:603-670` `parse_record_component` for the record type with number `t` -/
def parseComponent (E : FileEnv) (t : Nat) : P Comp := do
  let name ← parseDescribedName
  let s ← P.get
  let optional ← P.cond (s.peekKw "optional")
    (do let _ ← P.matchKw "optional"; pure true)
    (pure false)
  let τ ← parseFieldType E
  let τ ← parseArrayType τ
  pure { name := String.ofList name.text, ty := τ, optional, memberOf := .record t }

/-- `record.components.register` (`trlc/parser.py:760`) -/
def P.addComponent (t : Nat) (c : Comp) : P Unit := fun s =>
  match registerName (compNames (s.decls.allComponents t)) c.name.toList with
  | .error e => P.fail (.sym e) s
  | .ok () => .ok () { s with decls := { s.decls with
      recs := s.decls.recs.modify t fun r => { r with own := r.own ++ [c] } } }

/-- `record.frozen[n_comp.name] = n_value` (`trlc/parser.py:751`) -/
def P.setFrozen (t : Nat) (name : String) (v : VNode) : P Unit := fun s =>
  .ok () { s with infos := s.infos.modify t fun i => { i with frozen := i.frozen ++ [(name, v)] } }

/-- `trlc/parser.py:730-752` `freeze` of a component -/
def parseFreeze (E : FileEnv) (t : Nat) : P Unit := do
  let _ ← P.matchKw "freeze"
  let tok ← P.matchK .IDENTIFIER
  let s ← P.get
  P.liftSym (lookupName (compNames (s.decls.allComponents t)) tok.text)
  match s.decls.component t (String.ofList tok.text) with
  | none => P.crash .assertion
  | some c =>
    if s.isFrozen t c.name then P.fail .frozen
    else
      let _ ← P.matchK .ASSIGN
      let v ← parseValue E s.decls.typeDepth c.ty
      let node ← P.newNode v
      P.setFrozen t c.name node

/-- `trlc/parser.py:728-761` the loop over the components and `freeze`s -/
def recordLoop (E : FileEnv) (t : Nat) : Nat → P Unit
  | 0 => P.crash .fuel
  | k + 1 => do
    let s ← P.get
    if s.peek .C_KET then pure ()
    else if s.peekKw "freeze" then
      parseFreeze E t
      recordLoop E t k
    else
      let c ← parseComponent E t
      let s ← P.get
      if (s.info t).isFinal then P.fail (.other 6)
      else
        P.addComponent t c
        recordLoop E t k

/-- `trlc/parser.py:672-769` `parse_record_declaration` -/
def parseRecordDecl (E : FileEnv) : P Unit := do
  let s ← P.get
  let (isAbstract, isFinal) ← P.cond (s.peekKw "abstract")
    (do let _ ← P.matchKw "abstract"; pure (true, false))
    (P.cond (s.peekKw "final")
      (do let _ ← P.matchKw "final"; pure (false, true))
      (pure (false, false)))
  let _ ← P.matchKw "type"
  let name ← parseDescribedName
  let s ← P.get
  let parent ← P.cond (s.peekKw "extends")
    (do
      let _ ← P.matchKw "extends"
      let e ← parseQualifiedName E (fun e => e.cls = clsRecord)
      pure (some e.id))
    (pure none)
  let s ← P.get
  let t := s.decls.recs.length
  P.registerType E name.text t clsRecord fun s =>
    { s with
      decls := { s.decls with recs := s.decls.recs ++ [{ parent, own := [] }] }
      infos := s.infos ++ [{ frozen := [], isAbstract,
                             isFinal := parent.any fun p => (s.info p).isFinal }]
      checks := { s.checks with recs := s.checks.recs ++ [[]] } }
  let _ ← P.matchK .C_BRA
  let s ← P.get
  recordLoop E t (s.toks + 1)
  let _ ← P.matchK .C_KET
  P.cond isFinal
    (P.modify fun s => { s with infos := s.infos.modify t fun i => { i with isFinal := true } })
    (pure ())

/-- `trlc/parser.py:377-386` `parse_type_declaration` -/
def parseTypeDecl (E : FileEnv) : P Unit := do
  let s ← P.get
  if s.peekKw "enum" then parseEnumDecl E
  else if s.peekKw "tuple" then parseTupleDecl E
  else parseRecordDecl E

/-! ## Checks -/

/-- A record or tuple type (`trlc/ast.py:2786-2834`) -/
inductive CompositeTy
  | record (t : Nat)
  | tup (t : Nat)
  deriving Repr, DecidableEq

/-- the components of a type, including inherited ones (`trlc/ast.py:2826-2832, 2953-2962`) -/
def Decls.componentsOf (D : Decls) : CompositeTy → List Comp
  | .record t => D.allComponents t
  | .tup t => D.fields t

/-- the component with the given name (`trlc/ast.py:2826-2832, 2953-2962`) -/
def Decls.compIn (D : Decls) : CompositeTy → String → Option Comp
  | .record t => D.component t
  | .tup t => fun n => (D.fields t).find? (·.name == n)

/-- Python's `re`: searching for a match, and whether a pattern is valid (`trlc/parser.py:1316, trlc/ast.py:1724-1730`) -/
structure Regex where
  search : List Char → List Char → Bool
  valid  : List Char → Bool

/-- `trlc/parser.py:1564-1573` the severity; `error` if there is none -/
def parseSeverity : P Severity := do
  let s ← P.get
  if s.peek .KEYWORD then
    let t ← P.matchK .KEYWORD
    if t.text = "warning".toList then pure .warning
    else if t.text = "error".toList then pure .error
    else if t.text = "fatal".toList then pure .fatal
    else P.fail .expected
  else pure .error

/-- `trlc/parser.py:1575-1580`, `trlc/ast.py:344-348` the message: a line break is reported
(which is not fatal) and replaced. -/
def parseMessage : P String := do
  let t ← P.matchK .STRING
  P.cond (t.text.contains '\n') (P.report (.other 7)) (pure ())
  pure (String.ofList (t.text.map fun c => if c = '\n' then ' ' else c))

/-- `trlc/parser.py:1613-1618` the name of the component the message is anchored to -/
def parseAnchor (ct : CompositeTy) : P (Option String) := do
  let t ← P.matchK .IDENTIFIER
  let s ← P.get
  P.liftSym (lookupName (compNames (s.decls.componentsOf ct)) t.text)
  pure (some (String.ofList t.text))

/-- `trlc/parser.py:1582-1620` details and anchor; at the end of the file `self.nt.location` is an
attribute error. -/
def parseExtras (ct : CompositeTy) : P (Option String) := do
  let s ← P.get
  if s.peek .COMMA then
    let _ ← P.matchK .COMMA
    let s ← P.get
    if s.peek .IDENTIFIER then parseAnchor ct
    else if s.peek .STRING then
      let _ ← P.matchK .STRING
      let s ← P.get
      if s.peek .COMMA then
        let _ ← P.matchK .COMMA
        parseAnchor ct
      else pure none
    else if s.nt.isNone then P.crash .attribute
    else P.fail .expected
  else pure none

/-- `n_ctype.add_check`, `trlc/ast.py:2819-2822` -/
def P.addCheck (ct : CompositeTy) (c : Check) : P Unit := P.modify fun s =>
  match ct with
  | .record t => { s with checks := { s.checks with recs := s.checks.recs.modify t (· ++ [c]) } }
  | .tup t => { s with checks := { s.checks with tups := s.checks.tups.modify t (· ++ [c]) } }

/-- `trlc/parser.py:1557-1645` one check -/
def parseCheck (E : FileEnv) (rx : Regex) (ct : CompositeTy) : P Unit := do
  let s ← P.get
  let e ← parseExpr E ⟨s.decls, rx.search, rx.valid⟩ (s.toks + 1)
    ⟨s.scope E, s.decls.compIn ct, []⟩
  P.cond (e.typ == some .bool) (pure ()) (P.fail (.expr .notBoolean))
  let _ ← P.matchK .COMMA
  let sev ← parseSeverity
  let msg ← parseMessage
  let anchor ← parseExtras ct
  P.addCheck ct { expr := e, sev, msg, anchor }

/-- `trlc/parser.py:1556-1647` the loop over the checks -/
def checkLoop (E : FileEnv) (rx : Regex) (ct : CompositeTy) : Nat → P Unit
  | 0 => P.crash .fuel
  | k + 1 => do
    let s ← P.get
    if s.peek .C_KET then pure ()
    else
      parseCheck E rx ct
      checkLoop E rx ct k

/-- `isinstance(e, ast.Composite_Type)` (`trlc/ast.py:2786-2834`) -/
def Ent.composite? (e : Ent) : Option CompositeTy :=
  if e.cls = clsRecord then some (.record e.id)
  else if e.cls = clsTuple then some (.tup e.id)
  else none

/-- `trlc/parser.py:1539-1653` `parse_check_block` -/
def parseCheckBlock (E : FileEnv) (rx : Regex) : P Unit := do
  let _ ← P.matchKw "checks"
  let t ← P.matchK .IDENTIFIER
  let s ← P.get
  let e ← P.liftSym ((s.tab E.pkg).lookup t.text (some fun e => e.composite?.isSome))
  match e.composite? with
  | none => P.crash .assertion
  | some ct =>
    let _ ← P.matchK .C_BRA
    let s ← P.get
    checkLoop E rx ct (s.toks + 1)
    let _ ← P.matchK .C_KET
    pure ()

/-! ## Files -/

/-- `trlc/parser.py:2014-2018` one declaration or check block -/
def parseRslItem (E : FileEnv) (rx : Regex) : P Unit := do
  let s ← P.get
  if s.peekKw "checks" then parseCheckBlock E rx else parseTypeDecl E

/-- `trlc/parser.py:2029-2034` the next token can start a declaration or check block -/
def PS.canResumeRsl (s : PS) : Bool :=
  s.peekKw "checks" || s.peekKw "type" || s.peekKw "abstract" || s.peekKw "final" ||
    s.peekKw "tuple" || s.peekKw "enum"

/-- `trlc/parser.py:2028-2037` skip until the parser can go on -/
def recoverRslLoop : Nat → P Unit
  | 0 => P.crash .fuel
  | k + 1 => do
    let s ← P.get
    if s.peekEof || s.canResumeRsl then pure ()
    else
      P.advance
      P.skipUntilNewline
      recoverRslLoop k

/-- `trlc/parser.py:2019-2037` what happens when an item raised `TRLC_Error`.  (As in
`recoverFile`, the test for lexical errors is never true.) -/
def recoverRsl (E : FileEnv) : P Bool := do
  if !E.recover then fun s => .err s
  else
    P.skipUntilNewline
    let s ← P.get
    recoverRslLoop (s.toks + 1)
    pure false

/-- `trlc/parser.py:2012-2037` the loop over the items of a file -/
def rslLoop (E : FileEnv) (rx : Regex) : Nat → Bool → P Bool
  | 0, _ => P.crash .fuel
  | k + 1, ok => do
    let s ← P.get
    if s.peekEof then pure ok
    else
      let b ← P.tryCatch (do parseRslItem E rx; pure true) (recoverRsl E)
      rslLoop E rx k (ok && b)

/-- `trlc/parser.py:2007-2044` `parse_rsl_file` -/
def parseRslFile (E : FileEnv) (rx : Regex) : P Bool := do
  let s ← P.get
  let ok ← rslLoop E rx (s.toks + 1) true
  P.matchEof
  pure ok

end Verif.Model
