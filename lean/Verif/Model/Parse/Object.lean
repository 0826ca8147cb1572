import Verif.Model.Parse.Value
/-!
# Parsing trlc files (`trlc/parser.py:1655-1672, 1886-1961, 2046-2090`)
-/
namespace Verif.Model

/-- The attributes `frozen`, `is_abstract`, `is_final` of a record type. (`trlc/ast.py:2911-2929`) -/
def PS.info (s : PS) (t : Nat) : RecInfo := (s.infos[t]?).getD ⟨[], false, false⟩

/-- `trlc/ast.py:2973-2989` `is_frozen` -/
def PS.isFrozen (s : PS) (t : Nat) (name : String) : Bool :=
  (s.decls.ancestors t).any fun a => ((s.info a).frozen.lookup name).isSome

/-- `trlc/ast.py:2991-3013` `get_freezing_expression`; `none` is the failing assertion. -/
def PS.freezing (s : PS) (t : Nat) (name : String) : Option VNode :=
  (s.decls.ancestors t).findSome? fun a => (s.info a).frozen.lookup name

/-- Enough nesting depth for every type of the given declarations. (`trlc/parser.py:1683-1876`) -/
def Decls.typeDepth (D : Decls) : Nat := D.tups.length + 3

/-- `trlc/ast.py:3261-3280` the `field` dictionary of a new object: a new `Implicit_Null` for
every component. -/
def freshFields (nid : Nat) : List Comp → List (String × VNode)
  | [] => []
  | c :: cs => (c.name, { id := nid, val := .inull }) :: freshFields (nid + 1) cs

/-- The value of a component of the object under construction. (`trlc/ast.py:3258-3272, 3298-3299`) -/
def PS.field (s : PS) (o : Nat) (name : String) : Option VNode :=
  (s.objs[o]?).bind fun ob => ob.fields.lookup name

/-- `self.field[component.name] = value` (`trlc/ast.py:3301-3313`) -/
def PS.setField (s : PS) (o : Nat) (name : String) (v : VNode) : PS :=
  { s with objs := s.objs.modify o fun ob => { ob with fields := setKey ob.fields name v } }

/-- `trlc/ast.py:3320-3331` `Record_Object.assign`: a component that has a value already is a
`KeyError`. -/
def P.assign (o : Nat) (name : String) (v : VNode) : P Unit := fun s =>
  match s.field o name with
  | none => .crash .keyError s
  | some n => if n.val.isNull then .ok () (s.setField o name v) else .crash .keyError s

/-- A new node for a parsed value. (`trlc/parser.py:1683-1876`) -/
def P.newNode (v : PVal) : P VNode := fun s => .ok { id := s.nid, val := v } { s with nid := s.nid + 1 }

/-- `trlc/parser.py:1910-1931`: one assignment in the body of object `o` of type `t`. -/
def parseAssignment (E : FileEnv) (o t : Nat) : P Unit := do
  let tok ← P.matchK .IDENTIFIER
  let s ← P.get
  match s.decls.component t (String.ofList tok.text) with
  | none => P.fail (.sym .unknown)
  | some c =>
    match s.field o c.name with
    | none => P.crash .keyError
    | some n =>
      if !n.val.isNull then P.fail .assigned
      else if s.isFrozen t c.name then P.fail .frozen
      else
        let _ ← P.matchK .ASSIGN
        let v ← parseValue E s.decls.typeDepth c.ty
        let node ← P.newNode v
        P.assign o c.name node

/-- `trlc/parser.py:1910-1931`: the loop over the assignments -/
def assignLoop (E : FileEnv) (o t : Nat) : Nat → P Unit
  | 0 => P.crash .fuel
  | k + 1 => do
    let s ← P.get
    if s.peek .C_KET then pure ()
    else
      parseAssignment E o t
      assignLoop E o t k

/-- `trlc/parser.py:1933-1944`: components without a value get their frozen value; others must
be optional. -/
def completeLoop (o t : Nat) : List Comp → P Unit
  | [] => pure ()
  | c :: cs => do
    let s ← P.get
    match s.field o c.name with
    | none => P.crash .keyError
    | some n =>
      if n.val.isNull then
        if s.isFrozen t c.name then
          match s.freezing t c.name with
          | none => P.crash .assertion
          | some f =>
            P.assign o c.name f
            completeLoop o t cs
        else if !c.optional then P.fail .required
        else completeLoop o t cs
      else completeLoop o t cs

/-- `trlc/parser.py:1902-1908`: create the object and register it in the package.  (The package
of a file always exists; the model says so by an assertion.) -/
def P.newObject (E : FileEnv) (t : Nat) (name : List Char) : P Nat := fun s =>
  let cs := s.decls.allComponents t
  let s1 := { s with nid := s.nid + cs.length }
  match s.tabs[E.pkg]? with
  | none => .crash .assertion s
  | some T =>
    match T.register { name := name, id := s.objs.length, cls := clsObject } with
    | .error e => P.fail (.sym e) s1
    | .ok tab =>
      .ok s.objs.length { s1 with
        tabs := s.tabs.set E.pkg tab
        objs := s.objs ++ [{ pkg := E.pkg, name := name, typ := t, sects := s.sects,
                             fields := freshFields s.nid cs }] }

/-- `trlc/parser.py:1900-1954`: a record object declaration after the type name `e` -/
def parseObjectOf (E : FileEnv) (e : Ent) : P Nat := do
  let s ← P.get
  if (s.info e.id).isAbstract then P.fail .abstractType
  else
    let tok ← P.matchK .IDENTIFIER
    let o ← P.newObject E e.id tok.text
    let _ ← P.matchK .C_BRA
    let s ← P.get
    assignLoop E o e.id (s.toks + 1)
    let s ← P.get
    completeLoop o e.id (s.decls.allComponents e.id)
    let _ ← P.matchK .C_KET
    pure o

/-- `trlc/parser.py:1886-1954` `parse_record_object_declaration`; returns the number of the
new object. -/
def parseObject (E : FileEnv) : P Nat := do
  let e ← parseQualifiedName E (fun e => e.cls = clsRecord)
  parseObjectOf E e

mutual
/-- `trlc/parser.py:1956-1961` `parse_trlc_entry`, with
`trlc/parser.py:1655-1672` `parse_section_declaration` inlined -/
def parseEntry (E : FileEnv) : Nat → P Unit
  | 0 => P.crash .fuel
  | n + 1 => do
    let s ← P.get
    if s.peekKw "section" then
      let _ ← P.matchKw "section"
      let t ← P.matchK .STRING
      P.modify fun s => { s with sects := s.sects ++ [t.text] }
      let _ ← P.matchK .C_BRA
      sectionLoop E n
      let _ ← P.matchK .C_KET
      P.modify fun s => { s with sects := s.sects.dropLast }
    else
      let _ ← parseObject E
      pure ()

/-- `trlc/parser.py:1668-1669` -/
def sectionLoop (E : FileEnv) : Nat → P Unit
  | 0 => P.crash .fuel
  | n + 1 => do
    let s ← P.get
    if s.peek .C_KET then pure ()
    else
      parseEntry E n
      sectionLoop E n
end

/-- `trlc/parser.py:2064-2077`: the next token is a place to go on after an error: the
keyword `section`, or the name of a package or of a record type of this package. -/
def PS.canResume (s : PS) (E : FileEnv) : Bool :=
  if s.peekKw "section" then true
  else match s.nt with
    | none => false
    | some t =>
      if t.kind ≠ .IDENTIFIER then false
      else if E.global.contains t.text then
        match E.global.lookupAssuming t.text none with
        | .ok (some e) => e.cls = clsPackage
        | _ => false
      else if (s.tab E.pkg).contains t.text then
        match (s.tab E.pkg).lookupAssuming t.text none with
        | .ok (some e) => e.cls = clsRecord
        | _ => false
      else false

/-- `trlc/parser.py:2063-2080`: skip until the parser can go on -/
def recoverLoop (E : FileEnv) : Nat → P Unit
  | 0 => P.crash .fuel
  | k + 1 => do
    let s ← P.get
    if s.peekEof || s.canResume E then pure ()
    else
      P.advance
      P.skipUntilNewline
      recoverLoop E k

/-- `trlc/parser.py:2056-2080`: what happens when an entry raised `TRLC_Error`.  (The test
`err.kind == "lex error"` is never true, errors carry a `Kind`, `trlc/errors.py:60-85`.) -/
def recoverFile (E : FileEnv) : P Bool := do
  if !E.recover then fun s => .err s
  else
    P.skipUntilNewline
    let s ← P.get
    recoverLoop E (s.toks + 1)
    pure false

/-- `trlc/parser.py:2052-2080`: the loop over the entries of a file -/
def fileLoop (E : FileEnv) : Nat → Bool → P Bool
  | 0, _ => P.crash .fuel
  | k + 1, ok => do
    let s ← P.get
    if s.peekKw "section" || s.peek .IDENTIFIER then
      let b ← P.tryCatch (do parseEntry E (2 * s.toks + 2); pure true) (recoverFile E)
      fileLoop E k (ok && b)
    else pure ok

/-- `trlc/parser.py:2046-2090` `parse_trlc_file` -/
def parseTrlcFile (E : FileEnv) : P Bool := do
  let s ← P.get
  let ok ← fileLoop E (s.toks + 1) true
  P.matchEof
  pure ok

end Verif.Model
