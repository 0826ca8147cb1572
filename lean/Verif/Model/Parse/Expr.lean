import Verif.Model.Parse.Value
/-!
# Parsing expressions (`trlc/parser.py:771-1537`)

The functions that build expressions call `parse_expression` again for what is inside
brackets; they take it as a parameter here, and `parseExpr` ties the knot with a bound on
the nesting (every level of nesting consumes a token, so the number of tokens is enough).

`ast_link`s, locations and the two lint messages (`trlc/parser.py:960-967, 1478-1490`) are not
modelled.
-/
namespace Verif.Model

/-- A step of building a typed node as parser step. (`trlc/parser.py:771-1537`) -/
def P.liftEl {α : Type} : El α → P α
  | .ok a => pure a
  | .err e => P.fail (.expr e)
  | .crash c => P.crash (.expr c)

/-- The scope of an expression, `trlc/parser.py:1551-1554, 1174-1178`: the global table and the
table of the package (`base`), the components of the type the check is for, and the tables
of the quantified variables, innermost first.  The last two are not `STab`s but name to
component and type: `contains` holds for exactly the spelling that was declared, and names in
one table are pairwise different. -/
structure LScope where
  base : Scope
  comp : String → Option Comp
  vars : List (String × Ty)

/-- What a name means in an expression (`trlc/parser.py:1383-1470`) -/
inductive Named
  /-- `ast.Quantified_Variable` -/
  | var (t : Ty)
  /-- `ast.Composite_Component` -/
  | comp (c : Comp)
  | ent (e : Ent)
  deriving Repr, DecidableEq

/-- `trlc/ast.py:3778-3788` `scope.lookup` without required class -/
def P.nameLookup (sc : LScope) (n : List Char) : P Named :=
  match sc.vars.lookup (String.ofList n) with
  | some t => pure (.var t)
  | none =>
    match sc.comp (String.ofList n) with
    | some c => pure (.comp c)
    | none =>
      match sc.base.lookup n none with
      | none => P.crash .assertion
      | some (.ok e) => pure (.ent e)
      | some (.error e) => P.fail (.sym e)

/-- `trlc/ast.py:3770-3776` `scope.contains` -/
def LScope.contains (sc : LScope) (n : List Char) : Bool :=
  (sc.vars.lookup (String.ofList n)).isSome || (sc.comp (String.ofList n)).isSome ||
    sc.base.contains n

/-- `isinstance(n_name, (ast.Builtin_Function, ast.Builtin_Numeric_Type))`
(`trlc/parser.py:1383-1400`) -/
def Ent.isCallable (e : Ent) : Bool :=
  e.cls = clsFunction || e.ty? == some .int || e.ty? == some .dec

/-- The operator that comes next: `self.peek("OPERATOR") and self.nt.value in …`
(`trlc/parser.py:771-1075`) -/
def PS.peekOp {α : Type} (s : PS) (ops : List (List Char × α)) : Option α :=
  match s.nt with
  | none => none
  | some t => if t.kind = .OPERATOR then ops.lookup t.text else none

/-- `trlc/parser.py:1003-1005` `mul_map` -/
def mulOps : List (List Char × ArOp) := [(['*'], .times), (['/'], .divide), (['%'], .remainder)]

/-- `trlc/parser.py:943-944` `bin_add_map` -/
def addOps : List (List Char × BinOp) := [(['+'], .plus), (['-'], .minus)]

/-- `trlc/parser.py:941-942` `un_add_map` -/
def signOps : List (List Char × UnOp) := [(['+'], .plus), (['-'], .minus)]

/-- `trlc/parser.py:841-846` `relop_mapping` -/
def cmpOps : List (List Char × CmpOp) :=
  [(['=', '='], .eq), (['!', '='], .neq), (['<'], .lt), (['<', '='], .leq), (['>'], .gt),
   (['>', '='], .geq)]

/-- `trlc/parser.py:1057` -/
def powerOps : List (List Char × Unit) := [(['*', '*'], ())]

/-- `trlc/parser.py:1246-1258` the parameters of a call: `while not self.peek("KET")` … -/
def argLoop (pe : P Expr) : Nat → P Exprs
  | 0 => P.crash .fuel
  | k + 1 => do
    let s ← P.get
    if s.peek .KET then pure .nil
    else
      let e ← pe
      let s ← P.get
      if s.peek .COMMA then
        let _ ← P.matchK .COMMA
        let es ← argLoop pe k
        pure (.cons e es)
      else pure (.cons e .nil)

/-- `trlc/parser.py:1234-1357` `parse_builtin` -/
def parseBuiltin (X : ElEnv) (pe : P Expr) (f : String) : P Expr := do
  let _ ← P.matchK .BRA
  let s ← P.get
  let args ← argLoop pe (s.toks + 1)
  let _ ← P.matchK .KET
  P.liftEl (mkCall X.decls X.rx X.rxOk f args)

/-- `isinstance(n_name.typ, (ast.Tuple_Type, ast.Record_Type, ast.Union_Type))`
(`trlc/parser.py:1470-1515`) -/
def isComposite : Option Ty → Bool
  | some (.tup _) | some (.record _) | some (.union ..) => true
  | _ => false

/-- `isinstance(n_name.typ, ast.Array_Type)` (`trlc/parser.py:1515-1537`) -/
def isArray : Option Ty → Bool
  | some (.arr ..) => true
  | _ => false

/-- `trlc/parser.py:1430-1535` the loop over `.field` and `[index]` -/
def nameTail (X : ElEnv) (pe : P Expr) : Nat → Expr → P Expr
  | 0, _ => P.crash .fuel
  | k + 1, p => do
    let s ← P.get
    if s.peek .DOT then
      P.cond (isComposite p.typ) (pure ()) (P.fail (.expr .notComposite))
      let _ ← P.matchK .DOT
      let t ← P.matchK .IDENTIFIER
      let q ← P.liftEl (mkField X.decls p (String.ofList t.text))
      nameTail X pe k q
    else if s.peek .S_BRA then
      P.cond (isArray p.typ) (pure ()) (P.fail (.expr .notArray))
      let _ ← P.matchK .S_BRA
      let i ← pe
      let _ ← P.matchK .S_KET
      let q ← P.liftEl (mkIndex X.decls p i)
      nameTail X pe k q
    else pure p

/-- `trlc/parser.py:1411-1423` an enumeration literal after the name of the type -/
def parseLiteral (X : ElEnv) (t : Nat) : P Expr := do
  let _ ← P.matchK .DOT
  let tok ← P.matchK .IDENTIFIER
  if ((X.decls.enums[t]?).getD []).contains (String.ofList tok.text) then
    pure (.enum t (String.ofList tok.text))
  else P.fail (.sym .unknown)

/-- `trlc/parser.py:1409-1448` what follows the name of something that is neither a component
nor a quantified variable: an enumeration literal, or the parameters of a function -/
def parseEntity (X : ElEnv) (pe : P Expr) (e : Ent) : P Expr :=
  if e.cls = clsEnum then parseLiteral X e.id
  else if e.isCallable then parseBuiltin X pe (String.ofList e.name)
  else P.fail (.expr .unknownName)

/-- `trlc/parser.py:1359-1537` `parse_name`, with `parse_qualified_name` (349-375, no required
class) -/
def parseName (E : FileEnv) (X : ElEnv) (sc : LScope) (pe : P Expr) : P Expr := do
  let t ← P.matchK .IDENTIFIER
  let s ← P.get
  if s.peek .BRA then
    let e ← P.liftSym (E.global.lookup t.text none)
    if e.isCallable then parseBuiltin X pe (String.ofList e.name)
    else P.fail (.expr .notBuiltin)
  else
    let r ← P.nameLookup sc t.text
    match r with
    | .var τ => nameTail X pe (s.toks + 1) (.name (String.ofList t.text) τ)
    | .comp c => nameTail X pe (s.toks + 1) (.name (String.ofList t.text) c.ty)
    | .ent e =>
      if e.cls = clsPackage then
        if !E.isVisible e.id then E.invisible
        else
          let _ ← P.matchK .DOT
          let t' ← P.matchK .IDENTIFIER
          let s ← P.get
          let e' ← P.liftSym ((s.tab e.id).lookup t'.text none)
          parseEntity X pe e'
      else parseEntity X pe e

/-- `trlc/parser.py:1132-1192` `parse_quantified_expression` -/
def parseQuantified (sc : LScope) (pe : LScope → P Expr) : P Expr := do
  let s ← P.get
  let u ← P.cond (s.peekKw "forall")
    (do let _ ← P.matchKw "forall"; pure true)
    (do let _ ← P.matchKw "exists"; pure false)
  let x ← P.matchK .IDENTIFIER
  if sc.contains x.text then P.fail (.expr .shadows)
  else
    let _ ← P.matchKw "in"
    let src ← P.matchK .IDENTIFIER
    let r ← P.nameLookup sc src.text
    match r with
    | .comp c =>
      match c.ty with
      | .arr _ elem _ _ =>
        let _ ← P.matchK .ARROW
        let b ← pe { sc with vars := (String.ofList x.text, elem) :: sc.vars }
        P.liftEl (ensureClass b.typ (·.isInst .boolean))
        pure (.quant u (String.ofList x.text) (String.ofList src.text) b)
      | _ => P.fail (.expr .notArray)
    | _ => P.fail (.expr .notComponent)

/-- `trlc/parser.py:1215-1230` the `elsif` parts and the `else` part of a conditional
expression of type `t` -/
def condTail (pe : P Expr) (t : Ty) : Nat → P Acts
  | 0 => P.crash .fuel
  | k + 1 => do
    let s ← P.get
    if s.peekKw "elsif" then
      let _ ← P.matchKw "elsif"
      let c ← pe
      let _ ← P.matchKw "then"
      let e ← pe
      P.liftEl (mkAction c)
      P.liftEl (ensureTy e.typ (some t))
      let rest ← condTail pe t k
      pure (.act c e rest)
    else
      let _ ← P.matchKw "else"
      let e ← pe
      P.liftEl (ensureTy e.typ (some t))
      pure (.els e)

/-- `trlc/parser.py:1194-1232` `parse_conditional_expression` -/
def parseConditional (pe : P Expr) : P Expr := do
  let _ ← P.matchKw "if"
  let c ← pe
  let _ ← P.matchKw "then"
  let e ← pe
  match e.typ with
  | none => P.fail (.expr .nullNotPermitted)
  | some t =>
    P.liftEl (mkAction c)
    let s ← P.get
    let rest ← condTail pe t (s.toks + 1)
    pure (.cond t (.act c e rest))

/-- `trlc/parser.py:1077-1130` `parse_primary` -/
def parsePrimary (E : FileEnv) (X : ElEnv) (sc : LScope) (pe : LScope → P Expr) : P Expr := do
  let s ← P.get
  if s.peek .INTEGER then
    let t ← P.matchK .INTEGER
    match t.value with
    | .int n => pure (.int n)
    | _ => P.crash .assertion
  else if s.peek .DECIMAL then
    let t ← P.matchK .DECIMAL
    match t.value with
    | .frac q => pure (.dec q)
    | _ => P.crash .assertion
  else if s.peek .STRING then
    let t ← P.matchK .STRING
    pure (.str t.text)
  else if s.peekKw "true" || s.peekKw "false" then
    let t ← P.matchK .KEYWORD
    pure (.bool (t.text = "true".toList))
  else if s.peekKw "null" then
    let _ ← P.matchKw "null"
    pure .null
  else if s.peek .BRA then
    let _ ← P.matchK .BRA
    let s ← P.get
    let e ← P.cond (s.peekKw "forall" || s.peekKw "exists") (parseQuantified sc pe)
      (P.cond (s.peekKw "if") (parseConditional (pe sc)) (pe sc))
    let _ ← P.matchK .KET
    pure e
  else parseName E X sc (pe sc)

/-- `trlc/parser.py:1026-1075` `parse_factor`; `pp` is `parse_primary` -/
def parseFactor (X : ElEnv) (pp : P Expr) : P Expr := do
  let s ← P.get
  if s.peekKw "not" then
    let _ ← P.matchKw "not"
    let e ← pp
    P.liftEl (mkUnary (some .bool) .logicalNot e)
  else if s.peekKw "abs" then
    let _ ← P.matchKw "abs"
    let e ← pp
    P.liftEl (mkUnary e.typ .abs e)
  else
    let l ← pp
    let s ← P.get
    match s.peekOp powerOps with
    | none => pure l
    | some _ =>
      let _ ← P.matchK .OPERATOR
      let r ← pp
      P.liftEl (mkPower X.decls X.rx l r)

/-- `trlc/parser.py:1008-1022` the loop of `parse_term`; `pf` is `parse_factor` -/
def termLoop (X : ElEnv) (pf : P Expr) : Nat → Expr → P Expr
  | 0, _ => P.crash .fuel
  | k + 1, l => do
    let s ← P.get
    match s.peekOp mulOps with
    | none => pure l
    | some op =>
      let _ ← P.matchK .OPERATOR
      let r ← pf
      let e ← P.liftEl (mkArith X.decls op l r)
      termLoop X pf k e

/-- `trlc/parser.py:999-1024` `parse_term` -/
def parseTerm (X : ElEnv) (pf : P Expr) : P Expr := do
  let l ← pf
  let s ← P.get
  termLoop X pf (s.toks + 1) l

/-- `trlc/parser.py:981-995` the loop of `parse_simple_expression`; `pt` is `parse_term` -/
def simpleLoop (X : ElEnv) (pt : P Expr) (rtyp : Option Ty) : Nat → Expr → P Expr
  | 0, _ => P.crash .fuel
  | k + 1, l => do
    let s ← P.get
    match s.peekOp addOps with
    | none => pure l
    | some op =>
      let _ ← P.matchK .OPERATOR
      let r ← pt
      let e ← P.liftEl (mkBinary X.decls rtyp op l r)
      simpleLoop X pt rtyp k e

/-- `trlc/parser.py:948-976` the first operand of a simple expression, with an optional sign -/
def parseSigned (pt : P Expr) : P Expr := do
  let s ← P.get
  match s.peekOp signOps with
  | none => pt
  | some op =>
    let _ ← P.matchK .OPERATOR
    let e ← pt
    P.liftEl (mkUnary e.typ op e)

/-- `trlc/parser.py:936-997` `parse_simple_expression` -/
def parseSimple (X : ElEnv) (pt : P Expr) : P Expr := do
  let l ← parseSigned pt
  let s ← P.get
  simpleLoop X pt (chainTyp l.typ) (s.toks + 1) l

/-- `trlc/parser.py:837-934` `parse_relation`; `ps` is `parse_simple_expression` -/
def parseRelation (X : ElEnv) (ps : P Expr) : P Expr := do
  let l ← ps
  let s ← P.get
  match s.peekOp cmpOps with
  | some op =>
    let _ ← P.matchK .OPERATOR
    let r ← ps
    P.liftEl (mkBinary X.decls (some .bool) op.op l r)
  | none =>
    if s.peekKw "not" || s.peekKw "in" then
      let neg ← P.cond (s.peekKw "not")
        (do let _ ← P.matchKw "not"; pure true)
        (pure false)
      let _ ← P.matchKw "in"
      let a ← ps
      let s ← P.get
      let e ← P.cond (s.peek .RANGE)
        (do
          let _ ← P.matchK .RANGE
          let b ← ps
          P.liftEl (mkRange l a b))
        (P.liftEl (mkIn X.decls l a))
      P.liftEl (mkNot neg e)
    else pure l

/-- `trlc/parser.py:777-790, 792-805` the loops for `and` and `or`; `pr` is
`parse_relation` -/
def logicLoop (X : ElEnv) (pr : P Expr) (kw : String) (op : LogOp) : Nat → Expr → P Expr
  | 0, _ => P.crash .fuel
  | k + 1, l => do
    let s ← P.get
    if s.peekKw kw then
      let _ ← P.matchKw kw
      let r ← pr
      let e ← P.liftEl (mkLogical X.decls op l r)
      logicLoop X pr kw op k e
    else pure l

/-- `trlc/parser.py:771-835` `parse_expression` -/
def parseExpression (X : ElEnv) (pr : P Expr) : P Expr := do
  let l ← pr
  let s ← P.get
  if s.peekKw "and" then logicLoop X pr "and" .and (s.toks + 1) l
  else if s.peekKw "or" then logicLoop X pr "or" .or (s.toks + 1) l
  else if s.peekKw "xor" then
    let _ ← P.matchKw "xor"
    let r ← pr
    P.liftEl (mkLogical X.decls .xor l r)
  else if s.peekKw "implies" then
    let _ ← P.matchKw "implies"
    let r ← pr
    P.liftEl (mkLogical X.decls .implies l r)
  else pure l

/-- `trlc/parser.py:771-1537`: `parse_expression` in a scope.  The first argument bounds the
nesting. -/
def parseExpr (E : FileEnv) (X : ElEnv) : Nat → LScope → P Expr
  | 0, _ => P.crash .fuel
  | n + 1, sc =>
    parseExpression X (parseRelation X (parseSimple X (parseTerm X (parseFactor X
      (parsePrimary E X sc (parseExpr E X n))))))

end Verif.Model
