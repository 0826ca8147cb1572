import Verif.Model.Eval
/-!
# Building typed expressions (`trlc/parser.py:771-1537` and the constructors in
`trlc/ast.py:1186-2268`)

The parser builds typed expression nodes while it reads tokens.  Here the grammar part is
separated from the typing part: `Raw` is the syntax tree the parser follows (see
`Model/Parse/Expr.lean` for the token level), `elab` performs the name lookups and type
checks the parser and the node constructors perform, and yields the typed node.
-/
namespace Verif.Model

/-- Errors reported while building an expression (`trlc/ast.py:529-546, 1242-2340`) -/
inductive ElErr
  /-- `trlc/ast.py:534-536`, `trlc/parser.py:1205-1207` null is not permitted here -/
  | nullNotPermitted
  /-- `trlc/ast.py:537-546` expected expression of type ... -/
  | wrongType
  /-- `trlc/ast.py:1477-1519` type mismatch in `==`, `!=` -/
  | typeMismatch
  /-- `trlc/ast.py:3396-3755` unknown name -/
  | unknownName
  /-- the name is not a component (quantification source), `trlc/parser.py:1155` -/
  | notComponent
  /-- `trlc/parser.py:1146-1152` -/
  | shadows
  /-- `trlc/parser.py:1159-1162` -/
  | notArray
  /-- `trlc/parser.py:1436-1445` -/
  | notComposite
  /-- unknown component, tuple field or union field -/
  | unknownField
  /-- `trlc/parser.py:1470-1475` -/
  | conflictingField
  /-- `trlc/parser.py:1273-1283` -/
  | arity
  /-- `trlc/parser.py:907-911` -/
  | membership
  /-- `trlc/parser.py:1072-1074` -/
  | negativeExponent
  /-- `trlc/parser.py:1324-1326` -/
  | badRegex
  /-- `trlc/parser.py:1403-1407` -/
  | notBuiltin
  /-- `trlc/parser.py:1557-1559` -/
  | notBoolean
  /-- an error reported by the evaluation in a static context -/
  | static (e : EvErr)
  deriving Repr, DecidableEq

/-- Internal exceptions while building an expression (`trlc/parser.py:771-1537`) -/
inductive ElCrash
  /-- `n_name.arity` on `Integer` or `Decimal` (`AttributeError`), `trlc/parser.py:1277` -/
  | arityOfType
  /-- `n_a.typ.name` with `n_a.typ` being `None`, `trlc/parser.py:911` -/
  | membershipOfNull
  /-- an internal exception of the evaluation in a static context -/
  | static (c : EvCrash)
  deriving Repr, DecidableEq

/-- Outcome of building an expression (`trlc/parser.py:771-1537`) -/
inductive El (α : Type)
  | ok (a : α)
  | err (e : ElErr)
  | crash (c : ElCrash)
  deriving Repr, DecidableEq

/-- Sequencing (`trlc/errors.py:274-276`) -/
def El.bind {α β} : El α → (α → El β) → El β
  | .ok a, f => f a
  | .err e, _ => .err e
  | .crash c, _ => .crash c

/-- The logical operators of `trlc/parser.py:771-835` -/
inductive LogOp
  | and | or | xor | implies
  deriving Repr, DecidableEq

/-- The arithmetic operators of `trlc/parser.py:936-1024` -/
inductive ArOp
  | plus | minus | times | divide | remainder
  deriving Repr, DecidableEq

/-- The comparison operators of `trlc/parser.py:841-846` -/
inductive CmpOp
  | eq | neq | lt | leq | gt | geq
  deriving Repr, DecidableEq

mutual
/-- Syntax trees of check expressions (`trlc/parser.py:771-1537`) -/
inductive Raw
  | null
  | bool (b : Bool)
  | int (n : Nat)
  | dec (q : Rat)
  | str (s : List Char)
  /-- qualified name of an enumeration type, literal -/
  | enumLit (path : List String) (lit : String)
  | name (n : String)
  /-- `name '.' IDENTIFIER` -/
  | dot (p : Raw) (f : String)
  /-- `name '[' expression ']'` -/
  | index (p : Raw) (i : Raw)
  /-- `IDENTIFIER '(' parameters ')'` -/
  | call (f : String) (args : Raws)
  /-- unary `-` (`true`) and `+` -/
  | sign (minus : Bool) (e : Raw)
  | not (e : Raw)
  | abs (e : Raw)
  | power (l r : Raw)
  | arith (op : ArOp) (l r : Raw)
  | cmp (op : CmpOp) (l r : Raw)
  /-- `e [not] in a` -/
  | isIn (neg : Bool) (e a : Raw)
  /-- `e [not] in a .. b` -/
  | inRange (neg : Bool) (e a b : Raw)
  | logic (op : LogOp) (l r : Raw)
  | cond (c e : Raw) (rest : RActs)
  | quant (universal : Bool) (var source : String) (body : Raw)
/-- parameters of a function call (`trlc/parser.py:1242-1259`) -/
inductive Raws
  | nil
  | cons (e : Raw) (es : Raws)
/-- the `elsif` parts and the `else` part of a conditional expression (`trlc/parser.py:1194-1232`) -/
inductive RActs
  | els (e : Raw)
  | act (c e : Raw) (rest : RActs)
end

/-- The names an expression can refer to: the components of the type the check block is for
(`n_ctype.components`), the quantified variables (innermost first), other names of the package
and the builtin table (only needed to reject shadowing), enumeration types by qualified
name, see `trlc/parser.py:1539-1556`. -/
structure TScope where
  comp  : String → Option Comp
  vars  : List (String × Ty)
  other : String → Bool
  enums : List String → Option Nat

/-- `trlc/parser.py:1139-1152` `scope.contains` -/
def TScope.contains (sc : TScope) (n : String) : Bool :=
  (sc.vars.lookup n).isSome || (sc.comp n).isSome || sc.other n

/-- `trlc/ast.py:529-541` `ensure_type` given a class -/
def ensureClass (t : Option Ty) (p : Ty → Bool) : El Unit :=
  match t with
  | none => .err .nullNotPermitted
  | some t => if p t then .ok () else .err .wrongType

/-- `trlc/ast.py:529-546` `ensure_type` given a type; the type given is never `None` in the
places where it is called. -/
def ensureTy (t : Option Ty) (want : Option Ty) : El Unit :=
  match t with
  | none => .err .nullNotPermitted
  | some t => if some t = want then .ok () else .err .wrongType

/-- `trlc/ast.py:1260-1292` the constructor of `Unary_Expression` -/
def mkUnary (typ : Option Ty) (op : UnOp) (e : Expr) : El Expr :=
  (match op with
    | .minus | .plus | .abs | .toInt | .toDec => ensureClass e.typ Ty.isNumeric
    | .logicalNot => ensureClass e.typ (·.isInst .boolean)
    | .strLen => ensureClass e.typ (·.isInst .string)
    | .arrLen => ensureClass e.typ (·.isInst .array)).bind fun _ => .ok (.unary typ op e)

/-- the record types a record or union type stands for, `trlc/ast.py:1498-1503` -/
def Ty.members : Ty → Option (List Nat)
  | .record t => some [t]
  | .union _ ms => some ms
  | _ => none

/-- `trlc/ast.py:1470-1519` which operand types `==` and `!=` accept -/
def eqTypes (D : Decls) (l r : Option Ty) : El Unit :=
  match l, r with
  | some l, some r =>
    if l.isInst .union || r.isInst .union then
      match l.members, r.members with
      | some ls, some rs =>
        if ls.any (fun a => rs.any fun b => D.isSubclassOf a b || D.isSubclassOf b a) then .ok ()
        else .err .typeMismatch
      | _, _ => .err .typeMismatch
    else if l = r then .ok () else .err .typeMismatch
  | _, _ => .ok ()

/-- the class of the element type of an array type, `trlc/ast.py:1538` -/
def elemClass : Option Ty → Ty → Bool
  | some (.arr _ elem _ _), t => t.isInst elem.cls
  | _, _ => false

/-- `trlc/ast.py:1463-1561` the type checks in the constructor of `Binary_Expression` (for the
operators that do not short-circuit) -/
def binaryTypes (D : Decls) (op : BinOp) (l r : Option Ty) : El Unit :=
  match op with
  | .xor => (ensureClass l (·.isInst .boolean)).bind fun _ => ensureClass r (·.isInst .boolean)
  | .eq | .neq => eqTypes D l r
  | .lt | .leq | .gt | .geq | .minus | .times | .divide =>
    (ensureClass l Ty.isNumeric).bind fun _ => ensureTy r l
  | .strContains | .startsWith | .endsWith | .regex =>
    (ensureClass l (·.isInst .string)).bind fun _ => ensureClass r (·.isInst .string)
  | .arrContains =>
    (ensureClass r (·.isInst .array)).bind fun _ => ensureClass l (elemClass r)
  | .plus =>
    if l.any Ty.isNumeric then ensureTy r l
    else (ensureClass l (·.isInst .string)).bind fun _ => ensureClass r (·.isInst .string)
  | .power => (ensureClass l Ty.isNumeric).bind fun _ => ensureClass r (·.isInst .integer)
  | .remainder =>
    (ensureClass l (·.isInst .integer)).bind fun _ => ensureClass r (·.isInst .integer)
  | .index => (ensureClass l (·.isInst .array)).bind fun _ => ensureClass r (·.isInst .integer)

/-- the constructor of `Binary_Expression`, `trlc/ast.py:1443-1561` -/
def mkBinary (D : Decls) (typ : Option Ty) (op : BinOp) (l r : Expr) : El Expr :=
  (binaryTypes D op l.typ r.typ).bind fun _ => .ok (.binary typ op l r)

/-- `trlc/ast.py:1463-1468`: `and`, `or`, `implies` -/
def mkLogic (op : SCOp) (l r : Expr) : El Expr :=
  (ensureClass l.typ (·.isInst .boolean)).bind fun _ =>
    (ensureClass r.typ (·.isInst .boolean)).bind fun _ => .ok (.logic op l r)

/-- `trlc/parser.py:1431-1511` one step `.field`: lookup of the field and the constructor of
`Field_Access_Expression` (`trlc/ast.py:1858-1874`).  The lint message is not modelled. -/
def mkField (D : Decls) (p : Expr) (f : String) : El Expr :=
  match p.typ with
  | some (.tup t) =>
    match (D.fields t).find? (·.name == f) with
    | none => .err .unknownField
    | some c => (ensureTy p.typ (some c.memberOf)).bind fun _ => .ok (.field p f c.ty)
  | some (.record t) =>
    match D.component t f with
    | none => .err .unknownField
    | some c => (ensureTy p.typ (some c.memberOf)).bind fun _ => .ok (.field p f c.ty)
  | some (.union _ ms) =>
    match (D.fieldMap ms).lookup f with
    | none => .err .unknownField
    | some info =>
      match info.ty with
      | none => .err .conflictingField
      | some _ => .ok (.field p f info.comp.ty)
  | _ => .err .notComposite

/-- `trlc/parser.py:1513-1535` one step `[index]` -/
def mkIndex (D : Decls) (p i : Expr) : El Expr :=
  match p.typ with
  | some (.arr _ elem _ _) => mkBinary D (some elem) .index p i
  | _ => .err .notArray

/-- evaluation in a static context while parsing (`trlc/parser.py:1062, 1314`) -/
def evalStatic (rx : List Char → List Char → Bool) (e : Expr) : El TV :=
  match e.eval ⟨fun _ => none, rx⟩ none with
  | .ok v => .ok v
  | .err e => .err (.static e)
  | .crash c => .crash (.static c)

/-- `trlc/parser.py:1055-1074` the operator `**` -/
def mkPower (D : Decls) (rx : List Char → List Char → Bool) (l r : Expr) : El Expr :=
  (evalStatic rx r).bind fun v =>
    (mkBinary D l.typ .power l r).bind fun e =>
      match v.val with
      | .int i => if i < 0 then .err .negativeExponent else .ok e
      | _ => .crash (.static .operand)

/-- `trlc/parser.py:948-997` the result type of a chain of `+` and `-` starting with an
expression of the given type -/
def chainTyp : Option Ty → Option Ty
  | some t => if t.isInst .string then some .str else some t
  | none => none

/-- `trlc/parser.py:982-995, 1011-1022` the binary operators of simple expressions and terms.
(In a chain of `+`/`-` the type is computed from its first operand; as the type of a
sub-chain is that of its first operand, or `String`, this is the type computed from the left
operand.) -/
def mkArith (D : Decls) (op : ArOp) (l r : Expr) : El Expr :=
  match op with
  | .plus => mkBinary D (chainTyp l.typ) .plus l r
  | .minus => mkBinary D (chainTyp l.typ) .minus l r
  | .times => mkBinary D l.typ .times l r
  | .divide => mkBinary D l.typ .divide l r
  | .remainder => mkBinary D l.typ .remainder l r

/-- `trlc/parser.py:841-846` -/
def CmpOp.op : CmpOp → BinOp
  | .eq => .eq
  | .neq => .neq
  | .lt => .lt
  | .leq => .leq
  | .gt => .gt
  | .geq => .geq

/-- `trlc/parser.py:913-923` wrap in a negation -/
def mkNot (neg : Bool) (e : Expr) : El Expr :=
  if neg then mkUnary (some .bool) .logicalNot e else .ok e

/-- `trlc/parser.py:885-911` membership in a string or an array -/
def mkIn (D : Decls) (e a : Expr) : El Expr :=
  match a.typ with
  | none => .crash .membershipOfNull
  | some t =>
    if t.isInst .string then mkBinary D (some .bool) .strContains e a
    else if t.isInst .array then mkBinary D (some .bool) .arrContains e a
    else .err .membership

/-- the constructor of `Range_Test`, `trlc/ast.py:1939-1953` -/
def mkRange (e lo up : Expr) : El Expr :=
  (ensureClass e.typ Ty.isNumeric).bind fun _ =>
    (ensureTy lo.typ e.typ).bind fun _ =>
      (ensureTy up.typ e.typ).bind fun _ => .ok (.range e lo up)

/-- `trlc/parser.py:771-835` -/
def mkLogical (D : Decls) (op : LogOp) (l r : Expr) : El Expr :=
  match op with
  | .and => mkLogic .and l r
  | .or => mkLogic .or l r
  | .implies => mkLogic .implies l r
  | .xor => mkBinary D (some .bool) .xor l r

/-- `trlc/ast.py:2023-2036` the constructor of `OneOf_Expression` -/
def mkOneOf (es : Exprs) : El Expr :=
  (go es).bind fun _ => .ok (.oneof es)
where
  /-- `trlc/ast.py:2034-2035` -/
  go : Exprs → El Unit
    | .nil => .ok ()
    | .cons e es => (ensureClass e.typ (·.isInst .boolean)).bind fun _ => go es

/-- the parameters as a list (`trlc/parser.py:1242-1259`) -/
def Exprs.toList : Exprs → List Expr
  | .nil => []
  | .cons e es => e :: es.toList

/-- `trlc/parser.py:1262-1357` the calls of builtin functions and type conversions, after the
parameters have been parsed.  `re.compile` succeeding is the parameter `rxOk`.  The functions
and their arity are those registered in `trlc/ast.py:3735-3755`. -/
def mkCall (D : Decls) (rx : List Char → List Char → Bool) (rxOk : List Char → Bool)
    (f : String) (args : Exprs) : El Expr :=
  if f = "len" then
    match args.toList with
    | [a] =>
      if a.typ.any (·.isInst .string) then mkUnary (some .int) .strLen a
      else mkUnary (some .int) .arrLen a
    | _ => .err .arity
  else if f = "startswith" then
    match args.toList with
    | [a, b] => mkBinary D (some .bool) .startsWith a b
    | _ => .err .arity
  else if f = "endswith" then
    match args.toList with
    | [a, b] => mkBinary D (some .bool) .endsWith a b
    | _ => .err .arity
  else if f = "matches" then
    match args.toList with
    | [a, b] =>
      (ensureClass b.typ (·.isInst .string)).bind fun _ =>
        (evalStatic rx b).bind fun v =>
          match v.val with
          | .str s =>
            if rxOk s then mkBinary D (some .bool) .regex a b else .err .badRegex
          | _ => .crash (.static .operand)
    | _ => .err .arity
  else if f = "oneof" then
    match args.toList with
    | [] => .err .arity
    | _ => mkOneOf args
  else if f = "Integer" then
    match args.toList with
    | [a] =>
      (ensureClass a.typ Ty.isNumeric).bind fun _ => mkUnary (some .int) .toInt a
    | _ => .crash .arityOfType
  else if f = "Decimal" then
    match args.toList with
    | [a] =>
      (ensureClass a.typ Ty.isNumeric).bind fun _ => mkUnary (some .dec) .toDec a
    | _ => .crash .arityOfType
  else .err .notBuiltin

/-- `trlc/ast.py:2093-2110` the constructor of `Action`: the condition is Boolean -/
def mkAction (c : Expr) : El Unit := ensureClass c.typ (·.isInst .boolean)

/-- What stays the same while an expression is built (`trlc/parser.py:1359-1537`) -/
structure ElEnv where
  decls : Decls
  rx    : List Char → List Char → Bool
  rxOk  : List Char → Bool

mutual
/-- `trlc/parser.py:771-1537`: building the typed expression for a syntax tree -/
def Raw.elab (E : ElEnv) (sc : TScope) : Raw → El Expr
  -- 1077-1112
  | .null => .ok .null
  | .bool b => .ok (.bool b)
  | .int n => .ok (.int n)
  | .dec q => .ok (.dec q)
  | .str s => .ok (.str s)
  -- 1411-1423
  | .enumLit path lit =>
    match sc.enums path with
    | none => .err .unknownName
    | some t =>
      if ((E.decls.enums[t]?).getD []).contains lit then .ok (.enum t lit) else .err .unknownName
  -- 1408-1409, 1425-1429, 1466-1468
  | .name n =>
    match sc.vars.lookup n with
    | some t => .ok (.name n t)
    | none =>
      match sc.comp n with
      | some c => .ok (.name n c.ty)
      | none => .err .unknownName
  | .dot p f => (Raw.elab E sc p).bind fun p => mkField E.decls p f
  | .index p i =>
    (Raw.elab E sc p).bind fun p => (Raw.elab E sc i).bind fun i => mkIndex E.decls p i
  | .call f args => (Raws.elab E sc args).bind fun args => mkCall E.decls E.rx E.rxOk f args
  -- 948-976
  | .sign minus e =>
    (Raw.elab E sc e).bind fun e => mkUnary e.typ (if minus then .minus else .plus) e
  -- 1030-1053
  | .not e => (Raw.elab E sc e).bind fun e => mkUnary (some .bool) .logicalNot e
  | .abs e => (Raw.elab E sc e).bind fun e => mkUnary e.typ .abs e
  | .power l r =>
    (Raw.elab E sc l).bind fun l => (Raw.elab E sc r).bind fun r => mkPower E.decls E.rx l r
  | .arith op l r =>
    (Raw.elab E sc l).bind fun l => (Raw.elab E sc r).bind fun r => mkArith E.decls op l r
  | .cmp op l r =>
    (Raw.elab E sc l).bind fun l => (Raw.elab E sc r).bind fun r =>
      mkBinary E.decls (some .bool) op.op l r
  | .isIn neg e a =>
    (Raw.elab E sc e).bind fun e => (Raw.elab E sc a).bind fun a =>
      (mkIn E.decls e a).bind fun x => mkNot neg x
  | .inRange neg e a b =>
    (Raw.elab E sc e).bind fun e => (Raw.elab E sc a).bind fun a =>
      (Raw.elab E sc b).bind fun b => (mkRange e a b).bind fun x => mkNot neg x
  | .logic op l r =>
    (Raw.elab E sc l).bind fun l => (Raw.elab E sc r).bind fun r => mkLogical E.decls op l r
  -- 1194-1232
  | .cond c e rest =>
    (Raw.elab E sc c).bind fun c => (Raw.elab E sc e).bind fun e =>
      match e.typ with
      | none => .err .nullNotPermitted
      | some t =>
        (mkAction c).bind fun _ => (RActs.elab E sc t rest).bind fun rest =>
          .ok (.cond t (.act c e rest))
  -- 1132-1192
  | .quant u x src body =>
    if sc.contains x then .err .shadows
    else
      match sc.vars.lookup src with
      | some _ => .err .notComponent
      | none =>
        match sc.comp src with
        | none => .err .unknownName
        | some c =>
          match c.ty with
          | .arr _ elem _ _ =>
            (Raw.elab E { sc with vars := (x, elem) :: sc.vars } body).bind fun b =>
              (ensureClass b.typ (·.isInst .boolean)).bind fun _ => .ok (.quant u x src b)
          | _ => .err .notArray

/-- `trlc/parser.py:1246-1258` the parameters -/
def Raws.elab (E : ElEnv) (sc : TScope) : Raws → El Exprs
  | .nil => .ok .nil
  | .cons e es =>
    (Raw.elab E sc e).bind fun e => (Raws.elab E sc es).bind fun es => .ok (.cons e es)

/-- `trlc/parser.py:1215-1230` with `trlc/ast.py:2143-2163`: the remaining actions and the else
part of a conditional expression of type `t` -/
def RActs.elab (E : ElEnv) (sc : TScope) (t : Ty) : RActs → El Acts
  | .els e =>
    (Raw.elab E sc e).bind fun e => (ensureTy e.typ (some t)).bind fun _ => .ok (.els e)
  | .act c e rest =>
    (Raw.elab E sc c).bind fun c => (Raw.elab E sc e).bind fun e =>
      (mkAction c).bind fun _ => (ensureTy e.typ (some t)).bind fun _ =>
        (RActs.elab E sc t rest).bind fun rest => .ok (.act c e rest)
end

/-- `trlc/parser.py:1556-1559` the expression of a check -/
def elabCheck (E : ElEnv) (sc : TScope) (r : Raw) : El Expr :=
  (r.elab E sc).bind fun e =>
    if e.typ = some .bool then .ok e else .err .notBoolean

/-- The scope of a check block for a record type (`trlc/parser.py:1554-1557`) -/
def TScope.ofRecord (D : Decls) (t : Nat) (other : String → Bool)
    (enums : List String → Option Nat) : TScope :=
  { comp := D.component t, vars := [], other, enums }

/-- The scope of a check block for a tuple type (`trlc/parser.py:1554-1557`) -/
def TScope.ofTuple (D : Decls) (t : Nat) (other : String → Bool)
    (enums : List String → Option Nat) : TScope :=
  { comp := fun n => (D.fields t).find? (·.name == n), vars := [], other, enums }

end Verif.Model
