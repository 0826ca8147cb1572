import Verif.Model.Values
/-!
# Evaluation of expressions (`trlc/ast.py:585-2334`, the `evaluate` methods)

`evaluate` returns a `Value`, reports an error (always fatal: `mh.error` raises
`TRLC_Error`), or fails with an internal Python exception.  The three outcomes are the
constructors of `Ev`.  Source locations and message texts are not modelled; every place
that reports an error has its own constructor in `EvErr`.
-/
namespace Verif.Model

/-- The errors reported by `evaluate` (`trlc/ast.py:585-2340`) -/
inductive EvErr
  /-- `trlc/ast.py:1338-1342` input to unary expression -/
  | nullUnary
  /-- `trlc/ast.py:1628-1633` lhs of a binary expression -/
  | nullLhs
  /-- `trlc/ast.py:1661-1667` rhs of a binary expression -/
  | nullRhs
  /-- `trlc/ast.py:1763-1767, 1779-1783` -/
  | divByZero
  /-- `trlc/ast.py:1801-1805` -/
  | indexNegative
  /-- `trlc/ast.py:1806-1812` -/
  | indexAboveBound
  /-- `trlc/ast.py:1813-1817` -/
  | indexAboveLength
  /-- `trlc/ast.py:1889-1892` -/
  | nullDereference
  /-- `trlc/ast.py:1975-1994` -/
  | nullRange
  /-- `trlc/ast.py:2193-2197` -/
  | nullCondition
  /-- `trlc/ast.py:2294-2301` -/
  | nullSource
  /-- `trlc/ast.py:1227-1229` -/
  | staticContext
  /-- `trlc/ast.py:402-407` (`Check.perform`) -/
  | nullCheck
  deriving Repr, DecidableEq

/-- Internal Python exceptions (`trlc/ast.py:585-2340`) -/
inductive EvCrash
  /-- `IndexError` of `v_lhs.value[v_rhs.value]`, `trlc/ast.py:1820` -/
  | indexError
  /-- `assert isinstance(result.value, bool)` in a quantifier, `trlc/ast.py:2312` -/
  | quantifierNotBool
  /-- the `assert` in the constructor of `Value`, `trlc/ast.py:82` -/
  | badValue
  /-- a name that is not in the context, `trlc/ast.py:1231, 2293` -/
  | noSuchName
  /-- an unresolved reference, `trlc/ast.py:1145` -/
  | unresolved
  /-- an operand that does not have the Python type the operation needs (failing
  `assert isinstance`, `TypeError`, `AttributeError`) -/
  | operand
  /-- the quantifier in a static context subscripts `None`, `trlc/ast.py:2293` -/
  | staticQuantifier
  deriving Repr, DecidableEq

/-- Outcome of an evaluation (`trlc/ast.py:497-523`) -/
inductive Ev (α : Type)
  | ok (a : α)
  | err (e : EvErr)
  | crash (c : EvCrash)
  deriving Repr, DecidableEq

/-- Sequencing: an error or exception ends the evaluation. (`trlc/errors.py:274-276`) -/
def Ev.bind {α β} : Ev α → (α → Ev β) → Ev β
  | .ok a, f => f a
  | .err e, _ => .err e
  | .crash c, _ => .crash c

/-- one statement after the other: exceptions that stop the evaluation, `trlc/ast.py:1686-2334` -/
instance : Monad Ev where
  pure := .ok
  bind := Ev.bind

/-- `trlc/ast.py:70-86` the constructor of `Value` with its assertion
`(typ is None) == (value is None)`. -/
def mkValue (typ : Option Ty) (v : Val) : Ev TV :=
  if typ.isNone = v.isNull then .ok ⟨typ, v⟩ else .crash .badValue

/-- `trlc/ast.py:439-453` `Unary_Operator` -/
inductive UnOp
  | minus | plus | logicalNot | abs | strLen | arrLen | toInt | toDec
  deriving Repr, DecidableEq

/-- `trlc/ast.py:456-482` `Binary_Operator` without the operators that short-circuit, which
have their own constructor in `Expr`. -/
inductive BinOp
  | xor | eq | neq | lt | leq | gt | geq
  | strContains | startsWith | endsWith | regex | arrContains
  | plus | minus | times | divide | remainder | power | index
  deriving Repr, DecidableEq

/-- `trlc/ast.py:459-462` the short-circuit operators -/
inductive SCOp
  | and | or | implies
  deriving Repr, DecidableEq

/-- `trlc/ast.py:1344-1384` the operation of `Unary_Expression.evaluate` on an operand that
is not null.  Applying an operator to a value of the wrong Python type is `crash`, also where
Python would compute something (for example `-True`). -/
def unaryOp (op : UnOp) (typ : Option Ty) (v : Val) : Ev TV :=
  match op, v with
  | .minus, .int i => mkValue typ (.int (-i))
  | .minus, .dec q => mkValue typ (.dec (-q))
  | .plus, .int i => mkValue typ (.int i)
  | .plus, .dec q => mkValue typ (.dec q)
  | .logicalNot, .bool b => mkValue typ (.bool (!b))
  | .abs, .int i => mkValue typ (.int (if i < 0 then -i else i))
  | .abs, .dec q => mkValue typ (.dec (if q < 0 then -q else q))
  | .strLen, .str s => mkValue typ (.int s.length)
  | .arrLen, .arr es => mkValue typ (.int es.length)
  | .toInt, .dec q => mkValue typ (.int (roundNearestAway q))
  | .toInt, .int i => mkValue typ (.int i)
  | .toDec, .int i => mkValue typ (.dec i)
  | .toDec, .dec q => mkValue typ (.dec q)
  | _, _ => .crash .operand

/-- `trlc/ast.py:1335-1384` `Unary_Expression.evaluate` after the operand -/
def unary (op : UnOp) (typ : Option Ty) (v : TV) : Ev TV :=
  if v.val.isNull then .err .nullUnary else unaryOp op typ v.val

mutual
/-- Evaluating the value of a component: `Implicit_Null`, literals, signed numbers,
aggregates and references, `trlc/ast.py:622-627, 705, 753, 808, 852, 916, 972-979, 1069-1076,
1145, 1335-1348`.  The context is not used by any of them. -/
def FExpr.eval (heap : Nat → Option Fields) : FExpr → Ev TV
  | .inull => mkValue none .null
  | .bool b => mkValue (some .bool) (.bool b)
  | .int i => mkValue (some .int) (.int i)
  | .dec q => mkValue (some .dec) (.dec q)
  | .str s => mkValue (some .str) (.str s)
  | .markup s => mkValue (some .markup) (.str s)
  | .enum t l => mkValue (some (.enum t)) (.enum t l)
  | .neg e => (FExpr.eval heap e).bind fun v => unary .minus v.typ v
  | .pos e => (FExpr.eval heap e).bind fun v => unary .plus v.typ v
  | .arr t es => (evalElems heap es).bind fun vs => mkValue (some t) (.arr vs)
  | .tup t fs => (evalFields heap fs).bind fun vs => mkValue (some (.tup t)) (.tup vs)
  | .ref t target =>
    match target with
    | none => .crash .unresolved
    | some o =>
      match heap o with
      | none => .crash .unresolved
      | some fs => mkValue (some t) (.recv fs)

/-- `trlc/ast.py:976-978` the elements of an array, in order -/
def evalElems (heap : Nat → Option Fields) : List FExpr → Ev (List (Option Ty × Val))
  | [] => .ok []
  | e :: es =>
    (FExpr.eval heap e).bind fun v =>
      (evalElems heap es).bind fun vs => .ok ((v.typ, v.val) :: vs)

/-- `trlc/ast.py:1073-1075` the fields of a tuple, in order -/
def evalFields (heap : Nat → Option Fields) :
    List (String × FExpr) → Ev (List (String × Option Ty × Val))
  | [] => .ok []
  | f :: fs =>
    (evalField heap f).bind fun v => (evalFields heap fs).bind fun vs => .ok (v :: vs)

/-- one field of a tuple (`trlc/ast.py:1067-1074`) -/
def evalField (heap : Nat → Option Fields) : String × FExpr → Ev (String × Option Ty × Val)
  | (n, e) => (FExpr.eval heap e).bind fun v => .ok (n, v.typ, v.val)
end

/-- Python's `s in t` on strings (`trlc/ast.py:1701-1707`) -/
def isInfix (s : List Char) : List Char → Bool
  | [] => s.isEmpty
  | c :: t => s.isPrefixOf (c :: t) || isInfix s t

/-- the order comparisons of two numbers, `trlc/ast.py:1694-1700` -/
def compareNum (op : BinOp) (a b : Rat) : Bool :=
  match op with
  | .lt => decide (a < b)
  | .leq => decide (a ≤ b)
  | .gt => decide (b < a)
  | _ => decide (b ≤ a)

/-- Two numbers of the same Python type (the code compares and computes with operands of the
same static type only).
(`trlc/ast.py:1687-1699, 1738-1795`) -/
inductive NumPair
  | ints (a b : Int)
  | decs (a b : Rat)

/-- both operands `int` or both `Fraction` (`trlc/ast.py:1687-1699, 1738-1795`) -/
def numPair : Val → Val → Option NumPair
  | .int a, .int b => some (.ints a b)
  | .dec a, .dec b => some (.decs a b)
  | _, _ => none

/-- `+`, `-`, `*` on numbers (`trlc/ast.py:1738-1757`) -/
def arith (typ : Option Ty) (fi : Int → Int → Int) (fq : Rat → Rat → Rat) (l r : Val) : Ev TV :=
  match numPair l r with
  | some (.ints a b) => mkValue typ (.int (fi a b))
  | some (.decs a b) => mkValue typ (.dec (fq a b))
  | none => .crash .operand

/-- `trlc/ast.py:1795-1822` the operator `[]`: `n` is the upper bound of the type of the
array value, checked before the length. -/
def indexOp (typ : Option Ty) (ltyp : Option Ty) (l r : Val) : Ev TV :=
  match l, r with
  | .arr es, .int i =>
    match ltyp with
    | some (.arr _ _ _ hi) =>
      if i < 0 then .err .indexNegative
      else if hi.any (fun (u : Nat) => decide ((u : Int) < i)) then .err .indexAboveBound
      else if (es.length : Int) < i then .err .indexAboveLength
      else
        match es[i.toNat]? with
        | none => .crash .indexError
        | some e => mkValue typ e.2
    | _ => .crash .operand
  | _, _ => .crash .operand

/-- `trlc/ast.py:1669-1827` the operation of `Binary_Expression.evaluate` after both
operands; `re.match` is the parameter `rx`. -/
def binaryOp (rx : List Char → List Char → Bool) (op : BinOp) (typ : Option Ty) (l r : TV) :
    Ev TV :=
  match op with
  | .xor =>
    match l.val, r.val with
    | .bool a, .bool b => mkValue typ (.bool (a ^^ b))
    | _, _ => .crash .operand
  | .eq => mkValue typ (.bool (l.val.pyEq r.val))
  | .neq => mkValue typ (.bool (!l.val.pyEq r.val))
  | .lt | .leq | .gt | .geq =>
    match numPair l.val r.val with
    | some (.ints a b) => mkValue typ (.bool (compareNum op a b))
    | some (.decs a b) => mkValue typ (.bool (compareNum op a b))
    | none => .crash .operand
  | .strContains =>
    match l.val, r.val with
    | .str a, .str b => mkValue typ (.bool (isInfix a b))
    | _, _ => .crash .operand
  | .startsWith =>
    match l.val, r.val with
    | .str a, .str b => mkValue typ (.bool (b.isPrefixOf a))
    | _, _ => .crash .operand
  | .endsWith =>
    match l.val, r.val with
    | .str a, .str b => mkValue typ (.bool (b.isSuffixOf a))
    | _, _ => .crash .operand
  | .regex =>
    match l.val, r.val with
    | .str a, .str b => mkValue typ (.bool (rx b a))
    | _, _ => .crash .operand
  | .arrContains =>
    match r.val with
    | .arr es => mkValue typ (.bool (es.any fun e => eqTV (l.typ, l.val) e))
    | _ => .crash .operand
  | .plus =>
    match l.val, r.val with
    | .str a, .str b => mkValue typ (.str (a ++ b))
    | a, b => arith typ (· + ·) (· + ·) a b
  | .minus => arith typ (· - ·) (· - ·) l.val r.val
  | .times => arith typ (· * ·) (· * ·) l.val r.val
  | .divide =>
    match numPair l.val r.val with
    | some (.ints a b) =>
      match pyFloorDiv a b with
      | none => .err .divByZero
      | some q => mkValue typ (.int q)
    | some (.decs a b) => if b = 0 then .err .divByZero else mkValue typ (.dec (a / b))
    | none => .crash .operand
  | .remainder =>
    match l.val, r.val with
    | .int a, .int b =>
      match remainder a b with
      | none => .err .divByZero
      | some m => mkValue typ (.int m)
    | _, _ => .crash .operand
  | .power =>
    match l.val, r.val with
    -- a negative exponent makes a `float` (rejected by the constructor of `Value`) or, for
    -- the base 0, a `ZeroDivisionError`
    | .int a, .int b => if b < 0 then .crash .operand else mkValue typ (.int (a ^ b.toNat))
    -- for a `Fraction` a negative exponent is the power of the reciprocal
    | .dec a, .int b =>
      if b < 0 ∧ a = 0 then .crash .operand
      else if b < 0 then mkValue typ (.dec ((1 / a) ^ (-b).toNat))
      else mkValue typ (.dec (a ^ b.toNat))
    | _, _ => .crash .operand
  | .index => indexOp typ l.typ l.val r.val

/-- `trlc/ast.py:1669-1684` whether null is an acceptable operand -/
def BinOp.allowsNull : BinOp → Bool
  | .eq | .neq => true
  | _ => false

mutual
/-- The expressions that occur in checks (`trlc/ast.py:585-2334`).  Every node carries the
attribute `typ` where it is not determined by the rest of the node. -/
inductive Expr
  /-- `Null_Literal` -/
  | null
  | bool (b : Bool)
  | int (i : Nat)
  | dec (q : Rat)
  | str (s : List Char)
  /-- `Enumeration_Literal` -/
  | enum (ty : Nat) (lit : String)
  /-- `Name_Reference`: name and type of the component or quantified variable -/
  | name (n : String) (ty : Ty)
  | unary (ty : Option Ty) (op : UnOp) (e : Expr)
  | binary (ty : Option Ty) (op : BinOp) (l r : Expr)
  | logic (op : SCOp) (l r : Expr)
  /-- `Field_Access_Expression`: prefix, name and type of the field -/
  | field (pre : Expr) (n : String) (ty : Ty)
  | range (e lower upper : Expr)
  | oneof (choices : Exprs)
  /-- `Conditional_Expression` -/
  | cond (ty : Ty) (acts : Acts)
  /-- `Quantified_Expression`: universal or not, variable, name of the source component, body -/
  | quant (universal : Bool) (var : String) (source : String) (body : Expr)
/-- a list of expressions (`trlc/ast.py:2011-2033`) -/
inductive Exprs
  | nil
  | cons (e : Expr) (es : Exprs)
/-- the actions of a conditional expression and its `else_expr` (`trlc/ast.py:2066-2160`) -/
inductive Acts
  | els (e : Expr)
  | act (c e : Expr) (rest : Acts)
end

/-- The attribute `typ` of an expression node (`trlc/ast.py:491-495`) -/
def Expr.typ : Expr → Option Ty
  | .null => none
  | .bool _ => some .bool
  | .int _ => some .int
  | .dec _ => some .dec
  | .str _ => some .str
  | .enum t _ => some (.enum t)
  | .name _ t => some t
  | .unary t _ _ => t
  | .binary t _ _ _ => t
  | .logic .. => some .bool
  | .field _ _ t => some t
  | .range .. => some .bool
  | .oneof _ => some .bool
  | .cond t _ => some t
  | .quant .. => some .bool

/-- `trlc/ast.py:2305-2328` the loop of `Quantified_Expression.evaluate`; `f` evaluates the
body with the variable bound to an element. -/
def quantLoop (universal : Bool) (f : FExpr → Ev TV) : List FExpr → Ev TV
  | [] => mkValue (some .bool) (.bool universal)
  | b :: bs =>
    (f b).bind fun r =>
      match r.val with
      | .bool x =>
        if universal && !x then mkValue (some .bool) (.bool false)
        else if !universal && x then mkValue (some .bool) (.bool true)
        else quantLoop universal f bs
      | _ => .crash .quantifierNotBool

/-- `v_choices.count(True)`, `trlc/ast.py:2052-2056` -/
def countTrue : List Val → Nat
  | [] => 0
  | v :: vs => (if v.pyEq (.bool true) then 1 else 0) + countTrue vs

/-- What evaluation refers to besides the context: the fields of the record objects that are
the targets of references, and `re.match`.
(`trlc/ast.py:497-523`) -/
structure EvEnv where
  heap : Nat → Option Fields
  rx   : List Char → List Char → Bool

/-- The parameter `context`: `None` (static context) or a dictionary from names to the values
of components and quantified variables.
(`trlc/ast.py:497-523`) -/
abbrev Ctx := Option (List (String × FExpr))

mutual
/-- The `evaluate` methods of `trlc/ast.py:692-2334`. -/
def Expr.eval (env : EvEnv) (ctx : Ctx) : Expr → Ev TV
  -- 692-697, 751-755, 806-810, 850-854, 887-891, 914-918
  | .null => mkValue none .null
  | .bool b => mkValue (some .bool) (.bool b)
  | .int i => mkValue (some .int) (.int i)
  | .dec q => mkValue (some .dec) (.dec q)
  | .str s => mkValue (some .str) (.str s)
  | .enum t l => mkValue (some (.enum t)) (.enum t l)
  -- 1222-1232
  | .name n _ =>
    match ctx with
    | none => .err .staticContext
    | some c =>
      match c.lookup n with
      | none => .crash .noSuchName
      | some e => e.eval env.heap
  -- 1323-1384
  | .unary t op e => (Expr.eval env ctx e).bind fun v => unary op t v
  -- 1614-1633, 1660-1827
  | .binary t op l r =>
    (Expr.eval env ctx l).bind fun vl =>
      if vl.val.isNull && !op.allowsNull then .err .nullLhs
      else (Expr.eval env ctx r).bind fun vr =>
        if vr.val.isNull && !op.allowsNull then .err .nullRhs
        else binaryOp env.rx op t vl vr
  -- 1614-1658
  | .logic op l r =>
    (Expr.eval env ctx l).bind fun vl =>
      if vl.val.isNull then .err .nullLhs
      else
        match vl.val with
        | .bool b =>
          match op with
          | .and => if b then Expr.eval env ctx r else .ok vl
          | .or => if b then .ok vl else Expr.eval env ctx r
          | .implies => if b then Expr.eval env ctx r else mkValue (some .bool) (.bool true)
        | _ => .crash .operand
  -- 1881-1905
  | .field p n _ =>
    (Expr.eval env ctx p).bind fun vp =>
      match vp.val with
      | .null => .err .nullDereference
      | .tup fs =>
        match fs.lookup n with
        | none => mkValue none .null
        | some v => .ok ⟨v.1, v.2⟩
      | .recv fs =>
        match fs.lookup n with
        | none => mkValue none .null
        | some v => v.expr.eval env.heap
      | _ => .crash .operand
  -- 1967-1998; `a <= x <= b` compares the second time only if the first comparison holds
  | .range e lo up =>
    (Expr.eval env ctx e).bind fun v =>
      if v.val.isNull then .err .nullRange
      else (Expr.eval env ctx lo).bind fun vlo =>
        if vlo.val.isNull then .err .nullRange
        else (Expr.eval env ctx up).bind fun vup =>
          if vup.val.isNull then .err .nullRange
          else
            match vlo.val, v.val, vup.val with
            | .int a, .int x, .int b => mkValue (some .bool) (.bool (decide (a ≤ x) && decide (x ≤ b)))
            | .dec a, .dec x, .dec b => mkValue (some .bool) (.bool (decide (a ≤ x) && decide (x ≤ b)))
            | _, _, _ => .crash .operand
  -- 2046-2056
  | .oneof cs =>
    (Exprs.eval env ctx cs).bind fun vs =>
      mkValue (some .bool) (.bool (countTrue vs == 1))
  -- 2181-2202
  | .cond _ as => Acts.eval env ctx as
  -- 2275-2328
  | .quant u x src body =>
    match ctx with
    | none => .crash .staticQuantifier
    | some c =>
      match c.lookup src with
      | none => .crash .noSuchName
      | some .inull => .err .nullSource
      | some (.arr _ es) => quantLoop u (fun b => Expr.eval env (some ((x, b) :: c)) body) es
      | some _ => .crash .operand

/-- `trlc/ast.py:2052-2053` the values of all choices, in order -/
def Exprs.eval (env : EvEnv) (ctx : Ctx) : Exprs → Ev (List Val)
  | .nil => .ok []
  | .cons e es =>
    (Expr.eval env ctx e).bind fun v =>
      (Exprs.eval env ctx es).bind fun vs => .ok (v.val :: vs)

/-- `trlc/ast.py:2190-2202` the loop over the actions -/
def Acts.eval (env : EvEnv) (ctx : Ctx) : Acts → Ev TV
  | .els e => Expr.eval env ctx e
  | .act c e rest =>
    (Expr.eval env ctx c).bind fun v =>
      if v.val.isNull then .err .nullCondition
      else
        match v.val with
        | .bool b => if b then Expr.eval env ctx e else Acts.eval env ctx rest
        | _ => .crash .operand
end

end Verif.Model
