import Verif.Model.Vcg.Terms
import Verif.Model.Checks
import Verif.Model.CanBeNull
import Verif.Model.Vcg
/-!
# The translation of checks for the solver (`trlc/vcg.py`)
-/
namespace Verif.Model

/-- What a name means while an expression is translated, `trlc/vcg.py:818-843`: the terms for value
and validity, and the type of the component or variable. -/
structure NameTr where
  value : Smt
  valid : Smt
  ty    : Ty
  deriving Repr, DecidableEq

/-- The names that can be used: `self.constants` or `self.tuple_base`, `self.qe_vars`,
`self.bound_vars` (`trlc/vcg.py:98-106`); an inner variable hides what is outside. -/
abbrev NameTrs := String → Option NameTr

/-- bind a quantified variable (`trlc/vcg.py:1435, 1450`); its validity is the literal `true`
(`trlc/vcg.py:840-843`) -/
def NameTrs.bind (ρ : NameTrs) (x : String) (a : Smt) (t : Ty) : NameTrs :=
  fun n => if n = x then some ⟨a, .bool true, t⟩ else ρ n

/-- Value and validity of a translated expression; the value of null is `None`
(`trlc/vcg.py:788-789`). -/
abbrev TrPair := Option Smt × Smt

/-- `isinstance(n_expr.n_operand.typ, Builtin_Integer)` chooses between the operators of the two
kinds of numbers, `trlc/vcg.py:852-894` -/
def unTerm (op : UnOp) (t : Option Ty) (a : Smt) : Option Smt :=
  match op with
  | .minus =>
    match t with
    | some .int => some (.un .negInt a)
    | some .dec => some (.un .negReal a)
    | _ => none
  | .plus => some a
  | .logicalNot => some (.un .not a)
  | .abs =>
    match t with
    | some .int => some (.un .absInt a)
    | some .dec => some (.un .absReal a)
    | _ => none
  | .strLen => some (.un .strLen a)
  | .arrLen => some (.un .seqLen a)
  -- `Integer(x)` of an Integer and `Decimal(x)` of a Decimal are conversions of a term that has the
  -- sort already; `Spec/Solver.lean` reads them as the identity
  | .toDec => some (.un .toReal a)
  | .toInt => some (.un .toInt a)

/-- The result of a binary operation on numbers of the type of the left operand,
`trlc/vcg.py:939-970` -/
def arithTerm (t : Option Ty) (i q : SBin) (a b : Smt) : Option Smt :=
  match t with
  | some .int => some (.bin i a b)
  | some .dec => some (.bin q a b)
  | _ => none

/-- `trlc/vcg.py:1031-1041` the power, multiplied out -/
def powTerm (mul : SBin) (a : Smt) : Nat → Smt
  | 0 => a
  | n + 1 => .bin mul (powTerm mul a n) a

/-- The sort of the elements of an array (`smt.Sequence_Index` takes it from its operand,
`trlc/vcg.py:1012`) -/
def elemSrt : Option Ty → Srt
  | some (.arr _ elem _ _) => elem.srt
  | _ => .bool

/-- What the translation refers to: the declared types, and `re.match` for the static evaluation of
exponents and patterns (`trlc/vcg.py:1002, 1020`) -/
structure TrEnv where
  decls : Decls
  rx    : List Char → List Char → Bool

/-- `.evaluate(self.mh, None, None).value`, `trlc/vcg.py:1002, 1020`; an error is reported by
raising -/
def TrEnv.static (T : TrEnv) (e : Expr) : Option Val :=
  match e.eval ⟨fun _ => none, T.rx⟩ none with
  | .ok v => some v.val
  | _ => none

/-- The result of a binary operator other than `==`, `!=` and the ones that short-circuit,
`trlc/vcg.py:926-1046`; `none` is a failing assertion.  `l` and `r` are the operands in the check. -/
def binTerm (T : TrEnv) (op : BinOp) (l r : Expr) (a b : Smt) : Option Smt :=
  match op with
  | .eq | .neq => none
  | .xor => some (.bin .xor a b)
  | .plus =>
    match l.typ with
    | some .str | some .markup => some (.bin .concat a b)
    | t => arithTerm t .addInt .addReal a b
  | .minus => arithTerm l.typ .subInt .subReal a b
  | .times => arithTerm l.typ .mulInt .mulReal a b
  | .divide => arithTerm l.typ .floorDiv .divReal a b
  | .remainder =>
    match l.typ with
    | some .int => some (.bin .adaRem a b)
    | _ => none
  | .lt => some (.bin .lt a b)
  | .leq => some (.bin .leq a b)
  | .gt => some (.bin .gt a b)
  | .geq => some (.bin .geq a b)
  -- the operands are swapped
  | .strContains => some (.bin .contains b a)
  | .startsWith => some (.bin .prefixOf b a)
  | .endsWith => some (.bin .suffixOf b a)
  | .regex =>
    match T.static r with
    | some (.str s) => some (.matches a (.str s))
    | _ => none
  | .index => some (.nth (elemSrt l.typ) a b)
  | .arrContains => some (.bin .seqContains b a)
  | .power =>
    match T.static r with
    | some (.int i) =>
      if i < 0 then none
      else
        match l.typ, i.toNat with
        | some .int, 0 => some (.int 1)
        | some .dec, 0 => some (.real 1)
        | some .int, n + 1 => some (powTerm .mulInt a n)
        | some .dec, n + 1 => some (powTerm .mulReal a n)
        | _, _ => none
    | _ => none

/-- `smt.Conjunction` of a list, `trlc/vcg.py:602, 1092, 1313-1321` -/
def conjTerm : List Smt → Smt
  | [] => .bool true
  | p :: ps => ps.foldl (fun a b => .bin .and a b) p

/-- `trlc/vcg.py:1275-1324` `tr_core_equality` and `tr_core_equality_tuple_component`.  `fuel` bounds
the nesting of tuple types; a tuple type only contains tuple types declared before it. -/
def coreEq (D : Decls) : Nat → Ty → Smt → Smt → Smt
  | fuel + 1, .tup t, a, b =>
    conjTerm ((D.fields t).map fun c =>
      let e := coreEq D fuel c.ty (.field a (.value c.name)) (.field b (.value c.name))
      if c.optional then
        .bin .and (.bin .eq (.field a (.valid c.name)) (.field b (.valid c.name)))
          (.bin .imp (.field a (.valid c.name)) e)
      else e)
  | _, _, a, b => .bin .eq a b

/-- `trlc/vcg.py:1339-1364` the result of `==` before `!=` negates it -/
def eqTerm (D : Decls) (t : Option Ty) (l r : TrPair) : Option Smt :=
  let core : Smt → Smt → Option Smt := fun a b => t.map fun t => coreEq D (D.tups.length + 1) t a b
  if l.2 = .bool true ∧ r.2 = .bool true then
    match l.1, r.1 with
    | some a, some b => core a b
    | _, _ => none
  else if l.2 = .bool false ∧ r.2 = .bool false then some (.bool true)
  else
    match l.1, r.1 with
    | none, _ => some (.un .not r.2)
    | some _, none => some (.un .not l.2)
    | some a, some b => (core a b).map fun e => .bin .and (.bin .eq l.2 r.2) (.bin .imp l.2 e)

/-- `comp_typ`, `trlc/vcg.py:1334-1337` -/
def compTyp (l r : Expr) (lv : Option Smt) : Option Ty := if lv.isNone then r.typ else l.typ

/-- the negation for `!=`, `trlc/vcg.py:1366-1367` -/
def negIf (op : BinOp) (a : Smt) : Smt := if op = .neq then .un .not a else a

/-- `info["optional_in_any"]` of a field of a union, `trlc/ast.py:2626-2651` -/
def Decls.optionalInAny (D : Decls) (ms : List Nat) (n : String) : Bool :=
  ms.any fun t => ((D.allComponents t).find? (·.name == n)).any (·.optional)

/-- `trlc/vcg.py:1519-1584` the field access after the prefix: terms for value and validity; `none`
is an internal exception -/
def fieldTerm (D : Decls) (t : Option Ty) (a : Smt) (n : String) : Option TrPair :=
  match t with
  | some (.tup t) =>
    ((D.fields t).find? (·.name == n)).map fun c =>
      (some (.field a (.value n)), if c.optional then .field a (.valid n) else .bool true)
  | some (.record t) =>
    (D.component t n).map fun c =>
      (some (.field (.deref (.record t) a) (.value n)),
        if c.optional then .field (.deref (.record t) a) (.valid n) else .bool true)
  | some (.union _ ms) =>
    ((D.fieldMap ms).lookup n).map fun i =>
      (some (.field (.deref (.union ms) a) (.value n)),
        if i.count ≠ ms.length ∨ D.optionalInAny ms n = true then .field (.deref (.union ms) a) (.valid n)
        else .bool true)
  | _ => none

/-- exactly one of the choices, `trlc/vcg.py:1073-1093`: choice number `k` and none of the others,
for some `k`; `none` is the failing assertion -/
def oneofTerm (cs : List Smt) : Option Smt :=
  match cs with
  | [] => none
  | [a] => some a
  | [a, b] => some (.bin .xor a b)
  | cs =>
    let pick : Nat → Smt := fun k =>
      conjTerm (cs.zipIdx.map fun (c, j) => if j = k then c else .un .not c)
    match (List.range cs.length).map pick with
    | [] => none
    | p :: ps => some (ps.foldl (fun a b => .bin .or a b) p)

/-- `0 <= i < len(a)`, `trlc/vcg.py:1456-1462` -/
def boundsTerm (i a : Smt) : Smt := .bin .and (.bin .geq i (.int 0)) (.bin .lt i (.un .seqLen a))

/-- The outcome of a translation with `self.functional`, which does not touch the graph
(`trlc/vcg.py:113-116`) -/
inductive FR (α : Type)
  | ok (a : α)
  | unsupported
  | crash
  deriving Repr, DecidableEq

/-- sequential composition; exceptions are not caught (`trlc/vcg.py:316-321`) -/
def FR.bind {α β : Type} : FR α → (α → FR β) → FR β
  | .ok a, f => f a
  | .unsupported, _ => .unsupported
  | .crash, _ => .crash

/-- a term that must exist; `none` is a failing assertion of a constructor of `pyvcg` or of the
translation (`trlc/vcg.py:764-1587`) -/
def FR.need {α : Type} : Option α → FR α
  | none => .crash
  | some a => .ok a

mutual
/-- `tr_expression` with `self.functional`, `trlc/vcg.py:764-816` and the functions it calls: no
checks are made and no temporaries are declared.  `attach_validity_check`,
`attach_int_division_check`, `attach_real_division_check` and `attach_index_check` assert that the
mode is not functional (`trlc/vcg.py:169, 189, 210, 234`) and are called without asking by
`tr_range_test`, `tr_oneof_test`, and for division, remainder and index by `tr_binary_expression`. -/
def Expr.trF (T : TrEnv) (ρ : NameTrs) : Expr → FR TrPair
  | .null => .ok (none, .bool false)
  | .bool b => .ok (some (.bool b), .bool true)
  | .int i => .ok (some (.int i), .bool true)
  | .dec q => .ok (some (.real q), .bool true)
  | .str s => .ok (some (.str s), .bool true)
  | .enum t l => .ok (some (.enum t l), .bool true)
  -- 818-843
  | .name n _ => (FR.need (ρ n)).bind fun x => .ok (some x.value, x.valid)
  -- 845-896
  | .unary _ op e =>
    (Expr.trF T ρ e).bind fun p => (FR.need p.1).bind fun a =>
      (FR.need (unTerm op e.typ a)).bind fun r => .ok (some r, .bool true)
  -- 898-1046, 1326-1369
  | .binary _ op l r =>
    (Expr.trF T ρ l).bind fun p =>
      (Expr.trF T ρ r).bind fun q =>
        match op with
        | .eq | .neq =>
          (FR.need (eqTerm T.decls (compTyp l r p.1) p q)).bind fun x => .ok (some (negIf op x), .bool true)
        | .divide | .remainder | .index => .crash
        | op =>
          (FR.need p.1).bind fun a => (FR.need q.1).bind fun b =>
            (FR.need (binTerm T op l r a b)).bind fun x => .ok (some x, .bool true)
  -- 1150-1154, 1193-1197, 1236-1240
  | .logic op l r =>
    (Expr.trF T ρ l).bind fun p =>
      (Expr.trF T ρ r).bind fun q =>
        (FR.need p.1).bind fun a => (FR.need q.1).bind fun b =>
          match op with
          | .and => .ok (some (.bin .and a b), .bool true)
          | .or => .ok (some (.bin .or a b), .bool true)
          | .implies => .ok (some (.bin .imp a b), .bool true)
  -- 1511-1587
  | .field p n _ =>
    (Expr.trF T ρ p).bind fun x => (FR.need x.1).bind fun a => FR.need (fieldTerm T.decls p.typ a n)
  -- 1048-1052, 1064-1070
  | .range e _ _ => (Expr.trF T ρ e).bind fun _ => .crash
  | .oneof cs =>
    match cs with
    | .nil => .crash
    | .cons e _ => (Expr.trF T ρ e).bind fun _ => .crash
  -- 1097-1106
  | .cond _ as => (Acts.trF T ρ as).bind fun a => .ok (some a, .bool true)
  -- 1374-1377
  | .quant .. => .unsupported

/-- `trlc/vcg.py:1097-1106` `tr_conditional_expression_functional`.  The code goes through the actions
from the last to the first. -/
def Acts.trF (T : TrEnv) (ρ : NameTrs) : Acts → FR Smt
  | .els e => (Expr.trF T ρ e).bind fun p => FR.need p.1
  | .act c e rest =>
    (Acts.trF T ρ rest).bind fun x =>
      (Expr.trF T ρ c).bind fun p => (FR.need p.1).bind fun t =>
        (Expr.trF T ρ e).bind fun q => (FR.need q.1).bind fun a => .ok (.ite t a x)
end

/-- an outcome of a functional translation inside of the other translation (`trlc/vcg.py:1452-1454`) -/
def FR.lift {α : Type} : FR α → TrM α
  | .ok a => pure a
  | .unsupported => .unsupported
  | .crash => .crash

/-- `trlc/vcg.py:165-183` `attach_validity_check`; `em` is `self.emit_checks` -/
def checkValid (em : Bool) (d : Smt) : TrM Unit :=
  if em = true ∧ d ≠ .bool true then attach [.goal d .null] else pure ()

/-- a check node unless there is nothing to check or `self.emit_checks` is off
(`trlc/vcg.py:185-258`) -/
def checkGoals (em : Bool) (gs : List (Smt × Feedback)) : TrM Unit :=
  if em = true ∧ gs ≠ [] then attach (gs.map fun g => .goal g.1 g.2) else pure ()

/-- `trlc/vcg.py:290-306` `attach_temp_declaration` -/
def declareTemp (k : Nat) (s : Srt) (v : Option Smt) : TrM Unit := attach [.declare (.tmp k) s v]

/-- The sort of a term, which `pyvcg` computes from its parts, is the one of the type of the
expression (`trlc/vcg.py:159`). -/
def tySrt : Option Ty → Srt
  | some t => t.srt
  | none => .bool

/-- `trlc/vcg.py:147-163` `create_return` if the mode is not functional -/
def createReturn (t : Option Ty) (v : Smt) : TrM TrPair := do
  let k ← newTemp
  declareTemp k (tySrt t) (some v)
  pure (some (.sym (.tmp k)), .bool true)

/-- a term that must exist (`trlc/vcg.py:764-1587`) -/
def TrM.need {α : Type} : Option α → TrM α
  | none => .crash
  | some a => pure a

/-- The goals of division, remainder and index, `trlc/vcg.py:185-258, 940-942, 958-959, 1011` -/
def opGoals (op : BinOp) (t : Option Ty) (a b : Smt) : List (Smt × Feedback) :=
  match op, t with
  | .divide, some .int => [(.un .not (.bin .eq b (.int 0)), .divByZero)]
  | .remainder, _ => [(.un .not (.bin .eq b (.int 0)), .divByZero)]
  | .divide, _ => [(.un .not (.bin .eq b (.real 0)), .divByZero)]
  | .index, _ => [(.bin .geq b (.int 0), .indexBelow), (.bin .lt b (.un .seqLen a), .indexAbove)]
  | _, _ => []

/-- the value of a short-circuit operator if the right operand is not evaluated, and the assumption
under which this is so (`trlc/vcg.py:1168-1171, 1211-1214, 1254-1257`) -/
def skipped (op : SCOp) (a : Smt) : Smt × Smt :=
  match op with
  | .and => (.un .not a, .bool false)
  | .or => (a, .bool true)
  | .implies => (.un .not a, .bool true)

/-- the assumption under which the right operand is evaluated (`trlc/vcg.py:1176, 1219, 1262`) -/
def evaluated (op : SCOp) (a : Smt) : Smt :=
  match op with
  | .and | .implies => a
  | .or => .un .not a

mutual
/-- `tr_expression` if the mode is not functional, `trlc/vcg.py:764-816`, and the functions it calls -/
def Expr.tr (T : TrEnv) (em : Bool) (ρ : NameTrs) : Expr → TrM TrPair
  | .null => pure (none, .bool false)
  | .bool b => pure (some (.bool b), .bool true)
  | .int i => pure (some (.int i), .bool true)
  | .dec q => pure (some (.real q), .bool true)
  | .str s => pure (some (.str s), .bool true)
  | .enum t l => pure (some (.enum t l), .bool true)
  -- 818-843
  | .name n _ => do
    let x ← TrM.need (ρ n)
    pure (some x.value, x.valid)
  -- 845-896
  | .unary t op e => do
    let p ← Expr.tr T em ρ e
    checkValid em p.2
    let a ← TrM.need p.1
    let r ← TrM.need (unTerm op e.typ a)
    createReturn t r
  -- 898-1046, 1326-1369
  | .binary t op l r => do
    let p ← Expr.tr T em ρ l
    if op.allowsNull then do
      let q ← Expr.tr T em ρ r
      let x ← TrM.need (eqTerm T.decls (compTyp l r p.1) p q)
      createReturn t (negIf op x)
    else do
      checkValid em p.2
      let q ← Expr.tr T em ρ r
      checkValid em q.2
      let a ← TrM.need p.1
      let b ← TrM.need q.1
      checkGoals em (opGoals op l.typ a b)
      let x ← TrM.need (binTerm T op l r a b)
      createReturn t x
  -- 1146-1273
  | .logic op l r => do
    let p ← Expr.tr T em ρ l
    checkValid em p.2
    let a ← TrM.need p.1
    let here ← getStart
    let k ← newTemp
    let fin ← newNode
    attach [.assert (skipped op a).1]
    declareTemp k .bool (some (skipped op a).2)
    edgeTo fin
    setStart here
    attach [.assert (evaluated op a)]
    let q ← Expr.tr T em ρ r
    checkValid em q.2
    declareTemp k .bool q.1
    edgeTo fin
    setStart fin
    pure (some (.sym (.tmp k)), .bool true)
  -- 1511-1587
  | .field p n _ => do
    let x ← Expr.tr T em ρ p
    checkValid em x.2
    let a ← TrM.need x.1
    TrM.need (fieldTerm T.decls p.typ a n)
  -- 1048-1062
  | .range e lo up => do
    let p ← Expr.tr T em ρ e
    checkValid em p.2
    let q ← Expr.tr T em ρ lo
    checkValid em q.2
    let r ← Expr.tr T em ρ up
    checkValid em r.2
    let a ← TrM.need p.1
    let b ← TrM.need q.1
    let c ← TrM.need r.1
    createReturn (some .bool) (.bin .and (.bin .geq a b) (.bin .leq a c))
  -- 1064-1095
  | .oneof cs => do
    let xs ← Exprs.tr T em ρ cs
    let x ← TrM.need (oneofTerm xs)
    createReturn (some .bool) x
  -- 1108-1144
  | .cond t as => do
    let fin ← newNode
    let k ← newTemp
    Acts.tr T em ρ k t.srt fin as
    setStart fin
    pure (some (.sym (.tmp k)), .bool true)
  -- 1371-1474
  | .quant u x src body => do
    let s ← TrM.need (ρ src)
    checkValid em s.valid
    let here ← getStart
    match s.ty with
    | .arr _ elem _ _ => do
      let i ← newTemp
      let k ← newTemp
      attach [.declare (.tmp i) .int none,
        .assert (.bin .geq (.sym (.tmp i)) (.int 0)),
        .assert (.bin .lt (.sym (.tmp i)) (.un .seqLen s.value)),
        .declare (.tmp k) elem.srt (some (.nth elem.srt s.value (.sym (.tmp i))))]
      let p ← Expr.tr T em (ρ.bind x (.sym (.tmp k)) elem) body
      checkValid em p.2
      setStart here
      let j ← newTemp
      let q ← FR.lift (Expr.trF T (ρ.bind x (.nth elem.srt s.value (.idx j)) elem) body)
      let b ← TrM.need q.1
      if u then pure (some (.all j (.bin .imp (boundsTerm (.idx j) s.value) b)), .bool true)
      else pure (some (.ex j (.bin .and (boundsTerm (.idx j) s.value) b)), .bool true)
    | _ => TrM.crash

/-- `trlc/vcg.py:1067-1071` the choices of `oneof` -/
def Exprs.tr (T : TrEnv) (em : Bool) (ρ : NameTrs) : Exprs → TrM (List Smt)
  | .nil => pure []
  | .cons e es => do
    let p ← Expr.tr T em ρ e
    checkValid em p.2
    let a ← TrM.need p.1
    let xs ← Exprs.tr T em ρ es
    pure (a :: xs)

/-- `trlc/vcg.py:1116-1140` the actions and the `else` part; `k` is the result, `fin` the node where
the paths join -/
def Acts.tr (T : TrEnv) (em : Bool) (ρ : NameTrs) (k : Nat) (s : Srt) (fin : Nat) : Acts → TrM Unit
  | .els e => do
    let p ← Expr.tr T em ρ e
    checkValid em p.2
    declareTemp k s p.1
    edgeTo fin
  | .act c e rest => do
    let p ← Expr.tr T em ρ c
    checkValid em p.2
    let a ← TrM.need p.1
    let here ← getStart
    attach [.assert a]
    let q ← Expr.tr T em ρ e
    checkValid em q.2
    declareTemp k s q.1
    edgeTo fin
    setStart here
    attach [.assert (.un .not a)]
    Acts.tr T em ρ k s fin rest
end

end Verif.Model
