import Verif.Spec.Written
import Verif.Model.Elab
/-!
# The grammar of check expressions (LRM, "Expressions", "Names")

Which syntax tree a sequence of tokens stands for.  The binary arithmetic operators and the
chains of `and` and of `or` associate to the left; `xor`, `implies`, comparisons and
membership tests do not associate; different logical operators cannot be mixed without
brackets.

The grammar depends on what is declared in two places only: a name that is a component or a
quantified variable (`V`) hides everything else of that name, and a name before a dot can be
an enumeration type or a package.
-/
namespace Verif.Spec
open Verif.Model

/-- The keyword `v` -/
def IsKw (v : String) (t : Token) : Prop := t.kind = .KEYWORD ∧ t.value = .str v.toList

/-- The operator `v` -/
def IsOp (v : String) (t : Token) : Prop := t.kind = .OPERATOR ∧ t.text = v.toList

/-- `*`, `/`, `%` -/
def MulTok : ArOp → Token → Prop
  | .times => IsOp "*"
  | .divide => IsOp "/"
  | .remainder => IsOp "%"
  | _ => fun _ => False

/-- `+`, `-` -/
def AddTok : ArOp → Token → Prop
  | .plus => IsOp "+"
  | .minus => IsOp "-"
  | _ => fun _ => False

/-- the sign `-` or `+` -/
def SignTok (minus : Bool) : Token → Prop := IsOp (if minus then "-" else "+")

/-- the comparison operators -/
def CmpTok : CmpOp → Token → Prop
  | .eq => IsOp "=="
  | .neq => IsOp "!="
  | .lt => IsOp "<"
  | .leq => IsOp "<="
  | .gt => IsOp ">"
  | .geq => IsOp ">="

/-- the logical operators -/
def LogTok : LogOp → Token → Prop
  | .and => IsKw "and"
  | .or => IsKw "or"
  | .xor => IsKw "xor"
  | .implies => IsKw "implies"

/-- `in` or `not in` -/
def InToks (neg : Bool) (ts : List Token) : Prop :=
  if neg then ∃ a b, ts = [a, b] ∧ IsKw "not" a ∧ IsKw "in" b else ∃ b, ts = [b] ∧ IsKw "in" b

/-- An operator with its right operand -/
structure Link (O : Type) where
  op  : O
  tok : Token
  ts  : List Token
  raw : Raw

/-- the tokens of a sequence of operators and operands -/
def spell {O : Type} (is : List (Link O)) : List Token := is.flatMap fun i => i.tok :: i.ts

/-- `l op r op r …`, associated to the left -/
def leftAssoc {O : Type} (f : O → Raw → Raw → Raw) (l : Raw) (is : List (Link O)) : Raw :=
  is.foldl (fun l i => f i.op l i.raw) l

/-- `.field` or `[index]` -/
inductive Access
  | dot (d t : Token)
  | index (b : Token) (ts : List Token) (k : Token) (i : Raw)

/-- the tokens of an access -/
def Access.toks : Access → List Token
  | .dot d t => [d, t]
  | .index b ts k _ => b :: ts ++ [k]

/-- The punctuation of an access is right. -/
def Access.Ok : Access → Prop
  | .dot d t => d.kind = .DOT ∧ t.kind = .IDENTIFIER
  | .index b _ k _ => b.kind = .S_BRA ∧ k.kind = .S_KET

/-- the syntax tree of an access to `p` -/
def Access.raw (p : Raw) : Access → Raw
  | .dot _ t => .dot p (String.ofList t.text)
  | .index _ _ _ i => .index p i

/-- `x, …, x` and possibly a comma at the end -/
inductive Commas : List (List Token) → List Token → Prop
  | nil : Commas [] []
  | last {a} : Commas [a] a
  | more {a as c r} : c.kind = .COMMA → Commas as r → Commas (a :: as) (a ++ c :: r)

/-- parameters from a list -/
def rawsOf : List Raw → Raws
  | [] => .nil
  | r :: rs => .cons r (rawsOf rs)

/-- `elsif c then e` -/
structure Branch where
  els : Token
  cts : List Token
  c   : Raw
  thn : Token
  ets : List Token
  e   : Raw

/-- the tokens of a branch -/
def Branch.toks (b : Branch) : List Token := b.els :: b.cts ++ b.thn :: b.ets

/-- the branches followed by an `else` part -/
def actsOf (e : Raw) : List Branch → RActs
  | [] => .els e
  | b :: bs => .act b.c b.e (actsOf e bs)

/-- the identifiers of a qualified name -/
def pathOf (ts : List Token) : List String :=
  (ts.filter fun t => t.kind = .IDENTIFIER).map fun t => String.ofList t.text

/-- The first identifier of a name -/
def Hidden (V : String → Prop) (ts : List Token) : Prop :=
  ∃ t r, ts = t :: r ∧ V (String.ofList t.text)

/-- Something that can be called: a builtin function, `Integer` or `Decimal` -/
def Callable (e : Ent) : Prop :=
  e.cls = clsFunction ∨ e.ty? = some .int ∨ e.ty? = some .dec

mutual
/-- expression -/
inductive GExpr (E : FileEnv) (N : Names) : (String → Prop) → List Token → Raw → Prop
  | chain {V a l is op} : op = .and ∨ op = .or → GRel E N V a l →
      (∀ i ∈ is, i.op = op ∧ LogTok op i.tok) → (∀ i ∈ is, GRel E N V i.ts i.raw) →
      GExpr E N V (a ++ spell is) (leftAssoc .logic l is)
  | once {V a l t b r op} : op = .xor ∨ op = .implies → GRel E N V a l → LogTok op t →
      GRel E N V b r → GExpr E N V (a ++ t :: b) (.logic op l r)
/-- relation -/
inductive GRel (E : FileEnv) (N : Names) : (String → Prop) → List Token → Raw → Prop
  | simple {V a l} : GSimple E N V a l → GRel E N V a l
  | cmp {V a l op t b r} : GSimple E N V a l → CmpTok op t → GSimple E N V b r →
      GRel E N V (a ++ t :: b) (.cmp op l r)
  | isIn {V a l neg k b r} : GSimple E N V a l → InToks neg k → GSimple E N V b r →
      GRel E N V (a ++ (k ++ b)) (.isIn neg l r)
  | inRange {V a l neg k b r t c u} : GSimple E N V a l → InToks neg k → GSimple E N V b r →
      t.kind = .RANGE → GSimple E N V c u →
      GRel E N V (a ++ (k ++ (b ++ t :: c))) (.inRange neg l r u)
/-- simple expression -/
inductive GSimple (E : FileEnv) (N : Names) : (String → Prop) → List Token → Raw → Prop
  | plain {V a l is} : GTerm E N V a l → (∀ i ∈ is, AddTok i.op i.tok) →
      (∀ i ∈ is, GTerm E N V i.ts i.raw) → GSimple E N V (a ++ spell is) (leftAssoc .arith l is)
  | signed {V t minus a l is} : SignTok minus t → GTerm E N V a l →
      (∀ i ∈ is, AddTok i.op i.tok) → (∀ i ∈ is, GTerm E N V i.ts i.raw) →
      GSimple E N V (t :: (a ++ spell is)) (leftAssoc .arith (.sign minus l) is)
/-- term -/
inductive GTerm (E : FileEnv) (N : Names) : (String → Prop) → List Token → Raw → Prop
  | mk {V a l is} : GFactor E N V a l → (∀ i ∈ is, MulTok i.op i.tok) →
      (∀ i ∈ is, GFactor E N V i.ts i.raw) → GTerm E N V (a ++ spell is) (leftAssoc .arith l is)
/-- factor -/
inductive GFactor (E : FileEnv) (N : Names) : (String → Prop) → List Token → Raw → Prop
  | primary {V a l} : GPrimary E N V a l → GFactor E N V a l
  | not {V t a l} : IsKw "not" t → GPrimary E N V a l → GFactor E N V (t :: a) (.not l)
  | abs {V t a l} : IsKw "abs" t → GPrimary E N V a l → GFactor E N V (t :: a) (.abs l)
  | power {V a l t b r} : GPrimary E N V a l → IsOp "**" t → GPrimary E N V b r →
      GFactor E N V (a ++ t :: b) (.power l r)
/-- primary -/
inductive GPrimary (E : FileEnv) (N : Names) : (String → Prop) → List Token → Raw → Prop
  | int {V t n} : t.kind = .INTEGER → t.value = .int n → GPrimary E N V [t] (.int n)
  | dec {V t q} : t.kind = .DECIMAL → t.value = .frac q → GPrimary E N V [t] (.dec q)
  | str {V t} : t.kind = .STRING → GPrimary E N V [t] (.str t.text)
  | true {V t} : IsKw "true" t → GPrimary E N V [t] (.bool true)
  | false {V t} : IsKw "false" t → GPrimary E N V [t] (.bool false)
  | null {V t} : IsKw "null" t → GPrimary E N V [t] .null
  | paren {V b a r k} : b.kind = .BRA → k.kind = .KET → GExpr E N V a r →
      GPrimary E N V (b :: (a ++ [k])) r
  | quant {V b q u x i src w a r k} : b.kind = .BRA → IsKw (if u then "forall" else "exists") q →
      x.kind = .IDENTIFIER → IsKw "in" i → src.kind = .IDENTIFIER → w.kind = .ARROW →
      k.kind = .KET → GExpr E N (fun n => n = String.ofList x.text ∨ V n) a r →
      GPrimary E N V (b :: q :: x :: i :: src :: w :: (a ++ [k]))
        (.quant u (String.ofList x.text) (String.ofList src.text) r)
  | cond {V b f ct c th et e bs el xt x k} : b.kind = .BRA → k.kind = .KET → IsKw "if" f →
      IsKw "then" th → IsKw "else" el → GExpr E N V ct c → GExpr E N V et e →
      (∀ d ∈ bs, IsKw "elsif" d.els ∧ IsKw "then" d.thn) →
      (∀ d ∈ bs, GExpr E N V d.cts d.c) → (∀ d ∈ bs, GExpr E N V d.ets d.e) →
      GExpr E N V xt x →
      GPrimary E N V
        (b :: f :: (ct ++ th :: (et ++ (bs.flatMap Branch.toks ++ el :: (xt ++ [k])))))
        (.cond c e (actsOf x bs))
  | name {V a r} : GName E N V a r → GPrimary E N V a r
/-- name -/
inductive GName (E : FileEnv) (N : Names) : (String → Prop) → List Token → Raw → Prop
  | value {V t} {as : List Access} : t.kind = .IDENTIFIER → V (String.ofList t.text) → (∀ a ∈ as, a.Ok) →
      (∀ b ts k i, Access.index b ts k i ∈ as → GExpr E N V ts i) →
      GName E N V (t :: as.flatMap Access.toks) (as.foldl Access.raw (.name (String.ofList t.text)))
  | literal {V n e d t} : NameOf E N n e → ¬ Hidden V n → e.cls = clsEnum → d.kind = .DOT →
      t.kind = .IDENTIFIER → GName E N V (n ++ [d, t]) (.enumLit (pathOf n) (String.ofList t.text))
  | call {V f e b a k} {as : List (List Token × Raw)} : f.kind = .IDENTIFIER → E.global.lookup f.text none = .ok e →
      Callable e → b.kind = .BRA → k.kind = .KET → Commas (as.map Prod.fst) a →
      (∀ x ∈ as, GExpr E N V x.1 x.2) →
      GName E N V (f :: b :: (a ++ [k])) (.call (String.ofList f.text) (rawsOf (as.map Prod.snd)))
  /-- A builtin function with the name of a package in front: not in the reference manual, but
  accepted. -/
  | qualifiedCall {V p d f e b a k} {as : List (List Token × Raw)} : NameOf E N [p, d, f] e → ¬ Hidden V [p] →
      Callable e → e.cls ≠ clsEnum → b.kind = .BRA → k.kind = .KET →
      Commas (as.map Prod.fst) a → (∀ x ∈ as, GExpr E N V x.1 x.2) →
      GName E N V (p :: d :: f :: b :: (a ++ [k]))
        (.call (String.ofList f.text) (rawsOf (as.map Prod.snd)))
end

/-- Tokens that go on with a phrase: after a name or primary (0), factor (1), term (2), simple
expression (3), relation (4), expression (5). -/
def Cont (lvl : Nat) (t : Token) : Prop :=
  (t.kind = .DOT ∨ t.kind = .S_BRA ∨ t.kind = .BRA) ∨
  (1 ≤ lvl ∧ IsOp "**" t) ∨
  (2 ≤ lvl ∧ ∃ op, MulTok op t) ∨
  (3 ≤ lvl ∧ ∃ op, AddTok op t) ∨
  (4 ≤ lvl ∧ ((∃ op, CmpTok op t) ∨ IsKw "not" t ∨ IsKw "in" t ∨ t.kind = .RANGE)) ∨
  (5 ≤ lvl ∧ ∃ op, LogTok op t)

/-- The entity an unqualified name means -/
def meaning (E : FileEnv) (N : Names) (n : List Char) : Option Ent :=
  match if (N.tab E.pkg).contains n then (N.tab E.pkg).lookup n none else E.global.lookup n none with
  | .ok e => some e
  | .error _ => none

/-- The enumeration type a qualified name stands for -/
def enumsOf (E : FileEnv) (N : Names) : List String → Option Nat
  | [n] => (meaning E N n.toList).bind fun e => if e.cls = clsEnum then some e.id else none
  | [p, n] => (meaning E N p.toList).bind fun p =>
      if p.cls = clsPackage ∧ E.isVisible p.id then
        match (N.tab p.id).lookup n.toList none with
        | .ok e => if e.cls = clsEnum then some e.id else none
        | .error _ => none
      else none
  | _ => none

/-- The names an expression can refer to, for a check on a type with the given components, in
a file of the given package -/
def scopeIn (E : FileEnv) (N : Names) (comp : String → Option Comp) (vars : List (String × Ty)) :
    TScope where
  comp := comp
  vars := vars
  other := fun n => (N.tab E.pkg).contains n.toList || E.global.contains n.toList
  enums := enumsOf E N

/-- The components and quantified variables -/
def ValueNames (comp : String → Option Comp) (vars : List (String × Ty)) (n : String) : Prop :=
  (∃ t, (n, t) ∈ vars) ∨ ∃ c, comp n = some c

end Verif.Spec
