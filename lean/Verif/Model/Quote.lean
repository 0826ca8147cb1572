import Verif.Model.Eval
import Verif.Model.Vcg.Example
/-!
# Expressions quoted in messages (`to_string` in `trlc/ast.py`)

Messages about checks, and the comments of the verification, quote expressions with the method
`to_string`.
-/
namespace Verif.Model

/-- `str` of a `Fraction` (`trlc/ast.py:773-774`) -/
def pyFractionText (q : Rat) : List Char :=
  if q.den = 1 then intText q.num else intText q.num ++ '/' :: natText q.den

/-- `str` of a `bool` (`trlc/ast.py:867-868`) -/
def boolText (b : Bool) : List Char := if b then "True".toList else "False".toList

/-- what is written around the operand of a unary operator (`trlc/ast.py:1297-1321`) -/
def UnOp.around : UnOp → String × String
  | .minus => ("-", "")
  | .plus => ("+", "")
  | .abs => ("abs ", "")
  | .logicalNot => ("not ", "")
  | .strLen | .arrLen => ("len(", ")")
  | .toInt => ("Integer(", ")")
  | .toDec => ("Decimal(", ")")

/-- what is written before, between and after the operands of a binary operator
(`trlc/ast.py:1570-1612`) -/
def BinOp.around : BinOp → String × String × String
  | .xor => ("", " xor ", "")
  | .eq => ("", " == ", "")
  | .neq => ("", " != ", "")
  | .lt => ("", " < ", "")
  | .leq => ("", " <= ", "")
  | .gt => ("", " > ", "")
  | .geq => ("", " >= ", "")
  | .strContains | .arrContains => ("", " in ", "")
  | .plus => ("", " + ", "")
  | .minus => ("", " - ", "")
  | .times => ("", " * ", "")
  | .divide => ("", " / ", "")
  | .remainder => ("", " % ", "")
  | .power => ("", " ** ", "")
  | .startsWith => ("startswith(", ", ", ")")
  | .endsWith => ("endswith(", ", ", ")")
  | .regex => ("matches(", ", ", ")")
  | .index => ("", "[", "]")

/-- what is written between the operands of a logical operator (`trlc/ast.py:1571-1575`) -/
def SCOp.between : SCOp → String
  | .and => " and "
  | .or => " or "
  | .implies => " implies "

mutual
/-- `to_string` of the expressions in checks: `trlc/ast.py:676-677, 724-725, 773-774, 825-826,
867-868, 915-916, 1217-1218, 1297-1321, 1570-1612, 1881-1882, 1958-1961, 2035-2037, 2177-2182,
2274-2280`.  `names` gives the name of an enumeration type (without its package). -/
def Expr.quote (names : Nat → String) : Expr → List Char
  | .null => "null".toList
  | .bool b => boolText b
  | .int i => natText i
  | .dec q => pyFractionText q
  | .str s => s
  | .enum t l => (names t).toList ++ '.' :: l.toList
  | .name n _ => n.toList
  | .unary _ op e => op.around.1.toList ++ (Expr.quote names e ++ op.around.2.toList)
  | .binary _ op l r =>
    op.around.1.toList ++ (Expr.quote names l ++ (op.around.2.1.toList ++ (Expr.quote names r ++
      op.around.2.2.toList)))
  | .logic op l r => Expr.quote names l ++ (op.between.toList ++ Expr.quote names r)
  | .field p n _ => Expr.quote names p ++ '.' :: n.toList
  | .range e lo up =>
    Expr.quote names e ++ (" in ".toList ++ (Expr.quote names lo ++ (" .. ".toList ++
      Expr.quote names up)))
  | .oneof es => "oneof(".toList ++ (Exprs.quote names es ++ ")".toList)
  | .cond _ acts => '(' :: (Acts.quote names "if".toList acts ++ ")".toList)
  | .quant u x src b =>
    '(' :: ((if u then "forall" else "exists").toList ++ ' ' :: (x.toList ++ (" in ".toList ++
      (src.toList ++ (" => ".toList ++ (Expr.quote names b ++ ")".toList))))))

/-- `", ".join` of the choices of `oneof` (`trlc/ast.py:2036-2037`) -/
def Exprs.quote (names : Nat → String) : Exprs → List Char
  | .nil => []
  | .cons e .nil => Expr.quote names e
  | .cons e (.cons f fs) => Expr.quote names e ++ (", ".toList ++ Exprs.quote names (.cons f fs))

/-- The actions and the else part of a conditional expression; the first action begins with
`if`, the others with `elsif` (`trlc/ast.py:2112-2115, 2177-2181`). -/
def Acts.quote (names : Nat → String) (kind : List Char) : Acts → List Char
  | .els e => "else ".toList ++ Expr.quote names e
  | .act c e rest =>
    kind ++ ' ' :: (Expr.quote names c ++ (" then ".toList ++ (Expr.quote names e ++ ' ' ::
      Acts.quote names "elsif".toList rest)))
end

end Verif.Model
