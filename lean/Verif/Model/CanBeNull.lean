import Verif.Model.Elab
/-!
# The attribute tests of expressions: `can_be_null` and `uses_field_access`
-/
namespace Verif.Model

mutual
/-- The methods `can_be_null` of `trlc/ast.py`; `opt n` says whether name `n` refers to an optional
component (`trlc/ast.py:1232-1239`). -/
def Expr.canBeNull (D : Decls) (opt : String → Bool) : Expr → Bool
  -- 688
  | .null => true
  -- 736, 784, 842, 878, 926
  | .bool _ | .int _ | .dec _ | .str _ | .enum _ _ => false
  -- 1232
  | .name n _ => opt n
  -- 1395, 1829
  | .unary .. | .binary .. | .logic .. => false
  -- 1909-1913, with `is_union_access` and `is_universal` of `trlc/parser.py:1450-1482`
  | .field p n _ =>
    match p.typ with
    | some (.union _ ms) =>
      match (D.fieldMap ms).lookup n with
      | none => true
      | some i => i.count != ms.length
    | _ => false
  -- 2002, 2059
  | .range .. | .oneof _ => false
  -- 2204-2209
  | .cond _ as => Acts.canBeNull D opt as
  -- 2329
  | .quant .. => false
/-- `trlc/ast.py:2204-2209` -/
def Acts.canBeNull (D : Decls) (opt : String → Bool) : Acts → Bool
  | .els e => Expr.canBeNull D opt e
  | .act _ e rest => Expr.canBeNull D opt e || Acts.canBeNull D opt rest
end

mutual
/-- The methods `uses_field_access` of `trlc/ast.py:568-583, 993, 1089, 1398, 1832, 1915, 2005,
2062, 2211, 2332`; literals and names inherit `return False` of 568-583. -/
def Expr.usesFieldAccess : Expr → Bool
  | .null | .bool _ | .int _ | .dec _ | .str _ | .enum _ _ | .name _ _ => false
  | .unary _ _ e => Expr.usesFieldAccess e
  | .binary _ _ l r | .logic _ l r => Expr.usesFieldAccess l || Expr.usesFieldAccess r
  | .field p _ _ =>
    match p.typ with
    | some (.record _) | some (.union ..) => true
    | _ => Expr.usesFieldAccess p
  | .range e lo up =>
    Expr.usesFieldAccess e || Expr.usesFieldAccess lo || Expr.usesFieldAccess up
  | .oneof cs => Exprs.usesFieldAccess cs
  | .cond _ as => Acts.usesFieldAccess as
  -- the source is a name
  | .quant _ _ _ body => Expr.usesFieldAccess body
/-- `trlc/ast.py:2062-2063` -/
def Exprs.usesFieldAccess : Exprs → Bool
  | .nil => false
  | .cons e es => Expr.usesFieldAccess e || Exprs.usesFieldAccess es
/-- `trlc/ast.py:2211-2216` -/
def Acts.usesFieldAccess : Acts → Bool
  | .els e => Expr.usesFieldAccess e
  | .act c e rest =>
    (Expr.usesFieldAccess c || Expr.usesFieldAccess e) || Acts.usesFieldAccess rest
end

end Verif.Model
