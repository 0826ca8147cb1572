import Verif.Model.Types
import Verif.Model.Eval
/-! # Checks the verification can deal with: restrictions on where operators stand -/
namespace Verif.Spec
open Verif.Model

/-- the operators whose verification needs a place of its own: division, remainder and index -/
def ownPlace : BinOp → Bool
  | .divide | .remainder | .index => true
  | _ => false

mutual
/-- no division, remainder, index, range test or `oneof` in the expression, except inside of quantifiers;
quantifiers only if `nest` -/
def Direct (nest : Bool) : Expr → Prop
  | .null | .bool _ | .int _ | .dec _ | .str _ | .enum _ _ | .name _ _ => True
  | .unary _ _ e => Direct nest e
  | .binary _ op l r => ownPlace op = false ∧ Direct nest l ∧ Direct nest r
  | .logic _ l r => Direct nest l ∧ Direct nest r
  | .field p _ _ => Direct nest p
  | .range .. => False
  | .oneof _ => False
  | .cond _ as => DirectA nest as
  | .quant .. => nest = true
/-- the branches of a conditional expression -/
def DirectA (nest : Bool) : Acts → Prop
  | .els e => Direct nest e
  | .act c e rest => Direct nest c ∧ Direct nest e ∧ DirectA nest rest
end

mutual
/-- the bodies of quantifiers are direct -/
def Plain (nest : Bool) : Expr → Prop
  | .null | .bool _ | .int _ | .dec _ | .str _ | .enum _ _ | .name _ _ => True
  | .unary _ _ e => Plain nest e
  | .binary _ _ l r => Plain nest l ∧ Plain nest r
  | .logic _ l r => Plain nest l ∧ Plain nest r
  | .field p _ _ => Plain nest p
  | .range e a b => Plain nest e ∧ Plain nest a ∧ Plain nest b
  | .oneof cs => Plains nest cs
  | .cond _ as => PlainA nest as
  | .quant _ _ _ body => Direct nest body ∧ Plain nest body
/-- the parameters of `oneof` -/
def Plains (nest : Bool) : Exprs → Prop
  | .nil => True
  | .cons e es => Plain nest e ∧ Plains nest es
/-- the branches of a conditional expression -/
def PlainA (nest : Bool) : Acts → Prop
  | .els e => Plain nest e
  | .act c e rest => Plain nest c ∧ Plain nest e ∧ PlainA nest rest
end

end Verif.Spec
