import Verif.Spec.Grammar
import Verif.Props.LexerWords
/-!
# Expressions that can be quoted without brackets

`QuotePlain V lvl r`: the expression `r` can be written without brackets (other than those of calls,
quantifiers and conditional expressions) where the grammar asks for a primary (0), factor (1),
term (2), simple expression (3), relation (4) or expression (5), using only `null`, integer
literals, names, enumeration literals without package, `in` without `not`, and operators.
-/
namespace Verif.Spec
open Verif.Model

/-- something that can be used as a name: a word that is not reserved -/
def IsName (n : String) : Prop := Props.IsWord n.toList ∧ n ∉ Props.reservedWords

/-- a component or variable, possibly followed by fields and indices -/
def IsPath : Raw → Bool
  | .name _ => true
  | .dot p _ => IsPath p
  | .index p _ => IsPath p
  | _ => false

/-- an application of the logical operator -/
def IsLogic (op : LogOp) : Raw → Prop
  | .logic op' _ _ => op' = op
  | _ => False

mutual
/-- see above; `V` are the names of components and variables -/
def QuotePlain (V : String → Prop) : Nat → Raw → Prop
  | _, .null => True
  | _, .bool _ => False
  | _, .int _ => True
  | _, .dec _ => False
  | _, .str _ => False
  | _, .enumLit path lit => ∃ n, path = [n] ∧ IsName n ∧ IsName lit ∧ ¬ V n
  | _, .name n => IsName n
  | _, .dot p f => IsPath p = true ∧ IsName f ∧ QuotePlain V 0 p
  | _, .index p i => IsPath p = true ∧ QuotePlain V 0 p ∧ QuotePlain V 5 i
  | _, .call _ args => QuotePlainAll V args
  | lvl, .sign _ e => 3 ≤ lvl ∧ QuotePlain V 2 e
  | lvl, .not e => 1 ≤ lvl ∧ QuotePlain V 0 e
  | lvl, .abs e => 1 ≤ lvl ∧ QuotePlain V 0 e
  | lvl, .power l r => 1 ≤ lvl ∧ QuotePlain V 0 l ∧ QuotePlain V 0 r
  | lvl, .arith op l r =>
    if op = .plus ∨ op = .minus then 3 ≤ lvl ∧ QuotePlain V 3 l ∧ QuotePlain V 2 r
    else 2 ≤ lvl ∧ QuotePlain V 2 l ∧ QuotePlain V 1 r
  | lvl, .cmp _ l r => 4 ≤ lvl ∧ QuotePlain V 3 l ∧ QuotePlain V 3 r
  | lvl, .isIn neg e a => neg = false ∧ 4 ≤ lvl ∧ QuotePlain V 3 e ∧ QuotePlain V 3 a
  | lvl, .inRange neg e a b => neg = false ∧ 4 ≤ lvl ∧ QuotePlain V 3 e ∧ QuotePlain V 3 a ∧ QuotePlain V 3 b
  | lvl, .logic op l r =>
    5 ≤ lvl ∧ (QuotePlain V 4 l ∨ ((op = .and ∨ op = .or) ∧ IsLogic op l ∧ QuotePlain V 5 l)) ∧ QuotePlain V 4 r
  | _, .cond c e rest => QuotePlain V 5 c ∧ QuotePlain V 5 e ∧ QuotePlainActs V rest
  | _, .quant _ x src b => IsName x ∧ IsName src ∧ QuotePlain (fun n => n = x ∨ V n) 5 b
/-- all parameters -/
def QuotePlainAll (V : String → Prop) : Raws → Prop
  | .nil => True
  | .cons r rs => QuotePlain V 5 r ∧ QuotePlainAll V rs
/-- all parts -/
def QuotePlainActs (V : String → Prop) : RActs → Prop
  | .els e => QuotePlain V 5 e
  | .act c e rest => QuotePlain V 5 c ∧ QuotePlain V 5 e ∧ QuotePlainActs V rest
end

end Verif.Spec
