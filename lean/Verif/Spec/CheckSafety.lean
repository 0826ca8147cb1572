import Verif.Spec.Conform
import Verif.Model.Eval
/-!
# Vocabulary for type soundness of checks: types of values, contexts, and the side conditions
-/
namespace Verif.Spec
open Verif.Model

/-- The names in scope: type, and whether the value may be null -/
abbrev Gamma := String → Option (Ty × Bool)

/-- bind a quantified variable -/
def Gamma.bind (Γ : Gamma) (x : String) (t : Ty) : Gamma :=
  fun n => if n = x then some (t, false) else Γ n

/-- a value has type `τ` -/
def VT (D : Decls) (objTy : Nat → Option Nat) (heap : Nat → Option Fields) (τ : Ty) (v : Val) :
    Prop :=
  match τ with
  | .bool => ∃ b, v = .bool b
  | .int => ∃ i, v = .int i
  | .dec => ∃ q, v = .dec q
  | .str | .markup => ∃ s, v = .str s
  | .enum t => ∃ l, v = .enum t l
  | τ => ∃ fe, FOk D objTy fe τ ∧ fe.eval heap = .ok ⟨some τ, v⟩

/-- No extension of a member without field `n` adds a field `n` of another type. -/
def NoClash (D : Decls) (ms : List Nat) (n : String) (ty : Ty) : Prop :=
  ∀ m ∈ ms, (∀ c, HasComp D m c → c.name ≠ n) →
    ∀ t, Extends D t m → ∀ c, HasComp D t c → c.name = n → c.ty = ty

/-- Component names are unique in every record type. -/
def UniqueNames (D : Decls) : Prop :=
  ∀ t c c', HasComp D t c → HasComp D t c' → c.name = c'.name → c = c'

/-- the field of a value of the given type is never null -/
def fieldDef (D : Decls) : Option Ty → String → Prop
  | some (.tup t), n => ∃ c, (D.fields t).find? (·.name == n) = some c ∧ c.optional = false
  | some (.record t), n => ∃ c, HasComp D t c ∧ c.name = n ∧ c.optional = false
  | some (.union _ ms), n => ∀ m ∈ ms, ∃ c, HasComp D m c ∧ c.name = n ∧ c.optional = false
  | _, _ => False

mutual
/-- expressions that are never null -/
def Definite (D : Decls) (Γ : Gamma) : Expr → Prop
  | .null => False
  | .name n _ => ∃ t, Γ n = some (t, false)
  | .logic _ _ r => Definite D Γ r
  | .field p n _ => fieldDef D p.typ n
  | .cond _ as => DefiniteA D Γ as
  | _ => True
/-- all branches are never null -/
def DefiniteA (D : Decls) (Γ : Gamma) : Acts → Prop
  | .els e => Definite D Γ e
  | .act _ e rest => Definite D Γ e ∧ DefiniteA D Γ rest
end

mutual
/-- the side conditions: `ai` if an index operation occurs, `aq` if the body of a quantifier may
be null, no clash in accesses to fields of unions -/
def Side (D : Decls) (ai aq : Prop) (Γ : Gamma) : Expr → Prop
  | .null | .bool _ | .int _ | .dec _ | .str _ | .enum _ _ | .name _ _ => True
  | .unary _ _ e => Side D ai aq Γ e
  | .binary _ op l r => Side D ai aq Γ l ∧ Side D ai aq Γ r ∧ (op = .index → ai)
  | .logic _ l r => Side D ai aq Γ l ∧ Side D ai aq Γ r
  | .field p n ty =>
    Side D ai aq Γ p ∧ ∀ id ms, p.typ = some (.union id ms) → NoClash D ms n ty
  | .range e lo up => Side D ai aq Γ e ∧ Side D ai aq Γ lo ∧ Side D ai aq Γ up
  | .oneof cs => Sides D ai aq Γ cs
  | .cond _ as => SideA D ai aq Γ as
  | .quant _ x src body =>
    ∀ id elem lo hi b, Γ src = some (.arr id elem lo hi, b) →
      Side D ai aq (Γ.bind x elem) body ∧ (aq ∨ Definite D (Γ.bind x elem) body)
/-- the side conditions of a list -/
def Sides (D : Decls) (ai aq : Prop) (Γ : Gamma) : Exprs → Prop
  | .nil => True
  | .cons e es => Side D ai aq Γ e ∧ Sides D ai aq Γ es
/-- the side conditions of actions -/
def SideA (D : Decls) (ai aq : Prop) (Γ : Gamma) : Acts → Prop
  | .els e => Side D ai aq Γ e
  | .act c e rest => Side D ai aq Γ c ∧ Side D ai aq Γ e ∧ SideA D ai aq Γ rest
end

/-- the context has a conforming value for every name in scope -/
def CtxOk (D : Decls) (objTy : Nat → Option Nat) (Γ : Gamma) (c : List (String × FExpr)) : Prop :=
  ∀ n t b, Γ n = some (t, b) →
    ∃ fe, c.lookup n = some fe ∧ ((b = true ∧ fe = .inull) ∨ FOk D objTy fe t)

end Verif.Spec
