import Verif.Lemmas.Layout
/-!
# The same words in a different layout: expressions
-/
namespace Verif.Lemmas.Layout
open Verif.Model Verif.Lemmas

variable {L : Token → Token → Prop} [hL : SameWord L] {E : FileEnv} {m : Token → MarkupOut} {X : ElEnv}
  {pe pe' : P Expr}

omit hL in
instance {sc : LScope} {n : List Char} : Sims L Eq (P.nameLookup sc n) (P.nameLookup sc n) := by
  unfold P.nameLookup
  repeat' (first | infer_instance | split)

theorem sims_argLoop [h : Sims L Eq pe pe'] : ∀ k k', Sims L Eq (argLoop pe k) (argLoop pe' k')
  | 0, _ => sims_fuelL
  | _ + 1, 0 => sims_fuelR
  | k + 1, k' + 1 => by
    have ih := sims_argLoop k k'
    unfold argLoop
    sims

instance [h : Sims L Eq pe pe'] {k k' : Nat} : Sims L Eq (argLoop pe k) (argLoop pe' k') := sims_argLoop k k'

instance [h : Sims L Eq pe pe'] {f : String} : Sims L Eq (parseBuiltin X pe f) (parseBuiltin X pe' f) := by
  unfold parseBuiltin; sims

theorem sims_nameTail [h : Sims L Eq pe pe'] : ∀ k k' (p : Expr), Sims L Eq (nameTail X pe k p) (nameTail X pe' k' p)
  | 0, _, _ => sims_fuelL
  | _ + 1, 0, _ => sims_fuelR
  | k + 1, k' + 1, p => by
    have ih := fun q => sims_nameTail k k' q
    unfold nameTail
    sims

instance [h : Sims L Eq pe pe'] {k k' : Nat} {p : Expr} : Sims L Eq (nameTail X pe k p) (nameTail X pe' k' p) :=
  sims_nameTail k k' p

instance {t : Nat} : Sims L Eq (parseLiteral X t) (parseLiteral X t) := by unfold parseLiteral; sims

instance [h : Sims L Eq pe pe'] {e : Ent} : Sims L Eq (parseEntity X pe e) (parseEntity X pe' e) := by
  unfold parseEntity; sims

instance [h : Sims L Eq pe pe'] {sc : LScope} : Sims L Eq (parseName E X sc pe) (parseName (re E m) X sc pe') := by
  unfold parseName
  have hv : ∀ p, (re E m).isVisible p = E.isVisible p := fun _ => rfl
  simp only [hv]
  sims
  exact sims_invisible

instance {sc : LScope} {pe pe' : LScope → P Expr} [h : ∀ sc, Sims L Eq (pe sc) (pe' sc)] :
    Sims L Eq (parseQuantified sc pe) (parseQuantified sc pe') := by
  unfold parseQuantified; sims

theorem sims_condTail [h : Sims L Eq pe pe'] {t : Ty} : ∀ k k', Sims L Eq (condTail pe t k) (condTail pe' t k')
  | 0, _ => sims_fuelL
  | _ + 1, 0 => sims_fuelR
  | k + 1, k' + 1 => by
    have ih := sims_condTail (t := t) k k'
    unfold condTail
    sims

instance [h : Sims L Eq pe pe'] {t : Ty} {k k' : Nat} : Sims L Eq (condTail pe t k) (condTail pe' t k') :=
  sims_condTail k k'

instance [h : Sims L Eq pe pe'] : Sims L Eq (parseConditional pe) (parseConditional pe') := by
  unfold parseConditional; sims

instance {sc : LScope} {pe pe' : LScope → P Expr} [h : ∀ sc, Sims L Eq (pe sc) (pe' sc)] :
    Sims L Eq (parsePrimary E X sc pe) (parsePrimary (re E m) X sc pe') := by
  unfold parsePrimary; sims

instance [h : Sims L Eq pe pe'] : Sims L Eq (parseFactor X pe) (parseFactor X pe') := by
  unfold parseFactor; sims

theorem sims_termLoop [h : Sims L Eq pe pe'] : ∀ k k' (p : Expr), Sims L Eq (termLoop X pe k p) (termLoop X pe' k' p)
  | 0, _, _ => sims_fuelL
  | _ + 1, 0, _ => sims_fuelR
  | k + 1, k' + 1, p => by
    have ih := fun q => sims_termLoop k k' q
    unfold termLoop
    sims

instance [h : Sims L Eq pe pe'] {k k' : Nat} {p : Expr} : Sims L Eq (termLoop X pe k p) (termLoop X pe' k' p) :=
  sims_termLoop k k' p

instance [h : Sims L Eq pe pe'] : Sims L Eq (parseTerm X pe) (parseTerm X pe') := by unfold parseTerm; sims

theorem sims_simpleLoop [h : Sims L Eq pe pe'] {τ : Option Ty} : ∀ k k' (p : Expr),
    Sims L Eq (simpleLoop X pe τ k p) (simpleLoop X pe' τ k' p)
  | 0, _, _ => sims_fuelL
  | _ + 1, 0, _ => sims_fuelR
  | k + 1, k' + 1, p => by
    have ih := fun q => sims_simpleLoop (τ := τ) k k' q
    unfold simpleLoop
    sims

instance [h : Sims L Eq pe pe'] {τ : Option Ty} {k k' : Nat} {p : Expr} :
    Sims L Eq (simpleLoop X pe τ k p) (simpleLoop X pe' τ k' p) := sims_simpleLoop k k' p

instance [h : Sims L Eq pe pe'] : Sims L Eq (parseSigned pe) (parseSigned pe') := by unfold parseSigned; sims

instance [h : Sims L Eq pe pe'] : Sims L Eq (parseSimple X pe) (parseSimple X pe') := by unfold parseSimple; sims

instance [h : Sims L Eq pe pe'] : Sims L Eq (parseRelation X pe) (parseRelation X pe') := by
  unfold parseRelation; sims

theorem sims_logicLoop [h : Sims L Eq pe pe'] {kw : String} {op : LogOp} : ∀ k k' (p : Expr),
    Sims L Eq (logicLoop X pe kw op k p) (logicLoop X pe' kw op k' p)
  | 0, _, _ => sims_fuelL
  | _ + 1, 0, _ => sims_fuelR
  | k + 1, k' + 1, p => by
    have ih := fun q => sims_logicLoop (kw := kw) (op := op) k k' q
    unfold logicLoop
    sims

instance [h : Sims L Eq pe pe'] {kw : String} {op : LogOp} {k k' : Nat} {p : Expr} :
    Sims L Eq (logicLoop X pe kw op k p) (logicLoop X pe' kw op k' p) := sims_logicLoop k k' p

instance [h : Sims L Eq pe pe'] : Sims L Eq (parseExpression X pe) (parseExpression X pe') := by
  unfold parseExpression; sims

theorem sims_parseExpr : ∀ k k' (sc : LScope), Sims L Eq (parseExpr E X k sc) (parseExpr (re E m) X k' sc)
  | 0, _, _ => sims_fuelL
  | _ + 1, 0, _ => sims_fuelR
  | k + 1, k' + 1, sc => by
    have ih := fun sc => sims_parseExpr k k' sc
    unfold parseExpr
    infer_instance

instance {k k' : Nat} {sc : LScope} : Sims L Eq (parseExpr E X k sc) (parseExpr (re E m) X k' sc) :=
  sims_parseExpr k k' sc

end Verif.Lemmas.Layout
