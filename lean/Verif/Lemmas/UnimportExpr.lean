import Verif.Lemmas.UnimportValue
/-!
# Parsing expressions with one import less
-/
namespace Verif.Lemmas.Unimport
open Verif.Model Verif.Spec

section
variable {K : Gone} {X : ElEnv}

theorem argLoop_rel {pe pe' : P Expr} (h : Rel0 K pe pe') (k : Nat) : Rel0 K (argLoop pe k) (argLoop pe' k) := by
  induction k with
  | zero => exact Rel.crash
  | succ k ih => unfold argLoop; rel_steps

theorem parseBuiltin_rel {pe pe' : P Expr} (h : Rel0 K pe pe') (f : String) :
    Rel0 K (parseBuiltin X pe f) (parseBuiltin X pe' f) := by
  unfold parseBuiltin
  have := fun k => argLoop_rel h k
  refine Rel.bind1 matchK_rel (fun _ _ => ?_)
  refine Rel.bind1 Rel.get (fun s _ => ?_)
  refine Rel.bind1 (argLoop_rel h _) (fun _ _ => ?_)
  rel_steps

theorem nameTail_rel {pe pe' : P Expr} (h : Rel0 K pe pe') (k : Nat) (e : Expr) :
    Rel0 K (nameTail X pe k e) (nameTail X pe' k e) := by
  induction k generalizing e with
  | zero => exact Rel.crash
  | succ k ih =>
    unfold nameTail
    refine Rel.bind1 Rel.get (fun s _ => ?_)
    split
    · refine Rel.bind1 (F := fun _ => True) (by rel_steps) (fun _ _ => ?_)
      refine Rel.bind1 matchK_rel (fun _ _ => ?_)
      refine Rel.bind1 matchK_rel (fun _ _ => ?_)
      exact Rel.bind1 liftEl_rel (fun _ _ => ih _)
    · split
      · refine Rel.bind1 (F := fun _ => True) (by rel_steps) (fun _ _ => ?_)
        refine Rel.bind1 matchK_rel (fun _ _ => ?_)
        refine Rel.bind1 h (fun _ _ => ?_)
        refine Rel.bind1 matchK_rel (fun _ _ => ?_)
        exact Rel.bind1 liftEl_rel (fun _ _ => ih _)
      · rel_steps

theorem parseLiteral_rel (t : Nat) : Rel0 K (parseLiteral X t) (parseLiteral X t) := by
  unfold parseLiteral
  rel_steps

theorem parseEntity_rel {pe pe' : P Expr} (h : Rel0 K pe pe') (e : Ent) :
    Rel0 K (parseEntity X pe e) (parseEntity X pe' e) := by
  unfold parseEntity
  split
  · exact parseLiteral_rel _
  · split
    · exact parseBuiltin_rel h _
    · exact Rel.fail

/-- What a name can mean, for a name other than that of the package -/
def Named.Other (K : Gone) : Named → Prop
  | .ent e => K.hide = true → ¬ (e.cls = clsPackage ∧ e.id = K.p)
  | _ => True

/-- a scope of expressions -/
def GoodScope (K : Gone) (sc : LScope) : Prop :=
  ∃ a b, sc.base = [a, b] ∧ NamesPkg K.p K.nm a ∧ NamesPkg K.p K.nm b

theorem nameLookup_rel {sc : LScope} {n : List Char} (hs : GoodScope K sc) (hn : K.Seen n) :
    Rel K True (Named.Other K) (fun _ => True) (P.nameLookup sc n) (P.nameLookup sc n) := by
  unfold P.nameLookup
  split
  · exact Rel.pure trivial (fun _ => trivial)
  · split
    · exact Rel.pure trivial (fun _ => trivial)
    · split
      · exact Rel.crash
      · next e he =>
        obtain ⟨a, b, hb, h1, h2⟩ := hs
        rw [hb] at he
        exact Rel.pure (scope_lookup h1 h2 he hn) (fun _ => trivial)
      · exact Rel.fail

theorem parseQuantified_rel {sc : LScope} {pe pe' : LScope → P Expr} (hs : GoodScope K sc)
    (h : ∀ sc, GoodScope K sc → Rel0 K (pe sc) (pe' sc)) :
    Rel0 K (parseQuantified sc pe) (parseQuantified sc pe') := by
  unfold parseQuantified
  refine Rel.bind1 Rel.get (fun s _ => ?_)
  refine Rel.bind1 (F := fun _ => True) (by rel_steps) (fun _ _ => ?_)
  refine Rel.bind1 matchK_rel (fun x _ => ?_)
  split
  · exact Rel.fail
  · refine Rel.bind1 matchKw_rel (fun _ _ => ?_)
    refine Rel.bind1 matchK_rel (fun src hsrc => ?_)
    refine Rel.bind1 (nameLookup_rel hs hsrc) (fun r _ => ?_)
    split
    · split
      · refine Rel.bind1 matchK_rel (fun _ _ => ?_)
        refine Rel.bind1 (h _ ?_) (fun _ _ => ?_)
        · obtain ⟨a, b, hb⟩ := hs
          exact ⟨a, b, hb⟩
        · rel_steps
      · exact Rel.fail
    · exact Rel.fail

theorem condTail_rel {pe pe' : P Expr} (h : Rel0 K pe pe') (t : Ty) (k : Nat) :
    Rel0 K (condTail pe t k) (condTail pe' t k) := by
  induction k with
  | zero => exact Rel.crash
  | succ k ih => unfold condTail; rel_steps

theorem parseConditional_rel {pe pe' : P Expr} (h : Rel0 K pe pe') :
    Rel0 K (parseConditional pe) (parseConditional pe') := by
  unfold parseConditional
  refine Rel.bind1 matchKw_rel (fun _ _ => ?_)
  refine Rel.bind1 h (fun _ _ => ?_)
  refine Rel.bind1 matchKw_rel (fun _ _ => ?_)
  refine Rel.bind1 h (fun e _ => ?_)
  split
  · exact Rel.fail
  · refine Rel.bind1 liftEl_rel (fun _ _ => ?_)
    refine Rel.bind1 Rel.get (fun s _ => ?_)
    refine Rel.bind1 (condTail_rel h _ _) (fun _ _ => ?_)
    rel_steps

theorem parseFactor_rel {pe pe' : P Expr} (h : Rel0 K pe pe') : Rel0 K (parseFactor X pe) (parseFactor X pe') := by
  unfold parseFactor
  rel_steps

theorem termLoop_rel {pe pe' : P Expr} (h : Rel0 K pe pe') (k : Nat) (e : Expr) :
    Rel0 K (termLoop X pe k e) (termLoop X pe' k e) := by
  induction k generalizing e with
  | zero => exact Rel.crash
  | succ k ih =>
    unfold termLoop
    refine Rel.bind1 Rel.get (fun s _ => ?_)
    split
    · rel_steps
    · refine Rel.bind1 matchK_rel (fun _ _ => ?_)
      refine Rel.bind1 h (fun _ _ => ?_)
      exact Rel.bind1 liftEl_rel (fun _ _ => ih _)

theorem parseTerm_rel {pe pe' : P Expr} (h : Rel0 K pe pe') : Rel0 K (parseTerm X pe) (parseTerm X pe') := by
  unfold parseTerm
  refine Rel.bind1 h (fun _ _ => ?_)
  exact Rel.bind1 Rel.get (fun s _ => termLoop_rel h _ _)

theorem simpleLoop_rel {pe pe' : P Expr} (h : Rel0 K pe pe') (τ : Option Ty) (k : Nat) (e : Expr) :
    Rel0 K (simpleLoop X pe τ k e) (simpleLoop X pe' τ k e) := by
  induction k generalizing e with
  | zero => exact Rel.crash
  | succ k ih =>
    unfold simpleLoop
    refine Rel.bind1 Rel.get (fun s _ => ?_)
    split
    · rel_steps
    · refine Rel.bind1 matchK_rel (fun _ _ => ?_)
      refine Rel.bind1 h (fun _ _ => ?_)
      exact Rel.bind1 liftEl_rel (fun _ _ => ih _)

theorem parseSigned_rel {pe pe' : P Expr} (h : Rel0 K pe pe') : Rel0 K (parseSigned pe) (parseSigned pe') := by
  unfold parseSigned
  rel_steps

theorem parseSimple_rel {pe pe' : P Expr} (h : Rel0 K pe pe') : Rel0 K (parseSimple X pe) (parseSimple X pe') := by
  unfold parseSimple
  refine Rel.bind1 (parseSigned_rel h) (fun _ _ => ?_)
  exact Rel.bind1 Rel.get (fun s _ => simpleLoop_rel h _ _ _)

theorem parseRelation_rel {pe pe' : P Expr} (h : Rel0 K pe pe') :
    Rel0 K (parseRelation X pe) (parseRelation X pe') := by
  unfold parseRelation
  rel_steps

theorem logicLoop_rel {pe pe' : P Expr} (h : Rel0 K pe pe') (kw : String) (op : LogOp) (k : Nat) (e : Expr) :
    Rel0 K (logicLoop X pe kw op k e) (logicLoop X pe' kw op k e) := by
  induction k generalizing e with
  | zero => exact Rel.crash
  | succ k ih =>
    unfold logicLoop
    refine Rel.bind1 Rel.get (fun s _ => ?_)
    split
    · refine Rel.bind1 matchKw_rel (fun _ _ => ?_)
      refine Rel.bind1 h (fun _ _ => ?_)
      exact Rel.bind1 liftEl_rel (fun _ _ => ih _)
    · rel_steps

theorem parseExpression_rel {pe pe' : P Expr} (h : Rel0 K pe pe') :
    Rel0 K (parseExpression X pe) (parseExpression X pe') := by
  unfold parseExpression
  refine Rel.bind1 h (fun _ _ => ?_)
  refine Rel.bind1 Rel.get (fun s _ => ?_)
  split
  · exact logicLoop_rel h _ _ _ _
  · split
    · exact logicLoop_rel h _ _ _ _
    · rel_steps

end

section
variable {K : Gone} {E E' : FileEnv} {X : ElEnv} (hE : Envs K E E')
include hE

theorem parseName_rel {sc : LScope} {pe pe' : P Expr} (hs : GoodScope K sc) (h : Rel0 K pe pe') :
    Rel0 K (parseName E X sc pe) (parseName E' X sc pe') := by
  unfold parseName
  refine Rel.bind1 matchK_rel (fun t ht => ?_)
  refine Rel.bind1 Rel.get (fun s _ => ?_)
  rw [hE.global]
  split
  · refine Rel.bind1 liftSym_rel (fun e _ => ?_)
    split
    · exact parseBuiltin_rel h _
    · exact Rel.fail
  · refine Rel.bind1 (nameLookup_rel hs ht) (fun r hr => ?_)
    cases r with
    | var τ => exact nameTail_rel h _ _
    | comp c => exact nameTail_rel h _ _
    | ent e =>
      dsimp only
      split
      · next hc =>
        refine visible_rel hE (fun hh he => hr hh ⟨hc, he⟩) ?_
        refine Rel.bind1 matchK_rel (fun _ _ => ?_)
        refine Rel.bind1 matchK_rel (fun _ _ => ?_)
        refine Rel.bind1 Rel.get (fun _ _ => ?_)
        exact Rel.bind1 liftSym_rel (fun e _ => parseEntity_rel h _)
      · exact parseEntity_rel h _

theorem parsePrimary_rel {sc : LScope} {pe pe' : LScope → P Expr} (hs : GoodScope K sc)
    (h : ∀ sc, GoodScope K sc → Rel0 K (pe sc) (pe' sc)) :
    Rel0 K (parsePrimary E X sc pe) (parsePrimary E' X sc pe') := by
  unfold parsePrimary
  have h1 := parseQuantified_rel hs h
  have h2 := parseConditional_rel (h sc hs)
  have h3 := parseName_rel (X := X) hE hs (h sc hs)
  have h4 := h sc hs
  rel_steps

theorem parseExpr_rel (n : Nat) (sc : LScope) (hs : GoodScope K sc) :
    Rel0 K (parseExpr E X n sc) (parseExpr E' X n sc) := by
  induction n generalizing sc with
  | zero => exact Rel.crash
  | succ n ih =>
    unfold parseExpr
    exact parseExpression_rel (parseRelation_rel (parseSimple_rel (parseTerm_rel (parseFactor_rel
      (parsePrimary_rel hE hs ih)))))

end

end Verif.Lemmas.Unimport
