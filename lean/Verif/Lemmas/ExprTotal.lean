import Verif.Model.Parse.Expr
import Verif.Lemmas.ParseRules
/-! Parsing an expression ends, consumes at least one token and changes nothing else. -/
namespace Verif.Lemmas
open Verif.Model

/-- With fewer than `n` tokens to come, `x` ends without running out of a loop bound; if it
ends normally it has consumed a token. -/
def Tot (n : Nat) (x : P Expr) : Prop :=
  ∀ s, s.toks < n → Sp Fr x s (fun _ s' => s'.toks < s.toks)

variable {α : Type} {n : Nat}

theorem Tot.less {m : Nat} {x : P Expr} (h : Tot n x) (hm : m ≤ n) : Tot m x :=
  fun s hs => h s (by omega)

theorem liftEl_sp {r : El α} {s : PS} : Sp Fr (P.liftEl r) s (fun a s' => r = .ok a ∧ s' = s) := by
  cases r with
  | ok a => exact sp_pure ⟨rfl, rfl⟩
  | err e => exact sp_fail
  | crash c => exact sp_crash (by simp)

theorem nameLookup_sp {sc : LScope} {nm : List Char} {s : PS} :
    Sp Fr (P.nameLookup sc nm) s (fun _ s' => s' = s) := by
  unfold P.nameLookup
  split
  · exact sp_pure rfl
  · split
    · exact sp_pure rfl
    · split
      · exact sp_crash (by simp)
      · exact sp_pure rfl
      · exact sp_fail

theorem factor_tot {X : ElEnv} {pp : P Expr} (hp : Tot n pp) : Tot n (parseFactor X pp) := by
  intro s hs
  unfold parseFactor
  refine sp_get_bind ?_
  refine sp_ite (fun _ => ?_) (fun _ => sp_ite (fun _ => ?_) (fun _ => ?_))
  · refine sp_bind _ matchKw_sp ?_
    rintro t s1 - ⟨-, -, -, -, h1⟩
    refine sp_bind _ (hp s1 (by omega)) ?_
    rintro e s2 - h2
    refine liftEl_sp.mono ?_
    rintro x s3 - ⟨-, rfl⟩
    omega
  · refine sp_bind _ matchKw_sp ?_
    rintro t s1 - ⟨-, -, -, -, h1⟩
    refine sp_bind _ (hp s1 (by omega)) ?_
    rintro e s2 - h2
    refine liftEl_sp.mono ?_
    rintro x s3 - ⟨-, rfl⟩
    omega
  · refine sp_bind _ (hp s hs) ?_
    rintro e s1 - h1
    refine sp_get_bind ?_
    cases s1.peekOp powerOps with
    | none => exact sp_pure h1
    | some u =>
      refine sp_bind _ matchK_sp ?_
      rintro t s2 - ⟨-, -, -, h2⟩
      refine sp_bind _ (hp s2 (by omega)) ?_
      rintro e s3 - h3
      refine liftEl_sp.mono ?_
      rintro x s4 - ⟨-, rfl⟩
      omega

theorem termLoop_tot {X : ElEnv} {pf : P Expr} (hp : Tot n pf) :
    ∀ (k : Nat) (l : Expr) (s : PS), s.toks < k → s.toks < n →
      Sp Fr (termLoop X pf k l) s (fun _ s' => s'.toks ≤ s.toks) := by
  intro k
  induction k with
  | zero => intro l s h; omega
  | succ k ih =>
    intro l s hk hn
    unfold termLoop
    refine sp_get_bind ?_
    cases s.peekOp mulOps with
    | none => exact sp_pure (Nat.le_refl _)
    | some u =>
      refine sp_bind _ matchK_sp ?_
      rintro t s2 - ⟨-, -, -, h2⟩
      refine sp_bind _ (hp s2 (by omega)) ?_
      rintro e s3 - h3
      refine sp_bind _ liftEl_sp ?_
      rintro x s4 - ⟨-, rfl⟩
      refine (ih x s4 (by omega) (by omega)).mono ?_
      rintro _ s5 - h5
      omega

theorem term_tot {X : ElEnv} {pf : P Expr} (hp : Tot n pf) : Tot n (parseTerm X pf) := by
  intro s hs
  unfold parseTerm
  refine sp_bind _ (hp s hs) ?_
  rintro e s1 - h1
  refine sp_get_bind ?_
  refine (termLoop_tot hp _ e s1 (by omega) (by omega)).mono ?_
  rintro _ s2 - h2
  omega

theorem simpleLoop_tot {X : ElEnv} {pf : P Expr} (hp : Tot n pf) (rt : Option Ty) :
    ∀ (k : Nat) (l : Expr) (s : PS), s.toks < k → s.toks < n →
      Sp Fr (simpleLoop X pf rt k l) s (fun _ s' => s'.toks ≤ s.toks) := by
  intro k
  induction k with
  | zero => intro l s h; omega
  | succ k ih =>
    intro l s hk hn
    unfold simpleLoop
    refine sp_get_bind ?_
    cases s.peekOp addOps with
    | none => exact sp_pure (Nat.le_refl _)
    | some u =>
      refine sp_bind _ matchK_sp ?_
      rintro t s2 - ⟨-, -, -, h2⟩
      refine sp_bind _ (hp s2 (by omega)) ?_
      rintro e s3 - h3
      refine sp_bind _ liftEl_sp ?_
      rintro x s4 - ⟨-, rfl⟩
      refine (ih x s4 (by omega) (by omega)).mono ?_
      rintro _ s5 - h5
      omega

theorem signed_tot {pt : P Expr} (hp : Tot n pt) : Tot n (parseSigned pt) := by
  intro s hs
  unfold parseSigned
  refine sp_get_bind ?_
  cases s.peekOp signOps with
  | none => exact hp s hs
  | some op =>
    refine sp_bind _ matchK_sp ?_
    rintro t s2 - ⟨-, -, -, h2⟩
    refine sp_bind _ (hp s2 (by omega)) ?_
    rintro e s3 - h3
    refine liftEl_sp.mono ?_
    rintro x s4 - ⟨-, rfl⟩
    omega

theorem simple_tot {X : ElEnv} {pt : P Expr} (hp : Tot n pt) : Tot n (parseSimple X pt) := by
  intro s hs
  unfold parseSimple
  refine sp_bind _ (signed_tot hp s hs) ?_
  rintro e s1 - h1
  refine sp_get_bind ?_
  refine (simpleLoop_tot hp _ _ e s1 (by omega) (by omega)).mono ?_
  rintro _ s2 - h2
  omega

theorem relation_tot {X : ElEnv} {ps : P Expr} (hp : Tot n ps) : Tot n (parseRelation X ps) := by
  intro s hs
  unfold parseRelation
  refine sp_bind _ (hp s hs) ?_
  rintro l s1 - h1
  refine sp_get_bind ?_
  cases s1.peekOp cmpOps with
  | some op =>
    refine sp_bind _ matchK_sp ?_
    rintro t s2 - ⟨-, -, -, h2⟩
    refine sp_bind _ (hp s2 (by omega)) ?_
    rintro e s3 - h3
    refine liftEl_sp.mono ?_
    rintro x s4 - ⟨-, rfl⟩
    omega
  | none =>
    refine sp_ite (fun _ => ?_) (fun _ => sp_pure h1)
    refine sp_bind (fun _ s' => s'.toks ≤ s1.toks) ?_ ?_
    · refine sp_cond (fun _ => ?_) (fun _ => sp_pure (Nat.le_refl _))
      refine sp_bind _ matchKw_sp ?_
      rintro t s2 - ⟨-, -, -, -, h2⟩
      exact sp_pure (by omega)
    rintro neg s2 - h2
    refine sp_bind _ matchKw_sp ?_
    rintro t s3 - ⟨-, -, -, -, h3⟩
    refine sp_bind _ (hp s3 (by omega)) ?_
    rintro a s4 - h4
    refine sp_get_bind ?_
    refine sp_bind (fun _ s' => s'.toks ≤ s4.toks) ?_ ?_
    · refine sp_cond (fun _ => ?_) (fun _ => ?_)
      · refine sp_bind _ matchK_sp ?_
        rintro t s5 - ⟨-, -, -, h5⟩
        refine sp_bind _ (hp s5 (by omega)) ?_
        rintro e s6 - h6
        refine liftEl_sp.mono ?_
        rintro x s7 - ⟨-, rfl⟩
        omega
      · refine liftEl_sp.mono ?_
        rintro x s7 - ⟨-, rfl⟩
        omega
    · rintro e s5 - h5
      refine liftEl_sp.mono ?_
      rintro x s7 - ⟨-, rfl⟩
      omega

theorem logicLoop_tot {X : ElEnv} {pf : P Expr} (hp : Tot n pf) (kw : String) (op : LogOp) :
    ∀ (k : Nat) (l : Expr) (s : PS), s.toks < k → s.toks < n →
      Sp Fr (logicLoop X pf kw op k l) s (fun _ s' => s'.toks ≤ s.toks) := by
  intro k
  induction k with
  | zero => intro l s h; omega
  | succ k ih =>
    intro l s hk hn
    unfold logicLoop
    refine sp_get_bind ?_
    refine sp_ite (fun _ => ?_) (fun _ => sp_pure (Nat.le_refl _))
    refine sp_bind _ matchKw_sp ?_
    rintro t s2 - ⟨-, -, -, -, h2⟩
    refine sp_bind _ (hp s2 (by omega)) ?_
    rintro e s3 - h3
    refine sp_bind _ liftEl_sp ?_
    rintro x s4 - ⟨-, rfl⟩
    refine (ih x s4 (by omega) (by omega)).mono ?_
    rintro _ s5 - h5
    omega

theorem expression_tot {X : ElEnv} {pr : P Expr} (hp : Tot n pr) : Tot n (parseExpression X pr) := by
  intro s hs
  unfold parseExpression
  refine sp_bind _ (hp s hs) ?_
  rintro l s1 - h1
  refine sp_get_bind ?_
  have once : ∀ kw op, Sp Fr (do
      let _ ← P.matchKw kw
      let r ← pr
      P.liftEl (mkLogical X.decls op l r)) s1 (fun _ s' => s'.toks < s.toks) := by
    intro kw op
    refine sp_bind _ matchKw_sp ?_
    rintro t s2 - ⟨-, -, -, -, h2⟩
    refine sp_bind _ (hp s2 (by omega)) ?_
    rintro e s3 - h3
    refine liftEl_sp.mono ?_
    rintro x s4 - ⟨-, rfl⟩
    omega
  refine sp_ite (fun _ => ?_) (fun _ => sp_ite (fun _ => ?_) (fun _ => sp_ite (fun _ => ?_)
    (fun _ => sp_ite (fun _ => ?_) (fun _ => ?_))))
  · refine (logicLoop_tot hp _ _ _ l s1 (by omega) (by omega)).mono ?_
    rintro _ s2 - h2
    omega
  · refine (logicLoop_tot hp _ _ _ l s1 (by omega) (by omega)).mono ?_
    rintro _ s2 - h2
    omega
  · exact once "xor" .xor
  · exact once "implies" .implies
  · exact sp_pure h1

theorem argLoop_tot {pe : P Expr} (hp : Tot n pe) :
    ∀ (k : Nat) (s : PS), s.toks < k → s.toks < n →
      Sp Fr (argLoop pe k) s (fun _ s' => s'.toks ≤ s.toks) := by
  intro k
  induction k with
  | zero => intro s h; omega
  | succ k ih =>
    intro s hk hn
    unfold argLoop
    refine sp_get_bind ?_
    refine sp_ite (fun _ => sp_pure (Nat.le_refl _)) (fun _ => ?_)
    refine sp_bind _ (hp s hn) ?_
    rintro e s1 - h1
    refine sp_get_bind ?_
    refine sp_ite (fun _ => ?_) (fun _ => sp_pure (by omega))
    refine sp_bind _ matchK_sp ?_
    rintro t s2 - ⟨-, -, -, h2⟩
    refine sp_bind _ (ih s2 (by omega) (by omega)) ?_
    rintro es s3 - h3
    exact sp_pure (by omega)

theorem parseBuiltin_tot {X : ElEnv} {pe : P Expr} (hp : Tot n pe) {f : String} {s : PS}
    (hs : s.toks ≤ n) :
    Sp Fr (parseBuiltin X pe f) s (fun _ s' => s'.toks < s.toks) := by
  unfold parseBuiltin
  refine sp_bind _ matchK_sp ?_
  rintro t s1 - ⟨-, -, -, h1⟩
  refine sp_get_bind ?_
  refine sp_bind _ (argLoop_tot hp _ s1 (by omega) (by omega)) ?_
  rintro es s2 - h2
  refine sp_bind _ matchK_sp ?_
  rintro t s3 - ⟨-, -, -, h3⟩
  refine liftEl_sp.mono ?_
  rintro x s4 - ⟨-, rfl⟩
  omega

theorem nameTail_tot {X : ElEnv} {pe : P Expr} (hp : Tot n pe) :
    ∀ (k : Nat) (p : Expr) (s : PS), s.toks < k → s.toks ≤ n →
      Sp Fr (nameTail X pe k p) s (fun _ s' => s'.toks ≤ s.toks) := by
  intro k
  induction k with
  | zero => intro l s h; omega
  | succ k ih =>
    intro p s hk hn
    unfold nameTail
    refine sp_get_bind ?_
    refine sp_ite (fun _ => ?_) (fun _ => sp_ite (fun _ => ?_) (fun _ => sp_pure (Nat.le_refl _)))
    · refine sp_bind (fun _ s' => s' = s) (sp_cond (fun _ => sp_pure rfl) (fun _ => sp_fail)) ?_
      rintro _ s0 - rfl
      refine sp_bind _ matchK_sp ?_
      rintro t s2 - ⟨-, -, -, h2⟩
      refine sp_bind _ matchK_sp ?_
      rintro t s3 - ⟨-, -, -, h3⟩
      refine sp_bind _ liftEl_sp ?_
      rintro x s4 - ⟨-, rfl⟩
      refine (ih x s4 (by omega) (by omega)).mono ?_
      rintro _ s5 - h5
      omega
    · refine sp_bind (fun _ s' => s' = s) (sp_cond (fun _ => sp_pure rfl) (fun _ => sp_fail)) ?_
      rintro _ s0 - rfl
      refine sp_bind _ matchK_sp ?_
      rintro t s2 - ⟨-, -, -, h2⟩
      refine sp_bind _ (hp s2 (by omega)) ?_
      rintro e s3 - h3
      refine sp_bind _ matchK_sp ?_
      rintro t s4 - ⟨-, -, -, h4⟩
      refine sp_bind _ liftEl_sp ?_
      rintro x s5 - ⟨-, rfl⟩
      refine (ih x s5 (by omega) (by omega)).mono ?_
      rintro _ s6 - h6
      omega

theorem parseEntity_tot {X : ElEnv} {pe : P Expr} (hp : Tot n pe) {e : Ent} {s : PS}
    (hs : s.toks ≤ n) : Sp Fr (parseEntity X pe e) s (fun _ s' => s'.toks < s.toks) := by
  unfold parseEntity
  refine sp_ite (fun _ => ?_) (fun _ => sp_ite (fun _ => parseBuiltin_tot hp hs) (fun _ => sp_fail))
  unfold parseLiteral
  refine sp_bind _ matchK_sp ?_
  rintro t s2 - ⟨-, -, -, h2⟩
  refine sp_bind _ matchK_sp ?_
  rintro t s3 - ⟨-, -, -, h3⟩
  exact sp_ite (fun _ => sp_pure (by omega)) (fun _ => sp_fail)

theorem parseName_tot {E : FileEnv} {X : ElEnv} {sc : LScope} {pe : P Expr} (hp : Tot n pe) :
    Tot (n + 1) (parseName E X sc pe) := by
  intro s hs
  unfold parseName
  refine sp_bind _ matchK_sp ?_
  rintro t s1 - ⟨-, -, -, h1⟩
  refine sp_get_bind ?_
  refine sp_ite (fun _ => ?_) (fun _ => ?_)
  · refine sp_bind _ liftSym_sp ?_
    rintro e s2 - ⟨-, rfl⟩
    refine sp_ite (fun _ => ?_) (fun _ => sp_fail)
    refine (parseBuiltin_tot hp (by omega)).mono ?_
    rintro _ s3 - h3
    omega
  · refine sp_bind _ nameLookup_sp ?_
    rintro r s2 - rfl
    cases r with
    | var τ =>
      refine (nameTail_tot hp _ _ s2 (by omega) (by omega)).mono ?_
      rintro _ s3 - h3
      omega
    | comp c =>
      refine (nameTail_tot hp _ _ s2 (by omega) (by omega)).mono ?_
      rintro _ s3 - h3
      omega
    | ent e =>
      refine sp_ite (fun _ => sp_ite (fun _ => sp_invisible) (fun _ => ?_)) (fun _ => ?_)
      · refine sp_bind _ matchK_sp ?_
        rintro t s3 - ⟨-, -, -, h3⟩
        refine sp_bind _ matchK_sp ?_
        rintro t s4 - ⟨-, -, -, h4⟩
        refine sp_get_bind ?_
        refine sp_bind _ liftSym_sp ?_
        rintro e s5 - ⟨-, rfl⟩
        refine (parseEntity_tot hp (by omega)).mono ?_
        rintro _ s6 - h6
        omega
      · refine (parseEntity_tot hp (by omega)).mono ?_
        rintro _ s6 - h6
        omega

theorem quantified_tot {sc : LScope} {pe : LScope → P Expr} (hp : ∀ sc, Tot n (pe sc)) :
    Tot (n + 1) (parseQuantified sc pe) := by
  intro s hs
  unfold parseQuantified
  refine sp_get_bind ?_
  refine sp_bind (fun _ s' => s'.toks < s.toks) ?_ ?_
  · refine sp_cond (fun _ => ?_) (fun _ => ?_)
    · refine sp_bind _ matchKw_sp ?_
      rintro t s2 - ⟨-, -, -, -, h2⟩
      exact sp_pure h2
    · refine sp_bind _ matchKw_sp ?_
      rintro t s2 - ⟨-, -, -, -, h2⟩
      exact sp_pure h2
  rintro u s1 - h1
  refine sp_bind _ matchK_sp ?_
  rintro x s2 - ⟨-, -, -, h2⟩
  refine sp_ite (fun _ => sp_fail) (fun _ => ?_)
  refine sp_bind _ matchKw_sp ?_
  rintro i s3 - ⟨-, -, -, -, h3⟩
  refine sp_bind _ matchK_sp ?_
  rintro src s4 - ⟨-, -, -, h4⟩
  refine sp_bind _ nameLookup_sp ?_
  rintro r s5 - rfl
  cases r with
  | var t => exact sp_fail
  | ent e => exact sp_fail
  | comp c =>
    simp only
    split
    · refine sp_bind _ matchK_sp ?_
      rintro w s6 - ⟨-, -, -, h6⟩
      refine sp_bind _ (hp _ s6 (by omega)) ?_
      rintro b s7 - h7
      refine sp_bind _ liftEl_sp ?_
      rintro _ s8 - ⟨-, rfl⟩
      exact sp_pure (by omega)
    · exact sp_fail

theorem condTail_tot {pe : P Expr} (hp : Tot n pe) (t : Ty) :
    ∀ (k : Nat) (s : PS), s.toks < k → s.toks < n + 1 →
      Sp Fr (condTail pe t k) s (fun _ s' => s'.toks ≤ s.toks) := by
  intro k
  induction k with
  | zero => intro s h; omega
  | succ k ih =>
    intro s hk hn
    unfold condTail
    refine sp_get_bind ?_
    refine sp_ite (fun _ => ?_) (fun _ => ?_)
    · refine sp_bind _ matchKw_sp ?_
      rintro x s1 - ⟨-, -, -, -, h1⟩
      refine sp_bind _ (hp s1 (by omega)) ?_
      rintro c s2 - h2
      refine sp_bind _ matchKw_sp ?_
      rintro x s3 - ⟨-, -, -, -, h3⟩
      refine sp_bind _ (hp s3 (by omega)) ?_
      rintro e s4 - h4
      refine sp_bind _ liftEl_sp ?_
      rintro _ s5 - ⟨-, rfl⟩
      refine sp_bind _ liftEl_sp ?_
      rintro _ s6 - ⟨-, rfl⟩
      refine sp_bind _ (ih s6 (by omega) (by omega)) ?_
      rintro rest s7 - h7
      exact sp_pure (by omega)
    · refine sp_bind _ matchKw_sp ?_
      rintro x s1 - ⟨-, -, -, -, h1⟩
      refine sp_bind _ (hp s1 (by omega)) ?_
      rintro c s2 - h2
      refine sp_bind _ liftEl_sp ?_
      rintro _ s5 - ⟨-, rfl⟩
      exact sp_pure (by omega)

theorem conditional_tot {pe : P Expr} (hp : Tot n pe) : Tot (n + 1) (parseConditional pe) := by
  intro s hs
  unfold parseConditional
  refine sp_bind _ matchKw_sp ?_
  rintro x s1 - ⟨-, -, -, -, h1⟩
  refine sp_bind _ (hp s1 (by omega)) ?_
  rintro c s2 - h2
  refine sp_bind _ matchKw_sp ?_
  rintro x s3 - ⟨-, -, -, -, h3⟩
  refine sp_bind _ (hp s3 (by omega)) ?_
  rintro e s4 - h4
  cases e.typ with
  | none => exact sp_fail
  | some t =>
    refine sp_bind _ liftEl_sp ?_
    rintro _ s5 - ⟨-, rfl⟩
    refine sp_get_bind ?_
    refine sp_bind _ (condTail_tot hp t _ s5 (by omega) (by omega)) ?_
    rintro rest s7 - h7
    exact sp_pure (by omega)

theorem primary_tot {E : FileEnv} {X : ElEnv} {sc : LScope} {pe : LScope → P Expr}
    (hp : ∀ sc, Tot n (pe sc)) : Tot (n + 1) (parsePrimary E X sc pe) := by
  intro s hs
  unfold parsePrimary
  refine sp_get_bind ?_
  refine sp_ite (fun _ => ?_) (fun _ => sp_ite (fun _ => ?_) (fun _ => sp_ite (fun _ => ?_)
    (fun _ => sp_ite (fun hb => ?_) (fun _ => sp_ite (fun _ => ?_) (fun _ => sp_ite (fun _ => ?_)
    (fun _ => ?_))))))
  · refine sp_bind _ matchK_sp ?_
    rintro t s1 - ⟨-, -, -, h1⟩
    split
    · exact sp_pure h1
    · exact sp_crash (by simp)
  · refine sp_bind _ matchK_sp ?_
    rintro t s1 - ⟨-, -, -, h1⟩
    split
    · exact sp_pure h1
    · exact sp_crash (by simp)
  · refine sp_bind _ matchK_sp ?_
    rintro t s1 - ⟨-, -, -, h1⟩
    exact sp_pure h1
  · refine sp_bind _ matchK_sp ?_
    rintro t s1 - ⟨-, -, -, h1⟩
    exact sp_pure h1
  · refine sp_bind _ matchKw_sp ?_
    rintro t s1 - ⟨-, -, -, -, h1⟩
    exact sp_pure h1
  · refine sp_bind _ matchK_sp ?_
    rintro t s1 - ⟨-, -, -, h1⟩
    refine sp_get_bind ?_
    refine sp_bind (fun _ s' => s'.toks < s1.toks) ?_ ?_
    · refine sp_cond (fun _ => quantified_tot hp s1 (by omega)) (fun _ =>
        sp_cond (fun _ => conditional_tot (hp sc) s1 (by omega)) (fun _ => hp sc s1 (by omega)))
    · rintro e s2 - h2
      refine sp_bind _ matchK_sp ?_
      rintro t s3 - ⟨-, -, -, h3⟩
      exact sp_pure (by omega)
  · exact parseName_tot (hp sc) s hs

/-- Parsing an expression ends. -/
theorem parseExpr_tot {E : FileEnv} {X : ElEnv} (n : Nat) : ∀ sc, Tot n (parseExpr E X n sc) := by
  induction n with
  | zero => intro sc s hs; omega
  | succ n ih =>
    intro sc
    exact expression_tot (relation_tot (simple_tot (term_tot (factor_tot (primary_tot ih)))))

end Verif.Lemmas
