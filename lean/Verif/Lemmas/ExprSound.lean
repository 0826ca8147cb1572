import Verif.Lemmas.ExprSteps
/-! What `parse_expression` accepts is an expression of the grammar. -/
namespace Verif.Lemmas
open Verif.Model Verif.Spec

/-- What is fixed while one expression is parsed -/
structure Fix where
  E : FileEnv
  X : ElEnv
  N : Names
  comp : String → Option Comp

/-- the scope of the parser -/
def Fix.scope (F : Fix) (vars : List (String × Ty)) : LScope :=
  ⟨[F.E.global, F.N.tab F.E.pkg], F.comp, vars⟩

/-- the scope of the typing -/
def Fix.tscope (F : Fix) (vars : List (String × Ty)) : TScope := scopeIn F.E F.N F.comp vars

/-- the names of values -/
def Fix.V (F : Fix) (vars : List (String × Ty)) : String → Prop := ValueNames F.comp vars

/-- `x` reads phrases of `G` and builds the expressions for them. -/
def ReadsG (F : Fix) (vars : List (String × Ty)) (G : List Token → Raw → Prop) (x : P Expr) : Prop :=
  ∀ s, namesOf s = F.N →
    Snd x s (fun e ts => ∃ r, G ts r ∧ r.elab F.X (F.tscope vars) = .ok e)

variable {F : Fix} {vars : List (String × Ty)}

theorem elab_bind1 {r : Raw} {e x : Expr} {f : Expr → El Expr} {X : ElEnv} {sc : TScope}
    (h : r.elab X sc = .ok e) (hf : f e = .ok x) : (r.elab X sc).bind f = .ok x := by
  rw [h]; exact hf

theorem mulOps_tok {t : Token} {op : ArOp} (hk : t.kind = .OPERATOR)
    (h : mulOps.lookup t.text = some op) : MulTok op t := by
  unfold mulOps at h
  simp only [List.lookup] at h
  split at h
  · next e => cases h; exact ⟨hk, by simpa using e⟩
  · split at h
    · next e => cases h; exact ⟨hk, by simpa using e⟩
    · split at h
      · next e => cases h; exact ⟨hk, by simpa using e⟩
      · cases h

theorem addOps_tok {t : Token} {op : BinOp} (hk : t.kind = .OPERATOR)
    (h : addOps.lookup t.text = some op) :
    (op = .plus ∧ AddTok .plus t) ∨ (op = .minus ∧ AddTok .minus t) := by
  unfold addOps at h
  simp only [List.lookup] at h
  split at h
  · next e => cases h; exact .inl ⟨rfl, hk, by simpa using e⟩
  · split at h
    · next e => cases h; exact .inr ⟨rfl, hk, by simpa using e⟩
    · cases h

theorem signOps_tok {t : Token} {op : UnOp} (hk : t.kind = .OPERATOR)
    (h : signOps.lookup t.text = some op) :
    ∃ minus : Bool, op = (if minus then .minus else .plus) ∧ SignTok minus t := by
  unfold signOps at h
  simp only [List.lookup] at h
  split at h
  · next e => cases h; exact ⟨false, rfl, hk, by simpa using e⟩
  · split at h
    · next e => cases h; exact ⟨true, rfl, hk, by simpa using e⟩
    · cases h

theorem cmpOps_tok {t : Token} {op : CmpOp} (hk : t.kind = .OPERATOR)
    (h : cmpOps.lookup t.text = some op) : CmpTok op t := by
  unfold cmpOps at h
  simp only [List.lookup] at h
  repeat' split at h
  all_goals first
    | cases h; done
    | (next e => cases h; exact ⟨hk, by simpa using e⟩)

theorem powerOps_tok {t : Token} {u : Unit} (hk : t.kind = .OPERATOR)
    (h : powerOps.lookup t.text = some u) : IsOp "**" t := by
  unfold powerOps at h
  simp only [List.lookup] at h
  split at h
  · next e => exact ⟨hk, by simpa using e⟩
  · cases h

/-! ## Factors, terms, simple expressions -/

theorem factor_snd {pp : P Expr} (hp : ReadsG F vars (GPrimary F.E F.N (F.V vars)) pp) :
    ReadsG F vars (GFactor F.E F.N (F.V vars)) (parseFactor F.X pp) := by
  intro s hs
  unfold parseFactor
  refine snd_get_bind ?_
  refine snd_ite (fun _ => ?_) (fun _ => snd_ite (fun _ => ?_) (fun _ => ?_))
  · refine snd_bind _ matchKw_snd ?_
    rintro t _ s1 h1 ⟨hk, rfl⟩
    refine snd_bind _ (hp s1 (by rw [h1.names, hs])) ?_
    rintro e a s2 h2 ⟨r, hg, he⟩
    refine liftEl_snd.mono ?_
    rintro x _ ⟨rfl, hx⟩
    refine ⟨.not r, ?_, ?_⟩
    · simpa using GFactor.not hk hg
    · simp only [Raw.elab]; exact elab_bind1 he hx
  · refine snd_bind _ matchKw_snd ?_
    rintro t _ s1 h1 ⟨hk, rfl⟩
    refine snd_bind _ (hp s1 (by rw [h1.names, hs])) ?_
    rintro e a s2 h2 ⟨r, hg, he⟩
    refine liftEl_snd.mono ?_
    rintro x _ ⟨rfl, hx⟩
    refine ⟨.abs r, ?_, ?_⟩
    · simpa using GFactor.abs hk hg
    · simp only [Raw.elab]; exact elab_bind1 he hx
  · refine snd_bind _ (hp s hs) ?_
    rintro e a s1 h1 ⟨r, hg, he⟩
    refine snd_get_bind ?_
    cases hop : s1.peekOp powerOps with
    | none => exact snd_pure ⟨r, by simpa using GFactor.primary hg, he⟩
    | some u =>
      obtain ⟨t0, hn0, hk0, hl0⟩ := peekOp_some hop
      refine snd_bind _ matchK_snd ?_
      rintro t _ s2 h2 ⟨hn, hk, rfl⟩
      rw [hn0] at hn
      cases hn
      refine snd_bind _ (hp s2 (by rw [h2.names, h1.names, hs])) ?_
      rintro e' b s3 h3 ⟨r', hg', he'⟩
      refine liftEl_snd.mono ?_
      rintro x _ ⟨rfl, hx⟩
      refine ⟨.power r r', ?_, ?_⟩
      · simpa using GFactor.power hg (powerOps_tok hk0 hl0) hg'
      · simp only [Raw.elab]
        exact elab_bind1 he (elab_bind1 he' hx)

theorem leftAssoc_cons {O : Type} {f : O → Raw → Raw → Raw} {l : Raw} {i : Link O}
    {is : List (Link O)} : leftAssoc f l (i :: is) = leftAssoc f (f i.op l i.raw) is := rfl

theorem spell_cons {O : Type} {i : Link O} {is : List (Link O)} :
    spell (i :: is) = i.tok :: (i.ts ++ spell is) := by
  simp [spell]

theorem termLoop_snd {pf : P Expr} (hp : ReadsG F vars (GFactor F.E F.N (F.V vars)) pf) :
    ∀ (k : Nat) (l : Expr) (lr : Raw) (s : PS), namesOf s = F.N →
      lr.elab F.X (F.tscope vars) = .ok l →
      Snd (termLoop F.X pf k l) s (fun e ts => ∃ is : List (Link ArOp), ts = spell is ∧
        (∀ i ∈ is, MulTok i.op i.tok) ∧ (∀ i ∈ is, GFactor F.E F.N (F.V vars) i.ts i.raw) ∧
        (leftAssoc .arith lr is).elab F.X (F.tscope vars) = .ok e) := by
  intro k
  induction k with
  | zero => intros; exact snd_crash
  | succ k ih =>
    intro l lr s hs hl
    unfold termLoop
    refine snd_get_bind ?_
    cases hop : s.peekOp mulOps with
    | none => exact snd_pure ⟨[], rfl, by simp, by simp, hl⟩
    | some op =>
      obtain ⟨t0, hn0, hk0, hl0⟩ := peekOp_some hop
      refine snd_bind _ matchK_snd ?_
      rintro t _ s2 h2 ⟨hn, hk, rfl⟩
      rw [hn0] at hn
      cases hn
      refine snd_bind _ (hp s2 (by rw [h2.names, hs])) ?_
      rintro e' b s3 h3 ⟨r', hg', he'⟩
      refine snd_bind _ liftEl_snd ?_
      rintro x _ s4 h4 ⟨rfl, hx⟩
      have hx' : (Raw.arith op lr r').elab F.X (F.tscope vars) = .ok x := by
        simp only [Raw.elab]
        exact elab_bind1 hl (elab_bind1 he' hx)
      refine (ih x (.arith op lr r') s4 (by rw [h4.names, h3.names, h2.names, hs]) hx').mono ?_
      rintro e ts ⟨is, rfl, h5, h6, h7⟩
      refine ⟨⟨op, t0, b, r'⟩ :: is, ?_, ?_, ?_, ?_⟩
      · rw [spell_cons]; simp
      · simpa using ⟨mulOps_tok hk0 hl0, h5⟩
      · simpa using ⟨hg', h6⟩
      · rw [leftAssoc_cons]; exact h7

theorem term_snd {pf : P Expr} (hp : ReadsG F vars (GFactor F.E F.N (F.V vars)) pf) :
    ReadsG F vars (GTerm F.E F.N (F.V vars)) (parseTerm F.X pf) := by
  intro s hs
  unfold parseTerm
  refine snd_bind _ (hp s hs) ?_
  rintro e a s1 h1 ⟨r, hg, he⟩
  refine snd_get_bind ?_
  refine (termLoop_snd hp _ e r s1 (by rw [h1.names, hs]) he).mono ?_
  rintro x _ ⟨is, rfl, h5, h6, h7⟩
  exact ⟨_, .mk hg h5 h6, h7⟩

theorem chainTyp_idem (t : Option Ty) : chainTyp (chainTyp t) = chainTyp t := by
  cases t with
  | none => rfl
  | some t => cases t <;> rfl

theorem mkBinary_typ {D : Decls} {typ : Option Ty} {op : BinOp} {l r e : Expr}
    (h : mkBinary D typ op l r = .ok e) : e.typ = typ := by
  obtain ⟨_, -, h⟩ := El.bind_eq_ok h
  cases h
  rfl

theorem simpleLoop_snd {pt : P Expr} (hp : ReadsG F vars (GTerm F.E F.N (F.V vars)) pt) :
    ∀ (k : Nat) (rtyp : Option Ty) (l : Expr) (lr : Raw) (s : PS), namesOf s = F.N →
      rtyp = chainTyp l.typ → lr.elab F.X (F.tscope vars) = .ok l →
      Snd (simpleLoop F.X pt rtyp k l) s (fun e ts => ∃ is : List (Link ArOp), ts = spell is ∧
        (∀ i ∈ is, AddTok i.op i.tok) ∧ (∀ i ∈ is, GTerm F.E F.N (F.V vars) i.ts i.raw) ∧
        (leftAssoc .arith lr is).elab F.X (F.tscope vars) = .ok e) := by
  intro k
  induction k with
  | zero => intros; exact snd_crash
  | succ k ih =>
    intro rtyp l lr s hs hr hl
    unfold simpleLoop
    refine snd_get_bind ?_
    cases hop : s.peekOp addOps with
    | none => exact snd_pure ⟨[], rfl, by simp, by simp, hl⟩
    | some op =>
      obtain ⟨t0, hn0, hk0, hl0⟩ := peekOp_some hop
      refine snd_bind _ matchK_snd ?_
      rintro t _ s2 h2 ⟨hn, hk, rfl⟩
      rw [hn0] at hn
      cases hn
      refine snd_bind _ (hp s2 (by rw [h2.names, hs])) ?_
      rintro e' b s3 h3 ⟨r', hg', he'⟩
      refine snd_bind _ liftEl_snd ?_
      rintro x _ s4 h4 ⟨rfl, hx⟩
      obtain ⟨aop, hao, hx'⟩ : ∃ aop, AddTok aop t0 ∧
          (Raw.arith aop lr r').elab F.X (F.tscope vars) = .ok x := by
        rw [hr] at hx
        rcases addOps_tok hk0 hl0 with ⟨rfl, ht⟩ | ⟨rfl, ht⟩
        · refine ⟨.plus, ht, ?_⟩
          simp only [Raw.elab]
          exact elab_bind1 hl (elab_bind1 he' hx)
        · refine ⟨.minus, ht, ?_⟩
          simp only [Raw.elab]
          exact elab_bind1 hl (elab_bind1 he' hx)
      have hr' : rtyp = chainTyp x.typ := by
        rw [mkBinary_typ hx, hr, chainTyp_idem]
      refine (ih rtyp x (.arith aop lr r') s4 (by rw [h4.names, h3.names, h2.names, hs]) hr' hx').mono ?_
      rintro e ts ⟨is, rfl, h5, h6, h7⟩
      refine ⟨⟨aop, t0, b, r'⟩ :: is, ?_, ?_, ?_, ?_⟩
      · rw [spell_cons]; simp
      · simpa using ⟨hao, h5⟩
      · simpa using ⟨hg', h6⟩
      · rw [leftAssoc_cons]; exact h7

theorem simple_snd {pt : P Expr} (hp : ReadsG F vars (GTerm F.E F.N (F.V vars)) pt) :
    ReadsG F vars (GSimple F.E F.N (F.V vars)) (parseSimple F.X pt) := by
  intro s hs
  unfold parseSimple
  refine snd_bind (fun e ts => ∃ k a l r, ts = k ++ a ∧ GTerm F.E F.N (F.V vars) a l ∧
    r.elab F.X (F.tscope vars) = .ok e ∧ ((k = [] ∧ r = l) ∨
      ∃ t minus, k = [t] ∧ SignTok minus t ∧ r = .sign minus l)) ?_ ?_
  · unfold parseSigned
    refine snd_get_bind ?_
    cases hop : s.peekOp signOps with
    | none =>
      refine (hp s hs).mono ?_
      rintro e ts ⟨r, hg, he⟩
      exact ⟨[], ts, r, r, rfl, hg, he, .inl ⟨rfl, rfl⟩⟩
    | some op =>
      obtain ⟨t0, hn0, hk0, hl0⟩ := peekOp_some hop
      refine snd_bind _ matchK_snd ?_
      rintro t _ s2 h2 ⟨hn, hk, rfl⟩
      rw [hn0] at hn
      cases hn
      refine snd_bind _ (hp s2 (by rw [h2.names, hs])) ?_
      rintro e' b s3 h3 ⟨r', hg', he'⟩
      refine liftEl_snd.mono ?_
      rintro x _ ⟨rfl, hx⟩
      obtain ⟨minus, rfl, ht⟩ := signOps_tok hk0 hl0
      refine ⟨[t0], b, r', .sign minus r', by simp, hg', ?_, .inr ⟨t0, minus, rfl, ht, rfl⟩⟩
      simp only [Raw.elab]
      exact elab_bind1 he' hx
  · rintro l _ s1 h1 ⟨k, a, lr, r, rfl, hg, he, hk⟩
    refine snd_get_bind ?_
    refine (simpleLoop_snd hp _ _ l r s1 (by rw [h1.names, hs]) rfl he).mono ?_
    rintro x _ ⟨is, rfl, h5, h6, h7⟩
    rcases hk with ⟨rfl, rfl⟩ | ⟨t, minus, rfl, ht, rfl⟩
    · exact ⟨_, by simpa using GSimple.plain hg h5 h6, h7⟩
    · exact ⟨_, by simpa using GSimple.signed ht hg h5 h6, h7⟩

/-! ## Relations, expressions -/

theorem relation_snd {ps : P Expr} (hp : ReadsG F vars (GSimple F.E F.N (F.V vars)) ps) :
    ReadsG F vars (GRel F.E F.N (F.V vars)) (parseRelation F.X ps) := by
  intro s hs
  unfold parseRelation
  refine snd_bind _ (hp s hs) ?_
  rintro l a s1 h1 ⟨lr, hg, he⟩
  have hs1 : namesOf s1 = F.N := by rw [h1.names, hs]
  refine snd_get_bind ?_
  cases hop : s1.peekOp cmpOps with
  | some op =>
    obtain ⟨t0, hn0, hk0, hl0⟩ := peekOp_some hop
    refine snd_bind _ matchK_snd ?_
    rintro t _ s2 h2 ⟨hn, hk, rfl⟩
    rw [hn0] at hn
    cases hn
    refine snd_bind _ (hp s2 (by rw [h2.names, hs1])) ?_
    rintro e' b s3 h3 ⟨r', hg', he'⟩
    refine liftEl_snd.mono ?_
    rintro x _ ⟨rfl, hx⟩
    refine ⟨.cmp op lr r', ?_, ?_⟩
    · simpa using GRel.cmp hg (cmpOps_tok hk0 hl0) hg'
    · simp only [Raw.elab]
      exact elab_bind1 he (elab_bind1 he' hx)
  | none =>
    refine snd_ite (fun _ => ?_) (fun _ => snd_pure ⟨lr, by simpa using GRel.simple hg, he⟩)
    refine snd_bind (fun (neg : Bool) ts => if neg then ∃ t, ts = [t] ∧ IsKw "not" t else ts = []) ?_ ?_
    · refine snd_cond (fun _ => ?_) (fun _ => snd_pure (by simp))
      refine snd_bind _ matchKw_snd ?_
      rintro t _ s2 h2 ⟨hk, rfl⟩
      exact snd_pure (by simpa using hk)
    · rintro neg k s2 h2 hk
      refine snd_bind _ matchKw_snd ?_
      rintro ti _ s3 h3 ⟨hki, rfl⟩
      have hin : InToks neg (k ++ [ti]) := by
        cases neg
        · simp only [Bool.false_eq_true, if_false] at hk; subst hk
          simp only [InToks, Bool.false_eq_true, if_false]
          exact ⟨ti, rfl, hki⟩
        · simp only [if_true] at hk
          obtain ⟨t, rfl, ht⟩ := hk
          simp only [InToks, if_true]
          exact ⟨t, ti, rfl, ht, hki⟩
      have hs3 : namesOf s3 = F.N := by rw [h3.names, h2.names, hs1]
      refine snd_bind _ (hp s3 hs3) ?_
      rintro a' b s4 h4 ⟨br, hgb, heb⟩
      have hs4 : namesOf s4 = F.N := by rw [h4.names, hs3]
      refine snd_get_bind ?_
      refine snd_bind (fun e ts => ((ts = [] ∧ mkIn F.X.decls l a' = .ok e) ∨
        ∃ t c cr ce, ts = t :: c ∧ t.kind = .RANGE ∧ GSimple F.E F.N (F.V vars) c cr ∧
          cr.elab F.X (F.tscope vars) = .ok ce ∧ mkRange l a' ce = .ok e)) ?_ ?_
      · refine snd_cond (fun _ => ?_) (fun _ => ?_)
        · refine snd_bind _ matchK_snd ?_
          rintro t _ s5 h5 ⟨-, hkt, rfl⟩
          refine snd_bind _ (hp s5 (by rw [h5.names, hs4])) ?_
          rintro c' c s6 h6 ⟨cr, hgc, hec⟩
          refine liftEl_snd.mono ?_
          rintro x _ ⟨rfl, hx⟩
          exact .inr ⟨t, c, cr, c', by simp, hkt, hgc, hec, hx⟩
        · refine liftEl_snd.mono ?_
          rintro x _ ⟨rfl, hx⟩
          exact .inl ⟨rfl, hx⟩
      · rintro e ts s5 h5 hcase
        refine liftEl_snd.mono ?_
        rintro x _ ⟨rfl, hx⟩
        rcases hcase with ⟨rfl, hin'⟩ | ⟨t, c, cr, ce, rfl, hkt, hgc, hec, hr⟩
        · refine ⟨.isIn neg lr br, ?_, ?_⟩
          · simpa using GRel.isIn hg hin hgb
          · simp only [Raw.elab]
            refine elab_bind1 he (elab_bind1 heb ?_)
            rw [hin']; exact hx
        · refine ⟨.inRange neg lr br cr, ?_, ?_⟩
          · simpa using GRel.inRange hg hin hgb hkt hgc
          · simp only [Raw.elab]
            refine elab_bind1 he (elab_bind1 heb (elab_bind1 hec ?_))
            rw [hr]; exact hx

/-- the keyword of a logical operator -/
def LogOp.word : LogOp → String
  | .and => "and"
  | .or => "or"
  | .xor => "xor"
  | .implies => "implies"

theorem logTok_iff {op : LogOp} {t : Token} : LogTok op t ↔ IsKw (LogOp.word op) t := by
  cases op <;> rfl

theorem logicLoop_snd {pr : P Expr} (hp : ReadsG F vars (GRel F.E F.N (F.V vars)) pr) (op : LogOp) :
    ∀ (k : Nat) (l : Expr) (lr : Raw) (s : PS), namesOf s = F.N →
      lr.elab F.X (F.tscope vars) = .ok l →
      Snd (logicLoop F.X pr (LogOp.word op) op k l) s
        (fun e ts => ∃ is : List (Link LogOp), ts = spell is ∧
        (∀ i ∈ is, i.op = op ∧ LogTok op i.tok) ∧ (∀ i ∈ is, GRel F.E F.N (F.V vars) i.ts i.raw) ∧
        (leftAssoc .logic lr is).elab F.X (F.tscope vars) = .ok e) := by
  intro k
  induction k with
  | zero => intros; exact snd_crash
  | succ k ih =>
    intro l lr s hs hl
    unfold logicLoop
    refine snd_get_bind ?_
    refine snd_ite (fun _ => ?_) (fun _ => snd_pure ⟨[], rfl, by simp, by simp, hl⟩)
    refine snd_bind _ matchKw_snd ?_
    rintro t _ s2 h2 ⟨hk, rfl⟩
    refine snd_bind _ (hp s2 (by rw [h2.names, hs])) ?_
    rintro e' b s3 h3 ⟨r', hg', he'⟩
    refine snd_bind _ liftEl_snd ?_
    rintro x _ s4 h4 ⟨rfl, hx⟩
    have hx' : (Raw.logic op lr r').elab F.X (F.tscope vars) = .ok x := by
      simp only [Raw.elab]
      exact elab_bind1 hl (elab_bind1 he' hx)
    refine (ih x (.logic op lr r') s4 (by rw [h4.names, h3.names, h2.names, hs]) hx').mono ?_
    rintro e ts ⟨is, rfl, h5, h6, h7⟩
    refine ⟨⟨op, t, b, r'⟩ :: is, ?_, ?_, ?_, ?_⟩
    · rw [spell_cons]; simp
    · simpa using ⟨logTok_iff.2 hk, h5⟩
    · simpa using ⟨hg', h6⟩
    · rw [leftAssoc_cons]; exact h7

theorem expression_snd {pr : P Expr} (hp : ReadsG F vars (GRel F.E F.N (F.V vars)) pr) :
    ReadsG F vars (GExpr F.E F.N (F.V vars)) (parseExpression F.X pr) := by
  intro s hs
  unfold parseExpression
  refine snd_bind _ (hp s hs) ?_
  rintro l a s1 h1 ⟨lr, hg, he⟩
  have hs1 : namesOf s1 = F.N := by rw [h1.names, hs]
  refine snd_get_bind ?_
  have once : ∀ op, (op = LogOp.xor ∨ op = .implies) → Snd (do
      let _ ← P.matchKw (LogOp.word op)
      let r ← pr
      P.liftEl (mkLogical F.X.decls op l r)) s1 (fun b ts' => ∃ r, GExpr F.E F.N (F.V vars) (a ++ ts') r ∧
        r.elab F.X (F.tscope vars) = .ok b) := by
    intro op hop
    refine snd_bind _ matchKw_snd ?_
    rintro t _ s2 h2 ⟨hk, rfl⟩
    refine snd_bind _ (hp s2 (by rw [h2.names, hs1])) ?_
    rintro e' b s3 h3 ⟨r', hg', he'⟩
    refine liftEl_snd.mono ?_
    rintro x _ ⟨rfl, hx⟩
    refine ⟨.logic op lr r', ?_, ?_⟩
    · simpa using GExpr.once hop hg (logTok_iff.2 hk) hg'
    · simp only [Raw.elab]
      exact elab_bind1 he (elab_bind1 he' hx)
  refine snd_ite (fun _ => ?_) (fun _ => snd_ite (fun _ => ?_) (fun _ => snd_ite (fun _ => ?_)
    (fun _ => snd_ite (fun _ => ?_) (fun _ => ?_))))
  · refine (logicLoop_snd hp .and _ l lr s1 hs1 he).mono ?_
    rintro x _ ⟨is, rfl, h5, h6, h7⟩
    exact ⟨_, .chain (.inl rfl) hg h5 h6, h7⟩
  · refine (logicLoop_snd hp .or _ l lr s1 hs1 he).mono ?_
    rintro x _ ⟨is, rfl, h5, h6, h7⟩
    exact ⟨_, .chain (.inr rfl) hg h5 h6, h7⟩
  · exact once .xor (.inl rfl)
  · exact once .implies (.inr rfl)
  · refine snd_pure ⟨lr, ?_, he⟩
    have := GExpr.chain (V := F.V vars) (is := []) (op := .and) (.inl rfl) hg (by simp) (by simp)
    simpa [spell, leftAssoc] using this

end Verif.Lemmas
