import Verif.Lemmas.RenameValue
/-!
# Two runs with different packages: expressions
-/
namespace Verif.Lemmas.Rename
open Verif.Model Verif.Lemmas

/-- the same meaning of a name -/
inductive NamedR (K : Ren) : Named → Named → Prop
  | var {t : Ty} : NamedR K (.var t) (.var t)
  | comp {c : Comp} : NamedR K (.comp c) (.comp c)
  | ent {e : Ent} : NamedR K (.ent e) (.ent (K.ent e))

/-- the same scope of a check -/
inductive ScR (K : Ren) : LScope → LScope → Prop
  | mk {T T' : STab} {comp : String → Option Comp} {vars : List (String × Ty)} : TabR K T T' →
    ScR K ⟨[K.g, T], comp, vars⟩ ⟨[K.g', T'], comp, vars⟩

variable {K : Ren} [hK : K.Ok] {Q : Token → Prop} [hQ : Words K Q] {E E' : FileEnv} [hE : EnvR K Q E E']
  {X : ElEnv} {pe pe' : P Expr} {sc sc' : LScope}

omit hQ in
theorem sims_nameLookup (hs : ScR K sc sc') {n : List Char} (hn : K.Seen n) :
    Sims K Q (NamedR K) (P.nameLookup sc n) (P.nameLookup sc' n) := by
  cases hs with
  | @mk T T' comp vars h =>
    unfold P.nameLookup
    dsimp only
    cases vars.lookup (String.ofList n) with
    | some t => exact sims_pure' .var
    | none =>
      dsimp only
      cases comp (String.ofList n) with
      | some c => exact sims_pure' .comp
      | none =>
        dsimp only
        rw [scope_lookup h hn subR_none]
        cases Scope.lookup [K.g, T] n none with
        | none => exact sims_crash'
        | some r =>
          cases r with
          | ok e => exact sims_pure' .ent
          | error e => exact sims_fail'

omit hQ in
theorem scR_contains (hs : ScR K sc sc') {n : List Char} (hn : K.Seen n) : sc'.contains n = sc.contains n := by
  cases hs with
  | mk h =>
    unfold LScope.contains
    dsimp only
    rw [scope_contains h hn]

omit hK hQ in
theorem sims_argLoop [h : Sims K Q Eq pe pe'] : ∀ k, Sims K Q Eq (argLoop pe k) (argLoop pe' k)
  | 0 => sims_crash'
  | k + 1 => by
    have ih := sims_argLoop k
    unfold argLoop
    sims

omit hK hQ in
instance [h : Sims K Q Eq pe pe'] {k : Nat} : Sims K Q Eq (argLoop pe k) (argLoop pe' k) := sims_argLoop k

omit hK hQ in
instance [h : Sims K Q Eq pe pe'] {f : String} : Sims K Q Eq (parseBuiltin X pe f) (parseBuiltin X pe' f) := by
  unfold parseBuiltin; sims

omit hK hQ in
theorem sims_nameTail [h : Sims K Q Eq pe pe'] : ∀ k (p : Expr), Sims K Q Eq (nameTail X pe k p) (nameTail X pe' k p)
  | 0, _ => sims_crash'
  | k + 1, p => by
    have ih := fun q => sims_nameTail k q
    unfold nameTail
    sims

omit hK hQ in
instance [h : Sims K Q Eq pe pe'] {k : Nat} {p : Expr} : Sims K Q Eq (nameTail X pe k p) (nameTail X pe' k p) :=
  sims_nameTail k p

omit hK hQ in
instance {t : Nat} : Sims K Q Eq (parseLiteral X t) (parseLiteral X t) := by unfold parseLiteral; sims

omit hK hQ in
theorem sims_parseEntity [h : Sims K Q Eq pe pe'] {e : Ent} :
    Sims K Q Eq (parseEntity X pe e) (parseEntity X pe' (K.ent e)) := by
  unfold parseEntity
  rw [ent_cls, ent_isCallable, ent_name]
  by_cases hc : e.cls = clsEnum
  · rw [if_pos hc, if_pos hc, ent_self (by rw [hc]; decide)]; infer_instance
  · rw [if_neg hc, if_neg hc]; sims

theorem sims_parseName (hs : ScR K sc sc') [h : Sims K Q Eq pe pe'] :
    Sims K Q Eq (parseName E X sc pe) (parseName E' X sc' pe') := by
  unfold parseName
  refine sims_tok inferInstance fun t ht => ?_
  refine sims_get fun s ts hst => ?_
  simp only [ren_peek, ren_toks]
  refine sims_ite ?_ ?_
  · rw [hE.global, hE.global', (agree_glob (hQ.seen ht)).lookup subR_none]
    refine sims_ent sims_liftEnt fun e => ?_
    rw [ent_isCallable, ent_name]
    sims
  · refine sims_bind (sims_nameLookup hs (hQ.seen ht)) fun a b hab => ?_
    cases hab with
    | var => exact inferInstance
    | comp => exact inferInstance
    | @ent e =>
      dsimp only
      rw [ent_cls]
      by_cases hc : e.cls = clsPackage
      · rw [if_pos hc, if_pos hc, ent_id hc, hE.visible]
        refine sims_ite sims_invisible ?_
        refine sims_tok inferInstance fun _ _ => ?_
        refine sims_tok inferInstance fun u hu => ?_
        refine sims_get fun s ts h => ?_
        rw [((ren_tab h _).agree (hQ.seen hu)).lookup subR_none]
        exact sims_ent sims_liftEnt fun e => sims_parseEntity
      · rw [if_neg hc, if_neg hc]
        exact sims_parseEntity

theorem sims_parseQuantified (hs : ScR K sc sc') {pe pe' : LScope → P Expr}
    (h : ∀ sc sc', ScR K sc sc' → Sims K Q Eq (pe sc) (pe' sc')) :
    Sims K Q Eq (parseQuantified sc pe) (parseQuantified sc' pe') := by
  unfold parseQuantified
  refine sims_get fun s ts hst => ?_
  simp only [ren_peekKw]
  refine sims_eq (by sims) fun u => ?_
  refine sims_tok inferInstance fun x hx => ?_
  rw [scR_contains hs (hQ.seen hx)]
  refine sims_ite sims_fail' ?_
  refine sims_tok inferInstance fun _ _ => ?_
  refine sims_tok inferInstance fun src hsrc => ?_
  refine sims_bind (sims_nameLookup hs (hQ.seen hsrc)) fun a b hab => ?_
  cases hab with
  | var => exact sims_fail'
  | ent => exact sims_fail'
  | @comp c =>
    dsimp only
    split
    · refine sims_tok inferInstance fun _ _ => ?_
      refine sims_eq (h _ _ ?_) fun b => ?_
      · cases hs with | mk h => exact .mk h
      · sims
    · exact sims_fail'

omit hK hQ in
theorem sims_condTail [h : Sims K Q Eq pe pe'] {t : Ty} : ∀ k, Sims K Q Eq (condTail pe t k) (condTail pe' t k)
  | 0 => sims_crash'
  | k + 1 => by
    have ih := sims_condTail (t := t) k
    unfold condTail
    sims

omit hK hQ in
instance [h : Sims K Q Eq pe pe'] {t : Ty} {k : Nat} : Sims K Q Eq (condTail pe t k) (condTail pe' t k) :=
  sims_condTail k

omit hK hQ in
instance [h : Sims K Q Eq pe pe'] : Sims K Q Eq (parseConditional pe) (parseConditional pe') := by
  unfold parseConditional; sims

theorem sims_parsePrimary (hs : ScR K sc sc') {pe pe' : LScope → P Expr}
    (h : ∀ sc sc', ScR K sc sc' → Sims K Q Eq (pe sc) (pe' sc')) :
    Sims K Q Eq (parsePrimary E X sc pe) (parsePrimary E' X sc' pe') := by
  have h1 := h _ _ hs
  have h2 := sims_parseQuantified hs h
  have h3 : Sims K Q Eq (parseName E X sc (pe sc)) (parseName E' X sc' (pe' sc')) := sims_parseName hs
  unfold parsePrimary
  sims

omit hK hQ in
instance [h : Sims K Q Eq pe pe'] : Sims K Q Eq (parseFactor X pe) (parseFactor X pe') := by
  unfold parseFactor; sims

omit hK hQ in
theorem sims_termLoop [h : Sims K Q Eq pe pe'] : ∀ k (p : Expr), Sims K Q Eq (termLoop X pe k p) (termLoop X pe' k p)
  | 0, _ => sims_crash'
  | k + 1, p => by
    have ih := fun q => sims_termLoop k q
    unfold termLoop
    sims

omit hK hQ in
instance [h : Sims K Q Eq pe pe'] {k : Nat} {p : Expr} : Sims K Q Eq (termLoop X pe k p) (termLoop X pe' k p) :=
  sims_termLoop k p

omit hK hQ in
instance [h : Sims K Q Eq pe pe'] : Sims K Q Eq (parseTerm X pe) (parseTerm X pe') := by unfold parseTerm; sims

omit hK hQ in
theorem sims_simpleLoop [h : Sims K Q Eq pe pe'] {τ : Option Ty} : ∀ k (p : Expr),
    Sims K Q Eq (simpleLoop X pe τ k p) (simpleLoop X pe' τ k p)
  | 0, _ => sims_crash'
  | k + 1, p => by
    have ih := fun q => sims_simpleLoop (τ := τ) k q
    unfold simpleLoop
    sims

omit hK hQ in
instance [h : Sims K Q Eq pe pe'] {τ : Option Ty} {k : Nat} {p : Expr} :
    Sims K Q Eq (simpleLoop X pe τ k p) (simpleLoop X pe' τ k p) := sims_simpleLoop k p

omit hK hQ in
instance [h : Sims K Q Eq pe pe'] : Sims K Q Eq (parseSigned pe) (parseSigned pe') := by unfold parseSigned; sims

omit hK hQ in
instance [h : Sims K Q Eq pe pe'] : Sims K Q Eq (parseSimple X pe) (parseSimple X pe') := by unfold parseSimple; sims

omit hK hQ in
instance [h : Sims K Q Eq pe pe'] : Sims K Q Eq (parseRelation X pe) (parseRelation X pe') := by
  unfold parseRelation; sims

omit hK hQ in
theorem sims_logicLoop [h : Sims K Q Eq pe pe'] {kw : String} {op : LogOp} : ∀ k (p : Expr),
    Sims K Q Eq (logicLoop X pe kw op k p) (logicLoop X pe' kw op k p)
  | 0, _ => sims_crash'
  | k + 1, p => by
    have ih := fun q => sims_logicLoop (kw := kw) (op := op) k q
    unfold logicLoop
    sims

omit hK hQ in
instance [h : Sims K Q Eq pe pe'] {kw : String} {op : LogOp} {k : Nat} {p : Expr} :
    Sims K Q Eq (logicLoop X pe kw op k p) (logicLoop X pe' kw op k p) := sims_logicLoop k p

omit hK hQ in
instance [h : Sims K Q Eq pe pe'] : Sims K Q Eq (parseExpression X pe) (parseExpression X pe') := by
  unfold parseExpression; sims

theorem sims_parseExpr : ∀ k (sc sc' : LScope), ScR K sc sc' →
    Sims K Q Eq (parseExpr E X k sc) (parseExpr E' X k sc')
  | 0, _, _, _ => sims_crash'
  | k + 1, sc, sc', hs => by
    have h1 := sims_parsePrimary (X := X) (E := E) (E' := E') hs fun sc sc' h => sims_parseExpr k sc sc' h
    unfold parseExpr
    infer_instance

end Verif.Lemmas.Rename
