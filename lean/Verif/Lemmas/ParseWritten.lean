import Verif.Lemmas.ParseValue
import Verif.Lemmas.Extension
import Verif.Spec.Written
/-! What the parser reads: the tokens consumed, and the value they denote. -/
namespace Verif.Lemmas
open Verif.Model Verif.Spec

variable {α β : Type}

/-- If `x` ends normally, only tokens were consumed, and these tokens, the result and the final
state satisfy `Q`. -/
def Rd (x : P α) (s : PS) (Q : α → List Token → PS → Prop) : Prop :=
  ∀ a s', x s = .ok a s' → Fr s s' ∧ ∃ ts, words s = ts ++ words s' ∧ Q a ts s'

theorem rd_bind {x : P α} {f : α → P β} {s : PS} {Q : β → List Token → PS → Prop}
    (Q1 : α → List Token → PS → Prop) (hx : Rd x s Q1)
    (hf : ∀ a ts s1, Fr s s1 → words s = ts ++ words s1 → Q1 a ts s1 →
      Rd (f a) s1 (fun b ts' s2 => Q b (ts ++ ts') s2)) : Rd (x >>= f) s Q := by
  intro b s2 h
  rw [bind_apply] at h
  cases hxs : x s with
  | err s1 => rw [hxs] at h; cases h
  | crash c s1 => rw [hxs] at h; cases h
  | ok a s1 =>
    rw [hxs] at h
    simp only at h
    obtain ⟨h1, ts, hw, hq⟩ := hx a s1 hxs
    obtain ⟨h3, ts', hw', hq'⟩ := hf a ts s1 h1 hw hq b s2 h
    exact ⟨h1.trans h3, ts ++ ts', by rw [hw, hw', List.append_assoc], hq'⟩

theorem Rd.mono {x : P α} {s : PS} {Q Q' : α → List Token → PS → Prop} (h : Rd x s Q)
    (hq : ∀ a ts s', Fr s s' → Q a ts s' → Q' a ts s') : Rd x s Q' := by
  intro a s' e
  obtain ⟨h0, ts, h1, h2⟩ := h a s' e
  exact ⟨h0, ts, h1, hq _ _ _ h0 h2⟩

/-- with what was read -/
theorem Rd.monow {x : P α} {s : PS} {Q Q' : α → List Token → PS → Prop} (h : Rd x s Q)
    (hq : ∀ a ts s', Fr s s' → words s = ts ++ words s' → Q a ts s' → Q' a ts s') : Rd x s Q' := by
  intro a s' e
  obtain ⟨h0, ts, h1, h2⟩ := h a s' e
  exact ⟨h0, ts, h1, hq _ _ _ h0 h1 h2⟩

theorem rd_pure {a : α} {s : PS} {Q : α → List Token → PS → Prop} (h : Q a [] s) :
    Rd (pure a) s Q := by
  intro a' s' e
  rw [pure_apply] at e
  cases e
  exact ⟨Fr.refl s, [], rfl, h⟩

theorem rd_fail {e : PErr} {s : PS} {Q : α → List Token → PS → Prop} : Rd (P.fail e : P α) s Q := by
  intro a s' h; cases h

theorem rd_crash {c : PCrash} {s : PS} {Q : α → List Token → PS → Prop} :
    Rd (P.crash c : P α) s Q := by
  intro a s' h; cases h

theorem rd_invisible {E : FileEnv} {s : PS} {Q : α → List Token → PS → Prop} :
    Rd (E.invisible : P α) s Q := by
  intro a s' h
  unfold FileEnv.invisible at h
  split at h <;> cases h

theorem rd_get_bind {f : PS → P β} {s : PS} {Q : β → List Token → PS → Prop} (h : Rd (f s) s Q) :
    Rd (P.get >>= f) s Q := h

theorem rd_ite {c : Prop} [Decidable c] {x y : P α} {s : PS} {Q : α → List Token → PS → Prop}
    (hx : c → Rd x s Q) (hy : ¬ c → Rd y s Q) : Rd (if c then x else y) s Q := by
  by_cases h : c
  · rw [if_pos h]; exact hx h
  · rw [if_neg h]; exact hy h

theorem rd_cond {c : Bool} {x y : P α} {s : PS} {Q : α → List Token → PS → Prop}
    (hx : c = true → Rd x s Q) (hy : c = false → Rd y s Q) : Rd (P.cond c x y) s Q := by
  cases c
  · exact hy rfl
  · exact hx rfl

/-- From a rule that does not mention tokens, for a step that reads none. -/
theorem Sp.rd {x : P α} {s : PS} {Q : α → PS → Prop} (h : Sp Fr x s Q)
    (hw : ∀ a s', x s = .ok a s' → words s' = words s) :
    Rd x s (fun a ts s' => ts = [] ∧ Q a s') := by
  intro a s' e
  exact ⟨(h.ok e).1, [], by rw [hw a s' e]; rfl, rfl, (h.ok e).2⟩

theorem advanceLoop_words : ∀ (r : List LexOut) (s s' : PS), advanceLoop s r = .ok () s' →
    words s' = tokensOf r := by
  intro r
  induction r with
  | nil => intro s s' h; cases h; rfl
  | cons x r ih =>
    intro s s' h
    cases x with
    | tok t =>
      simp only [advanceLoop] at h
      split at h
      · next hk => simp only [tokensOf, hk, if_true]; exact ih s s' h
      · next hk => cases h; simp only [tokensOf, hk, if_false]; rfl
    | eof => cases h; rfl
    | error k a b => cases h
    | crash => cases h

theorem advance_rd {s : PS} {t : Token} (hn : s.nt = some t) :
    Rd P.advance s (fun _ ts s' => ts = [t] ∧ s'.toks < s.toks) := by
  intro a s' e
  have h := advance_sp.ok e
  refine ⟨h.1, [t], ?_, rfl, h.2.2 (by rw [hn]; rfl)⟩
  rw [advanceLoop_words _ _ _ e]
  simp [words, hn]

theorem matchK_rd {k : Kind} {s : PS} : Rd (P.matchK k) s
    (fun t ts s' => s.nt = some t ∧ t.kind = k ∧ ts = [t]) := by
  intro a s' e
  have h := matchK_sp.ok e
  refine ⟨h.1, [a], ?_, h.2.1, h.2.2.1, rfl⟩
  rw [matchK_some h.2.1 h.2.2.1, bind_apply] at e
  cases hx : P.advance s with
  | err s1 => rw [hx] at e; cases e
  | crash c s1 => rw [hx] at e; cases e
  | ok u s1 =>
    rw [hx] at e
    simp only [pure_apply, PR.ok.injEq, true_and] at e
    subst e
    obtain ⟨-, ts, h2, rfl, -⟩ := advance_rd h.2.1 _ _ hx
    exact h2

theorem matchKw_rd {v : String} {s : PS} : Rd (P.matchKw v) s
    (fun t ts s' => s.nt = some t ∧ t.kind = .KEYWORD ∧ t.value = .str v.toList ∧ ts = [t]) := by
  intro a s' e
  have h := matchKw_sp.ok e
  refine ⟨h.1, [a], ?_, h.2.1, h.2.2.1, h.2.2.2.1, rfl⟩
  rw [matchKw_some h.2.1 h.2.2.1 h.2.2.2.1, bind_apply] at e
  cases hx : P.advance s with
  | err s1 => rw [hx] at e; cases e
  | crash c s1 => rw [hx] at e; cases e
  | ok u s1 =>
    rw [hx] at e
    simp only [pure_apply, PR.ok.injEq, true_and] at e
    subst e
    obtain ⟨-, ts, h2, rfl, -⟩ := advance_rd h.2.1 _ _ hx
    exact h2

theorem liftSym_rd {r : Except SymErr α} {s : PS} :
    Rd (P.liftSym r) s (fun a ts s' => ts = [] ∧ r = .ok a ∧ s' = s) :=
  liftSym_sp.rd fun a s' e => by rw [(liftSym_sp.ok e).2.2]

theorem scopeLookup_rd {E : FileEnv} {name : List Char} {sub : Option (Ent → Bool)} {s : PS} :
    Rd (P.scopeLookup E name sub) s
      (fun e ts s' => ts = [] ∧ (s.scope E).lookup name sub = some (.ok e) ∧ s' = s) :=
  scopeLookup_sp.rd fun a s' e => by rw [(scopeLookup_sp.ok e).2.2]

/-! ## Names -/

theorem lookup_sub {T : STab} {n : List Char} {sub : Ent → Bool} {e : Ent}
    (h : T.lookup n (some sub) = .ok e) : T.lookup n none = .ok e ∧ sub e = true := by
  unfold STab.lookup STab.lookupDirect at h ⊢
  split at h
  · split at h
    · cases h
    · split at h
      · cases h
      · next h1 h2 =>
        cases h
        simp only [h1]
        exact ⟨rfl, by simpa using h2⟩
  · cases h

theorem scope_means {s : PS} {E : FileEnv} {n : List Char} {e : Ent}
    (h : (s.scope E).lookup n none = some (.ok e)) : Means E (namesOf s) n e := by
  unfold Scope.lookup PS.scope at h
  simp only [List.reverse_cons, List.reverse_nil, List.nil_append] at h
  unfold Means
  have ht : (namesOf s).tab E.pkg = s.tab E.pkg := rfl
  rw [ht]
  by_cases hc : (s.tab E.pkg).contains n = true
  · simp only [hc, List.find?_cons, if_true] at h ⊢
    injection h
  · simp only [Bool.not_eq_true] at hc
    simp only [hc, List.find?_cons, List.find?_nil] at h
    simp only [hc]
    injection h

theorem scope_sub {s : PS} {E : FileEnv} {n : List Char} {sub : Ent → Bool} {e : Ent}
    (h : (s.scope E).lookup n (some sub) = some (.ok e)) :
    (s.scope E).lookup n none = some (.ok e) ∧ sub e = true := by
  unfold Scope.lookup PS.scope at h ⊢
  simp only at h ⊢
  split at h <;> injection h with h
  · have := lookup_sub h; exact ⟨by rw [this.1], this.2⟩
  · have := lookup_sub h; exact ⟨by rw [this.1], this.2⟩

theorem isVisible_iff {E : FileEnv} {p : Nat} : E.isVisible p = true ↔ Usable E p := by
  simp [FileEnv.isVisible, Usable]

theorem namesOf_fr {s s' : PS} (h : Fr s s') : namesOf s' = namesOf s := by
  unfold namesOf; rw [h.tabs, h.decls, h.seps, h.objs]

theorem words_head (s : PS) : (words s).head? = s.nt := by
  unfold words
  cases s.nt <;> rfl

/-- the next token, in terms of the tokens read afterwards -/
theorem nt_follow {s s' : PS} {ts : List Token} (h : words s = ts ++ words s') : s.nt = follow ts s'.nt := by
  rw [← words_head s, ← words_head s', h, List.head?_append]
  rfl

theorem parseQualifiedName_rd {E : FileEnv} {sub : Ent → Bool} {s : PS} :
    Rd (parseQualifiedName E sub) s (fun e ts _ => NameOf E (namesOf s) ts e ∧ sub e = true) := by
  unfold parseQualifiedName
  refine rd_bind _ matchK_rd ?_
  rintro t _ s1 h1 - ⟨-, hk, rfl⟩
  refine rd_bind _ scopeLookup_rd ?_
  rintro sym _ s2 h2 - ⟨rfl, hsym, rfl⟩
  rw [← namesOf_fr h1]
  refine rd_ite (fun hc => ?_) (fun hc => ?_)
  · refine rd_ite (fun _ => rd_invisible) (fun hv => ?_)
    refine rd_bind _ matchK_rd ?_
    rintro d _ s3 h3 - ⟨-, hk3, rfl⟩
    refine rd_bind _ matchK_rd ?_
    rintro t' _ s4 h4 - ⟨-, hk4, rfl⟩
    refine rd_get_bind ?_
    refine liftSym_rd.mono ?_
    rintro e _ s5 - ⟨rfl, he, rfl⟩
    obtain ⟨he, hsub⟩ := lookup_sub he
    refine ⟨.inr ⟨t, d, t', sym, rfl, hk, hk3, hk4, scope_means hsym, hc, ?_, ?_⟩, hsub⟩
    · rw [← isVisible_iff]; simpa using hv
    · have : (namesOf s2).tab sym.id = s5.tab sym.id := by
        rw [← namesOf_fr (h3.trans h4)]; rfl
      rw [this]; exact he
  · refine scopeLookup_rd.mono ?_
    rintro e _ s3 - ⟨rfl, he, rfl⟩
    obtain ⟨he, hsub⟩ := scope_sub he
    rw [hsym] at he
    injection he with he
    injection he with he
    subst he
    exact ⟨.inl ⟨t, rfl, hk, scope_means hsym, hc⟩, hsub⟩

theorem lookup_of_contains {T : STab} {n : List Char} {sub : Ent → Bool} {e : Ent}
    (h : T.lookup n none = .ok e) (hs : sub e = true) : T.lookup n (some sub) = .ok e := by
  unfold STab.lookup STab.lookupDirect at h ⊢
  split at h
  · split at h
    · cases h
    · next h1 =>
      simp only [Option.any_none, Bool.false_eq_true, if_false, Except.ok.injEq] at h
      subst h
      simp only [Bool.not_false, Bool.true_and, ne_eq, decide_not, Bool.not_eq_true', decide_eq_false_iff_not,
        Decidable.not_not] at h1
      simp [h1, hs]
  · cases h

/-- whether a reference to something that is declared is accepted -/
theorem resolveRef_may {s : PS} (wf : WFDecls s.decls) {τ : Ty} {p : Nat} {n : List Char} :
    (∃ i, s.resolveRef τ p n = .ok i) ↔ ∃ e t, ((namesOf s).tab p).lookup n none = .ok e ∧
      e.cls = clsObject ∧ (namesOf s).otyps[e.id]? = some t ∧ Referable s.decls t τ := by
  have htab : (namesOf s).tab p = s.tab p := rfl
  have hot : ∀ i : Nat, (namesOf s).otyps[i]? = (s.objs[i]?).map (·.typ) := fun i => by simp [namesOf]
  rw [htab]
  simp only [hot]
  have hcomp : ∀ ms t, s.decls.isCompatible ms t = true ↔ ∃ m ∈ ms, Extends s.decls t m := by
    intro ms t
    simp only [Decls.isCompatible, List.any_eq_true, isSubclassOf_iff wf]
  constructor
  · rintro ⟨i, h⟩
    unfold PS.resolveRef at h
    split at h
    · cases h
    · next e he =>
      obtain ⟨he', hc⟩ := lookup_sub he
      have hc : e.cls = clsObject := by simpa using hc
      split at h
      · cases h
      · next o ho =>
        refine ⟨e, o.typ, he', hc, by rw [ho]; rfl, ?_⟩
        split at h
        · split at h
          · next hm => exact (hcomp _ _).1 hm
          · cases h
        · split at h
          · next hm => exact (isSubclassOf_iff wf _ _).1 hm
          · cases h
        · cases h
  · rintro ⟨e, t, he, hc, ht, hr⟩
    have hl : (s.tab p).lookupDirect n (some fun e => e.cls = clsObject) false = .ok e :=
      lookup_of_contains he (by simpa using hc)
    unfold PS.resolveRef
    rw [hl]
    cases ho : s.objs[e.id]? with
    | none => rw [ho] at ht; cases ht
    | some o =>
      rw [ho] at ht
      simp only [Option.map_some, Option.some.injEq] at ht
      subst ht
      simp only [ho]
      cases τ with
      | union id ms => exact ⟨e.id, if_pos ((hcomp _ _).2 hr)⟩
      | record r => exact ⟨e.id, if_pos ((isSubclassOf_iff wf _ _).2 hr)⟩
      | _ => exact hr.elim

theorem parseReference_rd {E : FileEnv} {τ : Ty}
    (hτ : (∃ r, τ = .record r) ∨ ∃ id ms, τ = .union id ms) {s : PS} (wf : WFDecls s.decls) :
    Rd (parseReference E τ) s (fun v ts s' => Written E (namesOf s) v τ ts s'.nt) := by
  unfold parseReference
  refine rd_bind _ matchK_rd ?_
  rintro t _ s1 h1 - ⟨-, hk, rfl⟩
  refine rd_get_bind ?_
  refine rd_bind (fun pn ts s' => RefOf E ([t] ++ ts) pn.1 pn.2 ∧
    (([t] ++ ts).length = 1 → ∀ d, s'.nt = some d → d.kind ≠ .DOT)) ?_ ?_
  · refine rd_cond (fun _ => ?_) (fun hd => rd_pure ⟨.inl ⟨t, rfl, hk, rfl, rfl⟩, ?_⟩)
    · refine rd_bind _ matchK_rd ?_
      rintro d _ s2 h2 - ⟨-, hk2, rfl⟩
      refine rd_bind _ matchK_rd ?_
      rintro t' _ s3 h3 - ⟨-, hk3, rfl⟩
      refine rd_bind _ liftSym_rd ?_
      rintro e _ s4 - - ⟨rfl, he, rfl⟩
      refine rd_ite (fun _ => rd_invisible) (fun hv => rd_pure ⟨?_, by simp⟩)
      obtain ⟨he, hc⟩ := lookup_sub he
      refine .inr ⟨t, d, t', e, rfl, hk, hk2, hk3, he, by simpa using hc, ?_, rfl, rfl⟩
      rw [← isVisible_iff]; simpa using hv
    · intro _ d hn hkd
      simp [PS.peek, hn, hkd] at hd
  · rintro ⟨p, name⟩ ts s2 h2 - ⟨hr, hdot⟩
    refine rd_get_bind ?_
    have hN : namesOf s2 = namesOf s := namesOf_fr (h1.trans h2)
    have wf2 : WFDecls s2.decls := by rw [(h1.trans h2).decls]; exact wf
    have fin : MayRefer (namesOf s2) τ p name →
        Written E (namesOf s) (.ref τ p name) τ ([t] ++ (ts ++ [])) s2.nt := by
      intro hm
      rw [hN] at hm
      simp only [Written, List.append_nil]
      exact ⟨trivial, hτ, hr, hdot, hm⟩
    refine rd_ite (fun _ => ?_) (fun hc => rd_pure (fin fun h => absurd h hc))
    cases hres : s2.resolveRef τ p name with
    | ok i => exact rd_pure (fin fun _ => (resolveRef_may wf2).1 ⟨i, hres⟩)
    | error e => exact rd_fail

theorem parseEnum_rd {E : FileEnv} {t : Nat} {s : PS} :
    Rd (parseEnum E t) s (fun v ts s' => Written E (namesOf s) v (.enum t) ts s'.nt) := by
  unfold parseEnum
  refine rd_bind _ parseQualifiedName_rd ?_
  rintro e n s1 h1 - ⟨hn, hc⟩
  refine rd_ite (fun _ => rd_fail) (fun hid => ?_)
  refine rd_bind _ matchK_rd ?_
  rintro d _ s2 h2 - ⟨-, hk2, rfl⟩
  refine rd_bind _ matchK_rd ?_
  rintro tok _ s3 h3 - ⟨-, hk3, rfl⟩
  refine rd_get_bind ?_
  refine rd_ite (fun hl => rd_pure ?_) (fun _ => rd_fail)
  simp only [Written]
  refine ⟨trivial, n, d, tok, e, by simp, hn, by simpa using hc, by simpa using hid, hk2, hk3, rfl, ?_⟩
  have hd : (namesOf s).decls = s3.decls := by
    rw [← namesOf_fr (h1.trans (h2.trans h3))]; rfl
  rw [hd]
  simpa using hl

theorem parseBoolean_rd {E : FileEnv} {N : Names} {s : PS} :
    Rd parseBoolean s (fun v ts s' => Written E N v .bool ts s'.nt) := by
  unfold parseBoolean
  refine rd_bind _ matchK_rd ?_
  rintro t _ s1 h1 - ⟨-, hk, rfl⟩
  refine rd_ite (fun h => rd_pure ?_) (fun _ => rd_ite (fun h => rd_pure ?_) (fun _ => rd_fail))
  · exact ⟨rfl, t, rfl, hk, h⟩
  · exact ⟨rfl, t, rfl, hk, h⟩

theorem parseMarkup_rd {E : FileEnv} {N : Names} {s : PS} :
    Rd (parseMarkup E) s (fun v ts s' => Written E N v .markup ts s'.nt) := by
  unfold parseMarkup
  refine rd_bind _ matchK_rd ?_
  rintro t _ s1 h1 - ⟨-, hk, rfl⟩
  cases hm : E.markup t with
  | ok refs => exact rd_pure ⟨rfl, t, rfl, hk, rfl, hm⟩
  | error => exact rd_fail
  | crash => exact rd_crash

theorem parseNumber_rd {E : FileEnv} {N : Names} {isDec : Bool} {s : PS} :
    Rd (parseNumber isDec) s
      (fun v ts s' => Written E N v (if isDec then .dec else .int) ts s'.nt) := by
  unfold parseNumber
  refine rd_get_bind ?_
  refine rd_bind (fun sign ts _ => match sign with
      | none => ts = []
      | some op => ∃ t, ts = [t] ∧ t.kind = .OPERATOR ∧ t.text = op ∧ (op = ['+'] ∨ op = ['-'])) ?_ ?_
  · refine rd_cond (fun hc => ?_) (fun _ => rd_pure rfl)
    refine rd_bind _ matchK_rd ?_
    rintro t _ s1 h1 - ⟨hn, hk, rfl⟩
    rw [hn] at hc
    simp only [Option.any_some, decide_eq_true_eq] at hc
    exact rd_pure ⟨t, rfl, hk, rfl, hc.2⟩
  · rintro sign ts0 s1 h1 - hsign
    refine rd_bind (fun lit ts s' => Written E N lit (if isDec then .dec else .int) ts s'.nt ∧
      ((∃ n, lit = .int n) ∨ ∃ q, lit = .dec q)) ?_ ?_
    · refine rd_cond (fun hd => ?_) (fun hd => ?_)
      · subst hd
        refine rd_bind _ matchK_rd ?_
        rintro t _ s2 h2 - ⟨-, hk, rfl⟩
        cases hv : t.value with
        | frac q => exact rd_pure ⟨⟨rfl, t, rfl, hk, hv⟩, .inr ⟨q, rfl⟩⟩
        | _ => exact rd_crash
      · subst hd
        refine rd_bind _ matchK_rd ?_
        rintro t _ s2 h2 - ⟨-, hk, rfl⟩
        cases hv : t.value with
        | int n => exact rd_pure ⟨⟨rfl, t, n, rfl, hk, hv, rfl⟩, .inl ⟨n, rfl⟩⟩
        | _ => exact rd_crash
    · rintro lit ts1 s2 h2 - ⟨hl, hlit⟩
      have hτ : (if isDec then Ty.dec else .int) = .int ∨ (if isDec then Ty.dec else .int) = .dec := by
        cases isDec <;> simp
      cases sign with
      | none =>
        simp only at hsign
        subst hsign
        exact rd_pure (by simpa using hl)
      | some op =>
        obtain ⟨t, rfl, hk, ht, ho⟩ := hsign
        refine rd_pure ?_
        by_cases hp : op = ['+']
        · simp only [hp, if_true, Written]
          exact ⟨t, ts1, by simp, ⟨hk, by rw [ht, hp]⟩, hτ, hl, hlit⟩
        · have hm : op = ['-'] := by rcases ho with h | h; exact absurd h hp; exact h
          simp only [hp, if_false, Written]
          exact ⟨t, ts1, by simp, ⟨hk, by rw [ht, hm]⟩, hτ, hl, hlit⟩

/-! ## Arrays -/

/-- What is proved about the parser of a type: it reads the tokens of a value of this type. -/
def Reads (E : FileEnv) (N : Names) (pv : P PVal) (τ : Ty) (s0 : PS) : Prop :=
  ∀ s, Fr s0 s → Rd pv s (fun v ts s' => s'.errs = s.errs → Written E N v τ ts s'.nt)

theorem report_rd {e : PErr} {s : PS} :
    Rd (P.report e) s (fun _ ts s' => ts = [] ∧ s'.errs = s.errs ++ [e]) := by
  intro a s' h
  cases h
  exact ⟨(sp_report (Q := fun _ _ => True) trivial).1, [], rfl, rfl, rfl⟩

theorem errs_ne {s s' : PS} {e : PErr} (h : ∃ l, s'.errs = (s.errs ++ [e]) ++ l) :
    s'.errs ≠ s.errs := by
  obtain ⟨l, h⟩ := h
  intro h'
  rw [h'] at h
  have := congrArg List.length h
  simp only [List.length_append, List.length_singleton] at this
  omega

theorem arrayLoop_rd {E : FileEnv} {N : Names} {pv : P PVal} {τ : Ty} {s0 : PS}
    (hpv : Reads E N pv τ s0) :
    ∀ (k : Nat) (acc : List PVal) (s : PS), Fr s0 s →
      Rd (arrayLoop pv k acc) s (fun es ts s' => s'.errs = s.errs →
        ∃ es', es = acc ++ es' ∧ WrittenElems E N es' τ ts s'.nt) := by
  intro k
  induction k with
  | zero => intro acc s _; exact rd_crash
  | succ k ih =>
    intro acc s hs
    unfold arrayLoop
    refine rd_get_bind ?_
    refine rd_ite (fun _ => rd_pure fun _ => ⟨[], by simp, rfl⟩) (fun _ => ?_)
    refine rd_bind _ (hpv s hs) ?_
    intro v a s1 h1 _ hv
    refine rd_get_bind ?_
    refine rd_ite (fun _ => ?_) (fun _ => rd_ite (fun _ => ?_) (fun _ => ?_))
    · refine rd_bind _ matchK_rd ?_
      rintro c _ s2 h2 hw2 ⟨-, hc, rfl⟩
      refine (ih (acc ++ [v]) s2 (hs.trans (h1.trans h2))).monow ?_
      intro es ts s3 h3 hw3 hes he
      have hnx : s1.nt = follow ([c] ++ ts) s3.nt := nt_follow (by rw [hw2, hw3, List.append_assoc])
      have e1 := errs_mid h1 (h2.trans h3) he
      obtain ⟨es', rfl, hw⟩ := hes (errs_mid h2 h3 e1.2).2
      refine ⟨v :: es', by simp, a, [c] ++ ts, by simp, hnx ▸ hv e1.1, ?_⟩
      by_cases hn : es' = []
      · subst hn
        simp only [WrittenElems] at hw
        subst hw
        exact .inl ⟨rfl, .inr ⟨c, rfl, hc⟩⟩
      · exact .inr ⟨hn, c, ts, rfl, hc, hw⟩
    · exact rd_pure fun he => ⟨[v], rfl, a, [], rfl, hv he, .inl ⟨rfl, .inl rfl⟩⟩
    · refine rd_bind _ report_rd ?_
      rintro _ _ s2 h2 - ⟨rfl, he2⟩
      refine (ih (acc ++ [v]) s2 (hs.trans (h1.trans h2))).mono ?_
      intro es ts s3 h3 _ he
      have e1 := errs_mid h1 (h2.trans h3) he
      obtain ⟨l, hl⟩ := h3.errs
      exact absurd e1.2 (errs_ne ⟨l, by rw [← he2]; exact hl⟩)

theorem cond_report_rd {c : Bool} {e : PErr} {s : PS} :
    Rd (P.cond c (P.report e) (pure ())) s
      (fun _ ts s' => ts = [] ∧ (s'.errs = s.errs → c = false)) :=
  rd_cond (fun _ => report_rd.mono fun _ _ _ _ h => ⟨h.1, fun e => by rw [h.2] at e; simp at e⟩)
    (fun h => rd_pure ⟨rfl, fun _ => h⟩)

theorem parseArray_rd {E : FileEnv} {N : Names} {pv : P PVal} {id : Nat} {elem : Ty} {lo : Nat}
    {hi : Option Nat} {s0 s : PS} (hpv : Reads E N pv elem s0) (hs : Fr s0 s) :
    Rd (parseArray pv (.arr id elem lo hi) lo hi) s
      (fun v ts s' => s'.errs = s.errs → Written E N v (.arr id elem lo hi) ts s'.nt) := by
  unfold parseArray
  refine rd_bind _ matchK_rd ?_
  rintro a _ s1 h1 - ⟨-, ha, rfl⟩
  refine rd_get_bind ?_
  refine rd_bind _ (arrayLoop_rd hpv _ [] s1 (hs.trans h1)) ?_
  intro es r s2 h2 _ hes
  refine rd_bind _ matchK_rd ?_
  rintro b _ s3 h3 - ⟨hnb, hb, rfl⟩
  rw [hnb] at hes
  refine rd_bind _ cond_report_rd ?_
  rintro _ _ s4 h4 - ⟨rfl, hlo⟩
  refine rd_bind _ cond_report_rd ?_
  rintro _ _ s5 h5 - ⟨rfl, hhi⟩
  refine rd_pure fun he => ?_
  have e1 := errs_mid h1 (h2.trans (h3.trans (h4.trans h5))) he
  have e2 := errs_mid h2 (h3.trans (h4.trans h5)) e1.2
  obtain ⟨es', rfl, hw⟩ := hes e2.1
  simp only [Written]
  have e3 := errs_mid h3 (h4.trans h5) e2.2
  have e4 := errs_mid h4 h5 e3.2
  have hlo := hlo e4.1
  have hhi := hhi e4.2
  refine ⟨trivial, id, elem, lo, hi, a, r, b, rfl, by simp, ha, hb, by simpa using hw, ?_, ?_⟩
  · simp only [decide_eq_false_iff_not] at hlo
    omega
  · intro x hx
    subst hx
    simp only [Option.any_some, decide_eq_false_iff_not] at hhi
    by_cases h0 : x = 0
    · exact .inl ⟨rfl, h0⟩
    · exact .inr (by omega)

/-! ## Tuples -/

/-- What is proved about the value parser, for types of the components of a tuple. -/
def ReadsAll (E : FileEnv) (N : Names) (pv : Ty → P PVal) (cs : List Comp) (s0 : PS) : Prop :=
  ∀ c ∈ cs, Reads E N (pv c.ty) c.ty s0

theorem plainLoop_rd {E : FileEnv} {N : Names} {pv : Ty → P PVal} {s0 : PS} :
    ∀ (ds : List Comp), ReadsAll E N pv ds s0 →
    ∀ (first : Bool) (fs : List (String × PVal)) (cs : List Comp) (s : PS), Fr s0 s →
      fs.map Prod.fst = cs.map (·.name) → ((cs ++ ds).map (·.name)).Nodup →
      Rd (plainLoop pv first ds (fs ++ emptyTuple ds)) s
        (fun d ts s' => s'.errs = s.errs →
          ∃ gs, d = fs ++ gs ∧ WrittenPlain E N gs ds first ts s'.nt) := by
  intro ds
  induction ds with
  | nil =>
    intro _ first fs cs s _ hf _
    simp only [plainLoop, emptyTuple, List.map_nil, List.append_nil]
    exact rd_pure fun _ => ⟨[], by simp, rfl⟩
  | cons c ds ih =>
    intro hp first fs cs s hs hf hn
    unfold plainLoop
    refine rd_bind (fun _ k _ => if first then k = [] else ∃ x, k = [x] ∧ Comma x) ?_ ?_
    · refine rd_cond (fun h => rd_pure (by simp [h])) (fun h => ?_)
      refine rd_bind _ matchK_rd ?_
      rintro x _ s1 h1 - ⟨-, hx, rfl⟩
      exact rd_pure (by simp only [h]; exact ⟨x, rfl, hx⟩)
    · intro _ k s1 h1 _ hk
      refine rd_bind _ (hp c (by simp) s1 (hs.trans h1)) ?_
      intro v a s2 h2 _ hv
      rw [set_next' hf hn]
      refine (ih (fun c' hc' => hp c' (by simp [hc'])) false (fs ++ [(c.name, v)]) (cs ++ [c]) s2
        (hs.trans (h1.trans h2)) (by simp [hf]) (by simpa using hn)).monow ?_
      intro d ts s3 h3 hw3 hd he
      have e1 := errs_mid h1 (h2.trans h3) he
      have e2 := errs_mid h2 h3 e1.2
      obtain ⟨gs, rfl, hw⟩ := hd e2.2
      exact ⟨(c.name, v) :: gs, by simp, k, a, ts, by simp, hk, ⟨rfl, nt_follow hw3 ▸ hv e2.1⟩, hw⟩

theorem absent_empty (ds : List Comp) : Absent (emptyTuple ds) ds := by
  induction ds with
  | nil => trivial
  | cons c ds ih => exact ⟨rfl, rfl, ih⟩

theorem peekSep_tok {sp : Sep} {s : PS} {t : Token} (hp : s.peekSep sp = true) (hn : s.nt = some t) :
    SepTok sp t := by
  cases sp with
  | kind k => simpa [PS.peekSep, PS.peek, hn, SepTok] using hp
  | ident v => simpa [PS.peekSep, hn, SepTok] using hp

theorem peekSep_of {sp : Sep} {s : PS} {t : Token} (hn : s.nt = some t) (hp : SepTok sp t) :
    s.peekSep sp = true := by
  cases sp with
  | kind k => simpa [PS.peekSep, PS.peek, hn, SepTok] using hp
  | ident v => simpa [PS.peekSep, hn, SepTok] using hp

theorem matchSep_rd {sp : Sep} {s : PS} (hp : s.peekSep sp = true) :
    Rd (P.matchSep sp) s (fun _ ts _ => ∃ t, ts = [t] ∧ SepTok sp t) := by
  cases sp <;> exact matchK_rd.mono fun t ts s' _ h => ⟨t, h.2.2, peekSep_tok hp h.1⟩

theorem sepLoop_rd {E : FileEnv} {N : Names} {pv : Ty → P PVal} {s0 : PS} :
    ∀ (ds : List Comp), ReadsAll E N pv ds s0 →
    ∀ (seps : List Sep) (opt : Bool) (fs : List (String × PVal)) (cs : List Comp) (s : PS),
      Fr s0 s → fs.map Prod.fst = cs.map (·.name) → ((cs ++ ds).map (·.name)).Nodup →
      Rd (sepLoop pv (iterSequence ds seps) opt (fs ++ emptyTuple ds)) s
        (fun d ts s' => s'.errs = s.errs →
          ∃ gs, d = fs ++ gs ∧ WrittenSep E N gs ds seps opt ts s'.nt) := by
  intro ds
  induction ds with
  | nil =>
    intro _ seps opt fs cs s _ hf _
    cases seps <;> simp only [iterSequence, sepLoop, emptyTuple, List.map_nil, List.append_nil] <;>
      exact rd_pure fun _ => ⟨[], by simp, rfl⟩
  | cons c ds ih =>
    intro hp seps opt fs cs s hs hf hn
    have hp' : ReadsAll E N pv ds s0 := fun c' hc' => hp c' (by simp [hc'])
    have rest : ∀ (seps : List Sep) (o : Bool) (v : PVal) (s2 : PS), Fr s0 s2 →
        Rd (sepLoop pv (iterSequence ds seps) o ((fs ++ [(c.name, v)]) ++ emptyTuple ds)) s2
          (fun d ts s' => s'.errs = s2.errs →
            ∃ gs, d = (fs ++ [(c.name, v)]) ++ gs ∧ WrittenSep E N gs ds seps o ts s'.nt) :=
      fun seps o v s2 h2 => ih hp' seps o _ (cs ++ [c]) s2 h2 (by simp [hf]) (by simpa using hn)
    have stop : ∀ seps, (opt && c.optional) = true → ∃ gs,
        fs ++ emptyTuple (c :: ds) = fs ++ gs ∧ WrittenSep E N gs (c :: ds) seps opt [] s.nt := by
      intro seps h
      simp only [Bool.and_eq_true] at h
      exact ⟨_, rfl, .inl ⟨h.1, h.2, rfl, absent_empty (c :: ds)⟩⟩
    have hopt : ¬ (opt && c.optional) = true → opt = true → c.optional = false := by
      intro h ho
      simpa [ho] using h
    cases seps with
    | nil =>
      simp only [iterSequence]
      unfold sepLoop
      refine rd_ite (fun hb => rd_pure fun _ => stop [] hb) (fun hb => ?_)
      refine rd_bind _ (hp c (by simp) s hs) ?_
      intro v a s2 h2 _ hv
      rw [set_next' hf hn]
      refine (rest [] opt v s2 (hs.trans h2)).monow ?_
      intro d ts s3 h3 hw3 hd he
      have e := errs_mid h2 h3 he
      obtain ⟨gs, rfl, hw⟩ := hd e.2
      exact ⟨(c.name, v) :: gs, by simp, .inr ⟨hopt hb, a, ts, rfl, ⟨rfl, nt_follow hw3 ▸ hv e.1⟩, hw⟩⟩
    | cons sp seps =>
      simp only [iterSequence]
      unfold sepLoop
      refine rd_ite (fun hb => rd_pure fun _ => stop _ hb) (fun hb => ?_)
      refine rd_bind _ (hp c (by simp) s hs) ?_
      intro v a s2 h2 _ hv
      rw [set_next' hf hn]
      unfold sepLoop
      refine rd_get_bind ?_
      refine rd_ite (fun hps => ?_) (fun hps => ?_)
      · refine rd_bind _ (matchSep_rd hps) ?_
        rintro _ _ s3 h3 hw3 ⟨x, rfl, hx⟩
        refine (rest seps opt v s3 (hs.trans (h2.trans h3))).monow ?_
        intro d ts s4 h4 hw4 hd he
        have hnx : s2.nt = follow ([x] ++ ts) s4.nt := nt_follow (by rw [hw3, hw4, List.append_assoc])
        have e := errs_mid h2 (h3.trans h4) he
        obtain ⟨gs, rfl, hw⟩ := hd (errs_mid h3 h4 e.2).2
        exact ⟨(c.name, v) :: gs, by simp,
          .inr ⟨hopt hb, a, [x] ++ ts, rfl, ⟨rfl, hnx ▸ hv e.1⟩, .inl ⟨x, ts, rfl, hx, hw⟩⟩⟩
      · refine (rest seps true v s2 (hs.trans h2)).monow ?_
        intro d ts s4 h4 hw4 hd he
        have e := errs_mid h2 h4 he
        obtain ⟨gs, rfl, hw⟩ := hd e.2
        refine ⟨(c.name, v) :: gs, by simp,
          .inr ⟨hopt hb, a, ts, rfl, ⟨rfl, nt_follow hw4 ▸ hv e.1⟩, .inr ⟨?_, hw⟩⟩⟩
        intro x hx hsx
        rw [← nt_follow hw4] at hx
        exact hps (peekSep_of hx hsx)

/-- `parse_value` reads exactly the tokens that denote the value it returns, unless it reports
an error. -/
theorem parseValue_rd {E : FileEnv} {D : Decls} (wf : WFDecls D) (htup : TuplesOk D) :
    ∀ (n : Nat) (τ : Ty), TyOk D τ → ∀ s0 : PS, s0.decls = D →
      Reads E (namesOf s0) (parseValue E n τ) τ s0 := by
  intro n
  induction n with
  | zero => intro τ _ s0 _ s _; exact rd_crash
  | succ n ih =>
    intro τ hok s0 hD s hs
    have hsD : s.decls = D := by rw [hs.decls, hD]
    have hN : namesOf s0 = namesOf s := (namesOf_fr hs).symm
    cases τ with
    | bool => exact parseBoolean_rd.mono fun _ _ _ _ h _ => h
    | int => exact (parseNumber_rd (isDec := false)).mono fun _ _ _ _ h _ => h
    | dec => exact (parseNumber_rd (isDec := true)).mono fun _ _ _ _ h _ => h
    | str =>
      unfold parseValue
      refine rd_bind _ matchK_rd ?_
      rintro t _ s1 h1 - ⟨-, hk, rfl⟩
      exact rd_pure fun _ => ⟨rfl, t, rfl, hk, rfl⟩
    | markup => exact parseMarkup_rd.mono fun _ _ _ _ h _ => h
    | enum t => rw [hN]; exact parseEnum_rd.mono fun _ _ _ _ h _ => h
    | record t =>
      rw [hN]
      exact (parseReference_rd (.inl ⟨t, rfl⟩) (by rw [hsD]; exact wf)).mono fun _ _ _ _ h _ => h
    | union id ms =>
      rw [hN]
      exact (parseReference_rd (.inr ⟨id, ms, rfl⟩) (by rw [hsD]; exact wf)).mono fun _ _ _ _ h _ => h
    | arr id elem lo hi =>
      unfold parseValue
      exact parseArray_rd (ih elem hok s0 hD) hs
    | tup t =>
      unfold parseValue
      refine rd_get_bind ?_
      simp only
      have ht : t < D.tups.length := hok
      obtain ⟨cs, hcs⟩ : ∃ cs, D.tups[t]? = some cs := ⟨_, List.getElem?_eq_getElem ht⟩
      have hw := htup t cs hcs
      have hfields : s.decls.fields t = cs := by rw [hsD]; simp [Decls.fields, hcs]
      have hNd : (namesOf s0).decls.tups[t]? = some cs := by
        show s0.decls.tups[t]? = _
        rw [hD, hcs]
      have hNs : (namesOf s0).seps[t]? = s.seps[t]? := by rw [hN]; rfl
      rw [hfields]
      have hall : ReadsAll E (namesOf s0) (parseValue E n) cs s0 :=
        fun c hc => ih c.ty (hw.types c hc) s0 hD
      refine rd_ite (fun hsep => ?_) (fun hsep => ?_)
      · unfold parseSepTuple
        refine rd_get_bind ?_
        refine rd_ite (fun _ => rd_crash) (fun _ => ?_)
        have h := sepLoop_rd cs hall ((s.seps[t]?).getD []) false [] [] s hs rfl
          (by simpa using hw.names)
        refine rd_bind _ h ?_
        intro d ts s1 h1 _ hd
        refine rd_pure fun he => ?_
        obtain ⟨gs, rfl, hg⟩ := hd he
        simp only [Written]
        refine ⟨trivial, cs, hNd, .inl ⟨(s.seps[t]?).getD [], ?_, hsep, by simpa using hg⟩⟩
        rw [hNs]
        cases hx : s.seps[t]? with
        | none => rw [hx] at hsep; simp at hsep
        | some x => rfl
      · unfold parsePlainTuple
        refine rd_bind _ matchK_rd ?_
        rintro a _ s1 h1 - ⟨-, ha, rfl⟩
        refine rd_bind _ (plainLoop_rd cs hall true [] [] s1 (hs.trans h1) rfl
          (by simpa using hw.names)) ?_
        intro d ts s2 h2 _ hd
        refine rd_bind _ matchK_rd ?_
        rintro b _ s3 h3 - ⟨hnb, hb, rfl⟩
        rw [hnb] at hd
        refine rd_pure fun he => ?_
        have e1 := errs_mid h1 (h2.trans h3) he
        obtain ⟨gs, rfl, hg⟩ := hd (errs_mid h2 h3 e1.2).1
        simp only [Written]
        refine ⟨trivial, cs, hNd, .inr ⟨?_, a, ts, b, by simp, ha, hb, by simpa using hg⟩⟩
        rw [hNs]
        simpa using hsep

end Verif.Lemmas
