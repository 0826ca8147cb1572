import Verif.Lemmas.ExprComplete
/-! Names and values that are written as the grammar says are accepted. -/
namespace Verif.Lemmas
open Verif.Model Verif.Spec

theorem means_scope {s : PS} {E : FileEnv} {n : List Char} {e : Ent}
    (h : Means E (namesOf s) n e) : (s.scope E).lookup n none = some (.ok e) := by
  unfold Means at h
  unfold Scope.lookup PS.scope
  simp only [List.reverse_cons, List.reverse_nil, List.nil_append]
  have ht : (namesOf s).tab E.pkg = s.tab E.pkg := rfl
  rw [ht] at h
  by_cases hc : (s.tab E.pkg).contains n = true
  · simp only [hc, if_true] at h
    simp only [List.singleton_append, List.find?_cons, hc, h]
  · simp only [hc] at h
    simp only [Bool.not_eq_true] at hc
    simp only [List.singleton_append, List.find?_cons, hc]
    simpa using h

theorem scope_of_sub {s : PS} {E : FileEnv} {n : List Char} {sub : Ent → Bool} {e : Ent}
    (h : (s.scope E).lookup n none = some (.ok e)) (hs : sub e = true) :
    (s.scope E).lookup n (some sub) = some (.ok e) := by
  unfold Scope.lookup PS.scope at h ⊢
  simp only at h ⊢
  split at h <;> injection h with h
  · rw [lookup_of_contains h hs]
  · rw [lookup_of_contains h hs]

theorem scopeLookup_ok {E : FileEnv} {s : PS} {n : List Char} {sub : Option (Ent → Bool)} {e : Ent}
    (h : (s.scope E).lookup n sub = some (.ok e)) : P.scopeLookup E n sub s = .ok e s := by
  unfold P.scopeLookup
  rw [get_bind_apply, h]
  rfl

theorem parseQualifiedName_acc {E : FileEnv} {sub : Ent → Bool} {s s' : PS} {ts : List Token} {e : Ent}
    (h : NameOf E (namesOf s) ts e) (hs : sub e = true) (hst : Steps s ts s') :
    parseQualifiedName E sub s = .ok e s' := by
  unfold parseQualifiedName
  rcases h with ⟨t, rfl, hk, hm, hc⟩ | ⟨t, d, t', p, rfl, hk, hd, hk', hm, hc, hu, hl⟩
  · rw [bind_ok (matchK_ok hst hk)]
    rw [← hst.names] at hm
    have hm := means_scope hm
    rw [bind_ok (scopeLookup_ok hm), if_neg hc]
    exact scopeLookup_ok (scope_of_sub hm hs)
  · obtain ⟨s1, h1, h2⟩ := Steps.split (a := [t]) hst
    obtain ⟨s2, h2, h3⟩ := Steps.split (a := [d]) h2
    rw [bind_ok (matchK_ok h1 hk)]
    rw [← h1.names] at hm
    rw [bind_ok (scopeLookup_ok (means_scope hm)), if_pos hc]
    rw [if_neg (by simp [isVisible_iff.2 hu])]
    rw [bind_ok (matchK_ok h2 hd), bind_ok (matchK_ok h3 hk'), get_bind_apply]
    refine liftSym_ok (lookup_of_contains ?_ hs)
    have : s'.tab p.id = (namesOf s).tab p.id := hst.tab p.id
    rw [this]; exact hl

/-- The parser accepts what is written for a value of this type. -/
def Takes (E : FileEnv) (N : Names) (pv : P PVal) (τ : Ty) : Prop :=
  ∀ v ts s s', Written E N v τ ts s'.nt → Steps s ts s' → namesOf s = N → pv s = .ok v s'

theorem parseReference_acc {E : FileEnv} {N : Names} {τ : Ty} (wf : WFDecls N.decls)
    (hτ : (∃ r, τ = .record r) ∨ ∃ id ms, τ = .union id ms) : Takes E N (parseReference E τ) τ := by
  intro v ts s s' hw hst hN
  have hv : ∃ p name, v = .ref τ p name := by
    cases v <;> simp only [Written] at hw <;> rcases hτ with ⟨r, rfl⟩ | ⟨id, ms, rfl⟩ <;>
      first
      | exact hw.elim
      | exact absurd hw.1 (by simp)
      | (obtain ⟨_, _, _, _, h, _⟩ := hw; exact absurd h (by simp))
      | (obtain ⟨h, id, e, l, hi, _, _, _, h', _⟩ := hw; rw [← h] at h'; cases h')
      | exact ⟨_, _, by rw [hw.1]⟩
  obtain ⟨p, name, rfl⟩ := hv
  simp only [Written] at hw
  obtain ⟨-, -, hr, hdot, hmay⟩ := hw
  have fin : (do
      let s ← P.get
      if (s.tab p).contains name then
        match s.resolveRef τ p name with
        | .ok _ => pure (.ref τ p name)
        | .error e => P.fail e
      else pure (PVal.ref τ p name) : P PVal) s' = .ok (.ref τ p name) s' := by
    rw [get_bind_apply]
    by_cases hc : (s'.tab p).contains name = true
    · rw [if_pos hc]
      have hN1 : namesOf s' = N := by rw [hst.names, hN]
      subst hN1
      obtain ⟨i, hi⟩ := (resolveRef_may wf).2 (hmay hc)
      rw [hi]; rfl
    · rw [if_neg hc]; rfl
  unfold parseReference
  rcases hr with ⟨t, rfl, hk, rfl, rfl⟩ | ⟨t, d, t', e, rfl, hk, hd, hk', hl, hc, hu, rfl, rfl⟩
  · rw [bind_ok (matchK_ok hst hk), get_bind_apply]
    have hp : s'.peek .DOT = false := by
      rw [Bool.eq_false_iff]
      intro h
      obtain ⟨x, hx, hxk⟩ := peek_iff.1 h
      exact hdot rfl x hx hxk
    rw [hp]
    exact fin
  · obtain ⟨s1, h1, h2⟩ := Steps.split (a := [t]) hst
    obtain ⟨s2, h2, h3⟩ := Steps.split (a := [d]) h2
    rw [bind_ok (matchK_ok h1 hk), get_bind_apply]
    have hp : s1.peek .DOT = true := peek_iff.2 ⟨d, h2.head, hd⟩
    rw [hp]
    have : (P.cond true (do let _ ← P.matchK .DOT
                            let t' ← P.matchK .IDENTIFIER
                            let e ← P.liftSym (E.global.lookup t.text (some fun e => e.cls = clsPackage))
                            if !E.isVisible e.id then E.invisible
                            else pure (e.id, t'.text))
        (pure (E.pkg, t.text)) : P (Nat × List Char)) s1 = .ok (e.id, t'.text) s' := by
      show (P.matchK .DOT >>= _) s1 = _
      rw [bind_ok (matchK_ok h2 hd), bind_ok (matchK_ok h3 hk'),
        bind_ok (liftSym_ok (lookup_of_contains hl (by simpa using hc))),
        if_neg (by simp [isVisible_iff.2 hu])]
      rfl
    rw [bind_ok this]
    exact fin

theorem parseEnum_acc {E : FileEnv} {N : Names} {t : Nat} : Takes E N (parseEnum E t) (.enum t) := by
  intro v ts s s' hw hst hN
  have hv : ∃ l, v = .enum t l := by
    cases v <;> simp only [Written] at hw <;>
      first
      | exact hw.elim
      | (have := hw.1; simp only [Ty.enum.injEq] at this; exact ⟨_, by rw [this]⟩)
      | exact absurd hw.1 (by simp)
      | (obtain ⟨_, _, _, _, h, _⟩ := hw; exact absurd h (by simp))
      | (obtain ⟨h, id, e, l, hi, _, _, _, h', _⟩ := hw; rw [← h] at h'; cases h')
      | (obtain ⟨h, h', _⟩ := hw; rw [← h] at h'; simp at h')
  obtain ⟨l, rfl⟩ := hv
  simp only [Written] at hw
  obtain ⟨-, n, d, tk, e, rfl, hn, hc, hid, hd, hk, rfl, hm⟩ := hw
  obtain ⟨s1, h1, h2⟩ := hst.split
  obtain ⟨s2, h2, h3⟩ := Steps.split (a := [d]) h2
  unfold parseEnum
  subst hN
  rw [bind_ok (parseQualifiedName_acc hn (by simpa using hc) h1), if_neg (by simp [hid]),
    bind_ok (matchK_ok h2 hd), bind_ok (matchK_ok h3 hk), get_bind_apply]
  have : s'.decls = (namesOf s).decls := hst.fr.decls
  rw [if_pos (by rw [this]; simpa using hm)]
  rfl

theorem parseBoolean_acc {E : FileEnv} {N : Names} : Takes E N parseBoolean .bool := by
  intro v ts s s' hw hst hN
  have hv : ∃ b, v = .bool b := by
    cases v <;> simp only [Written] at hw <;>
      first
      | exact hw.elim
      | exact ⟨_, rfl⟩
      | exact absurd hw.1 (by simp)
      | (obtain ⟨_, _, _, _, h, _⟩ := hw; exact absurd h (by simp))
      | (obtain ⟨h, id, e, l, hi, _, _, _, h', _⟩ := hw; rw [← h] at h'; cases h')
      | (obtain ⟨h, h', _⟩ := hw; rw [← h] at h'; simp at h')
  obtain ⟨b, rfl⟩ := hv
  simp only [Written] at hw
  obtain ⟨-, t, rfl, hk, ht⟩ := hw
  unfold parseBoolean
  rw [bind_ok (matchK_ok hst hk)]
  cases b
  · rw [if_neg (by rw [ht]; decide), if_pos (by simpa using ht)]; rfl
  · rw [if_pos (by simpa using ht)]; rfl

theorem parseNumber_acc {E : FileEnv} {N : Names} {isDec : Bool} :
    Takes E N (parseNumber isDec) (if isDec then .dec else .int) := by
  intro v ts s s' hw hst hN
  -- the literal
  have lit : ∀ (v : PVal) (ts : List Token) (s : PS), ((∃ n, v = .int n) ∨ ∃ q, v = .dec q) →
      Written E N v (if isDec then .dec else .int) ts s'.nt → Steps s ts s' →
      (s.peek .OPERATOR = false) ∧ (P.cond isDec
    (do let t ← P.matchK .DECIMAL
        match t.value with
        | .frac q => pure (PVal.dec q)
        | _ => P.crash .assertion)
    (do let t ← P.matchK .INTEGER
        match t.value with
        | .int n => pure (PVal.int n)
        | _ => P.crash .assertion) : P PVal) s = .ok v s' := by
    intro v ts s hv hw hst
    rcases hv with ⟨n, rfl⟩ | ⟨q, rfl⟩
    · simp only [Written] at hw
      obtain ⟨hτ, t, k, rfl, hk, hval, rfl⟩ := hw
      cases isDec
      · refine ⟨?_, ?_⟩
        · rw [Bool.eq_false_iff]; intro h
          obtain ⟨x, hx, hxk⟩ := peek_iff.1 h
          rw [hst.head] at hx
          cases hx
          rw [hk] at hxk
          cases hxk
        · show (P.matchK .INTEGER >>= _) s = _
          rw [bind_ok (matchK_ok hst hk), hval]; rfl
      · cases hτ
    · simp only [Written] at hw
      obtain ⟨hτ, t, rfl, hk, hval⟩ := hw
      cases isDec
      · cases hτ
      · refine ⟨?_, ?_⟩
        · rw [Bool.eq_false_iff]; intro h
          obtain ⟨x, hx, hxk⟩ := peek_iff.1 h
          rw [hst.head] at hx
          cases hx
          rw [hk] at hxk
          cases hxk
        · show (P.matchK .DECIMAL >>= _) s = _
          rw [bind_ok (matchK_ok hst hk), hval]; rfl
  have hlit : ((∃ n, v = .int n) ∨ ∃ q, v = .dec q) ∨ ∃ w t r c, (c = '+' ∧ v = .pos w ∨ c = '-' ∧ v = .neg w) ∧
      ts = t :: r ∧ Sign t c ∧ ((∃ n, w = .int n) ∨ ∃ q, w = .dec q) ∧
      Written E N w (if isDec then .dec else .int) r s'.nt := by
    cases v <;> simp only [Written] at hw
    case neg w =>
      obtain ⟨t, r, rfl, hs, -, hw, hl⟩ := hw
      exact .inr ⟨w, t, r, '-', .inr ⟨rfl, rfl⟩, rfl, hs, hl, hw⟩
    case pos w =>
      obtain ⟨t, r, rfl, hs, -, hw, hl⟩ := hw
      exact .inr ⟨w, t, r, '+', .inl ⟨rfl, rfl⟩, rfl, hs, hl, hw⟩
    case int n => exact .inl (.inl ⟨_, rfl⟩)
    case dec n => exact .inl (.inr ⟨_, rfl⟩)
    all_goals exfalso
    all_goals cases isDec <;>
      first
      | (obtain ⟨h, id, e, l, hi, _, _, _, h', _⟩ := hw; rw [← h] at h'; simp at h'; done)
      | (obtain ⟨h, h', _⟩ := hw; rw [← h] at h'; simp at h'; done)
      | exact absurd hw.1 (by simp)
  unfold parseNumber
  rw [get_bind_apply]
  rcases hlit with hl | ⟨w, t, r, c, hc, rfl, hs, hl, hw⟩
  · obtain ⟨hp, he⟩ := lit v ts s hl hw hst
    have : s.nt.any (fun t => t.kind = .OPERATOR ∧ (t.text = ['+'] ∨ t.text = ['-'])) = false := by
      rw [Bool.eq_false_iff]
      intro h
      simp only [Option.any_eq_true, decide_eq_true_eq] at h
      obtain ⟨x, hx, hk, -⟩ := h
      rw [Bool.eq_false_iff] at hp
      exact hp (peek_iff.2 ⟨x, hx, hk⟩)
    rw [this]
    have h0 : (P.cond false (do let t ← P.matchK .OPERATOR; pure (some t.text)) (pure none) :
      P (Option (List Char))) s = .ok none s := rfl
    rw [bind_ok h0]
    exact (bind_ok he).trans rfl
  · obtain ⟨s1, h1, h2⟩ := Steps.split (a := [t]) hst
    obtain ⟨-, he⟩ := lit w r s1 hl hw h2
    have : s.nt.any (fun t => t.kind = .OPERATOR ∧ (t.text = ['+'] ∨ t.text = ['-'])) = true := by
      rw [hst.head]
      simp only [Option.any_some, decide_eq_true_eq]
      refine ⟨hs.1, ?_⟩
      rcases hc with ⟨rfl, -⟩ | ⟨rfl, -⟩
      · exact .inl hs.2
      · exact .inr hs.2
    rw [this]
    have h0 : (P.cond true (do let t ← P.matchK .OPERATOR; pure (some t.text)) (pure none) :
        P (Option (List Char))) s = .ok (some t.text) s1 := by
      show (P.matchK .OPERATOR >>= _) s = _
      rw [bind_ok (matchK_ok h1 hs.1)]; rfl
    rw [bind_ok h0]
    refine (bind_ok he).trans ?_
    rcases hc with ⟨rfl, rfl⟩ | ⟨rfl, rfl⟩
    · simp only [hs.2, if_true]; rfl
    · have : ¬ t.text = ['+'] := by rw [hs.2]; decide
      simp only [this, if_false]; rfl

/-! ## First tokens -/

/-- A value has a first token, and it does not end an array. -/
theorem written_first {E : FileEnv} {N : Names} (htup : TuplesOk N.decls) :
    ∀ (v : PVal) (τ : Ty) (ts : List Token) (nx : Option Token), Written E N v τ ts nx →
      ∃ t r, ts = t :: r ∧ t.kind ≠ .S_KET
  | .inull, _, _, _, h => by simp only [Written] at h
  | .bool b, _, _, _, h => by
    simp only [Written] at h
    obtain ⟨-, t, rfl, hk, -⟩ := h
    exact ⟨t, [], rfl, by rw [hk]; simp⟩
  | .int b, _, _, _, h => by
    simp only [Written] at h
    obtain ⟨-, t, _, rfl, hk, -⟩ := h
    exact ⟨t, [], rfl, by rw [hk]; simp⟩
  | .dec b, _, _, _, h => by
    simp only [Written] at h
    obtain ⟨-, t, rfl, hk, -⟩ := h
    exact ⟨t, [], rfl, by rw [hk]; simp⟩
  | .str b, _, _, _, h => by
    simp only [Written] at h
    obtain ⟨-, t, rfl, hk, -⟩ := h
    exact ⟨t, [], rfl, by rw [hk]; simp⟩
  | .markup b _, _, _, _, h => by
    simp only [Written] at h
    obtain ⟨-, t, rfl, hk, -⟩ := h
    exact ⟨t, [], rfl, by rw [hk]; simp⟩
  | .enum e l, _, _, _, h => by
    simp only [Written] at h
    obtain ⟨-, n, d, t, ty, rfl, hn, -⟩ := h
    rcases hn with ⟨x, rfl, hk, -⟩ | ⟨x, d', t', p, rfl, hk, -⟩
    · exact ⟨x, _, rfl, by rw [hk]; simp⟩
    · exact ⟨x, _, rfl, by rw [hk]; simp⟩
  | .neg v, _, _, _, h => by
    simp only [Written] at h
    obtain ⟨t, r, rfl, hs, -⟩ := h
    exact ⟨t, r, rfl, by rw [hs.1]; simp⟩
  | .pos v, _, _, _, h => by
    simp only [Written] at h
    obtain ⟨t, r, rfl, hs, -⟩ := h
    exact ⟨t, r, rfl, by rw [hs.1]; simp⟩
  | .arr ty es, _, _, _, h => by
    simp only [Written] at h
    obtain ⟨-, _, _, _, _, a, r, b, -, rfl, ha, -⟩ := h
    exact ⟨a, _, rfl, by rw [ha]; simp⟩
  | .ref ty p n, _, _, _, h => by
    simp only [Written] at h
    obtain ⟨-, -, hr, -⟩ := h
    rcases hr with ⟨x, rfl, hk, -⟩ | ⟨x, d', t', p, rfl, hk, -⟩
    · exact ⟨x, _, rfl, by rw [hk]; simp⟩
    · exact ⟨x, _, rfl, by rw [hk]; simp⟩
  | .tup t [], _, _, _, h => by
    simp only [Written] at h
    obtain ⟨-, cs, hcs, h⟩ := h
    obtain ⟨c, cs', rfl, -⟩ := (htup t cs hcs).first
    rcases h with ⟨seps, -, -, h⟩ | ⟨-, a, r, b, rfl, ha, -⟩
    · simp [WrittenSep] at h
    · exact ⟨a, _, rfl, by rw [ha]; simp⟩
  | .tup t ((n, v) :: fs), _, _, _, h => by
    simp only [Written] at h
    obtain ⟨-, cs, hcs, h⟩ := h
    obtain ⟨c, cs', rfl, -⟩ := (htup t cs hcs).first
    rcases h with ⟨seps, -, -, h⟩ | ⟨-, a, r, b, rfl, ha, -⟩
    · simp only [WrittenSep, WrittenField] at h
      rcases h with ⟨h, -⟩ | ⟨-, a, b, rfl, ⟨-, hv⟩, -⟩
      · cases h
      · obtain ⟨x, r, rfl, hx⟩ := written_first htup v _ _ _ hv
        exact ⟨x, _, rfl, hx⟩
    · exact ⟨a, _, rfl, by rw [ha]; simp⟩

/-! ## Arrays -/

theorem Steps.nt {s s' : PS} {ts : List Token} (h : Steps s ts s') : s.nt = follow ts s'.nt :=
  nt_follow h.words

theorem arrayLoop_acc {E : FileEnv} {N : Names} {pv : P PVal} {τ : Ty} (htup : TuplesOk N.decls)
    (hpv : Takes E N pv τ) : ∀ (es : List PVal) (k : Nat) (acc : List PVal) (ts : List Token) (s s' : PS),
      WrittenElems E N es τ ts s'.nt → Steps s ts s' → namesOf s = N → s'.peek .S_KET = true →
      ts.length < k → arrayLoop pv k acc s = .ok (acc ++ es) s' := by
  intro es
  induction es with
  | nil =>
    intro k acc ts s s' hw hst hN hp hk
    simp only [WrittenElems] at hw
    subst hw
    cases hst
    obtain ⟨k, rfl⟩ : ∃ j, k = j + 1 := ⟨k - 1, by omega⟩
    unfold arrayLoop
    rw [get_bind_apply, if_pos hp, List.append_nil]
    rfl
  | cons e es ih =>
    intro k acc ts s s' hw hst hN hp hk
    simp only [WrittenElems] at hw
    obtain ⟨a, b, rfl, hv, hrest⟩ := hw
    obtain ⟨s1, h1, h2⟩ := hst.split
    rw [← h2.nt] at hv
    obtain ⟨t, r, ha, hkt⟩ := written_first htup _ _ _ _ hv
    have hlen : 1 ≤ a.length := by rw [ha]; simp
    obtain ⟨k, rfl⟩ : ∃ j, k = j + 1 := ⟨k - 1, by omega⟩
    unfold arrayLoop
    have hnk : ¬ s.peek .S_KET = true := by
      intro h
      obtain ⟨x, hx, hxk⟩ := peek_iff.1 h
      rw [ha] at h1
      rw [h1.head] at hx
      cases hx
      exact hkt hxk
    rw [get_bind_apply, if_neg hnk, bind_ok (hpv e a s s1 hv h1 hN), get_bind_apply]
    have hN1 : namesOf s1 = N := by rw [h1.names, hN]
    simp only [List.length_append] at hk
    rcases hrest with ⟨rfl, rfl | ⟨c, rfl, hc⟩⟩ | ⟨hne, c, r', rfl, hc, hw⟩
    · cases h2
      have hnc : ¬ s'.peek .COMMA = true := by
        intro h
        obtain ⟨x, hx, hxk⟩ := peek_iff.1 h
        obtain ⟨y, hy, hyk⟩ := peek_iff.1 hp
        rw [hx] at hy
        cases hy
        rw [hxk] at hyk
        cases hyk
      rw [if_neg hnc, if_pos (by simp [hp])]
      rfl
    · rw [if_pos (peek_iff.2 ⟨c, h2.head, hc⟩), bind_ok (matchK_ok h2 hc)]
      rw [ih k (acc ++ [e]) [] s' s' (by simp [WrittenElems]) .nil (by rw [h2.names, hN1]) hp
        (by simp at hk ⊢; omega)]
      simp
    · obtain ⟨s2, h2, h3⟩ := Steps.split (a := [c]) h2
      rw [if_pos (peek_iff.2 ⟨c, h2.head, hc⟩), bind_ok (matchK_ok h2 hc)]
      rw [ih k (acc ++ [e]) r' s2 s' hw h3 (by rw [h2.names, hN1]) hp
        (by simp at hk ⊢; omega)]
      simp

theorem parseArray_acc {E : FileEnv} {N : Names} {pv : P PVal} {id : Nat} {elem : Ty} {lo : Nat}
    {hi : Option Nat} (htup : TuplesOk N.decls) (hpv : Takes E N pv elem) :
    Takes E N (parseArray pv (.arr id elem lo hi) lo hi) (.arr id elem lo hi) := by
  intro v ts s s' hw hst hN
  have hv : ∃ es, v = .arr (.arr id elem lo hi) es := by
    cases v <;> simp only [Written] at hw <;>
      first
      | exact ⟨_, by rw [hw.1]⟩
      | exact hw.elim
      | exact absurd hw.1 (by simp)
      | (obtain ⟨_, _, _, _, h, _⟩ := hw; exact absurd h (by simp))
      | (obtain ⟨h, h', _⟩ := hw; rw [← h] at h'; simp at h')
  obtain ⟨es, rfl⟩ := hv
  simp only [Written] at hw
  obtain ⟨-, _, _, _, _, a, r, b, heq, rfl, ha, hb, hes, hlen⟩ := hw
  cases heq
  obtain ⟨s1, h1, h2⟩ := Steps.split (a := [a]) hst
  obtain ⟨s2, h2, h3⟩ := h2.split
  unfold parseArray
  have hp : s2.peek .S_KET = true := peek_iff.2 ⟨b, h3.head, hb⟩
  rw [← h3.head] at hes
  rw [bind_ok (matchK_ok h1 ha), get_bind_apply]
  rw [bind_ok (arrayLoop_acc htup hpv es (s1.toks + 1) [] r s1 s2 hes h2 (by rw [h1.names, hN]) hp
    (by have := h2.toks; omega)), bind_ok (matchK_ok h3 hb)]
  simp only [LengthOk] at hlen
  rw [List.nil_append]
  have c1 : ¬ es.length < lo := by have := hlen.1; omega
  have c2 : (hi.any fun h => h ≠ 0 ∧ es.length > h) = false := by
    cases hi with
    | none => rfl
    | some h =>
      have := hlen.2 h rfl
      simp only [Option.any_some, decide_eq_false_iff_not]
      rintro ⟨h0, h1⟩
      rcases this with ⟨-, h2⟩ | h2
      · exact h0 h2
      · omega
  simp only [c1, c2, decide_false]
  rfl

/-! ## Tuples -/

/-- for the types of all components -/
def TakesAll (E : FileEnv) (N : Names) (pv : Ty → P PVal) (cs : List Comp) : Prop :=
  ∀ c ∈ cs, Takes E N (pv c.ty) c.ty

theorem plainLoop_acc {E : FileEnv} {N : Names} {pv : Ty → P PVal} :
    ∀ (ds : List Comp), TakesAll E N pv ds →
    ∀ (first : Bool) (gs fs : List (String × PVal)) (cs : List Comp) (ts : List Token) (s s' : PS),
      fs.map Prod.fst = cs.map (·.name) → ((cs ++ ds).map (·.name)).Nodup →
      WrittenPlain E N gs ds first ts s'.nt → Steps s ts s' → namesOf s = N →
      plainLoop pv first ds (fs ++ emptyTuple ds) s = .ok (fs ++ gs) s' := by
  intro ds
  induction ds with
  | nil =>
    intro _ first gs fs cs ts s s' hf _ hw hst hN
    cases gs with
    | cons g gs => simp [WrittenPlain] at hw
    | nil =>
      simp only [WrittenPlain] at hw
      subst hw
      cases hst
      simp only [plainLoop, emptyTuple, List.map_nil, List.append_nil]
      rfl
  | cons c ds ih =>
    intro hp first gs fs cs ts s s' hf hn hw hst hN
    rcases gs with - | ⟨⟨n, v⟩, gs⟩
    · simp [WrittenPlain] at hw
    simp only [WrittenPlain, WrittenField] at hw
    obtain ⟨k, a, b, rfl, hk, ⟨rfl, hv⟩, hrest⟩ := hw
    obtain ⟨s2, h2, h3⟩ := hst.split
    obtain ⟨s1, h1, h2⟩ := h2.split
    rw [← h3.nt] at hv
    unfold plainLoop
    have h0 : (P.cond first (pure ()) (do let _ ← P.matchK .COMMA; pure ()) : P Unit) s = .ok () s1 := by
      cases first
      · simp only [Bool.false_eq_true, if_false] at hk
        obtain ⟨x, rfl, hx⟩ := hk
        show (P.matchK .COMMA >>= _) s = _
        rw [bind_ok (matchK_ok h1 hx)]; rfl
      · simp only [if_true] at hk
        subst hk
        cases h1
        rfl
    rw [bind_ok h0, bind_ok (hp c (by simp) v a s1 s2 hv h2 (by rw [h1.names, hN])), set_next' hf hn]
    rw [ih (fun c' hc' => hp c' (by simp [hc'])) false gs (fs ++ [(c.name, v)]) (cs ++ [c]) b s2 s'
      (by simp [hf]) (by simpa using hn) hrest h3 (by rw [h2.names, h1.names, hN])]
    simp

theorem absent_eq : ∀ (fs : List (String × PVal)) (cs : List Comp), Absent fs cs → fs = emptyTuple cs
  | [], [], _ => rfl
  | [], _ :: _, h => h.elim
  | _ :: _, [], h => h.elim
  | (n, v) :: fs, c :: cs, h => by
    obtain ⟨h1, h2, h3⟩ := h
    simp only at h1 h2
    subst h1 h2
    rw [absent_eq fs cs h3]
    rfl

theorem matchSep_ok {sp : Sep} {s s' : PS} {x : Token} (h : Steps s [x] s') (hx : SepTok sp x) :
    P.matchSep sp s = .ok x s' := by
  cases sp with
  | kind k => exact matchK_ok h hx
  | ident v => exact matchK_ok h hx.1

theorem sepLoop_acc {E : FileEnv} {N : Names} {pv : Ty → P PVal} :
    ∀ (ds : List Comp), TakesAll E N pv ds →
    ∀ (seps : List Sep) (opt : Bool) (gs fs : List (String × PVal)) (cs : List Comp) (ts : List Token)
      (s s' : PS), fs.map Prod.fst = cs.map (·.name) → ((cs ++ ds).map (·.name)).Nodup →
      WrittenSep E N gs ds seps opt ts s'.nt → Steps s ts s' → namesOf s = N →
      sepLoop pv (iterSequence ds seps) opt (fs ++ emptyTuple ds) s = .ok (fs ++ gs) s' := by
  intro ds
  induction ds with
  | nil =>
    intro _ seps opt gs fs cs ts s s' hf _ hw hst hN
    cases gs with
    | cons g gs => simp [WrittenSep] at hw
    | nil =>
      simp only [WrittenSep] at hw
      subst hw
      cases hst
      cases seps <;> simp only [iterSequence, sepLoop, emptyTuple, List.map_nil, List.append_nil] <;> rfl
  | cons c ds ih =>
    intro hp seps opt gs fs cs ts s s' hf hn hw hst hN
    have hp' : TakesAll E N pv ds := fun c' hc' => hp c' (by simp [hc'])
    rcases gs with - | ⟨⟨n, v⟩, gs⟩
    · simp [WrittenSep] at hw
    simp only [WrittenSep, WrittenField] at hw
    have rest : ∀ (seps : List Sep) (o : Bool) (b : List Token) (s2 : PS),
        WrittenSep E N gs ds seps o b s'.nt → Steps s2 b s' → namesOf s2 = N →
        sepLoop pv (iterSequence ds seps) o ((fs ++ [(c.name, v)]) ++ emptyTuple ds) s2 =
          .ok (fs ++ (c.name, v) :: gs) s' := by
      intro seps o b s2 hw h2 hN2
      rw [ih hp' seps o gs _ (cs ++ [c]) b s2 s' (by simp [hf]) (by simpa using hn) hw h2 hN2]
      simp
    rcases hw with ⟨rfl, ho, rfl, habs⟩ | ⟨hopt, a, b, rfl, ⟨rfl, hv⟩, hrest⟩
    · cases hst
      have := absent_eq _ _ habs
      rw [this]
      cases seps <;> simp only [iterSequence, sepLoop, ho, Bool.and_self, if_true] <;> rfl
    · obtain ⟨s1, h1, h2⟩ := hst.split
      rw [← h2.nt] at hv
      have hb : ¬ (opt && c.optional) = true := by
        simp only [Bool.and_eq_true]
        rintro ⟨ho, hc⟩
        rw [hopt ho] at hc
        cases hc
      have hN1 : namesOf s1 = N := by rw [h1.names, hN]
      cases seps with
      | nil =>
        simp only [iterSequence]
        unfold sepLoop
        rw [if_neg hb, bind_ok (hp c (by simp) v a s s1 hv h1 hN), set_next' hf hn]
        exact rest [] opt b s1 hrest h2 hN1
      | cons sp seps =>
        simp only [iterSequence]
        unfold sepLoop
        rw [if_neg hb, bind_ok (hp c (by simp) v a s s1 hv h1 hN), set_next' hf hn]
        unfold sepLoop
        rw [get_bind_apply]
        rcases hrest with ⟨x, r, rfl, hx, hw⟩ | ⟨hno, hw⟩
        · obtain ⟨s2, h2, h3⟩ := Steps.split (a := [x]) h2
          rw [if_pos (peekSep_of h2.head hx), bind_ok (matchSep_ok h2 hx)]
          exact rest seps opt r s2 hw h3 (by rw [h2.names, hN1])
        · have : ¬ s1.peekSep sp = true := by
            intro h
            cases hx : s1.nt with
            | none => cases sp <;> simp [PS.peekSep, PS.peek, hx] at h
            | some x => exact hno x (by rw [← h2.nt, hx]) (peekSep_tok h hx)
          rw [if_neg this]
          exact rest seps true b s1 hw h2 hN1

/-- A value that is written as the grammar says is accepted, and denotes this value. -/
theorem parseValue_acc {E : FileEnv} {N : Names} (wf : WFDecls N.decls) (htup : TuplesOk N.decls) :
    ∀ (n : Nat) (τ : Ty), tyRank τ < n → TyOk N.decls τ → Takes E N (parseValue E n τ) τ := by
  intro n
  induction n with
  | zero => intro τ h; omega
  | succ n ih =>
    intro τ hr hok
    cases τ with
    | bool => exact parseBoolean_acc
    | int => exact parseNumber_acc (isDec := false)
    | dec => exact parseNumber_acc (isDec := true)
    | str =>
      intro v ts s s' hw hst hN
      have hv : ∃ l, v = .str l := by
        cases v <;> simp only [Written] at hw <;>
          first
          | exact hw.elim
          | exact ⟨_, rfl⟩
          | exact absurd hw.1 (by simp)
          | (obtain ⟨_, _, _, _, h, _⟩ := hw; exact absurd h (by simp))
          | (obtain ⟨h, id, e, l, hi, _, _, _, h', _⟩ := hw; rw [← h] at h'; cases h')
          | (obtain ⟨h, h', _⟩ := hw; rw [← h] at h'; simp at h')
      obtain ⟨l, rfl⟩ := hv
      simp only [Written] at hw
      obtain ⟨-, t, rfl, hk, rfl⟩ := hw
      show (P.matchK .STRING >>= _) s = _
      rw [bind_ok (matchK_ok hst hk)]
      rfl
    | markup =>
      intro v ts s s' hw hst hN
      have hv : ∃ l m, v = .markup l m := by
        cases v <;> simp only [Written] at hw <;>
          first
          | exact hw.elim
          | exact ⟨_, _, rfl⟩
          | exact absurd hw.1 (by simp)
          | (obtain ⟨_, _, _, _, h, _⟩ := hw; exact absurd h (by simp))
          | (obtain ⟨h, id, e, l, hi, _, _, _, h', _⟩ := hw; rw [← h] at h'; cases h')
          | (obtain ⟨h, h', _⟩ := hw; rw [← h] at h'; simp at h')
      obtain ⟨l, m, rfl⟩ := hv
      simp only [Written] at hw
      obtain ⟨-, t, rfl, hk, rfl, hm⟩ := hw
      show (P.matchK .STRING >>= _) s = _
      rw [bind_ok (matchK_ok hst hk), hm]
      rfl
    | enum t => exact parseEnum_acc
    | record t => exact parseReference_acc wf (.inl ⟨t, rfl⟩)
    | union id ms => exact parseReference_acc wf (.inr ⟨id, ms, rfl⟩)
    | arr id elem lo hi =>
      unfold parseValue
      exact parseArray_acc htup (ih elem (by simp only [tyRank] at hr; omega) hok)
    | tup t =>
      intro v ts s s' hw hst hN
      have hv : ∃ fs, v = .tup t fs := by
        cases v <;> simp only [Written] at hw <;>
          first
          | exact hw.elim
          | (have := hw.1; simp only [Ty.tup.injEq] at this; exact ⟨_, by rw [this]⟩)
          | exact absurd hw.1 (by simp)
          | (obtain ⟨_, _, _, _, h, _⟩ := hw; exact absurd h (by simp))
          | (obtain ⟨h, id, e, l, hi, _, _, _, h', _⟩ := hw; rw [← h] at h'; cases h')
          | (obtain ⟨h, h', _⟩ := hw; rw [← h] at h'; simp at h')
      obtain ⟨fs, rfl⟩ := hv
      have hfst := written_first htup _ _ _ _ hw
      simp only [Written] at hw
      obtain ⟨-, cs, hcs, hw⟩ := hw
      have hw' := htup t cs hcs
      have hfields : s.decls.fields t = cs := by
        have : s.decls = N.decls := by rw [← hN]; rfl
        rw [this]; simp [Decls.fields, hcs]
      have hseps : s.seps = N.seps := by rw [← hN]; rfl
      have hall : TakesAll E N (parseValue E n) cs := fun c hc =>
        ih c.ty (by have := hw'.earlier c hc; simp only [tyRank] at hr; omega) (hw'.types c hc)
      unfold parseValue
      simp only
      rw [get_bind_apply]
      simp only [hfields, hseps]
      rcases hw with ⟨seps, hs, hne, hw⟩ | ⟨hs, a, r, b, rfl, ha, hb, hw⟩
      · simp only [hs, Option.getD_some]
        rw [if_pos hne]
        unfold parseSepTuple
        rw [get_bind_apply]
        obtain ⟨x, r, rfl, -⟩ := hfst
        rw [if_neg (by rw [hst.head]; simp)]
        have := sepLoop_acc cs hall seps false fs [] [] _ s s' rfl (by simpa using hw'.names) hw hst hN
        rw [List.nil_append, List.nil_append] at this
        rw [bind_ok this]
        rfl
      · simp only [hs]
        rw [if_neg (by simp)]
        unfold parsePlainTuple
        obtain ⟨s1, h1, h2⟩ := Steps.split (a := [a]) hst
        obtain ⟨s2, h2, h3⟩ := h2.split
        rw [← h3.head] at hw
        have := plainLoop_acc cs hall true fs [] [] _ s1 s2 rfl (by simpa using hw'.names) hw h2
          (by rw [h1.names, hN])
        rw [List.nil_append, List.nil_append] at this
        rw [bind_ok (matchK_ok h1 ha), bind_ok this, bind_ok (matchK_ok h3 hb)]
        rfl

end Verif.Lemmas
