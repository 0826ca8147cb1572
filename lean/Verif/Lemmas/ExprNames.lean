import Verif.Lemmas.ExprSound
/-! What `parse_primary` and `parse_name` accept. -/
namespace Verif.Lemmas
open Verif.Model Verif.Spec

variable {F : Fix} {vars : List (String × Ty)}

theorem lookup_spelled {T : STab} {n : List Char} {sub : Option (Ent → Bool)} {e : Ent}
    (h : T.lookup n sub = .ok e) : e.name = n := by
  unfold STab.lookup STab.lookupDirect at h
  split at h
  · split at h
    · cases h
    · next h1 =>
      split at h
      · cases h
      · cases h; simpa using h1
  · cases h

theorem base_means {n : List Char} {e : Ent}
    (h : Scope.lookup [F.E.global, F.N.tab F.E.pkg] n none = some (.ok e)) :
    Means F.E F.N n e := by
  unfold Scope.lookup at h
  simp only [List.reverse_cons, List.reverse_nil, List.nil_append] at h
  unfold Means
  by_cases hc : (F.N.tab F.E.pkg).contains n = true
  · simp only [hc, List.find?_cons, if_true] at h ⊢
    injection h
  · simp only [Bool.not_eq_true] at hc
    simp only [hc, List.find?_cons, List.find?_nil] at h
    simp only [hc]
    injection h

theorem means_base {n : List Char} {e : Ent} (h : Means F.E F.N n e) :
    Scope.lookup [F.E.global, F.N.tab F.E.pkg] n none = some (.ok e) := by
  unfold Means at h
  unfold Scope.lookup
  simp only [List.reverse_cons, List.reverse_nil, List.nil_append]
  by_cases hc : (F.N.tab F.E.pkg).contains n = true
  · simp only [hc, List.find?_cons, if_true] at h ⊢
    rw [h]
  · simp only [Bool.not_eq_true] at hc
    simp only [hc, List.find?_cons, List.find?_nil] at h ⊢
    simpa using h

theorem means_meaning {E : FileEnv} {N : Names} {n : List Char} {e : Ent} :
    Means E N n e ↔ meaning E N n = some e := by
  unfold Means meaning
  by_cases hc : (N.tab E.pkg).contains n = true
  · simp only [hc, if_true]
    cases h : (N.tab E.pkg).lookup n none <;> simp
  · simp only [hc]
    cases h : E.global.lookup n none <;> simp [h]

theorem means_name {E : FileEnv} {N : Names} {n : List Char} {e : Ent} (h : Means E N n e) :
    e.name = n := by
  unfold Means at h
  split at h <;> exact lookup_spelled h

theorem not_lookup {l : List (String × Ty)} {n : String} (h : l.lookup n = none) {t : Ty} :
    (n, t) ∉ l := by
  induction l with
  | nil => simp
  | cons p l ih =>
    obtain ⟨m, u⟩ := p
    simp only [List.lookup] at h
    split at h
    · cases h
    · next hne =>
      simp only [List.mem_cons, Prod.mk.injEq, not_or, not_and]
      refine ⟨fun e => ?_, ih h⟩
      subst e
      simp at hne

theorem lookup_mem' {l : List (String × Ty)} {n : String} {t : Ty} (h : l.lookup n = some t) :
    (n, t) ∈ l := by
  induction l with
  | nil => cases h
  | cons p l ih =>
    obtain ⟨m, u⟩ := p
    simp only [List.lookup] at h
    split at h
    · next he =>
      cases h
      have : n = m := by simpa using he
      subst this
      exact List.mem_cons_self
    · exact List.mem_cons_of_mem _ (ih h)

theorem nameLookup_snd {n : List Char} {s : PS} :
    Snd (P.nameLookup (F.scope vars) n) s (fun r ts => ts = [] ∧
      match r with
      | .var t => vars.lookup (String.ofList n) = some t
      | .comp c => vars.lookup (String.ofList n) = none ∧ F.comp (String.ofList n) = some c
      | .ent e => ¬ F.V vars (String.ofList n) ∧ Means F.E F.N n e) := by
  unfold P.nameLookup
  have e1 : (F.scope vars).vars = vars := rfl
  have e2 : (F.scope vars).comp = F.comp := rfl
  have e3 : (F.scope vars).base = [F.E.global, F.N.tab F.E.pkg] := rfl
  rw [e1, e2, e3]
  cases hv : vars.lookup (String.ofList n) with
  | some t => exact snd_pure ⟨rfl, rfl⟩
  | none =>
    cases hc : F.comp (String.ofList n) with
    | some c => exact snd_pure ⟨rfl, rfl, rfl⟩
    | none =>
      simp only
      cases hb : Scope.lookup [F.E.global, F.N.tab F.E.pkg] n none with
      | none => exact snd_crash
      | some r =>
        cases r with
        | error e => exact snd_fail
        | ok e =>
          refine snd_pure ⟨rfl, ?_, base_means hb⟩
          rintro (⟨t, ht⟩ | ⟨c, hc'⟩)
          · exact not_lookup hv ht
          · rw [hc] at hc'; cases hc'

theorem argLoop_snd {pe : P Expr} (hp : ReadsG F vars (GExpr F.E F.N (F.V vars)) pe) :
    ∀ (k : Nat) (s : PS), namesOf s = F.N →
      Snd (argLoop pe k) s (fun es ts => ∃ as : List (List Token × Raw),
        Commas (as.map Prod.fst) ts ∧ (∀ x ∈ as, GExpr F.E F.N (F.V vars) x.1 x.2) ∧
        (rawsOf (as.map Prod.snd)).elab F.X (F.tscope vars) = .ok es) := by
  intro k
  induction k with
  | zero => intros; exact snd_crash
  | succ k ih =>
    intro s hs
    unfold argLoop
    refine snd_get_bind ?_
    refine snd_ite (fun _ => snd_pure ⟨[], .nil, by simp, rfl⟩) (fun _ => ?_)
    refine snd_bind _ (hp s hs) ?_
    rintro e a s1 h1 ⟨r, hg, he⟩
    refine snd_get_bind ?_
    refine snd_ite (fun _ => ?_) (fun _ => snd_pure ⟨[(a, r)], ?_, by simpa using hg, ?_⟩)
    · refine snd_bind _ matchK_snd ?_
      rintro c _ s2 h2 ⟨-, hk, rfl⟩
      refine snd_bind _ (ih s2 (by rw [h2.names, h1.names, hs])) ?_
      rintro es ts s3 h3 ⟨as, hc, hg', he'⟩
      refine snd_pure ⟨(a, r) :: as, ?_, ?_, ?_⟩
      · simpa using Commas.more (a := a) hk hc
      · intro x hx
        rcases List.mem_cons.1 hx with rfl | hx
        · exact hg
        · exact hg' x hx
      · simp only [List.map_cons, rawsOf, Raws.elab, he, El.bind, he']
    · simpa using Commas.last
    · simp only [List.map_cons, List.map_nil, rawsOf, Raws.elab, he, El.bind]

theorem parseBuiltin_snd {pe : P Expr} (hp : ReadsG F vars (GExpr F.E F.N (F.V vars)) pe)
    {f : String} {s : PS} (hs : namesOf s = F.N) :
    Snd (parseBuiltin F.X pe f) s (fun e ts => ∃ b a k, ∃ as : List (List Token × Raw),
      ts = b :: (a ++ [k]) ∧ s.nt = some b ∧ b.kind = .BRA ∧ k.kind = .KET ∧
      Commas (as.map Prod.fst) a ∧ (∀ x ∈ as, GExpr F.E F.N (F.V vars) x.1 x.2) ∧
      (Raw.call f (rawsOf (as.map Prod.snd))).elab F.X (F.tscope vars) = .ok e) := by
  unfold parseBuiltin
  refine snd_bind _ matchK_snd ?_
  rintro b _ s1 h1 ⟨hb, hkb, rfl⟩
  refine snd_get_bind ?_
  refine snd_bind _ (argLoop_snd hp _ s1 (by rw [h1.names, hs])) ?_
  rintro es a s2 h2 ⟨as, hc, hg, he⟩
  refine snd_bind _ matchK_snd ?_
  rintro k _ s3 h3 ⟨-, hkk, rfl⟩
  refine liftEl_snd.mono ?_
  rintro x _ ⟨rfl, hx⟩
  refine ⟨b, a, k, as, by simp, hb, hkb, hkk, hc, hg, ?_⟩
  simp only [Raw.elab]
  rw [he]
  exact hx

theorem nameTail_snd {pe : P Expr} (hp : ReadsG F vars (GExpr F.E F.N (F.V vars)) pe) :
    ∀ (k : Nat) (p : Expr) (pr : Raw) (s : PS), namesOf s = F.N →
      pr.elab F.X (F.tscope vars) = .ok p →
      Snd (nameTail F.X pe k p) s (fun e ts => ∃ as : List Access, ts = as.flatMap Access.toks ∧
        (∀ a ∈ as, a.Ok) ∧
        (∀ b ts k i, Access.index b ts k i ∈ as → GExpr F.E F.N (F.V vars) ts i) ∧
        (as.foldl Access.raw pr).elab F.X (F.tscope vars) = .ok e) := by
  intro k
  induction k with
  | zero => intros; exact snd_crash
  | succ k ih =>
    intro p pr s hs hpr
    unfold nameTail
    refine snd_get_bind ?_
    refine snd_ite (fun _ => ?_) (fun _ => snd_ite (fun _ => ?_)
      (fun _ => snd_pure ⟨[], rfl, by simp, by simp, hpr⟩))
    · refine snd_bind (fun _ ts => ts = []) (snd_cond (fun _ => snd_pure rfl) (fun _ => snd_fail)) ?_
      rintro _ _ s0 h0 rfl
      refine snd_bind _ matchK_snd ?_
      rintro d _ s1 h1 ⟨-, hd, rfl⟩
      refine snd_bind _ matchK_snd ?_
      rintro t _ s2 h2 ⟨-, ht, rfl⟩
      refine snd_bind _ liftEl_snd ?_
      rintro q _ s3 h3 ⟨rfl, hq⟩
      have hq' : (Raw.dot pr (String.ofList t.text)).elab F.X (F.tscope vars) = .ok q := by
        simp only [Raw.elab]; exact elab_bind1 hpr hq
      refine (ih q _ s3 (by rw [h3.names, h2.names, h1.names, h0.names, hs]) hq').mono ?_
      rintro e ts ⟨as, rfl, h4, h5, h6⟩
      refine ⟨.dot d t :: as, by simp [Access.toks], ?_, ?_, h6⟩
      · intro a ha
        rcases List.mem_cons.1 ha with rfl | ha
        · exact ⟨hd, ht⟩
        · exact h4 a ha
      · intro b ts k i hm
        rcases List.mem_cons.1 hm with hm | hm
        · cases hm
        · exact h5 _ _ _ _ hm
    · refine snd_bind (fun _ ts => ts = []) (snd_cond (fun _ => snd_pure rfl) (fun _ => snd_fail)) ?_
      rintro _ _ s0 h0 rfl
      refine snd_bind _ matchK_snd ?_
      rintro b _ s1 h1 ⟨-, hb, rfl⟩
      refine snd_bind _ (hp s1 (by rw [h1.names, h0.names, hs])) ?_
      rintro i it s2 h2 ⟨ir, hgi, hi⟩
      refine snd_bind _ matchK_snd ?_
      rintro kk _ s3 h3 ⟨-, hkk, rfl⟩
      refine snd_bind _ liftEl_snd ?_
      rintro q _ s4 h4 ⟨rfl, hq⟩
      have hq' : (Raw.index pr ir).elab F.X (F.tscope vars) = .ok q := by
        simp only [Raw.elab]; exact elab_bind1 hpr (elab_bind1 hi hq)
      refine (ih q _ s4 (by rw [h4.names, h3.names, h2.names, h1.names, h0.names, hs]) hq').mono ?_
      rintro e ts ⟨as, rfl, h5, h6, h7⟩
      refine ⟨.index b it kk ir :: as, by simp [Access.toks], ?_, ?_, h7⟩
      · intro a ha
        rcases List.mem_cons.1 ha with rfl | ha
        · exact ⟨hb, hkk⟩
        · exact h5 a ha
      · intro b' ts k' i' hm
        rcases List.mem_cons.1 hm with hm | hm
        · cases hm; exact hgi
        · exact h6 _ _ _ _ hm

theorem callable_iff {e : Ent} : e.isCallable = true ↔ Callable e := by
  unfold Ent.isCallable Callable
  simp [or_assoc]

theorem pathOf_one {t : Token} (h : t.kind = .IDENTIFIER) : pathOf [t] = [String.ofList t.text] := by
  simp [pathOf, h]

theorem pathOf_three {t d t' : Token} (h : t.kind = .IDENTIFIER) (hd : d.kind = .DOT)
    (h' : t'.kind = .IDENTIFIER) :
    pathOf [t, d, t'] = [String.ofList t.text, String.ofList t'.text] := by
  simp [pathOf, h, hd, h']

theorem nameOf_enums {n : List Token} {e : Ent} (h : NameOf F.E F.N n e) (hc : e.cls = clsEnum) :
    enumsOf F.E F.N (pathOf n) = some e.id := by
  rcases h with ⟨t, rfl, hk, hm, -⟩ | ⟨t, d, t', p, rfl, hk, hd, hk', hm, hp, hu, hl⟩
  · rw [pathOf_one hk]
    simp only [enumsOf, String.toList_ofList, means_meaning.1 hm, Option.bind_some, hc, if_true]
  · rw [pathOf_three hk hd hk']
    simp only [enumsOf, String.toList_ofList, means_meaning.1 hm, Option.bind_some, hp,
      isVisible_iff.2 hu, and_self, if_true, hl, hc]

theorem parseLiteral_snd {t : Nat} {s : PS} :
    Snd (parseLiteral F.X t) s (fun e ts => ∃ d l, ts = [d, l] ∧ d.kind = .DOT ∧
      l.kind = .IDENTIFIER ∧ e = .enum t (String.ofList l.text) ∧
      ((F.X.decls.enums[t]?).getD []).contains (String.ofList l.text) = true) := by
  unfold parseLiteral
  refine snd_bind _ matchK_snd ?_
  rintro d _ s1 h1 ⟨-, hd, rfl⟩
  refine snd_bind _ matchK_snd ?_
  rintro l _ s2 h2 ⟨-, hl, rfl⟩
  exact snd_ite (fun hc => snd_pure ⟨d, l, rfl, hd, hl, rfl, hc⟩) (fun _ => snd_fail)

theorem literal_elab {n : List Token} {e : Ent} {l : Token} (h : NameOf F.E F.N n e)
    (hc : e.cls = clsEnum)
    (hl : ((F.X.decls.enums[e.id]?).getD []).contains (String.ofList l.text) = true) :
    (Raw.enumLit (pathOf n) (String.ofList l.text)).elab F.X (F.tscope vars) =
      .ok (.enum e.id (String.ofList l.text)) := by
  have : (F.tscope vars).enums (pathOf n) = some e.id := nameOf_enums h hc
  simp only [Raw.elab, this, hl, if_true]

theorem parseName_snd {pe : P Expr} (hp : ReadsG F vars (GExpr F.E F.N (F.V vars)) pe) :
    ReadsG F vars (GName F.E F.N (F.V vars)) (parseName F.E F.X (F.scope vars) pe) := by
  intro s hs
  unfold parseName
  refine snd_bind _ matchK_snd ?_
  rintro t _ s1 h1 ⟨-, hk, rfl⟩
  have hs1 : namesOf s1 = F.N := by rw [h1.names, hs]
  refine snd_get_bind ?_
  refine snd_ite (fun _ => ?_) (fun hbra => ?_)
  · refine snd_bind _ liftSym_snd ?_
    rintro e _ s2 h2 ⟨rfl, hl⟩
    refine snd_ite (fun hc => ?_) (fun _ => snd_fail)
    refine (parseBuiltin_snd hp (by rw [h2.names, hs1])).mono ?_
    rintro x _ ⟨b, a, k, as, rfl, -, hb, hkk, hcm, hg, he⟩
    rw [lookup_spelled hl] at he
    exact ⟨_, by simpa using GName.call hk hl (callable_iff.1 hc) hb hkk hcm hg, he⟩
  · refine snd_bind _ nameLookup_snd ?_
    rintro r _ s2 h2 ⟨rfl, hr⟩
    have hs2 : namesOf s2 = F.N := by rw [h2.names, hs1]
    have hst : s2 = s1 := by cases h2; rfl
    have ent : ∀ (n : List Token) (e : Ent) (s' : PS), namesOf s' = F.N → NameOf F.E F.N n e →
        ¬ Hidden (F.V vars) n →
        (∀ b, s'.nt = some b → b.kind = .BRA → Callable e →
          ∃ p d f, n = [p, d, f] ∧ e.name = f.text) →
        Snd (parseEntity F.X pe e) s' (fun x ts => ∃ r, GName F.E F.N (F.V vars) (n ++ ts) r ∧
          r.elab F.X (F.tscope vars) = .ok x) := by
      intro n e s' hs' hn hh hb3
      unfold parseEntity
      refine snd_ite (fun hc => ?_) (fun hne => snd_ite (fun hc => ?_) (fun _ => snd_fail))
      · refine parseLiteral_snd.mono ?_
        rintro x _ ⟨d, l, rfl, hd, hl, rfl, hm⟩
        exact ⟨_, .literal hn hh hc hd hl, literal_elab hn hc hm⟩
      · refine (parseBuiltin_snd hp hs').mono ?_
        rintro x _ ⟨b, a, k, as, rfl, hnt, hb, hkk, hcm, hg, he⟩
        obtain ⟨p, d, f, rfl, hname⟩ := hb3 b hnt hb (callable_iff.1 hc)
        rw [hname] at he
        refine ⟨_, ?_, he⟩
        have := GName.qualifiedCall (V := F.V vars) hn
          (fun ⟨t, r, e, hv⟩ => hh ⟨t, [d, f], by cases e; rfl, hv⟩) (callable_iff.1 hc) hne hb hkk hcm hg
        simpa using this
    cases r with
    | var τ =>
      simp only at hr
      have : (Raw.name (String.ofList t.text)).elab F.X (F.tscope vars) =
          .ok (.name (String.ofList t.text) τ) := by
        simp only [Raw.elab]
        have : (F.tscope vars).vars = vars := rfl
        rw [this, hr]
      refine (nameTail_snd hp _ _ _ s2 hs2 this).mono ?_
      rintro e _ ⟨as, rfl, h4, h5, h6⟩
      exact ⟨_, by simpa using GName.value hk (.inl ⟨τ, lookup_mem' hr⟩) h4 h5, h6⟩
    | comp c =>
      simp only at hr
      have : (Raw.name (String.ofList t.text)).elab F.X (F.tscope vars) =
          .ok (.name (String.ofList t.text) c.ty) := by
        simp only [Raw.elab]
        have e1 : (F.tscope vars).vars = vars := rfl
        have e2 : (F.tscope vars).comp = F.comp := rfl
        rw [e1, e2, hr.1, hr.2]
      refine (nameTail_snd hp _ _ _ s2 hs2 this).mono ?_
      rintro e _ ⟨as, rfl, h4, h5, h6⟩
      exact ⟨_, by simpa using GName.value hk (.inr ⟨c, hr.2⟩) h4 h5, h6⟩
    | ent e =>
      simp only at hr
      refine snd_ite (fun hc => snd_ite (fun _ => snd_invisible) (fun hv => ?_)) (fun hc => ?_)
      · refine snd_bind _ matchK_snd ?_
        rintro d _ s3 h3 ⟨-, hd, rfl⟩
        refine snd_bind _ matchK_snd ?_
        rintro t' _ s4 h4 ⟨-, ht', rfl⟩
        refine snd_get_bind ?_
        refine snd_bind _ liftSym_snd ?_
        rintro e' _ s5 h5 ⟨rfl, hl⟩
        have htab : s4.tab e.id = F.N.tab e.id := by
          have := h4.names.trans (h3.names.trans hs2)
          rw [← this]; rfl
        rw [htab] at hl
        have hn : NameOf F.E F.N [t, d, t'] e' :=
          .inr ⟨t, d, t', e, rfl, hk, hd, ht', hr.2, hc, isVisible_iff.1 (by simpa using hv), hl⟩
        have := ent [t, d, t'] e' s5 (by rw [h5.names, h4.names, h3.names, hs2]) hn
          (by rintro ⟨_, _, e, hv⟩; cases e; exact hr.1 hv)
          (fun b _ _ _ => ⟨t, d, t', rfl, lookup_spelled hl⟩)
        simpa using this
      · have hn : NameOf F.E F.N [t] e := .inl ⟨t, rfl, hk, hr.2, hc⟩
        have := ent [t] e s2 hs2 hn (by rintro ⟨_, _, e, hv⟩; cases e; exact hr.1 hv)
          (fun b hb hkb _ => absurd (peek_iff.2 ⟨b, hst ▸ hb, hkb⟩) hbra)
        simpa using this

theorem scope_contains {n : List Char} :
    (F.scope vars).contains n = (F.tscope vars).contains (String.ofList n) := by
  unfold LScope.contains TScope.contains
  have e1 : (F.scope vars).vars = vars := rfl
  have e2 : (F.scope vars).comp = F.comp := rfl
  have e3 : (F.scope vars).base = [F.E.global, F.N.tab F.E.pkg] := rfl
  have e4 : (F.tscope vars).vars = vars := rfl
  have e5 : (F.tscope vars).comp = F.comp := rfl
  have e6 : (F.tscope vars).other = fun n =>
    (F.N.tab F.E.pkg).contains n.toList || F.E.global.contains n.toList := rfl
  rw [e1, e2, e3, e4, e5, e6]
  simp [Scope.contains]

theorem V_cons {x : String} {τ : Ty} :
    F.V ((x, τ) :: vars) = fun n => n = x ∨ F.V vars n := by
  funext n
  apply propext
  simp only [Fix.V, ValueNames, List.mem_cons, Prod.mk.injEq]
  constructor
  · rintro (⟨t, ⟨h, -⟩ | h⟩ | h)
    · exact .inl h
    · exact .inr (.inl ⟨t, h⟩)
    · exact .inr (.inr h)
  · rintro (h | ⟨t, h⟩ | h)
    · exact .inl ⟨τ, .inl ⟨h, rfl⟩⟩
    · exact .inl ⟨t, .inr h⟩
    · exact .inr h

/-- What is assumed about the expressions inside brackets. -/
def ReadsNested (F : Fix) (pe : LScope → P Expr) : Prop :=
  ∀ vars, ReadsG F vars (GExpr F.E F.N (F.V vars)) (pe (F.scope vars))

theorem quantified_snd {pe : LScope → P Expr} (hp : ReadsNested F pe) {s : PS} (hs : namesOf s = F.N) :
    Snd (parseQuantified (F.scope vars) pe) s (fun e ts => ∃ q u x i src w a r,
      ts = q :: x :: i :: src :: w :: a ∧ IsKw (if u then "forall" else "exists") q ∧
      x.kind = .IDENTIFIER ∧ IsKw "in" i ∧ src.kind = .IDENTIFIER ∧ w.kind = .ARROW ∧
      GExpr F.E F.N (fun n => n = String.ofList x.text ∨ F.V vars n) a r ∧
      (Raw.quant u (String.ofList x.text) (String.ofList src.text) r).elab F.X (F.tscope vars) =
        .ok e) := by
  unfold parseQuantified
  refine snd_get_bind ?_
  refine snd_bind (fun (u : Bool) ts => ∃ q, ts = [q] ∧ IsKw (if u then "forall" else "exists") q) ?_ ?_
  · refine snd_cond (fun _ => ?_) (fun _ => ?_)
    · refine snd_bind _ matchKw_snd ?_
      rintro q _ s1 - ⟨hq, rfl⟩
      exact snd_pure ⟨q, by simp, hq⟩
    · refine snd_bind _ matchKw_snd ?_
      rintro q _ s1 - ⟨hq, rfl⟩
      exact snd_pure ⟨q, by simp, hq⟩
  rintro u _ s1 h1 ⟨q, rfl, hq⟩
  refine snd_bind _ matchK_snd ?_
  rintro x _ s2 h2 ⟨-, hx, rfl⟩
  refine snd_ite (fun _ => snd_fail) (fun hsh => ?_)
  refine snd_bind _ matchKw_snd ?_
  rintro i _ s3 h3 ⟨hi, rfl⟩
  refine snd_bind _ matchK_snd ?_
  rintro src _ s4 h4 ⟨-, hsrc, rfl⟩
  refine snd_bind _ nameLookup_snd ?_
  rintro r _ s5 h5 ⟨rfl, hr⟩
  cases r with
  | var t => exact snd_fail
  | ent e => exact snd_fail
  | comp c =>
    simp only at hr ⊢
    split
    · next id elem lo up hty =>
      refine snd_bind _ matchK_snd ?_
      rintro w _ s6 h6 ⟨-, hw, rfl⟩
      have hs6 : namesOf s6 = F.N := by
        rw [h6.names, h5.names, h4.names, h3.names, h2.names, h1.names, hs]
      refine snd_bind _ (hp ((String.ofList x.text, elem) :: vars) s6 hs6) ?_
      rintro b a s7 h7 ⟨br, hgb, hb⟩
      refine snd_bind _ liftEl_snd ?_
      rintro _ _ s8 h8 ⟨rfl, hcl⟩
      refine snd_pure ⟨q, u, x, i, src, w, a, br, by simp, hq, hx, hi, hsrc, hw, ?_, ?_⟩
      · rw [V_cons] at hgb; exact hgb
      · have e1 : (F.tscope vars).vars = vars := rfl
        have e2 : (F.tscope vars).comp = F.comp := rfl
        have hsh' : (F.tscope vars).contains (String.ofList x.text) = false := by
          rw [← scope_contains]; simpa using hsh
        simp only [Raw.elab, hsh', e1, e2, hr.1, hr.2, hty]
        show (Raw.elab F.X (F.tscope ((String.ofList x.text, elem) :: vars)) br).bind _ = _
        rw [hb]
        simp only [El.bind, hcl]
    · exact snd_fail

theorem condTail_snd {pe : P Expr} (hp : ReadsG F vars (GExpr F.E F.N (F.V vars)) pe) (t : Ty) :
    ∀ (k : Nat) (s : PS), namesOf s = F.N →
      Snd (condTail pe t k) s (fun acts ts => ∃ (bs : List Branch) (el : Token) (xt : List Token)
        (x : Raw), ts = bs.flatMap Branch.toks ++ el :: xt ∧ IsKw "else" el ∧
        (∀ d ∈ bs, IsKw "elsif" d.els ∧ IsKw "then" d.thn) ∧
        (∀ d ∈ bs, GExpr F.E F.N (F.V vars) d.cts d.c) ∧
        (∀ d ∈ bs, GExpr F.E F.N (F.V vars) d.ets d.e) ∧ GExpr F.E F.N (F.V vars) xt x ∧
        (actsOf x bs).elab F.X (F.tscope vars) t = .ok acts) := by
  intro k
  induction k with
  | zero => intros; exact snd_crash
  | succ k ih =>
    intro s hs
    unfold condTail
    refine snd_get_bind ?_
    refine snd_ite (fun _ => ?_) (fun _ => ?_)
    · refine snd_bind _ matchKw_snd ?_
      rintro els _ s1 h1 ⟨hels, rfl⟩
      refine snd_bind _ (hp s1 (by rw [h1.names, hs])) ?_
      rintro c ct s2 h2 ⟨cr, hgc, hc⟩
      refine snd_bind _ matchKw_snd ?_
      rintro th _ s3 h3 ⟨hth, rfl⟩
      refine snd_bind _ (hp s3 (by rw [h3.names, h2.names, h1.names, hs])) ?_
      rintro e et s4 h4 ⟨er, hge, he⟩
      refine snd_bind _ liftEl_snd ?_
      rintro _ _ s5 h5 ⟨rfl, hac⟩
      refine snd_bind _ liftEl_snd ?_
      rintro _ _ s6 h6 ⟨rfl, hty⟩
      refine snd_bind _ (ih s6 (by
        rw [h6.names, h5.names, h4.names, h3.names, h2.names, h1.names, hs])) ?_
      rintro rest ts s7 h7 ⟨bs, el, xt, x, rfl, hel, hkw, hgc', hge', hgx, hrest⟩
      refine snd_pure ⟨⟨els, ct, cr, th, et, er⟩ :: bs, el, xt, x, by simp [Branch.toks], hel,
        ?_, ?_, ?_, hgx, ?_⟩
      · simpa using ⟨⟨hels, hth⟩, hkw⟩
      · simpa using ⟨hgc, hgc'⟩
      · simpa using ⟨hge, hge'⟩
      · simp only [actsOf, RActs.elab, hc, he, El.bind, hac, hty, hrest]
    · refine snd_bind _ matchKw_snd ?_
      rintro el _ s1 h1 ⟨hel, rfl⟩
      refine snd_bind _ (hp s1 (by rw [h1.names, hs])) ?_
      rintro e et s2 h2 ⟨er, hge, he⟩
      refine snd_bind _ liftEl_snd ?_
      rintro _ _ s3 h3 ⟨rfl, hty⟩
      refine snd_pure ⟨[], el, et, er, by simp, hel, by simp, by simp, by simp, hge, ?_⟩
      simp only [actsOf, RActs.elab, he, El.bind, hty]

theorem conditional_snd {pe : P Expr} (hp : ReadsG F vars (GExpr F.E F.N (F.V vars)) pe) {s : PS}
    (hs : namesOf s = F.N) :
    Snd (parseConditional pe) s (fun e ts => ∃ (f : Token) (ct : List Token) (c : Raw) (th : Token)
      (et : List Token) (er : Raw) (bs : List Branch) (el : Token) (xt : List Token) (x : Raw),
      ts = f :: (ct ++ th :: (et ++ (bs.flatMap Branch.toks ++ el :: xt))) ∧ IsKw "if" f ∧
      IsKw "then" th ∧ IsKw "else" el ∧ GExpr F.E F.N (F.V vars) ct c ∧
      GExpr F.E F.N (F.V vars) et er ∧
      (∀ d ∈ bs, IsKw "elsif" d.els ∧ IsKw "then" d.thn) ∧
      (∀ d ∈ bs, GExpr F.E F.N (F.V vars) d.cts d.c) ∧
      (∀ d ∈ bs, GExpr F.E F.N (F.V vars) d.ets d.e) ∧ GExpr F.E F.N (F.V vars) xt x ∧
      (Raw.cond c er (actsOf x bs)).elab F.X (F.tscope vars) = .ok e) := by
  unfold parseConditional
  refine snd_bind _ matchKw_snd ?_
  rintro f _ s1 h1 ⟨hf, rfl⟩
  refine snd_bind _ (hp s1 (by rw [h1.names, hs])) ?_
  rintro c ct s2 h2 ⟨cr, hgc, hc⟩
  refine snd_bind _ matchKw_snd ?_
  rintro th _ s3 h3 ⟨hth, rfl⟩
  refine snd_bind _ (hp s3 (by rw [h3.names, h2.names, h1.names, hs])) ?_
  rintro e et s4 h4 ⟨er, hge, he⟩
  cases hty : e.typ with
  | none => exact snd_fail
  | some t =>
    refine snd_bind _ liftEl_snd ?_
    rintro _ _ s5 h5 ⟨rfl, hac⟩
    refine snd_get_bind ?_
    refine snd_bind _ (condTail_snd hp t _ s5 (by
      rw [h5.names, h4.names, h3.names, h2.names, h1.names, hs])) ?_
    rintro rest ts s7 h7 ⟨bs, el, xt, x, rfl, hel, hkw, hgc', hge', hgx, hrest⟩
    refine snd_pure ⟨f, ct, cr, th, et, er, bs, el, xt, x, by simp, hf, hth, hel, hgc, hge, hkw,
      hgc', hge', hgx, ?_⟩
    simp only [Raw.elab, hc, he, El.bind, hty, hac, hrest]

theorem kw_text {v : String} {t : Token} (h : IsKw v t) : t.text = v.toList := by
  unfold Token.text; rw [h.2]

theorem primary_snd {pe : LScope → P Expr} (hp : ReadsNested F pe) :
    ReadsG F vars (GPrimary F.E F.N (F.V vars)) (parsePrimary F.E F.X (F.scope vars) pe) := by
  intro s hs
  unfold parsePrimary
  refine snd_get_bind ?_
  refine snd_ite (fun _ => ?_) (fun _ => snd_ite (fun _ => ?_) (fun _ => snd_ite (fun _ => ?_)
    (fun _ => snd_ite (fun hb => ?_) (fun _ => snd_ite (fun _ => ?_) (fun _ => snd_ite (fun _ => ?_)
    (fun _ => ?_))))))
  · refine snd_bind _ matchK_snd ?_
    rintro t _ s1 h1 ⟨-, hk, rfl⟩
    cases hv : t.value with
    | int n => exact snd_pure ⟨.int n, .int hk hv, rfl⟩
    | _ => exact snd_crash
  · refine snd_bind _ matchK_snd ?_
    rintro t _ s1 h1 ⟨-, hk, rfl⟩
    cases hv : t.value with
    | frac q => exact snd_pure ⟨.dec q, .dec hk hv, rfl⟩
    | _ => exact snd_crash
  · refine snd_bind _ matchK_snd ?_
    rintro t _ s1 h1 ⟨-, hk, rfl⟩
    exact snd_pure ⟨.str t.text, .str hk, rfl⟩
  · refine snd_bind _ matchK_snd ?_
    rintro t _ s1 h1 ⟨hn, hk, rfl⟩
    refine snd_pure ?_
    simp only [Bool.or_eq_true, peekKw_iff, hn, Option.some.injEq, exists_eq_left'] at hb
    rcases hb with hb | hb
    · refine ⟨.bool true, .true hb, ?_⟩
      simp [Raw.elab, kw_text hb]
    · refine ⟨.bool false, .false hb, ?_⟩
      simp only [Raw.elab, kw_text hb]
      rfl
  · refine snd_bind _ matchKw_snd ?_
    rintro t _ s1 h1 ⟨hk, rfl⟩
    exact snd_pure ⟨.null, .null hk, rfl⟩
  · refine snd_bind _ matchK_snd ?_
    rintro b _ s1 h1 ⟨-, hb, rfl⟩
    have hs1 : namesOf s1 = F.N := by rw [h1.names, hs]
    refine snd_get_bind ?_
    refine snd_bind (fun e ts => ∀ k : Token, k.kind = .KET →
      ∃ r, GPrimary F.E F.N (F.V vars) (b :: (ts ++ [k])) r ∧
        r.elab F.X (F.tscope vars) = .ok e) ?_ ?_
    · refine snd_cond (fun _ => ?_) (fun _ => snd_cond (fun _ => ?_) (fun _ => ?_))
      · refine (quantified_snd hp hs1).mono ?_
        rintro e _ ⟨q, u, x, i, src, w, a, r, rfl, hq, hx, hi, hsrc, hw, hg, he⟩ k hk
        exact ⟨_, GPrimary.quant hb hq hx hi hsrc hw hk hg, he⟩
      · refine (conditional_snd (hp vars) hs1).mono ?_
        rintro e _ ⟨f, ct, cr, th, et, er, bs, el, xt, x, rfl, hf, hth, hel, hgc, hge, hkw, hgc',
          hge', hgx, he⟩ k hk
        refine ⟨_, ?_, he⟩
        simpa using GPrimary.cond hb hk hf hth hel hgc hge hkw hgc' hge' hgx
      · refine (hp vars s1 hs1).mono ?_
        rintro e a ⟨r, hg, he⟩ k hk
        exact ⟨r, .paren hb hk hg, he⟩
    · rintro e a s2 h2 h
      refine snd_bind _ matchK_snd ?_
      rintro k _ s3 h3 ⟨-, hk, rfl⟩
      obtain ⟨r, hg, he⟩ := h k hk
      exact snd_pure ⟨r, by simpa using hg, he⟩
  · refine (parseName_snd (hp vars) s hs).mono ?_
    rintro e ts ⟨r, hg, he⟩
    exact ⟨r, .name hg, he⟩

/-- What `parse_expression` accepts is an expression of the grammar, and the expression it
builds is the one of the syntax tree. -/
theorem parseExpr_snd (F : Fix) (n : Nat) : ReadsNested F (parseExpr F.E F.X n) := by
  induction n with
  | zero => intro vars s _; exact snd_crash
  | succ n ih =>
    intro vars
    exact expression_snd (relation_snd (simple_snd (term_snd (factor_snd (primary_snd ih)))))

end Verif.Lemmas
