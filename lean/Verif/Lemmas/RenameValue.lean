import Verif.Lemmas.Rename
/-!
# Two runs with different packages: names and values
-/
namespace Verif.Lemmas.Rename
open Verif.Model Verif.Lemmas

/-- The tokens of the file are names that mean the same in both runs. -/
class Words (K : Ren) (Q : Token → Prop) : Prop where
  seen : ∀ {t}, Q t ∧ t.kind = .IDENTIFIER → K.Seen t.text

/-- The references of a markup string in the two runs -/
inductive MarkR (K : Ren) : MarkupOut → MarkupOut → Prop
  | ok {refs : List MRef} : (∀ r ∈ refs, K.Seen r.name) → MarkR K (.ok refs) (.ok (refs.map K.mref))
  | error : MarkR K .error .error
  | crash : MarkR K .crash .crash

/-- The environments of a file in the two runs -/
class EnvR (K : Ren) (Q : Token → Prop) (E E' : FileEnv) : Prop where
  global : E.global = K.g
  global' : E'.global = K.g'
  pkg : E'.pkg = K.num E.pkg
  recover : E'.recover = E.recover
  resolved : E'.resolved = E.resolved
  visible : ∀ p, E'.isVisible (K.num p) = E.isVisible p
  markup : ∀ t, Q t ∧ t.kind = .STRING → MarkR K (E.markup t) (E'.markup t)

variable {K : Ren} [hK : K.Ok] {Q : Token → Prop} [hQ : Words K Q] {E E' : FileEnv} [hE : EnvR K Q E E']

omit hK hQ in
include hE in
theorem scopeTab {s : PS} {ts : List STab} (h : StR K Q s ts) :
    TabR K (s.tab E.pkg) ((ren K s ts).tab E'.pkg) := by
  rw [hE.pkg]; exact ren_tab h _

omit hQ in
theorem scope_lookup {T T' : STab} (h : TabR K T T') {n : List Char} (hn : K.Seen n) {sub : Option (Ent → Bool)}
    (hs : SubR K sub) :
    Scope.lookup [K.g', T'] n sub = (Scope.lookup [K.g, T] n sub).map (Except.map K.ent) := by
  unfold Scope.lookup
  simp only [List.reverse_cons, List.reverse_nil, List.nil_append, List.find?_cons, List.find?_nil]
  rw [(h.agree hn).containsName]
  cases T.contains n with
  | true => exact congrArg some ((h.agree hn).lookup hs)
  | false => exact congrArg some ((agree_glob hn).lookup hs)

omit hQ in
theorem scope_contains {T T' : STab} (h : TabR K T T') {n : List Char} (hn : K.Seen n) :
    Scope.contains [K.g', T'] n = Scope.contains [K.g, T] n := by
  unfold Scope.contains
  simp only [List.reverse_cons, List.reverse_nil, List.nil_append, List.cons_append, List.any_cons, List.any_nil]
  rw [(h.agree hn).containsName, (agree_glob hn).containsName]

omit hQ in
include hE in
theorem sims_scopeLookup {n : List Char} {sub : Option (Ent → Bool)} (hn : K.Seen n) (hs : SubR K sub) :
    Sims K Q (EntR K) (P.scopeLookup E n sub) (P.scopeLookup E' n sub) := by
  unfold P.scopeLookup
  refine sims_get fun s ts h => ?_
  have : Scope.lookup ((ren K s ts).scope E') n sub = (Scope.lookup (s.scope E) n sub).map (Except.map K.ent) := by
    unfold PS.scope
    rw [hE.global, hE.global']
    exact scope_lookup (scopeTab h) hn hs
  rw [this]
  cases Scope.lookup (s.scope E) n sub with
  | none => exact sims_crash'
  | some r => exact sims_liftEnt

omit hK hQ in
include hE in
theorem sims_invisible {α β : Type} {A : α → β → Prop} : Sims K Q A (E.invisible : P α) (E'.invisible : P β) := by
  unfold FileEnv.invisible
  rw [hE.resolved]
  exact sims_ite sims_fail' sims_crash'

omit hK hQ in
/-- the results are no packages -/
theorem sims_same {x y : P Ent} (h : Sims K Q (EntR K) x y) (hx : ∀ s e s', x s = .ok e s' → e.cls ≠ clsPackage) :
    Sims K Q Eq x y := by
  constructor
  intro s s' hs
  have h1 := h.sim s s' hs
  have h2 := hx s
  generalize x s = a at h1 h2 ⊢
  generalize y s' = b at h1 ⊢
  cases h1 with
  | ok h1 h3 => exact .ok (by rw [h1, ent_self (h2 _ _ rfl)]) h3
  | err h => exact .err h
  | crash h => exact .crash h

theorem lookup_sub {T : STab} {n : List Char} {sub : Ent → Bool} {e : Ent} (h : T.lookup n (some sub) = .ok e) :
    sub e = true := by
  unfold STab.lookup STab.lookupDirect at h
  split at h
  · split at h
    · cases h
    · split at h
      · cases h
      · next hs => cases h; simpa using hs
  · cases h

theorem sims_qualifiedName {sub : Ent → Bool} (hs : ∀ e, sub e = true → e.cls ≠ clsPackage) :
    Sims K Q Eq (parseQualifiedName E sub) (parseQualifiedName E' sub) := by
  have hsub : SubR K (some sub) := subR_some fun e => by
    by_cases h : e.cls = clsPackage
    · have h1 : sub e = false := by cases h2 : sub e with | false => rfl | true => exact absurd h (hs e h2)
      have h3 : sub (K.ent e) = false := by
        cases h2 : sub (K.ent e) with
        | false => rfl
        | true => exact absurd ((ent_cls e).trans h) (hs _ h2)
      rw [h1, h3]
    · rw [ent_self h]
  have lift : ∀ {T T' : STab} {t : Token}, TabR K T T' → Q t ∧ t.kind = .IDENTIFIER →
      Sims K Q Eq (P.liftSym (T.lookup t.text (some sub))) (P.liftSym (T'.lookup t.text (some sub))) := by
    intro T T' t h ht
    refine sims_same (by rw [(h.agree (hQ.seen ht)).lookup hsub]; infer_instance) ?_
    intro s e s' hr
    cases hl : T.lookup t.text (some sub) with
    | error x => rw [hl] at hr; cases hr
    | ok e' => rw [hl] at hr; cases hr; exact hs _ (lookup_sub hl)
  unfold parseQualifiedName
  refine sims_tok inferInstance fun t ht => ?_
  refine sims_ent (sims_scopeLookup (hQ.seen ht) subR_none) fun e => ?_
  rw [ent_cls]
  by_cases hc : e.cls = clsPackage
  · rw [if_pos hc, if_pos hc, ent_id hc, hE.visible]
    refine sims_ite sims_invisible ?_
    refine sims_tok inferInstance fun _ _ => ?_
    refine sims_tok inferInstance fun t ht => ?_
    exact sims_get fun s ts h => lift (ren_tab h _) ht
  · rw [if_neg hc, if_neg hc]
    refine sims_same (sims_scopeLookup (hQ.seen ht) hsub) ?_
    intro s e s' hr
    unfold P.scopeLookup at hr
    rw [bind_apply] at hr
    simp only [P.get] at hr
    have key : ∀ r, Scope.lookup (s.scope E) t.text (some sub) = some r → ∀ e, r = .ok e → e.cls ≠ clsPackage := by
      intro r h1 e h2
      subst h2
      unfold PS.scope Scope.lookup at h1
      dsimp only at h1
      split at h1 <;> exact hs _ (lookup_sub (Option.some.inj h1))
    cases hl : Scope.lookup (s.scope E) t.text (some sub) with
    | none => rw [hl] at hr; cases hr
    | some r =>
      rw [hl] at hr
      cases r with
      | error x => cases hr
      | ok e' => cases hr; exact key _ hl _ rfl

instance sims_qualifiedRecord : Sims K Q Eq (parseQualifiedName E fun e => e.cls = clsRecord)
    (parseQualifiedName E' fun e => e.cls = clsRecord) :=
  sims_qualifiedName fun e h => by rw [of_decide_eq_true h]; decide

instance sims_qualifiedEnum : Sims K Q Eq (parseQualifiedName E fun e => e.cls = clsEnum)
    (parseQualifiedName E' fun e => e.cls = clsEnum) :=
  sims_qualifiedName fun e h => by rw [of_decide_eq_true h]; decide

instance sims_qualifiedType : Sims K Q Eq (parseQualifiedName E Ent.isType) (parseQualifiedName E' Ent.isType) :=
  sims_qualifiedName fun e h hc => by
    unfold Ent.isType Ent.ty? at h
    simp [hc, clsPackage, clsBuiltinType, clsRecord, clsTuple, clsEnum] at h

/-! ## Values -/

omit hK hQ in
/-- a value without names -/
theorem sims_plain {x y : P PVal} (h : Sims K Q Eq x y) (hx : ∀ s v s', x s = .ok v s' → K.val v = v ∧ K.Good v) :
    Sims K Q (ValR K) x y := by
  constructor
  intro s s' hs
  have h1 := h.sim s s' hs
  have h2 := hx s
  generalize x s = a at h1 h2 ⊢
  generalize y s' = b at h1 ⊢
  cases h1 with
  | ok h1 h3 => exact .ok ⟨by rw [← h1, (h2 _ _ rfl).1], (h2 _ _ rfl).2⟩ h3
  | err h => exact .err h
  | crash h => exact .crash h

omit hK hQ in
instance : Sims K Q (ValR K) parseBoolean parseBoolean := by
  unfold parseBoolean
  refine sims_tok inferInstance fun t ht => ?_
  exact sims_ite (sims_pure' ⟨rfl, trivial⟩) (sims_ite (sims_pure' ⟨rfl, trivial⟩) sims_fail')

omit hK hQ in
instance {b : Bool} : Sims K Q (ValR K) (parseNumber b) (parseNumber b) := by
  unfold parseNumber
  refine sims_get fun s ts hs => ?_
  simp only [ren_nt]
  refine sims_eq (by sims) fun sign => ?_
  refine sims_bind (A := ValR K) (sims_cond ?_ ?_) fun v v' hv => ?_
  · refine sims_tok inferInstance fun t _ => ?_
    cases t.value <;> first | exact sims_crash' | exact sims_pure' ⟨rfl, trivial⟩
  · refine sims_tok inferInstance fun t _ => ?_
    cases t.value <;> first | exact sims_crash' | exact sims_pure' ⟨rfl, trivial⟩
  · obtain ⟨rfl, hv⟩ := hv
    cases sign with
    | none => exact sims_pure' ⟨rfl, hv⟩
    | some op =>
      dsimp only
      split
      · exact sims_pure' ⟨rfl, hv⟩
      · exact sims_pure' ⟨rfl, hv⟩

omit hK hQ in
theorem resolveRef_eq {s : PS} {ts : List STab} (h : StR K Q s ts) (τ : Ty) (p : Nat) {n : List Char} (hn : K.Seen n) :
    (ren K s ts).resolveRef τ (K.num p) n = s.resolveRef τ p n := by
  unfold PS.resolveRef
  rw [((ren_tab h p).agree hn).lookupDirect subR_cls]
  cases hl : (s.tab p).lookupDirect n (some fun e => decide (e.cls = clsObject)) false with
  | error e => rfl
  | ok e =>
    have hc : e.cls ≠ clsPackage := by
      rw [of_decide_eq_true (lookup_sub (T := s.tab p) (n := n) hl)]; decide
    simp only [Except.map, ent_self hc]
    have : (ren K s ts).objs[e.id]? = (s.objs[e.id]?).map K.obj := List.getElem?_map ..
    rw [this]
    cases s.objs[e.id]? <;> rfl

instance {τ : Ty} : Sims K Q (ValR K) (parseReference E τ) (parseReference E' τ) := by
  unfold parseReference
  refine sims_tok inferInstance fun t ht => ?_
  refine sims_get fun s ts hs => ?_
  rw [ren_peek]
  refine sims_bind (A := fun a b => b = (K.num a.1, a.2) ∧ K.Seen a.2) (sims_cond ?_ ?_) fun a b hab => ?_
  · refine sims_tok inferInstance fun _ _ => ?_
    refine sims_tok inferInstance fun u hu => ?_
    rw [hE.global, hE.global', (agree_glob (hQ.seen ht)).lookup subR_cls]
    refine sims_bind (A := fun e e' => e' = K.ent e ∧ e.cls = clsPackage) ?_ fun e e' he => ?_
    · cases hl : K.g.lookup t.text (some fun e => decide (e.cls = clsPackage)) with
      | error x => exact sims_fail'
      | ok e => exact sims_pure' ⟨rfl, of_decide_eq_true (lookup_sub hl)⟩
    · obtain ⟨rfl, hc⟩ := he
      rw [ent_id hc, hE.visible]
      exact sims_ite sims_invisible (sims_pure' ⟨rfl, hQ.seen hu⟩)
  · exact sims_pure' ⟨by rw [hE.pkg], hQ.seen ht⟩
  · obtain ⟨p, n⟩ := a
    obtain ⟨rfl, hn⟩ := hab
    dsimp only at hn ⊢
    refine sims_get fun s ts hs => ?_
    rw [((ren_tab hs p).agree hn).containsName, resolveRef_eq hs τ p hn]
    refine sims_ite ?_ (sims_pure' ⟨rfl, hn⟩)
    cases s.resolveRef τ p n with
    | ok _ => exact sims_pure' ⟨rfl, hn⟩
    | error e => exact sims_fail'

instance {t : Nat} : Sims K Q (ValR K) (parseEnum E t) (parseEnum E' t) := by
  unfold parseEnum
  refine sims_eq inferInstance fun e => ?_
  refine sims_ite sims_fail' ?_
  refine sims_tok inferInstance fun _ _ => ?_
  refine sims_tok inferInstance fun u _ => ?_
  refine sims_get fun s ts hs => ?_
  rw [ren_decls]
  exact sims_ite (sims_pure' ⟨rfl, trivial⟩) sims_fail'

omit hK hQ in
instance : Sims K Q (ValR K) (parseMarkup E) (parseMarkup E') := by
  unfold parseMarkup
  refine sims_tok inferInstance fun t ht => ?_
  have h := hE.markup t ht
  generalize E.markup t = a at h ⊢
  generalize E'.markup t = b at h ⊢
  cases h with
  | ok hr => exact sims_pure' ⟨rfl, hr⟩
  | error => exact sims_fail'
  | crash => exact sims_crash'

omit hK hQ in
theorem snoc_vals {acc : List PVal} {v : PVal} : K.vals acc ++ [K.val v] = K.vals (acc ++ [v]) := by
  rw [vals_map, vals_map, List.map_append]; rfl

omit hK hQ in
theorem snoc_goods {acc : List PVal} {v : PVal} (h : K.Goods acc) (hv : K.Good v) : K.Goods (acc ++ [v]) := by
  rw [goods_iff] at h ⊢
  intro e he
  rcases List.mem_append.1 he with he | he
  · exact h e he
  · rw [List.mem_singleton.1 he]; exact hv

omit hK hQ in
theorem sims_arrayLoop {pv pv' : P PVal} (h : Sims K Q (ValR K) pv pv') : ∀ (k : Nat) (acc : List PVal),
    K.Goods acc → Sims K Q (ValsR K) (arrayLoop pv k acc) (arrayLoop pv' k (K.vals acc))
  | 0, _, _ => sims_crash'
  | k + 1, acc, ha => by
    have ih := fun a ha => sims_arrayLoop h k a ha
    unfold arrayLoop
    refine sims_get fun s ts hs => ?_
    rw [ren_peek]
    refine sims_ite (sims_pure' ⟨rfl, ha⟩) ?_
    refine sims_val h fun v hv => ?_
    refine sims_get fun s ts hs => ?_
    simp only [ren_peek, ren_nt, snoc_vals]
    refine sims_ite ?_ (sims_ite (sims_pure' ⟨rfl, snoc_goods ha hv⟩) ?_)
    · exact sims_tok inferInstance fun _ _ => ih _ (snoc_goods ha hv)
    · exact sims_eq inferInstance fun _ => ih _ (snoc_goods ha hv)

omit hK hQ in
theorem sims_parseArray {pv pv' : P PVal} (h : Sims K Q (ValR K) pv pv') {τ : Ty} {lo : Nat} {hi : Option Nat} :
    Sims K Q (ValR K) (parseArray pv τ lo hi) (parseArray pv' τ lo hi) := by
  unfold parseArray
  refine sims_tok inferInstance fun _ _ => ?_
  refine sims_get fun s ts hs => ?_
  rw [ren_toks]
  refine sims_bind (sims_arrayLoop h _ [] trivial) fun a b hab => ?_
  obtain ⟨rfl, hg⟩ := hab
  have hl : (K.vals a).length = a.length := by rw [vals_map, List.length_map]
  refine sims_tok inferInstance fun _ _ => ?_
  rw [hl]
  refine sims_eq (by sims) fun _ => ?_
  refine sims_eq (by sims) fun _ => ?_
  exact sims_pure' ⟨rfl, hg⟩

omit hK hQ in
instance {sp : Sep} : Sims K Q (TokR Q) (P.matchSep sp) (P.matchSep sp) := by
  cases sp <;> exact sims_weak sims_matchK fun _ h => h.1

omit hK hQ in
theorem setKey_good {d : List (String × PVal)} {n : String} {v : PVal} (hd : K.GoodFs d) (hv : K.Good v) :
    K.GoodFs (setKey d n v) := by
  rw [goodFs_iff] at hd ⊢
  intro f hf
  unfold setKey at hf
  obtain ⟨x, hx, rfl⟩ := List.mem_map.1 hf
  split
  · exact hv
  · exact hd x hx

omit hK hQ in
theorem sims_sepLoop {pv pv' : Ty → P PVal} (h : ∀ τ, Sims K Q (ValR K) (pv τ) (pv' τ)) :
    ∀ (items : List SeqItem) (b : Bool) (d : List (String × PVal)), K.GoodFs d →
    Sims K Q (FldsR K) (sepLoop pv items b d) (sepLoop pv' items b (K.flds d))
  | [], _, _, hd => sims_pure' ⟨rfl, hd⟩
  | .comp c :: items, b, d, hd => by
    have ih := fun b d hd => sims_sepLoop h items b d hd
    unfold sepLoop
    refine sims_ite (sims_pure' ⟨rfl, hd⟩) ?_
    refine sims_val (h _) fun v hv => ?_
    rw [setKey_flds]
    exact ih _ _ (setKey_good hd hv)
  | .sep sp :: items, b, d, hd => by
    have ih := fun b d hd => sims_sepLoop h items b d hd
    unfold sepLoop
    refine sims_get fun s ts hs => ?_
    rw [ren_peekSep]
    exact sims_ite (sims_tok inferInstance fun _ _ => ih _ _ hd) (ih _ _ hd)

omit hK hQ in
theorem emptyTuple_ren (cs : List Comp) : K.flds (emptyTuple cs) = emptyTuple cs ∧ K.GoodFs (emptyTuple cs) := by
  unfold emptyTuple
  constructor
  · rw [flds_map, List.map_map]; rfl
  · rw [goodFs_iff]
    intro f hf
    obtain ⟨c, -, rfl⟩ := List.mem_map.1 hf
    trivial

omit hK hQ in
theorem sims_parseSepTuple {pv pv' : Ty → P PVal} (h : ∀ τ, Sims K Q (ValR K) (pv τ) (pv' τ)) {t : Nat}
    {cs : List Comp} {seps : List Sep} : Sims K Q (ValR K) (parseSepTuple pv t cs seps) (parseSepTuple pv' t cs seps) := by
  unfold parseSepTuple
  refine sims_get fun s ts hs => ?_
  rw [ren_nt]
  refine sims_ite sims_crash' ?_
  have := sims_sepLoop h (iterSequence cs seps) false (emptyTuple cs) (emptyTuple_ren cs).2
  rw [(emptyTuple_ren cs).1] at this
  refine sims_bind this fun a b hab => ?_
  obtain ⟨rfl, hg⟩ := hab
  exact sims_pure' ⟨rfl, hg⟩

omit hK hQ in
theorem sims_plainLoop {pv pv' : Ty → P PVal} (h : ∀ τ, Sims K Q (ValR K) (pv τ) (pv' τ)) :
    ∀ (b : Bool) (cs : List Comp) (d : List (String × PVal)), K.GoodFs d →
    Sims K Q (FldsR K) (plainLoop pv b cs d) (plainLoop pv' b cs (K.flds d))
  | _, [], _, hd => sims_pure' ⟨rfl, hd⟩
  | b, c :: cs, d, hd => by
    have ih := fun b d hd => sims_plainLoop h b cs d hd
    unfold plainLoop
    refine sims_eq (by sims) fun _ => ?_
    refine sims_val (h _) fun v hv => ?_
    rw [setKey_flds]
    exact ih _ _ (setKey_good hd hv)

omit hK hQ in
theorem sims_parsePlainTuple {pv pv' : Ty → P PVal} (h : ∀ τ, Sims K Q (ValR K) (pv τ) (pv' τ)) {t : Nat}
    {cs : List Comp} : Sims K Q (ValR K) (parsePlainTuple pv t cs) (parsePlainTuple pv' t cs) := by
  unfold parsePlainTuple
  refine sims_tok inferInstance fun _ _ => ?_
  have := sims_plainLoop h true cs (emptyTuple cs) (emptyTuple_ren cs).2
  rw [(emptyTuple_ren cs).1] at this
  refine sims_bind this fun a b hab => ?_
  obtain ⟨rfl, hg⟩ := hab
  exact sims_tok inferInstance fun _ _ => sims_pure' ⟨rfl, hg⟩

theorem sims_parseValue : ∀ (k : Nat) (τ : Ty), Sims K Q (ValR K) (parseValue E k τ) (parseValue E' k τ)
  | 0, _ => sims_crash'
  | k + 1, τ => by
    have ih := fun τ => sims_parseValue k τ
    cases τ with
    | arr id elem lo hi => unfold parseValue; exact sims_parseArray (ih _)
    | tup t =>
      unfold parseValue
      refine sims_get fun s ts hs => ?_
      simp only [ren_seps, ren_decls]
      exact sims_ite (sims_parseSepTuple ih) (sims_parsePlainTuple ih)
    | str =>
      unfold parseValue
      exact sims_tok inferInstance fun t _ => sims_pure' ⟨rfl, trivial⟩
    | _ => unfold parseValue; infer_instance

instance {k : Nat} {τ : Ty} : Sims K Q (ValR K) (parseValue E k τ) (parseValue E' k τ) := sims_parseValue k τ

end Verif.Lemmas.Rename
