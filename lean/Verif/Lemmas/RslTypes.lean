import Verif.Lemmas.RslInv
import Verif.Lemmas.ElabSound
/-!
# Parsing type declarations keeps the invariant
-/
namespace Verif.Lemmas
open Verif.Model Verif.Spec

variable {E : FileEnv} {α : Type}

theorem Sp.rsf {g : STab} {ne nr : Nat} {x : P α} {s : PS} {Q : α → PS → Prop} (h : Sp Ft x s Q) :
    Sp (Rs g ne nr) x s (fun a s' => Q a s' ∧ Ft s s') :=
  (h.mono (Q' := fun a s' => Q a s' ∧ Ft s s') fun _ _ h1 h2 => ⟨h2, h1⟩).rs

/-! ## Names of components and literals -/

theorem registerName_ok {names : List (List Char)} {n : List Char} :
    registerName names n = .ok () ↔ ∀ m ∈ names, simplifiedName m ≠ simplifiedName n := by
  unfold registerName
  cases h : names.find? (fun m => simplifiedName m = simplifiedName n) with
  | none =>
    simp only [true_iff]
    intro m hm
    have := List.find?_eq_none.1 h m hm
    simpa using this
  | some m =>
    have h1 := List.find?_some h
    have h2 := List.mem_of_find?_eq_some h
    simp only [decide_eq_true_eq] at h1
    constructor
    · intro h'
      simp only at h'
      split at h' <;> cases h'
    · exact fun h' => absurd h1 (h' m h2)

theorem lookupName_ok {names : List (List Char)} {n : List Char} (h : lookupName names n = .ok ()) :
    n ∈ names := by
  unfold lookupName at h
  cases hf : names.find? (fun m => simplifiedName m = simplifiedName n) with
  | none => rw [hf] at h; cases h
  | some m =>
    rw [hf] at h
    simp only at h
    split at h
    · next e => rw [← e]; exact List.mem_of_find?_eq_some hf
    · cases h

theorem parseQualifiedName_ent {sub : Ent → Bool} {s : PS} (hi : RslInv E.global s) :
    Sp Fr (parseQualifiedName E sub) s (fun e s' => s'.toks < s.toks ∧ sub e = true ∧ EntOk s.decls e) := by
  have h1 := parseQualifiedName_sp (E := E) (sub := sub) (s := s)
  have h2 : Sp Fr (parseQualifiedName E sub) s (fun e _ => EntOk s.decls e) := by
    unfold parseQualifiedName
    refine sp_bind _ matchK_sp ?_
    rintro t s1 h1 -
    refine sp_bind _ scopeLookup_sp ?_
    rintro sym s2 h2 ⟨-, rfl⟩
    have hi2 := hi.ft h1.ft
    refine sp_ite (fun hc => ?_) (fun hc => ?_)
    · refine sp_ite (fun _ => sp_invisible) (fun _ => ?_)
      refine sp_bind _ matchK_sp ?_
      rintro t3 s3 h3 -
      refine sp_bind _ matchK_sp ?_
      rintro t4 s4 h4 -
      refine sp_get_bind ?_
      refine liftSym_sp.mono ?_
      rintro e s5 - ⟨he, rfl⟩
      have := (hi2.ft (h3.ft.trans h4.ft)).tab_ent he
      rwa [h4.decls, h3.decls, h1.decls] at this
    · refine scopeLookup_sp.mono ?_
      rintro e s3 - ⟨he, rfl⟩
      have := hi2.scope_ent he
      rwa [h1.decls] at this
  exact (h1.and h2).mono fun e s' _ h => ⟨h.1.1, h.1.2, h.2⟩

theorem parseDescribedName_sp {s : PS} : Sp Fr parseDescribedName s
    (fun _ s' => s'.toks < s.toks ∧ s.peek .IDENTIFIER = true) := by
  unfold parseDescribedName
  refine sp_bind _ matchK_sp ?_
  rintro t s1 h1 ⟨hn, hk, -, hlt⟩
  have hp : s.peek .IDENTIFIER = true := by simp [PS.peek, hn, hk]
  refine sp_get_bind ?_
  refine sp_cond (fun _ => ?_) (fun _ => sp_pure ⟨hlt, hp⟩)
  refine sp_bind _ matchK_sp ?_
  rintro t2 s2 h2 ⟨-, -, -, hlt2⟩
  exact sp_pure ⟨by omega, hp⟩

/-! ## Types -/

theorem tyIn_ok {D : Decls} : ∀ {τ : Ty}, TyIn D τ → TyOk D τ
  | .tup _, h => h
  | .arr _ e _ _, h => tyIn_ok (τ := e) h
  | .bool, _ | .int, _ | .dec, _ | .str, _ | .markup, _ | .enum _, _ | .record _, _ | .union .., _ => trivial

theorem fresh_sp {s : PS} : Sp Ft P.fresh s (fun n s' => n = s.nid ∧ s' = { s with nid := s.nid + 1 }) :=
  ⟨⟨rfl, rfl, rfl, rfl, rfl, rfl, rfl, Nat.le_succ _, ⟨[], by simp⟩, Nat.le_refl _⟩, rfl, rfl⟩

theorem unionLoop_sp : ∀ (k : Nat) (acc : List Nat) (s : PS), RslInv E.global s → s.toks < k →
    (∀ m ∈ acc, m < s.decls.recs.length) →
    Sp Fr (unionLoop E k acc) s (fun ms _ => ∀ m ∈ ms, m < s.decls.recs.length) := by
  intro k
  induction k with
  | zero => intro acc s _ h; omega
  | succ k ih =>
    intro acc s hi hk hacc
    unfold unionLoop
    refine sp_get_bind ?_
    refine sp_ite (fun _ => ?_) (fun _ => sp_pure hacc)
    refine sp_bind _ matchK_sp ?_
    rintro t s1 h1 ⟨-, -, -, hlt⟩
    refine sp_bind _ (parseQualifiedName_ent (hi.ft h1.ft)) ?_
    rintro e s2 h2 ⟨hlt2, hsub, hent⟩
    have hd : s2.decls = s.decls := h2.decls.trans h1.decls
    simp only [decide_eq_true_eq] at hsub
    refine (ih (acc ++ [e.id]) s2 (hi.ft (h1.ft.trans h2.ft)) (by omega) ?_).mono ?_
    · intro m hm
      rw [hd]
      rcases List.mem_append.1 hm with hm | hm
      · exact hacc m hm
      · rw [List.mem_singleton] at hm
        subst hm
        have := hent.1 hsub
        rwa [h1.decls] at this
    · intro ms s3 _ h
      rwa [hd] at h

theorem reportDuplicates_sp : ∀ (ms seen : List Nat) (s : PS),
    Sp Fr (reportDuplicates seen ms) s (fun _ _ => True) := by
  intro ms
  induction ms with
  | nil => intro seen s; exact sp_pure trivial
  | cons m ms ih =>
    intro seen s
    unfold reportDuplicates
    refine sp_ite (fun _ => ?_) (fun _ => ih _ s)
    exact sp_bind (fun _ _ => True) (sp_report trivial) fun _ s1 _ _ => ih seen s1

theorem parseUnionType_sp {s : PS} (hi : RslInv E.global s) : Sp Ft (parseUnionType E) s
    (fun τ s' => s'.toks < s.toks ∧ TyIn s.decls τ ∧ tyRank τ = 0) := by
  unfold parseUnionType
  refine sp_bind _ matchK_sp.ft ?_
  rintro t s1 h1 ⟨-, -, -, hlt⟩
  refine sp_bind _ (parseQualifiedName_ent (hi.ft h1)).ft ?_
  rintro e s2 h2 ⟨hlt2, hsub, hent⟩
  simp only [decide_eq_true_eq] at hsub
  refine sp_get_bind ?_
  refine sp_bind _ (unionLoop_sp (s2.toks + 1) [e.id] s2 (hi.ft (h1.trans h2)) (by omega) ?_).ft ?_
  · intro m hm
    rw [List.mem_singleton] at hm
    subst hm
    rw [h2.decls]
    exact hent.1 hsub
  rintro ms s3 h3 hms
  refine sp_bind _ matchK_sp.ft ?_
  rintro t4 s4 h4 ⟨-, -, -, hlt4⟩
  refine sp_bind _ (reportDuplicates_sp ms [] s4).ft ?_
  rintro _ s5 h5 -
  refine sp_bind _ fresh_sp ?_
  rintro id s6 h6 -
  refine sp_pure ⟨?_, ?_, rfl⟩
  · have := h3.toks; have := h5.toks; have := h6.toks; omega
  · intro m hm
    have := hms m hm
    rwa [h2.decls, h1.decls] at this

theorem ty_in {D : Decls} {e : Ent} {τ : Ty} (h : e.ty? = some τ) (he : EntOk D e) :
    TyIn D τ ∧ tyRank τ ≤ D.tups.length := by
  unfold Ent.ty? at h
  split at h
  · split at h <;> cases h <;> exact ⟨trivial, Nat.zero_le _⟩
  · split at h
    · next hc => cases h; exact ⟨he.1 hc, Nat.zero_le _⟩
    · split at h
      · next hc => cases h; exact ⟨he.2.1 hc, he.2.1 hc⟩
      · split at h
        · next hc => cases h; exact ⟨he.2.2 hc, Nat.zero_le _⟩
        · cases h

theorem parseFieldType_sp {s : PS} (hi : RslInv E.global s) : Sp Ft (parseFieldType E) s
    (fun τ s' => s'.toks < s.toks ∧ TyIn s.decls τ ∧ tyRank τ ≤ s.decls.tups.length) := by
  unfold parseFieldType
  refine sp_get_bind ?_
  refine sp_ite (fun _ => ?_) (fun _ => ?_)
  · exact (parseUnionType_sp hi).mono fun τ s' _ h => ⟨h.1, h.2.1, by rw [h.2.2]; exact Nat.zero_le _⟩
  · refine sp_bind _ (parseQualifiedName_ent hi).ft ?_
    rintro e s1 h1 ⟨hlt, -, hent⟩
    split
    · next τ hτ => exact sp_pure ⟨hlt, ty_in hτ hent⟩
    · exact sp_crash (by simp)

theorem natOf_sp {t : Token} {s : PS} : Sp Fr (P.natOf t) s (fun n s' => t.value = .int n ∧ s' = s) := by
  unfold P.natOf
  split
  · next h => exact sp_pure ⟨h, rfl⟩
  · exact sp_crash (by simp)

theorem parseUpperBound_sp {s : PS} : Sp Fr parseUpperBound s (fun _ s' => s'.toks < s.toks) := by
  unfold parseUpperBound
  refine sp_get_bind ?_
  refine sp_ite (fun _ => ?_) (fun _ => sp_ite (fun _ => ?_) (fun _ => sp_ite (fun _ => ?_) (fun _ => sp_fail)))
  · refine sp_bind _ matchK_sp ?_
    rintro t s1 h1 ⟨-, -, -, hlt⟩
    refine sp_bind _ natOf_sp ?_
    rintro n s2 h2 ⟨-, rfl⟩
    exact sp_pure hlt
  · refine sp_bind _ matchK_sp ?_
    rintro t s1 h1 ⟨-, -, -, hlt⟩
    exact sp_pure hlt
  · exact sp_crash (by simp)

theorem parseArrayType_sp {τ : Ty} {s : PS} : Sp Ft (parseArrayType τ) s
    (fun τ' _ => τ' = τ ∨ ∃ id lo hi, τ' = .arr id τ lo hi) := by
  unfold parseArrayType
  refine sp_get_bind ?_
  refine sp_ite (fun _ => ?_) (fun _ => sp_pure (.inl rfl))
  refine sp_bind _ matchK_sp.ft ?_
  rintro t1 s1 h1 -
  refine sp_bind _ matchK_sp.ft ?_
  rintro t2 s2 h2 -
  refine sp_bind _ natOf_sp.ft ?_
  rintro lo s3 h3 -
  refine sp_bind _ matchK_sp.ft ?_
  rintro t4 s4 h4 -
  refine sp_bind _ parseUpperBound_sp.ft ?_
  rintro hi s5 h5 -
  refine sp_bind _ matchK_sp.ft ?_
  rintro t6 s6 h6 -
  refine sp_bind _ fresh_sp ?_
  rintro id s7 h7 -
  exact sp_pure (.inr ⟨id, lo, hi, rfl⟩)

theorem mem_append_nil {α : Type} {xss : List (List α)} {t : Nat} {x : α} :
    (∃ xs, (xss ++ [[]])[t]? = some xs ∧ x ∈ xs) ↔ ∃ xs, xss[t]? = some xs ∧ x ∈ xs := by
  by_cases ht : t < xss.length
  · rw [List.getElem?_append_left ht]
  · rw [List.getElem?_append_right (by omega), List.getElem?_eq_none (l := xss) (by omega)]
    constructor
    · rintro ⟨xs, h1, h2⟩
      rw [List.getElem?_singleton] at h1
      split at h1
      · cases h1; cases h2
      · cases h1
    · rintro ⟨xs, h1, -⟩; cases h1

theorem ckIn_newTup {C : CheckTab} (ct : CompositeTy) (c : Check) :
    CkIn { C with tups := C.tups ++ [[]] } ct c ↔ CkIn C ct c := by
  cases ct with
  | record t => rfl
  | tup t => exact mem_append_nil

theorem ckIn_newRec {C : CheckTab} (ct : CompositeTy) (c : Check) :
    CkIn { C with recs := C.recs ++ [[]] } ct c ↔ CkIn C ct c := by
  cases ct with
  | record t => exact mem_append_nil
  | tup t => rfl

/-! ## Enumerations -/

/-- enter a new type -/
theorem registerType_sp {name : List Char} {id cls : Nat} {upd : PS → PS} {s : PS} {ne nr : Nat}
    (hi : RslInv E.global s)
    (hid : id = cnt s.decls cls)
    (hcnt : ∀ c, cnt (upd s).decls c = cnt s.decls c + (if c = cls then 1 else 0))
    (hsound : SoundDecls (upd s).decls (upd s).infos (upd s).seps)
    (hcr : (upd s).checks.recs.length = (upd s).decls.recs.length)
    (hct : (upd s).checks.tups.length = (upd s).decls.tups.length) (hobjs : (upd s).objs = s.objs)
    (hfb : FrozenIds (upd s).infos (upd s).nid)
    (hgrow : Grow s.decls (upd s).decls)
    (hrecs : ∀ t, t < nr → (upd s).decls.recs[t]? = s.decls.recs[t]?)
    (hinfos : ∀ t, t < nr → (upd s).infos[t]? = s.infos[t]?)
    (henums : ∀ t, t < ne → (upd s).decls.enums[t]? = s.decls.enums[t]?)
    (hseps : s.seps <+: (upd s).seps)
    (hcks : ∀ ct c, CkIn (upd s).checks ct c ↔ CkIn s.checks ct c) (hsects : (upd s).sects = s.sects) (hnid : (upd s).nid = s.nid)
    (herrs : (upd s).errs = s.errs) (htoks : (upd s).toks = s.toks) :
    Sp (Rs E.global ne nr) (P.registerType E name id cls upd) s
      (fun _ s' => ∃ T, s' = { upd s with tabs := T }) := by
  unfold Sp P.registerType
  cases hT : s.tabs[E.pkg]? with
  | none => exact ⟨Rs.refl _ _ _ _, by simp⟩
  | some T =>
    simp only
    cases hr : T.register { name, id, cls } with
    | error e => exact (sp_fail (α := Unit) (Q := fun _ _ => True)).frs
    | ok T' =>
      simp only
      refine ⟨⟨fun _ => ?_, hgrow, hrecs, hinfos, henums, hseps, hcks, hobjs, hsects, ?_, ?_, ?_, ?_⟩, _, rfl⟩
      · exact hi.register hT hr hid hcnt hsound hcr hct hobjs rfl hfb
      · simp
      · exact Nat.le_of_eq hnid.symm
      · exact ⟨[], by simp [herrs]⟩
      · exact Nat.le_of_eq htoks

theorem addLiteral_sp {t : Nat} {name : List Char} {s : PS} {ne nr : Nat} (hi : RslInv E.global s)
    (hne : ne ≤ t) : Sp (Rs E.global ne nr) (P.addLiteral t name) s (fun _ s' => s'.toks = s.toks) := by
  unfold Sp P.addLiteral
  cases hr : registerName (((s.decls.enums[t]?).getD []).map String.toList) name with
  | error e => exact (sp_fail (α := Unit) (Q := fun _ _ => True)).frs
  | ok u =>
    cases u
    have hn := registerName_ok.1 hr
    have hs : SoundDecls (addLitD s.decls t (String.ofList name)) s.infos s.seps := by
      refine sound_addLit hi.sound fun l' hl' => ?_
      have := hn _ (List.mem_map_of_mem hl')
      rw [SameName, String.toList_ofList]
      exact this
    refine ⟨⟨fun _ => ?_, grow_addLit (t := t) (l := String.ofList name), fun _ _ => rfl, fun _ _ => rfl, ?_,
      List.prefix_rfl, fun _ _ => .rfl, rfl, rfl, rfl, Nat.le_refl _, ⟨[], by simp⟩, Nat.le_refl _⟩, rfl⟩
    · refine hi.change ?_ hs hi.crecs hi.ctups rfl rfl hi.frozenBefore
      intro c
      simp [cnt]
    · intro u hu
      have : t ≠ u := by omega
      simp [this]

theorem literalLoop_sp {t : Nat} {ne nr : Nat} (hne : ne ≤ t) : ∀ (k : Nat) (any : Bool) (s : PS),
    RslInv E.global s → s.toks < k →
    Sp (Rs E.global ne nr) (literalLoop t k any) s (fun _ _ => True) := by
  intro k
  induction k with
  | zero => intro any s _ h; omega
  | succ k ih =>
    intro any s hi hk
    unfold literalLoop
    refine sp_get_bind ?_
    refine sp_ite (fun _ => sp_pure trivial) (fun _ => ?_)
    refine sp_bind _ parseDescribedName_sp.frs ?_
    rintro tok s1 h1 ⟨hlt, -⟩
    refine sp_bind _ (addLiteral_sp (h1.inv hi) hne) ?_
    rintro _ s2 h2 ht2
    exact ih true s2 (h2.inv (h1.inv hi)) (by omega)

theorem parseEnumDecl_sp {s : PS} (hi : RslInv E.global s) :
    Spe (Rs E.global s.decls.enums.length s.decls.recs.length) (s.peekKw "enum" = true)
      (parseEnumDecl E) s (fun _ s' => s'.toks < s.toks) := by
  unfold parseEnumDecl
  refine spe_bind _ matchKw_sp.frs (fun hp _ h => matchKw_err hp h) (fun _ _ h => h.2.2.2.2) ?_
  rintro t1 s1 h1 ⟨-, -, -, -, hlt1⟩
  refine sp_bind _ parseDescribedName_sp.frs ?_
  rintro t2 s2 h2 ⟨hlt2, -⟩
  have hi2 := h2.inv (h1.inv hi)
  refine sp_get_bind ?_
  have hlen : s.decls.enums.length ≤ s2.decls.enums.length := (h1.grow.trans h2.grow).enumsLen
  refine sp_bind _ (registerType_sp hi2 rfl ?_ (sound_addEnum hi2.sound) hi2.crecs hi2.ctups rfl
    hi2.frozenBefore grow_addEnum (fun _ _ => rfl) (fun _ _ => rfl) ?_ List.prefix_rfl (fun _ _ => .rfl) rfl rfl rfl rfl) ?_
  · intro c
    by_cases hc : c = clsEnum
    · subst hc; simp [cnt, clsEnum, clsRecord, clsTuple]
    · simp [cnt, hc]
  · intro t ht
    simp only
    rw [List.getElem?_append_left (by omega)]
  rintro _ s3 h3 ⟨T, rfl⟩
  refine sp_bind _ matchK_sp.frs ?_
  rintro t4 s4 h4 ⟨-, -, -, hlt4⟩
  refine sp_get_bind ?_
  refine sp_bind _ (literalLoop_sp hlen (s4.toks + 1) false s4 (h4.inv (h3.inv hi2)) (by omega)) ?_
  rintro any s5 h5 -
  refine sp_bind _ matchK_sp.frs ?_
  rintro t6 s6 h6 ⟨-, -, -, hlt6⟩
  refine sp_cond (fun _ => sp_pure ?_) (fun _ => sp_fail.frs)
  have := h5.toks; have := h4.toks; have := h3.toks; have := h2.toks
  omega

/-! ## Tuples -/

theorem parseTupleField_sp {t : Nat} {allowed required : Bool} {s : PS} (hi : RslInv E.global s) :
    Sp Ft (parseTupleField E t allowed required) s (fun c s' => s'.toks < s.toks ∧
      s.peek .IDENTIFIER = true ∧ TyIn s.decls c.ty ∧ tyRank c.ty ≤ s.decls.tups.length ∧
      c.memberOf = .tup t ∧ (required = true → c.optional = true) ∧ (c.optional = true → allowed = true)) := by
  unfold parseTupleField
  refine sp_bind (fun _ s' => s' = s) (sp_cond (fun _ => sp_crash (by simp)) (fun _ => sp_pure rfl)) ?_
  rintro _ s0 h0 rfl
  refine sp_bind _ parseDescribedName_sp.ft ?_
  rintro name s1 h1 ⟨hlt1, hp⟩
  refine sp_get_bind ?_
  refine sp_bind (fun opt s' => (required = true → opt = true) ∧ (opt = true → allowed = true)) ?_ ?_
  · refine sp_cond (fun _ => ?_) (fun hc => sp_pure ⟨?_, by simp⟩)
    · refine sp_bind _ matchKw_sp.ft ?_
      rintro t2 s2 h2 -
      refine sp_cond (fun ha => sp_pure ⟨fun _ => rfl, fun _ => ha⟩) (fun _ => sp_fail.ft)
    · intro hr
      rw [hr] at hc
      simp at hc
  rintro opt s2 h2 ⟨hr, ha⟩
  refine sp_bind _ (parseFieldType_sp (hi.ft (h1.trans h2))) ?_
  rintro τ s3 h3 ⟨hlt3, hin, hrank⟩
  rw [h2.decls, h1.decls] at hin hrank
  have := h2.toks
  exact sp_pure ⟨by omega, hp, hin, hrank, rfl, hr, ha⟩

/-- The fields and separators read so far -/
structure TupAcc (D : Decls) (t : Nat) (has req : Bool) (cs : List Comp) (seps : List Sep) : Prop where
  first : ∃ c cs', cs = c :: cs' ∧ c.optional = false
  tail : OptionalTail cs
  req : req = false → ∀ c ∈ cs, c.optional = false
  names : cs.Pairwise fun c c' => ¬ SameName c.name c'.name
  types : ∀ c ∈ cs, TyIn D c.ty ∧ tyRank c.ty ≤ D.tups.length ∧ c.memberOf = .tup t
  none : has = false → seps = [] ∧ ∀ c ∈ cs, c.optional = false
  some : has = true → seps ≠ [] ∧ seps.length + 1 = cs.length

theorem optionalTail_append {cs : List Comp} {c : Comp} (h : OptionalTail cs)
    (hc : (∃ d ∈ cs, d.optional = true) → c.optional = true) : OptionalTail (cs ++ [c]) := by
  induction cs with
  | nil => exact ⟨by simp, trivial⟩
  | cons d cs ih =>
    refine ⟨fun hd e he => ?_, ih h.2 fun ⟨x, hx, hxo⟩ => hc ⟨x, List.mem_cons_of_mem _ hx, hxo⟩⟩
    rcases List.mem_append.1 he with he | he
    · exact h.1 hd e he
    · rw [List.mem_singleton] at he
      subst he
      exact hc ⟨d, by simp, hd⟩

theorem addField_sp {cs : List Comp} {c : Comp} {s : PS} : Sp Fr (P.addField cs c) s
    (fun cs' s' => s' = s ∧ cs' = cs ++ [c] ∧ ∀ d ∈ cs, ¬ SameName d.name c.name) := by
  unfold P.addField
  cases hr : registerName (compNames cs) c.name.toList with
  | error e => exact sp_fail
  | ok u =>
    cases u
    refine sp_pure ⟨rfl, rfl, fun d hd => ?_⟩
    exact registerName_ok.1 hr _ (List.mem_map.2 ⟨d, hd, rfl⟩)

theorem parseSeparator_sp {cs : List Comp} {seps : List Sep} {s : PS} : Sp Fr (parseSeparator cs seps) s
    (fun ss s' => (ss = seps ∧ s' = s ∧ s.peek .IDENTIFIER = false) ∨
      (∃ x, ss = seps ++ [x]) ∧ seps.length + 1 = cs.length) := by
  unfold parseSeparator
  refine sp_get_bind ?_
  split
  · next h => exact sp_pure (.inl ⟨rfl, rfl, by simp [PS.peek, h]⟩)
  · next t h =>
    refine sp_ite (fun _ => ?_) (fun hc => sp_pure (.inl ⟨rfl, rfl, ?_⟩))
    · refine sp_bind _ advance_sp ?_
      rintro _ s1 h1 -
      refine sp_ite (fun _ => sp_crash (by simp)) (fun hl => sp_pure (.inr ⟨⟨_, rfl⟩, ?_⟩))
      simpa using hl
    · simp only [not_or] at hc
      simp [PS.peek, h, hc.1]

theorem TupAcc.add {D : Decls} {t : Nat} {has req has' : Bool} {cs : List Comp} {seps seps' : List Sep}
    {c : Comp} (h : TupAcc D t has req cs seps) (hn : ∀ d ∈ cs, ¬ SameName d.name c.name)
    (hin : TyIn D c.ty) (hrank : tyRank c.ty ≤ D.tups.length) (hm : c.memberOf = .tup t)
    (hreq : req = true → c.optional = true)
    (hnone : has' = false → has = false ∧ seps' = [] ∧ c.optional = false)
    (hsome : has' = true → seps' ≠ [] ∧ seps'.length + 1 = cs.length + 1) :
    TupAcc D t has' (req || c.optional) (cs ++ [c]) seps' := by
  obtain ⟨d, ds, rfl, hd⟩ := h.first
  refine ⟨⟨d, ds ++ [c], rfl, hd⟩, optionalTail_append h.tail ?_, ?_, ?_, ?_, ?_, ?_⟩
  · rintro ⟨x, hx, hxo⟩
    cases hq : req with
    | true => exact hreq hq
    | false => rw [h.req hq x hx] at hxo; cases hxo
  · intro hq
    simp only [Bool.or_eq_false_iff] at hq
    intro x hx
    rcases List.mem_append.1 hx with hx | hx
    · exact h.req hq.1 x hx
    · rw [List.mem_singleton] at hx; subst hx; exact hq.2
  · rw [List.pairwise_append]
    exact ⟨h.names, List.pairwise_singleton _ _, fun a ha b hb => by
      rw [List.mem_singleton] at hb; subst hb; exact hn a ha⟩
  · intro x hx
    rcases List.mem_append.1 hx with hx | hx
    · exact h.types x hx
    · rw [List.mem_singleton] at hx; subst hx; exact ⟨hin, hrank, hm⟩
  · intro hh
    obtain ⟨h1, h2, h3⟩ := hnone hh
    refine ⟨h2, fun x hx => ?_⟩
    rcases List.mem_append.1 hx with hx | hx
    · exact (h.none h1).2 x hx
    · rw [List.mem_singleton] at hx; subst hx; exact h3
  · intro hh
    simpa using hsome hh

theorem tupleLoop_sp {t : Nat} : ∀ (k : Nat) (has req alw : Bool) (cs : List Comp) (seps : List Sep) (s : PS),
    RslInv E.global s → s.toks < k → TupAcc s.decls t has req cs seps →
    (has = false → alw = true → cs.length = 1) →
    Sp Ft (tupleLoop E t k has req alw cs seps) s
      (fun r _ => ∃ req', TupAcc s.decls t r.1 req' r.2.1 r.2.2) := by
  intro k
  induction k with
  | zero => intro has req alw cs seps s _ h; omega
  | succ k ih =>
    intro has req alw cs seps s hi hk hacc hone
    unfold tupleLoop
    refine sp_get_bind ?_
    refine sp_ite (fun _ => ?_) (fun _ => sp_pure ⟨req, hacc⟩)
    refine sp_ite (fun _ => ?_) (fun hn => ?_)
    · refine sp_bind _ matchKw_sp.ft ?_
      rintro t1 s1 h1 ⟨-, -, -, -, hlt1⟩
      refine sp_ite (fun _ => sp_fail.ft) (fun ha => ?_)
      refine sp_bind _ parseSeparator_sp.ft ?_
      rintro ss s2 h2 hss
      have hi2 := hi.ft (h1.trans h2)
      refine sp_bind _ (parseTupleField_sp hi2) ?_
      rintro c s3 h3 ⟨hlt3, hp, hin, hrank, hm, hreq, -⟩
      refine sp_bind _ addField_sp.ft ?_
      rintro cs' s4 h4 ⟨rfl, rfl, hn⟩
      have hd : s4.decls = s.decls := h3.decls.trans (h2.decls.trans h1.decls)
      have hd2 : s2.decls = s.decls := h2.decls.trans h1.decls
      rw [hd2] at hin hrank
      have := ih true (req || c.optional) alw (cs ++ [c]) ss s4 (hi2.ft h3)
        (by have := h2.toks; omega)
      rw [hd] at this
      refine this ?_ (by simp)
      refine hacc.add hn hin hrank hm hreq (by simp) fun _ => ?_
      rcases hss with ⟨-, rfl, hp'⟩ | ⟨⟨x, rfl⟩, hl⟩
      · rw [hp] at hp'; cases hp'
      · simp [hl]
    · simp only [Bool.or_eq_true, not_or, Bool.not_eq_true] at hn
      obtain ⟨rfl, -⟩ := hn
      refine sp_bind _ (parseTupleField_sp hi) ?_
      rintro c s3 h3 ⟨hlt3, hp, hin, hrank, hm, hreq, hopt⟩
      refine sp_bind _ addField_sp.ft ?_
      rintro cs' s4 h4 ⟨rfl, rfl, hn⟩
      have := ih false (req || c.optional) false (cs ++ [c]) seps s4 (hi.ft h3) (by omega)
      rw [h3.decls] at this
      refine this ?_ (by simp)
      refine hacc.add hn hin hrank hm hreq (fun _ => ⟨rfl, (hacc.none rfl).1, ?_⟩) (by simp)
      cases ho : c.optional with
      | false => rfl
      | true => exact absurd (hopt ho) (by simp)

theorem parseTupleDecl_sp {s : PS} {ne nr : Nat} (hi : RslInv E.global s) :
    Spe (Rs E.global ne nr) (s.peekKw "tuple" = true) (parseTupleDecl E) s (fun _ s' => s'.toks < s.toks) := by
  unfold parseTupleDecl
  refine spe_bind _ matchKw_sp.frs (fun hp _ h => matchKw_err hp h) (fun _ _ h => h.2.2.2.2) ?_
  rintro t1 s1 h1 ⟨-, -, -, -, hlt1⟩
  refine sp_bind _ parseDescribedName_sp.frs ?_
  rintro name s2 h2 ⟨hlt2, -⟩
  refine sp_bind _ matchK_sp.frs ?_
  rintro t3 s3 h3 ⟨-, -, -, hlt3⟩
  refine sp_get_bind ?_
  have hi3 := h3.inv (h2.inv (h1.inv hi))
  refine sp_bind _ (parseTupleField_sp hi3).rsf ?_
  rintro c s4 - ⟨⟨hlt4, -, hin, hrank, hm, hreq, hopt⟩, h4⟩
  refine sp_bind _ addField_sp.ft.rs ?_
  rintro cs s5 h5 ⟨rfl, rfl, -⟩
  refine sp_get_bind ?_
  have hco : c.optional = false := by
    cases ho : c.optional with
    | false => rfl
    | true => exact absurd (hopt ho) (by simp)
  have hacc : TupAcc s3.decls s3.decls.tups.length false false ([] ++ [c]) [] := by
    refine ⟨⟨c, [], rfl, hco⟩, ⟨by simp, trivial⟩, ?_, List.pairwise_singleton _ _, ?_, ?_, by simp⟩
    · intro _ x hx; rw [List.nil_append, List.mem_singleton] at hx; subst hx; exact hco
    · intro x hx; rw [List.nil_append, List.mem_singleton] at hx; subst hx; exact ⟨hin, hrank, hm⟩
    · refine fun _ => ⟨rfl, fun x hx => ?_⟩
      rw [List.nil_append, List.mem_singleton] at hx; subst hx; exact hco
  have hl := tupleLoop_sp (E := E) (t := s3.decls.tups.length) (s5.toks + 1) false false true ([] ++ [c]) []
    s5 (hi3.ft h4) (by omega)
  rw [h4.decls] at hl
  refine sp_bind _ (hl hacc (by simp)).rsf ?_
  rintro ⟨has, cs, seps⟩ s6 - ⟨⟨req', hacc⟩, h6⟩
  refine sp_bind _ matchK_sp.ft.rsf ?_
  rintro t7 s7 - ⟨-, h7⟩
  refine sp_get_bind ?_
  have hf : Ft s3 s7 := h4.trans (h6.trans h7)
  refine sp_bind (fun _ s' => (has = true → ∀ c ∈ cs, s7.isSepTuple c.ty = false) ∧ s' = s7)
    (sp_cond (fun _ => sp_fail.frs) (fun hc => sp_pure ⟨?_, rfl⟩)) ?_
  · intro hh c hc'
    rw [hh, Bool.true_and] at hc
    have := List.any_eq_false.1 hc c hc'
    simpa using this
  rintro _ s8 h8 ⟨hnest, rfl⟩
  have hi4 := hi3.ft hf
  have hD : s8.decls = s3.decls := hf.decls
  simp only at hacc hnest
  rw [← hD] at hacc
  refine (registerType_sp (upd := fun s => { s with
      decls := { s.decls with tups := s.decls.tups ++ [cs] }
      seps := s.seps ++ [seps]
      checks := { s.checks with tups := s.checks.tups ++ [[]] } })
    hi4 (by rw [hD]; rfl) ?_ (sound_addTup hi4.sound (cs := cs) (ss := seps) ?_ ?_ ?_ ?_ ?_ ?_ ?_) hi4.crecs ?_ rfl
    hi4.frozenBefore grow_addTup (fun _ _ => rfl) (fun _ _ => rfl) (fun _ _ => rfl) (List.prefix_append _ _)
    ckIn_newTup rfl rfl rfl rfl).mono ?_
  · intro c
    by_cases hc : c = clsTuple
    · subst hc; simp [cnt, clsRecord, clsTuple]
    · simp [cnt, hc]
  · refine ⟨hacc.first, hacc.tail, ?_, fun c hc => tyIn_ok (hacc.types c hc).1, fun c hc => (hacc.types c hc).2.1⟩
    rw [List.Nodup, List.pairwise_map]
    exact hacc.names.imp fun {a b} h e => h (by rw [SameName, e])
  · exact fun c hc => (hacc.types c hc).1
  · exact hacc.names
  · intro c hc; exact (hacc.types c hc).2.2
  · cases hh : has with
    | false => exact .inl (hacc.none hh).1
    | true => exact .inr (hacc.some hh).2
  · intro he
    cases hh : has with
    | false => exact (hacc.none hh).2
    | true => exact absurd he (hacc.some hh).1
  · intro hne u us ⟨c, hc, e⟩ hu
    have hh : has = true := by
      cases hh : has with
      | true => rfl
      | false => exact absurd (hacc.none hh).1 hne
    have := hnest hh c hc
    rw [e] at this
    simp only [PS.isSepTuple, hu] at this
    simpa using this
  · simp [hi4.ctups]
  · rintro _ s5 h5 -
    have := h5.toks; have := hf.toks
    omega

end Verif.Lemmas
