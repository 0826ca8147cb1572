import Verif.Lemmas.RslTypes
/-!
# Parsing record declarations keeps the invariant
-/
namespace Verif.Lemmas
open Verif.Model Verif.Spec

variable {E : FileEnv} {ne nr : Nat}

theorem parseComponent_sp {t : Nat} {s : PS} (hi : RslInv E.global s) :
    Sp Ft (parseComponent E t) s (fun c s' => s'.toks < s.toks ∧ TyIn s.decls c.ty ∧
      tyRank c.ty < s.decls.tups.length + 3 ∧ c.memberOf = .record t) := by
  unfold parseComponent
  refine sp_bind _ parseDescribedName_sp.ft ?_
  rintro name s1 h1 ⟨hlt1, -⟩
  refine sp_get_bind ?_
  refine sp_bind (fun _ _ => True) ?_ ?_
  · refine sp_cond (fun _ => ?_) (fun _ => sp_pure trivial)
    exact sp_bind _ matchKw_sp.ft fun _ _ _ _ => sp_pure trivial
  rintro opt s2 h2 -
  refine sp_bind _ (parseFieldType_sp (hi.ft (h1.trans h2))) ?_
  rintro τ s3 h3 ⟨hlt3, hin, hrank⟩
  rw [h2.decls, h1.decls] at hin hrank
  refine sp_bind _ parseArrayType_sp ?_
  rintro τ' s4 h4 hτ
  have := h2.toks; have := h4.toks
  refine sp_pure ⟨by omega, ?_, ?_, rfl⟩
  · rcases hτ with rfl | ⟨id, lo, hi, rfl⟩
    · exact hin
    · exact hin
  · rcases hτ with rfl | ⟨id, lo, hi, rfl⟩
    · show tyRank τ' < _; omega
    · simp only [tyRank]; omega

theorem addComponent_sp {t : Nat} {c : Comp} {s : PS} (hi : RslInv E.global s)
    (ht : t + 1 = s.decls.recs.length) (hnr : nr ≤ t) (hown : c.memberOf = .record t)
    (hin : TyIn s.decls c.ty) (hrank : tyRank c.ty < s.decls.tups.length + 3)
    (hf : (s.info t).isFinal = false) :
    Sp (Rs E.global ne nr) (P.addComponent t c) s
      (fun _ s' => s'.toks = s.toks ∧ s'.decls.recs.length = s.decls.recs.length) := by
  unfold Sp P.addComponent
  cases hr : registerName (compNames (s.decls.allComponents t)) c.name.toList with
  | error e => exact (sp_fail (α := Unit) (Q := fun _ _ => True)).frs
  | ok u =>
    cases u
    have hn := registerName_ok.1 hr
    have wf := hi.sound.world.wf
    have hs : SoundDecls (addCompD s.decls t c) s.infos s.seps := by
      refine sound_addComp hi.sound ht hown (tyIn_ok hin) hrank hin ?_ ?_
      · intro c' hc'
        exact hn _ (List.mem_map.2 ⟨c', (mem_allComponents wf t c').2 hc', rfl⟩)
      · intro p hp hfin
        obtain ⟨i, h1, h2⟩ := (hi.sound.final t p hp hfin).1
        rw [PS.info, h1] at hf
        simp only [Option.getD_some] at hf
        rw [hf] at h2
        cases h2
    refine ⟨⟨fun _ => ?_, grow_addComp (t := t) (c := c), ?_, fun _ _ => rfl, fun _ _ => rfl,
      List.prefix_rfl, fun _ _ => .rfl, rfl, rfl, rfl, Nat.le_refl _, ⟨[], by simp⟩, Nat.le_refl _⟩, rfl, by simp⟩
    · refine hi.change ?_ hs ?_ hi.ctups rfl rfl hi.frozenBefore
      · intro c
        simp [cnt]
      · simp [hi.crecs]
    · intro u hu
      have : t ≠ u := by omega
      simp [this]

theorem parseFreeze_sp {t : Nat} {s : PS} (hi : RslInv E.global s)
    (ht : t + 1 = s.decls.recs.length) (hnr : nr ≤ t) :
    Sp (Rs E.global ne nr) (parseFreeze E t) s
      (fun _ s' => s'.toks < s.toks ∧ s'.decls = s.decls) := by
  unfold parseFreeze
  refine sp_bind _ matchKw_sp.ft.rsf ?_
  rintro t1 s1 - ⟨⟨-, -, -, -, hlt1⟩, h1⟩
  refine sp_bind _ matchK_sp.ft.rsf ?_
  rintro tok s2 - ⟨⟨-, -, -, hlt2⟩, h2⟩
  refine sp_get_bind ?_
  refine sp_bind _ liftSym_sp.frs ?_
  rintro _ s3 - ⟨hl, rfl⟩
  have hi3 := hi.ft (h1.trans h2)
  have wf := hi3.sound.world.wf
  have hd : s3.decls = s.decls := h2.decls.trans h1.decls
  split
  · exact sp_crash (by simp)
  · next c hc =>
    obtain ⟨hc1, hc2⟩ := component_hasComp wf hc
    refine sp_ite (fun _ => sp_fail.frs) (fun hnf => ?_)
    refine sp_bind _ matchK_sp.ft.rsf ?_
    rintro t4 s4 - ⟨⟨-, -, -, hlt4⟩, h4⟩
    have hi4 := hi3.ft h4
    have hty := hi3.sound.world.types t c hc1
    have hpv := parseValue_sp (E := E) hi3.sound.world.tuples s3.decls.typeDepth c.ty hty.2 hty.1
      s4 h4.decls s4 (Fr.refl _)
    refine sp_bind _ hpv.ft.rsf ?_
    rintro v s5 - ⟨⟨hlt5, hv, -⟩, h5⟩
    have hi5 := hi4.ft h5
    have hd5 : s5.decls = s3.decls := h5.decls.trans h4.decls
    have hi5' : s5.infos = s3.infos := h5.infos.trans h4.infos
    have hnf' : ∀ a, Extends s5.decls t a → ¬ Freezes s5.infos a c.name := by
      rintro a ha ⟨i, hia, hmem⟩
      apply hnf
      rw [isFrozen_iff wf]
      cases hl : i.frozen.lookup c.name with
      | none =>
        rw [List.lookup_eq_none_iff] at hl
        obtain ⟨x, hx, e⟩ := List.mem_map.1 hmem
        have := hl x hx
        rw [e] at this
        simp at this
      | some node => exact ⟨node, a, i, hd5 ▸ ha, hi5' ▸ hia, hl⟩
    have hs := sound_freeze (v := ({ id := s5.nid, val := v } : VNode)) (t := t) (c := c) hi5.sound
      (by rw [hd5, hd]; exact ht) (by rw [hd5]; exact hc1) (by rw [hd5]; exact hv) hnf'
    have hfb : FrozenIds (s5.infos.modify t fun i =>
        { i with frozen := i.frozen ++ [(c.name, ({ id := s5.nid, val := v } : VNode))] }) (s5.nid + 1) := by
      refine hi5.frozenBefore.add (v := v) fun i hmem f hf => ?_
      obtain ⟨u, hu⟩ := List.mem_iff_getElem?.1 hmem
      rcases modify_get hu with ⟨-, h3⟩ | ⟨rfl, j, h3, rfl⟩
      · exact .inl ⟨i, List.mem_of_getElem? h3, hf⟩
      · rcases List.mem_append.1 hf with hf | hf
        · exact .inl ⟨j, List.mem_of_getElem? h3, hf⟩
        · rw [List.mem_singleton] at hf
          subst hf
          exact .inr rfl
    show Sp (Rs E.global ne nr) (fun s => PR.ok () { s with
      nid := s.nid + 1
      infos := s.infos.modify t fun i =>
        { i with frozen := i.frozen ++ [(c.name, ({ id := s.nid, val := v } : VNode))] } }) s5 _
    refine ⟨⟨fun _ => ?_, Grow.refl _, fun _ _ => rfl, ?_, fun _ _ => rfl, List.prefix_rfl,
      fun _ _ => .rfl, rfl, rfl, rfl, Nat.le_succ _, ⟨[], by simp⟩, Nat.le_refl _⟩, ?_, ?_⟩
    · exact hi5.change (fun _ => rfl) hs hi5.crecs hi5.ctups rfl rfl hfb
    · intro u hu
      have : t ≠ u := by omega
      simp [this]
    · show s5.toks < _
      omega
    · exact hd5.trans hd

theorem recordLoop_sp {t : Nat} (hnr : nr ≤ t) : ∀ (k : Nat) (s : PS),
    RslInv E.global s → s.toks < k → t + 1 = s.decls.recs.length →
    Sp (Rs E.global ne nr) (recordLoop E t k) s (fun _ s' => t + 1 = s'.decls.recs.length) := by
  intro k
  induction k with
  | zero => intro s _ h; omega
  | succ k ih =>
    intro s hi hk ht
    unfold recordLoop
    refine sp_get_bind ?_
    refine sp_ite (fun _ => sp_pure ht) (fun _ => sp_ite (fun _ => ?_) (fun _ => ?_))
    · refine sp_bind _ (parseFreeze_sp hi ht hnr) ?_
      rintro _ s1 h1 ⟨hlt, hd⟩
      exact ih s1 (h1.inv hi) (by omega) (by rw [hd]; exact ht)
    · refine sp_bind _ (parseComponent_sp hi).rsf ?_
      rintro c s1 - ⟨⟨hlt, hin, hrank, hown⟩, h1⟩
      refine sp_get_bind ?_
      refine sp_ite (fun _ => sp_fail.frs) (fun hf => ?_)
      have hi1 := hi.ft h1
      refine sp_bind _ (addComponent_sp hi1 (by rw [h1.decls]; exact ht) hnr hown
        (by rw [h1.decls]; exact hin) (by rw [h1.decls]; exact hrank) (by simpa using hf)) ?_
      rintro _ s2 h2 ⟨ht2, hl2⟩
      exact ih s2 (h2.inv hi1) (by omega) (by rw [hl2, h1.decls]; exact ht)

theorem spe_modifiers {β γ : Type} {g : STab} {x : P γ} {f : γ → P β} {s : PS}
    {Q : β → PS → Prop} (hx : Sp (Rs g ne nr) x s (fun _ s' => Ft s s'))
    (hp : s.peekKw "abstract" = true ∨ s.peekKw "final" = true ∨ s.peekKw "type" = true →
      (∀ s1, x s = .err s1 → s1.toks < s.toks) ∧
      ∀ a s1, x s = .ok a s1 → s1.toks < s.toks ∨ s1 = s ∧ s.peekKw "type" = true)
    (hf : ∀ a s1, Ft s s1 → Spe (Rs g ne nr) (s1.peekKw "type" = true) (f a) s1 Q) :
    Spe (Rs g ne nr) (s.peekKw "abstract" = true ∨ s.peekKw "final" = true ∨ s.peekKw "type" = true)
      (x >>= f) s Q := by
  refine ⟨sp_bind _ hx fun a s1 _ h => (hf a s1 h).1, fun hh s' e => ?_⟩
  rw [bind_apply] at e
  cases hxs : x s with
  | err s1 =>
    rw [hxs] at e
    simp only [PR.err.injEq] at e
    rw [← e]
    exact (hp hh).1 s1 hxs
  | crash c s1 => rw [hxs] at e; cases e
  | ok a s1 =>
    rw [hxs] at e
    dsimp only at e
    obtain ⟨-, h2⟩ := hx.ok hxs
    rcases (hp hh).2 a s1 hxs with h3 | ⟨rfl, h3⟩
    · exact Nat.lt_of_le_of_lt (((hf a s1 h2).1).err e).toks h3
    · exact (hf a s1 h2).2 h3 s' e

theorem spe_get_bind {β : Type} {g : STab} {h : Prop} {f : PS → P β} {s : PS} {Q : β → PS → Prop}
    (hf : Spe (Rs g ne nr) h (f s) s Q) : Spe (Rs g ne nr) h (P.get >>= f) s Q := hf

theorem modifier_ends {v : String} {b : Bool × Bool} {s : PS} (hv : s.peekKw v = true) :
    (∀ s1, (do let _ ← P.matchKw v; pure b : P (Bool × Bool)) s = .err s1 → s1.toks < s.toks) ∧
    ∀ a s1, (do let _ ← P.matchKw v; pure b : P (Bool × Bool)) s = .ok a s1 → s1.toks < s.toks := by
  rw [bind_apply]
  cases hm : P.matchKw v s with
  | err s1 =>
    refine ⟨fun s2 e => ?_, fun a s2 e => by cases e⟩
    simp only [PR.err.injEq] at e
    rw [← e]
    exact matchKw_err hv hm
  | crash c s1 => exact ⟨fun s2 e => (by cases e), fun a s2 e => (by cases e)⟩
  | ok t s1 =>
    refine ⟨fun s2 e => (by cases e), fun a s2 e => ?_⟩
    simp only [pure_apply, PR.ok.injEq] at e
    rw [← e.2]
    exact (matchKw_sp.ok hm).2.2.2.2.2

theorem parseRecordDecl_sp {s : PS} (hi : RslInv E.global s) :
    Spe (Rs E.global ne s.decls.recs.length)
      (s.peekKw "abstract" = true ∨ s.peekKw "final" = true ∨ s.peekKw "type" = true)
      (parseRecordDecl E) s (fun _ s' => s'.toks < s.toks) := by
  unfold parseRecordDecl
  refine spe_get_bind (spe_modifiers ?_ ?_ ?_)
  · refine sp_cond (fun _ => ?_) (fun _ => sp_cond (fun _ => ?_) (fun _ => sp_pure (Ft.refl s)))
    · exact sp_bind _ matchKw_sp.ft.rsf fun _ _ _ h => sp_pure h.2
    · exact sp_bind _ matchKw_sp.ft.rsf fun _ _ _ h => sp_pure h.2
  · intro hh
    cases hA : s.peekKw "abstract" with
    | true =>
      have := modifier_ends (b := (true, false)) hA
      exact ⟨this.1, fun a s1 h => .inl (this.2 a s1 h)⟩
    | false =>
      cases hF : s.peekKw "final" with
      | true =>
        have := modifier_ends (b := (false, true)) hF
        exact ⟨this.1, fun a s1 h => .inl (this.2 a s1 h)⟩
      | false =>
        rw [hA, hF] at hh
        refine ⟨fun s1 e => (by cases e), fun a s1 e => Or.inr ?_⟩
        cases e
        exact ⟨rfl, by simpa using hh⟩
  rintro ⟨isAbs, isFin⟩ s1 h1
  refine spe_bind _ matchKw_sp.ft.rsf (fun hp _ h => matchKw_err hp h) (fun _ _ h => h.1.2.2.2.2) ?_
  rintro t2 s2 - ⟨⟨-, -, -, -, hlt2⟩, h2⟩
  refine sp_bind _ parseDescribedName_sp.ft.rsf ?_
  rintro name s3 - ⟨⟨hlt3, -⟩, h3⟩
  refine sp_get_bind ?_
  have hf3 := h1.trans (h2.trans h3)
  refine sp_bind (fun p s' => Ft s3 s' ∧ ∀ q, p = some q → q < s.decls.recs.length) ?_ ?_
  · refine sp_cond (fun _ => ?_) (fun _ => sp_pure ⟨Ft.refl _, by simp⟩)
    refine sp_bind _ matchKw_sp.ft.rsf ?_
    rintro t4 s4 - ⟨-, h4⟩
    refine sp_bind _ (parseQualifiedName_ent (hi.ft (hf3.trans h4))).ft.rsf ?_
    rintro e s5 - ⟨⟨-, hsub, hent⟩, h5⟩
    refine sp_pure ⟨h4.trans h5, ?_⟩
    intro q hq
    cases hq
    simp only [decide_eq_true_eq] at hsub
    have := hent.1 hsub
    rwa [h4.decls, hf3.decls] at this
  rintro p s4 - ⟨h4, hp⟩
  refine sp_get_bind ?_
  have hf4 := hf3.trans h4
  have hi4 := hi.ft hf4
  have hD : s4.decls = s.decls := hf4.decls
  have hlen : s4.infos.length = s4.decls.recs.length := hi4.sound.infoLen
  refine sp_bind _ (registerType_sp (upd := fun s => { s with
      decls := { s.decls with recs := s.decls.recs ++ [{ parent := p, own := [] }] }
      infos := s.infos ++ [{ frozen := [], isAbstract := isAbs,
                             isFinal := p.any fun p => (s.info p).isFinal }]
      checks := { s.checks with recs := s.checks.recs ++ [[]] } })
    hi4 rfl ?_ (sound_addRec hi4.sound (by rw [hD]; exact hp) rfl ?_) ?_ hi4.ctups rfl ?_
    (grow_addRec (p := p)) ?_ ?_ (fun _ _ => rfl) List.prefix_rfl ckIn_newRec rfl rfl rfl rfl) ?_
  · intro c
    by_cases hc : c = clsRecord
    · subst hc; simp [cnt]
    · simp [cnt, hc]
  · rintro q rfl ⟨i, h5, h6⟩
    simp [PS.info, h5, h6]
  · simp [hi4.crecs]
  · refine hi4.frozenBefore.sub (Nat.le_refl _) fun i hmem f hf => ?_
    rcases List.mem_append.1 hmem with h | h
    · exact ⟨i, h, hf⟩
    · rw [List.mem_singleton] at h; subst h; cases hf
  · intro t ht
    rw [← hD] at ht
    simp only
    rw [List.getElem?_append_left ht]
  · intro t ht
    rw [← hD] at ht
    simp only
    rw [List.getElem?_append_left (by omega)]
  rintro _ s5 h5 hT
  have hl5 : s4.decls.recs.length + 1 = s5.decls.recs.length := by
    obtain ⟨T, rfl⟩ := hT
    simp
  have h5t := h5.toks
  have hi5 := h5.inv hi4
  refine sp_bind _ matchK_sp.ft.rsf ?_
  rintro t6 s6 - ⟨⟨-, -, -, hlt6⟩, h6⟩
  refine sp_get_bind ?_
  refine sp_bind _ (recordLoop_sp (E := E) (ne := ne) (nr := s.decls.recs.length)
    (t := s4.decls.recs.length) (by rw [hD]) (s6.toks + 1) s6 (hi5.ft h6)
    (by omega) (by rw [h6.decls]; exact hl5)) ?_
  rintro _ s7 h7 ht7
  have hi7 := h7.inv (hi5.ft h6)
  refine sp_bind _ matchK_sp.ft.rsf ?_
  rintro t8 s8 - ⟨⟨-, -, -, hlt8⟩, h8⟩
  have hi8 := hi7.ft h8
  have htk : s8.toks < s.toks := by
    have := h7.toks; have := h4.toks; have := h1.toks; have := h6.toks
    omega
  refine sp_cond (fun _ => ?_) (fun _ => sp_pure htk)
  refine ⟨⟨fun _ => ?_, Grow.refl _, fun _ _ => rfl, ?_, fun _ _ => rfl, List.prefix_rfl,
      fun _ _ => .rfl, rfl, rfl, rfl, Nat.le_refl _, ⟨[], by simp⟩, Nat.le_refl _⟩, htk⟩
  · refine hi8.change (fun _ => rfl) (sound_final hi8.sound (by rw [h8.decls]; exact ht7)) hi8.crecs
      hi8.ctups rfl rfl ?_
    refine hi8.frozenBefore.sub (Nat.le_refl _) fun i hmem f hf => ?_
    obtain ⟨u, hu⟩ := List.mem_iff_getElem?.1 hmem
    rcases modify_get hu with ⟨-, h3⟩ | ⟨rfl, j, h3, rfl⟩
    · exact ⟨i, List.mem_of_getElem? h3, hf⟩
    · exact ⟨j, List.mem_of_getElem? h3, hf⟩
  · intro u hu
    have : s4.decls.recs.length ≠ u := by rw [hD]; omega
    simp [this]

theorem parseTypeDecl_sp {s : PS} (hi : RslInv E.global s) :
    Spe (Rs E.global s.decls.enums.length s.decls.recs.length)
      (s.peekKw "type" = true ∨ s.peekKw "abstract" = true ∨ s.peekKw "final" = true ∨
        s.peekKw "tuple" = true ∨ s.peekKw "enum" = true) (parseTypeDecl E) s
      (fun _ s' => s'.toks < s.toks) := by
  have he := parseEnumDecl_sp hi
  have ht := parseTupleDecl_sp (ne := s.decls.enums.length) (nr := s.decls.recs.length) hi
  have hr := parseRecordDecl_sp (ne := s.decls.enums.length) hi
  have key : parseTypeDecl E s = if s.peekKw "enum" then parseEnumDecl E s
      else if s.peekKw "tuple" then parseTupleDecl E s else parseRecordDecl E s := by
    unfold parseTypeDecl
    rw [bind_apply]
    simp only [P.get]
    split
    · rfl
    · split <;> rfl
  by_cases h1 : s.peekKw "enum" = true
  · rw [if_pos h1] at key
    refine ⟨he.1.congr key, fun _ s' e => he.2 h1 s' (key ▸ e)⟩
  · rw [if_neg h1] at key
    by_cases h2 : s.peekKw "tuple" = true
    · rw [if_pos h2] at key
      refine ⟨ht.1.congr key, fun _ s' e => ht.2 h2 s' (key ▸ e)⟩
    · rw [if_neg h2] at key
      refine ⟨hr.1.congr key, fun hh s' e => hr.2 ?_ s' (key ▸ e)⟩
      rcases hh with h | h | h | h | h
      · exact .inr (.inr h)
      · exact .inl h
      · exact .inr (.inl h)
      · exact absurd h h2
      · exact absurd h h1

/-- Without a keyword that starts a declaration there is an error, and the position stays. -/
theorem parseTypeDecl_stuck {s : PS} (h : ¬ (s.peekKw "type" = true ∨ s.peekKw "abstract" = true ∨
    s.peekKw "final" = true ∨ s.peekKw "tuple" = true ∨ s.peekKw "enum" = true)) :
    parseTypeDecl E s = .err { s with errs := s.errs ++ [.expected] } := by
  simp only [not_or, Bool.not_eq_true] at h
  obtain ⟨h1, h2, h3, h4, h5⟩ := h
  unfold parseTypeDecl
  rw [bind_apply]
  simp only [P.get, h4, h5, Bool.false_eq_true, if_false]
  unfold parseRecordDecl
  rw [bind_apply]
  simp only [P.get, h2, h3]
  rw [bind_apply]
  simp only [P.cond, Bool.false_eq_true, if_false, pure_apply]
  rw [bind_apply]
  have : P.matchKw "type" s = .err { s with errs := s.errs ++ [.expected] } := by
    unfold P.matchKw
    unfold PS.peekKw at h1
    show _ = P.fail .expected s
    cases hn : s.nt with
    | none => rfl
    | some t =>
      rw [hn] at h1
      simp only
      split
      · rfl
      · split
        · rfl
        · next a b => simp_all
  rw [this]

end Verif.Lemmas
