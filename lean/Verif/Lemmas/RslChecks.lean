import Verif.Lemmas.RslRecords
import Verif.Lemmas.ElabGrow
import Verif.Lemmas.ExprNames
import Verif.Lemmas.ExprTotal
/-!
# Parsing check blocks and rsl files keeps the invariant
-/
namespace Verif.Lemmas
open Verif.Model Verif.Spec

variable {E : FileEnv} {rx : Regex}

/-- The composite type is declared. -/
def CtIn (D : Decls) : CompositeTy → Prop
  | .record t => t < D.recs.length
  | .tup t => t < D.tups.length

/-- A check of a type that was accepted in a check block -/
def AccIn (D : Decls) (rx : Regex) (ct : CompositeTy) (c : Check) : Prop :=
  CtIn D ct ∧ (∃ other enums r, (∀ p t, enums p = some t → t < D.enums.length) ∧
    elabCheck ⟨D, rx.search, rx.valid⟩ ⟨D.compIn ct, [], other, enums⟩ r = .ok c.expr) ∧
  ∀ n, c.anchor = some n → ∃ comp ∈ D.componentsOf ct, comp.name = n

/-- All checks were accepted. -/
def AllAcc (rx : Regex) (s : PS) : Prop := ∀ ct c, CkIn s.checks ct c → AccIn s.decls rx ct c

theorem compIn_in {D : Decls} {infos : List RecInfo} {seps : List (List Sep)} (hs : SoundDecls D infos seps)
    {ct : CompositeTy} {n : String} {c : Comp} (h : D.compIn ct n = some c) : TyIn D c.ty := by
  cases ct with
  | record t =>
    obtain ⟨⟨a, -, hd⟩, -⟩ := component_hasComp hs.world.wf h
    exact hs.recTypes a c hd
  | tup t =>
    have hm := List.mem_of_find?_eq_some h
    unfold Decls.fields at hm
    cases hg : D.tups[t]? with
    | none => rw [hg] at hm; cases hm
    | some cs => rw [hg] at hm; exact hs.tupTypes t cs hg c hm

theorem AccIn.later {D D' : Decls} {infos : List RecInfo} {seps : List (List Sep)} {ct : CompositeTy} {c : Check}
    (hs : SoundDecls D infos seps) (hp : Pre D D') (wf' : WFDecls D') (h : AccIn D rx ct c) :
    AccIn D' rx ct c := by
  obtain ⟨h1, ⟨other, enums, r, h2, h3⟩, h4⟩ := h
  have hct : CtIn D' ct := by
    cases ct with
    | record t => exact Nat.lt_of_lt_of_le h1 hp.recs.length_le
    | tup t => exact Nat.lt_of_lt_of_le h1 hp.tups.length_le
  have hcomp : D'.compIn ct = D.compIn ct := by
    cases ct with
    | record t => exact hp.component hs.world.wf wf' h1
    | tup t => simp only [Decls.compIn]; rw [hp.fields h1]
  have hcs : D'.componentsOf ct = D.componentsOf ct := by
    cases ct with
    | record t => exact hp.allComponents hs.world.wf wf' h1
    | tup t => exact hp.fields h1
  refine ⟨hct, ⟨other, enums, r, fun p t e => Nat.lt_of_lt_of_le (h2 p t e) hp.enums.length_le, ?_⟩, ?_⟩
  · rw [hcomp, elabCheck_same hp wf' hs]
    · exact h3
    · exact ⟨fun n c hc => compIn_in hs hc, by simp, h2⟩
  · rw [hcs]; exact h4

/-! ## Check blocks -/

/-- Only tokens are consumed, errors reported, and checks added which are accepted. -/
structure Rk (g : STab) (rx : Regex) (s s' : PS) : Prop where
  decls : s'.decls = s.decls
  infos : s'.infos = s.infos
  seps : s'.seps = s.seps
  tabs : s'.tabs = s.tabs
  objs : s'.objs = s.objs
  sects : s'.sects = s.sects
  nid : s'.nid = s.nid
  inv : RslInv g s → RslInv g s'
  old : ∀ ct c, CkIn s.checks ct c → CkIn s'.checks ct c
  new : ∀ ct c, CkIn s'.checks ct c → CkIn s.checks ct c ∨ AccIn s.decls rx ct c
  errs : ∃ l, s'.errs = s.errs ++ l
  toks : s'.toks ≤ s.toks

instance {g : STab} : PreRel (Rk g rx) where
  refl s := ⟨rfl, rfl, rfl, rfl, rfl, rfl, rfl, id, fun _ _ h => h, fun _ _ h => .inl h, ⟨[], by simp⟩,
    Nat.le_refl _⟩
  trans {a b c} h h' := by
    obtain ⟨l, hl⟩ := h.errs
    obtain ⟨l', hl'⟩ := h'.errs
    refine ⟨h'.decls.trans h.decls, h'.infos.trans h.infos, h'.seps.trans h.seps,
      h'.tabs.trans h.tabs, h'.objs.trans h.objs, h'.sects.trans h.sects, h'.nid.trans h.nid,
      h'.inv ∘ h.inv, fun ct c x => h'.old ct c (h.old ct c x), ?_,
      ⟨l ++ l', by rw [hl', hl, List.append_assoc]⟩, Nat.le_trans h'.toks h.toks⟩
    intro ct c x
    rcases h'.new ct c x with x | x
    · exact h.new ct c x
    · rw [h.decls] at x; exact .inr x

theorem Fr.rk {g : STab} {s s' : PS} (h : Fr s s') : Rk g rx s s' :=
  ⟨h.decls, h.infos, h.seps, h.tabs, h.objs, h.sects, h.nid, fun hi => hi.ft h.ft,
    fun ct c x => by rw [h.checks]; exact x, fun ct c x => by rw [h.checks] at x; exact .inl x, h.errs, h.toks⟩

theorem Sp.rk {α : Type} {x : P α} {s : PS} {Q : α → PS → Prop} (h : Sp Fr x s Q) {g : STab} :
    Sp (Rk g rx) x s (fun a s' => Q a s' ∧ Fr s s') :=
  (h.mono (Q' := fun a s' => Q a s' ∧ Fr s s') fun _ _ h1 h2 => ⟨h2, h1⟩).weaken fun _ h => h.rk

theorem parseSeverity_sp {s : PS} : Sp Fr parseSeverity s (fun _ _ => True) := by
  unfold parseSeverity
  refine sp_get_bind ?_
  refine sp_ite (fun _ => ?_) (fun _ => sp_pure trivial)
  refine sp_bind _ matchK_sp ?_
  rintro t s1 h1 -
  exact sp_ite (fun _ => sp_pure trivial) fun _ => sp_ite (fun _ => sp_pure trivial) fun _ =>
    sp_ite (fun _ => sp_pure trivial) fun _ => sp_fail

theorem parseMessage_sp {s : PS} : Sp Fr parseMessage s (fun _ _ => True) := by
  unfold parseMessage
  refine sp_bind _ matchK_sp ?_
  rintro t s1 h1 -
  refine sp_bind (fun _ _ => True) (sp_cond (fun _ => sp_report trivial) (fun _ => sp_pure trivial)) ?_
  exact fun _ _ _ _ => sp_pure trivial

theorem parseAnchor_sp {ct : CompositeTy} {s : PS} : Sp Fr (parseAnchor ct) s
    (fun a _ => ∀ n, a = some n → ∃ comp ∈ s.decls.componentsOf ct, comp.name = n) := by
  unfold parseAnchor
  refine sp_bind _ matchK_sp ?_
  rintro t s1 h1 -
  refine sp_get_bind ?_
  refine sp_bind _ liftSym_sp ?_
  rintro _ s2 h2 ⟨hl, rfl⟩
  refine sp_pure fun n hn => ?_
  cases hn
  obtain ⟨c, hc, e⟩ := List.mem_map.1 (lookupName_ok hl)
  rw [h1.decls] at hc
  exact ⟨c, hc, by rw [← e, String.ofList_toList]⟩

theorem parseExtras_sp {ct : CompositeTy} {s : PS} : Sp Fr (parseExtras ct) s
    (fun a _ => ∀ n, a = some n → ∃ comp ∈ s.decls.componentsOf ct, comp.name = n) := by
  unfold parseExtras
  refine sp_get_bind ?_
  refine sp_ite (fun _ => ?_) (fun _ => sp_pure (by simp))
  refine sp_bind _ matchK_sp ?_
  rintro t s1 h1 -
  refine sp_get_bind ?_
  refine sp_ite (fun _ => ?_) (fun _ => sp_ite (fun _ => ?_) fun _ =>
    sp_ite (fun _ => sp_crash (by simp)) fun _ => sp_fail)
  · exact parseAnchor_sp.mono fun a s' _ h => by rwa [h1.decls] at h
  · refine sp_bind _ matchK_sp ?_
    rintro t2 s2 h2 -
    refine sp_get_bind ?_
    refine sp_ite (fun _ => ?_) (fun _ => sp_pure (by simp))
    refine sp_bind _ matchK_sp ?_
    rintro t3 s3 h3 -
    exact parseAnchor_sp.mono fun a s' _ h => by rwa [h3.decls, h2.decls, h1.decls] at h

theorem mem_modify_append {α : Type} {xss : List (List α)} {t u : Nat} {x y : α} :
    (∃ xs, (xss.modify t (· ++ [x]))[u]? = some xs ∧ y ∈ xs) ↔
      (∃ xs, xss[u]? = some xs ∧ y ∈ xs) ∨ (u = t ∧ t < xss.length ∧ y = x) := by
  rw [List.getElem?_modify]
  by_cases h : t = u
  · subst h
    cases hx : xss[t]? with
    | none =>
      have : ¬ t < xss.length := by
        intro hlt
        rw [List.getElem?_eq_getElem hlt] at hx
        cases hx
      simp [this]
    | some xs =>
      have := get_lt hx
      simp [this]
  · have h' : u ≠ t := fun e => h e.symm
    simp [h, h']

theorem addCheck_rk {g : STab} {ct : CompositeTy} {c : Check} {s : PS} (hacc : AccIn s.decls rx ct c) :
    Sp (Rk g rx) (P.addCheck ct c) s (fun _ s' => s'.toks = s.toks) := by
  have e : P.addCheck ct c s = .ok () { s with checks := match ct with
      | .record t => { s.checks with recs := s.checks.recs.modify t (· ++ [c]) }
      | .tup t => { s.checks with tups := s.checks.tups.modify t (· ++ [c]) } } := by
    cases ct <;> rfl
  unfold Sp
  rw [e]
  refine ⟨⟨rfl, rfl, rfl, rfl, rfl, rfl, rfl, fun hi => ?_, ?_, ?_, ⟨[], by simp⟩, Nat.le_refl _⟩, rfl⟩
  · refine hi.change (fun _ => rfl) hi.sound ?_ ?_ rfl rfl hi.frozenBefore
    · cases ct <;> simp [hi.crecs]
    · cases ct <;> simp [hi.ctups]
  · intro ct' c' h
    cases ct <;> cases ct' <;> simp only [CkIn] at h ⊢ <;> first
      | exact h
      | exact mem_modify_append.2 (.inl h)
  · intro ct' c' h
    cases ct <;> cases ct' <;> simp only [CkIn] at h ⊢
    · rcases mem_modify_append.1 h with h | ⟨rfl, -, rfl⟩
      · exact .inl h
      · exact .inr hacc
    · exact .inl h
    · exact .inl h
    · rcases mem_modify_append.1 h with h | ⟨rfl, -, rfl⟩
      · exact .inl h
      · exact .inr hacc

theorem enumsOf_in {s : PS} (hi : RslInv E.global s) {p : List String} {t : Nat}
    (h : enumsOf E (namesOf s) p = some t) : t < s.decls.enums.length := by
  have hm : ∀ {n : List Char} {e : Ent}, meaning E (namesOf s) n = some e → EntOk s.decls e := by
    intro n e he
    unfold meaning at he
    split at he
    · next e' hl =>
      cases he
      split at hl
      · exact hi.tab_ent hl
      · exact hi.global_ent hl
    · cases he
  unfold enumsOf at h
  split at h
  · simp only [Option.bind_eq_some_iff] at h
    obtain ⟨e, he, h⟩ := h
    split at h
    · next hc => cases h; exact (hm he).2.2 hc
    · cases h
  · simp only [Option.bind_eq_some_iff] at h
    obtain ⟨e, he, h⟩ := h
    split at h
    · split at h
      · next e' hl =>
        split at h
        · next hc => cases h; exact (hi.tab_ent hl).2.2 hc
        · cases h
      · cases h
    · cases h
  · cases h

theorem parseCheck_sp {ct : CompositeTy} {s : PS} (hi : RslInv E.global s) (hct : CtIn s.decls ct) :
    Sp (Rk E.global rx) (parseCheck E rx ct) s (fun _ s' => s'.toks < s.toks) := by
  unfold parseCheck
  refine sp_get_bind ?_
  have hx : Sp Fr (parseExpr E ⟨s.decls, rx.search, rx.valid⟩ (s.toks + 1)
      ⟨s.scope E, s.decls.compIn ct, []⟩) s (fun e s' => s'.toks < s.toks ∧
        ∃ r, Raw.elab ⟨s.decls, rx.search, rx.valid⟩ (scopeIn E (namesOf s) (s.decls.compIn ct) []) r = .ok e) := by
    have h1 := parseExpr_tot (E := E) (X := ⟨s.decls, rx.search, rx.valid⟩) (s.toks + 1)
      ⟨s.scope E, s.decls.compIn ct, []⟩ s (by omega)
    unfold Sp at h1 ⊢
    cases hr : parseExpr E ⟨s.decls, rx.search, rx.valid⟩ (s.toks + 1) ⟨s.scope E, s.decls.compIn ct, []⟩ s with
    | ok e s' =>
      rw [hr] at h1
      obtain ⟨ts, -, r, -, he⟩ := parseExpr_snd ⟨E, ⟨s.decls, rx.search, rx.valid⟩, namesOf s, s.decls.compIn ct⟩
        (s.toks + 1) [] s rfl e s' hr
      exact ⟨h1.1, h1.2, r, he⟩
    | err s' => rw [hr] at h1; exact h1
    | crash c s' => rw [hr] at h1; exact h1
  refine sp_bind _ hx.rk ?_
  rintro e s1 - ⟨⟨hlt1, r, hr⟩, h1⟩
  refine sp_bind (fun _ s' => s' = s1 ∧ e.typ = some .bool) (sp_cond (fun hb => sp_pure ⟨rfl, by simpa using hb⟩)
    (fun _ => sp_fail.weaken fun _ h => h.rk)) ?_
  rintro _ s2 - ⟨rfl, hb⟩
  refine sp_bind _ matchK_sp.rk ?_
  rintro t3 s3 - ⟨⟨-, -, -, hlt3⟩, h3⟩
  refine sp_bind _ parseSeverity_sp.rk ?_
  rintro sev s4 - ⟨-, h4⟩
  refine sp_bind _ parseMessage_sp.rk ?_
  rintro msg s5 - ⟨-, h5⟩
  refine sp_bind _ parseExtras_sp.rk ?_
  rintro anchor s6 - ⟨ha, h6⟩
  have h26 := h3.trans (h4.trans h5)
  have hd5 : s5.decls = s.decls := h26.decls.trans h1.decls
  have hd6 : s6.decls = s.decls := h6.decls.trans hd5
  refine (addCheck_rk ?_).mono ?_
  · rw [hd6]
    refine ⟨hct, ⟨(scopeIn E (namesOf s) (s.decls.compIn ct) []).other, enumsOf E (namesOf s), r, ?_, ?_⟩, ?_⟩
    · exact fun p t h => enumsOf_in hi h
    · have : elabCheck ⟨s.decls, rx.search, rx.valid⟩ (scopeIn E (namesOf s) (s.decls.compIn ct) []) r = .ok e := by
        unfold elabCheck
        rw [hr]
        simp [El.bind, hb]
      exact this
    · rw [hd5] at ha; exact ha
  · rintro _ s7 - e7
    have := h26.toks; have := h6.toks
    omega

theorem checkLoop_sp {ct : CompositeTy} : ∀ (k : Nat) (s : PS), RslInv E.global s → CtIn s.decls ct →
    s.toks < k → Sp (Rk E.global rx) (checkLoop E rx ct k) s (fun _ _ => True) := by
  intro k
  induction k with
  | zero => intro s _ _ h; omega
  | succ k ih =>
    intro s hi hct hk
    unfold checkLoop
    refine sp_get_bind ?_
    refine sp_ite (fun _ => sp_pure trivial) (fun _ => ?_)
    refine sp_bind _ (parseCheck_sp hi hct) ?_
    rintro _ s1 h1 hlt
    exact ih s1 (h1.inv hi) (by rw [h1.decls]; exact hct) (by omega)

theorem composite_in {D : Decls} {e : Ent} {ct : CompositeTy} (h : e.composite? = some ct) (he : EntOk D e) :
    CtIn D ct := by
  unfold Ent.composite? at h
  split at h
  · next hc => cases h; exact he.1 hc
  · split at h
    · next hc => cases h; exact he.2.1 hc
    · cases h

theorem parseCheckBlock_sp {s : PS} (hi : RslInv E.global s) :
    Sp (Rk E.global rx) (parseCheckBlock E rx) s (fun _ s' => s'.toks < s.toks) ∧
      (s.peekKw "checks" = true → ∀ s', parseCheckBlock E rx s = .err s' → s'.toks < s.toks) := by
  unfold parseCheckBlock
  have rest : ∀ (a : Token) (s1 : PS), Fr s s1 → s1.toks < s.toks → Sp (Rk E.global rx) (do
      let t ← P.matchK .IDENTIFIER
      let s ← P.get
      let e ← P.liftSym ((s.tab E.pkg).lookup t.text (some fun e => e.composite?.isSome))
      match e.composite? with
      | none => P.crash .assertion
      | some ct =>
        let _ ← P.matchK .C_BRA
        let s ← P.get
        checkLoop E rx ct (s.toks + 1)
        let _ ← P.matchK .C_KET
        pure ()) s1 (fun _ s' => s'.toks < s.toks) := by
    intro a s1 h1 hlt1
    refine sp_bind _ matchK_sp.rk ?_
    rintro t s2 - ⟨⟨-, -, -, hlt2⟩, h2⟩
    refine sp_get_bind ?_
    refine sp_bind _ liftSym_sp.rk ?_
    rintro e s3 - ⟨⟨he, rfl⟩, -⟩
    have hi2 := hi.ft (h1.trans h2).ft
    split
    · exact sp_crash (by simp)
    · next ct hct =>
      have hct := composite_in hct (hi2.tab_ent he)
      refine sp_bind _ matchK_sp.rk ?_
      rintro t4 s4 - ⟨⟨-, -, -, hlt4⟩, h4⟩
      refine sp_get_bind ?_
      refine sp_bind _ (checkLoop_sp (s4.toks + 1) s4 (hi2.ft h4.ft) (by rw [h4.decls]; exact hct) (by omega)) ?_
      rintro _ s5 h5 -
      refine sp_bind _ matchK_sp.rk ?_
      rintro t6 s6 - ⟨⟨-, -, -, hlt6⟩, h6⟩
      have := h5.toks
      exact sp_pure (by omega)
  refine ⟨?_, ?_⟩
  · refine sp_bind _ matchKw_sp.rk ?_
    rintro a s1 - ⟨⟨-, -, -, -, hlt⟩, h1⟩
    exact rest a s1 h1 hlt
  · intro hp s' e
    rw [bind_apply] at e
    cases hm : P.matchKw "checks" s with
    | err s1 =>
      rw [hm] at e
      simp only [PR.err.injEq] at e
      rw [← e]
      exact matchKw_err hp hm
    | crash c s1 => rw [hm] at e; cases e
    | ok a s1 =>
      rw [hm] at e
      dsimp only at e
      obtain ⟨h1, -, -, -, -, hlt⟩ := matchKw_sp.ok hm
      exact Nat.lt_of_le_of_lt ((rest a s1 h1 hlt).err e).toks hlt

/-! ## Items and files -/

/-- What happens while rsl files are parsed. -/
structure Rf (g : STab) (rx : Regex) (s s' : PS) : Prop where
  inv : RslInv g s → AllAcc rx s → RslInv g s' ∧ AllAcc rx s'
  pre : RslInv g s → Pre s.decls s'.decls
  infos : RslInv g s → s.infos <+: s'.infos
  seps : s.seps <+: s'.seps
  cks : ∀ ct c, CkIn s.checks ct c → CkIn s'.checks ct c
  objs : s'.objs = s.objs
  sects : s'.sects = s.sects
  tabs : s'.tabs.length = s.tabs.length
  nid : s.nid ≤ s'.nid
  errs : ∃ l, s'.errs = s.errs ++ l
  toks : s'.toks ≤ s.toks
  keep : RslInv g s → RslInv g s'

instance {g : STab} : PreRel (Rf g rx) where
  refl s := ⟨fun h h' => ⟨h, h'⟩, fun _ => Pre.refl _, fun _ => List.prefix_rfl, List.prefix_rfl,
    fun _ _ h => h, rfl, rfl, rfl, Nat.le_refl _, ⟨[], by simp⟩, Nat.le_refl _, id⟩
  trans {a b c} h h' := by
    obtain ⟨l, hl⟩ := h.errs
    obtain ⟨l', hl'⟩ := h'.errs
    exact ⟨fun x y => h'.inv (h.inv x y).1 (h.inv x y).2, fun x => (h.pre x).trans (h'.pre (h.keep x)),
      fun x => (h.infos x).trans (h'.infos (h.keep x)), h.seps.trans h'.seps,
      fun ct c x => h'.cks ct c (h.cks ct c x), h'.objs.trans h.objs, h'.sects.trans h.sects,
      h'.tabs.trans h.tabs, Nat.le_trans h.nid h'.nid, ⟨l ++ l', by rw [hl', hl, List.append_assoc]⟩,
      Nat.le_trans h'.toks h.toks, h'.keep ∘ h.keep⟩

theorem prefix_of_get {α : Type} {l l' : List α} (hlen : l.length ≤ l'.length)
    (h : ∀ i, i < l.length → l'[i]? = l[i]?) : l <+: l' := by
  rw [List.prefix_iff_eq_take]
  apply List.ext_getElem?
  intro i
  rw [List.getElem?_take]
  split
  · next hi => exact (h i hi).symm
  · next hi => exact List.getElem?_eq_none (by omega)

theorem Rs.rf {g : STab} {s s' : PS} (h : Rs g s.decls.enums.length s.decls.recs.length s s') : Rf g rx s s' := by
  have hpre : Pre s.decls s'.decls := ⟨prefix_of_get h.grow.recsLen h.recs, h.grow.tups,
    prefix_of_get h.grow.enumsLen h.enums⟩
  refine ⟨fun hi ha => ⟨h.inv hi, ?_⟩, fun _ => hpre, fun hi => ?_, h.seps, fun ct c x => (h.cks ct c).2 x, h.objs,
    h.sects, h.tabs, h.nid, h.errs, h.toks, h.inv⟩
  · intro ct c hc
    exact (ha ct c ((h.cks ct c).1 hc)).later hi.sound hpre (h.inv hi).sound.world.wf
  · refine prefix_of_get ?_ fun i hlt => h.infos i (by rw [← hi.sound.infoLen]; exact hlt)
    rw [hi.sound.infoLen, (h.inv hi).sound.infoLen]
    exact h.grow.recsLen

theorem Rk.rf {g : STab} {s s' : PS} (h : Rk g rx s s') : Rf g rx s s' := by
  refine ⟨fun hi ha => ⟨h.inv hi, ?_⟩, fun _ => by rw [h.decls]; exact Pre.refl _,
    fun _ => by rw [h.infos]; exact List.prefix_rfl, by rw [h.seps]; exact List.prefix_rfl, h.old, h.objs,
    h.sects, by rw [h.tabs], Nat.le_of_eq h.nid.symm, h.errs, h.toks, h.inv⟩
  intro ct c hc
  rw [h.decls]
  rcases h.new ct c hc with hc | hc
  · exact ha ct c hc
  · exact hc

theorem Sp.rf {α : Type} {x : P α} {s : PS} {Q : α → PS → Prop} (h : Sp Fr x s Q) {g : STab} :
    Sp (Rf g rx) x s Q := h.weaken fun _ h => (Fr.rk h).rf

theorem parseRslItem_sp {s : PS} (hi : RslInv E.global s) :
    Sp (Rf E.global rx) (parseRslItem E rx) s (fun _ s' => s'.toks < s.toks) := by
  unfold parseRslItem
  refine sp_get_bind ?_
  exact sp_ite (fun _ => (parseCheckBlock_sp hi).1.weaken fun _ h => h.rf)
    fun _ => (parseTypeDecl_sp hi).1.weaken fun _ h => h.rf

theorem canResumeRsl_iff {s : PS} : s.canResumeRsl = true ↔ s.peekKw "checks" = true ∨
    (s.peekKw "type" = true ∨ s.peekKw "abstract" = true ∨ s.peekKw "final" = true ∨
        s.peekKw "tuple" = true ∨ s.peekKw "enum" = true) := by
  simp only [PS.canResumeRsl, Bool.or_eq_true, or_assoc]

/-- An item that starts with one of the keywords consumes something even if there is an error;
otherwise there is an error and the position stays. -/
theorem parseRslItem_err {s s' : PS} (hi : RslInv E.global s) (h : parseRslItem E rx s = .err s') :
    s'.toks < s.toks ∨ (s.canResumeRsl = false ∧ s' = { s with errs := s.errs ++ [.expected] }) := by
  have key : parseRslItem E rx s = if s.peekKw "checks" then parseCheckBlock E rx s else parseTypeDecl E s := by
    unfold parseRslItem
    rw [bind_apply]
    simp only [P.get]
    split <;> rfl
  rw [key] at h
  split at h
  · next hc => exact .inl ((parseCheckBlock_sp hi).2 hc s' h)
  · next hc =>
    by_cases hk : s.peekKw "type" = true ∨ s.peekKw "abstract" = true ∨ s.peekKw "final" = true ∨
        s.peekKw "tuple" = true ∨ s.peekKw "enum" = true
    · exact .inl ((parseTypeDecl_sp hi).2 hk s' h)
    · right
      rw [parseTypeDecl_stuck hk] at h
      cases h
      refine ⟨?_, rfl⟩
      rw [← Bool.not_eq_true, canResumeRsl_iff]
      rintro (h | h)
      · exact hc h
      · exact hk h

theorem recoverRslLoop_sp : ∀ (k : Nat) (s : PS), s.toks < k →
    Sp Fr (recoverRslLoop k) s (fun _ s' => s.peekEof = false → s.canResumeRsl = false → s'.toks < s.toks) := by
  intro k
  induction k with
  | zero => intro s h; omega
  | succ k ih =>
    intro s hk
    unfold recoverRslLoop
    refine sp_get_bind ?_
    refine sp_ite (fun hc => sp_pure fun h1 h2 => ?_) (fun h => ?_)
    · rw [h1, h2] at hc; cases hc
    have hn : s.nt.isSome := by
      simp only [PS.peekEof, Bool.or_eq_true, not_or] at h
      cases hn : s.nt with
      | none => rw [hn] at h; simp at h
      | some t => rfl
    refine sp_bind _ advance_sp ?_
    rintro _ s1 h1 ⟨-, hlt⟩
    refine sp_bind _ skipUntilNewline_sp ?_
    rintro _ s2 h2 -
    have := hlt hn; have := h2.toks
    refine (ih s2 (by omega)).mono ?_
    rintro _ s3 h3 - - -
    have := h3.toks
    omega

theorem skipLoop_same (line : Nat) (k : Nat) (s : PS) : Sp Fr (skipLoop line k) s
    (fun _ s' => s'.toks < s.toks ∨ s' = s) ∨ k ≤ s.toks := by
  by_cases hk : s.toks < k
  · left
    cases k with
    | zero => omega
    | succ k =>
      by_cases h : s.nt.any (fun t => t.line = line) = true
      · have hn : s.nt.isSome := by
          cases hn : s.nt with
          | none => rw [hn] at h; simp at h
          | some t => rfl
        have h1 : Sp Fr (P.advance >>= fun _ => skipLoop line k) s (fun _ s' => s'.toks < s.toks ∨ s' = s) := by
          refine sp_bind _ advance_sp ?_
          rintro _ s1 h1 ⟨-, hlt⟩
          have := hlt hn
          refine (skipLoop_sp line k s1 (by omega)).mono ?_
          rintro _ s2 h2 -
          have := h2.toks
          exact .inl (by omega)
        refine h1.congr ?_
        rw [skipLoop]
        simp only [h, if_true]
      · refine (sp_pure (R := Fr) (a := ()) (Q := fun _ s' => s'.toks < s.toks ∨ s' = s) (.inr rfl)).congr ?_
        unfold skipLoop
        simp only [h, if_false, pure_apply]
        rfl
  · exact .inr (by omega)

theorem skipUntilNewline_same {s : PS} : Sp Fr P.skipUntilNewline s (fun _ s' => s'.toks < s.toks ∨ s' = s) := by
  cases hc : s.ct with
  | none =>
    refine (sp_pure (R := Fr) (a := ()) (Q := fun _ s' => s'.toks < s.toks ∨ s' = s) (.inr rfl)).congr ?_
    unfold P.skipUntilNewline
    rw [hc]
    rfl
  | some t =>
    rcases skipLoop_same t.line (s.toks + 1) s with h | h
    · refine h.congr ?_
      unfold P.skipUntilNewline
      rw [hc]
    · omega

theorem recoverRsl_sp {s : PS} : Sp Fr (recoverRsl E) s
    (fun b s' => b = false ∧ (s.peekEof = false → s.canResumeRsl = false → s'.toks < s.toks)) := by
  unfold recoverRsl
  refine sp_ite (fun _ => Fr.refl s) (fun _ => ?_)
  refine sp_bind _ skipUntilNewline_same ?_
  rintro _ s1 h1 hs1
  refine sp_get_bind ?_
  refine sp_bind _ (recoverRslLoop_sp _ s1 (by omega)) ?_
  rintro _ s2 h2 hs2
  refine sp_pure ⟨rfl, fun a b => ?_⟩
  have := h2.toks
  rcases hs1 with h | rfl
  · omega
  · exact hs2 a b

theorem rslLoop_sp : ∀ (k : Nat) (ok : Bool) (s : PS), s.toks < k → RslInv E.global s →
    Sp (Rf E.global rx) (rslLoop E rx k ok) s (fun b s' => s'.peekEof = true ∧ (b = true → ok = true)) := by
  intro k
  induction k with
  | zero => intro _ s h; omega
  | succ k ih =>
    intro ok s hk hi
    unfold rslLoop
    refine sp_get_bind ?_
    refine sp_ite (fun he => sp_pure ⟨he, id⟩) (fun he => ?_)
    have hx : Sp (Rf E.global rx) (do parseRslItem E rx; pure true) s (fun _ s' => s'.toks < s.toks) :=
      sp_bind _ (parseRslItem_sp hi) fun _ _ _ h => sp_pure h
    refine sp_bind (fun _ s' => s'.toks < s.toks) (sp_tryCatch _ hx (fun _ _ _ _ h => h) ?_) ?_
    · intro s1 h1 he1
      have hc := parseRslItem_err (E := E) (rx := rx) (s' := s1) hi (by
        rw [bind_apply] at he1
        cases hm : parseRslItem E rx s with
        | ok a s2 => rw [hm] at he1; cases he1
        | crash c s2 => rw [hm] at he1; cases he1
        | err s2 => rw [hm] at he1; dsimp only at he1; cases he1; rfl)
      refine (recoverRsl_sp (E := E) (s := s1)).rf.mono ?_
      rintro b s2 h2 ⟨-, hlt⟩
      have := h2.toks
      rcases hc with hc | ⟨hc, rfl⟩
      · omega
      · exact hlt (Bool.eq_false_iff.2 he) hc
    · rintro b s1 h1 hlt
      refine (ih (ok && b) s1 (by omega) (h1.keep hi)).mono ?_
      rintro b' s2 h2 ⟨ha, hb⟩
      refine ⟨ha, fun e => ?_⟩
      have := hb e
      simp only [Bool.and_eq_true] at this
      exact this.1

theorem parseRslFile_sp {s : PS} (hi : RslInv E.global s) :
    Sp (Rf E.global rx) (parseRslFile E rx) s (fun _ s' => s'.nt = none) := by
  unfold parseRslFile
  refine sp_get_bind ?_
  refine sp_bind _ (rslLoop_sp (s.toks + 1) true s (by omega) hi) ?_
  rintro b s1 h1 -
  refine sp_bind _ matchEof_sp.rf ?_
  rintro _ s2 - ⟨rfl, hn⟩
  exact sp_pure hn

end Verif.Lemmas
