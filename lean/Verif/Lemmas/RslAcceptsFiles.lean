import Verif.Lemmas.RslAcceptsRecords
/-! Record types, check blocks and files that are written as the grammar says are accepted. -/
namespace Verif.Lemmas
open Verif.Model Verif.Spec

variable {α β γ : Type} {E : FileEnv} {K : PS} {W : World} {n n' : Nat} {w ts : List Token} {s : PS} {rx : Regex}

/-- the modifiers `abstract` and `final` -/
theorem modifier_on {isAbs isFin : Bool} {m : List Token} {k : Token} (hm : ModifierText isAbs isFin m)
    (hk : IsKw "type" k) (h : On K W n (m ++ k :: w) s) :
    Acc (P.cond (s.peekKw "abstract")
      (do let _ ← P.matchKw "abstract"; pure (true, false))
      (P.cond (s.peekKw "final")
        (do let _ ← P.matchKw "final"; pure (false, true))
        (pure (false, false)))) s (fun r s' => r = (isAbs, isFin) ∧ On K W n (k :: w) s') := by
  rcases hm with ⟨rfl, rfl, rfl⟩ | ⟨q, rfl, hq, rfl, rfl⟩ | ⟨q, rfl, hq, rfl, rfl⟩
  · exact acc_else (h.peekKw_false (kw_notKw hk (by decide))) (acc_else (h.peekKw_false (kw_notKw hk (by decide)))
      (acc_pure ⟨rfl, h⟩))
  · refine acc_then (h.peekKw_true hq) ?_
    refine acc_bind _ (matchKw_on h hq) ?_
    rintro _ s1 ⟨rfl, h1⟩
    exact acc_pure ⟨rfl, h1⟩
  · refine acc_else (h.peekKw_false (kw_notKw hq (by decide))) (acc_then (h.peekKw_true hq) ?_)
    refine acc_bind _ (matchKw_on h hq) ?_
    rintro _ s1 ⟨rfl, h1⟩
    exact acc_pure ⟨rfl, h1⟩

theorem extends_on {parent : Option Nat} {x : List Token} {b : Token} (hx : ExtendsText E W.names parent x)
    (hb : b.kind = .C_BRA) (h : On K W n (x ++ b :: w) s) (hi : RslInv E.global s) :
    Acc (P.cond (s.peekKw "extends")
      (do
        let _ ← P.matchKw "extends"
        let e ← parseQualifiedName E (fun e => e.cls = clsRecord)
        pure (some e.id))
      (pure none)) s (fun r s' => r = parent ∧ On K W n (b :: w) s' ∧ Fr s s' ∧
        ∀ p, parent = some p → p < W.decls.recs.length) := by
  rcases hx with ⟨rfl, rfl⟩ | ⟨k, a, e, rfl, hk, he, hc, rfl⟩
  · exact acc_else (h.peekKw_false (kind_notKw hb (by decide))) (acc_pure ⟨rfl, h, Fr.refl _, by simp⟩)
  · refine acc_then (h.peekKw_true (w := a ++ b :: w) hk) ?_
    refine acc_bind _ ((matchKw_on (w := a ++ b :: w) (by simpa using h) hk).sp matchKw_sp) ?_
    rintro _ s1 ⟨⟨rfl, h1⟩, hr1, -⟩
    refine acc_bind _ ((qualifiedName_on (N := W.names) (sub := fun e => e.cls = clsRecord) rfl h1 he (by simpa using hc)).sp
      (parseQualifiedName_ent (hi.ft hr1.ft))) ?_
    rintro e s2 ⟨⟨rfl, h2⟩, hr2, -, -, hent⟩
    refine acc_pure ⟨rfl, h2, hr1.trans hr2, ?_⟩
    intro q hq
    cases hq
    have := hent.1 hc
    rwa [h1.decls] at this

theorem record_on {m a x ts : List Token} {isAbs isFin parentFinal : Bool} {k b c : Token} {name : List Char}
    {parent : Option Nat} {cs : List Comp} {fz : List (String × VNode)} {tabs : List STab}
    (hm : ModifierText isAbs isFin m) (hk : IsKw "type" k) (hd : Described name a)
    (hx : ExtendsText E W.names parent x) (hpf : parentFinal = true ↔ ∃ p, parent = some p ∧ Final W.infos p)
    (hT : Enters W.tabs E.pkg name W.decls.recs.length clsRecord tabs) (hb : b.kind = .C_BRA)
    (hmt : MembersText E { W.names with tabs } W parent cs fz ts (some c) n')
    (hfin : parentFinal = true → cs = []) (hc : c.kind = .C_KET) (hi : RslInv E.global s)
    (h : On K W W.nid (m ++ k :: a ++ x ++ b :: ts ++ [c] ++ w) s) :
    Acc (parseRecordDecl E) s (fun _ s' =>
      On K (recIn W tabs parent isAbs (isFin || parentFinal) cs fz n') n' w s') := by
  unfold parseRecordDecl
  refine acc_get_bind ?_
  have h : On K W W.nid (m ++ k :: (a ++ (x ++ (b :: (ts ++ c :: w))))) s := by simpa using h
  obtain ⟨_, s1, e1, rfl, h1⟩ := modifier_on hm hk h
  have hst : ∀ {w1 w2 : List Token} {s1 s2 : PS}, On K W W.nid w1 s1 → On K W W.nid w2 s2 →
      RslInv E.global s1 → RslInv E.global s2 := by
    intro w1 w2 s1 s2 o1 o2 hi
    have hw : worldOf s2 = worldOf s1 := o2.world.trans o1.world.symm
    have ho : s2.objs = s1.objs := o2.objs.trans o1.objs.symm
    have e1 : s2.decls = s1.decls := congrArg World.decls hw
    have e2 : s2.infos = s1.infos := congrArg World.infos hw
    have e3 : s2.seps = s1.seps := congrArg World.seps hw
    have e4 : s2.tabs = s1.tabs := congrArg World.tabs hw
    have e5 : s2.checks = s1.checks := congrArg World.checks hw
    have e6 : s2.nid = s1.nid := congrArg World.nid hw
    refine ⟨hi.glob, ?_, ?_, ?_, ?_, ?_, ?_, ?_, ?_, ?_, ?_⟩
    · rw [e1, e2, e3]; exact hi.sound
    · rw [e5, e1]; exact hi.crecs
    · rw [e5, e1]; exact hi.ctups
    · rw [ho]; exact hi.objs
    · rw [e4]; exact hi.sees
    · rw [e4, e1]; exact hi.ents
    · rw [e4]; exact hi.keys
    · rw [e4, e1]; exact hi.entered
    · rw [e4]; exact hi.once
    · rw [e2, e6]; exact hi.frozenBefore
  refine acc_bind (fun r s' => r = (isAbs, isFin) ∧ s' = s1) ⟨_, s1, e1, rfl, rfl⟩ ?_
  rintro _ _ ⟨rfl, rfl⟩
  refine acc_bind _ (matchKw_on h1 hk) ?_
  rintro _ s2 ⟨rfl, h2⟩
  have hna : NotAhead .STRING (x ++ (b :: (ts ++ c :: w))) := by
    rcases hx with ⟨rfl, -⟩ | ⟨q, _, _, rfl, hq, -⟩
    · exact notAhead_cons hb (by decide)
    · exact notAhead_cons hq.1 (by decide)
  refine acc_bind _ (describedName_on h2 hd hna) ?_
  rintro tok s3 ⟨rfl, h3⟩
  refine acc_get_bind ?_
  refine acc_bind _ (extends_on hx hb h3 (hst h h3 hi)) ?_
  rintro _ s4 ⟨rfl, h4, -, hp⟩
  refine acc_get_bind ?_
  have hi4 := hst h h4 hi
  rename_i parent
  have hany : (parent.any fun p => (s4.info p).isFinal) = parentFinal := by
    rw [Bool.eq_iff_iff, hpf]
    cases parent with
    | none => simp
    | some q =>
      simp only [Option.any_some, Option.some.injEq, exists_eq_left', PS.info, Final, h4.infos]
      cases h : W.infos[q]? with
      | none => simp
      | some i => simp
  rw [← h4.tabs] at hT
  have hreg : Acc (P.registerType E tok.text s4.decls.recs.length clsRecord fun s =>
      { s with
        decls := { s.decls with recs := s.decls.recs ++ [{ parent := parent, own := [] }] }
        infos := s.infos ++ [{ frozen := [], isAbstract := isAbs,
                               isFinal := parent.any fun p => (s.info p).isFinal }]
        checks := { s.checks with recs := s.checks.recs ++ [[]] } }) s4
      (fun _ s' => On K (recIn W tabs parent isAbs parentFinal [] [] W.nid) W.nid (b :: (ts ++ c :: w)) s') := by
    refine ⟨_, _, registerType_on (by rw [h4.decls]; exact hT), h4.clean, h4.words, ?_, h4.errs, h4.objs, h4.sects⟩
    have e : ∀ pf, worldOf { s4 with
        tabs
        decls := { s4.decls with recs := s4.decls.recs ++ [{ parent := parent, own := [] }] }
        infos := s4.infos ++ [{ frozen := [], isAbstract := isAbs, isFinal := pf }]
        checks := { s4.checks with recs := s4.checks.recs ++ [[]] } } =
        recIn (worldOf s4) tabs parent isAbs pf [] [] s4.nid := fun _ => rfl
    refine (e _).trans ?_
    rw [h4.world, h4.nid, hany]
    rfl
  refine acc_bind _ (hreg.sp (registerRecord_sp hi4 (by rw [h4.decls]; exact hp))) ?_
  rintro _ s5 ⟨h5, hr5, -⟩
  have hi5 := hr5.inv hi4
  refine acc_bind _ ((matchK_on h5 hb).sp matchK_sp) ?_
  rintro _ s6 ⟨⟨rfl, h6⟩, hr6, -⟩
  refine acc_get_bind ?_
  rw [h4.decls]
  have hs : SoundDecls W.decls W.infos W.seps := by
    have := hi4.sound; rwa [h4.decls, h4.infos, h4.seps] at this
  obtain ⟨s7, h7, hi7, e7⟩ := members_on hs hp hmt (c :: w) s6 rfl (notAhead_cons hc (by decide)) hfin h6 (hi5.ft hr6.ft)
  have hl := h6.len
  have hml := members_len hmt
  simp only [List.length_append, List.length_cons] at hl
  obtain ⟨j, hj⟩ : ∃ j, s6.toks + 1 = (j + 1) + (cs.length + fz.length) :=
    ⟨s6.toks - (cs.length + fz.length), by omega⟩
  refine acc_bind (fun _ s' => s' = s7) ⟨(), s7, ?_, rfl⟩ ?_
  · rw [hj, e7]
    unfold recordLoop
    rw [get_bind_apply, if_pos (h7.peek_true hc)]
    rfl
  rintro _ _ rfl
  refine acc_bind _ (matchK_on h7 hc) ?_
  rintro _ s8 ⟨rfl, h8⟩
  cases isFin with
  | false => exact acc_else rfl (acc_pure ⟨h8.clean, h8.words, h8.world, h8.errs, h8.objs, h8.sects⟩)
  | true =>
    refine acc_then rfl ⟨_, _, rfl, h8.clean, h8.words, ?_, h8.errs, h8.objs, h8.sects⟩
    have hI8 : s8.infos = W.infos ++ [⟨fz, isAbs, parentFinal⟩] := h8.infos
    have : ({ worldOf s8 with infos := s8.infos.modify W.decls.recs.length fun i => { i with isFinal := true } } : World) =
        { recIn W tabs parent isAbs (true || parentFinal) cs fz n' with nid := n' } := by
      rw [hI8, ← hs.infoLen, modify_snoc, h8.world]
      rfl
    exact this

/-! ## Checks -/

theorem severity_on {sev : Severity} {sv : List Token} {m : Token} (hs : SeverityText sev sv) (hm : m.kind = .STRING)
    (h : On K W n (sv ++ m :: w) s) :
    Acc parseSeverity s (fun sev' s' => sev' = sev ∧ On K W n (m :: w) s') := by
  unfold parseSeverity
  rcases hs with ⟨rfl, rfl⟩ | ⟨k, rfl, hk⟩
  · exact acc_get_bind (acc_neg (by rw [h.peek_false (notAhead_cons hm (by decide))]; simp) (acc_pure ⟨rfl, h⟩))
  · refine acc_get_bind (acc_pos (h.peek_true hk.1) ?_)
    refine acc_bind _ (matchK_on h hk.1) ?_
    rintro k s1 ⟨rfl, h1⟩
    have ht : k.text = (match sev with | .warning => "warning" | .error => "error" | .fatal => "fatal").toList := by
      unfold Token.text; rw [hk.2]; rfl
    cases sev with
    | warning => exact acc_pos ht (acc_pure ⟨rfl, h1⟩)
    | error => exact acc_neg (by rw [ht]; decide) (acc_pos ht (acc_pure ⟨rfl, h1⟩))
    | fatal => exact acc_neg (by rw [ht]; decide) (acc_neg (by rw [ht]; decide) (acc_pos ht (acc_pure ⟨rfl, h1⟩)))

theorem message_on {m : Token} (hm : m.kind = .STRING) (hn : '\n' ∉ m.text) (h : On K W n (m :: w) s) :
    Acc parseMessage s (fun msg s' => msg = String.ofList m.text ∧ On K W n w s') := by
  unfold parseMessage
  refine acc_bind _ (matchK_on h hm) ?_
  rintro m s1 ⟨rfl, h1⟩
  refine acc_bind (fun _ s' => s' = s1) (acc_else (by simpa using hn) (acc_pure rfl)) ?_
  rintro _ _ rfl
  refine acc_pure ⟨?_, h1⟩
  congr 1
  conv => rhs; rw [← List.map_id m.text]
  refine List.map_congr_left fun c hc => ?_
  rw [if_neg (by rintro rfl; exact hn hc), id]

theorem anchor_on {ct : CompositeTy} {x : Token} {c : Comp} (hs : SoundDecls W.decls W.infos W.seps)
    (hx : x.kind = .IDENTIFIER) (hc : CompOf W.decls ct c) (hn : c.name = String.ofList x.text)
    (h : On K W n (x :: w) s) :
    Acc (parseAnchor ct) s (fun a s' => a = some (String.ofList x.text) ∧ On K W n w s') := by
  unfold parseAnchor
  refine acc_bind _ (matchK_on h hx) ?_
  rintro x s1 ⟨rfl, h1⟩
  refine acc_get_bind ?_
  have hxt : x.text = c.name.toList := by rw [hn]; simp
  refine acc_bind (fun _ s' => s' = s1) ⟨(), s1, liftSym_ok ?_, rfl⟩ ?_
  · rw [h1.decls, hxt]; exact lookupName_comp hs hc
  rintro _ _ rfl
  exact acc_pure ⟨rfl, h1⟩

theorem extras_on {ct : CompositeTy} {anchor : Option String} {x : List Token}
    (hs : SoundDecls W.decls W.infos W.seps) (hx : ExtrasText W.decls ct anchor x) (hw : NotAhead .COMMA w)
    (h : On K W n (x ++ w) s) :
    Acc (parseExtras ct) s (fun a s' => a = anchor ∧ On K W n w s') := by
  unfold parseExtras
  obtain ⟨d, a, rfl, hd, ha⟩ := hx
  have tail : ∀ c x m, anchor = some (String.ofList x.text) → a = [c, x] → c.kind = .COMMA → x.kind = .IDENTIFIER →
      CompOf W.decls ct m → m.name = String.ofList x.text → ∀ s, On K W n (x :: w) s →
      Acc (parseAnchor ct) s (fun a s' => a = anchor ∧ On K W n w s') := by
    rintro c x m rfl - - hx hm hn s h
    exact anchor_on hs hx hm hn h
  rcases hd with rfl | ⟨c, q, rfl, hc, hq⟩
  · cases anchor with
    | none =>
      have ha : a = [] := ha
      subst ha
      exact acc_get_bind (acc_neg (by rw [h.peek_false hw]; simp) (acc_pure ⟨rfl, h⟩))
    | some nm =>
      obtain ⟨c, x, m, rfl, hc, hx, rfl, hm, hn⟩ := ha
      refine acc_get_bind (acc_pos (h.peek_true (w := x :: w) hc) ?_)
      refine acc_bind _ (matchK_on h hc) ?_
      rintro _ s1 ⟨rfl, h1⟩
      refine acc_get_bind (acc_pos (h1.peek_true (w := w) hx) ?_)
      exact anchor_on hs hx hm hn h1
  · refine acc_get_bind (acc_pos (h.peek_true (w := q :: (a ++ w)) hc) ?_)
    refine acc_bind _ (matchK_on (w := q :: (a ++ w)) (by simpa using h) hc) ?_
    rintro _ s1 ⟨rfl, h1⟩
    refine acc_get_bind (acc_neg (by rw [h1.peek_false (notAhead_cons hq (by decide))]; simp)
      (acc_pos (h1.peek_true hq) ?_))
    refine acc_bind _ (matchK_on h1 hq) ?_
    rintro _ s2 ⟨rfl, h2⟩
    refine acc_get_bind ?_
    cases anchor with
    | none =>
      have ha : a = [] := ha
      subst ha
      exact acc_neg (by rw [h2.peek_false hw]; simp) (acc_pure ⟨rfl, h2⟩)
    | some nm =>
      obtain ⟨c, x, m, rfl, hc, hx, rfl, hm, hn⟩ := ha
      refine acc_pos (h2.peek_true (w := x :: w) hc) ?_
      refine acc_bind _ (matchK_on h2 hc) ?_
      rintro _ s3 ⟨rfl, h3⟩
      exact anchor_on hs hx hm hn h3

theorem firstExpr_notKind {t : Token} {k : Kind} (h : FirstExpr t) (hk : k = .C_KET ∨ k = .COMMA) :
    t.kind ≠ k := by
  rcases hk with rfl | rfl
  · intro e
    rcases h with (h | h | h) | h | h
    · rcases h with h | h | h | h
      · rw [e] at h; simp at h
      all_goals
        have := h.1; rw [e] at this; cases this
    all_goals
      have := h.1; rw [e] at this; cases this
  · exact firstExpr_kind h (.inr (.inr rfl))

theorem check_first {ct : CompositeTy} {k : Check} (h : CheckText E rx W ct k ts) :
    ∃ t r, ts = t :: r ∧ FirstExpr t := by
  obtain ⟨comp, e, r, c, sv, m, x, rfl, -, hg, -⟩ := h
  obtain ⟨t, r, rfl, ht⟩ := expr_first hg
  exact ⟨t, _, rfl, ht⟩

theorem check_on {ct : CompositeTy} {k : Check} (hs : SoundDecls W.decls W.infos W.seps)
    (hk : CheckText E rx W ct k ts) (hw : NotAhead .COMMA w) (h : On K W n (ts ++ w) s) :
    Acc (parseCheck E rx ct) s (fun _ s' => On K (W.withChecks ct [k]) n w s') := by
  obtain ⟨comp, e, r, c, sv, m, x, rfl, hcomp, hg, he, hc, hsv, hm, hmsg, hnl, hx⟩ := hk
  have hcm : comp = W.decls.compIn ct := by
    funext nm
    apply Option.ext
    intro d
    rw [hcomp, compIn_iff hs]
  subst hcm
  unfold elabCheck at he
  obtain ⟨e', he1, he2⟩ := El.bind_eq_ok he
  have hbool : e'.typ = some .bool ∧ e' = k.expr := by
    by_cases hb : e'.typ = some .bool
    · rw [if_pos hb] at he2; exact ⟨hb, by cases he2; rfl⟩
    · rw [if_neg hb] at he2; cases he2
  obtain ⟨hb, rfl⟩ := hbool
  unfold parseCheck
  refine acc_get_bind ?_
  have hl := h.len
  simp only [List.length_append, List.length_cons] at hl
  have hexp : Acc (parseExpr E ⟨s.decls, rx.search, rx.valid⟩ (s.toks + 1) ⟨s.scope E, s.decls.compIn ct, []⟩) s
      (fun e s' => e = k.expr ∧ On K W n (c :: (sv ++ m :: x) ++ w) s') := by
    refine acc_steps (ts := e) (w := c :: (sv ++ m :: x) ++ w) (by simpa using h) fun s' hst hnx => ?_
    refine parseExpr_acc ⟨E, ⟨s.decls, rx.search, rx.valid⟩, namesOf s, s.decls.compIn ct⟩ (s.toks + 1) [] e r
      k.expr s s' (by omega) ?_ ?_ hst rfl (noCont_of hnx (kind_noCont hc (by decide)))
    · show GExpr E (namesOf s) (ValueNames (s.decls.compIn ct) []) e r
      rw [h.names, h.decls]; exact hg
    · show r.elab ⟨s.decls, rx.search, rx.valid⟩ (scopeIn E (namesOf s) (s.decls.compIn ct) []) = .ok k.expr
      rw [h.names, h.decls]; exact he1
  refine acc_bind _ hexp ?_
  rintro _ s1 ⟨rfl, h1⟩
  refine acc_bind (fun _ s' => s' = s1) (acc_then (by simp [hb]) (acc_pure rfl)) ?_
  rintro _ _ rfl
  refine acc_bind _ (matchK_on (w := sv ++ m :: (x ++ w)) (by simpa using h1) hc) ?_
  rintro _ s3 ⟨rfl, h3⟩
  refine acc_bind _ (severity_on hsv hm h3) ?_
  rintro _ s4 ⟨rfl, h4⟩
  refine acc_bind _ (message_on hm hnl h4) ?_
  rintro _ s5 ⟨rfl, h5⟩
  refine acc_bind _ (extras_on hs hx hw h5) ?_
  rintro _ s6 ⟨rfl, h6⟩
  have hke : k = ⟨k.expr, k.sev, String.ofList m.text, k.anchor⟩ := by rw [← hmsg]
  rw [← hke]
  cases ct with
  | record t =>
    refine ⟨_, _, rfl, h6.clean, h6.words, ?_, h6.errs, h6.objs, h6.sects⟩
    have e : worldOf { s6 with checks := { s6.checks with recs := s6.checks.recs.modify t (· ++ [k]) } } =
        (worldOf s6).withChecks (.record t) [k] := rfl
    exact e.trans (by rw [h6.world]; rfl)
  | tup t =>
    refine ⟨_, _, rfl, h6.clean, h6.words, ?_, h6.errs, h6.objs, h6.sects⟩
    have e : worldOf { s6 with checks := { s6.checks with tups := s6.checks.tups.modify t (· ++ [k]) } } =
        (worldOf s6).withChecks (.tup t) [k] := rfl
    exact e.trans (by rw [h6.world]; rfl)

theorem checksText_with {ct : CompositeTy} {js ks : List Check} (h : ChecksText E rx W ct ks ts) :
    ChecksText E rx (W.withChecks ct js) ct ks ts := by
  induction h with
  | nil => exact .nil
  | cons h1 _ ih => exact .cons (checkText_withChecks.2 h1) ih

theorem checks_len {ct : CompositeTy} {ks : List Check} (h : ChecksText E rx W ct ks ts) :
    ks.length ≤ ts.length := by
  induction h with
  | nil => simp
  | cons h1 _ ih =>
    obtain ⟨t, r, rfl, -⟩ := check_first h1
    simp only [List.length_append, List.length_cons]; omega

theorem checkLoop_on {ct : CompositeTy} {c : Token} (hc : c.kind = .C_KET) :
    ∀ (ks : List Check) (ts : List Token) (k : Nat) (W : World) (s : PS), SoundDecls W.decls W.infos W.seps →
    ChecksText E rx W ct ks ts → On K W n (ts ++ c :: w) s → ks.length < k →
    Acc (checkLoop E rx ct k) s (fun _ s' => On K (W.withChecks ct ks) n (c :: w) s') := by
  intro ks
  induction ks with
  | nil =>
    intro ts k W s hs ht h hk
    obtain ⟨k, rfl⟩ : ∃ j, k = j + 1 := ⟨k - 1, by omega⟩
    cases ht
    unfold checkLoop
    exact acc_get_bind (acc_pos (h.peek_true hc) (acc_pure (by rw [withChecks_nil]; exact h)))
  | cons q ks ih =>
    intro ts k W s hs ht h hk
    obtain ⟨k, rfl⟩ : ∃ j, k = j + 1 := ⟨k - 1, by omega⟩
    cases ht with
    | @cons _ _ a ts hq hks =>
      unfold checkLoop
      rw [List.append_assoc] at h
      obtain ⟨t, r, e0, hf⟩ := check_first hq
      refine acc_get_bind (acc_neg ?_ ?_)
      · rw [h.peek_false]
        · simp
        · rw [e0]; exact notAhead_cons rfl (firstExpr_notKind hf (.inl rfl))
      have hna : NotAhead .COMMA (ts ++ c :: w) := by
        cases hks with
        | nil => exact notAhead_cons hc (by decide)
        | cons hq' _ =>
          obtain ⟨t', r', e', hf'⟩ := check_first hq'
          rw [e']; exact notAhead_cons rfl (firstExpr_notKind hf' (.inr rfl))
      refine acc_bind _ (check_on hs hq hna h) ?_
      intro _ s1 h1
      refine (ih ts k (W.withChecks ct [q]) s1 hs (checksText_with hks) h1
        (by simp only [List.length_cons] at hk; omega)).mono ?_
      intro _ s2 h2
      rwa [withChecks_add] at h2

theorem composite_of {e : Ent} {ct : CompositeTy} (h : CompositeEnt e ct) : e.composite? = some ct := by
  cases ct with
  | record t => obtain ⟨h1, rfl⟩ := h; simp [Ent.composite?, h1]
  | tup t => obtain ⟨h1, rfl⟩ := h; simp [Ent.composite?, h1, clsTuple, clsRecord]

theorem checkBlock_on {k x b c : Token} {e : Ent} {ct : CompositeTy} {ks : List Check}
    (hs : SoundDecls W.decls W.infos W.seps) (hk : IsKw "checks" k) (hx : x.kind = .IDENTIFIER)
    (he : (W.names.tab E.pkg).lookup x.text none = .ok e) (hct : CompositeEnt e ct) (hb : b.kind = .C_BRA)
    (hks : ChecksText E rx W ct ks ts) (hc : c.kind = .C_KET)
    (h : On K W n (k :: x :: b :: ts ++ [c] ++ w) s) :
    Acc (parseCheckBlock E rx) s (fun _ s' => On K (W.withChecks ct ks) n w s') := by
  unfold parseCheckBlock
  refine acc_bind _ (matchKw_on (w := x :: b :: (ts ++ c :: w)) (by simpa using h) hk) ?_
  rintro _ s1 ⟨rfl, h1⟩
  refine acc_bind _ (matchK_on h1 hx) ?_
  rintro x s2 ⟨rfl, h2⟩
  refine acc_get_bind ?_
  have hcp := composite_of hct
  refine acc_bind (fun e' s' => e' = e ∧ s' = s2) ⟨e, s2, liftSym_ok (lookup_of_contains ?_ (by simp [hcp])), rfl, rfl⟩ ?_
  · have : s2.tab E.pkg = W.names.tab E.pkg := by unfold PS.tab Names.tab; rw [h2.tabs]; rfl
    rw [this]; exact he
  rintro _ _ ⟨rfl, rfl⟩
  rw [hcp]
  simp only
  refine acc_bind _ (matchK_on h2 hb) ?_
  rintro _ s3 ⟨rfl, h3⟩
  refine acc_get_bind ?_
  have hl := h3.len
  have := checks_len hks
  simp only [List.length_append, List.length_cons] at hl
  refine acc_bind _ (checkLoop_on hc ks ts (s3.toks + 1) W s3 hs hks h3 (by omega)) ?_
  intro _ s4 h4
  refine acc_bind _ (matchK_on h4 hc) ?_
  rintro _ s5 ⟨rfl, h5⟩
  exact acc_pure h5

/-! ## Files -/

theorem item_on {W' : World} {a : List Token} (hi : RslInv E.global s) (ht : ItemText E rx W a W')
    (h : On K W W.nid (a ++ w) s) : Acc (parseRslItem E rx) s (fun _ s' => On K W' W'.nid w s') := by
  have hs : SoundDecls W.decls W.infos W.seps := by
    have := hi.sound; rwa [h.decls, h.infos, h.seps] at this
  unfold parseRslItem
  refine acc_get_bind ?_
  have first : ∀ {t : Token}, s.nt = some t → ∀ {u : String}, IsKw u t → u ≠ "checks" → s.peekKw "checks" = false :=
    fun hn _ hu hne => peekKw_head_ne hn (kw_notKw hu hne)
  cases ht with
  | enum hk hd hb hl hne hp hc hT =>
    refine acc_neg (by rw [first h.nt hk (by decide)]; simp) ?_
    unfold parseTypeDecl
    refine acc_get_bind (acc_pos (peekKw_of h.nt hk) ?_)
    exact enum_on hk hd hb hl hne hp hc hT h
  | tuple hk hd hb hf hc hT =>
    refine acc_neg (by rw [first h.nt hk (by decide)]; simp) ?_
    unfold parseTypeDecl
    refine acc_get_bind (acc_neg (by rw [peekKw_head_ne h.nt (kw_notKw hk (by decide))]; simp)
      (acc_pos (peekKw_of h.nt hk) ?_))
    exact tuple_on hk hd hb hf hc hT h
  | @record m isAbs isFin k name a x parent pf b cs fz ts c tabs n hm hk hd hx hpf hT hb hmt hfin hc =>
    have hft : ∃ t u, s.nt = some t ∧ IsKw u t ∧ u ≠ "checks" ∧ u ≠ "enum" ∧ u ≠ "tuple" := by
      rcases hm with ⟨rfl, -⟩ | ⟨q, rfl, hq, -⟩ | ⟨q, rfl, hq, -⟩
      · exact ⟨k, _, h.nt, hk, by decide, by decide, by decide⟩
      · exact ⟨q, _, h.nt, hq, by decide, by decide, by decide⟩
      · exact ⟨q, _, h.nt, hq, by decide, by decide, by decide⟩
    obtain ⟨t, u, hn, hu, n1, n2, n3⟩ := hft
    refine acc_neg (by rw [first hn hu n1]; simp) ?_
    unfold parseTypeDecl
    refine acc_get_bind (acc_neg (by rw [peekKw_head_ne hn (kw_notKw hu n2)]; simp)
      (acc_neg (by rw [peekKw_head_ne hn (kw_notKw hu n3)]; simp) ?_))
    exact record_on hm hk hd hx hpf hT hb hmt hfin hc hi h
  | checks hk hx he hct hb hks hc =>
    refine acc_pos (peekKw_of h.nt hk) ?_
    have e : ∀ ct ks, (W.withChecks ct ks).nid = W.nid := fun _ _ => rfl
    rw [e]
    exact checkBlock_on hs hk hx he hct hb hks hc h

theorem item_ne {W' : World} {a : List Token} (ht : ItemText E rx W a W') : a ≠ [] := by
  cases ht <;> simp

theorem rslLoop_on {W' : World} (ht : RslText E rx W ts W') : ∀ (k : Nat) (s : PS), RslInv E.global s →
    On K W W.nid ts s → ts.length < k →
    Acc (rslLoop E rx k true) s (fun b s' => b = true ∧ On K W' W'.nid [] s') := by
  induction ht with
  | nil =>
    intro k s hi h hk
    obtain ⟨k, rfl⟩ : ∃ j, k = j + 1 := ⟨k - 1, by omega⟩
    unfold rslLoop
    exact acc_get_bind (acc_pos (by simp [PS.peekEof, h.nt]) (acc_pure ⟨rfl, h⟩))
  | @cons W W1 W2 a ts hit _ ih =>
    intro k s hi h hk
    obtain ⟨k, rfl⟩ : ∃ j, k = j + 1 := ⟨k - 1, by omega⟩
    unfold rslLoop
    obtain ⟨t, r, rfl⟩ := List.exists_cons_of_ne_nil (item_ne hit)
    refine acc_get_bind (acc_neg (by simp [PS.peekEof, h.nt]) ?_)
    obtain ⟨u, s1, e1, h1, hr1, -⟩ := (item_on hi hit h).sp (parseRslItem_sp hi)
    refine acc_bind (fun b s' => b = true ∧ s' = s1) ⟨true, s1, ?_, rfl, rfl⟩ ?_
    · unfold P.tryCatch
      rw [bind_ok e1]
      rfl
    rintro _ _ ⟨rfl, rfl⟩
    exact ih k _ (hr1.keep hi) h1 (by simp only [List.length_append, List.length_cons] at hk; omega)

theorem rslFile_on {W' : World} (ht : RslText E rx W ts W') (hi : RslInv E.global s) (h : On K W W.nid ts s) :
    Acc (parseRslFile E rx) s (fun b s' => b = true ∧ On K W' W'.nid [] s') := by
  unfold parseRslFile
  refine acc_get_bind ?_
  have hl := h.len
  refine acc_bind _ (rslLoop_on ht (s.toks + 1) s hi h (by omega)) ?_
  rintro _ s1 ⟨rfl, h1⟩
  refine acc_bind (fun _ s' => s' = s1) ⟨(), s1, ?_, rfl⟩ ?_
  · unfold P.matchEof; rw [h1.nt]; rfl
  rintro _ _ rfl
  exact acc_pure ⟨rfl, h1⟩

end Verif.Lemmas
