import Verif.Lemmas.Vcg.TrSound
/-! An expression whose goals hold has a value, and its term has it: the induction. -/
namespace Verif.Lemmas.Vcg
open Verif.Model Verif.Spec

variable {W : World} {G : TS}

/-- a branch whose result goes to temporary `k` and that continues at node `fin` -/
theorem branch {em : Bool} {Γ : Gamma} {ρ : NameTrs} {c : List (String × FExpr)} {e : Expr} {q : TrPair} {t s3 s4 : TS}
    {u : Unit} {I : Interp} {k : Nat} {σ : Srt} {fin : Nat} (ih : After W G I t s3 c e q)
    (h1 : Expr.tr W.trEnv em ρ e t = .ok q s3) (h2 : checkValid em q.2 s3 = .ok u s4)
    (hl : Le (link (att s4 [.declare (.tmp k) σ q.1]) fin) G) (hfin : G.nodes[fin]? = some [])
    (hs : Sit W G I t Γ ρ c) (hk : k ≤ t.tmp) (hf : Fine W.D G em (solid (strict W.env c e)).isSome) :
    ∃ v, solid (strict W.env c e) = some v ∧ (I.const (.tmp k) = W.rp v →
      ∃ I', Same t.tmp I I' ∧ ∀ s'' : TS, s''.start = fin → s4.tmp ≤ s''.tmp → Live W.D G I' s'') := by
  have hl7 : Le (att s4 [.declare (.tmp k) σ q.1]) G := (link_le _ _).trans hl
  obtain ⟨v, b, hv, hn, hsv, hb, bb, -, I', hsame, hle, hsit, hval, -⟩ := operand hs h1 h2 ((att_le _ _).trans hl7) ih hf
  refine ⟨v, hsv, fun hc => ⟨I', hsame, fun s'' g1 g2 => ?_⟩⟩
  have hlive : Live W.D G I' (att s4 [.declare (.tmp k) σ q.1]) := by
    refine live_att hsit.live hl7 fun st hst => ?_
    simp only [List.mem_singleton] at hst
    subst hst
    rw [hb]
    refine ⟨?_, by simp only [sbelow]; exact ⟨Nat.le_trans hk hle.tmp, bb⟩⟩
    simp only [Agrees, value₀]
    rw [hsame.tmp k hk, hc]
    exact hval.symm
  exact live_link hlive hl hfin g1 g2

theorem opGoals_below {n op t a b} (ha : below n a) (hb : below n b) : ∀ g ∈ opGoals op t a b, below n g.1 := by
  intro g hg
  unfold opGoals at hg
  split at hg <;> simp only [List.mem_cons, List.not_mem_nil, or_false] at hg
  · subst hg; exact ⟨hb, trivial⟩
  · subst hg; exact ⟨hb, trivial⟩
  · subst hg; exact ⟨hb, trivial⟩
  · rcases hg with rfl | rfl
    · exact ⟨hb, trivial⟩
    · exact ⟨hb, ha⟩

theorem opGoals_fb {op t a b} : ∀ g ∈ opGoals op t a b, g.2.expectUnsat = true := by
  intro g hg
  unfold opGoals at hg
  split at hg <;> simp only [List.mem_cons, List.not_mem_nil, or_false] at hg
  · subst hg; rfl
  · subst hg; rfl
  · subst hg; rfl
  · rcases hg with rfl | rfl <;> rfl

theorem asBool_val {W : World} {I : Interp} {β : Nat → Int} {a : Smt} {v : TV} {b : Bool} (h : W.val I β a = W.rp v)
    (hb : v.val = .bool b) : value W.D I β a = .bool b := by
  simp only [World.val] at h
  rw [h, World.rp, hb]
  simp [rep]

theorem bool_of {W : World} {Γ : Gamma} {c : List (String × FExpr)} {e : Expr} {v : TV} (hf : Fit W Γ e) (ht : e.typ = some .bool)
    (hc : CtxOk W.D W.objTy Γ c) (h : strict W.env c e = some v) (hn : v.val.isNull = false) : ∃ b, v.val = .bool b ∧ v.typ = some .bool := by
  have := strict_tvok hf.wt hf.side hc h
  rw [ht] at this
  obtain ⟨τ, t1, t2, t3⟩ := tvok_solid this hn
  cases t1
  obtain ⟨b, hb⟩ := t3
  exact ⟨b, hb, t2⟩

/-- an array in the input -/
theorem fok_arr {D : Decls} {objTy : Nat → Option Nat} {fe : FExpr} {id : Nat} {elem : Ty} {lo : Nat} {hi : Option Nat}
    (h : FOk D objTy fe (.arr id elem lo hi)) : ∃ es, fe = .arr (.arr id elem lo hi) es ∧ AllOk D objTy es elem := by
  cases fe <;> simp only [FOk, reduceCtorEq, false_and, or_self] at h
  case arr t es =>
    obtain ⟨rfl, id', e', lo', hi', h1, h2⟩ := h
    cases h1
    exact ⟨es, rfl, h2⟩
  case ref t o =>
    obtain ⟨rfl, _, _, _, _, h⟩ := h
    simp [Referable] at h

mutual
theorem tr_sound (hb : HeapInBounds W.heap) {em : Bool} : ∀ (e : Expr) (Γ : Gamma) (ρ : NameTrs) (c : List (String × FExpr))
    (s s' : TS) (p : TrPair) (I : Interp), Expr.tr W.trEnv em ρ e s = .ok p s' → Sit W G I s Γ ρ c → Le s' G → Fit W Γ e →
    Fine W.D G em (strict W.env c e).isSome → After W G I s s' c e p
  | .null, Γ, ρ, c, s, s', p, I, h, hs, hl, ht, hf => by
    simp only [Expr.tr, trm_pure] at h
    obtain ⟨rfl, rfl⟩ := h
    exact ⟨⟨none, .null⟩, by simp [strict], I, Same.rfl', hs.live, by simp [World.val, value, Val.isNull],
      fun h => by simp [Val.isNull] at h⟩
  | .bool _, Γ, ρ, c, s, s', p, I, h, hs, hl, ht, hf | .int _, Γ, ρ, c, s, s', p, I, h, hs, hl, ht, hf
  | .dec _, Γ, ρ, c, s, s', p, I, h, hs, hl, ht, hf | .str _, Γ, ρ, c, s, s', p, I, h, hs, hl, ht, hf
  | .enum _ _, Γ, ρ, c, s, s', p, I, h, hs, hl, ht, hf => by
    simp only [Expr.tr, trm_pure] at h
    obtain ⟨rfl, rfl⟩ := h
    exact ⟨_, by simp only [strict]; rfl, I, Same.rfl', hs.live, repr_true rfl (by simp [World.val, value, World.rp, rep])⟩
  | .name n t, Γ, ρ, c, s, s', p, I, h, hs, hl, ht, hf => by
    simp only [Expr.tr, trm_bind, trm_need, trm_pure] at h
    obtain ⟨x, _, ⟨hx, rfl⟩, rfl, rfl⟩ := h
    obtain ⟨-, fe, v, h1, h2, h3⟩ := hs.names n x hx
    exact ⟨v, by simp [strict, h1, World.env, h2, Ev.get], I, Same.rfl', hs.live, h3⟩
  | .unary t op e, Γ, ρ, c, s, s', p, I, h, hs, hl, ht, hf => by
    simp only [Expr.tr, trm_bind, trm_need, trm_createReturn] at h
    obtain ⟨q, s1, h1, _, s2, h2, a, _, ⟨ha, rfl⟩, x, _, ⟨hx, rfl⟩, rfl, rfl⟩ := h
    have hw := ht.wt; simp only [WT] at hw
    have hsd := ht.side; simp only [Side] at hsd
    have hex := ht.exact; simp only [Exact] at hex
    have fe : Fit W Γ e := ⟨hw.1, hsd, hex⟩
    have l2 : Le s2 G := ((bump_le _).trans (att_le _ _)).trans hl
    obtain ⟨m1, m2, m3⟩ := tr_mono e ρ s s1 q h1 hs.ok hs.nb
    have l1 : Le s1 G := (valid_le h2 m2).1.trans l2
    have ff : Fine W.D G em (solid (strict W.env c e)).isSome := fine_some hf fun v hv => by
      simp only [strict, Option.bind_eq_some_iff] at hv
      obtain ⟨w, hw, -⟩ := hv
      simp [hw]
    have ih := tr_sound hb e Γ ρ c s s1 q I h1 hs l1 fe (ff.imp fun h => by
      obtain ⟨w, hw⟩ := Option.isSome_iff_exists.1 h
      simp [(solid_eq_some.1 hw).1])
    obtain ⟨v, a', hv, hn, hsv, ha', ba, -, I1, hsame, hle, hsit, hval, -⟩ := operand hs h1 h2 l2 ih ff
    rw [ha] at ha'; cases ha'
    obtain ⟨τ, t1, t2, t3⟩ := tvok_solid (strict_tvok hw.1 hsd hs.ctx hv) hn
    rw [t1] at hx hw
    obtain ⟨w, hw'⟩ := unary_total t2 hn t3 hw.2
    have hxv : W.val I1 zero x = W.rp w := unTerm_value t3 hw.2 hw' (by rw [hval, World.rp, t2]) hx
    obtain ⟨I2, g1, g2, g3⟩ := return_live hl hsit.live (unTerm_below hx ba) hxv (un_notnull hw')
    exact ⟨w, by simp [strict, hsv, hw', Ev.get], I2, hsame.trans g1 hle.tmp, g2, g3⟩
  | .binary t op l r, Γ, ρ, c, s, s', p, I, h, hs, hl, ht, hf => by
    simp only [Expr.tr, trm_bind] at h
    obtain ⟨p1, s1, h1, h⟩ := h
    have hw := ht.wt; simp only [WT] at hw
    have hsd := ht.side; simp only [Side] at hsd
    have hex := ht.exact; simp only [Exact] at hex
    have fl : Fit W Γ l := ⟨hw.1, hsd.1, hex.1⟩
    have fr : Fit W Γ r := ⟨hw.2.1, hsd.2.1, hex.2.1⟩
    obtain ⟨m1, m2, m3⟩ := tr_mono l ρ s s1 p1 h1 hs.ok hs.nb
    by_cases han : op.allowsNull = true
    · simp only [han, if_true, trm_bind, trm_need, trm_createReturn] at h
      obtain ⟨p2, s2, h2, x, _, ⟨hx, rfl⟩, rfl, rfl⟩ := h
      obtain ⟨m4, m5, m6⟩ := tr_mono r ρ s1 s2 p2 h2 m2 (hs.nb.mono m1.tmp)
      have l2 : Le s2 G := ((bump_le _).trans (att_le _ _)).trans hl
      obtain ⟨vl, hvl, I1, g1, g2, g3⟩ := tr_sound hb l Γ ρ c s s1 p1 I h1 hs (m4.trans l2) fl (fine_some hf fun v hv => by
        simp only [strict, han, if_true, Option.bind_eq_some_iff] at hv
        obtain ⟨w, hw, -⟩ := hv
        simp [hw])
      have hs1 := hs.next g1 m1 m2 g2
      obtain ⟨vr, hvr, I2, g4, g5, g6⟩ := tr_sound hb r Γ ρ c s1 s2 p2 I1 h2 hs1 l2 fr (fine_some hf fun v hv => by
        simp only [strict, han, if_true, Option.bind_eq_some_iff] at hv
        obtain ⟨w, -, w', hw, -⟩ := hv
        simp [hw])
      have g3' : Repr W I2 zero p1 vl := repr_same g3 m3 g4 fun _ _ => rfl
      have hxv := eqTerm_value (strict_tvok fl.wt fl.side hs.ctx hvl) (strict_tvok fr.wt fr.side hs.ctx hvr) (hex.2.2.1 han) g3' g6 hx
      have tb : t = some .bool := by
        have := hw.2.2.1
        cases op <;> simp_all [BinOp.allowsNull, binOk]
      have hok : ∃ w, binaryOp W.rx op t vl vr = .ok w := by
        subst tb
        cases op <;> simp only [BinOp.allowsNull, Bool.false_eq_true] at han <;>
        exact ⟨_, by simp only [binaryOp, mkValue, Val.isNull, Option.isNone_some, if_true]; rfl⟩
      obtain ⟨w, hwk⟩ := hok
      have hres := eq_result han (Or.inr tb) hwk hxv
      obtain ⟨I3, g7, g8, g9⟩ := return_live hl g5 (negIf_below (eqTerm_below hx (m3.mono m4.tmp) m6)) hres.1 hres.2
      exact ⟨w, by simp only [strict, han, if_true, hvl, hvr, Option.bind_some]; exact get_eq_some.2 hwk, I3,
        (g1.trans g4 m1.tmp).trans g7 (m1.trans m4).tmp, g8, g9⟩
    · simp only [han, if_false, trm_bind, trm_need, trm_createReturn, Bool.false_eq_true] at h
      obtain ⟨_, s2, h2, p2, s3, h3, _, s4, h4, a, _, ⟨ha, rfl⟩, b, _, ⟨hbb, rfl⟩, _, s5, h5, x, _, ⟨hx, rfl⟩, rfl, rfl⟩ := h
      have l5 : Le s5 G := ((bump_le _).trans (att_le _ _)).trans hl
      obtain ⟨m4, m5, m6⟩ := valid_le h2 m2
      obtain ⟨m7, m8, m9⟩ := tr_mono r ρ s2 s3 p2 h3 m5 (hs.nb.mono (m1.trans m4).tmp)
      obtain ⟨m10, m11, m12⟩ := valid_le h4 m8
      obtain ⟨m13, m14, m15⟩ := goals_le h5 m11
      have l4 : Le s4 G := m13.trans l5
      have l2 : Le s2 G := (m7.trans m10).trans l4
      have fl' : Fine W.D G em (solid (strict W.env c l)).isSome := fine_some hf fun v hv => by
        simp only [strict, han, if_false, Bool.false_eq_true, Option.bind_eq_some_iff] at hv
        obtain ⟨w, hw, -⟩ := hv
        simp [hw]
      have fr' : Fine W.D G em (solid (strict W.env c r)).isSome := fine_some hf fun v hv => by
        simp only [strict, han, if_false, Bool.false_eq_true, Option.bind_eq_some_iff] at hv
        obtain ⟨w, -, w', hw, -⟩ := hv
        simp [hw]
      have sol : ∀ e, (solid (strict W.env c e)).isSome → (strict W.env c e).isSome := fun e h => by
        obtain ⟨w, hw⟩ := Option.isSome_iff_exists.1 h
        simp [(solid_eq_some.1 hw).1]
      have ihl := tr_sound hb l Γ ρ c s s1 p1 I h1 hs (m4.trans l2) fl (fl'.imp (sol l))
      obtain ⟨vl, a', hvl, nl, hsl, ha', ba, bpl, I1, sm1, le1, sit1, val1, rep1⟩ := operand hs h1 h2 l2 ihl fl'
      rw [ha] at ha'; cases ha'
      have ihr := tr_sound hb r Γ ρ c s2 s3 p2 I1 h3 sit1 (m10.trans l4) fr (fr'.imp (sol r))
      obtain ⟨vr, b', hvr, nr, hsr, hb', bb, bpr, I2, sm2, le2, sit2, val2, rep2⟩ := operand sit1 h3 h4 l4 ihr fr'
      rw [hbb] at hb'; cases hb'
      have val1' : W.val I2 zero a = W.rp vl := (value_below sm2 ba fun _ _ => rfl).trans val1
      have ba' : below s4.tmp a := below_mono (m7.trans m10).tmp ba
      obtain ⟨σ, t1, t2, t3⟩ := tvok_solid (strict_tvok fl.wt fl.side hs.ctx hvl) nl
      obtain ⟨τ, r1, r2, r3⟩ := tvok_solid (strict_tvok fr.wt fr.side hs.ctx hvr) nr
      have ho := hw.2.2.1
      rw [t1, r1] at ho
      have hpow : op = .power → ∃ i, vr.val = .int i ∧ 0 ≤ i := fun h => by
        obtain ⟨v, i, e1, e2, e3⟩ := hw.2.2.2 h
        have := (static_eval W.rx _ r v e1).2 W.heap (some c)
        rw [show Expr.eval ⟨W.heap, W.rx⟩ (some c) r = .ok vr from strict_eval W.env r c vr hvr] at this
        cases this
        exact ⟨i, e2, e3⟩
      have hbd := eval_bounded hb l Γ c vl (strict_eval W.env l c vl hvl) fl.wt fl.side hs.ctx hs.bd
      have hiff := op_goals t2 r2 nl nr t3 r3 ho (by simpa using han) hpow hbd val1' val2
      rw [t1] at h5
      obtain ⟨hgs, live5⟩ := goals_live h5 l5 sit2.live sit2.io (opGoals_below ba' bb) opGoals_fb
        (fine_some hf fun v hv => by
          simp only [strict, han, if_false, Bool.false_eq_true, hsl, hsr, Option.bind_some] at hv
          refine hiff.2 ⟨v, get_eq_some.1 hv, ?_⟩
          by_cases hix : op = .index
          · subst hix
            obtain ⟨⟨id, e, lo, hi, q1, q2⟩, q3⟩ := ho
            cases q1; subst q2
            have hk := get_eq_some.1 hv
            simp only [binaryOp, indexOp] at hk
            repeat' split at hk
            all_goals first
              | (cases hk; done)
              | (simp only [mkValue, Option.isNone_some] at hk
                 split at hk
                 · next hq => cases hk; exact hq.symm
                 · cases hk)
          · exact bin_notnull hix (get_eq_some.1 hv))
      obtain ⟨w, hwk, hwn⟩ := hiff.1 hgs
      have hin : op = .arrContains → ∃ id lo hi, τ = .arr id σ lo hi := by
        intro h
        obtain ⟨id, σ', lo, hi, g1, g2⟩ := hex.2.2.2 h
        rw [t1] at g1; cases g1
        rw [r1] at g2; cases g2
        exact ⟨_, _, _, rfl⟩
      have hxv := binTerm_value t1 t2 r2 t3 r3 ho (static_value hvr) hin hwk val1' val2 hx sit2.io
      have bx : below s5.tmp x := by rw [m15]; exact binTerm_below hx ba' bb
      obtain ⟨I3, g7, g8, g9⟩ := return_live hl live5 bx hxv hwn
      exact ⟨w, by simp only [strict, han, if_false, Bool.false_eq_true, hsl, hsr, Option.bind_some]; exact get_eq_some.2 hwk, I3,
        (sm1.trans sm2 le1.tmp).trans g7 (((m1.trans m4).trans m7).trans (m10.trans m13)).tmp, g8, g9⟩
  | .logic op l r, Γ, ρ, c, s, s', p, I, h, hs, hl, ht, hf => by
    simp only [Expr.tr, trm_bind, trm_need, trm_getStart, trm_newTemp, trm_newNode, trm_attach, declareTemp, trm_edgeTo,
      trm_setStart, trm_pure] at h
    obtain ⟨p1, s1, h1, _, s2, h2, a, _, ⟨ha, rfl⟩, here, _, ⟨rfl, rfl⟩, k, _, ⟨rfl, rfl⟩, fin, _, ⟨rfl, rfl⟩, _, _, rfl,
      _, _, rfl, _, _, rfl, _, _, rfl, _, _, rfl, q, s3, h3, _, s4, h4, _, _, rfl, _, _, rfl, _, _, rfl, rfl, rfl⟩ := h
    have hw := ht.wt; simp only [WT] at hw
    have hsd := ht.side; simp only [Side] at hsd
    have hex := ht.exact; simp only [Exact] at hex
    have fl : Fit W Γ l := ⟨hw.1, hsd.1, hex.1⟩
    have fr : Fit W Γ r := ⟨hw.2.1, hsd.2, hex.2⟩
    obtain ⟨m1, m2, m3⟩ := tr_mono l ρ s s1 p1 h1 hs.ok hs.nb
    obtain ⟨m4, m5, m6⟩ := valid_le h2 m2
    have hl8 := (goto_le _ _).trans hl
    have l4 : Le s4 G := ((att_le _ _).trans (link_le _ _)).trans hl8
    obtain ⟨m7, m8, m9⟩ := tr_mono r ρ _ s3 q h3 (att_ok _ _) (hs.nb.mono (m1.trans m4).tmp |>.mono (by simp [att, goto, link, fresh, bump]))
    obtain ⟨m10, m11, m12⟩ := valid_le h4 m8
    have lt6 := (m7.trans m10).trans l4
    have lt4 := ((goto_le _ _).trans (att_le _ _)).trans lt6
    have lt3 := (link_le _ _).trans lt4
    have lt2 := (att_le _ _).trans lt3
    have lt1 : Le (fresh (bump s2)) G := (att_le _ _).trans lt2
    have l2 : Le s2 G := ((bump_le _).trans (fresh_le _)).trans lt1
    have hfin : G.nodes[(bump s2).nodes.length]? = some [] := prefix_get lt1.nodes (by simp [fresh])
    have fl' : Fine W.D G em (solid (strict W.env c l)).isSome := fine_some hf fun v hv => by
      simp only [strict, Option.bind_eq_some_iff] at hv
      obtain ⟨w, hw, -⟩ := hv
      simp [hw]
    have ihl := tr_sound hb l Γ ρ c s s1 p1 I h1 hs (m4.trans l2) fl (fl'.imp fun h => by
      obtain ⟨w, hw⟩ := Option.isSome_iff_exists.1 h
      simp [(solid_eq_some.1 hw).1])
    obtain ⟨vl, a', hvl, nl, hsl, ha', ba, bpl, I1, sm1, le1, sit1, val1, rep1⟩ := operand hs h1 h2 l2 ihl fl'
    rw [ha] at ha'; cases ha'
    obtain ⟨bl, hbl, htl⟩ := bool_of fl hw.2.2.1 hs.ctx hvl nl
    have va := asBool_val val1 hbl
    -- the right operand is not evaluated
    have skip : ∀ x : Bool, (skipped op a).1 = (if bl then a else .un .not a) → (skipped op a).2 = .bool x →
        strict W.env c (.logic op l r) = some ⟨some .bool, .bool x⟩ →
        After W G I s (goto (link (att s4 [.declare (.tmp (s2.tmp + 1)) .bool q.1]) (bump s2).nodes.length) (bump s2).nodes.length) c
          (.logic op l r) (some (.sym (.tmp (s2.tmp + 1))), .bool true) := by
      intro x e1 e2 hv
      have hsm : Same s2.tmp I1 (setTmp I1 (s2.tmp + 1) (.bool x)) := setTmp_same (by omega) _
      refine ⟨_, hv, _, sm1.trans hsm le1.tmp, ?_, repr_true rfl (by simp [World.val, value, World.rp, rep, setTmp_self])⟩
      have lv1 : Live W.D G (setTmp I1 (s2.tmp + 1) (.bool x)) (fresh (bump s2)) :=
        live_of (live_same sit1.live hsm) rfl (by simp [fresh, bump])
      have va' : value W.D (setTmp I1 (s2.tmp + 1) (.bool x)) zero a = .bool bl := (value_below hsm ba fun _ _ => rfl).trans va
      have lv2 := live_att lv1 lt2 (fun st hst => by
        simp only [List.mem_singleton] at hst
        subst hst
        rw [e1]
        refine ⟨?_, ?_⟩
        · cases bl <;> simp [Agrees, value₀, value, unSem, va', SV.asBool]
        · cases bl <;> exact below_mono (by simp [fresh, bump]) ba)
      have lv3 := live_att lv2 lt3 (fun st hst => by
        simp only [List.mem_singleton] at hst
        subst hst
        rw [e2]
        exact ⟨by simp [Agrees, setTmp_self, value₀, value], by simp [sbelow, below, att, fresh, bump]⟩)
      refine live_link lv3 lt4 hfin rfl ?_
      have := (m7.trans m10).tmp
      simpa [att, goto, link, fresh, bump] using this
    -- the right operand is evaluated
    have evald : evaluated op a = (if bl then a else .un .not a) →
        (∀ v, solid (strict W.env c r) = some v → strict W.env c (.logic op l r) = some v) →
        Fine W.D G em (solid (strict W.env c r)).isSome →
        After W G I s (goto (link (att s4 [.declare (.tmp (s2.tmp + 1)) .bool q.1]) (bump s2).nodes.length) (bump s2).nodes.length) c
          (.logic op l r) (some (.sym (.tmp (s2.tmp + 1))), .bool true) := by
      intro e1 hv hfr
      -- the situation before the right operand
      have pre : ∀ I2, Same s2.tmp I1 I2 → Sit W G I2 (att (goto (link (att (att (fresh (bump s2)) [.assert (skipped op a).1])
          [.declare (.tmp (s2.tmp + 1)) .bool (some (skipped op a).2)]) (bump s2).nodes.length) s2.start)
          [.assert (evaluated op a)]) Γ ρ c := by
        intro I2 hsm
        have va' : value W.D I2 zero a = .bool bl := (value_below hsm ba fun _ _ => rfl).trans va
        refine sit1.next hsm (by exact ((bump_le _).trans ((fresh_le _).trans ((att_le _ _).trans ((att_le _ _).trans ((link_le _ _).trans ((goto_le _ _).trans (att_le _ _)))))))) (att_ok _ _) ?_
        have lv : Live W.D G I2 (goto (link (att (att (fresh (bump s2)) [.assert (skipped op a).1])
          [.declare (.tmp (s2.tmp + 1)) .bool (some (skipped op a).2)]) (bump s2).nodes.length) s2.start) :=
          live_of (live_same sit1.live hsm) rfl (by simp [att, goto, link, fresh, bump])
        refine live_att lv lt6 fun st hst => ?_
        simp only [List.mem_singleton] at hst
        subst hst
        rw [e1]
        refine ⟨?_, ?_⟩
        · cases bl <;> simp [Agrees, value₀, value, unSem, va', SV.asBool]
        · cases bl <;> exact below_mono (by simp [att, goto, link, fresh, bump]) ba
      have ih := fun I2 (hsm : Same s2.tmp I1 I2) => tr_sound hb r Γ ρ c _ s3 q I2 h3 (pre I2 hsm) (m10.trans l4) fr (hfr.imp fun h => by
        obtain ⟨w, hw⟩ := Option.isSome_iff_exists.1 h
        simp [(solid_eq_some.1 hw).1])
      have hk : s2.tmp + 1 ≤ (att (goto (link (att (att (fresh (bump s2)) [.assert (skipped op a).1])
          [.declare (.tmp (s2.tmp + 1)) .bool (some (skipped op a).2)]) (bump s2).nodes.length) s2.start)
          [.assert (evaluated op a)]).tmp := Nat.le_refl _
      obtain ⟨v, hv1, -⟩ := branch (ih I1 Same.rfl') h3 h4 hl8 hfin (pre I1 Same.rfl') hk hfr
      have hsm : Same s2.tmp I1 (setTmp I1 (s2.tmp + 1) (W.rp v)) := setTmp_same (by omega) _
      obtain ⟨v', hv2, hlive⟩ := branch (ih _ hsm) h3 h4 hl8 hfin (pre _ hsm) hk hfr
      rw [hv1] at hv2; cases hv2
      obtain ⟨I3, sm3, hlv⟩ := hlive setTmp_self
      refine ⟨v, hv v hv1, I3, (sm1.trans hsm le1.tmp).trans sm3 (le1.trans (by exact ((bump_le _).trans ((fresh_le _).trans ((att_le _ _).trans ((att_le _ _).trans ((link_le _ _).trans ((goto_le _ _).trans (att_le _ _)))))))) : Le s _).tmp,
        hlv _ rfl (by simp [att, link, goto]), repr_true (solid_eq_some.1 hv1).2 ?_⟩
      simp only [World.val, value]
      rw [sm3.tmp _ hk]
      exact setTmp_self
    have hvl' : vl = ⟨some .bool, .bool bl⟩ := by cases vl; simp_all
    cases op <;> cases bl
    · exact skip false rfl rfl (by simp [strict, hsl, hbl, hvl'])
    · exact evald rfl (fun v hv => by simp [strict, hsl, hbl, hv]) (fine_some hf fun v hv => by
        simp only [strict, hsl, Option.bind_some, hbl, if_true] at hv; simp [hv])
    · exact evald rfl (fun v hv => by simp [strict, hsl, hbl, hv]) (fine_some hf fun v hv => by
        simp only [strict, hsl, Option.bind_some, hbl, if_false, Bool.false_eq_true] at hv; simp [hv])
    · exact skip true rfl rfl (by simp [strict, hsl, hbl, hvl'])
    · exact skip true rfl rfl (by simp [strict, hsl, hbl])
    · exact evald rfl (fun v hv => by simp [strict, hsl, hbl, hv]) (fine_some hf fun v hv => by
        simp only [strict, hsl, Option.bind_some, hbl, if_true] at hv; simp [hv])
  | .field e n t, Γ, ρ, c, s, s', p, I, h, hs, hl, ht, hf => by
    simp only [Expr.tr, trm_bind, trm_need] at h
    obtain ⟨q, s1, h1, _, s2, h2, a, _, ⟨ha, rfl⟩, hp, rfl⟩ := h
    have hw := ht.wt; simp only [WT] at hw
    have hsd := ht.side; simp only [Side] at hsd
    have hex := ht.exact; simp only [Exact] at hex
    have fe : Fit W Γ e := ⟨hw.1, hsd.1, hex⟩
    obtain ⟨m1, m2, m3⟩ := tr_mono e ρ s s1 q h1 hs.ok hs.nb
    have ff : Fine W.D G em (solid (strict W.env c e)).isSome := fine_some hf fun v hv => by
      simp only [strict, Option.bind_eq_some_iff] at hv
      obtain ⟨w, hw, -⟩ := hv
      simp [hw]
    have ih := tr_sound hb e Γ ρ c s s1 q I h1 hs ((valid_le h2 m2).1.trans hl) fe (ff.imp fun h => by
      obtain ⟨w, hw⟩ := Option.isSome_iff_exists.1 h
      simp [(solid_eq_some.1 hw).1])
    obtain ⟨v, a', hv, hn, hsv, ha', ba, -, I1, hsame, hle, hsit, hval, -⟩ := operand hs h1 h2 hl ih ff
    rw [ha] at ha'; cases ha'
    obtain ⟨τ, t1, t2, t3⟩ := tvok_solid (strict_tvok hw.1 hsd.1 hs.ctx hv) hn
    have hw2 := hw.2
    have hs2 := hsd.2
    rw [t1] at hp hw2 hs2
    simp only [World.rp, t2] at hval
    obtain ⟨w, hwk⟩ := field_total t3 hw2
    exact ⟨w, by simp only [strict, hsv, Option.bind_some]; exact fieldOf_eq.2 hwk, I1, hsame, hsit.live,
      fieldTerm_value hsit.io t3 hw2 (fun id ms h => hs2 id ms (by rw [h])) hp hval hwk⟩
  | .range e lo up, Γ, ρ, c, s, s', p, I, h, hs, hl, ht, hf => by
    simp only [Expr.tr, trm_bind, trm_need, trm_createReturn] at h
    obtain ⟨p1, s1, h1, _, s2, h2, p2, s3, h3, _, s4, h4, p3, s5, h5, _, s6, h6, a, _, ⟨ha, rfl⟩, b, _, ⟨hbb, rfl⟩,
      d, _, ⟨hd, rfl⟩, rfl, rfl⟩ := h
    have hw := ht.wt; simp only [WT] at hw
    have hsd := ht.side; simp only [Side] at hsd
    have hex := ht.exact; simp only [Exact] at hex
    obtain ⟨w1, w2, w3, wt, wl, wu⟩ := hw
    have f1 : Fit W Γ e := ⟨w1, hsd.1, hex.1⟩
    have f2 : Fit W Γ lo := ⟨w2, hsd.2.1, hex.2.1⟩
    have f3 : Fit W Γ up := ⟨w3, hsd.2.2, hex.2.2⟩
    obtain ⟨m1, m2, m3⟩ := tr_mono e ρ s s1 p1 h1 hs.ok hs.nb
    obtain ⟨m4, m5, m6⟩ := valid_le h2 m2
    obtain ⟨m7, m8, m9⟩ := tr_mono lo ρ s2 s3 p2 h3 m5 (hs.nb.mono (m1.trans m4).tmp)
    obtain ⟨m10, m11, m12⟩ := valid_le h4 m8
    obtain ⟨m13, m14, m15⟩ := tr_mono up ρ s4 s5 p3 h5 m11 (hs.nb.mono (((m1.trans m4).trans m7).trans m10).tmp)
    obtain ⟨m16, m17, m18⟩ := valid_le h6 m14
    have l6 : Le s6 G := ((bump_le _).trans (att_le _ _)).trans hl
    have l4 : Le s4 G := (m13.trans m16).trans l6
    have l2 : Le s2 G := (m7.trans m10).trans l4
    have sol : ∀ e, (solid (strict W.env c e)).isSome → (strict W.env c e).isSome := fun e h => by
      obtain ⟨w, hw⟩ := Option.isSome_iff_exists.1 h
      simp [(solid_eq_some.1 hw).1]
    have g1 : Fine W.D G em (solid (strict W.env c e)).isSome := fine_some hf fun v hv => by
      simp only [strict, Option.bind_eq_some_iff] at hv
      obtain ⟨w, hw, -⟩ := hv
      simp [hw]
    have g2 : Fine W.D G em (solid (strict W.env c lo)).isSome := fine_some hf fun v hv => by
      simp only [strict, Option.bind_eq_some_iff] at hv
      obtain ⟨w, -, w', hw, -⟩ := hv
      simp [hw]
    have g3 : Fine W.D G em (solid (strict W.env c up)).isSome := fine_some hf fun v hv => by
      simp only [strict, Option.bind_eq_some_iff] at hv
      obtain ⟨w, -, w', -, w'', hw, -⟩ := hv
      simp [hw]
    have ih1 := tr_sound hb e Γ ρ c s s1 p1 I h1 hs (m4.trans l2) f1 (g1.imp (sol e))
    obtain ⟨v1, a', hv1, n1, hs1, ha', ba, -, I1, sm1, le1, sit1, val1, -⟩ := operand hs h1 h2 l2 ih1 g1
    rw [ha] at ha'; cases ha'
    have ih2 := tr_sound hb lo Γ ρ c s2 s3 p2 I1 h3 sit1 (m10.trans l4) f2 (g2.imp (sol lo))
    obtain ⟨v2, b', hv2, n2, hs2, hb', bb, -, I2, sm2, le2, sit2, val2, -⟩ := operand sit1 h3 h4 l4 ih2 g2
    rw [hbb] at hb'; cases hb'
    have ih3 := tr_sound hb up Γ ρ c s4 s5 p3 I2 h5 sit2 (m16.trans l6) f3 (g3.imp (sol up))
    obtain ⟨v3, d', hv3, n3, hs3, hd', bd, -, I3, sm3, le3, sit3, val3, -⟩ := operand sit2 h5 h6 l6 ih3 g3
    rw [hd] at hd'; cases hd'
    have val2' : W.val I3 zero b = W.rp v2 := (value_below sm3 bb fun _ _ => rfl).trans val2
    have val1' : W.val I3 zero a = W.rp v1 :=
      (value_below (sm2.trans sm3 le2.tmp) ba fun _ _ => rfl).trans val1
    obtain ⟨τ, t1, t2, t3⟩ := tvok_solid (strict_tvok w1 hsd.1 hs.ctx hv1) n1
    have tl := strict_tvok w2 hsd.2.1 hs.ctx hv2
    have tu := strict_tvok w3 hsd.2.2 hs.ctx hv3
    rw [wl, t1] at tl
    rw [wu, t1] at tu
    rw [t1] at wt
    obtain ⟨τ', q1, q2, q3⟩ := tvok_solid tl n2
    obtain ⟨τ'', q4, q5, q6⟩ := tvok_solid tu n3
    cases q1; cases q4
    have bx : below s6.tmp (.bin .and (.bin .geq a b) (.bin .leq a d)) :=
      ⟨⟨below_mono (le2.trans le3).tmp ba, below_mono le3.tmp bb⟩, below_mono (le2.trans le3).tmp ba, bd⟩
    have main : ∃ x : Bool, inRange v2.val v1.val v3.val = some x ∧
        W.val I3 zero (.bin .and (.bin .geq a b) (.bin .leq a d)) = .bool x := by
      simp only [World.val] at val1' val2' val3
      rcases wt with h | h <;> cases h
      all_goals
        obtain ⟨i, hi⟩ := t3
        obtain ⟨j, hj⟩ := q3
        obtain ⟨k, hk⟩ := q6
        refine ⟨_, by simp only [hi, hj, hk, inRange]; rfl, ?_⟩
        simp only [World.val, value, binSem, val1', val2', val3, World.rp, hi, hj, hk, rep, SV.asBool, SV.asRat]
        try simp
    obtain ⟨x, hx1, hx2⟩ := main
    obtain ⟨I4, g7, g8, g9⟩ := return_live (v := ⟨some .bool, .bool x⟩) hl sit3.live bx (by rw [hx2, World.rp]; simp [rep]) rfl
    exact ⟨⟨some .bool, .bool x⟩, by simp [strict, hs1, hs2, hs3, hx1], I4,
      ((sm1.trans sm2 le1.tmp).trans sm3 (le1.trans le2).tmp).trans g7 ((le1.trans le2).trans le3).tmp, g8, g9⟩
  | .oneof cs, Γ, ρ, c, s, s', p, I, h, hs, hl, ht, hf => by
    simp only [Expr.tr, trm_bind, trm_need, trm_createReturn] at h
    obtain ⟨xs, s1, h1, x, _, ⟨hx, rfl⟩, rfl, rfl⟩ := h
    have hw := ht.wt; simp only [WT] at hw
    have hsd := ht.side; simp only [Side] at hsd
    have hex := ht.exact; simp only [Exact] at hex
    have l1 : Le s1 G := ((bump_le _).trans (att_le _ _)).trans hl
    obtain ⟨m1, m2, m3⟩ := trs_mono cs ρ s s1 xs h1 hs.ok hs.nb
    obtain ⟨bs, I1, hvs, sm1, lv1, hval⟩ := trs_sound hb cs Γ ρ c s s1 xs I h1 hs l1 hw hsd hex (fine_some hf fun v hv => by
      simp only [strict, Option.map_eq_some_iff] at hv
      obtain ⟨w, hw, -⟩ := hv
      simp [hw])
    have hxv := oneofTerm_value hval hx
    obtain ⟨I4, g7, g8, g9⟩ := return_live (v := ⟨some .bool, .bool (bs.count true == 1)⟩) hl lv1 (oneofTerm_below hx m3)
      (by rw [hxv, World.rp]; simp [rep]) rfl
    exact ⟨_, by simp [strict, hvs, countTrue_bools], I4, sm1.trans g7 m1.tmp, g8, g9⟩
  | .cond t as, Γ, ρ, c, s, s', p, I, h, hs, hl, ht, hf => by
    simp only [Expr.tr, trm_bind, trm_newNode, trm_newTemp, trm_setStart, trm_pure] at h
    obtain ⟨fin, _, ⟨rfl, rfl⟩, k, _, ⟨rfl, rfl⟩, _, s1, h1, _, _, rfl, rfl, rfl⟩ := h
    have hw := ht.wt; simp only [WT] at hw
    have hsd := ht.side; simp only [Side] at hsd
    have hex := ht.exact; simp only [Exact] at hex
    have l1 : Le s1 G := (goto_le _ _).trans hl
    have l0 : Le s (bump (fresh s)) := (fresh_le s).trans (bump_le _)
    obtain ⟨m1, m2⟩ := tra_mono as ρ _ _ _ _ s1 h1 (bump_ok (fresh_ok hs.ok)) (hs.nb.mono l0.tmp)
    have hfin : G.nodes[s.nodes.length]? = some [] := prefix_get (m1.trans l1).nodes (by simp [fresh, bump])
    have pre : ∀ I2, Same s.tmp I I2 → Sit W G I2 (bump (fresh s)) Γ ρ c := fun I2 hsm =>
      hs.next hsm l0 (bump_ok (fresh_ok hs.ok)) (live_of (live_same hs.live hsm) rfl (by simp [fresh, bump]))
    have hk : (fresh s).tmp + 1 ≤ (bump (fresh s)).tmp := Nat.le_refl _
    have hff : Fine W.D G em (strictA W.env c as).isSome := fine_some hf fun v hv => by
      simp only [strict] at hv; simp [hv]
    obtain ⟨v, hv1, -⟩ := tra_sound hb as Γ ρ c t _ _ _ _ s1 I h1 (pre I Same.rfl') hk l1 hfin hw hsd hex hff
    have hsm : Same s.tmp I (setTmp I ((fresh s).tmp + 1) (W.rp v)) := setTmp_same (by simp [fresh]) _
    obtain ⟨v', hv2, nv, hlive⟩ := tra_sound hb as Γ ρ c t _ _ _ _ s1 _ h1 (pre _ hsm) hk l1 hfin hw hsd hex hff
    rw [hv1] at hv2; cases hv2
    obtain ⟨I3, sm3, hlv⟩ := hlive setTmp_self
    refine ⟨v, by simp [strict, hv1], I3, hsm.trans sm3 l0.tmp, hlv _ rfl (by simp [goto]), repr_true nv ?_⟩
    simp only [World.val, value]
    rw [sm3.tmp _ hk]
    exact setTmp_self
  | .quant u x src body, Γ, ρ, c, s, s', p, I, h, hs, hl, ht, hf => by
    simp only [Expr.tr, trm_bind, trm_need] at h
    obtain ⟨sx, _, ⟨hsx, rfl⟩, _, s1, h1, here, _, hg, h⟩ := h
    rw [trm_getStart] at hg
    obtain ⟨rfl, rfl⟩ := hg
    obtain ⟨l1, o1, e1⟩ := valid_le h1 hs.ok
    have hw := ht.wt; simp only [WT] at hw
    have hsd := ht.side; simp only [Side] at hsd
    have hex := ht.exact; simp only [Exact] at hex
    obtain ⟨⟨aid, elem, lo, hi, b0, hg, hwb⟩, htb⟩ := hw
    obtain ⟨hsb, -⟩ := hsd aid elem lo hi b0 hg
    obtain ⟨⟨b1, hg'⟩, fe, v0, hlk, hev, hrp⟩ := hs.names src sx hsx
    rw [hg] at hg'
    have hty : sx.ty = .arr aid elem lo hi := by simp only [Option.some.injEq, Prod.mk.injEq] at hg'; exact hg'.1.symm
    have hsxb := hs.nb src sx hsx
    simp only [hty, trm_bind, trm_newTemp, trm_attach, trm_setStart, trm_lift, trm_need] at h
    obtain ⟨i, _, ⟨rfl, rfl⟩, k, _, ⟨rfl, rfl⟩, _, _, rfl, pb, s2, h2, _, s3, h3, _, _, rfl, j, _, ⟨rfl, rfl⟩,
      q, _, ⟨hq, rfl⟩, b, _, ⟨hbq, rfl⟩, h⟩ := h
    have lx : Le s1 (att (bump (bump s1)) [.declare (.tmp (s1.tmp + 1)) .int none,
      .assert (.bin .geq (.sym (.tmp (s1.tmp + 1))) (.int 0)),
      .assert (.bin .lt (.sym (.tmp (s1.tmp + 1))) (.un .seqLen sx.value)),
      .declare (.tmp ((bump s1).tmp + 1)) elem.srt (some (.nth elem.srt sx.value (.sym (.tmp (s1.tmp + 1)))))]) :=
      (bump_le _).trans ((bump_le _).trans (att_le _ _))
    obtain ⟨l2, o2, b2⟩ := tr_mono body _ _ s2 pb h2 (att_ok _ _) ((hs.nb.mono (l1.trans lx).tmp).bind x (by simp [below, att, bump]) elem)
    obtain ⟨l3, o3, e3⟩ := valid_le h3 o2
    have hend : s' = bump (goto s3 s1.start) ∧ p = (some (if u then .all ((goto s3 s1.start).tmp + 1) (.bin .imp (boundsTerm (.idx ((goto s3 s1.start).tmp + 1)) sx.value) b)
        else .ex ((goto s3 s1.start).tmp + 1) (.bin .and (boundsTerm (.idx ((goto s3 s1.start).tmp + 1)) sx.value) b)), .bool true) := by
      split at h
      · next hu =>
        rw [trm_pure] at h
        obtain ⟨rfl, rfl⟩ := h
        simp [hu]
      · next hu =>
        rw [trm_pure] at h
        obtain ⟨rfl, rfl⟩ := h
        simp [hu]
    obtain ⟨rfl, rfl⟩ := hend
    have lG3 : Le s3 G := ((goto_le _ _).trans (bump_le _)).trans hl
    have lGx := (l2.trans l3).trans lG3
    have lG1 : Le s1 G := lx.trans lGx
    -- the array
    obtain ⟨hn0, lv1⟩ := valid_live (p := (some sx.value, sx.valid)) h1 lG1 hs.live hs.io ⟨fun a ha => by cases ha; exact hsxb.1, hsxb.2⟩ hrp
      (fine_some hf fun v hv => by
        simp only [strict, hlk] at hv
        split at hv
        · next t es heq =>
          cases heq
          simp only [FExpr.eval] at hev
          obtain ⟨vs, -, hev⟩ := bind_eq_ok.1 hev
          rw [mkValue_get hev]
          rfl
        · cases hv)
    obtain ⟨es, rfl, hall⟩ : ∃ es, fe = .arr (.arr aid elem lo hi) es ∧ AllOk W.D W.objTy es elem := by
      obtain ⟨fe', h1, h2⟩ := hs.ctx src _ b0 hg
      rw [hlk] at h1; cases h1
      rcases h2 with ⟨-, rfl⟩ | h2
      · simp only [FExpr.eval] at hev
        rw [mkValue_get hev] at hn0
        simp [Val.isNull] at hn0
      · exact fok_arr h2
    obtain ⟨vs, hvs, rfl⟩ : ∃ vs, evalElems W.heap es = .ok vs ∧ v0 = ⟨some (.arr aid elem lo hi), .arr vs⟩ := by
      simp only [FExpr.eval] at hev
      obtain ⟨vs, h1, hev⟩ := bind_eq_ok.1 hev
      exact ⟨vs, h1, mkValue_get hev⟩
    obtain ⟨hlen, hidx⟩ := elems_index hvs
    obtain ⟨_, hsv, hval⟩ := hrp.2 hn0
    cases hsv
    have hseq : ∀ (I2 : Interp) (β : Nat → Int), Same s.tmp I I2 → (∀ k, k ≤ s.tmp → β k = 0) →
        value W.D I2 β sx.value = .seq (vs.map fun x => rep W.D W.ref x.2 x.1) := fun I2 β hsm hβ => by
      have := (value_below (D := W.D) hsm hsxb.1 hβ).trans hval
      rw [this, World.rp]
      simp [rep, repL_eq_map]
    -- the body has a value for every element
    have hbody : ∀ (i : Nat) (e : FExpr), es[i]? = some e → ∃ w b, strict W.env ((x, e) :: c) body = some w ∧ w.val = .bool b := by
      intro i e hi'
      obtain ⟨v, hv, hvi⟩ := hidx i e hi'
      have hok := allok_mem hall (List.mem_of_getElem? hi')
      obtain ⟨v', hv', hn'⟩ := fok_eval W.hh e elem hok
      rw [hv] at hv'
      simp only [Ev.ok.injEq] at hv'
      subst hv'
      have hi2 : i < vs.length := (List.getElem?_eq_some_iff.1 hvi).1
      -- the interpretation for this element
      let I1 := setTmp (setTmp I (s1.tmp + 1) (.int i)) (s1.tmp + 2) (W.rp ⟨some elem, v'⟩)
      have sm1 : Same s1.tmp I I1 := (setTmp_same (by omega) _).trans ((setTmp_same (I := setTmp I (s1.tmp + 1) (.int i)) (n := s1.tmp) (by omega) _)) (Nat.le_refl _)
      have c1 : I1.const (.tmp (s1.tmp + 1)) = .int i := by simp [I1, setTmp]
      have c2 : I1.const (.tmp (s1.tmp + 2)) = W.rp ⟨some elem, v'⟩ := by simp [I1, setTmp]
      have sm1' : Same s.tmp I I1 := sm1.weaken l1.tmp
      have hsq := hseq I1 zero sm1' fun _ _ => rfl
      have lv : Live W.D G I1 (att (bump (bump s1)) [.declare (.tmp (s1.tmp + 1)) .int none,
          .assert (.bin .geq (.sym (.tmp (s1.tmp + 1))) (.int 0)),
          .assert (.bin .lt (.sym (.tmp (s1.tmp + 1))) (.un .seqLen sx.value)),
          .declare (.tmp ((bump s1).tmp + 1)) elem.srt (some (.nth elem.srt sx.value (.sym (.tmp (s1.tmp + 1)))))]) := by
        refine live_att (live_of (s' := bump (bump s1)) (live_same lv1 sm1) rfl (by simp only [bump]; omega)) lGx fun st hst => ?_
        have bsx : below (bump (bump s1)).tmp sx.value := below_mono ((l1.trans (bump_le _)).trans (bump_le _)).tmp hsxb.1
        have t1 : s1.tmp + 1 ≤ (bump (bump s1)).tmp := by simp [bump]
        have t2 : (bump s1).tmp + 1 ≤ (bump (bump s1)).tmp := by simp [bump]
        simp only [List.mem_cons, List.not_mem_nil, or_false] at hst
        rcases hst with rfl | rfl | rfl | rfl
        · refine ⟨?_, t1⟩
          simp only [Agrees, c1, HasSort]
        · refine ⟨?_, ⟨t1, trivial⟩⟩
          simp [Agrees, value₀, value, binSem, c1, SV.asRat, SV.asBool]
        · refine ⟨?_, ⟨t1, bsx⟩⟩
          simp only [Agrees, value₀, value, binSem, unSem, c1, SV.asRat, SV.asBool]
          rw [hsq]
          simp only [SV.asSeq, List.length_map, decide_eq_true_eq]
          exact_mod_cast hi2
        · refine ⟨?_, ⟨t2, bsx, t1⟩⟩
          simp only [Agrees, value₀, value, c1]
          rw [hsq]
          simp only [SV.asSeq, SV.asInt]
          show I1.const (.tmp (s1.tmp + 2)) = _
          rw [c2]
          simp [hvi, World.rp]
      have sit : Sit W G I1 (att (bump (bump s1)) [.declare (.tmp (s1.tmp + 1)) .int none,
          .assert (.bin .geq (.sym (.tmp (s1.tmp + 1))) (.int 0)),
          .assert (.bin .lt (.sym (.tmp (s1.tmp + 1))) (.un .seqLen sx.value)),
          .declare (.tmp ((bump s1).tmp + 1)) elem.srt (some (.nth elem.srt sx.value (.sym (.tmp (s1.tmp + 1)))))])
          (Γ.bind x elem) (ρ.bind x (.sym (.tmp ((bump s1).tmp + 1))) elem) ((x, e) :: c) := by
        refine ⟨att_ok _ _, lv, iok_same hs.io sm1', (hs.nb.mono (l1.trans lx).tmp).bind x (by simp [below, att, bump]) elem,
          bind_names (names_same hs.names hs.nb sm1' fun _ _ => rfl) hv hn' ?_, ctxok_bind hs.ctx x hok,
          bind_bounded hs.bd fun w hw => ?_⟩
        · simp only [World.val, value]
          exact c2
        · rw [hv] at hw
          cases hw
          have := hs.bd src _ hlk _ hev
          simp only [Bounded] at this
          exact boundedL_mem this.2 (some elem, v') (List.mem_of_getElem? hvi)
      have ft : Fit W (Γ.bind x elem) body := ⟨hwb, hsb, hex⟩
      have ff : Fine W.D G em (solid (strict W.env ((x, e) :: c) body)).isSome := fine_some hf fun v hv => by
        simp only [strict, hlk, Option.map_eq_some_iff] at hv
        obtain ⟨bs, hbs, -⟩ := hv
        obtain ⟨w, b, w1, w2, -⟩ := (allBools_some hbs).2 i e hi'
        rw [solid_eq_some.2 ⟨w1, by rw [w2]; rfl⟩]
        rfl
      have ih := tr_sound hb body _ _ ((x, e) :: c) _ s2 pb I1 h2 sit (l3.trans lG3) ft (ff.imp fun h => by
        obtain ⟨w, hw⟩ := Option.isSome_iff_exists.1 h
        simp [(solid_eq_some.1 hw).1])
      obtain ⟨w, -, w1, w2, -⟩ := operand sit h2 h3 lG3 ih ff
      obtain ⟨b, hb', -⟩ := bool_of ft htb sit.ctx w1 w2
      exact ⟨w, b, w1, hb'⟩
    obtain ⟨bs, hbs⟩ := allBools_of (f := fun b => strict W.env ((x, b) :: c) body) (es := es) fun e he => by
      obtain ⟨i, hi'⟩ := List.getElem?_of_mem he
      exact hbody i e hi'
    obtain ⟨hbl, hbi⟩ := allBools_some hbs
    -- the body in the quantifier
    have jn : s.tmp < (goto s3 s1.start).tmp + 1 := by
      have := ((l1.trans lx).trans (l2.trans l3)).tmp
      show s.tmp < s3.tmp + 1
      omega
    generalize (goto s3 s1.start).tmp + 1 = j at hq jn
    have hz : ∀ (i : Nat) (y : Bool), bs[i]? = some y → value W.D I (fun m => if m = j then (i : Int) else 0) b = .bool y := by
      intro i y hy
      have hi1 : i < es.length := by rw [← hbl]; exact (List.getElem?_eq_some_iff.1 hy).1
      have hi' := List.getElem?_eq_getElem hi1
      obtain ⟨w, y', w1, w2, w3⟩ := hbi i _ hi'
      rw [hy] at w3; cases w3
      obtain ⟨v, hv, hvi⟩ := hidx i _ hi'
      have hok := allok_mem hall (List.getElem_mem hi1)
      obtain ⟨v', hv', hn'⟩ := fok_eval W.hh _ elem hok
      rw [hv] at hv'
      simp only [Ev.ok.injEq] at hv'
      subst hv'
      have hβ : ∀ k, k ≤ s.tmp → (fun m => if m = j then (i : Int) else 0) k = zero k := fun k hk => by
        simp only
        rw [if_neg (by omega)]
      have hsq := hseq I _ Same.rfl' hβ
      have nm := bind_names (x := x) (t := elem) (names_same hs.names hs.nb Same.rfl' hβ) hv hn' (a := .nth elem.srt sx.value (.idx j)) (by
        simp only [World.val, value, hsq, SV.asSeq, SV.asInt, if_true]
        simp [hvi, World.rp])
      have := trF_value hs.io body _ _ _ q w hq w1 hwb hsb hex (ctxok_bind hs.ctx x hok) nm
      obtain ⟨a, ha, hva⟩ := this.2 (by rw [w2]; rfl)
      rw [hbq] at ha; cases ha
      exact asBool_val hva w2
    refine ⟨⟨some .bool, .bool (if u then bs.all id else bs.any id)⟩, by simp only [strict, hlk, hbs, Option.map_some], I, Same.rfl', live_of lv1 rfl (by
      have := (lx.trans (l2.trans l3)).tmp
      show s1.tmp ≤ s3.tmp + 1
      omega), repr_true rfl ?_⟩
    have hsq : ∀ z : Int, value W.D I (fun m => if m = j then z else zero m) sx.value = .seq (vs.map fun x => rep W.D W.ref x.2 x.1) :=
      fun z => hseq I _ Same.rfl' fun k hk => if_neg (by omega)
    have hbd : ∀ z : Int, value W.D I (fun m => if m = j then z else zero m) (boundsTerm (.idx j) sx.value) = .bool (decide (0 ≤ z ∧ z < (bs.length : Int))) := by
      intro z
      simp only [boundsTerm, value, binSem, unSem, hsq, if_true, SV.asRat, SV.asBool, SV.asSeq, List.length_map, ← hlen, hbl]
      simp only [SV.bool.injEq, Bool.and_eq_decide, decide_eq_true_eq]
      rw [decide_eq_decide]
      norm_cast
    have hbv : ∀ z : Int, 0 ≤ z → z < (bs.length : Int) → ∃ y, bs[z.toNat]? = some y ∧
        value W.D I (fun m => if m = j then z else zero m) b = .bool y := by
      intro z z0 z1
      have : z.toNat < bs.length := by omega
      refine ⟨_, List.getElem?_eq_getElem this, ?_⟩
      have := hz z.toNat _ (List.getElem?_eq_getElem this)
      rwa [Int.toNat_of_nonneg z0] at this
    have hab : ∀ y : Bool, (SV.bool y).asBool = y := fun _ => rfl
    rw [World.rp]
    cases u
    · simp only [Bool.false_eq_true, if_false, World.val]
      rw [value]
      simp only [rep, SV.bool.injEq]
      rw [Bool.eq_iff_iff, List.any_eq_true]
      refine (@decide_eq_true_iff _ (Classical.propDecidable _)).trans ?_
      simp only [value, binSem, hbd, hab]
      constructor
      · rintro ⟨z, hz'⟩
        simp only [Bool.and_eq_true, decide_eq_true_eq] at hz'
        obtain ⟨y, y1, y2⟩ := hbv z hz'.1.1 hz'.1.2
        have := hz'.2
        rw [y2] at this
        exact ⟨y, List.mem_of_getElem? y1, this⟩
      · rintro ⟨y, hy, hyt⟩
        obtain ⟨i, hi'⟩ := List.getElem?_of_mem hy
        have := (List.getElem?_eq_some_iff.1 hi').1
        refine ⟨i, ?_⟩
        simp only [Bool.and_eq_true, decide_eq_true_eq]
        refine ⟨⟨by omega, by omega⟩, ?_⟩
        rw [hz i y hi']
        exact hyt
    · simp only [if_true, World.val]
      rw [value]
      simp only [rep, SV.bool.injEq]
      rw [Bool.eq_iff_iff, List.all_eq_true]
      refine (@decide_eq_true_iff _ (Classical.propDecidable _)).trans ?_
      simp only [value, binSem, hbd, hab]
      constructor
      · intro hall y hy
        obtain ⟨i, hi'⟩ := List.getElem?_of_mem hy
        have := (List.getElem?_eq_some_iff.1 hi').1
        have h := hall i
        rw [hz i y hi'] at h
        simp only [Bool.or_eq_true, Bool.not_eq_true', decide_eq_false_iff_not] at h
        rcases h with h | h
        · exact absurd ⟨by omega, by omega⟩ h
        · exact h
      · intro h z
        by_cases hzb : 0 ≤ z ∧ z < (bs.length : Int)
        · obtain ⟨y, y1, y2⟩ := hbv z hzb.1 hzb.2
          rw [y2]
          have := h y (List.mem_of_getElem? y1)
          simp only [id] at this
          simp [this, hab]
        · simp [hzb]
theorem trs_sound (hb : HeapInBounds W.heap) {em : Bool} : ∀ (es : Exprs) (Γ : Gamma) (ρ : NameTrs) (c : List (String × FExpr))
    (s s' : TS) (xs : List Smt) (I : Interp), Exprs.tr W.trEnv em ρ es s = .ok xs s' → Sit W G I s Γ ρ c → Le s' G →
    WTs W.D W.rx Γ es → Sides W.D True True Γ es → Exacts W.D es →
    Fine W.D G em (stricts W.env c es).isSome → ∃ (bs : List Bool) (I' : Interp), stricts W.env c es = some (bs.map .bool) ∧
      Same s.tmp I I' ∧ Live W.D G I' s' ∧ xs.map (W.val I' zero) = bs.map .bool
  | .nil, Γ, ρ, c, s, s', xs, I, h, hs, hl, hw, hsd, hex, hf => by
    simp only [Exprs.tr, trm_pure] at h
    obtain ⟨rfl, rfl⟩ := h
    exact ⟨[], I, by simp [stricts], Same.rfl', hs.live, by simp⟩
  | .cons e es, Γ, ρ, c, s, s', xs, I, h, hs, hl, hw, hsd, hex, hf => by
    simp only [Exprs.tr, trm_bind, trm_need, trm_pure] at h
    obtain ⟨p, s1, h1, _, s2, h2, a, _, ⟨ha, rfl⟩, ys, s3, h3, rfl, rfl⟩ := h
    simp only [WTs] at hw
    simp only [Sides] at hsd
    simp only [Exacts] at hex
    have fe : Fit W Γ e := ⟨hw.1, hsd.1, hex.1⟩
    obtain ⟨m1, m2, m3⟩ := tr_mono e ρ s s1 p h1 hs.ok hs.nb
    obtain ⟨m4, m5, m6⟩ := valid_le h2 m2
    obtain ⟨m7, m8, m9⟩ := trs_mono es ρ s2 s3 ys h3 m5 (hs.nb.mono (m1.trans m4).tmp)
    have l2 : Le s2 G := m7.trans hl
    have g1 : Fine W.D G em (solid (strict W.env c e)).isSome := fine_some hf fun v hv => by
      simp only [stricts, Option.bind_eq_some_iff] at hv
      obtain ⟨w, hw, -⟩ := hv
      simp [hw]
    have g2 : Fine W.D G em (stricts W.env c es).isSome := fine_some hf fun v hv => by
      simp only [stricts, Option.bind_eq_some_iff, Option.map_eq_some_iff] at hv
      obtain ⟨w, -, w', hw, -⟩ := hv
      simp [hw]
    have ih1 := tr_sound hb e Γ ρ c s s1 p I h1 hs (m4.trans l2) fe (g1.imp fun h => by
      obtain ⟨w, hw⟩ := Option.isSome_iff_exists.1 h
      simp [(solid_eq_some.1 hw).1])
    obtain ⟨v1, a', hv1, n1, hs1, ha', ba, -, I1, sm1, le1, sit1, val1, -⟩ := operand hs h1 h2 l2 ih1 g1
    rw [ha] at ha'; cases ha'
    obtain ⟨b, hbv, -⟩ := bool_of fe hex.2.1 hs.ctx hv1 n1
    obtain ⟨bs, I2, hvs, sm2, lv2, hval⟩ := trs_sound hb es Γ ρ c s2 s3 ys I1 h3 sit1 hl hw.2 hsd.2 hex.2.2 g2
    refine ⟨b :: bs, I2, by simp [stricts, hs1, hvs, hbv], sm1.trans sm2 le1.tmp, lv2, ?_⟩
    simp only [List.map_cons, hval, List.cons.injEq, and_true]
    exact (value_below sm2 ba fun _ _ => rfl).trans (asBool_val val1 hbv)
theorem tra_sound (hb : HeapInBounds W.heap) {em : Bool} : ∀ (as : Acts) (Γ : Gamma) (ρ : NameTrs) (c : List (String × FExpr))
    (t : Ty) (k : Nat) (σ : Srt) (fin : Nat) (s s' : TS) (I : Interp), Acts.tr W.trEnv em ρ k σ fin as s = .ok () s' →
    Sit W G I s Γ ρ c → k ≤ s.tmp → Le s' G → G.nodes[fin]? = some [] → WTa W.D W.rx Γ t as → SideA W.D True True Γ as →
    ExactA W.D as → Fine W.D G em (strictA W.env c as).isSome →
    ∃ v, strictA W.env c as = some v ∧ v.val.isNull = false ∧ (I.const (.tmp k) = W.rp v →
      ∃ I', Same s.tmp I I' ∧ ∀ s'' : TS, s''.start = fin → s'.tmp ≤ s''.tmp → Live W.D G I' s'')
  | .els e, Γ, ρ, c, t, k, σ, fin, s, s', I, h, hs, hk, hl, hfin, hw, hsd, hex, hf => by
    simp only [Acts.tr, trm_bind, declareTemp, trm_attach, trm_edgeTo] at h
    obtain ⟨p, s1, h1, _, s2, h2, _, _, rfl, rfl⟩ := h
    simp only [WTa] at hw
    simp only [SideA] at hsd
    simp only [ExactA] at hex
    have fe : Fit W Γ e := ⟨hw.1, hsd, hex⟩
    obtain ⟨m1, m2, m3⟩ := tr_mono e ρ s s1 p h1 hs.ok hs.nb
    obtain ⟨m4, m5, m6⟩ := valid_le h2 m2
    have l2 : Le s2 G := ((att_le _ _).trans (link_le _ _)).trans hl
    have g1 : Fine W.D G em (solid (strict W.env c e)).isSome := fine_some hf fun v hv => by
      simp only [strictA] at hv
      simp [hv]
    have ih1 := tr_sound hb e Γ ρ c s s1 p I h1 hs (m4.trans l2) fe (g1.imp fun h => by
      obtain ⟨w, hw⟩ := Option.isSome_iff_exists.1 h
      simp [(solid_eq_some.1 hw).1])
    obtain ⟨v, hv, hlive⟩ := branch ih1 h1 h2 hl hfin hs hk g1
    exact ⟨v, by simp [strictA, hv], (solid_eq_some.1 hv).2, hlive⟩
  | .act d e rest, Γ, ρ, c, t, k, σ, fin, s, s', I, h, hs, hk, hl, hfin, hw, hsd, hex, hf => by
    simp only [Acts.tr, trm_bind, trm_need, trm_getStart, trm_attach, declareTemp, trm_edgeTo, trm_setStart] at h
    obtain ⟨p, s1, h1, _, s2, h2, a, _, ⟨ha, rfl⟩, here, _, ⟨rfl, rfl⟩, _, _, rfl, q, s3, h3, _, s4, h4, _, _, rfl,
      _, _, rfl, _, _, rfl, _, _, rfl, h⟩ := h
    simp only [WTa] at hw
    simp only [SideA] at hsd
    simp only [ExactA] at hex
    obtain ⟨w1, w2, w3, w4, w5⟩ := hw
    have fd : Fit W Γ d := ⟨w1, hsd.1, hex.1⟩
    have fe : Fit W Γ e := ⟨w3, hsd.2.1, hex.2.1⟩
    obtain ⟨m1, m2, m3⟩ := tr_mono d ρ s s1 p h1 hs.ok hs.nb
    obtain ⟨m4, m5, m6⟩ := valid_le h2 m2
    obtain ⟨m7, m8, m9⟩ := tr_mono e ρ _ s3 q h3 (att_ok _ _) (hs.nb.mono (m1.trans m4).tmp)
    obtain ⟨m10, m11, m12⟩ := valid_le h4 m8
    have m47 := (att_le s2 [.assert a]).trans (m7.trans m10)
    have l12 := (m1.trans m4).trans m47
    obtain ⟨m13, m14⟩ := tra_mono rest ρ k σ fin _ s' h (att_ok _ _) (hs.nb.mono (by exact l12.tmp))
    have l8 := m13.trans hl
    have l7 := ((goto_le _ s2.start).trans (att_le _ _)).trans l8
    have l5 := (link_le _ _).trans l7
    have l4 : Le s4 G := (att_le _ _).trans l5
    have l3 := (m7.trans m10).trans l4
    have l2 : Le s2 G := (att_le _ _).trans l3
    have g1 : Fine W.D G em (solid (strict W.env c d)).isSome := fine_some hf fun v hv => by
      simp only [strictA, Option.bind_eq_some_iff] at hv
      obtain ⟨w, hw, -⟩ := hv
      simp [hw]
    have ih1 := tr_sound hb d Γ ρ c s s1 p I h1 hs (m4.trans l2) fd (g1.imp fun h => by
      obtain ⟨w, hw⟩ := Option.isSome_iff_exists.1 h
      simp [(solid_eq_some.1 hw).1])
    obtain ⟨v1, a', hv1, n1, hs1, ha', ba, -, I1, sm1, le1, sit1, val1, -⟩ := operand hs h1 h2 l2 ih1 g1
    rw [ha] at ha'; cases ha'
    obtain ⟨b, hbv, -⟩ := bool_of fd w2 hs.ctx hv1 n1
    have va := asBool_val val1 hbv
    have hk1 : I1.const (.tmp k) = I.const (.tmp k) := sm1.tmp k hk
    cases b
    · have hsit : Sit W G I1 (att (goto (link (att s4 [.declare (.tmp k) σ q.1]) fin) s2.start) [.assert (.un .not a)]) Γ ρ c := by
        refine sit1.next Same.rfl' (by exact (m47.trans ((att_le s4 [.declare (.tmp k) σ q.1]).trans ((link_le _ fin).trans ((goto_le _ s2.start).trans (att_le _ _)))))) (att_ok _ _) ?_
        have lv : Live W.D G I1 (goto (link (att s4 [.declare (.tmp k) σ q.1]) fin) s2.start) :=
          live_of sit1.live rfl (by exact m47.tmp)
        refine live_att lv l8 fun st hst => ?_
        simp only [List.mem_singleton] at hst
        subst hst
        exact ⟨by simp [Agrees, value₀, value, unSem, va, SV.asBool], below_mono (by exact m47.tmp) ba⟩
      obtain ⟨v, hv, nv, hlive⟩ := tra_sound hb rest Γ ρ c t k σ fin _ s' I1 h hsit (by exact Nat.le_trans (Nat.le_trans hk le1.tmp) m47.tmp) hl hfin w5 hsd.2.2 hex.2.2 (fine_some hf fun v hv => by
        simp only [strictA, hs1, Option.bind_some, hbv, Bool.false_eq_true, if_false] at hv
        simp [hv])
      refine ⟨v, by simp [strictA, hs1, hbv, hv], nv, fun hc => ?_⟩
      obtain ⟨I', sm', hlv⟩ := hlive (hk1.trans hc)
      exact ⟨I', sm1.trans sm' (by exact (le1.trans m47).tmp), hlv⟩
    · have hsit : Sit W G I1 (att s2 [.assert a]) Γ ρ c := by
        refine sit1.next Same.rfl' (att_le _ _) (att_ok _ _) ?_
        refine live_att sit1.live l3 fun st hst => ?_
        simp only [List.mem_singleton] at hst
        subst hst
        exact ⟨by simp [Agrees, value₀, va, SV.asBool], ba⟩
      have g2 : Fine W.D G em (solid (strict W.env c e)).isSome := fine_some hf fun v hv => by
        simp only [strictA, hs1, Option.bind_some, hbv, if_true] at hv
        simp [hv]
      have ih2 := tr_sound hb e Γ ρ c _ s3 q I1 h3 hsit (m10.trans l4) fe (g2.imp fun h => by
        obtain ⟨w, hw⟩ := Option.isSome_iff_exists.1 h
        simp [(solid_eq_some.1 hw).1])
      obtain ⟨v, hv, hlive⟩ := branch ih2 h3 h4 l7 hfin hsit (Nat.le_trans hk le1.tmp) g2
      refine ⟨v, by simp [strictA, hs1, hbv, hv], (solid_eq_some.1 hv).2, fun hc => ?_⟩
      obtain ⟨I', sm', hlv⟩ := hlive (hk1.trans hc)
      refine ⟨I', sm1.trans sm' le1.tmp, fun s'' e1 e2 => hlv s'' e1 ?_⟩
      have := m13.tmp
      simp only [att, goto, link] at this
      omega
end

end Verif.Lemmas.Vcg
