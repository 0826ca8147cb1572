import Verif.Lemmas.Vcg.Script
/-! The statements made for expressions are well formed. -/
namespace Verif.Lemmas.Vcg
open Verif.Model Verif.Spec Verif.Lemmas

/-- where the paths through branches join: the result `k` is declared, and the temporaries of some branch may be -/
def Ctx.join (c : Ctx) (k : Nat) (srt : Srt) (n m : Nat) : Ctx :=
  ⟨declared c.kn (.tmp k) srt, fun x => x = .tmp k ∨ c.us x ∨ ∃ j, x = .tmp j ∧ n < j ∧ j ≤ m, fun x t h => by
    unfold declared at h
    split at h
    · next he => exact .inl he
    · exact .inr (.inl (c.ok x t h))⟩

theorem wide_join {c : Ctx} {k n m : Nat} {srt : Srt} (hu : ¬ c.us (.tmp k)) (h1 : n < k) (h2 : k ≤ m) : Wide c n (c.join k srt n m) m :=
  ⟨(kn_add hu srt), fun x hx => by
    rcases hx with rfl | hx | hx
    · exact .inr ⟨k, rfl, h1, h2⟩
    · exact .inl hx
    · exact .inr hx⟩

theorem fresh_join {c : Ctx} {k n m : Nat} {srt : Srt} (hf : ∀ j, n < j → ¬ c.us (.tmp j)) (h0 : n ≤ m) (hk : k ≤ m) :
    ∀ j, m < j → ¬ (c.join k srt n m).us (.tmp j) := by
  intro j hj hx
  rcases hx with hx | hx | ⟨i, hx, h1, h2⟩
  · cases hx; omega
  · exact hf j (by omega) hx
  · cases hx; omega

variable {T : TrEnv} {rx : List Char → List Char → Bool} {em : Bool}

mutual
theorem tr_fwd (hD : DeclsOk T.decls) : ∀ (e : Expr) (Γ : Gamma) (ρ : NameTrs) (A : Ann) (s : TS) (c : Ctx) (s' : TS) (p : TrPair),
    WT T.decls rx Γ e → Formed rx e → Apt T.decls e → Proper e → NSorted T.decls c.kn [] Γ ρ → St T.decls A s c → e.tr T em ρ s = .ok p s' →
    Fwd T.decls A s c s' (fun c' => PSorted T.decls c'.kn [] e.typ p)
  | .null, Γ, ρ, A, s, c, s', p, hw, hfo, hg, hp, hn, hs, h => by
    simp only [Expr.tr, trm_pure] at h
    obtain ⟨rfl, rfl⟩ := h
    exact hs.stay ⟨fun a ha => by (cases ha), fun _ => rfl, .bool⟩
  | .bool _, Γ, ρ, A, s, c, s', p, hw, hfo, hg, hp, hn, hs, h => by
    simp only [Expr.tr, trm_pure] at h
    obtain ⟨rfl, rfl⟩ := h
    exact hs.stay (psorted_some .bool)
  | .int _, Γ, ρ, A, s, c, s', p, hw, hfo, hg, hp, hn, hs, h => by
    simp only [Expr.tr, trm_pure] at h
    obtain ⟨rfl, rfl⟩ := h
    exact hs.stay (psorted_some .int)
  | .dec _, Γ, ρ, A, s, c, s', p, hw, hfo, hg, hp, hn, hs, h => by
    simp only [Expr.tr, trm_pure] at h
    obtain ⟨rfl, rfl⟩ := h
    exact hs.stay (psorted_some .real)
  | .str _, Γ, ρ, A, s, c, s', p, hw, hfo, hg, hp, hn, hs, h => by
    simp only [Expr.tr, trm_pure] at h
    obtain ⟨rfl, rfl⟩ := h
    exact hs.stay (psorted_some .str)
  | .enum _ _, Γ, ρ, A, s, c, s', p, hw, hfo, hg, hp, hn, hs, h => by
    simp only [Expr.tr, trm_pure] at h
    obtain ⟨rfl, rfl⟩ := h
    simp only [Apt] at hg
    obtain ⟨ls, h1, h2⟩ := hg
    exact hs.stay (psorted_some (.enum h1 h2))
  | .name n t, Γ, ρ, A, s, c, s', p, hw, hfo, hg, hp, hn, hs, h => by
    simp only [WT] at hw
    obtain ⟨b, hb⟩ := hw
    obtain ⟨x, h1, h2, h3, h4⟩ := hn n t b hb
    simp only [Expr.tr, trm_bind, trm_need, trm_pure, h1, Option.some.injEq] at h
    obtain ⟨_, _, ⟨rfl, rfl⟩, rfl, rfl⟩ := h
    exact hs.stay ⟨fun a ha => by cases ha; exact ⟨t, rfl, h3⟩, fun h => (by cases h), h4⟩
  | .unary t op e, Γ, ρ, A, s, c, s', p, hw, hfo, hg, hp, hn, hs, h => by
    simp only [WT] at hw
    simp only [Formed] at hfo
    simp only [Apt] at hg
    simp only [Proper] at hp
    simp only [Expr.tr, trm_bind, trm_need] at h
    obtain ⟨q, s1, h1, _, s2, h2, a, _, ⟨ha, rfl⟩, r, _, ⟨hr, rfl⟩, h⟩ := h
    refine (tr_fwd hD e Γ ρ A s c s1 q hw.1 hfo hg hp.1 hn hs h1).bind fun A1 c1 _ hs1 _ hq => ?_
    refine (hs1.valid hq.valid h2).bind fun A2 c2 _ hs2 _ e2 => ?_
    subst e2
    obtain ⟨σ, hσ, hv⟩ := hq.value a ha
    rw [hσ] at hw hp hr
    exact hs2.ret (unTerm_sorted hw.2 hp.2.1 hp.2.2 hv hr) h
  | .binary t op l r, Γ, ρ, A, s, c, s', p, hw, hfo, hg, hp, hn, hs, h => by
    simp only [WT] at hw
    simp only [Formed] at hfo
    simp only [Apt] at hg
    simp only [Proper] at hp
    simp only [Expr.tr, trm_bind] at h
    obtain ⟨x, s1, h1, h⟩ := h
    refine (tr_fwd hD l Γ ρ A s c s1 x hw.1 hfo.1 hg.1 hp.1 hn hs h1).bind fun A1 c1 _ hs1 hw1 hx => ?_
    split at h
    · next ho =>
      simp only [trm_bind, trm_need] at h
      obtain ⟨y, s2, h2, z, _, ⟨hz, rfl⟩, h⟩ := h
      refine (tr_fwd hD r Γ ρ A1 s1 c1 s2 y hw.2.1 hfo.2.1 hg.2.1 hp.2.1 (hn.more hw1.kn) hs1 h2).bind fun A2 c2 _ hs2 hw2 hy => ?_
      have ht : t = some .bool := by
        have := hw.2.2.1
        cases op <;> simp [BinOp.allowsNull] at ho <;> exact this
      refine hs2.ret (t := t) ?_ h
      subst ht
      refine ⟨.bool, rfl, negIf_sorted (eqTerm_sorted hD.tuples (hg.2.2 ho) (hx.more hw2.kn) hy ?_ hz)⟩
      intro a ha
      simp [compTyp, ha]
    · simp only [trm_bind, trm_need] at h
      obtain ⟨_, s2, h2, y, s3, h3, _, s4, h4, a, _, ⟨ha, rfl⟩, b, _, ⟨hb, rfl⟩, _, s5, h5, z, _, ⟨hz, rfl⟩, h⟩ := h
      refine (hs1.valid hx.valid h2).bind fun A2 c2 _ hs2 _ e2 => ?_
      subst e2
      refine (tr_fwd hD r Γ ρ A2 s2 c2 s3 y hw.2.1 hfo.2.1 hg.2.1 hp.2.1 (hn.more hw1.kn) hs2 h3).bind fun A3 c3 _ hs3 hw3 hy => ?_
      refine (hs3.valid hy.valid h4).bind fun A4 c4 _ hs4 _ e4 => ?_
      subst e4
      have hva := (hx.more hw3.kn).value a ha
      have hvb := hy.value b hb
      refine (hs4.goals (opGoals_sorted hw.2.2.1 hva hvb) h5).bind fun A5 c5 _ hs5 _ e5 => ?_
      subst e5
      exact hs5.ret (binTerm_sorted hw.2.2.1 hp.2.2 hva hvb hz) h
  | .logic op l r, Γ, ρ, A, s, c, s', p, hw, hfo, hg, hp, hn, hs, h => by
    simp only [WT] at hw
    simp only [Formed] at hfo
    simp only [Apt] at hg
    simp only [Proper] at hp
    simp only [Expr.tr, trm_bind, trm_need, trm_getStart, trm_newTemp, trm_newNode, declareTemp, trm_attach, trm_edgeTo, trm_setStart, trm_pure] at h
    obtain ⟨x, s1, h1, _, s2, h2, a, _, ⟨ha, rfl⟩, here, _, ⟨rfl, rfl⟩, k, s3, ⟨rfl, rfl⟩, fin, s4, ⟨rfl, rfl⟩, _, s5, rfl, _, s6, rfl,
      _, s7, rfl, _, s8, rfl, _, s9, rfl, y, s10, h3, _, s11, h4, _, s12, rfl, _, s13, rfl, _, s14, rfl, rfl, rfl⟩ := h
    refine (tr_fwd hD l Γ ρ A s c s1 x hw.1 hfo.1 hg.1 hp.1 hn hs h1).bind fun A1 c1 _ hs1 hw1 hx => ?_
    refine (hs1.valid hx.valid h2).bind fun A2 c2 _ hs2 _ e2 => ?_
    subst e2
    obtain ⟨σ, hσ, hv⟩ := hx.value a ha
    rw [hw.2.2.1] at hσ
    cases hσ
    have hup : s2.tmp + 1 ≤ s11.tmp := Nat.le_trans (tr_up r ρ _ _ _ h3) (up_checkValid _ _ _ h4)
    have hku : ¬ c2.us (.tmp (s2.tmp + 1)) := hs2.fresh _ (Nat.lt_succ_self _)
    -- the node where the paths join
    obtain ⟨g3, hs3, at3⟩ := hs2.bump.node (c2.join (s2.tmp + 1) .bool s2.tmp s11.tmp)
    generalize hA3 : A2.set (bump s2).nodes.length (c2.join (s2.tmp + 1) .bool s2.tmp s11.tmp) = A3 at g3 hs3 at3
    have hA3' : A3 (bump s2).nodes.length = c2.join (s2.tmp + 1) .bool s2.tmp s11.tmp := by rw [← hA3, set_self]
    clear hA3
    have hfin : (bump s2).nodes.length < (fresh (bump s2)).nodes.length := by simp [Vcg.fresh]
    -- the branch without the right operand
    obtain ⟨A5, c5, g5, hs5, -, rfl⟩ := hs3.note (ss := [.assert (skipped op a).1]) fun st hst => by
      cases List.mem_singleton.1 hst
      exact ⟨trivial, (skipped_sorted hv).1⟩
    obtain ⟨g6, hs6⟩ := hs5.declare (k := s2.tmp + 1) (Nat.le_refl _) hku (srt := .bool) (v := some (skipped op a).2) fun b hb => by
      cases hb
      exact (skipped_sorted hv).2
    have hfin6 := Nat.lt_of_lt_of_le hfin (g5.trans g6).nodes.length_le
    have hs7 := hs6.link hfin6 (by
      rw [(g5.trans g6).agree _ hfin, hA3']
      exact ⟨KLe.rfl', fun x hx => hx.imp id .inl⟩)
    -- the branch with the right operand
    have here8 := (((hs2.here.grow (Grow.bump.trans g3)).grow (g5.trans g6)).grow (Grow.link (n := (bump s2).nodes.length)))
    have hs8 := hs7.goto here8 (fun j hj => hs2.fresh j (by
      simp only [att, Vcg.link, Vcg.fresh, Vcg.bump] at hj
      omega))
    obtain ⟨A9, c9, g9, hs9, -, rfl⟩ := hs8.note (ss := [.assert (evaluated op a)]) fun st hst => by
      cases List.mem_singleton.1 hst
      exact ⟨trivial, evaluated_sorted hv⟩
    obtain ⟨A10, c10, g10, hs10, w10, hy⟩ := tr_fwd hD r Γ ρ A9 _ c9 s10 y hw.2.1 hfo.2 hg.2 hp.2 (hn.more hw1.kn) hs9 h3
    obtain ⟨A11, c11, g11, hs11, -, rfl⟩ := hs10.valid hy.valid h4
    have htmp : (bump s2).tmp ≤ s11.tmp := hup
    have h11 : s11.tmp = s10.tmp := by
      rw [trm_checkValid] at h4
      rw [h4]
      split <;> rfl
    have hku' : ¬ c11.us (.tmp (s2.tmp + 1)) := by
      intro hx
      rcases w10.us _ hx with hx | ⟨j, hj, h5, h6⟩
      · exact hku hx
      · cases hj
        simp only [att, Vcg.link, Vcg.fresh, Vcg.bump, Vcg.goto] at h5
        omega
    obtain ⟨g12, hs12⟩ := hs11.declare (k := s2.tmp + 1) hup hku' (srt := .bool) (v := y.1) fun b hb => by
      obtain ⟨σ, hσ, hb'⟩ := hy.value b hb
      rw [hw.2.2.2] at hσ
      cases hσ
      exact hb'
    have gAll := ((g5.trans g6).trans ((Grow.link.trans Grow.goto).trans (g9.trans (g10.trans (g11.trans g12)))))
    have hfin12 := Nat.lt_of_lt_of_le hfin gAll.nodes.length_le
    have hs13 := hs12.link hfin12 (by
      rw [gAll.agree _ hfin, hA3']
      refine ⟨declared_mono w10.kn _ _, fun x hx => ?_⟩
      rcases hx with hx | hx
      · exact .inl hx
      · rcases w10.us x hx with hx | ⟨j, rfl, h5, h6⟩
        · exact .inr (.inl hx)
        · refine .inr (.inr ⟨j, rfl, ?_, by omega⟩)
          simp only [att, Vcg.link, Vcg.fresh, Vcg.bump, Vcg.goto] at h5
          omega)
    have hs14 := hs13.goto ((at3.grow gAll).grow Grow.link) (fresh_join hs2.fresh (Nat.le_of_succ_le hup) hup)
    exact ⟨_, _, (Grow.bump.trans g3).trans (gAll.trans (Grow.link.trans Grow.goto)), hs14, wide_join hku (Nat.lt_succ_self _) hup,
      psorted_some (.sym (by
        show declared _ (.tmp (s2.tmp + 1)) .bool _ = _
        simp [declared, Ty.srt]))⟩
  | .field q n ty, Γ, ρ, A, s, c, s', p, hw, hfo, hg, hp, hn, hs, h => by
    simp only [WT] at hw
    simp only [Formed] at hfo
    simp only [Apt] at hg
    simp only [Proper] at hp
    simp only [Expr.tr, trm_bind, trm_need] at h
    obtain ⟨x, s1, h1, _, s2, h2, a, _, ⟨ha, rfl⟩, hf, rfl⟩ := h
    refine (tr_fwd hD q Γ ρ A s c s1 x hw.1 hfo hg hp hn hs h1).bind fun A1 c1 _ hs1 _ hx => ?_
    refine (hs1.valid hx.valid h2).bind fun A2 c2 _ hs2 _ e2 => ?_
    subst e2
    exact hs2.stay (fieldTerm_sorted hD.wf hD.unique hw.2 (hx.value a ha) hf)
  | .range e lo up, Γ, ρ, A, s, c, s', p, hw, hfo, hg, hp, hn, hs, h => by
    simp only [WT] at hw
    simp only [Formed] at hfo
    simp only [Apt] at hg
    simp only [Proper] at hp
    simp only [Expr.tr, trm_bind, trm_need] at h
    obtain ⟨x, s1, h1, _, s2, h2, y, s3, h3, _, s4, h4, z, s5, h5, _, s6, h6, a, _, ⟨ha, rfl⟩, b, _, ⟨hb, rfl⟩, d, _, ⟨hd, rfl⟩, h⟩ := h
    refine (tr_fwd hD e Γ ρ A s c s1 x hw.1 hfo.1 hg.1 hp.1 hn hs h1).bind fun A1 c1 _ hs1 hw1 hx => ?_
    refine (hs1.valid hx.valid h2).bind fun A2 c2 _ hs2 _ e2 => ?_
    subst e2
    refine (tr_fwd hD lo Γ ρ A2 s2 c2 s3 y hw.2.1 hfo.2.1 hg.2.1 hp.2.1 (hn.more hw1.kn) hs2 h3).bind fun A3 c3 _ hs3 hw3 hy => ?_
    refine (hs3.valid hy.valid h4).bind fun A4 c4 _ hs4 _ e4 => ?_
    subst e4
    refine (tr_fwd hD up Γ ρ A4 s4 c4 s5 z hw.2.2.1 hfo.2.2 hg.2.2 hp.2.2 ((hn.more hw1.kn).more hw3.kn) hs4 h5).bind fun A5 c5 _ hs5 hw5 hz => ?_
    refine (hs5.valid hz.valid h6).bind fun A6 c6 _ hs6 _ e6 => ?_
    subst e6
    obtain ⟨τ, hτ, hva⟩ := ((hx.more hw3.kn).more hw5.kn).value a ha
    obtain ⟨σ, hσ, hvb⟩ := (hy.more hw5.kn).value b hb
    obtain ⟨υ, hυ, hvd⟩ := hz.value d hd
    obtain ⟨hnum, hlo, hup⟩ := hw.2.2.2
    rw [hτ] at hlo hup hnum
    rw [hσ] at hlo
    rw [hυ] at hup
    cases hlo
    cases hup
    have ht : τ.srt = .int ∨ τ.srt = .real := by
      rcases hnum with h | h <;> cases h
      · exact .inl rfl
      · exact .inr rfl
    exact hs6.ret (t := some .bool) ⟨.bool, rfl, .bin (.bin hva hvb (.geq ht)) (.bin hva hvd (.leq ht)) .and⟩ h
  | .oneof cs, Γ, ρ, A, s, c, s', p, hw, hfo, hg, hp, hn, hs, h => by
    simp only [WT] at hw
    simp only [Formed] at hfo
    simp only [Apt] at hg
    simp only [Proper] at hp
    simp only [Expr.tr, trm_bind, trm_need] at h
    obtain ⟨xs, s1, h1, z, _, ⟨hz, rfl⟩, h⟩ := h
    refine (trs_fwd hD cs Γ ρ A s c s1 xs hw hfo.1 hg hp hn hs h1).bind fun A1 c1 _ hs1 hw1 hx => ?_
    exact hs1.ret (t := some .bool) ⟨.bool, rfl, oneof_sorted hx hz⟩ h
  | .cond t as, Γ, ρ, A, s, c, s', p, hw, hfo, hg, hp, hn, hs, h => by
    simp only [WT] at hw
    simp only [Formed] at hfo
    simp only [Apt] at hg
    simp only [Proper] at hp
    simp only [Expr.tr, trm_bind, trm_newTemp, trm_newNode, trm_setStart, trm_pure] at h
    obtain ⟨fin, s1, ⟨rfl, rfl⟩, k, s2, ⟨rfl, rfl⟩, _, s3, h3, _, s4, rfl, rfl, rfl⟩ := h
    have hup : s.tmp + 1 ≤ s3.tmp := acts_up _ _ _ as ρ _ _ _ h3
    have hku : ¬ c.us (.tmp (s.tmp + 1)) := hs.fresh _ (Nat.lt_succ_self _)
    obtain ⟨g1, hs1, at1⟩ := hs.node (c.join (s.tmp + 1) t.srt s.tmp s3.tmp)
    generalize hA1 : A.set s.nodes.length (c.join (s.tmp + 1) t.srt s.tmp s3.tmp) = A1 at g1 hs1 at1
    have hA1' : A1 s.nodes.length = c.join (s.tmp + 1) t.srt s.tmp s3.tmp := by rw [← hA1, set_self]
    clear hA1
    have hfin : s.nodes.length < (bump (fresh s)).nodes.length := by simp [Vcg.fresh, Vcg.bump]
    obtain ⟨A3, c3, g3, hs3⟩ := acts_fwd hD as Γ ρ A1 (bump (fresh s)) c s3 (s.tmp + 1) t s.nodes.length hw hfo hg hp hn hs1.bump h3 (Nat.le_refl _) hku hfin
      (by rw [hA1']; exact KLe.rfl') (by
        rw [hA1']
        rintro x (hx | hx | ⟨j, rfl, h1, h2⟩)
        · exact .inr (.inl hx)
        · exact .inl hx
        · refine .inr (.inr ⟨j, rfl, ?_, h2⟩)
          simp only [Vcg.fresh, Vcg.bump] at h1
          omega)
    have hs4 := hs3.goto ((at1.grow Grow.bump).grow g3) (fresh_join hs.fresh (Nat.le_of_succ_le hup) hup)
    exact ⟨_, _, g1.trans (Grow.bump.trans (g3.trans Grow.goto)), hs4, wide_join hku (Nat.lt_succ_self _) hup, psorted_some (.sym (by
      show declared c.kn (.tmp (s.tmp + 1)) t.srt _ = _
      simp only [declared, Vcg.fresh, if_true]))⟩
  | .quant u x src body, Γ, ρ, A, s, c, s', p, hw, hfo, hg, hp, hn, hs, h => by
    simp only [WT] at hw
    simp only [Formed] at hfo
    simp only [Apt] at hg
    simp only [Proper] at hp
    obtain ⟨⟨id, elem, lo, hi, b, hΓ, hwb⟩, hbool⟩ := hw
    obtain ⟨y, hy1, hy2, hy3, hy4⟩ := hn src _ b hΓ
    simp only [Expr.tr, trm_bind, trm_need, hy1, Option.some.injEq] at h
    obtain ⟨_, _, ⟨rfl, rfl⟩, _, s1, h1, h⟩ := h
    refine (hs.valid hy4 h1).bind fun A1 c1 _ hs1 _ e1 => ?_
    subst e1
    rw [hy2] at h
    simp only [trm_getStart] at h
    obtain ⟨here, _, ⟨rfl, rfl⟩, h⟩ := h
    simp only [trm_bind, trm_need, trm_newTemp, trm_attach, trm_setStart, trm_lift] at h
    obtain ⟨i, s2, ⟨rfl, rfl⟩, k, s3, ⟨rfl, rfl⟩, _, s4, rfl, q, s5, h5, _, s6, h6, _, s7, rfl, j, s8, ⟨rfl, rfl⟩, f, _, ⟨hf, rfl⟩, v, _, ⟨hv, rfl⟩, h⟩ := h
    simp only [Ty.srt] at hy3
    have hi : ¬ c1.us (.tmp (s1.tmp + 1)) := hs1.fresh _ (Nat.lt_succ_self _)
    have hk0 : ¬ c1.us (.tmp (s1.tmp + 2)) := hs1.fresh _ (by omega)
    have hk : ¬ (c1.add (.tmp (s1.tmp + 1)) .int).us (.tmp (s1.tmp + 2)) := by
      rintro (hx | hx)
      · injection hx with hx
        omega
      · exact hk0 hx
    have kn1 : KLe c1.kn (c1.add (.tmp (s1.tmp + 1)) .int).kn := kn_add hi _
    have kn2 : KLe c1.kn ((c1.add (.tmp (s1.tmp + 1)) .int).add (.tmp (s1.tmp + 2)) elem.srt).kn := kn1.trans (kn_add hk _)
    obtain ⟨g4, hs4⟩ := hs1.bump.bump.attach
      (ss := [.declare (.tmp (s1.tmp + 1)) .int none, .assert (.bin .geq (.sym (.tmp (s1.tmp + 1))) (.int 0)),
        .assert (.bin .lt (.sym (.tmp (s1.tmp + 1))) (.un .seqLen y.value)),
        .declare (.tmp (s1.tmp + 2)) elem.srt (some (.nth elem.srt y.value (.sym (.tmp (s1.tmp + 1)))))])
      (⟨⟨hi, fun a ha => by cases ha⟩, .bin (.sym kn_self) .int (.geq (.inl rfl)),
        .bin (.sym kn_self) (.un (Sorted.more kn1 hy3) .seqLen) (.lt (.inl rfl)),
        ⟨hk, fun a ha => by cases ha; exact .nth (Sorted.more kn1 hy3) (.sym kn_self)⟩, trivial⟩)
      (by
        intro j hj hx
        rcases hx with hx | hx | hx
        · cases hx; simp only [Vcg.bump] at hj; omega
        · cases hx; simp only [Vcg.bump] at hj; omega
        · exact hs1.fresh j (by simp only [Vcg.bump] at hj; omega) hx)
    obtain ⟨A5, c5, g5, hs5, w5, hq⟩ := tr_fwd hD body (Γ.bind x elem) (ρ.bind x (.sym (.tmp (s1.tmp + 2))) elem) _ _ _ s5 q hwb hfo hg hp
      ((hn.more kn2).bind x (.sym kn_self)) hs4 h5
    obtain ⟨A6, c6, g6, hs6, -, rfl⟩ := hs5.valid hq.valid h6
    have gAll := (Grow.bump.trans (Grow.bump.trans (g4.trans (g5.trans g6))) : Grow A1 s1 A6 s6)
    have hs7 := hs6.goto (hs1.here.grow gAll) (fun j hj => hs1.fresh j (Nat.lt_of_le_of_lt gAll.tmp hj))
    have hs8 := hs7.bump
    have hF := trF_sorted hD body [(goto s6 s1.start).tmp + 1] (Γ.bind x elem) (ρ.bind x (.nth elem.srt y.value (.idx ((goto s6 s1.start).tmp + 1))) elem) f hwb hg hp
      ((hn.bound _).bind x (.nth (Sorted.bound _ hy3) (.idx List.mem_cons_self))) hf
    obtain ⟨σ, hσ, hvs⟩ := hF.value v hv
    rw [hbool] at hσ
    cases hσ
    have hb := bounds_sorted (D := T.decls) (K := c1.kn) (bs := [(goto s6 s1.start).tmp + 1]) (i := .idx ((goto s6 s1.start).tmp + 1))
      (.idx List.mem_cons_self) (Sorted.bound _ hy3)
    have gEnd := gAll.trans (Grow.goto.trans Grow.bump) (s'' := bump (goto s6 s1.start))
    split at h
    · simp only [trm_pure] at h
      obtain ⟨rfl, rfl⟩ := h
      exact ⟨_, _, gEnd, hs8, Wide.rfl', psorted_some (.all (.bin hb hvs .imp))⟩
    · simp only [trm_pure] at h
      obtain ⟨rfl, rfl⟩ := h
      exact ⟨_, _, gEnd, hs8, Wide.rfl', psorted_some (.ex (.bin hb hvs .and))⟩

theorem trs_fwd (hD : DeclsOk T.decls) : ∀ (es : Exprs) (Γ : Gamma) (ρ : NameTrs) (A : Ann) (s : TS) (c : Ctx) (s' : TS) (xs : List Smt),
    WTs T.decls rx Γ es → Formeds rx es → Apts T.decls es → Propers es → NSorted T.decls c.kn [] Γ ρ → St T.decls A s c → es.tr T em ρ s = .ok xs s' →
    Fwd T.decls A s c s' (fun c' => ∀ x ∈ xs, Sorted T.decls c'.kn [] x .bool)
  | .nil, Γ, ρ, A, s, c, s', xs, hw, hfo, hg, hp, hn, hs, h => by
    simp only [Exprs.tr, trm_pure] at h
    obtain ⟨rfl, rfl⟩ := h
    exact hs.stay fun x hx => by cases hx
  | .cons e es, Γ, ρ, A, s, c, s', xs, hw, hfo, hg, hp, hn, hs, h => by
    simp only [WTs] at hw
    simp only [Formeds] at hfo
    simp only [Apts] at hg
    simp only [Propers] at hp
    simp only [Exprs.tr, trm_bind, trm_need, trm_pure] at h
    obtain ⟨x, s1, h1, _, s2, h2, a, _, ⟨ha, rfl⟩, ys, s3, h3, rfl, rfl⟩ := h
    refine (tr_fwd hD e Γ ρ A s c s1 x hw.1 hfo.1 hg.1 hp.1 hn hs h1).bind fun A1 c1 _ hs1 hw1 hx => ?_
    refine (hs1.valid hx.valid h2).bind fun A2 c2 _ hs2 _ e2 => ?_
    subst e2
    refine (trs_fwd hD es Γ ρ A2 s2 c2 s3 ys hw.2 hfo.2.2 hg.2 hp.2 (hn.more hw1.kn) hs2 h3).bind fun A3 c3 _ hs3 hw3 hys => ?_
    refine hs3.stay fun z hz => ?_
    rcases List.mem_cons.1 hz with rfl | hz
    · obtain ⟨σ, hσ, hv⟩ := (hx.more hw3.kn).value z ha
      rw [hfo.2.1] at hσ
      cases hσ
      exact hv
    · exact hys z hz

theorem acts_fwd (hD : DeclsOk T.decls) : ∀ (as : Acts) (Γ : Gamma) (ρ : NameTrs) (A : Ann) (s : TS) (c : Ctx) (s' : TS) (k : Nat) (t : Ty) (fin : Nat),
    WTa T.decls rx Γ t as → FormedA rx as → AptA T.decls as → ProperA as → NSorted T.decls c.kn [] Γ ρ → St T.decls A s c → as.tr T em ρ k t.srt fin s = .ok () s' →
    k ≤ s.tmp → ¬ c.us (.tmp k) → fin < s.nodes.length → KLe (A fin).kn (declared c.kn (.tmp k) t.srt) →
    (∀ x, c.us x ∨ x = .tmp k ∨ (∃ j, x = .tmp j ∧ s.tmp < j ∧ j ≤ s'.tmp) → (A fin).us x) → ∃ A' c', Grow A s A' s' ∧ St T.decls A' s' c'
  | .els e, Γ, ρ, A, s, c, s', k, t, fin, hw, hfo, hg, hp, hn, hs, h, hk, hku, hfin, hkn, hus => by
    simp only [WTa] at hw
    simp only [FormedA] at hfo
    simp only [AptA] at hg
    simp only [ProperA] at hp
    simp only [Acts.tr, trm_bind, declareTemp, trm_attach, trm_edgeTo] at h
    obtain ⟨x, s1, h1, _, s2, h2, _, s3, rfl, rfl⟩ := h
    obtain ⟨A1, c1, g1, hs1, w1, hx⟩ := tr_fwd hD e Γ ρ A s c s1 x hw.1 hfo hg hp hn hs h1
    obtain ⟨A2, c2, g2, hs2, -, rfl⟩ := hs1.valid hx.valid h2
    have h12 : s2.tmp = s1.tmp := by
      rw [trm_checkValid] at h2
      rw [h2]
      split <;> rfl
    have hku' : ¬ c2.us (.tmp k) := by
      intro hx
      rcases w1.us _ hx with hx | ⟨j, hj, h5, h6⟩
      · exact hku hx
      · cases hj; omega
    obtain ⟨g3, hs3⟩ := hs2.declare (k := k) (Nat.le_trans hk (g1.trans g2).tmp) hku' (srt := t.srt) (v := x.1) fun b hb => by
      obtain ⟨σ, hσ, hb'⟩ := hx.value b hb
      rw [hw.2] at hσ
      cases hσ
      exact hb'
    have gAll := g1.trans (g2.trans g3)
    have hs4 := hs3.link (Nat.lt_of_lt_of_le hfin gAll.nodes.length_le) (by
      rw [gAll.agree _ hfin]
      refine ⟨hkn.trans (declared_mono w1.kn _ _), fun x hx => ?_⟩
      rcases hx with hx | hx
      · exact hus x (.inr (.inl hx))
      · rcases w1.us x hx with hx | ⟨j, rfl, h5, h6⟩
        · exact hus x (.inl hx)
        · refine hus _ (.inr (.inr ⟨j, rfl, h5, ?_⟩))
          simp only [Vcg.link, att]
          omega)
    exact ⟨_, _, gAll.trans Grow.link, hs4⟩
  | .act b e rest, Γ, ρ, A, s, c, s', k, t, fin, hw, hfo, hg, hp, hn, hs, h, hk, hku, hfin, hkn, hus => by
    simp only [WTa] at hw
    simp only [FormedA] at hfo
    simp only [AptA] at hg
    simp only [ProperA] at hp
    simp only [Acts.tr, trm_bind, declareTemp, trm_attach, trm_edgeTo, trm_need, trm_getStart, trm_setStart] at h
    obtain ⟨x, s1, h1, _, s2, h2, a, _, ⟨ha, rfl⟩, here, _, ⟨rfl, rfl⟩, _, s3, rfl, y, s4, h4, _, s5, h5, _, s6, rfl, _, s7, rfl, _, s8, rfl,
      _, s9, rfl, h⟩ := h
    obtain ⟨A1, c1, g1, hs1, w1, hx⟩ := tr_fwd hD b Γ ρ A s c s1 x hw.1 hfo.1 hg.1 hp.1 hn hs h1
    obtain ⟨A2, c2, g2, hs2, -, rfl⟩ := hs1.valid hx.valid h2
    obtain ⟨σ, hσ, hv⟩ := hx.value a ha
    rw [hw.2.1] at hσ
    cases hσ
    have h12 : s2.tmp = s1.tmp := by
      rw [trm_checkValid] at h2
      rw [h2]
      split <;> rfl
    have h45 : s5.tmp = s4.tmp := by
      rw [trm_checkValid] at h5
      rw [h5]
      split <;> rfl
    have hend : s5.tmp ≤ s'.tmp := by
      have := acts_up _ _ _ rest ρ _ _ _ h
      exact this
    have hku2 : ¬ c2.us (.tmp k) := by
      intro hx
      rcases w1.us _ hx with hx | ⟨j, hj, h5, h6⟩
      · exact hku hx
      · cases hj; omega
    obtain ⟨A3, c3, g3, hs3, -, rfl⟩ := hs2.note (ss := [.assert a]) fun st hst => by
      cases List.mem_singleton.1 hst
      exact ⟨trivial, hv⟩
    obtain ⟨A4, c4, g4, hs4, w4, hy⟩ := tr_fwd hD e Γ ρ A3 _ c3 s4 y hw.2.2.1 hfo.2.1 hg.2.1 hp.2.1 (hn.more w1.kn) hs3 h4
    obtain ⟨A5, c5, g5, hs5, -, rfl⟩ := hs4.valid hy.valid h5
    have hk2 : k ≤ s2.tmp := Nat.le_trans hk (g1.trans g2).tmp
    have h24 : s2.tmp ≤ s5.tmp := (g3.trans (g4.trans g5)).tmp
    have w4' : ∀ x, c5.us x → c3.us x ∨ ∃ j, x = .tmp j ∧ s2.tmp < j ∧ j ≤ s5.tmp := by
      intro x hx
      rcases w4.us x hx with hx | ⟨j, rfl, h5, h6⟩
      · exact .inl hx
      · exact .inr ⟨j, rfl, h5, by omega⟩
    have hku5 : ¬ c5.us (.tmp k) := by
      intro hx
      rcases w4' _ hx with hx | ⟨j, hj, h5, h6⟩
      · exact hku2 hx
      · cases hj; omega
    obtain ⟨g6, hs6⟩ := hs5.declare (k := k) (Nat.le_trans hk2 h24) hku5 (srt := t.srt) (v := y.1) fun b hb => by
      obtain ⟨σ, hσ, hb'⟩ := hy.value b hb
      rw [hw.2.2.2.1] at hσ
      cases hσ
      exact hb'
    have gAll := g1.trans (g2.trans (g3.trans (g4.trans (g5.trans g6))))
    have us2 : ∀ x, c3.us x → (A fin).us x := by
      intro x hx
      rcases w1.us x hx with hx | ⟨j, rfl, h5, h6⟩
      · exact hus x (.inl hx)
      · exact hus _ (.inr (.inr ⟨j, rfl, h5, by omega⟩))
    have htmp2 : s.tmp ≤ s2.tmp := (g1.trans g2).tmp
    have hs7 := hs6.link (Nat.lt_of_lt_of_le hfin gAll.nodes.length_le) (by
      rw [gAll.agree _ hfin]
      refine ⟨hkn.trans (declared_mono (w1.kn.trans w4.kn) _ _), fun x hx => ?_⟩
      rcases hx with hx | hx
      · exact hus x (.inr (.inl hx))
      · rcases w4' x hx with hx | ⟨j, rfl, h5, h6⟩
        · exact us2 x hx
        · exact hus _ (.inr (.inr ⟨j, rfl, by omega, by omega⟩)))
    have g26 := g3.trans (g4.trans (g5.trans g6))
    have hs8 := hs7.goto ((hs2.here.grow g26).grow Grow.link) (fun j hj => hs2.fresh j (by
      simp only [Vcg.link, att] at hj
      omega))
    obtain ⟨A9, c9, g9, hs9, -, rfl⟩ := hs8.note (ss := [.assert (.un .not a)]) fun st hst => by
      cases List.mem_singleton.1 hst
      exact ⟨trivial, .un hv .not⟩
    have gEnd := gAll.trans (Grow.link.trans (Grow.goto.trans g9))
    obtain ⟨A10, c10, g10, hs10⟩ := acts_fwd hD rest Γ ρ A9 _ c9 s' k t fin hw.2.2.2.2 hfo.2.2 hg.2.2 hp.2.2 (hn.more w1.kn) hs9 h
      (Nat.le_trans hk gEnd.tmp) hku2 (Nat.lt_of_lt_of_le hfin gEnd.nodes.length_le)
      (by rw [gEnd.agree _ hfin]; exact hkn.trans (declared_mono w1.kn _ _))
      (by
        rw [gEnd.agree _ hfin]
        rintro x (hx | hx | ⟨j, rfl, h5, h6⟩)
        · exact us2 x hx
        · exact hus x (.inr (.inl hx))
        · refine hus _ (.inr (.inr ⟨j, rfl, ?_, h6⟩))
          have := gEnd.tmp
          omega)
    exact ⟨_, _, gEnd.trans g10, hs10⟩
end

end Verif.Lemmas.Vcg
