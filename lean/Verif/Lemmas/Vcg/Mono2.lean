import Verif.Lemmas.Vcg.Mono
/-! The translation of an expression only adds to the graph. -/
namespace Verif.Lemmas.Vcg
open Verif.Model Verif.Spec

mutual
theorem tr_mono {T em} : ∀ (e : Expr) (ρ : NameTrs) (s s' : TS) (p : TrPair), Expr.tr T em ρ e s = .ok p s' → Ok s →
    NBelow s.tmp ρ → Le s s' ∧ Ok s' ∧ PBelow s'.tmp p
  | .null, ρ, s, s', p, h, ho, hn | .bool _, ρ, s, s', p, h, ho, hn | .int _, ρ, s, s', p, h, ho, hn
  | .dec _, ρ, s, s', p, h, ho, hn | .str _, ρ, s, s', p, h, ho, hn | .enum _ _, ρ, s, s', p, h, ho, hn => by
    simp only [Expr.tr, trm_pure] at h
    obtain ⟨rfl, rfl⟩ := h
    exact ⟨Le.rfl', ho, fun a ha => by cases ha <;> trivial, trivial⟩
  | .name m t, ρ, s, s', p, h, ho, hn => by
    simp only [Expr.tr, trm_bind, trm_need, trm_pure] at h
    obtain ⟨x, _, ⟨hx, rfl⟩, rfl, rfl⟩ := h
    exact ⟨Le.rfl', ho, fun a ha => by cases ha; exact (hn m x hx).1, (hn m x hx).2⟩
  | .unary t op e, ρ, s, s', p, h, ho, hn => by
    simp only [Expr.tr, trm_bind, trm_need, trm_createReturn] at h
    obtain ⟨q, s1, h1, _, s2, h2, a, _, ⟨-, rfl⟩, x, _, ⟨-, rfl⟩, rfl, rfl⟩ := h
    obtain ⟨l1, o1, b1⟩ := tr_mono e ρ s s1 q h1 ho hn
    obtain ⟨l2, o2, e2⟩ := valid_le h2 o1
    exact ⟨(l1.trans l2).trans ((bump_le _).trans (att_le _ _)), att_ok _ _,
      fun y hy => by cases hy; exact Nat.le_refl _, trivial⟩
  | .binary t op l r, ρ, s, s', p, h, ho, hn => by
    simp only [Expr.tr, trm_bind] at h
    obtain ⟨p1, s1, h1, h⟩ := h
    obtain ⟨l1, o1, b1⟩ := tr_mono l ρ s s1 p1 h1 ho hn
    split at h
    · simp only [trm_bind, trm_need, trm_createReturn] at h
      obtain ⟨p2, s2, h2, x, _, ⟨-, rfl⟩, rfl, rfl⟩ := h
      obtain ⟨l2, o2, b2⟩ := tr_mono r ρ s1 s2 p2 h2 o1 (hn.mono l1.tmp)
      exact ⟨(l1.trans l2).trans ((bump_le _).trans (att_le _ _)), att_ok _ _,
        fun y hy => by cases hy; exact Nat.le_refl _, trivial⟩
    · simp only [trm_bind, trm_need, trm_createReturn] at h
      obtain ⟨_, s2, h2, p2, s3, h3, _, s4, h4, a, _, ⟨-, rfl⟩, b, _, ⟨-, rfl⟩, _, s5, h5, x, _, ⟨-, rfl⟩, rfl, rfl⟩ := h
      obtain ⟨l2, o2, e2⟩ := valid_le h2 o1
      obtain ⟨l3, o3, b3⟩ := tr_mono r ρ s2 s3 p2 h3 o2 (hn.mono (l1.trans l2).tmp)
      obtain ⟨l4, o4, e4⟩ := valid_le h4 o3
      obtain ⟨l5, o5, e5⟩ := goals_le h5 o4
      exact ⟨((((l1.trans l2).trans l3).trans l4).trans l5).trans ((bump_le _).trans (att_le _ _)), att_ok _ _,
        fun y hy => by cases hy; exact Nat.le_refl _, trivial⟩
  | .logic op l r, ρ, s, s', p, h, ho, hn => by
    simp only [Expr.tr, trm_bind, trm_need, trm_getStart, trm_newTemp, trm_newNode, trm_attach, declareTemp, trm_edgeTo,
      trm_setStart, trm_pure] at h
    obtain ⟨p1, s1, h1, _, s2, h2, a, _, ⟨-, rfl⟩, here, _, ⟨rfl, rfl⟩, k, _, ⟨rfl, rfl⟩, fin, _, ⟨rfl, rfl⟩, _, _, rfl,
      _, _, rfl, _, _, rfl, _, _, rfl, _, _, rfl, q, s3, h3, _, s4, h4, _, _, rfl, _, _, rfl, _, _, rfl, rfl, rfl⟩ := h
    obtain ⟨l1, o1, b1⟩ := tr_mono l ρ s s1 p1 h1 ho hn
    obtain ⟨l2, o2, e2⟩ := valid_le h2 o1
    have lx : Le s2 (att (goto (link (att (att (fresh (bump s2)) [.assert (skipped op a).1])
        [.declare (.tmp (s2.tmp + 1)) .bool (some (skipped op a).2)]) (bump s2).nodes.length) s2.start)
        [.assert (evaluated op a)]) :=
      (bump_le _).trans ((fresh_le _).trans ((att_le _ _).trans ((att_le _ _).trans ((link_le _ _).trans ((goto_le _ _).trans (att_le _ _))))))
    obtain ⟨l3, o3, b3⟩ := tr_mono r ρ _ s3 q h3 (att_ok _ _) (hn.mono ((l1.trans l2).trans lx).tmp)
    obtain ⟨l4, o4, e4⟩ := valid_le h4 o3
    have ly := ((((l1.trans l2).trans lx).trans l3).trans l4).trans ((att_le _ [.declare (.tmp (s2.tmp + 1)) .bool q.1]).trans ((link_le _ (bump s2).nodes.length).trans (goto_le _ (bump s2).nodes.length)))
    refine ⟨ly, goto_ok ?_, fun y hy => ?_, trivial⟩
    · have g1 := (l3.trans l4).len
      simp only [att, link, goto, fresh, bump, List.length_append, List.length_cons, List.length_nil] at g1 ⊢
      omega
    · cases hy
      have := (l3.trans l4).tmp
      simp only [att, link, goto, fresh, bump] at this
      simpa [below, att, link, goto] using this
  | .field e m t, ρ, s, s', p, h, ho, hn => by
    simp only [Expr.tr, trm_bind, trm_need] at h
    obtain ⟨q, s1, h1, _, s2, h2, a, _, ⟨ha, rfl⟩, h, rfl⟩ := h
    obtain ⟨l1, o1, b1⟩ := tr_mono e ρ s s1 q h1 ho hn
    obtain ⟨l2, o2, e2⟩ := valid_le h2 o1
    exact ⟨l1.trans l2, o2, (fieldTerm_below h (b1.1 a ha)).mono l2.tmp⟩
  | .range e lo up, ρ, s, s', p, h, ho, hn => by
    simp only [Expr.tr, trm_bind, trm_need, trm_createReturn] at h
    obtain ⟨p1, s1, h1, _, s2, h2, p2, s3, h3, _, s4, h4, p3, s5, h5, _, s6, h6, a, _, ⟨-, rfl⟩, b, _, ⟨-, rfl⟩,
      c, _, ⟨-, rfl⟩, rfl, rfl⟩ := h
    obtain ⟨l1, o1, b1⟩ := tr_mono e ρ s s1 p1 h1 ho hn
    obtain ⟨l2, o2, e2⟩ := valid_le h2 o1
    obtain ⟨l3, o3, b3⟩ := tr_mono lo ρ s2 s3 p2 h3 o2 (hn.mono (l1.trans l2).tmp)
    obtain ⟨l4, o4, e4⟩ := valid_le h4 o3
    have l14 := ((l1.trans l2).trans l3).trans l4
    obtain ⟨l5, o5, b5⟩ := tr_mono up ρ s4 s5 p3 h5 o4 (hn.mono l14.tmp)
    obtain ⟨l6, o6, e6⟩ := valid_le h6 o5
    exact ⟨((l14.trans l5).trans l6).trans ((bump_le _).trans (att_le _ _)), att_ok _ _,
      fun y hy => by cases hy; exact Nat.le_refl _, trivial⟩
  | .oneof cs, ρ, s, s', p, h, ho, hn => by
    simp only [Expr.tr, trm_bind, trm_need, trm_createReturn] at h
    obtain ⟨xs, s1, h1, x, _, ⟨-, rfl⟩, rfl, rfl⟩ := h
    obtain ⟨l1, o1, b1⟩ := trs_mono cs ρ s s1 xs h1 ho hn
    exact ⟨l1.trans ((bump_le _).trans (att_le _ _)), att_ok _ _,
      fun y hy => by cases hy; exact Nat.le_refl _, trivial⟩
  | .cond t as, ρ, s, s', p, h, ho, hn => by
    simp only [Expr.tr, trm_bind, trm_newNode, trm_newTemp, trm_setStart, trm_pure] at h
    obtain ⟨fin, _, ⟨rfl, rfl⟩, k, _, ⟨rfl, rfl⟩, _, s1, h1, _, _, rfl, rfl, rfl⟩ := h
    have l0 : Le s (bump (fresh s)) := (fresh_le s).trans (bump_le _)
    have l1 := tra_mono as ρ _ _ _ _ s1 h1 (bump_ok (fresh_ok ho)) (hn.mono l0.tmp)
    refine ⟨(l0.trans l1.1).trans (goto_le _ _), goto_ok ?_, fun y hy => ?_, trivial⟩
    · have := l1.1.len
      simp only [fresh, bump, List.length_append, List.length_cons, List.length_nil] at this
      omega
    · cases hy
      exact l1.1.tmp
  | .quant u x src body, ρ, s, s', p, h, ho, hn => by
    simp only [Expr.tr, trm_bind, trm_need] at h
    obtain ⟨sx, _, ⟨hsx, rfl⟩, _, s1, h1, here, _, hg, h⟩ := h
    rw [trm_getStart] at hg
    obtain ⟨rfl, rfl⟩ := hg
    obtain ⟨l1, o1, e1⟩ := valid_le h1 ho
    cases hty : sx.ty with
    | arr id elem lo hi =>
      simp only [hty, trm_bind, trm_newTemp, trm_attach, trm_setStart, trm_lift, trm_need] at h
      obtain ⟨i, _, ⟨rfl, rfl⟩, k, _, ⟨rfl, rfl⟩, _, _, rfl, pb, s2, h2, _, s3, h3, _, _, rfl, j, _, ⟨rfl, rfl⟩,
        q, _, ⟨hq, rfl⟩, b, _, ⟨hb, rfl⟩, h⟩ := h
      have lx : Le s (att (bump (bump s1)) [.declare (.tmp (s1.tmp + 1)) .int none,
        .assert (.bin .geq (.sym (.tmp (s1.tmp + 1))) (.int 0)),
        .assert (.bin .lt (.sym (.tmp (s1.tmp + 1))) (.un .seqLen sx.value)),
        .declare (.tmp ((bump s1).tmp + 1)) elem.srt (some (.nth elem.srt sx.value (.sym (.tmp (s1.tmp + 1)))))]) :=
        (l1.trans (bump_le _)).trans ((bump_le _).trans (att_le _ _))
      obtain ⟨l2, o2, b2⟩ := tr_mono body _ _ s2 pb h2 (att_ok _ _) ((hn.mono lx.tmp).bind x (by simp [below, att, bump]) elem)
      obtain ⟨l3, o3, e3⟩ := valid_le h3 o2
      have ly := (lx.trans l2).trans l3
      have lz : Le s (bump (goto s3 s1.start)) := ly.trans ((goto_le _ _).trans (bump_le _))
      have oz : Ok (bump (goto s3 s1.start)) := by
        have g1 := (l2.trans l3).len
        have g2 : s1.start < s1.nodes.length := o1
        simp only [att, bump, List.length_append, List.length_cons, List.length_nil] at g1
        show s1.start < s3.nodes.length
        omega
      have hsb := hn src sx hsx
      have jb : (goto s3 s1.start).tmp + 1 ≤ (bump (goto s3 s1.start)).tmp := Nat.le_refl _
      have qb := trF_below (n := (bump (goto s3 s1.start)).tmp) body _ q hq
        ((hn.mono lz.tmp).bind x (by exact ⟨below_mono lz.tmp hsb.1, jb⟩) elem)
      have vb := below_mono lz.tmp hsb.1
      split at h
      · rw [trm_pure] at h
        obtain ⟨rfl, rfl⟩ := h
        refine ⟨lz, oz, fun y hy => ?_, trivial⟩
        cases hy
        exact ⟨jb, ⟨⟨jb, trivial⟩, jb, vb⟩, qb.1 b hb⟩
      · rw [trm_pure] at h
        obtain ⟨rfl, rfl⟩ := h
        refine ⟨lz, oz, fun y hy => ?_, trivial⟩
        cases hy
        exact ⟨jb, ⟨⟨jb, trivial⟩, jb, vb⟩, qb.1 b hb⟩
    | _ => simp [hty, TrM.crash] at h
theorem trs_mono {T em} : ∀ (es : Exprs) (ρ : NameTrs) (s s' : TS) (xs : List Smt), Exprs.tr T em ρ es s = .ok xs s' → Ok s →
    NBelow s.tmp ρ → Le s s' ∧ Ok s' ∧ ∀ x ∈ xs, below s'.tmp x
  | .nil, ρ, s, s', xs, h, ho, hn => by
    simp only [Exprs.tr, trm_pure] at h
    obtain ⟨rfl, rfl⟩ := h
    exact ⟨Le.rfl', ho, by simp⟩
  | .cons e es, ρ, s, s', xs, h, ho, hn => by
    simp only [Exprs.tr, trm_bind, trm_need, trm_pure] at h
    obtain ⟨p, s1, h1, _, s2, h2, a, _, ⟨ha, rfl⟩, ys, s3, h3, rfl, rfl⟩ := h
    obtain ⟨l1, o1, b1⟩ := tr_mono e ρ s s1 p h1 ho hn
    obtain ⟨l2, o2, e2⟩ := valid_le h2 o1
    obtain ⟨l3, o3, b3⟩ := trs_mono es ρ s2 s3 ys h3 o2 (hn.mono (l1.trans l2).tmp)
    refine ⟨(l1.trans l2).trans l3, o3, fun x hx => ?_⟩
    rcases List.mem_cons.1 hx with rfl | hx
    · exact below_mono (l2.trans l3).tmp (b1.1 _ ha)
    · exact b3 x hx
theorem tra_mono {T em} : ∀ (as : Acts) (ρ : NameTrs) (k : Nat) (σ : Srt) (fin : Nat) (s s' : TS),
    Acts.tr T em ρ k σ fin as s = .ok () s' → Ok s → NBelow s.tmp ρ → Le s s' ∧ Ok s'
  | .els e, ρ, k, σ, fin, s, s', h, ho, hn => by
    simp only [Acts.tr, trm_bind, declareTemp, trm_attach, trm_edgeTo] at h
    obtain ⟨p, s1, h1, _, s2, h2, _, _, rfl, rfl⟩ := h
    obtain ⟨l1, o1, b1⟩ := tr_mono e ρ s s1 p h1 ho hn
    obtain ⟨l2, o2, e2⟩ := valid_le h2 o1
    exact ⟨(l1.trans l2).trans ((att_le _ _).trans (link_le _ _)), link_ok (att_ok _ _) _⟩
  | .act c e rest, ρ, k, σ, fin, s, s', h, ho, hn => by
    simp only [Acts.tr, trm_bind, trm_need, trm_getStart, trm_attach, declareTemp, trm_edgeTo, trm_setStart] at h
    obtain ⟨p, s1, h1, _, s2, h2, a, _, ⟨ha, rfl⟩, here, _, ⟨rfl, rfl⟩, _, _, rfl, q, s3, h3, _, s4, h4, _, _, rfl,
      _, _, rfl, _, _, rfl, _, _, rfl, h⟩ := h
    obtain ⟨l1, o1, b1⟩ := tr_mono c ρ s s1 p h1 ho hn
    obtain ⟨l2, o2, e2⟩ := valid_le h2 o1
    have l12 := (l1.trans l2).trans (att_le s2 [.assert a])
    obtain ⟨l3, o3, b3⟩ := tr_mono e ρ _ s3 q h3 (att_ok _ _) (hn.mono l12.tmp)
    obtain ⟨l4, o4, e4⟩ := valid_le h4 o3
    have l5 := ((l12.trans l3).trans l4).trans ((att_le s4 [.declare (.tmp k) σ q.1]).trans ((link_le _ fin).trans ((goto_le _ s2.start).trans
      (att_le _ [.assert (.un .not a)]))))
    have l6 := tra_mono rest ρ k σ fin _ s' h (att_ok _ _) (hn.mono l5.tmp)
    exact ⟨l5.trans l6.1, l6.2⟩
end

end Verif.Lemmas.Vcg
