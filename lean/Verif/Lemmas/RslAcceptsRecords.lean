import Verif.Lemmas.RslAccepts
/-! Record types that are written as the grammar says are accepted. -/
namespace Verif.Lemmas
open Verif.Model Verif.Spec

variable {α β γ : Type} {E : FileEnv} {K : PS} {W : World} {n n' : Nat} {w ts : List Token} {s : PS}

theorem acc_bind2 {x : P α} {f : α → P β} {g : β → P γ} {Q : γ → PS → Prop} (Q1 : β → PS → Prop)
    (hx : Acc (x >>= f) s Q1) (hg : ∀ b s1, Q1 b s1 → Acc (g b) s1 Q) :
    Acc (x >>= fun a => f a >>= g) s Q := by
  obtain ⟨b, s1, h1, hq⟩ := hx
  obtain ⟨c, s2, h2, hq2⟩ := hg b s1 hq
  refine ⟨c, s2, ?_, hq2⟩
  rw [bind_apply] at h1 ⊢
  cases hxs : x s with
  | ok a s0 =>
    rw [hxs] at h1
    simp only at h1 ⊢
    exact (bind_ok h1).trans h2
  | err s0 => rw [hxs] at h1; cases h1
  | crash c s0 => rw [hxs] at h1; cases h1

theorem compType_first {N : Names} {τ : Ty} (h : CompTypeText E N n τ ts n') :
    ∃ t r, ts = t :: r ∧ (t.kind = .IDENTIFIER ∨ t.kind = .S_BRA) := by
  obtain ⟨τ0, a, b, m, rfl, h0, -⟩ := compType_split h
  obtain ⟨t, r, rfl, ht⟩ := type_first h0
  exact ⟨t, _, rfl, ht⟩

theorem component_on {N : Names} {t : Nat} {c : Comp} (hN : N.tabs = W.tabs) (hm : c.memberOf = .record t)
    (hf : MemberText (CompTypeText E N) n c ts n') (hw : NotAhead .S_BRA w) (h : On K W n (ts ++ w) s) :
    Acc (parseComponent E t) s (fun c' s' => c' = c ∧ On K W n' w s') := by
  obtain ⟨a, o, τ, rfl, hd, ho, hτ⟩ := hf
  unfold parseComponent
  obtain ⟨x, r, e0, hx⟩ := optType_first ho (compType_first hτ)
  refine acc_bind _ (describedName_on (w := o ++ τ ++ w) (by simpa using h) hd
    (by rw [e0]; exact optType_string hx)) ?_
  rintro tok s1 ⟨htx, h1⟩
  refine acc_get_bind ?_
  refine acc_bind (fun o' s' => o' = c.optional ∧ On K W n (τ ++ w) s') ?_ ?_
  · cases hb : c.optional with
    | true =>
      rw [hb] at ho
      obtain ⟨k, hk, rfl⟩ := ho
      refine acc_then (h1.peekKw_true (w := τ ++ w) hk) ?_
      refine acc_bind _ (matchKw_on (w := τ ++ w) (by simpa using h1) hk) ?_
      rintro _ s2 ⟨rfl, h2⟩
      exact acc_pure ⟨rfl, h2⟩
    | false =>
      rw [hb] at ho hx
      have ho : o = [] := ho
      subst ho
      rw [List.nil_append] at e0
      subst e0
      refine acc_else (h1.peekKw_false (optType_kw hx rfl)) (acc_pure ⟨rfl, h1⟩)
  rintro _ s2 ⟨rfl, h2⟩
  refine acc_bind2 _ (compType_on hN hτ hw h2) ?_
  rintro _ s3 ⟨rfl, h3⟩
  refine acc_pure ⟨?_, h3⟩
  have : String.ofList tok.text = c.name := by rw [htx]; simp
  rw [this, ← hm]

/-! ## Names of components -/

theorem pairwise_unique {cs : List Comp} (h : cs.Pairwise fun c c' => ¬ SameName c.name c'.name) {c d : Comp}
    (hc : c ∈ cs) (hd : d ∈ cs) (hs : SameName c.name d.name) : c = d := by
  induction h with
  | nil => cases hc
  | cons h1 _ ih =>
    rcases List.mem_cons.1 hc with rfl | hc'
    · rcases List.mem_cons.1 hd with rfl | hd'
      · rfl
      · exact absurd hs (h1 d hd')
    · rcases List.mem_cons.1 hd with rfl | hd'
      · exact absurd hs.symm (h1 c hc')
      · exact ih hc' hd'

theorem compOf_unique {D : Decls} {infos : List RecInfo} {seps : List (List Sep)} (hs : SoundDecls D infos seps)
    {ct : CompositeTy} {c d : Comp} (hc : CompOf D ct c) (hd : CompOf D ct d) (h : SameName c.name d.name) :
    c = d := by
  cases ct with
  | record t => exact hs.similar t c d hc hd h
  | tup t =>
    obtain ⟨cs, h1, h2⟩ := hc
    obtain ⟨cs', h3, h4⟩ := hd
    rw [h1] at h3
    cases h3
    exact pairwise_unique (hs.similarFields t cs h1) h2 h4 h

theorem lookupName_comp {D : Decls} {infos : List RecInfo} {seps : List (List Sep)} (hs : SoundDecls D infos seps)
    {ct : CompositeTy} {c : Comp} (hc : CompOf D ct c) :
    lookupName (compNames (D.componentsOf ct)) c.name.toList = .ok () := by
  unfold lookupName
  have hm := (mem_componentsOf hs.world.wf).2 hc
  cases hf : (compNames (D.componentsOf ct)).find? (fun m => simplifiedName m = simplifiedName c.name.toList) with
  | none =>
    have := List.find?_eq_none.1 hf c.name.toList (List.mem_map_of_mem (f := fun c : Comp => c.name.toList) hm)
    simp at this
  | some m =>
    obtain ⟨d, hd, rfl⟩ := List.mem_map.1 (List.mem_of_find?_eq_some hf)
    have hsim : SameName d.name c.name := by simpa [SameName] using List.find?_some hf
    rw [compOf_unique hs ((mem_componentsOf hs.world.wf).1 hd) hc hsim]
    simp

section
variable {tabs : List STab} {parent : Option Nat} {isAbstract isFinal : Bool}

theorem newNode_on {v : PVal} : P.newNode v s = .ok ⟨s.nid, v⟩ { s with nid := s.nid + 1 } := rfl

theorem freeze_on {cs : List Comp} {fz : List (String × VNode)} {k x y : Token} {r : List Token} {c : Comp} {v : PVal}
    {n0 : Nat} (hs : SoundDecls W.decls W.infos W.seps) (hp : ∀ p, parent = some p → p < W.decls.recs.length)
    (hi : RslInv E.global s) (hk : IsKw "freeze" k) (hx : x.kind = .IDENTIFIER)
    (hn : c.name = String.ofList x.text) (hc : Inherits W parent c ∨ c ∈ cs)
    (hfa : ¬ FrozenAbove W parent c.name) (hfz : c.name ∉ fz.map Prod.fst) (hy : y.kind = .ASSIGN)
    (hv : Written E { W.names with tabs, decls := Decls.withRec W.decls parent cs } v c.ty r w.head?)
    (h : On K (recIn W tabs parent isAbstract isFinal cs fz n0) n (k :: x :: y :: r ++ w) s) :
    Acc (parseFreeze E W.decls.recs.length) s (fun _ s' =>
      On K (recIn W tabs parent isAbstract isFinal cs (fz ++ [(c.name, ⟨n, v⟩)]) n0) (n + 1) w s') := by
  unfold parseFreeze
  refine acc_bind _ ((matchKw_on (w := x :: y :: r ++ w) (by simpa using h) hk).sp matchKw_sp) ?_
  rintro _ s1 ⟨⟨rfl, h1⟩, hr1, -⟩
  refine acc_bind _ ((matchK_on (w := y :: r ++ w) (by simpa using h1) hx).sp matchK_sp) ?_
  rintro x s2 ⟨⟨rfl, h2⟩, hr2, -⟩
  have hi2 := hi.ft (hr1.trans hr2).ft
  refine acc_get_bind ?_
  have hD : s2.decls = (recIn W tabs parent isAbstract isFinal cs fz n0).decls := h2.decls
  have hI : s2.infos = (recIn W tabs parent isAbstract isFinal cs fz n0).infos := h2.infos
  have hcomp : HasComp s2.decls W.decls.recs.length c := by
    rw [hD, hasComp_new hs.world.wf hp]; exact hc
  have hxt : x.text = c.name.toList := by rw [hn]; simp
  have hl := lookupName_comp hi2.sound (ct := .record W.decls.recs.length) (c := c) hcomp
  refine acc_bind (fun _ s' => s' = s2) ⟨(), s2, liftSym_ok (by rw [hxt]; exact hl), rfl⟩ ?_
  rintro _ s3 rfl
  have hcm : s3.decls.component W.decls.recs.length (String.ofList x.text) = some c := by
    have := (compIn_iff hi2.sound (ct := .record W.decls.recs.length) (n := c.name) (c := c)).2 ⟨hcomp, rfl⟩
    rw [← hn]; exact this
  rw [hcm]
  simp only
  refine acc_neg ?_ ?_
  · rw [isFrozen_iff hi2.sound.world.wf]
    rintro ⟨node, a, i, ha, hia, hl⟩
    rw [hD] at ha
    rw [hI] at hia
    have := (frozen_new hs.world.wf hp hs.infoLen (nm := c.name)).1 ⟨a, ha, i, hia, ?_⟩
    · exact this.elim hfa hfz
    · by_contra hmem
      have : i.frozen.lookup c.name = none := by
        rw [List.lookup_eq_none_iff]
        intro p hp'
        have : p.1 ≠ c.name := fun e => hmem (List.mem_map.2 ⟨p, hp', e⟩)
        simpa using Ne.symm this
      rw [this] at hl; cases hl
  refine acc_bind _ ((matchK_on (w := r ++ w) (by simpa using h2) hy).sp matchK_sp) ?_
  rintro _ s4 ⟨⟨rfl, h4⟩, hr4, -⟩
  have hty := hi2.sound.world.types _ c hcomp
  have hN : namesOf s4 = { W.names with tabs, decls := Decls.withRec W.decls parent cs } := h4.names
  refine acc_bind _ (acc_steps (a := v) (w := w) h4 ?_) ?_
  · intro s' hst hnx
    have hd : (namesOf s4).decls = s3.decls := hr4.decls
    refine parseValue_acc (E := E) (N := namesOf s4) (by rw [hd]; exact hi2.sound.world.wf)
      (by rw [hd]; exact hi2.sound.world.tuples) _ c.ty ?_ (by rw [hd]; exact hty.1) v r s4 s' ?_ hst rfl
    · exact hty.2
    · rw [hN, hnx]; exact hv
  rintro v s5 ⟨rfl, h5⟩
  refine acc_bind (fun node s' => node = (⟨s5.nid, v⟩ : VNode) ∧ s' = { s5 with nid := s5.nid + 1 })
    ⟨_, _, newNode_on, rfl, rfl⟩ ?_
  rintro _ _ ⟨rfl, rfl⟩
  refine ⟨_, _, rfl, h5.clean, h5.words, ?_, h5.errs, h5.objs, h5.sects⟩
  have hI5 : s5.infos = W.infos ++ [⟨fz, isAbstract, isFinal⟩] := h5.infos
  have : ({ worldOf s5 with nid := s5.nid + 1, infos := s5.infos.modify W.decls.recs.length fun i =>
      { i with frozen := i.frozen ++ [(c.name, (⟨s5.nid, v⟩ : VNode))] } } : World) =
      { recIn W tabs parent isAbstract isFinal cs (fz ++ [(c.name, ⟨n, v⟩)]) n0 with nid := n + 1 } := by
    rw [hI5, ← hs.infoLen, modify_snoc, h5.world, h5.nid]
    rfl
  exact this

theorem members_len {N : Names} {cs : List Comp} {fz : List (String × VNode)} {nx : Option Token}
    (h : MembersText E N W parent cs fz ts nx n) : cs.length + fz.length ≤ ts.length := by
  induction h with
  | nil => simp
  | comp _ _ hm _ ih =>
    obtain ⟨a, o, τ, rfl, hd, -⟩ := hm
    obtain ⟨x, r, rfl, -⟩ := described_first hd
    simp only [List.length_append, List.length_cons, List.length_nil] at *; omega
  | freeze _ _ _ _ _ _ _ _ _ ih =>
    simp only [List.length_append, List.length_cons, List.length_nil] at *; omega

theorem member_first {N : Names} {c : Comp} (hf : MemberText (CompTypeText E N) n c ts n') :
    ∃ x r, ts = x :: r ∧ x.kind = .IDENTIFIER := by
  obtain ⟨a, o, τ, rfl, hd, -⟩ := hf
  obtain ⟨x, r, rfl, hx⟩ := described_first hd
  exact ⟨x, _, rfl, hx⟩

theorem head_follow {a : List Token} : (a ++ w).head? = follow a w.head? := by
  cases a <;> rfl

theorem members_on (hs : SoundDecls W.decls W.infos W.seps) (hp : ∀ p, parent = some p → p < W.decls.recs.length)
    {cs : List Comp} {fz : List (String × VNode)} {nx : Option Token}
    (hm : MembersText E { W.names with tabs } W parent cs fz ts nx n) : ∀ (w : List Token) (s : PS), nx = w.head? →
    NotAhead .S_BRA w → (isFinal = true → cs = []) →
    On K (recIn W tabs parent isAbstract isFinal [] [] W.nid) W.nid (ts ++ w) s → RslInv E.global s →
    ∃ s', On K (recIn W tabs parent isAbstract isFinal cs fz W.nid) n w s' ∧ RslInv E.global s' ∧
      ∀ k, recordLoop E W.decls.recs.length (k + (cs.length + fz.length)) s =
        recordLoop E W.decls.recs.length k s' := by
  induction hm with
  | nil => intro w s _ _ _ h hi; exact ⟨s, h, hi, fun k => rfl⟩
  | @comp cs fz ts nx n c a n' _ hmem hmt hnew ih =>
    intro w s hnx hw hf h hi
    obtain ⟨x, r, e0, hx⟩ := member_first hmt
    have hfin : isFinal = false := by
      cases isFinal with
      | false => rfl
      | true => have := hf rfl; simp at this
    obtain ⟨s1, h1, hi1, he1⟩ := ih (a ++ w) s (by rw [hnx]; exact head_follow.symm)
      (by rw [e0]; exact notAhead_cons hx (by decide)) (by simp [hfin]) (by simpa using h) hi
    obtain ⟨c', s2, e2, ⟨rfl, h2⟩, hr2, hlt2, hin, hrank, -⟩ :=
      (component_on (N := { W.names with tabs }) rfl hmem hmt hw h1).sp (parseComponent_sp hi1)
    have hi2 := hi1.ft hr2
    have hD2 : s2.decls = (recIn W tabs parent isAbstract isFinal cs fz W.nid).decls := h2.decls
    have hD12 : s2.decls = s1.decls := hr2.decls
    have hlen : W.decls.recs.length + 1 = s2.decls.recs.length := by
      rw [hD2]; simp [recIn, Decls.withRec]
    have hinf : (s2.info W.decls.recs.length).isFinal = false := by
      have : s2.infos = W.infos ++ [⟨fz, isAbstract, isFinal⟩] := h2.infos
      simp [PS.info, this, ← hs.infoLen, hfin]
    have hreg : registerName (compNames (s2.decls.allComponents W.decls.recs.length)) c'.name.toList = .ok () := by
      rw [registerName_ok]
      intro m hm
      obtain ⟨d, hd, rfl⟩ := List.mem_map.1 hm
      refine hnew d ?_
      rw [mem_allComponents hi2.sound.world.wf, hD2, hasComp_new hs.world.wf hp] at hd
      exact hd
    have hadd : Acc (P.addComponent W.decls.recs.length c') s2 (fun _ s' =>
        On K (recIn W tabs parent isAbstract isFinal (cs ++ [c']) fz W.nid) n' w s') := by
      unfold P.addComponent Acc
      beta_reduce
      rw [hreg]
      refine ⟨_, _, rfl, h2.clean, h2.words, ?_, h2.errs, h2.objs, h2.sects⟩
      have hrec : s2.decls.recs = W.decls.recs ++ [⟨parent, cs⟩] := by rw [hD2]; rfl
      have : ({ worldOf s2 with decls := { s2.decls with recs := s2.decls.recs.modify W.decls.recs.length fun r => { r with own := r.own ++ [c'] } } } : World) =
          { recIn W tabs parent isAbstract isFinal (cs ++ [c']) fz W.nid with nid := n' } := by
        rw [hrec, modify_snoc, h2.world, hD2]
        rfl
      exact this
    obtain ⟨u, s3, e3, h3, hr3, -⟩ := hadd.sp (addComponent_sp (ne := 0) (nr := 0) hi2 hlen (Nat.zero_le _) hmem
      (by rw [hD12]; exact hin) (by rw [hD12]; exact hrank) hinf)
    refine ⟨s3, h3, hr3.inv hi2, fun k => ?_⟩
    have : k + ((cs ++ [c']).length + fz.length) = (k + 1) + (cs.length + fz.length) := by
      simp only [List.length_append, List.length_singleton]; omega
    rw [this, he1]
    unfold recordLoop
    rw [get_bind_apply]
    have hnt : s1.nt = some x := by rw [h1.nt, e0]; rfl
    rw [peek_head_ne hnt (by rw [hx]; decide), peekKw_head_ne hnt (kind_notKw hx (by decide))]
    simp only [Bool.false_eq_true, if_false]
    refine (bind_ok e2).trans ?_
    rw [get_bind_apply, hinf]
    simp only [Bool.false_eq_true, if_false]
    refine (bind_ok e3).trans ?_
    cases k <;> rfl
  | @freeze cs fz ts nx n c q x y r v _ hq hx hn hc hfa hfz hy hv ih =>
    intro w s hnx hw hf h hi
    obtain ⟨s1, h1, hi1, he1⟩ := ih (q :: x :: y :: r ++ w) s rfl (notAhead_cons hq.1 (by decide)) hf
      (by simpa using h) hi
    have hlen : W.decls.recs.length + 1 = s1.decls.recs.length := by
      rw [h1.decls]; simp [recIn, Decls.withRec]
    subst hnx
    obtain ⟨u, s2, e2, h2, hr2, -⟩ := (freeze_on hs hp hi1 hq hx hn hc hfa hfz hy hv h1).sp
      (parseFreeze_sp (ne := 0) (nr := 0) hi1 hlen (Nat.zero_le _))
    refine ⟨s2, h2, hr2.inv hi1, fun k => ?_⟩
    have : k + (cs.length + (fz ++ [(c.name, (⟨n, v⟩ : VNode))]).length) = (k + 1) + (cs.length + fz.length) := by
      simp only [List.length_append, List.length_singleton]; omega
    rw [this, he1]
    conv => lhs; unfold recordLoop
    rw [get_bind_apply]
    have hnt : s1.nt = some q := h1.nt
    rw [peek_head_ne hnt (by rw [hq.1]; decide), peekKw_of hnt hq]
    simp only [Bool.false_eq_true, if_false, if_true]
    exact bind_ok e2
end

end Verif.Lemmas
