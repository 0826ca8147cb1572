import Verif.Lemmas.Vcg.Initial
/-! The checks of a type, one after the other. -/
namespace Verif.Lemmas.Vcg
open Verif.Model Verif.Spec

/-- the state after a node was attached that does not become the current one -/
def aside (s : TS) (ss : List SStmt) : TS :=
  { s with nodes := s.nodes ++ [ss], edges := s.edges ++ [(s.start, s.nodes.length)] }

theorem aside_le (s : TS) (ss : List SStmt) : Le s (aside s ss) :=
  ⟨List.prefix_append _ _, List.prefix_append _ _, Nat.le_refl _⟩

theorem aside_ok {s : TS} (h : Ok s) (ss : List SStmt) : Ok (aside s ss) := by
  simp only [Ok, aside, List.length_append] at h ⊢
  omega

theorem trm_attachAside {ss : List SStmt} {s s' : TS} {u : Unit} : attachAside ss s = .ok u s' ↔ aside s ss = s' := by
  simp [attachAside, aside]

theorem trm_checkFeasible {em : Bool} {e : Expr} {a : Smt} {s s' : TS} {u : Unit} :
    checkFeasible em e a s = .ok u s' ↔ s' = if em = true then aside s [.goal a (.alwaysTrue e)] else s := by
  unfold checkFeasible
  split
  · rw [trm_attachAside]; exact eq_comm
  · simp only [trm_pure, true_and]; exact eq_comm

variable {W : World} {G : TS} {I I' : Interp} {s s' : TS} {Γ : Gamma} {ρ : NameTrs} {c : List (String × FExpr)}

theorem trCheck_mono {T : TrEnv} {own : Bool} {e : Expr} {u : Unit} (h : trCheck T ρ own e s = .ok u s') (ho : Ok s)
    (hn : NBelow s.tmp ρ) : Le s s' ∧ Ok s' := by
  simp only [trCheck, trm_bind, trm_need, trm_checkFeasible, trm_attach] at h
  obtain ⟨p, s1, h1, _, s2, h2, a, s3, ⟨ha, rfl⟩, _, s4, rfl, rfl⟩ := h
  obtain ⟨l1, o1, b1⟩ := tr_mono e ρ s s1 p h1 ho hn
  obtain ⟨l2, o2, e2⟩ := valid_le h2 o1
  refine ⟨(l1.trans l2).trans ?_, att_ok _ _⟩
  split
  · exact (aside_le _ _).trans (att_le _ _)
  · exact att_le _ _

theorem trOne_mono {T : TrEnv} {own : Bool} {k : Check} {u : Unit} (h : trOne T ρ own k s = .ok u s') (ho : Ok s)
    (hn : NBelow s.tmp ρ) : Le s s' ∧ Ok s' := by
  simp only [trOne, trm_bind, trm_getStart] at h
  obtain ⟨n, s1, ⟨rfl, rfl⟩, _, s2, h2, h3⟩ := h
  obtain ⟨l, o⟩ := trCheck_mono h2 ho hn
  split at h3
  · rw [trm_pure] at h3
    obtain ⟨-, rfl⟩ := h3
    exact ⟨l, o⟩
  · rw [trm_setStart] at h3
    subst h3
    refine ⟨⟨l.nodes, l.edges, l.tmp⟩, ?_⟩
    have := l.len
    simp only [Ok, goto] at ho ⊢
    omega

/-- all checks in the order of the analysis -/
def trAll (T : TrEnv) (ρ : NameTrs) : List (Bool × Check) → TrM Unit
  | [] => pure ()
  | (own, k) :: cs => do
    trOne T ρ own k
    trAll T ρ cs

theorem trm_ext {α : Type} {x y : TrM α} (h : ∀ s, x s = y s) : x = y := funext h

theorem trm_assoc {α β γ : Type} (x : TrM α) (f : α → TrM β) (g : β → TrM γ) : (x >>= f) >>= g = x >>= fun a => f a >>= g := by
  refine funext fun s => ?_
  show TrM.bind (TrM.bind x f) g s = TrM.bind x (fun a => TrM.bind (f a) g) s
  simp only [TrM.bind]
  cases x s <;> rfl

theorem trChecks_eq {T : TrEnv} {ρ : NameTrs} {ph : Bool} : ∀ {ks : List (Bool × Check)},
    trChecks T ρ ph ks = trAll T ρ (ks.filter fun k => k.2.usesFieldAccess = ph)
  | [] => rfl
  | (own, k) :: ks => by
    rw [trChecks]
    split
    · next h => rw [List.filter_cons_of_neg (by simpa using h)]; exact trChecks_eq
    · next h => rw [List.filter_cons_of_pos (by simpa using h), trAll, trChecks_eq]

theorem trAll_append {T : TrEnv} {ρ : NameTrs} : ∀ {xs ys : List (Bool × Check)} {s s' : TS} {u : Unit}, trAll T ρ (xs ++ ys) s = .ok u s' →
    ∃ s1, trAll T ρ xs s = .ok () s1 ∧ trAll T ρ ys s1 = .ok () s'
  | [], ys, s, s', _, h => ⟨s, rfl, h⟩
  | (own, k) :: xs, ys, s, s', _, h => by
    rw [List.cons_append, trAll, trm_bind] at h
    obtain ⟨_, s1, h1, h2⟩ := h
    obtain ⟨s2, h3, h4⟩ := trAll_append h2
    exact ⟨s2, by rw [trAll, trm_bind]; exact ⟨_, s1, h1, h3⟩, h4⟩

theorem trAll_mono {T : TrEnv} {ρ : NameTrs} : ∀ {ks : List (Bool × Check)} {s s' : TS} {u : Unit}, trAll T ρ ks s = .ok u s' → Ok s →
    NBelow s.tmp ρ → Le s s' ∧ Ok s'
  | [], s, s', _, h, ho, hn => by
    simp only [trAll, trm_pure] at h
    obtain ⟨-, rfl⟩ := h
    exact ⟨Le.rfl', ho⟩
  | (own, k) :: ks, s, s', _, h, ho, hn => by
    rw [trAll, trm_bind] at h
    obtain ⟨_, s1, h1, h2⟩ := h
    obtain ⟨l1, o1⟩ := trOne_mono h1 ho hn
    obtain ⟨l2, o2⟩ := trAll_mono h2 o1 (hn.mono l1.tmp)
    exact ⟨l1.trans l2, o2⟩

/-- a check whose goals hold has a value, and its term has it -/
theorem check_sound (hb : HeapInBounds W.heap) {own : Bool} {e : Expr} {u : Unit} (h : trCheck W.trEnv ρ own e s = .ok u s')
    (hs : Sit W G I s Γ ρ c) (hl : Le s' G) (hf : Fit W Γ e) (ht : e.typ = some .bool)
    (hv : Fine W.D G own (∃ b, strict W.env c e = some ⟨some .bool, .bool b⟩)) :
    ∃ b, strict W.env c e = some ⟨some .bool, .bool b⟩ ∧
      (b = true → ∃ I', Same s.tmp I I' ∧ Sit W G I' s' Γ ρ c) ∧ (own = true → NeverFalse W.D G e → b = true) := by
  have mono := trCheck_mono h hs.ok hs.nb
  simp only [trCheck, trm_bind, trm_need, trm_checkFeasible, trm_attach] at h
  obtain ⟨p, s1, h1, _, s2, h2, a, s3, ⟨ha, rfl⟩, _, s4, rfl, rfl⟩ := h
  generalize hs4 : (if own = true then aside s2 [.goal a (.alwaysTrue e)] else s2) = s4 at *
  have l24 : Le s2 s4 := by
    subst hs4
    split
    · exact aside_le _ _
    · exact Le.rfl'
  have l2 : Le s2 G := (l24.trans (att_le _ _)).trans hl
  obtain ⟨l1, o1, b1⟩ := tr_mono e ρ s s1 p h1 hs.ok hs.nb
  obtain ⟨lv, o2, e2⟩ := valid_le h2 o1
  have ih := tr_sound hb e Γ ρ c s s1 p I h1 hs (lv.trans l2) hf (hv.imp fun ⟨b, h⟩ => by simp [h])
  obtain ⟨v, a', hst, hn, hsol, ha', hba, -, I', hsame, lss, hsit, hval, -⟩ := operand hs h1 h2 l2 ih (hv.imp fun ⟨b, h⟩ => by
    simp [solid, h, Val.isNull])
  rw [ha] at ha'; cases ha'
  obtain ⟨b, hvb, hvt⟩ := bool_of hf ht hs.ctx hst hn
  have hvv : v = ⟨some .bool, .bool b⟩ := by cases v; simp_all
  subst hvv
  have hab : value W.D I' zero a = .bool b := asBool_val hval rfl
  refine ⟨b, hst, fun hbt => ⟨I', hsame, ?_⟩, fun how hal => ?_⟩
  · subst hbt
    refine hs.next hsame mono.1 mono.2 ?_
    have st4 : s4.start = s2.start := by subst hs4; split <;> rfl
    have t4 : s4.tmp = s2.tmp := by subst hs4; split <;> rfl
    have lv4 : Live W.D G I' s4 := live_of hsit.live st4 (by omega)
    refine live_att lv4 hl fun st hst => ?_
    simp only [List.mem_singleton] at hst
    subst hst
    exact ⟨by simp only [Agrees, value₀]; rw [hab]; rfl, by simp only [sbelow]; rw [t4]; exact hba⟩
  · rw [if_pos how] at hs4
    subst hs4
    obtain ⟨ps, ns, g1, g2, g3⟩ := hsit.live
    have lg : Le (aside s2 [.goal a (.alwaysTrue e)]) G := (att_le _ _).trans hl
    have hp : Path G s2.nodes.length (ps ++ ns) := g1.step g2 (lg.edges.subset (by simp [aside]))
    have := hal ⟨s2.nodes.length, 0, ps ++ ns, a, .alwaysTrue e⟩
      ⟨_, [.goal a (.alwaysTrue e)], hp, prefix_get lg.nodes (by simp [aside]), rfl, by simp⟩ rfl I' (access_sorted W hsit.io)
      fun st hst => (g3 st hst).1
    simp only [value₀] at this
    rw [hab] at this
    exact this

/-- one check -/
theorem one_sound (hb : HeapInBounds W.heap) {own : Bool} {k : Check} {u : Unit} (h : trOne W.trEnv ρ own k s = .ok u s')
    (hs : Sit W G I s Γ ρ c) (hl : Le s' G) (hf : Fit W Γ k.expr) (ht : k.expr.typ = some .bool)
    (hv : Fine W.D G own (∃ b, strict W.env c k.expr = some ⟨some .bool, .bool b⟩)) :
    ∃ b, strict W.env c k.expr = some ⟨some .bool, .bool b⟩ ∧
      ((k.sev = .fatal → b = true) → ∃ I', Sit W G I' s' Γ ρ c) ∧ (own = true → NeverFalse W.D G k.expr → b = true) := by
  have mono := trOne_mono h hs.ok hs.nb
  simp only [trOne, trm_bind, trm_getStart] at h
  obtain ⟨n, s1, ⟨rfl, rfl⟩, _, s2, h2, h3⟩ := h
  have l2 : Le s2 G := by
    split at h3
    · rw [trm_pure] at h3
      obtain ⟨-, rfl⟩ := h3
      exact hl
    · rw [trm_setStart] at h3
      subst h3
      exact ⟨hl.nodes, hl.edges, hl.tmp⟩
  obtain ⟨b, g1, g2, g3⟩ := check_sound hb h2 hs l2 hf ht hv
  refine ⟨b, g1, fun hfat => ?_, g3⟩
  split at h3
  · next hk =>
    rw [trm_pure] at h3
    obtain ⟨-, rfl⟩ := h3
    obtain ⟨I', -, h⟩ := g2 (hfat hk)
    exact ⟨I', h⟩
  · rw [trm_setStart] at h3
    subst h3
    refine ⟨I, hs.next Same.rfl' mono.1 mono.2 ?_⟩
    exact live_of hs.live rfl mono.1.tmp

/-- all checks up to one -/
theorem all_sound (hb : HeapInBounds W.heap) : ∀ {ks : List (Bool × Check)} {s s' : TS} {I : Interp} {u : Unit}, trAll W.trEnv ρ ks s = .ok u s' →
    Sit W G I s Γ ρ c → Le s' G → (∀ k ∈ ks, Fit W Γ k.2.expr ∧ k.2.expr.typ = some .bool) →
    (∀ k ∈ ks, Fine W.D G k.1 (∃ b, strict W.env c k.2.expr = some ⟨some .bool, .bool b⟩)) →
    (∀ k ∈ ks, k.2.sev = .fatal → strict W.env c k.2.expr = some tvTrue) → ∃ I', Sit W G I' s' Γ ρ c
  | [], s, s', I, _, h, hs, hl, hf, hv, ht => by
    simp only [trAll, trm_pure] at h
    obtain ⟨-, rfl⟩ := h
    exact ⟨I, hs⟩
  | (own, k) :: ks, s, s', I, _, h, hs, hl, hf, hv, ht => by
    rw [trAll, trm_bind] at h
    obtain ⟨_, s1, h1, h2⟩ := h
    obtain ⟨l1, o1⟩ := trOne_mono h1 hs.ok hs.nb
    obtain ⟨l2, -⟩ := trAll_mono h2 o1 (hs.nb.mono l1.tmp)
    obtain ⟨b, g1, g2, -⟩ := one_sound hb h1 hs (l2.trans hl) (hf _ List.mem_cons_self).1 (hf _ List.mem_cons_self).2 (hv _ List.mem_cons_self)
    obtain ⟨I', hs'⟩ := g2 fun hk => by
      have := ht _ List.mem_cons_self hk
      rw [g1] at this
      simpa [tvTrue] using this
    exact all_sound hb h2 hs' hl (fun k hk => hf k (List.mem_cons_of_mem _ hk)) (fun k hk => hv k (List.mem_cons_of_mem _ hk))
      (fun k hk => ht k (List.mem_cons_of_mem _ hk))

/-- The order in which the analysis goes through the checks -/
def vcgOrder (ks : List (Bool × Check)) : List (Bool × Check) :=
  ks.filter (fun k => k.2.usesFieldAccess = false) ++ ks.filter (fun k => k.2.usesFieldAccess = true)

/-- **the analysis of a type**: if nothing is wrong with the checks declared in the type itself, each
of them has a value for every object that satisfies the fatal checks before it, provided that the
inherited ones before it have one -/
theorem vcg_sound {C : CheckTab} {v : VcgType} (hb : HeapInBounds W.heap) {u : Unit} (h : vcgGraph W.trEnv C v TS.empty = .ok u G)
    (hst : Start W C v c) (hf : ∀ k ∈ v.checks, Fit W (compΓ v.comps) k.2.expr ∧ k.2.expr.typ = some .bool)
    {pre post : List (Bool × Check)} {own : Bool} {k : Check} (ho : vcgOrder v.checks = pre ++ (own, k) :: post)
    (hpre : ∀ x ∈ pre, Fine W.D G x.1 (∃ b, strict W.env c x.2.expr = some ⟨some .bool, .bool b⟩))
    (hk : Fine W.D G own (∃ b, strict W.env c k.expr = some ⟨some .bool, .bool b⟩))
    (hfat : ∀ x ∈ pre, x.2.sev = .fatal → strict W.env c x.2.expr = some tvTrue) :
    ∃ b, strict W.env c k.expr = some ⟨some .bool, .bool b⟩ ∧ (own = true → NeverFalse W.D G k.expr → b = true) := by
  have hmem : ∀ x ∈ pre ++ (own, k) :: post, x ∈ v.checks := by
    intro x hx
    rw [← ho, vcgOrder, List.mem_append, List.mem_filter, List.mem_filter] at hx
    exact hx.elim (·.1) (·.1)
  simp only [vcgGraph, trm_bind, trm_lift, trm_attach, trChecks_eq] at h
  obtain ⟨ss, s0, ⟨hss, rfl⟩, _, s1, rfl, _, s2, h1, h2⟩ := h
  have hall : trAll W.trEnv (compTrs v.comps) (vcgOrder v.checks) (att TS.empty ss) = .ok () G := by
    rw [vcgOrder]
    have app : ∀ (xs ys : List (Bool × Check)) (s s1 s2 : TS), trAll W.trEnv (compTrs v.comps) xs s = .ok () s1 →
        trAll W.trEnv (compTrs v.comps) ys s1 = .ok () s2 → trAll W.trEnv (compTrs v.comps) (xs ++ ys) s = .ok () s2 := by
      intro xs
      induction xs with
      | nil =>
        intro ys s s1 s2 a b
        simp only [trAll, trm_pure] at a
        obtain ⟨-, rfl⟩ := a
        exact b
      | cons x xs ih =>
        intro ys s s1 s2 a b
        rw [List.cons_append, trAll, trm_bind]
        rw [trAll, trm_bind] at a
        obtain ⟨w, t, a1, a2⟩ := a
        exact ⟨w, t, a1, ih ys t s1 s2 a2 b⟩
    exact app _ _ _ _ _ h1 h2
  rw [ho] at hall
  have mall := trAll_mono hall (att_ok _ _) compTrs_below
  obtain ⟨t, ht1, ht2⟩ := trAll_append hall
  rw [trAll, trm_bind] at ht2
  obtain ⟨_, t', ht3, ht4⟩ := ht2
  have m1 := trAll_mono ht1 (att_ok _ _) compTrs_below
  have m2 := trOne_mono ht3 m1.2 compTrs_below
  have m3 := trAll_mono ht4 m2.2 compTrs_below
  obtain ⟨I', hs⟩ := all_sound hb ht1 (hst.sit hss mall.1) (m2.1.trans m3.1)
    (fun x hx => hf x (hmem x (by simp [hx]))) hpre hfat
  obtain ⟨b, g1, -, g3⟩ := one_sound hb ht3 hs m3.1 (hf _ (hmem (own, k) (by simp))).1 (hf _ (hmem (own, k) (by simp))).2 hk
  exact ⟨b, g1, g3⟩

end Verif.Lemmas.Vcg
