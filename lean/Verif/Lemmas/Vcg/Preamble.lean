import Verif.Lemmas.Vcg.TrSound2
import Verif.Spec.Analysis
/-! The declarations and assumptions about components agree with the values of an object. -/
namespace Verif.Lemmas.Vcg
open Verif.Model Verif.Spec

variable {W : World} {I : Interp}

theorem fields_find {D : Decls} {objTy : Nat → Option Nat} {fs : List (String × FExpr)} {cs : List Comp}
    (h : FieldsOk D objTy fs cs) (n : String) {c : Comp} (hc : cs.find? (·.name == n) = some c) :
    ∃ fe, fs.lookup n = some fe ∧ ((c.optional = true ∧ fe = .inull) ∨ FOk D objTy fe c.ty) := by
  induction fs generalizing cs with
  | nil =>
    cases cs with
    | nil => simp at hc
    | cons => simp [FieldsOk] at h
  | cons f fs ih =>
    obtain ⟨k, e⟩ := f
    cases cs with
    | nil => simp at hc
    | cons d cs =>
      simp only [FieldsOk, FieldOk] at h
      obtain ⟨⟨rfl, hd⟩, h⟩ := h
      by_cases hn : d.name = n
      · subst hn
        rw [List.find?_cons_of_pos (by simp)] at hc
        simp only [Option.some.injEq] at hc
        subst hc
        exact ⟨e, by simp, hd⟩
      · rw [List.find?_cons_of_neg (by simpa using hn)] at hc
        obtain ⟨fe, h1, h2⟩ := ih h hc
        refine ⟨fe, ?_, h2⟩
        rw [List.lookup_cons]
        have : (n == d.name) = false := by rw [beq_eq_false_iff_ne]; exact fun h => hn h.symm
        simp [this, h1]

theorem fieldsOk_names {D : Decls} {objTy : Nat → Option Nat} : ∀ {fs : List (String × FExpr)} {cs : List Comp},
    FieldsOk D objTy fs cs → fs.map (·.1) = cs.map (·.name)
  | [], [], _ => rfl
  | [], _ :: _, h => by simp [FieldsOk] at h
  | _ :: _, [], h => by simp [FieldsOk] at h
  | (n, e) :: fs, d :: cs, h => by
    simp only [FieldsOk, FieldOk] at h
    simp only [List.map_cons, h.1.1, fieldsOk_names h.2]

/-- the fields of a tuple, as names -/
theorem tuple_names (hI : IOk W I) {t : Nat} {fs : List (String × FExpr)} {v : Val} {base : Smt}
    (hf : FOk W.D W.objTy (.tup t fs) (.tup t)) (hev : (FExpr.tup t fs).eval W.heap = .ok ⟨some (.tup t), v⟩)
    (ha : W.val I zero base = W.rp ⟨some (.tup t), v⟩) :
    NamesOk W I zero (compΓ (W.D.fields t)) (tupleNames W.D t base) fs := by
  have hvt : VT W.D W.objTy W.heap (.tup t) v := fok_vt _ _ _ hf hev
  simp only [FOk, true_and] at hf
  obtain ⟨cs, hcs, hfo⟩ := hf
  have hfields : W.D.fields t = cs := by simp [Decls.fields, hcs]
  simp only [FExpr.eval, bind_eq_ok] at hev
  obtain ⟨vs, hvs, hm⟩ := hev
  have := mkValue_get hm
  simp only [TV.mk.injEq, true_and] at this
  subst this
  intro n x hx
  simp only [tupleNames, Option.map_eq_some_iff] at hx
  obtain ⟨c, hc, rfl⟩ := hx
  refine ⟨⟨c.optional, by simp [compΓ, hc]⟩, ?_⟩
  obtain ⟨fe, h1, h2⟩ := fields_find hfo n (hfields ▸ hc)
  rcases evalFields_lookup hvs n with ⟨h0, -⟩ | ⟨fe', w, -, h5, h3, h4⟩
  · rw [h0] at h1; cases h1
  rw [h5] at h1; cases h1
  refine ⟨fe, w, h5, h3, ?_⟩
  exact fieldTerm_value hI hvt (ty := c.ty) ⟨c, hc, rfl⟩ (fun _ _ h => by cases h) (by simp [fieldTerm, hc]) ha
    (by simp [fieldEval, h4])

theorem tupleNames_below {D : Decls} {t n : Nat} {base : Smt} (hb : below n base) : NBelow n (tupleNames D t base) := by
  intro m x hx
  simp only [tupleNames, Option.map_eq_some_iff] at hx
  obtain ⟨c, -, rfl⟩ := hx
  refine ⟨hb, ?_⟩
  simp only
  split
  · exact hb
  · trivial

theorem tupleChecks_value (hI : IOk W I) {Γ : Gamma} {ρ : NameTrs} {c : List (String × FExpr)} (hc : CtxOk W.D W.objTy Γ c)
    (hn : NamesOk W I zero Γ ρ c) : ∀ {ks : List Check} {xs : List Smt}, tupleCheckTerms W.trEnv ρ ks = .ok xs →
    (∀ k ∈ ks, k.sev ≠ .warning → Fit W Γ k.expr ∧ strict W.env c k.expr = some tvTrue) →
    ∀ x ∈ xs, W.val I zero x = .bool true
  | [], xs, h, _ => by
    simp only [tupleCheckTerms, FR.ok.injEq] at h
    subst h
    simp
  | k :: ks, xs, h, hk => by
    have hks : ∀ k ∈ ks, k.sev ≠ .warning → Fit W Γ k.expr ∧ strict W.env c k.expr = some tvTrue :=
      fun k h => hk k (List.mem_cons_of_mem _ h)
    simp only [tupleCheckTerms] at h
    split at h
    · exact tupleChecks_value hI hc hn h hks
    · next hw =>
      simp only [fr_bind, fr_need, FR.ok.injEq] at h
      obtain ⟨p, hp, a, ha, ys, hys, rfl⟩ := h
      obtain ⟨hf, hs⟩ := hk k List.mem_cons_self hw
      intro x hx
      rcases List.mem_cons.1 hx with rfl | hx
      · obtain ⟨b, hb, hv⟩ := (trF_value hI k.expr Γ ρ c p _ hp hs hf.wt hf.side hf.exact hc hn).2 rfl
        rw [ha] at hb; cases hb
        rw [hv]
        simp [World.rp, tvTrue, rep]
      · exact tupleChecks_value hI hc hn hys hks x hx

theorem tupleChecks_below {T : TrEnv} {ρ : NameTrs} {n : Nat} (hn : NBelow n ρ) : ∀ {ks : List Check} {xs : List Smt},
    tupleCheckTerms T ρ ks = .ok xs → ∀ x ∈ xs, below n x
  | [], xs, h => by
    simp only [tupleCheckTerms, FR.ok.injEq] at h
    subst h
    simp
  | k :: ks, xs, h => by
    simp only [tupleCheckTerms] at h
    split at h
    · exact tupleChecks_below hn h
    · simp only [fr_bind, fr_need, FR.ok.injEq] at h
      obtain ⟨p, hp, a, ha, ys, hys, rfl⟩ := h
      intro x hx
      rcases List.mem_cons.1 hx with rfl | hx
      · exact (trF_below k.expr ρ p hp hn).1 _ ha
      · exact tupleChecks_below hn hys x hx

theorem fieldsOk_mem {D : Decls} {objTy : Nat → Option Nat} : ∀ {fs : List (String × FExpr)} {cs : List Comp},
    FieldsOk D objTy fs cs → ∀ c ∈ cs, ∃ f ∈ fs, f.1 = c.name
  | [], [], _, c, hc => by cases hc
  | [], _ :: _, h, _, _ => by simp [FieldsOk] at h
  | _ :: _, [], h, _, _ => by simp [FieldsOk] at h
  | (n, e) :: fs, d :: cs, h, c, hc => by
    simp only [FieldsOk, FieldOk] at h
    rcases List.mem_cons.1 hc with rfl | hc
    · exact ⟨_, List.mem_cons_self, h.1.1⟩
    · obtain ⟨f, h1, h2⟩ := fieldsOk_mem h.2 c hc
      exact ⟨f, List.mem_cons_of_mem _ h1, h2⟩

theorem conj_true {ps : List Smt} (h : ∀ p ∈ ps, W.val I zero p = .bool true) : W.val I zero (conjTerm ps) = .bool true := by
  rw [conj_value ps (ps.map fun _ => true) (by
    rw [List.map_map]
    exact List.map_congr_left fun p hp => by simp [h p hp])]
  simp

/-- once a field is null all that follow are -/
theorem suffix_value {D : Decls} {objTy : Nat → Option Nat} {base : Smt} : ∀ {fs : List (String × FExpr)} {cs : List Comp} {xs : List Smt},
    FieldsOk D objTy fs cs → NullsLast fs → suffixTerms base cs = .ok xs →
    (∀ f ∈ fs, ∀ c ∈ cs, c.name = f.1 → c.optional = true → (f.2 = .inull → W.val I zero (.field base (.valid c.name)) = .bool false) ∧
      (f.2 ≠ .inull → W.val I zero (.field base (.valid c.name)) = .bool true)) →
    ∀ x ∈ xs, W.val I zero x = .bool true
  | _, [], xs, _, _, h, _ => by
    simp only [suffixTerms, FR.ok.injEq] at h
    subst h
    simp
  | [], _ :: _, _, h, _, _, _ => by simp [FieldsOk] at h
  | (n, e) :: fs, c :: cs, xs, hf, hl, h, hv => by
    simp only [FieldsOk, FieldOk] at hf
    obtain ⟨⟨rfl, -⟩, hf⟩ := hf
    simp only [NullsLast, List.pairwise_cons] at hl
    have hv' : ∀ f ∈ fs, ∀ c ∈ cs, c.name = f.1 → c.optional = true → (f.2 = .inull → W.val I zero (.field base (.valid c.name)) = .bool false) ∧
        (f.2 ≠ .inull → W.val I zero (.field base (.valid c.name)) = .bool true) :=
      fun f h1 c h2 => hv f (List.mem_cons_of_mem _ h1) c (List.mem_cons_of_mem _ h2)
    unfold suffixTerms at h
    split at h
    · next ho =>
      cases cs with
      | nil =>
        simp only [FR.ok.injEq] at h
        subst h
        simp
      | cons d ds =>
        try simp only at h
        split at h
        · next hall =>
          simp only [fr_bind, FR.ok.injEq] at h
          obtain ⟨ys, hys, rfl⟩ := h
          intro x hx
          rcases List.mem_cons.1 hx with rfl | hx
          · obtain ⟨v1, v2⟩ := hv _ List.mem_cons_self c List.mem_cons_self rfl ho
            by_cases he : e = .inull
            · have hval := v1 he
              have hcj : W.val I zero (conjTerm ((d :: ds).map fun x => .un .not (.field base (.valid x.name)))) = .bool true := by
                refine conj_true fun p hp => ?_
                obtain ⟨c', hc', rfl⟩ := List.mem_map.1 hp
                obtain ⟨f, hf1, hf2⟩ := fieldsOk_mem hf c' hc'
                have := (hv' f hf1 c' hc' hf2.symm (List.all_eq_true.1 hall c' hc')).1 (hl.1 f hf1 he)
                simp only [World.val] at this
                simp only [World.val, value] at this ⊢
                rw [this]
                rfl
              simp only [World.val] at hcj
              simp only [World.val, value, binSem]
              rw [hcj]
              simp [SV.asBool]
            · have hval := v2 he
              simp only [World.val] at hval
              simp only [World.val, value, binSem, unSem] at hval ⊢
              rw [hval]
              simp [SV.asBool]
          · exact suffix_value hf hl.2 hys hv' x hx
        · cases h
    · exact suffix_value hf hl.2 h hv'

theorem suffix_below {base : Smt} {n : Nat} (hb : below n base) : ∀ {cs : List Comp} {xs : List Smt}, suffixTerms base cs = .ok xs →
    ∀ x ∈ xs, below n x
  | [], xs, h => by
    simp only [suffixTerms, FR.ok.injEq] at h
    subst h
    simp
  | c :: cs, xs, h => by
    unfold suffixTerms at h
    split at h
    · cases cs with
      | nil =>
        simp only [FR.ok.injEq] at h
        subst h
        simp
      | cons d ds =>
        try simp only at h
        split at h
        · simp only [fr_bind, FR.ok.injEq] at h
          obtain ⟨ys, hys, rfl⟩ := h
          intro x hx
          rcases List.mem_cons.1 hx with rfl | hx
          · refine ⟨hb, conj_below _ fun p hp => ?_⟩
            obtain ⟨c', -, rfl⟩ := List.mem_map.1 hp
            exact hb
          · exact suffix_below hb hys x hx
        · cases h
    · exact suffix_below hb h

/-- what is asserted about the value of a component holds -/
theorem comp_true (hI : IOk W I) {C : CheckTab} {c : Comp} {fe : FExpr} {v : Val} {xs : List Smt}
    (h : compConstraints W.trEnv C c = .ok xs) (hf : FOk W.D W.objTy fe c.ty) (hg : Granted C W.env c.ty fe)
    (hev : fe.eval W.heap = .ok ⟨some c.ty, v⟩) (ha : I.const (.value c.name) = W.rp ⟨some c.ty, v⟩)
    (ht : ∀ t, c.ty = .tup t → ∀ k ∈ C.ofTup t, k.sev ≠ .warning → Fit W (compΓ (W.D.fields t)) k.expr) :
    ∀ x ∈ xs, W.val I zero x = .bool true := by
  have hs : W.val I zero (.sym (.value c.name)) = W.rp ⟨some c.ty, v⟩ := by simp only [World.val, value]; exact ha
  cases hty : c.ty <;> simp only [compConstraints, hty, FR.ok.injEq] at h
  case arr aid elem lo hi =>
    subst h
    rw [hty] at hf hev hs hg
    obtain ⟨es, rfl, hall⟩ := fok_arr hf
    simp only [FExpr.eval, bind_eq_ok] at hev
    obtain ⟨vs, hvs, hm⟩ := hev
    have := mkValue_get hm
    simp only [TV.mk.injEq, true_and] at this
    subst this
    have hlen := (elems_index hvs).1
    simp only [Granted] at hg
    have hsq : value W.D I zero (.sym (.value c.name)) = .seq (vs.map fun x => rep W.D W.ref x.2 x.1) := by
      simp only [World.val] at hs
      rw [hs, World.rp]
      simp [rep, repL_eq_map]
    intro x hx
    simp only [boundTerms, List.mem_append] at hx
    rcases hx with hx | hx
    · split at hx
      · simp only [List.mem_singleton] at hx
        subst hx
        refine congrArg SV.bool (decide_eq_true_iff.2 ?_)
        simp only [value, unSem] at hsq ⊢
        rw [hsq]
        simp only [SV.asSeq, SV.asRat, List.length_map, ← hlen]
        exact_mod_cast hg.1
      · cases hx
    · cases hi with
      | none => cases hx
      | some u =>
        simp only [List.mem_singleton] at hx
        subst hx
        refine congrArg SV.bool (decide_eq_true_iff.2 ?_)
        simp only [value, unSem] at hsq ⊢
        rw [hsq]
        simp only [SV.asSeq, SV.asRat, List.length_map, ← hlen]
        exact_mod_cast hg.2 u rfl
  case tup t =>
    rw [hty] at hf hev hs hg
    obtain ⟨fs, rfl⟩ : ∃ fs, fe = .tup t fs := by
      cases fe <;> simp only [FOk, reduceCtorEq, false_and, or_self] at hf
      case arr =>
        obtain ⟨rfl, _, _, _, _, h, _⟩ := hf
        cases h
      case tup t' fs =>
        obtain ⟨h, -⟩ := hf
        cases h
        exact ⟨fs, rfl⟩
      case ref =>
        obtain ⟨rfl, _, _, _, _, h⟩ := hf
        simp [Referable] at h
    simp only [tupleConstraints, fr_bind, FR.ok.injEq, World.trEnv] at h
    obtain ⟨ys, hys, zs, hzs, rfl⟩ := h
    have hnames := tuple_names hI hf hev hs
    simp only [FOk, true_and] at hf
    obtain ⟨cs, hcs, hfo⟩ := hf
    have hfields : W.D.fields t = cs := by simp [Decls.fields, hcs]
    simp only [Granted] at hg
    have hctx : CtxOk W.D W.objTy (compΓ (W.D.fields t)) fs := by
      intro n ty b h
      simp only [compΓ, hfields, Option.map_eq_some_iff, Prod.mk.injEq] at h
      obtain ⟨c, hc, rfl, rfl⟩ := h
      exact fields_find hfo n hc
    intro x hx
    rcases List.mem_append.1 hx with hx | hx
    · exact tupleChecks_value hI hctx hnames hys (fun k hk hw => ⟨ht t hty k hk hw, hg.1 k hk hw⟩) x hx
    · refine suffix_value (hfields ▸ hfo) hg.2 hzs (fun f hf c' hc' hn ho => ?_) x hx
      have nd : (cs.map (·.name)).Nodup := hfields ▸ W.fn t
      have hfind : (W.D.fields t).find? (·.name == c'.name) = some c' := by
        rw [hfields] at hc' ⊢
        exact find_of_mem nd hc'
      obtain ⟨-, fe, w, h1, h2, h3⟩ := hnames c'.name _ (by simp only [tupleNames, hfind, Option.map_some]; rfl)
      have hkeys : fs.map (·.1) = cs.map (·.name) := fieldsOk_names hfo
      have : fe = f.2 := by
        rw [hn, lookup_of_mem (by rw [hkeys]; exact nd) hf] at h1
        cases h1; rfl
      subst this
      have h3 := h3.1
      simp only [ho, if_true] at h3
      constructor
      · intro h
        rw [h] at h2
        simp only [FExpr.eval] at h2
        rw [mkValue_get h2] at h3
        exact h3
      · intro h
        obtain ⟨fe', g1, g2⟩ := fields_find hfo c'.name (hfields ▸ hfind)
        rw [hn, lookup_of_mem (by rw [hkeys]; exact nd) hf] at g1
        cases g1
        rcases g2 with ⟨-, g2⟩ | g2
        · exact absurd g2 h
        · obtain ⟨w', g3, g4⟩ := fok_eval W.hh _ _ g2
          rw [g3] at h2
          cases h2
          rw [g4] at h3
          exact h3
  all_goals
    subst h
    simp

theorem comp_below {T : TrEnv} {C : CheckTab} {c : Comp} {xs : List Smt} (h : compConstraints T C c = .ok xs) :
    ∀ x ∈ xs, below 0 x := by
  cases hty : c.ty <;> simp only [compConstraints, hty, FR.ok.injEq] at h
  case arr aid elem lo hi =>
    subst h
    intro x hx
    simp only [boundTerms, List.mem_append] at hx
    rcases hx with hx | hx
    · split at hx
      · simp only [List.mem_singleton] at hx
        subst hx
        exact ⟨trivial, trivial⟩
      · cases hx
    · cases hi with
      | none => cases hx
      | some u =>
        simp only [List.mem_singleton] at hx
        subst hx
        exact ⟨trivial, trivial⟩
  case tup t =>
    simp only [tupleConstraints, fr_bind, FR.ok.injEq] at h
    obtain ⟨ys, hys, zs, hzs, rfl⟩ := h
    intro x hx
    rcases List.mem_append.1 hx with hx | hx
    · exact tupleChecks_below (tupleNames_below (by trivial)) hys x hx
    · exact suffix_below (by trivial) hzs x hx
  all_goals
    subst h
    simp

/-- the term of a frozen value -/
theorem frozen_value {e : FExpr} {τ : Ty} {v : TV} {a : Smt} (hf : FOk W.D W.objTy e τ) (hev : e.eval W.heap = .ok v)
    (ha : frozenTerm e = .ok a) : value₀ W.D I a = W.rp v ∧ below 0 a := by
  cases e <;> simp only [FOk, frozenTerm, FR.ok.injEq, reduceCtorEq] at hf ha
  case neg e =>
    rcases hf with ⟨rfl, i, rfl⟩ | ⟨rfl, q, rfl⟩
    all_goals
      simp only [frozenTerm, FR.ok.injEq] at ha
      subst ha
      simp only [FExpr.eval, mkValue, Val.isNull, Option.isNone_some, if_true, Ev.bind, unary, unaryOp] at hev
      simp at hev
      subst hev
      exact ⟨by simp [value₀, value, unSem, World.rp, rep, SV.asInt, SV.asRat], trivial⟩
  case pos e =>
    rcases hf with ⟨rfl, i, rfl⟩ | ⟨rfl, q, rfl⟩
    all_goals
      simp only [frozenTerm, FR.ok.injEq] at ha
      subst ha
      simp only [FExpr.eval, mkValue, Val.isNull, Option.isNone_some, if_true, Ev.bind, unary, unaryOp] at hev
      simp at hev
      subst hev
      exact ⟨by simp [value₀, value, World.rp, rep], trivial⟩
  all_goals
    subst ha
    simp only [FExpr.eval] at hev
    rw [mkValue_get hev]
    exact ⟨by simp [value₀, value, World.rp, rep], trivial⟩

end Verif.Lemmas.Vcg
