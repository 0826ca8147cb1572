import Verif.Lemmas.Vcg.Mono2
/-! When operations have a value. -/
namespace Verif.Lemmas.Vcg
open Verif.Model Verif.Spec

variable {W : World} {I : Interp} {β : Nat → Int}

theorem unary_total {op : UnOp} {τ : Ty} {t : Option Ty} {v : TV} (ht : v.typ = some τ) (hn : v.val.isNull = false)
    (hv : VT W.D W.objTy W.heap τ v.val) (ho : unOk op (some τ) t) : ∃ w, unaryOp op t v.val = .ok w := by
  have := unary_good (ai := False) (aq := False) (d := True) (Or.inr ⟨τ, rfl, ht, hn, hv⟩ : TVok W.D W.objTy W.heap (some τ) v) ho
  simp only [unary, hn, Bool.false_eq_true, if_false] at this
  cases h : unaryOp op t v.val with
  | ok w => exact ⟨w, rfl⟩
  | err e =>
    exfalso
    unfold unaryOp mkValue at h
    repeat' split at h
    all_goals cases h
  | crash c =>
    rw [h] at this
    simp [Good, Perm] at this

theorem field_total {τ ty : Ty} {v : Val} {n : String} (hv : VT W.D W.objTy W.heap τ v) (hf : fieldOk W.D (some τ) n ty) :
    ∃ w, fieldEval W.heap v n = .ok w := by
  have rec' : ∀ o u fs, v = .recv fs → W.heap o = some fs → W.objTy o = some u → ∃ w, fieldEval W.heap v n = .ok w := by
    rintro o u fs rfl ho hu
    obtain ⟨fs', h1, h2, h3⟩ := W.hh o u hu
    rw [ho] at h1; cases h1
    cases hl : fs.lookup n with
    | none => exact ⟨⟨none, .null⟩, by simp [fieldEval, hl, mkValue, Val.isNull]⟩
    | some x =>
      obtain ⟨c, h4, h5⟩ := h3 n (by simp [hl])
      obtain ⟨y, hy, hd⟩ := h2 c h4
      rw [h5, hl] at hy; cases hy
      rcases hd with ⟨-, he⟩ | hf
      · exact ⟨⟨none, .null⟩, by simp [fieldEval, hl, he, eval_inull]⟩
      · obtain ⟨w, hw, -⟩ := fok_eval W.hh x.expr c.ty hf
        exact ⟨_, by simp only [fieldEval, hl]; exact hw⟩
  cases τ <;> simp only [fieldOk] at hf
  · obtain ⟨fs, vs, cs, rfl, -⟩ := vt_tup hv
    cases hl : vs.lookup n with
    | none => exact ⟨⟨none, .null⟩, by simp [fieldEval, hl, mkValue, Val.isNull]⟩
    | some x => exact ⟨⟨x.1, x.2⟩, by simp [fieldEval, hl]⟩
  all_goals
    obtain ⟨o, u, fs, h1, h2, h3, -⟩ := vt_ref (by simp [Ty.cls]) hv
    exact rec' o u fs h1 h2 h3

theorem binary_err {rx op t l r e} (h : binaryOp rx op t l r = .err e) : op = .divide ∨ op = .remainder ∨ op = .index := by
  cases op <;> first | simp; done | skip
  all_goals
    exfalso
    simp only [binaryOp, arith] at h
    repeat' split at h
    all_goals first
      | (cases h; done)
      | (unfold mkValue at h; split at h <;> cases h)

/-- the goals of an operation hold exactly if it has a value -/
theorem op_goals {op : BinOp} {σ τ : Ty} {t : Option Ty} {vl vr : TV}
    (tl : vl.typ = some σ) (tr : vr.typ = some τ) (nl : vl.val.isNull = false) (nr : vr.val.isNull = false)
    (hl : VT W.D W.objTy W.heap σ vl.val) (hr : VT W.D W.objTy W.heap τ vr.val)
    (ho : binOk op (some σ) (some τ) t) (hnn : op.allowsNull = false)
    (hpow : op = .power → ∃ i, vr.val = .int i ∧ 0 ≤ i) (hb : Bounded vl.val vl.typ)
    {a b : Smt} (ha : W.val I β a = W.rp vl) (hbv : W.val I β b = W.rp vr) :
    (∀ g ∈ opGoals op (some σ) a b, (W.val I β g.1).asBool = true) ↔
      ∃ w, binaryOp W.rx op t vl vr = .ok w ∧ w.val.isNull = false := by
  by_cases hix : op = .index
  · subst hix
    obtain ⟨⟨id, e, lo, hi, h1, rfl⟩, h2⟩ := ho
    cases h1; cases h2
    obtain ⟨i, hi'⟩ := hr
    obtain ⟨es, vs, hvs, -, -⟩ := vt_arr hl
    rw [hvs] at hl
    have hel := arr_elem hl
    have va : W.val I β a = .seq (repL W.D W.ref vs) := by rw [ha, World.rp, hvs]; simp [rep]
    have vb : W.val I β b = .int i := by rw [hbv, World.rp, hi']; simp [rep]
    have hlen : (repL W.D W.ref vs).length = vs.length := by rw [repL_eq_map]; simp
    simp only [World.val] at va vb
    have hg : (∀ g ∈ opGoals .index (some (.arr id e lo hi)) a b, (W.val I β g.1).asBool = true) ↔ 0 ≤ i ∧ i < vs.length := by
      simp only [opGoals, List.forall_mem_cons, World.val, value, binSem, unSem, va, vb, SV.asBool, SV.asRat, SV.asSeq,
        hlen, decide_eq_true_eq, List.not_mem_nil, false_imp_iff, implies_true, and_true]
      refine and_congr ?_ ?_
      · exact_mod_cast Iff.rfl
      · constructor <;> intro h <;> exact_mod_cast h
    rw [hg]
    simp only [binaryOp]
    rw [tl, hvs, hi']
    constructor
    · rintro ⟨g1, g2⟩
      rw [tl, hvs] at hb
      obtain ⟨x, hx, -, hok⟩ := index_ok (t := some e) hb rfl (fun x hx => (hel x hx).2.1) g1 g2
      exact ⟨_, hok, (hel x hx).2.1⟩
    · rintro ⟨w, hw, -⟩
      simp only [indexOp] at hw
      split at hw; · cases hw
      split at hw; · cases hw
      split at hw; · cases hw
      split at hw
      · cases hw
      · next x hx =>
        have := (List.getElem?_eq_some_iff.1 hx).1
        omega
  · have hgood := binary_good (ai := False) (aq := False) (d := True) (rx := W.rx) W.hh
      (Or.inr ⟨σ, rfl, tl, nl, hl⟩ : TVok W.D W.objTy W.heap (some σ) vl)
      (Or.inr ⟨τ, rfl, tr, nr, hr⟩ : TVok W.D W.objTy W.heap (some τ) vr) ho (by simp [nl]) (by simp [nr]) hpow
      (fun h => absurd h hix)
    have nocrash : ∀ c, binaryOp W.rx op t vl vr ≠ .crash c := by
      intro c h
      rw [h] at hgood
      simp [Good, Perm] at hgood
    by_cases hdr : op = .divide ∨ op = .remainder
    · rcases hdr with rfl | rfl
      · obtain ⟨hσ, hτ, rfl⟩ := ho
        cases hτ
        rcases hσ with h | h <;> cases h
        · obtain ⟨i, hi⟩ := hl
          obtain ⟨j, hj⟩ := hr
          have vb : W.val I β b = .int j := by rw [hbv, World.rp, hj]; simp [rep]
          simp only [World.val] at vb
          simp only [opGoals, List.forall_mem_cons, World.val, value, unSem, binSem, vb, SV.asBool, Bool.not_eq_true',
            decide_eq_false_iff_not, SV.int.injEq, List.not_mem_nil, false_imp_iff, implies_true, and_true, binaryOp, hi, hj, numPair,
            pyFloorDiv]
          by_cases h0 : j = 0
          · simp [h0]
          · simp [h0, mkValue, Val.isNull]
        · obtain ⟨i, hi⟩ := hl
          obtain ⟨j, hj⟩ := hr
          have vb : W.val I β b = .real j := by rw [hbv, World.rp, hj]; simp [rep]
          simp only [World.val] at vb
          simp only [opGoals, List.forall_mem_cons, World.val, value, unSem, binSem, vb, SV.asBool, Bool.not_eq_true',
            decide_eq_false_iff_not, SV.real.injEq, List.not_mem_nil, false_imp_iff, implies_true, and_true, binaryOp, hi, hj, numPair]
          by_cases h0 : j = 0
          · simp [h0]
          · simp [h0, mkValue, Val.isNull]
      · obtain ⟨hσ, hτ, rfl⟩ := ho
        cases hσ; cases hτ
        obtain ⟨i, hi⟩ := hl
        obtain ⟨j, hj⟩ := hr
        have vb : W.val I β b = .int j := by rw [hbv, World.rp, hj]; simp [rep]
        simp only [World.val] at vb
        simp only [opGoals, List.forall_mem_cons, World.val, value, unSem, binSem, vb, SV.asBool, Bool.not_eq_true',
          decide_eq_false_iff_not, SV.int.injEq, List.not_mem_nil, false_imp_iff, implies_true, and_true, binaryOp, hi, hj]
        have hrem : j = 0 ↔ remainder i j = none := by
          unfold remainder pyNatMod
          by_cases h0 : j = 0
          · simp [h0]
          · simp [h0]
            split <;> simp
        rw [hrem]
        cases remainder i j <;> simp [mkValue, Val.isNull]
    · have hg : opGoals op (some σ) a b = [] := by
        cases op <;> simp_all [opGoals]
      rw [hg]
      simp only [List.not_mem_nil, false_imp_iff, implies_true, true_iff]
      cases hr' : binaryOp W.rx op t vl vr with
      | ok w => exact ⟨w, rfl, bin_notnull hix hr'⟩
      | err e =>
        rcases binary_err hr' with h | h | h
        · exact absurd (Or.inl h) hdr
        · exact absurd (Or.inr h) hdr
        · exact absurd h hix
      | crash c => exact absurd hr' (nocrash c)

end Verif.Lemmas.Vcg
