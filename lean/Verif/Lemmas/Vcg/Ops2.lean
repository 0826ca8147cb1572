import Verif.Lemmas.Vcg.Ops
import Verif.Lemmas.Meaning
import Mathlib.Tactic.Linarith
/-! Terms made for operators mean what the operators compute: the operators. -/
namespace Verif.Lemmas.Vcg
open Verif.Model Verif.Spec

variable {W : World} {I : Interp} {β : Nat → Int}

theorem refersTo_cls {τ : Ty} {m : Nat} (h : RefersTo τ m) : τ.cls = .record ∨ τ.cls = .union := by
  cases τ <;> simp only [RefersTo] at h <;> simp [Ty.cls]

theorem core_pyEq {τ σ : Ty} (hc : Comparable W.D (some τ) (some σ)) {v w : Val}
    (hv : VT W.D W.objTy W.heap τ v) (hw : VT W.D W.objTy W.heap σ w) {a b : Smt}
    (ha : W.val I β a = rep W.D W.ref v (some τ)) (hb : W.val I β b = rep W.D W.ref w (some σ)) (fuel : Nat) :
    W.val I β (coreEq W.D fuel τ a b) = .bool (v.pyEq w) := by
  classical
  have same : τ = σ → W.val I β (coreEq W.D fuel τ a b) = .bool (v.pyEq w) := by
    rintro rfl
    rw [coreEq_value fuel τ a b v w hv hw ha hb]
    congr 1
    rw [Bool.eq_iff_iff, decide_eq_true_iff, vt_eq W.hh W.fn W.hr hv hw]
  simp only [Comparable] at hc
  rcases hc with ⟨-, -, h⟩ | ⟨-, m, n, h1, h2, -⟩
  · exact same h
  · have c1 := refersTo_cls h1
    have c2 := refersTo_cls h2
    have : coreEq W.D fuel τ a b = .bin .eq a b := by
      cases fuel <;> cases τ <;> first | rfl | simp [Ty.cls] at c1
    rw [this]
    simp only [World.val] at ha hb
    simp only [World.val, value, binSem, SV.bool.injEq]
    rw [Bool.eq_iff_iff, decide_eq_true_iff, ha, hb, vt_eq_ref W.hr c1 c2 hv hw]

theorem pyEq_null_right (v : Val) : v.pyEq .null = v.isNull := by
  cases v <;> simp [Val.pyEq, Val.isNull, Val.num]

theorem pyEq_null_left (v : Val) : Val.null.pyEq v = v.isNull := by
  simp [Val.pyEq]

theorem isNull_eq {v : Val} (h : v.isNull = true) : v = .null := by
  cases v <;> simp_all [Val.isNull]

/-- `==` -/
theorem eqTerm_value {tl tr : Option Ty} {vl vr : TV} (hl : TVok W.D W.objTy W.heap tl vl)
    (hr : TVok W.D W.objTy W.heap tr vr) (hc : Comparable W.D tl tr) {p q : TrPair}
    (hp : Repr W I β p vl) (hq : Repr W I β q vr) {x : Smt}
    (hx : eqTerm W.D (if p.1.isNone then tr else tl) p q = some x) :
    W.val I β x = .bool (vl.val.pyEq vr.val) := by
  -- both are not null
  have core : ∀ a b y, p.1 = some a → q.1 = some b → vl.val.isNull = false → vr.val.isNull = false →
      (tl.map fun t => coreEq W.D (W.D.tups.length + 1) t a b) = some y → W.val I β y = .bool (vl.val.pyEq vr.val) := by
    intro a b y ha hb hn hn' hy
    obtain ⟨τ, h1, h2, h3⟩ := tvok_nonnull hl (by simp [hn])
    obtain ⟨σ, h4, h5, h6⟩ := tvok_nonnull hr (by simp [hn'])
    subst h1 h4
    simp only [Option.map_some, Option.some.injEq] at hy
    subst hy
    obtain ⟨a', e1, e2⟩ := hp.2 hn
    obtain ⟨b', e3, e4⟩ := hq.2 hn'
    rw [ha] at e1
    rw [hb] at e3
    cases e1
    cases e3
    refine core_pyEq hc h3 h6 ?_ ?_ _
    · rw [e2, World.rp, h2]
    · rw [e4, World.rp, h5]
  have ht : ∀ a, p.1 = some a → (if p.1.isNone then tr else tl) = tl := fun a h => by rw [h]; rfl
  generalize (if p.1.isNone then tr else tl) = t at hx ht
  unfold eqTerm at hx
  split at hx
  · next h =>
    have n1 := hp.1
    have n2 := hq.1
    rw [h.1] at n1
    rw [h.2] at n2
    simp only [World.val, value, SV.bool.injEq] at n1 n2
    have n1' : vl.val.isNull = false := by simpa using n1.symm
    have n2' : vr.val.isNull = false := by simpa using n2.symm
    split at hx
    · next a b ha hb =>
      rw [ht a ha] at hx
      exact core a b x ha hb n1' n2' (by simpa using hx)
    · cases hx
  · split at hx
    · next h =>
      simp only [Option.some.injEq] at hx
      subst hx
      have n1 := hp.1
      have n2 := hq.1
      rw [h.1] at n1
      rw [h.2] at n2
      simp only [World.val, value, SV.bool.injEq] at n1 n2
      have n1' : vl.val.isNull = true := by simpa using n1.symm
      have n2' : vr.val.isNull = true := by simpa using n2.symm
      rw [isNull_eq n1', isNull_eq n2']
      simp [World.val, value, Val.pyEq, Val.isNull]
    · have np : p.1 = none → vl.val = .null := fun h => by
        cases hn : vl.val.isNull with
        | true => exact isNull_eq hn
        | false => obtain ⟨a, e, -⟩ := hp.2 hn; rw [h] at e; cases e
      have nq : q.1 = none → vr.val = .null := fun h => by
        cases hn : vr.val.isNull with
        | true => exact isNull_eq hn
        | false => obtain ⟨a, e, -⟩ := hq.2 hn; rw [h] at e; cases e
      have h1 := hp.1
      have h2 := hq.1
      simp only [World.val] at h1 h2
      split at hx
      · next h =>
        simp only [Option.some.injEq] at hx
        subst hx
        rw [np h, pyEq_null_left]
        simp [World.val, value, unSem, h2, SV.asBool]
      · next a h h' =>
        simp only [Option.some.injEq] at hx
        subst hx
        rw [nq h', pyEq_null_right]
        simp [World.val, value, unSem, h1, SV.asBool]
      · next a b ha hb =>
        simp only [Option.map_eq_some_iff] at hx
        obtain ⟨y, hy, rfl⟩ := hx
        rw [ht a ha] at hy
        have u : W.val I β (.bin .and (.bin .eq p.2 q.2) (.bin .imp p.2 y)) =
            .bool ((!vl.val.isNull == !vr.val.isNull) && (vl.val.isNull || (W.val I β y).asBool)) := by
          simp only [World.val, value, h1, h2, binSem, SV.asBool, SV.bool.injEq, Bool.not_not]
          congr 2
          rw [Bool.eq_iff_iff]; simp
        rw [u]
        cases n1 : vl.val.isNull <;> cases n2 : vr.val.isNull
        · rw [core a b y ha hb n1 n2 (by simpa using hy)]
          simp [SV.asBool]
        · rw [isNull_eq n2, pyEq_null_right, n1]; rfl
        · rw [isNull_eq n1, pyEq_null_left, n2]; rfl
        · rw [isNull_eq n1, pyEq_null_left, n2]; rfl

theorem roundAway_eq (q : Rat) : roundNearestAway q = roundAway q := by
  unfold roundNearestAway roundAway
  by_cases h : 0 ≤ q
  · simp [h]
  · simp only [ge_iff_le, h, if_false, Rat.ceil_eq_neg_floor_neg]
    rw [show -(q - 1/2) = -q + 1/2 by ring]

theorem roundAway_int (i : Int) : roundAway (i : Rat) = i := by
  have key : ∀ j : Int, ((j : Rat) + 1/2).floor = j := by
    intro j
    have h1 := Rat.floor_le ((j : Rat) + 1/2)
    have h2 := Rat.lt_floor_add_one ((j : Rat) + 1/2)
    generalize ((j : Rat) + 1/2).floor = k at h1 h2
    have h3 : (k : Rat) < j + 1 := by linarith
    have h4 : (j : Rat) < k + 1 := by push_cast at h2; linarith
    have h3' : k < j + 1 := by exact_mod_cast h3
    have h4' : j < k + 1 := by exact_mod_cast h4
    omega
  unfold roundAway
  split
  · exact key i
  · have := key (-i)
    push_cast at this
    rw [this]; omega

/-- unary operators -/
theorem unTerm_value {op : UnOp} {τ : Ty} {t : Option Ty} {v : Val} {w : TV} (hv : VT W.D W.objTy W.heap τ v)
    (ho : unOk op (some τ) t) (hw : unaryOp op t v = .ok w) {a x : Smt}
    (ha : W.val I β a = rep W.D W.ref v (some τ)) (hx : unTerm op (some τ) a = some x) :
    W.val I β x = W.rp w := by
  simp only [World.val] at ha
  cases op <;> simp only [unOk, Option.some.injEq] at ho
  case minus | plus =>
    obtain ⟨rfl | rfl, rfl⟩ := ho <;> obtain ⟨i, rfl⟩ := hv <;>
    · simp only [unaryOp, mkValue_eq_ok] at hw
      obtain ⟨-, rfl⟩ := hw
      simp only [unTerm, Option.some.injEq] at hx
      subst hx
      simp [World.val, World.rp, value, ha, rep, unSem, SV.asInt, SV.asRat]
  case abs =>
    obtain ⟨rfl | rfl, rfl⟩ := ho <;> obtain ⟨i, rfl⟩ := hv <;>
    · simp only [unaryOp, mkValue_eq_ok] at hw
      obtain ⟨-, rfl⟩ := hw
      simp only [unTerm, Option.some.injEq] at hx
      subst hx
      simp only [World.val, World.rp, value, ha, rep, unSem, SV.asInt, SV.asRat]
      try (congr 1; split <;> omega)
  case logicalNot =>
    obtain ⟨rfl, rfl⟩ := ho
    obtain ⟨i, rfl⟩ := hv
    simp only [unaryOp, mkValue_eq_ok] at hw
    obtain ⟨-, rfl⟩ := hw
    simp only [unTerm, Option.some.injEq] at hx
    subst hx
    simp [World.val, World.rp, value, ha, rep, unSem, SV.asBool]
  case strLen =>
    obtain ⟨rfl | rfl, rfl⟩ := ho <;> obtain ⟨i, rfl⟩ := hv <;>
    · simp only [unaryOp, mkValue_eq_ok] at hw
      obtain ⟨-, rfl⟩ := hw
      simp only [unTerm, Option.some.injEq] at hx
      subst hx
      simp [World.val, World.rp, value, ha, rep, unSem, SV.asStr]
  case arrLen =>
    obtain ⟨⟨id, e, lo, hi, rfl⟩, rfl⟩ := ho
    obtain ⟨es, vs, rfl, -⟩ := vt_arr hv
    simp only [unaryOp, mkValue_eq_ok] at hw
    obtain ⟨-, rfl⟩ := hw
    simp only [unTerm, Option.some.injEq] at hx
    subst hx
    simp [World.val, World.rp, value, ha, rep, unSem, SV.asSeq, repL_eq_map]
  case toInt =>
    obtain ⟨rfl | rfl, rfl⟩ := ho <;> obtain ⟨i, rfl⟩ := hv <;>
    · simp only [unaryOp, mkValue_eq_ok] at hw
      obtain ⟨-, rfl⟩ := hw
      simp only [unTerm, Option.some.injEq] at hx
      subst hx
      simp [World.val, World.rp, value, ha, rep, unSem, SV.asRat, roundAway_int, roundAway_eq]
  case toDec =>
    obtain ⟨rfl | rfl, rfl⟩ := ho <;> obtain ⟨i, rfl⟩ := hv <;>
    · simp only [unaryOp, mkValue_eq_ok] at hw
      obtain ⟨-, rfl⟩ := hw
      simp only [unTerm, Option.some.injEq] at hx
      subst hx
      simp [World.val, World.rp, value, ha, rep, unSem, SV.asRat]

end Verif.Lemmas.Vcg
