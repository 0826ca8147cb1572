import Verif.Lemmas.Vcg.Ops2
/-! Terms made for operators mean what the operators compute: binary operators. -/
namespace Verif.Lemmas.Vcg
open Verif.Model Verif.Spec

variable {W : World} {I : Interp} {β : Nat → Int}

theorem powInt_value {a : Smt} {i : Int} (ha : W.val I β a = .int i) (n : Nat) :
    W.val I β (powTerm .mulInt a n) = .int (i ^ (n + 1)) := by
  induction n with
  | zero => simpa [powTerm] using ha
  | succ n ih =>
    simp only [World.val] at ha ih
    simp only [World.val, powTerm, value, ih, ha, binSem, SV.asInt]
    rw [pow_succ i (n + 1)]

theorem powReal_value {a : Smt} {i : Rat} (ha : W.val I β a = .real i) (n : Nat) :
    W.val I β (powTerm .mulReal a n) = .real (i ^ (n + 1)) := by
  induction n with
  | zero => simpa [powTerm] using ha
  | succ n ih =>
    simp only [World.val] at ha ih
    simp only [World.val, powTerm, value, ih, ha, binSem, SV.asRat]
    rw [pow_succ i (n + 1)]

theorem tmod_of_remainder {x y m : Int} (h : remainder x y = some m) : m = x.tmod y := by
  have hy : y ≠ 0 := by rintro rfl; simp [remainder, pyNatMod] at h
  have hb : y.natAbs ≠ 0 := by omega
  have e : x.tmod y = if 0 ≤ x then ((x.natAbs % y.natAbs : Nat) : Int)
      else -((x.natAbs % y.natAbs : Nat) : Int) := by
    cases x with
    | ofNat m => cases y <;> simp [Int.tmod]
    | negSucc m =>
      have : ¬ (0 ≤ Int.negSucc m) := by omega
      cases y <;> simp [Int.tmod]
  unfold remainder pyNatMod at h
  simp only [hb, if_false, ge_iff_le] at h
  rw [e]
  split at h <;> simp_all

/-- the elements of an array with their types -/
theorem arr_elem {id e lo hi} {vs : List (Option Ty × Val)} (h : VT W.D W.objTy W.heap (.arr id e lo hi) (.arr vs)) :
    ∀ x ∈ vs, x.1 = some e ∧ x.2.isNull = false ∧ VT W.D W.objTy W.heap e x.2 := by
  intro x hx
  obtain ⟨es, vs', heq, hall, hev⟩ := vt_arr h
  cases heq
  obtain ⟨i, hi⟩ := List.mem_iff_getElem?.1 hx
  obtain ⟨fe, hm, he⟩ := elems_get hev hi
  have hf := allok_mem hall hm
  obtain ⟨ht, hn⟩ := fok_typ W.hh hf he
  simp only [TV.mk.injEq, and_true] at ht
  rw [ht] at he
  exact ⟨ht, hn, fok_vt fe e x.2 hf he⟩

/-- binary operators other than `==` and `!=` -/
theorem binTerm_value {op : BinOp} {σ τ : Ty} {t : Option Ty} {l r : Expr} {vl vr w : TV}
    (htl : l.typ = some σ) (tl : vl.typ = some σ) (tr : vr.typ = some τ)
    (hl : VT W.D W.objTy W.heap σ vl.val) (hr : VT W.D W.objTy W.heap τ vr.val)
    (ho : binOk op (some σ) (some τ) t)
    (hst : ∀ v, W.trEnv.static r = some v → vr.val = v)
    (hin : op = .arrContains → ∃ id lo hi, τ = .arr id σ lo hi)
    (hw : binaryOp W.rx op t vl vr = .ok w) {a b x : Smt} (ha : W.val I β a = W.rp vl)
    (hb : W.val I β b = W.rp vr) (hx : binTerm W.trEnv op l r a b = some x) (hI : IOk W I) :
    W.val I β x = W.rp w := by
  classical
  simp only [World.val, World.rp, tl, tr] at ha hb
  cases op <;> simp only [binOk, Option.some.injEq] at ho
  case eq | neq => simp [binTerm] at hx
  case xor =>
    obtain ⟨rfl, rfl, rfl⟩ := ho
    obtain ⟨i, hi⟩ := hl
    obtain ⟨j, hj⟩ := hr
    simp only [binaryOp, hi, hj, mkValue_eq_ok] at hw
    obtain ⟨-, rfl⟩ := hw
    simp only [binTerm, Option.some.injEq] at hx
    subst hx
    simp [World.val, World.rp, value, ha, hb, hi, hj, rep, binSem, SV.asBool]
  case lt | leq | gt | geq =>
    obtain ⟨rfl | rfl, rfl, rfl⟩ := ho <;> obtain ⟨i, hi⟩ := hl <;> obtain ⟨j, hj⟩ := hr <;>
    · simp only [binaryOp, hi, hj, numPair, mkValue_eq_ok] at hw
      obtain ⟨-, rfl⟩ := hw
      simp only [binTerm, Option.some.injEq] at hx
      subst hx
      simp only [World.val, World.rp, value, ha, hb, hi, hj, rep, binSem, SV.asRat, compareNum, SV.bool.injEq]
  case strContains =>
    obtain ⟨h1, h2, rfl⟩ := ho
    obtain ⟨s, hs⟩ := vt_str h1 hl
    obtain ⟨s', hs'⟩ := vt_str h2 hr
    simp only [binaryOp, hs, hs', mkValue_eq_ok] at hw
    obtain ⟨-, rfl⟩ := hw
    simp only [binTerm, Option.some.injEq] at hx
    subst hx
    simp only [World.val, World.rp, value, ha, hb, hs, hs', rep, binSem, SV.asStr, SV.bool.injEq]
    rw [Bool.eq_iff_iff, infix_iff, decide_eq_true_iff]
    constructor
    · rintro ⟨p, q, h⟩; exact ⟨p, q, h.symm⟩
    · rintro ⟨p, q, h⟩; exact ⟨p, q, h.symm⟩
  case startsWith =>
    obtain ⟨h1, h2, rfl⟩ := ho
    obtain ⟨s, hs⟩ := vt_str h1 hl
    obtain ⟨s', hs'⟩ := vt_str h2 hr
    simp only [binaryOp, hs, hs', mkValue_eq_ok] at hw
    obtain ⟨-, rfl⟩ := hw
    simp only [binTerm, Option.some.injEq] at hx
    subst hx
    simp only [World.val, World.rp, value, ha, hb, hs, hs', rep, binSem, SV.asStr, SV.bool.injEq]
    rw [Bool.eq_iff_iff, List.isPrefixOf_iff_prefix, decide_eq_true_iff]
  case endsWith =>
    obtain ⟨h1, h2, rfl⟩ := ho
    obtain ⟨s, hs⟩ := vt_str h1 hl
    obtain ⟨s', hs'⟩ := vt_str h2 hr
    simp only [binaryOp, hs, hs', mkValue_eq_ok] at hw
    obtain ⟨-, rfl⟩ := hw
    simp only [binTerm, Option.some.injEq] at hx
    subst hx
    simp only [World.val, World.rp, value, ha, hb, hs, hs', rep, binSem, SV.asStr, SV.bool.injEq]
    rw [Bool.eq_iff_iff, List.isSuffixOf_iff_suffix, decide_eq_true_iff]
  case regex =>
    obtain ⟨h1, h2, rfl⟩ := ho
    obtain ⟨s, hs⟩ := vt_str h1 hl
    obtain ⟨s', hs'⟩ := vt_str h2 hr
    simp only [binaryOp, hs, hs', mkValue_eq_ok] at hw
    obtain ⟨-, rfl⟩ := hw
    simp only [binTerm] at hx
    split at hx
    · next s'' h =>
      have := hst _ h
      rw [hs'] at this
      cases this
      simp only [Option.some.injEq] at hx
      subst hx
      simp [World.val, World.rp, value, ha, hs, rep, SV.asStr, hI.rx]
    · cases hx
  case arrContains =>
    obtain ⟨-, rfl⟩ := ho
    obtain ⟨id, lo, hi, rfl⟩ := hin rfl
    obtain ⟨es, vs, hvs, -⟩ := vt_arr hr
    simp only [binaryOp, hvs, mkValue_eq_ok] at hw
    obtain ⟨-, rfl⟩ := hw
    simp only [binTerm, Option.some.injEq] at hx
    subst hx
    rw [hvs] at hr
    have hel := arr_elem hr
    simp only [World.val, World.rp, value, ha, hb, hvs, rep, binSem, SV.asSeq, SV.bool.injEq, repL_eq_map, tl]
    rw [Bool.eq_iff_iff, decide_eq_true_iff, List.any_eq_true, List.mem_map]
    constructor
    · rintro ⟨y, hm, he⟩
      refine ⟨y, hm, ?_⟩
      obtain ⟨h1, h2, h3⟩ := hel y hm
      have e := (vt_eq W.hh W.fn W.hr hl h3).2 (by rw [← he, h1])
      obtain ⟨yt, yv⟩ := y
      simp only at h1
      subst h1
      simpa [eqTV] using e
    · rintro ⟨y, hm, he⟩
      refine ⟨y, hm, ?_⟩
      obtain ⟨h1, h2, h3⟩ := hel y hm
      obtain ⟨yt, yv⟩ := y
      simp only at h1
      subst h1
      simp only [eqTV, beq_self_eq_true, Bool.true_and] at he
      exact ((vt_eq W.hh W.fn W.hr hl h3).1 he).symm
  case plus =>
    rcases ho with ⟨ha', rfl, rfl⟩ | ⟨h1, h2, rfl⟩
    · rcases ha' with rfl | rfl <;> obtain ⟨i, hi⟩ := hl <;> obtain ⟨j, hj⟩ := hr <;>
      · simp only [binaryOp, hi, hj, arith, numPair, mkValue_eq_ok] at hw
        obtain ⟨-, rfl⟩ := hw
        simp only [binTerm, htl, arithTerm, Option.some.injEq] at hx
        subst hx
        simp [World.val, World.rp, value, ha, hb, hi, hj, rep, binSem, SV.asRat, SV.asInt]
    · obtain ⟨s, hs⟩ := vt_str h1 hl
      obtain ⟨s', hs'⟩ := vt_str h2 hr
      simp only [binaryOp, hs, hs', mkValue_eq_ok] at hw
      obtain ⟨-, rfl⟩ := hw
      have : x = .bin .concat a b := by
        rcases h1 with h1 | h1 <;> cases h1 <;> simp only [binTerm, htl, Option.some.injEq] at hx <;> exact hx.symm
      subst this
      simp [World.val, World.rp, value, ha, hb, hs, hs', rep, binSem, SV.asStr]
  case minus | times =>
    obtain ⟨ha', rfl, rfl⟩ := ho
    rcases ha' with rfl | rfl <;> obtain ⟨i, hi⟩ := hl <;> obtain ⟨j, hj⟩ := hr <;>
    · simp only [binaryOp, hi, hj, arith, numPair, mkValue_eq_ok] at hw
      obtain ⟨-, rfl⟩ := hw
      simp only [binTerm, htl, arithTerm, Option.some.injEq] at hx
      subst hx
      simp [World.val, World.rp, value, ha, hb, hi, hj, rep, binSem, SV.asRat, SV.asInt]
  case divide =>
    obtain ⟨ha', rfl, rfl⟩ := ho
    rcases ha' with rfl | rfl <;> obtain ⟨i, hi⟩ := hl <;> obtain ⟨j, hj⟩ := hr <;>
      simp only [binaryOp, hi, hj, numPair] at hw <;>
      simp only [binTerm, htl, arithTerm, Option.some.injEq] at hx <;> subst hx
    · split at hw
      · cases hw
      · next q hq =>
        simp only [mkValue_eq_ok] at hw
        obtain ⟨-, rfl⟩ := hw
        unfold pyFloorDiv at hq
        split at hq
        · cases hq
        · simp only [Option.some.injEq] at hq
          subst hq
          simp [World.val, World.rp, value, ha, hb, hi, hj, rep, binSem, SV.asInt]
    · split at hw
      · cases hw
      · simp only [mkValue_eq_ok] at hw
        obtain ⟨-, rfl⟩ := hw
        simp [World.val, World.rp, value, ha, hb, hi, hj, rep, binSem, SV.asRat]
  case remainder =>
    obtain ⟨rfl, rfl, rfl⟩ := ho
    obtain ⟨i, hi⟩ := hl
    obtain ⟨j, hj⟩ := hr
    simp only [binaryOp, hi, hj] at hw
    simp only [binTerm, htl, Option.some.injEq] at hx
    subst hx
    split at hw
    · cases hw
    · next m hm =>
      simp only [mkValue_eq_ok] at hw
      obtain ⟨-, rfl⟩ := hw
      simp [World.val, World.rp, value, ha, hb, hi, hj, rep, binSem, SV.asInt, tmod_of_remainder hm]
  case power =>
    simp only [binTerm] at hx
    split at hx
    · next i hi =>
      have hv := hst _ hi
      split at hx
      · cases hx
      next hneg =>
      obtain ⟨ha', rfl, rfl⟩ := ho
      rcases ha' with rfl | rfl <;> obtain ⟨j, hj⟩ := hl <;> simp only [binaryOp, hj, hv] at hw
      · rw [if_neg hneg] at hw
        simp only [mkValue_eq_ok] at hw
        obtain ⟨-, rfl⟩ := hw
        have hA : W.val I β a = .int j := by simp [World.val, ha, hj, rep]
        generalize i.toNat = n at *
        cases n with
        | zero =>
          simp only [htl, Option.some.injEq] at hx
          subst hx
          simp [World.val, World.rp, value, rep]
        | succ n =>
          simp only [htl, Option.some.injEq] at hx
          subst hx
          rw [powInt_value hA]
          simp [World.rp, rep]
      · rw [if_neg (fun h => hneg h.1), if_neg hneg] at hw
        simp only [mkValue_eq_ok] at hw
        obtain ⟨-, rfl⟩ := hw
        have hA : W.val I β a = .real j := by simp [World.val, ha, hj, rep]
        generalize i.toNat = n at *
        cases n with
        | zero =>
          simp only [htl, Option.some.injEq] at hx
          subst hx
          simp [World.val, World.rp, value, rep]
        | succ n =>
          simp only [htl, Option.some.injEq] at hx
          subst hx
          rw [powReal_value hA]
          simp [World.rp, rep]
    · cases hx
  case index =>
    obtain ⟨⟨id, e, lo, hi, rfl, rfl⟩, rfl⟩ := ho
    obtain ⟨i, hi'⟩ := hr
    obtain ⟨es, vs, hvs, hall, hev⟩ := vt_arr hl
    simp only [binaryOp, indexOp, hvs, hi', tl] at hw
    split at hw
    · cases hw
    next hneg =>
    split at hw
    · cases hw
    split at hw
    · cases hw
    split at hw
    · cases hw
    · next y hy =>
      simp only [mkValue_eq_ok] at hw
      obtain ⟨-, rfl⟩ := hw
      simp only [binTerm, Option.some.injEq] at hx
      subst hx
      rw [hvs] at hl
      obtain ⟨h1, -, -⟩ := arr_elem hl y (List.mem_iff_getElem?.2 ⟨_, hy⟩)
      simp only [World.val, World.rp, value, ha, hb, hvs, hi', rep, SV.asSeq, SV.asInt, repL_eq_map]
      rw [if_pos (by omega), List.getElem?_map, hy]
      simp [h1]

end Verif.Lemmas.Vcg
