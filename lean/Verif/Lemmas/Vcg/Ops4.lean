import Verif.Lemmas.Vcg.Ops3
/-! Terms made for field access and `oneof`. -/
namespace Verif.Lemmas.Vcg
open Verif.Model Verif.Spec

variable {W : World} {I : Interp} {β : Nat → Int}

/-- the field of a value -/
def fieldEval (heap : Nat → Option Fields) (v : Val) (n : String) : Ev TV :=
  match v with
  | .null => .err .nullDereference
  | .tup fs =>
    match fs.lookup n with
    | none => mkValue none .null
    | some v => .ok ⟨v.1, v.2⟩
  | .recv fs =>
    match fs.lookup n with
    | none => mkValue none .null
    | some v => v.expr.eval heap
  | _ => .crash .operand

theorem eval_field (env : EvEnv) (ctx : Ctx) (p : Expr) (n : String) (t : Ty) :
    Expr.eval env ctx (.field p n t) = (Expr.eval env ctx p).bind fun v => fieldEval env.heap v.val n := by
  simp only [Expr.eval]
  congr 1

/-- the field of an object that a reference leads to -/
theorem deref_repr (hI : IOk W I) {o : Nat} {fs : Fields} (ho : W.heap o = some fs) {r : RKey} {n : String} {s : Srt}
    (hs : refKey W.D r (.value n) = some s) {w : TV} (hw : fieldEval W.heap (.recv fs) n = .ok w)
    (hsort : ∀ x, fs.lookup n = some x → x.expr.eval W.heap = .ok w → w.val.isNull = false → HasSort W.D (W.rp w) s)
    {a d : Smt} (ha : W.val I β a = .int (W.ref fs))
    (hd : ((∃ s', refKey W.D r (.valid n) = some s') ∧ d = .field (.deref r a) (.valid n)) ∨
      (d = .bool true ∧ w.val.isNull = false)) :
    Repr W I β (some (.field (.deref r a) (.value n)), d) w := by
  simp only [World.val] at ha
  simp only [fieldEval] at hw
  have hx : w.val.isNull = false → ∃ x, fs.lookup n = some x ∧ x.expr.eval W.heap = .ok w := by
    intro hn
    cases hl : fs.lookup n with
    | none =>
      rw [hl] at hw
      simp only [mkValue_eq_ok] at hw
      obtain ⟨-, rfl⟩ := hw
      simp [Val.isNull] at hn
    | some x =>
      rw [hl] at hw
      exact ⟨x, rfl, hw⟩
  refine ⟨?_, fun hn => ⟨_, rfl, ?_⟩⟩
  · rcases hd with ⟨⟨s', hs'⟩, rfl⟩ | ⟨rfl, hn⟩
    · simp only [World.val, value, ha, SV.asInt, hI.access]
      refine access_valid W ho hs' _ ?_
      cases hn : w.val.isNull
      · simp only [Bool.not_false, true_iff]
        obtain ⟨x, h1, h2⟩ := hx hn
        exact ⟨x, w, h1, h2, hn⟩
      · simp only [Bool.not_true, Bool.false_eq_true, false_iff]
        rintro ⟨x, v, h1, h2, h3⟩
        rw [h1] at hw
        simp only at hw
        rw [h2] at hw
        cases hw
        rw [h3] at hn
        cases hn
    · simp [World.val, value, hn]
  · obtain ⟨x, h1, h2⟩ := hx hn
    simp only [World.val, value, ha, SV.asInt, hI.access]
    exact access_value W ho hs h1 h2 hn (hsort x h1 h2 hn)

/-- a component of an object -/
theorem obj_field {o u : Nat} {fs : Fields} (ho : W.heap o = some fs) (hu : W.objTy o = some u) {c : Comp}
    (hc : HasComp W.D u c) {w : TV} (hw : fieldEval W.heap (.recv fs) c.name = .ok w) :
    (c.optional = false → w.val.isNull = false) ∧ (w.val.isNull = false → HasSort W.D (W.rp w) c.ty.srt) := by
  obtain ⟨fs', hf', h1, h2⟩ := W.hh o u hu
  rw [ho] at hf'
  cases hf'
  obtain ⟨x, hx, hd⟩ := h1 c hc
  simp only [fieldEval, hx] at hw
  rcases hd with ⟨hopt, he⟩ | hf
  · rw [he, eval_inull] at hw
    cases hw
    exact ⟨fun h => (by rw [hopt] at h; cases h), fun h => (by simp [Val.isNull] at h)⟩
  · obtain ⟨t, hn⟩ := fok_typ W.hh hf hw
    refine ⟨fun _ => hn, fun _ => ?_⟩
    rw [t] at hw
    rw [World.rp, t]
    exact rep_sort W.hh W.hab x.expr c.ty w.val hf hw

theorem obj_missing {o u : Nat} {fs : Fields} (ho : W.heap o = some fs) (hu : W.objTy o = some u) {n : String}
    (hc : ∀ c, HasComp W.D u c → c.name ≠ n) {w : TV} (hw : fieldEval W.heap (.recv fs) n = .ok w) :
    w.val.isNull = true := by
  obtain ⟨fs', hf', h1, h2⟩ := W.hh o u hu
  rw [ho] at hf'
  cases hf'
  cases hl : fs.lookup n with
  | none =>
    simp only [fieldEval, hl, mkValue_eq_ok] at hw
    obtain ⟨-, rfl⟩ := hw
    rfl
  | some x =>
    obtain ⟨c, h3, h4⟩ := h2 n (by simp [hl])
    exact absurd h4 (hc c h3)

theorem find_name {D : Decls} (wf : WFDecls D) (un : UniqueNames D) {m : Nat} {c : Comp} (h : HasComp D m c) :
    (D.allComponents m).find? (·.name == c.name) = some c := by
  have hm := (mem_allComponents wf m c).2 h
  cases hf : (D.allComponents m).find? (·.name == c.name) with
  | none =>
    rw [List.find?_eq_none] at hf
    exact absurd (hf c hm) (by simp)
  | some d =>
    obtain ⟨h1, h2⟩ := find_mem hf
    rw [un m d c ((mem_allComponents wf m d).1 h1) h h2]

/-- how many members of a union have a field -/
theorem count_members {D : Decls} (ms : List Nat) (n : String) (i : FieldInfo) (hi : (D.fieldMap ms).lookup n = some i) :
    i.count = ms.length ↔ ∀ m ∈ ms, ∃ c ∈ D.allComponents m, c.name = n := by
  have hd := fieldMap_describes D ms n
  rw [hi] at hd
  obtain ⟨-, -, -, -, hc⟩ := hd
  rw [hc]
  have gen : ∀ ms : List Nat, ((entered D ms).filter (·.name == n)).length ≤ ms.length ∧
      (((entered D ms).filter (·.name == n)).length = ms.length ↔ ∀ m ∈ ms, ∃ c ∈ D.allComponents m, c.name = n) := by
    intro ms
    induction ms with
    | nil => simp [entered]
    | cons m ms ih =>
      have e : entered D (m :: ms) = firstOfName [] (D.allComponents m) ++ entered D ms := by simp [entered]
      rw [e, List.filter_append, List.length_append, firstOfName_count]
      by_cases h : ∃ c ∈ D.allComponents m, c.name = n
      · simp only [List.not_mem_nil, not_false_eq_true, true_and, h, if_true, List.length_cons, List.mem_cons,
          forall_eq_or_imp]
        rw [← ih.2]
        omega
      · simp only [List.not_mem_nil, not_false_eq_true, true_and, h, if_false, List.length_cons, List.mem_cons,
          forall_eq_or_imp, false_and, iff_false]
        omega
  exact (gen ms).2

theorem fieldTerm_value (hI : IOk W I) {τ : Ty} {v : Val} (hv : VT W.D W.objTy W.heap τ v) {n : String} {ty : Ty}
    (hf : fieldOk W.D (some τ) n ty) (hc : ∀ id ms, τ = .union id ms → NoClash W.D ms n ty) {a : Smt} {p : TrPair}
    (hp : fieldTerm W.D (some τ) a n = some p) (ha : W.val I β a = rep W.D W.ref v (some τ)) {w : TV}
    (hw : fieldEval W.heap v n = .ok w) : Repr W I β p w := by
  cases τ <;> simp only [fieldOk] at hf
  case tup t =>
    obtain ⟨c, hc1, rfl⟩ := hf
    obtain ⟨fs, vs, cs, rfl, hcs, hfo, hev⟩ := vt_tup hv
    have hfields : W.D.fields t = cs := by simp [Decls.fields, hcs]
    simp only [fieldTerm, hc1, Option.map_some, Option.some.injEq] at hp
    subst hp
    rw [hfields] at hc1
    simp only [World.val] at ha
    simp only [fieldEval] at hw
    have hkv : tupleKey W.D t (.value n) = some c.ty.srt := by simp [tupleKey, hfields, hc1]
    rcases repF_cases (ref := W.ref) W.hh hfo hev hc1 with ⟨h1, h2, h3⟩ | ⟨v', h1, h2, h3, h4⟩
    · simp only [h1, Ev.ok.injEq] at hw
      subst hw
      have hkd : tupleKey W.D t (.valid n) = some .bool := by simp [tupleKey, hfields, hc1, h3]
      refine ⟨?_, fun h => by simp [Val.isNull] at h⟩
      simp [World.val, h3, value, ha, rep, hkd, h2, Val.isNull]
    · simp only [h1, Ev.ok.injEq] at hw
      subst hw
      refine ⟨?_, fun h => ⟨_, rfl, ?_⟩⟩
      · cases hopt : c.optional with
        | false => simp [World.val, value, h2]
        | true =>
          have hkd : tupleKey W.D t (.valid n) = some .bool := by simp [tupleKey, hfields, hc1, hopt]
          simp [World.val, value, ha, rep, hkd, h2, h3]
      · simp [World.val, value, ha, rep, hkv, h3, World.rp]
  case record t =>
    simp only [fieldTerm, Option.map_eq_some_iff] at hp
    obtain ⟨c, hc1, rfl⟩ := hp
    obtain ⟨hcomp, rfl⟩ := component_hasComp W.wf hc1
    obtain ⟨o, u, fs, rfl, ho, hu, hr⟩ := vt_ref (Or.inl rfl) hv
    simp only [Referable] at hr
    obtain ⟨h1, h2⟩ := obj_field ho hu (hasComp_inherit hr hcomp) hw
    refine deref_repr hI ho (s := c.ty.srt) (by simp [refKey, hc1]) hw (fun _ _ _ hn => h2 hn) (by rw [ha, rep]) ?_
    cases hopt : c.optional with
    | false => exact Or.inr ⟨by simp, h1 hopt⟩
    | true => exact Or.inl ⟨⟨.bool, by simp [refKey, hc1, hopt]⟩, by simp⟩
  case union id ms =>
    obtain ⟨i, τ, hi, hτ, rfl⟩ := hf
    simp only [fieldTerm, hi, Option.map_some, Option.some.injEq] at hp
    subst hp
    have hd := fieldMap_describes W.D ms n
    rw [hi] at hd
    obtain ⟨g1, g2, g3, -, -⟩ := hd
    have hcomp := g3 τ hτ i.comp g1 g2
    obtain ⟨o, u, fs, rfl, ho, hu, m, hm, hr⟩ := vt_ref (Or.inr rfl) hv
    have hty := union_field W.wf W.un hi hτ (hc id ms rfl) hm hr
    refine deref_repr hI ho (s := τ.srt) (by simp [refKey, hi, hτ]) hw ?_ (by rw [ha, rep]) ?_
    · intro x hx hxe hn
      by_cases hex : ∃ c, HasComp W.D u c ∧ c.name = n
      · obtain ⟨c, hcu, rfl⟩ := hex
        rw [← hcomp, ← hty c hcu rfl]
        exact (obj_field ho hu hcu hw).2 hn
      · rw [obj_missing ho hu (fun c h h' => hex ⟨c, h, h'⟩) hw] at hn
        cases hn
    · have hcnt := count_members ms n i hi
      by_cases hcond : i.count ≠ ms.length ∨ W.D.optionalInAny ms n = true
      · refine Or.inl ⟨⟨.bool, ?_⟩, by rw [if_pos hcond]⟩
        simp only [refKey, hi, Option.bind_some, hτ, Option.map_some]
        rw [if_neg]
        intro hall
        rcases hcond with h | h
        · exact h (hcnt.2 fun m hm => (hall m hm).imp fun c hc => ⟨hc.1, hc.2.1⟩)
        · simp only [Decls.optionalInAny, List.any_eq_true, Option.any_eq_true] at h
          obtain ⟨m', hm', c, hf, hopt⟩ := h
          obtain ⟨c', hc', hn', ho'⟩ := hall m' hm'
          have hc'' := (mem_allComponents W.wf m' c').1 hc'
          have := find_name W.wf W.un hc''
          rw [hn', hf] at this
          cases this
          rw [ho'] at hopt
          cases hopt
      · refine Or.inr ⟨by rw [if_neg hcond], ?_⟩
        simp only [not_or, Decidable.not_not, Bool.not_eq_true] at hcond
        obtain ⟨c, hca, rfl⟩ := hcnt.1 hcond.1 m hm
        have hcm := (mem_allComponents W.wf m c).1 hca
        have hopt : c.optional = false := by
          cases hopt : c.optional with
          | false => rfl
          | true =>
            have : W.D.optionalInAny ms c.name = true := by
              simp only [Decls.optionalInAny, List.any_eq_true, Option.any_eq_true]
              exact ⟨m, hm, c, find_name W.wf W.un hcm, hopt⟩
            rw [hcond.2] at this
            cases this
        exact (obj_field ho hu (hasComp_inherit hr hcm) hw).1 hopt

/-! ### `oneof` -/

theorem countTrue_bools (bs : List Bool) : countTrue (bs.map .bool) = bs.count true := by
  induction bs with
  | nil => rfl
  | cons b bs ih =>
    simp only [List.map_cons, countTrue, ih, List.count_cons]
    cases b <;> simp [Val.pyEq, Val.num, Nat.add_comm]

theorem pick_zero (k s : Nat) (bs : List Bool) (h : k < s) :
    ((bs.zipIdx s).all fun x => if x.2 = k then x.1 else !x.1) = (bs.count true == 0) := by
  induction bs generalizing s with
  | nil => rfl
  | cons b bs ih =>
    simp only [List.zipIdx_cons, List.all_cons, ih (s + 1) (by omega), List.count_cons]
    rw [if_neg (by omega)]
    cases b <;> simp

theorem pick_one (s : Nat) (bs : List Bool) :
    (∃ k, s ≤ k ∧ k < s + bs.length ∧ ((bs.zipIdx s).all fun x => if x.2 = k then x.1 else !x.1) = true) ↔
      bs.count true = 1 := by
  induction bs generalizing s with
  | nil =>
    simp only [List.length_nil, List.count_nil]
    constructor
    · rintro ⟨k, h1, h2, -⟩; omega
    · intro h; omega
  | cons b bs ih =>
    cases b with
    | true =>
      constructor
      · rintro ⟨k, h1, h2, h3⟩
        simp only [List.zipIdx_cons, List.all_cons, Bool.and_eq_true] at h3
        have hk : s = k := by
          by_contra hne
          rw [if_neg hne] at h3
          simp at h3
        subst hk
        rw [pick_zero _ _ _ (by omega)] at h3
        have := h3.2
        simp only [beq_iff_eq] at this
        rw [List.count_cons]
        simp [this]
      · intro h
        rw [List.count_cons] at h
        refine ⟨s, le_refl _, by simp, ?_⟩
        simp only [List.zipIdx_cons, List.all_cons, if_true, Bool.true_and]
        rw [pick_zero _ _ _ (by omega)]
        simpa using h
    | false =>
      rw [show List.count true (false :: bs) = List.count true bs by simp, ← ih (s + 1)]
      constructor
      · rintro ⟨k, h1, h2, h3⟩
        simp only [List.zipIdx_cons, List.all_cons, Bool.and_eq_true] at h3
        have hk : s ≠ k := by
          rintro rfl
          simp at h3
        simp only [List.length_cons] at h2
        exact ⟨k, by omega, by omega, h3.2⟩
      · rintro ⟨k, h1, h2, h3⟩
        refine ⟨k, by omega, by simp only [List.length_cons]; omega, ?_⟩
        simp only [List.zipIdx_cons, List.all_cons, Bool.and_eq_true]
        rw [if_neg (by omega)]
        exact ⟨rfl, h3⟩

theorem or_value : ∀ (ps : List Smt) (bs : List Bool) (q : Smt) (c : Bool), W.val I β q = .bool c →
    ps.map (W.val I β) = bs.map .bool →
    W.val I β (ps.foldl (fun a b => .bin .or a b) q) = .bool (c || bs.any id) := by
  intro ps
  induction ps with
  | nil =>
    intro bs q c hq h
    cases bs with
    | nil => simpa using hq
    | cons => simp at h
  | cons p ps ih =>
    intro bs q c hq h
    cases bs with
    | nil => simp at h
    | cons b bs =>
      simp only [List.map_cons, List.cons.injEq] at h
      rw [List.foldl_cons, ih bs _ (c || b) ?_ h.2]
      · simp [Bool.or_assoc]
      · simp only [World.val] at hq h
        simp [World.val, value, binSem, hq, h.1, SV.asBool]

theorem oneofTerm_value {cs : List Smt} {bs : List Bool} (h : cs.map (W.val I β) = bs.map .bool) {x : Smt}
    (hx : oneofTerm cs = some x) : W.val I β x = .bool (bs.count true == 1) := by
  unfold oneofTerm at hx
  split at hx
  · cases hx
  · cases hx
    cases bs with
    | nil => simp at h
    | cons b bs =>
      cases bs with
      | cons => simp at h
      | nil =>
        simp only [List.map_cons, List.map_nil, List.cons.injEq, and_true] at h
        rw [h]
        cases b <;> rfl
  · cases hx
    cases bs with
    | nil => simp at h
    | cons b bs =>
      cases bs with
      | nil => simp at h
      | cons c bs =>
        cases bs with
        | cons => simp at h
        | nil =>
          simp only [List.map_cons, List.map_nil, List.cons.injEq, and_true, World.val] at h
          simp only [World.val, value, h.1, h.2, binSem, SV.asBool]
          cases b <;> cases c <;> rfl
  · simp only at hx
    have hlen : cs.length = bs.length := by simpa using congrArg List.length h
    -- one of the terms
    have hpick : ∀ k, W.val I β (conjTerm (cs.zipIdx.map fun y => if y.2 = k then y.1 else .un .not y.1)) =
        .bool (bs.zipIdx.all fun x => if x.2 = k then x.1 else !x.1) := by
      intro k
      rw [conj_value (bs := bs.zipIdx.map fun x => if x.2 = k then x.1 else !x.1)]
      · simp [List.all_map, Function.comp_def]
      · clear hx hlen
        rename_i n1 n2 n3
        clear n1 n2 n3
        rw [List.map_map, List.map_map]
        generalize 0 = s
        induction cs generalizing bs s with
        | nil => cases bs <;> simp_all
        | cons c cs ih =>
          cases bs with
          | nil => simp at h
          | cons b bs =>
            simp only [List.map_cons, List.cons.injEq] at h
            simp only [List.zipIdx_cons, List.map_cons, Function.comp_apply, List.cons.injEq]
            refine ⟨?_, ih h.2 (s + 1)⟩
            split
            · exact h.1
            · have h1 := h.1
              simp only [World.val] at h1
              simp [World.val, value, h1, unSem, SV.asBool]
    cases hr : List.range cs.length with
    | nil => simp [hr] at hx
    | cons k ks =>
      simp only [hr, List.map_cons, Option.some.injEq] at hx
      subst hx
      rw [or_value _ (ks.map fun k => bs.zipIdx.all fun x => if x.2 = k then x.1 else !x.1) _ _ (hpick k)]
      · congr 1
        rw [Bool.eq_iff_iff, beq_iff_eq, ← pick_one 0 bs]
        simp only [Bool.or_eq_true, List.any_map, List.any_eq_true, Function.comp_apply, id]
        have hmem : ∀ j, j ∈ List.range cs.length ↔ j < cs.length := fun j => List.mem_range
        rw [hr] at hmem
        constructor
        · rintro (h1 | ⟨j, hj, h1⟩)
          · exact ⟨k, Nat.zero_le _, by have := (hmem k).1 List.mem_cons_self; omega, h1⟩
          · exact ⟨j, Nat.zero_le _, by have := (hmem j).1 (List.mem_cons_of_mem _ hj); omega, h1⟩
        · rintro ⟨j, -, hj, h1⟩
          have := (hmem j).2 (by omega)
          rcases List.mem_cons.1 this with rfl | hj
          · exact Or.inl h1
          · exact Or.inr ⟨j, hj, h1⟩
      · rw [List.map_map, List.map_map]
        apply List.map_congr_left
        intro j _
        exact hpick j

end Verif.Lemmas.Vcg
