import Verif.Lemmas.Typing
/-! Type soundness of check expressions: the evaluation. -/
namespace Verif.Lemmas
open Verif.Model Verif.Spec

/-- permitted internal exceptions -/
def Perm (ai aq : Prop) (c : EvCrash) : Prop := (c = .indexError ∧ ai) ∨ (c = .quantifierNotBool ∧ aq)

/-- what an evaluation may give: a value of type `t`, not null if `d`; an error; or a permitted
exception -/
def Good (D : Decls) (objTy : Nat → Option Nat) (heap : Nat → Option Fields) (ai aq : Prop)
    (d : Prop) (t : Option Ty) : Ev TV → Prop
  | .ok v => TVok D objTy heap t v ∧ (d → v.val.isNull = false)
  | .err _ => True
  | .crash c => Perm ai aq c

variable {D : Decls} {objTy : Nat → Option Nat} {heap : Nat → Option Fields} {ai aq : Prop}

theorem good_bind {d t d' t'} {x : Ev TV} {f : TV → Ev TV}
    (hx : Good D objTy heap ai aq d t x)
    (hf : ∀ v, x = .ok v → TVok D objTy heap t v → (d → v.val.isNull = false) →
      Good D objTy heap ai aq d' t' (f v)) :
    Good D objTy heap ai aq d' t' (x.bind f) := by
  cases x with
  | ok v => exact hf v rfl hx.1 hx.2
  | err e => trivial
  | crash c => exact hx

/-- a freshly made value -/
theorem good_mk {d : Prop} {τ : Ty} {v : Val} (hn : v.isNull = false) (hv : VT D objTy heap τ v) :
    Good D objTy heap ai aq d (some τ) (mkValue (some τ) v) := by
  rw [show mkValue (some τ) v = .ok ⟨some τ, v⟩ by simp [mkValue, hn]]
  exact ⟨Or.inr ⟨τ, rfl, rfl, hn, hv⟩, fun _ => hn⟩

theorem good_null (t : Option Ty) {d : Prop} (hd : ¬ d) :
    Good D objTy heap ai aq d t (mkValue none .null) := by
  rw [show mkValue none .null = .ok ⟨none, .null⟩ by simp [mkValue, Val.isNull]]
  exact ⟨Or.inl rfl, fun h => absurd h hd⟩

theorem good_fok (hh : HeapOk D objTy heap) {fe : FExpr} {τ : Ty} {d : Prop}
    (h : fe = .inull ∨ FOk D objTy fe τ) (hd : d → FOk D objTy fe τ) :
    Good D objTy heap ai aq d (some τ) (fe.eval heap) := by
  obtain ⟨v, hv, ht, hn⟩ := fok_tvok hh h
  rw [hv]
  exact ⟨ht, fun h => hn (hd h)⟩

theorem tvok_nonnull {t : Option Ty} {v : TV} (h : TVok D objTy heap t v)
    (hn : ¬ v.val.isNull = true) : ∃ τ, t = some τ ∧ v.typ = some τ ∧ VT D objTy heap τ v.val := by
  rcases h with rfl | ⟨τ, h1, h2, -, h3⟩
  · exact absurd rfl hn
  · exact ⟨τ, h1, h2, h3⟩

theorem vt_arr {id e lo hi} {v : Val} (h : VT D objTy heap (.arr id e lo hi) v) :
    ∃ es vs, v = .arr vs ∧ AllOk D objTy es e ∧ evalElems heap es = .ok vs := by
  obtain ⟨fe, hf, hv⟩ := h
  cases fe <;> simp only [FOk, reduceCtorEq, false_and, or_self] at hf
  case arr t es =>
    obtain ⟨rfl, id', e', lo', hi', h1, h2⟩ := hf
    cases h1
    simp only [FExpr.eval, bind_eq_ok, mkValue_eq_ok, TV.mk.injEq, true_and] at hv
    obtain ⟨vs, h3, -, h4⟩ := hv
    exact ⟨es, vs, h4, h2, h3⟩
  case ref t o =>
    obtain ⟨rfl, o, u, -, -, h⟩ := hf
    exact h.elim

theorem vt_tup {t} {v : Val} (h : VT D objTy heap (.tup t) v) :
    ∃ fs vs cs, v = .tup vs ∧ D.tups[t]? = some cs ∧ FieldsOk D objTy fs cs ∧
      evalFields heap fs = .ok vs := by
  obtain ⟨fe, hf, hv⟩ := h
  cases fe <;> simp only [FOk, reduceCtorEq, false_and, or_self] at hf
  case arr t es =>
    obtain ⟨rfl, id', e', lo', hi', h1, h2⟩ := hf
    cases h1
  case tup t' fs =>
    obtain ⟨h1, cs, h2, h3⟩ := hf
    cases h1
    simp only [FExpr.eval, bind_eq_ok, mkValue_eq_ok, TV.mk.injEq, true_and] at hv
    obtain ⟨vs, h4, -, h5⟩ := hv
    exact ⟨fs, vs, cs, h5, h2, h3, h4⟩
  case ref t o =>
    obtain ⟨rfl, o, u, -, -, h⟩ := hf
    exact h.elim

theorem vt_ref {τ : Ty} (hτ : τ.cls = .record ∨ τ.cls = .union) {v : Val}
    (h : VT D objTy heap τ v) :
    ∃ o u fs, v = .recv fs ∧ heap o = some fs ∧ objTy o = some u ∧ Referable D u τ := by
  have h' : ∃ fe, FOk D objTy fe τ ∧ fe.eval heap = .ok ⟨some τ, v⟩ := by
    cases τ <;> simp only [Ty.cls, reduceCtorEq, or_self] at hτ <;> exact h
  obtain ⟨fe, hf, hv⟩ := h'
  cases fe <;> simp only [FOk] at hf
  case ref t o =>
    obtain ⟨rfl, o, u, rfl, h1, h2⟩ := hf
    simp only [FExpr.eval] at hv
    cases hf : heap o with
    | none => simp [hf] at hv
    | some fs =>
      simp only [hf, mkValue_eq_ok, TV.mk.injEq, true_and] at hv
      exact ⟨o, u, fs, hv.2, hf, h1, h2⟩
  case arr t es =>
    obtain ⟨rfl, id', e', lo', hi', rfl, h2⟩ := hf
    simp [Ty.cls] at hτ
  case neg | pos =>
    rcases hf with ⟨rfl, -⟩ | ⟨rfl, -⟩ <;> simp [Ty.cls] at hτ
  case enum | tup => obtain ⟨rfl, -⟩ := hf; simp [Ty.cls] at hτ
  all_goals subst hf; simp [Ty.cls] at hτ

theorem unary_good {op : UnOp} {a t : Option Ty} {v : TV} {d : Prop} (hv : TVok D objTy heap a v)
    (ho : unOk op a t) : Good D objTy heap ai aq d t (unary op t v) := by
  unfold unary
  by_cases hn : v.val.isNull = true
  · rw [if_pos hn]; trivial
  rw [if_neg hn]
  obtain ⟨τ, rfl, -, hv⟩ := tvok_nonnull hv hn
  cases op <;> simp only [unOk, Option.some.injEq] at ho
  case minus | plus | abs =>
    obtain ⟨rfl | rfl, rfl⟩ := ho <;> obtain ⟨i, hi⟩ := hv <;> rw [hi] <;>
      exact good_mk rfl ⟨_, rfl⟩
  case logicalNot =>
    obtain ⟨rfl, rfl⟩ := ho
    obtain ⟨i, hi⟩ := hv
    rw [hi]; exact good_mk rfl ⟨_, rfl⟩
  case strLen =>
    obtain ⟨rfl | rfl, rfl⟩ := ho <;> obtain ⟨i, hi⟩ := hv <;> rw [hi] <;>
      exact good_mk rfl ⟨_, rfl⟩
  case arrLen =>
    obtain ⟨⟨id, e, lo, hi, rfl⟩, rfl⟩ := ho
    obtain ⟨es, vs, hi, -⟩ := vt_arr hv
    rw [hi]; exact good_mk rfl ⟨_, rfl⟩
  case toInt | toDec =>
    obtain ⟨rfl | rfl, rfl⟩ := ho <;> obtain ⟨i, hi⟩ := hv <;> rw [hi] <;>
      exact good_mk rfl ⟨_, rfl⟩

theorem vt_str {a : Ty} (h : isStr (some a)) {v : Val} (hv : VT D objTy heap a v) :
    ∃ s, v = .str s := by
  rcases h with h | h <;> cases h <;> exact hv

theorem index_good (hh : HeapOk D objTy heap) {id e lo hi} {l r : TV} {d : Prop} (hai : ai)
    (htl : l.typ = some (.arr id e lo hi)) (hl : VT D objTy heap (.arr id e lo hi) l.val)
    (hr : VT D objTy heap .int r.val) :
    Good D objTy heap ai aq d (some e) (indexOp (some e) l.typ l.val r.val) := by
  obtain ⟨i, hi'⟩ := hr
  obtain ⟨es, vs, hvs, hall, hev⟩ := vt_arr hl
  simp only [indexOp, hvs, hi', htl]
  split
  · trivial
  split
  · trivial
  split
  · trivial
  split
  · exact Or.inl ⟨rfl, hai⟩
  · next x hx =>
    obtain ⟨fe, hm, he⟩ := elems_get hev hx
    have hf := allok_mem hall hm
    obtain ⟨v, hv, hn⟩ := fok_eval hh fe e hf
    rw [hv] at he
    simp only [Ev.ok.injEq, TV.mk.injEq] at he
    rw [← he.2]
    exact good_mk hn (fok_vt fe e v hf hv)

theorem arith_good {a : Ty} (ha : a = .int ∨ a = .dec) {fi fq} {l r : Val} {d : Prop}
    (hl : VT D objTy heap a l) (hr : VT D objTy heap a r) :
    Good D objTy heap ai aq d (some a) (arith (some a) fi fq l r) := by
  rcases ha with rfl | rfl <;> obtain ⟨i, rfl⟩ := hl <;> obtain ⟨j, rfl⟩ := hr <;>
    simp only [arith, numPair] <;> exact good_mk rfl ⟨_, rfl⟩

theorem binary_good (hh : HeapOk D objTy heap) {rx} {op : BinOp} {a b t : Option Ty} {l r : TV}
    {d : Prop} (hl : TVok D objTy heap a l) (hr : TVok D objTy heap b r) (ho : binOk op a b t)
    (hnl : ¬ (l.val.isNull && !op.allowsNull) = true)
    (hnr : ¬ (r.val.isNull && !op.allowsNull) = true)
    (hpow : op = .power → ∃ i, r.val = .int i ∧ 0 ≤ i) (hidx : op = .index → ai) :
    Good D objTy heap ai aq d t (binaryOp rx op t l r) := by
  cases op
  case eq | neq =>
    simp only [binOk] at ho
    subst ho
    exact good_mk rfl ⟨_, rfl⟩
  all_goals
    simp only [BinOp.allowsNull, Bool.not_false, Bool.and_true] at hnl hnr
    obtain ⟨σ, rfl, htl, hl⟩ := tvok_nonnull hl hnl
    obtain ⟨τ, rfl, htr, hr⟩ := tvok_nonnull hr hnr
    simp only [binOk, Option.some.injEq] at ho
  case xor =>
    obtain ⟨rfl, rfl, rfl⟩ := ho
    obtain ⟨i, hi⟩ := hl
    obtain ⟨j, hj⟩ := hr
    simp only [binaryOp, hi, hj]
    exact good_mk rfl ⟨_, rfl⟩
  case lt | leq | gt | geq =>
    obtain ⟨rfl | rfl, rfl, rfl⟩ := ho <;> obtain ⟨i, hi⟩ := hl <;> obtain ⟨j, hj⟩ := hr <;>
      simp only [binaryOp, hi, hj, numPair] <;> exact good_mk rfl ⟨_, rfl⟩
  case strContains | startsWith | endsWith | regex =>
    obtain ⟨h1, h2, rfl⟩ := ho
    obtain ⟨s, hs⟩ := vt_str h1 hl
    obtain ⟨s', hs'⟩ := vt_str h2 hr
    simp only [binaryOp, hs, hs']
    exact good_mk rfl ⟨_, rfl⟩
  case arrContains =>
    obtain ⟨⟨id, e, lo, hi, rfl⟩, rfl⟩ := ho
    obtain ⟨es, vs, hvs, -⟩ := vt_arr hr
    simp only [binaryOp, hvs]
    exact good_mk rfl ⟨_, rfl⟩
  case plus =>
    rcases ho with ⟨ha, rfl, rfl⟩ | ⟨h1, h2, rfl⟩
    · have := arith_good (ai := ai) (aq := aq) (d := d) (fi := (· + ·)) (fq := (· + ·)) ha hl hr
      rcases ha with rfl | rfl <;> obtain ⟨i, hi⟩ := hl <;> obtain ⟨j, hj⟩ := hr <;>
        simp only [hi, hj] at this <;>
        simp only [binaryOp, hi, hj] <;> exact this
    · obtain ⟨s, hs⟩ := vt_str h1 hl
      obtain ⟨s', hs'⟩ := vt_str h2 hr
      simp only [binaryOp, hs, hs']
      exact good_mk rfl ⟨_, rfl⟩
  case minus | times =>
    obtain ⟨ha, rfl, rfl⟩ := ho
    exact arith_good ha hl hr
  case divide =>
    obtain ⟨rfl | rfl, rfl, rfl⟩ := ho <;> obtain ⟨i, hi⟩ := hl <;> obtain ⟨j, hj⟩ := hr <;>
      simp only [binaryOp, hi, hj, numPair]
    · split
      · trivial
      · exact good_mk rfl ⟨_, rfl⟩
    · split
      · trivial
      · exact good_mk rfl ⟨_, rfl⟩
  case remainder =>
    obtain ⟨rfl, rfl, rfl⟩ := ho
    obtain ⟨i, hi⟩ := hl
    obtain ⟨j, hj⟩ := hr
    simp only [binaryOp, hi, hj]
    split
    · trivial
    · exact good_mk rfl ⟨_, rfl⟩
  case power =>
    obtain ⟨i, hi, h0⟩ := hpow rfl
    obtain ⟨rfl | rfl, rfl, rfl⟩ := ho <;> obtain ⟨j, hj⟩ := hl <;>
      simp only [binaryOp, hi, hj]
    · rw [if_neg (by omega)]
      exact good_mk rfl ⟨_, rfl⟩
    · rw [if_neg (fun h => by have := h.1; omega), if_neg (by omega)]
      exact good_mk rfl ⟨_, rfl⟩
  case index =>
    obtain ⟨⟨id, e, lo, hi, rfl, rfl⟩, rfl⟩ := ho
    exact index_good hh (hidx rfl) htl hl hr

theorem hasComp_inherit {t s : Nat} {c : Comp} (h : Extends D t s) (hc : HasComp D s c) :
    HasComp D t c := by
  obtain ⟨u, h1, h2⟩ := hc
  exact ⟨u, extends_trans h h1, h2⟩

/-- field access on a record object -/
theorem rec_field_good (hh : HeapOk D objTy heap) {o u : Nat} {fs : Fields} {n : String} {ty : Ty}
    {d : Prop} (hf : heap o = some fs) (hu : objTy o = some u)
    (hty : ∀ c, HasComp D u c → c.name = n → c.ty = ty)
    (hd : d → ∃ c, HasComp D u c ∧ c.name = n ∧ c.optional = false) :
    Good D objTy heap ai aq d (some ty)
      (match fs.lookup n with
        | none => mkValue none .null
        | some v => v.expr.eval heap) := by
  obtain ⟨fs', hf', h1, h2⟩ := hh o u hu
  rw [hf] at hf'
  cases hf'
  cases hl : fs.lookup n with
  | none =>
    apply good_null
    intro h
    obtain ⟨c, hc, rfl, -⟩ := hd h
    obtain ⟨x, hx, -⟩ := h1 c hc
    simp [hl] at hx
  | some x =>
    obtain ⟨c, hc, rfl⟩ := h2 n (by simp [hl])
    obtain ⟨x', hx', ho⟩ := h1 c hc
    rw [hl] at hx'
    cases hx'
    rw [← hty c hc rfl]
    refine good_fok hh (ho.imp (·.2) id) fun h => ?_
    obtain ⟨c', hc', hn, hopt⟩ := hd h
    obtain ⟨x', hx', ho'⟩ := h1 c' hc'
    rw [hn, hl] at hx'
    cases hx'
    rcases ho' with ⟨h, -⟩ | h
    · simp [hopt] at h
    · rw [hty c' hc' hn] at h
      rw [hty c hc rfl]
      exact h

/-- components of an object below a member of a union have the common type -/
theorem union_field (wf : WFDecls D) (un : UniqueNames D) {ms : List Nat} {n : String}
    {i : FieldInfo} {τ : Ty} (hi : (D.fieldMap ms).lookup n = some i) (hτ : i.ty = some τ)
    (hc : NoClash D ms n i.comp.ty) {u m : Nat} (hm : m ∈ ms) (hu : Extends D u m) :
    ∀ c, HasComp D u c → c.name = n → c.ty = i.comp.ty := by
  intro c hcu hcn
  have hd := fieldMap_describes D ms n
  rw [hi] at hd
  obtain ⟨h1, h2, h3, -, -⟩ := hd
  have hcomp := h3 τ hτ i.comp h1 h2
  by_cases hex : ∃ c', HasComp D m c' ∧ c'.name = n
  · obtain ⟨c', hc', hn'⟩ := hex
    have e : c = c' := un u c c' hcu (hasComp_inherit hu hc') (by rw [hcn, hn'])
    subst e
    obtain ⟨x, hx, hxn⟩ := firstOfName_repr (D.allComponents m) [] c
      ((mem_allComponents wf m c).2 hc') (by simp)
    have hxm := (firstOfName_mem _ _ hx).1
    rw [mem_allComponents wf] at hxm
    have e : c = x := un m c x hc' hxm hxn.symm
    subst e
    rw [h3 τ hτ c (by
      simp only [entered, List.mem_flatMap]
      exact ⟨m, hm, hx⟩) hcn, hcomp]
  · exact hc m hm (fun c' h h' => hex ⟨c', h, h'⟩) u hu c hcu hcn

theorem field_good (wf : WFDecls D) (un : UniqueNames D) (hh : HeapOk D objTy heap)
    {t : Option Ty} {v : TV} {n : String} {ty : Ty} (hv : TVok D objTy heap t v)
    (hf : fieldOk D t n ty) (hc : ∀ id ms, t = some (.union id ms) → NoClash D ms n ty) :
    Good D objTy heap ai aq (fieldDef D t n) (some ty)
      (match v.val with
        | .null => .err .nullDereference
        | .tup fs =>
          match fs.lookup n with
          | none => mkValue none .null
          | some v => .ok ⟨v.1, v.2⟩
        | .recv fs =>
          match fs.lookup n with
          | none => mkValue none .null
          | some v => v.expr.eval heap
        | _ => .crash .operand) := by
  rcases hv with rfl | ⟨τ, rfl, htyp, -, hv⟩
  · trivial
  cases τ <;> simp only [fieldOk] at hf
  case tup t =>
    obtain ⟨c, hc1, rfl⟩ := hf
    obtain ⟨fs, vs, cs, hval, hcs, hfo, hev⟩ := vt_tup hv
    rw [hval]
    have hfields : D.fields t = cs := by simp [Decls.fields, hcs]
    rw [hfields] at hc1
    obtain ⟨w, fe, h1, h2, h3⟩ := fields_lookup hh hfo hev n hc1
    simp only [h1]
    rw [← h2]
    refine good_fok hh (h3.imp (·.2) id) fun hdef => ?_
    simp only [fieldDef, hfields] at hdef
    obtain ⟨c', hc', hopt⟩ := hdef
    rw [hc1] at hc'
    cases hc'
    rcases h3 with ⟨h, -⟩ | h
    · simp [hopt] at h
    · exact h
  case record t =>
    obtain ⟨c, hc1, hc2, rfl⟩ := hf
    obtain ⟨o, u, fs, hval, ho, hu, hr⟩ := vt_ref (Or.inl rfl) hv
    rw [hval]
    simp only [Referable] at hr
    refine rec_field_good hh ho hu ?_ ?_
    · intro c' hc' hn
      rw [un u c' c hc' (hasComp_inherit hr hc1) (by rw [hn, hc2])]
    · rintro ⟨c', h1, h2, h3⟩
      exact ⟨c', hasComp_inherit hr h1, h2, h3⟩
  case union id ms =>
    obtain ⟨i, τ, h1, h2, rfl⟩ := hf
    obtain ⟨o, u, fs, hval, ho, hu, m, hm, hr⟩ := vt_ref (Or.inr rfl) hv
    rw [hval]
    refine rec_field_good hh ho hu (union_field wf un h1 h2 (hc id ms rfl) hm hr) ?_
    intro hdef
    obtain ⟨c', h1, h2, h3⟩ := hdef m hm
    exact ⟨c', hasComp_inherit hr h1, h2, h3⟩

theorem ctxok_bind {Γ : Gamma} {c : List (String × FExpr)} (h : CtxOk D objTy Γ c) (x : String)
    {t : Ty} {b : FExpr} (hb : FOk D objTy b t) : CtxOk D objTy (Γ.bind x t) ((x, b) :: c) := by
  intro n t' b' hn
  simp only [Gamma.bind] at hn
  split at hn
  · next e =>
    cases hn
    subst e
    exact ⟨b, by simp, Or.inr hb⟩
  · next e =>
    obtain ⟨fe, h1, h2⟩ := h n t' b' hn
    refine ⟨fe, ?_, h2⟩
    rw [List.lookup_cons]
    have : (n == x) = false := by rw [beq_eq_false_iff_ne]; exact e
    simp [this, h1]

theorem quant_good {u : Bool} {f : FExpr → Ev TV} {es : List FExpr} {d d' : Prop}
    (hf : ∀ e ∈ es, Good D objTy heap ai aq d (some .bool) (f e)) (hd : aq ∨ d) :
    Good D objTy heap ai aq d' (some .bool) (quantLoop u f es) := by
  induction es with
  | nil => exact good_mk rfl ⟨_, rfl⟩
  | cons e es ih =>
    simp only [quantLoop]
    refine good_bind (hf e List.mem_cons_self) fun v hv ht hn => ?_
    have ih := ih fun e' he => hf e' (List.mem_cons_of_mem _ he)
    split
    · split
      · exact good_mk rfl ⟨_, rfl⟩
      · split
        · exact good_mk rfl ⟨_, rfl⟩
        · exact ih
    · next hnb =>
      rcases ht with rfl | ⟨τ, hτ, -, -, hvt⟩
      · rcases hd with h | h
        · exact Or.inr ⟨rfl, h⟩
        · simp [Val.isNull] at hn; exact absurd h hn
      · cases hτ
        obtain ⟨b, hb⟩ := hvt
        exact absurd hb (hnb b)

mutual
/-- **Type soundness** -/
theorem sound (wf : WFDecls D) (un : UniqueNames D) (hh : HeapOk D objTy heap)
    (rx : List Char → List Char → Bool) : ∀ (e : Expr) (Γ : Gamma) (c : List (String × FExpr)),
    WT D rx Γ e → Side D ai aq Γ e → CtxOk D objTy Γ c →
      Good D objTy heap ai aq (Definite D Γ e) e.typ (Expr.eval ⟨heap, rx⟩ (some c) e)
  | .null, Γ, c, hw, hs, hc => by
    simp only [Expr.eval, Definite]
    exact good_null _ id
  | .bool _, Γ, c, hw, hs, hc | .int _, Γ, c, hw, hs, hc | .dec _, Γ, c, hw, hs, hc
  | .str _, Γ, c, hw, hs, hc | .enum _ _, Γ, c, hw, hs, hc => by
    simp only [Expr.eval, Expr.typ]
    exact good_mk rfl ⟨_, rfl⟩
  | .name n t, Γ, c, hw, hs, hc => by
    simp only [WT] at hw
    obtain ⟨b, hb⟩ := hw
    obtain ⟨fe, h1, h2⟩ := hc n t b hb
    simp only [Expr.eval, h1, Expr.typ]
    refine good_fok hh (h2.imp (·.2) id) fun hd => ?_
    simp only [Definite] at hd
    obtain ⟨t', ht'⟩ := hd
    rw [hb] at ht'
    cases ht'
    rcases h2 with ⟨h, -⟩ | h
    · cases h
    · exact h
  | .unary t op e, Γ, c, hw, hs, hc => by
    simp only [WT] at hw
    simp only [Side] at hs
    simp only [Expr.eval, Expr.typ]
    exact good_bind (sound wf un hh rx e Γ c hw.1 hs hc) fun v _ ht _ => unary_good ht hw.2
  | .binary t op l r, Γ, c, hw, hs, hc => by
    simp only [WT] at hw
    simp only [Side] at hs
    obtain ⟨hwl, hwr, hb, hpow⟩ := hw
    obtain ⟨hsl, hsr, hidx⟩ := hs
    simp only [Expr.eval, Expr.typ]
    refine good_bind (sound wf un hh rx l Γ c hwl hsl hc) fun vl _ hl _ => ?_
    split
    · trivial
    next hnl =>
    refine good_bind (sound wf un hh rx r Γ c hwr hsr hc) fun vr her hr _ => ?_
    split
    · trivial
    next hnr =>
    refine binary_good hh hl hr hb hnl hnr (fun h => ?_) hidx
    obtain ⟨v, i, h1, h2, h3⟩ := hpow h
    have := (static_eval rx _ r v h1).2 heap (some c)
    rw [her] at this
    cases this
    exact ⟨i, h2, h3⟩
  | .logic op l r, Γ, c, hw, hs, hc => by
    simp only [WT] at hw
    simp only [Side] at hs
    obtain ⟨hwl, hwr, htl, htr⟩ := hw
    have ihr := sound wf un hh rx r Γ c hwr hs.2 hc
    rw [htr] at ihr
    have ihl := sound wf un hh rx l Γ c hwl hs.1 hc
    rw [htl] at ihl
    simp only [Expr.eval, Expr.typ]
    refine good_bind ihl fun vl _ hl _ => ?_
    split
    · trivial
    next hn =>
    obtain ⟨τ, hτ, htyp, hv⟩ := tvok_nonnull hl hn
    cases hτ
    obtain ⟨b, hb⟩ := hv
    have hvl : Good D objTy heap ai aq (Definite D Γ (.logic op l r)) (some .bool) (.ok vl) :=
      ⟨hl, fun _ => by simpa using hn⟩
    simp only [hb]
    have ihr' : Good D objTy heap ai aq (Definite D Γ (.logic op l r)) (some .bool)
        (Expr.eval ⟨heap, rx⟩ (some c) r) := by
      simpa only [Definite] using ihr
    cases op <;> cases b
    · exact hvl
    · exact ihr'
    · exact ihr'
    · exact hvl
    · exact good_mk (τ := .bool) (v := .bool true) rfl ⟨_, rfl⟩
    · exact ihr'
  | .field p n ty, Γ, c, hw, hs, hc => by
    simp only [WT] at hw
    simp only [Side] at hs
    simp only [Expr.eval, Expr.typ, Definite]
    exact good_bind (sound wf un hh rx p Γ c hw.1 hs.1 hc) fun v _ ht _ =>
      field_good wf un hh ht hw.2 hs.2
  | .range e lo up, Γ, c, hw, hs, hc => by
    simp only [WT] at hw
    simp only [Side] at hs
    obtain ⟨h1, h2, h3, ht, ht1, ht2⟩ := hw
    have ih2 := sound wf un hh rx lo Γ c h2 hs.2.1 hc
    have ih3 := sound wf un hh rx up Γ c h3 hs.2.2 hc
    rw [ht1] at ih2
    rw [ht2] at ih3
    simp only [Expr.eval, Expr.typ]
    refine good_bind (sound wf un hh rx e Γ c h1 hs.1 hc) fun v _ hv _ => ?_
    split
    · trivial
    next hn =>
    refine good_bind ih2 fun v' _ hv' _ => ?_
    split
    · trivial
    next hn' =>
    refine good_bind ih3 fun v'' _ hv'' _ => ?_
    split
    · trivial
    next hn'' =>
    obtain ⟨τ, hτ, -, hv⟩ := tvok_nonnull hv hn
    obtain ⟨τ', hτ', -, hv'⟩ := tvok_nonnull hv' hn'
    obtain ⟨τ'', hτ'', -, hv''⟩ := tvok_nonnull hv'' hn''
    rw [hτ] at hτ' hτ'' ht
    cases hτ'
    cases hτ''
    rcases ht with ht | ht <;> cases ht <;> obtain ⟨i, hi⟩ := hv <;> obtain ⟨j, hj⟩ := hv' <;>
      obtain ⟨k, hk⟩ := hv'' <;> simp only [hi, hj, hk] <;> exact good_mk rfl ⟨_, rfl⟩
  | .oneof cs, Γ, c, hw, hs, hc => by
    simp only [WT] at hw
    simp only [Side] at hs
    have ih := sounds wf un hh rx cs Γ c hw hs hc
    simp only [Expr.eval, Expr.typ]
    cases he : Exprs.eval ⟨heap, rx⟩ (some c) cs with
    | ok vs => exact good_mk rfl ⟨_, rfl⟩
    | err e => trivial
    | crash x => exact ih x he
  | .cond t as, Γ, c, hw, hs, hc => by
    simp only [WT] at hw
    simp only [Side] at hs
    have := sounda wf un hh rx as t Γ c hw hs hc
    simpa only [Expr.eval, Expr.typ, Definite] using this
  | .quant u x src body, Γ, c, hw, hs, hc => by
    simp only [WT] at hw
    simp only [Side] at hs
    obtain ⟨⟨id, elem, lo, hi, b, hg, hwb⟩, htb⟩ := hw
    obtain ⟨hsb, hdb⟩ := hs id elem lo hi b hg
    obtain ⟨fe, h1, h2⟩ := hc src _ b hg
    simp only [Expr.eval, h1, Expr.typ]
    rcases h2 with ⟨-, rfl⟩ | h2
    · trivial
    · cases fe <;> simp only [FOk, reduceCtorEq, false_and, or_self] at h2
      case arr t es =>
        obtain ⟨rfl, id', e', lo', hi', h3, h4⟩ := h2
        cases h3
        refine quant_good (d := Definite D (Γ.bind x elem) body) (fun e he => ?_) hdb
        have := sound wf un hh rx body (Γ.bind x elem) ((x, e) :: c) hwb hsb
          (ctxok_bind hc x (allok_mem h4 he))
        rwa [htb] at this
      case ref t o =>
        obtain ⟨rfl, o, u, -, -, h⟩ := h2
        exact h.elim

theorem sounds (wf : WFDecls D) (un : UniqueNames D) (hh : HeapOk D objTy heap)
    (rx : List Char → List Char → Bool) : ∀ (es : Exprs) (Γ : Gamma) (c : List (String × FExpr)),
    WTs D rx Γ es → Sides D ai aq Γ es → CtxOk D objTy Γ c →
      ∀ x, Exprs.eval ⟨heap, rx⟩ (some c) es = .crash x → Perm ai aq x
  | .nil, Γ, c, hw, hs, hc => by simp [Exprs.eval]
  | .cons e es, Γ, c, hw, hs, hc => by
    simp only [WTs] at hw
    simp only [Sides] at hs
    intro x hx
    have ih := sound wf un hh rx e Γ c hw.1 hs.1 hc
    have ih2 := sounds wf un hh rx es Γ c hw.2 hs.2 hc
    simp only [Exprs.eval, bind_eq_crash] at hx
    rcases hx with hx | ⟨a, ha, hx | ⟨b, hb, hx⟩⟩
    · rw [hx] at ih; exact ih
    · exact ih2 x hx
    · cases hx

theorem sounda (wf : WFDecls D) (un : UniqueNames D) (hh : HeapOk D objTy heap)
    (rx : List Char → List Char → Bool) : ∀ (as : Acts) (t : Ty) (Γ : Gamma)
    (c : List (String × FExpr)), WTa D rx Γ t as → SideA D ai aq Γ as → CtxOk D objTy Γ c →
      Good D objTy heap ai aq (DefiniteA D Γ as) (some t) (Acts.eval ⟨heap, rx⟩ (some c) as)
  | .els e, t, Γ, c, hw, hs, hc => by
    simp only [WTa] at hw
    simp only [SideA] at hs
    have := sound wf un hh rx e Γ c hw.1 hs hc
    rw [hw.2] at this
    simpa only [Acts.eval, DefiniteA] using this
  | .act k e rest, t, Γ, c, hw, hs, hc => by
    simp only [WTa] at hw
    simp only [SideA] at hs
    obtain ⟨h1, h2, h3, h4, h5⟩ := hw
    have ihk := sound wf un hh rx k Γ c h1 hs.1 hc
    have ihe := sound wf un hh rx e Γ c h3 hs.2.1 hc
    have ihr := sounda wf un hh rx rest t Γ c h5 hs.2.2 hc
    rw [h2] at ihk
    rw [h4] at ihe
    simp only [Acts.eval, DefiniteA]
    refine good_bind ihk fun v _ hv _ => ?_
    split
    · trivial
    next hn =>
    obtain ⟨τ, hτ, -, hv⟩ := tvok_nonnull hv hn
    cases hτ
    obtain ⟨b, hb⟩ := hv
    simp only [hb]
    have weaken : ∀ {d d' : Prop} {r : Ev TV}, (d' → d) → Good D objTy heap ai aq d (some t) r →
        Good D objTy heap ai aq d' (some t) r := by
      intro d d' r hdd h
      cases r with
      | ok v => exact ⟨h.1, fun x => h.2 (hdd x)⟩
      | err _ => trivial
      | crash _ => exact h
    cases b
    · exact weaken (·.2) ihr
    · exact weaken (·.1) ihe
end

end Verif.Lemmas
