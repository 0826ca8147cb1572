import Verif.Spec.Solver
import Verif.Lemmas.Sound
import Verif.Lemmas.PyEq
/-! The values of checks as values of a solver. -/
namespace Verif.Lemmas.Vcg
open Verif.Model Verif.Spec

mutual
/-- the value of a solver that stands for a value; null fields of tuples get a fixed value -/
noncomputable def rep (D : Decls) (ref : Fields → Int) : Val → Option Ty → SV
  | .null, _ => .bool false
  | .bool b, _ => .bool b
  | .int i, _ => .int i
  | .dec q, _ => .real q
  | .str s, _ => .str s
  | .enum t l, _ => .enum t l
  | .arr es, _ => .seq (repL D ref es)
  | .tup fs, some (.tup t) => .record fun k =>
      match tupleKey D t k with
      | none => .bool false
      | some s =>
        match k with
        | .value n => (repF D ref fs n).getD (someOf D s)
        | .valid n => .bool (repF D ref fs n).isSome
  | .tup _, _ => .bool false
  | .recv fs, _ => .int (ref fs)
/-- the elements of a list -/
noncomputable def repL (D : Decls) (ref : Fields → Int) : List (Option Ty × Val) → List SV
  | [] => []
  | x :: xs => repT D ref x :: repL D ref xs
/-- a value with its type -/
noncomputable def repT (D : Decls) (ref : Fields → Int) : Option Ty × Val → SV
  | (t, v) => rep D ref v t
/-- the value of a field, if it is not null -/
noncomputable def repF (D : Decls) (ref : Fields → Int) : List (String × Option Ty × Val) → String → Option SV
  | [], _ => none
  | f :: fs, n => if f.1 = n then repG D ref f else repF D ref fs n
/-- one field -/
noncomputable def repG (D : Decls) (ref : Fields → Int) : String × Option Ty × Val → Option SV
  | (_, t, v) => if v.isNull then none else some (rep D ref v t)
end

variable {D : Decls} {objTy : Nat → Option Nat} {heap : Nat → Option Fields} {ref : Fields → Int}

theorem repF_lookup (fs : List (String × Option Ty × Val)) (n : String) :
    repF D ref fs n = (fs.lookup n).bind fun x => if x.2.isNull then none else some (rep D ref x.2 x.1) := by
  induction fs with
  | nil => simp [repF]
  | cons f fs ih =>
    obtain ⟨k, t, v⟩ := f
    rw [repF, List.lookup_cons]
    by_cases h : k = n
    · subst h
      simp [repG]
    · have : (n == k) = false := by rw [beq_eq_false_iff_ne]; exact fun e => h e.symm
      simp [h, this, ih]

theorem repL_eq_map (es : List (Option Ty × Val)) :
    repL D ref es = es.map fun x => rep D ref x.2 x.1 := by
  induction es with
  | nil => simp [repL]
  | cons e es ih =>
    obtain ⟨t, v⟩ := e
    simp [repL, repT, ih]

/-- the sort of every component has a value -/
def Habitable (D : Decls) : Prop :=
  (∀ t, ∀ c ∈ D.fields t, ∃ x, HasSort D x c.ty.srt) ∧ (∀ t, ∀ c ∈ D.own t, ∃ x, HasSort D x c.ty.srt)

theorem someOf_sort {s : Srt} (h : ∃ x, HasSort D x s) : HasSort D (someOf D s) s := by
  unfold someOf
  rw [dif_pos h]
  exact h.choose_spec

theorem find_mem {cs : List Comp} {n : String} {c : Comp} (h : cs.find? (·.name == n) = some c) :
    c ∈ cs ∧ c.name = n := by
  refine ⟨List.mem_of_find?_eq_some h, ?_⟩
  have := List.find?_some h
  simpa using this

theorem hasSorts_iff {xs : List SV} {s : Srt} : HasSorts D xs s ↔ ∀ x ∈ xs, HasSort D x s := by
  induction xs with
  | nil => simp [HasSorts]
  | cons x xs ih => simp [HasSorts, ih]

/-- the fields of a tuple value, evaluated -/
theorem evalFields_lookup {fs : List (String × FExpr)} {vs : List (String × Option Ty × Val)}
    (h : evalFields heap fs = .ok vs) (n : String) :
    (fs.lookup n = none ∧ vs.lookup n = none) ∨
      ∃ e v, (n, e) ∈ fs ∧ fs.lookup n = some e ∧ e.eval heap = .ok v ∧ vs.lookup n = some (v.typ, v.val) := by
  induction fs generalizing vs with
  | nil => simp only [evalFields, Ev.ok.injEq] at h; subst h; simp
  | cons f fs ih =>
    obtain ⟨k, e⟩ := f
    simp only [evalFields, evalField, bind_eq_ok, Ev.ok.injEq] at h
    obtain ⟨x, ⟨v, hv, rfl⟩, ws, hws, rfl⟩ := h
    by_cases hk : n = k
    · subst hk
      exact Or.inr ⟨e, v, List.mem_cons_self, by simp, hv, by simp⟩
    · have : (n == k) = false := by rw [beq_eq_false_iff_ne]; exact hk
      rw [List.lookup_cons, List.lookup_cons]
      simp only [this]
      rcases ih hws with h | ⟨e', v', h1, h2, h3, h4⟩
      · exact Or.inl h
      · exact Or.inr ⟨e', v', List.mem_cons_of_mem _ h1, h2, h3, h4⟩

/-- the entry of a declared field -/
theorem fieldsOk_lookup {fs : List (String × FExpr)} {cs : List Comp} (h : FieldsOk D objTy fs cs)
    {n : String} {c : Comp} (hc : cs.find? (·.name == n) = some c) :
    ∃ e, (n, e) ∈ fs ∧ fs.lookup n = some e ∧ ((c.optional = true ∧ e = .inull) ∨ FOk D objTy e c.ty) := by
  induction fs generalizing cs with
  | nil => cases cs <;> simp_all [FieldsOk]
  | cons f fs ih =>
    obtain ⟨k, e⟩ := f
    cases cs with
    | nil => simp at hc
    | cons d cs =>
      simp only [FieldsOk, FieldOk] at h
      obtain ⟨⟨rfl, hd⟩, h⟩ := h
      by_cases hn : d.name = n
      · subst hn
        rw [List.find?_cons_of_pos (by simp)] at hc
        cases hc
        exact ⟨e, List.mem_cons_self, by simp, hd⟩
      · rw [List.find?_cons_of_neg (by simpa using hn)] at hc
        obtain ⟨e', h1, h2, h3⟩ := ih h hc
        refine ⟨e', List.mem_cons_of_mem _ h1, ?_, h3⟩
        rw [List.lookup_cons]
        have : (n == d.name) = false := by rw [beq_eq_false_iff_ne]; exact fun h => hn h.symm
        simp [this, h2]

theorem eval_inull : FExpr.eval heap .inull = .ok ⟨none, .null⟩ := by
  simp [FExpr.eval, mkValue, Val.isNull]

/-- a conforming value has exactly its type and is not null -/
theorem fok_typ (hh : HeapOk D objTy heap) {fe : FExpr} {τ : Ty} {v : TV} (h : FOk D objTy fe τ)
    (hv : fe.eval heap = .ok v) : v = ⟨some τ, v.val⟩ ∧ v.val.isNull = false := by
  obtain ⟨w, hw, hn⟩ := fok_eval hh fe τ h
  rw [hv] at hw
  cases hw
  exact ⟨rfl, hn⟩

mutual
/-- the representation of a conforming value belongs to its sort -/
theorem rep_sort (hh : HeapOk D objTy heap) (hab : Habitable D) : ∀ (fe : FExpr) (τ : Ty) (v : Val), FOk D objTy fe τ →
    fe.eval heap = .ok ⟨some τ, v⟩ → HasSort D (rep D ref v (some τ)) τ.srt
  | .inull, τ, v, h, hv => by simp [FOk] at h
  | .bool _, τ, v, h, hv | .int _, τ, v, h, hv | .dec _, τ, v, h, hv | .str _, τ, v, h, hv
  | .markup _, τ, v, h, hv => by
    simp only [FOk] at h
    subst h
    simp only [FExpr.eval, mkValue_eq_ok, TV.mk.injEq, true_and] at hv
    obtain ⟨-, rfl⟩ := hv
    simp [rep, HasSort, Ty.srt]
  | .enum _ _, τ, v, h, hv => by
    simp only [FOk] at h
    obtain ⟨rfl, h⟩ := h
    simp only [FExpr.eval, mkValue_eq_ok, TV.mk.injEq, true_and] at hv
    obtain ⟨-, rfl⟩ := hv
    simpa [rep, HasSort, Ty.srt] using h
  | .neg e, τ, v, h, hv | .pos e, τ, v, h, hv => by
    simp only [FOk] at h
    rcases h with ⟨rfl, i, rfl⟩ | ⟨rfl, i, rfl⟩ <;>
    · simp only [FExpr.eval, mkValue, Val.isNull, Option.isNone_some, if_true, Ev.bind, unary,
        unaryOp, if_false, Bool.false_eq_true, Ev.ok.injEq, TV.mk.injEq, true_and] at hv
      subst hv
      simp [rep, HasSort, Ty.srt]
  | .arr t es, τ, v, h, hv => by
    simp only [FOk] at h
    obtain ⟨rfl, id, elem, lo, hi, rfl, h⟩ := h
    simp only [FExpr.eval, bind_eq_ok, mkValue_eq_ok, TV.mk.injEq, true_and] at hv
    obtain ⟨vs, h3, -, rfl⟩ := hv
    simp only [rep, HasSort, Ty.srt]
    exact ⟨_, rfl, rep_sorts hh hab es elem vs h h3⟩
  | .tup t fs, τ, v, h, hv => by
    simp only [FOk] at h
    obtain ⟨rfl, cs, hcs, h⟩ := h
    simp only [FExpr.eval, bind_eq_ok, mkValue_eq_ok, TV.mk.injEq, true_and] at hv
    obtain ⟨vs, h3, -, rfl⟩ := hv
    have hf : D.fields t = cs := by simp [Decls.fields, hcs]
    simp only [rep, HasSort, Ty.srt]
    refine ⟨t, rfl, fun k => ⟨fun s hs => ?_, fun hn => by rw [hn]⟩⟩
    rw [hs]
    cases k with
    | valid n =>
      simp only [tupleKey, Option.bind_eq_some_iff] at hs
      obtain ⟨c, -, hs⟩ := hs
      split at hs <;> cases hs
      simp [HasSort]
    | value n =>
      simp only [tupleKey, Option.map_eq_some_iff] at hs
      obtain ⟨c, hc, rfl⟩ := hs
      simp only
      rw [repF_lookup]
      have hc0 := hc
      rw [hf] at hc
      obtain ⟨e, hm, hl, ho⟩ := fieldsOk_lookup h hc
      rcases evalFields_lookup h3 n with ⟨h5, -⟩ | ⟨e', v, h5, h6, h7, h8⟩
      · rw [hl] at h5; cases h5
      · rw [hl] at h6
        cases h6
        rw [h8]
        simp only [Option.bind_some]
        split
        · simp only [Option.getD_none]
          exact someOf_sort (hab.1 t c (find_mem hc0).1)
        · next hnn =>
          simp only [Option.getD_some]
          rcases ho with ⟨-, rfl⟩ | ho
          · rw [eval_inull] at h7
            cases h7
            simp [Val.isNull] at hnn
          · have ht := (fok_typ hh ho h7).1
            rw [ht] at h7 ⊢
            exact rep_sortf hh hab fs (n, e) hm c.ty v.val ho h7
  | .ref t target, τ, v, h, hv => by
    simp only [FOk] at h
    obtain ⟨rfl, o, u, rfl, hu, hr⟩ := h
    simp only [FExpr.eval] at hv
    cases hf : heap o with
    | none => simp [hf] at hv
    | some fs =>
      simp only [hf, mkValue_eq_ok, TV.mk.injEq, true_and] at hv
      obtain ⟨-, rfl⟩ := hv
      cases τ <;> simp only [Referable] at hr <;> simp [rep, HasSort, Ty.srt]

theorem rep_sorts (hh : HeapOk D objTy heap) (hab : Habitable D) : ∀ (es : List FExpr) (τ : Ty) (vs : List (Option Ty × Val)),
    AllOk D objTy es τ → evalElems heap es = .ok vs → HasSorts D (repL D ref vs) τ.srt
  | [], τ, vs, h, hv => by
    simp only [evalElems, Ev.ok.injEq] at hv
    subst hv
    simp [repL, HasSorts]
  | e :: es, τ, vs, h, hv => by
    simp only [AllOk] at h
    simp only [evalElems, bind_eq_ok, Ev.ok.injEq] at hv
    obtain ⟨v, hv, ws, hws, rfl⟩ := hv
    simp only [repL, HasSorts, repT]
    have ht := (fok_typ hh h.1 hv).1
    rw [ht] at hv ⊢
    exact ⟨rep_sort hh hab e τ v.val h.1 hv, rep_sorts hh hab es τ ws h.2 hws⟩

theorem rep_sortf (hh : HeapOk D objTy heap) (hab : Habitable D) : ∀ (fs : List (String × FExpr)) (f : String × FExpr), f ∈ fs →
    ∀ (τ : Ty) (v : Val), FOk D objTy f.2 τ →
    f.2.eval heap = .ok ⟨some τ, v⟩ → HasSort D (rep D ref v (some τ)) τ.srt
  | [], f, hf, τ, v, h1, h2 => by simp at hf
  | g :: fs, f, hf, τ, v, h1, h2 => by
    rcases List.mem_cons.1 hf with h | h
    · exact rep_sortg hh hab g τ v (h ▸ h1) (h ▸ h2)
    · exact rep_sortf hh hab fs f h τ v h1 h2

theorem rep_sortg (hh : HeapOk D objTy heap) (hab : Habitable D) : ∀ (f : String × FExpr), 
    ∀ (τ : Ty) (v : Val), FOk D objTy f.2 τ →
    f.2.eval heap = .ok ⟨some τ, v⟩ → HasSort D (rep D ref v (some τ)) τ.srt
  | (_, e), τ, v, h1, h2 => rep_sort hh hab e τ v h1 h2
end

end Verif.Lemmas.Vcg
