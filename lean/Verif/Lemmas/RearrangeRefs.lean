import Verif.Lemmas.RearrangeFiles
/-!
# References of rearranged objects
-/
namespace Verif.Lemmas.Rearrange
open Verif.Model Verif.Spec Verif.Lemmas

/-- All references in the value lead to an object of the right type. -/
def Fine (D : Decls) (objs : List Obj) (v : PVal) : Prop :=
  (∀ τ p n, HasRef v τ p n → ∃ o ∈ objs, o.pkg = p ∧ o.name = n ∧ Referable D o.typ τ) ∧
  (∀ r, HasMark v r → ∃ o ∈ objs, o.pkg = r.pkg ∧ o.name = r.name)

variable {D : Decls} {objs : List Obj}

theorem fine_plain {v : PVal} (h1 : ∀ τ p n, ¬ HasRef v τ p n) (h2 : ∀ r, ¬ HasMark v r) : Fine D objs v :=
  ⟨fun τ p n h => absurd h (h1 τ p n), fun r h => absurd h (h2 r)⟩

theorem isNamed_iff {p : Nat} {n : List Char} : (∃ i o, IsNamed objs i p n o) ↔ ∃ o ∈ objs, o.pkg = p ∧ o.name = n := by
  constructor
  · rintro ⟨i, o, h1, h2⟩
    exact ⟨o, List.mem_of_getElem? h1, h2⟩
  · rintro ⟨o, h1, h2⟩
    obtain ⟨i, hi⟩ := List.mem_iff_getElem?.1 h1
    exact ⟨i, o, hi, h2⟩

mutual
theorem resolved_fine : (v : PVal) → (∃ f, Resolved D objs v f) ↔ Fine D objs v
  | .inull => by
    simp only [Resolved, exists_eq, true_iff]
    exact fine_plain (fun _ _ _ h => by cases h) (fun _ h => by cases h)
  | .bool _ => by
    simp only [Resolved, exists_eq, true_iff]
    exact fine_plain (fun _ _ _ h => by cases h) (fun _ h => by cases h)
  | .int _ => by
    simp only [Resolved, exists_eq, true_iff]
    exact fine_plain (fun _ _ _ h => by cases h) (fun _ h => by cases h)
  | .dec _ => by
    simp only [Resolved, exists_eq, true_iff]
    exact fine_plain (fun _ _ _ h => by cases h) (fun _ h => by cases h)
  | .str _ => by
    simp only [Resolved, exists_eq, true_iff]
    exact fine_plain (fun _ _ _ h => by cases h) (fun _ h => by cases h)
  | .enum _ _ => by
    simp only [Resolved, exists_eq, true_iff]
    exact fine_plain (fun _ _ _ h => by cases h) (fun _ h => by cases h)
  | .markup v refs => by
    simp only [Resolved, exists_eq_left, isNamed_iff]
    constructor
    · intro h
      refine ⟨(fun _ _ _ h => by cases h), fun r hr => ?_⟩
      cases hr with
      | markup hr => exact h r hr
    · intro h r hr
      exact h.2 r (.markup hr)
  | .neg v => by
    simp only [Resolved]
    constructor
    · rintro ⟨_, g, -, h⟩
      obtain ⟨h1, h2⟩ := (resolved_fine v).1 ⟨g, h⟩
      refine ⟨fun τ p n hr => ?_, fun r hr => ?_⟩
      · cases hr with
        | neg hr => exact h1 τ p n hr
      · cases hr with
        | neg hr => exact h2 r hr
    · intro h
      obtain ⟨g, hg⟩ := (resolved_fine v).2 ⟨fun τ p n hr => h.1 τ p n (.neg hr), fun r hr => h.2 r (.neg hr)⟩
      exact ⟨_, g, rfl, hg⟩
  | .pos v => by
    simp only [Resolved]
    constructor
    · rintro ⟨_, g, -, h⟩
      obtain ⟨h1, h2⟩ := (resolved_fine v).1 ⟨g, h⟩
      refine ⟨fun τ p n hr => ?_, fun r hr => ?_⟩
      · cases hr with
        | pos hr => exact h1 τ p n hr
      · cases hr with
        | pos hr => exact h2 r hr
    · intro h
      obtain ⟨g, hg⟩ := (resolved_fine v).2 ⟨fun τ p n hr => h.1 τ p n (.pos hr), fun r hr => h.2 r (.pos hr)⟩
      exact ⟨_, g, rfl, hg⟩
  | .arr t es => by
    simp only [Resolved]
    constructor
    · rintro ⟨_, gs, -, h⟩
      have h1 := (resolvedAll_fine es).1 ⟨gs, h⟩
      refine ⟨fun τ p n hr => ?_, fun r hr => ?_⟩
      · cases hr with
        | arr hv hr => exact (h1 _ hv).1 τ p n hr
      · cases hr with
        | arr hv hr => exact (h1 _ hv).2 r hr
    · intro h
      obtain ⟨gs, hg⟩ := (resolvedAll_fine es).2 (fun v hv =>
        ⟨fun τ p n hr => h.1 τ p n (.arr hv hr), fun r hr => h.2 r (.arr hv hr)⟩)
      exact ⟨_, gs, rfl, hg⟩
  | .tup t fs => by
    simp only [Resolved]
    constructor
    · rintro ⟨_, gs, -, h⟩
      have h1 := (resolvedFields_fine fs).1 ⟨gs, h⟩
      refine ⟨fun τ p n hr => ?_, fun r hr => ?_⟩
      · cases hr with
        | tup hv hr => exact (h1 _ _ hv).1 τ p n hr
      · cases hr with
        | tup hv hr => exact (h1 _ _ hv).2 r hr
    · intro h
      obtain ⟨gs, hg⟩ := (resolvedFields_fine fs).2 (fun k v hv =>
        ⟨fun τ p n hr => h.1 τ p n (.tup hv hr), fun r hr => h.2 r (.tup hv hr)⟩)
      exact ⟨_, gs, rfl, hg⟩
  | .ref τ p n => by
    simp only [Resolved]
    constructor
    · rintro ⟨_, i, o, -, ⟨h1, h2, h3⟩, h4⟩
      refine ⟨fun τ p n hr => ?_, (fun _ h => by cases h)⟩
      cases hr
      exact ⟨o, List.mem_of_getElem? h1, h2, h3, h4⟩
    · intro h
      obtain ⟨o, h1, h2, h3, h4⟩ := h.1 τ p n .ref
      obtain ⟨i, hi⟩ := List.mem_iff_getElem?.1 h1
      exact ⟨_, i, o, rfl, ⟨hi, h2, h3⟩, h4⟩

theorem resolvedAll_fine : (es : List PVal) → (∃ gs, ResolvedAll D objs es gs) ↔ ∀ v ∈ es, Fine D objs v
  | [] => by simp [ResolvedAll]
  | e :: es => by
    simp only [ResolvedAll, List.forall_mem_cons]
    rw [← resolved_fine e, ← resolvedAll_fine es]
    constructor
    · rintro ⟨_, g, hs, -, h1, h2⟩
      exact ⟨⟨g, h1⟩, hs, h2⟩
    · rintro ⟨⟨g, h1⟩, hs, h2⟩
      exact ⟨_, g, hs, rfl, h1, h2⟩

theorem resolvedFields_fine : (fs : List (String × PVal)) → (∃ gs, ResolvedFields D objs fs gs) ↔
    ∀ k v, (k, v) ∈ fs → Fine D objs v
  | [] => by simp [ResolvedFields]
  | f :: fs => by
    simp only [ResolvedFields]
    have h := resolvedFields_fine fs
    have h0 := resolvedField_fine f
    constructor
    · rintro ⟨_, g, hs, -, h1, h2⟩ k v hv
      rcases List.mem_cons.1 hv with rfl | hv
      · exact h0.1 ⟨g, h1⟩
      · exact h.1 ⟨hs, h2⟩ k v hv
    · intro hv
      obtain ⟨g, h1⟩ := h0.2 (hv f.1 f.2 (by simp))
      obtain ⟨hs, h2⟩ := h.2 (fun k v hk => hv k v (by simp [hk]))
      exact ⟨_, g, hs, rfl, h1, h2⟩

theorem resolvedField_fine : (f : String × PVal) → (∃ g, ResolvedField D objs f g) ↔ Fine D objs f.2
  | (n, e) => by
    simp only [ResolvedField]
    rw [← resolved_fine e]
    constructor
    · rintro ⟨g, -, h⟩
      exact ⟨_, h⟩
    · rintro ⟨g, h⟩
      exact ⟨(n, g), rfl, h⟩
end

theorem resolvedObj_fine : ∀ (fs : List (String × VNode)), (∃ gs, ResolvedObj D objs fs gs) ↔
    ∀ f ∈ fs, Fine D objs f.2.val
  | [] => by simp [ResolvedObj]
  | (n, v) :: fs => by
    simp only [ResolvedObj, List.forall_mem_cons]
    rw [← resolved_fine v.val, ← resolvedObj_fine fs]
    constructor
    · rintro ⟨_, e, hs, -, h1, h2⟩
      exact ⟨⟨e, h1⟩, hs, h2⟩
    · rintro ⟨⟨e, h1⟩, hs, h2⟩
      exact ⟨_, e, hs, rfl, h1, h2⟩

theorem fine_mono {objs' : List Obj} (h : ∀ o ∈ objs, ∃ o' ∈ objs', o'.pkg = o.pkg ∧ o'.name = o.name ∧ o'.typ = o.typ)
    {v : PVal} (hv : Fine D objs v) : Fine D objs' v := by
  refine ⟨fun τ p n hr => ?_, fun r hr => ?_⟩
  · obtain ⟨o, h1, rfl, rfl, h4⟩ := hv.1 τ p n hr
    obtain ⟨o', k1, k2, k3, k4⟩ := h o h1
    exact ⟨o', k1, k2, k3, by rw [k4]; exact h4⟩
  · obtain ⟨o, h1, h2, h3⟩ := hv.2 r hr
    obtain ⟨o', k1, k2, k3, k4⟩ := h o h1
    exact ⟨o', k1, k2.trans h2, k3.trans h3⟩

/-! ### Values of objects -/

theorem lookup_mem {α : Type} {l : List (String × α)} {k : String} {v : α} (h : l.lookup k = some v) : (k, v) ∈ l := by
  induction l with
  | nil => cases h
  | cons x l ih =>
    rw [List.lookup_cons] at h
    split at h
    · next hx =>
      cases h
      rw [beq_iff_eq] at hx
      simp [hx]
    · exact List.mem_cons_of_mem _ (ih h)

theorem mem_lookup {α : Type} {l : List (String × α)} (hn : (l.map Prod.fst).Nodup) {k : String} {v : α} (h : (k, v) ∈ l) :
    l.lookup k = some v := by
  induction l with
  | nil => cases h
  | cons x l ih =>
    simp only [List.map_cons, List.nodup_cons] at hn
    rw [List.lookup_cons]
    rcases List.mem_cons.1 h with rfl | h
    · simp
    · have : (k == x.1) = false := by
        rw [beq_eq_false_iff_ne]
        rintro rfl
        exact hn.1 (List.mem_map.2 ⟨_, h, rfl⟩)
      rw [this]
      exact ih hn.2 h

/-- an assigned value is a value of the object -/
theorem assigned {infos : List RecInfo} {asg : List (String × PVal)} {ob : Obj} (h : ObjFrom D infos asg ob) {a : String × PVal}
    (ha : a ∈ asg) : ∃ n, (a.1, n) ∈ ob.fields ∧ n.val = a.2 := by
  obtain ⟨-, h1, h2, -, h4⟩ := h
  obtain ⟨c, hc, hn⟩ := h2 a ha
  obtain ⟨n, k1, k2⟩ := h4 c hc
  rw [hn] at k1 k2
  have hm : a.1 ∈ asg.map Prod.fst := List.mem_map_of_mem ha
  rcases k2 with ⟨v, k2, k3⟩ | ⟨k2, -⟩ | ⟨k2, -⟩
  · have e1 := mem_lookup h1 k2
    have e2 := mem_lookup h1 (k := a.1) (v := a.2) ha
    rw [e1] at e2
    cases e2
    exact ⟨n, lookup_mem k1, k3⟩
  · exact absurd hm k2
  · exact absurd hm k2

/-- the references of an object whose references are resolved may refer to what they name -/
theorem refsOk_of {g : STab} {B : Names} (hb : Base g B) {infos : List RecInfo} {items : List (Obj × List (String × PVal))}
    (hg : Good g B (items.map dec)) {x : Obj × List (String × PVal)} (ho : ObjFrom B.decls infos x.2 x.1)
    (hf : ∀ f ∈ x.1.fields, Fine B.decls (items.map Prod.fst) f.2.val) : RefsOk B (items.map dec) x := by
  intro a ha τ p n hh
  obtain ⟨v, h1, h2⟩ := assigned ho ha
  obtain ⟨o, k1, rfl, rfl, k4⟩ := (hf _ h1).1 τ p n (by dsimp only; rw [h2]; exact hh)
  obtain ⟨y, hy, rfl⟩ := List.mem_map.1 k1
  have hm : dec y ∈ items.map dec := List.mem_map_of_mem hy
  refine ⟨fun e he => ?_, fun d hd e1 e2 => ?_⟩
  · rw [lookup_iff, base_find hb] at he
    obtain ⟨f1, f2, f3⟩ := hg.fresh _ hm
    have : outer g B y.1.pkg (simplifiedName y.1.name) = none := good_outer hg hm _
    rw [this] at he
    have f2 : (B.tab y.1.pkg).own.get (simplifiedName y.1.name) = none := f2
    rw [f2] at he
    cases he.1
  · obtain ⟨i, hi⟩ := List.mem_iff_getElem?.1 hd
    obtain ⟨j, hj⟩ := List.mem_iff_getElem?.1 hm
    have := good_inj hg hi hj e1 (by rw [e2]; rfl)
    subst this
    rw [hi] at hj
    cases hj
    exact k4

end Verif.Lemmas.Rearrange
