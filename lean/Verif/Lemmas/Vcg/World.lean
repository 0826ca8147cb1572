import Verif.Lemmas.Vcg.RepEq
import Verif.Lemmas.ElabSound
import Verif.Spec.Analysis
import Verif.Model.Vcg.Graph
/-! The interpretation that stands for the objects of a run. -/
namespace Verif.Lemmas.Vcg
open Verif.Model Verif.Spec

/-- the declarations and objects that checks are evaluated with, with what is known about them -/
structure World where
  D     : Decls
  objTy : Nat → Option Nat
  heap  : Nat → Option Fields
  rx    : List Char → List Char → Bool
  ref   : Fields → Int
  wf    : WFDecls D
  un    : UniqueNames D
  hh    : HeapOk D objTy heap
  hab   : Habitable D
  fn    : FieldNames D
  hr    : RefOk heap ref
  ids   : HeapIds heap

/-- the evaluation environment -/
def World.env (W : World) : EvEnv := ⟨W.heap, W.rx⟩
/-- the environment of the translation -/
def World.trEnv (W : World) : TrEnv := ⟨W.D, W.rx⟩
/-- the representation of a value -/
noncomputable def World.rp (W : World) (v : TV) : SV := rep W.D W.ref v.val v.typ

/-- a field of an object with this number has this value, which is not null -/
def World.Stored (W : World) (i : Int) (n : String) (v : TV) : Prop :=
  ∃ o fs x, W.heap o = some fs ∧ W.ref fs = i ∧ fs.lookup n = some x ∧
    x.expr.eval W.heap = .ok v ∧ v.val.isNull = false

open Classical in
/-- what references lead to -/
noncomputable def World.access (W : World) (r : RKey) (i : Int) (k : FKey) : SV :=
  match refKey W.D r k with
  | none => .bool false
  | some s =>
    match k with
    | .value n =>
      if h : ∃ v, W.Stored i n v ∧ HasSort W.D (W.rp v) s then W.rp h.choose else someOf W.D s
    | .valid n => .bool (decide (∃ v, W.Stored i n v))

/-- the interpretation uses the objects -/
structure IOk (W : World) (I : Interp) : Prop where
  access : I.access = W.access
  rx     : ∀ a b, I.rxMatch a b = W.rx b a

/-- an object with the number of this one has the same fields -/
theorem stored_same (W : World) {o : Nat} {fs : Fields} (ho : W.heap o = some fs) {n : String} {v : TV}
    (h : W.Stored (W.ref fs) n v) : ∃ x, fs.lookup n = some x ∧ x.expr.eval W.heap = .ok v := by
  obtain ⟨o', fs', x, h1, h2, h3, h4, -⟩ := h
  have he := (W.hr o' o fs' fs h1 ho).1 h2
  rw [fieldsEq_iff] at he
  obtain ⟨y, hy, hid⟩ := he.2 (n, x) (mem_of_lookup h3)
  refine ⟨y, hy, ?_⟩
  rw [← W.ids.2 o' o fs' fs h1 ho (n, x) (mem_of_lookup h3) (n, y) (mem_of_lookup hy) hid]
  exact h4

theorem refKey_inhabited (W : World) {r : RKey} {n : String} {s : Srt} (h : refKey W.D r (.value n) = some s) :
    ∃ x, HasSort W.D x s := by
  cases r with
  | record t =>
    simp only [refKey, Option.map_eq_some_iff] at h
    obtain ⟨c, hc, rfl⟩ := h
    obtain ⟨a, -, hm⟩ := List.exists_of_findSome?_eq_some hc
    exact W.hab.2 a c (List.mem_of_find?_eq_some hm)
  | union ms =>
    simp only [refKey, Option.bind_eq_some_iff, Option.map_eq_some_iff] at h
    obtain ⟨i, hi, τ, hτ, rfl⟩ := h
    have hd := fieldMap_describes W.D ms n
    rw [hi] at hd
    obtain ⟨h1, h2, h3, -, -⟩ := hd
    rw [← h3 τ hτ i.comp h1 h2]
    simp only [entered, List.mem_flatMap] at h1
    obtain ⟨m, -, hm⟩ := h1
    have := (firstOfName_mem _ _ hm).1
    rw [mem_allComponents W.wf] at this
    obtain ⟨a, -, ha⟩ := this
    exact W.hab.2 a _ ((mem_own a _).2 ha)

theorem access_sorted (W : World) {I : Interp} (h : IOk W I) : I.WellSorted W.D := by
  intro r i k
  rw [h.access]
  refine ⟨fun s hs => ?_, fun hs => by simp [World.access, hs]⟩
  unfold World.access
  rw [hs]
  cases k with
  | value n =>
    simp only
    split
    · next h => exact h.choose_spec.2
    · exact someOf_sort (refKey_inhabited W hs)
  | valid n =>
    simp only
    have : s = .bool := by
      cases r with
      | record t =>
        simp only [refKey, Option.bind_eq_some_iff] at hs
        obtain ⟨c, -, hs⟩ := hs
        split at hs <;> cases hs
        rfl
      | union ms =>
        simp only [refKey, Option.bind_eq_some_iff] at hs
        obtain ⟨c, -, hs⟩ := hs
        split at hs
        · cases hs
        · simp only [Option.map_eq_some_iff] at hs
          obtain ⟨_, _, rfl⟩ := hs
          rfl
    rw [this]
    simp [HasSort]

/-- a value that is stored is what the reference leads to -/
theorem access_value (W : World) {o : Nat} {fs : Fields} (ho : W.heap o = some fs) {r : RKey} {n : String} {s : Srt}
    (hs : refKey W.D r (.value n) = some s) {x : FNode} {v : TV} (hx : fs.lookup n = some x)
    (hv : x.expr.eval W.heap = .ok v) (hn : v.val.isNull = false) (hso : HasSort W.D (W.rp v) s) :
    W.access r (W.ref fs) (.value n) = W.rp v := by
  unfold World.access
  rw [hs]
  simp only
  have hex : ∃ v, W.Stored (W.ref fs) n v ∧ HasSort W.D (W.rp v) s := ⟨v, ⟨o, fs, x, ho, rfl, hx, hv, hn⟩, hso⟩
  rw [dif_pos hex]
  obtain ⟨y, hy, hyv⟩ := stored_same W ho hex.choose_spec.1
  rw [hx] at hy
  cases hy
  rw [hv] at hyv
  simp only [Ev.ok.injEq] at hyv
  exact congrArg W.rp hyv.symm

theorem access_valid (W : World) {o : Nat} {fs : Fields} (ho : W.heap o = some fs) {r : RKey} {n : String} {s : Srt}
    (hs : refKey W.D r (.valid n) = some s) (b : Bool)
    (hb : b = true ↔ ∃ x v, fs.lookup n = some x ∧ x.expr.eval W.heap = .ok v ∧ v.val.isNull = false) :
    W.access r (W.ref fs) (.valid n) = .bool b := by
  unfold World.access
  rw [hs]
  simp only [SV.bool.injEq]
  classical
  rw [Bool.eq_iff_iff, hb, decide_eq_true_iff]
  constructor
  · rintro ⟨v, h⟩
    obtain ⟨x, hx, hv⟩ := stored_same W ho h
    obtain ⟨-, -, -, -, -, -, -, hn⟩ := h
    exact ⟨x, v, hx, hv, hn⟩
  · rintro ⟨x, v, h1, h2, h3⟩
    exact ⟨v, o, fs, x, ho, rfl, h1, h2, h3⟩

/-! ### numbers for objects -/

theorem fieldsEq_refl {xs : Fields} (h : (xs.map (·.1)).Nodup) : fieldsEq xs xs = true := by
  rw [fieldsEq_iff]
  exact ⟨rfl, fun f hf => ⟨f.2, lookup_of_mem h hf, rfl⟩⟩

theorem fieldsEq_trans {xs ys zs : Fields} (h : fieldsEq xs ys = true) (h' : fieldsEq ys zs = true) :
    fieldsEq xs zs = true := by
  rw [fieldsEq_iff] at h h' ⊢
  refine ⟨h.1.trans h'.1, fun f hf => ?_⟩
  obtain ⟨m, h1, h2⟩ := h.2 f hf
  obtain ⟨m', h3, h4⟩ := h'.2 (f.1, m) (mem_of_lookup h1)
  exact ⟨m', h3, h2.trans h4⟩

open Classical in
/-- the number of the first object with equal fields -/
noncomputable def objNumber (heap : Nat → Option Fields) (fs : Fields) : Int :=
  if h : ∃ o fs', heap o = some fs' ∧ fieldsEq fs fs' = true then (Nat.find h : Nat) else -1

theorem objNumber_ok {heap : Nat → Option Fields} (h : HeapIds heap) : RefOk heap (objNumber heap) := by
  classical
  intro o o' fs fs' ho ho'
  have n1 := h.1 o fs ho
  have n2 := h.1 o' fs' ho'
  have e1 : ∃ o fs', heap o = some fs' ∧ fieldsEq fs fs' = true := ⟨o, fs, ho, fieldsEq_refl n1⟩
  have e2 : ∃ o fs'', heap o = some fs'' ∧ fieldsEq fs' fs'' = true := ⟨o', fs', ho', fieldsEq_refl n2⟩
  unfold objNumber
  rw [dif_pos e1, dif_pos e2]
  have key : ∀ a b : Nat, (Int.ofNat a = Int.ofNat b) ↔ a = b := fun a b => ⟨fun h => Int.ofNat.inj h, fun h => h ▸ rfl⟩
  refine (key _ _).trans ?_
  constructor
  · intro he
    obtain ⟨f1, g1, g2⟩ := Nat.find_spec e1
    obtain ⟨f2, g3, g4⟩ := Nat.find_spec e2
    rw [he, g3] at g1
    cases g1
    exact fieldsEq_trans g2 (fieldsEq_symm n2 (h.1 _ _ g3) g4)
  · intro he
    apply le_antisymm
    · refine Nat.find_min' e1 ?_
      obtain ⟨f2, g3, g4⟩ := Nat.find_spec e2
      exact ⟨f2, g3, fieldsEq_trans he g4⟩
    · refine Nat.find_min' e2 ?_
      obtain ⟨f2, g3, g4⟩ := Nat.find_spec e1
      exact ⟨f2, g3, fieldsEq_trans (fieldsEq_symm n1 n2 he) g4⟩

end Verif.Lemmas.Vcg
