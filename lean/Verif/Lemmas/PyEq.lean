import Verif.Model.Values
/-! Python's `==` on values is an equivalence relation, provided no dictionary has a key twice. -/
namespace Verif.Lemmas
open Verif.Model

mutual
/-- no dictionary in the value has a key twice -/
def KeysOnce : Val → Prop
  | .arr es => KeysOnceL es
  | .tup fs => (fs.map (·.1)).Nodup ∧ KeysOnceF fs
  | .recv fs => (fs.map (·.1)).Nodup
  | _ => True
/-- the same for the elements of a list -/
def KeysOnceL : List (Option Ty × Val) → Prop
  | [] => True
  | e :: es => KeysOnceT e ∧ KeysOnceL es
/-- the same for a value with its type -/
def KeysOnceT : Option Ty × Val → Prop
  | (_, v) => KeysOnce v
/-- the same for the entries of a dictionary -/
def KeysOnceF : List (String × Option Ty × Val) → Prop
  | [] => True
  | f :: fs => KeysOnceG f ∧ KeysOnceF fs
/-- the same for one entry -/
def KeysOnceG : String × Option Ty × Val → Prop
  | (_, v) => KeysOnceT v
end

theorem mem_of_lookup {α} {l : List (String × α)} {n : String} {a : α}
    (h : l.lookup n = some a) : (n, a) ∈ l := by
  induction l with
  | nil => simp at h
  | cons x l ih =>
    obtain ⟨k, y⟩ := x
    rw [List.lookup_cons] at h
    cases hk : n == k <;> simp only [hk] at h
    · exact List.mem_cons_of_mem _ (ih h)
    · cases h; rw [beq_iff_eq] at hk; subst hk; exact List.mem_cons_self

theorem lookup_of_mem {α} {l : List (String × α)} (hn : (l.map (·.1)).Nodup) {n : String} {a : α}
    (h : (n, a) ∈ l) : l.lookup n = some a := by
  induction l with
  | nil => simp at h
  | cons x l ih =>
    obtain ⟨k, y⟩ := x
    simp only [List.map_cons, List.nodup_cons] at hn
    rw [List.lookup_cons]
    rcases List.mem_cons.1 h with h' | h'
    · cases h'; simp
    · have : n ≠ k := by
        rintro rfl
        exact hn.1 (List.mem_map.2 ⟨(n, a), h', rfl⟩)
      rw [beq_eq_false_iff_ne.2 this]
      exact ih hn.2 h'

/-- two lists of different keys, of the same length: if the first is contained in the second,
the second is contained in the first -/
theorem keys_swap : ∀ {xs ys : List String}, xs.Nodup → ys.Nodup →
    xs.length = ys.length → (∀ k ∈ xs, k ∈ ys) → ∀ k ∈ ys, k ∈ xs
  | [], [], _, _, _, _, _, h => by cases h
  | x :: xs, ys, hx, hy, hl, hs, k, hk => by
    rw [List.nodup_cons] at hx
    have hxy : x ∈ ys := hs x List.mem_cons_self
    by_cases hkx : k = x
    · subst hkx; exact List.mem_cons_self
    · refine List.mem_cons_of_mem _ (keys_swap (ys := ys.erase x) hx.2 (hy.erase x) ?_ ?_ k ?_)
      · rw [List.length_erase_of_mem hxy, ← hl]; rfl
      · intro j hj
        have : j ≠ x := by rintro rfl; exact hx.1 hj
        exact (List.mem_erase_of_ne this).2 (hs j (List.mem_cons_of_mem _ hj))
      · exact (List.mem_erase_of_ne hkx).2 hk
  | [], _ :: _, _, _, hl, _, _, _ => by simp at hl

theorem eqFields_iff {xs ys : List (String × Option Ty × Val)} :
    eqFields xs ys = true ↔ ∀ f ∈ xs, ∃ y, ys.lookup f.1 = some y ∧ eqTV f.2 y = true := by
  induction xs with
  | nil => simp [eqFields]
  | cons f xs ih =>
    obtain ⟨k, x⟩ := f
    simp only [eqFields, Bool.and_eq_true, ih, eqField, List.forall_mem_cons]
    cases h : ys.lookup k with
    | none => simp
    | some y => simp

theorem fieldsEq_iff {xs ys : Fields} :
    fieldsEq xs ys = true ↔
      xs.length = ys.length ∧ ∀ f ∈ xs, ∃ m, ys.lookup f.1 = some m ∧ f.2.id = m.id := by
  simp only [fieldsEq, Bool.and_eq_true, beq_iff_eq, List.all_eq_true]
  constructor
  · rintro ⟨h1, h2⟩
    refine ⟨h1, fun f hf => ?_⟩
    have := h2 f hf
    obtain ⟨k, n⟩ := f
    simp only at this
    cases h : ys.lookup k with
    | none => simp [h] at this
    | some m => exact ⟨m, rfl, by simpa [h] using this⟩
  · rintro ⟨h1, h2⟩
    refine ⟨h1, fun f hf => ?_⟩
    obtain ⟨m, h3, h4⟩ := h2 f hf
    obtain ⟨k, n⟩ := f
    simp only at h3 h4
    simp [h3, h4]

theorem keysOnceF_mem {fs : List (String × Option Ty × Val)} (h : KeysOnceF fs) :
    ∀ f ∈ fs, KeysOnceT f.2 := by
  induction fs with
  | nil => simp
  | cons x fs ih =>
    intro f hf
    rcases List.mem_cons.1 hf with rfl | hf
    · obtain ⟨k, v⟩ := f; exact h.1
    · exact ih h.2 f hf

/-! ### reflexive -/
mutual
theorem pyEq_refl : (v : Val) → KeysOnce v → v.pyEq v = true
  | .null, _ => by simp [Val.pyEq, Val.isNull]
  | .bool b, _ => by simp [Val.pyEq, Val.num]
  | .int i, _ => by simp [Val.pyEq, Val.num]
  | .dec q, _ => by simp [Val.pyEq, Val.num]
  | .str s, _ => by simp [Val.pyEq]
  | .enum t l, _ => by simp [Val.pyEq]
  | .arr es, h => by
    simp only [Val.pyEq]
    exact eqList_refl es (by simpa [KeysOnce] using h)
  | .tup fs, h => by
    simp only [KeysOnce] at h
    simp only [Val.pyEq, beq_self_eq_true, Bool.true_and, eqFields_iff]
    intro f hf
    exact ⟨f.2, lookup_of_mem h.1 hf, eqFields_refl fs h.2 f hf⟩
  | .recv fs, h => by
    simp only [KeysOnce] at h
    simp only [Val.pyEq, fieldsEq_iff, true_and]
    intro f hf
    exact ⟨f.2, lookup_of_mem h hf, rfl⟩
theorem eqTV_refl : (x : Option Ty × Val) → KeysOnceT x → eqTV x x = true
  | (t, v), h => by simp only [eqTV, beq_self_eq_true, Bool.true_and]; exact pyEq_refl v h
theorem eqList_refl : (es : List (Option Ty × Val)) → KeysOnceL es → eqList es es = true
  | [], _ => by simp [eqList]
  | e :: es, h => by
    simp only [eqList, Bool.and_eq_true]
    exact ⟨eqTV_refl e h.1, eqList_refl es h.2⟩
theorem eqFields_refl : (fs : List (String × Option Ty × Val)) → KeysOnceF fs →
    ∀ f ∈ fs, eqTV f.2 f.2 = true
  | [], _, f, hf => by cases hf
  | g :: fs, h, f, hf => by
    rcases List.mem_cons.1 hf with e | hf
    · rw [e]; exact eqG_refl g h.1
    · exact eqFields_refl fs h.2 f hf
theorem eqG_refl : (g : String × Option Ty × Val) → KeysOnceG g → eqTV g.2 g.2 = true
  | (_, x), h => eqTV_refl x h
end

/-! ### symmetric -/

theorem numEq_symm {p q : Rat} : (p == q) = true → (q == p) = true := by
  simp only [beq_iff_eq]; exact Eq.symm

theorem fieldsEq_symm {xs ys : Fields} (hx : (xs.map (·.1)).Nodup) (hy : (ys.map (·.1)).Nodup)
    (h : fieldsEq xs ys = true) : fieldsEq ys xs = true := by
  rw [fieldsEq_iff] at h ⊢
  obtain ⟨hl, h⟩ := h
  refine ⟨hl.symm, fun f hf => ?_⟩
  have hk : f.1 ∈ xs.map (·.1) := keys_swap hx hy (by simpa using hl) (by
    intro k hk
    obtain ⟨g, hg, rfl⟩ := List.mem_map.1 hk
    obtain ⟨m, hm, -⟩ := h g hg
    exact List.mem_map.2 ⟨_, mem_of_lookup hm, rfl⟩) f.1 (List.mem_map.2 ⟨f, hf, rfl⟩)
  obtain ⟨g, hg, e⟩ := List.mem_map.1 hk
  obtain ⟨m, hm, hid⟩ := h g hg
  rw [e, lookup_of_mem hy (n := f.1) (a := f.2) hf, Option.some.injEq] at hm
  subst hm
  exact ⟨g.2, lookup_of_mem hx (e ▸ hg), hid.symm⟩

mutual
theorem pyEq_symm : (v w : Val) → KeysOnce v → KeysOnce w → v.pyEq w = true → w.pyEq v = true
  | .null, w, _, _, h => by cases w <;> simp_all [Val.pyEq, Val.isNull]
  | .bool b, w, _, _, h => by
    cases w <;> simp [Val.pyEq, Val.num] at h ⊢ <;> exact h.symm
  | .int i, w, _, _, h => by
    cases w <;> simp [Val.pyEq, Val.num] at h ⊢ <;> exact h.symm
  | .dec q, w, _, _, h => by
    cases w <;> simp [Val.pyEq, Val.num] at h ⊢ <;> exact h.symm
  | .str s, w, _, _, h => by
    cases w <;> simp [Val.pyEq] at h ⊢; exact h.symm
  | .enum t l, w, _, _, h => by
    cases w <;> simp [Val.pyEq] at h ⊢; exact ⟨h.1.symm, h.2.symm⟩
  | .arr es, w, hv, hw, h => by
    cases w <;> simp only [Val.pyEq, Bool.false_eq_true] at h ⊢
    exact eqList_symm es _ (by simpa [KeysOnce] using hv) (by simpa [KeysOnce] using hw) h
  | .tup xs, w, hv, hw, h => by
    cases w <;> simp only [Val.pyEq, Bool.false_eq_true] at h ⊢
    case tup ys =>
      simp only [KeysOnce] at hv hw
      simp only [Bool.and_eq_true, beq_iff_eq, eqFields_iff] at h ⊢
      obtain ⟨hl, h⟩ := h
      refine ⟨hl.symm, fun f hf => ?_⟩
      have hk : f.1 ∈ xs.map (·.1) := keys_swap hv.1 hw.1 (by simpa using hl) (by
        intro k hk
        obtain ⟨g, hg, rfl⟩ := List.mem_map.1 hk
        obtain ⟨m, hm, -⟩ := h g hg
        exact List.mem_map.2 ⟨_, mem_of_lookup hm, rfl⟩) f.1 (List.mem_map.2 ⟨f, hf, rfl⟩)
      obtain ⟨g, hg, e⟩ := List.mem_map.1 hk
      obtain ⟨m, hm, hid⟩ := h g hg
      rw [e, lookup_of_mem hw.1 (n := f.1) (a := f.2) hf, Option.some.injEq] at hm
      subst hm
      exact ⟨g.2, lookup_of_mem hv.1 (e ▸ hg),
        eqFields_symm xs hv.2 g hg f.2 (keysOnceF_mem hw.2 f hf) hid⟩
  | .recv xs, w, hv, hw, h => by
    cases w <;> simp only [Val.pyEq, Bool.false_eq_true] at h ⊢
    simp only [KeysOnce] at hv hw
    exact fieldsEq_symm hv hw h
theorem eqTV_symm : (x y : Option Ty × Val) → KeysOnceT x → KeysOnceT y →
    eqTV x y = true → eqTV y x = true
  | (t, v), (t', v'), hx, hy, h => by
    simp only [eqTV, Bool.and_eq_true, beq_iff_eq] at h ⊢
    exact ⟨h.1.symm, pyEq_symm v v' hx hy h.2⟩
theorem eqList_symm : (xs ys : List (Option Ty × Val)) → KeysOnceL xs → KeysOnceL ys →
    eqList xs ys = true → eqList ys xs = true
  | [], ys, _, _, h => by cases ys <;> simp_all [eqList]
  | x :: xs, ys, hx, hy, h => by
    cases ys with
    | nil => simp [eqList] at h
    | cons y ys =>
      simp only [eqList, Bool.and_eq_true] at h ⊢
      exact ⟨eqTV_symm x y hx.1 hy.1 h.1, eqList_symm xs ys hx.2 hy.2 h.2⟩
theorem eqFields_symm : (fs : List (String × Option Ty × Val)) → KeysOnceF fs →
    ∀ f ∈ fs, ∀ y, KeysOnceT y → eqTV f.2 y = true → eqTV y f.2 = true
  | [], _, f, hf, _, _, _ => by cases hf
  | g :: fs, hg, f, hf, y, hy, h => by
    rcases List.mem_cons.1 hf with e | hf
    · rw [e] at h ⊢; exact eqG_symm g hg.1 y hy h
    · exact eqFields_symm fs hg.2 f hf y hy h
theorem eqG_symm : (g : String × Option Ty × Val) → KeysOnceG g → ∀ y, KeysOnceT y →
    eqTV g.2 y = true → eqTV y g.2 = true
  | (_, x), hg, y, hy, h => eqTV_symm x y hg hy h
end

/-! ### transitive -/

theorem num_eq {v w : Val} {q : Rat} (hv : v.num = some q) (h : v.pyEq w = true) :
    w.num = some q := by
  cases v <;> simp [Val.num] at hv <;> subst hv <;> cases w <;>
    simp [Val.pyEq, Val.num] at h ⊢ <;> exact h.symm

theorem pyEq_num {v w : Val} {q : Rat} (hv : v.num = some q) (hw : w.num = some q) :
    v.pyEq w = true := by
  cases v <;> simp [Val.num] at hv <;> subst hv <;> cases w <;>
    simp [Val.pyEq, Val.num] at hw ⊢ <;> exact hw.symm

mutual
theorem pyEq_trans : (u v w : Val) → u.pyEq v = true → v.pyEq w = true → u.pyEq w = true
  | .null, v, w, h, h' => by
    cases v <;> simp [Val.pyEq, Val.isNull] at h
    exact h'
  | .bool b, v, w, h, h' =>
    pyEq_num rfl (num_eq (num_eq (v := .bool b) rfl h) h')
  | .int b, v, w, h, h' =>
    pyEq_num rfl (num_eq (num_eq (v := .int b) rfl h) h')
  | .dec b, v, w, h, h' =>
    pyEq_num rfl (num_eq (num_eq (v := .dec b) rfl h) h')
  | .str s, v, w, h, h' => by
    cases v <;> simp [Val.pyEq] at h
    subst h; exact h'
  | .enum t l, v, w, h, h' => by
    cases v <;> simp [Val.pyEq] at h
    obtain ⟨rfl, rfl⟩ := h; exact h'
  | .arr xs, v, w, h, h' => by
    cases v <;> simp only [Val.pyEq, Bool.false_eq_true] at h
    cases w <;> simp only [Val.pyEq, Bool.false_eq_true] at h' ⊢
    exact eqList_trans xs _ _ h h'
  | .tup xs, v, w, h, h' => by
    cases v <;> simp only [Val.pyEq, Bool.false_eq_true] at h
    cases w <;> simp only [Val.pyEq, Bool.false_eq_true] at h' ⊢
    simp only [Bool.and_eq_true, beq_iff_eq, eqFields_iff] at h h' ⊢
    refine ⟨h.1.trans h'.1, fun f hf => ?_⟩
    obtain ⟨y, hy, h1⟩ := h.2 f hf
    obtain ⟨z, hz, h2⟩ := h'.2 _ (mem_of_lookup hy)
    exact ⟨z, hz, eqFields_trans xs f hf y z h1 h2⟩
  | .recv xs, v, w, h, h' => by
    cases v <;> simp only [Val.pyEq, Bool.false_eq_true] at h
    cases w <;> simp only [Val.pyEq, Bool.false_eq_true] at h' ⊢
    simp only [fieldsEq_iff] at h h' ⊢
    refine ⟨h.1.trans h'.1, fun f hf => ?_⟩
    obtain ⟨y, hy, h1⟩ := h.2 f hf
    obtain ⟨z, hz, h2⟩ := h'.2 _ (mem_of_lookup hy)
    exact ⟨z, hz, h1.trans h2⟩
theorem eqTV_trans : (x y z : Option Ty × Val) → eqTV x y = true → eqTV y z = true →
    eqTV x z = true
  | (t, v), (t', v'), (t'', v''), h, h' => by
    simp only [eqTV, Bool.and_eq_true, beq_iff_eq] at h h' ⊢
    exact ⟨h.1.trans h'.1, pyEq_trans v v' v'' h.2 h'.2⟩
theorem eqList_trans : (xs ys zs : List (Option Ty × Val)) → eqList xs ys = true →
    eqList ys zs = true → eqList xs zs = true
  | [], ys, zs, h, h' => by
    cases ys with
    | nil => exact h'
    | cons => simp [eqList] at h
  | x :: xs, ys, zs, h, h' => by
    cases ys with
    | nil => simp [eqList] at h
    | cons y ys =>
      cases zs with
      | nil => simp [eqList] at h'
      | cons z zs =>
        simp only [eqList, Bool.and_eq_true] at h h' ⊢
        exact ⟨eqTV_trans x y z h.1 h'.1, eqList_trans xs ys zs h.2 h'.2⟩
theorem eqFields_trans : (fs : List (String × Option Ty × Val)) → ∀ f ∈ fs, ∀ y z,
    eqTV f.2 y = true → eqTV y z = true → eqTV f.2 z = true
  | [], f, hf, _, _, _, _ => by cases hf
  | g :: fs, f, hf, y, z, h, h' => by
    rcases List.mem_cons.1 hf with e | hf
    · rw [e] at h ⊢; exact eqG_trans g y z h h'
    · exact eqFields_trans fs f hf y z h h'
theorem eqG_trans : (g : String × Option Ty × Val) → ∀ y z, eqTV g.2 y = true →
    eqTV y z = true → eqTV g.2 z = true
  | (_, x), y, z, h, h' => eqTV_trans x y z h h'
end

end Verif.Lemmas
