import Verif.Model.SymbolTable
import Mathlib.Data.List.Basic
import Mathlib.Data.List.Pairwise
import Mathlib.Logic.Function.Iterate
/-!
# C11, C12, C13: declared names, lookups and scopes
-/
namespace Verif.Props
open Verif.Model

/-! ## Specification -/

/-- Two names are the same once underscores are dropped and case is ignored. -/
def Similar (a b : List Char) : Prop :=
  (a.filter (fun c => c ≠ '_')).map Char.toLower = (b.filter (fun c => c ≠ '_')).map Char.toLower

instance (a b : List Char) : Decidable (Similar a b) := inferInstanceAs (Decidable (_ = _))

/-- All entities that can be seen from a table: its own, those of its parents and those
of the tables made visible. -/
def visible (t : STab) : List Ent :=
  t.own.map Prod.snd ++ (t.parents.flatten.map Prod.snd ++ t.imported.flatten.flatten.map Prod.snd)

/-- The tables of the tool: built from the empty table by declarations, by opening a
child table (components of an extension) and by making a table visible in a new
one (a package sees the global table).  All package preambles are read before any
declaration (`trlc/trlc.py:306-376`), so the global table is complete when the first
entity is declared in a package; hence importing a copy is faithful. -/
inductive Built : STab → Prop
  | empty : Built .empty
  | register {t t' : STab} {e : Ent} : Built t → t.register e = .ok t' → Built t'
  | child {t : STab} : Built t → t.imported = [] → Built t.child
  | importing {t : STab} : Built t → t.imported = [] → Built t.importing

/-! ## Lemmas -/

private theorem toLower_us (c : Char) : Char.toLower c = '_' ↔ c = '_' := by
  unfold Char.toLower
  split
  · rename_i h
    constructor
    · intro h2
      exfalso
      have hv := congrArg Char.val h2
      simp only [Char.val] at hv
      simp only [UInt32.le_iff_toNat_le, ge_iff_le] at h
      have h3 : c.val.toNat + 32 = 95 := by
        have := congrArg UInt32.toNat hv
        simp only [UInt32.toNat_add] at this
        have hA : ('A'.val).toNat = 65 := rfl
        have hZ : ('Z'.val).toNat = 90 := rfl
        have hU : UInt32.toNat 95 = 95 := rfl
        have h32 : ('a'.val - 'A'.val).toNat = 32 := rfl
        simp only [h32] at this
        have hus : ('_'.val).toNat = 95 := rfl
        first
          | (rw [Nat.mod_eq_of_lt (by omega)] at this; omega)
          | omega
      have hA : ('A'.val).toNat = 65 := rfl
      have : c.val.toNat = 63 := by omega
      omega
    · rintro rfl
      revert h; decide
  · rfl

theorem simplified_iff (a b : List Char) : simplifiedName a = simplifiedName b ↔ Similar a b := by
  have key : ∀ n : List Char, simplifiedName n = (n.filter (fun c => c ≠ '_')).map Char.toLower := by
    intro n
    unfold simplifiedName
    rw [List.filter_map]
    congr 1
    apply List.filter_congr
    intro c _
    simp [Function.comp, toLower_us]
  rw [key, key, Similar]

private theorem get_some {f : Frame} {k : List Char} {e : Ent} (h : f.get k = some e) :
    (k, e) ∈ f := by
  unfold Frame.get at h
  rw [Option.map_eq_some_iff] at h
  obtain ⟨p, hp, rfl⟩ := h
  have h1 := List.mem_of_find?_eq_some hp
  have h2 := List.find?_some hp
  simp only [decide_eq_true_eq] at h2
  subst h2
  exact h1

private theorem get_none {f : Frame} {k : List Char} (h : f.get k = none) : ∀ e, (k, e) ∉ f := by
  unfold Frame.get at h
  rw [Option.map_eq_none_iff, List.find?_eq_none] at h
  intro e he
  have := h _ he
  simp at this

private theorem chainGet_some {fs : List Frame} {k : List Char} {e : Ent} (h : chainGet fs k = some e) :
    (k, e) ∈ fs.flatten := by
  induction fs with
  | nil => simp [chainGet] at h
  | cons f fs ih =>
    simp only [chainGet] at h
    split at h
    · rename_i e' he
      cases h
      simp [get_some he]
    · simp [ih h]

private theorem chainGet_none {fs : List Frame} {k : List Char} (h : chainGet fs k = none) :
    ∀ e, (k, e) ∉ fs.flatten := by
  induction fs with
  | nil => simp
  | cons f fs ih =>
    simp only [chainGet] at h
    split at h
    · cases h
    · rename_i he
      intro e hm
      rw [List.flatten_cons, List.mem_append] at hm
      rcases hm with hm | hm
      · exact get_none he e hm
      · exact ih h e hm

private theorem chainContains_eq (fs : List Frame) (k : List Char) (p : Option (List Char)) :
    chainContains fs k p = (chainGet fs k).any (fun e => p.all (· = e.name)) := by
  induction fs with
  | nil => simp [chainContains, chainGet]
  | cons f fs ih =>
    simp only [chainContains, chainGet]
    split <;> simp_all

/-- all (key, entity) pairs seen from a table -/
private def pairs (t : STab) : Frame := t.own ++ (t.parents.flatten ++ t.imported.flatten.flatten)

private theorem visible_pairs (t : STab) : visible t = (pairs t).map Prod.snd := by
  simp [visible, pairs, List.map_append]

private theorem find_some {t : STab} {k : List Char} {e : Ent} (h : t.find k = some e) :
    (k, e) ∈ pairs t := by
  unfold STab.find at h
  rw [List.findSome?_cons] at h
  split at h
  · rename_i h1
    cases h
    have := chainGet_some h1
    simp only [List.flatten_cons, List.mem_append] at this
    simp only [pairs, List.mem_append]
    tauto
  · obtain ⟨c, hc, h1⟩ := List.exists_of_findSome?_eq_some h
    have := chainGet_some h1
    simp only [pairs, List.mem_append]
    refine Or.inr (Or.inr ?_)
    rw [List.mem_flatten] at this ⊢
    obtain ⟨l, hl, hk⟩ := this
    exact ⟨l, List.mem_flatten.mpr ⟨c, hc, hl⟩, hk⟩

private theorem find_none {t : STab} {k : List Char} (h : t.find k = none) :
    ∀ e, (k, e) ∉ pairs t := by
  unfold STab.find at h
  rw [List.findSome?_eq_none_iff] at h
  intro e hm
  simp only [pairs, List.mem_append] at hm
  have h0 := chainGet_none (h _ List.mem_cons_self) e
  simp only [List.flatten_cons, List.mem_append, not_or] at h0
  rcases hm with hm | hm | hm
  · exact h0.1 hm
  · exact h0.2 hm
  · rw [List.mem_flatten] at hm
    obtain ⟨l, hl, hk⟩ := hm
    obtain ⟨c, hc, hl⟩ := List.mem_flatten.mp hl
    exact chainGet_none (h c (List.mem_cons_of_mem _ hc)) e (List.mem_flatten.mpr ⟨l, hl, hk⟩)

/-- The invariant of built tables -/
private structure WF (t : STab) : Prop where
  keys : ∀ p ∈ pairs t, p.1 = simplifiedName p.2.name
  distinct : (pairs t).Pairwise (fun p q => p.1 ≠ q.1)
  shape : t.parents = [] ∨ t.imported = []

private theorem uniq {t : STab} (h : WF t) {k : List Char} {e e' : Ent}
    (h1 : (k, e) ∈ pairs t) (h2 : (k, e') ∈ pairs t) : e = e' := by
  by_contra hne
  have hsym : Std.Symm (fun p q : List Char × Ent => p.1 ≠ q.1) := ⟨fun a b hab => Ne.symm hab⟩
  have := h.distinct.forall h1 h2 (by simpa using hne)
  exact this rfl

private theorem find_iff {t : STab} (h : WF t) {k : List Char} {e : Ent} :
    t.find k = some e ↔ (k, e) ∈ pairs t := by
  constructor
  · exact find_some
  · intro hm
    cases hf : t.find k with
    | none => exact absurd hm (find_none hf e)
    | some e' => rw [uniq h hm (find_some hf)]

private theorem containsRaw_iff {t : STab} (h : WF t) {k : List Char} {p : Option (List Char)} :
    t.containsRaw k p = (t.find k).any (fun e => p.all (· = e.name)) := by
  unfold STab.containsRaw STab.find
  rw [List.findSome?_cons]
  simp only [chainGet]
  cases hg : t.own.get k with
  | some e => simp
  | none =>
    simp only
    rcases h.shape with hp | hi
    · rw [hp]
      simp only [List.isEmpty_nil, if_true, chainGet]
      -- imported: the first hit decides; in a well formed table there is only one
      have hsub : ∀ c ∈ t.imported, ∀ e, (k, e) ∈ c.flatten → (k, e) ∈ pairs t := by
        intro c hc e he
        simp only [pairs, List.mem_append]
        refine Or.inr (Or.inr ?_)
        obtain ⟨l, hl, hk⟩ := List.mem_flatten.mp he
        exact List.mem_flatten.mpr ⟨l, List.mem_flatten.mpr ⟨c, hc, hl⟩, hk⟩
      generalize t.imported = cs at hsub
      induction cs with
      | nil => simp
      | cons c cs ih =>
        rw [List.any_cons, ih (fun c' hc' => hsub c' (List.mem_cons_of_mem _ hc')),
          List.findSome?_cons, chainContains_eq]
        cases hc : chainGet c k with
        | none => simp
        | some e =>
          simp only [Option.any_some]
          cases hf : List.findSome? (fun c => chainGet c k) cs with
          | none => simp
          | some e' =>
            obtain ⟨c', hc', h1⟩ := List.exists_of_findSome?_eq_some hf
            have a := hsub c List.mem_cons_self e (chainGet_some hc)
            have b := hsub c' (List.mem_cons_of_mem _ hc') e' (chainGet_some h1)
            rw [uniq h a b]
            simp
    · rw [hi]
      simp only [List.any_nil, List.findSome?_nil]
      cases hp : t.parents with
      | nil => simp [chainGet]
      | cons f fs =>
        simp only [List.isEmpty_cons, Bool.false_eq_true, if_false]
        rw [chainContains_eq]
        cases hc : chainGet (f :: fs) k <;> simp

private theorem register_ok {t t' : STab} {e : Ent} (h : t.register e = .ok t') :
    t.containsRaw (simplifiedName e.name) none = false ∧
    t' = { t with own := t.own ++ [(simplifiedName e.name, e)] } := by
  unfold STab.register at h
  simp only at h
  split at h
  · split at h
    · split at h <;> cases h
    · cases h
  · rename_i hc
    cases h
    exact ⟨by simpa using hc, rfl⟩

private theorem built_wf {t : STab} (h : Built t) : WF t := by
  induction h with
  | empty => exact ⟨by simp [pairs, STab.empty], by simp [pairs, STab.empty], Or.inl rfl⟩
  | @register t t' e hb hr ih =>
    obtain ⟨hc, rfl⟩ := register_ok hr
    rw [containsRaw_iff ih] at hc
    have hf : t.find (simplifiedName e.name) = none := by
      cases hf : t.find (simplifiedName e.name) with
      | none => rfl
      | some e' => rw [hf] at hc; simp at hc
    have hfresh := find_none hf
    have hne : ∀ p ∈ pairs t, p.1 ≠ simplifiedName e.name := by
      rintro ⟨k, e'⟩ hp hk
      simp only at hk
      subst hk
      exact hfresh _ hp
    refine ⟨?_, ?_, ih.shape⟩
    · intro p hp
      simp only [pairs, List.mem_append, List.mem_singleton] at hp
      rcases hp with (hp | rfl) | hp
      · exact ih.keys p (by simp only [pairs, List.mem_append]; tauto)
      · rfl
      · exact ih.keys p (by simp only [pairs, List.mem_append]; tauto)
    · have hd := ih.distinct
      simp only [pairs] at hd hne ⊢
      rw [List.append_assoc, List.pairwise_append] at *
      obtain ⟨d1, d2, d3⟩ := hd
      refine ⟨d1, ?_, ?_⟩
      · rw [List.singleton_append, List.pairwise_cons]
        exact ⟨fun q hq => Ne.symm (hne q (List.mem_append_right _ hq)), d2⟩
      · intro p hp q hq
        rw [List.singleton_append, List.mem_cons] at hq
        rcases hq with rfl | hq
        · exact hne p (List.mem_append_left _ hp)
        · exact d3 p hp q hq
  | @child t hb hi ih =>
    have : pairs t.child = pairs t := by
      simp [pairs, STab.child, hi, List.append_assoc]
    exact ⟨by rw [this]; exact ih.keys, by rw [this]; exact ih.distinct, Or.inr rfl⟩
  | @importing t hb hi ih =>
    have : pairs t.importing = pairs t := by
      simp [pairs, STab.importing, hi, List.append_assoc]
    exact ⟨by rw [this]; exact ih.keys, by rw [this]; exact ih.distinct, Or.inl rfl⟩

private theorem mem_visible {t : STab} (h : WF t) {e : Ent} :
    e ∈ visible t ↔ t.find (simplifiedName e.name) = some e := by
  rw [find_iff h, visible_pairs, List.mem_map]
  constructor
  · rintro ⟨⟨k, e'⟩, hp, rfl⟩
    have := h.keys _ hp
    simp only at this
    rw [← this]
    exact hp
  · intro hp
    exact ⟨_, hp, rfl⟩

/-! ## C11 -/

/-- **C11**: in every table, no two visible declarations have similar names. -/
theorem C11_names_distinct {t : STab} (h : Built t) :
    (visible t).Pairwise (fun a b => ¬ Similar a.name b.name) := by
  have w := built_wf h
  rw [visible_pairs, List.pairwise_map]
  refine List.Pairwise.imp_of_mem ?_ w.distinct
  intro p q hp hq hne hs
  apply hne
  rw [w.keys p hp, w.keys q hq]
  exact (simplified_iff _ _).mpr hs

/-- **C11**: a declaration is accepted exactly if no visible declaration has a similar
name.  If accepted, it is the only change, and it comes last; if rejected, it is
rejected as a duplicate of, or as too similar to, a visible declaration. -/
theorem C11_register {t : STab} (h : Built t) (e : Ent) :
    ((∀ d ∈ visible t, ¬ Similar d.name e.name) ∧
      ∃ t', t.register e = .ok t' ∧ t'.own.map Prod.snd = t.own.map Prod.snd ++ [e] ∧
        t'.parents = t.parents ∧ t'.imported = t.imported) ∨
    (∃ d ∈ visible t, Similar d.name e.name ∧
      ((d.name = e.name ∧ t.register e = .error .duplicate) ∨
       (d.name ≠ e.name ∧ t.register e = .error (.tooSimilar d.name)))) := by
  have w := built_wf h
  cases hf : t.find (simplifiedName e.name) with
  | none =>
    left
    refine ⟨?_, { t with own := t.own ++ [(simplifiedName e.name, e)] }, ?_, by simp, rfl, rfl⟩
    · intro d hd hs
      rw [mem_visible w, (simplified_iff _ _).mpr hs, hf] at hd
      cases hd
    · simp [STab.register, containsRaw_iff w, hf]
  | some d =>
    right
    have hp := find_some hf
    have hk := w.keys _ hp
    simp only at hk
    refine ⟨d, ?_, (simplified_iff _ _).mp hk.symm, ?_⟩
    · rw [mem_visible w, ← hk, hf]
    · by_cases hn : d.name = e.name
      · exact Or.inl ⟨hn, by simp [STab.register, containsRaw_iff w, hf, STab.lookupDirect, hn]⟩
      · exact Or.inr ⟨hn, by simp [STab.register, containsRaw_iff w, hf, STab.lookupDirect, hn]⟩

/-- **C11**: any history of declarations on a built table gives a built table (so the two
theorems above apply after it). -/
theorem C11_history {t : STab} (h : Built t) (es : List Ent) : Built (t.registerAll es) := by
  induction es generalizing t with
  | nil => exact h
  | cons e es ih =>
    simp only [STab.registerAll]
    split
    · rename_i t' hr; exact ih (.register h hr)
    · exact ih h

/-! ## C12 -/

/-- **C12**: a lookup succeeds with `e` iff `e` is visible and declared with exactly this
spelling (and has the requested class). -/
theorem C12_lookup_iff {t : STab} (h : Built t) (name : List Char) (sub : Option (Ent → Bool)) (e : Ent) :
    t.lookup name sub = .ok e ↔ e ∈ visible t ∧ e.name = name ∧ (∀ p, sub = some p → p e = true) := by
  have w := built_wf h
  rw [mem_visible w]
  unfold STab.lookup STab.lookupDirect
  cases hf : t.find (simplifiedName name) with
  | none =>
    simp only [reduceCtorEq, false_iff]
    rintro ⟨h1, rfl, _⟩
    rw [h1] at hf; cases hf
  | some rv =>
    simp only [Bool.not_false, Bool.true_and, ne_eq, decide_not, Bool.not_eq_true', decide_eq_false_iff_not]
    by_cases hn : rv.name = name
    · simp only [hn, not_true, if_false]
      cases sub with
      | none =>
        simp only [Option.any_none, Bool.false_eq_true, if_false, Except.ok.injEq]
        constructor
        · rintro rfl; exact ⟨by rw [hn, hf], hn, by simp⟩
        · rintro ⟨h1, h2, -⟩; rw [h2, hf] at h1; exact Option.some.inj h1
      | some p =>
        simp only [Option.any_some, Bool.not_eq_true', Option.some.injEq, forall_eq']
        by_cases hp : p rv = true
        · simp only [hp, Bool.true_eq_false, if_false, Except.ok.injEq]
          constructor
          · rintro rfl; exact ⟨by rw [hn, hf], hn, hp⟩
          · rintro ⟨h1, h2, -⟩; rw [h2, hf] at h1; exact Option.some.inj h1
        · simp only [Bool.not_eq_true] at hp
          simp only [hp, if_true, reduceCtorEq, false_iff]
          rintro ⟨h1, h2, h3⟩
          rw [h2, hf] at h1
          rw [← Option.some.inj h1, hp] at h3
          cases h3
    · simp only [hn, not_false_eq_true, if_true, reduceCtorEq, false_iff]
      rintro ⟨h1, h2, -⟩
      rw [h2, hf] at h1
      exact hn (by rw [Option.some.inj h1, h2])

/-- **C12**: looking up a name nobody declared is an error, telling the declared spelling
if there is one that differs in case or underscores only. -/
theorem C12_lookup_error {t : STab} (h : Built t) (name : List Char) (sub : Option (Ent → Bool))
    (hn : ∀ d ∈ visible t, d.name ≠ name) :
    (∃ d ∈ visible t, Similar d.name name ∧ t.lookup name sub = .error (.spelling d.name)) ∨
    ((∀ d ∈ visible t, ¬ Similar d.name name) ∧ t.lookup name sub = .error .unknown) := by
  have w := built_wf h
  unfold STab.lookup STab.lookupDirect
  cases hf : t.find (simplifiedName name) with
  | none =>
    right
    refine ⟨?_, rfl⟩
    intro d hd hs
    rw [mem_visible w, (simplified_iff _ _).mpr hs, hf] at hd
    cases hd
  | some d =>
    left
    have hk := w.keys _ (find_some hf)
    simp only at hk
    have hv : d ∈ visible t := by rw [mem_visible w, ← hk, hf]
    exact ⟨d, hv, (simplified_iff _ _).mp hk.symm, by simp [hn d hv]⟩

/-- **C12**: `in` agrees with lookup. -/
theorem C12_contains_iff {t : STab} (h : Built t) (name : List Char) :
    t.contains name = true ↔ ∃ e, t.lookup name none = .ok e := by
  have w := built_wf h
  unfold STab.contains STab.lookup STab.lookupDirect
  rw [containsRaw_iff w]
  cases hf : t.find (simplifiedName name) with
  | none => simp
  | some d =>
    by_cases hn : d.name = name
    · simp [hn]
    · simp [hn, Ne.symm hn]

/-- **C12**: the API lookup `lookup_assuming` gives the entity whenever `lookup` does, and
`None` exactly if no entity has this spelling. -/
theorem C12_lookup_assuming {t : STab} (h : Built t) (name : List Char) (sub : Option (Ent → Bool)) :
    (∀ e, t.lookupAssuming name sub = .ok (some e) ↔ t.lookup name sub = .ok e) ∧
    (t.lookupAssuming name sub = .ok none ↔ ∀ d ∈ visible t, d.name ≠ name) := by
  have w := built_wf h
  unfold STab.lookup STab.lookupDirect STab.lookupAssuming
  cases hf : t.find (simplifiedName name) with
  | none =>
    simp only [reduceCtorEq, Except.ok.injEq, implies_true, true_and, true_iff]
    rintro d hd rfl
    rw [mem_visible w, hf] at hd; cases hd
  | some d =>
    by_cases hn : d.name = name
    · refine ⟨fun e => ?_, ?_⟩
      · by_cases hs : (sub.any fun p => !p d) = true <;> simp [hn, hs]
      · constructor
        · intro hx
          by_cases hs : (sub.any fun p => !p d) = true <;> simp [hn, hs] at hx
        · intro hx
          exact absurd hn (hx d (by rw [mem_visible w, hn, hf]))
    · refine ⟨fun e => by simp [hn], ?_⟩
      simp only [ne_eq, hn, not_false_eq_true, if_true, true_iff]
      rintro d' hd' rfl
      rw [mem_visible w, hf] at hd'
      exact hn (by rw [Option.some.inj hd'])

/-- **C12**: later declarations, accepted or not, never change an earlier successful
lookup. -/
theorem C12_stable {t : STab} (h : Built t) (es : List Ent) (name : List Char)
    (sub : Option (Ent → Bool)) (e : Ent) (hl : t.lookup name sub = .ok e) :
    (t.registerAll es).lookup name sub = .ok e := by
  have hsub : ∀ (es : List Ent) (t : STab), ∀ d ∈ visible t, d ∈ visible (t.registerAll es) := by
    intro es
    induction es with
    | nil => intro t d hd; exact hd
    | cons x xs ih =>
      intro t d hd
      simp only [STab.registerAll]
      split
      · rename_i t' hr
        obtain ⟨-, rfl⟩ := register_ok hr
        apply ih
        simp only [visible, List.map_append, List.mem_append] at hd ⊢
        tauto
      · exact ih t d hd
  rw [C12_lookup_iff h] at hl
  rw [C12_lookup_iff (C11_history h es)]
  exact ⟨hsub es t e hl.1, hl.2⟩

/-! ## C13 -/

/-- What can be found in a stack of tables, given innermost first: the answer of the
first table in which some visible entity has this spelling. -/
inductive Resolves (name : List Char) : List STab → Ent → Prop
  | here {t : STab} {ts : List STab} {e : Ent} : e ∈ visible t → e.name = name → Resolves name (t :: ts) e
  | there {t : STab} {ts : List STab} {e : Ent} : (∀ d ∈ visible t, d.name ≠ name) →
      Resolves name ts e → Resolves name (t :: ts) e

/-- **C13**: lookup in nested scopes returns the entity of the innermost scope that
declares the name. -/
theorem C13_innermost {s : Scope} (h : ∀ t ∈ s, Built t) (hs : s ≠ []) (name : List Char) (e : Ent) :
    s.lookup name none = some (.ok e) ↔ Resolves name s.reverse e := by
  obtain ⟨t0, rest, rfl⟩ := List.exists_cons_of_ne_nil hs
  unfold Scope.lookup
  simp only [List.reverse_cons]
  have hb0 := h t0 List.mem_cons_self
  have hb : ∀ t ∈ rest.reverse, Built t := fun t ht => h t (List.mem_cons_of_mem _ (List.mem_reverse.mp ht))
  generalize rest.reverse = r at hb
  have hc : ∀ t, Built t → (t.contains name = true ↔ ∃ d ∈ visible t, d.name = name) := by
    intro t ht
    rw [C12_contains_iff ht]
    constructor
    · rintro ⟨d, hd⟩
      rw [C12_lookup_iff ht] at hd
      exact ⟨d, hd.1, hd.2.1⟩
    · rintro ⟨d, hd, hn⟩
      exact ⟨d, (C12_lookup_iff ht name none d).mpr ⟨hd, hn, by simp⟩⟩
  have hu : ∀ t, Built t → (t.lookup name none = .ok e ↔ e ∈ visible t ∧ e.name = name) := by
    intro t ht
    rw [C12_lookup_iff ht]
    simp
  induction r with
  | nil =>
    simp only [List.find?_nil, List.nil_append, Option.some.injEq]
    rw [hu t0 hb0]
    constructor
    · rintro ⟨a, b⟩; exact .here a b
    · intro hr
      cases hr with
      | here a b => exact ⟨a, b⟩
      | there _ hr => cases hr
  | cons t ts ih =>
    have ht := hb t List.mem_cons_self
    rw [List.find?_cons]
    by_cases hin : t.contains name = true
    · simp only [hin, Option.some.injEq]
      rw [hu t ht]
      constructor
      · rintro ⟨a, b⟩; exact .here a b
      · intro hr
        cases hr with
        | here a b => exact ⟨a, b⟩
        | there hn _ =>
          obtain ⟨d, hd, hdn⟩ := (hc t ht).mp hin
          exact absurd hdn (hn d hd)
    · simp only [Bool.not_eq_true] at hin
      simp only [hin]
      refine Iff.trans (ih (fun t' ht' => hb t' (List.mem_cons_of_mem _ ht'))) ?_
      have hno : ∀ d ∈ visible t, d.name ≠ name := by
        intro d hd hdn
        have := (hc t ht).mpr ⟨d, hd, hdn⟩
        rw [hin] at this; cases this
      constructor
      · exact fun hr => .there hno hr
      · intro hr
        cases hr with
        | here a b => exact absurd b (hno _ a)
        | there _ hr => exact hr

/-- **C13**: leaving the scope entered last restores the stack, whatever was pushed. -/
theorem C13_push_pop (s : Scope) (t : STab) : (s.push t).pop = some s := by
  simp [Scope.push, Scope.pop]

/-- Balanced sequences of entering and leaving scopes -/
inductive Balanced : Scope → Scope → Prop
  | refl (s : Scope) : Balanced s s
  | nest {s s' u : Scope} {t : STab} : Balanced (s.push t) u → u.pop = some s' → Balanced s s'
  | trans {s u w : Scope} : Balanced s u → Balanced u w → Balanced s w

/-- **C13**: any properly nested sequence of entering and leaving scopes restores the
stack, hence all lookups. -/
theorem C13_balanced {s s' : Scope} (h : Balanced s s') : s' = s := by
  induction h with
  | refl => rfl
  | nest _ hp ih => subst ih; rw [C13_push_pop] at hp; exact (Option.some.inj hp).symm
  | trans _ _ ih1 ih2 => rw [ih2, ih1]

/-- **C13**: scopes can not be left more often than entered: after `n` pushes, `n` pops
succeed and bring back the empty scope, one more raises. -/
theorem C13_no_underflow (ts : List STab) (n : Nat) :
    ((fun o : Option Scope => o.bind Scope.pop)^[n]) (some (ts.foldl Scope.push []))
      = if n ≤ ts.length then some ((ts.take (ts.length - n)).foldl Scope.push []) else none := by
  have hfold : ∀ (l : List STab) (s : Scope), l.foldl Scope.push s = s ++ l := by
    intro l
    induction l with
    | nil => simp
    | cons a l ih => intro s; simp [ih, Scope.push]
  simp only [hfold, List.nil_append]
  have hnone : ∀ n, ((fun o : Option Scope => o.bind Scope.pop)^[n]) none = none := by
    intro n; induction n with
    | zero => rfl
    | succ n ih => rw [Function.iterate_succ_apply]; exact ih
  induction n generalizing ts with
  | zero => simp
  | succ n ih =>
    rw [Function.iterate_succ_apply]
    cases hts : ts.isEmpty with
    | true =>
      have : ts = [] := by simpa using hts
      subst this
      simp [Scope.pop, hnone]
    | false =>
      have hne : ts ≠ [] := by simpa using hts
      have hl : 0 < ts.length := List.length_pos_iff.mpr hne
      simp only [Option.bind_some, Scope.pop, hts, Bool.false_eq_true, if_false]
      rw [ih, List.length_dropLast]
      by_cases hle : n + 1 ≤ ts.length
      · rw [if_pos (by omega), if_pos hle, List.dropLast_eq_take, List.take_take]
        congr 2; omega
      · rw [if_neg (by omega), if_neg hle]

/-! ## Concrete cases -/

private def nm (s : String) : List Char := s.toList
private def g0 : STab := STab.empty.registerAll [⟨nm "Integer", 0, 0⟩, ⟨nm "pkg", 1, 1⟩]
private def p0 : STab := g0.importing.registerAll
  [⟨nm "Req", 2, 2⟩, ⟨nm "re_q", 3, 2⟩, ⟨nm "PKG", 4, 2⟩, ⟨nm "Other", 5, 2⟩]

example : Built p0 := C11_history (.importing (C11_history .empty _) (by decide +kernel)) _
example : visible p0 = [⟨nm "Req", 2, 2⟩, ⟨nm "Other", 5, 2⟩, ⟨nm "Integer", 0, 0⟩, ⟨nm "pkg", 1, 1⟩] := by
  decide +kernel
example : p0.lookup (nm "pkg") none = .ok ⟨nm "pkg", 1, 1⟩ := by rfl
example : p0.lookup (nm "re_q") none = .error (.spelling (nm "Req")) := by rfl
example : Similar (nm "Foo_Bar") (nm "foobar") ∧ ¬ Similar (nm "foo") (nm "fo") := by decide +kernel
example : Scope.lookup [g0, p0, p0.child] (nm "Integer") none = some (.ok ⟨nm "Integer", 0, 0⟩) := by rfl

end Verif.Props
