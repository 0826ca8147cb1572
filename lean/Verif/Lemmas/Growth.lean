import Verif.Spec.Declarations
import Verif.Lemmas.Extension
/-!
# Declarations only grow
-/
namespace Verif.Lemmas
open Verif.Model Verif.Spec

/-- Everything declared in `D` is still declared in `D'`; enumeration types may have further
literals, record types further components. -/
structure Grow (D D' : Decls) : Prop where
  recs : ∀ (t : Nat) (r : RecDecl), D.recs[t]? = some r →
    ∃ r', D'.recs[t]? = some r' ∧ r'.parent = r.parent ∧ r.own <+: r'.own
  tups : D.tups <+: D'.tups
  enums : ∀ (t : Nat) (ls : List String), D.enums[t]? = some ls →
    ∃ ls', D'.enums[t]? = some ls' ∧ ls <+: ls'

variable {D D' D'' : Decls}

theorem Grow.refl (D : Decls) : Grow D D :=
  ⟨fun _ r h => ⟨r, h, rfl, List.prefix_rfl⟩, List.prefix_rfl, fun _ ls h => ⟨ls, h, List.prefix_rfl⟩⟩

theorem Grow.trans (h : Grow D D') (h' : Grow D' D'') : Grow D D'' := by
  refine ⟨fun t r hr => ?_, h.tups.trans h'.tups, fun t ls hl => ?_⟩
  · obtain ⟨r', h1, h2, h3⟩ := h.recs t r hr
    obtain ⟨r'', h4, h5, h6⟩ := h'.recs t r' h1
    exact ⟨r'', h4, h5.trans h2, h3.trans h6⟩
  · obtain ⟨l', h1, h2⟩ := h.enums t ls hl
    obtain ⟨l'', h3, h4⟩ := h'.enums t l' h1
    exact ⟨l'', h3, h2.trans h4⟩

theorem get_lt {α : Type} {l : List α} {i : Nat} {a : α} (h : l[i]? = some a) : i < l.length :=
  (List.getElem?_eq_some_iff.1 h).1

theorem get_some {α : Type} {l : List α} {i : Nat} (h : i < l.length) : ∃ a, l[i]? = some a :=
  ⟨l[i], List.getElem?_eq_getElem h⟩

theorem prefix_get {α : Type} {l l' : List α} (h : l <+: l') {i : Nat} {a : α} (hi : l[i]? = some a) :
    l'[i]? = some a := by
  obtain ⟨m, rfl⟩ := h
  rw [List.getElem?_append_left (get_lt hi), hi]

theorem Grow.recsLen (h : Grow D D') : D.recs.length ≤ D'.recs.length := by
  refine Nat.le_of_not_lt fun hc => ?_
  obtain ⟨r, hr⟩ := get_some (l := D.recs) (i := D'.recs.length) (by omega)
  obtain ⟨r', h', -⟩ := h.recs _ _ hr
  have := get_lt h'
  omega

theorem Grow.enumsLen (h : Grow D D') : D.enums.length ≤ D'.enums.length := by
  refine Nat.le_of_not_lt fun hc => ?_
  obtain ⟨r, hr⟩ := get_some (l := D.enums) (i := D'.enums.length) (by omega)
  obtain ⟨r', h', -⟩ := h.enums _ _ hr
  have := get_lt h'
  omega

theorem Grow.parent (h : Grow D D') {t p : Nat} (hp : ParentOf D t p) : ParentOf D' t p := by
  obtain ⟨r, hr, hp⟩ := hp
  obtain ⟨r', h1, h2, -⟩ := h.recs _ _ hr
  exact ⟨r', h1, h2.trans hp⟩

theorem Grow.parent_old (h : Grow D D') {t p : Nat} (ht : t < D.recs.length) (hp : ParentOf D' t p) :
    ParentOf D t p := by
  obtain ⟨r, hr⟩ := get_some ht
  obtain ⟨r', h1, h2, -⟩ := h.recs _ _ hr
  obtain ⟨r'', h3, h4⟩ := hp
  rw [h1] at h3
  cases h3
  exact ⟨r, hr, h2.symm.trans h4⟩

theorem Grow.extends (h : Grow D D') {t a : Nat} (he : Extends D t a) : Extends D' t a := by
  induction he with
  | refl ht => exact .refl (Nat.lt_of_lt_of_le ht h.recsLen)
  | step hp _ ih => exact .step (h.parent hp) ih

theorem Grow.extends_old (h : Grow D D') (wf : WFDecls D) {t a : Nat} (ht : t < D.recs.length)
    (he : Extends D' t a) : Extends D t a := by
  induction he with
  | refl _ => exact .refl ht
  | step hp _ ih =>
    have hp' := h.parent_old ht hp
    exact .step hp' (ih (Nat.lt_trans (wf _ _ hp') ht))

theorem Grow.declares (h : Grow D D') {t : Nat} {c : Comp} (hd : Declares D t c) : Declares D' t c := by
  obtain ⟨r, hr, hc⟩ := hd
  obtain ⟨r', h1, -, h2⟩ := h.recs _ _ hr
  exact ⟨r', h1, h2.subset hc⟩

theorem Grow.hasComp (h : Grow D D') {t : Nat} {c : Comp} (hd : HasComp D t c) : HasComp D' t c := by
  obtain ⟨a, ha, hc⟩ := hd
  exact ⟨a, h.extends ha, h.declares hc⟩

theorem Grow.tyOk (h : Grow D D') : ∀ {τ : Ty}, TyOk D τ → TyOk D' τ
  | .tup _, ht => Nat.lt_of_lt_of_le ht h.tups.length_le
  | .arr _ e _ _, ht => Grow.tyOk h (τ := e) ht
  | .bool, _ | .int, _ | .dec, _ | .str, _ | .markup, _ | .enum _, _ | .record _, _ | .union .., _ => trivial

theorem Grow.tyIn (h : Grow D D') : ∀ {τ : Ty}, TyIn D τ → TyIn D' τ
  | .tup _, ht => Nat.lt_of_lt_of_le ht h.tups.length_le
  | .arr _ e _ _, ht => Grow.tyIn h (τ := e) ht
  | .enum _, ht => Nat.lt_of_lt_of_le ht h.enumsLen
  | .record _, ht => Nat.lt_of_lt_of_le ht h.recsLen
  | .union _ _, ht => fun m hm => Nat.lt_of_lt_of_le (ht m hm) h.recsLen
  | .bool, _ | .int, _ | .dec, _ | .str, _ | .markup, _ => trivial

mutual
theorem Grow.vok (h : Grow D D') : ∀ (v : PVal) (τ : Ty), VOk D v τ → VOk D' v τ
  | .inull, _, hv => by simp only [VOk] at hv
  | .bool _, _, hv => by simpa only [VOk] using hv
  | .int _, _, hv => by simpa only [VOk] using hv
  | .dec _, _, hv => by simpa only [VOk] using hv
  | .str _, _, hv => by simpa only [VOk] using hv
  | .markup _ _, _, hv => by simpa only [VOk] using hv
  | .enum t l, _, hv => by
    simp only [VOk] at hv ⊢
    obtain ⟨h1, ls, h2, h3⟩ := hv
    obtain ⟨ls', h4, h5⟩ := h.enums _ _ h2
    exact ⟨h1, ls', h4, h5.subset h3⟩
  | .neg _, _, hv => by simpa only [VOk] using hv
  | .pos _, _, hv => by simpa only [VOk] using hv
  | .arr t es, _, hv => by
    simp only [VOk] at hv ⊢
    obtain ⟨h1, id, elem, lo, hi, h2, h3⟩ := hv
    exact ⟨h1, id, elem, lo, hi, h2, h.allVok es elem h3⟩
  | .tup t fs, _, hv => by
    simp only [VOk] at hv ⊢
    obtain ⟨h1, cs, h2, h3⟩ := hv
    exact ⟨h1, cs, prefix_get h.tups h2, h.fieldsVok fs cs h3⟩
  | .ref _ _ _, _, hv => by simpa only [VOk] using hv

theorem Grow.allVok (h : Grow D D') : ∀ (vs : List PVal) (τ : Ty), AllVOk D vs τ → AllVOk D' vs τ
  | [], _, _ => by simp only [AllVOk]
  | v :: vs, τ, hv => by
    simp only [AllVOk] at hv ⊢
    exact ⟨h.vok v τ hv.1, h.allVok vs τ hv.2⟩

theorem Grow.fieldsVok (h : Grow D D') :
    ∀ (fs : List (String × PVal)) (cs : List Comp), FieldsVOk D fs cs → FieldsVOk D' fs cs
  | [], [], _ => by simp only [FieldsVOk]
  | [], _ :: _, hv => by simp only [FieldsVOk] at hv
  | _ :: _, [], hv => by simp only [FieldsVOk] at hv
  | f :: fs, c :: cs, hv => by
    simp only [FieldsVOk] at hv ⊢
    exact ⟨h.fieldVok f c hv.1, h.fieldsVok fs cs hv.2⟩

theorem Grow.fieldVok (h : Grow D D') :
    ∀ (f : String × PVal) (c : Comp), FieldVOk D f c → FieldVOk D' f c
  | (n, v), c, hv => by
    simp only [FieldVOk] at hv ⊢
    exact ⟨hv.1, hv.2.imp id (h.vok v c.ty)⟩
end

theorem Grow.tupleOk (h : Grow D D') {t : Nat} {cs : List Comp} (ht : TupleOk D t cs) : TupleOk D' t cs :=
  ⟨ht.first, ht.tail, ht.names, fun c hc => h.tyOk (ht.types c hc), ht.earlier⟩

/-! ## Ways to grow -/

/-- a new enumeration type -/
def addEnumD (D : Decls) : Decls := { D with enums := D.enums ++ [[]] }
/-- a new literal -/
def addLitD (D : Decls) (t : Nat) (l : String) : Decls := { D with enums := D.enums.modify t (· ++ [l]) }
/-- a new tuple type -/
def addTupD (D : Decls) (cs : List Comp) : Decls := { D with tups := D.tups ++ [cs] }
/-- a new record type -/
def addRecD (D : Decls) (p : Option Nat) : Decls := { D with recs := D.recs ++ [{ parent := p, own := [] }] }
/-- a new component -/
def addCompD (D : Decls) (t : Nat) (c : Comp) : Decls :=
  { D with recs := D.recs.modify t fun r => { r with own := r.own ++ [c] } }

theorem grow_addEnum : Grow D (addEnumD D) :=
  ⟨fun _ r h => ⟨r, h, rfl, List.prefix_rfl⟩, List.prefix_rfl,
    fun _ ls h => ⟨ls, prefix_get (List.prefix_append _ _) h, List.prefix_rfl⟩⟩

theorem grow_addLit {t : Nat} {l : String} : Grow D (addLitD D t l) := by
  refine ⟨fun _ r h => ⟨r, h, rfl, List.prefix_rfl⟩, List.prefix_rfl, fun u ls h => ?_⟩
  simp only [addLitD, List.getElem?_modify, h]
  by_cases hu : t = u
  · exact ⟨ls ++ [l], by simp [hu], List.prefix_append _ _⟩
  · exact ⟨ls, by simp [hu], List.prefix_rfl⟩

theorem grow_addTup {cs : List Comp} : Grow D (addTupD D cs) :=
  ⟨fun _ r h => ⟨r, h, rfl, List.prefix_rfl⟩, List.prefix_append _ _,
    fun _ ls h => ⟨ls, h, List.prefix_rfl⟩⟩

theorem grow_addRec {p : Option Nat} : Grow D (addRecD D p) :=
  ⟨fun _ r h => ⟨r, prefix_get (List.prefix_append _ _) h, rfl, List.prefix_rfl⟩, List.prefix_rfl,
    fun _ ls h => ⟨ls, h, List.prefix_rfl⟩⟩

theorem grow_addComp {t : Nat} {c : Comp} : Grow D (addCompD D t c) := by
  refine ⟨fun u r h => ?_, List.prefix_rfl, fun _ ls h => ⟨ls, h, List.prefix_rfl⟩⟩
  simp only [addCompD, List.getElem?_modify, h]
  by_cases hu : t = u
  · exact ⟨{ r with own := r.own ++ [c] }, by simp [hu], rfl, List.prefix_append _ _⟩
  · exact ⟨r, by simp [hu], rfl, List.prefix_rfl⟩

/-! ## The record types are the same -/

theorem parent_same (hr : D'.recs = D.recs) {t p : Nat} :
    ParentOf D' t p ↔ ParentOf D t p := by simp only [ParentOf, hr]

theorem extends_same (hr : D'.recs = D.recs) {t a : Nat} : Extends D' t a ↔ Extends D t a := by
  have key : ∀ {D D' : Decls}, D'.recs = D.recs → Extends D' t a → Extends D t a := by
    intro D D' hr h
    induction h with
    | refl h => exact .refl (by rwa [← hr])
    | step hp _ ih => exact .step (by simpa only [ParentOf, hr] using hp) ih
  exact ⟨key hr, key hr.symm⟩

theorem declares_same (hr : D'.recs = D.recs) {t : Nat} {c : Comp} :
    Declares D' t c ↔ Declares D t c := by simp only [Declares, hr]

theorem hasComp_same (hr : D'.recs = D.recs) {t : Nat} {c : Comp} :
    HasComp D' t c ↔ HasComp D t c := by
  simp only [HasComp, extends_same hr, declares_same hr]

variable {infos : List RecInfo} {seps : List (List Sep)}

/-- new tuple types and changes of enumeration types -/
theorem SoundDecls.others {seps' : List (List Sep)} (h : SoundDecls D infos seps) (hg : Grow D D')
    (hr : D'.recs = D.recs) (hl : seps'.length = D'.tups.length)
    (hs : seps <+: seps')
    (ht : ∀ (t : Nat) (cs : List Comp), D.tups.length ≤ t → D'.tups[t]? = some cs → TupleOk D' t cs ∧
      (∀ c ∈ cs, TyIn D' c.ty) ∧ (cs.Pairwise fun c c' => ¬ SameName c.name c'.name) ∧
      (∀ c ∈ cs, c.memberOf = .tup t) ∧ ∀ ss, seps'[t]? = some ss →
        (ss = [] ∨ ss.length + 1 = cs.length) ∧ (ss = [] → ∀ c ∈ cs, c.optional = false) ∧
        (ss ≠ [] → ∀ (u : Nat) (us : List Sep), (∃ c ∈ cs, c.ty = .tup u) → seps'[u]? = some us → us = []))
    (he : ∀ (t : Nat) (ls : List String), D'.enums[t]? = some ls → ls.Pairwise fun l l' => ¬ SameName l l') :
    SoundDecls D' infos seps' := by
  have old : ∀ {t : Nat} {cs : List Comp}, t < D.tups.length → D'.tups[t]? = some cs → D.tups[t]? = some cs := by
    intro t cs h1 h2
    obtain ⟨cs0, h0⟩ := get_some h1
    have := prefix_get hg.tups h0
    rw [this] at h2
    cases h2
    exact h0
  have oldS : ∀ {t : Nat} {ss : List Sep}, t < D.tups.length → seps'[t]? = some ss → seps[t]? = some ss := by
    intro t ss h1 h2
    obtain ⟨s0, h0⟩ := get_some (l := seps) (i := t) (by rw [h.sepLen]; exact h1)
    have := prefix_get hs h0
    rw [this] at h2
    cases h2
    exact h0
  have hlen := hg.tups.length_le
  refine ⟨⟨?_, ?_, ?_, ?_, ?_, ?_, ?_⟩, ?_, hl, ?_, ?_, ?_, ?_, he, ?_, ?_, ?_, ?_, ?_, ?_, h.frozenNames⟩
  · intro t p hp
    exact h.world.wf t p ((parent_same hr).1 hp)
  · intro t c c' h1 h2
    exact h.world.unique t c c' ((hasComp_same hr).1 h1) ((hasComp_same hr).1 h2)
  · intro t c h1
    exact h.world.owner t c ((declares_same hr).1 h1)
  · rw [hr]; exact h.world.distinct
  · intro t cs h1
    by_cases hlt : t < D.tups.length
    · exact hg.tupleOk (h.world.tuples t cs (old hlt h1))
    · exact (ht t cs (by omega) h1).1
  · intro t c h1
    obtain ⟨h2, h3⟩ := h.world.types t c ((hasComp_same hr).1 h1)
    exact ⟨hg.tyOk h2, by omega⟩
  · intro t i n v h1 h2
    obtain ⟨c, h3, h4, h5⟩ := h.world.frozen t i n v h1 h2
    exact ⟨c, (hasComp_same hr).2 h3, h4, hg.vok _ _ h5⟩
  · rw [hr]; exact h.infoLen
  · intro t c h1
    exact hg.tyIn (h.recTypes t c ((declares_same hr).1 h1))
  · intro t cs h1
    by_cases hlt : t < D.tups.length
    · exact fun c hc => hg.tyIn (h.tupTypes t cs (old hlt h1) c hc)
    · exact (ht t cs (by omega) h1).2.1
  · intro t c c' h1 h2
    exact h.similar t c c' ((hasComp_same hr).1 h1) ((hasComp_same hr).1 h2)
  · intro t cs h1
    by_cases hlt : t < D.tups.length
    · exact h.similarFields t cs (old hlt h1)
    · exact (ht t cs (by omega) h1).2.2.1
  · intro t cs h1
    by_cases hlt : t < D.tups.length
    · exact h.fieldOwner t cs (old hlt h1)
    · exact (ht t cs (by omega) h1).2.2.2.1
  · intro t cs ss h1 h2
    by_cases hlt : t < D.tups.length
    · exact h.separated t cs ss (old hlt h1) (oldS hlt h2)
    · exact ((ht t cs (by omega) h1).2.2.2.2 ss h2).1
  · intro t cs h1 h2
    by_cases hlt : t < D.tups.length
    · exact h.optional t cs (old hlt h1) (oldS hlt h2)
    · exact ((ht t cs (by omega) h1).2.2.2.2 [] h2).2.1 rfl
  · intro t cs ss u us h1 h2 h3 h4 h5
    by_cases hlt : t < D.tups.length
    · have hu : u < D.tups.length := by
        obtain ⟨c, hc, e⟩ := h4
        have := h.tupTypes t cs (old hlt h1) c hc
        rwa [e] at this
      exact h.noNesting t cs ss u us (old hlt h1) (oldS hlt h2) h3 h4 (oldS hu h5)
    · exact ((ht t cs (by omega) h1).2.2.2.2 ss h2).2.2 h3 u us h4 h5
  · intro t p h1 h2
    obtain ⟨h3, h4⟩ := h.final t p ((parent_same hr).1 h1) h2
    exact ⟨h3, fun c hc => h4 c ((declares_same hr).1 hc)⟩
  · intro t a b n h1 h2
    exact h.frozenOnce t a b n ((extends_same hr).1 h1) ((extends_same hr).1 h2)

theorem sound_addEnum (h : SoundDecls D infos seps) : SoundDecls (addEnumD D) infos seps := by
  refine SoundDecls.others h grow_addEnum rfl h.sepLen List.prefix_rfl ?_ ?_
  · intro t cs h1 h2
    have := get_lt h2
    simp only [addEnumD] at this
    omega
  · intro t ls hl
    simp only [addEnumD] at hl
    by_cases ht : t < D.enums.length
    · rw [List.getElem?_append_left ht] at hl
      exact h.similarLits t ls hl
    · have := get_lt hl
      simp only [List.length_append, List.length_cons, List.length_nil] at this
      obtain rfl : t = D.enums.length := by omega
      simp at hl
      subst hl
      exact .nil

theorem sound_addLit {t : Nat} {l : String} (h : SoundDecls D infos seps)
    (hn : ∀ l' ∈ (D.enums[t]?).getD [], ¬ SameName l' l) :
    SoundDecls (addLitD D t l) infos seps := by
  refine SoundDecls.others h grow_addLit rfl h.sepLen List.prefix_rfl ?_ ?_
  · intro t cs h1 h2
    have := get_lt h2
    simp only [addLitD] at this
    omega
  · intro u ls hl
    simp only [addLitD, List.getElem?_modify] at hl
    cases hu : D.enums[u]? with
    | none => rw [hu] at hl; simp at hl
    | some ls0 =>
      rw [hu] at hl
      by_cases htu : t = u
      · subst htu
        simp only [if_true, Option.map_eq_map, Option.map_some, Option.some.injEq] at hl
        subst hl
        rw [hu] at hn
        rw [List.pairwise_append]
        exact ⟨h.similarLits _ _ hu, List.pairwise_singleton _ _, fun a ha b hb => by
          rw [List.mem_singleton] at hb; subst hb; exact hn a ha⟩
      · simp only [htu, if_false, Option.map_eq_map, Option.map_some, Option.some.injEq, id] at hl
        subst hl
        exact h.similarLits _ _ hu

theorem sound_addTup {cs : List Comp} {ss : List Sep} (h : SoundDecls D infos seps)
    (hok : TupleOk D D.tups.length cs) (hin : ∀ c ∈ cs, TyIn D c.ty)
    (hsim : cs.Pairwise fun c c' => ¬ SameName c.name c'.name)
    (hown : ∀ c ∈ cs, c.memberOf = .tup D.tups.length)
    (hsep : ss = [] ∨ ss.length + 1 = cs.length) (hopt : ss = [] → ∀ c ∈ cs, c.optional = false)
    (hnest : ss ≠ [] → ∀ (u : Nat) (us : List Sep), (∃ c ∈ cs, c.ty = .tup u) → seps[u]? = some us → us = []) :
    SoundDecls (addTupD D cs) infos (seps ++ [ss]) := by
  have hg : Grow D (addTupD D cs) := grow_addTup
  refine SoundDecls.others h hg rfl (by simp [addTupD, h.sepLen]) (List.prefix_append _ _) ?_ h.similarLits
  intro t cs' h1 h2
  have h3 := get_lt h2
  simp only [addTupD, List.length_append, List.length_cons, List.length_nil] at h3
  obtain rfl : t = D.tups.length := by omega
  simp only [addTupD, List.getElem?_append_right (Nat.le_refl _), Nat.sub_self, List.getElem?_cons_zero,
    Option.some.injEq] at h2
  subst h2
  refine ⟨hg.tupleOk hok, fun c hc => hg.tyIn (hin c hc), hsim, hown, fun s' hs' => ?_⟩
  rw [← h.sepLen] at hs'
  simp only [List.getElem?_append_right (Nat.le_refl _), Nat.sub_self, List.getElem?_cons_zero,
    Option.some.injEq] at hs'
  subst hs'
  refine ⟨hsep, hopt, fun hne u us hc hu => hnest hne u us hc ?_⟩
  have hlt : u < D.tups.length := by
    obtain ⟨c, hc, e⟩ := hc
    have := hin c hc
    rwa [e] at this
  rwa [List.getElem?_append_left (by rw [h.sepLen]; exact hlt)] at hu

/-! ## New record types and components -/

theorem addRec_parent {p : Option Nat} {t q : Nat} : ParentOf (addRecD D p) t q ↔
    ParentOf D t q ∨ (t = D.recs.length ∧ p = some q) := by
  simp only [ParentOf, addRecD]
  by_cases ht : t < D.recs.length
  · rw [List.getElem?_append_left ht]
    constructor
    · exact .inl
    · rintro (h | ⟨h, -⟩)
      · exact h
      · omega
  · have hn : D.recs[t]? = none := List.getElem?_eq_none (by omega)
    by_cases he : t = D.recs.length
    · subst he
      simp [hn]
    · rw [List.getElem?_eq_none (by simp; omega)]
      simp [hn, he]

theorem addRec_declares {p : Option Nat} {t : Nat} {c : Comp} :
    Declares (addRecD D p) t c ↔ Declares D t c := by
  simp only [Declares, addRecD]
  by_cases ht : t < D.recs.length
  · rw [List.getElem?_append_left ht]
  · have hn : D.recs[t]? = none := List.getElem?_eq_none (by omega)
    by_cases he : t = D.recs.length
    · subst he
      simp [hn]
    · rw [List.getElem?_eq_none (by simp; omega)]
      simp [hn]

theorem addRec_extends {p : Option Nat} (wf : WFDecls D) (hp : ∀ q, p = some q → q < D.recs.length)
    {t a : Nat} : Extends (addRecD D p) t a ↔ Extends D t a ∨
      (t = D.recs.length ∧ (a = t ∨ ∃ q, p = some q ∧ Extends D q a)) := by
  constructor
  · intro h
    by_cases ht : t < D.recs.length
    · exact .inl (grow_addRec.extends_old wf ht h)
    · have := (extends_declared h).1
      simp only [addRecD, List.length_append, List.length_cons, List.length_nil] at this
      obtain rfl : t = D.recs.length := by omega
      cases h with
      | refl _ => exact .inr ⟨rfl, .inl rfl⟩
      | step hq h =>
        rcases addRec_parent.1 hq with h' | ⟨-, h'⟩
        · have := parent_declared h'; omega
        · exact .inr ⟨rfl, .inr ⟨_, h', grow_addRec.extends_old wf (hp _ h') h⟩⟩
  · rintro (h | ⟨rfl, rfl | ⟨q, hq, h⟩⟩)
    · exact grow_addRec.extends h
    · exact .refl (by simp [addRecD])
    · exact .step (addRec_parent.2 (.inr ⟨rfl, hq⟩)) (grow_addRec.extends h)

theorem not_declares_new {t : Nat} {c : Comp} (ht : D.recs.length ≤ t) : ¬ Declares D t c := by
  rintro ⟨r, hr, -⟩
  have := get_lt hr
  omega

theorem addRec_hasComp {p : Option Nat} (wf : WFDecls D) (hp : ∀ q, p = some q → q < D.recs.length)
    {t : Nat} {c : Comp} : HasComp (addRecD D p) t c ↔
      HasComp D t c ∨ (t = D.recs.length ∧ ∃ q, p = some q ∧ HasComp D q c) := by
  simp only [HasComp, addRec_extends wf hp, addRec_declares]
  constructor
  · rintro ⟨a, h | ⟨rfl, rfl | ⟨q, hq, h⟩⟩, hd⟩
    · exact .inl ⟨a, h, hd⟩
    · exact absurd hd (not_declares_new (Nat.le_refl _))
    · exact .inr ⟨rfl, q, hq, a, h, hd⟩
  · rintro (⟨a, h, hd⟩ | ⟨rfl, q, hq, a, h, hd⟩)
    · exact ⟨a, .inl h, hd⟩
    · exact ⟨a, .inr ⟨rfl, .inr ⟨q, hq, h⟩⟩, hd⟩

theorem sound_addRec {p : Option Nat} {i : RecInfo} (h : SoundDecls D infos seps)
    (hp : ∀ q, p = some q → q < D.recs.length) (hi : i.frozen = [])
    (hf : ∀ q, p = some q → Final infos q → i.isFinal = true) :
    SoundDecls (addRecD D p) (infos ++ [i]) seps := by
  have hg : Grow D (addRecD D p) := grow_addRec
  have wf := h.world.wf
  have hinfo : ∀ (t : Nat) (j : RecInfo), (infos ++ [i])[t]? = some j → infos[t]? = some j ∨ (t = D.recs.length ∧ j = i) := by
    intro t j hj
    by_cases ht : t < infos.length
    · rw [List.getElem?_append_left ht] at hj; exact .inl hj
    · have := get_lt hj
      simp only [List.length_append, List.length_cons, List.length_nil] at this
      obtain rfl : t = infos.length := by omega
      simp at hj
      exact .inr ⟨h.infoLen, hj.symm⟩
  have hfr : ∀ t n, Freezes (infos ++ [i]) t n → Freezes infos t n := by
    rintro t n ⟨j, hj, hn⟩
    rcases hinfo t j hj with h1 | ⟨-, rfl⟩
    · exact ⟨j, h1, hn⟩
    · rw [hi] at hn; simp at hn
  have hext : ∀ t c, HasComp (addRecD D p) t c → ∃ u, HasComp D u c ∧
      ∀ c', HasComp (addRecD D p) t c' → HasComp D u c' := by
    intro t c hc
    rcases (addRec_hasComp wf hp).1 hc with h1 | ⟨rfl, q, hq, h1⟩
    · refine ⟨t, h1, fun c' hc' => ?_⟩
      rcases (addRec_hasComp wf hp).1 hc' with h2 | ⟨rfl, -⟩
      · exact h2
      · obtain ⟨a, ha, -⟩ := h1
        have := (extends_declared ha).1
        omega
    · refine ⟨q, h1, fun c' hc' => ?_⟩
      rcases (addRec_hasComp wf hp).1 hc' with ⟨a, ha, -⟩ | ⟨-, q', hq', h2⟩
      · have := (extends_declared ha).1
        omega
      · rw [hq] at hq'; cases hq'; exact h2
  refine ⟨⟨?_, ?_, ?_, ?_, ?_, ?_, ?_⟩, ?_, h.sepLen, ?_, ?_, ?_, h.similarFields, h.similarLits,
    h.fieldOwner, h.separated, h.optional, h.noNesting, ?_, ?_, ?_⟩
  · intro t q hq
    rcases addRec_parent.1 hq with h1 | ⟨rfl, h1⟩
    · exact wf t q h1
    · exact hp q h1
  · intro t c c' h1 h2
    obtain ⟨u, h3, h4⟩ := hext t c h1
    exact h.world.unique u c c' h3 (h4 c' h2)
  · intro t c h1
    exact h.world.owner t c (addRec_declares.1 h1)
  · intro t r hr
    by_cases ht : t < D.recs.length
    · simp only [addRecD, List.getElem?_append_left ht] at hr
      exact h.world.distinct t r hr
    · have := get_lt hr
      simp only [addRecD, List.length_append, List.length_cons, List.length_nil] at this
      obtain rfl : t = D.recs.length := by omega
      simp [addRecD] at hr
      subst hr
      exact .nil
  · intro t cs h1
    exact hg.tupleOk (h.world.tuples t cs h1)
  · intro t c h1
    obtain ⟨u, h3, -⟩ := hext t c h1
    exact ⟨hg.tyOk (h.world.types u c h3).1, (h.world.types u c h3).2⟩
  · intro t j n v h1 h2
    rcases hinfo t j h1 with h1 | ⟨-, rfl⟩
    · obtain ⟨c, h3, h4, h5⟩ := h.world.frozen t j n v h1 h2
      exact ⟨c, hg.hasComp h3, h4, hg.vok _ _ h5⟩
    · rw [hi] at h2; simp at h2
  · simp [addRecD, h.infoLen]
  · intro t c h1
    exact hg.tyIn (h.recTypes t c (addRec_declares.1 h1))
  · intro t cs h1 c hc
    exact hg.tyIn (h.tupTypes t cs h1 c hc)
  · intro t c c' h1 h2
    obtain ⟨u, h3, h4⟩ := hext t c h1
    exact h.similar u c c' h3 (h4 c' h2)
  · intro t q h1 h2
    have h2' : Final infos q := by
      obtain ⟨j, hj, hjf⟩ := h2
      rcases hinfo q j hj with h3 | ⟨rfl, rfl⟩
      · exact ⟨j, h3, hjf⟩
      · rcases addRec_parent.1 h1 with h4 | ⟨-, h4⟩
        · have := wf _ _ h4; have := parent_declared h4; omega
        · have := hp _ h4; omega
    rcases addRec_parent.1 h1 with h3 | ⟨rfl, h3⟩
    · obtain ⟨⟨j, hj, hjf⟩, h5⟩ := h.final t q h3 h2'
      exact ⟨⟨j, prefix_get (List.prefix_append _ _) hj, hjf⟩, fun c hc => h5 c (addRec_declares.1 hc)⟩
    · refine ⟨⟨i, by rw [← h.infoLen]; simp, hf q h3 h2'⟩, fun c hc => ?_⟩
      exact not_declares_new (Nat.le_refl _) (addRec_declares.1 hc)
  · intro t a b n h1 h2 h3 h4
    have h3 := hfr a n h3
    have h4 := hfr b n h4
    have hlt : ∀ x, Freezes infos x n → x < D.recs.length := by
      rintro x ⟨j, hj, -⟩
      rw [← h.infoLen]; exact get_lt hj
    have ha := hlt a h3
    have hb := hlt b h4
    rcases (addRec_extends wf hp).1 h1 with e1 | ⟨rfl, rfl | ⟨q, hq, e1⟩⟩
    · rcases (addRec_extends wf hp).1 h2 with e2 | ⟨rfl, -⟩
      · exact h.frozenOnce t a b n e1 e2 h3 h4
      · have := (extends_declared e1).1; omega
    · omega
    · rcases (addRec_extends wf hp).1 h2 with e2 | ⟨-, rfl | ⟨q', hq', e2⟩⟩
      · have := (extends_declared e2).1; omega
      · omega
      · rw [hq] at hq'; cases hq'
        exact h.frozenOnce q a b n e1 e2 h3 h4
  · intro t j hj
    rcases hinfo t j hj with h1 | ⟨-, rfl⟩
    · exact h.frozenNames t j h1
    · rw [hi]; exact .nil

theorem addComp_len {t : Nat} {c : Comp} : (addCompD D t c).recs.length = D.recs.length := by
  simp [addCompD]

theorem addComp_parent {t : Nat} {c : Comp} {u q : Nat} :
    ParentOf (addCompD D t c) u q ↔ ParentOf D u q := by
  refine ⟨fun h => grow_addComp.parent_old ?_ h, grow_addComp.parent⟩
  have := parent_declared h
  rwa [addComp_len] at this

theorem addComp_extends {t : Nat} {c : Comp} {u a : Nat} (wf : WFDecls D) :
    Extends (addCompD D t c) u a ↔ Extends D u a := by
  refine ⟨fun h => grow_addComp.extends_old wf ?_ h, grow_addComp.extends⟩
  have := (extends_declared h).1
  rwa [addComp_len] at this

theorem addComp_declares {t : Nat} {c : Comp} (ht : t < D.recs.length) {u : Nat} {c' : Comp} :
    Declares (addCompD D t c) u c' ↔ Declares D u c' ∨ (u = t ∧ c' = c) := by
  simp only [Declares, addCompD, List.getElem?_modify]
  by_cases hu : t = u
  · subst hu
    obtain ⟨r, hr⟩ := get_some ht
    simp [hr]
  · have hu' : u ≠ t := fun e => hu e.symm
    simp [hu, hu']

theorem addComp_hasComp {t : Nat} {c : Comp} (wf : WFDecls D) (ht : t + 1 = D.recs.length) {u : Nat}
    {c' : Comp} : HasComp (addCompD D t c) u c' ↔ HasComp D u c' ∨ (u = t ∧ c' = c) := by
  simp only [HasComp, addComp_extends wf, addComp_declares (c := c) (show t < D.recs.length by omega)]
  constructor
  · rintro ⟨a, h, hd | ⟨rfl, rfl⟩⟩
    · exact .inl ⟨a, h, hd⟩
    · have := extends_le wf h
      have := (extends_declared h).1
      exact .inr ⟨by omega, rfl⟩
  · rintro (⟨a, h, hd⟩ | ⟨rfl, rfl⟩)
    · exact ⟨a, h, .inl hd⟩
    · exact ⟨u, .refl (by omega), .inr ⟨rfl, rfl⟩⟩

theorem sound_addComp {t : Nat} {c : Comp} (h : SoundDecls D infos seps) (ht : t + 1 = D.recs.length)
    (hown : c.memberOf = .record t) (hty : TyOk D c.ty) (hrank : tyRank c.ty < D.tups.length + 3)
    (hin : TyIn D c.ty) (hn : ∀ c', HasComp D t c' → ¬ SameName c'.name c.name)
    (hf : ∀ p, ParentOf D t p → ¬ Final infos p) :
    SoundDecls (addCompD D t c) infos seps := by
  have hg : Grow D (addCompD D t c) := grow_addComp
  have wf := h.world.wf
  have hlt : t < D.recs.length := by omega
  have hn' : ∀ c', HasComp D t c' → c'.name ≠ c.name := fun c' hc' e => hn c' hc' (by rw [SameName, e])
  refine ⟨⟨?_, ?_, ?_, ?_, ?_, ?_, ?_⟩, ?_, h.sepLen, ?_, ?_, ?_, h.similarFields, h.similarLits,
    h.fieldOwner, h.separated, h.optional, h.noNesting, ?_, ?_, h.frozenNames⟩
  · intro u q hq
    exact wf u q (addComp_parent.1 hq)
  · intro u d d' h1 h2 e
    rcases (addComp_hasComp wf ht).1 h1 with h3 | ⟨rfl, rfl⟩ <;>
      rcases (addComp_hasComp wf ht).1 h2 with h4 | ⟨h5, h4⟩
    · exact h.world.unique u d d' h3 h4 e
    · subst h5 h4
      exact absurd e (hn' d h3)
    · exact absurd e.symm (hn' d' h4)
    · exact h4.symm
  · intro u d h1
    rcases (addComp_declares hlt).1 h1 with h2 | ⟨rfl, rfl⟩
    · exact h.world.owner u d h2
    · exact hown
  · intro u r hr
    simp only [addCompD, List.getElem?_modify] at hr
    cases hu : D.recs[u]? with
    | none => rw [hu] at hr; simp at hr
    | some r0 =>
      rw [hu] at hr
      by_cases htu : t = u
      · subst htu
        simp only [if_true, Option.map_eq_map, Option.map_some, Option.some.injEq] at hr
        subst hr
        simp only [List.map_append, List.map_cons, List.map_nil]
        rw [List.nodup_append]
        refine ⟨h.world.distinct _ _ hu, by simp, ?_⟩
        intro a ha b hb
        rw [List.mem_singleton] at hb
        subst hb
        obtain ⟨d, hd, rfl⟩ := List.mem_map.1 ha
        exact hn' d ⟨t, .refl hlt, r0, hu, hd⟩
      · simp only [htu, if_false, Option.map_eq_map, Option.map_some, Option.some.injEq, id] at hr
        subst hr
        exact h.world.distinct _ _ hu
  · intro u cs h1
    exact hg.tupleOk (h.world.tuples u cs h1)
  · intro u d h1
    rcases (addComp_hasComp wf ht).1 h1 with h2 | ⟨rfl, rfl⟩
    · exact ⟨hg.tyOk (h.world.types u d h2).1, (h.world.types u d h2).2⟩
    · exact ⟨hg.tyOk hty, hrank⟩
  · intro u i n v h1 h2
    obtain ⟨d, h3, h4, h5⟩ := h.world.frozen u i n v h1 h2
    exact ⟨d, hg.hasComp h3, h4, hg.vok _ _ h5⟩
  · rw [addComp_len]; exact h.infoLen
  · intro u d h1
    rcases (addComp_declares hlt).1 h1 with h2 | ⟨rfl, rfl⟩
    · exact hg.tyIn (h.recTypes u d h2)
    · exact hg.tyIn hin
  · intro u cs h1 d hd
    exact hg.tyIn (h.tupTypes u cs h1 d hd)
  · intro u d d' h1 h2 e
    rcases (addComp_hasComp wf ht).1 h1 with h3 | ⟨rfl, rfl⟩ <;>
      rcases (addComp_hasComp wf ht).1 h2 with h4 | ⟨h5, h4⟩
    · exact h.similar u d d' h3 h4 e
    · subst h5 h4
      exact absurd e (hn d h3)
    · exact absurd (Eq.symm e) (hn d' h4)
    · exact h4.symm
  · intro u q h1 h2
    have h0 := addComp_parent.1 h1
    obtain ⟨h3, h4⟩ := h.final u q h0 h2
    refine ⟨h3, fun d hd => ?_⟩
    rcases (addComp_declares hlt).1 hd with h5 | ⟨rfl, rfl⟩
    · exact h4 d h5
    · exact hf q h0 h2
  · intro u a b n h1 h2
    exact h.frozenOnce u a b n ((addComp_extends wf).1 h1) ((addComp_extends wf).1 h2)

/-! ## Changes of the other attributes -/

theorem modify_get {α : Type} {l : List α} {t u : Nat} {f : α → α} {a : α}
    (h : (l.modify t f)[u]? = some a) : (u ≠ t ∧ l[u]? = some a) ∨ (u = t ∧ ∃ b, l[t]? = some b ∧ a = f b) := by
  rw [List.getElem?_modify] at h
  cases hu : l[u]? with
  | none => rw [hu] at h; simp at h
  | some b =>
    rw [hu] at h
    by_cases htu : t = u
    · subst htu
      simp at h
      exact .inr ⟨rfl, b, hu, h.symm⟩
    · simp [htu] at h
      exact .inl ⟨fun e => htu e.symm, by rw [h]⟩

theorem sound_freeze {t : Nat} {c : Comp} {v : VNode} (h : SoundDecls D infos seps)
    (ht : t + 1 = D.recs.length) (hc : HasComp D t c) (hv : VOk D v.val c.ty)
    (hn : ∀ a, Extends D t a → ¬ Freezes infos a c.name) :
    SoundDecls D (infos.modify t fun i => { i with frozen := i.frozen ++ [(c.name, v)] }) seps := by
  have wf := h.world.wf
  have hself : Extends D t t := .refl (by omega)
  refine ⟨⟨wf, h.world.unique, h.world.owner, h.world.distinct, h.world.tuples, h.world.types, ?_⟩,
    by simp [h.infoLen], h.sepLen, h.recTypes, h.tupTypes, h.similar, h.similarFields, h.similarLits,
    h.fieldOwner, h.separated, h.optional, h.noNesting, ?_, ?_, ?_⟩
  · intro u i n w h1 h2
    rcases modify_get h1 with ⟨-, h3⟩ | ⟨rfl, j, h3, rfl⟩
    · exact h.world.frozen u i n w h3 h2
    · simp only [List.lookup_append] at h2
      cases hj : j.frozen.lookup n with
      | some w' =>
        rw [hj] at h2
        simp only [Option.some_or, Option.some.injEq] at h2
        subst h2
        exact h.world.frozen u j n w' h3 hj
      | none =>
        rw [hj] at h2
        simp only [Option.none_or, List.lookup_cons, List.lookup_nil] at h2
        split at h2
        · next heq =>
          cases h2
          exact ⟨c, hc, (beq_iff_eq.1 heq).symm, hv⟩
        · cases h2
  · intro u q h1 h2
    have h2' : Final infos q := by
      obtain ⟨i, h3, h4⟩ := h2
      rcases modify_get h3 with ⟨-, h5⟩ | ⟨rfl, j, h5, rfl⟩
      · exact ⟨i, h5, h4⟩
      · exact ⟨j, h5, h4⟩
    obtain ⟨⟨i, h3, h4⟩, h5⟩ := h.final u q h1 h2'
    refine ⟨?_, h5⟩
    unfold Final
    rw [List.getElem?_modify, h3]
    by_cases htu : t = u
    · exact ⟨{ i with frozen := i.frozen ++ [(c.name, v)] }, by simp [htu], h4⟩
    · exact ⟨i, by simp [htu], h4⟩
  · have hfr : ∀ {x n}, Freezes (infos.modify t fun i => { i with frozen := i.frozen ++ [(c.name, v)] }) x n →
        Freezes infos x n ∨ (x = t ∧ n = c.name) := by
      rintro x n ⟨i, h1, h2⟩
      rcases modify_get h1 with ⟨-, h3⟩ | ⟨rfl, j, h3, rfl⟩
      · exact .inl ⟨i, h3, h2⟩
      · simp only [List.map_append, List.map_cons, List.map_nil, List.mem_append, List.mem_singleton] at h2
        rcases h2 with h2 | h2
        · exact .inl ⟨j, h3, h2⟩
        · exact .inr ⟨rfl, h2⟩
    have hu : ∀ {u}, Extends D u t → u = t := by
      intro u he
      have := extends_le wf he
      have := (extends_declared he).1
      omega
    intro u a b n h1 h2 h3 h4
    rcases hfr h3 with h5 | ⟨rfl, rfl⟩ <;> rcases hfr h4 with h6 | ⟨rfl, h7⟩
    · exact h.frozenOnce u a b n h1 h2 h5 h6
    · have := hu h2
      subst this h7
      exact absurd h5 (hn a h1)
    · have := hu h1
      subst this
      exact absurd h6 (hn b h2)
    · rfl
  · intro u i h1
    rcases modify_get h1 with ⟨-, h3⟩ | ⟨rfl, j, h3, rfl⟩
    · exact h.frozenNames u i h3
    · simp only [List.map_append, List.map_cons, List.map_nil]
      rw [List.nodup_append]
      refine ⟨h.frozenNames _ _ h3, by simp, ?_⟩
      intro a ha b hb e
      rw [List.mem_singleton] at hb
      subst hb
      subst e
      exact hn u hself ⟨j, h3, ha⟩

theorem sound_final {t : Nat} (h : SoundDecls D infos seps) (ht : t + 1 = D.recs.length) :
    SoundDecls D (infos.modify t fun i => { i with isFinal := true }) seps := by
  have wf := h.world.wf
  have hfr : ∀ {x n}, Freezes (infos.modify t fun i => { i with isFinal := true }) x n → Freezes infos x n := by
    rintro x n ⟨i, h1, h2⟩
    rcases modify_get h1 with ⟨-, h3⟩ | ⟨rfl, j, h3, rfl⟩
    · exact ⟨i, h3, h2⟩
    · exact ⟨j, h3, h2⟩
  refine ⟨⟨wf, h.world.unique, h.world.owner, h.world.distinct, h.world.tuples, h.world.types, ?_⟩,
    by simp [h.infoLen], h.sepLen, h.recTypes, h.tupTypes, h.similar, h.similarFields, h.similarLits,
    h.fieldOwner, h.separated, h.optional, h.noNesting, ?_, ?_, ?_⟩
  · intro u i n w h1 h2
    rcases modify_get h1 with ⟨-, h3⟩ | ⟨rfl, j, h3, rfl⟩
    · exact h.world.frozen u i n w h3 h2
    · exact h.world.frozen u j n w h3 h2
  · intro u q h1 h2
    have hq : q < u := wf u q h1
    have hu := parent_declared h1
    have h2' : Final infos q := by
      obtain ⟨i, h3, h4⟩ := h2
      rcases modify_get h3 with ⟨-, h5⟩ | ⟨rfl, j, h5, rfl⟩
      · exact ⟨i, h5, h4⟩
      · omega
    obtain ⟨⟨i, h3, h4⟩, h5⟩ := h.final u q h1 h2'
    refine ⟨?_, h5⟩
    unfold Final
    rw [List.getElem?_modify, h3]
    by_cases htu : t = u
    · exact ⟨{ i with isFinal := true }, by simp [htu], rfl⟩
    · exact ⟨i, by simp [htu], h4⟩
  · intro u a b n h1 h2 h3 h4
    exact h.frozenOnce u a b n h1 h2 (hfr h3) (hfr h4)
  · intro u i h1
    rcases modify_get h1 with ⟨-, h3⟩ | ⟨rfl, j, h3, rfl⟩
    · exact h.frozenNames u i h3
    · exact h.frozenNames u j h3

theorem sound_empty : SoundDecls ⟨[], [], []⟩ [] [] := by
  refine ⟨⟨?_, ?_, ?_, ?_, ?_, ?_, ?_⟩, rfl, rfl, ?_, ?_, ?_, ?_, ?_, ?_, ?_, ?_, ?_, ?_, ?_, ?_⟩
  · rintro t p ⟨r, h, -⟩; simp at h
  · rintro t c c' ⟨a, -, r, h, -⟩; simp at h
  · rintro t c ⟨r, h, -⟩; simp at h
  · intro t r h; simp at h
  · intro t cs h; simp at h
  · rintro t c ⟨a, -, r, h, -⟩; simp at h
  · intro t i n v h; simp at h
  · rintro t c ⟨r, h, -⟩; simp at h
  · intro t cs h; simp at h
  · rintro t c c' ⟨a, -, r, h, -⟩; simp at h
  · intro t cs h; simp at h
  · intro t cs h; simp at h
  · intro t cs h; simp at h
  · intro t cs ss h; simp at h
  · intro t cs h; simp at h
  · intro t cs ss u us h; simp at h
  · rintro t p ⟨r, h, -⟩; simp at h
  · rintro t a b n - - ⟨i, h, -⟩; simp at h
  · intro t i h; simp at h

end Verif.Lemmas
