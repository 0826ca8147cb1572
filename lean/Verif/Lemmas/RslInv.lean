import Verif.Lemmas.Growth
import Verif.Lemmas.ParseObject
import Verif.Lemmas.ParseFile
import Verif.Model.Parse.Rsl
import Verif.Spec.References
/-!
# The invariant of parsing rsl files
-/
namespace Verif.Lemmas
open Verif.Model Verif.Spec

/-- The number of declared types of a class -/
def cnt (D : Decls) (cls : Nat) : Nat :=
  if cls = clsRecord then D.recs.length
  else if cls = clsTuple then D.tups.length
  else if cls = clsEnum then D.enums.length
  else 0

/-- The global table has packages, builtin types and functions only. -/
structure GlobalTab (g : STab) : Prop where
  parents : g.parents = []
  imported : g.imported = []
  own : ∀ x ∈ g.own, x.2.cls = clsPackage ∨ x.2.cls = clsBuiltinType ∨ x.2.cls = clsFunction

/-- The values frozen by types are older than `n0`, and have different numbers. -/
structure FrozenIds (infos : List RecInfo) (n0 : Nat) : Prop where
  before : FrozenBefore infos n0
  once : ∀ i ∈ infos, ∀ f ∈ i.frozen, ∀ j ∈ infos, ∀ g ∈ j.frozen, f.2.id = g.2.id → f.2 = g.2

theorem FrozenIds.sub {infos infos' : List RecInfo} {n n' : Nat} (h : FrozenIds infos n) (hn : n ≤ n')
    (hs : ∀ i ∈ infos', ∀ f ∈ i.frozen, ∃ j ∈ infos, f ∈ j.frozen) : FrozenIds infos' n' := by
  constructor
  · intro i hi f hf
    obtain ⟨j, hj, hf⟩ := hs i hi f hf
    exact Nat.lt_of_lt_of_le (h.before j hj f hf) hn
  · intro i hi f hf j hj g hg
    obtain ⟨i', hi', hf⟩ := hs i hi f hf
    obtain ⟨j', hj', hg⟩ := hs j hj g hg
    exact h.once i' hi' f hf j' hj' g hg

theorem FrozenIds.add {infos infos' : List RecInfo} {n : Nat} {v : PVal} (h : FrozenIds infos n)
    (hs : ∀ i ∈ infos', ∀ f ∈ i.frozen, (∃ j ∈ infos, f ∈ j.frozen) ∨ f.2 = { id := n, val := v }) :
    FrozenIds infos' (n + 1) := by
  constructor
  · intro i hi f hf
    rcases hs i hi f hf with ⟨j, hj, hf⟩ | hf
    · exact Nat.lt_succ_of_lt (h.before j hj f hf)
    · rw [hf]; exact Nat.lt_succ_self _
  · intro i hi f hf j hj g hg he
    rcases hs i hi f hf with ⟨i', hi', hf⟩ | hf <;> rcases hs j hj g hg with ⟨j', hj', hg⟩ | hg
    · exact h.once i' hi' f hf j' hj' g hg he
    · have := h.before i' hi' f hf
      rw [he, hg] at this
      exact absurd this (Nat.lt_irrefl _)
    · have := h.before j' hj' g hg
      rw [← he, hf] at this
      exact absurd this (Nat.lt_irrefl _)
    · rw [hf, hg]

/-- Invariant of the state while rsl files are parsed. -/
structure RslInv (g : STab) (s : PS) : Prop where
  glob : GlobalTab g
  sound : SoundDecls s.decls s.infos s.seps
  crecs : s.checks.recs.length = s.decls.recs.length
  ctups : s.checks.tups.length = s.decls.tups.length
  objs : s.objs = []
  sees : ∀ (p : Nat) (T : STab), s.tabs[p]? = some T → T.parents = [] ∧ T.imported = [[g.own]]
  ents : ∀ (p : Nat) (T : STab) (k : List Char) (e : Ent), s.tabs[p]? = some T → (k, e) ∈ T.own →
    e.id < cnt s.decls e.cls ∧ k = simplifiedName e.name
  keys : ∀ (p : Nat) (T : STab), s.tabs[p]? = some T → (T.own.map Prod.fst).Nodup
  entered : ∀ cls i, i < cnt s.decls cls → ∃ (p : Nat) (T : STab) (k : List Char) (e : Ent),
    s.tabs[p]? = some T ∧ (k, e) ∈ T.own ∧ e.cls = cls ∧ e.id = i
  once : ∀ (p p' : Nat) (T T' : STab) (k k' : List Char) (e e' : Ent), s.tabs[p]? = some T →
    s.tabs[p']? = some T' → (k, e) ∈ T.own → (k', e') ∈ T'.own → e.cls = e'.cls → e.id = e'.id →
    p = p' ∧ e = e'
  frozenBefore : FrozenIds s.infos s.nid

theorem cnt_pos {D : Decls} {cls i : Nat} (h : i < cnt D cls) :
    cls = clsRecord ∨ cls = clsTuple ∨ cls = clsEnum := by
  unfold cnt at h
  split at h
  · exact .inl ‹_›
  · split at h
    · exact .inr (.inl ‹_›)
    · split at h
      · exact .inr (.inr ‹_›)
      · omega

theorem RslInv.noObjects {g : STab} {s : PS} (h : RslInv g s) : NoObjects s := by
  refine ⟨h.objs, ?_, ?_, ?_, h.keys⟩
  · intro p T k e h1 h2
    obtain ⟨h3, h4⟩ := h.ents p T k e h1 h2
    refine ⟨?_, h4⟩
    rcases cnt_pos h3 with e | e | e <;> rw [e] <;> decide
  · intro p T f k e h1 h2
    rw [(h.sees p T h1).1] at h2
    cases h2
  · intro p T c f k e h1 h2 h3 h4
    rw [(h.sees p T h1).2, List.mem_singleton] at h2
    subst h2
    rw [List.mem_singleton] at h3
    subst h3
    rcases h.glob.own _ h4 with h | h | h <;> simp only at h <;> rw [h] <;> decide

/-! ## Names -/

theorem get_mem {f : Frame} {k : List Char} {e : Ent} (h : f.get k = some e) : (k, e) ∈ f := by
  unfold Frame.get at h
  cases hf : f.find? (fun p => p.1 = k) with
  | none => rw [hf] at h; cases h
  | some x =>
    rw [hf] at h
    simp only [Option.map_some, Option.some.injEq] at h
    have h1 := List.find?_some hf
    have h2 := List.mem_of_find?_eq_some hf
    simp only [decide_eq_true_eq] at h1
    rw [← h1, ← h]
    exact h2

theorem lookup_find {T : STab} {n : List Char} {sub : Option (Ent → Bool)} {e : Ent}
    (h : T.lookup n sub = .ok e) : T.find (simplifiedName n) = some e ∧ e.name = n := by
  unfold STab.lookup STab.lookupDirect at h
  split at h
  · next rv hf =>
    split at h
    · cases h
    · next h1 =>
      split at h
      · cases h
      · cases h
        exact ⟨hf, by simpa using h1⟩
  · cases h

/-- The entity is declared in the global or a package table, and its number in range. -/
def EntOk (D : Decls) (e : Ent) : Prop :=
  (e.cls = clsRecord → e.id < D.recs.length) ∧ (e.cls = clsTuple → e.id < D.tups.length) ∧
    (e.cls = clsEnum → e.id < D.enums.length)

theorem RslInv.global_ent {g : STab} {s : PS} (h : RslInv g s) {n : List Char}
    {sub : Option (Ent → Bool)} {e : Ent} (he : g.lookup n sub = .ok e) : EntOk s.decls e := by
  obtain ⟨h1, -⟩ := lookup_find he
  unfold STab.find at h1
  rw [h.glob.parents, h.glob.imported] at h1
  simp only [List.findSome?_cons, List.findSome?_nil, chainGet] at h1
  have : g.own.get (simplifiedName n) = some e := by
    cases hg : g.own.get (simplifiedName n) with
    | none => rw [hg] at h1; simp at h1
    | some x => rw [hg] at h1; simpa using h1
  have h2 := h.glob.own _ (get_mem this)
  refine ⟨fun hc => ?_, fun hc => ?_, fun hc => ?_⟩ <;> simp only [hc] at h2 <;>
    exact absurd h2 (by decide)

theorem ent_of_cnt {D : Decls} {e : Ent} (h : e.id < cnt D e.cls) : EntOk D e := by
  refine ⟨fun hc => ?_, fun hc => ?_, fun hc => ?_⟩ <;> rw [hc] at h <;> exact h

theorem RslInv.tab_ent {g : STab} {s : PS} (h : RslInv g s) {p : Nat} {n : List Char}
    {sub : Option (Ent → Bool)} {e : Ent} (he : (s.tab p).lookup n sub = .ok e) : EntOk s.decls e := by
  cases hT : s.tabs[p]? with
  | none =>
    have : s.tab p = .empty := by simp [PS.tab, hT]
    rw [this] at he
    obtain ⟨h1, -⟩ := lookup_find he
    simp [STab.find, STab.empty, chainGet, Frame.get] at h1
  | some T =>
    have : s.tab p = T := by simp [PS.tab, hT]
    rw [this] at he
    obtain ⟨h1, -⟩ := lookup_find he
    unfold STab.find at h1
    rw [(h.sees p T hT).1, (h.sees p T hT).2] at h1
    simp only [List.findSome?_cons, List.findSome?_nil, chainGet] at h1
    cases hg : T.own.get (simplifiedName n) with
    | some x =>
      rw [hg] at h1
      simp only [Option.some.injEq] at h1
      subst h1
      exact ent_of_cnt (h.ents p T _ _ hT (get_mem hg)).1
    | none =>
      rw [hg] at h1
      simp only at h1
      have : g.own.get (simplifiedName n) = some e := by
        cases hg : g.own.get (simplifiedName n) with
        | none => rw [hg] at h1; simp at h1
        | some x => rw [hg] at h1; simpa using h1
      have h2 := h.glob.own _ (get_mem this)
      refine ⟨fun hc => ?_, fun hc => ?_, fun hc => ?_⟩ <;> simp only [hc] at h2 <;>
        exact absurd h2 (by decide)

theorem RslInv.scope_ent {E : FileEnv} {s : PS} (h : RslInv E.global s) {n : List Char}
    {sub : Option (Ent → Bool)} {e : Ent} (he : (s.scope E).lookup n sub = some (.ok e)) :
    EntOk s.decls e := by
  unfold Scope.lookup PS.scope at he
  simp only at he
  split at he
  · next T hT =>
    injection he with he
    have := List.mem_of_find?_eq_some hT
    rw [List.reverse_singleton, List.mem_singleton] at this
    subst this
    exact h.tab_ent he
  · injection he with he
    exact h.global_ent he

/-! ## Steps -/

/-- Only tokens are consumed, errors reported, and numbers used. -/
structure Ft (s s' : PS) : Prop where
  decls : s'.decls = s.decls
  infos : s'.infos = s.infos
  seps : s'.seps = s.seps
  tabs : s'.tabs = s.tabs
  objs : s'.objs = s.objs
  sects : s'.sects = s.sects
  checks : s'.checks = s.checks
  nid : s.nid ≤ s'.nid
  errs : ∃ l, s'.errs = s.errs ++ l
  toks : s'.toks ≤ s.toks

theorem Ft.refl (s : PS) : Ft s s :=
  ⟨rfl, rfl, rfl, rfl, rfl, rfl, rfl, Nat.le_refl _, ⟨[], by simp⟩, Nat.le_refl _⟩

theorem Ft.trans {a b c : PS} (h : Ft a b) (h' : Ft b c) : Ft a c := by
  obtain ⟨l, hl⟩ := h.errs
  obtain ⟨l', hl'⟩ := h'.errs
  exact ⟨h'.decls.trans h.decls, h'.infos.trans h.infos, h'.seps.trans h.seps,
    h'.tabs.trans h.tabs, h'.objs.trans h.objs, h'.sects.trans h.sects, h'.checks.trans h.checks,
    Nat.le_trans h.nid h'.nid, ⟨l ++ l', by rw [hl', hl, List.append_assoc]⟩,
    Nat.le_trans h'.toks h.toks⟩

instance : PreRel Ft := ⟨Ft.refl, Ft.trans⟩

theorem Fr.ft {s s' : PS} (h : Fr s s') : Ft s s' :=
  ⟨h.decls, h.infos, h.seps, h.tabs, h.objs, h.sects, h.checks, Nat.le_of_eq h.nid.symm, h.errs, h.toks⟩

theorem Sp.ft {α : Type} {x : P α} {s : PS} {Q : α → PS → Prop} (h : Sp Fr x s Q) : Sp Ft x s Q :=
  h.weaken fun _ => Fr.ft

theorem RslInv.ft {g : STab} {s s' : PS} (h : RslInv g s) (hf : Ft s s') : RslInv g s' := by
  obtain ⟨h1, h2, h3, h4, h5, -, h7, h8, -, -⟩ := hf
  refine ⟨h.glob, ?_, ?_, ?_, ?_, ?_, ?_, ?_, ?_, ?_, ?_⟩
  · rw [h1, h2, h3]; exact h.sound
  · rw [h1, h7]; exact h.crecs
  · rw [h1, h7]; exact h.ctups
  · rw [h5]; exact h.objs
  · rw [h4]; exact h.sees
  · rw [h1, h4]; exact h.ents
  · rw [h4]; exact h.keys
  · rw [h1, h4]; exact h.entered
  · rw [h4]; exact h.once
  · rw [h2]
    exact h.frozenBefore.sub h8 fun i hi f hf => ⟨i, hi, hf⟩

/-- A check of a type -/
def CkIn (C : CheckTab) (ct : CompositeTy) (c : Check) : Prop :=
  match ct with
  | .record t => ∃ cs, C.recs[t]? = some cs ∧ c ∈ cs
  | .tup t => ∃ cs, C.tups[t]? = some cs ∧ c ∈ cs

/-- What happens while an rsl item is parsed: the invariant is kept, the first `nr` record types
and `ne` enumeration types do not change, and everything else grows. -/
structure Rs (g : STab) (ne nr : Nat) (s s' : PS) : Prop where
  inv : RslInv g s → RslInv g s'
  grow : Grow s.decls s'.decls
  recs : ∀ t, t < nr → s'.decls.recs[t]? = s.decls.recs[t]?
  infos : ∀ t, t < nr → s'.infos[t]? = s.infos[t]?
  enums : ∀ t, t < ne → s'.decls.enums[t]? = s.decls.enums[t]?
  seps : s.seps <+: s'.seps
  cks : ∀ ct c, CkIn s'.checks ct c ↔ CkIn s.checks ct c
  objs : s'.objs = s.objs
  sects : s'.sects = s.sects
  tabs : s'.tabs.length = s.tabs.length
  nid : s.nid ≤ s'.nid
  errs : ∃ l, s'.errs = s.errs ++ l
  toks : s'.toks ≤ s.toks

theorem Rs.refl (g : STab) (ne nr : Nat) (s : PS) : Rs g ne nr s s :=
  ⟨id, Grow.refl _, fun _ _ => rfl, fun _ _ => rfl, fun _ _ => rfl, List.prefix_rfl, fun _ _ => .rfl, rfl, rfl, rfl,
    Nat.le_refl _, ⟨[], by simp⟩, Nat.le_refl _⟩

theorem Rs.trans {g : STab} {ne nr : Nat} {a b c : PS} (h : Rs g ne nr a b) (h' : Rs g ne nr b c) :
    Rs g ne nr a c := by
  obtain ⟨l, hl⟩ := h.errs
  obtain ⟨l', hl'⟩ := h'.errs
  exact ⟨h'.inv ∘ h.inv, h.grow.trans h'.grow, fun t ht => (h'.recs t ht).trans (h.recs t ht),
    fun t ht => (h'.infos t ht).trans (h.infos t ht), fun t ht => (h'.enums t ht).trans (h.enums t ht),
    h.seps.trans h'.seps, fun ct c => (h'.cks ct c).trans (h.cks ct c), h'.objs.trans h.objs, h'.sects.trans h.sects, h'.tabs.trans h.tabs,
    Nat.le_trans h.nid h'.nid, ⟨l ++ l', by rw [hl', hl, List.append_assoc]⟩,
    Nat.le_trans h'.toks h.toks⟩

instance {g : STab} {ne nr : Nat} : PreRel (Rs g ne nr) := ⟨Rs.refl g ne nr, Rs.trans⟩

theorem Ft.rs {s s' : PS} (h : Ft s s') (g : STab) (ne nr : Nat) : Rs g ne nr s s' := by
  refine ⟨fun hi => hi.ft h, by rw [h.decls]; exact Grow.refl _, fun _ _ => by rw [h.decls],
    fun _ _ => by rw [h.infos], fun _ _ => by rw [h.decls], by rw [h.seps]; exact List.prefix_rfl, fun _ _ => by rw [h.checks], h.objs, h.sects, by rw [h.tabs],
    h.nid, h.errs, h.toks⟩

theorem Sp.rs {α : Type} {x : P α} {s : PS} {Q : α → PS → Prop} (h : Sp Ft x s Q) {g : STab}
    {ne nr : Nat} : Sp (Rs g ne nr) x s Q :=
  h.weaken fun _ h => h.rs g ne nr

theorem Sp.frs {α : Type} {x : P α} {s : PS} {Q : α → PS → Prop} (h : Sp Fr x s Q) {g : STab}
    {ne nr : Nat} : Sp (Rs g ne nr) x s Q := h.ft.rs

/-- As `Sp`; moreover, if `h` then `x` consumes something even if it raises an error. -/
def Spe {α : Type} (R : PS → PS → Prop) (h : Prop) (x : P α) (s : PS) (Q : α → PS → Prop) : Prop :=
  Sp R x s Q ∧ (h → ∀ s', x s = .err s' → s'.toks < s.toks)

theorem spe_bind {α β : Type} {g : STab} {ne nr : Nat} {h : Prop} {x : P α} {f : α → P β} {s : PS}
    {Q : β → PS → Prop} (Q1 : α → PS → Prop) (hx : Sp (Rs g ne nr) x s Q1)
    (he : h → ∀ s', x s = .err s' → s'.toks < s.toks)
    (hlt : ∀ a s1, Q1 a s1 → s1.toks < s.toks)
    (hf : ∀ a s1, Rs g ne nr s s1 → Q1 a s1 → Sp (Rs g ne nr) (f a) s1 Q) :
    Spe (Rs g ne nr) h (x >>= f) s Q := by
  refine ⟨sp_bind Q1 hx hf, fun hh s' e => ?_⟩
  rw [bind_apply] at e
  cases hxs : x s with
  | err s1 =>
    rw [hxs] at e
    simp only [PR.err.injEq] at e
    rw [← e]
    exact he hh s1 hxs
  | crash c s1 => rw [hxs] at e; cases e
  | ok a s1 =>
    rw [hxs] at e
    dsimp only at e
    obtain ⟨h1, h2⟩ := hx.ok hxs
    exact Nat.lt_of_le_of_lt ((hf a s1 h1 h2).err e).toks (hlt a s1 h2)

/-- enter a new type -/
theorem RslInv.register {g : STab} {s s1 : PS} {p : Nat} {T T' : STab} {name : List Char} {id cls : Nat}
    (h : RslInv g s) (hT : s.tabs[p]? = some T) (hr : T.register ⟨name, id, cls⟩ = .ok T')
    (hid : id = cnt s.decls cls)
    (hcnt : ∀ c, cnt s1.decls c = cnt s.decls c + (if c = cls then 1 else 0))
    (hsound : SoundDecls s1.decls s1.infos s1.seps)
    (hcr : s1.checks.recs.length = s1.decls.recs.length)
    (hct : s1.checks.tups.length = s1.decls.tups.length) (hobjs : s1.objs = s.objs)
    (htabs : s1.tabs = s.tabs.set p T') (hfb : FrozenIds s1.infos s1.nid) : RslInv g s1 := by
  have hT' := register_own hr
  have hlt := get_lt hT
  have hset : ∀ (q : Nat) (U : STab), s1.tabs[q]? = some U → (q ≠ p ∧ s.tabs[q]? = some U) ∨ (q = p ∧ U = T') := by
    intro q U hU
    rw [htabs, List.getElem?_set] at hU
    split at hU
    · next e =>
      subst e
      simp only [hlt, if_true, Option.some.injEq] at hU
      exact .inr ⟨rfl, hU.symm⟩
    · next e => exact .inl ⟨fun e' => e e'.symm, hU⟩
  have hown : ∀ (q : Nat) (U : STab) (k : List Char) (e : Ent), s1.tabs[q]? = some U → (k, e) ∈ U.own →
      (∃ U', s.tabs[q]? = some U' ∧ (k, e) ∈ U'.own) ∨ (q = p ∧ k = simplifiedName name ∧ e = ⟨name, id, cls⟩) := by
    intro q U k e hU he
    rcases hset q U hU with ⟨-, h1⟩ | ⟨rfl, rfl⟩
    · exact .inl ⟨U, h1, he⟩
    · rw [hT'] at he
      simp only [List.mem_append, List.mem_singleton, Prod.mk.injEq] at he
      rcases he with he | ⟨rfl, rfl⟩
      · exact .inl ⟨T, hT, he⟩
      · exact .inr ⟨rfl, rfl, rfl⟩
  have hle : ∀ c, cnt s.decls c ≤ cnt s1.decls c := fun c => by rw [hcnt]; omega
  refine ⟨h.glob, hsound, hcr, hct, hobjs.trans h.objs, ?_, ?_, ?_, ?_, ?_, hfb⟩
  · intro q U hU
    rcases hset q U hU with ⟨-, h1⟩ | ⟨rfl, rfl⟩
    · exact h.sees q U h1
    · rw [hT']; exact h.sees q T hT
  · intro q U k e hU he
    rcases hown q U k e hU he with ⟨U', h1, h2⟩ | ⟨-, rfl, rfl⟩
    · exact ⟨Nat.lt_of_lt_of_le (h.ents q U' k e h1 h2).1 (hle _), (h.ents q U' k e h1 h2).2⟩
    · refine ⟨?_, rfl⟩
      simp only [hcnt, if_true]
      omega
  · intro q U hU
    rcases hset q U hU with ⟨-, h1⟩ | ⟨rfl, rfl⟩
    · exact h.keys q U h1
    · rw [hT']
      simp only [List.map_append, List.map_cons, List.map_nil, List.nodup_append]
      refine ⟨h.keys q T hT, by simp, ?_⟩
      intro a ha b hb
      simp only [List.mem_singleton] at hb
      subst hb
      exact fun hab => register_new hr (hab ▸ ha)
  · intro c i hi
    rw [hcnt] at hi
    by_cases hlt' : i < cnt s.decls c
    · obtain ⟨q, U, k, e, h1, h2, h3⟩ := h.entered c i hlt'
      by_cases hq : q = p
      · subst hq
        rw [hT] at h1
        cases h1
        refine ⟨q, T', k, e, by rw [htabs]; simp [hlt], ?_, h3⟩
        rw [hT']
        exact List.mem_append_left _ h2
      · refine ⟨q, U, k, e, ?_, h2, h3⟩
        rw [htabs, List.getElem?_set_ne (fun e => hq e.symm)]
        exact h1
    · split at hi
      · next hc =>
        subst hc
        refine ⟨p, T', simplifiedName name, ⟨name, id, c⟩, by rw [htabs]; simp [hlt], ?_, rfl, ?_⟩
        · rw [hT']; simp
        · simp only; omega
      · omega
  · intro q q' U U' k k' e e' h1 h2 h3 h4 h5 h6
    rcases hown q U k e h1 h3 with ⟨V, a1, a2⟩ | ⟨rfl, rfl, rfl⟩ <;>
      rcases hown q' U' k' e' h2 h4 with ⟨V', b1, b2⟩ | ⟨b1, b2, b3⟩
    · exact h.once q q' V V' k k' e e' a1 b1 a2 b2 h5 h6
    · subst b3
      have := (h.ents q V k e a1 a2).1
      simp only at h5 h6
      rw [h5] at this
      omega
    · have := (h.ents q' V' k' e' b1 b2).1
      simp only at h5 h6
      rw [← h5] at this
      omega
    · exact ⟨b1.symm, b3.symm⟩

/-- nothing but the declarations changes -/
theorem RslInv.change {g : STab} {s s1 : PS} (h : RslInv g s)
    (hcnt : ∀ c, cnt s1.decls c = cnt s.decls c)
    (hsound : SoundDecls s1.decls s1.infos s1.seps)
    (hcr : s1.checks.recs.length = s1.decls.recs.length)
    (hct : s1.checks.tups.length = s1.decls.tups.length) (hobjs : s1.objs = s.objs)
    (htabs : s1.tabs = s.tabs) (hfb : FrozenIds s1.infos s1.nid) : RslInv g s1 := by
  refine ⟨h.glob, hsound, hcr, hct, hobjs.trans h.objs, ?_, ?_, ?_, ?_, ?_, hfb⟩
  · rw [htabs]; exact h.sees
  · rw [htabs]; intro p T k e h1 h2; rw [hcnt]; exact h.ents p T k e h1 h2
  · rw [htabs]; exact h.keys
  · rw [htabs]; intro c i hi; rw [hcnt] at hi; exact h.entered c i hi
  · rw [htabs]; exact h.once

end Verif.Lemmas
