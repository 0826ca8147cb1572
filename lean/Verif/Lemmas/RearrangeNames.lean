import Verif.Spec.Rearrange
import Verif.Lemmas.RslInv
/-!
# The names known while trlc files are parsed, without their order
-/
namespace Verif.Lemmas.Rearrange
open Verif.Model Verif.Spec Verif.Lemmas

/-- a declared object: package, name and type -/
structure Dec where
  pkg  : Nat
  name : List Char
  typ  : Nat

/-- the entry for an object among the declared ones -/
def declAt (ds : List Dec) (p : Nat) (k : List Char) : Option Ent :=
  (ds.zipIdx.find? fun x => x.1.pkg = p ∧ simplifiedName x.1.name = k).map fun x => ⟨x.1.name, x.2, clsObject⟩

/-- The names before the first object -/
structure Base (g : STab) (B : Names) : Prop where
  glob : GlobalTab g
  otyps : B.otyps = []
  parents : ∀ p, (B.tab p).parents = []
  imported : ∀ p, p < B.tabs.length → (B.tab p).imported = [[g.own]]
  types : ∀ p k e, (B.tab p).own.get k = some e → e.cls ≠ clsObject ∧ k = simplifiedName e.name

/-- The objects may be declared, in any order. -/
structure Good (g : STab) (B : Names) (ds : List Dec) : Prop where
  fresh : ∀ d ∈ ds, d.pkg < B.tabs.length ∧ (B.tab d.pkg).own.get (simplifiedName d.name) = none ∧
    g.own.get (simplifiedName d.name) = none
  distinct : ds.Pairwise fun d d' => d.pkg = d'.pkg → simplifiedName d.name ≠ simplifiedName d'.name

/-- The names `N` are those of `B` and the objects `ds`, which have been declared in this order. -/
structure Grown (B N : Names) (ds : List Dec) : Prop where
  decls : N.decls = B.decls
  seps : N.seps = B.seps
  otyps : N.otyps = ds.map (·.typ)
  size : N.tabs.length = B.tabs.length
  parents : ∀ p, (N.tab p).parents = (B.tab p).parents
  imported : ∀ p, (N.tab p).imported = (B.tab p).imported
  own : ∀ p k, (N.tab p).own.get k = ((B.tab p).own.get k).or (declAt ds p k)

theorem grown_refl {B : Names} (h : B.otyps = []) : Grown B B [] :=
  ⟨rfl, rfl, h, rfl, fun _ => rfl, fun _ => rfl, fun _ _ => by simp [declAt]⟩

theorem frame_get_append (f f' : Frame) (k : List Char) : Frame.get (f ++ f') k = (f.get k).or (Frame.get f' k) := by
  unfold Frame.get
  rw [List.find?_append]
  cases f.find? (fun p => decide (p.1 = k)) <;> rfl

theorem declAt_append (ds : List Dec) (d : Dec) (p : Nat) (k : List Char) : declAt (ds ++ [d]) p k =
    (declAt ds p k).or (if d.pkg = p ∧ simplifiedName d.name = k then some ⟨d.name, ds.length, clsObject⟩ else none) := by
  unfold declAt
  rw [List.zipIdx_append, List.find?_append]
  cases ds.zipIdx.find? fun x => decide (x.1.pkg = p ∧ simplifiedName x.1.name = k) with
  | some x => rfl
  | none =>
    simp only [List.zipIdx_cons, List.zipIdx_nil, List.find?_cons, List.find?_nil, Option.none_or, Nat.zero_add]
    split
    · next h => rw [if_pos (by simpa using h)]; rfl
    · next h => rw [if_neg (by simpa using h)]; rfl

theorem tab_of {N : Names} {p : Nat} {T : STab} (h : N.tabs[p]? = some T) : N.tab p = T := by
  unfold Names.tab
  rw [h]
  rfl

theorem tab_set {N N' : Names} {p : Nat} {T : STab} (h : N'.tabs = N.tabs.set p T) (hp : p < N.tabs.length) (q : Nat) :
    N'.tab q = if q = p then T else N.tab q := by
  unfold Names.tab
  rw [h, List.getElem?_set]
  by_cases hq : p = q
  · subst hq
    simp [hp]
  · simp [hq, Ne.symm hq]

theorem grown_step {B N N' : Names} {ds : List Dec} {p t : Nat} {name : List Char} (h : Grown B N ds)
    (hd : Declared N N' p name t ds.length) : Grown B N' (ds ++ [⟨p, name, t⟩]) := by
  obtain ⟨h1, h2, h3, T, T', h4, h5, h6⟩ := hd
  have hp : p < N.tabs.length := (List.getElem?_eq_some_iff.1 h4).1
  have hT := register_own h5
  have htab := tab_set h6 hp
  have hpT := tab_of h4
  refine ⟨h1.trans h.decls, h2.trans h.seps, ?_, ?_, fun q => ?_, fun q => ?_, fun q k => ?_⟩
  · rw [h3, h.otyps]; simp
  · rw [h6, List.length_set]; exact h.size
  · rw [htab]
    split
    · next e => subst e; rw [← h.parents q, hT, hpT]
    · exact h.parents q
  · rw [htab]
    split
    · next e => subst e; rw [← h.imported q, hT, hpT]
    · exact h.imported q
  · rw [htab, declAt_append, ← Option.or_assoc, ← h.own q k]
    split
    · next e =>
      subst e
      rw [hT, hpT]
      dsimp only
      rw [frame_get_append]
      congr 1
      simp only [Frame.get, List.find?_cons, List.find?_nil, true_and]
      split
      · next hk => rw [if_pos (by simpa using hk)]; rfl
      · next hk => rw [if_neg (by simpa using hk)]; rfl
    · next e => rw [if_neg (fun hc => e hc.1.symm), Option.or_none]

/-! ### What is found -/

/-- the entry of the global table, for packages that exist -/
def outer (g : STab) (B : Names) (p : Nat) (k : List Char) : Option Ent := if p < B.tabs.length then g.own.get k else none

variable {g : STab} {B N : Names} {ds : List Dec}

theorem imported_at (hb : Base g B) (p : Nat) : (B.tab p).imported = if p < B.tabs.length then [[g.own]] else [] := by
  split
  · next h => exact hb.imported p h
  · next h =>
    unfold Names.tab
    rw [List.getElem?_eq_none (by omega)]
    rfl

theorem chain_one (f : Frame) (k : List Char) : chainGet [f] k = f.get k := by
  unfold chainGet chainGet
  cases f.get k <;> rfl

theorem find_eq {T : STab} {l : List (List Frame)} {o : Option Ent} (h1 : T.parents = []) (h2 : T.imported = l) {k : List Char}
    (ho : l.findSome? (fun c => chainGet c k) = o) : T.find k = (T.own.get k).or o := by
  unfold STab.find
  rw [h1, h2, List.findSome?_cons, chain_one, ho]
  cases T.own.get k <;> rfl

theorem outer_find (B : Names) (p : Nat) (k : List Char) :
    (if p < B.tabs.length then [[g.own]] else ([] : List (List Frame))).findSome? (fun c => chainGet c k) = outer g B p k := by
  unfold outer
  split
  · rw [List.findSome?_cons, chain_one]
    cases g.own.get k <;> rfl
  · rfl

theorem base_find (hb : Base g B) (p : Nat) (k : List Char) : (B.tab p).find k = ((B.tab p).own.get k).or (outer g B p k) :=
  find_eq (hb.parents p) (imported_at hb p) (outer_find B p k)

theorem grown_find (hb : Base g B) (h : Grown B N ds) (p : Nat) (k : List Char) :
    (N.tab p).find k = (((B.tab p).own.get k).or (declAt ds p k)).or (outer g B p k) := by
  rw [← h.own]
  exact find_eq ((h.parents p).trans (hb.parents p)) ((h.imported p).trans (imported_at hb p)) (outer_find B p k)

theorem chainContains_one (f : Frame) (k : List Char) (n : Option (List Char)) :
    chainContains [f] k n = match f.get k with | some e => n.all (· = e.name) | none => false := by
  unfold chainContains chainContains
  cases f.get k <;> rfl

theorem containsRaw_eq {T : STab} {b : Bool} {l : List (List Frame)} (hl : l = if b then [[g.own]] else []) (h1 : T.parents = [])
    (h2 : T.imported = l) (k : List Char) (n : Option (List Char)) :
    T.containsRaw k n = match T.find k with | some e => n.all (· = e.name) | none => false := by
  rw [find_eq h1 h2 rfl]
  unfold STab.containsRaw
  rw [h1, h2, hl]
  cases T.own.get k with
  | some e => rfl
  | none =>
    cases b with
    | false => rfl
    | true =>
      simp only [List.isEmpty_nil, if_true, List.any_cons, List.any_nil, Bool.or_false, chainContains_one, Option.none_or,
        List.findSome?_cons, chain_one]
      cases g.own.get k <;> rfl

theorem raw_grown (hb : Base g B) (h : Grown B N ds) (p : Nat) (k : List Char) (n : Option (List Char)) :
    (N.tab p).containsRaw k n = match (N.tab p).find k with | some e => n.all (· = e.name) | none => false :=
  containsRaw_eq (g := g) (b := decide (p < B.tabs.length)) (by simp) ((h.parents p).trans (hb.parents p))
    ((h.imported p).trans (imported_at hb p)) k n

theorem lookup_iff (T : STab) (name : List Char) (e : Ent) :
    T.lookup name none = .ok e ↔ T.find (simplifiedName name) = some e ∧ e.name = name := by
  unfold STab.lookup STab.lookupDirect
  cases T.find (simplifiedName name) with
  | none => simp
  | some x =>
    by_cases hx : x.name = name
    · simp only [hx, Bool.not_false, Bool.true_and, ne_eq, not_true_eq_false, decide_false, Bool.false_eq_true, if_false,
        Option.any_none, Except.ok.injEq, Option.some.injEq]
      constructor
      · rintro rfl; exact ⟨rfl, hx⟩
      · exact fun h => h.1
    · simp only [hx, Bool.not_false, Bool.true_and, ne_eq, not_false_eq_true, decide_true, if_true, Option.some.injEq]
      constructor
      · intro h; cases h
      · rintro ⟨rfl, h⟩; exact absurd h hx

theorem contains_iff (hb : Base g B) (h : Grown B N ds) (p : Nat) (name : List Char) :
    (N.tab p).contains name = true ↔ ∃ e, (N.tab p).lookup name none = .ok e := by
  unfold STab.contains
  rw [raw_grown hb h]
  cases hf : (N.tab p).find (simplifiedName name) with
  | none => simp [lookup_iff, hf]
  | some e =>
    simp only [lookup_iff, hf, Option.all_some, decide_eq_true_eq, Option.some.injEq]
    exact ⟨fun h => ⟨e, rfl, h.symm⟩, fun ⟨x, hx, hn⟩ => by rw [hx]; exact hn.symm⟩

theorem declAt_some {p : Nat} {k : List Char} {e : Ent} (h : declAt ds p k = some e) :
    ∃ d, ds[e.id]? = some d ∧ d.pkg = p ∧ simplifiedName d.name = k ∧ e = ⟨d.name, e.id, clsObject⟩ := by
  unfold declAt at h
  cases hf : ds.zipIdx.find? fun x => decide (x.1.pkg = p ∧ simplifiedName x.1.name = k) with
  | none => rw [hf] at h; cases h
  | some x =>
    rw [hf] at h
    cases h
    have h1 := List.find?_some hf
    have h2 := List.mem_of_find?_eq_some hf
    simp only [decide_eq_true_eq] at h1
    obtain ⟨d, i⟩ := x
    rw [List.mem_zipIdx_iff_getElem?] at h2
    exact ⟨d, h2, h1.1, h1.2, rfl⟩

theorem declAt_mem {p : Nat} {k : List Char} {d : Dec} (hd : d ∈ ds) (h1 : d.pkg = p) (h2 : simplifiedName d.name = k) :
    ∃ e, declAt ds p k = some e := by
  unfold declAt
  cases hf : ds.zipIdx.find? fun x => decide (x.1.pkg = p ∧ simplifiedName x.1.name = k) with
  | some x => exact ⟨_, rfl⟩
  | none =>
    obtain ⟨i, hi, rfl⟩ := List.mem_iff_getElem.1 hd
    have := List.find?_eq_none.1 hf (ds[i], i) (by rw [List.mem_zipIdx_iff_getElem?]; simp [hi])
    simp [h1, h2] at this

theorem good_inj (hg : Good g B ds) {i j : Nat} {d d' : Dec} (hi : ds[i]? = some d) (hj : ds[j]? = some d')
    (hp : d.pkg = d'.pkg) (hn : simplifiedName d.name = simplifiedName d'.name) : i = j := by
  have key := List.pairwise_iff_getElem.1 hg.distinct
  obtain ⟨h1, rfl⟩ := List.getElem?_eq_some_iff.1 hi
  obtain ⟨h2, rfl⟩ := List.getElem?_eq_some_iff.1 hj
  rcases Nat.lt_trichotomy i j with h | h | h
  · exact absurd hn (key i j h1 h2 h hp)
  · exact h
  · exact absurd hn.symm (key j i h2 h1 h hp.symm)

theorem good_outer (hg : Good g B ds) {d : Dec} (hd : d ∈ ds) (p : Nat) : outer g B p (simplifiedName d.name) = none := by
  unfold outer
  split
  · exact (hg.fresh d hd).2.2
  · rfl

/-- A name means what it meant before, or an object. -/
theorem look (hb : Base g B) (hg : Good g B ds) (h : Grown B N ds) (p : Nat) (name : List Char) (e : Ent) :
    (N.tab p).lookup name none = .ok e ↔ (B.tab p).lookup name none = .ok e ∨
      ∃ d, ds[e.id]? = some d ∧ d.pkg = p ∧ d.name = name ∧ e = ⟨name, e.id, clsObject⟩ := by
  rw [lookup_iff, lookup_iff, grown_find hb h, base_find hb]
  constructor
  · rintro ⟨h1, h2⟩
    cases ho : (B.tab p).own.get (simplifiedName name) with
    | some x =>
      rw [ho] at h1
      exact .inl ⟨h1, h2⟩
    | none =>
      rw [ho, Option.none_or] at h1
      cases hd : declAt ds p (simplifiedName name) with
      | none =>
        rw [hd, Option.none_or] at h1
        exact .inl ⟨by rw [Option.none_or]; exact h1, h2⟩
      | some x =>
        rw [hd] at h1
        cases h1
        obtain ⟨d, k1, k2, k3, k4⟩ := declAt_some hd
        rw [k4] at h2
        dsimp only at h2
        exact .inr ⟨d, k1, k2, h2, by rw [← h2]; exact k4⟩
  · rintro (⟨h1, h2⟩ | ⟨d, h1, h2, h3, h4⟩)
    · refine ⟨?_, h2⟩
      cases ho : (B.tab p).own.get (simplifiedName name) with
      | some x => rw [ho] at h1; exact h1
      | none =>
        rw [ho, Option.none_or] at h1
        rw [Option.none_or]
        cases hd : declAt ds p (simplifiedName name) with
        | none => exact h1
        | some x =>
          obtain ⟨d, k1, k2, k3, k4⟩ := declAt_some hd
          rw [← k3, good_outer hg (List.mem_of_getElem? k1)] at h1
          cases h1
    · have hm := List.mem_of_getElem? h1
      subst h2 h3
      rw [(hg.fresh d hm).2.1, Option.none_or]
      obtain ⟨x, hx⟩ := declAt_mem hm rfl rfl
      rw [hx]
      obtain ⟨d', k1, k2, k3, k4⟩ := declAt_some hx
      have := good_inj hg k1 h1 k2 k3
      rw [this] at k1 k4
      rw [h1] at k1
      cases k1
      refine ⟨?_, by rw [h4]⟩
      rw [h4, k4]
      rfl

theorem base_type (hb : Base g B) {p : Nat} {name : List Char} {e : Ent} (h : (B.tab p).lookup name none = .ok e) :
    e.cls ≠ clsObject := by
  rw [lookup_iff, base_find hb] at h
  cases ho : (B.tab p).own.get (simplifiedName name) with
  | some x =>
    rw [ho] at h
    cases h.1
    exact (hb.types p _ _ ho).1
  | none =>
    rw [ho, Option.none_or] at h
    have h := h.1
    unfold outer at h
    split at h
    · unfold Frame.get at h
      cases hf : g.own.find? fun q => decide (q.1 = simplifiedName name) with
      | none => rw [hf] at h; cases h
      | some x =>
        rw [hf] at h
        cases h
        rcases hb.glob.own x (List.mem_of_find?_eq_some hf) with h | h | h <;> rw [h] <;> decide
    · cases h

theorem lookup_fun {T : STab} {name : List Char} {e e' : Ent} (h : T.lookup name none = .ok e) (h' : T.lookup name none = .ok e') :
    e = e' := by
  rw [h] at h'
  cases h'
  rfl

/-! ### Names of types -/

theorem means_iff (hb : Base g B) (hg : Good g B ds) (h : Grown B N ds) {E : FileEnv} (hE : E.global = g) {name : List Char}
    {e : Ent} (he : e.cls ≠ clsObject) : Means E N name e ↔ Means E B name e := by
  have hb0 := grown_refl hb.otyps
  have hcN := contains_iff hb h E.pkg name
  have hcB := contains_iff hb hb0 E.pkg name
  have hlook := look hb hg h E.pkg name
  have hnot : ∀ i, e ≠ ⟨name, i, clsObject⟩ := fun i hi => he (by rw [hi])
  unfold Means
  by_cases cN : (N.tab E.pkg).contains name = true <;> by_cases cB : (B.tab E.pkg).contains name = true
  · rw [if_pos cN, if_pos cB, hlook]
    constructor
    · rintro (h1 | ⟨d, -, -, -, h1⟩)
      · exact h1
      · exact absurd h1 (hnot _)
    · exact .inl
  · rw [if_pos cN, if_neg cB, hlook]
    constructor
    · rintro (h1 | ⟨d, -, -, -, h1⟩)
      · exact absurd (hcB.2 ⟨e, h1⟩) cB
      · exact absurd h1 (hnot _)
    · intro h1
      exfalso
      obtain ⟨x, hx⟩ := hcN.1 cN
      rcases (hlook x).1 hx with h2 | ⟨d, h2, h3, h4, -⟩
      · exact cB (hcB.2 ⟨x, h2⟩)
      · rw [hE, lookup_iff, find_eq hb.glob.parents hb.glob.imported rfl] at h1
        have h5 := (hg.fresh d (List.mem_of_getElem? h2)).2.2
        rw [h4] at h5
        rw [h5] at h1
        simp at h1
  · obtain ⟨x, hx⟩ := hcB.1 cB
    exact absurd (hcN.2 ⟨x, (hlook x).2 (.inl hx)⟩) cN
  · rw [if_neg cN, if_neg cB]

theorem lookup_type (hb : Base g B) (hg : Good g B ds) (h : Grown B N ds) {p : Nat} {name : List Char} {e : Ent}
    (he : e.cls ≠ clsObject) : (N.tab p).lookup name none = .ok e ↔ (B.tab p).lookup name none = .ok e := by
  rw [look hb hg h]
  constructor
  · rintro (h1 | ⟨d, -, -, -, h1⟩)
    · exact h1
    · exact absurd (by rw [h1]) he
  · exact .inl

theorem nameOf_iff (hb : Base g B) (hg : Good g B ds) (h : Grown B N ds) {E : FileEnv} (hE : E.global = g) {ts : List Token}
    {e : Ent} (he : e.cls ≠ clsObject) : NameOf E N ts e ↔ NameOf E B ts e := by
  unfold NameOf
  have hpk : ∀ p : Ent, p.cls = clsPackage → p.cls ≠ clsObject := fun p hp => by rw [hp]; decide
  constructor
  · rintro (⟨t, h1, h2, h3, h4⟩ | ⟨t, d, t', p, h1, h2, h3, h4, h5, h6, h7, h8⟩)
    · exact .inl ⟨t, h1, h2, (means_iff hb hg h hE he).1 h3, h4⟩
    · exact .inr ⟨t, d, t', p, h1, h2, h3, h4, (means_iff hb hg h hE (hpk p h6)).1 h5, h6, h7, (lookup_type hb hg h he).1 h8⟩
  · rintro (⟨t, h1, h2, h3, h4⟩ | ⟨t, d, t', p, h1, h2, h3, h4, h5, h6, h7, h8⟩)
    · exact .inl ⟨t, h1, h2, (means_iff hb hg h hE he).2 h3, h4⟩
    · exact .inr ⟨t, d, t', p, h1, h2, h3, h4, (means_iff hb hg h hE (hpk p h6)).2 h5, h6, h7, (lookup_type hb hg h he).2 h8⟩

/-! ### References -/

theorem mayRefer_iff (hb : Base g B) (hg : Good g B ds) (h : Grown B N ds) (τ : Ty) (p : Nat) (name : List Char) :
    MayRefer N τ p name ↔ (∀ e, (B.tab p).lookup name none ≠ .ok e) ∧
      ∀ d ∈ ds, d.pkg = p → d.name = name → Referable B.decls d.typ τ := by
  unfold MayRefer
  rw [contains_iff hb h]
  constructor
  · intro hm
    constructor
    · intro e he
      obtain ⟨x, t, h1, h2, -⟩ := hm ⟨e, (look hb hg h p name e).2 (.inl he)⟩
      have := lookup_fun h1 ((look hb hg h p name e).2 (.inl he))
      subst this
      exact base_type hb he h2
    · intro d hd h1 h2
      obtain ⟨i, hi, rfl⟩ := List.mem_iff_getElem.1 hd
      have hl := (look hb hg h p name ⟨name, i, clsObject⟩).2 (.inr ⟨ds[i], by simp [hi], h1, h2, rfl⟩)
      obtain ⟨x, t, k1, k2, k3, k4⟩ := hm ⟨_, hl⟩
      have := lookup_fun k1 hl
      subst this
      rw [h.otyps, List.getElem?_map] at k3
      simp only [List.getElem?_eq_getElem hi, Option.map_some, Option.some.injEq] at k3
      rw [← h.decls, k3]
      exact k4
  · rintro ⟨h1, h2⟩ ⟨e, he⟩
    rcases (look hb hg h p name e).1 he with h3 | ⟨d, h3, h4, h5, h6⟩
    · exact absurd h3 (h1 e)
    · refine ⟨e, d.typ, he, by rw [h6], ?_, ?_⟩
      · rw [h.otyps, List.getElem?_map, h3]; rfl
      · rw [h.decls]
        exact h2 d (List.mem_of_getElem? h3) h4 h5

/-! ### Declaring objects -/

theorem good_of_declared (hb : Base g B) (hg : Good g B ds) (h : Grown B N ds) {N' : Names} {p t : Nat} {name : List Char}
    (hd : Declared N N' p name t ds.length) : Good g B (ds ++ [⟨p, name, t⟩]) := by
  obtain ⟨h1, h2, h3, T, T', h4, h5, h6⟩ := hd
  have hp : p < N.tabs.length := (List.getElem?_eq_some_iff.1 h4).1
  rw [h.size] at hp
  have hr : T.containsRaw (simplifiedName name) none = false := by
    unfold STab.register at h5
    dsimp only at h5
    split at h5
    · split at h5
      · split at h5 <;> cases h5
      · cases h5
    · next hc => simpa using hc
  rw [← tab_of h4, raw_grown hb h, grown_find hb h] at hr
  have hnone : (((B.tab p).own.get (simplifiedName name)).or (declAt ds p (simplifiedName name))).or
      (outer g B p (simplifiedName name)) = none := by
    cases hx : (((B.tab p).own.get (simplifiedName name)).or (declAt ds p (simplifiedName name))).or
      (outer g B p (simplifiedName name)) with
    | none => rfl
    | some e => rw [hx] at hr; cases hr
  simp only [Option.or_eq_none_iff] at hnone
  obtain ⟨⟨n1, n2⟩, n3⟩ := hnone
  unfold outer at n3
  rw [if_pos hp] at n3
  refine ⟨fun d hd => ?_, ?_⟩
  · rcases List.mem_append.1 hd with hd | hd
    · exact hg.fresh d hd
    · rw [List.mem_singleton] at hd
      subst hd
      exact ⟨hp, n1, n3⟩
  · rw [List.pairwise_append]
    refine ⟨hg.distinct, List.pairwise_singleton _ _, fun d hd d' hd' h1 h2 => ?_⟩
    rw [List.mem_singleton] at hd'
    subst hd'
    obtain ⟨e, he⟩ := declAt_mem hd h1 h2
    rw [n2] at he
    cases he

theorem can_declare (hb : Base g B) (h : Grown B N ds) {d : Dec} (hg : Good g B (ds ++ [d])) :
    ∃ N', Declared N N' d.pkg d.name d.typ ds.length := by
  obtain ⟨h1, h2, h3⟩ := hg.fresh d (by simp)
  have hp : d.pkg < N.tabs.length := by rw [h.size]; exact h1
  have hT : N.tabs[d.pkg]? = some N.tabs[d.pkg] := List.getElem?_eq_getElem hp
  have hd : declAt ds d.pkg (simplifiedName d.name) = none := by
    cases hx : declAt ds d.pkg (simplifiedName d.name) with
    | none => rfl
    | some e =>
      obtain ⟨d', k1, k2, k3, -⟩ := declAt_some hx
      have := (List.pairwise_append.1 hg.distinct).2.2 d' (List.mem_of_getElem? k1) d (by simp) k2
      exact absurd k3 this
  have hr : (N.tabs[d.pkg]).containsRaw (simplifiedName d.name) none = false := by
    rw [← tab_of hT, raw_grown hb h, grown_find hb h, h2, hd]
    unfold outer
    rw [if_pos h1, h3]
    rfl
  obtain ⟨T', hT'⟩ : ∃ T', (N.tabs[d.pkg]).register ⟨d.name, ds.length, clsObject⟩ = .ok T' := by
    unfold STab.register
    dsimp only
    rw [if_neg (by rw [hr]; simp)]
    exact ⟨_, rfl⟩
  exact ⟨⟨N.tabs.set d.pkg T', N.decls, N.seps, N.otyps ++ [d.typ]⟩, rfl, rfl, rfl, _, T', hT, hT', rfl⟩

end Verif.Lemmas.Rearrange
