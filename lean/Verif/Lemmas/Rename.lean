import Verif.Lemmas.ParseRules
import Verif.Model.Parse.Rsl
import Verif.Model.Run.Objects
/-!
# Two runs with different packages

`Sims K Q A x y`: started in states that differ only in the numbers of the packages and in packages that do not
matter, in front of tokens that satisfy `Q`, `x` and `y` end in the same way, with results related by `A`.
-/
namespace Verif.Lemmas.Rename
open Verif.Model Verif.Lemmas

/-- Two global tables, and the number in the second one of every package of the first -/
structure Ren where
  g  : STab
  g' : STab
  num : Nat → Nat

/-- The same entity in the second run -/
def Ren.ent (K : Ren) (e : Ent) : Ent := if e.cls = clsPackage then { e with id := K.num e.id } else e

/-- A name that means the same in both global tables -/
def Ren.Seen (K : Ren) (n : List Char) : Prop :=
  K.g'.own.get (simplifiedName n) = (K.g.own.get (simplifiedName n)).map K.ent

/-- What is assumed about the two global tables -/
class Ren.Ok (K : Ren) : Prop where
  inj : ∀ i j, K.num i = K.num j → i = j
  flat : K.g.parents = [] ∧ K.g.imported = []
  flat' : K.g'.parents = [] ∧ K.g'.imported = []

section
variable {K : Ren}

theorem ent_name (e : Ent) : (K.ent e).name = e.name := by unfold Ren.ent; split <;> rfl
theorem ent_cls (e : Ent) : (K.ent e).cls = e.cls := by unfold Ren.ent; split <;> rfl
theorem ent_id {e : Ent} (h : e.cls = clsPackage) : (K.ent e).id = K.num e.id := by unfold Ren.ent; rw [if_pos h]
theorem ent_self {e : Ent} (h : e.cls ≠ clsPackage) : K.ent e = e := by unfold Ren.ent; rw [if_neg h]
theorem ent_ty? (e : Ent) : (K.ent e).ty? = e.ty? := by
  unfold Ren.ent
  split
  · next h => unfold Ent.ty?; simp [h, clsPackage, clsBuiltinType, clsRecord, clsTuple, clsEnum]
  · rfl
theorem ent_composite? (e : Ent) : (K.ent e).composite? = e.composite? := by
  unfold Ren.ent
  split
  · next h => unfold Ent.composite?; simp [h, clsPackage, clsRecord, clsTuple]
  · rfl
theorem ent_isCallable (e : Ent) : (K.ent e).isCallable = e.isCallable := by
  unfold Ent.isCallable; rw [ent_ty?, ent_cls]

end

/-! ## Tables -/

/-- Two tables in which a name means the same -/
structure Agree (K : Ren) (n : List Char) (T T' : STab) : Prop where
  find : T'.find (simplifiedName n) = (T.find (simplifiedName n)).map K.ent
  contains : ∀ p, T'.containsRaw (simplifiedName n) p = T.containsRaw (simplifiedName n) p

/-- The tables of a package in the two runs -/
structure TabR (K : Ren) (T T' : STab) : Prop where
  own : T'.own = T.own
  parents : T.parents = [] ∧ T'.parents = []
  types : ∀ x ∈ T.own, x.2.cls ≠ clsPackage
  imported : (T.imported = [] ∧ T'.imported = []) ∨ (T.imported = [[K.g.own]] ∧ T'.imported = [[K.g'.own]])

section
variable {K : Ren} {n : List Char} {T T' : STab} {sub : Option (Ent → Bool)}

/-- the test does not depend on numbers of packages -/
def SubR (K : Ren) (sub : Option (Ent → Bool)) : Prop := ∀ e, sub.any (fun p => !p (K.ent e)) = sub.any (fun p => !p e)

theorem subR_none : SubR K none := fun _ => rfl

theorem subR_some {p : Ent → Bool} (h : ∀ e, p (K.ent e) = p e) : SubR K (some p) := fun e => by
  simp only [Option.any_some, h]

theorem subR_cls {c : Nat} : SubR K (some fun e => decide (e.cls = c)) := subR_some fun e => by rw [ent_cls]

theorem Agree.lookupDirect (h : Agree K n T T') (hs : SubR K sub) (b : Bool) :
    T'.lookupDirect n sub b = (T.lookupDirect n sub b).map K.ent := by
  unfold STab.lookupDirect
  rw [h.find]
  cases T.find (simplifiedName n) with
  | none => rfl
  | some e =>
    simp only [Option.map_some, ent_name, hs e]
    split
    · rfl
    · split <;> rfl

theorem Agree.lookup (h : Agree K n T T') (hs : SubR K sub) : T'.lookup n sub = (T.lookup n sub).map K.ent :=
  h.lookupDirect hs false

theorem Agree.lookupAssuming (h : Agree K n T T') (hs : SubR K sub) :
    T'.lookupAssuming n sub = (T.lookupAssuming n sub).map (Option.map K.ent) := by
  unfold STab.lookupAssuming
  rw [h.find]
  cases T.find (simplifiedName n) with
  | none => rfl
  | some e =>
    simp only [Option.map_some, ent_name, hs e]
    split
    · rfl
    · split <;> rfl

theorem Agree.containsName (h : Agree K n T T') : T'.contains n = T.contains n := h.contains _

theorem agree_glob [hK : K.Ok] (hn : K.Seen n) : Agree K n K.g K.g' := by
  unfold Ren.Seen at hn
  constructor
  · unfold STab.find
    rw [hK.flat.1, hK.flat.2, hK.flat'.1, hK.flat'.2]
    simp only [List.findSome?_cons, List.findSome?_nil, chainGet]
    rw [hn]
    cases K.g.own.get (simplifiedName n) <;> rfl
  · intro p
    unfold STab.containsRaw
    rw [hK.flat.1, hK.flat.2, hK.flat'.1, hK.flat'.2]
    rw [hn]
    cases K.g.own.get (simplifiedName n) with
    | none => rfl
    | some e => simp only [Option.map_some, ent_name]

theorem frame_get_mem {f : Frame} {k : List Char} {e : Ent} (h : f.get k = some e) : ∃ x ∈ f, x.2 = e := by
  unfold Frame.get at h
  obtain ⟨x, hx, rfl⟩ := Option.map_eq_some_iff.1 h
  exact ⟨x, List.mem_of_find?_eq_some hx, rfl⟩

theorem TabR.agree (h : TabR K T T') (hn : K.Seen n) : Agree K n T T' := by
  unfold Ren.Seen at hn
  have own : ∀ e, T.own.get (simplifiedName n) = some e → K.ent e = e := by
    intro e he
    obtain ⟨x, hx, rfl⟩ := frame_get_mem he
    exact ent_self (h.types x hx)
  constructor
  · unfold STab.find
    rw [h.parents.1, h.parents.2, h.own]
    rcases h.imported with ⟨h1, h2⟩ | ⟨h1, h2⟩
    · rw [h1, h2]
      simp only [List.findSome?_cons, List.findSome?_nil, chainGet]
      cases hg : T.own.get (simplifiedName n) with
      | none => rfl
      | some e => simp only [Option.map_some, own e hg]
    · rw [h1, h2]
      simp only [List.findSome?_cons, List.findSome?_nil, chainGet]
      cases hg : T.own.get (simplifiedName n) with
      | none =>
        dsimp only
        rw [hn]
        cases K.g.own.get (simplifiedName n) <;> rfl
      | some e => simp only [Option.map_some, own e hg]
  · intro p
    unfold STab.containsRaw
    rw [h.parents.1, h.parents.2, h.own]
    cases hg : T.own.get (simplifiedName n) with
    | some e => rfl
    | none =>
      dsimp only
      rcases h.imported with ⟨h1, h2⟩ | ⟨h1, h2⟩
      · rw [h1, h2]
      · rw [h1, h2]
        simp only [List.any_cons, List.any_nil, chainContains, List.isEmpty_nil, if_true]
        rw [hn]
        cases K.g.own.get (simplifiedName n) with
        | none => rfl
        | some e => simp only [Option.map_some, ent_name]

theorem TabR.empty : TabR K .empty .empty :=
  ⟨rfl, ⟨rfl, rfl⟩, (fun x hx => by cases hx), .inl ⟨rfl, rfl⟩⟩

/-- The result of a declaration in the two runs -/
inductive RegR (K : Ren) : Except SymErr STab → Except SymErr STab → Prop
  | ok {T T' : STab} : TabR K T T' → RegR K (.ok T) (.ok T')
  | error {e : SymErr} : RegR K (.error e) (.error e)

theorem TabR.register (h : TabR K T T') {e : Ent} (hn : K.Seen e.name) (hc : e.cls ≠ clsPackage) :
    RegR K (T.register e) (T'.register e) := by
  unfold STab.register
  have ha := h.agree hn
  dsimp only
  rw [ha.contains, ha.lookupDirect subR_none]
  split
  · cases T.lookupDirect e.name none true with
    | error x => exact .error
    | ok pdef =>
      dsimp only [Except.map]
      rw [ent_name]
      split <;> exact .error
  · refine .ok ⟨by dsimp only; rw [h.own], h.parents, ?_, h.imported⟩
    intro x hx
    rcases List.mem_append.1 hx with hx | hx
    · exact h.types x hx
    · rw [List.mem_singleton.1 hx]; exact hc

end

/-- All tables of packages in the two runs -/
structure TabsR (K : Ren) (ts ts' : List STab) : Prop where
  get : ∀ i, (ts[i]? = none ∧ ts'[K.num i]? = none) ∨
    ∃ T T', ts[i]? = some T ∧ ts'[K.num i]? = some T' ∧ TabR K T T'
  rest : ∀ j, (∀ i, K.num i ≠ j) → ∀ T', ts'[j]? = some T' → T'.own = [] ∧ T'.parents = []

section
variable {K : Ren} {ts ts' : List STab}

theorem TabsR.tab (h : TabsR K ts ts') (i : Nat) : TabR K ((ts[i]?).getD .empty) ((ts'[K.num i]?).getD .empty) := by
  rcases h.get i with ⟨h1, h2⟩ | ⟨T, T', h1, h2, h3⟩
  · rw [h1, h2]; exact TabR.empty
  · rw [h1, h2]; exact h3

theorem TabsR.set [hK : K.Ok] (h : TabsR K ts ts') {p : Nat} {T T' : STab} (hT : TabR K T T') :
    TabsR K (ts.set p T) (ts'.set (K.num p) T') := by
  constructor
  · intro i
    rw [List.getElem?_set, List.getElem?_set]
    by_cases hi : p = i
    · subst hi
      rw [if_pos rfl, if_pos rfl]
      rcases h.get p with ⟨h1, h2⟩ | ⟨U, U', h1, h2, h3⟩
      · left
        rw [List.getElem?_eq_none_iff] at h1 h2
        exact ⟨by rw [if_neg (by omega)], by rw [if_neg (by omega)]⟩
      · right
        have l1 := (List.getElem?_eq_some_iff.1 h1).1
        have l2 := (List.getElem?_eq_some_iff.1 h2).1
        exact ⟨T, T', by rw [if_pos l1], by rw [if_pos l2], hT⟩
    · rw [if_neg hi, if_neg (fun e => hi (hK.inj _ _ e))]
      exact h.get i
  · intro j hj T1 h1
    rw [List.getElem?_set, if_neg (hj p)] at h1
    exact h.rest j hj T1 h1

end

/-! ## Values -/

/-- the same name in a markup string -/
def Ren.mref (K : Ren) (r : MRef) : MRef := ⟨K.num r.pkg, r.name⟩

mutual
/-- the same value -/
def Ren.val (K : Ren) : PVal → PVal
  | .inull => .inull
  | .bool b => .bool b
  | .int i => .int i
  | .dec q => .dec q
  | .str s => .str s
  | .markup s refs => .markup s (refs.map K.mref)
  | .enum t l => .enum t l
  | .neg e => .neg (K.val e)
  | .pos e => .pos (K.val e)
  | .arr t es => .arr t (K.vals es)
  | .tup t fs => .tup t (K.flds fs)
  | .ref t p n => .ref t (K.num p) n
/-- the same values -/
def Ren.vals (K : Ren) : List PVal → List PVal
  | [] => []
  | e :: es => K.val e :: K.vals es
/-- the same fields -/
def Ren.flds (K : Ren) : List (String × PVal) → List (String × PVal)
  | [] => []
  | f :: fs => K.fld f :: K.flds fs
/-- the same field -/
def Ren.fld (K : Ren) : String × PVal → String × PVal
  | (n, e) => (n, K.val e)
end

mutual
/-- all names in the value mean the same in both runs -/
def Ren.Good (K : Ren) : PVal → Prop
  | .markup _ refs => ∀ r ∈ refs, K.Seen r.name
  | .neg e => K.Good e
  | .pos e => K.Good e
  | .arr _ es => K.Goods es
  | .tup _ fs => K.GoodFs fs
  | .ref _ _ n => K.Seen n
  | _ => True
/-- … in all values -/
def Ren.Goods (K : Ren) : List PVal → Prop
  | [] => True
  | e :: es => K.Good e ∧ K.Goods es
/-- … in all fields -/
def Ren.GoodFs (K : Ren) : List (String × PVal) → Prop
  | [] => True
  | f :: fs => K.GoodF f ∧ K.GoodFs fs
/-- … in a field -/
def Ren.GoodF (K : Ren) : String × PVal → Prop
  | (_, e) => K.Good e
end

/-- the same node -/
def Ren.node (K : Ren) (v : VNode) : VNode := ⟨v.id, K.val v.val⟩
/-- the same component of an object -/
def Ren.entry (K : Ren) (f : String × VNode) : String × VNode := (f.1, K.node f.2)
/-- the same object -/
def Ren.obj (K : Ren) (o : Obj) : Obj := { o with pkg := K.num o.pkg, fields := o.fields.map K.entry }
/-- the same attributes of a record type -/
def Ren.info (K : Ren) (i : RecInfo) : RecInfo := { i with frozen := i.frozen.map K.entry }

section
variable {K : Ren}

theorem vals_map (es : List PVal) : K.vals es = es.map K.val := by
  induction es with
  | nil => rfl
  | cons e es ih => rw [Ren.vals, ih]; rfl

theorem flds_map (fs : List (String × PVal)) : K.flds fs = fs.map fun f => (f.1, K.val f.2) := by
  induction fs with
  | nil => rfl
  | cons f fs ih => obtain ⟨n, e⟩ := f; rw [Ren.flds, ih]; rfl

theorem goods_iff (es : List PVal) : K.Goods es ↔ ∀ e ∈ es, K.Good e := by
  induction es with
  | nil => simp [Ren.Goods]
  | cons e es ih => rw [Ren.Goods, ih]; simp

theorem goodFs_iff (fs : List (String × PVal)) : K.GoodFs fs ↔ ∀ f ∈ fs, K.Good f.2 := by
  induction fs with
  | nil => simp [Ren.GoodFs]
  | cons f fs ih =>
    rw [Ren.GoodFs, ih]
    obtain ⟨n, e⟩ := f
    simp [Ren.GoodF]

theorem val_isNull (v : PVal) : (K.val v).isNull = v.isNull := by cases v <;> rfl

theorem lookup_entry (fs : List (String × VNode)) (n : String) :
    (fs.map K.entry).lookup n = (fs.lookup n).map K.node := by
  induction fs with
  | nil => rfl
  | cons f fs ih =>
    obtain ⟨m, v⟩ := f
    simp only [List.map_cons, Ren.entry, List.lookup_cons]
    split
    · rfl
    · exact ih

theorem setKey_entry (fs : List (String × VNode)) (n : String) (v : VNode) :
    setKey (fs.map K.entry) n (K.node v) = (setKey fs n v).map K.entry := by
  unfold setKey
  rw [List.map_map, List.map_map]
  refine List.map_congr_left fun f _ => ?_
  simp only [Function.comp]
  by_cases h : f.1 = n
  · rw [if_pos h, if_pos (show (K.entry f).1 = n from h)]; rfl
  · rw [if_neg h, if_neg (show ¬ (K.entry f).1 = n from h)]

theorem setKey_flds (d : List (String × PVal)) (n : String) (v : PVal) :
    setKey (K.flds d) n (K.val v) = K.flds (setKey d n v) := by
  unfold setKey
  rw [flds_map, flds_map, List.map_map, List.map_map]
  refine List.map_congr_left fun f _ => ?_
  simp only [Function.comp]
  by_cases h : f.1 = n
  · rw [if_pos h, if_pos h]
  · rw [if_neg h, if_neg h]

end

/-! ## States -/

/-- The state of the second run -/
def ren (K : Ren) (s : PS) (ts : List STab) : PS :=
  { s with infos := s.infos.map K.info, objs := s.objs.map K.obj, tabs := ts }

/-- What holds while a file with the tokens `Q` is parsed. -/
structure StR (K : Ren) (Q : Token → Prop) (s : PS) (ts : List STab) : Prop where
  tabs : TabsR K s.tabs ts
  next : ∀ t, s.nt = some t → Q t
  rest : ∀ t, LexOut.tok t ∈ s.rest → t.kind ≠ .COMMENT → Q t
  objs : ∀ o ∈ s.objs, ∀ f ∈ o.fields, K.Good f.2.val
  infos : ∀ i ∈ s.infos, ∀ f ∈ i.frozen, K.Good f.2.val

/-- The states of the two runs -/
inductive Sim (K : Ren) (Q : Token → Prop) : PS → PS → Prop
  | mk {s ts} : StR K Q s ts → Sim K Q s (ren K s ts)

/-- See the head of this file. -/
inductive ResR (K : Ren) (Q : Token → Prop) {α β : Type} (A : α → β → Prop) : PR α → PR β → Prop
  | ok {a b s s'} : A a b → Sim K Q s s' → ResR K Q A (.ok a s) (.ok b s')
  | err {s s'} : Sim K Q s s' → ResR K Q A (.err s) (.err s')
  | crash {c s s'} : Sim K Q s s' → ResR K Q A (.crash c s) (.crash c s')

/-- See the head of this file. -/
class Sims (K : Ren) (Q : Token → Prop) {α β : Type} (A : outParam (α → β → Prop)) (x : P α) (y : P β) : Prop where
  sim : ∀ s s', Sim K Q s s' → ResR K Q A (x s) (y s')

/-- the same token, of which something is known -/
def TokR (Q : Token → Prop) (t t' : Token) : Prop := t' = t ∧ Q t
/-- the same entity -/
def EntR (K : Ren) (e e' : Ent) : Prop := e' = K.ent e
/-- the same value -/
def ValR (K : Ren) (v v' : PVal) : Prop := v' = K.val v ∧ K.Good v
/-- the same values -/
def ValsR (K : Ren) (v v' : List PVal) : Prop := v' = K.vals v ∧ K.Goods v
/-- the same fields -/
def FldsR (K : Ren) (v v' : List (String × PVal)) : Prop := v' = K.flds v ∧ K.GoodFs v
/-- the same node -/
def NodeR (K : Ren) (v v' : VNode) : Prop := v' = K.node v ∧ K.Good v.val

variable {K : Ren} {Q : Token → Prop} {α β γ δ : Type} {A : α → β → Prop} {B : γ → δ → Prop}

/-! ## What is seen of a state -/

section
variable {s : PS} {ts : List STab}

theorem ren_peek (k : Kind) : (ren K s ts).peek k = s.peek k := id rfl
theorem ren_peekKw (v : String) : (ren K s ts).peekKw v = s.peekKw v := id rfl
theorem ren_peekEof : (ren K s ts).peekEof = s.peekEof := id rfl
theorem ren_peekSep (sp : Sep) : (ren K s ts).peekSep sp = s.peekSep sp := by cases sp <;> rfl
theorem ren_peekOp {α : Type} (ops : List (List Char × α)) : (ren K s ts).peekOp ops = s.peekOp ops := id rfl
theorem ren_nt : (ren K s ts).nt = s.nt := id rfl
theorem ren_ct : (ren K s ts).ct = s.ct := id rfl
theorem ren_toks : (ren K s ts).toks = s.toks := id rfl
theorem ren_decls : (ren K s ts).decls = s.decls := id rfl
theorem ren_seps : (ren K s ts).seps = s.seps := id rfl
theorem ren_isSepTuple (τ : Ty) : (ren K s ts).isSepTuple τ = s.isSepTuple τ := by cases τ <;> rfl
theorem ren_resume : (ren K s ts).canResumeRsl = s.canResumeRsl := id rfl

theorem ren_info (t : Nat) : (ren K s ts).info t = K.info (s.info t) := by
  unfold PS.info ren
  dsimp only
  rw [List.getElem?_map]
  cases s.infos[t]? <;> rfl

theorem ren_abstract (t : Nat) : ((ren K s ts).info t).isAbstract = (s.info t).isAbstract := by rw [ren_info]; rfl
theorem ren_final (t : Nat) : ((ren K s ts).info t).isFinal = (s.info t).isFinal := by rw [ren_info]; rfl

theorem ren_frozen (t : Nat) (m : String) : (ren K s ts).isFrozen t m = s.isFrozen t m := by
  unfold PS.isFrozen
  rw [ren_decls]
  congr 1
  funext a
  rw [ren_info]
  show ((List.map K.entry (s.info a).frozen).lookup m).isSome = _
  rw [lookup_entry, Option.isSome_map]

theorem ren_freezing (t : Nat) (m : String) : (ren K s ts).freezing t m = (s.freezing t m).map K.node := by
  unfold PS.freezing
  rw [ren_decls]
  generalize s.decls.ancestors t = l
  induction l with
  | nil => rfl
  | cons a l ih =>
    rw [List.findSome?_cons, List.findSome?_cons, ih, ren_info]
    have h : (K.info (s.info a)).frozen.lookup m = ((s.info a).frozen.lookup m).map K.node := lookup_entry _ _
    rw [h]
    cases (s.info a).frozen.lookup m <;> rfl

theorem ren_field (o : Nat) (m : String) : (ren K s ts).field o m = (s.field o m).map K.node := by
  unfold PS.field ren
  dsimp only
  rw [List.getElem?_map]
  cases s.objs[o]? with
  | none => rfl
  | some ob => exact lookup_entry _ _

theorem ren_tab (h : StR K Q s ts) (p : Nat) : TabR K (s.tab p) ((ren K s ts).tab (K.num p)) := h.tabs.tab p

theorem mem_of_lookup {β : Type} {l : List (String × β)} {n : String} {v : β} (h : l.lookup n = some v) :
    (n, v) ∈ l := by
  induction l with
  | nil => cases h
  | cons f l ih =>
    obtain ⟨m, w⟩ := f
    rw [List.lookup_cons] at h
    split at h
    · next hm => rw [← Option.some.inj h, beq_iff_eq.1 hm]; exact List.mem_cons_self ..
    · exact List.mem_cons_of_mem _ (ih h)

theorem StR.freezing (h : StR K Q s ts) {t : Nat} {m : String} {v : VNode} (hv : s.freezing t m = some v) :
    K.Good v.val := by
  unfold PS.freezing at hv
  obtain ⟨a, -, ha⟩ := List.exists_of_findSome?_eq_some hv
  unfold PS.info at ha
  cases hi : s.infos[a]? with
  | none => rw [hi] at ha; cases ha
  | some i =>
    rw [hi] at ha
    exact h.infos i (List.mem_of_getElem? hi) _ (mem_of_lookup ha)

end

/-! ## Composition -/

theorem sims_bind {x : P α} {y : P β} {f : α → P γ} {g : β → P δ} (hx : Sims K Q A x y)
    (hf : ∀ a b, A a b → Sims K Q B (f a) (g b)) : Sims K Q B (x >>= f) (y >>= g) := by
  constructor
  intro s s' h
  rw [bind_apply, bind_apply]
  have h1 := hx.sim s s' h
  generalize x s = a at h1 ⊢
  generalize y s' = b at h1 ⊢
  cases h1 with
  | ok h1 h2 => exact (hf _ _ h1).sim _ _ h2
  | err h1 => exact .err h1
  | crash h1 => exact .crash h1

theorem sims_eq {x y : P α} {f : α → P γ} {g : α → P δ} (hx : Sims K Q Eq x y)
    (hf : ∀ a, Sims K Q B (f a) (g a)) : Sims K Q B (x >>= f) (y >>= g) :=
  sims_bind hx fun a b h => by subst h; exact hf a

theorem sims_tok {Q' : Token → Prop} {x y : P Token} {f : Token → P γ} {g : Token → P δ}
    (hx : Sims K Q (TokR Q') x y) (hf : ∀ t, Q' t → Sims K Q B (f t) (g t)) : Sims K Q B (x >>= f) (y >>= g) :=
  sims_bind hx fun a b h => by obtain ⟨rfl, h⟩ := h; exact hf _ h

theorem sims_ent {x y : P Ent} {f : Ent → P γ} {g : Ent → P δ} (hx : Sims K Q (EntR K) x y)
    (hf : ∀ e, Sims K Q B (f e) (g (K.ent e))) : Sims K Q B (x >>= f) (y >>= g) :=
  sims_bind hx fun a b h => by subst h; exact hf _

theorem sims_val {x y : P PVal} {f : PVal → P γ} {g : PVal → P δ} (hx : Sims K Q (ValR K) x y)
    (hf : ∀ v, K.Good v → Sims K Q B (f v) (g (K.val v))) : Sims K Q B (x >>= f) (y >>= g) :=
  sims_bind hx fun a b h => by obtain ⟨rfl, h⟩ := h; exact hf _ h

theorem sims_node {x y : P VNode} {f : VNode → P γ} {g : VNode → P δ} (hx : Sims K Q (NodeR K) x y)
    (hf : ∀ v, K.Good v.val → Sims K Q B (f v) (g (K.node v))) : Sims K Q B (x >>= f) (y >>= g) :=
  sims_bind hx fun a b h => by obtain ⟨rfl, h⟩ := h; exact hf _ h

instance sims_get0 : Sims K Q (Sim K Q) P.get P.get := ⟨fun _ _ h => .ok h h⟩

theorem sims_get {f : PS → P γ} {g : PS → P δ} (hf : ∀ s ts, StR K Q s ts → Sims K Q B (f s) (g (ren K s ts))) :
    Sims K Q B (P.get >>= f) (P.get >>= g) :=
  sims_bind sims_get0 fun a b h => by cases h with | mk h => exact hf _ _ h

instance sims_pure {a : α} : Sims K Q Eq (pure a : P α) (pure a) := ⟨fun _ _ h => .ok rfl h⟩
theorem sims_pure' {a : α} {b : β} (hab : A a b) : Sims K Q A (pure a : P α) (pure b) := ⟨fun _ _ h => .ok hab h⟩
instance sims_crash {c : PCrash} : Sims K Q (Eq (α := α)) (P.crash c : P α) (P.crash c) := ⟨fun _ _ h => .crash h⟩
theorem sims_crash' {c : PCrash} : Sims K Q A (P.crash c : P α) (P.crash c : P β) := ⟨fun _ _ h => .crash h⟩

/-- a change of what is the same in both states -/
theorem sim_set {s s' : PS} (f : PS → PS) (hf : ∀ s ts, f (ren K s ts) = ren K (f s) ts)
    (ht : ∀ s, (f s).tabs = s.tabs) (hn : ∀ s, (f s).nt = s.nt) (hr : ∀ s, (f s).rest = s.rest)
    (ho : ∀ s, (f s).objs = s.objs) (hi : ∀ s, (f s).infos = s.infos) (h : Sim K Q s s') : Sim K Q (f s) (f s') := by
  cases h with
  | mk h =>
    rw [hf]
    exact .mk ⟨by rw [ht]; exact h.tabs, by rw [hn]; exact h.next, by rw [hr]; exact h.rest,
      by rw [ho]; exact h.objs, by rw [hi]; exact h.infos⟩

theorem sims_fail' {e : PErr} : Sims K Q A (P.fail e : P α) (P.fail e : P β) :=
  ⟨fun _ _ h => .err (sim_set (fun s => { s with errs := s.errs ++ [e] }) (fun _ _ => rfl) (fun _ => rfl)
    (fun _ => rfl) (fun _ => rfl) (fun _ => rfl) (fun _ => rfl) h)⟩
instance sims_fail {e : PErr} : Sims K Q (Eq (α := α)) (P.fail e : P α) (P.fail e) := sims_fail'
instance sims_report {e : PErr} : Sims K Q Eq (P.report e) (P.report e) :=
  ⟨fun _ _ h => .ok rfl (sim_set (fun s => { s with errs := s.errs ++ [e] }) (fun _ _ => rfl) (fun _ => rfl)
    (fun _ => rfl) (fun _ => rfl) (fun _ => rfl) (fun _ => rfl) h)⟩
theorem sims_modify (f : PS → PS) (hf : ∀ s ts, f (ren K s ts) = ren K (f s) ts)
    (ht : ∀ s, (f s).tabs = s.tabs) (hn : ∀ s, (f s).nt = s.nt) (hr : ∀ s, (f s).rest = s.rest)
    (ho : ∀ s, (f s).objs = s.objs) (hi : ∀ s, (f s).infos = s.infos) : Sims K Q Eq (P.modify f) (P.modify f) :=
  ⟨fun _ _ h => .ok rfl (sim_set f hf ht hn hr ho hi h)⟩

theorem sims_ite {p : Prop} {d d' : Decidable p} {x y : P α} {x' y' : P β} (h1 : Sims K Q A x x')
    (h2 : Sims K Q A y y') : Sims K Q A (@ite _ p d x y) (@ite _ p d' x' y') := by
  by_cases hp : p
  · rw [if_pos hp, if_pos hp]; exact h1
  · rw [if_neg hp, if_neg hp]; exact h2
theorem sims_cond {p : Bool} {x y : P α} {x' y' : P β} (h1 : Sims K Q A x x') (h2 : Sims K Q A y y') :
    Sims K Q A (P.cond p x y) (P.cond p x' y') := by
  unfold P.cond; exact sims_ite h1 h2

instance sims_liftSym {r : Except SymErr α} : Sims K Q Eq (P.liftSym r) (P.liftSym r) := by
  cases r <;> (unfold P.liftSym; infer_instance)

instance sims_liftEnt {r : Except SymErr Ent} : Sims K Q (EntR K) (P.liftSym r) (P.liftSym (r.map K.ent)) := by
  cases r with
  | error e => exact sims_fail'
  | ok e => exact sims_pure' rfl

instance sims_liftEl {r : El α} : Sims K Q Eq (P.liftEl r) (P.liftEl r) := by
  cases r <;> (unfold P.liftEl; infer_instance)

/-! ## The next token is taken -/

theorem advanceLoop_sim {s : PS} {ts : List STab} (hs : StR K Q s ts) : ∀ r : List LexOut,
    (∀ t, LexOut.tok t ∈ r → t.kind ≠ .COMMENT → Q t) → ResR K Q Eq (advanceLoop s r) (advanceLoop (ren K s ts) r)
  | [], _ => .ok rfl (Sim.mk (s := { s with nt := none, rest := [] })
      ⟨hs.tabs, fun _ h => (by cases h), fun _ h => (by cases h), hs.objs, hs.infos⟩)
  | .tok t :: r, h => by
    rw [advanceLoop, advanceLoop]
    split
    · exact advanceLoop_sim hs r fun u hu => h u (List.mem_cons_of_mem _ hu)
    · next hk =>
      refine .ok rfl (Sim.mk (s := { s with nt := some t, rest := r }) ⟨hs.tabs, fun u hu => ?_, fun u hu => ?_, hs.objs, hs.infos⟩)
      · rw [← Option.some.inj hu]; exact h t (List.mem_cons_self ..) hk
      · exact h u (List.mem_cons_of_mem _ hu)
  | .eof :: r, h => .ok rfl (Sim.mk (s := { s with nt := none, rest := [] })
      ⟨hs.tabs, fun _ h => (by cases h), fun _ h => (by cases h), hs.objs, hs.infos⟩)
  | .error k a b :: r, h => .err (Sim.mk (s := { s with rest := r, errs := s.errs ++ [.lex k] })
      ⟨hs.tabs, hs.next, fun u hu => h u (List.mem_cons_of_mem _ hu), hs.objs, hs.infos⟩)
  | .crash :: r, h => .crash (Sim.mk (s := { s with rest := r })
      ⟨hs.tabs, hs.next, fun u hu => h u (List.mem_cons_of_mem _ hu), hs.objs, hs.infos⟩)

instance sims_advance : Sims K Q Eq P.advance P.advance := by
  constructor
  intro s s' h
  cases h with
  | mk h => exact advanceLoop_sim (s := { s with ct := s.nt }) ⟨h.tabs, h.next, h.rest, h.objs, h.infos⟩ _ h.rest

instance sims_matchK {k : Kind} : Sims K Q (TokR fun t => Q t ∧ t.kind = k) (P.matchK k) (P.matchK k) := by
  constructor
  intro s s' h
  cases h with
  | @mk ts h =>
    unfold P.matchK
    rw [ren_nt]
    have hs : Sim K Q s (ren K s ts) := .mk h
    cases hn : s.nt with
    | none => exact (sims_fail' (K := K) (Q := Q)).sim _ _ hs
    | some t =>
      dsimp only
      split
      · exact (sims_fail' (K := K) (Q := Q)).sim _ _ hs
      · next hk =>
        exact (sims_bind sims_advance fun _ _ _ =>
          sims_pure' ⟨rfl, h.next t hn, Decidable.not_not.1 hk⟩).sim _ _ hs

/-- less is known about the token -/
theorem sims_weak {Q' Q'' : Token → Prop} {x y : P Token} (h : Sims K Q (TokR Q') x y) (hq : ∀ t, Q' t → Q'' t) :
    Sims K Q (TokR Q'') x y := by
  constructor
  intro s s' hs
  have h1 := h.sim s s' hs
  generalize x s = a at h1 ⊢
  generalize y s' = b at h1 ⊢
  cases h1 with
  | ok h1 h2 => exact .ok ⟨h1.1, hq _ h1.2⟩ h2
  | err h => exact .err h
  | crash h => exact .crash h

instance sims_matchKw {v : String} : Sims K Q (TokR Q) (P.matchKw v) (P.matchKw v) := by
  constructor
  intro s s' h
  cases h with
  | @mk ts h =>
    unfold P.matchKw
    rw [ren_nt]
    have hs : Sim K Q s (ren K s ts) := .mk h
    cases hn : s.nt with
    | none => exact (sims_fail' (K := K) (Q := Q)).sim _ _ hs
    | some t =>
      dsimp only
      split
      · exact (sims_fail' (K := K) (Q := Q)).sim _ _ hs
      · split
        · exact (sims_fail' (K := K) (Q := Q)).sim _ _ hs
        · exact (sims_bind sims_advance fun _ _ _ => sims_pure' ⟨rfl, h.next t hn⟩).sim _ _ hs

instance sims_matchEof : Sims K Q Eq P.matchEof P.matchEof := by
  constructor
  intro s s' h
  cases h with
  | @mk ts h =>
    unfold P.matchEof
    rw [ren_nt]
    have hs : Sim K Q s (ren K s ts) := .mk h
    cases hn : s.nt with
    | none => exact .ok rfl hs
    | some t => exact (sims_fail' (K := K) (Q := Q)).sim _ _ hs

theorem sims_skipLoop (l : Nat) : ∀ k, Sims K Q Eq (skipLoop l k) (skipLoop l k)
  | 0 => by unfold skipLoop; exact sims_crash
  | k + 1 => by
    have ih := sims_skipLoop l k
    constructor
    intro s s' h
    cases h with
    | @mk ts h =>
      unfold skipLoop
      rw [ren_nt]
      split
      · exact (sims_bind sims_advance fun _ _ _ => ih).sim _ _ (.mk h)
      · exact .ok rfl (.mk h)

instance sims_skip : Sims K Q Eq P.skipUntilNewline P.skipUntilNewline := by
  constructor
  intro s s' h
  cases h with
  | @mk ts h =>
    unfold P.skipUntilNewline
    rw [ren_ct, ren_toks]
    split
    · exact .ok rfl (.mk h)
    · exact (sims_skipLoop _ _).sim _ _ (.mk h)

/-- Composition along the structure of the program -/
macro "sims" : tactic => `(tactic| repeat' (first
  | with_reducible exact inferInstance
  | (with_reducible refine sims_get fun s ts hs => ?_)
    try simp only [ren_peek, ren_peekKw, ren_peekEof, ren_peekSep, ren_peekOp, ren_toks, ren_resume,
      ren_decls, ren_seps, ren_abstract, ren_final, ren_frozen, ren_isSepTuple, ren_nt]
  | with_reducible refine sims_tok inferInstance fun t ht => ?_
  | with_reducible refine sims_val inferInstance fun v hv => ?_
  | with_reducible refine sims_node inferInstance fun v hv => ?_
  | with_reducible refine sims_eq ?_ fun _ => ?_
  | with_reducible apply sims_ite
  | with_reducible apply sims_cond
  | with_reducible exact sims_fail'
  | with_reducible exact sims_crash'
  | with_reducible exact sims_pure' ⟨rfl, by assumption⟩
  | with_reducible exact sims_pure' ⟨rfl, trivial⟩
  | split))

end Verif.Lemmas.Rename
