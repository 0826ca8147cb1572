import Verif.Props.Objects
import Verif.Props.Membership
import Verif.Props.Eval
/-!
# References (C35, C26)
-/
namespace Verif.Props
open Verif.Model Verif.Spec Verif.Lemmas

/-- What is known after a run over the trlc files, whether it failed or not. -/
theorem run_kept {fs : List OpenFile} {s s' : PS} {b : Bool} (hw : WorldOk s.decls s.infos)
    (h : runTrlcFiles fs s = .ok b s') : Kept s s' :=
  ((runTrlcFiles_sp hw 0 fs s rfl rfl).ok h).1

theorem pkgsKnown_kept {global : STab} {s s' : PS} (hk : Kept s s') (h : PkgsKnown global s) :
    PkgsKnown global s' := fun p hp => h p (by rw [← hk.tabs]; exact hp)

/-- **C35**: resolving the references reports no error iff every reference in an object names an
object of the named package with exactly the given name whose type is the expected one or an
extension of it (for a union: of one of its members), and every name in a markup string
names an object. -/
theorem C35_resolved_iff {fs : List OpenFile} {s s' : PS} {b : Bool} {global : STab}
    (hw : WorldOk s.decls s.infos) (h0 : NoObjects s) (hp : PkgsKnown global s)
    (h : runTrlcFiles fs s = .ok b s') :
    s'.resolveAll global = [] ↔
      ∀ (i : Nat) (ob : Obj), s'.objs[i]? = some ob →
        ∃ gs, ResolvedObj s.decls s'.objs ob.fields gs := by
  have hk := run_kept hw h
  rw [← hk.decls]
  exact resolveAll_iff (hk.inv h0.tabInv) (by rw [hk.decls]; exact hw.wf) (pkgsKnown_kept hk hp)

/-- **C35**: when the references were resolved without error, the values of every object are
the written ones with every reference pointing to the object it names. -/
theorem C35_references {fs : List OpenFile} {s s' : PS} {b : Bool} {global : STab}
    (hw : WorldOk s.decls s.infos) (h0 : NoObjects s) (hp : PkgsKnown global s)
    (h : runTrlcFiles fs s = .ok b s') (hr : s'.resolveAll global = []) :
    ∀ (i : Nat) (ob : Obj), s'.objs[i]? = some ob →
      ∃ gs, s'.heap i = some gs ∧ ResolvedObj s.decls s'.objs ob.fields gs := by
  have hk := run_kept hw h
  have hwf : WFDecls s'.decls := by rw [hk.decls]; exact hw.wf
  have hi := hk.inv h0.tabInv
  intro i ob hob
  obtain ⟨gs, hgs⟩ := (C35_resolved_iff hw h0 hp h).1 hr i ob hob
  refine ⟨gs, ?_, hgs⟩
  unfold PS.heap
  rw [hob]
  simp only
  rw [← hk.decls] at hgs
  rw [(resolveNodes_iff hi hwf _ _).2 hgs]

/-- **C35**: the name of an object is unique in its package, so a reference has one target. -/
theorem C35_target_unique {fs : List OpenFile} {s s' : PS} {b : Bool}
    (hw : WorldOk s.decls s.infos) (h0 : NoObjects s) (h : runTrlcFiles fs s = .ok b s')
    {i j p : Nat} {name : List Char} {o o' : Obj} (h1 : IsNamed s'.objs i p name o)
    (h2 : IsNamed s'.objs j p name o') : i = j :=
  named_unique ((run_kept hw h).inv h0.tabInv) h1 h2

/-- **C35**, **C16**: after a successful run and successful resolution all objects exist and
conform to their types: this is the assumption of the theorems about checks. -/
theorem C35_heap {fs : List OpenFile} {s s' : PS} {global : STab}
    (hw : WorldOk s.decls s.infos) (h0 : NoObjects s) (hp : PkgsKnown global s)
    (h : runTrlcFiles fs s = .ok true s') (hr : s'.resolveAll global = []) :
    HeapOk s.decls s'.objTy s'.heap := by
  intro o t ht
  unfold PS.objTy at ht
  cases hob : s'.objs[o]? with
  | none => rw [hob] at ht; cases ht
  | some ob =>
    rw [hob] at ht
    injection ht with ht
    subst ht
    obtain ⟨gs, h1, h2⟩ := C35_references hw h0 hp h hr o ob hob
    exact ⟨gs, h1, complete_ok hw (C32_all_complete hw h0.objs h o ob hob).1 h2⟩

/-- the run succeeds without message and the references are resolved -/
def resolves (global : STab) : PR Bool → Bool
  | .ok b s => b && s.errs.isEmpty && (s.resolveAll global).isEmpty
  | _ => false

theorem sample_resolves : ∃ s', runTrlcFiles Sample.files Sample.start = .ok true s' ∧
    s'.errs = [] ∧ s'.resolveAll Sample.global = [] := by
  have h : resolves Sample.global (runTrlcFiles Sample.files Sample.start) = true := by
    decide +kernel
  cases hr : runTrlcFiles Sample.files Sample.start with
  | err s => rw [hr] at h; cases h
  | crash c s => rw [hr] at h; cases h
  | ok b s =>
    rw [hr] at h
    simp only [resolves, Bool.and_eq_true, List.isEmpty_iff] at h
    obtain ⟨⟨rfl, he⟩, hs⟩ := h
    exact ⟨s, rfl, he, hs⟩

example : ∃ s', runTrlcFiles Sample.files Sample.start = .ok true s' ∧
    s'.resolveAll Sample.global = [] ∧ NoObjects Sample.start ∧
    PkgsKnown Sample.global Sample.start ∧ WorldOk Sample.start.decls Sample.start.infos := by
  obtain ⟨s', h, -, hr⟩ := sample_resolves
  exact ⟨s', h, hr, Sample.noObjects, Sample.pkgsKnown, Sample.world⟩

/-- A reference to something that does not exist is accepted by the parser, and then reported. -/
example : Sample.isTrue (runTrlcFiles [Sample.openText Sample.env0
      "Ext x { size = 1 links = [nothing] }"] Sample.start) = true ∧
    resolves Sample.global (runTrlcFiles [Sample.openText Sample.env0
      "Ext x { size = 1 links = [nothing] }"] Sample.start) = false := by
  decide +kernel

/-! ## C26 -/

/-- the object has a component of its own (that is, one that is not frozen by its type) -/
def HasOwnValue (D : Decls) (infos : List RecInfo) (ob : Obj) : Prop :=
  ∃ c, HasComp D ob.typ c ∧ ∀ m, ¬ FrozenIn D infos ob.typ c.name m

/-- Two names that stand for references, to object `i` and to object `j` -/
def twoRefs (τ τ' : Ty) (i j : Nat) : List (String × FExpr) :=
  [("a", .ref τ (some i)), ("b", .ref τ' (some j))]

/-- the full claim, for all objects -/
def C26_full : Prop :=
  ∀ (fs : List OpenFile) (s s' : PS) (global : STab) (rx : List Char → List Char → Bool)
    (i j : Nat) (o o' : Obj) (τ τ' : Ty), WorldOk s.decls s.infos → NoObjects s →
    FrozenBefore s.infos s.nid → PkgsKnown global s → runTrlcFiles fs s = .ok true s' →
    s'.resolveAll global = [] → s'.objs[i]? = some o → s'.objs[j]? = some o' →
    ∃ r, Gives ⟨s'.heap, rx⟩ (some (twoRefs τ τ' i j)) (eqExpr (.name "a" τ) (.name "b" τ')) (.bool r) ∧
      (r = true ↔ i = j)

theorem resolvedObj_keys {D : Decls} {objs : List Obj} : ∀ {fs : List (String × VNode)} {gs : Fields},
    ResolvedObj D objs fs gs → gs.map Prod.fst = fs.map Prod.fst := by
  intro fs
  induction fs with
  | nil => intro gs h; simp only [ResolvedObj] at h; subst h; rfl
  | cons f fs ih =>
    intro gs h
    obtain ⟨n, v⟩ := f
    simp only [ResolvedObj] at h
    obtain ⟨e, hs, rfl, -, h⟩ := h
    simp [ih h]

theorem fieldsEq_refl {gs : Fields} (h : (gs.map Prod.fst).Nodup) : fieldsEq gs gs = true := by
  unfold fieldsEq
  simp only [beq_self_eq_true, Bool.true_and, List.all_eq_true]
  rintro ⟨k, n⟩ hm
  rw [lookup_of_mem h hm]
  simp

theorem fieldsEq_lookup {gs hs : Fields} (h : fieldsEq gs hs = true) {k : String} {n : FNode}
    (hk : gs.lookup k = some n) : ∃ m, hs.lookup k = some m ∧ n.id = m.id := by
  unfold fieldsEq at h
  simp only [Bool.and_eq_true, List.all_eq_true] at h
  have := h.2 (k, n) (mem_of_assoc hk)
  simp only at this
  split at this
  · cases this
  · next m hm => exact ⟨m, hm, by simpa using this⟩

/-- **C26** (partly): two references are equal in a check iff they refer to the same object, if
the first object has at least one component that is not frozen.  Missing: objects of types
without components, or with frozen components only, which are all equal, see
`C26_empty_objects`. -/
theorem C26_reference_equality_partial {fs : List OpenFile} {s s' : PS} {global : STab}
    (hw : WorldOk s.decls s.infos) (h0 : NoObjects s) (hf : FrozenBefore s.infos s.nid)
    (hp : PkgsKnown global s) (h : runTrlcFiles fs s = .ok true s')
    (hr : s'.resolveAll global = []) {i j : Nat} {o o' : Obj} (hi : s'.objs[i]? = some o)
    (hj : s'.objs[j]? = some o') (hown : HasOwnValue s.decls s.infos o)
    (rx : List Char → List Char → Bool) (τ τ' : Ty) :
    ∃ r, Gives ⟨s'.heap, rx⟩ (some (twoRefs τ τ' i j)) (eqExpr (.name "a" τ) (.name "b" τ')) (.bool r) ∧
      (r = true ↔ i = j) := by
  obtain ⟨gs, hgs, hres⟩ := C35_references hw h0 hp h hr i o hi
  obtain ⟨hs, hhs, hres'⟩ := C35_references hw h0 hp h hr j o' hj
  refine ⟨fieldsEq gs hs, ⟨some .bool, ?_⟩, ?_⟩
  · simp [eqExpr, Expr.eval, twoRefs, FExpr.eval, hgs, hhs, mkValue, Val.isNull, Ev.bind,
      BinOp.allowsNull, binaryOp, Val.pyEq, List.lookup]
  · obtain ⟨-, hb⟩ := (runTrlcFiles_sp hw s.nid fs s rfl rfl).ok h
    have good : GoodObjs s.decls s.infos s.nid s' := (hb rfl).1 ⟨Nat.le_refl _,
      by rw [h0.objs]; simp, by rw [h0.objs]; simp, by rw [h0.objs]; simp⟩
    constructor
    · intro heq
      obtain ⟨c, hc, hm⟩ := hown
      obtain ⟨n, hn, -⟩ := (good.complete i o hi).1 c hc
      have hrange := good.range i o c n hi hc hn hm
      obtain ⟨e, he, -⟩ := (resolvedObj_lookup hres c.name).1 n hn
      obtain ⟨m, hm', hid⟩ := fieldsEq_lookup heq he
      -- the component in the other object
      cases hl : o'.fields.lookup c.name with
      | none =>
        exfalso
        have hk := resolvedObj_keys hres'
        have : c.name ∉ hs.map Prod.fst := by rw [hk]; exact lookup_none_of hl
        exact this (List.mem_map.2 ⟨_, mem_of_assoc hm', rfl⟩)
      | some n' =>
        obtain ⟨e', he', -⟩ := (resolvedObj_lookup hres' c.name).1 n' hl
        rw [hm'] at he'
        injection he' with he'
        subst he'
        simp only at hid
        obtain ⟨c', hc', hcn⟩ := (good.complete j o' hj).2.1 c.name (by rw [hl]; rfl)
        rw [← hcn] at hl
        rcases Classical.em (∃ x, FrozenIn s.decls s.infos o'.typ c'.name x) with ⟨x, hx⟩ | hx
        · exfalso
          obtain ⟨n'', hn'', hv⟩ := (good.complete j o' hj).1 c' hc'
          rw [hl] at hn''
          injection hn'' with hn''
          subst hn''
          rcases hv with hv | ⟨hv, -⟩
          · obtain ⟨a, inf, -, hinf, hlk⟩ := hv
            have := hf inf (List.mem_of_getElem? hinf) _ (mem_of_assoc hlk)
            simp only at this
            omega
          · exact hv x hx
        · have hx : ∀ x, ¬ FrozenIn s.decls s.infos o'.typ c'.name x := fun x h => hx ⟨x, h⟩
          rcases Nat.lt_trichotomy i j with hij | hij | hij
          · have := good.apart i j o o' c c' n n' hij hi hj hc hn hm hc' hl hx
            omega
          · exact hij
          · have := good.apart j i o' o c' c n' n hij hj hi hc' hl hx hc hn hm
            omega
    · rintro rfl
      rw [hi] at hj
      injection hj with hj
      subst hj
      rw [hgs] at hhs
      injection hhs with hhs
      subst hhs
      apply fieldsEq_refl
      rw [resolvedObj_keys hres]
      exact (good.complete i o hi).2.2

theorem sample_frozenBefore : FrozenBefore Sample.start.infos Sample.start.nid := by
  intro i hi f hf
  simp only [Sample.start, Sample.infos, List.mem_cons, List.not_mem_nil, or_false] at hi
  rcases hi with rfl | rfl | rfl
  · cases hf
  · simp only [List.mem_singleton] at hf
    subst hf
    decide
  · cases hf

example : ∃ s' o, runTrlcFiles Sample.files Sample.start = .ok true s' ∧ s'.objs[1]? = some o ∧
    HasOwnValue Sample.decls Sample.infos o ∧ FrozenBefore Sample.start.infos Sample.start.nid := by
  have h : (match runTrlcFiles Sample.files Sample.start with
    | .ok b s => b && (s.objs[1]?).any (fun o => o.typ == 1)
    | _ => false) = true := by decide +kernel
  cases hr : runTrlcFiles Sample.files Sample.start with
  | err s => rw [hr] at h; cases h
  | crash c s => rw [hr] at h; cases h
  | ok b s =>
    rw [hr] at h
    simp only [Bool.and_eq_true, Option.any_eq_true, beq_iff_eq] at h
    obtain ⟨rfl, o, ho, ht⟩ := h
    refine ⟨s, o, rfl, ho, ⟨Sample.comp "size" (.tup 0) false (.record 0), ?_, fun m hm => ?_⟩,
      sample_frozenBefore⟩
    · rw [ht]
      exact (mem_allComponents (wfCheck_sound Sample.wf) 1 _).1 (by decide)
    · have := sample_frozen hm
      simp [Sample.comp] at this

/-- **C26** fails: two different objects of a type without components compare equal
(`trlc/ast.py:1146-1150`: the value of a reference is a copy of the dictionary of the
components, and dictionaries are compared). -/
theorem C26_empty_objects : ¬ C26_full := by
  intro hfull
  have h : (match runTrlcFiles [Sample.openText Sample.env0 "Empty x {} Empty y {}"] Sample.start with
    | .ok b s => b && (s.resolveAll Sample.global).isEmpty && (s.heap 0).any (·.isEmpty) &&
        (s.heap 1).any (·.isEmpty)
    | _ => false) = true := by decide +kernel
  cases hr : runTrlcFiles [Sample.openText Sample.env0 "Empty x {} Empty y {}"] Sample.start with
  | err s => rw [hr] at h; cases h
  | crash c s => rw [hr] at h; cases h
  | ok b s =>
    rw [hr] at h
    simp only [Bool.and_eq_true, Option.any_eq_true, List.isEmpty_iff] at h
    obtain ⟨⟨⟨rfl, hs⟩, f, hf, rfl⟩, g, hg, rfl⟩ := h
    have hob : ∀ i, s.heap i = some [] → ∃ o, s.objs[i]? = some o := by
      intro i h
      unfold PS.heap at h
      cases ho : s.objs[i]? with
      | none => rw [ho] at h; cases h
      | some o => exact ⟨o, rfl⟩
    obtain ⟨o, ho⟩ := hob 0 hf
    obtain ⟨o', ho'⟩ := hob 1 hg
    obtain ⟨r, ⟨t, hev⟩, hiff⟩ := hfull _ _ _ _ (fun _ _ => true) 0 1 o o' (.record 2) (.record 2)
      Sample.world Sample.noObjects sample_frozenBefore Sample.pkgsKnown hr hs ho ho'
    simp [eqExpr, Expr.eval, twoRefs, FExpr.eval, hf, hg, mkValue, Val.isNull, Ev.bind,
      BinOp.allowsNull, binaryOp, Val.pyEq, fieldsEq, List.lookup] at hev
    have := hiff.1 hev.2
    cases this

end Verif.Props
