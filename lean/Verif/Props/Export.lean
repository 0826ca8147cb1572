import Verif.Props.RunSamples
import Verif.Lemmas.Export
/-!
# C75: record objects as Python objects
-/
namespace Verif.Props
open Verif.Model Verif.Spec Verif.Lemmas

variable {o : Options} {X : Outside} {required : List CU → Finset PNode} {fs : List Source} {s : PS}
  {g : STab} {ls : List Loaded} {s1 : PS}

/-- the run, with the table of packages -/
theorem run_at (hb : Blank s) (hl : loadAll globalTable fs s = .ok (g, ls) s1)
    (h : (process o X required fs s).out = .table) :
    ∃ s2, Succeeded o X (required (ls.map (·.cu))) fs s (process o X required fs s).state g ls s1 s2 ∧
      Ready g X.rx s2 := by
  unfold process at h ⊢
  rw [hl] at h ⊢
  dsimp only at h ⊢
  obtain ⟨k1, s2, k2, k3, k4, -⟩ := analyse_table h
  have k : Prepared globalTable fs s g ls s1 := loadAll_ok globalTable_pkgTab hl
  refine ⟨s2, ⟨k, ?_, k2, k3, k4⟩, rsl_ready (hb.quiet k.quiet) k.tab k2⟩
  intro l hl
  have := List.all_eq_true.1 k1 l hl
  simpa using this

/-- the tables after a run -/
theorem run_tabs (hb : Blank s) (hl : loadAll globalTable fs s = .ok (g, ls) s1)
    (h : (process o X required fs s).out = .table) (i : Nat) (ob : Obj)
    (hi : (process o X required fs s).state.objs[i]? = some ob) :
    PkgTab g ∧ TabInv (process o X required fs s).state ∧ PkgsKnown g (process o X required fs s).state := by
  obtain ⟨s2, k, r⟩ := run_at hb hl h
  cases hp : o.parseTrlc with
  | false => rw [k.rslOnly hp, r.inv.objs] at hi; cases hi
  | true =>
    have hk := run_kept r.inv.sound.world (k.trlc hp).1
    exact ⟨k.built.tab, hk.inv r.noObjects.tabInv, pkgsKnown_kept hk r.pkgs⟩

theorem object_values {D : Decls} {infos : List RecInfo} (hw : WorldOk D infos) {ob : Obj}
    (hc : ObjComplete D infos ob) : ∀ f ∈ ob.fields, f.2.val = .inull ∨ ∃ τ, VOk D f.2.val τ := by
  intro f hf
  have hl : ob.fields.lookup f.1 = some f.2 := lookup_of_mem hc.2.2 hf
  obtain ⟨c, h1, h2⟩ := hc.2.1 f.1 (by rw [hl]; rfl)
  obtain ⟨n, h3, h4⟩ := hc.1 c h1
  rw [h2, hl] at h3
  cases h3
  rcases h4 with ⟨a, i, ha, hi, h5⟩ | ⟨-, ⟨-, h5⟩ | h5⟩
  · obtain ⟨c', -, -, h6⟩ := hw.frozen a i c.name _ hi h5
    exact .inr ⟨_, h6⟩
  · exact .inl h5
  · exact .inr ⟨_, h5⟩

theorem export_outcome (hb : Blank s) (hl : loadAll globalTable fs s = .ok (g, ls) s1)
    (h : (process o X required fs s).out = .table) (i : Nat) (ob : Obj)
    (hi : (process o X required fs s).state.objs[i]? = some ob) :
    ExportOutcome (FieldsInPython (PkgNamed g) (asWritten ob.fields)) (ContainsField · (asWritten ob.fields))
      ((process o X required fs s).state.toPythonDict g i) := by
  obtain ⟨-, h2, h3⟩ := run_tabs hb hl h i ob hi
  obtain ⟨gs, h4, h5⟩ := C35_run hb h i ob hi
  have h6 := (C32_run hb h i ob hi).1
  have hw := (C69_declarations hb h).world
  unfold PS.toPythonDict
  rw [h4]
  exact exportNodes_outcome (fullNames h2 h3) (object_values hw h6) h5

mutual
theorem inPython_range {named : Nat → List Char → Prop} {q : Rat} : (v : PVal) → (p : PyObj) → InPython named v p →
    Contains q v → |q| < 2 ^ (1024 : Int)
  | .dec q', p, h, hq => by
    simp only [Contains] at hq; subst hq; cases h; next hn => exact hn.1
  | .neg e, p, h, hq => by
    simp only [Contains] at hq
    cases h with
    | minusInt i => simp only [Contains] at hq
    | minusDec hn => simp only [Contains] at hq; subst hq; have := hn.1; rwa [abs_neg] at this
  | .pos e, p, h, hq => by
    simp only [Contains] at hq
    cases h with
    | plusInt i => simp only [Contains] at hq
    | plusDec hn => simp only [Contains] at hq; subst hq; exact hn.1
  | .arr t es, p, h, hq => by
    simp only [Contains] at hq; cases h; next h => exact allInPython_range es _ h hq
  | .tup t fs, p, h, hq => by
    simp only [Contains] at hq; cases h; next h => exact fieldsInPython_range fs _ h hq
  | .inull, p, h, hq | .bool _, p, h, hq | .int _, p, h, hq | .str _, p, h, hq | .markup .., p, h, hq
  | .enum .., p, h, hq | .ref .., p, h, hq => by simp only [Contains] at hq

theorem allInPython_range {named : Nat → List Char → Prop} {q : Rat} : (v : List PVal) → (p : List PyObj) →
    AllInPython named v p → ContainsAny q v → |q| < 2 ^ (1024 : Int)
  | [], p, h, hq => by simp only [ContainsAny] at hq
  | e :: es, p, h, hq => by
    simp only [ContainsAny] at hq
    cases h
    next h1 h2 =>
    rcases hq with hq | hq
    · exact inPython_range e _ h1 hq
    · exact allInPython_range es _ h2 hq

theorem fieldsInPython_range {named : Nat → List Char → Prop} {q : Rat} : (v : List (String × PVal)) →
    (p : List (String × PyObj)) → FieldsInPython named v p → ContainsField q v → |q| < 2 ^ (1024 : Int)
  | [], p, h, hq => by simp only [ContainsField] at hq
  | (n, e) :: es, p, h, hq => by
    simp only [ContainsField, ContainsIn] at hq
    cases h
    next h1 h2 =>
    rcases hq with hq | hq
    · exact inPython_range e _ h1 hq
    · exact fieldsInPython_range es _ h2 hq
end

theorem fieldsInPython_keys {named : Nat → List Char → Prop} {v : List (String × PVal)} {p : List (String × PyObj)}
    (h : FieldsInPython named v p) : p.map Prod.fst = v.map Prod.fst := by
  induction v generalizing p with
  | nil => cases h; rfl
  | cons f v ih =>
    cases h
    next h => simp [ih h]

/-- **C75**: after a successful run, the dictionary of an object has exactly the components of its
type as keys, each once, and the value of each is the one written (or frozen, or `None` if an optional
component is left out): see `InPython`. -/
theorem C75_dict (hb : Blank s) (hl : loadAll globalTable fs s = .ok (g, ls) s1)
    (h : (process o X required fs s).out = .table) (i : Nat) (ob : Obj)
    (hi : (process o X required fs s).state.objs[i]? = some ob) {d : List (String × PyObj)}
    (hd : (process o X required fs s).state.toPythonDict g i = .ok d) :
    FieldsInPython (PkgNamed g) (ob.fields.map fun f => (f.1, f.2.val)) d ∧ (d.map Prod.fst).Nodup ∧
      ∀ k, k ∈ d.map Prod.fst ↔ ∃ c, HasComp (process o X required fs s).state.decls ob.typ c ∧ c.name = k := by
  have hc := (C32_run hb h i ob hi).1
  rcases export_outcome hb hl h i ob hi with ⟨d', h1, h2⟩ | ⟨h1, -⟩
  · rw [hd] at h1
    cases h1
    have hk : d.map Prod.fst = ob.fields.map Prod.fst := by
      rw [fieldsInPython_keys h2]
      unfold asWritten
      rw [List.map_map]
      rfl
    refine ⟨h2, by rw [hk]; exact hc.2.2, fun k => ?_⟩
    rw [hk]
    constructor
    · intro hm
      obtain ⟨f, hf, rfl⟩ := List.mem_map.1 hm
      exact hc.2.1 f.1 (by rw [lookup_of_mem hc.2.2 hf]; rfl)
    · rintro ⟨c, h3, rfl⟩
      obtain ⟨n, h4, -⟩ := hc.1 c h3
      exact List.mem_map_of_mem (f := Prod.fst) (mem_of_lookup h4)
  · rw [hd] at h1; cases h1

/-- the full claim: after a successful run every object can be exported -/
def C75_full : Prop := ∀ (o : Options) (X : Outside) (required : List CU → Finset PNode) (fs : List Source) (s : PS)
  (g : STab) (ls : List Loaded) (s1 : PS), Blank s → loadAll globalTable fs s = .ok (g, ls) s1 →
  (process o X required fs s).out = .table →
  ∀ (i : Nat) (ob : Obj), (process o X required fs s).state.objs[i]? = some ob →
    ∃ d, (process o X required fs s).state.toPythonDict g i = .ok d

/-- **C75** (partly): the export succeeds unless the object contains a decimal beyond the largest
double, and this is the only exception.  An object that contains a decimal of `2^1024` or more is not
exported. -/
theorem C75_exported_partial (hb : Blank s) (hl : loadAll globalTable fs s = .ok (g, ls) s1)
    (h : (process o X required fs s).out = .table) (i : Nat) (ob : Obj)
    (hi : (process o X required fs s).state.objs[i]? = some ob) :
    ((∀ q, ContainsField q (ob.fields.map fun f => (f.1, f.2.val)) → |q| ≤ maxDouble) →
      ∃ d, (process o X required fs s).state.toPythonDict g i = .ok d) ∧
    (∀ q, ContainsField q (ob.fields.map fun f => (f.1, f.2.val)) → 2 ^ (1024 : Int) ≤ |q| →
      (process o X required fs s).state.toPythonDict g i = .error .overflow) ∧
    ∀ e, (process o X required fs s).state.toPythonDict g i = .error e → e = .overflow := by
  rcases export_outcome hb hl h i ob hi with ⟨d, h1, h2⟩ | ⟨h1, q, h2, h3⟩
  · refine ⟨fun _ => ⟨d, h1⟩, fun q hq hb => ?_, fun e he => by rw [h1] at he; cases he⟩
    exact absurd hb (not_le_of_gt (fieldsInPython_range _ _ h2 hq))
  · refine ⟨fun hm => ?_, fun _ _ _ => h1, fun e he => by rw [h1] at he; cases he; rfl⟩
    exact absurd (hm q h2) (not_le_of_gt (toFloat_none h3))

/-- **C75**: what a check sees under the name of a component and what the Python API hands out are the
same, up to rounding of decimals and to references being full names. -/
theorem C75_as_checked (hb : Blank s) (hl : loadAll globalTable fs s = .ok (g, ls) s1)
    (h : (process o X required fs s).out = .table) (i : Nat) (ob : Obj)
    (hi : (process o X required fs s).state.objs[i]? = some ob) {gs : Fields} {d : List (String × PyObj)}
    (hg : (process o X required fs s).state.heap i = some gs)
    (hd : (process o X required fs s).state.toPythonDict g i = .ok d)
    (rx : List Char → List Char → Bool) (ty : Ty) (k : String) (py : PyObj) (hk : d.lookup k = some py) :
    ∃ tv, (Expr.name k ty).eval ⟨(process o X required fs s).state.heap, rx⟩ (some (recordCtx gs)) = .ok tv ∧
      Mirrors (fun n vs => ∃ (j : Nat) (ob' : Obj) (pn : List Char),
        (process o X required fs s).state.objs[j]? = some ob' ∧
        (process o X required fs s).state.heap j = some vs ∧ PkgNamed g ob'.pkg pn ∧ n = pn ++ '.' :: ob'.name)
        tv.val py := by
  obtain ⟨-, hi2, hp2⟩ := run_tabs hb hl h i ob hi
  have hn := fullNames hi2 hp2
  have hh : HeapOk (process o X required fs s).state.decls (process o X required fs s).state.objTy
      (process o X required fs s).state.heap := by
    obtain ⟨s2, k, r⟩ := run_at hb hl h
    obtain ⟨e1, -⟩ := succeeded_kept k r
    rw [e1]
    cases hp : o.parseTrlc with
    | false => rw [k.rslOnly hp, r.inv.objs] at hi; cases hi
    | true => exact C35_heap r.inv.sound.world r.noObjects r.pkgs (k.trlc hp).1 (k.trlc hp).2.1
  obtain ⟨gs', h1, h2⟩ := hh i ob.typ (by unfold PS.objTy; rw [hi]; rfl)
  rw [hg] at h1
  cases h1
  unfold PS.toPythonDict at hd
  rw [hg] at hd
  dsimp only at hd
  have key : ∀ (l : Fields) (d : List (String × PyObj)), exportNodes ((process o X required fs s).state.fqn g) l = .ok d →
      d.lookup k = some py → ∃ n, l.lookup k = some n ∧ exportVal ((process o X required fs s).state.fqn g) n.expr = .ok py := by
    intro l
    induction l with
    | nil => intro d hd hk; unfold exportNodes at hd; simp only [List.map_nil, exportFields] at hd; cases hd; cases hk
    | cons f l ih =>
      obtain ⟨m, f⟩ := f
      intro d hd hk
      unfold exportNodes at hd
      simp only [List.map_cons, exportFields, exportField] at hd
      split at hd
      · cases hd
      next v hv =>
      split at hv
      · cases hv
      next w hw =>
      cases hv
      split at hd
      · cases hd
      next vs hvs =>
      cases hd
      rw [List.lookup_cons] at hk ⊢
      split at hk
      · cases hk
        exact ⟨f, rfl, hw⟩
      · exact ih vs hvs hk
  obtain ⟨n, h3, h4⟩ := key gs d hd hk
  obtain ⟨c, h5, rfl⟩ := h2.2 k (by rw [h3]; rfl)
  obtain ⟨n', h6, h7⟩ := h2.1 c h5
  rw [h3] at h6
  cases h6
  have h8 : ∃ tv, n.expr.eval (process o X required fs s).state.heap = .ok tv := by
    rcases h7 with ⟨-, h7⟩ | h7
    · rw [h7, FExpr.eval]; exact ⟨_, rfl⟩
    · obtain ⟨v, hv, -⟩ := fok_eval hh _ _ h7
      exact ⟨_, hv⟩
  obtain ⟨tv, h8⟩ := h8
  refine ⟨tv, ?_, export_mirrors ?_ _ _ _ h8 h4⟩
  · rw [Expr.eval]
    have : (recordCtx gs).lookup c.name = some n.expr := by
      have hlk : ∀ l : Fields, (recordCtx l).lookup c.name = (l.lookup c.name).map (·.expr) := by
        intro l
        induction l with
        | nil => rfl
        | cons f l ih =>
          unfold recordCtx at ih ⊢
          rw [List.map_cons, List.lookup_cons, List.lookup_cons]
          split
          · rfl
          · exact ih
      rw [hlk, h3]
      rfl
    simp only [this]
    exact h8
  · intro j m fs' hj hf
    have hob : ∃ ob', (process o X required fs s).state.objs[j]? = some ob' := by
      unfold PS.fqn at hj
      split at hj
      · cases hj
      · next ob' h9 => exact ⟨ob', h9⟩
    obtain ⟨ob', h9⟩ := hob
    obtain ⟨pn, h10, h11⟩ := hn j ob' h9
    rw [hj] at h11
    cases h11
    exact ⟨j, ob', pn, h9, hf, h10, rfl⟩

/-- **C75** (a defect): the method `is_component_implicit_null` says the opposite of its name. -/
theorem C75_implicit_null {fs : Fields} {k : String} {n : FNode} (h : fs.lookup k = some n) :
    isComponentImplicitNull fs k = some true ↔ n.expr ≠ .inull := by
  unfold isComponentImplicitNull
  rw [h, Option.map_some]
  obtain ⟨id, e⟩ := n
  cases e <;> simp

/-! ## The dump -/

/-- the full claim: the dump has the dictionary of every object under the name of the object -/
def C75_dump_full : Prop := ∀ (o : Options) (X : Outside) (required : List CU → Finset PNode) (fs : List Source) (s : PS)
  (g : STab) (ls : List Loaded) (s1 : PS), Blank s → loadAll globalTable fs s = .ok (g, ls) s1 →
  (process o X required fs s).out = .table → ∀ d, (process o X required fs s).state.apiDump g = .ok d →
  ∀ (i : Nat) (ob : Obj), (process o X required fs s).state.objs[i]? = some ob →
    ∃ v, (process o X required fs s).state.toPythonDict g i = .ok v ∧ d.lookup ob.name = some v

theorem iterObjects_all {s : PS} (hi : TabInv s) {g : STab} (hp : PkgsKnown g s) {i : Nat} {ob : Obj}
    (h : s.objs[i]? = some ob) : i ∈ s.iterObjects g := by
  obtain ⟨T, k, e, h1, h2, h3, h4⟩ := hi.reg i ob h
  obtain ⟨k', x, h5, h6, h7⟩ := hp ob.pkg (List.getElem?_eq_some_iff.1 h1).1
  unfold PS.iterObjects
  refine List.mem_flatMap.2 ⟨(k', x), List.mem_filter.2 ⟨h5, by simp [isPackage, h6]⟩, ?_⟩
  refine List.mem_map.2 ⟨(k, e), List.mem_filter.2 ⟨?_, by simp [h4]⟩, h3⟩
  dsimp only
  rw [h7, tab_some h1]
  exact h2

theorem lookup_pySet {α β : Type} [DecidableEq α] [BEq α] [LawfulBEq α] (d : List (α × β)) (k k' : α) (v : β) :
    (pySet d k v).lookup k' = if k' = k then some v else d.lookup k' := by
  unfold pySet
  split
  · next hk =>
    induction d with
    | nil => simp at hk
    | cons x d ih =>
      rw [List.map_cons, List.lookup_cons, List.lookup_cons]
      by_cases hx : x.1 = k
      · rw [if_pos hx]
        dsimp only
        by_cases hk' : k' = k
        · simp [hk']
        · rw [if_neg hk']
          have e1 : (k' == k) = false := by simpa using hk'
          have e2 : (k' == x.1) = false := by rw [hx]; exact e1
          rw [e1, e2]
          dsimp only
          by_cases hd : d.any fun x => decide (x.1 = k)
          · rw [ih hd, if_neg hk']
          · have : d.map (fun x => if x.1 = k then (k, v) else x) = d := by
              refine (List.map_congr_left ?_).trans (List.map_id d)
              intro y hy
              rw [if_neg]
              · rfl
              · intro hc
                exact hd (List.any_eq_true.2 ⟨y, hy, by simpa using hc⟩)
            rw [this]
      · rw [if_neg hx]
        have hd : (d.any fun x => decide (x.1 = k)) = true := by
          rw [List.any_cons] at hk
          simpa [hx] using hk
        rw [ih hd]
        by_cases hk' : k' = k
        · have : (k' == x.1) = false := by rw [hk']; simpa using fun h => hx h.symm
          rw [this, if_pos hk']
        · simp only [if_neg hk']
  · next hk =>
    induction d with
    | nil => simp [List.lookup_cons]; split <;> simp_all
    | cons x d ih =>
      rw [List.cons_append, List.lookup_cons, List.lookup_cons]
      simp only [List.any_cons, Bool.or_eq_true, not_or, decide_eq_true_eq] at hk
      split
      · next hx => rw [if_neg]; intro hc; exact hk.1 (by rw [← hc]; exact (beq_iff_eq.1 hx).symm)
      · exact ih hk.2

/-- Distinct names: what is in the dump stays there. -/
theorem dumpLoop_lookup {s : PS} {g : STab}
    (hn : ∀ (i j : Nat) (a b : Obj), s.objs[i]? = some a → s.objs[j]? = some b → a.name = b.name → i = j)
    {os : List Nat} {d d' : List (List Char × List (String × PyObj))} (h : s.dumpLoop g os d = .ok d') :
    ∀ (i : Nat) (ob : Obj), s.objs[i]? = some ob →
      (i ∈ os → ∃ v, s.toPythonDict g i = .ok v ∧ d'.lookup ob.name = some v) ∧
      (∀ v, s.toPythonDict g i = .ok v → d.lookup ob.name = some v → d'.lookup ob.name = some v) := by
  induction os generalizing d with
  | nil => cases h; exact fun i ob hi => ⟨fun hm => (by cases hm), fun v _ hv => hv⟩
  | cons o os ih =>
    unfold PS.dumpLoop at h
    split at h
    · next ho =>
      intro i ob hi
      obtain ⟨h1, h2⟩ := ih h i ob hi
      refine ⟨fun hm => h1 ?_, h2⟩
      rcases List.mem_cons.1 hm with rfl | hm
      · rw [hi] at ho; cases ho
      · exact hm
    · next a ho =>
      split at h
      · cases h
      next v hv =>
      intro i ob hi
      obtain ⟨h1, h2⟩ := ih h i ob hi
      have keep : ∀ w, s.toPythonDict g i = .ok w → d.lookup ob.name = some w ∨ i = o → d'.lookup ob.name = some w := by
        intro w hw hor
        refine h2 w hw ?_
        rw [lookup_pySet]
        split
        · next he =>
          have := hn i o ob a hi ho he
          subst this
          rw [hv] at hw
          cases hw
          rfl
        · next he =>
          rcases hor with h3 | rfl
          · exact h3
          · rw [hi] at ho; cases ho; exact absurd rfl he
      refine ⟨fun hm => ?_, fun w hw hd => keep w hw (.inl hd)⟩
      rcases List.mem_cons.1 hm with rfl | hm
      · exact ⟨v, hv, keep v hv (.inr rfl)⟩
      · exact h1 hm

/-- **C75** (partly): if all objects of the project have different names, the dump has the dictionary
of every object under the name of the object. -/
theorem C75_dump_partial (hb : Blank s) (hl : loadAll globalTable fs s = .ok (g, ls) s1)
    (h : (process o X required fs s).out = .table) {d : List (List Char × List (String × PyObj))}
    (hd : (process o X required fs s).state.apiDump g = .ok d)
    (hn : ∀ (i j : Nat) (a b : Obj), (process o X required fs s).state.objs[i]? = some a →
      (process o X required fs s).state.objs[j]? = some b → a.name = b.name → i = j)
    (i : Nat) (ob : Obj) (hi : (process o X required fs s).state.objs[i]? = some ob) :
    ∃ v, (process o X required fs s).state.toPythonDict g i = .ok v ∧ d.lookup ob.name = some v := by
  obtain ⟨-, h2, h3⟩ := run_tabs hb hl h i ob hi
  exact (dumpLoop_lookup hn hd i ob hi).1 (iterObjects_all h2 h3 hi)

end Verif.Props
