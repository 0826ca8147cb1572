import Verif.Lemmas.ParseWitness
import Verif.Lemmas.WrittenFacts
import Verif.Lemmas.PyEq
/-!
# Record objects and trlc files (C32, C33, C34, C37, C52, C61)
-/
namespace Verif.Props
open Verif.Model Verif.Spec Verif.Lemmas

/-! ## C32 -/

/-- **C32**: an accepted declaration makes one new object, of a type that is not abstract, and
which is complete: every component of its type has a value, namely the frozen value, the value assigned in the declaration, or null
if it is optional and was not assigned.  No component is assigned twice, and neither are
unknown or frozen components. -/
theorem C32_object_complete {E : FileEnv} {s s' : PS} {o : Nat} (hw : WorldOk s.decls s.infos)
    (h : parseObject E s = .ok o s') :
    ∃ ob asg, o = s.objs.length ∧ s'.objs = s.objs ++ [ob] ∧ ObjComplete s.decls s.infos ob ∧
      ObjFrom s.decls s.infos asg ob := by
  obtain ⟨-, h1, -, -, ts, -, ob, asg, h2, -, -, -, h3, h4, -⟩ := (parseObject_sp hw rfl rfl).ok h
  exact ⟨ob, asg, h1, h2, h3, h4⟩

/-- **C32**: all objects of a run without failing file are complete. -/
theorem C32_all_complete {fs : List OpenFile} {s s' : PS} (hw : WorldOk s.decls s.infos)
    (h0 : s.objs = []) (h : runTrlcFiles fs s = .ok true s') :
    ∀ (i : Nat) (ob : Obj), s'.objs[i]? = some ob →
      ObjComplete s.decls s.infos ob ∧ ∃ asg, ObjFrom s.decls s.infos asg ob := by
  obtain ⟨-, hb⟩ := (runTrlcFiles_sp hw 0 fs s rfl rfl).ok h
  obtain ⟨-, items, h1, h2, -⟩ := hb rfl
  intro i ob hi
  rw [h1, h0, List.nil_append, List.getElem?_map] at hi
  cases hx : items[i]? with
  | none => rw [hx] at hi; cases hi
  | some x =>
    rw [hx] at hi
    injection hi with hi
    subst hi
    have := h2 x (List.mem_of_getElem? hx)
    exact ⟨this.1, x.2, this.2⟩

/-- **C32**: a component that is not optional is never null. -/
theorem C32_mandatory {D : Decls} {infos : List RecInfo} (hw : WorldOk D infos) {ob : Obj}
    (h : ObjComplete D infos ob) {c : Comp} (hc : HasComp D ob.typ c) (hm : c.optional = false) :
    ∃ n, ob.fields.lookup c.name = some n ∧ n.val ≠ .inull := by
  obtain ⟨n, hn, hv⟩ := h.1 c hc
  refine ⟨n, hn, fun hz => ?_⟩
  have hnull : n.val.isNull = true := by rw [hz]; rfl
  rcases hv with ⟨a, i, -, hi, hl⟩ | ⟨-, ⟨ho, -⟩ | hv⟩
  · obtain ⟨c', -, -, hv⟩ := hw.frozen a i c.name n hi hl
    rw [vok_notNull hv] at hnull
    cases hnull
  · rw [ho] at hm
    cases hm
  · rw [vok_notNull hv] at hnull
    cases hnull

example : ∃ s', runTrlcFiles Sample.files Sample.start = .ok true s' ∧
    WorldOk Sample.start.decls Sample.start.infos ∧ Sample.start.objs = [] := by
  obtain ⟨s', h, -⟩ := Sample.isTrue_iff
    (show Sample.isTrue (runTrlcFiles Sample.files Sample.start) = true by decide +kernel)
  exact ⟨s', h, Sample.world, rfl⟩

/-- a declaration without a mandatory component, one with an unknown component, one that assigns
a component twice, and one that assigns a frozen component -/
def badFiles : List OpenFile := [
  Sample.openText Sample.env0 "Base x { text = \"a\" }",
  Sample.openText Sample.env0 "Base x { text = \"a\" size = 1 foo = 2 }",
  Sample.openText Sample.env0 "Base x { text = \"a\" size = 1 size = 1 }",
  Sample.openText Sample.env0 "Ext x { text = \"a\" size = 1 }"]

example : ∀ f ∈ badFiles, Sample.isTrue (runTrlcFiles [f] Sample.start) = false := by
  decide +kernel

/-! ## C61 -/

/-- **C61**: after a run over the trlc files that reports nothing, the objects are exactly
those written in the files, in this order, with the type, the sections and the values written
there. -/
theorem C61_objects_written {fs : List OpenFile} {s s' : PS} (hw : WorldOk s.decls s.infos)
    (h0 : s.objs = []) (h : runTrlcFiles fs s = .ok true s') (he : s'.errs = s.errs) :
    ∃ items, s'.objs = items.map Prod.fst ∧ WrittenFiles (namesOf s) 0 fs items (namesOf s') ∧
      ∀ x ∈ items, ObjFrom s.decls s.infos x.2 x.1 := by
  obtain ⟨-, hb⟩ := (runTrlcFiles_sp hw 0 fs s rfl rfl).ok h
  obtain ⟨-, items, h1, h2, h3⟩ := hb rfl
  refine ⟨items, by rw [h1, h0]; simp, ?_, fun x hx => (h2 x hx).2⟩
  have := h3 he
  rw [h0] at this
  exact this

example : ∃ s', runTrlcFiles Sample.files Sample.start = .ok true s' ∧ s'.errs = Sample.start.errs := by
  obtain ⟨s', h, he⟩ := Sample.isTrue_iff
    (show Sample.isTrue (runTrlcFiles Sample.files Sample.start) = true by decide +kernel)
  exact ⟨s', h, he⟩

/-! ## C33 -/

/-- the full claim: the sizes of all arrays in the value are between the declared bounds -/
def C33_full : Prop :=
  ∀ (fs : List OpenFile) (s s' : PS), WorldOk s.decls s.infos → s.objs = [] →
    runTrlcFiles fs s = .ok true s' → s'.errs = s.errs →
    ∀ ob ∈ s'.objs, ∀ f ∈ ob.fields, (∀ m, ¬ FrozenIn s.decls s.infos ob.typ f.1 m) →
      BoundsOk true f.2.val

/-- **C33** (partly): if a run reports nothing, the size of every array in a value of an object
is at least the lower bound, and at most the upper bound unless this is 0.  (Frozen values
are those of the rsl files.)  Missing: an upper bound of 0 is not checked, see
`C33_upper_bound_zero`. -/
theorem C33_array_bounds_partial {fs : List OpenFile} {s s' : PS} (hw : WorldOk s.decls s.infos)
    (h0 : s.objs = []) (h : runTrlcFiles fs s = .ok true s') (he : s'.errs = s.errs) :
    ∀ ob ∈ s'.objs, ∀ f ∈ ob.fields, (∀ m, ¬ FrozenIn s.decls s.infos ob.typ f.1 m) →
      BoundsOk false f.2.val := by
  obtain ⟨items, h1, h2, h3⟩ := C61_objects_written hw h0 h he
  have hc := C32_all_complete hw h0 h
  intro ob hob f hf hm
  obtain ⟨i, hi⟩ := List.getElem?_of_mem hob
  have hcomp := (hc i ob hi).1
  rw [h1] at hob
  obtain ⟨x, hx, rfl⟩ := List.mem_map.1 hob
  have hl : x.1.fields.lookup f.1 = some f.2 := lookup_of_mem hcomp.2.2 hf
  obtain ⟨c, hcc, hcn⟩ := hcomp.2.1 f.1 (by rw [hl]; rfl)
  obtain ⟨n, hn, hv⟩ := (h3 x hx).2.2.2.2 c hcc
  rw [hcn, hl] at hn
  injection hn with hn
  subst hn
  rcases hv with ⟨v, hv, hvv⟩ | ⟨-, hv⟩ | ⟨-, -, -, hv⟩
  · obtain ⟨E, M, τ, r, nx, hw'⟩ := writtenFiles_assigns h2 x hx _ hv
    rw [hvv]
    exact written_bounds _ _ _ _ hw'
  · rw [hcn] at hv
    exact absurd hv (hm _)
  · rw [hv]
    trivial

/-- the run succeeds without any message and makes an object with an overfull array that is
not frozen -/
def acceptsOverfull : PR Bool → Bool
  | .ok b s => b && s.errs.isEmpty && s.objs.any fun ob => ob.typ == 1 && ob.fields.any fun f =>
      f.1 != "text" && match f.2.val with
        | .arr (.arr _ _ _ (some h)) es => h < es.length
        | _ => false
  | _ => false

theorem sample_frozen {t : Nat} {name : String} {m : VNode}
    (h : FrozenIn Sample.decls Sample.infos t name m) : name = "text" := by
  obtain ⟨a, i, -, hi, hl⟩ := h
  match a, hi with
  | 0, hi => simp only [Sample.infos, List.getElem?_cons_zero, Option.some.injEq] at hi; subst hi; simp at hl
  | 1, hi =>
    simp only [Sample.infos, List.getElem?_cons_succ, List.getElem?_cons_zero, Option.some.injEq] at hi
    subst hi
    simp only [List.lookup_cons, List.lookup_nil] at hl
    split at hl
    · next hk => exact by simpa using hk
    · cases hl
  | 2, hi =>
    simp only [Sample.infos, List.getElem?_cons_succ, List.getElem?_cons_zero, Option.some.injEq] at hi
    subst hi
    simp at hl
  | a + 3, hi => simp [Sample.infos] at hi

/-- **C33** fails: an array component with upper bound 0 accepts elements
(`trlc/parser.py:1768` tests `if typ.upper_bound and …`). -/
theorem C33_upper_bound_zero : ¬ C33_full := by
  intro hfull
  have h : acceptsOverfull (runTrlcFiles
      [Sample.openText Sample.env0 "Ext x { size = 1 empty = [7] }"] Sample.start) = true := by
    decide +kernel
  cases hr : runTrlcFiles [Sample.openText Sample.env0 "Ext x { size = 1 empty = [7] }"] Sample.start with
  | err s => rw [hr] at h; cases h
  | crash c s => rw [hr] at h; cases h
  | ok b s =>
    rw [hr] at h
    simp only [acceptsOverfull, Bool.and_eq_true, List.any_eq_true, List.isEmpty_iff] at h
    obtain ⟨⟨rfl, he⟩, ob, hob, -, f, hf, hne, hbad⟩ := h
    have := hfull _ _ _ Sample.world rfl hr he ob hob f hf (fun m hm => by
      have := sample_frozen hm
      simp [this] at hne)
    split at hbad
    · next id el lo h es hv =>
      rw [hv] at this
      have := this.1.2 h rfl
      simp at this hbad
      omega
    · cases hbad

example : ∃ s', runTrlcFiles Sample.files Sample.start = .ok true s' ∧ s'.errs = Sample.start.errs ∧
    WorldOk Sample.start.decls Sample.start.infos := by
  obtain ⟨s', h, he⟩ := Sample.isTrue_iff
    (show Sample.isTrue (runTrlcFiles Sample.files Sample.start) = true by decide +kernel)
  exact ⟨s', h, he, Sample.world⟩

/-! ## C34 -/

/-- the first half of the full claim: what is accepted as value of a tuple type with separators
has the form the reference manual gives -/
def C34_full : Prop :=
  ∀ (E : FileEnv) (n t : Nat) (s s' : PS) (c : Comp) (cs : List Comp) (seps : List Sep) (v : PVal),
    WFDecls s.decls → TuplesOk s.decls → s.decls.tups[t]? = some (c :: cs) → s.seps[t]? = some seps → seps ≠ [] →
    seps.length = cs.length → parseValue E n (.tup t) s = .ok v s' → s'.errs = s.errs →
    ∃ fs ts, v = .tup t fs ∧ words s = ts ++ words s' ∧
      SepForm E (namesOf s) fs (c :: cs) seps ts s'.nt

/-- **C34** (partly): if all fields after the first are optional, an accepted value of a tuple
type with separators has the form the reference manual gives.  Missing: the same if
further fields are required, which is false, see `C34_separator_missing`. -/
theorem C34_separators_partial {E : FileEnv} {n t : Nat} {s s' : PS} {c : Comp} {cs : List Comp}
    {seps : List Sep} {v : PVal} (hwf : WFDecls s.decls) (htup : TuplesOk s.decls)
    (ht : s.decls.tups[t]? = some (c :: cs)) (hs : s.seps[t]? = some seps) (hne : seps ≠ [])
    (hl : seps.length = cs.length) (hopt : ∀ d ∈ cs, d.optional = true)
    (h : parseValue E n (.tup t) s = .ok v s') (he : s'.errs = s.errs) :
    ∃ fs ts, v = .tup t fs ∧ words s = ts ++ words s' ∧
      SepForm E (namesOf s) fs (c :: cs) seps ts s'.nt := by
  have hlt : t < s.decls.tups.length := by
    rcases Nat.lt_or_ge t s.decls.tups.length with h | h
    · exact h
    · rw [List.getElem?_eq_none h] at ht; cases ht
  obtain ⟨-, ts, hw, hwr⟩ := parseValue_rd hwf htup n (.tup t) hlt s rfl s (Fr.refl _) v s' h
  have hwr := hwr he
  cases v with
  | tup t' fs =>
    simp only [Written] at hwr
    obtain ⟨ht', cs', hcs', hwr⟩ := hwr
    injection ht' with ht'
    subst ht'
    have hcs' : s.decls.tups[t]? = some cs' := hcs'
    rw [ht] at hcs'
    injection hcs' with hcs'
    subst hcs'
    refine ⟨fs, ts, rfl, hw, ?_⟩
    rcases hwr with ⟨seps', h1, -, h2⟩ | ⟨h1, -⟩
    · have h1 : s.seps[t]? = some seps' := h1
      rw [hs] at h1
      injection h1 with h1
      subst h1
      exact sepForm_of hopt hl h2
    · have h1 : (s.seps[t]?).getD [] = [] := h1
      rw [hs] at h1
      exact absurd h1 hne
  | neg v => simp [Written] at hwr
  | pos v => simp [Written] at hwr
  | inull => simp [Written] at hwr
  | bool b => simp [Written] at hwr
  | int b => simp [Written] at hwr
  | dec b => simp [Written] at hwr
  | str b => simp [Written] at hwr
  | markup b => simp [Written] at hwr
  | enum a b => simp [Written] at hwr
  | arr a b =>
    simp only [Written] at hwr
    obtain ⟨h1, id, elem, lo, hi, a, r, b, h2, -⟩ := hwr
    rw [← h1] at h2
    cases h2
  | ref a b c =>
    simp only [Written] at hwr
    obtain ⟨h1, ⟨r, h2⟩ | ⟨id, ms, h2⟩, -⟩ := hwr <;> (rw [← h1] at h2; cases h2)

/-- the sample state in front of a text -/
def before (s : PS) (text : String) : PS := s.enter (Sample.openText Sample.env0 text)

example : Sample.isOk (parseValue Sample.env0 5 (.tup 0) (before Sample.start "1 @ 2 }")) = true ∧
    Sample.isOk (parseValue Sample.env0 5 (.tup 0) (before Sample.start "1 }")) = true := by
  decide +kernel

/-- `tuple Two { a Integer  separator @  b Integer }` -/
def twoState : PS := { Sample.start with
  decls := { recs := [], tups := [[Sample.comp "a" .int false (.tup 0), Sample.comp "b" .int false (.tup 0)]],
             enums := [] }, seps := [[.kind .AT]] }

/-- **C34** fails: if the separator in front of a required field is missing, the value is
accepted all the same (`trlc/parser.py:1836-1849` only remembers that later optional fields
are missing), `1 2` is a value of a tuple type with two integers and separator `@`. -/
theorem C34_separator_missing : ¬ C34_full := by
  intro hfull
  have hok : Sample.isOk (parseValue Sample.env0 5 (.tup 0) (before twoState "1 2 }")) = true := by
    decide +kernel
  have herr : (match parseValue Sample.env0 5 (.tup 0) (before twoState "1 2 }") with
      | .ok _ s => s.errs.isEmpty && (words s).length == 1
      | _ => false) = true := by decide +kernel
  obtain ⟨v, s', h⟩ := Sample.isOk_iff hok
  rw [h] at herr
  simp only [Bool.and_eq_true, List.isEmpty_iff, beq_iff_eq] at herr
  have htup : TuplesOk (before twoState "1 2 }").decls := by
    intro t cs h
    match t, h with
    | 0, h =>
      have h : some _ = some cs := h
      injection h with h
      subst h
      refine ⟨⟨_, _, rfl, rfl⟩, by simp [OptionalTail, Sample.comp], by decide, ?_, ?_⟩
      · simp [Sample.comp, TyOk]
      · simp [Sample.comp, tyRank]
    | t + 1, h => simp [before, twoState, PS.enter] at h
  have hwf : WFDecls (before twoState "1 2 }").decls := by
    rintro t p ⟨r, h, -⟩
    simp [before, twoState, PS.enter] at h
  obtain ⟨fs, ts, rfl, hw, hform⟩ := hfull _ _ _ _ _ _ _ _ _ hwf htup rfl rfl (by simp) rfl h herr.1
  have hlen : (words (before twoState "1 2 }")).length = 3 := by decide +kernel
  have hat : (words (before twoState "1 2 }")).all (fun t => t.kind != .AT) = true := by decide +kernel
  rw [hw] at hlen hat
  rw [List.length_append, herr.2] at hlen
  match fs, hform with
  | f :: fs, hform =>
    obtain ⟨a, b, rfl, h1, h2⟩ := hform
    match fs, h2 with
    | f' :: fs, h2 =>
      simp only [SepTail] at h2
      rcases h2 with ⟨-, h2, -⟩ | ⟨x, a', b', rfl, hx, -⟩
      · have := h2 _ List.mem_cons_self
        simp [Sample.comp] at this
      · simp only [List.all_append, List.all_cons, Bool.and_eq_true] at hat
        have hx : x.kind = .AT := hx
        simp [hx] at hat

/-! ## C37 -/

/-- **C37** for trlc files: parsing a file never runs out of the (finite) number of rounds given
to its loops; the number of rounds is bounded by the number of tokens. -/
theorem C37_file_terminates {E : FileEnv} {s s' : PS} {c : PCrash} (hw : WorldOk s.decls s.infos)
    (h : parseTrlcFile E s = .crash c s') : c ≠ .fuel := by
  have := parseTrlcFile_sp hw 0 (E := E) s rfl rfl
  unfold Sp at this
  rw [h] at this
  exact this.2.1

/-- **C37** for runs over any number of trlc files -/
theorem C37_run_terminates {fs : List OpenFile} {s s' : PS} {c : PCrash}
    (hw : WorldOk s.decls s.infos) (h : runTrlcFiles fs s = .crash c s') : c ≠ .fuel := by
  have := runTrlcFiles_sp hw 0 fs s rfl rfl
  unfold Sp at this
  rw [h] at this
  exact this.2.1

/-- **C37**: an attempt to parse an object or a section that fails (so that the parser recovers
and tries again) has consumed at least one token, a successful one as well. -/
theorem C37_progress {E : FileEnv} {s : PS} (hw : WorldOk s.decls s.infos)
    (hp : s.peekKw "section" = true ∨ s.peek .IDENTIFIER = true) :
    (∀ s', parseEntry E (2 * s.toks + 1) s = .err s' → s'.toks < s.toks) ∧
    (∀ b s', parseEntry E (2 * s.toks + 1) s = .ok b s' → s'.toks < s.toks) :=
  ⟨fun _ h => parseEntry_err hw (Nat.le_refl _) rfl rfl hp h,
   fun _ _ h => ((parseEntry_sp hw 0 _ s (Nat.le_refl _) rfl rfl).ok h).2.1⟩

example : (before Sample.start "Base x { foo }").peek .IDENTIFIER = true ∧
    WorldOk (before Sample.start "Base x { foo }").decls (before Sample.start "Base x { foo }").infos :=
  ⟨by decide +kernel, Sample.world⟩

/-! ## C52 -/

theorem written_ref {E : FileEnv} {N : Names} {v : PVal} {τ : Ty} {ts : List Token} {nx : Option Token}
    (hτ : (∃ r, τ = .record r) ∨ ∃ id ms, τ = .union id ms) (h : Written E N v τ ts nx) :
    ∃ p name, v = .ref τ p name := by
  cases v with
  | ref a b c =>
    simp only [Written] at h
    exact ⟨b, c, by rw [h.1]⟩
  | arr a b =>
    simp only [Written] at h
    obtain ⟨h1, id, elem, lo, hi, a, r, b, h2, -⟩ := h
    subst h1
    subst h2
    rcases hτ with ⟨r, h⟩ | ⟨id, ms, h⟩ <;> cases h
  | _ =>
    rcases hτ with ⟨r, rfl⟩ | ⟨id, ms, rfl⟩ <;> simp [Written] at h

/-- The tables of the packages see the global table, which holds packages and builtins, and
nothing else; packages are not declared in packages. -/
structure PackageTables (global : STab) (N : Names) : Prop where
  flat : global.parents = [] ∧ global.imported = []
  sees : ∀ (p : Nat) (T : STab), N.tabs[p]? = some T → T.parents = [] ∧ T.imported = [[global.own]]
  pkgs : ∀ (p : Nat) (T : STab) (k : List Char) (e : Ent), N.tabs[p]? = some T → (k, e) ∈ T.own →
    e.cls ≠ clsPackage

/-- `e` is called `name` and is declared in package `p`, or builtin (global). -/
def InPackage (global : STab) (N : Names) (p : Nat) (name : List Char) (e : Ent) : Prop :=
  e.name = name ∧ ∃ k, (k, e) ∈ (N.tab p).own ∨ (k, e) ∈ global.own

theorem lookup_in {global : STab} {N : Names} (hT : PackageTables global N) {p : Nat}
    {name : List Char} {e : Ent} (h : (N.tab p).lookup name none = .ok e) :
    InPackage global N p name e := by
  unfold STab.lookup STab.lookupDirect at h
  split at h
  · next rv hf =>
    simp only [Bool.not_false, Bool.true_and, Option.any_none] at h
    split at h
    · cases h
    · next hn =>
      simp only [Bool.false_eq_true, if_false] at h
      injection h with h
      subst h
      refine ⟨by simpa using hn, simplifiedName name, ?_⟩
      rcases find_mem hf with h | ⟨f, h, h'⟩ | ⟨c, h, f, h', h''⟩
      · exact .inl h
      · cases hp : N.tabs[p]? with
        | none => simp [Names.tab, hp, STab.empty] at h
        | some T => simp [Names.tab, hp, (hT.sees p T hp).1] at h
      · cases hp : N.tabs[p]? with
        | none => simp [Names.tab, hp, STab.empty] at h
        | some T =>
          simp only [Names.tab, hp, Option.getD_some, (hT.sees p T hp).2, List.mem_singleton] at h
          subst h
          simp only [List.mem_singleton] at h'
          subst h'
          exact .inr h''
  · cases h

theorem global_in {global : STab} {N : Names} (hT : PackageTables global N)
    {name : List Char} {e : Ent} (h : global.lookup name none = .ok e) :
    e.name = name ∧ ∃ k, (k, e) ∈ global.own := by
  unfold STab.lookup STab.lookupDirect at h
  split at h
  · next rv hf =>
    simp only [Bool.not_false, Bool.true_and, Option.any_none] at h
    split at h
    · cases h
    · next hn =>
      simp only [Bool.false_eq_true, if_false] at h
      injection h with h
      subst h
      refine ⟨by simpa using hn, simplifiedName name, ?_⟩
      rcases find_mem hf with h | ⟨f, h, h'⟩ | ⟨c, h, f, h', h''⟩
      · exact h
      · simp [hT.flat.1] at h
      · simp [hT.flat.2] at h
  · cases h

theorem means_in {E : FileEnv} {N : Names} (hT : PackageTables E.global N) {name : List Char}
    {e : Ent} (h : Means E N name e) : InPackage E.global N E.pkg name e := by
  unfold Means at h
  split at h
  · exact lookup_in hT h
  · obtain ⟨h1, k, h2⟩ := global_in hT h
    exact ⟨h1, k, .inr h2⟩

/-- **C52**: a plain name means something of exactly this name in the package of the file (or
something builtin); a qualified name starts with the name of the package of the file or of
a package imported by the file, and means something of exactly the name after the dot in
this package (or something builtin). -/
theorem C52_qualified_names {E : FileEnv} {sub : Ent → Bool} {s s' : PS} {e : Ent}
    (hT : PackageTables E.global (namesOf s)) (h : parseQualifiedName E sub s = .ok e s') :
    sub e = true ∧
    ((∃ t, words s = t :: words s' ∧ e.cls ≠ clsPackage ∧
        InPackage E.global (namesOf s) E.pkg t.text e) ∨
     (∃ t d t' p k, words s = t :: d :: t' :: words s' ∧ d.kind = .DOT ∧
        (k, p) ∈ E.global.own ∧ p.name = t.text ∧ p.cls = clsPackage ∧ Usable E p.id ∧
        InPackage E.global (namesOf s) p.id t'.text e)) := by
  obtain ⟨-, ts, hw, hn, hs⟩ := parseQualifiedName_rd e s' h
  refine ⟨hs, ?_⟩
  rcases hn with ⟨t, rfl, -, hm, hc⟩ | ⟨t, d, t', p, rfl, -, hd, -, hm, hp, hu, hl⟩
  · exact .inl ⟨t, hw, hc, means_in hT hm⟩
  · obtain ⟨h1, k, h2 | h2⟩ := means_in hT hm
    · cases hpk : (namesOf s).tabs[E.pkg]? with
      | none => simp [Names.tab, hpk, STab.empty] at h2
      | some T =>
        have : (namesOf s).tab E.pkg = T := by simp [Names.tab, hpk]
        rw [this] at h2
        exact absurd hp (hT.pkgs _ T k p hpk h2)
    · exact .inr ⟨t, d, t', p, k, hw, hd, h2, h1, hp, hu, lookup_in hT hl⟩

/-- **C52** for references to objects: the package named is the one of the file or one it
imports. -/
theorem C52_references {E : FileEnv} {τ : Ty} {s s' : PS} {v : PVal}
    (hwf : WFDecls s.decls) (hτ : (∃ r, τ = .record r) ∨ ∃ id ms, τ = .union id ms)
    (hT : PackageTables E.global (namesOf s)) (h : parseReference E τ s = .ok v s') :
    ∃ p name, v = .ref τ p name ∧ (p = E.pkg ∨ p ∈ E.imports) ∧
      ((∃ t, words s = t :: words s' ∧ p = E.pkg ∧ name = t.text) ∨
       (∃ t d t' e k, words s = t :: d :: t' :: words s' ∧ d.kind = .DOT ∧ (k, e) ∈ E.global.own ∧
         e.name = t.text ∧ e.cls = clsPackage ∧ p = e.id ∧ name = t'.text)) := by
  obtain ⟨-, ts, hw, hwr⟩ := parseReference_rd hτ hwf v s' h
  obtain ⟨p, name, rfl⟩ := written_ref hτ hwr
  simp only [Written] at hwr
  obtain ⟨-, -, ⟨t, rfl, -, rfl, rfl⟩ | ⟨t, d, t', e, rfl, -, hd, -, hl, hc, hu, rfl, rfl⟩, -⟩ := hwr
  · exact ⟨_, _, rfl, .inl rfl, .inl ⟨t, hw, rfl, rfl⟩⟩
  · obtain ⟨h1, k, h2⟩ := global_in hT hl
    exact ⟨_, _, rfl, hu.2, .inr ⟨t, d, t', e, k, hw, hd, h2, h1, hc, rfl, rfl⟩⟩

theorem sample_tables : PackageTables Sample.global (namesOf Sample.start) := by
  have h : ∀ T ∈ Sample.tabs, T.parents = [] ∧ T.imported = [[Sample.global.own]] ∧
      ∀ x ∈ T.own, x.2.cls ≠ clsPackage := by decide +kernel
  exact ⟨by decide +kernel, fun p T hT => ⟨(h T (List.mem_of_getElem? hT)).1, (h T (List.mem_of_getElem? hT)).2.1⟩,
    fun p T k e hT he => (h T (List.mem_of_getElem? hT)).2.2 _ he⟩

/-- The file of package `other` imports `pkg`; a file of package `pkg` can not use `other`. -/
example : Sample.isOk (parseQualifiedName Sample.env1 (fun e => e.cls = clsRecord)
      (Sample.start.enter (Sample.openText Sample.env1 "pkg.Base x"))) = true ∧
    Sample.isOk (parseQualifiedName Sample.env1 (fun e => e.cls = clsRecord)
      (Sample.start.enter (Sample.openText Sample.env1 "Base x"))) = false ∧
    Sample.isOk (parseReference Sample.env0 (.record 0)
      (Sample.start.enter (Sample.openText Sample.env0 "other.three }"))) = false ∧
    Sample.isOk (parseReference Sample.env1 (.record 0)
      (Sample.start.enter (Sample.openText Sample.env1 "pkg.three }"))) = true := by
  decide +kernel

end Verif.Props
