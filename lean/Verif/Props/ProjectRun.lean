import Verif.Lemmas.Project
import Verif.Props.Accepts
/-!
# C74: projects that follow the rules are processed without messages
-/
namespace Verif.Props
open Verif.Model Verif.Spec Verif.Lemmas

variable {o : Options} {X : Outside} {required : List CU → Finset PNode} {fs : List Source} {s : PS}

/-- **C74**: in files without lexical errors, all preambles are accepted without any message iff they
fit together. -/
theorem C74_preambles (hc : ∀ f ∈ fs, CleanSource f) :
    (∃ g ls s', loadAll globalTable fs s = .ok (g, ls) s' ∧ s'.errs = s.errs) ↔ Project fs := by
  constructor
  · rintro ⟨g, ls, s', h, he⟩
    exact (loadAll_good h he).1
  · exact loadAll_accepts hc

/-! ## What is needed -/

/-- The loaded files are those of the project. -/
structure ProjectLoaded (fs : List Source) (ls : List Loaded) : Prop where
  of : ∀ l ∈ ls, ∃ f ∈ fs, ∃ p is, GoodLoad f l p is
  all : ∀ f ∈ fs, ∃ l ∈ ls, ∃ p is, GoodLoad f l p is

theorem projectLoaded {ls : List Loaded} (h : List.Forall₂ (fun f l => ∃ p is, GoodLoad f l p is)
    (sortSources (fs.filter (·.file.kind = .rsl)) ++ sortSources (fs.filter (·.file.kind = .trlc))) ls) :
    ProjectLoaded fs ls := by
  have hm : ∀ f, f ∈ _ ↔ f ∈ fs := fun f => (split_kinds fs).mem_iff (a := f)
  generalize (sortSources (fs.filter (·.file.kind = .rsl)) ++ sortSources (fs.filter (·.file.kind = .trlc))) = gs at h hm
  have key : (∀ l ∈ ls, ∃ f ∈ gs, ∃ p is, GoodLoad f l p is) ∧ ∀ f ∈ gs, ∃ l ∈ ls, ∃ p is, GoodLoad f l p is := by
    clear hm
    induction h with
    | nil => simp
    | @cons x y _ _ h1 _ ih =>
      constructor
      · intro l hl
        rcases List.mem_cons.1 hl with rfl | hl
        · exact ⟨x, by simp, h1⟩
        · obtain ⟨f, hf, h⟩ := ih.1 l hl
          exact ⟨f, List.mem_cons_of_mem _ hf, h⟩
      · intro f hf
        rcases List.mem_cons.1 hf with rfl | hf
        · exact ⟨y, by simp, h1⟩
        · obtain ⟨l, hl, h⟩ := ih.2 f hf
          exact ⟨l, List.mem_cons_of_mem _ hl, h⟩
  exact ⟨fun l hl => by obtain ⟨f, hf, h⟩ := key.1 l hl; exact ⟨f, (hm f).1 hf, h⟩,
    fun f hf => key.2 f ((hm f).2 hf)⟩

section
variable {g : STab} {ls : List Loaded} {s1 : PS}

theorem project_needs (k : Prepared globalTable fs s g ls s1) (hl : ProjectLoaded fs ls) (hp : Project fs)
    (m n : PNode) : Needs (ls.map (·.cu)) m n ↔ PkgNeeds fs m n := by
  have hcu : (buildCUs globalTable (ls.map (·.cu.file))).2 = ls.map (·.cu) := by rw [k.agree]
  constructor
  · intro h
    cases h with
    | own hk =>
      obtain ⟨u, hu, -, h2⟩ := hk
      obtain ⟨l, hl', rfl⟩ := List.mem_map.1 hu
      obtain ⟨f, hf, p, is, hg⟩ := hl.of l hl'
      rw [hg.package] at h2
      cases h2
      exact .own hf ⟨is, hg.reads⟩
    | imp hu he hpk him hi =>
      obtain ⟨l, hl', rfl⟩ := List.mem_map.1 hu
      obtain ⟨f, hf, p, is, hg⟩ := hl.of l hl'
      rw [hg.package] at hpk
      cases hpk
      rw [(k.same l hl').2.1, hg.file]
      obtain ⟨p', is', e1, e2, e3, js, e4, e5⟩ := C14_imports globalTable globalTable_built globalTable_no_pkg
        (ls.map (·.cu.file)) l.cu (by rw [hcu]; exact List.mem_map_of_mem hl') he
      rw [him] at e4
      cases e4
      rw [hg.pre] at e1
      cases e1
      exact .imp hf ⟨_, hg.reads⟩ ⟨_, _, hg.reads, ((e5 _).1 hi).1⟩
  · intro h
    cases h with
    | own hf hb =>
      obtain ⟨l, hl', p, is, hg⟩ := hl.all _ hf
      cases belongs_unique hb ⟨is, hg.reads⟩
      exact .own ⟨l.cu, List.mem_map_of_mem hl', hg.noErr, hg.package⟩
    | imp hf hb hi =>
      obtain ⟨l, hl', p, is, hg⟩ := hl.all _ hf
      cases belongs_unique hb ⟨is, hg.reads⟩
      rw [← hg.file, ← (k.same l hl').2.1]
      obtain ⟨p', is', e1, e2, e3, js, e4, e5⟩ := C14_imports globalTable globalTable_built globalTable_no_pkg
        (ls.map (·.cu.file)) l.cu (by rw [hcu]; exact List.mem_map_of_mem hl') hg.noErr
      rw [hg.pre] at e1
      cases e1
      refine .imp (List.mem_map_of_mem hl') hg.noErr hg.package e4 ((e5 _).2 ⟨(imports_of_reads hg.reads).1 hi, ?_⟩)
      obtain ⟨f', hf', hb', hk⟩ := hp.declared _ hf _ hi
      obtain ⟨l2, hl2, p2, is2, hg2⟩ := hl.all _ hf'
      cases belongs_unique hb' ⟨is2, hg2.reads⟩
      rw [hcu]
      refine ⟨l2.cu, List.mem_map_of_mem hl2, hg2.package, ?_⟩
      rw [(k.same l hl').2.1, (k.same l2 hl2).2.1, hg.file, hg2.file]
      exact hk

theorem project_wanted (k : Prepared globalTable fs s g ls s1) (hl : ProjectLoaded fs ls) (hp : Project fs)
    (n : PNode) : Wanted (ls.map (·.cu)) n ↔ PkgWanted fs n := by
  constructor
  · intro h
    induction h with
    | root hu hpr hpk _ =>
      obtain ⟨l, hl', rfl⟩ := List.mem_map.1 hu
      obtain ⟨f, hf, p, is, hg⟩ := hl.of l hl'
      rw [hg.package] at hpk
      cases hpk
      rw [(k.same l hl').2.1, hg.file]
      rw [(k.same l hl').2.2, hg.file] at hpr
      exact .root hf hpr ⟨is, hg.reads⟩
    | step _ hn _ ih => exact .step ih ((project_needs k hl hp _ _).1 hn)
  · intro h
    induction h with
    | root hf hpr hb =>
      obtain ⟨l, hl', p, is, hg⟩ := hl.all _ hf
      cases belongs_unique hb ⟨is, hg.reads⟩
      rw [← hg.file, ← (k.same l hl').2.1]
      rw [← hg.file, ← (k.same l hl').2.2] at hpr
      exact .root (List.mem_map_of_mem hl') hpr hg.package ⟨l.cu, List.mem_map_of_mem hl', hg.noErr, hg.package⟩
    | @step _ n _ hn ih =>
      refine .step ih ((project_needs k hl hp _ _).2 hn) ?_
      have key : ∃ f ∈ fs, Belongs f n.1 := by
        cases hn with
        | own hf hb => exact ⟨_, hf, hb⟩
        | imp hf hb hi =>
          obtain ⟨f', hf', hb', -⟩ := hp.declared _ hf _ hi
          exact ⟨f', hf', hb'⟩
      obtain ⟨f, hf, hb⟩ := key
      obtain ⟨l, hl', p, is, hg⟩ := hl.all _ hf
      rw [belongs_unique hb ⟨is, hg.reads⟩]
      exact ⟨l.cu, List.mem_map_of_mem hl', hg.noErr, hg.package⟩

/-- A circular dependency is reported iff a wanted package needs itself. -/
theorem project_cycles {R : Finset PNode} (k : Prepared globalTable fs s g ls s1) (hl : ProjectLoaded fs ls)
    (hp : Project fs) (hR : Required (ls.map (·.cu)) R) :
    (parseRslOrder R (ls.map (·.cu))).2 = false ↔ NoCycle fs := by
  have hcu : (buildCUs globalTable (ls.map (·.cu.file))).2 = ls.map (·.cu) := by rw [k.agree]
  have h := (C15_cycles_partial globalTable globalTable_built globalTable_no_pkg (ls.map (·.cu.file)) R
    (by rw [hcu]; exact hR) (by
      rw [hcu]
      intro u hu _
      obtain ⟨l, hl', rfl⟩ := List.mem_map.1 hu
      obtain ⟨f, hf, p, is, hg⟩ := hl.of l hl'
      exact hg.noErr)).2
  rw [hcu] at h
  have hneeds : Needs (ls.map (·.cu)) = PkgNeeds fs := by
    funext m n; exact propext (project_needs k hl hp m n)
  rw [← Bool.not_eq_true, h, hneeds]
  unfold NoCycle
  constructor
  · intro hno p hw ht
    refine hno ⟨p, (project_wanted k hl hp _).2 hw, ?_, ht⟩
    obtain ⟨c, hc, -⟩ := Relation.TransGen.head'_iff.1 ht
    generalize hm : ((p, FKind.rsl) : PNode) = m at hc
    cases hc with
    | own _ _ => cases hm
    | imp hf hb _ =>
      injection hm with h1 h2
      subst h1
      obtain ⟨l, hl', p', is, hg⟩ := hl.all _ hf
      cases belongs_unique hb ⟨is, hg.reads⟩
      exact ⟨l.cu, List.mem_map_of_mem hl', by rw [(k.same l hl').2.1, hg.file, ← h2], hg.package⟩
  · rintro hno ⟨p, hw, -, ht⟩
    exact hno p ((project_wanted k hl hp _).1 hw) ht

theorem prepared_trlc {R : Finset PNode} (k : Prepared globalTable fs s g ls s1) (he : ∀ l ∈ ls, l.cu.err = false)
    (hR : Required (ls.map (·.cu)) R) (l : Loaded) (hl : l ∈ ls) : l ∈ trlcFiles R ls ↔ l.src.file.kind = .trlc ∧
        ∃ p, l.cu.package = some p ∧ Wanted (ls.map (·.cu)) (p, .trlc) := by
  have hpk := k.pkg l hl (he l hl)
  obtain ⟨p, hpk⟩ := Option.ne_none_iff_exists'.1 hpk
  have := C14_required_exact _ _ hR (p, .trlc)
  unfold trlcFiles
  rw [List.mem_filter]
  simp only [hl, true_and, he l hl, Bool.not_false, Bool.and_true, Bool.and_eq_true, Bool.or_eq_true,
    decide_eq_true_eq, (k.same l hl).2.1, hpk]
  refine and_congr_right fun hk => ?_
  have hsec : isSecondary R l.cu = true ↔ l.cu.file.primary = false ∧ Wanted (ls.map (·.cu)) (p, .trlc) := by
    rw [← this]
    simp [isSecondary, he l hl, hpk, (k.same l hl).2.1, hk]
  rw [hsec]
  constructor
  · rintro (hq | hq)
    · refine ⟨p, rfl, ?_⟩
      have := Wanted.root (List.mem_map_of_mem hl) hq hpk ⟨l.cu, List.mem_map_of_mem hl, he l hl, hpk⟩
      rw [(k.same l hl).2.1, hk] at this
      exact this
    · exact ⟨p, rfl, hq.2⟩
  · rintro ⟨p', hp', hw⟩
    cases hp'
    cases hq : l.cu.file.primary
    · exact .inr ⟨rfl, hw⟩
    · exact .inl rfl

end

/-! ## The end of a run -/

theorem finish_iff {g : STab} {R : Finset PNode} {ls : List Loaded} {calls : List MHCall} {s' : PS}
    (h : runTrlc g o.recover R ls s = .ok true s') :
    ((finish o X g R ls true calls s).out = .table ↔ s'.resolveAll g = [] ∧
      (performChecks s' g s'.checks X.rx.search X.locs).out = .ok true) ∧
    ((finish o X g R ls true calls s).out = .table → (finish o X g R ls true calls s).state = s') := by
  unfold finish
  rw [h]
  dsimp only
  by_cases hr : s'.resolveAll g = []
  · have e : ({ s' with errs := s'.errs ++ s'.resolveAll g } : PS) = s' := by rw [hr]; simp
    rw [e]
    simp only [hr, ne_eq, not_true_eq_false, if_false, Bool.not_true, Bool.false_eq_true, true_and]
    split
    · next h1 => rw [h1]; simp
    · next h1 => rw [h1]; simp
    · next h1 => rw [h1]; simp
    · next h1 => rw [h1]; simp
  · simp [hr]

theorem analyse_iff {g : STab} {R : Finset PNode} {ls : List Loaded} {s2 s' : PS} (hp : o.parseTrlc = true)
    (hX : o.lint = true → (X.lint g s2).out = some true)
    (h : runRsl g o.recover X.rx R ls s = .ok true s2) (h' : runTrlc g o.recover R ls s2 = .ok true s') :
    ((analyse o X g R ls true s).out = .table ↔ s'.resolveAll g = [] ∧
      (performChecks s' g s'.checks X.rx.search X.locs).out = .ok true) ∧
    ((analyse o X g R ls true s).out = .table → (analyse o X g R ls true s).state = s') := by
  unfold analyse
  rw [h]
  have hl : (if (o.lint && (true && true)) = true then X.lint g s2 else ⟨[], some true⟩).out = some true := by
    cases ho : o.lint with
    | false => rfl
    | true => exact hX ho
  simp only [Bool.and_true, Bool.not_true, Bool.and_false, Bool.false_eq_true, if_false] at hl ⊢
  rw [hl]
  simp only [hp, Bool.not_true, Bool.false_eq_true, if_false]
  exact finish_iff h'

/-- The references of all objects lead to objects of the right type. -/
def AllResolved (D : Decls) (objs : List Obj) : Prop :=
  ∀ (i : Nat) (ob : Obj), objs[i]? = some ob → ∃ gs, ResolvedObj D objs ob.fields gs

/-- All checks are true for all objects, or only warnings. -/
def AllPassed (D : Decls) (C : CheckTab) (rx : List Char → List Char → Bool) (s : PS) : Prop :=
  ∀ (i : Nat) (ob : Obj) (gs : Fields), s.objs[i]? = some ob → s.heap i = some gs →
    (∀ c, AppliesTo D C ob.typ c → Passes ⟨s.heap, rx⟩ (recordCtx gs) c) ∧
    ∀ k n, gs.lookup k = some n → TuplesPass C ⟨s.heap, rx⟩ n.expr

/-- **C74**: a project that follows the rules is processed without any message of the parser.

Let there be no lexical errors, let the preambles fit together (`Project`), and let no wanted package need itself
(`NoCycle`).  Then the files are read as their preambles say (`FilesRead`, `Opened`), and whenever the wanted rsl files
are written as the rules of the language say, declaring `W`, and the wanted trlc files are written as
the rules say, with the objects `items` (and the linter, if it is used, has no problem with the declarations),
then no error is reported by any parser, the
declarations are those of `W`, and the objects are `items`.  The run then returns the symbol table iff
all references lead to objects of the right types and all checks are passed. -/
theorem C74_run (hb : Blank s) (hR : ∀ cus, Required cus (required cus)) (hp : o.parseTrlc = true)
    (hc : ∀ f ∈ fs, CleanSource f) (hl : ∀ f ∈ fs, LexerOutput f.nt f.rest)
    (hpr : Project fs) (hcy : NoCycle fs) :
    ∃ ls rl rfiles tl tfiles W0, FilesRead fs ls ∧
      -- the rsl files
      rl.Nodup ∧ (∀ l, l ∈ rl ↔ l ∈ ls ∧ l.src.file.kind = .rsl ∧
        ∃ p, l.cu.package = some p ∧ PkgWanted fs (p, .rsl)) ∧
      (∀ a l b, rl = a ++ l :: b → ∀ p is, l.cu.file.pre = .pkg p is false → ∀ i ∈ is, ∀ l' ∈ ls,
        l'.src.file.kind = .rsl → l'.cu.package = some i → l' ∈ a) ∧
      List.Forall₂ (Opened ls) rl rfiles ∧ (∃ g, World.Bare W0 g ∧ ∀ f ∈ rfiles, f.env.global = g) ∧
      -- the trlc files
      tl.Sublist ls ∧ (∀ l ∈ ls, l ∈ tl ↔ l.src.file.kind = .trlc ∧
        ∃ p, l.cu.package = some p ∧ PkgWanted fs (p, .trlc)) ∧
      List.Forall₂ (Opened ls) tl tfiles ∧
      ∀ W items N, RslFilesText X.rx W0 rfiles W → WrittenFiles W.names 0 tfiles items N →
        (∀ x ∈ items, ObjFrom W.decls W.infos x.2 x.1) →
        (o.lint = true → ∀ g s2, worldOf s2 = W → (X.lint g s2).out = some true) →
        ∃ s', s'.errs = s.errs ∧ s'.decls = W.decls ∧ s'.infos = W.infos ∧ s'.seps = W.seps ∧
          s'.checks = W.checks ∧ namesOf s' = N ∧
          List.Forall₂ (AsWritten W.decls W.infos) items s'.objs ∧
          ((process o X required fs s).out = .table ↔
            AllResolved W.decls s'.objs ∧ AllPassed W.decls W.checks X.rx.search s') ∧
          ((process o X required fs s).out = .table → (process o X required fs s).state = s') := by
  obtain ⟨g, ls, s1, h1, he1⟩ := loadAll_accepts (s := s) hc hpr
  have k := loadAll_ok globalTable_pkgTab h1
  have hpl := projectLoaded (loadAll_good h1 he1).2
  have hne : ∀ l ∈ ls, l.cu.err = false := by
    intro l hl'
    obtain ⟨f, hf, p, is, hg⟩ := hpl.of l hl'
    exact hg.noErr
  have hord := (project_cycles k hpl hpr (hR _)).2 hcy
  obtain ⟨p1, p2, p3⟩ := prepared_rsl k hne (hR _) hord
  have hbl := hb.quiet k.quiet
  have hlex : ∀ l ∈ ls, CleanFile (l.openFile g o.recover) ∧ LexerOutput (l.openFile g o.recover).nt (l.openFile g o.recover).rest := by
    intro l hl'
    obtain ⟨f, hf, p, is, hg⟩ := hpl.of l hl'
    refine ⟨fun x hx => hc f hf x (hg.suffix.subset hx), hg.trail (hl f hf).1, eofLast_suffix (hl f hf).2 hg.suffix⟩
  refine ⟨ls, rslFiles (required (ls.map (·.cu))) ls, (rslFiles (required (ls.map (·.cu))) ls).map (·.openFile g o.recover),
    trlcFiles (required (ls.map (·.cu))) ls, (trlcFiles (required (ls.map (·.cu))) ls).map (·.openFile g o.recover),
    worldOf (s1.withPackages g), ⟨hne, k.text, prepared_numbers k hne⟩, p1, ?_, p3, ?_, ⟨g, ?_, ?_⟩,
    List.filter_sublist, ?_, ?_, ?_⟩
  · intro l
    simp only [p2 l, project_wanted k hpl hpr]
  · rw [List.forall₂_map_right_iff, List.forall₂_same]
    intro l hl'
    have hl' := ((p2 l).1 hl').1
    exact prepared_opened k o.recover hl' (hne l hl')
  · refine ⟨hbl.decls, hbl.infos, hbl.seps, hbl.checks, by show List.map _ s1.objs = []; rw [hbl.objs]; rfl, hbl.nid, ?_⟩
    intro T hT
    rw [List.eq_of_mem_replicate (show T ∈ List.replicate _ (STab.importing g) from hT)]
    exact ⟨rfl, rfl, rfl⟩
  · intro f hf
    obtain ⟨l, -, rfl⟩ := List.mem_map.1 hf
    rfl
  · intro l hl'
    rw [prepared_trlc k hne (hR _) l hl']
    simp only [project_wanted k hpl hpr]
  · rw [List.forall₂_map_right_iff, List.forall₂_same]
    intro l hl'
    have hl' := (List.mem_filter.1 hl').1
    exact prepared_opened k o.recover hl' (hne l hl')
  · intro W items N hW hit hob hX
    -- the rsl files
    obtain ⟨s2, r1, r2, r3⟩ := (C73_rsl_files (rx := X.rx) (s := s1) (W := W)
      (fs := (rslFiles (required (ls.map (·.cu))) ls).map (·.openFile g o.recover)) k.tab hbl
      (by intro f hf; obtain ⟨l, -, rfl⟩ := List.mem_map.1 hf; rfl)
      (by
        intro f hf
        obtain ⟨l, hl', rfl⟩ := List.mem_map.1 hf
        exact (hlex l ((p2 l).1 hl').1).2)).2
      ⟨by
        intro f hf
        obtain ⟨l, hl', rfl⟩ := List.mem_map.1 hf
        exact (hlex l ((p2 l).1 hl').1).1, hW⟩
    have hrun : runRsl g o.recover X.rx (required (ls.map (·.cu))) ls (s1.withPackages g) = .ok true s2 := by
      unfold runRsl
      refine (bind_ok r1).trans ?_
      rw [hord]
      rfl
    have hrd := rsl_ready hbl k.tab hrun
    subst r3
    -- the trlc files
    have hit' : WrittenFiles (namesOf s2) 0 _ items N := hit
    obtain ⟨s', t1, t2, t3, t4⟩ := C73_trlc_accepted hrd.inv.sound.world hrd.inv.objs
      (by
        intro f hf
        obtain ⟨l, hl', rfl⟩ := List.mem_map.1 hf
        exact (hlex l (List.mem_filter.1 hl').1).1) hit' hob
    have hk := run_kept hrd.inv.sound.world t1
    have hck := (runTrlcFiles_cks ((trlcFiles (required (ls.map (·.cu))) ls).map (·.openFile g o.recover))).rep s2
    rw [t1] at hck
    have hproc : (process o X required fs s).out = (analyse o X g (required (ls.map (·.cu))) ls true (s1.withPackages g)).out ∧
        (process o X required fs s).state = (analyse o X g (required (ls.map (·.cu))) ls true (s1.withPackages g)).state := by
      unfold process
      rw [h1]
      have : (ls.all fun l => !l.cu.err) = true := by
        rw [List.all_eq_true]
        intro l hl'
        simp [hne l hl']
      dsimp only
      rw [this]
      exact ⟨rfl, rfl⟩
    obtain ⟨a1, a2⟩ := analyse_iff (s := s1.withPackages g) hp (fun ho => hX ho g s2 rfl) hrun t1
    refine ⟨s', t2.trans (r2.trans he1), hk.decls, hk.infos, hk.seps, hck, t3, t4, ?_, ?_⟩
    · rw [hproc.1, a1, C35_resolved_iff hrd.inv.sound.world hrd.noObjects hrd.pkgs t1]
      refine and_congr_right fun hres => ?_
      have hr0 := (C35_resolved_iff hrd.inv.sound.world hrd.noObjects hrd.pkgs t1).2 hres
      rw [C63_passes_iff hrd.inv.sound.world hrd.noObjects hrd.pkgs t1 hr0, show s'.checks = s2.checks from hck]
      rfl
    · rw [hproc.1, hproc.2]
      exact a2

/-- **C74**: what is required of the preambles is also necessary: after a run without errors the preambles fit together
and no wanted package needs itself. -/
theorem C74_required (hR : ∀ cus, Required cus (required cus))
    (h : (process o X required fs s).out = .table) (he : (process o X required fs s).state.errs = s.errs) :
    Project fs ∧ NoCycle fs := by
  unfold process at h he
  cases h1 : loadAll globalTable fs s with
  | err s1 => rw [h1] at h; cases h
  | crash c s1 => rw [h1] at h; cases h
  | ok r s1 =>
    obtain ⟨g, ls⟩ := r
    rw [h1] at h he
    dsimp only at h he
    obtain ⟨k1, s2, k2, k3, k4, -⟩ := analyse_table h
    have k := loadAll_ok globalTable_pkgTab h1
    obtain ⟨q1, e1⟩ := k.quiet.errs
    have t1 := runRsl_tells g o.recover X.rx (required (ls.map (·.cu))) ls (s1.withPackages g)
    rw [k2] at t1
    obtain ⟨q2, e2, -⟩ := t1
    have e2 : s2.errs = s1.errs ++ q2 := e2
    have e3 : ∃ q3, (analyse o X g (required (ls.map (·.cu))) ls (ls.all fun l => !l.cu.err) (s1.withPackages g)).state.errs =
        s2.errs ++ q3 := by
      cases hp : o.parseTrlc with
      | false => exact ⟨[], by rw [k4 hp, List.append_nil]⟩
      | true =>
        have t2 := runTrlcFiles_tells
          ((trlcFiles (required (ls.map (·.cu))) ls).map (·.openFile g o.recover)) s2
        have ht := (k3 hp).1
        unfold runTrlc at ht
        rw [ht] at t2
        exact ⟨_, t2.choose_spec.1⟩
    obtain ⟨q3, e3⟩ := e3
    have hno : s1.errs = s.errs := by
      have hl := congrArg List.length (e3.symm.trans he)
      rw [e2, e1] at hl
      simp only [List.length_append] at hl
      have : q1 = [] := List.length_eq_zero_iff.1 (by omega)
      rw [e1, this, List.append_nil]
    obtain ⟨hpr, hgl⟩ := loadAll_good h1 hno
    refine ⟨hpr, (project_cycles k (projectLoaded hgl) hpr (hR _)).1 ?_⟩
    unfold runRsl at k2
    rw [bind_apply] at k2
    split at k2
    · split at k2
      · cases k2
      · next hc => simpa using hc
    · cases k2
    · cases k2

/-! ## Registered files -/

theorem createParser_output {f : SrcFile} {s s' : PS} {src : Source} (h : createParser f s = .ok src s') :
    LexerOutput src.nt src.rest ∧ src.rest <:+ lexed f := by
  unfold createParser at h
  split at h
  · next u s1 h1 =>
    cases h
    obtain ⟨-, h2, h3⟩ := advanceLoop_past _ _ _ _ h1
    exact ⟨⟨h2, eofLast_suffix (lexStream_eofLast _ _) h3⟩, h3⟩
  · cases h
  · cases h

theorem registerFile_output {pt : Bool} {f : SrcFile} {s s' : PS} {x : Option Source} {b : Bool}
    (h : registerFile pt f s = .ok (x, b) s') : ∀ src ∈ x, LexerOutput src.nt src.rest ∧ src.rest <:+ lexed f := by
  unfold registerFile at h
  split at h
  · cases h; simp
  · unfold P.tryCatch at h
    rw [bind_apply] at h
    cases h1 : createParser f s with
    | ok src s1 =>
      rw [h1] at h
      cases h
      intro y hy
      cases hy
      exact createParser_output h1
    | err s1 => rw [h1] at h; cases h; simp
    | crash c s1 => rw [h1] at h; cases h

theorem registerFiles_output {pt : Bool} {fs : List SrcFile} {s s' : PS} {srcs : List Source} {b : Bool}
    (h : registerFiles pt fs s = .ok (srcs, b) s') :
    ∀ src ∈ srcs, LexerOutput src.nt src.rest ∧ ∃ f ∈ fs, src.rest <:+ lexed f := by
  induction fs generalizing s srcs b with
  | nil => cases h; simp
  | cons f fs ih =>
    unfold registerFiles at h
    rw [bind_apply] at h
    split at h
    · next r s1 h1 =>
      obtain ⟨x, b1⟩ := r
      rw [bind_apply] at h
      split at h
      · next r2 s2 h2 =>
        obtain ⟨srcs2, b2⟩ := r2
        cases h
        intro src hs
        rcases List.mem_append.1 hs with hs | hs
        · obtain ⟨h3, h4⟩ := registerFile_output h1 src (by simpa using hs)
          exact ⟨h3, f, by simp, h4⟩
        · obtain ⟨h3, f', h4, h5⟩ := ih h2 src hs
          exact ⟨h3, f', List.mem_cons_of_mem _ h4, h5⟩
      · cases h
      · cases h
    · cases h
    · cases h

theorem advanceLoop_clean {r : List LexOut} (h : ∀ x ∈ r, (∃ t, x = .tok t) ∨ x = .eof) (s : PS) :
    ∃ s', advanceLoop s r = .ok () s' ∧ s'.errs = s.errs := by
  induction r with
  | nil => exact ⟨_, rfl, rfl⟩
  | cons x r ih =>
    rcases h x (by simp) with ⟨t, rfl⟩ | rfl
    · unfold advanceLoop
      split
      · exact ih fun y hy => h y (List.mem_cons_of_mem _ hy)
      · exact ⟨_, rfl, rfl⟩
    · exact ⟨_, rfl, rfl⟩

/-- **C74**: files without lexical errors are registered without any message. -/
theorem C74_registered {pt : Bool} {files : List SrcFile} {s : PS}
    (hc : ∀ f ∈ files, ∀ x ∈ lexed f, (∃ t, x = .tok t) ∨ x = .eof) :
    ∃ srcs s', registerFiles pt files s = .ok (srcs, true) s' ∧ s'.errs = s.errs ∧
      srcs.map (·.file) = files.filter (fun f => pt || f.kind = .rsl) ∧
      ∀ f ∈ srcs, CleanSource f ∧ LexerOutput f.nt f.rest := by
  have key : ∃ srcs s', registerFiles pt files s = .ok (srcs, true) s' ∧ s'.errs = s.errs := by
    induction files generalizing s with
    | nil => exact ⟨[], s, rfl, rfl⟩
    | cons f files ih =>
      have h1 : ∃ x s1, registerFile pt f s = .ok (x, true) s1 ∧ s1.errs = s.errs := by
        unfold registerFile
        split
        · exact ⟨none, s, rfl, rfl⟩
        · have hcf := hc f (by simp)
          obtain ⟨s1, h2, h3⟩ := advanceLoop_clean hcf { s with ct := none, nt := none, rest := lexed f }
          refine ⟨some ⟨f, s1.ct, s1.nt, s1.rest⟩, s1, ?_, h3⟩
          have h4 : createParser f s = .ok ⟨f, s1.ct, s1.nt, s1.rest⟩ s1 := by
            unfold createParser P.advance
            unfold lexed at h2
            dsimp only
            rw [h2]
          unfold P.tryCatch
          rw [bind_apply, h4]
          rfl
      obtain ⟨x, s1, h2, h3⟩ := h1
      obtain ⟨srcs, s2, h4, h5⟩ := ih (s := s1) fun f hf => hc f (List.mem_cons_of_mem _ hf)
      exact ⟨_, s2, (bind_ok h2).trans ((bind_ok h4).trans rfl), h5.trans h3⟩
  obtain ⟨srcs, s', h1, h2⟩ := key
  refine ⟨srcs, s', h1, h2, ?_, ?_⟩
  · rw [((registerFiles_ok h1).good rfl).2]
    refine List.filter_congr fun f _ => ?_
    cases f.kind <;> cases pt <;> rfl
  · intro f hf
    obtain ⟨h3, f', h4, h5⟩ := registerFiles_output h1 f hf
    exact ⟨fun x hx => hc f' h4 x (h5.subset hx), h3⟩

namespace ProjectSample

def files : List SrcFile := [RunSample.rsl, RunSample.trlc]

/-- the lexer finds only tokens -/
def onlyTokens (l : List LexOut) : Bool := l.all fun x => match x with
  | .tok _ | .eof => true
  | _ => false

theorem onlyTokens_iff {l : List LexOut} (h : onlyTokens l = true) : ∀ x ∈ l, (∃ t, x = .tok t) ∨ x = .eof := by
  intro x hx
  have := List.all_eq_true.1 h x hx
  cases x with
  | tok t => exact .inl ⟨t, rfl⟩
  | eof => exact .inr rfl
  | error => cases this
  | crash => cases this

set_option maxRecDepth 100000 in
theorem clean : files.all (fun f => onlyTokens (lexed f)) = true := by decide +kernel

theorem files_clean : ∀ f ∈ files, ∀ x ∈ lexed f, (∃ t, x = .tok t) ∨ x = .eof :=
  fun f hf => onlyTokens_iff (List.all_eq_true.1 clean f hf)

theorem opened_clean : ∀ f ∈ (RunSample.opened files).1, CleanSource f ∧ LexerOutput f.nt f.rest := by
  obtain ⟨srcs, s', h, -, -, h2⟩ := C74_registered (pt := true) (s := PS.fresh []) files_clean
  unfold RunSample.opened
  rw [h]
  exact h2

attribute [local irreducible] RunSample.opened process in
theorem project : Project (RunSample.opened files).1 ∧ NoCycle (RunSample.opened files).1 :=
  C74_required (o := RunSample.options) (X := RunSample.outside) (required := RunSample.found)
    RunSample.found_required (RunSample.run_table RunSample.found) (RunSample.run_errs RunSample.found)

/-- C74 applies to a project with two files -/
example : ∃ g ls s', loadAll globalTable (RunSample.opened files).1 (RunSample.opened files).2 = .ok (g, ls) s' ∧
    s'.errs = (RunSample.opened files).2.errs :=
  (C74_preambles fun f hf => (opened_clean f hf).1).2 project.1

example := C74_run (o := RunSample.options) (X := RunSample.outside) (RunSample.opened_blank files) RunSample.found_required rfl
  (fun f hf => (opened_clean f hf).1) (fun f hf => (opened_clean f hf).2) project.1 project.2

end ProjectSample

end Verif.Props
