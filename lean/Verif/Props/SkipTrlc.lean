import Verif.Props.ProjectRun
import Verif.Props.RunOrder
import Verif.Lemmas.RenameLoad
import Verif.Lemmas.ChecksKept
import Verif.Lemmas.SaysRun
import Verif.Lemmas.Process
/-!
# C100: `--skip-trlc-files` does not change what is said about types
-/
namespace Verif.Props
open Verif.Model Verif.Spec Verif.Lemmas Verif.Lemmas.Rename

namespace SkipTrlc

/-- The states differ only in where the parser is in a file. -/
def Away (s s' : PS) : Prop := ∃ ct nt rest sects, s' = { s with ct := ct, nt := nt, rest := rest, sects := sects }

theorem Away.refl (s : PS) : Away s s := ⟨_, _, _, _, rfl⟩

theorem Away.enter {s s' : PS} (h : Away s s') (f : OpenFile) : s'.enter f = s.enter f := by
  obtain ⟨_, _, _, _, rfl⟩ := h
  rfl

theorem away_of_quiet {s s' : PS} (h : Quiet s s') (he : s'.errs = s.errs) : Away s s' := by
  obtain ⟨_, _, _, _, _, _, _, _, _, _, _, _⟩ := s
  obtain ⟨_, _, _, _, _, _, _, _, _, _, _, _⟩ := s'
  obtain ⟨a1, a2, a3, a4, a5, a6, a7, -⟩ := h
  dsimp only at a1 a2 a3 a4 a5 a6 a7 he
  subst a1 a2 a3 a4 a5 a6 a7 he
  exact ⟨_, _, _, _, rfl⟩

/-- packages that are known are not declared again -/
theorem loadPreambles_same {g g' : STab} {P : List (List Char)} {fs : List Source} {s s' : PS} {ls : List Loaded}
    (ht : PkgTab g) (hk : Lemmas.Known g P) (hf : ∀ f ∈ fs, f.file.kind = .trlc) (hb : ∀ f ∈ fs, ∀ p, Belongs f p → p ∈ P)
    (h : loadPreambles g fs s = .ok (g', ls) s') (he : s'.errs = s.errs) : g' = g := by
  induction fs generalizing s ls with
  | nil => cases h; rfl
  | cons f fs ih =>
    unfold loadPreambles at h
    rw [bind_apply] at h
    split at h
    · next r s1 h1 =>
      obtain ⟨g1, l⟩ := r
      rw [bind_apply] at h
      split at h
      · next r2 s2 h2 =>
        obtain ⟨g2, ls2⟩ := r2
        cases h
        have q1 := (loadPreamble_ok ht h1).quiet
        have t1 := (loadPreamble_ok ht h1).tab
        have q2 := (loadPreambles_ok t1 h2).quiet
        obtain ⟨x1, e1⟩ := q1.errs
        obtain ⟨x2, e2⟩ := q2.errs
        rw [e2, e1, List.append_assoc] at he
        obtain ⟨rfl, rfl⟩ := List.append_eq_nil_iff.1 (List.append_right_eq_self.1 he)
        rw [List.append_nil] at e1 e2
        obtain ⟨p, is, id, hg, hd⟩ := loadPreamble_good h1 e1
        have hp := hb f (by simp) p ⟨is, hg.reads⟩
        obtain ⟨e, a1, a2, a3⟩ := hk.pk p hp
        have hc : g.contains p = true := by unfold STab.contains; rw [flat_contains ht, a1]; simp [a2]
        unfold declarePackage at hd
        rw [hf f (by simp), hc] at hd
        simp only [Bool.not_true, Bool.or_false, reduceCtorEq, decide_false, Bool.false_eq_true, if_false] at hd
        have : g1 = g := by
          split at hd
          · cases hd; rfl
          · cases hd
        subst this
        exact ih (fun f hf' => hf f (by simp [hf'])) (fun f hf' => hb f (by simp [hf'])) h2 e2
      · cases h
      · cases h
    · cases h
    · cases h

/-- The files that are loaded with and without the trlc files -/
structure Split (fs : List Source) (s : PS) (g : STab) (ls : List Loaded) (s1 : PS) (l1 l2 : List Loaded) (s2 : PS) : Prop where
  load : loadAll globalTable (fs.filter (·.file.kind = .rsl)) s = .ok (g, l1) s2
  away : Away s1 s2
  both : ls = l1 ++ l2
  rsl : ∀ l ∈ l1, l.cu.file.kind = .rsl ∧ l.cu.file.primary = true
  trlc : ∀ l ∈ l2, l.cu.file.kind = .trlc
  good : ∀ l ∈ ls, l.cu.err = false ∧ ∃ p, l.cu.package = some p
  tab : PkgTab g
  quiet : Quiet s s1

theorem split {fs : List Source} {s s1 : PS} {g : STab} {ls : List Loaded}
    (hl : loadAll globalTable fs s = .ok (g, ls) s1) (he : s1.errs = s.errs)
    (hp : ∀ f ∈ fs, f.file.primary = true)
    (ht : ∀ f ∈ fs, ∀ p, Belongs f p → ∃ f' ∈ fs, f'.file.kind = .rsl ∧ Belongs f' p) :
    ∃ l1 l2 s2, Split fs s g ls s1 l1 l2 s2 := by
  have hgood := projectLoaded (loadAll_good hl he).2
  have hprep := loadAll_ok globalTable_pkgTab hl
  have h := hl
  clear hl
  unfold loadAll at h
  rw [bind_apply] at h
  split at h
  · next r1 t1 h1 =>
    obtain ⟨g1, l1⟩ := r1
    have a1 := loadPreambles_ok globalTable_pkgTab h1
    rw [bind_apply] at h
    split at h
    · next l1' t2 h2 =>
      obtain ⟨e1, e2⟩ := resolveLoaded_ok h2
      rw [bind_apply] at h
      split at h
      · next r3 t3 h3 =>
        obtain ⟨g2, l2⟩ := r3
        have a2 := loadPreambles_ok a1.tab h3
        rw [bind_apply] at h
        split at h
        · next l2' t4 h4 =>
          obtain ⟨e3, e4⟩ := resolveLoaded_ok h4
          rw [pure_apply] at h
          injection h with h h'
          subst h'
          injection h with h h'
          subst h
          subst h'
          dsimp only at e1 e2 e3 e4 a2 h3
          obtain ⟨x1, q1⟩ := a1.quiet.errs
          obtain ⟨x2, q2⟩ := a2.quiet.errs
          have q3 : t2.errs = t1.errs ++ l1.flatMap fun l => importErrors g1 l.cu := by rw [e2]
          have q4 : t4.errs = t3.errs ++ l2.flatMap fun l => importErrors g2 l.cu := by rw [e4]
          rw [q4, q2, q3, q1, List.append_assoc, List.append_assoc, List.append_assoc] at he
          have hn := List.append_right_eq_self.1 he
          simp only [List.append_eq_nil_iff] at hn
          obtain ⟨rfl, n2, rfl, n4⟩ := hn
          rw [n2, List.append_nil] at q3
          rw [n4, List.append_nil] at q4
          rw [List.append_nil] at q1 q2
          obtain ⟨-, ⟨P1, k1, m1⟩, -⟩ := loadPreambles_good globalTable_pkgTab known_global h1 q1
          have hg : g2 = g1 := by
            refine loadPreambles_same a1.tab k1 ?_ ?_ h3 q2
            · intro f hf
              have := (List.mem_filter.1 (sortSources_mem.1 hf)).2
              exact of_decide_eq_true this
            · intro f hf p hb
              obtain ⟨f', b1, b2, b3⟩ := ht f (List.mem_filter.1 (sortSources_mem.1 hf)).1 p hb
              exact (m1 p).2 (.inr ⟨f', sortSources_mem.2 (List.mem_filter.2 ⟨b1, by simpa using b2⟩), b3⟩)
          subst hg
          refine ⟨l1', l2', t2, ?_, ?_, rfl, ?_, ?_, ?_, a2.tab, hprep.quiet⟩
          · have f1 : (fs.filter (·.file.kind = .rsl)).filter (·.file.kind = .rsl) = fs.filter (·.file.kind = .rsl) := by
              rw [List.filter_filter]; congr 1; funext f; simp
            have f2 : (fs.filter (·.file.kind = .rsl)).filter (·.file.kind = .trlc) = [] := by
              rw [List.filter_filter, List.filter_eq_nil_iff]
              intro f _ hk
              simp only [Bool.and_eq_true, decide_eq_true_eq] at hk
              rw [hk.1] at hk
              exact absurd hk.2 (by decide)
            unfold loadAll
            rw [f1, f2, bind_apply, h1]
            dsimp only
            rw [bind_apply, h2]
            dsimp only
            show PR.ok (g2, l1' ++ []) { t2 with errs := t2.errs ++ [] } = _
            rw [List.append_nil, List.append_nil]
          · have : Quiet t2 t4 := by rw [e4]; exact a2.quiet.report _
            obtain ⟨_, _, _, _, hh⟩ := away_of_quiet this (q4.trans q2)
            rw [hh]
            exact ⟨_, _, _, _, rfl⟩
          · intro l hm
            have hs := hprep.same l (List.mem_append_left _ hm)
            obtain ⟨f, hf, p, is, hgl⟩ := hgood.of l (List.mem_append_left _ hm)
            rw [e1] at hm
            obtain ⟨l0, hm0, rfl⟩ := List.mem_map.1 hm
            have hx : l0.src.file ∈ l1.map (·.src.file) := List.mem_map_of_mem hm0
            rw [a1.file] at hx
            obtain ⟨f', hf', hx⟩ := List.mem_map.1 hx
            have hk := of_decide_eq_true (List.mem_filter.1 (sortSources_mem.1 hf')).2
            refine ⟨?_, ?_⟩
            · rw [hs.2.1]
              show l0.src.file.kind = _
              rw [← hx]
              exact hk
            · rw [hs.2.2, hgl.file]
              exact hp f hf
          · intro l hm
            have hs := hprep.same l (List.mem_append_right _ hm)
            rw [e3] at hm
            obtain ⟨l0, hm0, rfl⟩ := List.mem_map.1 hm
            have hx : l0.src.file ∈ l2.map (·.src.file) := List.mem_map_of_mem hm0
            rw [a2.file] at hx
            obtain ⟨f', hf', hx⟩ := List.mem_map.1 hx
            have hk := of_decide_eq_true (List.mem_filter.1 (sortSources_mem.1 hf')).2
            rw [hs.2.1]
            show l0.src.file.kind = _
            rw [← hx]
            exact hk
          · intro l hm
            obtain ⟨f, -, p, is, hgl⟩ := hgood.of l hm
            exact ⟨hgl.noErr, p, hgl.package⟩
        · cases h
        · cases h
      · cases h
      · cases h
    · cases h
    · cases h
  · cases h
  · cases h

theorem importEdges_append (n : PNode) : ∀ a b : List CU, importEdges n (a ++ b) = importEdges n a ++ importEdges n b
  | [], _ => rfl
  | c :: a, b => by
    simp only [List.cons_append, importEdges, importEdges_append n a b]
    split <;> simp

theorem importEdges_none {n : PNode} : ∀ {b : List CU}, (∀ c ∈ b, c.file.kind ≠ n.2) → importEdges n b = []
  | [], _ => rfl
  | c :: b, h => by
    unfold importEdges
    rw [if_neg (fun hc => h c (by simp) hc.2.2)]
    exact importEdges_none fun d hd => h d (by simp [hd])

theorem mem_graphKeys {p : List Char} {k : FKind} : ∀ {cus : List CU} {c : CU}, c ∈ cus → c.err = false → c.package = some p →
    (p, k) ∈ graphKeys cus
  | c :: cus, _, .head _, h1, h2 => by
    unfold graphKeys
    rw [h1, h2]
    cases k <;> simp
  | d :: cus, c, .tail _ hm, h1, h2 => by
    have := mem_graphKeys (k := k) hm h1 h2
    unfold graphKeys
    split <;> simp [this]

namespace Split
variable {fs : List Source} {s s1 s2 : PS} {g : STab} {ls l1 l2 : List Loaded} (S : Split fs s g ls s1 l1 l2 s2)
include S

theorem order (R R' : Finset PNode) : parseRslOrder R' (ls.map (·.cu)) = parseRslOrder R (l1.map (·.cu)) := by
  have sel : selectedRsl R' (ls.map (·.cu)) = selectedRsl R (l1.map (·.cu)) := by
    unfold selectedRsl
    rw [S.both, List.map_append, List.filter_append]
    have h2 : (l2.map (·.cu)).filter (fun cu => cu.file.kind = .rsl && cu.package.isSome &&
        (cu.file.primary || isSecondary R' cu)) = [] := by
      rw [List.filter_eq_nil_iff]
      intro c hc
      obtain ⟨l, hl, rfl⟩ := List.mem_map.1 hc
      rw [S.trlc l hl]
      simp
    rw [h2, List.append_nil]
    refine List.filter_congr fun c hc => ?_
    obtain ⟨l, hl, rfl⟩ := List.mem_map.1 hc
    rw [(S.rsl l hl).2]
    simp
  unfold parseRslOrder
  rw [sel]
  refine parseLayers_congr _ _ _ ?_
  intro n hw
  obtain ⟨u, hsu, hpu⟩ := List.mem_filterMap.1 hw
  obtain ⟨p, hp, rfl⟩ := Option.map_eq_some_iff.1 hpu
  obtain ⟨l, hl, rfl⟩ := List.mem_map.1 (List.mem_filter.1 hsu).1
  have hin : l ∈ ls := by rw [S.both]; exact List.mem_append_left _ hl
  have he := (S.good l hin).1
  unfold graphDeps
  rw [if_pos (mem_graphKeys (List.mem_map_of_mem hin) he hp), if_pos (mem_graphKeys (List.mem_map_of_mem hl) he hp), S.both,
    List.map_append, importEdges_append, importEdges_none (b := l2.map (·.cu)), List.append_nil]
  intro c hc
  obtain ⟨l', hl', rfl⟩ := List.mem_map.1 hc
  rw [S.trlc l' hl']
  simp

theorem files (R R' : Finset PNode) : rslFiles R' ls = rslFiles R l1 := by
  unfold rslFiles
  rw [S.order R R']
  congr 1
  funext n
  unfold rslMap
  rw [S.both, List.find?_append]
  have h2 : l2.find? (fun l => l.cu.file.kind = .rsl && l.cu.package == some n.1 &&
      (l.cu.file.primary || isSecondary R' l.cu)) = none := by
    rw [List.find?_eq_none]
    intro l hl
    rw [S.trlc l hl]
    simp
  rw [h2, Option.or_none]
  have : ∀ (xs : List Loaded), (∀ l ∈ xs, l.cu.file.primary = true) →
      xs.find? (fun l => l.cu.file.kind = .rsl && l.cu.package == some n.1 && (l.cu.file.primary || isSecondary R' l.cu)) =
      xs.find? (fun l => l.cu.file.kind = .rsl && l.cu.package == some n.1 && (l.cu.file.primary || isSecondary R l.cu)) := by
    intro xs
    induction xs with
    | nil => intro _; rfl
    | cons x xs ih =>
      intro hx
      rw [List.find?_cons, List.find?_cons, ih fun l hl => hx l (by simp [hl]), hx x (by simp)]
      simp only [Bool.true_or]
  exact this l1 fun l hl => (S.rsl l hl).2

end Split

/-- the same result, in states that differ only in where the parser is -/
inductive Alike {α : Type} : PR α → PR α → Prop
  | ok {a : α} {s s' : PS} : Away s s' → Alike (.ok a s) (.ok a s')
  | err {s s' : PS} : Away s s' → Alike (.err s) (.err s')
  | crash {c : PCrash} {s s' : PS} : Away s s' → Alike (.crash c s) (.crash c s')

theorem Alike.refl {α : Type} (r : PR α) : Alike r r := by
  cases r <;> constructor <;> exact Away.refl _

theorem runRslFiles_away {rx : Regex} (fs : List OpenFile) {s s' : PS} (h : Away s s') :
    Alike (runRslFiles rx fs s) (runRslFiles rx fs s') := by
  cases fs with
  | nil => exact .ok h
  | cons f fs =>
    have e : runRslFile rx f s' = runRslFile rx f s := by
      unfold runRslFile
      rw [bind_apply, bind_apply]
      show P.tryCatch _ _ (s'.enter f) = P.tryCatch _ _ (s.enter f)
      rw [h.enter f]
    unfold runRslFiles
    rw [bind_apply, bind_apply, e]
    exact .refl _

theorem Split.runRsl {fs : List Source} {s s1 s2 : PS} {g : STab} {ls l1 l2 : List Loaded} (S : Split fs s g ls s1 l1 l2 s2)
    (R R' : Finset PNode) (recover : Bool) (rx : Regex) :
    Alike (Model.runRsl g recover rx R' ls (s1.withPackages g)) (Model.runRsl g recover rx R l1 (s2.withPackages g)) := by
  unfold Model.runRsl
  rw [S.files R R', S.order R R', bind_apply, bind_apply]
  have ha : Away (s1.withPackages g) (s2.withPackages g) := by
    obtain ⟨_, _, _, _, h⟩ := S.away
    rw [h]
    exact ⟨_, _, _, _, rfl⟩
  have := runRslFiles_away (rx := rx) ((rslFiles R l1).map (·.openFile g recover)) ha
  revert this
  generalize runRslFiles rx ((rslFiles R l1).map (·.openFile g recover)) (s1.withPackages g) = a
  generalize runRslFiles rx ((rslFiles R l1).map (·.openFile g recover)) (s2.withPackages g) = b
  intro h
  cases h with
  | ok h =>
    dsimp only
    cases (parseRslOrder R (l1.map (·.cu))).2 with
    | false => exact .ok h
    | true =>
      obtain ⟨_, _, _, _, rfl⟩ := h
      exact .ok ⟨_, _, _, _, rfl⟩
  | err h => exact .err h
  | crash h => exact .crash h

/-- What is kept and what is added by parsing trlc files and checking -/
structure Later (s s' : PS) : Prop where
  decls : s'.decls = s.decls
  infos : s'.infos = s.infos
  seps : s'.seps = s.seps
  checks : s'.checks = s.checks
  errs : ∃ l, s'.errs = s.errs ++ l

theorem Later.refl (s : PS) : Later s s := ⟨rfl, rfl, rfl, rfl, [], by simp⟩

theorem Later.of_away {s s' : PS} (h : Away s s') : Later s s' := by
  obtain ⟨_, _, _, _, rfl⟩ := h
  exact ⟨rfl, rfl, rfl, rfl, [], by simp⟩

theorem Later.trans {a b c : PS} (h : Later a b) (h' : Later b c) : Later a c := by
  obtain ⟨l, e⟩ := h.errs
  obtain ⟨l', e'⟩ := h'.errs
  exact ⟨h'.decls.trans h.decls, h'.infos.trans h.infos, h'.seps.trans h.seps, h'.checks.trans h.checks, l ++ l',
    by rw [e', e, List.append_assoc]⟩

theorem runTrlc_later {g : STab} {recover : Bool} {R : Finset PNode} {ls : List Loaded} {s : PS} (hw : WorldOk s.decls s.infos) :
    Later s (runTrlc g recover R ls s).state := by
  unfold runTrlc
  have h1 := runTrlcFiles_sp hw 0 ((trlcFiles R ls).map (·.openFile g recover)) s rfl rfl
  have h2 := (runTrlcFiles_cks ((trlcFiles R ls).map (·.openFile g recover))).rep s
  unfold Sp at h1
  revert h1 h2
  cases runTrlcFiles ((trlcFiles R ls).map (·.openFile g recover)) s with
  | ok a s' => exact fun h1 h2 => ⟨h1.1.decls, h1.1.infos, h1.1.seps, h2, h1.1.errs⟩
  | err s' => exact fun h1 h2 => ⟨h1.decls, h1.infos, h1.seps, h2, h1.errs⟩
  | crash c s' => exact fun h1 h2 => ⟨h1.1.decls, h1.1.infos, h1.1.seps, h2, h1.1.errs⟩

theorem finish_later {o : Options} {X : Outside} {g : STab} {R : Finset PNode} {ls : List Loaded} {ok : Bool} {calls : List MHCall}
    {s : PS} (hw : WorldOk s.decls s.infos) : Later s (finish o X g R ls ok calls s).state := by
  have h := runTrlc_later (g := g) (recover := o.recover) (R := R) (ls := ls) hw
  have more : ∀ {s' : PS} (l : List PErr), Later s s' → Later s { s' with errs := s'.errs ++ l } := fun l h' =>
    h'.trans ⟨rfl, rfl, rfl, rfl, l, rfl⟩
  unfold finish
  revert h
  cases runTrlc g o.recover R ls s with
  | crash c s' => exact id
  | err s' => exact id
  | ok b s' =>
    intro h
    cases b with
    | false => exact h
    | true =>
      dsimp only
      split
      · exact more _ h
      · split
        · exact more _ h
        · split <;> exact more _ h

theorem finish_ok {o : Options} {X : Outside} {g : STab} {R : Finset PNode} {ls : List Loaded} {ok : Bool} {calls : List MHCall}
    {s : PS} (h : (finish o X g R ls ok calls s).out = .table) : ok = true := by
  cases ok with
  | true => rfl
  | false =>
    unfold finish at h
    split at h
    · cases h
    · cases h
    · cases h
    · dsimp only at h
      split at h <;> cases h

end SkipTrlc

open SkipTrlc

/-- the linter does not look at where the parser is -/
theorem SkipTrlc.linter_away (render : LintMsg → String × String) (g : STab) {s s' : PS} (h : Away s s') :
    linter render g s' = linter render g s := by
  obtain ⟨_, _, _, _, rfl⟩ := h
  rfl

section
variable {o : Options} {X : Outside} {required required' : List CU → Finset PNode} {fs : List Source} {s s1 : PS} {g : STab}
  {ls : List Loaded}

/-- both runs, see the theorems below -/
theorem SkipTrlc.main (hb : Blank s) (hl : loadAll globalTable fs s = .ok (g, ls) s1) (he : s1.errs = s.errs)
    (hp : ∀ f ∈ fs, f.file.primary = true)
    (ht : ∀ f ∈ fs, ∀ p, Belongs f p → ∃ f' ∈ fs, f'.file.kind = .rsl ∧ Belongs f' p)
    (hX : ∀ t t', Away t t' → X.lint g t' = X.lint g t) :
    ∃ (l1 : List Loaded) (a b : ProcOut), process o X required fs s = { a with calls := a.calls ++ X.notes ls a.state } ∧
      process { o with parseTrlc := false } X required' (fs.filter (·.file.kind = .rsl)) s =
        { b with calls := b.calls ++ X.notes l1 b.state } ∧
      Later b.state a.state ∧ b.calls <+: a.calls ∧ (a.out = .table → b.out = .table) := by
  obtain ⟨l1, l2, s2, S⟩ := split hl he hp ht
  have hg1 : (ls.all fun l => !l.cu.err) = true := by
    rw [List.all_eq_true]
    intro l hm
    rw [(S.good l hm).1]
    rfl
  have hg2 : (l1.all fun l => !l.cu.err) = true := by
    rw [List.all_eq_true]
    intro l hm
    rw [(S.good l (by rw [S.both]; exact List.mem_append_left _ hm)).1]
    rfl
  refine ⟨l1, analyse o X g (required (ls.map (·.cu))) ls (ls.all fun l => !l.cu.err) (s1.withPackages g),
    analyse { o with parseTrlc := false } X g (required' (l1.map (·.cu))) l1 (l1.all fun l => !l.cu.err) (s2.withPackages g), ?_, ?_, ?_⟩
  · unfold process
    rw [hl]
  · unfold process
    rw [S.load]
  rw [hg1, hg2]
  obtain ⟨hi, hacc⟩ := start_inv (rx := X.rx) S.tab (hb.quiet S.quiet)
  have hd := (runRsl_done (recover := o.recover) (required := required (ls.map (·.cu))) (ls := ls) hi hacc).1.inv.sound.world
  have hA := S.runRsl (required' (l1.map (·.cu))) (required (ls.map (·.cu))) o.recover X.rx
  unfold analyse
  revert hA hd
  dsimp only
  generalize runRsl g o.recover X.rx (required (ls.map (·.cu))) ls (s1.withPackages g) = r
  generalize runRsl g o.recover X.rx (required' (l1.map (·.cu))) l1 (s2.withPackages g) = r'
  intro hd hA
  have back : ∀ {t t' : PS}, Away t t' → Later t' t := by
    rintro t _ ⟨_, _, _, _, rfl⟩
    exact ⟨rfl, rfl, rfl, rfl, [], by simp⟩
  cases hA with
  | crash h => exact ⟨back h, List.prefix_rfl, fun h => by cases h⟩
  | err h => exact ⟨back h, List.prefix_rfl, fun h => by cases h⟩
  | @ok b t t' h =>
    dsimp only
    rw [hX t t' h, Bool.true_and]
    by_cases hc : (!o.recover && !b) = true
    · rw [if_pos hc, if_pos hc]
      exact ⟨back h, List.prefix_rfl, fun h => by cases h⟩
    · rw [if_neg hc, if_neg hc]
      generalize (if (o.lint && b) = true then X.lint g t else ⟨[], some true⟩) = L
      obtain ⟨calls, out⟩ := L
      cases out with
      | none => exact ⟨back h, List.prefix_rfl, fun h => by cases h⟩
      | some c =>
        dsimp only
        cases o.parseTrlc with
        | false => exact ⟨back h, List.prefix_rfl, id⟩
        | true =>
          simp only [Bool.not_true, Bool.not_false, Bool.false_eq_true, if_false, if_true]
          refine ⟨(back h).trans (finish_later hd), ?_, ?_⟩
          · unfold finish
            split
            · exact List.prefix_rfl
            · exact List.prefix_rfl
            · exact List.prefix_rfl
            · dsimp only
              split
              · exact List.prefix_rfl
              · split
                · exact List.prefix_rfl
                · split <;> exact List.prefix_append _ _
          · intro ho
            rw [finish_ok ho]
            rfl

/-- **C100**: leaving out the trlc files does not change the types and the checks: these are the same, whatever the
trlc files contain.  (All files are given, none is from an include directory; the preambles have no errors; and every package
has an rsl file.) -/
theorem C100_types (hb : Blank s) (hl : loadAll globalTable fs s = .ok (g, ls) s1) (he : s1.errs = s.errs)
    (hp : ∀ f ∈ fs, f.file.primary = true)
    (ht : ∀ f ∈ fs, ∀ p, Belongs f p → ∃ f' ∈ fs, f'.file.kind = .rsl ∧ Belongs f' p)
    (hX : ∀ t t', Away t t' → X.lint g t' = X.lint g t) :
    let full := (process o X required fs s).state
    let skip := (process { o with parseTrlc := false } X required' (fs.filter (·.file.kind = .rsl)) s).state
    skip.decls = full.decls ∧ skip.infos = full.infos ∧ skip.seps = full.seps ∧ skip.checks = full.checks := by
  obtain ⟨l1, a, b, e1, e2, h, -, -⟩ := main (o := o) (required := required) (required' := required') hb hl he hp ht hX
  rw [e1, e2]
  exact ⟨h.decls.symm, h.infos.symm, h.seps.symm, h.checks.symm⟩

/-- **C100**: what is reported then is also reported otherwise, in the same order and before everything else: errors, … -/
theorem C100_errors (hb : Blank s) (hl : loadAll globalTable fs s = .ok (g, ls) s1) (he : s1.errs = s.errs)
    (hp : ∀ f ∈ fs, f.file.primary = true)
    (ht : ∀ f ∈ fs, ∀ p, Belongs f p → ∃ f' ∈ fs, f'.file.kind = .rsl ∧ Belongs f' p)
    (hX : ∀ t t', Away t t' → X.lint g t' = X.lint g t) :
    (process { o with parseTrlc := false } X required' (fs.filter (·.file.kind = .rsl)) s).state.errs <+:
      (process o X required fs s).state.errs := by
  obtain ⟨l1, a, b, e1, e2, h, -, -⟩ := main (o := o) (required := required) (required' := required') hb hl he hp ht hX
  rw [e1, e2]
  obtain ⟨l, hl⟩ := h.errs
  exact ⟨l, hl.symm⟩

/-- … and the messages of the linter. -/
theorem C100_lint (hb : Blank s) (hl : loadAll globalTable fs s = .ok (g, ls) s1) (he : s1.errs = s.errs)
    (hp : ∀ f ∈ fs, f.file.primary = true)
    (ht : ∀ f ∈ fs, ∀ p, Belongs f p → ∃ f' ∈ fs, f'.file.kind = .rsl ∧ Belongs f' p)
    (hX : ∀ t t', Away t t' → X.lint g t' = X.lint g t) (hn : ∀ l t, X.notes l t = []) :
    (process { o with parseTrlc := false } X required' (fs.filter (·.file.kind = .rsl)) s).calls <+:
      (process o X required fs s).calls := by
  obtain ⟨l1, a, b, e1, e2, -, h, -⟩ := main (o := o) (required := required) (required' := required') hb hl he hp ht hX
  rw [e1, e2]
  dsimp only
  rw [hn, hn, List.append_nil, List.append_nil]
  exact h

/-- **C100**: if all files are accepted, so are the rsl files alone. -/
theorem C100_accepted (hb : Blank s) (hl : loadAll globalTable fs s = .ok (g, ls) s1) (he : s1.errs = s.errs)
    (hp : ∀ f ∈ fs, f.file.primary = true)
    (ht : ∀ f ∈ fs, ∀ p, Belongs f p → ∃ f' ∈ fs, f'.file.kind = .rsl ∧ Belongs f' p)
    (hX : ∀ t t', Away t t' → X.lint g t' = X.lint g t) (h : (process o X required fs s).out = .table) :
    (process { o with parseTrlc := false } X required' (fs.filter (·.file.kind = .rsl)) s).out = .table := by
  obtain ⟨l1, a, b, e1, e2, -, -, h'⟩ := main (o := o) (required := required) (required' := required') hb hl he hp ht hX
  rw [e1] at h
  rw [e2]
  exact h' h

/-- registering without the trlc files -/
theorem SkipTrlc.registerFiles_skip : ∀ {files : List SrcFile} {s t a : PS} {xs : List Source}, RunOrder.Near s t →
    registerFiles true files s = .ok (xs, true) a →
    ∃ a', registerFiles false files t = .ok (xs.filter (·.file.kind = .rsl), true) a' ∧ RunOrder.Near t a'
  | [], s, t, a, xs, _, e => by cases e; exact ⟨t, rfl, .refl t⟩
  | f :: files, s, t, a, xs, hn, e => by
    obtain ⟨x, b, ys, e1, e2, rfl⟩ := RunOrder.registerFiles_cons.1 e
    obtain ⟨t1, e3, h3⟩ := RunOrder.registerFile_moved hn e1
    have hb : RunOrder.Near s b := by
      obtain ⟨b', e', h⟩ := RunOrder.registerFile_moved (RunOrder.Near.refl s) e1
      rw [e1] at e'
      cases e'
      exact h
    have hst := (registerFile_ok (r := x) (b := true) e1).start
    cases hk : f.kind with
    | trlc =>
      obtain ⟨a', e4, h4⟩ := registerFiles_skip (hb.symm.trans hn) e2
      refine ⟨a', RunOrder.registerFiles_cons.2 ⟨none, t, _, ?_, e4, ?_⟩, h4⟩
      · unfold registerFile
        rw [hk]
        rfl
      · rw [List.filter_append, List.filter_eq_nil_iff.2, List.nil_append, Option.toList_none, List.nil_append]
        intro y hy
        have := List.mem_singleton.1 (hst y hy).2
        rw [this, hk]
        simp
    | rsl =>
      obtain ⟨a', e4, h4⟩ := registerFiles_skip ((hb.symm.trans hn).trans h3) e2
      refine ⟨a', RunOrder.registerFiles_cons.2 ⟨x, t1, _, ?_, e4, ?_⟩, h3.trans h4⟩
      · rw [← e3]
        unfold registerFile
        rw [hk]
        rfl
      · rw [List.filter_append, List.filter_eq_self.2]
        intro y hy
        have := List.mem_singleton.1 (hst y hy).2
        rw [this, hk]
        simp

/-- **C100**: the same for the command line tool with and without `--skip-trlc-files`. -/
theorem C100_run {files : List SrcFile} (hr : registerFiles true files (PS.fresh []) = .ok (fs, true) s)
    (hl : loadAll globalTable fs s = .ok (g, ls) s1) (he : s1.errs = s.errs) (hp : ∀ f ∈ files, f.primary = true)
    (ht : ∀ f ∈ fs, ∀ p, Belongs f p → ∃ f' ∈ fs, f'.file.kind = .rsl ∧ Belongs f' p)
    (hX : ∀ t t', Away t t' → X.lint g t' = X.lint g t) :
    let full := runTool { o with parseTrlc := true } X required files []
    let skip := runTool { o with parseTrlc := false } X required' files []
    skip.state.decls = full.state.decls ∧ skip.state.infos = full.state.infos ∧ skip.state.seps = full.state.seps ∧
      skip.state.checks = full.state.checks ∧ skip.state.errs <+: full.state.errs ∧ (full.out = .table → skip.out = .table) := by
  have hsub := RunOrder.registerFiles_sublist hr
  have hp' : ∀ f ∈ fs, f.file.primary = true := fun f hf => hp _ (hsub.subset (List.mem_map_of_mem hf))
  obtain ⟨a', e, hn⟩ := registerFiles_skip (RunOrder.Near.refl _) hr
  have hs : RunOrder.Near (PS.fresh []) s := by
    obtain ⟨b', e', h⟩ := RunOrder.registerFiles_moved (RunOrder.Near.refl _) hr
    rw [hr] at e'
    cases e'
    exact h
  have hb : Blank s := by
    obtain ⟨_, _, _, rfl⟩ := hs
    exact ⟨rfl, rfl, rfl, rfl, rfl, rfl⟩
  have hproc : process { o with parseTrlc := false } X required' (fs.filter (·.file.kind = .rsl)) a' =
      process { o with parseTrlc := false } X required' (fs.filter (·.file.kind = .rsl)) s := by
    by_cases h0 : fs.filter (·.file.kind = .rsl) = []
    · have hfs : fs = [] := by
        rw [List.eq_nil_iff_forall_not_mem]
        intro f hf
        obtain ⟨p, hbel⟩ := (loadAll_good hl he).1.reads f hf
        obtain ⟨f', h1, h2, -⟩ := ht f hf p hbel
        exact absurd h2 (by simpa using List.filter_eq_nil_iff.1 h0 f' h1)
      subst hfs
      rw [RunOrder.registerFiles_none hr, RunOrder.registerFiles_none e]
    · unfold process
      rw [RunOrder.loadAll_near (hs.symm.trans hn) h0]
  have h1 : runTool { o with parseTrlc := true } X required files [] = process { o with parseTrlc := true } X required fs s := by
    unfold runTool
    dsimp only
    rw [hr]
    dsimp only
    rw [if_pos rfl]
    unfold processAll registerFiles
    rw [pure_apply]
    dsimp only
    rw [List.append_nil]
  have h2 : runTool { o with parseTrlc := false } X required' files [] =
      process { o with parseTrlc := false } X required' (fs.filter (·.file.kind = .rsl)) s := by
    rw [← hproc]
    unfold runTool
    dsimp only
    rw [e]
    dsimp only
    rw [if_pos rfl]
    unfold processAll registerFiles
    rw [pure_apply]
    dsimp only
    rw [List.append_nil]
  dsimp only
  rw [h1, h2]
  obtain ⟨k1, k2, k3, k4⟩ := C100_types (o := { o with parseTrlc := true }) (required := required) (required' := required')
    hb hl he hp' ht hX
  exact ⟨k1, k2, k3, k4, C100_errors (o := { o with parseTrlc := true }) hb hl he hp' ht hX,
    C100_accepted (o := { o with parseTrlc := true }) hb hl he hp' ht hX⟩

/-- trlc files are not looked at if they are to be skipped -/
theorem SkipTrlc.registerFiles_rsl : ∀ (files : List SrcFile) (s : PS),
    registerFiles false files s = registerFiles false (files.filter (·.kind = .rsl)) s
  | [], _ => rfl
  | f :: files, s => by
    have ih := registerFiles_rsl files
    cases hk : f.kind with
    | trlc =>
      rw [List.filter_cons_of_neg (by simp [hk]), ← ih]
      have e : registerFile false f = pure (none, true) := by unfold registerFile; rw [hk]; rfl
      conv_lhs => unfold registerFiles
      rw [e, bind_apply, pure_apply]
      dsimp only
      rw [bind_apply]
      cases registerFiles false files s <;> rfl
    | rsl =>
      rw [List.filter_cons_of_pos (by simp [hk])]
      unfold registerFiles
      rw [bind_apply, bind_apply]
      cases registerFile false f s with
      | ok r a =>
        dsimp only
        rw [bind_apply, bind_apply, ih]
      | err a => rfl
      | crash c a => rfl

/-- **C100**: with `--skip-trlc-files` trlc files could as well not be given at all. -/
theorem C100_ignored {files : List SrcFile} :
    runTool { o with parseTrlc := false } X required files [] =
      runTool { o with parseTrlc := false } X required (files.filter (·.kind = .rsl)) [] := by
  unfold runTool
  dsimp only
  rw [registerFiles_rsl files]

/-- **C100**: types and checks depend on the rsl files only: projects with the same rsl files have the same, whatever the trlc
files are. -/
theorem C100_determined {files files' : List SrcFile} {fs' : List Source} {s' s1' : PS} {g' : STab} {ls' : List Loaded}
    (hsame : files.filter (·.kind = .rsl) = files'.filter (·.kind = .rsl))
    (hr : registerFiles true files (PS.fresh []) = .ok (fs, true) s)
    (hl : loadAll globalTable fs s = .ok (g, ls) s1) (he : s1.errs = s.errs) (hp : ∀ f ∈ files, f.primary = true)
    (ht : ∀ f ∈ fs, ∀ p, Belongs f p → ∃ f' ∈ fs, f'.file.kind = .rsl ∧ Belongs f' p)
    (hr' : registerFiles true files' (PS.fresh []) = .ok (fs', true) s')
    (hl' : loadAll globalTable fs' s' = .ok (g', ls') s1') (he' : s1'.errs = s'.errs) (hp' : ∀ f ∈ files', f.primary = true)
    (ht' : ∀ f ∈ fs', ∀ p, Belongs f p → ∃ f' ∈ fs', f'.file.kind = .rsl ∧ Belongs f' p)
    (hX : ∀ g t t', Away t t' → X.lint g t' = X.lint g t) :
    let one := (runTool { o with parseTrlc := true } X required files []).state
    let other := (runTool { o with parseTrlc := true } X required' files' []).state
    other.decls = one.decls ∧ other.infos = one.infos ∧ other.seps = one.seps ∧ other.checks = one.checks := by
  obtain ⟨a1, a2, a3, a4, -⟩ := C100_run (o := o) (required := required) (required' := required) hr hl he hp ht (hX g)
  obtain ⟨b1, b2, b3, b4, -⟩ := C100_run (o := o) (required := required') (required' := required) hr' hl' he' hp' ht' (hX g')
  rw [C100_ignored, ← hsame, ← C100_ignored] at b1 b2 b3 b4
  exact ⟨b1.symm.trans a1, b2.symm.trans a2, b3.symm.trans a3, b4.symm.trans a4⟩

end

end Verif.Props
