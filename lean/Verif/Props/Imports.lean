import Verif.Lemmas.UnimportLoaded
import Verif.Props.RunSamples
/-!
# Imports that are said to be unused (C82)
-/
namespace Verif.Props
open Verif.Model Verif.Spec Verif.Lemmas Verif.Lemmas.Unimport

section
variable {pt ok rec : Bool} {files : List SrcFile} {fs : List Source} {s s1 s2 s3 : PS} {g : STab} {ls : List Loaded}
  {l : Loaded} {rx : Regex} {nm : List Char}

/-- The values that were written between two states: those with new numbers. -/
def NewValue (s s' : PS) (v : PVal) : Prop :=
  ∃ f : String × VNode, ((∃ o ∈ s'.objs, f ∈ o.fields) ∨ ∃ i ∈ s'.infos, f ∈ i.frozen) ∧ s.nid ≤ f.2.id ∧ f.2.val = v

theorem parseTrlcFile_end {E E' : FileEnv} {s s' : PS} (hn : s.nt = none) (h : parseTrlcFile E s = .ok true s') :
    parseTrlcFile E' s = .ok true s' := by
  have loop : ∀ (F : FileEnv) k, fileLoop F (k + 1) true s = .ok true s := by
    intro F k
    unfold fileLoop
    rw [get_bind]
    rw [if_neg (by unfold PS.peekKw PS.peek; rw [hn]; simp)]
    rfl
  unfold parseTrlcFile at h ⊢
  rw [get_bind] at h ⊢
  rw [bind_run (loop E _)] at h
  rw [bind_run (loop E' _)]
  exact h

theorem parseRslFile_end {E E' : FileEnv} {s s' : PS} (hn : s.nt = none) (h : parseRslFile E rx s = .ok true s') :
    parseRslFile E' rx s = .ok true s' := by
  have loop : ∀ (F : FileEnv) k, rslLoop F rx (k + 1) true s = .ok true s := by
    intro F k
    unfold rslLoop
    rw [get_bind]
    rw [if_pos (by unfold PS.peekEof; rw [hn]; rfl)]
    rfl
  unfold parseRslFile at h ⊢
  rw [get_bind] at h ⊢
  rw [bind_run (loop E _)] at h
  rw [bind_run (loop E' _)]
  exact h

/-- the invariant when the file is opened, and what is to be shown of the values -/
theorem unused_start (hr : registerFiles pt files (PS.fresh []) = .ok (fs, ok) s)
    (hl : loadAll globalTable fs s = .ok (g, ls) s1) (hm : l ∈ ls) (he : l.cu.err = false)
    (hs : Reached rx g (s1.withPackages g) s2) (hu : nm ∈ (l.lintFile g s2.nid s3).unused)
    (hin : ∀ p, PkgNamed g p nm → ∀ v, NewValue s2 s3 v → ¬ RefersInside p v) :
    ∃ p, pkgNumber g nm = some p ∧ (l.src.nt ≠ none → Inv ⟨p, nm, s2.nid, 0, true⟩ (s2.enter (l.openFile g rec))) ∧
      Pure ⟨p, nm, s2.nid, 0, true⟩ s3 := by
  have R := registerFiles_ok hr
  have P := loadAll_ok globalTable_pkgTab hl
  obtain ⟨p, h1, h2, h3⟩ := unused_facts globalTable_pkgTab (fun x hx => (R.start x hx).1) hl hm he hu
  have hn := pkgNumber_named P.tab h1
  have hg := namesPkg_global P.tab hn
  have hb := reached_between hg (start_between hg ((fresh_blank []).quiet (R.quiet.trans P.quiet))) hs
  refine ⟨p, h1, fun hnt => ?_, pure_of ?_⟩
  · obtain ⟨t, ht⟩ := Option.ne_none_iff_exists'.1 hnt
    unfold sourceWords at h3
    rw [ht] at h3
    refine ⟨fun u hu _ => ?_, fun u hu _ => ?_, hb.1, hb.2.1, Nat.le_refl _, hb.2.2, Nat.zero_le _⟩
    · change l.src.nt = some u at hu
      rw [ht] at hu
      cases hu
      exact h3 t (List.mem_cons_self ..)
    · exact h3 u (List.mem_cons_of_mem _ hu)
  · refine noRef_written h2 fun v hv => ?_
    exact hin p hn v (mem_written.1 hv)

/-- What C82 says in full, for trlc files: if an import is said to be unused, then the file means the same
without it. -/
def C82_full : Prop :=
  ∀ (pt ok rec : Bool) (files : List SrcFile) (fs : List Source) (s s1 s2 s3 : PS) (g : STab) (ls : List Loaded)
    (l : Loaded) (rx : Regex) (nm : List Char),
    registerFiles pt files (PS.fresh []) = .ok (fs, ok) s → loadAll globalTable fs s = .ok (g, ls) s1 → l ∈ ls →
    l.cu.err = false → Reached rx g (s1.withPackages g) s2 →
    runTrlcFile (l.openFile g rec) s2 = .ok true s3 → nm ∈ (l.lintFile g s2.nid s3).unused →
    runTrlcFile ((without l nm).openFile g rec) s2 = .ok true s3

/-- **C82**, trlc files: if an import is said to be unused, then without it the file is accepted as well, with
the same result.  Missing (and wrong, `C82_violated`): files that have references to the package only in
markup strings inside arrays or tuples. -/
theorem C82_trlc_partial (hr : registerFiles pt files (PS.fresh []) = .ok (fs, ok) s)
    (hl : loadAll globalTable fs s = .ok (g, ls) s1) (hm : l ∈ ls) (he : l.cu.err = false)
    (hs : Reached rx g (s1.withPackages g) s2) (hrun : runTrlcFile (l.openFile g rec) s2 = .ok true s3)
    (hu : nm ∈ (l.lintFile g s2.nid s3).unused)
    (hin : ∀ p, PkgNamed g p nm → ∀ v, NewValue s2 s3 v → ¬ RefersInside p v) :
    runTrlcFile ((without l nm).openFile g rec) s2 = .ok true s3 := by
  obtain ⟨p, hp, hi, hpure⟩ := unused_start (rec := rec) hr hl hm he hs hu hin
  have P := loadAll_ok globalTable_pkgTab hl
  obtain ⟨_, _, h1, h2⟩ := Unimport.bind_ok hrun
  cases h1
  have h3 := tryFile_true h2
  refine (bind_run (rfl : Model.P.modify _ s2 = .ok () (s2.enter (l.openFile g rec)))).trans (tryFile_run ?_)
  cases hnt : l.src.nt with
  | none => exact parseTrlcFile_end hnt h3
  | some t => exact (parseTrlcFile_rel (envs_without P.tab hp) (hi (by rw [hnt]; simp)) h3).2 hpure

/-- **C82**, rsl files: likewise. -/
theorem C82_rsl_partial (hr : registerFiles pt files (PS.fresh []) = .ok (fs, ok) s)
    (hl : loadAll globalTable fs s = .ok (g, ls) s1) (hm : l ∈ ls) (he : l.cu.err = false)
    (hs : Reached rx g (s1.withPackages g) s2) (hrun : runRslFile rx (l.openFile g rec) s2 = .ok true s3)
    (hu : nm ∈ (l.lintFile g s2.nid s3).unused)
    (hin : ∀ p, PkgNamed g p nm → ∀ v, NewValue s2 s3 v → ¬ RefersInside p v) :
    runRslFile rx ((without l nm).openFile g rec) s2 = .ok true s3 := by
  obtain ⟨p, hp, hi, hpure⟩ := unused_start (rec := rec) hr hl hm he hs hu hin
  have P := loadAll_ok globalTable_pkgTab hl
  obtain ⟨_, _, h1, h2⟩ := Unimport.bind_ok hrun
  cases h1
  have h3 := tryFile_true h2
  refine (bind_run (rfl : Model.P.modify _ s2 = .ok () (s2.enter (l.openFile g rec)))).trans (tryFile_run ?_)
  cases hnt : l.src.nt with
  | none => exact parseRslFile_end hnt h3
  | some t => exact (parseRslFile_rel (envs_without P.tab hp) (hi (by rw [hnt]; simp)) h3).2 hpure

end

namespace ImportSample

def p : SrcFile := ⟨"p.rsl", .rsl, true, "package P type T { m optional Markup_String ms optional Markup_String [1 .. *] }".toList⟩
def q : SrcFile := ⟨"q.trlc", .trlc, true, "package Q import P P.T y { m = \"none\" }".toList⟩

/-- the import of `Q` is used in an element of an array only -/
def used : SrcFile := ⟨"r.trlc", .trlc, true, "package P import Q T x { ms = [\"see [[Q.y]]\"] }".toList⟩
/-- the import of `Q` is used in a markup string -/
def seen : SrcFile := ⟨"r.trlc", .trlc, true, "package P import Q T x { m = \"see [[Q.y]]\" }".toList⟩
/-- the import of `Q` is not used -/
def unused : SrcFile := ⟨"r.trlc", .trlc, true, "package P import Q T x { m = \"see [[x]]\" }".toList⟩

def rx : Regex := RunSample.outside.rx

def q' : SrcFile := ⟨"q.rsl", .rsl, true, "package Q type U { a Integer }".toList⟩
/-- the import of `Q` is not used -/
def rsl : SrcFile := ⟨"r.rsl", .rsl, true, "package R import Q type T { a Integer } type V extends T { freeze a = 1 }".toList⟩

/-- the files up to the last one -/
structure Before where
  g : STab
  ls : List Loaded
  l : Loaded
  s0 : PS
  s : PS

/-- the state after the first two of three files -/
def before (f : SrcFile) : Option Before :=
  match loadAll globalTable (RunSample.opened [p, q, f]).1 (RunSample.opened [p, q, f]).2 with
  | .ok (g, [a, b, l]) s0 =>
    match runRslFile rx (a.openFile g true) (s0.withPackages g) with
    | .ok true s => match runTrlcFile (b.openFile g true) s with
      | .ok true s => some ⟨g, [a, b, l], l, s0, s⟩
      | _ => none
    | _ => none
  | _ => none

/-- both strings refer to `Q`, and are parsed; the unused imports -/
def told (f : SrcFile) : Option (List (List Char)) := (before f).bind fun b =>
  match runTrlcFile (b.l.openFile b.g true) b.s with
  | .ok true s => some (b.l.lintFile b.g b.s.nid s).unused
  | _ => none

/-- accepted without the import of `Q` -/
def accepted (f : SrcFile) : Option Bool := (before f).map fun b =>
  match runTrlcFile ((without b.l ['Q']).openFile b.g true) b.s with
  | .ok true _ => true
  | _ => false

def isFlat : PVal → Bool
  | .markup .. | .int _ | .inull => true
  | _ => false

theorem flat_inside {n : Nat} {v : PVal} (h : isFlat v = true) : ¬ RefersInside n v := by
  rintro ⟨h1, h2⟩
  cases v with
  | markup s refs => exact h2 s refs rfl
  | int i => cases h1
  | inull => cases h1
  | _ => cases h

/-- the unused imports again, and whether no value of the file is an array or a tuple -/
def plain (f : SrcFile) : Option (List (List Char) × Bool) := (before f).bind fun b =>
  match runTrlcFile (b.l.openFile b.g true) b.s with
  | .ok true s => some ((b.l.lintFile b.g b.s.nid s).unused,
      (s.written b.s.nid).all isFlat && !(s.written b.s.nid).isEmpty && !b.l.cu.err)
  | _ => none

set_option maxRecDepth 100000 in
theorem used_told : told used = some [['Q']] := by decide +kernel
set_option maxRecDepth 100000 in
theorem used_not : accepted used = some false := by decide +kernel
set_option maxRecDepth 100000 in
theorem used_noErr : (before used).any (fun b => !b.l.cu.err) = true := by decide +kernel
set_option maxRecDepth 100000 in
theorem seen_told : told seen = some [] := by decide +kernel
set_option maxRecDepth 100000 in
theorem unused_plain : plain unused = some ([['Q']], true) := by decide +kernel

theorem before_facts {f : SrcFile} {b : Before} (h : before f = some b) :
    loadAll globalTable (RunSample.opened [p, q, f]).1 (RunSample.opened [p, q, f]).2 = .ok (b.g, b.ls) b.s0 ∧
    b.l ∈ b.ls ∧ Reached rx b.g (b.s0.withPackages b.g) b.s := by
  unfold before at h
  split at h
  · next g a b' l s0 h1 =>
    split at h
    · next s hs =>
      split at h
      · next s' hs' =>
        cases h
        exact ⟨h1, by simp, .trlc (.rsl .start rfl hs) rfl hs'⟩
      · cases h
    · cases h
  · cases h

theorem opened_registered {fs : List SrcFile} (h : (RunSample.opened fs).1 ≠ []) :
    ∃ ok, registerFiles true fs (PS.fresh []) = .ok ((RunSample.opened fs).1, ok) (RunSample.opened fs).2 := by
  unfold RunSample.opened at h ⊢
  split at h
  · next x b s hx => rw [hx]; exact ⟨_, rfl⟩
  · exact absurd rfl h
  · exact absurd rfl h

set_option maxRecDepth 100000 in
theorem used_opened : (RunSample.opened [p, q, used]).1.isEmpty = false := by decide +kernel
set_option maxRecDepth 100000 in
theorem unused_opened : (RunSample.opened [p, q, unused]).1.isEmpty = false := by decide +kernel

theorem violated_by {f : SrcFile} (h0 : (RunSample.opened [p, q, f]).1.isEmpty = false) (h1 : told f = some [['Q']])
    (h2 : accepted f = some false) (h3 : (before f).any (fun b => !b.l.cu.err) = true) : ¬ C82_full := by
  intro H
  unfold told at h1
  unfold accepted at h2
  cases hb : before f with
  | none => rw [hb] at h1; cases h1
  | some b =>
    rw [hb] at h1 h2 h3
    obtain ⟨k1, k2, k3⟩ := before_facts hb
    obtain ⟨ok, k0⟩ := opened_registered (fs := [p, q, f]) (by
      intro e; rw [e] at h0; cases h0)
    simp only [Option.bind_some, Option.map_some, Option.any_some, Option.some.injEq, Bool.not_eq_true'] at h1 h2 h3
    split at h1
    · next s hs =>
      have := H true ok true _ _ _ _ _ _ _ _ _ rx ['Q'] k0 k1 k2 h3 k3 hs (by rw [Option.some.inj h1]; simp)
      rw [this] at h2
      cases h2
    · cases h1

theorem met_by {f : SrcFile} (h0 : (RunSample.opened [p, q, f]).1.isEmpty = false) (h1 : plain f = some ([['Q']], true)) :
    ∃ ok fs s g ls s1 l s2 s3, registerFiles true [p, q, f] (PS.fresh []) = .ok (fs, ok) s ∧
    loadAll globalTable fs s = .ok (g, ls) s1 ∧ l ∈ ls ∧ l.cu.err = false ∧ Reached rx g (s1.withPackages g) s2 ∧
    runTrlcFile (l.openFile g true) s2 = .ok true s3 ∧ ['Q'] ∈ (l.lintFile g s2.nid s3).unused ∧
    (∀ p, PkgNamed g p ['Q'] → ∀ v, NewValue s2 s3 v → ¬ RefersInside p v) ∧ ∃ v, NewValue s2 s3 v := by
  unfold plain at h1
  cases hb : before f with
  | none => rw [hb] at h1; cases h1
  | some b =>
    rw [hb] at h1
    obtain ⟨k1, k2, k3⟩ := before_facts hb
    obtain ⟨ok, k0⟩ := opened_registered (fs := [p, q, f]) (by
      intro e; rw [e] at h0; cases h0)
    simp only [Option.bind_some] at h1
    split at h1
    · next s hs =>
      rw [Option.some.injEq, Prod.mk.injEq] at h1
      obtain ⟨h1, h2⟩ := h1
      simp only [Bool.and_eq_true, List.all_eq_true, Bool.not_eq_true', List.isEmpty_eq_false_iff_exists_mem] at h2
      refine ⟨ok, _, _, b.g, b.ls, b.s0, b.l, b.s, s, k0, k1, k2, h2.2, k3, hs, by rw [h1]; simp, ?_, ?_⟩
      · exact fun n _ v hv => flat_inside (h2.1.1 v (mem_written.2 hv))
      · obtain ⟨v, hv⟩ := h2.1.2
        exact ⟨v, mem_written.1 hv⟩
    · cases h1

/-- the second of two rsl files is read; the unused imports, and whether all is as C82 needs it -/
def rslTold (f : SrcFile) : Option (List (List Char) × Bool) :=
  match loadAll globalTable (RunSample.opened [q', f]).1 (RunSample.opened [q', f]).2 with
  | .ok (g, [a, l]) s0 =>
    match runRslFile rx (a.openFile g true) (s0.withPackages g) with
    | .ok true s => match runRslFile rx (l.openFile g true) s with
      | .ok true s' => some ((l.lintFile g s.nid s').unused,
          (s'.written s.nid).all isFlat && !(s'.written s.nid).isEmpty && !l.cu.err)
      | _ => none
    | _ => none
  | _ => none

set_option maxRecDepth 100000 in
theorem rsl_told : rslTold rsl = some ([['Q']], true) := by decide +kernel
set_option maxRecDepth 100000 in
theorem rsl_opened : (RunSample.opened [q', rsl]).1.isEmpty = false := by decide +kernel

theorem rsl_met {f : SrcFile} {us : List (List Char)} (h0 : (RunSample.opened [q', f]).1.isEmpty = false) (h1 : rslTold f = some (us, true)) :
    ∃ ok fs s g ls s1 l s2 s3, registerFiles true [q', f] (PS.fresh []) = .ok (fs, ok) s ∧
    loadAll globalTable fs s = .ok (g, ls) s1 ∧ l ∈ ls ∧ l.cu.err = false ∧ Reached rx g (s1.withPackages g) s2 ∧
    runRslFile rx (l.openFile g true) s2 = .ok true s3 ∧ (l.lintFile g s2.nid s3).unused = us ∧
    (∀ p, PkgNamed g p ['Q'] → ∀ v, NewValue s2 s3 v → ¬ RefersInside p v) ∧ ∃ v, NewValue s2 s3 v := by
  obtain ⟨ok, k0⟩ := opened_registered (fs := [q', f]) (by intro e; rw [e] at h0; cases h0)
  unfold rslTold at h1
  split at h1
  · next g a l s0 hl =>
    split at h1
    · next s hs =>
      split at h1
      · next s' hs' =>
        rw [Option.some.injEq, Prod.mk.injEq] at h1
        obtain ⟨h1, h2⟩ := h1
        simp only [Bool.and_eq_true, List.all_eq_true, Bool.not_eq_true', List.isEmpty_eq_false_iff_exists_mem] at h2
        refine ⟨ok, _, _, g, _, s0, l, s, s', k0, hl, by simp, h2.2, .rsl .start rfl hs, hs', h1, ?_, ?_⟩
        · exact fun n _ v hv => flat_inside (h2.1.1 v (mem_written.2 hv))
        · obtain ⟨v, hv⟩ := h2.1.2
          exact ⟨v, mem_written.1 hv⟩
      · cases h1
    · cases h1
  · cases h1

end ImportSample

open ImportSample in
/-- **C82** does not hold in full: the import is said to be unused, but it is needed. -/
theorem C82_violated : ¬ C82_full := violated_by used_opened used_told used_not used_noErr

open ImportSample in
/-- The hypotheses of C82 can be met. -/
example : ∃ ok fs s g ls s1 l s2 s3, registerFiles true [p, q, unused] (PS.fresh []) = .ok (fs, ok) s ∧
    loadAll globalTable fs s = .ok (g, ls) s1 ∧ l ∈ ls ∧ l.cu.err = false ∧ Reached rx g (s1.withPackages g) s2 ∧
    runTrlcFile (l.openFile g true) s2 = .ok true s3 ∧ ['Q'] ∈ (l.lintFile g s2.nid s3).unused ∧
    (∀ p, PkgNamed g p ['Q'] → ∀ v, NewValue s2 s3 v → ¬ RefersInside p v) ∧ ∃ v, NewValue s2 s3 v :=
  met_by unused_opened unused_plain

open ImportSample in
example : ∃ ok fs s g ls s1 l s2 s3, registerFiles true [q', rsl] (PS.fresh []) = .ok (fs, ok) s ∧
    loadAll globalTable fs s = .ok (g, ls) s1 ∧ l ∈ ls ∧ l.cu.err = false ∧ Reached rx g (s1.withPackages g) s2 ∧
    runRslFile rx (l.openFile g true) s2 = .ok true s3 ∧ (l.lintFile g s2.nid s3).unused = [['Q']] ∧
    (∀ p, PkgNamed g p ['Q'] → ∀ v, NewValue s2 s3 v → ¬ RefersInside p v) ∧ ∃ v, NewValue s2 s3 v :=
  rsl_met rsl_opened rsl_told

end Verif.Props
