import Verif.Props.Unneeded
import Verif.Props.RunSamples
/-!
# C90: concrete runs; it does not hold in full
-/
namespace Verif.Props
open Verif.Model Verif.Spec Verif.Lemmas

namespace UnneededSample

def rsl : SrcFile := ⟨"p.rsl", .rsl, true, "package P type Q { a Integer m optional Markup_String }".toList⟩
def trlc : SrcFile := ⟨"p.trlc", .trlc, true, "package P Q x { a = 1 m = \"see [[y]]\" } Q y { a = 2 }".toList⟩
/-- a file of an include directory -/
def other : SrcFile := ⟨"o.rsl", .rsl, false, "package Other type T { a Integer }".toList⟩
/-- a file of an include directory; its package is named like the type -/
def alike : SrcFile := ⟨"o.rsl", .rsl, false, "package q type T { a Integer }".toList⟩

def options : Options := ⟨false, true, true⟩

/-- what is needed -/
def wanted : List PNode := [(['P'], .rsl), (['P'], .trlc)]

def required (_ : List CU) : Finset PNode := wanted.toFinset

def fs : List Source := ((RunSample.opened [rsl, trlc]).1)
def s : PS := (RunSample.opened [rsl, trlc]).2
def extra (e : SrcFile) : List Source := (RunSample.opened [e]).1

/-- the closure loop can find what is wanted -/
theorem required_of {cus : List CU} (h1 : (graphRoots cus).toFinset = wanted.toFinset)
    (h2 : ∀ n ∈ wanted, ∀ d ∈ graphDeps cus n, d ∈ wanted) : Required cus wanted.toFinset := by
  unfold Required
  rw [h1]
  refine .step (.pop (n := (['P'], .rsl)) (by decide)) ?_
  have e1 : (wanted.toFinset.erase (['P'], FKind.rsl)) ∪
      (((graphDeps cus (['P'], .rsl)).toFinset \ insert (['P'], .rsl) ∅) ∩ (graphKeys cus).toFinset) =
      {(['P'], FKind.trlc)} := by
    ext n
    have h3 : n ∈ graphDeps cus (['P'], .rsl) → n = (['P'], FKind.rsl) ∨ n = (['P'], FKind.trlc) := fun h => by
      simpa [wanted] using h2 _ (by decide) n h
    simp only [Finset.mem_union, Finset.mem_erase, Finset.mem_inter, Finset.mem_sdiff, List.mem_toFinset,
      Finset.mem_insert, Finset.notMem_empty, or_false, Finset.mem_singleton, wanted, List.mem_cons, List.not_mem_nil]
    constructor
    · rintro (⟨ha, hb | hb⟩ | ⟨⟨ha, hb⟩, -⟩)
      · exact absurd hb ha
      · exact hb
      · rcases h3 ha with h | h
        · exact absurd h hb
        · exact h
    · rintro rfl
      exact .inl ⟨by decide, .inr rfl⟩
  rw [e1]
  refine .step (.pop (n := (['P'], .trlc)) (by decide)) ?_
  have e2 : (({(['P'], FKind.trlc)} : Finset PNode).erase (['P'], FKind.trlc)) ∪
      (((graphDeps cus (['P'], .trlc)).toFinset \ insert (['P'], .trlc) (insert (['P'], .rsl) ∅)) ∩
        (graphKeys cus).toFinset) = ∅ := by
    ext n
    have h3 : n ∈ graphDeps cus (['P'], .trlc) → n = (['P'], FKind.rsl) ∨ n = (['P'], FKind.trlc) := fun h => by
      simpa [wanted] using h2 _ (by decide) n h
    simp only [Finset.mem_union, Finset.mem_erase, Finset.mem_inter, Finset.mem_sdiff, List.mem_toFinset,
      Finset.mem_insert, Finset.notMem_empty, or_false, Finset.mem_singleton, iff_false]
    rintro (⟨ha, hb⟩ | ⟨⟨ha, hb⟩, -⟩)
    · exact ha hb
    · exact hb (h3 ha).symm
  rw [e2]
  have e3 : insert (['P'], FKind.trlc) (insert (['P'], FKind.rsl) ∅) = wanted.toFinset := by decide
  rw [e3]
  exact .refl _

/-- what loading gives, if there is no error -/
def load (fs : List Source) : Option (STab × List Loaded × PS) :=
  match loadAll globalTable fs s with
  | .ok (g, ls) s1 => if s1.errs = s.errs then some (g, ls, s1) else none
  | _ => none

theorem load_ok {fs : List Source} {g : STab} {ls : List Loaded} {s1 : PS} (h : load fs = some (g, ls, s1)) :
    loadAll globalTable fs s = .ok (g, ls) s1 ∧ s1.errs = s.errs := by
  unfold load at h
  split at h
  · next h1 =>
    split at h
    · next h2 => cases h; exact ⟨h1, h2⟩
    · cases h
  · cases h

/-- only `P` is wanted -/
def onlyP (cus : List CU) : Bool :=
  (decide ((graphRoots cus).toFinset = wanted.toFinset) &&
    wanted.all fun n => (graphDeps cus n).all fun d => decide (d ∈ wanted)) &&
  cus.all fun cu => cu.file.primary || cu.package != some ['P']

theorem onlyP_required {cus : List CU} (h : onlyP cus = true) : Required cus wanted.toFinset := by
  unfold onlyP at h
  simp only [Bool.and_eq_true, decide_eq_true_eq, List.all_eq_true] at h
  exact required_of h.1.1 h.1.2

/-- the identifiers of the file, also those in its markup strings -/
def tokens (f : Source) : List Token := f.nt.toList ++ f.rest.filterMap fun
  | .tok t => if t.kind = .COMMENT then none else some t
  | _ => none

/-- no name in the file looks like `k` -/
def silent (k : List Char) (f : Source) : Bool := (tokens f).all fun t =>
  (t.kind != .IDENTIFIER || simplifiedName t.text != k) &&
  (t.kind != .STRING || (markupTokens (nestedText (slice f.file.content t.startPos t.endPos))).all fun
    | .tok u => u.kind != .IDENTIFIER || simplifiedName u.text != k
    | _ => true)

theorem silent_word {k : List Char} {f : Source} (h : silent k f = true) {w : List Char} (hw : Word f w) :
    simplifiedName w ≠ k := by
  unfold silent at h
  rw [List.all_eq_true] at h
  have mem : ∀ {t}, FileToken f t → t ∈ tokens f := by
    rintro t (ht | ⟨ht, hk⟩)
    · exact List.mem_append_left _ (by rw [ht]; simp)
    · exact List.mem_append_right _ (List.mem_filterMap.2 ⟨_, ht, by simp [hk]⟩)
  cases hw with
  | name ht hk =>
    have := h _ (mem ht)
    simp only [Bool.and_eq_true, Bool.or_eq_true, bne_iff_ne, ne_eq] at this
    exact this.1.resolve_left (fun e => e hk)
  | markup ht hk hu hi =>
    have := h _ (mem ht)
    simp only [Bool.and_eq_true, Bool.or_eq_true, bne_iff_ne, ne_eq, List.all_eq_true] at this
    have := this.2.resolve_left (fun e => e hk) _ hu
    simp only [Bool.or_eq_true, bne_iff_ne, ne_eq] at this
    exact this.resolve_left (fun e => e hi)

theorem facts {e : SrcFile} {a a' : STab × List Loaded × PS} (h : load fs = some a) (h' : load (fs ++ extra e) = some a')
    (h1 : onlyP (a'.2.1.map (·.cu)) = true) (h2 : (extra e).all (fun f => !f.file.primary) = true) :
    Unneeded fs (extra e) := by
  obtain ⟨g', ls', s1'⟩ := a'
  obtain ⟨k', e'⟩ := load_ok h'
  have hR := onlyP_required h1
  have G := loadAll_good k' e'
  intro f hf
  have hpr : f.file.primary = false := by
    have := List.all_eq_true.1 h2 f hf
    simpa using this
  refine ⟨hpr, fun p hb hw => ?_⟩
  have hw := (C14_required_exact _ _ hR _).2
    ((project_wanted (loadAll_ok globalTable_pkgTab k') (projectLoaded G.2) G.1 _).2 hw)
  have hp : p = ['P'] := by
    rw [List.mem_toFinset] at hw
    unfold wanted at hw
    simp only [List.mem_cons, Prod.mk.injEq, List.not_mem_nil, or_false] at hw
    rcases hw with hw | hw
    · exact hw.1
    · exact hw.1
  subst hp
  obtain ⟨l, hl, q, is, hg⟩ := (projectLoaded G.2).all f (List.mem_append_right _ hf)
  cases belongs_unique hb ⟨is, hg.reads⟩
  unfold onlyP at h1
  simp only [Bool.and_eq_true, List.all_eq_true] at h1
  have := h1.2 l.cu (List.mem_map_of_mem hl)
  rw [hg.package, ((loadAll_ok globalTable_pkgTab k').same l hl).2.2, hg.file, hpr] at this
  simp at this

/-- the only new package -/
theorem not_mentioned {e : SrcFile} {a' : STab × List Loaded × PS} {n : List Char}
    (h' : load (fs ++ extra e) = some a') (h1 : fs.all (silent (simplifiedName n)) = true)
    (h2 : (a'.2.1.all fun l => l.cu.file.primary || l.cu.package == some n) = true)
    (h3 : (extra e).all (fun f => !f.file.primary) = true) : NotMentioned fs (extra e) := by
  obtain ⟨g', ls', s1'⟩ := a'
  obtain ⟨k', e'⟩ := load_ok h'
  have G := loadAll_good k' e'
  rintro f hf w hw p ⟨⟨f', hf', hb⟩, -⟩ ha
  obtain ⟨l, hl, q, is, hg⟩ := (projectLoaded G.2).all f' (List.mem_append_right _ hf')
  have := List.all_eq_true.1 h2 l hl
  have hpr : f'.file.primary = false := by
    have := List.all_eq_true.1 h3 f' hf'
    simpa using this
  rw [hg.package, ((loadAll_ok globalTable_pkgTab k').same l hl).2.2, hg.file, hpr] at this
  have hq : q = n := by simpa using this
  cases belongs_unique hb ⟨is, hg.reads⟩
  subst hq
  exact silent_word (List.all_eq_true.1 h1 f hf) hw ha

/-- everything that is to be checked about a run with the file `e`, in which package `n` is -/
def check (e : SrcFile) (n : List Char) : Bool :=
  match load fs, load (fs ++ extra e) with
  | some a, some a' => onlyP (a.2.1.map (·.cu)) && onlyP (a'.2.1.map (·.cu)) &&
      (extra e).all (fun f => !f.file.primary) && (a'.2.1.all fun l => l.cu.file.primary || l.cu.package == some n) &&
      decide ((fs ++ extra e).map (·.file.name)).Nodup && decide (extra e ≠ [] ∧ fs ≠ [])
  | _, _ => false

theorem check_ok {e : SrcFile} {n : List Char} (h : check e n = true) : ∃ g ls s1 g' ls' s1',
    loadAll globalTable fs s = .ok (g, ls) s1 ∧ s1.errs = s.errs ∧
    loadAll globalTable (fs ++ extra e) s = .ok (g', ls') s1' ∧ s1'.errs = s.errs ∧
    Required (ls.map (·.cu)) (required (ls.map (·.cu))) ∧ Required (ls'.map (·.cu)) (required (ls'.map (·.cu))) ∧
    Unneeded fs (extra e) ∧ ((fs ++ extra e).map (·.file.name)).Nodup ∧ extra e ≠ [] ∧
    (fs.all (silent (simplifiedName n)) = true → NotMentioned fs (extra e)) := by
  unfold check at h
  split at h
  · next a a' h1 h2 =>
    simp only [Bool.and_eq_true, decide_eq_true_eq] at h
    obtain ⟨⟨⟨⟨⟨k1, k2⟩, k3⟩, k4⟩, k5⟩, k6, -⟩ := h
    obtain ⟨g, ls, s1⟩ := a
    obtain ⟨g', ls', s1'⟩ := a'
    obtain ⟨l1, l2⟩ := load_ok h1
    obtain ⟨l3, l4⟩ := load_ok h2
    exact ⟨g, ls, s1, g', ls', s1', l1, l2, l3, l4, onlyP_required k1, onlyP_required k2, facts h1 h2 k2 k3, k5, k6,
      fun k => not_mentioned h2 k k4 k3⟩
  · cases h

set_option maxRecDepth 100000 in
theorem alike_ok : check alike "q".toList = true := by decide +kernel

set_option maxRecDepth 100000 in
theorem other_ok : check other "Other".toList = true := by decide +kernel

set_option maxRecDepth 100000 in
theorem without_alike : (process options RunSample.outside required fs s).out = .table := by decide +kernel

set_option maxRecDepth 100000 in
theorem with_alike : (process options RunSample.outside required (fs ++ extra alike) s).out = .none := by
  decide +kernel

/-- **C90 does not hold in full**: package `q` of an include directory is not needed, but nothing is accepted because
package `P` declares a type `Q`. -/
theorem C90_violated : ¬ C90_full := by
  intro hf
  obtain ⟨g, ls, s1, g', ls', s1', h1, h2, h3, h4, h5, h6, h7, h8, -, -⟩ := check_ok alike_ok
  have := (hf options RunSample.outside required fs (extra alike) s s1 s1' g g' ls ls' (RunSample.opened_blank _) rfl
    h8 h1 h2 h3 h4 h5 h6 h7).out
  rw [without_alike, with_alike] at this
  cases this

set_option maxRecDepth 100000 in
theorem other_silent : fs.all (silent (simplifiedName "Other".toList)) = true := by decide +kernel

/-- the hypotheses of `C90_partial` hold for the package `Other`; so it has no effect -/
example : extra other ≠ [] ∧ (process options RunSample.outside required (fs ++ extra other) s).out = .table := by
  obtain ⟨g, ls, s1, g', ls', s1', h1, h2, h3, h4, h5, h6, h7, h8, h9, h10⟩ := check_ok other_ok
  refine ⟨h9, ?_⟩
  rw [(C90_partial (s := s) (o := options) (X := RunSample.outside) (RunSample.opened_blank _) rfl h8 h1 h2 h3 h4 h5 h6 h7
    (h10 other_silent)).1.out]
  exact without_alike

end UnneededSample
end Verif.Props
