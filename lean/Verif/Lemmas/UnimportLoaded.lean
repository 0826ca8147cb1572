import Verif.Lemmas.UnimportRsl
import Verif.Lemmas.Process
import Verif.Lemmas.Registering
import Verif.Lemmas.Export
import Verif.Props.LexerWords
import Verif.Spec.Imports
/-!
# Files with one import less
-/
namespace Verif.Lemmas.Unimport
open Verif.Model Verif.Spec

/-! ## Values -/

theorem noRef_of {p : Nat} : ∀ v : PVal, ¬ RefersInto p v → NoRef p v
  | .inull, _ => .inull
  | .bool b, _ => .bool b
  | .int i, _ => .int i
  | .dec q, _ => .dec q
  | .str s, _ => .str s
  | .markup s refs, h => .markup s refs fun _ hr hp => h (.markup hr hp)
  | .enum t l, _ => .enum t l
  | .neg e, h => .neg e (noRef_of e fun hh => h (.neg hh))
  | .pos e, h => .pos e (noRef_of e fun hh => h (.pos hh))
  | .arr τ es, h => .arr τ es fun e he => noRef_of e fun hh => h (.arr he hh)
  | .tup t fs, h => .tup t fs fun f hf => noRef_of f.2 fun hh => h (.tup hf hh)
  | .ref τ q n, _ => .ref τ q n
termination_by v => sizeOf v
decreasing_by
  all_goals simp_wf
  all_goals try omega
  · have := List.sizeOf_lt_of_mem he
    omega
  · have := List.sizeOf_lt_of_mem hf
    have h2 : sizeOf f = 1 + sizeOf f.1 + sizeOf f.2 := by cases f; rfl
    omega

theorem mem_written {s : PS} {n0 : Nat} {v : PVal} :
    v ∈ s.written n0 ↔ ∃ f, ((∃ o ∈ s.objs, f ∈ o.fields) ∨ ∃ i ∈ s.infos, f ∈ i.frozen) ∧ n0 ≤ f.2.id ∧ f.2.val = v := by
  unfold PS.written
  simp only [List.mem_map, List.mem_filter, List.mem_append, List.mem_flatMap, decide_eq_true_eq, and_assoc]

theorem pure_of {K : Gone} {s : PS} (h : ∀ v ∈ s.written K.n0, NoRef K.p v) : Pure K s := by
  constructor
  · intro o n v hv hn
    unfold PS.field at hv
    refine h _ (mem_written.2 ?_)
    cases ho : s.objs[o]? with
    | none => simp [ho] at hv
    | some ob =>
      simp only [ho, Option.bind_some] at hv
      exact ⟨(n, v), .inl ⟨ob, List.mem_of_getElem? ho, lookup_mem hv⟩, hn, rfl⟩
  · intro i hi f hf hn
    exact h _ (mem_written.2 ⟨f, .inr ⟨i, hi, hf⟩, hn, rfl⟩)

theorem noRef_written {p : Nat} {vals : List PVal} (h1 : markupRef p vals = false)
    (h2 : ∀ v ∈ vals, ¬ RefersInside p v) : ∀ v ∈ vals, NoRef p v := by
  intro v hv
  refine noRef_of v fun hr => ?_
  by_cases hm : ∃ s refs, v = .markup s refs
  · obtain ⟨s, refs, rfl⟩ := hm
    cases hr with
    | markup hr hp =>
      unfold markupRef at h1
      rw [List.any_eq_false] at h1
      refine h1 _ hv ?_
      simp only [PVal.linkedRefs, List.any_eq_true, beq_iff_eq]
      exact ⟨_, hr, hp⟩
  · exact h2 v hv ⟨hr, fun s refs e => hm ⟨s, refs, e⟩⟩

/-! ## Markup strings -/

/-- one import less -/
structure MEnvs (p : Nat) (E E' : MEnv) : Prop where
  global : E'.global = E.global
  pkg : E'.pkg = E.pkg
  resolved : E'.resolved = E.resolved
  imports : ∀ q, q ≠ p → E'.imports.contains q = E.imports.contains q

/-- References are only added; and if none is to the package, the other run is the same. -/
def MRel (p : Nat) (s : MS) (x x' : MR) : Prop :=
  ∀ s1, x = .ok s1 → (∀ r ∈ s.refs, r ∈ s1.refs) ∧ ((∀ r ∈ s1.refs, r.pkg ≠ p) → x' = .ok s1)

theorem MRel.bind {p : Nat} {s : MS} {x x' : MR} {f f' : MS → MR} (h : MRel p s x x')
    (hf : ∀ s1, MRel p s1 (f s1) (f' s1)) : MRel p s (x.bind f) (x'.bind f') := by
  intro s2 h2
  cases x with
  | ok s1 =>
    obtain ⟨a1, a2⟩ := h s1 rfl
    obtain ⟨b1, b2⟩ := hf s1 s2 h2
    refine ⟨fun r hr => b1 r (a1 r hr), fun hh => ?_⟩
    rw [a2 (fun r hr => hh r (b1 r hr))]
    exact b2 hh
  | error => cases h2
  | crash => cases h2

theorem MRel.ok {p : Nat} {s : MS} : MRel p s (.ok s) (.ok s) := by
  intro s1 h; cases h; exact ⟨fun _ h => h, fun _ => rfl⟩

theorem MRel.fail {p : Nat} {s : MS} {x : MR} : MRel p s .error x := by intro s1 h; cases h
theorem MRel.crash {p : Nat} {s : MS} {x : MR} : MRel p s .crash x := by intro s1 h; cases h

theorem advance_mrel {p : Nat} {s : MS} : MRel p s s.advance s.advance := by
  intro s1 h
  refine ⟨?_, fun _ => h⟩
  unfold MS.advance at h
  split at h
  · cases h; exact fun _ h => h
  · cases h; exact fun _ h => h
  · cases h; exact fun _ h => h
  · cases h

theorem match_mrel {p : Nat} {s : MS} {k : MKind} : MRel p s (s.match k) (s.match k) := by
  unfold MS.match
  split
  · exact advance_mrel
  · exact MRel.fail

theorem add_mrel {p q : Nat} {s : MS} : MRel p s (s.add q) (s.add q) := by
  intro s1 h
  refine ⟨?_, fun _ => h⟩
  cases h
  exact fun r hr => List.mem_append_left _ hr

section
variable {p : Nat} {E E' : MEnv} (hE : MEnvs p E E')
include hE

theorem qualifiedName_mrel {s : MS} : MRel p s (s.qualifiedName E) (s.qualifiedName E') := by
  unfold MS.qualifiedName
  refine match_mrel.bind fun s => ?_
  split
  · rw [hE.global]
    split
    · exact MRel.fail
    · next e _ =>
      rw [hE.resolved]
      split
      · exact MRel.crash
      · split
        · next hv =>
          intro s1 h
          refine ⟨?_, fun hh => ?_⟩
          · exact ((match_mrel.bind fun s => match_mrel.bind fun s => add_mrel : MRel p s _ _) s1 h).1
          · have hp : e.id ≠ p := by
              cases h1 : s.match .DOT with
              | error => rw [h1] at h; cases h
              | crash => rw [h1] at h; cases h
              | ok s2 =>
                rw [h1] at h
                change (s2.match .IDENTIFIER).bind _ = _ at h
                cases h2 : s2.match .IDENTIFIER with
                | error => rw [h2] at h; cases h
                | crash => rw [h2] at h; cases h
                | ok s3 =>
                  rw [h2] at h
                  change s3.add _ = _ at h
                  cases h
                  exact hh ⟨e.id, s3.value⟩ (List.mem_append_right _ (List.mem_singleton.2 rfl))
            have : (e.id == E'.pkg || E'.imports.contains e.id) = true := by
              rw [hE.pkg, hE.imports _ hp]; exact hv
            rw [if_pos this]
            exact h
        · exact MRel.fail
  · rw [hE.pkg]; exact add_mrel

theorem names_mrel (k : Nat) : ∀ s : MS, MRel p s (s.names E k) (s.names E' k) := by
  induction k with
  | zero => intro s; exact MRel.crash
  | succ k ih =>
    intro s
    unfold MS.names
    split
    · exact match_mrel.bind fun s => (qualifiedName_mrel hE).bind fun s => ih s
    · exact MRel.ok

theorem refList_mrel {s : MS} : MRel p s (s.refList E) (s.refList E') := by
  unfold MS.refList
  exact match_mrel.bind fun s => (qualifiedName_mrel hE).bind fun s => (names_mrel hE _ s).bind fun s => match_mrel

theorem all_mrel (k : Nat) : ∀ s : MS, MRel p s (s.all E k) (s.all E' k) := by
  induction k with
  | zero => intro s; exact MRel.crash
  | succ k ih =>
    intro s
    unfold MS.all
    split
    · refine MRel.bind ?_ fun s => ih s
      split
      · exact advance_mrel
      · exact refList_mrel hE
    · exact MRel.ok

theorem markupParser_less {content : List Char} {t : Token} {refs : List MRef}
    (h : markupParser E content t = .ok refs) (hr : ∀ r ∈ refs, r.pkg ≠ p) :
    markupParser E' content t = .ok refs := by
  unfold markupParser parseMarkupText at h ⊢
  dsimp only at h ⊢
  split at h
  · next s hs =>
    cases h
    have := (advance_mrel.bind fun s => all_mrel hE _ s) s hs
    rw [this.2 hr]
  · cases h
  · cases h

end

/-! ## Tables -/

theorem namesPkg_global {g : STab} (ht : PkgTab g) {p : Nat} {nm : List Char} (h : PkgNamed g p nm) :
    NamesPkg p nm g := by
  intro c hc f hf x hx h1 h2
  rw [ht.glob.imported, ht.glob.parents] at hc
  rcases List.mem_singleton.1 hc with rfl
  rcases List.mem_singleton.1 hf with rfl
  exact pkgNamed_unique ht ⟨x.1, x.2, hx, h1, h2, rfl⟩ h

theorem namesPkg_importing {g : STab} {p : Nat} {nm : List Char} (h : NamesPkg p nm g) :
    NamesPkg p nm (STab.importing g) := by
  intro c hc f hf x hx
  simp only [STab.importing, List.mem_cons, List.not_mem_nil, or_false] at hc
  rcases hc with rfl | rfl
  · rcases List.mem_singleton.1 hf with rfl
    cases hx
  · exact h _ (List.mem_cons_self ..) f hf x hx

theorem pkgNumber_named {g : STab} (ht : PkgTab g) {p : Nat} {nm : List Char} (h : pkgNumber g nm = some p) :
    PkgNamed g p nm := by
  unfold pkgNumber at h
  split at h
  · next e he =>
    cases h
    unfold STab.lookup STab.lookupDirect at he
    split at he
    · next rv hf =>
      split at he
      · cases he
      · next hs =>
        split at he
        · cases he
        · next hsub =>
          cases he
          unfold STab.find at hf
          obtain ⟨c, hc, hg⟩ := List.exists_of_findSome?_eq_some hf
          obtain ⟨f, hf', x, hx, rfl⟩ := chainGet_mem hg
          rw [ht.glob.imported, ht.glob.parents] at hc
          rcases List.mem_singleton.1 hc with rfl
          rcases List.mem_singleton.1 hf' with rfl
          simp only [Bool.not_false, Bool.true_and, decide_eq_true_eq, ne_eq, Classical.not_not] at hs
          simp [isPackage] at hsub
          exact ⟨x.1, x.2, hx, hsub, rfl, hs⟩
    · cases he
  · cases h

/-! ## The parser of a file -/

theorem envs_without {g : STab} (ht : PkgTab g) {rec : Bool} {l : Loaded} {nm : List Char} {p n0 lo : Nat}
    (h : pkgNumber g nm = some p) :
    Envs ⟨p, nm, n0, lo, true⟩ (l.openFile g rec).env ((without l nm).openFile g rec).env := by
  have imps : ∀ q, q ≠ p → ((without l nm).openFile g rec).env.imports.contains q =
      (l.openFile g rec).env.imports.contains q := by
    intro q hq
    rw [Bool.eq_iff_iff, List.contains_iff_mem, List.contains_iff_mem]
    show q ∈ (((l.cu.imports.map fun is => is.filter (· ≠ nm)).getD []).filterMap (pkgNumber g)) ↔
      q ∈ (l.cu.imports.getD []).filterMap (pkgNumber g)
    cases l.cu.imports with
    | none => rfl
    | some is =>
      simp only [Option.map_some, Option.getD_some, List.mem_filterMap, List.mem_filter, decide_eq_true_eq]
      constructor
      · rintro ⟨n, ⟨h1, -⟩, h2⟩; exact ⟨n, h1, h2⟩
      · rintro ⟨n, h1, h2⟩
        refine ⟨n, ⟨h1, ?_⟩, h2⟩
        rintro rfl
        rw [h] at h2
        exact hq (Option.some.inj h2).symm
  have res : ((without l nm).openFile g rec).env.resolved = (l.openFile g rec).env.resolved := by
    show (l.cu.imports.map _).isSome = l.cu.imports.isSome
    cases l.cu.imports <;> rfl
  refine ⟨rfl, rfl, rfl, res, fun q hq => ?_, fun t refs hm hr => ?_, namesPkg_global ht (pkgNumber_named ht h)⟩
  · unfold FileEnv.isVisible
    rw [res, imps q (hq rfl)]
    rfl
  · exact markupParser_less (E := ⟨g, l.pid, (l.openFile g rec).env.imports, (l.openFile g rec).env.resolved⟩)
      (E' := ⟨g, l.pid, ((without l nm).openFile g rec).env.imports, ((without l nm).openFile g rec).env.resolved⟩)
      ⟨rfl, rfl, res, imps⟩ hm hr

theorem envs_self {K : Gone} {E : FileEnv} (h : NamesPkg K.p K.nm E.global) : Envs K E E :=
  ⟨rfl, rfl, rfl, rfl, fun _ _ => rfl, fun _ _ h _ => h, h⟩

theorem tryFile_true {x : P Bool} {s s' : PS} (h : P.tryCatch x (pure false) s = .ok true s') : x s = .ok true s' := by
  unfold P.tryCatch at h
  split at h
  · next h1 => rw [h1]; exact h
  · cases h
  · cases h

theorem tryFile_run {x : P Bool} {s s' : PS} (h : x s = .ok true s') : P.tryCatch x (pure false) s = .ok true s' := by
  unfold P.tryCatch
  rw [h]

/-- What holds between files, of the package that is in question -/
def Between (p : Nat) (nm : List Char) (s : PS) : Prop :=
  (∀ T ∈ s.tabs, NamesPkg p nm T) ∧ (∀ cs ∈ s.decls.tups, (cs.map (·.name)).Nodup) ∧
    s.decls.recs.length ≤ s.infos.length

theorem Between.enter {p : Nat} {nm : List Char} {s : PS} (h : Between p nm s) (f : OpenFile) :
    Inv ⟨p, nm, 0, 0, false⟩ (s.enter f) :=
  ⟨fun _ _ hh => (by cases hh), fun _ _ hh => (by cases hh), h.1, h.2.1, Nat.zero_le _, h.2.2, Nat.zero_le _⟩

theorem Inv.between {K : Gone} {s : PS} (h : Inv K s) : Between K.p K.nm s := ⟨h.tabs, h.once, h.len⟩

theorem reached_between {rx : Regex} {g : STab} {s0 s : PS} {p : Nat} {nm : List Char} (hg : NamesPkg p nm g)
    (h0 : Between p nm s0) (h : Reached rx g s0 s) : Between p nm s := by
  induction h with
  | start => exact h0
  | rsl _ hf hr ih =>
    subst hf
    obtain ⟨_, _, h1, h2⟩ := bind_ok hr
    cases h1
    exact (parseRslFile_rel (envs_self hg) (ih.enter _) (tryFile_true h2)).1.between
  | trlc _ hf hr ih =>
    subst hf
    obtain ⟨_, _, h1, h2⟩ := bind_ok hr
    cases h1
    exact (parseTrlcFile_rel (envs_self hg) (ih.enter _) (tryFile_true h2)).1.between

theorem start_between {g : STab} {s : PS} {p : Nat} {nm : List Char} (hg : NamesPkg p nm g)
    (h : Blank s) : Between p nm (s.withPackages g) := by
  refine ⟨fun T hT => ?_, fun cs hcs => ?_, ?_⟩
  · rw [List.eq_of_mem_replicate hT]
    exact namesPkg_importing hg
  · change cs ∈ s.decls.tups at hcs
    rw [h.decls] at hcs
    cases hcs
  · show s.decls.recs.length ≤ _
    rw [h.decls]
    exact Nat.zero_le _

/-! ## Tokens -/

theorem tokensOf_sub (n : Nat) (st : LexState) : (tokensOf (lexStream n st)).Sublist (tokensUpTo n st).1 := by
  induction n generalizing st with
  | zero => exact .slnil
  | succ n ih =>
    unfold lexStream tokensUpTo
    split
    · next t st' ht =>
      rw [ht]
      unfold tokensOf
      split
      · exact (ih st').cons _
      · exact (ih st').cons_cons _
    all_goals exact List.nil_sublist _

theorem import_token {ts : List Token} {is : List (List Char)} {nm : List Char} (h : ImportsText ts is)
    (hm : nm ∈ is) : ∃ t ∈ ts, t.kind = .IDENTIFIER ∧ t.text = nm := by
  induction h with
  | nil => cases hm
  | cons _ hk _ ih =>
    rcases List.mem_cons.1 hm with rfl | hm
    · exact ⟨_, by simp, hk, rfl⟩
    · obtain ⟨t, h1, h2⟩ := ih hm
      exact ⟨t, by simp [h1], h2⟩

theorem addImports_sub {own : List Char} (is : List (List Char)) : ∀ raw, ∀ i ∈ (addImports own raw is).1, i ∈ raw ∨ i ∈ is := by
  induction is with
  | nil => intro raw i hi; exact .inl hi
  | cons j is ih =>
    intro raw i hi
    unfold addImports at hi
    split at hi
    · exact .inl hi
    · split at hi
      · rcases ih _ i hi with h | h
        · exact .inl h
        · exact .inr (List.mem_cons_of_mem _ h)
      · rcases ih _ i hi with h | h
        · rcases List.mem_append.1 h with h | h
          · exact .inl h
          · exact .inr (by rw [List.mem_singleton.1 h]; exact List.mem_cons_self ..)
        · exact .inr (List.mem_cons_of_mem _ h)

/-- the imports are those that are written -/
def ImportsRead (cu : CU) : Prop :=
  (∀ i ∈ cu.raw, ∃ p is b, cu.file.pre = .pkg p is b ∧ i ∈ is) ∧ ∀ is, cu.imports = some is → ∀ i ∈ is, i ∈ cu.raw

theorem parsePreamble_read (g : STab) (f : FileIn) : ImportsRead (parsePreamble g f).2 := by
  have none : ImportsRead ⟨f, none, [], none, true⟩ := ⟨fun i hi => (by cases hi), fun is h => (by cases h)⟩
  unfold parsePreamble
  split
  · exact none
  · next p imps broken hp =>
    have some : ∀ b, ImportsRead ⟨f, some p, (addImports p [] imps).1, Option.none, b⟩ := by
      refine fun b => ⟨fun i hi => ?_, fun is h => by cases h⟩
      rcases addImports_sub _ _ i hi with h | h
      · cases h
      · exact ⟨p, imps, broken, hp, h⟩
    dsimp only
    split
    · split
      · exact some _
      · exact none
    · split
      · exact some _
      · exact none

theorem parsePreambles_read (fs : List FileIn) : ∀ g : STab, ∀ cu ∈ (parsePreambles g fs).2, ImportsRead cu := by
  induction fs with
  | nil => intro g cu h; cases h
  | cons f fs ih =>
    intro g cu h
    unfold parsePreambles at h
    rcases List.mem_cons.1 h with rfl | h
    · exact parsePreamble_read g f
    · exact ih _ cu h

theorem resolveImports_read {g : STab} {cu : CU} (h : ImportsRead cu) : ImportsRead (resolveImports g cu) := by
  unfold resolveImports
  split
  · exact h
  · refine ⟨h.1, fun is hi i hm => ?_⟩
    cases hi
    exact (List.mem_filter.1 hm).1

theorem buildCUs_read {g : STab} {fs : List FileIn} : ∀ cu ∈ (buildCUs g fs).2, ImportsRead cu := by
  intro cu h
  unfold buildCUs at h
  dsimp only at h
  rcases List.mem_append.1 h with h | h
  · obtain ⟨c, hc, rfl⟩ := List.mem_map.1 h
    exact resolveImports_read (parsePreambles_read _ _ c hc)
  · obtain ⟨c, hc, rfl⟩ := List.mem_map.1 h
    exact resolveImports_read (parsePreambles_read _ _ c hc)

/-- If an import is said to be unused, then no further token is the name, and the markup strings do
not refer to the package. -/
theorem unused_facts {g g' : STab} {fs : List Source} {s s' s3 : PS} {ls : List Loaded} {l : Loaded} {nm : List Char} {n0 : Nat}
    (ht : PkgTab g) (hs : ∀ x ∈ fs, AtStart x) (hl : loadAll g fs s = .ok (g', ls) s') (hm : l ∈ ls)
    (he : l.cu.err = false) (hu : nm ∈ (l.lintFile g' n0 s3).unused) :
    ∃ p, pkgNumber g' nm = some p ∧ markupRef p (s3.written n0) = false ∧
      ∀ t ∈ sourceWords l.src, t.text ≠ nm := by
  have P := loadAll_ok ht hl
  obtain ⟨⟨nm', p⟩, hi, rfl⟩ := List.mem_map.1 hu
  obtain ⟨hi, huse⟩ := List.mem_filter.1 hi
  simp only [decide_eq_true_eq] at huse
  obtain ⟨n, hn, hp⟩ := List.mem_filterMap.1 hi
  obtain ⟨q, hq, hq2⟩ := Option.map_eq_some_iff.1 hp
  cases hq2
  dsimp only
  have himp : ImportsRead l.cu := by
    have := buildCUs_read (g := g) (fs := ls.map (·.cu.file)) l.cu
    rw [P.agree] at this
    exact this (List.mem_map_of_mem hm)
  cases him : l.cu.imports with
  | none => rw [him] at hn; cases hn
  | some is0 =>
    rw [him] at hn
    obtain ⟨p1, is1, b1, hpre, hin⟩ := himp.1 _ (himp.2 is0 him nm' hn)
    obtain ⟨src, hsrc, htext⟩ : ∃ src ∈ fs, FileText src l := by
      have : ∀ {xs : List Source} {ys : List Loaded}, List.Forall₂ FileText xs ys → l ∈ ys → ∃ x ∈ xs, FileText x l := by
        intro xs ys h
        induction h with
        | nil => intro h; cases h
        | cons h1 _ ih =>
          intro hy
          rcases List.mem_cons.1 hy with rfl | hy
          · exact ⟨_, List.mem_cons_self .., h1⟩
          · obtain ⟨x, hx, h2⟩ := ih hy
            exact ⟨x, List.mem_cons_of_mem _ hx, h2⟩
      obtain ⟨x, hx, h2⟩ := this P.text hm
      refine ⟨x, ?_, h2⟩
      rcases List.mem_append.1 hx with hx | hx
      · exact (List.mem_filter.1 (sortSources_mem.1 hx)).1
      · exact (List.mem_filter.1 (sortSources_mem.1 hx)).1
    obtain ⟨p2, is2, ts, -, hpre2, hw, k, t0, ts', hts, -, -, -, hits⟩ := htext.2 he
    rw [hpre] at hpre2
    cases hpre2
    obtain ⟨t, htm, htk, rfl⟩ := import_token hits hin
    have hst := hs src hsrc
    unfold AtStart at hst
    have hsub := tokensOf_sub (src.file.content.length + 1) (LexState.init src.file.content)
    rw [← hst, hw, hts, ← htext.1] at hsub
    change List.Sublist _ (lexAll l.src.file.content).1 at hsub
    have hval : t.value = .str t.text ∧ t.text ≠ [] := by
      have hmem : t ∈ (lexAll l.src.file.content).1 := hsub.subset (by simp [htm])
      obtain ⟨hw, hv, -⟩ := (Props.C04_words _ t hmem _ rfl).2 (.inl htk)
      have : t.text = (l.src.file.content.drop t.startPos).take (t.endPos + 1 - t.startPos) := by
        unfold Token.text; rw [hv]
      rw [this]
      exact ⟨hv, by obtain ⟨c, cs, h, -⟩ := hw; rw [h]; simp⟩
    unfold LintFile.uses at huse
    change ((lexAll l.src.file.content).1.filter fun u => decide (u.value = .str t.text)).length +
      (if markupRef p (s3.written n0) = true then 1 else 0) = 1 at huse
    have hfs := hsub.filter (fun u => decide (u.value = .str t.text))
    have hlen := hfs.length_le
    have h1 : 1 ≤ (ts'.filter fun u => decide (u.value = .str t.text)).length :=
      List.length_pos_of_mem (List.mem_filter.2 ⟨htm, by simp [hval.1]⟩)
    simp only [List.cons_append, List.filter_append, List.length_append] at hlen
    have h2 : (ts'.filter fun u => decide (u.value = .str t.text)).length +
        ((sourceWords l.src).filter fun u => decide (u.value = .str t.text)).length ≤
        ((lexAll l.src.file.content).1.filter fun u => decide (u.value = .str t.text)).length := by
      have hsub' : (ts' ++ sourceWords l.src).Sublist (lexAll l.src.file.content).1 :=
        (((List.Sublist.refl _).cons t0).cons k).trans hsub
      have := (hsub'.filter (fun u => decide (u.value = .str t.text))).length_le
      rwa [List.filter_append, List.length_append] at this
    refine ⟨p, hq, ?_, fun u hu hut => ?_⟩
    · cases hmr : markupRef p (s3.written n0) with
      | false => rfl
      | true => rw [hmr, if_pos rfl] at huse; omega
    · have : u.value = .str t.text := by
        cases huv : u.value with
        | str v => unfold Token.text at hut; rw [huv] at hut; unfold Token.text; rw [← hut]
        | _ => unfold Token.text at hut; rw [huv] at hut; exact absurd hut.symm hval.2
      have : 1 ≤ ((sourceWords l.src).filter fun u => decide (u.value = .str t.text)).length :=
        List.length_pos_of_mem (List.mem_filter.2 ⟨hu, by simp [this]⟩)
      omega

end Verif.Lemmas.Unimport
