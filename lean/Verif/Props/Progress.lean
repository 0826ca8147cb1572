import Verif.Model.Progress
import Verif.Props.ProjectRun
import Verif.Props.Registration
import Verif.Props.RunSamples
/-!
# C88: the notifications of a run
-/
namespace Verif.Props
open Verif.Model Verif.Spec Verif.Lemmas

variable {o : Options} {X : Outside} {required : List CU → Finset PNode} {fs : List Source} {s : PS}

theorem signalsOf_rsl {rx : Regex} : ∀ {files : List OpenFile} {s s' : PS}, runRslFiles rx files s = .ok true s' →
    signalsOf (fun f => parseRslFile f.env rx) files s = files.length
  | [], _, _, _ => rfl
  | f :: fs, s, s', h => by
    unfold runRslFiles at h
    rw [bind_apply] at h
    rw [show runRslFile rx f s = P.tryCatch (parseRslFile f.env rx) (pure false) (s.enter f) from rfl] at h
    unfold P.tryCatch at h
    unfold signalsOf
    cases hp : parseRslFile f.env rx (s.enter f) with
    | crash c t => rw [hp] at h; cases h
    | err t =>
      rw [hp] at h
      have h : (runRslFiles rx fs >>= fun b => pure (false && b)) t = .ok true s' := h
      rw [bind_apply] at h
      cases hr : runRslFiles rx fs t with
      | ok b u => rw [hr] at h; cases h
      | err u => rw [hr] at h; cases h
      | crash c u => rw [hr] at h; cases h
    | ok a t =>
      rw [hp] at h
      dsimp only at h
      rw [bind_apply] at h
      cases hr : runRslFiles rx fs t with
      | err u => rw [hr] at h; cases h
      | crash c u => rw [hr] at h; cases h
      | ok b u =>
        rw [hr] at h
        cases b with
        | false => cases a <;> cases h
        | true =>
          dsimp only
          rw [signalsOf_rsl hr]
          rfl

theorem signalsOf_trlc : ∀ {files : List OpenFile} {s s' : PS}, runTrlcFiles files s = .ok true s' →
    signalsOf (fun f => parseTrlcFile f.env) files s = files.length
  | [], _, _, _ => rfl
  | f :: fs, s, s', h => by
    unfold runTrlcFiles at h
    rw [bind_apply] at h
    rw [show runTrlcFile f s = P.tryCatch (parseTrlcFile f.env) (pure false) (s.enter f) from rfl] at h
    unfold P.tryCatch at h
    unfold signalsOf
    cases hp : parseTrlcFile f.env (s.enter f) with
    | crash c t => rw [hp] at h; cases h
    | err t =>
      rw [hp] at h
      have h : (runTrlcFiles fs >>= fun b => pure (false && b)) t = .ok true s' := h
      rw [bind_apply] at h
      cases hr : runTrlcFiles fs t with
      | ok b u => rw [hr] at h; cases h
      | err u => rw [hr] at h; cases h
      | crash c u => rw [hr] at h; cases h
    | ok a t =>
      rw [hp] at h
      dsimp only at h
      rw [bind_apply] at h
      cases hr : runTrlcFiles fs t with
      | err u => rw [hr] at h; cases h
      | crash c u => rw [hr] at h; cases h
      | ok b u =>
        rw [hr] at h
        cases b with
        | false => cases a <;> cases h
        | true =>
          dsimp only
          rw [signalsOf_trlc hr]
          rfl

theorem signalsOf_le {parse : OpenFile → P Bool} : ∀ (files : List OpenFile) (s : PS), signalsOf parse files s ≤ files.length
  | [], _ => Nat.le_refl _
  | f :: fs, s => by
    unfold signalsOf
    cases parse f (s.enter f) with
    | ok a t => have := signalsOf_le (parse := parse) fs t; simp; omega
    | err t => have := signalsOf_le (parse := parse) fs t; simp; omega
    | crash c t => simp

/-- **C88** in every run the notifications are: the beginning, percentages that never decrease and are at most 100,
and the end, unless there is an internal exception. -/
theorem C88_order : ∃ ps : List Nat, ps.Pairwise (· ≤ ·) ∧ (∀ p ∈ ps, p ≤ 100) ∧
    ((∃ c, (process o X required fs s).out = .crash c) → callbacks o X required fs s = .begin :: ps.map .progress) ∧
    ((∀ c, (process o X required fs s).out ≠ .crash c) →
      callbacks o X required fs s = .begin :: ps.map .progress ++ [.finished]) := by
  refine ⟨percentages o X required fs s, ?_, ?_, ?_, ?_⟩
  · unfold percentages
    split
    · exact (C41_progress _ _).2.1
    · exact .nil
  · unfold percentages
    split
    · exact (C41_progress _ _).1
    · simp
  · rintro ⟨c, h⟩
    unfold callbacks
    rw [h, List.append_nil]
  · intro h
    unfold callbacks
    split
    · next c hc => exact absurd hc (h c)
    · rfl

theorem progressSignals_eq (n : Nat) : ∀ k cur, cur + k ≤ n →
    progressSignals n k cur = (List.range k).map fun i => (cur + i + 1) * 100 / n
  | 0, _, _ => rfl
  | k + 1, cur, h => by
    have hle : (cur + 1) * 100 / n ≤ 100 := Nat.div_le_of_le_mul (Nat.mul_le_mul_right 100 (by omega))
    unfold progressSignals
    rw [progressSignals_eq n k (cur + 1) (by omega), List.range_succ_eq_map, List.map_cons, List.map_map,
      if_neg (by omega), Nat.min_eq_left hle]
    refine congrArg₂ List.cons rfl (List.map_congr_left fun i _ => ?_)
    show (cur + 1 + i + 1) * 100 / n = (cur + (i + 1) + 1) * 100 / n
    rw [show cur + 1 + i + 1 = cur + (i + 1) + 1 by omega]

theorem analyse_signals {g : STab} {R : Finset PNode} {ls : List Loaded} {ok : Bool} {s2 : PS}
    (h : (analyse o X g R ls ok s).out = .table) (h1 : runRsl g o.recover X.rx R ls s = .ok true s2) (hok : ok = true) :
    runSignals o X g R ls ok s =
      signalsOf (fun f => parseRslFile f.env X.rx) ((rslFiles R ls).map (·.openFile g o.recover)) s +
      if o.parseTrlc then
        signalsOf (fun f => parseTrlcFile f.env) ((trlcFiles R ls).map (·.openFile g o.recover)) s2 else 0 := by
  subst hok
  unfold analyse at h
  unfold runSignals
  rw [h1] at h ⊢
  dsimp only at h ⊢
  rw [if_neg (by simp)] at h ⊢
  have hl : ¬ (if o.lint && (true && true) then (X.lint g s2).out else some true).isNone := by
    intro hn
    split at h
    · cases h
    · next b hb =>
      split at hn
      · next hc => rw [if_pos hc] at hb; rw [hb] at hn; cases hn
      · cases hn
  rw [if_neg hl]
  cases o.parseTrlc <;> simp

/-- The number of rsl files that are parsed -/
theorem rsl_count {g : STab} {ls : List Loaded} {s1 : PS} (k : Prepared globalTable fs s g ls s1) (he : ∀ l ∈ ls, l.cu.err = false)
    {rl : List Loaded} (hn : rl.Nodup) (q : Loaded → Bool) (hm : ∀ l, l ∈ rl ↔ l ∈ ls ∧ l.cu.file.kind = .rsl ∧ q l = true) :
    ls.countP (fun l => q l && decide (l.cu.file.kind = .rsl)) = rl.length := by
  rw [List.countP_eq_length_filter]
  refine List.Perm.length_eq ((List.perm_ext_iff_of_nodup ?_ hn).2 ?_)
  · have h1 := C14_declared_once globalTable globalTable_built (ls.map (·.cu.file))
    rw [k.agree] at h1
    dsimp only at h1
    have e : (List.map (fun x => x.cu) ls).filter (fun x => decide (x.file.kind = .rsl)) =
        (ls.filter (fun l => decide (l.cu.file.kind = .rsl))).map (·.cu) := by
      rw [List.filter_map]; rfl
    rw [e, List.filterMap_map, List.pairwise_filterMap] at h1
    have h2 : (ls.filter (fun l => decide (l.cu.file.kind = .rsl))).Nodup := by
      refine List.Pairwise.imp_of_mem ?_ h1
      rintro a b ha hb hab rfl
      have hl := (List.mem_filter.1 ha).1
      obtain ⟨p, hp⟩ := Option.ne_none_iff_exists'.1 (k.pkg a hl (he a hl))
      exact hab p hp p hp rfl
    refine h2.sublist ?_
    refine List.monotone_filter_right _ ?_
    intro l hl
    simp only [Bool.and_eq_true] at hl
    exact hl.2
  · intro l
    rw [hm, List.mem_filter]
    simp only [Bool.and_eq_true, decide_eq_true_eq]
    tauto

/-- **C88** if a run succeeds, each file of a part of a package that is wanted is reported once; with `n` such files
the percentages are those of `1/n`, `2/n`, …, so that 100 is reported after the last file and not before. -/
theorem C88_success (hR : ∀ cus, Required cus (required cus)) (hk : o.parseTrlc = false → ∀ f ∈ fs, f.file.kind = .rsl)
    (h : (process o X required fs s).out = .table) :
    ∃ ls : List Loaded, ∃ rl tl : List Loaded, FilesRead fs ls ∧ rl.Nodup ∧
      (∀ l, l ∈ rl ↔ l ∈ ls ∧ l.src.file.kind = .rsl ∧ ∃ p, l.cu.package = some p ∧ Wanted (ls.map (·.cu)) (p, .rsl)) ∧
      tl.Sublist ls ∧
      (∀ l ∈ ls, l ∈ tl ↔ l.src.file.kind = .trlc ∧ ∃ p, l.cu.package = some p ∧ Wanted (ls.map (·.cu)) (p, .trlc)) ∧
      callbacks o X required fs s = .begin ::
        ((List.range (rl.length + tl.length)).map fun i => .progress ((i + 1) * 100 / (rl.length + tl.length))) ++
        [.finished] := by
  have h0 := h
  unfold process at h0
  cases hload : loadAll globalTable fs s with
  | err t => rw [hload] at h0; cases h0
  | crash c t => rw [hload] at h0; cases h0
  | ok gl s1 =>
  obtain ⟨g, ls⟩ := gl
  rw [hload] at h0
  dsimp only at h0
  obtain ⟨k1, s2, k2, k3, -⟩ := analyse_table h0
  have kb := loadAll_ok globalTable_pkgTab hload
  have ke : ∀ l ∈ ls, l.cu.err = false := fun l hl => by simpa using List.all_eq_true.1 k1 l hl
  have hs := analyse_signals h0 k2 k1
  have hrun := k2
  unfold runRsl at hrun
  rw [bind_apply] at hrun
  cases hx : runRslFiles X.rx ((rslFiles (required (ls.map (·.cu))) ls).map (·.openFile g o.recover))
      (s1.withPackages g) with
  | err s3 => rw [hx] at hrun; cases hrun
  | crash c s3 => rw [hx] at hrun; cases hrun
  | ok b s3 =>
    rw [hx] at hrun
    dsimp only at hrun
    split at hrun
    · cases hrun
    · next hc =>
      cases hrun
      obtain ⟨p1, p2, -⟩ := prepared_rsl (R := required (ls.map (·.cu))) kb ke (hR _) (by simpa using hc)
      have p3 := prepared_trlc (R := required (ls.map (·.cu))) kb ke (hR _)
      have hsub : (trlcFiles (required (ls.map (·.cu))) ls).Sublist ls := List.filter_sublist
      have hreq := fun n => C14_required_exact (ls.map (·.cu)) _ (hR _) n
      have htc : ls.countP (fun l => (match l.cu.package with
          | some p => decide ((p, l.cu.file.kind) ∈ required (ls.map (·.cu)))
          | none => false) && !decide (l.cu.file.kind = .rsl)) = (trlcFiles (required (ls.map (·.cu))) ls).length := by
        unfold trlcFiles
        rw [List.countP_eq_length_filter]
        congr 1
        refine List.filter_congr fun l hl => ?_
        have p3' := p3 l hl
        unfold trlcFiles at p3'
        rw [List.mem_filter, and_iff_right hl] at p3'
        rw [Bool.eq_iff_iff, p3']
        obtain ⟨p, hp⟩ := Option.ne_none_iff_exists'.1 (kb.pkg l hl (ke l hl))
        rw [hp, (kb.same l hl).2.1]
        cases l.src.file.kind <;> simp [hreq]
      have hrc := rsl_count kb ke p1 (fun l => match l.cu.package with
          | some p => decide ((p, l.cu.file.kind) ∈ required (ls.map (·.cu)))
          | none => false) (by
        intro l
        rw [p2 l]
        refine and_congr_right fun hl => ?_
        obtain ⟨p, hp⟩ := Option.ne_none_iff_exists'.1 (kb.pkg l hl (ke l hl))
        rw [hp, (kb.same l hl).2.1]
        cases l.src.file.kind <;> simp [hreq])
      have hn : progressFinal (required (ls.map (·.cu))) (ls.map (·.cu)) =
          (rslFiles (required (ls.map (·.cu))) ls).length + (trlcFiles (required (ls.map (·.cu))) ls).length := by
        rw [← hrc, ← htc]
        unfold progressFinal
        rw [List.countP_map, List.countP_eq_countP_filter_add _ _ (fun l => decide (l.cu.file.kind = .rsl)),
          List.countP_filter, List.countP_filter]
        congr 1
        · refine List.countP_congr fun l hl => ?_
          simp [ke l hl]
          intros
          rfl
        · refine List.countP_congr fun l hl => ?_
          simp [ke l hl]
          intros
          rfl
      have ht : (if o.parseTrlc then signalsOf (fun f => parseTrlcFile f.env)
          ((trlcFiles (required (ls.map (·.cu))) ls).map (·.openFile g o.recover)) s2 else 0) =
          (trlcFiles (required (ls.map (·.cu))) ls).length := by
        cases hp : o.parseTrlc with
        | true =>
          have := (k3 hp).1
          unfold runTrlc at this
          rw [if_pos rfl, signalsOf_trlc this, List.length_map]
        | false =>
          rw [if_neg (by simp)]
          symm
          rw [List.length_eq_zero_iff, List.eq_nil_iff_forall_not_mem]
          intro l hl
          have hl' := hsub.subset hl
          have h1 := ((p3 l hl').1 hl).1
          have h2 : l.src.file ∈ fs.map (·.file) := kb.perm.subset (List.mem_map_of_mem hl')
          obtain ⟨f, hf, hf'⟩ := List.mem_map.1 h2
          have := hk hp f hf
          rw [hf', h1] at this
          cases this
      rw [ht, signalsOf_rsl hx, List.length_map] at hs
      refine ⟨ls, _, _, ⟨ke, kb.text, prepared_numbers kb ke⟩, p1, p2, hsub, p3, ?_⟩
      clear p1 p2 p3
      unfold callbacks percentages
      rw [h, hload]
      dsimp only
      rw [hn, hs]
      generalize (rslFiles (required (ls.map (·.cu))) ls).length + (trlcFiles (required (ls.map (·.cu))) ls).length = n
      rw [progressSignals_eq n n 0 (Nat.zero_add n).le, List.map_map]
      simp only [Nat.zero_add]
      rfl

/-- **C88** of these percentages only the last is 100. -/
theorem C88_hundred {n i : Nat} (h : i < n) : (i + 1) * 100 / n = 100 ↔ i + 1 = n := by
  constructor
  · intro e
    have h1 := Nat.div_mul_le_self ((i + 1) * 100) n
    rw [e] at h1
    omega
  · intro e
    rw [e]
    exact Nat.mul_div_cancel_left _ (by omega)

namespace NotifySample

/-- a package that imports itself -/
def bad : SrcFile := ⟨"a.rsl", .rsl, true, "package P import P type A { x Integer }".toList⟩

def good : SrcFile := ⟨"b.rsl", .rsl, true, "package Q type A { x Integer }".toList⟩

/-- what the loop finds: the first file is not considered -/
def needed : List CU → Finset PNode := fun _ => {("Q".toList, .rsl)}

end NotifySample

open RunSample NotifySample

attribute [local irreducible] RunSample.opened process callbacks in
/-- `C88_success` applies. -/
example : ∃ n, callbacks options outside found (opened [rsl, trlc]).1 (opened [rsl, trlc]).2 =
    .begin :: ((List.range n).map fun i => .progress ((i + 1) * 100 / n)) ++ [.finished] := by
  obtain ⟨ls, rl, tl, -, -, -, -, -, h⟩ := C88_success found_required
    (fun h => (by cases h)) (run_table found)
  exact ⟨_, h⟩

set_option maxRecDepth 100000 in
example : callbacks options outside (fun _ => {("P".toList, .rsl), ("P".toList, .trlc)})
    (opened [rsl, trlc]).1 (opened [rsl, trlc]).2 = [.begin, .progress 50, .progress 100, .finished] := by
  decide +kernel

set_option maxRecDepth 100000 in
/-- In a run that fails, 100 can be reported before the last file: a file with an error in its preamble is not
counted (`trlc/trlc.py:374`), but rsl files of known packages are parsed nevertheless. -/
theorem C88_early : callbacks options outside needed (opened [bad, good]).1 (opened [bad, good]).2 =
    [.begin, .progress 100, .progress 100, .finished] := by
  decide +kernel

end Verif.Props
