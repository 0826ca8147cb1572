import Verif.Props.ParseOrder
/-!
# C41, C42, C49, C55: registering files, progress, common root
-/
namespace Verif.Props
open Verif.Model

/-! ## C41 -/

private theorem progress_get (final n : Nat) : ∀ cur i, i < n → (progressSignals final n cur)[i]? =
    some (min (if final = 0 then 100 else (cur + i + 1) * 100 / final) 100) := by
  induction n with
  | zero => intro cur i h; omega
  | succ n ih =>
    intro cur i h
    cases i with
    | zero => simp [progressSignals]
    | succ i =>
      simp only [progressSignals, List.getElem?_cons_succ]
      rw [ih (cur + 1) i (by omega), show cur + 1 + i + 1 = cur + (i + 1) + 1 by omega]

private theorem progress_length (final n : Nat) : ∀ cur, (progressSignals final n cur).length = n := by
  induction n with
  | zero => intro cur; rfl
  | succ n ih => intro cur; simp [progressSignals, ih]

/-- **C41**: progress signals lie between 0 and 100, never decrease, and the signal after
the last file is 100. -/
theorem C41_progress (final n : Nat) :
    (∀ p ∈ progressSignals final n 0, p ≤ 100) ∧
    (progressSignals final n 0).Pairwise (· ≤ ·) ∧
    (0 < final → final ≤ n → (progressSignals final n 0)[final - 1]? = some 100) := by
  refine ⟨?_, ?_, ?_⟩
  · intro p hp
    obtain ⟨i, hi⟩ := List.mem_iff_getElem?.mp hp
    have hlt : i < n := by
      have := (List.getElem?_eq_some_iff.mp hi).1
      rwa [progress_length] at this
    rw [progress_get final n 0 i hlt] at hi
    simp only [Option.some.injEq] at hi
    omega
  · rw [List.pairwise_iff_getElem]
    intro i j hi hj hij
    rw [progress_length] at hi hj
    have a := progress_get final n 0 i hi
    have b := progress_get final n 0 j hj
    rw [List.getElem?_eq_getElem (by rw [progress_length]; exact hi)] at a
    rw [List.getElem?_eq_getElem (by rw [progress_length]; exact hj)] at b
    rw [Option.some.inj a, Option.some.inj b]
    by_cases hf : final = 0
    · simp [hf]
    · simp only [hf, if_false]
      have : (0 + i + 1) * 100 / final ≤ (0 + j + 1) * 100 / final :=
        Nat.div_le_div_right (Nat.mul_le_mul_right _ (by omega))
      omega
  · intro h0 hn
    rw [progress_get final n 0 (final - 1) (by omega)]
    have : (0 + (final - 1) + 1) * 100 / final = 100 := by
      rw [show 0 + (final - 1) + 1 = final by omega]
      exact Nat.mul_div_cancel_left _ h0
    rw [this, if_neg (by omega)]
    rfl

example : progressSignals 3 3 0 = [33, 66, 100] := by decide

/-! ## C42 -/

/-- The root after registering files in these directories, in this order -/
def commonRoot (dirs : List (List Char)) : Option (List Char) := dirs.foldl updateCommonRoot none

private theorem firstDiff_some {a b : List Char} {n : Nat} (h : firstDiff a b = some n) :
    a.take n <+: b ∧ ∀ p, p <+: a → p <+: b → p <+: a.take n := by
  induction a generalizing b n with
  | nil => simp [firstDiff] at h
  | cons x xs ih =>
    cases b with
    | nil => simp [firstDiff] at h
    | cons y ys =>
      simp only [firstDiff] at h
      split at h
      · rename_i hne
        cases h
        refine ⟨List.nil_prefix, ?_⟩
        intro p hp1 hp2
        cases p with
        | nil => exact List.nil_prefix
        | cons z zs =>
          obtain ⟨h1, -⟩ := List.cons_prefix_cons.mp hp1
          obtain ⟨h2, -⟩ := List.cons_prefix_cons.mp hp2
          exact absurd (h1.symm.trans h2) hne
      · rename_i heq
        have heq : x = y := by simpa using heq
        subst heq
        rw [Option.map_eq_some_iff] at h
        obtain ⟨m, hm, rfl⟩ := h
        obtain ⟨h1, h2⟩ := ih hm
        rw [List.take_succ_cons]
        refine ⟨List.cons_prefix_cons.mpr ⟨rfl, h1⟩, ?_⟩
        intro p hp1 hp2
        cases p with
        | nil => exact List.nil_prefix
        | cons z zs =>
          obtain ⟨e1, g1⟩ := List.cons_prefix_cons.mp hp1
          obtain ⟨-, g2⟩ := List.cons_prefix_cons.mp hp2
          exact List.cons_prefix_cons.mpr ⟨e1, h2 zs g1 g2⟩

private theorem firstDiff_none {a b : List Char} (h : firstDiff a b = none) : a <+: b ∨ b <+: a := by
  induction a generalizing b with
  | nil => exact Or.inl List.nil_prefix
  | cons x xs ih =>
    cases b with
    | nil => exact Or.inr List.nil_prefix
    | cons y ys =>
      simp only [firstDiff] at h
      split at h
      · cases h
      · rename_i heq
        have heq : x = y := by simpa using heq
        subst heq
        rw [Option.map_eq_none_iff] at h
        rcases ih h with h1 | h1
        · exact Or.inl (List.cons_prefix_cons.mpr ⟨rfl, h1⟩)
        · exact Or.inr (List.cons_prefix_cons.mpr ⟨rfl, h1⟩)

/-- `r` is the longest common prefix of all `dirs` -/
def LongestCommonPrefix (r : List Char) (dirs : List (List Char)) : Prop :=
  (∀ d ∈ dirs, r <+: d) ∧ ∀ p, (∀ d ∈ dirs, p <+: d) → p <+: r

/-- **C42**, provided no registered directory is a proper prefix of another: the root is
the longest common prefix of all registered directories.  As that is unique, the order of
registration does not matter. -/
theorem C42_common_root_partial (dirs : List (List Char)) (hne : dirs ≠ [])
    (hpre : ∀ a ∈ dirs, ∀ b ∈ dirs, a <+: b → a = b) :
    ∃ r, commonRoot dirs = some r ∧ LongestCommonPrefix r dirs := by
  obtain ⟨d0, rest, rfl⟩ := List.exists_cons_of_ne_nil hne
  -- generalise over the part registered so far
  have main : ∀ (rest done : List (List Char)) (r : List Char), done ≠ [] →
      (∀ a ∈ done ++ rest, ∀ b ∈ done ++ rest, a <+: b → a = b) → LongestCommonPrefix r done →
      ∃ r', rest.foldl updateCommonRoot (some r) = some r' ∧ LongestCommonPrefix r' (done ++ rest) := by
    intro rest
    induction rest with
    | nil => intro done r _ _ h; exact ⟨r, rfl, by simpa using h⟩
    | cons d rest ih =>
      intro done r hdone hpre h
      have hstep : ∃ r1, updateCommonRoot (some r) d = some r1 ∧ LongestCommonPrefix r1 (done ++ [d]) := by
        simp only [updateCommonRoot]
        cases hf : firstDiff r d with
        | some n =>
          obtain ⟨g1, g2⟩ := firstDiff_some hf
          refine ⟨_, rfl, ?_, ?_⟩
          · intro x hx
            rcases List.mem_append.mp hx with hx | hx
            · exact (List.take_prefix n r).trans (h.1 x hx)
            · rw [List.mem_singleton] at hx; subst hx; exact g1
          · intro p hp
            exact g2 p (h.2 p fun x hx => hp x (List.mem_append_left _ hx)) (hp d (by simp))
        | none =>
          refine ⟨r, rfl, ?_, fun p hp => h.2 p fun x hx => hp x (List.mem_append_left _ hx)⟩
          intro x hx
          rcases List.mem_append.mp hx with hx | hx
          · exact h.1 x hx
          · rw [List.mem_singleton] at hx
            subst hx
            rcases firstDiff_none hf with h1 | h1
            · exact h1
            · obtain ⟨e, he⟩ := List.exists_mem_of_ne_nil _ hdone
              have hxe : x = e := hpre x (by simp) e (by simp [he]) (h1.trans (h.1 e he))
              subst hxe
              exact h.1 x he
      obtain ⟨r1, h1, h2⟩ := hstep
      rw [List.foldl_cons, h1]
      have := ih (done ++ [d]) r1 (by simp) (by simpa using hpre) h2
      simpa using this
  have := main rest [d0] d0 (by simp) (by simpa using hpre) ⟨by simp, fun p hp => hp d0 (by simp)⟩
  simpa [commonRoot, updateCommonRoot] using this

/-- **C42** for all files: every common prefix of the directories is a prefix of the root, and each directory is inside the root
or the root inside the directory.  The root is the longest common prefix exactly if no file is in a directory above it. -/
theorem C42_root_iff (dirs : List (List Char)) (hne : dirs ≠ []) :
    ∃ r, commonRoot dirs = some r ∧ (∀ p, (∀ d ∈ dirs, p <+: d) → p <+: r) ∧ (∀ d ∈ dirs, r <+: d ∨ d <+: r) ∧
      (LongestCommonPrefix r dirs ↔ ∀ d ∈ dirs, d <+: r → d = r) := by
  have main : ∀ (rest done : List (List Char)) (r : List Char), (∀ p, (∀ d ∈ done, p <+: d) → p <+: r) →
      (∀ d ∈ done, r <+: d ∨ d <+: r) → ∃ r', rest.foldl updateCommonRoot (some r) = some r' ∧
        (∀ p, (∀ d ∈ done ++ rest, p <+: d) → p <+: r') ∧ ∀ d ∈ done ++ rest, r' <+: d ∨ d <+: r' := by
    intro rest
    induction rest with
    | nil => intro done r h1 h2; exact ⟨r, rfl, by simpa using h1, by simpa using h2⟩
    | cons d rest ih =>
      intro done r h1 h2
      have hstep : ∃ r1, updateCommonRoot (some r) d = some r1 ∧ (∀ p, (∀ x ∈ done ++ [d], p <+: x) → p <+: r1) ∧
          ∀ x ∈ done ++ [d], r1 <+: x ∨ x <+: r1 := by
        simp only [updateCommonRoot]
        cases hf : firstDiff r d with
        | some n =>
          obtain ⟨g1, g2⟩ := firstDiff_some hf
          refine ⟨_, rfl, fun p hp => g2 p (h1 p fun x hx => hp x (List.mem_append_left _ hx)) (hp d (by simp)), ?_⟩
          intro x hx
          rcases List.mem_append.mp hx with hx | hx
          · rcases h2 x hx with h | h
            · exact .inl ((List.take_prefix n r).trans h)
            · exact List.prefix_or_prefix_of_prefix (List.take_prefix n r) h
          · rw [List.mem_singleton] at hx; subst hx; exact .inl g1
        | none =>
          refine ⟨r, rfl, fun p hp => h1 p fun x hx => hp x (List.mem_append_left _ hx), ?_⟩
          intro x hx
          rcases List.mem_append.mp hx with hx | hx
          · exact h2 x hx
          · rw [List.mem_singleton] at hx; subst hx; exact firstDiff_none hf
      obtain ⟨r1, k1, k2, k3⟩ := hstep
      rw [List.foldl_cons, k1]
      have := ih (done ++ [d]) r1 k2 k3
      simpa using this
  obtain ⟨d0, rest, rfl⟩ := List.exists_cons_of_ne_nil hne
  obtain ⟨r, h1, h2, h3⟩ := main rest [d0] d0 (fun p hp => hp d0 (by simp)) (by simp)
  refine ⟨r, by simpa [commonRoot, updateCommonRoot] using h1, by simpa using h2, by simpa using h3, ?_, ?_⟩
  · intro h d hd hp
    have := h.1 d hd
    exact hp.eq_of_length (Nat.le_antisymm hp.length_le this.length_le)
  · intro h
    refine ⟨fun d hd => ?_, by simpa using h2⟩
    rcases h3 d (by simpa using hd) with k | k
    · exact k
    · rw [h d hd k]

/-- The longest common prefix is unique. -/
theorem C42_unique {r r' : List Char} {dirs dirs' : List (List Char)} (hp : dirs.Perm dirs')
    (h : LongestCommonPrefix r dirs) (h' : LongestCommonPrefix r' dirs') : r = r' := by
  have a := h'.2 r (fun d hd => h.1 d (hp.mem_iff.mpr hd))
  have b := h.2 r' (fun d hd => h'.1 d (hp.mem_iff.mp hd))
  exact a.eq_of_length (Nat.le_antisymm a.length_le b.length_le)

/-- Why C42 is partial: a file in a directory above the first one does not change the
root, so the root is no common prefix, and it depends on the order of registration. -/
theorem C42_root_not_common : ∃ d1 d2 : List Char, d2 <+: d1 ∧
    commonRoot [d1, d2] = some d1 ∧ ¬ d1 <+: d2 ∧ commonRoot [d2, d1] = some d2 := by
  refine ⟨"/home/model".toList, "/home".toList, ?_, ?_, ?_, ?_⟩ <;> decide +kernel

example : ∃ r, commonRoot ["/a/bc".toList, "/a/bd".toList, "/a/x".toList] = some r ∧
    LongestCommonPrefix r ["/a/bc".toList, "/a/bd".toList, "/a/x".toList] :=
  C42_common_root_partial _ (by simp) (by decide +kernel)
example : commonRoot ["/a/bc".toList, "/a/bd".toList, "/a/x".toList] = some "/a/".toList := by decide +kernel

/-! ## C49 -/

/-- **C49**: the outcome of reading all preambles (the global table, the package and the
imports of every file, in processing order) does not depend on the order in which files
were registered; files are processed in sorted order of their names. -/
theorem C49_registration_order (stab : STab) {fs fs' : List FileIn} (h : fs.Perm fs')
    (hn : (fs.map (·.name)).Nodup) : buildCUs stab fs = buildCUs stab fs' := by
  have hs : ∀ k, sortFiles (fs.filter (·.kind = k)) = sortFiles (fs'.filter (·.kind = k)) := by
    intro k
    unfold sortFiles
    apply pySort_eq_of_perm
    · intro a b; exact pyLe_total _ _
    · intro a b c; exact pyLe_trans
    · exact h.filter _
    · intro a ha b hb h1 h2
      have he : a.name = b.name := String.toList_inj.mp (pyLe_antisymm h1 h2)
      exact List.inj_on_of_nodup_map hn (List.mem_filter.mp ha).1 (List.mem_filter.mp hb).1 he
  simp only [buildCUs, hs]

/-- **C49**: hence the packages needed, the files selected, the order of parsing and the
circularity error are the same, too. -/
theorem C49_same_parse (stab : STab) {fs fs' : List FileIn} (h : fs.Perm fs')
    (hn : (fs.map (·.name)).Nodup) (R R' : Finset PNode)
    (hR : Required (buildCUs stab fs).2 R) (hR' : Required (buildCUs stab fs').2 R') :
    R = R' ∧ parseRslOrder R (buildCUs stab fs).2 = parseRslOrder R' (buildCUs stab fs').2 ∧
    selectedTrlc R (buildCUs stab fs).2 = selectedTrlc R' (buildCUs stab fs').2 ∧
    progressFinal R (buildCUs stab fs).2 = progressFinal R' (buildCUs stab fs').2 := by
  rw [← C49_registration_order stab h hn] at hR' ⊢
  have : R = R' := by
    ext n
    rw [C14_required_exact _ R hR, C14_required_exact _ R' hR']
  subst this
  exact ⟨rfl, rfl, rfl, rfl⟩

/-- **C49**: files of one kind are handled in ascending order of their names. -/
theorem C49_sorted (fs : List FileIn) :
    (sortFiles fs).Perm fs ∧ (sortFiles fs).Pairwise (fun a b => pyLe a.name.toList b.name.toList = true) :=
  ⟨pySort_perm _ _, pySort_sorted (le := fun a b : FileIn => pyLe a.name.toList b.name.toList)
    (fun a b => pyLe_total a.name.toList b.name.toList) (fun _ _ _ => pyLe_trans) fs⟩

private def f1 : FileIn := ⟨"a.rsl", .rsl, true, .pkg "A".toList [] false⟩
private def f2 : FileIn := ⟨"b.rsl", .rsl, true, .pkg "A".toList [] false⟩
example : ((buildCUs STab.empty [f2, f1]).2.map (fun u => (u.file.name, u.err))) = [("a.rsl", false), ("b.rsl", true)] ∧
    buildCUs STab.empty [f2, f1] = buildCUs STab.empty [f1, f2] := by decide +kernel

/-! ## C55 -/

private theorem run_dirs (dirs : List (List (String × String))) : ∀ (r : Registry) (ops : List RegOp),
    r.run (dirs.map RegOp.includeDir ++ ops) = (dirs.foldl Registry.includeDir r).run ops := by
  induction dirs with
  | nil => intro r ops; rfl
  | cons d ds ih => intro r ops; simp only [List.map_cons, List.cons_append, Registry.run, List.foldl_cons, ih]

private theorem run_files (files : List (String × String)) : ∀ (r : Registry),
    r.run (files.map (fun e => RegOp.file e.1 e.2)) = r.fileAll files := by
  induction files with
  | nil => intro r; rfl
  | cons e es ih =>
    intro r
    simp only [List.map_cons, Registry.run, Registry.fileAll]
    cases r.file e.1 e.2 with
    | none => rfl
    | some r' => exact ih r'

private theorem fileAll_spec (es : List (String × String)) : ∀ (r : Registry),
    ((r.files ++ es).map Prod.snd).Nodup →
    r.fileAll es = some ⟨r.includes.filter (fun i => i.1 ∉ es.map Prod.fst), r.files ++ es⟩ := by
  induction es with
  | nil => intro r _; simp [Registry.fileAll]
  | cons e es ih =>
    intro r h
    have hnot : r.files.any (fun x => x.2 = e.2) = false := by
      rw [List.any_eq_false]
      intro x hx hxe
      simp only [decide_eq_true_eq] at hxe
      rw [List.map_append, List.nodup_append] at h
      exact h.2.2 x.2 (List.mem_map.mpr ⟨x, hx, rfl⟩) e.2 (by simp) hxe
    simp only [Registry.fileAll, Registry.file, hnot, Bool.false_eq_true, if_false]
    rw [ih _ (by simpa using h)]
    simp only [List.append_assoc, List.singleton_append, List.filter_filter, List.map_cons, List.mem_cons, not_or]
    congr 2
    apply List.filter_congr
    intro i _
    simp [Bool.and_comm]

private theorem dictSet_keys (d : List (String × String)) (k v : String) :
    ((d.map Prod.fst).Nodup → ((dictSet d k v).map Prod.fst).Nodup) ∧
    (∀ x, x ∈ (dictSet d k v).map Prod.fst ↔ x ∈ d.map Prod.fst ∨ x = k) := by
  constructor
  · intro h
    simp only [dictSet, List.map_append, List.map_cons, List.map_nil]
    rw [List.nodup_append]
    refine ⟨(List.filter_sublist.map Prod.fst).nodup h, by simp, ?_⟩
    intro a ha b hb
    rw [List.mem_singleton] at hb
    subst hb
    rintro rfl
    obtain ⟨x, hx, rfl⟩ := List.mem_map.mp ha
    simpa using (List.mem_filter.mp hx).2
  · intro x
    simp only [dictSet, List.map_append, List.mem_append, List.mem_map, List.mem_filter, List.mem_singleton,
      decide_eq_true_eq, List.map_cons, List.map_nil]
    constructor
    · rintro (⟨e, ⟨h1, -⟩, rfl⟩ | rfl)
      · exact Or.inl ⟨e, h1, rfl⟩
      · exact Or.inr rfl
    · rintro (⟨e, h1, rfl⟩ | rfl)
      · by_cases he : e.1 = k
        · exact Or.inr he
        · exact Or.inl ⟨e, ⟨h1, by simpa using he⟩, rfl⟩
      · exact Or.inr rfl

private theorem includes_keys (dirs : List (List (String × String))) : ∀ (r : Registry),
    ((r.includes.map Prod.fst).Nodup → ((dirs.foldl Registry.includeDir r).includes.map Prod.fst).Nodup) ∧
    (∀ x, x ∈ (dirs.foldl Registry.includeDir r).includes.map Prod.fst ↔
      x ∈ r.includes.map Prod.fst ∨ ∃ d ∈ dirs, ∃ e ∈ d, x = e.1) ∧
    (dirs.foldl Registry.includeDir r).files = r.files ∧
    (∀ i ∈ (dirs.foldl Registry.includeDir r).includes, i ∈ r.includes ∨ ∃ d ∈ dirs, i ∈ d) := by
  have inner : ∀ (found : List (String × String)) (d : List (String × String)),
      ((d.map Prod.fst).Nodup → ((found.foldl (fun d e => dictSet d e.1 e.2) d).map Prod.fst).Nodup) ∧
      (∀ x, x ∈ (found.foldl (fun d e => dictSet d e.1 e.2) d).map Prod.fst ↔
        x ∈ d.map Prod.fst ∨ ∃ e ∈ found, x = e.1) ∧
      (∀ i ∈ found.foldl (fun d e => dictSet d e.1 e.2) d, i ∈ d ∨ i ∈ found) := by
    intro found
    induction found with
    | nil => intro d; simp
    | cons e es ih =>
      intro d
      obtain ⟨h1, h2, h3⟩ := ih (dictSet d e.1 e.2)
      obtain ⟨g1, g2⟩ := dictSet_keys d e.1 e.2
      refine ⟨fun h => h1 (g1 h), ?_, ?_⟩
      · intro x
        rw [List.foldl_cons, h2, g2]
        simp only [List.mem_cons, exists_eq_or_imp]
        tauto
      · intro i hi
        rw [List.foldl_cons] at hi
        rcases h3 i hi with h | h
        · simp only [dictSet, List.mem_append, List.mem_filter, List.mem_singleton] at h
          rcases h with h | h
          · exact Or.inl h.1
          · exact Or.inr (by rw [h]; exact List.mem_cons_self)
        · exact Or.inr (List.mem_cons_of_mem _ h)
  induction dirs with
  | nil => intro r; simp
  | cons d ds ih =>
    intro r
    obtain ⟨h1, h2, h3, h4⟩ := ih (r.includeDir d)
    obtain ⟨g1, g2, g3⟩ := inner d r.includes
    refine ⟨fun h => h1 (g1 h), ?_, h3, ?_⟩
    · intro x
      rw [List.foldl_cons, h2, show (r.includeDir d).includes =
        d.foldl (fun d e => dictSet d e.1 e.2) r.includes from rfl, g2]
      simp only [List.mem_cons, exists_eq_or_imp, or_assoc]
    · intro i hi
      rcases h4 i hi with h | ⟨d', h, h'⟩
      · rcases g3 i h with h | h
        · exact Or.inl h
        · exact Or.inr ⟨d, List.mem_cons_self, h⟩
      · exact Or.inr ⟨d', List.mem_cons_of_mem _ h, h'⟩

/-- **C55** (includes registered first, as the command line tool does): if the explicitly
given files are distinct (as paths and as spelled) and a spelling always denotes the same
file, then registration never fails, and in the end every given file and every file found in
an include directory is registered exactly once. -/
theorem C55_included_once_partial (dirs : List (List (String × String))) (files : List (String × String))
    (hf : (files.map Prod.fst).Nodup)
    (hspell : ∀ a ∈ files ++ dirs.flatten, ∀ b ∈ files ++ dirs.flatten, a.2 = b.2 → a.1 = b.1) :
    ∃ r1 r2, Registry.run ⟨[], []⟩ (dirs.map RegOp.includeDir ++ files.map (fun e => RegOp.file e.1 e.2)) = some r1 ∧
      r1.close = some r2 ∧ (r2.files.map Prod.fst).Nodup ∧
      (∀ abs, abs ∈ r2.files.map Prod.fst ↔
        abs ∈ files.map Prod.fst ∨ ∃ d ∈ dirs, ∃ e ∈ d, abs = e.1) ∧
      r2.files.take files.length = files := by
  have nodup_snd : ∀ l : List (String × String), (l.map Prod.fst).Nodup → (∀ e ∈ l, e ∈ files ++ dirs.flatten) →
      (l.map Prod.snd).Nodup := by
    intro l hl hsub
    rw [List.nodup_map_iff_inj_on (List.Nodup.of_map _ hl)]
    intro a ha b hb hab
    exact List.inj_on_of_nodup_map hl ha hb (hspell a (hsub a ha) b (hsub b hb) hab)
  obtain ⟨k1, k2, k3, k4⟩ := includes_keys dirs ⟨[], []⟩
  generalize hr0 : dirs.foldl Registry.includeDir ⟨[], []⟩ = r0 at *
  simp only [List.map_nil, List.nodup_nil, forall_const, List.not_mem_nil, false_or] at k1 k2 k3 k4
  have hfiles := nodup_snd files hf (fun e he => List.mem_append_left _ he)
  have e1 := fileAll_spec files r0 (by rw [k3]; simpa using hfiles)
  have hinc : ∀ i ∈ r0.includes, i ∈ files ++ dirs.flatten := by
    intro i hi
    obtain ⟨d, hd, hid⟩ := k4 i hi
    exact List.mem_append_right _ (List.mem_flatten.mpr ⟨d, hd, hid⟩)
  refine ⟨⟨r0.includes.filter (fun i => i.1 ∉ files.map Prod.fst), r0.files ++ files⟩,
    ⟨(r0.includes.filter (fun i => i.1 ∉ files.map Prod.fst)).filter (fun i => i.1 ∉
        (pySort (fun a b => pyLe a.2.toList b.2.toList)
          (r0.includes.filter (fun i => i.1 ∉ files.map Prod.fst))).map Prod.fst),
      r0.files ++ files ++ pySort (fun a b => pyLe a.2.toList b.2.toList)
      (r0.includes.filter (fun i => i.1 ∉ files.map Prod.fst))⟩, ?_, ?_, ?_, ?_, ?_⟩
  · rw [run_dirs, hr0, run_files, e1]
  · have hall : ∀ l : List (String × String), l.Perm (r0.includes.filter (fun i => i.1 ∉ files.map Prod.fst)) →
        ((r0.files ++ files ++ l).map Prod.fst).Nodup := by
      intro l hl
      rw [k3, List.nil_append, List.map_append, List.nodup_append]
      refine ⟨hf, ?_, ?_⟩
      · rw [(hl.map Prod.fst).nodup_iff]
        exact (List.filter_sublist.map Prod.fst).nodup k1
      · intro a ha b hb hab
        subst hab
        obtain ⟨x, hx, rfl⟩ := List.mem_map.mp hb
        have := (List.mem_filter.mp (hl.mem_iff.mp hx)).2
        simp only [decide_eq_true_eq] at this
        exact this ha
    exact fileAll_spec _ _ (nodup_snd _ (hall _ (pySort_perm _ _)) (by
      intro e he
      rw [k3, List.nil_append] at he
      rcases List.mem_append.mp he with he | he
      · exact List.mem_append_left _ he
      · exact hinc e (List.mem_filter.mp ((pySort_perm _ _).mem_iff.mp he)).1))
  · simp only
    rw [k3, List.nil_append, List.map_append, List.nodup_append]
    refine ⟨hf, ?_, ?_⟩
    · rw [((pySort_perm _ _).map Prod.fst).nodup_iff]
      exact (List.filter_sublist.map Prod.fst).nodup k1
    · intro a ha b hb hab
      subst hab
      obtain ⟨x, hx, rfl⟩ := List.mem_map.mp hb
      have := (List.mem_filter.mp ((pySort_perm _ _).mem_iff.mp hx)).2
      simp only [decide_eq_true_eq] at this
      exact this ha
  · intro abs
    simp only [k3, List.nil_append, List.map_append, List.mem_append]
    rw [((pySort_perm _ _).map Prod.fst).mem_iff, ← k2]
    constructor
    · rintro (h | h)
      · exact Or.inl h
      · obtain ⟨x, hx, rfl⟩ := List.mem_map.mp h
        exact Or.inr (List.mem_map.mpr ⟨x, (List.mem_filter.mp hx).1, rfl⟩)
    · rintro (h | h)
      · exact Or.inl h
      · by_cases hm : abs ∈ files.map Prod.fst
        · exact Or.inl hm
        · obtain ⟨x, hx, rfl⟩ := List.mem_map.mp h
          exact Or.inr (List.mem_map.mpr ⟨x, List.mem_filter.mpr ⟨hx, by simpa using hm⟩, rfl⟩)
  · simp [k3]

/-- Why C55 is partial: if a file is registered first and its directory is made available
for inclusion afterwards, processing stops with a failing assertion (same spelling) or
registers the file twice (another spelling). -/
theorem C55_include_after_file :
    (∃ ops, (Registry.run ⟨[], []⟩ ops).bind Registry.close = none ∧
      ops = [.file "/m/a.rsl" "a.rsl", .includeDir [("/m/a.rsl", "a.rsl")]]) ∧
    (∃ ops r, (Registry.run ⟨[], []⟩ ops).bind Registry.close = some r ∧
      ops = [.file "/m/a.rsl" "a.rsl", .includeDir [("/m/a.rsl", "./a.rsl")]] ∧
      (r.files.map Prod.fst).count "/m/a.rsl" = 2) :=
  ⟨⟨_, by decide +kernel, rfl⟩, ⟨_, ⟨[], [("/m/a.rsl", "a.rsl"), ("/m/a.rsl", "./a.rsl")]⟩,
    by decide +kernel, rfl, by decide +kernel⟩⟩

example : (Registry.run ⟨[], []⟩ [.includeDir [("/m/a.rsl", "./a.rsl"), ("/m/b.rsl", "./b.rsl")],
    .file "/m/a.rsl" "a.rsl"]).bind Registry.close
    = some ⟨[], [("/m/a.rsl", "a.rsl"), ("/m/b.rsl", "./b.rsl")]⟩ := by decide +kernel

end Verif.Props
