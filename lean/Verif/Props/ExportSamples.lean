import Verif.Props.Export
import Mathlib.Tactic.NormNum
/-!
# C75 on concrete runs: it does not hold in full
-/
namespace Verif.Props
open Verif.Model Verif.Spec Verif.Lemmas

namespace ExportSample

/-- two objects with the same name in two packages -/
def twins : List SrcFile := [⟨"p.rsl", .rsl, true, "package P type T { a Integer }".toList⟩,
  ⟨"p.trlc", .trlc, true, "package P T x { a = 1 }".toList⟩,
  ⟨"q.trlc", .trlc, true, "package Q import P P.T x { a = 2 }".toList⟩]

/-- a decimal with 309 zeros -/
def large : List SrcFile := [⟨"p.rsl", .rsl, true, "package P type T { d Decimal }".toList⟩,
  ⟨"p.trlc", .trlc, true, "package P T x { d = 1".toList ++ List.replicate 309 '0' ++ ".0 }".toList⟩]

/-- the table of the packages -/
def packages (fs : List SrcFile) : Option STab :=
  match loadAll globalTable (RunSample.opened fs).1 (RunSample.opened fs).2 with
  | .ok (g, _) _ => some g
  | _ => none

theorem packages_load {fs : List SrcFile} {g : STab} (h : packages fs = some g) :
    ∃ ls s1, loadAll globalTable (RunSample.opened fs).1 (RunSample.opened fs).2 = .ok (g, ls) s1 := by
  unfold packages at h
  split at h
  · next h1 => cases h; exact ⟨_, _, h1⟩
  · cases h

def isInt (i : Int) (d : List (String × PyObj)) (k : String) : Bool := match d.lookup k with
  | some (.int j) => i == j
  | _ => false

/-- the `i`-th object is exported, with value `n` for `a` -/
def exports (fs : List SrcFile) (g : STab) (i : Nat) (n : Int) : Bool :=
  match (RunSample.run (fun _ => ∅) fs).state.toPythonDict g i with
  | .ok d => isInt n d "a"
  | .error _ => false

def dumps (fs : List SrcFile) (g : STab) : Bool :=
  match (RunSample.run (fun _ => ∅) fs).state.apiDump g with
  | .ok _ => true
  | .error _ => false

set_option maxRecDepth 100000 in
theorem twins_table (required) : (RunSample.run required twins).out = .table := by
  rw [RunSample.run_any _ _ (by decide +kernel)]
  decide +kernel

set_option maxRecDepth 100000 in
theorem twins_names : (RunSample.run (fun _ => ∅) twins).state.objs.map (·.name) = ["x".toList, "x".toList] := by
  decide +kernel

set_option maxRecDepth 100000 in
theorem twins_values : (packages twins).any (fun g => dumps twins g && exports twins g 0 1 && exports twins g 1 2) = true := by
  decide +kernel

set_option maxRecDepth 100000 in
theorem large_table (required) : (RunSample.run required large).out = .table := by
  rw [RunSample.run_any _ _ (by decide +kernel)]
  decide +kernel

/-- a decimal that is a large integer -/
def isLarge : PVal → Bool
  | .dec q => q.den == 1 && decide ((2 ^ 1024 : Int) ≤ q.num)
  | _ => false

set_option maxRecDepth 100000 in
set_option exponentiation.threshold 2000 in
theorem large_value : ((RunSample.run (fun _ => ∅) large).state.objs[0]?).any (fun ob =>
    match ob.fields with
    | [(_, n)] => isLarge n.val
    | _ => false) = true := by
  decide +kernel

set_option maxRecDepth 100000 in
theorem large_packages : (packages large).isSome = true := by decide +kernel

end ExportSample

attribute [local irreducible] RunSample.opened process in
/-- **C75** is violated: an object with a large decimal cannot be exported (`OverflowError`). -/
theorem C75_violated : ¬ C75_full := by
  intro h
  obtain ⟨g, hg⟩ := Option.isSome_iff_exists.1 ExportSample.large_packages
  obtain ⟨ls, s1, hl⟩ := ExportSample.packages_load hg
  have hv := ExportSample.large_value
  cases ho : (RunSample.run (fun _ => ∅) ExportSample.large).state.objs[0]? with
  | none => rw [ho] at hv; cases hv
  | some ob =>
    rw [ho] at hv
    simp only [Option.any_some] at hv
    have ht := ExportSample.large_table (fun _ => ∅)
    obtain ⟨d, hd⟩ := h RunSample.options RunSample.outside (fun _ => ∅) _ _ g ls s1 (RunSample.opened_blank _) hl
      ht 0 ob ho
    have hp := (C75_exported_partial (RunSample.opened_blank _) hl ht 0 ob ho).2.1
    split at hv
    · next n v hf =>
      cases hq : v.val with
      | dec q =>
        rw [hq] at hv
        simp only [ExportSample.isLarge, Bool.and_eq_true, beq_iff_eq, decide_eq_true_eq] at hv
        have h1 : ContainsField q (ob.fields.map fun f => (f.1, f.2.val)) := by
          rw [hf]
          simp only [List.map_cons, ContainsField, ContainsIn, hq, Contains]
          exact .inl trivial
        have h2 : (2 : Rat) ^ (1024 : Int) ≤ |q| := by
          have h3 : q = q.num := by
            conv => lhs; rw [← Rat.num_div_den q, hv.1]
            simp
          refine le_trans ?_ (le_abs_self q)
          rw [h3]
          have h4 : (((2 : Int) ^ 1024 : Int) : Rat) ≤ (q.num : Rat) := by exact_mod_cast hv.2
          rw [Int.cast_pow] at h4
          rw [← zpow_natCast] at h4
          exact h4
        have h3 := hp q h1 h2
        unfold RunSample.run at ho
        rw [hd] at h3
        cases h3
      | _ => rw [hq] at hv; cases hv
    · cases hv

attribute [local irreducible] RunSample.opened process in
/-- **C75** is violated for the dump: of two objects with the same name in different packages one is
missing. -/
theorem C75_dump_violated : ¬ C75_dump_full := by
  intro h
  have hv := ExportSample.twins_values
  cases hg : ExportSample.packages ExportSample.twins with
  | none => rw [hg] at hv; cases hv
  | some g =>
    rw [hg] at hv
    simp only [Option.any_some, Bool.and_eq_true] at hv
    obtain ⟨⟨h1, h2⟩, h3⟩ := hv
    obtain ⟨ls, s1, hl⟩ := ExportSample.packages_load hg
    have ht := ExportSample.twins_table (fun _ => ∅)
    unfold ExportSample.dumps at h1
    unfold ExportSample.exports at h2 h3
    split at h1
    · next d hd =>
      have hn := ExportSample.twins_names
      cases ho : (RunSample.run (fun _ => ∅) ExportSample.twins).state.objs with
      | nil => rw [ho] at hn; cases hn
      | cons a l =>
        cases l with
        | nil => rw [ho] at hn; simp at hn
        | cons b l =>
          rw [ho] at hn
          simp only [List.map_cons, List.cons.injEq] at hn
          have h4 := h RunSample.options RunSample.outside (fun _ => ∅) _ _ g ls s1 (RunSample.opened_blank _) hl ht d hd
          obtain ⟨v, k1, k2⟩ := h4 0 a (by unfold RunSample.run at ho; rw [ho]; rfl)
          obtain ⟨w, k3, k4⟩ := h4 1 b (by unfold RunSample.run at ho; rw [ho]; rfl)
          rw [hn.1] at k2
          rw [hn.2.1, k2] at k4
          cases k4
          unfold RunSample.run at h2 h3
          rw [k1] at h2
          rw [k3] at h3
          simp only [ExportSample.isInt] at h2 h3
          split at h2
          · next hx =>
            rw [hx] at h3
            simp only [beq_iff_eq] at h2 h3
            omega
          · cases h2
    · cases h1

attribute [local irreducible] RunSample.opened process in
/-- the theorems apply: an object is exported, and the dump exists -/
example : ∃ g ls s1 ob d e, loadAll globalTable (RunSample.opened ExportSample.twins).1
      (RunSample.opened ExportSample.twins).2 = .ok (g, ls) s1 ∧
    (RunSample.run (fun _ => ∅) ExportSample.twins).out = .table ∧
    (RunSample.run (fun _ => ∅) ExportSample.twins).state.objs[0]? = some ob ∧
    (RunSample.run (fun _ => ∅) ExportSample.twins).state.toPythonDict g 0 = .ok d ∧
    (RunSample.run (fun _ => ∅) ExportSample.twins).state.apiDump g = .ok e := by
  have hv := ExportSample.twins_values
  cases hg : ExportSample.packages ExportSample.twins with
  | none => rw [hg] at hv; cases hv
  | some g =>
    rw [hg] at hv
    simp only [Option.any_some, Bool.and_eq_true] at hv
    obtain ⟨⟨h1, h2⟩, -⟩ := hv
    obtain ⟨ls, s1, hl⟩ := ExportSample.packages_load hg
    unfold ExportSample.dumps at h1
    unfold ExportSample.exports at h2
    split at h1
    · next e he =>
      split at h2
      · next d hd =>
        have hn := ExportSample.twins_names
        cases ho : (RunSample.run (fun _ => ∅) ExportSample.twins).state.objs with
        | nil => rw [ho] at hn; cases hn
        | cons a l => exact ⟨g, ls, s1, a, d, e, hl, ExportSample.twins_table _, rfl, hd, he⟩
      · cases h2
    · cases h1

/-- 0.5 is a double; 10^400 is too large -/
example : toFloat (1 / 2) = some (1 / 2) ∧ toFloat (10 ^ 400) = none := by
  refine ⟨toFloat_double ⟨1, -1, by norm_num, by norm_num, by norm_num, by norm_num⟩, toFloat_big ?_⟩
  rw [abs_of_pos (by positivity)]
  rw [show (1024 : Int) = ((4 * 256 : Nat) : Int) by norm_num, zpow_natCast, pow_mul, show (400 : Nat) = 256 + 144 by norm_num, pow_add]
  have h1 : ((2 : Rat) ^ 4) ^ 256 ≤ (10 ^ 2) ^ 256 := pow_le_pow_left₀ (by norm_num) (by norm_num) _
  have h2 : (2 ^ 4 : Rat) ^ 256 = 2 ^ 256 * 8 ^ 256 := by rw [← mul_pow]; norm_num
  have h3 : (8 : Rat) ^ 256 ≤ 10 ^ 256 := pow_le_pow_left₀ (by norm_num) (by norm_num) _
  have h4 : (2 : Rat) ^ 256 ≤ 10 ^ 144 := by norm_num
  rw [h2, mul_comm]
  exact mul_le_mul h3 h4 (by positivity) (by positivity)

end Verif.Props
