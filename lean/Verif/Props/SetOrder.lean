import Verif.Props.Registration
import Verif.Model.Run.Process
/-!
# C99: the order in which Python iterates over sets has no influence
-/
namespace Verif.Props
open Verif.Model

/-- **C99**: whatever elements `set.pop` takes out of the work list of needed packages, the whole run
is the same. -/
theorem C99_run {o : Options} {X : Outside} {required required' : List CU → Finset PNode} {files inc : List SrcFile}
    (h : ∀ cus, Required cus (required cus)) (h' : ∀ cus, Required cus (required' cus)) :
    runTool o X required' files inc = runTool o X required files inc := by
  have e : required' = required := by
    funext cus
    ext n
    rw [C14_required_exact cus _ (h' cus), C14_required_exact cus _ (h cus)]
  rw [e]

private theorem layers_order {N : Type} [DecidableEq N] {deps deps' : N → List N} {sort : List N → List N} {ok : N → Prop}
    (hd : ∀ n d, d ∈ deps' n ↔ d ∈ deps n) (hsort : ∀ {l l' : List N}, l.Perm l' → (∀ n ∈ l, ok n) → sort l' = sort l) :
    ∀ (rounds : Nat) {wl wl' processed : List N}, wl.Perm wl' → (∀ n ∈ wl, ok n) →
      parseLayers deps' sort rounds wl' processed = parseLayers deps sort rounds wl processed := by
  have he : ∀ {l l' : List N}, l.Perm l' → l'.isEmpty = l.isEmpty := by
    intro l l' h
    rw [Bool.eq_iff_iff, List.isEmpty_iff_length_eq_zero, List.isEmpty_iff_length_eq_zero, h.length_eq]
  intro rounds
  induction rounds with
  | zero =>
    intro wl wl' processed hp _
    simp only [parseLayers, he hp]
  | succ k ih =>
    intro wl wl' processed hp hk
    have hall : (fun n => (deps' n).all (fun d => processed.contains d)) =
        fun n => (deps n).all (fun d => processed.contains d) := by
      funext n
      rw [Bool.eq_iff_iff]
      simp only [List.all_eq_true]
      exact ⟨fun h d hdn => h d ((hd n d).2 hdn), fun h d hdn => h d ((hd n d).1 hdn)⟩
    unfold parseLayers
    rw [hall]
    generalize (fun n => (deps n).all fun d => processed.contains d) = q
    have hc : (wl.filter q).Perm (wl'.filter q) := hp.filter _
    have hs : sort (wl'.filter q) = sort (wl.filter q) := hsort hc fun n hn => hk n (List.mem_filter.1 hn).1
    have hm : (fun n => !(wl'.filter q).contains n) = fun n => !(wl.filter q).contains n := by
      funext n
      rw [Bool.eq_iff_iff]
      simp only [Bool.not_eq_true', List.contains_eq_mem, decide_eq_false_iff_not, hc.mem_iff]
    dsimp only
    rw [he hp, he hc, hs, hm, ih (hp.filter _) fun n hn => hk n (List.mem_filter.1 hn).1]

/-- **C99**: the order of parsing and the circularity error depend neither on the order of the work
list nor on the order of the packages that one package needs. -/
theorem C99_parse_order {deps deps' : PNode → List PNode} (hd : ∀ n d, d ∈ deps' n ↔ d ∈ deps n) (rounds : Nat)
    {wl wl' processed : List PNode} (hp : wl.Perm wl') (hk : ∀ n ∈ wl, n.2 = .rsl) :
    parseLayers deps' sortNodes rounds wl' processed = parseLayers deps sortNodes rounds wl processed := by
  refine layers_order (ok := fun n => n.2 = .rsl) hd ?_ rounds hp hk
  intro l l' h ho
  unfold sortNodes
  refine (pySort_eq_of_perm (le := fun a b : PNode => pyLe a.1 b.1) (fun a b => pyLe_total _ _)
    (fun a b c => pyLe_trans) h ?_).symm
  intro a ha b hb h1 h2
  exact Prod.ext (pyLe_antisymm h1 h2) ((ho a ha).trans (ho b hb).symm)

/-- two packages of which one needs the other, in both orders -/
example : let a : PNode := ("A".toList, .rsl)
    let b : PNode := ("B".toList, .rsl)
    parseLayers (fun n => if n = a then [b] else []) sortNodes 2 [a, b] [] =
      parseLayers (fun n => if n = a then [b, b] else []) sortNodes 2 [b, a] [] ∧
    parseLayers (fun n => if n = a then [b] else []) sortNodes 2 [a, b] [] = ([b, a], false) := by
  intro a b
  exact ⟨C99_parse_order (fun n d => by split <;> simp) 2 (List.Perm.swap a b []) (by decide), by decide +kernel⟩

/-- C99_run applies: the loop always has an outcome. -/
example : ∃ required : List CU → Finset PNode, ∀ cus, Required cus (required cus) :=
  ⟨_, fun cus => Classical.choose_spec (C14_required_exists cus)⟩

end Verif.Props
