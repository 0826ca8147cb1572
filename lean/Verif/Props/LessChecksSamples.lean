import Verif.Props.LessChecks
import Verif.Props.TokenSamples
/-!
# C95 applies to a concrete project
-/
namespace Verif.Props
open Verif.Model Verif.Spec Verif.Lemmas Verif.Lemmas.Rearrange

namespace UncheckSample
open RunSample (options outside)
open TokenSample
open MoveSample (none' findAll findAll_sound samePiece samePiece_sound sameToks sameToks_sound lexed lexed_sound upTo upTo_eq)

def noBrace (t : Token) : Bool := t.kind != .C_BRA && t.kind != .C_KET

theorem noBrace_sound {t : Token} (h : noBrace t = true) : NoBrace t := by
  simp only [noBrace, Bool.and_eq_true, bne_iff_ne] at h
  exact h

def isBlock (ts : List Token) : Bool :=
  match ts.dropWhile noBrace with
  | b :: r => b.kind == .C_BRA && r.getLast?.any (·.kind == .C_KET) && r.dropLast.all noBrace
  | [] => false

theorem isBlock_sound {ts : List Token} (h : isBlock ts = true) : BlockShape ts := by
  unfold isBlock at h
  split at h
  · next b r e =>
    simp only [Bool.and_eq_true, beq_iff_eq, Option.any_eq_true, List.all_eq_true] at h
    obtain ⟨⟨h3, k, h4, h5⟩, h6⟩ := h
    have hr : r ≠ [] := by rintro rfl; cases h4
    have hk : r.getLast hr = k := by
      rw [List.getLast?_eq_some_getLast hr] at h4
      cases h4
      rfl
    have hd := List.dropLast_append_getLast hr
    rw [hk] at hd
    refine ⟨ts.takeWhile noBrace, b, r.dropLast, k, ?_, fun t ht => noBrace_sound ?_, h3, fun t ht => noBrace_sound (h6 t ht), h5⟩
    · rw [hd, ← e, List.takeWhile_append_dropWhile]
    · exact List.all_eq_true.1 (List.all_takeWhile (l := ts) (p := noBrace)) t ht
  · cases h

/-- compare blocks, leaving out check blocks -/
def unchecked (E E' : FileEnv) : Nat → List Token → List Token → Bool
  | 0, _, _ => false
  | _ + 1, [], ts' => ts'.isEmpty
  | n + 1, t :: ts, ts' =>
    isBlock (upTo (t :: ts)).1 &&
      if sameToks E E' (upTo (t :: ts)).1 (upTo ts').1 then unchecked E E' n (upTo (t :: ts)).2 (upTo ts').2
      else decide (t.kind = .KEYWORD ∧ t.value = .str "checks".toList) && unchecked E E' n (upTo (t :: ts)).2 ts'

theorem upTo_head (t : Token) (ts : List Token) : ∃ r, (upTo (t :: ts)).1 = t :: r := by
  unfold upTo
  split <;> exact ⟨_, rfl⟩

theorem unchecked_sound {E E' : FileEnv} : ∀ (n : Nat) (ts ts' : List Token), unchecked E E' n ts ts' = true → Unchecked E E' ts ts'
  | 0, _, _, h => by cases h
  | _ + 1, [], ts', h => by
    rw [List.isEmpty_iff.1 h]
    exact .nil
  | n + 1, t :: ts, ts', h => by
    unfold unchecked at h
    rw [Bool.and_eq_true] at h
    obtain ⟨h1, h2⟩ := h
    have hb := isBlock_sound h1
    rw [← upTo_eq (t :: ts)]
    split at h2
    · next h3 =>
      rw [← upTo_eq ts']
      exact .keep hb (sameToks_sound h3) (unchecked_sound n _ _ h2)
    · rw [Bool.and_eq_true, decide_eq_true_eq] at h2
      obtain ⟨r, hr⟩ := upTo_head t ts
      rw [hr] at hb ⊢
      exact .drop hb h2.1 (unchecked_sound n _ _ h2.2)

def less (f f' : OpenFile) : Bool :=
  decide (f'.env.global = f.env.global ∧ f'.env.pkg = f.env.pkg ∧ f'.env.imports = f.env.imports ∧ f'.env.resolved = f.env.resolved) &&
    unchecked f.env f'.env 100 (fileWords f) (fileWords f')

theorem less_sound {f f' : OpenFile} (h : less f f' = true) : LessChecked f f' := by
  simp only [less, Bool.and_eq_true, decide_eq_true_eq] at h
  obtain ⟨⟨h1, h2, h3, h4⟩, h5⟩ := h
  exact ⟨h1, h2, h3, h4, unchecked_sound _ _ _ h5⟩

def all2 {α : Type} (p : α → α → Bool) : List α → List α → Bool
  | [], [] => true
  | a :: as, b :: bs => p a b && all2 p as bs
  | _, _ => false

theorem all2_sound {α : Type} {p : α → α → Bool} {R : α → α → Prop} (h : ∀ {a b}, p a b = true → R a b) :
    ∀ {as bs : List α}, all2 p as bs = true → List.Forall₂ R as bs
  | [], [], _ => .nil
  | a :: as, b :: bs, k => by
    rw [all2, Bool.and_eq_true] at k
    exact .cons (h k.1) (all2_sound h k.2)
  | [], _ :: _, k => by cases k
  | _ :: _, [], k => by cases k

def unmoved (fs fs' : List OpenFile) : Bool :=
  match findAll fs, findAll fs' with
  | some ps, some ps' => all2 samePiece ps ps'
  | _, _ => false

theorem unmoved_sound {fs fs' : List OpenFile} (h : unmoved fs fs' = true) : Rearranged fs fs' := by
  unfold unmoved at h
  split at h
  · next ps ps' h1 h2 => exact ⟨ps, ps, ps', findAll_sound h1, findAll_sound h2, .refl _, all2_sound samePiece_sound h⟩
  · cases h

def after : List Source := [rsl', a, b]

/-- everything about the two projects that can be computed -/
def fits : Bool :=
  project.all lexed && after.all lexed &&
  match loadAll globalTable project start, loadAll globalTable after start with
  | .ok (g, ls) s1, .ok (g', ls') s1' =>
    decide (g = g' ∧ s1.errs = start.errs ∧ s1'.errs = start.errs) &&
    decide (parseRslOrder ∅ (ls.map (·.cu)) = parseRslOrder ∅ (ls'.map (·.cu))) &&
    all2 less ((Model.rslFiles ∅ ls).map (·.openFile g options.recover)) ((Model.rslFiles ∅ ls').map (·.openFile g' options.recover)) &&
    unmoved ((trlcFiles ∅ ls).map (·.openFile g options.recover)) ((trlcFiles ∅ ls').map (·.openFile g' options.recover))
  | _, _ => false

theorem fits_sound (h : fits = true) : ∃ g ls ls' s1 s1',
    ChecksRemoved options none' start project after g ls ls' s1 s1' := by
  unfold fits at h
  simp only [Bool.and_eq_true, List.all_eq_true] at h
  obtain ⟨⟨h1, h2⟩, h3⟩ := h
  cases e1 : loadAll globalTable project start with
  | err s => rw [e1] at h3; cases h3
  | crash c s => rw [e1] at h3; cases h3
  | ok r s1 =>
    cases e2 : loadAll globalTable after start with
    | err s => rw [e1, e2] at h3; cases h3
    | crash c s => rw [e1, e2] at h3; cases h3
    | ok r' s1' =>
      obtain ⟨g, ls⟩ := r
      obtain ⟨g', ls'⟩ := r'
      rw [e1, e2] at h3
      simp only [Bool.and_eq_true, decide_eq_true_eq] at h3
      obtain ⟨⟨⟨⟨rfl, h4, h5⟩, h6⟩, h7⟩, h8⟩ := h3
      exact ⟨g, ls, ls', s1, s1', e1, e2, h4, h5, fun f hf => (lexed_sound (h1 f hf)).1, fun f hf => (lexed_sound (h2 f hf)).1,
        fun f hf => (lexed_sound (h1 f hf)).2, fun f hf => (lexed_sound (h2 f hf)).2, h6, all2_sound less_sound h7, unmoved_sound h8⟩

set_option maxRecDepth 100000 in
theorem fits_true : fits = true := by decide +kernel

set_option maxRecDepth 100000 in
theorem before_table : (process options outside none' project start).out = .table ∧
    (process options outside none' project start).state.errs = start.errs := by decide +kernel

set_option maxRecDepth 100000 in
theorem fewer : ((process options outside none' project start).state.checks.recs.map List.length,
    (process options outside none' after start).state.checks.recs.map List.length) = ([1, 2], [0, 2]) := by
  decide +kernel

attribute [local irreducible] process in
/-- C95 applies: without the checks of `B` the objects are the same. -/
example : (process options outside none' after start).out = .table ∧
    SameObjects (process options outside none' project start).state.objs
      (process options outside none' after start).state.objs := by
  obtain ⟨g, ls, ls', s1, s1', m⟩ := fits_sound fits_true
  have h := C95_checks_removed (X := outside) (fresh_blank _) rfl (fun _ => linter_types (fun _ => ("", "")) rfl) m
    before_table.1 before_table.2
  exact ⟨h.1, h.2.2.2.2.2.2⟩

end UncheckSample
end Verif.Props
