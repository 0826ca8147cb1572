import Verif.Lemmas.LayoutRun
import Verif.Props.Recovery
/-!
# C84: layout and comments do not matter

Files that consist of the same words are treated in the same way.
-/
namespace Verif.Props
open Verif.Model Verif.Spec Verif.Lemmas
open Verif.Lemmas.Layout (Base OutsideLike Alike AlikeF)

variable {o : Options} {X X' : Outside} {required : List CU → Finset PNode}

/-! ## Bounds of loops -/

theorem advanceLoop_bound {r : List LexOut} {s s' : PS} {c : PCrash} (h : advanceLoop s r = .crash c s') :
    c ≠ .fuel := by
  induction r generalizing s with
  | nil => cases h
  | cons x r ih =>
    cases x with
    | tok t =>
      rw [advanceLoop] at h
      split at h
      · exact ih h
      · cases h
    | eof => cases h
    | error k a b => cases h
    | crash => cases h; simp

theorem registerFiles_bound {b : Bool} {fs : List SrcFile} {s s' : PS} {c : PCrash}
    (h : registerFiles b fs s = .crash c s') : c ≠ .fuel := by
  induction fs generalizing s with
  | nil => cases h
  | cons f fs ih =>
    unfold registerFiles at h
    rw [bind_apply] at h
    split at h
    · rw [bind_apply] at h
      split at h
      · cases h
      · cases h
      · next h2 => cases h; exact ih h2
    · cases h
    · next h1 =>
      cases h
      unfold registerFile at h1
      split at h1
      · cases h1
      · unfold P.tryCatch at h1
        rw [bind_apply] at h1
        unfold createParser at h1
        cases hx : P.advance (({ s with ct := none, nt := none, rest := lexStream (f.content.length + 1)
                                                                          (LexState.init f.content) }) : PS) with
        | ok a t => rw [hx] at h1; cases h1
        | err t => rw [hx] at h1; cases h1
        | crash k t =>
          rw [hx] at h1
          cases h1
          exact advanceLoop_bound hx

theorem alike_same {r r' : ProcOut} (h : Alike r r') : SameOutcome r r' := by
  obtain ⟨c, n, l, hs⟩ := h.state
  exact ⟨h.out, by rw [hs]; exact ⟨rfl, rfl, rfl, rfl, rfl, rfl, rfl⟩, h.calls⟩

/-- what the rest of the tool does is the same, up to locations: the matching of regular expressions, what is found
in lint mode, and further messages -/
structure SameOutside (X X' : Outside) : Prop where
  rx    : X'.rx = X.rx
  lint  : ∀ g s s', SameState s s' → (X'.lint g s').out = (X.lint g s).out ∧
    (X'.lint g s').calls.map withoutLoc = (X.lint g s).calls.map withoutLoc
  notes : ∀ ls ls' s s', ls'.map Loaded.cu = ls.map Loaded.cu → SameState s s' →
    (X'.notes ls' s').map withoutLoc = (X.notes ls s).map withoutLoc

theorem SameOutside.like (h : SameOutside X X') : OutsideLike X X' := by
  have hb : ∀ {s s'}, Base s s' → SameState s s' := fun h => by
    obtain ⟨c, n, l, rfl⟩ := h
    exact ⟨rfl, rfl, rfl, rfl, rfl, rfl, rfl⟩
  exact ⟨h.rx, fun g s s' hs => h.lint g s s' (hb hs), fun ls ls' s s' hl hs => h.notes ls ls' s s' hl (hb hs)⟩

/-! ## Without error recovery -/

theorem processAll_like (ho : o.recover = false) (hX : OutsideLike X X') {fs fs' : List Source}
    (h : List.Forall₂ Layout.SrcLike fs fs') {inc inc' : List SrcFile} (hi : List.Forall₂ SameText inc inc')
    {s s' : PS} (hs : Base s s') (hb : Blank s) :
    Alike (processAll o X required fs inc s) (processAll o X' required fs' inc' s') := by
  have h1 := Layout.registerFiles_like (b := o.parseTrlc) hi s s' hs
  unfold processAll
  have hr : ∀ x t, registerFiles o.parseTrlc inc s = .ok x t → Blank t := fun x t h =>
    hb.quiet (registerFiles_ok h).quiet
  have hc : ∀ t, registerFiles o.parseTrlc inc s ≠ .crash .fuel t := fun t h => registerFiles_bound h rfl
  have hc' : ∀ t, registerFiles o.parseTrlc inc' s' ≠ .crash .fuel t := fun t h => registerFiles_bound h rfl
  generalize registerFiles o.parseTrlc inc s = x at h1 hr hc ⊢
  generalize registerFiles o.parseTrlc inc' s' = y at h1 hc' ⊢
  cases h1 with
  | fuelL => exact absurd rfl (hc _)
  | fuelR => exact absurd rfl (hc' _)
  | crash h => exact ⟨rfl, h, rfl⟩
  | err h => exact ⟨rfl, h, rfl⟩
  | @ok a b s s' e hs =>
    have hb := hr _ _ rfl
    have hb' : Blank s' := by
      obtain ⟨c, n, l, rfl⟩ := hs
      exact ⟨hb.decls, hb.infos, hb.seps, hb.objs, hb.nid, hb.checks⟩
    rcases Layout.process_like ho hX (required := required) (List.rel_append h e.1) hs with k | k | k
    · exact absurd k (C37_run hb)
    · exact absurd k (C37_run hb')
    · exact k

theorem runTool_like (ho : o.recover = false) (hX : OutsideLike X X') {files files' inc inc' : List SrcFile}
    (hf : List.Forall₂ SameText files files') (hi : List.Forall₂ SameText inc inc') :
    Alike (runTool o X required files inc) (runTool o X' required files' inc') := by
  have h1 := Layout.registerFiles_like (b := o.parseTrlc) hf (PS.fresh []) (PS.fresh []) ⟨_, _, _, rfl⟩
  unfold runTool
  have hr : ∀ x t, registerFiles o.parseTrlc files (PS.fresh []) = .ok x t → Blank t := fun x t h =>
    (fresh_blank []).quiet (registerFiles_ok h).quiet
  have hc : ∀ t, registerFiles o.parseTrlc files (PS.fresh []) ≠ .crash .fuel t := fun t h => registerFiles_bound h rfl
  have hc' : ∀ t, registerFiles o.parseTrlc files' (PS.fresh []) ≠ .crash .fuel t :=
    fun t h => registerFiles_bound h rfl
  generalize registerFiles o.parseTrlc files (PS.fresh []) = x at h1 hr hc ⊢
  generalize registerFiles o.parseTrlc files' (PS.fresh []) = y at h1 hc' ⊢
  cases h1 with
  | fuelL => exact absurd rfl (hc _)
  | fuelR => exact absurd rfl (hc' _)
  | crash h => exact ⟨rfl, h, rfl⟩
  | err h => exact ⟨rfl, h, rfl⟩
  | @ok a b s s' e hs =>
    dsimp only
    rw [e.2]
    split
    · exact processAll_like ho hX e.1 hi hs (hr _ _ rfl)
    · exact ⟨rfl, hs, rfl⟩

/-- **C84** without error recovery: files with the same words lead to the same outcome, with the same declarations,
objects, errors and messages, at other locations. -/
theorem C84_same (hX : SameOutside X X') {files files' inc inc' : List SrcFile}
    (hf : List.Forall₂ SameText files files') (hi : List.Forall₂ SameText inc inc') :
    SameOutcome (runTool o.off X required files inc) (runTool o.off X' required files' inc') :=
  alike_same (runTool_like (o := o.off) rfl hX.like hf hi)

/-! ## With error recovery -/

theorem runTool_recover {files inc : List SrcFile} :
    ((runTool o.on X required files inc).out = .table ∨ (runTool o.off X required files inc).out = .table →
      runTool o.on X required files inc = runTool o.off X required files inc) ∧
    (runTool o.on X required files inc).state.errs.head? = (runTool o.off X required files inc).state.errs.head? := by
  have hp : ∀ {a b : List PErr} {l : List PErr} {e : PErr}, l ++ [e] <+: a → l ++ [e] <+: b → a.head? = b.head? := by
    intro a b l e ⟨x, hx⟩ ⟨y, hy⟩
    rw [← hx, ← hy]
    cases l <;> rfl
  unfold runTool
  dsimp only
  split
  · exact ⟨fun _ => rfl, rfl⟩
  · exact ⟨fun _ => rfl, rfl⟩
  · split
    · unfold processAll
      dsimp only
      split
      · exact ⟨fun _ => rfl, rfl⟩
      · exact ⟨fun _ => rfl, rfl⟩
      · next fs _ s _ _ _ more _ s' _ =>
        rcases C83_same (o := o) (X := X) (required := required) (fs := fs ++ more) (s := s') with h | ⟨h1, h2, e, h3, h4⟩
        · exact ⟨fun _ => h, by rw [h]⟩
        · exact ⟨fun h => absurd h (fun h => h.elim h1 h2), hp h3 h4⟩
    · exact ⟨fun _ => rfl, rfl⟩

/-- **C84** with error recovery: files with the same words are accepted or rejected alike.  If they are accepted, the
outcome is the same; if they are rejected, the first error is the same. -/
theorem C84_recovery (hX : SameOutside X X') {files files' inc inc' : List SrcFile}
    (hf : List.Forall₂ SameText files files') (hi : List.Forall₂ SameText inc inc') :
    ((runTool o.on X required files inc).out = .table ↔ (runTool o.on X' required files' inc').out = .table) ∧
    ((runTool o.on X required files inc).out = .table →
      SameOutcome (runTool o.on X required files inc) (runTool o.on X' required files' inc')) ∧
    (runTool o.on X' required files' inc').state.errs.head? = (runTool o.on X required files inc).state.errs.head? := by
  have h := C84_same (o := o) (required := required) hX hf hi
  have h1 := runTool_recover (o := o) (X := X) (required := required) (files := files) (inc := inc)
  have h2 := runTool_recover (o := o) (X := X') (required := required) (files := files') (inc := inc')
  refine ⟨⟨fun k => ?_, fun k => ?_⟩, fun k => ?_, ?_⟩
  · have k' := h.out
    rw [← h1.1 (.inl k), k] at k'
    rw [h2.1 (.inr k'), k']
  · have k' := h.out
    rw [← h2.1 (.inl k), k] at k'
    rw [h1.1 (.inr k'.symm), ← k']
  · have k' := h.out
    rw [← h1.1 (.inl k), k] at k'
    rw [h1.1 (.inl k), h2.1 (.inr k')]
    exact h
  · rw [h1.2, h2.2, h.state.errs]

theorem countP_withoutLoc {p : MHCall → Bool} (hp : ∀ m, p (withoutLoc m) = p m) (l : List MHCall) :
    l.countP p = (l.map withoutLoc).countP p := by
  rw [List.countP_map]
  congr 1
  funext m
  exact (hp m).symm

theorem SameOutcome.exit {r r' : ProcOut} (h : SameOutcome r r') {w : Bool} : commandLine w r' = commandLine w r := by
  have hw : r'.warnings = r.warnings := by
    unfold ProcOut.warnings
    have hm : ∀ m, (withoutLoc m).isWarning = m.isWarning := by intro m; cases m <;> rfl
    rw [countP_withoutLoc hm, countP_withoutLoc hm r.calls, h.calls]
  have he : r'.errors = r.errors := by
    unfold ProcOut.errors
    have hm : ∀ m, (withoutLoc m).isError = m.isError := by intro m; cases m <;> rfl
    rw [countP_withoutLoc hm, countP_withoutLoc hm r.calls, h.calls, h.state.errs]
  unfold commandLine
  rw [h.out, hw, he]

/-- **C84** the exit code of the command line tool is the same for files with the same words (with error recovery,
unless one of the runs ends with an internal exception). -/
theorem C84_exit (hX : SameOutside X X') {files files' inc inc' : List SrcFile}
    (hf : List.Forall₂ SameText files files') (hi : List.Forall₂ SameText inc inc') {w : Bool} :
    commandLine w (runTool o.off X' required files' inc') = commandLine w (runTool o.off X required files inc) ∧
    ∀ a b, commandLine w (runTool o.on X required files inc) = .code a →
      commandLine w (runTool o.on X' required files' inc') = .code b → a = b := by
  refine ⟨SameOutcome.exit (C84_same hX hf hi), fun a b ha hb => ?_⟩
  have h := C84_recovery (o := o) (required := required) hX hf hi
  by_cases hk : (runTool o.on X required files inc).out = .table
  · rw [SameOutcome.exit (h.2.1 hk), ha] at hb
    cases hb; rfl
  · have hx : ∀ {r : ProcOut} {c : Nat}, r.out ≠ .table → commandLine w r = .code c → c = 1 := by
      intro r c hr hc
      unfold commandLine at hc
      split at hc
      · cases hc
      · cases hc; rfl
      · next h => exact absurd h hr
    rw [hx hk ha, hx (fun k => hk (h.1.2 k)) hb]

/-! ## Samples -/

namespace LayoutSample

/-- the sample with comments, more and less white space, and another spelling of a number -/
def rsl : SrcFile := ⟨"p.rsl", .rsl, true, "package P // a
/* b */ type A {
  n Integer[1 .. 1_0] }".toList⟩

def rsl' : SrcFile := ⟨"p.rsl", .rsl, true, "package P type A{n Integer[1..10]}".toList⟩

set_option maxRecDepth 100000 in
example : SameText rsl rsl' := ⟨rfl, rfl, rfl, by decide +kernel⟩

set_option maxRecDepth 100000 in
/-- the layout inside a string literal does matter -/
example : wordsOf "x = \"a b\"".toList ≠ wordsOf "x = \"a  b\"".toList := by decide +kernel

/-- what the rest of the tool does in a run without the verification of checks -/
example (rx : Regex) (render render' : LintMsg → String × String) (hr : ∀ m, (render' m).2 = (render m).2)
    (L L' : Locs) :
    SameOutside ⟨rx, linter render, fun _ _ => [], L⟩ ⟨rx, linter render', fun _ _ => [], L'⟩ where
  rx := rfl
  lint g s s' h := by
    have e : s'.sanityChecks g = s.sanityChecks g := by
      unfold PS.sanityChecks PS.declaredTypes PS.tab
      rw [h.decls, h.infos, h.seps, h.tabs]
    show (linter render' g s').out = (linter render g s).out ∧
      (linter render' g s').calls.map withoutLoc = (linter render g s).calls.map withoutLoc
    unfold linter
    rw [e]
    split
    · exact ⟨rfl, by simp only [List.map_map]; exact List.map_congr_left fun m _ => by simp [withoutLoc, hr]⟩
    · exact ⟨rfl, rfl⟩
  notes _ _ _ _ _ _ := rfl

end LayoutSample

end Verif.Props
