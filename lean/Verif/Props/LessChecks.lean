import Verif.Props.Rearrange
import Verif.Lemmas.LessChecks
/-!
# Removing checks (C95)
-/
namespace Verif.Props
open Verif.Model Verif.Spec Verif.Lemmas Verif.Lemmas.Rearrange Verif.Lemmas.LessChecks

theorem not_block_nil {a b : List Token} (h : BlockShape a) : a ++ b ≠ [] := by
  obtain ⟨x, y, z, k, rfl, -⟩ := h
  simp

theorem text_less {E E' : FileEnv} {rx : Regex} (x : SameEnv E E') {W W1 : World} {ts : List Token} (h : RslText E rx W ts W1) :
    ∀ {ts' C}, SepsOk W.seps → Unchecked E E' ts ts' → FewerChecks C W.checks →
      ∃ C1, FewerChecks C1 W1.checks ∧ RslText E' rx { W with checks := C } ts' { W1 with checks := C1 } := by
  induction h with
  | nil =>
    intro ts' C _ hu hC
    generalize hl : ([] : List Token) = l at hu
    cases hu with
    | nil => exact ⟨C, hC, .nil⟩
    | keep h => exact absurd hl.symm (not_block_nil h)
    | drop => simp at hl
  | @cons W W1 W2 a ts hi ht ih =>
    intro ts' C hs hu hC
    have hshape := item_shape hs hi
    generalize hl : a ++ ts = l at hu
    cases hu with
    | nil => exact absurd hl (not_block_nil hshape)
    | @keep a0 a' b b' h1 h2 h3 =>
      obtain ⟨rfl, rfl⟩ := block_first hshape h1 hl
      obtain ⟨C1, k1, k2⟩ := item_same x hC hi h2
      obtain ⟨C2, k3, k4⟩ := ih (item_seps hi hs) h3 k1
      exact ⟨C2, k3, .cons k2 k4⟩
    | @drop k a0 b b' h1 h2 h3 =>
      obtain ⟨rfl, rfl⟩ := block_first hshape h1 hl
      obtain ⟨k1, k2⟩ := item_drop hC hi h2
      obtain ⟨C2, k3, k4⟩ := ih (item_seps hi hs) h3 k1
      rw [k2] at k4
      exact ⟨C2, k3, k4⟩

/-- rsl files without some of the checks declare the same, without these checks -/
theorem files_less {rx : Regex} {W W1 : World} {fs : List OpenFile} (h : RslFilesText rx W fs W1) :
    ∀ {fs' C}, SepsOk W.seps → List.Forall₂ LessChecked fs fs' → FewerChecks C W.checks →
      ∃ C1, FewerChecks C1 W1.checks ∧ RslFilesText rx { W with checks := C } fs' { W1 with checks := C1 } := by
  induction h with
  | nil =>
    intro fs' C _ hu hC
    cases hu
    exact ⟨C, hC, .nil⟩
  | cons ht _ ih =>
    intro fs' C hs hu hC
    cases hu with
    | cons h1 h2 =>
      obtain ⟨C1, k1, k2⟩ := text_less ⟨h1.global, h1.pkg, h1.imports, h1.resolved⟩ ht hs h1.words hC
      obtain ⟨C2, k3, k4⟩ := ih (text_seps ht hs) h2 k1
      exact ⟨C2, k3, .cons k2 k4⟩

theorem sub_get {l' l : List (List Check)} (h : List.Forall₂ List.Sublist l' l) :
    ∀ (t : Nat) (cs : List Check) (c : Check), l'[t]? = some cs → c ∈ cs → ∃ cs', l[t]? = some cs' ∧ c ∈ cs' := by
  induction h with
  | nil => intro t cs c h; simp at h
  | cons h _ ih =>
    intro t cs c ht hc
    cases t with
    | zero =>
      simp only [List.getElem?_cons_zero, Option.some.injEq] at ht
      subst ht
      exact ⟨_, rfl, h.subset hc⟩
    | succ t =>
      simp only [List.getElem?_cons_succ] at ht
      obtain ⟨cs', k1, k2⟩ := ih t cs c ht hc
      exact ⟨cs', k1, k2⟩

theorem fewer_in {C C' : CheckTab} (h : FewerChecks C' C) : ChecksIn C' C := by
  refine ⟨sub_get h.recs, ?_⟩
  rintro t c ⟨cs, h1, h2⟩
  exact sub_get h.tups t cs c h1 h2

/-- What the linter says depends on the types only, not on the checks. -/
def LintsTypes (X : Outside) : Prop := ∀ g t t', SameBut (worldOf t) (worldOf t') → (X.lint g t).out = (X.lint g t').out

theorem linter_types (render : LintMsg → String × String) {X : Outside} (h : X.lint = linter render) : LintsTypes X := by
  intro g t t' ht
  have td : t.decls = t'.decls := congrArg World.decls ht
  have ti : t.infos = t'.infos := congrArg World.infos ht
  have ts : t.seps = t'.seps := congrArg World.seps ht
  have tt : t.tabs = t'.tabs := congrArg World.tabs ht
  have tb : t.tab = t'.tab := by funext p; unfold PS.tab; rw [tt]
  rw [h]
  unfold linter PS.sanityChecks PS.declaredTypes
  rw [td, ti, ts, tb]

section
variable {o : Options} {X : Outside} {required : List CU → Finset PNode} {fs fs' : List Source} {s : PS}

/-- Blocks of checks have been removed from the project `fs`, giving the project `fs'`: the preambles of all files are read without
message and name the same packages, in the same order of first use; rsl files of the same packages are parsed, in the same order,
and they differ in that some check blocks are missing in the second project; and the trlc files that are parsed have the same
declarations of objects, as in C92. -/
structure ChecksRemoved (o : Options) (required : List CU → Finset PNode) (s : PS) (fs fs' : List Source) (g : STab)
    (ls ls' : List Loaded) (s1 s1' : PS) : Prop where
  read     : loadAll globalTable fs s = .ok (g, ls) s1
  read'    : loadAll globalTable fs' s = .ok (g, ls') s1'
  quiet    : s1.errs = s.errs
  quiet'   : s1'.errs = s.errs
  clean    : ∀ f ∈ fs, CleanSource f
  clean'   : ∀ f ∈ fs', CleanSource f
  lexed    : ∀ f ∈ fs, LexerOutput f.nt f.rest
  lexed'   : ∀ f ∈ fs', LexerOutput f.nt f.rest
  rsl      : parseRslOrder (required (ls.map (·.cu))) (ls.map (·.cu)) = parseRslOrder (required (ls'.map (·.cu))) (ls'.map (·.cu))
  rslFiles : List.Forall₂ LessChecked ((Model.rslFiles (required (ls.map (·.cu))) ls).map (·.openFile g o.recover))
    ((Model.rslFiles (required (ls'.map (·.cu))) ls').map (·.openFile g o.recover))
  trlc     : Rearranged ((trlcFiles (required (ls.map (·.cu))) ls).map (·.openFile g o.recover))
    ((trlcFiles (required (ls'.map (·.cu))) ls').map (·.openFile g o.recover))

theorem ChecksRemoved.alike {g : STab} {ls ls' : List Loaded} {s1 s1' : PS} (m : ChecksRemoved o required s fs fs' g ls ls' s1 s1') :
    AlikeBut FewerChecks o required s fs fs' g ls ls' s1 s1' :=
  ⟨m.read, m.read', m.quiet, m.quiet', m.clean, m.clean', m.lexed, m.lexed', m.rsl, fun _ W0 W h hs hc => by
    have h0 : FewerChecks W0.checks W0.checks := by
      rw [hc]
      exact ⟨.nil, .nil⟩
    obtain ⟨C1, k1, k2⟩ := files_less h hs m.rslFiles h0
    exact ⟨{ W with checks := C1 }, rfl, k1, k2⟩⟩

/-- **C95**: checks can be removed.  If check blocks are removed from a project that is processed without errors, then it is still
processed without errors; the types are the same, the objects are the same, and every type has a part of the checks it had,
in the same order. -/
theorem C95_checks_removed {g : STab} {ls ls' : List Loaded} {s1 s1' : PS} (hb : Blank s) (hp : o.parseTrlc = true)
    (hX : o.lint = true → LintsTypes X) (m : ChecksRemoved o required s fs fs' g ls ls' s1 s1')
    (h : (process o X required fs s).out = .table) (he : (process o X required fs s).state.errs = s.errs) :
    (process o X required fs' s).out = .table ∧ (process o X required fs' s).state.errs = s.errs ∧
      (process o X required fs' s).state.decls = (process o X required fs s).state.decls ∧
      (process o X required fs' s).state.infos = (process o X required fs s).state.infos ∧
      (process o X required fs' s).state.seps = (process o X required fs s).state.seps ∧
      FewerChecks (process o X required fs' s).state.checks (process o X required fs s).state.checks ∧
      SameObjects (process o X required fs s).state.objs (process o X required fs' s).state.objs := by
  obtain ⟨s3, k1, k2, k3, k4, k5, k6, k7, -⟩ := run_similar (Q := fun a b => SameObjects a b ∧ AllResolved (process o X required fs s).state.decls b)
    hb hp (fun ho t t' h1 _ => hX ho g t t' h1) m.alike (fun _ _ h => fewer_in h) h he
    (fun _ _ h => h.1.data) (by
      intro s2 t hi hs ht _ hE hE' hc h1 h2 h3
      obtain ⟨s3, a1, a2, a3, a4⟩ := rearranged_objects hi hs ht hE hE' hc m.trlc h1 h2 h3
      exact ⟨s3, a1, a2, a4, by rw [(run_kept hi.sound.world h1).decls]; exact a3⟩)
  obtain ⟨l1, l2⟩ := k7 (by rw [k2]; exact k6.2)
  rw [l2]
  exact ⟨l1, k1, k2, k3, k4, k5, k6.1⟩

end
end Verif.Props
