import Verif.Props.Resection
import Verif.Props.TokenSamples
/-!
# C96 applies to a concrete project
-/
namespace Verif.Props
open Verif.Model Verif.Spec Verif.Lemmas Verif.Lemmas.Rearrange

namespace SectionSample
open RunSample (options outside)
open TokenSample
open MoveSample (none' findAll findAll_sound sameToks sameToks_sound sameRsl lexed lexed_sound)

/-- `B y { m = 3 } section "t" { section "u" { S x { m = 2 r = y } } } B z { m = 1 }` -/
def a' : Source := file "a.trlc" .trlc (pkg ++ [idn "B", idn "y", pun .C_BRA, idn "m", pun .ASSIGN, num 3, pun .C_KET, kw "section", str "t", pun .C_BRA, kw "section", str "u", pun .C_BRA, idn "S", idn "x", pun .C_BRA, idn "m", pun .ASSIGN, num 2, idn "r", pun .ASSIGN, idn "y", pun .C_KET, pun .C_KET, pun .C_KET, idn "B", idn "z", pun .C_BRA, idn "m", pun .ASSIGN, num 1, pun .C_KET])

def after : List Source := [rsl, a', b]

def sameDecl (p p' : Piece) : Bool :=
  decide (p'.env.global = p.env.global ∧ p'.env.pkg = p.env.pkg ∧ p'.env.imports = p.env.imports ∧
    p'.env.resolved = p.env.resolved) && sameToks p.env p'.env p.toks p'.toks

theorem sameDecl_sound {p p' : Piece} (h : sameDecl p p' = true) : SameDecl p p' := by
  simp only [sameDecl, Bool.and_eq_true, decide_eq_true_eq] at h
  obtain ⟨⟨h1, h2, h3, h4⟩, h5⟩ := h
  exact ⟨⟨h1, h2, h3, h4⟩, sameToks_sound h5⟩

/-- the four objects, in another order, and not all in the same sections -/
def exchanged (fs fs' : List OpenFile) : Bool :=
  match findAll fs, findAll fs' with
  | some [p, q, r, t], some [r', p', q', t'] =>
    sameDecl p p' && sameDecl q q' && sameDecl r r' && sameDecl t t' && decide (p.sects ≠ p'.sects ∧ q.sects ≠ q'.sects)
  | _, _ => false

theorem exchanged_sound {fs fs' : List OpenFile} (h : exchanged fs fs' = true) : RearrangedBy SameDecl fs fs' := by
  unfold exchanged at h
  split at h
  · next p q r t r' p' q' t' h1 h2 =>
    simp only [Bool.and_eq_true] at h
    obtain ⟨⟨⟨⟨k1, k2⟩, k3⟩, k4⟩, -⟩ := h
    refine ⟨_, [r, p, q, t], _, findAll_sound h1, findAll_sound h2, ?_, .cons (sameDecl_sound k3) (.cons (sameDecl_sound k1)
      (.cons (sameDecl_sound k2) (.cons (sameDecl_sound k4) .nil)))⟩
    exact (List.perm_append_comm (l₁ := [p, q]) (l₂ := [r])).append_right [t]
  · cases h

/-- everything about the two projects that can be computed -/
def fits : Bool :=
  project.all lexed && after.all lexed &&
  match loadAll globalTable project start, loadAll globalTable after start with
  | .ok (g, ls) s1, .ok (g', ls') s1' =>
    decide (g = g' ∧ s1.errs = start.errs ∧ s1'.errs = start.errs) && sameRsl ls ls' &&
    exchanged ((trlcFiles ∅ ls).map (·.openFile g options.recover)) ((trlcFiles ∅ ls').map (·.openFile g' options.recover))
  | _, _ => false

theorem fits_sound (h : fits = true) : ∃ g ls ls' s1 s1', Alike none' start project after g ls ls' s1 s1' ∧
    RearrangedBy SameDecl ((trlcFiles (none' (ls.map (·.cu))) ls).map (·.openFile g options.recover))
      ((trlcFiles (none' (ls'.map (·.cu))) ls').map (·.openFile g options.recover)) := by
  unfold fits at h
  simp only [Bool.and_eq_true, List.all_eq_true] at h
  obtain ⟨⟨h1, h2⟩, h3⟩ := h
  cases e1 : loadAll globalTable project start with
  | err s => rw [e1] at h3; cases h3
  | crash c s => rw [e1] at h3; cases h3
  | ok r s1 =>
    cases e2 : loadAll globalTable after start with
    | err s => rw [e1, e2] at h3; cases h3
    | crash c s => rw [e1, e2] at h3; cases h3
    | ok r' s1' =>
      obtain ⟨g, ls⟩ := r
      obtain ⟨g', ls'⟩ := r'
      rw [e1, e2] at h3
      simp only [Bool.and_eq_true, decide_eq_true_eq] at h3
      obtain ⟨⟨⟨rfl, h4, h5⟩, h6⟩, h7⟩ := h3
      simp only [sameRsl, decide_eq_true_eq] at h6
      exact ⟨g, ls, ls', s1, s1', ⟨e1, e2, h4, h5, fun f hf => (lexed_sound (h1 f hf)).1, fun f hf => (lexed_sound (h2 f hf)).1,
        fun f hf => (lexed_sound (h1 f hf)).2, fun f hf => (lexed_sound (h2 f hf)).2, h6.1, h6.2⟩, exchanged_sound h7⟩

set_option maxRecDepth 100000 in
theorem project_table : (process options outside none' project start).out = .table ∧
    (process options outside none' project start).state.errs = start.errs := by decide +kernel

set_option maxRecDepth 100000 in
theorem fits_true : fits = true := by decide +kernel

attribute [local irreducible] process in
/-- C96 applies: with other sections the objects are the same. -/
example : (process options outside none' after start).out = .table ∧
    SameContent (process options outside none' project start).state.objs (process options outside none' after start).state.objs := by
  obtain ⟨g, ls, ls', s1, s1', m, ht⟩ := fits_sound fits_true
  have h := C96_sections (X := outside) (fresh_blank _) rfl (fun _ => linter_decls (fun _ => ("", "")) rfl) m ht
    project_table.1 project_table.2
  exact ⟨h.1, h.2.2.2.2.2.2⟩

end SectionSample
end Verif.Props
