import Verif.Lemmas.LexPrefix
import Verif.Props.Layout
/-!
# C84: white space and comments in a text

The words of a text do not change when white space or comments are written between them.
-/
namespace Verif.Props
open Verif.Model Verif.Spec Verif.Lemmas
open Verif.Lemmas.LexShift

variable {o : Options} {X X' : Outside} {required : List CU → Finset PNode}

/-- **C84** white space and comments at the beginning of a file do not change its words. -/
theorem C84_start {w : List Char} (hw : Gap w) (content : List Char) : wordsOf (w ++ content) = wordsOf content :=
  wordsFrom_gap hw (inv_init content) (inv_init _) rfl rfl (by omega) (by simp)

/-- **C84** instead of what is written between a word (given by its token `t`, which ends the text `a`) and the next
one, white space and comments can be written, if white space comes first. -/
theorem C84_between {a w w' b : List Char} {t : Token} (ht : t ∈ (lexAll (a ++ w ++ b)).1) (he : t.endPos + 1 = a.length)
    (hk : t.kind ≠ .COMMENT) (hw : Gap w) (hw' : Gap w') (hs : SpaceFirst w') : wordsOf (a ++ w' ++ b) = wordsOf (a ++ w ++ b) := by
  have hl : ∀ {w : List Char}, Gap w → ∀ (m : Nat) (c : LexState), Inv c → c.todo = w ++ b → (w ++ b).length < m →
      wordsFrom m c = wordsFrom (b.length + 1) (LexState.init b) := fun hw m c hc h hm =>
    wordsFrom_gap hw (inv_init b) hc h rfl (by omega) (by simpa using hm)
  refine wordsFrom_insert (hl hw) (hl hw') ?_ hk _ (inv_init _) (inv_init _) (X := a) ?_ ?_ ht ?_ ?_ ?_
  · obtain ⟨c, r, rfl, hc⟩ := hs
    exact ⟨c, r ++ b, rfl, hc⟩
  · simp [LexState.init]
  · simp [LexState.init]
  · simpa [LexState.init] using he
  · simp [LexState.init]
  · simp [LexState.init]

/-- **C84** the same after the last word, where the last comment can also end with the file. -/
theorem C84_end {a w w' : List Char} {t : Token} (ht : t ∈ (lexAll (a ++ w)).1) (he : t.endPos + 1 = a.length)
    (hk : t.kind ≠ .COMMENT) (hw : Ending w) (hw' : Ending w') (hs : SpaceFirst w') : wordsOf (a ++ w') = wordsOf (a ++ w) := by
  refine wordsFrom_insert (L := []) (fun m c hc h hm => wordsFrom_ending hw hc h hm) (fun m c hc h hm => wordsFrom_ending hw' hc h hm)
    hs hk _ (inv_init _) (inv_init _) (X := a) rfl rfl ht ?_ ?_ ?_
  · simpa [LexState.init] using he
  · simp [LexState.init]
  · simp [LexState.init]

/-- Two texts that differ in white space and comments between words only -/
inductive Relayout : List Char → List Char → Prop
  | refl (a) : Relayout a a
  | symm {a b} : Relayout a b → Relayout b a
  | trans {a b c} : Relayout a b → Relayout b c → Relayout a c
  | start {w a} : Gap w → Relayout a (w ++ a)
  | between {a w w' b t} : t ∈ (lexAll (a ++ w ++ b)).1 → t.endPos + 1 = a.length → t.kind ≠ .COMMENT → Gap w → Gap w' →
    SpaceFirst w' → Relayout (a ++ w ++ b) (a ++ w' ++ b)
  | last {a w w' t} : t ∈ (lexAll (a ++ w)).1 → t.endPos + 1 = a.length → t.kind ≠ .COMMENT → Ending w → Ending w' →
    SpaceFirst w' → Relayout (a ++ w) (a ++ w')

/-- **C84** texts that differ in white space and comments only have the same words. -/
theorem C84_words {a b : List Char} (h : Relayout a b) : wordsOf b = wordsOf a := by
  induction h with
  | refl => rfl
  | symm _ ih => exact ih.symm
  | trans _ _ ih ih' => exact ih'.trans ih
  | start hw => exact C84_start hw _
  | between ht he hk hw hw' hs => exact C84_between ht he hk hw hw' hs
  | last ht he hk hw hw' hs => exact C84_end ht he hk hw hw' hs

/-- The same file, with other white space and comments -/
structure Reformatted (f f' : SrcFile) : Prop where
  name    : f'.name = f.name
  kind    : f'.kind = f.kind
  primary : f'.primary = f.primary
  text    : Relayout f.content f'.content

theorem Reformatted.same {f f' : SrcFile} (h : Reformatted f f') : SameText f f' :=
  ⟨h.name, h.kind, h.primary, C84_words h.text⟩

/-- **C84** after a change of white space and comments in some files a run has the same outcome, with the same
declarations, objects, errors and messages, at other locations (without error recovery). -/
theorem C84_reformatted (hX : SameOutside X X') {files files' inc inc' : List SrcFile}
    (hf : List.Forall₂ Reformatted files files') (hi : List.Forall₂ Reformatted inc inc') :
    SameOutcome (runTool o.off X required files inc) (runTool o.off X' required files' inc') :=
  C84_same hX (hf.imp fun _ _ => Reformatted.same) (hi.imp fun _ _ => Reformatted.same)

/-- **C84** the same with error recovery: the files are accepted or rejected alike, with the same outcome or with the
same first error. -/
theorem C84_reformatted_recovery (hX : SameOutside X X') {files files' inc inc' : List SrcFile}
    (hf : List.Forall₂ Reformatted files files') (hi : List.Forall₂ Reformatted inc inc') :
    ((runTool o.on X required files inc).out = .table ↔ (runTool o.on X' required files' inc').out = .table) ∧
    ((runTool o.on X required files inc).out = .table →
      SameOutcome (runTool o.on X required files inc) (runTool o.on X' required files' inc')) ∧
    (runTool o.on X' required files' inc').state.errs.head? = (runTool o.on X required files inc).state.errs.head? :=
  C84_recovery hX (hf.imp fun _ _ => Reformatted.same) (hi.imp fun _ _ => Reformatted.same)

/-! ## Samples -/

namespace LayoutTextSample

/-- the token that ends at a place -/
def endsAt (n : Nat) (content : List Char) : Bool :=
  (lexAll content).1.any fun t => t.endPos + 1 == n && t.kind != .COMMENT

theorem endsAt_iff {n : Nat} {content : List Char} (h : endsAt n content = true) :
    ∃ t ∈ (lexAll content).1, t.endPos + 1 = n ∧ t.kind ≠ .COMMENT := by
  simpa [endsAt] using h

/-- blanks and both kinds of comments -/
def blanks : List Char := "  // a / * \"b\n\t/* ** c */ ".toList

theorem blanks_gap : Gap blanks :=
  .white rfl (.white rfl (.line (body := " a / * \"b".toList) (by decide) (.white rfl
    (.block (body := " ** c ".toList) (by
      intro x y h
      have h1 : ∀ i, i + 1 < 8 → ("* ** c *".toList)[i]? = some '*' → ("* ** c *".toList)[i + 1]? ≠ some '/' := by
        intro i hi
        have : i = 0 ∨ i = 1 ∨ i = 2 ∨ i = 3 ∨ i = 4 ∨ i = 5 ∨ i = 6 := by omega
        rcases this with rfl | rfl | rfl | rfl | rfl | rfl | rfl <;> decide
      have hl := congrArg List.length h
      have e1 := congrArg (fun l : List Char => l[x.length]?) h
      have e2 := congrArg (fun l : List Char => l[x.length + 1]?) h
      simp at hl e1 e2
      exact h1 x.length (by omega) (by simpa using e1) (by simpa using e2)) (.white rfl .nil)))))

set_option maxRecDepth 100000 in
/-- between a name and a bracket, where nothing was written before -/
example : wordsOf ("x = A(".toList ++ blanks ++ "1..2)".toList) = wordsOf ("x = A(".toList ++ [] ++ "1..2)".toList) := by
  obtain ⟨t, h1, h2, h3⟩ := endsAt_iff (n := 6) (content := "x = A(".toList ++ [] ++ "1..2)".toList) (by decide +kernel)
  exact C84_between h1 h2 h3 .nil blanks_gap ⟨' ', _, rfl, rfl⟩

set_option maxRecDepth 100000 in
/-- between a number and `..` -/
example : wordsOf ("x = A(1".toList ++ blanks ++ "..2)".toList) = wordsOf ("x = A(1".toList ++ [] ++ "..2)".toList) := by
  obtain ⟨t, h1, h2, h3⟩ := endsAt_iff (n := 7) (content := "x = A(1".toList ++ [] ++ "..2)".toList) (by decide +kernel)
  exact C84_between h1 h2 h3 .nil blanks_gap ⟨' ', _, rfl, rfl⟩

set_option maxRecDepth 100000 in
/-- a comment at the end of a file -/
example : wordsOf "x = 1 // last".toList = wordsOf "x = 1".toList := by
  obtain ⟨t, h1, h2, h3⟩ := endsAt_iff (n := 5) (content := "x = 1".toList ++ []) (by decide +kernel)
  exact C84_end (w' := " // last".toList) h1 h2 h3 (.gap .nil)
    (.comment (w := [' ']) (body := " last".toList) (.white rfl .nil) (by decide)) ⟨' ', _, rfl, rfl⟩

set_option maxRecDepth 100000 in
/-- why white space has to come first: after a division sign a comment becomes another one -/
example : wordsOf "a // b\n * c".toList ≠ wordsOf "a // * b\n * c".toList ∨
    wordsOf "a / b".toList ≠ wordsOf "a //* c */ b".toList := by decide +kernel

set_option maxRecDepth 100000 in
/-- white space inside of a word does matter -/
example : wordsOf "ab".toList ≠ wordsOf "a b".toList ∧ wordsOf "a>=b".toList ≠ wordsOf "a> =b".toList := by decide +kernel

end LayoutTextSample

end Verif.Props
