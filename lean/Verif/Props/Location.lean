import Verif.Model.Location
import Verif.Spec.Text
import Mathlib.Data.List.TakeWhile
import Mathlib.Data.List.Induction
/-!
# C43, C44: end location and context lines of a message
-/
namespace Verif.Props
open Verif.Model Verif.Spec

/-! ## C43 -/

private theorem endCol_spec (content : List Char) (endPos : Nat) (hend : content[endPos]? ≠ some '\n') :
    ∀ n, n ≤ endPos → (∀ i, n < i → i ≤ endPos → content[i]? ≠ some '\n') →
    (content[0]? ≠ some '\n' ∧ content[1]? ≠ some '\n' ∨ ∃ i, 2 ≤ i ∧ i ≤ n ∧ content[i]? = some '\n') →
    ∃ b, endColLoop content endPos n = endPos + 1 - b ∧ b ≤ endPos ∧
      (b = 0 ∨ ∃ j, b = j + 1 ∧ content[j]? = some '\n') ∧
      ∀ i, b ≤ i → i ≤ endPos → content[i]? ≠ some '\n'
  | 0, _, hno, hc => by
    refine ⟨0, by simp [endColLoop], by omega, Or.inl rfl, ?_⟩
    intro i _ hi
    rcases Nat.eq_zero_or_pos i with rfl | h
    · rcases hc with hc | ⟨j, _, _, _⟩
      · exact hc.1
      · omega
    · exact hno i h hi
  | 1, _, hno, hc => by
    refine ⟨0, by simp [endColLoop], by omega, Or.inl rfl, ?_⟩
    intro i _ hi
    rcases hc with hc | ⟨j, _, _, _⟩
    · rcases Nat.lt_or_ge 1 i with h | h
      · exact hno i h hi
      · have : i = 0 ∨ i = 1 := by omega
        rcases this with rfl | rfl
        · exact hc.1
        · exact hc.2
    · omega
  | n + 2, hn, hno, hc => by
    unfold endColLoop
    by_cases hnl : content[n + 2]? = some '\n'
    · have hne : n + 2 ≠ endPos := by rintro rfl; exact hend hnl
      refine ⟨n + 3, ?_, by omega, Or.inr ⟨n + 2, rfl, hnl⟩, ?_⟩
      · rw [if_pos hnl]; omega
      · intro i h1 h2; exact hno i (by omega) h2
    · rw [if_neg hnl]
      apply endCol_spec content endPos hend (n + 1) (by omega)
      · intro i h1 h2
        rcases Nat.lt_or_ge (n + 2) i with h | h
        · exact hno i h h2
        · have : i = n + 2 := by omega
          subst this; exact hnl
      · rcases hc with hc | ⟨i, h1, h2, h3⟩
        · exact Or.inl hc
        · refine Or.inr ⟨i, h1, ?_, h3⟩
          rcases Nat.lt_or_ge i (n + 2) with h | h
          · omega
          · have : i = n + 2 := by omega
            subst this; exact (hnl h3).elim

private theorem count_split (content : List Char) (a b : Nat) (hab : a ≤ b) :
    (content.take b).count '\n' = (content.take a).count '\n' + ((content.drop a).take (b - a)).count '\n' := by
  have : content.take b = content.take a ++ (content.drop a).take (b - a) := by
    rw [← List.take_add]; congr 1; omega
  rw [this, List.count_append]

/-- Column of the position after the last line break `b`. -/
private theorem colOf_eq (content : List Char) : ∀ (p b : Nat), b ≤ p → p < content.length →
    (b = 0 ∨ ∃ j, b = j + 1 ∧ content[j]? = some '\n') →
    (∀ i, b ≤ i → i < p → content[i]? ≠ some '\n') → colOf content p = p + 1 - b := by
  intro p b hb hp hbeg hno
  unfold colOf
  have e : content.take p = content.take b ++ (content.drop b).take (p - b) := by
    rw [← List.take_add]; congr 1; omega
  have hseg : ∀ c ∈ ((content.drop b).take (p - b)).reverse, decide (c ≠ '\n') = true := by
    intro c hc
    rw [List.mem_reverse] at hc
    obtain ⟨i, hi, he⟩ := List.getElem_of_mem hc
    simp only [List.length_take, List.length_drop] at hi
    simp only [List.getElem_take, List.getElem_drop] at he
    have := hno (b + i) (by omega) (by omega)
    rw [List.getElem?_eq_getElem (by omega), he] at this
    simpa using this
  rw [e, List.reverse_append, List.takeWhile_append_of_pos hseg]
  have hz : (content.take b).reverse.takeWhile (· ≠ '\n') = [] := by
    rcases hbeg with rfl | ⟨j, rfl, hj⟩
    · simp
    · have : j < content.length := by omega
      rw [List.getElem?_eq_getElem this] at hj
      rw [List.take_succ_eq_append_getElem this, Option.some.inj hj]
      simp
  rw [hz]
  simp only [List.append_nil, List.length_reverse, List.length_take, List.length_drop]
  omega

/-- **C43, what holds**: for a range whose last character is not a line break, in a
text where the last line break before it is not the first or second character of
the text, the end location is exactly the line and column of the last character.
Missing: a line break at offset 0 or 1 that is the last one before the end
(`C43_early_newline_wrong_column`), and ranges that end in a line break. -/
theorem C43_end_location_partial (content : List Char) (startPos endPos : Nat)
    (hse : startPos ≤ endPos) (hlen : endPos < content.length)
    (hend : content[endPos]? ≠ some '\n')
    (hearly : content[0]? ≠ some '\n' ∧ content[1]? ≠ some '\n' ∨
      ∃ i, 2 ≤ i ∧ i ≤ endPos ∧ content[i]? = some '\n') :
    endLocation content (lineOf content startPos) startPos endPos
      = (lineOf content endPos, colOf content endPos) := by
  obtain ⟨b, h1, h2, h3, h4⟩ := endCol_spec content endPos hend endPos (Nat.le_refl _)
    (fun i h1 h2 => by omega) hearly
  unfold endLocation
  rw [h1, colOf_eq content endPos b h2 hlen h3 (fun i hi1 hi2 => h4 i hi1 (by omega))]
  congr 1
  unfold lineOf
  rw [count_split content startPos endPos hse, Nat.add_assoc]
  congr 2
  rw [show endPos + 1 - startPos = (endPos - startPos) + 1 by omega]
  have hl : endPos - startPos < (content.drop startPos).length := by simp; omega
  rw [List.take_succ_eq_append_getElem hl, List.count_append]
  have : (content.drop startPos)[endPos - startPos] ≠ '\n' := by
    rw [List.getElem_drop]
    intro h
    apply hend
    rw [List.getElem?_eq_getElem hlen]
    simp only [show startPos + (endPos - startPos) = endPos by omega] at h
    rw [h]
  rw [List.count_singleton, if_neg (by simpa using this)]
  rfl

/-- **C43 is violated**: in a file that starts with an empty line, the end of a range
on the second line gets a column that is one too large. -/
theorem C43_early_newline_wrong_column :
    endLocation "\nab".toList 2 1 2 = (2, 3) ∧
    lineOf "\nab".toList 2 = 2 ∧ colOf "\nab".toList 2 = 2 := by decide +kernel

example : endLocation "x\nab\ncd".toList 2 2 6 = (3, 2) := by decide +kernel

private theorem endCol_none (content : List Char) (endPos : Nat) : ∀ n, (∀ i, 2 ≤ i → i ≤ n → content[i]? ≠ some '\n') →
    endColLoop content endPos n = endPos + 1
  | 0, _ => by simp [endColLoop]
  | 1, _ => by simp [endColLoop]
  | n + 2, h => by
    unfold endColLoop
    rw [if_neg (h (n + 2) (by omega) (by omega))]
    exact endCol_none content endPos (n + 1) fun i h1 h2 => h i h1 (by omega)

/-- **C43**, exactly when it holds: the end location is the line and column of the last character of the range iff this is not a
line break, and the last line break before it is not the first or second character of the text. -/
theorem C43_end_location_iff (content : List Char) (startPos endPos : Nat) (hse : startPos ≤ endPos) (hlen : endPos < content.length) :
    endLocation content (lineOf content startPos) startPos endPos = (lineOf content endPos, colOf content endPos) ↔
      content[endPos]? ≠ some '\n' ∧ ((∀ i, i < 2 → i ≤ endPos → content[i]? ≠ some '\n') ∨
        ∃ i, 2 ≤ i ∧ i ≤ endPos ∧ content[i]? = some '\n') := by
  constructor
  · intro h
    simp only [endLocation, Prod.mk.injEq] at h
    obtain ⟨h1, h2⟩ := h
    have hend : content[endPos]? ≠ some '\n' := by
      intro hx
      have e1 := count_split content startPos (endPos + 1) (by omega)
      have e2 : (content.take (endPos + 1)).count '\n' = (content.take endPos).count '\n' + 1 := by
        rw [List.getElem?_eq_getElem hlen] at hx
        rw [List.take_succ_eq_append_getElem hlen, List.count_append, Option.some.inj hx]
        simp
      unfold lineOf at h1
      omega
    refine ⟨hend, ?_⟩
    by_cases hl : ∃ i, 2 ≤ i ∧ i ≤ endPos ∧ content[i]? = some '\n'
    · exact .inr hl
    · have hno : ∀ i, 2 ≤ i → i ≤ endPos → content[i]? ≠ some '\n' := fun i a b c => hl ⟨i, a, b, c⟩
      rw [endCol_none content endPos endPos hno] at h2
      refine .inl fun i hi hie hx => ?_
      by_cases h1' : 1 ≤ endPos ∧ content[1]? = some '\n'
      · have hne : endPos ≠ 1 := by
          rintro rfl
          exact hend h1'.2
        have := colOf_eq content endPos 2 (by omega) hlen (.inr ⟨1, rfl, h1'.2⟩) (fun i a b => hno i a (by omega))
        omega
      · have h0 : i = 0 := by
          rcases Nat.lt_or_ge i 1 with h | h
          · omega
          · have : i = 1 := by omega
            subst this
            exact (h1' ⟨hie, hx⟩).elim
        subst h0
        have hne : endPos ≠ 0 := by
          rintro rfl
          exact hend hx
        have := colOf_eq content endPos 1 (by omega) hlen (.inr ⟨0, rfl, hx⟩) (fun i a b => by
          rcases Nat.lt_or_ge i 2 with h | h
          · have : i = 1 := by omega
            subst this
            exact fun hy => h1' ⟨by omega, hy⟩
          · exact hno i h (by omega))
        omega
  · rintro ⟨hend, h | h⟩
    · by_cases h0 : endPos = 0
      · subst h0
        have h' := h 0 (by omega) (by omega)
        have hs : startPos = 0 := by omega
        subst hs
        cases content with
        | nil => simp at hlen
        | cons c r =>
          have hc : c ≠ '\n' := by simpa using h'
          simp [endLocation, endColLoop, lineOf, colOf, hc]
      · exact C43_end_location_partial content startPos endPos hse hlen hend
          (.inl ⟨h 0 (by omega) (by omega), h 1 (by omega) (by omega)⟩)
    · exact C43_end_location_partial content startPos endPos hse hlen hend (.inr h)

/-- a case where the hypotheses and both sides of C43 hold, and one where the right side does not -/
example : (0 ≤ 3 ∧ 3 < "x\n\nab".toList.length ∧ "x\n\nab".toList[3]? ≠ some '\n' ∧ "x\n\nab".toList[2]? = some '\n') ∧
    "x\nab".toList[1]? = some '\n' ∧ "x\nab".toList[2]? ≠ some '\n' := by decide +kernel

/-! ## C44 -/

/-- Line start and end around an offset: `content = a ++ pre ++ post ++ b`. -/
structure LineAround (content : List Char) (startPos : Nat) (a pre post b : List Char) : Prop where
  split : content = a ++ pre ++ post ++ b
  pos   : startPos = a.length + pre.length
  begin : a = [] ∨ ∃ a', a = a' ++ ['\n']
  stop  : b = [] ∨ ∃ b', b = '\n' :: b'
  pre1  : '\n' ∉ pre
  post1 : '\n' ∉ post

private theorem ctxBack_eq (content : List Char) (a : List Char) (hbeg : a = [] ∨ ∃ a', a = a' ++ ['\n']) :
    ∀ (pre rest line : List Char), content = a ++ pre ++ rest → '\n' ∉ pre →
    ctxBack content (a.length + pre.length) line = (pre ++ line, a.length) := by
  intro pre
  induction pre using List.reverseRecOn with
  | nil =>
    intro rest line hc _
    rcases hbeg with rfl | ⟨a', rfl⟩
    · rfl
    · simp only [List.length_append, List.length_cons, List.length_nil, Nat.add_zero]
      have : content[a'.length]? = some '\n' := by rw [hc]; simp
      unfold ctxBack
      rw [Nat.zero_add]
      simp only [this, if_true]
      rfl
  | append_singleton pre c ih =>
    intro rest line hc hnl
    have hcc : content[a.length + pre.length]? = some c := by
      rw [hc]; simp [List.getElem?_append]
    have hne : c ≠ '\n' := by rintro rfl; simp at hnl
    have := ih (c :: rest) (c :: line) (by rw [hc]; simp) (fun h => hnl (by simp [h]))
    simp only [List.length_append, List.length_cons, List.length_nil, Nat.zero_add, ← Nat.add_assoc]
    unfold ctxBack
    simp only [hcc, hne, if_false]
    rw [this]; simp

private theorem ctxFwd_eq (b : List Char) (hstop : b = [] ∨ ∃ b', b = '\n' :: b') :
    ∀ (post : List Char) (n : Nat) (line : List Char), '\n' ∉ post →
    ctxFwd (post ++ b) n line = (line ++ post, n + post.length) := by
  intro post
  induction post with
  | nil =>
    intro n line _
    rcases hstop with rfl | ⟨b', rfl⟩
    · simp [ctxFwd]
    · simp [ctxFwd]
  | cons c r ih =>
    intro n line h
    have hne : c ≠ '\n' := by rintro rfl; simp at h
    simp only [List.cons_append, ctxFwd, hne, if_false]
    rw [ih (n + 1) (line ++ [c]) (fun h' => h (by simp [h']))]
    simp; omega

/-- **C44**: for a range whose first character `c` is not white space, the printed
line is the line containing `c` without its indentation, and the marker line is
blanks up to the first character of the range, then one `^` for each character of
the range on this line, nothing else.  (`a`, `pre`, `c :: post`, `b` split the text at
the line around the start of the range, `indent` is the white space at its front.) -/
theorem C44_context_lines (content : List Char) (startPos endPos : Nat) (a pre post b : List Char) (c : Char)
    (hl : LineAround content startPos a pre (c :: post) b) (hse : startPos ≤ endPos)
    (hc : isSpace c = false) :
    ∃ indent text mark, pre ++ c :: post = indent ++ text ∧ (∀ d ∈ indent, isSpace d = true) ∧
      (∀ d, text.head? = some d → isSpace d = false) ∧
      contextLines content startPos endPos = (text, mark) ∧
      -- position of each column of the printed line in the file
      (∀ i, i < text.length → text[i]? = content[a.length + indent.length + i]?) ∧
      -- marks
      (∀ i : Nat, mark[i]? = some '^' ↔
        startPos ≤ a.length + indent.length + i ∧ a.length + indent.length + i ≤ endPos ∧ i < text.length) ∧
      (∀ i : Nat, mark[i]? = some ' ' ↔ a.length + indent.length + i < startPos) ∧
      (∀ d ∈ mark, d = '^' ∨ d = ' ') := by
  have hcn : c ≠ '\n' := by rintro rfl; simp [isSpace] at hc
  have hb1 : ctxBack content (startPos + 1) [] = (pre ++ [c], a.length) := by
    have := ctxBack_eq content a hl.begin (pre ++ [c]) (post ++ b) [] (by rw [hl.split]; simp)
      (by
        intro h
        rcases List.mem_append.mp h with h | h
        · exact hl.pre1 h
        · simp at h; exact hcn h.symm)
    rw [hl.pos]
    simpa [Nat.add_assoc] using this
  have hdrop : content.drop (startPos + 1) = post ++ b := by
    have : content = (a ++ pre ++ [c]) ++ (post ++ b) := by rw [hl.split]; simp
    rw [this, hl.pos, show a.length + pre.length + 1 = (a ++ pre ++ [c]).length by simp; omega,
      List.drop_left]
  have hf := ctxFwd_eq b hl.stop post (startPos + 1) (pre ++ [c]) (fun h => hl.post1 (by simp [h]))
  have hind : ∃ indent rest', pre = indent ++ rest' ∧ (∀ d ∈ indent, isSpace d = true) ∧
      (∀ d, (rest' ++ c :: post).head? = some d → isSpace d = false) ∧
      lstrip (pre ++ c :: post) = rest' ++ c :: post := by
    clear hb1 hdrop hf hl
    induction pre with
    | nil => exact ⟨[], [], rfl, by simp, by intro d hd; simp at hd; rw [← hd]; exact hc, by
        simp [lstrip, List.dropWhile, hc]⟩
    | cons x xs ih =>
      by_cases hx : isSpace x = true
      · obtain ⟨ind, r', h1, h2, h3, h4⟩ := ih
        refine ⟨x :: ind, r', by rw [h1]; rfl, ?_, h3, ?_⟩
        · intro d hd
          rcases List.mem_cons.mp hd with rfl | hd
          · exact hx
          · exact h2 d hd
        · rw [← h4]; simp [lstrip, List.dropWhile, hx]
      · refine ⟨[], x :: xs, rfl, by simp, ?_, ?_⟩
        · intro d hd; simp at hd; rw [← hd]; simpa using hx
        · simp [lstrip, List.dropWhile, hx]
  obtain ⟨indent, rest', hpre, hi1, hi2, hi3⟩ := hind
  have hmark : contextLines content startPos endPos = (rest' ++ c :: post,
      List.replicate rest'.length ' ' ++ List.replicate (min (endPos + 1 - startPos) (post.length + 1)) '^') := by
    unfold contextLines
    simp only [hb1, hdrop, hf]
    have e : pre ++ [c] ++ post = pre ++ c :: post := by simp
    rw [e, hi3]
    have hlen1 : pre.length = indent.length + rest'.length := by rw [hpre]; simp
    have hp := hl.pos
    congr 2
    · unfold pyRepeat
      congr 1
      simp only [List.length_append, List.length_cons]
      omega
    · unfold pyRepeat
      congr 1
      omega
  refine ⟨indent, rest' ++ c :: post, _, by rw [hpre]; simp, hi1, hi2, hmark, ?_, ?_, ?_, ?_⟩
  · intro i hi
    have : content = (a ++ indent) ++ ((rest' ++ c :: post) ++ b) := by rw [hl.split, hpre]; simp
    have e : a.length + indent.length + i = (a ++ indent).length + i := by simp
    generalize rest' ++ c :: post = t at *
    rw [this, e, List.getElem?_append_right (by omega), Nat.add_sub_cancel_left,
      List.getElem?_append_left hi]
  · intro i
    have hp := hl.pos
    have hlen1 : pre.length = indent.length + rest'.length := by rw [hpre]; simp
    simp only [List.getElem?_append, List.getElem?_replicate, List.length_replicate,
      List.length_append, List.length_cons]
    repeat' split
    all_goals simp
    all_goals omega
  · intro i
    have hp := hl.pos
    have hlen1 : pre.length = indent.length + rest'.length := by rw [hpre]; simp
    simp only [List.getElem?_append, List.getElem?_replicate, List.length_replicate]
    repeat' split
    all_goals simp
    all_goals omega
  · intro d hd
    rcases List.mem_append.mp hd with h | h
    · exact Or.inr (List.eq_of_mem_replicate h)
    · exact Or.inl (List.eq_of_mem_replicate h)

example : LineAround "x\n  foo bar\ny".toList 8 "x\n".toList "  foo ".toList "bar".toList "\ny".toList ∧
    contextLines "x\n  foo bar\ny".toList 8 9 = ("foo bar".toList, "    ^^".toList) := by
  refine ⟨⟨by decide, by decide, Or.inr ⟨['x'], rfl⟩, Or.inr ⟨['y'], rfl⟩, by decide, by decide⟩, by decide +kernel⟩

end Verif.Props
