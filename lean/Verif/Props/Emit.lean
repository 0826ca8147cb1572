import Verif.Model.Emit
import Verif.Props.Location
import Verif.Props.ExampleNumbers
/-!
# What is printed for a message (C87)
-/
namespace Verif.Props
open Verif.Model

/-! ## Texts with colons -/

theorem natText_digit (n : Nat) : ∀ c ∈ natText n, c ≠ ':' ∧ c ≠ ' ' := by
  have key : ∀ d < 10, digitText d ≠ ':' ∧ digitText d ≠ ' ' := by decide
  unfold natText
  split
  · simp
  · intro c hm
    obtain ⟨d, hd, rfl⟩ := List.mem_map.1 hm
    exact key d (Nat.digits_lt_base (by norm_num) (List.mem_reverse.1 hd))

theorem first_colon : ∀ {a b x y : List Char}, ':' ∉ a → ':' ∉ b → a ++ ':' :: x = b ++ ':' :: y → a = b ∧ x = y
  | [], [], _, _, _, _, h => ⟨rfl, by simpa using h⟩
  | [], d :: b, _, _, _, hb, h => by
    simp only [List.nil_append, List.cons_append, List.cons.injEq] at h
    exact absurd (by rw [h.1]; simp) hb
  | c :: a, [], _, _, ha, _, h => by
    simp only [List.nil_append, List.cons_append, List.cons.injEq] at h
    exact absurd (by rw [h.1]; simp) ha
  | c :: a, d :: b, _, _, ha, hb, h => by
    simp only [List.cons_append, List.cons.injEq] at h
    obtain ⟨h1, h2⟩ := first_colon (fun m => ha (List.mem_cons_of_mem _ m)) (fun m => hb (List.mem_cons_of_mem _ m)) h.2
    exact ⟨by rw [h.1, h1], h2⟩

/-- a location as the constructor accepts it, where the column is known only together with the line, in a file
without colon in the name -/
structure Clear (p : SrcPlace) : Prop where
  file : ':' ∉ p.file
  line : p.line ≠ some 0
  col  : p.col ≠ some 0
  both : p.line = none → p.col = none

theorem colonNum_some {n : Nat} (h : some n ≠ some 0) : colonNum (some n) = ':' :: natText n :=
  if_neg (by simpa using h)

theorem natText_ne (n : Nat) : natText n ≠ [] := by
  have := (natText_spec n).1
  intro e
  rw [e] at this
  cases this

/-- what follows the colon after the name of the file -/
def afterFile (x : List Char) : Option Nat → Option Nat → List Char
  | none, _ => ' ' :: x
  | some n, none => natText n ++ ':' :: ' ' :: x
  | some n, some m => natText n ++ ':' :: (natText m ++ ':' :: ' ' :: x)

theorem text_split {p : SrcPlace} (h : Clear p) (column : Bool) (x : List Char) :
    p.text column ++ ':' :: ' ' :: x = p.file ++ ':' :: afterFile x p.line (if column then p.col else none) := by
  unfold SrcPlace.text
  cases hl : p.line with
  | none => simp [colonNum, afterFile]
  | some n =>
    have hn : some n ≠ some 0 := hl ▸ h.line
    rw [colonNum_some hn]
    cases column with
    | false => simp [afterFile]
    | true =>
      cases hc : p.col with
      | none => simp [colonNum, afterFile]
      | some m =>
        rw [colonNum_some (hc ▸ h.col)]
        simp [afterFile]

theorem text_head {a : List Char} {n : Nat} {x : List Char} (h : natText n ++ x = ' ' :: a) : False := by
  cases hn : natText n with
  | nil => exact natText_ne n hn
  | cons c r =>
    rw [hn, List.cons_append, List.cons.injEq] at h
    exact (natText_digit n c (by rw [hn]; simp)).2 h.1

theorem afterFile_inj {x y : List Char} : ∀ {l l' c c' : Option Nat}, afterFile x l c = afterFile y l' c' →
    (l = none → c = none) → (l' = none → c' = none) → l = l' ∧ c = c' ∧ x = y
  | none, none, c, c', h, h1, h2 => by
    rw [h1 rfl, h2 rfl]
    exact ⟨rfl, rfl, by simpa [afterFile] using h⟩
  | none, some n, _, none, h, _, _ => absurd h.symm text_head
  | none, some n, _, some m, h, _, _ => absurd h.symm text_head
  | some n, none, none, _, h, _, _ => absurd h text_head
  | some n, none, some m, _, h, _, _ => absurd h text_head
  | some n, some n', none, none, h, _, _ => by
    obtain ⟨h1, h2⟩ := first_colon (fun m => (natText_digit _ _ m).1 rfl) (fun m => (natText_digit _ _ m).1 rfl) h
    exact ⟨by rw [natText_inj h1], rfl, by simpa using h2⟩
  | some n, some n', none, some m, h, _, _ => by
    obtain ⟨-, h2⟩ := first_colon (fun m => (natText_digit _ _ m).1 rfl) (fun m => (natText_digit _ _ m).1 rfl) h
    exact absurd h2.symm text_head
  | some n, some n', some m, none, h, _, _ => by
    obtain ⟨-, h2⟩ := first_colon (fun m => (natText_digit _ _ m).1 rfl) (fun m => (natText_digit _ _ m).1 rfl) h
    exact absurd h2 text_head
  | some n, some n', some m, some m', h, _, _ => by
    obtain ⟨h1, h2⟩ := first_colon (fun m => (natText_digit _ _ m).1 rfl) (fun m => (natText_digit _ _ m).1 rfl) h
    obtain ⟨h3, h4⟩ := first_colon (fun m => (natText_digit _ _ m).1 rfl) (fun m => (natText_digit _ _ m).1 rfl) h2
    exact ⟨by rw [natText_inj h1], by rw [natText_inj h3], by simpa using h4⟩

theorem text_inj {p q : SrcPlace} (hp : Clear p) (hq : Clear q) {c d : Bool} {x y : List Char}
    (h : p.text c ++ ':' :: ' ' :: x = q.text d ++ ':' :: ' ' :: y) :
    p.file = q.file ∧ p.line = q.line ∧ (if c then p.col else none) = (if d then q.col else none) ∧ x = y := by
  rw [text_split hp, text_split hq] at h
  obtain ⟨h1, h2⟩ := first_colon hp.file hq.file h
  refine ⟨h1, afterFile_inj h2 ?_ ?_⟩
  · intro hl; split
    · exact hp.both hl
    · rfl
  · intro hl; split
    · exact hq.both hl
    · rfl

theorem kind_inj {k k' : MsgKind} {x y : List Char} (h : k.name ++ ':' :: x = k'.name ++ ':' :: y) : k = k' ∧ x = y := by
  have hc : ∀ k : MsgKind, ':' ∉ k.name := by intro k; cases k <;> decide
  obtain ⟨h1, h2⟩ := first_colon (hc k) (hc k') h
  refine ⟨?_, h2⟩
  revert h1
  cases k <;> cases k' <;> decide

/-! ## C87 -/

/-- The names of both files are shown in the same way: nothing is to be removed from them, or the prefix to be
removed is that of both -/
def SameWay (o : Style) (p q : SrcPlace) : Prop :=
  ∀ pre, o.stripPrefix = some pre → (∃ a b, p.file = pre ++ a ∧ q.file = pre ++ b)

theorem strip_both {o : Style} {p : SrcPlace} {pre a : List Char} (hs : o.stripPrefix = some pre) (h : p.file = pre ++ a)
    (c : Bool) : pre ++ o.locText p c = p.text c := by
  unfold Style.locText
  rw [hs]
  have e : p.text c = pre ++ (a ++ colonNum p.line ++ (if colonNum p.line = [] ∨ c = false then [] else colonNum p.col)) := by
    unfold SrcPlace.text
    rw [h]
    simp
  dsimp only
  rw [e]
  generalize a ++ colonNum p.line ++ (if colonNum p.line = [] ∨ c = false then [] else colonNum p.col) = x
  split
  · rw [List.drop_left]
  · next hn =>
    cases pre with
    | nil => rfl
    | cons c r =>
      refine absurd ⟨by simp, ?_⟩ hn
      rw [List.isPrefixOf_iff_prefix]
      exact List.prefix_append ..

theorem locText_inj {o : Style} {p q : SrcPlace} (hp : Clear p) (hq : Clear q) (ho : SameWay o p q) {c d : Bool}
    {x y : List Char} (h : o.locText p c ++ ':' :: ' ' :: x = o.locText q d ++ ':' :: ' ' :: y) :
    p.file = q.file ∧ p.line = q.line ∧ (if c then p.col else none) = (if d then q.col else none) ∧ x = y := by
  cases hs : o.stripPrefix with
  | none =>
    unfold Style.locText at h
    rw [hs] at h
    exact text_inj hp hq h
  | some pre =>
    obtain ⟨a, b, ha, hb⟩ := ho pre hs
    apply text_inj hp hq (c := c) (d := d)
    rw [← strip_both hs ha, ← strip_both hs hb, List.append_assoc, h, List.append_assoc]

/-- the text of a message after its kind -/
def withTag (message : List Char) : Option (List Char) → List Char
  | none => message
  | some [] => message
  | some (c :: t) => message ++ " [".toList ++ (c :: t) ++ "]".toList

theorem msgText_brief {o : Style} (hb : o.brief = true) (p : SrcPlace) (k : MsgKind) (m : List Char) (t : Option (List Char)) :
    o.msgText p k m t = o.locText p true ++ ':' :: ' ' :: ("trlc ".toList ++ (k.name ++ ':' :: ' ' :: withTag m t)) := by
  unfold Style.msgText
  rw [hb]
  rcases t with _ | ⟨_ | ⟨c, t⟩⟩ <;> simp [withTag]

theorem msgText_long {o : Style} (hb : o.brief = false) (p : SrcPlace) (k : MsgKind) (m : List Char) (t : Option (List Char)) :
    o.msgText p k m t = o.locText p p.source.isNone ++ ':' :: ' ' :: (k.name ++ ':' :: ' ' :: withTag m t) := by
  unfold Style.msgText
  rw [hb]
  rcases t with _ | ⟨_ | ⟨c, t⟩⟩ <;> simp [withTag]

/-- **C87, what holds** (brief): one text is printed for a message, and from it the file, the line, the column, the kind
of the message and its text can be told: what is printed the same is the same.

Missing: file names with colons (`C87_colon`), and prefixes to be removed that not both files have
(`C87_prefix`). -/
theorem C87_brief_partial {o : Style} (hb : o.brief = true) {p q : SrcPlace} (hp : Clear p) (hq : Clear q) (ho : SameWay o p q)
    {k k' : MsgKind} {m m' : List Char} {e e' t t' : Option (List Char)} :
    (∃ text, o.printed p k m e t = [text]) ∧
    (o.printed p k m e t = o.printed q k' m' e' t' →
      p.file = q.file ∧ p.line = q.line ∧ p.col = q.col ∧ k = k' ∧ withTag m t = withTag m' t') := by
  have key : ∀ p k m e t, o.printed p k m e t = [o.msgText p k m t] := by
    intro p k m e t
    unfold Style.printed
    simp [hb]
  refine ⟨⟨_, key ..⟩, fun h => ?_⟩
  rw [key, key, List.cons.injEq, msgText_brief hb, msgText_brief hb] at h
  obtain ⟨h1, h2, h3, h4⟩ := locText_inj hp hq ho h.1
  obtain ⟨h5, h6⟩ := kind_inj (List.append_cancel_left h4)
  exact ⟨h1, h2, by simpa using h3, h5, by simpa using h6⟩

/-- **C87, what holds** (full): for a place in a file, the first line printed is the line of the file without its indentation, with
blanks for tabs.  The second starts with one mark under each character of the place on this line and nothing else; after
a blank it has the text of the message.  The lines of the explanation follow, if they are to be shown; they start
with a bar under the last mark. -/
theorem C87_marks {o : Style} (hb : o.brief = false) {p : SrcPlace} {content : List Char} {startPos endPos : Nat}
    (hs : p.source = some (content, startPos, endPos)) {a pre post b : List Char} {c : Char}
    (hl : LineAround content startPos a pre (c :: post) b) (hse : startPos ≤ endPos) (hc : isSpace c = false)
    (k : MsgKind) (m : List Char) (e t : Option (List Char)) :
    ∃ (indent first marks : List Char) (rest : List (List Char)), o.printed p k m e t = first :: (marks ++ ' ' :: o.msgText p k m t) :: rest ∧
      (∀ d ∈ indent, isSpace d = true) ∧ (∀ d, first.head? = some d → isSpace d = false) ∧
      indent.length + first.length = (pre ++ c :: post).length ∧
      (∀ i, i < first.length → ∃ d, content[a.length + indent.length + i]? = some d ∧
        first[i]? = some (if d = '\t' then ' ' else d)) ∧
      (∀ i : Nat, marks[i]? = some '^' ↔ startPos ≤ a.length + indent.length + i ∧
        a.length + indent.length + i ≤ endPos ∧ i < first.length) ∧
      (∀ i : Nat, marks[i]? = some ' ' ↔ a.length + indent.length + i < startPos) ∧
      (∀ d ∈ marks, d = '^' ∨ d = ' ') ∧
      (∀ (j : Nat) (r : List Char), rest[j]? = some r → ∃ n info, marks.length = n + 1 ∧ (splitlines (e.getD []))[j]? = some info ∧
        r = List.replicate n ' ' ++ '|' :: ' ' :: rstrip info) ∧
      rest.length = if o.details then (splitlines (e.getD [])).length else 0 := by
  obtain ⟨indent, text, mark, h1, h2, h3, h4, h5, h6, h7, h8⟩ := C44_context_lines content startPos endPos a pre post b c hl hse hc
  have hmark : noTabs mark = mark := by
    unfold noTabs
    conv => rhs; rw [← List.map_id mark]
    apply List.map_congr_left
    intro d hd
    rcases h8 d hd with rfl | rfl <;> rfl
  have hlen : (noTabs text).length = text.length := by unfold noTabs; simp
  have hpos : ∃ n, mark.length = n + 1 := by
    have hin : a.length + indent.length ≤ startPos := by
      have hi : indent.length ≤ pre.length := by
        have hx := congrArg (fun l => l[pre.length]?) h1
        simp only [List.getElem?_append, Nat.lt_irrefl, if_false, Nat.sub_self] at hx
        rcases Nat.lt_or_ge pre.length indent.length with hlt | hge
        · rw [if_pos hlt] at hx
          have := h2 c (List.mem_of_getElem? hx.symm)
          rw [hc] at this
          cases this
        · exact hge
      have := hl.pos
      omega
    have hlast : startPos - (a.length + indent.length) < text.length := by
      have := congrArg List.length h1
      have hp := hl.pos
      simp only [List.length_append, List.length_cons] at this
      omega
    have := (h6 (startPos - (a.length + indent.length))).2 ⟨by omega, by omega, hlast⟩
    have hlt : startPos - (a.length + indent.length) < mark.length := by
      rw [List.getElem?_eq_some_iff] at this
      exact this.1
    exact ⟨mark.length - 1, by omega⟩
  obtain ⟨n, hn⟩ := hpos
  refine ⟨indent, noTabs text, mark,
    if o.details then (splitlines (e.getD [])).map fun l => List.replicate n ' ' ++ ("| ".toList ++ rstrip l) else [], ?_, h2, ?_, ?_, ?_, ?_, h7, h8, ?_, ?_⟩
  · unfold Style.printed
    simp only [hb, hs, Bool.false_eq_true, if_false, Option.map_some, h4, hmark, hn, Nat.add_sub_cancel, true_and,
      List.cons_append, List.nil_append]
  · intro d hd
    cases text with
    | nil => cases hd
    | cons x r =>
      have hx := h3 x rfl
      have : x ≠ '\t' := by rintro rfl; simp [isSpace] at hx
      simp only [noTabs, List.map_cons, List.head?_cons, this, if_false, Option.some.injEq] at hd
      rw [← hd]
      exact hx
  · rw [hlen, h1, List.length_append]
  · intro i hi
    rw [hlen] at hi
    refine ⟨text[i], ?_, ?_⟩
    · rw [← h5 i hi, List.getElem?_eq_getElem hi]
    · unfold noTabs
      rw [List.getElem?_map, List.getElem?_eq_getElem hi]
      rfl
  · rw [hlen]; exact h6
  · intro j r hr
    split at hr
    · rw [List.getElem?_map, Option.map_eq_some_iff] at hr
      obtain ⟨l, hl, rfl⟩ := hr
      exact ⟨n, l, hn, hl, rfl⟩
    · cases hr
  · cases o.details <;> simp

/-- **C87, what holds** (full): the text of the message tells the file, the line, the kind of the message and its text; for
places without text (builtins, whole files) it is printed alone and tells the column, if known, too.

Missing: as for `C87_brief_partial`. -/
theorem C87_text_partial {o : Style} (hb : o.brief = false) {p q : SrcPlace} (hp : Clear p) (hq : Clear q) (ho : SameWay o p q)
    {k k' : MsgKind} {m m' : List Char} {t t' : Option (List Char)} :
    (o.msgText p k m t = o.msgText q k' m' t' →
      p.file = q.file ∧ p.line = q.line ∧ (p.source = none → q.source = none → p.col = q.col) ∧ k = k' ∧
        withTag m t = withTag m' t') ∧
    (p.source = none → ∀ e, ∃ rest, o.printed p k m e t = o.msgText p k m t :: rest) := by
  constructor
  · intro h
    rw [msgText_long hb, msgText_long hb] at h
    obtain ⟨h1, h2, h3, h4⟩ := locText_inj hp hq ho h
    obtain ⟨h5, h6⟩ := kind_inj h4
    refine ⟨h1, h2, ?_, h5, by simpa using h6⟩
    intro e1 e2
    rw [e1, e2] at h3
    simpa using h3
  · intro hs e
    unfold Style.printed
    simp only [hb, hs, Bool.false_eq_true, if_false, Option.map_none]
    exact ⟨_, rfl⟩

/-- **C87 is violated** if a prefix is to be removed: files with and without it can be shown the same -/
theorem C87_prefix : ∃ (o : Style) (p q : SrcPlace), Clear p ∧ Clear q ∧ p.file ≠ q.file ∧
    ∀ k m e t, o.printed p k m e t = o.printed q k m e t :=
  ⟨⟨true, true, some "lib/".toList⟩, ⟨"lib/a.rsl".toList, some 3, some 1, none⟩, ⟨"a.rsl".toList, some 3, some 1, none⟩,
    ⟨by decide, by decide, by decide, by decide⟩, ⟨by decide, by decide, by decide, by decide⟩, by decide, fun k m e t => by
      have : ∀ p q : SrcPlace, (⟨true, true, some "lib/".toList⟩ : Style).locText p true = (⟨true, true, some "lib/".toList⟩ : Style).locText q true →
          (⟨true, true, some "lib/".toList⟩ : Style).printed p k m e t = (⟨true, true, some "lib/".toList⟩ : Style).printed q k m e t := by
        intro p q h
        simp only [Style.printed, Style.msgText, if_true, h]
      exact this _ _ (by decide +kernel)⟩

/-- **C87 is violated** for file names with colons: a message for line 2 of a file can look like one for another file -/
theorem C87_colon : ∃ (o : Style) (p q : SrcPlace), o.stripPrefix = none ∧ p.file ≠ q.file ∧ p.line ≠ q.line ∧
    ∀ k m e t, o.printed p k m e t = o.printed q k m e t :=
  ⟨⟨true, true, none⟩, ⟨"a.rsl".toList, some 2, some 1, none⟩, ⟨"a.rsl:2".toList, some 1, none, none⟩, rfl, by decide, by decide, fun k m e t => by
      have : ∀ p q : SrcPlace, (⟨true, true, none⟩ : Style).locText p true = (⟨true, true, none⟩ : Style).locText q true →
          (⟨true, true, none⟩ : Style).printed p k m e t = (⟨true, true, none⟩ : Style).printed q k m e t := by
        intro p q h
        simp only [Style.printed, Style.msgText, if_true, h]
      exact this _ _ (by decide +kernel)⟩

/-- a message with explanation, for the second word of a line that is indented with a tab and has a tab -/
example : (⟨false, true, some "/w/".toList⟩ : Style).printed ⟨"/w/a.rsl".toList, some 2, some 6, some ("x\n\tfoo\tbar\ny".toList, 7, 9)⟩
      .SYS_ERROR "bad".toList (some "since\nit is".toList) none =
    ["foo bar".toList, "    ^^^ a.rsl:2: error: bad".toList, "      | since".toList, "      | it is".toList] ∧
    LineAround "x\n\tfoo\tbar\ny".toList 7 "x\n".toList "\tfoo\t".toList "bar".toList "\ny".toList :=
  ⟨by decide +kernel, by decide, by decide, .inr ⟨['x'], rfl⟩, .inr ⟨['y'], rfl⟩, by decide, by decide⟩

/-- and briefly -/
example : (⟨true, true, some "/w/".toList⟩ : Style).printed ⟨"/w/a.rsl".toList, some 2, some 6, none⟩
      .SYS_CHECK "bad".toList (some "since".toList) (some "tag".toList) = ["a.rsl:2:6: trlc issue: bad [tag]".toList] ∧
    Clear ⟨"/w/a.rsl".toList, some 2, some 6, none⟩ :=
  ⟨by decide +kernel, by decide, by decide, by decide, by decide⟩

end Verif.Props
