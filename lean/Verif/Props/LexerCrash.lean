import Verif.Lemmas.LexExact
import Verif.Props.LexerNumbers
/-!
# C53: lexical problems are reported, not crashes
-/
namespace Verif.Props
open Verif.Model Verif.Spec Verif.Lemmas

/-! ## Specification -/

/-- The dangling quotes at the end of the file that the lexer can not report. -/
def danglingQuotes : List (List Char) :=
  [['\''], ['\'', '\''], ['\'', '\'', '\''], ['"', '"', '"']]

/-! ## Helper lemmas -/

/-- The current character exists and positions are consistent. -/
private def Good (s : LexState) : Prop :=
  1 ≤ s.pos ∧ s.pos + s.todo.length = s.content.length

private theorem Good.adv {s : LexState} (h : Good s) (hne : s.todo ≠ []) : Good s.advance := by
  obtain ⟨h1, h2⟩ := h
  have : 0 < s.todo.length := List.length_pos_iff.mpr hne
  constructor
  · simp
  · simp; omega

private def Crash (r : Scan) : Prop := ∃ s', r = .fail s' .crash

private theorem lexError_crash {s : LexState} {k a b} (h : Crash (lexError s k a b)) :
    ¬ (a ≤ b ∧ b < s.content.length) := by
  obtain ⟨s', h⟩ := h
  unfold lexError at h
  split at h
  · simp at h
  · assumption

private theorem ok_crash {s : LexState} {k b} (h : Crash (.ok s k b)) : False := by
  obtain ⟨s', h⟩ := h; cases h

private theorem simpleString_crash (st : Nat) (l : List Char) (s : LexState) (hl : l = s.todo)
    (hg : Good s) (hst : st ≤ s.lexpos) : ¬ Crash (simpleString st l s) := by
  have hstep : ∀ s : LexState, st ≤ s.lexpos → st ≤ s.advance.lexpos := by
    intro s h; simp only [LexState.lexpos, LexState.advance] at *; omega
  fun_induction simpleString st l s
  case case1 =>
    rename_i s
    intro h; apply lexError_crash h
    have : s.todo.length = 0 := by rw [← hl]; rfl
    obtain ⟨h1, h2⟩ := hg
    simp only [LexState.lexpos] at *; omega
  case case2 => exact ok_crash
  case case3 =>
    rename_i r s _
    intro h; apply lexError_crash h
    obtain ⟨h1, h2⟩ := hg
    have : s.todo.length = r.length + 1 := by rw [← hl]; rfl
    simp only [LexState.lexpos] at *; omega
  case case4 ih =>
    refine ih (by simp [← hl]) ((hg.adv ?_).adv ?_) (hstep _ (hstep _ hst)) <;> simp [← hl]
  case case5 ih =>
    refine ih (by simp [← hl]) (hg.adv ?_) (hstep _ hst)
    simp [← hl]
  case case6 ih =>
    refine ih (by simp [← hl]) (hg.adv ?_) (hstep _ hst)
    simp [← hl]

private theorem tripleLoop_crash (q : Char) (st : Nat) : ∀ (l : List Char) (s : LexState) (n : Nat),
    l = s.todo → Good s → st ≤ s.lexpos → Crash (tripleLoop q st l s n) → l = [] := by
  intro l
  induction l with
  | nil => intros; rfl
  | cons c r ih =>
    intro s n hl hg hst h
    exfalso
    have h0 : s.todo ≠ [] := by rw [← hl]; simp
    have hg' := hg.adv h0
    have hadv : r = s.advance.todo := by simp [← hl]
    have hst' : st ≤ s.advance.lexpos := by
      simp only [LexState.lexpos, LexState.advance] at *; omega
    unfold tripleLoop at h
    dsimp only at h
    generalize (if s.advance.cc = some q then n + 1 else 0) = seen' at h
    split at h
    · apply lexError_crash h
      obtain ⟨h1, h2⟩ := hg'
      simp only [LexState.lexpos] at *; omega
    · rename_i hnc
      split at h
      · have := ih _ _ hadv hg' hst' h
        subst this
        rw [LexState.nc, ← hadv] at hnc
        exact hnc rfl
      · exact ok_crash h

private theorem numLoop_crash (st : Nat) : ∀ (l : List Char) (s : LexState) (v : NumSt),
    l = s.todo → Good s → st ≤ s.lexpos → ¬ Crash (numLoop st l s v) := by
  intro l
  induction l with
  | nil =>
    intro s v hl hg hst h
    unfold numLoop at h
    split at h
    · apply lexError_crash h
      obtain ⟨h1, h2⟩ := hg
      simp only [LexState.lexpos] at *; omega
    · exact ok_crash h
  | cons c r ih =>
    intro s v hl hg hst h
    have h0 : s.todo ≠ [] := by rw [← hl]; simp
    have hg' := hg.adv h0
    have hadv : r = s.advance.todo := by simp [← hl]
    have hst' : st ≤ s.advance.lexpos := by
      simp only [LexState.lexpos, LexState.advance] at *; omega
    have hlen : s.todo.length = r.length + 1 := by rw [← hl]; rfl
    have e1 : ∀ k, ¬ Crash (lexError s k (s.lexpos + 1) (s.lexpos + 1)) := by
      intro k h; apply lexError_crash h
      obtain ⟨h1, h2⟩ := hg
      simp only [LexState.lexpos] at *; omega
    have e2 : ∀ k, ¬ Crash (lexError s.advance k s.advance.lexpos s.advance.lexpos) := by
      intro k h; apply lexError_crash h
      obtain ⟨h1, h2⟩ := hg'
      simp only [LexState.lexpos] at *; omega
    unfold numLoop at h
    repeat' split at h
    all_goals first
      | exact ih _ _ hadv hg' hst' h
      | exact e1 _ h
      | exact e2 _ h
      | exact ok_crash h

private theorem number_crash (s : LexState) (c : Char) (hg : Good s) : ¬ Crash (number s.lexpos s c) := by
  have hst' : s.lexpos ≤ s.advance.lexpos := by
    simp only [LexState.lexpos, LexState.advance]; omega
  intro h
  unfold number at h
  split at h
  · rename_i hp
    have h0 : s.todo ≠ [] := by intro h0; simp [LexState.nc, h0] at hp
    exact numLoop_crash _ _ _ _ rfl (hg.adv h0) hst' h
  · split at h
    · rename_i hp
      have h0 : s.todo ≠ [] := by intro h0; simp [LexState.nc, h0] at hp
      exact numLoop_crash _ _ _ _ rfl (hg.adv h0) hst' h
    · exact numLoop_crash _ _ _ _ rfl hg (Nat.le_refl _) h

private theorem singleQuote_crash (s : LexState) (hg : Good s) (h : Crash (singleQuote s.lexpos s)) :
    s.todo = [] ∨ s.todo = ['\''] ∨ s.todo = ['\'', '\''] := by
  unfold singleQuote at h
  dsimp only at h
  rcases ht : s.todo with _ | ⟨a, r⟩
  · simp
  have h0 : s.todo ≠ [] := by rw [ht]; simp
  have hg' := hg.adv h0
  have hst' : s.lexpos ≤ s.advance.lexpos := by
    simp only [LexState.lexpos, LexState.advance]; omega
  split at h
  · exfalso; apply lexError_crash h
    obtain ⟨h1, h2⟩ := hg'
    simp only [LexState.lexpos] at *; omega
  · rename_i hcc
    simp [ht] at hcc
    subst hcc
    rcases hr : r with _ | ⟨b, r'⟩
    · simp
    have ht' : s.advance.todo = b :: r' := by simp [ht, hr]
    have h0' : s.advance.todo ≠ [] := by rw [ht']; simp
    have hg'' := hg'.adv h0'
    have hst'' : s.lexpos ≤ s.advance.advance.lexpos := by
      simp only [LexState.lexpos, LexState.advance]; omega
    split at h
    · exfalso; apply lexError_crash h
      obtain ⟨h1, h2⟩ := hg''
      simp only [LexState.lexpos] at *; omega
    · rename_i hcc
      simp [ht, hr] at hcc
      subst hcc
      have := tripleLoop_crash _ _ _ _ _ rfl hg'' hst'' h
      simp [ht, hr] at this
      subst this
      simp

private theorem scan_crash (s : LexState) (c : Char) (hg : Good s) (h : Crash (scan s c)) :
    (c = '\'' ∧ (s.todo = [] ∨ s.todo = ['\''] ∨ s.todo = ['\'', '\''])) ∨
    (c = '"' ∧ s.todo = ['"', '"']) := by
  have e1 : ∀ k, ¬ Crash (lexError s k s.lexpos s.lexpos) := by
    intro k h; apply lexError_crash h
    obtain ⟨h1, h2⟩ := hg
    simp only [LexState.lexpos] at *; omega
  revert h
  fun_cases scan s c
  all_goals intro h
  all_goals first
    | exact (ok_crash h).elim
    | exact (e1 _ h).elim
    | exact (simpleString_crash _ _ _ rfl hg (Nat.le_refl _) h).elim
    | exact (number_crash _ _ hg h).elim
    | exact Or.inl ⟨by assumption, singleQuote_crash s hg h⟩
    | skip
  right
  refine ⟨by assumption, ?_⟩
  rename_i hn s2
  simp only [LexState.nc, LexState.nnc] at hn
  rcases ht : s.todo with _ | ⟨a, _ | ⟨b, r⟩⟩
  · simp [ht] at hn
  · simp [ht] at hn
  · have h0 : s.todo ≠ [] := by rw [ht]; simp
    have h0' : s.advance.todo ≠ [] := by simp [ht]
    have hst'' : s.lexpos ≤ s.advance.advance.lexpos := by
      simp only [LexState.lexpos, LexState.advance]; omega
    have := tripleLoop_crash _ _ _ _ _ rfl ((hg.adv h0).adv h0') hst'' h
    simp [ht] at this hn
    rw [this, hn.1, hn.2]

private theorem scan_crash_conv (s : LexState) (hg : Good s) (c : Char)
    (h : (c :: s.todo) ∈ danglingQuotes) : Crash (scan s c) := by
  have key : ∀ (s' : LexState) k a b, s'.content.length ≤ b → Crash (lexError s' k a b) := by
    intro s' k a b hb
    refine ⟨s', ?_⟩
    rw [lexError, if_neg (by omega)]
  simp only [danglingQuotes, List.mem_cons, List.cons.injEq, List.not_mem_nil, or_false] at h
  have sq : scan s '\'' = singleQuote s.lexpos s := by
    unfold scan
    simp only [show ('\'' : Char) ≠ '/' by decide, show isAlpha '\'' = false by decide,
      show punctuation '\'' = none by decide, show ('\'' : Char) ≠ '=' by decide,
      show ('\'' : Char) ≠ '.' by decide, show ('\'' : Char) ≠ '<' by decide,
      show ('\'' : Char) ≠ '>' by decide, show ('\'' : Char) ≠ '!' by decide,
      show ('\'' : Char) ≠ '*' by decide, show ('\'' : Char) ≠ '"' by decide, false_and, if_false, or_self, if_true,
      Bool.false_eq_true]
  obtain ⟨g1, g2⟩ := hg
  rcases h with ⟨rfl, h⟩ | ⟨rfl, h⟩ | ⟨rfl, h⟩ | ⟨rfl, h⟩
  · rw [sq]
    simp only [singleQuote, advance_cc, h, List.head?_nil, ne_eq, reduceCtorEq, not_false_eq_true, if_true]
    apply key
    simp only [h, List.length_nil] at g2
    simp only [LexState.lexpos, LexState.advance]; omega
  · rw [sq]
    simp only [singleQuote, advance_cc, advance_todo, h, List.head?_cons, List.tail_cons, ne_eq, not_true_eq_false,
      if_false, List.head?_nil, reduceCtorEq, not_false_eq_true, if_true]
    apply key
    simp only [h, List.length_cons, List.length_nil] at g2
    simp only [LexState.lexpos, LexState.advance]; omega
  · rw [sq]
    simp only [singleQuote, advance_cc, advance_todo, h, List.head?_cons, List.tail_cons, ne_eq, not_true_eq_false,
      if_false, tripleLoop]
    apply key
    simp only [h, List.length_cons, List.length_nil] at g2
    simp only [LexState.lexpos, LexState.advance]; omega
  · unfold scan
    simp only [show ('"' : Char) ≠ '/' by decide, show isAlpha '"' = false by decide,
      show punctuation '"' = none by decide, show ('"' : Char) ≠ '=' by decide,
      show ('"' : Char) ≠ '.' by decide, show ('"' : Char) ≠ '<' by decide,
      show ('"' : Char) ≠ '>' by decide, show ('"' : Char) ≠ '!' by decide,
      show ('"' : Char) ≠ '*' by decide, false_and, if_false, or_self, if_true,
      Bool.false_eq_true, LexState.nc, LexState.nnc, h, List.head?_cons, List.tail_cons, and_self,
      advance_todo, tripleLoop]
    apply key
    simp only [h, List.length_cons, List.length_nil] at g2
    simp only [LexState.lexpos, LexState.advance]; omega

/-! ## C53 -/

/-- **C53, what holds**: after any number of calls of `token()` on any text, the next
call ends in an internal exception exactly when the text ahead is white space
followed by one of four dangling quotes that end the file; in every other case it
returns a token, end of file, or reports a lexical error.  Missing: the four cases
(see `C53_dangling_quote_crash`). -/
theorem C53_crash_iff_partial (content : List Char) (k : Nat) :
    (token (afterCalls content k)).1 = .crash ↔
      ∃ ws tail, (afterCalls content k).todo = ws ++ tail ∧ (∀ c ∈ ws, isSpace c = true) ∧
        tail ∈ danglingQuotes := by
  have hi := afterCalls_inv content k
  generalize afterCalls content k = s at *
  have hlen := inv_todo_length hi
  have good : ∀ {ws r : List Char} {c : Char}, s.todo = ws ++ c :: r → Good (advN (ws.length + 1) s) := by
    intro ws r c h
    have h2 : s.todo.length = ws.length + (r.length + 1) := by rw [h]; simp
    constructor
    · rw [advN_pos]; omega
    · rw [advN_todo_cons h, advN_pos, advN_content]; omega
  constructor
  · intro h
    obtain ⟨n, h1, h2, h3, h4⟩ := token_cases s hi .crash (token s).2 (by rw [← h])
    rcases h4 with ⟨h0, _⟩ | ⟨hlt, c, m, hc, _, _, _, h5⟩
    · cases h0
    · have hsplit : s.todo = s.todo.take n ++ c :: s.todo.drop (n + 1) := by
        have : s.todo[n] = c := by
          rw [List.getElem?_eq_getElem hlt] at hc; exact Option.some.inj hc
        rw [← this, List.getElem_cons_drop, List.take_append_drop]
      have hlt' : (s.todo.take n).length = n := by simp; omega
      have hg := good hsplit
      rw [hlt'] at hg
      rcases h5 with ⟨o', hs, ho⟩ | ⟨k', b', _, ho⟩
      · subst ho
        have htodo : (advN (n + 1) s).todo = s.todo.drop (n + 1) := by simp
        refine ⟨s.todo.take n, c :: s.todo.drop (n + 1), hsplit, ?_, ?_⟩
        · intro d hd
          obtain ⟨i, hi', he⟩ := List.getElem_of_mem hd
          obtain ⟨c', hc', hsp⟩ := h2 i (by simp at hi'; omega)
          rw [List.getElem_take] at he
          rw [List.getElem?_eq_getElem (by simp at hi'; omega)] at hc'
          rw [← he, Option.some.inj hc', hsp]
        · have := scan_crash _ _ hg ⟨_, hs⟩
          rw [htodo] at this
          simp only [danglingQuotes, List.mem_cons, List.cons.injEq, List.not_mem_nil, or_false]
          rcases this with ⟨rfl, h | h | h⟩ | ⟨rfl, h⟩ <;> simp [h]
      · cases ho
  · rintro ⟨ws, tail, h, hws, ht⟩
    have hne : tail ≠ [] ∧ ∀ c r, tail = c :: r → isSpace c = false := by
      simp only [danglingQuotes, List.mem_cons, List.not_mem_nil, or_false] at ht
      rcases ht with rfl | rfl | rfl | rfl <;>
      · refine ⟨by simp, ?_⟩
        intro c r he; rw [(List.cons.inj he).1.symm]; decide
    rcases tail with _ | ⟨c, r⟩
    · exact (hne.1 rfl).elim
    · have hcs := hne.2 c r rfl
      have hcc : (advN (ws.length + 1) s).cc = some c := by rw [advN_cc, h]; simp
      obtain ⟨s', hs'⟩ := scan_crash_conv _ (good h) c (by rw [advN_todo_cons h]; exact ht)
      unfold token
      simp only [skip_exact h hws hcs, hcc, hs']

/-- **C53 is violated**: a file that consists of a single quote. -/
theorem C53_dangling_quote_crash :
    (token (afterCalls "'".toList 0)).1 = .crash ∧
    (token (afterCalls "x = '''".toList 2)).1 = .crash ∧
    (token (afterCalls "x = \"\"\"".toList 2)).1 = .crash := by decide +kernel

/-- A file with a dangling double quote is reported. -/
example : (token (afterCalls "x = \"".toList 2)).1 = .error .unterminatedString 4 4 := by
  decide +kernel

end Verif.Props
