import Verif.Lemmas.LexTokens
/-!
# C01, C02, C03: token spans, line/column numbers, termination
-/
namespace Verif.Props
open Verif.Model Verif.Spec Verif.Lemmas

/-! ## Specification -/

/-- The spans of `toks` tile `content`: each span is non-empty and inside the text
and starts with a non-space character, spans are in order and disjoint, and all
characters outside of the spans are white space. -/
structure Tiles (content : List Char) (toks : List Token) : Prop where
  inside  : ∀ t ∈ toks, t.startPos ≤ t.endPos ∧ t.endPos < content.length
  ordered : toks.Pairwise (fun a b => a.endPos < b.startPos)
  visible : ∀ t ∈ toks, ∃ c, content[t.startPos]? = some c ∧ isSpace c = false
  covered : ∀ i c, content[i]? = some c →
    (∃ t ∈ toks, t.startPos ≤ i ∧ i ≤ t.endPos) ∨ isSpace c = true

/-! ## C01 -/

private theorem tiles_from : ∀ (n : Nat) (s : LexState) (toks : List Token),
    Inv s → tokensUpTo n s = (toks, some .eof) →
    (∀ t ∈ toks, s.pos ≤ t.startPos ∧ t.startPos ≤ t.endPos ∧ t.endPos < s.content.length) ∧
    toks.Pairwise (fun a b => a.endPos < b.startPos) ∧
    (∀ i c, s.pos ≤ i → s.content[i]? = some c →
      (∃ t ∈ toks, t.startPos ≤ i ∧ i ≤ t.endPos) ∨ isSpace c = true)
  | 0, s, toks, _, h => by simp [tokensUpTo] at h
  | n + 1, s, toks, hi, h => by
    unfold tokensUpTo at h
    rcases htok : token s with ⟨o, s'⟩
    obtain ⟨hi', hc'⟩ := token_inv hi htok
    rw [htok] at h
    cases o with
    | tok t =>
      simp only [Prod.mk.injEq] at h
      obtain ⟨h1, h2⟩ := h
      obtain ⟨k, m, c, e1, e2, e3, e4, hws, hc, hns, _⟩ := token_span hi htok
      obtain ⟨a1, a2, a3⟩ := tiles_from n s' (tokensUpTo n s').1 hi' (Prod.ext rfl h2)
      rw [hc'] at a1 a3
      subst h1
      refine ⟨?_, ?_, ?_⟩
      · intro t' ht'
        rcases List.mem_cons.mp ht' with rfl | ht'
        · omega
        · have := a1 t' ht'; omega
      · refine List.pairwise_cons.mpr ⟨?_, a2⟩
        intro t' ht'
        have := a1 t' ht'; omega
      · intro i c' hle hget
        have hlt : i < s.content.length := by
          rcases Nat.lt_or_ge i s.content.length with h | h
          · exact h
          · simp [h] at hget
        by_cases h1 : i < s.pos + k
        · right
          obtain ⟨c'', hc'', hs⟩ := hws (i - s.pos) (by omega)
          have : s.pos + (i - s.pos) = i := by omega
          rw [this, hget] at hc''
          cases hc''; exact hs
        · by_cases h2 : i < s'.pos
          · left; exact ⟨t, by simp, by omega, by omega⟩
          · rcases a3 i c' (by omega) hget with ⟨t', ht', h3⟩ | h3
            · left; exact ⟨t', by simp [ht'], h3⟩
            · exact Or.inr h3
    | eof =>
      simp only [Prod.mk.injEq] at h
      obtain ⟨h1, _⟩ := h
      subst h1
      refine ⟨by simp, by simp, ?_⟩
      intro i c hle hget
      right
      obtain ⟨k, _, hws, _, hcs⟩ := token_cases s hi _ s' htok
      rcases hcs with ⟨_, hk, _⟩ | ⟨_, c', m, _, _, _, _, h0⟩
      · have hlt : i < s.content.length := by
          rcases Nat.lt_or_ge i s.content.length with h | h
          · exact h
          · simp [h] at hget
        have hlen := inv_todo_length hi
        obtain ⟨c'', hc'', hs⟩ := hws (i - s.pos) (by omega)
        rw [inv_todo_get hi] at hc''
        have : s.pos + (i - s.pos) = i := by omega
        rw [this, hget] at hc''
        cases hc''; exact hs
      · exfalso
        rcases h0 with ⟨o', hf, ho⟩ | ⟨_, _, _, ho⟩
        · subst ho; exact no_fail_eof _ _ _ hf
        · cases ho
    | error => simp at h
    | crash => simp at h
where
  no_fail_eof (s : LexState) (c : Char) (s1 : LexState) : scan s c ≠ .fail s1 .eof := by
    have herr : ∀ s k a b, lexError s k a b ≠ .fail s1 .eof := by
      intro s k a b; unfold lexError; split <;> simp
    have htrip : ∀ q st l s n, tripleLoop q st l s n ≠ .fail s1 .eof := by
      intro q st l
      induction l with
      | nil => intro s n; unfold tripleLoop; apply herr
      | cons c r ih =>
        intro s n; unfold tripleLoop; dsimp only
        generalize (if s.advance.cc = some q then n + 1 else 0) = seen'
        split
        · apply herr
        · split
          · apply ih
          · simp
    have hsimple : ∀ st l s, simpleString st l s ≠ .fail s1 .eof := by
      intro st l s
      fun_induction simpleString st l s
      case case1 => apply herr
      case case2 => simp
      case case3 => apply herr
      case case4 ih => exact ih
      case case5 ih => exact ih
      case case6 ih => exact ih
    have hnum : ∀ st l s v, numLoop st l s v ≠ .fail s1 .eof := by
      intro st l
      induction l with
      | nil => intro s v; unfold numLoop; split <;> simp [herr]
      | cons c r ih =>
        intro s v; unfold numLoop
        repeat' split
        all_goals first | apply ih | apply herr | simp
    have hnumber : ∀ st s c, number st s c ≠ .fail s1 .eof := by
      intro st s c; unfold number
      split
      · apply hnum
      · split <;> apply hnum
    have hsq : ∀ st s, singleQuote st s ≠ .fail s1 .eof := by
      intro st s; unfold singleQuote; dsimp only
      split
      · apply herr
      · split
        · apply herr
        · apply htrip
    fun_cases scan s c
    all_goals first | apply htrip | apply hsimple | apply hnumber | apply hsq | apply herr | simp

/-- **C01**: if lexing a text reaches end of file, the token spans tile the text. -/
theorem C01_tokens_tile (content : List Char) (toks : List Token)
    (h : lexAll content = (toks, some .eof)) : Tiles content toks := by
  obtain ⟨a1, a2, a3⟩ := tiles_from _ _ _ (inv_init content) h
  refine ⟨?_, a2, ?_, ?_⟩
  · intro t ht; have := a1 t ht; exact ⟨this.2.1, this.2.2⟩
  · intro t ht
    have hm : t ∈ (tokensUpTo (content.length + 1) (LexState.init content)).1 := by
      show t ∈ (lexAll content).1
      rw [h]; exact ht
    obtain ⟨s1, s2, hi1, hc1, _, htok⟩ := mem_tokens _ _ (inv_init content) hm
    obtain ⟨n, m, c, e1, _, _, _, _, hc, hns, _⟩ := token_span hi1 htok
    exact ⟨c, by rw [e1]; rw [hc1] at hc; exact hc, hns⟩
  · intro i c hc; exact a3 i c (Nat.zero_le _) hc

example : ∃ toks, lexAll "type A /* x */\n{ b \"q\" }".toList = (toks, some .eof) ∧ toks.length = 7 :=
  ⟨(lexAll "type A /* x */\n{ b \"q\" }".toList).1, by decide +kernel, by decide +kernel⟩

/-! ## C02 -/

/-- **C02**: line and column of every token, also of those returned before a
lexical error, are those of its first character. -/
theorem C02_line_col_exact (content : List Char) (t : Token) (h : t ∈ (lexAll content).1) :
    t.line = lineOf content t.startPos ∧ t.col = colOf content t.startPos := by
  obtain ⟨s1, s2, hi1, hc1, _, htok⟩ := mem_tokens _ _ (inv_init content) h
  obtain ⟨n, m, c, e1, _, _, _, _, _, _, hl, hcol, _⟩ := token_span hi1 htok
  have hc1' : s1.content = content := hc1
  rw [e1, ← hc1']; exact ⟨hl, hcol⟩

example : ((lexAll "a\n  b".toList).1.map (fun t => (t.line, t.col))) = [(1, 1), (2, 3)] := by
  decide +kernel

/-! ## C03 -/

/-- The state after `k` calls of `token()`, whatever their outcome. -/
def afterCalls (content : List Char) : Nat → LexState
  | 0 => LexState.init content
  | k + 1 => (token (afterCalls content k)).2

/-- Each call that does not signal end of file consumes a character, in every
state reachable by calls of `token()`, also after errors. -/
theorem C03_token_progress (s : LexState) (hi : Inv s) (o : LexOut) (s' : LexState)
    (h : token s = (o, s')) : (o = .eof ∧ s'.todo = []) ∨ s'.todo.length < s.todo.length := by
  obtain ⟨n, hn, _, _, hcs⟩ := token_cases s hi o s' h
  rcases hcs with ⟨h0, hk, e⟩ | ⟨hlt, c, m, _, e, _⟩
  · left; refine ⟨h0, ?_⟩; rw [e]; simp; omega
  · right; rw [e]; simp; omega

/-- **C03 (lexing to the end or to the first error)**: `length + 1` calls always
suffice to see end of file or an error, and there are at most `length` tokens. -/
theorem C03_lexing_terminates (content : List Char) :
    (lexAll content).2.isSome ∧ (lexAll content).1.length ≤ content.length := by
  have key : ∀ (n : Nat) (s : LexState), Inv s → s.todo.length < n →
      (tokensUpTo n s).2.isSome ∧ (tokensUpTo n s).1.length ≤ s.todo.length := by
    intro n
    induction n with
    | zero => intro s _ h; omega
    | succ n ih =>
      intro s hi hlt
      unfold tokensUpTo
      rcases htok : token s with ⟨o, s'⟩
      obtain ⟨hi', _⟩ := token_inv hi htok
      cases o with
      | tok t =>
        rcases C03_token_progress s hi _ s' htok with ⟨h0, _⟩ | hp
        · cases h0
        · obtain ⟨a, b⟩ := ih s' hi' (by omega)
          exact ⟨a, by simp only [List.length_cons]; omega⟩
      | eof => simp
      | error => simp
      | crash => simp
  exact key _ _ (inv_init content) (by simp [LexState.init])

/-- **C03 (resuming after errors)**: even when lexing is resumed after every error
(as the parser's error recovery does), some call among the first `length + 1`
returns end of file. -/
theorem C03_resumed_lexing_terminates (content : List Char) :
    ∃ k ≤ content.length, (token (afterCalls content k)).1 = .eof := by
  have hinv : ∀ k, Inv (afterCalls content k) := by
    intro k
    induction k with
    | zero => exact inv_init content
    | succ k ih => exact (token_inv ih (o := (token (afterCalls content k)).1) rfl).1
  have key : ∀ k, (∃ j < k, (token (afterCalls content j)).1 = .eof) ∨
      (afterCalls content k).todo.length + k ≤ content.length := by
    intro k
    induction k with
    | zero => right; simp [afterCalls, LexState.init]
    | succ k ih =>
      rcases ih with ⟨j, hj, h⟩ | h
      · exact Or.inl ⟨j, by omega, h⟩
      · rcases C03_token_progress _ (hinv k) (token (afterCalls content k)).1
            (afterCalls content (k + 1)) rfl with ⟨h0, _⟩ | hp
        · exact Or.inl ⟨k, by omega, h0⟩
        · right; omega
  rcases key (content.length + 1) with ⟨j, hj, h⟩ | h
  · exact ⟨j, by omega, h⟩
  · omega

example : (token (afterCalls "$ a ! b".toList 4)).1 = .eof := by decide +kernel

end Verif.Props
