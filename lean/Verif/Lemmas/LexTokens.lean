import Verif.Lemmas.Lexer
/-!
# Lemmas about sequences of tokens
-/
namespace Verif.Lemmas
open Verif.Model Verif.Spec

theorem inv_todo_length {s : LexState} (h : Inv s) :
    s.todo.length = s.content.length - s.pos := by rw [h.todo]; simp

theorem inv_todo_get {s : LexState} (h : Inv s) (i : Nat) :
    s.todo[i]? = s.content[s.pos + i]? := by rw [h.todo]; simp

/-- `token` keeps the invariant and the text. -/
theorem token_inv {s s' : LexState} {o : LexOut} (hi : Inv s) (h : token s = (o, s')) :
    Inv s' ∧ s'.content = s.content := by
  obtain ⟨n, _, _, _, hc⟩ := token_cases s hi o s' h
  rcases hc with ⟨_, _, rfl⟩ | ⟨_, c, m, _, rfl, _⟩
  · exact ⟨inv_advN hi _, by simp⟩
  · exact ⟨inv_advN (inv_advN hi _) _, by simp⟩

/-- Every token in the sequence comes from a `token()` call in a good state. -/
theorem mem_tokens {t : Token} : ∀ (n : Nat) (s : LexState), Inv s →
    t ∈ (tokensUpTo n s).1 →
    ∃ s1 s2, Inv s1 ∧ s1.content = s.content ∧ s.pos ≤ s1.pos ∧ token s1 = (.tok t, s2)
  | 0, s, _, ht => by simp [tokensUpTo] at ht
  | n + 1, s, hi, ht => by
    unfold tokensUpTo at ht
    rcases htok : token s with ⟨o, s'⟩
    obtain ⟨hi', hc'⟩ := token_inv hi htok
    rw [htok] at ht
    cases o with
    | tok t0 =>
      simp only [List.mem_cons] at ht
      rcases ht with rfl | ht
      · exact ⟨s, s', hi, rfl, Nat.le_refl _, htok⟩
      · obtain ⟨s1, s2, a, b, p, c⟩ := mem_tokens n s' hi' ht
        refine ⟨s1, s2, a, by rw [b, hc'], ?_, c⟩
        obtain ⟨k, _, _, _, hcs⟩ := token_cases s hi _ s' htok
        rcases hcs with ⟨h0, _⟩ | ⟨_, c, m, _, e, _⟩
        · cases h0
        · have : s'.pos = s.pos + (k + 1) + m := by rw [e]; simp
          omega
    | eof => simp at ht
    | error => simp at ht
    | crash => simp at ht

/-- Offsets of one token. -/
theorem token_span {s s' : LexState} {t : Token} (hi : Inv s) (h : token s = (.tok t, s')) :
    ∃ n m c, t.startPos = s.pos + n ∧ t.endPos = min (s.pos + n + m) (s.content.length - 1) ∧
      s'.pos = s.pos + n + m + 1 ∧ s.pos + n < s.content.length ∧
      (∀ i, i < n → ∃ c, s.content[s.pos + i]? = some c ∧ isSpace c = true) ∧
      s.content[s.pos + n]? = some c ∧ isSpace c = false ∧
      t.line = lineOf s.content (s.pos + n) ∧ t.col = colOf s.content (s.pos + n) ∧
      ∃ k b, scan (advN (n + 1) s) c = .ok s' k b ∧ s' = advN m (advN (n + 1) s) ∧
        (t.kind, t.value) = finishToken k b (slice s.content t.startPos t.endPos) := by
  obtain ⟨n, h1, h2, h3, hcs⟩ := token_cases s hi _ s' h
  rcases hcs with ⟨h0, _⟩ | ⟨hlt, c, m, hc, e, hm, hst, hrest⟩
  · cases h0
  · have hlen := inv_todo_length hi
    rcases hrest with ⟨o', hf, ho⟩ | ⟨k, b, hok, ho⟩
    · subst ho
      exfalso
      -- a failing scan never yields a token
      have : ∀ sc s1 t1, sc = Scan.fail s1 (LexOut.tok t1) → sc = scan (advN (n + 1) s) c → False := by
        intro sc s1 t1 hs1 hs2
        exact no_fail_tok _ _ _ _ (hs2 ▸ hs1)
      exact this _ _ _ hf rfl
    · have ht := LexOut.tok.inj ho
      refine ⟨n, m, c, by rw [ht], by rw [ht], ?_, by omega, ?_, ?_, h3 c hc, by rw [ht], by rw [ht],
        k, b, hok, e, by rw [ht]⟩
      · rw [e]; simp; omega
      · intro i hin
        obtain ⟨c', hc', hs⟩ := h2 i hin
        exact ⟨c', by rw [← inv_todo_get hi]; exact hc', hs⟩
      · rw [← inv_todo_get hi]; exact hc
where
  no_fail_tok (s : LexState) (c : Char) (s1 : LexState) (t1 : Token) :
      scan s c ≠ .fail s1 (.tok t1) := by
    have herr : ∀ s k a b, lexError s k a b ≠ .fail s1 (.tok t1) := by
      intro s k a b; unfold lexError; split <;> simp
    have htrip : ∀ q st l s n, tripleLoop q st l s n ≠ .fail s1 (.tok t1) := by
      intro q st l
      induction l with
      | nil => intro s n; unfold tripleLoop; apply herr
      | cons c r ih =>
        intro s n; unfold tripleLoop; dsimp only
        generalize (if s.advance.cc = some q then n + 1 else 0) = seen'
        split
        · apply herr
        · split
          · apply ih
          · simp
    have hsimple : ∀ st l s, simpleString st l s ≠ .fail s1 (.tok t1) := by
      intro st l s
      fun_induction simpleString st l s
      case case1 => apply herr
      case case2 => simp
      case case3 => apply herr
      case case4 ih => exact ih
      case case5 ih => exact ih
      case case6 ih => exact ih
    have hnum : ∀ st l s v, numLoop st l s v ≠ .fail s1 (.tok t1) := by
      intro st l
      induction l with
      | nil => intro s v; unfold numLoop; split <;> simp [herr]
      | cons c r ih =>
        intro s v; unfold numLoop
        repeat' split
        all_goals first | apply ih | apply herr | simp
    have hnumber : ∀ st s c, number st s c ≠ .fail s1 (.tok t1) := by
      intro st s c; unfold number
      split
      · apply hnum
      · split <;> apply hnum
    have hsq : ∀ st s, singleQuote st s ≠ .fail s1 (.tok t1) := by
      intro st s; unfold singleQuote; dsimp only
      split
      · apply herr
      · split
        · apply herr
        · apply htrip
    fun_cases scan s c
    all_goals first | apply htrip | apply hsimple | apply hnumber | apply hsq | apply herr | simp

end Verif.Lemmas
