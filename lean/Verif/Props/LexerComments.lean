import Verif.Lemmas.LexExact
import Verif.Props.LexerOps
/-!
# C64: comments

A token is a comment iff it starts with `//` or `/*`.  A `//` comment ends before the next line
break.  A `/*` comment is the shortest text of the form `/…*/`, or the rest of the file if there is none
(so a comment that is never closed is accepted silently, and `/*/` is a closed comment).
-/
namespace Verif.Props
open Verif.Model Verif.Spec Verif.Lemmas

/-- a text of the form `/ … */` -/
def ClosedComment (text : List Char) : Prop := ∃ body, text = '/' :: (body ++ ['*', '/'])

private theorem lineComment_extent (l : List Char) (s : LexState) (h : l = s.todo)
    (hc : s.cc.isSome) :
    ∃ n, lineComment l s = advN n s ∧ l.take n = l.takeWhile (· ≠ '\n') := by
  induction l generalizing s with
  | nil => exact ⟨1, by simp [lineComment, hc, advN], rfl⟩
  | cons c r ih =>
    unfold lineComment
    have hn : s.nc = some c := by rw [LexState.nc, ← h]; rfl
    by_cases hcn : c = '\n'
    · subst hcn
      exact ⟨0, by simp [hn, advN], by simp⟩
    · obtain ⟨n, h1, h2⟩ := ih s.advance (by simp [← h]) (by
        rw [advance_cc]; rw [LexState.nc] at hn; rw [hn]; rfl)
      refine ⟨n + 1, by simp [hc, hn, hcn, h1, advN], ?_⟩
      rw [List.take_succ_cons, h2, List.takeWhile_cons_of_pos (by simpa using hcn)]

private theorem punct_comment {c : Char} (h : punctuation c = some .COMMENT) : False := by
  unfold punctuation at h
  split at h <;> cases h

private theorem scan_comment {s s' : LexState} {c : Char} {k : Kind} {b : Nat}
    (h : scan s c = .ok s' k b) :
    k = .COMMENT ↔ c = '/' ∧ (s.nc = some '/' ∨ s.nc = some '*') := by
  constructor
  · revert h
    fun_cases scan s c
    all_goals intro h hk
    all_goals first
      | exact (not_lexError_ok h).elim
      | (have := tripleLoop_kind _ _ _ _ _ _ _ _ h; rw [this] at hk; cases hk; done)
      | (have := simpleString_kind _ _ _ _ _ _ h; rw [this] at hk; cases hk; done)
      | (have := singleQuote_kind _ _ _ _ _ h; rw [this] at hk; cases hk; done)
      | (have := number_kind _ _ _ _ _ _ h; rcases this with h | h <;> rw [h] at hk <;> cases hk; done)
      | skip
    all_goals have q2 := (Scan.ok.inj h).2.1
    all_goals clear h
    all_goals subst q2
    all_goals first
      | (cases hk; done)
      | (rename_i hc; exact ⟨hc.1, Or.inl hc.2⟩)
      | (rename_i hc; exact ⟨hc.1, Or.inr hc.2⟩)
      | (rename_i hp; rw [hk] at hp; exact (punct_comment hp).elim)
  · rintro ⟨rfl, hn | hn⟩
    · simp only [scan, hn, and_self, if_true] at h
      exact (Scan.ok.inj h).2.1.symm
    · have : ¬ (some '*' = some '/') := by decide
      simp only [scan, hn, this, and_false, if_false, and_self, if_true] at h
      exact (Scan.ok.inj h).2.1.symm

private theorem finish_comment {k k' : Kind} {b : Nat} {text : List Char} {v : TokVal}
    (h : (k', v) = finishToken k b text) : k' = .COMMENT ↔ k = .COMMENT := by
  revert h
  fun_cases finishToken k b text
  all_goals intro h
  all_goals simp only [Prod.mk.injEq] at h
  all_goals obtain ⟨h1, h2⟩ := h
  all_goals first
    | (subst h1; simp; done)
    | (subst h1; split <;> simp)

/-- **C64**: comments are exactly the tokens that start with `//` or `/*`; a `//` comment extends
to the end of the line, a `/*` comment to the first `*/`, or to the end of the file if there is
none. -/
theorem C64_comments (content : List Char) (t : Token) (h : t ∈ (lexAll content).1)
    (text rest : List Char) (hrest : rest = content.drop t.startPos)
    (htext : text = rest.take (t.endPos + 1 - t.startPos)) :
    (t.kind = .COMMENT ↔ ['/', '/'] <+: rest ∨ ['/', '*'] <+: rest) ∧
    (['/', '/'] <+: rest → text = rest.takeWhile (· ≠ '\n')) ∧
    (['/', '*'] <+: rest →
      (ClosedComment text ∧ ∀ p, p <+: rest → ClosedComment p → text <+: p) ∨
      (text = rest ∧ ∀ p, p <+: rest → ¬ ClosedComment p)) := by
  obtain ⟨s1, s2, hi, hc1, _, htok⟩ := mem_tokens _ _ (inv_init content) h
  have hcon : s1.content = content := hc1
  obtain ⟨n, m, c, e1, e2, _, hlt, _, hc, _, _, _, k, b, hscan, hs2, hfin⟩ := token_span hi htok
  rw [hcon] at e2 hlt hc hfin
  have hinv' := inv_advN hi (n + 1)
  have hlen := inv_todo_length hinv'
  simp only [advN_pos, advN_content, hcon] at hlen
  have hdrop : rest = c :: (advN (n + 1) s1).todo := by
    rw [hrest, e1, hinv'.todo]
    simp only [advN_pos, advN_content, hcon]
    rw [List.drop_eq_getElem_cons hlt]
    rw [List.getElem?_eq_getElem hlt] at hc
    rw [Option.some.inj hc, Nat.add_assoc]
  have hcc : (advN (n + 1) s1).cc = some c := by
    rw [advN_cc, inv_todo_get hi, hcon, hc]
  have htx : text = c :: (advN (n + 1) s1).todo.take m := by
    rw [htext, hdrop, e1, e2]
    have : min (s1.pos + n + m) (content.length - 1) + 1 - (s1.pos + n) =
        min m (advN (n + 1) s1).todo.length + 1 := by omega
    rw [this, List.take_succ_cons, ← List.take_take, List.take_length]
  generalize hs : advN (n + 1) s1 = s at hdrop hcc htx hscan hs2
  have hpre : ∀ d, ['/', d] <+: rest ↔ c = '/' ∧ s.nc = some d := by
    intro d
    rw [hdrop, LexState.nc, List.cons_prefix_cons]
    rcases s.todo with _ | ⟨x, r⟩
    · simp
    · simp only [List.cons_prefix_cons, List.nil_prefix, and_true, List.head?_cons,
        Option.some.injEq]
      constructor <;> rintro ⟨rfl, rfl⟩ <;> exact ⟨rfl, rfl⟩
  refine ⟨?_, ?_, ?_⟩
  · rw [finish_comment hfin, scan_comment hscan, hpre, hpre, and_or_left]
  · intro hp
    obtain ⟨rfl, hn⟩ := (hpre _).1 hp
    obtain ⟨j, h1, h2⟩ := lineComment_extent s.todo s rfl (by rw [hcc]; rfl)
    simp only [scan, hn, and_self, if_true] at hscan
    have hm : m = j := by
      apply advN_inj_pos (s := s); rw [← hs2, ← (Scan.ok.inj hscan).1, h1]
    rw [htx, hdrop, hm, h2, List.takeWhile_cons_of_pos (by decide)]
  · intro hp
    obtain ⟨rfl, hn⟩ := (hpre _).1 hp
    have hne : ¬ (some '*' = some '/') := by decide
    simp only [scan, hn, hne, and_false, if_false, and_self, if_true] at hscan
    obtain ⟨j, h1, h2, h3, h4⟩ := advWhile_eq
      (fun s => !(s.cc == some '*' && s.nc == some '/')) s.todo s rfl
    have hm : m = j + 1 := by
      apply advN_inj_pos (s := s)
      rw [← hs2, ← (Scan.ok.inj hscan).1, blockComment, h2, advN_succ]
    subst hm
    have hnc : ∀ i, (advN i s).nc = s.todo[i]? := by
      intro i; rw [LexState.nc, advN_todo, List.head?_drop]
    -- a closed prefix gives a position where the loop stops
    have hstop : ∀ p, p <+: rest → ClosedComment p → ∃ i, p.length = i + 3 ∧ i + 1 < s.todo.length ∧
        s.todo[i]? = some '*' ∧ s.todo[i + 1]? = some '/' ∧ j ≤ i + 1 := by
      rintro p ⟨q, hq⟩ ⟨body, rfl⟩
      rw [hdrop] at hq
      have hq' : s.todo = body ++ ['*', '/'] ++ q := by simpa using hq.symm
      have g1 : s.todo[body.length]? = some '*' := by rw [hq']; simp
      have g2 : s.todo[body.length + 1]? = some '/' := by rw [hq']; simp
      refine ⟨body.length, by simp, ?_, g1, g2, ?_⟩
      · rw [hq']; simp
      · rcases Nat.lt_or_ge (body.length + 1) j with hlt | hge
        · have := h3 _ hlt
          rw [advN_cc, hnc, g1, g2] at this
          simp at this
        · exact hge
    rcases Nat.lt_or_ge j s.todo.length with hj | hj
    · left
      have h4 := h4 hj
      rw [hnc] at h4
      simp only [Bool.not_eq_false', Bool.and_eq_true, beq_iff_eq] at h4
      rcases j with _ | j
      · rw [advN, hcc] at h4; simp at h4
      rw [advN_cc] at h4
      have hg : s.todo.take (j + 1 + 1) = s.todo.take j ++ ['*', '/'] := by
        rw [List.take_add_one, List.take_add_one, h4.1, h4.2]; simp
      constructor
      · exact ⟨s.todo.take j, by rw [htx, hg]⟩
      · intro p hpr hcl
        obtain ⟨i, hl, -, -, -, hji⟩ := hstop p hpr hcl
        have htr : text <+: rest := by rw [htext]; exact List.take_prefix _ _
        refine List.prefix_of_prefix_length_le htr hpr ?_
        rw [htx, hl]
        simp; omega
    · right
      constructor
      · rw [htx, hdrop, List.take_of_length_le (by omega)]
      · intro p hpr hcl
        obtain ⟨i, -, hl, -, -, hji⟩ := hstop p hpr hcl
        omega

example : (lexAll "a // x */\n/*/ b /* y ** z */ /* // \n".toList).1.map
    (fun t => (t.kind, t.startPos, t.endPos)) =
    [(.IDENTIFIER, 0, 0), (.COMMENT, 2, 8), (.COMMENT, 10, 12), (.IDENTIFIER, 14, 14),
      (.COMMENT, 16, 27), (.COMMENT, 29, 35)] := by
  decide +kernel

end Verif.Props
