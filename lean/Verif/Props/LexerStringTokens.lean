import Verif.Props.LexerStrings
import Verif.Props.LexerTriple
/-!
# C68: what a string token is
-/
namespace Verif.Props
open Verif.Model Verif.Spec Verif.Lemmas

private theorem no_backslash {c : Char} {v : List Char} (h : ∀ l, v ≠ l ++ ['\\']) (hc : v = [] → c ≠ '\\') :
    ∀ l, c :: v ≠ l ++ ['\\'] := by
  intro l e
  cases l with
  | nil => simp at e; exact hc e.2 e.1
  | cons d l => simp at e; exact h l e.2

private theorem simpleString_shape (st : Nat) : ∀ (n : Nat) (s s' : LexState) (k : Kind) (b : Nat),
    s.todo.length ≤ n → simpleString st s.todo s = .ok s' k b →
    ∃ v rest, s.todo = escape v ++ '"' :: rest ∧ (∀ c ∈ v, c ≠ '\n') ∧ (∀ l, v ≠ l ++ ['\\']) ∧
      s' = advN ((escape v).length + 1) s := by
  intro n
  induction n with
  | zero =>
    intro s s' k b hn h
    have : s.todo = [] := List.length_eq_zero_iff.1 (by omega)
    rw [this, simpleString] at h
    exact (not_lexError_ok h).elim
  | succ n ih =>
    intro s s' k b hn h
    cases ht : s.todo with
    | nil => rw [ht, simpleString] at h; exact (not_lexError_ok h).elim
    | cons c r =>
      have hl : r.length ≤ n := by rw [ht] at hn; simpa using hn
      have ht1 : s.advance.todo = r := by simp [ht]
      rw [ht, simpleString.eq_def] at h
      simp only at h
      split at h
      · next hc => cases h; exact ⟨[], r, by rw [hc]; rfl, by simp, by simp, rfl⟩
      · next hq =>
        split at h
        · exact (not_lexError_ok h).elim
        · next hnl =>
          have one : (∀ r', r = '"' :: r' → c ≠ '\\') → simpleString st s.advance.todo s.advance = .ok s' k b →
              ∃ v rest, c :: r = escape v ++ '"' :: rest ∧ (∀ c ∈ v, c ≠ '\n') ∧ (∀ l, v ≠ l ++ ['\\']) ∧
                s' = advN ((escape v).length + 1) s := by
            intro hb h
            obtain ⟨v, rest, h1, h2, h4, h3⟩ := ih _ _ _ _ (by rw [ht1]; exact hl) h
            refine ⟨c :: v, rest, ?_, ?_, ?_, ?_⟩
            · rw [← ht1, h1]; simp [escape, hq]
            · intro d hd
              cases hd with
              | head => exact hnl
              | tail _ hd => exact h2 d hd
            · refine no_backslash h4 fun e => hb rest ?_
              rw [← ht1, h1, e]; rfl
            · rw [h3]
              have : (escape (c :: v)).length = (escape v).length + 1 := by simp [escape, hq]
              rw [this]; rfl
          cases r with
          | nil => exact one (by simp) (by rw [ht1]; exact h)
          | cons d r' =>
            simp only at h
            split at h
            · next hcd =>
              obtain ⟨rfl, rfl⟩ := hcd
              have ht2 : s.advance.advance.todo = r' := by simp [ht]
              obtain ⟨v, rest, h1, h2, h4, h3⟩ := ih s.advance.advance s' k b
                (by rw [ht2]; simp at hl; omega) (by rw [ht2]; exact h)
              refine ⟨'"' :: v, rest, ?_, ?_, no_backslash h4 fun _ => by decide, ?_⟩
              · rw [← ht2, h1]; simp [escape]
              · intro d hd
                cases hd with
                | head => decide
                | tail _ hd => exact h2 d hd
              · rw [h3]
                have : (escape ('"' :: v)).length = (escape v).length + 2 := by simp [escape]
                rw [this]; rfl
            · next hcd =>
              refine one ?_ (by rw [ht1]; exact h)
              rintro r'' e rfl
              cases e
              exact hcd ⟨rfl, rfl⟩

private theorem replicate_drop_not (q c : Char) (hc : c ≠ q) (n i : Nat) (l : List Char) (hi : i ≤ n) (hn : n < 3) :
    ¬ [q, q, q] <+: (List.replicate n q ++ c :: l).drop i := by
  intro h
  have h2 : [q, q, q] <+: List.replicate (n - i) q ++ c :: l := by
    rw [List.drop_append_of_le_length (by simpa using hi), List.drop_replicate] at h
    exact h
  obtain ⟨u, hu⟩ := h2
  have : n - i < 3 := by omega
  match hm : n - i, this with
  | 0, _ => rw [hm] at hu; simp at hu; exact hc hu.1.symm
  | 1, _ => rw [hm] at hu; simp [List.replicate] at hu; exact hc hu.1.symm
  | 2, _ => rw [hm] at hu; simp [List.replicate] at hu; exact hc hu.1.symm

private theorem tripleLoop_shape (q : Char) (st : Nat) : ∀ (l : List Char) (s s' : LexState) (n : Nat) (k : Kind)
    (b : Nat), s.todo = l → n < 3 → tripleLoop q st l s n = .ok s' k b →
    ∃ m body, m < l.length ∧ s' = advN m s ∧ List.replicate n q ++ l.take m = body ++ [q, q, q] ∧
      ClosedBody q body := by
  intro l
  induction l with
  | nil =>
    intro s s' n k b _ _ h
    rw [tripleLoop] at h
    exact (not_lexError_ok h).elim
  | cons c r ih =>
    intro s s' n k b ht hn h
    have ht1 : s.advance.todo = r := by simp [ht]
    have hcc : s.advance.cc = some c := by simp [LexState.advance, ht]
    rw [tripleLoop] at h
    simp only [hcc, Option.some.injEq] at h
    split at h
    · exact (not_lexError_ok h).elim
    · next hnc =>
      have hr : 0 < r.length := by
        cases r with
        | nil => exact absurd (by rw [LexState.nc, ht1]; rfl) hnc
        | cons _ _ => simp
      by_cases hq : c = q
      · subst hq
        simp only [if_true] at h
        split at h
        · next h3 =>
          obtain ⟨m, body, h4, h5, h6, h7⟩ := ih s.advance s' (n + 1) k b ht1 h3 h
          refine ⟨m + 1, body, by simpa using h4, by rw [h5]; rfl, ?_, h7⟩
          rw [← h6, List.replicate_succ']
          simp
        · next h3 =>
          cases h
          have : n = 2 := by omega
          subst this
          exact ⟨1, [], by simpa using hr, rfl, by simp [List.replicate], by intro i hi; simp at hi⟩
      · simp only [hq, if_false, show 0 < 3 by omega, if_true] at h
        obtain ⟨m, body, h4, h5, h6, h7⟩ := ih s.advance s' 0 k b ht1 (by omega) h
        refine ⟨m + 1, List.replicate n q ++ c :: body, by simpa using h4, by rw [h5]; rfl, ?_, ?_⟩
        · simp only [List.take_succ_cons]
          have h6 : r.take m = body ++ [q, q, q] := by simpa using h6
          rw [h6]; simp
        · intro i hi
          rcases Nat.lt_or_ge n i with hlt | hge
          · have : (List.replicate n q ++ c :: body ++ [q, q, q]).drop i = (body ++ [q, q, q]).drop (i - n - 1) := by
              rw [List.append_assoc, List.drop_append, List.drop_eq_nil_of_le (by simp; omega), List.length_replicate]
              have : i - n = (i - n - 1) + 1 := by omega
              rw [this]
              simp
            rw [this]
            apply h7
            simp at hi
            omega
          · rw [List.append_assoc, List.cons_append]
            exact replicate_drop_not q c hq n i _ hge hn

private theorem finish_string {k k' : Kind} {b : Nat} {text : List Char} {v : TokVal}
    (h : (k', v) = finishToken k b text) : k' = .STRING ↔ k = .STRING := by
  revert h
  fun_cases finishToken k b text
  all_goals intro h
  all_goals simp only [Prod.mk.injEq] at h
  all_goals obtain ⟨h1, h2⟩ := h
  all_goals first
    | (subst h1; simp; done)
    | (subst h1; split <;> simp)

private theorem punct_ne_string {c : Char} : punctuation c ≠ some .STRING := by
  unfold punctuation
  repeat' split
  all_goals simp

private theorem scan_string {s s' : LexState} {c : Char} {b : Nat} (h : scan s c = .ok s' .STRING b) :
    (c = '"' ∧ ¬ (s.nc = some '"' ∧ s.nnc = some '"') ∧ ∃ st, simpleString st s.todo s = .ok s' .STRING b) ∨
    (∃ st, (c = '"' ∨ c = '\'') ∧ s.nc = some c ∧ s.nnc = some c ∧
      tripleLoop c st s.advance.advance.todo s.advance.advance 0 = .ok s' .STRING b) := by
  revert h
  fun_cases scan s c
  all_goals intro h
  all_goals first
    | exact (not_lexError_ok h).elim
    | (cases h; done)
    | (rename_i hp; cases h; exact (punct_ne_string hp).elim)
    | (rcases number_kind _ _ _ _ _ _ h with h | h <;> cases h; done)
    | skip
  · right
    simp_all
    exact ⟨_, h⟩
  · left
    refine ⟨by simp_all, by simp_all, _, h⟩
  · right
    have hc : c = '\'' := by simp_all
    subst hc
    unfold singleQuote at h
    simp only at h
    split at h
    · exact (not_lexError_ok h).elim
    · next h1 =>
      split at h
      · exact (not_lexError_ok h).elim
      · next h2 =>
        refine ⟨_, .inr rfl, ?_, ?_, h⟩
        · have : s.advance.cc = s.nc := by simp [LexState.advance, LexState.nc]
          rw [← this]; simpa using h1
        · have : s.advance.advance.cc = s.nnc := by
            have e := advN_cc 1 s
            have : advN (1 + 1) s = s.advance.advance := rfl
            rw [this] at e
            rw [e, LexState.nnc]
            cases s.todo with
            | nil => rfl
            | cons a r => cases r <;> rfl
          rw [← this]; simpa using h2

/-- what a string token is, and the text in front of it and behind it -/
theorem string_token_of {s1 s2 : LexState} {t : Token} (hi : Inv s1) (htok : token s1 = (.tok t, s2))
    (hk : t.kind = .STRING) :
    (∃ ws, (∀ c ∈ ws, isSpace c = true) ∧ s1.todo = ws ++ slice s1.content t.startPos t.endPos ++ s2.todo) ∧
    ((∃ v, slice s1.content t.startPos t.endPos = '"' :: (escape v ++ ['"']) ∧ (∀ c ∈ v, c ≠ '\n') ∧
      t.value = .str v ∧ ∀ l, v ≠ l ++ ['\\']) ∨
    (∃ q body v, (q = '"' ∨ q = '\'') ∧
      slice s1.content t.startPos t.endPos = [q, q, q] ++ body ++ [q, q, q] ∧ ClosedBody q body ∧
      t.value = .str v ∧ CodeValue body v)) := by
  obtain ⟨n, m, c, e1, e2, _, hlt, hsp, hc, _, _, _, k, b, hscan, hs2, hfin⟩ := token_span hi htok
  generalize hcon : s1.content = content at *
  have hinv' := inv_advN hi (n + 1)
  have hlen := inv_todo_length hinv'
  simp only [advN_pos, advN_content, hcon] at hlen
  have hdrop : content.drop t.startPos = c :: (advN (n + 1) s1).todo := by
    rw [e1, hinv'.todo]
    simp only [advN_pos, advN_content, hcon]
    rw [List.drop_eq_getElem_cons hlt]
    rw [List.getElem?_eq_getElem hlt] at hc
    rw [Option.some.inj hc, Nat.add_assoc]
  have htx : slice content t.startPos t.endPos = c :: (advN (n + 1) s1).todo.take m := by
    rw [slice, hdrop, e1, e2]
    have : min (s1.pos + n + m) (content.length - 1) + 1 - (s1.pos + n) =
        min m (advN (n + 1) s1).todo.length + 1 := by omega
    rw [this, List.take_succ_cons, ← List.take_take, List.take_length]
  refine ⟨⟨s1.todo.take n, ?_, ?_⟩, ?_⟩
  · intro d hd
    obtain ⟨i, hi', he⟩ := List.mem_iff_getElem.1 hd
    have hin : i < n := by simp at hi'; omega
    obtain ⟨d', h1, h2⟩ := hsp i hin
    have : s1.content[s1.pos + i]? = some d := by
      rw [← List.getElem?_drop, ← hi.todo, ← he]
      simp at hi' ⊢
    rw [hcon, h1] at this
    cases this
    exact h2
  · rw [htx, hs2]
    have hd : s1.todo.drop n = c :: (advN (n + 1) s1).todo := by
      rw [← hdrop, e1, hi.todo, hcon, List.drop_drop]
    rw [advN_todo m, List.append_assoc, List.cons_append, List.take_append_drop, ← hd, List.take_append_drop]
  · have hk' := (finish_string hfin).1 hk
    subst hk'
    generalize hs : advN (n + 1) s1 = s at hdrop htx hscan hs2
    rcases scan_string hscan with ⟨rfl, hnn, st, hsim⟩ | ⟨st, hq, h1, h2, htri⟩
    · left
      obtain ⟨v, rest, g1, g2, g4, g3⟩ := simpleString_shape st _ s s2 _ _ (Nat.le_refl _) hsim
      have hm : m = (escape v).length + 1 := by apply advN_inj_pos (s := s); rw [← hs2, g3]
      have hraw : slice content t.startPos t.endPos = '"' :: (escape v ++ ['"']) := by
        rw [htx, hm, g1, List.take_append, List.take_of_length_le (by omega)]
        simp
      refine ⟨v, hraw, g2, ?_⟩
      have hpre : ['"', '"', '"'].isPrefixOf ('"' :: (escape v ++ ['"'])) = false := by
        cases hp : ['"', '"', '"'].isPrefixOf ('"' :: (escape v ++ ['"'])) with
        | false => rfl
        | true =>
          exfalso
          obtain ⟨u, hu⟩ := List.isPrefixOf_iff_prefix.1 hp
          cases v with
          | nil => simp [escape] at hu
          | cons e v =>
            simp only [escape, List.flatMap_cons] at hu
            split at hu
            · simp at hu
            · next he => simp at hu; exact he hu.1.symm
      rw [hraw] at hfin
      have hpre2 : ['"'].isPrefixOf ('"' :: (escape v ++ ['"'])) = true := by simp [List.isPrefixOf]
      simp only [finishToken, hpre, hpre2, if_false, Bool.false_eq_true, if_true,
        innerText, List.drop_succ_cons, List.drop_zero,
        List.dropLast_concat, unescape_escape, Prod.mk.injEq] at hfin
      exact ⟨hfin.2, g4⟩
    · right
      obtain ⟨r, hr⟩ : ∃ r, s.todo = c :: c :: r := by
        unfold LexState.nc at h1
        unfold LexState.nnc at h2
        cases ht : s.todo with
        | nil => rw [ht] at h1; cases h1
        | cons a r =>
          cases r with
          | nil => rw [ht] at h2; simp at h2
          | cons d r =>
            rw [ht] at h1 h2
            simp at h1 h2
            exact ⟨r, by rw [h1, h2]⟩
      have htd : s.advance.advance.todo = r := by simp [hr]
      obtain ⟨m', body, g0, g1, g2, g3⟩ := tripleLoop_shape c st _ _ _ _ _ _ rfl (by omega) htri
      have hm : m = m' + 2 := by
        apply advN_inj_pos (s := s); rw [← hs2, g1]; rfl
      have hraw : slice content t.startPos t.endPos = [c, c, c] ++ body ++ [c, c, c] := by
        rw [htx, hm, hr]
        rw [htd] at g2
        have g2 : r.take m' = body ++ [c, c, c] := by simpa using g2
        simp [g2]
      rw [hraw] at hfin
      have hval : finishToken .STRING b ([c, c, c] ++ body ++ [c, c, c]) =
          (.STRING, .str (tripleQuotedValue ([c, c, c] ++ body ++ [c, c, c]))) := by
        rcases hq with rfl | rfl <;> simp [finishToken, List.isPrefixOf]
      rw [hval] at hfin
      simp only [Prod.mk.injEq] at hfin
      exact ⟨c, body, _, hq, hraw, g3, hfin.2, C45_triple_value c body⟩

/-- **C68**: every string token is either a double-quoted literal without newline, in which each
inner quote is escaped, and its value is the text without the escapes, which does not end in a
backslash; or it is a triple-quoted literal that ends at the first three quotes after the opening,
with the value of C45. -/
theorem C68_string_tokens (content : List Char) (t : Token) (h : t ∈ (lexAll content).1)
    (hk : t.kind = .STRING) :
    (∃ v, slice content t.startPos t.endPos = '"' :: (escape v ++ ['"']) ∧ (∀ c ∈ v, c ≠ '\n') ∧
      t.value = .str v ∧ ∀ l, v ≠ l ++ ['\\']) ∨
    (∃ q body v, (q = '"' ∨ q = '\'') ∧
      slice content t.startPos t.endPos = [q, q, q] ++ body ++ [q, q, q] ∧ ClosedBody q body ∧
      t.value = .str v ∧ CodeValue body v) := by
  obtain ⟨s1, s2, hi, hc1, _, htok⟩ := mem_tokens _ _ (inv_init content) h
  have hcon : s1.content = content := hc1
  subst hcon
  exact (string_token_of hi htok hk).2

example : ∃ t ∈ (lexAll "x = \"a\\\"b\" '''it''s''' ".toList).1, t.kind = .STRING ∧
    t.value = .str "it''s".toList := by decide +kernel

end Verif.Props
