import Verif.Lemmas.LexScan
/-!
# Exact outcome of `token()` from the text ahead
-/
namespace Verif.Lemmas
open Verif.Model Verif.Spec

theorem skip_exact {s : LexState} {ws r : List Char} {c : Char}
    (h : s.todo = ws ++ c :: r) (hws : ∀ d ∈ ws, isSpace d = true) (hc : isSpace c = false) :
    skipWhitespace s = advN (ws.length + 1) s := by
  obtain ⟨n, h1, h2, h3, h4⟩ := skipWhitespace_eq s
  have hn : n = ws.length := by
    rcases Nat.lt_trichotomy n ws.length with hlt | heq | hgt
    · exfalso
      have hg : s.todo[n]? = some ws[n] := by
        rw [h, List.getElem?_append_left hlt, List.getElem?_eq_getElem hlt]
      have := h4 _ hg
      rw [hws _ (List.getElem_mem hlt)] at this; cases this
    · exact heq
    · exfalso
      obtain ⟨c', hc', hs⟩ := h3 ws.length hgt
      rw [h] at hc'
      simp at hc'
      subst hc'
      rw [hc] at hs; cases hs
  rw [h2, hn]

/-- If the text ahead is white space, then a character `c`, and scanning `c` takes
`m` more characters, then `token()` returns exactly that token. -/
theorem token_exact {s : LexState} (hi : Inv s) {ws r : List Char} {c : Char} {m : Nat} {k : Kind}
    {b : Nat} (h : s.todo = ws ++ c :: r) (hws : ∀ d ∈ ws, isSpace d = true)
    (hc : isSpace c = false) (hm : m ≤ r.length)
    (hscan : scan (advN (ws.length + 1) s) c = .ok (advN m (advN (ws.length + 1) s)) k b) :
    token s =
      (.tok { kind := (finishToken k b (c :: r.take m)).1
              value := (finishToken k b (c :: r.take m)).2
              startPos := s.pos + ws.length
              endPos := s.pos + ws.length + m
              line := lineOf s.content (s.pos + ws.length)
              col := colOf s.content (s.pos + ws.length) },
       advN m (advN (ws.length + 1) s)) := by
  have hlen := inv_todo_length hi
  have hlen2 : s.todo.length = ws.length + (r.length + 1) := by rw [h]; simp
  have hcc : (advN (ws.length + 1) s).cc = some c := by
    rw [advN_cc, h]; simp
  have hinv := inv_advN hi (ws.length + 1)
  obtain ⟨hl, hcol⟩ := hinv.loc (by rw [advN_pos]; omega)
    (by rw [advN_pos, advN_content]; omega)
  have hp1 : s.pos + (ws.length + 1) - 1 = s.pos + ws.length := by omega
  simp only [advN_pos, advN_content, hp1] at hl hcol
  have hlex : (advN (ws.length + 1) s).lexpos = s.pos + ws.length := by
    simp only [LexState.lexpos, advN_pos]; omega
  have hlex' : (advN m (advN (ws.length + 1) s)).lexpos = s.pos + ws.length + m := by
    simp only [LexState.lexpos, advN_pos]; omega
  have hsl : slice s.content (s.pos + ws.length)
      (min (s.pos + ws.length + m) (s.content.length - 1)) = c :: r.take m := by
    rw [slice_eq _ _ _ (by omega)]
    have : s.content.drop (s.pos + ws.length) = c :: r := by
      rw [← List.drop_drop, ← hi.todo, h]; simp
    rw [this]; simp
  have hmin : min (s.pos + ws.length + m) (s.content.length - 1) = s.pos + ws.length + m := by omega
  rw [hmin] at hsl
  unfold token
  simp only [skip_exact h hws hc, hcc, hscan, hlex, hlex', advN_content, hsl, hl, hcol, hmin]

/-- Text ahead after the token of `token_exact`. -/
theorem token_exact_todo {s : LexState} {ws r : List Char} {c : Char} {m : Nat}
    (h : s.todo = ws ++ c :: r) :
    (advN m (advN (ws.length + 1) s)).todo = r.drop m := by
  simp only [advN_todo, h, List.drop_drop]
  have : ws.length + 1 + m = ws.length + (m + 1) := by omega
  rw [this, ← List.drop_drop]; simp

theorem advN_todo_cons {s : LexState} {ws r : List Char} {c : Char}
    (h : s.todo = ws ++ c :: r) : (advN (ws.length + 1) s).todo = r := by
  have := token_exact_todo (m := 0) h
  simpa [advN] using this

end Verif.Lemmas
