import Verif.Lemmas.MarkupParse
/-!
# Markup strings: from characters to tokens and back
-/
namespace Verif.Lemmas.MarkupP
open Verif.Model Verif.Spec Verif.Lemmas

theorem blank_of_takeWhile (t : List Char) : Blank (t.takeWhile isSpace) := by
  induction t with
  | nil => intro c h; cases h
  | cons a t ih =>
    intro c h
    rw [List.takeWhile_cons] at h
    split at h
    · next ha =>
      cases h with
      | head => exact ha
      | tail _ h => exact ih c h
    · cases h

theorem drop_takeWhile (p : Char → Bool) (t : List Char) :
    t.drop (t.takeWhile p).length = t.dropWhile p := by
  induction t with
  | nil => rfl
  | cons a t ih =>
    rw [List.takeWhile_cons, List.dropWhile_cons]
    split
    · simpa using ih
    · rfl

theorem takeWhile_length_take (p : Char → Bool) (t : List Char) :
    t.take (t.takeWhile p).length = t.takeWhile p := by
  induction t with
  | nil => rfl
  | cons a t ih =>
    rw [List.takeWhile_cons]
    split
    · simpa using ih
    · rfl

theorem dropWhile_head (p : Char → Bool) (t : List Char) : (t.dropWhile p).head?.all fun c => !p c := by
  induction t with
  | nil => rfl
  | cons a t ih =>
    rw [List.dropWhile_cons]
    split
    · exact ih
    · next h => simpa using h

/-- What a token inside of double brackets is -/
theorem scan_true {t : List Char} {n : Nat} {k : MKind} {len : Nat} {r' : Bool}
    (h : mscan true t = .tok n k len r') :
    ∃ w x, Blank w ∧ t = w ++ (x ++ t.drop (n + len)) ∧ (t.drop n).take len = x ∧
      ((k = .COMMA ∧ x = [','] ∧ r' = true) ∨ (k = .DOT ∧ x = ['.'] ∧ r' = true) ∨
       (k = .IDENTIFIER ∧ IsIdent x ∧ r' = true) ∨ (k = .END ∧ x = [']', ']'] ∧ r' = false)) := by
  have key : n = (t.takeWhile isSpace).length := by
    unfold mscan at h
    dsimp only [if_true] at h
    split at h
    · cases h
    · repeat' split at h
      all_goals first | (cases h; done) | (cases h; rfl) | skip
      all_goals simp at *
  refine ⟨t.take n, (t.drop n).take len, ?_, ?_, rfl, ?_⟩
  · rw [key, takeWhile_length_take]; exact blank_of_takeWhile t
  · rw [← List.drop_drop, List.take_append_drop, List.take_append_drop]
  · unfold mscan at h
    simp only [if_true] at h
    rw [← key] at h
    split at h
    · cases h
    · next c r hd =>
      rw [hd]
      split at h
      · cases h
      · split at h
        · next hh =>
          cases h
          right; right; right
          obtain ⟨rfl, h2⟩ := hh
          cases r with
          | nil => cases h2
          | cons d r => cases h2; exact ⟨rfl, rfl, rfl⟩
        · split at h
          · next hn => simp at hn
          · split at h
            · next hh => cases h; left; exact ⟨rfl, by rw [hh]; rfl, rfl⟩
            · split at h
              · next hh => cases h; right; left; exact ⟨rfl, by rw [hh]; rfl, rfl⟩
              · split at h
                · next ha =>
                  cases h
                  right; right; left
                  refine ⟨rfl, ⟨c, r.takeWhile isWord, ?_, ha, ?_⟩, rfl⟩
                  · rw [Nat.add_comm, List.take_succ_cons, takeWhile_length_take]
                  · intro d hd
                    have : isWord d = true := by
                      have := List.all_takeWhile (p := isWord) (l := r)
                      exact List.all_eq_true.1 this d hd
                    unfold isWord at this
                    simpa using this
                · cases h

/-- What a token outside of double brackets is -/
theorem scan_false {t : List Char} {n : Nat} {k : MKind} {len : Nat} {r' : Bool}
    (h : mscan false t = .tok n k len r') :
    (∃ c r, t = c :: r ∧ k = .CHARACTER ∧ t.drop (n + len) = r ∧ r' = false ∧
      ¬ ['[', '['] <+: c :: r ∧ ¬ [']', ']'] <+: c :: r) ∨
    (∃ r, t = '[' :: '[' :: r ∧ k = .BEGIN ∧ t.drop (n + len) = r ∧ r' = true) := by
  unfold mscan at h
  simp only [Bool.false_eq_true, if_false, List.drop_zero, Bool.not_false, if_true] at h
  cases t with
  | nil => cases h
  | cons c r =>
    simp only at h
    split at h
    · next hh =>
      cases h
      obtain ⟨rfl, h2⟩ := hh
      cases r with
      | nil => cases h2
      | cons d r => cases h2; right; exact ⟨r, rfl, rfl, rfl, rfl⟩
    · next h1 =>
      split at h
      · cases h
      · next h2 =>
        cases h
        left
        refine ⟨c, r, rfl, rfl, rfl, rfl, ?_, ?_⟩
        · intro hp
          apply h1
          obtain ⟨u, hu⟩ := hp
          cases hu
          exact ⟨rfl, rfl⟩
        · intro hp
          apply h2
          obtain ⟨u, hu⟩ := hp
          cases hu
          exact ⟨rfl, rfl⟩

theorem name_text {ts : List MTk} {n : MName} (hg : GMName ts n) {t : List Char} {ts' : List MTk}
    (h : MLexes true t (ts ++ ts')) :
    ∃ x rest, t = x ++ rest ∧ MLexes true rest ts' ∧ ∀ b, Blank b → NameText (x ++ b) n := by
  cases hg with
  | @plain n =>
    generalize hl : [(MKind.IDENTIFIER, n)] ++ ts' = l at h
    cases h with
    | done _ => cases hl
    | @tok _ _ m k len r' ts hm h =>
      cases hl
      obtain ⟨w, x, hw, ht, hx, h1 | h1 | h1 | h1⟩ := scan_true hm
      · cases h1.1
      · cases h1.1
      · obtain ⟨-, hi, rfl⟩ := h1
        rw [hx]
        refine ⟨w ++ x, _, by rw [List.append_assoc]; exact ht, h, fun b hb => ?_⟩
        rw [List.append_assoc]
        exact .plain hw hi hb
      · cases h1.1
  | @qualified p d n =>
    generalize hl : [(MKind.IDENTIFIER, p), (MKind.DOT, d), (MKind.IDENTIFIER, n)] ++ ts' = l at h
    cases h with
    | done _ => cases hl
    | @tok _ _ m k len r' ts hm h =>
      cases hl
      obtain ⟨w, x, hw, ht, hx, h1 | h1 | h1 | h1⟩ := scan_true hm
      · cases h1.1
      · cases h1.1
      · obtain ⟨-, hi, rfl⟩ := h1
        rw [hx]
        generalize t.drop (m + len) = t1 at h ht
        cases h with
        | @tok _ _ m k len r' ts hm h =>
          obtain ⟨w1, x1, hw1, ht1, hx1, h1 | h1 | h1 | h1⟩ := scan_true hm
          · cases h1.1
          · obtain ⟨-, hi1, rfl⟩ := h1
            generalize t1.drop (m + len) = t2 at h ht1
            generalize hts : [(MKind.IDENTIFIER, n)].append ts' = l at h
            cases h with
            | done _ => cases hts
            | @tok _ _ m k len r' ts hm h =>
              cases hts
              obtain ⟨w2, x2, hw2, ht2, hx2, h1 | h1 | h1 | h1⟩ := scan_true hm
              · cases h1.1
              · cases h1.1
              · obtain ⟨-, hi2, rfl⟩ := h1
                rw [hx2]
                refine ⟨w ++ (x ++ (w1 ++ '.' :: (w2 ++ x2))), _, ?_, h, fun b hb => ?_⟩
                · rw [ht, ht1, hi1]
                  conv => lhs; rw [ht2]
                  simp
                · have := NameText.qualified hw hi hw1 hw2 hi2 hb
                  simpa using this
              · cases h1.1
          · cases h1.1
          · cases h1.1
      · cases h1.1

theorem names_text {ts : List MTk} {ns : List MName} (hg : GMTail ts ns) :
    ∀ {t y : List Char} {ts' : List MTk}, MLexes true t (ts ++ (.END, y) :: ts') →
      ∃ x rest, t = x ++ ']' :: ']' :: rest ∧ MLexes false rest ts' ∧
        ∀ z n, (∀ b, Blank b → NameText (z ++ b) n) → NamesText (z ++ x) (n :: ns) := by
  induction hg with
  | nil =>
    intro t y ts' h
    generalize hl : [] ++ (MKind.END, y) :: ts' = l at h
    cases h with
    | done _ => cases hl
    | @tok _ _ m k len r' ts hm h =>
      cases hl
      obtain ⟨w, x, hw, ht, hx, h1 | h1 | h1 | h1⟩ := scan_true hm
      · cases h1.1
      · cases h1.1
      · cases h1.1
      · obtain ⟨-, rfl, rfl⟩ := h1
        exact ⟨w, _, ht, h, fun z n hz => .one (hz w hw)⟩
  | @cons x ts n ts2 ns hg1 hg2 ih =>
    intro t y ts' h
    generalize hl : (MKind.COMMA, x) :: (ts ++ ts2) ++ (MKind.END, y) :: ts' = l at h
    cases h with
    | done _ => cases hl
    | @tok _ _ m k len r' ts hm h =>
      cases hl
      obtain ⟨w, x, hw, ht, hx, h1 | h1 | h1 | h1⟩ := scan_true hm
      · obtain ⟨-, rfl, rfl⟩ := h1
        replace h : MLexes true (t.drop (m + len)) (ts ++ (ts2 ++ (.END, y) :: ts')) := by
          rw [← List.append_assoc]; exact h
        obtain ⟨x1, r1, h2, h3, h4⟩ := name_text hg1 h
        obtain ⟨x2, r2, h5, h6, h7⟩ := ih h3
        refine ⟨w ++ ',' :: (x1 ++ x2), r2, ?_, h6, fun z n' hz => ?_⟩
        · rw [ht, h2, h5]; simp
        · have := NamesText.more (hz w hw) (h7 x1 _ h4)
          simpa using this
      · cases h1.1
      · cases h1.1
      · cases h1.1

/-- a text consisting of such tokens is a markup string -/
theorem all_text {ts : List MTk} {ns : List MName} (hg : GMAll ts ns) :
    ∀ {t : List Char}, MLexes false t ts → MarkupText t ns := by
  induction hg with
  | nil =>
    intro t h
    generalize hl : ([] : List MTk) = l at h
    cases h with
    | tok _ _ => cases hl
    | done hm =>
      have : t = [] := by
        cases t with
        | nil => rfl
        | cons c r =>
          unfold mscan at hm
          simp only [Bool.false_eq_true, if_false, List.drop_zero, Bool.not_false, if_true] at hm
          repeat' split at hm
          all_goals cases hm
      rw [this]
      exact .nil
  | @char x ts ns _ ih =>
    intro t h
    generalize hl : (MKind.CHARACTER, x) :: ts = l at h
    cases h with
    | done _ => cases hl
    | @tok _ _ m k len r' ts hm h =>
      cases hl
      rcases scan_false hm with ⟨c, r, rfl, -, hr, rfl, h1, h2⟩ | ⟨r, h1, h2, -⟩
      · rw [hr] at h
        exact .char h1 h2 (ih h)
      · cases h2
  | @refs x ts1 n ts2 ns y ts3 ms hg1 hg2 _ ih =>
    intro t h
    generalize hl : (MKind.BEGIN, x) :: (ts1 ++ (ts2 ++ (MKind.END, y) :: ts3)) = l at h
    cases h with
    | done _ => cases hl
    | @tok _ _ m k len r' ts hm h =>
      cases hl
      rcases scan_false hm with ⟨c, r, -, h1, -⟩ | ⟨r, rfl, -, hr, rfl⟩
      · cases h1
      · rw [hr] at h
        obtain ⟨x1, r1, h2, h3, h4⟩ := name_text hg1 h
        obtain ⟨x2, r2, h5, h6, h7⟩ := names_text hg2 h3
        have := MarkupText.refs (h7 x1 n h4) (ih h6)
        rw [h2, h5]
        simpa using this

/-! ## The other direction -/

theorem takeWhile_blank {w rest : List Char} (hw : Blank w) (hr : rest.head?.all fun c => !isSpace c) :
    (w ++ rest).takeWhile isSpace = w := by
  induction w with
  | nil =>
    cases rest with
    | nil => rfl
    | cons c r =>
      have : isSpace c = false := by simpa using hr
      simp [List.takeWhile_cons, this]
  | cons a w ih =>
    have ha := hw a List.mem_cons_self
    rw [List.cons_append, List.takeWhile_cons, ha]
    simp only [if_true]
    rw [ih fun c hc => hw c (List.mem_cons_of_mem _ hc)]

theorem mk_comma {w rest : List Char} {ts : List MTk} (hw : Blank w) (h : MLexes true rest ts) :
    MLexes true (w ++ ',' :: rest) ((.COMMA, [',']) :: ts) := by
  have hm : mscan true (w ++ ',' :: rest) = .tok w.length .COMMA 1 true := by
    unfold mscan
    rw [takeWhile_blank hw (by simp; decide)]
    simp
  have := MLexes.tok (ts := ts) hm (by simpa [← List.drop_drop] using h)
  simpa using this

theorem mk_dot {w rest : List Char} {ts : List MTk} (hw : Blank w) (h : MLexes true rest ts) :
    MLexes true (w ++ '.' :: rest) ((.DOT, ['.']) :: ts) := by
  have hm : mscan true (w ++ '.' :: rest) = .tok w.length .DOT 1 true := by
    unfold mscan
    rw [takeWhile_blank hw (by simp; decide)]
    simp
  have := MLexes.tok (ts := ts) hm (by simpa [← List.drop_drop] using h)
  simpa using this

theorem mk_end {w rest : List Char} {ts : List MTk} (hw : Blank w) (h : MLexes false rest ts) :
    MLexes true (w ++ ']' :: ']' :: rest) ((.END, [']', ']']) :: ts) := by
  have hm : mscan true (w ++ ']' :: ']' :: rest) = .tok w.length .END 2 false := by
    unfold mscan
    rw [takeWhile_blank hw (by simp; decide)]
    simp
  have := MLexes.tok (ts := ts) hm (by simpa [← List.drop_drop] using h)
  simpa using this

theorem alpha_facts {c : Char} (h : isAlpha c = true) : isSpace c = false ∧ c ≠ '[' ∧ c ≠ ']' ∧ c ≠ ',' ∧ c ≠ '.' := by
  have hn : (97 ≤ c.toNat ∧ c.toNat ≤ 122) ∨ (65 ≤ c.toNat ∧ c.toNat ≤ 90) := by
    unfold isAlpha at h
    simpa using h
  refine ⟨?_, ?_, ?_, ?_, ?_⟩
  · unfold isSpace
    simp
    omega
  all_goals
    rintro rfl
    revert hn
    decide

theorem space_not_word {c : Char} (h : isSpace c = true) : isWord c = false := by
  have hs : ¬ (isAlnum c = true ∨ c = '_') := by
    rintro (ha | rfl)
    · unfold isAlnum isNumeric at ha
      rcases Bool.or_eq_true_iff.1 ha with ha | ha
      · rw [(alpha_facts ha).1] at h; cases h
      · have : 48 ≤ c.toNat ∧ c.toNat ≤ 57 := by simpa using ha
        unfold isSpace at h
        simp at h
        omega
    · revert h; decide
  unfold isWord
  simpa using hs

theorem mk_ident {w x rest : List Char} {ts : List MTk} (hw : Blank w) (hx : IsIdent x)
    (hr : rest.head?.all fun c => !isWord c) (h : MLexes true rest ts) :
    MLexes true (w ++ (x ++ rest)) ((.IDENTIFIER, x) :: ts) := by
  obtain ⟨c, r, rfl, hc, hall⟩ := hx
  obtain ⟨f1, f2, f3, f4, f5⟩ := alpha_facts hc
  have htw : (r ++ rest).takeWhile isWord = r := by
    clear h hc f1
    induction r with
    | nil =>
      cases rest with
      | nil => rfl
      | cons d _ =>
        have : isWord d = false := by simpa using hr
        simp [List.takeWhile_cons, this]
    | cons d r ih =>
      have : isWord d = true := by
        have := hall d List.mem_cons_self
        unfold isWord
        simpa using this
      rw [List.cons_append, List.takeWhile_cons, this]
      simp only [if_true]
      rw [ih fun e he => hall e (List.mem_cons_of_mem _ he)]
  have hm : mscan true (w ++ (c :: r ++ rest)) = .tok w.length .IDENTIFIER (1 + r.length) true := by
    unfold mscan
    rw [takeWhile_blank hw (by simpa using f1)]
    simp [f2, f3, f4, f5, hc, htw]
  have hd : (w ++ (c :: r ++ rest)).drop (w.length + (1 + r.length)) = rest := by
    rw [← List.drop_drop]
    simp [Nat.add_comm 1]
  have := MLexes.tok (ts := ts) hm (by rw [hd]; exact h)
  simpa [Nat.add_comm 1] using this

theorem blank_head {b rest : List Char} (hb : Blank b) (hr : rest.head?.all fun c => !isWord c) :
    (b ++ rest).head?.all fun c => !isWord c := by
  cases b with
  | nil => exact hr
  | cons a b =>
    have := space_not_word (hb a List.mem_cons_self)
    simpa using this

theorem blank_append {a b : List Char} (ha : Blank a) (hb : Blank b) : Blank (a ++ b) := by
  intro c hc
  rcases List.mem_append.1 hc with h | h
  · exact ha c h
  · exact hb c h

theorem name_lexes {t : List Char} {n : MName} (h : NameText t n) :
    ∃ ts, GMName ts n ∧ ∀ (rest : List Char) (ts' : List MTk), (rest.head?.all fun c => !isWord c) →
      (∀ b, Blank b → MLexes true (b ++ rest) ts') → MLexes true (t ++ rest) (ts ++ ts') := by
  cases h with
  | @plain a n b ha hn hb =>
    refine ⟨_, .plain, fun rest ts' hr hl => ?_⟩
    have := mk_ident ha hn (blank_head hb hr) (hl b hb)
    simpa using this
  | @qualified a p b c n d ha hp hb hc hn hd =>
    refine ⟨_, .qualified (d := ['.']), fun rest ts' hr hl => ?_⟩
    have h1 := mk_ident hc hn (blank_head hd hr) (hl d hd)
    have h2 := mk_dot hb h1
    have h3 := mk_ident ha hp (blank_head hb (by simp; decide)) h2
    simpa using h3

theorem names_lexes {t : List Char} {ns : List MName} (h : NamesText t ns) :
    ∃ n ns' ts ts2, ns = n :: ns' ∧ GMName ts n ∧ GMTail ts2 ns' ∧ ∀ (rest : List Char) (ts' : List MTk),
      MLexes false rest ts' → MLexes true (t ++ ']' :: ']' :: rest) (ts ++ (ts2 ++ (.END, [']', ']']) :: ts')) := by
  induction h with
  | one h =>
    obtain ⟨ts, hg, hl⟩ := name_lexes h
    refine ⟨_, [], ts, [], rfl, hg, .nil, fun rest ts' hr => ?_⟩
    exact hl _ _ (by simp; decide) fun b hb => mk_end hb hr
  | @more t n t' ns h _ ih =>
    obtain ⟨ts, hg, hl⟩ := name_lexes h
    obtain ⟨m, ms, ts1, ts2, rfl, hg1, hg2, hl2⟩ := ih
    refine ⟨n, _, ts, _, rfl, hg, .cons hg1 hg2 (x := [',']), fun rest ts' hr => ?_⟩
    have := hl (',' :: (t' ++ ']' :: ']' :: rest)) _ (by simp; decide) fun b hb => mk_comma hb (hl2 rest ts' hr)
    simpa using this

/-- a markup string consists of such tokens -/
theorem text_lexes {t : List Char} {ns : List MName} (h : MarkupText t ns) :
    ∃ ts, MLexes false t ts ∧ GMAll ts ns := by
  induction h with
  | nil => exact ⟨[], .done (by simp [mscan]), .nil⟩
  | @char c r ns h1 h2 _ ih =>
    obtain ⟨ts, hl, hg⟩ := ih
    have hm : mscan false (c :: r) = .tok 0 .CHARACTER 1 false := by
      unfold mscan
      have a1 : ¬ (c = '[' ∧ r.head? = some '[') := by
        rintro ⟨rfl, h⟩
        apply h1
        cases r with
        | nil => cases h
        | cons d r => cases h; exact ⟨r, rfl⟩
      have a2 : ¬ (c = ']' ∧ r.head? = some ']') := by
        rintro ⟨rfl, h⟩
        apply h2
        cases r with
        | nil => cases h
        | cons d r => cases h; exact ⟨r, rfl⟩
      simp [a1, a2]
    exact ⟨_, .tok hm (by simpa using hl), .char hg⟩
  | @refs t ns r ms h _ ih =>
    obtain ⟨ts, hl, hg⟩ := ih
    obtain ⟨n, ns', ts1, ts2, rfl, hg1, hg2, hl2⟩ := names_lexes h
    have hm : mscan false ('[' :: '[' :: (t ++ ']' :: ']' :: r)) = .tok 0 .BEGIN 2 true := by
      simp [mscan]
    exact ⟨_, .tok hm (by simpa using hl2 r ts hl), .refs hg1 hg2 hg⟩

end Verif.Lemmas.MarkupP
