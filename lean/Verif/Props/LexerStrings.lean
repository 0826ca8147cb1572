import Verif.Lemmas.LexExact
import Verif.Props.LexerSpans
/-!
# C05: simple string literals round-trip
-/
namespace Verif.Props
open Verif.Model Verif.Spec Verif.Lemmas

/-! ## Specification -/

/-- Write a string value as the inside of a double-quoted literal. -/
def escape (v : List Char) : List Char :=
  v.flatMap (fun c => if c = '"' then ['\\', '"'] else [c])

/-! ## Helper lemmas -/

private theorem escape_cons (c : Char) (v : List Char) :
    escape (c :: v) = (if c = '"' then ['\\', '"'] else [c]) ++ escape v := by
  simp [escape]

private theorem escape_head (v : List Char) : ∀ r, escape v ≠ '"' :: r := by
  intro r
  cases v with
  | nil => simp [escape]
  | cons c v =>
    rw [escape_cons]
    split
    · simp
    · rename_i h; simp [h]

private theorem unescape_cons_ne (c : Char) (l : List Char)
    (h : ¬ (c = '\\' ∧ ∃ r, l = '"' :: r)) : unescapeQuotes (c :: l) = c :: unescapeQuotes l := by
  rw [unescapeQuotes]
  intro r h1 h2; exact h ⟨h1, r, h2⟩

/-- Removing the escapes of an escaped string gives the string back. -/
theorem unescape_escape (v : List Char) : unescapeQuotes (escape v) = v := by
  induction v with
  | nil => rfl
  | cons c v ih =>
    rw [escape_cons]
    split
    · rename_i h; subst h
      simp only [List.cons_append, List.nil_append]
      rw [unescapeQuotes]; rw [ih]
    · rename_i h
      simp only [List.cons_append, List.nil_append]
      rw [unescape_cons_ne _ _ (by rintro ⟨_, r, hr⟩; exact escape_head v r hr), ih]

private theorem simpleString_ok (st : Nat) : ∀ (v rest : List Char) (s : LexState),
    (∀ c ∈ v, c ≠ '\n') → (∀ l, v ≠ l ++ ['\\']) → s.todo = escape v ++ '"' :: rest →
    simpleString st s.todo s = .ok (advN ((escape v).length + 1) s) .STRING 0 := by
  intro v
  induction v with
  | nil =>
    intro rest s _ _ h
    simp only [escape, List.flatMap_nil, List.nil_append] at h
    rw [h]; unfold simpleString; simp [advN, escape]
  | cons c v ih =>
    intro rest s hnl hbs h
    have hnl' : ∀ c ∈ v, c ≠ '\n' := fun d hd => hnl d (List.mem_cons_of_mem _ hd)
    have hbs' : ∀ l, v ≠ l ++ ['\\'] := fun l hl => hbs (c :: l) (by rw [hl]; rfl)
    have hcn : c ≠ '\n' := hnl c (by simp)
    rw [escape_cons] at h
    by_cases hq : c = '"'
    · subst hq
      simp only [if_true, List.cons_append, List.nil_append] at h
      have hih := ih rest s.advance.advance hnl' hbs' (by simp [h])
      rw [h]; unfold simpleString
      simp only [show ('\\' : Char) ≠ '"' by decide, show ('\\' : Char) ≠ '\n' by decide, if_false,
        and_self, if_true]
      have ht : s.advance.advance.todo = escape v ++ '"' :: rest := by simp [h]
      rw [← ht, hih, escape_cons]
      simp only [if_true, List.length_append, List.length_cons, List.length_nil]
      rw [show 0 + 1 + 1 + (escape v).length + 1 = ((escape v).length + 1) + 1 + 1 by omega]
      rfl
    · simp only [hq, if_false, List.cons_append, List.nil_append] at h
      have ht : s.advance.todo = escape v ++ '"' :: rest := by simp [h]
      have hih := ih rest s.advance hnl' hbs' ht
      have hgoal : simpleString st s.todo s = simpleString st s.advance.todo s.advance := by
        rw [h, ht]
        conv => lhs; unfold simpleString
        simp only [hq, hcn, if_false]
        rcases hev : escape v ++ '"' :: rest with _ | ⟨d, r'⟩
        · simp at hev
        · simp only
          have : ¬ (c = '\\' ∧ d = '"') := by
            rintro ⟨rfl, rfl⟩
            cases v with
            | nil => exact hbs [] rfl
            | cons e v' =>
              rcases hee : escape (e :: v') with _ | ⟨f, fs⟩
              · rw [escape_cons] at hee; split at hee <;> simp at hee
              · rw [hee] at hev
                simp only [List.cons_append, List.cons.injEq] at hev
                exact escape_head (e :: v') fs (by rw [hee, hev.1])
          simp [this]
      rw [hgoal, hih, escape_cons]
      simp only [hq, if_false, List.length_append, List.length_cons, List.length_nil]
      rw [show 0 + 1 + (escape v).length + 1 = ((escape v).length + 1) + 1 by omega]
      rfl

/-! ## C05 -/

/-- **C05**: after any number `k` of calls of `token()` on any text: if the text
ahead is white space followed by the escaped form of a string `v` without newline
and not ending in a backslash (and, for the empty string, no third quote follows),
then the next token is a STRING with value exactly `v`, spanning exactly the
literal, and the text ahead afterwards is what followed the literal. -/
theorem C05_string_round_trip (content : List Char) (k : Nat) (ws v rest : List Char)
    (hahead : (afterCalls content k).todo = ws ++ '"' :: escape v ++ '"' :: rest)
    (hws : ∀ c ∈ ws, isSpace c = true)
    (hnl : ∀ c ∈ v, c ≠ '\n') (hbs : ∀ l, v ≠ l ++ ['\\'])
    (hempty : v = [] → rest.head? ≠ some '"') :
    ∃ t s', token (afterCalls content k) = (.tok t, s') ∧ t.kind = .STRING ∧ t.value = .str v ∧
      t.endPos = t.startPos + (escape v).length + 1 ∧ s'.todo = rest := by
  generalize hs : afterCalls content k = s at *
  have hi : Inv s := by
    rw [← hs]; clear hs hahead
    induction k with
    | zero => exact inv_init content
    | succ k ih => exact (token_inv ih (o := (token (afterCalls content k)).1) rfl).1
  have hahead' : s.todo = ws ++ '"' :: (escape v ++ '"' :: rest) := by rw [hahead]; simp
  have htodo := advN_todo_cons hahead'
  have hscan : scan (advN (ws.length + 1) s) '"' =
      .ok (advN ((escape v).length + 1) (advN (ws.length + 1) s)) .STRING 0 := by
    have hnt : ¬ ((advN (ws.length + 1) s).nc = some '"' ∧ (advN (ws.length + 1) s).nnc = some '"') := by
      rintro ⟨h1, h2⟩
      simp only [LexState.nc, LexState.nnc, htodo] at h1 h2
      cases v with
      | nil => simp [escape] at h2; exact hempty rfl h2
      | cons e v' =>
        rcases hee : escape (e :: v') with _ | ⟨f, fs⟩
        · rw [escape_cons] at hee; split at hee <;> simp at hee
        · rw [hee] at h1
          simp only [List.cons_append, List.head?_cons, Option.some.injEq] at h1
          exact escape_head (e :: v') fs (by rw [hee, h1])
    have hsimple := simpleString_ok (advN (ws.length + 1) s).lexpos v rest _ hnl hbs htodo
    unfold scan
    simp only [show ('"' : Char) ≠ '/' by decide, show isAlpha '"' = false by decide,
      show punctuation '"' = none by decide, show ('"' : Char) ≠ '=' by decide,
      show ('"' : Char) ≠ '.' by decide, show ('"' : Char) ≠ '<' by decide,
      show ('"' : Char) ≠ '>' by decide, show ('"' : Char) ≠ '!' by decide,
      show ('"' : Char) ≠ '*' by decide, false_and, if_false, or_self, if_true, hnt,
      Bool.false_eq_true, hsimple]
  have hm : (escape v).length + 1 ≤ (escape v ++ '"' :: rest).length := by simp
  have htok := token_exact hi hahead' hws (by decide) hm hscan
  have htake : (escape v ++ '"' :: rest).take ((escape v).length + 1) = escape v ++ ['"'] := by
    rw [List.take_append, List.take_of_length_le (by omega)]; simp
  rw [htake] at htok
  refine ⟨_, _, htok, ?_, ?_, rfl, ?_⟩
  · simp only [finishToken]; repeat' split
    all_goals rfl
  · have hpre : ['"', '"', '"'].isPrefixOf ('"' :: (escape v ++ ['"'])) = false := by
      cases v with
      | nil => rfl
      | cons e v' =>
        rcases hee : escape (e :: v') with _ | ⟨f, fs⟩
        · rw [escape_cons] at hee; split at hee <;> simp at hee
        · have : f ≠ '"' := by rintro rfl; exact escape_head _ _ hee
          simp [List.isPrefixOf, Ne.symm this]
    have hpre2 : ['"'].isPrefixOf ('"' :: (escape v ++ ['"'])) = true := by simp [List.isPrefixOf]
    simp only [finishToken, hpre, hpre2, if_false, Bool.false_eq_true, if_true,
      innerText, List.drop_succ_cons, List.drop_zero,
      List.dropLast_concat, unescape_escape]
  · rw [token_exact_todo hahead']; simp

example : (afterCalls "x = \"a\\\\\"b\" y".toList 2).todo
      = " ".toList ++ '"' :: escape "a\\\"b".toList ++ '"' :: " y".toList ∧
    (match (token (afterCalls "x = \"a\\\\\"b\" y".toList 2)).1 with
      | .tok t => t.value | _ => .none) = .str "a\\\"b".toList := by
  constructor <;> decide +kernel

/-- The restriction to strings not ending in a backslash is necessary: there is no
way to write such a value as a simple string (the backslash escapes the closing
quote), here shown for the one-character string. -/
theorem C05_trailing_backslash_not_expressible :
    (token (afterCalls ("\"".toList ++ escape ['\\'] ++ "\" ".toList) 0)).1
      = .error .unterminatedString 0 3 := by decide +kernel

end Verif.Props
