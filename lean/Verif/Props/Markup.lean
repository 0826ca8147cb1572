import Verif.Lemmas.MarkupText
import Verif.Props.LexerStringTokens
/-!
# C47, C48: references in markup strings
-/
namespace Verif.Props
open Verif.Model Verif.Spec Verif.Lemmas Verif.Lemmas.MarkupP

/-! ## The text between the quotes -/

private theorem escape_not_quote (v l : List Char) : ¬ ['"', '"', '"'] <+: '"' :: (escape v ++ '"' :: l) ∨ v = [] := by
  cases v with
  | nil => exact .inr rfl
  | cons e v =>
    left
    rintro ⟨u, hu⟩
    simp only [escape, List.flatMap_cons] at hu
    split at hu
    · simp at hu
    · next he => simp at hu; exact he hu.1.symm

theorem isMulti_simple (v : List Char) : isMultiString ('"' :: (escape v ++ ['"'])) = false := by
  have h1 : ['"', '"', '"'].isPrefixOf ('"' :: (escape v ++ ['"'])) = false := by
    cases hp : ['"', '"', '"'].isPrefixOf ('"' :: (escape v ++ ['"'])) with
    | false => rfl
    | true =>
      rcases escape_not_quote v [] with h | rfl
      · exact (h (List.isPrefixOf_iff_prefix.1 hp)).elim
      · simp [escape, List.isPrefixOf] at hp
  have h2 : ['\'', '\'', '\''].isPrefixOf ('"' :: (escape v ++ ['"'])) = false := by
    simp [List.isPrefixOf]
  simp only [isMultiString, h1, h2, Bool.or_self]

theorem isMulti_triple {q : Char} (hq : q = '"' ∨ q = '\'') (body : List Char) :
    isMultiString ([q, q, q] ++ body ++ [q, q, q]) = true := by
  rcases hq with rfl | rfl <;> simp [isMultiString, List.isPrefixOf]

theorem nested_simple (v : List Char) : nestedText ('"' :: (escape v ++ ['"'])) = v := by
  simp only [nestedText, isMulti_simple, Bool.false_eq_true, if_false, innerText, List.drop_succ_cons,
    List.drop_zero, List.dropLast_concat, unescape_escape]

theorem nested_triple {q : Char} (hq : q = '"' ∨ q = '\'') (body : List Char) :
    nestedText ([q, q, q] ++ body ++ [q, q, q]) = body := by
  simp only [nestedText, isMulti_triple hq, if_true]
  simp

/-! ## C48 -/

private theorem start_state (text : List Char) :
    (MS.advance ⟨none, none, markupTokens text, []⟩ = .error ∧
      ∃ a b c d, markupTokens text = [.error a b c d]) ∨
    ∃ s, MS.advance ⟨none, none, markupTokens text, []⟩ = .ok s ∧ WfS s ∧ outs s = markupTokens text ∧
      s.refs = [] := by
  have he : Ends (markupTokens text) :=
    markupStream_ends _ _ (inv_init text) (by simp [LexState.init])
  unfold MS.advance
  generalize markupTokens text = l at he
  cases he with
  | eof => right; exact ⟨_, rfl, (by intro h; cases h), rfl, rfl⟩
  | error => left; exact ⟨rfl, _, _, _, _, rfl⟩
  | tok he => right; exact ⟨_, rfl, fun _ => he, rfl, rfl⟩

private theorem stream_length : ∀ (n : Nat) (l : MLex), (markupStream n l).length ≤ n := by
  intro n
  induction n with
  | zero => intro l; exact Nat.le_refl _
  | succ n ih =>
    intro l
    unfold markupStream
    split
    · simpa using ih _
    · simp
    · simp

private theorem tokens_length (text : List Char) : (markupTokens text).length ≤ text.length + 2 :=
  Nat.le_succ_of_le (stream_length _ _)

/-- **C48**: a text is accepted as a markup string iff outside of double brackets it has no double
brackets, and each pair of double brackets has a list of names between commas, of which each means
a package that may be used; the references are these names, in this order. -/
theorem C48_markup_strings (E : MEnv) (text : List Char) (refs : List MRef) :
    parseMarkupText E text = .ok refs ↔ ∃ ns, MarkupText text ns ∧ List.Forall₂ (Refers E) ns refs := by
  constructor
  · intro h
    unfold parseMarkupText at h
    rcases start_state text with ⟨hs, -⟩ | ⟨s, hs, hw, ho, hr⟩
    · rw [hs] at h; cases h
    · rw [hs] at h
      simp only [MR.bind] at h
      rcases all_cases E (text.length + 2) s hw (by rw [ho]; exact tokens_length text) with
        h' | ⟨h', -⟩ | ⟨s', ts, rs, ns, h', h1, h2, h3, h4⟩
      · rw [h'] at h; cases h
      · rw [h'] at h; cases h
      · rw [h'] at h
        cases h
        rw [hr] at h2
        rw [ho] at h1
        refine ⟨ns, all_text h3 ?_, ?_⟩
        · exact stream_lexes ts _ _ (inv_init text) h1
        · rw [h2]; exact h4
  · rintro ⟨ns, ht, hf⟩
    obtain ⟨ts, hl, hg⟩ := text_lexes ht
    obtain ⟨toks, h1, h2⟩ := lexes_stream hl (text.length + 1) ⟨false, LexState.init text⟩ (inv_init text)
      (by simp [LexState.init]) rfl rfl
    unfold parseMarkupText
    have h1 : markupTokens text = toks.map .tok ++ [.eof] := h1
    rcases start_state text with ⟨hs, a, b, c, d, he⟩ | ⟨s, hs, hw, ho, hr⟩
    · exfalso
      rw [he] at h1
      cases toks <;> simp at h1
    · rw [hs]
      simp only [MR.bind]
      obtain ⟨s', h3, h4⟩ := all_ok E hg (text.length + 2) s refs hf ⟨toks, by rw [ho, h1], h2, hw⟩
        (by rw [ho]; exact tokens_length text)
      rw [h3]
      simp only [h4, hr]
      rfl

/-- **C48**: any other text is rejected with an error message, provided that the imports of the
file could be resolved. -/
theorem C48_rejected (E : MEnv) (hE : E.resolved = true) (text : List Char)
    (h : ¬ ∃ ns refs, MarkupText text ns ∧ List.Forall₂ (Refers E) ns refs) :
    parseMarkupText E text = .error := by
  cases hp : parseMarkupText E text with
  | ok refs =>
    obtain ⟨ns, h1, h2⟩ := (C48_markup_strings E text refs).1 hp
    exact (h ⟨ns, refs, h1, h2⟩).elim
  | error => rfl
  | crash =>
    exfalso
    unfold parseMarkupText at hp
    rcases start_state text with ⟨hs, -⟩ | ⟨s, hs, hw, ho, hr⟩
    · rw [hs] at hp; cases hp
    · rw [hs] at hp
      simp only [MR.bind] at hp
      rcases all_cases E (text.length + 2) s hw (by rw [ho]; exact tokens_length text) with
        h' | ⟨h', hh⟩ | ⟨s', ts, rs, ns, h', h1, h2, h3, h4⟩
      · rw [h'] at hp; cases hp
      · rw [hE] at hh; cases hh
      · rw [h'] at hp; cases hp

/-- **C48**: the text that is looked at is the value of an ordinary string, and all of the text
between the quotes of a triple-quoted one. -/
theorem C48_text (E : MEnv) (content : List Char) (t : Token) (h : t ∈ (lexAll content).1)
    (hk : t.kind = .STRING) :
    (∃ v, t.value = .str v ∧ markupParser E content t = parseMarkupText E v) ∨
    (∃ q body, (q = '"' ∨ q = '\'') ∧
      slice content t.startPos t.endPos = [q, q, q] ++ body ++ [q, q, q] ∧
      markupParser E content t = parseMarkupText E body) := by
  rcases C68_string_tokens content t h hk with ⟨v, h1, h2, h3, -⟩ | ⟨q, body, v, hq, h1, h2, h3, h4⟩
  · exact .inl ⟨v, h3, by rw [markupParser, h1, nested_simple]⟩
  · exact .inr ⟨q, body, hq, h1, by rw [markupParser, h1, nested_triple hq]⟩


/-! Example: a text with two lists of names. -/
namespace MarkupSample

def pack : Ent := { name := "P".toList, id := 3, cls := clsPackage }
def env : MEnv := ⟨⟨[("p".toList, pack)], [], []⟩, 0, [3], true⟩

example : parseMarkupText env "see [[ a, P . b_1 ]] or ] [[c]]".toList =
    .ok [⟨0, "a".toList⟩, ⟨3, "b_1".toList⟩, ⟨0, "c".toList⟩] := by decide +kernel

example : parseMarkupText env "see [[ a, [[b]] ]]".toList = .error ∧
    parseMarkupText env "a ]] b".toList = .error ∧ parseMarkupText env "[[ ]]".toList = .error ∧
    parseMarkupText env "[[ a".toList = .error ∧ parseMarkupText env "[[ Q.a ]]".toList = .error := by
  decide +kernel

end MarkupSample

/-! ## C47 -/

private theorem mscan_err_len {refl : Bool} {t : List Char} {n len : Nat} (h : mscan refl t = .err n len) :
    0 < len ∧ n + len ≤ t.length := by
  unfold mscan at h
  dsimp only at h
  generalize (if refl = true then (t.takeWhile isSpace).length else 0) = m at h
  split at h
  · cases h
  · next c r hd =>
    have hl : t.length - m = r.length + 1 := by
      have := congrArg List.length hd
      simpa using this
    have two : ∀ d, r.head? = some d → 1 ≤ r.length := by
      intro d hd
      cases r with
      | nil => cases hd
      | cons _ _ => simp
    split at h
    · next hh =>
      split at h <;> cases h
      have := two _ hh.2
      omega
    · split at h
      · next hh =>
        split at h <;> cases h
        have := two _ hh.2
        omega
      · repeat' split at h
        all_goals first
          | (cases h; done)
          | (cases h; omega)

private theorem stream_mem (o : MOut) : ∀ (fuel : Nat) (l : MLex), Inv l.s → o ∈ markupStream fuel l →
    o = .eof ∨
    (∃ i len k, 0 < len ∧ i + len ≤ l.s.content.length ∧ o = .tok ⟨k, (l.s.content.drop i).take len, i,
      i + len - 1, lineOf l.s.content i, colOf l.s.content i⟩) ∨
    (∃ i len, 0 < len ∧ i + len ≤ l.s.content.length ∧
      o = .error i (i + len - 1) (lineOf l.s.content i) (colOf l.s.content i)) := by
  intro fuel
  induction fuel with
  | zero => intro l _ h; cases h
  | succ fuel ih =>
    intro l hi h
    unfold markupStream at h
    rw [mtoken_eq hi] at h
    have htd := hi.todo
    have hlen := inv_todo_length hi
    cases hm : mscan l.refl l.s.todo with
    | eof => rw [hm] at h; simp at h; exact .inl h
    | err n len =>
      rw [hm] at h
      simp only [List.mem_singleton] at h
      have hl := mscan_err_len hm
      exact .inr (.inr ⟨l.s.pos + n, len, hl.1, by omega, h⟩)
    | tok n k len refl =>
      rw [hm] at h
      have hl := mscan_len hm
      simp only [List.mem_cons] at h
      rcases h with h | h
      · refine .inr (.inl ⟨l.s.pos + n, len, k, hl.1, by omega, ?_⟩)
        rw [h, htd, List.drop_drop]
      · have := ih _ (inv_advN hi _) h
        simpa using this

/-- **C47**: the assertions on entry of `source_location` hold for every token and every error of
every text. -/
theorem C47_in_text (text : List Char) (o : MOut) (h : o ∈ markupTokens text) :
    match o with
    | .tok m => m.startPos ≤ m.endPos ∧ m.endPos < text.length ∧ 1 ≤ m.line ∧ 1 ≤ m.col ∧
        ('\n' ∉ text → m.line = 1)
    | .error a b line col => a ≤ b ∧ b < text.length ∧ 1 ≤ line ∧ 1 ≤ col ∧ ('\n' ∉ text → line = 1)
    | .eof => True := by
  have hline : ∀ i, '\n' ∉ text → lineOf text i = 1 := by
    intro i hn
    have : (text.take i).count '\n' = 0 := List.count_eq_zero.2 fun hm => hn (List.mem_of_mem_take hm)
    simp [lineOf, this]
  have h1 : ∀ i, 1 ≤ lineOf text i := fun i => by unfold lineOf; omega
  have h2 : ∀ i, 1 ≤ colOf text i := fun i => by unfold colOf; omega
  rcases stream_mem o _ _ (inv_init text) h with rfl | ⟨i, len, k, hl, hle, rfl⟩ | ⟨i, len, hl, hle, rfl⟩
  · trivial
  · have hle : i + len ≤ text.length := hle
    exact ⟨by show i ≤ i + len - 1; omega, by show i + len - 1 < _; omega, h1 i, h2 i, hline i⟩
  · have hle : i + len ≤ text.length := hle
    exact ⟨by omega, by omega, h1 i, h2 i, hline i⟩

/-- The location says where in the file the text `x` is, which follows `before` there. -/
structure Placed (content before x : List Char) (loc : SrcRef) : Prop where
  text  : ∃ after, content = before ++ (x ++ after)
  start : loc.startPos = before.length
  stop  : loc.endPos + 1 = before.length + x.length
  line  : loc.line = lineOf content before.length

private theorem take_prefix' {before r : List Char} : (before ++ r).take before.length = before := by simp

private theorem line_append (a x r : List Char) :
    lineOf (a ++ (x ++ r)) (a ++ x).length = lineOf (a ++ (x ++ r)) a.length + x.count '\n' := by
  unfold lineOf
  have : a ++ (x ++ r) = (a ++ x) ++ r := by simp
  rw [take_prefix', this, take_prefix', List.count_append]
  omega

private theorem col_append (a x r : List Char) (hx : '\n' ∉ x) :
    colOf (a ++ (x ++ r)) (a ++ x).length = colOf (a ++ (x ++ r)) a.length + x.length := by
  unfold colOf
  have : a ++ (x ++ r) = (a ++ x) ++ r := by simp
  rw [take_prefix', this, take_prefix', List.reverse_append, List.takeWhile_append_of_pos]
  · simp; omega
  · intro c hc
    have : c ∈ x := List.mem_reverse.1 hc
    simp only [decide_not, Bool.not_eq_true', decide_eq_false_iff_not]
    rintro rfl
    exact hx this

private theorem takeWhile_stop (p : Char → Bool) : ∀ (x a : List Char) (c : Char), c ∈ x → p c = false →
    (x ++ a).takeWhile p = x.takeWhile p := by
  intro x
  induction x with
  | nil => intro a c h; cases h
  | cons d x ih =>
    intro a c h hp
    rw [List.cons_append, List.takeWhile_cons, List.takeWhile_cons]
    split
    · next hd =>
      cases h with
      | head => rw [hp] at hd; cases hd
      | tail _ h => rw [ih a c h hp]
    · rfl

private theorem col_after_newline (a x r r' : List Char) (hx : '\n' ∈ x) :
    colOf (a ++ (x ++ r)) (a ++ x).length = colOf (x ++ r') x.length := by
  unfold colOf
  have : a ++ (x ++ r) = (a ++ x) ++ r := by simp
  rw [this, take_prefix', take_prefix', List.reverse_append,
    takeWhile_stop _ _ _ '\n' (List.mem_reverse.2 hx) (by simp)]

private theorem escape_append (a b : List Char) : escape (a ++ b) = escape a ++ escape b := by
  simp [escape]

private theorem escape_length (v : List Char) : (escape v).length = v.length + v.count '"' := by
  induction v with
  | nil => rfl
  | cons c v ih =>
    have : escape (c :: v) = (if c = '"' then ['\\', '"'] else [c]) ++ escape v := by simp [escape]
    rw [this, List.length_append, ih, List.count_cons]
    by_cases hc : c = '"'
    · simp [hc]; omega
    · simp [hc]; omega

private theorem escape_newline {v : List Char} (h : ∀ c ∈ v, c ≠ '\n') : '\n' ∉ escape v := by
  intro hm
  unfold escape at hm
  obtain ⟨c, hc, hm⟩ := List.mem_flatMap.1 hm
  split at hm
  · simp at hm
  · have : '\n' = c := by simpa using hm
    exact h c hc this.symm

private theorem split_at (text : List Char) (i len : Nat) (h : i + len ≤ text.length) :
    ∃ pre x post, text = pre ++ (x ++ post) ∧ pre = text.take i ∧ pre.length = i ∧ x = (text.drop i).take len ∧
      x.length = len := by
  refine ⟨_, _, (text.drop i).drop len, ?_, rfl, ?_, rfl, ?_⟩
  · rw [List.take_append_drop, List.take_append_drop]
  · simp; omega
  · simp; omega

private theorem split_content {content raw : List Char} {s e : Nat} (h : slice content s e = raw)
    (hr : raw ≠ []) : ∃ before after, content = before ++ (raw ++ after) ∧ before.length = s := by
  refine ⟨content.take s, (content.drop s).drop (e + 1 - s), ?_, ?_⟩
  · rw [← h, slice, List.take_append_drop, List.take_append_drop]
  · rw [List.length_take]
    rcases Nat.lt_or_ge content.length s with hlt | hge
    · exfalso
      apply hr
      rw [← h, slice, List.drop_eq_nil_of_le (by omega)]
      simp
    · omega

/-- **C47**, ordinary strings: a token in a markup string is located where it is in the file, with
each quote in the string written with its escape. -/
theorem C47_simple (content : List Char) (t : Token) (ht : t ∈ (lexAll content).1) (hk : t.kind = .STRING)
    (raw : List Char) (hraw : raw = slice content t.startPos t.endPos) (hm : isMultiString raw = false)
    (m : MTok) (h : .tok m ∈ markupTokens (nestedText raw)) (loc : SrcRef)
    (hloc : loc = nestedLocation ⟨t.line, t.col, t.startPos, t.endPos⟩ raw m.line m.col m.startPos m.endPos) :
    ∃ before pre post, t.value = .str (pre ++ (m.text ++ post)) ∧ pre.length = m.startPos ∧
      before.length = t.startPos ∧
      Placed content (before ++ '"' :: escape pre) (escape m.text) loc ∧
      loc.col = colOf content loc.startPos := by
  rcases C68_string_tokens content t ht hk with ⟨v, h1, h2, h3, -⟩ | ⟨q, body, v, hq, h1, -, -, -⟩
  · obtain ⟨-, -, hl0, hc0⟩ : True ∧ True ∧ t.line = lineOf content t.startPos ∧ t.col = colOf content t.startPos :=
      ⟨trivial, trivial, (C02_line_col_exact content t ht).1, (C02_line_col_exact content t ht).2⟩
    rw [h1] at hraw
    obtain ⟨before, after, hcon, hb⟩ := split_content h1 (by simp)
    rw [hraw, nested_simple] at h
    rcases stream_mem _ _ _ (inv_init v) h with h | ⟨i, len, k, hl, hle, h⟩ | ⟨i, len, -, -, h⟩
    · cases h
    · cases h
      have hle : i + len ≤ v.length := hle
      obtain ⟨pre, x, post, e1, e2, e3, e4, e5⟩ := split_at v i len hle
      have hpre : ∀ c ∈ pre, c ≠ '\n' := fun c hc => h2 c (by rw [e1]; exact List.mem_append_left _ hc)
      have hnl := escape_newline hpre
      have hsl : slice v i (i + len - 1) = x := by rw [slice, e4]; congr 1; omega
      rw [hraw] at hloc
      have hloc : loc = ⟨t.line, t.col + 1 + i + pre.count '"', t.startPos + 1 + i + pre.count '"',
          t.startPos + 1 + (i + len - 1) + (pre.count '"' + x.count '"')⟩ := by
        rw [hloc]
        simp only [nestedLocation, isMulti_simple, Bool.false_eq_true, if_false, baseOffset, nested_simple, ← e2, hsl]
      have hcon' : content = before ++ (('"' :: escape pre) ++ (escape x ++ (escape post ++ '"' :: after))) := by
        rw [hcon, e1, escape_append, escape_append]; simp
      have hnl' : '\n' ∉ ('"' :: escape pre) := by
        intro hm
        cases hm with
        | tail _ hm => exact hnl hm
      have hx : (LexState.init v).content = v := rfl
      refine ⟨before, pre, post, ?_, e3, hb, ⟨⟨escape post ++ '"' :: after, ?_⟩, ?_, ?_, ?_⟩, ?_⟩
      · rw [h3]; simp only [hx, ← e4, ← e1]
      · simp only [hx, ← e4]
        rw [hcon']; simp
      · rw [hloc]
        simp only [List.length_append, List.length_cons, escape_length, hb, e3]
        omega
      · rw [hloc]
        simp only [hx, ← e4, List.length_append, List.length_cons, escape_length, hb, e3, e5]
        omega
      · rw [hloc, hcon', line_append, List.count_eq_zero.2 hnl', ← hcon', hb]
        exact hl0
      · have hs : loc.startPos = (before ++ '"' :: escape pre).length := by
          rw [hloc]
          simp only [List.length_append, List.length_cons, escape_length, hb, e3]
          omega
        rw [hs]
        conv => rhs; rw [hcon']
        rw [col_append _ _ _ hnl', ← hcon', hb, ← hc0, hloc]
        simp only [List.length_cons, escape_length, e3]
        omega
    · cases h
  · rw [h1] at hraw
    rw [hraw, isMulti_triple hq] at hm
    cases hm

/-- **C47, what holds** for triple-quoted strings: offsets and line are right; the column is right
unless the token is on the first line of the string, but not at its start. -/
theorem C47_triple_partial (content : List Char) (t : Token) (ht : t ∈ (lexAll content).1) (hk : t.kind = .STRING)
    (raw : List Char) (hraw : raw = slice content t.startPos t.endPos) (hm : isMultiString raw = true)
    (m : MTok) (h : .tok m ∈ markupTokens (nestedText raw)) (loc : SrcRef)
    (hloc : loc = nestedLocation ⟨t.line, t.col, t.startPos, t.endPos⟩ raw m.line m.col m.startPos m.endPos) :
    ∃ q before pre post, raw = [q, q, q] ++ (pre ++ (m.text ++ post)) ++ [q, q, q] ∧ (q = '"' ∨ q = '\'') ∧
      pre.length = m.startPos ∧ before.length = t.startPos ∧
      Placed content (before ++ ([q, q, q] ++ pre)) m.text loc ∧
      ('\n' ∈ pre ∨ pre = [] → loc.col = colOf content loc.startPos) := by
  rcases C68_string_tokens content t ht hk with ⟨v, h1, -, -⟩ | ⟨q, body, v, hq, h1, -, -, -⟩
  · rw [h1] at hraw
    rw [hraw, isMulti_simple] at hm
    cases hm
  · obtain ⟨hl0, hc0⟩ : t.line = lineOf content t.startPos ∧ t.col = colOf content t.startPos :=
      ⟨(C02_line_col_exact content t ht).1, (C02_line_col_exact content t ht).2⟩
    rw [h1] at hraw
    obtain ⟨before, after, hcon, hb⟩ := split_content h1 (by simp)
    rw [hraw, nested_triple hq] at h
    rcases stream_mem _ _ _ (inv_init body) h with h | ⟨i, len, k, hl, hle, h⟩ | ⟨i, len, -, -, h⟩
    · cases h
    · cases h
      have hle : i + len ≤ body.length := hle
      obtain ⟨pre, x, post, e1, e2, e3, e4, e5⟩ := split_at body i len hle
      have hqn : '\n' ∉ [q, q, q] := by rcases hq with rfl | rfl <;> decide
      have hx : (LexState.init body).content = body := rfl
      rw [hraw] at hloc
      have hline : lineOf body i = 1 + pre.count '\n' := by rw [lineOf, e2]
      have hloc : loc = ⟨t.line + (lineOf body i - 1), if lineOf body i = 1 then t.col + 3 else colOf body i,
          t.startPos + 3 + i, t.startPos + 3 + (i + len - 1)⟩ := by
        rw [hloc]
        simp only [nestedLocation, isMulti_triple hq, if_true, baseOffset, hx]
      have hcon' : content = before ++ (([q, q, q] ++ pre) ++ (x ++ (post ++ ([q, q, q] ++ after)))) := by
        rw [hcon, e1]; simp
      have hs : loc.startPos = (before ++ ([q, q, q] ++ pre)).length := by
        rw [hloc]
        simp only [List.length_append, List.length_cons, List.length_nil, hb, e3]
        omega
      refine ⟨q, before, pre, post, ?_, hq, e3, hb, ⟨⟨post ++ ([q, q, q] ++ after), ?_⟩, hs, ?_, ?_⟩, ?_⟩
      · rw [hraw]; simp only [hx, ← e4]; rw [← e1]
      · simp only [hx, ← e4]
        rw [hcon']; simp
      · rw [hloc]
        simp only [hx, ← e4, List.length_append, List.length_cons, List.length_nil, hb, e3, e5]
        omega
      · rw [hloc, hcon', line_append, ← hcon', hb, List.count_append, List.count_eq_zero.2 hqn, hline]
        show t.line + (1 + pre.count '\n' - 1) = _
        rw [hl0]
        omega
      · rw [hs]
        rintro (hn | hn)
        · have hne : ¬ lineOf body i = 1 := by
            rw [hline]
            have := List.count_pos_iff.2 hn
            omega
          rw [hloc]
          simp only [hne, if_false]
          have a1 : content = (before ++ [q, q, q]) ++ (pre ++ (x ++ (post ++ ([q, q, q] ++ after)))) := by
            rw [hcon']; simp
          have a2 : before ++ ([q, q, q] ++ pre) = (before ++ [q, q, q]) ++ pre := by simp
          rw [a2, a1, col_after_newline _ _ _ (x ++ post) hn, ← e1, e3]
        · subst hn
          have : lineOf body i = 1 := by rw [hline]; rfl
          rw [hloc]
          simp only [this, if_true]
          have a1 : content = before ++ ([q, q, q] ++ (x ++ (post ++ ([q, q, q] ++ after)))) := by
            rw [hcon']; simp
          conv => rhs; rw [a1]
          rw [List.append_nil, col_append _ _ _ hqn, ← a1, hb, ← hc0]
          rfl
    · cases h

/-- **C47 is violated**: in a triple-quoted string, a token on the first line is located at the
column of the first character after the quotes, here at column 4 although it is at column 8. -/
theorem C47_first_line_column :
    ∃ (content : List Char) (t : Token) (m : MTok), t ∈ (lexAll content).1 ∧ t.kind = .STRING ∧
      .tok m ∈ markupTokens (nestedText (slice content t.startPos t.endPos)) ∧ m.kind = .IDENTIFIER ∧
      (nestedLocation ⟨t.line, t.col, t.startPos, t.endPos⟩ (slice content t.startPos t.endPos)
        m.line m.col m.startPos m.endPos) = ⟨1, 4, 7, 7⟩ ∧ colOf content 7 = 8 :=
  ⟨"\"\"\"a [[x]]\"\"\" ".toList, ⟨.STRING, .str "a [[x]]".toList, 0, 12, 1, 1⟩,
    ⟨.IDENTIFIER, ['x'], 4, 4, 1, 5⟩, by decide +kernel, rfl, by decide +kernel, rfl, by decide +kernel,
    by decide +kernel⟩

/-! Examples: the hypotheses of the theorems above hold for these files. -/
namespace MarkupSample

def simple : List Char := "x = \"a\\\"b [[y]]\" ".toList
def triple : List Char := "x = '''a\n [[y]]''' ".toList

example : ∃ t ∈ (lexAll simple).1, t.kind = .STRING ∧
    isMultiString (slice simple t.startPos t.endPos) = false ∧
    ∃ m, .tok m ∈ markupTokens (nestedText (slice simple t.startPos t.endPos)) ∧ m.kind = .IDENTIFIER ∧
      (nestedLocation ⟨t.line, t.col, t.startPos, t.endPos⟩ (slice simple t.startPos t.endPos)
        m.line m.col m.startPos m.endPos) = ⟨1, 13, 12, 12⟩ :=
  ⟨⟨.STRING, .str "a\"b [[y]]".toList, 4, 15, 1, 5⟩, by decide +kernel, rfl, by decide +kernel,
    ⟨.IDENTIFIER, ['y'], 6, 6, 1, 7⟩, by decide +kernel, rfl, by decide +kernel⟩

example : ∃ t ∈ (lexAll triple).1, t.kind = .STRING ∧
    isMultiString (slice triple t.startPos t.endPos) = true ∧
    ∃ m, .tok m ∈ markupTokens (nestedText (slice triple t.startPos t.endPos)) ∧ m.kind = .IDENTIFIER ∧
      (nestedLocation ⟨t.line, t.col, t.startPos, t.endPos⟩ (slice triple t.startPos t.endPos)
        m.line m.col m.startPos m.endPos) = ⟨2, 4, 12, 12⟩ :=
  ⟨⟨.STRING, .str "a\n[[y]]".toList, 4, 17, 1, 5⟩, by decide +kernel, rfl, by decide +kernel,
    ⟨.IDENTIFIER, ['y'], 5, 5, 2, 4⟩, by decide +kernel, rfl, by decide +kernel⟩

end MarkupSample

end Verif.Props
