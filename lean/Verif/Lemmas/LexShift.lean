import Verif.Props.LexerSpans
import Verif.Spec.Layout
import Verif.Spec.Gap
/-!
# The lexer depends on what is left of the text only
-/
namespace Verif.Lemmas.LexShift
open Verif.Model Verif.Spec Verif.Lemmas

/-- the same text is left, with as many characters behind -/
structure Al (s s' : LexState) : Prop where
  cc   : s'.cc = s.cc
  todo : s'.todo = s.todo
  len  : s.content.length + s'.pos = s'.content.length + s.pos

theorem Al.adv {s s' : LexState} (h : Al s s') : Al s.advance s'.advance := by
  refine ⟨?_, ?_, ?_⟩
  · simp [h.todo]
  · simp [h.todo]
  · have := h.len; simp; omega

theorem Al.nc {s s' : LexState} (h : Al s s') : s'.nc = s.nc := by unfold LexState.nc; rw [h.todo]
theorem Al.nnc {s s' : LexState} (h : Al s s') : s'.nnc = s.nnc := by unfold LexState.nnc; rw [h.todo]

/-- the same result, elsewhere -/
inductive OutAl : LexOut → LexOut → Prop
  | error {k a b a' b'} : OutAl (.error k a b) (.error k a' b')
  | crash : OutAl .crash .crash

inductive ScanAl : Scan → Scan → Prop
  | ok {s s' k b} : Al s s' → ScanAl (.ok s k b) (.ok s' k b)
  | fail {s s' o o'} : Al s s' → OutAl o o' → ScanAl (.fail s o) (.fail s' o')

theorem err_al {s s' : LexState} (h : Al s s') {k : LexErrKind} {a b a' b' : Nat}
    (ha : a + s'.pos = a' + s.pos) (hb : b + s'.pos = b' + s.pos) : ScanAl (lexError s k a b) (lexError s' k a' b') := by
  have := h.len
  have hc : (a ≤ b ∧ b < s.content.length) ↔ (a' ≤ b' ∧ b' < s'.content.length) := by omega
  unfold lexError
  by_cases hx : a ≤ b ∧ b < s.content.length
  · rw [if_pos hx, if_pos (hc.1 hx)]; exact .fail h .error
  · rw [if_neg hx, if_neg (mt hc.2 hx)]; exact .fail h .crash

theorem lexpos_al {s s' : LexState} (h : 0 < s.pos) (h' : 0 < s'.pos) : s.lexpos + s'.pos = s'.lexpos + s.pos := by
  unfold LexState.lexpos; omega

theorem advWhile_al {cond : LexState → Bool} (hc : ∀ {s s'}, Al s s' → cond s' = cond s) : ∀ (l : List Char) {s s' : LexState},
    Al s s' → Al (advWhile cond l s) (advWhile cond l s')
  | [], _, _, h => h
  | _ :: r, s, s', h => by
    unfold advWhile
    rw [hc h]
    split
    · exact advWhile_al hc r h.adv
    · exact h

theorem lineComment_al : ∀ (l : List Char) {s s' : LexState}, Al s s' → Al (lineComment l s) (lineComment l s')
  | [], s, s', h => by
    unfold lineComment
    rw [h.cc]
    split
    · exact h.adv
    · exact h
  | _ :: r, s, s', h => by
    unfold lineComment
    rw [h.cc, h.nc]
    split
    · exact lineComment_al r h.adv
    · exact h

theorem tripleLoop_al (q : Char) {st st' : Nat} : ∀ (l : List Char) {s s' : LexState} (seen : Nat), Al s s' →
    st + s'.pos = st' + s.pos → ScanAl (tripleLoop q st l s seen) (tripleLoop q st' l s' seen)
  | [], s, s', _, h, hs => by
    unfold tripleLoop
    exact err_al h.adv (by simp; omega) (lexpos_al (by simp) (by simp))
  | _ :: r, s, s', seen, h, hs => by
    unfold tripleLoop
    dsimp only
    rw [h.adv.cc, h.adv.nc]
    generalize (if s.advance.cc = some q then seen + 1 else 0) = seen'
    split
    · exact err_al h.adv (by simp; omega) (lexpos_al (by simp) (by simp))
    · split
      · exact tripleLoop_al q r _ h.adv (by simp; omega)
      · exact .ok h.adv

theorem simpleString_al {st st' : Nat} : ∀ (l : List Char) {s s' : LexState}, Al s s' → 0 < s.pos → 0 < s'.pos →
    st + s'.pos = st' + s.pos → ScanAl (simpleString st l s) (simpleString st' l s')
  | [], s, s', h, h0, h0', hs => by
    unfold simpleString
    exact err_al h hs (lexpos_al h0 h0')
  | [c], s, s', h, h0, h0', hs => by
    unfold simpleString
    split
    · exact .ok h.adv
    · split
      · exact err_al h hs (lexpos_al h0 h0')
      · exact simpleString_al [] h.adv (by simp) (by simp) (by simp; omega)
  | c :: d :: r, s, s', h, h0, h0', hs => by
    unfold simpleString
    split
    · exact .ok h.adv
    · split
      · exact err_al h hs (lexpos_al h0 h0')
      · dsimp only
        split
        · exact simpleString_al r h.adv.adv (by simp) (by simp) (by simp; omega)
        · exact simpleString_al (d :: r) h.adv (by simp) (by simp) (by simp; omega)

theorem numLoop_al {st st' : Nat} : ∀ (l : List Char) {s s' : LexState} (v : NumSt), Al s s' → 0 < s.pos → 0 < s'.pos →
    st + s'.pos = st' + s.pos → ScanAl (numLoop st l s v) (numLoop st' l s' v)
  | [], s, s', v, h, h0, h0', hs => by
    unfold numLoop
    split
    · exact err_al h hs (lexpos_al h0 h0')
    · exact .ok h
  | c :: r, s, s', v, h, h0, h0', hs => by
    have hl := lexpos_al h0 h0'
    have step : ∀ v, ScanAl (numLoop st r s.advance v) (numLoop st' r s'.advance v) := fun v =>
      numLoop_al r v h.adv (by simp) (by simp) (by simp; omega)
    unfold numLoop
    rw [h.nnc]
    repeat' split
    all_goals first
      | exact step _
      | exact .ok h
      | exact err_al h (by omega) (by omega)
      | exact err_al h.adv (lexpos_al (by simp) (by simp)) (lexpos_al (by simp) (by simp))

theorem number_al {st st' : Nat} {s s' : LexState} (c : Char) (h : Al s s') (h0 : 0 < s.pos) (h0' : 0 < s'.pos)
    (hs : st + s'.pos = st' + s.pos) : ScanAl (number st s c) (number st' s' c) := by
  unfold number
  rw [h.nc]
  repeat' split
  · dsimp only; rw [h.adv.todo]; exact numLoop_al _ _ h.adv (by simp) (by simp) (by simp; omega)
  · dsimp only; rw [h.adv.todo]; exact numLoop_al _ _ h.adv (by simp) (by simp) (by simp; omega)
  · rw [h.todo]; exact numLoop_al _ _ h h0 h0' hs

theorem singleQuote_al {st st' : Nat} {s s' : LexState} (h : Al s s') (hs : st + s'.pos = st' + s.pos) :
    ScanAl (singleQuote st s) (singleQuote st' s') := by
  unfold singleQuote
  dsimp only
  rw [h.adv.cc, h.adv.adv.cc, h.adv.adv.todo]
  repeat' split
  · exact err_al h.adv (by simp; omega) (lexpos_al (by simp) (by simp))
  · exact err_al h.adv.adv (by simp; omega) (lexpos_al (by simp) (by simp))
  · exact tripleLoop_al _ _ _ h.adv.adv (by simp; omega)

theorem ite_al {c : Prop} [Decidable c] {a b a' b' : Scan} (h : c → ScanAl a a') (h' : ¬ c → ScanAl b b') :
    ScanAl (if c then a else b) (if c then a' else b') := by
  by_cases hc : c
  · rw [if_pos hc, if_pos hc]; exact h hc
  · rw [if_neg hc, if_neg hc]; exact h' hc

theorem scan_al {s s' : LexState} (c : Char) (h : Al s s') (h0 : 0 < s.pos) (h0' : 0 < s'.pos) : ScanAl (scan s c) (scan s' c) := by
  have hl := lexpos_al h0 h0'
  unfold scan
  dsimp only
  rw [h.nc, h.nnc, h.todo]
  refine ite_al (fun _ => .ok (lineComment_al _ h)) fun _ => ?_
  refine ite_al (fun _ => ?_) fun _ => ?_
  · refine .ok ?_
    unfold blockComment
    rw [h.todo]
    exact (advWhile_al (fun h => by rw [h.cc, h.nc]) _ h).adv
  refine ite_al (fun _ => .ok (advWhile_al (fun h => by unfold ncIs; rw [h.nc]) _ h)) fun _ => ?_
  cases punctuation c with
  | some k => exact .ok h
  | none =>
    dsimp only
    refine ite_al (fun _ => ite_al (fun _ => .ok h.adv) fun _ => ite_al (fun _ => .ok h.adv) fun _ => .ok h) fun _ => ?_
    refine ite_al (fun _ => ite_al (fun _ => .ok h.adv) fun _ => .ok h) fun _ => ?_
    refine ite_al (fun _ => ite_al (fun _ => .ok h.adv) fun _ => .ok h) fun _ => ?_
    refine ite_al (fun _ => ite_al (fun _ => .ok h.adv) fun _ => err_al h hl hl) fun _ => ?_
    refine ite_al (fun _ => ite_al (fun _ => .ok h.adv) fun _ => .ok h) fun _ => ?_
    refine ite_al (fun _ => ite_al (fun _ => ?_) fun _ => simpleString_al _ h h0 h0' hl) fun _ => ?_
    · rw [h.adv.adv.todo]; exact tripleLoop_al _ _ _ h.adv.adv (by simp; omega)
    refine ite_al (fun _ => singleQuote_al h hl) fun _ => ?_
    exact ite_al (fun _ => number_al c h h0 h0' hl) fun _ => err_al h hl hl

/-! ## Words -/

/-- what is left of the text -/
theorem al_of {s s' : LexState} (hi : Inv s) (hi' : Inv s') (h : s'.todo = s.todo) (hc : s'.cc = s.cc) (hn : s.cc ≠ none) :
    Al s s' := by
  refine ⟨hc, h, ?_⟩
  have key : ∀ {s : LexState}, Inv s → s.cc ≠ none → s.content.length = s.pos + s.todo.length := by
    intro s hi hn
    have hp : 0 < s.pos := Nat.pos_of_ne_zero fun e => hn (hi.start e).1
    have hc := hi.cc hp
    have hlt : s.pos - 1 < s.content.length := by
      rcases Nat.lt_or_ge (s.pos - 1) s.content.length with h | h
      · exact h
      · rw [List.getElem?_eq_none h] at hc; exact absurd hc hn
    rw [hi.todo, List.length_drop]
    omega
  rw [key hi hn, key hi' (hc ▸ hn), h]
  omega

theorem rest_of {s : LexState} (hi : Inv s) {c : Char} (hc : s.cc = some c) : s.content.drop s.lexpos = c :: s.todo := by
  have hp : 0 < s.pos := Nat.pos_of_ne_zero fun e => by rw [(hi.start e).1] at hc; cases hc
  have h := hi.cc hp
  rw [hc] at h
  obtain ⟨hlt, he⟩ := List.getElem?_eq_some_iff.1 h.symm
  unfold LexState.lexpos
  rw [List.drop_eq_getElem_cons hlt, he, hi.todo]
  congr 2
  omega

/-- the word for a result -/
def wordOf (content : List Char) : LexOut → List LWord
  | .eof => []
  | .tok t => if t.kind = .COMMENT then [] else [.word t.kind t.value (literalText content t)]
  | .error k _ _ => [.error k]
  | .crash => [.broken]

/-- the words from a state on -/
def wordsFrom (n : Nat) (s : LexState) : List LWord := wordsAmong s.content (lexStream n s)

theorem token_content {s s' : LexState} {o : LexOut} (hi : Inv s) (h : token s = (o, s')) : s'.content = s.content := by
  obtain ⟨n, -, -, -, ⟨-, -, rfl⟩ | ⟨-, c, m, -, rfl, -⟩⟩ := token_cases s hi o s' h <;> simp

theorem wordsFrom_succ {n : Nat} {s s' : LexState} {o : LexOut} (hi : Inv s) (h : token s = (o, s')) :
    wordsFrom (n + 1) s = wordOf s.content o ++ if o = .eof then [] else wordsFrom n s' := by
  unfold wordsFrom
  rw [lexStream, h, token_content hi h]
  cases o with
  | eof => rfl
  | tok t =>
    simp only [wordsAmong, wordOf, reduceCtorEq, if_false]
    split <;> rfl
  | error k a b => rfl
  | crash => rfl

theorem wordsFrom_zero_todo {n : Nat} {s : LexState} (hi : Inv s) (h : s.todo = []) : wordsFrom n s = [] := by
  cases n with
  | zero => rfl
  | succ n =>
    rcases ht : token s with ⟨o, s'⟩
    obtain ⟨m, hm, -, -, ⟨rfl, -⟩ | ⟨hlt, -⟩⟩ := token_cases s hi o s' ht
    · rw [wordsFrom_succ hi ht]; rfl
    · rw [h] at hlt; cases hlt

theorem skip_inv {s : LexState} (hi : Inv s) : Inv (skipWhitespace s) := by
  obtain ⟨n, -, h, -⟩ := skipWhitespace_eq s
  rw [h]; exact inv_advN hi _

theorem skip_todo {s s' : LexState} (h : s'.todo = s.todo) :
    (skipWhitespace s').todo = (skipWhitespace s).todo ∧ (skipWhitespace s').cc = (skipWhitespace s).cc := by
  have key : ∀ (l : List Char) {s s' : LexState}, s'.todo = s.todo →
      (advWhile (ncIs isSpace) l s').todo = (advWhile (ncIs isSpace) l s).todo := by
    intro l
    induction l with
    | nil => exact fun h => h
    | cons c r ih =>
      intro s s' h
      unfold advWhile
      have : ncIs isSpace s' = ncIs isSpace s := by unfold ncIs LexState.nc; rw [h]
      rw [this]
      split
      · exact ih (by simp [h])
      · exact h
  have := key s.todo h
  unfold skipWhitespace
  rw [h]
  constructor
  · simp [this]
  · simp [this]

theorem token_al {s s' : LexState} (hi : Inv s) (hi' : Inv s') (h : s'.todo = s.todo) {o o' : LexOut} {s1 s1' : LexState}
    (ht : token s = (o, s1)) (ht' : token s' = (o', s1')) :
    s1'.todo = s1.todo ∧ wordOf s'.content o' = wordOf s.content o ∧ (o' = .eof ↔ o = .eof) := by
  obtain ⟨e1, e2⟩ := skip_todo h
  have hj := skip_inv hi
  have hj' := skip_inv hi'
  have hcn : ∀ s : LexState, (skipWhitespace s).content = s.content := by
    intro s
    obtain ⟨n, -, h, -⟩ := skipWhitespace_eq s
    rw [h]; simp
  have hc1 := hcn s
  have hc2 := hcn s'
  unfold token at ht ht'
  dsimp only at ht ht'
  generalize skipWhitespace s = a at *
  generalize skipWhitespace s' = a' at *
  rw [e2] at ht'
  cases hc : a.cc with
  | none =>
    rw [hc] at ht ht'
    cases ht
    cases ht'
    exact ⟨e1, rfl, Iff.rfl⟩
  | some c =>
    have hal := al_of hj hj' e1 e2 (by rw [hc]; simp)
    have hr := rest_of hj hc
    have hr' := rest_of hj' (e2.trans hc)
    have hL : a.lexpos < a.content.length := by
      rcases Nat.lt_or_ge a.lexpos a.content.length with h | h
      · exact h
      · rw [List.drop_eq_nil_of_le h] at hr; cases hr
    rw [e1, ← hr] at hr'
    have h0 : 0 < a.pos := Nat.pos_of_ne_zero fun e => by rw [(hj.start e).1] at hc; cases hc
    have h0' : 0 < a'.pos := Nat.pos_of_ne_zero fun e => by rw [← e2, (hj'.start e).1] at hc; cases hc
    have hs := scan_al c hal h0 h0'
    have hm : (Lemmas.Scan.state (scan a c)).content = a.content := by
      obtain ⟨m, h, -⟩ := scan_reach a c
      rw [h]; simp
    have hm' : (Lemmas.Scan.state (scan a' c)).content = a'.content := by
      obtain ⟨m, h, -⟩ := scan_reach a' c
      rw [h]; simp
    have hle : a.pos ≤ (Lemmas.Scan.state (scan a c)).pos := by
      obtain ⟨m, h, -⟩ := scan_reach a c
      rw [h]; simp
    rw [hc] at ht ht'
    dsimp only at ht ht'
    generalize scan a c = r at *
    generalize scan a' c = r' at *
    cases hs with
    | @fail b b' o o' h1 h2 =>
      cases ht
      cases ht'
      refine ⟨h1.todo, ?_, ?_⟩
      · cases h2 <;> rfl
      · cases h2 <;> simp
    | @ok b b' k base h1 =>
      dsimp only [Lemmas.Scan.state] at hm hm' hle
      have hlen := h1.len
      have hlen' := hal.len
      rw [hm, hm'] at hlen
      have hsl : slice b'.content a'.lexpos (min b'.lexpos (b'.content.length - 1)) =
          slice b.content a.lexpos (min b.lexpos (b.content.length - 1)) := by
        unfold slice
        rw [hm, hm', hr']
        congr 1
        unfold LexState.lexpos at hL ⊢
        omega
      dsimp only at ht ht'
      rw [hsl] at ht'
      cases ht
      cases ht'
      refine ⟨h1.todo, ?_, by simp⟩
      unfold wordOf
      dsimp only
      split
      · rfl
      · unfold literalText
        dsimp only
        unfold slice at hsl
        rw [hm, hm'] at hsl ⊢
        rw [← hc1, ← hc2, hsl]

/-- the words depend on what is left of the text only -/
theorem wordsFrom_same : ∀ (m n n' : Nat) {s s' : LexState}, Inv s → Inv s' → s'.todo = s.todo → s.todo.length ≤ m →
    s.todo.length < n → s.todo.length < n' → wordsFrom n' s' = wordsFrom n s := by
  intro m
  induction m with
  | zero =>
    intro n n' s s' hi hi' h hm _ _
    have : s.todo = [] := List.length_eq_zero_iff.1 (Nat.le_zero.1 hm)
    rw [wordsFrom_zero_todo hi this, wordsFrom_zero_todo hi' (h.trans this)]
  | succ m ih =>
    intro n n' s s' hi hi' h hm hn hn'
    obtain ⟨n, rfl⟩ : ∃ k, n = k + 1 := ⟨n - 1, by omega⟩
    obtain ⟨n', rfl⟩ : ∃ k, n' = k + 1 := ⟨n' - 1, by omega⟩
    rcases ht : token s with ⟨o, s1⟩
    rcases ht' : token s' with ⟨o', s1'⟩
    obtain ⟨h1, h2, h3⟩ := token_al hi hi' h ht ht'
    rw [wordsFrom_succ hi ht, wordsFrom_succ hi' ht', h2]
    congr 1
    by_cases ho : o = .eof
    · rw [if_pos ho, if_pos (h3.2 ho)]
    · rw [if_neg ho, if_neg (mt h3.1 ho)]
      have hp : s1.todo.length < s.todo.length := by
        rcases Props.C03_token_progress s hi o s1 ht with ⟨e, -⟩ | hp
        · exact absurd e ho
        · exact hp
      exact ih n n' (token_inv hi ht).1 (token_inv hi' ht').1 h1 (by omega) (by omega) (by omega)

/-! ## Gaps -/

theorem skip_white {s : LexState} {c : Char} {r : List Char} (h : s.todo = c :: r) (hc : isSpace c = true) :
    skipWhitespace s = skipWhitespace s.advance := by
  unfold skipWhitespace
  rw [h, advWhile, if_pos (by unfold ncIs LexState.nc; rw [h]; exact hc)]
  simp [h]

theorem skip_stop {s : LexState} {c : Char} {r : List Char} (h : s.todo = c :: r) (hc : isSpace c = false) :
    skipWhitespace s = s.advance := by
  unfold skipWhitespace
  rw [h, advWhile, if_neg (by unfold ncIs LexState.nc; rw [h]; simp [hc])]

theorem wordsFrom_white {n : Nat} {s : LexState} {c : Char} {r : List Char} (h : s.todo = c :: r) (hc : isSpace c = true) :
    wordsFrom n s = wordsFrom n s.advance := by
  cases n with
  | zero => rfl
  | succ n =>
    have : token s = token s.advance := by unfold token; rw [skip_white h hc]
    unfold wordsFrom lexStream
    rw [this]
    rfl

theorem lineComment_stop : ∀ (body : List Char) {s : LexState} {r : List Char}, s.todo = body ++ '\n' :: r → s.cc.isSome = true →
    '\n' ∉ body → (lineComment s.todo s).todo = '\n' :: r
  | [], s, r, h, hc, _ => by
    rw [h, List.nil_append, lineComment, if_neg (by unfold LexState.nc; rw [h]; simp)]
    exact h
  | c :: body, s, r, h, hc, hn => by
    have hne : c ≠ '\n' := fun e => hn (by simp [e])
    rw [h, List.cons_append, lineComment, if_pos ⟨hc, by unfold LexState.nc; rw [h]; simpa using hne⟩]
    have := lineComment_stop body (s := s.advance) (r := r) (by simp [h]) (by simp [h]) (fun e => hn (by simp [e]))
    rwa [show s.advance.todo = body ++ '\n' :: r by simp [h]] at this

theorem advWhile_block : ∀ (u : List Char) {s : LexState} {c : Char} {r : List Char}, s.cc = some c → s.todo = u ++ '*' :: '/' :: r →
    (∀ x y, c :: (u ++ ['*']) ≠ x ++ '*' :: '/' :: y) →
    (advWhile (fun s => !(s.cc == some '*' && s.nc == some '/')) s.todo s).todo = '/' :: r
  | [], s, c, r, hc, h, hn => by
    rw [h, List.nil_append, advWhile, if_pos, advWhile, if_neg]
    · simp [h]
    · simp [h, LexState.nc]
    · simp [h, LexState.nc]
  | d :: u, s, c, r, hc, h, hn => by
    rw [h, List.cons_append, advWhile, if_pos]
    · have := advWhile_block u (s := s.advance) (c := d) (r := r) (by simp [h]) (by simp [h])
        (fun x y e => hn (c :: x) y (by rw [List.cons_append, e]; rfl))
      rwa [show s.advance.todo = u ++ '*' :: '/' :: r by simp [h]] at this
    · rw [hc]
      unfold LexState.nc
      rw [h]
      simp only [List.cons_append, List.head?_cons, Bool.not_eq_eq_eq_not, Bool.not_true, Bool.and_eq_false_imp, beq_iff_eq,
        beq_eq_false_iff_ne, ne_eq]
      rintro e1 e2
      cases e1
      cases e2
      exact hn [] (u ++ ['*']) rfl

theorem token_comment {s s1 : LexState} {b : Nat} {c : Char} {r : List Char} (h : s.todo = c :: r) (hc : isSpace c = false)
    (hs : scan s.advance c = .ok s1 .COMMENT b) : ∃ t, token s = (.tok t, s1) ∧ t.kind = .COMMENT := by
  unfold token
  rw [skip_stop h hc]
  dsimp only
  rw [show s.advance.cc = some c by simp [h]]
  dsimp only
  rw [hs]
  dsimp only
  refine ⟨_, rfl, ?_⟩
  unfold finishToken
  dsimp only
  split <;> rfl

theorem wordsFrom_comment {n : Nat} {s s1 : LexState} {t : Token} (hi : Inv s) (h : token s = (.tok t, s1)) (ht : t.kind = .COMMENT) :
    wordsFrom (n + 1) s = wordsFrom n s1 := by
  rw [wordsFrom_succ hi h, if_neg (by simp)]
  unfold wordOf
  dsimp only
  rw [if_pos ht]
  rfl

theorem wordsFrom_gap {w : List Char} (hw : Gap w) : ∀ {n n' : Nat} {s s' : LexState} {r : List Char}, Inv s → Inv s' →
    s'.todo = w ++ r → s.todo = r → r.length < n → w.length + r.length < n' → wordsFrom n' s' = wordsFrom n s := by
  induction hw with
  | nil =>
    intro n n' s s' r hi hi' h' h hn hn'
    subst h
    exact wordsFrom_same _ n n' hi hi' h' (Nat.le_refl _) hn (by simpa using hn')
  | @white c w hc _ ih =>
    intro n n' s s' r hi hi' h' h hn hn'
    rw [wordsFrom_white h' hc]
    exact ih hi (inv_advance hi') (by simp [h']) h hn (by simp at hn'; omega)
  | @line body w hb _ ih =>
    intro n n' s s' r hi hi' h' h hn hn'
    obtain ⟨n', rfl⟩ : ∃ k, n' = k + 1 := ⟨n' - 1, by omega⟩
    have e : s'.advance.todo = '/' :: body ++ '\n' :: (w ++ r) := by simp [h']
    have hs : scan s'.advance '/' = .ok (lineComment s'.advance.todo s'.advance) .COMMENT 0 := by
      unfold scan
      rw [if_pos ⟨rfl, by unfold LexState.nc; rw [e]; rfl⟩]
    obtain ⟨t, h1, h2⟩ := token_comment h' rfl hs
    have h3 := lineComment_stop ('/' :: body) e (by simp [h']) (by simp [hb])
    have hi1 := (token_inv hi' h1).1
    rw [wordsFrom_comment hi' h1 h2, wordsFrom_white h3 rfl]
    exact ih hi (inv_advance hi1) (by rw [advance_todo, h3]; rfl) h hn (by simp at hn'; omega)
  | @block body w hb _ ih =>
    intro n n' s s' r hi hi' h' h hn hn'
    obtain ⟨n', rfl⟩ : ∃ k, n' = k + 1 := ⟨n' - 1, by omega⟩
    have e : s'.advance.todo = '*' :: body ++ '*' :: '/' :: (w ++ r) := by simp [h']
    have hs : scan s'.advance '/' = .ok (blockComment s'.advance) .COMMENT 0 := by
      unfold scan
      rw [if_neg, if_pos ⟨rfl, by unfold LexState.nc; rw [e]; rfl⟩]
      rintro ⟨-, h⟩
      unfold LexState.nc at h
      rw [e] at h
      cases h
    obtain ⟨t, h1, h2⟩ := token_comment h' rfl hs
    have h3 := advWhile_block ('*' :: body) (s := s'.advance) (c := '/') (by simp [h']) e (by
      intro x y heq
      cases x with
      | nil => cases heq
      | cons d x =>
        simp only [List.cons_append, List.cons.injEq] at heq
        exact hb x y (by simpa using heq.2))
    have h4 : (blockComment s'.advance).todo = w ++ r := by
      unfold blockComment
      rw [advance_todo, h3]
      rfl
    rw [wordsFrom_comment hi' h1 h2]
    exact ih hi (token_inv hi' h1).1 h4 h hn (by simp at hn'; omega)

end Verif.Lemmas.LexShift
