import Verif.Model.Lexer
import Verif.Spec.Text
/-!
# Helper lemmas about the lexer model
-/
namespace Verif.Lemmas
open Verif.Model Verif.Spec

/-! ## `advance`, repeated -/

def advN : Nat → LexState → LexState
  | 0, s => s
  | n + 1, s => advN n s.advance

@[simp] theorem advance_content (s : LexState) : s.advance.content = s.content := rfl
@[simp] theorem advance_pos (s : LexState) : s.advance.pos = s.pos + 1 := rfl
@[simp] theorem advance_todo (s : LexState) : s.advance.todo = s.todo.tail := rfl
@[simp] theorem advance_cc (s : LexState) : s.advance.cc = s.todo.head? := rfl

theorem advN_add (m n : Nat) (s : LexState) : advN (m + n) s = advN n (advN m s) := by
  induction m generalizing s with
  | zero => simp [advN]
  | succ m ih => rw [Nat.succ_add]; exact ih s.advance

theorem advN_succ (n : Nat) (s : LexState) : advN (n + 1) s = (advN n s).advance :=
  advN_add n 1 s

@[simp] theorem advN_content (n : Nat) (s : LexState) : (advN n s).content = s.content := by
  induction n generalizing s with
  | zero => rfl
  | succ n ih => simp [advN, ih]

@[simp] theorem advN_pos (n : Nat) (s : LexState) : (advN n s).pos = s.pos + n := by
  induction n generalizing s with
  | zero => rfl
  | succ n ih => simp [advN, ih]; omega

@[simp] theorem advN_todo (n : Nat) (s : LexState) : (advN n s).todo = s.todo.drop n := by
  induction n generalizing s with
  | zero => rfl
  | succ n ih => simp [advN, ih]

theorem advN_cc (n : Nat) (s : LexState) : (advN (n + 1) s).cc = s.todo[n]? := by
  rw [advN_succ]; simp [List.head?_drop]

/-! ## The state invariant -/

structure Inv (s : LexState) : Prop where
  todo : s.todo = s.content.drop s.pos
  start : s.pos = 0 → s.cc = none ∧ s.line = 0 ∧ s.col = 0
  cc : 0 < s.pos → s.cc = s.content[s.pos - 1]?
  loc : 0 < s.pos → s.pos ≤ s.content.length →
    s.line = lineOf s.content (s.pos - 1) ∧ s.col = colOf s.content (s.pos - 1)

theorem inv_init (content : List Char) : Inv (LexState.init content) := by
  constructor <;> simp [LexState.init]

theorem lineOf_succ (content : List Char) (i : Nat) (c : Char) (h : content[i]? = some c) :
    lineOf content (i + 1) = lineOf content i + (if c = '\n' then 1 else 0) := by
  unfold lineOf
  rw [List.take_succ, h]
  simp only [Option.toList_some, List.count_append, List.count_singleton]
  split <;> simp_all <;> omega

theorem colOf_succ (content : List Char) (i : Nat) (c : Char) (h : content[i]? = some c) :
    colOf content (i + 1) = (if c = '\n' then 0 else colOf content i) + 1 := by
  unfold colOf
  rw [List.take_succ, h]
  simp only [Option.toList_some, List.reverse_append, List.reverse_cons, List.reverse_nil,
    List.nil_append, List.singleton_append, List.takeWhile_cons]
  split <;> rename_i h1
  · have : c ≠ '\n' := by simpa using h1
    simp [this]; omega
  · have : c = '\n' := by simpa using h1
    simp [this]

theorem inv_advance {s : LexState} (h : Inv s) : Inv s.advance := by
  have htodo : s.advance.todo = s.content.drop (s.pos + 1) := by
    simp [h.todo]
  refine ⟨by simpa using htodo, by simp, ?_, ?_⟩
  · intro _
    simp [h.todo, List.head?_drop]
  · intro _ hle
    have hle' : s.pos + 1 ≤ s.content.length := by simpa using hle
    have hlt : s.pos < s.content.length := by omega
    have hhead : s.todo.head?.isSome := by
      rw [h.todo, List.head?_drop]; simp [hlt]
    by_cases h0 : s.pos = 0
    · obtain ⟨h1, h2, h3⟩ := h.start h0
      simp only [LexState.advance, h0, hhead, or_true, if_true, h2]
      simp [lineOf, colOf]
    · have hp : 0 < s.pos := by omega
      obtain ⟨l, c⟩ := h.loc hp (by omega)
      have hc := h.cc hp
      have hlt' : s.pos - 1 < s.content.length := by omega
      have hget : s.content[s.pos - 1]? = some (s.content[s.pos - 1]) := by simp [hlt']
      have e : s.pos = s.pos - 1 + 1 := by omega
      have l' := lineOf_succ _ _ _ hget
      have c' := colOf_succ _ _ _ hget
      rw [← e] at l' c'
      simp only [advance_pos, Nat.add_sub_cancel, advance_content]
      rw [l', c']
      simp only [LexState.advance, h0, hhead, or_false, if_true, hc, hget, Option.some.injEq]
      constructor
      · rw [l]; split <;> rfl
      · rw [c]

theorem inv_advN {s : LexState} (h : Inv s) (n : Nat) : Inv (advN n s) := by
  induction n generalizing s with
  | zero => exact h
  | succ n ih => exact ih (inv_advance h)

/-! ## The literal machine and the model agree -/

/-- Relation between the literal fields and the model state. -/
structure Sim (r : RawLexer) (s : LexState) : Prop where
  content : r.content = s.content
  lexpos : r.lexpos = (s.pos : Int) - 1
  line : r.line_no = s.line
  col : r.col_no = s.col
  cc : r.cc = s.cc
  nc : r.nc = s.nc
  nnc : r.nnc = s.nnc

theorem charAt_eq (content : List Char) (n : Nat) : charAt content (n : Int) = content[n]? := by
  unfold charAt
  split
  · simp
  · rename_i h
    have : content.length ≤ n := by omega
    simp [this]

theorem raw_init (content : List Char) :
    Sim (RawLexer.init content) (LexState.init content) := by
  constructor <;>
    simp [RawLexer.init, RawLexer.advance, LexState.init, LexState.nc, LexState.nnc]
  · exact (charAt_eq content 0).trans (by cases content <;> rfl)
  · exact (charAt_eq content 1).trans (by rcases content with _ | ⟨_, _ | _⟩ <;> rfl)

/-- One step of the literal machine is one step of the model. -/
theorem raw_sim {r : RawLexer} {s : LexState} (hi : Inv s) (h : Sim r s) :
    Sim r.advance s.advance := by
  have h0 : (s.pos : Int) - 1 + 1 = 0 ↔ s.pos = 0 := by omega
  have hnc : r.nc = s.todo.head? := h.nc
  have hnnc : r.nnc = s.todo.tail.head? := h.nnc
  constructor
  · exact h.content
  · simp [RawLexer.advance, h.lexpos]
  · simp only [RawLexer.advance, LexState.advance, h.lexpos, h.cc, h.line, h0]
    split <;> rfl
  · simp only [RawLexer.advance, LexState.advance, h.lexpos, h.cc, h.col, h0, hnc]
    split <;> (split <;> simp)
  · simpa [RawLexer.advance] using hnc
  · simpa [RawLexer.advance, LexState.nc] using hnnc
  · simp only [RawLexer.advance, h.lexpos, h.content]
    have e : (s.pos : Int) - 1 + 1 + 2 = ((s.pos + 2 : Nat) : Int) := by omega
    rw [e, charAt_eq]
    simp [LexState.nnc, hi.todo, List.head?_drop]

/-! ## Loops are repeated `advance` -/

theorem advWhile_eq (cond : LexState → Bool) (l : List Char) (s : LexState) (h : l = s.todo) :
    ∃ n, n ≤ s.todo.length ∧ advWhile cond l s = advN n s ∧
      (∀ i < n, cond (advN i s) = true) ∧
      (n < s.todo.length → cond (advN n s) = false) := by
  induction l generalizing s with
  | nil => exact ⟨0, by omega, rfl, by simp, by simp [← h]⟩
  | cons c r ih =>
    unfold advWhile
    by_cases hc : cond s = true
    · obtain ⟨n, h1, h2, h3, h4⟩ := ih s.advance (by simp [← h])
      have hl : s.todo.length = r.length + 1 := by rw [← h]; rfl
      have hl' : s.advance.todo.length = r.length := by simp [← h]
      refine ⟨n + 1, by omega, by simp [hc, h2, advN], ?_, ?_⟩
      · intro i hi
        cases i with
        | zero => exact hc
        | succ i => exact h3 i (by omega)
      · intro hn; exact h4 (by omega)
    · simp only [Bool.not_eq_true] at hc
      exact ⟨0, by omega, by simp [hc, advN], by simp, fun _ => hc⟩

theorem lineComment_eq (l : List Char) (s : LexState) (h : l = s.todo) :
    ∃ n, n ≤ s.todo.length + 1 ∧ lineComment l s = advN n s := by
  induction l generalizing s with
  | nil =>
    unfold lineComment
    split
    · exact ⟨1, by omega, rfl⟩
    · exact ⟨0, by omega, rfl⟩
  | cons c r ih =>
    unfold lineComment
    have hl : s.todo.length = r.length + 1 := by rw [← h]; rfl
    have hl' : s.advance.todo.length = r.length := by simp [← h]
    split
    · obtain ⟨n, h1, h2⟩ := ih s.advance (by simp [← h])
      exact ⟨n + 1, by omega, by simp [h2, advN]⟩
    · exact ⟨0, by omega, rfl⟩

/-- State carried by a scan outcome. -/
def Scan.state : Scan → LexState
  | .ok s _ _ => s
  | .fail s _ => s

theorem lexError_state (s : LexState) (k) (a b : Nat) : Scan.state (lexError s k a b) = s := by
  unfold lexError; split <;> rfl

theorem lexError_ne_ok (s : LexState) (k) (a b : Nat) (s' k' b') :
    lexError s k a b ≠ .ok s' k' b' := by
  unfold lexError; split <;> simp

/-- A scan is `n` steps of `advance`; successful ones end at most one character
beyond the last one, and exactly when there is a next character otherwise. -/
def Reach (s : LexState) (r : Scan) : Prop :=
  ∃ n, Scan.state r = advN n s ∧ n ≤ s.todo.length + 1

theorem Reach.step {s : LexState} {r : Scan} (h : Reach s.advance r) (hne : s.todo ≠ []) :
    Reach s r := by
  obtain ⟨n, h1, h2⟩ := h
  refine ⟨n + 1, h1, ?_⟩
  have : s.advance.todo.length = s.todo.length - 1 := by simp
  have : 0 < s.todo.length := List.length_pos_iff.mpr hne
  omega

theorem reach_self (s : LexState) (k b) : Reach s (.ok s k b) := ⟨0, rfl, by omega⟩
theorem reach_adv (s : LexState) (k b) : Reach s (.ok s.advance k b) := ⟨1, rfl, by omega⟩
theorem reach_err (s : LexState) (k a b) : Reach s (lexError s k a b) :=
  ⟨0, lexError_state .., by omega⟩
theorem reach_err_adv (s : LexState) (k a b) : Reach s (lexError s.advance k a b) :=
  ⟨1, lexError_state .., by omega⟩

theorem tripleLoop_reach (q : Char) (st : Nat) (l : List Char) (s : LexState) (seen : Nat)
    (h : l = s.todo) : Reach s (tripleLoop q st l s seen) := by
  induction l generalizing s seen with
  | nil => unfold tripleLoop; exact reach_err_adv ..
  | cons c r ih =>
    unfold tripleLoop
    have hne : s.todo ≠ [] := by rw [← h]; simp
    dsimp only
    generalize (if s.advance.cc = some q then seen + 1 else 0) = seen'
    split
    · exact reach_err_adv ..
    · split
      · exact (ih _ _ (by simp [← h])).step hne
      · exact reach_adv ..

theorem simpleString_reach (st : Nat) (l : List Char) (s : LexState) (h : l = s.todo) :
    Reach s (simpleString st l s) := by
  fun_induction simpleString st l s
  case case1 => exact reach_err ..
  case case2 => exact reach_adv ..
  case case3 => exact reach_err ..
  case case4 s c h1 h2 d r' h3 ih =>
    refine ((ih ?_).step ?_).step ?_ <;> simp [← h]
  case case5 s c h1 h2 d r' h3 ih =>
    refine (ih ?_).step ?_ <;> simp [← h]
  case case6 s c h1 h2 ih =>
    refine (ih ?_).step ?_ <;> simp [← h]

theorem numLoop_reach (st : Nat) (l : List Char) (s : LexState) (v : NumSt) (h : l = s.todo) :
    Reach s (numLoop st l s v) := by
  induction l generalizing s v with
  | nil =>
    unfold numLoop; split
    · exact reach_err ..
    · exact reach_self ..
  | cons c r ih =>
    have hne : s.todo ≠ [] := by rw [← h]; simp
    have hstep : ∀ v, Reach s (numLoop st r s.advance v) :=
      fun v => (ih _ v (by simp [← h])).step hne
    unfold numLoop
    repeat' split
    all_goals first
      | exact hstep _ | exact reach_err .. | exact reach_self .. | exact reach_err_adv ..

theorem number_reach (st : Nat) (s : LexState) (c : Char) : Reach s (number st s c) := by
  unfold number
  split
  · rename_i h
    refine (numLoop_reach _ _ _ _ rfl).step ?_
    intro h0; simp [LexState.nc, h0] at h
  · split
    · rename_i h
      refine (numLoop_reach _ _ _ _ rfl).step ?_
      intro h0; simp [LexState.nc, h0] at h
    · exact numLoop_reach _ _ _ _ rfl

theorem singleQuote_reach (st : Nat) (s : LexState) : Reach s (singleQuote st s) := by
  unfold singleQuote
  dsimp only
  split
  · exact reach_err_adv ..
  · rename_i h
    simp only [advance_cc, ne_eq, Decidable.not_not] at h
    have hne : s.todo ≠ [] := by intro h0; simp [h0] at h
    split
    · exact (reach_err_adv ..).step hne
    · rename_i h'
      simp only [advance_cc, ne_eq, Decidable.not_not] at h'
      have hne' : s.advance.todo ≠ [] := by intro h0; rw [h0] at h'; cases h'
      exact ((tripleLoop_reach _ _ _ _ _ rfl).step hne').step hne

theorem scan_reach (s : LexState) (c : Char) : Reach s (scan s c) := by
  unfold scan
  dsimp only
  split
  · obtain ⟨n, h1, h2⟩ := lineComment_eq s.todo s rfl
    exact ⟨n, h2, h1⟩
  split
  · rename_i h
    obtain ⟨n, h1, h2, _⟩ := advWhile_eq
      (fun s => !(s.cc == some '*' && s.nc == some '/')) s.todo s rfl
    refine ⟨n + 1, ?_, by omega⟩
    show blockComment s = _
    unfold blockComment
    rw [h2, advN_succ]
  split
  · obtain ⟨n, h1, h2, _⟩ := advWhile_eq (ncIs (fun d => isAlnum d || d == '_')) s.todo s rfl
    exact ⟨n, h2, by omega⟩
  split
  · exact reach_self ..
  split
  · repeat' split
    all_goals first | exact reach_adv .. | exact reach_self ..
  split
  · repeat' split
    all_goals first | exact reach_adv .. | exact reach_self ..
  split
  · repeat' split
    all_goals first | exact reach_adv .. | exact reach_self ..
  split
  · repeat' split
    all_goals first | exact reach_adv .. | exact reach_err ..
  split
  · repeat' split
    all_goals first | exact reach_adv .. | exact reach_self ..
  split
  · split
    · rename_i h
      have hne : s.todo ≠ [] := by intro h0; simp [LexState.nc, h0] at h
      have hne' : s.advance.todo ≠ [] := by
        intro h0
        have : s.todo.tail = [] := by simpa using h0
        simp [LexState.nnc, this] at h
      exact ((tripleLoop_reach _ _ _ _ _ rfl).step hne').step hne
    · exact simpleString_reach _ _ _ rfl
  split
  · exact singleQuote_reach ..
  split
  · exact number_reach ..
  · exact reach_err ..

/-! ## `skip_whitespace` and `token` -/

theorem skipWhitespace_eq (s : LexState) :
    ∃ n, n ≤ s.todo.length ∧ skipWhitespace s = advN (n + 1) s ∧
      (∀ i < n, ∃ c, s.todo[i]? = some c ∧ isSpace c = true) ∧
      (∀ c, s.todo[n]? = some c → isSpace c = false) := by
  obtain ⟨n, h1, h2, h3, h4⟩ := advWhile_eq (ncIs isSpace) s.todo s rfl
  refine ⟨n, h1, ?_, ?_, ?_⟩
  · unfold skipWhitespace; rw [h2, advN_succ]
  · intro i hi
    have := h3 i hi
    simp only [ncIs, LexState.nc, advN_todo, List.head?_drop] at this
    rcases hq : s.todo[i]? with _ | c
    · rw [hq] at this; simp at this
    · rw [hq] at this; exact ⟨c, rfl, by simpa using this⟩
  · intro c hc
    have hlt : n < s.todo.length := by
      rcases Nat.lt_or_ge n s.todo.length with h | h
      · exact h
      · simp [h] at hc
    have := h4 hlt
    simp only [ncIs, LexState.nc, advN_todo, List.head?_drop, hc] at this
    simpa using this

/-- What one call of `token()` does, in terms of offsets. -/
theorem token_cases (s : LexState) (hi : Inv s) (o : LexOut) (s' : LexState)
    (h : token s = (o, s')) :
    ∃ n, n ≤ s.todo.length ∧
      (∀ i < n, ∃ c, s.todo[i]? = some c ∧ isSpace c = true) ∧
      (∀ c, s.todo[n]? = some c → isSpace c = false) ∧
      ((o = .eof ∧ n = s.todo.length ∧ s' = advN (n + 1) s) ∨
       (n < s.todo.length ∧ ∃ c m, s.todo[n]? = some c ∧
          s' = advN m (advN (n + 1) s) ∧ m ≤ (s.todo.drop (n + 1)).length + 1 ∧
          Scan.state (scan (advN (n + 1) s) c) = s' ∧
          ((∃ o', scan (advN (n + 1) s) c = .fail s' o' ∧ o = o') ∨
           (∃ k b, scan (advN (n + 1) s) c = .ok s' k b ∧
              o = .tok { kind := (finishToken k b (slice s.content (s.pos + n)
                            (min (s.pos + n + m) (s.content.length - 1)))).1
                         value := (finishToken k b (slice s.content (s.pos + n)
                            (min (s.pos + n + m) (s.content.length - 1)))).2
                         startPos := s.pos + n
                         endPos := min (s.pos + n + m) (s.content.length - 1)
                         line := lineOf s.content (s.pos + n)
                         col := colOf s.content (s.pos + n) })))) := by
  obtain ⟨n, h1, h2, h3, h4⟩ := skipWhitespace_eq s
  refine ⟨n, h1, h3, h4, ?_⟩
  have hcc : (advN (n + 1) s).cc = s.todo[n]? := advN_cc n s
  unfold token at h
  rw [h2] at h
  dsimp only at h
  rcases hq : s.todo[n]? with _ | c
  · left
    rw [hcc, hq] at h
    simp only [Prod.mk.injEq] at h
    have : s.todo.length ≤ n := by simpa using hq
    exact ⟨h.1.symm, by omega, h.2.symm⟩
  · right
    have hlt : n < s.todo.length := by
      rcases Nat.lt_or_ge n s.todo.length with h | h
      · exact h
      · simp [h] at hq
    rw [hcc, hq] at h
    simp only at h
    obtain ⟨m, hm1, hm2⟩ := scan_reach (advN (n + 1) s) c
    have hlen : (advN (n + 1) s).todo.length = (s.todo.drop (n + 1)).length := by simp
    refine ⟨hlt, c, m, rfl, ?_, by omega, ?_⟩
    · rw [← hm1]
      rcases hs : scan (advN (n + 1) s) c with ⟨s1, k, b⟩ | ⟨s1, o1⟩
      · rw [hs] at h; simp only [Prod.mk.injEq] at h; exact h.2.symm
      · rw [hs] at h; simp only [Prod.mk.injEq] at h; exact h.2.symm
    · have hinv := inv_advN hi (n + 1)
      have hposle : (advN (n + 1) s).pos ≤ (advN (n + 1) s).content.length := by
        simp only [advN_pos, advN_content]
        have := hi.todo
        have : s.todo.length = s.content.length - s.pos := by rw [this]; simp
        omega
      obtain ⟨hl, hcol⟩ := hinv.loc (by rw [advN_pos]; omega) hposle
      have hp1 : s.pos + (n + 1) - 1 = s.pos + n := by omega
      simp only [advN_pos, advN_content, hp1] at hl hcol
      rcases hs : scan (advN (n + 1) s) c with ⟨s1, k, b⟩ | ⟨s1, o1⟩
      · rw [hs] at h hm1
        simp only [Prod.mk.injEq] at h
        obtain ⟨ho, hst⟩ := h
        refine ⟨by rw [← hst]; rfl, Or.inr ⟨k, b, by rw [hst], ?_⟩⟩
        have e : s1 = advN m (advN (n + 1) s) := hm1
        have hlex : s1.lexpos = s.pos + n + m := by
          rw [e]; simp only [LexState.lexpos, advN_pos]; omega
        have hcont : s1.content = s.content := by rw [e]; simp
        have hlex0 : (advN (n + 1) s).lexpos = s.pos + n := by
          simp only [LexState.lexpos, advN_pos]; omega
        rw [← ho, hlex, hcont, hlex0, hl, hcol]
      · rw [hs] at h hm1
        simp only [Prod.mk.injEq] at h
        exact ⟨by rw [← h.2]; rfl, Or.inl ⟨o1, by rw [h.2], h.1.symm⟩⟩

end Verif.Lemmas
