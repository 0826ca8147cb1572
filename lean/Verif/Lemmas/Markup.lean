import Verif.Spec.Markup
import Verif.Lemmas.Lexer
/-!
# Markup strings: tokens
-/
namespace Verif.Lemmas
open Verif.Model Verif.Spec

/-- A letter, digit or underscore -/
def isWord (d : Char) : Bool := isAlnum d || d == '_'

/-- What comes next: `skip` characters are skipped, then a token of `len` characters -/
inductive MScan
  | eof
  | err (skip len : Nat)
  | tok (skip : Nat) (k : MKind) (len : Nat) (refl : Bool)

/-- one token of a text -/
def mscan (refl : Bool) (t : List Char) : MScan :=
  let n := if refl then (t.takeWhile isSpace).length else 0
  match t.drop n with
  | [] => .eof
  | c :: r =>
    if c = '[' ∧ r.head? = some '[' then if refl then .err n 2 else .tok n .BEGIN 2 true
    else if c = ']' ∧ r.head? = some ']' then if refl then .tok n .END 2 false else .err n 2
    else if !refl then .tok n .CHARACTER 1 false
    else if c = ',' then .tok n .COMMA 1 true
    else if c = '.' then .tok n .DOT 1 true
    else if isAlpha c then .tok n .IDENTIFIER (1 + (r.takeWhile isWord).length) true
    else .err n 1

theorem advWhile_takeWhile (p : Char → Bool) : ∀ (l : List Char) (s : LexState), l = s.todo →
    advWhile (ncIs p) l s = advN (l.takeWhile p).length s := by
  intro l
  induction l with
  | nil => intro s h; rfl
  | cons c r ih =>
    intro s h
    unfold advWhile
    have hc : ncIs p s = p c := by simp [ncIs, LexState.nc, ← h]
    rw [hc, List.takeWhile_cons]
    split
    · rw [ih s.advance (by simp [← h])]
      rfl
    · rfl

theorem skipWhitespace_takeWhile (s : LexState) :
    skipWhitespace s = advN ((s.todo.takeWhile isSpace).length + 1) s := by
  unfold skipWhitespace
  rw [advWhile_takeWhile isSpace s.todo s rfl, advN_succ]

theorem slice_todo {s : LexState} (hi : Inv s) {n k : Nat} (hk : 0 < k) :
    slice s.content (s.pos + n) (s.pos + n + k - 1) = (s.todo.drop n).take k := by
  unfold slice
  rw [hi.todo, List.drop_drop]
  congr 1
  omega

/-- `Markup_Lexer.token` in terms of offsets -/
theorem mtoken_eq {l : MLex} (hi : Inv l.s) :
    l.token = match mscan l.refl l.s.todo with
      | .eof => (.eof, ⟨l.refl, if l.refl then skipWhitespace l.s else l.s.advance⟩)
      | .err n k => (.error (l.s.pos + n) (l.s.pos + n + k - 1) (lineOf l.s.content (l.s.pos + n))
          (colOf l.s.content (l.s.pos + n)), ⟨l.refl, advN (n + k) l.s⟩)
      | .tok n k len refl => (.tok ⟨k, (l.s.todo.drop n).take len, l.s.pos + n, l.s.pos + n + len - 1,
          lineOf l.s.content (l.s.pos + n), colOf l.s.content (l.s.pos + n)⟩,
          ⟨refl, advN (n + len) l.s⟩) := by
  obtain ⟨refl, s⟩ := l
  dsimp only at hi ⊢
  have hs : (if refl then skipWhitespace s else s.advance) =
      advN ((if refl then (s.todo.takeWhile isSpace).length else 0) + 1) s := by
    split
    · exact skipWhitespace_takeWhile s
    · rfl
  generalize hn : (if refl then (s.todo.takeWhile isSpace).length else 0) = n at hs
  have hi' := inv_advN hi (n + 1)
  have hcc := advN_cc n s
  unfold MLex.token
  simp only [hs]
  rw [hcc]
  unfold mscan
  simp only [hn]
  cases hq : s.todo.drop n with
  | nil =>
    have : s.todo[n]? = none := by
      rw [List.drop_eq_nil_iff] at hq
      simpa using hq
    simp only [this]
  | cons c r =>
    have hg : s.todo[n]? = some c := by rw [← List.head?_drop, hq]; rfl
    have hlt : n < s.todo.length := by
      rcases Nat.lt_or_ge n s.todo.length with h | h
      · exact h
      · rw [List.drop_eq_nil_iff.2 h] at hq; cases hq
    have hr : s.todo.drop (n + 1) = r := by rw [← List.tail_drop, hq]; rfl
    have hnc : (advN (n + 1) s).nc = r.head? := by simp [LexState.nc, hr]
    have hlen : s.content.length = s.pos + s.todo.length := by
      have := congrArg List.length hi.todo
      rw [List.length_drop] at this
      omega
    obtain ⟨hl, hc⟩ := hi'.loc (by simp; omega) (by simp; omega)
    have hpos : (advN (n + 1) s).lexpos = s.pos + n := by simp [LexState.lexpos]
    have hp' : (advN (n + 1) s).pos - 1 = s.pos + n := by simp
    rw [hp', advN_content] at hl hc
    simp only [hg, hnc, hpos, hl, hc]
    have key : ∀ k, advN k (advN (n + 1) s) = advN (n + (1 + k)) s := by
      intro k; rw [← advN_add]; congr 1; omega
    have adv : (advN (n + 1) s).advance = advN (n + 2) s := (advN_succ (n + 1) s).symm
    have lp : ∀ k, 0 < k → (advN (n + k) s).lexpos = s.pos + n + k - 1 := by
      intro k hk; simp [LexState.lexpos]; omega
    have sl : ∀ k, 0 < k → slice s.content (s.pos + n) (s.pos + n + k - 1) = (c :: r).take k := by
      intro k hk; rw [slice_todo hi hk, hq]
    rw [advWhile_takeWhile _ _ _ rfl, key, advN_todo, hr]
    simp only [adv]
    have l1 := lp 1 (by omega)
    have l2 := lp 2 (by omega)
    have s1 := sl 1 (by omega)
    have s2 := sl 2 (by omega)
    have s1' : slice s.content (s.pos + n) (s.pos + n) = (c :: r).take 1 := s1
    have l3 := lp (1 + (r.takeWhile isWord).length) (by omega)
    have s3 := sl (1 + (r.takeWhile isWord).length) (by omega)
    have hw : (fun d => isAlnum d || d == '_') = isWord := rfl
    simp only [hw]
    split
    · split
      · rfl
      · simp only [l2, advN_content, s2, hq]
    · split
      · split
        · simp only [l2, advN_content, s2, hq]
        · rfl
      · split
        · next h =>
          have : refl = false := by simpa using h
          subst this
          simp only [advN_content, s1', hq]; rfl
        · next h =>
          have : refl = true := by simpa using h
          subst this
          split
          · simp only [advN_content, s1', hq]; rfl
          · split
            · simp only [advN_content, s1', hq]; rfl
            · split
              · simp only [l3, advN_content, s3, hq]
              · rfl

end Verif.Lemmas
