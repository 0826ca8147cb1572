import Verif.Lemmas.LexShift
/-!
# The lexer looks hardly further than to the end of a token
-/
namespace Verif.Lemmas.LexShift
open Verif.Model Verif.Spec Verif.Lemmas

/-- what may follow a token instead of something else -/
def Follow (k : Kind) (x z : List Char) : Prop :=
  (x ≠ [] ∧ z.head? = x.head? ∧ (x.head? = some '.' → x.tail.head? = some '.' → z.tail.head? = some '.')) ∨
  (k ≠ .COMMENT ∧ ∃ c r, z = c :: r ∧ isSpace c = true)

theorem Follow.ne {k : Kind} {x z : List Char} (h : Follow k x z) : z ≠ [] := by
  rcases h with ⟨h1, h2, -⟩ | ⟨-, c, r, rfl, -⟩
  · rintro rfl
    cases x with
    | nil => exact h1 rfl
    | cons c r => cases h2
  · simp

/-- a scan with the same result before other texts -/
def Stable (f : LexState → Scan) (s : LexState) : Prop :=
  ∀ s1 k b, f s = .ok s1 k b → ∃ n, s1 = advN n s ∧ (k ≠ .COMMENT → n ≤ s.todo.length) ∧
    ∀ s' z, s'.cc = s.cc → s'.todo = s.todo.take n ++ z → Follow k (s.todo.drop n) z → f s' = .ok (advN n s') k b

theorem advWhile_det {cond : LexState → Bool} : ∀ (m : Nat) {s : LexState}, m ≤ s.todo.length → (∀ i < m, cond (advN i s) = true) →
    (m < s.todo.length → cond (advN m s) = false) → advWhile cond s.todo s = advN m s
  | 0, s, _, _, h => by
    cases hs : s.todo with
    | nil => rfl
    | cons c r =>
      have := h (by rw [hs]; simp)
      rw [advWhile, if_neg (by rw [show cond s = false from this]; simp)]
      rfl
  | m + 1, s, hm, h1, h2 => by
    cases hs : s.todo with
    | nil => rw [hs] at hm; simp at hm
    | cons c r =>
      have e : s.advance.todo = r := by simp [hs]
      rw [advWhile, if_pos (show cond s = true from h1 0 (by omega)), ← e]
      rw [hs] at hm h2
      simp only [List.length_cons] at hm h2
      exact advWhile_det m (by rw [e]; omega) (fun i hi => h1 (i + 1) (by omega)) (fun h => h2 (by rw [e] at h; omega))

theorem head_drop_take {l z : List Char} {n i : Nat} (h : n ≤ l.length) (hi : i < n) :
    ((l.take n ++ z).drop i).head? = (l.drop i).head? := by
  rw [List.head?_drop, List.head?_drop, List.getElem?_append_left (by simp; omega), List.getElem?_take_of_lt hi]

theorem drop_take_append {l z : List Char} {n : Nat} (h : n ≤ l.length) : (l.take n ++ z).drop n = z := by
  rw [List.drop_append_of_le_length (by simp; omega)]
  simp

theorem word_stable (s : LexState) :
    Stable (fun s => .ok (advWhile (ncIs (fun d => isAlnum d || d == '_')) s.todo s) .IDENTIFIER 0) s := by
  rintro s1 k b ⟨⟩
  obtain ⟨n, h1, h2, h3, h4⟩ := advWhile_eq (ncIs (fun d => isAlnum d || d == '_')) s.todo s rfl
  refine ⟨n, h2, fun _ => h1, fun s' z _ hz hf => ?_⟩
  show Scan.ok (advWhile _ s'.todo s') _ _ = _
  rw [advWhile_det n]
  · rw [hz]; simp; omega
  · intro i hi
    have := h3 i hi
    unfold ncIs LexState.nc at this ⊢
    rw [advN_todo] at this ⊢
    rw [hz, head_drop_take h1 hi]
    exact this
  · intro _
    unfold ncIs LexState.nc at h4 ⊢
    rw [advN_todo] at h4 ⊢
    rw [hz, drop_take_append h1]
    rcases hf with ⟨hx, hh, -⟩ | ⟨-, c, r, rfl, hc⟩
    · rw [hh]
      refine h4 ?_
      rcases Nat.lt_or_ge n s.todo.length with h | h
      · exact h
      · exact absurd (List.drop_eq_nil_of_le h) hx
    · have key : ∀ c : Char, isSpace c = true → (isAlnum c || c == '_') = false := by
        intro c h
        simp only [isSpace, isAlnum, isAlpha, isNumeric, Bool.or_eq_true, Bool.and_eq_true, decide_eq_true_eq, beq_iff_eq] at h
        simp only [isAlnum, isAlpha, isNumeric, Bool.or_eq_false_iff, Bool.and_eq_false_iff, decide_eq_false_iff_not, beq_eq_false_iff_ne, ne_eq]
        have e1 : 'a'.toNat = 97 := rfl
        have e2 : 'z'.toNat = 122 := rfl
        have e3 : 'A'.toNat = 65 := rfl
        have e4 : 'Z'.toNat = 90 := rfl
        have e5 : '0'.toNat = 48 := rfl
        have e6 : '9'.toNat = 57 := rfl
        have e7 : '_'.toNat = 95 := rfl
        refine ⟨⟨⟨by omega, by omega⟩, by omega⟩, ?_⟩
        rintro rfl
        omega
      simp [key c hc]

theorem block_stable (s : LexState) : Stable (fun s => .ok (blockComment s) .COMMENT 0) s := by
  rintro s1 k b ⟨⟩
  obtain ⟨n, h1, h2, h3, h4⟩ := advWhile_eq (fun s => !(s.cc == some '*' && s.nc == some '/')) s.todo s rfl
  refine ⟨n + 1, by unfold blockComment; rw [h2, advN_succ], fun h => absurd rfl h, fun s' z hc hz hf => ?_⟩
  rcases hf with ⟨hx, -, -⟩ | ⟨h, -⟩
  · have hlt : n + 1 < s.todo.length := by
      rcases Nat.lt_or_ge (n + 1) s.todo.length with h | h
      · exact h
      · exact absurd (List.drop_eq_nil_of_le h) hx
    have key : ∀ i, i ≤ n → (advN i s').cc = (advN i s).cc ∧ (advN i s').nc = (advN i s).nc := by
      intro i hi
      constructor
      · cases i with
        | zero => exact hc
        | succ i =>
          rw [advN_cc, advN_cc, hz, List.getElem?_append_left (by simp; omega), List.getElem?_take_of_lt (by omega)]
      · unfold LexState.nc
        rw [advN_todo, advN_todo, hz, head_drop_take (by omega) (by omega)]
    show Scan.ok (advWhile _ s'.todo s').advance _ _ = _
    rw [advWhile_det n, advN_succ]
    · rw [hz]; simp; omega
    · intro i hi
      rw [(key i (by omega)).1, (key i (by omega)).2]
      exact h3 i hi
    · intro _
      rw [(key n (by omega)).1, (key n (by omega)).2]
      exact h4 (by omega)
  · exact absurd rfl h

theorem lineComment_stable : ∀ (l : List Char) (s : LexState), l = s.todo → s.cc.isSome = true →
    ∃ n, lineComment l s = advN n s ∧ ∀ s' z, s'.cc.isSome = true → s'.todo = l.take n ++ z → Follow .COMMENT (l.drop n) z →
      lineComment s'.todo s' = advN n s'
  | [], s, h, hc => ⟨1, by rw [lineComment, if_pos hc]; rfl, fun s' z _ _ hf => by
      rcases hf with ⟨hx, -⟩ | ⟨h, -⟩
      · exact absurd rfl hx
      · exact absurd rfl h⟩
  | c :: r, s, h, hc => by
    have hnc : s.nc = some c := by unfold LexState.nc; rw [← h]; rfl
    by_cases hn : c = '\n'
    · subst hn
      refine ⟨0, by rw [lineComment, if_neg (by rw [hnc]; simp)]; rfl, fun s' z hc' hz hf => ?_⟩
      rcases hf with ⟨-, hh, -⟩ | ⟨h, -⟩
      · cases z with
        | nil => cases hh
        | cons d z =>
          have hz' : s'.todo = d :: z := hz
          have : d = '\n' := by simpa using hh
          rw [hz', lineComment, if_neg (by unfold LexState.nc; rw [hz', this]; simp)]
          rfl
      · exact absurd rfl h
    · obtain ⟨n, h1, h2⟩ := lineComment_stable r s.advance (by simp [← h]) (by simp [← h])
      refine ⟨n + 1, by rw [lineComment, if_pos ⟨hc, by rw [hnc]; simpa using hn⟩, h1]; rfl, fun s' z hc' hz hf => ?_⟩
      rw [List.take_succ_cons, List.cons_append] at hz
      rw [hz, lineComment, if_pos ⟨hc', by unfold LexState.nc; rw [hz]; simpa using hn⟩]
      have := h2 s'.advance z (by simp [hz]) (by simp [hz]) hf
      rw [show s'.advance.todo = r.take n ++ z by simp [hz]] at this
      exact this

theorem noOk {s : LexState} {e : LexErrKind} {a b : Nat} {s' : LexState} {k : Kind} {b' : Nat} : ¬ lexError s e a b = .ok s' k b' :=
  lexError_ne_ok s e a b s' k b'

theorem tripleLoop_stable (q : Char) : ∀ (l : List Char) (s : LexState) (seen st : Nat) (s1 : LexState) (k : Kind) (b : Nat), l = s.todo →
    tripleLoop q st l s seen = .ok s1 k b → ∃ n, s1 = advN n s ∧ n ≤ l.length ∧ ∀ st' s' z, s'.todo = l.take n ++ z → z ≠ [] →
      tripleLoop q st' s'.todo s' seen = .ok (advN n s') k b
  | [], s, seen, st, s1, k, b, _, h => by
    unfold tripleLoop at h
    exact absurd h noOk
  | c :: r, s, seen, st, s1, k, b, hl, h => by
    have e1 : s.advance.todo = r := by simp [← hl]
    have e2 : s.advance.cc = some c := by simp [← hl]
    have un : ∀ (st : Nat) (s : LexState) (x : List Char), s.advance.cc = some c → tripleLoop q st (c :: x) s seen =
        (if s.advance.nc = none then lexError s.advance .unterminatedTriple st s.advance.lexpos
         else if (if c = q then seen + 1 else 0) < 3 then tripleLoop q st x s.advance (if c = q then seen + 1 else 0)
         else .ok s.advance .STRING 0) := by
      intro st s x hcc
      rw [tripleLoop]
      simp only [hcc, Option.some.injEq]
    rw [un st s r e2] at h
    generalize (if c = q then seen + 1 else 0) = seen' at h un
    by_cases hn : s.advance.nc = none
    · rw [if_pos hn] at h; exact absurd h noOk
    · rw [if_neg hn] at h
      have step : ∀ (n : Nat) (s' : LexState) (z : List Char), s'.todo = (c :: r).take (n + 1) ++ z → z ≠ [] →
          s'.todo = c :: (r.take n ++ z) ∧ s'.advance.todo = r.take n ++ z ∧ s'.advance.cc = some c ∧ s'.advance.nc ≠ none := by
        intro n s' z hz hne
        rw [List.take_succ_cons, List.cons_append] at hz
        have e : s'.advance.todo = r.take n ++ z := by simp [hz]
        refine ⟨hz, e, by simp [hz], ?_⟩
        unfold LexState.nc
        rw [e]
        intro hq
        have := List.head?_eq_none_iff.1 hq
        exact hne (List.append_eq_nil_iff.1 this).2
      by_cases hlt : seen' < 3
      · rw [if_pos hlt] at h
        obtain ⟨n, h1, h2, h3⟩ := tripleLoop_stable q r s.advance _ st s1 k b e1.symm h
        refine ⟨n + 1, h1, by simp; omega, fun st' s' z hz hne => ?_⟩
        obtain ⟨f1, f2, f3, f4⟩ := step n s' z hz hne
        rw [f1, un _ _ _ f3, if_neg f4, if_pos hlt]
        have := h3 st' s'.advance z f2 hne
        rw [f2] at this
        exact this
      · rw [if_neg hlt] at h
        cases h
        refine ⟨1, rfl, by simp, fun st' s' z hz hne => ?_⟩
        obtain ⟨f1, f2, f3, f4⟩ := step 0 s' z hz hne
        rw [f1, un _ _ _ f3, if_neg f4, if_neg hlt]
        rfl

theorem simpleString_stable : ∀ (l : List Char) (s : LexState) (st : Nat) (s1 : LexState) (k : Kind) (b : Nat), l = s.todo →
    simpleString st l s = .ok s1 k b → ∃ n, s1 = advN (n + 1) s ∧ n + 1 ≤ l.length ∧ ∀ st' s' z, s'.todo = l.take (n + 1) ++ z →
      simpleString st' s'.todo s' = .ok (advN (n + 1) s') k b
  | [], s, st, s1, k, b, _, h => by
    unfold simpleString at h
    exact absurd h noOk
  | [c], s, st, s1, k, b, hl, h => by
    rw [simpleString.eq_def] at h
    dsimp only at h
    split at h
    · next hq =>
      cases h
      refine ⟨0, rfl, by simp, fun st' s' z hz => ?_⟩
      have hz' : s'.todo = c :: z := hz
      rw [hz', simpleString.eq_def]
      dsimp only
      rw [if_pos hq]
      rfl
    · split at h
      · exact absurd h noOk
      · rw [simpleString.eq_def] at h
        exact absurd h noOk
  | c :: d :: r, s, st, s1, k, b, hl, h => by
    rw [simpleString.eq_def] at h
    dsimp only at h
    split at h
    · next hq =>
      cases h
      refine ⟨0, rfl, by simp, fun st' s' z hz => ?_⟩
      have hz' : s'.todo = c :: z := hz
      rw [hz', simpleString.eq_def]
      dsimp only
      rw [if_pos hq]
      rfl
    · next hq =>
      split at h
      · exact absurd h noOk
      · next hnl =>
        split at h
        · next he =>
          obtain ⟨n, h1, h2, h3⟩ := simpleString_stable r s.advance.advance st s1 k b (by simp [← hl]) h
          refine ⟨n + 2, h1, by simp at h2 ⊢; omega, fun st' s' z hz => ?_⟩
          have hz' : s'.todo = c :: d :: (r.take (n + 1) ++ z) := hz
          rw [hz', simpleString.eq_def]
          dsimp only
          rw [if_neg hq, if_neg hnl, if_pos he]
          have := h3 st' s'.advance.advance z (by simp [hz'])
          rw [show s'.advance.advance.todo = r.take (n + 1) ++ z by simp [hz']] at this
          exact this
        · next he =>
          obtain ⟨n, h1, h2, h3⟩ := simpleString_stable (d :: r) s.advance st s1 k b (by simp [← hl]) h
          refine ⟨n + 1, h1, by simp at h2 ⊢; omega, fun st' s' z hz => ?_⟩
          have hz' : s'.todo = c :: d :: (r.take n ++ z) := hz
          rw [hz', simpleString.eq_def]
          dsimp only
          rw [if_neg hq, if_neg hnl, if_neg he]
          have := h3 st' s'.advance z (by simp [hz'])
          rw [show s'.advance.todo = d :: (r.take n ++ z) by simp [hz']] at this
          exact this

/-- the digits are no white space -/
def NoSpace (v : NumSt) : Prop := ∀ c, isSpace c = true → v.allowed.contains c = false ∧ v.forbidden.contains c = false

theorem numLoop_stable : ∀ (l : List Char) (s : LexState) (v : NumSt) (st : Nat) (s1 : LexState) (k : Kind) (b : Nat), l = s.todo → NoSpace v →
    numLoop st l s v = .ok s1 k b → ∃ n, s1 = advN n s ∧ n ≤ l.length ∧ (v.require = true → 0 < n) ∧
      ∀ st' s' z, s'.todo = l.take n ++ z → Follow k (l.drop n) z → numLoop st' s'.todo s' v = .ok (advN n s') k b := by
  have white : ∀ (st' : Nat) (s' : LexState) (v : NumSt) (c : Char) (z : List Char), NoSpace v → v.require = false → s'.todo = c :: z →
      isSpace c = true → numLoop st' (c :: z) s' v = .ok s' v.kind v.base := by
    intro st' s' v c z hv hr hz hc
    have h1 : c ≠ '_' := by rintro rfl; exact absurd hc (by decide)
    have h2 : c ≠ '.' := by rintro rfl; exact absurd hc (by decide)
    rw [numLoop, if_neg (by rw [(hv c hc).1]; simp), if_neg (by rw [(hv c hc).2]; simp), if_neg (by rw [hr]; simp), if_neg h1,
      if_neg (by simp [h2]), if_neg h2]
  intro l
  induction l with
  | nil =>
    intro s v st s1 k b hl hv h
    unfold numLoop at h
    split at h
    · exact absurd h noOk
    · next hr =>
      cases h
      refine ⟨0, rfl, by simp, fun e => absurd e hr, fun st' s' z hz hf => ?_⟩
      rcases hf with ⟨hx, -⟩ | ⟨-, c, r, rfl, hc⟩
      · exact absurd rfl hx
      · have hz' : s'.todo = c :: r := hz
        rw [hz', white st' s' v c r hv (by simpa using hr) hz' hc]
        rfl
  | cons c r ih =>
    intro s v st s1 k b hl hv h
    have e1 : r = s.advance.todo := by simp [← hl]
    have step : ∀ (v' : NumSt), NoSpace v' → numLoop st r s.advance v' = .ok s1 k b →
        (∀ st' s' x, s'.todo = c :: x → (v'.require = true → x.head? = r.head?) → numLoop st' (c :: x) s' v = numLoop st' x s'.advance v') →
        ∃ n, s1 = advN n s ∧ n ≤ (c :: r).length ∧ (v.require = true → 0 < n) ∧
          ∀ st' s' z, s'.todo = (c :: r).take n ++ z → Follow k ((c :: r).drop n) z → numLoop st' s'.todo s' v = .ok (advN n s') k b := by
      intro v' hv' h' hstep
      obtain ⟨n, h1, h2, h3, h4⟩ := ih s.advance v' st s1 k b e1 hv' h'
      refine ⟨n + 1, h1, by simp; omega, fun _ => by omega, fun st' s' z hz hf => ?_⟩
      have hz' : s'.todo = c :: (r.take n ++ z) := hz
      rw [hz', hstep st' s' _ hz']
      · have := h4 st' s'.advance z (by simp [hz']) hf
        rw [show s'.advance.todo = r.take n ++ z by simp [hz']] at this
        exact this
      · intro hr
        have h0 := h3 hr
        have := head_drop_take (z := z) h2 h0
        simpa using this
    rw [numLoop] at h
    by_cases c1 : v.allowed.contains c = true
    · rw [if_pos c1] at h
      exact step { v with require := false } hv h (fun st' s' x _ _ => by rw [numLoop, if_pos c1])
    rw [if_neg c1] at h
    by_cases c2 : v.forbidden.contains c = true
    · rw [if_pos c2] at h; exact absurd h noOk
    rw [if_neg c2] at h
    by_cases c3 : v.require = true
    · rw [if_pos c3] at h; exact absurd h noOk
    rw [if_neg c3] at h
    by_cases c4 : c = '_'
    · rw [if_pos c4] at h
      exact step { v with require := true } hv h (fun st' s' x _ _ => by rw [numLoop, if_neg c1, if_neg c2, if_neg c3, if_pos c4])
    rw [if_neg c4] at h
    have stop : s1 = s ∧ k = v.kind ∧ b = v.base → (c = '.' → s.nnc = some '.') → ∃ n, s1 = advN n s ∧ n ≤ (c :: r).length ∧ (v.require = true → 0 < n) ∧
          ∀ st' s' z, s'.todo = (c :: r).take n ++ z → Follow k ((c :: r).drop n) z → numLoop st' s'.todo s' v = .ok (advN n s') k b := by
      rintro ⟨rfl, rfl, rfl⟩ hdot
      refine ⟨0, rfl, by simp, fun e => absurd e c3, fun st' s' z hz hf => ?_⟩
      have hz' : s'.todo = z := hz
      rcases hf with ⟨-, hh, hd⟩ | ⟨-, d, z, rfl, hc⟩
      · cases z with
        | nil => cases hh
        | cons d z =>
          have : d = c := by simpa using hh
          subst this
          rw [hz', numLoop, if_neg c1, if_neg c2, if_neg c3, if_neg c4]
          by_cases c5 : d = '.'
          · subst c5
            have h1 := hdot rfl
            unfold LexState.nnc at h1
            rw [← hl] at h1
            have h2 := hd rfl h1
            rw [if_pos ⟨rfl, by unfold LexState.nnc; rw [hz']; exact h2⟩]
            rfl
          · rw [if_neg (by simp [c5]), if_neg c5]
            rfl
      · rw [hz', white st' s' v d z hv (by simpa using c3) hz' hc]
        rfl
    by_cases c5 : c = '.' ∧ s.nnc = some '.'
    · rw [if_pos c5] at h
      cases h
      exact stop ⟨rfl, rfl, rfl⟩ fun _ => c5.2
    rw [if_neg c5] at h
    by_cases c6 : c = '.'
    · rw [if_pos c6] at h
      split at h
      · next hd =>
        refine step { v with decimal := false, require := true, kind := .DECIMAL } hv h (fun st' s' x hx hr => ?_)
        rw [numLoop, if_neg c1, if_neg c2, if_neg c3, if_neg c4, if_neg, if_pos c6, if_pos hd]
        rintro ⟨-, h2⟩
        refine c5 ⟨c6, ?_⟩
        unfold LexState.nnc at h2 ⊢
        rw [hx] at h2
        rw [← hl]
        simp only [List.tail_cons] at h2 ⊢
        rw [← hr rfl]
        exact h2
      · exact absurd h noOk
    · rw [if_neg c6] at h
      cases h
      exact stop ⟨rfl, rfl, rfl⟩ fun e => absurd e c6

/-! ## Tests of the next characters -/

theorem nc_keep {s s' : LexState} {k : Kind} {n : Nat} {z : List Char} {x : Char} (hz : s'.todo = s.todo.take n ++ z)
    (hf : Follow k (s.todo.drop n) z) (hx : isSpace x = false) (h : s.nc ≠ some x) : s'.nc ≠ some x := by
  unfold LexState.nc at h ⊢
  rw [hz]
  intro e
  cases ht : s.todo with
  | nil =>
    rw [ht] at hf e
    rcases hf with ⟨h1, -⟩ | ⟨-, c, r, rfl, hc⟩
    · simp at h1
    · simp only [List.take_nil, List.nil_append, List.head?_cons, Option.some.injEq] at e
      rw [e, hx] at hc; cases hc
  | cons d t =>
    rw [ht] at hf e h
    cases n with
    | zero =>
      rcases hf with ⟨-, h2, -⟩ | ⟨-, c, r, rfl, hc⟩
      · exact h (h2.symm.trans e)
      · simp only [List.take_zero, List.nil_append, List.head?_cons, Option.some.injEq] at e
        rw [e, hx] at hc; cases hc
    | succ n => exact h e

theorem nc_same {s s' : LexState} {n : Nat} {z : List Char} (hz : s'.todo = s.todo.take (n + 1) ++ z) (h : s.todo ≠ []) : s'.nc = s.nc := by
  unfold LexState.nc
  rw [hz]
  cases ht : s.todo with
  | nil => exact absurd ht h
  | cons d t => rfl

theorem nnc_keep {s s' : LexState} {k : Kind} {n : Nat} {z : List Char} {x : Char} (hz : s'.todo = s.todo.take (n + 1) ++ z) (hne : s.todo ≠ [])
    (hf : Follow k (s.todo.drop (n + 1)) z) (hx : isSpace x = false) (h : s.nnc ≠ some x) : s'.nnc ≠ some x := by
  cases ht : s.todo with
  | nil => exact absurd ht hne
  | cons d t =>
    rw [ht] at hz hf
    have := nc_keep (s := s.advance) (s' := s'.advance) (n := n) (z := z) (k := k) (x := x) (by simp [hz, ht]) (by simpa [ht] using hf) hx
      (by unfold LexState.nc; unfold LexState.nnc at h; rw [ht] at h; simpa [ht] using h)
    unfold LexState.nc at this
    unfold LexState.nnc
    simpa using this

/-- a scan of at least one more character -/
def Stable1 (f : LexState → Scan) (s : LexState) : Prop :=
  ∀ s1 k b, f s = .ok s1 k b → ∃ n, s1 = advN (n + 1) s ∧ n + 1 ≤ s.todo.length ∧
    ∀ s' z, s'.cc = s.cc → s'.todo = s.todo.take (n + 1) ++ z → Follow k (s.todo.drop (n + 1)) z → f s' = .ok (advN (n + 1) s') k b

theorem Stable1.stable {f : LexState → Scan} {s : LexState} (h : Stable1 f s) : Stable f s := fun s1 k b e => by
  obtain ⟨n, h1, h2, h3⟩ := h s1 k b e
  exact ⟨n + 1, h1, fun _ => h2, h3⟩

theorem stable_self (k : Kind) (b : Nat) (s : LexState) : Stable (fun s => .ok s k b) s := by
  rintro s1 k b ⟨⟩
  exact ⟨0, rfl, fun _ => Nat.zero_le _, fun s' z _ _ _ => rfl⟩

theorem stable_adv (k : Kind) (b : Nat) {s : LexState} (h : s.todo ≠ []) : Stable1 (fun s => .ok s.advance k b) s := by
  rintro s1 k b ⟨⟩
  refine ⟨0, rfl, ?_, fun s' z _ _ _ => rfl⟩
  cases ht : s.todo with
  | nil => exact absurd ht h
  | cons d t => simp

theorem stable_err {f : LexState → Scan} {s : LexState} {e : LexErrKind} {a b : Nat} {t : LexState} (h : f s = lexError t e a b) : Stable f s :=
  fun _ _ _ e => absurd (h ▸ e) noOk

theorem stable_ite {p : Prop} [Decidable p] {f g : LexState → Scan} {s : LexState} (hf : p → Stable f s) (hg : ¬ p → Stable g s) :
    Stable (fun s => if p then f s else g s) s := by
  by_cases hp : p
  · simpa only [if_pos hp] using hf hp
  · simpa only [if_neg hp] using hg hp

theorem todo_ne {s : LexState} {x : Char} (h : s.nc = some x) : s.todo ≠ [] := by
  intro e
  unfold LexState.nc at h
  rw [e] at h
  cases h

theorem stable_nc {x : Char} {f g : LexState → Scan} {s : LexState} (hx : isSpace x = false) (hf : s.nc = some x → Stable1 f s)
    (hg : s.nc ≠ some x → Stable g s) : Stable (fun s => if s.nc = some x then f s else g s) s := by
  intro s1 k b h
  by_cases hp : s.nc = some x
  · dsimp only at h
    rw [if_pos hp] at h
    obtain ⟨n, h1, h2, h3⟩ := hf hp s1 k b h
    refine ⟨n + 1, h1, fun _ => h2, fun s' z hc hz hw => ?_⟩
    dsimp only
    rw [if_pos ((nc_same hz (todo_ne hp)).trans hp)]
    exact h3 s' z hc hz hw
  · dsimp only at h
    rw [if_neg hp] at h
    obtain ⟨n, h1, h2, h3⟩ := hg hp s1 k b h
    refine ⟨n, h1, h2, fun s' z hc hz hw => ?_⟩
    dsimp only
    rw [if_neg (nc_keep hz hw hx hp)]
    exact h3 s' z hc hz hw

theorem noSpace_of {l : List Char} (h : ∀ c ∈ l, isSpace c = false) {c : Char} (hc : isSpace c = true) : l.contains c = false := by
  rw [Bool.eq_false_iff]
  intro hm
  have := h c (by simpa using hm)
  rw [hc] at this
  cases this

theorem number_stable (c : Char) (s : LexState) : Stable (fun s => number s.lexpos s c) s := by
  have v1 : NoSpace ⟨['0','1'], ['2','3','4','5','6','7','8','9'] ++ hexLetters, 2, true, false, .INTEGER⟩ :=
    fun c h => ⟨noSpace_of (by decide) h, noSpace_of (by decide) h⟩
  have v2 : NoSpace ⟨decDigits ++ hexLetters, [], 16, true, false, .INTEGER⟩ :=
    fun c h => ⟨noSpace_of (by decide) h, rfl⟩
  have v3 : NoSpace ⟨decDigits, hexLetters, 10, false, true, .INTEGER⟩ :=
    fun c h => ⟨noSpace_of (by decide) h, noSpace_of (by decide) h⟩
  have adv : ∀ v, NoSpace v → s.todo ≠ [] → Stable1 (fun s => numLoop s.lexpos s.advance.todo s.advance v) s := by
    intro v hv hne s1 k b h
    obtain ⟨n, h1, h2, -, h4⟩ := numLoop_stable _ _ _ _ _ _ _ rfl hv h
    cases ht : s.todo with
    | nil => exact absurd ht hne
    | cons d t =>
      refine ⟨n, h1, by simp [ht] at h2 ⊢; omega, fun s' z _ hz hf => ?_⟩
      exact h4 _ s'.advance z (by simp [hz, ht]) (by simpa [ht] using hf)
  have noadv : Stable (fun s => numLoop s.lexpos s.todo s ⟨decDigits, hexLetters, 10, false, true, .INTEGER⟩) s := by
    intro s1 k b h
    obtain ⟨n, h1, h2, -, h4⟩ := numLoop_stable _ _ _ _ _ _ _ rfl v3 h
    exact ⟨n, h1, fun _ => h2, fun s' z _ hz hf => h4 _ s' z hz hf⟩
  unfold number
  dsimp only
  by_cases hc : c = '0'
  · simp only [hc, true_and]
    exact stable_nc rfl (fun h => adv _ v1 (todo_ne h)) fun _ => stable_nc rfl (fun h => adv _ v2 (todo_ne h)) fun _ => noadv
  · simpa only [hc, false_and, if_false] using noadv

theorem singleQuote_stable (s : LexState) : Stable (fun s => singleQuote s.lexpos s) s := by
  intro s1 k b h
  unfold singleQuote at h
  dsimp only at h
  cases ht : s.todo with
  | nil => rw [if_pos (by simp [ht])] at h; exact absurd h noOk
  | cons d t =>
    by_cases hd : d = '\''
    · rw [if_neg (by simp [ht, hd])] at h
      cases t with
      | nil => rw [if_pos (by simp [ht])] at h; exact absurd h noOk
      | cons e t =>
        by_cases he : e = '\''
        · rw [if_neg (by simp [ht, he])] at h
          obtain ⟨n, h1, h2, h3⟩ := tripleLoop_stable _ _ _ _ _ _ _ _ rfl h
          refine ⟨n + 2, h1, fun _ => by simp [ht] at h2 ⊢; omega, fun s' z _ hz hf => ?_⟩
          unfold singleQuote
          dsimp only
          have hz' : s'.todo = d :: e :: (t.take n ++ z) := by simpa using hz
          rw [if_neg (by simp [hz', hd]), if_neg (by simp [hz', he])]
          exact h3 _ s'.advance.advance z (by simp [hz', ht]) hf.ne
        · rw [if_pos (by simp [ht, he])] at h; exact absurd h noOk
    · rw [if_pos (by simp [ht, hd])] at h; exact absurd h noOk

theorem quote_stable (s : LexState) : Stable (fun s => if s.nc = some '"' ∧ s.nnc = some '"' then
    tripleLoop '"' s.lexpos s.advance.advance.todo s.advance.advance 0 else simpleString s.lexpos s.todo s) s := by
  intro s1 k b h
  dsimp only at h
  by_cases hp : s.nc = some '"' ∧ s.nnc = some '"'
  · rw [if_pos hp] at h
    obtain ⟨n, h1, h2, h3⟩ := tripleLoop_stable _ _ _ _ _ _ _ _ rfl h
    obtain ⟨p1, p2⟩ := hp
    unfold LexState.nc at p1
    unfold LexState.nnc at p2
    obtain ⟨t, ht⟩ : ∃ t, s.todo = '"' :: '"' :: t := by
      cases hs : s.todo with
      | nil => rw [hs] at p1; cases p1
      | cons d t =>
        cases t with
        | nil => rw [hs] at p2; cases p2
        | cons e t =>
          rw [hs] at p1 p2
          simp only [List.head?_cons, Option.some.injEq, List.tail_cons] at p1 p2
          exact ⟨t, by rw [p1, p2]⟩
    refine ⟨n + 2, h1, fun _ => by simp [ht] at h2 ⊢; omega, fun s' z _ hz hf => ?_⟩
    have hz' : s'.todo = '"' :: '"' :: (t.take n ++ z) := by simpa [ht] using hz
    dsimp only
    rw [if_pos (by unfold LexState.nc LexState.nnc; rw [hz']; simp)]
    exact h3 _ s'.advance.advance z (by simp [hz', ht]) hf.ne
  · rw [if_neg hp] at h
    obtain ⟨n, h1, h2, h3⟩ := simpleString_stable _ _ _ _ _ _ rfl h
    refine ⟨n + 1, h1, fun _ => h2, fun s' z _ hz hf => ?_⟩
    have hne : s.todo ≠ [] := by intro e; rw [e] at h2; simp at h2
    dsimp only
    rw [if_neg]
    · exact h3 _ s' z hz
    · rintro ⟨q1, q2⟩
      rw [nc_same hz hne] at q1
      exact nnc_keep hz hne hf rfl (fun e => hp ⟨q1, e⟩) q2

/-- a token is the same before other texts -/
theorem scan_stable {s : LexState} {c : Char} (hcc : s.cc = some c) : Stable (fun s => scan s c) s := by
  by_cases hc : c = '/'
  · subst hc
    by_cases h1 : s.nc = some '/'
    · intro s1 k b h
      unfold scan at h
      dsimp only at h
      rw [if_pos ⟨rfl, h1⟩] at h
      cases h
      obtain ⟨n, e1, e2⟩ := lineComment_stable s.todo s rfl (by rw [hcc]; rfl)
      refine ⟨n, e1, fun h => absurd rfl h, fun s' z hc' hz hf => ?_⟩
      unfold scan
      dsimp only
      have hn : n ≠ 0 := by
        rintro rfl
        have := congrArg LexState.pos e1
        cases ht : s.todo with
        | nil => exact todo_ne h1 ht
        | cons d t =>
          have hd : d = '/' := by unfold LexState.nc at h1; rw [ht] at h1; simpa using h1
          rw [ht, lineComment, if_pos ⟨by rw [hcc]; rfl, by rw [h1]; simp⟩] at this
          obtain ⟨j, -, hj⟩ := lineComment_eq t s.advance (by simp [ht])
          rw [hj] at this
          simp [advN] at this
          omega
      obtain ⟨n, rfl⟩ : ∃ m, n = m + 1 := ⟨n - 1, by omega⟩
      rw [if_pos ⟨rfl, (nc_same hz (todo_ne h1)).trans h1⟩]
      rw [e2 s' z (by rw [hc', hcc]; rfl) hz hf]
    · by_cases h2 : s.nc = some '*'
      · intro s1 k b h
        unfold scan at h
        dsimp only at h
        rw [if_neg (by simp [h1]), if_pos ⟨rfl, h2⟩] at h
        obtain ⟨n, e1, e2, e3⟩ := block_stable s s1 k b h
        refine ⟨n, e1, e2, fun s' z hc' hz hf => ?_⟩
        have hn : n ≠ 0 := by
          rintro rfl
          injection h with h
          rw [e1] at h
          have := congrArg LexState.pos h
          unfold blockComment at this
          obtain ⟨j, -, hj, -⟩ := advWhile_eq (fun s => !(s.cc == some '*' && s.nc == some '/')) s.todo s rfl
          rw [hj] at this
          simp [advN] at this
          omega
        obtain ⟨n, rfl⟩ : ∃ m, n = m + 1 := ⟨n - 1, by omega⟩
        have hs := (nc_same hz (todo_ne h2)).trans h2
        unfold scan
        dsimp only
        rw [if_neg (by rw [hs]; simp), if_pos ⟨rfl, hs⟩]
        exact e3 s' z hc' hz hf
      · intro s1 k b h
        unfold scan at h
        dsimp only at h
        rw [if_neg (by simp [h1]), if_neg (by simp [h2]), if_neg (by decide)] at h
        cases h
        refine ⟨0, rfl, fun _ => Nat.zero_le _, fun s' z hc' hz hf => ?_⟩
        unfold scan
        dsimp only
        rw [if_neg (by simp [nc_keep hz hf rfl h1]), if_neg (by simp [nc_keep hz hf rfl h2]), if_neg (by decide)]
        rfl
  · unfold scan
    simp only [hc, false_and, if_false]
    refine stable_ite (fun _ => word_stable s) fun _ => ?_
    cases punctuation c with
    | some k => exact stable_self _ _ _
    | none =>
      refine stable_ite (fun _ => ?_) fun _ => ?_
      · exact stable_nc rfl (fun h => stable_adv _ _ (todo_ne h)) fun _ => stable_nc rfl (fun h => stable_adv _ _ (todo_ne h)) fun _ =>
          stable_self _ _ _
      refine stable_ite (fun _ => stable_nc rfl (fun h => stable_adv _ _ (todo_ne h)) fun _ => stable_self _ _ _) fun _ => ?_
      refine stable_ite (fun _ => stable_nc rfl (fun h => stable_adv _ _ (todo_ne h)) fun _ => stable_self _ _ _) fun _ => ?_
      refine stable_ite (fun _ => stable_nc rfl (fun h => stable_adv _ _ (todo_ne h)) fun _ => stable_err rfl) fun _ => ?_
      refine stable_ite (fun _ => stable_nc rfl (fun h => stable_adv _ _ (todo_ne h)) fun _ => stable_self _ _ _) fun _ => ?_
      refine stable_ite (fun _ => quote_stable s) fun _ => ?_
      refine stable_ite (fun _ => singleQuote_stable s) fun _ => ?_
      exact stable_ite (fun _ => number_stable c s) fun _ => stable_err rfl

/-! ## Tokens -/

theorem finish_comment {k : Kind} {b : Nat} {x : List Char} (h : (finishToken k b x).1 ≠ .COMMENT) : k ≠ .COMMENT := by
  rintro rfl
  refine h ?_
  unfold finishToken
  dsimp only
  split <;> rfl

theorem follow_finish {k : Kind} {b : Nat} {w x z : List Char} (h : Follow (finishToken k b w).1 x z) : Follow k x z :=
  h.imp id fun ⟨h1, h2⟩ => ⟨finish_comment h1, h2⟩

theorem advN_skip {n : Nat} {s : LexState} (h : ∀ i < n, ∃ c, s.todo[i]? = some c ∧ isSpace c = true) :
    skipWhitespace s = skipWhitespace (advN n s) := by
  induction n generalizing s with
  | zero => rfl
  | succ n ih =>
    obtain ⟨c, h1, h2⟩ := h 0 (by omega)
    cases ht : s.todo with
    | nil => rw [ht] at h1; cases h1
    | cons d t =>
      rw [ht] at h1
      cases h1
      rw [skip_white ht h2]
      exact ih fun i hi => by simpa [ht] using h (i + 1) (by omega)

/-- the same token is read before another text -/
theorem token_stable {s s' s1 : LexState} {t : Token} (hi : Inv s) (hi' : Inv s') (h : token s = (.tok t, s1)) :
    ∃ j, 0 < j ∧ s1 = advN j s ∧ s.pos ≤ t.startPos ∧ t.startPos < s.pos + j ∧
      (j ≤ s.todo.length → t.endPos + 1 = s.pos + j) ∧ t.endPos + 1 ≤ s.pos + j ∧ (t.kind ≠ .COMMENT → j ≤ s.todo.length) ∧
      (∀ z, s'.todo = s.todo.take j ++ z → Follow t.kind (s.todo.drop j) z →
        ∃ t', token s' = (.tok t', advN j s') ∧ wordOf s'.content (.tok t') = wordOf s.content (.tok t)) := by
  obtain ⟨n, m, c, e1, e2, e3, hlt, hsp, hc, hns, -, -, k, b, hsc, es, hk⟩ := token_span hi h
  have hlen := inv_todo_length hi
  have hcc : (advN (n + 1) s).cc = some c := by rw [advN_cc, inv_todo_get hi]; exact hc
  obtain ⟨m', h1, h2, h3⟩ := scan_stable hcc s1 k b hsc
  obtain rfl : m' = m := by
    have := congrArg LexState.pos (es.symm.trans h1)
    simp at this
    omega
  have hk1 : t.kind = (finishToken k b (slice s.content t.startPos t.endPos)).1 := congrArg Prod.fst hk
  have hkc : t.kind ≠ .COMMENT → k ≠ .COMMENT := fun h => finish_comment (hk1 ▸ h)
  have hj : t.kind ≠ .COMMENT → n + 1 + m' ≤ s.todo.length := fun h => by
    have := h2 (hkc h)
    simp at this
    omega
  refine ⟨n + 1 + m', by omega, by rw [es, advN_add (n + 1) m' s], by omega, by omega, fun h => by omega, by omega, hj, fun z hz hf => ?_⟩
  have hle : n + 1 + m' ≤ s.todo.length := by
    rcases hf with ⟨hx, -⟩ | ⟨hx, -⟩
    · rcases Nat.lt_or_ge (n + 1 + m') s.todo.length with h | h
      · omega
      · exact absurd (List.drop_eq_nil_of_le h) hx
    · exact hj hx
  have hget : ∀ i < n + 1 + m', s'.todo[i]? = s.todo[i]? := fun i hi => by
    rw [hz, List.getElem?_append_left (by simp; omega), List.getElem?_take_of_lt hi]
  have hskip : skipWhitespace s' = advN (n + 1) s' := by
    rw [advN_skip (n := n), advN_succ]
    · have : s'.todo[n]? = some c := by rw [hget n (by omega), inv_todo_get hi]; exact hc
      obtain ⟨hl, he⟩ := List.getElem?_eq_some_iff.1 this
      exact skip_stop (by rw [advN_todo, List.drop_eq_getElem_cons hl, he]) hns
    · intro i hi'
      obtain ⟨d, h1, h2⟩ := hsp i hi'
      exact ⟨d, by rw [hget i (by omega), inv_todo_get hi]; exact h1, h2⟩
  have hcc' : (advN (n + 1) s').cc = some c := by rw [advN_cc, hget n (by omega), inv_todo_get hi]; exact hc
  have hscan := h3 (advN (n + 1) s') z (hcc'.trans hcc.symm)
    (by rw [advN_todo, advN_todo, hz, List.drop_append_of_le_length (by simp; omega), List.drop_take]; congr 2; omega)
    (by rw [advN_todo, List.drop_drop]; exact follow_finish (b := b) (by rw [← hk1]; exact hf))
  have hlen' := inv_todo_length hi'
  have hz2 : n + 1 + m' ≤ s'.todo.length := by rw [hz]; simp; omega
  have hd : s.content.drop (s.pos + n) = s.todo.drop n := by rw [hi.todo, List.drop_drop]
  have hd' : s'.content.drop (s'.pos + n) = s'.todo.drop n := by rw [hi'.todo, List.drop_drop]
  have htext : slice s'.content (s'.pos + n) (s'.pos + n + m') = slice s.content t.startPos t.endPos := by
    unfold slice
    rw [e1, hd, hd', hz, List.drop_append_of_le_length (by simp; omega), List.drop_take,
      show t.endPos + 1 - (s.pos + n) = m' + 1 by omega, show s'.pos + n + m' + 1 - (s'.pos + n) = m' + 1 by omega,
      List.take_append_of_le_length (by simp; omega), List.take_take]
    congr 1
    omega
  have hl1 : (advN (n + 1) s').lexpos = s'.pos + n := by unfold LexState.lexpos; simp
  have hl2 : (advN m' (advN (n + 1) s')).lexpos = s'.pos + n + m' := by unfold LexState.lexpos; simp; omega
  have hmin : min (s'.pos + n + m') (s'.content.length - 1) = s'.pos + n + m' := by omega
  unfold token
  rw [hskip]
  dsimp only
  rw [hcc']
  dsimp only
  dsimp only at hscan
  rw [hscan]
  dsimp only
  rw [hl1, hl2, advN_content, advN_content, hmin, htext, ← hk]
  refine ⟨_, by rw [advN_add (n + 1) m' s'], ?_⟩
  unfold wordOf
  dsimp only
  split
  · rfl
  · unfold literalText
    dsimp only
    split
    · unfold slice at htext
      rw [htext]
    · rfl

/-! ## Between the words -/

theorem tokens_after : ∀ (n : Nat) {s : LexState} {t : Token}, Inv s → t ∈ (tokensUpTo n s).1 →
    s.pos ≤ t.startPos ∧ t.startPos ≤ t.endPos := by
  intro n
  induction n with
  | zero => intro s t _ h; cases h
  | succ n ih =>
    intro s t hi h
    rw [tokensUpTo] at h
    rcases ht : token s with ⟨o, s1⟩
    rw [ht] at h
    cases o with
    | tok t0 =>
      obtain ⟨j, m, c, e1, e2, e3, h1, -⟩ := token_span hi ht
      rcases List.mem_cons.1 h with rfl | h
      · omega
      · have := ih (token_inv hi ht).1 h
        omega
    | eof => cases h
    | error k a b => cases h
    | crash => cases h

theorem token_dots {s s1 : LexState} {o : LexOut} {r : List Char} (hi : Inv s) (h : s.todo = '.' :: '.' :: r) (ht : token s = (o, s1)) :
    s1 = advN 2 s ∧ ∃ t, o = .tok t ∧ t.endPos = s.pos + 1 := by
  have hlen := inv_todo_length hi
  rw [h] at hlen
  simp only [List.length_cons] at hlen
  have hs : scan s.advance '.' = .ok s.advance.advance .RANGE 0 := by
    unfold scan
    have : s.advance.nc = some '.' := by unfold LexState.nc; simp [h]
    simp [this, isAlpha, punctuation]
  unfold token at ht
  rw [skip_stop h rfl] at ht
  dsimp only at ht
  rw [show s.advance.cc = some '.' by simp [h]] at ht
  dsimp only at ht
  rw [hs] at ht
  cases ht
  refine ⟨rfl, _, rfl, ?_⟩
  unfold LexState.lexpos
  simp
  omega

/-- The words do not depend on what is written between a word and the next one. -/
theorem wordsFrom_insert {Z1 Z2 : List Char} {L : List LWord}
    (hl1 : ∀ m (a : LexState), Inv a → a.todo = Z1 → Z1.length < m → wordsFrom m a = L)
    (hl2 : ∀ m (a : LexState), Inv a → a.todo = Z2 → Z2.length < m → wordsFrom m a = L)
    (hw : ∃ c r, Z2 = c :: r ∧ isSpace c = true) {t : Token} (hk : t.kind ≠ .COMMENT) : ∀ (n : Nat) {n' : Nat} {s s' : LexState} {X : List Char}, Inv s → Inv s' → s.todo = X ++ Z1 →
    s'.todo = X ++ Z2 → t ∈ (tokensUpTo n s).1 → t.endPos + 1 = s.pos + X.length → s.todo.length < n → s'.todo.length < n' →
    wordsFrom n' s' = wordsFrom n s := by
  intro n
  induction n with
  | zero => intro n' s s' X _ _ _ _ h; cases h
  | succ n ih =>
    intro n' s s' X hi hi' hs hs' hm he hn hn'
    obtain ⟨n', rfl⟩ : ∃ k, n' = k + 1 := ⟨n' - 1, by omega⟩
    rw [tokensUpTo] at hm
    rcases ht : token s with ⟨o, s1⟩
    rw [ht] at hm
    cases o with
    | eof => cases hm
    | error k a b => cases hm
    | crash => cases hm
    | tok t0 =>
      have hi1 := (token_inv hi ht).1
      rcases List.mem_cons.1 hm with rfl | hm
      · obtain ⟨j, j0, e1, e2, e3, e4, -, e5, e6⟩ := token_stable (s' := s') hi hi' ht
        obtain rfl : j = X.length := by have := e4 (e5 hk); omega
        have hd : s.todo.drop X.length = Z1 := by rw [hs, List.drop_left]
        have htk : s.todo.take X.length = X := by rw [hs, List.take_left]
        obtain ⟨t', h1, h2⟩ := e6 (Z2) (by rw [htk, hs']) (.inr ⟨hk, by
          obtain ⟨c, r, hr, hc⟩ := hw
          exact ⟨c, r, hr, hc⟩⟩)
        rw [wordsFrom_succ hi ht, wordsFrom_succ hi' h1, h2, if_neg (by simp), if_neg (by simp)]
        congr 1
        have l1 : s.todo.length = X.length + Z1.length := by rw [hs]; simp
        have l2 : s'.todo.length = X.length + Z2.length := by rw [hs']; simp
        rw [hl2 _ _ (inv_advN hi' _) (by rw [advN_todo, hs', List.drop_left]) (by omega),
          hl1 _ _ hi1 (by rw [e1, advN_todo, hd]) (by omega)]
      · obtain ⟨a1, a2⟩ := tokens_after n hi1 hm
        obtain ⟨j, j0, e1, e2, e3, -, e4, -, e6⟩ := token_stable (s' := s') hi hi' ht
        have hp : s1.pos = s.pos + j := by rw [e1]; simp
        have hj : j < X.length := by omega
        have hd : s.todo.drop j = X.drop j ++ Z1 := by
          rw [hs, List.drop_append_of_le_length (by omega)]
        have htk : s.todo.take j = X.take j := by
          rw [hs, List.take_append_of_le_length (by omega)]
        have hz : s'.todo = s.todo.take j ++ (X.drop j ++ Z2) := by
          rw [htk, hs', ← List.append_assoc, List.take_append_drop]
        have h1d : s1.todo = X.drop j ++ Z1 := by rw [e1, advN_todo, hd]
        have hlx : (X.drop j).length = X.length - j := by simp
        have hf : Follow t0.kind (s.todo.drop j) (X.drop j ++ Z2) := by
          left
          rw [hd]
          generalize hX : X.drop j = Y at *
          cases Y with
          | nil => simp at hlx; omega
          | cons d Y =>
            refine ⟨by simp, by simp, fun h1 h2 => ?_⟩
            cases Y with
            | cons f Y => exact h2
            | nil =>
              exfalso
              simp only [List.cons_append, List.head?_cons, Option.some.injEq] at h1
              subst h1
              simp only [List.cons_append, List.nil_append, List.tail_cons] at h2
              obtain ⟨r, hr⟩ : ∃ r, s1.todo = '.' :: '.' :: r := by
                cases hq : Z1 with
                | nil => rw [hq] at h2; cases h2
                | cons f r =>
                  rw [hq] at h2
                  have : f = '.' := by simpa using h2
                  exact ⟨r, by rw [h1d, hq, this]; rfl⟩
              have hend : s1.pos + 1 ≤ t.endPos := by
                cases n with
                | zero => cases hm
                | succ n =>
                  rw [tokensUpTo] at hm
                  rcases ht1 : token s1 with ⟨o, s2⟩
                  rw [ht1] at hm
                  obtain ⟨g1, t2, rfl, g2⟩ := token_dots hi1 hr ht1
                  rcases List.mem_cons.1 hm with rfl | hm
                  · omega
                  · obtain ⟨b1, b2⟩ := tokens_after n (token_inv hi1 ht1).1 hm
                    have : s2.pos = s1.pos + 2 := by rw [g1]; simp
                    omega
              simp only [List.length_cons, List.length_nil] at hlx
              omega
        obtain ⟨t', h1, h2⟩ := e6 _ hz hf
        rw [wordsFrom_succ hi ht, wordsFrom_succ hi' h1, h2, if_neg (by simp), if_neg (by simp)]
        congr 1
        have l1 : s1.todo.length = s.todo.length - j := by rw [e1]; simp
        have l2 : (advN j s').todo.length = s'.todo.length - j := by simp
        refine ih hi1 (inv_advN hi' _) h1d ?_ hm (by omega) ?_ ?_
        · rw [advN_todo, hs', List.drop_append_of_le_length (by omega)]
        · rw [hs] at hn l1; simp at hn l1; omega
        · rw [hs'] at hn' l2; simp at hn' l2 ⊢; omega

/-! ## At the end of the file -/

theorem lineComment_end : ∀ (body : List Char) {s : LexState}, s.todo = body → s.cc.isSome = true → '\n' ∉ body →
    (lineComment s.todo s).todo = []
  | [], s, h, hc, _ => by
    rw [h, lineComment, if_pos hc]
    simp [h]
  | c :: body, s, h, hc, hn => by
    have hne : c ≠ '\n' := fun e => hn (by simp [e])
    rw [h, lineComment, if_pos ⟨hc, by unfold LexState.nc; rw [h]; simpa using hne⟩]
    have := lineComment_end body (s := s.advance) (by simp [h]) (by simp [h]) (fun e => hn (by simp [e]))
    rwa [show s.advance.todo = body by simp [h]] at this

theorem wordsFrom_ending {w : List Char} (hw : Ending w) {n : Nat} {s : LexState} (hi : Inv s) (h : s.todo = w) (hn : w.length < n) :
    wordsFrom n s = [] := by
  cases hw with
  | gap hg =>
    rw [wordsFrom_gap (r := []) hg (inv_init []) hi (by simpa using h) rfl (n := 1) (by simp) (by simpa using hn)]
    exact wordsFrom_zero_todo (inv_init []) rfl
  | @comment w body hg hb =>
    have hi0 := inv_init ('/' :: '/' :: body)
    rw [wordsFrom_gap hg hi0 hi h rfl (n := body.length + 3) (by simp) (by simp at hn ⊢; omega)]
    have h0 : (LexState.init ('/' :: '/' :: body)).todo = '/' :: '/' :: body := rfl
    generalize LexState.init ('/' :: '/' :: body) = a at hi0 h0 ⊢
    have e : a.advance.todo = '/' :: body := by simp [h0]
    have hs : scan a.advance '/' = .ok (lineComment a.advance.todo a.advance) .COMMENT 0 := by
      unfold scan
      rw [if_pos ⟨rfl, by unfold LexState.nc; rw [e]; rfl⟩]
    obtain ⟨t, h1, h2⟩ := token_comment h0 rfl hs
    rw [wordsFrom_comment hi0 h1 h2]
    exact wordsFrom_zero_todo (token_inv hi0 h1).1 (lineComment_end ('/' :: body) e (by simp [h0]) (by simp [hb]))

end Verif.Lemmas.LexShift
