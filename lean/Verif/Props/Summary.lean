import Verif.Model.Summary
import Verif.Spec.Summary
import Verif.Props.ExampleNumbers
import Verif.Props.ProjectRun
/-!
# C91: the summary and the list of files
-/
namespace Verif.Props
open Verif.Model Verif.Spec

/-! ## Words -/

theorem spaced_cons {w : List Char} {ws : List (List Char)} (h : ws ≠ []) : spaced (w :: ws) = w ++ ' ' :: spaced ws := by
  cases ws with
  | nil => exact absurd rfl h
  | cons v vs => rfl

theorem hasWords_unique {t : List Char} {ws vs : List (List Char)} (h : HasWords t ws) (h' : HasWords t vs) : ws = vs := by
  obtain ⟨rfl, h1, h2⟩ := h
  obtain ⟨e, h3, h4⟩ := h'
  induction ws generalizing vs with
  | nil => exact absurd rfl h1
  | cons w ws ih =>
    cases vs with
    | nil => exact absurd rfl h3
    | cons v vs =>
      by_cases hw : ws = []
      · subst hw
        by_cases hv : vs = []
        · subst hv
          rw [show w = v from e]
        · rw [spaced_cons hv] at e
          have e : w = v ++ ' ' :: spaced vs := e
          exact absurd (e ▸ (by simp)) (h2 w (by simp))
      · rw [spaced_cons hw] at e
        by_cases hv : vs = []
        · subst hv
          have e : w ++ ' ' :: spaced ws = v := e
          exact absurd (e ▸ (by simp)) (h4 v (by simp))
        · rw [spaced_cons hv] at e
          obtain ⟨e1, e2⟩ := first_split (h2 w (by simp)) (h4 v (by simp)) e
          rw [e1, ih hw (fun x hx => h2 x (by simp [hx])) e2 hv (fun x hx => h4 x (by simp [hx]))]

theorem adjacent_iff {t a b : List Char} {ws : List (List Char)} (h : HasWords t ws) :
    Adjacent t a b ↔ (a, b) ∈ ws.zip ws.tail := by
  have key : ∀ ws : List (List Char), (∃ l r, ws = l ++ a :: b :: r) ↔ (a, b) ∈ ws.zip ws.tail := by
    intro ws
    induction ws with
    | nil => simp
    | cons w ws ih =>
      cases ws with
      | nil =>
        simp only [List.tail_cons, List.zip_nil_right, List.not_mem_nil, iff_false]
        rintro ⟨l, r, e⟩
        have := congrArg List.length e
        simp at this
        omega
      | cons v vs =>
        simp only [List.tail_cons, List.zip_cons_cons, List.mem_cons, Prod.mk.injEq] at ih ⊢
        rw [← ih]
        constructor
        · rintro ⟨l, r, e⟩
          cases l with
          | nil =>
            simp only [List.nil_append, List.cons.injEq] at e
            exact .inl ⟨e.1.symm, e.2.1.symm⟩
          | cons x l =>
            simp only [List.cons_append, List.cons.injEq] at e
            exact .inr ⟨l, r, e.2⟩
        · rintro (⟨rfl, rfl⟩ | ⟨l, r, e⟩)
          · exact ⟨[], vs, rfl⟩
          · exact ⟨w :: l, r, by rw [e]; rfl⟩
  rw [← key]
  constructor
  · rintro ⟨l, r, h'⟩
    exact ⟨l, r, hasWords_unique h h'⟩
  · rintro ⟨l, r, rfl⟩
    exact ⟨l, r, h⟩

theorem natText_digits (n : Nat) : natText n ≠ [] ∧ ∀ c ∈ natText n, c.isDigit = true := by
  have key : ∀ d < 10, (digitText d).isDigit = true := by decide
  unfold natText
  split
  · decide
  · next h =>
    refine ⟨by simpa using Nat.digits_ne_nil_iff_ne_zero.2 h, ?_⟩
    intro c hc
    obtain ⟨d, hd, rfl⟩ := List.mem_map.1 hc
    exact key d (Nat.digits_lt_base (by norm_num) (List.mem_reverse.1 hd))

theorem natText_free {c : Char} (h : c.isDigit = false) (n : Nat) : c ∉ natText n := fun hc => by
  rw [(natText_digits n).2 c hc] at h
  cases h

theorem natText_ne_word {c : Char} {w : List Char} (h : c.isDigit = false) (n : Nat) : natText n ≠ c :: w := fun e =>
  natText_free h n (e ▸ List.mem_cons_self)

/-! ## The summary -/

theorem countText_split {p t p' t' : Nat} {c : Char} {w x x' : List Char} {v : String} (hv : v.toList = c :: w)
    (hc : c ≠ '(') (h : countText p t v ++ x = countText p' t' v ++ x') (hp : p ≤ t) (hp' : p' ≤ t') :
    p = p' ∧ t = t' ∧ x = x' := by
  unfold countText at h
  rw [hv] at h
  have hs : ∀ (a : Nat) (b : List Char), ' ' ∉ natText a := fun a _ => natText_free (by decide) a
  have hb : ∀ a : Nat, ')' ∉ natText a := fun a => natText_free (by decide) a
  by_cases h1 : p < t <;> by_cases h2 : p' < t'
  · simp only [h1, h2, if_true] at h
    rw [show " (of ".toList = ' ' :: "(of ".toList from rfl] at h
    simp only [List.append_assoc, List.cons_append] at h
    obtain ⟨e1, e2⟩ := first_split (hs p []) (hs p' []) h
    have e2 := List.append_cancel_left e2
    simp only [List.nil_append] at e2
    obtain ⟨e3, e4⟩ := first_split (hb t) (hb t') e2
    have e3 := natText_inj e3
    subst e3
    refine ⟨natText_inj e1, rfl, ?_⟩
    simpa using e4
  · simp only [h1, h2, if_true, if_false] at h
    rw [show " (of ".toList = ' ' :: '(' :: "of ".toList from rfl] at h
    simp only [List.append_assoc, List.cons_append, List.nil_append] at h
    obtain ⟨e1, e2⟩ := first_split (hs p []) (hs p' []) h
    exact absurd (List.cons.inj e2).1.symm hc
  · simp only [h1, h2, if_true, if_false] at h
    rw [show " (of ".toList = ' ' :: '(' :: "of ".toList from rfl] at h
    simp only [List.append_assoc, List.cons_append, List.nil_append] at h
    obtain ⟨e1, e2⟩ := first_split (hs p []) (hs p' []) h
    exact absurd (List.cons.inj e2).1 hc
  · simp only [h1, h2, if_false] at h
    simp only [List.append_assoc, List.cons_append, List.nil_append] at h
    obtain ⟨e1, e2⟩ := first_split (hs p []) (hs p' []) h
    have e1 := natText_inj e1
    have e3 : t = t' := by omega
    subst e3
    refine ⟨e1, rfl, ?_⟩
    simpa using e2

/-- the singular or plural of a word -/
def plural (w : String) (n : Nat) : List Char := w.toList ++ (if n = 0 ∨ n > 1 then ['s'] else [])

/-- the words for a number of files -/
def countWords (p t : Nat) (w : List (List Char)) : List (List Char) :=
  natText p :: ((if p < t then ["(of".toList, natText t ++ [')']] else []) ++ w)

/-- the words for issues -/
def issueWords (w e : Nat) : List (List Char) :=
  if e ≠ 0 ∧ w ≠ 0 then [natText w, plural "warning" w, "and".toList, natText e, plural "error" e]
  else if w ≠ 0 then [natText w, plural "warning" w]
  else if e ≠ 0 then [natText e, plural "error" e]
  else ["no".toList, "issues".toList]

/-- all words -/
def summaryWords (skip : Bool) (c : Counts) : List (List Char) :=
  "Processed".toList :: (countWords c.parsedModels c.totalModels [plural "model" c.totalModels] ++
    ((if skip then [] else "and".toList :: countWords c.parsedTrlc c.totalTrlc ["requirement".toList, plural "file" c.totalTrlc]) ++
    (["and".toList, "found".toList] ++ (issueWords c.warnings c.errors ++
    (if c.suppressed ≠ 0 then ["with".toList, natText c.suppressed, "supressed".toList, "messages".toList] else [])))))

theorem spaced_append {a b : List (List Char)} (ha : a ≠ []) (hb : b ≠ []) :
    spaced (a ++ b) = spaced a ++ ' ' :: spaced b := by
  induction a with
  | nil => exact absurd rfl ha
  | cons x a ih =>
    by_cases h : a = []
    · subst h
      exact spaced_cons hb
    · rw [List.cons_append, spaced_cons (by simp [h]), spaced_cons h, ih h]
      simp

theorem spaced_count (p t : Nat) (w : String) (ws : List (List Char)) (hw : spaced ws = plural w t) (h0 : ws ≠ []) :
    spaced (countWords p t ws) = countText p t w := by
  unfold countWords countText
  split
  · rw [spaced_cons (by simp), List.cons_append, spaced_cons (by simp), List.cons_append, spaced_cons (by simpa using h0),
      List.nil_append, hw]
    unfold plural
    simp only [List.append_assoc, List.cons_append, List.nil_append, show " (of ".toList = ' ' :: "(of".toList ++ [' '] from rfl]
  · rw [List.nil_append, spaced_cons h0, hw]
    unfold plural
    simp

theorem spaced_two (a b : List Char) : spaced [a, b] = a ++ ' ' :: b := rfl

theorem issueWords_ne (w e : Nat) : issueWords w e ≠ [] := by
  unfold issueWords
  split
  · simp
  · split
    · simp
    · split <;> simp

theorem spaced_issues (w e : Nat) : ' ' :: spaced (issueWords w e) = issuesText w e := by
  have one : ∀ (n : Nat) (s : String), countText n n s = natText n ++ ' ' :: plural s n := by
    intro n s
    unfold countText plural
    simp
  unfold issueWords issuesText
  split
  · rw [one, one]
    simp only [spaced, List.append_assoc, List.cons_append, List.nil_append, show " and ".toList = ' ' :: "and".toList ++ [' '] from rfl]
  · split
    · rw [one]; rfl
    · split
      · rw [one]; rfl
      · rfl

theorem appL {α : Type} {a b : List α} (h : a ≠ []) : a ++ b ≠ [] := by
  cases a with
  | nil => exact absurd rfl h
  | cons x a => exact List.cons_ne_nil _ _

theorem appR {α : Type} {a b : List α} (h : b ≠ []) : a ++ b ≠ [] := by
  cases a with
  | nil => exact h
  | cons x a => exact List.cons_ne_nil _ _

theorem summary_words (skip : Bool) (c : Counts) : HasWords (summary skip c) (summaryWords skip c) := by
  refine ⟨?_, List.cons_ne_nil _ _, ?_⟩
  · unfold summary summaryWords
    have hm := spaced_count c.parsedModels c.totalModels "model" [plural "model" c.totalModels] rfl (by simp)
    have ht := spaced_count c.parsedTrlc c.totalTrlc "requirement file" ["requirement".toList, plural "file" c.totalTrlc]
      (by unfold plural; rw [spaced_two]; simp only [List.append_assoc, List.cons_append, List.nil_append, show "requirement file".toList = "requirement".toList ++ ' ' :: "file".toList from rfl]) (by simp)
    have hne : ∀ p t (w : List (List Char)), countWords p t w ≠ [] := fun p t w => List.cons_ne_nil _ _
    have e0 : ∀ rest : List (List Char), spaced (["and".toList, "found".toList] ++ (issueWords c.warnings c.errors ++ rest)) =
        "and found".toList ++ ' ' :: spaced (issueWords c.warnings c.errors ++ rest) := by
      intro rest
      rw [spaced_append (List.cons_ne_nil _ _) (appL (issueWords_ne _ _))]
      rfl
    rw [spaced_cons (appL (hne _ _ _)), spaced_append (hne _ _ _) (appR (appL (List.cons_ne_nil _ _))), hm]
    have e1 : spaced (issueWords c.warnings c.errors ++ (if c.suppressed ≠ 0 then ["with".toList, natText c.suppressed,
          "supressed".toList, "messages".toList] else [])) =
        spaced (issueWords c.warnings c.errors) ++ (if c.suppressed ≠ 0 then " with ".toList ++ (natText c.suppressed ++
          " supressed messages".toList) else []) := by
      split
      · rw [spaced_append (issueWords_ne _ _) (List.cons_ne_nil _ _)]
        simp only [spaced, List.append_assoc, List.cons_append, List.nil_append, show " with ".toList = ' ' :: "with".toList ++ [' '] from rfl,
          show " supressed messages".toList = ' ' :: "supressed".toList ++ ' ' :: "messages".toList from rfl]
      · simp
    cases skip with
    | true =>
      simp only [if_true, List.nil_append]
      rw [e0, e1]
      rw [← spaced_issues]
      simp only [List.append_assoc, List.cons_append, List.nil_append, show " and found".toList = ' ' :: "and found".toList from rfl, show "Processed ".toList = "Processed".toList ++ [' '] from rfl]
    | false =>
      simp only [Bool.false_eq_true, if_false]
      rw [spaced_append (List.cons_ne_nil _ _) (appL (List.cons_ne_nil _ _)), spaced_cons (hne _ _ _), ht, e0, e1, ← spaced_issues]
      simp only [List.append_assoc, List.cons_append, List.nil_append, show " and found".toList = ' ' :: "and found".toList from rfl, show "Processed ".toList = "Processed".toList ++ [' '] from rfl,
        show " and ".toList = ' ' :: "and".toList ++ [' '] from rfl]
  · have hn : ∀ n, ' ' ∉ natText n := natText_free (by decide)
    have hp : ∀ (w : String) n, ' ' ∉ w.toList → ' ' ∉ plural w n := by
      intro w n h
      unfold plural
      split <;> simp [h]
    have hc : ∀ p t (w : List (List Char)), (∀ x ∈ w, ' ' ∉ x) → ∀ x ∈ countWords p t w, ' ' ∉ x := by
      intro p t w hw x hx
      unfold countWords at hx
      rcases List.mem_cons.1 hx with rfl | hx
      · exact hn _
      · rcases List.mem_append.1 hx with hx | hx
        · split at hx
          · simp only [List.mem_cons, List.not_mem_nil, or_false] at hx
            rcases hx with rfl | rfl
            · decide
            · simp [hn]
          · cases hx
        · exact hw x hx
    intro x hx
    unfold summaryWords at hx
    simp only [List.mem_cons, List.mem_append] at hx
    rcases hx with rfl | hx | hx | hx | hx | hx
    · decide
    · exact hc _ _ _ (by simpa using hp _ _ (by decide)) x hx
    · split at hx
      · cases hx
      · rcases List.mem_cons.1 hx with rfl | hx
        · decide
        · refine hc _ _ _ ?_ x hx
          simp only [List.mem_cons, List.not_mem_nil, or_false, forall_eq_or_imp, forall_eq]
          exact ⟨by decide, hp _ _ (by decide)⟩
    · simp only [List.not_mem_nil, or_false] at hx
      rcases hx with rfl | rfl <;> decide
    · unfold issueWords at hx
      split at hx
      · simp only [List.mem_cons, List.not_mem_nil, or_false] at hx
        rcases hx with rfl | rfl | rfl | rfl | rfl
        · exact hn _
        · exact hp _ _ (by decide)
        · decide
        · exact hn _
        · exact hp _ _ (by decide)
      · split at hx
        · simp only [List.mem_cons, List.not_mem_nil, or_false] at hx
          rcases hx with rfl | rfl
          · exact hn _
          · exact hp _ _ (by decide)
        · split at hx
          · simp only [List.mem_cons, List.not_mem_nil, or_false] at hx
            rcases hx with rfl | rfl
            · exact hn _
            · exact hp _ _ (by decide)
          · simp only [List.mem_cons, List.not_mem_nil, or_false] at hx
            rcases hx with rfl | rfl <;> decide
    · split at hx
      · simp only [List.mem_cons, List.not_mem_nil, or_false] at hx
        rcases hx with rfl | rfl | rfl | rfl
        · decide
        · exact hn _
        · decide
        · decide
      · cases hx

/-! ### What can be read from it -/

theorem countWords_split {p t p' t' : Nat} {W : Nat → List (List Char)} {x x' : List (List Char)}
    (hW : ∀ t, ∃ c r, W t = c :: r ∧ c ≠ "(of".toList) (h : countWords p t (W t) ++ x = countWords p' t' (W t') ++ x')
    (hp : p ≤ t) (hp' : p' ≤ t') : p = p' ∧ t = t' ∧ x = x' := by
  unfold countWords at h
  rw [List.cons_append, List.cons_append] at h
  obtain ⟨e1, e2⟩ := List.cons.inj h
  have e1 := natText_inj e1
  obtain ⟨c, r, hc, hn⟩ := hW t
  obtain ⟨c', r', hc', hn'⟩ := hW t'
  by_cases h1 : p < t <;> by_cases h2 : p' < t'
  · rw [if_pos h1, if_pos h2] at e2
    obtain ⟨-, e3⟩ := List.cons.inj e2
    obtain ⟨e4, e5⟩ := List.cons.inj e3
    have e4 := natText_inj (List.append_cancel_right e4)
    subst e4
    exact ⟨e1, rfl, List.append_cancel_left e5⟩
  · rw [if_pos h1, if_neg h2, hc'] at e2
    exact absurd (List.cons.inj e2).1.symm hn'
  · rw [if_neg h1, if_pos h2, hc] at e2
    exact absurd (List.cons.inj e2).1 hn
  · rw [if_neg h1, if_neg h2] at e2
    have e3 : t = t' := by omega
    subst e3
    exact ⟨e1, rfl, List.append_cancel_left e2⟩

/-- the words at the end -/
def suppressedWords (n : Nat) : List (List Char) :=
  if n ≠ 0 then ["with".toList, natText n, "supressed".toList, "messages".toList] else []

theorem suppressedWords_inj {n m : Nat} (h : suppressedWords n = suppressedWords m) : n = m := by
  unfold suppressedWords at h
  split at h <;> split at h
  · exact natText_inj (List.cons.inj (List.cons.inj h).2).1
  · cases h
  · cases h
  · omega

theorem suppressedWords_and (n : Nat) {ws : List (List Char)} : suppressedWords n ≠ "and".toList :: ws := by
  unfold suppressedWords
  split
  · intro h
    exact absurd (List.cons.inj h).1 (by decide)
  · intro h; cases h

theorem plural_ne {c d : Char} {w v : String} {x y : List Char} (hw : w.toList = c :: x) (hv : v.toList = d :: y) (h : c ≠ d)
    (n m : Nat) : plural w n ≠ plural v m := by
  unfold plural
  rw [hw, hv]
  intro e
  exact h (List.cons.inj e).1

theorem issueWords_split {w e w' e' n n' : Nat}
    (h : issueWords w e ++ suppressedWords n = issueWords w' e' ++ suppressedWords n') : w = w' ∧ e = e' ∧ n = n' := by
  have hwe : ∀ a b, plural "warning" a ≠ plural "error" b := plural_ne rfl rfl (by decide)
  have hno : ∀ a, natText a ≠ "no".toList := fun a => natText_ne_word (by decide) a
  unfold issueWords at h
  by_cases h1 : e = 0 <;> by_cases h2 : w = 0 <;> by_cases h3 : e' = 0 <;> by_cases h4 : w' = 0 <;>
    simp only [h1, h2, h3, h4, ne_eq, not_true_eq_false, not_false_eq_true, and_self, and_true, and_false, true_and,
      if_true, if_false, List.cons_append, List.nil_append, List.cons.injEq] at h
  all_goals try exact absurd h.1 (hno _)
  all_goals try exact absurd h.1.symm (hno _)
  all_goals try exact absurd h.2.1 (hwe _ _)
  all_goals try exact absurd h.2.1.symm (hwe _ _)
  all_goals try exact absurd h.2.2 (suppressedWords_and _)
  all_goals try exact absurd h.2.2.symm (suppressedWords_and _)
  · exact ⟨h2.trans h4.symm, h1.trans h3.symm, suppressedWords_inj h⟩
  · exact ⟨natText_inj h.1, h1.trans h3.symm, suppressedWords_inj h.2.2⟩
  · exact ⟨h2.trans h4.symm, natText_inj h.1, suppressedWords_inj h.2.2⟩
  · exact ⟨natText_inj h.1, natText_inj h.2.2.1, suppressedWords_inj h.2.2.2.2⟩

/-- **C91**: two summaries with the same text are about the same numbers. -/
theorem C91_numbers {skip : Bool} {c c' : Counts} (h : summary skip c = summary skip c')
    (hm : c.parsedModels ≤ c.totalModels) (hm' : c'.parsedModels ≤ c'.totalModels)
    (ht : c.parsedTrlc ≤ c.totalTrlc) (ht' : c'.parsedTrlc ≤ c'.totalTrlc)
    (hs : skip = true → c.parsedTrlc = c'.parsedTrlc ∧ c.totalTrlc = c'.totalTrlc) : c = c' := by
  have e := hasWords_unique (summary_words skip c) (h ▸ summary_words skip c')
  unfold summaryWords at e
  obtain ⟨-, e⟩ := List.cons.inj e
  obtain ⟨e1, e2, e⟩ := countWords_split (W := fun t => [plural "model" t])
    (fun t => ⟨_, _, rfl, by
      unfold plural
      intro h
      exact absurd (List.cons.inj h).1 (by decide)⟩) e hm hm'
  have key : (c.parsedTrlc = c'.parsedTrlc ∧ c.totalTrlc = c'.totalTrlc) ∧ issueWords c.warnings c.errors ++
      suppressedWords c.suppressed = issueWords c'.warnings c'.errors ++ suppressedWords c'.suppressed := by
    cases skip with
    | true => exact ⟨hs rfl, (List.cons.inj (List.cons.inj e).2).2⟩
    | false =>
      simp only [Bool.false_eq_true, if_false] at e
      rw [List.cons_append, List.cons_append] at e
      obtain ⟨-, e⟩ := List.cons.inj e
      obtain ⟨e1, e2, e⟩ := countWords_split (W := fun t => ["requirement".toList, plural "file" t])
        (fun t => ⟨_, _, rfl, by decide⟩) e ht ht'
      exact ⟨⟨e1, e2⟩, (List.cons.inj (List.cons.inj e).2).2⟩
  obtain ⟨⟨e3, e4⟩, e⟩ := key
  obtain ⟨e5, e6, e7⟩ := issueWords_split e
  cases c
  cases c'
  simp only [Counts.mk.injEq]
  exact ⟨e1, e2, e3, e4, e5, e6, e7⟩

/-! ### The words for issues -/

theorem pairs_front {a b f : List Char} {A Y : List (List Char)} (h : ∀ x ∈ A, x ≠ b) (hf : f ≠ b) :
    (a, b) ∈ (A ++ f :: Y).zip (A ++ f :: Y).tail ↔ (a, b) ∈ (f :: Y).zip Y := by
  induction A with
  | nil => rfl
  | cons x A ih =>
    rw [← ih (fun y hy => h y (List.mem_cons_of_mem _ hy))]
    cases A with
    | nil => simp [Ne.symm hf]
    | cons y A => simp [Ne.symm (h y (by simp))]

theorem pairs_back {a b : List Char} {Z S : List (List Char)} (h : ∀ x ∈ S, x ≠ b) :
    (a, b) ∈ (Z ++ S).zip (Z ++ S).tail ↔ (a, b) ∈ Z.zip Z.tail := by
  induction Z with
  | nil =>
    simp only [List.nil_append, List.zip_nil_left, List.not_mem_nil, iff_false]
    intro hm
    exact h b (List.mem_of_mem_tail (List.of_mem_zip hm).2) rfl
  | cons x Z ih =>
    cases Z with
    | nil =>
      simp only [List.cons_append, List.nil_append, List.tail_cons, List.zip_nil_right, List.not_mem_nil, iff_false]
      intro hm
      exact h b (List.of_mem_zip hm).2 rfl
    | cons y Z =>
      simp only [List.cons_append, List.tail_cons, List.zip_cons_cons, List.mem_cons] at ih ⊢
      rw [ih]

/-- the words that speak of issues -/
def issueNames : List String := ["error", "errors", "warning", "warnings", "issues"]

theorem adjacent_issues {skip : Bool} {c : Counts} {a : List Char} {b : String} (hb : b ∈ issueNames) :
    Adjacent (summary skip c) a b.toList ↔
      (a, b.toList) ∈ ("found".toList :: issueWords c.warnings c.errors).zip (issueWords c.warnings c.errors) := by
  rw [adjacent_iff (summary_words skip c)]
  have hlit : ∀ w ∈ ["Processed", "and", "found", "(of", "requirement", "with", "supressed", "messages"], w.toList ≠ b.toList := by
    intro w hw
    simp only [issueNames, List.mem_cons, List.not_mem_nil, or_false] at hb hw
    rcases hb with rfl | rfl | rfl | rfl | rfl <;> rcases hw with rfl | rfl | rfl | rfl | rfl | rfl | rfl | rfl <;> decide
  have hfirst : ∃ d x, b.toList = d :: x ∧ d.isDigit = false ∧ d ≠ 'm' ∧ d ≠ 'f' := by
    simp only [issueNames, List.mem_cons, List.not_mem_nil, or_false] at hb
    rcases hb with rfl | rfl | rfl | rfl | rfl
    · exact ⟨'e', "rror".toList, rfl, by decide⟩
    · exact ⟨'e', "rrors".toList, rfl, by decide⟩
    · exact ⟨'w', "arning".toList, rfl, by decide⟩
    · exact ⟨'w', "arnings".toList, rfl, by decide⟩
    · exact ⟨'i', "ssues".toList, rfl, by decide⟩
  obtain ⟨d, x, hd, h1, h2, h3⟩ := hfirst
  have hnat : ∀ n, natText n ≠ b.toList := fun n => by rw [hd]; exact natText_ne_word h1 n
  have hnat' : ∀ n y, natText n ++ y ≠ b.toList := fun n y => by
    rw [hd]
    intro e
    obtain ⟨k1, k2⟩ := natText_digits n
    cases hn : natText n with
    | nil => exact k1 hn
    | cons z zs =>
      rw [hn] at e k2
      have := k2 z (by simp)
      rw [(List.cons.inj e).1, h1] at this
      cases this
  have hmodel : ∀ n, plural "model" n ≠ b.toList := fun n => by
    rw [hd]
    intro e
    exact h2 (List.cons.inj e).1.symm
  have hfile : ∀ n, plural "file" n ≠ b.toList := fun n => by
    rw [hd]
    intro e
    exact h3 (List.cons.inj e).1.symm
  have hcount : ∀ p t (w : List (List Char)), (∀ y ∈ w, y ≠ b.toList) → ∀ y ∈ countWords p t w, y ≠ b.toList := by
    intro p t w hw y hy
    unfold countWords at hy
    rcases List.mem_cons.1 hy with rfl | hy
    · exact hnat _
    · rcases List.mem_append.1 hy with hy | hy
      · split at hy
        · simp only [List.mem_cons, List.not_mem_nil, or_false] at hy
          rcases hy with rfl | rfl
          · exact hlit "(of" (by decide)
          · exact hnat' _ _
        · cases hy
      · exact hw y hy
  have hshape : summaryWords skip c = (("Processed".toList :: (countWords c.parsedModels c.totalModels [plural "model" c.totalModels] ++
      (if skip then [] else "and".toList :: countWords c.parsedTrlc c.totalTrlc ["requirement".toList, plural "file" c.totalTrlc]))) ++
      ["and".toList]) ++ "found".toList :: (issueWords c.warnings c.errors ++ suppressedWords c.suppressed) := by
    unfold summaryWords suppressedWords
    simp only [List.append_assoc, List.cons_append, List.nil_append]
  rw [hshape, pairs_front ?_ (hlit "found" (by decide))]
  · have := pairs_back (a := a) (b := b.toList) (Z := "found".toList :: issueWords c.warnings c.errors)
      (S := suppressedWords c.suppressed) ?_
    · simpa using this
    · intro y hy
      unfold suppressedWords at hy
      split at hy
      · simp only [List.mem_cons, List.not_mem_nil, or_false] at hy
        rcases hy with rfl | rfl | rfl | rfl
        · exact hlit "with" (by decide)
        · exact hnat _
        · exact hlit "supressed" (by decide)
        · exact hlit "messages" (by decide)
      · cases hy
  · intro y hy
    simp only [List.mem_append, List.mem_cons, List.not_mem_nil, or_false] at hy
    rcases hy with (rfl | hy | hy) | rfl
    · exact hlit "Processed" (by decide)
    · exact hcount _ _ _ (by simpa using hmodel _) y hy
    · split at hy
      · cases hy
      · rcases List.mem_cons.1 hy with rfl | hy
        · exact hlit "and" (by decide)
        · refine hcount _ _ _ ?_ y hy
          simp only [List.mem_cons, List.not_mem_nil, or_false, forall_eq_or_imp, forall_eq]
          exact ⟨hlit "requirement" (by decide), hfile _⟩
    · exact hlit "and" (by decide)

end Verif.Props
