import Verif.Model.CrossRef
import Verif.Props.ExampleNumbers
/-!
# References to other places in messages (C86)
-/
namespace Verif.Props
open Verif.Model

/-! ## Specification -/

/-- A directory or file: the names on the way from the root of the file system -/
abbrev Place := List (List Char)

/-- Where a single part of a path leads to -/
inductive Step (d : Place) : List Char → Place → Prop
  | empty : Step d [] d
  | here : Step d ['.'] d
  | up : Step d ['.', '.'] d.dropLast
  | name {w : List Char} : w ≠ [] → w ≠ ['.'] → w ≠ ['.', '.'] → Step d w (d ++ [w])

/-- Where a path leads to, starting in `d` -/
inductive Follow : Place → List Char → Place → Prop
  | last {d e : Place} {w : List Char} : '/' ∉ w → Step d w e → Follow d w e
  | more {d e f : Place} {w r : List Char} : '/' ∉ w → Step d w e → Follow e r f → Follow d (w ++ '/' :: r) f

/-- The file or directory with a name: names starting with a slash are absolute, others are relative to the
current directory. -/
def Names (cwd name : List Char) (f : Place) : Prop :=
  (name.head? = some '/' ∧ Follow [] name f) ∨ (name.head? ≠ some '/' ∧ ∃ c, Follow [] cwd c ∧ Follow c name f)

/-! ## Paths -/

theorem splitSlash_ne (t : List Char) : splitSlash t ≠ [] := by
  cases t with
  | nil => simp [splitSlash]
  | cons c cs =>
    unfold splitSlash
    split
    · simp
    · split <;> simp

theorem splitSlash_word {w : List Char} (h : '/' ∉ w) : splitSlash w = [w] := by
  induction w with
  | nil => rfl
  | cons c cs ih =>
    have hc : c ≠ '/' := fun e => h (by simp [e])
    unfold splitSlash
    rw [if_neg hc, ih fun e => h (List.mem_cons_of_mem _ e)]

theorem splitSlash_more {w r : List Char} (h : '/' ∉ w) : splitSlash (w ++ '/' :: r) = w :: splitSlash r := by
  induction w with
  | nil => show splitSlash ('/' :: r) = _; rw [splitSlash, if_pos rfl]
  | cons c cs ih =>
    have hc : c ≠ '/' := fun e => h (by simp [e])
    show splitSlash (c :: (cs ++ '/' :: r)) = _
    rw [splitSlash, if_neg hc, ih fun e => h (List.mem_cons_of_mem _ e)]

theorem splitSlash_append (a b : List Char) : splitSlash (a ++ '/' :: b) = splitSlash a ++ splitSlash b := by
  induction a with
  | nil => exact splitSlash_more (w := []) (by simp)
  | cons c cs ih =>
    show splitSlash (c :: (cs ++ '/' :: b)) = _
    rw [splitSlash, ih]
    by_cases hc : c = '/'
    · rw [if_pos hc, splitSlash, if_pos hc]; rfl
    · rw [if_neg hc, splitSlash, if_neg hc]
      cases h : splitSlash cs with
      | nil => exact absurd h (splitSlash_ne cs)
      | cons w ws => rfl

theorem splitSlash_noslash (t : List Char) : ∀ w ∈ splitSlash t, '/' ∉ w := by
  induction t with
  | nil => simp [splitSlash]
  | cons c cs ih =>
    unfold splitSlash
    split
    · simpa using ih
    · next hc =>
      split
      · next w ws h =>
        rw [h] at ih
        intro x hx
        rcases List.mem_cons.1 hx with rfl | hx
        · intro hs
          rcases List.mem_cons.1 hs with e | hs
          · exact hc e.symm
          · exact ih w (by simp) hs
        · exact ih x (by simp [hx])
      · intro x hx
        rw [List.mem_singleton] at hx
        subst hx
        simpa using fun e : '/' = c => hc e.symm

theorem step_norm {d e : Place} {w : List Char} : Step d w e ↔ e = normStep d w := by
  unfold normStep
  constructor
  · intro h
    cases h with
    | empty => simp
    | here => simp
    | up => simp
    | name h1 h2 h3 => rw [if_neg (by simp [h1, h2]), if_neg h3]
  · rintro rfl
    by_cases h1 : w = []
    · subst h1; rw [if_pos (.inl rfl)]; exact .empty
    · by_cases h2 : w = ['.']
      · subst h2; rw [if_pos (.inr rfl)]; exact .here
      · by_cases h3 : w = ['.', '.']
        · subst h3; rw [if_neg (by simp), if_pos rfl]; exact .up
        · rw [if_neg (by simp [h1, h2]), if_neg h3]; exact .name h1 h2 h3

theorem follow_norm {d e : Place} {t : List Char} : Follow d t e ↔ e = (splitSlash t).foldl normStep d := by
  constructor
  · intro h
    induction h with
    | last h1 h2 => rw [splitSlash_word h1]; exact step_norm.1 h2
    | more h1 h2 _ ih => rw [splitSlash_more h1, ih, step_norm.1 h2]; rfl
  · rintro rfl
    have key : ∀ (n : Nat) (t : List Char) (d : Place), t.length ≤ n →
        Follow d t ((splitSlash t).foldl normStep d) := by
      intro n
      induction n with
      | zero =>
        intro t d h
        have : t = [] := List.length_eq_zero_iff.1 (Nat.le_zero.1 h)
        subst this
        exact .last (by simp) .empty
      | succ n ih =>
        intro t d h
        by_cases hs : '/' ∈ t
        · obtain ⟨a, b, hab, hna⟩ : ∃ a b, t = a ++ '/' :: b ∧ '/' ∉ a := by
            clear h ih d
            induction t with
            | nil => cases hs
            | cons c cs ih =>
              by_cases hc : c = '/'
              · exact ⟨[], cs, by rw [hc]; rfl, by simp⟩
              · obtain ⟨a, b, rfl, hn⟩ := ih (by
                  rcases List.mem_cons.1 hs with h | h
                  · exact absurd h.symm hc
                  · exact h)
                refine ⟨c :: a, b, rfl, ?_⟩
                intro hm
                rcases List.mem_cons.1 hm with h | h
                · exact hc h.symm
                · exact hn h
          subst hab
          rw [splitSlash_more hna]
          refine .more hna (step_norm.2 rfl) (ih b _ ?_)
          simp at h
          omega
        · rw [splitSlash_word hs]
          exact .last hs (step_norm.2 rfl)
    exact key _ t d (Nat.le_refl _)

theorem names_abs {cwd name : List Char} {f : Place} : Names cwd name f ↔ f = absParts cwd name := by
  unfold Names absParts
  by_cases h : name.head? = some '/'
  · simp only [h, true_and, ne_eq, not_true_eq_false, false_and, or_false, if_true]
    exact follow_norm
  · simp only [h, false_and, false_or, ne_eq, not_false_eq_true, true_and, if_false]
    rw [splitSlash_append, List.foldl_append]
    constructor
    · rintro ⟨c, h1, h2⟩
      rw [follow_norm] at h1 h2
      rw [h2, h1]
    · intro hf
      exact ⟨_, follow_norm.2 rfl, follow_norm.2 hf⟩

/-- names as they are in absolute paths -/
def Plain (w : List Char) : Prop := w ≠ [] ∧ w ≠ ['.'] ∧ w ≠ ['.', '.'] ∧ '/' ∉ w

theorem norm_plain : ∀ (ws : List (List Char)) (d : Place), (∀ w ∈ ws, '/' ∉ w) → (∀ w ∈ d, Plain w) →
    ∀ w ∈ ws.foldl normStep d, Plain w
  | [], _, _, h => h
  | w :: ws, d, hs, h => by
    refine norm_plain ws _ (fun x hx => hs x (List.mem_cons_of_mem _ hx)) ?_
    unfold normStep
    split
    · exact h
    · next h1 =>
      split
      · exact fun x hx => h x (List.mem_of_mem_dropLast hx)
      · next h2 =>
        intro x hx
        rcases List.mem_append.1 hx with hx | hx
        · exact h x hx
        · rw [List.mem_singleton] at hx
          subst hx
          exact ⟨fun e => h1 (.inl e), fun e => h1 (.inr e), h2, hs _ (by simp)⟩

theorem abs_plain (cwd name : List Char) : ∀ w ∈ absParts cwd name, Plain w :=
  norm_plain _ _ (splitSlash_noslash _) (by simp)

theorem norm_names : ∀ (ws : List (List Char)) (d : Place), (∀ w ∈ ws, Plain w) → ws.foldl normStep d = d ++ ws
  | [], d, _ => by simp
  | w :: ws, d, h => by
    obtain ⟨h1, h2, h3, -⟩ := h w (by simp)
    rw [List.foldl_cons, norm_names ws _ fun x hx => h x (List.mem_cons_of_mem _ hx)]
    unfold normStep
    rw [if_neg (by simp [h1, h2]), if_neg h3]
    simp

theorem norm_up : ∀ (k : Nat) (d : Place), (List.replicate k ['.', '.']).foldl normStep d = d.take (d.length - k)
  | 0, d => by simp
  | k + 1, d => by
    rw [List.replicate_succ, List.foldl_cons, norm_up k]
    have : normStep d ['.', '.'] = d.dropLast := by unfold normStep; rw [if_neg (by simp), if_pos rfl]
    rw [this, List.dropLast_eq_take, List.take_take, List.length_take]
    congr 1
    omega

theorem commonLen_spec : ∀ (a b : List (List Char)), a.take (commonLen a b) = b.take (commonLen a b) ∧
    commonLen a b ≤ a.length
  | [], _ => by simp [commonLen]
  | _ :: _, [] => by simp [commonLen]
  | a :: as, b :: bs => by
    unfold commonLen
    split
    · next h =>
      obtain ⟨h1, h2⟩ := commonLen_spec as bs
      exact ⟨by rw [List.take_succ_cons, List.take_succ_cons, h, h1], by simpa using h2⟩
    · simp

theorem split_join : ∀ (ws : List (List Char)), ws ≠ [] → (∀ w ∈ ws, '/' ∉ w) → splitSlash (joinSlash ws) = ws
  | [], h, _ => absurd rfl h
  | [w], _, h => splitSlash_word (h w (by simp))
  | w :: x :: ws, _, h => by
    show splitSlash (w ++ '/' :: joinSlash (x :: ws)) = _
    rw [splitSlash_more (h w (by simp)), split_join (x :: ws) (by simp) fun y hy => h y (List.mem_cons_of_mem _ hy)]

theorem relPath_follow (cwd path start : List Char) :
    Follow (absParts cwd start) (relPath cwd path start) (absParts cwd path) := by
  rw [follow_norm]
  have hp := abs_plain cwd path
  obtain ⟨h1, h2⟩ := commonLen_spec (absParts cwd start) (absParts cwd path)
  unfold relPath
  generalize absParts cwd start = s at *
  generalize absParts cwd path = p at *
  dsimp only
  generalize commonLen s p = i at *
  have hfold : (List.replicate (s.length - i) ['.', '.'] ++ p.drop i).foldl normStep s = p := by
    rw [List.foldl_append, norm_up, norm_names _ _ fun w hw => hp w (List.mem_of_mem_drop hw)]
    have : s.length - (s.length - i) = i := by omega
    rw [this, h1, List.take_append_drop]
  cases hx : List.replicate (s.length - i) ['.', '.'] ++ p.drop i with
  | nil =>
    rw [hx] at hfold
    dsimp only
    rw [splitSlash_word (by simp)]
    exact hfold.symm.trans (step_norm.1 .here)
  | cons w ws =>
    dsimp only
    rw [split_join, ← hx]
    · exact hfold.symm
    · simp
    · rw [← hx]
      intro w hw
      rcases List.mem_append.1 hw with hw | hw
      · rw [List.eq_of_mem_replicate hw]; simp
      · exact (hp w (List.mem_of_mem_drop hw)).2.2.2

/-! ## C86 -/

/-- **C86**: the text of a reference is a path and, if the line is known, a colon and the line; the path leads
from the common root to the file (whether or not the root is above all files, see C42). -/
theorem C86_leads_to {cwd root file : List Char} {line : Option Nat} {r f : Place} (hr : Names cwd root r)
    (hf : Names cwd file f) : ∃ path, Follow r path f ∧
      crossRef cwd (some root) file line = path ++ (match line with | some n => ':' :: natText n | none => []) := by
  rw [names_abs] at hr hf
  subst hr
  subst hf
  exact ⟨_, relPath_follow .., rfl⟩

theorem colon_split {a b : List Char} {n m : Nat} (h : a ++ ':' :: natText n = b ++ ':' :: natText m) :
    a = b ∧ n = m := by
  have hc : ∀ n, ':' ∉ natText n := fun n => by
    have key : ∀ d < 10, digitText d ≠ ':' := by decide
    unfold natText
    split
    · simp
    · intro hm
      obtain ⟨d, hd, e⟩ := List.mem_map.1 hm
      exact key d (Nat.digits_lt_base (by norm_num) (List.mem_reverse.1 hd)) e
  have key : ∀ (a b x y : List Char), ':' ∉ x → ':' ∉ y → a ++ ':' :: x = b ++ ':' :: y → a = b ∧ x = y := by
    intro a
    induction a with
    | nil =>
      intro b x y hx hy h
      cases b with
      | nil => exact ⟨rfl, by simpa using h⟩
      | cons c cs =>
        simp only [List.nil_append, List.cons_append, List.cons.injEq] at h
        exact absurd (by rw [h.2]; simp) hx
    | cons d ds ih =>
      intro b x y hx hy h
      cases b with
      | nil =>
        simp only [List.nil_append, List.cons_append, List.cons.injEq] at h
        exact absurd (by rw [← h.2]; simp) hy
      | cons c cs =>
        simp only [List.cons_append, List.cons.injEq] at h
        obtain ⟨h1, h2⟩ := ih cs x y hx hy h.2
        exact ⟨by rw [h.1, h1], h2⟩
  obtain ⟨h1, h2⟩ := key _ _ _ _ (hc n) (hc m) h
  exact ⟨h1, natText_inj h2⟩

theorem follow_unique {d e e' : Place} {t : List Char} (h : Follow d t e) (h' : Follow d t e') : e = e' := by
  rw [follow_norm] at h h'
  rw [h, h']

/-- **C86**: references to lines identify these: the same text means the same file and line. -/
theorem C86_identifies {cwd : List Char} {root : Option (List Char)} {file file' : List Char} {n n' : Nat}
    {f f' : Place} (hf : Names cwd file f) (hf' : Names cwd file' f')
    (h : crossRef cwd root file (some n) = crossRef cwd root file' (some n')) : f = f' ∧ n = n' := by
  cases root with
  | none =>
    obtain ⟨h1, h2⟩ := colon_split h
    subst h1
    rw [names_abs] at hf hf'
    exact ⟨by rw [hf, hf'], h2⟩
  | some r =>
    obtain ⟨p, h1, h2⟩ := C86_leads_to (line := some n) (names_abs.2 rfl : Names cwd r _) hf
    obtain ⟨p', h1', h2'⟩ := C86_leads_to (line := some n') (names_abs.2 rfl : Names cwd r _) hf'
    rw [h2, h2'] at h
    obtain ⟨rfl, h4⟩ := colon_split h
    exact ⟨follow_unique h1 h1', h4⟩

/-- the root is the one found for files in `/w/lib1` and `/w/lib2`, which is no directory; the current
directory is `/w`; the file is `lib1/a.rsl` -/
example : crossRef "/w".toList (updateCommonRoot (some "/w/lib1".toList) "/w/lib2".toList) "lib1/a.rsl".toList (some 12) =
      "../lib1/a.rsl:12".toList ∧
    Names "/w".toList "lib1/a.rsl".toList ["w".toList, "lib1".toList, "a.rsl".toList] :=
  ⟨by decide +kernel, names_abs.2 (by decide +kernel)⟩

end Verif.Props
