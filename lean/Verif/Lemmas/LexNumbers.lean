import Verif.Lemmas.LexExact
import Verif.Spec.Numbers
import Mathlib.Tactic.Ring
import Mathlib.Tactic.FieldSimp
/-!
# Lemmas about the number branch of the lexer
-/
namespace Verif.Lemmas
open Verif.Model Verif.Spec

/-! ## Digits -/

theorem digit_table_val : ∀ p ∈ digitTable, digitVal p.1 = p.2 := by decide
theorem digit_ne_underscore : ∀ p ∈ digitTable, p.1 ≠ '_' ∧ p.1 ≠ '.' := by decide
theorem dec_mem : ∀ c ∈ decDigits, ∃ p ∈ digitTable, p.1 = c ∧ p.2 < 10 := by decide
theorem hex_mem : ∀ c ∈ decDigits ++ hexLetters, ∃ p ∈ digitTable, p.1 = c ∧ p.2 < 16 := by decide
theorem bin_mem : ∀ c ∈ ['0','1'], ∃ p ∈ digitTable, p.1 = c ∧ p.2 < 2 := by decide
theorem dec_mem' : ∀ p ∈ digitTable, p.2 < 10 → p.1 ∈ decDigits := by decide
theorem hex_mem' : ∀ p ∈ digitTable, p.2 < 16 → p.1 ∈ decDigits ++ hexLetters := by decide
theorem bin_mem' : ∀ p ∈ digitTable, p.2 < 2 → p.1 ∈ ['0','1'] := by decide

theorem isDigit_dec (c : Char) : IsDigit 10 c ↔ c ∈ decDigits := by
  constructor
  · rintro ⟨n, h1, h2⟩; exact dec_mem' (c, n) h1 h2
  · intro h; obtain ⟨⟨c', n⟩, hp, rfl, h2⟩ := dec_mem c h; exact ⟨n, hp, h2⟩
theorem isDigit_hex (c : Char) : IsDigit 16 c ↔ c ∈ decDigits ++ hexLetters := by
  constructor
  · rintro ⟨n, h1, h2⟩; exact hex_mem' (c, n) h1 h2
  · intro h; obtain ⟨⟨c', n⟩, hp, rfl, h2⟩ := hex_mem c h; exact ⟨n, hp, h2⟩
theorem isDigit_bin (c : Char) : IsDigit 2 c ↔ c ∈ ['0','1'] := by
  constructor
  · rintro ⟨n, h1, h2⟩; exact bin_mem' (c, n) h1 h2
  · intro h; obtain ⟨⟨c', n⟩, hp, rfl, h2⟩ := bin_mem c h; exact ⟨n, hp, h2⟩

theorem Digit.val {base : Nat} {c : Char} {n : Nat} (h : Digit base c n) : digitVal c = n :=
  digit_table_val (c, n) h.1

theorem IsDigit.ne_underscore {base : Nat} {c : Char} (h : IsDigit base c) : c ≠ '_' := by
  obtain ⟨n, h⟩ := h; exact (digit_ne_underscore (c, n) h.1).1

theorem IsDigit.ne_dot {base : Nat} {c : Char} (h : IsDigit base c) : c ≠ '.' := by
  obtain ⟨n, h⟩ := h; exact (digit_ne_underscore (c, n) h.1).2

/-! ## Values -/

theorem foldl_positional (base : Nat) : ∀ (t : List Char) (ds : List Nat) (acc : Nat),
    List.Forall₂ (Digit base) t ds →
    t.foldl (fun acc c => acc * base + digitVal c) acc = acc * base ^ ds.length + positional base ds
  | _, _, acc, .nil => by simp [positional]
  | _, _, acc, .cons (a := c) (b := d) (l₁ := t) (l₂ := ds) h hs => by
    rw [List.foldl_cons, foldl_positional base t ds _ hs, Digit.val h]
    simp only [List.length_cons, positional]; ring

theorem pyInt_of_denotes {base : Nat} {t : List Char} {n : Nat} (h : Denotes base t n) :
    pyInt base (t.filter (· ≠ '_')) = n := by
  obtain ⟨ds, h1, h2⟩ := h
  unfold pyInt
  rw [foldl_positional base _ ds 0 h1, h2]; simp

theorem groups_filter {base : Nat} {t : List Char} (h : Groups (IsDigit base) t) :
    ∃ ds, List.Forall₂ (Digit base) (t.filter (· ≠ '_')) ds := by
  induction h with
  | single hc =>
    obtain ⟨n, hn⟩ := id hc
    refine ⟨[n], ?_⟩
    simp [IsDigit.ne_underscore hc, hn]
  | digit hc _ ih =>
    obtain ⟨n, hn⟩ := id hc
    obtain ⟨ds, hds⟩ := ih
    refine ⟨n :: ds, ?_⟩
    rw [List.filter_cons_of_pos (by simp [IsDigit.ne_underscore hc])]
    exact .cons hn hds
  | under hc _ ih =>
    obtain ⟨n, hn⟩ := id hc
    obtain ⟨ds, hds⟩ := ih
    refine ⟨n :: ds, ?_⟩
    rw [List.filter_cons_of_pos (by simp [IsDigit.ne_underscore hc]),
      List.filter_cons_of_neg (by simp)]
    exact .cons hn hds

theorem groups_denotes {base : Nat} {t : List Char} (h : Groups (IsDigit base) t) :
    Denotes base t (pyInt base (t.filter (· ≠ '_'))) := by
  obtain ⟨ds, hds⟩ := groups_filter h
  refine ⟨ds, hds, ?_⟩
  unfold pyInt
  rw [foldl_positional base _ ds 0 hds]; simp

theorem denotes_unique {base : Nat} {t : List Char} {m n : Nat} (h1 : Denotes base t m)
    (h2 : Denotes base t n) : m = n := by
  rw [← pyInt_of_denotes h1, ← pyInt_of_denotes h2]

theorem groups_no_dot {t : List Char} (h : Groups (IsDigit 10) t) : '.' ∉ t := by
  induction h with
  | single hc => simp; exact fun h => IsDigit.ne_dot hc h.symm
  | digit hc _ ih => simp; exact ⟨fun h => IsDigit.ne_dot hc h.symm, ih⟩
  | under hc _ ih => simp; exact ⟨fun h => IsDigit.ne_dot hc h.symm, ih⟩

theorem pyInt_append (base : Nat) (a b : List Char) :
    pyInt base (a ++ b) = pyInt base a * base ^ b.length + pyInt base b := by
  unfold pyInt
  have key : ∀ (l : List Char) (acc : Nat),
      l.foldl (fun acc c => acc * base + digitVal c) acc
        = acc * base ^ l.length + l.foldl (fun acc c => acc * base + digitVal c) 0 := by
    intro l
    induction l with
    | nil => intro acc; simp
    | cons c l ih =>
      intro acc
      simp only [List.foldl_cons, List.length_cons]
      rw [ih (acc * base + digitVal c), ih (0 * base + digitVal c)]; ring
  rw [List.foldl_append, key b]

theorem pyFraction_literal {i f : List Char} (hi : Groups (IsDigit 10) i)
    (hf : Groups (IsDigit 10) f) :
    pyFraction ((i ++ '.' :: f).filter (· ≠ '_'))
      = ((pyInt 10 (i.filter (· ≠ '_')) : Nat) : Rat)
        + ((pyInt 10 (f.filter (· ≠ '_')) : Nat) : Rat) / (10 : Rat) ^ (f.filter (· ≠ '_')).length := by
  have hnd : '.' ∉ i.filter (· ≠ '_') := fun h => groups_no_dot hi (List.mem_filter.mp h).1
  have e : (i ++ '.' :: f).filter (· ≠ '_') = i.filter (· ≠ '_') ++ '.' :: f.filter (· ≠ '_') := by
    rw [List.filter_append, List.filter_cons_of_pos (by simp)]
  rw [e]
  generalize i.filter (· ≠ '_') = i' at *
  generalize f.filter (· ≠ '_') = f' at *
  have h1 : (i' ++ '.' :: f').takeWhile (· != '.') = i' := by
    rw [List.takeWhile_append_of_pos]
    · simp
    · intro c hc; simp; rintro rfl; exact hnd hc
  have h2 : (i' ++ '.' :: f').dropWhile (· != '.') = '.' :: f' := by
    rw [List.dropWhile_append_of_pos]
    · simp
    · intro c hc; simp; rintro rfl; exact hnd hc
  unfold pyFraction
  simp only [h1, h2, List.drop_succ_cons, List.drop_zero]
  rw [pyInt_append, Rat.mkRat_eq_div]
  push_cast
  field_simp

/-! ## Scanning -/

theorem numLoop_end (st : Nat) (s : LexState) (v : NumSt) (rest : List Char)
    (hs : s.todo = rest) (hend : NumEnd rest) (hr : v.require = false)
    (ha : ∀ c ∈ v.allowed, IsDigit 16 c) (hf : ∀ c ∈ v.forbidden, IsDigit 16 c) :
    numLoop st rest s v = .ok s v.kind v.base := by
  cases rest with
  | nil => simp [numLoop, hr]
  | cons c r =>
    obtain ⟨h1, h2, h3⟩ := hend c r rfl
    have h1a : v.allowed.contains c = false := by
      rw [Bool.eq_false_iff]; intro h; exact h1 (ha c (List.contains_iff_mem.mp h))
    have h1f : v.forbidden.contains c = false := by
      rw [Bool.eq_false_iff]; intro h; exact h1 (hf c (List.contains_iff_mem.mp h))
    unfold numLoop
    simp only [h1a, h1f, hr, h2, if_false, Bool.false_eq_true]
    by_cases hd : c = '.'
    · have : s.nnc = some '.' := by simp [LexState.nnc, hs, h3 hd]
      simp [hd, this]
    · simp [hd]

theorem numLoop_groups (st : Nat) {D : Char → Prop} {l : List Char} (hg : Groups D l) :
    ∀ (s : LexState) (v : NumSt) (rest : List Char),
    (∀ c, D c → c ∈ v.allowed) → '_' ∉ v.allowed → '_' ∉ v.forbidden →
    numLoop st (l ++ rest) s v = numLoop st rest (advN l.length s) { v with require := false } := by
  induction hg with
  | @single c hc =>
    intro s v rest hD _ _
    simp only [List.cons_append, List.nil_append]
    conv => lhs; unfold numLoop
    simp [hD c hc, advN]
  | @digit c l hc _ ih =>
    intro s v rest hD h1 h2
    simp only [List.cons_append]
    conv => lhs; unfold numLoop
    simp only [List.contains_iff_mem, hD c hc, if_true]
    rw [ih s.advance { v with require := false } rest hD h1 h2]
    rfl
  | @under c l hc _ ih =>
    intro s v rest hD h1 h2
    simp only [List.cons_append]
    conv => lhs; unfold numLoop
    simp only [List.contains_iff_mem, hD c hc, if_true]
    conv => lhs; unfold numLoop
    simp only [List.contains_iff_mem, h1, h2, if_false, if_true, Bool.false_eq_true]
    rw [ih s.advance.advance { v with require := true } rest hD h1 h2]
    rfl

/-- What can follow the first digit of a literal. -/
theorem numLoop_tail (st : Nat) {D : Char → Prop} {c : Char} {l : List Char} (hg : Groups D (c :: l)) :
    ∀ (s : LexState) (v : NumSt) (rest : List Char), v.require = false →
    (∀ c, D c → c ∈ v.allowed) → '_' ∉ v.allowed → '_' ∉ v.forbidden →
    numLoop st (l ++ rest) s v = numLoop st rest (advN l.length s) v := by
  intro s v rest hr hD h1 h2
  have hv : { v with require := false } = v := by rw [← hr]
  cases hg with
  | single hc => rfl
  | digit hc hg' => rw [numLoop_groups st hg' s v rest hD h1 h2, hv]
  | under hc hg' =>
    simp only [List.cons_append]
    conv => lhs; unfold numLoop
    simp only [List.contains_iff_mem, h1, h2, hr, if_false, if_true, Bool.false_eq_true]
    rw [numLoop_groups st hg' s.advance { v with require := true } rest hD h1 h2]
    show numLoop st rest _ { v with require := false } = _
    rw [hv]; rfl

/-! ## Shape of scanned numbers -/

/-- Shape of the part of a literal that is still to be scanned. -/
def Tail (D : Char → Prop) (r : Bool) (l : List Char) : Prop :=
  Groups D l ∨ (r = false ∧ (l = [] ∨ ∃ g, l = '_' :: g ∧ Groups D g))

theorem tail_cons {D : Char → Prop} {c : Char} {l : List Char} (hc : D c) (h : Tail D false l) :
    Groups D (c :: l) := by
  rcases h with h | ⟨_, rfl | ⟨g, rfl, h⟩⟩
  · exact .digit hc h
  · exact .single hc
  · exact .under hc h

theorem numLoop_shape (st : Nat) : ∀ (l : List Char) (s : LexState) (v : NumSt) (s' k b),
    (v.kind = .INTEGER ∨ (v.kind = .DECIMAL ∧ v.decimal = false)) →
    numLoop st l s v = .ok s' k b → l = s.todo →
    ∃ m, m ≤ l.length ∧ s' = advN m s ∧ b = v.base ∧
      ((k = v.kind ∧ Tail (· ∈ v.allowed) v.require (l.take m)) ∨
       (v.decimal = true ∧ k = .DECIMAL ∧ ∃ a g, l.take m = a ++ '.' :: g ∧
          Tail (· ∈ v.allowed) v.require a ∧ Groups (· ∈ v.allowed) g))
  | [], s, v, s', k, b, hk, h, hl => by
    unfold numLoop at h
    split at h
    · exact (not_lexError_ok h).elim
    · rename_i hr
      obtain ⟨rfl, rfl, rfl⟩ := Scan.ok.inj h
      exact ⟨0, by omega, rfl, rfl, Or.inl ⟨rfl, Or.inr ⟨by simpa using hr, Or.inl rfl⟩⟩⟩
  | c :: r, s, v, s', k, b, hk, h, hl => by
    have hadv : r = s.advance.todo := by simp [← hl]
    have ih := fun v hk h => numLoop_shape st r s.advance v s' k b hk h hadv
    unfold numLoop at h
    by_cases h1 : c ∈ v.allowed
    · simp only [List.contains_iff_mem, h1, if_true] at h
      obtain ⟨m, hm, hs, hb, hcase⟩ := ih { v with require := false } hk h
      refine ⟨m + 1, by simp; omega, hs, hb, ?_⟩
      rcases hcase with ⟨hk', ht⟩ | ⟨hd, hk', a, g, hag, ha, hg⟩
      · exact Or.inl ⟨hk', Or.inl (tail_cons h1 ht)⟩
      · exact Or.inr ⟨hd, hk', c :: a, g, by simp [hag], Or.inl (tail_cons h1 ha), hg⟩
    · simp only [List.contains_iff_mem, h1, if_false] at h
      split at h
      · exact (not_lexError_ok h).elim
      split at h
      · exact (not_lexError_ok h).elim
      rename_i hr
      have hr' : v.require = false := by simpa using hr
      have stop : s' = s ∧ k = v.kind ∧ b = v.base → _ := fun h =>
        (⟨0, by omega, h.1, h.2.2, Or.inl ⟨h.2.1, Or.inr ⟨hr', Or.inl rfl⟩⟩⟩ :
          ∃ m, m ≤ (c :: r).length ∧ s' = advN m s ∧ b = v.base ∧
            ((k = v.kind ∧ Tail (· ∈ v.allowed) v.require ((c :: r).take m)) ∨
             (v.decimal = true ∧ k = .DECIMAL ∧ ∃ a g, (c :: r).take m = a ++ '.' :: g ∧
                Tail (· ∈ v.allowed) v.require a ∧ Groups (· ∈ v.allowed) g)))
      split at h
      · rename_i hu
        obtain ⟨m, hm, hs, hb, hcase⟩ := ih { v with require := true } hk h
        refine ⟨m + 1, by simp; omega, hs, hb, ?_⟩
        have conv : ∀ l, Tail (· ∈ v.allowed) true l → Tail (· ∈ v.allowed) v.require (c :: l) := by
          intro l hl
          rcases hl with hl | ⟨h0, _⟩
          · exact Or.inr ⟨hr', Or.inr ⟨l, by rw [hu], hl⟩⟩
          · cases h0
        rcases hcase with ⟨hk', ht⟩ | ⟨hd, hk', a, g, hag, ha, hg⟩
        · exact Or.inl ⟨hk', conv _ ht⟩
        · exact Or.inr ⟨hd, hk', c :: a, g, by simp [hag], conv _ ha, hg⟩
      split at h
      · obtain ⟨rfl, rfl, rfl⟩ := Scan.ok.inj h; exact stop ⟨rfl, rfl, rfl⟩
      split at h
      · rename_i hdot
        split at h
        · rename_i hdec
          obtain ⟨m, hm, hs, hb, hcase⟩ := ih _ (Or.inr ⟨rfl, rfl⟩) h
          refine ⟨m + 1, by simp; omega, hs, hb, Or.inr ⟨hdec, ?_⟩⟩
          rcases hcase with ⟨hk', ht⟩ | ⟨hd, _⟩
          · refine ⟨hk', [], r.take m, by simp [hdot], Or.inr ⟨hr', Or.inl rfl⟩, ?_⟩
            rcases ht with ht | ⟨h0, _⟩
            · exact ht
            · cases h0
          · cases hd
        · exact (not_lexError_ok h).elim
      · obtain ⟨rfl, rfl, rfl⟩ := Scan.ok.inj h; exact stop ⟨rfl, rfl, rfl⟩

theorem groups_mono {D E : Char → Prop} (hDE : ∀ c, D c → E c) {l : List Char} (h : Groups D l) :
    Groups E l := by
  induction h with
  | single hc => exact .single (hDE _ hc)
  | digit hc _ ih => exact .digit (hDE _ hc) ih
  | under hc _ ih => exact .under (hDE _ hc) ih

end Verif.Lemmas
