import Verif.Lemmas.LexScan
/-!
# C04: words are maximal and classified by the keyword list
-/
namespace Verif.Props
open Verif.Model Verif.Spec Verif.Lemmas

/-! ## Specification -/

/-- ASCII letters -/
def IsLetter (c : Char) : Prop := ('a' ≤ c ∧ c ≤ 'z') ∨ ('A' ≤ c ∧ c ≤ 'Z')
/-- Characters that continue a word: ASCII letters, digits and underscore. -/
def IsWordChar (c : Char) : Prop := IsLetter c ∨ ('0' ≤ c ∧ c ≤ '9') ∨ c = '_'
/-- `[A-Za-z][A-Za-z0-9_]*` -/
def IsWord (w : List Char) : Prop := ∃ c cs, w = c :: cs ∧ IsLetter c ∧ ∀ d ∈ cs, IsWordChar d

/-- The reserved words of the LRM (`TRLC_Keywords`). -/
def reservedWords : List String :=
  ["abs", "abstract", "and", "checks", "else", "elsif", "enum", "error", "exists",
   "extends", "false", "fatal", "final", "forall", "freeze", "if", "implies",
   "import", "in", "not", "null", "optional", "or", "package", "section",
   "separator", "then", "true", "tuple", "type", "warning", "xor"]

theorem isAlpha_iff (c : Char) : isAlpha c = true ↔ IsLetter c := by
  simp only [isAlpha, IsLetter, Bool.or_eq_true, Bool.and_eq_true, decide_eq_true_eq,
    Char.le_def, UInt32.le_iff_toNat_le, Char.toNat]

theorem isWordChar_iff (c : Char) : (isAlnum c || c == '_') = true ↔ IsWordChar c := by
  simp only [isAlnum, isNumeric, Bool.or_eq_true, isAlpha_iff, IsWordChar, Bool.and_eq_true,
    decide_eq_true_eq, beq_iff_eq, Char.le_def, UInt32.le_iff_toNat_le, Char.toNat, or_assoc]

/-- **C04**: for every token the lexer returns (also before an error): it is a word
token iff it starts with a letter; then its text is a word, is its value, is not
continued by the next character, and it is a keyword iff it is reserved. -/
theorem C04_words (content : List Char) (t : Token) (h : t ∈ (lexAll content).1)
    (text : List Char) (htext : text = (content.drop t.startPos).take (t.endPos + 1 - t.startPos)) :
    ((t.kind = .IDENTIFIER ∨ t.kind = .KEYWORD) ↔
        ∃ c, content[t.startPos]? = some c ∧ IsLetter c) ∧
    ((t.kind = .IDENTIFIER ∨ t.kind = .KEYWORD) →
        IsWord text ∧ t.value = .str text ∧
        (∀ d, content[t.endPos + 1]? = some d → ¬ IsWordChar d) ∧
        (t.kind = .KEYWORD ↔ String.ofList text ∈ reservedWords)) := by
  obtain ⟨s1, s2, hi, hc1, _, htok⟩ := mem_tokens _ _ (inv_init content) h
  have hcon : s1.content = content := hc1
  obtain ⟨n, m, c, e1, e2, _, hlt, _, hc, _, _, _, k, b, hscan, hs2, hfin⟩ := token_span hi htok
  have hword := finish_word hfin
  rw [hcon] at e2 hlt hc hfin
  by_cases ha : isAlpha c = true
  · rw [scan_alpha ha] at hscan
    have hinj := Scan.ok.inj hscan
    obtain ⟨q1, q2, q3⟩ := hinj
    subst q2 q3
    have hinv' := inv_advN hi (n + 1)
    obtain ⟨m', hm1, hm2, hm3, hm4⟩ := advWhile_eq (ncIs (fun d => isAlnum d || d == '_'))
      (advN (n + 1) s1).todo (advN (n + 1) s1) rfl
    have hmm : m' = m := by
      apply advN_inj_pos (s := advN (n + 1) s1)
      rw [← hm2, q1, hs2]
    subst hmm
    have hlen := inv_todo_length hinv'
    simp only [advN_pos, advN_content, hcon] at hlen
    have hend : s1.pos + n + m' < content.length := by omega
    have hget : ∀ i, (advN (n + 1) s1).todo[i]? = content[s1.pos + n + 1 + i]? := by
      intro i; rw [inv_todo_get hinv']; simp only [advN_pos, advN_content, hcon]; congr 1
    have hsl : text = (content.drop (s1.pos + n)).take (m' + 1) := by
      rw [htext, e1, e2]; exact slice_eq _ _ _ hend
    have hsl' : slice content t.startPos t.endPos = text := by rw [htext]; rfl
    have hkind : t.kind = .IDENTIFIER ∨ t.kind = .KEYWORD := hword.mpr (Or.inl rfl)
    refine ⟨⟨fun _ => ⟨c, by rw [e1]; exact hc, (isAlpha_iff c).mp ha⟩, fun _ => hkind⟩, fun _ => ?_⟩
    have hdrop : content.drop (s1.pos + n) = c :: content.drop (s1.pos + n + 1) := by
      have hlt' : s1.pos + n < content.length := hlt
      rw [List.drop_eq_getElem_cons hlt']
      congr 1
      rw [List.getElem?_eq_getElem hlt'] at hc
      exact Option.some.inj hc
    rw [hsl'] at hfin
    simp only [finishToken, Prod.mk.injEq] at hfin
    refine ⟨⟨c, (content.drop (s1.pos + n + 1)).take m', by rw [hsl, hdrop]; rfl,
      (isAlpha_iff c).mp ha, ?_⟩, hfin.2, ?_, ?_⟩
    · intro d hd
      obtain ⟨i, hi', hdi⟩ := List.mem_iff_getElem.mp hd
      have hi'' : i < m' := by simp at hi'; omega
      have hcond := hm3 i hi''
      simp only [ncIs, LexState.nc, advN_todo, List.head?_drop] at hcond
      have h1 : (content.drop (s1.pos + n + 1))[i]? = some d := by
        have : ((content.drop (s1.pos + n + 1)).take m')[i]? = some d := by
          rw [List.getElem?_eq_getElem hi', hdi]
        rw [List.getElem?_take] at this
        simpa [hi''] using this
      have h2 : s1.todo[n + 1 + i]? = some d := by
        rw [inv_todo_get hi, hcon]
        rw [List.getElem?_drop] at h1
        rw [← h1]; congr 1; omega
      rw [List.getElem?_drop, h2] at hcond
      simp only [Option.any_some] at hcond
      exact (isWordChar_iff d).mp hcond
    · intro d hd hw
      have he : t.endPos = s1.pos + n + m' := by rw [e2]; omega
      rw [he] at hd
      have hltm : s1.pos + n + m' + 1 < content.length := by
        rcases Nat.lt_or_ge (s1.pos + n + m' + 1) content.length with h | h
        · exact h
        · simp [h] at hd
      have hcond := hm4 (by omega)
      have h2 : s1.todo[n + 1 + m']? = some d := by
        rw [inv_todo_get hi, hcon, ← hd]; congr 1; omega
      simp only [ncIs, LexState.nc, advN_todo, List.head?_drop, List.getElem?_drop, h2] at hcond
      rw [Option.any_some, (isWordChar_iff d).mpr hw] at hcond
      cases hcond
    · rw [hfin.1]
      have : (KEYWORDS.contains (String.ofList text) = true) ↔ String.ofList text ∈ reservedWords := by
        exact List.contains_iff_mem
      rw [← this]
      cases KEYWORDS.contains (String.ofList text) <;> simp
  · have ha' : isAlpha c = false := by simpa using ha
    have hk := scan_nonalpha_kind ha' hscan
    have hno : ¬ (t.kind = .IDENTIFIER ∨ t.kind = .KEYWORD) := by
      rw [hword]; rintro (h | h)
      · exact hk.1 h
      · exact hk.2 h
    refine ⟨⟨fun h => absurd h hno, ?_⟩, fun h => absurd h hno⟩
    rintro ⟨c', hc', hl⟩
    rw [e1, hc] at hc'
    cases hc'
    exact absurd ((isAlpha_iff c).mpr hl) ha

example : ∃ t ∈ (lexAll "package Foo_1".toList).1, t.kind = .IDENTIFIER ∧ t.value = .str "Foo_1".toList :=
  ⟨_, List.mem_cons_of_mem _ (List.mem_singleton.mpr rfl), by decide +kernel, by decide +kernel⟩

end Verif.Props
