import Verif.Spec.Resume
import Verif.Model.Parse.Rsl
import Verif.Lemmas.ParseFile
import Verif.Lemmas.RearrangeNames
/-!
# C101: where the parser goes on after an error
-/
namespace Verif.Props
open Verif.Model Verif.Spec Verif.Lemmas

/-- The words `l` have been consumed, and nothing else has changed. -/
private structure Moves (s : PS) (l : List Token) (s' : PS) : Prop where
  same : s' = { s with ct := s'.ct, nt := s'.nt, rest := s'.rest }
  words : PSWords s = l ++ PSWords s'
  ct : s'.ct = lastWord s.ct l

private theorem lastWord_append (p : Option Token) (a b : List Token) :
    lastWord p (a ++ b) = lastWord (lastWord p a) b := by
  induction a generalizing p with
  | nil => rfl
  | cons t a ih => exact ih _

private theorem Moves.refl (s : PS) : Moves s [] s := ⟨rfl, rfl, rfl⟩

private theorem Moves.trans {s s1 s2 : PS} {l m : List Token} (h : Moves s l s1) (g : Moves s1 m s2) :
    Moves s (l ++ m) s2 := by
  refine ⟨?_, by rw [h.words, g.words, List.append_assoc], by rw [g.ct, h.ct, lastWord_append]⟩
  have := g.same
  rw [h.same] at this
  exact this

private theorem advanceLoop_moves {s s' : PS} {u : Unit} : ∀ {r : List LexOut}, advanceLoop s r = .ok u s' →
    s' = { s with nt := s'.nt, rest := s'.rest } ∧ wordsBefore r = PSWords s' := by
  intro r
  induction r with
  | nil => intro h; cases h; exact ⟨rfl, rfl⟩
  | cons x r ih =>
    intro h
    cases x with
    | tok t =>
      unfold advanceLoop at h
      by_cases hc : t.kind = .COMMENT
      · rw [if_pos hc] at h
        obtain ⟨h1, h2⟩ := ih h
        exact ⟨h1, by rw [← h2]; simp [wordsBefore, hc]⟩
      · rw [if_neg hc] at h
        cases h
        exact ⟨rfl, by simp [wordsBefore, hc, PSWords]⟩
    | eof => cases h; exact ⟨rfl, rfl⟩
    | error k a b => cases h
    | crash => cases h

private theorem advance_moves {s s' : PS} {u : Unit} {t : Token} (hn : s.nt = some t) (h : P.advance s = .ok u s') :
    Moves s [t] s' := by
  obtain ⟨h1, h2⟩ := advanceLoop_moves h
  refine ⟨?_, ?_, ?_⟩
  · rw [h1]
  · rw [← h2, PSWords, hn]; rfl
  · rw [h1]; exact hn

private theorem skipLoop_moves {line : Nat} : ∀ (k : Nat) (s : PS) {u : Unit} {s' : PS} {p : Token}, s.ct = some p →
    p.line = line → skipLoop line k s = .ok u s' →
    ∃ l, Moves s l s' ∧ (∀ t ∈ l, t.line = line) ∧ ∀ t, s'.nt = some t → StartsLine s'.ct t := by
  intro k
  induction k with
  | zero => intro s u s' p _ _ h; cases h
  | succ k ih =>
    intro s u s' p hp hl h
    unfold skipLoop at h
    by_cases hc : s.nt.any (fun t => t.line = line) = true
    · rw [if_pos hc, bind_apply] at h
      cases hn : s.nt with
      | none => rw [hn] at hc; cases hc
      | some t =>
        rw [hn] at hc
        have ht : t.line = line := by simpa using hc
        cases ha : P.advance s with
        | ok a s1 =>
          rw [ha] at h
          have hm := advance_moves hn ha
          obtain ⟨l, h1, h2, h3⟩ := ih s1 hm.ct ht h
          exact ⟨[t] ++ l, hm.trans h1, by simpa [ht] using h2, h3⟩
        | err s1 => rw [ha] at h; cases h
        | crash c s1 => rw [ha] at h; cases h
    · rw [if_neg hc] at h
      cases h
      refine ⟨[], .refl _, by simp, fun t ht q hq hqt => hc ?_⟩
      rw [hp] at hq
      cases hq
      rw [ht]
      simp [← hqt, hl]

private theorem skip_moves {s s' : PS} {u : Unit} (h : P.skipUntilNewline s = .ok u s') :
    ∃ l, Moves s l s' ∧ (∀ t ∈ l, ∃ p, s.ct = some p ∧ t.line = p.line) ∧
      ∀ t, s'.nt = some t → StartsLine s'.ct t := by
  unfold P.skipUntilNewline at h
  cases hc : s.ct with
  | none =>
    rw [hc] at h
    cases h
    exact ⟨[], .refl _, by simp, fun t _ q hq => by rw [hc] at hq; cases hq⟩
  | some p =>
    rw [hc] at h
    obtain ⟨l, h1, h2, h3⟩ := skipLoop_moves _ s hc rfl h
    exact ⟨l, h1, fun t ht => ⟨p, rfl, h2 t ht⟩, h3⟩

/-- No word of `l` that begins a line satisfies `W`. -/
private def Quiet (W : Token → Prop) : Option Token → List Token → Prop
  | _, [] => True
  | p, t :: l => (StartsLine p t → ¬ W t) ∧ Quiet W (some t) l

private theorem Quiet.append {W : Token → Prop} : ∀ {p : Option Token} {l m : List Token}, Quiet W p l →
    Quiet W (lastWord p l) m → Quiet W p (l ++ m) := by
  intro p l
  induction l generalizing p with
  | nil => exact fun _ h => h
  | cons t l ih => exact fun h g => ⟨h.1, ih h.2 g⟩

private theorem quiet_line {W : Token → Prop} {n : Nat} : ∀ {p : Token} {l : List Token}, p.line = n →
    (∀ t ∈ l, t.line = n) → Quiet W (some p) l := by
  intro p l
  induction l generalizing p with
  | nil => exact fun _ _ => trivial
  | cons t l ih =>
    intro hp h
    refine ⟨fun hs => absurd (hp.trans (h t (by simp)).symm) (hs p rfl), ih (h t (by simp)) fun x hx => h x (by simp [hx])⟩

private theorem Quiet.split {W : Token → Prop} : ∀ {a : List Token} {p : Option Token} {t : Token} {b : List Token},
    Quiet W p (a ++ t :: b) → StartsLine (lastWord p a) t → ¬ W t := by
  intro a
  induction a with
  | nil => exact fun h => h.1
  | cons x a ih => exact fun h => ih h.2

private theorem skip_quiet {W : Token → Prop} {s s' : PS} {u : Unit} (h : P.skipUntilNewline s = .ok u s') :
    ∃ l, Moves s l s' ∧ Quiet W s.ct l ∧ ∀ t, s'.nt = some t → StartsLine s'.ct t := by
  obtain ⟨l, h1, h2, h3⟩ := skip_moves h
  refine ⟨l, h1, ?_, h3⟩
  cases l with
  | nil => trivial
  | cons x l =>
    obtain ⟨p, hp, -⟩ := h2 x (by simp)
    rw [hp]
    refine quiet_line (n := p.line) rfl fun t ht => ?_
    obtain ⟨q, hq, hl⟩ := h2 t ht
    rw [hp] at hq
    cases hq
    exact hl

private theorem loop_moves {W : Token → Prop} {loop : Nat → P Unit} {stop : PS → Bool} {tabs : List STab}
    (h0 : loop 0 = P.crash .fuel)
    (hs : ∀ k, loop (k + 1) = (do
      let s ← P.get
      if s.peekEof || stop s then pure () else P.advance; P.skipUntilNewline; loop k))
    (hw : ∀ s t, s.tabs = tabs → s.nt = some t → (stop s = true ↔ W t)) :
    ∀ (k : Nat) (s : PS) {u : Unit} {s' : PS}, s.tabs = tabs → (∀ t, s.nt = some t → StartsLine s.ct t) →
    loop k s = .ok u s' →
    ∃ l, Moves s l s' ∧ Quiet W s.ct l ∧ ∀ t, s'.nt = some t → StartsLine s'.ct t ∧ W t := by
  intro k
  induction k with
  | zero => intro s u s' _ _ h; rw [h0] at h; cases h
  | succ k ih =>
    intro s u s' htab hst h
    rw [hs, bind_apply] at h
    simp only [P.get] at h
    cases hn : s.nt with
    | none =>
      rw [if_pos (by simp [PS.peekEof, hn])] at h
      cases h
      exact ⟨[], .refl _, trivial, fun t ht => by rw [hn] at ht; cases ht⟩
    | some t =>
      by_cases hc : stop s = true
      · rw [if_pos (by simp [hc])] at h
        cases h
        exact ⟨[], .refl _, trivial, fun x hx => ⟨hst x hx, (hw s x htab hx).1 hc⟩⟩
      · rw [if_neg (by simpa [PS.peekEof, hn] using hc), bind_apply] at h
        cases ha : P.advance s with
        | err s1 => rw [ha] at h; cases h
        | crash c s1 => rw [ha] at h; cases h
        | ok a s1 =>
          rw [ha] at h
          simp only at h
          rw [bind_apply] at h
          have hm := advance_moves hn ha
          cases hk : P.skipUntilNewline s1 with
          | err s2 => rw [hk] at h; cases h
          | crash c s2 => rw [hk] at h; cases h
          | ok b s2 =>
            rw [hk] at h
            obtain ⟨l, h1, h2, h3⟩ := skip_quiet (W := W) hk
            have hm2 := hm.trans h1
            have ht2 : s2.tabs = tabs := by rw [hm2.same]; exact htab
            obtain ⟨m, g1, g2, g3⟩ := ih s2 ht2 h3 h
            refine ⟨_, hm2.trans g1, ?_, g3⟩
            refine Quiet.append (Quiet.append ⟨fun _ hW => hc ((hw s t htab hn).2 hW), trivial⟩ ?_) ?_
            · have := hm.ct
              rw [this] at h2
              exact h2
            · rw [← hm2.ct]; exact g2

private theorem resumes_of {W : Token → Prop} {s s' : PS} {l : List Token} (h : Moves s l s') (hq : Quiet W s.ct l)
    (hp : ∀ t, s'.nt = some t → StartsLine s'.ct t ∧ W t) : ResumesAt W s s' :=
  ⟨h.same, ⟨l, h.words, h.ct, fun a t b hl => by subst hl; exact hq.split⟩, hp⟩

private theorem recover_resumes {W : Token → Prop} {loop : Nat → P Unit} {stop : PS → Bool} {s s' : PS} {b : Bool}
    (h0 : loop 0 = P.crash .fuel)
    (hs : ∀ k, loop (k + 1) = (do
      let s ← P.get
      if s.peekEof || stop s then pure () else P.advance; P.skipUntilNewline; loop k))
    (hw : ∀ s1 t, s1.tabs = s.tabs → s1.nt = some t → (stop s1 = true ↔ W t))
    (h : (do P.skipUntilNewline; let s ← P.get; loop (s.toks + 1); pure false : P Bool) s = .ok b s') :
    b = false ∧ ResumesAt W s s' := by
  rw [bind_apply] at h
  cases hk : P.skipUntilNewline s with
  | err s2 => rw [hk] at h; cases h
  | crash c s2 => rw [hk] at h; cases h
  | ok u s1 =>
    rw [hk] at h
    simp only at h
    rw [bind_apply] at h
    simp only [P.get] at h
    rw [bind_apply] at h
    obtain ⟨l, h1, h2, h3⟩ := skip_quiet (W := W) hk
    cases hl : loop (s1.toks + 1) s1 with
    | err s2 => rw [hl] at h; cases h
    | crash c s2 => rw [hl] at h; cases h
    | ok v s2 =>
      rw [hl] at h
      cases h
      obtain ⟨m, g1, g2, g3⟩ := loop_moves h0 hs hw _ s1 (by rw [h1.same]) h3 hl
      exact ⟨rfl, resumes_of (h1.trans g1) (h2.append (by rw [← h1.ct]; exact g2)) g3⟩

/-- **C101** (rsl files): after an error the parser goes on at the next line that begins with a word that can begin a
declaration, or at the end of the file. -/
theorem C101_rsl {E : FileEnv} {s s' : PS} {b : Bool} (hE : E.recover = true) (h : recoverRsl E s = .ok b s') :
    b = false ∧ ResumesAt DeclWord s s' := by
  unfold recoverRsl at h
  rw [hE] at h
  refine recover_resumes (loop := recoverRslLoop) (stop := PS.canResumeRsl) rfl (fun k => rfl) ?_ h
  intro s1 t _ hn
  simp only [PS.canResumeRsl, PS.peekKw, hn, Option.any_some, Bool.or_eq_true, decide_eq_true_eq, DeclWord,
    List.mem_cons, List.not_mem_nil, or_false, exists_eq_or_imp, exists_eq_left]
  tauto

private theorem chain_contains (c : List Frame) (k n : List Char) :
    chainContains c k (some n) = match chainGet c k with | some e => decide (n = e.name) | none => false := by
  induction c with
  | nil => rfl
  | cons f c ih =>
    unfold chainContains chainGet
    cases f.get k with
    | none => exact ih
    | some e => rfl

private theorem contains_of {T : STab} (hp : T.parents = []) {n : List Char} {e : Ent} (h : T.lookup n none = .ok e) :
    T.contains n = true := by
  obtain ⟨h1, h2⟩ := (Rearrange.lookup_iff T n e).1 h
  unfold STab.contains STab.containsRaw
  unfold STab.find at h1
  rw [List.findSome?_cons, hp] at h1
  rw [show chainGet [T.own] (simplifiedName n) = T.own.get (simplifiedName n) by
    unfold chainGet; cases T.own.get (simplifiedName n) <;> rfl] at h1
  cases ho : T.own.get (simplifiedName n) with
  | some x =>
    rw [ho] at h1
    cases h1
    simp [h2]
  | none =>
    rw [ho] at h1
    simp only at h1
    obtain ⟨c, hc, hg⟩ := List.exists_of_findSome?_eq_some h1
    simp only [hp, List.isEmpty_nil, if_true, List.any_eq_true]
    exact ⟨c, hc, by rw [chain_contains, hg]; simp [h2]⟩

private theorem of_contains {T : STab} (hp : T.parents = []) (hi : T.imported = []) {n : List Char}
    (h : T.contains n = true) : ∃ e, T.lookup n none = .ok e := by
  unfold STab.contains STab.containsRaw at h
  cases ho : T.own.get (simplifiedName n) with
  | none => rw [ho] at h; simp [hp, hi] at h
  | some e =>
    rw [ho] at h
    refine ⟨e, (Rearrange.lookup_iff T n e).2 ⟨?_, by simpa using (by simpa using h : n = e.name).symm⟩⟩
    unfold STab.find
    rw [List.findSome?_cons]
    unfold chainGet
    rw [ho]

private theorem assuming_iff (T : STab) (n : List Char) (e : Ent) :
    T.lookupAssuming n none = .ok (some e) ↔ T.lookup n none = .ok e := by
  rw [Rearrange.lookup_iff]
  unfold STab.lookupAssuming
  cases T.find (simplifiedName n) with
  | none => simp
  | some x =>
    by_cases hx : x.name = n
    · simp only [hx, ne_eq, not_true_eq_false, if_false, Option.any_none, Bool.false_eq_true, Except.ok.injEq,
        Option.some.injEq]
      constructor
      · rintro rfl; exact ⟨rfl, hx⟩
      · exact fun h => h.1
    · simp only [ne_eq, hx, not_false_eq_true, if_true, Except.ok.injEq, Option.some.injEq]
      constructor
      · intro h; cases h
      · rintro ⟨rfl, h⟩; exact absurd h hx

private theorem resume_iff {E : FileEnv} {s : PS} {t : Token} (hg : E.global.parents = []) (hi : E.global.imported = [])
    (hp : (s.tab E.pkg).parents = []) (hn : s.nt = some t) :
    s.canResume E = true ↔ EntryWord E.global (s.tab E.pkg) t := by
  unfold PS.canResume EntryWord
  simp only [PS.peekKw, hn, Option.any_some]
  by_cases h1 : t.kind = .KEYWORD ∧ t.value = .str "section".toList
  · simp [h1]
  · rw [if_neg (by simpa using h1)]
    by_cases h2 : t.kind = .IDENTIFIER
    · rw [if_neg (by simp [h2])]
      rw [or_iff_right h1, and_iff_right h2]
      by_cases h3 : E.global.contains t.text = true
      · rw [if_pos h3]
        obtain ⟨e, he⟩ := of_contains hg hi h3
        rw [(assuming_iff _ _ _).2 he]
        simp only [decide_eq_true_eq]
        constructor
        · exact fun h => .inl ⟨e, he, h⟩
        · rintro (⟨x, hx, h⟩ | ⟨h, -⟩)
          · rw [he] at hx; cases hx; exact h
          · exact absurd he (h e)
      · rw [if_neg h3]
        have hno : ∀ e, E.global.lookup t.text none ≠ .ok e := fun e he => h3 (contains_of hg he)
        rw [or_iff_right (fun ⟨e, he, _⟩ => hno e he), and_iff_right hno]
        constructor
        · intro h
          split at h
          · split at h
            · rename_i e he
              exact ⟨e, (assuming_iff _ _ _).1 he, by simpa using h⟩
            · cases h
          · cases h
        · rintro ⟨e, he, hc⟩
          rw [if_pos (contains_of hp he), (assuming_iff _ _ _).2 he]
          simpa using hc
    · rw [if_pos h2]
      rw [or_iff_right h1]
      exact ⟨fun h => (by cases h), fun h => absurd h.1 h2⟩

/-- Declarations change neither the parents nor the imports of a table: the global table (`STab.empty` with declarations) and
the tables of packages (`STab.importing` with declarations) meet the hypotheses below. -/
theorem registerAll_frame (T : STab) (es : List Ent) :
    (T.registerAll es).parents = T.parents ∧ (T.registerAll es).imported = T.imported := by
  induction es generalizing T with
  | nil => exact ⟨rfl, rfl⟩
  | cons e es ih =>
    unfold STab.registerAll
    cases h : T.register e with
    | error x => exact ih T
    | ok T' =>
      have : T'.parents = T.parents ∧ T'.imported = T.imported := by
        unfold STab.register at h
        dsimp only at h
        split at h
        · split at h
          · split at h <;> cases h
          · cases h
        · cases h; exact ⟨rfl, rfl⟩
      exact ⟨(ih T').1.trans this.1, (ih T').2.trans this.2⟩

/-- **C101** (trlc files): after an error the parser goes on at the next line that begins with `section`, the name of a
package or the name of a record type of the package of the file, or at the end of the file. -/
theorem C101_trlc {E : FileEnv} {s s' : PS} {b : Bool} (hE : E.recover = true) (hg : E.global.parents = [])
    (hi : E.global.imported = []) (hp : (s.tab E.pkg).parents = []) (h : recoverFile E s = .ok b s') :
    b = false ∧ ResumesAt (EntryWord E.global (s.tab E.pkg)) s s' := by
  unfold recoverFile at h
  rw [hE] at h
  refine recover_resumes (loop := recoverLoop E) (stop := fun s => s.canResume E) rfl (fun k => rfl) ?_ h
  intro s1 t ht hn
  have : s1.tab E.pkg = s.tab E.pkg := by unfold PS.tab; rw [ht]
  rw [← this]
  exact resume_iff hg hi (by rw [this]; exact hp) hn

/-- **C101**: an entry with an error does not stop the other entries of a trlc file from being read, from that place. -/
theorem C101_goes_on {E : FileEnv} {s s1 s' : PS} {b ok : Bool} {k : Nat} (hE : E.recover = true)
    (hg : E.global.parents = []) (hi : E.global.imported = []) (hp : (s1.tab E.pkg).parents = [])
    (hs : (s.peekKw "section" || s.peek .IDENTIFIER) = true) (he : parseEntry E (2 * s.toks + 2) s = .err s1)
    (hr : recoverFile E s1 = .ok b s') :
    ResumesAt (EntryWord E.global (s1.tab E.pkg)) s1 s' ∧ fileLoop E (k + 1) ok s = fileLoop E k false s' := by
  obtain ⟨rfl, h⟩ := C101_trlc hE hg hi hp hr
  refine ⟨h, ?_⟩
  rw [fileLoop, bind_apply]
  simp only [P.get]
  rw [if_pos hs, bind_apply]
  have : (P.tryCatch (do parseEntry E (2 * s.toks + 2); pure true) (recoverFile E)) s = .ok false s' := by
    unfold P.tryCatch
    rw [bind_apply, he]
    exact hr
  rw [this]
  simp

namespace ResumeSample

/-- a word of a sample file -/
def word (k : Kind) (v : String) (line : Nat) : Token := ⟨k, .str v.toList, 0, 0, line, 1⟩

/-- a package `P` in the global table -/
def env : FileEnv := ⟨⟨[("p".toList, ⟨"P".toList, 0, clsPackage⟩)], [], []⟩, 0, [], true, fun _ => .ok [], true⟩

/-- An error behind the word `x` of line 1; `T` is a record type. -/
def start : PS := {
  sects := [], decls := ⟨[], [], []⟩, infos := [], seps := [], objs := [], nid := 0, errs := []
  ct := some (word .IDENTIFIER "x" 1), nt := some (word .IDENTIFIER "T" 1)
  rest := [.tok (word .IDENTIFIER "y" 2), .tok (word .IDENTIFIER "T" 2), .tok (word .IDENTIFIER "T" 3), .tok (word .IDENTIFIER "z" 3)]
  tabs := [⟨[("t".toList, ⟨"T".toList, 0, clsRecord⟩)], [], []⟩] }

/-- An rsl file with an error behind the word `x` of line 1. -/
def rsl : PS := { start with
  nt := some (word .KEYWORD "type" 1)
  rest := [.tok (word .IDENTIFIER "y" 2), .tok (word .KEYWORD "type" 2), .tok (word .KEYWORD "enum" 3)] }

/-- A file that begins with the unknown type `U`. -/
def unknown : PS := { start with
  ct := none, nt := some (word .IDENTIFIER "U" 1)
  rest := [.tok (word .IDENTIFIER "T" 1), .tok (word .IDENTIFIER "T" 2)] }

end ResumeSample

example : ∃ b s', recoverRsl ResumeSample.env ResumeSample.rsl = .ok b s' ∧
    s'.nt = some (ResumeSample.word .KEYWORD "enum" 3) ∧ ResumeSample.env.recover = true :=
  ⟨_, _, rfl, rfl, rfl⟩

example : ∃ s1 b s', parseEntry ResumeSample.env (2 * ResumeSample.unknown.toks + 2) ResumeSample.unknown = .err s1 ∧
    recoverFile ResumeSample.env s1 = .ok b s' ∧ s'.nt = some (ResumeSample.word .IDENTIFIER "T" 2) ∧
    (ResumeSample.unknown.peekKw "section" || ResumeSample.unknown.peek .IDENTIFIER) = true ∧
    (s1.tab ResumeSample.env.pkg).parents = [] :=
  ⟨_, _, _, rfl, rfl, rfl, rfl, rfl⟩

/-- The record type `T` in lines 1 and 2 does not begin a line after the error; the parser goes on with line 3. -/
example : ∃ b s', recoverFile ResumeSample.env ResumeSample.start = .ok b s' ∧
    s'.nt = some (ResumeSample.word .IDENTIFIER "T" 3) ∧ ResumeSample.env.recover = true ∧
    ResumeSample.env.global.parents = [] ∧ ResumeSample.env.global.imported = [] ∧
    (ResumeSample.start.tab ResumeSample.env.pkg).parents = [] :=
  ⟨_, _, rfl, rfl, rfl, rfl, rfl, rfl⟩

end Verif.Props
