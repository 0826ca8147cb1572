import Verif.Lemmas.CalmFile
import Verif.Lemmas.Registering
import Verif.Lemmas.Process
import Verif.Props.LexerCrash
import Verif.Props.Markup
/-!
# Which internal exceptions can be raised while the files of a run are read
-/
namespace Verif.Lemmas
open Verif.Model Verif.Spec

variable {α β : Type} {Q : Prop}

/-! ## Tokens -/

/-- the text ends with a quote that the lexer can not report -/
def EndsBadly (content : List Char) : Prop := ∃ pre tail, content = pre ++ tail ∧ tail ∈ Props.danglingQuotes

theorem afterCalls_content (content : List Char) (k : Nat) : (Props.afterCalls content k).content = content := by
  induction k with
  | zero => rfl
  | succ k ih =>
    exact (token_inv (Props.afterCalls_inv content k) (o := (token (Props.afterCalls content k)).1) rfl).2.trans ih

theorem lexStream_mem (content : List Char) : ∀ (n k : Nat) (o : LexOut), o ∈ lexStream n (Props.afterCalls content k) →
    ∃ j, (token (Props.afterCalls content j)).1 = o
  | 0, _, _, h => by cases h
  | n + 1, k, o, h => by
    unfold lexStream at h
    have next : ∀ x s', token (Props.afterCalls content k) = (x, s') → s' = Props.afterCalls content (k + 1) := by
      intro x s' h
      show s' = (token (Props.afterCalls content k)).2
      rw [h]
    split at h
    · next t s' ht =>
      rcases List.mem_cons.1 h with rfl | h
      · exact ⟨k, by rw [ht]⟩
      · rw [next _ _ ht] at h; exact lexStream_mem content n (k + 1) o h
    · next s' ht =>
      rw [List.mem_singleton] at h
      subst h
      exact ⟨k, by rw [ht]⟩
    · next a b c s' ht =>
      rcases List.mem_cons.1 h with rfl | h
      · exact ⟨k, by rw [ht]⟩
      · rw [next _ _ ht] at h; exact lexStream_mem content n (k + 1) o h
    · next s' ht =>
      rcases List.mem_cons.1 h with rfl | h
      · exact ⟨k, by rw [ht]⟩
      · rw [next _ _ ht] at h; exact lexStream_mem content n (k + 1) o h

theorem lexStream_num {content : List Char} {n : Nat} {t : Token}
    (h : .tok t ∈ lexStream n (LexState.init content)) : NumTok t := by
  obtain ⟨j, hj⟩ := lexStream_mem content n 0 _ h
  have key := fun hk => Props.number_token_of (Props.afterCalls_inv content j) (afterCalls_content content j)
    (t := t) (s2 := (token (Props.afterCalls content j)).2) (by rw [← hj]) rfl hk
  constructor
  · intro hk
    rcases key (.inl hk) with ⟨-, n, -, h⟩ | ⟨h, -⟩
    · exact ⟨n, h⟩
    · rw [hk] at h; cases h
  · intro hk
    rcases key (.inr hk) with ⟨h, -⟩ | ⟨-, q, -, h⟩
    · rw [hk] at h; cases h
    · exact ⟨q, h⟩

theorem lexStream_crash {content : List Char} {n : Nat} (h : .crash ∈ lexStream n (LexState.init content)) :
    EndsBadly content := by
  obtain ⟨j, hj⟩ := lexStream_mem content n 0 _ h
  obtain ⟨ws, tail, h1, -, h3⟩ := (Props.C53_crash_iff_partial content j).1 hj
  have hi := (Props.afterCalls_inv content j).todo
  rw [h1, afterCalls_content] at hi
  refine ⟨content.take (Props.afterCalls content j).pos ++ ws, tail, ?_, h3⟩
  rw [List.append_assoc, hi, List.take_append_drop]

/-! ## Preambles -/

/-- What is known about the tokens of a file -/
structure Src (Q : Prop) (n : Option Token) (r : List LexOut) : Prop where
  nt : ∀ t, n = some t → NumTok t
  rest : ∀ t, .tok t ∈ r → NumTok t
  quote : .crash ∈ r → Q

/-- Only the lexer fails. -/
def Lx (Q : Prop) : PR α → Prop
  | .ok _ s' => Src Q s'.nt s'.rest
  | .err s' => Src Q s'.nt s'.rest
  | .crash c _ => c = .lexer ∧ Q

/-- … in all states -/
class OnlyLexer (Q : Prop) (x : P α) : Prop where
  rep : ∀ s, Src Q s.nt s.rest → Lx Q (x s)

theorem src_advance : ∀ (r : List LexOut) (s : PS), (∀ t, .tok t ∈ r → NumTok t) → (.crash ∈ r → Q) →
    (∀ t, s.nt = some t → NumTok t) → Lx Q (advanceLoop s r) := by
  intro r
  induction r with
  | nil => intro s _ _ h; exact ⟨by simp, by simp, by simp⟩
  | cons o r ih =>
    intro s h1 h2 h
    have h1' : ∀ t, .tok t ∈ r → NumTok t := fun t ht => h1 t (List.mem_cons_of_mem _ ht)
    have h2' : .crash ∈ r → Q := fun ht => h2 (List.mem_cons_of_mem _ ht)
    cases o with
    | tok t =>
      unfold advanceLoop
      by_cases hc : t.kind = .COMMENT
      · simp only [hc, if_true]
        exact ih s h1' h2' h
      · simp only [hc, if_false]
        exact ⟨by rintro t ⟨⟩; exact h1 _ (by simp), h1', h2'⟩
    | eof => exact ⟨by simp, by simp, by simp⟩
    | error k a b => exact ⟨h, h1', h2'⟩
    | crash => exact ⟨rfl, h2 (by simp)⟩

instance : OnlyLexer Q P.advance := ⟨fun s hs => src_advance s.rest { s with ct := s.nt } hs.rest hs.quote hs.nt⟩

instance {x : P α} {f : α → P β} [hx : OnlyLexer Q x] [hf : ∀ a, OnlyLexer Q (f a)] : OnlyLexer Q (x >>= f) := ⟨by
  intro s hs
  have h1 := hx.rep s hs
  rw [bind_apply]
  cases h : x s with
  | ok a s1 => rw [h] at h1; exact (hf a).rep s1 h1
  | err s1 => rw [h] at h1; exact h1
  | crash c s1 => rw [h] at h1; exact h1⟩

theorem lx_advance {s : PS} {t : Token} (hs : Src Q s.nt s.rest) :
    Lx Q ((do let _ ← P.advance; pure t : P Token) s) := by
  have := (inferInstance : OnlyLexer Q P.advance).rep s hs
  rw [bind_apply]
  cases h : P.advance s with
  | ok a s1 => rw [h] at this; exact this
  | err s1 => rw [h] at this; exact this
  | crash c s1 => rw [h] at this; exact this

theorem lx_fail {s : PS} {e : PErr} (hs : Src Q s.nt s.rest) : Lx Q ((P.fail e : P α) s) := hs

instance {k : Kind} : OnlyLexer Q (P.matchK k) := ⟨by
  intro s hs
  unfold P.matchK
  cases h : s.nt with
  | none => exact lx_fail hs
  | some t =>
    dsimp only
    split
    · exact lx_fail hs
    · exact lx_advance hs⟩

instance {v : String} : OnlyLexer Q (P.matchKw v) := ⟨by
  intro s hs
  unfold P.matchKw
  cases h : s.nt with
  | none => exact lx_fail hs
  | some t =>
    dsimp only
    split
    · exact lx_fail hs
    · split
      · exact lx_fail hs
      · exact lx_advance hs⟩

instance : OnlyLexer Q readPackage := by unfold readPackage; infer_instance
instance : OnlyLexer Q readImport := by unfold readImport; infer_instance

theorem readImports_lexes (own : List Char) : ∀ (k : Nat) (s : PS), Src Q s.nt s.rest →
    match (readImports own k s).2 with
    | .ok _ s' => Src Q s'.nt s'.rest
    | .err s' => Src Q s'.nt s'.rest
    | .crash c _ => c = .fuel ∨ (c = .lexer ∧ Q)
  | 0, s, hs => .inl rfl
  | k + 1, s, hs => by
    rw [readImports_succ]
    by_cases hp : s.peekKw "import" = true
    · rw [if_pos hp]
      have := (inferInstance : OnlyLexer Q readImport).rep s hs
      cases h : readImport s with
      | ok t s1 =>
        rw [h] at this
        dsimp only
        by_cases ho : t.text = own
        · rw [if_pos ho]; exact this
        · rw [if_neg ho]; exact readImports_lexes own k s1 this
      | err s1 => rw [h] at this; exact this
      | crash c s1 => rw [h] at this; exact .inr this
    · rw [if_neg hp]; exact hs

theorem loadPreamble_lexes {g : STab} {src : Source} (hs : Src Q src.nt src.rest) (s : PS) :
    match loadPreamble g src s with
    | .ok r _ => Src Q r.2.src.nt r.2.src.rest
    | .err _ => True
    | .crash c _ => c = .lexer ∧ Q := by
  have h1 := (inferInstance : OnlyLexer Q readPackage).rep (s.use src) hs
  cases h : loadPreamble g src s with
  | err s' => trivial
  | crash c s' =>
    have hf := (loadPreamble_crash h).1
    unfold loadPreamble at h
    dsimp only
    split at h
    · next h2 => cases h; rw [h2] at h1; exact h1
    · cases h
    · next t s1 h2 =>
      rw [h2] at h1
      split at h
      · cases h
      · have h3 := readImports_lexes t.text (s1.toks + 1) s1 h1
        split at h
        · next h4 =>
          cases h
          rw [h4] at h3
          rcases h3 with h3 | h3
          · exact absurd h3 hf
          · exact h3
        · cases h
        · cases h
  | ok r s' =>
    unfold loadPreamble at h
    dsimp only
    split at h
    · cases h
    · cases h; exact hs
    · next t s1 h2 =>
      rw [h2] at h1
      split at h
      · cases h; exact hs
      · have h3 := readImports_lexes t.text (s1.toks + 1) s1 h1
        split at h
        · cases h
        · next h4 => cases h; rw [h4] at h3; exact h3
        · next h4 => cases h; rw [h4] at h3; exact h3

theorem loadPreambles_lexes : ∀ (fs : List Source) (g : STab) (s : PS), (∀ f ∈ fs, Src Q f.nt f.rest) →
    match loadPreambles g fs s with
    | .ok r _ => ∀ l ∈ r.2, Src Q l.src.nt l.src.rest
    | .err _ => True
    | .crash c _ => c = .lexer ∧ Q
  | [], g, s, _ => by unfold loadPreambles; rw [pure_apply]; simp
  | f :: fs, g, s, hs => by
    have h1 := loadPreamble_lexes (g := g) (hs f (by simp)) s
    unfold loadPreambles
    rw [bind_apply]
    cases h : loadPreamble g f s with
    | err s1 => trivial
    | crash c s1 => rw [h] at h1; exact h1
    | ok r s1 =>
      rw [h] at h1
      have h2 := loadPreambles_lexes fs r.1 s1 fun f hf => hs f (List.mem_cons_of_mem _ hf)
      dsimp only
      rw [bind_apply]
      cases h' : loadPreambles r.1 fs s1 with
      | err s1 => trivial
      | crash c s1 => rw [h'] at h2; exact h2
      | ok rs s2 =>
        rw [h'] at h2
        rintro l hl
        rcases List.mem_cons.1 hl with rfl | hl
        · exact h1
        · exact h2 l hl

theorem loadAll_lexes {fs : List Source} {g : STab} {s : PS} (hs : ∀ f ∈ fs, Src Q f.nt f.rest) :
    match loadAll g fs s with
    | .ok r _ => ∀ l ∈ r.2, Src Q l.src.nt l.src.rest
    | .err _ => True
    | .crash c _ => c = .lexer ∧ Q := by
  have sub : ∀ k, ∀ f ∈ sortSources (fs.filter (·.file.kind = k)), Src Q f.nt f.rest := fun k f hf =>
    hs f (List.mem_of_mem_filter (sortSources_mem.1 hf))
  have res : ∀ (g : STab) (ls ls' : List Loaded) (s s' : PS), resolveLoaded g ls s = .ok ls' s' →
      (∀ l ∈ ls, Src Q l.src.nt l.src.rest) → ∀ l ∈ ls', Src Q l.src.nt l.src.rest := by
    intro g ls ls' s s' h hl l hl'
    rw [(resolveLoaded_ok h).1] at hl'
    obtain ⟨x, hx, rfl⟩ := List.mem_map.1 hl'
    exact hl x hx
  unfold loadAll
  have h1 := loadPreambles_lexes (Q := Q) (sortSources (fs.filter (·.file.kind = .rsl))) g s (sub _)
  rw [bind_apply]
  cases e1 : loadPreambles g (sortSources (fs.filter (·.file.kind = .rsl))) s with
  | err s1 => trivial
  | crash c s1 => rw [e1] at h1; exact h1
  | ok r1 s1 =>
    rw [e1] at h1
    dsimp only
    rw [bind_apply]
    obtain ⟨l1, s2, e2⟩ := resolveLoaded_total r1.1 r1.2 s1
    rw [e2]
    dsimp only
    have h3 := loadPreambles_lexes (Q := Q) (sortSources (fs.filter (·.file.kind = .trlc))) r1.1 s2 (sub _)
    rw [bind_apply]
    cases e3 : loadPreambles r1.1 (sortSources (fs.filter (·.file.kind = .trlc))) s2 with
    | err s1 => trivial
    | crash c s1 => rw [e3] at h3; exact h3
    | ok r2 s3 =>
      rw [e3] at h3
      dsimp only
      rw [bind_apply]
      obtain ⟨l2, s4, e4⟩ := resolveLoaded_total r2.1 r2.2 s3
      rw [e4]
      intro l hl
      rcases List.mem_append.1 hl with hl | hl
      · exact res _ _ _ _ _ e2 h1 l hl
      · exact res _ _ _ _ _ e4 h3 l hl

/-! ## Registering files -/

theorem registerFile_lexes {pt : Bool} {f : SrcFile} {s : PS} (hq : EndsBadly f.content → Q) :
    match registerFile pt f s with
    | .ok r _ => ∀ x ∈ r.1, Src Q x.nt x.rest
    | .err _ => True
    | .crash c _ => c = .lexer ∧ Q := by
  have h0 := (inferInstance : OnlyLexer Q P.advance).rep
    ({ s with ct := none, nt := none, rest := lexStream (f.content.length + 1) (LexState.init f.content) })
    ⟨by simp, fun t ht => lexStream_num ht, fun h => hq (lexStream_crash h)⟩
  unfold registerFile
  by_cases hk : (decide (f.kind = .trlc) && !pt) = true
  · rw [if_pos hk, pure_apply]
    intro x hx
    cases hx
  · rw [if_neg hk]
    unfold P.tryCatch
    rw [bind_apply]
    unfold createParser
    cases hx : P.advance (({ s with ct := none, nt := none, rest := lexStream (f.content.length + 1)
                                                                          (LexState.init f.content) }) : PS) with
    | ok a t =>
      rw [hx] at h0
      rintro x ⟨⟩
      exact h0
    | err t => rintro x ⟨⟩
    | crash k t => rw [hx] at h0; exact h0

theorem registerFiles_lexes {pt : Bool} : ∀ (fs : List SrcFile) (s : PS), (∀ f ∈ fs, EndsBadly f.content → Q) →
    match registerFiles pt fs s with
    | .ok r _ => ∀ x ∈ r.1, Src Q x.nt x.rest
    | .err _ => True
    | .crash c _ => c = .lexer ∧ Q
  | [], s, _ => by unfold registerFiles; rw [pure_apply]; simp
  | f :: fs, s, hq => by
    have h1 := registerFile_lexes (pt := pt) (s := s) (hq f (by simp))
    unfold registerFiles
    rw [bind_apply]
    cases h : registerFile pt f s with
    | err s1 => trivial
    | crash c s1 => rw [h] at h1; exact h1
    | ok r s1 =>
      rw [h] at h1
      have h2 := registerFiles_lexes (pt := pt) fs s1 fun f hf => hq f (List.mem_cons_of_mem _ hf)
      dsimp only
      rw [bind_apply]
      cases h' : registerFiles pt fs s1 with
      | err s1 => trivial
      | crash c s1 => rw [h'] at h2; exact h2
      | ok rs s2 =>
        rw [h'] at h2
        intro x hx
        rcases List.mem_append.1 hx with hx | hx
        · exact h1 x (by simpa using hx)
        · exact h2 x hx

/-! ## Files that are parsed -/

theorem markup_calm {E : MEnv} (h : E.resolved = true) {content : List Char} {t : Token} :
    markupParser E content t ≠ .crash := by
  unfold markupParser
  generalize nestedText (slice content t.startPos t.endPos) = text
  intro hc
  by_cases hx : ∃ ns refs, MarkupText text ns ∧ List.Forall₂ (Refers E) ns refs
  · obtain ⟨ns, refs, h1, h2⟩ := hx
    rw [(Props.C48_markup_strings E text refs).2 ⟨ns, h1, h2⟩] at hc
    cases hc
  · rw [Props.C48_rejected E h text hx] at hc
    cases hc

theorem open_inp {g : STab} {recover : Bool} {l : Loaded} {s : PS} (hs : Src Q l.src.nt l.src.rest)
    (ht : l.pid < s.tabs.length) : Inp Q (l.openFile g recover).env (s.enter (l.openFile g recover)) :=
  ⟨hs.nt, hs.rest, hs.quote, ht, fun h _ => markup_calm h⟩

/-- The exceptions of a file: `KnownEnd` for some environment, in which `R` holds if the imports
were not resolved -/
def KnownEndFile (Q R : Prop) (c : PCrash) (s : PS) : Prop :=
  c = .fuel ∨ c = .keyError ∨ (c = .lexer ∧ Q) ∨ (c = .attribute ∧ s.nt = none) ∨
    (c = .assertion ∧ R) ∨ ∃ x, c = .expr x ∧ Mild x

theorem KnownEnd.file {E : FileEnv} {R : Prop} {c : PCrash} {s : PS} (h : KnownEnd Q E c s) (hr : E.resolved = false → R) :
    KnownEndFile Q R c s := by
  rcases h with h | h | h | h | h | h
  · exact .inl h
  · exact .inr (.inl h)
  · exact .inr (.inr (.inl h))
  · exact .inr (.inr (.inr (.inl h)))
  · exact .inr (.inr (.inr (.inr (.inl ⟨h.1, hr h.2⟩))))
  · exact .inr (.inr (.inr (.inr (.inr h))))

theorem runTrlcFiles_known {D : Decls} {infos : List RecInfo} (hw : WorldOk D infos) {g : STab} {recover : Bool} :
    ∀ (ls : List Loaded) (s : PS), s.decls = D → s.infos = infos →
    (∀ l ∈ ls, Src Q l.src.nt l.src.rest ∧ l.pid < s.tabs.length ∧ l.cu.imports.isSome = true) →
    ∀ c s', runTrlcFiles (ls.map (·.openFile g recover)) s = .crash c s' → KnownEndFile Q False c s'
  | [], _, _, _, _, _, _, h => by cases h
  | l :: ls, s, hD, hI, hl, c, s', h => by
    rw [List.map_cons] at h
    unfold runTrlcFiles at h
    obtain ⟨h1, h2, h3⟩ := hl l (by simp)
    have hc := (parseTrlcFile_calm (Q := Q) (E := (l.openFile g recover).env)).rep _ (open_inp (s := s) h1 h2)
    rw [bind_apply] at h
    cases e : runTrlcFile (l.openFile g recover) s with
    | ok b s1 =>
      rw [e] at h
      dsimp only at h
      have hk := ((runTrlcFile_sp hw 0 (l.openFile g recover) s hD hI).ok e).1
      rw [bind_apply] at h
      cases e2 : runTrlcFiles (ls.map (·.openFile g recover)) s1 with
      | ok b2 s2 => rw [e2] at h; cases h
      | err s2 => rw [e2] at h; cases h
      | crash c2 s2 =>
        rw [e2] at h
        cases h
        refine runTrlcFiles_known hw ls s1 (hk.decls.trans hD) (hk.infos.trans hI) (fun x hx => ?_) _ _ e2
        obtain ⟨a1, a2, a3⟩ := hl x (List.mem_cons_of_mem _ hx)
        exact ⟨a1, by rw [hk.tabs]; exact a2, a3⟩
    | err s1 => rw [e] at h; cases h
    | crash c1 s1 =>
      rw [e] at h
      cases h
      have e1 : runTrlcFile (l.openFile g recover) s =
        P.tryCatch (parseTrlcFile (l.openFile g recover).env) (pure false) (s.enter (l.openFile g recover)) := rfl
      rw [e1] at e
      unfold P.tryCatch at e
      unfold Cal at hc
      cases h4 : parseTrlcFile (l.openFile g recover).env (s.enter (l.openFile g recover)) with
      | ok a s2 => rw [h4] at e; cases e
      | err s2 => rw [h4] at e; cases e
      | crash c2 s2 =>
        rw [h4] at e hc
        cases e
        exact hc.file fun hf => by
          have : (l.openFile g recover).env.resolved = l.cu.imports.isSome := rfl
          rw [this, h3] at hf
          cases hf

theorem runRslFiles_known {R : Prop} {rx : Regex} {g : STab} {recover : Bool} : ∀ (ls : List Loaded) (s : PS),
    RslInv g s → AllAcc rx s →
    (∀ l ∈ ls, Src Q l.src.nt l.src.rest ∧ l.pid < s.tabs.length ∧ (l.cu.imports.isSome = false → R)) →
    ∀ c s', runRslFiles rx (ls.map (·.openFile g recover)) s = .crash c s' → KnownEndFile Q R c s'
  | [], _, _, _, _, _, _, h => by cases h
  | l :: ls, s, hi, ha, hl, c, s', h => by
    rw [List.map_cons] at h
    unfold runRslFiles at h
    obtain ⟨h1, h2, h3⟩ := hl l (by simp)
    have hi' : RslInv g (s.enter (l.openFile g recover)) := ⟨hi.glob, hi.sound, hi.crecs, hi.ctups, hi.objs, hi.sees,
      hi.ents, hi.keys, hi.entered, hi.once, hi.frozenBefore⟩
    have hc := parseRslFile_cal (Q := Q) (rx := rx) (E := (l.openFile g recover).env) (open_inp (s := s) h1 h2) hi'
    have hr := (parseRslFile_sp (E := (l.openFile g recover).env) (rx := rx) hi').rel
    have e1 : runRslFile rx (l.openFile g recover) s =
      P.tryCatch (parseRslFile (l.openFile g recover).env rx) (pure false) (s.enter (l.openFile g recover)) := rfl
    rw [bind_apply, e1] at h
    unfold P.tryCatch at h
    unfold Cal at hc
    have rest : ∀ (a : Bool) (s1 : PS), Rf g rx (s.enter (l.openFile g recover)) s1 →
        (do let b ← runRslFiles rx (ls.map (·.openFile g recover)); pure (a && b) : P Bool) s1 = .crash c s' →
        KnownEndFile Q R c s' := by
      intro a s1 hs1 h
      obtain ⟨j1, j2⟩ := hs1.inv hi' ha
      rw [bind_apply] at h
      cases e2 : runRslFiles rx (ls.map (·.openFile g recover)) s1 with
      | ok b2 s2 => rw [e2] at h; cases h
      | err s2 => rw [e2] at h; cases h
      | crash c2 s2 =>
        rw [e2] at h
        cases h
        refine runRslFiles_known ls s1 j1 j2 (fun x hx => ?_) _ _ e2
        obtain ⟨a1, a2, a3⟩ := hl x (List.mem_cons_of_mem _ hx)
        exact ⟨a1, by rw [hs1.tabs]; exact a2, a3⟩
    cases h4 : parseRslFile (l.openFile g recover).env rx (s.enter (l.openFile g recover)) with
    | ok a s2 => rw [h4] at h hr; exact rest a s2 hr h
    | err s2 => rw [h4] at h hr; exact rest false s2 hr h
    | crash c2 s2 =>
      rw [h4] at h hc
      cases h
      exact hc.file h3

theorem runRsl_known {R : Prop} {rx : Regex} {g : STab} {recover : Bool} {required : Finset PNode} {ls : List Loaded}
    {s : PS} (hi : RslInv g s) (ha : AllAcc rx s)
    (hl : ∀ l ∈ rslFiles required ls, Src Q l.src.nt l.src.rest ∧ l.pid < s.tabs.length ∧
      (l.cu.imports.isSome = false → R)) {c : PCrash} {s' : PS} (h : runRsl g recover rx required ls s = .crash c s') :
    KnownEndFile Q R c s' := by
  unfold runRsl at h
  rw [bind_apply] at h
  cases e : runRslFiles rx ((rslFiles required ls).map (·.openFile g recover)) s with
  | ok b s1 =>
    rw [e] at h
    dsimp only at h
    split at h <;> cases h
  | err s1 => rw [e] at h; cases h
  | crash c1 s1 =>
    rw [e] at h
    cases h
    exact runRslFiles_known _ s hi ha hl _ _ e

end Verif.Lemmas
