import Verif.Lemmas.LayoutFile
import Verif.Spec.Layout
import Mathlib.Data.List.Forall2
/-!
# The same words in a different layout: runs
-/
namespace Verif.Lemmas.Layout
open Verif.Model Verif.Spec Verif.Lemmas

/-! ## Words -/

/-- Tokens of two files that are the same word -/
structure SameTok (c c' : List Char) (t t' : Token) : Prop where
  kind  : t'.kind = t.kind
  value : t'.value = t.value
  text  : literalText c' t' = literalText c t

instance {c c' : List Char} : SameWord (SameTok c c') := ⟨fun h => h.kind, fun h => h.value⟩

theorem wordsAmong_nil {c : List Char} {r : List LexOut} (h : wordsAmong c r = []) {L : Token → Token → Prop}
    {r' : List LexOut} (he : Ends r') : RestLike L r r' := by
  induction r with
  | nil => exact .stop .nil he
  | cons x r ih =>
    cases x with
    | eof => exact .stop .eof he
    | tok t =>
      rw [wordsAmong] at h
      split at h
      · next hk => exact .left hk (ih h)
      · cases h
    | error k a b => cases h
    | crash => cases h

theorem restLike_of {c c' : List Char} {r r' : List LexOut} (h : wordsAmong c r = wordsAmong c' r') :
    RestLike (SameTok c c') r r' := by
  induction r' generalizing r with
  | nil => exact wordsAmong_nil h .nil
  | cons x r' ih =>
    cases x with
    | eof => exact wordsAmong_nil h .eof
    | tok t' =>
      rw [wordsAmong] at h
      split at h
      · next hk => exact .right hk (ih h)
      · next hk =>
        clear hk
        induction r with
        | nil => cases h
        | cons y r ih2 =>
          cases y with
          | eof => cases h
          | error k a b => cases h
          | crash => cases h
          | tok t =>
            rw [wordsAmong] at h
            split at h
            · next hk => exact .left hk (ih2 h)
            · next hk =>
              simp only [List.cons.injEq, LWord.word.injEq] at h
              exact .tok ⟨h.1.1.symm, h.1.2.1.symm, h.1.2.2.symm⟩ hk (ih h.2)
    | error k' a' b' =>
      rw [wordsAmong] at h
      induction r with
      | nil => cases h
      | cons y r ih2 =>
        cases y with
        | eof => cases h
        | error k a b =>
          rw [wordsAmong] at h
          simp only [List.cons.injEq, LWord.error.injEq] at h
          obtain ⟨rfl, h⟩ := h
          exact .error (ih h)
        | crash => cases h
        | tok t =>
          rw [wordsAmong] at h
          split at h
          · next hk => exact .left hk (ih2 h)
          · cases h
    | crash =>
      rw [wordsAmong] at h
      induction r with
      | nil => cases h
      | cons y r ih2 =>
        cases y with
        | eof => cases h
        | error k a b => cases h
        | crash =>
          rw [wordsAmong] at h
          simp only [List.cons.injEq, true_and] at h
          exact .crash (ih h)
        | tok t =>
          rw [wordsAmong] at h
          split at h
          · next hk => exact .left hk (ih2 h)
          · cases h

/-! ## States and results between files -/

/-- The same state, up to the tokens in front of the parser -/
def Base (s s' : PS) : Prop := ∃ c n r, s' = relay s c n r

theorem Sim.base {L : Token → Token → Prop} {s s' : PS} (h : Sim L s s') : Base s s' := by
  cases h; exact ⟨_, _, _, rfl⟩

/-- The same end, up to the tokens in front of the parser -/
inductive ResB {α β : Type} (A : α → β → Prop) : PR α → PR β → Prop
  | fuelL {s r} : ResB A (.crash .fuel s) r
  | fuelR {s r} : ResB A r (.crash .fuel s)
  | ok {a b s s'} : A a b → Base s s' → ResB A (.ok a s) (.ok b s')
  | err {s s'} : Base s s' → ResB A (.err s) (.err s')
  | crash {c s s'} : Base s s' → ResB A (.crash c s) (.crash c s')

theorem ResR.base {L : Token → Token → Prop} {α β : Type} {A : α → β → Prop} {x : PR α} {y : PR β}
    (h : ResR L A x y) : ResB A x y := by
  cases h with
  | fuelL => exact .fuelL
  | fuelR => exact .fuelR
  | ok h1 h2 => exact .ok h1 h2.base
  | err h => exact .err h.base
  | crash h => exact .crash h.base

/-- The programs end in the same way. -/
def Bases {α β : Type} (A : α → β → Prop) (x : P α) (y : P β) : Prop :=
  ∀ s s', Base s s' → ResB A (x s) (y s')

variable {α β γ δ : Type} {A : α → β → Prop} {B : γ → δ → Prop}

theorem Bases.bind {x : P α} {y : P β} {f : α → P γ} {g : β → P δ} (hx : Bases A x y)
    (hf : ∀ a b, A a b → Bases B (f a) (g b)) : Bases B (x >>= f) (y >>= g) := by
  intro s s' h
  rw [bind_apply, bind_apply]
  have h1 := hx s s' h
  generalize x s = a at h1 ⊢
  generalize y s' = b at h1 ⊢
  cases h1 with
  | fuelL => exact .fuelL
  | fuelR => exact .fuelR
  | ok h1 h2 => exact hf _ _ h1 _ _ h2
  | err h1 => exact .err h1
  | crash h1 => exact .crash h1

theorem Bases.pure {a : α} {b : β} (h : A a b) : Bases A (pure a) (pure b) := fun _ _ hs => .ok h hs

theorem Bases.tryCatch {x y h h' : P α} (hx : Bases Eq x y) (hh : Bases Eq h h') :
    Bases Eq (P.tryCatch x h) (P.tryCatch y h') := by
  intro s s' hs
  unfold P.tryCatch
  have h1 := hx s s' hs
  generalize x s = a at h1 ⊢
  generalize y s' = b at h1 ⊢
  cases h1 with
  | fuelL => exact .fuelL
  | fuelR => exact .fuelR
  | ok h1 h2 => exact .ok h1 h2
  | err h1 => exact hh _ _ h1
  | crash h1 => exact .crash h1

/-! ## Files -/

/-- The same file in another layout, when its preamble is read -/
structure FileLike (f f' : OpenFile) : Prop where
  like : ∃ (L : Token → Token → Prop) (_ : SameWord L) (m : Token → MarkupOut),
    f'.env = re f.env m ∧ SameMarkup L f.env m ∧ OptLike L f.nt f'.nt ∧ RestLike L f.rest f'.rest
  recover : f.env.recover = false

theorem runTrlcFile_like {f f' : OpenFile} (h : FileLike f f') : Bases Eq (runTrlcFile f) (runTrlcFile f') := by
  obtain ⟨⟨L, hL, m, h1, hm, h3, h4⟩, h5⟩ := h
  intro s s' hs
  obtain ⟨c, n, r, rfl⟩ := hs
  have hx := sims_tryCatch (sims_parseTrlcFile (L := L) (m := m) h5) (sims_pure (a := false))
  rw [← h1] at hx
  have : Sim L (s.enter f) ((relay s c n r).enter f') :=
    Sim.mk (s := s.enter f) (c := f'.ct) (n := f'.nt) (r := f'.rest) h3 h4
  exact (hx.sim _ _ this).base

theorem runTrlcFiles_like {fs fs' : List OpenFile} (h : List.Forall₂ FileLike fs fs') :
    Bases Eq (runTrlcFiles fs) (runTrlcFiles fs') := by
  induction h with
  | nil => exact .pure rfl
  | cons h _ ih =>
    unfold runTrlcFiles
    exact (runTrlcFile_like h).bind fun a b e => by
      subst e; exact ih.bind fun a b e => by subst e; exact .pure rfl

theorem runRslFile_like {rx : Regex} {f f' : OpenFile} (h : FileLike f f') :
    Bases Eq (runRslFile rx f) (runRslFile rx f') := by
  obtain ⟨⟨L, hL, m, h1, hm, h3, h4⟩, h5⟩ := h
  intro s s' hs
  obtain ⟨c, n, r, rfl⟩ := hs
  have hx := sims_tryCatch (sims_parseRslFile (L := L) (m := m) (rx := rx) h5) (sims_pure (a := false))
  rw [← h1] at hx
  have : Sim L (s.enter f) ((relay s c n r).enter f') :=
    Sim.mk (s := s.enter f) (c := f'.ct) (n := f'.nt) (r := f'.rest) h3 h4
  exact (hx.sim _ _ this).base

theorem runRslFiles_like {rx : Regex} {fs fs' : List OpenFile} (h : List.Forall₂ FileLike fs fs') :
    Bases Eq (runRslFiles rx fs) (runRslFiles rx fs') := by
  induction h with
  | nil => exact .pure rfl
  | cons h _ ih =>
    unfold runRslFiles
    exact (runRslFile_like h).bind fun a b e => by
      subst e; exact ih.bind fun a b e => by subst e; exact .pure rfl

/-! ## Preambles -/

/-- The same file in another layout -/
structure SameFile (f f' : SrcFile) : Prop where
  name    : f'.name = f.name
  kind    : f'.kind = f.kind
  primary : f'.primary = f.primary

/-- The parsers of the same file in another layout -/
structure SrcLike (a b : Source) : Prop where
  file : SameFile a.file b.file
  nt   : OptLike (SameTok a.file.content b.file.content) a.nt b.nt
  rest : RestLike (SameTok a.file.content b.file.content) a.rest b.rest

/-- … after their preambles were read -/
structure LoadedLike (a b : Loaded) : Prop where
  cu  : b.cu = a.cu
  pid : b.pid = a.pid
  src : SrcLike a.src b.src

theorem SameFile.fileIn {f f' : SrcFile} (h : SameFile f f') (p : Preamble) : f'.fileIn p = f.fileIn p := by
  unfold SrcFile.fileIn
  rw [h.name, h.kind, h.primary]

theorem readImports_like {L : Token → Token → Prop} [hL : SameWord L] {own : List Char} : ∀ k k' s s', Sim L s s' →
    (∃ s1, (readImports own k s).2 = .crash .fuel s1) ∨ (∃ s1, (readImports own k' s').2 = .crash .fuel s1) ∨
    ((readImports own k s).1 = (readImports own k' s').1 ∧
      ResR L Eq (readImports own k s).2 (readImports own k' s').2)
  | 0, _, s, _, _ => .inl ⟨s, rfl⟩
  | _ + 1, 0, _, s', _ => .inr (.inl ⟨s', rfl⟩)
  | k + 1, k' + 1, s, s', hs => by
    have hx : Sims L L (do let _ ← P.matchKw "import"; P.matchK .IDENTIFIER : P Token)
      (do let _ ← P.matchKw "import"; P.matchK .IDENTIFIER) := sims_tok inferInstance fun _ _ _ => inferInstance
    have h1 := hx.sim s s' hs
    have hp : s'.peekKw "import" = s.peekKw "import" := by
      cases hs with
      | mk h2 _ => exact relay_peekKw h2 _
    unfold readImports
    rw [hp]
    split
    · generalize (do let _ ← P.matchKw "import"; P.matchK .IDENTIFIER : P Token) s = a at h1 ⊢
      generalize (do let _ ← P.matchKw "import"; P.matchK .IDENTIFIER : P Token) s' = b at h1 ⊢
      cases h1 with
      | fuelL => exact .inl ⟨_, rfl⟩
      | fuelR => exact .inr (.inl ⟨_, rfl⟩)
      | @ok t t' s1 s1' ht h2 =>
        dsimp only
        rw [text_like ht]
        split
        · exact .inr (.inr ⟨rfl, (sims_fail' (L := L)).sim _ _ h2⟩)
        · rcases readImports_like (own := own) k k' s1 s1' h2 with h | h | ⟨h3, h4⟩
          · exact .inl h
          · exact .inr (.inl h)
          · exact .inr (.inr ⟨by dsimp only; rw [h3], h4⟩)
      | err h => exact .inr (.inr ⟨rfl, .err h⟩)
      | crash h => exact .inr (.inr ⟨rfl, .crash h⟩)
    · exact .inr (.inr ⟨rfl, .ok rfl hs⟩)

/-- the same table, and files in another layout -/
def PairLike (a b : STab × Loaded) : Prop := b.1 = a.1 ∧ LoadedLike a.2 b.2

theorem loadPreamble_like {stab : STab} {a b : Source} (h : SrcLike a b) :
    Bases PairLike (loadPreamble stab a) (loadPreamble stab b) := by
  intro s s' hs
  obtain ⟨c, n, r, rfl⟩ := hs
  have h0 : Sim (SameTok a.file.content b.file.content) (s.use a) ((relay s c n r).use b) :=
    Sim.mk (s := s.use a) (c := b.ct) (n := b.nt) (r := b.rest) h.nt h.rest
  have hx : Sims (SameTok a.file.content b.file.content) (SameTok a.file.content b.file.content) readPackage
    readPackage := sims_tok inferInstance fun _ _ _ => inferInstance
  have h1 := hx.sim _ _ h0
  unfold loadPreamble
  generalize readPackage (s.use a) = x at h1 ⊢
  generalize readPackage ((relay s c n r).use b) = y at h1 ⊢
  cases h1 with
  | fuelL => exact .fuelL
  | fuelR => exact .fuelR
  | crash h => exact .crash h.base
  | err h2 =>
    refine .ok ⟨rfl, ?_, rfl, h⟩ h2.base
    simp only [Loaded.broken, h.file.fileIn]
  | @ok t t' s1 s1' ht h2 =>
    dsimp only
    rw [text_like ht, h.file.kind]
    cases hd : declarePackage stab a.file.kind t.text with
    | error e =>
      refine .ok ⟨rfl, ?_, rfl, h⟩ ?_
      · simp only [Loaded.broken, h.file.fileIn]
      · exact (sim_set (fun s => { s with errs := s.errs ++ [.sym e] }) (fun _ _ _ _ => rfl) (fun _ => rfl)
          (fun _ => rfl) h2).base
    | ok p =>
      obtain ⟨stab', id⟩ := p
      dsimp only
      have h3 := readImports_like (own := t.text) (s1.toks + 1) (s1'.toks + 1) s1 s1' h2
      generalize readImports t.text (s1.toks + 1) s1 = x at h3 ⊢
      generalize readImports t.text (s1'.toks + 1) s1' = y at h3 ⊢
      obtain ⟨i, x⟩ := x
      obtain ⟨i', y⟩ := y
      dsimp only at h3
      rcases h3 with ⟨s2, rfl⟩ | ⟨s2, rfl⟩ | ⟨rfl, h4⟩
      · exact .fuelL
      · exact .fuelR
      · have key : ∀ {s s' : PS} (b' : Bool), Sim (SameTok a.file.content b.file.content) s s' →
            PairLike (stab', .known a t.text id i b' s) (stab', .known b t.text id i b' s') := fun b' hs => by
          refine ⟨rfl, ?_, rfl, h.file, ?_, ?_⟩
          · simp only [Loaded.known, h.file.fileIn]
          · cases hs with | mk h1 h2 => exact h1
          · cases hs with | mk h1 h2 => exact h2
        cases h4 with
        | fuelL => exact .fuelL
        | fuelR => exact .fuelR
        | crash h => exact .crash h.base
        | ok _ h => exact .ok (key _ h) h.base
        | err h => exact .ok (key _ h) h.base

/-- the same table, and files in another layout -/
def PairsLike (a b : STab × List Loaded) : Prop := b.1 = a.1 ∧ List.Forall₂ LoadedLike a.2 b.2

theorem loadPreambles_like {fs fs' : List Source} (h : List.Forall₂ SrcLike fs fs') : ∀ {stab : STab},
    Bases PairsLike (loadPreambles stab fs) (loadPreambles stab fs') := by
  induction h with
  | nil => intro stab; exact .pure ⟨rfl, .nil⟩
  | cons h _ ih =>
    intro stab
    unfold loadPreambles
    refine (loadPreamble_like h).bind fun a b e => ?_
    rw [e.1]
    exact ih.bind fun a' b' e' => .pure ⟨e'.1, .cons e.2 e'.2⟩

theorem cus_like {ls ls' : List Loaded} (h : List.Forall₂ LoadedLike ls ls') : ls'.map (·.cu) = ls.map (·.cu) := by
  induction h with
  | nil => rfl
  | cons h _ ih => rw [List.map_cons, List.map_cons, h.cu, ih]

theorem resolveLoaded_like {stab : STab} {ls ls' : List Loaded} (h : List.Forall₂ LoadedLike ls ls') :
    Bases (List.Forall₂ LoadedLike) (resolveLoaded stab ls) (resolveLoaded stab ls') := by
  intro s s' hs
  obtain ⟨c, n, r, rfl⟩ := hs
  have e : (ls'.flatMap fun l => importErrors stab l.cu) = ls.flatMap fun l => importErrors stab l.cu := by
    have := congrArg (List.flatMap fun cu => importErrors stab cu) (cus_like h)
    rwa [List.flatMap_map, List.flatMap_map] at this
  unfold resolveLoaded
  rw [e]
  refine .ok ?_ ⟨c, n, r, rfl⟩
  rw [List.forall₂_map_left_iff, List.forall₂_map_right_iff]
  exact h.imp fun a b h => ⟨by dsimp only; rw [h.cu], h.pid, h.src⟩

theorem insertBy_like {R : α → β → Prop} {le : α → α → Bool} {le' : β → β → Bool}
    (hle : ∀ a b a' b', R a b → R a' b' → le' b b' = le a a') {x : α} {y : β} (h : R x y) {l : List α}
    {l' : List β} (hl : List.Forall₂ R l l') : List.Forall₂ R (insertBy le x l) (insertBy le' y l') := by
  induction hl with
  | nil => exact .cons h .nil
  | cons h1 h2 ih =>
    unfold insertBy
    rw [hle _ _ _ _ h h1]
    split
    · exact .cons h (.cons h1 h2)
    · exact .cons h1 ih

theorem pySort_like {R : α → β → Prop} {le : α → α → Bool} {le' : β → β → Bool}
    (hle : ∀ a b a' b', R a b → R a' b' → le' b b' = le a a') {l : List α}
    {l' : List β} (hl : List.Forall₂ R l l') : List.Forall₂ R (pySort le l) (pySort le' l') := by
  induction hl with
  | nil => exact .nil
  | cons h1 h2 ih => exact insertBy_like hle h1 ih

theorem filter_like {R : α → β → Prop} {p : α → Bool} {q : β → Bool} (hp : ∀ a b, R a b → q b = p a) {l : List α}
    {l' : List β} (hl : List.Forall₂ R l l') : List.Forall₂ R (l.filter p) (l'.filter q) := by
  induction hl with
  | nil => exact .nil
  | cons h1 h2 ih =>
    rw [List.filter_cons, List.filter_cons, hp _ _ h1]
    split
    · exact .cons h1 ih
    · exact ih

theorem loadAll_like {stab : STab} {fs fs' : List Source} (h : List.Forall₂ SrcLike fs fs') :
    Bases PairsLike (loadAll stab fs) (loadAll stab fs') := by
  have key : ∀ k, List.Forall₂ SrcLike (sortSources (fs.filter (·.file.kind = k)))
      (sortSources (fs'.filter (·.file.kind = k))) := fun k =>
    pySort_like (fun _ _ _ _ h1 h2 => by rw [h1.file.name, h2.file.name])
      (filter_like (fun _ _ h => by rw [h.file.kind]) h)
  unfold loadAll
  refine (loadPreambles_like (key _)).bind fun a b e => ?_
  rw [e.1]
  refine (resolveLoaded_like e.2).bind fun l l' e1 => ?_
  refine (loadPreambles_like (key _)).bind fun a b e => ?_
  rw [e.1]
  exact (resolveLoaded_like e.2).bind fun l l' e2 => .pure ⟨rfl, List.rel_append e1 e2⟩

/-! ## Registering files -/

theorem SameText.same {f f' : SrcFile} (h : SameText f f') : SameFile f f' := ⟨h.name, h.kind, h.primary⟩

theorem createParser_like {f f' : SrcFile} (h : SameText f f') : Bases SrcLike (createParser f) (createParser f') := by
  intro s s' hs
  obtain ⟨c, n, r, rfl⟩ := hs
  have h0 : Sim (SameTok f.content f'.content)
      { s with ct := none, nt := none, rest := lexStream (f.content.length + 1) (LexState.init f.content) }
      { relay s c n r with ct := none, nt := none, rest := lexStream (f'.content.length + 1) (LexState.init f'.content) } :=
    Sim.mk (s := { s with ct := none, nt := none, rest := lexStream (f.content.length + 1) (LexState.init f.content) })
      (c := none) .none (restLike_of h.words.symm)
  have h1 := sims_advance.sim _ _ h0
  unfold createParser
  revert h1
  generalize P.advance _ = x
  generalize P.advance _ = y
  intro h1
  cases h1 with
  | fuelL => exact .fuelL
  | fuelR => exact .fuelR
  | crash h => exact .crash h.base
  | err h => exact .err h.base
  | ok _ h2 =>
    refine .ok ⟨SameText.same h, ?_, ?_⟩ h2.base
    · cases h2 with | mk h1 h2 => exact h1
    · cases h2 with | mk h1 h2 => exact h2

/-- the same result of registering a file -/
def RegLike (a b : Option Source × Bool) : Prop := List.Forall₂ SrcLike a.1.toList b.1.toList ∧ b.2 = a.2

theorem registerFile_like {b : Bool} {f f' : SrcFile} (h : SameText f f') :
    Bases RegLike (registerFile b f) (registerFile b f') := by
  unfold registerFile
  rw [h.kind]
  split
  · exact .pure ⟨.nil, rfl⟩
  · intro s s' hs
    have h1 := createParser_like h s s' hs
    unfold P.tryCatch
    rw [bind_apply, bind_apply]
    generalize createParser f s = x at h1 ⊢
    generalize createParser f' s' = y at h1 ⊢
    cases h1 with
    | fuelL => exact .fuelL
    | fuelR => exact .fuelR
    | crash h => exact .crash h
    | err h => exact .ok ⟨.nil, rfl⟩ h
    | ok h1 h2 => exact .ok ⟨.cons h1 .nil, rfl⟩ h2

theorem registerFiles_like {b : Bool} {fs fs' : List SrcFile} (h : List.Forall₂ SameText fs fs') :
    Bases (fun a b => List.Forall₂ SrcLike a.1 b.1 ∧ b.2 = a.2) (registerFiles b fs) (registerFiles b fs') := by
  induction h with
  | nil => exact .pure ⟨.nil, rfl⟩
  | cons h _ ih =>
    unfold registerFiles
    refine (registerFile_like h).bind fun a b e => ?_
    refine ih.bind fun a' b' e' => .pure ⟨List.rel_append e.1 e'.1, ?_⟩
    dsimp only
    rw [e.2, e'.2]

/-! ## The files that are parsed -/

theorem openFile_like {g : STab} {a b : Loaded} (h : LoadedLike a b) :
    FileLike (a.openFile g false) (b.openFile g false) := by
  refine ⟨⟨SameTok a.src.file.content b.src.file.content, inferInstance, (b.openFile g false).env.markup, ?_, ⟨?_⟩,
    h.src.nt, h.src.rest⟩, rfl⟩
  · unfold Loaded.openFile re
    rw [h.cu, h.pid]
  · intro t t' ht hk
    unfold Loaded.openFile markupParser
    dsimp only
    rw [h.cu, h.pid]
    have := ht.text
    unfold literalText at this
    rw [if_pos hk, if_pos (by rw [ht.kind]; exact hk)] at this
    unfold slice
    rw [this]

theorem find_like {R : α → β → Prop} {p : α → Bool} {q : β → Bool} (hp : ∀ a b, R a b → q b = p a) {l : List α}
    {l' : List β} (hl : List.Forall₂ R l l') : Option.Rel R (l.find? p) (l'.find? q) := by
  induction hl with
  | nil => exact .none
  | cons h1 h2 ih =>
    rw [List.find?_cons, List.find?_cons, hp _ _ h1]
    split
    · exact .some h1
    · exact ih

theorem filterMap_like {R : β → δ → Prop} {f : α → Option β} {g : α → Option δ}
    (hf : ∀ a, Option.Rel R (f a) (g a)) : ∀ l : List α, List.Forall₂ R (l.filterMap f) (l.filterMap g)
  | [] => .nil
  | a :: l => by
    have h := hf a
    have ih := filterMap_like hf l
    rw [List.filterMap_cons, List.filterMap_cons]
    revert h
    generalize f a = x
    generalize g a = y
    intro h
    cases h with
    | none => exact ih
    | some h => exact .cons h ih

theorem runRsl_like {g : STab} {rx : Regex} {R : Finset PNode} {ls ls' : List Loaded}
    (h : List.Forall₂ LoadedLike ls ls') : Bases Eq (runRsl g false rx R ls) (runRsl g false rx R ls') := by
  have hf : List.Forall₂ LoadedLike (rslFiles R ls) (rslFiles R ls') := by
    unfold rslFiles
    rw [cus_like h]
    exact filterMap_like (fun n => find_like (fun a b h => by rw [h.cu]) h) _
  unfold runRsl
  rw [cus_like h]
  refine (runRslFiles_like ?_).bind fun a b e => ?_
  · rw [List.forall₂_map_left_iff, List.forall₂_map_right_iff]
    exact hf.imp fun _ _ h => openFile_like h
  · subst e
    split
    · refine Bases.bind (A := Eq) (fun s s' hs => ?_) fun _ _ _ => .pure rfl
      obtain ⟨c, n, r, rfl⟩ := hs
      exact .ok rfl ⟨c, n, r, rfl⟩
    · exact .pure rfl

theorem runTrlc_like {g : STab} {R : Finset PNode} {ls ls' : List Loaded}
    (h : List.Forall₂ LoadedLike ls ls') : Bases Eq (runTrlc g false R ls) (runTrlc g false R ls') := by
  have hf : List.Forall₂ LoadedLike (trlcFiles R ls) (trlcFiles R ls') :=
    filter_like (fun a b h => by rw [h.cu]) h
  unfold runTrlc
  refine runTrlcFiles_like ?_
  rw [List.forall₂_map_left_iff, List.forall₂_map_right_iff]
  exact hf.imp fun _ _ h => openFile_like h

/-! ## Checks -/

/-- The same messages at other locations, and the same result -/
structure CheckLike {α : Type} (x y : CR α) : Prop where
  calls : y.calls.map withoutLoc = x.calls.map withoutLoc
  out   : y.out = x.out

theorem CheckLike.rfl' {x : CR α} : CheckLike x x := ⟨rfl, rfl⟩

theorem CheckLike.bind {x y : CR α} {f g : α → CR γ} (h : CheckLike x y) (hf : ∀ a, CheckLike (f a) (g a)) :
    CheckLike (x.bind f) (y.bind g) := by
  unfold CR.bind
  rw [h.out]
  cases x.out with
  | ok a => exact ⟨by simp only [List.map_append, h.calls, (hf a).calls], (hf a).out⟩
  | raised => exact ⟨h.calls, rfl⟩
  | crash c => exact ⟨h.calls, rfl⟩

theorem performCheck_like {env : EvEnv} {k k' : Composite} (hk : k'.ctx = k.ctx) (c : Check) :
    CheckLike (performCheck env k c) (performCheck env k' c) := by
  unfold performCheck
  rw [hk]
  repeat' first | exact .rfl' | exact ⟨rfl, rfl⟩ | split

theorem performAll_like {env : EvEnv} {k k' : Composite} (hk : k'.ctx = k.ctx) : ∀ (cs : List Check) (ok : Bool),
    CheckLike (performAll env k cs ok) (performAll env k' cs ok)
  | [], _ => .rfl'
  | c :: cs, ok => by
    unfold performAll
    exact (performCheck_like hk c).bind fun b => performAll_like hk cs _

theorem performObject_like {D : Decls} {C : CheckTab} {env : EvEnv} {fs : Fields} {l l' : String}
    {f f' : String → String} {t : Nat} :
    CheckLike (performObject D C env fs l f t) (performObject D C env fs l' f' t) := by
  unfold performObject
  exact CheckLike.rfl'.bind fun ok =>
    performAll_like (k := recordComposite fs l f) (k' := recordComposite fs l' f') rfl _ _

theorem performOne_like {s : PS} {C : CheckTab} {env : EvEnv} {X X' : Locs} {o : Nat} :
    CheckLike (performOne s C env X o) (performOne s C env X' o) := by
  unfold performOne
  split
  · next ob fs _ _ =>
    have h := performObject_like (D := s.decls) (C := C) (env := env) (fs := fs) (l := X.obj o) (l' := X'.obj o)
      (f := X.field o) (f' := X'.field o) (t := ob.typ)
    dsimp only
    rw [h.out]
    split
    · exact ⟨h.calls, rfl⟩
    · exact h
  · exact .rfl'

theorem performObjects_like {s : PS} {C : CheckTab} {env : EvEnv} {X X' : Locs} : ∀ (os : List Nat) (ok : Bool),
    CheckLike (performObjects s C env X os ok) (performObjects s C env X' os ok)
  | [], _ => .rfl'
  | o :: os, ok => by
    unfold performObjects
    exact performOne_like.bind fun b => performObjects_like os _

section
variable {s : PS} {c n : Option Token} {r : List LexOut}

theorem resolveMRefs_relay : ∀ rs : List MRef, (relay s c n r).resolveMRefs rs = s.resolveMRefs rs
  | [] => rfl
  | x :: rs => by
    unfold PS.resolveMRefs
    rw [resolveMRefs_relay rs]
    rfl

mutual
theorem resolveVal_relay : ∀ v : PVal, (relay s c n r).resolveVal v = s.resolveVal v
  | .inull | .bool _ | .int _ | .dec _ | .str _ | .enum _ _ => by simp only [PS.resolveVal]
  | .markup v refs => by simp only [PS.resolveVal, resolveMRefs_relay refs]
  | .neg e => by simp only [PS.resolveVal, resolveVal_relay e]
  | .pos e => by simp only [PS.resolveVal, resolveVal_relay e]
  | .arr t es => by simp only [PS.resolveVal, resolveVals_relay es]
  | .tup t fs => by simp only [PS.resolveVal, resolveFields_relay fs]
  | .ref τ p m => by simp only [PS.resolveVal, relay_resolveRef]
theorem resolveVals_relay : ∀ v : List PVal, (relay s c n r).resolveVals v = s.resolveVals v
  | [] => by simp only [PS.resolveVals]
  | e :: es => by simp only [PS.resolveVals, resolveVal_relay e, resolveVals_relay es]
theorem resolveFields_relay : ∀ v : List (String × PVal), (relay s c n r).resolveFields v = s.resolveFields v
  | [] => by simp only [PS.resolveFields]
  | e :: es => by simp only [PS.resolveFields, resolveField_relay e, resolveFields_relay es]
theorem resolveField_relay : ∀ v : String × PVal, (relay s c n r).resolveField v = s.resolveField v
  | (m, e) => by simp only [PS.resolveField, resolveVal_relay e]
end

theorem resolveNodes_relay : ∀ v : List (String × VNode), (relay s c n r).resolveNodes v = s.resolveNodes v
  | [] => rfl
  | (m, e) :: es => by simp only [PS.resolveNodes, resolveVal_relay, resolveNodes_relay es]

theorem relay_objs : (relay s c n r).objs = s.objs := id rfl

theorem resolveAll_relay (g : STab) : (relay s c n r).resolveAll g = s.resolveAll g := by
  have h : (relay s c n r).resolveOne = s.resolveOne := by
    funext o
    unfold PS.resolveOne
    simp only [resolveNodes_relay, relay_objs]
  unfold PS.resolveAll
  rw [h]
  rfl

theorem heap_relay : (relay s c n r).heap = s.heap := by
  funext o
  unfold PS.heap
  simp only [resolveNodes_relay, relay_objs]

theorem performChecks_like {g : STab} {C : CheckTab} {rx : List Char → List Char → Bool} {X X' : Locs} :
    CheckLike (performChecks s g C rx X) (performChecks (relay s c n r) g C rx X') := by
  have h1 : ∀ o ev X, performOne (relay s c n r) C ev X o = performOne s C ev X o := fun _ _ _ => rfl
  have h2 : ∀ os ev X ok, performObjects (relay s c n r) C ev X os ok = performObjects s C ev X os ok := by
    intro os
    induction os with
    | nil => intros; rfl
    | cons o os ih =>
      intro ev X ok
      unfold performObjects
      simp only [h1, ih]
  unfold performChecks
  rw [h2, heap_relay]
  exact performObjects_like _ _
end

/-! ## The whole run -/

/-- What is outside the model is the same, up to locations. -/
structure OutsideLike (X X' : Outside) : Prop where
  rx    : X'.rx = X.rx
  lint  : ∀ g s s', Base s s' → (X'.lint g s').out = (X.lint g s).out ∧
    (X'.lint g s').calls.map withoutLoc = (X.lint g s).calls.map withoutLoc
  notes : ∀ ls ls' s s', ls'.map Loaded.cu = ls.map Loaded.cu → Base s s' →
    (X'.notes ls' s').map withoutLoc = (X.notes ls s).map withoutLoc

/-- The same outcome, up to locations -/
structure Alike (r r' : ProcOut) : Prop where
  out   : r'.out = r.out
  state : Base r.state r'.state
  calls : r'.calls.map withoutLoc = r.calls.map withoutLoc

/-- … unless the bound of a loop of the model is reached -/
def AlikeF (r r' : ProcOut) : Prop :=
  r.out = .crash (.parse .fuel) ∨ r'.out = .crash (.parse .fuel) ∨ Alike r r'

variable {o : Options} {X X' : Outside}

theorem ending {s s' : PS} (hb : Base s s') {x y : CR Bool} (h : CheckLike x y) {calls calls' : List MHCall}
    (hc : calls'.map withoutLoc = calls.map withoutLoc) :
    Alike (match x.out with
        | .crash c => ⟨.crash (.check c), s, calls ++ x.calls⟩
        | .raised => ⟨.none, s, calls ++ x.calls⟩
        | .ok false => ⟨.none, s, calls ++ x.calls⟩
        | .ok true => ⟨.table, s, calls ++ x.calls⟩)
      (match y.out with
        | .crash c => ⟨.crash (.check c), s', calls' ++ y.calls⟩
        | .raised => ⟨.none, s', calls' ++ y.calls⟩
        | .ok false => ⟨.none, s', calls' ++ y.calls⟩
        | .ok true => ⟨.table, s', calls' ++ y.calls⟩) := by
  have hx : (calls' ++ y.calls).map withoutLoc = (calls ++ x.calls).map withoutLoc := by
    simp only [List.map_append, hc, h.calls]
  rw [h.out]
  rcases x.out with (_ | _) | _ | _ <;> exact ⟨rfl, hb, hx⟩

theorem finish_like (ho : o.recover = false) (hX : OutsideLike X X') {g : STab} {R : Finset PNode}
    {ls ls' : List Loaded} (h : List.Forall₂ LoadedLike ls ls') {ok : Bool} {calls calls' : List MHCall}
    (hc : calls'.map withoutLoc = calls.map withoutLoc) {s s' : PS} (hs : Base s s') :
    AlikeF (finish o X g R ls ok calls s) (finish o X' g R ls' ok calls' s') := by
  have h1 := runTrlc_like (g := g) (R := R) h s s' hs
  unfold finish
  rw [ho]
  generalize runTrlc g false R ls s = x at h1 ⊢
  generalize runTrlc g false R ls' s' = y at h1 ⊢
  cases h1 with
  | fuelL => exact .inl rfl
  | fuelR => exact .inr (.inl rfl)
  | crash h => exact .inr (.inr ⟨rfl, h, hc⟩)
  | err h => exact .inr (.inr ⟨rfl, h, hc⟩)
  | @ok a b s s' e h =>
    subst e
    obtain ⟨c, n, r, rfl⟩ := h
    cases a
    · exact .inr (.inr ⟨rfl, ⟨c, n, r, rfl⟩, hc⟩)
    · dsimp only
      rw [resolveAll_relay]
      have hb : ∀ e, Base { s with errs := s.errs ++ e } { relay s c n r with errs := s.errs ++ e } :=
        fun e => ⟨c, n, r, rfl⟩
      split
      · exact .inr (.inr ⟨rfl, hb _, hc⟩)
      · split
        · exact .inr (.inr ⟨rfl, hb _, hc⟩)
        · have hk := performChecks_like (s := { s with errs := s.errs ++ s.resolveAll g }) (c := c) (n := n) (r := r)
            (g := g) (C := s.checks) (rx := X.rx.search) (X := X.locs) (X' := X'.locs)
          rw [hX.rx]
          exact .inr (.inr (ending (hb _) hk hc))

theorem analyse_like (ho : o.recover = false) (hX : OutsideLike X X') {g : STab} {R : Finset PNode}
    {ls ls' : List Loaded} (h : List.Forall₂ LoadedLike ls ls') {ok : Bool} {s s' : PS} (hs : Base s s') :
    AlikeF (analyse o X g R ls ok s) (analyse o X' g R ls' ok s') := by
  have h1 := runRsl_like (g := g) (rx := X.rx) (R := R) h s s' hs
  unfold analyse
  rw [ho, hX.rx]
  generalize runRsl g false X.rx R ls s = x at h1 ⊢
  generalize runRsl g false X.rx R ls' s' = y at h1 ⊢
  cases h1 with
  | fuelL => exact .inl rfl
  | fuelR => exact .inr (.inl rfl)
  | crash h => exact .inr (.inr ⟨rfl, h, rfl⟩)
  | err h => exact .inr (.inr ⟨rfl, h, rfl⟩)
  | @ok a b s s' e hb =>
    subst e
    dsimp only
    have hl : ∀ b : Bool, (if b then X'.lint g s' else ⟨[], some true⟩).out =
          (if b then X.lint g s else ⟨[], some true⟩).out ∧
        (if b then X'.lint g s' else ⟨[], some true⟩).calls.map withoutLoc =
          (if b then X.lint g s else ⟨[], some true⟩).calls.map withoutLoc := by
      intro b
      cases b
      · exact ⟨rfl, rfl⟩
      · exact hX.lint g s s' hb
    obtain ⟨l1, l2⟩ := hl (o.lint && (ok && a))
    split
    · exact .inr (.inr ⟨rfl, hb, rfl⟩)
    · generalize (if (o.lint && (ok && a)) = true then X.lint g s else ⟨[], some true⟩) = l at l1 l2 ⊢
      generalize (if (o.lint && (ok && a)) = true then X'.lint g s' else ⟨[], some true⟩) = l' at l1 l2 ⊢
      obtain ⟨lc, lo⟩ := l
      obtain ⟨lc', lo'⟩ := l'
      dsimp only at l1 l2
      subst l1
      cases lo' with
      | none => exact .inr (.inr ⟨rfl, hb, l2⟩)
      | some b' =>
        dsimp only
        split
        · exact .inr (.inr ⟨rfl, hb, l2⟩)
        · exact finish_like ho hX h l2 hb

theorem process_like (ho : o.recover = false) (hX : OutsideLike X X') {required : List CU → Finset PNode}
    {fs fs' : List Source} (h : List.Forall₂ SrcLike fs fs') {s s' : PS} (hs : Base s s') :
    AlikeF (process o X required fs s) (process o X' required fs' s') := by
  have h1 := loadAll_like (stab := globalTable) h s s' hs
  unfold process
  generalize loadAll globalTable fs s = x at h1 ⊢
  generalize loadAll globalTable fs' s' = y at h1 ⊢
  cases h1 with
  | fuelL => exact .inl rfl
  | fuelR => exact .inr (.inl rfl)
  | crash h => exact .inr (.inr ⟨rfl, h, rfl⟩)
  | err h => exact .inr (.inr ⟨rfl, h, rfl⟩)
  | @ok a b s s' e hb =>
    obtain ⟨g, ls⟩ := a
    obtain ⟨g', ls'⟩ := b
    obtain ⟨e1, e2⟩ := e
    dsimp only at e1 e2 ⊢
    subst e1
    rw [cus_like e2]
    have ha : (ls'.all fun l => !l.cu.err) = ls.all fun l => !l.cu.err := by
      have := congrArg (List.all · fun cu => !cu.err) (cus_like e2)
      rwa [List.all_map, List.all_map] at this
    rw [ha]
    have hw : Base (s.withPackages g') (s'.withPackages g') := by
      obtain ⟨c, n, r, rfl⟩ := hb
      exact ⟨c, n, r, rfl⟩
    rcases analyse_like ho hX (g := g') (R := required (ls.map (·.cu))) e2
      (ok := ls.all fun l => !l.cu.err) hw with k | k | k
    · exact .inl k
    · exact .inr (.inl k)
    · refine .inr (.inr ⟨k.out, k.state, ?_⟩)
      dsimp only
      rw [List.map_append, List.map_append, k.calls, hX.notes ls ls' _ _ (cus_like e2) k.state]

end Verif.Lemmas.Layout
