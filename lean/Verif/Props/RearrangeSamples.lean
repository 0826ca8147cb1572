import Verif.Props.Rearrange
import Verif.Props.RunSamples
/-!
# C92 applies to a concrete project
-/
namespace Verif.Props
open Verif.Model Verif.Spec Verif.Lemmas Verif.Lemmas.Rearrange

namespace MoveSample

/-! ### Finding the declarations in a list of tokens -/

def isObj : List Token → Bool
  | x :: y :: b :: r => x.kind == .IDENTIFIER && y.kind == .IDENTIFIER && b.kind == .C_BRA &&
      (r.getLast?.any (·.kind == .C_KET)) && r.dropLast.all (fun t => t.kind != .C_BRA && t.kind != .C_KET)
  | _ => false

theorem isObj_sound {ts : List Token} (h : isObj ts = true) : ObjectShape ts := by
  unfold isObj at h
  split at h
  · next x y b r =>
    simp only [Bool.and_eq_true, beq_iff_eq, Option.any_eq_true, List.all_eq_true, bne_iff_ne] at h
    obtain ⟨⟨⟨⟨h1, h2⟩, h3⟩, k, h4, h5⟩, h6⟩ := h
    refine ⟨[x], y, b, r.dropLast, k, ?_, .inl ⟨x, rfl, h1⟩, h2, h3, h5, h6⟩
    have hr : r ≠ [] := by rintro rfl; cases h4
    have hk : r.getLast hr = k := by
      rw [List.getLast?_eq_some_getLast hr] at h4
      cases h4
      rfl
    have := List.dropLast_append_getLast hr
    rw [hk] at this
    simp [this]
  · cases h

/-- up to the first closing brace -/
def upTo : List Token → List Token × List Token
  | [] => ([], [])
  | t :: ts => if t.kind == .C_KET then ([t], ts) else let r := upTo ts; (t :: r.1, r.2)

theorem upTo_eq : ∀ ts : List Token, (upTo ts).1 ++ (upTo ts).2 = ts
  | [] => rfl
  | t :: ts => by
    unfold upTo
    split
    · rfl
    · simp [upTo_eq ts]

def find (E : FileEnv) : Nat → List (List Char) → List Token → Option (List Piece × List Token)
  | 0, _, _ => none
  | n + 1, S, ts =>
    match ts with
    | [] => some ([], [])
    | t :: r =>
      if t.kind == .C_KET then some ([], t :: r)
      else if t.kind == .KEYWORD then
        match r with
        | u :: b :: r =>
          if t.value = .str "section".toList ∧ u.kind = .STRING ∧ b.kind = .C_BRA then
            match find E n (S ++ [u.text]) r with
            | some (ps, c :: r') =>
              if c.kind = .C_KET then
                match find E n S r' with
                | some (ps', r'') => some (ps ++ ps', r'')
                | none => none
              else none
            | _ => none
          else none
        | _ => none
      else if isObj (upTo (t :: r)).1 then
        match find E n S (upTo (t :: r)).2 with
        | some (ps, r') => some (⟨E, S, (upTo (t :: r)).1⟩ :: ps, r')
        | none => none
      else none

theorem find_sound {E : FileEnv} : ∀ (n : Nat) (S : List (List Char)) (ts : List Token) (ps : List Piece) (r : List Token),
    find E n S ts = some (ps, r) → ∃ a, ts = a ++ r ∧ Pieces E S a ps := by
  intro n
  induction n with
  | zero => intro S ts ps r h; cases h
  | succ n ih =>
    intro S ts ps r h
    unfold find at h
    split at h
    · cases h
      exact ⟨[], rfl, .nil⟩
    · next t r1 =>
      split at h
      · cases h
        exact ⟨[], rfl, .nil⟩
      · split at h
        · next hk =>
          split at h
          · next u b r2 =>
            split at h
            · next hs =>
              split at h
              · next ps1 c r3 h1 =>
                split at h
                · next hc =>
                  split at h
                  · next ps2 r4 h2 =>
                    cases h
                    obtain ⟨a, rfl, ha⟩ := ih _ _ _ _ h1
                    obtain ⟨a', rfl, ha'⟩ := ih _ _ _ _ h2
                    exact ⟨[t, u, b] ++ a ++ [c] ++ a', by simp,
                      .sect ⟨beq_iff_eq.1 hk, hs.1⟩ hs.2.1 hs.2.2 hc ha ha'⟩
                  · cases h
                · cases h
              · cases h
            · cases h
          · cases h
        · split at h
          · next ho =>
            split at h
            · next ps1 r2 h1 =>
              cases h
              obtain ⟨a, e, ha⟩ := ih _ _ _ _ h1
              refine ⟨(upTo (t :: r1)).1 ++ a, ?_, .obj (isObj_sound ho) ha⟩
              rw [List.append_assoc, ← e, upTo_eq]
            · cases h
          · cases h

def findAll : List OpenFile → Option (List Piece)
  | [] => some []
  | f :: fs =>
    match find f.env 100 [] (fileWords f), findAll fs with
    | some (ps, []), some ps' => some (ps ++ ps')
    | _, _ => none

theorem findAll_sound : ∀ {fs : List OpenFile} {ps : List Piece}, findAll fs = some ps → FilePieces fs ps
  | [], _, h => by cases h; exact .nil
  | f :: fs, ps, h => by
    unfold findAll at h
    split at h
    · next ps1 ps2 h1 h2 =>
      cases h
      obtain ⟨a, e, ha⟩ := find_sound _ _ _ _ _ h1
      rw [List.append_nil] at e
      rw [← e] at ha
      exact .cons ha (findAll_sound h2)
    · cases h

/-! ### The project -/

def a : SrcFile := ⟨"a.trlc", .trlc, true, "package P S x { m = 2 r = y } section \"s\" { B z { m = 1 } } B y { m = 3 }".toList⟩
def b : SrcFile := ⟨"b.trlc", .trlc, true, "package P B w { m = 4 r = x }".toList⟩
def a' : SrcFile := ⟨"a.trlc", .trlc, true, "package P // changed
B y { m = 3 } B w { m = 4 r = x } section \"s\" { }".toList⟩
def b' : SrcFile := ⟨"b.trlc", .trlc, true, "package P section \"s\" { B z { m = 1 } } S x { m = 2 r = y }".toList⟩

def before : List SrcFile := [RunSample.rsl, a, b]
def after : List SrcFile := [RunSample.rsl, a', b']

open RunSample (opened options outside)

def none' (_ : List CU) : Finset PNode := ∅

def sameTok (E E' : FileEnv) (t t' : Token) : Bool :=
  decide (t'.kind = t.kind ∧ t'.value = t.value ∧ E'.markup t' = E.markup t)

def sameToks (E E' : FileEnv) : List Token → List Token → Bool
  | [], [] => true
  | t :: ts, t' :: ts' => sameTok E E' t t' && sameToks E E' ts ts'
  | _, _ => false

theorem sameToks_sound {E E' : FileEnv} : ∀ {ts ts' : List Token}, sameToks E E' ts ts' = true → List.Forall₂ (SameTok E E') ts ts'
  | [], [], _ => .nil
  | t :: ts, t' :: ts', h => by
    simp only [sameToks, sameTok, Bool.and_eq_true, decide_eq_true_eq] at h
    exact .cons ⟨h.1.1, h.1.2.1, fun _ => h.1.2.2⟩ (sameToks_sound h.2)
  | [], _ :: _, h => by cases h
  | _ :: _, [], h => by cases h

def samePiece (p p' : Piece) : Bool :=
  decide (p'.env.global = p.env.global ∧ p'.env.pkg = p.env.pkg ∧ p'.env.imports = p.env.imports ∧
    p'.env.resolved = p.env.resolved ∧ p'.sects = p.sects) && sameToks p.env p'.env p.toks p'.toks

theorem samePiece_sound {p p' : Piece} (h : samePiece p p' = true) : SamePiece p p' := by
  simp only [samePiece, Bool.and_eq_true, decide_eq_true_eq] at h
  obtain ⟨⟨h1, h2, h3, h4, h5⟩, h6⟩ := h
  exact ⟨⟨⟨h1, h2, h3, h4⟩, sameToks_sound h6⟩, h5⟩

/-- the four objects, in another order -/
def exchanged (fs fs' : List OpenFile) : Bool :=
  match findAll fs, findAll fs' with
  | some [p, q, r, t], some [r', t', q', p'] => samePiece p p' && samePiece q q' && samePiece r r' && samePiece t t'
  | _, _ => false

theorem exchanged_sound {fs fs' : List OpenFile} (h : exchanged fs fs' = true) : Rearranged fs fs' := by
  unfold exchanged at h
  split at h
  · next p q r t r' t' q' p' h1 h2 =>
    simp only [Bool.and_eq_true] at h
    obtain ⟨⟨⟨k1, k2⟩, k3⟩, k4⟩ := h
    refine ⟨_, [r, t, q, p], _, findAll_sound h1, findAll_sound h2, ?_, .cons (samePiece_sound k3) (.cons (samePiece_sound k4)
      (.cons (samePiece_sound k2) (.cons (samePiece_sound k1) .nil)))⟩
    have e1 : [p, q, r, t].Perm ([r, t] ++ [p, q]) := List.perm_append_comm (l₁ := [p, q]) (l₂ := [r, t])
    exact e1.trans ((List.Perm.swap q p []).append_left [r, t])
  · cases h

deriving instance DecidableEq for SrcFile, Source, Loaded

/-- the rsl files are the same -/
def sameRsl (ls ls' : List Loaded) : Bool :=
  decide (parseRslOrder ∅ (ls.map (·.cu)) = parseRslOrder ∅ (ls'.map (·.cu)) ∧ Model.rslFiles ∅ ls = Model.rslFiles ∅ ls')

def lexed (f : Source) : Bool :=
  f.nt.isSome && f.rest.all (fun o => match o with | .tok _ => true | .eof => true | _ => false) &&
    f.rest.dropLast.all (fun o => match o with | .tok _ => true | _ => false)

theorem lexed_sound {f : Source} (h : lexed f = true) : CleanSource f ∧ LexerOutput f.nt f.rest := by
  simp only [lexed, Bool.and_eq_true, List.all_eq_true] at h
  obtain ⟨⟨h1, h2⟩, h3⟩ := h
  refine ⟨fun o ho => ?_, ?_, ?_⟩
  · have := h2 o ho
    split at this
    · exact .inl ⟨_, rfl⟩
    · exact .inr rfl
    · cases this
  · intro h
    rw [h] at h1
    cases h1
  · intro x y h
    cases y with
    | nil => rfl
    | cons z y =>
      rw [h] at h3
      have := h3 .eof (by
        rw [List.dropLast_append_of_ne_nil (by simp)]
        simp)
      cases this

/-- everything about the two projects that can be computed -/
def fits (o : Options) : Bool :=
  (opened before).1.all lexed && (opened after).1.all lexed &&
  match loadAll globalTable (opened before).1 (opened before).2, loadAll globalTable (opened after).1 (opened before).2 with
  | .ok (g, ls) s1, .ok (g', ls') s1' =>
    decide (g = g' ∧ s1.errs = (opened before).2.errs ∧ s1'.errs = (opened before).2.errs) && sameRsl ls ls' &&
    exchanged ((trlcFiles ∅ ls).map (·.openFile g o.recover)) ((trlcFiles ∅ ls').map (·.openFile g' o.recover))
  | _, _ => false

attribute [local irreducible] opened in
theorem fits_sound {o : Options} (h : fits o = true) : ∃ g ls ls' s1 s1',
    Moved o none' (opened before).2 (opened before).1 (opened after).1 g ls ls' s1 s1' := by
  unfold fits at h
  simp only [Bool.and_eq_true, List.all_eq_true] at h
  obtain ⟨⟨h1, h2⟩, h3⟩ := h
  cases e1 : loadAll globalTable (opened before).1 (opened before).2 with
  | err s => rw [e1] at h3; cases h3
  | crash c s => rw [e1] at h3; cases h3
  | ok r s1 =>
    cases e2 : loadAll globalTable (opened after).1 (opened before).2 with
    | err s => rw [e1, e2] at h3; cases h3
    | crash c s => rw [e1, e2] at h3; cases h3
    | ok r' s1' =>
      obtain ⟨g, ls⟩ := r
      obtain ⟨g', ls'⟩ := r'
      rw [e1, e2] at h3
      simp only [sameRsl, Bool.and_eq_true, decide_eq_true_eq] at h3
      obtain ⟨⟨⟨rfl, h4, h5⟩, h6, h7⟩, h8⟩ := h3
      exact ⟨g, ls, ls', s1, s1', e1, e2, h4, h5, fun f hf => (lexed_sound (h1 f hf)).1, fun f hf => (lexed_sound (h2 f hf)).1,
        fun f hf => (lexed_sound (h1 f hf)).2, fun f hf => (lexed_sound (h2 f hf)).2, h6, h7, exchanged_sound h8⟩

set_option maxRecDepth 100000 in
theorem fits_true : fits options = true := by decide +kernel

set_option maxRecDepth 100000 in
theorem before_table : (process options outside none' (opened before).1 (opened before).2).out = .table := by decide +kernel

set_option maxRecDepth 100000 in
theorem before_errs : (process options outside none' (opened before).1 (opened before).2).state.errs = (opened before).2.errs := by
  decide +kernel

/-- C92 applies: four objects are written in another order, one of them in the other file -/
example : (process options outside none' (opened after).1 (opened before).2).out = .table ∧
    SameObjects (process options outside none' (opened before).1 (opened before).2).state.objs
      (process options outside none' (opened after).1 (opened before).2).state.objs := by
  obtain ⟨g, ls, ls', s1, s1', m⟩ := fits_sound fits_true
  have h := C92_moved (X := outside) (RunSample.opened_blank _) rfl (fun _ => linter_decls (fun _ => ("", "")) rfl) m before_table
    before_errs
  exact ⟨h.1, h.2.2.2.2.2.2⟩

end MoveSample
end Verif.Props
