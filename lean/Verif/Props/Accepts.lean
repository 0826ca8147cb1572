import Verif.Lemmas.TrlcAccepts
import Verif.Lemmas.PastLexer
import Verif.Props.RslText
/-!
# C73: what follows the rules of the language is accepted, and has one reading
-/
namespace Verif.Props
open Verif.Model Verif.Spec Verif.Lemmas

/-- without errors of the lexer there are only tokens -/
theorem clean_of {nt : Option Token} {r : List LexOut} (h : NoLexError r) (hl : LexerOutput nt r) :
    ∀ o ∈ r, (∃ t, o = .tok t) ∨ o = .eof := by
  replace hl := hl.2
  induction r with
  | nil => intro o ho; cases ho
  | cons x r ih =>
    intro o ho
    cases x with
    | tok t =>
      rcases List.mem_cons.1 ho with rfl | ho
      · exact .inl ⟨t, rfl⟩
      · exact ih h (fun a b e => hl (.tok t :: a) b (by rw [e]; rfl)) o ho
    | eof =>
      have := hl [] r rfl
      subst this
      rcases List.mem_cons.1 ho with rfl | ho
      · exact .inr rfl
      · cases ho
    | error => exact h.elim
    | crash => exact h.elim

/-! ## One rsl file -/

/-- **C73**: an rsl file is accepted without any message and declares `W` iff the lexer finds no
error in it and its text declares `W`. -/
theorem C73_rsl_file {E : FileEnv} {rx : Regex} {s : PS} {W : World} (hi : RslInv E.global s)
    (hl : LexerOutput s.nt s.rest) :
    (∃ s', parseRslFile E rx s = .ok true s' ∧ s'.errs = s.errs ∧ worldOf s' = W) ↔
      (∀ o ∈ s.rest, (∃ t, o = .tok t) ∨ o = .eof) ∧ RslText E rx (worldOf s) (words s) W := by
  constructor
  · rintro ⟨s', h, he, rfl⟩
    exact ⟨clean_of (parseRslFile_past h hl.1) hl, C72_file hi h he⟩
  · rintro ⟨hc, h⟩
    obtain ⟨b, s', h1, rfl, h2⟩ := rslFile_on (K := s) h hi ⟨hc, rfl, rfl, rfl, rfl, rfl⟩
    exact ⟨s', h1, h2.errs, h2.world⟩

theorem tokensOf_toks {l : List Token} (h : ∀ t ∈ l, t.kind ≠ .COMMENT) : tokensOf (l.map .tok) = l := by
  induction l with
  | nil => rfl
  | cons t l ih =>
    rw [List.map_cons, tokensOf, if_neg (h t (by simp)), ih fun t ht => h t (by simp [ht])]

theorem tokensOf_comment (r : List LexOut) : ∀ t ∈ tokensOf r, t.kind ≠ .COMMENT := by
  induction r with
  | nil => intro t ht; cases ht
  | cons o r ih =>
    intro t ht
    cases o with
    | tok u =>
      rw [tokensOf] at ht
      split at ht
      · exact ih t ht
      · rcases List.mem_cons.1 ht with rfl | ht
        · assumption
        · exact ih t ht
    | eof => cases ht
    | error => cases ht
    | crash => cases ht

/-- **C73**: the text of an rsl file has at most one meaning. -/
theorem C73_rsl_unique {E : FileEnv} {rx : Regex} {s : PS} {W W' : World} (hi : RslInv E.global s)
    (h : RslText E rx (worldOf s) (words s) W) (h' : RslText E rx (worldOf s) (words s) W') : W = W' := by
  let s0 : PS := { s with rest := (tokensOf s.rest).map .tok }
  have hw : words s0 = words s := by
    unfold words
    show (match s.nt with | none => [] | some t => t :: tokensOf ((tokensOf s.rest).map .tok)) = _
    rw [tokensOf_toks (tokensOf_comment s.rest)]
    rfl
  have hi0 : RslInv E.global s0 := ⟨hi.glob, hi.sound, hi.crecs, hi.ctups, hi.objs, hi.sees, hi.ents,
    hi.keys, hi.entered, hi.once, hi.frozenBefore⟩
  have hc : ∀ o ∈ s0.rest, (∃ t, o = .tok t) ∨ o = .eof := by
    intro o ho
    obtain ⟨t, -, rfl⟩ := List.mem_map.1 ho
    exact .inl ⟨t, rfl⟩
  obtain ⟨b, s1, h1, rfl, h2⟩ := rslFile_on (K := s0) h hi0 ⟨hc, hw, rfl, rfl, rfl, rfl⟩
  obtain ⟨b, s2, h3, rfl, h4⟩ := rslFile_on (K := s0) h' hi0 ⟨hc, hw, rfl, rfl, rfl, rfl⟩
  rw [h1] at h3
  cases h3
  exact h2.world.symm.trans h4.world

/-! ## All rsl files -/

/-- **C73**: the rsl files of a run are accepted without any message iff the lexer finds no error in
them and they are written as the rules of the language say; and what they declare then is what is
written. -/
theorem C73_rsl_files {g : STab} {rx : Regex} {s : PS} {W : World} {fs : List OpenFile}
    (ht : PkgTab g) (hb : Blank s) (hg : ∀ f ∈ fs, f.env.global = g)
    (hl : ∀ f ∈ fs, LexerOutput f.nt f.rest) :
    (∃ s', runRslFiles rx fs (s.withPackages g) = .ok true s' ∧ s'.errs = s.errs ∧ worldOf s' = W) ↔
      (∀ f ∈ fs, CleanFile f) ∧ RslFilesText rx (worldOf (s.withPackages g)) fs W := by
  obtain ⟨hi, ha⟩ := start_inv (rx := rx) ht hb
  constructor
  · rintro ⟨s', h, he, rfl⟩
    exact ⟨fun f hf => clean_of (runRslFiles_past h (fun f hf => (hl f hf).1) f hf) (hl f hf),
      runRslFiles_rw fs _ hg hi ha true s' h he⟩
  · rintro ⟨hc, h⟩
    obtain ⟨b, s', h1, rfl, h2, h3, -⟩ := runRslFiles_on h _ hg hc hi ha rfl
    exact ⟨s', h1, h2, h3⟩

/-! ## All trlc files -/

/-- **C73**: trlc files that are written as the rules of the language say are accepted without any
message, and the objects are those written, whichever way the files are read. -/
theorem C73_trlc_accepted {fs : List OpenFile} {s : PS} {items : List (Obj × List (String × PVal))} {N : Names}
    (hw : WorldOk s.decls s.infos) (h0 : s.objs = []) (hc : ∀ f ∈ fs, CleanFile f)
    (h : WrittenFiles (namesOf s) 0 fs items N) (ho : ∀ x ∈ items, ObjFrom s.decls s.infos x.2 x.1) :
    ∃ s', runTrlcFiles fs s = .ok true s' ∧ s'.errs = s.errs ∧ namesOf s' = N ∧
      List.Forall₂ (AsWritten s.decls s.infos) items s'.objs := by
  obtain ⟨b, s', h1, rfl, h2, ⟨n, h3⟩, obs, h4, h5⟩ :=
    runTrlcFiles_on h s (worldOf s) s rfl (by rw [h0]; rfl) hw ho hc ⟨s.nid, rfl⟩ rfl rfl
  rw [h0, List.nil_append] at h4
  subst h4
  refine ⟨s', h1, h2, ?_, h5⟩
  have hn := files_names h
  have := renamed_names (W := worldOf s) hn.1 hn.2
  rw [← this]
  have e := congrArg World.names h3
  exact e

/-- **C73**: the trlc files of a run are accepted without any message iff the lexer finds no error in
them, they are written as the rules of the language say, and all objects are complete. -/
theorem C73_trlc_files {fs : List OpenFile} {s : PS} (hw : WorldOk s.decls s.infos) (h0 : s.objs = [])
    (hl : ∀ f ∈ fs, LexerOutput f.nt f.rest) :
    (∃ s', runTrlcFiles fs s = .ok true s' ∧ s'.errs = s.errs) ↔
      (∀ f ∈ fs, CleanFile f) ∧ ∃ items N, WrittenFiles (namesOf s) 0 fs items N ∧
        ∀ x ∈ items, ObjFrom s.decls s.infos x.2 x.1 := by
  constructor
  · rintro ⟨s', h, he⟩
    obtain ⟨items, -, h2, h3⟩ := C61_objects_written hw h0 h he
    exact ⟨fun f hf => clean_of (runTrlcFiles_past h (fun f hf => (hl f hf).1) f hf) (hl f hf), items, _, h2, h3⟩
  · rintro ⟨hc, items, N, h2, h3⟩
    obtain ⟨s', h1, he, -⟩ := C73_trlc_accepted hw h0 hc h2 h3
    exact ⟨s', h1, he⟩

/-! ## What a lexer returns -/

theorem lexStream_eofLast (n : Nat) (st : LexState) : ∀ a b, lexStream n st = a ++ .eof :: b → b = [] := by
  induction n generalizing st with
  | zero => intro a b h; simp [lexStream] at h
  | succ n ih =>
    intro a b h
    have key : ∀ (o : LexOut) (st' : LexState), o ≠ .eof → o :: lexStream n st' = a ++ .eof :: b → b = [] := by
      intro o st' ho h
      cases a with
      | nil => simp only [List.nil_append, List.cons.injEq] at h; exact absurd h.1 ho
      | cons x a =>
        simp only [List.cons_append, List.cons.injEq] at h
        exact ih st' a b h.2
    rw [lexStream] at h
    split at h
    · exact key _ _ (by simp) h
    · cases a with
      | nil => simpa using h.symm
      | cons x a => simp at h
    · exact key _ _ (by simp) h
    · exact key _ _ (by simp) h

theorem eofLast_suffix {r r' : List LexOut} (h : ∀ a b, r = a ++ .eof :: b → b = []) (hs : r' <:+ r) :
    ∀ a b, r' = a ++ .eof :: b → b = [] := by
  obtain ⟨p, rfl⟩ := hs
  intro a b e
  exact h (p ++ a) b (by rw [e, List.append_assoc])

theorem openText_output (E : FileEnv) (text : String) :
    LexerOutput (Sample.openText E text).nt (Sample.openText E text).rest := by
  unfold Sample.openText
  split
  · next t r h =>
    refine ⟨by simp, ?_⟩
    have := lexStream_eofLast (text.length + 1) (LexState.init text.toList)
    rw [h] at this
    exact eofLast_suffix this (List.suffix_cons _ _)
  · exact ⟨fun _ => rfl, by intro a b h; simp at h⟩

theorem openText_env (E : FileEnv) (text : String) : (Sample.openText E text).env = E := by
  unfold Sample.openText
  split <;> rfl

namespace AcceptSample

def g : STab := globalTable.registerAll [⟨"P".toList, 0, clsPackage⟩]

theorem g_pkgTab : PkgTab g := by
  have h : declarePackage globalTable .rsl "P".toList = .ok (g, 0) := by decide +kernel
  exact (declarePackage_ok globalTable_pkgTab h).1

def env : FileEnv := ⟨g, 0, [], true, fun _ => .ok [], true⟩

def rx : Regex := ⟨fun _ _ => true, fun _ => true⟩

/-- types of all kinds and checks -/
def file : OpenFile := Sample.openText env "enum E \"d\" { a b }
tuple T { p Integer separator @ q optional Integer }
abstract type B { n optional Integer m Integer e E[0 .. *] t optional T u optional [B] }
type S extends B { freeze n = -1 v optional [B, S] [1 .. 2] }
checks B { m > 0 and (n == null or n > 0), warning \"msg\", m }"

set_option maxRecDepth 100000 in
theorem accepted : Sample.isTrue (runRslFiles rx [file] ((PS.fresh []).withPackages g)) = true := by
  decide +kernel

theorem file_global : file.env.global = g := by
  have h : file.env = env := by unfold file; exact openText_env _ _
  rw [h]
  rfl

theorem file_output : LexerOutput file.nt file.rest := by unfold file; exact openText_output _ _

attribute [local irreducible] file g Sample.openText

/-- C73 for rsl files applies: the file is written as the rules say -/
example : CleanFile file ∧ ∃ W, RslFilesText rx (worldOf ((PS.fresh []).withPackages g)) [file] W := by
  obtain ⟨s', h, he⟩ := Sample.isTrue_iff accepted
  obtain ⟨h1, h2⟩ := (C73_rsl_files (s := PS.fresh []) (W := worldOf s') g_pkgTab (fresh_blank [])
    (fun f hf => by rw [List.mem_singleton.1 hf]; exact file_global)
    (fun f hf => by rw [List.mem_singleton.1 hf]; exact file_output)).1 ⟨s', h, he, rfl⟩
  exact ⟨h1 _ (by simp), _, h2⟩

/-- C73 for trlc files applies -/
example : (∀ f ∈ Sample.files, CleanFile f) ∧ ∃ items N, WrittenFiles (namesOf Sample.start) 0 Sample.files items N ∧
    ∀ x ∈ items, ObjFrom Sample.start.decls Sample.start.infos x.2 x.1 := by
  obtain ⟨s', h, he⟩ := Sample.isTrue_iff
    (show Sample.isTrue (runTrlcFiles Sample.files Sample.start) = true by decide +kernel)
  refine (C73_trlc_files Sample.world rfl ?_).1 ⟨s', h, he⟩
  intro f hf
  simp only [Sample.files, List.mem_cons, List.not_mem_nil, or_false] at hf
  rcases hf with rfl | rfl <;> exact openText_output _ _

/-- C73 for one file applies -/
example : RslInv env.global (((PS.fresh []).withPackages g).enter file) ∧
    LexerOutput (((PS.fresh []).withPackages g).enter file).nt (((PS.fresh []).withPackages g).enter file).rest := by
  have hi := (start_inv (rx := rx) g_pkgTab (fresh_blank [])).1
  exact ⟨⟨hi.glob, hi.sound, hi.crecs, hi.ctups, hi.objs, hi.sees, hi.ents, hi.keys, hi.entered, hi.once,
    hi.frozenBefore⟩, file_output⟩

end AcceptSample

end Verif.Props
