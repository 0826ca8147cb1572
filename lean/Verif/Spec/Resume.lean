import Verif.Model.Parse.Object
/-!
# Where the parser goes on after an error (C101)
-/
namespace Verif.Spec
open Verif.Model

/-- The words of a file up to its end or to the next character the lexer rejects: its tokens without comments. -/
def wordsBefore : List LexOut → List Token
  | .tok t :: r => if t.kind = .COMMENT then wordsBefore r else t :: wordsBefore r
  | _ => []

/-- The words the parser has not consumed yet. -/
def PSWords (s : PS) : List Token := s.nt.toList ++ wordsBefore s.rest

/-- The last word of `l`, or `p` if there is none. -/
def lastWord : Option Token → List Token → Option Token
  | p, [] => p
  | _, t :: l => lastWord (some t) l

/-- The word `t` that comes after `p` is the first of its line. -/
def StartsLine (p : Option Token) (t : Token) : Prop := ∀ q, p = some q → q.line ≠ t.line

/-- A word with which an entry of a trlc file can begin, for a given global table and table of the package: `section`, the name
of a package, or the name of a record type of the package. -/
def EntryWord (global pkg : STab) (t : Token) : Prop :=
  t.kind = .KEYWORD ∧ t.value = .str "section".toList ∨
  t.kind = .IDENTIFIER ∧ ((∃ e, global.lookup t.text none = .ok e ∧ e.cls = clsPackage) ∨
    (∀ e, global.lookup t.text none ≠ .ok e) ∧ ∃ e, pkg.lookup t.text none = .ok e ∧ e.cls = clsRecord)

/-- A word with which a declaration of an rsl file can begin. -/
def DeclWord (t : Token) : Prop :=
  t.kind = .KEYWORD ∧ ∃ w ∈ ["checks", "type", "abstract", "final", "tuple", "enum"], t.value = .str (String.toList w)

/-- From the state `s` the parser has gone on to the first word that begins a line and satisfies `W`, or to the end of the
file; nothing else has changed. -/
structure ResumesAt (W : Token → Prop) (s s' : PS) : Prop where
  same : s' = { s with ct := s'.ct, nt := s'.nt, rest := s'.rest }
  skipped : ∃ l, PSWords s = l ++ PSWords s' ∧ s'.ct = lastWord s.ct l ∧
    ∀ a t b, l = a ++ t :: b → StartsLine (lastWord s.ct a) t → ¬ W t
  place : ∀ t, s'.nt = some t → StartsLine s'.ct t ∧ W t

end Verif.Spec
