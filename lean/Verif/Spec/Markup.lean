import Verif.Model.Markup
/-!
# What a markup string is (LRM, "Markup strings")
-/
namespace Verif.Spec
open Verif.Model

/-- a letter followed by letters, digits and underscores -/
def IsIdent (n : List Char) : Prop :=
  ∃ c r, n = c :: r ∧ isAlpha c = true ∧ ∀ d ∈ r, isAlnum d = true ∨ d = '_'

/-- white space only -/
def Blank (w : List Char) : Prop := ∀ c ∈ w, isSpace c = true

/-- A name: an optional package, and the name of an object -/
abbrev MName := Option (List Char) × List Char

/-- The text of a name, with white space around its parts -/
inductive NameText : List Char → MName → Prop
  | plain {a n b} : Blank a → IsIdent n → Blank b → NameText (a ++ (n ++ b)) (none, n)
  | qualified {a p b c n d} : Blank a → IsIdent p → Blank b → Blank c → IsIdent n → Blank d →
      NameText (a ++ (p ++ (b ++ '.' :: (c ++ (n ++ d))))) (some p, n)

/-- Names separated by commas -/
inductive NamesText : List Char → List MName → Prop
  | one {t n} : NameText t n → NamesText t [n]
  | more {t n t' ns} : NameText t n → NamesText t' ns → NamesText (t ++ ',' :: t') (n :: ns)

/-- The text of a markup string and the names in it: characters outside of double brackets, and
lists of names in double brackets -/
inductive MarkupText : List Char → List MName → Prop
  | nil : MarkupText [] []
  | char {c r ns} : ¬ ['[', '['] <+: c :: r → ¬ [']', ']'] <+: c :: r → MarkupText r ns →
      MarkupText (c :: r) ns
  | refs {t ns r ms} : NamesText t ns → MarkupText r ms →
      MarkupText ('[' :: '[' :: (t ++ ']' :: ']' :: r)) (ns ++ ms)

/-- The package that a name means: the one of the file, or the one named, which must be the
one of the file or imported -/
def Refers (E : MEnv) : MName → MRef → Prop
  | (none, n), r => r = ⟨E.pkg, n⟩
  | (some p, n), r => ∃ e, E.global.lookup p none = .ok e ∧ e.cls = clsPackage ∧ E.resolved = true ∧
      (e.id = E.pkg ∨ e.id ∈ E.imports) ∧ r = ⟨e.id, n⟩

end Verif.Spec
