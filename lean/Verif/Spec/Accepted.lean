import Verif.Spec.RslText
import Verif.Spec.References
/-!
# What must be in the files to be accepted
-/
namespace Verif.Spec
open Verif.Model

/-- What a lexer can return: after the end of the file there is nothing, and if there is no next
token the end of the file was reached. -/
def LexerOutput (nt : Option Token) (rest : List LexOut) : Prop :=
  (nt = none → rest = []) ∧ ∀ a b, rest = a ++ .eof :: b → b = []

/-- The lexer finds no error in what follows. -/
def CleanFile (f : OpenFile) : Prop := ∀ o ∈ f.rest, (∃ t, o = .tok t) ∨ o = .eof

/-- `ob` is the object that was written: in the same package and sections, with the same name and
type, and with the values that were assigned. -/
def AsWritten (D : Decls) (infos : List RecInfo) (x : Obj × List (String × PVal)) (ob : Obj) : Prop :=
  ob.pkg = x.1.pkg ∧ ob.name = x.1.name ∧ ob.typ = x.1.typ ∧ ob.sects = x.1.sects ∧ ObjFrom D infos x.2 ob

end Verif.Spec
