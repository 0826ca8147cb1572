import Verif.Spec.Project
import Verif.Model.Run.Process
/-!
# Files of include directories that are not needed (`trlc/trlc.py:306-375`)
-/
namespace Verif.Spec
open Verif.Model

/-- The file contains the token. -/
def FileToken (f : Source) (t : Token) : Prop := f.nt = some t ∨ (LexOut.tok t ∈ f.rest ∧ t.kind ≠ .COMMENT)

/-- The names written in a file: its identifiers, and those between double brackets in its strings -/
inductive Word (f : Source) : List Char → Prop
  | name {t : Token} : FileToken f t → t.kind = .IDENTIFIER → Word f t.text
  | markup {t : Token} {u : MTok} : FileToken f t → t.kind = .STRING →
      MOut.tok u ∈ markupTokens (nestedText (slice f.file.content t.startPos t.endPos)) → u.kind = .IDENTIFIER →
      Word f u.text

/-- None of the files `extra` is requested, and none belongs to a part of a package that is needed. -/
def Unneeded (fs extra : List Source) : Prop :=
  ∀ f ∈ extra, f.file.primary = false ∧ ∀ p, Belongs f p → ¬ PkgWanted (fs ++ extra) (p, f.file.kind)

/-- The package has files among `extra` only. -/
def OnlyIn (fs extra : List Source) (p : List Char) : Prop :=
  (∃ f ∈ extra, Belongs f p) ∧ ¬ ∃ f ∈ fs, Belongs f p

/-- No name in the files differs from that of a package that is only in `extra` at most in underscores and case. -/
def NotMentioned (fs extra : List Source) : Prop :=
  ∀ f ∈ fs, ∀ w, Word f w → ∀ p, OnlyIn fs extra p → ¬ Alike w p

/-- Two runs, with global tables `g` and `g'`, find the same.  Packages may have different numbers, which
are not visible to users. -/
structure SameFindings (g g' : STab) (r r' : ProcOut) : Prop where
  out : r'.out = r.out
  errs : r'.state.errs = r.state.errs
  decls : r'.state.decls = r.state.decls
  seps : r'.state.seps = r.state.seps
  checks : r'.state.checks = r.state.checks
  /-- the objects: names, types, sections -/
  objects : r'.state.objs.map (fun o => (o.name, o.typ, o.sects)) = r.state.objs.map fun o => (o.name, o.typ, o.sects)
  /-- the values of their components -/
  values : r'.state.heap = r.state.heap
  /-- their packages -/
  packages : ∀ (i : Nat) (o o' : Obj), r.state.objs[i]? = some o → r'.state.objs[i]? = some o' →
    ∀ p, pkgNumber g p = some o.pkg → pkgNumber g' p = some o'.pkg
  /-- the order in which they are visited -/
  order : r'.state.visited g' = r.state.visited g

end Verif.Spec
