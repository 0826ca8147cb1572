import Verif.Spec.References
/-!
# Moving requirements

The text of a trlc file after its preamble consists of declarations of objects, some of them in sections.  Two sets
of files are rearrangements of each other if they consist of the same declarations, in the same sections, in files
with the same package and imports.
-/
namespace Verif.Spec
open Verif.Model

/-- The declaration of an object, with the file and the sections it stands in -/
structure Piece where
  env   : FileEnv
  sects : List (List Char)
  toks  : List Token

/-- A name, possibly with a package -/
def NameShape (n : List Token) : Prop :=
  (∃ t, n = [t] ∧ t.kind = .IDENTIFIER) ∨
  (∃ t d t', n = [t, d, t'] ∧ t.kind = .IDENTIFIER ∧ d.kind = .DOT ∧ t'.kind = .IDENTIFIER)

/-- neither an opening nor a closing brace -/
def NoBrace (t : Token) : Prop := t.kind ≠ .C_BRA ∧ t.kind ≠ .C_KET

/-- What the declaration of an object looks like: the name of a type, a name, and something in braces. -/
def ObjectShape (ts : List Token) : Prop :=
  ∃ n x b r k, ts = n ++ x :: b :: r ++ [k] ∧ NameShape n ∧ x.kind = .IDENTIFIER ∧ b.kind = .C_BRA ∧ k.kind = .C_KET ∧
    ∀ t ∈ r, NoBrace t

/-- The text inside the sections `S` of a file consists of these declarations. -/
inductive Pieces (E : FileEnv) : List (List Char) → List Token → List Piece → Prop
  | nil {S} : Pieces E S [] []
  | obj {S a b ps} : ObjectShape a → Pieces E S b ps → Pieces E S (a ++ b) (⟨E, S, a⟩ :: ps)
  | sect {S w t b r c r' ps ps'} : SectionTok w → t.kind = .STRING → b.kind = .C_BRA → c.kind = .C_KET →
      Pieces E (S ++ [t.text]) r ps → Pieces E S r' ps' → Pieces E S ([w, t, b] ++ r ++ [c] ++ r') (ps ++ ps')

/-- The files consist of these declarations. -/
inductive FilePieces : List OpenFile → List Piece → Prop
  | nil : FilePieces [] []
  | cons {f fs ps ps'} : Pieces f.env [] (fileWords f) ps → FilePieces fs ps' → FilePieces (f :: fs) (ps ++ ps')

/-- The same word, possibly elsewhere; names in markup strings mean the same. -/
structure SameTok (E E' : FileEnv) (t t' : Token) : Prop where
  kind   : t'.kind = t.kind
  value  : t'.value = t.value
  markup : t.kind = .STRING → E'.markup t' = E.markup t

/-- In files of the same package with the same imports -/
structure SamePlace (p p' : Piece) : Prop where
  global   : p'.env.global = p.env.global
  pkg      : p'.env.pkg = p.env.pkg
  imports  : p'.env.imports = p.env.imports
  resolved : p'.env.resolved = p.env.resolved

/-- The same declaration, possibly in other sections, in a file of the same package with the same imports -/
structure SameDecl (p p' : Piece) : Prop extends SamePlace p p' where
  toks     : List.Forall₂ (SameTok p.env p'.env) p.toks p'.toks

/-- The same declaration in the same sections, in a file of the same package with the same imports -/
structure SamePiece (p p' : Piece) : Prop extends SameDecl p p' where
  sects    : p'.sects = p.sects

/-- The declarations of objects in the files `fs'` correspond to those in the files `fs`, in any order and distributed in any way. -/
def RearrangedBy (T : Piece → Piece → Prop) (fs fs' : List OpenFile) : Prop :=
  ∃ ps qs ps', FilePieces fs ps ∧ FilePieces fs' ps' ∧ ps.Perm qs ∧ List.Forall₂ T qs ps'

/-- The files `fs'` have the same declarations of objects as the files `fs`, in any order and distributed in any way. -/
def Rearranged (fs fs' : List OpenFile) : Prop := RearrangedBy SamePiece fs fs'

/-- The same object, with the same values, possibly in other sections -/
structure SameData (o o' : Obj) : Prop where
  pkg    : o'.pkg = o.pkg
  name   : o'.name = o.name
  typ    : o'.typ = o.typ
  values : ∀ k, (o'.fields.lookup k).map (·.val) = (o.fields.lookup k).map (·.val)

/-- The same object, with the same values -/
structure SameObject (o o' : Obj) : Prop extends SameData o o' where
  sects  : o'.sects = o.sects

/-- The value contains a reference of type `τ` to `n` in package `p`. -/
inductive HasRef : PVal → Ty → Nat → List Char → Prop
  | ref {τ p n} : HasRef (.ref τ p n) τ p n
  | neg {v τ p n} : HasRef v τ p n → HasRef (.neg v) τ p n
  | pos {v τ p n} : HasRef v τ p n → HasRef (.pos v) τ p n
  | arr {t es v τ p n} : v ∈ es → HasRef v τ p n → HasRef (.arr t es) τ p n
  | tup {t fs k v τ p n} : (k, v) ∈ fs → HasRef v τ p n → HasRef (.tup t fs) τ p n

/-- The value contains a markup string that mentions `r`. -/
inductive HasMark : PVal → MRef → Prop
  | markup {v rs r} : r ∈ rs → HasMark (.markup v rs) r
  | neg {v r} : HasMark v r → HasMark (.neg v) r
  | pos {v r} : HasMark v r → HasMark (.pos v) r
  | arr {t es v r} : v ∈ es → HasMark v r → HasMark (.arr t es) r
  | tup {t fs k v r} : (k, v) ∈ fs → HasMark v r → HasMark (.tup t fs) r

end Verif.Spec
