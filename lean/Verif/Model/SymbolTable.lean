/-!
# Symbol tables and scopes (`trlc/ast.py:3396-3791`)

Names are lists of characters.  `str.lower` is modelled for ASCII letters only; every
name that reaches a table is an identifier token or a builtin name and therefore
ASCII (`trlc/lexer.py`, theorem `C04_words`).
-/
namespace Verif.Model

/-- A named entity (`trlc/ast.py:2353-2373` `Entity`): its spelling, an object identity
and its Python class (as a number; class tests are passed as predicates). -/
structure Ent where
  name : List Char
  id   : Nat
  cls  : Nat
  deriving Repr, DecidableEq

/-! ## Entities in symbol tables

The Python class of an entity is a number in `Ent.cls`; `Ent.id` is the number of the
package, type or record object. -/

/-- `ast.Package` (`trlc/ast.py:2750-2784`) -/
def clsPackage : Nat := 0
/-- the builtin types (`ast.Builtin_Type`) (`trlc/ast.py:2442-2463`) -/
def clsBuiltinType : Nat := 1
/-- `ast.Record_Type` (`trlc/ast.py:2887-3023`) -/
def clsRecord : Nat := 2
/-- `ast.Tuple_Type` (`trlc/ast.py:3026-3120`) -/
def clsTuple : Nat := 3
/-- `ast.Enumeration_Type` (`trlc/ast.py:3154-3190`) -/
def clsEnum : Nat := 4
/-- `ast.Record_Object` (`trlc/ast.py:3222-3360`) -/
def clsObject : Nat := 5
/-- builtin functions (`trlc/ast.py:2465-2489`) -/
def clsFunction : Nat := 6

/-- One ordered dictionary `self.table` (`trlc/ast.py:3404`), keyed by simplified name. -/
abbrev Frame := List (List Char × Ent)

/-- `trlc/ast.py:3399-3406`.  `parents` are the tables reached by following `parent`,
nearest first; `imported` lists, for every table made visible, that table and its
parents.  Simplification: parents and imported tables have no imported tables of
their own; in the code only package tables import (`trlc/ast.py:2772`), and only
the global table, while tables with a parent (record/tuple components) import
nothing. -/
structure STab where
  own      : Frame
  parents  : List Frame
  imported : List (List Frame)
  deriving Repr, DecidableEq

/-- `trlc/ast.py:3408-3412` `simplified_name` -/
def simplifiedName (n : List Char) : List Char := (n.map Char.toLower).filter (· ≠ '_')

/-- `simple_name in table` / `table[simple_name]` (`trlc/ast.py:3476-3694`) -/
def Frame.get (f : Frame) (k : List Char) : Option Ent := (f.find? (fun p => p.1 = k)).map Prod.snd

/-- The inner `while ptr` loops (`trlc/ast.py:3560-3574`, `3639-3660`): first table of
a parent chain having the key. -/
def chainGet : List Frame → List Char → Option Ent
  | [], _ => none
  | f :: fs, k => match f.get k with
    | some e => some e
    | none => chainGet fs k

/-- `trlc/ast.py:3508-3531` `contains_raw` for a table without imports -/
def chainContains : List Frame → List Char → Option (List Char) → Bool
  | [], _, _ => false
  | f :: fs, k, precise => match f.get k with
    | some e => precise.all (· = e.name)
    | none => chainContains fs k precise

/-- `trlc/ast.py:3508-3531` `contains_raw`: imported tables are only consulted if there
is no parent. -/
def STab.containsRaw (t : STab) (k : List Char) (precise : Option (List Char)) : Bool :=
  match t.own.get k with
  | some e => precise.all (· = e.name)
  | none =>
    if t.parents.isEmpty then t.imported.any (fun c => chainContains c k precise)
    else chainContains t.parents k precise

/-- `trlc/ast.py:3533-3543` `contains` -/
def STab.contains (t : STab) (name : List Char) : Bool :=
  t.containsRaw (simplifiedName name) (some name)

/-- The double loop of `lookup_direct` and `lookup_assuming`: first hit in
`[self] + self.imported`, each with its parents.
(`trlc/ast.py:3545-3694`) -/
def STab.find (t : STab) (k : List Char) : Option Ent :=
  ((t.own :: t.parents) :: t.imported).findSome? (fun c => chainGet c k)

/-- Errors reported by lookups and declarations. (`trlc/ast.py:3476-3694`) -/
inductive SymErr
  | unknown | spelling (meant : List Char) | wrongClass | duplicate | tooSimilar (other : List Char)
  deriving Repr, DecidableEq

/-- `trlc/ast.py:3588-3677` `lookup_direct`.  `sub` is `required_subclass` as a test on
the entity.  The close matches offered with an unknown symbol are not modelled. -/
def STab.lookupDirect (t : STab) (name : List Char) (sub : Option (Ent → Bool)) (simplified : Bool) :
    Except SymErr Ent :=
  match t.find (simplifiedName name) with
  | some rv =>
    if !simplified && rv.name ≠ name then .error (.spelling rv.name)
    else if sub.any (fun p => !p rv) then .error .wrongClass
    else .ok rv
  | none => .error .unknown

/-- `trlc/ast.py:3679-3690` `lookup` -/
def STab.lookup (t : STab) (name : List Char) (sub : Option (Ent → Bool)) : Except SymErr Ent :=
  t.lookupDirect name sub false

/-- `trlc/ast.py:3545-3586` `lookup_assuming` -/
def STab.lookupAssuming (t : STab) (name : List Char) (sub : Option (Ent → Bool)) :
    Except SymErr (Option Ent) :=
  match t.find (simplifiedName name) with
  | some rv =>
    if rv.name ≠ name then .ok none
    else if sub.any (fun p => !p rv) then .error .wrongClass
    else .ok (some rv)
  | none => .ok none

/-- `trlc/ast.py:3475-3503` `register`.  Both `mh.error` calls are fatal, so a rejected
declaration leaves the table as it was. -/
def STab.register (t : STab) (e : Ent) : Except SymErr STab :=
  let k := simplifiedName e.name
  if t.containsRaw k none then
    match t.lookupDirect e.name none true with
    | .ok pdef => if pdef.name = e.name then .error .duplicate else .error (.tooSimilar pdef.name)
    | .error x => .error x
  else .ok { t with own := t.own ++ [(k, e)] }

/-- A history of declarations; rejected ones leave the table unchanged (the fatal error
is caught by the recovery points of the parser).
(`trlc/ast.py:3476-3503`) -/
def STab.registerAll (t : STab) : List Ent → STab
  | [] => t
  | e :: es => match t.register e with
    | .ok t' => t'.registerAll es
    | .error _ => t.registerAll es

/-- `trlc/ast.py:3399-3406`, with a parent table -/
def STab.child (t : STab) : STab := { own := [], parents := t.own :: t.parents, imported := [] }

/-- `trlc/ast.py:3471-3473` `make_visible` on a fresh table -/
def STab.importing (t : STab) : STab := { own := [], parents := [], imported := [t.own :: t.parents] }

/-- The empty table (`trlc/ast.py:3399-3407`) -/
def STab.empty : STab := { own := [], parents := [], imported := [] }

/-! ## Scopes (`trlc/ast.py:3758-3791`) -/

/-- `trlc/ast.py:3759-3761`: the list `self.scope`, outermost first. -/
abbrev Scope := List STab

/-- `trlc/ast.py:3763-3765` -/
def Scope.push (s : Scope) (t : STab) : Scope := s ++ [t]

/-- `trlc/ast.py:3767-3768`; popping an empty list is an `IndexError`. -/
def Scope.pop (s : Scope) : Option Scope := if s.isEmpty then none else some s.dropLast

/-- `trlc/ast.py:3770-3776` -/
def Scope.contains (s : Scope) (name : List Char) : Bool := s.reverse.any (·.contains name)

/-- `trlc/ast.py:3778-3788`; `none` is the failing assertion on an empty scope. -/
def Scope.lookup (s : Scope) (name : List Char) (sub : Option (Ent → Bool)) :
    Option (Except SymErr Ent) :=
  match s with
  | [] => none
  | t0 :: rest => match rest.reverse.find? (·.contains name) with
    | some t => some (t.lookup name sub)
    | none => some (t0.lookup name sub)

end Verif.Model
