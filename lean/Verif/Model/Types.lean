/-!
# Types and their components (`trlc/ast.py`)

Types are compared by identity in the code (no `__eq__` is defined on them), so every
type object is represented by a number that is unique to it.  Builtin types exist once
per run.  An anonymous array or union type is created anew for every component
declaration and therefore carries its own number.
-/
namespace Verif.Model

/-- The type objects of `trlc/ast.py:2403-2750, 2786-3220`.  `enum`, `tup` and `record` carry
the number of the declared type, `arr` and `union` the number of the anonymous type object
(with its element type and bounds, `trlc/ast.py:2492-2548`; with its member record types,
`trlc/ast.py:2581-2608`). -/
inductive Ty
  | bool | int | dec | str | markup
  | enum (id : Nat)
  | tup (id : Nat)
  | record (id : Nat)
  | arr (id : Nat) (elem : Ty) (lo : Nat) (hi : Option Nat)
  | union (id : Nat) (members : List Nat)
  deriving Repr, DecidableEq

/-- The Python class of a type object; what `ensure_type` compares when it is given a
class.
(`trlc/ast.py:2399-3190`) -/
inductive TyClass
  | boolean | integer | decimal | string | markupString | enumeration | tuple | record | array
  | union
  deriving Repr, DecidableEq

/-- `typ.__class__` (`trlc/ast.py:529-546`) -/
def Ty.cls : Ty → TyClass
  | .bool => .boolean
  | .int => .integer
  | .dec => .decimal
  | .str => .string
  | .markup => .markupString
  | .enum _ => .enumeration
  | .tup _ => .tuple
  | .record _ => .record
  | .arr .. => .array
  | .union .. => .union

/-- `isinstance(typ, cls)`: the only subclassing between the classes above is
`Builtin_Markup_String(Builtin_String)`, `trlc/ast.py:2730`. -/
def Ty.isInst (t : Ty) (c : TyClass) : Bool :=
  t.cls == c || (c == .string && t.cls == .markupString)

/-- `isinstance(typ, Builtin_Numeric_Type)`, `trlc/ast.py:2454, 2687, 2700` -/
def Ty.isNumeric : Ty → Bool
  | .int | .dec => true
  | _ => false

/-- `trlc/ast.py:2835-2884` `Composite_Component`: name, type, whether it may be null, and
`member_of`, the record or tuple type that declares it (for inherited components: the
original base type). -/
structure Comp where
  name     : String
  ty       : Ty
  optional : Bool
  memberOf : Ty
  deriving Repr, DecidableEq

/-- `trlc/ast.py:2887-2935` a record type: its parent and the components declared in it
(the symbol table of the type without the inherited part). -/
structure RecDecl where
  parent : Option Nat
  own    : List Comp
  deriving Repr, DecidableEq

/-- All declared types: record types, the fields of tuple types and the literals of
enumeration types, each addressed by its number.
(`trlc/ast.py:2887-3220`) -/
structure Decls where
  recs  : List RecDecl
  tups  : List (List Comp)
  enums : List (List String)
  deriving Repr, DecidableEq

/-- The record type and its ancestors, starting with the type itself: the successive values
of `ptr` in `trlc/ast.py:2951-2971` `is_subclass_of`.  `fuel` bounds the number of steps; a
parent exists before its extension is created, so `number of types` steps are enough. -/
def Decls.chain (D : Decls) : Nat → Nat → List Nat
  | 0, _ => []
  | fuel + 1, t =>
    match D.recs[t]? with
    | none => []
    | some r =>
      match r.parent with
      | none => [t]
      | some p => t :: D.chain fuel p

/-- A type followed by all its ancestors. (`trlc/ast.py:2953-2981`) -/
def Decls.ancestors (D : Decls) (t : Nat) : List Nat := D.chain D.recs.length t

/-- `trlc/ast.py:2951-2971` `is_subclass_of` -/
def Decls.isSubclassOf (D : Decls) (t s : Nat) : Bool := (D.ancestors t).contains s

/-- `list(self.components.table.values())`: the components declared in the type itself
(`trlc/ast.py:2953-2962`) -/
def Decls.own (D : Decls) (t : Nat) : List Comp :=
  match D.recs[t]? with
  | none => []
  | some r => r.own

/-- `trlc/ast.py:2939-2949` `all_components`: base components first. -/
def Decls.allComponents (D : Decls) (t : Nat) : List Comp :=
  (D.ancestors t).reverse.flatMap D.own

/-- The entry found by `n_name.typ.components.lookup`: the table of the type, then the tables
of its ancestors (`trlc/ast.py:3396-3755`; see `Model/SymbolTable.lean` for the lookup
itself). -/
def Decls.component (D : Decls) (t : Nat) (name : String) : Option Comp :=
  (D.ancestors t).findSome? fun s => (D.own s).find? (·.name == name)

/-- The fields of a tuple type (`trlc/ast.py:2826-2832`) -/
def Decls.fields (D : Decls) (t : Nat) : List Comp := (D.tups[t]?).getD []

/-- One entry of `get_field_map`, `trlc/ast.py:2610-2659`; `ty` is `none` after a type
conflict. -/
structure FieldInfo where
  comp  : Comp
  ty    : Option Ty
  count : Nat
  deriving Repr, DecidableEq

/-- `trlc/ast.py:2628-2656`: enter one component of a member type into the map. -/
def addField (m : List (String × FieldInfo)) (c : Comp) : List (String × FieldInfo) :=
  match m with
  | [] => [(c.name, { comp := c, ty := some c.ty, count := 1 })]
  | (n, i) :: rest =>
    if n = c.name then
      (n, { i with count := i.count + 1, ty := if i.ty = some c.ty then i.ty else none }) :: rest
    else (n, i) :: addField rest c

/-- `trlc/ast.py:2630-2634`: the components of one member, each name once (`seen_in_type`) -/
def firstOfName (seen : List String) : List Comp → List Comp
  | [] => []
  | c :: cs =>
    if seen.contains c.name then firstOfName seen cs
    else c :: firstOfName (c.name :: seen) cs

/-- `trlc/ast.py:2610-2659` `get_field_map` -/
def Decls.fieldMap (D : Decls) (members : List Nat) : List (String × FieldInfo) :=
  members.foldl (fun m t => (firstOfName [] (D.allComponents t)).foldl addField m) []

/-- `trlc/ast.py:2667-2680` `is_compatible` -/
def Decls.isCompatible (D : Decls) (members : List Nat) (t : Nat) : Bool :=
  members.any fun m => D.isSubclassOf t m

end Verif.Model
