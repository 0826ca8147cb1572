import Verif.Model.Run.Process
/-!
# Dumping the symbol table (`trlc/ast.py`, the methods `dump`)

What `--debug-dump` prints (`trlc/trlc.py:729-730`).  A line is a number, how far it is indented, and
what it is about.  Simplifications: a type, an object or a package is printed with its name, here it
is its number; descriptions are not modelled; whether a package was declared late is not either.
-/
namespace Verif.Model

/-- What a line of the dump is about (the arguments of `write_indent` in `trlc/ast.py:199-3392,
3716-3727`) -/
inductive DItem
  | symbolTable
  /-- `Package …`, `Declared_Late: …` -/
  | package (p : Nat) | late
  /-- a builtin function -/
  | function (n : List Char)
  /-- the first line of a type -/
  | type (t : Ty)
  /-- `Parent: …` of a record type -/
  | extends (t : Nat)
  /-- `Composite_Component …`, `Optional: …`, `Type: …` -/
  | component (n : String) | optional (b : Bool) | typ (t : Ty)
  /-- `Separator …`, `Fields` -/
  | separator (s : Sep) | fields
  /-- `Checks`, `Checks: None` -/
  | checks | noChecks
  /-- `Enumeration_Literal_Spec …` -/
  | literal (l : String)
  /-- the bounds and the element type of an array type, a member of a union type -/
  | lower (n : Nat) | upper (n : Option Nat) | element (t : Ty) | member (t : Nat)
  /-- `Error '…'`, `Warning '…'`, `Fatal error '…'`, `Anchor: …` -/
  | check (sev : Severity) (msg : String) | anchor (n : String)
  /-- literals and names -/
  | null | implicitNull | bool (b : Bool) | int (i : Int) | dec (q : Rat) | str (s : List Char)
  | enum (t : Nat) (l : String) | name (n : String)
  /-- operators -/
  | unary (op : UnOp) | binary (op : BinOp) | logic (op : SCOp)
  /-- other expressions -/
  | fieldAccess (n : String) | range | oneof | cond | action | condition | value | els
  | quantified (universal : Bool) | var (n : String)
  /-- values of components -/
  | array | tuple | reference (n : List Char) | resolved | markup
  /-- `Record_Object …`, `Field …`, `Section …`, `Parent: …` -/
  | object (o : Nat) | field (k : String) | sect (n : List Char) | within (n : Option (List Char))
  deriving Repr, DecidableEq

/-- one line (`trlc/ast.py:120-125, 3709-3714`) -/
abbrev DLine := Nat × DItem

/-- The exceptions while dumping: the calls are nested too deep (`RecursionError`), `None` has no name,
a field of a tuple is missing. (`trlc/ast.py:1037-1043, 1322-1326, 2393-2396`) -/
inductive DumpErr
  | recursion | attribute | key
  deriving Repr, DecidableEq

/-- what was printed, or an exception (`trlc/ast.py:128-165`) -/
abbrev DumpR := Except DumpErr (List DLine)

/-- one thing after the other (`trlc/ast.py:199-3392`) -/
def DumpR.followed (a b : DumpR) : DumpR :=
  match a with
  | .error e => .error e
  | .ok x => match b with
    | .error e => .error e
    | .ok y => .ok (x ++ y)

/-- a loop (`trlc/ast.py:203-204, 2948-2949, 3725-3726`) -/
def dumpAll {α : Type} (f : α → DumpR) : List α → DumpR
  | [] => .ok []
  | a :: as => (f a).followed (dumpAll f as)

/-- `self.typ.name` (`trlc/ast.py:1325, 1566`) -/
def dumpTyp (i : Nat) : Option Ty → DumpR
  | none => .error .attribute
  | some t => .ok [(i, .typ t)]

mutual
/-- `dump` of the expressions in checks (`trlc/ast.py:673-674, 721-722, 769-770, 818-823, 863-864, 909-912,
1214-1215, 1322-1326, 1563-1568, 1876-1879, 1963-1969, 2039-2044, 2169-2175, 2265-2272`).  `var` dumps the
type of a variable that ranges over the elements of the given component (`trlc/ast.py:2396`). -/
def Expr.dump (var : Nat → String → DumpR) (i : Nat) : Expr → DumpR
  | .null => .ok [(i, .null)]
  | .bool b => .ok [(i, .bool b)]
  | .int n => .ok [(i, .int n)]
  | .dec q => .ok [(i, .dec q)]
  | .str s => .ok [(i, .str s)]
  | .enum t l => .ok [(i, .enum t l)]
  | .name n _ => .ok [(i, .name n)]
  | .unary t op e => DumpR.followed (.ok [(i, .unary op)]) ((dumpTyp (i + 1) t).followed (e.dump var (i + 1)))
  | .binary t op l r =>
    DumpR.followed (.ok [(i, .binary op)])
      ((dumpTyp (i + 1) t).followed ((l.dump var (i + 1)).followed (r.dump var (i + 1))))
  | .logic op l r =>
    DumpR.followed (.ok [(i, .logic op), (i + 1, .typ .bool)]) ((l.dump var (i + 1)).followed (r.dump var (i + 1)))
  | .field p n _ => DumpR.followed (.ok [(i, .fieldAccess n)]) (p.dump var (i + 1))
  | .range e lo up =>
    DumpR.followed (.ok [(i, .range), (i + 1, .typ .bool)])
      ((e.dump var (i + 1)).followed ((lo.dump var (i + 1)).followed (up.dump var (i + 1))))
  | .oneof es => DumpR.followed (.ok [(i, .oneof), (i + 1, .typ .bool)]) (es.dump var (i + 1))
  | .cond _ as => DumpR.followed (.ok [(i, .cond)]) (as.dump var (i + 1))
  | .quant u x src e =>
    DumpR.followed (.ok [(i, .quantified u), (i + 1, .var x)]) ((var (i + 2) src).followed (e.dump var (i + 1)))

/-- `trlc/ast.py:2043-2044` -/
def Exprs.dump (var : Nat → String → DumpR) (i : Nat) : Exprs → DumpR
  | .nil => .ok []
  | .cons e es => (e.dump var i).followed (es.dump var i)

/-- `trlc/ast.py:2104-2110, 2172-2175` -/
def Acts.dump (var : Nat → String → DumpR) (i : Nat) : Acts → DumpR
  | .els e => DumpR.followed (.ok [(i, .els)]) (e.dump var (i + 1))
  | .act c e as =>
    DumpR.followed (.ok [(i, .action), (i + 1, .condition)])
      ((c.dump var (i + 2)).followed (DumpR.followed (.ok [(i + 1, .value)]) ((e.dump var (i + 2)).followed (as.dump var i))))
end

/-- `trlc/ast.py:366-376` `Check.dump` -/
def Check.dump (var : Nat → String → DumpR) (i : Nat) (c : Check) : DumpR :=
  DumpR.followed (.ok ((i, .check c.sev c.msg) :: (c.anchor.map fun n => (i + 1, .anchor n)).toList))
    (c.expr.dump var (i + 1))

/-- `trlc/ast.py:2946-2951, 3087-3092` the checks of a type -/
def dumpChecks (var : Nat → String → DumpR) (i : Nat) : List Check → DumpR
  | [] => .ok [(i, .noChecks)]
  | c :: cs => DumpR.followed (.ok [(i, .checks)]) (dumpAll (Check.dump var (i + 1)) (c :: cs))

/-- `trlc/ast.py:2873-2879` `Composite_Component.dump` -/
def Comp.dump (i : Nat) (c : Comp) : List DLine :=
  [(i, .component c.name), (i + 1, .optional c.optional), (i + 1, .typ c.ty)]

/-- `trlc/ast.py:2873-2879, 3085-3086, 3150-3151` -/
def SeqItem.dump (i : Nat) : SeqItem → List DLine
  | .comp c => c.dump i
  | .sep s => [(i, .separator s)]

/-- the type of a variable that ranges over the elements of the component (`trlc/ast.py:2396`,
`trlc/parser.py:1161-1172`) -/
def elementOf : Option Comp → Option Ty
  | some c => match c.ty with
    | .arr _ e _ _ => some e
    | _ => none
  | none => none

/-- the checks of a type (`trlc/ast.py:2803-2822`) -/
def CheckTab.of (C : CheckTab) : CompositeTy → List Check
  | .record t => (C.recs[t]?).getD []
  | .tup t => (C.tups[t]?).getD []

/-- `dump` of types (`trlc/ast.py:2452-2453, 2461-2462, 2555-2563, 2654-2658, 2938-2951, 3079-3092, 3176-3181,
3716-3727`).  The components of a record type are those of its symbol table followed by those of the tables
of the types it extends.  `fuel` is how deeply the calls may be nested. -/
def dumpTy (D : Decls) (seps : List (List Sep)) (C : CheckTab) : Nat → Nat → Ty → DumpR
  | 0, _, _ => .error .recursion
  | fuel + 1, i, t =>
    let var (ct : CompositeTy) (j : Nat) (src : String) : DumpR :=
      match elementOf (D.compIn ct src) with
      | none => .error .attribute
      | some e => dumpTy D seps C fuel j e
    match t with
    | .record r =>
      DumpR.followed (.ok ((i, .type t) :: ((D.recs[r]?).bind (·.parent)).toList.map (fun p => (i + 1, .extends p)) ++
          ((D.ancestors r).flatMap D.own).flatMap (Comp.dump (i + 1))))
        (dumpChecks (var (.record r)) (i + 1) (C.of (.record r)))
    | .tup r =>
      DumpR.followed (.ok ((i, .type t) :: (i + 1, .fields) ::
          (iterSequence (D.fields r) ((seps[r]?).getD [])).flatMap (SeqItem.dump (i + 2))))
        (dumpChecks (var (.tup r)) (i + 1) (C.of (.tup r)))
    | .enum e => .ok ((i, .type t) :: ((D.enums[e]?).getD []).map fun l => (i + 1, .literal l))
    | .arr _ e lo hi => .ok [(i, .type t), (i + 1, .lower lo), (i + 1, .upper hi), (i + 1, .element e)]
    | .union _ ms => .ok ((i, .type t) :: ms.map fun m => (i + 1, .member m))
    | _ => .ok [(i, .type t)]

/-- The attribute `typ` of a number (`trlc/parser.py:1700-1727`) -/
def PVal.numTy : PVal → Option Ty
  | .int _ => some .int
  | .dec _ => some .dec
  | .neg e => e.numTy
  | .pos e => e.numTy
  | _ => none

mutual
/-- `dump` of the values of components (`trlc/ast.py:631-633, 721-722, 769-770, 818-823, 863-864, 909-912,
955-959, 1037-1043, 1137-1141, 1322-1326`).  All references are resolved when this is called. -/
def PVal.dump (D : Decls) (i : Nat) : PVal → DumpR
  | .inull => .ok [(i, .implicitNull)]
  | .bool b => .ok [(i, .bool b)]
  | .int n => .ok [(i, .int n)]
  | .dec q => .ok [(i, .dec q)]
  | .str s => .ok [(i, .str s)]
  | .markup s refs =>
    .ok ((i, .str s) :: (i + 1, .markup) :: refs.flatMap fun r => [(i + 2, .reference r.name), (i + 3, .resolved)])
  | .enum t l => .ok [(i, .enum t l)]
  | .neg e => DumpR.followed (.ok [(i, .unary .minus)]) ((dumpTyp (i + 1) e.numTy).followed (e.dump D (i + 1)))
  | .pos e => DumpR.followed (.ok [(i, .unary .plus)]) ((dumpTyp (i + 1) e.numTy).followed (e.dump D (i + 1)))
  | .arr _ es => DumpR.followed (.ok [(i, .array)]) (dumpVals D (i + 1) es)
  | .tup t fs =>
    DumpR.followed (.ok [(i, .tuple), (i + 1, .typ (.tup t))])
      (dumpAll (fun c => match (dumpFields D (i + 1) fs).lookup c.name with
        | none => .error .key
        | some r => r) (D.fields t))
  | .ref _ _ n => .ok [(i, .reference n), (i + 1, .resolved)]

/-- … of the elements of an array (`trlc/ast.py:958-959`) -/
def dumpVals (D : Decls) (i : Nat) : List PVal → DumpR
  | [] => .ok []
  | e :: es => (e.dump D i).followed (dumpVals D i es)

/-- … of the fields of a tuple, by name (`trlc/ast.py:1041-1043`) -/
def dumpFields (D : Decls) (i : Nat) : List (String × PVal) → List (String × DumpR)
  | [] => []
  | f :: fs => dumpField D i f :: dumpFields D i fs

/-- … of one field (`trlc/ast.py:1043`) -/
def dumpField (D : Decls) (i : Nat) : String × PVal → String × DumpR
  | (n, e) => (n, e.dump D i)
end

/-- `trlc/ast.py:3384-3389` `Section.dump` of the innermost section -/
def dumpSection (i : Nat) (sects : List (List Char)) : List DLine :=
  match sects.reverse with
  | [] => []
  | n :: ns => [(i, .sect n), (i + 1, .within ns.head?)]

/-- `trlc/ast.py:3315-3323` `Record_Object.dump` -/
def Obj.dump (D : Decls) (i id : Nat) (o : Obj) : DumpR :=
  DumpR.followed (.ok [(i, .object id), (i + 1, .typ (.record o.typ))])
    ((dumpAll (fun f => DumpR.followed (.ok [(i + 1, .field f.1)]) (f.2.val.dump D (i + 2))) o.fields).followed
      (.ok (dumpSection (i + 1) o.sects)))

/-- `dump` of an entry of the symbol table of a package (`trlc/ast.py:3725-3726`) -/
def PS.dumpEntry (s : PS) (fuel i : Nat) (e : Ent) : DumpR :=
  if e.cls = clsObject then
    match s.objs[e.id]? with
    | none => .error .key
    | some o => o.dump s.decls i e.id
  else
    match e.ty? with
    | none => .error .key
    | some t => dumpTy s.decls s.seps s.checks fuel i t

/-- `dump` of a symbol table without heading, given `dump` for its entries (`trlc/ast.py:3716-3727`) -/
def dumpTable (f : Ent → DumpR) (T : STab) : DumpR :=
  dumpAll (fun F : Frame => dumpAll (fun x => f x.2) F) (T.own :: T.parents)

/-- `dump` of an entry of the global table (`trlc/ast.py:2452-2453, 2488-2489, 2775-2779`) -/
def PS.dumpGlobal (s : PS) (fuel i : Nat) (e : Ent) : DumpR :=
  if e.cls = clsPackage then
    DumpR.followed (.ok [(i, .package e.id), (i + 1, .late)]) (dumpTable (s.dumpEntry fuel (i + 1)) (s.tab e.id))
  else if e.cls = clsFunction then .ok [(i, .function e.name)]
  else
    match e.ty? with
    | none => .error .key
    | some t => .ok [(i, .type t)]

/-- `trlc/ast.py:3716-3727, trlc/trlc.py:729-730` what `--debug-dump` prints -/
def PS.dump (s : PS) (g : STab) (fuel : Nat) : DumpR :=
  DumpR.followed (.ok [(0, .symbolTable)]) (dumpTable (s.dumpGlobal fuel 1) g)

end Verif.Model
