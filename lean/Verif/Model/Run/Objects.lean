import Verif.Model.Parse.Object
import Verif.Model.PySort
/-!
# Parsing all trlc files and resolving references (`trlc/trlc.py:430-466`)
-/
namespace Verif.Model

/-- A trlc file whose preamble was parsed (`trlc/parser.py:286-332, 1963-2005`): its
environment, and its own part of the parser state. -/
structure OpenFile where
  env  : FileEnv
  ct   : Option Token
  nt   : Option Token
  rest : List LexOut

/-- The parser object of another file takes over. (`trlc/trlc.py:439-447`) -/
def PS.enter (s : PS) (f : OpenFile) : PS :=
  { s with ct := f.ct, nt := f.nt, rest := f.rest, sects := [] }

/-- `trlc/trlc.py:446-450`: parse one file, `try: … except TRLC_Error: ok = False` -/
def runTrlcFile (f : OpenFile) : P Bool := do
  P.modify fun s => s.enter f
  P.tryCatch (parseTrlcFile f.env) (pure false)

/-- `trlc/trlc.py:430-452` `parse_trlc_files`; the argument lists the files that are parsed
(those without preamble error that are primary or required by a primary file, see
`Model/Sources.lean`), in the order of their names. -/
def runTrlcFiles : List OpenFile → P Bool
  | [] => pure true
  | f :: fs => do
    let a ← runTrlcFile f
    let b ← runTrlcFiles fs
    pure (a && b)

/-- `trlc/ast.py:3463-3469` `values`: the entries of the class with number `cls`, those of a
table in the order of the keys, parents first. -/
def STab.values (T : STab) (cls : Nat) : List Ent :=
  (T.parents.reverse ++ [T.own]).flatMap fun f =>
    ((pySort (fun a b => pyLe a.1 b.1) f).map Prod.snd).filter fun e => e.cls == cls

/-- `trlc/ast.py:837-840`, `1152-1163` for a name in a markup string (`typ is None`) -/
def PS.resolveMRef (s : PS) (r : MRef) : Except PErr Nat :=
  match (s.tab r.pkg).lookupDirect r.name (some fun e => e.cls = clsObject) false with
  | .error e => .error (.sym e)
  | .ok e => .ok e.id

/-- `trlc/ast.py:837-840` -/
def PS.resolveMRefs (s : PS) : List MRef → Except PErr (List Nat)
  | [] => .ok []
  | r :: rs => match s.resolveMRef r with
    | .error e => .error e
    | .ok o => match s.resolveMRefs rs with
      | .error e => .error e
      | .ok os => .ok (o :: os)

mutual
/-- `trlc/ast.py:548-549, 837-840, 981-985, 1076-1080, 1152-1177` `resolve_references`: the
value with the targets filled in, or the (fatal) error.  (The targets of the names in a
markup string play no role in evaluation and are not part of `FExpr`.) -/
def PS.resolveVal (s : PS) : PVal → Except PErr FExpr
  | .inull => .ok .inull
  | .bool b => .ok (.bool b)
  | .int i => .ok (.int i)
  | .dec q => .ok (.dec q)
  | .str v => .ok (.str v)
  | .markup v refs => match s.resolveMRefs refs with
    | .error e => .error e
    | .ok _ => .ok (.markup v)
  | .enum t l => .ok (.enum t l)
  | .neg e => match s.resolveVal e with
    | .error x => .error x
    | .ok v => .ok (.neg v)
  | .pos e => match s.resolveVal e with
    | .error x => .error x
    | .ok v => .ok (.pos v)
  | .arr t es => match s.resolveVals es with
    | .error x => .error x
    | .ok vs => .ok (.arr t vs)
  | .tup t fs => match s.resolveFields fs with
    | .error x => .error x
    | .ok vs => .ok (.tup t vs)
  | .ref τ p n => match s.resolveRef τ p n with
    | .error x => .error x
    | .ok o => .ok (.ref τ (some o))

/-- … of all elements, up to the first error (`trlc/ast.py:981-985`) -/
def PS.resolveVals (s : PS) : List PVal → Except PErr (List FExpr)
  | [] => .ok []
  | e :: es => match s.resolveVal e with
    | .error x => .error x
    | .ok v => match s.resolveVals es with
      | .error x => .error x
      | .ok vs => .ok (v :: vs)

/-- … of all fields of a tuple (`trlc/ast.py:1076-1080`) -/
def PS.resolveFields (s : PS) : List (String × PVal) → Except PErr (List (String × FExpr))
  | [] => .ok []
  | f :: fs => match s.resolveField f with
    | .error x => .error x
    | .ok v => match s.resolveFields fs with
      | .error x => .error x
      | .ok vs => .ok (v :: vs)

/-- … of one field (`trlc/ast.py:1076-1080`) -/
def PS.resolveField (s : PS) : String × PVal → Except PErr (String × FExpr)
  | (n, e) => match s.resolveVal e with
    | .error x => .error x
    | .ok v => .ok (n, v)
end

/-- `trlc/ast.py:3325-3328` `Record_Object.resolve_references` -/
def PS.resolveNodes (s : PS) : List (String × VNode) → Except PErr Fields
  | [] => .ok []
  | (n, v) :: fs => match s.resolveVal v.val with
    | .error x => .error x
    | .ok e => match s.resolveNodes fs with
      | .error x => .error x
      | .ok es => .ok ((n, ⟨v.id, e⟩) :: es)

/-- The objects in the order in which they are visited (`trlc/trlc.py:459-460, 471-472`);
`global` is the global symbol table. -/
def PS.visited (s : PS) (global : STab) : List Nat :=
  (global.values clsPackage).flatMap fun p => ((s.tab p.id).values clsObject).map (·.id)

/-- One round of the loop of `trlc/trlc.py:459-464`: an error is reported and caught. -/
def PS.resolveOne (s : PS) (o : Nat) : Option PErr :=
  match s.objs[o]? with
  | none => none
  | some ob => match s.resolveNodes ob.fields with
    | .error x => some x
    | .ok _ => none

/-- `trlc/trlc.py:454-466` `resolve_record_references`: the errors reported; the result is
`True` iff there are none. -/
def PS.resolveAll (s : PS) (global : STab) : List PErr :=
  (s.visited global).filterMap s.resolveOne

/-- The `field` dictionary of every object after resolving the references (empty if that
failed, which ends the run).
(`trlc/ast.py:3325-3328`) -/
def PS.heap (s : PS) (o : Nat) : Option Fields :=
  match s.objs[o]? with
  | none => none
  | some ob => match s.resolveNodes ob.fields with
    | .error _ => none
    | .ok fs => some fs

/-- The type of every object (`trlc/ast.py:3258-3272`) -/
def PS.objTy (s : PS) (o : Nat) : Option Nat := (s.objs[o]?).map (·.typ)

end Verif.Model
