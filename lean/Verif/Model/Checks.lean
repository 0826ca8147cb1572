import Verif.Model.Eval
import Verif.Model.Messages
import Verif.Model.Run.Objects
/-!
# Performing user defined checks (`trlc/ast.py:384-432, 2403-2407, 2565-2574, 2660-2668, 2930-2935,
3094-3107, 3330-3354`, `trlc/trlc.py:468-479`)

The message handler only records what it is told (`Model/Messages.lean`) and raises exactly on
fatal errors, so the model lists the calls on the handler in order.
-/
namespace Verif.Model

/-- the checks declared for a record type (`trlc/ast.py:2817-2824`) -/
def CheckTab.ofRec (C : CheckTab) (t : Nat) : List Check := (C.recs[t]?).getD []

/-- the checks declared for a tuple type (`trlc/ast.py:2817-2824`) -/
def CheckTab.ofTup (C : CheckTab) (t : Nat) : List Check := (C.tups[t]?).getD []

/-- What is needed of a record object or tuple value (`composite_object`): the values of its
components, its location and the locations of its values.
(`trlc/ast.py:378-398`) -/
structure Composite where
  ctx      : List (String × FExpr)
  loc      : String
  fieldLoc : String → String

/-- Internal Python exceptions while performing checks (`trlc/ast.py:392-432, 3330-3354`) -/
inductive CheckCrash
  /-- from the evaluation -/
  | eval (c : EvCrash)
  /-- a failing `assert isinstance` -/
  | assertion
  deriving Repr, DecidableEq

/-- How a piece of the checking ends (`trlc/ast.py:392-432`) -/
inductive CEnd (α : Type)
  | ok (a : α)
  /-- `TRLC_Error` was raised -/
  | raised
  | crash (c : CheckCrash)
  deriving Repr, DecidableEq

/-- The calls on the message handler and the end of a piece of the checking
(`trlc/ast.py:392-432, 3330-3354`) -/
structure CR (α : Type) where
  calls : List MHCall
  out   : CEnd α
  deriving Repr, DecidableEq

/-- Sequential composition (`trlc/errors.py:274-276`) -/
def CR.bind {α β : Type} (x : CR α) (f : α → CR β) : CR β :=
  match x.out with
  | .ok a => ⟨x.calls ++ (f a).calls, (f a).out⟩
  | .raised => ⟨x.calls, .raised⟩
  | .crash c => ⟨x.calls, .crash c⟩

/-- a result without messages (`trlc/errors.py:274-276`) -/
def CR.pure {α : Type} (a : α) : CR α := ⟨[], .ok a⟩

/-- The text of an error reported by the evaluation.  Location and exact text are not
modelled.
(`trlc/ast.py:392-432`) -/
def EvErr.text : EvErr → String
  | .divByZero => "division by zero"
  | .staticContext => "cannot be used in a static context"
  | .indexNegative | .indexAboveBound | .indexAboveLength => "index out of range"
  | _ => "must not be null"

/-- `trlc/ast.py:378-390` `get_real_location` (the entry of a component is never `None`) -/
def Check.location (c : Check) (k : Composite) : String :=
  match c.anchor with
  | none => k.loc
  | some n => k.fieldLoc n

/-- `trlc/ast.py:392-432` `Check.perform` -/
def performCheck (env : EvEnv) (k : Composite) (c : Check) : CR Bool :=
  match c.expr.eval env (some k.ctx) with
  | .err x => ⟨[.error "" x.text true false], .raised⟩
  | .crash x => ⟨[], .crash (.eval x)⟩
  | .ok v =>
    match v.val with
    | .null => ⟨[.error (c.location k) "evaluates to null" true false], .raised⟩
    | .bool true => .pure true
    | .bool false =>
      match c.sev with
      | .warning => ⟨[.warning (c.location k) c.msg true], .ok true⟩
      | .error => ⟨[.error (c.location k) c.msg false true], .ok false⟩
      | .fatal => ⟨[.error (c.location k) c.msg true true], .raised⟩
    | _ => ⟨[], .crash .assertion⟩

/-- The loops `for check in …: if not check.perform(…): ok = False` of
`trlc/ast.py:3100-3104, 3348-3352`, with the value of `ok` so far -/
def performAll (env : EvEnv) (k : Composite) : List Check → Bool → CR Bool
  | [], ok => .pure ok
  | c :: cs, ok => (performCheck env k c).bind fun b => performAll env k cs (ok && b)

/-- The locations of the values of tuples, and of tuples themselves, are not modelled.
(`trlc/ast.py:378-390, 997-1035`) -/
def tupleComposite (fs : List (String × FExpr)) : Composite :=
  { ctx := fs, loc := "", fieldLoc := fun _ => "" }

mutual
/-- The methods `perform_type_checks`, `trlc/ast.py:2403-2407, 2565-2574, 2660-2668, 3094-3107`,
on the type of a component and its value; `τ` is followed along the element types. -/
def performType (C : CheckTab) (env : EvEnv) : Ty → FExpr → CR Bool
  | .tup t, .tup _ fs => performAll env (tupleComposite fs) (C.ofTup t) true
  | .tup _, .inull => .pure true
  | .tup _, _ => ⟨[], .crash .assertion⟩
  | .arr _ elem _ _, .arr _ es => performElems C env elem es
  | .arr .., .inull => .pure true
  | .arr .., _ => ⟨[], .crash .assertion⟩
  | _, _ => .pure true

/-- `all(… for v in value.value)`, `trlc/ast.py:2570-2571`: stops at the first `False`. -/
def performElems (C : CheckTab) (env : EvEnv) (elem : Ty) : List FExpr → CR Bool
  | [] => .pure true
  | v :: vs => (performType C env elem v).bind fun b =>
    if b then performElems C env elem vs else .pure false
end

/-- `trlc/ast.py:3339-3343`: the loop over the components; a component without entry would be a
`KeyError`. -/
def performComps (C : CheckTab) (env : EvEnv) (fs : Fields) : List Comp → Bool → CR Bool
  | [], ok => .pure ok
  | c :: cs, ok =>
    match fs.lookup c.name with
    | none => ⟨[], .crash .assertion⟩
    | some n => (performType C env c.ty n.expr).bind fun b => performComps C env fs cs (ok && b)

/-- `trlc/ast.py:2930-2935` `Record_Type.iter_checks`; `fuel` bounds the length of the chain of
parents, as in `Decls.chain`. -/
def iterChecks (D : Decls) (C : CheckTab) : Nat → Nat → List Check
  | 0, _ => []
  | fuel + 1, t =>
    match D.recs[t]? with
    | none => []
    | some r =>
      match r.parent with
      | none => C.ofRec t
      | some p => iterChecks D C fuel p ++ C.ofRec t

/-- `trlc/ast.py:392-398, 3351` the record object as context of its checks -/
def recordComposite (fs : Fields) (loc : String) (fieldLoc : String → String) : Composite :=
  { ctx := fs.map fun f => (f.1, f.2.expr), loc, fieldLoc }

/-- `trlc/ast.py:3330-3354` `Record_Object.perform_checks` for an object of type `t` -/
def performObject (D : Decls) (C : CheckTab) (env : EvEnv) (fs : Fields) (loc : String)
    (fieldLoc : String → String) (t : Nat) : CR Bool :=
  (performComps C env fs (D.allComponents t) true).bind fun ok =>
    performAll env (recordComposite fs loc fieldLoc) (iterChecks D C D.recs.length t) ok

/-- What is known about locations: of every object, and of the values of its components
(`trlc/ast.py:378-390`) -/
structure Locs where
  obj   : Nat → String
  field : Nat → String → String

/-- One round of `trlc/trlc.py:472-477`: `TRLC_Error` is caught. -/
def performOne (s : PS) (C : CheckTab) (env : EvEnv) (L : Locs) (o : Nat) : CR Bool :=
  match s.objs[o]?, env.heap o with
  | some ob, some fs =>
    let r := performObject s.decls C env fs (L.obj o) (L.field o) ob.typ
    match r.out with
    | .raised => ⟨r.calls, .ok false⟩
    | _ => r
  | _, _ => .pure true

/-- `trlc/trlc.py:470-477` the loop over the objects, with the value of `ok` so far -/
def performObjects (s : PS) (C : CheckTab) (env : EvEnv) (L : Locs) : List Nat → Bool → CR Bool
  | [], ok => .pure ok
  | o :: os, ok => (performOne s C env L o).bind fun b => performObjects s C env L os (ok && b)

/-- `trlc/trlc.py:468-479` `Source_Manager.perform_checks` -/
def performChecks (s : PS) (global : STab) (C : CheckTab) (rx : List Char → List Char → Bool)
    (L : Locs) : CR Bool :=
  performObjects s C ⟨s.heap, rx⟩ L (s.visited global) true

end Verif.Model
