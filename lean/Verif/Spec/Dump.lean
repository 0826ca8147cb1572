import Verif.Model.Dump
import Verif.Spec.RslText
/-!
# When dumping ends, and what it shows
-/
namespace Verif.Spec
open Verif.Model

mutual
/-- The expression quantifies somewhere over the elements of the component. -/
def QuantifiesIn : Expr → String → Prop
  | .null, _ | .bool _, _ | .int _, _ | .dec _, _ | .str _, _ | .enum _ _, _ | .name _ _, _ => False
  | .unary _ _ e, n => QuantifiesIn e n
  | .binary _ _ l r, n => QuantifiesIn l n ∨ QuantifiesIn r n
  | .logic _ l r, n => QuantifiesIn l n ∨ QuantifiesIn r n
  | .field p _ _, n => QuantifiesIn p n
  | .range e lo up, n => QuantifiesIn e n ∨ QuantifiesIn lo n ∨ QuantifiesIn up n
  | .oneof es, n => QuantifiesInAny es n
  | .cond _ as, n => QuantifiesInActs as n
  | .quant _ _ src e, n => n = src ∨ QuantifiesIn e n

/-- … one of the parameters -/
def QuantifiesInAny : Exprs → String → Prop
  | .nil, _ => False
  | .cons e es, n => QuantifiesIn e n ∨ QuantifiesInAny es n

/-- … one of the branches or conditions -/
def QuantifiesInActs : Acts → String → Prop
  | .els e, n => QuantifiesIn e n
  | .act c e as, n => QuantifiesIn c n ∨ QuantifiesIn e n ∨ QuantifiesInActs as n
end

/-- a record or tuple type as a type -/
def tyOf : CompositeTy → Ty
  | .record t => .record t
  | .tup t => .tup t

/-- The check belongs to the type. -/
def CheckOf (C : CheckTab) : CompositeTy → Check → Prop
  | .record t, c => ∃ cs, C.recs[t]? = some cs ∧ c ∈ cs
  | .tup t, c => ∃ cs, C.tups[t]? = some cs ∧ c ∈ cs

/-- A check of the record or tuple type `t` has a quantifier over an array of elements of type `u`. -/
def RangesOver (D : Decls) (C : CheckTab) (t u : Ty) : Prop :=
  ∃ ct k c id lo hi, t = tyOf ct ∧ CheckOf C ct k ∧ QuantifiesIn k.expr c.name ∧ CompOf D ct c ∧ c.ty = .arr id u lo hi

/-- The lines that are indented this far -/
def outline (i : Nat) (ls : List DLine) : List DItem := (ls.filter fun l => l.1 == i).map (·.2)

/-- The line, followed by lines that are indented further, and then by none or by one that is not. -/
def Block (i : Nat) (x : DItem) (sub ls : List DLine) : Prop :=
  ∃ pre post, ls = pre ++ ((i, x) :: sub) ++ post ∧ (∀ l ∈ sub, i < l.1) ∧ ∀ l, post.head? = some l → l.1 ≤ i

/-- The first line about something in a package: a type or an object -/
def entryItem (e : Ent) : DItem :=
  if e.cls = clsObject then .object e.id
  else if e.cls = clsRecord then .type (.record e.id)
  else if e.cls = clsTuple then .type (.tup e.id)
  else .type (.enum e.id)

/-- The lines about builtin types and functions -/
def builtinItems : List DItem :=
  [.type .int, .type .dec, .type .bool, .type .str, .type .markup] ++
    ["len", "startswith", "endswith", "matches", "oneof"].map fun n => .function n.toList

/-- the objects among the lines -/
def objectsIn (is : List DItem) : List Nat := is.filterMap fun | .object i => some i | _ => none

mutual
/-- What a dump tells about a value: not the packages of the objects it refers to, nor the types of arrays and references. -/
def told : PVal → PVal
  | .markup s refs => .markup s (refs.map fun r => { pkg := 0, name := r.name })
  | .neg e => .neg (told e)
  | .pos e => .pos (told e)
  | .arr _ es => .arr .int (tolds es)
  | .tup t fs => .tup t (toldFields fs)
  | .ref _ _ n => .ref .int 0 n
  | v => v

/-- … about the elements of an array -/
def tolds : List PVal → List PVal
  | [] => []
  | e :: es => told e :: tolds es

/-- … about the fields of a tuple -/
def toldFields : List (String × PVal) → List (String × PVal)
  | [] => []
  | f :: fs => toldField f :: toldFields fs

/-- … about a field of a tuple -/
def toldField : String × PVal → String × PVal
  | (n, e) => (n, told e)
end

end Verif.Spec
