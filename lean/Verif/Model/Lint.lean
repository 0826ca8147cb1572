import Verif.Model.Parse.Rsl
import Verif.Model.PySort
import Verif.Model.Sources
/-!
# The linter on type declarations (`trlc/lint.py:26-222`)

Modelled for `verify_checks = False`: with it every type is additionally handed to the
verification condition generator (`trlc/lint.py:160-164, 187-191`), see `Model/Vcg.lean` for the
part of it that is modelled.
-/
namespace Verif.Model

/-- The calls `mh.check` in `trlc/lint.py:57-222`; the type objects stand for the texts and locations
printed. -/
inductive LintMsg
  /-- 133-138: tuple type, separator, type of the field after it -/
  | separator (t : Nat) (sep : List Char) (next : Ty)
  /-- 85-89 -/
  | unionSingle (u : Nat)
  /-- 95-99: union type, the subtype, the other type -/
  | unionSubtype (u : Nat) (sub sup : Nat)
  /-- 200-203 -/
  | arrUpper (a : Nat)
  /-- 205-207 -/
  | arrZero (a : Nat)
  /-- 209-214 -/
  | arrOne (a : Nat)
  /-- 216-222 -/
  | arrOptional (a : Nat)
  /-- 57-60 -/
  | abstractLeaf (t : Nat)
  deriving Repr, DecidableEq

/-- The category given to `mh.check` (`trlc/lint.py:103-222`) -/
def LintMsg.category : LintMsg → String
  | .separator .. => "separator_based_literal_ambiguity"
  | .unionSingle _ => "union_single_type"
  | .unionSubtype .. => "union_redundant_subtype"
  | .arrUpper _ | .arrZero _ => "impossible_array_types"
  | .arrOne _ | .arrOptional _ => "weird_array_types"
  | .abstractLeaf _ => "abstract_leaf_types"

/-- Internal exceptions: the assertion in 114, an integer used as enumeration literal in
`trlc/ast.py:3188`, a missing key in 56. `fuel` is not an exception of the code: the model gave up
(shown not to happen). -/
inductive LintCrash
  | assertion | attribute | key | fuel
  deriving Repr, DecidableEq

/-- Whether `get_example_value` raises an exception: that of enumeration types asks an integer for
its name if there are literals (`trlc/ast.py:3183-3190`); that of tuple types and array types
(`trlc/ast.py:3109-3120, 2576-2578`) ask those of fields and elements; the others return a text.
`fuel` bounds the nesting. -/
def exampleFails (D : Decls) : Nat → Ty → Bool
  | _, .enum e => !((D.enums[e]?).getD []).isEmpty
  | 0, _ => false
  | fuel + 1, .tup t => (D.fields t).any fun c => exampleFails D fuel c.ty
  | fuel + 1, .arr _ e _ _ => exampleFails D fuel e
  | _ + 1, _ => false

/-- `trlc/lint.py:108-153` the loop over fields and separators of tuple type `t`; `prevInt` is
`previous_was_int`, `bad` is `bad_separator` if `previous_was_bad_sep` is set. -/
def lintSequence (D : Decls) (t : Nat) :
    List SeqItem → (prevInt : Bool) → (bad : Option (List Char)) → Except LintCrash (List LintMsg)
  | [], _, _ => .ok []
  | .sep _ :: _, _, some _ => .error .assertion
  | .comp c :: r, p, some b =>
    if c.ty ≠ .int ∧ exampleFails D (D.tups.length + 3) c.ty = true then .error .attribute
    else
      match lintSequence D t r p (some b) with
      | .ok ms => .ok (.separator t b c.ty :: ms)
      | .error e => .error e
  | .comp c :: r, _, none => lintSequence D t r (c.ty == .int) none
  | .sep (.ident v) :: r, p, none =>
    if p && (v == "x".toList || v == "b".toList) then lintSequence D t r p (some v)
    else lintSequence D t r false none
  | .sep (.kind _) :: r, _, none => lintSequence D t r false none

/-- `trlc/lint.py:193-222` `verify_array_type` -/
def lintArray (a lo : Nat) : Option Nat → List LintMsg
  | none => []
  | some hi =>
    if lo > hi then [.arrUpper a]
    else if hi = 0 then [.arrZero a]
    else if hi = 1 ∧ lo = 1 then [.arrOne a]
    else if hi = 1 ∧ lo = 0 then [.arrOptional a]
    else []

/-- `trlc/lint.py:84-99` the messages on a union type -/
def lintUnion (D : Decls) (u : Nat) (ms : List Nat) : List LintMsg :=
  (if ms.length = 1 then [.unionSingle u] else []) ++
  (ms.zipIdx.flatMap fun (a, i) => ms.zipIdx.filterMap fun (b, j) =>
    if i ≠ j ∧ a ≠ b ∧ D.isSubclassOf a b = true then some (.unionSubtype u a b) else none)

/-- The messages on a type itself, before the types of its components are visited
(`trlc/lint.py:64-222`) -/
def lintOwn (D : Decls) (seps : List (List Sep)) : Ty → Except LintCrash (List LintMsg)
  | .tup t => lintSequence D t (iterSequence (D.fields t) ((seps[t]?).getD [])) false none
  | .arr a _ lo hi => .ok (lintArray a lo hi)
  | .union u ms => .ok (lintUnion D u ms)
  | _ => .ok []

/-- `n_typ.is_abstract` (`trlc/lint.py:166-192`) -/
def isAbstractRec (infos : List RecInfo) (t : Nat) : Bool :=
  ((infos[t]?).map (·.isAbstract)).getD false

/-- What `verify_record_type` enters in `abstract_extensions`, `trlc/lint.py:171-180`: a key, or an
extension for a key (which is created if missing).  The ancestors are followed while they are
abstract. -/
def lintExtensions (D : Decls) (infos : List RecInfo) : Ty → List (Nat × Option Nat)
  | .record t =>
    if isAbstractRec infos t then [(t, none)]
    else (((D.ancestors t).drop 1).takeWhile (isAbstractRec infos)).map fun a => (a, some t)
  | _ => []

/-- The components of one record type or tuple type in the order of `components.values()`,
sorted by simplified name (`trlc/ast.py:3463-3470`) -/
def sortedComps (cs : List Comp) : List Comp :=
  pySort (fun a b => pyLe (simplifiedName a.name.toList) (simplifiedName b.name.toList)) cs

/-- The types `verify_type` is called with while a type is verified: those of the components of a
record type (inherited ones first) or tuple type (`trlc/lint.py:156, 183`), the members of a union
type (100-101); the element type of an array type is not looked at. -/
def lintNext (D : Decls) : Ty → List Ty
  | .record t => ((D.ancestors t).reverse.flatMap fun a => sortedComps (D.own a)).map (·.ty)
  | .tup t => (sortedComps (D.fields t)).map (·.ty)
  | .union _ ms => ms.map .record
  | _ => []

/-- `checked_types`, the messages so far and `abstract_extensions` (`trlc/lint.py:27-62`) -/
structure LintState where
  checked : List Ty
  msgs    : List LintMsg
  ext     : List (Nat × Option Nat)
  deriving Repr, DecidableEq

/-- `trlc/lint.py:64-101` `verify_type` with `verify_record_type` (166-184) and `verify_tuple_type`
(103-157).  `fuel` bounds the depth of the recursion. -/
def verifyType (D : Decls) (infos : List RecInfo) (seps : List (List Sep)) :
    Nat → LintState → Ty → Except LintCrash LintState
  | 0, _, _ => .error .fuel
  | fuel + 1, st, τ =>
    if st.checked.contains τ then .ok st
    else
      match lintOwn D seps τ with
      | .error e => .error e
      | .ok ms =>
        (lintNext D τ).foldlM (verifyType D infos seps fuel)
          ⟨st.checked ++ [τ], st.msgs ++ ms, st.ext ++ lintExtensions D infos τ⟩

/-- `stab.values(cls)` of a table without parents: the entries sorted by their key
(`trlc/ast.py:3463-3470`) -/
def STab.sortedValues (T : STab) : List Ent :=
  (pySort (fun a b => pyLe a.1 b.1) T.own).map (·.2)

/-- The types declared in all packages, in the order in which `trlc/lint.py:45-46` goes through
them -/
def PS.declaredTypes (s : PS) (g : STab) : List Ty :=
  (g.sortedValues.filter isPackage).flatMap fun p => (s.tab p.id).sortedValues.filterMap Ent.ty?

/-- A number that bounds the nesting of calls of `verify_type`: there are no more types than
that.
(`trlc/lint.py:64-101`) -/
def lintFuel (D : Decls) : Nat :=
  D.recs.length + D.tups.length + D.enums.length + 5 +
    (D.recs.map fun r => r.own.length).sum + (D.tups.map List.length).sum + 1

/-- `trlc/lint.py:54-60` the loop over the record types: an abstract type that has no entry in
`abstract_extensions` is an internal exception, one without extensions is reported. -/
def lintLeaves (infos : List RecInfo) (ext : List (Nat × Option Nat)) :
    List Ty → Except LintCrash (List LintMsg)
  | [] => .ok []
  | .record t :: r =>
    if isAbstractRec infos t then
      if ext.all (fun x => x.1 != t) then .error .key
      else
        match lintLeaves infos ext r with
        | .error e => .error e
        | .ok ms => .ok (if ext.any (fun x => x.1 == t && x.2.isSome) then ms else .abstractLeaf t :: ms)
    else lintLeaves infos ext r
  | _ :: r => lintLeaves infos ext r

/-- `trlc/lint.py:42-62` `perform_sanity_checks`: the messages in order, or an internal exception.
(The messages before an exception are not kept.)  It always ends with `True`: `TRLC_Error` is
raised by the verification condition generator only. -/
def PS.sanityChecks (s : PS) (g : STab) : Except LintCrash (List LintMsg) :=
  match (s.declaredTypes g).foldlM (verifyType s.decls s.infos s.seps (lintFuel s.decls)) ⟨[], [], []⟩ with
  | .error e => .error e
  | .ok st =>
    match lintLeaves s.infos st.ext (s.declaredTypes g) with
    | .error e => .error e
    | .ok ms => .ok (st.msgs ++ ms)

end Verif.Model
