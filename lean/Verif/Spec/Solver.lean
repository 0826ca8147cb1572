import Verif.Model.Vcg.Terms
/-!
# What terms and statements given to a solver mean (SMT-LIB; `pyvcg`)

Values are booleans, integers, rational numbers (all operations that occur stay within them), texts,
literals of enumerations, finite sequences and records.  Operations outside of their domain (division
by zero, an element beyond the end of a sequence) have some value: a solver may pick any.
-/
namespace Verif.Spec
open Verif.Model

/-- The values of sorts -/
inductive SV
  | bool (b : Bool)
  | int (i : Int)
  | real (q : Rat)
  | str (s : List Char)
  | enum (ty : Nat) (lit : String)
  | seq (xs : List SV)
  | record (f : FKey → SV)

/-- The components of the record sort made for a tuple type and their sorts: a value for every
field, and a flag for the optional ones -/
def tupleKey (D : Decls) (t : Nat) : FKey → Option Srt
  | .value n => ((D.fields t).find? (·.name == n)).map (·.ty.srt)
  | .valid n => ((D.fields t).find? (·.name == n)).bind fun c => if c.optional then some .bool else none

mutual
/-- A value belongs to a sort. -/
def HasSort (D : Decls) : SV → Srt → Prop
  | .bool _, s => s = .bool
  | .int _, s => s = .int
  | .real _, s => s = .real
  | .str _, s => s = .str
  | .enum t l, s => s = .enum t ∧ ∃ ls, D.enums[t]? = some ls ∧ l ∈ ls
  | .seq xs, s => ∃ e, s = .seq e ∧ HasSorts D xs e
  | .record f, s => ∃ t, s = .tup t ∧
      ∀ k, (∀ s', tupleKey D t k = some s' → HasSort D (f k) s') ∧ (tupleKey D t k = none → f k = .bool false)
/-- All values belong to a sort. -/
def HasSorts (D : Decls) : List SV → Srt → Prop
  | [], _ => True
  | x :: xs, s => HasSort D x s ∧ HasSorts D xs s
end

/-- The components of the record that a reference leads to, and their sorts: of a record type its
components, of a union the fields that have one type -/
def refKey (D : Decls) : RKey → FKey → Option Srt
  | .record t, .value n => (D.component t n).map (·.ty.srt)
  | .record t, .valid n => (D.component t n).bind fun c => if c.optional then some .bool else none
  | .union ms, .value n => ((D.fieldMap ms).lookup n).bind fun i => i.ty.map (·.srt)
  | .union ms, .valid n => ((D.fieldMap ms).lookup n).bind fun i =>
      if (∀ m ∈ ms, ∃ c ∈ D.allComponents m, c.name = n ∧ c.optional = false) then none
      else i.ty.map fun _ => .bool

/-- What a solver chooses: the values of constants, what references lead to, and the meaning of
`matches` -/
structure Interp where
  const   : Sym → SV
  access  : RKey → Int → FKey → SV
  rxMatch : List Char → List Char → Bool

/-- References lead to records of the right sort. -/
def Interp.WellSorted (D : Decls) (I : Interp) : Prop :=
  ∀ r i k, (∀ s, refKey D r k = some s → HasSort D (I.access r i k) s) ∧
    (refKey D r k = none → I.access r i k = .bool false)

/-- the boolean that a value is -/
def SV.asBool : SV → Bool
  | .bool b => b
  | _ => false
/-- the integer that a value is -/
def SV.asInt : SV → Int
  | .int i => i
  | _ => 0
/-- the number that a value is -/
def SV.asRat : SV → Rat
  | .int i => i
  | .real q => q
  | _ => 0
/-- the text that a value is -/
def SV.asStr : SV → List Char
  | .str s => s
  | _ => []
/-- the sequence that a value is -/
def SV.asSeq : SV → List SV
  | .seq xs => xs
  | _ => []

/-- rounding to the nearest integer, halves away from zero -/
def roundAway (q : Rat) : Int := if 0 ≤ q then (q + 1/2).floor else -((-q + 1/2).floor)

/-- the meaning of unary operators -/
def unSem : SUn → SV → SV
  | .not, x => .bool !x.asBool
  | .negInt, x => .int (-x.asInt)
  | .negReal, x => .real (-x.asRat)
  | .absInt, x => .int x.asInt.natAbs
  | .absReal, x => .real (if x.asRat < 0 then -x.asRat else x.asRat)
  | .strLen, x => .int x.asStr.length
  | .seqLen, x => .int x.asSeq.length
  | .toReal, x => .real x.asRat
  | .toInt, x => .int (roundAway x.asRat)

open Classical in
/-- the meaning of binary operators; `prefixOf a b` and `suffixOf a b`: `b` starts or ends with `a`,
`contains a b`: `b` is part of `a`, `seqContains a b`: `b` is an element of `a` -/
noncomputable def binSem : SBin → SV → SV → SV
  | .and, x, y => .bool (x.asBool && y.asBool)
  | .or, x, y => .bool (x.asBool || y.asBool)
  | .imp, x, y => .bool (!x.asBool || y.asBool)
  | .xor, x, y => .bool (x.asBool != y.asBool)
  | .eq, x, y => .bool (decide (x = y))
  | .lt, x, y => .bool (decide (x.asRat < y.asRat))
  | .leq, x, y => .bool (decide (x.asRat ≤ y.asRat))
  | .gt, x, y => .bool (decide (y.asRat < x.asRat))
  | .geq, x, y => .bool (decide (y.asRat ≤ x.asRat))
  | .addInt, x, y => .int (x.asInt + y.asInt)
  | .subInt, x, y => .int (x.asInt - y.asInt)
  | .mulInt, x, y => .int (x.asInt * y.asInt)
  -- rounded down
  | .floorDiv, x, y => .int (x.asInt.fdiv y.asInt)
  -- has the sign of the dividend
  | .adaRem, x, y => .int (x.asInt.tmod y.asInt)
  | .addReal, x, y => .real (x.asRat + y.asRat)
  | .subReal, x, y => .real (x.asRat - y.asRat)
  | .mulReal, x, y => .real (x.asRat * y.asRat)
  | .divReal, x, y => .real (x.asRat / y.asRat)
  | .concat, x, y => .str (x.asStr ++ y.asStr)
  | .contains, x, y => .bool (decide (y.asStr <:+: x.asStr))
  | .prefixOf, x, y => .bool (decide (x.asStr <+: y.asStr))
  | .suffixOf, x, y => .bool (decide (x.asStr <:+ y.asStr))
  | .seqContains, x, y => .bool (decide (y ∈ x.asSeq))

open Classical in
/-- some value of a sort -/
noncomputable def someOf (D : Decls) (s : Srt) : SV :=
  if h : ∃ x, HasSort D x s then h.choose else .bool false

open Classical in
/-- The value of a term; `β` gives the values of bound variables. -/
noncomputable def value (D : Decls) (I : Interp) : (Nat → Int) → Smt → SV
  | _, .bool b => .bool b
  | _, .int i => .int i
  | _, .real q => .real q
  | _, .str s => .str s
  | _, .enum t l => .enum t l
  | _, .sym s => I.const s
  | β, .idx n => .int (β n)
  | β, .un op a => unSem op (value D I β a)
  | β, .bin op a b => binSem op (value D I β a) (value D I β b)
  | β, .ite c a b => if (value D I β c).asBool = true then value D I β a else value D I β b
  | β, .nth e a i =>
    let j := (value D I β i).asInt
    if 0 ≤ j then ((value D I β a).asSeq[j.toNat]?).getD (someOf D e) else someOf D e
  | β, .all n a => .bool (decide (∀ i : Int, (value D I (fun m => if m = n then i else β m) a).asBool = true))
  | β, .ex n a => .bool (decide (∃ i : Int, (value D I (fun m => if m = n then i else β m) a).asBool = true))
  | β, .field a k =>
    match value D I β a with
    | .record f => f k
    | _ => .bool false
  | β, .deref r a => .record (I.access r (value D I β a).asInt)
  | β, .matches a b => .bool (I.rxMatch (value D I β a).asStr (value D I β b).asStr)

/-- the value of a term without free variables -/
noncomputable def value₀ (D : Decls) (I : Interp) (a : Smt) : SV := value D I (fun _ => 0) a

/-- An interpretation agrees with a statement.  A goal on the way is used as an assumption: if this
is not done, fewer interpretations are excluded and more goals fail. -/
def Agrees (D : Decls) (I : Interp) : SStmt → Prop
  | .declare s srt none => HasSort D (I.const s) srt
  | .declare s _ (some v) => I.const s = value₀ D I v
  | .assert a => (value₀ D I a).asBool = true
  | .goal a _ => (value₀ D I a).asBool = true

/-- The statements on some path from the first node to a node, without the node itself -/
inductive Path (g : TS) : Nat → List SStmt → Prop
  | start : Path g 0 []
  | step {n m ss ns} : Path g n ss → g.nodes[n]? = some ns → (n, m) ∈ g.edges → Path g m (ss ++ ns)

/-- A verification condition: a goal (which one in the node) after the statements on a path -/
structure VC where
  node : Nat
  pos  : Nat
  asm  : List SStmt
  goal : Smt
  fb   : Feedback

/-- The verification conditions of a graph -/
def IsVC (g : TS) (vc : VC) : Prop :=
  ∃ ss ns, Path g vc.node ss ∧ g.nodes[vc.node]? = some ns ∧
    ns[vc.pos]? = some (.goal vc.goal vc.fb) ∧ vc.asm = ss ++ ns.take vc.pos

/-- No interpretation agrees with all statements and makes the goal false; what a solver means by
"unsat" -/
def VC.Unsat (D : Decls) (vc : VC) : Prop :=
  ∀ I : Interp, I.WellSorted D → (∀ st ∈ vc.asm, Agrees D I st) → (value₀ D I vc.goal).asBool = true

/-- All verification conditions that ask for the absence of errors hold: nothing is reported. -/
def Verified (D : Decls) (g : TS) : Prop := ∀ vc, IsVC g vc → vc.fb.expectUnsat = true → vc.Unsat D

/-- No interpretation makes the check false: it is reported as always true. -/
def NeverFalse (D : Decls) (g : TS) (check : Expr) : Prop :=
  ∀ vc, IsVC g vc → vc.fb = .alwaysTrue check → vc.Unsat D

end Verif.Spec
