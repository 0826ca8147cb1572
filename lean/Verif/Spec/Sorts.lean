import Verif.Spec.Solver
/-!
# Well-formed input of a solver (SMT-LIB)

Every operator gets operands of the sorts it is defined for, every constant that is used was declared before,
no constant is declared twice, and what is asserted is a Boolean.
-/
namespace Verif.Spec
open Verif.Model

/-- operand and result of unary operators -/
inductive UnSort : SUn → Srt → Srt → Prop
  | not : UnSort .not .bool .bool
  | negInt : UnSort .negInt .int .int
  | negReal : UnSort .negReal .real .real
  | absInt : UnSort .absInt .int .int
  | absReal : UnSort .absReal .real .real
  | strLen : UnSort .strLen .str .int
  | seqLen {e : Srt} : UnSort .seqLen (.seq e) .int
  | toReal : UnSort .toReal .int .real
  | toInt : UnSort .toInt .real .int

/-- operands and result of binary operators -/
inductive BinSort : SBin → Srt → Srt → Srt → Prop
  | and : BinSort .and .bool .bool .bool
  | or : BinSort .or .bool .bool .bool
  | imp : BinSort .imp .bool .bool .bool
  | xor : BinSort .xor .bool .bool .bool
  | eq {s : Srt} : BinSort .eq s s .bool
  | lt {s : Srt} : s = .int ∨ s = .real → BinSort .lt s s .bool
  | leq {s : Srt} : s = .int ∨ s = .real → BinSort .leq s s .bool
  | gt {s : Srt} : s = .int ∨ s = .real → BinSort .gt s s .bool
  | geq {s : Srt} : s = .int ∨ s = .real → BinSort .geq s s .bool
  | addInt : BinSort .addInt .int .int .int
  | subInt : BinSort .subInt .int .int .int
  | mulInt : BinSort .mulInt .int .int .int
  | floorDiv : BinSort .floorDiv .int .int .int
  | adaRem : BinSort .adaRem .int .int .int
  | addReal : BinSort .addReal .real .real .real
  | subReal : BinSort .subReal .real .real .real
  | mulReal : BinSort .mulReal .real .real .real
  | divReal : BinSort .divReal .real .real .real
  | concat : BinSort .concat .str .str .str
  | contains : BinSort .contains .str .str .bool
  | prefixOf : BinSort .prefixOf .str .str .bool
  | suffixOf : BinSort .suffixOf .str .str .bool
  | seqContains {s : Srt} : BinSort .seqContains (.seq s) s .bool

/-- A term is well formed and has a sort; `K` are the constants declared so far with their sorts, `bs` the variables bound
by quantifiers around it. -/
inductive Sorted (D : Decls) (K : Sym → Option Srt) : List Nat → Smt → Srt → Prop
  | bool {bs b} : Sorted D K bs (.bool b) .bool
  | int {bs i} : Sorted D K bs (.int i) .int
  | real {bs q} : Sorted D K bs (.real q) .real
  | str {bs s} : Sorted D K bs (.str s) .str
  | enum {bs t l ls} : D.enums[t]? = some ls → l ∈ ls → Sorted D K bs (.enum t l) (.enum t)
  | sym {bs s srt} : K s = some srt → Sorted D K bs (.sym s) srt
  | idx {bs n} : n ∈ bs → Sorted D K bs (.idx n) .int
  | un {bs op a s t} : Sorted D K bs a s → UnSort op s t → Sorted D K bs (.un op a) t
  | bin {bs op a b s t u} : Sorted D K bs a s → Sorted D K bs b t → BinSort op s t u → Sorted D K bs (.bin op a b) u
  | ite {bs c a b s} : Sorted D K bs c .bool → Sorted D K bs a s → Sorted D K bs b s → Sorted D K bs (.ite c a b) s
  | nth {bs e a i} : Sorted D K bs a (.seq e) → Sorted D K bs i .int → Sorted D K bs (.nth e a i) e
  | all {bs n a} : Sorted D K (n :: bs) a .bool → Sorted D K bs (.all n a) .bool
  | ex {bs n a} : Sorted D K (n :: bs) a .bool → Sorted D K bs (.ex n a) .bool
  /-- a component of a record made for a tuple -/
  | tuple {bs a t k s} : Sorted D K bs a (.tup t) → tupleKey D t k = some s → Sorted D K bs (.field a k) s
  /-- a component of the record a reference leads to -/
  | record {bs r a k s} : Sorted D K bs a .int → refKey D r k = some s → Sorted D K bs (.field (.deref r a) k) s
  | matches {bs a b} : Sorted D K bs a .str → Sorted D K bs b .str → Sorted D K bs (.matches a b) .bool

/-- the constants with one more -/
def declared (K : Sym → Option Srt) (s : Sym) (srt : Srt) : Sym → Option Srt := fun x => if x = s then some srt else K x

/-- Statements are well formed, one after the other. -/
def WellFormed (D : Decls) : (Sym → Option Srt) → List SStmt → Prop
  | _, [] => True
  | K, .declare s srt v :: rest =>
    K s = none ∧ (∀ a, v = some a → Sorted D K [] a srt) ∧ WellFormed D (declared K s srt) rest
  | K, .assert a :: rest => Sorted D K [] a .bool ∧ WellFormed D K rest
  | K, .goal a _ :: rest => Sorted D K [] a .bool ∧ WellFormed D K rest

/-- A verification condition is well formed: the statements on the way, and the goal. -/
def VC.WellFormed (D : Decls) (vc : VC) : Prop := Spec.WellFormed D (fun _ => none) (vc.asm ++ [.goal vc.goal vc.fb])

mutual
/-- No number is converted to the type that it has already, and `in` looks for values of the sort of the elements. -/
def Proper : Expr → Prop
  | .null | .bool _ | .int _ | .dec _ | .str _ | .enum _ _ | .name _ _ => True
  | .unary _ op e => Proper e ∧ (op = .toInt → e.typ ≠ some .int) ∧ (op = .toDec → e.typ ≠ some .dec)
  | .binary _ op l r => Proper l ∧ Proper r ∧
      (op = .arrContains → ∀ τ id σ lo hi, l.typ = some τ → r.typ = some (.arr id σ lo hi) → τ.srt = σ.srt)
  | .logic _ l r => Proper l ∧ Proper r
  | .field p _ _ => Proper p
  | .range e lo up => Proper e ∧ Proper lo ∧ Proper up
  | .oneof cs => Propers cs
  | .cond _ as => ProperA as
  | .quant _ _ _ body => Proper body
/-- the choices of `oneof` -/
def Propers : Exprs → Prop
  | .nil => True
  | .cons e es => Proper e ∧ Propers es
/-- the branches of a conditional expression -/
def ProperA : Acts → Prop
  | .els e => Proper e
  | .act k e rest => Proper k ∧ Proper e ∧ ProperA rest
end

end Verif.Spec
