import Verif.Model.Eval
/-!
# The terms, statements and graphs built for the solver (`trlc/vcg.py`, with `pyvcg`)

`pyvcg` is not part of the repository.  What is used of it: terms (`smt.Expression` and its
subclasses), statements (`smt.Constant_Declaration`, `smt.Assertion`), and a graph of nodes that
carry statements or goals.  Declarations of sorts and of uninterpreted functions are left out: they
say nothing about the values of constants.
-/
namespace Verif.Model

/-- The sorts `tr_type` yields, `trlc/vcg.py:674-744`: the builtin sorts, enumerations, records
(for tuples) and sequences. -/
inductive Srt
  | bool | int | real | str
  | enum (id : Nat)
  | tup (id : Nat)
  | seq (elem : Srt)
  deriving Repr, DecidableEq

/-- `trlc/vcg.py:674-744` `tr_type`; references are integers. -/
def Ty.srt : Ty → Srt
  | .bool => .bool
  | .int => .int
  | .dec => .real
  | .str | .markup => .str
  | .enum t => .enum t
  | .tup t => .tup t
  | .arr _ elem _ _ => .seq elem.srt
  | .record _ | .union .. => .int

/-- The constants: value and validity of a component (`trlc/vcg.py:552-558`) and temporaries
(`trlc/vcg.py:126-128`).  Their names are different texts; a component is given by its name, which
is unique in a type. -/
inductive Sym
  | value (c : String)
  | valid (c : String)
  | tmp (n : Nat)
  deriving Repr, DecidableEq

/-- The components of record sorts, `trlc/vcg.py:708-713, 1491-1495`: `n.value` and `n.valid`. -/
inductive FKey
  | value (n : String)
  | valid (n : String)
  deriving Repr, DecidableEq

/-- The uninterpreted functions that follow references, one for each record type or list of
members of a union, `trlc/vcg.py:1535-1562` (`uf_name`).  Two different lists of members could get
the same `union_id` if names contain underscores; this is left out. -/
inductive RKey
  | record (t : Nat)
  | union (members : List Nat)
  deriving Repr, DecidableEq

/-- unary operators on terms (`trlc/vcg.py:854-894`) -/
inductive SUn
  | not | negInt | negReal | absInt | absReal | strLen | seqLen | toReal | toInt
  deriving Repr, DecidableEq

/-- binary operators on terms (`trlc/vcg.py:926-1062`); conjunctions and disjunctions of more than
two terms are nested -/
inductive SBin
  | and | or | imp | xor | eq
  | lt | leq | gt | geq
  | addInt | subInt | mulInt | floorDiv | adaRem
  | addReal | subReal | mulReal | divReal
  | concat | contains | prefixOf | suffixOf
  | seqContains
  deriving Repr, DecidableEq

/-- `smt.Expression` as far as they are built (`trlc/vcg.py:764-1587`) -/
inductive Smt
  | bool (b : Bool)
  | int (i : Int)
  | real (q : Rat)
  | str (s : List Char)
  | enum (ty : Nat) (lit : String)
  | sym (s : Sym)
  /-- the bound variable of a quantifier, `trlc/vcg.py:1447-1448` -/
  | idx (n : Nat)
  | un (op : SUn) (a : Smt)
  | bin (op : SBin) (a b : Smt)
  /-- `smt.Conditional`, `trlc/vcg.py:1104` -/
  | ite (c a b : Smt)
  /-- `smt.Sequence_Index`, `trlc/vcg.py:1012, 1449`; the sort of the elements is an attribute of the sequence -/
  | nth (elem : Srt) (a i : Smt)
  /-- `smt.Quantifier` over one integer, `trlc/vcg.py:1463-1472` -/
  | all (n : Nat) (a : Smt)
  | ex (n : Nat) (a : Smt)
  /-- `smt.Record_Access`, `trlc/vcg.py:1520-1526, 1565-1579` -/
  | field (a : Smt) (k : FKey)
  /-- application of a function that follows references, `trlc/vcg.py:1561-1562` -/
  | deref (r : RKey) (a : Smt)
  /-- application of `trlc.matches`, `trlc/vcg.py:1001-1008` -/
  | matches (a b : Smt)
  deriving Repr, DecidableEq

/-- What is reported if a goal is not shown (`trlc/vcg.py:178-180, 199-201, 220-222, 243-254,
272-275`): the message; of the expression it is about (`origin`) only that of a check that is always
true is modelled. -/
inductive Feedback
  | null
  | divByZero
  | indexBelow
  | indexAbove
  | alwaysTrue (check : Expr)

/-- `expect_unsat`, `trlc/vcg.py:70, 272-275` -/
def Feedback.expectUnsat : Feedback → Bool
  | .alwaysTrue _ => false
  | _ => true

/-- Statements of a node of the graph: `smt.Constant_Declaration`, `smt.Assertion`, and the goals of
`graph.Check` nodes (`trlc/vcg.py:165-306`). -/
inductive SStmt
  | declare (s : Sym) (srt : Srt) (value : Option Smt)
  | assert (a : Smt)
  | goal (a : Smt) (f : Feedback)

/-- `self.graph`, `self.start` and `self.tmp_id`, `trlc/vcg.py:88-93`: the statements of every node,
the edges, the current node, and the number of temporaries. -/
structure TS where
  nodes : List (List SStmt)
  edges : List (Nat × Nat)
  start : Nat
  tmp   : Nat

/-- How a piece of the translation ends: normally, with the exception `Unsupported`
(`trlc/vcg.py:49-57`), or with an internal exception -/
inductive TrR (α : Type)
  | ok (a : α) (s : TS)
  | unsupported
  | crash

/-- a piece of the translation, acting on the graph (`trlc/vcg.py:75-119`) -/
def TrM (α : Type) := TS → TrR α

/-- sequential composition; exceptions are not caught (`trlc/vcg.py:316-321`) -/
def TrM.bind {α β : Type} (x : TrM α) (f : α → TrM β) : TrM β := fun s =>
  match x s with
  | .ok a s' => f a s'
  | .unsupported => .unsupported
  | .crash => .crash

/-- one statement after the other: exceptions that stop the translation, `trlc/vcg.py:316-1587` -/
instance : Monad TrM where
  pure a := fun s => .ok a s
  bind := TrM.bind

/-- an internal exception: a failing assertion, `KeyError` (`trlc/vcg.py:164-1587`) -/
def TrM.crash {α : Type} : TrM α := fun _ => .crash

/-- `trlc/vcg.py:121-124` `flag_unsupported` -/
def TrM.unsupported {α : Type} : TrM α := fun _ => .unsupported

/-- `trlc/vcg.py:126-128` `new_temp_name` -/
def newTemp : TrM Nat := fun s => .ok (s.tmp + 1) { s with tmp := s.tmp + 1 }

/-- the value of `self.start` (`trlc/vcg.py:348, 1119`) -/
def getStart : TrM Nat := fun s => .ok s.start s

/-- assignment to `self.start` (`trlc/vcg.py:353, 1131`) -/
def setStart (n : Nat) : TrM Unit := fun s => .ok () { s with start := n }

/-- a new node without edges, `graph.Node(self.graph)` (`trlc/vcg.py:1112, 1207`) -/
def newNode : TrM Nat := fun s => .ok s.nodes.length { s with nodes := s.nodes ++ [[]] }

/-- `self.start.add_edge_to(…)` (`trlc/vcg.py:1128`) -/
def edgeTo (n : Nat) : TrM Unit := fun s => .ok () { s with edges := s.edges ++ [(s.start, n)] }

/-- a new node with statements behind `self.start`, which becomes `self.start`
(`trlc/vcg.py:174-183, 284-314`) -/
def attach (ss : List SStmt) : TrM Unit := fun s =>
  .ok () { s with nodes := s.nodes ++ [ss], edges := s.edges ++ [(s.start, s.nodes.length)],
                  start := s.nodes.length }

/-- a new node with statements behind `self.start`, which stays (`trlc/vcg.py:269-277`) -/
def attachAside (ss : List SStmt) : TrM Unit := fun s =>
  .ok () { s with nodes := s.nodes ++ [ss], edges := s.edges ++ [(s.start, s.nodes.length)] }

end Verif.Model
