import Verif.Spec.Written
import Verif.Spec.Objects
import Verif.Model.Run.Objects
/-!
# References and whole runs over trlc files
-/
namespace Verif.Spec
open Verif.Model

/-- The object with number `i` is called `name` and belongs to package `p`. -/
def IsNamed (objs : List Obj) (i p : Nat) (name : List Char) (o : Obj) : Prop :=
  objs[i]? = some o ∧ o.pkg = p ∧ o.name = name

mutual
/-- `f` is the value `v` with every reference pointing to the object of that package and name,
which has the expected type or an extension of it (for a union: of one of its members); all
names in markup strings are names of objects. -/
def Resolved (D : Decls) (objs : List Obj) : PVal → FExpr → Prop
  | .inull, f => f = .inull
  | .bool b, f => f = .bool b
  | .int i, f => f = .int i
  | .dec q, f => f = .dec q
  | .str v, f => f = .str v
  | .markup v refs, f => f = .markup v ∧ ∀ r ∈ refs, ∃ i o, IsNamed objs i r.pkg r.name o
  | .enum t l, f => f = .enum t l
  | .neg e, f => ∃ g, f = .neg g ∧ Resolved D objs e g
  | .pos e, f => ∃ g, f = .pos g ∧ Resolved D objs e g
  | .arr t es, f => ∃ gs, f = .arr t gs ∧ ResolvedAll D objs es gs
  | .tup t fs, f => ∃ gs, f = .tup t gs ∧ ResolvedFields D objs fs gs
  | .ref τ p n, f => ∃ i o, f = .ref τ (some i) ∧ IsNamed objs i p n o ∧ Referable D o.typ τ

/-- … for all elements -/
def ResolvedAll (D : Decls) (objs : List Obj) : List PVal → List FExpr → Prop
  | [], gs => gs = []
  | e :: es, gs => ∃ g hs, gs = g :: hs ∧ Resolved D objs e g ∧ ResolvedAll D objs es hs

/-- … for all fields -/
def ResolvedFields (D : Decls) (objs : List Obj) :
    List (String × PVal) → List (String × FExpr) → Prop
  | [], gs => gs = []
  | f :: fs, gs => ∃ g hs, gs = g :: hs ∧ ResolvedField D objs f g ∧ ResolvedFields D objs fs hs

/-- … for one field -/
def ResolvedField (D : Decls) (objs : List Obj) : String × PVal → String × FExpr → Prop
  | (n, e), g => g.1 = n ∧ Resolved D objs e g.2
end

/-- The values of an object with all references resolved: the same components, the same nodes. -/
def ResolvedObj (D : Decls) (objs : List Obj) : List (String × VNode) → Fields → Prop
  | [], gs => gs = []
  | (n, v) :: fs, gs => ∃ e hs, gs = (n, ⟨v.id, e⟩) :: hs ∧ Resolved D objs v.val e ∧
      ResolvedObj D objs fs hs

/-- The tokens of a file after its preamble -/
def fileWords (f : OpenFile) : List Token :=
  match f.nt with
  | none => []
  | some t => t :: tokensOf f.rest

/-- The objects written in a sequence of files. -/
inductive WrittenFiles :
    Names → Nat → List OpenFile → List (Obj × List (String × PVal)) → Names → Prop
  | nil {N k} : WrittenFiles N k [] [] N
  | cons {N N1 N2 k f fs items items'} :
      WrittenEntries f.env N k [] items (fileWords f) N1 →
      WrittenFiles N1 (k + items.length) fs items' N2 →
      WrittenFiles N k (f :: fs) (items ++ items') N2

/-- The state before the first trlc file: there are no record objects yet, and the keys of the
package tables are the simplified names, each once. -/
structure NoObjects (s : PS) : Prop where
  objs : s.objs = []
  own : ∀ (p : Nat) (T : STab) (k : List Char) (e : Ent), s.tabs[p]? = some T → (k, e) ∈ T.own →
    e.cls ≠ clsObject ∧ k = simplifiedName e.name
  parents : ∀ (p : Nat) (T : STab) (f : Frame) (k : List Char) (e : Ent), s.tabs[p]? = some T →
    f ∈ T.parents → (k, e) ∈ f → e.cls ≠ clsObject
  imported : ∀ (p : Nat) (T : STab) (c : List Frame) (f : Frame) (k : List Char) (e : Ent),
    s.tabs[p]? = some T → c ∈ T.imported → f ∈ c → (k, e) ∈ f → e.cls ≠ clsObject
  keys : ∀ (p : Nat) (T : STab), s.tabs[p]? = some T → (T.own.map Prod.fst).Nodup

/-- Every package is entered in the global table. -/
def PkgsKnown (global : STab) (s : PS) : Prop :=
  ∀ p, p < s.tabs.length → ∃ k e, (k, e) ∈ global.own ∧ e.cls = clsPackage ∧ e.id = p

/-- The values frozen by types are older than `n0`. -/
def FrozenBefore (infos : List RecInfo) (n0 : Nat) : Prop :=
  ∀ i ∈ infos, ∀ f ∈ i.frozen, f.2.id < n0

end Verif.Spec
