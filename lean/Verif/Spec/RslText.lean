import Verif.Spec.Declarations
import Verif.Spec.Grammar
import Verif.Spec.Preamble
import Verif.Model.Parse.Rsl
/-!
# How types and checks are written (LRM, "Type declarations", "Checks")

Grammars for the token sequences of declarations of types and of check blocks.  They say what
a file declares, without reference to the functions that parse it.
-/
namespace Verif.Spec
open Verif.Model

/-- What is declared: the names in the packages, the types, the checks, and the types of the
objects.  Types without a name and frozen values are numbered as well; `nid` is the next such
number. -/
structure World where
  tabs   : List STab
  decls  : Decls
  infos  : List RecInfo
  seps   : List (List Sep)
  checks : CheckTab
  otyps  : List Nat
  nid    : Nat

/-- what is declared in a parser state -/
def worldOf (s : PS) : World :=
  ⟨s.tabs, s.decls, s.infos, s.seps, s.checks, s.objs.map (·.typ), s.nid⟩

/-- the names known -/
def World.names (W : World) : Names := ⟨W.tabs, W.decls, W.seps, W.otyps⟩

/-- `tabs'` is `tabs` with `name` entered in the table of package `p`. -/
def Enters (tabs : List STab) (p : Nat) (name : List Char) (id cls : Nat) (tabs' : List STab) : Prop :=
  ∃ T T', tabs[p]? = some T ∧ T.register { name, id, cls } = .ok T' ∧ tabs' = tabs.set p T'

/-- An identifier, possibly followed by a description -/
def Described (n : List Char) (ts : List Token) : Prop :=
  ∃ t, t.kind = .IDENTIFIER ∧ t.text = n ∧ (ts = [t] ∨ ∃ d, d.kind = .STRING ∧ ts = [t, d])

/-! ## Types of components -/

/-- Names of record types, separated by commas -/
inductive RecNames (E : FileEnv) (N : Names) : List Nat → List Token → Prop
  | one {ts e} : NameOf E N ts e → e.cls = clsRecord → RecNames E N [e.id] ts
  | more {ts ms c b e} : RecNames E N ms ts → c.kind = .COMMA → NameOf E N b e → e.cls = clsRecord →
      RecNames E N (ms ++ [e.id]) (ts ++ c :: b)

/-- The name of a type, or a union `[T, …]` of different record types.  A union type gets a
number of its own (`n` and `n'` are the next numbers before and after). -/
inductive TypeText (E : FileEnv) (N : Names) : Nat → Ty → List Token → Nat → Prop
  | name {n ts e τ} : NameOf E N ts e → e.ty? = some τ → TypeText E N n τ ts n
  | union {n ms ts a b} : a.kind = .S_BRA → RecNames E N ms ts → ms.Nodup → b.kind = .S_KET →
      TypeText E N n (.union n ms) (a :: ts ++ [b]) (n + 1)

/-- The upper bound of an array: a number, or `*` -/
def UpperText (hi : Option Nat) (t : Token) : Prop :=
  match hi with
  | some n => t.kind = .INTEGER ∧ t.value = .int n
  | none => IsOp "*" t

/-- A type, or an array type `T [lo .. hi]` -/
inductive CompTypeText (E : FileEnv) (N : Names) : Nat → Ty → List Token → Nat → Prop
  | single {n n' τ ts} : TypeText E N n τ ts n' → CompTypeText E N n τ ts n'
  | arr {n n' τ lo hi ts a l r u b} : TypeText E N n τ ts n' → a.kind = .S_BRA → l.kind = .INTEGER →
      l.value = .int lo → r.kind = .RANGE → UpperText hi u → b.kind = .S_KET →
      CompTypeText E N n (.arr n' τ lo hi) (ts ++ [a, l, r, u, b]) (n' + 1)

/-- `optional`, or nothing -/
def OptionalText (o : Bool) (ts : List Token) : Prop :=
  if o then ∃ t, IsKw "optional" t ∧ ts = [t] else ts = []

/-- `name [optional] type`, where `ty` says how the type is written -/
def MemberText (ty : Nat → Ty → List Token → Nat → Prop) (n : Nat) (c : Comp) (ts : List Token) (n' : Nat) :
    Prop :=
  ∃ a o τ, ts = a ++ (o ++ τ) ∧ Described c.name.toList a ∧ OptionalText c.optional o ∧ ty n c.ty τ n'

/-! ## Enumerations -/

/-- The literals -/
inductive LiteralsText : List String → List Token → Prop
  | nil : LiteralsText [] []
  | cons {l ls a ts} : Described l.toList a → LiteralsText ls ts → LiteralsText (l :: ls) (a ++ ts)

/-! ## Tuples -/

/-- The field `c` of the tuple type with number `t` -/
def FieldText (E : FileEnv) (N : Names) (t n : Nat) (c : Comp) (ts : List Token) (n' : Nat) : Prop :=
  c.memberOf = .tup t ∧ MemberText (TypeText E N) n c ts n'

/-- Fields without separators -/
inductive PlainFieldsText (E : FileEnv) (N : Names) (t n : Nat) : List Comp → List Token → Nat → Prop
  | one {c a n'} : FieldText E N t n c a n' → PlainFieldsText E N t n [c] a n'
  | more {c cs a ts n' m} : PlainFieldsText E N t n cs ts m → FieldText E N t m c a n' →
      PlainFieldsText E N t n (cs ++ [c]) (ts ++ a) n'

/-- A token that can be a separator: `@`, `:`, `;` or an identifier -/
def SeparatorTok (sp : Sep) (x : Token) : Prop :=
  (x.kind = .IDENTIFIER ∧ sp = .ident x.text) ∨
  ((x.kind = .AT ∨ x.kind = .COLON ∨ x.kind = .SEMICOLON) ∧ sp = .kind x.kind)

/-- Fields with separators -/
inductive SepFieldsText (E : FileEnv) (N : Names) (t n : Nat) :
    List Comp → List Sep → List Token → Nat → Prop
  | one {c a n'} : FieldText E N t n c a n' → SepFieldsText E N t n [c] [] a n'
  | more {c cs sp seps a ts k x n' m} : SepFieldsText E N t n cs seps ts m → IsKw "separator" k →
      SeparatorTok sp x → FieldText E N t m c a n' →
      SepFieldsText E N t n (cs ++ [c]) (seps ++ [sp]) (ts ++ k :: x :: a) n'

/-- A tuple type with separators -/
def SepTuple (W : World) (τ : Ty) : Prop := ∃ u ss, τ = .tup u ∧ W.seps[u]? = some ss ∧ ss ≠ []

/-- The fields of a tuple type: no two have similar names; without separators none is optional, with
separators the optional ones are at the end (and not all), and none is itself a tuple with
separators. -/
def FieldsText (E : FileEnv) (W : World) (t : Nat) (cs : List Comp) (seps : List Sep) (ts : List Token)
    (n' : Nat) : Prop :=
  (cs.Pairwise fun c c' => ¬ SameName c.name c'.name) ∧
  ((seps = [] ∧ PlainFieldsText E W.names t W.nid cs ts n' ∧ ∀ c ∈ cs, c.optional = false) ∨
   (seps ≠ [] ∧ SepFieldsText E W.names t W.nid cs seps ts n' ∧ OptionalTail cs ∧
      (∃ c cs', cs = c :: cs' ∧ c.optional = false) ∧ ∀ c ∈ cs, ¬ SepTuple W c.ty))

/-! ## Records -/

/-- `abstract`, `final` or nothing -/
def ModifierText (isAbstract isFinal : Bool) (ts : List Token) : Prop :=
  (ts = [] ∧ isAbstract = false ∧ isFinal = false) ∨
  (∃ k, ts = [k] ∧ IsKw "abstract" k ∧ isAbstract = true ∧ isFinal = false) ∨
  (∃ k, ts = [k] ∧ IsKw "final" k ∧ isAbstract = false ∧ isFinal = true)

/-- `extends` and the name of a record type, or nothing -/
def ExtendsText (E : FileEnv) (N : Names) (parent : Option Nat) (ts : List Token) : Prop :=
  (ts = [] ∧ parent = none) ∨
  (∃ k a e, ts = k :: a ∧ IsKw "extends" k ∧ NameOf E N a e ∧ e.cls = clsRecord ∧ parent = some e.id)

/-- The component `c` is inherited from the parent. -/
def Inherits (W : World) (parent : Option Nat) (c : Comp) : Prop :=
  ∃ p, parent = some p ∧ HasComp W.decls p c

/-- The parent, or a type it extends, freezes the component called `n`. -/
def FrozenAbove (W : World) (parent : Option Nat) (n : String) : Prop :=
  ∃ p a, parent = some p ∧ Extends W.decls p a ∧ Freezes W.infos a n

/-- The declarations with another record type (with the components `cs`) at the end -/
def Decls.withRec (D : Decls) (parent : Option Nat) (cs : List Comp) : Decls :=
  { D with recs := D.recs ++ [{ parent, own := cs }] }

/-- The members of a record type, followed by the token `nx`: components, and `freeze`s of components
that are inherited or declared before.  `N` are the names including the type itself; the type
has the components declared so far. -/
inductive MembersText (E : FileEnv) (N : Names) (W : World) (parent : Option Nat) :
    List Comp → List (String × VNode) → List Token → Option Token → Nat → Prop
  | nil {nx} : MembersText E N W parent [] [] [] nx W.nid
  | comp {cs fz ts nx n c a n'} : MembersText E N W parent cs fz ts (follow a nx) n →
      c.memberOf = .record W.decls.recs.length → MemberText (CompTypeText E N) n c a n' →
      (∀ d, Inherits W parent d ∨ d ∈ cs → ¬ SameName d.name c.name) →
      MembersText E N W parent (cs ++ [c]) fz (ts ++ a) nx n'
  | freeze {cs fz ts nx n c k x y r v} : MembersText E N W parent cs fz ts (some k) n → IsKw "freeze" k →
      x.kind = .IDENTIFIER → c.name = String.ofList x.text → (Inherits W parent c ∨ c ∈ cs) →
      ¬ FrozenAbove W parent c.name → c.name ∉ fz.map Prod.fst → y.kind = .ASSIGN →
      Written E { N with decls := Decls.withRec W.decls parent cs } v c.ty r nx →
      MembersText E N W parent cs (fz ++ [(c.name, ⟨n, v⟩)]) (ts ++ k :: x :: y :: r) nx (n + 1)

/-! ## Checks -/

/-- The component `c` belongs to the type. -/
def CompOf (D : Decls) : CompositeTy → Comp → Prop
  | .record t, c => HasComp D t c
  | .tup t, c => ∃ cs, D.tups[t]? = some cs ∧ c ∈ cs

/-- The entity is a record or tuple type. -/
def CompositeEnt (e : Ent) : CompositeTy → Prop
  | .record t => e.cls = clsRecord ∧ e.id = t
  | .tup t => e.cls = clsTuple ∧ e.id = t

/-- The keyword of a severity, or nothing (`error`) -/
def SeverityText (sev : Severity) (ts : List Token) : Prop :=
  (ts = [] ∧ sev = .error) ∨
  ∃ k, ts = [k] ∧ IsKw (match sev with | .warning => "warning" | .error => "error" | .fatal => "fatal") k

/-- The component to which the message is anchored, with or without details before it -/
def ExtrasText (D : Decls) (ct : CompositeTy) (anchor : Option String) (ts : List Token) : Prop :=
  ∃ d a, ts = d ++ a ∧ (d = [] ∨ ∃ c s, d = [c, s] ∧ c.kind = .COMMA ∧ s.kind = .STRING) ∧
    match anchor with
    | none => a = []
    | some n => ∃ c x m, a = [c, x] ∧ c.kind = .COMMA ∧ x.kind = .IDENTIFIER ∧ n = String.ofList x.text ∧
        CompOf D ct m ∧ m.name = n

/-- A check of type `ct`: an expression, the severity, the message, and what comes after it.  The
expression may use the components of the type; it must be Boolean. -/
def CheckText (E : FileEnv) (rx : Regex) (W : World) (ct : CompositeTy) (k : Check) (ts : List Token) :
    Prop :=
  ∃ comp e r c sv m x, ts = e ++ c :: (sv ++ m :: x) ∧
    (∀ n d, comp n = some d ↔ CompOf W.decls ct d ∧ d.name = n) ∧
    GExpr E W.names (ValueNames comp []) e r ∧
    elabCheck ⟨W.decls, rx.search, rx.valid⟩ (scopeIn E W.names comp []) r = .ok k.expr ∧
    c.kind = .COMMA ∧ SeverityText k.sev sv ∧ m.kind = .STRING ∧ k.msg = String.ofList m.text ∧
    '\n' ∉ m.text ∧ ExtrasText W.decls ct k.anchor x

/-- Checks, one after the other -/
inductive ChecksText (E : FileEnv) (rx : Regex) (W : World) (ct : CompositeTy) :
    List Check → List Token → Prop
  | nil : ChecksText E rx W ct [] []
  | cons {k ks a ts} : CheckText E rx W ct k a → ChecksText E rx W ct ks ts →
      ChecksText E rx W ct (k :: ks) (a ++ ts)

/-- The checks `ks` are added to those of type `ct`. -/
def World.withChecks (W : World) (ct : CompositeTy) (ks : List Check) : World :=
  { W with checks :=
    match ct with
    | .record t => { W.checks with recs := W.checks.recs.modify t (· ++ ks) }
    | .tup t => { W.checks with tups := W.checks.tups.modify t (· ++ ks) } }

/-! ## Files -/

/-- One declaration or check block, and what is declared before and after it.  New types are added
at the end of the list of types. -/
inductive ItemText (E : FileEnv) (rx : Regex) : World → List Token → World → Prop
  | enum {W k name a b ls ts c tabs} : IsKw "enum" k → Described name a → b.kind = .C_BRA →
      LiteralsText ls ts → ls ≠ [] → (ls.Pairwise fun l l' => ¬ SameName l l') → c.kind = .C_KET →
      Enters W.tabs E.pkg name W.decls.enums.length clsEnum tabs →
      ItemText E rx W (k :: a ++ b :: ts ++ [c])
        { W with tabs, decls := { W.decls with enums := W.decls.enums ++ [ls] } }
  | tuple {W k name a b cs seps ts c tabs n} : IsKw "tuple" k → Described name a → b.kind = .C_BRA →
      FieldsText E W W.decls.tups.length cs seps ts n → c.kind = .C_KET →
      Enters W.tabs E.pkg name W.decls.tups.length clsTuple tabs →
      ItemText E rx W (k :: a ++ b :: ts ++ [c])
        { W with
          tabs
          decls := { W.decls with tups := W.decls.tups ++ [cs] }
          seps := W.seps ++ [seps]
          nid := n
          checks := { W.checks with tups := W.checks.tups ++ [[]] } }
  | record {W m isAbstract isFinal k name a x parent parentFinal b cs fz ts c tabs n} :
      ModifierText isAbstract isFinal m → IsKw "type" k → Described name a →
      ExtendsText E W.names parent x → (parentFinal = true ↔ ∃ p, parent = some p ∧ Final W.infos p) →
      Enters W.tabs E.pkg name W.decls.recs.length clsRecord tabs → b.kind = .C_BRA →
      MembersText E { W.names with tabs } W parent cs fz ts (some c) n →
      (parentFinal = true → cs = []) → c.kind = .C_KET →
      ItemText E rx W (m ++ k :: a ++ x ++ b :: ts ++ [c])
        { W with
          tabs
          decls := Decls.withRec W.decls parent cs
          infos := W.infos ++ [{ frozen := fz, isAbstract, isFinal := isFinal || parentFinal }]
          nid := n
          checks := { W.checks with recs := W.checks.recs ++ [[]] } }
  | checks {W k x e ct b ks ts c} : IsKw "checks" k → x.kind = .IDENTIFIER →
      (W.names.tab E.pkg).lookup x.text none = .ok e → CompositeEnt e ct → b.kind = .C_BRA →
      ChecksText E rx W ct ks ts → c.kind = .C_KET →
      ItemText E rx W (k :: x :: b :: ts ++ [c]) (W.withChecks ct ks)

/-- The text of an rsl file after the preamble -/
inductive RslText (E : FileEnv) (rx : Regex) : World → List Token → World → Prop
  | nil {W} : RslText E rx W [] W
  | cons {W W1 W2 a ts} : ItemText E rx W a W1 → RslText E rx W1 ts W2 → RslText E rx W (a ++ ts) W2

/-- A sequence of rsl files -/
inductive RslFilesText (rx : Regex) : World → List OpenFile → World → Prop
  | nil {W} : RslFilesText rx W [] W
  | cons {W W1 W2 f fs} : RslText f.env rx W (fileWords f) W1 → RslFilesText rx W1 fs W2 →
      RslFilesText rx W (f :: fs) W2

/-- Nothing is declared yet, apart from the (empty) packages. -/
def World.Bare (W : World) (g : STab) : Prop :=
  W.decls = ⟨[], [], []⟩ ∧ W.infos = [] ∧ W.seps = [] ∧ W.checks = ⟨[], []⟩ ∧ W.otyps = [] ∧ W.nid = 0 ∧
  ∀ T ∈ W.tabs, T.own = [] ∧ T.parents = [] ∧ T.imported = [g.own :: g.parents]

end Verif.Spec
