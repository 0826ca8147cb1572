import Verif.Model.Parse.Object
import Verif.Spec.Parsed
/-!
# How values and objects are written (LRM, "Record object declarations")

Grammars for the token sequences of names, values and assignments.  They say which value or
object a token sequence denotes, without reference to the functions that parse it.
-/
namespace Verif.Spec
open Verif.Model

/-- The tokens before the end of the text or the first lexical error, without comments. -/
def tokensOf : List LexOut → List Token
  | .tok t :: r => if t.kind = .COMMENT then tokensOf r else t :: tokensOf r
  | _ => []

/-- The tokens in front of the parser: none if there is no next token (the end of the file). -/
def words (s : PS) : List Token :=
  match s.nt with
  | none => []
  | some t => t :: tokensOf s.rest

/-- Where names are looked up: the tables of the packages, the declarations, and the types of the
objects declared so far. -/
structure Names where
  tabs  : List STab
  decls : Decls
  seps  : List (List Sep)
  otyps : List Nat

/-- the names known in a parser state -/
def namesOf (s : PS) : Names := ⟨s.tabs, s.decls, s.seps, s.objs.map (·.typ)⟩

/-- The table of package `p`. -/
def Names.tab (N : Names) (p : Nat) : STab := (N.tabs[p]?).getD .empty

/-- A package that may be used in the file: its own one, or an imported one.  (After an error in
the preamble, none.) -/
def Usable (E : FileEnv) (p : Nat) : Prop := E.resolved = true ∧ (p = E.pkg ∨ p ∈ E.imports)

/-- An unqualified name means what the own package declares, otherwise what is globally
declared. -/
def Means (E : FileEnv) (N : Names) (name : List Char) (e : Ent) : Prop :=
  if (N.tab E.pkg).contains name then (N.tab E.pkg).lookup name none = .ok e
  else E.global.lookup name none = .ok e

/-- The tokens name the entity `e`: a plain name, or a package that may be used, a dot and
a name in this package. -/
def NameOf (E : FileEnv) (N : Names) (ts : List Token) (e : Ent) : Prop :=
  (∃ t, ts = [t] ∧ t.kind = .IDENTIFIER ∧ Means E N t.text e ∧ e.cls ≠ clsPackage) ∨
  (∃ t d t' p, ts = [t, d, t'] ∧ t.kind = .IDENTIFIER ∧ d.kind = .DOT ∧ t'.kind = .IDENTIFIER ∧
    Means E N t.text p ∧ p.cls = clsPackage ∧ Usable E p.id ∧
    (N.tab p.id).lookup t'.text none = .ok e)

/-- The tokens name something (not necessarily declared yet) called `name` in package `p`: a
plain name in the own package, or a package that may be used, a dot and a name. -/
def RefOf (E : FileEnv) (ts : List Token) (p : Nat) (name : List Char) : Prop :=
  (∃ t, ts = [t] ∧ t.kind = .IDENTIFIER ∧ p = E.pkg ∧ name = t.text) ∨
  (∃ t d t' e, ts = [t, d, t'] ∧ t.kind = .IDENTIFIER ∧ d.kind = .DOT ∧ t'.kind = .IDENTIFIER ∧
    E.global.lookup t.text none = .ok e ∧ e.cls = clsPackage ∧ Usable E e.id ∧
    p = e.id ∧ name = t'.text)

/-- The token is the given separator. -/
def SepTok : Sep → Token → Prop
  | .kind k, t => t.kind = k
  | .ident v, t => t.kind = .IDENTIFIER ∧ t.value = .str v

/-- a comma -/
def Comma (t : Token) : Prop := t.kind = .COMMA

/-- a sign -/
def Sign (t : Token) (c : Char) : Prop := t.kind = .OPERATOR ∧ t.text = [c]

/-- Fields that are not given are null. -/
def Absent : List (String × PVal) → List Comp → Prop
  | [], [] => True
  | f :: fs, c :: cs => f.1 = c.name ∧ f.2 = .inull ∧ Absent fs cs
  | _, _ => False

/-- What comes after: the first of the tokens, or if there are none, what is behind them. -/
def follow (ts : List Token) (nx : Option Token) : Option Token := ts.head?.or nx

/-- What `name` means in package `p`, if it is declared already: an object to which a reference of
type `τ` may refer. -/
def MayRefer (N : Names) (τ : Ty) (p : Nat) (name : List Char) : Prop :=
  (N.tab p).contains name = true → ∃ e t, (N.tab p).lookup name none = .ok e ∧ e.cls = clsObject ∧
    N.otyps[e.id]? = some t ∧ Referable N.decls t τ

mutual
/-- The tokens `ts` denote the value of type `τ`; `nx` is the token behind them.  (What is
written for separator tuples is more than the reference manual allows, see `WrittenSep`, and an
upper bound of 0 does not limit an array, see `LengthOk`.) -/
def Written (E : FileEnv) (N : Names) : PVal → Ty → List Token → Option Token → Prop
  | .inull, _, _, _ => False
  | .bool b, τ, ts, _ => τ = .bool ∧ ∃ t, ts = [t] ∧ t.kind = .KEYWORD ∧
      t.text = (if b then "true" else "false").toList
  | .int n, τ, ts, _ => τ = .int ∧ ∃ t k, ts = [t] ∧ t.kind = .INTEGER ∧ t.value = .int k ∧ n = (k : Int)
  | .dec q, τ, ts, _ => τ = .dec ∧ ∃ t, ts = [t] ∧ t.kind = .DECIMAL ∧ t.value = .frac q
  | .str v, τ, ts, _ => τ = .str ∧ ∃ t, ts = [t] ∧ t.kind = .STRING ∧ t.text = v
  | .markup v refs, τ, ts, _ => τ = .markup ∧ ∃ t, ts = [t] ∧ t.kind = .STRING ∧ t.text = v ∧
      E.markup t = .ok refs
  | .enum e l, τ, ts, _ => τ = .enum e ∧ ∃ n d t ty, ts = n ++ [d, t] ∧ NameOf E N n ty ∧
      ty.cls = clsEnum ∧ ty.id = e ∧ d.kind = .DOT ∧ t.kind = .IDENTIFIER ∧
      l = String.ofList t.text ∧ l ∈ (N.decls.enums[e]?).getD []
  | .neg v, τ, ts, nx => ∃ t r, ts = t :: r ∧ Sign t '-' ∧ (τ = .int ∨ τ = .dec) ∧
      Written E N v τ r nx ∧ ((∃ n, v = .int n) ∨ ∃ q, v = .dec q)
  | .pos v, τ, ts, nx => ∃ t r, ts = t :: r ∧ Sign t '+' ∧ (τ = .int ∨ τ = .dec) ∧
      Written E N v τ r nx ∧ ((∃ n, v = .int n) ∨ ∃ q, v = .dec q)
  | .arr ty es, τ, ts, _ => τ = ty ∧ ∃ id elem lo hi a r b, ty = .arr id elem lo hi ∧
      ts = a :: r ++ [b] ∧ a.kind = .S_BRA ∧ b.kind = .S_KET ∧ WrittenElems E N es elem r (some b) ∧
      LengthOk false es.length ty
  | .tup t fs, τ, ts, nx => τ = .tup t ∧ ∃ cs, N.decls.tups[t]? = some cs ∧
      ((∃ seps, N.seps[t]? = some seps ∧ seps ≠ [] ∧
          WrittenSep E N fs cs seps false ts nx) ∨
       ((N.seps[t]?).getD [] = [] ∧ ∃ a r b, ts = a :: r ++ [b] ∧ a.kind = .BRA ∧ b.kind = .KET ∧
          WrittenPlain E N fs cs true r (some b)))
  | .ref ty p name, τ, ts, nx => τ = ty ∧ ((∃ r, ty = .record r) ∨ ∃ id ms, ty = .union id ms) ∧
      RefOf E ts p name ∧ (ts.length = 1 → ∀ d, nx = some d → d.kind ≠ .DOT) ∧ MayRefer N ty p name

/-- The elements of an array: separated by commas, possibly with a comma at the end. -/
def WrittenElems (E : FileEnv) (N : Names) : List PVal → Ty → List Token → Option Token → Prop
  | [], _, ts, _ => ts = []
  | e :: es, τ, ts, nx => ∃ a b, ts = a ++ b ∧ Written E N e τ a (follow b nx) ∧
      ((es = [] ∧ (b = [] ∨ ∃ c, b = [c] ∧ Comma c)) ∨
       (es ≠ [] ∧ ∃ c r, b = c :: r ∧ Comma c ∧ WrittenElems E N es τ r nx))

/-- The fields of a tuple without separators: all of them, separated by commas. -/
def WrittenPlain (E : FileEnv) (N : Names) :
    List (String × PVal) → List Comp → Bool → List Token → Option Token → Prop
  | [], [], _, ts, _ => ts = []
  | f :: fs, c :: cs, first, ts, nx => ∃ k a b, ts = k ++ a ++ b ∧
      (if first then k = [] else ∃ x, k = [x] ∧ Comma x) ∧
      WrittenField E N f c a (follow b nx) ∧ WrittenPlain E N fs cs false b nx
  | _, _, _, _, _ => False

/-- The fields of a tuple with separators (`seps` are those still to come; the next one is in
front of the second field of `cs`): each field is followed by the separator; the separator may
be missing (`missed`: one was missing before), and then the next optional field ends the
tuple.  A separator is missing only if the next token is another one. -/
def WrittenSep (E : FileEnv) (N : Names) :
    List (String × PVal) → List Comp → List Sep → Bool → List Token → Option Token → Prop
  | [], [], _, _, ts, _ => ts = []
  | f :: fs, c :: cs, seps, missed, ts, nx =>
      (missed = true ∧ c.optional = true ∧ ts = [] ∧ Absent (f :: fs) (c :: cs)) ∨
      ((missed = true → c.optional = false) ∧ ∃ a b, ts = a ++ b ∧ WrittenField E N f c a (follow b nx) ∧
        match seps with
        | [] => WrittenSep E N fs cs [] missed b nx
        | sp :: seps =>
          (∃ x r, b = x :: r ∧ SepTok sp x ∧ WrittenSep E N fs cs seps missed r nx) ∨
          ((∀ x, follow b nx = some x → ¬ SepTok sp x) ∧ WrittenSep E N fs cs seps true b nx))
  | _, _, _, _, _, _ => False

/-- The value of one field -/
def WrittenField (E : FileEnv) (N : Names) :
    String × PVal → Comp → List Token → Option Token → Prop
  | (n, v), c, ts, nx => n = c.name ∧ Written E N v c.ty ts nx
end

/-- An assignment `n = v` in an object of record type `t`. -/
def WrittenAssign (E : FileEnv) (N : Names) (t : Nat) (a : String × PVal) (ts : List Token)
    (nx : Option Token) : Prop :=
  ∃ x y r c, ts = x :: y :: r ∧ x.kind = .IDENTIFIER ∧ y.kind = .ASSIGN ∧
    a.1 = String.ofList x.text ∧ HasComp N.decls t c ∧ c.name = a.1 ∧ Written E N a.2 c.ty r nx

/-- A sequence of assignments, followed by `nx` -/
def WrittenAssigns (E : FileEnv) (N : Names) (t : Nat) :
    List (String × PVal) → List Token → Option Token → Prop
  | [], ts, _ => ts = []
  | a :: as, ts, nx => ∃ x r, ts = x ++ r ∧ WrittenAssign E N t a x (follow r nx) ∧
      WrittenAssigns E N t as r nx

/-- The body of an object of record type `t` after the name of the type: the name of the
object, and the assignments in braces (read with the names `N`). -/
def WrittenBody (E : FileEnv) (N : Names) (t : Nat) (name : List Char)
    (asg : List (String × PVal)) (ts : List Token) : Prop :=
  ∃ x b r k, ts = x :: b :: r ++ [k] ∧ x.kind = .IDENTIFIER ∧ name = x.text ∧ b.kind = .C_BRA ∧
    k.kind = .C_KET ∧ WrittenAssigns E N t asg r (some k)

/-- The declaration of an object: the name of its type (read with the names `N`) and the body
(read with the names `N'`, which include the object itself). -/
def WrittenObject (E : FileEnv) (N N' : Names) (t : Nat) (name : List Char)
    (asg : List (String × PVal)) (ts : List Token) : Prop :=
  ∃ a e b, ts = a ++ b ∧ NameOf E N a e ∧ e.cls = clsRecord ∧ e.id = t ∧
    WrittenBody E N' t name asg b

/-- `N'` are the names `N` with the `i`-th object, called `name` and of type `t`, declared in
package `p`. -/
def Declared (N N' : Names) (p : Nat) (name : List Char) (t i : Nat) : Prop :=
  N'.decls = N.decls ∧ N'.seps = N.seps ∧ N'.otyps = N.otyps ++ [t] ∧ ∃ T T', N.tabs[p]? = some T ∧
    T.register { name := name, id := i, cls := clsObject } = .ok T' ∧ N'.tabs = N.tabs.set p T'

/-- The keyword `section` -/
def SectionTok (t : Token) : Prop := t.kind = .KEYWORD ∧ t.value = .str "section".toList

/-- A sequence of objects and sections inside the sections `S`.  The objects are numbered from
`k`; every object comes with the assignments in its body.  `N` and `N'` are the names known
before and after. -/
inductive WrittenEntries (E : FileEnv) :
    Names → Nat → List (List Char) → List (Obj × List (String × PVal)) → List Token → Names → Prop
  | nil {N k S} : WrittenEntries E N k S [] [] N
  | obj {N N1 N2 k S ob asg items a b} :
      ob.pkg = E.pkg → ob.sects = S → Declared N N1 E.pkg ob.name ob.typ k →
      WrittenObject E N N1 ob.typ ob.name asg a →
      WrittenEntries E N1 (k + 1) S items b N2 →
      WrittenEntries E N k S ((ob, asg) :: items) (a ++ b) N2
  | sect {N N1 N2 k S items items' w t b r c r'} :
      SectionTok w → t.kind = .STRING → b.kind = .C_BRA → c.kind = .C_KET →
      WrittenEntries E N k (S ++ [t.text]) items r N1 →
      WrittenEntries E N1 (k + items.length) S items' r' N2 →
      WrittenEntries E N k S (items ++ items') ([w, t, b] ++ r ++ [c] ++ r') N2

end Verif.Spec
