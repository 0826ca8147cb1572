import Verif.Lemmas.Witness
import Verif.Lemmas.Resolve
/-! Concrete declarations and files used as examples. -/
namespace Verif.Lemmas.Sample
open Verif.Model Verif.Spec

/-- a file with the given text, before its first token -/
def openText (E : FileEnv) (text : String) : OpenFile :=
  match lexStream (text.length + 1) (LexState.init text.toList) with
  | .tok t :: r => ⟨E, none, some t, r⟩
  | _ => ⟨E, none, none, []⟩

def comp (n : String) (ty : Ty) (opt : Bool) (m : Ty) : Comp := ⟨n, ty, opt, m⟩

/-- `type Base { text String  size Pair  links optional Base[1 .. 2]  kind optional Color }`,
`type Ext extends Base { extra optional Integer  empty optional Integer [0 .. 0]  freeze text = "frozen" }`, `type Empty {}`, `tuple Pair { a
Integer  separator @  b optional Integer }`, `enum Color { red green }` -/
def decls : Decls where
  recs := [
    ⟨none, [comp "text" .str false (.record 0), comp "size" (.tup 0) false (.record 0),
      comp "links" (.arr 0 (.record 0) 1 (some 2)) true (.record 0),
      comp "kind" (.enum 0) true (.record 0)]⟩,
    ⟨some 0, [comp "extra" .int true (.record 1),
      comp "empty" (.arr 1 .int 0 (some 0)) true (.record 1)]⟩,
    ⟨none, []⟩]
  tups := [[comp "a" .int false (.tup 0), comp "b" .int true (.tup 0)]]
  enums := [["red", "green"]]

def infos : List RecInfo := [⟨[], false, false⟩, ⟨[("text", ⟨0, .str "frozen".toList⟩)], false, false⟩,
  ⟨[], false, false⟩]

def seps : List (List Sep) := [[.kind .AT]]

theorem wf : wfCheck decls = true := by decide

theorem world : WorldOk decls infos := by
  refine ⟨wfCheck_sound wf, uniqueCheck_sound wf (by decide), ?_, ?_, ?_, ?_, ?_⟩
  · rintro t c ⟨r, h, hc⟩
    match t, h with
    | 0, h =>
      simp only [decls, List.getElem?_cons_zero, Option.some.injEq] at h
      subst h
      simp only [List.mem_cons, List.not_mem_nil, or_false] at hc
      rcases hc with rfl | rfl | rfl | rfl <;> rfl
    | 1, h =>
      simp only [decls, List.getElem?_cons_succ, List.getElem?_cons_zero, Option.some.injEq] at h
      subst h
      simp only [List.mem_cons, List.not_mem_nil, or_false] at hc
      rcases hc with rfl | rfl <;> rfl
    | 2, h =>
      simp only [decls, List.getElem?_cons_succ, List.getElem?_cons_zero, Option.some.injEq] at h
      subst h
      cases hc
    | t + 3, h => simp [decls] at h
  · intro t r h
    match t, h with
    | 0, h =>
      simp only [decls, List.getElem?_cons_zero, Option.some.injEq] at h
      subst h
      decide
    | 1, h =>
      simp only [decls, List.getElem?_cons_succ, List.getElem?_cons_zero, Option.some.injEq] at h
      subst h
      decide
    | 2, h =>
      simp only [decls, List.getElem?_cons_succ, List.getElem?_cons_zero, Option.some.injEq] at h
      subst h
      decide
    | t + 3, h => simp [decls] at h
  · intro t cs h
    match t, h with
    | 0, h =>
      simp only [decls, List.getElem?_cons_zero, Option.some.injEq] at h
      subst h
      refine ⟨⟨_, _, rfl, rfl⟩, ?_, by decide, ?_, ?_⟩
      · simp [OptionalTail, comp]
      · simp [comp, TyOk]
      · simp [comp, tyRank]
    | t + 1, h => simp [decls] at h
  · intro t c h
    have h := (mem_allComponents (wfCheck_sound wf) t c).2 h
    have hsub : ∀ x ∈ decls.allComponents t, x ∈ decls.allComponents 1 := by
      match t with
      | 0 => decide
      | 1 => exact fun _ h => h
      | 2 => decide
      | t + 3 =>
        have : decls.allComponents (t + 3) = [] := by
          unfold Decls.allComponents
          rw [ancestors_undeclared (by simp [decls])]
          rfl
        rw [this]
        simp
    have h := hsub c h
    have hall : decls.allComponents 1 = [comp "text" .str false (.record 0),
      comp "size" (.tup 0) false (.record 0),
      comp "links" (.arr 0 (.record 0) 1 (some 2)) true (.record 0),
      comp "kind" (.enum 0) true (.record 0), comp "extra" .int true (.record 1),
      comp "empty" (.arr 1 .int 0 (some 0)) true (.record 1)] := by decide
    rw [hall] at h
    simp only [List.mem_cons, List.not_mem_nil, or_false] at h
    rcases h with rfl | rfl | rfl | rfl | rfl | rfl <;> simp [comp, TyOk, tyRank, decls]
  · intro t i name node h1 h2
    match t, h1 with
    | 0, h1 =>
      simp only [infos, List.getElem?_cons_zero, Option.some.injEq] at h1
      subst h1
      simp at h2
    | 1, h1 =>
      simp only [infos, List.getElem?_cons_succ, List.getElem?_cons_zero, Option.some.injEq] at h1
      subst h1
      simp only [List.lookup_cons, List.lookup_nil] at h2
      split at h2
      · next hk =>
        rw [beq_iff_eq] at hk
        injection h2 with h2
        subst hk h2
        refine ⟨comp "text" .str false (.record 0), ?_, rfl, rfl⟩
        exact (mem_allComponents (wfCheck_sound wf) 1 _).1 (by decide)
      · cases h2
    | 2, h1 =>
      simp only [infos, List.getElem?_cons_succ, List.getElem?_cons_zero, Option.some.injEq] at h1
      subst h1
      simp at h2
    | t + 3, h1 => simp [infos] at h1

def global : STab := STab.empty.registerAll
  [⟨"Integer".toList, 1, clsBuiltinType⟩, ⟨"String".toList, 3, clsBuiltinType⟩,
   ⟨"pkg".toList, 0, clsPackage⟩, ⟨"other".toList, 1, clsPackage⟩]

/-- package 0 declares the types, package 1 nothing -/
def tabs : List STab := [
  (STab.importing global).registerAll [⟨"Base".toList, 0, clsRecord⟩, ⟨"Ext".toList, 1, clsRecord⟩,
    ⟨"Pair".toList, 0, clsTuple⟩, ⟨"Color".toList, 0, clsEnum⟩, ⟨"Empty".toList, 2, clsRecord⟩],
  STab.importing global]

def start : PS := ⟨none, none, [], [], decls, infos, seps, tabs, [], 1, [], ⟨[], []⟩⟩

/-- a file of package `pkg` -/
def env0 : FileEnv := ⟨global, 0, [], true, fun _ => .ok [], true⟩
/-- a file of package `other` that imports `pkg` -/
def env1 : FileEnv := ⟨global, 1, [0], true, fun _ => .ok [], true⟩

/-- the result of a piece of the parser, as far as it can be compared -/
def outcome {α : Type} : PR α → Option α × List PErr × List (List Char × List (String × Bool))
  | .ok a s => (some a, s.errs, s.objs.map fun o => (o.name, o.fields.map fun f => (f.1, f.2.val.isNull)))
  | .err s => (none, s.errs, s.objs.map fun o => (o.name, []))
  | .crash _ s => (none, s.errs, [])

def isOk {α : Type} : PR α → Bool
  | .ok .. => true
  | _ => false

theorem isOk_iff {α : Type} {x : PR α} (h : isOk x = true) : ∃ a s, x = .ok a s := by
  cases x <;> simp_all [isOk]

def isTrue : PR Bool → Bool
  | .ok b s => b && s.errs.isEmpty
  | _ => false

theorem isTrue_iff {x : PR Bool} (h : isTrue x = true) : ∃ s, x = .ok true s ∧ s.errs = [] := by
  cases x <;> simp_all [isTrue]

/-- the conditions of `NoObjects` on one table -/
def cleanTab (T : STab) : Prop :=
  (∀ x ∈ T.own, x.2.cls ≠ clsObject ∧ x.1 = simplifiedName x.2.name) ∧
  (∀ f ∈ T.parents, ∀ x ∈ f, x.2.cls ≠ clsObject) ∧
  (∀ c ∈ T.imported, ∀ f ∈ c, ∀ x ∈ f, x.2.cls ≠ clsObject) ∧ (T.own.map Prod.fst).Nodup

instance (T : STab) : Decidable (cleanTab T) := by unfold cleanTab; infer_instance

theorem noObjects_of {s : PS} (ho : s.objs = []) (h : ∀ T ∈ s.tabs, cleanTab T) : NoObjects s := by
  have hm : ∀ {p T}, s.tabs[p]? = some T → cleanTab T := fun hT => h _ (List.mem_of_getElem? hT)
  exact ⟨ho, fun p T k e h1 h2 => (hm h1).1 _ h2,
    fun p T f k e h1 h2 h3 => (hm h1).2.1 f h2 _ h3,
    fun p T c f k e h1 h2 h3 h4 => (hm h1).2.2.1 c h2 f h3 _ h4, fun p T h1 => (hm h1).2.2.2⟩

theorem noObjects : NoObjects start := noObjects_of rfl (by decide +kernel)

theorem pkgsKnown : PkgsKnown global start := by
  have h : ∀ p < start.tabs.length, ∃ x ∈ global.own, x.2.cls = clsPackage ∧ x.2.id = p := by
    decide +kernel
  intro p hp
  obtain ⟨x, h1, h2, h3⟩ := h p hp
  exact ⟨x.1, x.2, h1, h2, h3⟩

/-- two files that are accepted -/
def files : List OpenFile := [
  openText env0 "section \"S\" { Base one { text = \"hello\" size = 1 @ 2 links = [two, one] } } Ext two { size = 5 kind = Color.red }",
  openText env1 "pkg.Base three { size = -3 text = \"x\" links = [pkg.two,] }"]

example : isTrue (runTrlcFiles files start) = true := by decide +kernel

end Verif.Lemmas.Sample
