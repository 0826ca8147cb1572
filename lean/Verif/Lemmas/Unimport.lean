import Verif.Model.Imports
import Verif.Lemmas.RslInv
/-!
# Parsing with one import less

`Rel φ F ψ x x'`: if `x` ends normally with a good result, so does `x'`, in the same way.
-/
namespace Verif.Lemmas.Unimport
open Verif.Model Verif.Spec

/-- No markup string inside the value refers to the package. -/
inductive NoRef (p : Nat) : PVal → Prop
  | inull : NoRef p .inull
  | bool (b) : NoRef p (.bool b)
  | int (i) : NoRef p (.int i)
  | dec (q) : NoRef p (.dec q)
  | str (s) : NoRef p (.str s)
  | markup (s refs) : (∀ r ∈ refs, r.pkg ≠ p) → NoRef p (.markup s refs)
  | enum (t l) : NoRef p (.enum t l)
  | neg (e) : NoRef p e → NoRef p (.neg e)
  | pos (e) : NoRef p e → NoRef p (.pos e)
  | arr (τ es) : (∀ e ∈ es, NoRef p e) → NoRef p (.arr τ es)
  | tup (t fs) : (∀ f ∈ fs, NoRef p f.2) → NoRef p (.tup t fs)
  | ref (τ q n) : NoRef p (.ref τ q n)

/-- Entries for the package have its name. -/
def NamesPkg (p : Nat) (nm : List Char) (T : STab) : Prop :=
  ∀ c ∈ (T.own :: T.parents) :: T.imported, ∀ f ∈ c, ∀ x ∈ f,
    x.2.cls = clsPackage → x.2.id = p → x.2.name = nm

/-- The package number `p` with the name `nm`; values numbered `n0` or more are new, and there are
at least `lo` record types.  (Without `hide`, the package is not taken away.) -/
structure Gone where
  p  : Nat
  nm : List Char
  n0 : Nat
  lo : Nat
  hide : Bool

/-- The name may be used: it is not that of the package. -/
def Gone.Seen (K : Gone) (n : List Char) : Prop := K.hide = true → n ≠ K.nm

/-- What holds while a file is parsed that does not contain the name of the package -/
structure Inv (K : Gone) (s : PS) : Prop where
  next : ∀ t, s.nt = some t → K.Seen t.text
  rest : ∀ t ∈ tokensOf s.rest, K.Seen t.text
  tabs : ∀ T ∈ s.tabs, NamesPkg K.p K.nm T
  once : ∀ cs ∈ s.decls.tups, (cs.map (·.name)).Nodup
  nid  : K.n0 ≤ s.nid
  len  : s.decls.recs.length ≤ s.infos.length
  low  : K.lo ≤ s.infos.length

/-- No new value refers to the package. -/
structure Pure (K : Gone) (s : PS) : Prop where
  objs : ∀ o n v, s.field o n = some v → K.n0 ≤ v.id → NoRef K.p v.val
  frozen : ∀ i ∈ s.infos, ∀ f ∈ i.frozen, K.n0 ≤ f.2.id → NoRef K.p f.2.val

/-- see above -/
def Rel {α : Type} (K : Gone) (φ : Prop) (F : α → Prop) (ψ : α → Prop) (x x' : P α) : Prop :=
  ∀ s, Inv K s → ∀ a s', x s = .ok a s' →
    Inv K s' ∧ F a ∧ (Pure K s' → ψ a → φ ∧ Pure K s ∧ x' s = .ok a s')

/-- with nothing said about the result -/
abbrev Rel0 {α : Type} (K : Gone) (x x' : P α) : Prop := Rel K True (fun _ => True) (fun _ => True) x x'

section
variable {K : Gone} {α β : Type} {φ φ' : Prop} {F : α → Prop} {ψ ψ' : α → Prop} {G : β → Prop} {χ : β → Prop}

theorem bind_ok {x : P α} {f : α → P β} {s s' : PS} {b : β} (h : (x >>= f) s = .ok b s') :
    ∃ a s1, x s = .ok a s1 ∧ f a s1 = .ok b s' := by
  change P.bind x f s = _ at h
  unfold P.bind at h
  split at h
  · next a s1 h1 => exact ⟨a, s1, h1, h⟩
  · cases h
  · cases h

theorem bind_run {x : P α} {f : α → P β} {s s1 : PS} {a : α} (h : x s = .ok a s1) :
    (x >>= f) s = f a s1 := by
  change P.bind x f s = _
  unfold P.bind
  rw [h]

theorem Rel.bind {x x' : P α} {f f' : α → P β} (h : Rel K φ F ψ x x')
    (h' : ∀ a, F a → Rel K (ψ a) G χ (f a) (f' a)) : Rel K φ G χ (x >>= f) (x' >>= f') := by
  intro s hi b s' hr
  obtain ⟨a, s1, h1, h2⟩ := bind_ok hr
  obtain ⟨i1, f1, g1⟩ := h s hi a s1 h1
  obtain ⟨i2, f2, g2⟩ := h' a f1 s1 i1 b s' h2
  refine ⟨i2, f2, fun p c => ?_⟩
  obtain ⟨c1, p1, r1⟩ := g2 p c
  obtain ⟨c2, p2, r2⟩ := g1 p1 c1
  exact ⟨c2, p2, by rw [bind_run r2, r1]⟩

theorem Rel.weaken {x x' : P α} {F' : α → Prop} (h : Rel K φ' F' ψ' x x') (hF : ∀ a, F' a → F a)
    (hψ : ∀ a, F' a → ψ a → ψ' a) (hφ : φ' → φ) : Rel K φ F ψ x x' := by
  intro s hi a s' hr
  obtain ⟨i, f, g⟩ := h s hi a s' hr
  refine ⟨i, hF a f, fun p c => ?_⟩
  obtain ⟨c1, p1, r1⟩ := g p (hψ a f c)
  exact ⟨hφ c1, p1, r1⟩

/-- what was needed before is needed still -/
theorem Rel.frame {x x' : P α} (h : Rel K True F ψ x x') : Rel K φ F (fun a => φ ∧ ψ a) x x' := by
  intro s hi a s' hr
  obtain ⟨i, f, g⟩ := h s hi a s' hr
  refine ⟨i, f, fun p c => ?_⟩
  obtain ⟨c1, p1, r1⟩ := g p c.2
  exact ⟨c.1, p1, r1⟩

theorem Rel.pure {a : α} (hF : F a) (h : ψ a → φ) : Rel K φ F ψ (pure a) (pure a) := by
  intro s hi b s' hr
  cases hr
  exact ⟨hi, hF, fun p c => ⟨h c, p, rfl⟩⟩

theorem Rel.fail {e : PErr} {x' : P α} : Rel K φ F ψ (P.fail e) x' := by
  intro s hi b s' hr; cases hr

theorem Rel.crash {c : PCrash} {x' : P α} : Rel K φ F ψ (P.crash c) x' := by
  intro s hi b s' hr; cases hr

theorem Rel.cond {c : Bool} {x x' y y' : P α} (h1 : c = true → Rel K φ F ψ x x')
    (h2 : c = false → Rel K φ F ψ y y') : Rel K φ F ψ (P.cond c x y) (P.cond c x' y') := by
  unfold P.cond
  cases c with
  | true => exact h1 rfl
  | false => exact h2 rfl

theorem Rel.get : Rel K True (fun s => Inv K s) (fun _ => True) P.get P.get := by
  intro s hi b s' hr
  cases hr
  exact ⟨hi, hi, fun p _ => ⟨trivial, p, rfl⟩⟩

theorem Rel.drop {x x' : P α} (h : Rel K True F ψ x x') (hψ : ∀ a, F a → ψ a) : Rel0 K x x' :=
  h.weaken (fun _ _ => trivial) (fun a f _ => hψ a f) id

/-- The shared part of the state is the same. -/
theorem Pure.of_eq {s s' : PS} (h : Pure K s') (ho : s'.objs = s.objs) (hi : s'.infos = s.infos) :
    Pure K s := by
  refine ⟨fun o n v hv => h.objs o n v ?_, fun i h1 => h.frozen i (hi ▸ h1)⟩
  unfold PS.field at *
  rw [ho]; exact hv

end

section
variable {K : Gone}

theorem report_rel {e : PErr} : Rel0 K (P.report e) (P.report e) := by
  intro s hi b s' hr
  cases hr
  exact ⟨⟨hi.next, hi.rest, hi.tabs, hi.once, hi.nid, hi.len, hi.low⟩, trivial, fun p _ => ⟨trivial, p.of_eq rfl rfl, rfl⟩⟩

theorem advanceLoop_inv {s s' : PS} {l : List LexOut} (hi : Inv K s) (hl : ∀ t ∈ tokensOf l, K.Seen t.text)
    (h : advanceLoop s l = .ok () s') :
    Inv K s' ∧ s'.objs = s.objs ∧ s'.infos = s.infos := by
  induction l with
  | nil =>
    unfold advanceLoop at h
    cases h
    exact ⟨⟨fun t ht => (by cases ht), fun t ht => (by cases ht), hi.tabs, hi.once, hi.nid, hi.len, hi.low⟩, rfl, rfl⟩
  | cons o r ih =>
    cases o with
    | tok t =>
      unfold advanceLoop at h
      split at h
      · next hk =>
        refine ih (fun u hu => hl u ?_) h
        simp only [tokensOf, hk, if_true]
        exact hu
      · next hk =>
        cases h
        simp only [tokensOf, hk, if_false] at hl
        refine ⟨⟨fun u hu => ?_, fun u hu => hl u (List.mem_cons_of_mem _ hu), hi.tabs, hi.once, hi.nid, hi.len,
          hi.low⟩, rfl, rfl⟩
        cases hu
        exact hl t (List.mem_cons_self ..)
    | eof =>
      unfold advanceLoop at h
      cases h
      exact ⟨⟨fun t ht => (by cases ht), fun t ht => (by cases ht), hi.tabs, hi.once, hi.nid, hi.len, hi.low⟩, rfl, rfl⟩
    | error k a b => unfold advanceLoop at h; cases h
    | crash => unfold advanceLoop at h; cases h

theorem advance_rel : Rel0 K P.advance P.advance := by
  intro s hi b s' hr
  have hi' : Inv K { s with ct := s.nt } := ⟨hi.next, hi.rest, hi.tabs, hi.once, hi.nid, hi.len, hi.low⟩
  obtain ⟨h1, h2, h3⟩ := advanceLoop_inv hi' hi.rest hr
  exact ⟨h1, trivial, fun p _ => ⟨trivial, p.of_eq h2 h3, hr⟩⟩

theorem matchK_rel {k : Kind} : Rel K True (fun t => K.Seen t.text) (fun _ => True) (P.matchK k) (P.matchK k) := by
  intro s hi t s' hr
  have hr0 := hr
  unfold P.matchK at hr
  split at hr
  · cases hr
  · next u hu =>
    split at hr
    · cases hr
    · obtain ⟨_, s1, h1, h2⟩ := bind_ok hr
      cases h2
      obtain ⟨i1, -, g1⟩ := advance_rel s hi () _ h1
      exact ⟨i1, hi.next _ hu, fun p _ => ⟨trivial, (g1 p trivial).2.1, hr0⟩⟩

theorem matchKw_rel {v : String} : Rel0 K (P.matchKw v) (P.matchKw v) := by
  intro s hi t s' hr
  have hr0 := hr
  unfold P.matchKw at hr
  split at hr
  · cases hr
  · split at hr
    · cases hr
    · split at hr
      · cases hr
      · obtain ⟨_, s1, h1, h2⟩ := bind_ok hr
        cases h2
        obtain ⟨i1, -, g1⟩ := advance_rel s hi () _ h1
        exact ⟨i1, trivial, fun p _ => ⟨trivial, (g1 p trivial).2.1, hr0⟩⟩

theorem matchEof_rel : Rel0 K P.matchEof P.matchEof := by
  intro s hi t s' hr
  have hr0 := hr
  unfold P.matchEof at hr
  split at hr
  · cases hr; exact ⟨hi, trivial, fun p _ => ⟨trivial, p, hr0⟩⟩
  · cases hr

theorem liftSym_rel {α : Type} {r : Except SymErr α} :
    Rel K True (fun a => r = .ok a) (fun _ => True) (P.liftSym r) (P.liftSym r) := by
  cases r with
  | ok a => exact Rel.pure rfl (fun _ => trivial)
  | error e => exact Rel.fail

theorem liftEl_rel {α : Type} {r : El α} : Rel0 K (P.liftEl r) (P.liftEl r) := by
  cases r with
  | ok a => exact Rel.pure trivial (fun _ => trivial)
  | err e => exact Rel.fail
  | crash c => exact Rel.crash

end

/-- one step of a proof of `Rel` -/
syntax "rel_step" : tactic
macro_rules | `(tactic| rel_step) => `(tactic| split)
macro_rules | `(tactic| rel_step) => `(tactic| with_reducible refine Rel.cond (fun _ => ?_) (fun _ => ?_))
macro_rules | `(tactic| rel_step) => `(tactic| with_reducible exact Rel.pure trivial (fun _ => trivial))
macro_rules | `(tactic| rel_step) => `(tactic| with_reducible exact Rel.fail)
macro_rules | `(tactic| rel_step) => `(tactic| with_reducible exact Rel.crash)
macro_rules | `(tactic| rel_step) => `(tactic| with_reducible exact report_rel)
macro_rules | `(tactic| rel_step) => `(tactic| with_reducible exact advance_rel)
macro_rules | `(tactic| rel_step) => `(tactic| with_reducible exact matchKw_rel)
macro_rules | `(tactic| rel_step) => `(tactic| with_reducible exact matchEof_rel)
macro_rules | `(tactic| rel_step) => `(tactic| with_reducible exact matchK_rel.drop (fun _ _ => trivial))
macro_rules | `(tactic| rel_step) => `(tactic| with_reducible exact liftSym_rel.drop (fun _ _ => trivial))
macro_rules | `(tactic| rel_step) => `(tactic| with_reducible exact liftEl_rel)
macro_rules | `(tactic| rel_step) => `(tactic| with_reducible refine Rel.bind (F := fun _ => True) (ψ := fun _ => True) ?_ (fun _ _ => ?_))
macro_rules | `(tactic| rel_step) => `(tactic| with_reducible refine Rel.bind liftSym_rel (fun _ _ => ?_))
macro_rules | `(tactic| rel_step) => `(tactic| with_reducible refine Rel.bind matchK_rel (fun _ _ => ?_))
macro_rules | `(tactic| rel_step) => `(tactic| with_reducible refine Rel.bind Rel.get (fun _ _ => ?_))
macro_rules | `(tactic| rel_step) => `(tactic| with_reducible assumption)
/-- all steps -/
macro "rel_steps" : tactic => `(tactic| repeat' rel_step)

section
variable {K : Gone}

theorem chainGet_mem {c : List Frame} {k : List Char} {e : Ent} (h : chainGet c k = some e) :
    ∃ f ∈ c, ∃ x ∈ f, x.2 = e := by
  induction c with
  | nil => cases h
  | cons f fs ih =>
    unfold chainGet at h
    split at h
    · next e' h' =>
      cases h
      unfold Frame.get at h'
      obtain ⟨x, hx, rfl⟩ := Option.map_eq_some_iff.1 h'
      exact ⟨f, List.mem_cons_self .., x, List.mem_of_find?_eq_some hx, rfl⟩
    · obtain ⟨f', h1, h2⟩ := ih h
      exact ⟨f', List.mem_cons_of_mem _ h1, h2⟩

theorem NamesPkg.lookup {p : Nat} {nm n : List Char} {T : STab} {sub : Option (Ent → Bool)} {e : Ent}
    (h : NamesPkg p nm T) (hl : T.lookup n sub = .ok e) (hn : n ≠ nm) : ¬ (e.cls = clsPackage ∧ e.id = p) := by
  rintro ⟨h1, h2⟩
  unfold STab.lookup STab.lookupDirect at hl
  split at hl
  · next rv hf =>
    split at hl
    · cases hl
    · next hs =>
      split at hl
      · cases hl
      · cases hl
        unfold STab.find at hf
        obtain ⟨c, hc, hg⟩ := List.exists_of_findSome?_eq_some hf
        obtain ⟨f, hf', x, hx, rfl⟩ := chainGet_mem hg
        have := h c hc f hf' x hx h1 h2
        simp only [Bool.not_false, Bool.true_and, decide_eq_true_eq, ne_eq, Classical.not_not] at hs
        exact hn (hs.symm.trans this)
  · cases hl

theorem NamesPkg.empty {p : Nat} {nm : List Char} : NamesPkg p nm .empty := by
  intro c hc f hf x hx
  simp only [STab.empty, List.mem_singleton] at hc
  subst hc
  rcases List.mem_singleton.1 hf with rfl
  cases hx

theorem Inv.tab {s : PS} (h : Inv K s) (p : Nat) : NamesPkg K.p K.nm (s.tab p) := by
  unfold PS.tab
  cases ht : s.tabs[p]? with
  | none => exact NamesPkg.empty
  | some T => exact h.tabs T (List.mem_of_getElem? ht)

theorem scope_lookup {a : STab} {b : STab} {n : List Char} {sub : Option (Ent → Bool)} {e : Ent}
    (ha : NamesPkg K.p K.nm a) (hb : NamesPkg K.p K.nm b)
    (hl : Scope.lookup [a, b] n sub = some (.ok e)) (hn : K.Seen n) : K.hide = true → ¬ (e.cls = clsPackage ∧ e.id = K.p) := by
  unfold Scope.lookup at hl
  dsimp only at hl
  split at hl
  · next t ht =>
    have := List.mem_of_find?_eq_some ht
    simp only [List.reverse_cons, List.reverse_nil, List.nil_append, List.mem_singleton] at this
    subst this
    exact fun hh => hb.lookup (Option.some.inj hl) (hn hh)
  · exact fun hh => ha.lookup (Option.some.inj hl) (hn hh)

end

/-- The environments of a file with and without the import -/
structure Envs (K : Gone) (E E' : FileEnv) : Prop where
  global : E'.global = E.global
  pkg : E'.pkg = E.pkg
  recover : E'.recover = E.recover
  resolved : E'.resolved = E.resolved
  visible : ∀ q, (K.hide = true → q ≠ K.p) → E'.isVisible q = E.isVisible q
  markup : ∀ t refs, E.markup t = .ok refs → (∀ r ∈ refs, r.pkg ≠ K.p) → E'.markup t = .ok refs
  tab : NamesPkg K.p K.nm E.global

section
variable {K : Gone} {E E' : FileEnv} (hE : Envs K E E')
include hE

theorem scope_eq (s : PS) : s.scope E' = s.scope E := by
  unfold PS.scope; rw [hE.global, hE.pkg]

theorem scopeLookup_rel {n : List Char} {sub : Option (Ent → Bool)} (hn : K.Seen n) :
    Rel K True (fun e => K.hide = true → ¬ (e.cls = clsPackage ∧ e.id = K.p)) (fun _ => True) (P.scopeLookup E n sub)
      (P.scopeLookup E' n sub) := by
  unfold P.scopeLookup
  refine Rel.bind Rel.get (fun s hs => ?_)
  rw [scope_eq hE]
  split
  · exact Rel.crash
  · next r hr =>
    cases r with
    | error e => exact Rel.fail
    | ok e => exact Rel.pure (scope_lookup hE.tab (hs.tab _) hr hn) (fun _ => trivial)

/-- visible packages -/
theorem visible_rel {α : Type} {q : Nat} {x x' : P α} (h : K.hide = true → q ≠ K.p) (hx : Rel0 K x x') :
    Rel0 K (if (!E.isVisible q) = true then E.invisible else x)
      (if (!E'.isVisible q) = true then E'.invisible else x') := by
  rw [hE.visible q h]
  unfold FileEnv.invisible
  rel_steps

theorem parseQualifiedName_rel {sub : Ent → Bool} :
    Rel0 K (parseQualifiedName E sub) (parseQualifiedName E' sub) := by
  unfold parseQualifiedName
  refine Rel.bind matchK_rel (fun t ht => ?_)
  refine Rel.bind (scopeLookup_rel hE ht) (fun e he => ?_)
  split
  · next hc =>
    refine visible_rel hE (fun hh h => he hh ⟨hc, h⟩) ?_
    rel_steps
  · exact (scopeLookup_rel hE ht).drop (fun _ _ => trivial)

end

end Verif.Lemmas.Unimport
