import Verif.Lemmas.Unimport
/-!
# Parsing values with one import less
-/
namespace Verif.Lemmas.Unimport
open Verif.Model Verif.Spec

section
variable {K : Gone} {α β : Type} {φ : Prop} {F : α → Prop} {ψ : α → Prop} {G : β → Prop} {χ : β → Prop}

theorem Rel.bind1 {x x' : P α} {f f' : α → P β} (h : Rel K True F (fun _ => True) x x')
    (h' : ∀ a, F a → Rel K φ G χ (f a) (f' a)) : Rel K φ G χ (x >>= f) (x' >>= f') :=
  Rel.bind (Rel.frame h) (fun a ha => (h' a ha).weaken (fun _ h => h) (fun _ _ h => h) (fun h => ⟨h, trivial⟩))

theorem Rel.bind2 {x x' : P α} {f f' : α → P β} (h : Rel K True F ψ x x')
    (h' : ∀ a, F a → Rel K (φ ∧ ψ a) G χ (f a) (f' a)) : Rel K φ G χ (x >>= f) (x' >>= f') :=
  Rel.bind (Rel.frame h) h'

theorem Rel.any {x x' : P α} (h : Rel0 K x x') : Rel K True (fun _ => True) ψ x x' :=
  h.weaken (fun _ h => h) (fun _ _ _ => trivial) id

theorem arrayLoop_rel {pv pv' : P PVal} (h : Rel K True (fun _ => True) (NoRef K.p) pv pv') (k : Nat)
    (acc : List PVal) :
    Rel K (∀ e ∈ acc, NoRef K.p e) (fun _ => True) (fun r => ∀ e ∈ r, NoRef K.p e)
      (arrayLoop pv k acc) (arrayLoop pv' k acc) := by
  induction k generalizing acc with
  | zero => exact Rel.crash
  | succ k ih =>
    unfold arrayLoop
    have snoc : ∀ v, (∀ e ∈ acc ++ [v], NoRef K.p e) → (∀ e ∈ acc, NoRef K.p e) ∧ NoRef K.p v := by
      intro v hv
      exact ⟨fun e he => hv e (List.mem_append_left _ he), hv v (by simp)⟩
    refine Rel.bind1 Rel.get (fun s _ => ?_)
    split
    · exact Rel.pure trivial id
    · refine Rel.bind2 h (fun v _ => ?_)
      refine Rel.bind1 Rel.get (fun s _ => ?_)
      have loop : Rel K ((∀ e ∈ acc, NoRef K.p e) ∧ NoRef K.p v) (fun _ => True) (fun r => ∀ e ∈ r, NoRef K.p e)
          (arrayLoop pv k (acc ++ [v])) (arrayLoop pv' k (acc ++ [v])) :=
        (ih (acc ++ [v])).weaken (fun _ h => h) (fun _ _ h => h) (snoc v)
      split
      · exact Rel.bind1 matchK_rel (fun _ _ => loop)
      · split
        · exact Rel.pure trivial (snoc v)
        · exact Rel.bind1 report_rel (fun _ _ => loop)

theorem parseArray_rel {pv pv' : P PVal} (h : Rel K True (fun _ => True) (NoRef K.p) pv pv') (τ : Ty) (lo : Nat)
    (hi : Option Nat) :
    Rel K True (fun _ => True) (NoRef K.p) (parseArray pv τ lo hi) (parseArray pv' τ lo hi) := by
  unfold parseArray
  refine Rel.bind1 matchK_rel (fun _ _ => ?_)
  refine Rel.bind1 Rel.get (fun s _ => ?_)
  refine Rel.bind ((arrayLoop_rel h _ []).weaken (F := fun _ => True) (ψ := fun r => ∀ e ∈ r, NoRef K.p e)
    (fun _ h => h) (fun _ _ h => h) (fun _ => trivial)) (fun es _ => ?_)
  refine Rel.bind1 matchK_rel (fun _ _ => ?_)
  refine Rel.bind1 (F := fun _ => True) (by rel_steps) (fun _ _ => ?_)
  refine Rel.bind1 (F := fun _ => True) (by rel_steps) (fun _ _ => ?_)
  refine Rel.pure trivial (fun h => ?_)
  cases h
  assumption

/-- the fields among the items -/
def itemComps : List SeqItem → List String
  | [] => []
  | .comp c :: is => c.name :: itemComps is
  | .sep _ :: is => itemComps is

theorem itemComps_iter (cs : List Comp) (ss : List Sep) : itemComps (iterSequence cs ss) = cs.map (·.name) := by
  induction cs generalizing ss with
  | nil => rfl
  | cons c cs ih =>
    cases ss with
    | nil => simp only [iterSequence, itemComps, ih, List.map_cons]
    | cons s ss => simp only [iterSequence, itemComps, ih, List.map_cons]

/-- The fields that are not assigned later are good. -/
def GoodTup (p : Nat) (later : List String) (d : List (String × PVal)) : Prop :=
  ∀ f ∈ d, f.1 ∉ later → NoRef p f.2

theorem GoodTup.set {p : Nat} {n : String} {later : List String} {d : List (String × PVal)} {v : PVal}
    (hk : n ∈ d.map Prod.fst) (hn : n ∉ later) (h : GoodTup p later (setKey d n v)) :
    GoodTup p (n :: later) d ∧ NoRef p v := by
  constructor
  · intro f hf hl
    refine h f ?_ (fun hm => hl (List.mem_cons_of_mem _ hm))
    unfold setKey
    refine List.mem_map.2 ⟨f, hf, ?_⟩
    rw [if_neg (fun he => hl (by rw [he]; exact List.mem_cons_self ..))]
  · obtain ⟨f, hf, he⟩ := List.mem_map.1 hk
    refine h (n, v) ?_ hn
    unfold setKey
    refine List.mem_map.2 ⟨f, hf, ?_⟩
    rw [if_pos he]

theorem sepLoop_rel {pv pv' : Ty → P PVal} (h : ∀ τ, Rel K True (fun _ => True) (NoRef K.p) (pv τ) (pv' τ))
    (items : List SeqItem) (b : Bool) (d : List (String × PVal)) (hn : (itemComps items).Nodup)
    (hk : ∀ n ∈ itemComps items, n ∈ d.map Prod.fst) :
    Rel K (GoodTup K.p (itemComps items) d) (fun _ => True) (fun r => ∀ f ∈ r, NoRef K.p f.2)
      (sepLoop pv items b d) (sepLoop pv' items b d) := by
  induction items generalizing b d with
  | nil =>
    unfold sepLoop
    exact Rel.pure trivial (fun h f hf _ => h f hf)
  | cons i items ih =>
    cases i with
    | comp c =>
      unfold sepLoop
      simp only [itemComps, List.nodup_cons] at hn
      split
      · exact Rel.pure trivial (fun h f hf _ => h f hf)
      · refine Rel.bind2 (h _) (fun v _ => ?_)
        refine (ih _ (setKey d c.name v) hn.2 ?_).weaken (fun _ h => h) (fun _ _ h => h) ?_
        · intro n hm
          rw [setKey_keys]
          exact hk n (List.mem_cons_of_mem _ hm)
        · exact fun hg => GoodTup.set (hk _ (List.mem_cons_self ..)) hn.1 hg
    | sep sp =>
      unfold sepLoop
      refine Rel.bind1 Rel.get (fun s _ => ?_)
      split
      · refine Rel.bind1 (F := fun _ => True) ?_ (fun _ _ => ih _ d hn hk)
        cases sp <;> (unfold P.matchSep; rel_steps)
      · exact ih _ d hn hk

theorem plainLoop_rel {pv pv' : Ty → P PVal} (h : ∀ τ, Rel K True (fun _ => True) (NoRef K.p) (pv τ) (pv' τ))
    (cs : List Comp) (b : Bool) (d : List (String × PVal)) (hn : (cs.map (·.name)).Nodup)
    (hk : ∀ n ∈ cs.map (·.name), n ∈ d.map Prod.fst) :
    Rel K (GoodTup K.p (cs.map (·.name)) d) (fun _ => True) (fun r => ∀ f ∈ r, NoRef K.p f.2)
      (plainLoop pv b cs d) (plainLoop pv' b cs d) := by
  induction cs generalizing b d with
  | nil =>
    unfold plainLoop
    exact Rel.pure trivial (fun h f hf _ => h f hf)
  | cons c cs ih =>
    unfold plainLoop
    simp only [List.map_cons, List.nodup_cons] at hn
    refine Rel.bind1 (F := fun _ => True) (by rel_steps) (fun _ _ => ?_)
    refine Rel.bind2 (h _) (fun v _ => ?_)
    refine (ih _ (setKey d c.name v) hn.2 ?_).weaken (fun _ h => h) (fun _ _ h => h) ?_
    · intro n hm
      rw [setKey_keys]
      exact hk n (List.mem_cons_of_mem _ hm)
    · exact fun hg => GoodTup.set (hk _ (List.mem_cons_self ..)) hn.1 hg

theorem emptyTuple_keys (cs : List Comp) : (emptyTuple cs).map Prod.fst = cs.map (·.name) := by
  unfold emptyTuple
  rw [List.map_map]; rfl

theorem tup_rel {x x' : P (List (String × PVal))} {t : Nat} {φ : Prop}
    (h : Rel K φ (fun _ => True) (fun r => ∀ f ∈ r, NoRef K.p f.2) x x') :
    Rel K True (fun _ => True) (NoRef K.p) (x >>= fun d => pure (.tup t d)) (x' >>= fun d => pure (.tup t d)) := by
  refine Rel.bind (h.weaken (F := fun _ => True) (ψ := fun r => ∀ f ∈ r, NoRef K.p f.2) (fun _ h => h)
    (fun _ _ h => h) (fun _ => trivial)) (fun d _ => Rel.pure trivial (fun hd => ?_))
  cases hd
  assumption

theorem parseSepTuple_rel {pv pv' : Ty → P PVal} (h : ∀ τ, Rel K True (fun _ => True) (NoRef K.p) (pv τ) (pv' τ))
    (t : Nat) (cs : List Comp) (ss : List Sep) (hn : (cs.map (·.name)).Nodup) :
    Rel K True (fun _ => True) (NoRef K.p) (parseSepTuple pv t cs ss) (parseSepTuple pv' t cs ss) := by
  unfold parseSepTuple
  refine Rel.bind1 Rel.get (fun s _ => ?_)
  split
  · exact Rel.crash
  · refine tup_rel (sepLoop_rel h _ _ _ ?_ ?_)
    · rw [itemComps_iter]; exact hn
    · intro n hm
      rw [itemComps_iter] at hm
      rw [emptyTuple_keys]; exact hm

theorem parsePlainTuple_rel {pv pv' : Ty → P PVal} (h : ∀ τ, Rel K True (fun _ => True) (NoRef K.p) (pv τ) (pv' τ))
    (t : Nat) (cs : List Comp) (hn : (cs.map (·.name)).Nodup) :
    Rel K True (fun _ => True) (NoRef K.p) (parsePlainTuple pv t cs) (parsePlainTuple pv' t cs) := by
  unfold parsePlainTuple
  refine Rel.bind1 matchK_rel (fun _ _ => ?_)
  have hl := plainLoop_rel h cs true (emptyTuple cs) hn (fun n hm => by rw [emptyTuple_keys]; exact hm)
  refine Rel.bind (hl.weaken (F := fun _ => True) (ψ := fun r => ∀ f ∈ r, NoRef K.p f.2) (fun _ h => h)
    (fun _ _ h => h) (fun _ => trivial)) (fun d _ => ?_)
  refine Rel.bind1 matchK_rel (fun _ _ => Rel.pure trivial (fun hd => ?_))
  cases hd
  assumption

theorem parseNumber_rel (b : Bool) : Rel0 K (parseNumber b) (parseNumber b) := by
  unfold parseNumber
  rel_steps

theorem parseBoolean_rel : Rel0 K parseBoolean parseBoolean := by
  unfold parseBoolean
  rel_steps

end

section
variable {K : Gone} {E E' : FileEnv} (hE : Envs K E E')
include hE

theorem parseReference_rel (τ : Ty) : Rel0 K (parseReference E τ) (parseReference E' τ) := by
  unfold parseReference
  refine Rel.bind matchK_rel (fun t ht => ?_)
  refine Rel.bind Rel.get (fun s _ => ?_)
  refine Rel.bind (F := fun _ => True) (ψ := fun _ => True) ?_ (fun _ _ => by rel_steps)
  refine Rel.cond (fun _ => ?_) (fun _ => ?_)
  · refine Rel.bind matchK_rel (fun _ _ => ?_)
    refine Rel.bind matchK_rel (fun _ _ => ?_)
    rw [hE.global]
    refine Rel.bind liftSym_rel (fun e he => ?_)
    have hc : e.cls = clsPackage := by
      unfold STab.lookup STab.lookupDirect at he
      split at he
      · split at he
        · cases he
        · split at he
          · cases he
          · next h2 =>
            cases he
            simpa using h2
      · cases he
    exact visible_rel hE (fun hh h => hE.tab.lookup he (ht hh) ⟨hc, h⟩) (by rel_steps)
  · rw [hE.pkg]; rel_steps

theorem parseEnum_rel (t : Nat) : Rel0 K (parseEnum E t) (parseEnum E' t) := by
  unfold parseEnum
  refine Rel.bind (parseQualifiedName_rel hE) (fun e he => ?_)
  rel_steps

theorem parseMarkup_rel : Rel K True (fun _ => True) (NoRef K.p) (parseMarkup E) (parseMarkup E') := by
  unfold parseMarkup
  refine Rel.bind1 matchK_rel (fun t _ => ?_)
  cases hm : E.markup t with
  | error => exact Rel.fail
  | crash => exact Rel.crash
  | ok refs =>
    intro s hi a s' hr
    cases hr
    refine ⟨hi, trivial, fun p c => ⟨trivial, p, ?_⟩⟩
    cases c with
    | markup _ _ h => rw [hE.markup t refs hm h]; rfl

theorem parseValue_rel (n : Nat) (τ : Ty) :
    Rel K True (fun _ => True) (NoRef K.p) (parseValue E n τ) (parseValue E' n τ) := by
  induction n generalizing τ with
  | zero => exact Rel.crash
  | succ n ih =>
    cases τ with
    | dec => exact (parseNumber_rel true).any
    | int => exact (parseNumber_rel false).any
    | markup => exact parseMarkup_rel hE
    | str => unfold parseValue; exact Rel.any (by rel_steps)
    | bool => exact parseBoolean_rel.any
    | arr id elem lo hi => exact parseArray_rel (ih elem) _ _ _
    | enum t => exact (parseEnum_rel hE t).any
    | record t => exact (parseReference_rel hE _).any
    | union id ms => exact (parseReference_rel hE _).any
    | tup t =>
      unfold parseValue
      refine Rel.bind1 Rel.get (fun s hs => ?_)
      have hn : ((s.decls.fields t).map (·.name)).Nodup := by
        unfold Decls.fields
        cases ht : s.decls.tups[t]? with
        | none => exact List.nodup_nil
        | some cs => exact hs.once cs (List.mem_of_getElem? ht)
      dsimp only
      split
      · exact parseSepTuple_rel ih t _ _ hn
      · exact parsePlainTuple_rel ih t _ hn

end

end Verif.Lemmas.Unimport
