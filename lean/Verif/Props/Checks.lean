import Verif.Spec.Checks
import Verif.Lemmas.Extension
import Verif.Props.Messages
import Verif.Props.Extension
import Verif.Props.References
/-!
# Performing checks (C27, C28, C29)
-/
namespace Verif.Props
open Verif.Model Verif.Spec Verif.Lemmas

variable {env : EvEnv} {k : Composite}

/-! ## C27 -/

/-- what one check does -/
theorem performCheck_spec (c : Check) (hj : Judgeable env k.ctx c) :
    (Holds env k.ctx c ∧ performCheck env k c = ⟨[], .ok true⟩) ∨
    (Fails env k.ctx c ∧ c.sev = .warning ∧ ∃ loc, Anchored k c loc ∧
      performCheck env k c = ⟨[.warning loc c.msg true], .ok true⟩) ∨
    (Fails env k.ctx c ∧ c.sev = .error ∧ ∃ loc, Anchored k c loc ∧
      performCheck env k c = ⟨[.error loc c.msg false true], .ok false⟩) ∨
    (Fails env k.ctx c ∧ c.sev = .fatal ∧ ∃ loc, Anchored k c loc ∧
      performCheck env k c = ⟨[.error loc c.msg true true], .raised⟩) ∨
    (Undefined env k.ctx c ∧ ∃ loc text,
      performCheck env k c = ⟨[.error loc text true false], .raised⟩) := by
  have hloc : Anchored k c (c.location k) := by
    unfold Anchored Check.location
    cases c.anchor <;> simp
  rcases hj with ⟨t, h⟩ | ⟨t, h⟩ | ⟨t, h⟩ | ⟨x, h⟩
  · exact Or.inl ⟨⟨t, h⟩, by simp [performCheck, h, CR.pure]⟩
  · have hf : Fails env k.ctx c := ⟨t, h⟩
    cases hs : c.sev with
    | warning => exact Or.inr (Or.inl ⟨hf, rfl, _, hloc, by simp [performCheck, h, hs]⟩)
    | error => exact Or.inr (Or.inr (Or.inl ⟨hf, rfl, _, hloc, by simp [performCheck, h, hs]⟩))
    | fatal => exact Or.inr (Or.inr (Or.inr (Or.inl ⟨hf, rfl, _, hloc, by simp [performCheck, h, hs]⟩)))
  · exact Or.inr (Or.inr (Or.inr (Or.inr ⟨Or.inl ⟨t, h⟩, _, _, by simp only [performCheck, h]; rfl⟩)))
  · exact Or.inr (Or.inr (Or.inr (Or.inr ⟨Or.inr ⟨x, h⟩, _, _, by simp only [performCheck, h]; rfl⟩)))

theorem holds_not_fails {ctx : List (String × FExpr)} {c : Check} (h : Holds env ctx c) :
    ¬ Fails env ctx c := by
  obtain ⟨t, h⟩ := h
  rintro ⟨t', h'⟩
  rw [h] at h'
  cases h'

theorem holds_not_undefined {ctx : List (String × FExpr)} {c : Check} (h : Holds env ctx c) :
    ¬ Undefined env ctx c := by
  obtain ⟨t, h⟩ := h
  rintro (⟨t', h'⟩ | ⟨x, h'⟩) <;> (rw [h] at h'; cases h')

theorem fails_not_undefined {ctx : List (String × FExpr)} {c : Check} (h : Fails env ctx c) :
    ¬ Undefined env ctx c := by
  obtain ⟨t, h⟩ := h
  rintro (⟨t', h'⟩ | ⟨x, h'⟩) <;> (rw [h] at h'; cases h')

/-- **C27**: the checks of an object are evaluated in order up to and including the first one that
is fatal and fails (or has no truth value); the messages are exactly those of the evaluated
checks.  If no check stops the evaluation, the object fails iff some check counts as an error
(or it had failed before). -/
theorem C27_checks_of_object (cs : List Check) (hj : ∀ c ∈ cs, Judgeable env k.ctx c) (ok : Bool) :
    ((∀ c ∈ cs, ¬ Stops env k.ctx c) ∧ CheckMessages env k cs (performAll env k cs ok).calls ∧
      ∃ b, (performAll env k cs ok).out = .ok b ∧
        (b = true ↔ ok = true ∧ ∀ c ∈ cs, ¬ Errs env k.ctx c)) ∨
    (∃ pre c post, cs = pre ++ c :: post ∧ (∀ d ∈ pre, ¬ Stops env k.ctx d) ∧ Stops env k.ctx c ∧
      CheckMessages env k (pre ++ [c]) (performAll env k cs ok).calls ∧
      (performAll env k cs ok).out = .raised) := by
  induction cs generalizing ok with
  | nil => exact Or.inl ⟨by simp, .nil, ok, rfl, by simp⟩
  | cons c cs ih =>
    have hj' : ∀ d ∈ cs, Judgeable env k.ctx d := fun d hd => hj d (List.mem_cons_of_mem _ hd)
    rcases performCheck_spec c (hj c List.mem_cons_self) with
      ⟨h, hp⟩ | ⟨h, hs, loc, hl, hp⟩ | ⟨h, hs, loc, hl, hp⟩ | ⟨h, hs, loc, hl, hp⟩ | ⟨h, loc, text, hp⟩
    · have hns : ¬ Stops env k.ctx c := by
        rintro (hu | ⟨hf, -⟩)
        · exact holds_not_undefined h hu
        · exact holds_not_fails h hf
      have hne : ¬ Errs env k.ctx c := by
        rintro (hu | ⟨hf, -⟩)
        · exact holds_not_undefined h hu
        · exact holds_not_fails h hf
      simp only [performAll, hp, CR.bind, List.nil_append, Bool.and_true]
      rcases ih hj' ok with ⟨h1, h2, b, h3, h4⟩ | ⟨pre, d, post, rfl, h1, h2, h3, h4⟩
      · refine Or.inl ⟨?_, .holds h h2, b, h3, ?_⟩
        · simpa [hns] using h1
        · rw [h4]; simp [hne]
      · refine Or.inr ⟨c :: pre, d, post, rfl, ?_, h2, .holds h h3, h4⟩
        simpa [hns] using h1
    · have hns : ¬ Stops env k.ctx c := by
        rintro (hu | ⟨-, hf⟩)
        · exact fails_not_undefined h hu
        · rw [hs] at hf; cases hf
      have hne : ¬ Errs env k.ctx c := by
        rintro (hu | ⟨-, hf⟩)
        · exact fails_not_undefined h hu
        · exact hf hs
      simp only [performAll, hp, CR.bind, List.singleton_append, Bool.and_true]
      rcases ih hj' ok with ⟨h1, h2, b, h3, h4⟩ | ⟨pre, d, post, rfl, h1, h2, h3, h4⟩
      · refine Or.inl ⟨?_, .warning h hs hl h2, b, h3, ?_⟩
        · simpa [hns] using h1
        · rw [h4]; simp [hne]
      · refine Or.inr ⟨c :: pre, d, post, rfl, ?_, h2, .warning h hs hl h3, h4⟩
        simpa [hns] using h1
    · have hns : ¬ Stops env k.ctx c := by
        rintro (hu | ⟨-, hf⟩)
        · exact fails_not_undefined h hu
        · rw [hs] at hf; cases hf
      have hne : Errs env k.ctx c := Or.inr ⟨h, by rw [hs]; decide⟩
      simp only [performAll, hp, CR.bind, List.singleton_append, Bool.and_false]
      rcases ih hj' false with ⟨h1, h2, b, h3, h4⟩ | ⟨pre, d, post, rfl, h1, h2, h3, h4⟩
      · refine Or.inl ⟨?_, .error h hs hl h2, b, h3, ?_⟩
        · simpa [hns] using h1
        · rw [h4]; simp [hne]
      · refine Or.inr ⟨c :: pre, d, post, rfl, ?_, h2, .error h hs hl h3, h4⟩
        simpa [hns] using h1
    · right
      refine ⟨[], c, cs, rfl, by simp, Or.inr ⟨h, hs⟩, ?_, ?_⟩
      · simp only [performAll, hp, CR.bind]
        exact .fatal h hs hl .nil
      · simp [performAll, hp, CR.bind]
    · right
      refine ⟨[], c, cs, rfl, by simp, Or.inl h, ?_, ?_⟩
      · simp only [performAll, hp, CR.bind]
        exact .undefined h .nil
      · simp [performAll, hp, CR.bind]

open Classical in
/-- **C27**: the counters of the message handler after the messages for a list of checks: every
failing warning adds one to the warnings, every other failing check and every check without
truth value adds one to the errors. -/
theorem C27_counters {cs : List Check} {l : List MHCall} (h : CheckMessages env k cs l) (mh : MH) :
    (mh.run l).1.warnings = mh.warnings + cs.countP (fun c => decide (Warns env k.ctx c)) ∧
    (mh.run l).1.errors = mh.errors + cs.countP (fun c => decide (Errs env k.ctx c)) := by
  obtain ⟨h1, h2, -⟩ := run_spec l mh
  rw [h1, h2]
  clear h1 h2
  induction h with
  | nil => simp
  | @holds c cs l h _ ih =>
    have hw : ¬ Warns env k.ctx c := fun hw => holds_not_fails h hw.1
    have he : ¬ Errs env k.ctx c := by
      rintro (hu | ⟨hf, -⟩)
      · exact holds_not_undefined h hu
      · exact holds_not_fails h hf
    simp only [List.countP_cons, hw, he, decide_false] at ih ⊢
    simpa using ih
  | @warning c cs l loc h hs _ _ ih =>
    have hw : Warns env k.ctx c := ⟨h, hs⟩
    have he : ¬ Errs env k.ctx c := by
      rintro (hu | ⟨-, hf⟩)
      · exact fails_not_undefined h hu
      · exact hf hs
    simp only [List.countP_cons, hw, he, isErrorCall, isWarningCall] at ih ⊢
    simp; omega
  | @error c cs l loc h hs _ _ ih =>
    have hw : ¬ Warns env k.ctx c := fun hw => by have := hw.2; rw [hs] at this; cases this
    have he : Errs env k.ctx c := Or.inr ⟨h, by rw [hs]; decide⟩
    simp only [List.countP_cons, hw, he, isErrorCall, isWarningCall] at ih ⊢
    simp; omega
  | @fatal c cs l loc h hs _ _ ih =>
    have hw : ¬ Warns env k.ctx c := fun hw => by have := hw.2; rw [hs] at this; cases this
    have he : Errs env k.ctx c := Or.inr ⟨h, by rw [hs]; decide⟩
    simp only [List.countP_cons, hw, he, isErrorCall, isWarningCall] at ih ⊢
    simp; omega
  | @undefined c cs l loc text h _ ih =>
    have hw : ¬ Warns env k.ctx c := fun hw => fails_not_undefined hw.1 h
    have he : Errs env k.ctx c := Or.inl h
    simp only [List.countP_cons, hw, he, isErrorCall, isWarningCall] at ih ⊢
    simp; omega

/-! ## C28 -/

/-- **C28**: the checks of a type are those of a chain of types: the type and everything it
extends, each once, base types first, for every type in the order of their declaration. -/
theorem C28_base_first {D : Decls} (wf : WFDecls D) (C : CheckTab) (t : Nat) :
    ∃ ts : List Nat, (∀ s, s ∈ ts ↔ Extends D t s) ∧
      ts.Pairwise (fun a b => Extends D b a ∧ a ≠ b) ∧
      iterChecks D C D.recs.length t = ts.flatMap fun s => (C.recs[s]?).getD [] := by
  suffices h : ∀ f t, t < f → D.recs.length ≤ f → ∃ ts : List Nat, (∀ s, s ∈ ts ↔ Extends D t s) ∧
      ts.Pairwise (fun a b => Extends D b a ∧ a ≠ b) ∧
      iterChecks D C f t = ts.flatMap fun s => (C.recs[s]?).getD [] by
    by_cases ht : t < D.recs.length
    · exact h _ t ht (Nat.le_refl _)
    · refine ⟨[], fun s => ?_, .nil, ?_⟩
      · simp only [List.not_mem_nil, false_iff]
        exact fun hs => ht (extends_declared hs).1
      · cases hn : D.recs.length with
        | zero => rfl
        | succ n =>
          have : D.recs[t]? = none := List.getElem?_eq_none (by omega)
          simp [iterChecks, this]
  have key : ∀ f t, t < f → ∃ ts : List Nat, (∀ s, s ∈ ts ↔ Extends D t s) ∧
      ts.Pairwise (fun a b => Extends D b a ∧ a ≠ b) ∧
      iterChecks D C f t = ts.flatMap fun s => (C.recs[s]?).getD [] := by
    intro f
    induction f with
    | zero => intro t h; omega
    | succ f ih =>
      intro t ht
      cases hr : D.recs[t]? with
      | none =>
        refine ⟨[], fun s => ?_, .nil, by simp [iterChecks, hr]⟩
        simp only [List.not_mem_nil, false_iff]
        intro hs
        have := (extends_declared hs).1
        rw [List.getElem?_eq_none_iff] at hr
        omega
      | some r =>
        have hd : t < D.recs.length := (List.getElem?_eq_some_iff.1 hr).1
        cases hp : r.parent with
        | none =>
          refine ⟨[t], fun s => ?_, by simp, by simp [iterChecks, hr, hp, CheckTab.ofRec]⟩
          constructor
          · intro h; rw [List.mem_singleton] at h; subst h; exact .refl hd
          · intro h
            cases h with
            | refl => simp
            | step h _ =>
              obtain ⟨r', hr', hp'⟩ := h
              rw [hr] at hr'; cases hr'
              rw [hp] at hp'; cases hp'
        | some p =>
          have hpar : ParentOf D t p := ⟨r, hr, hp⟩
          obtain ⟨ts, h1, h2, h3⟩ := ih p (by have := wf t p hpar; omega)
          refine ⟨ts ++ [t], fun s => ?_, ?_, ?_⟩
          · rw [List.mem_append, h1, List.mem_singleton]
            constructor
            · rintro (h | rfl)
              · exact .step hpar h
              · exact .refl hd
            · intro h
              cases h with
              | refl => exact Or.inr rfl
              | step h h' => exact Or.inl (parent_unique hpar h ▸ h')
          · rw [List.pairwise_append]
            refine ⟨h2, by simp, fun a ha b hb => ?_⟩
            rw [List.mem_singleton] at hb
            subst hb
            have := (h1 a).1 ha
            refine ⟨.step hpar this, ?_⟩
            have := extends_le wf this
            have := wf _ p hpar
            omega
          · simp [iterChecks, hr, hp, h3, CheckTab.ofRec]
  exact fun f t h _ => key f t h

theorem mem_iterChecks {D : Decls} (wf : WFDecls D) (C : CheckTab) (t : Nat) (c : Check) :
    c ∈ iterChecks D C D.recs.length t ↔ AppliesTo D C t c := by
  obtain ⟨ts, h1, -, h3⟩ := C28_base_first wf C t
  rw [h3, List.mem_flatMap]
  constructor
  · rintro ⟨s, hs, hc⟩
    cases hl : C.recs[s]? with
    | none => simp [hl] at hc
    | some cs => exact ⟨s, cs, (h1 s).1 hs, hl, by simpa [hl] using hc⟩
  · rintro ⟨s, cs, hs, hl, hc⟩
    exact ⟨s, (h1 s).2 hs, by simpa [hl] using hc⟩

/-! ## C29 -/

theorem errs_iff {ctx : List (String × FExpr)} {c : Check} (hj : Judgeable env ctx c) :
    ¬ Errs env ctx c ↔ Passes env ctx c := by
  constructor
  · intro h
    rcases hj with hj | hj | hj
    · exact Or.inl hj
    · refine Or.inr ⟨hj, ?_⟩
      cases hs : c.sev with
      | warning => rfl
      | error => exact absurd (Or.inr ⟨hj, by rw [hs]; decide⟩) h
      | fatal => exact absurd (Or.inr ⟨hj, by rw [hs]; decide⟩) h
    · exact absurd (Or.inl hj) h
  · rintro (h | ⟨h, hs⟩) (hu | ⟨hf, hn⟩)
    · exact holds_not_undefined h hu
    · exact holds_not_fails h hf
    · exact fails_not_undefined h hu
    · exact hn hs

/-- The outcome of a group of checks: `P` if all pass -/
def Outcome (r : CR Bool) (P : Prop) : Prop :=
  (r.out = .ok true ∧ P) ∨ ((r.out = .ok false ∨ r.out = .raised) ∧ ¬ P)

theorem performAll_outcome (cs : List Check) (hj : ∀ c ∈ cs, Judgeable env k.ctx c) (ok : Bool) :
    Outcome (performAll env k cs ok) (ok = true ∧ ∀ c ∈ cs, Passes env k.ctx c) := by
  rcases C27_checks_of_object cs hj ok with ⟨-, -, b, hb, hiff⟩ | ⟨pre, c, post, rfl, -, hs, -, ho⟩
  · have : b = true ↔ (ok = true ∧ ∀ c ∈ cs, Passes env k.ctx c) := by
      rw [hiff]
      constructor
      · exact fun h => ⟨h.1, fun c hc => (errs_iff (hj c hc)).1 (h.2 c hc)⟩
      · exact fun h => ⟨h.1, fun c hc => (errs_iff (hj c hc)).2 (h.2 c hc)⟩
    cases b with
    | true => exact Or.inl ⟨hb, this.1 rfl⟩
    | false => exact Or.inr ⟨Or.inl hb, fun h => by cases this.2 h⟩
  · refine Or.inr ⟨Or.inr ho, fun h => ?_⟩
    have hm : c ∈ pre ++ c :: post := by simp
    refine (errs_iff (hj c hm)).2 (h.2 c hm) ?_
    rcases hs with hs | ⟨hs, hf⟩
    · exact Or.inl hs
    · exact Or.inr ⟨hs, by rw [hf]; decide⟩

theorem Outcome.bind {x : CR Bool} {f : Bool → CR Bool} {P Q : Prop} (hx : Outcome x P)
    (ht : P → Outcome (f true) Q) (hf : ¬ P → Outcome (f false) False) :
    Outcome (x.bind f) (P ∧ Q) := by
  rcases hx with ⟨h, hp⟩ | ⟨h | h, hp⟩
  · have := ht hp
    simp only [Outcome, CR.bind, h] at this ⊢
    rcases this with ⟨h1, h2⟩ | ⟨h1, h2⟩
    · exact Or.inl ⟨h1, hp, h2⟩
    · exact Or.inr ⟨h1, fun h => h2 h.2⟩
  · have := hf hp
    simp only [Outcome, CR.bind, h] at this ⊢
    rcases this with ⟨h1, h2⟩ | ⟨h1, h2⟩
    · exact h2.elim
    · exact Or.inr ⟨h1, fun h => hp h.1⟩
  · right
    simp only [CR.bind, h]
    exact ⟨by simp, fun h => hp h.1⟩

theorem Outcome.congr {x : CR Bool} {P Q : Prop} (hx : Outcome x P) (h : P ↔ Q) : Outcome x Q := by
  unfold Outcome at *
  rwa [← h]

/-- all checks of the tuples directly in a value can be evaluated without internal exception -/
def TuplesJudgeable (C : CheckTab) (env : EvEnv) (v : FExpr) : Prop :=
  ∀ u gs, DirectTuple v u gs → ∀ c, TupleCheck C u c → Judgeable env gs c

/-- all checks of the tuples directly in a value pass -/
def TuplesPass (C : CheckTab) (env : EvEnv) (v : FExpr) : Prop :=
  ∀ u gs, DirectTuple v u gs → ∀ c, TupleCheck C u c → Passes env gs c

theorem mem_ofTup (C : CheckTab) (t : Nat) (c : Check) : c ∈ C.ofTup t ↔ TupleCheck C t c := by
  unfold CheckTab.ofTup TupleCheck
  cases C.tups[t]? <;> simp

mutual
/-- what the checks of the type of a component report for its value -/
theorem performType_outcome {D : Decls} {objTy : Nat → Option Nat} (C : CheckTab) (τ : Ty) :
    ∀ v : FExpr, (v = .inull ∨ FOk D objTy v τ) → TuplesJudgeable C env v →
      Outcome (performType C env τ v) (TuplesPass C env v)
  | .tup t fs, h, hj => by
    rcases h with h | h
    · cases h
    · simp only [FOk] at h
      obtain ⟨rfl, -⟩ := h
      simp only [performType]
      refine (performAll_outcome (k := tupleComposite fs) (C.ofTup t) (fun c hc => ?_) true).congr ?_
      · exact hj t fs .here c ((mem_ofTup C t c).1 hc)
      · constructor
        · rintro ⟨-, h⟩ u gs hd c hc
          cases hd
          exact h c ((mem_ofTup C t c).2 hc)
        · exact fun h => ⟨rfl, fun c hc => h t fs .here c ((mem_ofTup C t c).1 hc)⟩
  | .arr t es, h, hj => by
    rcases h with h | h
    · cases h
    · simp only [FOk] at h
      obtain ⟨rfl, id, elem, lo, hi, rfl, hall⟩ := h
      simp only [performType]
      refine (performElems_outcome C elem es hall (fun e he u gs hd => hj u gs (.elem he hd))).congr ?_
      constructor
      · intro h u gs hd
        cases hd with
        | elem he hd => exact h _ he u gs hd
      · exact fun h e he u gs hd => h u gs (.elem he hd)
  | .inull, _, _ => by
    refine Or.inl ⟨?_, fun u gs hd => by cases hd⟩
    cases τ <;> simp [performType, CR.pure]
  | .bool _, h, _ | .int _, h, _ | .dec _, h, _ | .str _, h, _ | .markup _, h, _ => by
    refine Or.inl ⟨?_, fun u gs hd => by cases hd⟩
    rcases h with h | h
    · cases h
    · simp only [FOk] at h
      subst h
      simp [performType, CR.pure]
  | .enum _ _, h, _ | .ref _ _, h, _ => by
    refine Or.inl ⟨?_, fun u gs hd => by cases hd⟩
    rcases h with h | h
    · cases h
    · simp only [FOk] at h
      obtain ⟨rfl, h⟩ := h
      first
        | simp [performType, CR.pure]; done
        | obtain ⟨o, u, -, -, h⟩ := h
          revert h
          cases τ <;> simp [performType, CR.pure, Referable]
  | .neg _, h, _ | .pos _, h, _ => by
    refine Or.inl ⟨?_, fun u gs hd => by cases hd⟩
    rcases h with h | h
    · cases h
    · simp only [FOk] at h
      rcases h with ⟨rfl, -⟩ | ⟨rfl, -⟩ <;> simp [performType, CR.pure]

/-- … for the elements of an array -/
theorem performElems_outcome {D : Decls} {objTy : Nat → Option Nat} (C : CheckTab) (elem : Ty) :
    ∀ es : List FExpr, AllOk D objTy es elem → (∀ e ∈ es, TuplesJudgeable C env e) →
      Outcome (performElems C env elem es) (∀ e ∈ es, TuplesPass C env e)
  | [], _, _ => Or.inl ⟨rfl, by simp⟩
  | v :: vs, h, hj => by
    simp only [AllOk] at h
    simp only [performElems]
    refine Outcome.congr (Outcome.bind
      (performType_outcome C elem v (Or.inr h.1) (hj v List.mem_cons_self))
      (fun _ => ?_) (fun _ => ?_)) (by simp : (TuplesPass C env v ∧ ∀ e ∈ vs, TuplesPass C env e) ↔ _)
    · simpa using performElems_outcome C elem vs h.2 (fun e he => hj e (List.mem_cons_of_mem _ he))
    · exact Or.inr ⟨Or.inl rfl, id⟩
end

theorem performComps_outcome {D : Decls} {objTy : Nat → Option Nat} (C : CheckTab) (fs : Fields)
    (cs : List Comp) (ok : Bool)
    (h : ∀ c ∈ cs, ∃ n, fs.lookup c.name = some n ∧ (n.expr = .inull ∨ FOk D objTy n.expr c.ty) ∧
      TuplesJudgeable C env n.expr) :
    Outcome (performComps C env fs cs ok) (ok = true ∧ ∀ c ∈ cs, ∀ n, fs.lookup c.name = some n →
      TuplesPass C env n.expr) := by
  induction cs generalizing ok with
  | nil => cases ok <;> simp [performComps, Outcome, CR.pure]
  | cons c cs ih =>
    obtain ⟨n, hn, hv, hj⟩ := h c List.mem_cons_self
    have ih := fun ok => ih ok (fun c hc => h c (List.mem_cons_of_mem _ hc))
    simp only [performComps, hn]
    have hb := Outcome.bind (performType_outcome C c.ty n.expr hv hj)
      (f := fun b => performComps C env fs cs (ok && b))
      (fun _ => by simpa using ih ok)
      (fun _ => by simpa using ih false)
    refine hb.congr ?_
    simp only [List.mem_cons, forall_eq_or_imp, hn, Option.some.injEq, forall_eq']
    constructor
    · rintro ⟨h1, h2, h3⟩; exact ⟨h2, h1, h3⟩
    · rintro ⟨h1, h2, h3⟩; exact ⟨h2, h1, h3⟩

/-- no check that is evaluated for the object ends with an internal exception -/
def ObjJudgeable (D : Decls) (C : CheckTab) (env : EvEnv) (fs : Fields) (t : Nat) : Prop :=
  (∀ c, AppliesTo D C t c → Judgeable env (recordCtx fs) c) ∧
  ∀ k n, fs.lookup k = some n → TuplesJudgeable C env n.expr

/-- **C27, C28, C29** for one object: the object passes iff every check of its type and of the
types it extends passes, and so does every check of the types of the tuples in its components,
directly or in arrays.

Missing from C29: tuples in tuples are never checked (`C29_nested_unchecked`), and after a failing
element of an array the remaining elements are not evaluated (`C29_array_stops`). -/
theorem C29_object_partial {D : Decls} {objTy : Nat → Option Nat} (wf : WFDecls D) (C : CheckTab)
    (fs : Fields) (t : Nat) (ho : ObjOk D objTy fs t) (hj : ObjJudgeable D C env fs t)
    (loc : String) (fieldLoc : String → String) :
    Outcome (performObject D C env fs loc fieldLoc t)
      ((∀ c, AppliesTo D C t c → Passes env (recordCtx fs) c) ∧
        ∀ k n, fs.lookup k = some n → TuplesPass C env n.expr) := by
  unfold performObject
  have h1 := performComps_outcome (env := env) (D := D) (objTy := objTy) C fs (D.allComponents t) true (by
    intro c hc
    obtain ⟨n, hn, hv⟩ := ho.1 c ((mem_allComponents wf t c).1 hc)
    exact ⟨n, hn, hv.imp (·.2) id, hj.2 _ n hn⟩)
  have h2 := fun ok => performAll_outcome (env := env) (k := recordComposite fs loc fieldLoc)
    (iterChecks D C D.recs.length t)
    (fun c hc => hj.1 c ((mem_iterChecks wf C t c).1 hc)) ok
  refine (Outcome.bind h1 (fun _ => h2 true) (fun _ => (h2 false).congr (by simp))).congr ?_
  constructor
  · rintro ⟨⟨-, h3⟩, -, h4⟩
    refine ⟨fun c hc => h4 c ((mem_iterChecks wf C t c).2 hc), fun k n hk => ?_⟩
    obtain ⟨c, hc, rfl⟩ := ho.2 k (by rw [hk]; rfl)
    exact h3 c ((mem_allComponents wf t c).2 hc) n hk
  · rintro ⟨h3, h4⟩
    exact ⟨⟨rfl, fun c _ n hn => h4 _ n hn⟩, rfl, fun c hc => h3 c ((mem_iterChecks wf C t c).1 hc)⟩

/-- **C28** for the checks of one object: after the messages about its tuples, what is reported are
the messages for the checks of its type and of the types it extends, base types first and in
declared order, up to the first check that stops the evaluation. -/
theorem C28_performed {D : Decls} (wf : WFDecls D) (C : CheckTab) (fs : Fields) (t : Nat)
    (hj : ∀ c, AppliesTo D C t c → Judgeable env (recordCtx fs) c)
    (loc : String) (fieldLoc : String → String) (ok : Bool)
    (hc : (performComps C env fs (D.allComponents t) true).out = .ok ok) :
    ∃ (ts : List Nat) (pre post : List Check) (l : List MHCall),
      (∀ s, s ∈ ts ↔ Extends D t s) ∧ ts.Pairwise (fun a b => Extends D b a ∧ a ≠ b) ∧
      (ts.flatMap fun s => (C.recs[s]?).getD []) = pre ++ post ∧
      CheckMessages env ⟨recordCtx fs, loc, fieldLoc⟩ pre l ∧
      (performObject D C env fs loc fieldLoc t).calls =
        (performComps C env fs (D.allComponents t) true).calls ++ l ∧
      (post = [] ∨ ∃ c, pre.getLast? = some c ∧ Stops env (recordCtx fs) c) := by
  obtain ⟨ts, h1, h2, h3⟩ := C28_base_first wf C t
  have hcalls : (performObject D C env fs loc fieldLoc t).calls =
      (performComps C env fs (D.allComponents t) true).calls ++
        (performAll env ⟨recordCtx fs, loc, fieldLoc⟩ (iterChecks D C D.recs.length t) ok).calls := by
    unfold performObject CR.bind
    simp only [hc]
    rfl
  rcases C27_checks_of_object (env := env) (k := ⟨recordCtx fs, loc, fieldLoc⟩)
    (iterChecks D C D.recs.length t)
    (fun c hm => hj c ((mem_iterChecks wf C t c).1 hm)) ok with ⟨-, h, -⟩ | ⟨pre, c, post, e, -, hs, hm, -⟩
  · exact ⟨ts, _, [], _, h1, h2, by rw [h3, List.append_nil], h, hcalls, Or.inl rfl⟩
  · exact ⟨ts, pre ++ [c], post, _, h1, h2, by rw [← h3, e, List.append_assoc]; rfl, hm, hcalls,
      Or.inr ⟨c, by simp, hs⟩⟩

/-! ## All objects -/

/-- **C62**: what is reported for one object does not depend on the other objects: the messages of
a run are those of the objects one after the other, and the run passes iff every object does. -/
theorem C62_independent (s : PS) (C : CheckTab) (env : EvEnv) (L : Locs) (os : List Nat) (ok : Bool)
    (h : ∀ o ∈ os, ∀ c, (performOne s C env L o).out ≠ .crash c) :
    (performObjects s C env L os ok).calls = os.flatMap (fun o => (performOne s C env L o).calls) ∧
    ∃ b, (performObjects s C env L os ok).out = .ok b ∧
      (b = true ↔ ok = true ∧ ∀ o ∈ os, (performOne s C env L o).out = .ok true) := by
  induction os generalizing ok with
  | nil => exact ⟨rfl, ok, rfl, by simp⟩
  | cons o os ih =>
    have ih := fun ok => ih ok (fun o ho => h o (List.mem_cons_of_mem _ ho))
    have ho := h o List.mem_cons_self
    have hr : (performOne s C env L o).out ≠ .raised := by
      unfold performOne
      split
      · dsimp only
        split
        · simp
        · next h => exact h
      · simp [CR.pure]
    cases hout : (performOne s C env L o).out with
    | ok b =>
      obtain ⟨h1, b', h2, h3⟩ := ih (ok && b)
      refine ⟨?_, b', ?_, ?_⟩
      · simp [performObjects, CR.bind, hout, h1]
      · simp [performObjects, CR.bind, hout, h2]
      · rw [h3]
        simp [hout, and_assoc]
    | raised => exact absurd hout hr
    | crash c => exact absurd hout (ho c)

/-- Every check was accepted in a check block for its type, without `[]`, with quantifiers over
bodies that are never null, and without ambiguous access to fields of unions (see
`C16_record_check_partial`). -/
structure ChecksAccepted (E : ElEnv) (C : CheckTab) : Prop where
  recs : ∀ t cs c, C.recs[t]? = some cs → c ∈ cs → ∃ other enums r,
    elabCheck E (.ofRecord E.decls t other enums) r = .ok c.expr ∧
      Side E.decls False False (recordΓ E.decls t) c.expr
  tups : ∀ t cs c, C.tups[t]? = some cs → c ∈ cs → ∃ other enums r,
    elabCheck E (.ofTuple E.decls t other enums) r = .ok c.expr ∧
      Side E.decls False False (tupleΓ E.decls t) c.expr

theorem directTuple_ok {D : Decls} {objTy : Nat → Option Nat} {v : FExpr} {u : Nat}
    {gs : List (String × FExpr)} (hd : DirectTuple v u gs) :
    ∀ {τ : Ty}, FOk D objTy v τ → ∃ cs, D.tups[u]? = some cs ∧ FieldsOk D objTy gs cs := by
  induction hd with
  | here =>
    intro τ h
    simp only [FOk] at h
    exact h.2
  | @elem τ' es e t fs he _ ih =>
    intro τ h
    simp only [FOk] at h
    obtain ⟨-, id, elem, lo, hi, -, hall⟩ := h
    have : ∀ es : List FExpr, AllOk D objTy es elem → ∀ e ∈ es, FOk D objTy e elem := by
      intro es
      induction es with
      | nil => simp
      | cons x xs ih => intro h; simp only [AllOk] at h; simpa [h.1] using ih h.2
    exact ih (this es hall e he)

/-- Checks that were accepted can be evaluated for every conforming object. -/
theorem accepted_judgeable {E : ElEnv} {objTy : Nat → Option Nat} {heap : Nat → Option Fields}
    {C : CheckTab} (wf : WFDecls E.decls) (un : UniqueNames E.decls)
    (hh : HeapOk E.decls objTy heap) (hC : ChecksAccepted E C) {o t : Nat} {fs : Fields}
    (ht : objTy o = some t) (hfs : heap o = some fs) :
    ObjJudgeable E.decls C ⟨heap, E.rx⟩ fs t := by
  obtain ⟨fs', h1, ho⟩ := hh o t ht
  rw [hfs] at h1
  cases h1
  constructor
  · rintro c ⟨s, cs, hs, hl, hc⟩
    obtain ⟨other, enums, r, he, hside⟩ := hC.recs s cs c hl hc
    rcases (C16_record_check_partial wf un hh s t o hs fs ht hfs other enums r c.expr he hside).1 with
      ⟨b, h⟩ | h | ⟨x, h⟩
    · cases b
      · exact Or.inr (Or.inl ⟨_, h⟩)
      · exact Or.inl ⟨_, h⟩
    · exact Or.inr (Or.inr (Or.inl ⟨_, h⟩))
    · exact Or.inr (Or.inr (Or.inr ⟨x, h⟩))
  · intro k n hk u gs hd c hc
    obtain ⟨cs, hl, hc⟩ := hc
    obtain ⟨other, enums, r, he, hside⟩ := hC.tups u cs c hl hc
    obtain ⟨comp, hcomp, rfl⟩ := ho.2 k (by rw [hk]; rfl)
    obtain ⟨n', hn', hv⟩ := ho.1 comp hcomp
    rw [hk] at hn'
    cases hn'
    have hv : FOk E.decls objTy n.expr comp.ty := by
      rcases hv with ⟨-, hv⟩ | hv
      · rw [hv] at hd; cases hd
      · exact hv
    obtain ⟨fcs, hfcs, hf⟩ := directTuple_ok hd hv
    rcases (C16_tuple_check_partial wf un hh u fcs gs hfcs hf other enums r c.expr he hside).1 with
      ⟨b, h⟩ | h | ⟨x, h⟩
    · cases b
      · exact Or.inr (Or.inl ⟨_, h⟩)
      · exact Or.inl ⟨_, h⟩
    · exact Or.inr (Or.inr (Or.inl ⟨_, h⟩))
    · exact Or.inr (Or.inr (Or.inr ⟨x, h⟩))

/-- **C63**: after a successful run over the trlc files and successful resolution of references,
performing the checks ends without internal exception, and it passes iff for every object all
checks of its type and of the types it extends pass, and all checks of the tuples in its
components (directly or in arrays) pass.

Missing: checks with `[]` and the others excluded by `ChecksAccepted` may end with an internal
exception, and tuples in tuples are not checked. -/
theorem C63_all_checks_partial {fs : List OpenFile} {s s' : PS} {global : STab} {E : ElEnv}
    {C : CheckTab} (hE : E.decls = s.decls) (hw : WorldOk s.decls s.infos)
    (un : UniqueNames s.decls) (h0 : NoObjects s) (hp : PkgsKnown global s)
    (hC : ChecksAccepted E C) (h : runTrlcFiles fs s = .ok true s')
    (hr : s'.resolveAll global = []) (L : Locs) :
    ∃ b, (performChecks s' global C E.rx L).out = .ok b ∧
      (b = true ↔ ∀ (i : Nat) (ob : Obj) (gs : Fields), s'.objs[i]? = some ob →
        s'.heap i = some gs →
        (∀ c, AppliesTo s.decls C ob.typ c → Passes ⟨s'.heap, E.rx⟩ (recordCtx gs) c) ∧
        ∀ k n, gs.lookup k = some n → TuplesPass C ⟨s'.heap, E.rx⟩ n.expr) := by
  have hk := run_kept hw h
  have hheap := C35_heap hw h0 hp h hr
  have one : ∀ (i : Nat) (ob : Obj) (gs : Fields), s'.objs[i]? = some ob → s'.heap i = some gs →
      Outcome (performObject s'.decls C ⟨s'.heap, E.rx⟩ gs (L.obj i) (L.field i) ob.typ)
        ((∀ c, AppliesTo s.decls C ob.typ c → Passes ⟨s'.heap, E.rx⟩ (recordCtx gs) c) ∧
          ∀ k n, gs.lookup k = some n → TuplesPass C ⟨s'.heap, E.rx⟩ n.expr) := by
    intro i ob gs hob hgs
    have ht : s'.objTy i = some ob.typ := by simp [PS.objTy, hob]
    rw [hk.decls]
    obtain ⟨gs', h1, h2⟩ := hheap i _ ht
    rw [hgs] at h1
    cases h1
    have hj := accepted_judgeable (E := E) (by rw [hE]; exact hw.wf) (by rw [hE]; exact un)
      (by rw [hE]; exact hheap) hC ht hgs
    rw [hE] at hj
    exact C29_object_partial hw.wf C gs ob.typ h2 hj _ _
  have nocrash : ∀ o ∈ s'.visited global, ∀ c,
      (performOne s' C ⟨s'.heap, E.rx⟩ L o).out ≠ .crash c := by
    intro o _ c
    unfold performOne
    split
    · next ob gs hob hgs =>
      have := one o ob gs hob hgs
      dsimp only
      split
      · simp
      · rcases this with ⟨h, -⟩ | ⟨h | h, -⟩ <;> rw [h] <;> simp
    · simp [CR.pure]
  obtain ⟨-, b, hb, hiff⟩ := C62_independent s' C ⟨s'.heap, E.rx⟩ L (s'.visited global) true nocrash
  refine ⟨b, hb, ?_⟩
  rw [hiff]
  constructor
  · rintro ⟨-, hall⟩ i ob gs hob hgs
    have hv := hall i (visited_all (hk.inv h0.tabInv) (pkgsKnown_kept hk hp) hob)
    have ho := one i ob gs hob hgs
    rcases ho with ⟨-, h⟩ | ⟨h, -⟩
    · exact h
    · exfalso
      unfold performOne at hv
      rw [hob] at hv
      simp only [hgs] at hv
      rcases h with h | h <;> rw [h] at hv <;> simp [h] at hv
  · intro hall
    refine ⟨rfl, fun o _ => ?_⟩
    unfold performOne
    split
    · next ob gs hob hgs =>
      have := one o ob gs hob hgs
      dsimp only
      rcases this with ⟨h, -⟩ | ⟨-, h⟩
      · simp only [h]
      · exact absurd (hall o ob gs hob hgs) h
    · rfl

/-! ## Where C29 fails -/

/-- the full claim of C29 about objects that pass -/
def C29_passing_full : Prop :=
  ∀ (D : Decls) (objTy : Nat → Option Nat) (C : CheckTab) (env : EvEnv) (fs : Fields) (t : Nat),
    WFDecls D → ObjOk D objTy fs t → ObjJudgeable D C env fs t →
    (performObject D C env fs "" (fun _ => "") t).out = .ok true →
    ∀ k n, fs.lookup k = some n → ∀ u gs, TupleIn n.expr u gs →
      ∀ c, TupleCheck C u c → ¬ (Fails env gs c ∧ c.sev = .error)

/-- the full claim of C29 about objects that do not pass, for tuples that are no part of other
tuples: if nothing stops the evaluation every failing check is reported -/
def C29_reported_full : Prop :=
  ∀ (D : Decls) (objTy : Nat → Option Nat) (C : CheckTab) (env : EvEnv) (fs : Fields) (t : Nat),
    WFDecls D → ObjOk D objTy fs t → ObjJudgeable D C env fs t →
    (performObject D C env fs "" (fun _ => "") t).out ≠ .raised →
    ∀ k n, fs.lookup k = some n → ∀ u gs, DirectTuple n.expr u gs →
      ∀ c, TupleCheck C u c → Fails env gs c → c.sev = .error →
        ∃ loc, MHCall.error loc c.msg false true ∈
          (performObject D C env fs "" (fun _ => "") t).calls

/-- `tuple Inner { x Integer }`, `tuple Outer { i Inner }`,
`type T { o Outer }`, `type A { a Inner [0 .. *] }` -/
def tupDecls : Decls :=
  { recs := [⟨none, [⟨"o", .tup 1, false, .record 0⟩]⟩,
      ⟨none, [⟨"a", .arr 0 (.tup 0) 0 none, false, .record 1⟩]⟩]
    tups := [[⟨"x", .int, false, .tup 0⟩], [⟨"i", .tup 0, false, .tup 1⟩]]
    enums := [] }

/-- `x > 0, "first"` -/
def checkPos : Check := ⟨.binary (some .bool) .gt (.name "x" .int) (.int 0), .error, "first", none⟩
/-- `x < 10, "second"` -/
def checkSmall : Check := ⟨.binary (some .bool) .lt (.name "x" .int) (.int 10), .error, "second", none⟩

/-- `checks Inner { x > 0, "first"  x < 10, "second" }` -/
def tupChecks : CheckTab := { recs := [], tups := [[checkPos, checkSmall]] }

def noEnv : EvEnv := ⟨fun _ => none, fun _ _ => false⟩

/-- a value of type `Inner` -/
def inner (i : Int) : FExpr := .tup 0 [("x", .int i)]

theorem tupDecls_wf : WFDecls tupDecls := by
  rintro t p ⟨r, h, hp⟩
  rcases t with _ | _ | t
  · simp [tupDecls] at h; subst h; simp at hp
  · simp [tupDecls] at h; subst h; simp at hp
  · simp [tupDecls] at h

theorem hasComp_tup {t : Nat} {c : Comp} (h : HasComp tupDecls t c) :
    (t = 0 ∧ c = ⟨"o", .tup 1, false, .record 0⟩) ∨
    (t = 1 ∧ c = ⟨"a", .arr 0 (.tup 0) 0 none, false, .record 1⟩) := by
  have h := (mem_allComponents tupDecls_wf t c).2 h
  rcases t with _ | _ | t
  · left; simpa [tupDecls, Decls.allComponents, Decls.ancestors, Decls.chain, Decls.own] using h
  · right; simpa [tupDecls, Decls.allComponents, Decls.ancestors, Decls.chain, Decls.own] using h
  · rw [Decls.allComponents, ancestors_undeclared (by simp [tupDecls])] at h
    simp at h

theorem tup_hasComp : HasComp tupDecls 0 ⟨"o", .tup 1, false, .record 0⟩ ∧
    HasComp tupDecls 1 ⟨"a", .arr 0 (.tup 0) 0 none, false, .record 1⟩ :=
  ⟨⟨0, .refl (by decide), _, rfl, by simp⟩, ⟨1, .refl (by decide), _, rfl, by simp⟩⟩

theorem tup_judged (i : Int) (c : Check) (h : TupleCheck tupChecks 0 c) :
    Judgeable noEnv [("x", .int i)] c := by
  obtain ⟨cs, h1, h2⟩ := h
  simp only [tupChecks, List.getElem?_cons_zero, Option.some.injEq] at h1
  subst h1
  have : ∀ b, (∃ t, c.expr.eval noEnv (some [("x", .int i)]) = .ok ⟨t, .bool b⟩) →
      Judgeable noEnv [("x", .int i)] c := by
    intro b h
    cases b
    · exact Or.inr (Or.inl h)
    · exact Or.inl h
  simp only [List.mem_cons, List.not_mem_nil, or_false] at h2
  rcases h2 with rfl | rfl
  · refine this (decide (0 < i)) ⟨some .bool, ?_⟩
    simp [checkPos, Expr.eval, List.lookup, FExpr.eval, mkValue, Val.isNull, Ev.bind,
      BinOp.allowsNull, binaryOp, numPair, compareNum]
  · refine this (decide (i < 10)) ⟨some .bool, ?_⟩
    simp [checkSmall, Expr.eval, List.lookup, FExpr.eval, mkValue, Val.isNull, Ev.bind,
      BinOp.allowsNull, binaryOp, numPair, compareNum]

/-- **C29** fails for tuples in tuples: `T t { o = ((0)) }` passes although the check `x > 0` of
`Inner` fails for its value (`trlc/ast.py:3094-3107` does not look into the fields). -/
theorem C29_nested_unchecked : ¬ C29_passing_full := by
  intro hfull
  have := hfull tupDecls (fun _ => none) tupChecks noEnv
    [("o", ⟨0, .tup 1 [("i", inner 0)]⟩)] 0 tupDecls_wf ?_ ?_ ?_ "o" _ rfl 0 _
    (.nested (List.mem_singleton.2 rfl) .here) checkPos ⟨_, rfl, by simp⟩
  · refine this ⟨⟨some .bool, ?_⟩, rfl⟩
    simp [checkPos, Expr.eval, List.lookup, FExpr.eval, mkValue, Val.isNull, Ev.bind,
      BinOp.allowsNull, binaryOp, numPair, compareNum]
  · constructor
    · intro c hc
      rcases hasComp_tup hc with ⟨-, rfl⟩ | ⟨h, -⟩
      · exact ⟨_, rfl, Or.inr ⟨rfl, _, rfl, by simp [FieldsOk, FieldOk, inner, FOk, tupDecls]⟩⟩
      · cases h
    · intro k hk
      by_cases h : k = "o"
      · exact ⟨_, tup_hasComp.1, h.symm⟩
      · simp [List.lookup] at hk
        have : (k == "o") = false := by simpa using h
        simp [this] at hk
  · constructor
    · rintro c ⟨s, cs, -, h, -⟩
      simp [tupChecks] at h
    · intro k n hk u gs hd c hc
      simp only [List.lookup_cons, List.lookup_nil] at hk
      split at hk
      · injection hk with hk
        subst hk
        cases hd
        obtain ⟨cs, h, -⟩ := hc
        simp [tupChecks] at h
      · cases hk
  · simp [performObject, performComps, tupDecls, Decls.allComponents, Decls.ancestors, Decls.chain,
      Decls.own, performType, CheckTab.ofTup, tupChecks, performAll, CR.pure, CR.bind, iterChecks,
      CheckTab.ofRec, List.lookup]

/-- **C29** fails for arrays: in `A x { a = [(0), (10)] }` the first element fails the check
`x > 0`, the second one fails `x < 10`, and only the first is reported (`trlc/ast.py:2570-2571`:
`all` stops at the first element that does not pass). -/
theorem C29_array_stops : ¬ C29_reported_full := by
  intro hfull
  have hp : performObject tupDecls tupChecks noEnv
      [("a", ⟨0, .arr (.arr 0 (.tup 0) 0 none) [inner 0, inner 10]⟩)] "" (fun _ => "") 1 =
      ⟨[.error "" "first" false true], .ok false⟩ := by
    simp [performObject, performComps, tupDecls, Decls.allComponents, Decls.ancestors, Decls.chain,
      Decls.own, performType, performElems, CheckTab.ofTup, tupChecks, performAll, CR.pure, CR.bind,
      iterChecks, CheckTab.ofRec, List.lookup, performCheck, checkPos, checkSmall, Expr.eval, inner,
      FExpr.eval, mkValue, Val.isNull, Ev.bind, BinOp.allowsNull, binaryOp, numPair, compareNum,
      tupleComposite, Check.location]
  have hr := hfull tupDecls (fun _ => none) tupChecks noEnv
    [("a", ⟨0, .arr (.arr 0 (.tup 0) 0 none) [inner 0, inner 10]⟩)] 1 tupDecls_wf ?_ ?_ ?_ "a" _ rfl 0 _
    (.elem (by simp; exact Or.inr rfl) .here) checkSmall ⟨_, rfl, by simp⟩ ⟨some .bool, ?_⟩ rfl
  · obtain ⟨loc, h⟩ := hr
    rw [hp] at h
    simp [checkSmall] at h
  · constructor
    · intro c hc
      rcases hasComp_tup hc with ⟨h, -⟩ | ⟨-, rfl⟩
      · cases h
      · exact ⟨_, rfl, Or.inr ⟨rfl, _, _, _, _, rfl,
          by simp [AllOk, FieldsOk, FieldOk, inner, FOk, tupDecls]⟩⟩
    · intro k hk
      by_cases h : k = "a"
      · exact ⟨_, tup_hasComp.2, h.symm⟩
      · simp [List.lookup] at hk
        have : (k == "a") = false := by simpa using h
        simp [this] at hk
  · constructor
    · rintro c ⟨s, cs, -, h, -⟩
      simp [tupChecks] at h
    · intro k n hk u gs hd c hc
      simp only [List.lookup_cons, List.lookup_nil] at hk
      split at hk
      · injection hk with hk
        subst hk
        cases hd with
        | elem he hd =>
          simp only [List.mem_cons, List.not_mem_nil, or_false] at he
          rcases he with rfl | rfl <;> (cases hd; exact tup_judged _ c hc)
      · cases hk
  · rw [hp]; simp
  · have h10 : ((10 : Rat) < 10) = False := by simp
    simp [checkSmall, Expr.eval, List.lookup, FExpr.eval, mkValue, Val.isNull, Ev.bind,
      BinOp.allowsNull, binaryOp, numPair, compareNum, h10]

/-! ## Examples -/

/-- a warning, an error and a fatal check that fail, and one more -/
example : performAll noEnv { ctx := [("x", .int 0)], loc := "here", fieldLoc := fun n => n }
    [{ checkPos with sev := .warning, anchor := some "x" }, checkPos, checkSmall,
      { checkPos with sev := .fatal }, checkPos] true =
    ⟨[.warning "x" "first" true, .error "here" "first" false true,
      .error "here" "first" true true], .raised⟩ := by
  simp [performAll, CR.pure, CR.bind, List.lookup, performCheck, checkPos, checkSmall, Expr.eval,
    FExpr.eval, mkValue, Val.isNull, Ev.bind, BinOp.allowsNull, binaryOp, numPair, compareNum,
    Check.location]

/-- `C` extends `B` extends `A`, with one check each -/
example : (iterChecks decls3 ⟨[[checkPos], [checkSmall], [{ checkPos with msg := "last" }]], []⟩ 3 2).map
    (·.msg) = ["first", "second", "last"] := by
  simp [iterChecks, decls3, CheckTab.ofRec, checkPos, checkSmall]

/-- checks for the sample world: `checks Base { kind == null or kind != Color.green, warning "w" }`,
`checks Pair { a > 0, "positive" }` -/
def sampleChecks : CheckTab :=
  { recs := [[⟨.logic .or (.binary (some .bool) .eq (.name "kind" (.enum 0)) .null)
      (.binary (some .bool) .neq (.name "kind" (.enum 0)) (.enum 0 "green")), .warning, "w", some "kind"⟩]]
    tups := [[⟨.binary (some .bool) .gt (.name "a" .int) (.int 0), .error, "positive", none⟩]] }

theorem sampleChecks_accepted : ChecksAccepted (envOf Sample.decls) sampleChecks := by
  constructor
  · intro t cs c h hc
    rcases t with _ | t
    · simp only [sampleChecks, List.getElem?_cons_zero, Option.some.injEq] at h
      subst h
      rw [List.mem_singleton] at hc
      subst hc
      exact ⟨fun _ => false, fun p => if p = ["Color"] then some 0 else none,
        .logic .or (.cmp .eq (.name "kind") .null) (.cmp .neq (.name "kind") (.enumLit ["Color"] "green")),
        rfl, by simp [Side]⟩
    · simp [sampleChecks] at h
  · intro t cs c h hc
    rcases t with _ | t
    · simp only [sampleChecks, List.getElem?_cons_zero, Option.some.injEq] at h
      subst h
      rw [List.mem_singleton] at hc
      subst hc
      exact ⟨fun _ => false, fun _ => none, .cmp .gt (.name "a") (.int 0), rfl, by simp [Side]⟩
    · simp [sampleChecks] at h

example : ∃ s', runTrlcFiles Sample.files Sample.start = .ok true s' ∧
    s'.resolveAll Sample.global = [] ∧
    ∃ b, (performChecks s' Sample.global sampleChecks (fun _ _ => false) ⟨fun _ => "", fun _ _ => ""⟩).out
      = .ok b := by
  obtain ⟨s', h, -, hr⟩ := sample_resolves
  obtain ⟨b, hb, -⟩ := C63_all_checks_partial (E := envOf Sample.decls) rfl Sample.world
    Sample.world.unique Sample.noObjects Sample.pkgsKnown sampleChecks_accepted h hr ⟨fun _ => "", fun _ _ => ""⟩
  exact ⟨s', h, hr, b, hb⟩

end Verif.Props
