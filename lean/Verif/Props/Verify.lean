import Verif.Lemmas.Vcg.NoCrash2
import Verif.Lemmas.TrlcAccepts
import Verif.Model.Vcg.Declared
import Verif.Props.Analysis
import Verif.Props.Runs
import Verif.Props.Lint
import Verif.Props.RunSamples
/-!
# C78: the verification of checks ends without internal exception
-/
namespace Verif.Props
open Verif.Model Verif.Spec Verif.Lemmas Verif.Lemmas.Vcg

variable {nest : Bool}

/-- types whose values are literals or signed numbers -/
def Scalar : Ty → Prop
  | .bool | .int | .dec | .str | .markup | .enum _ => True
  | _ => False

/-- What keeps the verification of a type from failing: in its checks, own and inherited, the bodies of
quantifiers contain no division, remainder, index, range test or `oneof`; neither do the checks of the
tuple types of components, except warnings.  If `nest` is false, moreover, there are no quantifiers in
these places, and frozen components are not of a tuple, array or reference type. -/
structure Verifiable (s : PS) (nest : Bool) (ct : CompositeTy) : Prop where
  own : ∀ c, (match ct with | .record t => ∃ a, Extends s.decls t a ∧ CkIn s.checks (.record a) c | .tup t => CkIn s.checks (.tup t) c) →
    Plain nest c.expr
  tuples : ∀ d ∈ s.decls.componentsOf ct, ∀ u, d.ty = .tup u → ∀ c, CkIn s.checks (.tup u) c → c.sev ≠ .warning → Direct nest c.expr
  frozen : nest = false → ∀ t, ct = .record t → ∀ d ∈ s.decls.componentsOf ct, s.isFrozen t d.name = true → Scalar d.ty

/-! ### Declarations of a type -/

theorem suffixTerms_calm (base : Smt) : ∀ cs : List Comp, OptionalTail cs → FR.Calm nest (suffixTerms base cs) fun _ => True
  | [], _ => FR.calm_ok trivial
  | c :: cs, h => by
    unfold suffixTerms
    split
    · next ho =>
      split
      · exact FR.calm_ok trivial
      · next d ds =>
        have : (d :: ds).all (·.optional) = true := by
          rw [List.all_eq_true]
          exact fun x hx => h.1 ho x hx
        rw [if_pos this]
        exact (suffixTerms_calm base (d :: ds) h.2).bind fun _ _ => FR.calm_ok trivial
    · exact suffixTerms_calm base cs h.2

theorem frozenTerm_calm {D : Decls} (v : PVal) (τ : Ty) (h : VOk D v τ) (hs : nest = false → Scalar τ) :
    FR.Calm nest (frozenTerm v.frozenExpr) fun _ => True := by
  have un : (nest = false → False) → FR.Calm nest (.unsupported : FR Smt) fun _ => True :=
    fun h => ⟨by simp, fun e => (h e).elim, by simp⟩
  cases v <;> simp only [VOk] at h
  case neg e =>
    rcases h with ⟨-, i, rfl⟩ | ⟨-, i, rfl⟩ <;> exact FR.calm_ok trivial
  case pos e =>
    rcases h with ⟨-, i, rfl⟩ | ⟨-, i, rfl⟩ <;> exact FR.calm_ok trivial
  case arr t es =>
    obtain ⟨rfl, id, elem, lo, hi, rfl, -⟩ := h
    exact un fun e => by simpa [Scalar] using hs e
  case tup t es =>
    obtain ⟨rfl, -⟩ := h
    exact un fun e => by simpa [Scalar] using hs e
  case ref t es =>
    obtain ⟨rfl, h⟩ := h
    refine un fun e => ?_
    have := hs e
    revert h this
    cases τ <;> simp [Scalar, RefTy]
  all_goals exact FR.calm_ok trivial

variable {T : TrEnv} {C : CheckTab}

theorem tupleChecks_calm (hd : ∀ t c, HasComp T.decls t c → ∃ d, T.decls.component t c.name = some d) {Γ : Gamma} {ρ : NameTrs} (hb : Bound Γ ρ) :
    ∀ cs : List Check, (∀ c ∈ cs, c.sev ≠ .warning → WT T.decls T.rx Γ c.expr ∧ Formed T.rx c.expr ∧ Direct nest c.expr ∧ c.expr.typ ≠ none) →
    FR.Calm nest (tupleCheckTerms T ρ cs) fun _ => True
  | [], _ => FR.calm_ok trivial
  | c :: cs, h => by
    unfold tupleCheckTerms
    have ih := tupleChecks_calm hd hb cs fun c hc => h c (List.mem_cons_of_mem _ hc)
    split
    · exact ih
    · next hs =>
      obtain ⟨h1, h2, h3, h4⟩ := h c List.mem_cons_self hs
      exact (trF_calm hd c.expr Γ ρ h1 h2 h3 hb).bind fun p hp => (FR.calm_need (hp.get h4)).bind fun _ _ => ih.bind fun _ _ => FR.calm_ok trivial

theorem preamble_calm {frozen : String → Option FExpr} : ∀ cs : List Comp,
    (∀ c ∈ cs, FR.Calm nest (frozenValue frozen c) fun _ => True) → (∀ c ∈ cs, FR.Calm nest (compConstraints T C c) fun _ => True) →
    FR.Calm nest (preamble T C frozen cs) fun _ => True
  | [], _, _ => FR.calm_ok trivial
  | c :: cs, h1, h2 => by
    unfold preamble componentStmts
    exact ((h1 c List.mem_cons_self).bind fun _ _ => (h2 c List.mem_cons_self).bind fun _ _ => FR.calm_ok (P := fun _ => True) trivial).bind
      fun _ _ => (preamble_calm cs (fun c hc => h1 c (List.mem_cons_of_mem _ hc)) fun c hc => h2 c (List.mem_cons_of_mem _ hc)).bind
      fun _ _ => FR.calm_ok trivial

theorem trChecks_calm {ρ : NameTrs} (phase : Bool) : ∀ cs : List (Bool × Check),
    (∀ x ∈ cs, ∀ em, Calm nest (x.2.expr.tr T em ρ) (Defd x.2.expr) ∧ x.2.expr.typ ≠ none) → Calm nest (trChecks T ρ phase cs) fun _ => True
  | [], _ => calm_pure trivial
  | (own, c) :: cs, h => by
    unfold trChecks
    have ih := trChecks_calm phase cs fun x hx => h x (List.mem_cons_of_mem _ hx)
    split
    · exact ih
    · obtain ⟨h1, h2⟩ := h (own, c) List.mem_cons_self own
      have hf : ∀ a, Calm nest (checkFeasible own c.expr a) fun _ => True := by
        intro a
        unfold checkFeasible
        split
        · exact calm_attachAside
        · exact calm_pure trivial
      have hc : Calm nest (trCheck T ρ own c.expr) fun _ => True := by
        unfold trCheck
        exact h1.bind fun p hp => calm_valid.bind fun _ _ => (calm_need (hp.get h2)).bind fun a _ => (hf a).bind fun _ _ => calm_attach
      have ho : Calm nest (trOne T ρ own c) fun _ => True := by
        unfold trOne
        refine calm_getStart.bind fun _ _ => hc.bind fun _ _ => ?_
        split
        · exact calm_pure trivial
        · exact calm_setStart
      exact ho.bind fun _ _ => ih

theorem vcgGraph_calm {v : VcgType} (h1 : FR.Calm nest (preamble T C v.frozen v.comps) fun _ => True)
    (h2 : ∀ x ∈ v.checks, ∀ em, Calm nest (x.2.expr.tr T em (compTrs v.comps)) (Defd x.2.expr) ∧ x.2.expr.typ ≠ none) :
    Calm nest (vcgGraph T C v) fun _ => True := by
  unfold vcgGraph
  exact (calm_lift h1).bind fun _ _ => calm_attach.bind fun _ _ => (trChecks_calm false _ h2).bind fun _ _ => trChecks_calm true _ h2

/-! ### Declared types -/

theorem mem_ofRec_ck {C : CheckTab} {t : Nat} {c : Check} : c ∈ C.ofRec t ↔ CkIn C (.record t) c := by
  unfold CheckTab.ofRec CkIn
  cases h : C.recs[t]? <;> simp [h]

theorem mem_ofTup_ck {C : CheckTab} {t : Nat} {c : Check} : c ∈ C.ofTup t ↔ CkIn C (.tup t) c := by
  unfold CheckTab.ofTup CkIn
  cases h : C.tups[t]? <;> simp [h]

/-- accepted checks are well-typed, formed, and Boolean -/
theorem acc_wt {D : Decls} {rx : Regex} {ct : CompositeTy} {c : Check} (wf : WFDecls D) (h : AccIn D rx ct c) :
    WT D rx.search (fun n => (D.compIn ct n).map fun c => (c.ty, c.optional)) c.expr ∧ Formed rx.search c.expr ∧ c.expr.typ ≠ none := by
  obtain ⟨-, ⟨other, enums, r, -, hr⟩, -⟩ := h
  obtain ⟨h1, h2⟩ := elabCheck_ok hr
  refine ⟨?_, elab_formed r _ _ h1, by simp [h2]⟩
  have := elab_wt (E := ⟨D, rx.search, rx.valid⟩) wf r _ _ h1
  have e : scopeΓ ⟨D.compIn ct, [], other, enums⟩ = fun n => (D.compIn ct n).map fun c => (c.ty, c.optional) := by
    funext n
    simp only [scopeΓ, List.lookup_nil]
  rwa [e] at this

theorem find_fields {D : Decls} {t : Nat} : Bound (fun n => (D.compIn (.tup t) n).map fun c => (c.ty, c.optional)) (compTrs (D.fields t)) := by
  intro n τ b h
  simp only [Decls.compIn] at h
  simp only [compTrs]
  cases hf : (D.fields t).find? (·.name == n) with
  | none => rw [hf] at h; cases h
  | some c => rw [hf] at h; cases h; exact ⟨_, rfl, rfl⟩

theorem find_base {D : Decls} {t : Nat} {base : Smt} :
    Bound (fun n => (D.compIn (.tup t) n).map fun c => (c.ty, c.optional)) (tupleNames D t base) := by
  intro n τ b h
  simp only [Decls.compIn] at h
  simp only [tupleNames]
  cases hf : (D.fields t).find? (·.name == n) with
  | none => rw [hf] at h; cases h
  | some c => rw [hf] at h; cases h; exact ⟨_, rfl, rfl⟩

theorem find_comps {D : Decls} {infos : List RecInfo} (hw : WorldOk D infos) {t a : Nat} (he : Extends D t a) :
    Bound (fun n => (D.compIn (.record a) n).map fun c => (c.ty, c.optional)) (compTrs (D.allComponents t)) := by
  intro n τ b h
  simp only [Decls.compIn] at h
  simp only [compTrs]
  cases hf : D.component a n with
  | none => rw [hf] at h; cases h
  | some c =>
    rw [hf] at h
    cases h
    obtain ⟨⟨u, hu, hd⟩, rfl⟩ := component_hasComp hw.wf hf
    have hc : HasComp D t c := ⟨u, extends_trans he hu, hd⟩
    cases hg : (D.allComponents t).find? (·.name == c.name) with
    | none =>
      have := List.find?_eq_none.1 hg c ((mem_allComponents hw.wf t c).2 hc)
      simp at this
    | some d =>
      obtain ⟨h1, h2⟩ := Vcg.find_mem hg
      have := hw.unique t d c ((mem_allComponents hw.wf t d).1 h1) hc h2
      subst this
      exact ⟨_, rfl, rfl⟩

/-- the verification of a type whose declarations and checks were accepted -/
theorem verify_calm {s : PS} {rx : Regex} (hs : SoundDecls s.decls s.infos s.seps) (ha : AllAcc rx s) (ct : CompositeTy)
    (hv : Verifiable s nest ct) : Calm nest (s.verify rx.search ct) fun _ => True := by
  have hw := hs.world
  have hd : ∀ t c, HasComp s.decls t c → ∃ d, s.decls.component t c.name = some d := fun t c hc => ⟨c, component_of hw hc⟩
  have hcon : ∀ d ∈ s.decls.componentsOf ct, FR.Calm nest (compConstraints ⟨s.decls, rx.search⟩ s.checks d) fun _ => True := by
    intro d hdm
    unfold compConstraints
    split
    · next u hu =>
      unfold tupleConstraints
      refine (tupleChecks_calm (T := ⟨s.decls, rx.search⟩) hd find_base _ fun c hc hsev => ?_).bind fun _ _ => (suffixTerms_calm _ _ ?_).bind fun _ _ => FR.calm_ok trivial
      · have hck := mem_ofTup_ck.1 hc
        obtain ⟨h1, h2, h3⟩ := acc_wt hw.wf (ha _ _ hck)
        exact ⟨h1, h2, hv.tuples d hdm u hu c hck hsev, h3⟩
      · unfold Decls.fields
        cases hg : s.decls.tups[u]? with
        | none => trivial
        | some cs => exact (hw.tuples u cs hg).tail
    · exact FR.calm_ok trivial
    · exact FR.calm_ok trivial
  cases ct with
  | record t =>
    unfold PS.verify
    refine vcgGraph_calm (preamble_calm _ (fun d hdm => ?_) hcon) ?_
    · unfold frozenValue recordVcg PS.frozenFor
      simp only
      cases hf : s.freezing t d.name with
      | none => exact FR.calm_ok trivial
      | some n =>
        refine FR.Calm.bind (P := fun _ => True) ?_ fun _ _ => FR.calm_ok trivial
        unfold PS.freezing at hf
        obtain ⟨a, ha1, ha2⟩ := List.exists_of_findSome?_eq_some hf
        have hfr : s.isFrozen t d.name = true := by
          unfold PS.isFrozen
          rw [List.any_eq_true]
          exact ⟨a, ha1, by simp [ha2]⟩
        obtain ⟨i, hi, hl⟩ : ∃ i, s.infos[a]? = some i ∧ i.frozen.lookup d.name = some n := by
          unfold PS.info at ha2
          cases hg : s.infos[a]? with
          | none => rw [hg] at ha2; simp at ha2
          | some i => rw [hg] at ha2; exact ⟨i, rfl, ha2⟩
        obtain ⟨c, ⟨u, hu, hdc⟩, hn, hok⟩ := hw.frozen a i d.name n hi hl
        have hext : Extends s.decls t a := (mem_ancestors hw.wf t a).1 ha1
        have : c = d := hw.unique t c d ⟨u, extends_trans hext hu, hdc⟩ ((mem_allComponents hw.wf t d).1 hdm) hn
        subst this
        exact frozenTerm_calm _ _ hok fun e => hv.frozen e t rfl c hdm hfr
    · rintro ⟨own, c⟩ hx em
      simp only [recordVcg, markedChecks, List.mem_flatMap, List.mem_reverse, List.mem_map, Prod.mk.injEq] at hx
      obtain ⟨a, ha1, c', hc', -, rfl⟩ := hx
      have hext : Extends s.decls t a := (mem_ancestors hw.wf t a).1 ha1
      have hck := mem_ofRec_ck.1 hc'
      obtain ⟨h1, h2, h3⟩ := acc_wt hw.wf (ha _ _ hck)
      exact ⟨tr_calm (T := ⟨s.decls, rx.search⟩) hd em _ _ _ h1 h2 (hv.own c' ⟨a, hext, hck⟩) (find_comps hw hext), h3⟩
  | tup t =>
    unfold PS.verify
    refine vcgGraph_calm (preamble_calm _ (fun d hdm => FR.calm_ok trivial) hcon) ?_
    rintro ⟨own, c⟩ hx em
    simp only [tupleVcg, List.mem_map, Prod.mk.injEq] at hx
    obtain ⟨c', hc', -, rfl⟩ := hx
    have hck := mem_ofTup_ck.1 hc'
    obtain ⟨h1, h2, h3⟩ := acc_wt hw.wf (ha _ _ hck)
    exact ⟨tr_calm (T := ⟨s.decls, rx.search⟩) hd em _ _ _ h1 h2 (hv.own c' hck) find_fields, h3⟩

/-! ### Runs -/

section
variable {o : Options} {X : Outside} {required : List CU → Finset PNode} {fs : List Source} {s : PS} {V : Verification}

/-- a record or tuple type of the declarations -/
def DeclaredCt (D : Decls) : CompositeTy → Prop
  | .record t => t < D.recs.length
  | .tup t => t < D.tups.length

theorem mem_composites {g : STab} {rx : Regex} {s : PS} (r : Ready g rx s) (ct : CompositeTy) :
    ct ∈ (s.declaredTypes g).filterMap Ty.composite? ↔ DeclaredCt s.decls ct := by
  rw [List.mem_filterMap]
  constructor
  · rintro ⟨τ, h, he⟩
    have := (mem_declaredTypes r τ).1 h
    cases τ <;> cases he <;> exact this
  · intro h
    cases ct with
    | record t => exact ⟨.record t, (mem_declaredTypes r _).2 h, rfl⟩
    | tup t => exact ⟨.tup t, (mem_declaredTypes r _).2 h, rfl⟩

theorem analyzeAll_none {rx : List Char → List Char → Bool} : ∀ cts : List CompositeTy,
    s.analyzeAll V rx cts = none → ∃ ct ∈ cts, s.verify rx ct TS.empty = .crash
  | [], h => by cases h
  | ct :: r, h => by
    unfold PS.analyzeAll at h
    cases h1 : s.analyze V rx ct with
    | none =>
      refine ⟨ct, List.mem_cons_self, ?_⟩
      unfold PS.analyze at h1
      split at h1
      · cases h1
      · cases h1
      · assumption
    | some ms =>
      cases h2 : s.analyzeAll V rx r with
      | none =>
        obtain ⟨c, hc, h⟩ := analyzeAll_none r h2
        exact ⟨c, List.mem_cons_of_mem _ hc, h⟩
      | some l => rw [h1, h2] at h; cases h

theorem analyzeAll_some {rx : List Char → List Char → Bool} : ∀ (cts : List CompositeTy) (ms : List MHCall),
    s.analyzeAll V rx cts = some ms → ∃ f : CompositeTy → List MHCall, (∀ ct ∈ cts, s.analyze V rx ct = some (f ct)) ∧ ms = cts.flatMap f
  | [], ms, h => by cases h; exact ⟨fun _ => [], by simp, rfl⟩
  | ct :: r, ms, h => by
    unfold PS.analyzeAll at h
    cases h1 : s.analyze V rx ct with
    | none => rw [h1] at h; cases h
    | some ms1 =>
      cases h2 : s.analyzeAll V rx r with
      | none => rw [h1, h2] at h; cases h
      | some l =>
        obtain ⟨f, hf, rfl⟩ := analyzeAll_some r l h2
        rw [h1, h2] at h
        cases h
        refine ⟨fun c => (s.analyze V rx c).getD [], ?_, ?_⟩
        · intro c hc
          rcases List.mem_cons.1 hc with rfl | hc
          · simp [h1]
          · simp [hf c hc]
        · rw [List.flatMap_cons, h1]
          simp only [Option.getD_some]
          refine congrArg (ms1 ++ ·) ?_
          unfold List.flatMap
          exact congrArg List.flatten (List.map_congr_left fun c hc => by rw [hf c hc]; rfl)

/-- when the linter is called, and what follows -/
theorem analyse_lint_crash {g : STab} {R : Finset PNode} {ls : List Loaded} {ok : Bool}
    (h : (analyse o X g R ls ok s).out = .crash .lint) :
    ∃ s2, o.lint = true ∧ ok = true ∧ runRsl g o.recover X.rx R ls s = .ok true s2 ∧ (X.lint g s2).out = none ∧
      (analyse o X g R ls ok s).state = s2 := by
  cases hr : runRsl g o.recover X.rx R ls s with
  | crash c s' => unfold analyse at h; rw [hr] at h; cases h
  | err s' => unfold analyse at h; rw [hr] at h; cases h
  | ok b s2 =>
    by_cases hc : (o.lint && (ok && b)) = true
    · have hc' := hc
      simp only [Bool.and_eq_true] at hc'
      obtain ⟨h1, rfl, rfl⟩ := hc'
      refine ⟨s2, h1, rfl, rfl, ?_⟩
      unfold analyse at h ⊢
      rw [hr] at h ⊢
      dsimp only at h ⊢
      rw [if_pos hc] at h ⊢
      rw [if_neg (by simp)] at h ⊢
      cases hx : (X.lint g s2).out with
      | none => exact ⟨rfl, rfl⟩
      | some b =>
        rw [hx] at h
        dsimp only at h
        split at h
        · dsimp only at h
          split at h <;> cases h
        · exact absurd h finish_not_lint
    · exfalso
      unfold analyse at h
      rw [hr] at h
      dsimp only at h
      rw [if_neg hc] at h
      dsimp only at h
      split at h
      · cases h
      · split at h
        · dsimp only at h
          split at h <;> cases h
        · exact finish_not_lint h

/-- **C78**, what holds: when a run with verification of checks ends with an internal exception of the
linter, then because of the declaration of a tuple type as described by `LintFails` (C71), or there is a type that is
not `Verifiable`. -/
theorem C78_partial (hX : X.lint = verifying V X.rx.search) (hb : Blank s)
    (h : (process o X required fs s).out = .crash .lint) :
    (∃ t, LintFails (process o X required fs s).state.decls (process o X required fs s).state.seps t) ∨
    ∃ ct, DeclaredCt (process o X required fs s).state.decls ct ∧ ¬ Verifiable (process o X required fs s).state true ct := by
  unfold process at h ⊢
  split at h
  · cases h
  · cases h
  · next g ls s1 h1 =>
    dsimp only at h ⊢
    obtain ⟨s2, -, -, h4, h5, h6⟩ := analyse_lint_crash h
    have k := loadAll_ok globalTable_pkgTab h1
    have r := rsl_ready (hb.quiet k.quiet) k.tab h4
    rw [h6]
    rw [hX] at h5
    unfold verifying at h5
    split at h5
    · next e he => exact .inl ((lint_spec r k.tab).2.1.1 ⟨e, he⟩)
    · split at h5
      · next hn =>
        obtain ⟨ct, hct, hc⟩ := analyzeAll_none _ hn
        exact .inr ⟨ct, (mem_composites r ct).1 hct, fun hv => (verify_calm r.inv.sound r.acc ct hv _).1 hc⟩
      · cases h5

theorem analyse_lint_calls {g : STab} {R : Finset PNode} {ls : List Loaded} {ok : Bool} {s2 : PS} (hl : o.lint = true)
    (hok : ok = true) (h : runRsl g o.recover X.rx R ls s = .ok true s2) :
    ((X.lint g s2).out = none → (analyse o X g R ls ok s).out = .crash .lint) ∧
    ∃ rest, (analyse o X g R ls ok s).calls = (X.lint g s2).calls ++ rest := by
  subst hok
  unfold analyse
  rw [h]
  simp only [hl, Bool.and_self, Bool.not_true, Bool.and_false, Bool.false_eq_true, if_false, if_true, Bool.true_and]
  cases hx : (X.lint g s2).out with
  | none => exact ⟨fun _ => rfl, [], by simp⟩
  | some b =>
    refine ⟨fun h => (by cases h), ?_⟩
    dsimp only
    split
    · exact ⟨[], by simp⟩
    · exact finish_calls

theorem verify_same {s s' : PS} (h1 : s.decls = s'.decls) (h2 : s.infos = s'.infos) (h3 : s.checks = s'.checks)
    (rx : List Char → List Char → Bool) (ct : CompositeTy) : s.verify rx ct = s'.verify rx ct := by
  have : s.frozenFor = s'.frozenFor := by
    funext t n
    unfold PS.frozenFor PS.freezing PS.info
    rw [h1, h2]
  cases ct <;> simp only [PS.verify, this, h1, h3]

theorem Verifiable.same {s s' : PS} {ct : CompositeTy} (h : Verifiable s nest ct) (h1 : s.decls = s'.decls) (h2 : s.infos = s'.infos)
    (h3 : s.checks = s'.checks) : Verifiable s' nest ct := by
  have hf : s'.isFrozen = s.isFrozen := by
    funext t n
    unfold PS.isFrozen PS.info
    rw [h1, h2]
  obtain ⟨a, b, c⟩ := h
  rw [h1] at a b c
  rw [h3] at a b
  rw [← hf] at c
  exact ⟨a, b, c⟩

/-- **C78**, successful runs with verification: after the messages of the linter (C70) there are those of
the verification of all record and tuple types, one after the other.  For every type these are what is
reported (C77) on the graph made from its checks (C76), except that for a type that is not `Verifiable`
without nested quantifiers there may be one warning instead. -/
theorem C78_report (hX : X.lint = verifying V X.rx.search) (hl : o.lint = true) (hb : Blank s)
    (h : (process o X required fs s).out = .table) :
    ∃ (msgs : List LintMsg) (cts : List CompositeTy) (f : CompositeTy → List MHCall) (rest : List MHCall),
      (process o X required fs s).calls =
        msgs.map (fun m => MHCall.check (V.render m).1 (V.render m).2 m.category) ++ cts.flatMap f ++ rest ∧
      LintReport (process o X required fs s).state.decls (process o X required fs s).state.infos
        (process o X required fs s).state.seps msgs ∧
      cts.Nodup ∧ (∀ ct, ct ∈ cts ↔ DeclaredCt (process o X required fs s).state.decls ct) ∧
      ∀ ct ∈ cts,
        (∃ G, (process o X required fs s).state.verify X.rx.search ct TS.empty = .ok () G ∧
          f ct = (solveAll (V.solve ct G)).map fun r => MHCall.check (V.tell ct r).1 (V.tell ct r).2 r.2.category) ∨
        (f ct = [.warning (V.unsupported ct).1 (V.unsupported ct).2 false] ∧
          ¬ Verifiable (process o X required fs s).state false ct) := by
  have key : ∃ g ls s1 s2, Succeeded o X (required (ls.map (·.cu))) fs s (process o X required fs s).state g ls s1 s2 ∧
      (X.lint g s2).out ≠ none ∧
      ∃ rest, (process o X required fs s).calls = (X.lint g s2).calls ++ rest := by
    unfold process at h ⊢
    split at h
    · cases h
    · cases h
    · next g ls s1 h1 =>
      dsimp only at h ⊢
      obtain ⟨k1, s2, k2, k3, k4, -⟩ := analyse_table h
      refine ⟨g, ls, s1, s2, ⟨loadAll_ok globalTable_pkgTab h1, ?_, k2, k3, k4⟩, ?_⟩
      · intro l hl
        have := List.all_eq_true.1 k1 l hl
        simpa using this
      · obtain ⟨a1, rest, a2⟩ := analyse_lint_calls hl k1 k2
        refine ⟨fun hn => (by rw [a1 hn] at h; cases h), ?_⟩
        rw [a2]
        exact ⟨_, List.append_assoc ..⟩
  obtain ⟨g, ls, s1, s2, k, hn, rest, hc⟩ := key
  have r := rsl_ready (hb.quiet k.built.quiet) k.built.tab k.rsl
  obtain ⟨e1, e2, e3, e4⟩ := succeeded_kept k r
  rw [hX] at hn hc
  unfold verifying at hn hc
  split at hn
  · exact absurd rfl hn
  · next msgs hm =>
    rw [hm] at hc
    dsimp only at hc
    split at hn
    · exact absurd rfl hn
    · next cs hcs =>
      rw [hcs] at hc
      obtain ⟨f, hf, rfl⟩ := analyzeAll_some _ _ hcs
      refine ⟨msgs, _, f, rest, hc, ?_, ?_, ?_, ?_⟩
      · rw [e1, e2, e3]
        exact (lint_spec r k.built.tab).1 msgs hm
      · refine List.Nodup.filterMap ?_ (declaredTypes_nodup r k.built.tab)
        intro a b c ha hb
        cases a <;> cases ha <;> cases b <;> cases hb <;> rfl
      · rw [e1]
        exact mem_composites r
      · intro ct hct
        have ha := hf ct hct
        rw [verify_same e1 e2 e4]
        unfold PS.analyze at ha
        split at ha
        · next G hG => exact .inl ⟨G, hG, (Option.some.inj ha).symm⟩
        · next hu =>
          refine .inr ⟨(Option.some.inj ha).symm, fun hv => ?_⟩
          exact (verify_calm r.inv.sound r.acc ct (hv.same e1 e2 e4) _).2.1 rfl hu
        · cases ha

end

end Verif.Props
