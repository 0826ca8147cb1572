import Verif.Props.Verify
import Verif.Props.Reports
import Verif.Lemmas.Shapes
import Verif.Lemmas.Ids
import Verif.Props.References
/-!
# C76 for whole runs: what follows if the verification reports nothing
-/
namespace Verif.Props
open Verif.Model Verif.Spec Verif.Lemmas Verif.Lemmas.Vcg

/-! ## The objects of a run -/

theorem resolveNodes_map {s : PS} : ∀ {fs : List (String × VNode)} {gs : Fields}, s.resolveNodes fs = .ok gs →
    List.Forall₂ (fun f g => g.1 = f.1 ∧ g.2.id = f.2.id ∧ s.resolveVal f.2.val = .ok g.2.expr) fs gs
  | [], _, h => by simp only [PS.resolveNodes] at h; cases h; exact .nil
  | (n, v) :: fs, gs, h => by
    simp only [PS.resolveNodes] at h
    cases hv : s.resolveVal v.val with
    | error x => rw [hv] at h; cases h
    | ok e =>
      rw [hv] at h
      dsimp only at h
      cases hr : s.resolveNodes fs with
      | error x => rw [hr] at h; cases h
      | ok es =>
        rw [hr] at h
        cases h
        exact .cons ⟨rfl, rfl, hv⟩ (resolveNodes_map hr)

theorem heap_some {s : PS} {o : Nat} {gs : Fields} (h : s.heap o = some gs) :
    ∃ ob, s.objs[o]? = some ob ∧ s.resolveNodes ob.fields = .ok gs := by
  unfold PS.heap at h
  cases ho : s.objs[o]? with
  | none => rw [ho] at h; cases h
  | some ob =>
    rw [ho] at h
    dsimp only at h
    cases hr : s.resolveNodes ob.fields with
    | error x => rw [hr] at h; cases h
    | ok fs => rw [hr] at h; cases h; exact ⟨ob, rfl, hr⟩

theorem forall₂_mem {α β : Type} {R : α → β → Prop} {l : List α} {m : List β} (h : List.Forall₂ R l m) : ∀ b ∈ m, ∃ a ∈ l, R a b := by
  induction h with
  | nil => intro d hd; cases hd
  | cons h1 h2 ih =>
    intro d hd
    rcases List.mem_cons.1 hd with rfl | hd
    · exact ⟨_, List.mem_cons_self, h1⟩
    · obtain ⟨c, hc, h⟩ := ih d hd
      exact ⟨c, List.mem_cons_of_mem _ hc, h⟩

theorem forall₂_keys {s : PS} {l : List (String × VNode)} {m : Fields}
    (h : List.Forall₂ (fun f g => g.1 = f.1 ∧ g.2.id = f.2.id ∧ s.resolveVal f.2.val = .ok g.2.expr) l m) :
    m.map (·.1) = l.map (·.1) := by
  induction h with
  | nil => rfl
  | cons h1 _ ih => simp [h1.1, ih]

theorem ready_ids {g : STab} {rx : Regex} {s2 : PS} (r : Ready g rx s2) : IdInv s2 := by
  have hn : ∀ n, IsNode s2.objs s2.infos n → ∃ i ∈ s2.infos, ∃ f ∈ i.frozen, f.2 = n := by
    rintro n (⟨ob, hob, -⟩ | h)
    · rw [r.inv.objs] at hob; cases hob
    · exact h
  constructor
  · intro n h
    obtain ⟨i, hi, f, hf, rfl⟩ := hn n h
    exact r.inv.frozenBefore.before i hi f hf
  · intro n m h h' he
    obtain ⟨i, hi, f, hf, rfl⟩ := hn n h
    obtain ⟨j, hj, k, hk, rfl⟩ := hn m h'
    exact r.inv.frozenBefore.once i hi f hf j hj k hk he

/-- The dictionaries of objects have every key once, and the same expression in memory has one content. -/
theorem run_heapIds {g : STab} {rx : Regex} {s2 s' : PS} {files : List OpenFile} (r : Ready g rx s2)
    (h : runTrlcFiles files s2 = .ok true s') : HeapIds s'.heap := by
  have hi := (runTrlcFiles_idk files).rep s2 (ready_ids r)
  rw [h] at hi
  replace hi : IdInv s' := hi
  constructor
  · intro o fs hfs
    obtain ⟨ob, ho, hr⟩ := heap_some hfs
    rw [forall₂_keys (resolveNodes_map hr)]
    exact (C32_all_complete r.inv.sound.world r.inv.objs h o ob ho).1.2.2
  · intro o o' fs fs' hfs hfs' f hf k hk he
    obtain ⟨ob, ho, hr⟩ := heap_some hfs
    obtain ⟨ob', ho', hr'⟩ := heap_some hfs'
    obtain ⟨a, ha, -, h1, h2⟩ := forall₂_mem (resolveNodes_map hr) f hf
    obtain ⟨b, hb, -, h3, h4⟩ := forall₂_mem (resolveNodes_map hr') k hk
    have : a.2 = b.2 := hi.same a.2 b.2 (.inl ⟨ob, List.mem_of_getElem? ho, a, ha, rfl⟩)
      (.inl ⟨ob', List.mem_of_getElem? ho', b, hb, rfl⟩) (by rw [← h1, ← h3, he])
    rw [this, h4] at h2
    exact (Except.ok.inj h2).symm

/-- The value of a frozen component -/
theorem complete_frozen {D : Decls} {infos : List RecInfo} {seps : List (List Sep)} (hs : SoundDecls D infos seps) {ob : Obj}
    (hc : ObjComplete D infos ob) {n : String} {v : VNode} (hf : FrozenIn D infos ob.typ n v) : ob.fields.lookup n = some v := by
  have hf' := hf
  obtain ⟨a, j, ha, hj, hl⟩ := hf
  obtain ⟨c, ⟨d, hd, hcd⟩, rfl, -⟩ := hs.world.frozen a j n v hj hl
  obtain ⟨m, hm, h3⟩ := hc.1 c ⟨d, extends_trans ha hd, hcd⟩
  rcases h3 with h3 | ⟨h3, -⟩
  · rw [hm, frozenIn_unique hs h3 hf']
  · exact absurd hf' (h3 v)

theorem lookup_forall₂ {s : PS} {l : List (String × VNode)} {m : Fields}
    (h : List.Forall₂ (fun f g => g.1 = f.1 ∧ g.2.id = f.2.id ∧ s.resolveVal f.2.val = .ok g.2.expr) l m) (n : String) :
    (∀ v, l.lookup n = some v → ∃ x, m.lookup n = some x ∧ s.resolveVal v.val = .ok x.expr) ∧
    ∀ x, m.lookup n = some x → ∃ v, l.lookup n = some v ∧ s.resolveVal v.val = .ok x.expr := by
  induction h with
  | nil => exact ⟨fun _ h => by (cases h), fun _ h => by (cases h)⟩
  | @cons f k _ _ h1 _ ih =>
    obtain ⟨a, b⟩ := f
    obtain ⟨c, d⟩ := k
    obtain ⟨h0, -, h1⟩ := h1
    dsimp only at h0 h1
    subst h0
    simp only [List.lookup_cons]
    split
    · refine ⟨fun v hv => ?_, fun x hx => ?_⟩
      · cases hv; exact ⟨_, rfl, h1⟩
      · cases hx; exact ⟨_, rfl, h1⟩
    · exact ih

/-- All values that are not frozen are within their bounds, and have the null fields of tuples at the end. -/
theorem run_inForm {g : STab} {rx : Regex} {s2 s' : PS} {files : List OpenFile} (r : Ready g rx s2)
    (h : runTrlcFiles files s2 = .ok true s') (he : s'.errs = s2.errs) {i : Nat} {ob : Obj} {gs : Fields} (ho : s'.objs[i]? = some ob)
    (hg : s'.heap i = some gs) {n : String} {x : FNode} (hx : gs.lookup n = some x)
    (hnf : ∀ m, ¬ FrozenIn s2.decls s2.infos ob.typ n m) : InForm x.expr := by
  obtain ⟨ob', ho', hr⟩ := heap_some hg
  rw [ho] at ho'
  cases ho'
  obtain ⟨v, hv, hres⟩ := (lookup_forall₂ (resolveNodes_map hr) n).2 x hx
  obtain ⟨items, h1, h2, h3⟩ := C61_objects_written r.inv.sound.world r.inv.objs h he
  have hcomp := (C32_all_complete r.inv.sound.world r.inv.objs h i ob ho).1
  have hmem := List.mem_of_getElem? ho
  rw [h1] at hmem
  obtain ⟨y, hy, rfl⟩ := List.mem_map.1 hmem
  obtain ⟨c, hcc, rfl⟩ := hcomp.2.1 n (by rw [hv]; rfl)
  obtain ⟨m, hm, hk⟩ := (h3 y hy).2.2.2.2 c hcc
  rw [hv] at hm
  cases hm
  rcases hk with ⟨w, hw, hvw⟩ | ⟨-, hf⟩ | ⟨-, -, -, hnull⟩
  · obtain ⟨E, M, τ, ts, nx, hwr⟩ := writtenFiles_assigns h2 y hy _ hw
    rw [hvw] at hres
    exact resolve_form w x.expr hres (written_bounds w τ ts nx hwr) (written_tails w τ ts nx hwr).2
  · exact absurd hf (hnf v)
  · rw [hnull] at hres
    simp only [PS.resolveVal, Except.ok.injEq] at hres
    rw [← hres]
    trivial

/-- a literal or signed number, as it is frozen and as it is in an object -/
theorem frozen_resolved {s : PS} : (v : PVal) → {e : FExpr} → {a : Smt} → frozenTerm v.frozenExpr = .ok a → s.resolveVal v = .ok e →
    e = v.frozenExpr ∧ InForm e
  | .neg w, e, a, h, hr => by
    simp only [PS.resolveVal] at hr
    cases w <;> simp only [PVal.frozenExpr, frozenTerm] at h <;> try cases h
    all_goals
      simp only [PS.resolveVal] at hr
      cases hr
      exact ⟨rfl, trivial⟩
  | .pos w, e, a, h, hr => by
    simp only [PVal.frozenExpr, frozenTerm] at h
    simp only [PS.resolveVal] at hr
    split at hr
    · cases hr
    · next x hx =>
      cases hr
      obtain ⟨h1, -⟩ := frozen_resolved w h hx
      exact ⟨by rw [h1]; rfl, trivial⟩
  | .markup _ _, e, a, h, hr => by
    simp only [PS.resolveVal] at hr
    split at hr <;> cases hr
    exact ⟨rfl, trivial⟩
  | .inull, e, a, h, hr | .bool _, e, a, h, hr | .int _, e, a, h, hr | .dec _, e, a, h, hr | .str _, e, a, h, hr | .enum _ _, e, a, h, hr => by
    simp only [PS.resolveVal] at hr
    cases hr
    exact ⟨rfl, trivial⟩
  | .arr _ _, e, a, h, hr | .tup _ _, e, a, h, hr | .ref _ _ _, e, a, h, hr => by
    simp only [PVal.frozenExpr, frozenTerm] at h
    cases h

theorem preamble_terms {T : TrEnv} {C : CheckTab} {frozen : String → Option FExpr} : ∀ {cs : List Comp} {ss : List SStmt},
    preamble T C frozen cs = .ok ss → ∀ k ∈ cs, ∀ e, frozen k.name = some e → ∃ a, frozenTerm e = .ok a
  | [], _, _, k, hk => by cases hk
  | c :: cs, ss, h, k, hk => by
    simp only [preamble, fr_bind, FR.ok.injEq] at h
    obtain ⟨xs, hxs, ys, hys, rfl⟩ := h
    intro e he
    rcases List.mem_cons.1 hk with rfl | hk
    · simp only [componentStmts, fr_bind] at hxs
      obtain ⟨o, ho, -⟩ := hxs
      simp only [frozenValue, he, fr_bind] at ho
      obtain ⟨a, ha, -⟩ := ho
      exact ⟨a, ha⟩
    · exact preamble_terms hys k hk e he

/-! ## What is not ensured -/

/-- What the verification of checks relies on, but nothing ensures.
* `enums`: every enumeration type of a component has a literal;
* `side`, `exact`: no ambiguous access to fields of unions (C29), and only values of types that can be compared are compared;
* `order`: no check of severity `fatal` without references comes after one with references;
* `bounds`: no array type has an upper bound of 0 (C33);
* `left`: for every optional component of an array or tuple type there is a value within the bounds, for which the checks of
  the tuple type (except warnings) are true;
* `tuples`: no check of severity `error` is false for a tuple, and all checks (except warnings) of tuples in tuples are true. -/
structure Assumed (s : PS) (rx : List Char → List Char → Bool) : Prop where
  enums  : EnumsFilled s.decls
  side   : ∀ t c, CkIn s.checks (.record t) c → Side s.decls True True (recordΓ s.decls t) c.expr ∧ Exact s.decls c.expr
  sideT  : ∀ t c, CkIn s.checks (.tup t) c → Side s.decls True True (tupleΓ s.decls t) c.expr ∧ Exact s.decls c.expr
  order  : ∀ t, (iterChecks s.decls s.checks s.decls.recs.length t).Pairwise FatalFirst
  orderT : ∀ t, (s.checks.ofTup t).Pairwise FatalFirst
  bounds : ∀ c : Comp, (∃ t, c ∈ s.decls.fields t ∨ Declares s.decls t c) → NoZero c.ty
  left   : ∀ c : Comp, (∃ t, c ∈ s.decls.fields t ∨ Declares s.decls t c) → c.optional = true →
    ((∃ u, c.ty = .tup u) ∨ ∃ id e lo hi, c.ty = .arr id e lo hi) →
    ∃ fe, FOk s.decls s.objTy fe c.ty ∧ Granted s.checks ⟨s.heap, rx⟩ c.ty fe
  tuples : ∀ (i : Nat) (gs : Fields), s.heap i = some gs → ∀ k n, gs.lookup k = some n → ∀ u hs, DirectTuple n.expr u hs →
    (∀ c, TupleCheck s.checks u c → c.sev = .error → ¬ Fails ⟨s.heap, rx⟩ hs c) ∧
    ∀ m v ks, hs.lookup m = some (.tup v ks) → ∀ c ∈ s.checks.ofTup v, c.sev ≠ .warning → strict ⟨s.heap, rx⟩ ks c.expr = some tvTrue

/-- the verification of all types ended without message about a possible error -/
def AllClean (s : PS) (rx : List Char → List Char → Bool) : Prop :=
  ∀ ct, DeclaredCt s.decls ct → ∃ G, s.verify rx ct TS.empty = .ok () G ∧ Verified s.decls G

/-- a message of a check that is false for the object or for a tuple in its components -/
def CheckMessage (s : PS) (rx : List Char → List Char → Bool) (L : Locs) (i : Nat) (m : MHCall) : Prop :=
  ∃ ob gs, s.objs[i]? = some ob ∧ s.heap i = some gs ∧
    ((∃ c, AppliesTo s.decls s.checks ob.typ c ∧ Fails ⟨s.heap, rx⟩ (recordCtx gs) c ∧
        MessageOf (recordComposite gs (L.obj i) (L.field i)) c m) ∨
      ∃ k n, gs.lookup k = some n ∧ TupleMessage s.checks ⟨s.heap, rx⟩ n.expr m)

theorem fieldsOk_mem {D : Decls} {objTy : Nat → Option Nat} : ∀ {fs : List (String × FExpr)} {cs : List Comp}, FieldsOk D objTy fs cs →
    ∀ f ∈ fs, ∃ c ∈ cs, (c.optional = true ∧ f.2 = .inull) ∨ FOk D objTy f.2 c.ty
  | [], _, _, f, hf => by cases hf
  | _ :: _, [], h, _, _ => by simp only [FieldsOk] at h
  | (n, e) :: fs, c :: cs, h, f, hf => by
    simp only [FieldsOk, FieldOk] at h
    rcases List.mem_cons.1 hf with rfl | hf
    · exact ⟨c, List.mem_cons_self, h.1.2⟩
    · obtain ⟨d, hd, h1⟩ := fieldsOk_mem h.2 f hf
      exact ⟨d, List.mem_cons_of_mem _ hd, h1⟩

theorem object_guarantee {g : STab} {rx : Regex} {s2 s' : PS} {files : List OpenFile} (r : Ready g rx s2)
    (h : runTrlcFiles files s2 = .ok true s') (he : s'.errs = s2.errs) (hr : s'.resolveAll g = [])
    (A : Assumed s' rx.search) (hv : AllClean s' rx.search) {i : Nat} {ob : Obj} {gs : Fields} (ho : s'.objs[i]? = some ob)
    (hg : s'.heap i = some gs) (loc : String) (fieldLoc : String → String) :
    (∀ x, (performObject s'.decls s'.checks ⟨s'.heap, rx.search⟩ gs loc fieldLoc ob.typ).out ≠ .crash x) ∧
    ∀ m ∈ (performObject s'.decls s'.checks ⟨s'.heap, rx.search⟩ gs loc fieldLoc ob.typ).calls,
      (∃ c, AppliesTo s'.decls s'.checks ob.typ c ∧ Fails ⟨s'.heap, rx.search⟩ (recordCtx gs) c ∧
        MessageOf (recordComposite gs loc fieldLoc) c m) ∨
      ∃ k n, gs.lookup k = some n ∧ TupleMessage s'.checks ⟨s'.heap, rx.search⟩ n.expr m := by
  have hk := run_kept r.inv.sound.world h
  have hck : s'.checks = s2.checks := by
    have := (runTrlcFiles_cks files).rep s2
    rwa [h] at this
  have hs : SoundDecls s'.decls s'.infos s'.seps := by rw [hk.decls, hk.infos, hk.seps]; exact r.inv.sound
  have hw := hs.world
  have hh : HeapOk s'.decls s'.objTy s'.heap := by rw [hk.decls]; exact C35_heap r.inv.sound.world r.noObjects r.pkgs h hr
  have hid := run_heapIds r h
  have hty : s'.objTy i = some ob.typ := by simp [PS.objTy, ho]
  have hcomp : ∀ {i : Nat} {ob : Obj}, s'.objs[i]? = some ob → ObjComplete s'.decls s'.infos ob := by
    intro i ob ho
    rw [hk.decls, hk.infos]
    exact (C32_all_complete r.inv.sound.world r.inv.objs h i ob ho).1
  -- the verification of record types
  have hrec : ∀ a, a < s'.decls.recs.length →
      Clean ⟨s'.decls, rx.search, rx.valid⟩ s'.checks (recordVcg s'.decls s'.checks (s'.frozenFor a) a) := by
    intro a ha
    exact hv (.record a) ha
  have hlt : ∀ {t a : Nat}, Extends s'.decls t a → a < s'.decls.recs.length := by
    intro t a hx
    have h1 := extends_le hw.wf hx
    have h2 := extends_lt_length hx
    omega
  -- frozen values are literals
  have hfz : ∀ {i : Nat} {ob : Obj} {gs : Fields}, s'.objs[i]? = some ob → s'.heap i = some gs → ∀ n v,
      FrozenIn s'.decls s'.infos ob.typ n v → ∃ x, gs.lookup n = some x ∧ x.expr = v.val.frozenExpr ∧ InForm x.expr := by
    intro i ob gs ho hg n v hf
    have hl := complete_frozen hs (hcomp ho) hf
    obtain ⟨ob', ho', hr'⟩ := heap_some hg
    rw [ho] at ho'
    cases ho'
    obtain ⟨x, hx, hres⟩ := (lookup_forall₂ (resolveNodes_map hr') n).1 v hl
    obtain ⟨w, hw'⟩ : ∃ w, s'.freezing ob.typ n = some w := by
      refine Option.isSome_iff_exists.1 (freezing_isSome hw.wf ?_)
      unfold PS.isFrozen
      rw [List.any_eq_true]
      obtain ⟨a, ha, hl⟩ := (frozenIn_iff hw.wf).1 hf
      exact ⟨a, ha, by rw [hl]; rfl⟩
    have hvw : w = v := frozenIn_unique hs (freezing_some hw.wf hw') hf
    subst hvw
    obtain ⟨a, j, ha, hj, hla⟩ := hf
    obtain ⟨c, ⟨d, hd, hcd⟩, rfl, -⟩ := hw.frozen a j n w hj hla
    obtain ⟨G, hG, -⟩ := hrec ob.typ (hlt (.refl (extends_lt_length ha)))
    simp only [graphOf, vcgGraph, trm_bind, trm_lift] at hG
    obtain ⟨ss, s0, ⟨hss, -⟩, -⟩ := hG
    obtain ⟨b, hb⟩ := preamble_terms hss c ((mem_allComponents hw.wf ob.typ c).2 ⟨d, extends_trans ha hd, hcd⟩) w.val.frozenExpr
      (by simp only [recordVcg, PS.frozenFor, hw', Option.map_some])
    obtain ⟨h1, h2⟩ := frozen_resolved w.val hb hres
    exact ⟨x, hx, h1, h2⟩
  -- all values are in form
  have hform : ∀ {i : Nat} {ob : Obj} {gs : Fields}, s'.objs[i]? = some ob → s'.heap i = some gs → ∀ n x, gs.lookup n = some x →
      InForm x.expr := by
    intro i ob gs ho hg n x hx
    by_cases hf : ∃ v, FrozenIn s'.decls s'.infos ob.typ n v
    · obtain ⟨v, hf⟩ := hf
      obtain ⟨y, hy, -, h1⟩ := hfz ho hg n v hf
      rw [hx] at hy
      cases hy
      exact h1
    · refine run_inForm r h he ho hg hx fun m hm => hf ⟨m, ?_⟩
      rw [hk.decls, hk.infos]
      exact hm
  have hz : ∀ t, ∀ c ∈ s'.decls.fields t, NoZero c.ty := fun t c hc => A.bounds c ⟨t, .inl hc⟩
  have hcz : ∀ {t : Nat} {c : Comp}, HasComp s'.decls t c → NoZero c.ty := by
    rintro t c ⟨u, -, hd⟩
    exact A.bounds c ⟨u, .inr hd⟩
  have hbd : HeapInBounds s'.heap := by
    intro o fs hfs f hf
    obtain ⟨ob, ho, hres⟩ := heap_some hfs
    obtain ⟨fs', h1, h2⟩ := hh o ob.typ (by simp [PS.objTy, ho])
    rw [hfs] at h1
    cases h1
    have hl : fs.lookup f.1 = some f.2 := lookup_of_mem (hid.1 o fs hfs) hf
    obtain ⟨c, hc, hn⟩ := h2.2 f.1 (by rw [hl]; rfl)
    obtain ⟨x, hx, hok⟩ := h2.1 c hc
    rw [hn, hl] at hx
    cases hx
    exact inForm_bounded hz f.2.expr c.ty (hok.imp (·.2) id) (hcz hc) (hform ho hfs f.1 f.2 hl)
  have hC : ChecksExact ⟨s'.decls, rx.search, rx.valid⟩ s'.checks := by
    have hacc : ∀ ct c, CkIn s'.checks ct c → AccIn s'.decls rx ct c := by
      intro ct c hc
      rw [hck] at hc
      rw [hk.decls]
      exact r.acc ct c hc
    constructor
    · intro t k hkc
      obtain ⟨-, ⟨other, enums, raw, -, he⟩, -⟩ := hacc _ _ (mem_ofRec_ck.1 hkc)
      exact ⟨other, enums, raw, he, A.side t k (mem_ofRec_ck.1 hkc)⟩
    · intro t k hkc
      obtain ⟨-, ⟨other, enums, raw, -, he⟩, -⟩ := hacc _ _ (mem_ofTup_ck.1 hkc)
      exact ⟨other, enums, raw, he, A.sideT t k (mem_ofTup_ck.1 hkc)⟩
  obtain ⟨gs', hgs', hobj⟩ := hh i ob.typ hty
  rw [hg] at hgs'
  cases hgs'
  have hshape : ∀ (τ : Ty) (e : FExpr), FOk s'.decls s'.objTy e τ → NoZero τ → InForm e → Shaped τ e := by
    intro τ e hok hn hf
    cases e <;> cases τ <;> simp only [Shaped]
    · simp only [FOk] at hok
      obtain ⟨rfl, -⟩ := hok
      refine ⟨hf.1.1, fun u hu => ?_⟩
      rcases hf.1.2 u hu with ⟨-, h⟩ | h
      · subst hu; subst h; exact absurd rfl hn.1
      · exact h
    · exact hf.1
  refine C76_object_partial (E := ⟨s'.decls, rx.search, rx.valid⟩) (infos := s'.infos) hw A.enums hh hid hbd hC hty hg ?_ ?_ (fun a => s'.frozenFor a) ?_ ?_ ?_
    (A.order _) A.orderT loc fieldLoc
  · intro c hc n hn
    obtain ⟨x, hx, hok⟩ := hobj.1 c hc
    rw [hn] at hx
    cases hx
    refine ⟨?_, fun hnull hty => ?_⟩
    · rcases hok with ⟨-, h1⟩ | hok
      · rw [h1]; cases c.ty <;> trivial
      · exact hshape _ _ hok (hcz hc) (hform ho hg _ _ hn)
    · obtain ⟨u, -, hd⟩ := hc
      refine A.left c ⟨u, .inr hd⟩ ?_ hty
      rcases hok with ⟨h1, -⟩ | hok
      · exact h1
      · rw [hnull] at hok
        simp [FOk] at hok
  · intro n x hx u hs hd
    have hin := inForm_direct hd (hform ho hg n x hx)
    obtain ⟨c, hc, rfl⟩ := hobj.2 n (by rw [hx]; rfl)
    obtain ⟨y, hy, hok⟩ := hobj.1 c hc
    rw [hx] at hy
    cases hy
    have hok' : FOk s'.decls s'.objTy x.expr c.ty := by
      rcases hok with ⟨-, h1⟩ | hok
      · rw [h1] at hd; cases hd
      · exact hok
    obtain ⟨cs, hcs, hf⟩ := directTuple_ok hd hok'
    have hfields : s'.decls.fields u = cs := by simp [Decls.fields, hcs]
    have hnd := fields_names hw.tuples u
    obtain ⟨ht1, ht2⟩ := A.tuples i gs hg _ _ hx u hs hd
    have one : ∀ d ∈ s'.decls.fields u, ∀ fe, hs.lookup d.name = some fe → (d.optional = true ∧ fe = .inull) ∨ FOk s'.decls s'.objTy fe d.ty := by
      intro d hd' fe hfe
      obtain ⟨fe', h1, h2⟩ := fields_find hf d.name (hfields ▸ find_of_mem hnd hd')
      rw [hfe] at h1
      cases h1
      exact h2
    refine ⟨?_, ?_, ht1⟩
    · intro d hd' fe hfe
      have hform' : InForm fe := inForm_field hin.2 (d.name, fe) (mem_of_lookup hfe)
      refine ⟨fun hne => ?_, fun hnull hty => ?_⟩
      · have hok2 : FOk s'.decls s'.objTy fe d.ty := by
          rcases one d hd' fe hfe with ⟨-, h1⟩ | h1
          · exact absurd h1 hne
          · exact h1
        have hsh := hshape _ _ hok2 (hz u d hd') hform'
        unfold Granted
        unfold Shaped at hsh
        cases hty : d.ty <;> rw [hty] at hsh <;> cases hex : fe <;> rw [hex] at hsh <;> try trivial
        next v v' ks =>
          have : v = v' := by
            rw [hex, hty] at hok2
            simp only [FOk, Ty.tup.injEq] at hok2
            exact hok2.1
          subst this
          exact ⟨ht2 d.name v ks (by rw [hfe, hex]), hsh⟩
      · refine A.left d ⟨u, .inl hd'⟩ ?_ hty
        rcases one d hd' fe hfe with ⟨h1, -⟩ | h1
        · exact h1
        · rw [hnull] at h1
          simp [FOk] at h1
    · intro m fe hfe
      obtain ⟨d, hd', hok2⟩ := fieldsOk_mem hf (m, fe) (mem_of_lookup hfe)
      exact inForm_bounded hz fe d.ty (hok2.imp (·.2) id) (hz u d (hfields ▸ hd')) (inForm_field hin.2 (m, fe) (mem_of_lookup hfe))
  · intro a hext n e hn
    unfold PS.frozenFor at hn
    obtain ⟨v, hv1, rfl⟩ := Option.map_eq_some_iff.1 hn
    obtain ⟨b, j, hb, hj, hl⟩ := freezing_some hw.wf hv1
    obtain ⟨x, hx, h1, -⟩ := hfz ho hg n v ⟨b, j, extends_trans hext hb, hj, hl⟩
    exact ⟨x, hx, h1⟩
  · intro a hext
    exact hrec a (hlt hext)
  · intro u cs hu
    exact hv (.tup u) (List.getElem?_eq_some_iff.1 hu).1

/-- all objects -/
theorem objects_guarantee {s' : PS} {rx : List Char → List Char → Bool} {L : Locs}
    (h : ∀ i ob gs, s'.objs[i]? = some ob → s'.heap i = some gs →
      (∀ x, (performObject s'.decls s'.checks ⟨s'.heap, rx⟩ gs (L.obj i) (L.field i) ob.typ).out ≠ .crash x) ∧
      ∀ m ∈ (performObject s'.decls s'.checks ⟨s'.heap, rx⟩ gs (L.obj i) (L.field i) ob.typ).calls, CheckMessage s' rx L i m) :
    ∀ (os : List Nat) (b : Bool), (∀ x, (performObjects s' s'.checks ⟨s'.heap, rx⟩ L os b).out ≠ .crash x) ∧
      ∀ m ∈ (performObjects s' s'.checks ⟨s'.heap, rx⟩ L os b).calls, ∃ i, CheckMessage s' rx L i m := by
  have one : ∀ i, (∀ x, (performOne s' s'.checks ⟨s'.heap, rx⟩ L i).out ≠ .crash x) ∧
      ∀ m ∈ (performOne s' s'.checks ⟨s'.heap, rx⟩ L i).calls, CheckMessage s' rx L i m := by
    intro i
    unfold performOne
    split
    · next ob gs ho hg =>
      obtain ⟨h1, h2⟩ := h i ob gs ho hg
      dsimp only
      split
      · exact ⟨by simp, h2⟩
      · exact ⟨h1, h2⟩
    · exact ⟨by simp [CR.pure], by simp [CR.pure]⟩
  intro os
  induction os with
  | nil => intro b; exact ⟨by simp [performObjects, CR.pure], by simp [performObjects, CR.pure]⟩
  | cons o os ih =>
    intro b
    obtain ⟨h1, h2⟩ := one o
    simp only [performObjects, CR.bind]
    cases ho : (performOne s' s'.checks ⟨s'.heap, rx⟩ L o).out with
    | ok a =>
      obtain ⟨h3, h4⟩ := ih (b && a)
      refine ⟨h3, fun m hm => ?_⟩
      rcases List.mem_append.1 hm with hm | hm
      · exact ⟨o, h2 m hm⟩
      · exact h4 m hm
    | raised => exact ⟨by simp, fun m hm => ⟨o, h2 m hm⟩⟩
    | crash x => exact absurd ho (h1 x)

section
variable {o : Options} {X : Outside} {required : List CU → Finset PNode} {fs : List Source} {s : PS} {V : Verification}

/-- the checks were performed after the linter, with the given messages -/
structure Performed (o : Options) (X : Outside) (R : Finset PNode) (g : STab) (ls : List Loaded) (s1 s' s2 : PS) : Prop where
  rsl : runRsl g o.recover X.rx R ls s1 = .ok true s2
  lint : (X.lint g s2).out = some true
  trlc : runTrlc g o.recover R ls s2 = .ok true s'
  refs : s'.resolveAll g = []

theorem finish_performed {g : STab} {R : Finset PNode} {ls : List Loaded} {ok : Bool} {calls : List MHCall} :
    ((∀ c, (finish o X g R ls ok calls s).out ≠ .crash (.check c)) ∧ (finish o X g R ls ok calls s).calls = calls) ∨
    (ok = true ∧ runTrlc g o.recover R ls s = .ok true (finish o X g R ls ok calls s).state ∧
      (finish o X g R ls ok calls s).state.resolveAll g = [] ∧
      (∀ c, (finish o X g R ls ok calls s).out = .crash (.check c) → (performChecks (finish o X g R ls ok calls s).state g
        (finish o X g R ls ok calls s).state.checks X.rx.search X.locs).out = .crash c) ∧
      (finish o X g R ls ok calls s).calls = calls ++ (performChecks (finish o X g R ls ok calls s).state g
        (finish o X g R ls ok calls s).state.checks X.rx.search X.locs).calls) := by
  unfold finish
  cases h1 : runTrlc g o.recover R ls s with
  | crash c s' => exact .inl ⟨by simp, rfl⟩
  | err s' => exact .inl ⟨by simp, rfl⟩
  | ok b s' =>
    cases b with
    | false => exact .inl ⟨by simp, rfl⟩
    | true =>
      dsimp only
      by_cases h2 : s'.resolveAll g = []
      · rw [if_neg (by simpa using h2)]
        cases ok with
        | false => exact .inl ⟨by simp, rfl⟩
        | true =>
          have e1 : ({ s' with errs := s'.errs ++ s'.resolveAll g } : PS) = s' := by rw [h2]; simp
          rw [if_neg (by simp), e1]
          refine .inr ?_
          cases h3 : (performChecks s' g s'.checks X.rx.search X.locs).out with
          | crash c => exact ⟨rfl, rfl, h2, fun c' h => by cases h; exact h3, rfl⟩
          | raised => exact ⟨rfl, rfl, h2, fun c' h => (by cases h), rfl⟩
          | ok b =>
            cases b with
            | false => exact ⟨rfl, rfl, h2, fun c' h => (by cases h), rfl⟩
            | true => exact ⟨rfl, rfl, h2, fun c' h => (by cases h), rfl⟩
      · rw [if_pos (by simpa using h2)]
        exact .inl ⟨by simp, rfl⟩

theorem analyse_performed {g : STab} {R : Finset PNode} {ls : List Loaded} {ok : Bool} (hl : o.lint = true) :
    ((∀ c, (analyse o X g R ls ok s).out ≠ .crash (.check c)) ∧
      ∀ m ∈ (analyse o X g R ls ok s).calls, ∃ s2, m ∈ (X.lint g s2).calls) ∨
    (ok = true ∧ ∃ s2, Performed o X R g ls s (analyse o X g R ls ok s).state s2 ∧
      (∀ c, (analyse o X g R ls ok s).out = .crash (.check c) → (performChecks (analyse o X g R ls ok s).state g
        (analyse o X g R ls ok s).state.checks X.rx.search X.locs).out = .crash c) ∧
      (analyse o X g R ls ok s).calls = (X.lint g s2).calls ++ (performChecks (analyse o X g R ls ok s).state g
        (analyse o X g R ls ok s).state.checks X.rx.search X.locs).calls) := by
  unfold analyse
  cases h1 : runRsl g o.recover X.rx R ls s with
  | crash c s' => exact .inl ⟨by simp, by simp⟩
  | err s' => exact .inl ⟨by simp, by simp⟩
  | ok b s2 =>
    dsimp only
    by_cases h2 : (!o.recover && !(ok && b)) = true
    · rw [if_pos h2]
      exact .inl ⟨by simp, by simp⟩
    · rw [if_neg h2]
      cases hb : ok && b with
      | false =>
        rw [if_neg (by simp)]
        dsimp only
        split
        · exact .inl ⟨by simp, by simp⟩
        · rcases @finish_performed o X s2 g R ls (false && true) [] with ⟨h3, h4⟩ | ⟨h3, -⟩
          · exact .inl ⟨h3, by rw [h4]; simp⟩
          · cases h3
      | true =>
        simp only [Bool.and_eq_true] at hb
        obtain ⟨rfl, rfl⟩ := hb
        rw [if_pos (by simp [hl])]
        cases hx : (X.lint g s2).out with
        | none => exact .inl ⟨by simp, fun m hm => ⟨s2, hm⟩⟩
        | some b =>
          dsimp only
          split
          · refine .inl ⟨?_, fun m hm => ⟨s2, hm⟩⟩
            intro c
            dsimp only
            split <;> simp
          · rcases @finish_performed o X s2 g R ls (true && b) (X.lint g s2).calls with ⟨h3, h4⟩ | ⟨h3, h4, h5, h6, h7⟩
            · exact .inl ⟨h3, by rw [h4]; exact fun m hm => ⟨s2, hm⟩⟩
            · simp only [Bool.true_and] at h3
              subst h3
              exact .inr ⟨rfl, s2, ⟨h1, hx, h4, h5⟩, h6, h7⟩

/-- the categories of messages about possible errors in checks -/
def possibleError (category : String) : Prop :=
  category = "vcg-evaluation-of-null" ∨ category = "vcg-div-by-zero" ∨ category = "vcg-array-index"

theorem verifying_calls {rx : List Char → List Char → Bool} {g : STab} {m : MHCall} (h : m ∈ (verifying V rx g s).calls) :
    (∃ l t c, m = .check l t c) ∨ ∃ ct, m = .warning (V.unsupported ct).1 (V.unsupported ct).2 false := by
  unfold verifying at h
  split at h
  · cases h
  · split at h
    · cases h
    · next cs hcs =>
      rcases List.mem_append.1 h with h | h
      · obtain ⟨x, -, rfl⟩ := List.mem_map.1 h
        exact .inl ⟨_, _, _, rfl⟩
      · obtain ⟨f, hf, rfl⟩ := analyzeAll_some _ _ hcs
        obtain ⟨ct, hct, hm⟩ := List.mem_flatMap.1 h
        have := hf ct hct
        unfold PS.analyze at this
        split at this
        · rw [← Option.some.inj this] at hm
          obtain ⟨x, -, rfl⟩ := List.mem_map.1 hm
          exact .inl ⟨_, _, _, rfl⟩
        · rw [← Option.some.inj this] at hm
          rw [List.mem_singleton.1 hm]
          exact .inr ⟨ct, rfl⟩
        · cases this

theorem verifying_clean {rx : Regex} {g : STab} (r : Ready g rx s) (h : (verifying V rx.search g s).out = some true)
    (hsolve : ∀ ct G, DeclaredCt s.decls ct → s.verify rx.search ct TS.empty = .ok () G → Answers s.decls G (V.solve ct G))
    (hu : ∀ ct, MHCall.warning (V.unsupported ct).1 (V.unsupported ct).2 false ∉ (verifying V rx.search g s).calls)
    (hp : ∀ l t c, MHCall.check l t c ∈ (verifying V rx.search g s).calls → ¬ possibleError c) : AllClean s rx.search := by
  intro ct hct
  unfold verifying at h hu hp
  split at h
  · cases h
  · next ms hms =>
    rw [hms] at hu hp
    dsimp only at hu hp
    split at h
    · cases h
    · next cs hcs =>
      rw [hcs] at hu hp
      dsimp only at hu hp
      obtain ⟨f, hf, rfl⟩ := analyzeAll_some _ _ hcs
      have hin := (mem_composites r ct).2 hct
      have hfc := hf ct hin
      have hsub : ∀ m ∈ f ct, m ∈ (ms.map fun m => MHCall.check (V.render m).1 (V.render m).2 m.category) ++
          ((s.declaredTypes g).filterMap Ty.composite?).flatMap f :=
        fun m hm => List.mem_append_right _ (List.mem_flatMap.2 ⟨ct, hin, hm⟩)
      unfold PS.analyze at hfc
      split at hfc
      · next G hG =>
        refine ⟨G, hG, C77_silent (hsolve ct G hct hG) fun x hx => ?_⟩
        have := hp _ _ _ (hsub (.check (V.tell ct x).1 (V.tell ct x).2 x.2.category)
          (by rw [← Option.some.inj hfc]; exact List.mem_map.2 ⟨x, hx, rfl⟩))
        cases hfb : x.2 <;> rw [hfb] at this <;> simp [possibleError, Feedback.category] at this <;> rfl
      · exact absurd (hsub _ (by rw [← Option.some.inj hfc]; exact List.mem_singleton.2 rfl)) (hu ct)
      · cases hfc

/-- **C76** for whole runs with verification of checks: let the answers of the solver be right (`Answers`), let no
message say that something may go wrong in a check or that a type was not verified, let the parsers report
no error, and let the declarations be as the verification assumes (`Assumed`).  Then performing the checks
ends without internal exception, and all messages are those of the linter, the notes from elsewhere, and
messages of checks that are false for an object or for a tuple in it; there is none that says that a check
could not be evaluated.

Missing: what `Assumed` asks for is not ensured by anything (`C76_violated`, C29, C33). -/
theorem C76_run_partial (hX : X.lint = verifying V X.rx.search) (hl : o.lint = true) (hb : Blank s)
    (hsolve : ∀ ct G, DeclaredCt (process o X required fs s).state.decls ct →
      (process o X required fs s).state.verify X.rx.search ct TS.empty = .ok () G →
      Answers (process o X required fs s).state.decls G (V.solve ct G))
    (hu : ∀ ct, MHCall.warning (V.unsupported ct).1 (V.unsupported ct).2 false ∉ (process o X required fs s).calls)
    (hp : ∀ l t c, MHCall.check l t c ∈ (process o X required fs s).calls → ¬ possibleError c)
    (he : (process o X required fs s).state.errs = s.errs)
    (A : Assumed (process o X required fs s).state X.rx.search) :
    (∀ c, (process o X required fs s).out ≠ .crash (.check c)) ∧
    ∀ m ∈ (process o X required fs s).calls, (∃ l t c, m = .check l t c) ∨ (∃ ls st, m ∈ X.notes ls st) ∨
      ∃ i, CheckMessage (process o X required fs s).state X.rx.search X.locs i m := by
  unfold process at hsolve hu hp he A ⊢
  split
  · exact ⟨by simp, by simp⟩
  · exact ⟨by simp, by simp⟩
  · next g ls s1 h1 =>
    rw [h1] at hsolve hu hp he A
    dsimp only at hsolve hu hp he A ⊢
    have hpr := loadAll_ok globalTable_pkgTab h1
    rcases @analyse_performed o X (s1.withPackages g) g (required (ls.map (·.cu))) ls (ls.all fun l => !l.cu.err) hl with
      ⟨h2, h3⟩ | ⟨h2, s2, P, h4, h5⟩
    · refine ⟨h2, fun m hm => ?_⟩
      rcases List.mem_append.1 hm with hm' | hm'
      · obtain ⟨s2, h4⟩ := h3 m hm'
        rw [hX] at h4
        rcases verifying_calls h4 with h5 | ⟨ct, rfl⟩
        · exact .inl h5
        · exact absurd hm (hu ct)
      · exact .inr (.inl ⟨_, _, hm'⟩)
    · have r := rsl_ready (hb.quiet hpr.quiet) hpr.tab P.rsl
      generalize hst : (analyse o X g (required (ls.map (·.cu))) ls (ls.all fun l => !l.cu.err) (s1.withPackages g)) = Z at *
      have hk := run_kept r.inv.sound.world P.trlc
      have hc := (runTrlcFiles_cks ((trlcFiles (required (ls.map (·.cu))) ls).map (·.openFile g o.recover))).rep s2
      have ht := P.trlc
      unfold runTrlc at ht
      rw [ht] at hc
      have hc : Z.state.checks = s2.checks := hc
      have hver := verify_same hk.decls hk.infos hc
      have hlc : ∀ m ∈ (verifying V X.rx.search g s2).calls, m ∈ Z.calls ++ X.notes ls Z.state := by
        intro m hm
        rw [h5, hX]
        exact List.mem_append_left _ (List.mem_append_left _ hm)
      have hcl : AllClean s2 X.rx.search := by
        refine verifying_clean r (by rw [← hX]; exact P.lint) (fun ct G hct hG => ?_) (fun ct hm => hu ct (hlc _ hm))
          (fun l t c hm => hp l t c (hlc _ hm))
        rw [← hk.decls]
        exact hsolve ct G (by rw [hk.decls]; exact hct) (by rw [hver]; exact hG)
      have hcl' : AllClean Z.state X.rx.search := by
        intro ct hct
        rw [hk.decls] at hct
        obtain ⟨G, hG, hv⟩ := hcl ct hct
        exact ⟨G, by rw [hver]; exact hG, by rw [hk.decls]; exact hv⟩
      have hno : Z.state.errs = s2.errs := by
        have hne : ∀ l ∈ ls, l.cu.err = false := by
          intro l hl
          have := List.all_eq_true.1 h2 l hl
          simpa using this
        obtain ⟨q1, e1, -⟩ := hpr.good hne
        have t1 := runRsl_tells g o.recover X.rx (required (ls.map (·.cu))) ls (s1.withPackages g)
        rw [P.rsl] at t1
        obtain ⟨q2, e2, -⟩ := t1
        have e2 : s2.errs = s1.errs ++ q2 := e2
        have t2 := runTrlcFiles_tells ((trlcFiles (required (ls.map (·.cu))) ls).map (·.openFile g o.recover)) s2
        rw [ht] at t2
        obtain ⟨q3, e3, -⟩ := t2
        have hl := congrArg List.length (e3.symm.trans he)
        rw [e2, e1] at hl
        simp only [List.length_append] at hl
        have : q3 = [] := List.length_eq_zero_iff.1 (by omega)
        rw [e3, this, List.append_nil]
      have hobj := objects_guarantee (s' := Z.state) (rx := X.rx.search) (L := X.locs) (fun i ob gs ho hg => by
        obtain ⟨a1, a2⟩ := object_guarantee r ht hno P.refs A hcl' ho hg (X.locs.obj i) (X.locs.field i)
        exact ⟨a1, fun m hm => ⟨ob, gs, ho, hg, a2 m hm⟩⟩)
      obtain ⟨b1, b2⟩ := hobj (Z.state.visited g) true
      refine ⟨fun c hcr => b1 c (h4 c hcr), fun m hm => ?_⟩
      rcases List.mem_append.1 hm with hm' | hm'
      · rw [h5] at hm'
        rcases List.mem_append.1 hm' with hm' | hm'
        · rw [hX] at hm'
          rcases verifying_calls hm' with h5 | ⟨ct, rfl⟩
          · exact .inl h5
          · exact absurd hm (hu ct)
        · exact .inr (.inr (b2 m hm'))
      · exact .inr (.inl ⟨_, _, hm'⟩)

/-- **C26** for whole runs: after a successful run two references are equal in a check iff they refer to the same
object, if the first object has at least one component that is not frozen.

Missing: as for `C26_reference_equality_partial`. -/
theorem C26_run_partial (hb : Blank s) (h : (process o X required fs s).out = .table) {i j : Nat} {a b : Obj}
    (hi : (process o X required fs s).state.objs[i]? = some a) (hj : (process o X required fs s).state.objs[j]? = some b)
    (hown : HasOwnValue (process o X required fs s).state.decls (process o X required fs s).state.infos a)
    (rx : List Char → List Char → Bool) (τ τ' : Ty) :
    ∃ r, Gives ⟨(process o X required fs s).state.heap, rx⟩ (some (twoRefs τ τ' i j)) (eqExpr (.name "a" τ) (.name "b" τ')) (.bool r) ∧
      (r = true ↔ i = j) := by
  obtain ⟨g, ls, s1, s2, k, r⟩ := run_ready hb h
  obtain ⟨e1, e2, -⟩ := succeeded_kept k r
  rw [e1, e2] at hown
  cases hp : o.parseTrlc with
  | false => rw [k.rslOnly hp, r.inv.objs] at hi; cases hi
  | true =>
    exact C26_reference_equality_partial r.inv.sound.world r.noObjects r.inv.frozenBefore.before r.pkgs (k.trlc hp).1 (k.trlc hp).2.1
      hi hj hown rx τ τ'

end

end Verif.Props
