import Verif.Props.Checks
/-!
# Which objects pass (C63), without assumptions on the checks
-/
namespace Verif.Props
open Verif.Model Verif.Spec Verif.Lemmas

variable {env : EvEnv} {k : Composite}

theorem performCheck_passes (c : Check) : (performCheck env k c).out = .ok true ↔ Passes env k.ctx c := by
  unfold performCheck Passes Holds Warns Fails
  split
  · next x h => simp [h]
  · next x h => simp [h]
  · next v h =>
    obtain ⟨t, v⟩ := v
    rw [h]
    dsimp only
    split
    · simp
    · simp [CR.pure]
    · split
      · next hs => simp [hs]
      · next hs => simp [hs]
      · next hs => simp [hs]
    · next h1 h2 h3 => simp_all

theorem performAll_passes (cs : List Check) (ok : Bool) :
    (performAll env k cs ok).out = .ok true ↔ ok = true ∧ ∀ c ∈ cs, Passes env k.ctx c := by
  induction cs generalizing ok with
  | nil => simp [performAll, CR.pure]
  | cons c cs ih =>
    have hc := performCheck_passes (env := env) (k := k) c
    unfold performAll CR.bind
    cases h : (performCheck env k c).out with
    | ok b =>
      dsimp only
      rw [ih, List.forall_mem_cons, ← hc, h]
      cases b <;> simp
    | raised =>
      rw [h] at hc
      simp [← hc]
    | crash x =>
      rw [h] at hc
      simp [← hc]

mutual
theorem performType_passes {D : Decls} {objTy : Nat → Option Nat} (C : CheckTab) (τ : Ty) :
    ∀ v : FExpr, (v = .inull ∨ FOk D objTy v τ) →
      ((performType C env τ v).out = .ok true ↔ TuplesPass C env v)
  | .tup t fs, h => by
    rcases h with h | h
    · cases h
    · simp only [FOk] at h
      obtain ⟨rfl, -⟩ := h
      simp only [performType]
      rw [performAll_passes]
      constructor
      · rintro ⟨-, h⟩ u gs hd c hc
        cases hd
        exact h c ((mem_ofTup C t c).2 hc)
      · exact fun h => ⟨rfl, fun c hc => h t fs .here c ((mem_ofTup C t c).1 hc)⟩
  | .arr t es, h => by
    rcases h with h | h
    · cases h
    · simp only [FOk] at h
      obtain ⟨rfl, id, elem, lo, hi, rfl, hall⟩ := h
      simp only [performType]
      rw [performElems_passes C elem es hall]
      constructor
      · intro h u gs hd
        cases hd with
        | elem he hd => exact h _ he u gs hd
      · exact fun h e he u gs hd => h u gs (.elem he hd)
  | .inull, _ => by
    refine iff_of_true ?_ (fun u gs hd => by cases hd)
    cases τ <;> simp [performType, CR.pure]
  | .bool _, h | .int _, h | .dec _, h | .str _, h | .markup _, h => by
    refine iff_of_true ?_ (fun u gs hd => by cases hd)
    rcases h with h | h
    · cases h
    · simp only [FOk] at h
      subst h
      simp [performType, CR.pure]
  | .enum _ _, h | .ref _ _, h => by
    refine iff_of_true ?_ (fun u gs hd => by cases hd)
    rcases h with h | h
    · cases h
    · simp only [FOk] at h
      obtain ⟨rfl, h⟩ := h
      first
        | simp [performType, CR.pure]; done
        | obtain ⟨o, u, -, -, h⟩ := h
          revert h
          cases τ <;> simp [performType, CR.pure, Referable]
  | .neg _, h | .pos _, h => by
    refine iff_of_true ?_ (fun u gs hd => by cases hd)
    rcases h with h | h
    · cases h
    · simp only [FOk] at h
      rcases h with ⟨rfl, -⟩ | ⟨rfl, -⟩ <;> simp [performType, CR.pure]

theorem performElems_passes {D : Decls} {objTy : Nat → Option Nat} (C : CheckTab) (elem : Ty) :
    ∀ es : List FExpr, AllOk D objTy es elem →
      ((performElems C env elem es).out = .ok true ↔ ∀ e ∈ es, TuplesPass C env e)
  | [], _ => iff_of_true rfl (by simp)
  | v :: vs, h => by
    simp only [AllOk] at h
    have h1 := performType_passes C elem v (Or.inr h.1)
    have h2 := performElems_passes C elem vs h.2
    simp only [performElems, CR.bind]
    rw [List.forall_mem_cons, ← h1, ← h2]
    cases hx : (performType C env elem v).out with
    | ok b => cases b <;> simp [CR.pure]
    | raised => simp
    | crash x => simp
end

theorem performComps_passes {D : Decls} {objTy : Nat → Option Nat} (C : CheckTab) (fs : Fields)
    (cs : List Comp) (ok : Bool)
    (h : ∀ c ∈ cs, ∃ n, fs.lookup c.name = some n ∧ (n.expr = .inull ∨ FOk D objTy n.expr c.ty)) :
    (performComps C env fs cs ok).out = .ok true ↔ (ok = true ∧ ∀ c ∈ cs, ∀ n, fs.lookup c.name = some n →
      TuplesPass C env n.expr) := by
  induction cs generalizing ok with
  | nil => simp [performComps, CR.pure]
  | cons c cs ih =>
    obtain ⟨n, hn, hv⟩ := h c List.mem_cons_self
    have ih := fun ok => ih ok (fun c hc => h c (List.mem_cons_of_mem _ hc))
    have h1 := performType_passes (env := env) C c.ty n.expr hv
    simp only [performComps, hn, CR.bind]
    rw [List.forall_mem_cons]
    have e1 : (∀ m, fs.lookup c.name = some m → TuplesPass C env m.expr) ↔ TuplesPass C env n.expr := by
      rw [hn]; simp
    rw [e1, ← h1]
    cases hx : (performType C env c.ty n.expr).out with
    | ok b =>
      dsimp only
      rw [ih]
      cases b <;> simp
    | raised => simp
    | crash x => simp

/-- An object passes iff all checks that apply to it pass. -/
theorem performObject_passes {D : Decls} {objTy : Nat → Option Nat} (wf : WFDecls D) (C : CheckTab)
    (fs : Fields) (t : Nat) (ho : ObjOk D objTy fs t) (loc : String) (fieldLoc : String → String) :
    (performObject D C env fs loc fieldLoc t).out = .ok true ↔
      ((∀ c, AppliesTo D C t c → Passes env (recordCtx fs) c) ∧
        ∀ k n, fs.lookup k = some n → TuplesPass C env n.expr) := by
  have h1 := performComps_passes (env := env) (D := D) (objTy := objTy) C fs (D.allComponents t) true (by
    intro c hc
    obtain ⟨n, hn, hv⟩ := ho.1 c ((mem_allComponents wf t c).1 hc)
    exact ⟨n, hn, hv.imp (·.2) id⟩)
  have h2 := fun ok => performAll_passes (env := env) (k := recordComposite fs loc fieldLoc)
    (iterChecks D C D.recs.length t) ok
  have h3 : (∀ c ∈ iterChecks D C D.recs.length t, Passes env (recordComposite fs loc fieldLoc).ctx c) ↔
      ∀ c, AppliesTo D C t c → Passes env (recordCtx fs) c :=
    ⟨fun h c hc => h c ((mem_iterChecks wf C t c).2 hc), fun h c hc => h c ((mem_iterChecks wf C t c).1 hc)⟩
  have h4 : (∀ c ∈ D.allComponents t, ∀ n, fs.lookup c.name = some n → TuplesPass C env n.expr) ↔
      ∀ k n, fs.lookup k = some n → TuplesPass C env n.expr := by
    constructor
    · intro h k n hk
      obtain ⟨c, hc, rfl⟩ := ho.2 k (by rw [hk]; rfl)
      exact h c ((mem_allComponents wf t c).2 hc) n hk
    · exact fun h c _ n hn => h _ n hn
  rw [← h3, ← h4]
  unfold performObject CR.bind
  cases hx : (performComps C env fs (D.allComponents t) true).out with
  | ok b =>
    rw [hx] at h1
    dsimp only
    rw [h2]
    cases b
    · simp at h1
      simp
      intro _
      simpa using h1
    · simp at h1
      simp
      intro _ c hc n hn
      exact h1 c hc n hn
  | raised =>
    rw [hx] at h1
    simp only [reduceCtorEq, true_and, false_iff] at h1
    simp only [reduceCtorEq, false_iff]
    exact fun h => h1 h.2
  | crash x =>
    rw [hx] at h1
    simp only [reduceCtorEq, true_and, false_iff] at h1
    simp only [reduceCtorEq, false_iff]
    exact fun h => h1 h.2

theorem performObjects_passes (s : PS) (C : CheckTab) (env : EvEnv) (L : Locs) (os : List Nat) (ok : Bool) :
    (performObjects s C env L os ok).out = .ok true ↔
      ok = true ∧ ∀ o ∈ os, (performOne s C env L o).out = .ok true := by
  induction os generalizing ok with
  | nil => simp [performObjects, CR.pure]
  | cons o os ih =>
    unfold performObjects CR.bind
    rw [List.forall_mem_cons]
    cases h : (performOne s C env L o).out with
    | ok b =>
      dsimp only
      rw [ih]
      cases b <;> simp
    | raised => simp
    | crash x => simp

/-- **C63**: after a successful run over the trlc files and successful resolution of references,
the checks pass iff for every object all checks of its type and of the types it extends are true
or only warnings, and so are all checks of the tuples in its components (directly or in arrays).
Whatever the checks are. -/
theorem C63_passes_iff {fs : List OpenFile} {s s' : PS} {global : STab} {rx : List Char → List Char → Bool}
    {C : CheckTab} (hw : WorldOk s.decls s.infos)
    (h0 : NoObjects s) (hp : PkgsKnown global s) (h : runTrlcFiles fs s = .ok true s')
    (hr : s'.resolveAll global = []) (L : Locs) :
    (performChecks s' global C rx L).out = .ok true ↔
      ∀ (i : Nat) (ob : Obj) (gs : Fields), s'.objs[i]? = some ob → s'.heap i = some gs →
        (∀ c, AppliesTo s.decls C ob.typ c → Passes ⟨s'.heap, rx⟩ (recordCtx gs) c) ∧
        ∀ k n, gs.lookup k = some n → TuplesPass C ⟨s'.heap, rx⟩ n.expr := by
  have hk := run_kept hw h
  have hheap := C35_heap hw h0 hp h hr
  have one : ∀ (i : Nat) (ob : Obj) (gs : Fields), s'.objs[i]? = some ob → s'.heap i = some gs →
      ((performOne s' C ⟨s'.heap, rx⟩ L i).out = .ok true ↔
        ((∀ c, AppliesTo s.decls C ob.typ c → Passes ⟨s'.heap, rx⟩ (recordCtx gs) c) ∧
          ∀ k n, gs.lookup k = some n → TuplesPass C ⟨s'.heap, rx⟩ n.expr)) := by
    intro i ob gs hob hgs
    have ht : s'.objTy i = some ob.typ := by simp [PS.objTy, hob]
    obtain ⟨gs', h1, h2⟩ := hheap i _ ht
    rw [hgs] at h1
    cases h1
    rw [← performObject_passes hw.wf C gs ob.typ h2 (L.obj i) (L.field i), ← hk.decls]
    unfold performOne
    rw [hob]
    simp only [hgs]
    split
    · next h => simp [h]
    · rfl
  unfold performChecks
  rw [performObjects_passes]
  constructor
  · rintro ⟨-, hall⟩ i ob gs hob hgs
    exact (one i ob gs hob hgs).1 (hall i (visited_all (hk.inv h0.tabInv) (pkgsKnown_kept hk hp) hob))
  · intro hall
    refine ⟨rfl, fun o _ => ?_⟩
    cases hob : s'.objs[o]? with
    | none => unfold performOne; rw [hob]; rfl
    | some ob =>
      cases hgs : s'.heap o with
      | none => unfold performOne; rw [hob]; simp only [hgs]; rfl
      | some gs => exact (one o ob gs hob hgs).2 (hall o ob gs hob hgs)

end Verif.Props
