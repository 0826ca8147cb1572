import Verif.Props.Guarantee
import Verif.Props.AnalysisSamples
/-!
# A run to which C76 for whole runs applies
-/
namespace Verif.Props
open Verif.Model Verif.Spec Verif.Lemmas Verif.Lemmas.Vcg

namespace GuSample

/-- a solver that knows only that an assumption follows from itself -/
def V : Verification :=
  ⟨fun _ => ("", ""), fun _ G => (vcsOf G).map fun vc => ⟨(vc.node, vc.pos), vc.fb, AnSample.obvious vc⟩, fun _ _ => ("", ""), fun _ => ("", "")⟩

/-- the linter with this solver -/
def outside : Outside := { RunSample.outside with lint := verifying V RunSample.outside.rx.search }

/-- `process` on these files -/
def run (required : List CU → Finset PNode) (fs : List SrcFile) : ProcOut :=
  process RunSample.options outside required (RunSample.opened fs).1 (RunSample.opened fs).2

theorem run_any (required : List CU → Finset PNode) (fs : List SrcFile)
    (h : (RunSample.opened fs).1.all (·.file.primary) = true) : run required fs = run (fun _ => ∅) fs :=
  process_primary (by simpa using h) _ _

/-- the types of `AnSample`, with a fatal check for the tuple -/
def rsl : SrcFile := ⟨"p.rsl", .rsl, true, "package P
tuple Pair { a Integer separator @ b optional Integer }
type R { t Pair }
checks Pair { b != null, fatal \"second\" }
checks R { t.b > 0, error \"positive\" }".toList⟩

/-- one object for which the check is false -/
def trlc : SrcFile := ⟨"p.trlc", .trlc, true, "package P R x { t = 1 @ 0 } R y { t = 1 @ 2 }".toList⟩

def second : Check := { AnSample.second with sev := .fatal }
def checks : CheckTab := { recs := [[AnSample.positive]], tups := [[second]] }

/-- recognises the checks of the sample -/
def isPositive : Check → Bool
  | ⟨.binary (some .bool) .gt (.field (.name n (.tup 0)) m .int) (.int 0), .error, t, none⟩ => n == "t" && m == "b" && t == "positive"
  | _ => false

theorem isPositive_eq {c : Check} (h : isPositive c = true) : c = AnSample.positive := by
  unfold isPositive at h
  split at h
  · simp only [Bool.and_eq_true, beq_iff_eq] at h
    obtain ⟨⟨rfl, rfl⟩, rfl⟩ := h
    rfl
  · cases h

/-- and the other -/
def isSecond : Check → Bool
  | ⟨.binary (some .bool) .neq (.name n .int) .null, .fatal, t, none⟩ => n == "b" && t == "second"
  | _ => false

theorem isSecond_eq {c : Check} (h : isSecond c = true) : c = second := by
  unfold isSecond at h
  split at h
  · simp only [Bool.and_eq_true, beq_iff_eq] at h
    obtain ⟨rfl, rfl⟩ := h
    rfl
  · cases h

/-- and both -/
def isChecks : CheckTab → Bool
  | ⟨[[c]], [[d]]⟩ => isPositive c && isSecond d
  | _ => false

theorem isChecks_eq {C : CheckTab} (h : isChecks C = true) : C = checks := by
  unfold isChecks at h
  split at h
  · simp only [Bool.and_eq_true] at h
    rw [isPositive_eq h.1, isSecond_eq h.2]
    rfl
  · cases h

/-- recognises the objects of the sample -/
def isObject : Option Fields → Bool
  | some [(t, ⟨_, .tup 0 [(a, .int 1), (b, .int _)]⟩)] => t == "t" && a == "a" && b == "b"
  | none => true
  | _ => false

theorem isObject_eq {x : Option Fields} (h : isObject x = true) : ∀ gs, x = some gs →
    ∃ k i, gs = [("t", ⟨k, .tup 0 [("a", .int 1), ("b", .int i)]⟩)] := by
  unfold isObject at h
  split at h
  · simp only [Bool.and_eq_true, beq_iff_eq] at h
    obtain ⟨⟨rfl, rfl⟩, rfl⟩ := h
    rintro gs ⟨⟩
    exact ⟨_, _, rfl⟩
  · rintro gs ⟨⟩
  · cases h

/-- everything that is needed about the run -/
def facts (r : ProcOut) : Bool :=
  r.calls == [.error "" "positive" false true] && decide (r.state.decls = AnSample.decls) && isChecks r.state.checks &&
  r.state.infos.all (fun i => i.frozen.isEmpty) && decide (r.state.objs.length = 2) && isObject (r.state.heap 0) && isObject (r.state.heap 1) &&
  decide (r.state.errs = (RunSample.opened [rsl, trlc]).2.errs)

set_option maxRecDepth 100000 in
theorem facts_run (required) : facts (run required [rsl, trlc]) = true := by
  rw [run_any _ _ (by decide +kernel)]
  decide +kernel

attribute [local irreducible] RunSample.opened process

/-- the declarations without files -/
def st : PS := { PS.fresh [] with decls := AnSample.decls, checks := checks }

/-- all goals are obvious -/
def shown (ct : CompositeTy) : Bool :=
  match st.verify outside.rx.search ct TS.empty with
  | .ok _ G => G.edges.all fun e => decide (e.1 < e.2)
  | _ => false

theorem shown_rec : shown (.record 0) = true := by decide +kernel
theorem shown_tup : shown (.tup 0) = true := by decide +kernel

theorem answers {G : TS} (hf : (G.edges.all fun e => decide (e.1 < e.2)) = true) (D : Decls) (ct : CompositeTy) :
    Answers D G (V.solve ct G) := by
  have hf' : ∀ e ∈ G.edges, e.1 < e.2 := fun e he => of_decide_eq_true (List.all_eq_true.1 hf e he)
  constructor
  · intro vc hvc
    exact ⟨_, List.mem_map_of_mem (vc_mem hf' hvc), rfl, rfl, AnSample.obvious_unsat⟩
  · intro v hv
    obtain ⟨vc, hvc, rfl⟩ := List.mem_map.1 hv
    exact ⟨vc, mem_vc hvc, rfl, rfl⟩

theorem frozen_none {s : PS} (h : (s.infos.all fun i => i.frozen.isEmpty) = true) : s.frozenFor = fun _ _ => none := by
  funext t n
  have : s.freezing t n = none := by
    unfold PS.freezing
    rw [List.findSome?_eq_none_iff]
    intro a _
    unfold PS.info
    cases hi : s.infos[a]? with
    | none => rfl
    | some i =>
      have := List.all_eq_true.1 h i (List.mem_of_getElem? hi)
      rw [Option.getD_some, List.isEmpty_iff.1 this]
      rfl
  unfold PS.frozenFor
  rw [this]
  rfl

theorem verify_st {s : PS} (h1 : s.decls = AnSample.decls) (h2 : s.checks = checks) (h3 : (s.infos.all fun i => i.frozen.isEmpty) = true)
    (rx : List Char → List Char → Bool) (ct : CompositeTy) : s.verify rx ct = st.verify rx ct := by
  have h4 : s.frozenFor = st.frozenFor := by rw [frozen_none h3, frozen_none rfl]
  cases ct <;> simp only [PS.verify, h4, h1, h2] <;> rfl

theorem assumed {s : PS} (h1 : s.decls = AnSample.decls) (h2 : s.checks = checks) (hh : ∀ i gs, s.heap i = some gs →
    ∃ k b, gs = [("t", ⟨k, .tup 0 [("a", .int 1), ("b", .int b)]⟩)]) (rx : List Char → List Char → Bool) : Assumed s rx := by
  have hc : ∀ c : Comp, (∃ t, c ∈ AnSample.decls.fields t ∨ Declares AnSample.decls t c) →
      c = ⟨"t", .tup 0, false, .record 0⟩ ∨ c.ty = .int := by
    rintro c ⟨t, h | ⟨r, h, hc⟩⟩
    · rcases t with _ | t
      · simp [AnSample.decls, Decls.fields] at h
        rcases h with rfl | rfl <;> exact .inr rfl
      · simp [AnSample.decls, Decls.fields] at h
    · rcases t with _ | t
      · simp [AnSample.decls] at h; subst h; simp at hc; exact .inl hc
      · simp [AnSample.decls] at h
  constructor
  · rw [h1]; exact AnSample.enums
  · rintro t c ⟨cs, h, hc⟩
    rw [h2] at h
    rw [h1]
    rcases t with _ | t
    · simp only [checks, List.getElem?_cons_zero, Option.some.injEq] at h
      subst h
      rw [List.mem_singleton.1 hc]
      exact ⟨by simp [Side, AnSample.positive, Expr.typ], by simp [Exact, AnSample.positive, BinOp.allowsNull]⟩
    · simp [checks] at h
  · rintro t c ⟨cs, h, hc⟩
    rw [h2] at h
    rw [h1]
    rcases t with _ | t
    · simp only [checks, List.getElem?_cons_zero, Option.some.injEq] at h
      subst h
      rw [List.mem_singleton.1 hc]
      exact ⟨by simp [Side, second, AnSample.second], by simp [Exact, second, AnSample.second, Comparable, Expr.typ]⟩
    · simp [checks] at h
  · intro t
    rw [h1, h2]
    rcases t with _ | t <;> simp [iterChecks, AnSample.decls, checks, CheckTab.ofRec]
  · intro t
    rw [h2]
    rcases t with _ | t <;> simp [checks, CheckTab.ofTup]
  · rw [h1]
    intro c h
    rcases hc c h with rfl | h <;> simp [NoZero, *]
  · rw [h1]
    intro c h ho hty
    rcases hc c h with rfl | h
    · cases ho
    · rw [h] at hty
      rcases hty with ⟨u, hu⟩ | ⟨_, _, _, _, hu⟩ <;> cases hu
  · intro i gs hg k n hn u hs hd
    obtain ⟨id, b, rfl⟩ := hh i gs hg
    simp only [List.lookup] at hn
    split at hn
    · cases hn
      cases hd
      constructor
      · rintro c ⟨cs, h, hc⟩ hsev
        rw [h2] at h
        simp only [checks, List.getElem?_cons_zero, Option.some.injEq] at h
        subst h
        rw [List.mem_singleton.1 hc] at hsev
        cases hsev
      · intro m v ks hm
        simp only [List.lookup] at hm
        split at hm
        · cases hm
        · split at hm <;> cases hm
    · cases hn

/-- C76_run_partial applies: the only message is that of the check of `R`, for `x` -/
example (required) : (run required [rsl, trlc]).calls = [.error "" "positive" false true] ∧
    ∃ i, CheckMessage (run required [rsl, trlc]).state outside.rx.search outside.locs i (.error "" "positive" false true) := by
  have F := facts_run required
  simp only [facts, Bool.and_eq_true, beq_iff_eq, decide_eq_true_eq] at F
  obtain ⟨⟨⟨⟨⟨⟨⟨f1, f2⟩, f3⟩, f4⟩, f5⟩, f6⟩, f7⟩, f8⟩ := F
  have f3 := isChecks_eq f3
  refine ⟨f1, ?_⟩
  obtain ⟨-, h⟩ := C76_run_partial (o := RunSample.options) (X := outside) (V := V) (required := required)
    (fs := (RunSample.opened [rsl, trlc]).1) (s := (RunSample.opened [rsl, trlc]).2) rfl rfl (RunSample.opened_blank _)
    (fun ct G hct hG => by
      change DeclaredCt (run required [rsl, trlc]).state.decls ct at hct
      change (run required [rsl, trlc]).state.verify _ ct TS.empty = _ at hG
      rw [f2] at hct
      rw [verify_st f2 f3 f4] at hG
      have hs : shown ct = true := by
        cases ct with
        | record t =>
          have : t = 0 := by simp [DeclaredCt, AnSample.decls] at hct; exact hct
          rw [this]; exact shown_rec
        | tup t =>
          have : t = 0 := by simp [DeclaredCt, AnSample.decls] at hct; exact hct
          rw [this]; exact shown_tup
      unfold shown at hs
      rw [hG] at hs
      exact answers hs _ ct)
    (fun ct h => by
      change _ ∈ (run required [rsl, trlc]).calls at h
      rw [f1] at h
      simp at h)
    (fun l t c h => by
      change _ ∈ (run required [rsl, trlc]).calls at h
      rw [f1] at h
      simp at h)
    f8
    (assumed f2 f3 (fun i gs hg => by
      rcases i with _ | _ | i
      · exact isObject_eq f6 gs hg
      · exact isObject_eq f7 gs hg
      · exfalso
        have : (run required [rsl, trlc]).state.objs[i + 2]? = none := List.getElem?_eq_none (by omega)
        obtain ⟨ob, ho, -⟩ := heap_some hg
        change (run required [rsl, trlc]).state.objs[i + 2]? = _ at ho
        rw [this] at ho
        cases ho) _)
  rcases h (.error "" "positive" false true) (by
    change _ ∈ (run required [rsl, trlc]).calls
    rw [f1]
    simp) with ⟨l, t, c, h⟩ | ⟨ls, st, h⟩ | h
  · cases h
  · cases h
  · exact h

/-- only objects for which the check is true -/
def good : SrcFile := ⟨"p.trlc", .trlc, true, "package P R x { t = 1 @ 2 } R y { t = 1 @ 2 }".toList⟩

/-- what is needed for C26 -/
def goodFacts (r : ProcOut) : Bool :=
  decide (r.out = .table) && decide (r.state.decls = AnSample.decls) && r.state.infos.all (fun i => i.frozen.isEmpty) &&
  (r.state.objs.map (·.typ) == [0, 0])

end GuSample

namespace GuSample
set_option maxRecDepth 100000 in
theorem good_run (required) : goodFacts (run required [rsl, good]) = true := by
  rw [run_any _ _ (by decide +kernel)]
  decide +kernel

attribute [local irreducible] RunSample.opened process in
/-- C26_run_partial applies: `x` and `y` have the same values, but are different -/
example (required) (τ : Ty) (rx) : Gives ⟨(run required [rsl, good]).state.heap, rx⟩ (some (twoRefs τ τ 0 1)) (eqExpr (.name "a" τ) (.name "b" τ)) (.bool false) := by
  have F := good_run required
  simp only [goodFacts, Bool.and_eq_true, beq_iff_eq, decide_eq_true_eq] at F
  obtain ⟨⟨⟨f1, f2⟩, f3⟩, f4⟩ := F
  have f5 : ∀ i, i < 2 → ∃ ob, (run required [rsl, good]).state.objs[i]? = some ob ∧ ob.typ = 0 := by
    intro i hi
    have h1 : ((run required [rsl, good]).state.objs.map (·.typ))[i]? = some 0 := by
      rw [f4]
      rcases i with _ | _ | i
      · rfl
      · rfl
      · omega
    rw [List.getElem?_map, Option.map_eq_some_iff] at h1
    exact h1
  obtain ⟨a, ha, hta⟩ := f5 0 (by decide)
  obtain ⟨b, hb, -⟩ := f5 1 (by decide)
  obtain ⟨r, h1, h2⟩ := C26_run_partial (X := outside) (required := required) (RunSample.opened_blank [rsl, good]) f1 ha hb
    ⟨⟨"t", .tup 0, false, .record 0⟩, by
        show HasComp (run required [rsl, good]).state.decls _ _
        rw [f2, hta]
        exact ⟨0, .refl (by decide), _, rfl, List.mem_singleton.2 rfl⟩, by
        show ∀ m, ¬ FrozenIn (run required [rsl, good]).state.decls (run required [rsl, good]).state.infos _ _ m
        rintro m ⟨c, inf, -, hinf, hl⟩
        have := List.all_eq_true.1 f3 inf (List.mem_of_getElem? hinf)
        rw [List.isEmpty_iff.1 this] at hl
        cases hl⟩ rx τ τ
  have : r = false := by
    cases r with
    | false => rfl
    | true => exact absurd (h2.1 rfl) (by decide)
  rw [this] at h1
  exact h1

end GuSample
end Verif.Props
