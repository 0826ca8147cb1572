import Verif.Props.Reports
import Verif.Lemmas.Vcg.Paths
import Verif.Lemmas.ParseWitness
/-!
# Samples for C76 and C77, and where C76 is violated
-/
namespace Verif.Props
open Verif.Model Verif.Spec Verif.Lemmas Verif.Lemmas.Vcg

namespace AnSample

/-- `tuple Pair { a Integer  separator @  b optional Integer }`, `type R { t Pair }` -/
def decls : Decls :=
  { recs := [⟨none, [⟨"t", .tup 0, false, .record 0⟩]⟩]
    tups := [[⟨"a", .int, false, .tup 0⟩, ⟨"b", .int, true, .tup 0⟩]]
    enums := [] }

/-- `checks Pair { b != null, error "second" }` -/
def second : Check := ⟨.binary (some .bool) .neq (.name "b" .int) .null, .error, "second", none⟩
/-- `checks R { t.b > 0, error "positive" }` -/
def positive : Check := ⟨.binary (some .bool) .gt (.field (.name "t" (.tup 0)) "b" .int) (.int 0), .error, "positive", none⟩

/-- both -/
def checks : CheckTab := { recs := [[positive]], tups := [[second]] }

/-- the environment -/
def env : ElEnv := envOf decls

/-- nothing is frozen -/
def noFrozen : String → Option FExpr := fun _ => none

/-- the graph for a type -/
def graph (v : VcgType) : TS := match vcgGraph ⟨decls, fun _ _ => false⟩ checks v TS.empty with
  | .ok _ G => G
  | _ => TS.empty

/-- the translation ends normally -/
def ends (v : VcgType) : Bool := match vcgGraph ⟨decls, fun _ _ => false⟩ checks v TS.empty with
  | .ok _ _ => true
  | _ => false

theorem graph_ok {v : VcgType} (h : ends v = true) : graphOf env checks v (graph v) := by
  unfold ends at h
  unfold graphOf graph
  show vcgGraph ⟨decls, fun _ _ => false⟩ checks v TS.empty = _
  cases hv : vcgGraph ⟨decls, fun _ _ => false⟩ checks v TS.empty with
  | ok a G => rfl
  | unsupported => rw [hv] at h; cases h
  | crash => rw [hv] at h; cases h

/-- the graph for `R` -/
def graphR : TS := graph (recordVcg decls checks noFrozen 0)

/-- the graph for `Pair` -/
def graphPair : TS := graph (tupleVcg decls checks 0)

theorem graphR_ok : graphOf env checks (recordVcg decls checks noFrozen 0) graphR := graph_ok (by decide +kernel)
theorem graphPair_ok : graphOf env checks (tupleVcg decls checks 0) graphPair := graph_ok (by decide +kernel)

/-- the goal is among the assumptions -/
def obvious (vc : VC) : Bool := vc.asm.any fun
  | .declare s _ (some (.bool true)) => decide (vc.goal = .sym s)
  | .assert a => decide (a = .un .not (.un .not vc.goal))
  | .goal a _ => decide (a = vc.goal)
  | _ => false

theorem obvious_unsat {D : Decls} {vc : VC} (h : obvious vc = true) : vc.Unsat D := by
  intro I _ hall
  obtain ⟨st, hst, h⟩ := List.any_eq_true.1 h
  have ha := hall st hst
  split at h
  · rw [of_decide_eq_true h]
    simp only [Agrees] at ha
    simp only [value₀, value, ha, SV.asBool]
  · rw [of_decide_eq_true h] at ha
    simpa [Agrees, value₀, value, unSem, SV.asBool] using ha
  · rw [← of_decide_eq_true h]
    exact ha
  · cases h

theorem verified_of {G : TS} (hf : (G.edges.all fun e => decide (e.1 < e.2)) = true)
    (h : ((vcsOf G).all fun vc => !vc.fb.expectUnsat || obvious vc) = true) (D : Decls) : Verified D G := by
  intro vc hvc he
  have := List.all_eq_true.1 h vc (vc_mem (fun e he => of_decide_eq_true (List.all_eq_true.1 hf e he)) hvc)
  rw [he] at this
  exact obvious_unsat (by simpa using this)

theorem clean_R : Clean env checks (recordVcg decls checks noFrozen 0) :=
  ⟨graphR, graphR_ok, verified_of (by decide +kernel) (by decide +kernel) _⟩

theorem clean_Pair : Clean env checks (tupleVcg decls checks 0) :=
  ⟨graphPair, graphPair_ok, verified_of (by decide +kernel) (by decide +kernel) _⟩

/-- the goals for `R`: the validity of `t` and of `t.b`, and whether the check can be false -/
theorem goals_R : (vcsOf graphR).map (fun vc => vc.fb.expectUnsat) = [true, true, false] := by decide +kernel

/-- nothing is frozen in the sample -/
def infos : List RecInfo := []

theorem comps {t : Nat} {c : Comp} (h : HasComp decls t c) : t = 0 ∧ c = ⟨"t", .tup 0, false, .record 0⟩ := by
  obtain ⟨s, h1, r, h2, h3⟩ := h
  rcases s with _ | s
  · simp only [decls, List.getElem?_cons_zero, Option.some.injEq] at h2
    subst h2
    refine ⟨?_, by simpa using h3⟩
    have : ∀ {t s}, Extends decls t s → t = 0 := by
      intro t s h
      cases h with
      | refl h => simp only [decls, List.length_cons, List.length_nil] at h; omega
      | step h _ =>
        obtain ⟨r, hr, hp⟩ := h
        rcases t with _ | t
        · rfl
        · simp [decls] at hr
    exact this h1
  · simp [decls] at h2

theorem wf : WFDecls decls := by
  rintro t p ⟨r, h, hp⟩
  rcases t with _ | t
  · simp [decls] at h; subst h; simp at hp
  · simp [decls] at h

theorem world : WorldOk decls infos := by
  refine ⟨wf, ?_, ?_, ?_, ?_, ?_, ?_⟩
  · intro t c c' h h' _
    rw [(comps h).2, (comps h').2]
  · rintro t c ⟨r, h, hc⟩
    rcases t with _ | t
    · simp [decls] at h; subst h; simp at hc; subst hc; rfl
    · simp [decls] at h
  · intro t r h
    rcases t with _ | t
    · simp [decls] at h; subst h; simp
    · simp [decls] at h
  · intro t cs h
    rcases t with _ | t
    · simp [decls] at h
      subst h
      exact ⟨⟨_, _, rfl, rfl⟩, by simp [OptionalTail], by decide, by simp [TyOk], by simp [tyRank]⟩
    · simp [decls] at h
  · intro t c h
    rw [(comps h).2]
    exact ⟨by simp [TyOk, decls], by simp [tyRank, decls]⟩
  · intro t i name node h
    simp [infos] at h

theorem enums : EnumsFilled decls := by
  rintro c ⟨t, h | ⟨r, h, hc⟩⟩ e he
  · rcases t with _ | t
    · simp [decls, Decls.fields] at h
      rcases h with rfl | rfl <;> cases he
    · simp [decls, Decls.fields] at h
  · rcases t with _ | t
    · simp [decls] at h; subst h; simp at hc; subst hc; cases he
    · simp [decls] at h

/-- `R x { t = 1 @ 2 }` for `b := some 2`, `R x { t = 1 }` for `none` -/
def pair (b : Option Int) : List (String × FExpr) :=
  [("a", .int 1), ("b", match b with | some i => .int i | none => .inull)]

/-- the object -/
def obj (b : Option Int) : Fields := [("t", ⟨0, .tup 0 (pair b)⟩)]

/-- the only object -/
def heap (b : Option Int) : Nat → Option Fields := fun o => if o = 0 then some (obj b) else none
/-- its type -/
def objTy : Nat → Option Nat := fun o => if o = 0 then some 0 else none

theorem pair_ok (b : Option Int) : FOk decls objTy (.tup 0 (pair b)) (.tup 0) := by
  cases b <;> simp [FOk, decls, pair, FieldsOk, FieldOk]

theorem heapOk (b : Option Int) : HeapOk decls objTy (heap b) := by
  intro o t h
  unfold objTy at h
  split at h
  · next ho =>
    cases h
    subst ho
    refine ⟨obj b, rfl, fun c hc => ?_, fun k hk => ?_⟩
    · rw [(comps hc).2]
      exact ⟨⟨0, .tup 0 (pair b)⟩, by simp [obj], .inr (pair_ok b)⟩
    · refine ⟨_, ⟨0, .refl (by decide), _, rfl, List.mem_singleton.2 rfl⟩, ?_⟩
      simp only [obj, List.lookup] at hk
      split at hk
      · next h => exact (eq_of_beq h).symm
      · cases hk
  · cases h

theorem heapIds (b : Option Int) : HeapIds (heap b) := by
  have : ∀ o fs, heap b o = some fs → fs = obj b := by
    intro o fs h
    unfold heap at h
    split at h
    · exact (Option.some.inj h).symm
    · cases h
  refine ⟨fun o fs h => ?_, fun o o' fs fs' h h' f hf g hg _ => ?_⟩
  · rw [this o fs h]; simp [obj]
  · rw [this o fs h] at hf
    rw [this o' fs' h'] at hg
    simp only [obj, List.mem_singleton] at hf hg
    rw [hf, hg]

theorem heapBounds (b : Option Int) : HeapInBounds (heap b) := by
  intro o fs h f hf v hv
  unfold heap at h
  split at h
  · cases h
    simp only [obj, List.mem_singleton] at hf
    subst hf
    cases b <;> simp [FExpr.eval, evalFields, evalField, Val.isNull, pair, mkValue, Ev.bind] at hv <;> subst hv <;> simp [Bounded, BoundedF, BoundedG]
  · cases h

theorem exact : ChecksExact env checks := by
  constructor
  · intro t k hk
    rcases t with _ | t
    · simp only [checks, CheckTab.ofRec, List.getElem?_cons_zero, Option.getD_some, List.mem_singleton] at hk
      subst hk
      exact ⟨fun _ => false, fun _ => none, .cmp .gt (.dot (.name "t") "b") (.int 0), rfl,
        by simp [Side, positive, Expr.typ], by simp [Exact, positive, BinOp.allowsNull]⟩
    · simp [checks, CheckTab.ofRec] at hk
  · intro t k hk
    rcases t with _ | t
    · simp only [checks, CheckTab.ofTup, List.getElem?_cons_zero, Option.getD_some, List.mem_singleton] at hk
      subst hk
      exact ⟨fun _ => false, fun _ => none, .cmp .neq (.name "b") .null, rfl,
        by simp [Side, second], by simp [Exact, second, Comparable, Expr.typ]⟩
    · simp [checks, CheckTab.ofTup] at hk

theorem extends_zero {t a : Nat} (h : Extends decls t a) : a = 0 := by
  have : ∀ {t a}, Extends decls t a → a < decls.recs.length := by
    intro t a h
    induction h with
    | refl h => exact h
    | step _ _ ih => exact ih
  have := this h
  simp only [decls, List.length_cons, List.length_nil] at this
  omega

theorem clean_all {u : Nat} {cs : List Comp} (h : decls.tups[u]? = some cs) : Clean env checks (tupleVcg decls checks u) := by
  rcases u with _ | u
  · exact clean_Pair
  · simp [decls] at h

theorem direct {b : Option Int} {u : Nat} {gs : List (String × FExpr)} (h : DirectTuple (.tup 0 (pair b)) u gs) : u = 0 ∧ gs = pair b := by
  cases h
  exact ⟨rfl, rfl⟩

theorem lookup_t {b : Option Int} {n : String} {x : FNode} (h : (obj b).lookup n = some x) : x.expr = .tup 0 (pair b) := by
  simp only [obj, List.lookup] at h
  split at h
  · cases h; rfl
  · cases h

end AnSample

/-- The checks were accepted in check blocks for their types. -/
def ChecksParsed (E : ElEnv) (C : CheckTab) : Prop :=
  (∀ t, ∀ k ∈ C.ofRec t, ∃ other enums r, elabCheck E (.ofRecord E.decls t other enums) r = .ok k.expr) ∧
  ∀ t, ∀ k ∈ C.ofTup t, ∃ other enums r, elabCheck E (.ofTuple E.decls t other enums) r = .ok k.expr

/-- **C76 in full**: if the verification reports no possible error for any type, then performing the
checks of an object raises no internal exception, and every message is the message of a check that is
false. -/
def C76_full : Prop :=
  ∀ (E : ElEnv) (C : CheckTab) (infos : List RecInfo) (objTy : Nat → Option Nat) (heap : Nat → Option Fields)
    (o t : Nat) (fs : Fields) (frozen : Nat → String → Option FExpr),
    WorldOk E.decls infos → EnumsFilled E.decls → HeapOk E.decls objTy heap → HeapIds heap → ChecksParsed E C →
    objTy o = some t → heap o = some fs →
    (∀ a, Extends E.decls t a → ∀ n e, frozen a n = some e → ∃ x, fs.lookup n = some x ∧ x.expr = e) →
    (∀ a, Extends E.decls t a → Clean E C (recordVcg E.decls C (frozen a) a)) →
    (∀ u cs, E.decls.tups[u]? = some cs → Clean E C (tupleVcg E.decls C u)) →
    ∀ (loc : String) (fieldLoc : String → String),
    (∀ x, (performObject E.decls C ⟨heap, E.rx⟩ fs loc fieldLoc t).out ≠ .crash x) ∧
    ∀ m ∈ (performObject E.decls C ⟨heap, E.rx⟩ fs loc fieldLoc t).calls,
      (∃ c, AppliesTo E.decls C t c ∧ Fails ⟨heap, E.rx⟩ (recordCtx fs) c ∧ MessageOf (recordComposite fs loc fieldLoc) c m) ∨
      ∃ k n, fs.lookup k = some n ∧ TupleMessage C ⟨heap, E.rx⟩ n.expr m

open AnSample in
/-- what is reported for `R x { t = 1 }`: the message of the check of the tuple, and then an error because
the check of `R` is null -/
theorem C76_tuple_error : (performObject decls checks ⟨heap none, fun _ _ => false⟩ (obj none) "x" (fun _ => "x.t") 0).calls =
    [.error "" "second" false true, .error "" "must not be null" true false] := by
  decide +kernel

open AnSample in
/-- **C76 is violated**: the analysis assumes the checks of tuples of severity `error`, but a failing one
does not prevent the checks of the object from being evaluated. -/
theorem C76_violated : ¬ C76_full := by
  intro h
  obtain ⟨-, h⟩ := h env checks infos objTy (heap none) 0 0 (obj none) (fun _ => noFrozen) world enums (heapOk none) (heapIds none)
    ⟨fun t k hk => by obtain ⟨a, b, c, h, -⟩ := exact.recs t k hk; exact ⟨a, b, c, h⟩,
      fun t k hk => by obtain ⟨a, b, c, h, -⟩ := exact.tups t k hk; exact ⟨a, b, c, h⟩⟩
    rfl rfl (fun a _ n e he => by cases he) (fun a ha => by rw [extends_zero ha]; exact clean_R) (fun u cs hu => clean_all hu)
    "x" (fun _ => "x.t")
  have hm := h (.error "" "must not be null" true false) (by
    show _ ∈ (performObject decls checks ⟨heap none, fun _ _ => false⟩ (obj none) "x" (fun _ => "x.t") 0).calls
    rw [C76_tuple_error]
    simp)
  have key : ∀ (k : Composite) (c : Check), (c = positive ∨ c = second) → ¬ MessageOf k c (.error "" "must not be null" true false) := by
    rintro k c (rfl | rfl) ⟨loc, -, hm⟩ <;> simp [positive, second] at hm
  rcases hm with ⟨c, ⟨s, cs, -, hcs, hc⟩, -, hm⟩ | ⟨k, n, -, u, gs, c, -, ⟨cs, hcs, hc⟩, -, hm⟩
  · refine key _ c (.inl ?_) hm
    rcases s with _ | s
    · simp [checks] at hcs; subst hcs; simpa using hc
    · simp [checks] at hcs
  · refine key _ c (.inr ?_) hm
    rcases u with _ | u
    · simp [checks] at hcs; subst hcs; simpa using hc
    · simp [checks] at hcs

open AnSample in
/-- The hypotheses of `C76_object_partial` hold for `R x { t = 1 @ 2 }`. -/
example : (∀ x, (performObject decls checks ⟨heap (some 2), fun _ _ => false⟩ (obj (some 2)) "x" (fun _ => "x.t") 0).out ≠ .crash x) := by
  have gr : ∀ c ∈ decls.fields 0, ∀ fe, Granted checks ⟨heap (some 2), fun _ _ => false⟩ c.ty fe := by
    intro c hc fe
    simp [decls, Decls.fields] at hc
    rcases hc with rfl | rfl <;> cases fe <;> trivial
  refine (C76_object_partial (E := env) world enums (heapOk _) (heapIds _) (heapBounds _) exact (o := 0) (t := 0) rfl rfl
    ?_ ?_ (fun _ => noFrozen) (fun a _ n e he => by cases he) (fun a ha => by rw [extends_zero ha]; exact clean_R)
    (fun u cs hu => clean_all hu) ?_ ?_ "x" (fun _ => "x.t")).1
  · intro c hc n hn
    obtain ⟨-, rfl⟩ := comps hc
    have := lookup_t hn
    rw [this]
    exact ⟨by simp [Shaped, NullsLast, pair], fun h => by cases h⟩
  · intro n x hx u gs hd
    rw [lookup_t hx] at hd
    obtain ⟨rfl, rfl⟩ := direct hd
    refine ⟨fun c hc fe hfe => ⟨fun _ => gr c hc fe, fun hn => ?_⟩, ?_, ?_⟩
    · rintro (⟨u, hu⟩ | ⟨i, e, lo, hi, hu⟩) <;> simp [env, envOf, decls, Decls.fields] at hc <;> rcases hc with rfl | rfl <;> cases hu
    · intro n fe hfe v hv
      have : ∃ i, fe = .int i := by
        simp only [pair, List.lookup] at hfe
        split at hfe
        · exact ⟨_, (Option.some.inj hfe).symm⟩
        · split at hfe
          · exact ⟨_, (Option.some.inj hfe).symm⟩
          · cases hfe
      obtain ⟨i, rfl⟩ := this
      simp [FExpr.eval, mkValue, Val.isNull] at hv
      subst hv
      simp [Bounded]
    · rintro c ⟨cs, hcs, hc⟩ - ⟨t, hf⟩
      simp [checks] at hcs
      subst hcs
      simp at hc
      subst hc
      simp [second, Expr.eval, pair, FExpr.eval, mkValue, Val.isNull, Ev.bind, BinOp.allowsNull, binaryOp, Val.pyEq, List.lookup, Val.num] at hf
  · show (iterChecks decls checks 1 0).Pairwise FatalFirst
    simp [iterChecks, decls, checks, CheckTab.ofRec]
  · intro u
    rcases u with _ | u <;> simp [checks, CheckTab.ofTup]

/-- `C77_reports` on answers: a goal that fails on one of two paths, and a check that is true on both -/
example : solveAll [⟨(3, 0), .null, true⟩, ⟨(3, 0), .null, false⟩, ⟨(4, 0), .alwaysTrue .null, true⟩,
    ⟨(3, 0), .null, false⟩, ⟨(4, 0), .alwaysTrue .null, true⟩] = [((3, 0), .null), ((4, 0), .alwaysTrue .null)] := rfl

end Verif.Props
