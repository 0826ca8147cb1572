import Verif.Props.Analysis
/-!
# C77: what is reported by the verification of checks
-/
namespace Verif.Props
open Verif.Model Verif.Spec Verif.Lemmas Verif.Lemmas.Vcg

/-- A goal has one kind of feedback. -/
def OneFeedback (vs : List Solved) : Prop := ∀ v ∈ vs, ∀ w ∈ vs, v.key = w.key → v.fb = w.fb

/-- A goal that should hold does not, on some path. -/
def Refuted (vs : List Solved) (k : Nat × Nat) (fb : Feedback) : Prop :=
  fb.expectUnsat = true ∧ ∃ v ∈ vs, v.key = k ∧ v.fb = fb ∧ v.unsat = false

/-- A check is true on all paths to it. -/
def AlwaysTrue (vs : List Solved) (k : Nat × Nat) (fb : Feedback) : Prop :=
  fb.expectUnsat = false ∧ (∃ v ∈ vs, v.key = k ∧ v.fb = fb) ∧ ∀ v ∈ vs, v.key = k → v.unsat = true

/-- what is known after some answers -/
private structure After (vs : List Solved) (s : SolveState) : Prop where
  msgs  : ∀ k fb, (k, fb) ∈ s.msgs ↔ Refuted vs k fb
  nokV  : ∀ k, k ∈ s.nokV ↔ ∃ fb, Refuted vs k fb
  nokF  : ∀ k fb, (k, fb) ∈ s.nokF ↔ fb.expectUnsat = false ∧ ∃ v ∈ vs, v.key = k ∧ v.fb = fb ∧ v.unsat = true
  okF   : ∀ k, k ∈ s.okF ↔ ∃ v ∈ vs, v.key = k ∧ v.fb.expectUnsat = false ∧ v.unsat = false
  once  : (s.msgs.map (·.1)).Nodup

private theorem refuted_snoc (vs : List Solved) (v : Solved) (k : Nat × Nat) (fb : Feedback) :
    Refuted (vs ++ [v]) k fb ↔ Refuted vs k fb ∨ (fb.expectUnsat = true ∧ v.key = k ∧ v.fb = fb ∧ v.unsat = false) := by
  simp only [Refuted, List.mem_append, List.mem_singleton]
  constructor
  · rintro ⟨h, w, hw | rfl, h'⟩
    · exact .inl ⟨h, w, hw, h'⟩
    · exact .inr ⟨h, h'⟩
  · rintro (⟨h, w, hw, h'⟩ | ⟨h, h'⟩)
    · exact ⟨h, w, .inl hw, h'⟩
    · exact ⟨h, v, .inr rfl, h'⟩

private theorem solve_after (vs : List Solved) (ho : OneFeedback vs) : After vs (vs.foldl solveStep ⟨[], [], [], []⟩) := by
  induction vs using List.reverseRecOn with
  | nil => exact ⟨by simp [Refuted], by simp [Refuted], by simp, by simp, by simp⟩
  | append_singleton vs v ih =>
    obtain ⟨h1, h2, h3, h4, h5⟩ := ih fun a ha b hb => ho a (List.mem_append_left _ ha) b (List.mem_append_left _ hb)
    rw [List.foldl_append, List.foldl_cons, List.foldl_nil]
    generalize vs.foldl solveStep ⟨[], [], [], []⟩ = s at *
    have hnf : ∀ k fb, (fb.expectUnsat = false ∧ ∃ w ∈ vs ++ [v], w.key = k ∧ w.fb = fb ∧ w.unsat = true) ↔
        (k, fb) ∈ s.nokF ∨ (fb.expectUnsat = false ∧ v.key = k ∧ v.fb = fb ∧ v.unsat = true) := by
      intro k fb
      rw [h3]
      simp only [List.mem_append, List.mem_singleton]
      constructor
      · rintro ⟨h, w, hw | rfl, h'⟩
        · exact .inl ⟨h, w, hw, h'⟩
        · exact .inr ⟨h, h'⟩
      · rintro (⟨h, w, hw, h'⟩ | ⟨h, h'⟩)
        · exact ⟨h, w, .inl hw, h'⟩
        · exact ⟨h, v, .inr rfl, h'⟩
    have hof : ∀ k, (∃ w ∈ vs ++ [v], w.key = k ∧ w.fb.expectUnsat = false ∧ w.unsat = false) ↔
        k ∈ s.okF ∨ (v.key = k ∧ v.fb.expectUnsat = false ∧ v.unsat = false) := by
      intro k
      rw [h4]
      simp only [List.mem_append, List.mem_singleton]
      constructor
      · rintro ⟨w, hw | rfl, h'⟩
        · exact .inl ⟨w, hw, h'⟩
        · exact .inr h'
      · rintro (⟨w, hw, h'⟩ | h')
        · exact ⟨w, .inl hw, h'⟩
        · exact ⟨v, .inr rfl, h'⟩
    have hone : ∀ fb, Refuted vs v.key fb → fb = v.fb := by
      rintro fb ⟨-, w, hw, hk, rfl, -⟩
      exact ho w (List.mem_append_left _ hw) v (by simp) hk
    unfold solveStep
    split
    · next hc =>
      obtain ⟨fb, hr⟩ := (h2 _).1 hc.2
      have hfb := hone fb hr
      subst hfb
      refine ⟨fun k fb => ?_, fun k => ?_, fun k fb => ?_, fun k => ?_, h5⟩
      · rw [h1, refuted_snoc]
        constructor
        · exact .inl
        · rintro (h | ⟨-, rfl, rfl, -⟩)
          · exact h
          · exact hr
      · rw [h2]
        simp only [refuted_snoc]
        constructor
        · rintro ⟨fb, h⟩; exact ⟨fb, .inl h⟩
        · rintro ⟨fb, h | ⟨-, rfl, rfl, -⟩⟩
          · exact ⟨fb, h⟩
          · exact ⟨_, hr⟩
      · rw [hnf]
        constructor
        · exact .inl
        · rintro (h | ⟨h, -, rfl, -⟩)
          · exact h
          · rw [hc.1] at h; cases h
      · rw [hof]
        constructor
        · exact .inl
        · rintro (h | ⟨-, h, -⟩)
          · exact h
          · rw [hc.1] at h; cases h
    · next hc =>
      split
      · next he =>
        have hnew : v.key ∉ s.nokV := fun h => hc ⟨he, h⟩
        have F : ∀ k fb, (k, fb) ∈ s.nokF ↔ fb.expectUnsat = false ∧ ∃ w ∈ vs ++ [v], w.key = k ∧ w.fb = fb ∧ w.unsat = true := by
          intro k fb
          rw [hnf]
          constructor
          · exact .inl
          · rintro (h | ⟨h, -, rfl, -⟩)
            · exact h
            · rw [he] at h; cases h
        have O : ∀ k, k ∈ s.okF ↔ ∃ w ∈ vs ++ [v], w.key = k ∧ w.fb.expectUnsat = false ∧ w.unsat = false := by
          intro k
          rw [hof]
          constructor
          · exact .inl
          · rintro (h | ⟨-, h, -⟩)
            · exact h
            · rw [he] at h; cases h
        split
        · next hu =>
          refine ⟨fun k fb => ?_, fun k => ?_, F, O, h5⟩
          · rw [h1, refuted_snoc]
            simp [hu]
          · rw [h2]
            simp only [refuted_snoc]
            simp [hu]
        · next hu =>
          have hu : v.unsat = false := by simpa using hu
          refine ⟨fun k fb => ?_, fun k => ?_, F, O, ?_⟩
          · rw [refuted_snoc, ← h1]
            simp only [List.mem_append, List.mem_singleton, Prod.mk.injEq]
            constructor
            · rintro (h | ⟨rfl, rfl⟩)
              · exact .inl h
              · exact .inr ⟨he, rfl, rfl, hu⟩
            · rintro (h | ⟨-, rfl, rfl, -⟩)
              · exact .inl h
              · exact .inr ⟨rfl, rfl⟩
          · simp only [List.mem_cons, h2, refuted_snoc]
            constructor
            · rintro (rfl | ⟨fb, h⟩)
              · exact ⟨v.fb, .inr ⟨he, rfl, rfl, hu⟩⟩
              · exact ⟨fb, .inl h⟩
            · rintro ⟨fb, h | ⟨-, rfl, rfl, -⟩⟩
              · exact .inr ⟨fb, h⟩
              · exact .inl rfl
          · rw [List.map_append, List.nodup_append]
            refine ⟨h5, by simp, ?_⟩
            simp only [List.map_cons, List.map_nil, List.mem_singleton, List.mem_map]
            rintro _ ⟨⟨k, fb⟩, hm, rfl⟩ _ rfl heq
            simp only at heq
            subst heq
            exact hnew ((h2 _).2 ⟨fb, (h1 _ _).1 hm⟩)
      · next he =>
        have he : v.fb.expectUnsat = false := by simpa using he
        have M : ∀ k fb, (k, fb) ∈ s.msgs ↔ Refuted (vs ++ [v]) k fb := by
          intro k fb
          rw [h1, refuted_snoc]
          constructor
          · exact .inl
          · rintro (h | ⟨h, -, rfl, -⟩)
            · exact h
            · rw [he] at h; cases h
        have V : ∀ k, k ∈ s.nokV ↔ ∃ fb, Refuted (vs ++ [v]) k fb := by
          intro k
          rw [h2]
          simp only [refuted_snoc]
          constructor
          · rintro ⟨fb, h⟩; exact ⟨fb, .inl h⟩
          · rintro ⟨fb, h | ⟨h, -, rfl, -⟩⟩
            · exact ⟨fb, h⟩
            · rw [he] at h; cases h
        split
        · next hu =>
          refine ⟨M, V, fun k fb => ?_, fun k => ?_, h5⟩
          · rw [hnf]
            simp only [List.mem_append, List.mem_singleton, Prod.mk.injEq]
            constructor
            · rintro (h | ⟨rfl, rfl⟩)
              · exact .inl h
              · exact .inr ⟨he, rfl, rfl, hu⟩
            · rintro (h | ⟨-, rfl, rfl, -⟩)
              · exact .inl h
              · exact .inr ⟨rfl, rfl⟩
          · rw [hof]
            simp [hu]
        · next hu =>
          have hu : v.unsat = false := by simpa using hu
          refine ⟨M, V, fun k fb => ?_, fun k => ?_, h5⟩
          · rw [hnf]
            simp [hu]
          · rw [hof, List.mem_cons]
            constructor
            · rintro (rfl | h)
              · exact .inr ⟨rfl, he, hu⟩
              · exact .inl h
            · rintro (h | ⟨rfl, -, -⟩)
              · exact .inr h
              · exact .inl rfl

private theorem feasLoop_spec (rs : List Report) (ho : ∀ a ∈ rs, ∀ b ∈ rs, a.1 = b.1 → a.2 = b.2) : ∀ ok : List (Nat × Nat),
    (∀ r, r ∈ feasLoop rs ok ↔ r ∈ rs ∧ r.1 ∉ ok) ∧ ((feasLoop rs ok).map (·.1)).Nodup := by
  induction rs with
  | nil => intro ok; simp [feasLoop]
  | cons a rs ih =>
    intro ok
    have ih := ih fun x hx y hy => ho x (List.mem_cons_of_mem _ hx) y (List.mem_cons_of_mem _ hy)
    unfold feasLoop
    split
    · next h =>
      obtain ⟨h1, h2⟩ := ih ok
      refine ⟨fun r => ?_, h2⟩
      rw [h1, List.mem_cons]
      constructor
      · exact fun h => ⟨.inr h.1, h.2⟩
      · rintro ⟨rfl | h', h''⟩
        · exact absurd h h''
        · exact ⟨h', h''⟩
    · next h =>
      obtain ⟨h1, h2⟩ := ih (a.1 :: ok)
      refine ⟨fun r => ?_, ?_⟩
      · rw [List.mem_cons, h1, List.mem_cons, List.mem_cons]
        constructor
        · rintro (rfl | ⟨h3, h4⟩)
          · exact ⟨.inl rfl, h⟩
          · exact ⟨.inr h3, fun h => h4 (.inr h)⟩
        · rintro ⟨rfl | h3, h4⟩
          · exact .inl rfl
          · by_cases heq : r.1 = a.1
            · left
              exact Prod.ext heq (ho r (List.mem_cons_of_mem _ h3) a List.mem_cons_self heq)
            · exact .inr ⟨h3, fun h => h.elim heq h4⟩
      · rw [List.map_cons, List.nodup_cons]
        refine ⟨fun hm => ?_, h2⟩
        obtain ⟨r, hr, heq⟩ := List.mem_map.1 hm
        exact ((h1 r).1 hr).2 (by rw [heq]; exact List.mem_cons_self)

/-- **C77**: the messages of the verification of a type are exactly these, each once: one for every goal
(a possible error) that does not hold on some path, and one for every check that is true on all paths
to it. -/
theorem C77_reports (vs : List Solved) (ho : OneFeedback vs) :
    (∀ k fb, (k, fb) ∈ solveAll vs ↔ Refuted vs k fb ∨ AlwaysTrue vs k fb) ∧ ((solveAll vs).map (·.1)).Nodup := by
  obtain ⟨h1, h2, h3, h4, h5⟩ := solve_after vs ho
  unfold solveAll
  generalize vs.foldl solveStep ⟨[], [], [], []⟩ = s at *
  simp only
  have hone : ∀ a ∈ s.nokF, ∀ b ∈ s.nokF, a.1 = b.1 → a.2 = b.2 := by
    rintro ⟨k, fb⟩ ha ⟨k', fb'⟩ hb heq
    obtain ⟨-, v, hv, rfl, rfl, -⟩ := (h3 _ _).1 ha
    obtain ⟨-, w, hw, rfl, rfl, -⟩ := (h3 _ _).1 hb
    exact ho v hv w hw heq
  obtain ⟨g1, g2⟩ := feasLoop_spec s.nokF hone s.okF
  have hf : ∀ k fb, (k, fb) ∈ feasLoop s.nokF s.okF ↔ AlwaysTrue vs k fb := by
    intro k fb
    rw [g1, h3, h4]
    constructor
    · rintro ⟨⟨he, v, hv, rfl, rfl, hu⟩, hn⟩
      refine ⟨he, ⟨v, hv, rfl, rfl⟩, fun w hw hk => ?_⟩
      cases hwu : w.unsat with
      | true => rfl
      | false =>
        refine absurd ⟨w, hw, hk, ?_, hwu⟩ hn
        rw [ho w hw v hv hk]
        exact he
    · rintro ⟨he, ⟨v, hv, rfl, rfl⟩, hall⟩
      refine ⟨⟨he, v, hv, rfl, rfl, hall v hv rfl⟩, ?_⟩
      rintro ⟨w, hw, hk, -, hu⟩
      rw [hall w hw hk] at hu
      cases hu
  refine ⟨fun k fb => ?_, ?_⟩
  · rw [List.mem_append, h1, hf]
  · rw [List.map_append, List.nodup_append]
    refine ⟨h5, g2, ?_⟩
    rintro k hk _ hk' rfl
    obtain ⟨⟨k, fb⟩, hm, rfl⟩ := List.mem_map.1 hk
    obtain ⟨⟨k', fb'⟩, hm', heq⟩ := List.mem_map.1 hk'
    obtain ⟨he, v, hv, rfl, rfl, -⟩ := (h1 _ _).1 hm
    obtain ⟨he', ⟨w, hw, rfl, rfl⟩, -⟩ := (hf _ _).1 hm'
    rw [ho w hw v hv heq, he] at he'
    cases he'

/-- The answers of a solver for the verification conditions of a graph, one for each: where it says
"unsat", no interpretation makes the goal false. -/
structure Answers (D : Decls) (G : TS) (vs : List Solved) : Prop where
  all   : ∀ vc, IsVC G vc → ∃ v ∈ vs, v.key = (vc.node, vc.pos) ∧ v.fb = vc.fb ∧ (v.unsat = true → vc.Unsat D)
  only  : ∀ v ∈ vs, ∃ vc, IsVC G vc ∧ v.key = (vc.node, vc.pos) ∧ v.fb = vc.fb

theorem Answers.one {D : Decls} {G : TS} {vs : List Solved} (h : Answers D G vs) : OneFeedback vs := by
  intro v hv w hw heq
  obtain ⟨vc, ⟨-, ns, -, h1, h2, -⟩, h3, h4⟩ := h.only v hv
  obtain ⟨vc', ⟨-, ns', -, h1', h2', -⟩, h3', h4'⟩ := h.only w hw
  rw [h3, h3', Prod.mk.injEq] at heq
  rw [heq.1, h1'] at h1
  cases h1
  rw [heq.2, h2', Option.some.injEq, SStmt.goal.injEq] at h2
  rw [h4, h4', h2.2]

/-- **C77 and C76**: if no possible error is reported for a type, then all its goals hold. -/
theorem C77_silent {D : Decls} {G : TS} {vs : List Solved} (h : Answers D G vs)
    (hs : ∀ r ∈ solveAll vs, r.2.expectUnsat = false) : Verified D G := by
  intro vc hvc he
  obtain ⟨v, hv, hk, hf, hu⟩ := h.all vc hvc
  apply hu
  cases huv : v.unsat with
  | true => rfl
  | false =>
    have := hs (v.key, v.fb) (((C77_reports vs h.one).1 _ _).2 (.inl ⟨hf ▸ he, v, hv, rfl, rfl, huv⟩))
    rw [hf, he] at this
    cases this

/-- **C77 and C76**: if all goals that ask whether a check can be false are reported, it never is. -/
theorem C77_always_true {D : Decls} {G : TS} {vs : List Solved} (h : Answers D G vs) {check : Expr}
    (hs : ∀ vc, IsVC G vc → vc.fb = .alwaysTrue check → ((vc.node, vc.pos), vc.fb) ∈ solveAll vs) : NeverFalse D G check := by
  intro vc hvc hfb
  obtain ⟨v, hv, hk, hf, hu⟩ := h.all vc hvc
  rcases ((C77_reports vs h.one).1 _ _).1 (hs vc hvc hfb) with ⟨he, -⟩ | ⟨-, -, hall⟩
  · rw [hfb] at he
    cases he
  · exact hu (hall v hv hk)

end Verif.Props
