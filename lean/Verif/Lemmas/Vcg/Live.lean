import Verif.Lemmas.Vcg.Total
/-! Interpretations that agree with everything on the way to the current node. -/
namespace Verif.Lemmas.Vcg
open Verif.Model Verif.Spec

/-- temporaries in a statement -/
def sbelow (n : Nat) : SStmt → Prop
  | .declare (.tmp k) _ none => k ≤ n
  | .declare (.tmp k) _ (some a) => k ≤ n ∧ below n a
  | .declare _ _ none => True
  | .declare _ _ (some a) => below n a
  | .assert a => below n a
  | .goal a _ => below n a

theorem sbelow_mono {n m : Nat} (h : n ≤ m) {st : SStmt} (hs : sbelow n st) : sbelow m st := by
  cases st with
  | declare s σ v =>
    cases s <;> cases v <;> simp only [sbelow] at hs ⊢
    · exact below_mono h hs
    · exact below_mono h hs
    · omega
    · exact ⟨by omega, below_mono h hs.2⟩
  | assert a => exact below_mono h hs
  | goal a f => exact below_mono h hs

theorem agrees_same {D : Decls} {n : Nat} {I I' : Interp} (h : Same n I I') {st : SStmt} (hs : sbelow n st)
    (ha : Agrees D I st) : Agrees D I' st := by
  cases st with
  | declare s σ v =>
    have hc : I'.const s = I.const s := by
      cases s with
      | value c => exact h.value c
      | valid c => exact h.valid c
      | tmp k =>
        cases v <;> simp only [sbelow] at hs
        · exact h.tmp k hs
        · exact h.tmp k hs.1
    cases v with
    | none => simp only [Agrees] at ha ⊢; rwa [hc]
    | some a =>
      have hb : below n a := by cases s <;> simp only [sbelow] at hs <;> first | exact hs | exact hs.2
      simp only [Agrees] at ha ⊢
      rw [hc, ha]
      exact (value_below h hb fun _ _ => rfl).symm
  | assert a =>
    simp only [Agrees, value₀] at ha ⊢
    rwa [value_below h hs fun _ _ => rfl]
  | goal a f =>
    simp only [Agrees, value₀] at ha ⊢
    rwa [value_below h hs fun _ _ => rfl]

/-- the interpretation agrees with the statements on some path up to and including the current node -/
def Live (D : Decls) (G : TS) (I : Interp) (s : TS) : Prop :=
  ∃ ss ns, Path G s.start ss ∧ G.nodes[s.start]? = some ns ∧ ∀ st ∈ ss ++ ns, Agrees D I st ∧ sbelow s.tmp st

variable {D : Decls} {G : TS} {I I' : Interp} {s s' : TS}

theorem live_same (h : Live D G I s) (hI : Same s.tmp I I') : Live D G I' s := by
  obtain ⟨ss, ns, h1, h2, h3⟩ := h
  exact ⟨ss, ns, h1, h2, fun st hst => ⟨agrees_same hI (h3 st hst).2 (h3 st hst).1, (h3 st hst).2⟩⟩

theorem live_of (h : Live D G I s) (hs : s'.start = s.start) (ht : s.tmp ≤ s'.tmp) : Live D G I s' := by
  obtain ⟨ss, ns, h1, h2, h3⟩ := h
  exact ⟨ss, ns, hs ▸ h1, hs ▸ h2, fun st hst => ⟨(h3 st hst).1, sbelow_mono ht (h3 st hst).2⟩⟩

theorem prefix_get {α : Type} {xs ys : List α} (h : xs <+: ys) {i : Nat} {a : α} (hi : xs[i]? = some a) : ys[i]? = some a := by
  obtain ⟨zs, rfl⟩ := h
  rw [List.getElem?_append_left (List.getElem?_eq_some_iff.1 hi).1]
  exact hi

theorem att_node {ss : List SStmt} (h : Le (att s ss) G) : G.nodes[s.nodes.length]? = some ss :=
  prefix_get h.nodes (by simp [att])

theorem att_edge {ss : List SStmt} (h : Le (att s ss) G) : (s.start, s.nodes.length) ∈ G.edges :=
  h.edges.subset (by simp [att])

theorem live_att (h : Live D G I s) {ss : List SStmt} (hl : Le (att s ss) G)
    (hs : ∀ st ∈ ss, Agrees D I st ∧ sbelow s.tmp st) : Live D G I (att s ss) := by
  obtain ⟨ps, ns, h1, h2, h3⟩ := h
  refine ⟨ps ++ ns, ss, h1.step h2 (att_edge hl), att_node hl, fun st hst => ?_⟩
  rcases List.mem_append.1 hst with hst | hst
  · exact h3 st hst
  · exact hs st hst

theorem live_link (h : Live D G I s) {n : Nat} (hl : Le (link s n) G) (hn : G.nodes[n]? = some [])
    (hs : s'.start = n) (ht : s.tmp ≤ s'.tmp) : Live D G I s' := by
  obtain ⟨ps, ns, h1, h2, h3⟩ := h
  have he : (s.start, n) ∈ G.edges := hl.edges.subset (by simp [link])
  refine ⟨ps ++ ns, [], hs ▸ h1.step h2 he, hs ▸ hn, fun st hst => ?_⟩
  rw [List.append_nil] at hst
  exact ⟨(h3 st hst).1, sbelow_mono ht (h3 st hst).2⟩

/-- goals behind the current node hold -/
theorem goals_hold (hv : Verified D G) (hI : I.WellSorted D) (h : Live D G I s) {gs : List (Smt × Feedback)}
    (hf : ∀ g ∈ gs, g.2.expectUnsat = true) (hl : Le (att s (gs.map fun g => .goal g.1 g.2)) G) :
    ∀ g ∈ gs, (value₀ D I g.1).asBool = true := by
  obtain ⟨ps, ns, h1, h2, h3⟩ := h
  have hp : Path G s.nodes.length (ps ++ ns) := h1.step h2 (att_edge hl)
  have key : ∀ (i : Nat) (g : Smt × Feedback), gs[i]? = some g → (value₀ D I g.1).asBool = true := by
    intro i
    induction i using Nat.strong_induction_on with
    | _ i ih =>
      intro g hg
      have hm := List.mem_of_getElem? hg
      refine hv ⟨s.nodes.length, i, ps ++ ns ++ (gs.map fun g => SStmt.goal g.1 g.2).take i, g.1, g.2⟩
        ⟨_, _, hp, att_node hl, by simp [hg], rfl⟩ (hf g hm) I hI fun st hst => ?_
      rcases List.mem_append.1 hst with hst | hst
      · exact (h3 st hst).1
      · obtain ⟨j, hj, rfl⟩ := List.mem_iff_getElem.1 hst
        simp only [List.length_take, List.length_map] at hj
        simp only [List.getElem_take, List.getElem_map, Agrees]
        exact ih j (by omega) _ (List.getElem?_eq_getElem (by omega))
  intro g hg
  obtain ⟨i, hi⟩ := List.mem_iff_getElem?.1 hg
  exact key i g hi

variable {W : World} {β : Nat → Int}

theorem iok_same {n : Nat} (h : IOk W I) (hs : Same n I I') : IOk W I' :=
  ⟨hs.access.trans h.access, fun a b => by rw [hs.rx]; exact h.rx a b⟩

theorem repr_same {n : Nat} {p : TrPair} {v : TV} (h : Repr W I β p v) (hp : PBelow n p) (hs : Same n I I')
    {β' : Nat → Int} (hβ : ∀ k, k ≤ n → β' k = β k) : Repr W I' β' p v := by
  refine ⟨?_, fun hn => ?_⟩
  · rw [← h.1]
    exact value_below hs hp.2 hβ
  · obtain ⟨a, ha, hv⟩ := h.2 hn
    exact ⟨a, ha, by rw [← hv]; exact value_below hs (hp.1 a ha) hβ⟩

theorem names_same {n : Nat} {Γ : Gamma} {ρ : NameTrs} {c : List (String × FExpr)} (h : NamesOk W I β Γ ρ c)
    (hb : NBelow n ρ) (hs : Same n I I') {β' : Nat → Int} (hβ : ∀ k, k ≤ n → β' k = β k) : NamesOk W I' β' Γ ρ c := by
  intro m x hx
  obtain ⟨h1, fe, v, h2, h3, h4⟩ := h m x hx
  exact ⟨h1, fe, v, h2, h3, repr_same h4 ⟨fun a ha => by cases ha; exact (hb m x hx).1, (hb m x hx).2⟩ hs hβ⟩

/-- one temporary has another value -/
def setTmp (I : Interp) (k : Nat) (x : SV) : Interp :=
  { I with const := fun s => if s = .tmp k then x else I.const s }

theorem setTmp_same {n k : Nat} (h : n < k) (x : SV) : Same n I (setTmp I k x) := by
  refine ⟨rfl, rfl, fun j hj => ?_, fun c => rfl, fun c => rfl⟩
  simp only [setTmp, Sym.tmp.injEq]
  rw [if_neg (by omega)]

theorem setTmp_self {k : Nat} {x : SV} : (setTmp I k x).const (.tmp k) = x := by simp [setTmp]

/-- what is needed to go on: nothing is wrong, or the value is there anyway -/
def Fine (D : Decls) (G : TS) (em : Bool) (x : Prop) : Prop := (em = true ∧ Verified D G) ∨ x

theorem Fine.imp {D G em} {x y : Prop} (h : Fine D G em x) (f : x → y) : Fine D G em y := h.imp_right f

/-- after a check of validity the value is not null -/
theorem valid_live {em : Bool} {p : TrPair} {v : TV} {u : Unit} (h : checkValid em p.2 s = .ok u s')
    (hl : Le s' G) (hv : Live W.D G I s) (hI : IOk W I) (hp : PBelow s.tmp p) (hr : Repr W I (fun _ => 0) p v)
    (hf : Fine W.D G em (v.val.isNull = false)) : v.val.isNull = false ∧ Live W.D G I s' := by
  rw [trm_checkValid] at h
  subst h
  have h1 := hr.1
  split at hl
  · next hc =>
    rw [if_pos hc]
    have hn : v.val.isNull = false := by
      rcases hf with ⟨-, hf⟩ | hf
      · have := goals_hold hf (access_sorted W hI) hv (gs := [(p.2, .null)]) (by simp [Feedback.expectUnsat]) hl (p.2, .null) (by simp)
        simp only [value₀] at this
        simp only [World.val] at h1
        rw [h1] at this
        simpa [SV.asBool] using this
      · exact hf
    refine ⟨hn, live_att hv hl fun st hst => ?_⟩
    simp only [List.mem_singleton] at hst
    subst hst
    simp only [World.val] at h1
    exact ⟨by simp [Agrees, value₀, h1, hn, SV.asBool], hp.2⟩
  · next hc =>
    rw [if_neg hc]
    refine ⟨?_, hv⟩
    rcases hf with ⟨he, -⟩ | hf
    · have : p.2 = .bool true := by
        by_contra hne
        exact hc ⟨he, hne⟩
      rw [this] at h1
      simpa [World.val, value] using h1
    · exact hf

/-- after goals that hold -/
theorem goals_live {em : Bool} {gs : List (Smt × Feedback)} {u : Unit} (h : checkGoals em gs s = .ok u s')
    (hl : Le s' G) (hv : Live W.D G I s) (hI : IOk W I) (hb : ∀ g ∈ gs, below s.tmp g.1) (hfb : ∀ g ∈ gs, g.2.expectUnsat = true)
    (hf : Fine W.D G em (∀ g ∈ gs, (W.val I (fun _ => 0) g.1).asBool = true)) :
    (∀ g ∈ gs, (W.val I (fun _ => 0) g.1).asBool = true) ∧ Live W.D G I s' := by
  rw [trm_checkGoals] at h
  subst h
  split at hl
  · next hc =>
    rw [if_pos hc]
    have hn : ∀ g ∈ gs, (W.val I (fun _ => 0) g.1).asBool = true := by
      rcases hf with ⟨-, hf⟩ | hf
      · exact goals_hold hf (access_sorted W hI) hv hfb hl
      · exact hf
    refine ⟨hn, live_att hv hl fun st hst => ?_⟩
    obtain ⟨g, hg, rfl⟩ := List.mem_map.1 hst
    exact ⟨hn g hg, hb g hg⟩
  · next hc =>
    rw [if_neg hc]
    refine ⟨?_, hv⟩
    rcases hf with ⟨he, -⟩ | hf
    · have : gs = [] := by
        by_contra hne
        exact hc ⟨he, hne⟩
      simp [this]
    · exact hf

/-- a result that is kept in a temporary -/
theorem return_live {t : Option Ty} {a : Smt} {v : TV}
    (hl : Le (att (bump s) [.declare (.tmp (s.tmp + 1)) (tySrt t) (some a)]) G) (hv : Live W.D G I s)
    (ha : below s.tmp a) (hr : W.val I (fun _ => 0) a = W.rp v) (hn : v.val.isNull = false) :
    ∃ I', Same s.tmp I I' ∧ Live W.D G I' (att (bump s) [.declare (.tmp (s.tmp + 1)) (tySrt t) (some a)]) ∧
      Repr W I' (fun _ => 0) (some (.sym (.tmp (s.tmp + 1))), .bool true) v := by
  have hs : Same s.tmp I (setTmp I (s.tmp + 1) (W.rp v)) := setTmp_same (by omega) _
  refine ⟨_, hs, ?_, repr_true hn (by simp only [World.val, value]; exact setTmp_self)⟩
  refine live_att (live_of (s' := bump s) (live_same hv hs) rfl (by simp [bump])) hl fun st hst => ?_
  simp only [List.mem_singleton] at hst
  subst hst
  refine ⟨?_, by simp only [sbelow, bump]; exact ⟨Nat.le_refl _, below_mono (by omega) ha⟩⟩
  simp only [Agrees, setTmp_self, value₀]
  exact hr.symm.trans (value_below hs ha fun _ _ => rfl).symm

end Verif.Lemmas.Vcg
