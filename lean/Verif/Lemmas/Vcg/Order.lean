import Verif.Lemmas.Vcg.Checks
import Verif.Lemmas.ParseObject
/-! The order of checks, and what follows from well-formed declarations. -/
namespace Verif.Lemmas.Vcg
open Verif.Model Verif.Spec

variable {D : Decls} {infos : List RecInfo} {C : CheckTab}

theorem fields_names (h : TuplesOk D) : FieldNames D := by
  intro t
  cases hc : D.tups[t]? with
  | none => simp [Decls.fields, hc]
  | some cs => simpa [Decls.fields, hc] using (h t cs hc).names

/-- every type of a component has a value -/
theorem habitable (h : TuplesOk D) (he : EnumsFilled D) : Habitable D := by
  have comp : ∀ c : Comp, (∃ t, c ∈ D.fields t ∨ Declares D t c) →
      (∀ u, c.ty = .tup u → ∃ x, HasSort D x (.tup u)) → ∃ x, HasSort D x c.ty.srt := by
    intro c hc hu
    cases hty : c.ty with
    | bool => exact ⟨.bool true, by simp [Ty.srt, HasSort]⟩
    | int => exact ⟨.int 0, by simp [Ty.srt, HasSort]⟩
    | dec => exact ⟨.real 0, by simp [Ty.srt, HasSort]⟩
    | str => exact ⟨.str [], by simp [Ty.srt, HasSort]⟩
    | markup => exact ⟨.str [], by simp [Ty.srt, HasSort]⟩
    | enum e =>
      obtain ⟨l, ls, h1, h2⟩ := he c hc e hty
      exact ⟨.enum e l, by simp only [Ty.srt, HasSort, true_and]; exact ⟨ls, h1, h2⟩⟩
    | tup u => exact hu u hty
    | arr => exact ⟨.seq [], by simp [Ty.srt, HasSort, HasSorts]⟩
    | record => exact ⟨.int 0, by simp [Ty.srt, HasSort]⟩
    | union => exact ⟨.int 0, by simp [Ty.srt, HasSort]⟩
  have tup : ∀ t, ∃ x, HasSort D x (.tup t) := by
    intro t
    induction t using Nat.strong_induction_on with
    | _ t ih =>
      refine ⟨.record fun k => match tupleKey D t k with
        | none => .bool false
        | some s => someOf D s, ?_⟩
      simp only [HasSort]
      refine ⟨t, rfl, fun k => ⟨fun s hs => ?_, fun hs => by rw [hs]⟩⟩
      rw [hs]
      cases k with
      | value n =>
        simp only [tupleKey, Option.map_eq_some_iff] at hs
        obtain ⟨c, hc, rfl⟩ := hs
        have hm := (find_mem hc).1
        refine someOf_sort (comp c ⟨t, .inl hm⟩ fun u hu => ih u ?_)
        cases hd : D.tups[t]? with
        | none => simp [Decls.fields, hd] at hm
        | some cs =>
          have := (h t cs hd).earlier c (by simpa [Decls.fields, hd] using hm)
          rw [hu] at this
          simp only [tyRank] at this
          omega
      | valid n =>
        simp only [tupleKey, Option.bind_eq_some_iff] at hs
        obtain ⟨c, -, hs⟩ := hs
        split at hs <;> cases hs
        exact someOf_sort ⟨.bool true, by simp [HasSort]⟩
  refine ⟨fun t c hc => comp c ⟨t, .inl hc⟩ fun u _ => tup u, fun t c hc => comp c ⟨t, .inr ((mem_own t c).1 hc)⟩ fun u _ => tup u⟩

theorem iter_ancestors (wf : WFDecls D) : ∀ (f t : Nat), t < f → iterChecks D C f t = (D.ancestors t).reverse.flatMap C.ofRec := by
  intro f
  induction f with
  | zero => intro t h; omega
  | succ f ih =>
    intro t h
    rw [iterChecks]
    cases hr : D.recs[t]? with
    | none =>
      simp only
      rw [ancestors_undeclared (by simpa using hr)]
      rfl
    | some r =>
      simp only
      cases hp : r.parent with
      | none => simp [ancestors_root hr hp]
      | some p =>
        have hpar : ParentOf D t p := ⟨r, hr, hp⟩
        have := wf t p hpar
        simp only
        rw [ih p (by omega), ancestors_step wf hpar]
        simp

theorem iter_marked (wf : WFDecls D) (t : Nat) : iterChecks D C D.recs.length t = (markedChecks D C t).map (·.2) := by
  have hm : (markedChecks D C t).map (·.2) = (D.ancestors t).reverse.flatMap C.ofRec := by
    simp only [markedChecks, List.map_flatMap, List.map_map]
    congr 1
    funext a
    exact List.map_id _
  rw [hm]
  by_cases h : t < D.recs.length
  · exact iter_ancestors wf _ t h
  · rw [ancestors_undeclared (by omega)]
    cases hl : D.recs.length with
    | zero => rfl
    | succ n =>
      rw [iterChecks]
      have : D.recs[t]? = none := by simpa using (by omega : D.recs.length ≤ t)
      rw [this]
      rfl

theorem marked_root {t : Nat} {r : RecDecl} (hr : D.recs[t]? = some r) (hp : r.parent = none) :
    markedChecks D C t = (C.ofRec t).map fun c => (true, c) := by
  simp [markedChecks, ancestors_root hr hp]

theorem marked_step (wf : WFDecls D) {t p : Nat} (h : ParentOf D t p) : ∃ F : List (Bool × Check),
    markedChecks D C t = F ++ (C.ofRec t).map (fun c => (true, c)) ∧ F.map (·.2) = (markedChecks D C p).map (·.2) := by
  refine ⟨(D.ancestors p).reverse.flatMap fun a => (C.ofRec a).map fun c => (decide (a = t), c), ?_, ?_⟩
  · simp [markedChecks, ancestors_step wf h]
  · simp only [markedChecks, List.map_flatMap, List.map_map]
    rfl

/-- a check of the chain of types is declared in one of them; there it has the same checks before it -/
theorem marked_split (wf : WFDecls D) : ∀ (t : Nat) {P Q : List Check} {k : Check},
    (markedChecks D C t).map (·.2) = P ++ k :: Q → ∃ a P' Q', Extends D t a ∧ markedChecks D C a = P' ++ (true, k) :: Q' ∧
      P'.map (·.2) = P ∧ Q'.map (·.2) <+: Q ∧ ∀ x ∈ Q', x.1 = true := by
  intro t
  induction t using Nat.strong_induction_on with
  | _ t ih =>
    intro P Q k h
    have own : t < D.recs.length → ∀ (F : List (Bool × Check)) (P1 : List Check), markedChecks D C t = F ++ (C.ofRec t).map (fun c => (true, c)) →
        C.ofRec t = P1 ++ k :: Q → F.map (·.2) ++ P1 = P → ∃ a P' Q', Extends D t a ∧ markedChecks D C a = P' ++ (true, k) :: Q' ∧
          P'.map (·.2) = P ∧ Q'.map (·.2) <+: Q ∧ ∀ x ∈ Q', x.1 = true := by
      intro hlt F P1 h1 h2 h3
      refine ⟨t, F ++ P1.map fun c => (true, c), Q.map fun c => (true, c), .refl hlt, ?_, ?_, ?_, ?_⟩
      · rw [h1, h2]; simp
      · rw [← h3]; simp [Function.comp_def]
      · simp [Function.comp_def]
      · simp
    cases hr : D.recs[t]? with
    | none =>
      rw [markedChecks, ancestors_undeclared (by simpa using hr)] at h
      simp at h
    | some r =>
      replace own := own (List.getElem?_eq_some_iff.1 hr).1
      cases hp : r.parent with
      | none =>
        have hm := marked_root (C := C) hr hp
        have h' := h
        rw [hm] at h'
        simp only [List.map_map, Function.comp_def, List.map_id'] at h'
        exact own [] P (by simpa using hm) h' rfl
      | some p =>
        have hpar : ParentOf D t p := ⟨r, hr, hp⟩
        have hlt := wf t p hpar
        obtain ⟨F, h1, h2⟩ := marked_step (C := C) wf hpar
        rw [h1, List.map_append, h2] at h
        simp only [List.map_map, Function.comp_def, List.map_id'] at h
        rcases List.append_eq_append_iff.1 h with ⟨A, g1, g2⟩ | ⟨A, g1, g2⟩
        · exact own F A h1 g2 (by rw [h2, g1])
        · cases A with
          | nil =>
            simp only [List.nil_append] at g2
            exact own F [] h1 g2.symm (by rw [h2]; simpa using g1)
          | cons b A =>
            simp only [List.cons_append, List.cons.injEq] at g2
            obtain ⟨rfl, g2⟩ := g2
            obtain ⟨a, P', Q', e1, e2, e3, e4, e5⟩ := ih p hlt g1
            exact ⟨a, P', Q', .step hpar e1, e2, e3, e4.trans (g2 ▸ List.prefix_append _ _), e5⟩

/-- the position of a check in the order of the analysis -/
theorem order_split {P Q : List (Bool × Check)} {b : Bool} {k : Check} : ∃ pre post, vcgOrder (P ++ (b, k) :: Q) = pre ++ (b, k) :: post ∧
    ∀ x ∈ pre, x ∈ P ∨ (x ∈ Q ∧ k.usesFieldAccess = true ∧ x.2.usesFieldAccess = false) := by
  cases hu : k.usesFieldAccess with
  | false =>
    refine ⟨P.filter (fun k => k.2.usesFieldAccess = false), Q.filter (fun k => k.2.usesFieldAccess = false) ++
      (P ++ (b, k) :: Q).filter (fun k => k.2.usesFieldAccess = true), ?_, fun x hx => .inl (List.mem_filter.1 hx).1⟩
    simp [vcgOrder, List.filter_append, hu]
  | true =>
    refine ⟨(P ++ (b, k) :: Q).filter (fun k => k.2.usesFieldAccess = false) ++ P.filter (fun k => k.2.usesFieldAccess = true),
      Q.filter (fun k => k.2.usesFieldAccess = true), ?_, fun x hx => ?_⟩
    · simp [vcgOrder, List.filter_append, hu]
    · rcases List.mem_append.1 hx with hx | hx
      · obtain ⟨h1, h2⟩ := List.mem_filter.1 hx
        simp only [decide_eq_true_eq] at h2
        rcases List.mem_append.1 h1 with h1 | h1
        · exact .inl h1
        · rcases List.mem_cons.1 h1 with rfl | h1
          · rw [hu] at h2; cases h2
          · exact .inr ⟨h1, rfl, h2⟩
      · exact .inl (List.mem_filter.1 hx).1

end Verif.Lemmas.Vcg
