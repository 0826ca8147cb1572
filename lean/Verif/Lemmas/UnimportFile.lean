import Verif.Lemmas.UnimportExpr
/-!
# Parsing files with one import less
-/
namespace Verif.Lemmas.Unimport
open Verif.Model Verif.Spec

section
variable {K : Gone}

theorem NamesPkg.register {p : Nat} {nm : List Char} {T T' : STab} {e : Ent} (h : NamesPkg p nm T)
    (hr : T.register e = .ok T') (hc : e.cls ≠ clsPackage) : NamesPkg p nm T' := by
  have hT : T' = { T with own := T.own ++ [(simplifiedName e.name, e)] } := register_own hr
  subst hT
  intro c hm f hf x hx h1 h2
  rcases List.mem_cons.1 hm with rfl | hm
  · rcases List.mem_cons.1 hf with rfl | hf
    · rcases List.mem_append.1 hx with hx | hx
      · exact h _ (List.mem_cons_self ..) _ (List.mem_cons_self ..) x hx h1 h2
      · rcases List.mem_singleton.1 hx with rfl
        exact absurd h1 hc
    · exact h _ (List.mem_cons_self ..) _ (List.mem_cons_of_mem _ hf) x hx h1 h2
  · exact h _ (List.mem_cons_of_mem _ hm) f hf x hx h1 h2

theorem mem_set_tabs {l : List STab} {i : Nat} {T : STab} (h : ∀ T ∈ l, NamesPkg K.p K.nm T)
    (hT : NamesPkg K.p K.nm T) : ∀ U ∈ l.set i T, NamesPkg K.p K.nm U := by
  intro U hU
  rcases List.mem_or_eq_of_mem_set hU with h1 | rfl
  · exact h U h1
  · exact hT

theorem get_bind {β : Type} (f : PS → P β) (s : PS) : (P.get >>= f) s = f s s := rfl

theorem newNode_rel (v : PVal) :
    Rel K (NoRef K.p v) (fun n => K.n0 ≤ n.id) (fun n => NoRef K.p n.val) (P.newNode v) (P.newNode v) := by
  intro s hi a s' hr
  cases hr
  exact ⟨⟨hi.next, hi.rest, hi.tabs, hi.once, Nat.le_succ_of_le hi.nid, hi.len, hi.low⟩, hi.nid,
    fun p c => ⟨c, p.of_eq rfl rfl, rfl⟩⟩

theorem field_setField (s : PS) (o : Nat) (n : String) (v : VNode) (o' : Nat) (n' : String) :
    (s.setField o n v).field o' n' =
      if o' = o ∧ n' = n then (s.field o' n').map (fun _ => v) else s.field o' n' := by
  unfold PS.field PS.setField
  dsimp only
  rw [List.getElem?_modify]
  by_cases h1 : o = o'
  · subst h1
    cases hs : s.objs[o]? with
    | none => simp
    | some ob =>
      simp only [if_true, Option.map_eq_map, Option.map_some, Option.bind_some, true_and]
      rw [lookup_setKey]
      by_cases h2 : n' = n
      · subst h2
        cases List.lookup n' ob.fields <;> simp
      · simp [h2]
  · have : ¬ (o' = o ∧ n' = n) := fun h => h1 h.1.symm
    rw [if_neg this]
    simp [h1]

theorem assign_rel (o : Nat) (n : String) (v : VNode) :
    Rel K (K.n0 ≤ v.id → NoRef K.p v.val) (fun _ => True) (fun _ => True) (P.assign o n v) (P.assign o n v) := by
  intro s hi a s' hr
  have hr0 := hr
  unfold P.assign at hr
  split at hr
  · cases hr
  · next old ho =>
    split at hr
    · next hn =>
      cases hr
      refine ⟨⟨hi.next, hi.rest, hi.tabs, hi.once, hi.nid, hi.len, hi.low⟩, trivial, fun p _ => ⟨?_, ?_, hr0⟩⟩
      · refine p.objs o n v ?_
        rw [field_setField, if_pos ⟨rfl, rfl⟩, ho]
        rfl
      · refine ⟨fun o' n' w hw hid => ?_, p.frozen⟩
        by_cases h : o' = o ∧ n' = n
        · obtain ⟨rfl, rfl⟩ := h
          rw [ho] at hw
          cases hw
          revert hn
          cases old.val <;> intro hn <;> first | exact .inull | cases hn
        · refine p.objs o' n' w ?_ hid
          rw [field_setField, if_neg h]
          exact hw
    · cases hr

theorem completeLoop_rel (o t : Nat) (cs : List Comp) : Rel0 K (completeLoop o t cs) (completeLoop o t cs) := by
  induction cs with
  | nil => exact Rel.pure trivial (fun _ => trivial)
  | cons c cs ih =>
    unfold completeLoop
    have h1 := fun v => (assign_rel (K := K) o c.name v).weaken (F := fun _ => True) (ψ := fun _ => True) (φ := True)
      (fun _ h => h) (fun _ _ h => h) (fun _ => trivial)
    refine Rel.bind1 Rel.get (fun s _ => ?_)
    split
    · exact Rel.crash
    · split
      · split
        · split
          · exact Rel.crash
          · exact Rel.bind1 (h1 _) (fun _ _ => ih)
        · split
          · exact Rel.fail
          · exact ih
      · exact ih

end

section
variable {K : Gone} {E E' : FileEnv} (hE : Envs K E E')
include hE

theorem parseAssignment_rel (o t : Nat) : Rel0 K (parseAssignment E o t) (parseAssignment E' o t) := by
  unfold parseAssignment
  refine Rel.bind1 matchK_rel (fun tok _ => ?_)
  refine Rel.bind1 Rel.get (fun s _ => ?_)
  split
  · exact Rel.fail
  · split
    · exact Rel.crash
    · split
      · exact Rel.fail
      · split
        · exact Rel.fail
        · refine Rel.bind1 matchK_rel (fun _ _ => ?_)
          refine Rel.bind (parseValue_rel hE _ _) (fun v _ => ?_)
          refine Rel.bind (newNode_rel v) (fun n hn => ?_)
          exact (assign_rel o _ n).weaken (fun _ h => h) (fun _ _ h => h) (fun h => h hn)

theorem assignLoop_rel (o t k : Nat) : Rel0 K (assignLoop E o t k) (assignLoop E' o t k) := by
  induction k with
  | zero => exact Rel.crash
  | succ k ih =>
    unfold assignLoop
    have := parseAssignment_rel hE o t
    rel_steps

theorem newObject_rel (t : Nat) (name : List Char) : Rel0 K (P.newObject E t name) (P.newObject E' t name) := by
  intro s hi a s' hr
  have he : P.newObject E' t name = P.newObject E t name := by
    unfold P.newObject; rw [hE.pkg]
  rw [he]
  have hr0 := hr
  unfold P.newObject at hr
  dsimp only at hr
  split at hr
  · cases hr
  · next T hT =>
    split at hr
    · cases hr
    · next T' hT' =>
      cases hr
      refine ⟨⟨hi.next, hi.rest, mem_set_tabs hi.tabs ((hi.tabs T (List.mem_of_getElem? hT)).register hT' (show clsObject ≠ clsPackage by decide)),
        hi.once, Nat.le_trans hi.nid (Nat.le_add_right ..), hi.len, hi.low⟩, trivial, fun p _ => ⟨trivial, ?_, hr0⟩⟩
      refine ⟨fun o n v hv => p.objs o n v ?_, p.frozen⟩
      unfold PS.field at hv ⊢
      cases hs : s.objs[o]? with
      | none => rw [hs] at hv; cases hv
      | some ob =>
        dsimp only
        rw [List.getElem?_append_left (List.getElem?_eq_some_iff.1 hs).1, hs]
        rw [hs] at hv
        exact hv

theorem parseObjectOf_rel (e : Ent) : Rel0 K (parseObjectOf E e) (parseObjectOf E' e) := by
  unfold parseObjectOf
  refine Rel.bind1 Rel.get (fun s _ => ?_)
  split
  · exact Rel.fail
  · refine Rel.bind1 matchK_rel (fun _ _ => ?_)
    refine Rel.bind1 (newObject_rel hE _ _) (fun _ _ => ?_)
    refine Rel.bind1 matchK_rel (fun _ _ => ?_)
    refine Rel.bind1 Rel.get (fun _ _ => ?_)
    refine Rel.bind1 (assignLoop_rel hE _ _ _) (fun _ _ => ?_)
    refine Rel.bind1 Rel.get (fun _ _ => ?_)
    refine Rel.bind1 (completeLoop_rel _ _ _) (fun _ _ => ?_)
    rel_steps

theorem parseObject_rel : Rel0 K (parseObject E) (parseObject E') := by
  unfold parseObject
  exact Rel.bind1 (parseQualifiedName_rel hE) (fun _ _ => parseObjectOf_rel hE _)

omit hE in
theorem sects_rel (f : PS → List (List Char)) : Rel0 K (P.modify fun s => { s with sects := f s })
    (P.modify fun s => { s with sects := f s }) := by
  intro s hi a s' hr
  cases hr
  exact ⟨⟨hi.next, hi.rest, hi.tabs, hi.once, hi.nid, hi.len, hi.low⟩, trivial,
    fun p _ => ⟨trivial, p.of_eq rfl rfl, rfl⟩⟩

mutual
theorem parseEntry_rel : (n : Nat) → Rel0 K (parseEntry E n) (parseEntry E' n)
  | 0 => Rel.crash
  | n + 1 => by
    unfold parseEntry
    refine Rel.bind1 Rel.get (fun s _ => ?_)
    split
    · refine Rel.bind1 matchKw_rel (fun _ _ => ?_)
      refine Rel.bind1 matchK_rel (fun t _ => ?_)
      refine Rel.bind1 (sects_rel fun s => s.sects ++ [t.text]) (fun _ _ => ?_)
      refine Rel.bind1 matchK_rel (fun _ _ => ?_)
      refine Rel.bind1 (sectionLoop_rel n) (fun _ _ => ?_)
      exact Rel.bind1 matchK_rel (fun _ _ => sects_rel fun s => s.sects.dropLast)
    · exact Rel.bind1 (parseObject_rel hE) (fun _ _ => Rel.pure trivial (fun _ => trivial))
theorem sectionLoop_rel : (n : Nat) → Rel0 K (sectionLoop E n) (sectionLoop E' n)
  | 0 => Rel.crash
  | n + 1 => by
    unfold sectionLoop
    refine Rel.bind1 Rel.get (fun s _ => ?_)
    split
    · exact Rel.pure trivial (fun _ => trivial)
    · exact Rel.bind1 (parseEntry_rel n) (fun _ _ => sectionLoop_rel n)
end

omit hE in
/-- one item of a file: there is no error if the file is accepted -/
theorem tryCatch_true {x : P Unit} {h : P Bool} {s s' : PS} (hh : ∀ s s', h s ≠ .ok true s')
    (hr : P.tryCatch (do x; pure true) h s = .ok true s') : x s = .ok () s' := by
  unfold P.tryCatch at hr
  split at hr
  · next a s1 h1 =>
    cases hr
    obtain ⟨_, s2, h2, h3⟩ := bind_ok h1
    cases h3
    exact h2
  · exact absurd hr (hh _ _)
  · cases hr

omit hE in
theorem tryCatch_run {x : P Unit} {h : P Bool} {s s' : PS} (hr : x s = .ok () s') :
    P.tryCatch (do x; pure true) h s = .ok true s' := by
  unfold P.tryCatch
  rw [bind_run hr]
  rfl

omit hE in
theorem recoverFile_not (s s' : PS) : recoverFile E s ≠ .ok true s' := by
  intro h
  unfold recoverFile at h
  cases hc : E.recover with
  | false => rw [hc] at h; cases h
  | true =>
    rw [hc] at h
    change (P.skipUntilNewline >>= fun _ => P.get >>= fun s => recoverLoop E (s.toks + 1) >>= fun _ => pure false) s =
      .ok true s' at h
    obtain ⟨_, _, -, h⟩ := bind_ok h
    obtain ⟨_, _, -, h⟩ := bind_ok h
    obtain ⟨_, _, -, h⟩ := bind_ok h
    cases h

omit hE in
theorem fileLoop_false {k : Nat} {s s' : PS} : fileLoop E k false s ≠ .ok true s' := by
  induction k generalizing s with
  | zero => intro h; cases h
  | succ k ih =>
    intro h
    unfold fileLoop at h
    obtain ⟨_, _, h1, h⟩ := bind_ok h
    cases h1
    split at h
    · obtain ⟨_, _, -, h⟩ := bind_ok h
      exact ih h
    · cases h

theorem fileLoop_rel (k : Nat) : ∀ s, Inv K s → ∀ s', fileLoop E k true s = .ok true s' →
    Inv K s' ∧ (Pure K s' → Pure K s ∧ fileLoop E' k true s = .ok true s') := by
  induction k with
  | zero => intro s hi s' h; cases h
  | succ k ih =>
    intro s hi s' h
    unfold fileLoop at h ⊢
    obtain ⟨_, _, h1, h⟩ := bind_ok h
    cases h1
    rw [get_bind]
    split at h
    · next hc =>
      rw [if_pos hc]
      obtain ⟨b, s1, h1, h⟩ := bind_ok h
      cases b with
      | false => exact absurd h fileLoop_false
      | true =>
        have h2 := tryCatch_true (recoverFile_not) h1
        obtain ⟨i1, -, g1⟩ := parseEntry_rel hE _ s hi () s1 h2
        obtain ⟨i2, g2⟩ := ih s1 i1 s' h
        refine ⟨i2, fun p => ?_⟩
        obtain ⟨p1, r1⟩ := g2 p
        obtain ⟨-, p2, r2⟩ := g1 p1 trivial
        exact ⟨p2, by rw [bind_run (tryCatch_run r2)]; exact r1⟩
    · next hc =>
      rw [if_neg hc]
      cases h
      exact ⟨hi, fun p => ⟨p, rfl⟩⟩

theorem parseTrlcFile_rel {s s' : PS} (hi : Inv K s) (h : parseTrlcFile E s = .ok true s') :
    Inv K s' ∧ (Pure K s' → parseTrlcFile E' s = .ok true s') := by
  unfold parseTrlcFile at h ⊢
  obtain ⟨_, _, h1, h⟩ := bind_ok h
  cases h1
  rw [get_bind]
  obtain ⟨b, s1, h1, h⟩ := bind_ok h
  obtain ⟨_, s2, h2, h⟩ := bind_ok h
  cases h
  obtain ⟨i1, g1⟩ := fileLoop_rel hE _ s hi s1 h1
  obtain ⟨i2, -, g2⟩ := matchEof_rel s1 i1 () _ h2
  refine ⟨i2, fun p => ?_⟩
  obtain ⟨-, p2, r2⟩ := g2 p trivial
  rw [bind_run (g1 p2).2, bind_run r2]
  rfl

end

end Verif.Lemmas.Unimport
