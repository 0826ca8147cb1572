import Verif.Lemmas.UnimportFile
/-!
# Parsing rsl files with one import less
-/
namespace Verif.Lemmas.Unimport
open Verif.Model Verif.Spec

section
variable {K : Gone}

theorem parseDescribedName_rel : Rel0 K parseDescribedName parseDescribedName := by
  unfold parseDescribedName
  rel_steps

theorem fresh_rel : Rel0 K P.fresh P.fresh := by
  intro s hi a s' hr
  cases hr
  exact ⟨⟨hi.next, hi.rest, hi.tabs, hi.once, Nat.le_succ_of_le hi.nid, hi.len, hi.low⟩, trivial,
    fun p _ => ⟨trivial, p.of_eq rfl rfl, rfl⟩⟩

theorem natOf_rel (t : Token) : Rel0 K (P.natOf t) (P.natOf t) := by
  unfold P.natOf
  rel_steps

theorem addLiteral_rel (t : Nat) (n : List Char) : Rel0 K (P.addLiteral t n) (P.addLiteral t n) := by
  intro s hi a s' hr
  have hr0 := hr
  unfold P.addLiteral at hr
  split at hr
  · cases hr
  · cases hr
    exact ⟨⟨hi.next, hi.rest, hi.tabs, hi.once, hi.nid, hi.len, hi.low⟩, trivial,
      fun p _ => ⟨trivial, p.of_eq rfl rfl, hr0⟩⟩

theorem literalLoop_rel (t k : Nat) (b : Bool) : Rel0 K (literalLoop t k b) (literalLoop t k b) := by
  induction k generalizing b with
  | zero => exact Rel.crash
  | succ k ih =>
    unfold literalLoop
    refine Rel.bind1 Rel.get (fun s _ => ?_)
    split
    · rel_steps
    · refine Rel.bind1 parseDescribedName_rel (fun _ _ => ?_)
      exact Rel.bind1 (addLiteral_rel _ _) (fun _ _ => ih _)

theorem parseUpperBound_rel : Rel0 K parseUpperBound parseUpperBound := by
  unfold parseUpperBound
  have := fun t => natOf_rel (K := K) t
  refine Rel.bind1 Rel.get (fun s _ => ?_)
  split
  · refine Rel.bind1 matchK_rel (fun _ _ => ?_)
    exact Rel.bind1 (natOf_rel _) (fun _ _ => by rel_steps)
  · rel_steps

theorem parseArrayType_rel (τ : Ty) : Rel0 K (parseArrayType τ) (parseArrayType τ) := by
  unfold parseArrayType
  refine Rel.bind1 Rel.get (fun s _ => ?_)
  split
  · refine Rel.bind1 matchK_rel (fun _ _ => ?_)
    refine Rel.bind1 matchK_rel (fun _ _ => ?_)
    refine Rel.bind1 (natOf_rel _) (fun _ _ => ?_)
    refine Rel.bind1 matchK_rel (fun _ _ => ?_)
    refine Rel.bind1 parseUpperBound_rel (fun _ _ => ?_)
    refine Rel.bind1 matchK_rel (fun _ _ => ?_)
    refine Rel.bind1 fresh_rel (fun _ _ => ?_)
    rel_steps
  · rel_steps

theorem reportDuplicates_rel (seen ts : List Nat) : Rel0 K (reportDuplicates seen ts) (reportDuplicates seen ts) := by
  induction ts generalizing seen with
  | nil => exact Rel.pure trivial (fun _ => trivial)
  | cons t ts ih =>
    unfold reportDuplicates
    split
    · exact Rel.bind1 report_rel (fun _ _ => ih _)
    · exact ih _

/-- fields with different names -/
def Once (cs : List Comp) : Prop := (cs.map (·.name)).Nodup

theorem registerName_new {ns : List (List Char)} {n : List Char} (h : registerName ns n = .ok ()) : n ∉ ns := by
  intro hm
  unfold registerName at h
  split at h
  · next hf =>
    rw [List.find?_eq_none] at hf
    simpa using hf n hm
  · split at h <;> cases h

theorem addField_rel {cs : List Comp} (c : Comp) (h : Once cs) :
    Rel K True Once (fun _ => True) (P.addField cs c) (P.addField cs c) := by
  unfold P.addField
  split
  · exact Rel.fail
  · next hr =>
    refine Rel.pure ?_ (fun _ => trivial)
    have hn := registerName_new hr
    unfold Once
    rw [List.map_append]
    refine List.nodup_append.2 ⟨h, by simp, ?_⟩
    intro a ha b hb
    simp only [List.map_cons, List.map_nil, List.mem_singleton] at hb
    subst hb
    rintro rfl
    apply hn
    obtain ⟨d, hd, he⟩ := List.mem_map.1 ha
    unfold compNames
    exact List.mem_map.2 ⟨d, hd, by rw [he]⟩

theorem parseSeparator_rel (cs : List Comp) (seps : List Sep) :
    Rel0 K (parseSeparator cs seps) (parseSeparator cs seps) := by
  unfold parseSeparator
  rel_steps

theorem addComponent_rel (t : Nat) (c : Comp) : Rel0 K (P.addComponent t c) (P.addComponent t c) := by
  intro s hi a s' hr
  have hr0 := hr
  unfold P.addComponent at hr
  split at hr
  · cases hr
  · cases hr
    refine ⟨⟨hi.next, hi.rest, hi.tabs, hi.once, hi.nid, ?_, hi.low⟩, trivial,
      fun p _ => ⟨trivial, p.of_eq rfl rfl, hr0⟩⟩
    dsimp only
    rw [List.length_modify]
    exact hi.len

theorem setFrozen_rel {t : Nat} (n : String) (v : VNode) (ht : t < K.lo) :
    Rel K (K.n0 ≤ v.id → NoRef K.p v.val) (fun _ => True) (fun _ => True) (P.setFrozen t n v) (P.setFrozen t n v) := by
  intro s hi a s' hr
  have hr0 := hr
  cases hr
  have hl : t < s.infos.length := Nat.lt_of_lt_of_le ht hi.low
  refine ⟨⟨hi.next, hi.rest, hi.tabs, hi.once, hi.nid, ?_, ?_⟩, trivial, fun p _ => ⟨?_, ?_, hr0⟩⟩
  · dsimp only; rw [List.length_modify]; exact hi.len
  · dsimp only; rw [List.length_modify]; exact hi.low
  · refine p.frozen { s.infos[t] with frozen := s.infos[t].frozen ++ [(n, v)] } (List.mem_of_getElem? (i := t) ?_)
      (n, v) (List.mem_append_right _ (List.mem_singleton_self _))
    dsimp only
    rw [List.getElem?_modify, List.getElem?_eq_getElem hl]
    simp
  · refine ⟨p.objs, fun i hi' f hf => ?_⟩
    obtain ⟨j, hj, rfl⟩ := List.mem_iff_getElem.1 hi'
    by_cases h : t = j
    · subst h
      refine p.frozen { s.infos[t] with frozen := s.infos[t].frozen ++ [(n, v)] } (List.mem_of_getElem? (i := t) ?_)
        f (List.mem_append_left _ hf)
      dsimp only
      rw [List.getElem?_modify, List.getElem?_eq_getElem hl]
      simp
    · refine p.frozen _ (List.mem_of_getElem? (i := j) ?_) f hf
      dsimp only
      rw [List.getElem?_modify, List.getElem?_eq_getElem hj]
      simp [h]

theorem parseSeverity_rel : Rel0 K parseSeverity parseSeverity := by
  unfold parseSeverity
  rel_steps

theorem parseMessage_rel : Rel0 K parseMessage parseMessage := by
  unfold parseMessage
  rel_steps

theorem parseAnchor_rel (ct : CompositeTy) : Rel0 K (parseAnchor ct) (parseAnchor ct) := by
  unfold parseAnchor
  rel_steps

theorem parseExtras_rel (ct : CompositeTy) : Rel0 K (parseExtras ct) (parseExtras ct) := by
  unfold parseExtras
  have := parseAnchor_rel (K := K) ct
  rel_steps

theorem addCheck_rel (ct : CompositeTy) (c : Check) : Rel0 K (P.addCheck ct c) (P.addCheck ct c) := by
  intro s hi a s' hr
  have hr0 := hr
  unfold P.addCheck at hr
  cases hr
  cases ct <;>
    exact ⟨⟨hi.next, hi.rest, hi.tabs, hi.once, hi.nid, hi.len, hi.low⟩, trivial,
      fun p _ => ⟨trivial, p.of_eq rfl rfl, hr0⟩⟩

end

section
variable {K : Gone} {E E' : FileEnv} (hE : Envs K E E')
include hE

theorem registerType_eq {n : List Char} {id cls : Nat} {upd : PS → PS} :
    P.registerType E' n id cls upd = P.registerType E n id cls upd := by
  unfold P.registerType; rw [hE.pkg]

omit hE in
theorem registerType_ok {n : List Char} {id cls : Nat} {upd : PS → PS} {s s' : PS} (hi : Inv K s)
    (hc : cls ≠ clsPackage) (h : P.registerType E n id cls upd s = .ok () s') :
    ∃ tabs, s' = { upd s with tabs := tabs } ∧ ∀ T ∈ tabs, NamesPkg K.p K.nm T := by
  unfold P.registerType at h
  split at h
  · cases h
  · next T hT =>
    split at h
    · cases h
    · next T' hT' =>
      cases h
      exact ⟨_, rfl, mem_set_tabs hi.tabs ((hi.tabs T (List.mem_of_getElem? hT)).register hT' hc)⟩

theorem parseEnumDecl_rel : Rel0 K (parseEnumDecl E) (parseEnumDecl E') := by
  unfold parseEnumDecl
  refine Rel.bind1 matchKw_rel (fun _ _ => ?_)
  refine Rel.bind1 parseDescribedName_rel (fun name _ => ?_)
  refine Rel.bind1 Rel.get (fun s _ => ?_)
  refine Rel.bind1 (F := fun _ => True) ?_ (fun _ _ => ?_)
  · rw [registerType_eq hE]
    intro s1 hi a s' hr
    have hr0 := hr
    obtain ⟨tabs, rfl, ht⟩ := registerType_ok hi (by decide) hr
    exact ⟨⟨hi.next, hi.rest, ht, hi.once, hi.nid, hi.len, hi.low⟩, trivial,
      fun p _ => ⟨trivial, p.of_eq rfl rfl, hr0⟩⟩
  · refine Rel.bind1 matchK_rel (fun _ _ => ?_)
    refine Rel.bind1 Rel.get (fun s _ => ?_)
    refine Rel.bind1 (literalLoop_rel _ _ _) (fun _ _ => ?_)
    rel_steps

theorem unionLoop_rel (k : Nat) (acc : List Nat) : Rel0 K (unionLoop E k acc) (unionLoop E' k acc) := by
  induction k generalizing acc with
  | zero => exact Rel.crash
  | succ k ih =>
    unfold unionLoop
    refine Rel.bind1 Rel.get (fun s _ => ?_)
    split
    · refine Rel.bind1 matchK_rel (fun _ _ => ?_)
      exact Rel.bind1 (parseQualifiedName_rel hE) (fun _ _ => ih _)
    · rel_steps

theorem parseUnionType_rel : Rel0 K (parseUnionType E) (parseUnionType E') := by
  unfold parseUnionType
  refine Rel.bind1 matchK_rel (fun _ _ => ?_)
  refine Rel.bind1 (parseQualifiedName_rel hE) (fun _ _ => ?_)
  refine Rel.bind1 Rel.get (fun s _ => ?_)
  refine Rel.bind1 (unionLoop_rel hE _ _) (fun _ _ => ?_)
  refine Rel.bind1 matchK_rel (fun _ _ => ?_)
  refine Rel.bind1 (reportDuplicates_rel _ _) (fun _ _ => ?_)
  refine Rel.bind1 fresh_rel (fun _ _ => ?_)
  rel_steps

theorem parseFieldType_rel : Rel0 K (parseFieldType E) (parseFieldType E') := by
  unfold parseFieldType
  refine Rel.bind1 Rel.get (fun s _ => ?_)
  split
  · exact parseUnionType_rel hE
  · refine Rel.bind1 (parseQualifiedName_rel hE) (fun _ _ => ?_)
    rel_steps

theorem parseTupleField_rel (t : Nat) (a r : Bool) : Rel0 K (parseTupleField E t a r) (parseTupleField E' t a r) := by
  unfold parseTupleField
  have h1 := parseFieldType_rel hE
  have h2 := parseDescribedName_rel (K := K)
  rel_steps

theorem tupleLoop_rel (t k : Nat) (has req alw : Bool) (cs : List Comp) (seps : List Sep) (hc : Once cs) :
    Rel K True (fun r => Once r.2.1) (fun _ => True) (tupleLoop E t k has req alw cs seps)
      (tupleLoop E' t k has req alw cs seps) := by
  induction k generalizing has req alw cs seps with
  | zero => exact Rel.crash
  | succ k ih =>
    unfold tupleLoop
    refine Rel.bind1 Rel.get (fun s _ => ?_)
    split
    · split
      · refine Rel.bind1 matchKw_rel (fun _ _ => ?_)
        split
        · exact Rel.fail
        · refine Rel.bind1 (parseSeparator_rel _ _) (fun _ _ => ?_)
          refine Rel.bind1 (parseTupleField_rel hE _ _ _) (fun _ _ => ?_)
          exact Rel.bind1 (addField_rel _ hc) (fun _ h => ih _ _ _ _ _ h)
      · refine Rel.bind1 (parseTupleField_rel hE _ _ _) (fun _ _ => ?_)
        exact Rel.bind1 (addField_rel _ hc) (fun _ h => ih _ _ _ _ _ h)
    · exact Rel.pure hc (fun _ => trivial)

theorem parseTupleDecl_rel : Rel0 K (parseTupleDecl E) (parseTupleDecl E') := by
  unfold parseTupleDecl
  refine Rel.bind1 matchKw_rel (fun _ _ => ?_)
  refine Rel.bind1 parseDescribedName_rel (fun name _ => ?_)
  refine Rel.bind1 matchK_rel (fun _ _ => ?_)
  refine Rel.bind1 Rel.get (fun s _ => ?_)
  refine Rel.bind1 (parseTupleField_rel hE _ _ _) (fun _ _ => ?_)
  refine Rel.bind1 (addField_rel _ List.nodup_nil) (fun cs hcs => ?_)
  refine Rel.bind1 Rel.get (fun _ _ => ?_)
  refine Rel.bind1 (tupleLoop_rel hE _ _ _ _ _ _ _ hcs) (fun r hr => ?_)
  obtain ⟨has, cs, seps⟩ := r
  refine Rel.bind1 matchK_rel (fun _ _ => ?_)
  refine Rel.bind1 Rel.get (fun _ _ => ?_)
  refine Rel.bind1 (F := fun _ => True) (by rel_steps) (fun _ _ => ?_)
  rw [registerType_eq hE]
  intro s1 hi a s' hr'
  have hr0 := hr'
  obtain ⟨tabs, rfl, ht⟩ := registerType_ok hi (by decide) hr'
  refine ⟨⟨hi.next, hi.rest, ht, ?_, hi.nid, hi.len, hi.low⟩, trivial, fun p _ => ⟨trivial, p.of_eq rfl rfl, hr0⟩⟩
  intro ds hds
  rcases List.mem_append.1 hds with h | h
  · exact hi.once ds h
  · rcases List.mem_singleton.1 h with rfl
    exact hr

theorem parseComponent_rel (t : Nat) : Rel0 K (parseComponent E t) (parseComponent E' t) := by
  unfold parseComponent
  refine Rel.bind1 parseDescribedName_rel (fun name _ => ?_)
  refine Rel.bind1 Rel.get (fun s _ => ?_)
  refine Rel.bind1 (F := fun _ => True) (by rel_steps) (fun _ _ => ?_)
  refine Rel.bind1 (parseFieldType_rel hE) (fun _ _ => ?_)
  refine Rel.bind1 (parseArrayType_rel _) (fun _ _ => ?_)
  rel_steps

theorem parseFreeze_rel {t : Nat} (ht : t < K.lo) : Rel0 K (parseFreeze E t) (parseFreeze E' t) := by
  unfold parseFreeze
  refine Rel.bind1 matchKw_rel (fun _ _ => ?_)
  refine Rel.bind1 matchK_rel (fun _ _ => ?_)
  refine Rel.bind1 Rel.get (fun s _ => ?_)
  refine Rel.bind1 liftSym_rel (fun _ _ => ?_)
  split
  · exact Rel.crash
  · split
    · exact Rel.fail
    · refine Rel.bind1 matchK_rel (fun _ _ => ?_)
      refine Rel.bind (parseValue_rel hE _ _) (fun v _ => ?_)
      refine Rel.bind (newNode_rel v) (fun n hn => ?_)
      exact (setFrozen_rel _ n ht).weaken (fun _ h => h) (fun _ _ h => h) (fun h => h hn)

theorem recordLoop_rel {t : Nat} (ht : t < K.lo) (k : Nat) : Rel0 K (recordLoop E t k) (recordLoop E' t k) := by
  induction k with
  | zero => exact Rel.crash
  | succ k ih =>
    unfold recordLoop
    refine Rel.bind1 Rel.get (fun s _ => ?_)
    split
    · rel_steps
    · split
      · exact Rel.bind1 (parseFreeze_rel hE ht) (fun _ _ => ih)
      · refine Rel.bind1 (parseComponent_rel hE t) (fun _ _ => ?_)
        refine Rel.bind1 Rel.get (fun s _ => ?_)
        split
        · exact Rel.fail
        · exact Rel.bind1 (addComponent_rel _ _) (fun _ _ => ih)

/-- with more record types -/
def Gone.up (K : Gone) (n : Nat) : Gone := { K with lo := max K.lo n }

theorem Envs.up (n : Nat) : Envs (K.up n) E E' :=
  ⟨hE.global, hE.pkg, hE.recover, hE.resolved, hE.visible, hE.markup, hE.tab⟩

omit hE in
theorem final_rel (t : Nat) :
    Rel0 K (P.modify fun s => { s with infos := s.infos.modify t fun i => { i with isFinal := true } })
      (P.modify fun s => { s with infos := s.infos.modify t fun i => { i with isFinal := true } }) := by
  intro s hi a s' hr
  have hr0 := hr
  cases hr
  refine ⟨⟨hi.next, hi.rest, hi.tabs, hi.once, hi.nid, ?_, ?_⟩, trivial, fun p _ => ⟨trivial, ?_, hr0⟩⟩
  · dsimp only; rw [List.length_modify]; exact hi.len
  · dsimp only; rw [List.length_modify]; exact hi.low
  · refine ⟨p.objs, fun i hi' f hf => ?_⟩
    obtain ⟨j, hj, rfl⟩ := List.mem_iff_getElem.1 hi'
    by_cases h : t = j
    · subst h
      refine p.frozen { s.infos[t] with isFinal := true } (List.mem_of_getElem? (i := t) ?_) f hf
      dsimp only
      rw [List.getElem?_modify, List.getElem?_eq_getElem hj]
      simp
    · refine p.frozen _ (List.mem_of_getElem? (i := j) ?_) f hf
      dsimp only
      rw [List.getElem?_modify, List.getElem?_eq_getElem hj]
      simp [h]

/-- the body of a record type after it was registered -/
theorem recordBody_rel {t : Nat} (ht : t < K.lo) (isFinal : Bool) :
    Rel0 K (do let _ ← P.matchK .C_BRA; let s ← P.get; recordLoop E t (s.toks + 1); let _ ← P.matchK .C_KET
               P.cond isFinal
                (P.modify fun s => { s with infos := s.infos.modify t fun i => { i with isFinal := true } }) (pure ()))
      (do let _ ← P.matchK .C_BRA; let s ← P.get; recordLoop E' t (s.toks + 1); let _ ← P.matchK .C_KET
          P.cond isFinal
            (P.modify fun s => { s with infos := s.infos.modify t fun i => { i with isFinal := true } }) (pure ())) := by
  refine Rel.bind1 matchK_rel (fun _ _ => ?_)
  refine Rel.bind1 Rel.get (fun s _ => ?_)
  refine Rel.bind1 (recordLoop_rel hE ht _) (fun _ _ => ?_)
  refine Rel.bind1 matchK_rel (fun _ _ => ?_)
  exact Rel.cond (fun _ => final_rel t) (fun _ => Rel.pure trivial (fun _ => trivial))

theorem parseRecordDecl_rel : Rel0 K (parseRecordDecl E) (parseRecordDecl E') := by
  unfold parseRecordDecl
  refine Rel.bind1 Rel.get (fun s _ => ?_)
  refine Rel.bind1 (F := fun _ => True) (by rel_steps) (fun r _ => ?_)
  obtain ⟨isAbstract, isFinal⟩ := r
  refine Rel.bind1 matchKw_rel (fun _ _ => ?_)
  refine Rel.bind1 parseDescribedName_rel (fun name _ => ?_)
  refine Rel.bind1 Rel.get (fun s _ => ?_)
  refine Rel.bind1 (F := fun _ => True) ?_ (fun parent _ => ?_)
  · have := fun sub => parseQualifiedName_rel (K := K) (sub := sub) hE
    refine Rel.cond (fun _ => ?_) (fun _ => ?_)
    · refine Rel.bind1 matchKw_rel (fun _ _ => ?_)
      exact Rel.bind1 (this _) (fun _ _ => by rel_steps)
    · rel_steps
  · intro s hi a s' hr
    rw [get_bind] at hr ⊢
    dsimp only at hr ⊢
    rw [registerType_eq hE]
    obtain ⟨_, s1, h1, h2⟩ := bind_ok hr
    obtain ⟨tabs, he, ht⟩ := registerType_ok hi (by decide) h1
    have i1 : Inv (K.up (s.decls.recs.length + 1)) s1 := by
      subst he
      refine ⟨hi.next, hi.rest, ht, hi.once, hi.nid, ?_, ?_⟩
      · dsimp only
        rw [List.length_append, List.length_append]
        exact Nat.add_le_add_right hi.len 1
      · dsimp only [Gone.up]
        rw [List.length_append]
        exact Nat.max_le.2 ⟨Nat.le_trans hi.low (Nat.le_add_right ..), Nat.add_le_add_right hi.len 1⟩
    obtain ⟨i2, -, g2⟩ := recordBody_rel (hE.up _) (K := K.up (s.decls.recs.length + 1)) (t := s.decls.recs.length)
      (Nat.le_max_right ..) isFinal s1 i1 a s' h2
    refine ⟨⟨i2.next, i2.rest, i2.tabs, i2.once, i2.nid, i2.len, Nat.le_trans (Nat.le_max_left ..) i2.low⟩, trivial,
      fun p _ => ?_⟩
    obtain ⟨-, p1, r1⟩ := g2 ⟨p.objs, p.frozen⟩ trivial
    refine ⟨trivial, ?_, by rw [bind_run h1]; exact r1⟩
    subst he
    exact ⟨p1.objs, fun i hm => p1.frozen i (List.mem_append_left _ hm)⟩

theorem parseTypeDecl_rel : Rel0 K (parseTypeDecl E) (parseTypeDecl E') := by
  unfold parseTypeDecl
  have h1 := parseEnumDecl_rel hE
  have h2 := parseTupleDecl_rel hE
  have h3 := parseRecordDecl_rel hE
  rel_steps

theorem parseCheck_rel (rx : Regex) (ct : CompositeTy) : Rel0 K (parseCheck E rx ct) (parseCheck E' rx ct) := by
  unfold parseCheck
  refine Rel.bind1 Rel.get (fun s hs => ?_)
  rw [scope_eq hE]
  refine Rel.bind1 (parseExpr_rel hE _ _ ⟨_, _, rfl, hE.tab, hs.tab _⟩) (fun _ _ => ?_)
  refine Rel.bind1 (F := fun _ => True) (by rel_steps) (fun _ _ => ?_)
  refine Rel.bind1 matchK_rel (fun _ _ => ?_)
  refine Rel.bind1 parseSeverity_rel (fun _ _ => ?_)
  refine Rel.bind1 parseMessage_rel (fun _ _ => ?_)
  exact Rel.bind1 (parseExtras_rel _) (fun _ _ => addCheck_rel _ _)

theorem checkLoop_rel (rx : Regex) (ct : CompositeTy) (k : Nat) :
    Rel0 K (checkLoop E rx ct k) (checkLoop E' rx ct k) := by
  induction k with
  | zero => exact Rel.crash
  | succ k ih =>
    unfold checkLoop
    have := parseCheck_rel hE rx ct
    rel_steps

theorem parseCheckBlock_rel (rx : Regex) : Rel0 K (parseCheckBlock E rx) (parseCheckBlock E' rx) := by
  unfold parseCheckBlock
  refine Rel.bind1 matchKw_rel (fun _ _ => ?_)
  refine Rel.bind1 matchK_rel (fun _ _ => ?_)
  refine Rel.bind1 Rel.get (fun s _ => ?_)
  rw [hE.pkg]
  refine Rel.bind1 liftSym_rel (fun e _ => ?_)
  split
  · exact Rel.crash
  · refine Rel.bind1 matchK_rel (fun _ _ => ?_)
    refine Rel.bind1 Rel.get (fun s _ => ?_)
    refine Rel.bind1 (checkLoop_rel hE _ _ _) (fun _ _ => ?_)
    rel_steps

theorem parseRslItem_rel (rx : Regex) : Rel0 K (parseRslItem E rx) (parseRslItem E' rx) := by
  unfold parseRslItem
  have h1 := parseCheckBlock_rel hE rx
  have h2 := parseTypeDecl_rel hE
  rel_steps

omit hE in
theorem recoverRsl_not (s s' : PS) : recoverRsl E s ≠ .ok true s' := by
  intro h
  unfold recoverRsl at h
  cases hc : E.recover with
  | false => rw [hc] at h; cases h
  | true =>
    rw [hc] at h
    change (P.skipUntilNewline >>= fun _ => P.get >>= fun s => recoverRslLoop (s.toks + 1) >>= fun _ => pure false) s =
      .ok true s' at h
    obtain ⟨_, _, -, h⟩ := bind_ok h
    obtain ⟨_, _, -, h⟩ := bind_ok h
    obtain ⟨_, _, -, h⟩ := bind_ok h
    cases h

omit hE in
theorem rslLoop_false {rx : Regex} {k : Nat} {s s' : PS} : rslLoop E rx k false s ≠ .ok true s' := by
  induction k generalizing s with
  | zero => intro h; cases h
  | succ k ih =>
    intro h
    unfold rslLoop at h
    obtain ⟨_, _, h1, h⟩ := bind_ok h
    cases h1
    split at h
    · cases h
    · obtain ⟨_, _, -, h⟩ := bind_ok h
      exact ih h

theorem rslLoop_rel (rx : Regex) (k : Nat) : ∀ s, Inv K s → ∀ s', rslLoop E rx k true s = .ok true s' →
    Inv K s' ∧ (Pure K s' → Pure K s ∧ rslLoop E' rx k true s = .ok true s') := by
  induction k with
  | zero => intro s hi s' h; cases h
  | succ k ih =>
    intro s hi s' h
    unfold rslLoop at h ⊢
    rw [get_bind] at h ⊢
    split at h
    · next hc =>
      rw [if_pos hc]
      cases h
      exact ⟨hi, fun p => ⟨p, rfl⟩⟩
    · next hc =>
      rw [if_neg hc]
      obtain ⟨b, s1, h1, h⟩ := bind_ok h
      cases b with
      | false => exact absurd h rslLoop_false
      | true =>
        have h2 := tryCatch_true (recoverRsl_not) h1
        obtain ⟨i1, -, g1⟩ := parseRslItem_rel hE rx s hi () s1 h2
        obtain ⟨i2, g2⟩ := ih s1 i1 s' h
        refine ⟨i2, fun p => ?_⟩
        obtain ⟨p1, r1⟩ := g2 p
        obtain ⟨-, p2, r2⟩ := g1 p1 trivial
        exact ⟨p2, by rw [bind_run (tryCatch_run r2)]; exact r1⟩

theorem parseRslFile_rel {rx : Regex} {s s' : PS} (hi : Inv K s) (h : parseRslFile E rx s = .ok true s') :
    Inv K s' ∧ (Pure K s' → parseRslFile E' rx s = .ok true s') := by
  unfold parseRslFile at h ⊢
  rw [get_bind] at h ⊢
  obtain ⟨b, s1, h1, h⟩ := bind_ok h
  obtain ⟨_, s2, h2, h⟩ := bind_ok h
  cases h
  obtain ⟨i1, g1⟩ := rslLoop_rel hE rx _ s hi s1 h1
  obtain ⟨i2, -, g2⟩ := matchEof_rel s1 i1 () _ h2
  refine ⟨i2, fun p => ?_⟩
  obtain ⟨-, p2, r2⟩ := g2 p trivial
  rw [bind_run (g1 p2).2, bind_run r2]
  rfl

end

end Verif.Lemmas.Unimport
