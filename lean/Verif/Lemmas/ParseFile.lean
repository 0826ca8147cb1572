import Verif.Lemmas.ParseObject
namespace Verif.Lemmas
open Verif.Model Verif.Spec

variable {α : Type} {R : PS → PS → Prop}

theorem sp_tryCatch [PreRel R] {x h : P α} {s : PS} {Q : α → PS → Prop} (Q0 : α → PS → Prop)
    (hx : Sp R x s Q0) (hq : ∀ a s', R s s' → x s = .ok a s' → Q0 a s' → Q a s')
    (hh : ∀ s', R s s' → x s = .err s' → Sp R h s' Q) : Sp R (P.tryCatch x h) s Q := by
  unfold Sp P.tryCatch
  cases hxs : x s with
  | ok a s' =>
    have := hx.ok hxs
    exact ⟨this.1, hq a s' this.1 hxs this.2⟩
  | err s' =>
    have h1 := hx.err hxs
    have h2 := hh s' h1 hxs
    unfold Sp at h2
    simp only
    cases h3 : h s' <;> rw [h3] at h2 <;> simp only
    · exact ⟨PreRel.trans h1 h2.1, h2.2⟩
    · exact PreRel.trans h1 h2
    · exact ⟨PreRel.trans h1 h2.1, h2.2⟩
  | crash c s' => exact hx.crash hxs

/-! ## Skipping tokens -/

theorem skipLoop_sp (line : Nat) : ∀ (k : Nat) (s : PS), s.toks < k →
    Sp Fr (skipLoop line k) s (fun _ _ => True) := by
  intro k
  induction k with
  | zero => intro s h; omega
  | succ k ih =>
    intro s hk
    unfold skipLoop
    by_cases h : s.nt.any (fun t => t.line = line) = true
    · have hn : s.nt.isSome := by
        cases hn : s.nt with
        | none => rw [hn] at h; simp at h
        | some t => rfl
      have h1 : Sp Fr (P.advance >>= fun _ => skipLoop line k) s (fun _ _ => True) := by
        refine sp_bind _ advance_sp ?_
        rintro _ s1 h1 ⟨-, hlt⟩
        exact ih s1 (by have := hlt hn; omega)
      refine h1.congr ?_
      simp only [h, if_true]
    · refine (sp_pure (R := Fr) (a := ()) (Q := fun _ _ => True) trivial).congr ?_
      simp only [h, if_false, pure_apply]
      rfl

theorem skipUntilNewline_sp {s : PS} : Sp Fr P.skipUntilNewline s (fun _ _ => True) := by
  cases hc : s.ct with
  | none =>
    refine (sp_pure (R := Fr) (a := ()) (Q := fun _ _ => True) trivial).congr ?_
    unfold P.skipUntilNewline
    rw [hc]
    rfl
  | some t =>
    refine (skipLoop_sp t.line (s.toks + 1) s (by omega)).congr ?_
    unfold P.skipUntilNewline
    rw [hc]

theorem recoverLoop_sp {E : FileEnv} : ∀ (k : Nat) (s : PS), s.toks < k →
    Sp Fr (recoverLoop E k) s (fun _ _ => True) := by
  intro k
  induction k with
  | zero => intro s h; omega
  | succ k ih =>
    intro s hk
    unfold recoverLoop
    refine sp_get_bind ?_
    refine sp_ite (fun _ => sp_pure trivial) (fun h => ?_)
    have hn : s.nt.isSome := by
      simp only [PS.peekEof, Bool.or_eq_true, not_or] at h
      cases hn : s.nt with
      | none => rw [hn] at h; simp at h
      | some t => rfl
    refine sp_bind _ advance_sp ?_
    rintro _ s1 h1 ⟨-, hlt⟩
    refine sp_bind _ skipUntilNewline_sp ?_
    rintro _ s2 h2 -
    exact ih s2 (by have := hlt hn; have := h2.toks; omega)

theorem recoverFile_sp {E : FileEnv} {s : PS} : Sp Fr (recoverFile E) s (fun b _ => b = false) := by
  unfold recoverFile
  refine sp_ite (fun _ => Fr.refl s) (fun _ => ?_)
  refine sp_bind _ skipUntilNewline_sp ?_
  rintro _ s1 h1 -
  refine sp_get_bind ?_
  refine sp_bind _ (recoverLoop_sp _ s1 (by omega)) ?_
  rintro _ s2 h2 -
  exact sp_pure rfl

/-! ## Entries always consume tokens -/

theorem parseQualifiedName_err {E : FileEnv} {sub : Ent → Bool} {s s' : PS}
    (hp : s.peek .IDENTIFIER = true) (h : parseQualifiedName E sub s = .err s') :
    s'.toks < s.toks := by
  unfold parseQualifiedName at h
  rw [bind_apply] at h
  cases hm : P.matchK .IDENTIFIER s with
  | err s1 =>
    rw [hm] at h
    simp only [PR.err.injEq] at h
    rw [← h]
    exact matchK_err hp hm
  | crash c s1 => rw [hm] at h; cases h
  | ok t s1 =>
    rw [hm] at h
    dsimp only at h
    have hlt := ((matchK_sp (k := .IDENTIFIER) (s := s)).ok hm).2.2.2.2
    refine Nat.lt_of_le_of_lt (Fr.toks (s := s1) ?_) hlt
    refine Sp.err (Q := fun _ _ => True) ?_ h
    refine sp_bind _ scopeLookup_sp ?_
    rintro sym s2 h2 ⟨-, rfl⟩
    refine sp_ite (fun hc => ?_) (fun hc => scopeLookup_sp.mono fun _ _ _ _ => trivial)
    refine sp_ite (fun _ => sp_invisible) (fun _ => ?_)
    refine sp_bind _ matchK_sp ?_
    rintro t3 s3 h3 -
    refine sp_bind _ matchK_sp ?_
    rintro t4 s4 h4 -
    refine sp_get_bind ?_
    exact liftSym_sp.mono fun _ _ _ _ => trivial

theorem parseObject_err {E : FileEnv} {D : Decls} {infos : List RecInfo} (hw : WorldOk D infos)
    {s s' : PS} (hD : s.decls = D) (hI : s.infos = infos) (hp : s.peek .IDENTIFIER = true)
    (h : parseObject E s = .err s') : s'.toks < s.toks := by
  unfold parseObject at h
  rw [bind_apply] at h
  cases hm : parseQualifiedName E (fun e => e.cls = clsRecord) s with
  | err s1 =>
    rw [hm] at h
    simp only [PR.err.injEq] at h
    rw [← h]
    exact parseQualifiedName_err hp hm
  | crash c s1 => rw [hm] at h; cases h
  | ok e s1 =>
    rw [hm] at h
    dsimp only at h
    have h1 := (parseQualifiedName_sp (E := E) (s := s)).ok hm
    have h2 := (parseObjectOf_sp hw (E := E) (e := e) (h1.1.decls.trans hD)
      (h1.1.infos.trans hI)).err h
    exact Nat.lt_of_le_of_lt h2.toks h1.2.1

/-! ## Objects declared so far -/

/-- All objects declared so far are complete; the nodes created for different objects (that is,
all but the frozen values) are different, and newer than `n0`. -/
structure GoodObjs (D : Decls) (infos : List RecInfo) (n0 : Nat) (s : PS) : Prop where
  nid : n0 ≤ s.nid
  complete : ∀ (i : Nat) (ob : Obj), s.objs[i]? = some ob → ObjComplete D infos ob
  range : ∀ (i : Nat) (ob : Obj) (c : Comp) (n : VNode), s.objs[i]? = some ob →
    HasComp D ob.typ c → ob.fields.lookup c.name = some n →
    (∀ m, ¬ FrozenIn D infos ob.typ c.name m) → n0 ≤ n.id ∧ n.id < s.nid
  apart : ∀ (i j : Nat) (ob ob' : Obj) (c c' : Comp) (n n' : VNode), i < j →
    s.objs[i]? = some ob → s.objs[j]? = some ob' →
    HasComp D ob.typ c → ob.fields.lookup c.name = some n →
    (∀ m, ¬ FrozenIn D infos ob.typ c.name m) →
    HasComp D ob'.typ c' → ob'.fields.lookup c'.name = some n' →
    (∀ m, ¬ FrozenIn D infos ob'.typ c'.name m) → n.id < n'.id

theorem GoodObjs.same {D : Decls} {infos : List RecInfo} {n0 : Nat} {s s' : PS} (h : GoodObjs D infos n0 s)
    (ho : s'.objs = s.objs) (hn : s.nid ≤ s'.nid) : GoodObjs D infos n0 s' := by
  refine ⟨Nat.le_trans h.nid hn, by rw [ho]; exact h.complete, ?_, by rw [ho]; exact h.apart⟩
  intro i ob c n h1 h2 h3 h4
  rw [ho] at h1
  have := h.range i ob c n h1 h2 h3 h4
  exact ⟨this.1, Nat.lt_of_lt_of_le this.2 hn⟩

theorem GoodObjs.fr {D : Decls} {infos : List RecInfo} {n0 : Nat} {s s' : PS} (h : GoodObjs D infos n0 s)
    (hf : Fr s s') : GoodObjs D infos n0 s' := h.same hf.objs (by rw [hf.nid]; exact Nat.le_refl _)

theorem GoodObjs.new {D : Decls} {infos : List RecInfo} {n0 : Nat} {E : FileEnv} {s s' : PS} {ts : List Token}
    (h : GoodObjs D infos n0 s) (hn : s.nid ≤ s'.nid) (ho : NewObject D infos E s s' ts) :
    GoodObjs D infos n0 s' := by
  obtain ⟨ob, asg, h1, -, -, -, h4, -, -, h5⟩ := ho
  have split : ∀ (i : Nat) (o : Obj), s'.objs[i]? = some o →
      (s.objs[i]? = some o ∧ i < s.objs.length) ∨ (i = s.objs.length ∧ o = ob) := by
    intro i o hi
    rw [h1] at hi
    by_cases hlt : i < s.objs.length
    · rw [List.getElem?_append_left hlt] at hi
      exact .inl ⟨hi, hlt⟩
    · rw [List.getElem?_append_right (by omega)] at hi
      rw [List.getElem?_singleton] at hi
      split at hi
      · injection hi with hi
        exact .inr ⟨by omega, hi.symm⟩
      · cases hi
  refine ⟨Nat.le_trans h.nid hn, ?_, ?_, ?_⟩
  · intro i o hi
    rcases split i o hi with ⟨hi, -⟩ | ⟨-, rfl⟩
    · exact h.complete i o hi
    · exact h4
  · intro i o c n hi hc hl hm
    rcases split i o hi with ⟨hi, -⟩ | ⟨-, rfl⟩
    · have := h.range i o c n hi hc hl hm
      exact ⟨this.1, Nat.lt_of_lt_of_le this.2 hn⟩
    · have := h5 c n hc hl hm
      exact ⟨Nat.le_trans h.nid this.1, this.2⟩
  · intro i j o o' c c' n n' hij hi hj hc hl hm hc' hl' hm'
    rcases split i o hi with ⟨hi, hi'⟩ | ⟨hi, rfl⟩
    · rcases split j o' hj with ⟨hj, -⟩ | ⟨-, rfl⟩
      · exact h.apart i j o o' c c' n n' hij hi hj hc hl hm hc' hl' hm'
      · have h6 := h.range i o c n hi hc hl hm
        have h7 := h5 c' n' hc' hl' hm'
        omega
    · rcases split j o' hj with ⟨-, hj⟩ | ⟨hj, -⟩ <;> omega

/-! ## Entries and files -/

theorem matchEof_sp {s : PS} : Sp Fr P.matchEof s (fun _ s' => s' = s ∧ s.nt = none) := by
  unfold Sp P.matchEof
  cases hn : s.nt with
  | none => exact ⟨Fr.refl s, rfl, rfl⟩
  | some t => exact (sp_fail (α := Unit) (Q := fun _ _ => True)).err rfl

section
variable {E : FileEnv} {D : Decls} {infos : List RecInfo} (hw : WorldOk D infos) (n0 : Nat)
include hw

/-- What entries add: the objects `items` (with their assignments), read from `ts`. -/
structure Adds (D : Decls) (infos : List RecInfo) (E : FileEnv) (s s' : PS)
    (items : List (Obj × List (String × PVal))) (ts : List Token) : Prop where
  objs : s'.objs = s.objs ++ items.map Prod.fst
  reads : words s = ts ++ words s'
  made : ∀ x ∈ items, ObjComplete D infos x.1 ∧ ObjFrom D infos x.2 x.1
  written : s'.errs = s.errs →
    WrittenEntries E (namesOf s) s.objs.length s.sects items ts (namesOf s')

omit hw in
theorem Adds.refl {s : PS} : Adds D infos E s s [] [] := ⟨by simp, rfl, by simp, fun _ => .nil⟩

omit hw in
theorem writtenEntries_append {N N1 N2 : Names} {k : Nat} {S : List (List Char)}
    {items items' : List (Obj × List (String × PVal))} {ts ts' : List Token}
    (h : WrittenEntries E N k S items ts N1)
    (h' : WrittenEntries E N1 (k + items.length) S items' ts' N2) :
    WrittenEntries E N k S (items ++ items') (ts ++ ts') N2 := by
  induction h with
  | nil => simpa using h'
  | obj h1 h2 h3 h4 h5 ih =>
    rw [List.cons_append, List.append_assoc]
    refine .obj h1 h2 h3 h4 (ih ?_)
    rw [List.length_cons] at h'
    rwa [show ∀ a b : Nat, a + (b + 1) = a + 1 + b by omega] at h'
  | sect h1 h2 h3 h4 h5 h6 ih1 ih2 =>
    rw [List.append_assoc, List.append_assoc _ _ ts']
    refine .sect h1 h2 h3 h4 h5 (ih2 ?_)
    rw [List.length_append] at h'
    rwa [← Nat.add_assoc] at h'

omit hw in
theorem Adds.trans {s s' s'' : PS} {items items' : List (Obj × List (String × PVal))}
    {ts ts' : List Token} (h : Adds D infos E s s' items ts) (h' : Adds D infos E s' s'' items' ts')
    (hs : s'.sects = s.sects) (he : ∃ l, s'.errs = s.errs ++ l)
    (he' : ∃ l, s''.errs = s'.errs ++ l) : Adds D infos E s s'' (items ++ items') (ts ++ ts') := by
  refine ⟨by rw [h'.objs, h.objs]; simp, by rw [h.reads, h'.reads, List.append_assoc], ?_, ?_⟩
  · intro x hx
    rcases List.mem_append.1 hx with hx | hx
    · exact h.made x hx
    · exact h'.made x hx
  · intro e
    obtain ⟨e1, e2⟩ := errs_between he he' e
    have h2 := h'.written e2
    rw [hs, h.objs, List.length_append, List.length_map] at h2
    exact writtenEntries_append (h.written e1) h2

mutual
theorem parseEntry_sp : ∀ (n : Nat) (s : PS), 2 * s.toks + 1 ≤ n → s.decls = D → s.infos = infos →
    Sp (Ro s.objs.length) (parseEntry E n) s (fun _ s' => s'.toks < s.toks ∧ s'.sects = s.sects ∧
      (GoodObjs D infos n0 s → GoodObjs D infos n0 s') ∧
      ∃ items ts, Adds D infos E s s' items ts) := by
  intro n s hn hD hI
  cases n with
  | zero => omega
  | succ n =>
    unfold parseEntry
    refine sp_get_bind ?_
    refine sp_ite (fun _ => ?_) (fun _ => ?_)
    · refine sp_bind _ ((matchKw_sp.withRd matchKw_rd).ro _) ?_
      rintro w s1 - ⟨h1, ⟨-, -, -, -, hlt1⟩, _, hw1, -, hk1, hv1, rfl⟩
      refine sp_bind _ ((matchK_sp.withRd matchK_rd).ro _) ?_
      rintro t s2 - ⟨h2, ⟨-, -, -, hlt2⟩, _, hw2, -, hk2, rfl⟩
      have h12 := h1.trans h2
      refine sp_bind (fun _ s3 => s3 = { s2 with sects := s2.sects ++ [t.text] }) ?_ ?_
      · exact ⟨⟨rfl, rfl, rfl, rfl, Nat.le_refl _, Nat.le_refl _, ⟨[], by simp⟩, Nat.le_refl _,
          fun hi => hi.same rfl rfl, rfl⟩, rfl⟩
      · rintro _ s3 - hs3
        refine sp_bind _ ((matchK_sp.withRd matchK_rd).ro _) ?_
        rintro bra s4 - ⟨h4, ⟨-, -, -, hlt4⟩, _, hw4, -, hk4, rfl⟩
        have ht3 : s3.toks = s2.toks := by rw [hs3]; rfl
        have ho4 : s4.objs = s.objs := by rw [h4.objs, hs3]; exact h12.objs
        have hn4 : s4.nid = s.nid := by rw [h4.nid, hs3]; exact h12.nid
        have hD4 : s4.decls = D := by rw [h4.decls, hs3]; exact h12.decls.trans hD
        have hI4 : s4.infos = infos := by rw [h4.infos, hs3]; exact h12.infos.trans hI
        have hs4 : s4.sects = s.sects ++ [t.text] := by
          rw [h4.sects, hs3, ← h12.sects]
        have hloop := sectionLoop_sp n s4 (by omega) hD4 hI4
        rw [ho4] at hloop
        refine sp_bind _ hloop ?_
        rintro _ s5 h5 ⟨hsec5, hg5, items, ts5, ha5⟩
        refine sp_bind _ ((matchK_sp.withRd matchK_rd).ro _) ?_
        rintro ket s6 - ⟨h6, ⟨-, -, -, hlt6⟩, _, hw6, -, hk6, rfl⟩
        have hle5 := h5.toks
        refine ⟨⟨rfl, rfl, rfl, rfl, Nat.le_refl _, Nat.le_refl _, ⟨[], by simp⟩, Nat.le_refl _,
          fun hi => hi.same rfl rfl, rfl⟩, ?_, ?_, ?_, items, [w, t, bra] ++ ts5 ++ [ket], ?_⟩
        · show s6.toks < s.toks
          omega
        · show s6.sects.dropLast = s.sects
          rw [h6.sects, hsec5, hs4]
          simp
        · intro hg
          have g4 := hg.same (s' := s4) ho4 (by rw [hn4]; exact Nat.le_refl _)
          exact ((hg5 g4).fr h6).same rfl (Nat.le_refl _)
        · have hn4 : namesOf s4 = namesOf s := by
            rw [namesOf_fr h4, ← namesOf_fr h12, hs3]; rfl
          have he4 : ∃ l, s4.errs = s.errs ++ l := by
            obtain ⟨l, hl⟩ := h12.errs
            obtain ⟨l', hl'⟩ := h4.errs
            exact ⟨l ++ l', by rw [hl', hs3, ← List.append_assoc, ← hl]⟩
          refine ⟨?_, ?_, ha5.made, ?_⟩
          · show s6.objs = _
            rw [h6.objs, ha5.objs, ho4]
          · show words s = _ ++ words s6
            have hw3 : words s2 = words s3 := by rw [hs3]; rfl
            rw [hw1, hw2, hw3, hw4, ha5.reads, hw6]
            simp
          · intro herr
            have herr : s6.errs = s.errs := herr
            have he5 : ∃ l, s5.errs = s.errs ++ l := by
              obtain ⟨l, hl⟩ := he4
              obtain ⟨l', hl'⟩ := h5.errs
              exact ⟨l ++ l', by rw [hl', hl, List.append_assoc]⟩
            have e1 := errs_between he5 h6.errs herr
            have e2 := errs_between he4 h5.errs e1.1
            have hwr := ha5.written e2.2
            rw [hn4, ho4, hs4] at hwr
            have hn6 : namesOf s6 = namesOf s5 := namesOf_fr h6
            have := WrittenEntries.sect (S := s.sects) ⟨hk1, hv1⟩ hk2 hk4 hk6 hwr
              (.nil (E := E) (N := namesOf s5))
            simp only [List.append_nil] at this
            show WrittenEntries E (namesOf s) s.objs.length s.sects items _ (namesOf s6)
            rw [hn6]
            exact this
    · refine sp_bind _ (parseObject_sp hw (E := E) hD hI) ?_
      rintro o s1 h1 ⟨-, hlt, hsec, ts, hw1, hnew⟩
      refine sp_pure ⟨hlt, hsec, fun hg => hg.new h1.nid hnew, ?_⟩
      obtain ⟨ob, asg, k1, k2, k3, k4, k5, k6, k7, -⟩ := hnew
      refine ⟨[(ob, asg)], ts, by simpa using k1, hw1, ?_, fun he => ?_⟩
      · intro x hx
        simp only [List.mem_singleton] at hx
        subst hx
        exact ⟨k5, k6⟩
      · have := WrittenEntries.obj k2 k3 k4 (k7 he) .nil
        simpa using this

theorem sectionLoop_sp : ∀ (n : Nat) (s : PS), 2 * s.toks + 2 ≤ n → s.decls = D → s.infos = infos →
    Sp (Ro s.objs.length) (sectionLoop E n) s (fun _ s' => s'.sects = s.sects ∧
      (GoodObjs D infos n0 s → GoodObjs D infos n0 s') ∧
      ∃ items ts, Adds D infos E s s' items ts) := by
  intro n s hn hD hI
  cases n with
  | zero => omega
  | succ n =>
    unfold sectionLoop
    refine sp_get_bind ?_
    refine sp_ite (fun _ => sp_pure ⟨rfl, id, [], [], Adds.refl⟩) (fun _ => ?_)
    refine sp_bind _ (parseEntry_sp n s (by omega) hD hI) ?_
    rintro _ s1 h1 ⟨hlt, hsec, hg, items, ts, ha⟩
    have := sectionLoop_sp n s1 (by omega) (h1.decls.trans hD) (h1.infos.trans hI)
    refine (this.weaken fun s' hr => hr.mono h1.more).mono ?_
    rintro _ s2 h2 ⟨hsec2, hg2, items', ts', ha'⟩
    exact ⟨hsec2.trans hsec, fun h => hg2 (hg h), items ++ items', ts ++ ts',
      ha.trans ha' hsec h1.errs h2.errs⟩
end

theorem parseEntry_err {n : Nat} {s s' : PS} (hn : 2 * s.toks + 1 ≤ n) (hD : s.decls = D)
    (hI : s.infos = infos) (hp : s.peekKw "section" = true ∨ s.peek .IDENTIFIER = true)
    (h : parseEntry E n s = .err s') : s'.toks < s.toks := by
  cases n with
  | zero => omega
  | succ n =>
    unfold parseEntry at h
    rw [bind_apply] at h
    simp only [P.get] at h
    by_cases hk : s.peekKw "section" = true
    · rw [if_pos hk] at h
      rw [bind_apply] at h
      cases hm : P.matchKw "section" s with
      | err s1 =>
        rw [hm] at h
        simp only [PR.err.injEq] at h
        rw [← h]
        exact matchKw_err hk hm
      | crash c s1 => rw [hm] at h; cases h
      | ok t s1 =>
        rw [hm] at h
        dsimp only at h
        obtain ⟨h1, -, -, -, -, hlt1⟩ := (matchKw_sp (v := "section") (s := s)).ok hm
        refine Nat.lt_of_le_of_lt (Ro.toks (n := s.objs.length) (s := s1) ?_) hlt1
        refine Sp.err (Q := fun _ _ => True) ?_ h
        refine sp_bind _ (matchK_sp.ro _) ?_
        rintro t s2 - ⟨h2, -, -, -, hlt2⟩
        have h12 := h1.trans h2
        refine sp_bind (fun _ s3 => s3 = { s2 with sects := s2.sects ++ [t.text] }) ?_ ?_
        · exact ⟨⟨rfl, rfl, rfl, rfl, Nat.le_refl _, Nat.le_refl _, ⟨[], by simp⟩, Nat.le_refl _,
            fun hi => hi.same rfl rfl, rfl⟩, rfl⟩
        · rintro _ s3 - hs3
          refine sp_bind _ (matchK_sp.ro _) ?_
          rintro _ s4 - ⟨h4, -, -, -, hlt4⟩
          have ht3 : s3.toks = s2.toks := by rw [hs3]; rfl
          have ho4 : s4.objs = s.objs := by rw [h4.objs, hs3]; exact h12.objs
          have hD4 : s4.decls = D := by rw [h4.decls, hs3]; exact h12.decls.trans hD
          have hI4 : s4.infos = infos := by rw [h4.infos, hs3]; exact h12.infos.trans hI
          have hloop := sectionLoop_sp hw 0 (E := E) n s4 (by omega) hD4 hI4
          rw [ho4] at hloop
          refine sp_bind _ hloop ?_
          rintro _ s5 h5 -
          refine sp_bind _ (matchK_sp.ro _) ?_
          rintro _ s6 - -
          exact ⟨⟨rfl, rfl, rfl, rfl, Nat.le_refl _, Nat.le_refl _, ⟨[], by simp⟩, Nat.le_refl _,
            fun hi => hi.same rfl rfl, rfl⟩, trivial⟩
    · rw [if_neg hk] at h
      have hp' : s.peek .IDENTIFIER = true := by
        rcases hp with hp | hp
        · exact absurd hp hk
        · exact hp
      rw [bind_apply] at h
      cases hm : parseObject E s with
      | err s1 =>
        rw [hm] at h
        simp only [PR.err.injEq] at h
        rw [← h]
        exact parseObject_err hw hD hI hp' hm
      | crash c s1 => rw [hm] at h; cases h
      | ok t s1 => rw [hm] at h; cases h

theorem fileLoop_sp : ∀ (k : Nat) (ok : Bool) (s : PS), s.toks < k → s.decls = D →
    s.infos = infos →
    Sp (Ro s.objs.length) (fileLoop E k ok) s (fun b s' => b = true → ok = true ∧
      s'.sects = s.sects ∧ (GoodObjs D infos n0 s → GoodObjs D infos n0 s') ∧
      ∃ items ts, Adds D infos E s s' items ts) := by
  intro k
  induction k with
  | zero => intro _ s h; omega
  | succ k ih =>
    intro ok s hk hD hI
    unfold fileLoop
    refine sp_get_bind ?_
    refine sp_ite (fun hg => ?_) (fun _ => sp_pure fun h => ⟨h, rfl, id, [], [], Adds.refl⟩)
    simp only [Bool.or_eq_true] at hg
    have hentry := parseEntry_sp hw n0 (E := E) (2 * s.toks + 2) s (by omega) hD hI
    have hx : Sp (Ro s.objs.length) (do parseEntry E (2 * s.toks + 2); pure true) s
        (fun b s' => s'.toks < s.toks ∧ s'.sects = s.sects ∧
          (GoodObjs D infos n0 s → GoodObjs D infos n0 s') ∧
          ∃ items ts, Adds D infos E s s' items ts) :=
      sp_bind _ hentry fun _ s1 _ h => sp_pure h
    refine sp_bind (fun b s' => s'.toks < s.toks ∧ (b = true → s'.sects = s.sects ∧
        (GoodObjs D infos n0 s → GoodObjs D infos n0 s') ∧
          ∃ items ts, Adds D infos E s s' items ts)) (sp_tryCatch _ hx ?_ ?_) ?_
    · rintro b s1 - - ⟨h1, h2, h3⟩
      exact ⟨h1, fun _ => ⟨h2, h3⟩⟩
    · intro s1 h1 he
      have hlt : s1.toks < s.toks := by
        rw [bind_apply] at he
        cases hm : parseEntry E (2 * s.toks + 2) s with
        | ok a s2 => rw [hm] at he; cases he
        | crash c s2 => rw [hm] at he; cases he
        | err s2 =>
          rw [hm] at he
          simp only [PR.err.injEq] at he
          rw [← he]
          exact parseEntry_err hw (by omega) hD hI hg hm
      refine (recoverFile_sp.ro _).mono ?_
      rintro b s2 - ⟨h2, rfl⟩
      have := h2.toks
      exact ⟨by omega, fun h => by cases h⟩
    · rintro b s1 h1 ⟨hlt, hb⟩
      have := ih (ok && b) s1 (by omega) (h1.decls.trans hD) (h1.infos.trans hI)
      refine (this.weaken fun s' hr => hr.mono h1.more).mono ?_
      rintro b' s2 hr2 h2 hb'
      obtain ⟨h3, h4, h5, items', ts', ha'⟩ := h2 hb'
      simp only [Bool.and_eq_true] at h3
      obtain ⟨h6, h7, items, ts, ha⟩ := hb h3.2
      exact ⟨h3.1, h4.trans h6, fun hg => h5 (h7 hg), items ++ items', ts ++ ts',
        ha.trans ha' h6 h1.errs hr2.errs⟩

theorem parseTrlcFile_sp (s : PS) (hD : s.decls = D) (hI : s.infos = infos) :
    Sp (Ro s.objs.length) (parseTrlcFile E) s (fun b s' => s'.nt = none ∧ (b = true →
      s'.sects = s.sects ∧ (GoodObjs D infos n0 s → GoodObjs D infos n0 s') ∧
      ∃ items ts, Adds D infos E s s' items ts)) := by
  unfold parseTrlcFile
  refine sp_get_bind ?_
  refine sp_bind _ (fileLoop_sp hw n0 (E := E) (s.toks + 1) true s (by omega) hD hI) ?_
  rintro b s1 h1 hb
  refine sp_bind _ (matchEof_sp.ro _) ?_
  rintro _ s2 - ⟨-, rfl, hn⟩
  exact sp_pure ⟨hn, fun h => (hb h).2⟩

end
end Verif.Lemmas
