import Verif.Lemmas.RslAcceptsFiles
import Verif.Lemmas.ParseFile
import Verif.Spec.Accepted
/-! Objects and trlc files that are written as the grammar says are accepted. -/
namespace Verif.Lemmas
open Verif.Model Verif.Spec

variable {α β γ : Type} {E : FileEnv} {K : PS} {W : World} {n n' : Nat} {w ts : List Token} {s : PS}

theorem component_of {D : Decls} {infos : List RecInfo} (hw : WorldOk D infos) {t : Nat} {c : Comp}
    (hc : HasComp D t c) : D.component t c.name = some c := by
  cases h : D.component t c.name with
  | some c' =>
    obtain ⟨h1, h2⟩ := component_hasComp hw.wf h
    rw [hw.unique t c' c h1 hc h2]
  | none =>
    obtain ⟨u, hu, hd⟩ := hc
    have h1 := List.findSome?_eq_none_iff.1 h u ((mem_ancestors hw.wf t u).2 hu)
    have h2 := List.find?_eq_none.1 h1 c ((mem_own u c).2 hd)
    simp at h2

theorem written_notNull {N : Names} {v : PVal} {τ : Ty} {nx : Option Token} (h : Written E N v τ ts nx) :
    v.isNull = false := by
  cases v <;> first | rfl | exact absurd h (by simp [Written])

/-- The objects before are `pre`; the last object is the one under construction, as `proto` but for
the values, which are those of `asg`. -/
def Building (K : PS) (W : World) (pre : List Obj) (proto : Obj) (asg : List (String × PVal)) (n : Nat)
    (w : List Token) (s : PS) : Prop :=
  ∃ fs, On { K with objs := pre ++ [{ proto with fields := fs }] } W n w s ∧
    ∀ c, HasComp W.decls proto.typ c → ∃ nd, fs.lookup c.name = some nd ∧
      (((c.name, nd.val) ∈ asg ∧ nd.val.isNull = false) ∨ (c.name ∉ asg.map Prod.fst ∧ nd.val = .inull))

theorem field_last {pre : List Obj} {proto : Obj} {fs : List (String × VNode)} {nm : String} {nd : VNode}
    (h : On { K with objs := pre ++ [{ proto with fields := fs }] } W n w s) (hl : fs.lookup nm = some nd) :
    s.field pre.length nm = some nd := by
  unfold PS.field
  rw [h.objs, last_get]
  exact hl

theorem setField_on {pre : List Obj} {proto : Obj} {fs : List (String × VNode)} {nm : String} {nd : VNode}
    (h : On { K with objs := pre ++ [{ proto with fields := fs }] } W n w s) :
    On { K with objs := pre ++ [{ proto with fields := setKey fs nm nd }] } W n w (s.setField pre.length nm nd) := by
  refine ⟨h.clean, h.words, ?_, h.errs, ?_, h.sects⟩
  · rw [← h.world]
    unfold worldOf PS.setField
    simp only [h.objs, last_modify, List.map_append, List.map_cons, List.map_nil]
  · show s.objs.modify _ _ = _
    rw [h.objs, last_modify]

theorem assignment_on {pre : List Obj} {proto : Obj} {asg : List (String × PVal)} {a : String × PVal}
    (hw : WorldOk W.decls W.infos) (ha : WrittenAssign E W.names proto.typ a ts w.head?)
    (hnew : a.1 ∉ asg.map Prod.fst) (hfr : ∀ m, ¬ FrozenIn W.decls W.infos proto.typ a.1 m)
    (h : Building K W pre proto asg n (ts ++ w) s) :
    Acc (parseAssignment E pre.length proto.typ) s
      (fun _ s' => Building K W pre proto (asg ++ [a]) (n + 1) w s') := by
  obtain ⟨x, y, r, c, rfl, hx, hy, hax, hc, hca, hv⟩ := ha
  obtain ⟨nm, v⟩ := a
  simp only at hax hca hnew hfr hv
  subst hca
  obtain ⟨fs, hon, hfs⟩ := h
  obtain ⟨nd, hl, hnd⟩ := hfs c hc
  have hnull : nd.val = .inull := by
    rcases hnd with ⟨h1, -⟩ | ⟨-, h1⟩
    · exact absurd (List.mem_map_of_mem (f := Prod.fst) h1) hnew
    · exact h1
  unfold parseAssignment
  refine acc_bind _ (matchK_on hon hx) ?_
  rintro x s1 ⟨rfl, h1⟩
  refine acc_get_bind ?_
  rw [h1.decls, ← hax, component_of hw hc]
  simp only
  rw [field_last h1 hl]
  simp only
  have hwf : WFDecls s1.decls := by rw [h1.decls]; exact hw.wf
  refine acc_neg (by simp [hnull, PVal.isNull]) (acc_neg ?_ ?_)
  · rw [isFrozen_iff hwf, h1.decls, h1.infos]
    rintro ⟨m, hm⟩
    exact hfr m hm
  refine acc_bind _ (matchK_on h1 hy) ?_
  rintro _ s2 ⟨rfl, h2⟩
  have hty := hw.types _ c hc
  have hval : Acc (parseValue E W.decls.typeDepth c.ty) s2 (fun v' s' => v' = v ∧
      On { K with objs := pre ++ [{ proto with fields := fs }] } W n w s') := by
    refine acc_steps h2 fun s' hst hnx => ?_
    refine parseValue_acc (N := W.names) hw.wf hw.tuples _ c.ty hty.2 hty.1 v r s2 s' ?_ hst h2.names
    rw [hnx]; exact hv
  refine acc_bind _ hval ?_
  rintro v s3 ⟨rfl, h3⟩
  refine acc_bind (fun nd' s' => nd' = ⟨n, v⟩ ∧ On { K with objs := pre ++ [{ proto with fields := fs }] } W (n + 1) w s')
    ⟨_, _, newNode_on, by rw [h3.nid], h3.clean, h3.words, ?_, h3.errs, h3.objs, h3.sects⟩ ?_
  · have e : worldOf { s3 with nid := s3.nid + 1 } = { worldOf s3 with nid := s3.nid + 1 } := rfl
    rw [e, h3.world, h3.nid]
  rintro _ s4 ⟨rfl, h4⟩
  refine ⟨(), s4.setField pre.length c.name ⟨n, v⟩, ?_, _, setField_on h4, ?_⟩
  · unfold P.assign
    rw [field_last h4 hl]
    simp [hnull, PVal.isNull]
  · intro d hd
    rw [lookup_setKey, hl]
    by_cases hdc : d.name = c.name
    · refine ⟨⟨n, v⟩, by simp [hdc], .inl ⟨?_, written_notNull hv⟩⟩
      simp [hdc]
    · obtain ⟨nd', k1, k2⟩ := hfs d hd
      refine ⟨nd', by simp [hdc, k1], ?_⟩
      rcases k2 with ⟨k2, k3⟩ | ⟨k2, k3⟩
      · exact .inl ⟨List.mem_append_left _ k2, k3⟩
      · refine .inr ⟨?_, k3⟩
        simp only [List.map_append, List.map_cons, List.map_nil, List.mem_append, List.mem_singleton]
        rintro (h | h)
        · exact k2 h
        · exact hdc h

theorem assigns_len {N : Names} {t : Nat} : ∀ {asg : List (String × PVal)} {ts : List Token} {nx : Option Token},
    WrittenAssigns E N t asg ts nx → asg.length ≤ ts.length := by
  intro asg
  induction asg with
  | nil => intro ts nx h; simp
  | cons a as ih =>
    rintro ts nx ⟨x, r, rfl, ⟨_, _, _, _, rfl, -⟩, h2⟩
    have := ih h2
    simp only [List.length_append, List.length_cons]; omega

theorem assignLoop_on {pre : List Obj} {proto : Obj} {k : Token} (hk : k.kind = .C_KET)
    (hw : WorldOk W.decls W.infos) : ∀ (new asg : List (String × PVal)) (ts : List Token) (f n : Nat) (s : PS),
    WrittenAssigns E W.names proto.typ new ts (some k) → ((asg ++ new).map Prod.fst).Nodup →
    (∀ a ∈ new, ∀ m, ¬ FrozenIn W.decls W.infos proto.typ a.1 m) → new.length < f →
    Building K W pre proto asg n (ts ++ k :: w) s →
    Acc (assignLoop E pre.length proto.typ f) s
      (fun _ s' => ∃ n', Building K W pre proto (asg ++ new) n' (k :: w) s') := by
  intro new
  induction new with
  | nil =>
    intro asg ts f n s ht _ _ hf h
    obtain ⟨f, rfl⟩ : ∃ j, f = j + 1 := ⟨f - 1, by simp at hf; omega⟩
    have ht : ts = [] := ht
    subst ht
    unfold assignLoop
    obtain ⟨fs, hon, -⟩ := id h
    exact acc_get_bind (acc_pos (hon.peek_true hk) (acc_pure ⟨n, by simpa using h⟩))
  | cons a new ih =>
    rintro asg _ f n s ⟨x, r, rfl, ha, hrest⟩ hnd hfr hf h
    obtain ⟨f, rfl⟩ : ∃ j, f = j + 1 := ⟨f - 1, by simp at hf; omega⟩
    unfold assignLoop
    rw [List.append_assoc] at h
    refine acc_get_bind (acc_neg ?_ ?_)
    · obtain ⟨fs, hon, -⟩ := id h
      obtain ⟨x1, y, r', c, rfl, hx1, -⟩ := id ha
      rw [hon.peek_false (w := x1 :: y :: r' ++ (r ++ k :: w)) (notAhead_cons hx1 (by decide))]
      simp
    refine acc_bind _ (assignment_on hw (w := r ++ k :: w) (by rw [head_follow]; exact ha) ?_ (hfr a (by simp)) h) ?_
    · intro hm
      simp only [List.map_append, List.map_cons, List.nodup_append] at hnd
      exact hnd.2.2 _ hm _ (by simp) rfl
    intro _ s1 h1
    refine (ih (asg ++ [a]) r f (n + 1) s1 hrest (by simpa using hnd) (fun b hb => hfr b (by simp [hb]))
      (by simp only [List.length_cons] at hf; omega) h1).mono ?_
    rintro _ s2 ⟨n', h2⟩
    exact ⟨n', by simpa using h2⟩

/-- The final value of a component that is not assigned -/
def Filled (W : World) (t : Nat) (c : Comp) (nd : VNode) : Prop :=
  FrozenIn W.decls W.infos t c.name nd ∨
    ((∀ m, ¬ FrozenIn W.decls W.infos t c.name m) ∧ c.optional = true ∧ nd.val = .inull)

/-- All components but those of `todo` have their final value. -/
def Finishing (K : PS) (W : World) (pre : List Obj) (proto : Obj) (asg : List (String × PVal)) (todo : List Comp)
    (n : Nat) (w : List Token) (s : PS) : Prop :=
  ∃ fs, On { K with objs := pre ++ [{ proto with fields := fs }] } W n w s ∧
    ∀ c, HasComp W.decls proto.typ c → ∃ nd, fs.lookup c.name = some nd ∧
      (((c.name, nd.val) ∈ asg ∧ nd.val.isNull = false) ∨
       (c.name ∉ asg.map Prod.fst ∧ ((nd.val = .inull ∧ c ∈ todo) ∨ Filled W proto.typ c nd)))

theorem completeLoop_on {pre : List Obj} {proto : Obj} {asg : List (String × PVal)} (hw : WorldOk W.decls W.infos)
    (hreq : ∀ c, HasComp W.decls proto.typ c → c.name ∉ asg.map Prod.fst →
      (∃ m, FrozenIn W.decls W.infos proto.typ c.name m) ∨ c.optional = true) :
    ∀ (todo : List Comp) (s : PS), (∀ c ∈ todo, HasComp W.decls proto.typ c) →
    Finishing K W pre proto asg todo n w s →
    Acc (completeLoop pre.length proto.typ todo) s (fun _ s' => Finishing K W pre proto asg [] n w s') := by
  intro todo
  induction todo with
  | nil => intro s _ h; exact acc_pure h
  | cons c todo ih =>
    intro s hcs h
    obtain ⟨fs, hon, hfs⟩ := h
    have hc := hcs c (by simp)
    have hcs' : ∀ d ∈ todo, HasComp W.decls proto.typ d := fun d hd => hcs d (by simp [hd])
    obtain ⟨nd, hl, hnd⟩ := hfs c hc
    have hwf : WFDecls s.decls := by rw [hon.decls]; exact hw.wf
    unfold completeLoop
    refine acc_get_bind ?_
    rw [field_last hon hl]
    simp only
    have skip : (((c.name, nd.val) ∈ asg ∧ nd.val.isNull = false) ∨
        (c.name ∉ asg.map Prod.fst ∧ Filled W proto.typ c nd)) →
        Acc (completeLoop pre.length proto.typ todo) s (fun _ s' => Finishing K W pre proto asg [] n w s') := by
      intro hfin
      refine ih s hcs' ⟨fs, hon, fun d hd => ?_⟩
      obtain ⟨nd', k1, k2⟩ := hfs d hd
      refine ⟨nd', k1, ?_⟩
      rcases k2 with k2 | ⟨k2, ⟨k3, k4⟩ | k3⟩
      · exact .inl k2
      · rcases List.mem_cons.1 k4 with rfl | k5
        · rw [hl] at k1
          cases k1
          rcases hfin with h1 | ⟨h1, h2⟩
          · exact .inl h1
          · exact .inr ⟨h1, .inr h2⟩
        · exact .inr ⟨k2, .inl ⟨k3, k5⟩⟩
      · exact .inr ⟨k2, .inr k3⟩
    by_cases hz : nd.val.isNull = true
    · have hz' : nd.val = .inull := by
        cases hv : nd.val <;> rw [hv] at hz <;> simp [PVal.isNull] at hz
      have hna : c.name ∉ asg.map Prod.fst := by
        rcases hnd with ⟨-, h1⟩ | ⟨h1, -⟩
        · rw [hz] at h1; cases h1
        · exact h1
      refine acc_pos hz ?_
      by_cases hf : s.isFrozen proto.typ c.name = true
      · refine acc_pos hf ?_
        obtain ⟨f, hfr⟩ := Option.isSome_iff_exists.1 (freezing_isSome hwf hf)
        rw [hfr]
        simp only
        have hfi := freezing_some hwf hfr
        rw [hon.decls, hon.infos] at hfi
        refine acc_bind (fun _ s' => s' = s.setField pre.length c.name f) ⟨(), _, ?_, rfl⟩ ?_
        · unfold P.assign
          rw [field_last hon hl]
          simp only [hz, if_true]
        rintro _ _ rfl
        refine ih _ hcs' ⟨_, setField_on hon, fun d hd => ?_⟩
        rw [lookup_setKey, hl]
        by_cases hdc : d.name = c.name
        · refine ⟨f, by simp [hdc], .inr ⟨by rw [hdc]; exact hna, .inr (.inl (by rw [hdc]; exact hfi))⟩⟩
        · obtain ⟨nd', k1, k2⟩ := hfs d hd
          refine ⟨nd', by simp [hdc, k1], ?_⟩
          rcases k2 with k2 | ⟨k2, ⟨k3, k4⟩ | k3⟩
          · exact .inl k2
          · rcases List.mem_cons.1 k4 with rfl | k5
            · exact absurd rfl hdc
            · exact .inr ⟨k2, .inl ⟨k3, k5⟩⟩
          · exact .inr ⟨k2, .inr k3⟩
      · have hnf : ∀ m, ¬ FrozenIn W.decls W.infos proto.typ c.name m := fun m hm =>
          hf ((isFrozen_iff hwf).2 ⟨m, by rw [hon.decls, hon.infos]; exact hm⟩)
        have hopt : c.optional = true := by
          rcases hreq c hc hna with ⟨m, hm⟩ | h
          · exact absurd hm (hnf m)
          · exact h
        exact acc_neg hf (acc_neg (by simp [hopt]) (skip (.inr ⟨hna, .inr ⟨hnf, hopt, hz'⟩⟩)))
    · refine acc_neg hz (skip ?_)
      rcases hnd with h1 | ⟨h1, ⟨h2, -⟩ | h2⟩
      · exact .inl h1
      · rw [h2] at hz; simp [PVal.isNull] at hz
      · exact .inr ⟨h1, h2⟩

/-- the world with the names `N` -/
def renamed (W : World) (N : Names) : World := { W with tabs := N.tabs, otyps := N.otyps }

theorem renamed_names {N : Names} (h1 : N.decls = W.decls) (h2 : N.seps = W.seps) : (renamed W N).names = N := by
  obtain ⟨a, b, c, d⟩ := N
  simp only at h1 h2
  subst h1 h2
  rfl

theorem newObject_on {N1 : Names} {name : List Char} {t : Nat} (hw : WorldOk W.decls W.infos)
    (hd : Declared W.names N1 E.pkg name t K.objs.length) (h : On K W n w s) :
    Acc (P.newObject E t name) s (fun o s' => o = K.objs.length ∧
      ∃ n', Building K (renamed W N1) K.objs ⟨E.pkg, name, t, K.sects, []⟩ [] n' w s') := by
  obtain ⟨-, -, ho, T, T', hT, hr, hts⟩ := hd
  unfold Acc P.newObject
  simp only
  have hT' : s.tabs[E.pkg]? = some T := by rw [h.tabs]; exact hT
  rw [hT']
  simp only
  have hr' : T.register { name := name, id := s.objs.length, cls := clsObject } = .ok T' := by rw [h.objs]; exact hr
  rw [hr']
  simp only
  refine ⟨_, _, rfl, by rw [h.objs], s.nid + (s.decls.allComponents t).length,
    freshFields s.nid (s.decls.allComponents t), ⟨h.clean, h.words, ?_, h.errs, ?_, h.sects⟩, ?_⟩
  · have e1 : s.tabs.set E.pkg T' = N1.tabs := by rw [hts, h.tabs]; rfl
    have e2 : s.objs.map (·.typ) ++ [t] = N1.otyps := by
      rw [ho]
      have := congrArg World.otyps h.world
      simp only [worldOf] at this
      rw [this]; rfl
    unfold worldOf
    simp only [List.map_append, List.map_cons, List.map_nil, e1, e2]
    unfold renamed
    have := h.world
    unfold worldOf at this
    simp only [World.mk.injEq] at this ⊢
    simp [this, h.decls, h.infos, h.seps]
  · show s.objs ++ [_] = K.objs ++ [_]
    rw [h.objs, h.sects]
  · intro c hc
    have hmem : c ∈ s.decls.allComponents t := by rw [h.decls]; exact (mem_allComponents hw.wf _ _).2 hc
    obtain ⟨nd, a1, a2, -⟩ := freshFields_lookup _ s.nid c hmem
    exact ⟨nd, a1, .inr ⟨by simp, a2⟩⟩

theorem object_on {N1 : Names} {ob : Obj} {asg : List (String × PVal)} (hw : WorldOk W.decls W.infos)
    (hp : ob.pkg = E.pkg) (hS : ob.sects = K.sects) (hd : Declared W.names N1 E.pkg ob.name ob.typ K.objs.length)
    (ho : WrittenObject E W.names N1 ob.typ ob.name asg ts) (hf : ObjFrom W.decls W.infos asg ob)
    (h : On K W n (ts ++ w) s) :
    Acc (parseObject E) s (fun _ s' => ∃ ob' n', On { K with objs := K.objs ++ [ob'] } (renamed W N1) n' w s' ∧
      AsWritten W.decls W.infos (ob, asg) ob') := by
  obtain ⟨a, e, b, rfl, ha, hec, het, x, br, r, k, rfl, hx, hnm, hb, hk, hr⟩ := ho
  obtain ⟨f1, f2, f3, f4, f5⟩ := hf
  unfold parseObject
  refine acc_bind _ (qualifiedName_on (N := W.names) (sub := fun e => e.cls = clsRecord)
    (w := x :: br :: (r ++ k :: w)) rfl (by simpa using h) ha (by simpa using hec)) ?_
  rintro e s1 ⟨rfl, h1⟩
  unfold parseObjectOf
  refine acc_get_bind (acc_neg ?_ ?_)
  · rw [het]
    unfold PS.info
    rw [h1.infos]
    cases hi : W.infos[ob.typ]? with
    | none => simp
    | some i => simp [f1 i hi]
  refine acc_bind _ (matchK_on h1 hx) ?_
  rintro x s2 ⟨rfl, h2⟩
  rw [← hnm, het]
  refine acc_bind _ (newObject_on hw hd h2) ?_
  rintro _ s3 ⟨rfl, n3, fs3, h3, hfs3⟩
  refine acc_bind _ (matchK_on h3 hb) ?_
  rintro _ s4 ⟨rfl, h4⟩
  refine acc_get_bind ?_
  have hN1 : (renamed W N1).names = N1 := renamed_names hd.1 hd.2.1
  have hl := h4.len
  have hal := assigns_len hr
  simp only [List.length_append, List.length_cons] at hl
  refine acc_bind _ (assignLoop_on (W := renamed W N1) (proto := ⟨E.pkg, ob.name, ob.typ, K.sects, []⟩) hk hw
    asg [] r (s4.toks + 1) n3 s4 (by rw [hN1]; exact hr) (by simpa using f2) f4 (by omega) ⟨fs3, h4, hfs3⟩) ?_
  rintro _ s5 ⟨n5, fs5, h5, hfs5⟩
  refine acc_get_bind ?_
  have hreq : ∀ c, HasComp W.decls ob.typ c → c.name ∉ asg.map Prod.fst →
      (∃ m, FrozenIn W.decls W.infos ob.typ c.name m) ∨ c.optional = true := by
    intro c hc hna
    obtain ⟨nd, -, ⟨v, hv, -⟩ | ⟨-, h⟩ | ⟨-, -, h, -⟩⟩ := f5 c hc
    · exact absurd (List.mem_map_of_mem (f := Prod.fst) hv) hna
    · exact .inl ⟨_, h⟩
    · exact .inr h
  refine acc_bind _ (completeLoop_on (W := renamed W N1) (proto := ⟨E.pkg, ob.name, ob.typ, K.sects, []⟩) hw hreq
    (s5.decls.allComponents ob.typ) s5 ?_ ⟨fs5, h5, fun c hc => ?_⟩) ?_
  · intro c hc
    rw [h5.decls] at hc
    exact (mem_allComponents hw.wf _ _).1 hc
  · obtain ⟨nd, k1, k2⟩ := hfs5 c hc
    refine ⟨nd, k1, ?_⟩
    rcases k2 with k2 | ⟨k2, k3⟩
    · exact .inl (by simpa using k2)
    · exact .inr ⟨by simpa using k2, .inl ⟨k3, by rw [h5.decls]; exact (mem_allComponents hw.wf _ _).2 hc⟩⟩
  rintro _ s6 ⟨fs6, h6, hfs6⟩
  refine acc_bind _ (matchK_on h6 hk) ?_
  rintro _ s7 ⟨rfl, h7⟩
  refine acc_pure ⟨_, _, h7, hp.symm, rfl, rfl, hS.symm, f1, f2, f3, f4, fun c hc => ?_⟩
  obtain ⟨nd, k1, k2⟩ := hfs6 c hc
  refine ⟨nd, k1, ?_⟩
  rcases k2 with ⟨k2, -⟩ | ⟨k2, ⟨-, k3⟩ | k3 | ⟨k3, k4, k5⟩⟩
  · exact .inl ⟨_, k2, rfl⟩
  · cases k3
  · exact .inr (.inl ⟨k2, k3⟩)
  · exact .inr (.inr ⟨k2, k3, k4, k5⟩)

/-! ## Entries -/

/-- the objects of `items` have been added -/
def AddedOn (K : PS) (W : World) (N : Names) (items : List (Obj × List (String × PVal))) (w : List Token) (s : PS) :
    Prop :=
  ∃ obs n', On { K with objs := K.objs ++ obs } (renamed W N) n' w s ∧
    List.Forall₂ (AsWritten W.decls W.infos) items obs

theorem object_first {N N' : Names} {t : Nat} {name : List Char} {asg : List (String × PVal)}
    (h : WrittenObject E N N' t name asg ts) : ∃ x r, ts = x :: r ∧ x.kind = .IDENTIFIER := by
  obtain ⟨a, e, b, rfl, ha, -⟩ := h
  obtain ⟨x, r, rfl, hx⟩ := nameOf_start ha
  exact ⟨x, r ++ b, rfl, hx⟩

theorem entries_names {N N' : Names} {k : Nat} {S : List (List Char)} {items : List (Obj × List (String × PVal))}
    (h : WrittenEntries E N k S items ts N') : N'.decls = N.decls ∧ N'.seps = N.seps := by
  induction h with
  | nil => exact ⟨rfl, rfl⟩
  | obj _ _ hd _ _ ih => exact ⟨ih.1.trans hd.1, ih.2.trans hd.2.1⟩
  | sect _ _ _ _ _ _ ih1 ih2 => exact ⟨ih2.1.trans ih1.1, ih2.2.trans ih1.2⟩

theorem sect_kw {t : Token} (h : SectionTok t) : IsKw "section" t := h

/-- A sequence of entries: as the content of a section, and as the content of a file. -/
theorem entries_on {N N' : Names} {k : Nat} {S : List (List Char)} {items : List (Obj × List (String × PVal))}
    (ht : WrittenEntries E N k S items ts N') : ∀ (K : PS) (W : World) (n : Nat) (s : PS) (w : List Token),
    W.names = N → K.objs.length = k → K.sects = S → WorldOk W.decls W.infos →
    (∀ x ∈ items, ObjFrom W.decls W.infos x.2 x.1) → On K W n (ts ++ w) s →
    (∀ c w' f, w = c :: w' → c.kind = .C_KET → 2 * ts.length + 1 ≤ f →
      Acc (sectionLoop E f) s (fun _ s' => AddedOn K W N' items w s')) ∧
    (∀ f, w = [] → ts.length < f →
      Acc (fileLoop E f true) s (fun b s' => b = true ∧ AddedOn K W N' items w s')) := by
  induction ht with
  | @nil N k S =>
    intro K W n s w hN hk hS hw hf h
    have hr : AddedOn K W N [] w s := by
      refine ⟨[], n, ?_, .nil⟩
      have e : renamed W N = W := by rw [← hN]; rfl
      rw [e, List.append_nil]
      exact ⟨h.clean, h.words, h.world, h.errs, h.objs, h.sects⟩
    refine ⟨?_, ?_⟩
    · rintro c w' f rfl hc hlt
      obtain ⟨f, rfl⟩ : ∃ j, f = j + 1 := ⟨f - 1, by omega⟩
      unfold sectionLoop
      exact acc_get_bind (acc_pos (h.peek_true (w := w') hc) (acc_pure hr))
    · rintro f rfl hlt
      obtain ⟨f, rfl⟩ : ∃ j, f = j + 1 := ⟨f - 1, by omega⟩
      unfold fileLoop
      refine acc_get_bind (acc_neg ?_ (acc_pure ⟨rfl, hr⟩))
      have hn : s.nt = none := h.nt
      simp [PS.peekKw, PS.peek, hn]
  | @obj N N1 N2 k S ob asg items a b hp hob hd ho hrest ih =>
    intro K W n s w hN hk hS hw hf h
    subst hN hk hS
    obtain ⟨x, r, e0, hx⟩ := object_first ho
    have hal : 1 ≤ a.length := by rw [e0]; simp
    rw [List.append_assoc] at h
    have hnt : s.nt = some x := by rw [h.nt, e0]; rfl
    have hkw : s.peekKw "section" = false := peekKw_head_ne hnt (kind_notKw hx (by decide))
    obtain ⟨u, s1, e1, ob', n1, h1, hob'⟩ := object_on hw hp hob hd ho (hf (ob, asg) (by simp)) h
    have hentry : ∀ f, 1 ≤ f → parseEntry E f s = .ok () s1 := by
      intro f hf
      obtain ⟨f, rfl⟩ : ∃ j, f = j + 1 := ⟨f - 1, by omega⟩
      unfold parseEntry
      rw [get_bind_apply, if_neg (by simp [hkw]), bind_ok e1]
      rfl
    have ih' := ih { K with objs := K.objs ++ [ob'] } (renamed W N1) n1 s1 w (renamed_names hd.1 hd.2.1)
      (by simp) rfl hw (fun x hx => hf x (by simp [hx])) h1
    have fin : ∀ s', AddedOn { K with objs := K.objs ++ [ob'] } (renamed W N1) N2 items w s' →
        AddedOn K W N2 ((ob, asg) :: items) w s' := by
      rintro s' ⟨obs, n', g1, g2⟩
      exact ⟨ob' :: obs, n', by simpa [renamed] using g1, .cons hob' g2⟩
    refine ⟨?_, ?_⟩
    · rintro c w' f hwc hc hlt
      obtain ⟨f, rfl⟩ : ∃ j, f = j + 1 := ⟨f - 1, by omega⟩
      rw [List.length_append] at hlt
      unfold sectionLoop
      refine acc_get_bind (acc_neg ?_ ?_)
      · rw [peek_ne (s := s) (k := .C_KET) (by rw [hnt]; rintro _ ⟨⟩; rw [hx]; decide)]; simp
      refine acc_bind (fun _ s' => s' = s1) ⟨(), s1, hentry f (by omega), rfl⟩ ?_
      rintro _ _ rfl
      exact (ih'.1 c w' f hwc hc (by omega)).mono fun _ s' h => fin s' h
    · rintro f rfl hlt
      obtain ⟨f, rfl⟩ : ∃ j, f = j + 1 := ⟨f - 1, by omega⟩
      rw [List.length_append] at hlt
      unfold fileLoop
      refine acc_get_bind (acc_pos ?_ ?_)
      · rw [peek_of hnt hx]; simp
      refine acc_bind (fun b s' => b = true ∧ s' = s1) ⟨true, s1, ?_, rfl, rfl⟩ ?_
      · unfold P.tryCatch
        rw [bind_ok (hentry _ (by omega))]
        rfl
      rintro _ _ ⟨rfl, rfl⟩
      exact (ih'.2 f rfl (by omega)).mono fun _ s' h => ⟨h.1, fin s' h.2⟩
  | @sect N N1 N2 k S items items' q t b r c r' hq ht hb hc hin hrest ih1 ih2 =>
    intro K W n s w hN hk hS hw hf h
    subst hN hk hS
    have h : On K W n (q :: t :: b :: (r ++ c :: (r' ++ w))) s := by simpa using h
    have hnt : s.nt = some q := h.nt
    have hkw : s.peekKw "section" = true := peekKw_of hnt (sect_kw hq)
    -- the entry
    have hentry : ∀ f, 2 * r.length + 3 ≤ f → Acc (parseEntry E f) s (fun _ s' => ∃ obs n',
        On { K with objs := K.objs ++ obs } (renamed W N1) n' (r' ++ w) s' ∧
          List.Forall₂ (AsWritten W.decls W.infos) items obs) := by
      intro f hlt
      obtain ⟨f, rfl⟩ : ∃ j, f = j + 1 := ⟨f - 1, by omega⟩
      unfold parseEntry
      refine acc_get_bind (acc_pos hkw ?_)
      refine acc_bind _ (matchKw_on h (sect_kw hq)) ?_
      rintro _ s1 ⟨rfl, h1⟩
      refine acc_bind _ (matchK_on h1 ht) ?_
      rintro t s2 ⟨rfl, h2⟩
      refine acc_bind (fun _ s' => On { K with sects := K.sects ++ [t.text] } W n (b :: (r ++ c :: (r' ++ w))) s')
        ⟨_, _, rfl, h2.clean, h2.words, h2.world, h2.errs, h2.objs, by show s2.sects ++ _ = _; rw [h2.sects]⟩ ?_
      intro _ s3 h3
      refine acc_bind _ (matchK_on h3 hb) ?_
      rintro _ s4 ⟨rfl, h4⟩
      refine acc_bind _ ((ih1 { K with sects := K.sects ++ [t.text] } W n s4 (c :: (r' ++ w)) rfl rfl rfl hw
        (fun x hx => hf x (List.mem_append_left _ hx)) h4).1 c (r' ++ w) f rfl hc (by omega)) ?_
      rintro _ s5 ⟨obs, n', h5, hobs⟩
      refine acc_bind _ (matchK_on h5 hc) ?_
      rintro _ s6 ⟨rfl, h6⟩
      refine ⟨_, _, rfl, obs, n', ⟨h6.clean, h6.words, h6.world, h6.errs, h6.objs, ?_⟩, hobs⟩
      show s6.sects.dropLast = _
      rw [h6.sects]
      simp
    have hN1 := entries_names hin
    have rest : ∀ obs n' s', List.Forall₂ (AsWritten W.decls W.infos) items obs →
        On { K with objs := K.objs ++ obs } (renamed W N1) n' (r' ++ w) s' →
        (∀ c w' f, w = c :: w' → c.kind = .C_KET → 2 * r'.length + 1 ≤ f →
          Acc (sectionLoop E f) s' (fun _ s' => AddedOn K W N2 (items ++ items') w s')) ∧
        (∀ f, w = [] → r'.length < f →
          Acc (fileLoop E f true) s' (fun b s' => b = true ∧ AddedOn K W N2 (items ++ items') w s')) := by
      intro obs n' s' hobs hon
      have ih' := ih2 { K with objs := K.objs ++ obs } (renamed W N1) n' s' w (renamed_names hN1.1 hN1.2)
        (by rw [List.length_append, hobs.length_eq]) rfl hw (fun x hx => hf x (List.mem_append_right _ hx)) hon
      have fin : ∀ s', AddedOn { K with objs := K.objs ++ obs } (renamed W N1) N2 items' w s' →
          AddedOn K W N2 (items ++ items') w s' := by
        rintro s' ⟨obs', n', g1, g2⟩
        exact ⟨obs ++ obs', n', by simpa [renamed] using g1, forall₂_append hobs g2⟩
      exact ⟨fun c w' f a1 a2 a3 => (ih'.1 c w' f a1 a2 a3).mono fun _ s' h => fin s' h,
        fun f a1 a2 => (ih'.2 f a1 a2).mono fun _ s' h => ⟨h.1, fin s' h.2⟩⟩
    refine ⟨?_, ?_⟩
    · rintro c' w' f hwc hc' hlt
      obtain ⟨f, rfl⟩ : ∃ j, f = j + 1 := ⟨f - 1, by omega⟩
      simp only [List.length_append, List.length_cons, List.length_nil] at hlt
      unfold sectionLoop
      refine acc_get_bind (acc_neg ?_ ?_)
      · rw [peek_ne (s := s) (k := .C_KET) (by rw [hnt]; rintro _ ⟨⟩; rw [(sect_kw hq).1]; decide)]; simp
      refine acc_bind _ (hentry f (by omega)) ?_
      rintro _ s1 ⟨obs, n1, h1, hobs⟩
      exact (rest obs n1 s1 hobs h1).1 c' w' f hwc hc' (by omega)
    · rintro f hwe hlt
      obtain ⟨f, rfl⟩ : ∃ j, f = j + 1 := ⟨f - 1, by omega⟩
      simp only [List.length_append, List.length_cons, List.length_nil] at hlt
      unfold fileLoop
      refine acc_get_bind (acc_pos (by simp [hkw]) ?_)
      have hl := h.len
      simp only [List.length_append, List.length_cons] at hl
      obtain ⟨_, s1, e1, obs, n1, h1, hobs⟩ := hentry (2 * s.toks + 2) (by omega)
      refine acc_bind (fun b s' => b = true ∧ s' = s1) ⟨true, s1, ?_, rfl, rfl⟩ ?_
      · unfold P.tryCatch
        rw [bind_ok e1]
        rfl
      rintro _ _ ⟨rfl, rfl⟩
      exact (rest obs n1 _ hobs h1).2 f hwe (by omega)

theorem trlcFile_on {N' : Names} {items : List (Obj × List (String × PVal))} (hw : WorldOk W.decls W.infos)
    (ht : WrittenEntries E W.names K.objs.length K.sects items ts N')
    (hf : ∀ x ∈ items, ObjFrom W.decls W.infos x.2 x.1) (h : On K W n ts s) :
    Acc (parseTrlcFile E) s (fun b s' => b = true ∧ AddedOn K W N' items [] s') := by
  unfold parseTrlcFile
  refine acc_get_bind ?_
  have hl := h.len
  refine acc_bind _ ((entries_on ht K W n s [] rfl rfl rfl hw hf (by simpa using h)).2 (s.toks + 1) rfl (by omega)) ?_
  rintro _ s1 ⟨rfl, h1⟩
  refine acc_bind (fun _ s' => s' = s1) ⟨(), s1, ?_, rfl⟩ ?_
  · obtain ⟨_, _, h2, -⟩ := id h1
    unfold P.matchEof; rw [h2.nt]; rfl
  rintro _ _ rfl
  exact acc_pure ⟨rfl, h1⟩

/-! ## Runs over files -/

theorem runTrlcFiles_on {N N' : Names} {k : Nat} {fs : List OpenFile} {items : List (Obj × List (String × PVal))}
    (ht : WrittenFiles N k fs items N') : ∀ (K : PS) (W : World) (s : PS), W.names = N → K.objs.length = k →
    WorldOk W.decls W.infos → (∀ x ∈ items, ObjFrom W.decls W.infos x.2 x.1) → (∀ f ∈ fs, CleanFile f) →
    (∃ n, worldOf s = { W with nid := n }) → s.errs = K.errs → s.objs = K.objs →
    Acc (runTrlcFiles fs) s (fun b s' => b = true ∧ s'.errs = K.errs ∧ (∃ n, worldOf s' = { renamed W N' with nid := n }) ∧
      ∃ obs, s'.objs = K.objs ++ obs ∧ List.Forall₂ (AsWritten W.decls W.infos) items obs) := by
  induction ht with
  | nil =>
    rintro K W s rfl rfl hw hf hcl hwo he ho
    unfold runTrlcFiles
    exact acc_pure ⟨rfl, he, hwo, [], by simpa using ho, .nil⟩
  | @cons N N1 N2 k f fs items items' hent hrest ih =>
    rintro K W s rfl rfl hw hf hcl ⟨n, hwo⟩ he ho
    unfold runTrlcFiles
    have hon : On { K with sects := [] } W n (fileWords f) (s.enter f) := by
      refine ⟨hcl f (by simp), rfl, hwo, he, ho, rfl⟩
    obtain ⟨b, s1, e1, rfl, obs, n1, h1, hobs⟩ := trlcFile_on (E := f.env) hw hent
      (fun x hx => hf x (List.mem_append_left _ hx)) hon
    refine acc_bind (fun b s' => b = true ∧ s' = s1) ⟨true, s1, ?_, rfl, rfl⟩ ?_
    · have : runTrlcFile f s = P.tryCatch (parseTrlcFile f.env) (pure false) (s.enter f) := rfl
      rw [this]
      unfold P.tryCatch
      rw [e1]
    rintro _ _ ⟨rfl, rfl⟩
    have hN1 := entries_names hent
    refine acc_bind _ (ih { K with objs := K.objs ++ obs } (renamed W N1) _ (renamed_names hN1.1 hN1.2)
      (by rw [List.length_append, hobs.length_eq]) hw (fun x hx => hf x (List.mem_append_right _ hx))
      (fun f hf => hcl f (by simp [hf])) ⟨n1, h1.world⟩ h1.errs h1.objs) ?_
    rintro _ s2 ⟨rfl, g1, g2, obs', g3, g4⟩
    exact acc_pure ⟨rfl, g1, by simpa [renamed] using g2, obs ++ obs', by simpa using g3, forall₂_append hobs g4⟩

theorem files_names {N N' : Names} {k : Nat} {fs : List OpenFile} {items : List (Obj × List (String × PVal))}
    (h : WrittenFiles N k fs items N') : N'.decls = N.decls ∧ N'.seps = N.seps := by
  induction h with
  | nil => exact ⟨rfl, rfl⟩
  | cons h1 _ ih => exact ⟨ih.1.trans (entries_names h1).1, ih.2.trans (entries_names h1).2⟩

theorem runRslFiles_on {rx : Regex} {g : STab} {W W' : World} {fs : List OpenFile} (ht : RslFilesText rx W fs W') :
    ∀ (s : PS), (∀ f ∈ fs, f.env.global = g) → (∀ f ∈ fs, CleanFile f) → RslInv g s → AllAcc rx s → worldOf s = W →
    Acc (runRslFiles rx fs) s (fun b s' => b = true ∧ s'.errs = s.errs ∧ worldOf s' = W' ∧ s'.objs = s.objs) := by
  induction ht with
  | nil =>
    intro s _ _ _ _ hW
    unfold runRslFiles
    exact acc_pure ⟨rfl, rfl, hW, rfl⟩
  | @cons W W1 W2 f fs hft hrest ih =>
    intro s hg hcl hi ha hW
    have hf : f.env.global = g := hg f (by simp)
    have hi' : RslInv g (s.enter f) := ⟨hi.glob, hi.sound, hi.crecs, hi.ctups, hi.objs, hi.sees, hi.ents,
      hi.keys, hi.entered, hi.once, hi.frozenBefore⟩
    have hon : On { s with sects := [] } W W.nid (fileWords f) (s.enter f) :=
      ⟨hcl f (by simp), rfl, hW, rfl, rfl, rfl⟩
    obtain ⟨b, s1, e1, rfl, h1⟩ := rslFile_on (E := f.env) (rx := rx) hft (by rw [hf]; exact hi') hon
    have e2 : runRslFile rx f s = .ok true s1 := by
      have : runRslFile rx f s = P.tryCatch (parseRslFile f.env rx) (pure false) (s.enter f) := rfl
      rw [this]
      unfold P.tryCatch
      rw [e1]
    have d1 := (runRslFiles_done (rx := rx) g [f] s (by simpa using hf) hi ha).1
    have e3 : (runRslFiles rx [f] s).state = s1 := by
      simp [runRslFiles, bind_apply, e2, pure_apply, PR.state]
    rw [e3] at d1
    unfold runRslFiles
    refine acc_bind (fun b s' => b = true ∧ s' = s1) ⟨true, s1, e2, rfl, rfl⟩ ?_
    rintro _ _ ⟨rfl, rfl⟩
    refine acc_bind _ (ih _ (fun f hf => hg f (by simp [hf])) (fun f hf => hcl f (by simp [hf])) d1.inv d1.acc h1.world) ?_
    rintro _ s2 ⟨rfl, g1, g2, g3⟩
    exact acc_pure ⟨rfl, g1.trans h1.errs, g2, g3.trans h1.objs⟩

end Verif.Lemmas
