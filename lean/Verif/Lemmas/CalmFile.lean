import Verif.Lemmas.CalmExpr
import Verif.Lemmas.RslChecks
import Verif.Lemmas.ParseWritten
/-!
# Which internal exceptions can be raised while a file is parsed
-/
namespace Verif.Lemmas
open Verif.Model Verif.Spec

variable {α β : Type} {Q : Prop} {E : FileEnv}

theorem Inp.of {s s' : PS} (h : Inp Q E s) (h1 : s'.nt = s.nt) (h2 : s'.rest = s.rest)
    (h3 : s'.tabs.length = s.tabs.length) : Inp Q E s' :=
  ⟨by rw [h1]; exact h.nt, by rw [h2]; exact h.rest, by rw [h2]; exact h.quote, by rw [h3]; exact h.tabs, h.markup⟩

/-! ## Objects -/

instance {v : PVal} : Calm Q E (P.newNode v) := ⟨fun _ hs => ⟨hs.of rfl rfl rfl, trivial⟩⟩

instance {o : Nat} {n : String} {v : VNode} : Calm Q E (P.assign o n v) := by
  constructor
  intro s hs
  unfold Cal P.assign
  split
  · next a s' h =>
    split at h
    · cases h
    · split at h
      · cases h; exact ⟨hs.of rfl rfl rfl, trivial⟩
      · cases h
  · next s' h =>
    split at h
    · cases h
    · split at h <;> cases h
  · next c s' h =>
    split at h
    · cases h; exact .inr (.inl rfl)
    · split at h
      · cases h
      · cases h; exact .inr (.inl rfl)

instance {o t : Nat} : Calm Q E (parseAssignment E o t) := by unfold parseAssignment; calmed

instance {o t k : Nat} : Calm Q E (assignLoop E o t k) := by
  induction k with
  | zero => unfold assignLoop; calmed
  | succ k ih => unfold assignLoop; calmed

instance {o t : Nat} {cs : List Comp} : Calm Q E (completeLoop o t cs) := by
  induction cs with
  | nil => unfold completeLoop; calmed
  | cons c cs ih =>
    unfold completeLoop
    refine calm_bind' inferInstance fun s => ?_
    split
    · infer_instance
    · refine calm_ite' ?_ ih
      by_cases hf : s.isFrozen t c.name = true
      · simp only [hf, if_true]
        split
        · next h =>
          unfold PS.isFrozen at hf
          rw [List.any_eq_true] at hf
          unfold PS.freezing at h
          rw [List.findSome?_eq_none_iff] at h
          obtain ⟨a, ha, hf⟩ := hf
          rw [h a ha] at hf
          cases hf
        · calmed
      · simp only [hf, Bool.false_eq_true, if_false]
        infer_instance

instance {t : Nat} {name : List Char} : Calm Q E (P.newObject E t name) := by
  constructor
  intro s hs
  unfold Cal P.newObject
  dsimp only
  cases hT : s.tabs[E.pkg]? with
  | none =>
    have := hs.tabs
    rw [List.getElem?_eq_none_iff] at hT
    omega
  | some T =>
    dsimp only
    cases hr : T.register { name := name, id := s.objs.length, cls := clsObject } with
    | error e => exact hs.of rfl rfl rfl
    | ok T' => exact ⟨hs.of rfl rfl (by simp), trivial⟩

instance {e : Ent} : Calm Q E (parseObjectOf E e) := by unfold parseObjectOf; calmed
instance : Calm Q E (parseObject E) := by unfold parseObject; calmed

theorem parseEntry_calm : ∀ n, Calm Q E (parseEntry E n) ∧ Calm Q E (sectionLoop E n)
  | 0 => ⟨by unfold parseEntry; calmed, by unfold sectionLoop; calmed⟩
  | n + 1 => by
    obtain ⟨h1, h2⟩ := parseEntry_calm n
    refine ⟨?_, by unfold sectionLoop; calmed⟩
    unfold parseEntry
    refine calm_bind' inferInstance fun s => calm_ite' ?_ inferInstance
    refine calm_bind' inferInstance fun _ => calm_bind' inferInstance fun t => ?_
    refine calm_bind' (calm_modify fun s h => h.of rfl rfl rfl) fun _ => ?_
    refine calm_bind' inferInstance fun _ => calm_bind' h2 fun _ => calm_bind' inferInstance fun _ => ?_
    exact calm_modify fun s h => h.of rfl rfl rfl

instance {k : Nat} : Calm Q E (recoverLoop E k) := by
  induction k with
  | zero => unfold recoverLoop; calmed
  | succ k ih => unfold recoverLoop; calmed

instance calm_err : Calm Q E (fun s => .err s : P α) := ⟨fun _ hs => hs⟩

instance : Calm Q E (recoverFile E) := by unfold recoverFile; calmed

instance {k : Nat} {ok : Bool} : Calm Q E (fileLoop E k ok) := by
  induction k generalizing ok with
  | zero => unfold fileLoop; calmed
  | succ k ih =>
    unfold fileLoop
    refine calm_bind' inferInstance fun s => calm_ite' ?_ inferInstance
    refine calm_bind' (calm_tryCatch ?_ inferInstance) fun b => ih
    have := (parseEntry_calm (Q := Q) (E := E) (2 * s.toks + 2)).1
    infer_instance

/-- Parsing a trlc file -/
instance parseTrlcFile_calm : Calm Q E (parseTrlcFile E) := by unfold parseTrlcFile; calmed

/-! ## Types -/

instance : Calm Q E parseDescribedName := by unfold parseDescribedName; calmed

theorem registerType_calm {name : List Char} {id cls : Nat} {upd : PS → PS}
    (h : ∀ s, (upd s).nt = s.nt ∧ (upd s).rest = s.rest) : Calm Q E (P.registerType E name id cls upd) := by
  constructor
  intro s hs
  unfold Cal P.registerType
  cases hT : s.tabs[E.pkg]? with
  | none =>
    have := hs.tabs
    rw [List.getElem?_eq_none_iff] at hT
    omega
  | some T =>
    dsimp only
    cases hr : T.register { name, id, cls } with
    | error e => exact hs.errs _
    | ok T' => exact ⟨hs.of (h s).1 (h s).2 (by simp), trivial⟩

instance {t : Nat} {name : List Char} : Calm Q E (P.addLiteral t name) := by
  constructor
  intro s hs
  unfold Cal P.addLiteral
  cases registerName (((s.decls.enums[t]?).getD []).map String.toList) name with
  | error e => exact hs.errs _
  | ok u => exact ⟨hs.of rfl rfl rfl, trivial⟩

instance {t k : Nat} {b : Bool} : Calm Q E (literalLoop t k b) := by
  induction k generalizing b with
  | zero => unfold literalLoop; calmed
  | succ k ih => unfold literalLoop; calmed

instance : Calm Q E (parseEnumDecl E) := by
  unfold parseEnumDecl
  refine calm_bind' inferInstance fun _ => calm_bind' inferInstance fun name => calm_bind' inferInstance fun s => ?_
  exact calm_bind' (registerType_calm fun s => ⟨rfl, rfl⟩) fun _ => inferInstance

instance : Calm Q E P.fresh := ⟨fun _ hs => ⟨hs.of rfl rfl rfl, trivial⟩⟩

instance {k : Nat} {acc : List Nat} : Calm Q E (unionLoop E k acc) := by
  induction k generalizing acc with
  | zero => unfold unionLoop; calmed
  | succ k ih => unfold unionLoop; calmed

instance {seen ts : List Nat} : Calm Q E (reportDuplicates seen ts) := by
  induction ts generalizing seen with
  | nil => unfold reportDuplicates; calmed
  | cons t ts ih => unfold reportDuplicates; calmed

instance : Calm Q E (parseUnionType E) := by unfold parseUnionType; calmed

theorem cal_sp {x : P α} {s : PS} {R : PS → PS → Prop} {Po : α → PS → Prop} (h : Sp R x s Po) (hc : Cal Q E x s fun _ => True) :
    Cal Q E x s fun a => ∃ s', x s = .ok a s' ∧ R s s' ∧ Po a s' := by
  unfold Cal Sp at *
  cases hx : x s with
  | ok a s' => rw [hx] at h hc; exact ⟨hc.1, s', rfl, h⟩
  | err s' => rw [hx] at h hc; exact hc
  | crash c s' => rw [hx] at h hc; exact hc

instance : Calm Q E (parseFieldType E) := by
  unfold parseFieldType
  refine calm_bind' inferInstance fun s => calm_ite' inferInstance ⟨fun s hs => ?_⟩
  refine cal_bind _ (cal_sp parseQualifiedName_sp ((inferInstance : Calm Q E _).rep s hs)) ?_
  rintro e s1 - h1 ⟨s', -, -, -, he⟩
  cases ht : e.ty? with
  | none => simp [Ent.isType, ht] at he
  | some τ => exact ⟨h1, trivial⟩

theorem natOf_calm {t : Token} (h : NumTok t ∧ t.kind = .INTEGER) : Calm Q E (P.natOf t) := by
  obtain ⟨n, hn⟩ := h.1.1 h.2
  unfold P.natOf
  rw [hn]
  infer_instance

instance : Calm Q E parseUpperBound := by
  constructor
  intro s hs
  unfold parseUpperBound
  refine cal_get ?_
  split
  · refine (calmP_bind _ calmP_matchK fun t ht => ?_) s hs
    have := natOf_calm (Q := Q) (E := E) ht
    exact (inferInstance : Calm Q E _).rep
  · split
    · exact (inferInstance : Calm Q E _).rep s hs
    · split
      · next h => exact cal_attribute (by simpa using h)
      · exact (inferInstance : Calm Q E _).rep s hs

instance {τ : Ty} : Calm Q E (parseArrayType τ) := by
  unfold parseArrayType
  refine calm_bind' inferInstance fun s => calm_ite' ?_ inferInstance
  refine calm_bind' inferInstance fun _ => ⟨calmP_bind _ calmP_matchK fun t ht => ?_⟩
  have := natOf_calm (Q := Q) (E := E) ht
  exact (inferInstance : Calm Q E _).rep

theorem matchK_peek {k : Kind} {s s' : PS} {t : Token} (h : P.matchK k s = .ok t s') : s.peek k = true := by
  unfold P.matchK at h
  unfold PS.peek
  cases hn : s.nt with
  | none => rw [hn] at h; cases h
  | some t =>
    rw [hn] at h
    dsimp only at h
    split at h
    · cases h
    · next hk => simpa using hk

theorem parseDescribedName_peek {s s' : PS} {t : Token} (h : parseDescribedName s = .ok t s') :
    s.peek .IDENTIFIER = true := by
  unfold parseDescribedName at h
  rw [bind_apply] at h
  cases hm : P.matchK .IDENTIFIER s with
  | ok t s1 => exact matchK_peek hm
  | err s1 => rw [hm] at h; cases h
  | crash c s1 => rw [hm] at h; cases h

theorem parseTupleField_cal {t : Nat} {allowed required : Bool} (ha : allowed = false → required = false) {s : PS}
    (hs : Inp Q E s) : Cal Q E (parseTupleField E t allowed required) s
      fun c => s.peek .IDENTIFIER = true ∧ (c.optional = true → allowed = true) := by
  unfold parseTupleField
  have e : (!allowed && required) = false := by cases allowed <;> simp_all
  refine cal_bind (fun _ => True) ?_ ?_
  · rw [e]; exact ⟨hs, trivial⟩
  rintro u s1 h1 hs1 -
  rw [e] at h1
  cases h1
  refine cal_bind (fun _ => True) ((inferInstance : Calm Q E parseDescribedName).rep s hs) ?_
  rintro name s2 hn hs2 -
  have hp := parseDescribedName_peek hn
  refine cal_get ?_
  refine calmP_bind (fun o => o = true → allowed = true) (calmP_cond (fun _ => ?_) fun _ => calmP_pure (by simp))
    (fun o ho => ?_) s2 hs2
  · refine calmP_bind _ (Calm.post inferInstance) fun _ _ => calmP_cond (fun h => calmP_pure fun _ => h) fun _ => calmP_fail
  · exact calmP_bind _ (Calm.post inferInstance) fun τ _ => calmP_pure ⟨hp, ho⟩

instance {cs : List Comp} {c : Comp} : Calm Q E (P.addField cs c) := by
  unfold P.addField
  calmed

theorem addField_length {cs cs' : List Comp} {c : Comp} {s s' : PS} (h : P.addField cs c s = .ok cs' s') :
    cs' = cs ++ [c] := by
  unfold P.addField at h
  cases hr : registerName (compNames cs) c.name.toList with
  | error e => rw [hr] at h; cases h
  | ok u => rw [hr] at h; cases h; rfl

theorem parseSeparator_calm {cs : List Comp} {seps : List Sep} (h : seps.length + 1 = cs.length) :
    Calm Q E (parseSeparator cs seps) := by
  unfold parseSeparator
  refine calm_bind' inferInstance fun s => ?_
  split
  · infer_instance
  · refine calm_ite' (calm_bind' inferInstance fun _ => ?_) inferInstance
    simp only [h, ne_eq, not_true_eq_false, if_false]
    infer_instance

theorem tupleLoop_calm {t : Nat} : ∀ (k : Nat) (has req alw : Bool) (cs : List Comp) (seps : List Sep),
    (has = false → req = false) → (alw = true → seps.length + 1 = cs.length) →
    Calm Q E (tupleLoop E t k has req alw cs seps)
  | 0, _, _, _, _, _, _, _ => by unfold tupleLoop; calmed
  | k + 1, has, req, alw, cs, seps, h1, h2 => by
    unfold tupleLoop
    refine calm_bind' inferInstance fun s0 => calm_ite' (calm_ite' ?_ ⟨fun s hs => ?_⟩) inferInstance
    · refine calm_bind' inferInstance fun _ => ?_
      cases alw with
      | false => exact calm_fail
      | true =>
        constructor
        intro s hs
        refine cal_bind _ (cal_sp parseSeparator_sp ((parseSeparator_calm (h2 rfl)).rep s hs)) ?_
        rintro ss s1 e1 hs1 ⟨s1', e1', -, hss⟩
        rw [e1] at e1'
        cases e1'
        refine cal_bind _ (parseTupleField_cal (by simp) hs1) ?_
        rintro c s2 - hs2 ⟨hp, -⟩
        refine cal_bind _ ((inferInstance : Calm Q E (P.addField cs c)).rep s2 hs2) ?_
        rintro cs' s3 e3 hs3 -
        have := addField_length e3
        subst this
        refine (tupleLoop_calm k true (req || c.optional) true (cs ++ [c]) ss (by simp) ?_).rep s3 hs3
        intro _
        rcases hss with ⟨-, rfl, hp'⟩ | ⟨⟨x, rfl⟩, hl⟩
        · rw [hp] at hp'; cases hp'
        · simp [hl]
    · refine cal_bind _ (parseTupleField_cal h1 hs) ?_
      rintro c s2 - hs2 ⟨-, ho⟩
      refine cal_bind _ ((inferInstance : Calm Q E (P.addField cs c)).rep s2 hs2) ?_
      rintro cs' s3 e3 hs3 -
      refine (tupleLoop_calm k has (req || c.optional) false cs' seps ?_ (by simp)).rep s3 hs3
      intro hf
      rw [h1 hf, Bool.false_or]
      cases hc : c.optional with
      | false => rfl
      | true => rw [ho hc] at hf; cases hf

instance : Calm Q E (parseTupleDecl E) := by
  unfold parseTupleDecl
  refine calm_bind' inferInstance fun _ => calm_bind' inferInstance fun name => calm_bind' inferInstance fun _ => ?_
  refine calm_bind' inferInstance fun s0 => ⟨fun s hs => ?_⟩
  refine cal_bind _ (parseTupleField_cal (by simp) hs) ?_
  rintro c s1 - hs1 -
  refine cal_bind _ ((inferInstance : Calm Q E (P.addField [] c)).rep s1 hs1) ?_
  rintro cs s2 e2 hs2 -
  have := addField_length e2
  subst this
  refine cal_get ?_
  refine cal_bind _ ((tupleLoop_calm _ false false true _ [] (by simp) (by simp)).rep s2 hs2) ?_
  rintro ⟨has, cs, seps⟩ s3 - hs3 -
  have : ∀ {α : Type} {x : P α} {s : PS}, Calm Q E x → Inp Q E s → Cal Q E x s fun _ => True :=
    fun h hs => h.rep _ hs
  refine this ?_ hs3
  dsimp only
  refine calm_bind' inferInstance fun _ => calm_bind' inferInstance fun _ => calm_bind' inferInstance fun _ => ?_
  exact registerType_calm fun s => ⟨rfl, rfl⟩

instance {t : Nat} : Calm Q E (parseComponent E t) := by unfold parseComponent; calmed

instance {t : Nat} {c : Comp} : Calm Q E (P.addComponent t c) := by
  constructor
  intro s hs
  unfold Cal P.addComponent
  cases registerName (compNames (s.decls.allComponents t)) c.name.toList with
  | error e => exact hs.errs _
  | ok u => exact ⟨hs.of rfl rfl rfl, trivial⟩

instance {t : Nat} {n : String} {v : VNode} : Calm Q E (P.setFrozen t n v) :=
  ⟨fun _ hs => ⟨hs.of rfl rfl rfl, trivial⟩⟩

theorem component_of_lookup {D : Decls} {t : Nat} {n : List Char}
    (h : lookupName (compNames (D.allComponents t)) n = .ok ()) : D.component t (String.ofList n) ≠ none := by
  have := lookupName_ok h
  obtain ⟨c, hc, rfl⟩ := List.mem_map.1 this
  unfold Decls.component
  rw [ne_eq, List.findSome?_eq_none_iff]
  intro hn
  unfold Decls.allComponents at hc
  obtain ⟨a, ha, hc⟩ := List.mem_flatMap.1 hc
  have := List.find?_eq_none.1 (hn a (List.mem_reverse.1 ha)) c hc
  simp at this

instance {t : Nat} : Calm Q E (parseFreeze E t) := by
  unfold parseFreeze
  refine calm_bind' inferInstance fun _ => calm_bind' inferInstance fun tok => calm_bind' inferInstance fun s => ?_
  refine ⟨calmP_bind _ calmP_liftSym fun u hu => ?_⟩
  split
  · next h => exact absurd h (component_of_lookup hu)
  · exact (inferInstance : Calm Q E _).rep

instance {t k : Nat} : Calm Q E (recordLoop E t k) := by
  induction k with
  | zero => unfold recordLoop; calmed
  | succ k ih => unfold recordLoop; calmed

instance : Calm Q E (parseRecordDecl E) := by
  unfold parseRecordDecl
  refine calm_bind' inferInstance fun s => calm_bind' inferInstance fun b => ?_
  split
  refine calm_bind' inferInstance fun _ => calm_bind' inferInstance fun name => calm_bind' inferInstance fun _ => ?_
  refine calm_bind' inferInstance fun par => calm_bind' inferInstance fun s => ?_
  refine calm_bind' (registerType_calm fun s => ⟨rfl, rfl⟩) fun _ => calm_bind' inferInstance fun _ => ?_
  refine calm_bind' inferInstance fun _ => calm_bind' inferInstance fun _ => calm_bind' inferInstance fun _ => ?_
  exact calm_cond' (calm_modify fun s h => h.of rfl rfl rfl) inferInstance

instance : Calm Q E (parseTypeDecl E) := by unfold parseTypeDecl; calmed

/-! ## Checks -/

instance : Calm Q E parseSeverity := by unfold parseSeverity; calmed
instance : Calm Q E parseMessage := by unfold parseMessage; calmed
instance {ct : CompositeTy} : Calm Q E (parseAnchor ct) := by unfold parseAnchor; calmed

instance {ct : CompositeTy} : Calm Q E (parseExtras ct) := by
  unfold parseExtras
  refine calm_bind' inferInstance fun s => calm_ite' (calm_bind' inferInstance fun _ => ⟨fun s hs => ?_⟩) inferInstance
  refine cal_get ?_
  split
  · exact (inferInstance : Calm Q E _).rep s hs
  · split
    · exact (inferInstance : Calm Q E _).rep s hs
    · split
      · next h => exact cal_attribute (by simpa using h)
      · exact (inferInstance : Calm Q E _).rep s hs

instance {ct : CompositeTy} {c : Check} : Calm Q E (P.addCheck ct c) :=
  calm_modify fun s h => by cases ct <;> exact h.of rfl rfl rfl

variable {rx : Regex}

theorem parseCheck_cal {ct : CompositeTy} {s : PS} (hs : Inp Q E s) (hi : RslInv E.global s) :
    Cal Q E (parseCheck E rx ct) s fun _ => True := by
  unfold parseCheck
  refine cal_get ?_
  refine calmP_bind _ (parseExpr_calm (X := ⟨s.decls, rx.search, rx.valid⟩) hi.sound.world.wf (s.toks + 1)
    ⟨s.scope E, s.decls.compIn ct, []⟩ (by simp [PS.scope])) (fun e _ => ?_) s hs
  exact (inferInstance : Calm Q E _).rep

theorem checkLoop_cal {ct : CompositeTy} : ∀ (k : Nat) (s : PS), Inp Q E s → RslInv E.global s → CtIn s.decls ct →
    Cal Q E (checkLoop E rx ct k) s fun _ => True
  | 0, s, hs, _, _ => by unfold checkLoop; exact .inl rfl
  | k + 1, s, hs, hi, hct => by
    unfold checkLoop
    refine cal_get ?_
    split
    · exact ⟨hs, trivial⟩
    · refine cal_bind _ (cal_sp (parseCheck_sp hi hct) (parseCheck_cal hs hi)) ?_
      rintro _ s1 e1 hs1 ⟨s', e2, hr, -⟩
      rw [e1] at e2
      cases e2
      exact checkLoop_cal k s1 hs1 (hr.inv hi) (by rw [hr.decls]; exact hct)

theorem parseCheckBlock_cal {s : PS} (hs : Inp Q E s) (hi : RslInv E.global s) :
    Cal Q E (parseCheckBlock E rx) s fun _ => True := by
  unfold parseCheckBlock
  refine cal_bind _ (cal_sp matchKw_sp ((inferInstance : Calm Q E _).rep s hs)) ?_
  rintro _ s1 e1 hs1 ⟨s', e2, h1, -⟩
  rw [e1] at e2
  cases e2
  refine cal_bind _ (cal_sp matchK_sp ((inferInstance : Calm Q E _).rep s1 hs1)) ?_
  rintro t s2 e1 hs2 ⟨s', e2, h2, -⟩
  rw [e1] at e2
  cases e2
  have hi2 := hi.ft (h1.trans h2).ft
  refine cal_get ?_
  refine cal_bind _ (cal_sp liftSym_sp ((inferInstance : Calm Q E _).rep s2 hs2)) ?_
  rintro e s3 e1 hs3 ⟨s', e2, h3, he, h4⟩
  rw [e1, h4] at e2
  cases e2
  split
  · next hc =>
    have := (lookup_sub he).2
    simp [hc] at this
  · next ct hct =>
    have hct := composite_in hct (hi2.tab_ent he)
    refine cal_bind _ (cal_sp matchK_sp ((inferInstance : Calm Q E _).rep s2 hs2)) ?_
    rintro t s4 e1 hs4 ⟨s', e2, h4, -⟩
    rw [e1] at e2
    cases e2
    refine cal_get ?_
    refine cal_bind _ (checkLoop_cal _ s4 hs4 (hi2.ft h4.ft) (by rw [h4.decls]; exact hct)) ?_
    rintro _ s5 - hs5 -
    exact (inferInstance : Calm Q E _).rep s5 hs5

theorem parseRslItem_cal {s : PS} (hs : Inp Q E s) (hi : RslInv E.global s) :
    Cal Q E (parseRslItem E rx) s fun _ => True := by
  unfold parseRslItem
  refine cal_get ?_
  split
  · exact parseCheckBlock_cal hs hi
  · exact (inferInstance : Calm Q E _).rep s hs

instance {k : Nat} : Calm Q E (recoverRslLoop k) := by
  induction k with
  | zero => unfold recoverRslLoop; calmed
  | succ k ih => unfold recoverRslLoop; calmed

instance : Calm Q E (recoverRsl E) := by unfold recoverRsl; calmed

theorem rslLoop_cal : ∀ (k : Nat) (ok : Bool) (s : PS), Inp Q E s → RslInv E.global s →
    Cal Q E (rslLoop E rx k ok) s fun _ => True
  | 0, _, _, _, _ => by unfold rslLoop; exact .inl rfl
  | k + 1, ok, s, hs, hi => by
    unfold rslLoop
    refine cal_get ?_
    split
    · exact ⟨hs, trivial⟩
    · have h1 : Cal Q E (do parseRslItem E rx; pure true) s fun _ => True :=
        cal_bind _ (parseRslItem_cal hs hi) fun _ s1 _ h _ => ⟨h, trivial⟩
      have h2 : Sp (Rf E.global rx) (do parseRslItem E rx; pure true) s (fun _ _ => True) :=
        sp_bind _ (parseRslItem_sp hi) fun _ _ _ h => sp_pure trivial
      have h3 : Sp (Rf E.global rx) (P.tryCatch (do parseRslItem E rx; pure true) (recoverRsl E)) s (fun _ _ => True) :=
        sp_tryCatch _ h2 (fun _ _ _ _ h => h) fun s1 _ _ =>
          (recoverRsl_sp (E := E) (s := s1)).rf.mono fun _ _ _ _ => trivial
      have h4 : Cal Q E (P.tryCatch (do parseRslItem E rx; pure true) (recoverRsl E)) s (fun _ => True) := by
        unfold Cal at h1 ⊢
        unfold P.tryCatch
        generalize hx : (do parseRslItem E rx; pure true) = x at h1 ⊢
        cases e : x s with
        | ok a s' => rw [e] at h1; exact h1
        | err s' => rw [e] at h1; exact (inferInstance : Calm Q E (recoverRsl E)).rep s' h1
        | crash c s' => rw [e] at h1; exact h1
      refine cal_bind _ (cal_sp h3 h4) ?_
      rintro b s1 e1 hs1 ⟨s', e2, hr, -⟩
      rw [e1] at e2
      cases e2
      exact rslLoop_cal k _ s1 hs1 (hr.keep hi)

/-- Parsing an rsl file -/
theorem parseRslFile_cal {s : PS} (hs : Inp Q E s) (hi : RslInv E.global s) :
    Cal Q E (parseRslFile E rx) s fun _ => True := by
  unfold parseRslFile
  refine cal_get ?_
  refine cal_bind _ (rslLoop_cal _ true s hs hi) ?_
  rintro b s1 - hs1 -
  exact (inferInstance : Calm Q E _).rep s1 hs1

end Verif.Lemmas
