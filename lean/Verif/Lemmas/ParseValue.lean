import Verif.Lemmas.ParseRules
import Verif.Spec.Parsed
namespace Verif.Lemmas
open Verif.Model Verif.Spec

variable {R : PS → PS → Prop}

theorem parseQualifiedName_sp {E : FileEnv} {sub : Ent → Bool} {s : PS} :
    Sp Fr (parseQualifiedName E sub) s (fun e s' => s'.toks < s.toks ∧ sub e = true) := by
  unfold parseQualifiedName
  refine sp_bind _ matchK_sp ?_
  rintro t s1 h1 ⟨-, -, -, hlt⟩
  refine sp_bind _ scopeLookup_sp ?_
  rintro sym s2 h2 ⟨-, rfl⟩
  refine sp_ite (fun hc => ?_) (fun hc => ?_)
  · refine sp_ite (fun _ => sp_invisible) (fun _ => ?_)
    refine sp_bind _ matchK_sp ?_
    rintro t3 s3 h3 ⟨-, -, -, hlt3⟩
    refine sp_bind _ matchK_sp ?_
    rintro t4 s4 h4 ⟨-, -, -, hlt4⟩
    refine sp_get_bind ?_
    refine liftSym_sp.mono ?_
    rintro e s5 - ⟨he, rfl⟩
    refine ⟨by omega, ?_⟩
    unfold STab.lookup STab.lookupDirect at he
    split at he
    · split at he
      · cases he
      · split at he
        · cases he
        · next hs =>
          cases he
          simpa using hs
    · cases he
  · refine scopeLookup_sp.mono ?_
    rintro e s3 - ⟨he, rfl⟩
    refine ⟨hlt, ?_⟩
    have key : ∀ (T : STab) (n : List Char), T.lookup n (some sub) = .ok e → sub e = true := by
      intro T n he
      unfold STab.lookup STab.lookupDirect at he
      split at he
      · split at he
        · cases he
        · split at he
          · cases he
          · next hs =>
            cases he
            simpa using hs
      · cases he
    unfold Scope.lookup PS.scope at he
    simp only at he
    split at he
    · injection he with he; exact key _ _ he
    · injection he with he; exact key _ _ he

theorem parseBoolean_sp {D : Decls} {s : PS} :
    Sp Fr parseBoolean s (fun v s' => s'.toks < s.toks ∧ VOk D v .bool ∧ BoundsOk false v) := by
  unfold parseBoolean
  refine sp_bind _ matchK_sp ?_
  rintro t s1 h1 ⟨-, -, -, hlt⟩
  refine sp_ite (fun _ => sp_pure ⟨hlt, by simp [VOk], by simp [BoundsOk]⟩) (fun _ => ?_)
  exact sp_ite (fun _ => sp_pure ⟨hlt, by simp [VOk], by simp [BoundsOk]⟩) (fun _ => sp_fail)

theorem parseNumber_sp {D : Decls} {isDec : Bool} {s : PS} :
    Sp Fr (parseNumber isDec) s
      (fun v s' => s'.toks < s.toks ∧ VOk D v (if isDec then .dec else .int) ∧ BoundsOk false v) := by
  unfold parseNumber
  refine sp_get_bind ?_
  refine sp_bind (fun _ s1 => s1.toks ≤ s.toks) ?_ ?_
  · refine sp_cond (fun _ => ?_) (fun _ => sp_pure (Nat.le_refl _))
    refine sp_bind _ matchK_sp ?_
    rintro t s1 h1 ⟨-, -, -, hlt⟩
    exact sp_pure (Nat.le_of_lt hlt)
  · rintro sign s1 h1 hle
    refine sp_bind (fun lit s2 => s2.toks < s1.toks ∧
      ((isDec = true ∧ ∃ q, lit = .dec q) ∨ (isDec = false ∧ ∃ i, lit = .int i))) ?_ ?_
    · refine sp_cond (fun hd => ?_) (fun hd => ?_)
      · refine sp_bind _ matchK_sp ?_
        rintro t s2 h2 ⟨-, -, -, hlt⟩
        cases hv : t.value with
        | frac q => exact sp_pure ⟨hlt, .inl ⟨hd, q, rfl⟩⟩
        | _ => exact sp_crash (by simp)
      · refine sp_bind _ matchK_sp ?_
        rintro t s2 h2 ⟨-, -, -, hlt⟩
        cases hv : t.value with
        | int q => exact sp_pure ⟨hlt, .inr ⟨hd, q, rfl⟩⟩
        | _ => exact sp_crash (by simp)
    · rintro lit s2 h2 ⟨hlt, hl⟩
      cases sign with
      | none =>
        refine sp_pure ⟨by omega, ?_⟩
        rcases hl with ⟨rfl, q, rfl⟩ | ⟨rfl, i, rfl⟩ <;> simp [VOk, BoundsOk]
      | some op =>
        refine sp_pure ⟨by omega, ?_⟩
        by_cases ho : op = ['+'] <;> simp only [ho, if_true, if_false] <;>
          rcases hl with ⟨rfl, q, rfl⟩ | ⟨rfl, i, rfl⟩ <;> simp [VOk, BoundsOk]

theorem parseReference_sp {E : FileEnv} {D : Decls} {τ : Ty} (hτ : RefTy τ) {s : PS} :
    Sp Fr (parseReference E τ) s (fun v s' => s'.toks < s.toks ∧ VOk D v τ ∧ BoundsOk false v) := by
  unfold parseReference
  refine sp_bind _ matchK_sp ?_
  rintro t s1 h1 ⟨-, -, -, hlt⟩
  refine sp_get_bind ?_
  refine sp_bind (fun _ s2 => s2.toks ≤ s1.toks) ?_ ?_
  · refine sp_cond (fun _ => ?_) (fun _ => sp_pure (Nat.le_refl _))
    refine sp_bind _ matchK_sp ?_
    rintro _ s2 h2 ⟨-, -, -, hlt2⟩
    refine sp_bind _ matchK_sp ?_
    rintro _ s3 h3 ⟨-, -, -, hlt3⟩
    refine sp_bind _ liftSym_sp ?_
    rintro e s4 - ⟨-, rfl⟩
    exact sp_ite (fun _ => sp_invisible) (fun _ => sp_pure (by omega))
  · rintro ⟨p, name⟩ s2 h2 hle
    refine sp_get_bind ?_
    refine sp_ite (fun _ => ?_) (fun _ => sp_pure ⟨by omega, ⟨rfl, hτ⟩, by simp [BoundsOk]⟩)
    cases s2.resolveRef τ p name with
    | ok _ => exact sp_pure ⟨by omega, ⟨rfl, hτ⟩, by simp [BoundsOk]⟩
    | error e => exact sp_fail

theorem parseEnum_sp {E : FileEnv} {t : Nat} {s : PS} :
    Sp Fr (parseEnum E t) s
      (fun v s' => s'.toks < s.toks ∧ VOk s.decls v (.enum t) ∧ BoundsOk false v) := by
  unfold parseEnum
  refine sp_bind _ parseQualifiedName_sp ?_
  rintro e s1 h1 ⟨hlt, -⟩
  refine sp_ite (fun _ => sp_fail) (fun _ => ?_)
  refine sp_bind _ matchK_sp ?_
  rintro _ s2 h2 ⟨-, -, -, hlt2⟩
  refine sp_bind _ matchK_sp ?_
  rintro tok s3 h3 ⟨-, -, -, hlt3⟩
  refine sp_get_bind ?_
  refine sp_ite (fun hc => sp_pure ⟨by omega, ?_, by simp [BoundsOk]⟩) (fun _ => sp_fail)
  have hd : s3.decls = s.decls := by rw [h3.decls, h2.decls, h1.decls]
  rw [hd] at hc
  refine ⟨rfl, ?_⟩
  cases hl : s.decls.enums[t]? with
  | none => rw [hl] at hc; simp at hc
  | some ls => exact ⟨ls, rfl, by rw [hl] at hc; simpa using hc⟩

theorem parseMarkup_sp {E : FileEnv} {D : Decls} {s : PS} :
    Sp Fr (parseMarkup E) s
      (fun v s' => s'.toks < s.toks ∧ VOk D v .markup ∧ BoundsOk false v) := by
  unfold parseMarkup
  refine sp_bind _ matchK_sp ?_
  rintro t s1 h1 ⟨-, -, -, hlt⟩
  cases E.markup t with
  | ok refs => exact sp_pure ⟨hlt, by simp [VOk], by simp [BoundsOk]⟩
  | error => exact sp_fail
  | crash => exact sp_crash (by simp)

/-! ## Arrays -/

theorem allVOk_append {D : Decls} {es fs : List PVal} {τ : Ty} (h : AllVOk D es τ)
    (h' : AllVOk D fs τ) : AllVOk D (es ++ fs) τ := by
  induction es with
  | nil => exact h'
  | cons e es ih => exact ⟨h.1, ih h.2⟩

theorem allBoundsOk_append {x : Bool} {es fs : List PVal} (h : AllBoundsOk x es)
    (h' : AllBoundsOk x fs) : AllBoundsOk x (es ++ fs) := by
  induction es with
  | nil => exact h'
  | cons e es ih => exact ⟨h.1, ih h.2⟩

/-- What is proved about the parser of a type: it consumes something, and gives a value of the
type; if it reports no error, the arrays in it have the right size. -/
def Parses (D : Decls) (pv : P PVal) (τ : Ty) (s0 : PS) : Prop :=
  ∀ s, Fr s0 s → Sp Fr pv s (fun v s' => s'.toks < s.toks ∧ VOk D v τ ∧
    (s'.errs = s.errs → BoundsOk false v))

theorem arrayLoop_sp {D : Decls} {pv : P PVal} {τ : Ty} {s0 : PS} (hpv : Parses D pv τ s0) :
    ∀ (k : Nat) (acc : List PVal) (s : PS), Fr s0 s → s.toks < k → AllVOk D acc τ →
      Sp Fr (arrayLoop pv k acc) s (fun es s' => AllVOk D es τ ∧
        (s'.errs = s.errs → AllBoundsOk false acc → AllBoundsOk false es)) := by
  intro k
  induction k with
  | zero => intro acc s _ h; omega
  | succ k ih =>
    intro acc s hs hk hacc
    unfold arrayLoop
    refine sp_get_bind ?_
    refine sp_ite (fun _ => sp_pure ⟨hacc, fun _ h => h⟩) (fun _ => ?_)
    refine sp_bind _ (hpv s hs) ?_
    rintro v s1 h1 ⟨hlt, hv, hb⟩
    have hacc' : AllVOk D (acc ++ [v]) τ := allVOk_append hacc ⟨hv, trivial⟩
    refine sp_get_bind ?_
    refine sp_ite (fun _ => ?_) (fun _ => ?_)
    · refine sp_bind _ matchK_sp ?_
      rintro _ s2 h2 ⟨-, -, -, hlt2⟩
      refine (ih _ s2 (hs.trans (h1.trans h2)) (by omega) hacc').mono ?_
      rintro es s3 h3 ⟨he, hbb⟩
      refine ⟨he, fun herr ha => ?_⟩
      have e1 := errs_mid h1 (h2.trans h3) herr
      have e2 := errs_mid h2 h3 e1.2
      exact hbb e2.2 (allBoundsOk_append ha ⟨hb e1.1, trivial⟩)
    · refine sp_ite (fun _ => sp_pure ⟨hacc', fun herr ha =>
        allBoundsOk_append ha ⟨hb herr, trivial⟩⟩) (fun _ => ?_)
      refine sp_bind (fun _ s2 => s2 = { s1 with errs := s1.errs ++ [.commaMissing] })
        (sp_report rfl) ?_
      rintro _ s2 h2 rfl
      refine (ih _ _ (hs.trans (h1.trans h2)) (by simp only [PS.toks] at *; omega) hacc').mono ?_
      rintro es s3 h3 ⟨he, hbb⟩
      refine ⟨he, fun herr ha => ?_⟩
      have e1 := errs_mid h1 (h2.trans h3) herr
      have e2 := errs_mid h2 h3 e1.2
      exact absurd e2.1 (by simp)

theorem parseArray_sp {D : Decls} {pv : P PVal} {id : Nat} {elem : Ty} {lo : Nat} {hi : Option Nat}
    {s0 s : PS} (hpv : Parses D pv elem s0) (hs : Fr s0 s) :
    Sp Fr (parseArray pv (.arr id elem lo hi) lo hi) s
      (fun v s' => s'.toks < s.toks ∧ VOk D v (.arr id elem lo hi) ∧
        (s'.errs = s.errs → BoundsOk false v)) := by
  unfold parseArray
  refine sp_bind _ matchK_sp ?_
  rintro _ s1 h1 ⟨-, -, -, hlt1⟩
  refine sp_get_bind ?_
  refine sp_bind _ (arrayLoop_sp hpv (s1.toks + 1) [] s1 (hs.trans h1) (by omega) trivial) ?_
  rintro es s2 h2 ⟨hes, hb⟩
  refine sp_bind _ matchK_sp ?_
  rintro _ s3 h3 ⟨-, -, -, hlt3⟩
  refine sp_bind (fun _ s4 => s4.toks = s3.toks ∧ (s4.errs = s3.errs → lo ≤ es.length)) ?_ ?_
  · refine sp_cond (fun _ => sp_report ⟨rfl, fun e => absurd e (by simp)⟩) (fun h => ?_)
    exact sp_pure ⟨rfl, fun _ => by simp only [decide_eq_false_iff_not] at h; omega⟩
  · rintro _ s4 h4 ⟨ht4, hlo⟩
    refine sp_bind (fun _ s5 => s5.toks = s4.toks ∧ (s5.errs = s4.errs →
        ∀ h, hi = some h → h = 0 ∨ es.length ≤ h)) ?_ ?_
    · refine sp_cond (fun _ => sp_report ⟨rfl, fun e => absurd e (by simp)⟩) (fun h => ?_)
      refine sp_pure ⟨rfl, fun _ x hx => ?_⟩
      subst hx
      simp only [Option.any_some, decide_eq_false_iff_not] at h
      omega
    · rintro _ s5 h5 ⟨ht5, hhi⟩
      have hle2 := h2.toks
      refine sp_pure ⟨by omega, ⟨rfl, id, elem, lo, hi, rfl, hes⟩, fun herr => ?_⟩
      have e1 := errs_mid h1 (h2.trans (h3.trans (h4.trans h5))) herr
      have e2 := errs_mid h2 (h3.trans (h4.trans h5)) e1.2
      have e3 := errs_mid h3 (h4.trans h5) e2.2
      have e4 := errs_mid h4 h5 e3.2
      refine ⟨⟨hlo e4.1, fun x hx => ?_⟩, hb e2.1 trivial⟩
      rcases hhi e4.2 x hx with h | h
      · exact .inl ⟨rfl, h⟩
      · exact .inr h

/-! ## Tuples -/

theorem setKey_append {α : Type} (a b : List (String × α)) (k : String) (v : α) :
    setKey (a ++ b) k v = setKey a k v ++ setKey b k v := by
  simp [setKey]

theorem setKey_absent {α : Type} {a : List (String × α)} {k : String} {v : α}
    (h : ∀ p ∈ a, p.1 ≠ k) : setKey a k v = a := by
  unfold setKey
  conv => rhs; rw [← List.map_id a]
  apply List.map_congr_left
  intro p hp
  simp [h p hp]

/-- The keys of a field list that conforms are the names of the components. -/
theorem fieldsVOk_keys {D : Decls} : ∀ {fs : List (String × PVal)} {cs : List Comp},
    FieldsVOk D fs cs → fs.map Prod.fst = cs.map (·.name) := by
  intro fs
  induction fs with
  | nil => intro cs h; cases cs with
    | nil => rfl
    | cons c cs => exact h.elim
  | cons f fs ih =>
    intro cs h
    cases cs with
    | nil => exact h.elim
    | cons c cs =>
      obtain ⟨n, e⟩ := f
      simp only [List.map_cons]
      rw [ih h.2, h.1.1]

theorem fieldsVOk_append {D : Decls} : ∀ {fs gs : List (String × PVal)} {cs ds : List Comp},
    FieldsVOk D fs cs → FieldsVOk D gs ds → FieldsVOk D (fs ++ gs) (cs ++ ds) := by
  intro fs
  induction fs with
  | nil => intro gs cs ds h h'; cases cs with
    | nil => exact h'
    | cons c cs => exact h.elim
  | cons f fs ih =>
    intro gs cs ds h h'
    cases cs with
    | nil => exact h.elim
    | cons c cs => exact ⟨h.1, ih h.2 h'⟩

theorem fieldsBounds_append {x : Bool} {fs gs : List (String × PVal)} (h : FieldsBoundsOk x fs)
    (h' : FieldsBoundsOk x gs) : FieldsBoundsOk x (fs ++ gs) := by
  induction fs with
  | nil => exact h'
  | cons f fs ih => exact ⟨h.1, ih h.2⟩

theorem emptyTuple_bounds (x : Bool) (cs : List Comp) : FieldsBoundsOk x (emptyTuple cs) := by
  induction cs with
  | nil => trivial
  | cons c cs ih => exact ⟨trivial, ih⟩

theorem emptyTuple_ok {D : Decls} {cs : List Comp} (h : ∀ c ∈ cs, c.optional = true) :
    FieldsVOk D (emptyTuple cs) cs := by
  induction cs with
  | nil => trivial
  | cons c cs ih =>
    exact ⟨⟨rfl, .inl ⟨h c (by simp), rfl⟩⟩, ih fun c' hc' => h c' (by simp [hc'])⟩

/-- Assigning the first field that has no value yet. -/
theorem set_next' {fs : List (String × PVal)} {cs ds : List Comp} {c : Comp} {v : PVal}
    (h : fs.map Prod.fst = cs.map (·.name)) (hn : ((cs ++ c :: ds).map (·.name)).Nodup) :
    setKey (fs ++ emptyTuple (c :: ds)) c.name v = (fs ++ [(c.name, v)]) ++ emptyTuple ds := by
  rw [List.map_append, List.map_cons, List.nodup_append] at hn
  rw [setKey_append, setKey_absent]
  · have : setKey (emptyTuple (c :: ds)) c.name v = (c.name, v) :: emptyTuple ds := by
      have h2 : setKey (emptyTuple ds) c.name v = emptyTuple ds := by
        apply setKey_absent
        intro p hp
        simp only [emptyTuple, List.mem_map] at hp
        obtain ⟨d, hd, rfl⟩ := hp
        intro e
        have := hn.2.1
        rw [List.nodup_cons] at this
        exact this.1 (by rw [← e]; exact List.mem_map.2 ⟨d, hd, rfl⟩)
      unfold setKey at h2 ⊢
      unfold emptyTuple at h2 ⊢
      simp only [List.map_cons, if_true, h2]
    rw [this]
    simp
  · intro p hp e
    have : p.1 ∈ fs.map Prod.fst := List.mem_map.2 ⟨p, hp, rfl⟩
    rw [h] at this
    exact hn.2.2 _ this c.name (by simp) e

theorem set_next {D : Decls} {fs : List (String × PVal)} {cs ds : List Comp} {c : Comp} {v : PVal}
    (h : FieldsVOk D fs cs) (hn : ((cs ++ c :: ds).map (·.name)).Nodup) :
    setKey (fs ++ emptyTuple (c :: ds)) c.name v = (fs ++ [(c.name, v)]) ++ emptyTuple ds :=
  set_next' (fieldsVOk_keys h) hn

/-- What is proved about the value parser, for types of the components of a tuple. -/
def ParsesAll (D : Decls) (pv : Ty → P PVal) (cs : List Comp) (s0 : PS) : Prop :=
  ∀ c ∈ cs, Parses D (pv c.ty) c.ty s0

theorem plainLoop_sp {D : Decls} {pv : Ty → P PVal} {s0 : PS} :
    ∀ (ds : List Comp), ParsesAll D pv ds s0 →
    ∀ (first : Bool) (fs : List (String × PVal)) (cs : List Comp) (s : PS), Fr s0 s →
      FieldsVOk D fs cs → ((cs ++ ds).map (·.name)).Nodup →
      Sp Fr (plainLoop pv first ds (fs ++ emptyTuple ds)) s
        (fun d s' => FieldsVOk D d (cs ++ ds) ∧
          (s'.errs = s.errs → FieldsBoundsOk false fs → FieldsBoundsOk false d)) := by
  intro ds
  induction ds with
  | nil =>
    intro _ first fs cs s _ hf _
    simp only [plainLoop, emptyTuple, List.map_nil, List.append_nil]
    exact sp_pure ⟨hf, fun _ h => h⟩
  | cons c ds ih =>
    intro hp first fs cs s hs hf hn
    unfold plainLoop
    refine sp_bind (fun _ _ => True) ?_ ?_
    · refine sp_cond (fun _ => sp_pure trivial) (fun _ => ?_)
      refine sp_bind _ matchK_sp ?_
      rintro _ s1 _ _
      exact sp_pure trivial
    · rintro _ s1 h1 -
      refine sp_bind _ (hp c (by simp) s1 (hs.trans h1)) ?_
      rintro v s2 h2 ⟨hlt, hv, hb⟩
      rw [set_next hf hn]
      have hf' : FieldsVOk D (fs ++ [(c.name, v)]) (cs ++ [c]) :=
        fieldsVOk_append hf ⟨⟨rfl, .inr hv⟩, trivial⟩
      have := ih (fun c' hc' => hp c' (by simp [hc'])) false (fs ++ [(c.name, v)]) (cs ++ [c]) s2
        (hs.trans (h1.trans h2)) hf' (by simpa using hn)
      refine this.mono ?_
      rintro d s3 h3 ⟨hd, hbb⟩
      refine ⟨by simpa using hd, fun herr ha => ?_⟩
      have e1 := errs_mid h1 (h2.trans h3) herr
      have e2 := errs_mid h2 h3 e1.2
      exact hbb e2.2 (fieldsBounds_append ha ⟨hb e2.1, trivial⟩)

theorem matchSep_sp {sp : Sep} {s : PS} :
    Sp Fr (P.matchSep sp) s (fun _ s' => s'.toks < s.toks) := by
  cases sp <;> exact matchK_sp.mono fun _ _ _ h => h.2.2.2

theorem sepLoop_sp {D : Decls} {pv : Ty → P PVal} {s0 : PS} :
    ∀ (ds : List Comp), ParsesAll D pv ds s0 → OptionalTail ds →
    ∀ (seps : List Sep) (opt : Bool) (fs : List (String × PVal)) (cs : List Comp) (s : PS),
      Fr s0 s → FieldsVOk D fs cs → ((cs ++ ds).map (·.name)).Nodup →
      Sp Fr (sepLoop pv (iterSequence ds seps) opt (fs ++ emptyTuple ds)) s
        (fun d s' => FieldsVOk D d (cs ++ ds) ∧
          (s'.errs = s.errs → FieldsBoundsOk false fs → FieldsBoundsOk false d) ∧
          (opt = false → ds ≠ [] → s'.toks < s.toks)) := by
  intro ds
  induction ds with
  | nil =>
    intro _ _ seps opt fs cs s _ hf _
    cases seps <;> simp only [iterSequence, sepLoop, emptyTuple, List.map_nil, List.append_nil] <;>
      exact sp_pure ⟨hf, fun _ h => h, fun _ h => absurd rfl h⟩
  | cons c ds ih =>
    intro hp hopt seps opt fs cs s hs hf hn
    have first : ∀ items, (∀ (v : PVal) (s2 : PS), Fr s s2 → s2.toks < s.toks → VOk D v c.ty →
        Sp Fr (sepLoop pv items opt ((fs ++ [(c.name, v)]) ++ emptyTuple ds)) s2
          (fun d s' => FieldsVOk D d (cs ++ c :: ds) ∧
            (s'.errs = s2.errs → FieldsBoundsOk false (fs ++ [(c.name, v)]) →
              FieldsBoundsOk false d))) →
        Sp Fr (sepLoop pv (.comp c :: items) opt (fs ++ emptyTuple (c :: ds))) s
          (fun d s' => FieldsVOk D d (cs ++ c :: ds) ∧
            (s'.errs = s.errs → FieldsBoundsOk false fs → FieldsBoundsOk false d) ∧
            (opt = false → c :: ds ≠ [] → s'.toks < s.toks)) := by
      intro items hitems
      unfold sepLoop
      refine sp_ite (fun hb => ?_) (fun hb => ?_)
      · simp only [Bool.and_eq_true] at hb
        refine sp_pure ⟨fieldsVOk_append hf (emptyTuple_ok ?_), fun _ ha =>
          fieldsBounds_append ha (emptyTuple_bounds _ _), fun h => ?_⟩
        · intro c' hc'
          rcases List.mem_cons.1 hc' with rfl | hc'
          · exact hb.2
          · exact hopt.1 hb.2 c' hc'
        · rw [h] at hb; simp at hb
      · refine sp_bind _ (hp c (by simp) s hs) ?_
        rintro v s2 h2 ⟨hlt, hv, hbv⟩
        rw [set_next hf hn]
        refine (hitems v s2 h2 hlt hv).mono ?_
        rintro d s3 h3 ⟨hd, hbb⟩
        refine ⟨hd, fun herr ha => ?_, fun _ _ => Nat.lt_of_le_of_lt h3.toks hlt⟩
        have e2 := errs_mid h2 h3 herr
        exact hbb e2.2 (fieldsBounds_append ha ⟨hbv e2.1, trivial⟩)
    have rest : ∀ (seps : List Sep) (o : Bool) (v : PVal) (s2 : PS), Fr s s2 → VOk D v c.ty →
        Sp Fr (sepLoop pv (iterSequence ds seps) o ((fs ++ [(c.name, v)]) ++ emptyTuple ds)) s2
          (fun d s' => FieldsVOk D d (cs ++ c :: ds) ∧
            (s'.errs = s2.errs → FieldsBoundsOk false (fs ++ [(c.name, v)]) →
              FieldsBoundsOk false d)) := by
      intro seps o v s2 h2 hv
      have hf' : FieldsVOk D (fs ++ [(c.name, v)]) (cs ++ [c]) :=
        fieldsVOk_append hf ⟨⟨rfl, .inr hv⟩, trivial⟩
      refine (ih (fun c' hc' => hp c' (by simp [hc'])) hopt.2 seps o _ (cs ++ [c]) s2
        (hs.trans h2) hf' (by simpa using hn)).mono ?_
      rintro d s3 h3 ⟨hd, hbb, -⟩
      exact ⟨by simpa using hd, hbb⟩
    cases seps with
    | nil =>
      exact first _ fun v s2 h2 _ hv => rest [] opt v s2 h2 hv
    | cons sp seps =>
      refine first _ fun v s2 h2 _ hv => ?_
      unfold sepLoop
      refine sp_get_bind ?_
      refine sp_ite (fun _ => ?_) (fun _ => rest seps true v s2 h2 hv)
      refine sp_bind _ matchSep_sp ?_
      rintro _ s3 h3 -
      refine (rest seps opt v s3 (h2.trans h3) hv).mono ?_
      rintro d s4 h4 ⟨hd, hbb⟩
      refine ⟨hd, fun herr ha => ?_⟩
      exact hbb (errs_mid h3 h4 herr).2 ha

/-- `parse_value` gives a value of the type it is called for (and its loop bounds suffice). -/
theorem parseValue_sp {E : FileEnv} {D : Decls} (htup : TuplesOk D) :
    ∀ (n : Nat) (τ : Ty), tyRank τ < n → TyOk D τ → ∀ s0 : PS, s0.decls = D →
      Parses D (parseValue E n τ) τ s0 := by
  intro n
  induction n with
  | zero => intro τ h; omega
  | succ n ih =>
    intro τ hr hok s0 hD s hs
    have hsD : s.decls = D := by rw [hs.decls, hD]
    cases τ with
    | bool => exact parseBoolean_sp.mono fun _ _ _ h => ⟨h.1, h.2.1, fun _ => h.2.2⟩
    | int => exact (parseNumber_sp (isDec := false)).mono fun _ _ _ h => ⟨h.1, h.2.1, fun _ => h.2.2⟩
    | dec => exact (parseNumber_sp (isDec := true)).mono fun _ _ _ h => ⟨h.1, h.2.1, fun _ => h.2.2⟩
    | str =>
      unfold parseValue
      refine sp_bind _ matchK_sp ?_
      rintro t s1 h1 ⟨-, -, -, hlt⟩
      exact sp_pure ⟨hlt, by simp [VOk], fun _ => by simp [BoundsOk]⟩
    | markup => exact parseMarkup_sp.mono fun _ _ _ h => ⟨h.1, h.2.1, fun _ => h.2.2⟩
    | enum t =>
      have := parseEnum_sp (E := E) (t := t) (s := s)
      rw [hsD] at this
      exact this.mono fun _ _ _ h => ⟨h.1, h.2.1, fun _ => h.2.2⟩
    | record t =>
      exact (parseReference_sp (τ := .record t) trivial).mono
        fun _ _ _ h => ⟨h.1, h.2.1, fun _ => h.2.2⟩
    | union id ms =>
      exact (parseReference_sp (τ := .union id ms) trivial).mono
        fun _ _ _ h => ⟨h.1, h.2.1, fun _ => h.2.2⟩
    | arr id elem lo hi =>
      unfold parseValue
      exact parseArray_sp (ih elem (by simp only [tyRank] at hr; omega) hok s0 hD) hs
    | tup t =>
      unfold parseValue
      refine sp_get_bind ?_
      simp only
      have ht : t < D.tups.length := hok
      obtain ⟨cs, hcs⟩ : ∃ cs, D.tups[t]? = some cs := ⟨_, List.getElem?_eq_getElem ht⟩
      have hw := htup t cs hcs
      have hfields : s.decls.fields t = cs := by rw [hsD]; simp [Decls.fields, hcs]
      rw [hfields]
      have hall : ParsesAll D (parseValue E n) cs s0 := by
        intro c hc
        refine ih c.ty ?_ (hw.types c hc) s0 hD
        have := hw.earlier c hc
        simp only [tyRank] at hr
        omega
      refine sp_ite (fun _ => ?_) (fun _ => ?_)
      · unfold parseSepTuple
        refine sp_get_bind ?_
        refine sp_ite (fun _ => sp_crash (by simp)) (fun _ => ?_)
        have h := sepLoop_sp cs hall hw.tail ((s.seps[t]?).getD []) false [] [] s hs trivial
          (by simpa using hw.names)
        refine sp_bind _ h ?_
        rintro d s1 h1 ⟨hd, hb, hlt⟩
        obtain ⟨c, cs', rfl, -⟩ := hw.first
        exact sp_pure ⟨hlt rfl (by simp), ⟨rfl, _, hcs, by simpa using hd⟩,
          fun herr => hb herr trivial⟩
      · unfold parsePlainTuple
        refine sp_bind _ matchK_sp ?_
        rintro _ s1 h1 ⟨-, -, -, hlt⟩
        refine sp_bind _ (plainLoop_sp cs hall true [] [] s1 (hs.trans h1) trivial
          (by simpa using hw.names)) ?_
        rintro d s2 h2 ⟨hd, hb⟩
        refine sp_bind _ matchK_sp ?_
        rintro _ s3 h3 ⟨-, -, -, hlt3⟩
        have hle := h2.toks
        refine sp_pure ⟨by omega, ⟨rfl, _, hcs, by simpa using hd⟩, fun herr => ?_⟩
        have e1 := errs_mid h1 (h2.trans h3) herr
        have e2 := errs_mid h2 h3 e1.2
        exact hb e2.1 trivial

end Verif.Lemmas
