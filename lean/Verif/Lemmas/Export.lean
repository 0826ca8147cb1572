import Verif.Lemmas.Float
import Verif.Lemmas.Resolve
import Verif.Lemmas.Preamble
/-!
# Export to Python objects
-/
namespace Verif.Lemmas
open Verif.Model Verif.Spec

/-- Every object has a full name, the expected one. -/
def FullNames (fqn : Nat → Option (List Char)) (named : Nat → List Char → Prop) (objs : List Obj) : Prop :=
  ∀ (i : Nat) (ob : Obj), objs[i]? = some ob → ∃ pn, named ob.pkg pn ∧ fqn i = some (pn ++ '.' :: ob.name)

/-- How an export ends -/
def ExportOutcome {α : Type} (P : α → Prop) (C : Rat → Prop) (x : Except ExportErr α) : Prop :=
  (∃ a, x = .ok a ∧ P a) ∨ (x = .error .overflow ∧ ∃ q, C q ∧ toFloat q = none)

section
variable {D : Decls} {objs : List Obj} {fqn : Nat → Option (List Char)} {named : Nat → List Char → Prop}

theorem exportVal_dec (fqn : Nat → Option (List Char)) (q : Rat) :
    (∃ r, exportVal fqn (.dec q) = .ok (.float r) ∧ Nearest q r) ∨
      (exportVal fqn (.dec q) = .error .overflow ∧ toFloat q = none) := by
  unfold exportVal
  cases h : toFloat q with
  | none => exact .inr ⟨rfl, rfl⟩
  | some r => exact .inl ⟨r, rfl, toFloat_nearest h⟩

mutual
theorem exportVal_outcome (hn : FullNames fqn named objs) : (v : PVal) → (f : FExpr) → (τ : Ty) → VOk D v τ →
    Resolved D objs v f → ExportOutcome (InPython named v) (Contains · v) (exportVal fqn f)
  | .inull, _, _, h, _ => by simp only [VOk] at h
  | .bool b, f, _, _, hr => by
    simp only [Resolved] at hr; subst hr; exact .inl ⟨_, by unfold exportVal; rfl, .bool b⟩
  | .int b, f, _, _, hr => by
    simp only [Resolved] at hr; subst hr; exact .inl ⟨_, by unfold exportVal; rfl, .int b⟩
  | .dec q, f, _, _, hr => by
    simp only [Resolved] at hr; subst hr
    rcases exportVal_dec fqn q with ⟨r, h1, h2⟩ | ⟨h1, h2⟩
    · exact .inl ⟨_, h1, .dec h2⟩
    · exact .inr ⟨h1, q, by simp only [Contains], h2⟩
  | .str b, f, _, _, hr => by
    simp only [Resolved] at hr; subst hr; exact .inl ⟨_, by unfold exportVal; rfl, .str b⟩
  | .markup b rs, f, _, _, hr => by
    simp only [Resolved] at hr; obtain ⟨rfl, -⟩ := hr; exact .inl ⟨_, by unfold exportVal; rfl, .markup b rs⟩
  | .enum t l, f, _, _, hr => by
    simp only [Resolved] at hr; subst hr; exact .inl ⟨_, by unfold exportVal; rfl, .enum t l⟩
  | .neg e, f, τ, hv, hr => by
    simp only [Resolved] at hr
    obtain ⟨g, rfl, hg⟩ := hr
    simp only [VOk] at hv
    rcases hv with ⟨-, i, rfl⟩ | ⟨-, q, rfl⟩
    · simp only [Resolved] at hg; subst hg
      exact .inl ⟨.int (-i), by simp only [exportVal, negPy], .minusInt i⟩
    · simp only [Resolved] at hg; subst hg
      rcases exportVal_dec fqn q with ⟨r, h1, h2⟩ | ⟨h1, h2⟩
      · exact .inl ⟨.float (-r), by rw [exportVal, h1]; simp only [negPy], .minusDec (nearest_neg h2)⟩
      · exact .inr ⟨by rw [exportVal, h1], q, by simp only [Contains], h2⟩
  | .pos e, f, τ, hv, hr => by
    simp only [Resolved] at hr
    obtain ⟨g, rfl, hg⟩ := hr
    simp only [VOk] at hv
    rcases hv with ⟨-, i, rfl⟩ | ⟨-, q, rfl⟩
    · simp only [Resolved] at hg; subst hg
      exact .inl ⟨.int i, by simp only [exportVal], .plusInt i⟩
    · simp only [Resolved] at hg; subst hg
      rcases exportVal_dec fqn q with ⟨r, h1, h2⟩ | ⟨h1, h2⟩
      · exact .inl ⟨.float r, by rw [exportVal, h1], .plusDec h2⟩
      · exact .inr ⟨by rw [exportVal, h1], q, by simp only [Contains], h2⟩
  | .arr t es, f, τ, hv, hr => by
    simp only [Resolved] at hr
    obtain ⟨gs, rfl, hg⟩ := hr
    simp only [VOk] at hv
    obtain ⟨-, id, elem, lo, hi, -, hv⟩ := hv
    rcases exportVals_outcome hn es gs elem hv hg with ⟨vs, h1, h2⟩ | ⟨h1, q, h2, h3⟩
    · exact .inl ⟨.list vs, by rw [exportVal, h1], .arr h2⟩
    · exact .inr ⟨by rw [exportVal, h1], q, by simp only [Contains]; exact h2, h3⟩
  | .tup t fs, f, τ, hv, hr => by
    simp only [Resolved] at hr
    obtain ⟨gs, rfl, hg⟩ := hr
    simp only [VOk] at hv
    obtain ⟨-, cs, -, hv⟩ := hv
    rcases exportFields_outcome hn fs gs cs hv hg with ⟨vs, h1, h2⟩ | ⟨h1, q, h2, h3⟩
    · exact .inl ⟨.dict vs, by rw [exportVal, h1], .tup h2⟩
    · exact .inr ⟨by rw [exportVal, h1], q, by simp only [Contains]; exact h2, h3⟩
  | .ref t p n, f, τ, _, hr => by
    simp only [Resolved] at hr
    obtain ⟨i, o, rfl, ⟨h1, rfl, rfl⟩, -⟩ := hr
    obtain ⟨pn, h2, h3⟩ := hn i o h1
    exact .inl ⟨_, by rw [exportVal, h3], .ref h2⟩

theorem exportVals_outcome (hn : FullNames fqn named objs) : (es : List PVal) → (gs : List FExpr) → (τ : Ty) →
    AllVOk D es τ → ResolvedAll D objs es gs →
    ExportOutcome (AllInPython named es) (ContainsAny · es) (exportVals fqn gs)
  | [], gs, _, _, hr => by
    simp only [ResolvedAll] at hr; subst hr; exact .inl ⟨[], by simp only [exportVals], .nil⟩
  | e :: es, gs, τ, hv, hr => by
    simp only [ResolvedAll] at hr
    obtain ⟨g, hs, rfl, h1, h2⟩ := hr
    simp only [AllVOk] at hv
    rcases exportVal_outcome hn e g τ hv.1 h1 with ⟨v, k1, k2⟩ | ⟨k1, q, k2, k3⟩
    · rcases exportVals_outcome hn es hs τ hv.2 h2 with ⟨vs, k3, k4⟩ | ⟨k3, q, k4, k5⟩
      · exact .inl ⟨v :: vs, by rw [exportVals, k1, k3], .cons k2 k4⟩
      · exact .inr ⟨by rw [exportVals, k1, k3], q, by simp only [ContainsAny]; exact .inr k4, k5⟩
    · exact .inr ⟨by rw [exportVals, k1], q, by simp only [ContainsAny]; exact .inl k2, k3⟩

theorem exportFields_outcome (hn : FullNames fqn named objs) : (fs : List (String × PVal)) →
    (gs : List (String × FExpr)) → (cs : List Comp) → FieldsVOk D fs cs → ResolvedFields D objs fs gs →
    ExportOutcome (FieldsInPython named fs) (ContainsField · fs) (exportFields fqn gs)
  | [], gs, _, _, hr => by
    simp only [ResolvedFields] at hr; subst hr; exact .inl ⟨[], by simp only [exportFields], .nil⟩
  | f :: fs, gs, [], hv, hr => by simp only [FieldsVOk] at hv
  | f :: fs, gs, c :: cs, hv, hr => by
    simp only [ResolvedFields] at hr
    obtain ⟨g, hs, rfl, h1, h2⟩ := hr
    simp only [FieldsVOk] at hv
    rcases exportField_outcome hn f g c hv.1 h1 with ⟨v, k1, k2, k2'⟩ | ⟨k1, q, k2, k3⟩
    · rcases exportFields_outcome hn fs hs cs hv.2 h2 with ⟨vs, k3, k4⟩ | ⟨k3, q, k4, k5⟩
      · refine .inl ⟨v :: vs, by rw [exportFields, k1, k3], ?_⟩
        obtain ⟨n, e⟩ := f
        obtain ⟨n', v⟩ := v
        cases k2
        exact .cons k2' k4
      · exact .inr ⟨by rw [exportFields, k1, k3], q, by simp only [ContainsField]; exact .inr k4, k5⟩
    · exact .inr ⟨by rw [exportFields, k1], q, by simp only [ContainsField]; exact .inl k2, k3⟩

theorem exportField_outcome (hn : FullNames fqn named objs) : (f : String × PVal) → (g : String × FExpr) →
    (c : Comp) → FieldVOk D f c → ResolvedField D objs f g →
    ExportOutcome (fun v => v.1 = f.1 ∧ InPython named f.2 v.2) (ContainsIn · f) (exportField fqn g)
  | (n, e), (n', g), c, hv, hr => by
    simp only [ResolvedField] at hr
    obtain ⟨rfl, hr⟩ := hr
    simp only [FieldVOk] at hv
    rcases hv.2 with ⟨-, rfl⟩ | hv
    · simp only [Resolved] at hr; subst hr
      exact .inl ⟨(n', .none), by simp only [exportField, exportVal], rfl, .null⟩
    · rcases exportVal_outcome hn e g c.ty hv hr with ⟨v, k1, k2⟩ | ⟨k1, q, k2, k3⟩
      · exact .inl ⟨(n', v), by simp only [exportField, k1], rfl, k2⟩
      · exact .inr ⟨by simp only [exportField, k1], q, by simp only [ContainsIn]; exact k2, k3⟩
end

/-- The components of an object as written -/
def asWritten (fs : List (String × VNode)) : List (String × PVal) := fs.map fun f => (f.1, f.2.val)

theorem exportNodes_outcome (hn : FullNames fqn named objs) {fs : List (String × VNode)} {gs : Fields}
    (hv : ∀ f ∈ fs, f.2.val = .inull ∨ ∃ τ, VOk D f.2.val τ) (hr : ResolvedObj D objs fs gs) :
    ExportOutcome (FieldsInPython named (asWritten fs)) (ContainsField · (asWritten fs)) (exportNodes fqn gs) := by
  unfold exportNodes
  induction fs generalizing gs with
  | nil => simp only [ResolvedObj] at hr; subst hr; exact .inl ⟨[], by simp [exportFields], .nil⟩
  | cons f fs ih =>
    obtain ⟨n, v⟩ := f
    simp only [ResolvedObj] at hr
    obtain ⟨e, hs, rfl, h1, h2⟩ := hr
    have k : ExportOutcome (InPython named v.val) (Contains · v.val) (exportVal fqn e) := by
      rcases hv (n, v) (by simp) with h | ⟨τ, h⟩
      · rw [h] at h1 ⊢
        simp only [Resolved] at h1; subst h1
        exact .inl ⟨.none, by simp only [exportVal], .null⟩
      · exact exportVal_outcome hn _ _ τ h h1
    simp only [List.map_cons, exportFields, exportField]
    rcases k with ⟨w, k1, k2⟩ | ⟨k1, q, k2, k3⟩
    · rcases ih (fun f hf => hv f (List.mem_cons_of_mem _ hf)) h2 with ⟨vs, k3, k4⟩ | ⟨k3, q, k4, k5⟩
      · exact .inl ⟨(n, w) :: vs, by rw [k1, k3], .cons k2 k4⟩
      · exact .inr ⟨by rw [k1, k3], q, by unfold asWritten; simp only [List.map_cons, ContainsField]; exact .inr k4, k5⟩
    · exact .inr ⟨by rw [k1], q, by unfold asWritten; simp only [List.map_cons, ContainsField, ContainsIn]; exact .inl k2, k3⟩

end

/-! ## Agreement with evaluation -/

section
variable {heap : Nat → Option Fields} {fqn : Nat → Option (List Char)} {obj : List Char → Fields → Prop}

theorem ev_bind {α β : Type} {x : Ev α} {f : α → Ev β} {b : β} (h : x.bind f = .ok b) : ∃ a, x = .ok a ∧ f a = .ok b := by
  cases x with
  | ok a => exact ⟨a, rfl, h⟩
  | err e => cases h
  | crash c => cases h

theorem mkValue_ok {t : Option Ty} {v : Val} {x : TV} (h : mkValue t v = .ok x) : x = ⟨t, v⟩ := by
  unfold mkValue at h
  split at h
  · cases h; rfl
  · cases h

mutual
theorem export_mirrors (ho : ∀ i n fs, fqn i = some n → heap i = some fs → obj n fs) : (f : FExpr) → (tv : TV) →
    (py : PyObj) → f.eval heap = .ok tv → exportVal fqn f = .ok py → Mirrors obj tv.val py
  | .inull, tv, py, h1, h2 => by
    rw [FExpr.eval] at h1; rw [exportVal] at h2; cases h2; cases mkValue_ok h1; exact .null
  | .bool b, tv, py, h1, h2 => by
    rw [FExpr.eval] at h1; rw [exportVal] at h2; cases h2; cases mkValue_ok h1; exact .bool b
  | .int b, tv, py, h1, h2 => by
    rw [FExpr.eval] at h1; rw [exportVal] at h2; cases h2; cases mkValue_ok h1; exact .int b
  | .dec q, tv, py, h1, h2 => by
    rw [FExpr.eval] at h1
    cases mkValue_ok h1
    rcases exportVal_dec fqn q with ⟨r, h3, h4⟩ | ⟨h3, -⟩
    · rw [h3] at h2; cases h2; exact .dec h4
    · rw [h3] at h2; cases h2
  | .str b, tv, py, h1, h2 => by
    rw [FExpr.eval] at h1; rw [exportVal] at h2; cases h2; cases mkValue_ok h1; exact .str b
  | .markup b, tv, py, h1, h2 => by
    rw [FExpr.eval] at h1; rw [exportVal] at h2; cases h2; cases mkValue_ok h1; exact .str b
  | .enum t l, tv, py, h1, h2 => by
    rw [FExpr.eval] at h1; rw [exportVal] at h2; cases h2; cases mkValue_ok h1; exact .enum t l
  | .neg e, tv, py, h1, h2 => by
    rw [FExpr.eval] at h1
    obtain ⟨v, h3, h4⟩ := ev_bind h1
    rw [exportVal] at h2
    split at h2
    · cases h2
    next pv h5 =>
    have ih := export_mirrors ho e v pv h3 h5
    obtain ⟨t, v⟩ := v
    unfold unary at h4
    split at h4
    · cases h4
    cases v <;> simp only [unaryOp] at h4 <;> try cases h4
    · cases mkValue_ok h4
      cases ih
      simp only [negPy] at h2
      cases h2
      exact .int _
    · cases mkValue_ok h4
      cases ih
      next hn =>
      simp only [negPy] at h2
      cases h2
      exact .dec (nearest_neg hn)
  | .pos e, tv, py, h1, h2 => by
    rw [FExpr.eval] at h1
    obtain ⟨v, h3, h4⟩ := ev_bind h1
    rw [exportVal] at h2
    have ih := export_mirrors ho e v py h3 h2
    obtain ⟨t, v⟩ := v
    unfold unary at h4
    split at h4
    · cases h4
    cases v <;> simp only [unaryOp] at h4 <;> try cases h4
    · cases mkValue_ok h4; exact ih
    · cases mkValue_ok h4; exact ih
  | .arr t es, tv, py, h1, h2 => by
    rw [FExpr.eval] at h1
    obtain ⟨vs, h3, h4⟩ := ev_bind h1
    rw [exportVal] at h2
    split at h2
    · cases h2
    next ps h5 =>
    cases h2
    cases mkValue_ok h4
    have ih := exports_mirror ho es vs ps h3 h5
    exact .arr ih.1 ih.2
  | .tup t fs, tv, py, h1, h2 => by
    rw [FExpr.eval] at h1
    obtain ⟨vs, h3, h4⟩ := ev_bind h1
    rw [exportVal] at h2
    split at h2
    · cases h2
    next ps h5 =>
    cases h2
    cases mkValue_ok h4
    have ih := exportFields_mirror ho fs vs ps h3 h5
    exact .tup ih.1 ih.2
  | .ref t none, tv, py, h1, h2 => by rw [exportVal] at h2; cases h2
  | .ref t (some o), tv, py, h1, h2 => by
    rw [FExpr.eval] at h1
    rw [exportVal] at h2
    split at h1
    · cases h1
    next fs h3 =>
    split at h2
    · cases h2
    next n h4 =>
    cases h2
    cases mkValue_ok h1
    exact .ref (ho o n fs h4 h3)

theorem exports_mirror (ho : ∀ i n fs, fqn i = some n → heap i = some fs → obj n fs) : (es : List FExpr) →
    (vs : List (Option Ty × Val)) → (ps : List PyObj) → evalElems heap es = .ok vs → exportVals fqn es = .ok ps →
    vs.length = ps.length ∧ ∀ (i : Nat) e v, vs[i]? = some e → ps[i]? = some v → Mirrors obj e.2 v
  | [], vs, ps, h1, h2 => by
    rw [evalElems] at h1; rw [exportVals] at h2; cases h1; cases h2
    exact ⟨rfl, fun i e v h => by simp at h⟩
  | e :: es, vs, ps, h1, h2 => by
    rw [evalElems] at h1
    obtain ⟨v, h3, h4⟩ := ev_bind h1
    obtain ⟨vs', h5, h6⟩ := ev_bind h4
    cases h6
    rw [exportVals] at h2
    split at h2
    · cases h2
    next p hp =>
    split at h2
    · cases h2
    next ps' hps =>
    cases h2
    have k1 := export_mirrors ho e v p h3 hp
    obtain ⟨k2, k3⟩ := exports_mirror ho es vs' ps' h5 hps
    refine ⟨by simp [k2], fun i e v he hv => ?_⟩
    cases i with
    | zero => simp at he hv; subst he hv; exact k1
    | succ i => exact k3 i e v (by simpa using he) (by simpa using hv)

theorem exportFields_mirror (ho : ∀ i n fs, fqn i = some n → heap i = some fs → obj n fs) :
    (es : List (String × FExpr)) → (vs : List (String × Option Ty × Val)) → (ps : List (String × PyObj)) →
    evalFields heap es = .ok vs → exportFields fqn es = .ok ps →
    vs.map Prod.fst = ps.map Prod.fst ∧ ∀ (i : Nat) e v, vs[i]? = some e → ps[i]? = some v → Mirrors obj e.2.2 v.2
  | [], vs, ps, h1, h2 => by
    rw [evalFields] at h1; rw [exportFields] at h2; cases h1; cases h2
    exact ⟨rfl, fun i e v h => by simp at h⟩
  | f :: es, vs, ps, h1, h2 => by
    rw [evalFields] at h1
    obtain ⟨v, h3, h4⟩ := ev_bind h1
    obtain ⟨vs', h5, h6⟩ := ev_bind h4
    cases h6
    rw [exportFields] at h2
    split at h2
    · cases h2
    next p hp =>
    split at h2
    · cases h2
    next ps' hps =>
    cases h2
    have k1 := exportField_mirror ho f v p h3 hp
    obtain ⟨k2, k3⟩ := exportFields_mirror ho es vs' ps' h5 hps
    refine ⟨by simp [k1.1, k2], fun i e v he hv => ?_⟩
    cases i with
    | zero => simp at he hv; subst he hv; exact k1.2
    | succ i => exact k3 i e v (by simpa using he) (by simpa using hv)

theorem exportField_mirror (ho : ∀ i n fs, fqn i = some n → heap i = some fs → obj n fs) :
    (f : String × FExpr) → (v : String × Option Ty × Val) → (p : String × PyObj) →
    evalField heap f = .ok v → exportField fqn f = .ok p → v.1 = p.1 ∧ Mirrors obj v.2.2 p.2
  | (n, e), v, p, h1, h2 => by
    rw [evalField] at h1
    obtain ⟨x, h3, h4⟩ := ev_bind h1
    cases h4
    rw [exportField] at h2
    split at h2
    · cases h2
    next py h5 =>
    cases h2
    exact ⟨rfl, export_mirrors ho e x py h3 h5⟩
end

end

/-! ## Names of packages -/

theorem pkgName_named {g : STab} {p : Nat} {n : List Char} (h : pkgName g p = some n) : PkgNamed g p n := by
  unfold pkgName at h
  cases hf : g.own.find? (fun x => isPackage x.2 && x.2.id == p) with
  | none => rw [hf] at h; cases h
  | some x =>
    rw [hf] at h
    cases h
    have h1 := List.mem_of_find?_eq_some hf
    have h2 := List.find?_some hf
    simp only [Bool.and_eq_true, beq_iff_eq, isPackage] at h2
    exact ⟨x.1, x.2, h1, h2.1, h2.2, rfl⟩

theorem pkgName_some {g : STab} {p : Nat} {k : List Char} {e : Ent} (h : (k, e) ∈ g.own) (h1 : e.cls = clsPackage)
    (h2 : e.id = p) : ∃ n, pkgName g p = some n := by
  unfold pkgName
  cases hf : g.own.find? (fun x => isPackage x.2 && x.2.id == p) with
  | none =>
    have := List.find?_eq_none.1 hf (k, e) h
    simp [isPackage, h1, h2] at this
  | some x => exact ⟨_, rfl⟩

/-- the name of a package is determined by its number -/
theorem pkgNamed_unique {g : STab} (ht : PkgTab g) {p : Nat} {n n' : List Char} (h : PkgNamed g p n)
    (h' : PkgNamed g p n') : n = n' := by
  obtain ⟨k, e, h1, h2, h3, rfl⟩ := h
  obtain ⟨k', e', h1', h2', h3', rfl⟩ := h'
  have hm : (k, e) ∈ pkgsOf g := List.mem_filter.2 ⟨h1, by simp [isPackage, h2]⟩
  have hm' : (k', e') ∈ pkgsOf g := List.mem_filter.2 ⟨h1', by simp [isPackage, h2']⟩
  have hnd : ((pkgsOf g).map (·.2.id)).Nodup := by rw [ht.nums]; exact List.nodup_range
  have := List.inj_on_of_nodup_map hnd hm hm' (by rw [h3, h3'])
  cases this
  rfl

theorem fullNames {g : STab} {s : PS} (hi : TabInv s) (hp : PkgsKnown g s) :
    FullNames (s.fqn g) (PkgNamed g) s.objs := by
  intro i ob h
  obtain ⟨T, k, e, h1, -⟩ := hi.reg i ob h
  obtain ⟨k', e', h2, h3, h4⟩ := hp ob.pkg (List.getElem?_eq_some_iff.1 h1).1
  obtain ⟨n, hn⟩ := pkgName_some h2 h3 h4
  refine ⟨n, pkgName_named hn, ?_⟩
  unfold PS.fqn
  rw [h]
  simp only [hn, Option.map_some]
  simp

end Verif.Lemmas
