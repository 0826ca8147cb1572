import Verif.Lemmas.Vcg.Weaken
import Verif.Lemmas.TrlcAccepts
import Verif.Props.Vcg
/-!
# C76: what the verification of checks guarantees
-/
namespace Verif.Props
open Verif.Model Verif.Spec Verif.Lemmas Verif.Lemmas.Vcg

/-- Every check was accepted in a check block for its type, without ambiguous access to fields of
unions, with comparisons between types that can be compared and `in` for the type of the
elements. -/
structure ChecksExact (E : ElEnv) (C : CheckTab) : Prop where
  recs : ∀ t, ∀ k ∈ C.ofRec t, ∃ other enums r, elabCheck E (.ofRecord E.decls t other enums) r = .ok k.expr ∧
    Side E.decls True True (recordΓ E.decls t) k.expr ∧ Exact E.decls k.expr
  tups : ∀ t, ∀ k ∈ C.ofTup t, ∃ other enums r, elabCheck E (.ofTuple E.decls t other enums) r = .ok k.expr ∧
    Side E.decls True True (tupleΓ E.decls t) k.expr ∧ Exact E.decls k.expr

variable {E : ElEnv} {infos : List RecInfo} {objTy : Nat → Option Nat} {heap : Nat → Option Fields} {C : CheckTab}

/-- everything that evaluation depends on -/
noncomputable def worldOf (E : ElEnv) (hw : WorldOk E.decls infos) (he : EnumsFilled E.decls) (hh : HeapOk E.decls objTy heap)
    (hid : HeapIds heap) : Lemmas.Vcg.World where
  D := E.decls
  objTy := objTy
  heap := heap
  rx := E.rx
  ref := objNumber heap
  wf := hw.wf
  un := hw.unique
  hh := hh
  hab := habitable hw.tuples he
  fn := fields_names hw.tuples
  hr := objNumber_ok hid
  ids := hid

theorem elabCheck_ok {sc : TScope} {r : Raw} {e : Expr} (h : elabCheck E sc r = .ok e) : r.elab E sc = .ok e ∧ e.typ = some .bool := by
  simp only [elabCheck, el_bind_ok] at h
  obtain ⟨e', he', h⟩ := h
  split at h
  · next ht => cases h; exact ⟨he', ht⟩
  · cases h

theorem comps_recordΓ (hw : WorldOk E.decls infos) (t : Nat) : compΓ (E.decls.allComponents t) = recordΓ E.decls t := by
  funext n
  have : (E.decls.allComponents t).find? (·.name == n) = E.decls.component t n := by
    cases hf : (E.decls.allComponents t).find? (·.name == n) with
    | some c =>
      obtain ⟨h1, rfl⟩ := Vcg.find_mem hf
      rw [mem_allComponents hw.wf] at h1
      exact (component_of hw h1).symm
    | none =>
      cases hc : E.decls.component t n with
      | none => rfl
      | some c =>
        obtain ⟨h1, rfl⟩ := component_hasComp hw.wf hc
        have := List.find?_eq_none.1 hf c ((mem_allComponents hw.wf t c).2 h1)
        simp at this
  simp only [compΓ, recordΓ, this]

private theorem lookup_ctx (fs : Fields) (n : String) : (recordCtx fs).lookup n = (fs.lookup n).map (·.expr) := by
  induction fs with
  | nil => rfl
  | cons f fs ih =>
    obtain ⟨k, v⟩ := f
    unfold recordCtx at ih ⊢
    rw [List.map_cons, List.lookup_cons, List.lookup_cons]
    cases n == k <;> simp [ih]

section
variable (hw : WorldOk E.decls infos) (he : EnumsFilled E.decls) (hh : HeapOk E.decls objTy heap) (hid : HeapIds heap)

private theorem fit_record (hC : ChecksExact E C) {t a : Nat} (hext : Extends E.decls t a) {k : Check} (hk : k ∈ C.ofRec a) :
    Fit (worldOf E hw he hh hid) (recordΓ E.decls t) k.expr ∧ k.expr.typ = some .bool := by
  obtain ⟨other, enums, r, h1, h2, h3⟩ := hC.recs a k hk
  obtain ⟨h4, h5⟩ := elabCheck_ok h1
  refine ⟨fit_wider (Γ := recordΓ E.decls a) ⟨elab_wt hw.wf r _ _ h4, h2, h3⟩ ?_, h5⟩
  rintro n ⟨ty, b⟩ h
  simp only [recordΓ, Option.map_eq_some_iff, Prod.mk.injEq] at h ⊢
  obtain ⟨c, hc, h6⟩ := h
  obtain ⟨⟨u, hu, hd⟩, rfl⟩ := component_hasComp hw.wf hc
  exact ⟨c, component_of hw ⟨u, extends_trans hext hu, hd⟩, h6⟩

private theorem fit_tuple (hC : ChecksExact E C) {t : Nat} {k : Check} (hk : k ∈ C.ofTup t) :
    Fit (worldOf E hw he hh hid) (compΓ (E.decls.fields t)) k.expr ∧ k.expr.typ = some .bool := by
  obtain ⟨other, enums, r, h1, h2, h3⟩ := hC.tups t k hk
  obtain ⟨h4, h5⟩ := elabCheck_ok h1
  exact ⟨⟨elab_wt hw.wf r _ _ h4, h2, h3⟩, h5⟩

private theorem fit_marked (hC : ChecksExact E C) {a : Nat} : ∀ x ∈ markedChecks E.decls C a,
    Fit (worldOf E hw he hh hid) (compΓ (E.decls.allComponents a)) x.2.expr ∧ x.2.expr.typ = some .bool := by
  intro x hx
  simp only [markedChecks, List.mem_flatMap, List.mem_reverse, List.mem_map, mem_ancestors hw.wf] at hx
  obtain ⟨b, hb, k, hk, rfl⟩ := hx
  rw [comps_recordΓ hw]
  exact fit_record hw he hh hid hC hb hk

private theorem start_record (hC : ChecksExact E C) (hbd : HeapInBounds heap) {o t a : Nat} {fs : Fields} (hto : objTy o = some t)
    (hfs : heap o = some fs) (hg : ObjectGranted E.decls objTy C ⟨heap, E.rx⟩ fs t) (hext : Extends E.decls t a)
    {frozen : String → Option FExpr} (hfz : ∀ n e, frozen n = some e → ∃ x, fs.lookup n = some x ∧ x.expr = e)
    (hnn : ∀ k ∈ E.decls.allComponents a, ∀ e, frozen k.name = some e → e ≠ .inull) :
    Start (worldOf E hw he hh hid) C (recordVcg E.decls C frozen a) (recordCtx fs) := by
  obtain ⟨fs', h1, ho⟩ := hh o t hto
  rw [hfs] at h1
  cases h1
  have hcomp : ∀ k ∈ E.decls.allComponents a, HasComp E.decls t k := by
    intro k hk
    obtain ⟨u, hu, hd⟩ := (mem_allComponents hw.wf a k).1 hk
    exact ⟨u, extends_trans hext hu, hd⟩
  refine ⟨allComponents_nodup hw a, fun k hk => ?_, fun k hk => ?_, fun k hk hl xs hxs hne => ?_, fun k hk e hke => ?_,
    fun k _ u _ x hx _ => (fit_tuple hw he hh hid hC hx).1, fun n fe hn => ?_⟩
  · obtain ⟨n, h2, h3⟩ := ho.1 k (hcomp k hk)
    refine ⟨n.expr, by rw [lookup_ctx, h2]; rfl, h3.imp id fun h3 => ⟨h3, ?_⟩⟩
    refine (hg k (hcomp k hk) n h2).1 fun h => ?_
    rw [h] at h3
    simp [FOk] at h3
  · obtain ⟨u, -, hd⟩ := hcomp k hk
    exact (habitable hw.tuples he).2 u k ((mem_own u k).2 hd)
  · rw [lookup_ctx, Option.map_eq_some_iff] at hl
    obtain ⟨n, h2, h3⟩ := hl
    refine (hg k (hcomp k hk) n h2).2 h3 ?_
    cases hty : k.ty <;> simp only [compConstraints, hty, FR.ok.injEq] at hxs
    case tup u => exact .inl ⟨u, rfl⟩
    case arr id e lo hi => exact .inr ⟨id, e, lo, hi, rfl⟩
    all_goals exact absurd hxs.symm hne
  · obtain ⟨x, h2, rfl⟩ := hfz _ _ hke
    exact ⟨by rw [lookup_ctx, h2]; rfl, hnn k hk _ hke⟩
  · rw [lookup_ctx, Option.map_eq_some_iff] at hn
    obtain ⟨x, h2, rfl⟩ := hn
    exact hbd o fs hfs _ (mem_of_lookup h2)

end

/-- the parts of a sequence of checks that was performed to the end -/
private theorem performAll_append {env : EvEnv} {k : Composite} : ∀ {A B : List Check} {b b' : Bool},
    (performAll env k (A ++ B) b).out = .ok b' → ∃ b'', (performAll env k A b).out = .ok b''
  | [], _, b, _, _ => ⟨b, rfl⟩
  | d :: ds, B, b, b', h => by
    simp only [List.cons_append, performAll, CR.bind] at h ⊢
    split at h
    · next a ha =>
      simp only at h ⊢
      exact performAll_append h
    · cases h
    · cases h

private theorem performAll_fatal {env : EvEnv} {k : Composite} : ∀ {cs : List Check} {b b' : Bool},
    (performAll env k cs b).out = .ok b' → ∀ c ∈ cs, c.sev = .fatal → ∃ v, c.expr.eval env (some k.ctx) = .ok v ∧ v.val = .bool true
  | [], _, _, _, _, hc, _ => by cases hc
  | d :: ds, b, b', h, c, hc, hf => by
    simp only [performAll, CR.bind] at h
    split at h
    · next a ha =>
      simp only at h
      rcases List.mem_cons.1 hc with rfl | hc
      · unfold performCheck at ha
        split at ha
        · cases ha
        · cases ha
        · next v hv =>
          split at ha
          · cases ha
          · next hb => exact ⟨v, hv, hb⟩
          · rw [hf] at ha; cases ha
          · cases ha
      · exact performAll_fatal h c hc hf
    · cases h
    · cases h

/-- the graph that is built for a type -/
def graphOf (E : ElEnv) (C : CheckTab) (v : VcgType) (G : TS) : Prop := vcgGraph ⟨E.decls, E.rx⟩ C v TS.empty = .ok () G

/-- The verification of a type ends without reporting an error. -/
def Clean (E : ElEnv) (C : CheckTab) (v : VcgType) : Prop := ∃ G, graphOf E C v G ∧ Verified E.decls G

/-- No fatal check without references comes after a check with references. -/
def FatalFirst (c d : Check) : Prop := c.usesFieldAccess = true → d.sev = .fatal → d.usesFieldAccess = true

/-- The message of a failing check -/
def MessageOf (k : Composite) (c : Check) (m : MHCall) : Prop :=
  ∃ loc, Anchored k c loc ∧
    match c.sev with
    | .warning => m = .warning loc c.msg true
    | .error => m = .error loc c.msg false true
    | .fatal => m = .error loc c.msg true true

private theorem performAll_app (env : EvEnv) (k : Composite) : ∀ (A B : List Check) (b : Bool),
    performAll env k (A ++ B) b = (performAll env k A b).bind fun b' => performAll env k B b'
  | [], B, b => by simp [performAll, CR.bind, CR.pure]
  | c :: A, B, b => by
    simp only [List.cons_append, performAll]
    simp only [CR.bind]
    cases (performCheck env k c).out with
    | ok a =>
      simp only [performAll_app env k A B (b && a), CR.bind]
      cases (performAll env k A (b && a)).out <;> simp
    | raised => rfl
    | crash x => rfl

/-- if every check that is reached is true or false, all messages are those of failing checks -/
private theorem performAll_defined {env : EvEnv} {k : Composite} {cs : List Check} (hv : ∀ P x Q, cs = P ++ x :: Q →
      (∃ b, (performAll env k P true).out = .ok b) → ∃ b, x.expr.eval env (some k.ctx) = .ok ⟨some .bool, .bool b⟩) (b0 : Bool) :
    (∀ x, (performAll env k cs b0).out ≠ .crash x) ∧
    ∀ m ∈ (performAll env k cs b0).calls, ∃ c ∈ cs, Fails env k.ctx c ∧ MessageOf k c m := by
  have okb : ∀ (A : List Check) (b b' : Bool), (∃ x, (performAll env k A b).out = .ok x) → ∃ x, (performAll env k A b').out = .ok x := by
    intro A
    induction A with
    | nil => exact fun b b' _ => ⟨b', rfl⟩
    | cons c A ih =>
      rintro b b' ⟨x, h⟩
      simp only [performAll, CR.bind] at h ⊢
      cases hc : (performCheck env k c).out with
      | ok a => rw [hc] at h; exact ih _ _ ⟨x, h⟩
      | raised => rw [hc] at h; cases h
      | crash y => rw [hc] at h; cases h
  have main : ∀ (B A : List Check) (b : Bool), cs = A ++ B → (∃ b, (performAll env k A true).out = .ok b) →
      (∀ x, (performAll env k B b).out ≠ .crash x) ∧
      ∀ m ∈ (performAll env k B b).calls, ∃ c ∈ B, Fails env k.ctx c ∧ MessageOf k c m := by
    intro B
    induction B with
    | nil => intro A b _ _; simp [performAll, CR.pure]
    | cons c B ih =>
      intro A b hA hr
      obtain ⟨v, hev⟩ := hv A c B hA hr
      have hloc : Anchored k c (c.location k) := by
        unfold Anchored Check.location
        cases c.anchor <;> simp
      have step : ∀ a, (performCheck env k c).out = .ok a → ∃ b, (performAll env k (A ++ [c]) true).out = .ok b := by
        intro a ha
        obtain ⟨x, hx⟩ := hr
        rw [performAll_app]
        simp only [CR.bind, hx, performAll, ha, CR.pure]
        exact ⟨_, rfl⟩
      have hc : (∀ x, (performCheck env k c).out ≠ .crash x) ∧
          ∀ m ∈ (performCheck env k c).calls, Fails env k.ctx c ∧ MessageOf k c m := by
        unfold performCheck
        rw [hev]
        cases v with
        | true => simp [CR.pure]
        | false =>
          have hf : Fails env k.ctx c := ⟨_, hev⟩
          cases hs : c.sev <;> simp only [List.mem_singleton, forall_eq, MessageOf, hs] <;>
            exact ⟨by simp, hf, _, hloc, rfl⟩
      simp only [performAll, CR.bind]
      cases ho : (performCheck env k c).out with
      | ok a =>
        obtain ⟨h1, h2⟩ := ih (A ++ [c]) (b && a) (by rw [hA]; simp) (step a ho)
        refine ⟨h1, fun m hm => ?_⟩
        rcases List.mem_append.1 hm with hm | hm
        · exact ⟨c, List.mem_cons_self, hc.2 m hm⟩
        · obtain ⟨d, hd, h⟩ := h2 m hm
          exact ⟨d, List.mem_cons_of_mem _ hd, h⟩
      | raised => exact ⟨by simp, fun m hm => ⟨c, List.mem_cons_self, hc.2 m hm⟩⟩
      | crash x => exact absurd ho (hc.1 x)
  exact main cs [] b0 rfl ⟨true, rfl⟩

private theorem record_core (hw : WorldOk E.decls infos) (he : EnumsFilled E.decls) (hh : HeapOk E.decls objTy heap)
    (hid : HeapIds heap) (hbd : HeapInBounds heap) (hC : ChecksExact E C)
    {o t : Nat} {fs : Fields} (hto : objTy o = some t) (hfs : heap o = some fs)
    (hg : ObjectGranted E.decls objTy C ⟨heap, E.rx⟩ fs t)
    (frozen : Nat → String → Option FExpr)
    (hfz : ∀ a, Extends E.decls t a → ∀ n e, frozen a n = some e → ∃ x, fs.lookup n = some x ∧ x.expr = e)
    (hv : ∀ a, Extends E.decls t a → Clean E C (recordVcg E.decls C (frozen a) a))
    (hord : (iterChecks E.decls C E.decls.recs.length t).Pairwise FatalFirst)
    (comp : Composite) (hctx : comp.ctx = recordCtx fs)
    (P Q : List Check) (k : Check) (hs : iterChecks E.decls C E.decls.recs.length t = P ++ k :: Q)
    (hr : ∃ b, (performAll ⟨heap, E.rx⟩ comp P true).out = .ok b) :
    ∃ b, strict ⟨heap, E.rx⟩ (recordCtx fs) k.expr = some ⟨some .bool, .bool b⟩ ∧
      ((∀ a G, Extends E.decls t a → k ∈ C.ofRec a → graphOf E C (recordVcg E.decls C (frozen a) a) G → NeverFalse E.decls G k.expr) →
        b = true) := by
  have key : ∀ (n : Nat) (P Q : List Check) (k : Check), P.length = n → iterChecks E.decls C E.decls.recs.length t = P ++ k :: Q →
      (∃ b, (performAll ⟨heap, E.rx⟩ comp P true).out = .ok b) →
      ∃ b, strict ⟨heap, E.rx⟩ (recordCtx fs) k.expr = some ⟨some .bool, .bool b⟩ ∧
        ((∀ a G, Extends E.decls t a → k ∈ C.ofRec a → graphOf E C (recordVcg E.decls C (frozen a) a) G → NeverFalse E.decls G k.expr) →
          b = true) := by
    intro n
    induction n using Nat.strong_induction_on with
    | _ n ih =>
      intro P Q k hn hs hr
      have before : ∀ x ∈ P, ∃ b, strict ⟨heap, E.rx⟩ (recordCtx fs) x.expr = some ⟨some .bool, .bool b⟩ := by
        intro x hx
        obtain ⟨A, B, rfl⟩ := List.append_of_mem hx
        obtain ⟨b, hb⟩ := hr
        obtain ⟨b', hb', -⟩ := ih A.length (by simp at hn; omega) A (B ++ k :: Q) x rfl (by rw [hs]; simp) (performAll_append hb)
        exact ⟨b', hb'⟩
      rw [iter_marked hw.wf] at hs hord
      obtain ⟨a, P', Q', hext, hm, hP, hQ, hown⟩ := marked_split hw.wf t hs
      obtain ⟨G, hG, hver⟩ := hv a hext
      obtain ⟨pre, post, hpre, hmem⟩ := order_split (P := P') (Q := Q') (b := true) (k := k)
      have hnn : ∀ k ∈ E.decls.allComponents a, ∀ e, frozen a k.name = some e → e ≠ .inull := by
        have hG' := hG
        simp only [graphOf, vcgGraph, trm_bind, trm_lift] at hG'
        obtain ⟨ss, s0, ⟨hss, -⟩, -⟩ := hG'
        exact preamble_frozen hss
      have hmP : ∀ x ∈ P', x.2 ∈ P := fun x hx => hP ▸ List.mem_map_of_mem hx
      obtain ⟨b, hb, hnf⟩ := vcg_sound (W := worldOf E hw he hh hid) (C := C) (v := recordVcg E.decls C (frozen a) a) hbd hG
        (start_record hw he hh hid hC hbd hto hfs hg hext (hfz a hext) hnn) (fit_marked hw he hh hid hC)
        (by show vcgOrder (markedChecks E.decls C a) = _; rw [hm]; exact hpre)
        (fun x hx => by
          rcases hmem x hx with h | h
          · exact .inr (before x.2 (hmP x h))
          · exact .inl ⟨hown x h.1, hver⟩)
        (.inl ⟨rfl, hver⟩)
        (fun x hx hfat => by
          have hxP : x.2 ∈ P := by
            rcases hmem x hx with h | ⟨h1, h2, h3⟩
            · exact hmP x h
            · rw [hs, List.pairwise_append, List.pairwise_cons] at hord
              have := hord.2.1.1 x.2 (hQ.subset (List.mem_map_of_mem h1)) h2 hfat
              rw [h3] at this
              cases this
          obtain ⟨b, hb⟩ := before x.2 hxP
          obtain ⟨r, hr⟩ := hr
          obtain ⟨v, hv1, hv2⟩ := performAll_fatal hr x.2 hxP hfat
          have := strict_eval ⟨heap, E.rx⟩ _ _ _ hb
          rw [hctx, this] at hv1
          cases hv1
          cases hv2
          exact hb)
      refine ⟨b, hb, fun h => hnf rfl (h a G hext ?_ hG)⟩
      have hin : (true, k) ∈ markedChecks E.decls C a := by rw [hm]; simp
      simp only [markedChecks, List.mem_flatMap, List.mem_map, Prod.mk.injEq, decide_eq_true_eq] at hin
      obtain ⟨b, -, k', hk', rfl, rfl⟩ := hin
      exact hk'
  exact key P.length P Q k rfl hs hr

/-- **C76, checks of record objects**: if nothing was reported for the type of an object and the
types it extends, then performing the checks of the object raises no internal exception, and every
message is the message of a check that is false: no check evaluates to null or with an error.

Missing from C76: see `C76_full`. -/
theorem C76_record_partial (hw : WorldOk E.decls infos) (he : EnumsFilled E.decls) (hh : HeapOk E.decls objTy heap)
    (hid : HeapIds heap) (hbd : HeapInBounds heap) (hC : ChecksExact E C)
    {o t : Nat} {fs : Fields} (hto : objTy o = some t) (hfs : heap o = some fs)
    (hg : ObjectGranted E.decls objTy C ⟨heap, E.rx⟩ fs t)
    (frozen : Nat → String → Option FExpr)
    (hfz : ∀ a, Extends E.decls t a → ∀ n e, frozen a n = some e → ∃ x, fs.lookup n = some x ∧ x.expr = e)
    (hv : ∀ a, Extends E.decls t a → Clean E C (recordVcg E.decls C (frozen a) a))
    (hord : (iterChecks E.decls C E.decls.recs.length t).Pairwise FatalFirst)
    (comp : Composite) (hctx : comp.ctx = recordCtx fs) (b0 : Bool) :
    (∀ x, (performAll ⟨heap, E.rx⟩ comp (iterChecks E.decls C E.decls.recs.length t) b0).out ≠ .crash x) ∧
    ∀ m ∈ (performAll ⟨heap, E.rx⟩ comp (iterChecks E.decls C E.decls.recs.length t) b0).calls,
      ∃ c, AppliesTo E.decls C t c ∧ Fails ⟨heap, E.rx⟩ comp.ctx c ∧ MessageOf comp c m := by
  obtain ⟨h1, h2⟩ := performAll_defined (env := ⟨heap, E.rx⟩) (k := comp) (cs := iterChecks E.decls C E.decls.recs.length t)
    (fun P k Q hs hr => by
      obtain ⟨b, hb, -⟩ := record_core hw he hh hid hbd hC hto hfs hg frozen hfz hv hord comp hctx P Q k hs hr
      rw [hctx]
      exact ⟨b, strict_eval _ _ _ _ hb⟩) b0
  refine ⟨h1, fun m hm => ?_⟩
  obtain ⟨c, hc, h⟩ := h2 m hm
  exact ⟨c, (mem_iterChecks hw.wf C t c).1 hc, h⟩

/-- **C76, checks that are always true**: a check that is reported as always true, in a type for
which nothing else is reported, is true for every object for which it is evaluated.

Missing from C76: see `C76_full`. -/
theorem C76_always_true_partial (hw : WorldOk E.decls infos) (he : EnumsFilled E.decls) (hh : HeapOk E.decls objTy heap)
    (hid : HeapIds heap) (hbd : HeapInBounds heap) (hC : ChecksExact E C)
    {o t : Nat} {fs : Fields} (hto : objTy o = some t) (hfs : heap o = some fs)
    (hg : ObjectGranted E.decls objTy C ⟨heap, E.rx⟩ fs t)
    (frozen : Nat → String → Option FExpr)
    (hfz : ∀ a, Extends E.decls t a → ∀ n e, frozen a n = some e → ∃ x, fs.lookup n = some x ∧ x.expr = e)
    (hv : ∀ a, Extends E.decls t a → Clean E C (recordVcg E.decls C (frozen a) a))
    (hord : (iterChecks E.decls C E.decls.recs.length t).Pairwise FatalFirst)
    (comp : Composite) (hctx : comp.ctx = recordCtx fs)
    (P Q : List Check) (k : Check) (hs : iterChecks E.decls C E.decls.recs.length t = P ++ k :: Q)
    (hr : ∃ b, (performAll ⟨heap, E.rx⟩ comp P true).out = .ok b)
    (hnf : ∀ a G, Extends E.decls t a → k ∈ C.ofRec a → graphOf E C (recordVcg E.decls C (frozen a) a) G → NeverFalse E.decls G k.expr) :
    Holds ⟨heap, E.rx⟩ comp.ctx k := by
  obtain ⟨b, hb, ht⟩ := record_core hw he hh hid hbd hC hto hfs hg frozen hfz hv hord comp hctx P Q k hs hr
  rw [ht hnf] at hb
  rw [hctx]
  exact ⟨_, strict_eval _ _ _ _ hb⟩

/-! ## Tuples -/

/-- What is taken for granted about the fields of a tuple -/
def TupleGranted (E : ElEnv) (objTy : Nat → Option Nat) (C : CheckTab) (env : EvEnv) (fs : List (String × FExpr)) (t : Nat) : Prop :=
  ∀ c ∈ E.decls.fields t, ∀ fe, fs.lookup c.name = some fe →
    (fe ≠ .inull → Granted C env c.ty fe) ∧
    (fe = .inull → ((∃ u, c.ty = .tup u) ∨ ∃ id e lo hi, c.ty = .arr id e lo hi) → ∃ fe', FOk E.decls objTy fe' c.ty ∧ Granted C env c.ty fe')

private theorem start_tuple (hw : WorldOk E.decls infos) (he : EnumsFilled E.decls) (hh : HeapOk E.decls objTy heap)
    (hid : HeapIds heap) (hC : ChecksExact E C) {t : Nat} {fs : List (String × FExpr)}
    (hok : FOk E.decls objTy (.tup t fs) (.tup t)) (hib : ∀ n fe, fs.lookup n = some fe → InBounds heap fe)
    (hg : TupleGranted E objTy C ⟨heap, E.rx⟩ fs t) :
    Start (worldOf E hw he hh hid) C (tupleVcg E.decls C t) fs := by
  simp only [FOk, true_and] at hok
  obtain ⟨cs, hcs, hf⟩ := hok
  have hfields : E.decls.fields t = cs := by simp [Decls.fields, hcs]
  have hnd := fields_names hw.tuples t
  have hfind : ∀ k ∈ E.decls.fields t, ∃ fe, fs.lookup k.name = some fe ∧
      ((k.optional = true ∧ fe = .inull) ∨ FOk E.decls objTy fe k.ty) := by
    intro k hk
    exact fields_find hf k.name (hfields ▸ find_of_mem hnd hk)
  refine ⟨hnd, fun k hk => ?_, fun k hk => (habitable hw.tuples he).1 t k hk, fun k hk hl xs hxs hne => ?_,
    fun k hk e hke => by simp [tupleVcg] at hke, fun k _ u _ x hx _ => (fit_tuple hw he hh hid hC hx).1, hib⟩
  · obtain ⟨fe, h2, h3⟩ := hfind k hk
    refine ⟨fe, h2, h3.imp id fun h3 => ⟨h3, (hg k hk fe h2).1 ?_⟩⟩
    rintro rfl
    simp [FOk] at h3
  · refine (hg k hk _ hl).2 rfl ?_
    cases hty : k.ty <;> simp only [compConstraints, hty, FR.ok.injEq] at hxs
    case tup u => exact .inl ⟨u, rfl⟩
    case arr id e lo hi => exact .inr ⟨id, e, lo, hi, rfl⟩
    all_goals exact absurd hxs.symm hne

private theorem tuple_core (hw : WorldOk E.decls infos) (he : EnumsFilled E.decls) (hh : HeapOk E.decls objTy heap)
    (hid : HeapIds heap) (hbd : HeapInBounds heap) (hC : ChecksExact E C) {t : Nat} {fs : List (String × FExpr)}
    (hok : FOk E.decls objTy (.tup t fs) (.tup t)) (hib : ∀ n fe, fs.lookup n = some fe → InBounds heap fe)
    (hg : TupleGranted E objTy C ⟨heap, E.rx⟩ fs t) (hv : Clean E C (tupleVcg E.decls C t))
    (hord : (C.ofTup t).Pairwise FatalFirst) (comp : Composite) (hctx : comp.ctx = fs)
    (P Q : List Check) (k : Check) (hs : C.ofTup t = P ++ k :: Q)
    (hr : ∃ b, (performAll ⟨heap, E.rx⟩ comp P true).out = .ok b) :
    ∃ b, strict ⟨heap, E.rx⟩ fs k.expr = some ⟨some .bool, .bool b⟩ ∧
      ((∀ G, graphOf E C (tupleVcg E.decls C t) G → NeverFalse E.decls G k.expr) → b = true) := by
  obtain ⟨G, hG, hver⟩ := hv
  have hm : (tupleVcg E.decls C t).checks = P.map (fun c => (true, c)) ++ (true, k) :: Q.map fun c => (true, c) := by
    simp [tupleVcg, hs]
  have key : ∀ (n : Nat) (P Q : List Check) (k : Check), P.length = n → C.ofTup t = P ++ k :: Q →
      (∃ b, (performAll ⟨heap, E.rx⟩ comp P true).out = .ok b) →
      ∃ b, strict ⟨heap, E.rx⟩ fs k.expr = some ⟨some .bool, .bool b⟩ ∧
        ((∀ G, graphOf E C (tupleVcg E.decls C t) G → NeverFalse E.decls G k.expr) → b = true) := by
    intro n
    induction n using Nat.strong_induction_on with
    | _ n ih =>
      intro P Q k hn hs hr
      have before : ∀ x ∈ P, ∃ b, strict ⟨heap, E.rx⟩ fs x.expr = some ⟨some .bool, .bool b⟩ := by
        intro x hx
        obtain ⟨A, B, rfl⟩ := List.append_of_mem hx
        obtain ⟨b, hb⟩ := hr
        obtain ⟨b', hb', -⟩ := ih A.length (by simp at hn; omega) A (B ++ k :: Q) x rfl (by rw [hs]; simp) (performAll_append hb)
        exact ⟨b', hb'⟩
      have hm : (tupleVcg E.decls C t).checks = P.map (fun c => (true, c)) ++ (true, k) :: Q.map fun c => (true, c) := by
        simp [tupleVcg, hs]
      obtain ⟨pre, post, hpre, hmem⟩ := order_split (P := P.map fun c => (true, c)) (Q := Q.map fun c => (true, c)) (b := true) (k := k)
      obtain ⟨b, hb, hnf⟩ := vcg_sound (W := worldOf E hw he hh hid) (C := C) (v := tupleVcg E.decls C t) hbd hG
        (start_tuple hw he hh hid hC hok hib hg)
        (fun x hx => by
          simp only [tupleVcg, List.mem_map] at hx
          obtain ⟨c, hc, rfl⟩ := hx
          exact fit_tuple hw he hh hid hC hc)
        (by rw [hm]; exact hpre)
        (fun x hx => by
          refine .inl ⟨?_, hver⟩
          rcases hmem x hx with h | h
          · obtain ⟨c, -, rfl⟩ := List.mem_map.1 h; rfl
          · obtain ⟨c, -, rfl⟩ := List.mem_map.1 h.1; rfl)
        (.inl ⟨rfl, hver⟩)
        (fun x hx hfat => by
          have hxP : x.2 ∈ P := by
            rcases hmem x hx with h | ⟨h1, h2, h3⟩
            · obtain ⟨c, hc, rfl⟩ := List.mem_map.1 h; exact hc
            · obtain ⟨c, hc, rfl⟩ := List.mem_map.1 h1
              rw [hs, List.pairwise_append, List.pairwise_cons] at hord
              have := hord.2.1.1 c hc h2 hfat
              simp only at h3
              rw [h3] at this
              cases this
          obtain ⟨b, hb⟩ := before x.2 hxP
          obtain ⟨r, hr⟩ := hr
          obtain ⟨v, hv1, hv2⟩ := performAll_fatal hr x.2 hxP hfat
          have := strict_eval ⟨heap, E.rx⟩ _ _ _ hb
          rw [hctx, this] at hv1
          cases hv1
          cases hv2
          exact hb)
      exact ⟨b, hb, fun h => hnf rfl (h G hG)⟩
  exact key P.length P Q k rfl hs hr

/-- **C76, checks of tuple values**: the same for tuples: if nothing was reported for the tuple type,
no check of a tuple of this type evaluates to null or with an error.

Missing from C76: see `C76_full`. -/
theorem C76_tuple_partial (hw : WorldOk E.decls infos) (he : EnumsFilled E.decls) (hh : HeapOk E.decls objTy heap)
    (hid : HeapIds heap) (hbd : HeapInBounds heap) (hC : ChecksExact E C) {t : Nat} {fs : List (String × FExpr)}
    (hok : FOk E.decls objTy (.tup t fs) (.tup t)) (hib : ∀ n fe, fs.lookup n = some fe → InBounds heap fe)
    (hg : TupleGranted E objTy C ⟨heap, E.rx⟩ fs t) (hv : Clean E C (tupleVcg E.decls C t))
    (hord : (C.ofTup t).Pairwise FatalFirst) (comp : Composite) (hctx : comp.ctx = fs) (b0 : Bool) :
    (∀ x, (performAll ⟨heap, E.rx⟩ comp (C.ofTup t) b0).out ≠ .crash x) ∧
    ∀ m ∈ (performAll ⟨heap, E.rx⟩ comp (C.ofTup t) b0).calls,
      ∃ c, TupleCheck C t c ∧ Fails ⟨heap, E.rx⟩ fs c ∧ MessageOf comp c m := by
  obtain ⟨h1, h2⟩ := performAll_defined (env := ⟨heap, E.rx⟩) (k := comp) (cs := C.ofTup t)
    (fun P k Q hs hr => by
      obtain ⟨b, hb, -⟩ := tuple_core hw he hh hid hbd hC hok hib hg hv hord comp hctx P Q k hs hr
      rw [hctx]
      exact ⟨b, strict_eval _ _ _ _ hb⟩) b0
  refine ⟨h1, fun m hm => ?_⟩
  obtain ⟨c, hc, h3, h4⟩ := h2 m hm
  exact ⟨c, (mem_ofTup C t c).1 hc, hctx ▸ h3, h4⟩

/-! ## Objects with their tuples -/

/-- no internal exception, all messages as described, and if checking continues then without failure -/
private def Fair (r : CR Bool) (M : MHCall → Prop) (P : Prop) : Prop :=
  (∀ x, r.out ≠ .crash x) ∧ (∀ m ∈ r.calls, M m) ∧ ∀ b, r.out = .ok b → b = true ∧ P

private theorem Fair.mono {r : CR Bool} {M M' : MHCall → Prop} {P P' : Prop} (h : Fair r M P) (hM : ∀ m, M m → M' m) (hP : P → P') :
    Fair r M' P' :=
  ⟨h.1, fun m hm => hM m (h.2.1 m hm), fun b hb => ⟨(h.2.2 b hb).1, hP (h.2.2 b hb).2⟩⟩

private theorem Fair.bind {r : CR Bool} {f : Bool → CR Bool} {M : MHCall → Prop} {P Q : Prop} (h : Fair r M P)
    (hf : P → Fair (f true) M Q) : Fair (r.bind f) M (P ∧ Q) := by
  obtain ⟨h1, h2, h3⟩ := h
  unfold CR.bind
  cases ho : r.out with
  | ok b =>
    obtain ⟨rfl, hp⟩ := h3 b ho
    obtain ⟨g1, g2, g3⟩ := hf hp
    refine ⟨g1, fun m hm => ?_, fun b hb => ⟨(g3 b hb).1, hp, (g3 b hb).2⟩⟩
    rcases List.mem_append.1 hm with hm | hm
    · exact h2 m hm
    · exact g2 m hm
  | raised => exact ⟨by simp, h2, by simp⟩
  | crash x => exact absurd ho (h1 x)

/-- all checks of a tuple that are not warnings are true -/
private def TupleTrue (C : CheckTab) (env : EvEnv) (u : Nat) (gs : List (String × FExpr)) : Prop :=
  ∀ c ∈ C.ofTup u, c.sev ≠ .warning → strict env gs c.expr = some tvTrue

/-- a message about a check that is false for a tuple in the value -/
def TupleMessage (C : CheckTab) (env : EvEnv) (v : FExpr) (m : MHCall) : Prop :=
  ∃ u gs c, DirectTuple v u gs ∧ TupleCheck C u c ∧ Fails env gs c ∧ MessageOf (tupleComposite gs) c m

private theorem fair_all {env : EvEnv} {k : Composite} {cs : List Check} (hv : ∀ P x Q, cs = P ++ x :: Q →
      (∃ b, (performAll env k P true).out = .ok b) → ∃ b, strict env k.ctx x.expr = some ⟨some .bool, .bool b⟩)
    (hne : ∀ c ∈ cs, c.sev = .error → ¬ Fails env k.ctx c) :
    Fair (performAll env k cs true) (fun m => ∃ c ∈ cs, Fails env k.ctx c ∧ MessageOf k c m)
      (∀ c ∈ cs, c.sev ≠ .warning → strict env k.ctx c.expr = some tvTrue) := by
  obtain ⟨h1, h2⟩ := performAll_defined (env := env) (k := k) (cs := cs) (fun P x Q h hr => by
    obtain ⟨b, hb⟩ := hv P x Q h hr
    exact ⟨b, strict_eval _ _ _ _ hb⟩) true
  refine ⟨h1, h2, fun b hb => ⟨?_, fun c hc hs => ?_⟩⟩
  · have : ∀ (cs : List Check), (∀ c ∈ cs, c.sev = .error → ¬ Fails env k.ctx c) → ∀ b, (performAll env k cs true).out = .ok b → b = true := by
      intro cs
      induction cs with
      | nil => intro _ b h; simp only [performAll, CR.pure, CEnd.ok.injEq] at h; exact h.symm
      | cons c cs ih =>
        intro hne b h
        simp only [performAll, CR.bind] at h
        cases ho : (performCheck env k c).out with
        | raised => rw [ho] at h; cases h
        | crash => rw [ho] at h; cases h
        | ok a =>
          rw [ho] at h
          have : a = true := by
            unfold performCheck at ho
            split at ho
            · cases ho
            · cases ho
            · next v hv =>
              split at ho
              · cases ho
              · simp only [CR.pure, CEnd.ok.injEq] at ho; exact ho.symm
              · next hf =>
                split at ho
                · simp only [CEnd.ok.injEq] at ho; exact ho.symm
                · next hs => exact absurd ⟨v.typ, by rw [hv, ← hf]⟩ (hne c List.mem_cons_self hs)
                · cases ho
              · cases ho
          subst this
          exact ih (fun c hc => hne c (List.mem_cons_of_mem _ hc)) b h
    exact this cs hne b hb
  · obtain ⟨A, B, rfl⟩ := List.append_of_mem hc
    obtain ⟨b', hb'⟩ := hv A c B rfl (performAll_append hb)
    cases b' with
    | true => exact hb'
    | false =>
      have hev := strict_eval _ _ _ _ hb'
      cases hsev : c.sev with
      | warning => exact absurd hsev hs
      | error => exact absurd ⟨_, hev⟩ (hne c hc hsev)
      | fatal =>
        obtain ⟨v, hv1, hv2⟩ := performAll_fatal hb c hc hsev
        rw [hev] at hv1
        cases hv1
        cases hv2

/-- the checks of a tuple that are reached have a value, and those of severity `error` hold -/
private def TupleReady (C : CheckTab) (env : EvEnv) (v : FExpr) : Prop :=
  ∀ u gs, DirectTuple v u gs →
    (∀ P x Q, C.ofTup u = P ++ x :: Q → (∃ b, (performAll env (tupleComposite gs) P true).out = .ok b) →
      ∃ b, strict env gs x.expr = some ⟨some .bool, .bool b⟩) ∧
    ∀ c, TupleCheck C u c → c.sev = .error → ¬ Fails env gs c

mutual
private theorem fair_type {D : Decls} {objTy : Nat → Option Nat} (C : CheckTab) (env : EvEnv) (τ : Ty) :
    ∀ v : FExpr, (v = .inull ∨ FOk D objTy v τ) → TupleReady C env v →
      Fair (performType C env τ v) (TupleMessage C env v) (∀ u gs, DirectTuple v u gs → TupleTrue C env u gs)
  | .tup t fs, h, hj => by
    rcases h with h | h
    · cases h
    · simp only [FOk] at h
      obtain ⟨rfl, -⟩ := h
      simp only [performType]
      obtain ⟨h1, h2⟩ := hj t fs .here
      refine (fair_all (k := tupleComposite fs) h1 fun c hc => h2 c ((mem_ofTup C t c).1 hc)).mono ?_ ?_
      · rintro m ⟨c, hc, hf, hm⟩
        exact ⟨t, fs, c, .here, (mem_ofTup C t c).1 hc, hf, hm⟩
      · intro h u gs hd
        cases hd
        exact h
  | .arr t es, h, hj => by
    rcases h with h | h
    · cases h
    · simp only [FOk] at h
      obtain ⟨rfl, id, elem, lo, hi, rfl, hall⟩ := h
      simp only [performType]
      refine (fair_elems C env elem es hall fun e he u gs hd => hj u gs (.elem he hd)).mono ?_ ?_
      · rintro m ⟨e, he, u, gs, c, hd, h⟩
        exact ⟨u, gs, c, .elem he hd, h⟩
      · intro h u gs hd
        cases hd with
        | elem he hd => exact h _ he u gs hd
  | .inull, _, _ => by
    have : performType C env τ .inull = .pure true := by cases τ <;> simp [performType]
    rw [this]
    exact ⟨by simp [CR.pure], by simp [CR.pure], fun b hb => ⟨by simpa [CR.pure] using hb.symm, fun u gs hd => by cases hd⟩⟩
  | .bool _, h, _ | .int _, h, _ | .dec _, h, _ | .str _, h, _ | .markup _, h, _ => by
    rcases h with h | h
    · cases h
    · simp only [FOk] at h
      subst h
      simp only [performType]
      exact ⟨by simp [CR.pure], by simp [CR.pure], fun b hb => ⟨by simpa [CR.pure] using hb.symm, fun u gs hd => by cases hd⟩⟩
  | .enum t l, h, _ => by
    rcases h with h | h
    · cases h
    · simp only [FOk] at h
      obtain ⟨rfl, h⟩ := h
      simp only [performType]
      exact ⟨by simp [CR.pure], by simp [CR.pure], fun b hb => ⟨by simpa [CR.pure] using hb.symm, fun u gs hd => by cases hd⟩⟩
  | .ref t o, h, _ => by
    rcases h with h | h
    · cases h
    · simp only [FOk] at h
      obtain ⟨rfl, -, u, -, -, h⟩ := h
      have : performType C env τ (.ref τ o) = .pure true := by
        revert h
        cases τ <;> simp [performType, Referable]
      rw [this]
      exact ⟨by simp [CR.pure], by simp [CR.pure], fun b hb => ⟨by simpa [CR.pure] using hb.symm, fun u gs hd => by cases hd⟩⟩
  | .neg _, h, _ | .pos _, h, _ => by
    rcases h with h | h
    · cases h
    · simp only [FOk] at h
      rcases h with ⟨rfl, -⟩ | ⟨rfl, -⟩ <;> simp only [performType] <;>
      exact ⟨by simp [CR.pure], by simp [CR.pure], fun b hb => ⟨by simpa [CR.pure] using hb.symm, fun u gs hd => by cases hd⟩⟩

private theorem fair_elems {D : Decls} {objTy : Nat → Option Nat} (C : CheckTab) (env : EvEnv) (elem : Ty) :
    ∀ es : List FExpr, AllOk D objTy es elem → (∀ e ∈ es, TupleReady C env e) →
      Fair (performElems C env elem es) (fun m => ∃ e ∈ es, TupleMessage C env e m)
        (∀ e ∈ es, ∀ u gs, DirectTuple e u gs → TupleTrue C env u gs)
  | [], _, _ => ⟨by simp [performElems, CR.pure], by simp [performElems, CR.pure],
      fun b hb => ⟨by simpa [performElems, CR.pure] using hb.symm, by simp⟩⟩
  | v :: vs, h, hj => by
    simp only [AllOk] at h
    simp only [performElems]
    refine (((fair_type C env elem v (.inr h.1) (hj v List.mem_cons_self)).mono
      (M' := fun m => ∃ e ∈ v :: vs, TupleMessage C env e m) (fun m hm => ⟨v, List.mem_cons_self, hm⟩) id).bind
      (f := fun b => if b = true then performElems C env elem vs else .pure false)
      (Q := ∀ e ∈ vs, ∀ u gs, DirectTuple e u gs → TupleTrue C env u gs) (fun _ => ?_)).mono (fun m hm => hm) ?_
    · simp only [if_true]
      refine (fair_elems C env elem vs h.2 fun e he => hj e (List.mem_cons_of_mem _ he)).mono ?_ id
      rintro m ⟨e, he, hm⟩
      exact ⟨e, List.mem_cons_of_mem _ he, hm⟩
    · rintro ⟨h1, h2⟩ e he
      rcases List.mem_cons.1 he with rfl | he
      · exact h1
      · exact h2 e he
end

private theorem fair_comps {D : Decls} {objTy : Nat → Option Nat} (C : CheckTab) (env : EvEnv) (fs : Fields) (cs : List Comp)
    (h : ∀ c ∈ cs, ∃ n, fs.lookup c.name = some n ∧ (n.expr = .inull ∨ FOk D objTy n.expr c.ty) ∧ TupleReady C env n.expr) :
    Fair (performComps C env fs cs true) (fun m => ∃ k n, fs.lookup k = some n ∧ TupleMessage C env n.expr m)
      (∀ c ∈ cs, ∀ n, fs.lookup c.name = some n → ∀ u gs, DirectTuple n.expr u gs → TupleTrue C env u gs) := by
  induction cs with
  | nil => exact ⟨by simp [performComps, CR.pure], by simp [performComps, CR.pure],
      fun b hb => ⟨by simpa [performComps, CR.pure] using hb.symm, by simp⟩⟩
  | cons c cs ih =>
    obtain ⟨n, hn, hv, hj⟩ := h c List.mem_cons_self
    simp only [performComps, hn]
    refine (((fair_type C env c.ty n.expr hv hj).mono (fun m hm => ⟨c.name, n, hn, hm⟩) id).bind
      (f := fun b => performComps C env fs cs (true && b)) (fun _ => ih fun c hc => h c (List.mem_cons_of_mem _ hc))).mono (fun m hm => hm) ?_
    rintro ⟨h1, h2⟩ d hd
    rcases List.mem_cons.1 hd with rfl | hd
    · intro n' hn'
      rw [hn] at hn'
      cases hn'
      exact h1
    · exact h2 d hd

/-- What is taken for granted about the value of a component, apart from the checks of tuples: the length of
an array is within its bounds, and the null fields of a tuple come last. -/
def Shaped : Ty → FExpr → Prop
  | .arr _ _ lo hi, .arr _ es => lo ≤ es.length ∧ ∀ u, hi = some u → es.length ≤ u
  | .tup _, .tup _ fs => NullsLast fs
  | _, _ => True

/-- **C76, an object with its tuples**: if nothing was reported for the type of the object, the types it
extends, and the types of the tuples in its components, then performing all checks of the object raises
no internal exception, and every message is the message of a check that is false for the object or one of
these tuples.

Missing from C76: a tuple check of severity `error` may fail (`C76_tuple_error`), the constraints of
components that are null are assumed nevertheless, the bounds of arrays are not enforced, and the phases
of the analysis are in another order than the evaluation (`FatalFirst`). -/
theorem C76_object_partial (hw : WorldOk E.decls infos) (he : EnumsFilled E.decls) (hh : HeapOk E.decls objTy heap)
    (hid : HeapIds heap) (hbd : HeapInBounds heap) (hC : ChecksExact E C)
    {o t : Nat} {fs : Fields} (hto : objTy o = some t) (hfs : heap o = some fs)
    -- values
    (hsh : ∀ c, HasComp E.decls t c → ∀ n, fs.lookup c.name = some n → Shaped c.ty n.expr ∧
      (n.expr = .inull → ((∃ u, c.ty = .tup u) ∨ ∃ id e lo hi, c.ty = .arr id e lo hi) →
        ∃ fe, FOk E.decls objTy fe c.ty ∧ Granted C ⟨heap, E.rx⟩ c.ty fe))
    (htg : ∀ n x, fs.lookup n = some x → ∀ u gs, DirectTuple x.expr u gs →
      TupleGranted E objTy C ⟨heap, E.rx⟩ gs u ∧ (∀ n fe, gs.lookup n = some fe → InBounds heap fe) ∧
      ∀ c, TupleCheck C u c → c.sev = .error → ¬ Fails ⟨heap, E.rx⟩ gs c)
    (frozen : Nat → String → Option FExpr)
    (hfz : ∀ a, Extends E.decls t a → ∀ n e, frozen a n = some e → ∃ x, fs.lookup n = some x ∧ x.expr = e)
    -- analysis
    (hv : ∀ a, Extends E.decls t a → Clean E C (recordVcg E.decls C (frozen a) a))
    (hvt : ∀ u cs, E.decls.tups[u]? = some cs → Clean E C (tupleVcg E.decls C u))
    (hord : (iterChecks E.decls C E.decls.recs.length t).Pairwise FatalFirst)
    (hordt : ∀ u, (C.ofTup u).Pairwise FatalFirst)
    (loc : String) (fieldLoc : String → String) :
    (∀ x, (performObject E.decls C ⟨heap, E.rx⟩ fs loc fieldLoc t).out ≠ .crash x) ∧
    ∀ m ∈ (performObject E.decls C ⟨heap, E.rx⟩ fs loc fieldLoc t).calls,
      (∃ c, AppliesTo E.decls C t c ∧ Fails ⟨heap, E.rx⟩ (recordCtx fs) c ∧ MessageOf (recordComposite fs loc fieldLoc) c m) ∨
      ∃ k n, fs.lookup k = some n ∧ TupleMessage C ⟨heap, E.rx⟩ n.expr m := by
  obtain ⟨fs', h1, ho⟩ := hh o t hto
  rw [hfs] at h1
  cases h1
  have ready : ∀ c, HasComp E.decls t c → ∃ n, fs.lookup c.name = some n ∧
      (n.expr = .inull ∨ FOk E.decls objTy n.expr c.ty) ∧ TupleReady C ⟨heap, E.rx⟩ n.expr := by
    intro c hc
    obtain ⟨n, hn, hnv⟩ := ho.1 c hc
    refine ⟨n, hn, hnv.imp (·.2) id, fun u gs hd => ?_⟩
    obtain ⟨h2, h3, h4⟩ := htg _ _ hn u gs hd
    refine ⟨fun P x Q hs hr => ?_, h4⟩
    have hv' : FOk E.decls objTy n.expr c.ty := by
      rcases hnv with ⟨-, hnv⟩ | hnv
      · rw [hnv] at hd; cases hd
      · exact hnv
    obtain ⟨cs, hcs, hf⟩ := directTuple_ok hd hv'
    obtain ⟨b, hb, -⟩ := tuple_core hw he hh hid hbd hC (t := u) (fs := gs) (by simp only [FOk]; exact ⟨trivial, cs, hcs, hf⟩) h3 h2 (hvt u cs hcs) (hordt u)
      (tupleComposite gs) rfl P Q x hs hr
    exact ⟨b, hb⟩
  have hcomps := fair_comps (D := E.decls) (objTy := objTy) C ⟨heap, E.rx⟩ fs (E.decls.allComponents t)
    (fun c hc => ready c ((mem_allComponents hw.wf t c).1 hc))
  obtain ⟨g1, g2, g3⟩ := hcomps
  unfold performObject CR.bind
  cases hout : (performComps C ⟨heap, E.rx⟩ fs (E.decls.allComponents t) true).out with
  | raised => exact ⟨by simp, fun m hm => .inr (g2 m hm)⟩
  | crash x => exact absurd hout (g1 x)
  | ok b =>
    obtain ⟨rfl, htrue⟩ := g3 b hout
    have hg : ObjectGranted E.decls objTy C ⟨heap, E.rx⟩ fs t := by
      intro c hc n hn
      refine ⟨fun hne => ?_, (hsh c hc n hn).2⟩
      have hs := (hsh c hc n hn).1
      have ht := htrue c ((mem_allComponents hw.wf t c).2 hc) n hn
      unfold Granted
      unfold Shaped at hs
      cases hty : c.ty <;> rw [hty] at hs <;> cases hex : n.expr <;> rw [hex] at hs ht <;> try trivial
      next u u' gs =>
        obtain ⟨n', hn', hok⟩ := ho.1 c hc
        rw [hn] at hn'
        cases hn'
        have : u = u' := by
          rcases hok with ⟨-, h⟩ | h
          · exact absurd h hne
          · rw [hex, hty] at h
            simp only [FOk, Ty.tup.injEq] at h
            exact h.1
        subst this
        exact ⟨ht u gs .here, hs⟩
    obtain ⟨k1, k2⟩ := C76_record_partial hw he hh hid hbd hC hto hfs hg frozen hfz hv hord (recordComposite fs loc fieldLoc) rfl true
    refine ⟨k1, fun m hm => ?_⟩
    rcases List.mem_append.1 hm with hm | hm
    · exact .inr (g2 m hm)
    · exact .inl (k2 m hm)

end Verif.Props
