import Verif.Model.Parse.Object
/-!
# Rules for reasoning about pieces of the parser

`Sp R x s Q`: run in state `s`, `x` changes the state only as allowed by the relation `R`
(however it ends), never runs out of a loop bound and never accesses a key that is absent, and
establishes `Q` if it ends normally.
-/
namespace Verif.Lemmas
open Verif.Model

/-- Reflexive and transitive relations on parser states. -/
class PreRel (R : PS → PS → Prop) : Prop where
  refl : ∀ s, R s s
  trans : ∀ {a b c}, R a b → R b c → R a c

/-- See the head of this file. -/
def Sp {α : Type} (R : PS → PS → Prop) (x : P α) (s : PS) (Q : α → PS → Prop) : Prop :=
  match x s with
  | .ok a s' => R s s' ∧ Q a s'
  | .err s' => R s s'
  | .crash c s' => R s s' ∧ c ≠ .fuel ∧ c ≠ .keyError

variable {α β : Type} {R : PS → PS → Prop}

theorem Sp.ok {x : P α} {s : PS} {Q : α → PS → Prop} (h : Sp R x s Q) {a : α} {s' : PS}
    (e : x s = .ok a s') : R s s' ∧ Q a s' := by
  simpa [Sp, e] using h

theorem Sp.err {x : P α} {s : PS} {Q : α → PS → Prop} (h : Sp R x s Q) {s' : PS}
    (e : x s = .err s') : R s s' := by
  simpa [Sp, e] using h

theorem Sp.crash {x : P α} {s : PS} {Q : α → PS → Prop} (h : Sp R x s Q) {c : PCrash} {s' : PS}
    (e : x s = .crash c s') : R s s' ∧ c ≠ .fuel ∧ c ≠ .keyError := by
  simpa [Sp, e] using h

theorem Sp.rel {x : P α} {s : PS} {Q : α → PS → Prop} (h : Sp R x s Q) : R s (x s).state := by
  unfold Sp at h
  cases hx : x s <;> rw [hx] at h <;> simp_all [PR.state]

theorem Sp.mono {x : P α} {s : PS} {Q Q' : α → PS → Prop} (h : Sp R x s Q)
    (hq : ∀ a s', R s s' → Q a s' → Q' a s') : Sp R x s Q' := by
  unfold Sp at h ⊢
  cases hx : x s <;> rw [hx] at h <;> simp_all

theorem Sp.weaken {R' : PS → PS → Prop} {x : P α} {s : PS} {Q : α → PS → Prop} (h : Sp R x s Q)
    (hr : ∀ s', R s s' → R' s s') : Sp R' x s Q := by
  unfold Sp at h ⊢
  cases hx : x s <;> rw [hx] at h <;> simp_all

theorem Sp.and {x : P α} {s : PS} {Q Q' : α → PS → Prop} (h : Sp R x s Q) (h' : Sp R x s Q') :
    Sp R x s (fun a s' => Q a s' ∧ Q' a s') := by
  unfold Sp at h h' ⊢
  cases hx : x s <;> rw [hx] at h h' <;> simp_all

theorem bind_apply (x : P α) (f : α → P β) (s : PS) : (x >>= f) s =
    match x s with
    | .ok a s' => f a s'
    | .err s' => .err s'
    | .crash c s' => .crash c s' := rfl

theorem pure_apply (a : α) (s : PS) : (pure a : P α) s = .ok a s := rfl

theorem sp_bind [PreRel R] {x : P α} {f : α → P β} {s : PS} {Q : β → PS → Prop}
    (Q1 : α → PS → Prop) (hx : Sp R x s Q1)
    (hf : ∀ a s1, R s s1 → Q1 a s1 → Sp R (f a) s1 Q) : Sp R (x >>= f) s Q := by
  unfold Sp at hx ⊢
  rw [bind_apply]
  cases h : x s with
  | ok a s1 =>
    rw [h] at hx
    have h2 := hf a s1 hx.1 hx.2
    unfold Sp at h2
    simp only
    cases h3 : f a s1 <;> rw [h3] at h2 <;> simp only
    · exact ⟨PreRel.trans hx.1 h2.1, h2.2⟩
    · exact PreRel.trans hx.1 h2
    · exact ⟨PreRel.trans hx.1 h2.1, h2.2⟩
  | err s1 => rw [h] at hx; simpa using hx
  | crash c s1 => rw [h] at hx; simpa using hx

theorem sp_pure [PreRel R] {a : α} {s : PS} {Q : α → PS → Prop} (h : Q a s) : Sp R (pure a) s Q :=
  ⟨PreRel.refl s, h⟩

theorem sp_get_bind [PreRel R] {f : PS → P β} {s : PS} {Q : β → PS → Prop} (h : Sp R (f s) s Q) :
    Sp R (P.get >>= f) s Q := h

theorem sp_crash [PreRel R] {c : PCrash} {s : PS} {Q : α → PS → Prop} (h : c ≠ .fuel ∧ c ≠ .keyError) :
    Sp R (P.crash c) s Q := ⟨PreRel.refl s, h⟩

theorem sp_ite {c : Prop} [Decidable c] {x y : P α} {s : PS} {Q : α → PS → Prop}
    (hx : c → Sp R x s Q) (hy : ¬ c → Sp R y s Q) : Sp R (if c then x else y) s Q := by
  by_cases h : c <;> simp only [h, if_true, if_false] <;> simp_all

theorem sp_cond {c : Bool} {x y : P α} {s : PS} {Q : α → PS → Prop}
    (hx : c = true → Sp R x s Q) (hy : c = false → Sp R y s Q) : Sp R (P.cond c x y) s Q := by
  cases c
  · exact hy rfl
  · exact hx rfl

/-! ## The relation kept by parsing names and values -/

/-- Only tokens are consumed and errors reported; nothing else changes. -/
structure Fr (s s' : PS) : Prop where
  decls : s'.decls = s.decls
  infos : s'.infos = s.infos
  seps : s'.seps = s.seps
  tabs : s'.tabs = s.tabs
  objs : s'.objs = s.objs
  nid : s'.nid = s.nid
  sects : s'.sects = s.sects
  checks : s'.checks = s.checks
  errs : ∃ l, s'.errs = s.errs ++ l
  toks : s'.toks ≤ s.toks

theorem Fr.refl (s : PS) : Fr s s := ⟨rfl, rfl, rfl, rfl, rfl, rfl, rfl, rfl, ⟨[], by simp⟩, Nat.le_refl _⟩

theorem Fr.trans {a b c : PS} (h : Fr a b) (h' : Fr b c) : Fr a c := by
  obtain ⟨l, hl⟩ := h.errs
  obtain ⟨l', hl'⟩ := h'.errs
  exact ⟨h'.decls.trans h.decls, h'.infos.trans h.infos, h'.seps.trans h.seps,
    h'.tabs.trans h.tabs, h'.objs.trans h.objs, h'.nid.trans h.nid, h'.sects.trans h.sects, h'.checks.trans h.checks,
    ⟨l ++ l', by rw [hl', hl, List.append_assoc]⟩, Nat.le_trans h'.toks h.toks⟩

instance : PreRel Fr := ⟨Fr.refl, Fr.trans⟩

theorem sp_fail {e : PErr} {s : PS} {Q : α → PS → Prop} : Sp Fr (P.fail e : P α) s Q :=
  ⟨rfl, rfl, rfl, rfl, rfl, rfl, rfl, rfl, ⟨[e], rfl⟩, by simp [PS.toks]⟩

theorem sp_invisible {E : FileEnv} {s : PS} {Q : α → PS → Prop} : Sp Fr (E.invisible : P α) s Q := by
  unfold FileEnv.invisible
  exact sp_ite (fun _ => sp_fail) (fun _ => sp_crash (by simp))

theorem sp_report {e : PErr} {s : PS} {Q : Unit → PS → Prop}
    (h : Q () { s with errs := s.errs ++ [e] }) : Sp Fr (P.report e) s Q :=
  ⟨⟨rfl, rfl, rfl, rfl, rfl, rfl, rfl, rfl, ⟨[e], rfl⟩, by simp [PS.toks]⟩, h⟩

/-- `advance`: what it does to the tokens. -/
theorem advanceLoop_spec (t : Option Token) : ∀ (r : List LexOut) (s : PS), s.ct = t →
    match advanceLoop s r with
    | .ok _ s' => Fr { s with rest := r } s' ∧ s'.ct = t ∧
        s'.rest.length + (if s'.nt.isSome then 1 else 0) ≤ r.length
    | .err s' => Fr { s with rest := r } s' ∧ s'.ct = t ∧ s'.rest.length < r.length
    | .crash c s' => Fr { s with rest := r } s' ∧ c ≠ .fuel ∧ c ≠ .keyError := by
  intro r
  induction r with
  | nil =>
    intro s hs
    simp only [advanceLoop]
    refine ⟨⟨rfl, rfl, rfl, rfl, rfl, rfl, rfl, rfl, ⟨[], by simp⟩, ?_⟩, hs, by simp⟩
    simp [PS.toks]
  | cons x r ih =>
    intro s hs
    cases x with
    | tok tk =>
      simp only [advanceLoop]
      by_cases hk : tk.kind = .COMMENT
      · simp only [hk, if_true]
        have h := ih s hs
        have hfr : ∀ s', Fr { s with rest := r } s' → Fr { s with rest := .tok tk :: r } s' := by
          intro s' hf
          refine ⟨hf.decls, hf.infos, hf.seps, hf.tabs, hf.objs, hf.nid, hf.sects, hf.checks, hf.errs, ?_⟩
          have := hf.toks
          simp only [PS.toks, List.length_cons] at this ⊢
          omega
        cases hx : advanceLoop s r with
        | ok a s' =>
          rw [hx] at h
          exact ⟨hfr _ h.1, h.2.1, by simp only [List.length_cons]; omega⟩
        | err s' =>
          rw [hx] at h
          exact ⟨hfr _ h.1, h.2.1, by simp only [List.length_cons]; omega⟩
        | crash c s' =>
          rw [hx] at h
          exact ⟨hfr _ h.1, h.2⟩
      · simp only [hk, if_false]
        refine ⟨⟨rfl, rfl, rfl, rfl, rfl, rfl, rfl, rfl, ⟨[], by simp⟩, ?_⟩, hs, by simp⟩
        simp only [PS.toks, List.length_cons, Option.isSome_some, if_true]
        omega
    | eof =>
      simp only [advanceLoop]
      refine ⟨⟨rfl, rfl, rfl, rfl, rfl, rfl, rfl, rfl, ⟨[], by simp⟩, ?_⟩, hs, by simp⟩
      simp [PS.toks]
    | error k a b =>
      simp only [advanceLoop]
      refine ⟨⟨rfl, rfl, rfl, rfl, rfl, rfl, rfl, rfl, ⟨[.lex k], rfl⟩, ?_⟩, hs, by simp⟩
      simp only [PS.toks, List.length_cons]
      omega
    | crash =>
      simp only [advanceLoop]
      refine ⟨⟨rfl, rfl, rfl, rfl, rfl, rfl, rfl, rfl, ⟨[], by simp⟩, ?_⟩, by simp⟩
      simp only [PS.toks, List.length_cons]
      omega

theorem fr_ct {s s' : PS} {t : Option Token} (h : Fr { s with ct := t } s') : Fr s s' :=
  ⟨h.decls, h.infos, h.seps, h.tabs, h.objs, h.nid, h.sects, h.checks, h.errs, h.toks⟩

/-- `advance` with a next token: one token fewer, and the next token becomes the current one. -/
theorem advance_sp {s : PS} : Sp Fr P.advance s
    (fun _ s' => s'.ct = s.nt ∧ (s.nt.isSome → s'.toks < s.toks)) := by
  have h := advanceLoop_spec s.nt s.rest { s with ct := s.nt } rfl
  unfold Sp P.advance
  cases hx : advanceLoop { s with ct := s.nt } s.rest with
  | ok a s' =>
    rw [hx] at h
    refine ⟨fr_ct h.1, h.2.1, fun hn => ?_⟩
    have := h.2.2
    simp only [PS.toks, hn, if_true]
    omega
  | err s' => rw [hx] at h; exact fr_ct h.1
  | crash c s' => rw [hx] at h; exact ⟨fr_ct h.1, h.2⟩

/-- If `advance` raises an error, a piece of the input was consumed nevertheless. -/
theorem advance_err {s s' : PS} (h : P.advance s = .err s') : s'.toks < s.toks ∧ s'.ct = s.nt := by
  have h' := advanceLoop_spec s.nt s.rest { s with ct := s.nt } rfl
  unfold P.advance at h
  rw [h] at h'
  have := h'.2.2
  refine ⟨?_, h'.2.1⟩
  have key : ∀ (r : List LexOut) (s : PS) (s' : PS), advanceLoop s r = .err s' → s'.nt = s.nt := by
    intro r
    induction r with
    | nil => intro s s' h; simp [advanceLoop] at h
    | cons x r ih =>
      intro s s' h
      cases x with
      | tok tk =>
        simp only [advanceLoop] at h
        split at h
        · exact ih s s' h
        · simp at h
      | eof => simp [advanceLoop] at h
      | error k a b =>
        simp only [advanceLoop, PR.err.injEq] at h
        rw [← h]
      | crash => simp [advanceLoop] at h
  have hnt := key _ _ _ h
  simp only [PS.toks, hnt]
  omega

theorem Sp.congr {x y : P α} {s : PS} {Q : α → PS → Prop} (h : Sp R y s Q) (e : x s = y s) :
    Sp R x s Q := by
  unfold Sp at h ⊢
  rwa [e]

theorem matchK_none {k : Kind} {s : PS} (h : s.nt = none) : P.matchK k s = P.fail .expected s := by
  unfold P.matchK; rw [h]

theorem matchK_other {k : Kind} {s : PS} {t : Token} (h : s.nt = some t) (hk : t.kind ≠ k) :
    P.matchK k s = P.fail .expected s := by
  unfold P.matchK; rw [h]; simp only [ne_eq, hk, not_false_eq_true, if_true]

theorem matchK_some {k : Kind} {s : PS} {t : Token} (h : s.nt = some t) (hk : t.kind = k) :
    P.matchK k s = (P.advance >>= fun _ => pure t) s := by
  unfold P.matchK; rw [h]; simp only [ne_eq, hk, not_true, if_false]

theorem advance_then {s : PS} {t : Token} (hn : s.nt = some t) :
    Sp Fr (P.advance >>= fun _ => pure t) s
      (fun t' s' => t' = t ∧ s'.ct = some t ∧ s'.toks < s.toks) := by
  refine sp_bind _ advance_sp ?_
  rintro - s1 - ⟨h1, h2⟩
  exact sp_pure ⟨rfl, h1.trans hn, h2 (by rw [hn]; rfl)⟩

theorem matchK_sp {k : Kind} {s : PS} : Sp Fr (P.matchK k) s
    (fun t s' => s.nt = some t ∧ t.kind = k ∧ s'.ct = some t ∧ s'.toks < s.toks) := by
  cases hn : s.nt with
  | none => exact sp_fail.congr (matchK_none hn)
  | some t =>
    by_cases hk : t.kind = k
    · refine ((advance_then hn).mono ?_).congr (matchK_some hn hk)
      rintro a s' - ⟨rfl, h1, h2⟩
      exact ⟨rfl, hk, h1, h2⟩
    · exact sp_fail.congr (matchK_other hn hk)

theorem advance_then_err {s s' : PS} {t : Token} (h : (P.advance >>= fun _ => pure t) s = .err s') :
    s'.toks < s.toks := by
  rw [bind_apply] at h
  cases hx : P.advance s with
  | ok a s1 => rw [hx] at h; simp [pure_apply] at h
  | err s1 =>
    rw [hx] at h
    simp only [PR.err.injEq] at h
    rw [← h]
    exact (advance_err hx).1
  | crash c s1 => rw [hx] at h; simp at h

/-- If the next token has the kind asked for, `match` consumes it even when it raises. -/
theorem matchK_err {k : Kind} {s s' : PS} (hp : s.peek k = true) (h : P.matchK k s = .err s') :
    s'.toks < s.toks := by
  unfold PS.peek at hp
  cases hn : s.nt with
  | none => rw [hn] at hp; simp at hp
  | some t =>
    rw [hn] at hp
    simp only [Option.any_some, decide_eq_true_eq] at hp
    rw [matchK_some hn hp] at h
    exact advance_then_err h

theorem matchKw_none {v : String} {s : PS} (h : s.nt = none) :
    P.matchKw v s = P.fail .expected s := by
  unfold P.matchKw; rw [h]

theorem matchKw_other {v : String} {s : PS} {t : Token} (h : s.nt = some t)
    (hk : ¬ (t.kind = .KEYWORD ∧ t.value = .str v.toList)) :
    P.matchKw v s = P.fail .expected s := by
  unfold P.matchKw; rw [h]
  by_cases h1 : t.kind = .KEYWORD
  · have h2 : t.value ≠ .str v.toList := fun e => hk ⟨h1, e⟩
    simp only [h1, h2, ne_eq, not_true, not_false_eq_true, if_false, if_true]
  · simp only [ne_eq, h1, not_false_eq_true, if_true]

theorem matchKw_some {v : String} {s : PS} {t : Token} (h : s.nt = some t) (hk : t.kind = .KEYWORD)
    (hv : t.value = .str v.toList) :
    P.matchKw v s = (P.advance >>= fun _ => pure t) s := by
  unfold P.matchKw; rw [h]; simp only [ne_eq, hk, hv, not_true, if_false]

theorem matchKw_sp {v : String} {s : PS} : Sp Fr (P.matchKw v) s
    (fun t s' => s.nt = some t ∧ t.kind = .KEYWORD ∧ t.value = .str v.toList ∧ s'.ct = some t ∧
      s'.toks < s.toks) := by
  cases hn : s.nt with
  | none => exact sp_fail.congr (matchKw_none hn)
  | some t =>
    by_cases hk : t.kind = .KEYWORD ∧ t.value = .str v.toList
    · refine ((advance_then hn).mono ?_).congr (matchKw_some hn hk.1 hk.2)
      rintro a s' - ⟨rfl, h1, h2⟩
      exact ⟨rfl, hk.1, hk.2, h1, h2⟩
    · exact sp_fail.congr (matchKw_other hn hk)

theorem matchKw_err {v : String} {s s' : PS} (hp : s.peekKw v = true) (h : P.matchKw v s = .err s') :
    s'.toks < s.toks := by
  unfold PS.peekKw at hp
  cases hn : s.nt with
  | none => rw [hn] at hp; simp at hp
  | some t =>
    rw [hn] at hp
    simp only [Option.any_some, decide_eq_true_eq] at hp
    rw [matchKw_some hn hp.1 hp.2] at h
    exact advance_then_err h

theorem liftSym_sp {r : Except SymErr α} {s : PS} : Sp Fr (P.liftSym r) s
    (fun a s' => r = .ok a ∧ s' = s) := by
  cases r with
  | ok a => exact sp_pure ⟨rfl, rfl⟩
  | error e => exact sp_fail

theorem scopeLookup_sp {E : FileEnv} {name : List Char} {sub : Option (Ent → Bool)} {s : PS} :
    Sp Fr (P.scopeLookup E name sub) s
      (fun e s' => (s.scope E).lookup name sub = some (.ok e) ∧ s' = s) := by
  unfold P.scopeLookup
  refine sp_get_bind ?_
  cases h : (s.scope E).lookup name sub with
  | none => exact sp_crash (by simp)
  | some r =>
    refine liftSym_sp.mono ?_
    rintro a s' - ⟨rfl, rfl⟩
    exact ⟨rfl, rfl⟩

/-! ## Errors only accumulate -/

theorem errs_mid {a b c : PS} (h : Fr a b) (h' : Fr b c) (e : c.errs = a.errs) :
    b.errs = a.errs ∧ c.errs = b.errs := by
  obtain ⟨l, hl⟩ := h.errs
  obtain ⟨l', hl'⟩ := h'.errs
  rw [hl', hl, List.append_assoc] at e
  have : l ++ l' = [] := by
    have := congrArg List.length e
    simp only [List.length_append] at this
    exact List.eq_nil_of_length_eq_zero (by simp only [List.length_append]; omega)
  rw [List.append_eq_nil_iff] at this
  exact ⟨by rw [hl, this.1, List.append_nil], by rw [hl', this.2, List.append_nil]⟩

end Verif.Lemmas
