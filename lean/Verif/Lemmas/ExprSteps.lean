import Verif.Model.Parse.Expr
import Verif.Spec.Grammar
import Verif.Lemmas.ParseWritten
/-! Consuming tokens one by one, and rules about parser steps that only consume tokens. -/
namespace Verif.Lemmas
open Verif.Model Verif.Spec

variable {α β : Type}

/-- The parser consumes exactly these tokens. -/
inductive Steps : PS → List Token → PS → Prop
  | nil {s} : Steps s [] s
  | cons {s t s1 ts s2} : s.nt = some t → P.advance s = .ok () s1 → Steps s1 ts s2 →
      Steps s (t :: ts) s2

theorem Steps.append {s s1 s2 : PS} {a b : List Token} (h : Steps s a s1) (h' : Steps s1 b s2) :
    Steps s (a ++ b) s2 := by
  induction h with
  | nil => exact h'
  | cons hn ha _ ih => exact .cons hn ha (ih h')

theorem Steps.split {s s2 : PS} {a b : List Token} (h : Steps s (a ++ b) s2) :
    ∃ s1, Steps s a s1 ∧ Steps s1 b s2 := by
  induction a generalizing s with
  | nil => exact ⟨s, .nil, h⟩
  | cons t a ih =>
    cases h with
    | cons hn ha h =>
      obtain ⟨s1, h1, h2⟩ := ih h
      exact ⟨s1, .cons hn ha h1, h2⟩

theorem Steps.one {s s' : PS} {t : Token} (hn : s.nt = some t) (ha : P.advance s = .ok () s') :
    Steps s [t] s' := .cons hn ha .nil

theorem Steps.head {s s' : PS} {t : Token} {ts : List Token} (h : Steps s (t :: ts) s') :
    s.nt = some t := by
  cases h with | cons hn _ _ => exact hn

theorem advanceLoop_same : ∀ (r : List LexOut) (s s' : PS), advanceLoop s r = .ok () s' →
    ∃ nt rest, s' = { s with nt := nt, rest := rest } := by
  intro r
  induction r with
  | nil => intro s s' h; cases h; exact ⟨_, _, rfl⟩
  | cons x r ih =>
    intro s s' h
    cases x with
    | tok t =>
      simp only [advanceLoop] at h
      split at h
      · exact ih s s' h
      · cases h; exact ⟨_, _, rfl⟩
    | eof => cases h; exact ⟨_, _, rfl⟩
    | error k a b => cases h
    | crash => cases h

/-- Nothing but the tokens changes. -/
theorem Steps.same {s s' : PS} {ts : List Token} (h : Steps s ts s') :
    ∃ ct nt rest, s' = { s with ct := ct, nt := nt, rest := rest } := by
  induction h with
  | nil => exact ⟨_, _, _, rfl⟩
  | cons hn ha _ ih =>
    obtain ⟨nt, rest, e⟩ := advanceLoop_same _ _ _ ha
    obtain ⟨ct', nt', rest', e'⟩ := ih
    exact ⟨ct', nt', rest', by rw [e', e]⟩

theorem Steps.names {s s' : PS} {ts : List Token} (h : Steps s ts s') :
    namesOf s' = namesOf s := by
  obtain ⟨_, _, _, rfl⟩ := h.same; rfl

theorem Steps.tab {s s' : PS} {ts : List Token} (h : Steps s ts s') (p : Nat) :
    s'.tab p = s.tab p := by
  obtain ⟨_, _, _, rfl⟩ := h.same; rfl

theorem Steps.fr {s s' : PS} {ts : List Token} (h : Steps s ts s') : Fr s s' := by
  induction h with
  | nil => exact Fr.refl _
  | cons hn ha _ ih => exact (advance_sp.ok ha).1.trans ih

theorem Steps.words {s s' : PS} {ts : List Token} (h : Steps s ts s') :
    words s = ts ++ words s' := by
  induction h with
  | nil => rfl
  | cons hn ha _ ih =>
    rw [List.cons_append, ← ih, advanceLoop_words _ _ _ ha]
    simp only [Spec.words, hn]

theorem Steps.toks {s s' : PS} {ts : List Token} (h : Steps s ts s') :
    ts.length + s'.toks ≤ s.toks := by
  induction h with
  | nil => simp
  | cons hn ha _ ih =>
    have := (advance_sp.ok ha).2.2 (by rw [hn]; rfl)
    simp only [List.length_cons]
    omega

/-! ## What a step that ends normally has consumed -/

/-- If `x` ends normally, it has consumed tokens that satisfy `Q` together with the result. -/
def Snd (x : P α) (s : PS) (Q : α → List Token → Prop) : Prop :=
  ∀ a s', x s = .ok a s' → ∃ ts, Steps s ts s' ∧ Q a ts

theorem snd_bind {x : P α} {f : α → P β} {s : PS} {Q : β → List Token → Prop}
    (Q1 : α → List Token → Prop) (hx : Snd x s Q1)
    (hf : ∀ a ts s1, Steps s ts s1 → Q1 a ts → Snd (f a) s1 (fun b ts' => Q b (ts ++ ts'))) :
    Snd (x >>= f) s Q := by
  intro b s2 h
  rw [bind_apply] at h
  cases hxs : x s with
  | err s1 => rw [hxs] at h; cases h
  | crash c s1 => rw [hxs] at h; cases h
  | ok a s1 =>
    rw [hxs] at h
    obtain ⟨ts, hst, hq⟩ := hx a s1 hxs
    obtain ⟨ts', hst', hq'⟩ := hf a ts s1 hst hq b s2 h
    exact ⟨ts ++ ts', hst.append hst', hq'⟩

theorem Snd.mono {x : P α} {s : PS} {Q Q' : α → List Token → Prop} (h : Snd x s Q)
    (hq : ∀ a ts, Q a ts → Q' a ts) : Snd x s Q' := by
  intro a s' e
  obtain ⟨ts, h1, h2⟩ := h a s' e
  exact ⟨ts, h1, hq _ _ h2⟩

theorem snd_pure {a : α} {s : PS} {Q : α → List Token → Prop} (h : Q a []) : Snd (pure a) s Q := by
  intro a' s' e
  rw [pure_apply] at e
  cases e
  exact ⟨[], .nil, h⟩

theorem snd_fail {e : PErr} {s : PS} {Q : α → List Token → Prop} : Snd (P.fail e : P α) s Q := by
  intro a s' h; cases h

theorem snd_invisible {E : FileEnv} {s : PS} {Q : α → List Token → Prop} :
    Snd (E.invisible : P α) s Q := by
  intro a s' h
  unfold FileEnv.invisible at h
  split at h <;> cases h

theorem snd_crash {c : PCrash} {s : PS} {Q : α → List Token → Prop} :
    Snd (P.crash c : P α) s Q := by
  intro a s' h; cases h

theorem snd_get_bind {f : PS → P β} {s : PS} {Q : β → List Token → Prop} (h : Snd (f s) s Q) :
    Snd (P.get >>= f) s Q := h

theorem snd_ite {c : Prop} [Decidable c] {x y : P α} {s : PS} {Q : α → List Token → Prop}
    (hx : c → Snd x s Q) (hy : ¬ c → Snd y s Q) : Snd (if c then x else y) s Q := by
  by_cases h : c
  · rw [if_pos h]; exact hx h
  · rw [if_neg h]; exact hy h

theorem snd_cond {c : Bool} {x y : P α} {s : PS} {Q : α → List Token → Prop}
    (hx : c = true → Snd x s Q) (hy : c = false → Snd y s Q) : Snd (P.cond c x y) s Q := by
  cases c
  · exact hy rfl
  · exact hx rfl

theorem advance_unit {s s' : PS} {u : Unit} (h : P.advance s = .ok u s') :
    P.advance s = .ok () s' := h

theorem matchK_snd {k : Kind} {s : PS} : Snd (P.matchK k) s
    (fun t ts => s.nt = some t ∧ t.kind = k ∧ ts = [t]) := by
  intro a s' e
  have h := matchK_sp.ok e
  refine ⟨[a], ?_, h.2.1, h.2.2.1, rfl⟩
  rw [matchK_some h.2.1 h.2.2.1, bind_apply] at e
  cases hx : P.advance s with
  | err s1 => rw [hx] at e; cases e
  | crash c s1 => rw [hx] at e; cases e
  | ok u s1 =>
    rw [hx] at e
    simp only [pure_apply, PR.ok.injEq, true_and] at e
    subst e
    exact .one h.2.1 hx

theorem matchKw_snd {v : String} {s : PS} : Snd (P.matchKw v) s
    (fun t ts => IsKw v t ∧ ts = [t]) := by
  intro a s' e
  have h := matchKw_sp.ok e
  refine ⟨[a], ?_, ⟨h.2.2.1, h.2.2.2.1⟩, rfl⟩
  rw [matchKw_some h.2.1 h.2.2.1 h.2.2.2.1, bind_apply] at e
  cases hx : P.advance s with
  | err s1 => rw [hx] at e; cases e
  | crash c s1 => rw [hx] at e; cases e
  | ok u s1 =>
    rw [hx] at e
    simp only [pure_apply, PR.ok.injEq, true_and] at e
    subst e
    exact .one h.2.1 hx

theorem liftSym_snd {r : Except SymErr α} {s : PS} :
    Snd (P.liftSym r) s (fun a ts => ts = [] ∧ r = .ok a) := by
  cases r with
  | ok a => exact snd_pure ⟨rfl, rfl⟩
  | error e => exact snd_fail

theorem liftEl_snd {r : El α} {s : PS} : Snd (P.liftEl r) s (fun a ts => ts = [] ∧ r = .ok a) := by
  cases r with
  | ok a => exact snd_pure ⟨rfl, rfl⟩
  | err e => exact snd_fail
  | crash c => exact snd_crash

theorem peekKw_iff {s : PS} {v : String} : s.peekKw v = true ↔ ∃ t, s.nt = some t ∧ IsKw v t := by
  unfold PS.peekKw IsKw
  cases s.nt <;> simp

theorem peek_iff {s : PS} {k : Kind} : s.peek k = true ↔ ∃ t, s.nt = some t ∧ t.kind = k := by
  unfold PS.peek
  cases s.nt <;> simp

theorem peekOp_some {s : PS} {ops : List (List Char × α)} {a : α} (h : s.peekOp ops = some a) :
    ∃ t, s.nt = some t ∧ t.kind = .OPERATOR ∧ ops.lookup t.text = some a := by
  unfold PS.peekOp at h
  split at h
  · cases h
  · next t ht =>
    split at h
    · next hk => exact ⟨t, ht, hk, h⟩
    · cases h

/-! ## Running a step on tokens that are there -/

theorem bind_ok {x : P α} {f : α → P β} {s s1 : PS} {a : α} (h : x s = .ok a s1) :
    (x >>= f) s = f a s1 := by
  rw [bind_apply, h]

theorem get_bind_apply {f : PS → P β} {s : PS} : (P.get >>= f) s = f s s := rfl

theorem matchK_ok {k : Kind} {s s' : PS} {t : Token} (h : Steps s [t] s') (hk : t.kind = k) :
    P.matchK k s = .ok t s' := by
  cases h with
  | cons hn ha h' =>
    cases h'
    rw [matchK_some hn hk, bind_apply, ha]
    rfl

theorem matchKw_ok {v : String} {s s' : PS} {t : Token} (h : Steps s [t] s') (hk : IsKw v t) :
    P.matchKw v s = .ok t s' := by
  cases h with
  | cons hn ha h' =>
    cases h'
    rw [matchKw_some hn hk.1 hk.2, bind_apply, ha]
    rfl

theorem liftEl_ok {r : El α} {a : α} {s : PS} (h : r = .ok a) : P.liftEl r s = .ok a s := by
  rw [h]; rfl

theorem liftSym_ok {r : Except SymErr α} {a : α} {s : PS} (h : r = .ok a) :
    P.liftSym r s = .ok a s := by
  rw [h]; rfl

theorem El.bind_eq_ok {γ δ : Type} {x : El γ} {f : γ → El δ} {b : δ} (h : x.bind f = .ok b) :
    ∃ a, x = .ok a ∧ f a = .ok b := by
  cases x with
  | ok a => exact ⟨a, rfl, h⟩
  | err e => cases h
  | crash c => cases h

end Verif.Lemmas
