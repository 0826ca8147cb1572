import Verif.Lemmas.RearrangeNames
/-!
# What is written may be written elsewhere
-/
namespace Verif.Lemmas.Rearrange
open Verif.Model Verif.Spec Verif.Lemmas

/-- What is needed to read the same words with other names in another file -/
structure Xfer (E E' : FileEnv) (N N' : Names) : Prop where
  global : E'.global = E.global
  pkg : E'.pkg = E.pkg
  imports : E'.imports = E.imports
  resolved : E'.resolved = E.resolved
  decls : N'.decls = N.decls
  seps : N'.seps = N.seps
  name : ∀ {n n' e}, List.Forall₂ (SameTok E E') n n' → e.cls ≠ clsObject → NameOf E N n e → NameOf E' N' n' e

/-- the token behind -/
def SameNx (E E' : FileEnv) (nx nx' : Option Token) : Prop := ∀ t', nx' = some t' → ∃ t, nx = some t ∧ SameTok E E' t t'

variable {E E' : FileEnv} {N N' : Names}

theorem sameText {t t' : Token} (h : SameTok E E' t t') : t'.text = t.text := by
  unfold Token.text
  rw [h.value]

theorem f2_append {α β : Type} {R : α → β → Prop} : ∀ {a b : List α} {l : List β}, List.Forall₂ R (a ++ b) l →
    ∃ a' b', l = a' ++ b' ∧ List.Forall₂ R a a' ∧ List.Forall₂ R b b'
  | [], _, l, h => ⟨[], l, rfl, .nil, h⟩
  | _ :: _, _, _, h => by
    cases h with
    | cons h1 h2 =>
      obtain ⟨a', b', rfl, h3, h4⟩ := f2_append h2
      exact ⟨_ :: a', b', rfl, .cons h1 h3, h4⟩

theorem f2_cons {α β : Type} {R : α → β → Prop} {a : α} {b : List α} {l : List β} (h : List.Forall₂ R (a :: b) l) :
    ∃ a' b', l = a' :: b' ∧ R a a' ∧ List.Forall₂ R b b' := by
  cases h with
  | cons h1 h2 => exact ⟨_, _, rfl, h1, h2⟩

theorem f2_one {α β : Type} {R : α → β → Prop} {a : α} {l : List β} (h : List.Forall₂ R [a] l) : ∃ a', l = [a'] ∧ R a a' := by
  obtain ⟨a', b', rfl, h1, h2⟩ := f2_cons h
  cases h2
  exact ⟨a', rfl, h1⟩

theorem f2_app {α β : Type} {R : α → β → Prop} {a b : List α} {a' b' : List β} (h : List.Forall₂ R a a')
    (h' : List.Forall₂ R b b') : List.Forall₂ R (a ++ b) (a' ++ b') := by
  induction h with
  | nil => exact h'
  | cons h1 _ ih => exact .cons h1 ih

theorem f2_length {α β : Type} {R : α → β → Prop} {a : List α} {b : List β} (h : List.Forall₂ R a b) : a.length = b.length := by
  induction h with
  | nil => rfl
  | cons _ _ ih => simp [ih]

theorem sameNx_some {t t' : Token} (h : SameTok E E' t t') : SameNx E E' (some t) (some t') := by
  intro x hx
  cases hx
  exact ⟨t, rfl, h⟩

theorem sameNx_follow {b b' : List Token} {nx nx' : Option Token} (h : List.Forall₂ (SameTok E E') b b')
    (hn : SameNx E E' nx nx') : SameNx E E' (follow b nx) (follow b' nx') := by
  cases h with
  | nil => simpa [follow] using hn
  | cons h1 h2 =>
    simp only [follow, List.head?_cons, Option.some_or]
    exact sameNx_some h1

theorem sepTok_same {sp : Sep} {t t' : Token} (h : SameTok E E' t t') : SepTok sp t' ↔ SepTok sp t := by
  cases sp <;> simp only [SepTok, h.kind, h.value]

theorem refOf_same (hx : Xfer E E' N N') {ts ts' : List Token} (h : List.Forall₂ (SameTok E E') ts ts') {p : Nat}
    {name : List Char} (hr : RefOf E ts p name) : RefOf E' ts' p name := by
  rcases hr with ⟨t, rfl, h1, h2, h3⟩ | ⟨t, d, t', e, rfl, h1, h2, h3, h4, h5, h6, h7, h8⟩
  · obtain ⟨x, rfl, hx'⟩ := f2_one h
    exact .inl ⟨x, rfl, hx'.kind.trans h1, h2.trans hx.pkg.symm, h3.trans (sameText hx').symm⟩
  · obtain ⟨x, _, rfl, hx1, h⟩ := f2_cons h
    obtain ⟨y, _, rfl, hx2, h⟩ := f2_cons h
    obtain ⟨z, rfl, hx3⟩ := f2_one h
    refine .inr ⟨x, y, z, e, rfl, hx1.kind.trans h1, hx2.kind.trans h2, hx3.kind.trans h3, ?_, h5, ?_, h7,
      h8.trans (sameText hx3).symm⟩
    · rw [hx.global, sameText hx1]; exact h4
    · unfold Usable at h6 ⊢
      rw [hx.resolved, hx.pkg, hx.imports]
      exact h6

mutual
theorem written_same (hx : Xfer E E' N N') : (v : PVal) → (τ : Ty) → (ts ts' : List Token) → (nx nx' : Option Token) →
    Written E N v τ ts nx → List.Forall₂ (SameTok E E') ts ts' → SameNx E E' nx nx' →
    (∀ τ p n, HasRef v τ p n → MayRefer N τ p n → MayRefer N' τ p n) → Written E' N' v τ ts' nx'
  | .inull, _, _, _, _, _, h, _, _, _ => h.elim
  | .bool b, τ, ts, ts', _, _, h, hs, _, _ => by
    simp only [Written] at h ⊢
    obtain ⟨h0, t, rfl, h1, h2⟩ := h
    obtain ⟨x, rfl, hx'⟩ := f2_one hs
    exact ⟨h0, x, rfl, hx'.kind.trans h1, (sameText hx').trans h2⟩
  | .int n, τ, ts, ts', _, _, h, hs, _, _ => by
    simp only [Written] at h ⊢
    obtain ⟨h0, t, k, rfl, h1, h2, h3⟩ := h
    obtain ⟨x, rfl, hx'⟩ := f2_one hs
    exact ⟨h0, x, k, rfl, hx'.kind.trans h1, hx'.value.trans h2, h3⟩
  | .dec q, τ, ts, ts', _, _, h, hs, _, _ => by
    simp only [Written] at h ⊢
    obtain ⟨h0, t, rfl, h1, h2⟩ := h
    obtain ⟨x, rfl, hx'⟩ := f2_one hs
    exact ⟨h0, x, rfl, hx'.kind.trans h1, hx'.value.trans h2⟩
  | .str v, τ, ts, ts', _, _, h, hs, _, _ => by
    simp only [Written] at h ⊢
    obtain ⟨h0, t, rfl, h1, h2⟩ := h
    obtain ⟨x, rfl, hx'⟩ := f2_one hs
    exact ⟨h0, x, rfl, hx'.kind.trans h1, (sameText hx').trans h2⟩
  | .markup v refs, τ, ts, ts', _, _, h, hs, _, _ => by
    simp only [Written] at h ⊢
    obtain ⟨h0, t, rfl, h1, h2, h3⟩ := h
    obtain ⟨x, rfl, hx'⟩ := f2_one hs
    exact ⟨h0, x, rfl, hx'.kind.trans h1, (sameText hx').trans h2, (hx'.markup h1).trans h3⟩
  | .enum e l, τ, ts, ts', _, _, h, hs, _, _ => by
    simp only [Written] at h ⊢
    obtain ⟨h0, n, d, t, ty, rfl, h1, h2, h3, h4, h5, h6, h7⟩ := h
    obtain ⟨n', r', rfl, hs1, hs2⟩ := f2_append hs
    obtain ⟨d', _, rfl, hd, hs2⟩ := f2_cons hs2
    obtain ⟨t', rfl, ht⟩ := f2_one hs2
    exact ⟨h0, n', d', t', ty, rfl, hx.name hs1 (by rw [h2]; decide) h1, h2, h3, hd.kind.trans h4, ht.kind.trans h5,
      by rw [sameText ht]; exact h6, by rw [hx.decls]; exact h7⟩
  | .neg v, τ, ts, ts', nx, nx', h, hs, hn, hr => by
    simp only [Written] at h ⊢
    obtain ⟨t, r, rfl, ⟨h1, h1'⟩, h2, h3, h4⟩ := h
    obtain ⟨t', r', rfl, ht, hs⟩ := f2_cons hs
    exact ⟨t', r', rfl, ⟨ht.kind.trans h1, (sameText ht).trans h1'⟩, h2,
      written_same hx v τ r r' nx nx' h3 hs hn (fun τ p n h => hr τ p n (.neg h)), h4⟩
  | .pos v, τ, ts, ts', nx, nx', h, hs, hn, hr => by
    simp only [Written] at h ⊢
    obtain ⟨t, r, rfl, ⟨h1, h1'⟩, h2, h3, h4⟩ := h
    obtain ⟨t', r', rfl, ht, hs⟩ := f2_cons hs
    exact ⟨t', r', rfl, ⟨ht.kind.trans h1, (sameText ht).trans h1'⟩, h2,
      written_same hx v τ r r' nx nx' h3 hs hn (fun τ p n h => hr τ p n (.pos h)), h4⟩
  | .arr ty es, τ, ts, ts', nx, nx', h, hs, hn, hr => by
    simp only [Written] at h ⊢
    obtain ⟨h0, id, elem, lo, hi, a, r, b, h1, rfl, h2, h3, h4, h5⟩ := h
    obtain ⟨p', q', rfl, hs1, hs2⟩ := f2_append hs
    obtain ⟨a', r', rfl, ha, hs1⟩ := f2_cons hs1
    obtain ⟨b', rfl, hb⟩ := f2_one hs2
    exact ⟨h0, id, elem, lo, hi, a', r', b', h1, rfl, ha.kind.trans h2, hb.kind.trans h3,
      writtenElems_same hx es elem r r' _ _ h4 hs1 (sameNx_some hb) (fun v hv τ p n h => hr τ p n (.arr hv h)), h5⟩
  | .tup t fs, τ, ts, ts', nx, nx', h, hs, hn, hr => by
    simp only [Written] at h ⊢
    rw [hx.decls, hx.seps]
    obtain ⟨h0, cs, h1, ⟨seps, h2, h3, h4⟩ | ⟨h2, a, r, b, rfl, h3, h4, h5⟩⟩ := h
    · exact ⟨h0, cs, h1, .inl ⟨seps, h2, h3, writtenSep_same hx fs cs seps false ts ts' nx nx' h4 hs hn
        (fun k v hv τ p n h => hr τ p n (.tup hv h))⟩⟩
    · obtain ⟨p', q', rfl, hs1, hs2⟩ := f2_append hs
      obtain ⟨a', r', rfl, ha, hs1⟩ := f2_cons hs1
      obtain ⟨b', rfl, hb⟩ := f2_one hs2
      exact ⟨h0, cs, h1, .inr ⟨h2, a', r', b', rfl, ha.kind.trans h3, hb.kind.trans h4,
        writtenPlain_same hx fs cs true r r' _ _ h5 hs1 (sameNx_some hb) (fun k v hv τ p n h => hr τ p n (.tup hv h))⟩⟩
  | .ref ty p name, τ, ts, ts', nx, nx', h, hs, hn, hr => by
    simp only [Written] at h ⊢
    obtain ⟨h0, h1, h2, h3, h4⟩ := h
    refine ⟨h0, h1, refOf_same hx hs h2, ?_, hr _ _ _ .ref h4⟩
    intro hl d' hd'
    obtain ⟨d, hd, hdd⟩ := hn d' hd'
    rw [hdd.kind]
    exact h3 (by rw [f2_length hs]; exact hl) d hd

theorem writtenElems_same (hx : Xfer E E' N N') : (es : List PVal) → (τ : Ty) → (ts ts' : List Token) →
    (nx nx' : Option Token) → WrittenElems E N es τ ts nx → List.Forall₂ (SameTok E E') ts ts' → SameNx E E' nx nx' →
    (∀ v ∈ es, ∀ τ p n, HasRef v τ p n → MayRefer N τ p n → MayRefer N' τ p n) → WrittenElems E' N' es τ ts' nx'
  | [], _, _, _, _, _, h, hs, _, _ => by
    simp only [WrittenElems] at h ⊢
    subst h
    cases hs
    rfl
  | e :: es, τ, ts, ts', nx, nx', h, hs, hn, hr => by
    simp only [WrittenElems] at h ⊢
    obtain ⟨a, b, rfl, h1, h2⟩ := h
    obtain ⟨a', b', rfl, hs1, hs2⟩ := f2_append hs
    refine ⟨a', b', rfl, written_same hx e τ a a' _ _ h1 hs1 (sameNx_follow hs2 hn) (hr e (by simp)), ?_⟩
    rcases h2 with ⟨rfl, rfl | ⟨c, rfl, hc⟩⟩ | ⟨h2, c, r, rfl, hc, h3⟩
    · cases hs2
      exact .inl ⟨rfl, .inl rfl⟩
    · obtain ⟨c', rfl, hc'⟩ := f2_one hs2
      exact .inl ⟨rfl, .inr ⟨c', rfl, hc'.kind.trans hc⟩⟩
    · obtain ⟨c', r', rfl, hc', hs2⟩ := f2_cons hs2
      exact .inr ⟨h2, c', r', rfl, hc'.kind.trans hc,
        writtenElems_same hx es τ r r' nx nx' h3 hs2 hn (fun v hv => hr v (by simp [hv]))⟩

theorem writtenPlain_same (hx : Xfer E E' N N') : (fs : List (String × PVal)) → (cs : List Comp) → (first : Bool) →
    (ts ts' : List Token) → (nx nx' : Option Token) → WrittenPlain E N fs cs first ts nx →
    List.Forall₂ (SameTok E E') ts ts' → SameNx E E' nx nx' →
    (∀ k v, (k, v) ∈ fs → ∀ τ p n, HasRef v τ p n → MayRefer N τ p n → MayRefer N' τ p n) →
    WrittenPlain E' N' fs cs first ts' nx'
  | [], [], _, _, _, _, _, h, hs, _, _ => by
    simp only [WrittenPlain] at h ⊢
    subst h
    cases hs
    rfl
  | [], _ :: _, _, _, _, _, _, h, _, _, _ => by simp only [WrittenPlain] at h
  | _ :: _, [], _, _, _, _, _, h, _, _, _ => by simp only [WrittenPlain] at h
  | f :: fs, c :: cs, first, ts, ts', nx, nx', h, hs, hn, hr => by
    simp only [WrittenPlain] at h ⊢
    obtain ⟨k, a, b, rfl, h1, h2, h3⟩ := h
    obtain ⟨ka', b', rfl, hs, hs2⟩ := f2_append hs
    obtain ⟨k', a', rfl, hs0, hs1⟩ := f2_append hs
    refine ⟨k', a', b', rfl, ?_, writtenField_same hx f c a a' _ _ h2 hs1 (sameNx_follow hs2 hn) (hr f.1 f.2 (by simp)),
      writtenPlain_same hx fs cs false b b' nx nx' h3 hs2 hn (fun k v hv => hr k v (by simp [hv]))⟩
    split at h1
    · next hf =>
      rw [if_pos hf]
      subst h1
      cases hs0
      rfl
    · next hf =>
      rw [if_neg hf]
      obtain ⟨x, rfl, hc⟩ := h1
      obtain ⟨x', rfl, hx'⟩ := f2_one hs0
      exact ⟨x', rfl, hx'.kind.trans hc⟩

theorem writtenSep_same (hx : Xfer E E' N N') : (fs : List (String × PVal)) → (cs : List Comp) → (seps : List Sep) →
    (missed : Bool) → (ts ts' : List Token) → (nx nx' : Option Token) → WrittenSep E N fs cs seps missed ts nx →
    List.Forall₂ (SameTok E E') ts ts' → SameNx E E' nx nx' →
    (∀ k v, (k, v) ∈ fs → ∀ τ p n, HasRef v τ p n → MayRefer N τ p n → MayRefer N' τ p n) →
    WrittenSep E' N' fs cs seps missed ts' nx'
  | [], [], _, _, _, _, _, _, h, hs, _, _ => by
    simp only [WrittenSep] at h ⊢
    subst h
    cases hs
    rfl
  | [], _ :: _, _, _, _, _, _, _, h, _, _, _ => by simp only [WrittenSep] at h
  | _ :: _, [], _, _, _, _, _, _, h, _, _, _ => by simp only [WrittenSep] at h
  | f :: fs, c :: cs, seps, missed, ts, ts', nx, nx', h, hs, hn, hr => by
    simp only [WrittenSep] at h ⊢
    rcases h with ⟨h1, h2, rfl, h3⟩ | ⟨h1, a, b, rfl, h2, h3⟩
    · cases hs
      exact .inl ⟨h1, h2, rfl, h3⟩
    · obtain ⟨a', b', rfl, hs1, hs2⟩ := f2_append hs
      have hr' : ∀ k v, (k, v) ∈ fs → ∀ τ p n, HasRef v τ p n → MayRefer N τ p n → MayRefer N' τ p n :=
        fun k v hv => hr k v (by simp [hv])
      refine .inr ⟨h1, a', b', rfl, writtenField_same hx f c a a' _ _ h2 hs1 (sameNx_follow hs2 hn) (hr f.1 f.2 (by simp)), ?_⟩
      cases seps with
      | nil => exact writtenSep_same hx fs cs [] missed b b' nx nx' h3 hs2 hn hr'
      | cons sp seps =>
        simp only at h3 ⊢
        rcases h3 with ⟨x, r, rfl, h4, h5⟩ | ⟨h4, h5⟩
        · obtain ⟨x', r', rfl, hx', hs2⟩ := f2_cons hs2
          exact .inl ⟨x', r', rfl, (sepTok_same hx').2 h4, writtenSep_same hx fs cs seps missed r r' nx nx' h5 hs2 hn hr'⟩
        · refine .inr ⟨fun x' hx' => ?_, writtenSep_same hx fs cs seps true b b' nx nx' h5 hs2 hn hr'⟩
          obtain ⟨x, hx1, hx2⟩ := sameNx_follow hs2 hn x' hx'
          rw [sepTok_same hx2]
          exact h4 x hx1

theorem writtenField_same (hx : Xfer E E' N N') : (f : String × PVal) → (c : Comp) → (ts ts' : List Token) →
    (nx nx' : Option Token) → WrittenField E N f c ts nx → List.Forall₂ (SameTok E E') ts ts' → SameNx E E' nx nx' →
    (∀ τ p n, HasRef f.2 τ p n → MayRefer N τ p n → MayRefer N' τ p n) → WrittenField E' N' f c ts' nx'
  | (n, v), c, ts, ts', nx, nx', h, hs, hn, hr => by
    simp only [WrittenField] at h ⊢
    exact ⟨h.1, written_same hx v c.ty ts ts' nx nx' h.2 hs hn hr⟩
end

theorem assigns_same (hx : Xfer E E' N N') {t : Nat} : ∀ (asg : List (String × PVal)) (ts ts' : List Token)
    (nx nx' : Option Token), WrittenAssigns E N t asg ts nx → List.Forall₂ (SameTok E E') ts ts' → SameNx E E' nx nx' →
    (∀ a ∈ asg, ∀ τ p n, HasRef a.2 τ p n → MayRefer N τ p n → MayRefer N' τ p n) → WrittenAssigns E' N' t asg ts' nx'
  | [], _, _, _, _, h, hs, _, _ => by
    simp only [WrittenAssigns] at h ⊢
    subst h
    cases hs
    rfl
  | a :: asg, ts, ts', nx, nx', h, hs, hn, hr => by
    simp only [WrittenAssigns] at h ⊢
    obtain ⟨x, r, rfl, ⟨x1, y, v, c, rfl, h1, h2, h3, h4, h5, h6⟩, h7⟩ := h
    obtain ⟨x', r', rfl, hs1, hs2⟩ := f2_append hs
    obtain ⟨x1', _, rfl, hx1, hs1⟩ := f2_cons hs1
    obtain ⟨y', v', rfl, hy, hs1⟩ := f2_cons hs1
    refine ⟨_, r', rfl, ⟨x1', y', v', c, rfl, hx1.kind.trans h1, hy.kind.trans h2, ?_, ?_, h5, ?_⟩, ?_⟩
    · rw [sameText hx1]; exact h3
    · rw [hx.decls]; exact h4
    · exact written_same hx _ _ _ _ _ _ h6 hs1 (sameNx_follow hs2 hn) (hr a (by simp))
    · exact assigns_same hx asg r r' nx nx' h7 hs2 hn (fun a ha => hr a (by simp [ha]))

theorem body_same (hx : Xfer E E' N N') {t : Nat} {name : List Char} {asg : List (String × PVal)} {ts ts' : List Token}
    (h : WrittenBody E N t name asg ts) (hs : List.Forall₂ (SameTok E E') ts ts')
    (hr : ∀ a ∈ asg, ∀ τ p n, HasRef a.2 τ p n → MayRefer N τ p n → MayRefer N' τ p n) : WrittenBody E' N' t name asg ts' := by
  obtain ⟨x, b, r, k, rfl, h1, h2, h3, h4, h5⟩ := h
  obtain ⟨xbr, k0, rfl, hs1, hk0⟩ := f2_append hs
  obtain ⟨x', _, rfl, hx', hs2⟩ := f2_cons hs1
  obtain ⟨b', r', rfl, hb, hs3⟩ := f2_cons hs2
  obtain ⟨k', rfl, hk⟩ := f2_one hk0
  exact ⟨x', b', r', k', rfl, hx'.kind.trans h1, by rw [sameText hx']; exact h2, hb.kind.trans h3, hk.kind.trans h4,
    assigns_same hx asg r r' _ _ h5 hs3 (sameNx_some hk) hr⟩

/-! ### No braces in values -/

/-- no separator is a brace or `=` -/
def SepsOk (seps : List (List Sep)) : Prop := ∀ ss ∈ seps, ∀ sp ∈ ss, sp ≠ .kind .C_BRA ∧ sp ≠ .kind .C_KET ∧ sp ≠ .kind .ASSIGN

theorem noBrace_of {t : Token} {k : Kind} (h : t.kind = k) (h1 : k ≠ .C_BRA := by decide) (h2 : k ≠ .C_KET := by decide) :
    NoBrace t := by
  unfold NoBrace
  rw [h]
  exact ⟨h1, h2⟩

theorem name_shape {ts : List Token} {e : Ent} (h : NameOf E N ts e) : NameShape ts := by
  rcases h with ⟨t, h1, h2, -⟩ | ⟨t, d, t', p, h1, h2, h3, h4, -⟩
  · exact .inl ⟨t, h1, h2⟩
  · exact .inr ⟨t, d, t', h1, h2, h3, h4⟩

theorem name_noBrace {ts : List Token} (h : NameShape ts) : ∀ t ∈ ts, NoBrace t := by
  rcases h with ⟨t, rfl, h1⟩ | ⟨t, d, t', rfl, h1, h2, h3⟩
  · intro x hx
    rw [List.mem_singleton] at hx
    subst hx
    exact noBrace_of h1
  · intro x hx
    simp only [List.mem_cons, List.not_mem_nil, or_false] at hx
    rcases hx with rfl | rfl | rfl
    · exact noBrace_of h1
    · exact noBrace_of h2
    · exact noBrace_of h3

theorem ref_shape {ts : List Token} {p : Nat} {n : List Char} (h : RefOf E ts p n) : NameShape ts := by
  rcases h with ⟨t, h1, h2, -⟩ | ⟨t, d, t', p, h1, h2, h3, h4, -⟩
  · exact .inl ⟨t, h1, h2⟩
  · exact .inr ⟨t, d, t', h1, h2, h3, h4⟩

theorem one_noBrace {t : Token} (h : NoBrace t) : ∀ x ∈ [t], NoBrace x := by
  intro x hx
  rw [List.mem_singleton] at hx
  subst hx
  exact h

theorem app_noBrace {a b : List Token} (h : ∀ t ∈ a, NoBrace t) (h' : ∀ t ∈ b, NoBrace t) : ∀ t ∈ a ++ b, NoBrace t := by
  intro t ht
  rcases List.mem_append.1 ht with ht | ht
  · exact h t ht
  · exact h' t ht

theorem cons_noBrace {a : Token} {b : List Token} (h : NoBrace a) (h' : ∀ t ∈ b, NoBrace t) : ∀ t ∈ a :: b, NoBrace t :=
  app_noBrace (one_noBrace h) h'

theorem nil_noBrace : ∀ t ∈ ([] : List Token), NoBrace t := fun _ h => by cases h

theorem sep_noBrace {sp : Sep} {t : Token} (h : SepTok sp t) (h' : sp ≠ .kind .C_BRA ∧ sp ≠ .kind .C_KET ∧ sp ≠ .kind .ASSIGN) : NoBrace t := by
  cases sp with
  | kind k =>
    simp only [SepTok] at h
    exact noBrace_of h (fun e => h'.1 (by rw [e])) (fun e => h'.2.1 (by rw [e]))
  | ident v => exact noBrace_of h.1

mutual
theorem written_noBrace (hs : SepsOk N.seps) : (v : PVal) → (τ : Ty) → (ts : List Token) → (nx : Option Token) →
    Written E N v τ ts nx → ∀ t ∈ ts, NoBrace t
  | .inull, _, _, _, h => h.elim
  | .bool _, _, _, _, h => by
    simp only [Written] at h
    obtain ⟨-, t, rfl, h, -⟩ := h
    exact one_noBrace (noBrace_of h)
  | .int _, _, _, _, h => by
    simp only [Written] at h
    obtain ⟨-, t, k, rfl, h, -⟩ := h
    exact one_noBrace (noBrace_of h)
  | .dec _, _, _, _, h => by
    simp only [Written] at h
    obtain ⟨-, t, rfl, h, -⟩ := h
    exact one_noBrace (noBrace_of h)
  | .str _, _, _, _, h => by
    simp only [Written] at h
    obtain ⟨-, t, rfl, h, -⟩ := h
    exact one_noBrace (noBrace_of h)
  | .markup _ _, _, _, _, h => by
    simp only [Written] at h
    obtain ⟨-, t, rfl, h, -⟩ := h
    exact one_noBrace (noBrace_of h)
  | .enum _ _, _, _, _, h => by
    simp only [Written] at h
    obtain ⟨-, n, d, t, ty, rfl, h1, -, -, h2, h3, -⟩ := h
    exact app_noBrace (name_noBrace (name_shape h1)) (cons_noBrace (noBrace_of h2) (one_noBrace (noBrace_of h3)))
  | .neg v, τ, _, nx, h => by
    simp only [Written] at h
    obtain ⟨t, r, rfl, h1, -, h, -⟩ := h
    exact cons_noBrace (noBrace_of h1.1) (written_noBrace hs v τ r nx h)
  | .pos v, τ, _, nx, h => by
    simp only [Written] at h
    obtain ⟨t, r, rfl, h1, -, h, -⟩ := h
    exact cons_noBrace (noBrace_of h1.1) (written_noBrace hs v τ r nx h)
  | .arr ty es, τ, _, _, h => by
    simp only [Written] at h
    obtain ⟨-, id, elem, lo, hi, a, r, b, -, rfl, h1, h2, h, hl⟩ := h
    exact app_noBrace (cons_noBrace (noBrace_of h1) (elems_noBrace hs es elem r _ h)) (one_noBrace (noBrace_of h2))
  | .tup t fs, τ, ts, nx, h => by
    simp only [Written] at h
    obtain ⟨-, cs, -, ⟨seps, h1, -, h⟩ | ⟨-, a, r, b, rfl, h1, h2, h⟩⟩ := h
    · exact sep_noBraces hs fs cs seps (hs seps (List.mem_of_getElem? h1)) false ts nx h
    · exact app_noBrace (cons_noBrace (noBrace_of h1) (plain_noBrace hs fs cs true r _ h)) (one_noBrace (noBrace_of h2))
  | .ref _ _ _, _, _, _, h => by
    simp only [Written] at h
    exact name_noBrace (ref_shape h.2.2.1)

theorem elems_noBrace (hs : SepsOk N.seps) : (es : List PVal) → (τ : Ty) → (ts : List Token) → (nx : Option Token) →
    WrittenElems E N es τ ts nx → ∀ t ∈ ts, NoBrace t
  | [], _, _, _, h => by
    simp only [WrittenElems] at h
    subst h
    exact nil_noBrace
  | e :: es, τ, ts, nx, h => by
    simp only [WrittenElems] at h
    obtain ⟨a, b, rfl, h1, h2⟩ := h
    refine app_noBrace (written_noBrace hs e τ a _ h1) ?_
    rcases h2 with ⟨-, rfl | ⟨c, rfl, hc⟩⟩ | ⟨-, c, r, rfl, hc, h2⟩
    · exact nil_noBrace
    · exact one_noBrace (noBrace_of hc)
    · exact cons_noBrace (noBrace_of hc) (elems_noBrace hs es τ r nx h2)

theorem plain_noBrace (hs : SepsOk N.seps) : (fs : List (String × PVal)) → (cs : List Comp) → (first : Bool) →
    (ts : List Token) → (nx : Option Token) → WrittenPlain E N fs cs first ts nx → ∀ t ∈ ts, NoBrace t
  | [], [], _, _, _, h => by
    simp only [WrittenPlain] at h
    subst h
    exact nil_noBrace
  | [], _ :: _, _, _, _, h => by simp only [WrittenPlain] at h
  | _ :: _, [], _, _, _, h => by simp only [WrittenPlain] at h
  | f :: fs, c :: cs, first, ts, nx, h => by
    simp only [WrittenPlain] at h
    obtain ⟨k, a, b, rfl, h0, h1, h2⟩ := h
    refine app_noBrace (app_noBrace ?_ (field_noBrace hs f c a _ h1)) (plain_noBrace hs fs cs false b nx h2)
    split at h0
    · subst h0
      exact nil_noBrace
    · obtain ⟨x, rfl, hx⟩ := h0
      exact one_noBrace (noBrace_of hx)

theorem sep_noBraces (hs : SepsOk N.seps) : (fs : List (String × PVal)) → (cs : List Comp) → (seps : List Sep) →
    (∀ sp ∈ seps, sp ≠ .kind .C_BRA ∧ sp ≠ .kind .C_KET ∧ sp ≠ .kind .ASSIGN) → (missed : Bool) → (ts : List Token) → (nx : Option Token) →
    WrittenSep E N fs cs seps missed ts nx → ∀ t ∈ ts, NoBrace t
  | [], [], _, _, _, _, _, h => by
    simp only [WrittenSep] at h
    subst h
    exact nil_noBrace
  | [], _ :: _, _, _, _, _, _, h => by simp only [WrittenSep] at h
  | _ :: _, [], _, _, _, _, _, h => by simp only [WrittenSep] at h
  | f :: fs, c :: cs, seps, hss, missed, ts, nx, h => by
    simp only [WrittenSep] at h
    rcases h with ⟨-, -, rfl, -⟩ | ⟨-, a, b, rfl, h1, h2⟩
    · exact nil_noBrace
    · refine app_noBrace (field_noBrace hs f c a _ h1) ?_
      cases seps with
      | nil => exact sep_noBraces hs fs cs [] hss missed b nx h2
      | cons sp seps =>
        have hss' : ∀ sp ∈ seps, sp ≠ .kind .C_BRA ∧ sp ≠ .kind .C_KET ∧ sp ≠ .kind .ASSIGN := fun x hx => hss x (by simp [hx])
        simp only at h2
        rcases h2 with ⟨x, r, rfl, h3, h2⟩ | ⟨-, h2⟩
        · exact cons_noBrace (sep_noBrace h3 (hss sp (by simp))) (sep_noBraces hs fs cs seps hss' missed r nx h2)
        · exact sep_noBraces hs fs cs seps hss' true b nx h2

theorem field_noBrace (hs : SepsOk N.seps) : (f : String × PVal) → (c : Comp) → (ts : List Token) → (nx : Option Token) →
    WrittenField E N f c ts nx → ∀ t ∈ ts, NoBrace t
  | (n, v), c, ts, nx, h => by
    simp only [WrittenField] at h
    exact written_noBrace hs v c.ty ts nx h.2
end

theorem assigns_noBrace (hs : SepsOk N.seps) {t : Nat} : ∀ (asg : List (String × PVal)) (ts : List Token)
    (nx : Option Token), WrittenAssigns E N t asg ts nx → ∀ t ∈ ts, NoBrace t
  | [], _, _, h => by
    simp only [WrittenAssigns] at h
    subst h
    exact nil_noBrace
  | a :: asg, ts, nx, h => by
    simp only [WrittenAssigns] at h
    obtain ⟨x, r, rfl, ⟨x1, y, v, c, rfl, h1, h2, h3, h4, h5, h6⟩, h7⟩ := h
    exact app_noBrace (cons_noBrace (noBrace_of h1) (cons_noBrace (noBrace_of h2) (written_noBrace hs _ _ _ _ h6)))
      (assigns_noBrace hs asg r nx h7)

theorem object_shape {N' : Names} (hs : SepsOk N'.seps) {t : Nat} {name : List Char} {asg : List (String × PVal)}
    {ts : List Token} (h : WrittenObject E N N' t name asg ts) : ObjectShape ts := by
  obtain ⟨a, e, b, rfl, h1, -, -, x, c, r, k, rfl, h2, -, h3, h4, h5⟩ := h
  exact ⟨a, x, c, r, k, by simp, name_shape h1, h2, h3, h4, assigns_noBrace hs asg r _ h5⟩

end Verif.Lemmas.Rearrange
