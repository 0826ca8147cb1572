import Verif.Spec.Reorder
import Verif.Lemmas.Resection
/-!
# The order of assignments
-/
namespace Verif.Lemmas.Rearrange
open Verif.Model Verif.Spec Verif.Lemmas

variable {E E' : FileEnv} {N N' : Names}

/-! ### No `=` in values -/

/-- not `=` -/
def NoAssign (t : Token) : Prop := t.kind ≠ .ASSIGN

theorem noAssign_of {t : Token} {k : Kind} (h : t.kind = k) (h1 : k ≠ .ASSIGN := by decide) :
    NoAssign t := by
  unfold NoAssign
  rw [h]
  exact h1

theorem name_noAssign {ts : List Token} (h : NameShape ts) : ∀ t ∈ ts, NoAssign t := by
  rcases h with ⟨t, rfl, h1⟩ | ⟨t, d, t', rfl, h1, h2, h3⟩
  · intro x hx
    rw [List.mem_singleton] at hx
    subst hx
    exact noAssign_of h1
  · intro x hx
    simp only [List.mem_cons, List.not_mem_nil, or_false] at hx
    rcases hx with rfl | rfl | rfl
    · exact noAssign_of h1
    · exact noAssign_of h2
    · exact noAssign_of h3

theorem one_noAssign {t : Token} (h : NoAssign t) : ∀ x ∈ [t], NoAssign x := by
  intro x hx
  rw [List.mem_singleton] at hx
  subst hx
  exact h

theorem app_noAssign {a b : List Token} (h : ∀ t ∈ a, NoAssign t) (h' : ∀ t ∈ b, NoAssign t) : ∀ t ∈ a ++ b, NoAssign t := by
  intro t ht
  rcases List.mem_append.1 ht with ht | ht
  · exact h t ht
  · exact h' t ht

theorem cons_noAssign {a : Token} {b : List Token} (h : NoAssign a) (h' : ∀ t ∈ b, NoAssign t) : ∀ t ∈ a :: b, NoAssign t :=
  app_noAssign (one_noAssign h) h'

theorem nil_noAssign : ∀ t ∈ ([] : List Token), NoAssign t := fun _ h => by cases h

theorem sep_noAssign {sp : Sep} {t : Token} (h : SepTok sp t) (h' : sp ≠ .kind .C_BRA ∧ sp ≠ .kind .C_KET ∧ sp ≠ .kind .ASSIGN) : NoAssign t := by
  cases sp with
  | kind k =>
    simp only [SepTok] at h
    exact noAssign_of h (fun e => h'.2.2 (by rw [e]))
  | ident v => exact noAssign_of h.1

mutual
theorem written_noAssign (hs : SepsOk N.seps) : (v : PVal) → (τ : Ty) → (ts : List Token) → (nx : Option Token) →
    Written E N v τ ts nx → ∀ t ∈ ts, NoAssign t
  | .inull, _, _, _, h => h.elim
  | .bool _, _, _, _, h => by
    simp only [Written] at h
    obtain ⟨-, t, rfl, h, -⟩ := h
    exact one_noAssign (noAssign_of h)
  | .int _, _, _, _, h => by
    simp only [Written] at h
    obtain ⟨-, t, k, rfl, h, -⟩ := h
    exact one_noAssign (noAssign_of h)
  | .dec _, _, _, _, h => by
    simp only [Written] at h
    obtain ⟨-, t, rfl, h, -⟩ := h
    exact one_noAssign (noAssign_of h)
  | .str _, _, _, _, h => by
    simp only [Written] at h
    obtain ⟨-, t, rfl, h, -⟩ := h
    exact one_noAssign (noAssign_of h)
  | .markup _ _, _, _, _, h => by
    simp only [Written] at h
    obtain ⟨-, t, rfl, h, -⟩ := h
    exact one_noAssign (noAssign_of h)
  | .enum _ _, _, _, _, h => by
    simp only [Written] at h
    obtain ⟨-, n, d, t, ty, rfl, h1, -, -, h2, h3, -⟩ := h
    exact app_noAssign (name_noAssign (name_shape h1)) (cons_noAssign (noAssign_of h2) (one_noAssign (noAssign_of h3)))
  | .neg v, τ, _, nx, h => by
    simp only [Written] at h
    obtain ⟨t, r, rfl, h1, -, h, -⟩ := h
    exact cons_noAssign (noAssign_of h1.1) (written_noAssign hs v τ r nx h)
  | .pos v, τ, _, nx, h => by
    simp only [Written] at h
    obtain ⟨t, r, rfl, h1, -, h, -⟩ := h
    exact cons_noAssign (noAssign_of h1.1) (written_noAssign hs v τ r nx h)
  | .arr ty es, τ, _, _, h => by
    simp only [Written] at h
    obtain ⟨-, id, elem, lo, hi, a, r, b, -, rfl, h1, h2, h, hl⟩ := h
    exact app_noAssign (cons_noAssign (noAssign_of h1) (elems_noAssign hs es elem r _ h)) (one_noAssign (noAssign_of h2))
  | .tup t fs, τ, ts, nx, h => by
    simp only [Written] at h
    obtain ⟨-, cs, -, ⟨seps, h1, -, h⟩ | ⟨-, a, r, b, rfl, h1, h2, h⟩⟩ := h
    · exact sep_noAssigns hs fs cs seps (hs seps (List.mem_of_getElem? h1)) false ts nx h
    · exact app_noAssign (cons_noAssign (noAssign_of h1) (plain_noAssign hs fs cs true r _ h)) (one_noAssign (noAssign_of h2))
  | .ref _ _ _, _, _, _, h => by
    simp only [Written] at h
    exact name_noAssign (ref_shape h.2.2.1)

theorem elems_noAssign (hs : SepsOk N.seps) : (es : List PVal) → (τ : Ty) → (ts : List Token) → (nx : Option Token) →
    WrittenElems E N es τ ts nx → ∀ t ∈ ts, NoAssign t
  | [], _, _, _, h => by
    simp only [WrittenElems] at h
    subst h
    exact nil_noAssign
  | e :: es, τ, ts, nx, h => by
    simp only [WrittenElems] at h
    obtain ⟨a, b, rfl, h1, h2⟩ := h
    refine app_noAssign (written_noAssign hs e τ a _ h1) ?_
    rcases h2 with ⟨-, rfl | ⟨c, rfl, hc⟩⟩ | ⟨-, c, r, rfl, hc, h2⟩
    · exact nil_noAssign
    · exact one_noAssign (noAssign_of hc)
    · exact cons_noAssign (noAssign_of hc) (elems_noAssign hs es τ r nx h2)

theorem plain_noAssign (hs : SepsOk N.seps) : (fs : List (String × PVal)) → (cs : List Comp) → (first : Bool) →
    (ts : List Token) → (nx : Option Token) → WrittenPlain E N fs cs first ts nx → ∀ t ∈ ts, NoAssign t
  | [], [], _, _, _, h => by
    simp only [WrittenPlain] at h
    subst h
    exact nil_noAssign
  | [], _ :: _, _, _, _, h => by simp only [WrittenPlain] at h
  | _ :: _, [], _, _, _, h => by simp only [WrittenPlain] at h
  | f :: fs, c :: cs, first, ts, nx, h => by
    simp only [WrittenPlain] at h
    obtain ⟨k, a, b, rfl, h0, h1, h2⟩ := h
    refine app_noAssign (app_noAssign ?_ (field_noAssign hs f c a _ h1)) (plain_noAssign hs fs cs false b nx h2)
    split at h0
    · subst h0
      exact nil_noAssign
    · obtain ⟨x, rfl, hx⟩ := h0
      exact one_noAssign (noAssign_of hx)

theorem sep_noAssigns (hs : SepsOk N.seps) : (fs : List (String × PVal)) → (cs : List Comp) → (seps : List Sep) →
    (∀ sp ∈ seps, sp ≠ .kind .C_BRA ∧ sp ≠ .kind .C_KET ∧ sp ≠ .kind .ASSIGN) → (missed : Bool) → (ts : List Token) → (nx : Option Token) →
    WrittenSep E N fs cs seps missed ts nx → ∀ t ∈ ts, NoAssign t
  | [], [], _, _, _, _, _, h => by
    simp only [WrittenSep] at h
    subst h
    exact nil_noAssign
  | [], _ :: _, _, _, _, _, _, h => by simp only [WrittenSep] at h
  | _ :: _, [], _, _, _, _, _, h => by simp only [WrittenSep] at h
  | f :: fs, c :: cs, seps, hss, missed, ts, nx, h => by
    simp only [WrittenSep] at h
    rcases h with ⟨-, -, rfl, -⟩ | ⟨-, a, b, rfl, h1, h2⟩
    · exact nil_noAssign
    · refine app_noAssign (field_noAssign hs f c a _ h1) ?_
      cases seps with
      | nil => exact sep_noAssigns hs fs cs [] hss missed b nx h2
      | cons sp seps =>
        have hss' : ∀ sp ∈ seps, sp ≠ .kind .C_BRA ∧ sp ≠ .kind .C_KET ∧ sp ≠ .kind .ASSIGN := fun x hx => hss x (by simp [hx])
        simp only at h2
        rcases h2 with ⟨x, r, rfl, h3, h2⟩ | ⟨-, h2⟩
        · exact cons_noAssign (sep_noAssign h3 (hss sp (by simp))) (sep_noAssigns hs fs cs seps hss' missed r nx h2)
        · exact sep_noAssigns hs fs cs seps hss' true b nx h2

theorem field_noAssign (hs : SepsOk N.seps) : (f : String × PVal) → (c : Comp) → (ts : List Token) → (nx : Option Token) →
    WrittenField E N f c ts nx → ∀ t ∈ ts, NoAssign t
  | (n, v), c, ts, nx, h => by
    simp only [WrittenField] at h
    exact written_noAssign hs v c.ty ts nx h.2
end

/-! ### What comes behind a value -/

/-- neither a dot nor a separator -/
def Neutral (seps : List (List Sep)) (nx : Option Token) : Prop :=
  ∃ t, nx = some t ∧ t.kind ≠ .DOT ∧ ∀ ss ∈ seps, ∀ sp ∈ ss, ¬ SepTok sp t

mutual
theorem written_nx {nx nx' : Option Token} (hn : Neutral N.seps nx') : (v : PVal) → (τ : Ty) → (ts : List Token) →
    Written E N v τ ts nx → Written E N v τ ts nx'
  | .inull, _, _, h => h.elim
  | .bool _, _, _, h => by simpa only [Written] using h
  | .int _, _, _, h => by simpa only [Written] using h
  | .dec _, _, _, h => by simpa only [Written] using h
  | .str _, _, _, h => by simpa only [Written] using h
  | .markup _ _, _, _, h => by simpa only [Written] using h
  | .enum _ _, _, _, h => by simpa only [Written] using h
  | .neg v, τ, _, h => by
    simp only [Written] at h ⊢
    obtain ⟨t, r, h1, h2, h3, h, h4⟩ := h
    exact ⟨t, r, h1, h2, h3, written_nx hn v τ r h, h4⟩
  | .pos v, τ, _, h => by
    simp only [Written] at h ⊢
    obtain ⟨t, r, h1, h2, h3, h, h4⟩ := h
    exact ⟨t, r, h1, h2, h3, written_nx hn v τ r h, h4⟩
  | .arr ty es, τ, _, h => by simpa only [Written] using h
  | .tup t fs, τ, ts, h => by
    simp only [Written] at h ⊢
    obtain ⟨h0, cs, h1, ⟨seps, h2, h3, h⟩ | h⟩ := h
    · refine ⟨h0, cs, h1, .inl ⟨seps, h2, h3, sep_nx hn fs cs seps (fun sp hsp => ?_) false ts h⟩⟩
      exact ⟨seps, List.mem_of_getElem? h2, hsp⟩
    · exact ⟨h0, cs, h1, .inr h⟩
  | .ref _ _ _, _, _, h => by
    simp only [Written] at h ⊢
    obtain ⟨h1, h2, h3, -, h5⟩ := h
    obtain ⟨t, rfl, ht, -⟩ := hn
    refine ⟨h1, h2, h3, fun _ d hd => ?_, h5⟩
    cases hd
    exact ht

theorem sep_nx {nx nx' : Option Token} (hn : Neutral N.seps nx') : (fs : List (String × PVal)) → (cs : List Comp) →
    (seps : List Sep) → (∀ sp ∈ seps, ∃ ss ∈ N.seps, sp ∈ ss) → (missed : Bool) → (ts : List Token) →
    WrittenSep E N fs cs seps missed ts nx → WrittenSep E N fs cs seps missed ts nx'
  | [], [], _, _, _, _, h => by simpa only [WrittenSep] using h
  | [], _ :: _, _, _, _, _, h => by simp only [WrittenSep] at h
  | _ :: _, [], _, _, _, _, h => by simp only [WrittenSep] at h
  | f :: fs, c :: cs, seps, hss, missed, ts, h => by
    simp only [WrittenSep] at h ⊢
    rcases h with h | ⟨h0, a, b, rfl, h1, h2⟩
    · exact .inl h
    · have h1' : WrittenField E N f c a (follow b nx') := by
        cases b with
        | nil => exact field_nx hn f c a h1
        | cons _ _ => exact h1
      refine .inr ⟨h0, a, b, rfl, h1', ?_⟩
      cases seps with
      | nil => exact sep_nx hn fs cs [] hss missed b h2
      | cons sp seps =>
        have hss' : ∀ sp ∈ seps, ∃ ss ∈ N.seps, sp ∈ ss := fun x hx => hss x (by simp [hx])
        simp only at h2 ⊢
        rcases h2 with ⟨x, r, rfl, h3, h2⟩ | ⟨h3, h2⟩
        · exact .inl ⟨x, r, rfl, h3, sep_nx hn fs cs seps hss' missed r h2⟩
        · refine .inr ⟨fun x hx => ?_, sep_nx hn fs cs seps hss' true b h2⟩
          cases b with
          | cons _ _ => exact h3 x hx
          | nil =>
            obtain ⟨t, rfl, -, ht⟩ := hn
            cases hx
            obtain ⟨ss, a1, a2⟩ := hss sp (by simp)
            exact ht ss a1 sp a2

theorem field_nx {nx nx' : Option Token} (hn : Neutral N.seps nx') : (f : String × PVal) → (c : Comp) → (ts : List Token) →
    WrittenField E N f c ts nx → WrittenField E N f c ts nx'
  | (n, v), c, ts, h => by
    simp only [WrittenField] at h ⊢
    exact ⟨h.1, written_nx hn v c.ty ts h.2⟩
end

theorem assign_nx {nx nx' : Option Token} (hn : Neutral N.seps nx') {t : Nat} {a : String × PVal} {ts : List Token}
    (h : WrittenAssign E N t a ts nx) : WrittenAssign E N t a ts nx' := by
  obtain ⟨x, y, r, c, h1, h2, h3, h4, h5, h6, h7⟩ := h
  exact ⟨x, y, r, c, h1, h2, h3, h4, h5, h6, written_nx hn _ _ _ h7⟩

/-! ### Finding the assignments -/

/-- nothing, or a name and `=` -/
def Starts (r : List Token) : Prop := r = [] ∨ ∃ x y z, r = x :: y :: z ∧ x.kind = .IDENTIFIER ∧ y.kind = .ASSIGN

theorem starts_not {y : Token} {z : List Token} (h : Starts (y :: z)) (hy : y.kind = .ASSIGN) : False := by
  rcases h with h | ⟨a, b, c, h, h1, -⟩
  · cases h
  · cases h
    rw [hy] at h1
    cases h1

theorem cut_aux {w : Token} {v r r' : List Token} (hv : ∀ t ∈ v, NoAssign t) (hr : Starts r) (hr' : Starts r')
    (e : r = w :: v ++ r') : False := by
  rcases hr with rfl | ⟨x, y, z, rfl, h1, h2⟩
  · cases e
  · simp only [List.cons_append, List.cons.injEq] at e
    cases v with
    | nil =>
      rw [List.nil_append] at e
      rw [← e.2] at hr'
      exact starts_not hr' h2
    | cons a v =>
      simp only [List.cons_append, List.cons.injEq] at e
      exact hv a (by simp) (by rw [← e.2.1]; exact h2)

theorem cut {v r r' : List Token} : ∀ {v' : List Token}, (∀ t ∈ v, NoAssign t) → (∀ t ∈ v', NoAssign t) → Starts r → Starts r' →
    v ++ r = v' ++ r' → v = v' ∧ r = r' := by
  induction v with
  | nil =>
    intro v' _ hv' hr hr' e
    cases v' with
    | nil => exact ⟨rfl, e⟩
    | cons w v' => exact (cut_aux (fun t ht => hv' t (by simp [ht])) hr hr' e).elim
  | cons a v ih =>
    intro v' hv hv' hr hr' e
    cases v' with
    | nil => exact (cut_aux (fun t ht => hv t (by simp [ht])) hr' hr e.symm).elim
    | cons w v' =>
      simp only [List.cons_append, List.cons.injEq] at e
      obtain ⟨rfl, e⟩ := e
      obtain ⟨rfl, h⟩ := ih (fun t ht => hv t (by simp [ht])) (fun t ht => hv' t (by simp [ht])) hr hr' e
      exact ⟨rfl, h⟩

theorem starts_flatten {as : List (List Token)} (h : ∀ a ∈ as, AssignShape a) : Starts as.flatten := by
  cases as with
  | nil => exact .inl rfl
  | cons a as =>
    obtain ⟨x, y, v, rfl, h1, h2, -⟩ := h a (by simp)
    exact .inr ⟨x, y, v ++ as.flatten, rfl, h1, h2⟩

theorem starts_assigns {t : Nat} : ∀ {asg : List (String × PVal)} {ts : List Token} {nx : Option Token},
    WrittenAssigns E N t asg ts nx → Starts ts
  | [], _, _, h => by
    simp only [WrittenAssigns] at h
    exact .inl h
  | _ :: _, _, _, h => by
    simp only [WrittenAssigns] at h
    obtain ⟨x, r, rfl, ⟨x1, y, v, c, rfl, h1, h2, -⟩, -⟩ := h
    exact .inr ⟨x1, y, v ++ r, rfl, h1, h2⟩

theorem neutral_follow {seps : List (List Sep)} {as : List (List Token)} (h : ∀ a ∈ as, AssignShape a ∧ NoSeparator seps a)
    {nx : Option Token} (hn : Neutral seps nx) : Neutral seps (follow as.flatten nx) := by
  cases as with
  | nil => exact hn
  | cons a as =>
    obtain ⟨⟨x, y, v, rfl, h1, -, -⟩, h2⟩ := h a (by simp)
    exact ⟨x, rfl, by rw [h1]; decide, h2 x rfl⟩

theorem assigns_split (hs : SepsOk N.seps) {t : Nat} {nx : Option Token} (hn : Neutral N.seps nx) :
    ∀ (asg : List (String × PVal)) (as : List (List Token)), WrittenAssigns E N t asg as.flatten nx →
    (∀ a ∈ as, AssignShape a ∧ NoSeparator N.seps a) → List.Forall₂ (fun a b => WrittenAssign E N t b a nx) as asg
  | [], as, h, ha => by
    simp only [WrittenAssigns] at h
    cases as with
    | nil => exact .nil
    | cons a as =>
      obtain ⟨⟨x, y, v, rfl, -⟩, -⟩ := ha a (by simp)
      cases h
  | b :: asg, as, h, ha => by
    simp only [WrittenAssigns] at h
    obtain ⟨x, r, e, ⟨x1, y, v, c, rfl, h1, h2, h3, h4, h5, h6⟩, h7⟩ := h
    cases as with
    | nil => cases e
    | cons a as =>
      have ha' : ∀ a ∈ as, AssignShape a ∧ NoSeparator N.seps a := fun a h => ha a (by simp [h])
      obtain ⟨⟨x1', y', v', rfl, k1, k2, k3⟩, k4⟩ := ha _ List.mem_cons_self
      simp only [List.flatten_cons, List.cons_append, List.cons.injEq] at e
      obtain ⟨rfl, rfl, e⟩ := e
      obtain ⟨rfl, rfl⟩ := cut k3 (written_noAssign hs _ _ _ _ h6) (starts_flatten fun a h => (ha' a h).1) (starts_assigns h7) e
      exact .cons ⟨x1', y', v', c, rfl, h1, h2, h3, h4, h5, written_nx hn _ _ _ h6⟩ (assigns_split hs hn asg as h7 ha')

theorem assigns_join {t : Nat} {nx : Option Token} (hn : Neutral N.seps nx) {as : List (List Token)} {asg : List (String × PVal)}
    (h : List.Forall₂ (fun a b => WrittenAssign E N t b a nx) as asg) :
    (∀ a ∈ as, AssignShape a ∧ NoSeparator N.seps a) → WrittenAssigns E N t asg as.flatten nx := by
  induction h with
  | nil =>
    intro _
    simp only [WrittenAssigns, List.flatten_nil]
  | cons h1 _ ih =>
    intro ha
    have ha' := fun a h => ha a (List.mem_cons_of_mem _ h)
    simp only [WrittenAssigns, List.flatten_cons]
    exact ⟨_, _, rfl, assign_nx (neutral_follow ha' hn) h1, ih ha'⟩

variable {g : STab} {B : Names}

/-- The assignments can be written in another order. -/
theorem readsAs_reordered (hb : Base g B) (hs : SepsOk B.seps) {p p' : Piece} {x : Obj × List (String × PVal)} (hE : p.env.global = g)
    (h : Reordered B.seps p p') (hr : ReadsAs g B p x) : ∃ x', Again x x' ∧ ReadsAs g B p' x' := by
  obtain ⟨n, x1, b1, as, as', k1, e1, h1, h2, h3, h4, h5, h6, h7⟩ := h.toks
  obtain ⟨r1, r2, a, e, b, N, ds, r3, r4, r5, r6, r7, r8, y, c, r, k, rfl, q1, q2, q3, q4, q5⟩ := hr
  have e2 : (n ++ [x1]) ++ b1 :: (as.flatten ++ [k1]) = (a ++ [y]) ++ c :: (r ++ [k]) := by
    have := e1.symm.trans r3
    simpa using this
  obtain ⟨e3, rfl, e4⟩ := upto_bra (app_noBrace (name_noBrace h1) (one_noBrace (noBrace_of h2)))
    (app_noBrace (name_noBrace (name_shape r4)) (one_noBrace (noBrace_of q1))) h3 q3 e2
  obtain ⟨rfl, e5⟩ := List.append_inj' e3 rfl
  cases e5
  obtain ⟨rfl, e6⟩ := List.append_inj' e4 rfl
  cases e6
  have hN : N.seps = B.seps := r7.seps
  have hs' : SepsOk N.seps := by rw [hN]; exact hs
  have hn : Neutral N.seps (some k1) := by
    refine ⟨k1, rfl, by rw [h4]; decide, fun ss a1 sp a2 hsp => ?_⟩
    have := (hs' ss a1 sp a2).2.1
    cases sp with
    | kind k => exact this (by rw [← (show k1.kind = k from hsp), h4])
    | ident v => rw [hsp.1] at h4; cases h4
  have h5' : ∀ a ∈ as, AssignShape a ∧ NoSeparator N.seps a := by rw [hN]; exact h5
  obtain ⟨asg', p1, p2⟩ := f2_perm h6 (assigns_split hs' hn x.2 as q5 h5')
  have q5' := assigns_join hn p2 fun a ha => h5' a (h6.mem_iff.2 ha)
  have hr' : ReadsAs g B { p with toks := n ++ x1 :: b1 :: as'.flatten ++ [k1] } (x.1, asg') :=
    ⟨r1, r2, n, e, x1 :: b1 :: as'.flatten ++ [k1], N, ds, by simp, r4, r5, r6, r7, r8,
      x1, b1, as'.flatten, k1, rfl, q1, q2, q3, q4, q5'⟩
  obtain ⟨x', hx, hx'⟩ := readsAs_decl (p := { p with toks := n ++ x1 :: b1 :: as'.flatten ++ [k1] }) (p' := p') hb hE ⟨⟨h.global, h.pkg, h.imports, h.resolved⟩, h7⟩ hr'
  exact ⟨x', ⟨hx.pkg, hx.name, hx.typ, hx.fields, p1.trans hx.asg⟩, hx'⟩

end Verif.Lemmas.Rearrange
