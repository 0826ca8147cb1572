import Verif.Lemmas.SameExpr
import Verif.Spec.LessChecks
/-!
# Declarations of types and checks may be written elsewhere, and without some of the checks
-/
namespace Verif.Lemmas.LessChecks
open Verif.Model Verif.Spec Verif.Lemmas Verif.Lemmas.Rearrange

variable {E E' : FileEnv} {N : Names} {W W1 : World} {rx : Regex}

/-! ### No braces -/

theorem described_noBrace {n : List Char} {ts : List Token} (h : Described n ts) : ∀ t ∈ ts, NoBrace t := by
  obtain ⟨t, h1, -, rfl | ⟨d, h2, rfl⟩⟩ := h
  · exact one_noBrace (noBrace_of h1)
  · exact cons_noBrace (noBrace_of h1) (one_noBrace (noBrace_of h2))

theorem recNames_noBrace {ms : List Nat} {ts : List Token} (h : RecNames E N ms ts) : ∀ t ∈ ts, NoBrace t := by
  induction h with
  | one h _ => exact name_noBrace (name_shape h)
  | more _ hc h _ ih => exact app_noBrace ih (cons_noBrace (noBrace_of hc) (name_noBrace (name_shape h)))

theorem type_noBrace {n n' : Nat} {τ : Ty} {ts : List Token} (h : TypeText E N n τ ts n') : ∀ t ∈ ts, NoBrace t := by
  cases h with
  | name h _ => exact name_noBrace (name_shape h)
  | union h1 h2 _ h3 => exact app_noBrace (cons_noBrace (noBrace_of h1) (recNames_noBrace h2)) (one_noBrace (noBrace_of h3))

theorem upper_noBrace {hi : Option Nat} {t : Token} (h : UpperText hi t) : NoBrace t := by
  cases hi with
  | none => exact op_noBrace h
  | some => exact noBrace_of h.1

theorem compType_noBrace {n n' : Nat} {τ : Ty} {ts : List Token} (h : CompTypeText E N n τ ts n') : ∀ t ∈ ts, NoBrace t := by
  cases h with
  | single h => exact type_noBrace h
  | arr h h1 h2 _ h3 h4 h5 =>
    exact app_noBrace (type_noBrace h) (cons_noBrace (noBrace_of h1) (cons_noBrace (noBrace_of h2) (cons_noBrace (noBrace_of h3)
      (cons_noBrace (upper_noBrace h4) (one_noBrace (noBrace_of h5))))))

theorem optional_noBrace {o : Bool} {ts : List Token} (h : OptionalText o ts) : ∀ t ∈ ts, NoBrace t := by
  unfold OptionalText at h
  split at h
  · obtain ⟨t, h, rfl⟩ := h
    exact one_noBrace (kw_noBrace h)
  · subst h
    exact nil_noBrace

theorem member_noBrace {ty : Nat → Ty → List Token → Nat → Prop} (hty : ∀ {n τ ts n'}, ty n τ ts n' → ∀ t ∈ ts, NoBrace t)
    {n n' : Nat} {c : Comp} {ts : List Token} (h : MemberText ty n c ts n') : ∀ t ∈ ts, NoBrace t := by
  obtain ⟨a, o, τ, rfl, h1, h2, h3⟩ := h
  exact app_noBrace (described_noBrace h1) (app_noBrace (optional_noBrace h2) (hty h3))

theorem literals_noBrace {ls : List String} {ts : List Token} (h : LiteralsText ls ts) : ∀ t ∈ ts, NoBrace t := by
  induction h with
  | nil => exact nil_noBrace
  | cons h _ ih => exact app_noBrace (described_noBrace h) ih

theorem plainFields_noBrace {t n n' : Nat} {cs : List Comp} {ts : List Token} (h : PlainFieldsText E N t n cs ts n') : ∀ t ∈ ts, NoBrace t := by
  induction h with
  | one h => exact member_noBrace type_noBrace h.2
  | more _ h ih => exact app_noBrace ih (member_noBrace type_noBrace h.2)

theorem separator_noBrace {sp : Sep} {x : Token} (h : SeparatorTok sp x) : NoBrace x := by
  rcases h with ⟨h, -⟩ | ⟨h | h | h, -⟩ <;> exact noBrace_of h

theorem sepFields_noBrace {t n n' : Nat} {cs : List Comp} {ss : List Sep} {ts : List Token} (h : SepFieldsText E N t n cs ss ts n') :
    ∀ t ∈ ts, NoBrace t := by
  induction h with
  | one h => exact member_noBrace type_noBrace h.2
  | more _ h1 h2 h ih =>
    exact app_noBrace ih (cons_noBrace (kw_noBrace h1) (cons_noBrace (separator_noBrace h2) (member_noBrace type_noBrace h.2)))

theorem fields_noBrace {t n' : Nat} {cs : List Comp} {ss : List Sep} {ts : List Token} (h : FieldsText E W t cs ss ts n') :
    ∀ t ∈ ts, NoBrace t := by
  rcases h with ⟨-, ⟨-, h, -⟩ | ⟨-, h, -⟩⟩
  · exact plainFields_noBrace h
  · exact sepFields_noBrace h

theorem modifier_noBrace {x y : Bool} {ts : List Token} (h : ModifierText x y ts) : ∀ t ∈ ts, NoBrace t := by
  rcases h with ⟨rfl, -⟩ | ⟨k, rfl, h, -⟩ | ⟨k, rfl, h, -⟩
  · exact nil_noBrace
  · exact one_noBrace (kw_noBrace h)
  · exact one_noBrace (kw_noBrace h)

theorem extends_noBrace {p : Option Nat} {ts : List Token} (h : ExtendsText E N p ts) : ∀ t ∈ ts, NoBrace t := by
  rcases h with ⟨rfl, -⟩ | ⟨k, a, e, rfl, h1, h2, -⟩
  · exact nil_noBrace
  · exact cons_noBrace (kw_noBrace h1) (name_noBrace (name_shape h2))

theorem members_noBrace (hs : SepsOk N.seps) {p : Option Nat} {cs : List Comp} {fz : List (String × VNode)} {ts : List Token}
    {nx : Option Token} {n : Nat} (h : MembersText E N W p cs fz ts nx n) : ∀ t ∈ ts, NoBrace t := by
  induction h with
  | nil => exact nil_noBrace
  | comp _ _ h _ ih => exact app_noBrace ih (member_noBrace compType_noBrace h)
  | freeze _ h1 h2 _ _ _ _ h3 h4 ih =>
    exact app_noBrace ih (cons_noBrace (kw_noBrace h1) (cons_noBrace (noBrace_of h2) (cons_noBrace (noBrace_of h3)
      (written_noBrace (N := { N with decls := Decls.withRec W.decls p _ }) hs _ _ _ _ h4))))

theorem severity_noBrace {sev : Severity} {ts : List Token} (h : SeverityText sev ts) : ∀ t ∈ ts, NoBrace t := by
  rcases h with ⟨rfl, -⟩ | ⟨k, rfl, h⟩
  · exact nil_noBrace
  · exact one_noBrace (kw_noBrace h)

theorem extras_noBrace {D : Decls} {ct : CompositeTy} {anchor : Option String} {ts : List Token} (h : ExtrasText D ct anchor ts) :
    ∀ t ∈ ts, NoBrace t := by
  obtain ⟨d, a, rfl, h1, h2⟩ := h
  refine app_noBrace ?_ ?_
  · rcases h1 with rfl | ⟨c, s, rfl, h3, h4⟩
    · exact nil_noBrace
    · exact cons_noBrace (noBrace_of h3) (one_noBrace (noBrace_of h4))
  · cases anchor with
    | none => dsimp only at h2; subst h2; exact nil_noBrace
    | some n =>
      obtain ⟨c, x, m, rfl, h3, h4, -⟩ := h2
      exact cons_noBrace (noBrace_of h3) (one_noBrace (noBrace_of h4))

theorem checks_noBrace {ct : CompositeTy} {ks : List Check} {ts : List Token} (h : ChecksText E rx W ct ks ts) : ∀ t ∈ ts, NoBrace t := by
  induction h with
  | nil => exact nil_noBrace
  | cons h _ ih =>
    obtain ⟨comp, e, r, c, sv, m, x, rfl, -, h1, -, h2, h3, h4, -, -, h5⟩ := h
    exact app_noBrace (app_noBrace (expr_noBrace h1) (cons_noBrace (noBrace_of h2) (app_noBrace (severity_noBrace h3)
      (cons_noBrace (noBrace_of h4) (extras_noBrace h5))))) ih

theorem item_shape (hs : SepsOk W.seps) {ts : List Token} (h : ItemText E rx W ts W1) : BlockShape ts := by
  cases h with
  | @enum k name a b ls ts c tabs h1 h2 h3 h4 _ _ h5 _ =>
    exact ⟨k :: a, b, ts, c, by simp, cons_noBrace (kw_noBrace h1) (described_noBrace h2), h3, literals_noBrace h4, h5⟩
  | @tuple k name a b cs seps ts c tabs n h1 h2 h3 h4 h5 _ =>
    exact ⟨k :: a, b, ts, c, by simp, cons_noBrace (kw_noBrace h1) (described_noBrace h2), h3, fields_noBrace h4, h5⟩
  | @record m isAbstract isFinal k name a x parent parentFinal b cs fz ts c tabs n h1 h2 h3 h4 _ _ h5 h6 _ h7 =>
    exact ⟨m ++ k :: a ++ x, b, ts, c, by simp,
      app_noBrace (app_noBrace (modifier_noBrace h1) (cons_noBrace (kw_noBrace h2) (described_noBrace h3))) (extends_noBrace h4), h5,
      members_noBrace hs h6, h7⟩
  | @checks k x e ct b ks ts c h1 h2 _ _ h3 h4 h5 =>
    exact ⟨[k, x], b, ts, c, by simp, cons_noBrace (kw_noBrace h1) (one_noBrace (noBrace_of h2)), h3, checks_noBrace h4, h5⟩

/-- where the first block of a text ends -/
theorem block_first {a a' r r' : List Token} (h : BlockShape a) (h' : BlockShape a') (e : a ++ r = a' ++ r') : a = a' ∧ r = r' := by
  obtain ⟨x, b, y, k, rfl, h1, h2, h3, h4⟩ := h
  obtain ⟨x', b', y', k', rfl, h1', h2', h3', h4'⟩ := h'
  simp only [List.append_assoc, List.cons_append, List.nil_append] at e
  obtain ⟨rfl, rfl, e2⟩ := upto_bra h1 h1' h2 h2' e
  obtain ⟨rfl, rfl, rfl⟩ := upto_ket h3 h3' h4 h4' e2
  exact ⟨rfl, rfl⟩

/-! ### The same elsewhere -/

theorem SameEnv.xfer (x : SameEnv E E') : Xfer E E' N N where
  global := x.global
  pkg := x.pkg
  imports := x.imports
  resolved := x.resolved
  decls := rfl
  seps := rfl
  name hs _ h := x.name hs h

theorem described_same {n : List Char} {ts ts' : List Token} (h : Described n ts) (hs : Same E E' ts ts') : Described n ts' := by
  obtain ⟨t, h1, h2, rfl | ⟨d, h3, rfl⟩⟩ := h
  · obtain ⟨t', rfl, k⟩ := f2_one hs
    exact ⟨t', k.kind.trans h1, (sameText k).trans h2, .inl rfl⟩
  · obtain ⟨t', _, rfl, k, hs⟩ := f2_cons hs
    obtain ⟨d', rfl, k'⟩ := f2_one hs
    exact ⟨t', k.kind.trans h1, (sameText k).trans h2, .inr ⟨d', k'.kind.trans h3, rfl⟩⟩

theorem recNames_same (x : SameEnv E E') {ms : List Nat} {ts : List Token} (h : RecNames E N ms ts) :
    ∀ {ts'}, Same E E' ts ts' → RecNames E' N ms ts' := by
  induction h with
  | one h h1 => exact fun hs => .one (x.name hs h) h1
  | more _ hc h h1 ih =>
    intro ts' hs
    obtain ⟨_, _, rfl, k1, hs⟩ := f2_append hs
    obtain ⟨_, _, rfl, k2, k3⟩ := f2_cons hs
    exact .more (ih k1) (k2.kind.trans hc) (x.name k3 h) h1

theorem type_same (x : SameEnv E E') {n n' : Nat} {τ : Ty} {ts ts' : List Token} (h : TypeText E N n τ ts n') (hs : Same E E' ts ts') :
    TypeText E' N n τ ts' n' := by
  cases h with
  | name h h1 => exact .name (x.name hs h) h1
  | union h1 h2 h3 h4 =>
    obtain ⟨_, _, rfl, g1, g2⟩ := f2_append hs
    obtain ⟨_, _, rfl, k0, k1⟩ := f2_cons g1
    obtain ⟨_, rfl, k2⟩ := f2_one g2
    exact .union (k0.kind.trans h1) (recNames_same x h2 k1) h3 (k2.kind.trans h4)

theorem upper_same {hi : Option Nat} {t t' : Token} (h : UpperText hi t) (hs : SameTok E E' t t') : UpperText hi t' := by
  cases hi with
  | none => exact op_same h hs
  | some => exact ⟨hs.kind.trans h.1, hs.value.trans h.2⟩

theorem compType_same (x : SameEnv E E') {n n' : Nat} {τ : Ty} {ts ts' : List Token} (h : CompTypeText E N n τ ts n')
    (hs : Same E E' ts ts') : CompTypeText E' N n τ ts' n' := by
  cases h with
  | single h => exact .single (type_same x h hs)
  | arr h h1 h2 h3 h4 h5 h6 =>
    obtain ⟨_, _, rfl, k1, hs⟩ := f2_append hs
    obtain ⟨_, _, rfl, k2, hs⟩ := f2_cons hs
    obtain ⟨_, _, rfl, k3, hs⟩ := f2_cons hs
    obtain ⟨_, _, rfl, k4, hs⟩ := f2_cons hs
    obtain ⟨_, _, rfl, k5, hs⟩ := f2_cons hs
    obtain ⟨_, rfl, k6⟩ := f2_one hs
    exact .arr (type_same x h k1) (k2.kind.trans h1) (k3.kind.trans h2) (k3.value.trans h3) (k4.kind.trans h4) (upper_same h5 k5)
      (k6.kind.trans h6)

theorem optional_same {o : Bool} {ts ts' : List Token} (h : OptionalText o ts) (hs : Same E E' ts ts') : OptionalText o ts' := by
  unfold OptionalText at h ⊢
  by_cases ho : o = true
  · rw [if_pos ho] at h ⊢
    obtain ⟨t, h, rfl⟩ := h
    obtain ⟨t', rfl, k⟩ := f2_one hs
    exact ⟨t', kw_same h k, rfl⟩
  · rw [if_neg ho] at h ⊢
    subst h
    cases hs
    rfl

theorem member_same {ty ty' : Nat → Ty → List Token → Nat → Prop}
    (hty : ∀ {n τ ts ts' n'}, ty n τ ts n' → Same E E' ts ts' → ty' n τ ts' n')
    {n n' : Nat} {c : Comp} {ts ts' : List Token} (h : MemberText ty n c ts n') (hs : Same E E' ts ts') : MemberText ty' n c ts' n' := by
  obtain ⟨a, o, τ, rfl, h1, h2, h3⟩ := h
  obtain ⟨a', _, rfl, k1, hs⟩ := f2_append hs
  obtain ⟨o', τ', rfl, k2, k3⟩ := f2_append hs
  exact ⟨a', o', τ', rfl, described_same h1 k1, optional_same h2 k2, hty h3 k3⟩

theorem literals_same {ls : List String} {ts : List Token} (h : LiteralsText ls ts) : ∀ {ts'}, Same E E' ts ts' → LiteralsText ls ts' := by
  induction h with
  | nil => intro ts' hs; cases hs; exact .nil
  | cons h _ ih =>
    intro ts' hs
    obtain ⟨_, _, rfl, k1, k2⟩ := f2_append hs
    exact .cons (described_same h k1) (ih k2)

theorem plain_same (x : SameEnv E E') {t n n' : Nat} {cs : List Comp} {ts : List Token} (h : PlainFieldsText E N t n cs ts n') :
    ∀ {ts'}, Same E E' ts ts' → PlainFieldsText E' N t n cs ts' n' := by
  induction h with
  | one h => exact fun hs => .one ⟨h.1, member_same (ty := TypeText E N) (ty' := TypeText E' N) (fun h hs => type_same x h hs) h.2 hs⟩
  | more _ h ih =>
    intro ts' hs
    obtain ⟨_, _, rfl, k1, k2⟩ := f2_append hs
    exact .more (ih k1) ⟨h.1, member_same (ty := TypeText E N) (ty' := TypeText E' N) (fun h hs => type_same x h hs) h.2 k2⟩

theorem separator_same {sp : Sep} {t t' : Token} (h : SeparatorTok sp t) (hs : SameTok E E' t t') : SeparatorTok sp t' := by
  unfold SeparatorTok at h ⊢
  rw [hs.kind, sameText hs]
  exact h

theorem sepFields_same (x : SameEnv E E') {t n n' : Nat} {cs : List Comp} {ss : List Sep} {ts : List Token}
    (h : SepFieldsText E N t n cs ss ts n') : ∀ {ts'}, Same E E' ts ts' → SepFieldsText E' N t n cs ss ts' n' := by
  induction h with
  | one h => exact fun hs => .one ⟨h.1, member_same (ty := TypeText E N) (ty' := TypeText E' N) (fun h hs => type_same x h hs) h.2 hs⟩
  | more _ h1 h2 h ih =>
    intro ts' hs
    obtain ⟨_, _, rfl, k1, hs⟩ := f2_append hs
    obtain ⟨_, _, rfl, k2, hs⟩ := f2_cons hs
    obtain ⟨_, _, rfl, k3, k4⟩ := f2_cons hs
    exact .more (ih k1) (kw_same h1 k2) (separator_same h2 k3) ⟨h.1, member_same (ty := TypeText E N) (ty' := TypeText E' N) (fun h hs => type_same x h hs) h.2 k4⟩

theorem fields_same (x : SameEnv E E') (C : CheckTab) {t n' : Nat} {cs : List Comp} {ss : List Sep} {ts ts' : List Token}
    (h : FieldsText E W t cs ss ts n') (hs : Same E E' ts ts') : FieldsText E' { W with checks := C } t cs ss ts' n' := by
  rcases h with ⟨h0, ⟨h1, h2, h3⟩ | ⟨h1, h2, h3⟩⟩
  · exact ⟨h0, .inl ⟨h1, plain_same x h2 hs, h3⟩⟩
  · exact ⟨h0, .inr ⟨h1, sepFields_same x h2 hs, h3⟩⟩

theorem modifier_same {y z : Bool} {ts ts' : List Token} (h : ModifierText y z ts) (hs : Same E E' ts ts') : ModifierText y z ts' := by
  rcases h with ⟨rfl, h⟩ | ⟨k, rfl, h, h'⟩ | ⟨k, rfl, h, h'⟩
  · cases hs
    exact .inl ⟨rfl, h⟩
  · obtain ⟨_, rfl, k⟩ := f2_one hs
    exact .inr (.inl ⟨_, rfl, kw_same h k, h'⟩)
  · obtain ⟨_, rfl, k⟩ := f2_one hs
    exact .inr (.inr ⟨_, rfl, kw_same h k, h'⟩)

theorem extends_same (x : SameEnv E E') {p : Option Nat} {ts ts' : List Token} (h : ExtendsText E N p ts) (hs : Same E E' ts ts') :
    ExtendsText E' N p ts' := by
  rcases h with ⟨rfl, h⟩ | ⟨k, a, e, rfl, h1, h2, h3⟩
  · cases hs
    exact .inl ⟨rfl, h⟩
  · obtain ⟨_, _, rfl, k1, k2⟩ := f2_cons hs
    exact .inr ⟨_, _, e, rfl, kw_same h1 k1, x.name k2 h2, h3⟩

theorem members_same (x : SameEnv E E') (C : CheckTab) {p : Option Nat} {cs : List Comp} {fz : List (String × VNode)} {ts : List Token}
    {nx : Option Token} {n : Nat} (h : MembersText E N W p cs fz ts nx n) :
    ∀ {ts' nx'}, Same E E' ts ts' → SameNx E E' nx nx' → MembersText E' N { W with checks := C } p cs fz ts' nx' n := by
  induction h with
  | nil =>
    intro ts' nx' hs _
    cases hs
    exact .nil
  | comp _ h1 h2 h3 ih =>
    intro ts' nx' hs hn
    obtain ⟨_, _, rfl, k1, k2⟩ := f2_append hs
    exact .comp (ih k1 (sameNx_follow k2 hn)) h1 (member_same (ty := CompTypeText E N) (ty' := CompTypeText E' N) (fun h hs => compType_same x h hs) h2 k2) h3
  | freeze _ h1 h2 h3 h4 h5 h6 h7 h8 ih =>
    intro ts' nx' hs hn
    obtain ⟨_, _, rfl, k1, hs⟩ := f2_append hs
    obtain ⟨_, _, rfl, k2, hs⟩ := f2_cons hs
    obtain ⟨_, _, rfl, k3, hs⟩ := f2_cons hs
    obtain ⟨_, _, rfl, k4, k5⟩ := f2_cons hs
    exact .freeze (ih k1 (sameNx_some k2)) (kw_same h1 k2) (k3.kind.trans h2) (by rw [sameText k3]; exact h3) h4 h5 h6
      (k4.kind.trans h7) (written_same x.xfer _ _ _ _ _ _ h8 k5 hn (fun _ _ _ _ h => h))

theorem severity_same {sev : Severity} {ts ts' : List Token} (h : SeverityText sev ts) (hs : Same E E' ts ts') : SeverityText sev ts' := by
  rcases h with ⟨rfl, h⟩ | ⟨k, rfl, h⟩
  · cases hs
    exact .inl ⟨rfl, h⟩
  · obtain ⟨_, rfl, k⟩ := f2_one hs
    exact .inr ⟨_, rfl, kw_same h k⟩

theorem extras_same {D : Decls} {ct : CompositeTy} {anchor : Option String} {ts ts' : List Token} (h : ExtrasText D ct anchor ts)
    (hs : Same E E' ts ts') : ExtrasText D ct anchor ts' := by
  obtain ⟨d, a, rfl, h1, h2⟩ := h
  obtain ⟨d', a', rfl, k1, k2⟩ := f2_append hs
  refine ⟨d', a', rfl, ?_, ?_⟩
  · rcases h1 with rfl | ⟨c, s, rfl, h3, h4⟩
    · cases k1; exact .inl rfl
    · obtain ⟨_, _, rfl, g1, g0⟩ := f2_cons k1
      obtain ⟨_, rfl, g2⟩ := f2_one g0
      exact .inr ⟨_, _, rfl, g1.kind.trans h3, g2.kind.trans h4⟩
  · cases anchor with
    | none => dsimp only at h2 ⊢; subst h2; cases k2; rfl
    | some n =>
      obtain ⟨c, y, m, rfl, h3, h4, h5, h6⟩ := h2
      obtain ⟨_, _, rfl, g1, g0⟩ := f2_cons k2
      obtain ⟨_, rfl, g2⟩ := f2_one g0
      exact ⟨_, _, m, rfl, g1.kind.trans h3, g2.kind.trans h4, by rw [sameText g2]; exact h5, h6⟩

theorem scopeIn_same (x : SameEnv E E') (comp : String → Option Comp) (vs : List (String × Ty)) :
    scopeIn E' N comp vs = scopeIn E N comp vs := by
  have h : enumsOf E' N = enumsOf E N := by
    funext l
    unfold enumsOf meaning FileEnv.isVisible
    rw [x.global, x.pkg, x.imports, x.resolved]
  unfold scopeIn
  rw [h, x.global, x.pkg]

theorem checks_same (x : SameEnv E E') (C : CheckTab) {ct : CompositeTy} {ks : List Check} {ts : List Token}
    (h : ChecksText E rx W ct ks ts) : ∀ {ts'}, Same E E' ts ts' → ChecksText E' rx { W with checks := C } ct ks ts' := by
  induction h with
  | nil => intro ts' hs; cases hs; exact .nil
  | cons h _ ih =>
    intro ts' hs
    obtain ⟨_, _, rfl, k1, k2⟩ := f2_append hs
    refine .cons ?_ (ih k2)
    obtain ⟨comp, e, r, c, sv, m, y, rfl, h0, h1, h2, h3, h4, h5, h6, h7, h8⟩ := h
    obtain ⟨_, _, rfl, g1, hs⟩ := f2_append k1
    obtain ⟨_, _, rfl, g2, hs⟩ := f2_cons hs
    obtain ⟨_, _, rfl, g3, hs⟩ := f2_append hs
    obtain ⟨_, _, rfl, g4, g5⟩ := f2_cons hs
    exact ⟨comp, _, r, _, _, _, _, rfl, h0, expr_same x h1 g1, by rw [scopeIn_same x]; exact h2, g2.kind.trans h3, severity_same h4 g3,
      g4.kind.trans h5, by rw [sameText g4]; exact h6, by rw [sameText g4]; exact h7, extras_same h8 g5⟩

/-! ### Fewer checks -/

theorem f2_refl {α : Type} {R : α → α → Prop} (h : ∀ a, R a a) : ∀ l : List α, List.Forall₂ R l l
  | [] => .nil
  | a :: l => .cons (h a) (f2_refl h l)

theorem sub_modify {l' l : List (List Check)} (h : List.Forall₂ List.Sublist l' l) (ks : List Check) :
    ∀ t, List.Forall₂ List.Sublist (l'.modify t (· ++ ks)) (l.modify t (· ++ ks)) := by
  induction h with
  | nil => intro t; simp
  | cons h h' ih =>
    intro t
    cases t with
    | zero => exact .cons (h.append_right ks) h'
    | succ t => exact .cons h (ih t)

theorem sub_modify_right {l' l : List (List Check)} (h : List.Forall₂ List.Sublist l' l) (ks : List Check) :
    ∀ t, List.Forall₂ List.Sublist l' (l.modify t (· ++ ks)) := by
  induction h with
  | nil => intro t; simp
  | cons h h' ih =>
    intro t
    cases t with
    | zero => exact .cons (h.trans (List.sublist_append_left _ _)) h'
    | succ t => exact .cons h (ih t)

/-- A block may be written elsewhere. -/
theorem item_same (x : SameEnv E E') {C : CheckTab} (hC : FewerChecks C W.checks) {ts ts' : List Token} (h : ItemText E rx W ts W1)
    (hs : Same E E' ts ts') : ∃ C1, FewerChecks C1 W1.checks ∧ ItemText E' rx { W with checks := C } ts' { W1 with checks := C1 } := by
  cases h with
  | @enum k name a b ls ts c tabs h1 h2 h3 h4 h5 h6 h7 h8 =>
    obtain ⟨_, _, rfl, g1, g2⟩ := f2_append hs
    obtain ⟨_, rfl, k2⟩ := f2_one g2
    obtain ⟨_, _, rfl, g3, g4⟩ := f2_append g1
    obtain ⟨_, _, rfl, k0, k1⟩ := f2_cons g3
    obtain ⟨_, _, rfl, k3, k4⟩ := f2_cons g4
    exact ⟨C, hC, .enum (kw_same h1 k0) (described_same h2 k1) (k3.kind.trans h3) (literals_same h4 k4) h5 h6 (k2.kind.trans h7)
      (by rw [x.pkg]; exact h8)⟩
  | @tuple k name a b cs seps ts c tabs n h1 h2 h3 h4 h5 h6 =>
    obtain ⟨_, _, rfl, g1, g2⟩ := f2_append hs
    obtain ⟨_, rfl, k2⟩ := f2_one g2
    obtain ⟨_, _, rfl, g3, g4⟩ := f2_append g1
    obtain ⟨_, _, rfl, k0, k1⟩ := f2_cons g3
    obtain ⟨_, _, rfl, k3, k4⟩ := f2_cons g4
    exact ⟨{ C with tups := C.tups ++ [[]] }, ⟨hC.recs, f2_app hC.tups (.cons (.refl _) .nil)⟩,
      .tuple (W := { W with checks := C }) (kw_same h1 k0) (described_same h2 k1) (k3.kind.trans h3) (fields_same x C h4 k4) (k2.kind.trans h5)
      (by rw [x.pkg]; exact h6)⟩
  | @record m isAbstract isFinal k name a y parent parentFinal b cs fz ts c tabs n h1 h2 h3 h4 h5 h6 h7 h8 h9 h10 =>
    obtain ⟨_, _, rfl, g1, g2⟩ := f2_append hs
    obtain ⟨_, rfl, k2⟩ := f2_one g2
    obtain ⟨_, _, rfl, g3, g4⟩ := f2_append g1
    obtain ⟨_, _, rfl, g5, k4⟩ := f2_append g3
    obtain ⟨_, _, rfl, k1, g6⟩ := f2_append g5
    obtain ⟨_, _, rfl, k5, k6⟩ := f2_cons g6
    obtain ⟨_, _, rfl, k3, k7⟩ := f2_cons g4
    exact ⟨{ C with recs := C.recs ++ [[]] }, ⟨f2_app hC.recs (.cons (.refl _) .nil), hC.tups⟩,
      .record (W := { W with checks := C }) (modifier_same h1 k1) (kw_same h2 k5) (described_same h3 k6) (extends_same x h4 k4) h5
        (by rw [x.pkg]; exact h6) (k3.kind.trans h7) (members_same x C h8 k7 (sameNx_some k2)) h9 (k2.kind.trans h10)⟩
  | @checks k y e ct b ks ts c h1 h2 h3 h4 h5 h6 h7 =>
    obtain ⟨_, _, rfl, k1, hs⟩ := f2_append hs
    obtain ⟨_, rfl, k2⟩ := f2_one hs
    obtain ⟨_, _, rfl, k0, k1⟩ := f2_cons k1
    obtain ⟨_, _, rfl, k3, k1⟩ := f2_cons k1
    obtain ⟨_, _, rfl, k4, k5⟩ := f2_cons k1
    refine ⟨(World.withChecks { W with checks := C } ct ks).checks, ?_,
      .checks (W := { W with checks := C }) (kw_same h1 k0) (k3.kind.trans h2) (by rw [x.pkg, sameText k3]; exact h3) h4 (k4.kind.trans h5)
        (checks_same x C h6 k5) (k2.kind.trans h7)⟩
    cases ct with
    | record t => exact ⟨sub_modify hC.recs ks t, hC.tups⟩
    | tup t => exact ⟨hC.recs, sub_modify hC.tups ks t⟩

theorem kw_ne {v w : String} {t : Token} (h : IsKw v t) (h' : IsKw w t) (hn : v.toList ≠ w.toList) : False := by
  have := h.2.symm.trans h'.2
  exact hn (TokVal.str.inj this)

/-- A block of checks declares nothing but checks. -/
theorem item_drop {C : CheckTab} (hC : FewerChecks C W.checks) {k : Token} {ts : List Token} (h : ItemText E rx W (k :: ts) W1)
    (hk : IsKw "checks" k) : FewerChecks C W1.checks ∧ ({ W1 with checks := C } : World) = { W with checks := C } := by
  generalize hts : k :: ts = l at h
  cases h with
  | enum h1 =>
    simp only [List.cons_append, List.cons.injEq] at hts
    exact (kw_ne (hts.1 ▸ h1) hk (by decide)).elim
  | tuple h1 =>
    simp only [List.cons_append, List.cons.injEq] at hts
    exact (kw_ne (hts.1 ▸ h1) hk (by decide)).elim
  | record h1 h2 =>
    rcases h1 with ⟨rfl, -⟩ | ⟨_, rfl, h, -⟩ | ⟨_, rfl, h, -⟩ <;>
      simp only [List.nil_append, List.cons_append, List.cons.injEq] at hts
    · exact (kw_ne (hts.1 ▸ h2) hk (by decide)).elim
    · exact (kw_ne (hts.1 ▸ h) hk (by decide)).elim
    · exact (kw_ne (hts.1 ▸ h) hk (by decide)).elim
  | @checks k y e ct b ks ts c h1 h2 h3 h4 h5 h6 h7 =>
    refine ⟨?_, by cases ct <;> rfl⟩
    cases ct with
    | record t => exact ⟨sub_modify_right hC.recs ks t, hC.tups⟩
    | tup t => exact ⟨hC.recs, sub_modify_right hC.tups ks t⟩

end Verif.Lemmas.LessChecks
