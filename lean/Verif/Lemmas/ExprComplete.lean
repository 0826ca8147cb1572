import Verif.Lemmas.ExprNames
/-! Every well typed expression of the grammar is accepted. -/
namespace Verif.Lemmas
open Verif.Model Verif.Spec

variable {F : Fix} {vars : List (String × Ty)}

/-! ## Which tokens go on with a phrase -/

theorem isOp_inj {u v : String} {t : Token} (h : IsOp u t) (h' : IsOp v t) : u = v :=
  String.toList_inj.1 (h.2.symm.trans h'.2)

theorem isKw_inj {u v : String} {t : Token} (h : IsKw u t) (h' : IsKw v t) : u = v := by
  have := h.2.symm.trans h'.2
  injection this with this
  exact String.toList_inj.1 this

theorem isOp_kw {u v : String} {t : Token} (h : IsOp u t) : ¬ IsKw v t := fun h' => by
  have := h.1.symm.trans h'.1; cases this

theorem isOp_of {u : String} {t : Token} (h : IsOp u t) (v : String) : IsOp v t ↔ v = u :=
  ⟨fun h' => isOp_inj h' h, fun e => e ▸ h⟩

theorem isKw_of {u : String} {t : Token} (h : IsKw u t) (v : String) : IsKw v t ↔ v = u :=
  ⟨fun h' => isKw_inj h' h, fun e => e ▸ h⟩

theorem mulTok_iff {t : Token} : (∃ op, MulTok op t) ↔ IsOp "*" t ∨ IsOp "/" t ∨ IsOp "%" t := by
  constructor
  · rintro ⟨op, h⟩
    cases op with
    | times => exact .inl h
    | divide => exact .inr (.inl h)
    | remainder => exact .inr (.inr h)
    | plus => exact h.elim
    | minus => exact h.elim
  · rintro (h | h | h)
    · exact ⟨.times, h⟩
    · exact ⟨.divide, h⟩
    · exact ⟨.remainder, h⟩

theorem addTok_iff {t : Token} : (∃ op, AddTok op t) ↔ IsOp "+" t ∨ IsOp "-" t := by
  constructor
  · rintro ⟨op, h⟩
    cases op with
    | plus => exact .inl h
    | minus => exact .inr h
    | times => exact h.elim
    | divide => exact h.elim
    | remainder => exact h.elim
  · rintro (h | h)
    · exact ⟨.plus, h⟩
    · exact ⟨.minus, h⟩

theorem cmpTok_iff {t : Token} : (∃ op, CmpTok op t) ↔ IsOp "==" t ∨ IsOp "!=" t ∨ IsOp "<" t ∨
    IsOp "<=" t ∨ IsOp ">" t ∨ IsOp ">=" t := by
  constructor
  · rintro ⟨op, h⟩
    cases op with
    | eq => exact .inl h
    | neq => exact .inr (.inl h)
    | lt => exact .inr (.inr (.inl h))
    | leq => exact .inr (.inr (.inr (.inl h)))
    | gt => exact .inr (.inr (.inr (.inr (.inl h))))
    | geq => exact .inr (.inr (.inr (.inr (.inr h))))
  · rintro (h | h | h | h | h | h)
    · exact ⟨.eq, h⟩
    · exact ⟨.neq, h⟩
    · exact ⟨.lt, h⟩
    · exact ⟨.leq, h⟩
    · exact ⟨.gt, h⟩
    · exact ⟨.geq, h⟩

theorem logTok_iff' {t : Token} : (∃ op, LogTok op t) ↔ IsKw "and" t ∨ IsKw "or" t ∨
    IsKw "xor" t ∨ IsKw "implies" t := by
  constructor
  · rintro ⟨op, h⟩
    cases op with
    | and => exact .inl h
    | or => exact .inr (.inl h)
    | xor => exact .inr (.inr (.inl h))
    | implies => exact .inr (.inr (.inr h))
  · rintro (h | h | h | h)
    · exact ⟨.and, h⟩
    · exact ⟨.or, h⟩
    · exact ⟨.xor, h⟩
    · exact ⟨.implies, h⟩

theorem cont_op {lvl : Nat} {u : String} {t : Token} (h : IsOp u t) : Cont lvl t ↔
    (1 ≤ lvl ∧ u = "**") ∨ (2 ≤ lvl ∧ (u = "*" ∨ u = "/" ∨ u = "%")) ∨
    (3 ≤ lvl ∧ (u = "+" ∨ u = "-")) ∨ (4 ≤ lvl ∧ (u = "==" ∨ u = "!=" ∨ u = "<" ∨ u = "<=" ∨
      u = ">" ∨ u = ">=")) := by
  have hk := h.1
  have hkw : ∀ v, ¬ IsKw v t := fun v => isOp_kw h
  unfold Cont
  rw [mulTok_iff, addTok_iff, cmpTok_iff, logTok_iff']
  simp only [isOp_of h, hkw, hk, reduceCtorEq, false_or, or_false, and_false, @eq_comm _ _ u]

theorem cont_kw {lvl : Nat} {u : String} {t : Token} (h : IsKw u t) : Cont lvl t ↔
    (4 ≤ lvl ∧ (u = "not" ∨ u = "in")) ∨
    (5 ≤ lvl ∧ (u = "and" ∨ u = "or" ∨ u = "xor" ∨ u = "implies")) := by
  have hk := h.1
  have hop : ∀ v, ¬ IsOp v t := fun v h' => isOp_kw h' h
  unfold Cont
  rw [mulTok_iff, addTok_iff, cmpTok_iff, logTok_iff']
  simp only [isKw_of h, hop, hk, reduceCtorEq, false_or, or_false, and_false, @eq_comm _ _ u]

theorem cont_kind {lvl : Nat} {t : Token} (h : t.kind ≠ .OPERATOR) (h' : t.kind ≠ .KEYWORD) :
    Cont lvl t ↔ (t.kind = .DOT ∨ t.kind = .S_BRA ∨ t.kind = .BRA) ∨ (4 ≤ lvl ∧ t.kind = .RANGE) := by
  have hop : ∀ v, ¬ IsOp v t := fun v e => h e.1
  have hkw : ∀ v, ¬ IsKw v t := fun v e => h' e.1
  unfold Cont
  rw [mulTok_iff, addTok_iff, cmpTok_iff, logTok_iff']
  simp only [hop, hkw, false_or, or_false, and_false]

/-- The phrase does not go on. -/
def NoCont (lvl : Nat) (s : PS) : Prop := ∀ t, s.nt = some t → ¬ Cont lvl t

theorem Cont.mono {a b : Nat} {t : Token} (hab : a ≤ b) (h : Cont a t) : Cont b t := by
  rcases h with h | ⟨h, h'⟩ | ⟨h, h'⟩ | ⟨h, h'⟩ | ⟨h, h'⟩ | ⟨h, h'⟩
  · exact .inl h
  · exact .inr (.inl ⟨by omega, h'⟩)
  · exact .inr (.inr (.inl ⟨by omega, h'⟩))
  · exact .inr (.inr (.inr (.inl ⟨by omega, h'⟩)))
  · exact .inr (.inr (.inr (.inr (.inl ⟨by omega, h'⟩))))
  · exact .inr (.inr (.inr (.inr (.inr ⟨by omega, h'⟩))))

theorem NoCont.mono {a b : Nat} {s : PS} (hab : a ≤ b) (h : NoCont b s) : NoCont a s :=
  fun t ht hc => h t ht (Cont.mono hab hc)

theorem Steps.noCont {s s' : PS} {t : Token} {ts : List Token} {lvl : Nat}
    (h : Steps s (t :: ts) s') (hc : ¬ Cont lvl t) : NoCont lvl s := by
  intro t' ht'
  rw [h.head] at ht'
  cases ht'
  exact hc

theorem noCont_spell {O : Type} {is : List (Link O)} {s s' : PS} {a b : Nat} (hab : a ≤ b)
    (h : Steps s (spell is) s') (hc : ∀ i ∈ is, ¬ Cont a i.tok) (hs' : NoCont b s') :
    NoCont a s := by
  cases is with
  | nil => cases h; exact hs'.mono hab
  | cons i is =>
    rw [spell_cons] at h
    exact h.noCont (hc i (by simp))

theorem mulTok_cont {op : ArOp} {t : Token} (h : MulTok op t) : ¬ Cont 1 t := by
  rcases mulTok_iff.1 ⟨op, h⟩ with h | h | h <;> rw [cont_op h] <;> decide

theorem addTok_cont {op : ArOp} {t : Token} (h : AddTok op t) : ¬ Cont 2 t := by
  rcases addTok_iff.1 ⟨op, h⟩ with h | h <;> rw [cont_op h] <;> decide

theorem cmpTok_cont {op : CmpOp} {t : Token} (h : CmpTok op t) : ¬ Cont 3 t := by
  rcases cmpTok_iff.1 ⟨op, h⟩ with h | h | h | h | h | h <;> rw [cont_op h] <;> decide

theorem logTok_cont {op : LogOp} {t : Token} (h : LogTok op t) : ¬ Cont 4 t := by
  rcases logTok_iff'.1 ⟨op, h⟩ with h | h | h | h <;> rw [cont_kw h] <;> decide

/-! ## Looking at the next token -/

theorem peekOp_of {α : Type} {s : PS} {ops : List (List Char × α)} {a : α} {t : Token} {v : String}
    (hn : s.nt = some t) (h : IsOp v t) (hl : ops.lookup v.toList = some a) :
    s.peekOp ops = some a := by
  unfold PS.peekOp
  rw [hn]
  simp only [h.1, if_true, h.2, hl]

theorem peekOp_none {α : Type} {s : PS} {ops : List (List Char × α)}
    (h : ∀ t a, s.nt = some t → t.kind = .OPERATOR → ops.lookup t.text = some a → False) :
    s.peekOp ops = none := by
  cases hp : s.peekOp ops with
  | none => rfl
  | some a =>
    obtain ⟨t, hn, hk, hl⟩ := peekOp_some hp
    exact (h t a hn hk hl).elim

theorem peekKw_of {s : PS} {t : Token} {v : String} (hn : s.nt = some t) (h : IsKw v t) :
    s.peekKw v = true := peekKw_iff.2 ⟨t, hn, h⟩

theorem peekKw_ne {s : PS} {v : String} (h : ∀ t, s.nt = some t → ¬ IsKw v t) :
    s.peekKw v = false := by
  cases hp : s.peekKw v with
  | false => rfl
  | true =>
    obtain ⟨t, hn, hk⟩ := peekKw_iff.1 hp
    exact (h t hn hk).elim

theorem peek_of {s : PS} {t : Token} {k : Kind} (hn : s.nt = some t) (h : t.kind = k) :
    s.peek k = true := peek_iff.2 ⟨t, hn, h⟩

theorem peek_ne {s : PS} {k : Kind} (h : ∀ t, s.nt = some t → t.kind ≠ k) : s.peek k = false := by
  cases hp : s.peek k with
  | false => rfl
  | true =>
    obtain ⟨t, hn, hk⟩ := peek_iff.1 hp
    exact (h t hn hk).elim

theorem peek_head_ne {s : PS} {t : Token} {k : Kind} (hn : s.nt = some t) (h : t.kind ≠ k) :
    s.peek k = false := peek_ne (fun t' ht' => by rw [hn] at ht'; cases ht'; exact h)

theorem peekKw_head_ne {s : PS} {t : Token} {v : String} (hn : s.nt = some t) (h : ¬ IsKw v t) :
    s.peekKw v = false := peekKw_ne (fun t' ht' => by rw [hn] at ht'; cases ht'; exact h)

/-! ## First tokens -/

/-- what a primary starts with -/
def FirstPrim (t : Token) : Prop :=
  (t.kind = .INTEGER ∨ t.kind = .DECIMAL ∨ t.kind = .STRING ∨ t.kind = .BRA ∨
    t.kind = .IDENTIFIER) ∨ IsKw "true" t ∨ IsKw "false" t ∨ IsKw "null" t

/-- what a factor starts with -/
def FirstFactor (t : Token) : Prop := FirstPrim t ∨ IsKw "not" t ∨ IsKw "abs" t

/-- what an expression starts with -/
def FirstExpr (t : Token) : Prop := FirstFactor t ∨ IsOp "+" t ∨ IsOp "-" t

/-- The phrase is not empty and starts with such a token. -/
def StartsWith (p : Token → Prop) (ts : List Token) : Prop := ∃ t r, ts = t :: r ∧ p t

theorem StartsWith.append {p : Token → Prop} {a b : List Token} (h : StartsWith p a) :
    StartsWith p (a ++ b) := by
  obtain ⟨t, r, rfl, h⟩ := h
  exact ⟨t, r ++ b, rfl, h⟩

theorem StartsWith.imp {p q : Token → Prop} {a : List Token} (h : StartsWith p a)
    (hpq : ∀ t, p t → q t) : StartsWith q a := by
  obtain ⟨t, r, rfl, h⟩ := h
  exact ⟨t, r, rfl, hpq t h⟩

theorem nameOf_first {E : FileEnv} {N : Names} {n : List Token} {e : Ent} (h : NameOf E N n e) :
    StartsWith (fun t => t.kind = .IDENTIFIER) n := by
  rcases h with ⟨t, rfl, hk, -⟩ | ⟨t, d, t', p, rfl, hk, -⟩
  · exact ⟨t, [], rfl, hk⟩
  · exact ⟨t, [d, t'], rfl, hk⟩

theorem name_first {E : FileEnv} {N : Names} {V : String → Prop} {ts : List Token} {r : Raw}
    (h : GName E N V ts r) : StartsWith (fun t => t.kind = .IDENTIFIER) ts := by
  cases h with
  | value hk => exact ⟨_, _, rfl, hk⟩
  | literal hn => exact (nameOf_first hn).append
  | call hk => exact ⟨_, _, rfl, hk⟩
  | qualifiedCall hn =>
    obtain ⟨t, r, e, hk⟩ := nameOf_first hn
    cases e
    exact ⟨_, _, rfl, hk⟩

theorem primary_first {E : FileEnv} {N : Names} {V : String → Prop} {ts : List Token} {r : Raw}
    (h : GPrimary E N V ts r) : StartsWith FirstPrim ts := by
  cases h with
  | int h => exact ⟨_, _, rfl, .inl (.inl h)⟩
  | dec h => exact ⟨_, _, rfl, .inl (.inr (.inl h))⟩
  | str h => exact ⟨_, _, rfl, .inl (.inr (.inr (.inl h)))⟩
  | true h => exact ⟨_, _, rfl, .inr (.inl h)⟩
  | false h => exact ⟨_, _, rfl, .inr (.inr (.inl h))⟩
  | null h => exact ⟨_, _, rfl, .inr (.inr (.inr h))⟩
  | paren h => exact ⟨_, _, rfl, .inl (.inr (.inr (.inr (.inl h))))⟩
  | quant h => exact ⟨_, _, rfl, .inl (.inr (.inr (.inr (.inl h))))⟩
  | cond h => exact ⟨_, _, rfl, .inl (.inr (.inr (.inr (.inl h))))⟩
  | name h => exact (name_first h).imp fun t ht => .inl (.inr (.inr (.inr (.inr ht))))

theorem factor_first {E : FileEnv} {N : Names} {V : String → Prop} {ts : List Token} {r : Raw}
    (h : GFactor E N V ts r) : StartsWith FirstFactor ts := by
  cases h with
  | primary h => exact (primary_first h).imp fun t ht => .inl ht
  | not h => exact ⟨_, _, rfl, .inr (.inl h)⟩
  | abs h => exact ⟨_, _, rfl, .inr (.inr h)⟩
  | power h => exact ((primary_first h).imp fun t ht => .inl ht).append

theorem term_first {E : FileEnv} {N : Names} {V : String → Prop} {ts : List Token} {r : Raw}
    (h : GTerm E N V ts r) : StartsWith FirstFactor ts := by
  cases h with
  | mk h => exact (factor_first h).append

theorem simple_first {E : FileEnv} {N : Names} {V : String → Prop} {ts : List Token} {r : Raw}
    (h : GSimple E N V ts r) : StartsWith FirstExpr ts := by
  cases h with
  | plain h => exact ((term_first h).imp fun t ht => .inl ht).append
  | @signed V t minus a l is h =>
    refine ⟨_, _, rfl, .inr ?_⟩
    unfold SignTok at h
    cases minus
    · exact .inl h
    · exact .inr h

theorem rel_first {E : FileEnv} {N : Names} {V : String → Prop} {ts : List Token} {r : Raw}
    (h : GRel E N V ts r) : StartsWith FirstExpr ts := by
  cases h with
  | simple h => exact simple_first h
  | cmp h => exact (simple_first h).append
  | isIn h => exact (simple_first h).append
  | inRange h => exact (simple_first h).append

theorem expr_first {E : FileEnv} {N : Names} {V : String → Prop} {ts : List Token} {r : Raw}
    (h : GExpr E N V ts r) : StartsWith FirstExpr ts := by
  cases h with
  | chain _ h => exact (rel_first h).append
  | once _ h => exact (rel_first h).append

theorem firstPrim_kw {t : Token} {v : String} (h : FirstPrim t) (hv : v ≠ "true" ∧ v ≠ "false" ∧
    v ≠ "null") : ¬ IsKw v t := by
  intro hk
  rcases h with h | h | h | h
  · rw [hk.1] at h; simp at h
  · exact hv.1 (isKw_inj hk h)
  · exact hv.2.1 (isKw_inj hk h)
  · exact hv.2.2 (isKw_inj hk h)

theorem firstExpr_kw {t : Token} {v : String} (h : FirstExpr t) (hv : v ≠ "true" ∧ v ≠ "false" ∧
    v ≠ "null") (hv' : v ≠ "not" ∧ v ≠ "abs") : ¬ IsKw v t := by
  intro hk
  rcases h with (h | h | h) | h | h
  · exact firstPrim_kw h hv hk
  · exact hv'.1 (isKw_inj hk h)
  · exact hv'.2 (isKw_inj hk h)
  · exact isOp_kw h hk
  · exact isOp_kw h hk

theorem firstExpr_kind {t : Token} {k : Kind} (h : FirstExpr t) (hk : k = .KET ∨ k = .S_KET ∨ k = .COMMA) :
    t.kind ≠ k := by
  intro e
  rcases h with (h | h | h) | h | h
  · rcases h with h | h | h | h
    · rw [e] at h; rcases hk with rfl | rfl | rfl <;> simp at h
    all_goals
      have := h.1; rw [e] at this; rcases hk with rfl | rfl | rfl <;> cases this
  all_goals
    have := h.1; rw [e] at this; rcases hk with rfl | rfl | rfl <;> cases this

/-! ## Acceptance -/

/-- `x` accepts the phrases of `G` of at most `m` tokens and builds the expressions for them. -/
def Accepts (F : Fix) (vars : List (String × Ty)) (m lvl : Nat) (G : List Token → Raw → Prop)
    (x : P Expr) : Prop :=
  ∀ ts r e s s', ts.length ≤ m → G ts r → r.elab F.X (F.tscope vars) = .ok e → Steps s ts s' →
    namesOf s = F.N → NoCont lvl s' → x s = .ok e s'

theorem Steps.cons' {s s' : PS} {t : Token} {ts : List Token} (h : Steps s (t :: ts) s') :
    ∃ s1, Steps s [t] s1 ∧ Steps s1 ts s' := by
  have : t :: ts = [t] ++ ts := rfl
  rw [this] at h
  exact h.split

variable {m : Nat}

theorem factor_acc {pp : P Expr} (hp : Accepts F vars m 0 (GPrimary F.E F.N (F.V vars)) pp) :
    Accepts F vars m 1 (GFactor F.E F.N (F.V vars)) (parseFactor F.X pp) := by
  intro ts r e s s' hm hg he hst hs hnc
  unfold parseFactor
  rw [get_bind_apply]
  cases hg with
  | not hk hg =>
    rw [if_pos (peekKw_of hst.head hk)]
    obtain ⟨s1, h1, h2⟩ := hst.cons'
    simp only [Raw.elab] at he
    obtain ⟨a, ha, he⟩ := El.bind_eq_ok he
    rw [bind_ok (matchKw_ok h1 hk), bind_ok (hp _ _ _ _ _ (by simp at hm; omega) hg ha h2
      (by rw [h1.names, hs]) (hnc.mono (by omega))), liftEl_ok he]
  | abs hk hg =>
    rw [if_neg (by rw [peekKw_head_ne hst.head (by rw [isKw_of hk]; decide)]; simp),
      if_pos (peekKw_of hst.head hk)]
    obtain ⟨s1, h1, h2⟩ := hst.cons'
    simp only [Raw.elab] at he
    obtain ⟨a, ha, he⟩ := El.bind_eq_ok he
    rw [bind_ok (matchKw_ok h1 hk), bind_ok (hp _ _ _ _ _ (by simp at hm; omega) hg ha h2
      (by rw [h1.names, hs]) (hnc.mono (by omega))), liftEl_ok he]
  | primary hg =>
    obtain ⟨t, rest, rfl, hf⟩ := primary_first hg
    rw [if_neg (by rw [peekKw_head_ne hst.head (firstPrim_kw hf (by decide))]; simp),
      if_neg (by rw [peekKw_head_ne hst.head (firstPrim_kw hf (by decide))]; simp),
      bind_ok (hp _ _ _ _ _ hm hg he hst hs (hnc.mono (by omega))), get_bind_apply,
      peekOp_none (fun t a hn hk hl => hnc t hn (.inr (.inl ⟨Nat.le_refl _, powerOps_tok hk hl⟩)))]
    rfl
  | @power V a l t b r hg ht hg' =>
    obtain ⟨s1, h1, h2⟩ := hst.split
    obtain ⟨s2, h2, h3⟩ := h2.cons'
    obtain ⟨t0, rest, e0, hf⟩ := primary_first hg
    have hh : s.nt = some t0 := by rw [e0] at h1; exact h1.head
    simp only [Raw.elab] at he
    obtain ⟨x, hx, he⟩ := El.bind_eq_ok he
    obtain ⟨y, hy, he⟩ := El.bind_eq_ok he
    simp only [List.length_append, List.length_cons] at hm
    rw [if_neg (by rw [peekKw_head_ne hh (firstPrim_kw hf (by decide))]; simp),
      if_neg (by rw [peekKw_head_ne hh (firstPrim_kw hf (by decide))]; simp),
      bind_ok (hp _ _ _ _ _ (by omega) hg hx h1 hs (h2.noCont (by rw [cont_op ht]; decide))),
      get_bind_apply, peekOp_of h2.head ht rfl]
    simp only
    rw [bind_ok (matchK_ok h2 ht.1), bind_ok (hp _ _ _ _ _ (by omega) hg' hy h3
      (by rw [h2.names, h1.names, hs]) (hnc.mono (by omega))), liftEl_ok he]

theorem leftAssoc_first {O : Type} {f : O → Raw → Raw → Raw} {X : ElEnv} {sc : TScope}
    (hf : ∀ op l r e, (f op l r).elab X sc = .ok e → ∃ e', l.elab X sc = .ok e') :
    ∀ (is : List (Link O)) (l : Raw) (e : Expr), (leftAssoc f l is).elab X sc = .ok e →
      ∃ e', l.elab X sc = .ok e' := by
  intro is
  induction is with
  | nil => intro l e h; exact ⟨e, h⟩
  | cons i is ih =>
    intro l e h
    rw [leftAssoc_cons] at h
    obtain ⟨e', h'⟩ := ih _ _ h
    exact hf _ _ _ _ h'

theorem arith_first {X : ElEnv} {sc : TScope} (op : ArOp) (l r : Raw) (e : Expr)
    (h : (Raw.arith op l r).elab X sc = .ok e) : ∃ e', l.elab X sc = .ok e' := by
  simp only [Raw.elab] at h
  obtain ⟨x, hx, -⟩ := El.bind_eq_ok h
  exact ⟨x, hx⟩

theorem logic_first {X : ElEnv} {sc : TScope} (op : LogOp) (l r : Raw) (e : Expr)
    (h : (Raw.logic op l r).elab X sc = .ok e) : ∃ e', l.elab X sc = .ok e' := by
  simp only [Raw.elab] at h
  obtain ⟨x, hx, -⟩ := El.bind_eq_ok h
  exact ⟨x, hx⟩

theorem spell_length {O : Type} (is : List (Link O)) : is.length ≤ (spell is).length := by
  induction is with
  | nil => simp
  | cons i is ih => rw [spell_cons]; simp only [List.length_cons, List.length_append]; omega

theorem mulOps_of {op : ArOp} {t : Token} {s : PS} (hn : s.nt = some t) (h : MulTok op t) :
    s.peekOp mulOps = some op := by
  cases op with
  | times => exact peekOp_of hn h rfl
  | divide => exact peekOp_of hn h rfl
  | remainder => exact peekOp_of hn h rfl
  | plus => exact h.elim
  | minus => exact h.elim

theorem mulTok_kind {op : ArOp} {t : Token} (h : MulTok op t) : t.kind = .OPERATOR := by
  rcases mulTok_iff.1 ⟨op, h⟩ with h | h | h <;> exact h.1

theorem termLoop_acc {pf : P Expr} (hp : Accepts F vars m 1 (GFactor F.E F.N (F.V vars)) pf) :
    ∀ (is : List (Link ArOp)) (k : Nat) (l : Expr) (lr : Raw) (e : Expr) (s s' : PS),
      is.length < k → (spell is).length ≤ m → (∀ i ∈ is, MulTok i.op i.tok) →
      (∀ i ∈ is, GFactor F.E F.N (F.V vars) i.ts i.raw) → lr.elab F.X (F.tscope vars) = .ok l →
      (leftAssoc .arith lr is).elab F.X (F.tscope vars) = .ok e → Steps s (spell is) s' →
      namesOf s = F.N → NoCont 2 s' → termLoop F.X pf k l s = .ok e s' := by
  intro is
  induction is with
  | nil =>
    intro k l lr e s s' hk _ _ _ hl he hst hs hnc
    obtain ⟨k, rfl⟩ : ∃ j, k = j + 1 := ⟨k - 1, by simp at hk; omega⟩
    cases hst
    have : lr.elab F.X (F.tscope vars) = .ok e := he
    rw [hl] at this
    cases this
    unfold termLoop
    rw [get_bind_apply, peekOp_none (fun t a hn hk hl => hnc t hn
      (.inr (.inr (.inl ⟨Nat.le_refl _, _, mulOps_tok hk hl⟩))))]
    rfl
  | cons i is ih =>
    intro k l lr e s s' hk hm ht hg hl he hst hs hnc
    obtain ⟨k, rfl⟩ : ∃ j, k = j + 1 := ⟨k - 1, by simp at hk; omega⟩
    rw [spell_cons] at hst hm
    obtain ⟨s1, h1, hst⟩ := hst.cons'
    obtain ⟨s2, h2, h3⟩ := hst.split
    rw [leftAssoc_cons] at he
    obtain ⟨x, hx⟩ := leftAssoc_first (fun op l r e => arith_first op l r e) _ _ _ he
    have hx' := hx
    simp only [Raw.elab] at hx'
    obtain ⟨l', hl', hx'⟩ := El.bind_eq_ok hx'
    rw [hl] at hl'; cases hl'
    obtain ⟨r', hr', hx'⟩ := El.bind_eq_ok hx'
    simp only [List.length_cons, List.length_append] at hm hk
    have hti := ht i (by simp)
    unfold termLoop
    rw [get_bind_apply, mulOps_of h1.head hti]
    simp only
    rw [bind_ok (matchK_ok h1 (mulTok_kind hti)),
      bind_ok (hp _ _ _ _ _ (by omega) (hg i (by simp)) hr' h2 (by rw [h1.names, hs])
        (noCont_spell (by omega) h3 (fun j hj => mulTok_cont (ht j (by simp [hj]))) hnc)),
      bind_ok (liftEl_ok hx')]
    exact ih _ _ _ _ _ _ (by omega) (by omega) (fun j hj => ht j (by simp [hj]))
      (fun j hj => hg j (by simp [hj])) hx he h3 (by rw [h2.names, h1.names, hs]) hnc

theorem Steps.fuel {O : Type} {is : List (Link O)} {s s' : PS} (h : Steps s (spell is) s') :
    is.length < s.toks + 1 := by
  have := h.toks
  have := spell_length is
  omega

theorem term_acc {pf : P Expr} (hp : Accepts F vars m 1 (GFactor F.E F.N (F.V vars)) pf) :
    Accepts F vars m 2 (GTerm F.E F.N (F.V vars)) (parseTerm F.X pf) := by
  intro ts r e s s' hm hg he hst hs hnc
  cases hg with
  | @mk V a l is hg ht hgs =>
    obtain ⟨s1, h1, h2⟩ := hst.split
    obtain ⟨x, hx⟩ := leftAssoc_first (fun op l r e => arith_first op l r e) _ _ _ he
    simp only [List.length_append] at hm
    unfold parseTerm
    rw [bind_ok (hp _ _ _ _ _ (by omega) hg hx h1 hs
      (noCont_spell (by omega) h2 (fun j hj => mulTok_cont (ht j hj)) hnc)), get_bind_apply]
    exact termLoop_acc hp is _ _ _ _ _ _ h2.fuel (by omega) ht hgs hx he h2 (by rw [h1.names, hs]) hnc

theorem addOps_of {op : ArOp} {t : Token} {s : PS} (hn : s.nt = some t) (h : AddTok op t) :
    ∃ b, s.peekOp addOps = some b ∧ ∀ D l r, mkArith D op l r = mkBinary D (chainTyp l.typ) b l r := by
  cases op with
  | plus => exact ⟨.plus, peekOp_of hn h rfl, fun _ _ _ => rfl⟩
  | minus => exact ⟨.minus, peekOp_of hn h rfl, fun _ _ _ => rfl⟩
  | times => exact h.elim
  | divide => exact h.elim
  | remainder => exact h.elim

theorem addTok_kind {op : ArOp} {t : Token} (h : AddTok op t) : t.kind = .OPERATOR := by
  rcases addTok_iff.1 ⟨op, h⟩ with h | h <;> exact h.1

theorem noAdd {s : PS} (hnc : NoCont 3 s) : s.peekOp addOps = none :=
  peekOp_none (fun t a hn hk hl => hnc t hn (.inr (.inr (.inr (.inl ⟨Nat.le_refl _, by
    rcases addOps_tok hk hl with ⟨-, h⟩ | ⟨-, h⟩
    · exact ⟨_, h⟩
    · exact ⟨_, h⟩⟩)))))

theorem simpleLoop_acc {pt : P Expr} (hp : Accepts F vars m 2 (GTerm F.E F.N (F.V vars)) pt) :
    ∀ (is : List (Link ArOp)) (k : Nat) (rtyp : Option Ty) (l : Expr) (lr : Raw) (e : Expr) (s s' : PS),
      is.length < k → (spell is).length ≤ m → (∀ i ∈ is, AddTok i.op i.tok) →
      (∀ i ∈ is, GTerm F.E F.N (F.V vars) i.ts i.raw) → rtyp = chainTyp l.typ →
      lr.elab F.X (F.tscope vars) = .ok l →
      (leftAssoc .arith lr is).elab F.X (F.tscope vars) = .ok e → Steps s (spell is) s' →
      namesOf s = F.N → NoCont 3 s' → simpleLoop F.X pt rtyp k l s = .ok e s' := by
  intro is
  induction is with
  | nil =>
    intro k rtyp l lr e s s' hk _ _ _ hr hl he hst hs hnc
    obtain ⟨k, rfl⟩ : ∃ j, k = j + 1 := ⟨k - 1, by simp at hk; omega⟩
    cases hst
    have : lr.elab F.X (F.tscope vars) = .ok e := he
    rw [hl] at this
    cases this
    unfold simpleLoop
    rw [get_bind_apply, noAdd hnc]
    rfl
  | cons i is ih =>
    intro k rtyp l lr e s s' hk hm ht hg hr hl he hst hs hnc
    obtain ⟨k, rfl⟩ : ∃ j, k = j + 1 := ⟨k - 1, by simp at hk; omega⟩
    rw [spell_cons] at hst hm
    obtain ⟨s1, h1, hst⟩ := hst.cons'
    obtain ⟨s2, h2, h3⟩ := hst.split
    rw [leftAssoc_cons] at he
    obtain ⟨x, hx⟩ := leftAssoc_first (fun op l r e => arith_first op l r e) _ _ _ he
    have hx' := hx
    simp only [Raw.elab] at hx'
    obtain ⟨l', hl', hx'⟩ := El.bind_eq_ok hx'
    rw [hl] at hl'; cases hl'
    obtain ⟨r', hr', hx'⟩ := El.bind_eq_ok hx'
    simp only [List.length_cons, List.length_append] at hm hk
    have hti := ht i (by simp)
    obtain ⟨b, hb, hmk⟩ := addOps_of h1.head hti
    rw [hmk, ← hr] at hx'
    unfold simpleLoop
    rw [get_bind_apply, hb]
    simp only
    rw [bind_ok (matchK_ok h1 (addTok_kind hti)),
      bind_ok (hp _ _ _ _ _ (by omega) (hg i (by simp)) hr' h2 (by rw [h1.names, hs])
        (noCont_spell (by omega) h3 (fun j hj => addTok_cont (ht j (by simp [hj]))) hnc)),
      bind_ok (liftEl_ok hx')]
    exact ih _ _ _ _ _ _ _ (by omega) (by omega) (fun j hj => ht j (by simp [hj]))
      (fun j hj => hg j (by simp [hj])) (by rw [mkBinary_typ hx', hr, chainTyp_idem]) hx he h3
      (by rw [h2.names, h1.names, hs]) hnc

theorem firstFactor_sign {t : Token} (h : FirstFactor t) : t.kind ≠ .OPERATOR := by
  intro e
  rcases h with (h | h | h | h) | h | h
  · rw [e] at h; simp at h
  all_goals have := h.1; rw [e] at this; cases this

theorem simple_acc {pt : P Expr} (hp : Accepts F vars m 2 (GTerm F.E F.N (F.V vars)) pt) :
    Accepts F vars m 3 (GSimple F.E F.N (F.V vars)) (parseSimple F.X pt) := by
  intro ts r e s s' hm hg he hst hs hnc
  cases hg with
  | @plain V a l is hg ht hgs =>
    obtain ⟨s1, h1, h2⟩ := hst.split
    obtain ⟨x, hx⟩ := leftAssoc_first (fun op l r e => arith_first op l r e) _ _ _ he
    simp only [List.length_append] at hm
    obtain ⟨t0, rest, e0, hf⟩ := term_first hg
    have hh : s.nt = some t0 := by rw [e0] at h1; exact h1.head
    have hsg : parseSigned pt s = .ok x s1 := by
      unfold parseSigned
      rw [get_bind_apply, peekOp_none (fun t a hn hk _ => by
        rw [hh] at hn; cases hn; exact firstFactor_sign hf hk)]
      exact hp _ _ _ _ _ (by omega) hg hx h1 hs
        (noCont_spell (by omega) h2 (fun j hj => addTok_cont (ht j hj)) hnc)
    unfold parseSimple
    rw [bind_ok hsg, get_bind_apply]
    exact simpleLoop_acc hp is _ _ _ _ _ _ _ h2.fuel (by omega) ht hgs rfl hx he h2
      (by rw [h1.names, hs]) hnc
  | @signed V t minus a l is hsn hg ht hgs =>
    obtain ⟨s0, h0, hst⟩ := hst.cons'
    obtain ⟨s1, h1, h2⟩ := hst.split
    obtain ⟨x, hx⟩ := leftAssoc_first (fun op l r e => arith_first op l r e) _ _ _ he
    have hx' := hx
    simp only [Raw.elab] at hx'
    obtain ⟨y, hy, hx'⟩ := El.bind_eq_ok hx'
    simp only [List.length_append, List.length_cons] at hm
    have hsg : parseSigned pt s = .ok x s1 := by
      unfold parseSigned
      have hop : s.peekOp signOps = some (if minus then .minus else .plus) := by
        unfold SignTok at hsn
        cases minus
        · exact peekOp_of h0.head hsn rfl
        · exact peekOp_of h0.head hsn rfl
      rw [get_bind_apply, hop]
      simp only
      rw [bind_ok (matchK_ok h0 hsn.1), bind_ok (hp _ _ _ _ _ (by omega) hg hy h1 (by rw [h0.names, hs])
        (noCont_spell (by omega) h2 (fun j hj => addTok_cont (ht j hj)) hnc)), liftEl_ok hx']
    unfold parseSimple
    rw [bind_ok hsg, get_bind_apply]
    exact simpleLoop_acc hp is _ _ _ _ _ _ _ h2.fuel (by omega) ht hgs rfl hx he h2
      (by rw [h1.names, h0.names, hs]) hnc

theorem cmpOps_of {op : CmpOp} {t : Token} {s : PS} (hn : s.nt = some t) (h : CmpTok op t) :
    s.peekOp cmpOps = some op := by
  cases op <;> exact peekOp_of hn h rfl

theorem cmpTok_kind {op : CmpOp} {t : Token} (h : CmpTok op t) : t.kind = .OPERATOR := by
  rcases cmpTok_iff.1 ⟨op, h⟩ with h | h | h | h | h | h <;> exact h.1

theorem inToks_first {neg : Bool} {k : List Token} (h : InToks neg k) :
    StartsWith (fun t => IsKw (if neg then "not" else "in") t) k := by
  unfold InToks at h
  cases neg
  · obtain ⟨b, rfl, hb⟩ := h; exact ⟨b, [], rfl, hb⟩
  · obtain ⟨a, b, rfl, ha, hb⟩ := h; exact ⟨a, [b], rfl, ha⟩

theorem relation_acc {ps : P Expr} (hp : Accepts F vars m 3 (GSimple F.E F.N (F.V vars)) ps) :
    Accepts F vars m 4 (GRel F.E F.N (F.V vars)) (parseRelation F.X ps) := by
  intro ts r e s s' hm hg he hst hs hnc
  have intro_in : ∀ (s0 s1 : PS) (l : Expr) (neg : Bool) (k : List Token), InToks neg k →
      Steps s0 k s1 → ∀ rest : Bool → P Expr, (s0.peekOp cmpOps = none) ∧
        (s0.peekKw "not" || s0.peekKw "in") = true ∧
        (P.cond (s0.peekKw "not") (do let _ ← P.matchKw "not"; pure true) (pure false) >>= fun neg => do
          let _ ← P.matchKw "in"
          rest neg) s0 = rest neg s1 := by
    intro s0 s1 l neg k hk hst rest
    cases neg
    · obtain ⟨b, rfl, hb⟩ := hk
      have hnn : s0.peekKw "not" = false := peekKw_head_ne hst.head (by rw [isKw_of hb]; decide)
      refine ⟨peekOp_none (fun t a hn hk' _ => ?_), ?_, ?_⟩
      · rw [hst.head] at hn; cases hn; rw [hb.1] at hk'; cases hk'
      · rw [peekKw_of hst.head hb]; simp
      · rw [hnn]
        show (P.matchKw "in" >>= fun _ => rest false) s0 = _
        rw [bind_ok (matchKw_ok hst hb)]
    · obtain ⟨a, b, rfl, ha, hb⟩ := hk
      obtain ⟨s2, h2, h3⟩ := hst.cons'
      refine ⟨peekOp_none (fun t a' hn hk' _ => ?_), ?_, ?_⟩
      · rw [hst.head] at hn; cases hn; rw [ha.1] at hk'; cases hk'
      · rw [peekKw_of hst.head ha]; simp
      · rw [peekKw_of hst.head ha, bind_ok (a := true) (s1 := s2)]
        · rw [bind_ok (matchKw_ok h3 hb)]
        · show (P.matchKw "not" >>= fun _ => pure true) s0 = _
          rw [bind_ok (matchKw_ok h2 ha)]
          rfl
  unfold parseRelation
  cases hg with
  | simple hg =>
    rw [bind_ok (hp _ _ _ _ _ hm hg he hst hs (hnc.mono (by omega))), get_bind_apply,
      peekOp_none (fun t a hn hk hl => hnc t hn (.inr (.inr (.inr (.inr (.inl ⟨Nat.le_refl _,
        .inl ⟨_, cmpOps_tok hk hl⟩⟩))))))]
    simp only
    rw [peekKw_ne (v := "not") (fun t hn hk => hnc t hn (by rw [cont_kw hk]; decide)),
      peekKw_ne (v := "in") (fun t hn hk => hnc t hn (by rw [cont_kw hk]; decide))]
    rfl
  | @cmp V a l op t b r hg ht hg' =>
    obtain ⟨s1, h1, h2⟩ := hst.split
    obtain ⟨s2, h2, h3⟩ := h2.cons'
    simp only [Raw.elab] at he
    obtain ⟨x, hx, he⟩ := El.bind_eq_ok he
    obtain ⟨y, hy, he⟩ := El.bind_eq_ok he
    simp only [List.length_append, List.length_cons] at hm
    rw [bind_ok (hp _ _ _ _ _ (by omega) hg hx h1 hs (h2.noCont (cmpTok_cont ht))),
      get_bind_apply, cmpOps_of h2.head ht]
    simp only
    rw [bind_ok (matchK_ok h2 (cmpTok_kind ht)), bind_ok (hp _ _ _ _ _ (by omega) hg' hy h3
      (by rw [h2.names, h1.names, hs]) (hnc.mono (by omega))), liftEl_ok he]
  | @isIn V a l neg k b r hg hk hg' =>
    obtain ⟨s1, h1, h2⟩ := hst.split
    obtain ⟨s2, h2, h3⟩ := h2.split
    simp only [Raw.elab] at he
    obtain ⟨x, hx, he⟩ := El.bind_eq_ok he
    obtain ⟨y, hy, he⟩ := El.bind_eq_ok he
    obtain ⟨z, hz, he⟩ := El.bind_eq_ok he
    simp only [List.length_append] at hm
    have hn1 : NoCont 3 s1 := by
      obtain ⟨t, rest, rfl, ht⟩ := inToks_first hk
      exact h2.noCont (by rw [cont_kw ht]; cases neg <;> decide)
    obtain ⟨i1, i2, i3⟩ := intro_in s1 s2 x neg k hk h2 (fun neg => do
      let a ← ps
      let s ← P.get
      let e ← P.cond (s.peek .RANGE)
        (do
          let _ ← P.matchK .RANGE
          let b ← ps
          P.liftEl (mkRange x a b))
        (P.liftEl (mkIn F.X.decls x a))
      P.liftEl (mkNot neg e))
    rw [bind_ok (hp _ _ _ _ _ (by omega) hg hx h1 hs hn1), get_bind_apply, i1]
    simp only
    rw [if_pos i2]
    refine i3.trans ?_
    rw [bind_ok (hp _ _ _ _ _ (by omega) hg' hy h3
      (by rw [h2.names, h1.names, hs]) (hnc.mono (by omega))), get_bind_apply,
      peek_ne (k := .RANGE) (fun t hn hk => hnc t hn (by
        rw [cont_kind (by rw [hk]; decide) (by rw [hk]; decide), hk]; decide))]
    show (P.liftEl (mkIn F.X.decls x y) >>= fun e => P.liftEl (mkNot neg e)) s' = _
    rw [bind_ok (liftEl_ok hz), liftEl_ok he]
  | @inRange V a l neg k b r t c u hg hk hg' ht hg'' =>
    obtain ⟨s1, h1, h2⟩ := hst.split
    obtain ⟨s2, h2, h3⟩ := h2.split
    obtain ⟨s3, h3, h4⟩ := h3.split
    obtain ⟨s4, h4, h5⟩ := h4.cons'
    simp only [Raw.elab] at he
    obtain ⟨x, hx, he⟩ := El.bind_eq_ok he
    obtain ⟨y, hy, he⟩ := El.bind_eq_ok he
    obtain ⟨w, hw, he⟩ := El.bind_eq_ok he
    obtain ⟨z, hz, he⟩ := El.bind_eq_ok he
    simp only [List.length_append, List.length_cons] at hm
    have hn1 : NoCont 3 s1 := by
      obtain ⟨t, rest, rfl, ht⟩ := inToks_first hk
      exact h2.noCont (by rw [cont_kw ht]; cases neg <;> decide)
    have hn3 : NoCont 3 s3 := h4.noCont (by
      rw [cont_kind (by rw [ht]; decide) (by rw [ht]; decide), ht]; decide)
    obtain ⟨i1, i2, i3⟩ := intro_in s1 s2 x neg k hk h2 (fun neg => do
      let a ← ps
      let s ← P.get
      let e ← P.cond (s.peek .RANGE)
        (do
          let _ ← P.matchK .RANGE
          let b ← ps
          P.liftEl (mkRange x a b))
        (P.liftEl (mkIn F.X.decls x a))
      P.liftEl (mkNot neg e))
    rw [bind_ok (hp _ _ _ _ _ (by omega) hg hx h1 hs hn1), get_bind_apply, i1]
    simp only
    rw [if_pos i2]
    refine i3.trans ?_
    rw [bind_ok (hp _ _ _ _ _ (by omega) hg' hy h3 (by rw [h2.names, h1.names, hs]) hn3),
      get_bind_apply, peek_of h4.head ht]
    have hin : P.cond true
        (do
          let _ ← P.matchK .RANGE
          let b ← ps
          P.liftEl (mkRange x y b))
        (P.liftEl (mkIn F.X.decls x y)) s3 = .ok z s' := by
      show (P.matchK .RANGE >>= fun _ => ps >>= fun b => P.liftEl (mkRange x y b)) s3 = _
      rw [bind_ok (matchK_ok h4 ht), bind_ok (hp _ _ _ _ _ (by omega) hg'' hw h5
        (by rw [h4.names, h3.names, h2.names, h1.names, hs]) (hnc.mono (by omega))), liftEl_ok hz]
    rw [bind_ok hin, liftEl_ok he]

theorem logicLoop_acc {pr : P Expr} (hp : Accepts F vars m 4 (GRel F.E F.N (F.V vars)) pr) (op : LogOp) :
    ∀ (is : List (Link LogOp)) (k : Nat) (l : Expr) (lr : Raw) (e : Expr) (s s' : PS),
      is.length < k → (spell is).length ≤ m → (∀ i ∈ is, i.op = op ∧ LogTok op i.tok) →
      (∀ i ∈ is, GRel F.E F.N (F.V vars) i.ts i.raw) → lr.elab F.X (F.tscope vars) = .ok l →
      (leftAssoc .logic lr is).elab F.X (F.tscope vars) = .ok e → Steps s (spell is) s' →
      namesOf s = F.N → NoCont 4 s' → (∀ t, s'.nt = some t → ¬ LogTok op t) →
      logicLoop F.X pr (LogOp.word op) op k l s = .ok e s' := by
  intro is
  induction is with
  | nil =>
    intro k l lr e s s' hk _ _ _ hl he hst hs hnc hno
    obtain ⟨k, rfl⟩ : ∃ j, k = j + 1 := ⟨k - 1, by simp at hk; omega⟩
    cases hst
    have : lr.elab F.X (F.tscope vars) = .ok e := he
    rw [hl] at this
    cases this
    unfold logicLoop
    rw [get_bind_apply, peekKw_ne (fun t hn hk => hno t hn (logTok_iff.2 hk))]
    rfl
  | cons i is ih =>
    intro k l lr e s s' hk hm ht hg hl he hst hs hnc hno
    obtain ⟨k, rfl⟩ : ∃ j, k = j + 1 := ⟨k - 1, by simp at hk; omega⟩
    rw [spell_cons] at hst hm
    obtain ⟨s1, h1, hst⟩ := hst.cons'
    obtain ⟨s2, h2, h3⟩ := hst.split
    rw [leftAssoc_cons] at he
    obtain ⟨x, hx⟩ := leftAssoc_first (fun op l r e => logic_first op l r e) _ _ _ he
    have hx' := hx
    simp only [Raw.elab] at hx'
    obtain ⟨l', hl', hx'⟩ := El.bind_eq_ok hx'
    rw [hl] at hl'; cases hl'
    obtain ⟨r', hr', hx'⟩ := El.bind_eq_ok hx'
    simp only [List.length_cons, List.length_append] at hm hk
    obtain ⟨hop, hti⟩ := ht i (by simp)
    rw [hop] at hx'
    unfold logicLoop
    rw [get_bind_apply, if_pos (peekKw_of h1.head (logTok_iff.1 hti)),
      bind_ok (matchKw_ok h1 (logTok_iff.1 hti)),
      bind_ok (hp _ _ _ _ _ (by omega) (hg i (by simp)) hr' h2 (by rw [h1.names, hs])
        (noCont_spell (by omega) h3 (fun j hj => logTok_cont (ht j (by simp [hj])).2) hnc)),
      bind_ok (liftEl_ok hx')]
    exact ih _ _ _ _ _ _ (by omega) (by omega) (fun j hj => ht j (by simp [hj]))
      (fun j hj => hg j (by simp [hj])) hx he h3 (by rw [h2.names, h1.names, hs]) hnc hno

theorem expression_acc {pr : P Expr} (hp : Accepts F vars m 4 (GRel F.E F.N (F.V vars)) pr) :
    Accepts F vars m 5 (GExpr F.E F.N (F.V vars)) (parseExpression F.X pr) := by
  intro ts r e s s' hm hg he hst hs hnc
  unfold parseExpression
  cases hg with
  | @chain V a l is op hop hg ht hgs =>
    obtain ⟨s1, h1, h2⟩ := hst.split
    obtain ⟨x, hx⟩ := leftAssoc_first (fun op l r e => logic_first op l r e) _ _ _ he
    simp only [List.length_append] at hm
    rw [bind_ok (hp _ _ _ _ _ (by omega) hg hx h1 hs
      (noCont_spell (by omega) h2 (fun j hj => logTok_cont (ht j hj).2) hnc)), get_bind_apply]
    cases is with
    | nil =>
      cases h2
      have : l.elab F.X (F.tscope vars) = .ok e := he
      rw [hx] at this
      cases this
      rw [peekKw_ne (v := "and") (fun t hn hk => hnc t hn (by rw [cont_kw hk]; decide)),
        peekKw_ne (v := "or") (fun t hn hk => hnc t hn (by rw [cont_kw hk]; decide)),
        peekKw_ne (v := "xor") (fun t hn hk => hnc t hn (by rw [cont_kw hk]; decide)),
        peekKw_ne (v := "implies") (fun t hn hk => hnc t hn (by rw [cont_kw hk]; decide))]
      rfl
    | cons i is =>
      have hh : s1.nt = some i.tok := by rw [spell_cons] at h2; exact h2.head
      have hti := logTok_iff.1 (ht i (by simp)).2
      have loop := logicLoop_acc hp op _ _ _ _ _ _ _ h2.fuel (by omega) ht hgs hx he h2
        (by rw [h1.names, hs]) (hnc.mono (by omega)) (fun t hn hl => hnc t hn
          (.inr (.inr (.inr (.inr (.inr ⟨Nat.le_refl _, op, hl⟩))))))
      rcases hop with rfl | rfl
      · have hti : IsKw "and" i.tok := hti
        rw [if_pos (peekKw_of hh hti)]
        exact loop
      · have hti : IsKw "or" i.tok := hti
        rw [if_neg (by rw [peekKw_head_ne hh (by rw [isKw_of hti]; decide)]; simp),
          if_pos (peekKw_of hh hti)]
        exact loop
  | @once V a l t b r op hop hg ht hg' =>
    obtain ⟨s1, h1, h2⟩ := hst.split
    obtain ⟨s2, h2, h3⟩ := h2.cons'
    simp only [Raw.elab] at he
    obtain ⟨x, hx, he⟩ := El.bind_eq_ok he
    obtain ⟨y, hy, he⟩ := El.bind_eq_ok he
    simp only [List.length_append, List.length_cons] at hm
    have htk := logTok_iff.1 ht
    rw [bind_ok (hp _ _ _ _ _ (by omega) hg hx h1 hs (h2.noCont (logTok_cont ht))), get_bind_apply]
    have hb := hp _ _ _ _ _ (by omega) hg' hy h3 (by rw [h2.names, h1.names, hs]) (hnc.mono (by omega))
    have ne : ∀ v, v ≠ LogOp.word op → s1.peekKw v = false := fun v hv =>
      peekKw_head_ne h2.head (by rw [isKw_of htk]; exact hv)
    rcases hop with rfl | rfl
    · have htk : IsKw "xor" t := htk
      rw [ne "and" (by decide), ne "or" (by decide), if_neg (by simp), if_neg (by simp),
        if_pos (peekKw_of h2.head htk), bind_ok (matchKw_ok h2 htk), bind_ok hb, liftEl_ok he]
    · have htk : IsKw "implies" t := htk
      rw [ne "and" (by decide), ne "or" (by decide), ne "xor" (by decide), if_neg (by simp),
        if_neg (by simp), if_neg (by simp), if_pos (peekKw_of h2.head htk),
        bind_ok (matchKw_ok h2 htk), bind_ok hb, liftEl_ok he]

/-- An operator that is not the one of the chain ends the expression. -/
theorem mixed_acc {pr : P Expr} (hp : Accepts F vars m 4 (GRel F.E F.N (F.V vars)) pr)
    {op op' : LogOp} {a : List Token} {l : Raw} {is : List (Link LogOp)} {t' : Token} {e : Expr}
    {s s' : PS} (hop : op = .and ∨ op = .or) (hne : op' ≠ op) (his : is ≠ [])
    (hm : (a ++ spell is).length ≤ m) (hg : GRel F.E F.N (F.V vars) a l)
    (ht : ∀ i ∈ is, i.op = op ∧ LogTok op i.tok) (hgs : ∀ i ∈ is, GRel F.E F.N (F.V vars) i.ts i.raw)
    (he : (leftAssoc .logic l is).elab F.X (F.tscope vars) = .ok e)
    (hst : Steps s (a ++ spell is) s') (hs : namesOf s = F.N) (hn' : s'.nt = some t')
    (ht' : LogTok op' t') : parseExpression F.X pr s = .ok e s' := by
  have hnc : NoCont 4 s' := fun t hn => by rw [hn'] at hn; cases hn; exact logTok_cont ht'
  obtain ⟨s1, h1, h2⟩ := hst.split
  obtain ⟨x, hx⟩ := leftAssoc_first (fun op l r e => logic_first op l r e) _ _ _ he
  simp only [List.length_append] at hm
  unfold parseExpression
  rw [bind_ok (hp _ _ _ _ _ (by omega) hg hx h1 hs
    (noCont_spell (Nat.le_refl _) h2 (fun j hj => logTok_cont (ht j hj).2) hnc)), get_bind_apply]
  cases is with
  | nil => exact (his rfl).elim
  | cons i is =>
    have hh : s1.nt = some i.tok := by rw [spell_cons] at h2; exact h2.head
    have hti := logTok_iff.1 (ht i (by simp)).2
    have loop := logicLoop_acc hp op _ _ _ _ _ _ _ h2.fuel (by omega) ht hgs hx he h2
      (by rw [h1.names, hs]) hnc (fun t hn hl => by
        rw [hn'] at hn; cases hn
        have := isKw_inj (logTok_iff.1 hl) (logTok_iff.1 ht')
        cases op <;> cases op' <;> first | exact hne rfl | exact absurd this (by decide))
    rcases hop with rfl | rfl
    · have hti : IsKw "and" i.tok := hti
      rw [if_pos (peekKw_of hh hti)]
      exact loop
    · have hti : IsKw "or" i.tok := hti
      rw [if_neg (by rw [peekKw_head_ne hh (by rw [isKw_of hti]; decide)]; simp),
        if_pos (peekKw_of hh hti)]
      exact loop

/-- `xor` and `implies` take one operand on each side. -/
theorem once_acc {pr : P Expr} (hp : Accepts F vars m 4 (GRel F.E F.N (F.V vars)) pr)
    {op : LogOp} {a b : List Token} {l r : Raw} {t : Token} {e : Expr}
    {s s' : PS} (hop : op = .xor ∨ op = .implies)
    (hm : (a ++ t :: b).length ≤ m) (hg : GRel F.E F.N (F.V vars) a l)
    (ht : LogTok op t) (hg' : GRel F.E F.N (F.V vars) b r)
    (he : (Raw.logic op l r).elab F.X (F.tscope vars) = .ok e)
    (hst : Steps s (a ++ t :: b) s') (hs : namesOf s = F.N) (hnc : NoCont 4 s') :
    parseExpression F.X pr s = .ok e s' := by
  obtain ⟨s1, h1, h2⟩ := hst.split
  obtain ⟨s2, h2, h3⟩ := h2.cons'
  simp only [Raw.elab] at he
  obtain ⟨x, hx, he⟩ := El.bind_eq_ok he
  obtain ⟨y, hy, he⟩ := El.bind_eq_ok he
  simp only [List.length_append, List.length_cons] at hm
  have htk := logTok_iff.1 ht
  unfold parseExpression
  rw [bind_ok (hp _ _ _ _ _ (by omega) hg hx h1 hs (h2.noCont (logTok_cont ht))), get_bind_apply]
  have hb := hp _ _ _ _ _ (by omega) hg' hy h3 (by rw [h2.names, h1.names, hs]) hnc
  have ne : ∀ v, v ≠ LogOp.word op → s1.peekKw v = false := fun v hv =>
    peekKw_head_ne h2.head (by rw [isKw_of htk]; exact hv)
  rcases hop with rfl | rfl
  · have htk : IsKw "xor" t := htk
    rw [ne "and" (by decide), ne "or" (by decide), if_neg (by simp), if_neg (by simp),
      if_pos (peekKw_of h2.head htk), bind_ok (matchKw_ok h2 htk), bind_ok hb, liftEl_ok he]
  · have htk : IsKw "implies" t := htk
    rw [ne "and" (by decide), ne "or" (by decide), ne "xor" (by decide), if_neg (by simp),
      if_neg (by simp), if_neg (by simp), if_pos (peekKw_of h2.head htk),
      bind_ok (matchKw_ok h2 htk), bind_ok hb, liftEl_ok he]

end Verif.Lemmas
