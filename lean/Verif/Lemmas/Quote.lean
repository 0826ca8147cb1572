import Verif.Spec.Quote
import Verif.Model.Quote
import Verif.Lemmas.Spelled
import Verif.Lemmas.ExprNames
import Verif.Lemmas.ElabSound
/-! What is quoted of plain expressions is read as the expression. -/
namespace Verif.Lemmas
open Verif.Model Verif.Spec Verif.Props

variable {E : FileEnv} {N : Names} {V : String → Prop}

/-! ## Building derivations -/

theorem factor_of {ts : List Token} {r : Raw} (h : GPrimary E N V ts r) : GFactor E N V ts r := .primary h

theorem term_of {ts : List Token} {r : Raw} (h : GFactor E N V ts r) : GTerm E N V ts r := by
  have := GTerm.mk (is := []) h (by simp) (by simp)
  simpa [spell, leftAssoc] using this

theorem simple_of {ts : List Token} {r : Raw} (h : GTerm E N V ts r) : GSimple E N V ts r := by
  have := GSimple.plain (is := []) h (by simp) (by simp)
  simpa [spell, leftAssoc] using this

theorem expr_of {ts : List Token} {r : Raw} (h : GRel E N V ts r) : GExpr E N V ts r := by
  have := GExpr.chain (is := []) (.inl rfl) h (by simp) (by simp)
  simpa [spell, leftAssoc] using this

theorem spell_snoc {O : Type} (is : List (Link O)) (i : Link O) : spell (is ++ [i]) = spell is ++ i.tok :: i.ts := by
  simp [spell]

theorem leftAssoc_snoc {O : Type} (f : O → Raw → Raw → Raw) (l : Raw) (is : List (Link O)) (i : Link O) :
    leftAssoc f l (is ++ [i]) = f i.op (leftAssoc f l is) i.raw := by
  simp [leftAssoc]

theorem mem_snoc {α : Type} {P : α → Prop} {l : List α} {x : α} (h : ∀ i ∈ l, P i) (hx : P x) : ∀ i ∈ l ++ [x], P i := by
  intro i hi
  rcases List.mem_append.1 hi with h1 | h1
  · exact h i h1
  · rw [List.mem_singleton] at h1; rw [h1]; exact hx

theorem term_snoc {a b : List Token} {l r : Raw} {op : ArOp} {t : Token} (h : GTerm E N V a l) (ht : MulTok op t)
    (hr : GFactor E N V b r) : GTerm E N V (a ++ t :: b) (.arith op l r) := by
  cases h with
  | @mk _ a l is h1 h2 h3 =>
    have := GTerm.mk (is := is ++ [⟨op, t, b, r⟩]) h1 (mem_snoc h2 ht) (mem_snoc h3 hr)
    rw [spell_snoc, leftAssoc_snoc] at this
    simpa using this

theorem simple_snoc {a b : List Token} {l r : Raw} {op : ArOp} {t : Token} (h : GSimple E N V a l) (ht : AddTok op t)
    (hr : GTerm E N V b r) : GSimple E N V (a ++ t :: b) (.arith op l r) := by
  cases h with
  | @plain _ a l is h1 h2 h3 =>
    have := GSimple.plain (is := is ++ [⟨op, t, b, r⟩]) h1 (mem_snoc h2 ht) (mem_snoc h3 hr)
    rw [spell_snoc, leftAssoc_snoc] at this
    simpa using this
  | @signed _ t' minus a l is h0 h1 h2 h3 =>
    have := GSimple.signed (is := is ++ [⟨op, t, b, r⟩]) h0 h1 (mem_snoc h2 ht) (mem_snoc h3 hr)
    rw [spell_snoc, leftAssoc_snoc] at this
    simpa using this

theorem simple_sign {a : List Token} {l : Raw} {minus : Bool} {t : Token} (ht : SignTok minus t)
    (h : GTerm E N V a l) : GSimple E N V (t :: a) (.sign minus l) := by
  have := GSimple.signed (is := []) ht h (by simp) (by simp)
  simpa [spell, leftAssoc] using this

theorem chain_one {a b : List Token} {l r : Raw} {op : LogOp} {t : Token} (hop : op = .and ∨ op = .or)
    (h : GRel E N V a l) (ht : LogTok op t) (hr : GRel E N V b r) : GExpr E N V (a ++ t :: b) (.logic op l r) := by
  have := GExpr.chain (is := [⟨op, t, b, r⟩]) hop h (by simp [ht]) (by simp [hr])
  simpa [spell, leftAssoc] using this

theorem chain_snoc {a b : List Token} {l r : Raw} {op : LogOp} {t : Token} (hop : op = .and ∨ op = .or)
    (h : GExpr E N V a l) (hl : IsLogic op l) (ht : LogTok op t) (hr : GRel E N V b r) :
    GExpr E N V (a ++ t :: b) (.logic op l r) := by
  cases h with
  | @chain _ a l is op' h0 h1 h2 h3 =>
    rcases List.eq_nil_or_concat is with rfl | ⟨is', i, rfl⟩
    · have := chain_one hop h1 ht hr
      simpa [spell, leftAssoc] using this
    · rw [List.concat_eq_append] at *
      rw [leftAssoc_snoc] at hl
      have hi := h2 i (by simp)
      have e : op' = op := by rw [← hi.1]; exact hl
      subst e
      have := GExpr.chain (is := (is' ++ [i]) ++ [⟨op', t, b, r⟩]) hop h1 (mem_snoc h2 ⟨rfl, ht⟩) (mem_snoc h3 hr)
      rw [spell_snoc, leftAssoc_snoc] at this
      simpa using this
  | @once _ a l t' b' r' op' h0 h1 h2 h3 =>
    have e : op' = op := hl
    subst e
    rcases hop with rfl | rfl <;> rcases h0 with h0 | h0 <;> cases h0

/-- a path -/
def GPath (E : FileEnv) (N : Names) (V : String → Prop) (ts : List Token) (r : Raw) : Prop :=
  ∃ (t : Token) (as : List Access), ts = t :: as.flatMap Access.toks ∧
    r = as.foldl Access.raw (.name (String.ofList t.text)) ∧ t.kind = .IDENTIFIER ∧ V (String.ofList t.text) ∧
    (∀ a ∈ as, a.Ok) ∧ (∀ b ts k i, Access.index b ts k i ∈ as → GExpr E N V ts i)

theorem GPath.primary {ts : List Token} {r : Raw} (h : GPath E N V ts r) : GPrimary E N V ts r := by
  obtain ⟨t, as, rfl, rfl, h1, h2, h3, h4⟩ := h
  exact .name (.value h1 h2 h3 h4)

theorem path_name {t : Token} (h : t.kind = .IDENTIFIER) (hv : V (String.ofList t.text)) :
    GPath E N V [t] (.name (String.ofList t.text)) :=
  ⟨t, [], by simp, rfl, h, hv, by simp, by simp⟩

theorem path_dot {ts : List Token} {p : Raw} {d t : Token} (h : GPath E N V ts p) (hd : d.kind = .DOT)
    (ht : t.kind = .IDENTIFIER) : GPath E N V (ts ++ [d, t]) (.dot p (String.ofList t.text)) := by
  obtain ⟨u, as, rfl, rfl, h1, h2, h3, h4⟩ := h
  refine ⟨u, as ++ [.dot d t], by simp [Access.toks], by simp [Access.raw], h1, h2, mem_snoc (P := Access.Ok) (x := .dot d t) h3 (And.intro hd ht), ?_⟩
  intro b ts k i hm
  rcases List.mem_append.1 hm with h | h
  · exact h4 b ts k i h
  · simp at h

theorem path_index {ts a : List Token} {p i : Raw} {b k : Token} (h : GPath E N V ts p) (hb : b.kind = .S_BRA)
    (hk : k.kind = .S_KET) (hi : GExpr E N V a i) : GPath E N V (ts ++ (b :: a ++ [k])) (.index p i) := by
  obtain ⟨u, as, rfl, rfl, h1, h2, h3, h4⟩ := h
  refine ⟨u, as ++ [.index b a k i], by simp [Access.toks], by simp [Access.raw], h1, h2, mem_snoc (P := Access.Ok) (x := .index b a k i) h3 (And.intro hb hk), ?_⟩
  intro b' ts' k' i' hm
  rcases List.mem_append.1 hm with h | h
  · exact h4 b' ts' k' i' h
  · rw [List.mem_singleton] at h
    cases h
    exact hi

/-- a phrase of the given level -/
def GAt (E : FileEnv) (N : Names) (V : String → Prop) : Nat → List Token → Raw → Prop
  | 0 => GPrimary E N V
  | 1 => GFactor E N V
  | 2 => GTerm E N V
  | 3 => GSimple E N V
  | 4 => GRel E N V
  | _ => GExpr E N V

theorem gAt_step {ts : List Token} {r : Raw} : ∀ {l : Nat}, GAt E N V l ts r → GAt E N V (l + 1) ts r
  | 0, h => .primary h
  | 1, h => term_of h
  | 2, h => simple_of h
  | 3, h => .simple h
  | 4, h => expr_of h
  | _ + 5, h => h

theorem gAt_le {ts : List Token} {r : Raw} {l l' : Nat} (h : GAt E N V l ts r) (hl : l ≤ l') : GAt E N V l' ts r := by
  induction hl with
  | refl => exact h
  | step _ ih => exact gAt_step ih

/-! ## Pieces of text -/

theorem endsWord_of {rest : List Char} (h : EndsExpr rest) : EndsWord rest := by
  intro c hc hw
  have := h c hc
  simp only [List.mem_cons, List.not_mem_nil, or_false] at this
  have h2 := (isWordChar_iff c).2 hw
  rcases this with rfl | rfl | rfl | rfl <;> exact absurd h2 (by decide)

theorem endsExpr_cons {c : Char} (h : c ∈ [' ', ')', ',', ']']) (r : List Char) : EndsExpr (c :: r) := by
  intro d hd
  cases hd
  exact h

theorem endsWord_cons {c : Char} (h : isAlnum c = false ∧ c ≠ '_') (r : List Char) : EndsWord (c :: r) := by
  intro d hd hw
  cases hd
  have := (isWordChar_iff c).2 hw
  simp [h.1, h.2] at this

/-- an operator with a space on both sides -/
def InfixTok (mid : List Char) (T : Token → Prop) : Prop :=
  ∃ (o : List Char) (st : List Char → Prop), mid = ' ' :: (o ++ [' ']) ∧ Spelled st o (fun ts => ∃ t, ts = [t] ∧ T t) ∧
    ∀ r, st (' ' :: r)

theorem spelled_infix {a b mid : List Char} {P Q R : List Token → Prop} {T : Token → Prop}
    (hl : Spelled EndsExpr a P) (hm : InfixTok mid T) (hr : Spelled EndsExpr b Q)
    (h : ∀ x t y, P x → T t → Q y → R (x ++ t :: y)) : Spelled EndsExpr (a ++ (mid ++ b)) R := by
  obtain ⟨o, st, rfl, ho, hst⟩ := hm
  have h1 := ho.space.append hr.space (R := fun ts => ∃ t y, ts = t :: y ∧ T t ∧ Q y) (fun rest _ => hst _)
    (by rintro x y ⟨t, rfl, ht⟩ hy; exact ⟨t, y, rfl, ht, hy⟩)
  have h2 := hl.append h1 (R := R) (fun rest _ => endsExpr_cons (by simp) _)
    (by rintro x y hx ⟨t, y, rfl, ht, hy⟩; exact h x t y hx ht hy)
  simpa using h2

theorem infix_kw (v : String) (hw : IsWord v.toList) (hr : v ∈ reservedWords) :
    InfixTok (' ' :: (v.toList ++ [' '])) (IsKw v) :=
  ⟨v.toList, EndsWord, rfl, spelled_kw v hw hr, fun r => endsWord_cons (by decide) r⟩

/-- words of lower case letters -/
theorem isWord_lower {w : List Char} (hne : w ≠ []) (h : w.all (fun c => decide ('a' ≤ c) && decide (c ≤ 'z')) = true) :
    IsWord w := by
  have hl : ∀ c ∈ w, IsLetter c := by
    intro c hc
    have := List.all_eq_true.1 h c hc
    simp only [Bool.and_eq_true, decide_eq_true_eq] at this
    exact .inl this
  cases w with
  | nil => exact absurd rfl hne
  | cons c cs => exact ⟨c, cs, rfl, hl c (by simp), fun d hd => .inl (hl d (by simp [hd]))⟩

theorem infix_mul : ∀ {op : ArOp} {b : BinOp}, (op, b) ∈ [(ArOp.times, BinOp.times), (.divide, .divide), (.remainder, .remainder)] →
    InfixTok b.around.2.1.toList (MulTok op) := by
  intro op b h
  simp only [List.mem_cons, List.not_mem_nil, or_false, Prod.mk.injEq] at h
  rcases h with ⟨rfl, rfl⟩ | ⟨rfl, rfl⟩ | ⟨rfl, rfl⟩
  · exact ⟨['*'], SpaceNext, rfl, spelled_op1s (by simp), fun r => ⟨r, rfl⟩⟩
  · exact ⟨['/'], SpaceNext, rfl, spelled_op1s (by simp), fun r => ⟨r, rfl⟩⟩
  · exact ⟨['%'], Any, rfl, spelled_op1 (by simp), fun r => trivial⟩

theorem infix_add : ∀ {op : ArOp} {b : BinOp}, (op, b) ∈ [(ArOp.plus, BinOp.plus), (.minus, .minus)] →
    InfixTok b.around.2.1.toList (AddTok op) := by
  intro op b h
  simp only [List.mem_cons, List.not_mem_nil, or_false, Prod.mk.injEq] at h
  rcases h with ⟨rfl, rfl⟩ | ⟨rfl, rfl⟩
  · exact ⟨['+'], Any, rfl, spelled_op1 (by simp), fun r => trivial⟩
  · exact ⟨['-'], Any, rfl, spelled_op1 (by simp), fun r => trivial⟩

theorem infix_power : InfixTok BinOp.power.around.2.1.toList (IsOp "**") :=
  ⟨['*', '*'], Any, rfl, spelled_op2 (by simp), fun r => trivial⟩

theorem infix_cmp (op : CmpOp) : InfixTok op.op.around.2.1.toList (CmpTok op) := by
  cases op
  · exact ⟨['=', '='], Any, rfl, spelled_op2 (by simp), fun r => trivial⟩
  · exact ⟨['!', '='], Any, rfl, spelled_op2 (by simp), fun r => trivial⟩
  · exact ⟨['<'], SpaceNext, rfl, spelled_op1s (by simp), fun r => ⟨r, rfl⟩⟩
  · exact ⟨['<', '='], Any, rfl, spelled_op2 (by simp), fun r => trivial⟩
  · exact ⟨['>'], SpaceNext, rfl, spelled_op1s (by simp), fun r => ⟨r, rfl⟩⟩
  · exact ⟨['>', '='], Any, rfl, spelled_op2 (by simp), fun r => trivial⟩

theorem infix_in : InfixTok " in ".toList (IsKw "in") :=
  infix_kw "in" (isWord_lower (by decide) (by decide)) (by decide)

theorem infix_range : InfixTok " .. ".toList (fun t => t.kind = .RANGE) :=
  ⟨['.', '.'], Any, rfl, spelled_range, fun r => trivial⟩

theorem infix_arrow : InfixTok " => ".toList (fun t => t.kind = .ARROW) :=
  ⟨['=', '>'], Any, rfl, spelled_arrow, fun r => trivial⟩

theorem infix_then : InfixTok " then ".toList (IsKw "then") :=
  infix_kw "then" (isWord_lower (by decide) (by decide)) (by decide)

theorem infix_sc : ∀ {op : LogOp} {b : SCOp}, (op, b) ∈ [(LogOp.and, SCOp.and), (.or, .or), (.implies, .implies)] →
    InfixTok b.between.toList (LogTok op) := by
  intro op b h
  simp only [List.mem_cons, List.not_mem_nil, or_false, Prod.mk.injEq] at h
  rcases h with ⟨rfl, rfl⟩ | ⟨rfl, rfl⟩ | ⟨rfl, rfl⟩
  · exact infix_kw "and" (isWord_lower (by decide) (by decide)) (by decide)
  · exact infix_kw "or" (isWord_lower (by decide) (by decide)) (by decide)
  · exact infix_kw "implies" (isWord_lower (by decide) (by decide)) (by decide)

theorem infix_xor : InfixTok BinOp.xor.around.2.1.toList (LogTok .xor) :=
  infix_kw "xor" (isWord_lower (by decide) (by decide)) (by decide)

/-- something in round brackets -/
theorem spelled_brackets {a : List Char} {P Q : List Token → Prop} (h : Spelled EndsExpr a P)
    (hq : ∀ b x k, b.kind = .BRA → P x → k.kind = .KET → Q (b :: (x ++ [k]))) :
    Spelled Any ('(' :: (a ++ [')'])) Q := by
  have hb := spelled_punct (c := '(') (k := .BRA) rfl (by decide) (by decide) (by simp) (by simp) (by simp) (by simp)
    (by simp) (by simp) (by decide)
  have hk := spelled_punct (c := ')') (k := .KET) rfl (by decide) (by decide) (by simp) (by simp) (by simp) (by simp)
    (by simp) (by simp) (by decide)
  have h1 := h.append hk (R := fun ts => ∃ x k, ts = x ++ [k] ∧ P x ∧ k.kind = .KET)
    (fun rest _ => endsExpr_cons (by simp) _) (by rintro x y hx ⟨k, rfl, hk⟩; exact ⟨x, k, rfl, hx, hk⟩)
  exact hb.append h1 (fun _ _ => trivial)
    (by rintro x y ⟨b, rfl, hb⟩ ⟨y, k, rfl, hy, hk⟩; exact hq b y k hb hy hk)

/-- something in square brackets -/
theorem spelled_square {a : List Char} {P Q : List Token → Prop} (h : Spelled EndsExpr a P)
    (hq : ∀ b x k, b.kind = .S_BRA → P x → k.kind = .S_KET → Q (b :: (x ++ [k]))) :
    Spelled Any ('[' :: (a ++ [']'])) Q := by
  have hb := spelled_punct (c := '[') (k := .S_BRA) rfl (by decide) (by decide) (by simp) (by simp) (by simp) (by simp)
    (by simp) (by simp) (by decide)
  have hk := spelled_punct (c := ']') (k := .S_KET) rfl (by decide) (by decide) (by simp) (by simp) (by simp) (by simp)
    (by simp) (by simp) (by decide)
  have h1 := h.append hk (R := fun ts => ∃ x k, ts = x ++ [k] ∧ P x ∧ k.kind = .S_KET)
    (fun rest _ => endsExpr_cons (by simp) _) (by rintro x y hx ⟨k, rfl, hk⟩; exact ⟨x, k, rfl, hx, hk⟩)
  exact hb.append h1 (fun _ _ => trivial)
    (by rintro x y ⟨b, rfl, hb⟩ ⟨y, k, rfl, hy, hk⟩; exact hq b y k hb hy hk)

/-- a keyword in front of something -/
theorem spelled_prefix (v : String) (hw : IsWord v.toList) (hr : v ∈ reservedWords) {a : List Char}
    {stop : List Char → Prop} {P Q : List Token → Prop} (h : Spelled stop a P)
    (hq : ∀ t x, IsKw v t → P x → Q (t :: x)) : Spelled stop (v.toList ++ ' ' :: a) Q :=
  (spelled_kw v hw hr).append h.space (fun rest _ => endsWord_cons (by decide) _)
    (by rintro x y ⟨t, rfl, ht⟩ hy; exact hq t y ht hy)

theorem nameWord_of {n : String} (h : IsName n) : NameWord n.toList :=
  ⟨h.1, by rw [String.ofList_toList]; exact h.2⟩

/-- a dot and a name behind something -/
theorem spelled_dotName {a : List Char} {P Q : List Token → Prop} {n : String} (h : Spelled EndsWord a P)
    (hn : IsName n) (hq : ∀ x d t, P x → d.kind = .DOT → t.kind = .IDENTIFIER → t.text = n.toList → Q (x ++ [d, t])) :
    Spelled EndsWord (a ++ '.' :: n.toList) Q := by
  have h1 := spelled_dot.append (spelled_name (nameWord_of hn))
    (R := fun ts => ∃ d t, ts = [d, t] ∧ d.kind = .DOT ∧ t.kind = .IDENTIFIER ∧ t.text = n.toList)
    (fun rest _ => by
      obtain ⟨c, cs, e, hl, -⟩ := hn.1
      rw [e]
      intro hc
      simp only [List.cons_append, List.head?_cons, Option.some.injEq] at hc
      subst hc
      have := (isAlpha_iff '.').2 hl
      exact absurd this (by decide))
    (by rintro x y ⟨d, rfl, hd⟩ ⟨t, rfl, h1, h2⟩; exact ⟨d, t, rfl, hd, h1, h2⟩)
  exact h.append h1 (fun rest _ => endsWord_cons (by decide) _)
    (by rintro x y hx ⟨d, t, rfl, h1, h2, h3⟩; exact hq x d t hx h1 h2 h3)

/-! the equations of the text, without looking into the words -/
section
variable (nm : Nat → String)
theorem q_unary (t op e) : (Expr.unary t op e).quote nm = op.around.1.toList ++ (e.quote nm ++ op.around.2.toList) := rfl
theorem q_binary (t op l r) : (Expr.binary t op l r).quote nm =
    op.around.1.toList ++ (l.quote nm ++ (op.around.2.1.toList ++ (r.quote nm ++ op.around.2.2.toList))) := rfl
theorem q_logic (op l r) : (Expr.logic op l r).quote nm = l.quote nm ++ (op.between.toList ++ r.quote nm) := rfl
theorem q_field (p n ty) : (Expr.field p n ty).quote nm = p.quote nm ++ '.' :: n.toList := rfl
theorem q_enum (t l) : (Expr.enum t l).quote nm = (nm t).toList ++ '.' :: l.toList := rfl
theorem q_range (e lo up) : (Expr.range e lo up).quote nm =
    e.quote nm ++ (" in ".toList ++ (lo.quote nm ++ (" .. ".toList ++ up.quote nm))) := rfl
theorem q_oneof (es) : (Expr.oneof es).quote nm = "oneof(".toList ++ (es.quote nm ++ ")".toList) := rfl
theorem q_cond (ty acts) : (Expr.cond ty acts).quote nm = '(' :: (acts.quote nm "if".toList ++ ")".toList) := rfl
theorem q_quant (u x src b) : (Expr.quant u x src b).quote nm =
    '(' :: ((if u then "forall" else "exists").toList ++ ' ' :: (x.toList ++ (" in ".toList ++
      (src.toList ++ (" => ".toList ++ (b.quote nm ++ ")".toList)))))) := rfl
theorem q_nil : Exprs.nil.quote nm = [] := rfl
theorem q_one (e) : (Exprs.cons e .nil).quote nm = e.quote nm := rfl
theorem q_more (e f fs) : (Exprs.cons e (.cons f fs)).quote nm =
    e.quote nm ++ (", ".toList ++ (Exprs.cons f fs).quote nm) := rfl
theorem q_els (k e) : (Acts.els e).quote nm k = "else ".toList ++ e.quote nm := rfl
theorem q_act (k c e rest) : (Acts.act c e rest).quote nm k =
    k ++ ' ' :: (c.quote nm ++ (" then ".toList ++ (e.quote nm ++ ' ' :: rest.quote nm "elsif".toList))) := rfl
end

end Verif.Lemmas
