import Verif.Lemmas.Quote
/-! What is quoted of plain expressions is read as the expression: the induction. -/
set_option linter.unusedSimpArgs false
namespace Verif.Lemmas
open Verif.Model Verif.Spec Verif.Props

/-- The builtin functions and conversions are declared. -/
def BuiltinCalls (E : FileEnv) : Prop :=
  ∀ f ∈ ["len", "startswith", "endswith", "matches", "oneof", "Integer", "Decimal"],
    ∃ e, E.global.lookup f.toList none = .ok e ∧ Callable e

/-- `names` are the names with which enumeration types of the package are found. -/
def EnumsNamed (E : FileEnv) (N : Names) (names : Nat → String) : Prop :=
  ∀ n t, enumsOf E N [n] = some t → names t = n

theorem mkUnary_eq {t : Option Ty} {op : UnOp} {e x : Expr} (h : mkUnary t op e = .ok x) : x = .unary t op e :=
  (mkUnary_ok h).1

theorem mkBinary_eq {D : Decls} {t : Option Ty} {op : BinOp} {l r x : Expr} (h : mkBinary D t op l r = .ok x) :
    x = .binary t op l r := by
  unfold mkBinary at h
  rw [el_bind_ok] at h
  obtain ⟨_, _, h⟩ := h
  cases h
  rfl

theorem mkLogic_eq {op : SCOp} {l r x : Expr} (h : mkLogic op l r = .ok x) : x = .logic op l r := by
  unfold mkLogic at h
  simp only [el_bind_ok] at h
  obtain ⟨_, _, _, _, h⟩ := h
  cases h
  rfl

theorem mkRange_eq {a b c x : Expr} (h : mkRange a b c = .ok x) : x = .range a b c := by
  unfold mkRange at h
  simp only [el_bind_ok] at h
  obtain ⟨_, _, _, _, _, _, h⟩ := h
  cases h
  rfl

theorem mkField_eq {D : Decls} {p x : Expr} {f : String} (h : mkField D p f = .ok x) : ∃ ty, x = .field p f ty := by
  unfold mkField at h
  repeat' split at h
  all_goals first
    | cases h; done
    | (cases h; exact ⟨_, rfl⟩)
    | (rw [el_bind_ok] at h; obtain ⟨_, _, h⟩ := h; cases h; exact ⟨_, rfl⟩)

theorem toList_one {args : Exprs} {a : Expr} (h : args.toList = [a]) : args = .cons a .nil := by
  match args, h with
  | .cons b .nil, h => cases h; rfl
  | .cons _ (.cons _ _), h => simp [Exprs.toList] at h

theorem toList_two {args : Exprs} {a b : Expr} (h : args.toList = [a, b]) : args = .cons a (.cons b .nil) := by
  match args, h with
  | .cons b .nil, h => simp [Exprs.toList] at h
  | .cons _ (.cons _ .nil), h => simp [Exprs.toList] at h; obtain ⟨rfl, rfl⟩ := h; rfl
  | .cons _ (.cons _ (.cons _ _)), h => simp [Exprs.toList] at h

theorem open_len : "len(".toList = "len".toList ++ ['('] := by decide +kernel
theorem open_startswith : "startswith(".toList = "startswith".toList ++ ['('] := by decide +kernel
theorem open_endswith : "endswith(".toList = "endswith".toList ++ ['('] := by decide +kernel
theorem open_matches : "matches(".toList = "matches".toList ++ ['('] := by decide +kernel
theorem open_oneof : "oneof(".toList = "oneof".toList ++ ['('] := by decide +kernel
theorem open_Integer : "Integer(".toList = "Integer".toList ++ ['('] := by decide +kernel
theorem open_Decimal : "Decimal(".toList = "Decimal".toList ++ ['('] := by decide +kernel
theorem comma_space : ", ".toList = [',', ' '] := by decide +kernel
theorem else_space : "else ".toList = "else".toList ++ [' '] := by decide +kernel
theorem close_bracket : ")".toList = [')'] := by decide +kernel
theorem open_square : "[".toList = ['['] := by decide +kernel
theorem close_square : "]".toList = [']'] := by decide +kernel

/-- a call is quoted as the name of the function and the parameters in brackets -/
theorem mkCall_quote {D : Decls} {rx : List Char → List Char → Bool} {rxOk : List Char → Bool} {f : String}
    {args : Exprs} {x : Expr} {names : Nat → String} (h : mkCall D rx rxOk f args = .ok x) :
    x.quote names = f.toList ++ '(' :: (args.quote names ++ [')']) ∧ args ≠ .nil ∧
      f ∈ ["len", "startswith", "endswith", "matches", "oneof", "Integer", "Decimal"] := by
  unfold mkCall at h
  split at h
  · next hf =>
    subst hf
    split at h
    · next a ha =>
      rw [toList_one ha]
      refine ⟨?_, by simp, by simp⟩
      split at h <;>
      · rw [mkUnary_eq h]
        simp only [q_unary, UnOp.around, q_one, q_more, comma_space, String.toList_empty, open_len, open_startswith, open_endswith, open_matches, open_oneof, open_Integer, open_Decimal, close_bracket, List.append_assoc, List.cons_append, List.nil_append]
    · cases h
  split at h
  · next hf =>
    subst hf
    split at h
    · next a b ha =>
      rw [toList_two ha]
      refine ⟨?_, by simp, by simp⟩
      rw [mkBinary_eq h]
      simp only [q_binary, BinOp.around, q_one, q_more, comma_space, String.toList_empty, open_len, open_startswith, open_endswith, open_matches, open_oneof, open_Integer, open_Decimal, close_bracket, List.append_assoc, List.cons_append, List.nil_append]
    · cases h
  split at h
  · next hf =>
    subst hf
    split at h
    · next a b ha =>
      rw [toList_two ha]
      refine ⟨?_, by simp, by simp⟩
      rw [mkBinary_eq h]
      simp only [q_binary, BinOp.around, q_one, q_more, comma_space, String.toList_empty, open_len, open_startswith, open_endswith, open_matches, open_oneof, open_Integer, open_Decimal, close_bracket, List.append_assoc, List.cons_append, List.nil_append]
    · cases h
  split at h
  · next hf =>
    subst hf
    split at h
    · next a b ha =>
      rw [toList_two ha]
      refine ⟨?_, by simp, by simp⟩
      simp only [el_bind_ok] at h
      obtain ⟨_, _, v, _, h⟩ := h
      split at h
      · split at h
        · rw [mkBinary_eq h]
          simp only [q_binary, BinOp.around, q_one, q_more, comma_space, String.toList_empty, open_len, open_startswith, open_endswith, open_matches, open_oneof, open_Integer, open_Decimal, close_bracket, List.append_assoc, List.cons_append, List.nil_append]
        · cases h
      · cases h
    · cases h
  split at h
  · next hf =>
    subst hf
    split at h
    · cases h
    · next hne =>
      refine ⟨?_, fun hc => hne (by rw [hc]; rfl), by simp⟩
      unfold mkOneOf at h
      rw [el_bind_ok] at h
      obtain ⟨_, _, h⟩ := h
      cases h
      simp only [q_oneof, open_len, open_startswith, open_endswith, open_matches, open_oneof, open_Integer, open_Decimal, close_bracket, List.append_assoc, List.cons_append, List.nil_append]
  split at h
  · next hf =>
    subst hf
    split at h
    · next a ha =>
      rw [toList_one ha]
      refine ⟨?_, by simp, by simp⟩
      rw [el_bind_ok] at h
      obtain ⟨_, _, h⟩ := h
      rw [mkUnary_eq h]
      simp only [q_unary, UnOp.around, q_one, q_more, comma_space, String.toList_empty, open_len, open_startswith, open_endswith, open_matches, open_oneof, open_Integer, open_Decimal, close_bracket, List.append_assoc, List.cons_append, List.nil_append]
    · cases h
  split at h
  · next hf =>
    subst hf
    split at h
    · next a ha =>
      rw [toList_one ha]
      refine ⟨?_, by simp, by simp⟩
      rw [el_bind_ok] at h
      obtain ⟨_, _, h⟩ := h
      rw [mkUnary_eq h]
      simp only [q_unary, UnOp.around, q_one, q_more, comma_space, String.toList_empty, open_len, open_startswith, open_endswith, open_matches, open_oneof, open_Integer, open_Decimal, close_bracket, List.append_assoc, List.cons_append, List.nil_append]
    · cases h
  · cases h

variable {F : Fix} {names : Nat → String}

/-- what may follow the text of an expression -/
def endOf (r : Raw) : List Char → Prop := if IsPath r = true then EndsWord else EndsExpr

/-- The text is read as a phrase for the expression, of the given level. -/
def QuotesAt (F : Fix) (vars : List (String × Ty)) (lvl : Nat) (text : List Char) (r : Raw) : Prop :=
  Spelled (endOf r) text (fun ts => (IsPath r = true → GPath F.E F.N (F.V vars) ts r) ∧ GAt F.E F.N (F.V vars) lvl ts r)

theorem QuotesAt.expr {vars : List (String × Ty)} {lvl : Nat} {text : List Char} {r : Raw} (h : QuotesAt F vars lvl text r) :
    Spelled EndsExpr text (fun ts => GAt F.E F.N (F.V vars) lvl ts r) :=
  h.mono (fun rest hr => by unfold endOf; split; exacts [endsWord_of hr, hr]) (fun _ hx => hx.2)

theorem quotesAt_of {vars : List (String × Ty)} {lvl m : Nat} {text : List Char} {r : Raw} (hp : IsPath r = false)
    (hm : m ≤ lvl) (h : Spelled EndsExpr text (fun ts => GAt F.E F.N (F.V vars) m ts r)) : QuotesAt F vars lvl text r := by
  unfold QuotesAt endOf
  rw [if_neg (by rw [hp]; simp)]
  exact h.mono (fun _ hr => hr) (fun x hx => ⟨fun hc => (by rw [hp] at hc; cases hc), gAt_le hx hm⟩)

theorem quotesAt_path {vars : List (String × Ty)} {lvl : Nat} {text : List Char} {r : Raw} (hp : IsPath r = true)
    (h : Spelled EndsWord text (fun ts => GPath F.E F.N (F.V vars) ts r)) : QuotesAt F vars lvl text r := by
  unfold QuotesAt endOf
  rw [if_pos hp]
  exact h.mono (fun _ hr => hr) (fun x hx => ⟨fun _ => hx, gAt_le (l := 0) hx.primary (Nat.zero_le _)⟩)

theorem QuotesAt.path {vars : List (String × Ty)} {lvl : Nat} {text : List Char} {r : Raw} (h : QuotesAt F vars lvl text r)
    (hp : IsPath r = true) : Spelled EndsWord text (fun ts => GPath F.E F.N (F.V vars) ts r) := by
  unfold QuotesAt endOf at h
  rw [if_pos hp] at h
  exact h.mono (fun _ hr => hr) (fun _ hx => hx.1 hp)

mutual
theorem quote_plain (hb : BuiltinCalls F.E) (hn : EnumsNamed F.E F.N names) :
    ∀ (r : Raw) (vars : List (String × Ty)) (e : Expr) (lvl : Nat), r.elab F.X (F.tscope vars) = .ok e →
      QuotePlain (F.V vars) lvl r → QuotesAt F vars lvl (e.quote names) r
  | .null, vars, e, lvl, he, hp => by
    cases he
    refine quotesAt_of rfl (Nat.zero_le _) ((spelled_kw "null" (isWord_lower (by decide) (by decide)) (by decide)).mono
      (fun _ h => endsWord_of h) ?_)
    rintro x ⟨t, rfl, ht⟩
    exact .null ht
  | .bool b, vars, e, lvl, he, hp => by simp [QuotePlain] at hp
  | .int n, vars, e, lvl, he, hp => by
    cases he
    refine quotesAt_of rfl (Nat.zero_le _) ((spelled_nat n).mono (fun _ h => h) ?_)
    rintro x ⟨t, rfl, h1, h2⟩
    exact .int h1 h2
  | .dec q, vars, e, lvl, he, hp => by simp [QuotePlain] at hp
  | .str s, vars, e, lvl, he, hp => by simp [QuotePlain] at hp
  | .enumLit path lit, vars, e, lvl, he, hp => by
    simp only [QuotePlain] at hp
    obtain ⟨n, rfl, h1, h2, h3⟩ := hp
    simp only [Raw.elab] at he
    split at he
    · cases he
    · next t ht =>
      split at he
      · cases he
        have ht' : enumsOf F.E F.N [n] = some t := ht
        have e1 := hn n t ht'
        simp only [q_enum, e1]
        refine quotesAt_of rfl (Nat.zero_le _) ((spelled_dotName (spelled_name (nameWord_of h1)) h2
          (Q := fun ts => GPrimary F.E F.N (F.V vars) ts (.enumLit [n] lit)) ?_).mono (fun _ h => endsWord_of h) (fun _ h => h))
        rintro x d u ⟨w, rfl, k1, k2⟩ hd hu hut
        simp only [enumsOf, Option.bind_eq_some_iff] at ht'
        obtain ⟨en, hm, hen⟩ := ht'
        split at hen
        · next hcls =>
          have h4 := GName.literal (E := F.E) (N := F.N) (V := F.V vars) (n := [w]) (e := en) (d := d) (t := u)
            (.inl ⟨w, rfl, k1, means_meaning.2 (by rw [k2]; exact hm), by rw [hcls]; decide⟩)
            (by
              rintro ⟨w', r, e2, hv⟩
              cases e2
              rw [k2, String.ofList_toList] at hv
              exact h3 hv) hcls hd hu
          have e5 : pathOf [w] = [n] := by simp [pathOf, k1, k2]
          rw [e5, hut, String.ofList_toList] at h4
          exact .name h4
        · cases hen
      · cases he
  | .name n, vars, e, lvl, he, hp => by
    simp only [QuotePlain] at hp
    have hq : e.quote names = n.toList ∧ F.V vars n := by
      simp only [Raw.elab] at he
      split at he
      · next t ht =>
        cases he
        refine ⟨rfl, .inl ⟨t, ?_⟩⟩
        have : vars.lookup n = some t := ht
        clear * - this
        induction vars with
        | nil => cases this
        | cons v vs ih =>
          obtain ⟨m, u⟩ := v
          simp only [List.lookup] at this
          split at this
          · next hb => cases this; simp at hb; subst hb; simp
          · exact List.mem_cons_of_mem _ (ih this)
      · split at he
        · next c hc => cases he; exact ⟨rfl, .inr ⟨c, hc⟩⟩
        · cases he
    rw [hq.1]
    refine quotesAt_path rfl ((spelled_name (nameWord_of hp)).mono (fun _ h => h) ?_)
    rintro x ⟨t, rfl, h1, h2⟩
    have := path_name (E := F.E) (N := F.N) (V := F.V vars) h1 (by rw [h2, String.ofList_toList]; exact hq.2)
    rwa [h2, String.ofList_toList] at this
  | .dot p f, vars, e, lvl, he, hp => by
    simp only [QuotePlain] at hp
    obtain ⟨h1, h2, h3⟩ := hp
    simp only [Raw.elab, el_bind_ok] at he
    obtain ⟨x, hx, he⟩ := he
    obtain ⟨ty, rfl⟩ := mkField_eq he
    have ih := (quote_plain hb hn p vars x 0 hx h3).path h1
    simp only [q_field]
    refine quotesAt_path (by simpa [IsPath] using h1) (spelled_dotName ih h2 ?_)
    intro ts d t hts hd ht htt
    have := path_dot hts hd ht
    rwa [htt, String.ofList_toList] at this
  | .index p i, vars, e, lvl, he, hp => by
    simp only [QuotePlain] at hp
    obtain ⟨h1, h2, h3⟩ := hp
    simp only [Raw.elab, el_bind_ok] at he
    obtain ⟨x, hx, y, hy, he⟩ := he
    have he' : ∃ ty, e = .binary ty .index x y := by
      unfold mkIndex at he
      split at he
      · exact ⟨_, mkBinary_eq he⟩
      · cases he
    obtain ⟨ty, rfl⟩ := he'
    have ih := (quote_plain hb hn p vars x 0 hx h2).path h1
    have ih' := (quote_plain hb hn i vars y 5 hy h3).expr
    have := ih.append (stop' := Any) (R := fun ts => GPath F.E F.N (F.V vars) ts (.index p i))
      (spelled_square ih' (Q := fun ts => ∃ b a k, ts = b :: a ++ [k] ∧ b.kind = .S_BRA ∧ k.kind = .S_KET ∧
        GExpr F.E F.N (F.V vars) a i) (fun b a k h4 h5 h6 => ⟨b, a, k, rfl, h4, h6, h5⟩))
      (fun rest _ => endsWord_cons (by decide) _)
      (by rintro ts ts' h4 ⟨b, a, k, rfl, h5, h6, h7⟩; exact path_index h4 h5 h6 h7)
    refine quotesAt_path (by simpa [IsPath] using h1) ?_
    have e1 : (Expr.binary ty .index x y).quote names = x.quote names ++ '[' :: (y.quote names ++ [']']) := by
      simp only [q_binary, BinOp.around, String.toList_empty, open_square, close_square, List.nil_append, List.cons_append]
    rw [e1]
    exact this.mono (fun _ _ => trivial) (fun _ h => h)
  | .call f args, vars, e, lvl, he, hp => by
    simp only [QuotePlain] at hp
    simp only [Raw.elab, el_bind_ok] at he
    obtain ⟨es, hes, he⟩ := he
    obtain ⟨hq, hne, hf⟩ := mkCall_quote (names := names) he
    have ih := quotes_plain hb hn args vars es hes hp hne
    obtain ⟨en, h1, h2⟩ := hb f hf
    have hw : IsName f := by
      have hfw : ∀ c ∈ f.toList, IsLetter c := by
        simp only [List.mem_cons, List.not_mem_nil, or_false] at hf
        have : ∀ g ∈ ["len", "startswith", "endswith", "matches", "oneof", "Integer", "Decimal"], ∀ c ∈ g.toList,
            isAlpha c = true := by decide +kernel
        intro c hc
        exact (isAlpha_iff c).1 (this f (by simpa using hf) c hc)
      have hres : f ∉ reservedWords := by
        simp only [List.mem_cons, List.not_mem_nil, or_false] at hf
        rcases hf with rfl | rfl | rfl | rfl | rfl | rfl | rfl <;> decide
      refine ⟨?_, hres⟩
      cases hl : f.toList with
      | nil =>
        simp only [List.mem_cons, List.not_mem_nil, or_false] at hf
        rcases hf with rfl | rfl | rfl | rfl | rfl | rfl | rfl <;> simp at hl
      | cons c cs =>
        rw [hl] at hfw
        exact ⟨c, cs, rfl, hfw c (by simp), fun d hd => .inl (hfw d (by simp [hd]))⟩
    have := (spelled_name (nameWord_of hw)).append (stop' := Any)
      (R := fun ts => GPrimary F.E F.N (F.V vars) ts (.call f args))
      (spelled_brackets ih (Q := fun ts => ∃ (b : Token) (a : List Token) (k : Token) (as : List (List Token × Raw)),
        ts = b :: (a ++ [k]) ∧ b.kind = .BRA ∧ k.kind = .KET ∧ Commas (as.map Prod.fst) a ∧
        rawsOf (as.map Prod.snd) = args ∧ ∀ x ∈ as, GExpr F.E F.N (F.V vars) x.1 x.2)
        (by rintro b x k h4 ⟨as, h5, h6, h7⟩ h8; exact ⟨b, x, k, as, rfl, h4, h8, h5, h6, h7⟩))
      (fun rest _ => endsWord_cons (by decide) _)
      (by
        rintro ts ts' ⟨t, rfl, h3, h4⟩ ⟨b, a, k, as, rfl, h5, h6, h7, h8, h9⟩
        have := GName.call (E := F.E) (N := F.N) (V := F.V vars) (f := t) (e := en) (b := b) (a := a) (k := k) (as := as)
          h3 (by rw [h4]; exact h1) h2 h5 h6 h7 h9
        rw [h4, String.ofList_toList, h8] at this
        exact .name this)
    rw [hq]
    exact quotesAt_of rfl (Nat.zero_le _) (this.mono (fun _ _ => trivial) (fun _ h => h))
  | .sign minus x, vars, e, lvl, he, hp => by
    simp only [QuotePlain] at hp
    simp only [Raw.elab, el_bind_ok] at he
    obtain ⟨y, hy, he⟩ := he
    have ih := (quote_plain hb hn x vars y 2 hy hp.2).expr
    rw [mkUnary_eq he]
    have h1 : ∀ (c : Char), c ∈ ['+', '-', '%'] → (if minus = true then "-" else "+") = String.ofList [c] →
        Spelled EndsExpr ([c] ++ y.quote names) (fun ts => GAt F.E F.N (F.V vars) 3 ts (.sign minus x)) := by
      intro c hc hs
      refine (spelled_op1 hc).append ih (fun _ _ => trivial) ?_
      rintro ts ts' ⟨t, rfl, ht⟩ h2
      exact simple_sign (by unfold SignTok; rw [hs]; exact ht) h2
    refine quotesAt_of rfl hp.1 ?_
    simp only [q_unary]
    cases minus with
    | true => simpa [UnOp.around] using h1 '-' (by simp) (by decide +kernel)
    | false => simpa [UnOp.around] using h1 '+' (by simp) (by decide +kernel)
  | .not x, vars, e, lvl, he, hp => by
    simp only [QuotePlain] at hp
    simp only [Raw.elab, el_bind_ok] at he
    obtain ⟨y, hy, he⟩ := he
    have ih := (quote_plain hb hn x vars y 0 hy hp.2).expr
    rw [mkUnary_eq he]
    have := spelled_prefix "not" (isWord_lower (by decide) (by decide)) (by decide) ih
      (Q := fun ts => GAt F.E F.N (F.V vars) 1 ts (.not x)) (fun t ts h1 h2 => .not h1 h2)
    refine quotesAt_of rfl hp.1 ?_
    simpa [q_unary, UnOp.around] using this
  | .abs x, vars, e, lvl, he, hp => by
    simp only [QuotePlain] at hp
    simp only [Raw.elab, el_bind_ok] at he
    obtain ⟨y, hy, he⟩ := he
    have ih := (quote_plain hb hn x vars y 0 hy hp.2).expr
    rw [mkUnary_eq he]
    have := spelled_prefix "abs" (isWord_lower (by decide) (by decide)) (by decide) ih
      (Q := fun ts => GAt F.E F.N (F.V vars) 1 ts (.abs x)) (fun t ts h1 h2 => .abs h1 h2)
    refine quotesAt_of rfl hp.1 ?_
    simpa [q_unary, UnOp.around] using this
  | .power l r, vars, e, lvl, he, hp => by
    simp only [QuotePlain] at hp
    simp only [Raw.elab, el_bind_ok] at he
    obtain ⟨x, hx, y, hy, he⟩ := he
    unfold mkPower at he
    simp only [el_bind_ok] at he
    obtain ⟨v, -, z, hz, he⟩ := he
    have e1 : e = z := by
      split at he
      · split at he
        · cases he
        · cases he; rfl
      · cases he
    subst e1
    rw [mkBinary_eq hz]
    have ih := (quote_plain hb hn l vars x 0 hx hp.2.1).expr
    have ih' := (quote_plain hb hn r vars y 0 hy hp.2.2).expr
    refine quotesAt_of rfl hp.1 ?_
    simp only [q_binary]
    rw [show BinOp.power.around.1.toList = [] from rfl, show BinOp.power.around.2.2.toList = [] from rfl, List.nil_append, List.append_nil]
    exact spelled_infix ih infix_power ih' (fun a t b h1 h2 h3 => .power h1 h2 h3)
  | .arith op l r, vars, e, lvl, he, hp => by
    simp only [QuotePlain] at hp
    simp only [Raw.elab, el_bind_ok] at he
    obtain ⟨x, hx, y, hy, he⟩ := he
    by_cases ho : op = .plus ∨ op = .minus
    · rw [if_pos ho] at hp
      have ih := (quote_plain hb hn l vars x 3 hx hp.2.1).expr
      have ih' := (quote_plain hb hn r vars y 2 hy hp.2.2).expr
      refine quotesAt_of rfl hp.1 ?_
      have key : ∀ b ty, (op, b) ∈ [(ArOp.plus, BinOp.plus), (.minus, .minus)] → e = .binary ty b x y →
          Spelled EndsExpr (e.quote names) (fun ts => GAt F.E F.N (F.V vars) 3 ts (.arith op l r)) := by
        rintro b ty hm rfl
        have := spelled_infix ih (infix_add hm) ih' (R := fun ts => GAt F.E F.N (F.V vars) 3 ts (.arith op l r))
          (fun a t b h1 h2 h3 => simple_snoc h1 h2 h3)
        simp only [List.mem_cons, List.not_mem_nil, or_false, Prod.mk.injEq] at hm
        rcases hm with ⟨rfl, rfl⟩ | ⟨rfl, rfl⟩ <;> simpa [q_binary, BinOp.around] using this
      rcases ho with rfl | rfl
      · exact key .plus _ (by simp) (mkBinary_eq he)
      · exact key .minus _ (by simp) (mkBinary_eq he)
    · rw [if_neg ho] at hp
      have ih := (quote_plain hb hn l vars x 2 hx hp.2.1).expr
      have ih' := (quote_plain hb hn r vars y 1 hy hp.2.2).expr
      refine quotesAt_of rfl hp.1 ?_
      have key : ∀ b ty, (op, b) ∈ [(ArOp.times, BinOp.times), (.divide, .divide), (.remainder, .remainder)] →
          e = .binary ty b x y →
          Spelled EndsExpr (e.quote names) (fun ts => GAt F.E F.N (F.V vars) 2 ts (.arith op l r)) := by
        rintro b ty hm rfl
        have := spelled_infix ih (infix_mul hm) ih' (R := fun ts => GAt F.E F.N (F.V vars) 2 ts (.arith op l r))
          (fun a t b h1 h2 h3 => term_snoc h1 h2 h3)
        simp only [List.mem_cons, List.not_mem_nil, or_false, Prod.mk.injEq] at hm
        rcases hm with ⟨rfl, rfl⟩ | ⟨rfl, rfl⟩ | ⟨rfl, rfl⟩ <;> simpa [q_binary, BinOp.around] using this
      cases op with
      | plus => exact absurd (.inl rfl) ho
      | minus => exact absurd (.inr rfl) ho
      | times => exact key .times _ (by simp) (mkBinary_eq he)
      | divide => exact key .divide _ (by simp) (mkBinary_eq he)
      | remainder => exact key .remainder _ (by simp) (mkBinary_eq he)
  | .cmp op l r, vars, e, lvl, he, hp => by
    simp only [QuotePlain] at hp
    simp only [Raw.elab, el_bind_ok] at he
    obtain ⟨x, hx, y, hy, he⟩ := he
    rw [mkBinary_eq he]
    have ih := (quote_plain hb hn l vars x 3 hx hp.2.1).expr
    have ih' := (quote_plain hb hn r vars y 3 hy hp.2.2).expr
    have := spelled_infix ih (infix_cmp op) ih' (R := fun ts => GAt F.E F.N (F.V vars) 4 ts (.cmp op l r))
      (fun a t b h1 h2 h3 => .cmp h1 h2 h3)
    refine quotesAt_of rfl hp.1 ?_
    cases op <;> simpa [q_binary, BinOp.around, CmpOp.op] using this
  | .isIn neg x a, vars, e, lvl, he, hp => by
    simp only [QuotePlain] at hp
    obtain ⟨rfl, h0, h1, h2⟩ := hp
    simp only [Raw.elab, el_bind_ok] at he
    obtain ⟨y, hy, z, hz, u, hu, he⟩ := he
    cases he
    have hu' : ∃ ty b, (b = .strContains ∨ b = .arrContains) ∧ e = .binary ty b y z := by
      unfold mkIn at hu
      split at hu
      · cases hu
      · split at hu
        · exact ⟨_, _, .inl rfl, mkBinary_eq hu⟩
        · split at hu
          · exact ⟨_, _, .inr rfl, mkBinary_eq hu⟩
          · cases hu
    obtain ⟨ty, b, hbb, rfl⟩ := hu'
    have ih := (quote_plain hb hn x vars y 3 hy h1).expr
    have ih' := (quote_plain hb hn a vars z 3 hz h2).expr
    have := spelled_infix ih infix_in ih' (R := fun ts => GAt F.E F.N (F.V vars) 4 ts (.isIn false x a))
      (fun a t b h1 h2 h3 => by
        have := GRel.isIn (neg := false) (k := [t]) h1 (by exact ⟨t, rfl, h2⟩) h3
        exact this)
    refine quotesAt_of rfl h0 ?_
    rcases hbb with rfl | rfl <;> simpa [q_binary, BinOp.around] using this
  | .inRange neg x a c, vars, e, lvl, he, hp => by
    simp only [QuotePlain] at hp
    obtain ⟨rfl, h0, h1, h2, h3⟩ := hp
    simp only [Raw.elab, el_bind_ok] at he
    obtain ⟨y, hy, z, hz, w, hw, u, hu, he⟩ := he
    cases he
    have := mkRange_eq hu
    subst this
    have ih := (quote_plain hb hn x vars y 3 hy h1).expr
    have ih' := (quote_plain hb hn a vars z 3 hz h2).expr
    have ih2 := (quote_plain hb hn c vars w 3 hw h3).expr
    have h4 := spelled_infix ih' infix_range ih2 (R := fun ts => ∃ b t c', ts = b ++ t :: c' ∧
      GSimple F.E F.N (F.V vars) b a ∧ t.kind = .RANGE ∧ GSimple F.E F.N (F.V vars) c' c)
      (fun b t c' h1 h2 h3 => ⟨b, t, c', rfl, h1, h2, h3⟩)
    have := spelled_infix ih infix_in h4 (R := fun ts => GAt F.E F.N (F.V vars) 4 ts (.inRange false x a c))
      (by
        rintro xs t ys h1 h2 ⟨b, t', c', rfl, h5, h6, h7⟩
        have := GRel.inRange (neg := false) (k := [t]) h1 (by exact ⟨t, rfl, h2⟩) h5 h6 h7
        simp only [List.append_assoc, List.cons_append, List.nil_append] at this
        exact this)
    refine quotesAt_of rfl h0 ?_
    rw [q_range]; exact this
  | .logic op l r, vars, e, lvl, he, hp => by
    simp only [QuotePlain] at hp
    obtain ⟨h0, h1, h2⟩ := hp
    simp only [Raw.elab, el_bind_ok] at he
    obtain ⟨x, hx, y, hy, he⟩ := he
    have ih' := (quote_plain hb hn r vars y 4 hy h2).expr
    refine quotesAt_of rfl h0 ?_
    have key : ∀ mid, InfixTok mid (LogTok op) → e.quote names = x.quote names ++ (mid ++ y.quote names) →
        Spelled EndsExpr (e.quote names) (fun ts => GAt F.E F.N (F.V vars) 5 ts (.logic op l r)) := by
      intro mid hm hq
      rw [hq]
      rcases h1 with h1 | ⟨h1, h3, h4⟩
      · have ih := (quote_plain hb hn l vars x 4 hx h1).expr
        refine spelled_infix ih hm ih' ?_
        intro a t b k1 k2 k3
        cases op with
        | and => exact chain_one (.inl rfl) k1 k2 k3
        | or => exact chain_one (.inr rfl) k1 k2 k3
        | xor => exact .once (.inl rfl) k1 k2 k3
        | implies => exact .once (.inr rfl) k1 k2 k3
      · have ih := (quote_plain hb hn l vars x 5 hx h4).expr
        refine spelled_infix ih hm ih' ?_
        intro a t b k1 k2 k3
        exact chain_snoc h1 k1 h3 k2 k3
    cases op with
    | and => exact key _ (infix_sc (b := .and) (by simp)) (by rw [mkLogic_eq he]; rfl)
    | or => exact key _ (infix_sc (b := .or) (by simp)) (by rw [mkLogic_eq he]; rfl)
    | implies => exact key _ (infix_sc (b := .implies) (by simp)) (by rw [mkLogic_eq he]; rfl)
    | xor => exact key _ infix_xor (by rw [mkBinary_eq he]; simp [q_binary, BinOp.around])
  | .cond c x rest, vars, e, lvl, he, hp => by
    simp only [QuotePlain] at hp
    obtain ⟨h1, h2, h3⟩ := hp
    simp only [Raw.elab, el_bind_ok] at he
    obtain ⟨cc, hc, ee, hee, he⟩ := he
    split at he
    · cases he
    · next t ht =>
      simp only [el_bind_ok] at he
      obtain ⟨_, -, acts, ha, he⟩ := he
      cases he
      have ihc := (quote_plain hb hn c vars cc 5 hc h1).expr
      have ihe := (quote_plain hb hn x vars ee 5 hee h2).expr
      have iha := quoteActs_plain hb hn rest vars t acts ha h3
      have k1 := ihe.append iha.space (R := fun ts => ∃ et bs el xt y, ts = et ++ (bs.flatMap Branch.toks ++ el :: xt) ∧
          GExpr F.E F.N (F.V vars) et x ∧ rest = actsOf y bs ∧ IsKw "else" el ∧ GExpr F.E F.N (F.V vars) xt y ∧
          (∀ d ∈ bs, IsKw "elsif" d.els ∧ IsKw "then" d.thn) ∧ (∀ d ∈ bs, GExpr F.E F.N (F.V vars) d.cts d.c) ∧
          (∀ d ∈ bs, GExpr F.E F.N (F.V vars) d.ets d.e))
        (fun rest _ => endsExpr_cons (by simp) _)
        (by
          rintro et ts k1 ⟨bs, el, xt, y, rfl, k2⟩
          exact ⟨et, bs, el, xt, y, rfl, k1, k2⟩)
      have k2 := spelled_infix ihc infix_then k1 (R := fun ts => ∃ ct th et bs el xt y,
          ts = ct ++ th :: (et ++ (bs.flatMap Branch.toks ++ el :: xt)) ∧
          GExpr F.E F.N (F.V vars) ct c ∧ IsKw "then" th ∧
          GExpr F.E F.N (F.V vars) et x ∧ rest = actsOf y bs ∧ IsKw "else" el ∧ GExpr F.E F.N (F.V vars) xt y ∧
          (∀ d ∈ bs, IsKw "elsif" d.els ∧ IsKw "then" d.thn) ∧ (∀ d ∈ bs, GExpr F.E F.N (F.V vars) d.cts d.c) ∧
          (∀ d ∈ bs, GExpr F.E F.N (F.V vars) d.ets d.e))
        (by
          rintro ct th ts k1 k2 ⟨et, bs, el, xt, y, rfl, k3⟩
          exact ⟨ct, th, et, bs, el, xt, y, rfl, k1, k2, k3⟩)
      have k3 := spelled_prefix "if" (isWord_lower (by decide) (by decide)) (by decide) k2
        (Q := fun ts => ∀ b k : Token, b.kind = .BRA → k.kind = .KET →
          GPrimary F.E F.N (F.V vars) (b :: (ts ++ [k])) (.cond c x rest))
        (by
          rintro f ts k0 ⟨ct, th, et, bs, el, xt, y, rfl, j1, j2, j3, j9, j4, j5, j6, j7, j8⟩ b k hb1 hk1
          rw [j9]
          have := GPrimary.cond (E := F.E) (N := F.N) (V := F.V vars) (b := b) (f := f) (ct := ct) (c := c) (th := th)
            (et := et) (e := x) (bs := bs) (el := el) (xt := xt) (x := y) (k := k) hb1 hk1 k0 j2 j4 j1 j3 j6 j7 j8 j5
          simpa using this)
      have k4 := spelled_brackets k3 (Q := fun ts => GAt F.E F.N (F.V vars) 0 ts (.cond c x rest))
        (fun b ts k h1 h2 h3 => h2 b k h1 h3)
      refine quotesAt_of rfl (Nat.zero_le _) (Spelled.mono (stop := Any) ?_ (fun _ _ => trivial) (fun _ h => h))
      rw [q_cond, q_act, close_bracket]; simpa using k4
  | .quant u x src body, vars, e, lvl, he, hp => by
    simp only [QuotePlain] at hp
    obtain ⟨h1, h2, h3⟩ := hp
    simp only [Raw.elab] at he
    split at he
    · cases he
    · split at he
      · cases he
      · split at he
        · cases he
        · split at he
          · next id elem lo hi hty =>
            simp only [el_bind_ok] at he
            obtain ⟨b, hbd, _, -, he⟩ := he
            cases he
            rw [← V_cons (τ := elem)] at h3
            have ih := (quote_plain hb hn body ((x, elem) :: vars) b 5 hbd h3).expr
            rw [V_cons] at ih
            have kw : Spelled EndsWord (if u then "forall" else "exists").toList
                (fun ts => ∃ t, ts = [t] ∧ IsKw (if u then "forall" else "exists") t) := by
              cases u
              · exact spelled_kw "exists" (isWord_lower (by decide) (by decide)) (by decide)
              · exact spelled_kw "forall" (isWord_lower (by decide) (by decide)) (by decide)
            have k1 := spelled_infix ((spelled_name (nameWord_of h2)).mono (fun _ h => endsWord_of h) (fun _ h => h))
              infix_arrow ih (R := fun ts => ∃ s w a, ts = s :: w :: a ∧ s.kind = .IDENTIFIER ∧ s.text = src.toList ∧
                w.kind = .ARROW ∧ GExpr F.E F.N (fun n => n = x ∨ F.V vars n) a body)
              (by rintro a t c ⟨s, rfl, k1, k2⟩ k3 k4; exact ⟨s, t, c, rfl, k1, k2, k3, k4⟩)
            have k2 := spelled_infix ((spelled_name (nameWord_of h1)).mono (fun _ h => endsWord_of h) (fun _ h => h))
              infix_in k1 (R := fun ts => ∃ y i s w a, ts = y :: i :: s :: w :: a ∧ y.kind = .IDENTIFIER ∧ y.text = x.toList ∧
                IsKw "in" i ∧ s.kind = .IDENTIFIER ∧ s.text = src.toList ∧
                w.kind = .ARROW ∧ GExpr F.E F.N (fun n => n = x ∨ F.V vars n) a body)
              (by
                rintro a t c ⟨y, rfl, k1, k2⟩ k3 ⟨s, w, a, rfl, k4⟩
                exact ⟨y, t, s, w, a, rfl, k1, k2, k3, k4⟩)
            have k3 := kw.append k2.space (R := fun ts => ∀ b k : Token, b.kind = .BRA → k.kind = .KET →
                GPrimary F.E F.N (F.V vars) (b :: (ts ++ [k])) (.quant u x src body))
              (fun rest _ => endsWord_cons (by decide) _)
              (by
                rintro a c ⟨q, rfl, k1⟩ ⟨y, i, s, w, a, rfl, k2, k3, k4, k5, k6, k7, k8⟩ b k hb1 hk1
                have := GPrimary.quant (E := F.E) (N := F.N) (V := F.V vars) (b := b) (q := q) (u := u) (x := y) (i := i)
                  (src := s) (w := w) (a := a) (r := body) (k := k) hb1 k1 k2 k4 k5 k7 hk1
                  (by rw [k3, String.ofList_toList]; exact k8)
                rw [k3, k6, String.ofList_toList, String.ofList_toList] at this
                simpa using this)
            have k4 := spelled_brackets (k3) (Q := fun ts => GAt F.E F.N (F.V vars) 0 ts (.quant u x src body))
              (fun b ts k h1 h2 h3 => h2 b k h1 h3)
            refine quotesAt_of rfl (Nat.zero_le _) (Spelled.mono (stop := Any) ?_ (fun _ _ => trivial) (fun _ h => h))
            rw [q_quant, close_bracket]; simpa using k4
          · cases he

theorem quotes_plain (hb : BuiltinCalls F.E) (hn : EnumsNamed F.E F.N names) :
    ∀ (rs : Raws) (vars : List (String × Ty)) (es : Exprs), rs.elab F.X (F.tscope vars) = .ok es →
      QuotePlainAll (F.V vars) rs → es ≠ .nil →
      Spelled EndsExpr (es.quote names) (fun ts => ∃ as : List (List Token × Raw), Commas (as.map Prod.fst) ts ∧
        rawsOf (as.map Prod.snd) = rs ∧ ∀ x ∈ as, GExpr F.E F.N (F.V vars) x.1 x.2)
  | .nil, vars, es, he, hp, hne => by cases he; exact absurd rfl hne
  | .cons r rs, vars, es, he, hp, hne => by
    simp only [QuotePlainAll] at hp
    simp only [Raws.elab, el_bind_ok] at he
    obtain ⟨x, hx, xs, hxs, he⟩ := he
    cases he
    have ih := (quote_plain hb hn r vars x 5 hx hp.1).expr
    cases xs with
    | nil =>
      have : rs = .nil := by
        cases rs with
        | nil => rfl
        | cons r' rs' =>
          simp only [Raws.elab, el_bind_ok] at hxs
          obtain ⟨_, _, _, _, h⟩ := hxs
          cases h
      subst this
      simp only [q_one]
      refine ih.mono (fun _ h => h) ?_
      intro ts hts
      refine ⟨[(ts, r)], .last, rfl, ?_⟩
      intro z hz
      cases List.mem_singleton.1 hz
      exact hts
    | cons y ys =>
      have ih' := quotes_plain hb hn rs vars (.cons y ys) hxs hp.2 (by simp)
      have hc := spelled_punct (c := ',') (k := .COMMA) rfl (by decide) (by decide) (by simp) (by simp) (by simp)
        (by simp) (by simp) (by simp) (by decide)
      have h1 := hc.append ih'.space (R := fun ts => ∃ c us, ts = c :: us ∧ c.kind = .COMMA ∧
          ∃ as : List (List Token × Raw), Commas (as.map Prod.fst) us ∧
          rawsOf (as.map Prod.snd) = rs ∧ ∀ x ∈ as, GExpr F.E F.N (F.V vars) x.1 x.2) (fun _ _ => trivial)
        (by rintro a b ⟨c, rfl, h1⟩ h2; exact ⟨c, b, rfl, h1, h2⟩)
      have h2 := ih.append h1 (R := fun ts => ∃ as : List (List Token × Raw), Commas (as.map Prod.fst) ts ∧
          rawsOf (as.map Prod.snd) = .cons r rs ∧ ∀ x ∈ as, GExpr F.E F.N (F.V vars) x.1 x.2)
        (fun rest _ => endsExpr_cons (by simp) _)
        (by
          rintro a b h1 ⟨c, us, rfl, h2, as, h3, h4, h5⟩
          refine ⟨(a, r) :: as, .more h2 h3, by simp [rawsOf, h4], ?_⟩
          intro z hz
          rcases List.mem_cons.1 hz with rfl | hz
          · exact h1
          · exact h5 z hz)
      rw [q_more, comma_space]; simpa using h2

theorem quoteActs_plain (hb : BuiltinCalls F.E) (hn : EnumsNamed F.E F.N names) :
    ∀ (rest : RActs) (vars : List (String × Ty)) (t : Ty) (acts : Acts), rest.elab F.X (F.tscope vars) t = .ok acts →
      QuotePlainActs (F.V vars) rest →
      Spelled EndsExpr (acts.quote names "elsif".toList) (fun ts => ∃ bs el xt y,
          ts = bs.flatMap Branch.toks ++ el :: xt ∧
          rest = actsOf y bs ∧ IsKw "else" el ∧ GExpr F.E F.N (F.V vars) xt y ∧
          (∀ d ∈ bs, IsKw "elsif" d.els ∧ IsKw "then" d.thn) ∧ (∀ d ∈ bs, GExpr F.E F.N (F.V vars) d.cts d.c) ∧
          (∀ d ∈ bs, GExpr F.E F.N (F.V vars) d.ets d.e))
  | .els x, vars, t, acts, he, hp => by
    simp only [QuotePlainActs] at hp
    simp only [RActs.elab, el_bind_ok] at he
    obtain ⟨y, hy, _, -, he⟩ := he
    cases he
    have ih := (quote_plain hb hn x vars y 5 hy hp).expr
    have := spelled_prefix "else" (isWord_lower (by decide) (by decide)) (by decide) ih
      (Q := fun ts => ∃ bs el xt y,
          ts = bs.flatMap Branch.toks ++ el :: xt ∧
          RActs.els x = actsOf y bs ∧ IsKw "else" el ∧ GExpr F.E F.N (F.V vars) xt y ∧
          (∀ d ∈ bs, IsKw "elsif" d.els ∧ IsKw "then" d.thn) ∧ (∀ d ∈ bs, GExpr F.E F.N (F.V vars) d.cts d.c) ∧
          (∀ d ∈ bs, GExpr F.E F.N (F.V vars) d.ets d.e))
      (fun el xt h1 h2 => ⟨[], el, xt, x, by simp, rfl, h1, h2, by simp, by simp, by simp⟩)
    rw [q_els, else_space]; simpa using this
  | .act c x rest, vars, t, acts, he, hp => by
    simp only [QuotePlainActs] at hp
    obtain ⟨h1, h2, h3⟩ := hp
    simp only [RActs.elab, el_bind_ok] at he
    obtain ⟨cc, hc, ee, hee, _, -, _, -, acts', ha, he⟩ := he
    cases he
    have ihc := (quote_plain hb hn c vars cc 5 hc h1).expr
    have ihe := (quote_plain hb hn x vars ee 5 hee h2).expr
    have iha := quoteActs_plain hb hn rest vars t acts' ha h3
    have k1 := ihe.append iha.space (R := fun ts => ∃ et bs el xt y, ts = et ++ (bs.flatMap Branch.toks ++ el :: xt) ∧
        GExpr F.E F.N (F.V vars) et x ∧ rest = actsOf y bs ∧ IsKw "else" el ∧ GExpr F.E F.N (F.V vars) xt y ∧
        (∀ d ∈ bs, IsKw "elsif" d.els ∧ IsKw "then" d.thn) ∧ (∀ d ∈ bs, GExpr F.E F.N (F.V vars) d.cts d.c) ∧
        (∀ d ∈ bs, GExpr F.E F.N (F.V vars) d.ets d.e))
      (fun rest _ => endsExpr_cons (by simp) _)
      (by
        rintro et ts k1 ⟨bs, el, xt, y, rfl, k2⟩
        exact ⟨et, bs, el, xt, y, rfl, k1, k2⟩)
    have k2 := spelled_infix ihc infix_then k1 (R := fun ts => ∃ ct th et bs el xt y,
        ts = ct ++ th :: (et ++ (bs.flatMap Branch.toks ++ el :: xt)) ∧
        GExpr F.E F.N (F.V vars) ct c ∧ IsKw "then" th ∧
        GExpr F.E F.N (F.V vars) et x ∧ rest = actsOf y bs ∧ IsKw "else" el ∧ GExpr F.E F.N (F.V vars) xt y ∧
        (∀ d ∈ bs, IsKw "elsif" d.els ∧ IsKw "then" d.thn) ∧ (∀ d ∈ bs, GExpr F.E F.N (F.V vars) d.cts d.c) ∧
        (∀ d ∈ bs, GExpr F.E F.N (F.V vars) d.ets d.e))
      (by
        rintro ct th ts k1 k2 ⟨et, bs, el, xt, y, rfl, k3⟩
        exact ⟨ct, th, et, bs, el, xt, y, rfl, k1, k2, k3⟩)
    have k3 := spelled_prefix "elsif" (isWord_lower (by decide) (by decide)) (by decide) k2
      (Q := fun ts => ∃ bs el xt y,
          ts = bs.flatMap Branch.toks ++ el :: xt ∧
          RActs.act c x rest = actsOf y bs ∧ IsKw "else" el ∧ GExpr F.E F.N (F.V vars) xt y ∧
          (∀ d ∈ bs, IsKw "elsif" d.els ∧ IsKw "then" d.thn) ∧ (∀ d ∈ bs, GExpr F.E F.N (F.V vars) d.cts d.c) ∧
          (∀ d ∈ bs, GExpr F.E F.N (F.V vars) d.ets d.e))
      (by
        rintro f ts k0 ⟨ct, th, et, bs, el, xt, y, rfl, j1, j2, j3, j9, j4, j5, j6, j7, j8⟩
        refine ⟨⟨f, ct, c, th, et, x⟩ :: bs, el, xt, y, by simp [Branch.toks], by rw [j9]; rfl, j4, j5, ?_, ?_, ?_⟩
        · intro d hd
          rcases List.mem_cons.1 hd with rfl | hd
          · exact ⟨k0, j2⟩
          · exact j6 d hd
        · intro d hd
          rcases List.mem_cons.1 hd with rfl | hd
          · exact j1
          · exact j7 d hd
        · intro d hd
          rcases List.mem_cons.1 hd with rfl | hd
          · exact j3
          · exact j8 d hd)
    rw [q_act]; exact k3
end

end Verif.Lemmas
