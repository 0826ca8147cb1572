import Verif.Lemmas.RearrangeFiles
import Verif.Spec.Grammar
/-!
# Check expressions may be written elsewhere
-/
namespace Verif.Lemmas.LessChecks
open Verif.Model Verif.Spec Verif.Lemmas Verif.Lemmas.Rearrange

variable {E E' : FileEnv} {N : Names}

/-! ### No braces in expressions -/

theorem kw_noBrace {v : String} {t : Token} (h : IsKw v t) : NoBrace t := noBrace_of h.1

theorem op_noBrace {v : String} {t : Token} (h : IsOp v t) : NoBrace t := noBrace_of h.1

theorem mul_noBrace {op : ArOp} {t : Token} (h : MulTok op t) : NoBrace t := by
  cases op <;> first | exact op_noBrace h | exact h.elim

theorem add_noBrace {op : ArOp} {t : Token} (h : AddTok op t) : NoBrace t := by
  cases op <;> first | exact op_noBrace h | exact h.elim

theorem cmp_noBrace {op : CmpOp} {t : Token} (h : CmpTok op t) : NoBrace t := by
  cases op <;> exact op_noBrace h

theorem log_noBrace {op : LogOp} {t : Token} (h : LogTok op t) : NoBrace t := by
  cases op <;> exact kw_noBrace h

theorem in_noBrace {neg : Bool} {ts : List Token} (h : InToks neg ts) : ∀ t ∈ ts, NoBrace t := by
  unfold InToks at h
  split at h
  · obtain ⟨a, b, rfl, h1, h2⟩ := h
    exact cons_noBrace (kw_noBrace h1) (one_noBrace (kw_noBrace h2))
  · obtain ⟨b, rfl, h1⟩ := h
    exact one_noBrace (kw_noBrace h1)

theorem spell_noBrace {O : Type} {is : List (Link O)} (h1 : ∀ i ∈ is, NoBrace i.tok) (h2 : ∀ i ∈ is, ∀ t ∈ i.ts, NoBrace t) :
    ∀ t ∈ spell is, NoBrace t := by
  intro t ht
  obtain ⟨i, hi, ht⟩ := List.mem_flatMap.1 ht
  exact cons_noBrace (h1 i hi) (h2 i hi) t ht

theorem commas_noBrace {as : List (List Token)} {ts : List Token} (h : Commas as ts) (h1 : ∀ a ∈ as, ∀ t ∈ a, NoBrace t) :
    ∀ t ∈ ts, NoBrace t := by
  induction h with
  | nil => exact nil_noBrace
  | last => exact h1 _ (by simp)
  | more hc _ ih =>
    exact app_noBrace (h1 _ (by simp)) (cons_noBrace (noBrace_of hc) (ih fun a ha => h1 a (by simp [ha])))

mutual
theorem expr_noBrace {V ts r} : GExpr E N V ts r → ∀ t ∈ ts, NoBrace t
  | .chain _ h1 h2 h3 => app_noBrace (rel_noBrace h1)
      (spell_noBrace (fun i hi => log_noBrace (h2 i hi).2) (fun i hi => rel_noBrace (h3 i hi)))
  | .once _ h1 h2 h3 => app_noBrace (rel_noBrace h1) (cons_noBrace (log_noBrace h2) (rel_noBrace h3))
theorem rel_noBrace {V ts r} : GRel E N V ts r → ∀ t ∈ ts, NoBrace t
  | .simple h => simple_noBrace h
  | .cmp h1 h2 h3 => app_noBrace (simple_noBrace h1) (cons_noBrace (cmp_noBrace h2) (simple_noBrace h3))
  | .isIn h1 h2 h3 => app_noBrace (simple_noBrace h1) (app_noBrace (in_noBrace h2) (simple_noBrace h3))
  | .inRange h1 h2 h3 h4 h5 => app_noBrace (simple_noBrace h1) (app_noBrace (in_noBrace h2) (app_noBrace (simple_noBrace h3)
      (cons_noBrace (noBrace_of h4) (simple_noBrace h5))))
theorem simple_noBrace {V ts r} : GSimple E N V ts r → ∀ t ∈ ts, NoBrace t
  | .plain h1 h2 h3 => app_noBrace (term_noBrace h1)
      (spell_noBrace (fun i hi => add_noBrace (h2 i hi)) (fun i hi => term_noBrace (h3 i hi)))
  | .signed h0 h1 h2 h3 => cons_noBrace (op_noBrace h0) (app_noBrace (term_noBrace h1)
      (spell_noBrace (fun i hi => add_noBrace (h2 i hi)) (fun i hi => term_noBrace (h3 i hi))))
theorem term_noBrace {V ts r} : GTerm E N V ts r → ∀ t ∈ ts, NoBrace t
  | .mk h1 h2 h3 => app_noBrace (factor_noBrace h1)
      (spell_noBrace (fun i hi => mul_noBrace (h2 i hi)) (fun i hi => factor_noBrace (h3 i hi)))
theorem factor_noBrace {V ts r} : GFactor E N V ts r → ∀ t ∈ ts, NoBrace t
  | .primary h => primary_noBrace h
  | .not h0 h => cons_noBrace (kw_noBrace h0) (primary_noBrace h)
  | .abs h0 h => cons_noBrace (kw_noBrace h0) (primary_noBrace h)
  | .power h1 h2 h3 => app_noBrace (primary_noBrace h1) (cons_noBrace (op_noBrace h2) (primary_noBrace h3))
theorem primary_noBrace {V ts r} : GPrimary E N V ts r → ∀ t ∈ ts, NoBrace t
  | .int h _ => one_noBrace (noBrace_of h)
  | .dec h _ => one_noBrace (noBrace_of h)
  | .str h => one_noBrace (noBrace_of h)
  | .true h => one_noBrace (kw_noBrace h)
  | .false h => one_noBrace (kw_noBrace h)
  | .null h => one_noBrace (kw_noBrace h)
  | .paren h1 h2 h => cons_noBrace (noBrace_of h1) (app_noBrace (expr_noBrace h) (one_noBrace (noBrace_of h2)))
  | .quant h1 h2 h3 h4 h5 h6 h7 h => cons_noBrace (noBrace_of h1) (cons_noBrace (kw_noBrace h2) (cons_noBrace (noBrace_of h3)
      (cons_noBrace (kw_noBrace h4) (cons_noBrace (noBrace_of h5) (cons_noBrace (noBrace_of h6)
        (app_noBrace (expr_noBrace h) (one_noBrace (noBrace_of h7))))))))
  | .cond h1 h2 h3 h4 h5 h6 h7 h8 h9 h10 h11 => by
    have hb : ∀ d ∈ _, ∀ t ∈ Branch.toks d, NoBrace t := fun d hd =>
      app_noBrace (cons_noBrace (kw_noBrace (h8 d hd).1) (expr_noBrace (h9 d hd)))
        (cons_noBrace (kw_noBrace (h8 d hd).2) (expr_noBrace (h10 d hd)))
    refine cons_noBrace (noBrace_of h1) (cons_noBrace (kw_noBrace h3) (app_noBrace (expr_noBrace h6) (cons_noBrace (kw_noBrace h4)
      (app_noBrace (expr_noBrace h7) (app_noBrace ?_ (cons_noBrace (kw_noBrace h5)
        (app_noBrace (expr_noBrace h11) (one_noBrace (noBrace_of h2)))))))))
    intro t ht
    obtain ⟨d, hd, ht⟩ := List.mem_flatMap.1 ht
    exact hb d hd t ht
  | .name h => gname_noBrace h
theorem gname_noBrace {V ts r} : GName E N V ts r → ∀ t ∈ ts, NoBrace t
  | @GName.value _ _ _ t as h1 _ h3 h4 => by
    refine cons_noBrace (noBrace_of h1) fun x hx => ?_
    obtain ⟨a, ha, hx⟩ := List.mem_flatMap.1 hx
    have hok := h3 a ha
    cases a with
    | dot d t => exact cons_noBrace (noBrace_of hok.1) (one_noBrace (noBrace_of hok.2)) x hx
    | index b ts k i =>
      exact app_noBrace (cons_noBrace (noBrace_of hok.1) (expr_noBrace (h4 b ts k i ha))) (one_noBrace (noBrace_of hok.2)) x hx
  | .literal h1 _ _ h4 h5 => app_noBrace (name_noBrace (name_shape h1)) (cons_noBrace (noBrace_of h4) (one_noBrace (noBrace_of h5)))
  | @GName.call _ _ _ _ _ _ _ _ as h1 _ _ h4 h5 h6 h7 => cons_noBrace (noBrace_of h1) (cons_noBrace (noBrace_of h4) (app_noBrace
      (commas_noBrace h6 (fun a ha => by
        obtain ⟨x, hx, rfl⟩ := List.mem_map.1 ha
        exact expr_noBrace (h7 x hx))) (one_noBrace (noBrace_of h5))))
  | @GName.qualifiedCall _ _ _ p d f _ _ _ _ as h1 _ _ _ h5 h6 h7 h8 => by
    have hn := name_noBrace (name_shape h1)
    refine cons_noBrace (hn p (by simp)) (cons_noBrace (hn d (by simp)) (cons_noBrace (hn f (by simp)) (cons_noBrace (noBrace_of h5)
      (app_noBrace (commas_noBrace h7 fun a ha => ?_) (one_noBrace (noBrace_of h6))))))
    obtain ⟨x, hx, rfl⟩ := List.mem_map.1 ha
    exact expr_noBrace (h8 x hx)
end

/-! ### The same expression elsewhere -/

/-- A file of the same package with the same imports -/
structure SameEnv (E E' : FileEnv) : Prop where
  global   : E'.global = E.global
  pkg      : E'.pkg = E.pkg
  imports  : E'.imports = E.imports
  resolved : E'.resolved = E.resolved

abbrev Same (E E' : FileEnv) := List.Forall₂ (SameTok E E')

theorem SameEnv.name (h : SameEnv E E') {n n' : List Token} {e : Ent} (hs : Same E E' n n') (hn : NameOf E N n e) :
    NameOf E' N n' e := nameOf_same h.global h.pkg h.imports h.resolved hs hn

theorem kw_same {v : String} {t t' : Token} (h : IsKw v t) (hs : SameTok E E' t t') : IsKw v t' :=
  ⟨hs.kind.trans h.1, hs.value.trans h.2⟩

theorem op_same {v : String} {t t' : Token} (h : IsOp v t) (hs : SameTok E E' t t') : IsOp v t' :=
  ⟨hs.kind.trans h.1, (sameText hs).trans h.2⟩

theorem mul_same {op : ArOp} {t t' : Token} (h : MulTok op t) (hs : SameTok E E' t t') : MulTok op t' := by
  cases op <;> first | exact op_same h hs | exact h.elim

theorem add_same {op : ArOp} {t t' : Token} (h : AddTok op t) (hs : SameTok E E' t t') : AddTok op t' := by
  cases op <;> first | exact op_same h hs | exact h.elim

theorem cmp_same {op : CmpOp} {t t' : Token} (h : CmpTok op t) (hs : SameTok E E' t t') : CmpTok op t' := by
  cases op <;> exact op_same h hs

theorem log_same {op : LogOp} {t t' : Token} (h : LogTok op t) (hs : SameTok E E' t t') : LogTok op t' := by
  cases op <;> exact kw_same h hs

theorem in_same {neg : Bool} {ts ts' : List Token} (h : InToks neg ts) (hs : Same E E' ts ts') : InToks neg ts' := by
  unfold InToks at h ⊢
  by_cases hn : neg = true
  · rw [if_pos hn] at h ⊢
    obtain ⟨a, b, rfl, h1, h2⟩ := h
    obtain ⟨a', _, rfl, k1, hs⟩ := f2_cons hs
    obtain ⟨b', rfl, k2⟩ := f2_one hs
    exact ⟨a', b', rfl, kw_same h1 k1, kw_same h2 k2⟩
  · rw [if_neg hn] at h ⊢
    obtain ⟨b, rfl, h1⟩ := h
    obtain ⟨b', rfl, k2⟩ := f2_one hs
    exact ⟨b', rfl, kw_same h1 k2⟩

/-- The same operator and operand -/
structure SameLink {O : Type} (E E' : FileEnv) (i i' : Link O) : Prop where
  op  : i'.op = i.op
  raw : i'.raw = i.raw
  tok : SameTok E E' i.tok i'.tok
  ts  : Same E E' i.ts i'.ts

theorem spell_same {O : Type} : ∀ {is : List (Link O)} {l : List Token}, Same E E' (spell is) l →
    ∃ is', l = spell is' ∧ List.Forall₂ (SameLink E E') is is'
  | [], l, h => by
    cases h
    exact ⟨[], rfl, .nil⟩
  | i :: is, l, h => by
    obtain ⟨t, _, rfl, h1, h⟩ := f2_cons (a := i.tok) (b := i.ts ++ spell is) h
    obtain ⟨ts, r, rfl, h2, h3⟩ := f2_append h
    obtain ⟨is', rfl, h4⟩ := spell_same h3
    exact ⟨⟨i.op, t, ts, i.raw⟩ :: is', rfl, .cons ⟨rfl, rfl, h1, h2⟩ h4⟩

theorem assoc_same {O : Type} (f : O → Raw → Raw → Raw) {is is' : List (Link O)} (h : List.Forall₂ (SameLink E E') is is') :
    ∀ l, leftAssoc f l is' = leftAssoc f l is := by
  induction h with
  | nil => exact fun _ => rfl
  | cons h _ ih =>
    intro l
    unfold leftAssoc at ih ⊢
    rw [List.foldl_cons, List.foldl_cons, h.op, h.raw]
    exact ih _

theorem f2_back {α β : Type} {R : α → β → Prop} {l : List α} {l' : List β} (h : List.Forall₂ R l l') :
    ∀ b ∈ l', ∃ a ∈ l, R a b := by
  induction h with
  | nil => exact fun b hb => absurd hb (by simp)
  | cons h _ ih =>
    intro b hb
    rcases List.mem_cons.1 hb with rfl | hb
    · exact ⟨_, by simp, h⟩
    · obtain ⟨a, ha, hr⟩ := ih b hb
      exact ⟨a, by simp [ha], hr⟩

/-- The same branch -/
structure SameBranch (E E' : FileEnv) (b b' : Branch) : Prop where
  els : SameTok E E' b.els b'.els
  cts : Same E E' b.cts b'.cts
  c   : b'.c = b.c
  thn : SameTok E E' b.thn b'.thn
  ets : Same E E' b.ets b'.ets
  e   : b'.e = b.e

theorem branches_same : ∀ {bs : List Branch} {l : List Token}, Same E E' (bs.flatMap Branch.toks) l →
    ∃ bs', l = bs'.flatMap Branch.toks ∧ List.Forall₂ (SameBranch E E') bs bs'
  | [], l, h => by
    cases h
    exact ⟨[], rfl, .nil⟩
  | b :: bs, l, h => by
    rw [List.flatMap_cons] at h
    obtain ⟨l1, r, rfl, h1, h3⟩ := f2_append h
    obtain ⟨bs', rfl, h4⟩ := branches_same h3
    obtain ⟨l2, l3, rfl, h1, h2⟩ := f2_append (a := b.els :: b.cts) h1
    obtain ⟨t, ts, rfl, k1, k2⟩ := f2_cons h1
    obtain ⟨u, us, rfl, k3, k4⟩ := f2_cons h2
    exact ⟨⟨t, ts, b.c, u, us, b.e⟩ :: bs', rfl, .cons ⟨k1, k2, rfl, k3, k4, rfl⟩ h4⟩

theorem acts_same {x : Raw} {bs bs' : List Branch} (h : List.Forall₂ (SameBranch E E') bs bs') : actsOf x bs' = actsOf x bs := by
  induction h with
  | nil => rfl
  | cons h _ ih => simp only [actsOf, h.c, h.e, ih]

/-- The same access -/
inductive SameAccess (E E' : FileEnv) : Access → Access → Prop
  | dot {d t d' t'} : SameTok E E' d d' → SameTok E E' t t' → SameAccess E E' (.dot d t) (.dot d' t')
  | index {b ts k i b' ts' k'} : SameTok E E' b b' → Same E E' ts ts' → SameTok E E' k k' →
      SameAccess E E' (.index b ts k i) (.index b' ts' k' i)

theorem accesses_same : ∀ {as : List Access} {l : List Token}, Same E E' (as.flatMap Access.toks) l →
    ∃ as', l = as'.flatMap Access.toks ∧ List.Forall₂ (SameAccess E E') as as'
  | [], l, h => by
    cases h
    exact ⟨[], rfl, .nil⟩
  | a :: as, l, h => by
    rw [List.flatMap_cons] at h
    obtain ⟨l1, r, rfl, h1, h3⟩ := f2_append h
    obtain ⟨as', rfl, h4⟩ := accesses_same h3
    cases a with
    | dot d t =>
      obtain ⟨d', _, rfl, k1, h1⟩ := f2_cons h1
      obtain ⟨t', rfl, k2⟩ := f2_one h1
      exact ⟨.dot d' t' :: as', rfl, .cons (.dot k1 k2) h4⟩
    | index b ts k i =>
      obtain ⟨l2, l3, rfl, h1, h2⟩ := f2_append (a := b :: ts) h1
      obtain ⟨b', ts', rfl, k1, k2⟩ := f2_cons h1
      obtain ⟨k', rfl, k3⟩ := f2_one h2
      exact ⟨.index b' ts' k' i :: as', by simp [Access.toks], .cons (.index k1 k2 k3) h4⟩

theorem access_raw {as as' : List Access} (h : List.Forall₂ (SameAccess E E') as as') :
    ∀ r, as'.foldl Access.raw r = as.foldl Access.raw r := by
  induction h with
  | nil => exact fun _ => rfl
  | cons h _ ih =>
    intro r
    rw [List.foldl_cons, List.foldl_cons]
    cases h with
    | dot _ h =>
      simp only [Access.raw, sameText h]
      exact ih _
    | index => exact ih _

theorem access_back {a : Access} {b ts k i} (h : SameAccess E E' a (.index b ts k i)) :
    ∃ b0 ts0 k0, a = .index b0 ts0 k0 i ∧ Same E E' ts0 ts := by
  cases h with
  | index _ h _ => exact ⟨_, _, _, rfl, h⟩

theorem commas_same {α : Type} {ts : List Token} : ∀ {as : List (List Token × α)} {l : List Token}, Commas (as.map Prod.fst) ts →
    Same E E' ts l → ∃ as' : List (List Token × α), Commas (as'.map Prod.fst) l ∧
      List.Forall₂ (fun x x' => Same E E' x.1 x'.1 ∧ x'.2 = x.2) as as' := by
  intro as l h hs
  generalize hm : as.map Prod.fst = m at h
  induction h generalizing as l with
  | nil =>
    cases as with
    | nil => cases hs; exact ⟨[], .nil, .nil⟩
    | cons => cases hm
  | last =>
    match as, hm with
    | [x], hm =>
      cases hm
      exact ⟨[(l, x.2)], .last, .cons ⟨hs, rfl⟩ .nil⟩
  | more hc _ ih =>
    match as, hm with
    | x :: as, hm =>
      cases hm
      obtain ⟨a', l2, rfl, h1, h2⟩ := f2_append hs
      obtain ⟨c', r', rfl, h3, h4⟩ := f2_cons h2
      obtain ⟨as', h5, h6⟩ := ih h4 rfl
      exact ⟨(a', x.2) :: as', .more (h3.kind.trans hc) h5, .cons ⟨h1, rfl⟩ h6⟩

theorem snd_same {α : Type} {as as' : List (List Token × α)}
    (h : List.Forall₂ (fun x x' => Same E E' x.1 x'.1 ∧ x'.2 = x.2) as as') : as'.map Prod.snd = as.map Prod.snd := by
  induction h with
  | nil => rfl
  | cons h _ ih => rw [List.map_cons, List.map_cons, h.2, ih]

theorem path_same {n n' : List Token} (h : Same E E' n n') : pathOf n' = pathOf n := by
  induction h with
  | nil => rfl
  | cons h _ ih =>
    unfold pathOf at ih ⊢
    rw [List.filter_cons, List.filter_cons, h.kind]
    split
    · rw [List.map_cons, List.map_cons, ih, sameText h]
    · exact ih

theorem hidden_same {V : String → Prop} {n n' : List Token} (h : Same E E' n n') (hn : ¬ Hidden V n) : ¬ Hidden V n' := by
  rintro ⟨t, r, rfl, hv⟩
  cases h with
  | cons h _ =>
    rw [sameText h] at hv
    exact hn ⟨_, _, rfl, hv⟩

set_option maxHeartbeats 2000000 in
mutual
theorem expr_same (x : SameEnv E E') {V ts r ts'} : GExpr E N V ts r → Same E E' ts ts' → GExpr E' N V ts' r
  | .chain h0 h1 h2 h3, hs => by
    obtain ⟨a', _, rfl, k1, k2⟩ := f2_append hs
    obtain ⟨is', rfl, k⟩ := spell_same k2
    rw [← assoc_same _ k]
    refine .chain h0 (rel_same x h1 k1) (fun i' hi => ?_) (fun i' hi => ?_)
    · obtain ⟨i, hi, hk⟩ := f2_back k i' hi
      exact ⟨hk.op.trans (h2 i hi).1, log_same (h2 i hi).2 hk.tok⟩
    · obtain ⟨i, hi, hk⟩ := f2_back k i' hi
      rw [hk.raw]
      exact rel_same x (h3 i hi) hk.ts
  | .once h0 h1 h2 h3, hs => by
    obtain ⟨a', _, rfl, k1, k2⟩ := f2_append hs
    obtain ⟨t', b', rfl, k2, k3⟩ := f2_cons k2
    exact .once h0 (rel_same x h1 k1) (log_same h2 k2) (rel_same x h3 k3)
theorem rel_same (x : SameEnv E E') {V ts r ts'} : GRel E N V ts r → Same E E' ts ts' → GRel E' N V ts' r
  | .simple h, hs => .simple (simple_same x h hs)
  | .cmp h1 h2 h3, hs => by
    obtain ⟨a', _, rfl, k1, k2⟩ := f2_append hs
    obtain ⟨t', b', rfl, k2, k3⟩ := f2_cons k2
    exact .cmp (simple_same x h1 k1) (cmp_same h2 k2) (simple_same x h3 k3)
  | .isIn h1 h2 h3, hs => by
    obtain ⟨a', _, rfl, k1, k2⟩ := f2_append hs
    obtain ⟨t', b', rfl, k2, k3⟩ := f2_append k2
    exact .isIn (simple_same x h1 k1) (in_same h2 k2) (simple_same x h3 k3)
  | .inRange h1 h2 h3 h4 h5, hs => by
    obtain ⟨a', _, rfl, k1, k2⟩ := f2_append hs
    obtain ⟨_, _, rfl, j2, g⟩ := f2_append k2
    obtain ⟨_, _, rfl, k3, g⟩ := f2_append g
    obtain ⟨_, _, rfl, k4, k5⟩ := f2_cons g
    exact .inRange (simple_same x h1 k1) (in_same h2 j2) (simple_same x h3 k3) (k4.kind.trans h4) (simple_same x h5 k5)
theorem simple_same (x : SameEnv E E') {V ts r ts'} : GSimple E N V ts r → Same E E' ts ts' → GSimple E' N V ts' r
  | .plain h1 h2 h3, hs => by
    obtain ⟨a', _, rfl, k1, k2⟩ := f2_append hs
    obtain ⟨is', rfl, k⟩ := spell_same k2
    rw [← assoc_same _ k]
    refine .plain (term_same x h1 k1) (fun i' hi => ?_) (fun i' hi => ?_)
    · obtain ⟨i, hi, hk⟩ := f2_back k i' hi
      rw [hk.op]
      exact add_same (h2 i hi) hk.tok
    · obtain ⟨i, hi, hk⟩ := f2_back k i' hi
      rw [hk.raw]
      exact term_same x (h3 i hi) hk.ts
  | .signed h0 h1 h2 h3, hs => by
    obtain ⟨t', _, rfl, k0, hs⟩ := f2_cons hs
    obtain ⟨a', _, rfl, k1, k2⟩ := f2_append hs
    obtain ⟨is', rfl, k⟩ := spell_same k2
    rw [← assoc_same _ k]
    refine .signed (op_same h0 k0) (term_same x h1 k1) (fun i' hi => ?_) (fun i' hi => ?_)
    · obtain ⟨i, hi, hk⟩ := f2_back k i' hi
      rw [hk.op]
      exact add_same (h2 i hi) hk.tok
    · obtain ⟨i, hi, hk⟩ := f2_back k i' hi
      rw [hk.raw]
      exact term_same x (h3 i hi) hk.ts
theorem term_same (x : SameEnv E E') {V ts r ts'} : GTerm E N V ts r → Same E E' ts ts' → GTerm E' N V ts' r
  | .mk h1 h2 h3, hs => by
    obtain ⟨a', _, rfl, k1, k2⟩ := f2_append hs
    obtain ⟨is', rfl, k⟩ := spell_same k2
    rw [← assoc_same _ k]
    refine .mk (factor_same x h1 k1) (fun i' hi => ?_) (fun i' hi => ?_)
    · obtain ⟨i, hi, hk⟩ := f2_back k i' hi
      rw [hk.op]
      exact mul_same (h2 i hi) hk.tok
    · obtain ⟨i, hi, hk⟩ := f2_back k i' hi
      rw [hk.raw]
      exact factor_same x (h3 i hi) hk.ts
theorem factor_same (x : SameEnv E E') {V ts r ts'} : GFactor E N V ts r → Same E E' ts ts' → GFactor E' N V ts' r
  | .primary h, hs => .primary (primary_same x h hs)
  | .not h0 h, hs => by
    obtain ⟨t', _, rfl, k0, hs⟩ := f2_cons hs
    exact .not (kw_same h0 k0) (primary_same x h hs)
  | .abs h0 h, hs => by
    obtain ⟨t', _, rfl, k0, hs⟩ := f2_cons hs
    exact .abs (kw_same h0 k0) (primary_same x h hs)
  | .power h1 h2 h3, hs => by
    obtain ⟨a', _, rfl, k1, k2⟩ := f2_append hs
    obtain ⟨t', b', rfl, k2, k3⟩ := f2_cons k2
    exact .power (primary_same x h1 k1) (op_same h2 k2) (primary_same x h3 k3)
theorem primary_same (x : SameEnv E E') {V ts r ts'} : GPrimary E N V ts r → Same E E' ts ts' → GPrimary E' N V ts' r
  | .int h1 h2, hs => by
    obtain ⟨t', rfl, k⟩ := f2_one hs
    exact .int (k.kind.trans h1) (k.value.trans h2)
  | .dec h1 h2, hs => by
    obtain ⟨t', rfl, k⟩ := f2_one hs
    exact .dec (k.kind.trans h1) (k.value.trans h2)
  | .str h1, hs => by
    obtain ⟨t', rfl, k⟩ := f2_one hs
    rw [← sameText k]
    exact .str (k.kind.trans h1)
  | .true h1, hs => by
    obtain ⟨t', rfl, k⟩ := f2_one hs
    exact .true (kw_same h1 k)
  | .false h1, hs => by
    obtain ⟨t', rfl, k⟩ := f2_one hs
    exact .false (kw_same h1 k)
  | .null h1, hs => by
    obtain ⟨t', rfl, k⟩ := f2_one hs
    exact .null (kw_same h1 k)
  | .paren h1 h2 h, hs => by
    obtain ⟨b', _, rfl, k1, hs⟩ := f2_cons hs
    obtain ⟨a', _, rfl, k2, hs⟩ := f2_append hs
    obtain ⟨k', rfl, k3⟩ := f2_one hs
    exact .paren (k1.kind.trans h1) (k3.kind.trans h2) (expr_same x h k2)
  | .quant h1 h2 h3 h4 h5 h6 h7 h, hs => by
    obtain ⟨_, _, rfl, k1, hs⟩ := f2_cons hs
    obtain ⟨_, _, rfl, k2, hs⟩ := f2_cons hs
    obtain ⟨_, _, rfl, k3, hs⟩ := f2_cons hs
    obtain ⟨_, _, rfl, k4, hs⟩ := f2_cons hs
    obtain ⟨_, _, rfl, k5, hs⟩ := f2_cons hs
    obtain ⟨_, _, rfl, k6, hs⟩ := f2_cons hs
    obtain ⟨a', _, rfl, k7, hs⟩ := f2_append hs
    obtain ⟨k', rfl, k8⟩ := f2_one hs
    have h' := expr_same x h k7
    rw [← sameText k3] at h' ⊢
    rw [← sameText k5]
    exact .quant (k1.kind.trans h1) (kw_same h2 k2) (k3.kind.trans h3) (kw_same h4 k4) (k5.kind.trans h5) (k6.kind.trans h6)
      (k8.kind.trans h7) h'
  | .cond h1 h2 h3 h4 h5 h6 h7 h8 h9 h10 h11, hs => by
    obtain ⟨_, _, rfl, k1, hs⟩ := f2_cons hs
    obtain ⟨_, _, rfl, k2, hs⟩ := f2_cons hs
    obtain ⟨_, _, rfl, k3, hs⟩ := f2_append hs
    obtain ⟨_, _, rfl, k4, hs⟩ := f2_cons hs
    obtain ⟨_, _, rfl, k5, hs⟩ := f2_append hs
    obtain ⟨_, _, rfl, k6, hs⟩ := f2_append hs
    obtain ⟨_, _, rfl, k7, hs⟩ := f2_cons hs
    obtain ⟨_, _, rfl, k8, hs⟩ := f2_append hs
    obtain ⟨_, rfl, k9⟩ := f2_one hs
    obtain ⟨bs', rfl, k⟩ := branches_same k6
    rw [← acts_same k]
    refine .cond (k1.kind.trans h1) (k9.kind.trans h2) (kw_same h3 k2) (kw_same h4 k4) (kw_same h5 k7) (expr_same x h6 k3)
      (expr_same x h7 k5) (fun d' hd => ?_) (fun d' hd => ?_) (fun d' hd => ?_) (expr_same x h11 k8)
    · obtain ⟨d, hd, hk⟩ := f2_back k d' hd
      exact ⟨kw_same (h8 d hd).1 hk.els, kw_same (h8 d hd).2 hk.thn⟩
    · obtain ⟨d, hd, hk⟩ := f2_back k d' hd
      rw [hk.c]
      exact expr_same x (h9 d hd) hk.cts
    · obtain ⟨d, hd, hk⟩ := f2_back k d' hd
      rw [hk.e]
      exact expr_same x (h10 d hd) hk.ets
  | .name h, hs => .name (gname_same x h hs)
theorem gname_same (x : SameEnv E E') {V ts r ts'} : GName E N V ts r → Same E E' ts ts' → GName E' N V ts' r
  | @GName.value _ _ _ t as h1 h2 h3 h4, hs => by
    obtain ⟨t', _, rfl, k1, hs⟩ := f2_cons hs
    obtain ⟨as', rfl, k⟩ := accesses_same hs
    rw [← access_raw k, ← sameText k1]
    refine .value (k1.kind.trans h1) (by rw [sameText k1]; exact h2) (fun a' ha => ?_) (fun b' ts' k' i' ha => ?_)
    · obtain ⟨a, ha, hk⟩ := f2_back k a' ha
      have := h3 a ha
      cases hk with
      | dot g1 g2 => exact ⟨g1.kind.trans this.1, g2.kind.trans this.2⟩
      | index g1 g2 g3 => exact ⟨g1.kind.trans this.1, g3.kind.trans this.2⟩
    · obtain ⟨a, ha, hk⟩ := f2_back k _ ha
      obtain ⟨b, ts, k, rfl, g⟩ := access_back hk
      exact expr_same x (h4 b ts k i' ha) g
  | .literal h1 h2 h3 h4 h5, hs => by
    obtain ⟨n', _, rfl, k1, hs⟩ := f2_append hs
    obtain ⟨_, _, rfl, k2, hs⟩ := f2_cons hs
    obtain ⟨_, rfl, k3⟩ := f2_one hs
    rw [← path_same k1, ← sameText k3]
    exact .literal (x.name k1 h1) (hidden_same k1 h2) h3 (k2.kind.trans h4) (k3.kind.trans h5)
  | @GName.call _ _ _ _ _ _ _ _ as h1 h2 h3 h4 h5 h6 h7, hs => by
    obtain ⟨_, _, rfl, k1, hs⟩ := f2_cons hs
    obtain ⟨_, _, rfl, k2, hs⟩ := f2_cons hs
    obtain ⟨_, _, rfl, k3, hs⟩ := f2_append hs
    obtain ⟨_, rfl, k4⟩ := f2_one hs
    obtain ⟨as', h6', k⟩ := commas_same h6 k3
    rw [← snd_same k, ← sameText k1]
    refine .call (k1.kind.trans h1) (by rw [x.global, sameText k1]; exact h2) h3 (k2.kind.trans h4) (k4.kind.trans h5) h6'
      (fun a' ha => ?_)
    obtain ⟨a, ha, hk⟩ := f2_back k a' ha
    rw [hk.2]
    exact expr_same x (h7 a ha) hk.1
  | @GName.qualifiedCall _ _ _ p d f _ _ _ _ as h1 h2 h3 h4 h5 h6 h7 h8, hs => by
    obtain ⟨_, _, rfl, k1, hs⟩ := f2_cons hs
    obtain ⟨_, _, rfl, k2, hs⟩ := f2_cons hs
    obtain ⟨_, _, rfl, k3, hs⟩ := f2_cons hs
    obtain ⟨_, _, rfl, k4, hs⟩ := f2_cons hs
    obtain ⟨_, _, rfl, k5, hs⟩ := f2_append hs
    obtain ⟨_, rfl, k6⟩ := f2_one hs
    obtain ⟨as', h7', k⟩ := commas_same h7 k5
    rw [← snd_same k, ← sameText k3]
    refine .qualifiedCall (x.name (.cons k1 (.cons k2 (.cons k3 .nil))) h1) (hidden_same (.cons k1 .nil) h2) h3 h4 (k4.kind.trans h5)
      (k6.kind.trans h6) h7' (fun a' ha => ?_)
    obtain ⟨a, ha, hk⟩ := f2_back k a' ha
    rw [hk.2]
    exact expr_same x (h8 a ha) hk.1
end

end Verif.Lemmas.LessChecks
