import Verif.Lemmas.RslText
import Verif.Lemmas.ValueAccepts
import Verif.Lemmas.ExprAccepts
/-! Declarations that are written as the grammar says are accepted. -/
namespace Verif.Lemmas
open Verif.Model Verif.Spec

variable {α β : Type} {E : FileEnv} {K : PS} {W : World} {n n' : Nat} {w ts : List Token} {s : PS}

/-- `x` ends normally, and the result and the final state satisfy `Q`. -/
def Acc (x : P α) (s : PS) (Q : α → PS → Prop) : Prop := ∃ a s', x s = .ok a s' ∧ Q a s'

theorem acc_bind {x : P α} {f : α → P β} {Q : β → PS → Prop} (Q1 : α → PS → Prop) (hx : Acc x s Q1)
    (hf : ∀ a s1, Q1 a s1 → Acc (f a) s1 Q) : Acc (x >>= f) s Q := by
  obtain ⟨a, s1, h1, hq⟩ := hx
  obtain ⟨b, s2, h2, hq2⟩ := hf a s1 hq
  exact ⟨b, s2, (bind_ok h1).trans h2, hq2⟩

theorem acc_get_bind {f : PS → P β} {Q : β → PS → Prop} (h : Acc (f s) s Q) : Acc (P.get >>= f) s Q := h

theorem acc_pure {a : α} {Q : α → PS → Prop} (h : Q a s) : Acc (pure a) s Q := ⟨a, s, rfl, h⟩

theorem acc_pos {c : Prop} [Decidable c] {x y : P α} {Q : α → PS → Prop} (h : c) (hx : Acc x s Q) :
    Acc (if c then x else y) s Q := by rw [if_pos h]; exact hx

theorem acc_neg {c : Prop} [Decidable c] {x y : P α} {Q : α → PS → Prop} (h : ¬ c) (hy : Acc y s Q) :
    Acc (if c then x else y) s Q := by rw [if_neg h]; exact hy

theorem acc_then {c : Bool} {x y : P α} {Q : α → PS → Prop} (h : c = true) (hx : Acc x s Q) :
    Acc (P.cond c x y) s Q := by subst h; exact hx

theorem acc_else {c : Bool} {x y : P α} {Q : α → PS → Prop} (h : c = false) (hy : Acc y s Q) :
    Acc (P.cond c x y) s Q := by subst h; exact hy

theorem Acc.mono {x : P α} {Q Q' : α → PS → Prop} (h : Acc x s Q) (hq : ∀ a s', Q a s' → Q' a s') :
    Acc x s Q' := by
  obtain ⟨a, s', h1, h2⟩ := h
  exact ⟨a, s', h1, hq _ _ h2⟩

theorem Acc.sp {R : PS → PS → Prop} [PreRel R] {x : P α} {Q Q' : α → PS → Prop} (h : Acc x s Q)
    (h' : Sp R x s Q') : Acc x s (fun a s' => Q a s' ∧ R s s' ∧ Q' a s') := by
  obtain ⟨a, s', h1, h2⟩ := h
  exact ⟨a, s', h1, h2, h'.ok h1⟩

/-- The tokens `w` are ahead of the parser and no lexical error is; `W` is what is declared (with `n` as
the next number); errors, objects and sections are those of `K`. -/
structure On (K : PS) (W : World) (n : Nat) (w : List Token) (s : PS) : Prop where
  clean : ∀ o ∈ s.rest, (∃ t, o = .tok t) ∨ o = .eof
  words : words s = w
  world : worldOf s = { W with nid := n }
  errs : s.errs = K.errs
  objs : s.objs = K.objs
  sects : s.sects = K.sects

theorem On.nt (h : On K W n w s) : s.nt = w.head? := by
  have := h.words
  unfold Spec.words at this
  split at this
  · next hn => rw [← this, hn]; rfl
  · next t hn => rw [← this, hn]; rfl

theorem On.nid (h : On K W n w s) : s.nid = n := congrArg World.nid h.world
theorem On.tabs (h : On K W n w s) : s.tabs = W.tabs := congrArg World.tabs h.world
theorem On.decls (h : On K W n w s) : s.decls = W.decls := congrArg World.decls h.world
theorem On.infos (h : On K W n w s) : s.infos = W.infos := congrArg World.infos h.world
theorem On.seps (h : On K W n w s) : s.seps = W.seps := congrArg World.seps h.world
theorem On.names (h : On K W n w s) : namesOf s = W.names := congrArg World.names h.world

theorem tokensOf_length : ∀ r : List LexOut, (tokensOf r).length ≤ r.length := by
  intro r
  induction r with
  | nil => simp [tokensOf]
  | cons o r ih =>
    cases o with
    | tok t =>
      simp only [tokensOf]
      split
      · simp only [List.length_cons]; omega
      · simp only [List.length_cons]; omega
    | _ => simp [tokensOf]

theorem On.len (h : On K W n w s) : w.length ≤ s.toks := by
  rw [← h.words]
  unfold Spec.words PS.toks
  have := tokensOf_length s.rest
  split
  · simp
  · next hn => rw [hn]; simp only [List.length_cons, Option.isSome_some, if_true]; omega

theorem On.moved {s' : PS} {w' : List Token} (h : On K W n w s) (hst : Steps s ts s') (hw : Spec.words s' = w')
    (hc : ∀ o ∈ s'.rest, (∃ t, o = .tok t) ∨ o = .eof) : On K W n w' s' := by
  obtain ⟨_, _, _, rfl⟩ := hst.same
  exact ⟨hc, hw, h.world, h.errs, h.objs, h.sects⟩

theorem On.steps (h : On K W n (ts ++ w) s) : ∃ s', Steps s ts s' ∧ On K W n w s' := by
  obtain ⟨s', h1, h2, h3⟩ := clean_steps ts s w h.clean h.words
  exact ⟨s', h1, h.moved h1 h2 h3⟩

/-- a step that only consumes tokens -/
theorem acc_steps {x : P α} {a : α} (h : On K W n (ts ++ w) s)
    (hx : ∀ s', Steps s ts s' → s'.nt = w.head? → x s = .ok a s') :
    Acc x s (fun a' s' => a' = a ∧ On K W n w s') := by
  obtain ⟨s', h1, h2⟩ := h.steps
  exact ⟨a, s', hx s' h1 h2.nt, rfl, h2⟩

theorem matchK_on {k : Kind} {t : Token} (h : On K W n (t :: w) s) (hk : t.kind = k) :
    Acc (P.matchK k) s (fun t' s' => t' = t ∧ On K W n w s') :=
  acc_steps (ts := [t]) h fun _ hst _ => matchK_ok hst hk

theorem matchKw_on {v : String} {t : Token} (h : On K W n (t :: w) s) (hk : IsKw v t) :
    Acc (P.matchKw v) s (fun t' s' => t' = t ∧ On K W n w s') :=
  acc_steps (ts := [t]) h fun _ hst _ => matchKw_ok hst hk

theorem qualifiedName_on {N : Names} {sub : Ent → Bool} {e : Ent} (hN : N.tabs = W.tabs)
    (h : On K W n (ts ++ w) s) (he : NameOf E N ts e) (hs : sub e = true) :
    Acc (parseQualifiedName E sub) s (fun e' s' => e' = e ∧ On K W n w s') :=
  acc_steps h fun _ hst _ => parseQualifiedName_acc
    ((nameOf_tabs (N := N) (N' := namesOf s) (by rw [h.names]; exact hN)).1 he) hs hst

/-- The next token is not of this kind. -/
def NotAhead (k : Kind) (w : List Token) : Prop := ∀ t, w.head? = some t → t.kind ≠ k

theorem notAhead_cons {k k' : Kind} {t : Token} (h : t.kind = k') (hk : k' ≠ k) : NotAhead k (t :: w) := by
  intro t' ht'
  cases ht'
  rw [h]; exact hk

theorem On.peek_false {k : Kind} (h : On K W n w s) (hk : NotAhead k w) : s.peek k = false :=
  peek_ne fun t ht => hk t (by rw [← h.nt, ht])

theorem On.peek_true {k : Kind} {t : Token} (h : On K W n (t :: w) s) (hk : t.kind = k) : s.peek k = true :=
  peek_of h.nt hk

theorem On.peekKw_true {v : String} {t : Token} (h : On K W n (t :: w) s) (hk : IsKw v t) :
    s.peekKw v = true := peekKw_of h.nt hk

theorem On.peekKw_false {v : String} {t : Token} (h : On K W n (t :: w) s) (hk : ¬ IsKw v t) :
    s.peekKw v = false := peekKw_head_ne h.nt hk

theorem kind_notKw {v : String} {t : Token} {k : Kind} (h : t.kind = k) (hk : k ≠ .KEYWORD) : ¬ IsKw v t :=
  fun hv => hk (h.symm.trans hv.1)

theorem kw_notKw {u v : String} {t : Token} (h : IsKw u t) (huv : u ≠ v) : ¬ IsKw v t :=
  fun hv => huv (isKw_inj h hv)

/-! ## Names -/

theorem described_first {nm : List Char} {a : List Token} (h : Described nm a) :
    ∃ t r, a = t :: r ∧ t.kind = .IDENTIFIER := by
  obtain ⟨t, hk, -, rfl | ⟨d, -, rfl⟩⟩ := h
  · exact ⟨t, [], rfl, hk⟩
  · exact ⟨t, [d], rfl, hk⟩

theorem nameOf_start {N : Names} {a : List Token} {e : Ent} (h : NameOf E N a e) :
    ∃ t r, a = t :: r ∧ t.kind = .IDENTIFIER := by
  rcases h with ⟨t, rfl, hk, -⟩ | ⟨t, d, t', p, rfl, hk, -⟩
  · exact ⟨t, [], rfl, hk⟩
  · exact ⟨t, [d, t'], rfl, hk⟩

theorem describedName_on {nm : List Char} {a : List Token} (h : On K W n (a ++ w) s) (hd : Described nm a)
    (hw : NotAhead .STRING w) :
    Acc parseDescribedName s (fun t s' => t.text = nm ∧ On K W n w s') := by
  unfold parseDescribedName
  obtain ⟨t, hk, ht, rfl | ⟨d, hdk, rfl⟩⟩ := hd
  · refine acc_bind _ (matchK_on h hk) ?_
    rintro _ s1 ⟨rfl, h1⟩
    refine acc_get_bind (acc_else (h1.peek_false hw) (acc_pure ⟨ht, h1⟩))
  · refine acc_bind _ (matchK_on h hk) ?_
    rintro _ s1 ⟨rfl, h1⟩
    refine acc_get_bind (acc_then (h1.peek_true hdk) ?_)
    refine acc_bind _ (matchK_on h1 hdk) ?_
    rintro _ s2 ⟨rfl, h2⟩
    exact acc_pure ⟨ht, h2⟩

/-! ## Types of components -/

/-- `RecNames` without the first name -/
inductive RecTail (E : FileEnv) (N : Names) : List Nat → List Token → Prop
  | nil : RecTail E N [] []
  | cons {c b e ms ts} : c.kind = .COMMA → NameOf E N b e → e.cls = clsRecord → RecTail E N ms ts →
      RecTail E N (e.id :: ms) (c :: b ++ ts)

theorem recTail_snoc {N : Names} {ms : List Nat} {ts b : List Token} {c : Token} {e : Ent} (h : RecTail E N ms ts)
    (hc : c.kind = .COMMA) (he : NameOf E N b e) (hr : e.cls = clsRecord) :
    RecTail E N (ms ++ [e.id]) (ts ++ c :: b) := by
  induction h with
  | nil => simpa using RecTail.cons hc he hr .nil
  | cons h1 h2 h3 _ ih => simpa using RecTail.cons h1 h2 h3 ih

theorem recNames_tail {N : Names} {ms : List Nat} {ts : List Token} (h : RecNames E N ms ts) :
    ∃ e b ms' ts', ms = e.id :: ms' ∧ ts = b ++ ts' ∧ NameOf E N b e ∧ e.cls = clsRecord ∧ RecTail E N ms' ts' := by
  induction h with
  | one h hc => exact ⟨_, _, [], [], rfl, by simp, h, hc, .nil⟩
  | more _ hc he hr ih =>
    obtain ⟨e, b, ms', ts', rfl, rfl, h1, h2, h3⟩ := ih
    exact ⟨e, b, _, _, rfl, by simp, h1, h2, recTail_snoc h3 hc he hr⟩

theorem unionLoop_on {N : Names} (hN : N.tabs = W.tabs) (hw : NotAhead .COMMA w) {ms : List Nat} {ts : List Token}
    (ht : RecTail E N ms ts) : ∀ (k : Nat) (acc : List Nat) (s : PS), On K W n (ts ++ w) s → ts.length < k →
    Acc (unionLoop E k acc) s (fun ms' s' => ms' = acc ++ ms ∧ On K W n w s') := by
  induction ht with
  | nil =>
    intro k acc s h hk
    obtain ⟨k, rfl⟩ : ∃ j, k = j + 1 := ⟨k - 1, by omega⟩
    unfold unionLoop
    exact acc_get_bind (acc_neg (by simp [h.peek_false hw]) (acc_pure ⟨by simp, h⟩))
  | @cons c b e ms ts hc he hr _ ih =>
    intro k acc s h hk
    obtain ⟨k, rfl⟩ : ∃ j, k = j + 1 := ⟨k - 1, by omega⟩
    unfold unionLoop
    rw [List.append_assoc, List.cons_append] at h
    refine acc_get_bind (acc_pos (h.peek_true hc) ?_)
    refine acc_bind _ (matchK_on h hc) ?_
    rintro _ s1 ⟨rfl, h1⟩
    refine acc_bind _ (qualifiedName_on hN h1 he (by simpa using hr)) ?_
    rintro _ s2 ⟨rfl, h2⟩
    refine (ih k _ s2 h2 (by simp only [List.length_append, List.length_cons] at hk; omega)).mono ?_
    rintro _ s3 ⟨rfl, h3⟩
    exact ⟨by simp, h3⟩

theorem reportDuplicates_on : ∀ (ms seen : List Nat), ms.Nodup → (∀ m ∈ ms, m ∉ seen) →
    reportDuplicates seen ms s = .ok () s := by
  intro ms
  induction ms with
  | nil => intros; rfl
  | cons m ms ih =>
    intro seen hd hs
    unfold reportDuplicates
    rw [if_neg (by simpa using hs m (by simp))]
    rw [List.nodup_cons] at hd
    refine ih (m :: seen) hd.2 fun x hx => ?_
    intro hm
    rcases List.mem_cons.1 hm with rfl | hm
    · exact hd.1 hx
    · exact hs x (by simp [hx]) hm

theorem On.fresh (h : On K W n w s) : Acc P.fresh s (fun m s' => m = n ∧ On K W (n + 1) w s') := by
  refine ⟨s.nid, _, rfl, h.nid, h.clean, h.words, ?_, h.errs, h.objs, h.sects⟩
  have := h.world
  have e : worldOf { s with nid := s.nid + 1 } = { worldOf s with nid := s.nid + 1 } := rfl
  rw [e, this, h.nid]

theorem type_first {N : Names} {τ : Ty} (h : TypeText E N n τ ts n') :
    ∃ t r, ts = t :: r ∧ (t.kind = .IDENTIFIER ∨ t.kind = .S_BRA) := by
  cases h with
  | name h _ => obtain ⟨t, r, rfl, hk⟩ := nameOf_start h; exact ⟨t, r, rfl, .inl hk⟩
  | union ha _ _ _ => exact ⟨_, _, rfl, .inr ha⟩

theorem fieldType_on {N : Names} {τ : Ty} (hN : N.tabs = W.tabs) (ht : TypeText E N n τ ts n')
    (h : On K W n (ts ++ w) s) :
    Acc (parseFieldType E) s (fun τ' s' => τ' = τ ∧ On K W n' w s') := by
  unfold parseFieldType
  cases ht with
  | name he hτ =>
    obtain ⟨t, r, e0, hk⟩ := nameOf_start he
    refine acc_get_bind (acc_neg ?_ ?_)
    · rw [h.peek_false]
      · simp
      · rw [e0]; exact notAhead_cons hk (by decide)
    refine acc_bind _ (qualifiedName_on hN h he (by simp [Ent.isType, hτ])) ?_
    rintro _ s1 ⟨rfl, h1⟩
    simp only [hτ]
    exact acc_pure ⟨rfl, h1⟩
  | @union ms ts a b ha hr hd hb =>
    refine acc_get_bind (acc_pos (h.peek_true ha) ?_)
    unfold parseUnionType
    obtain ⟨e, x, ms', ts', rfl, rfl, he, hc, ht⟩ := recNames_tail hr
    refine acc_bind _ (matchK_on (w := x ++ ts' ++ [b] ++ w) (by simpa using h) ha) ?_
    rintro _ s1 ⟨rfl, h1⟩
    refine acc_bind _ (qualifiedName_on (w := ts' ++ b :: w) hN (by simpa using h1) he (by simpa using hc)) ?_
    rintro _ s2 ⟨rfl, h2⟩
    refine acc_get_bind ?_
    have hl := h2.len
    simp only [List.length_append, List.length_cons] at hl
    refine acc_bind _ (unionLoop_on hN (notAhead_cons hb (by decide)) ht _ _ s2 h2 (by omega)) ?_
    rintro _ s3 ⟨rfl, h3⟩
    refine acc_bind _ (matchK_on h3 hb) ?_
    rintro _ s4 ⟨rfl, h4⟩
    refine acc_bind (fun _ s' => On K W n w s') ⟨_, _, reportDuplicates_on _ [] hd (by simp), h4⟩ ?_
    intro _ s5 h5
    refine acc_bind _ h5.fresh ?_
    rintro _ s6 ⟨rfl, h6⟩
    exact acc_pure ⟨rfl, h6⟩

theorem natOf_on {t : Token} {m : Nat} (hv : t.value = .int m) : P.natOf t s = .ok m s := by
  unfold P.natOf; rw [hv]; rfl

theorem upperBound_on {hi : Option Nat} {u : Token} (hu : UpperText hi u) (h : On K W n (u :: w) s) :
    Acc parseUpperBound s (fun hi' s' => hi' = hi ∧ On K W n w s') := by
  unfold parseUpperBound
  cases hi with
  | some m =>
    obtain ⟨hk, hv⟩ := hu
    refine acc_get_bind (acc_pos (h.peek_true hk) ?_)
    refine acc_bind _ (matchK_on h hk) ?_
    rintro _ s1 ⟨rfl, h1⟩
    refine acc_bind (fun m' s' => m' = m ∧ s' = s1) ⟨_, _, natOf_on hv, rfl, rfl⟩ ?_
    rintro _ _ ⟨rfl, rfl⟩
    exact acc_pure ⟨rfl, h1⟩
  | none =>
    have hu : u.kind = .OPERATOR ∧ u.text = "*".toList := hu
    refine acc_get_bind (acc_neg ?_ (acc_pos ?_ ?_))
    · rw [h.peek_false (notAhead_cons hu.1 (by decide))]; simp
    · rw [h.nt]; simp [hu.1, hu.2]
    refine acc_bind _ (matchK_on h hu.1) ?_
    rintro _ s1 ⟨rfl, h1⟩
    exact acc_pure ⟨rfl, h1⟩

/-- the bounds of an array, if there are any -/
theorem compType_split {N : Names} {τ : Ty} (h : CompTypeText E N n τ ts n') :
    ∃ τ0 a b m, ts = a ++ b ∧ TypeText E N n τ0 a m ∧
      ((b = [] ∧ τ = τ0 ∧ m = n') ∨ ∃ x l r u y lo hi, b = [x, l, r, u, y] ∧ x.kind = .S_BRA ∧ l.kind = .INTEGER ∧
        l.value = .int lo ∧ r.kind = .RANGE ∧ UpperText hi u ∧ y.kind = .S_KET ∧ τ = .arr m τ0 lo hi ∧ n' = m + 1) := by
  cases h with
  | single h => exact ⟨_, _, [], _, by simp, h, .inl ⟨rfl, rfl, rfl⟩⟩
  | arr h h1 h2 h3 h4 h5 h6 =>
    exact ⟨_, _, _, _, rfl, h, .inr ⟨_, _, _, _, _, _, _, rfl, h1, h2, h3, h4, h5, h6, rfl, rfl⟩⟩

theorem compType_on {N : Names} {τ : Ty} (hN : N.tabs = W.tabs) (ht : CompTypeText E N n τ ts n')
    (hw : NotAhead .S_BRA w) (h : On K W n (ts ++ w) s) :
    Acc (parseFieldType E >>= parseArrayType) s (fun τ' s' => τ' = τ ∧ On K W n' w s') := by
  obtain ⟨τ0, a, b, m, rfl, h0, hb⟩ := compType_split ht
  refine acc_bind _ (fieldType_on (w := b ++ w) hN h0 (by simpa using h)) ?_
  rintro _ s1 ⟨rfl, h1⟩
  unfold parseArrayType
  rcases hb with ⟨rfl, rfl, rfl⟩ | ⟨x, l, r, u, y, lo, hi, rfl, hx, hl, hlo, hr, hu, hy, rfl, rfl⟩
  · exact acc_get_bind (acc_neg (by simp [h1.peek_false hw]) (acc_pure ⟨rfl, h1⟩))
  · refine acc_get_bind (acc_pos (h1.peek_true hx) ?_)
    refine acc_bind _ (matchK_on h1 hx) ?_
    rintro _ s2 ⟨rfl, h2⟩
    refine acc_bind _ (matchK_on h2 hl) ?_
    rintro _ s3 ⟨rfl, h3⟩
    refine acc_bind (fun m' s' => m' = lo ∧ s' = s3) ⟨_, _, natOf_on hlo, rfl, rfl⟩ ?_
    rintro _ _ ⟨rfl, rfl⟩
    refine acc_bind _ (matchK_on h3 hr) ?_
    rintro _ s4 ⟨rfl, h4⟩
    refine acc_bind _ (upperBound_on hu h4) ?_
    rintro _ s5 ⟨rfl, h5⟩
    refine acc_bind _ (matchK_on h5 hy) ?_
    rintro _ s6 ⟨rfl, h6⟩
    refine acc_bind _ h6.fresh ?_
    rintro _ s7 ⟨rfl, h7⟩
    exact acc_pure ⟨rfl, h7⟩

/-! ## Enumerations -/

theorem literals_len {ls : List String} {ts : List Token} (h : LiteralsText ls ts) : ls.length ≤ ts.length := by
  induction h with
  | nil => simp
  | cons h1 _ ih =>
    obtain ⟨t, r, rfl, -⟩ := described_first h1
    simp only [List.length_append, List.length_cons]; omega

theorem literals_first {ls : List String} {ts : List Token} (h : LiteralsText ls ts) {k : Kind}
    (hk : k ≠ .IDENTIFIER) (hw : NotAhead k w) : NotAhead k (ts ++ w) := by
  cases h with
  | nil => exact hw
  | cons h1 _ =>
    obtain ⟨t, r, rfl, ht⟩ := described_first h1
    exact notAhead_cons ht (Ne.symm hk)

theorem literalLoop_on {tabs : List STab} {c : Token} (hc : c.kind = .C_KET) {ls : List String} {ts : List Token}
    (ht : LiteralsText ls ts) : ∀ (k : Nat) (any : Bool) (done : List String) (s : PS),
    On K (enumIn W tabs done) n (ts ++ c :: w) s → ls.length < k →
    ((done ++ ls).Pairwise fun l l' => ¬ SameName l l') → (any = true ↔ done ≠ []) →
    Acc (literalLoop W.decls.enums.length k any) s (fun any' s' => (any' = true ↔ done ++ ls ≠ []) ∧
      On K (enumIn W tabs (done ++ ls)) n (c :: w) s') := by
  induction ht with
  | nil =>
    intro k any done s h hk hp ha
    obtain ⟨k, rfl⟩ : ∃ j, k = j + 1 := ⟨k - 1, by omega⟩
    unfold literalLoop
    exact acc_get_bind (acc_pos (h.peek_true hc) (acc_pure ⟨by simpa using ha, by simpa using h⟩))
  | @cons l ls a ts hl hls ih =>
    intro k any done s h hk hp ha
    obtain ⟨k, rfl⟩ : ∃ j, k = j + 1 := ⟨k - 1, by omega⟩
    unfold literalLoop
    rw [List.append_assoc] at h
    refine acc_get_bind (acc_neg ?_ ?_)
    · obtain ⟨t, r, e0, hk⟩ := described_first hl
      rw [h.peek_false]
      · simp
      · rw [e0]; exact notAhead_cons hk (by decide)
    refine acc_bind _ (describedName_on h hl
      (literals_first hls (by decide) (notAhead_cons hc (by decide)))) ?_
    rintro tok s1 ⟨htx, h1⟩
    have hen : s1.decls.enums = W.decls.enums ++ [done] := by rw [h1.decls]; rfl
    have e1 : String.ofList tok.text = l := by rw [htx]; simp
    refine acc_bind (fun _ s' => On K (enumIn W tabs (done ++ [l])) n (ts ++ c :: w) s') ?_ ?_
    · unfold P.addLiteral Acc
      have hr : registerName (((s1.decls.enums[W.decls.enums.length]?).getD []).map String.toList) tok.text = .ok () := by
        rw [registerName_ok, hen, getElem?_snoc, htx]
        intro m hm
        obtain ⟨l', hl', rfl⟩ := List.mem_map.1 hm
        exact (List.pairwise_append.1 hp).2.2 l' hl' l (by simp)
      beta_reduce
      rw [hr]
      refine ⟨_, _, rfl, h1.clean, h1.words, ?_, h1.errs, h1.objs, h1.sects⟩
      rw [e1]
      have hw1 := h1.world
      have : ({ worldOf s1 with decls := { s1.decls with enums := s1.decls.enums.modify W.decls.enums.length (· ++ [l]) } } : World) = { enumIn W tabs (done ++ [l]) with nid := n } := by
        rw [hen, modify_snoc, hw1, h1.decls]
        rfl
      exact this
    · intro _ s2 h2
      refine (ih k true (done ++ [l]) s2 h2 (by simp only [List.length_cons] at hk; omega) (by simpa using hp) (by simp)).mono ?_
      rintro _ s3 ⟨h3, h4⟩
      exact ⟨by simpa using h3, by simpa using h4⟩

theorem registerType_on {name : List Char} {id cls : Nat} {upd : PS → PS} {tabs : List STab}
    (h : Enters s.tabs E.pkg name id cls tabs) :
    P.registerType E name id cls upd s = .ok () { upd s with tabs } := by
  obtain ⟨T, T', h1, h2, rfl⟩ := h
  simp only [P.registerType, h1, h2]

theorem enum_on {k b c : Token} {name : List Char} {a ts : List Token} {ls : List String} {tabs : List STab}
    (hk : IsKw "enum" k) (hd : Described name a) (hb : b.kind = .C_BRA) (hl : LiteralsText ls ts) (hne : ls ≠ [])
    (hp : ls.Pairwise fun l l' => ¬ SameName l l') (hc : c.kind = .C_KET)
    (hT : Enters W.tabs E.pkg name W.decls.enums.length clsEnum tabs)
    (h : On K W n (k :: a ++ b :: ts ++ [c] ++ w) s) :
    Acc (parseEnumDecl E) s (fun _ s' => On K (enumIn W tabs ls) n w s') := by
  unfold parseEnumDecl
  refine acc_bind _ (matchKw_on (w := a ++ b :: ts ++ [c] ++ w) (by simpa using h) hk) ?_
  rintro _ s1 ⟨rfl, h1⟩
  refine acc_bind _ (describedName_on (w := b :: (ts ++ c :: w)) (by simpa using h1) hd
    (notAhead_cons hb (by decide))) ?_
  rintro tok s2 ⟨rfl, h2⟩
  refine acc_get_bind ?_
  rw [← h2.tabs] at hT
  refine acc_bind (fun _ s' => On K (enumIn W tabs []) n (b :: (ts ++ c :: w)) s')
    ⟨_, _, registerType_on (by rw [h2.decls]; exact hT), ?_⟩ ?_
  · refine ⟨h2.clean, h2.words, ?_, h2.errs, h2.objs, h2.sects⟩
    have e : worldOf { s2 with decls := { s2.decls with enums := s2.decls.enums ++ [[]] }, tabs } =
        enumIn (worldOf s2) tabs [] := rfl
    exact e.trans (by rw [h2.world]; rfl)
  intro _ s3 h3
  refine acc_bind _ (matchK_on h3 hb) ?_
  rintro _ s4 ⟨rfl, h4⟩
  refine acc_get_bind ?_
  rw [h2.decls]
  have hlen := h4.len
  simp only [List.length_append, List.length_cons] at hlen
  have := literals_len hl
  refine acc_bind _ (literalLoop_on hc hl (s4.toks + 1) false [] s4 h4 (by omega) (by simpa using hp) (by simp)) ?_
  rintro any s5 ⟨ha, h5⟩
  refine acc_bind _ (matchK_on h5 hc) ?_
  rintro _ s6 ⟨rfl, h6⟩
  exact acc_then (ha.2 (by simpa using hne)) (acc_pure (by simpa using h6))

/-! ## Tuples -/

/-- what comes after the name of a component -/
theorem optType_first {o τ : List Token} {b : Bool} (ho : OptionalText b o)
    (hτ : ∃ t r, τ = t :: r ∧ (t.kind = .IDENTIFIER ∨ t.kind = .S_BRA)) :
    ∃ t r, o ++ τ = t :: r ∧ (if b then IsKw "optional" t else t.kind = .IDENTIFIER ∨ t.kind = .S_BRA) := by
  unfold OptionalText at ho
  obtain ⟨t, r, rfl, ht⟩ := hτ
  cases b with
  | true => obtain ⟨k, hk, rfl⟩ := ho; exact ⟨k, _, rfl, hk⟩
  | false => simp only [Bool.false_eq_true, if_false] at ho ⊢; subst ho; exact ⟨t, r, rfl, ht⟩

theorem optType_string {t : Token} {b : Bool}
    (h : if b then IsKw "optional" t else t.kind = .IDENTIFIER ∨ t.kind = .S_BRA) : NotAhead .STRING (t :: w) := by
  cases b with
  | true => exact notAhead_cons h.1 (by decide)
  | false =>
    rcases h with h | h
    · exact notAhead_cons h (by decide)
    · exact notAhead_cons h (by decide)

theorem optType_kw {t : Token} {b : Bool}
    (h : if b then IsKw "optional" t else t.kind = .IDENTIFIER ∨ t.kind = .S_BRA) : b = false → ¬ IsKw "optional" t := by
  rintro rfl
  rcases h with h | h
  · exact kind_notKw h (by decide)
  · exact kind_notKw h (by decide)

theorem field_first {N : Names} {t : Nat} {c : Comp} (h : FieldText E N t n c ts n') :
    ∃ x r, ts = x :: r ∧ x.kind = .IDENTIFIER := by
  obtain ⟨-, a, o, τ, rfl, hd, -⟩ := h
  obtain ⟨x, r, rfl, hx⟩ := described_first hd
  exact ⟨x, _, rfl, hx⟩

theorem tupleField_on {N : Names} {t : Nat} {c : Comp} {allowed required : Bool} (hN : N.tabs = W.tabs)
    (hf : FieldText E N t n c ts n') (hreq : required = true → c.optional = true)
    (hall : c.optional = true → allowed = true) (h : On K W n (ts ++ w) s) :
    Acc (parseTupleField E t allowed required) s (fun c' s' => c' = c ∧ On K W n' w s') := by
  obtain ⟨hm, a, o, τ, rfl, hd, ho, hτ⟩ := hf
  unfold parseTupleField
  refine acc_bind (fun _ s' => s' = s) (acc_else ?_ (acc_pure rfl)) ?_
  · cases required with
    | false => simp
    | true => simp [hall (hreq rfl)]
  rintro _ _ rfl
  obtain ⟨x, r, e0, hx⟩ := optType_first ho (type_first hτ)
  refine acc_bind _ (describedName_on (w := o ++ τ ++ w) (by simpa using h) hd
    (by rw [e0]; exact optType_string hx)) ?_
  rintro tok s1 ⟨htx, h1⟩
  refine acc_get_bind ?_
  refine acc_bind (fun o' s' => o' = c.optional ∧ On K W n (τ ++ w) s') ?_ ?_
  · cases hb : c.optional with
    | true =>
      rw [hb] at ho
      obtain ⟨k, hk, rfl⟩ := ho
      refine acc_then (by rw [h1.peekKw_true (w := τ ++ w) hk]; simp) ?_
      refine acc_bind _ (matchKw_on (w := τ ++ w) (by simpa using h1) hk) ?_
      rintro _ s2 ⟨rfl, h2⟩
      exact acc_then (hall hb) (acc_pure ⟨rfl, h2⟩)
    | false =>
      have hr : required = false := by
        cases required with
        | false => rfl
        | true => rw [hreq rfl] at hb; cases hb
      rw [hb] at ho hx
      have ho : o = [] := ho
      subst ho
      rw [List.nil_append] at e0
      subst e0
      refine acc_else (by rw [hr, h1.peekKw_false (optType_kw hx rfl)]; rfl) (acc_pure ⟨rfl, h1⟩)
  rintro _ s2 ⟨rfl, h2⟩
  refine acc_bind _ (fieldType_on hN hτ h2) ?_
  rintro _ s3 ⟨rfl, h3⟩
  refine acc_pure ⟨?_, h3⟩
  have : String.ofList tok.text = c.name := by rw [htx]; simp
  rw [this, ← hm]

theorem addField_on {cs : List Comp} {c : Comp} (h : ∀ d ∈ cs, ¬ SameName d.name c.name) :
    P.addField cs c s = .ok (cs ++ [c]) s := by
  have hr : registerName (compNames cs) c.name.toList = .ok () := by
    rw [registerName_ok]
    intro m hm
    obtain ⟨d, hd, rfl⟩ := List.mem_map.1 hm
    exact h d hd
  unfold P.addField
  rw [hr]
  rfl

/-- `PlainFieldsText`, from the front -/
inductive PlainTail (E : FileEnv) (N : Names) (t : Nat) : Nat → List Comp → List Token → Nat → Prop
  | nil {i : Nat} : PlainTail E N t i [] [] i
  | cons {i m j : Nat} {c cs a} {r : List Token} : FieldText E N t i c a m → PlainTail E N t m cs r j →
      PlainTail E N t i (c :: cs) (a ++ r) j

theorem plainTail_snoc {N : Names} {t m : Nat} {c : Comp} {cs : List Comp} {a : List Token}
    (h : PlainTail E N t n cs ts m) (hf : FieldText E N t m c a n') :
    PlainTail E N t n (cs ++ [c]) (ts ++ a) n' := by
  induction h with
  | nil => simpa using PlainTail.cons hf .nil
  | cons h1 _ ih => simpa using PlainTail.cons h1 (ih hf)

theorem plain_tail {N : Names} {t : Nat} {cs : List Comp} (h : PlainFieldsText E N t n cs ts n') :
    ∃ c cs' a ts' m, cs = c :: cs' ∧ ts = a ++ ts' ∧ FieldText E N t n c a m ∧ PlainTail E N t m cs' ts' n' := by
  induction h with
  | one h => exact ⟨_, [], _, [], _, rfl, by simp, h, .nil⟩
  | more _ hf ih =>
    obtain ⟨c, cs', a, ts', m, rfl, rfl, h1, h2⟩ := ih
    exact ⟨c, _, a, _, m, rfl, by simp, h1, plainTail_snoc h2 hf⟩

/-- `SepFieldsText`, from the front -/
inductive SepTail (E : FileEnv) (N : Names) (t : Nat) : Nat → List Comp → List Sep → List Token → Nat → Prop
  | nil {i : Nat} : SepTail E N t i [] [] [] i
  | cons {i m j : Nat} {c cs sp seps k x a} {r : List Token} : IsKw "separator" k → SeparatorTok sp x →
      FieldText E N t i c a m → SepTail E N t m cs seps r j →
      SepTail E N t i (c :: cs) (sp :: seps) (k :: x :: a ++ r) j

theorem sepTail_snoc {N : Names} {t m : Nat} {c : Comp} {cs : List Comp} {sp : Sep} {seps : List Sep}
    {k x : Token} {a : List Token} (h : SepTail E N t n cs seps ts m) (hk : IsKw "separator" k)
    (hx : SeparatorTok sp x) (hf : FieldText E N t m c a n') :
    SepTail E N t n (cs ++ [c]) (seps ++ [sp]) (ts ++ k :: x :: a) n' := by
  induction h with
  | nil => simpa using SepTail.cons hk hx hf .nil
  | cons h1 h2 h3 _ ih => simpa using SepTail.cons h1 h2 h3 (ih hf)

theorem sep_tail {N : Names} {t : Nat} {cs : List Comp} {seps : List Sep}
    (h : SepFieldsText E N t n cs seps ts n') :
    ∃ c cs' a ts' m, cs = c :: cs' ∧ ts = a ++ ts' ∧ FieldText E N t n c a m ∧
      SepTail E N t m cs' seps ts' n' := by
  induction h with
  | one h => exact ⟨_, [], _, [], _, rfl, by simp, h, .nil⟩
  | more _ hk hx hf ih =>
    obtain ⟨c, cs', a, ts', m, rfl, rfl, h1, h2⟩ := ih
    exact ⟨c, _, a, _, m, rfl, by simp, h1, sepTail_snoc h2 hk hx hf⟩

theorem pairwise_mid {cs cs' : List Comp} {c : Comp}
    (h : (cs ++ c :: cs').Pairwise fun c c' => ¬ SameName c.name c'.name) :
    ∀ d ∈ cs, ¬ SameName d.name c.name :=
  fun d hd => (List.pairwise_append.1 h).2.2 d hd c (by simp)

theorem tupleLoop_plain {N : Names} {t : Nat} {c : Token} (hN : N.tabs = W.tabs) (hc : c.kind = .C_KET)
    {cs : List Comp} (ht : PlainTail E N t n cs ts n') : ∀ (k : Nat) (alw : Bool) (done : List Comp) (s : PS),
    On K W n (ts ++ c :: w) s → cs.length < k →
    ((done ++ cs).Pairwise fun c c' => ¬ SameName c.name c'.name) → (∀ d ∈ cs, d.optional = false) →
    Acc (tupleLoop E t k false false alw done []) s (fun r s' => r = (false, done ++ cs, []) ∧
      On K W n' (c :: w) s') := by
  induction ht with
  | nil =>
    intro k alw done s h hk hp ho
    obtain ⟨k, rfl⟩ : ∃ j, k = j + 1 := ⟨k - 1, by omega⟩
    unfold tupleLoop
    refine acc_get_bind (acc_neg ?_ (acc_pure ⟨by simp, h⟩))
    rw [h.peekKw_false (kind_notKw hc (by decide)), h.peek_false (notAhead_cons hc (by decide))]
    simp
  | @cons n m n' c' cs a ts hf _ ih =>
    intro k alw done s h hk hp ho
    obtain ⟨k, rfl⟩ : ∃ j, k = j + 1 := ⟨k - 1, by omega⟩
    unfold tupleLoop
    rw [List.append_assoc] at h
    obtain ⟨x, r, e0, hx⟩ := field_first hf
    have hi : s.peek .IDENTIFIER = true := peek_of (t := x) (by rw [h.nt, e0]; rfl) hx
    have hs : s.peekKw "separator" = false :=
      peekKw_head_ne (t := x) (by rw [h.nt, e0]; rfl) (kind_notKw hx (by decide))
    refine acc_get_bind (acc_pos (by simp [hi]) (acc_neg (by simp [hs]) ?_))
    have hco : c'.optional = false := ho c' (by simp)
    refine acc_bind _ (tupleField_on hN hf (by simp) (by simp [hco]) h) ?_
    rintro _ s1 ⟨rfl, h1⟩
    refine acc_bind (fun cs' s' => cs' = done ++ [_] ∧ s' = s1) ⟨_, _, addField_on (pairwise_mid hp), rfl, rfl⟩ ?_
    rintro _ _ ⟨rfl, rfl⟩
    rw [hco]
    refine (ih k false (done ++ [_]) _ h1 (by simp only [List.length_cons] at hk; omega) (by simpa using hp)
      (fun d hd => ho d (by simp [hd]))).mono ?_
    rintro _ s2 ⟨rfl, h2⟩
    exact ⟨by simp, h2⟩

theorem separator_on {sp : Sep} {x : Token} {cs : List Comp} {seps : List Sep} (hx : SeparatorTok sp x)
    (hl : seps.length + 1 = cs.length) (h : On K W n (x :: w) s) :
    Acc (parseSeparator cs seps) s (fun ss s' => ss = seps ++ [sp] ∧ On K W n w s') := by
  refine acc_steps (ts := [x]) h fun s' hst _ => ?_
  unfold parseSeparator
  rw [get_bind_apply]
  have hn := hst.head
  cases hst with
  | cons hn' ha hst =>
    cases hst with
    | nil =>
      simp only [hn]
      rw [if_pos (by rcases hx with ⟨hx, -⟩ | ⟨hx, -⟩ <;> simp [hx])]
      rw [bind_ok ha, if_neg (by simp [hl])]
      rcases hx with ⟨hx, rfl⟩ | ⟨hx, rfl⟩
      · rw [if_pos hx]; rfl
      · rw [if_neg (by rcases hx with hx | hx | hx <;> simp [hx])]; rfl

theorem optionalTail_mid : ∀ {cs cs' : List Comp} {c : Comp}, OptionalTail (cs ++ c :: cs') →
    (∃ d ∈ cs, d.optional = true) → c.optional = true
  | [], _, _, _, ⟨_, hd, _⟩ => by cases hd
  | d :: cs, cs', c, h, ⟨e, he, ho⟩ => by
    rcases List.mem_cons.1 he with rfl | he
    · exact h.1 ho c (by simp)
    · exact optionalTail_mid h.2 ⟨e, he, ho⟩

theorem tupleLoop_sep {N : Names} {t : Nat} {c : Token} (hN : N.tabs = W.tabs) (hc : c.kind = .C_KET)
    {cs : List Comp} {ss : List Sep} (ht : SepTail E N t n cs ss ts n') :
    ∀ (k : Nat) (has req : Bool) (done : List Comp) (seps : List Sep) (s : PS),
    On K W n (ts ++ c :: w) s → cs.length < k → seps.length + 1 = done.length →
    ((done ++ cs).Pairwise fun c c' => ¬ SameName c.name c'.name) → OptionalTail (done ++ cs) →
    (req = true → ∃ d ∈ done, d.optional = true) →
    Acc (tupleLoop E t k has req true done seps) s (fun r s' => r = (has || !ss.isEmpty, done ++ cs, seps ++ ss) ∧
      On K W n' (c :: w) s') := by
  induction ht with
  | nil =>
    intro k has req done seps s h hk hl hp ho hr
    obtain ⟨k, rfl⟩ : ∃ j, k = j + 1 := ⟨k - 1, by omega⟩
    unfold tupleLoop
    refine acc_get_bind (acc_neg ?_ (acc_pure ⟨by simp, h⟩))
    rw [h.peekKw_false (kind_notKw hc (by decide)), h.peek_false (notAhead_cons hc (by decide))]
    simp
  | @cons n m n' c' cs sp ss' q x a ts hq hx hf _ ih =>
    intro k has req done seps s h hk hl hp ho hr
    obtain ⟨k, rfl⟩ : ∃ j, k = j + 1 := ⟨k - 1, by omega⟩
    unfold tupleLoop
    have h : On K W n (q :: x :: (a ++ (ts ++ c :: w))) s := by simpa using h
    have hs : s.peekKw "separator" = true := h.peekKw_true hq
    refine acc_get_bind (acc_pos (by simp [hs]) (acc_pos (by simp [hs]) ?_))
    refine acc_bind _ (matchKw_on h hq) ?_
    rintro _ s1 ⟨rfl, h1⟩
    refine acc_neg (by simp) ?_
    refine acc_bind _ (separator_on hx hl h1) ?_
    rintro _ s2 ⟨rfl, h2⟩
    refine acc_bind _ (tupleField_on hN hf (fun hreq => optionalTail_mid ho (hr hreq)) (by simp) h2) ?_
    rintro _ s3 ⟨rfl, h3⟩
    refine acc_bind (fun cs' s' => cs' = done ++ [_] ∧ s' = s3) ⟨_, _, addField_on (pairwise_mid hp), rfl, rfl⟩ ?_
    rintro _ _ ⟨rfl, rfl⟩
    refine (ih k true _ (done ++ [_]) (seps ++ [sp]) _ h3 (by simp only [List.length_cons] at hk; omega)
      (by simp only [List.length_append, List.length_singleton]; omega) (by simpa using hp) (by simpa using ho) ?_).mono ?_
    · intro hq'
      rcases (by simpa using hq' : req = true ∨ _) with h' | h'
      · obtain ⟨d, hd, hdo⟩ := hr h'
        exact ⟨d, by simp [hd], hdo⟩
      · exact ⟨_, by simp, h'⟩
    rintro _ s4 ⟨rfl, h4⟩
    exact ⟨by simp, h4⟩

theorem plainTail_len {N : Names} {t : Nat} {cs : List Comp} (h : PlainTail E N t n cs ts n') :
    cs.length ≤ ts.length := by
  induction h with
  | nil => simp
  | cons h1 _ ih =>
    obtain ⟨x, r, rfl, -⟩ := field_first h1
    simp only [List.length_append, List.length_cons]; omega

theorem sepTail_len {N : Names} {t : Nat} {cs : List Comp} {ss : List Sep} (h : SepTail E N t n cs ss ts n') :
    cs.length ≤ ts.length := by
  induction h with
  | nil => simp
  | cons _ _ h1 _ ih => simp only [List.length_append, List.length_cons]; omega

theorem tuple_on {k b c : Token} {name : List Char} {a ts : List Token} {cs : List Comp} {seps : List Sep}
    {tabs : List STab} (hk : IsKw "tuple" k) (hd : Described name a) (hb : b.kind = .C_BRA)
    (hf : FieldsText E W W.decls.tups.length cs seps ts n') (hc : c.kind = .C_KET)
    (hT : Enters W.tabs E.pkg name W.decls.tups.length clsTuple tabs)
    (h : On K W W.nid (k :: a ++ b :: ts ++ [c] ++ w) s) :
    Acc (parseTupleDecl E) s (fun _ s' => On K (tupIn W tabs cs seps n') n' w s') := by
  unfold parseTupleDecl
  refine acc_bind _ (matchKw_on (w := a ++ b :: ts ++ [c] ++ w) (by simpa using h) hk) ?_
  rintro _ s1 ⟨rfl, h1⟩
  refine acc_bind _ (describedName_on (w := b :: (ts ++ c :: w)) (by simpa using h1) hd
    (notAhead_cons hb (by decide))) ?_
  rintro tok s2 ⟨rfl, h2⟩
  refine acc_bind _ (matchK_on h2 hb) ?_
  rintro _ s3 ⟨rfl, h3⟩
  refine acc_get_bind ?_
  rw [h3.decls]
  have fin : ∀ (has : Bool) (s6 : PS), On K W n' (c :: w) s6 → (has = true → ∀ c ∈ cs, ¬ SepTuple W c.ty) →
      Acc (do
        let _ ← P.matchK .C_KET
        let s'' ← P.get
        P.cond (has && cs.any fun c => s''.isSepTuple c.ty) (P.fail (.other 5)) (pure ())
        P.registerType E tok.text W.decls.tups.length clsTuple fun s =>
          { s with
            decls := { s.decls with tups := s.decls.tups ++ [cs] }
            seps := s.seps ++ [seps]
            checks := { s.checks with tups := s.checks.tups ++ [[]] } }) s6
        (fun _ s' => On K (tupIn W tabs cs seps n') n' w s') := by
    intro has s6 h6 hns
    refine acc_bind _ (matchK_on h6 hc) ?_
    rintro _ s7 ⟨rfl, h7⟩
    refine acc_get_bind ?_
    refine acc_bind (fun _ s' => s' = s7) (acc_else ?_ (acc_pure rfl)) ?_
    · cases has with
      | false => rfl
      | true =>
        rw [Bool.true_and, List.any_eq_false]
        intro d hd hs
        refine hns rfl d hd ?_
        unfold PS.isSepTuple at hs
        split at hs
        · next u hu =>
          rw [h7.seps] at hs
          cases hss : W.seps[u]? with
          | none => simp [hss] at hs
          | some ss => exact ⟨u, ss, hu, hss, by simpa [hss] using hs⟩
        · cases hs
    rintro _ s8 rfl
    rw [← h7.tabs] at hT
    refine ⟨_, _, registerType_on hT, h7.clean, h7.words, ?_, h7.errs, h7.objs, h7.sects⟩
    have e : ∀ tabs, worldOf { s8 with
        tabs
        decls := { s8.decls with tups := s8.decls.tups ++ [cs] }
        seps := s8.seps ++ [seps]
        checks := { s8.checks with tups := s8.checks.tups ++ [[]] } } = tupIn (worldOf s8) tabs cs seps s8.nid := fun _ => rfl
    refine (e tabs).trans ?_
    rw [h7.world, h7.nid]
    rfl
  obtain ⟨hp, ⟨rfl, hpf, ho⟩ | ⟨hne, hsf, hot, ⟨c0, cs0, e0, hc0⟩, hns⟩⟩ := hf
  · obtain ⟨c1, cs', a1, ts', m, rfl, rfl, hf1, htl⟩ := plain_tail hpf
    have hco := ho c1 (by simp)
    refine acc_bind _ (tupleField_on (N := W.names) (w := ts' ++ c :: w) rfl hf1 (by simp) (by simp [hco])
      (by simpa using h3)) ?_
    rintro _ s4 ⟨rfl, h4⟩
    refine acc_bind (fun cs' s' => cs' = [_] ∧ s' = s4) ⟨_, _, addField_on (by simp), rfl, rfl⟩ ?_
    rintro _ _ ⟨rfl, rfl⟩
    refine acc_get_bind ?_
    have hlen := h4.len
    have := plainTail_len htl
    simp only [List.length_append, List.length_cons] at hlen
    refine acc_bind _ (tupleLoop_plain (N := W.names) rfl hc htl _ true [_] _ h4 (by omega) hp
      (fun d hd => ho d (by simp [hd]))) ?_
    rintro _ s5 ⟨rfl, h5⟩
    exact fin false s5 h5 (by simp)
  · obtain ⟨c1, cs', a1, ts', m, rfl, rfl, hf1, htl⟩ := sep_tail hsf
    cases e0
    refine acc_bind _ (tupleField_on (N := W.names) (w := ts' ++ c :: w) rfl hf1 (by simp) (by simp [hc0])
      (by simpa using h3)) ?_
    rintro _ s4 ⟨rfl, h4⟩
    refine acc_bind (fun cs' s' => cs' = [_] ∧ s' = s4) ⟨_, _, addField_on (by simp), rfl, rfl⟩ ?_
    rintro _ _ ⟨rfl, rfl⟩
    refine acc_get_bind ?_
    have hlen := h4.len
    have := sepTail_len htl
    simp only [List.length_append, List.length_cons] at hlen
    refine acc_bind _ (tupleLoop_sep (N := W.names) rfl hc htl _ false false [_] [] _ h4 (by omega) rfl hp hot (by simp)) ?_
    rintro _ s5 ⟨rfl, h5⟩
    have : (false || !seps.isEmpty) = true := by
      cases seps with
      | nil => exact absurd rfl hne
      | cons _ _ => rfl
    rw [this]
    exact fin true s5 h5 (fun _ => hns)

end Verif.Lemmas
