import Verif.Lemmas.ExprComplete
/-! Every well typed primary and name of the grammar is accepted. -/
namespace Verif.Lemmas
open Verif.Model Verif.Spec

variable {F : Fix} {vars : List (String × Ty)} {m : Nat}

theorem kind_noCont {t : Token} {lvl : Nat} {k : Kind} (h : t.kind = k)
    (hk : k ∉ [Kind.OPERATOR, .KEYWORD, .DOT, .S_BRA, .BRA, .RANGE]) : ¬ Cont lvl t := by
  subst h
  simp only [List.mem_cons, List.not_mem_nil, or_false, not_or] at hk
  rw [cont_kind hk.1 hk.2.1]
  simp [hk]

theorem kw_noCont {t : Token} {lvl : Nat} {v : String} (h : IsKw v t)
    (hv : v ∉ ["not", "in", "and", "or", "xor", "implies"]) : ¬ Cont lvl t := by
  simp only [List.mem_cons, List.not_mem_nil, or_false, not_or] at hv
  rw [cont_kw h]
  simp [hv]

theorem noCont_of {s : PS} {t : Token} {lvl : Nat} (h : s.nt = some t) (hc : ¬ Cont lvl t) :
    NoCont lvl s := by
  intro t' ht'
  rw [h] at ht'
  cases ht'
  exact hc

/-! ## Parameters -/

theorem commas_length {as : List (List Token)} {a : List Token} (h : Commas as a)
    (hne : ∀ x ∈ as, x ≠ []) : as.length ≤ a.length := by
  induction h with
  | nil => simp
  | @last a =>
    have := List.length_pos_iff.2 (hne a (by simp))
    simp only [List.length_cons, List.length_nil]
    omega
  | more hc _ ih =>
    have := ih (fun x hx => hne x (by simp [hx]))
    simp only [List.length_cons, List.length_append]
    omega

theorem startsWith_ne {p : Token → Prop} {a : List Token} (h : StartsWith p a) : a ≠ [] := by
  obtain ⟨t, r, rfl, -⟩ := h
  simp

theorem argLoop_acc {pe : P Expr} (hp : Accepts F vars m 5 (GExpr F.E F.N (F.V vars)) pe) :
    ∀ (as : List (List Token × Raw)) (k : Nat) (a : List Token) (es : Exprs) (s s' : PS) (kt : Token),
      as.length < k → a.length ≤ m → Commas (as.map Prod.fst) a →
      (∀ x ∈ as, GExpr F.E F.N (F.V vars) x.1 x.2) →
      (rawsOf (as.map Prod.snd)).elab F.X (F.tscope vars) = .ok es → Steps s a s' →
      namesOf s = F.N → s'.nt = some kt → kt.kind = .KET → argLoop pe k s = .ok es s' := by
  intro as
  induction as with
  | nil =>
    intro k a es s s' kt hk _ hc _ he hst hs hn hkt
    obtain ⟨k, rfl⟩ : ∃ j, k = j + 1 := ⟨k - 1, by simp at hk; omega⟩
    cases hc
    cases hst
    have : (Raws.nil).elab F.X (F.tscope vars) = .ok es := he
    simp only [Raws.elab] at this
    cases this
    unfold argLoop
    rw [get_bind_apply, if_pos (peek_of hn hkt)]
    rfl
  | cons x as ih =>
    intro k a es s s' kt hk hm hc hg he hst hs hn hkt
    obtain ⟨k, rfl⟩ : ∃ j, k = j + 1 := ⟨k - 1, by simp at hk; omega⟩
    simp only [List.map_cons, rawsOf, Raws.elab] at he
    obtain ⟨e, he1, he⟩ := El.bind_eq_ok he
    obtain ⟨es', he2, he⟩ := El.bind_eq_ok he
    cases he
    have hgx := hg x (by simp)
    obtain ⟨t0, rest, e0, hf⟩ := expr_first hgx
    rw [List.map_cons] at hc
    generalize hfst : as.map Prod.fst = fs at hc
    unfold argLoop
    cases hc with
    | @last a =>
      have has : as = [] := List.map_eq_nil_iff.1 hfst
      subst has
      have hh : s.nt = some t0 := by rw [e0] at hst; exact hst.head
      simp only [List.map_nil, rawsOf, Raws.elab] at he2
      cases he2
      rw [get_bind_apply, peek_head_ne hh (firstExpr_kind hf (.inl rfl)), if_neg (by simp),
        bind_ok (hp _ _ _ _ _ hm hgx he1 hst hs (noCont_of hn (kind_noCont hkt (by decide)))),
        get_bind_apply, peek_head_ne hn (by rw [hkt]; decide)]
      rfl
    | @more _ _ c r hcm hc =>
      obtain ⟨s1, h1, h2⟩ := hst.split
      obtain ⟨s2, h2, h3⟩ := h2.cons'
      have hh : s.nt = some t0 := by rw [e0] at h1; exact h1.head
      simp only [List.length_append, List.length_cons] at hm hk
      rw [get_bind_apply, peek_head_ne hh (firstExpr_kind hf (.inl rfl)), if_neg (by simp),
        bind_ok (hp _ _ _ _ _ (by omega) hgx he1 h1 hs (h2.noCont (kind_noCont hcm (by decide)))),
        get_bind_apply, if_pos (peek_of h2.head hcm), bind_ok (matchK_ok h2 hcm),
        bind_ok (ih _ _ _ _ _ _ (by omega) (by omega) (hfst ▸ hc) (fun y hy => hg y (by simp [hy])) he2 h3
          (by rw [h2.names, h1.names, hs]) hn hkt)]
      rfl

theorem parseBuiltin_acc {pe : P Expr} (hp : Accepts F vars m 5 (GExpr F.E F.N (F.V vars)) pe)
    {f : String} {b k : Token} {a : List Token} {as : List (List Token × Raw)} {s s' : PS} {e : Expr}
    (hm : a.length ≤ m) (hb : b.kind = .BRA) (hk : k.kind = .KET) (hc : Commas (as.map Prod.fst) a)
    (hg : ∀ x ∈ as, GExpr F.E F.N (F.V vars) x.1 x.2)
    (he : (Raw.call f (rawsOf (as.map Prod.snd))).elab F.X (F.tscope vars) = .ok e)
    (hst : Steps s (b :: (a ++ [k])) s') (hs : namesOf s = F.N) :
    parseBuiltin F.X pe f s = .ok e s' := by
  obtain ⟨s1, h1, h2⟩ := hst.cons'
  obtain ⟨s2, h2, h3⟩ := h2.split
  simp only [Raw.elab] at he
  obtain ⟨es, hes, he⟩ := El.bind_eq_ok he
  have hl : as.length < s1.toks + 1 := by
    have := h2.toks
    have h' := commas_length hc (fun x hx => by
      obtain ⟨y, hy, rfl⟩ := List.mem_map.1 hx
      exact startsWith_ne (expr_first (hg y hy)))
    rw [List.length_map] at h'
    omega
  unfold parseBuiltin
  rw [bind_ok (matchK_ok h1 hb), get_bind_apply,
    bind_ok (argLoop_acc hp as _ _ _ _ _ k hl hm hc hg hes h2 (by rw [h1.names, hs]) h3.head hk),
    bind_ok (matchK_ok h3 hk), liftEl_ok he]

/-! ## Names -/

theorem access_first {X : ElEnv} {sc : TScope} : ∀ (as : List Access) (p : Raw) (e : Expr),
    (as.foldl Access.raw p).elab X sc = .ok e → ∃ e', p.elab X sc = .ok e' := by
  intro as
  induction as with
  | nil => intro p e h; exact ⟨e, h⟩
  | cons a as ih =>
    intro p e h
    obtain ⟨e', h'⟩ := ih _ _ h
    cases a with
    | dot d t =>
      simp only [Access.raw, Raw.elab] at h'
      obtain ⟨x, hx, -⟩ := El.bind_eq_ok h'
      exact ⟨x, hx⟩
    | index b ts k i =>
      simp only [Access.raw, Raw.elab] at h'
      obtain ⟨x, hx, -⟩ := El.bind_eq_ok h'
      exact ⟨x, hx⟩

theorem mkField_composite {D : Decls} {p e : Expr} {f : String} (h : mkField D p f = .ok e) :
    isComposite p.typ = true := by
  unfold mkField at h
  split at h
  · next h' => rw [h']; rfl
  · next h' => rw [h']; rfl
  · next h' => rw [h']; rfl
  · cases h

theorem mkIndex_array {D : Decls} {p i e : Expr} (h : mkIndex D p i = .ok e) :
    isArray p.typ = true := by
  unfold mkIndex at h
  split at h
  · next h' => rw [h']; rfl
  · cases h

theorem access_length (as : List Access) : as.length ≤ (as.flatMap Access.toks).length := by
  induction as with
  | nil => simp
  | cons a as ih =>
    simp only [List.flatMap_cons, List.length_append, List.length_cons]
    cases a <;> simp only [Access.toks, List.length_cons, List.length_append] <;> omega

theorem nameTail_acc {pe : P Expr} (hp : Accepts F vars m 5 (GExpr F.E F.N (F.V vars)) pe) :
    ∀ (as : List Access) (k : Nat) (p : Expr) (pr : Raw) (e : Expr) (s s' : PS),
      as.length < k → (as.flatMap Access.toks).length ≤ m → (∀ a ∈ as, a.Ok) →
      (∀ b ts k i, Access.index b ts k i ∈ as → GExpr F.E F.N (F.V vars) ts i) →
      pr.elab F.X (F.tscope vars) = .ok p →
      (as.foldl Access.raw pr).elab F.X (F.tscope vars) = .ok e →
      Steps s (as.flatMap Access.toks) s' → namesOf s = F.N → NoCont 0 s' →
      nameTail F.X pe k p s = .ok e s' := by
  intro as
  induction as with
  | nil =>
    intro k p pr e s s' hk _ _ _ hl he hst hs hnc
    obtain ⟨k, rfl⟩ : ∃ j, k = j + 1 := ⟨k - 1, by simp at hk; omega⟩
    cases hst
    have : pr.elab F.X (F.tscope vars) = .ok e := he
    rw [hl] at this
    cases this
    unfold nameTail
    rw [get_bind_apply, peek_ne (k := .DOT) (fun t hn hk => hnc t hn (.inl (.inl hk))),
      peek_ne (k := .S_BRA) (fun t hn hk => hnc t hn (.inl (.inr (.inl hk))))]
    rfl
  | cons a as ih =>
    intro k p pr e s s' hk hm hok hg hl he hst hs hnc
    obtain ⟨k, rfl⟩ : ∃ j, k = j + 1 := ⟨k - 1, by simp at hk; omega⟩
    rw [List.flatMap_cons] at hst hm
    rw [List.foldl_cons] at he
    obtain ⟨x, hx⟩ := access_first _ _ _ he
    have hx' := hx
    cases a with
    | dot d t =>
      obtain ⟨hd, ht⟩ := hok _ (by simp : Access.dot d t ∈ Access.dot d t :: as)
      simp only [Access.raw, Raw.elab] at hx'
      obtain ⟨l', hl', hx'⟩ := El.bind_eq_ok hx'
      rw [hl] at hl'; cases hl'
      simp only [Access.toks, List.length_append, List.length_cons] at hm hk
      obtain ⟨s1, h1, hst⟩ := hst.cons'
      obtain ⟨s2, h2, h3⟩ := hst.cons'
      unfold nameTail
      rw [get_bind_apply, if_pos (peek_of h1.head hd), mkField_composite hx']
      show (P.matchK .DOT >>= fun _ => P.matchK .IDENTIFIER >>= fun t =>
        P.liftEl (mkField F.X.decls p (String.ofList t.text)) >>= fun q => nameTail F.X pe k q) s = _
      rw [bind_ok (matchK_ok h1 hd), bind_ok (matchK_ok h2 ht), bind_ok (liftEl_ok hx')]
      exact ih _ _ _ _ _ _ (by omega) (by omega) (fun y hy => hok y (by simp [hy]))
        (fun b ts k i hy => hg b ts k i (by simp [hy])) hx he h3 (by rw [h2.names, h1.names, hs]) hnc
    | index b ts kt i =>
      obtain ⟨hb, hkt⟩ := hok _ (by simp : Access.index b ts kt i ∈ Access.index b ts kt i :: as)
      simp only [Access.raw, Raw.elab] at hx'
      obtain ⟨l', hl', hx'⟩ := El.bind_eq_ok hx'
      rw [hl] at hl'; cases hl'
      obtain ⟨ie, hie, hx'⟩ := El.bind_eq_ok hx'
      simp only [Access.toks, List.length_append, List.length_cons] at hm hk
      simp only [Access.toks, List.cons_append, List.append_assoc, List.nil_append] at hst
      obtain ⟨s1, h1, hst⟩ := hst.cons'
      obtain ⟨s2, h2, hst⟩ := hst.split
      obtain ⟨s3, h3, h4⟩ := hst.cons'
      unfold nameTail
      rw [get_bind_apply, peek_head_ne (k := .DOT) h1.head (by rw [hb]; decide), if_neg (by simp),
        if_pos (peek_of h1.head hb), mkIndex_array hx']
      show (P.matchK .S_BRA >>= fun _ => pe >>= fun i => P.matchK .S_KET >>= fun _ =>
        P.liftEl (mkIndex F.X.decls p i) >>= fun q => nameTail F.X pe k q) s = _
      rw [bind_ok (matchK_ok h1 hb),
        bind_ok (hp _ _ _ _ _ (by omega) (hg b ts kt i (by simp)) hie h2 (by rw [h1.names, hs])
          (h3.noCont (kind_noCont hkt (by decide)))),
        bind_ok (matchK_ok h3 hkt), bind_ok (liftEl_ok hx')]
      exact ih _ _ _ _ _ _ (by omega) (by omega) (fun y hy => hok y (by simp [hy]))
        (fun b ts k i hy => hg b ts k i (by simp [hy])) hx he h4
        (by rw [h3.names, h2.names, h1.names, hs]) hnc

theorem nameLookup_ent {n : List Char} {e : Ent} {s : PS} (hv : ¬ F.V vars (String.ofList n))
    (h : Means F.E F.N n e) : P.nameLookup (F.scope vars) n s = .ok (.ent e) s := by
  unfold P.nameLookup
  have e1 : (F.scope vars).vars = vars := rfl
  have e2 : (F.scope vars).comp = F.comp := rfl
  have e3 : (F.scope vars).base = [F.E.global, F.N.tab F.E.pkg] := rfl
  rw [e1, e2, e3, means_base h]
  cases h1 : vars.lookup (String.ofList n) with
  | some t => exact (hv (.inl ⟨t, lookup_mem' h1⟩)).elim
  | none =>
    cases h2 : F.comp (String.ofList n) with
    | some c => exact (hv (.inr ⟨c, h2⟩)).elim
    | none => rfl

theorem parseLiteral_acc {n : List Token} {e : Ent} {d l : Token} {x : Expr} {s s' : PS}
    (hn : NameOf F.E F.N n e) (hc : e.cls = clsEnum) (hd : d.kind = .DOT) (hl : l.kind = .IDENTIFIER)
    (he : (Raw.enumLit (pathOf n) (String.ofList l.text)).elab F.X (F.tscope vars) = .ok x)
    (hst : Steps s [d, l] s') : parseLiteral F.X e.id s = .ok x s' := by
  obtain ⟨s1, h1, h2⟩ := hst.cons'
  have : (F.tscope vars).enums (pathOf n) = some e.id := nameOf_enums hn hc
  simp only [Raw.elab, this] at he
  split at he
  · next hm =>
    cases he
    unfold parseLiteral
    rw [bind_ok (matchK_ok h1 hd), bind_ok (matchK_ok h2 hl), if_pos hm]
    rfl
  · cases he

theorem parseName_acc {pe : P Expr} (hp : Accepts F vars m 5 (GExpr F.E F.N (F.V vars)) pe) :
    Accepts F vars (m + 1) 0 (GName F.E F.N (F.V vars)) (parseName F.E F.X (F.scope vars) pe) := by
  intro ts r e s s' hm hg he hst hs hnc
  unfold parseName
  cases hg with
  | @value V t as hk hv hok hgi =>
    obtain ⟨s1, h1, h2⟩ := hst.cons'
    simp only [List.length_cons] at hm
    have hbra : s1.peek .BRA = false := by
      cases as with
      | nil =>
        cases h2
        exact peek_ne (fun t hn hk => hnc t hn (.inl (.inr (.inr hk))))
      | cons a as =>
        have := hok a (by simp)
        rw [List.flatMap_cons] at h2
        cases a with
        | dot d t => exact peek_head_ne h2.head (by rw [this.1]; decide)
        | index b ts k i => exact peek_head_ne h2.head (by rw [this.1]; decide)
    obtain ⟨p, hpn⟩ := access_first _ _ _ he
    have hfuel : as.length < s1.toks + 1 := by
      have := h2.toks
      have := access_length as
      omega
    have tail := nameTail_acc hp as (s1.toks + 1) p _ e s1 s' hfuel (by omega) hok hgi hpn he h2
      (by rw [h1.names, hs]) hnc
    rw [bind_ok (matchK_ok h1 hk), get_bind_apply, hbra, if_neg (by simp)]
    simp only [Raw.elab] at hpn
    have e1 : (F.tscope vars).vars = vars := rfl
    have e2 : (F.tscope vars).comp = F.comp := rfl
    rw [e1, e2] at hpn
    have e3 : (F.scope vars).vars = vars := rfl
    have e4 : (F.scope vars).comp = F.comp := rfl
    cases hl : vars.lookup (String.ofList t.text) with
    | some τ =>
      rw [hl] at hpn
      cases hpn
      have : P.nameLookup (F.scope vars) t.text s1 = .ok (.var τ) s1 := by
        unfold P.nameLookup
        rw [e3, hl]; rfl
      rw [bind_ok this]
      exact tail
    | none =>
      rw [hl] at hpn
      simp only at hpn
      cases hc : F.comp (String.ofList t.text) with
      | none => rw [hc] at hpn; cases hpn
      | some c =>
        rw [hc] at hpn
        cases hpn
        have : P.nameLookup (F.scope vars) t.text s1 = .ok (.comp c) s1 := by
          unfold P.nameLookup
          rw [e3, hl, e4, hc]; rfl
        rw [bind_ok this]
        exact tail
  | @literal V n e0 d l hn hh hc hd hl =>
    have hn' := hn
    rcases hn with ⟨t, rfl, hk, hmn, hnp⟩ | ⟨t, d0, t', p, rfl, hk, hd0, hk', hmn, hpk, hvis, hlk⟩
    · obtain ⟨s1, h1, h2⟩ := hst.cons'
      rw [bind_ok (matchK_ok h1 hk), get_bind_apply,
        peek_head_ne (k := .BRA) h2.head (by rw [hd]; decide), if_neg (by simp),
        bind_ok (nameLookup_ent (fun hv => hh ⟨t, [], rfl, hv⟩) hmn)]
      simp only
      rw [if_neg hnp]
      unfold parseEntity
      rw [if_pos hc]
      exact parseLiteral_acc hn' hc hd hl he h2
    · obtain ⟨s1, h1, h2⟩ := hst.cons'
      obtain ⟨s2, h2, h3⟩ := h2.cons'
      obtain ⟨s3, h3, h4⟩ := h3.cons'
      have htab : s3.tab p.id = F.N.tab p.id := by
        have := h3.names.trans (h2.names.trans (h1.names.trans hs))
        rw [← this]; rfl
      rw [bind_ok (matchK_ok h1 hk), get_bind_apply,
        peek_head_ne (k := .BRA) h2.head (by rw [hd0]; decide), if_neg (by simp),
        bind_ok (nameLookup_ent (fun hv => hh ⟨t, _, rfl, hv⟩) hmn)]
      simp only
      rw [if_pos hpk, isVisible_iff.2 hvis, if_neg (by simp), bind_ok (matchK_ok h2 hd0),
        bind_ok (matchK_ok h3 hk'), get_bind_apply, htab, bind_ok (liftSym_ok hlk)]
      unfold parseEntity
      rw [if_pos hc]
      exact parseLiteral_acc hn' hc hd hl he h4
  | @call V f e0 b a k as hk hl hc hb hkk hcm hgs =>
    obtain ⟨s1, h1, h2⟩ := hst.cons'
    simp only [List.length_cons, List.length_append] at hm
    rw [bind_ok (matchK_ok h1 hk), get_bind_apply, if_pos (peek_of h2.head hb),
      bind_ok (liftSym_ok hl), if_pos (callable_iff.2 hc), lookup_spelled hl]
    exact parseBuiltin_acc hp (by omega) hb hkk hcm hgs he h2 (by rw [h1.names, hs])
  | @qualifiedCall V p d f e0 b a k as hn hh hc hne hb hkk hcm hgs =>
    rcases hn with ⟨t, e1, -⟩ | ⟨t, d0, t', q, e1, hk, hd0, hk', hmn, hpk, hvis, hlk⟩
    · cases e1
    · cases e1
      obtain ⟨s1, h1, h2⟩ := hst.cons'
      obtain ⟨s2, h2, h3⟩ := h2.cons'
      obtain ⟨s3, h3, h4⟩ := h3.cons'
      simp only [List.length_cons, List.length_append] at hm
      have htab : s3.tab q.id = F.N.tab q.id := by
        have := h3.names.trans (h2.names.trans (h1.names.trans hs))
        rw [← this]; rfl
      rw [bind_ok (matchK_ok h1 hk), get_bind_apply,
        peek_head_ne (k := .BRA) h2.head (by rw [hd0]; decide), if_neg (by simp),
        bind_ok (nameLookup_ent (fun hv => hh ⟨p, _, rfl, hv⟩) hmn)]
      simp only
      rw [if_pos hpk, isVisible_iff.2 hvis, if_neg (by simp), bind_ok (matchK_ok h2 hd0),
        bind_ok (matchK_ok h3 hk'), get_bind_apply, htab, bind_ok (liftSym_ok hlk)]
      unfold parseEntity
      rw [if_neg hne, if_pos (callable_iff.2 hc), lookup_spelled hlk]
      exact parseBuiltin_acc hp (by omega) hb hkk hcm hgs he h4 (by rw [h3.names, h2.names, h1.names, hs])

/-! ## Brackets -/

/-- What is assumed about the expressions inside brackets. -/
def AcceptsNested (F : Fix) (m : Nat) (pe : LScope → P Expr) : Prop :=
  ∀ vars, Accepts F vars m 5 (GExpr F.E F.N (F.V vars)) (pe (F.scope vars))

theorem quantified_acc {pe : LScope → P Expr} (hp : AcceptsNested F m pe) {q x i src w : Token}
    {u : Bool} {a : List Token} {r : Raw} {s s' : PS} {e : Expr} (hm : a.length ≤ m)
    (hq : IsKw (if u then "forall" else "exists") q) (hx : x.kind = .IDENTIFIER) (hi : IsKw "in" i)
    (hsrc : src.kind = .IDENTIFIER) (hw : w.kind = .ARROW)
    (hg : GExpr F.E F.N (fun n => n = String.ofList x.text ∨ F.V vars n) a r)
    (he : (Raw.quant u (String.ofList x.text) (String.ofList src.text) r).elab F.X (F.tscope vars) = .ok e)
    (hst : Steps s (q :: x :: i :: src :: w :: a) s') (hs : namesOf s = F.N) (hnc : NoCont 5 s') :
    parseQuantified (F.scope vars) pe s = .ok e s' := by
  obtain ⟨s1, h1, hst⟩ := hst.cons'
  obtain ⟨s2, h2, hst⟩ := hst.cons'
  obtain ⟨s3, h3, hst⟩ := hst.cons'
  obtain ⟨s4, h4, hst⟩ := hst.cons'
  obtain ⟨s5, h5, h6⟩ := hst.cons'
  have hu : P.cond (s.peekKw "forall")
      (do let _ ← P.matchKw "forall"; pure true)
      (do let _ ← P.matchKw "exists"; pure false) s = .ok u s1 := by
    cases u
    · have hq : IsKw "exists" q := hq
      rw [peekKw_head_ne h1.head (by rw [isKw_of hq]; decide)]
      show (P.matchKw "exists" >>= fun _ => pure false) s = _
      rw [bind_ok (matchKw_ok h1 hq)]
      rfl
    · have hq : IsKw "forall" q := hq
      rw [peekKw_of h1.head hq]
      show (P.matchKw "forall" >>= fun _ => pure true) s = _
      rw [bind_ok (matchKw_ok h1 hq)]
      rfl
  have e1 : (F.tscope vars).vars = vars := rfl
  have e2 : (F.tscope vars).comp = F.comp := rfl
  have e3 : (F.scope vars).vars = vars := rfl
  have e4 : (F.scope vars).comp = F.comp := rfl
  simp only [Raw.elab, e1, e2] at he
  split at he
  · cases he
  · next hsh =>
    split at he
    · cases he
    · next hv =>
      split at he
      · cases he
      · next c hcmp =>
        split at he
        · next elem lo up hty =>
          have hname : P.nameLookup (F.scope vars) src.text s4 = .ok (.comp c) s4 := by
            unfold P.nameLookup
            rw [e3, hv, e4, hcmp]; rfl
          obtain ⟨b, hb, he⟩ := El.bind_eq_ok he
          obtain ⟨_, hcl, he⟩ := El.bind_eq_ok he
          cases he
          have hb' : r.elab F.X (F.tscope ((String.ofList x.text, elem) :: vars)) = .ok b := hb
          unfold parseQuantified
          rw [get_bind_apply, bind_ok hu, bind_ok (matchK_ok h2 hx), scope_contains, if_neg hsh,
            bind_ok (matchKw_ok h3 hi), bind_ok (matchK_ok h4 hsrc), bind_ok hname]
          simp only [hty]
          rw [bind_ok (matchK_ok h5 hw)]
          have hpe := hp ((String.ofList x.text, elem) :: vars) a r b s5 s' hm (by rw [V_cons]; exact hg)
            hb' h6 (by rw [h5.names, h4.names, h3.names, h2.names, h1.names, hs]) hnc
          have hpe' : pe { F.scope vars with
              vars := (String.ofList x.text, elem) :: (F.scope vars).vars } s5 = .ok b s' := hpe
          rw [bind_ok hpe', bind_ok (liftEl_ok hcl)]
          rfl
        · cases he

theorem condTail_acc {pe : P Expr} (hp : Accepts F vars m 5 (GExpr F.E F.N (F.V vars)) pe) (t : Ty) :
    ∀ (bs : List Branch) (k : Nat) (el : Token) (xt : List Token) (x : Raw) (acts : Acts) (s s' : PS),
      bs.length < k → (bs.flatMap Branch.toks).length + xt.length ≤ m → IsKw "else" el →
      (∀ d ∈ bs, IsKw "elsif" d.els ∧ IsKw "then" d.thn) →
      (∀ d ∈ bs, GExpr F.E F.N (F.V vars) d.cts d.c) →
      (∀ d ∈ bs, GExpr F.E F.N (F.V vars) d.ets d.e) → GExpr F.E F.N (F.V vars) xt x →
      (actsOf x bs).elab F.X (F.tscope vars) t = .ok acts →
      Steps s (bs.flatMap Branch.toks ++ el :: xt) s' → namesOf s = F.N → NoCont 5 s' →
      condTail pe t k s = .ok acts s' := by
  intro bs
  induction bs with
  | nil =>
    intro k el xt x acts s s' hk hm hel _ _ _ hgx he hst hs hnc
    obtain ⟨k, rfl⟩ : ∃ j, k = j + 1 := ⟨k - 1, by simp at hk; omega⟩
    simp only [List.flatMap_nil, List.nil_append] at hst
    obtain ⟨s1, h1, h2⟩ := hst.cons'
    simp only [actsOf, RActs.elab] at he
    obtain ⟨e, he1, he⟩ := El.bind_eq_ok he
    obtain ⟨_, hty, he⟩ := El.bind_eq_ok he
    cases he
    unfold condTail
    rw [get_bind_apply, peekKw_head_ne h1.head (by rw [isKw_of hel]; decide), if_neg (by simp),
      bind_ok (matchKw_ok h1 hel), bind_ok (hp _ _ _ _ _ (by simp at hm; omega) hgx he1 h2
        (by rw [h1.names, hs]) hnc), bind_ok (liftEl_ok hty)]
    rfl
  | cons d bs ih =>
    intro k el xt x acts s s' hk hm hel hkw hgc hge hgx he hst hs hnc
    obtain ⟨k, rfl⟩ : ∃ j, k = j + 1 := ⟨k - 1, by simp at hk; omega⟩
    simp only [List.flatMap_cons, Branch.toks, List.cons_append, List.append_assoc] at hst
    simp only [List.flatMap_cons, Branch.toks, List.length_cons, List.length_append] at hm hk
    obtain ⟨s1, h1, hst⟩ := hst.cons'
    obtain ⟨s2, h2, hst⟩ := hst.split
    obtain ⟨s3, h3, hst⟩ := hst.cons'
    obtain ⟨s4, h4, h5⟩ := hst.split
    simp only [actsOf, RActs.elab] at he
    obtain ⟨c, hc, he⟩ := El.bind_eq_ok he
    obtain ⟨e, he1, he⟩ := El.bind_eq_ok he
    obtain ⟨_, hac, he⟩ := El.bind_eq_ok he
    obtain ⟨_, hty, he⟩ := El.bind_eq_ok he
    obtain ⟨rest, hrest, he⟩ := El.bind_eq_ok he
    cases he
    obtain ⟨hels, hthn⟩ := hkw d (by simp)
    have hn4 : NoCont 5 s4 := by
      cases bs with
      | nil => exact (by simpa using h5 : Steps s4 (el :: xt) s').noCont (kw_noCont hel (by decide))
      | cons d' bs =>
        simp only [List.flatMap_cons, Branch.toks, List.cons_append] at h5
        exact h5.noCont (kw_noCont (hkw d' (by simp)).1 (by decide))
    unfold condTail
    rw [get_bind_apply, if_pos (peekKw_of h1.head hels), bind_ok (matchKw_ok h1 hels),
      bind_ok (hp _ _ _ _ _ (by omega) (hgc d (by simp)) hc h2 (by rw [h1.names, hs])
        (h3.noCont (kw_noCont hthn (by decide)))),
      bind_ok (matchKw_ok h3 hthn),
      bind_ok (hp _ _ _ _ _ (by omega) (hge d (by simp)) he1 h4
        (by rw [h3.names, h2.names, h1.names, hs]) hn4),
      bind_ok (liftEl_ok hac), bind_ok (liftEl_ok hty),
      bind_ok (ih _ _ _ _ _ _ _ (by omega) (by omega) hel (fun y hy => hkw y (by simp [hy]))
        (fun y hy => hgc y (by simp [hy])) (fun y hy => hge y (by simp [hy])) hgx hrest h5
        (by rw [h4.names, h3.names, h2.names, h1.names, hs]) hnc)]
    rfl

theorem branch_length (bs : List Branch) : bs.length ≤ (bs.flatMap Branch.toks).length := by
  induction bs with
  | nil => simp
  | cons b bs ih =>
    simp only [List.flatMap_cons, List.length_append, List.length_cons, Branch.toks]
    omega

theorem conditional_acc {pe : P Expr} (hp : Accepts F vars m 5 (GExpr F.E F.N (F.V vars)) pe)
    {f th el : Token} {ct et xt : List Token} {c er x : Raw} {bs : List Branch} {s s' : PS} {e : Expr}
    (hm : ct.length + et.length + (bs.flatMap Branch.toks).length + xt.length ≤ m)
    (hf : IsKw "if" f) (hth : IsKw "then" th) (hel : IsKw "else" el)
    (hgc : GExpr F.E F.N (F.V vars) ct c) (hge : GExpr F.E F.N (F.V vars) et er)
    (hkw : ∀ d ∈ bs, IsKw "elsif" d.els ∧ IsKw "then" d.thn)
    (hgc' : ∀ d ∈ bs, GExpr F.E F.N (F.V vars) d.cts d.c)
    (hge' : ∀ d ∈ bs, GExpr F.E F.N (F.V vars) d.ets d.e) (hgx : GExpr F.E F.N (F.V vars) xt x)
    (he : (Raw.cond c er (actsOf x bs)).elab F.X (F.tscope vars) = .ok e)
    (hst : Steps s (f :: (ct ++ th :: (et ++ (bs.flatMap Branch.toks ++ el :: xt)))) s')
    (hs : namesOf s = F.N) (hnc : NoCont 5 s') : parseConditional pe s = .ok e s' := by
  obtain ⟨s1, h1, hst⟩ := hst.cons'
  obtain ⟨s2, h2, hst⟩ := hst.split
  obtain ⟨s3, h3, hst⟩ := hst.cons'
  obtain ⟨s4, h4, h5⟩ := hst.split
  simp only [Raw.elab] at he
  obtain ⟨ce, hce, he⟩ := El.bind_eq_ok he
  obtain ⟨ee, hee, he⟩ := El.bind_eq_ok he
  split at he
  · cases he
  · next t hty =>
    obtain ⟨_, hac, he⟩ := El.bind_eq_ok he
    obtain ⟨rest, hrest, he⟩ := El.bind_eq_ok he
    cases he
    have hn4 : NoCont 5 s4 := by
      cases bs with
      | nil => exact (by simpa using h5 : Steps s4 (el :: xt) s').noCont (kw_noCont hel (by decide))
      | cons d' bs =>
        simp only [List.flatMap_cons, Branch.toks, List.cons_append] at h5
        exact h5.noCont (kw_noCont (hkw d' (by simp)).1 (by decide))
    have hfuel : bs.length < s4.toks + 1 := by
      have := h5.toks
      have := branch_length bs
      simp only [List.length_append] at *
      omega
    unfold parseConditional
    rw [bind_ok (matchKw_ok h1 hf),
      bind_ok (hp _ _ _ _ _ (by omega) hgc hce h2 (by rw [h1.names, hs])
        (h3.noCont (kw_noCont hth (by decide)))),
      bind_ok (matchKw_ok h3 hth),
      bind_ok (hp _ _ _ _ _ (by omega) hge hee h4 (by rw [h3.names, h2.names, h1.names, hs]) hn4), hty]
    simp only
    rw [bind_ok (liftEl_ok hac), get_bind_apply,
      bind_ok (condTail_acc hp t bs _ el xt x rest _ _ hfuel (by omega) hel hkw hgc' hge' hgx hrest h5
        (by rw [h4.names, h3.names, h2.names, h1.names, hs]) hnc)]
    rfl

theorem primary_acc {pe : LScope → P Expr} (hp : AcceptsNested F m pe) :
    Accepts F vars (m + 1) 0 (GPrimary F.E F.N (F.V vars))
      (parsePrimary F.E F.X (F.scope vars) pe) := by
  intro ts r e s s' hm hg he hst hs hnc
  unfold parsePrimary
  rw [get_bind_apply]
  have kwsel : ∀ {t : Token} {v : String} {k : Kind}, s.nt = some t → IsKw v t → k ≠ .KEYWORD →
      s.peek k = false := fun hn hk hne => peek_head_ne hn (by rw [hk.1]; exact fun h => hne h.symm)
  have ksel : ∀ {t : Token} {k k' : Kind}, s.nt = some t → t.kind = k → k ≠ k' →
      s.peek k' = false := fun hn hk hne => peek_head_ne hn (by rw [hk]; exact hne)
  have nokw : ∀ {t : Token} {k : Kind} (v : String), s.nt = some t → t.kind = k → k ≠ .KEYWORD →
      s.peekKw v = false := fun v hn hk hne => peekKw_head_ne hn (fun h => hne (hk.symm.trans h.1))
  have bracket : ∀ {b k : Token} {a : List Token}, b.kind = .BRA → k.kind = .KET →
      Steps s (b :: (a ++ [k])) s' → (∀ s1 s2, Steps s [b] s1 → Steps s1 a s2 → NoCont 5 s2 →
        P.cond (s1.peekKw "forall" || s1.peekKw "exists") (parseQuantified (F.scope vars) pe)
          (P.cond (s1.peekKw "if") (parseConditional (pe (F.scope vars))) (pe (F.scope vars))) s1 = .ok e s2) →
      parsePrimary F.E F.X (F.scope vars) pe s = .ok e s' := by
    intro b k a hb hk hst hin
    obtain ⟨s1, h1, hst⟩ := hst.cons'
    obtain ⟨s2, h2, h3⟩ := hst.split
    have hh := h1.head
    unfold parsePrimary
    rw [get_bind_apply, ksel hh hb (by decide), ksel hh hb (by decide), ksel hh hb (by decide),
      nokw _ hh hb (by decide), nokw _ hh hb (by decide), nokw _ hh hb (by decide),
      if_neg (by simp), if_neg (by simp), if_neg (by simp), if_neg (by simp), if_neg (by simp),
      if_pos (peek_of hh hb), bind_ok (matchK_ok h1 hb), get_bind_apply,
      bind_ok (hin s1 s2 h1 h2 (h3.noCont (kind_noCont hk (by decide)))), bind_ok (matchK_ok h3 hk)]
    rfl
  cases hg with
  | @int V t n hk hv =>
    simp only [Raw.elab] at he
    cases he
    rw [if_pos (peek_of hst.head hk), bind_ok (matchK_ok hst hk), hv]
    rfl
  | @dec V t q hk hv =>
    simp only [Raw.elab] at he
    cases he
    rw [ksel hst.head hk (by decide), if_neg (by simp), if_pos (peek_of hst.head hk),
      bind_ok (matchK_ok hst hk), hv]
    rfl
  | str hk =>
    simp only [Raw.elab] at he
    cases he
    rw [ksel hst.head hk (by decide), ksel hst.head hk (by decide), if_neg (by simp),
      if_neg (by simp), if_pos (peek_of hst.head hk), bind_ok (matchK_ok hst hk)]
    rfl
  | @true V t hk =>
    simp only [Raw.elab] at he
    cases he
    rw [kwsel hst.head hk (by decide), kwsel hst.head hk (by decide), kwsel hst.head hk (by decide),
      peekKw_of hst.head hk, if_neg (by simp), if_neg (by simp), if_neg (by simp), if_pos (by simp),
      bind_ok (matchK_ok hst hk.1), kw_text hk]
    rfl
  | @false V t hk =>
    simp only [Raw.elab] at he
    cases he
    rw [kwsel hst.head hk (by decide), kwsel hst.head hk (by decide), kwsel hst.head hk (by decide),
      peekKw_of (v := "false") hst.head hk, if_neg (by simp), if_neg (by simp), if_neg (by simp),
      if_pos (by simp), bind_ok (matchK_ok hst hk.1), kw_text hk]
    rfl
  | @null V t hk =>
    simp only [Raw.elab] at he
    cases he
    rw [kwsel hst.head hk (by decide), kwsel hst.head hk (by decide), kwsel hst.head hk (by decide),
      peekKw_head_ne (v := "true") hst.head (by rw [isKw_of hk]; decide),
      peekKw_head_ne (v := "false") hst.head (by rw [isKw_of hk]; decide),
      if_neg (by simp), if_neg (by simp), if_neg (by simp),
      if_neg (by simp), if_pos (peekKw_of hst.head hk), bind_ok (matchKw_ok hst hk)]
    rfl
  | @paren V b a r k hb hk hg =>
    refine bracket hb hk hst fun s1 s2 h1 h2 hn2 => ?_
    obtain ⟨t0, rest, e0, hf⟩ := expr_first hg
    have hh : s1.nt = some t0 := by rw [e0] at h2; exact h2.head
    rw [peekKw_head_ne hh (firstExpr_kw hf (by decide) (by decide)),
      peekKw_head_ne hh (firstExpr_kw hf (by decide) (by decide)),
      peekKw_head_ne hh (firstExpr_kw hf (by decide) (by decide))]
    simp only [List.length_cons, List.length_append] at hm
    exact hp vars _ _ _ _ _ (by omega) hg he h2 (by rw [h1.names, hs]) hn2
  | @quant V b q u x i src w a r k hb hq hx hi hsrc hw hk hg =>
    refine bracket (a := q :: x :: i :: src :: w :: a) hb hk (by simpa using hst)
      fun s1 s2 h1 h2 hn2 => ?_
    have hsel : (s1.peekKw "forall" || s1.peekKw "exists") = Bool.true := by
      cases u
      · have hq : IsKw "exists" q := hq
        rw [peekKw_of h2.head hq]; simp
      · have hq : IsKw "forall" q := hq
        rw [peekKw_of h2.head hq]; simp
    rw [hsel]
    simp only [List.length_cons, List.length_append] at hm
    exact quantified_acc hp (by omega) hq hx hi hsrc hw hg he h2 (by rw [h1.names, hs]) hn2
  | @cond V b f ct c th et er bs el xt x k hb hk hf hth hel hgc hge hkw hgc' hge' hgx =>
    refine bracket (a := f :: (ct ++ th :: (et ++ (bs.flatMap Branch.toks ++ el :: xt)))) hb hk
      (by simpa using hst) fun s1 s2 h1 h2 hn2 => ?_
    rw [peekKw_head_ne (v := "forall") h2.head (by rw [isKw_of hf]; decide),
      peekKw_head_ne (v := "exists") h2.head (by rw [isKw_of hf]; decide), peekKw_of h2.head hf]
    simp only [List.length_cons, List.length_append] at hm
    exact conditional_acc (hp vars) (by omega) hf hth hel hgc hge hkw hgc' hge' hgx he h2
      (by rw [h1.names, hs]) hn2
  | name hg =>
    obtain ⟨t0, rest, e0, hf⟩ := name_first hg
    have hh : s.nt = some t0 := by rw [e0] at hst; exact hst.head
    rw [ksel hh hf (by decide), ksel hh hf (by decide), ksel hh hf (by decide),
      nokw _ hh hf (by decide), nokw _ hh hf (by decide), nokw _ hh hf (by decide),
      ksel hh hf (by decide), if_neg (by simp), if_neg (by simp), if_neg (by simp), if_neg (by simp),
      if_neg (by simp), if_neg (by simp)]
    exact parseName_acc (hp vars) _ _ _ _ _ hm hg he hst hs hnc

/-- Every well typed expression of the grammar is accepted, if no token follows that would go on
with it. -/
theorem parseExpr_acc (F : Fix) (n : Nat) : AcceptsNested F n (parseExpr F.E F.X n) := by
  induction n with
  | zero =>
    intro vars ts r e s s' hm hg
    obtain ⟨t, rest, rfl, -⟩ := expr_first hg
    simp at hm
  | succ n ih =>
    intro vars
    exact expression_acc (relation_acc (simple_acc (term_acc (factor_acc (primary_acc ih)))))

/-- What `parse_relation` accepts inside `parseExpr` -/
theorem parseRel_acc (F : Fix) (vars : List (String × Ty)) (n : Nat) :
    Accepts F vars (n + 1) 4 (GRel F.E F.N (F.V vars))
      (parseRelation F.X (parseSimple F.X (parseTerm F.X (parseFactor F.X
        (parsePrimary F.E F.X (F.scope vars) (parseExpr F.E F.X n)))))) :=
  relation_acc (simple_acc (term_acc (factor_acc (primary_acc (parseExpr_acc F n)))))

/-- No lexical error is ahead. -/
theorem clean_steps : ∀ (ts : List Token) (s : PS) (w : List Token),
    (∀ o ∈ s.rest, (∃ t, o = .tok t) ∨ o = .eof) → words s = ts ++ w →
    ∃ s', Steps s ts s' ∧ words s' = w ∧ ∀ o ∈ s'.rest, (∃ t, o = .tok t) ∨ o = .eof := by
  have adv : ∀ (r : List LexOut) (s : PS), (∀ o ∈ r, (∃ t, o = .tok t) ∨ o = .eof) →
      ∃ s', advanceLoop s r = .ok () s' ∧ ∀ o ∈ s'.rest, (∃ t, o = .tok t) ∨ o = .eof := by
    intro r
    induction r with
    | nil => intro s _; exact ⟨_, rfl, by simp⟩
    | cons o r ih =>
      intro s h
      rcases h o (by simp) with ⟨t, rfl⟩ | rfl
      · simp only [advanceLoop]
        split
        · exact ih s (fun o ho => h o (by simp [ho]))
        · exact ⟨_, rfl, fun o ho => h o (by simp [ho])⟩
      · exact ⟨_, rfl, by simp⟩
  intro ts
  induction ts with
  | nil => intro s w h hw; exact ⟨s, .nil, hw, h⟩
  | cons t ts ih =>
    intro s w h hw
    have hn : s.nt = some t ∧ tokensOf s.rest = ts ++ w := by
      unfold Spec.words at hw
      split at hw
      · cases hw
      · next t' ht' =>
        rw [ht']
        simp only [List.cons_append, List.cons.injEq] at hw
        exact ⟨by rw [hw.1], hw.2⟩
    obtain ⟨s1, h1, hc⟩ := adv s.rest { s with ct := s.nt } h
    obtain ⟨s', h2, h3, h4⟩ := ih s1 w hc (by rw [advanceLoop_words _ _ _ h1, hn.2])
    exact ⟨s', .cons hn.1 h1 h2, h3, h4⟩

end Verif.Lemmas
