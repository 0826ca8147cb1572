import Verif.Lemmas.Meaning
/-!
The meaning of accepted check expressions, by induction over the syntax tree.
-/
namespace Verif.Lemmas
open Verif.Model Verif.Spec Verif.Props

variable {E : ElEnv} {objTy : Nat → Option Nat} {heap : Nat → Option Fields}

/-- an operand of an accepted expression, and its value -/
structure Operand (E : ElEnv) (objTy : Nat → Option Nat) (heap : Nat → Option Fields) (sc : TScope)
    (c : List (String × FExpr)) (r : Raw) (e : Expr) : Prop where
  typed : Typed E sc r e.typ
  tagged : ∀ x, e.eval ⟨heap, E.rx⟩ (some c) = .ok x → TVok E.decls objTy heap e.typ x
  means : ∀ v, Gives ⟨heap, E.rx⟩ (some c) e v ↔ HasMeaning heap E.rx (Typed E) sc c r v

variable {sc : TScope} {c : List (String × FExpr)}

theorem elems_tagged (hh : HeapOk E.decls objTy heap) {es : List FExpr} {vs : List (Option Ty × Val)}
    {τ : Ty} (ha : AllOk E.decls objTy es τ) (hv : evalElems heap es = .ok vs) :
    ∀ y ∈ vs, y.1 = some τ ∧ y.2.isNull = false := by
  induction es generalizing vs with
  | nil => simp only [evalElems, Ev.ok.injEq] at hv; subst hv; simp
  | cons e es ih =>
    simp only [AllOk] at ha
    simp only [evalElems, bind_eq_ok, Ev.ok.injEq] at hv
    obtain ⟨x, hx, ws, hw, rfl⟩ := hv
    obtain ⟨w, hw', hn⟩ := fok_eval hh e τ ha.1
    rw [hw'] at hx
    cases hx
    intro y hy
    rcases List.mem_cons.1 hy with rfl | hy
    · exact ⟨rfl, hn⟩
    · exact ih ha.2 hw y hy

theorem arr_tagged (hh : HeapOk E.decls objTy heap) {id : Nat} {elem : Ty} {lo : Nat} {hi : Option Nat} {x : TV}
    {es : List (Option Ty × Val)} (h : TVok E.decls objTy heap (some (.arr id elem lo hi)) x)
    (hx : x.val = .arr es) :
    x.typ = some (.arr id elem lo hi) ∧ ∀ y ∈ es, y.1 = some elem ∧ y.2.isNull = false := by
  obtain ⟨τ, h1, h2, h3⟩ := tvok_nonnull h (by rw [hx]; simp [Val.isNull])
  cases h1
  refine ⟨h2, ?_⟩
  obtain ⟨fs, vs, h4, h5, h6⟩ := vt_arr h3
  rw [hx] at h4
  cases h4
  exact elems_tagged hh h5 h6

theorem means_index (hh : HeapOk E.decls objTy heap) {p i : Raw} {pe ie : Expr} {id elem lo hi}
    (hp : Operand E objTy heap sc c p pe) (hi' : Operand E objTy heap sc c i ie)
    (ht : pe.typ = some (.arr id elem lo hi)) (wf : WFDecls E.decls) (un : UniqueNames E.decls) (v : Val) :
    Gives ⟨heap, E.rx⟩ (some c) (.binary (some elem) .index pe ie) v ↔
      HasMeaning heap E.rx (Typed E) sc c (.index p i) v := by
  simp only [gives_binary, HasMeaning]
  constructor
  · rintro ⟨⟨ta, a⟩, ⟨tb, b⟩, ha, hb, -, x, h, rfl⟩
    simp only [binaryOp, indexOp] at h
    split at h
    · next es k =>
      obtain ⟨h1, h2⟩ := arr_tagged hh (by rw [← ht]; exact hp.tagged _ ha) rfl
      simp only at h1
      subst h1
      simp only at h
      split at h
      · cases h
      · next hk =>
        split at h
        · cases h
        · next hu =>
          split at h
          · cases h
          · split at h
            · cases h
            · next y hy =>
              rw [mk_some] at h
              refine ⟨es, k, y.1, id, elem, lo, hi, (hp.means _).1 ⟨_, ha⟩, (hi'.means _).1 ⟨_, hb⟩,
                ht ▸ hp.typed, by omega, ?_, ?_⟩
              · rintro u rfl
                simp at hu
                exact hu
              · rw [h.2]; exact hy
    · cases h
  · rintro ⟨es, k, t, id', elem', lo', hi2, ha, hb, hty, h0, hu, hy⟩
    obtain ⟨ta, ha⟩ := (hp.means _).2 ha
    obtain ⟨tb, hb⟩ := (hi'.means _).2 hb
    obtain ⟨h1, h2⟩ := arr_tagged hh (by rw [← ht]; exact hp.tagged _ ha) rfl
    have hsame : some (Ty.arr id' elem' lo' hi2) = pe.typ := by
      obtain ⟨e1, he1, ht1⟩ := (elab_typed wf un p sc _).2 hty
      obtain ⟨e2, he2, ht2⟩ := (elab_typed wf un p sc _).2 hp.typed
      rw [he1] at he2; cases he2; rw [← ht1, ht2]
    rw [ht] at hsame
    cases hsame
    simp only at h1
    subst h1
    refine ⟨_, _, ha, hb, Or.inr ⟨rfl, rfl⟩, ⟨some elem, v⟩, ?_, rfl⟩
    have hl : k.toNat < es.length := by
      rw [List.getElem?_eq_some_iff] at hy
      exact hy.1
    simp only [binaryOp, indexOp]
    rw [if_neg (by omega), if_neg (by
      cases hi with
      | none => simp
      | some u => have := hu u rfl; simp; exact this), if_neg (by omega), hy]
    have := (h2 (t, v) (List.mem_of_getElem? hy)).2
    exact mk_some.2 ⟨this, rfl⟩

theorem means_arrIn (hh : HeapOk E.decls objTy heap) {p i : Raw} {pe ie : Expr} {xt id elem lo hi}
    (hp : Operand E objTy heap sc c p pe) (hi' : Operand E objTy heap sc c i ie)
    (hx : pe.typ = some xt) (ht : ie.typ = some (.arr id elem lo hi)) (v : Val) :
    Gives ⟨heap, E.rx⟩ (some c) (.binary (some .bool) .arrContains pe ie) v ↔
      ∃ d, (∃ x es, HasMeaning heap E.rx (Typed E) sc c p x ∧ HasMeaning heap E.rx (Typed E) sc c i (.arr es) ∧
        x ≠ .null ∧ (d = true ↔ xt = elem ∧ ∃ y ∈ es, x.pyEq y.2 = true)) ∧ v = .bool d := by
  simp only [gives_binary]
  have key : ∀ {a b : TV} {es}, pe.eval ⟨heap, E.rx⟩ (some c) = .ok a →
      ie.eval ⟨heap, E.rx⟩ (some c) = .ok b → a.val.isNull = false → b.val = .arr es →
      ((es.any fun e => eqTV (a.typ, a.val) e) = true ↔
        xt = elem ∧ ∃ y ∈ es, a.val.pyEq y.2 = true) := by
    intro a b es ha hb hn hv
    obtain ⟨h1, h2⟩ := arr_tagged hh (by rw [← ht]; exact hi'.tagged _ hb) hv
    obtain ⟨τ, h3, h4, -⟩ := tvok_nonnull (hp.tagged _ ha) (by simp [hn])
    rw [hx] at h3
    cases h3
    rw [List.any_eq_true, h4]
    constructor
    · rintro ⟨⟨t, y⟩, hy, h⟩
      obtain ⟨rfl, -⟩ := h2 _ hy
      simp only [eqTV, Bool.and_eq_true, beq_iff_eq, Option.some.injEq] at h
      exact ⟨h.1, _, hy, h.2⟩
    · rintro ⟨rfl, ⟨t, y⟩, hy, h⟩
      obtain ⟨h5, -⟩ := h2 _ hy
      simp only at h5
      subst h5
      exact ⟨_, hy, by simp [eqTV, h]⟩
  constructor
  · rintro ⟨a, b, ha, hb, hn, x, h, rfl⟩
    simp only [BinOp.allowsNull, Bool.false_eq_true, false_or] at hn
    simp only [binaryOp] at h
    split at h
    · next es hv =>
      rw [mk_some] at h
      obtain ⟨-, rfl⟩ := h
      refine ⟨_, ⟨a.val, es, (hp.means _).1 ⟨_, ha⟩, (hi'.means _).1 ⟨b.typ, by rw [hb, ← hv]⟩, ?_,
        key ha hb hn.1 hv⟩, rfl⟩
      intro h0
      rw [h0] at hn
      simp [Val.isNull] at hn
    · cases h
  · rintro ⟨d, ⟨x, es, h1, h2, hn, hd⟩, rfl⟩
    obtain ⟨ta, ha⟩ := (hp.means _).2 h1
    obtain ⟨tb, hb⟩ := (hi'.means _).2 h2
    have hn' : x.isNull = false := by cases x <;> simp_all [Val.isNull]
    refine ⟨_, _, ha, hb, Or.inr ⟨hn', rfl⟩, ⟨_, _⟩, mk_some.2 ⟨rfl, rfl⟩, ?_⟩
    have := key ha hb hn' rfl
    simp only at this ⊢
    congr 1
    rw [Bool.eq_iff_iff, this, hd]

theorem evals_one {env : EvEnv} {ctx : Ctx} {args : Exprs} {a : Expr} (h : args.toList = [a])
    {vs : List Val} : args.eval env ctx = .ok vs ↔ ∃ w, Gives env ctx a w ∧ vs = [w] := by
  rcases args with _ | ⟨e, _ | ⟨e2, es⟩⟩ <;> simp only [Exprs.toList, List.cons.injEq, reduceCtorEq,
    and_false, and_true] at h
  subst h
  simp only [Exprs.eval, bind_eq_ok, Ev.ok.injEq, Gives]
  constructor
  · rintro ⟨⟨t, w⟩, hw, _, rfl, rfl⟩; exact ⟨w, ⟨t, hw⟩, rfl⟩
  · rintro ⟨w, ⟨t, hw⟩, rfl⟩; exact ⟨_, hw, _, rfl, rfl⟩

theorem evals_two {env : EvEnv} {ctx : Ctx} {args : Exprs} {a b : Expr} (h : args.toList = [a, b])
    {vs : List Val} : args.eval env ctx = .ok vs ↔
      ∃ w u, Gives env ctx a w ∧ Gives env ctx b u ∧ vs = [w, u] := by
  rcases args with _ | ⟨e, _ | ⟨e2, _ | ⟨e3, es⟩⟩⟩ <;> simp only [Exprs.toList, List.cons.injEq, reduceCtorEq,
    and_false, and_true] at h
  obtain ⟨rfl, rfl⟩ := h
  simp only [Exprs.eval, bind_eq_ok, Ev.ok.injEq, Gives]
  constructor
  · rintro ⟨⟨t, w⟩, hw, _, ⟨⟨t', u⟩, hu, _, rfl, rfl⟩, rfl⟩; exact ⟨w, u, ⟨t, hw⟩, ⟨t', hu⟩, rfl⟩
  · rintro ⟨w, u, ⟨t, hw⟩, ⟨t', hu⟩, rfl⟩; exact ⟨_, hw, _, ⟨_, hu, _, rfl, rfl⟩, rfl⟩

theorem evals_mem {env : EvEnv} {ctx : Ctx} : ∀ {args : Exprs} {vs : List Val},
    args.eval env ctx = .ok vs → ∀ v ∈ vs, ∃ e ∈ args.toList, Gives env ctx e v
  | .nil, vs, h => by
    simp only [Exprs.eval, Ev.ok.injEq] at h; subst h; simp
  | .cons e es, vs, h => by
    simp only [Exprs.eval, bind_eq_ok, Ev.ok.injEq] at h
    obtain ⟨⟨t, w⟩, hw, ws, hws, rfl⟩ := h
    intro v hv
    simp only [Exprs.toList, List.mem_cons]
    rcases List.mem_cons.1 hv with rfl | hv
    · exact ⟨e, Or.inl rfl, t, hw⟩
    · obtain ⟨e', he', h⟩ := evals_mem hws v hv
      exact ⟨e', Or.inr he', h⟩

theorem bool_iff {b : Bool} {P : Prop} (h : b = true ↔ P) {v : Val} :
    v = .bool b ↔ ∃ d, v = .bool d ∧ (d = true ↔ P) := by
  constructor
  · rintro rfl; exact ⟨b, rfl, h⟩
  · rintro ⟨d, rfl, hd⟩; congr 1; rw [Bool.eq_iff_iff, h, hd]

theorem gives_str2 {env : EvEnv} {ctx : Ctx} {v : Val} {op : BinOp} {a b : Expr}
    {g : List Char → List Char → Bool} (hop : op.allowsNull = false)
    (hg : ∀ l r : TV, binaryOp env.rx op (some .bool) l r =
      match l.val, r.val with
      | .str s, .str t => mkValue (some .bool) (.bool (g s t))
      | _, _ => .crash .operand) :
    Gives env ctx (.binary (some .bool) op a b) v ↔
      ∃ s t, Gives env ctx a (.str s) ∧ Gives env ctx b (.str t) ∧ v = .bool (g s t) := by
  rw [gives_binary_vals (P := fun x y => ∃ s t, x = .str s ∧ y = .str t ∧ v = .bool (g s t))]
  · constructor
    · rintro ⟨_, _, h1, h2, s, t, rfl, rfl, rfl⟩; exact ⟨s, t, h1, h2, rfl⟩
    · rintro ⟨s, t, h1, h2, rfl⟩; exact ⟨_, _, h1, h2, s, t, rfl, rfl, rfl⟩
  · rintro ⟨tl, l⟩ ⟨tr, r⟩
    rw [hg]
    cases l <;> cases r <;> simp [Val.isNull, mk_some, hop]
    exact eq_comm

theorem call_means {D : Decls} {env : EvEnv} {ctx : Ctx} {rxOk : List Char → Bool} {f : String}
    {args : Exprs} {x : Expr} (h : mkCall D env.rx rxOk f args = .ok x)
    (hb : ∀ e ∈ args.toList, ∀ x, e.eval env ctx = .ok x → TVok D objTy env.heap e.typ x) (v : Val) :
    Gives env ctx x v ↔ ∃ vs, args.eval env ctx = .ok vs ∧ CallMeans env.rx f vs v := by
  have str2 : ∀ {op : BinOp} {a b : Expr} {g : List Char → List Char → Bool}
      (hop : op.allowsNull = false)
      (hg : ∀ l r : TV, binaryOp env.rx op (some .bool) l r =
        match l.val, r.val with
        | .str s, .str t => mkValue (some .bool) (.bool (g s t))
        | _, _ => .crash .operand),
      args.toList = [a, b] → (Gives env ctx (.binary (some .bool) op a b) v ↔
        ∃ vs, args.eval env ctx = .ok vs ∧ ∃ s t, vs = [.str s, .str t] ∧ v = .bool (g s t)) := by
    intro op a b g hop hg hl
    simp only [evals_two hl]
    rw [gives_str2 hop hg]
    constructor
    · rintro ⟨s, t, h1, h2, rfl⟩; exact ⟨_, ⟨_, _, h1, h2, rfl⟩, s, t, rfl, rfl⟩
    · rintro ⟨_, ⟨w, u, h1, h2, rfl⟩, s, t, h, rfl⟩
      simp only [List.cons.injEq, and_true] at h
      obtain ⟨rfl, rfl⟩ := h
      exact ⟨_, _, h1, h2, rfl⟩
  unfold mkCall at h
  split at h
  · next hf =>
    subst hf
    simp only [CallMeans, true_and, String.reduceEq, false_and, or_false]
    split at h
    · next a ha =>
      simp only [evals_one ha]
      split at h
      all_goals
        obtain ⟨rfl, τ, hτ, hs⟩ := mkUnary_iff.1 h
        rw [gives_unary]
        simp only at hs
      · constructor
        · rintro ⟨w, hw, -, x, hx, rfl⟩
          refine ⟨_, ⟨w, hw, rfl⟩, ?_⟩
          cases w <;> simp [unaryOp, mk_some] at hx
          rw [hx.2]
          simp
        · rintro ⟨_, ⟨w, hw, rfl⟩, (⟨s, h1, rfl⟩ | ⟨es, h1, rfl⟩)⟩
          · simp only [List.cons.injEq, and_true] at h1
            subst h1
            exact ⟨_, hw, rfl, _, mk_some.2 ⟨rfl, rfl⟩, rfl⟩
          · simp only [List.cons.injEq, and_true] at h1
            subst h1
            obtain ⟨t, hw⟩ := hw
            obtain ⟨σ, h1, -, h2⟩ := tvok_nonnull (hb a (by rw [ha]; simp) _ hw) (by simp [Val.isNull])
            rw [hτ] at h1
            cases h1
            obtain ⟨s, h3⟩ := vt_str (by rcases hs with rfl | rfl <;> simp [isStr]) h2
            cases h3
      · constructor
        · rintro ⟨w, hw, -, x, hx, rfl⟩
          refine ⟨_, ⟨w, hw, rfl⟩, ?_⟩
          cases w <;> simp [unaryOp, mk_some] at hx
          rw [hx.2]
          simp
        · rintro ⟨_, ⟨w, hw, rfl⟩, (⟨es, h1, rfl⟩ | ⟨es, h1, rfl⟩)⟩
          · simp only [List.cons.injEq, and_true] at h1
            subst h1
            obtain ⟨t, hw⟩ := hw
            obtain ⟨σ, h1, -, h2⟩ := tvok_nonnull (hb a (by rw [ha]; simp) _ hw) (by simp [Val.isNull])
            rw [hτ] at h1
            cases h1
            obtain ⟨id, elem, lo, hi, rfl⟩ := hs
            obtain ⟨_, vs, h3, -⟩ := vt_arr h2
            cases h3
          · simp only [List.cons.injEq, and_true] at h1
            subst h1
            exact ⟨_, hw, rfl, _, mk_some.2 ⟨rfl, rfl⟩, rfl⟩
    · cases h
  split at h
  · next hf =>
    subst hf
    simp only [CallMeans, true_and, String.reduceEq, false_and, or_false, false_or]
    split at h
    · next a b ha =>
      obtain ⟨rfl, -⟩ := mkBinary_iff.1 h
      rw [str2 (g := fun s t => t.isPrefixOf s) rfl (fun _ _ => rfl) ha]
      have : ∀ s t : List Char, t.isPrefixOf s = true ↔ ∃ q, s = t ++ q := by
        intro s t
        rw [List.isPrefixOf_iff_prefix]
        exact ⟨fun ⟨q, h⟩ => ⟨q, h.symm⟩, fun ⟨q, h⟩ => ⟨q, h.symm⟩⟩
      simp only [bool_iff (this _ _), exists_and_left]
    · cases h
  split at h
  · next hf =>
    subst hf
    simp only [CallMeans, true_and, String.reduceEq, false_and, or_false, false_or]
    split at h
    · next a b ha =>
      obtain ⟨rfl, -⟩ := mkBinary_iff.1 h
      rw [str2 (g := fun s t => t.isSuffixOf s) rfl (fun _ _ => rfl) ha]
      have : ∀ s t : List Char, t.isSuffixOf s = true ↔ ∃ q, s = q ++ t := by
        intro s t
        rw [List.isSuffixOf_iff_suffix]
        exact ⟨fun ⟨q, h⟩ => ⟨q, h.symm⟩, fun ⟨q, h⟩ => ⟨q, h.symm⟩⟩
      simp only [bool_iff (this _ _), exists_and_left]
    · cases h
  split at h
  · next hf =>
    subst hf
    simp only [CallMeans, true_and, String.reduceEq, false_and, or_false, false_or]
    split at h
    · next a b ha =>
      simp only [el_bind_ok] at h
      obtain ⟨-, -, u, -, h⟩ := h
      split at h
      · split at h
        · obtain ⟨rfl, -⟩ := mkBinary_iff.1 h
          exact str2 (g := fun s t => env.rx t s) rfl (fun _ _ => rfl) ha
        · cases h
      · cases h
    · cases h
  split at h
  · next hf =>
    subst hf
    simp only [CallMeans, true_and, String.reduceEq, false_and, or_false, false_or]
    split at h
    · cases h
    · obtain ⟨rfl, hty⟩ := mkOneOf_iff.1 h
      simp only [Gives, Expr.eval, bind_eq_ok, mk_some]
      have hv : ∀ {vs : List Val}, args.eval env ctx = .ok vs →
          ∀ v ∈ vs, v.pyEq (.bool true) = true ↔ v = .bool true := by
        intro vs hvs v hv
        obtain ⟨e, he, t, hg⟩ := evals_mem hvs v hv
        have := hb e he _ hg
        rw [hty e he] at this
        rcases this with h | ⟨τ, h1, -, -, h2⟩
        · cases h; simp [Val.pyEq, Val.isNull]
        · cases h1
          obtain ⟨b, rfl⟩ := h2
          cases b <;> simp [Val.pyEq, Val.num]
      constructor
      · rintro ⟨t, vs, hvs, -, h⟩
        cases h
        exact ⟨vs, hvs, _, rfl, by rw [beq_iff_eq, countTrue_one (hv hvs)]⟩
      · rintro ⟨vs, hvs, d, rfl, hd⟩
        refine ⟨some .bool, vs, hvs, rfl, ?_⟩
        congr 2
        rw [Bool.eq_iff_iff, hd, beq_iff_eq, countTrue_one (hv hvs)]
  split at h
  · next hf =>
    subst hf
    simp only [CallMeans, true_and, String.reduceEq, false_and, or_false, false_or]
    split at h
    · next a ha =>
      simp only [el_bind_ok] at h
      obtain ⟨-, -, h⟩ := h
      obtain ⟨rfl, -⟩ := mkUnary_iff.1 h
      simp only [evals_one ha]
      rw [gives_unary]
      constructor
      · rintro ⟨w, hw, -, x, hx, rfl⟩
        refine ⟨_, ⟨w, hw, rfl⟩, ?_⟩
        cases w <;> simp [unaryOp, mk_some] at hx
        · rw [hx.2]; exact Or.inl ⟨_, rfl, rfl⟩
        · rw [hx.2]; exact Or.inr ⟨_, _, rfl, (C09_round_nearest_away _).1, rfl⟩
      · rintro ⟨_, ⟨w, hw, rfl⟩, (⟨i, h1, rfl⟩ | ⟨q, n, h1, hn, rfl⟩)⟩
        · simp only [List.cons.injEq, and_true] at h1
          subst h1
          exact ⟨_, hw, rfl, _, mk_some.2 ⟨rfl, rfl⟩, rfl⟩
        · simp only [List.cons.injEq, and_true] at h1
          subst h1
          rw [(C09_round_nearest_away q).2 n hn]
          exact ⟨_, hw, rfl, _, mk_some.2 ⟨rfl, rfl⟩, rfl⟩
    · cases h
  split at h
  · next hf =>
    subst hf
    simp only [CallMeans, true_and, String.reduceEq, false_and, false_or]
    split at h
    · next a ha =>
      simp only [el_bind_ok] at h
      obtain ⟨-, -, h⟩ := h
      obtain ⟨rfl, -⟩ := mkUnary_iff.1 h
      simp only [evals_one ha]
      rw [gives_unary]
      constructor
      · rintro ⟨w, hw, -, x, hx, rfl⟩
        refine ⟨_, ⟨w, hw, rfl⟩, ?_⟩
        cases w <;> simp [unaryOp, mk_some] at hx
        · rw [hx.2]; exact Or.inl ⟨_, rfl, rfl⟩
        · rw [hx.2]; exact Or.inr ⟨_, rfl, rfl⟩
      · rintro ⟨_, ⟨w, hw, rfl⟩, (⟨i, h1, rfl⟩ | ⟨q, h1, rfl⟩)⟩ <;>
        · simp only [List.cons.injEq, and_true] at h1
          subst h1
          exact ⟨_, hw, rfl, _, mk_some.2 ⟨rfl, rfl⟩, rfl⟩
    · cases h
  · cases h

theorem gives_sign {env : EvEnv} {ctx : Ctx} {t : Ty} {minus : Bool} {e : Expr} {v : Val} :
    Gives env ctx (.unary (some t) (if minus then .minus else .plus) e) v ↔
      ∃ w, Gives env ctx e w ∧ (if minus then Negated w v else IsNumber w ∧ v = w) := by
  rw [gives_unary]
  constructor
  · rintro ⟨w, hw, -, x, hx, rfl⟩
    refine ⟨w, hw, ?_⟩
    cases minus <;> cases w <;> simp [unaryOp, mk_some, Val.isNull] at hx <;>
      simp [hx, Negated, IsNumber]
  · rintro ⟨w, hw, h⟩
    refine ⟨w, hw, ?_⟩
    cases minus <;> cases w <;> simp [Negated, IsNumber] at h <;>
      simp [h, unaryOp, mk_some, Val.isNull]

theorem gives_abs {env : EvEnv} {ctx : Ctx} {t : Ty} {e : Expr} {v : Val} :
    Gives env ctx (.unary (some t) .abs e) v ↔
      (∃ i, Gives env ctx e (.int i) ∧ v = .int |i|) ∨ (∃ q, Gives env ctx e (.dec q) ∧ v = .dec |q|) := by
  have hi : ∀ i : Int, (if i < 0 then -i else i) = |i| := by
    intro i
    split
    · rw [abs_of_neg ‹_›]
    · rw [abs_of_nonneg (by omega)]
  have hq : ∀ i : Rat, (if i < 0 then -i else i) = |i| := by
    intro i
    split
    · rw [abs_of_neg ‹_›]
    · rw [abs_of_nonneg (by linarith)]
  rw [gives_unary]
  constructor
  · rintro ⟨w, hw, -, x, hx, rfl⟩
    cases w <;> simp only [unaryOp, mk_some, reduceCtorEq] at hx
    · rw [hx.2]; exact Or.inl ⟨_, hw, by simp only [hi]⟩
    · rw [hx.2]; exact Or.inr ⟨_, hw, by simp only [hq]⟩
  · rintro (⟨w, hw, rfl⟩ | ⟨w, hw, rfl⟩)
    · exact ⟨_, hw, rfl, _, mk_some.2 ⟨rfl, rfl⟩, by simp only [hi]⟩
    · exact ⟨_, hw, rfl, _, mk_some.2 ⟨rfl, rfl⟩, by simp only [hq]⟩

theorem gives_power {env : EvEnv} {ctx : Ctx} {t : Ty} {l r : Expr} {v : Val} {u : Option Ty} {i : Int}
    (hr : r.eval env ctx = .ok ⟨u, .int i⟩) (hi : 0 ≤ i) :
    Gives env ctx (.binary (some t) .power l r) v ↔
      ∃ k : Nat, Gives env ctx r (.int k) ∧
        ((∃ i, Gives env ctx l (.int i) ∧ v = .int (i ^ k)) ∨
         (∃ q, Gives env ctx l (.dec q) ∧ v = .dec (q ^ k))) := by
  obtain ⟨n, rfl⟩ := Int.eq_ofNat_of_zero_le hi
  have hk : ∀ k : Nat, Gives env ctx r (.int k) ↔ k = n := by
    intro k
    unfold Gives
    rw [hr]
    constructor
    · rintro ⟨t, h⟩; cases h; rfl
    · rintro rfl; exact ⟨u, rfl⟩
  simp only [hk, exists_eq_left, gives_binary]
  have h0 : ¬ ((n : Int) < 0) := by omega
  constructor
  · rintro ⟨⟨ta, a⟩, b, ha, hb, -, x, hx, rfl⟩
    rw [hr] at hb
    cases hb
    cases a <;> simp [binaryOp, mk_some, Val.isNull, h0] at hx
    · rw [hx]; exact Or.inl ⟨_, ⟨_, ha⟩, rfl⟩
    · rw [hx]; exact Or.inr ⟨_, ⟨_, ha⟩, rfl⟩
  · rintro (⟨j, ⟨ta, ha⟩, rfl⟩ | ⟨j, ⟨ta, ha⟩, rfl⟩) <;>
    · refine ⟨_, _, ha, hr, Or.inr ⟨rfl, rfl⟩, ?_⟩
      simp [binaryOp, mk_some, Val.isNull, h0]

theorem gives_range {env : EvEnv} {ctx : Ctx} {e l u : Expr} {v : Val} :
    Gives env ctx (.range e l u) v ↔ ∃ d, (∃ w a b x y z, Gives env ctx e w ∧ Gives env ctx l a ∧
      Gives env ctx u b ∧ SameNumbers a w x y ∧ SameNumbers w b y z ∧ (d = true ↔ x ≤ y ∧ y ≤ z)) ∧
      v = .bool d := by
  constructor
  · rintro ⟨t, h⟩
    simp only [Expr.eval, bind_eq_ok] at h
    obtain ⟨⟨t1, w⟩, hw, h⟩ := h
    split at h
    · cases h
    simp only [bind_eq_ok] at h
    obtain ⟨⟨t2, a⟩, ha, h⟩ := h
    split at h
    · cases h
    simp only [bind_eq_ok] at h
    obtain ⟨⟨t3, b⟩, hb, h⟩ := h
    split at h
    · cases h
    simp only at h
    split at h
    · next i j k _ _ _ =>
      rw [mk_some] at h
      obtain ⟨-, h⟩ := h
      cases h
      refine ⟨_, ⟨_, _, _, i, j, k, ⟨_, hw⟩, ⟨_, ha⟩, ⟨_, hb⟩, ?_, ?_, ?_⟩, rfl⟩
      · exact Or.inl ⟨_, _, rfl, rfl, rfl, rfl⟩
      · exact Or.inl ⟨_, _, rfl, rfl, rfl, rfl⟩
      · simp
    · next i j k _ _ _ =>
      rw [mk_some] at h
      obtain ⟨-, h⟩ := h
      cases h
      refine ⟨_, ⟨_, _, _, i, j, k, ⟨_, hw⟩, ⟨_, ha⟩, ⟨_, hb⟩, ?_, ?_, ?_⟩, rfl⟩
      · exact Or.inr ⟨rfl, rfl⟩
      · exact Or.inr ⟨rfl, rfl⟩
      · simp
    · cases h
  · rintro ⟨d, ⟨w, a, b, x, y, z, ⟨t1, hw⟩, ⟨t2, ha⟩, ⟨t3, hb⟩, h1, h2, h3⟩, rfl⟩
    refine ⟨some .bool, ?_⟩
    simp only [Expr.eval, hw, ha, hb, Ev.bind]
    rcases h1 with ⟨i, j, rfl, rfl, rfl, rfl⟩ | ⟨rfl, rfl⟩
    · rcases h2 with ⟨j', k, h, rfl, h', rfl⟩ | ⟨h, rfl⟩
      · cases h
        simp only [Val.isNull, Bool.false_eq_true, if_false, mk_some, true_and]
        congr 2
        rw [Bool.eq_iff_iff, h3]
        simp
      · cases h
    · rcases h2 with ⟨j', k, h, rfl, h', rfl⟩ | ⟨h, rfl⟩
      · cases h
      · simp only [Val.isNull, Bool.false_eq_true, if_false, mk_some, true_and]
        congr 2
        rw [Bool.eq_iff_iff, h3]
        simp

theorem gives_field {env : EvEnv} {ctx : Ctx} {p : Expr} {f : String} {t : Ty} {v : Val} :
    Gives env ctx (.field p f t) v ↔
      (∃ fs, Gives env ctx p (.tup fs) ∧
        ((∃ t, fs.lookup f = some (t, v)) ∨ (fs.lookup f = none ∧ v = .null))) ∨
      (∃ fs, Gives env ctx p (.recv fs) ∧
        ((∃ e, fs.lookup f = some e ∧ ValueOf env.heap e.expr v) ∨ (fs.lookup f = none ∧ v = .null))) := by
  constructor
  · rintro ⟨t, h⟩
    simp only [Expr.eval, bind_eq_ok] at h
    obtain ⟨⟨t1, w⟩, hw, h⟩ := h
    simp only at h
    split at h
    · cases h
    · next fs =>
      refine Or.inl ⟨fs, ⟨_, hw⟩, ?_⟩
      split at h
      · next hl =>
        rw [mk_none] at h
        obtain ⟨-, h⟩ := h
        cases h
        exact Or.inr ⟨hl, rfl⟩
      · next x hl => cases h; exact Or.inl ⟨_, hl⟩
    · next fs =>
      refine Or.inr ⟨fs, ⟨_, hw⟩, ?_⟩
      split at h
      · next hl =>
        rw [mk_none] at h
        obtain ⟨-, h⟩ := h
        cases h
        exact Or.inr ⟨hl, rfl⟩
      · next x hl =>
        obtain ⟨w, hw, h⟩ := (value_iff _ _).1 h
        cases h
        exact Or.inl ⟨_, hl, hw⟩
    · cases h
  · rintro (⟨fs, ⟨t, hw⟩, (⟨u, h⟩ | ⟨h, rfl⟩)⟩ | ⟨fs, ⟨t, hw⟩, (⟨e, h, hv⟩ | ⟨h, rfl⟩)⟩)
    · exact ⟨u, by simp only [Expr.eval, hw, Ev.bind, h]⟩
    · exact ⟨none, by simp only [Expr.eval, hw, Ev.bind, h]; exact mk_none.2 ⟨rfl, rfl⟩⟩
    · exact ⟨_, by simp only [Expr.eval, hw, Ev.bind, h]; exact (value_iff _ _).2 ⟨v, hv, rfl⟩⟩
    · exact ⟨none, by simp only [Expr.eval, hw, Ev.bind, h]; exact mk_none.2 ⟨rfl, rfl⟩⟩

theorem gives_logic {env : EvEnv} {ctx : Ctx} {op : SCOp} {l r : Expr} {v : Val} :
    Gives env ctx (.logic op l r) v ↔
      ∃ b, Gives env ctx l (.bool b) ∧
        match decides op b with
        | some d => v = .bool d
        | none => Gives env ctx r v := by
  constructor
  · rintro ⟨t, h⟩
    simp only [Expr.eval, bind_eq_ok] at h
    obtain ⟨⟨t1, w⟩, hw, h⟩ := h
    simp only at h
    split at h
    · cases h
    split at h
    · next b _ =>
      refine ⟨b, ⟨_, hw⟩, ?_⟩
      cases op <;> cases b <;> simp [decides, mk_some, Val.isNull] at h ⊢ <;>
        first
        | exact ⟨_, h⟩
        | exact h.2.symm
        | exact h.2
    · cases h
  · rintro ⟨b, ⟨t, hb⟩, h⟩
    cases op <;> cases b <;> simp only [decides] at h <;>
      simp only [Gives, Expr.eval, hb, Ev.bind, Val.isNull, Bool.false_eq_true, if_false, if_true] <;>
      first
      | exact h
      | exact ⟨_, by rw [h]⟩
      | exact ⟨some .bool, by rw [h]; exact mk_some.2 ⟨rfl, rfl⟩⟩

theorem gives_act {env : EvEnv} {ctx : Ctx} {d e : Expr} {rest : Acts} {v : Val} :
    (∃ t, Acts.eval env ctx (.act d e rest) = .ok ⟨t, v⟩) ↔
      (Gives env ctx d (.bool true) ∧ Gives env ctx e v) ∨
      (Gives env ctx d (.bool false) ∧ ∃ t, Acts.eval env ctx rest = .ok ⟨t, v⟩) := by
  constructor
  · rintro ⟨t, h⟩
    simp only [Acts.eval, bind_eq_ok] at h
    obtain ⟨⟨t1, w⟩, hw, h⟩ := h
    simp only at h
    split at h
    · cases h
    split at h
    · next b _ =>
      cases b
      · exact Or.inr ⟨⟨_, hw⟩, t, by simpa using h⟩
      · exact Or.inl ⟨⟨_, hw⟩, t, by simpa using h⟩
    · cases h
  · rintro (⟨⟨t, hd⟩, u, h⟩ | ⟨⟨t, hd⟩, u, h⟩) <;>
      exact ⟨u, by simp [Acts.eval, hd, Ev.bind, Val.isNull, h]⟩

end Verif.Lemmas
