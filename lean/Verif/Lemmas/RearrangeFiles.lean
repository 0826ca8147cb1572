import Verif.Lemmas.RearrangeWritten
/-!
# Files and the declarations in them
-/
namespace Verif.Lemmas.Rearrange
open Verif.Model Verif.Spec Verif.Lemmas

/-! ### The declarations of a text are determined -/

theorem head_name {n : List Token} (h : NameShape n) : ∃ t r, n = t :: r ∧ t.kind = .IDENTIFIER := by
  rcases h with ⟨t, rfl, h⟩ | ⟨t, d, t', rfl, h, -⟩
  · exact ⟨t, [], rfl, h⟩
  · exact ⟨t, [d, t'], rfl, h⟩

/-- a text that ends here, or goes on with a closing brace -/
def Stop (y : List Token) : Prop := ∀ t, y.head? = some t → t.kind = .C_KET

theorem upto_ket {r r' : List Token} {k k' : Token} {y y' : List Token} (h : ∀ t ∈ r, NoBrace t) (h' : ∀ t ∈ r', NoBrace t)
    (hk : k.kind = .C_KET) (hk' : k'.kind = .C_KET) (e : r ++ k :: y = r' ++ k' :: y') : r = r' ∧ k = k' ∧ y = y' := by
  induction r generalizing r' with
  | nil =>
    cases r' with
    | nil => simp at e; exact ⟨rfl, e⟩
    | cons a r' =>
      simp at e
      exact absurd (e.1 ▸ hk) (h' a (by simp)).2
  | cons b r ih =>
    cases r' with
    | nil =>
      simp at e
      exact absurd (e.1 ▸ hk') (h b (by simp)).2
    | cons a r' =>
      simp at e
      obtain ⟨h1, h2, h3⟩ := ih (fun t ht => h t (by simp [ht])) (fun t ht => h' t (by simp [ht])) e.2
      exact ⟨by rw [e.1, h1], h2, h3⟩

theorem upto_bra {r r' : List Token} {k k' : Token} {y y' : List Token} (h : ∀ t ∈ r, NoBrace t) (h' : ∀ t ∈ r', NoBrace t)
    (hk : k.kind = .C_BRA) (hk' : k'.kind = .C_BRA) (e : r ++ k :: y = r' ++ k' :: y') : r = r' ∧ k = k' ∧ y = y' := by
  induction r generalizing r' with
  | nil =>
    cases r' with
    | nil => simp at e; exact ⟨rfl, e⟩
    | cons a r' =>
      simp at e
      exact absurd (e.1 ▸ hk) (h' a (by simp)).1
  | cons b r ih =>
    cases r' with
    | nil =>
      simp at e
      exact absurd (e.1 ▸ hk') (h b (by simp)).1
    | cons a r' =>
      simp at e
      obtain ⟨h1, h2, h3⟩ := ih (fun t ht => h t (by simp [ht])) (fun t ht => h' t (by simp [ht])) e.2
      exact ⟨by rw [e.1, h1], h2, h3⟩

theorem object_unique {a a' y y' : List Token} (h : ObjectShape a) (h' : ObjectShape a') (e : a ++ y = a' ++ y') :
    a = a' ∧ y = y' := by
  obtain ⟨n, x, b, r, k, rfl, h1, h2, h3, h4, h5⟩ := h
  obtain ⟨n', x', b', r', k', rfl, h1', h2', h3', h4', h5'⟩ := h'
  have e1 : (n ++ [x]) ++ b :: (r ++ k :: y) = (n' ++ [x']) ++ b' :: (r' ++ k' :: y') := by simpa using e
  obtain ⟨e2, rfl, e3⟩ := upto_bra (app_noBrace (name_noBrace h1) (one_noBrace (noBrace_of h2)))
    (app_noBrace (name_noBrace h1') (one_noBrace (noBrace_of h2'))) h3 h3' e1
  obtain ⟨rfl, rfl, rfl⟩ := upto_ket h5 h5' h4 h4' e3
  obtain ⟨rfl, e5⟩ := List.append_inj' e2 rfl
  cases e5
  exact ⟨rfl, rfl⟩

theorem head_object {a : List Token} (h : ObjectShape a) : ∃ t r, a = t :: r ∧ t.kind = .IDENTIFIER := by
  obtain ⟨n, x, b, r, k, rfl, h1, -⟩ := h
  obtain ⟨t, m, rfl, h2⟩ := head_name h1
  exact ⟨t, m ++ x :: b :: r ++ [k], by simp, h2⟩

theorem pieces_unique {E : FileEnv} {S : List (List Char)} {ts : List Token} {ps : List Piece} (h : Pieces E S ts ps) :
    ∀ {ts' y y' ps'}, Pieces E S ts' ps' → Stop y → Stop y' → ts ++ y = ts' ++ y' → ts = ts' ∧ ps = ps' ∧ y = y' := by
  induction h with
  | nil =>
    intro ts' y y' ps' h' hy hy' e
    simp only [List.nil_append] at e
    cases h' with
    | nil => exact ⟨rfl, rfl, e⟩
    | obj h1 h2 =>
      obtain ⟨t, r, rfl, h3⟩ := head_object h1
      rw [e] at hy
      have := hy t (by simp)
      rw [h3] at this
      cases this
    | sect h1 h2 h3 h4 h5 h6 =>
      rw [e] at hy
      have := hy _ (by simp; rfl)
      rw [h1.1] at this
      cases this
  | obj h1 h2 ih =>
    intro ts' y y' ps' h' hy hy' e
    obtain ⟨t, r, ht, h3⟩ := head_object h1
    cases h' with
    | nil =>
      simp only [List.nil_append] at e
      rw [← e] at hy'
      have := hy' t (by simp [ht])
      rw [h3] at this
      cases this
    | obj h1' h2' =>
      rw [List.append_assoc, List.append_assoc] at e
      obtain ⟨rfl, e1⟩ := object_unique h1 h1' e
      obtain ⟨rfl, rfl, rfl⟩ := ih h2' hy hy' e1
      exact ⟨rfl, rfl, rfl⟩
    | sect h1' h2' h3' h4' h5' h6' =>
      rw [ht] at e
      simp only [List.cons_append, List.nil_append, List.cons.injEq] at e
      have := e.1 ▸ h1'.1
      rw [h3] at this
      cases this
  | sect h1 h2 h3 h4 h5 h6 ih1 ih2 =>
    intro ts' y y' ps' h' hy hy' e
    cases h' with
    | nil =>
      simp only [List.nil_append] at e
      rw [← e] at hy'
      have := hy' _ (by simp; rfl)
      rw [h1.1] at this
      cases this
    | obj h1' h2' =>
      obtain ⟨t, r, ht, h3'⟩ := head_object h1'
      rw [ht] at e
      simp only [List.cons_append, List.nil_append, List.cons.injEq] at e
      have := e.1 ▸ h1.1
      rw [h3'] at this
      cases this
    | sect h1' h2' h3' h4' h5' h6' =>
      simp only [List.cons_append, List.nil_append, List.cons.injEq, List.append_assoc] at e
      obtain ⟨rfl, rfl, rfl, e⟩ := e
      have st : ∀ {c : Token} {z : List Token}, c.kind = .C_KET → Stop (c :: z) := by
        intro c z hc t ht
        simp only [List.head?_cons, Option.some.injEq] at ht
        rw [← ht]
        exact hc
      obtain ⟨rfl, rfl, e1⟩ := ih1 h5' (st h4) (st h4') e
      simp only [List.cons.injEq] at e1
      obtain ⟨rfl, e2⟩ := e1
      obtain ⟨rfl, rfl, rfl⟩ := ih2 h6' hy hy' e2
      exact ⟨rfl, rfl, rfl⟩

theorem filePieces_unique {fs : List OpenFile} {ps : List Piece} (h : FilePieces fs ps) : ∀ {ps'}, FilePieces fs ps' → ps = ps' := by
  induction h with
  | nil =>
    intro ps' h'
    cases h'
    rfl
  | cons h1 h2 ih =>
    intro ps' h'
    cases h' with
    | cons h1' h2' =>
      have st : Stop [] := fun t ht => by simp at ht
      obtain ⟨-, rfl, -⟩ := pieces_unique h1 h1' st st rfl
      rw [ih h2']

/-! ### Readings that do not depend on the order -/

/-- the declaration of an item -/
def dec (x : Obj × List (String × PVal)) : Dec := ⟨x.1.pkg, x.1.name, x.1.typ⟩

/-- The piece is a declaration of this object, whatever has been declared before. -/
def ReadsAs (g : STab) (B : Names) (p : Piece) (x : Obj × List (String × PVal)) : Prop :=
  x.1.pkg = p.env.pkg ∧ x.1.sects = p.sects ∧ ∃ a e b N ds, p.toks = a ++ b ∧ NameOf p.env B a e ∧ e.cls = clsRecord ∧
    e.id = x.1.typ ∧ Grown B N ds ∧ Good g B ds ∧ WrittenBody p.env N x.1.typ x.1.name x.2 b

variable {g : STab} {B : Names}

theorem good_prefix {ds ds' : List Dec} (h : Good g B ds') (hp : ds <+: ds') : Good g B ds :=
  ⟨fun d hd => h.fresh d (hp.subset hd), h.distinct.sublist hp.sublist⟩

theorem entries_pieces (hb : Base g B) (hs : SepsOk B.seps) {E : FileEnv} (hE : E.global = g) {N N' : Names} {k : Nat}
    {S : List (List Char)} {items : List (Obj × List (String × PVal))} {ts : List Token}
    (h : WrittenEntries E N k S items ts N') : ∀ ds, k = ds.length → Grown B N ds → Good g B ds →
      ∃ ps, Pieces E S ts ps ∧ List.Forall₂ (ReadsAs g B) ps items ∧ Grown B N' (ds ++ items.map dec) ∧
        Good g B (ds ++ items.map dec) := by
  induction h with
  | nil =>
    intro ds _ h1 h2
    exact ⟨[], .nil, .nil, by simpa using h1, by simpa using h2⟩
  | @obj N N1 N2 k S ob asg items a b h1 h2 h3 h4 h5 ih =>
    intro ds hk hg hd
    subst hk
    have hg1 := grown_step hg h3
    have hd1 := good_of_declared hb hd hg h3
    obtain ⟨ps, k1, k2, k3, k4⟩ := ih _ (by simp) hg1 hd1
    have hob : (⟨E.pkg, ob.name, ob.typ⟩ : Dec) = dec (ob, asg) := by simp [dec, h1]
    rw [hob] at k3 k4
    refine ⟨⟨E, S, a⟩ :: ps, .obj (object_shape (by rw [hg1.seps]; exact hs) h4) k1, .cons ⟨h1, h2, ?_⟩ k2, ?_, ?_⟩
    · obtain ⟨a', e, b', e1, e2, e3, e4, e5⟩ := h4
      exact ⟨a', e, b', N1, _, e1, (nameOf_iff hb hd hg hE (by rw [e3]; decide)).1 e2, e3, e4, hg1, hd1, e5⟩
    · simpa using k3
    · simpa using k4
  | @sect N N1 N2 k S items items' w t b r c r' h1 h2 h3 h4 h5 h6 ih1 ih2 =>
    intro ds hk hg hd
    subst hk
    obtain ⟨ps, k1, k2, k3, k4⟩ := ih1 _ rfl hg hd
    obtain ⟨ps', k1', k2', k3', k4'⟩ := ih2 _ (by simp) k3 k4
    exact ⟨ps ++ ps', .sect h1 h2 h3 h4 k1 k1', f2_app k2 k2', by simpa using k3', by simpa using k4'⟩

theorem files_pieces (hb : Base g B) (hs : SepsOk B.seps) {N N' : Names} {k : Nat} {fs : List OpenFile}
    {items : List (Obj × List (String × PVal))} (h : WrittenFiles N k fs items N') (hE : ∀ f ∈ fs, f.env.global = g) :
    ∀ ds, k = ds.length → Grown B N ds → Good g B ds →
      ∃ ps, FilePieces fs ps ∧ List.Forall₂ (ReadsAs g B) ps items ∧ Grown B N' (ds ++ items.map dec) ∧
        Good g B (ds ++ items.map dec) := by
  induction h with
  | nil =>
    intro ds _ h1 h2
    exact ⟨[], .nil, .nil, by simpa using h1, by simpa using h2⟩
  | cons h1 h2 ih =>
    intro ds hk hg hd
    subst hk
    obtain ⟨ps, k1, k2, k3, k4⟩ := entries_pieces hb hs (hE _ (by simp)) h1 _ rfl hg hd
    obtain ⟨ps', k1', k2', k3', k4'⟩ := ih (fun f hf => hE f (by simp [hf])) _ (by simp) k3 k4
    exact ⟨ps ++ ps', .cons k1 k1', f2_app k2 k2', by simpa using k3', by simpa using k4'⟩

/-- The references of an object may refer to any of the objects they may mean. -/
def RefsOk (B : Names) (F : List Dec) (x : Obj × List (String × PVal)) : Prop :=
  ∀ a ∈ x.2, ∀ τ p n, HasRef a.2 τ p n → (∀ e, (B.tab p).lookup n none ≠ .ok e) ∧
    ∀ d ∈ F, d.pkg = p → d.name = n → Referable B.decls d.typ τ

theorem nameOf_same {E E' : FileEnv} (h1 : E'.global = E.global) (h2 : E'.pkg = E.pkg) (h3 : E'.imports = E.imports)
    (h4 : E'.resolved = E.resolved) {n n' : List Token} {e : Ent} (h : List.Forall₂ (SameTok E E') n n')
    (hn : NameOf E B n e) : NameOf E' B n' e := by
  have hm : ∀ m e, Means E B m e → Means E' B m e := by
    intro m e h
    unfold Means at h ⊢
    rw [h1, h2]
    exact h
  rcases hn with ⟨t, rfl, k1, k2, k3⟩ | ⟨t, d, t', p, rfl, k1, k2, k3, k4, k5, k6, k7⟩
  · obtain ⟨t', rfl, ht⟩ := f2_one h
    exact .inl ⟨t', rfl, ht.kind.trans k1, by rw [sameText ht]; exact hm _ _ k2, k3⟩
  · obtain ⟨x, _, rfl, hx1, h⟩ := f2_cons h
    obtain ⟨y, _, rfl, hx2, h⟩ := f2_cons h
    obtain ⟨z, rfl, hx3⟩ := f2_one h
    refine .inr ⟨x, y, z, p, rfl, hx1.kind.trans k1, hx2.kind.trans k2, hx3.kind.trans k3,
      by rw [sameText hx1]; exact hm _ _ k4, k5, ?_, by rw [sameText hx3]; exact k7⟩
    unfold Usable at k6 ⊢
    rw [h2, h3, h4]
    exact k6

theorem xfer_of (hb : Base g B) {E E' : FileEnv} (hE : E.global = g) (h1 : E'.global = E.global) (h2 : E'.pkg = E.pkg)
    (h3 : E'.imports = E.imports) (h4 : E'.resolved = E.resolved) {N N' : Names} {ds ds' : List Dec} (hg : Grown B N ds)
    (hd : Good g B ds) (hg' : Grown B N' ds') (hd' : Good g B ds') : Xfer E E' N N' where
  global := h1
  pkg := h2
  imports := h3
  resolved := h4
  decls := hg'.decls.trans hg.decls.symm
  seps := hg'.seps.trans hg.seps.symm
  name h he hn := (nameOf_iff hb hd' hg' (h1.trans hE) he).2
    (nameOf_same h1 h2 h3 h4 h ((nameOf_iff hb hd hg hE he).1 hn))

theorem readsAs_same (hb : Base g B) {p p' : Piece} {x : Obj × List (String × PVal)} (hE : p.env.global = g)
    (h : SamePiece p p') (hr : ReadsAs g B p x) : ReadsAs g B p' x := by
  obtain ⟨r1, r2, a, e, b, N, ds, r3, r4, r5, r6, r7, r8, r9⟩ := hr
  have ht := h.toks
  rw [r3] at ht
  obtain ⟨a', b', ha', h1, h2⟩ := f2_append ht
  exact ⟨r1.trans h.pkg.symm, r2.trans h.sects.symm, a', e, b', N, ds, ha',
    nameOf_same h.global h.pkg h.imports h.resolved h1 r4, r5, r6, r7, r8,
    body_same (xfer_of hb hE h.global h.pkg h.imports h.resolved r7 r8 r7 r8) r9 h2 (fun _ _ _ _ _ _ h => h)⟩

theorem same_refl (E : FileEnv) (ts : List Token) : List.Forall₂ (SameTok E E) ts ts := by
  induction ts with
  | nil => exact .nil
  | cons t ts ih => exact .cons ⟨rfl, rfl, fun _ => rfl⟩ ih

theorem pieces_entries (hb : Base g B) {F : List Dec} (hF : Good g B F) {E : FileEnv} (hE : E.global = g) {S : List (List Char)}
    {ts : List Token} {ps : List Piece} (h : Pieces E S ts ps) : ∀ (items : List (Obj × List (String × PVal)))
    (ds : List Dec) (N : Names), List.Forall₂ (ReadsAs g B) ps items → Grown B N ds → ds ++ items.map dec <+: F →
    (∀ x ∈ items, RefsOk B F x) → ∃ N', WrittenEntries E N ds.length S items ts N' ∧ Grown B N' (ds ++ items.map dec) := by
  induction h with
  | nil =>
    intro items ds N hr hg _ _
    cases hr
    exact ⟨N, .nil, by simpa using hg⟩
  | @obj S a b ps h1 h2 ih =>
    intro items ds N hr hg hp hx
    cases hr with
    | @cons _ x _ items hr1 hr2 =>
      obtain ⟨r1, r2, a', e, b', M, ds', r3, r4, r5, r6, r7, r8, r9⟩ := hr1
      dsimp only at r1 r2 r3 r4 r9
      have hp1 : ds ++ [dec x] <+: F := by
        refine List.IsPrefix.trans ?_ hp
        simp
      have hd := good_prefix hF ((List.prefix_append ds [dec x]).trans hp1)
      have hd1 := good_prefix hF hp1
      obtain ⟨N1, hN1⟩ := can_declare hb hg hd1
      have hg1 : Grown B N1 (ds ++ [dec x]) := grown_step hg hN1
      obtain ⟨N', k1, k2⟩ := ih items _ N1 hr2 hg1 (by simpa using hp) (fun x hx' => hx x (by simp [hx']))
      have hpk : (dec x).pkg = E.pkg := r1
      rw [hpk] at hN1
      rw [List.length_append, List.length_singleton] at k1
      refine ⟨N', .obj r1 r2 hN1 ?_ k1, by simpa using k2⟩
      refine ⟨a', e, b', r3, (nameOf_iff hb hd hg hE (by rw [r5]; decide)).2 r4, r5, r6, ?_⟩
      refine body_same (xfer_of hb hE rfl rfl rfl rfl r7 r8 hg1 hd1) r9 (same_refl E b') ?_
      intro y hy τ p n hh _
      rw [mayRefer_iff hb hd1 hg1]
      obtain ⟨q1, q2⟩ := hx x (by simp) y hy τ p n hh
      exact ⟨q1, fun d hd => q2 d (hp1.subset hd)⟩
  | @sect S w t b r c r' ps ps' h1 h2 h3 h4 h5 h6 ih1 ih2 =>
    intro items ds N hr hg hp hx
    obtain ⟨i1, i2, rfl, hr1, hr2⟩ := f2_append hr
    rw [List.map_append, ← List.append_assoc] at hp
    obtain ⟨N1, k1, k2⟩ := ih1 i1 ds N hr1 hg ((List.prefix_append _ _).trans hp) (fun x hx' => hx x (by simp [hx']))
    obtain ⟨N2, k3, k4⟩ := ih2 i2 _ N1 hr2 k2 hp (fun x hx' => hx x (by simp [hx']))
    rw [List.length_append, List.length_map] at k3
    exact ⟨N2, .sect h1 h2 h3 h4 k1 k3, by simpa using k4⟩

theorem pieces_files (hb : Base g B) {F : List Dec} (hF : Good g B F) {fs : List OpenFile} {ps : List Piece}
    (h : FilePieces fs ps) (hE : ∀ f ∈ fs, f.env.global = g) : ∀ (items : List (Obj × List (String × PVal)))
    (ds : List Dec) (N : Names), List.Forall₂ (ReadsAs g B) ps items → Grown B N ds → ds ++ items.map dec <+: F →
    (∀ x ∈ items, RefsOk B F x) → ∃ N', WrittenFiles N ds.length fs items N' := by
  induction h with
  | nil =>
    intro items ds N hr hg _ _
    cases hr
    exact ⟨N, .nil⟩
  | cons h1 h2 ih =>
    intro items ds N hr hg hp hx
    obtain ⟨i1, i2, rfl, hr1, hr2⟩ := f2_append hr
    rw [List.map_append, ← List.append_assoc] at hp
    obtain ⟨N1, k1, k2⟩ := pieces_entries hb hF (hE _ (by simp)) h1 i1 ds N hr1 hg ((List.prefix_append _ _).trans hp)
      (fun x hx' => hx x (by simp [hx']))
    obtain ⟨N2, k3⟩ := ih (fun f hf => hE f (by simp [hf])) i2 _ N1 hr2 k2 hp (fun x hx' => hx x (by simp [hx']))
    rw [List.length_append, List.length_map] at k3
    exact ⟨N2, .cons k1 k3⟩

/-! ### Rearranging -/

theorem f2_perm {α β : Type} {R : α → β → Prop} {l l' : List α} (h : l.Perm l') : ∀ {m : List β}, List.Forall₂ R l m →
    ∃ m', m.Perm m' ∧ List.Forall₂ R l' m' := by
  induction h with
  | nil =>
    intro m h
    exact ⟨m, .refl _, h⟩
  | cons x _ ih =>
    intro m h
    obtain ⟨y, m, rfl, h1, h2⟩ := f2_cons h
    obtain ⟨m', k1, k2⟩ := ih h2
    exact ⟨y :: m', .cons y k1, .cons h1 k2⟩
  | swap x y l =>
    intro m h
    obtain ⟨a, m, rfl, h1, h⟩ := f2_cons h
    obtain ⟨b, m, rfl, h2, h3⟩ := f2_cons h
    exact ⟨b :: a :: m, .swap b a m, .cons h2 (.cons h1 h3)⟩
  | trans _ _ ih1 ih2 =>
    intro m h
    obtain ⟨m1, k1, k2⟩ := ih1 h
    obtain ⟨m2, k3, k4⟩ := ih2 k2
    exact ⟨m2, k1.trans k3, k4⟩

theorem good_perm {ds ds' : List Dec} (h : ds.Perm ds') (hg : Good g B ds) : Good g B ds' :=
  ⟨fun d hd => hg.fresh d (h.mem_iff.2 hd), (h.pairwise_iff (fun hab e hn => hab e.symm hn.symm)).1 hg.distinct⟩

theorem filePieces_env {fs : List OpenFile} {ps : List Piece} (h : FilePieces fs ps) (hE : ∀ f ∈ fs, f.env.global = g) :
    ∀ p ∈ ps, p.env.global = g := by
  have key : ∀ {E : FileEnv} {S ts ps}, Pieces E S ts ps → ∀ p ∈ ps, p.env = E := by
    intro E S ts ps h
    induction h with
    | nil => intro p hp; cases hp
    | obj _ _ ih =>
      intro p hp
      rcases List.mem_cons.1 hp with rfl | hp
      · rfl
      · exact ih p hp
    | sect _ _ _ _ _ _ ih1 ih2 =>
      intro p hp
      rcases List.mem_append.1 hp with hp | hp
      · exact ih1 p hp
      · exact ih2 p hp
  induction h with
  | nil => intro p hp; cases hp
  | cons h1 h2 ih =>
    intro p hp
    rcases List.mem_append.1 hp with hp | hp
    · rw [key h1 p hp]; exact hE _ (by simp)
    · exact ih (fun f hf => hE f (by simp [hf])) p hp

theorem reads_same (hb : Base g B) {ps ps' : List Piece} (h : List.Forall₂ SamePiece ps ps') :
    ∀ {items : List (Obj × List (String × PVal))}, (∀ p ∈ ps, p.env.global = g) → List.Forall₂ (ReadsAs g B) ps items →
    List.Forall₂ (ReadsAs g B) ps' items := by
  induction h with
  | nil =>
    intro items _ h
    cases h
    exact .nil
  | cons h1 h2 ih =>
    intro items hE h
    obtain ⟨y, m, rfl, k1, k2⟩ := f2_cons h
    exact .cons (readsAs_same hb (hE _ (by simp)) h1 k1) (ih (fun p hp => hE p (by simp [hp])) k2)

/-- What is written in some files is also written in rearranged files, with the objects in another order. -/
theorem rearranged_written (hb : Base g B) (hs : SepsOk B.seps) {fs fs' : List OpenFile} (hE : ∀ f ∈ fs, f.env.global = g)
    (hE' : ∀ f ∈ fs', f.env.global = g) (hr : Rearranged fs fs') {items : List (Obj × List (String × PVal))} {N : Names}
    (h : WrittenFiles B 0 fs items N) (hx : Good g B (items.map dec) → ∀ x ∈ items, RefsOk B (items.map dec) x) :
    ∃ items' N', items.Perm items' ∧ WrittenFiles B 0 fs' items' N' := by
  obtain ⟨ps, qs, ps', p1, p2, p3, p4⟩ := hr
  obtain ⟨ps0, k1, k2, -, k4⟩ := files_pieces hb hs h hE [] rfl (grown_refl hb.otyps)
    ⟨(fun d hd => by cases hd), List.Pairwise.nil⟩
  rw [List.nil_append] at k4
  cases filePieces_unique k1 p1
  obtain ⟨items', i1, i2⟩ := f2_perm p3 k2
  have hq : ∀ p ∈ qs, p.env.global = g := fun p hp => filePieces_env p1 hE p (p3.mem_iff.2 hp)
  have i3 := reads_same hb p4 hq i2
  have hpm : (items.map dec).Perm (items'.map dec) := i1.map _
  obtain ⟨N', hN'⟩ := pieces_files hb (good_perm hpm k4) p2 hE' items' [] B i3 (grown_refl hb.otyps) (by simp)
    (fun x hx' a ha τ p n hh => by
      obtain ⟨q1, q2⟩ := hx k4 x (i1.mem_iff.2 hx') a ha τ p n hh
      exact ⟨q1, fun d hd => q2 d (hpm.mem_iff.2 hd)⟩)
  exact ⟨items', N', i1, hN'⟩

end Verif.Lemmas.Rearrange
