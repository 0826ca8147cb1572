import Verif.Lemmas.RearrangeRefs
/-!
# Files with the same declarations in other words
-/
namespace Verif.Lemmas.Rearrange
open Verif.Model Verif.Spec Verif.Lemmas

/-- The same object with the same assignments in any order, possibly in other sections -/
structure Again (x x' : Obj × List (String × PVal)) : Prop where
  pkg    : x'.1.pkg = x.1.pkg
  name   : x'.1.name = x.1.name
  typ    : x'.1.typ = x.1.typ
  fields : x'.1.fields = x.1.fields
  asg    : x.2.Perm x'.2

variable {g : STab} {B : Names}

theorem again_dec {l l' : List (Obj × List (String × PVal))} (h : List.Forall₂ Again l l') : l'.map dec = l.map dec := by
  induction h with
  | nil => rfl
  | cons h _ ih =>
    simp only [List.map_cons, ih]
    unfold dec
    rw [h.pkg, h.name, h.typ]

theorem again_from {D : Decls} {infos : List RecInfo} {x x' : Obj × List (String × PVal)} (h : Again x x')
    (k : ObjFrom D infos x.2 x.1) : ObjFrom D infos x'.2 x'.1 := by
  have hm : ∀ n, n ∉ x'.2.map Prod.fst ↔ n ∉ x.2.map Prod.fst := fun n => not_congr (h.asg.map _).mem_iff.symm
  obtain ⟨k1, k2, k3, k4, k5⟩ := k
  unfold ObjFrom
  rw [h.typ, h.fields]
  refine ⟨k1, (h.asg.map _).nodup_iff.1 k2, fun p hp => k3 p (h.asg.mem_iff.2 hp), fun p hp => k4 p (h.asg.mem_iff.2 hp), fun c hc => ?_⟩
  obtain ⟨n, l1, l2⟩ := k5 c hc
  refine ⟨n, l1, ?_⟩
  rcases l2 with ⟨v, a, b⟩ | ⟨a, b⟩ | ⟨a, b⟩
  · exact .inl ⟨v, h.asg.mem_iff.1 a, b⟩
  · exact .inr (.inl ⟨(hm _).2 a, b⟩)
  · exact .inr (.inr ⟨(hm _).2 a, b⟩)

theorem reads_again {T : Piece → Piece → Prop}
    (hT : ∀ p p' x, p.env.global = g → T p p' → ReadsAs g B p x → ∃ x', Again x x' ∧ ReadsAs g B p' x')
    {ps ps' : List Piece} (h : List.Forall₂ T ps ps') :
    ∀ {items : List (Obj × List (String × PVal))}, (∀ p ∈ ps, p.env.global = g) → List.Forall₂ (ReadsAs g B) ps items →
    ∃ items', List.Forall₂ Again items items' ∧ List.Forall₂ (ReadsAs g B) ps' items' := by
  induction h with
  | nil =>
    intro items _ h
    cases h
    exact ⟨[], .nil, .nil⟩
  | cons h1 h2 ih =>
    intro items hE h
    obtain ⟨y, m, rfl, k1, k2⟩ := f2_cons h
    obtain ⟨y', a1, a2⟩ := hT _ _ _ (hE _ (by simp)) h1 k1
    obtain ⟨m', b1, b2⟩ := ih (fun p hp => hE p (by simp [hp])) k2
    exact ⟨y' :: m', .cons a1 b1, .cons a2 b2⟩

/-- What is written in some files is also written in files with corresponding declarations, with the objects in another order. -/
theorem again_written {T : Piece → Piece → Prop}
    (hT : ∀ p p' x, p.env.global = g → T p p' → ReadsAs g B p x → ∃ x', Again x x' ∧ ReadsAs g B p' x')
    (hb : Base g B) (hs : SepsOk B.seps) {fs fs' : List OpenFile} (hE : ∀ f ∈ fs, f.env.global = g)
    (hE' : ∀ f ∈ fs', f.env.global = g) (hr : RearrangedBy T fs fs') {items : List (Obj × List (String × PVal))} {N : Names}
    (h : WrittenFiles B 0 fs items N) (hx : Good g B (items.map dec) → ∀ x ∈ items, RefsOk B (items.map dec) x) :
    ∃ items' items'' N', items.Perm items' ∧ List.Forall₂ Again items' items'' ∧ WrittenFiles B 0 fs' items'' N' := by
  obtain ⟨ps, qs, ps', p1, p2, p3, p4⟩ := hr
  obtain ⟨ps0, k1, k2, -, k4⟩ := files_pieces hb hs h hE [] rfl (grown_refl hb.otyps)
    ⟨(fun d hd => by cases hd), List.Pairwise.nil⟩
  rw [List.nil_append] at k4
  cases filePieces_unique k1 p1
  obtain ⟨items', i1, i2⟩ := f2_perm p3 k2
  have hq : ∀ p ∈ qs, p.env.global = g := fun p hp => filePieces_env p1 hE p (p3.mem_iff.2 hp)
  obtain ⟨items'', i3, i4⟩ := reads_again hT p4 hq i2
  have hpm : (items.map dec).Perm (items''.map dec) := by rw [again_dec i3]; exact i1.map _
  have hto : ∀ {l l' : List (Obj × List (String × PVal))}, List.Forall₂ Again l l' → ∀ y ∈ l', ∃ x ∈ l, Again x y := by
    intro l l' h
    induction h with
    | nil => intro y hy; cases hy
    | cons h1 _ ih =>
      intro y hy
      rcases List.mem_cons.1 hy with rfl | hy
      · exact ⟨_, by simp, h1⟩
      · obtain ⟨x, a, b⟩ := ih y hy
        exact ⟨x, by simp [a], b⟩
  obtain ⟨N', hN'⟩ := pieces_files hb (good_perm hpm k4) p2 hE' items'' [] B i4 (grown_refl hb.otyps) (by simp)
    (fun y hy a ha τ p n hh => by
      obtain ⟨x, hx', hxy⟩ := hto i3 y hy
      obtain ⟨q1, q2⟩ := hx k4 x (i1.mem_iff.2 hx') a (hxy.asg.mem_iff.2 ha) τ p n hh
      exact ⟨q1, fun d hd => q2 d (hpm.mem_iff.2 hd)⟩)
  exact ⟨items', items'', N', i1, i3, hN'⟩

theorem readsAs_decl (hb : Base g B) {p p' : Piece} {x : Obj × List (String × PVal)} (hE : p.env.global = g)
    (h : SameDecl p p') (hr : ReadsAs g B p x) : ∃ x', Again x x' ∧ ReadsAs g B p' x' := by
  obtain ⟨h1, -, h2⟩ := readsAs_same hb (p' := { p' with sects := p.sects }) hE ⟨⟨⟨h.global, h.pkg, h.imports, h.resolved⟩, h.toks⟩, rfl⟩ hr
  exact ⟨({ x.1 with sects := p'.sects }, x.2), ⟨rfl, rfl, rfl, rfl, .refl _⟩, h1, rfl, h2⟩

end Verif.Lemmas.Rearrange
