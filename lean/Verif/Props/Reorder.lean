import Verif.Props.Resection
import Verif.Lemmas.Reorder
/-!
# The order of assignments (C97)
-/
namespace Verif.Props
open Verif.Model Verif.Spec Verif.Lemmas Verif.Lemmas.Rearrange

theorem reordered_mono {S S' : List (List Sep)} (hS : ∀ ss ∈ S', ss ∈ S) {p p' : Piece} (h : Reordered S p p') : Reordered S' p p' := by
  obtain ⟨n, x, b, as, as', k, h1, h2, h3, h4, h5, h6, h7⟩ := h.toks
  exact ⟨⟨h.global, h.pkg, h.imports, h.resolved⟩, n, x, b, as, as', k, h1, h2, h3, h4, h5,
    fun a ha => ⟨(h6 a ha).1, fun t ht ss hss => (h6 a ha).2 t ht ss (hS ss hss)⟩, h7⟩

theorem append_split {α β : Type} {R : α → β → Prop} : ∀ (a : List α) {b : List α} {l : List β}, List.Forall₂ R (a ++ b) l →
    ∃ c d, l = c ++ d ∧ List.Forall₂ R a c ∧ List.Forall₂ R b d
  | [], _, l, h => ⟨[], l, rfl, .nil, h⟩
  | x :: a, _, _, h => by
    cases h with
    | cons h1 h =>
      obtain ⟨c, d, rfl, h2, h3⟩ := append_split a h
      exact ⟨_ :: c, d, rfl, .cons h1 h2, h3⟩

theorem flatten_split {α β : Type} {R : α → β → Prop} : ∀ (as : List (List α)) {l : List β}, List.Forall₂ R as.flatten l →
    ∃ bs : List (List β), l = bs.flatten ∧ List.Forall₂ (List.Forall₂ R) as bs
  | [], _, h => by
    cases h
    exact ⟨[], rfl, .nil⟩
  | a :: as, l, h => by
    rw [List.flatten_cons] at h
    obtain ⟨c, d, rfl, h1, h2⟩ := append_split a h
    obtain ⟨bs, rfl, h3⟩ := flatten_split as h2
    exact ⟨c :: bs, rfl, .cons h1 h3⟩

theorem flatten_join {α β : Type} {R : α → β → Prop} {as : List (List α)} {bs : List (List β)}
    (h : List.Forall₂ (List.Forall₂ R) as bs) : List.Forall₂ R as.flatten bs.flatten := by
  induction h with
  | nil => exact .nil
  | cons h _ ih => exact List.rel_append h ih

theorem sepTok_same {E E' : FileEnv} {t t' : Token} (h : SameTok E E' t t') {sp : Sep} (hs : SepTok sp t') : SepTok sp t := by
  cases sp with
  | kind k => exact h.kind.symm.trans hs
  | ident v => exact ⟨h.kind.symm.trans hs.1, h.value.symm.trans hs.2⟩

theorem assignShape_same {E E' : FileEnv} {S : List (List Sep)} {a a' : List Token} (h : List.Forall₂ (SameTok E E') a a')
    (ha : AssignShape a ∧ NoSeparator S a) : AssignShape a' ∧ NoSeparator S a' := by
  obtain ⟨⟨x, y, v, rfl, h1, h2, h3⟩, h4⟩ := ha
  cases h with
  | cons k1 h =>
    cases h with
    | cons k2 k3 =>
      refine ⟨⟨_, _, _, rfl, k1.kind.trans h1, k2.kind.trans h2, fun t ht => ?_⟩, fun t ht ss hss sp hsp hx => ?_⟩
      · obtain ⟨u, hu, hut⟩ := forall₂_to k3 t ht
        rw [hut.kind]
        exact h3 u hu
      · cases ht
        exact h4 x rfl ss hss sp hsp (sepTok_same k1 hx)

theorem nameShape_same {E E' : FileEnv} {n n' : List Token} (h : List.Forall₂ (SameTok E E') n n') (hn : NameShape n) :
    NameShape n' := by
  rcases hn with ⟨t, rfl, h1⟩ | ⟨t, d, t', rfl, h1, h2, h3⟩
  · cases h with
    | cons k1 h => cases h; exact .inl ⟨_, rfl, k1.kind.trans h1⟩
  · cases h with
    | cons k1 h =>
      cases h with
      | cons k2 h =>
        cases h with
        | cons k3 h => cases h; exact .inr ⟨_, _, _, rfl, k1.kind.trans h1, k2.kind.trans h2, k3.kind.trans h3⟩

theorem reordered_symm {S : List (List Sep)} {p p' : Piece} (h : Reordered S p p') : Reordered S p' p := by
  obtain ⟨n, x, b, as, as', k, h1, h2, h3, h4, h5, h6, h7, h8⟩ := h.toks
  rw [List.append_assoc] at h8
  obtain ⟨n', r', a3, a1, a2⟩ := append_split n h8
  cases a2 with
  | @cons _ x' _ r1 b1 a2 =>
    cases a2 with
    | @cons _ b' _ r2 b2 a2 =>
      obtain ⟨m, q, rfl, c1, c2⟩ := append_split as'.flatten a2
      cases c2 with
      | @cons _ k' _ _ b3 c2 =>
        cases c2
        obtain ⟨bs, rfl, d⟩ := flatten_split as' c1
        obtain ⟨bs', d1, d2⟩ := f2_perm h7.symm d
        refine ⟨⟨h.global.symm, h.pkg.symm, h.imports.symm, h.resolved.symm⟩, n', x', b', bs, bs', k', ?_,
          nameShape_same a1 h2, b1.kind.trans h3, b2.kind.trans h4, b3.kind.trans h5, ?_, d1, ?_⟩
        · rw [a3]
          simp
        · intro a ha
          obtain ⟨u, hu, hua⟩ := forall₂_to d a ha
          exact assignShape_same hua (h6 u (h7.mem_iff.2 hu))
        · rw [h1, List.append_assoc, List.append_assoc]
          have e1 : List.Forall₂ (SameTok p.env p'.env) (n ++ (x :: b :: as.flatten ++ [k])) (n' ++ (x' :: b' :: bs'.flatten ++ [k'])) :=
            List.rel_append a1 (.cons b1 (.cons b2 (List.rel_append (flatten_join d2) (.cons b3 .nil))))
          exact e1.flip.imp fun _ _ h => sameTok_symm h

section
variable {o : Options} {X : Outside} {required : List CU → Finset PNode} {fs fs' : List Source} {s : PS}

/-- **C97**, as far as it holds: the order of the assignments in an object does not matter.  If the assignments of some objects are
written in another order, then a project that was processed without errors still is; the declarations are the same, and the
objects have the same values (and may be in another order and in other sections, as in C96).  Missing: this is shown for objects
in which no component has the name of a separator of a tuple type.  For others it is wrong, see `C97_order_matters`. -/
theorem C97_order_partial {g : STab} {ls ls' : List Loaded} {s1 s1' : PS} (hb : Blank s) (hp : o.parseTrlc = true)
    (hX : o.lint = true → LintsDecls X) (m : Alike required s fs fs' g ls ls' s1 s1')
    (ht : RearrangedBy (Reordered (process o X required fs s).state.seps)
      ((trlcFiles (required (ls.map (·.cu))) ls).map (·.openFile g o.recover))
      ((trlcFiles (required (ls'.map (·.cu))) ls').map (·.openFile g o.recover)))
    (h : (process o X required fs s).out = .table) (he : (process o X required fs s).state.errs = s.errs) :
    (process o X required fs' s).out = .table ∧ (process o X required fs' s).state.errs = s.errs ∧
      (process o X required fs' s).state.decls = (process o X required fs s).state.decls ∧
      (process o X required fs' s).state.infos = (process o X required fs s).state.infos ∧
      (process o X required fs' s).state.seps = (process o X required fs s).state.seps ∧
      (process o X required fs' s).state.checks = (process o X required fs s).state.checks ∧
      SameContent (process o X required fs s).state.objs (process o X required fs' s).state.objs :=
  run_again (fun _ hi hs e _ _ _ hE hd hr => readsAs_reordered (base_of_inv hi) hs hE (by rw [← e] at hd; exact hd) hr)
    hb hp hX m ht h he

/-- **C97**, as far as it holds: in particular the changed project is processed without errors iff the original one is.
`S` are any separators including those of both projects. -/
theorem C97_order_iff_partial {g : STab} {ls ls' : List Loaded} {s1 s1' : PS} {S : List (List Sep)} (hb : Blank s)
    (hp : o.parseTrlc = true) (hX : o.lint = true → LintsDecls X) (m : Alike required s fs fs' g ls ls' s1 s1')
    (hS : ∀ ss ∈ (process o X required fs s).state.seps, ss ∈ S) (hS' : ∀ ss ∈ (process o X required fs' s).state.seps, ss ∈ S)
    (ht : RearrangedBy (Reordered S) ((trlcFiles (required (ls.map (·.cu))) ls).map (·.openFile g o.recover))
      ((trlcFiles (required (ls'.map (·.cu))) ls').map (·.openFile g o.recover))) :
    ((process o X required fs s).out = .table ∧ (process o X required fs s).state.errs = s.errs) ↔
      (process o X required fs' s).out = .table ∧ (process o X required fs' s).state.errs = s.errs := by
  have m' : Alike required s fs' fs g ls' ls s1' s1 :=
    ⟨m.read', m.read, m.quiet', m.quiet, m.clean', m.clean, m.lexed', m.lexed, m.rsl.symm, m.rslFiles.symm⟩
  obtain ⟨ps, qs, ps', h1, h2, h3, h4⟩ := ht
  obtain ⟨rs, h5, h6⟩ := Rearrange.f2_perm h3.symm h4
  constructor
  · intro h
    have := C97_order_partial hb hp hX m ⟨ps, qs, ps', h1, h2, h3, h4.imp fun _ _ h => reordered_mono hS h⟩ h.1 h.2
    exact ⟨this.1, this.2.1⟩
  · intro h
    have := C97_order_partial hb hp hX m' ⟨ps', rs, ps, h2, h1, h5, h6.flip.imp fun _ _ h => reordered_mono hS' (reordered_symm h)⟩ h.1 h.2
    exact ⟨this.1, this.2.1⟩

end
end Verif.Props
