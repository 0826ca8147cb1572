import Verif.Props.Rearrange
import Verif.Lemmas.Resection
/-!
# Sections only group requirements (C96)
-/
namespace Verif.Props
open Verif.Model Verif.Spec Verif.Lemmas Verif.Lemmas.Rearrange

/-- the objects of two runs are the same, in some order, possibly in other sections -/
def SameContent (objs objs' : List Obj) : Prop := ∃ qs, objs.Perm qs ∧ List.Forall₂ SameData qs objs'

theorem SameContent.data {objs objs' : List Obj} (h : SameContent objs objs') : ∀ o' ∈ objs', ∃ o ∈ objs, SameData o o' := by
  obtain ⟨qs, h1, h2⟩ := h
  intro o' ho
  obtain ⟨o, h3, h4⟩ := forall₂_to h2 o' ho
  exact ⟨o, h1.mem_iff.2 h3, h4⟩

theorem SameContent.from {objs objs' : List Obj} (h : SameContent objs objs') : ∀ o ∈ objs, ∃ o' ∈ objs', SameData o o' := by
  obtain ⟨qs, h1, h2⟩ := h
  intro o ho
  exact forall₂_from h2 o (h1.mem_iff.1 ho)

/-- trlc files with corresponding declarations are accepted as well, and have the same objects -/
theorem again_objects {T : Piece → Piece → Prop} {g : STab} {s s1 t : PS} {fs fs' : List OpenFile} (hi : RslInv g s) (hs : SepsOk s.seps)
    (hT : ∀ p p' x, p.env.global = g → T p p' → ReadsAs g (namesOf s) p x → ∃ x', Again x x' ∧ ReadsAs g (namesOf s) p' x')
    (ht : SameBut (worldOf t) (worldOf s))
    (hE : ∀ f ∈ fs, f.env.global = g) (hE' : ∀ f ∈ fs', f.env.global = g) (hc : ∀ f ∈ fs', CleanFile f)
    (hr : RearrangedBy T fs fs') (h : runTrlcFiles fs s = .ok true s1) (he : s1.errs = s.errs)
    (ha : AllResolved s.decls s1.objs) :
    ∃ s2, runTrlcFiles fs' t = .ok true s2 ∧ s2.errs = t.errs ∧ AllResolved s.decls s2.objs ∧ SameContent s1.objs s2.objs := by
  have hw := hi.sound.world
  have td : t.decls = s.decls := congrArg World.decls ht
  have ti : t.infos = s.infos := congrArg World.infos ht
  have tn : namesOf t = namesOf s := congrArg World.names ht
  have tob : t.objs = [] := by
    have h1 : t.objs.map (·.typ) = s.objs.map (·.typ) := congrArg World.otyps ht
    rw [hi.objs] at h1
    simpa using h1
  have hw' : WorldOk t.decls t.infos := by rw [td, ti]; exact hw
  have hb := base_of_inv hi
  obtain ⟨items, e1, h1, h2⟩ := C61_objects_written hw hi.objs h he
  have fine : ∀ o ∈ s1.objs, ∀ f ∈ o.fields, Fine s.decls s1.objs f.2.val := by
    intro o ho
    obtain ⟨i, hi⟩ := List.mem_iff_getElem?.1 ho
    exact (resolvedObj_fine o.fields).1 (ha i o hi)
  obtain ⟨items', items'', N', p1, p3, p2⟩ := again_written hT hb hs hE hE' hr h1 (fun hg x hx =>
    refsOk_of hb hg (h2 x hx) (by
      intro f hf
      have := fine x.1 (by rw [e1]; exact List.mem_map_of_mem hx) f hf
      rw [e1] at this
      exact this))
  have h2' : ∀ y ∈ items'', ObjFrom s.decls s.infos y.2 y.1 := by
    intro y hy
    obtain ⟨x, hx, hxy⟩ := forall₂_to p3 y hy
    exact again_from hxy (h2 x (p1.mem_iff.2 hx))
  obtain ⟨s2, k1, k2, -, k3⟩ := C73_trlc_accepted (s := t) hw' tob hc (by rw [tn]; exact p2) (by rw [td, ti]; exact h2')
  rw [td, ti] at k3
  have hso : SameContent s1.objs s2.objs := by
    refine ⟨items'.map Prod.fst, by rw [e1]; exact p1.map _, ?_⟩
    rw [List.forall₂_map_left_iff]
    have cp : ∀ x ∈ items', ObjComplete s.decls s.infos x.1 := by
      intro x hx
      have ho : x.1 ∈ s1.objs := by rw [e1]; exact List.mem_map_of_mem (p1.mem_iff.2 hx)
      obtain ⟨i, hi'⟩ := List.mem_iff_getElem?.1 ho
      exact (C32_all_complete hw hi.objs h i x.1 hi').1
    have cp' : ∀ o ∈ s2.objs, ObjComplete s.decls s.infos o := by
      intro o ho
      obtain ⟨i, hi'⟩ := List.mem_iff_getElem?.1 ho
      have := (C32_all_complete hw' tob k1 i o hi').1
      rw [td, ti] at this
      exact this
    have key : ∀ {k l : List (Obj × List (String × PVal))} {l' : List Obj}, List.Forall₂ Again k l →
        List.Forall₂ (AsWritten s.decls s.infos) l l' → (∀ x ∈ k, x ∈ items') → (∀ o ∈ l', o ∈ s2.objs) →
        List.Forall₂ (fun a c => SameData a.1 c) k l' := by
      intro k l l' hk
      induction hk generalizing l' with
      | nil => intro h _ _; cases h; exact .nil
      | cons h3 _ ih =>
        intro hl m1 m2
        cases hl with
        | cons h4 hl =>
          refine .cons ?_ (ih hl (fun x hx => m1 x (by simp [hx])) (fun x hx => m2 x (by simp [hx])))
          have hm := m1 _ List.mem_cons_self
          have hx := sameObject_of hi.sound (again_from h3 (h2 _ (p1.mem_iff.2 hm))) h4
            (by have := cp _ hm; unfold ObjComplete at this ⊢; rw [h3.typ, h3.fields]; exact this) (cp' _ (m2 _ List.mem_cons_self))
          exact ⟨hx.pkg.trans h3.pkg, hx.name.trans h3.name, hx.typ.trans h3.typ, fun n => by rw [hx.values n, h3.fields]⟩
    exact key p3 k3 (fun _ h => h) (fun _ h => h)
  refine ⟨s2, k1, k2, ?_, hso⟩
  intro i ob hob
  rw [resolvedObj_fine]
  intro f hf
  obtain ⟨o, ho, hsame⟩ := hso.data ob (List.mem_of_getElem? hob)
  have hcomp := (C32_all_complete hw' tob k1 i ob hob).1
  have hl := Rearrange.mem_lookup hcomp.2.2 (k := f.1) (v := f.2) hf
  have hv := hsame.values f.1
  rw [hl] at hv
  cases hlo : o.fields.lookup f.1 with
  | none => rw [hlo] at hv; cases hv
  | some n =>
    rw [hlo] at hv
    simp only [Option.map_some, Option.some.injEq] at hv
    rw [hv]
    refine fine_mono (fun x hx => ?_) (fine o ho _ (Rearrange.lookup_mem hlo))
    obtain ⟨y, hy, hxy⟩ := hso.from x hx
    exact ⟨y, hy, hxy.pkg, hxy.name, hxy.typ⟩

section
variable {o : Options} {X : Outside} {required : List CU → Finset PNode} {fs fs' : List Source} {s : PS}

/-- projects with corresponding declarations of objects -/
theorem run_again {T : Piece → Piece → Prop} {g : STab} {ls ls' : List Loaded} {s1 s1' : PS}
    (hT : ∀ s2 : PS, RslInv g s2 → SepsOk s2.seps → s2.seps = (process o X required fs s).state.seps → ∀ p p' x, p.env.global = g → T p p' → ReadsAs g (namesOf s2) p x →
      ∃ x', Again x x' ∧ ReadsAs g (namesOf s2) p' x') (hb : Blank s) (hp : o.parseTrlc = true)
    (hX : o.lint = true → LintsDecls X) (m : Alike required s fs fs' g ls ls' s1 s1')
    (ht : RearrangedBy T ((trlcFiles (required (ls.map (·.cu))) ls).map (·.openFile g o.recover))
      ((trlcFiles (required (ls'.map (·.cu))) ls').map (·.openFile g o.recover)))
    (h : (process o X required fs s).out = .table) (he : (process o X required fs s).state.errs = s.errs) :
    (process o X required fs' s).out = .table ∧ (process o X required fs' s).state.errs = s.errs ∧
      (process o X required fs' s).state.decls = (process o X required fs s).state.decls ∧
      (process o X required fs' s).state.infos = (process o X required fs s).state.infos ∧
      (process o X required fs' s).state.seps = (process o X required fs s).state.seps ∧
      (process o X required fs' s).state.checks = (process o X required fs s).state.checks ∧
      SameContent (process o X required fs s).state.objs (process o X required fs' s).state.objs := by
  obtain ⟨s3, k1, k2, k3, k4, k5, k6, k7, -⟩ := run_alike (Q := fun a b => SameContent a b ∧ AllResolved (process o X required fs s).state.decls b)
    hb hp hX m h he (fun _ _ h => h.1.data) (by
      intro s2 t hi hs ht' hE hE' hc h1 h2 h3
      obtain ⟨s3, a1, a2, a3, a4⟩ := again_objects hi hs (hT s2 hi hs (run_kept hi.sound.world h1).seps.symm) (sameBut_of ht') hE hE' hc ht h1 h2 h3
      exact ⟨s3, a1, a2, a4, by rw [(run_kept hi.sound.world h1).decls]; exact a3⟩)
  obtain ⟨l1, l2⟩ := k7 (by rw [k2]; exact k6.2)
  rw [l2]
  exact ⟨l1, k1, k2, k3, k4, k5, k6.1⟩

/-- **C96**: sections only group requirements.  If requirements are moved into other sections (within a file or to another
file of the same package with the same imports), sections are renamed, added or removed, then a project that was processed without
errors still is; the declarations are the same, and the objects are the same apart from their order and sections. -/
theorem C96_sections {g : STab} {ls ls' : List Loaded} {s1 s1' : PS} (hb : Blank s) (hp : o.parseTrlc = true)
    (hX : o.lint = true → LintsDecls X) (m : Alike required s fs fs' g ls ls' s1 s1')
    (ht : RearrangedBy SameDecl ((trlcFiles (required (ls.map (·.cu))) ls).map (·.openFile g o.recover))
      ((trlcFiles (required (ls'.map (·.cu))) ls').map (·.openFile g o.recover)))
    (h : (process o X required fs s).out = .table) (he : (process o X required fs s).state.errs = s.errs) :
    (process o X required fs' s).out = .table ∧ (process o X required fs' s).state.errs = s.errs ∧
      (process o X required fs' s).state.decls = (process o X required fs s).state.decls ∧
      (process o X required fs' s).state.infos = (process o X required fs s).state.infos ∧
      (process o X required fs' s).state.seps = (process o X required fs s).state.seps ∧
      (process o X required fs' s).state.checks = (process o X required fs s).state.checks ∧
      SameContent (process o X required fs s).state.objs (process o X required fs' s).state.objs :=
  run_again (fun _ hi _ _ _ _ _ hE hd hr => readsAs_decl (base_of_inv hi) hE hd hr) hb hp hX m ht h he

theorem sameDecl_symm {p p' : Piece} (h : SameDecl p p') : SameDecl p' p :=
  ⟨⟨h.global.symm, h.pkg.symm, h.imports.symm, h.resolved.symm⟩, h.toks.flip.imp fun _ _ h => sameTok_symm h⟩

/-- **C96**: in particular the changed project is processed without errors iff the original one is. -/
theorem C96_sections_iff {g : STab} {ls ls' : List Loaded} {s1 s1' : PS} (hb : Blank s) (hp : o.parseTrlc = true)
    (hX : o.lint = true → LintsDecls X) (m : Alike required s fs fs' g ls ls' s1 s1')
    (ht : RearrangedBy SameDecl ((trlcFiles (required (ls.map (·.cu))) ls).map (·.openFile g o.recover))
      ((trlcFiles (required (ls'.map (·.cu))) ls').map (·.openFile g o.recover))) :
    ((process o X required fs s).out = .table ∧ (process o X required fs s).state.errs = s.errs) ↔
      (process o X required fs' s).out = .table ∧ (process o X required fs' s).state.errs = s.errs := by
  have m' : Alike required s fs' fs g ls' ls s1' s1 :=
    ⟨m.read', m.read, m.quiet', m.quiet, m.clean', m.clean, m.lexed', m.lexed, m.rsl.symm, m.rslFiles.symm⟩
  have ht' : RearrangedBy SameDecl ((trlcFiles (required (ls'.map (·.cu))) ls').map (·.openFile g o.recover))
      ((trlcFiles (required (ls.map (·.cu))) ls).map (·.openFile g o.recover)) := by
    obtain ⟨ps, qs, ps', h1, h2, h3, h4⟩ := ht
    obtain ⟨rs, h5, h6⟩ := Rearrange.f2_perm h3.symm h4
    exact ⟨ps', rs, ps, h2, h1, h5, h6.flip.imp fun _ _ h => sameDecl_symm h⟩
  exact ⟨fun h => ⟨(C96_sections hb hp hX m ht h.1 h.2).1, (C96_sections hb hp hX m ht h.1 h.2).2.1⟩,
    fun h => ⟨(C96_sections hb hp hX m' ht' h.1 h.2).1, (C96_sections hb hp hX m' ht' h.1 h.2).2.1⟩⟩

end
end Verif.Props
