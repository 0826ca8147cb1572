import Verif.Props.Rearrange
import Verif.Lemmas.Removed
/-!
# Removing requirements (C94)
-/
namespace Verif.Props
open Verif.Model Verif.Spec Verif.Lemmas Verif.Lemmas.Rearrange

/-- The second objects are the same as some of the first, which are those for which `S` holds. -/
def SameAsSome (S : Nat → List Char → Prop) (objs objs' : List Obj) : Prop :=
  ∃ kept gone, objs.Perm (kept ++ gone) ∧ List.Forall₂ SameObject kept objs' ∧ (∀ o ∈ kept, S o.pkg o.name) ∧
    ∀ o ∈ gone, ¬ S o.pkg o.name

theorem SameAsSome.to {S : Nat → List Char → Prop} {objs objs' : List Obj} (h : SameAsSome S objs objs') :
    ∀ o' ∈ objs', ∃ o ∈ objs, SameData o o' := by
  obtain ⟨kept, gone, h1, h2, -⟩ := h
  intro o' ho
  obtain ⟨o, h3, h4⟩ := forall₂_to h2 o' ho
  exact ⟨o, h1.mem_iff.2 (List.mem_append_left _ h3), h4.toSameData⟩

/-- trlc files with some of the declarations are accepted, and have the same objects; their references can be resolved iff they do
not refer to the other objects -/
theorem thinned_objects {g : STab} {s s1 t : PS} {fs fs' : List OpenFile} {ks : List Piece} (hi : RslInv g s) (hs : SepsOk s.seps)
    (ht : worldOf t = worldOf s)
    (hE : ∀ f ∈ fs, f.env.global = g) (hE' : ∀ f ∈ fs', f.env.global = g) (hc : ∀ f ∈ fs', CleanFile f)
    (hr : Thinned fs fs' ks) (h : runTrlcFiles fs s = .ok true s1) (he : s1.errs = s.errs)
    (ha : AllResolved s.decls s1.objs) :
    ∃ s2, runTrlcFiles fs' t = .ok true s2 ∧ s2.errs = t.errs ∧ SameAsSome (Stays ks) s1.objs s2.objs ∧
      (AllResolved s.decls s2.objs ↔ SelfContained ks s1.objs) := by
  have hw := hi.sound.world
  have td : t.decls = s.decls := congrArg World.decls ht
  have ti : t.infos = s.infos := congrArg World.infos ht
  have tn : namesOf t = namesOf s := congrArg World.names ht
  have tob : t.objs = [] := by
    have h1 : t.objs.map (·.typ) = s.objs.map (·.typ) := congrArg World.otyps ht
    rw [hi.objs] at h1
    simpa using h1
  have hw' : WorldOk t.decls t.infos := by rw [td, ti]; exact hw
  have hb := base_of_inv hi
  obtain ⟨items, e1, h1, h2⟩ := C61_objects_written hw hi.objs h he
  have fine : ∀ o ∈ s1.objs, ∀ f ∈ o.fields, Fine s.decls s1.objs f.2.val := by
    intro o ho
    obtain ⟨i, hi⟩ := List.mem_iff_getElem?.1 ho
    exact (resolvedObj_fine o.fields).1 (ha i o hi)
  obtain ⟨kept, gone, N', p1, p2, p3, p4⟩ := thinned_written hb hs hE hE' hr h1 (fun hg x hx =>
    refsOk_of hb hg (h2 x hx) (by
      intro f hf
      have := fine x.1 (by rw [e1]; exact List.mem_map_of_mem hx) f hf
      rw [e1] at this
      exact this))
  have h2' : ∀ x ∈ kept, ObjFrom s.decls s.infos x.2 x.1 := fun x hx => h2 x (p1.mem_iff.2 (List.mem_append_left _ hx))
  obtain ⟨s2, k1, k2, -, k3⟩ := C73_trlc_accepted (s := t) hw' tob hc (by rw [tn]; exact p2) (by rw [td, ti]; exact h2')
  rw [td, ti] at k3
  have hsame : List.Forall₂ (fun a c => SameObject a.1 c) kept s2.objs := by
    have cp : ∀ o ∈ s1.objs, ObjComplete s.decls s.infos o := by
      intro o ho
      obtain ⟨i, hi'⟩ := List.mem_iff_getElem?.1 ho
      exact (C32_all_complete hw hi.objs h i o hi').1
    have cp' : ∀ o ∈ s2.objs, ObjComplete s.decls s.infos o := by
      intro o ho
      obtain ⟨i, hi'⟩ := List.mem_iff_getElem?.1 ho
      have := (C32_all_complete hw' tob k1 i o hi').1
      rw [td, ti] at this
      exact this
    have key : ∀ {l : List (Obj × List (String × PVal))} {l' : List Obj}, List.Forall₂ (AsWritten s.decls s.infos) l l' →
        (∀ x ∈ l, x ∈ kept) → (∀ o ∈ l', o ∈ s2.objs) → List.Forall₂ (fun a c => SameObject a.1 c) l l' := by
      intro l l' hl
      induction hl with
      | nil => intro _ _; exact .nil
      | cons h3 _ ih =>
        intro m1 m2
        refine .cons ?_ (ih (fun x hx => m1 x (by simp [hx])) (fun x hx => m2 x (by simp [hx])))
        have hm := m1 _ List.mem_cons_self
        exact sameObject_of hi.sound (h2' _ hm) h3
          (cp _ (by rw [e1]; exact List.mem_map_of_mem (p1.mem_iff.2 (List.mem_append_left _ hm))))
          (cp' _ (m2 _ List.mem_cons_self))
    exact key k3 (fun _ h => h) (fun _ h => h)
  -- different objects have different names
  have hpw : (kept ++ gone).Pairwise fun x y => x.1.pkg = y.1.pkg → x.1.name ≠ y.1.name := by
    have hg := good_perm (p1.map dec) p4
    have := hg.distinct
    rw [List.pairwise_map] at this
    exact this.imp fun hxy e1 e2 => hxy e1 (congrArg simplifiedName e2)
  have huniq : ∀ x ∈ items, ∀ y ∈ items, x.1.pkg = y.1.pkg → x.1.name = y.1.name → x = y := by
    intro x hx y hy ex ey
    by_contra hne
    have : Std.Symm fun x y : Obj × List (String × PVal) => x.1.pkg = y.1.pkg → x.1.name ≠ y.1.name :=
      ⟨fun x y hxy e1 e2 => hxy e1.symm e2.symm⟩
    exact hpw.forall (p1.mem_iff.1 hx) (p1.mem_iff.1 hy) hne ex ey
  have hst : ∀ {p n}, Stays ks p n ↔ ∃ x ∈ kept, x.1.pkg = p ∧ x.1.name = n := fun {p n} => stays_iff p3
  have hkept : ∀ x ∈ kept, x.1 ∈ s1.objs := fun x hx => by
    rw [e1]; exact List.mem_map_of_mem (p1.mem_iff.2 (List.mem_append_left _ hx))
  have hin : ∀ x ∈ kept, x ∈ items := fun x hx => p1.mem_iff.2 (List.mem_append_left _ hx)
  refine ⟨s2, k1, k2, ⟨kept.map Prod.fst, gone.map Prod.fst, ?_, ?_, ?_, ?_⟩, ?_⟩
  · rw [e1, ← List.map_append]
    exact p1.map _
  · rw [List.forall₂_map_left_iff]
    exact hsame
  · intro o ho
    obtain ⟨x, hx, rfl⟩ := List.mem_map.1 ho
    exact hst.2 ⟨x, hx, rfl, rfl⟩
  · intro o ho hs
    obtain ⟨y, hy, rfl⟩ := List.mem_map.1 ho
    obtain ⟨x, hx, e1, e2⟩ := hst.1 hs
    exact (List.pairwise_append.1 hpw).2.2 x hx y hy e1 e2
  · constructor
    · intro hres o ho hso f hf
      obtain ⟨x, hx, ex, ey⟩ := hst.1 hso
      obtain ⟨o', ho', hxo⟩ := forall₂_from hsame x hx
      have hox : o = x.1 := by
        rw [e1] at ho
        obtain ⟨y, hy, rfl⟩ := List.mem_map.1 ho
        rw [huniq x (hin x hx) y hy ex ey]
      subst hox
      obtain ⟨i, hi'⟩ := List.mem_iff_getElem?.1 ho
      have hl := Rearrange.mem_lookup (C32_all_complete hw hi.objs h i _ hi').1.2.2 (k := f.1) (v := f.2) hf
      have hv := hxo.values f.1
      rw [hl] at hv
      cases hlo : o'.fields.lookup f.1 with
      | none => rw [hlo] at hv; cases hv
      | some n' =>
        rw [hlo] at hv
        simp only [Option.map_some, Option.some.injEq] at hv
        obtain ⟨j, hj⟩ := List.mem_iff_getElem?.1 ho'
        have hf' := (resolvedObj_fine o'.fields).1 (hres j o' hj) _ (Rearrange.lookup_mem hlo)
        dsimp only at hf'
        rw [hv] at hf'
        have back : ∀ y ∈ s2.objs, Stays ks y.pkg y.name := by
          intro y hy
          obtain ⟨z, hz, hzy⟩ := forall₂_to hsame y hy
          exact hst.2 ⟨z, hz, hzy.pkg.symm, hzy.name.symm⟩
        refine ⟨fun τ p n hh => ?_, fun r hh => ?_⟩
        · obtain ⟨y, hy, rfl, rfl, -⟩ := hf'.1 τ p n hh
          exact back y hy
        · obtain ⟨y, hy, h3, h4⟩ := hf'.2 r hh
          rw [← h3, ← h4]
          exact back y hy
    · intro hself i ob hob
      rw [resolvedObj_fine]
      intro f hf
      obtain ⟨x, hx, hxo⟩ := forall₂_to hsame ob (List.mem_of_getElem? hob)
      have hcomp := (C32_all_complete hw' tob k1 i ob hob).1
      have hl := Rearrange.mem_lookup hcomp.2.2 (k := f.1) (v := f.2) hf
      have hv := hxo.values f.1
      rw [hl] at hv
      cases hlo : x.1.fields.lookup f.1 with
      | none => rw [hlo] at hv; cases hv
      | some n =>
        rw [hlo] at hv
        simp only [Option.map_some, Option.some.injEq] at hv
        rw [hv]
        have hmem := Rearrange.lookup_mem hlo
        have hF := fine x.1 (hkept x hx) _ hmem
        obtain ⟨c1, c2⟩ := hself x.1 (hkept x hx) (hst.2 ⟨x, hx, rfl, rfl⟩) _ hmem
        have find : ∀ p n, Stays ks p n → ∀ y ∈ s1.objs, y.pkg = p → y.name = n →
            ∃ z ∈ s2.objs, z.pkg = p ∧ z.name = n ∧ z.typ = y.typ := by
          intro p n hs y hy e2 e3
          obtain ⟨z, hz, e4, e5⟩ := hst.1 hs
          rw [e1] at hy
          obtain ⟨w, hw, rfl⟩ := List.mem_map.1 hy
          cases huniq z (hin z hz) w hw (e4.trans e2.symm) (e5.trans e3.symm)
          obtain ⟨o', ho', hzo⟩ := forall₂_from hsame z hz
          exact ⟨o', ho', hzo.pkg.trans e2, hzo.name.trans e3, hzo.typ⟩
        refine ⟨fun τ p n hh => ?_, fun r hh => ?_⟩
        · obtain ⟨y, hy, h3, h4, h5⟩ := hF.1 τ p n hh
          obtain ⟨z, hz, h6, h7, h8⟩ := find p n (c1 τ p n hh) y hy h3 h4
          exact ⟨z, hz, h6, h7, by rw [h8]; exact h5⟩
        · obtain ⟨y, hy, h3, h4⟩ := hF.2 r hh
          obtain ⟨z, hz, h6, h7, -⟩ := find r.pkg r.name (c2 r hh) y hy h3 h4
          exact ⟨z, hz, h6, h7⟩

section
variable {o : Options} {X : Outside} {required : List CU → Finset PNode} {fs fs' : List Source} {s : PS}

/-- **C94**: if declarations of objects are removed from a project that is processed without errors, then what is left is processed
without errors iff none of the objects left refers to one that was removed. -/
theorem C94_removed_iff {g : STab} {ls ls' : List Loaded} {s1 s1' : PS} {ks : List Piece} (hb : Blank s) (hp : o.parseTrlc = true)
    (hX : o.lint = true → LintsDecls X) (m : Alike required s fs fs' g ls ls' s1 s1')
    (ht : Thinned ((trlcFiles (required (ls.map (·.cu))) ls).map (·.openFile g o.recover))
      ((trlcFiles (required (ls'.map (·.cu))) ls').map (·.openFile g o.recover)) ks)
    (h : (process o X required fs s).out = .table) (he : (process o X required fs s).state.errs = s.errs) :
    ((process o X required fs' s).out = .table ∧ (process o X required fs' s).state.errs = s.errs) ↔
      SelfContained ks (process o X required fs s).state.objs := by
  obtain ⟨s3, k1, k2, k3, k4, k5, k6, k7, k8⟩ := run_alike (Q := fun a b => SameAsSome (Stays ks) a b ∧
      (AllResolved (process o X required fs s).state.decls b ↔ SelfContained ks a)) hb hp hX m h he (fun _ _ h => h.1.to) (by
      intro s2 t hi hs ht' hE hE' hc h1 h2 h3
      obtain ⟨s3, a1, a2, a3, a4⟩ := thinned_objects hi hs ht' hE hE' hc ht h1 h2 h3
      exact ⟨s3, a1, a2, a3, by rw [(run_kept hi.sound.world h1).decls]; exact a4⟩)
  rw [k2] at k7 k8
  constructor
  · intro ⟨h1, _⟩
    exact k6.2.1 (k8 h1).1
  · intro hs
    obtain ⟨h1, h2⟩ := k7 (k6.2.2 hs)
    exact ⟨h1, by rw [h2]; exact k1⟩

/-- **C94**: the objects left are the same as before, and so are the declarations. -/
theorem C94_removed {g : STab} {ls ls' : List Loaded} {s1 s1' : PS} {ks : List Piece} (hb : Blank s) (hp : o.parseTrlc = true)
    (hX : o.lint = true → LintsDecls X) (m : Alike required s fs fs' g ls ls' s1 s1')
    (ht : Thinned ((trlcFiles (required (ls.map (·.cu))) ls).map (·.openFile g o.recover))
      ((trlcFiles (required (ls'.map (·.cu))) ls').map (·.openFile g o.recover)) ks)
    (h : (process o X required fs s).out = .table) (he : (process o X required fs s).state.errs = s.errs)
    (hs : SelfContained ks (process o X required fs s).state.objs) :
    (process o X required fs' s).out = .table ∧ (process o X required fs' s).state.errs = s.errs ∧
      (process o X required fs' s).state.decls = (process o X required fs s).state.decls ∧
      (process o X required fs' s).state.infos = (process o X required fs s).state.infos ∧
      (process o X required fs' s).state.seps = (process o X required fs s).state.seps ∧
      (process o X required fs' s).state.checks = (process o X required fs s).state.checks ∧
      SameAsSome (Stays ks) (process o X required fs s).state.objs (process o X required fs' s).state.objs := by
  obtain ⟨s3, k1, k2, k3, k4, k5, k6, k7, k8⟩ := run_alike (Q := fun a b => SameAsSome (Stays ks) a b ∧
      (AllResolved (process o X required fs s).state.decls b ↔ SelfContained ks a)) hb hp hX m h he (fun _ _ h => h.1.to) (by
      intro s2 t hi hs ht' hE hE' hc h1 h2 h3
      obtain ⟨s3, a1, a2, a3, a4⟩ := thinned_objects hi hs ht' hE hE' hc ht h1 h2 h3
      exact ⟨s3, a1, a2, a3, by rw [(run_kept hi.sound.world h1).decls]; exact a4⟩)
  rw [k2] at k7
  obtain ⟨h1, h2⟩ := k7 (k6.2.2 hs)
  rw [h2]
  exact ⟨h1, k1, k2, k3, k4, k5, k6.1⟩

end
end Verif.Props
