import Verif.Lemmas.ParseFile
import Verif.Spec.References
namespace Verif.Lemmas
open Verif.Model Verif.Spec

theorem _root_.Verif.Spec.NoObjects.tabInv {s : PS} (h : NoObjects s) : TabInv s := by
  refine ⟨fun p T k e h1 h2 h3 => absurd h3 (h.own p T k e h1 h2).1, h.parents, h.imported, ?_,
    h.keys, fun p T k e h1 h2 => (h.own p T k e h1 h2).2⟩
  intro i o hi
  rw [h.objs] at hi
  simp at hi

theorem TabInv.enter {s : PS} {f : OpenFile} (h : TabInv s) : TabInv (s.enter f) :=
  h.same rfl rfl

/-- What is kept by parsing a file, however it ends. -/
structure Kept (s s' : PS) : Prop where
  decls : s'.decls = s.decls
  infos : s'.infos = s.infos
  seps : s'.seps = s.seps
  tabs : s'.tabs.length = s.tabs.length
  objs : s'.objs.take s.objs.length = s.objs
  nid : s.nid ≤ s'.nid
  errs : ∃ l, s'.errs = s.errs ++ l
  inv : TabInv s → TabInv s'

theorem Kept.le {s s' : PS} (h : Kept s s') : s.objs.length ≤ s'.objs.length := by
  have := congrArg List.length h.objs
  rw [List.length_take] at this
  omega

instance : PreRel Kept where
  refl s := ⟨rfl, rfl, rfl, rfl, by simp, Nat.le_refl _, ⟨[], by simp⟩, id⟩
  trans := by
    intro a b c h h'
    obtain ⟨l, hl⟩ := h.errs
    obtain ⟨l', hl'⟩ := h'.errs
    refine ⟨h'.decls.trans h.decls, h'.infos.trans h.infos, h'.seps.trans h.seps,
      h'.tabs.trans h.tabs, ?_, Nat.le_trans h.nid h'.nid,
      ⟨l ++ l', by rw [hl', hl, List.append_assoc]⟩, fun hi => h'.inv (h.inv hi)⟩
    have := congrArg (List.take a.objs.length) h'.objs
    rw [List.take_take, Nat.min_eq_left h.le, h.objs] at this
    exact this

theorem Ro.kept {s s' : PS} (h : Ro s.objs.length s s') : Kept s s' :=
  ⟨h.decls, h.infos, h.seps, h.ntabs, by rw [h.objs]; simp, h.nid, h.errs, h.inv⟩

/-- What an accepted file adds. -/
def FileAdds (D : Decls) (infos : List RecInfo) (f : OpenFile) (s s' : PS)
    (items : List (Obj × List (String × PVal))) : Prop :=
  s'.objs = s.objs ++ items.map Prod.fst ∧
  (∀ x ∈ items, ObjComplete D infos x.1 ∧ ObjFrom D infos x.2 x.1) ∧
  (s'.errs = s.errs → WrittenEntries f.env (namesOf s) s.objs.length [] items (fileWords f) (namesOf s'))

section
variable {D : Decls} {infos : List RecInfo} (hw : WorldOk D infos) (n0 : Nat)
include hw

theorem runTrlcFile_sp (f : OpenFile) (s : PS) (hD : s.decls = D) (hI : s.infos = infos) :
    Sp Kept (runTrlcFile f) s (fun b s' => b = true → (GoodObjs D infos n0 s → GoodObjs D infos n0 s') ∧
      ∃ items, FileAdds D infos f s s' items) := by
  unfold runTrlcFile
  refine sp_bind (fun _ s1 => s1 = s.enter f) ⟨⟨rfl, rfl, rfl, rfl, ?_, Nat.le_refl _,
    ⟨[], by simp [PS.enter]⟩, TabInv.enter⟩, rfl⟩ ?_
  · show s.objs.take _ = _
    simp
  rintro _ s1 - rfl
  have h := parseTrlcFile_sp hw n0 (E := f.env) (s.enter f) hD hI
  refine sp_tryCatch _ (h.weaken fun s' hr => hr.kept) ?_ ?_
  · rintro b s' - - ⟨hnt, hb⟩ htrue
    obtain ⟨-, hg, items, ts, ha⟩ := hb htrue
    refine ⟨fun g => hg (g.same rfl (Nat.le_refl _)), items, ha.objs, ha.made, fun he => ?_⟩
    have hw' := ha.written he
    have hr := ha.reads
    have hw0 : words s' = [] := by simp only [words, hnt]
    rw [hw0, List.append_nil] at hr
    have : fileWords f = ts := hr
    rw [this]
    exact hw'
  · intro s' _ _
    exact sp_pure fun h => by cases h

theorem runTrlcFiles_sp : ∀ (fs : List OpenFile) (s : PS), s.decls = D → s.infos = infos →
    Sp Kept (runTrlcFiles fs) s (fun b s' => b = true → (GoodObjs D infos n0 s → GoodObjs D infos n0 s') ∧
      ∃ items : List (Obj × List (String × PVal)), s'.objs = s.objs ++ items.map Prod.fst ∧
        (∀ x ∈ items, ObjComplete D infos x.1 ∧ ObjFrom D infos x.2 x.1) ∧
        (s'.errs = s.errs → WrittenFiles (namesOf s) s.objs.length fs items (namesOf s'))) := by
  intro fs
  induction fs with
  | nil =>
    intro s _ _
    exact sp_pure fun _ => ⟨id, [], by simp, by simp, fun _ => .nil⟩
  | cons f fs ih =>
    intro s hD hI
    unfold runTrlcFiles
    refine sp_bind _ (runTrlcFile_sp hw n0 f s hD hI) ?_
    intro a s1 h1 ha
    refine sp_bind _ (ih s1 (h1.decls.trans hD) (h1.infos.trans hI)) ?_
    intro b s2 h2 hb
    refine sp_pure fun hab => ?_
    simp only [Bool.and_eq_true] at hab
    obtain ⟨hg1, items, k1, k2, k3⟩ := ha hab.1
    obtain ⟨hg2, items', l1, l2, l3⟩ := hb hab.2
    refine ⟨fun g => hg2 (hg1 g), items ++ items', by rw [l1, k1]; simp, ?_, fun he => ?_⟩
    · intro x hx
      rcases List.mem_append.1 hx with hx | hx
      · exact k2 x hx
      · exact l2 x hx
    · obtain ⟨e1, e2⟩ := errs_between h1.errs h2.errs he
      have h3 := l3 e2
      rw [k1, List.length_append, List.length_map] at h3
      exact .cons (k3 e1) h3

end

end Verif.Lemmas
