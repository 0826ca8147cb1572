import Verif.Props.Dump
import Verif.Lemmas.DumpTold
/-!
# C93: what a dump tells about types and values
-/
namespace Verif.Props
open Verif.Model Verif.Spec Verif.Lemmas Verif.Lemmas.Dump

variable {o : Options} {X : Outside} {required : List CU → Finset PNode} {fs : List Source} {s : PS}
  {g : STab} {ls : List Loaded} {s1 : PS}

/-- **C93**: objects that are printed alike have the same type, the same components with the same values (apart from the
packages of the objects they refer to), and are in sections with the same name. -/
theorem C93_values (hb : Blank s) (hl : loadAll globalTable fs s = .ok (g, ls) s1)
    (h : (process o X required fs s).out = .table) (fuel : Nat) (out : List DLine)
    (ho : (process o X required fs s).state.dump g fuel = .ok out) (i j : Nat) (a b : Obj)
    (hi : (process o X required fs s).state.objs[i]? = some a) (hj : (process o X required fs s).state.objs[j]? = some b) :
    ∃ la lb, Block 2 (.object i) la out ∧ Block 2 (.object j) lb out ∧
      (la = lb → a.typ = b.typ ∧ a.fields.map (fun f => (f.1, told f.2.val)) = b.fields.map (fun f => (f.1, told f.2.val)) ∧
        a.sects.getLast? = b.sects.getLast?) := by
  have d := run_dumpable hb hl h
  revert d ho hi hj
  generalize (process o X required fs s).state = s'
  intro ho hi hj d
  have one : ∀ (i : Nat) (a : Obj), s'.objs[i]? = some a →
      ∃ la, a.dump s'.decls 2 i = .ok ((2, .object i) :: la) ∧ Block 2 (.object i) la out := by
    intro i a hi
    obtain ⟨T, hT, k, e, h1, h2, rfl⟩ := (d.objs i a hi).2
    obtain ⟨sub, hs, hbl⟩ := d.entry_block ho hT h1
    dsimp only at hs hbl
    have he : entryItem e = .object e.id := by unfold entryItem; rw [if_pos h2]
    rw [he] at hs hbl
    unfold PS.dumpEntry at hs
    rw [if_pos h2, hi] at hs
    exact ⟨sub, hs, hbl⟩
  obtain ⟨la, ha, hla⟩ := one i a hi
  obtain ⟨lb, hb', hlb⟩ := one j b hj
  refine ⟨la, lb, hla, hlb, ?_⟩
  rintro rfl
  have hn : ∀ (t : Nat) (cs : List Comp), s'.decls.tups[t]? = some cs → (cs.map (·.name)).Nodup := by
    intro t cs ht
    refine List.pairwise_map.2 ((d.sound.similarFields t cs ht).imp fun {c c'} hne e => hne ?_)
    rw [e]
    exact rfl
  obtain ⟨h1, h2, h3⟩ := obj_told hn (d.objs i a hi).1 (d.objs j b hj).1 ha hb'
  refine ⟨h1, h2, ?_⟩
  rw [List.getLast?_eq_head?_reverse, List.getLast?_eq_head?_reverse]
  unfold dumpSection at h3
  revert h3
  cases a.sects.reverse with
  | nil => cases b.sects.reverse with
    | nil => exact fun _ => rfl
    | cons n ns => intro h3; cases h3
  | cons n ns => cases b.sects.reverse with
    | nil => intro h3; cases h3
    | cons m ms =>
      intro h3
      simp only [List.cons.injEq, Prod.mk.injEq, DItem.sect.injEq, true_and] at h3
      rw [List.head?_cons, List.head?_cons, h3.1]

namespace Dumpable
variable {s : PS} (d : Dumpable g s)
include d

/-- the lines of a type -/
theorem type_block {fuel : Nat} {out : List DLine} (ho : s.dump g fuel = .ok out) {cls i : Nat} {t : Ty} (hi : i < cnt s.decls cls)
    (hty : ∀ n, (⟨n, i, cls⟩ : Ent).ty? = some t) (hit : ∀ n, entryItem ⟨n, i, cls⟩ = .type t) (hc : cls ≠ clsObject) :
    ∃ sub fuel', dumpTy s.decls s.seps s.checks (fuel' + 1) 2 t = .ok ((2, .type t) :: sub) ∧ Block 2 (.type t) sub out := by
  obtain ⟨T, hT, k, e, h1, h2, h3⟩ := d.entered cls i hi
  obtain ⟨n, id, c⟩ := e
  dsimp only at h2 h3
  subst h2 h3
  obtain ⟨sub, hs, hbl⟩ := d.entry_block ho hT h1
  dsimp only at hs hbl
  rw [hit] at hs hbl
  unfold PS.dumpEntry at hs
  rw [if_neg hc, hty] at hs
  cases fuel with
  | zero => dsimp only at hs; rw [dumpTy] at hs; cases hs
  | succ fuel => exact ⟨sub, fuel, hs, hbl⟩

theorem composite_block {fuel : Nat} {out : List DLine} (ho : s.dump g fuel = .ok out) {ct : CompositeTy} (hc : CtIn s.decls ct) :
    ∃ sub fuel' a, Block 2 (.type (tyOf ct)) sub out ∧ typeHead s.decls s.seps 2 ct ++ a = (2, .type (tyOf ct)) :: sub ∧
      dumpChecks (varOf s.decls s.seps s.checks fuel' ct) 3 (s.checks.of ct) = .ok a := by
  have key : ∃ sub fuel', dumpTy s.decls s.seps s.checks (fuel' + 1) 2 (tyOf ct) = .ok ((2, .type (tyOf ct)) :: sub) ∧
      Block 2 (.type (tyOf ct)) sub out := by
    cases ct with
    | record t => exact d.type_block ho (cls := clsRecord) (i := t) hc (fun _ => rfl) (fun _ => rfl) (by decide)
    | tup t => exact d.type_block ho (cls := clsTuple) (i := t) hc (fun _ => rfl) (fun _ => rfl) (by decide)
  obtain ⟨sub, fuel', h1, h2⟩ := key
  rw [dumpTy_composite] at h1
  obtain ⟨x, y, e1, e2, e3⟩ := followed_ok.1 h1
  cases e1
  exact ⟨sub, fuel', y, h2, e3.symm, e2⟩

end Dumpable

theorem varOf_deep {D : Decls} {seps : List (List Sep)} {C : CheckTab} {fuel : Nat} {ct : CompositeTy} :
    ∀ j n, Deep j (varOf D seps C fuel ct j n) := by
  intro j n
  unfold varOf
  split
  · exact deep_error
  · intro ls' e' l' hl'
    obtain ⟨sub, rfl, hs⟩ := ty_block fuel _ _ ls' e'
    rcases List.mem_cons.1 hl' with rfl | hl'
    · exact Nat.le_refl _
    · exact Nat.le_of_succ_le (hs l' hl')

/-- **C93**: every enumeration type is printed with its literals in order. -/
theorem C93_enums (hb : Blank s) (hl : loadAll globalTable fs s = .ok (g, ls) s1)
    (h : (process o X required fs s).out = .table) (fuel : Nat) (out : List DLine)
    (ho : (process o X required fs s).state.dump g fuel = .ok out) (e : Nat) (lits : List String)
    (he : (process o X required fs s).state.decls.enums[e]? = some lits) :
    Block 2 (.type (.enum e)) (lits.map fun l => (3, .literal l)) out := by
  have d := run_dumpable hb hl h
  revert d ho he
  generalize (process o X required fs s).state = s'
  intro ho he d
  obtain ⟨sub, fuel', h1, h2⟩ := d.type_block ho (cls := clsEnum) (i := e) (t := .enum e) (List.getElem?_eq_some_iff.1 he).1
    (fun _ => rfl) (fun _ => rfl) (by decide)
  have h1' : (Except.ok ((2, DItem.type (.enum e)) :: (((s'.decls.enums[e]?).getD []).map fun l => (3, .literal l))) : DumpR) =
    .ok ((2, .type (.enum e)) :: sub) := h1
  rw [he] at h1'
  cases h1'
  exact h2

/-- **C93**: every check is printed with its severity and message, in order, below the type it belongs to. -/
theorem C93_checks (hb : Blank s) (hl : loadAll globalTable fs s = .ok (g, ls) s1)
    (h : (process o X required fs s).out = .table) (fuel : Nat) (out : List DLine)
    (ho : (process o X required fs s).state.dump g fuel = .ok out) (ct : CompositeTy) (cs : List Check)
    (hcs : (match ct with
      | .record t => (process o X required fs s).state.checks.recs[t]?
      | .tup t => (process o X required fs s).state.checks.tups[t]?) = some cs) (hne : cs ≠ []) :
    ∃ sub cks, Block 2 (.type (tyOf ct)) sub out ∧ Block 3 .checks cks sub ∧
      outline 4 cks = cs.map fun c => .check c.sev c.msg := by
  have d := run_dumpable hb hl h
  revert d ho hcs
  generalize (process o X required fs s).state = s'
  intro ho hcs d
  have hof : s'.checks.of ct = cs := by
    cases ct <;> (dsimp only [CheckTab.of] at hcs ⊢; rw [hcs]; rfl)
  obtain ⟨c0, cs', rfl⟩ := List.exists_cons_of_ne_nil hne
  have hin : CtIn s'.decls ct := d.ctIn ct c0 (mem_of.1 (by rw [hof]; simp))
  obtain ⟨sub, fuel', a, h1, h2, h3⟩ := d.composite_block ho hin
  rw [hof, dumpChecks] at h3
  obtain ⟨x, y, e1, e2, rfl⟩ := followed_ok.1 h3
  cases e1
  obtain ⟨hd, e3, -⟩ := head_deep (D := s'.decls) (seps := s'.seps) (i := 2) ct
  rw [e3, List.cons_append, List.cons.injEq] at h2
  refine ⟨sub, y, h1, ⟨hd, [], ?_, deep_all (fun k => check_deep varOf_deep _ k) _ y e2, by simp⟩, ?_⟩
  · rw [← h2.2, List.append_nil]
    rfl
  · rw [outline_all (g := fun c => [.check c.sev c.msg]) ?_ e2, ← List.map_eq_flatMap]
    intro c _ x hx
    unfold Check.dump at hx
    obtain ⟨p, q, e4, e5, rfl⟩ := followed_ok.1 hx
    cases e4
    rw [List.cons_append, outline_cons_eq, outline_append, outline_deep (expr_deep varOf_deep _ _ q e5) (Nat.lt_succ_self _)]
    cases c.anchor <;> simp [outline]

/-- how far the components of a type are indented -/
def compDepth : CompositeTy → Nat
  | .record _ => 3
  | .tup _ => 4

theorem comps_block {i : Nat} {cs : List Comp} {c : Comp} (hc : c ∈ cs) {rest : List DLine} (hr : ∀ l, rest.head? = some l → l.1 ≤ i) :
    Block i (.component c.name) [(i + 1, .optional c.optional), (i + 1, .typ c.ty)] (cs.flatMap (Comp.dump i) ++ rest) := by
  obtain ⟨p, q, rfl⟩ := List.append_of_mem hc
  refine ⟨p.flatMap (Comp.dump i), q.flatMap (Comp.dump i) ++ rest, ?_, by simp, ?_⟩
  · simp [Comp.dump]
  · cases q with
    | nil => exact hr
    | cons c' q => intro l hl; cases hl; exact Nat.le_refl _

theorem items_block {i : Nat} {c : Comp} {rest : List DLine} (hr : ∀ l, rest.head? = some l → l.1 ≤ i) :
    ∀ {xs : List SeqItem}, .comp c ∈ xs →
    Block i (.component c.name) [(i + 1, .optional c.optional), (i + 1, .typ c.ty)] (xs.flatMap (SeqItem.dump i) ++ rest) := by
  intro xs hc
  obtain ⟨p, q, rfl⟩ := List.append_of_mem hc
  refine ⟨p.flatMap (SeqItem.dump i), q.flatMap (SeqItem.dump i) ++ rest, ?_, by simp, ?_⟩
  · simp [SeqItem.dump, Comp.dump]
  · cases q with
    | nil => exact hr
    | cons c' q => cases c' <;> (intro l hl; cases hl; exact Nat.le_refl _)

theorem comp_mem_iter : ∀ {cs : List Comp} {ss : List Sep} {c : Comp}, c ∈ cs → .comp c ∈ iterSequence cs ss
  | c' :: cs, [], c, h => by
    simp only [iterSequence, List.mem_cons, SeqItem.comp.injEq] at h ⊢
    exact h.imp id comp_mem_iter
  | c' :: cs, s :: ss, c, h => by
    simp only [iterSequence, List.mem_cons, SeqItem.comp.injEq] at h ⊢
    exact h.imp id fun h => .inr (comp_mem_iter h)

/-- **C93**: every component of a record type, also an inherited one, and every field of a tuple type is printed below
it, with whether it is optional and its type. -/
theorem C93_components (hb : Blank s) (hl : loadAll globalTable fs s = .ok (g, ls) s1)
    (h : (process o X required fs s).out = .table) (fuel : Nat) (out : List DLine)
    (ho : (process o X required fs s).state.dump g fuel = .ok out) (ct : CompositeTy) (c : Comp)
    (hc : CompOf (process o X required fs s).state.decls ct c) :
    ∃ sub, Block 2 (.type (tyOf ct)) sub out ∧
      Block (compDepth ct) (.component c.name) [(compDepth ct + 1, .optional c.optional), (compDepth ct + 1, .typ c.ty)] sub := by
  have d := run_dumpable hb hl h
  revert d ho hc
  generalize (process o X required fs s).state = s'
  intro ho hc d
  have hdeep : ∀ {fuel' : Nat} {a : List DLine}, dumpChecks (varOf s'.decls s'.seps s'.checks fuel' ct) 3 (s'.checks.of ct) = .ok a →
      ∀ l, a.head? = some l → l.1 ≤ 3 := by
    intro fuel' a ha
    cases hk : s'.checks.of ct with
    | nil => rw [hk] at ha; cases ha; intro l hl; cases hl; exact Nat.le_refl _
    | cons k ks =>
      rw [hk, dumpChecks] at ha
      obtain ⟨x, y, e1, e2, rfl⟩ := followed_ok.1 ha
      cases e1
      intro l hl
      cases hl
      exact Nat.le_refl _
  cases ct with
  | record t =>
    have hc' : HasComp s'.decls t c := hc
    have hin : CtIn s'.decls (.record t) := by
      obtain ⟨u, hu, -⟩ := hc'
      cases hu with
      | refl h => exact h
      | step hp _ => exact hp.elim fun _ h => (List.getElem?_eq_some_iff.1 h.1).1
    obtain ⟨sub, fuel', a, h1, h2, h3⟩ := d.composite_block ho hin
    refine ⟨sub, h1, ?_⟩
    unfold typeHead at h2
    dsimp only at h2
    rw [List.cons_append, List.cons_append, List.cons.injEq] at h2
    rw [← h2.2, List.append_assoc]
    obtain ⟨p, q, e1, e2, e3⟩ := comps_block (i := 3) (cs := (s'.decls.ancestors t).flatMap s'.decls.own) (c := c) (rest := a)
      (by simp only [List.mem_flatMap, mem_ancestors d.sound.world.wf, mem_own]; exact hc') (hdeep h3)
    exact ⟨_ ++ p, q, by rw [e1]; simp only [List.append_assoc]; rfl, e2, e3⟩
  | tup t =>
    obtain ⟨cs, h4, h5⟩ : ∃ cs, s'.decls.tups[t]? = some cs ∧ c ∈ cs := hc
    have hin : CtIn s'.decls (.tup t) := (List.getElem?_eq_some_iff.1 h4).1
    obtain ⟨sub, fuel', a, h1, h2, h3⟩ := d.composite_block ho hin
    refine ⟨sub, h1, ?_⟩
    unfold typeHead at h2
    dsimp only at h2
    rw [List.cons_append, List.cons.injEq] at h2
    rw [← h2.2]
    obtain ⟨p, q, e1, e2, e3⟩ := items_block (i := 4) (c := c) (rest := a) (fun l hl => Nat.le_succ_of_le (hdeep h3 l hl))
      (xs := iterSequence (s'.decls.fields t) ((s'.seps[t]?).getD []))
      (comp_mem_iter (by unfold Decls.fields; rw [h4]; exact h5))
    exact ⟨(3, .fields) :: p, q, by rw [List.cons_append, e1]; rfl, e2, e3⟩

/-- The fields with a separator after each one while there are any -/
def Alternate : List Comp → List Sep → List DItem → Prop
  | cs, ss, is => (is.filterMap fun | .component n => some n | _ => none) = cs.map (·.name) ∧
    (is.filterMap fun | .separator s => some s | _ => none) = ss ∧
    ∀ (k : Nat) (s : Sep), ss[k]? = some s → is[2 * k + 1]? = some (.separator s)

theorem iter_alternate : ∀ {cs : List Comp} {ss : List Sep}, ss.length ≤ cs.length → Alternate cs ss
    ((iterSequence cs ss).map fun | .comp c => .component c.name | .sep s => .separator s)
  | [], [], _ => ⟨rfl, rfl, by simp⟩
  | [], _ :: _, h => by simp at h
  | c :: cs, [], _ => by
    obtain ⟨h1, h2, -⟩ := iter_alternate (cs := cs) (ss := []) (by simp)
    simp only [iterSequence, List.map_cons]
    exact ⟨by rw [List.filterMap_cons, h1]; rfl, by rw [List.filterMap_cons]; exact h2, by simp⟩
  | c :: cs, s :: ss, h => by
    obtain ⟨h1, h2, h3⟩ := iter_alternate (cs := cs) (ss := ss) (by simpa using h)
    simp only [iterSequence, List.map_cons]
    refine ⟨by rw [List.filterMap_cons, List.filterMap_cons, h1]; rfl, by rw [List.filterMap_cons, List.filterMap_cons, h2], ?_⟩
    intro k s' hk
    cases k with
    | zero => cases hk; rfl
    | succ k => rw [show 2 * (k + 1) + 1 = (2 * k + 1) + 2 by omega]; exact h3 k s' hk

/-- **C93**: every tuple type is printed with its fields and separators in order. -/
theorem C93_tuples (hb : Blank s) (hl : loadAll globalTable fs s = .ok (g, ls) s1)
    (h : (process o X required fs s).out = .table) (fuel : Nat) (out : List DLine)
    (ho : (process o X required fs s).state.dump g fuel = .ok out) (t : Nat) (cs : List Comp) (ss : List Sep)
    (hcs : (process o X required fs s).state.decls.tups[t]? = some cs)
    (hss : (process o X required fs s).state.seps[t]? = some ss) :
    ∃ sub fl, Block 2 (.type (.tup t)) sub out ∧ Block 3 .fields fl sub ∧ Alternate cs ss (outline 4 fl) := by
  have d := run_dumpable hb hl h
  revert d ho hcs hss
  generalize (process o X required fs s).state = s'
  intro ho hcs hss d
  obtain ⟨sub, fuel', a, h1, h2, h3⟩ := d.composite_block ho (ct := .tup t) (List.getElem?_eq_some_iff.1 hcs).1
  unfold typeHead at h2
  dsimp only at h2
  rw [List.cons_append, List.cons.injEq] at h2
  have hf : s'.decls.fields t = cs := by unfold Decls.fields; rw [hcs]; rfl
  rw [hf, hss, Option.getD_some] at h2
  refine ⟨sub, (iterSequence cs ss).flatMap (SeqItem.dump 4), h1, ⟨[], a, ?_, ?_, ?_⟩, ?_⟩
  · rw [← h2.2]; rfl
  · intro l hl
    obtain ⟨c, -, hl⟩ := List.mem_flatMap.1 hl
    exact item_deep l hl
  · cases hk : s'.checks.of (.tup t) with
    | nil => rw [hk] at h3; cases h3; intro l hl; cases hl; exact Nat.le_refl _
    | cons k ks =>
      rw [hk, dumpChecks] at h3
      obtain ⟨x, y, e1, e2, rfl⟩ := followed_ok.1 h3
      cases e1
      intro l hl
      cases hl
      exact Nat.le_refl _
  · have hlen : ss.length ≤ cs.length := by
      rcases d.sound.separated t cs ss hcs hss with rfl | e
      · simp
      · omega
    have : outline 4 ((iterSequence cs ss).flatMap (SeqItem.dump 4)) =
        (iterSequence cs ss).map fun | .comp c => .component c.name | .sep s => .separator s := by
      induction iterSequence cs ss with
      | nil => rfl
      | cons x xs ih =>
        rw [List.flatMap_cons, outline_append, ih]
        cases x <;> simp [SeqItem.dump, Comp.dump, outline]
    rw [this]
    exact iter_alternate hlen

theorem expr_not_anchor {var : Nat → String → DumpR} {i : Nat} {e : Expr} {ls : List DLine} (h : e.dump var i = .ok ls) :
    ∀ j n, ls.head? ≠ some (j, .anchor n) := by
  have key : ∀ {x : DItem} {t : List DLine} {r : DumpR}, (∀ n, x ≠ .anchor n) → DumpR.followed (.ok ((i, x) :: t)) r = .ok ls →
      ∀ j n, ls.head? ≠ some (j, .anchor n) := by
    intro x t r hx hr j n
    obtain ⟨a, b, e1, -, rfl⟩ := followed_ok.1 hr
    cases e1
    intro hn
    simp only [List.cons_append, List.head?_cons, Option.some.injEq, Prod.mk.injEq] at hn
    exact hx n hn.2
  cases e <;> rw [Expr.dump] at h <;> first | exact key (by simp) h | (cases h; simp)

/-- **C93**: every check is printed with the component it is anchored at directly below it, and only then. -/
theorem C93_anchors (hb : Blank s) (hl : loadAll globalTable fs s = .ok (g, ls) s1)
    (h : (process o X required fs s).out = .table) (fuel : Nat) (out : List DLine)
    (ho : (process o X required fs s).state.dump g fuel = .ok out) (ct : CompositeTy) (c : Check)
    (hc : CheckOf (process o X required fs s).state.checks ct c) :
    ∃ sub cks ck, Block 2 (.type (tyOf ct)) sub out ∧ Block 3 .checks cks sub ∧ Block 4 (.check c.sev c.msg) ck cks ∧
      ∀ n, ck.head? = some (5, .anchor n) ↔ c.anchor = some n := by
  have d := run_dumpable hb hl h
  revert d ho hc
  generalize (process o X required fs s).state = s'
  intro ho hc d
  have hin : CtIn s'.decls ct := d.ctIn ct c hc
  have hmem : c ∈ s'.checks.of ct := mem_of.2 hc
  obtain ⟨sub, fuel', a, h1, h2, h3⟩ := d.composite_block ho hin
  obtain ⟨c0, cs, hof⟩ := List.exists_cons_of_ne_nil (List.ne_nil_of_mem hmem)
  rw [hof] at hmem
  rw [hof, dumpChecks] at h3
  obtain ⟨x, y, e1, e2, rfl⟩ := followed_ok.1 h3
  cases e1
  obtain ⟨hd, e3, -⟩ := head_deep (D := s'.decls) (seps := s'.seps) (i := 2) ct
  rw [e3, List.cons_append, List.cons.injEq] at h2
  have lines : ∀ (k : Check) (z : List DLine), k.dump (varOf s'.decls s'.seps s'.checks fuel' ct) 4 = .ok z →
      ∃ q, z = (4, .check k.sev k.msg) :: ((k.anchor.map fun n => (5, .anchor n)).toList ++ q) ∧
        k.expr.dump (varOf s'.decls s'.seps s'.checks fuel' ct) 5 = .ok q := by
    intro k z hz
    unfold Check.dump at hz
    obtain ⟨p, q, e4, e5, rfl⟩ := followed_ok.1 hz
    cases e4
    exact ⟨q, rfl, e5⟩
  obtain ⟨-, hpart⟩ := part (P := fun ls => ∀ l, ls.head? = some l → l.1 ≤ 4) (by simp) (fun k _ z y hk l hl => by
    obtain ⟨q, rfl, -⟩ := lines k z hk
    cases hl
    exact Nat.le_refl _) e2
  obtain ⟨pre, z, post, rfl, hz, hpost⟩ := hpart c hmem
  obtain ⟨q, rfl, hq⟩ := lines c z hz
  refine ⟨sub, _, (c.anchor.map fun n => (5, .anchor n)).toList ++ q, h1,
    ⟨hd, [], ?_, deep_all (fun k => check_deep varOf_deep _ k) _ _ e2, by simp⟩, ⟨pre, post, rfl, ?_, hpost⟩, ?_⟩
  · rw [← h2.2, List.append_nil]
    rfl
  · intro l hl
    rcases List.mem_append.1 hl with hl | hl
    · simp only [Option.mem_toList, Option.map_eq_some_iff] at hl
      obtain ⟨n, -, rfl⟩ := hl
      exact Nat.lt_succ_self _
    · exact expr_deep varOf_deep _ _ q hq l hl
  · intro n
    cases hA : c.anchor with
    | none =>
      constructor
      · intro hh
        exact absurd hh (expr_not_anchor hq 5 n)
      · intro hh
        cases hh
    | some m => simp

/-- **C93**: an object in sections is printed with the innermost of them, and the one that this is in. -/
theorem C93_sections (hb : Blank s) (hl : loadAll globalTable fs s = .ok (g, ls) s1)
    (h : (process o X required fs s).out = .table) (fuel : Nat) (out : List DLine)
    (ho : (process o X required fs s).state.dump g fuel = .ok out) (i : Nat) (ob : Obj)
    (hi : (process o X required fs s).state.objs[i]? = some ob) (around : List (List Char)) (n : List Char)
    (hn : ob.sects = around ++ [n]) :
    ∃ sub, Block 2 (.object i) sub out ∧ Block 3 (.sect n) [(4, .within around.getLast?)] sub := by
  have d := run_dumpable hb hl h
  revert d ho hi
  generalize (process o X required fs s).state = s'
  intro ho hi d
  obtain ⟨T, hT, k, e, h1, h2, rfl⟩ := (d.objs i ob hi).2
  obtain ⟨sub, hs, hbl⟩ := d.entry_block ho hT h1
  dsimp only at hs hbl
  have he : entryItem e = .object e.id := by unfold entryItem; rw [if_pos h2]
  rw [he] at hs hbl
  refine ⟨sub, hbl, ?_⟩
  unfold PS.dumpEntry at hs
  rw [if_pos h2, hi] at hs
  dsimp only at hs
  unfold Obj.dump at hs
  obtain ⟨x, y, e1, e2, e3⟩ := followed_ok.1 hs
  cases e1
  obtain ⟨u, v, e4, e5, rfl⟩ := followed_ok.1 e2
  cases e5
  simp only [List.cons_append, List.cons.injEq, List.nil_append, true_and] at e3
  have hsec : dumpSection 3 ob.sects = [(3, .sect n), (4, .within around.getLast?)] := by
    unfold dumpSection
    rw [hn, List.reverse_append, List.reverse_singleton, List.singleton_append, List.getLast?_eq_head?_reverse]
  exact ⟨(3, .typ (.record ob.typ)) :: u, [], by rw [e3, hsec]; simp, by simp, by simp⟩

end Verif.Props
