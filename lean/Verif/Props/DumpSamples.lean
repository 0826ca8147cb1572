import Verif.Props.DumpTold
import Verif.Props.RunSamples
/-!
# C93 does not hold in full, and its theorems apply to a concrete project
-/
namespace Verif.Props
open Verif.Model Verif.Spec Verif.Lemmas

namespace DumpSample
open RunSample (opened options outside)

def none' (_ : List CU) : Finset PNode := ∅

/-- a check of `R` quantifies over an array of `R` -/
def loop : List SrcFile := [⟨"p.rsl", .rsl, true, "package P
type R { n Integer rs optional R [0 .. *] }
checks R { rs != null implies (forall x in rs => x.n > 0), error \"m\" }".toList⟩]

def fine : List SrcFile := [⟨"p.rsl", .rsl, true, "package P
type A { n Integer }
type R extends A { rs A [0 .. *] }
checks R { (forall x in rs => x.n > 0), error \"m\" }".toList⟩,
 ⟨"p.trlc", .trlc, true, "package P A x { n = 2 } section \"s\" { R y { n = -3 rs = [x] } }".toList⟩]

/-- the global table -/
def table (fs : List SrcFile) : Option STab :=
  match loadAll globalTable (opened fs).1 (opened fs).2 with
  | .ok (g, _) _ => some g
  | _ => none

theorem table_ok {fs : List SrcFile} {g : STab} (h : table fs = some g) :
    ∃ ls s1, loadAll globalTable (opened fs).1 (opened fs).2 = .ok (g, ls) s1 := by
  unfold table at h
  split at h
  · next g' ls s1 e => cases h; exact ⟨ls, s1, e⟩
  · cases h

def done (fs : List SrcFile) : ProcOut := process options outside none' (opened fs).1 (opened fs).2

set_option maxRecDepth 100000 in
theorem loop_table : (done loop).out = .table := by decide +kernel

set_option maxRecDepth 100000 in
theorem loop_some : (table loop).isSome = true := by decide +kernel

/-- the first check of the first type quantifies over an array of the first type -/
def turns (s : PS) : Bool :=
  match s.decls.recs, s.checks.recs with
  | R :: _, (k :: _) :: _ =>
    match k.expr with
    | .logic _ _ (.quant _ _ n _) => R.own.any fun c => decide (c.name = n) && decide (c.ty = .arr 0 (.record 0) 0 none)
    | _ => false
  | _, _ => false

theorem turns_sound {s : PS} (h : turns s = true) : RangesOver s.decls s.checks (.record 0) (.record 0) := by
  unfold turns at h
  split at h
  · next R Rs k ks cs h1 h2 =>
    split at h
    · next h3 =>
      obtain ⟨c, hc, h4⟩ := List.any_eq_true.1 h
      simp only [Bool.and_eq_true, decide_eq_true_eq] at h4
      refine ⟨.record 0, k, c, 0, 0, none, rfl, ⟨k :: ks, by rw [h2]; rfl, List.mem_cons_self ..⟩, ?_, ?_, h4.2⟩
      · rw [h3, h4.1]
        exact .inr (.inl rfl)
      · have hr : s.decls.recs[0]? = some R := by rw [h1]; rfl
        exact ⟨0, .refl (List.getElem?_eq_some_iff.1 hr).1, R, hr, hc⟩
    · cases h
  · cases h

set_option maxRecDepth 100000 in
theorem loop_turns : turns (done loop).state = true := by decide +kernel

attribute [local irreducible] opened process in
/-- **C93 does not hold in full**: a check of a record type quantifies over an array of records of that type. -/
theorem C93_violated : ¬ C93_full := by
  intro hf
  obtain ⟨g, hg⟩ := Option.isSome_iff_exists.1 loop_some
  obtain ⟨ls, s1, hl⟩ := table_ok hg
  have h := hf options outside none' _ _ g ls s1 (RunSample.opened_blank loop) hl loop_table
  exact (C93_partial (RunSample.opened_blank loop) hl loop_table).1 h ⟨_, .single (turns_sound loop_turns)⟩

/-! ### A project that can be dumped -/

set_option maxRecDepth 100000 in
theorem fine_table : (done fine).out = .table := by decide +kernel

set_option maxRecDepth 100000 in
theorem fine_some : ((table fine).map fun g => ((done fine).state.dump g 3).toOption.isSome) = some true := by decide +kernel

set_option maxRecDepth 100000 in
theorem fine_objs : ((done fine).state.objs.map fun o => (o.typ, o.fields.map (·.1), o.sects)) =
    [(0, ["n"], []), (1, ["n", "rs"], ["s".toList])] := by decide +kernel

attribute [local irreducible] opened process in
/-- It ends, so that no type reaches itself; the two objects are listed once; the second one is in a section. -/
example : ∃ (g : STab) (out sub : List DLine), (done fine).state.dump g 3 = .ok out ∧
    (¬ ∃ t, Relation.TransGen (RangesOver (done fine).state.decls (done fine).state.checks) t t) ∧
    (objectsIn (outline 2 out)).Perm [0, 1] ∧ Block 2 (.object 1) sub out ∧
    outline 3 sub = [.typ (.record 1), .field "n", .field "rs", .sect "s".toList] := by
  have hs := fine_some
  obtain ⟨g, hg, hd⟩ := Option.map_eq_some_iff.1 hs
  obtain ⟨ls, s1, hl⟩ := table_ok hg
  obtain ⟨out, ho⟩ : ∃ out, (done fine).state.dump g 3 = .ok out := by
    cases e : (done fine).state.dump g 3 with
    | error x => rw [e] at hd; cases hd
    | ok out => exact ⟨out, rfl⟩
  have hb := RunSample.opened_blank fine
  have hobjs := fine_objs
  have hlen : (done fine).state.objs.length = 2 := by
    have := congrArg List.length hobjs
    rwa [List.length_map] at this
  obtain ⟨ob, h1⟩ : ∃ ob, (done fine).state.objs[1]? = some ob := ⟨_, List.getElem?_eq_getElem (by omega)⟩
  have h2 : (ob.typ, ob.fields.map (·.1), ob.sects) = (1, ["n", "rs"], ["s".toList]) := by
    have := congrArg (·[1]?) hobjs
    rw [List.getElem?_map, h1] at this
    exact Option.some.inj this
  simp only [Prod.mk.injEq] at h2
  obtain ⟨sub, h3, h4⟩ := C93_objects hb hl fine_table 3 out ho 1 ob h1
  have h5 := C93_once hb hl fine_table 3 out ho
  rw [show (process options outside none' (opened fine).1 (opened fine).2).state.objs.length = 2 from hlen] at h5
  refine ⟨g, out, sub, ho, (C93_partial hb hl fine_table).1 ⟨3, out, ho⟩, h5, h3, ?_⟩
  rw [h4, h2.1, h2.2.2, show ob.fields.map (fun f => DItem.field f.1) = (ob.fields.map (·.1)).map DItem.field from
    (List.map_map ..).symm, h2.2.1]
  rfl

/-! ### One with an enumeration and a tuple type -/

def kinds : List SrcFile := [⟨"p.rsl", .rsl, true, "package P
enum E { low high }
tuple T { a Integer separator @ b optional Integer }
type R { e E t T }
checks R { t.a > 0, warning \"m\" }".toList⟩,
 ⟨"p.trlc", .trlc, true, "package P R x { e = E.low t = 2 } R y { e = E.low t = 2 }".toList⟩]

set_option maxRecDepth 100000 in
theorem kinds_table : (done kinds).out = .table := by decide +kernel

set_option maxRecDepth 100000 in
theorem kinds_some : ((table kinds).map fun g => ((done kinds).state.dump g 3).toOption.isSome) = some true := by decide +kernel

set_option maxRecDepth 100000 in
theorem kinds_types : (done kinds).state.decls.enums = [["low", "high"]] ∧
    (done kinds).state.decls.tups.map (·.map (·.name)) = [["a", "b"]] ∧ (done kinds).state.seps = [[.kind .AT]] ∧
    (done kinds).state.checks.recs.map (·.map fun c => (c.sev, c.msg)) = [[(.warning, "m")]] ∧
    (done kinds).state.objs.length = 2 := by decide +kernel

attribute [local irreducible] opened process in
example : ∃ (g : STab) (out sub fl sub' cks : List DLine), (done kinds).state.dump g 3 = .ok out ∧
    Block 2 (.type (.enum 0)) [(3, .literal "low"), (3, .literal "high")] out ∧
    Block 2 (.type (.tup 0)) sub out ∧ Block 3 .fields fl sub ∧
    (outline 4 fl).filterMap (fun | .component n => some n | _ => none) = ["a", "b"] ∧ (outline 4 fl)[1]? = some (.separator (.kind .AT)) ∧
    Block 2 (.type (.record 0)) sub' out ∧ Block 3 .checks cks sub' ∧ outline 4 cks = [.check .warning "m"] ∧
    ∃ a b la lb, (done kinds).state.objs[0]? = some a ∧ (done kinds).state.objs[1]? = some b ∧ Block 2 (.object 0) la out ∧
      Block 2 (.object 1) lb out ∧ (la = lb → a.typ = b.typ) := by
  have hs := kinds_some
  obtain ⟨g, hg, hd⟩ := Option.map_eq_some_iff.1 hs
  obtain ⟨ls, s1, hl⟩ := table_ok hg
  obtain ⟨out, ho⟩ : ∃ out, (done kinds).state.dump g 3 = .ok out := by
    cases e : (done kinds).state.dump g 3 with
    | error x => rw [e] at hd; cases hd
    | ok out => exact ⟨out, rfl⟩
  have hb := RunSample.opened_blank kinds
  obtain ⟨t1, t2, t3, t4, t5⟩ := kinds_types
  have he := C93_enums hb hl kinds_table 3 out ho 0 ["low", "high"]
    (show (done kinds).state.decls.enums[0]? = _ by rw [t1]; rfl)
  obtain ⟨cs, hcs⟩ : ∃ cs, (done kinds).state.decls.tups[0]? = some cs := by
    have := congrArg List.length t2
    rw [List.length_map] at this
    exact ⟨_, List.getElem?_eq_getElem (by rw [this]; decide)⟩
  have hcn : cs.map (·.name) = ["a", "b"] := by
    have := congrArg (·[0]?) t2
    rw [List.getElem?_map, hcs] at this
    exact Option.some.inj this
  obtain ⟨sub, fl, h1, h2, h3⟩ := C93_tuples hb hl kinds_table 3 out ho 0 cs [.kind .AT] hcs
    (show (done kinds).state.seps[0]? = _ by rw [t3]; rfl)
  obtain ⟨ks, hks⟩ : ∃ ks, (done kinds).state.checks.recs[0]? = some ks := by
    have := congrArg List.length t4
    rw [List.length_map] at this
    exact ⟨_, List.getElem?_eq_getElem (by rw [this]; decide)⟩
  have hkn : ks.map (fun c => (c.sev, c.msg)) = [(.warning, "m")] := by
    have := congrArg (·[0]?) t4
    rw [List.getElem?_map, hks] at this
    exact Option.some.inj this
  obtain ⟨sub', cks, h4, h5, h6⟩ := C93_checks hb hl kinds_table 3 out ho (.record 0) ks hks (by rintro rfl; cases hkn)
  obtain ⟨a, ha⟩ : ∃ a, (done kinds).state.objs[0]? = some a := ⟨_, List.getElem?_eq_getElem (by omega)⟩
  obtain ⟨b, hb'⟩ : ∃ b, (done kinds).state.objs[1]? = some b := ⟨_, List.getElem?_eq_getElem (by omega)⟩
  obtain ⟨la, lb, h7, h8, h9⟩ := C93_values hb hl kinds_table 3 out ho 0 1 a b ha hb'
  refine ⟨g, out, sub, fl, sub', cks, ho, he, h1, h2, h3.1.trans hcn, h3.2.2 0 _ rfl, h4, h5, ?_, a, b, la, lb, ha, hb', h7, h8,
    fun e => (h9 e).1⟩
  rw [h6]
  have := congrArg (List.map fun p : Severity × String => DItem.check p.1 p.2) hkn
  rw [List.map_map] at this
  exact this

/-! ### One with an anchored check and nested sections -/

def placed : List SrcFile := [⟨"p.rsl", .rsl, true, "package P type R { n Integer } checks R { n > 0, \"m\", n }".toList⟩,
 ⟨"p.trlc", .trlc, true, "package P section \"A\" { section \"B\" { R x { n = 2 } } }".toList⟩]

set_option maxRecDepth 100000 in
theorem placed_table : (done placed).out = .table := by decide +kernel

set_option maxRecDepth 100000 in
theorem placed_some : ((table placed).map fun g => ((done placed).state.dump g 3).toOption.isSome) = some true := by decide +kernel

set_option maxRecDepth 100000 in
theorem placed_types :
    (done placed).state.checks.recs.map (·.map fun c => (c.sev, c.msg, c.anchor)) = [[(.error, "m", some "n")]] ∧
    (done placed).state.objs.map (·.sects) = [["A".toList, "B".toList]] := by decide +kernel

attribute [local irreducible] opened process in
example : ∃ (g : STab) (out sub cks ck ob : List DLine), (done placed).state.dump g 3 = .ok out ∧
    Block 2 (.type (.record 0)) sub out ∧ Block 3 .checks cks sub ∧ Block 4 (.check .error "m") ck cks ∧
    ck.head? = some (5, .anchor "n") ∧ Block 2 (.object 0) ob out ∧
    Block 3 (.sect "B".toList) [(4, .within (some "A".toList))] ob := by
  have hs := placed_some
  obtain ⟨g, hg, hd⟩ := Option.map_eq_some_iff.1 hs
  obtain ⟨ls, s1, hl⟩ := table_ok hg
  obtain ⟨out, ho⟩ : ∃ out, (done placed).state.dump g 3 = .ok out := by
    cases e : (done placed).state.dump g 3 with
    | error x => rw [e] at hd; cases hd
    | ok out => exact ⟨out, rfl⟩
  have hb := RunSample.opened_blank placed
  obtain ⟨t1, t2⟩ := placed_types
  obtain ⟨ks, hks, hkn⟩ : ∃ ks, (done placed).state.checks.recs[0]? = some ks ∧
      ks.map (fun c => (c.sev, c.msg, c.anchor)) = [(.error, "m", some "n")] := by
    have := congrArg (·[0]?) t1
    rw [List.getElem?_map] at this
    obtain ⟨ks, h1, h2⟩ := Option.map_eq_some_iff.1 this
    exact ⟨ks, h1, h2⟩
  obtain ⟨c, rfl⟩ : ∃ c, ks = [c] := List.length_eq_one_iff.1 (by rw [← List.length_map (f := fun c : Check => (c.sev, c.msg, c.anchor)), hkn]; rfl)
  simp only [List.map_cons, List.map_nil, List.cons.injEq, Prod.mk.injEq, and_true] at hkn
  obtain ⟨k1, k2, k3⟩ := hkn
  obtain ⟨sub, cks, ck, h1, h2, h3, h4⟩ := C93_anchors hb hl placed_table 3 out ho (.record 0) c ⟨[c], hks, by simp⟩
  obtain ⟨a, ha, hsec⟩ : ∃ a, (done placed).state.objs[0]? = some a ∧ a.sects = ["A".toList, "B".toList] := by
    have := congrArg (·[0]?) t2
    rw [List.getElem?_map] at this
    obtain ⟨a, h1, h2⟩ := Option.map_eq_some_iff.1 this
    exact ⟨a, h1, h2⟩
  obtain ⟨ob, h5, h6⟩ := C93_sections hb hl placed_table 3 out ho 0 a ha ["A".toList] "B".toList hsec
  rw [k1, k2] at h3
  exact ⟨g, out, sub, cks, ck, ob, ho, h1, h2, h3, (h4 "n").2 k3, h5, h6⟩

end DumpSample
end Verif.Props
