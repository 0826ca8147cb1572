import Verif.Lemmas.Vcg.SortOf
import Verif.Props.VerifySamples
/-!
# C89: what is given to the solver is well formed
-/
namespace Verif.Props
open Verif.Model Verif.Spec Verif.Lemmas Verif.Lemmas.Vcg

/-- The checks of a type, own and inherited, and those of the tuple types of its components, except warnings, convert no
number to the type it has already, and look with `in` for values of the sort of the elements. -/
structure ProperType (s : PS) (ct : CompositeTy) : Prop where
  own : ∀ c, (match ct with | .record t => ∃ a, Extends s.decls t a ∧ CkIn s.checks (.record a) c | .tup t => CkIn s.checks (.tup t) c) →
    Proper c.expr
  tuples : ∀ d ∈ s.decls.componentsOf ct, ∀ u, d.ty = .tup u → ∀ c, CkIn s.checks (.tup u) c → c.sev ≠ .warning → Proper c.expr

/-- accepted checks -/
theorem acc_check {D : Decls} {rx : Regex} {ct : CompositeTy} {c : Check} (wf : WFDecls D) (h : AccIn D rx ct c) (hp : Proper c.expr)
    {K : Sym → Option Srt} {ρ : NameTrs} (hn : NSorted D K [] (fun n => (D.compIn ct n).map fun c => (c.ty, c.optional)) ρ) :
    CheckOk ⟨D, rx.search⟩ rx.search K [] ρ c.expr := by
  obtain ⟨h1, h2, -⟩ := acc_wt wf h
  obtain ⟨-, ⟨other, enums, r, -, hr⟩, -⟩ := h
  obtain ⟨h3, h4⟩ := elabCheck_ok hr
  exact ⟨_, h1, h2, elab_apt (E := ⟨D, rx.search, rx.valid⟩) wf r _ _ h3, hp, h4, hn⟩

/-- the verification conditions of a type whose declarations and checks were accepted -/
theorem verify_wellFormed {s : PS} {rx : Regex} (hs : SoundDecls s.decls s.infos s.seps) (ha : AllAcc rx s) (ct : CompositeTy)
    (hp : ProperType s ct) {u : Unit} {G : TS} (h : s.verify rx.search ct TS.empty = .ok u G) : ∀ vc, IsVC G vc → vc.WellFormed s.decls := by
  have hw := hs.world
  have hD : DeclsOk s.decls := ⟨hw.wf, hw.unique, hw.tuples⟩
  have hcon : ∀ d ∈ s.decls.componentsOf ct, ∀ K ts, K (.value d.name) = some d.ty.srt →
      compConstraints ⟨s.decls, rx.search⟩ s.checks d = .ok ts → ∀ a ∈ ts, Sorted s.decls K [] a .bool := by
    intro d hd K ts hK hts
    refine constraints_sorted (T := ⟨s.decls, rx.search⟩) (rx := rx.search) hD (fun v hv k hk hsev K' hK' => ?_) hK hts
    have hck := mem_ofTup_ck.1 hk
    exact acc_check hw.wf (ha _ _ hck) (hp.tuples d hd v hv k hck hsev) (tupleNames_sorted (.sym hK'))
  have main : ∃ A, Inv s.decls A G := by
    cases ct with
    | record t =>
      unfold PS.verify at h
      refine vcgGraph_inv (T := ⟨s.decls, rx.search⟩) (rx := rx.search) hD (allComponents_nodup hw t) (fun d hd K x hx a hxa => ?_) hcon (fun x hx K hK => ?_) h
      · subst hxa
        unfold frozenValue recordVcg PS.frozenFor at hx
        simp only at hx
        cases hf : s.freezing t d.name with
        | none => rw [hf] at hx; cases hx
        | some n =>
          rw [hf] at hx
          simp only [Option.map_some, fr_bind] at hx
          obtain ⟨b, hb, hx⟩ := hx
          cases hx
          unfold PS.freezing at hf
          obtain ⟨a, ha1, ha2⟩ := List.exists_of_findSome?_eq_some hf
          obtain ⟨i, hi, hl⟩ : ∃ i, s.infos[a]? = some i ∧ i.frozen.lookup d.name = some n := by
            unfold PS.info at ha2
            cases hg : s.infos[a]? with
            | none => rw [hg] at ha2; simp at ha2
            | some i => rw [hg] at ha2; exact ⟨i, rfl, ha2⟩
          obtain ⟨c, ⟨v, hv, hdc⟩, hn, hok⟩ := hw.frozen a i d.name n hi hl
          have hext : Extends s.decls t a := (mem_ancestors hw.wf t a).1 ha1
          have : c = d := hw.unique t c d ⟨v, extends_trans hext hv, hdc⟩ ((mem_allComponents hw.wf t d).1 hd) hn
          subst this
          exact frozenTerm_sorted hok hb
      · obtain ⟨own, c⟩ := x
        simp only [recordVcg, markedChecks, List.mem_flatMap, List.mem_reverse, List.mem_map, Prod.mk.injEq] at hx
        obtain ⟨a, ha1, c', hc', -, rfl⟩ := hx
        have hext : Extends s.decls t a := (mem_ancestors hw.wf t a).1 ha1
        have hck := mem_ofRec_ck.1 hc'
        refine acc_check hw.wf (ha _ _ hck) (hp.own c' ⟨a, hext, hck⟩) (compTrs_sorted (fun n τ b hn => ?_) hK)
        obtain ⟨y, hy, hyt⟩ := find_comps hw hext n τ b hn
        simp only [compTrs, Option.map_eq_some_iff] at hy
        obtain ⟨e, he, rfl⟩ := hy
        exact ⟨e, he, hyt⟩
    | tup t =>
      unfold PS.verify at h
      refine vcgGraph_inv (T := ⟨s.decls, rx.search⟩) (rx := rx.search) hD (fields_names hw.tuples t) (fun d hd K x hx a hxa => ?_) hcon (fun x hx K hK => ?_) h
      · subst hxa
        cases hx
      · obtain ⟨own, c⟩ := x
        simp only [tupleVcg, List.mem_map, Prod.mk.injEq] at hx
        obtain ⟨c', hc', -, rfl⟩ := hx
        have hck := mem_ofTup_ck.1 hc'
        refine acc_check hw.wf (ha _ _ hck) (hp.own c' hck) (compTrs_sorted (fun n τ b hn => ?_) hK)
        obtain ⟨y, hy, hyt⟩ := find_fields n τ b hn
        simp only [compTrs, Option.map_eq_some_iff] at hy
        obtain ⟨e, he, rfl⟩ := hy
        exact ⟨e, he, hyt⟩
  obtain ⟨A, hi⟩ := main
  exact fun vc hvc => vc_wf hi hvc

section
variable {o : Options} {X : Outside} {required : List CU → Finset PNode} {fs : List Source} {s : PS}

theorem ProperType.same {s s' : PS} {ct : CompositeTy} (h : ProperType s ct) (h1 : s.decls = s'.decls) (h3 : s.checks = s'.checks) :
    ProperType s' ct := by
  obtain ⟨a, b⟩ := h
  rw [h1, h3] at a b
  exact ⟨a, b⟩

/-- **C89** in full: after a successful run, whatever the verification of a declared type gives to the solver is well formed. -/
def C89_full : Prop :=
  ∀ (o : Options) (X : Outside) (required : List CU → Finset PNode) (fs : List Source) (s : PS), Lemmas.Blank s →
    (process o X required fs s).out = .table → ∀ ct G, DeclaredCt (process o X required fs s).state.decls ct →
    (process o X required fs s).state.verify X.rx.search ct TS.empty = .ok () G →
    ∀ vc, IsVC G vc → vc.WellFormed (process o X required fs s).state.decls

/-- **C89**, what holds: whatever is given to the solver for a type with proper checks is well formed: operators get operands of
their sorts, constants are declared once and before they are used, and what is asserted or to be shown is Boolean. -/
theorem C89_partial (hb : Lemmas.Blank s) (h : (process o X required fs s).out = .table) {ct : CompositeTy}
    (hp : ProperType (process o X required fs s).state ct) {G : TS}
    (hG : (process o X required fs s).state.verify X.rx.search ct TS.empty = .ok () G) :
    ∀ vc, IsVC G vc → vc.WellFormed (process o X required fs s).state.decls := by
  have key : ∃ g ls s1 s2, Succeeded o X (required (ls.map (·.cu))) fs s (process o X required fs s).state g ls s1 s2 := by
    unfold process at h ⊢
    split at h
    · cases h
    · cases h
    · next g ls s1 h1 =>
      dsimp only at h ⊢
      obtain ⟨k1, s2, k2, k3, k4, -⟩ := analyse_table h
      refine ⟨g, ls, s1, s2, ⟨loadAll_ok globalTable_pkgTab h1, ?_, k2, k3, k4⟩⟩
      intro l hl
      have := List.all_eq_true.1 k1 l hl
      simpa using this
  obtain ⟨g, ls, s1, s2, k⟩ := key
  have r := rsl_ready (hb.quiet k.built.quiet) k.built.tab k.rsl
  obtain ⟨e1, e2, e3, e4⟩ := succeeded_kept k r
  rw [verify_same e1 e2 e4] at hG
  rw [e1]
  exact verify_wellFormed r.inv.sound r.acc ct (hp.same e1 e4) hG

end

namespace SortsSample
open VerifySample

/-- an Integer converted to an Integer -/
def converting : SrcFile := ⟨"p.rsl", .rsl, true, "package P
type R { a Integer }
checks R { 10 / Integer(a) > 0, error \"m\" }".toList⟩

/-- looking for the literal of one enumeration in an array of another -/
def mixing : SrcFile := ⟨"p.rsl", .rsl, true, "package P
enum A { x }
enum B { y }
type R { a A b B[1..*] c optional Integer }
checks R { a in b, fatal \"m\" c > 0, error \"n\" }".toList⟩

end SortsSample
end Verif.Props
