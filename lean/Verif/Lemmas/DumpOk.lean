import Verif.Lemmas.Dump
import Verif.Spec.Parsed
/-!
When dumping a type ends
-/
namespace Verif.Lemmas.Dump
open Verif.Model Verif.Spec Verif.Lemmas

variable {D : Decls} {seps : List (List Sep)} {C : CheckTab} {var var' : Nat → String → DumpR} {V : String → Prop}

theorem ok_typ {i : Nat} {t : Option Ty} (h : t ≠ none) : Ok (dumpTyp i t) := by
  cases t with
  | none => exact absurd rfl h
  | some t => exact ok_ok

theorem ok_head {ls : List DLine} {r : DumpR} : Ok (DumpR.followed (.ok ls) r) ↔ Ok r := by
  rw [ok_followed]
  exact ⟨fun h => h.2, fun h => ⟨ok_ok, h⟩⟩

theorem fine_head {ls : List DLine} {r : DumpR} (h : Fine r) : Fine (DumpR.followed (.ok ls) r) := fine_followed fine_ok h

mutual
theorem expr_ok (hv : ∀ j n, Ok (var j n) ↔ V n) : ∀ (e : Expr) (i : Nat), Typed e →
    (Ok (e.dump var i) ↔ ∀ n, QuantifiesIn e n → V n)
  | .null, i, _ | .bool _, i, _ | .int _, i, _ | .dec _, i, _ | .str _, i, _ | .enum _ _, i, _ | .name _ _, i, _ => by
    simp only [Expr.dump, QuantifiesIn]
    exact ⟨fun _ _ h => h.elim, fun _ => ok_ok⟩
  | .unary t op e, i, h => by
    simp only [Typed] at h
    simp only [Expr.dump, QuantifiesIn, ok_followed, ok_ok, true_and, expr_ok hv e _ h.2, ok_typ h.1]
  | .binary t op l r, i, h => by
    simp only [Typed] at h
    simp only [Expr.dump, QuantifiesIn, ok_followed, ok_ok, true_and, expr_ok hv l _ h.2.1, expr_ok hv r _ h.2.2, ok_typ h.1,
      or_imp, forall_and]
  | .logic op l r, i, h => by
    simp only [Typed] at h
    simp only [Expr.dump, QuantifiesIn, ok_followed, ok_ok, true_and, expr_ok hv l _ h.1, expr_ok hv r _ h.2, or_imp, forall_and]
  | .field p n t, i, h => by
    simp only [Typed] at h
    simp only [Expr.dump, QuantifiesIn, ok_head, expr_ok hv p _ h]
  | .range e lo up, i, h => by
    simp only [Typed] at h
    simp only [Expr.dump, QuantifiesIn, ok_followed, ok_ok, true_and, expr_ok hv e _ h.1, expr_ok hv lo _ h.2.1, expr_ok hv up _ h.2.2,
      or_imp, forall_and]
  | .oneof es, i, h => by
    simp only [Typed] at h
    simp only [Expr.dump, QuantifiesIn, ok_head, exprs_ok hv es _ h]
  | .cond t as, i, h => by
    simp only [Typed] at h
    simp only [Expr.dump, QuantifiesIn, ok_head, acts_ok hv as _ h]
  | .quant u x src e, i, h => by
    simp only [Typed] at h
    simp only [Expr.dump, QuantifiesIn, ok_followed, ok_ok, true_and, expr_ok hv e _ h, hv, or_imp, forall_and, forall_eq]
theorem exprs_ok (hv : ∀ j n, Ok (var j n) ↔ V n) : ∀ (es : Exprs) (i : Nat), Typeds es →
    (Ok (es.dump var i) ↔ ∀ n, QuantifiesInAny es n → V n)
  | .nil, i, _ => by
    simp only [Exprs.dump, QuantifiesInAny]
    exact ⟨fun _ _ h => h.elim, fun _ => ok_ok⟩
  | .cons e es, i, h => by
    simp only [Typeds] at h
    simp only [Exprs.dump, QuantifiesInAny, ok_followed, expr_ok hv e _ h.1, exprs_ok hv es _ h.2, or_imp, forall_and]
theorem acts_ok (hv : ∀ j n, Ok (var j n) ↔ V n) : ∀ (as : Acts) (i : Nat), TypedA as →
    (Ok (as.dump var i) ↔ ∀ n, QuantifiesInActs as n → V n)
  | .els e, i, h => by
    simp only [TypedA] at h
    simp only [Acts.dump, QuantifiesInActs, ok_head, expr_ok hv e _ h]
  | .act c e as, i, h => by
    simp only [TypedA] at h
    simp only [Acts.dump, QuantifiesInActs, ok_followed, ok_ok, true_and, expr_ok hv c _ h.1, expr_ok hv e _ h.2.1, acts_ok hv as _ h.2.2,
      or_imp, forall_and]
end

mutual
theorem expr_fine (hv : ∀ j n, V n → Fine (var j n)) : ∀ (e : Expr) (i : Nat), Typed e → (∀ n, QuantifiesIn e n → V n) →
    Fine (e.dump var i)
  | .null, i, _, _ | .bool _, i, _, _ | .int _, i, _, _ | .dec _, i, _, _ | .str _, i, _, _ | .enum _ _, i, _, _
  | .name _ _, i, _, _ => by
    simp only [Expr.dump]
    exact fine_ok
  | .unary t op e, i, h, q => by
    simp only [Typed] at h
    simp only [QuantifiesIn] at q
    simp only [Expr.dump]
    exact fine_head (fine_followed (.inr (ok_typ h.1)) (expr_fine hv e _ h.2 q))
  | .binary t op l r, i, h, q => by
    simp only [Typed] at h
    simp only [QuantifiesIn, or_imp, forall_and] at q
    simp only [Expr.dump]
    exact fine_head (fine_followed (.inr (ok_typ h.1)) (fine_followed (expr_fine hv l _ h.2.1 q.1) (expr_fine hv r _ h.2.2 q.2)))
  | .logic op l r, i, h, q => by
    simp only [Typed] at h
    simp only [QuantifiesIn, or_imp, forall_and] at q
    simp only [Expr.dump]
    exact fine_head (fine_followed (expr_fine hv l _ h.1 q.1) (expr_fine hv r _ h.2 q.2))
  | .field p n t, i, h, q => by
    simp only [Typed] at h
    simp only [QuantifiesIn] at q
    simp only [Expr.dump]
    exact fine_head (expr_fine hv p _ h q)
  | .range e lo up, i, h, q => by
    simp only [Typed] at h
    simp only [QuantifiesIn, or_imp, forall_and] at q
    simp only [Expr.dump]
    exact fine_head (fine_followed (expr_fine hv e _ h.1 q.1)
      (fine_followed (expr_fine hv lo _ h.2.1 q.2.1) (expr_fine hv up _ h.2.2 q.2.2)))
  | .oneof es, i, h, q => by
    simp only [Typed] at h
    simp only [QuantifiesIn] at q
    simp only [Expr.dump]
    exact fine_head (exprs_fine hv es _ h q)
  | .cond t as, i, h, q => by
    simp only [Typed] at h
    simp only [QuantifiesIn] at q
    simp only [Expr.dump]
    exact fine_head (acts_fine hv as _ h q)
  | .quant u x src e, i, h, q => by
    simp only [Typed] at h
    simp only [QuantifiesIn, or_imp, forall_and, forall_eq] at q
    simp only [Expr.dump]
    exact fine_head (fine_followed (hv _ _ q.1) (expr_fine hv e _ h q.2))
theorem exprs_fine (hv : ∀ j n, V n → Fine (var j n)) : ∀ (es : Exprs) (i : Nat), Typeds es → (∀ n, QuantifiesInAny es n → V n) →
    Fine (es.dump var i)
  | .nil, i, _, _ => by
    simp only [Exprs.dump]
    exact fine_ok
  | .cons e es, i, h, q => by
    simp only [Typeds] at h
    simp only [QuantifiesInAny, or_imp, forall_and] at q
    simp only [Exprs.dump]
    exact fine_followed (expr_fine hv e _ h.1 q.1) (exprs_fine hv es _ h.2 q.2)
theorem acts_fine (hv : ∀ j n, V n → Fine (var j n)) : ∀ (as : Acts) (i : Nat), TypedA as → (∀ n, QuantifiesInActs as n → V n) →
    Fine (as.dump var i)
  | .els e, i, h, q => by
    simp only [TypedA] at h
    simp only [QuantifiesInActs] at q
    simp only [Acts.dump]
    exact fine_head (expr_fine hv e _ h q)
  | .act c e as, i, h, q => by
    simp only [TypedA] at h
    simp only [QuantifiesInActs, or_imp, forall_and] at q
    simp only [Acts.dump]
    exact fine_head (fine_followed (expr_fine hv c _ h.1 q.1) (fine_head (fine_followed (expr_fine hv e _ h.2.1 q.2.1)
      (acts_fine hv as _ h.2.2 q.2.2))))
end

/-- the same, if it ends -/
def Keeps (a b : DumpR) : Prop := ∀ ls, a = .ok ls → b = .ok ls

theorem Keeps.refl (a : DumpR) : Keeps a a := fun _ h => h

theorem Keeps.followed {a b a' b' : DumpR} (h1 : Keeps a a') (h2 : Keeps b b') : Keeps (a.followed b) (a'.followed b') := by
  intro ls h
  obtain ⟨x, y, e1, e2, rfl⟩ := followed_ok.1 h
  exact followed_ok.2 ⟨x, y, h1 _ e1, h2 _ e2, rfl⟩

theorem Keeps.all {α : Type} {f f' : α → DumpR} (h : ∀ a, Keeps (f a) (f' a)) (as : List α) : Keeps (dumpAll f as) (dumpAll f' as) := by
  induction as with
  | nil => exact .refl _
  | cons a as ih => exact (h a).followed ih

mutual
theorem expr_keeps (hv : ∀ j n, Keeps (var j n) (var' j n)) : ∀ (e : Expr) (i : Nat), Keeps (e.dump var i) (e.dump var' i)
  | .null, i | .bool _, i | .int _, i | .dec _, i | .str _, i | .enum _ _, i | .name _ _, i => by
    simp only [Expr.dump]
    exact .refl _
  | .unary t op e, i => by
    simp only [Expr.dump]
    exact (Keeps.refl _).followed ((Keeps.refl _).followed (expr_keeps hv e _))
  | .binary t op l r, i => by
    simp only [Expr.dump]
    exact (Keeps.refl _).followed ((Keeps.refl _).followed ((expr_keeps hv l _).followed (expr_keeps hv r _)))
  | .logic op l r, i => by
    simp only [Expr.dump]
    exact (Keeps.refl _).followed ((expr_keeps hv l _).followed (expr_keeps hv r _))
  | .field p n t, i => by
    simp only [Expr.dump]
    exact (Keeps.refl _).followed (expr_keeps hv p _)
  | .range e lo up, i => by
    simp only [Expr.dump]
    exact (Keeps.refl _).followed ((expr_keeps hv e _).followed ((expr_keeps hv lo _).followed (expr_keeps hv up _)))
  | .oneof es, i => by
    simp only [Expr.dump]
    exact (Keeps.refl _).followed (exprs_keeps hv es _)
  | .cond t as, i => by
    simp only [Expr.dump]
    exact (Keeps.refl _).followed (acts_keeps hv as _)
  | .quant u x src e, i => by
    simp only [Expr.dump]
    exact (Keeps.refl _).followed ((hv _ _).followed (expr_keeps hv e _))
theorem exprs_keeps (hv : ∀ j n, Keeps (var j n) (var' j n)) : ∀ (es : Exprs) (i : Nat), Keeps (es.dump var i) (es.dump var' i)
  | .nil, i => by
    simp only [Exprs.dump]
    exact .refl _
  | .cons e es, i => by
    simp only [Exprs.dump]
    exact (expr_keeps hv e _).followed (exprs_keeps hv es _)
theorem acts_keeps (hv : ∀ j n, Keeps (var j n) (var' j n)) : ∀ (as : Acts) (i : Nat), Keeps (as.dump var i) (as.dump var' i)
  | .els e, i => by
    simp only [Acts.dump]
    exact (Keeps.refl _).followed (expr_keeps hv e _)
  | .act c e as, i => by
    simp only [Acts.dump]
    exact (Keeps.refl _).followed ((expr_keeps hv c _).followed ((Keeps.refl _).followed ((expr_keeps hv e _).followed
      (acts_keeps hv as _))))
end

theorem checks_keeps (hv : ∀ j n, Keeps (var j n) (var' j n)) (i : Nat) : ∀ cs, Keeps (dumpChecks var i cs) (dumpChecks var' i cs)
  | [] => .refl _
  | c :: cs => by
    rw [dumpChecks, dumpChecks]
    refine (Keeps.refl _).followed (.all (fun k => ?_) (c :: cs))
    exact (Keeps.refl _).followed (expr_keeps hv k.expr _)

theorem checks_ok (hv : ∀ j n, Ok (var j n) ↔ V n) (i : Nat) : ∀ cs, (∀ c ∈ cs, Typed c.expr) →
    (Ok (dumpChecks var i cs) ↔ ∀ c ∈ cs, ∀ n, QuantifiesIn c.expr n → V n)
  | [], _ => by
    simp only [dumpChecks, List.not_mem_nil, false_imp_iff, implies_true, iff_true]
    exact ok_ok
  | c :: cs, h => by
    rw [dumpChecks, ok_head, ok_dumpAll]
    refine forall_congr' fun k => forall_congr' fun hk => ?_
    rw [Check.dump, ok_head, expr_ok hv _ _ (h k hk)]

theorem checks_fine (hv : ∀ j n, V n → Fine (var j n)) (i : Nat) : ∀ cs, (∀ c ∈ cs, Typed c.expr) →
    (∀ c ∈ cs, ∀ n, QuantifiesIn c.expr n → V n) → Fine (dumpChecks var i cs)
  | [], _, _ => fine_ok
  | c :: cs, h, q => by
    rw [dumpChecks]
    exact fine_head (fine_dumpAll fun k hk => fine_head (expr_fine hv _ _ (h k hk) (q k hk)))

/-! ## Types -/

/-- the variables of the checks of a type -/
def varOf (D : Decls) (seps : List (List Sep)) (C : CheckTab) (fuel : Nat) (ct : CompositeTy) (j : Nat) (src : String) : DumpR :=
  match elementOf (D.compIn ct src) with
  | none => .error .attribute
  | some e => dumpTy D seps C fuel j e

/-- the lines before the checks -/
def typeHead (D : Decls) (seps : List (List Sep)) (i : Nat) : CompositeTy → List DLine
  | .record r => (i, .type (.record r)) :: ((D.recs[r]?).bind (·.parent)).toList.map (fun p => (i + 1, .extends p)) ++
      ((D.ancestors r).flatMap D.own).flatMap (Comp.dump (i + 1))
  | .tup r => (i, .type (.tup r)) :: (i + 1, .fields) ::
      (iterSequence (D.fields r) ((seps[r]?).getD [])).flatMap (SeqItem.dump (i + 2))

theorem dumpTy_composite (fuel i : Nat) (ct : CompositeTy) :
    dumpTy D seps C (fuel + 1) i (tyOf ct) =
      DumpR.followed (.ok (typeHead D seps i ct)) (dumpChecks (varOf D seps C fuel ct) (i + 1) (C.of ct)) := by
  cases ct <;> rfl

theorem dumpTy_other (fuel i : Nat) {t : Ty} (h : ∀ ct, t ≠ tyOf ct) : Ok (dumpTy D seps C (fuel + 1) i t) := by
  cases t with
  | record r => exact absurd rfl (h (.record r))
  | tup r => exact absurd rfl (h (.tup r))
  | _ => exact ⟨_, rfl⟩

theorem dumpTy_keeps : ∀ (fuel i : Nat) (t : Ty), Keeps (dumpTy D seps C fuel i t) (dumpTy D seps C (fuel + 1) i t)
  | 0, i, t => fun ls h => by rw [dumpTy] at h; cases h
  | fuel + 1, i, t => by
    by_cases h : ∃ ct, t = tyOf ct
    · obtain ⟨ct, rfl⟩ := h
      rw [dumpTy_composite, dumpTy_composite]
      refine (Keeps.refl _).followed (checks_keeps (fun j n => ?_) _ _)
      unfold varOf
      split
      · exact .refl _
      · exact dumpTy_keeps fuel _ _
    · have h' : ∀ ct, t ≠ tyOf ct := fun ct e => h ⟨ct, e⟩
      cases t with
      | record r => exact absurd rfl (h' (.record r))
      | tup r => exact absurd rfl (h' (.tup r))
      | _ => exact fun ls e => e

theorem dumpTy_more {n m : Nat} (h : n ≤ m) (i : Nat) (t : Ty) : Keeps (dumpTy D seps C n i t) (dumpTy D seps C m i t) := by
  induction h with
  | refl => exact .refl _
  | step _ ih => exact fun ls e => dumpTy_keeps _ _ _ _ (ih ls e)

/-- chains of quantifiers are shorter -/
def Within (D : Decls) (C : CheckTab) : Nat → Ty → Prop
  | 0, _ => False
  | n + 1, t => ∀ u, RangesOver D C t u → Within D C n u

/-- the checks are typed, and their quantifiers range over arrays -/
def ChecksFit (D : Decls) (C : CheckTab) : Prop := ∀ ct c, CheckOf C ct c → Typed c.expr ∧ Arrs (D.compIn ct) c.expr

theorem mem_of {ct : CompositeTy} {c : Check} : c ∈ C.of ct ↔ CheckOf C ct c := by
  cases ct with
  | record t =>
    simp only [CheckTab.of, CheckOf]
    cases C.recs[t]? <;> simp
  | tup t =>
    simp only [CheckTab.of, CheckOf]
    cases C.tups[t]? <;> simp

theorem tyOf_inj {a b : CompositeTy} (h : tyOf a = tyOf b) : a = b := by
  cases a <;> cases b <;> simp_all [tyOf]

section
variable {infos : List RecInfo} (hs : SoundDecls D infos seps) (hf : ChecksFit D C)
include hs hf

theorem ranges_iff {ct : CompositeTy} {u : Ty} : RangesOver D C (tyOf ct) u ↔
    ∃ c ∈ C.of ct, ∃ n, QuantifiesIn c.expr n ∧ elementOf (D.compIn ct n) = some u := by
  constructor
  · rintro ⟨ct', k, c, id, lo, hi, e, hk, hq, hc, ht⟩
    cases tyOf_inj e
    refine ⟨k, mem_of.2 hk, c.name, hq, ?_⟩
    rw [(compIn_iff hs).2 ⟨hc, rfl⟩]
    simp only [elementOf, ht]
  · rintro ⟨k, hk, n, hq, he⟩
    obtain ⟨c, id, u', lo, hi, h1, h2⟩ := (hf ct k (mem_of.1 hk)).2 n hq
    obtain ⟨h3, rfl⟩ := (compIn_iff hs).1 h1
    rw [h1] at he
    simp only [elementOf, h2] at he
    cases he
    exact ⟨ct, k, c, id, lo, hi, rfl, mem_of.1 hk, hq, h3, h2⟩

theorem dumpTy_ok : ∀ (fuel i : Nat) (t : Ty), Ok (dumpTy D seps C fuel i t) ↔ Within D C fuel t
  | 0, i, t => by
    rw [dumpTy, Within, iff_false]
    rintro ⟨ls, h⟩
    cases h
  | fuel + 1, i, t => by
    by_cases h : ∃ ct, t = tyOf ct
    · obtain ⟨ct, rfl⟩ := h
      rw [dumpTy_composite, ok_head, Within,
        checks_ok (V := fun n => ∃ u, elementOf (D.compIn ct n) = some u ∧ Within D C fuel u) ?_ _ _
          (fun c hc => (hf ct c (mem_of.1 hc)).1)]
      · constructor
        · intro h u hu
          obtain ⟨c, hc, n, hq, he⟩ := (ranges_iff hs hf).1 hu
          obtain ⟨u', e1, e2⟩ := h c hc n hq
          rw [he] at e1
          cases e1
          exact e2
        · intro h c hc n hq
          obtain ⟨c', id, u, lo, hi, h1, h2⟩ := (hf ct c (mem_of.1 hc)).2 n hq
          have he : elementOf (D.compIn ct n) = some u := by rw [h1]; simp only [elementOf, h2]
          exact ⟨u, he, h u ((ranges_iff hs hf).2 ⟨c, hc, n, hq, he⟩)⟩
      · intro j n
        unfold varOf
        split
        · next e =>
          constructor
          · rintro ⟨ls, h⟩; cases h
          · rintro ⟨u, h, -⟩; rw [e] at h; cases h
        · next e he =>
          rw [dumpTy_ok fuel j e]
          constructor
          · exact fun h => ⟨e, he, h⟩
          · rintro ⟨u, h, hu⟩
            rw [he] at h
            cases h
            exact hu
    · have h' : ∀ ct, t ≠ tyOf ct := fun ct e => h ⟨ct, e⟩
      refine iff_of_true (dumpTy_other _ _ h') ?_
      rintro u ⟨ct, -, -, -, -, -, e, -⟩
      exact absurd e (h' ct)

theorem dumpTy_fine : ∀ (fuel i : Nat) (t : Ty), Fine (dumpTy D seps C fuel i t)
  | 0, i, t => .inl (by rw [dumpTy])
  | fuel + 1, i, t => by
    by_cases h : ∃ ct, t = tyOf ct
    · obtain ⟨ct, rfl⟩ := h
      rw [dumpTy_composite]
      refine fine_head (checks_fine (V := fun n => ∃ u, elementOf (D.compIn ct n) = some u) ?_ _ _
          (fun c hc => (hf ct c (mem_of.1 hc)).1) ?_)
      · rintro j n ⟨u, hu⟩
        unfold varOf
        rw [hu]
        exact dumpTy_fine fuel j u
      · intro c hc n hq
        obtain ⟨c', id, u, lo, hi, h1, h2⟩ := (hf ct c (mem_of.1 hc)).2 n hq
        exact ⟨u, by rw [h1]; simp only [elementOf, h2]⟩
    · exact .inr (dumpTy_other _ _ fun ct e => h ⟨ct, e⟩)

end

/-! ## Chains of quantifiers -/

open Relation

theorem cycle_within : ∀ (n : Nat) (t : Ty), TransGen (RangesOver D C) t t → ¬ Within D C n t
  | 0, _, _, h => h
  | n + 1, t, hc, h => by
    obtain ⟨u, h1, h2⟩ := TransGen.head'_iff.1 hc
    exact cycle_within n u (TransGen.tail' h2 h1) (h u h1)

/-- the record and tuple types -/
def composites (nr nt : Nat) : List Ty := (List.range nr).map .record ++ (List.range nt).map .tup

theorem long_chain {nr nt : Nat} (hsrc : ∀ t u, RangesOver D C t u → t ∈ composites nr nt) : ∀ (n : Nat) (t : Ty), ¬ Within D C n t →
    ∃ l : List Ty, l.length = n ∧ l.Pairwise (TransGen (RangesOver D C)) ∧
      ∀ x ∈ l, x ∈ composites nr nt ∧ ReflTransGen (RangesOver D C) t x
  | 0, t, _ => ⟨[], rfl, .nil, by simp⟩
  | n + 1, t, h => by
    simp only [Within, not_forall] at h
    obtain ⟨u, hu, h⟩ := h
    obtain ⟨l, h1, h2, h3⟩ := long_chain hsrc n u h
    refine ⟨t :: l, by simp [h1], List.pairwise_cons.2 ⟨fun x hx => TransGen.head' hu (h3 x hx).2, h2⟩, ?_⟩
    intro x hx
    rcases List.mem_cons.1 hx with rfl | hx
    · exact ⟨hsrc _ u hu, .refl⟩
    · exact ⟨(h3 x hx).1, .head hu (h3 x hx).2⟩

theorem acyclic_within {nr nt : Nat} (hsrc : ∀ t u, RangesOver D C t u → t ∈ composites nr nt)
    (ha : ∀ t, ¬ TransGen (RangesOver D C) t t) (t : Ty) : Within D C (nr + nt + 1) t := by
  by_contra h
  obtain ⟨l, h1, h2, h3⟩ := long_chain hsrc _ t h
  have hn : l.Nodup := by
    refine List.Pairwise.imp ?_ h2
    rintro a b hab rfl
    exact ha a hab
  have := (hn.subperm fun x hx => (h3 x hx).1).length_le
  simp only [composites, List.length_append, List.length_map, List.length_range, h1] at this
  omega

/-! ## Values -/

mutual
theorem val_ok : ∀ (v : PVal) (τ : Ty) (i : Nat), VOk D v τ → Ok (v.dump D i)
  | .inull, τ, i, h => by simp only [VOk] at h
  | .bool _, τ, i, _ | .int _, τ, i, _ | .dec _, τ, i, _ | .str _, τ, i, _ | .enum _ _, τ, i, _ | .markup _ _, τ, i, _
  | .ref _ _ _, τ, i, _ => by simp only [PVal.dump]; exact ok_ok
  | .neg e, τ, i, h => by
    simp only [VOk] at h
    rcases h with ⟨-, n, rfl⟩ | ⟨-, n, rfl⟩ <;> exact ok_ok
  | .pos e, τ, i, h => by
    simp only [VOk] at h
    rcases h with ⟨-, n, rfl⟩ | ⟨-, n, rfl⟩ <;> exact ok_ok
  | .arr t es, τ, i, h => by
    simp only [VOk] at h
    obtain ⟨-, id, elem, lo, hi, -, h⟩ := h
    simp only [PVal.dump, ok_head]
    exact vals_ok es elem _ h
  | .tup t fs, τ, i, h => by
    simp only [VOk] at h
    obtain ⟨-, cs, h1, h2⟩ := h
    have := fields_ok fs cs (i + 1) h2
    simp only [PVal.dump, ok_head, ok_dumpAll, Decls.fields, h1, Option.getD_some]
    intro c hc
    obtain ⟨r, h3, h4⟩ := this c hc
    rw [h3]
    exact h4
theorem vals_ok : ∀ (es : List PVal) (τ : Ty) (i : Nat), AllVOk D es τ → Ok (dumpVals D i es)
  | [], _, i, _ => by simp only [dumpVals]; exact ok_ok
  | e :: es, τ, i, h => by
    simp only [AllVOk] at h
    simp only [dumpVals, ok_followed]
    exact ⟨val_ok e τ i h.1, vals_ok es τ i h.2⟩
theorem fields_ok : ∀ (fs : List (String × PVal)) (cs : List Comp) (i : Nat), FieldsVOk D fs cs →
    ∀ c ∈ cs, ∃ r, (dumpFields D i fs).lookup c.name = some r ∧ Ok r
  | [], [], i, _ => by intro c hc; cases hc
  | [], _ :: _, i, h => by simp only [FieldsVOk] at h
  | _ :: _, [], i, h => by simp only [FieldsVOk] at h
  | f :: fs, c :: cs, i, h => by
    simp only [FieldsVOk] at h
    obtain ⟨h1, h2⟩ := field_ok f c i h.1
    have ih := fields_ok fs cs i h.2
    intro c' hc'
    simp only [dumpFields]
    rcases hd : dumpField D i f with ⟨n, r⟩
    rw [hd] at h1 h2
    simp only [List.lookup_cons]
    by_cases e : c'.name = n
    · exact ⟨r, by simp [e], h2⟩
    · rw [show (c'.name == n) = false by simpa using e]
      rcases List.mem_cons.1 hc' with rfl | hc'
      · exact absurd h1.symm e
      · exact ih c' hc'
theorem field_ok : ∀ (f : String × PVal) (c : Comp) (i : Nat), FieldVOk D f c →
    (dumpField D i f).1 = c.name ∧ Ok (dumpField D i f).2
  | (n, e), c, i, h => by
    simp only [FieldVOk] at h
    simp only [dumpField]
    refine ⟨h.1, ?_⟩
    rcases h.2 with ⟨-, rfl⟩ | h
    · simp only [PVal.dump]; exact ok_ok
    · exact val_ok e _ i h
end

theorem obj_ok {ob : Obj} (h : ∀ f ∈ ob.fields, f.2.val = .inull ∨ ∃ τ, VOk D f.2.val τ) (i id : Nat) : Ok (ob.dump D i id) := by
  unfold Obj.dump
  rw [ok_head, ok_followed, ok_dumpAll]
  refine ⟨fun f hf => ?_, ok_ok⟩
  rw [ok_head]
  rcases h f hf with e | ⟨τ, e⟩
  · rw [e, PVal.dump]; exact ok_ok
  · exact val_ok _ _ _ e

end Verif.Lemmas.Dump
