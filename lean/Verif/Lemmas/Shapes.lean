import Verif.Lemmas.WrittenFacts
import Verif.Spec.Shapes
import Verif.Spec.Checks
import Verif.Spec.Conform
import Verif.Model.Run.Objects
/-!
# The shape of values that are written in trlc files
-/
namespace Verif.Lemmas
open Verif.Model Verif.Spec

theorem absent_null : ∀ (fs : List (String × PVal)) (cs : List Comp), Absent fs cs → ∀ f ∈ fs, f.2 = .inull
  | [], _, _, f, hf => by cases hf
  | _ :: _, [], h, _, _ => h.elim
  | (n, v) :: fs, c :: cs, h, f, hf => by
    obtain ⟨-, h1, h2⟩ := h
    rcases List.mem_cons.1 hf with rfl | hf
    · exact h1
    · exact absent_null fs cs h2 f hf

theorem absent_tails : ∀ (fs : List (String × PVal)), (∀ f ∈ fs, f.2 = .inull) →
    fs.Pairwise (fun a b => a.2 = .inull → b.2 = .inull) ∧ FieldsTailsNull fs
  | [], _ => ⟨.nil, trivial⟩
  | (n, v) :: fs, h => by
    obtain ⟨h1, h2⟩ := absent_tails fs fun f hf => h f (List.mem_cons_of_mem _ hf)
    have hv : v = .inull := h (n, v) List.mem_cons_self
    refine ⟨List.pairwise_cons.2 ⟨fun b hb _ => h b (List.mem_cons_of_mem _ hb), h1⟩, ?_, h2⟩
    rw [hv]
    trivial

mutual
theorem written_tails {E : FileEnv} {N : Names} : (v : PVal) → (τ : Ty) → (ts : List Token) → (nx : Option Token) →
    Written E N v τ ts nx → v ≠ .inull ∧ TailsNull v
  | .inull, _, _, _, h => h.elim
  | .bool _, _, _, _, _ => ⟨nofun, trivial⟩
  | .int _, _, _, _, _ => ⟨nofun, trivial⟩
  | .dec _, _, _, _, _ => ⟨nofun, trivial⟩
  | .str _, _, _, _, _ => ⟨nofun, trivial⟩
  | .markup _ _, _, _, _, _ => ⟨nofun, trivial⟩
  | .enum _ _, _, _, _, _ => ⟨nofun, trivial⟩
  | .neg v, τ, _, nx, h => ⟨nofun, trivial⟩
  | .pos v, τ, _, nx, h => ⟨nofun, trivial⟩
  | .arr ty es, τ, _, _, h => by
    simp only [Written] at h
    obtain ⟨-, id, elem, lo, hi, a, r, b, -, -, -, -, h, hl⟩ := h
    exact ⟨nofun, writtenElems_tails es elem r _ h⟩
  | .tup t fs, τ, ts, nx, h => by
    simp only [Written] at h
    refine ⟨nofun, ?_⟩
    obtain ⟨-, cs, -, ⟨seps, -, -, h⟩ | ⟨-, a, r, b, -, -, -, h⟩⟩ := h
    · exact writtenSep_tails fs cs seps false ts nx h
    · exact (writtenPlain_tails fs cs true r _ h).1
  | .ref _ _ _, _, _, _, _ => ⟨nofun, trivial⟩

theorem writtenElems_tails {E : FileEnv} {N : Names} : (es : List PVal) → (τ : Ty) →
    (ts : List Token) → (nx : Option Token) → WrittenElems E N es τ ts nx → AllTailsNull es
  | [], _, _, _, _ => trivial
  | e :: es, τ, ts, nx, h => by
    simp only [WrittenElems] at h
    obtain ⟨a, b, -, h1, ⟨rfl, -⟩ | ⟨-, c, r, -, -, h2⟩⟩ := h
    · exact ⟨(written_tails e τ a _ h1).2, trivial⟩
    · exact ⟨(written_tails e τ a _ h1).2, writtenElems_tails es τ r nx h2⟩

theorem writtenPlain_tails {E : FileEnv} {N : Names} : (fs : List (String × PVal)) →
    (cs : List Comp) → (first : Bool) → (ts : List Token) → (nx : Option Token) → WrittenPlain E N fs cs first ts nx →
    (fs.Pairwise (fun a b => a.2 = .inull → b.2 = .inull) ∧ FieldsTailsNull fs) ∧ ∀ f ∈ fs, f.2 ≠ .inull
  | [], _, _, _, _, _ => ⟨⟨.nil, trivial⟩, by simp⟩
  | _ :: _, [], _, _, _, h => by simp only [WrittenPlain] at h
  | (n, v) :: fs, c :: cs, first, ts, nx, h => by
    simp only [WrittenPlain, WrittenField] at h
    obtain ⟨k, a, b, -, -, h1, h2⟩ := h
    obtain ⟨h3, h4⟩ := written_tails v c.ty a _ h1.2
    obtain ⟨h5, h6⟩ := writtenPlain_tails fs cs false b nx h2
    refine ⟨⟨List.pairwise_cons.2 ⟨fun _ _ h => absurd h h3, h5.1⟩, h4, h5.2⟩, fun f hf => ?_⟩
    rcases List.mem_cons.1 hf with rfl | hf
    · exact h3
    · exact h6 f hf

theorem writtenSep_tails {E : FileEnv} {N : Names} : (fs : List (String × PVal)) →
    (cs : List Comp) → (seps : List Sep) → (missed : Bool) → (ts : List Token) → (nx : Option Token) →
    WrittenSep E N fs cs seps missed ts nx → fs.Pairwise (fun a b => a.2 = .inull → b.2 = .inull) ∧ FieldsTailsNull fs
  | [], _, _, _, _, _, _ => ⟨.nil, trivial⟩
  | _ :: _, [], _, _, _, _, h => by simp only [WrittenSep] at h
  | (n, v) :: fs, c :: cs, seps, missed, ts, nx, h => by
    simp only [WrittenSep, WrittenField] at h
    rcases h with ⟨-, -, -, h⟩ | ⟨-, a, b, -, h1, h2⟩
    · exact absent_tails _ (absent_null _ _ h)
    · obtain ⟨h3, h4⟩ := written_tails v c.ty a _ h1.2
      have h5 : fs.Pairwise (fun a b => a.2 = .inull → b.2 = .inull) ∧ FieldsTailsNull fs := by
        cases seps with
        | nil => exact writtenSep_tails fs cs [] missed b nx h2
        | cons sp seps =>
          simp only at h2
          rcases h2 with ⟨x, r, -, -, h2⟩ | ⟨-, h2⟩
          · exact writtenSep_tails fs cs seps missed r nx h2
          · exact writtenSep_tails fs cs seps true b nx h2
      exact ⟨List.pairwise_cons.2 ⟨fun _ _ h => absurd h h3, h5.1⟩, h4, h5.2⟩
end

/-! ### … after references are resolved -/

theorem resolveVal_null {s : PS} {v : PVal} {e : FExpr} (h : s.resolveVal v = .ok e) : e = .inull ↔ v = .inull := by
  cases v <;> simp only [PS.resolveVal] at h <;> (try split at h) <;> cases h <;> simp

theorem resolveFields_map {s : PS} : ∀ {fs : List (String × PVal)} {gs : List (String × FExpr)}, s.resolveFields fs = .ok gs →
    List.Forall₂ (fun f g => g.1 = f.1 ∧ s.resolveVal f.2 = .ok g.2) fs gs
  | [], _, h => by simp only [PS.resolveFields] at h; cases h; exact .nil
  | (n, v) :: fs, gs, h => by
    simp only [PS.resolveFields, PS.resolveField] at h
    cases hv : s.resolveVal v with
    | error x => rw [hv] at h; cases h
    | ok e =>
      rw [hv] at h
      dsimp only at h
      cases hr : s.resolveFields fs with
      | error x => rw [hr] at h; cases h
      | ok es =>
        rw [hr] at h
        cases h
        exact .cons ⟨rfl, hv⟩ (resolveFields_map hr)

theorem pairwise_forall₂ {α β : Type} {R : α → β → Prop} {P : α → α → Prop} {Q : β → β → Prop}
    (hPQ : ∀ a b c d, R a b → R c d → P a c → Q b d) : ∀ {l : List α} {m : List β}, List.Forall₂ R l m → l.Pairwise P → m.Pairwise Q
  | [], _, .nil, _ => .nil
  | a :: l, b :: m, .cons h1 h2, hp => by
    rw [List.pairwise_cons] at hp ⊢
    refine ⟨fun d hd => ?_, pairwise_forall₂ hPQ h2 hp.2⟩
    have : ∀ {l : List α} {m : List β}, List.Forall₂ R l m → ∀ d ∈ m, ∃ c ∈ l, R c d := by
      intro l m h
      induction h with
      | nil => intro d hd; cases hd
      | cons h1 h2 ih =>
        intro d hd
        rcases List.mem_cons.1 hd with rfl | hd
        · exact ⟨_, List.mem_cons_self, h1⟩
        · obtain ⟨c, hc, h⟩ := ih d hd
          exact ⟨c, List.mem_cons_of_mem _ hc, h⟩
    obtain ⟨c, hc, hcd⟩ := this h2 d hd
    exact hPQ a b c d h1 hcd (hp.1 c hc)

mutual
theorem resolve_form {s : PS} : (v : PVal) → (e : FExpr) → s.resolveVal v = .ok e → BoundsOk false v → TailsNull v → InForm e
  | .arr t es, e, h, hb, ht => by
    simp only [PS.resolveVal] at h
    split at h
    · cases h
    · next vs hvs =>
      cases h
      obtain ⟨h1, h2⟩ := resolveVals_form es vs hvs hb.2 ht
      exact ⟨h1 ▸ hb.1, h2⟩
  | .tup t fs, e, h, hb, ht => by
    simp only [PS.resolveVal] at h
    split at h
    · cases h
    · next vs hvs =>
      cases h
      refine ⟨pairwise_forall₂ ?_ (resolveFields_map hvs) ht.1, resolveFields_form fs vs hvs hb ht.2⟩
      rintro a b c d ⟨-, h1⟩ ⟨-, h2⟩ h3 h4
      exact (resolveVal_null h2).2 (h3 ((resolveVal_null h1).1 h4))
  | .inull, e, h, _, _ | .bool _, e, h, _, _ | .int _, e, h, _, _ | .dec _, e, h, _, _ | .str _, e, h, _, _ | .enum _ _, e, h, _, _ => by
    simp only [PS.resolveVal] at h
    cases h
    trivial
  | .neg _, e, h, _, _ | .pos _, e, h, _, _ | .markup _ _, e, h, _, _ | .ref _ _ _, e, h, _, _ => by
    simp only [PS.resolveVal] at h
    split at h <;> cases h
    trivial

theorem resolveVals_form {s : PS} : (es : List PVal) → (vs : List FExpr) → s.resolveVals es = .ok vs → AllBoundsOk false es →
    AllTailsNull es → es.length = vs.length ∧ AllInForm vs
  | [], vs, h, _, _ => by simp only [PS.resolveVals] at h; cases h; exact ⟨rfl, trivial⟩
  | e :: es, vs, h, hb, ht => by
    simp only [PS.resolveVals] at h
    cases hv : s.resolveVal e with
    | error x => rw [hv] at h; cases h
    | ok v =>
      rw [hv] at h
      dsimp only at h
      cases hr : s.resolveVals es with
      | error x => rw [hr] at h; cases h
      | ok ws =>
        rw [hr] at h
        cases h
        obtain ⟨h1, h2⟩ := resolveVals_form es ws hr hb.2 ht.2
        exact ⟨by simp [h1], resolve_form e v hv hb.1 ht.1, h2⟩

theorem resolveFields_form {s : PS} : (fs : List (String × PVal)) → (vs : List (String × FExpr)) → s.resolveFields fs = .ok vs →
    FieldsBoundsOk false fs → FieldsTailsNull fs → FieldsInForm vs
  | [], vs, h, _, _ => by simp only [PS.resolveFields] at h; cases h; exact trivial
  | (n, e) :: fs, vs, h, hb, ht => by
    simp only [PS.resolveFields, PS.resolveField] at h
    cases hv : s.resolveVal e with
    | error x => rw [hv] at h; cases h
    | ok v =>
      rw [hv] at h
      dsimp only at h
      cases hr : s.resolveFields fs with
      | error x => rw [hr] at h; cases h
      | ok ws =>
        rw [hr] at h
        cases h
        exact ⟨resolve_form e v hv hb.1 ht.1, resolveFields_form fs ws hr hb.2 ht.2⟩
end

theorem inForm_field : ∀ {fs : List (String × FExpr)}, FieldsInForm fs → ∀ f ∈ fs, InForm f.2
  | [], _, f, hf => by cases hf
  | (n, e) :: fs, h, f, hf => by
    rcases List.mem_cons.1 hf with rfl | hf
    · exact h.1
    · exact inForm_field h.2 f hf

theorem inForm_elem : ∀ {es : List FExpr}, AllInForm es → ∀ e ∈ es, InForm e
  | [], _, f, hf => by cases hf
  | v :: es, h, f, hf => by
    rcases List.mem_cons.1 hf with rfl | hf
    · exact h.1
    · exact inForm_elem h.2 f hf

theorem inForm_direct {v : FExpr} {u : Nat} {gs : List (String × FExpr)} (hd : DirectTuple v u gs) (h : InForm v) : InForm (.tup u gs) := by
  induction hd with
  | here => exact h
  | elem he _ ih => exact ih (inForm_elem h.2 _ he)

/-! ### Evaluation -/

variable {D : Decls} {objTy : Nat → Option Nat} {heap : Nat → Option Fields}

theorem mkValue_ok {t : Option Ty} {x : Val} {v : TV} (h : mkValue t x = .ok v) : v = ⟨t, x⟩ := by
  unfold mkValue at h
  split at h <;> cases h
  rfl

theorem unary_sign {op : UnOp} (ho : op = .minus ∨ op = .plus) {t : Option Ty} {w v : TV} (h : unary op t w = .ok v) : Bounded v.val v.typ := by
  unfold unary at h
  split at h
  · cases h
  · rcases ho with rfl | rfl <;> cases hv : w.val <;> rw [hv] at h <;> simp only [unaryOp] at h <;>
      first | (rw [mkValue_ok h]; trivial) | cases h

mutual
theorem inForm_bounded (hz : ∀ t, ∀ c ∈ D.fields t, NoZero c.ty) : (e : FExpr) → (τ : Ty) → (e = .inull ∨ FOk D objTy e τ) →
    NoZero τ → InForm e → InBounds heap e
  | .arr t es, τ, h, hn, hf => by
    intro v hv
    rcases h with h | h
    · cases h
    simp only [FOk] at h
    obtain ⟨rfl, id, elem, lo, hi, rfl, hall⟩ := h
    simp only [FExpr.eval] at hv
    cases hes : evalElems heap es with
    | err x => rw [hes] at hv; cases hv
    | crash x => rw [hes] at hv; cases hv
    | ok vs =>
      rw [hes] at hv
      rw [mkValue_ok hv]
      obtain ⟨h1, h2⟩ := inForm_elems hz es elem hall hn.2 hf.2 vs hes
      refine ⟨?_, h2⟩
      intro id' elem' lo' hi' he
      simp only [Option.some.injEq, Ty.arr.injEq] at he
      obtain ⟨-, -, -, rfl⟩ := he
      rw [h1]
      rcases hf.1.2 hi' rfl with ⟨-, h⟩ | h
      · exact absurd (by rw [h]) hn.1
      · exact h
  | .tup t fs, τ, h, hn, hf => by
    intro v hv
    rcases h with h | h
    · cases h
    simp only [FOk] at h
    obtain ⟨rfl, cs, hcs, hall⟩ := h
    simp only [FExpr.eval] at hv
    cases hes : evalFields heap fs with
    | err x => rw [hes] at hv; cases hv
    | crash x => rw [hes] at hv; cases hv
    | ok vs =>
      rw [hes] at hv
      rw [mkValue_ok hv]
      refine inForm_fields hz fs cs hall (fun c hc => hz t c ?_) hf.2 vs hes
      simp [Decls.fields, hcs, hc]
  | .inull, _, _, _, _ | .bool _, _, _, _, _ | .int _, _, _, _, _ | .dec _, _, _, _, _ | .str _, _, _, _, _ | .enum _ _, _, _, _, _
  | .markup _, _, _, _, _ => by
    intro v hv
    simp only [FExpr.eval] at hv
    rw [mkValue_ok hv]
    trivial
  | .neg e, τ, h, _, _ | .pos e, τ, h, _, _ => by
    intro v hv
    simp only [FExpr.eval] at hv
    cases he : e.eval heap with
    | err x => rw [he] at hv; cases hv
    | crash x => rw [he] at hv; cases hv
    | ok w =>
      rw [he] at hv
      exact unary_sign (by simp) hv
  | .ref _ x, τ, h, _, _ => by
    intro v hv
    simp only [FExpr.eval] at hv
    cases x with
    | none => cases hv
    | some o =>
      simp only at hv
      split at hv
      · cases hv
      · rw [mkValue_ok hv]; trivial

theorem inForm_elems (hz : ∀ t, ∀ c ∈ D.fields t, NoZero c.ty) : (es : List FExpr) → (τ : Ty) → AllOk D objTy es τ →
    NoZero τ → AllInForm es → ∀ vs, evalElems heap es = .ok vs → vs.length = es.length ∧ BoundedL vs
  | [], _, _, _, _, vs, h => by simp only [evalElems] at h; cases h; exact ⟨rfl, trivial⟩
  | e :: es, τ, ho, hn, hf, vs, h => by
    simp only [evalElems] at h
    cases he : e.eval heap with
    | err x => rw [he] at h; cases h
    | crash x => rw [he] at h; cases h
    | ok w =>
      rw [he] at h
      simp only [Ev.bind] at h
      cases hes : evalElems heap es with
      | err x => rw [hes] at h; cases h
      | crash x => rw [hes] at h; cases h
      | ok ws =>
        rw [hes] at h
        cases h
        obtain ⟨h1, h2⟩ := inForm_elems hz es τ ho.2 hn hf.2 ws hes
        exact ⟨by simp [h1], inForm_bounded hz e τ (.inr ho.1) hn hf.1 w he, h2⟩

theorem inForm_fields (hz : ∀ t, ∀ c ∈ D.fields t, NoZero c.ty) : (fs : List (String × FExpr)) → (cs : List Comp) →
    FieldsOk D objTy fs cs → (∀ c ∈ cs, NoZero c.ty) → FieldsInForm fs → ∀ vs, evalFields heap fs = .ok vs → BoundedF vs
  | [], _, _, _, _, vs, h => by simp only [evalFields] at h; cases h; exact trivial
  | _ :: _, [], ho, _, _, _, _ => by simp only [FieldsOk] at ho
  | (n, e) :: fs, c :: cs, ho, hn, hf, vs, h => by
    simp only [evalFields, evalField] at h
    cases he : e.eval heap with
    | err x => rw [he] at h; cases h
    | crash x => rw [he] at h; cases h
    | ok w =>
      rw [he] at h
      simp only [Ev.bind] at h
      cases hes : evalFields heap fs with
      | err x => rw [hes] at h; cases h
      | crash x => rw [hes] at h; cases h
      | ok ws =>
        rw [hes] at h
        cases h
        simp only [FieldsOk, FieldOk] at ho
        refine ⟨inForm_bounded hz e c.ty (ho.1.2.imp (·.2) id) (hn c List.mem_cons_self) hf.1 w he, ?_⟩
        exact inForm_fields hz fs cs ho.2 (fun d hd => hn d (List.mem_cons_of_mem _ hd)) hf.2 ws hes
end

end Verif.Lemmas
