import Verif.Lemmas.DumpOk
/-!
The lines of a dump
-/
namespace Verif.Lemmas.Dump
open Verif.Model Verif.Spec Verif.Lemmas

variable {D : Decls} {seps : List (List Sep)} {C : CheckTab} {var : Nat → String → DumpR}

/-- all lines are indented at least this far -/
def Deep (i : Nat) (r : DumpR) : Prop := ∀ ls, r = .ok ls → ∀ l ∈ ls, i ≤ l.1

theorem deep_error {i : Nat} {e : DumpErr} : Deep i (.error e) := by intro ls h; cases h

theorem deep_ok {i : Nat} {ls : List DLine} (h : ∀ l ∈ ls, i ≤ l.1) : Deep i (.ok ls) := by intro ls' e; cases e; exact h

theorem Deep.mono {i j : Nat} {r : DumpR} (h : Deep j r) (hij : i ≤ j) : Deep i r :=
  fun ls e l hl => Nat.le_trans hij (h ls e l hl)

theorem Deep.followed {i : Nat} {a b : DumpR} (h1 : Deep i a) (h2 : Deep i b) : Deep i (a.followed b) := by
  intro ls h
  obtain ⟨x, y, e1, e2, rfl⟩ := followed_ok.1 h
  intro l hl
  rcases List.mem_append.1 hl with hl | hl
  · exact h1 x e1 l hl
  · exact h2 y e2 l hl

theorem Deep.next {i : Nat} {r : DumpR} (h : Deep (i + 1) r) : Deep i r := h.mono (Nat.le_succ i)

theorem Deep.next2 {i : Nat} {r : DumpR} (h : Deep (i + 2) r) : Deep i r := h.mono (Nat.le_add_right i 2)

theorem deep_all {α : Type} {i : Nat} {f : α → DumpR} (h : ∀ a, Deep i (f a)) (as : List α) : Deep i (dumpAll f as) := by
  induction as with
  | nil => exact deep_ok (by simp)
  | cons a as ih => exact (h a).followed ih

theorem deep_typ {i : Nat} {t : Option Ty} : Deep i (dumpTyp i t) := by
  cases t with
  | none => exact deep_error
  | some t => exact deep_ok (by simp)

/-- closes goals about literal lines -/
macro "deep_lit" : tactic => `(tactic| exact deep_ok (by simp))

mutual
theorem expr_deep (hv : ∀ j n, Deep j (var j n)) : ∀ (e : Expr) (i : Nat), Deep i (e.dump var i)
  | .null, i | .bool _, i | .int _, i | .dec _, i | .str _, i | .enum _ _, i | .name _ _, i => by
    simp only [Expr.dump]; deep_lit
  | .unary t op e, i => by
    simp only [Expr.dump]
    exact Deep.followed (by deep_lit) (deep_typ.next.followed (expr_deep hv e _).next)
  | .binary t op l r, i => by
    simp only [Expr.dump]
    exact Deep.followed (by deep_lit) (deep_typ.next.followed ((expr_deep hv l _).next.followed (expr_deep hv r _).next))
  | .logic op l r, i => by
    simp only [Expr.dump]
    exact Deep.followed (by deep_lit) ((expr_deep hv l _).next.followed (expr_deep hv r _).next)
  | .field p n t, i => by
    simp only [Expr.dump]
    exact Deep.followed (by deep_lit) (expr_deep hv p _).next
  | .range e lo up, i => by
    simp only [Expr.dump]
    exact Deep.followed (by deep_lit) ((expr_deep hv e _).next.followed ((expr_deep hv lo _).next.followed (expr_deep hv up _).next))
  | .oneof es, i => by
    simp only [Expr.dump]
    exact Deep.followed (by deep_lit) (exprs_deep hv es _).next
  | .cond t as, i => by
    simp only [Expr.dump]
    exact Deep.followed (by deep_lit) (acts_deep hv as _).next
  | .quant u x src e, i => by
    simp only [Expr.dump]
    exact Deep.followed (by deep_lit) ((hv _ _).next2.followed (expr_deep hv e _).next)
theorem exprs_deep (hv : ∀ j n, Deep j (var j n)) : ∀ (es : Exprs) (i : Nat), Deep i (es.dump var i)
  | .nil, i => by simp only [Exprs.dump]; deep_lit
  | .cons e es, i => by
    simp only [Exprs.dump]
    exact (expr_deep hv e _).followed (exprs_deep hv es _)
theorem acts_deep (hv : ∀ j n, Deep j (var j n)) : ∀ (as : Acts) (i : Nat), Deep i (as.dump var i)
  | .els e, i => by
    simp only [Acts.dump]
    exact Deep.followed (by deep_lit) (expr_deep hv e _).next
  | .act c e as, i => by
    simp only [Acts.dump]
    exact Deep.followed (by deep_lit) ((expr_deep hv c _).next2.followed (Deep.followed (by deep_lit)
      ((expr_deep hv e _).next2.followed (acts_deep hv as _))))
end

theorem check_deep (hv : ∀ j n, Deep j (var j n)) (i : Nat) (c : Check) : Deep i (c.dump var i) := by
  unfold Check.dump
  refine Deep.followed (deep_ok ?_) (expr_deep hv _ _).next
  intro l hl
  simp only [List.mem_cons, Option.mem_toList, Option.map_eq_some_iff] at hl
  rcases hl with rfl | ⟨n, -, rfl⟩ <;> simp

theorem checks_deep (hv : ∀ j n, Deep j (var j n)) (i : Nat) : ∀ cs, Deep i (dumpChecks var i cs)
  | [] => by rw [dumpChecks]; deep_lit
  | c :: cs => by
    rw [dumpChecks]
    exact Deep.followed (by deep_lit) (deep_all (fun k => (check_deep hv _ k).next) _)

theorem comp_deep {i : Nat} {c : Comp} : ∀ l ∈ c.dump i, i ≤ l.1 := by
  intro l hl
  simp only [Comp.dump, List.mem_cons, List.not_mem_nil, or_false] at hl
  rcases hl with rfl | rfl | rfl <;> simp

theorem item_deep {i : Nat} {x : SeqItem} : ∀ l ∈ x.dump i, i ≤ l.1 := by
  cases x with
  | comp c => exact comp_deep
  | sep s => simp [SeqItem.dump]

theorem head_deep {i : Nat} (ct : CompositeTy) : ∃ ls, typeHead D seps i ct = (i, .type (tyOf ct)) :: ls ∧ ∀ l ∈ ls, i + 1 ≤ l.1 := by
  cases ct with
  | record r =>
    refine ⟨_, rfl, fun l hl => ?_⟩
    rcases List.mem_append.1 hl with hl | hl
    · obtain ⟨p, -, rfl⟩ := List.mem_map.1 hl
      exact Nat.le_refl _
    · obtain ⟨c, -, hl⟩ := List.mem_flatMap.1 hl
      exact comp_deep l hl
  | tup r =>
    refine ⟨_, rfl, fun l hl => ?_⟩
    rcases List.mem_cons.1 hl with rfl | hl
    · exact Nat.le_refl _
    · obtain ⟨c, -, hl⟩ := List.mem_flatMap.1 hl
      have := item_deep l hl
      omega

theorem ty_block : ∀ (fuel i : Nat) (t : Ty) (ls : List DLine), dumpTy D seps C fuel i t = .ok ls →
    ∃ sub, ls = (i, .type t) :: sub ∧ ∀ l ∈ sub, i + 1 ≤ l.1
  | 0, i, t, ls, h => by rw [dumpTy] at h; cases h
  | fuel + 1, i, t, ls, h => by
    by_cases hc : ∃ ct, t = tyOf ct
    · obtain ⟨ct, rfl⟩ := hc
      rw [dumpTy_composite] at h
      obtain ⟨x, y, e1, e2, rfl⟩ := followed_ok.1 h
      cases e1
      obtain ⟨hd, e3, h3⟩ := head_deep (D := D) (seps := seps) (i := i) ct
      rw [e3]
      refine ⟨hd ++ y, rfl, fun l hl => ?_⟩
      rcases List.mem_append.1 hl with hl | hl
      · exact h3 l hl
      · refine checks_deep (fun j n => ?_) _ _ y e2 l hl
        unfold varOf
        split
        · exact deep_error
        · intro ls' e l' hl'
          obtain ⟨sub, rfl, hs⟩ := ty_block fuel _ _ ls' e
          rcases List.mem_cons.1 hl' with rfl | hl'
          · exact Nat.le_refl _
          · exact Nat.le_of_succ_le (hs l' hl')
    · have h' : ∀ ct, t ≠ tyOf ct := fun ct e => hc ⟨ct, e⟩
      cases t with
      | record r => exact absurd rfl (h' (.record r))
      | tup r => exact absurd rfl (h' (.tup r))
      | enum e =>
        cases h
        refine ⟨_, rfl, fun l hl => ?_⟩
        obtain ⟨n, -, rfl⟩ := List.mem_map.1 hl
        exact Nat.le_refl _
      | arr id e lo hi =>
        cases h
        exact ⟨_, rfl, by simp⟩
      | union id ms =>
        cases h
        refine ⟨_, rfl, fun l hl => ?_⟩
        obtain ⟨n, -, rfl⟩ := List.mem_map.1 hl
        exact Nat.le_refl _
      | _ => cases h; exact ⟨[], rfl, by simp⟩

mutual
theorem val_deep : ∀ (v : PVal) (i : Nat), Deep i (v.dump D i)
  | .inull, i | .bool _, i | .int _, i | .dec _, i | .str _, i | .enum _ _, i | .ref _ _ _, i => by
    simp only [PVal.dump]; deep_lit
  | .markup s refs, i => by
    simp only [PVal.dump]
    refine deep_ok fun l hl => ?_
    rcases List.mem_cons.1 hl with rfl | hl
    · exact Nat.le_refl _
    rcases List.mem_cons.1 hl with rfl | hl
    · exact Nat.le_succ _
    · obtain ⟨r, -, hl⟩ := List.mem_flatMap.1 hl
      simp only [List.mem_cons, List.not_mem_nil, or_false] at hl
      rcases hl with rfl | rfl <;> simp
  | .neg e, i => by
    simp only [PVal.dump]
    exact Deep.followed (by deep_lit) (deep_typ.next.followed (val_deep e _).next)
  | .pos e, i => by
    simp only [PVal.dump]
    exact Deep.followed (by deep_lit) (deep_typ.next.followed (val_deep e _).next)
  | .arr t es, i => by
    simp only [PVal.dump]
    exact Deep.followed (by deep_lit) (vals_deep es _).next
  | .tup t fs, i => by
    have := fields_deep fs (i + 1)
    simp only [PVal.dump]
    refine Deep.followed (by deep_lit) (deep_all (fun c => ?_) _)
    split
    · exact deep_error
    · next r hr => exact (this _ (mem_of_assoc hr)).next
theorem vals_deep : ∀ (es : List PVal) (i : Nat), Deep i (dumpVals D i es)
  | [], i => by simp only [dumpVals]; deep_lit
  | e :: es, i => by
    simp only [dumpVals]
    exact (val_deep e i).followed (vals_deep es i)
theorem fields_deep : ∀ (fs : List (String × PVal)) (i : Nat), ∀ x ∈ dumpFields D i fs, Deep i x.2
  | [], i => by simp only [dumpFields]; intro x hx; cases hx
  | f :: fs, i => by
    have h1 := field_deep f i
    have h2 := fields_deep fs i
    simp only [dumpFields]
    intro x hx
    rcases List.mem_cons.1 hx with rfl | hx
    · exact h1
    · exact h2 x hx
theorem field_deep : ∀ (f : String × PVal) (i : Nat), Deep i (dumpField D i f).2
  | (n, e), i => by simp only [dumpField]; exact val_deep e i
end

/-! ## Outlines -/

theorem outline_append (i : Nat) (a b : List DLine) : outline i (a ++ b) = outline i a ++ outline i b := by
  simp [outline]

theorem outline_deep {i j : Nat} {ls : List DLine} (h : ∀ l ∈ ls, j ≤ l.1) (hij : i < j) : outline i ls = [] := by
  simp only [outline, List.map_eq_nil_iff, List.filter_eq_nil_iff, beq_iff_eq]
  intro l hl e
  have := h l hl
  omega

theorem outline_cons_eq (i : Nat) (x : DItem) (ls : List DLine) : outline i ((i, x) :: ls) = x :: outline i ls := by
  simp [outline]

theorem outline_cons_ne {i j : Nat} (x : DItem) (ls : List DLine) (h : j ≠ i) : outline i ((j, x) :: ls) = outline i ls := by
  simp [outline, h]

theorem outline_all {α : Type} {i : Nat} {f : α → DumpR} {g : α → List DItem} {as : List α}
    (h : ∀ a ∈ as, ∀ x, f a = .ok x → outline i x = g a) : ∀ {ls}, dumpAll f as = .ok ls → outline i ls = as.flatMap g := by
  induction as with
  | nil => intro ls e; cases e; rfl
  | cons a as ih =>
    intro ls e
    obtain ⟨x, y, e1, e2, rfl⟩ := dumpAll_cons_ok.1 e
    rw [outline_append, h a (by simp) x e1, ih (fun b hb => h b (by simp [hb])) e2]
    rfl

/-- one of the parts -/
theorem part {α : Type} {f : α → DumpR} {P : List DLine → Prop} {as : List α} (h0 : P [])
    (hP : ∀ a ∈ as, ∀ x y, f a = .ok x → P (x ++ y)) :
    ∀ {ls}, dumpAll f as = .ok ls → P ls ∧ ∀ a ∈ as, ∃ pre x post, ls = pre ++ x ++ post ∧ f a = .ok x ∧ P post := by
  induction as with
  | nil => intro ls e; cases e; exact ⟨h0, by simp⟩
  | cons a as ih =>
    intro ls e
    obtain ⟨x, y, e1, e2, rfl⟩ := dumpAll_cons_ok.1 e
    obtain ⟨h1, h2⟩ := ih (fun b hb => hP b (by simp [hb])) e2
    refine ⟨hP a (by simp) x y e1, fun b hb => ?_⟩
    rcases List.mem_cons.1 hb with rfl | hb
    · exact ⟨[], x, y, rfl, e1, h1⟩
    · obtain ⟨pre, z, post, rfl, h3, h4⟩ := h2 b hb
      exact ⟨x ++ pre, z, post, by simp, h3, h4⟩

/-- the lines of an object -/
theorem obj_lines {i id : Nat} {o : Obj} {ls : List DLine} (h : o.dump D i id = .ok ls) :
    ∃ sub, ls = (i, .object id) :: sub ∧ (∀ l ∈ sub, i + 1 ≤ l.1) ∧
      outline (i + 1) sub = .typ (.record o.typ) :: o.fields.map (fun f => .field f.1) ++ (o.sects.getLast?.map DItem.sect).toList := by
  unfold Obj.dump at h
  obtain ⟨x, y, e1, e2, rfl⟩ := followed_ok.1 h
  cases e1
  obtain ⟨x, z, e1, e3, rfl⟩ := followed_ok.1 e2
  cases e3
  have hdeep : Deep (i + 1) (dumpAll (fun f => DumpR.followed (.ok [(i + 1, .field f.1)]) (f.2.val.dump D (i + 2))) o.fields) :=
    deep_all (fun f => Deep.followed (by deep_lit) (val_deep _ _).next) _
  refine ⟨(i + 1, .typ (.record o.typ)) :: (x ++ dumpSection (i + 1) o.sects), rfl, ?_, ?_⟩
  · intro l hl
    rcases List.mem_cons.1 hl with rfl | hl
    · exact Nat.le_refl _
    rcases List.mem_append.1 hl with hl | hl
    · exact hdeep x e1 l hl
    · unfold dumpSection at hl
      split at hl
      · cases hl
      · simp only [List.mem_cons, List.not_mem_nil, or_false] at hl
        rcases hl with rfl | rfl <;> simp
  · show outline (i + 1) ((i + 1, .typ (.record o.typ)) :: (x ++ dumpSection (i + 1) o.sects)) = _
    rw [outline_cons_eq, outline_append, outline_all (g := fun f => [.field f.1]) ?_ e1]
    · rw [← List.map_eq_flatMap]
      simp only [List.cons_append, List.cons.injEq, true_and, List.append_cancel_left_eq]
      unfold dumpSection
      rw [List.getLast?_eq_head?_reverse]
      cases o.sects.reverse with
      | nil => rfl
      | cons n ns => simp [outline]
    · intro f hf x hx
      obtain ⟨a, b, e1, e2, rfl⟩ := followed_ok.1 hx
      cases e1
      rw [outline_append, outline_deep (val_deep _ _ b e2) (Nat.lt_succ_self _), List.append_nil]
      exact outline_cons_eq _ _ _

end Verif.Lemmas.Dump
