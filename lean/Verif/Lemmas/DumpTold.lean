import Verif.Lemmas.DumpLines
/-!
What a dump tells about values
-/
namespace Verif.Lemmas.Dump
open Verif.Model Verif.Spec Verif.Lemmas

variable {D : Decls}

/-- the first line -/
def headItem : PVal → DItem
  | .inull => .implicitNull
  | .bool b => .bool b
  | .int n => .int n
  | .dec q => .dec q
  | .str s => .str s
  | .markup s _ => .str s
  | .enum t l => .enum t l
  | .neg _ => .unary .minus
  | .pos _ => .unary .plus
  | .arr _ _ => .array
  | .tup _ _ => .tuple
  | .ref _ _ n => .reference n

theorem val_block {v : PVal} {i : Nat} {ls : List DLine} (h : v.dump D i = .ok ls) :
    ∃ sub, ls = (i, headItem v) :: sub ∧ ∀ l ∈ sub, i + 1 ≤ l.1 := by
  cases v with
  | inull => simp only [PVal.dump] at h; cases h; exact ⟨_, rfl, by simp⟩
  | bool _ => simp only [PVal.dump] at h; cases h; exact ⟨_, rfl, by simp⟩
  | int _ => simp only [PVal.dump] at h; cases h; exact ⟨_, rfl, by simp⟩
  | dec _ => simp only [PVal.dump] at h; cases h; exact ⟨_, rfl, by simp⟩
  | str _ => simp only [PVal.dump] at h; cases h; exact ⟨_, rfl, by simp⟩
  | enum _ _ => simp only [PVal.dump] at h; cases h; exact ⟨_, rfl, by simp⟩
  | ref _ _ _ => simp only [PVal.dump] at h; cases h; exact ⟨_, rfl, by simp⟩
  | markup s refs =>
    simp only [PVal.dump] at h
    cases h
    refine ⟨_, rfl, fun l hl => ?_⟩
    rcases List.mem_cons.1 hl with rfl | hl
    · exact Nat.le_refl _
    · obtain ⟨r, -, hl⟩ := List.mem_flatMap.1 hl
      simp only [List.mem_cons, List.not_mem_nil, or_false] at hl
      rcases hl with rfl | rfl <;> simp
  | neg e =>
    simp only [PVal.dump] at h
    obtain ⟨x, y, e1, e2, rfl⟩ := followed_ok.1 h
    cases e1
    exact ⟨y, rfl, (deep_typ.followed (val_deep e _)) y e2⟩
  | pos e =>
    simp only [PVal.dump] at h
    obtain ⟨x, y, e1, e2, rfl⟩ := followed_ok.1 h
    cases e1
    exact ⟨y, rfl, (deep_typ.followed (val_deep e _)) y e2⟩
  | arr t es =>
    simp only [PVal.dump] at h
    obtain ⟨x, y, e1, e2, rfl⟩ := followed_ok.1 h
    cases e1
    exact ⟨y, rfl, vals_deep es _ y e2⟩
  | tup t fs =>
    simp only [PVal.dump] at h
    obtain ⟨x, y, e1, e2, rfl⟩ := followed_ok.1 h
    cases e1
    refine ⟨_, rfl, fun l hl => ?_⟩
    rcases List.mem_cons.1 hl with rfl | hl
    · exact Nat.le_refl _
    · refine deep_all (fun c => ?_) _ y e2 l hl
      split
      · exact deep_error
      · next r hr => exact fields_deep fs (i + 1) _ (mem_of_assoc hr)

/-- blocks end where the indentation goes back -/
theorem block_split {i : Nat} {x y : DItem} : ∀ {a b r r' : List DLine}, (∀ l ∈ a, i + 1 ≤ l.1) → (∀ l ∈ b, i + 1 ≤ l.1) →
    (∀ l, r.head? = some l → l.1 ≤ i) → (∀ l, r'.head? = some l → l.1 ≤ i) →
    ((i, x) :: a) ++ r = ((i, y) :: b) ++ r' → x = y ∧ a = b ∧ r = r' := by
  have key : ∀ {a b r r' : List DLine}, (∀ l ∈ a, i + 1 ≤ l.1) → (∀ l ∈ b, i + 1 ≤ l.1) →
      (∀ l, r.head? = some l → l.1 ≤ i) → (∀ l, r'.head? = some l → l.1 ≤ i) → a ++ r = b ++ r' → a = b ∧ r = r' := by
    intro a
    induction a with
    | nil =>
      intro b r r' _ hb hr hr' h
      cases b with
      | nil => exact ⟨rfl, h⟩
      | cons l b =>
        rw [List.nil_append, List.cons_append] at h
        have h1 := hr l (by rw [h]; rfl)
        have h2 := hb l (by simp)
        omega
    | cons l a ih =>
      intro b r r' ha hb hr hr' h
      cases b with
      | nil =>
        rw [List.nil_append, List.cons_append] at h
        have h1 := hr' l (by rw [← h]; rfl)
        have h2 := ha l (by simp)
        omega
      | cons l' b =>
        rw [List.cons_append, List.cons_append, List.cons.injEq] at h
        obtain ⟨rfl, h⟩ := h
        obtain ⟨rfl, rfl⟩ := ih (fun m hm => ha m (by simp [hm])) (fun m hm => hb m (by simp [hm])) hr hr' h
        exact ⟨rfl, rfl⟩
  intro a b r r' ha hb hr hr' h
  rw [List.cons_append, List.cons_append, List.cons.injEq, Prod.mk.injEq] at h
  obtain ⟨⟨-, rfl⟩, h⟩ := h
  exact ⟨rfl, key ha hb hr hr' h⟩

theorem vals_head {es : List PVal} {i : Nat} {ls : List DLine} (h : dumpVals D i es = .ok ls) :
    ∀ l, ls.head? = some l → l.1 ≤ i := by
  cases es with
  | nil => simp only [dumpVals] at h; cases h; intro l hl; cases hl
  | cons e es =>
    simp only [dumpVals] at h
    obtain ⟨x, y, e1, -, rfl⟩ := followed_ok.1 h
    obtain ⟨sub, rfl, -⟩ := val_block e1
    intro l hl
    cases hl
    exact Nat.le_refl _

theorem vals_nil {e : PVal} {es : List PVal} {i : Nat} : dumpVals D i (e :: es) ≠ .ok [] := by
  intro h
  simp only [dumpVals] at h
  obtain ⟨x, y, e1, -, e2⟩ := followed_ok.1 h
  obtain ⟨sub, rfl, -⟩ := val_block e1
  cases e2

/-- values of components and fields -/
def Shown (D : Decls) (v : PVal) : Prop := v = .inull ∨ ∃ τ, VOk D v τ

theorem AllVOk.fine {es : List PVal} {τ : Ty} (h : AllVOk D es τ) : ∀ e ∈ es, Shown D e := by
  induction es with
  | nil => intro e he; cases he
  | cons e es ih =>
    simp only [AllVOk] at h
    intro e' he'
    rcases List.mem_cons.1 he' with rfl | he'
    · exact .inr ⟨τ, h.1⟩
    · exact ih h.2 e' he'

theorem FieldsVOk.names : ∀ {fs : List (String × PVal)} {cs : List Comp}, FieldsVOk D fs cs → fs.map Prod.fst = cs.map (·.name)
  | [], [], _ => rfl
  | [], _ :: _, h => by simp only [FieldsVOk] at h
  | _ :: _, [], h => by simp only [FieldsVOk] at h
  | (n, e) :: fs, c :: cs, h => by
    simp only [FieldsVOk, FieldVOk] at h
    rw [List.map_cons, List.map_cons, FieldsVOk.names h.2, h.1.1]

theorem FieldsVOk.fine : ∀ {fs : List (String × PVal)} {cs : List Comp}, FieldsVOk D fs cs → ∀ f ∈ fs, Shown D f.2
  | [], [], _ => by intro f hf; cases hf
  | [], _ :: _, h => by simp only [FieldsVOk] at h
  | _ :: _, [], h => by simp only [FieldsVOk] at h
  | (n, e) :: fs, c :: cs, h => by
    simp only [FieldsVOk, FieldVOk] at h
    intro f hf
    rcases List.mem_cons.1 hf with rfl | hf
    · rcases h.1.2 with ⟨-, h⟩ | h
      · exact .inl h
      · exact .inr ⟨_, h⟩
    · exact FieldsVOk.fine h.2 f hf

/-- looking fields up by their names in order is going through them -/
theorem fields_vals {i : Nat} : ∀ {fs : List (String × PVal)} {cs : List Comp} (pre : List (String × DumpR)),
    fs.map Prod.fst = cs.map (·.name) → (cs.map (·.name)).Nodup → (∀ c ∈ cs, pre.lookup c.name = none) →
    dumpAll (fun c : Comp => match (pre ++ dumpFields D i fs).lookup c.name with
      | none => .error .key
      | some r => r) cs = dumpVals D i (fs.map Prod.snd)
  | [], [], pre, _, _, _ => by simp only [dumpAll, List.map_nil, dumpVals]
  | [], _ :: _, _, h, _, _ => by cases h
  | _ :: _, [], _, h, _, _ => by cases h
  | (n, e) :: fs, c :: cs, pre, h, hn, hp => by
    rw [List.map_cons, List.map_cons, List.cons.injEq] at h
    obtain ⟨h1, h2⟩ := h
    rw [List.map_cons, List.nodup_cons] at hn
    dsimp only at h1
    subst h1
    have ih := fields_vals (i := i) (pre ++ [(c.name, e.dump D i)]) h2 hn.2 (by
      intro c' hc'
      rw [List.lookup_append, hp c' (by simp [hc'])]
      have : c'.name ≠ c.name := fun e' => hn.1 (e' ▸ List.mem_map_of_mem hc')
      rw [Option.none_or, List.lookup_cons, show (c'.name == c.name) = false by simpa using this]
      rfl)
    rw [List.append_assoc, List.singleton_append] at ih
    have hd : dumpFields D i ((c.name, e) :: fs) = (c.name, e.dump D i) :: dumpFields D i fs := by
      simp only [dumpFields, dumpField]
    rw [hd, dumpAll, ih, List.map_cons]
    simp only [dumpVals]
    rw [List.lookup_append, hp c (by simp), Option.none_or, List.lookup_cons]
    simp

theorem refs_same {i j : Nat} : ∀ {a b : List MRef}, (a.flatMap fun r => [(i, DItem.reference r.name), (j, .resolved)]) =
      (b.flatMap fun r => [(i, DItem.reference r.name), (j, .resolved)]) →
    (a.map fun r => ({ pkg := 0, name := r.name } : MRef)) = b.map fun r => { pkg := 0, name := r.name }
  | [], [], _ => rfl
  | [], _ :: _, h => by simp at h
  | _ :: _, [], h => by simp at h
  | x :: a, y :: b, h => by
    simp only [List.flatMap_cons, List.cons_append, List.nil_append, List.cons.injEq, Prod.mk.injEq, DItem.reference.injEq,
      true_and] at h
    rw [List.map_cons, List.map_cons, h.1, refs_same h.2]

theorem typ_dump {e : PVal} {i : Nat} {ls : List DLine} (h : (dumpTyp i e.numTy).followed (e.dump D i) = .ok ls) :
    ∃ t sub, ls = (i, .typ t) :: sub ∧ e.dump D i = .ok sub := by
  obtain ⟨x, y, e1, e2, rfl⟩ := followed_ok.1 h
  cases ht : e.numTy with
  | none => rw [ht] at e1; cases e1
  | some t => rw [ht] at e1; cases e1; exact ⟨t, y, rfl, e2⟩

variable (hD : ∀ (t : Nat) (cs : List Comp), D.tups[t]? = some cs → (cs.map (·.name)).Nodup)
include hD

mutual
theorem val_told : ∀ (v w : PVal) (i : Nat) (ls : List DLine), Shown D v → Shown D w → v.dump D i = .ok ls → w.dump D i = .ok ls →
    told v = told w := by
  intro v w i ls hv hw h1 h2
  have hh : headItem v = headItem w := by
    obtain ⟨a, rfl, -⟩ := val_block h1
    obtain ⟨b, e, -⟩ := val_block h2
    rw [List.cons.injEq, Prod.mk.injEq] at e
    exact e.1.2
  match v, hv, h1, hh with
  | .inull, _, _, hh | .bool _, _, _, hh | .int _, _, _, hh | .dec _, _, _, hh | .enum _ _, _, _, hh =>
    cases w <;> simp_all [headItem, told]
  | .ref _ _ _, _, _, hh => cases w <;> simp_all [headItem, told]
  | .str s, _, h1, hh =>
    cases w with
    | str s' => simp_all [headItem, told]
    | markup s' refs =>
      simp only [PVal.dump] at h1 h2
      cases h1
      simp at h2
    | _ => simp [headItem] at hh
  | .markup s refs, _, h1, hh =>
    cases w with
    | str s' =>
      simp only [PVal.dump] at h1 h2
      cases h2
      simp at h1
    | markup s' refs' =>
      simp only [PVal.dump] at h1 h2
      cases h1
      simp only [Except.ok.injEq, List.cons.injEq, Prod.mk.injEq, DItem.str.injEq, true_and] at h2
      simp only [told]
      rw [h2.1, refs_same h2.2]
    | _ => simp [headItem] at hh
  | .neg e, hv, h1, hh =>
    cases w with
    | neg e' =>
      simp only [PVal.dump] at h1 h2
      obtain ⟨x, y, e1, e2, rfl⟩ := followed_ok.1 h1
      obtain ⟨x', y', e1', e2', e3⟩ := followed_ok.1 h2
      cases e1
      cases e1'
      cases e3
      obtain ⟨t, sub, rfl, e4⟩ := typ_dump e2
      obtain ⟨t', sub', e5, e4'⟩ := typ_dump e2'
      cases e5
      have f1 : Shown D e := by
        rcases hv with hv | ⟨τ, hv⟩
        · cases hv
        · simp only [VOk] at hv
          rcases hv with ⟨-, n, rfl⟩ | ⟨-, n, rfl⟩
          · exact .inr ⟨.int, by simp only [VOk]⟩
          · exact .inr ⟨.dec, by simp only [VOk]⟩
      have f2 : Shown D e' := by
        rcases hw with hw | ⟨τ, hw⟩
        · cases hw
        · simp only [VOk] at hw
          rcases hw with ⟨-, n, rfl⟩ | ⟨-, n, rfl⟩
          · exact .inr ⟨.int, by simp only [VOk]⟩
          · exact .inr ⟨.dec, by simp only [VOk]⟩
      simp only [told]
      rw [val_told e e' (i + 1) sub f1 f2 e4 e4']
    | _ => simp [headItem] at hh
  | .pos e, hv, h1, hh =>
    cases w with
    | pos e' =>
      simp only [PVal.dump] at h1 h2
      obtain ⟨x, y, e1, e2, rfl⟩ := followed_ok.1 h1
      obtain ⟨x', y', e1', e2', e3⟩ := followed_ok.1 h2
      cases e1
      cases e1'
      cases e3
      obtain ⟨t, sub, rfl, e4⟩ := typ_dump e2
      obtain ⟨t', sub', e5, e4'⟩ := typ_dump e2'
      cases e5
      have f1 : Shown D e := by
        rcases hv with hv | ⟨τ, hv⟩
        · cases hv
        · simp only [VOk] at hv
          rcases hv with ⟨-, n, rfl⟩ | ⟨-, n, rfl⟩
          · exact .inr ⟨.int, by simp only [VOk]⟩
          · exact .inr ⟨.dec, by simp only [VOk]⟩
      have f2 : Shown D e' := by
        rcases hw with hw | ⟨τ, hw⟩
        · cases hw
        · simp only [VOk] at hw
          rcases hw with ⟨-, n, rfl⟩ | ⟨-, n, rfl⟩
          · exact .inr ⟨.int, by simp only [VOk]⟩
          · exact .inr ⟨.dec, by simp only [VOk]⟩
      simp only [told]
      rw [val_told e e' (i + 1) sub f1 f2 e4 e4']
    | _ => simp [headItem] at hh
  | .arr t es, hv, h1, hh =>
    cases w with
    | arr t' es' =>
      simp only [PVal.dump] at h1 h2
      obtain ⟨x, y, e1, e2, rfl⟩ := followed_ok.1 h1
      obtain ⟨x', y', e1', e2', e3⟩ := followed_ok.1 h2
      cases e1
      cases e1'
      cases e3
      have f1 : ∀ e ∈ es, Shown D e := by
        rcases hv with hv | ⟨τ, hv⟩
        · cases hv
        · simp only [VOk] at hv
          obtain ⟨-, _, _, _, _, -, hv⟩ := hv
          exact AllVOk.fine hv
      have f2 : ∀ e ∈ es', Shown D e := by
        rcases hw with hw | ⟨τ, hw⟩
        · cases hw
        · simp only [VOk] at hw
          obtain ⟨-, _, _, _, _, -, hw⟩ := hw
          exact AllVOk.fine hw
      simp only [told]
      rw [vals_told es es' (i + 1) y f1 f2 e2 e2']
    | _ => simp [headItem] at hh
  | .tup t fs, hv, h1, hh =>
    cases w with
    | tup t' fs' =>
      simp only [PVal.dump] at h1 h2
      obtain ⟨x, y, e1, e2, rfl⟩ := followed_ok.1 h1
      obtain ⟨x', y', e1', e2', e3⟩ := followed_ok.1 h2
      cases e1
      cases e1'
      cases e3
      obtain ⟨cs, g1, g2⟩ : ∃ cs, D.tups[t]? = some cs ∧ FieldsVOk D fs cs := by
        rcases hv with hv | ⟨τ, hv⟩
        · cases hv
        · simp only [VOk] at hv
          exact hv.2
      obtain ⟨cs', g1', g2'⟩ : ∃ cs, D.tups[t]? = some cs ∧ FieldsVOk D fs' cs := by
        rcases hw with hw | ⟨τ, hw⟩
        · cases hw
        · simp only [VOk] at hw
          exact hw.2
      obtain rfl : cs = cs' := Option.some.inj (g1.symm.trans g1')
      have n1 := FieldsVOk.names g2
      have n2 := FieldsVOk.names g2'
      have hf : D.fields t = cs := by unfold Decls.fields; rw [g1]; rfl
      rw [hf] at e2 e2'
      have k1 := fields_vals (D := D) (i := i + 1) [] n1 (hD t cs g1) (by simp)
      have k2 := fields_vals (D := D) (i := i + 1) [] n2 (hD t cs g1) (by simp)
      rw [List.nil_append] at k1 k2
      have e2 := k1.symm.trans e2
      have e2' := k2.symm.trans e2'
      simp only [told]
      rw [fields_told fs fs' (i + 1) y (FieldsVOk.fine g2) (FieldsVOk.fine g2') (n1.trans n2.symm) e2 e2']
    | _ => simp [headItem] at hh
termination_by v => (sizeOf v, 1)
theorem vals_told : ∀ (es es' : List PVal) (i : Nat) (ls : List DLine), (∀ e ∈ es, Shown D e) → (∀ e ∈ es', Shown D e) →
    dumpVals D i es = .ok ls → dumpVals D i es' = .ok ls → tolds es = tolds es'
  | [], [], _, _, _, _, _, _ => rfl
  | [], e :: es, i, ls, _, _, h1, h2 => by
    simp only [dumpVals] at h1
    cases h1
    exact absurd h2 vals_nil
  | e :: es, [], i, ls, _, _, h1, h2 => by
    simp only [dumpVals] at h2
    cases h2
    exact absurd h1 vals_nil
  | e :: es, e' :: es', i, ls, hv, hw, h1, h2 => by
    simp only [dumpVals] at h1 h2
    obtain ⟨x, y, e1, e2, rfl⟩ := followed_ok.1 h1
    obtain ⟨x', y', e1', e2', e3⟩ := followed_ok.1 h2
    obtain ⟨a, rfl, ha⟩ := val_block e1
    obtain ⟨b, rfl, hb⟩ := val_block e1'
    obtain ⟨hx, rfl, rfl⟩ := block_split hb ha (vals_head e2') (vals_head e2) e3.symm
    simp only [tolds]
    rw [val_told e e' i _ (hv e (by simp)) (hw e' (by simp)) e1 (hx ▸ e1'),
      vals_told es es' i _ (fun a ha => hv a (by simp [ha])) (fun a ha => hw a (by simp [ha])) e2 e2']
termination_by es => (sizeOf es, 0)
theorem fields_told : ∀ (fs fs' : List (String × PVal)) (i : Nat) (ls : List DLine), (∀ f ∈ fs, Shown D f.2) →
    (∀ f ∈ fs', Shown D f.2) → fs.map Prod.fst = fs'.map Prod.fst →
    dumpVals D i (fs.map Prod.snd) = .ok ls → dumpVals D i (fs'.map Prod.snd) = .ok ls → toldFields fs = toldFields fs'
  | [], [], _, _, _, _, _, _, _ => rfl
  | [], _ :: _, _, _, _, _, h, _, _ => by cases h
  | _ :: _, [], _, _, _, _, h, _, _ => by cases h
  | (n, e) :: fs, (n', e') :: fs', i, ls, hv, hw, hn, h1, h2 => by
    simp only [List.map_cons, dumpVals] at h1 h2
    rw [List.map_cons, List.map_cons, List.cons.injEq] at hn
    obtain ⟨x, y, e1, e2, rfl⟩ := followed_ok.1 h1
    obtain ⟨x', y', e1', e2', e3⟩ := followed_ok.1 h2
    obtain ⟨a, rfl, ha⟩ := val_block e1
    obtain ⟨b, rfl, hb⟩ := val_block e1'
    obtain ⟨hx, rfl, rfl⟩ := block_split hb ha (vals_head e2') (vals_head e2) e3.symm
    simp only [toldFields, toldField]
    rw [val_told e e' i _ (hv (n, e) (by simp)) (hw (n', e') (by simp)) e1 (hx ▸ e1'),
      fields_told fs fs' i _ (fun a ha => hv a (by simp [ha])) (fun a ha => hw a (by simp [ha])) hn.2 e2 e2',
      show n = n' from hn.1]
termination_by fs => (sizeOf fs, 0)
end

/-- what a dump tells about an object -/
theorem obj_told {i id id' : Nat} {o o' : Obj} {a : List DLine} (ho : ∀ f ∈ o.fields, Shown D f.2.val)
    (ho' : ∀ f ∈ o'.fields, Shown D f.2.val) (h : o.dump D i id = .ok ((i, .object id) :: a))
    (h' : o'.dump D i id' = .ok ((i, .object id') :: a)) :
    o.typ = o'.typ ∧ o.fields.map (fun f => (f.1, told f.2.val)) = o'.fields.map (fun f => (f.1, told f.2.val)) ∧
      dumpSection (i + 1) o.sects = dumpSection (i + 1) o'.sects := by
  unfold Obj.dump at h h'
  obtain ⟨x, y, e1, e2, e0⟩ := followed_ok.1 h
  obtain ⟨x', y', e1', e2', e0'⟩ := followed_ok.1 h'
  cases e1
  cases e1'
  simp only [List.cons_append, List.nil_append, List.cons.injEq, true_and] at e0 e0'
  rw [e0] at e0'
  simp only [List.cons.injEq, Prod.mk.injEq, DItem.typ.injEq, Ty.record.injEq, true_and] at e0'
  obtain ⟨et, rfl⟩ := e0'
  refine ⟨et, ?_⟩
  obtain ⟨u, v, e3, e4, rfl⟩ := followed_ok.1 e2
  obtain ⟨u', v', e3', e4', e5⟩ := followed_ok.1 e2'
  cases e4
  cases e4'
  clear h h' e2 e2' e0 et
  have sec : ∀ ss : List (List Char), (∀ l, (dumpSection (i + 1) ss).head? = some l → l.1 ≤ i + 1) ∧
      ∀ k, (dumpSection (i + 1) ss).head? ≠ some (i + 1, .field k) := by
    intro ss
    unfold dumpSection
    split
    · exact ⟨by simp, by simp⟩
    · exact ⟨by rintro l hl; cases hl; exact Nat.le_refl _, by simp⟩
  have hd : ∀ {fs : List (String × VNode)} {u : List DLine} (ss : List (List Char)),
      dumpAll (fun f => DumpR.followed (.ok [(i + 1, .field f.1)]) (f.2.val.dump D (i + 2))) fs = .ok u →
      ∀ l, (u ++ dumpSection (i + 1) ss).head? = some l → l.1 ≤ i + 1 := by
    intro fs u ss hu
    cases fs with
    | nil => cases hu; exact (sec ss).1
    | cons f fs =>
      obtain ⟨p, q, e1, -, rfl⟩ := dumpAll_cons_ok.1 hu
      obtain ⟨p, r, e2, -, rfl⟩ := followed_ok.1 e1
      cases e2
      intro l hl
      cases hl
      exact Nat.le_refl _
  revert u u' ho ho'
  generalize o.fields = fs
  generalize o'.fields = fs'
  induction fs generalizing fs' with
  | nil =>
    intro ho ho' u e3 u' e3' e5
    cases e3
    cases fs' with
    | nil => cases e3'; exact ⟨rfl, e5⟩
    | cons f fs' =>
      obtain ⟨p, q, e1, -, rfl⟩ := dumpAll_cons_ok.1 e3'
      obtain ⟨p, r, e2, -, rfl⟩ := followed_ok.1 e1
      cases e2
      exact absurd (congrArg List.head? e5) ((sec _).2 f.1)
  | cons f fs ih =>
    intro ho ho' u e3 u' e3' e5
    obtain ⟨p, q, e1, k1, rfl⟩ := dumpAll_cons_ok.1 e3
    obtain ⟨p, r, e2, k2, rfl⟩ := followed_ok.1 e1
    cases e2
    cases fs' with
    | nil =>
      cases e3'
      exact absurd (congrArg List.head? e5).symm ((sec _).2 f.1)
    | cons f' fs' =>
      obtain ⟨p', q', e1', k1', rfl⟩ := dumpAll_cons_ok.1 e3'
      obtain ⟨p', r', e2', k2', rfl⟩ := followed_ok.1 e1'
      cases e2'
      simp only [List.append_assoc, List.singleton_append] at e5
      obtain ⟨hx, rfl, h6⟩ := block_split (val_deep _ _ r k2) (val_deep _ _ r' k2') (hd _ k1) (hd _ k1') e5
      have hx := DItem.field.inj hx
      have := ih fs' (fun f hf => ho f (by simp [hf])) (fun f hf => ho' f (by simp [hf])) q k1 q' k1' h6
      refine ⟨?_, this.2⟩
      rw [List.map_cons, List.map_cons, this.1, val_told hD _ _ _ _ (ho f (by simp)) (ho' f' (by simp)) k2 k2', hx]

end Verif.Lemmas.Dump
