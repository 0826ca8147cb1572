import Verif.Lemmas.Growth
import Verif.Lemmas.ElabSound
import Verif.Lemmas.FieldMap
/-!
# Declaring further types does not change the meaning of expressions
-/
namespace Verif.Lemmas
open Verif.Model Verif.Spec

/-- The declarations of `D'` start with those of `D`. -/
structure Pre (D D' : Decls) : Prop where
  recs : D.recs <+: D'.recs
  tups : D.tups <+: D'.tups
  enums : D.enums <+: D'.enums

theorem Pre.refl (D : Decls) : Pre D D := ⟨List.prefix_rfl, List.prefix_rfl, List.prefix_rfl⟩

theorem Pre.trans {D D' D'' : Decls} (h : Pre D D') (h' : Pre D' D'') : Pre D D'' :=
  ⟨h.recs.trans h'.recs, h.tups.trans h'.tups, h.enums.trans h'.enums⟩

theorem prefix_same {α : Type} {l l' : List α} (h : l <+: l') {i : Nat} (hi : i < l.length) :
    l'[i]? = l[i]? := by
  obtain ⟨m, rfl⟩ := h
  rw [List.getElem?_append_left hi]

section
variable {D D' : Decls} (hp : Pre D D') (wf : WFDecls D) (wf' : WFDecls D')
include hp wf wf'

theorem Pre.ancestors {t : Nat} (ht : t < D.recs.length) : D'.ancestors t = D.ancestors t := by
  revert ht
  induction t using Nat.strongRecOn with
  | ind t ih =>
    intro ht
    obtain ⟨r, hr⟩ := get_some ht
    have hr' : D'.recs[t]? = some r := by rw [prefix_same hp.recs ht]; exact hr
    cases hpar : r.parent with
    | none => rw [ancestors_root hr hpar, ancestors_root hr' hpar]
    | some p =>
      have h1 : ParentOf D t p := ⟨r, hr, hpar⟩
      have h2 : ParentOf D' t p := ⟨r, hr', hpar⟩
      have hlt := wf t p h1
      rw [ancestors_step wf h1, ancestors_step wf' h2, ih p hlt (by omega)]

omit wf wf' in
theorem Pre.own {t : Nat} (ht : t < D.recs.length) : D'.own t = D.own t := by
  unfold Decls.own
  rw [prefix_same hp.recs ht]

omit hp wf' in
theorem ancestors_lt {t a : Nat} (h : a ∈ D.ancestors t) : a < D.recs.length :=
  (extends_declared ((mem_ancestors wf t a).1 h)).2

theorem Pre.component {t : Nat} (ht : t < D.recs.length) : D'.component t = D.component t := by
  funext n
  unfold Decls.component
  rw [hp.ancestors wf wf' ht]
  have : ∀ l : List Nat, (∀ a ∈ l, a < D.recs.length) →
      l.findSome? (fun s => (D'.own s).find? (·.name == n)) =
        l.findSome? (fun s => (D.own s).find? (·.name == n)) := by
    intro l
    induction l with
    | nil => intro _; rfl
    | cons a l ih =>
      intro h
      rw [List.findSome?_cons, List.findSome?_cons, hp.own (h a List.mem_cons_self),
        ih fun b hb => h b (List.mem_cons_of_mem _ hb)]
  exact this _ fun a ha => ancestors_lt wf ha

theorem Pre.allComponents {t : Nat} (ht : t < D.recs.length) : D'.allComponents t = D.allComponents t := by
  unfold Decls.allComponents
  rw [hp.ancestors wf wf' ht]
  have : ∀ l : List Nat, (∀ a ∈ l, a < D.recs.length) → l.flatMap D'.own = l.flatMap D.own := by
    intro l
    induction l with
    | nil => intro _; rfl
    | cons a l ih =>
      intro h
      rw [List.flatMap_cons, List.flatMap_cons, hp.own (h a List.mem_cons_self),
        ih fun b hb => h b (List.mem_cons_of_mem _ hb)]
  exact this _ fun a ha => ancestors_lt wf (List.mem_reverse.1 ha)

theorem Pre.isSubclassOf {t : Nat} (ht : t < D.recs.length) (u : Nat) :
    D'.isSubclassOf t u = D.isSubclassOf t u := by
  unfold Decls.isSubclassOf
  rw [hp.ancestors wf wf' ht]

omit wf wf' in
theorem Pre.fields {t : Nat} (ht : t < D.tups.length) : D'.fields t = D.fields t := by
  unfold Decls.fields
  rw [prefix_same hp.tups ht]

theorem Pre.fieldMap {ms : List Nat} (hms : ∀ m ∈ ms, m < D.recs.length) :
    D'.fieldMap ms = D.fieldMap ms := by
  unfold Decls.fieldMap
  generalize ([] : List (String × FieldInfo)) = acc
  induction ms generalizing acc with
  | nil => rfl
  | cons m ms ih =>
    rw [List.foldl_cons, List.foldl_cons, hp.allComponents wf wf' (hms m List.mem_cons_self)]
    exact ih (fun x hx => hms x (List.mem_cons_of_mem _ hx)) _

end

/-! ## Types of expressions are declared -/

/-- The type, if there is one, is declared. -/
def TypIn (D : Decls) (o : Option Ty) : Prop := ∀ τ, o = some τ → TyIn D τ

/-- The types of all names in scope are declared. -/
structure ScIn (D : Decls) (sc : TScope) : Prop where
  comp : ∀ n c, sc.comp n = some c → TyIn D c.ty
  vars : ∀ x ∈ sc.vars, TyIn D x.2
  enums : ∀ p t, sc.enums p = some t → t < D.enums.length

theorem lookup_mem {α β : Type} [BEq α] [LawfulBEq α] {l : List (α × β)} {a : α} {b : β}
    (h : l.lookup a = some b) : (a, b) ∈ l := by
  rw [List.lookup_eq_some_iff] at h
  obtain ⟨l1, l2, rfl, -⟩ := h
  simp

variable {D D' : Decls} {infos : List RecInfo} {seps : List (List Sep)}
  {rx : List Char → List Char → Bool} {rxOk : List Char → Bool}

theorem typIn_some {τ : Ty} (h : TyIn D τ) : TypIn D (some τ) := by
  intro σ e; cases e; exact h

theorem typIn_bool : TypIn D (some .bool) := typIn_some trivial

theorem mkUnary_typ {typ : Option Ty} {op : UnOp} {e x : Expr} (h : mkUnary typ op e = .ok x) :
    x.typ = typ := by
  unfold mkUnary at h
  rw [el_bind_ok] at h
  obtain ⟨_, -, h⟩ := h
  cases h
  rfl

theorem mkBinary_typ {typ : Option Ty} {op : BinOp} {l r x : Expr} (h : mkBinary D typ op l r = .ok x) :
    x.typ = typ := by
  unfold mkBinary at h
  rw [el_bind_ok] at h
  obtain ⟨_, -, h⟩ := h
  cases h
  rfl

theorem mkLogic_typ {op : SCOp} {l r x : Expr} (h : mkLogic op l r = .ok x) : x.typ = some .bool := by
  unfold mkLogic at h
  simp only [el_bind_ok] at h
  obtain ⟨_, -, _, -, h⟩ := h
  cases h
  rfl

theorem mkField_in (hs : SoundDecls D infos seps) {p x : Expr} {f : String} (hp : TypIn D p.typ)
    (h : mkField D p f = .ok x) : TypIn D x.typ := by
  unfold mkField at h
  split at h
  · next t ht =>
    split at h
    · cases h
    · next c hc =>
      rw [el_bind_ok] at h
      obtain ⟨_, -, h⟩ := h
      cases h
      have hm := List.mem_of_find?_eq_some hc
      unfold Decls.fields at hm
      cases hg : D.tups[t]? with
      | none => rw [hg] at hm; cases hm
      | some cs => rw [hg] at hm; exact typIn_some (hs.tupTypes t cs hg c hm)
  · next t ht =>
    split at h
    · cases h
    · next c hc =>
      rw [el_bind_ok] at h
      obtain ⟨_, -, h⟩ := h
      cases h
      obtain ⟨⟨a, -, hd⟩, -⟩ := component_hasComp hs.world.wf hc
      exact typIn_some (hs.recTypes a c hd)
  · next id ms ht =>
    split at h
    · cases h
    · next info hi =>
      split at h
      · cases h
      · cases h
        have hd := fieldMap_describes D ms f
        have key : ∃ m, HasComp D m info.comp := by
          have : ∀ (ms : List Nat) (acc : List (String × FieldInfo)),
              (∀ x ∈ acc, ∃ m, HasComp D m x.2.comp) →
              ∀ x ∈ ms.foldl (fun m t => (firstOfName [] (D.allComponents t)).foldl addField m) acc,
                ∃ m, HasComp D m x.2.comp := by
            intro ms
            induction ms with
            | nil => intro acc ha; exact ha
            | cons m ms ih =>
              intro acc ha
              rw [List.foldl_cons]
              refine ih _ ?_
              have hall : ∀ c ∈ firstOfName [] (D.allComponents m), HasComp D m c := by
                intro c hc
                exact (mem_allComponents hs.world.wf m c).1 (firstOfName_mem _ _ hc).1
              revert hall
              generalize firstOfName [] (D.allComponents m) = cs
              induction cs generalizing acc with
              | nil => intro _; exact ha
              | cons c cs ih' =>
                intro hall
                rw [List.foldl_cons]
                refine ih' (addField acc c) ?_ fun d hd => hall d (List.mem_cons_of_mem _ hd)
                have hc := hall c List.mem_cons_self
                clear ih' ih
                induction acc with
                | nil =>
                  intro x hx
                  simp only [addField, List.mem_singleton] at hx
                  subst hx
                  exact ⟨m, hc⟩
                | cons y acc ih'' =>
                  obtain ⟨n, i⟩ := y
                  intro x hx
                  unfold addField at hx
                  split at hx
                  · rcases List.mem_cons.1 hx with rfl | hx
                    · have := ha (n, i) List.mem_cons_self
                      exact this
                    · exact ha x (List.mem_cons_of_mem _ hx)
                  · rcases List.mem_cons.1 hx with rfl | hx
                    · exact ha _ List.mem_cons_self
                    · exact ih'' (fun z hz => ha z (List.mem_cons_of_mem _ hz)) x hx
          obtain ⟨m, hm⟩ := this ms [] (by simp) (f, info) (lookup_mem hi)
          exact ⟨m, hm⟩
        obtain ⟨m, a, -, hd⟩ := key
        exact typIn_some (hs.recTypes a _ hd)
  · cases h

theorem mkIndex_in {p i x : Expr} (hp : TypIn D p.typ) (h : mkIndex D p i = .ok x) :
    TypIn D x.typ := by
  unfold mkIndex at h
  split at h
  · next id elem lo hi ht =>
    rw [mkBinary_typ h]
    exact typIn_some (show TyIn D elem from hp (.arr id elem lo hi) ht)
  · cases h

theorem chainTyp_in {o : Option Ty} (h : TypIn D o) : TypIn D (chainTyp o) := by
  unfold chainTyp
  split
  · split
    · exact typIn_some trivial
    · exact h
  · intro τ e; cases e

theorem mkArith_in {op : ArOp} {l r x : Expr} (hl : TypIn D l.typ) (h : mkArith D op l r = .ok x) :
    TypIn D x.typ := by
  unfold mkArith at h
  cases op <;> simp only at h <;> rw [mkBinary_typ h] <;> first | exact chainTyp_in hl | exact hl

theorem mkPower_in {l r x : Expr} (hl : TypIn D l.typ) (h : mkPower D rx l r = .ok x) :
    TypIn D x.typ := by
  unfold mkPower at h
  simp only [el_bind_ok] at h
  obtain ⟨v, -, e, he, h⟩ := h
  split at h
  · split at h
    · cases h
    · cases h; rw [mkBinary_typ he]; exact hl
  · cases h

theorem mkNot_in {neg : Bool} {e x : Expr} (he : TypIn D e.typ) (h : mkNot neg e = .ok x) :
    TypIn D x.typ := by
  unfold mkNot at h
  split at h
  · rw [mkUnary_typ h]; exact typIn_bool
  · cases h; exact he

theorem mkIn_in {e a x : Expr} (h : mkIn D e a = .ok x) : TypIn D x.typ := by
  unfold mkIn at h
  split at h
  · cases h
  · split at h
    · rw [mkBinary_typ h]; exact typIn_bool
    · split at h
      · rw [mkBinary_typ h]; exact typIn_bool
      · cases h

theorem mkRange_in {e lo up x : Expr} (h : mkRange e lo up = .ok x) : TypIn D x.typ := by
  unfold mkRange at h
  simp only [el_bind_ok] at h
  obtain ⟨_, -, _, -, _, -, h⟩ := h
  cases h
  exact typIn_bool

theorem mkLogical_in {op : LogOp} {l r x : Expr} (h : mkLogical D op l r = .ok x) :
    TypIn D x.typ := by
  unfold mkLogical at h
  cases op <;> simp only at h <;> first | rw [mkLogic_typ h] | rw [mkBinary_typ h]
  all_goals exact typIn_bool

theorem mkCall_in {f : String} {args : Exprs} {x : Expr} (h : mkCall D rx rxOk f args = .ok x) :
    TypIn D x.typ := by
  have hb : TypIn D (some Ty.bool) := typIn_bool
  have hi : TypIn D (some Ty.int) := typIn_some trivial
  have hd : TypIn D (some Ty.dec) := typIn_some trivial
  unfold mkCall at h
  split at h
  · split at h
    · split at h <;> rw [mkUnary_typ h] <;> exact hi
    · cases h
  split at h
  · split at h
    · rw [mkBinary_typ h]; exact hb
    · cases h
  split at h
  · split at h
    · rw [mkBinary_typ h]; exact hb
    · cases h
  split at h
  · split at h
    · simp only [el_bind_ok] at h
      obtain ⟨_, -, v, -, h⟩ := h
      split at h
      · split at h
        · rw [mkBinary_typ h]; exact hb
        · cases h
      · cases h
    · cases h
  split at h
  · split at h
    · cases h
    · unfold mkOneOf at h
      rw [el_bind_ok] at h
      obtain ⟨_, -, h⟩ := h
      cases h
      exact hb
  split at h
  · split at h
    · rw [el_bind_ok] at h
      obtain ⟨_, -, h⟩ := h
      rw [mkUnary_typ h]; exact hi
    · cases h
  split at h
  · split at h
    · rw [el_bind_ok] at h
      obtain ⟨_, -, h⟩ := h
      rw [mkUnary_typ h]; exact hd
    · cases h
  · cases h

theorem ScIn.bind {sc : TScope} (h : ScIn D sc) {x : String} {τ : Ty} (hτ : TyIn D τ) :
    ScIn D { sc with vars := (x, τ) :: sc.vars } := by
  refine ⟨h.comp, ?_, h.enums⟩
  intro y hy
  rcases List.mem_cons.1 hy with rfl | hy
  · exact hτ
  · exact h.vars y hy

/-- The type of an accepted expression is declared. -/
theorem elab_in (hs : SoundDecls D infos seps) : ∀ (r : Raw) (sc : TScope) (e : Expr), ScIn D sc →
    Raw.elab ⟨D, rx, rxOk⟩ sc r = .ok e → TypIn D e.typ
  | .null, sc, e, _, h => by
    simp only [Raw.elab, El.ok.injEq] at h
    subst h
    intro τ e; cases e
  | .bool _, sc, e, _, h | .int _, sc, e, _, h | .dec _, sc, e, _, h | .str _, sc, e, _, h => by
    simp only [Raw.elab, El.ok.injEq] at h
    subst h
    exact typIn_some trivial
  | .enumLit path lit, sc, e, hsc, h => by
    simp only [Raw.elab] at h
    split at h
    · cases h
    · next t ht =>
      split at h
      · cases h; exact typIn_some (hsc.enums path t ht)
      · cases h
  | .name n, sc, e, hsc, h => by
    simp only [Raw.elab] at h
    split at h
    · next t ht => cases h; exact typIn_some (hsc.vars _ (lookup_mem ht))
    · split at h
      · next c hc => cases h; exact typIn_some (hsc.comp n c hc)
      · cases h
  | .dot p f, sc, e, hsc, h => by
    simp only [Raw.elab, el_bind_ok] at h
    obtain ⟨a, ha, h⟩ := h
    exact mkField_in hs (elab_in hs p sc a hsc ha) h
  | .index p i, sc, e, hsc, h => by
    simp only [Raw.elab, el_bind_ok] at h
    obtain ⟨a, ha, b, hb, h⟩ := h
    exact mkIndex_in (elab_in hs p sc a hsc ha) h
  | .call f args, sc, e, hsc, h => by
    simp only [Raw.elab, el_bind_ok] at h
    obtain ⟨a, ha, h⟩ := h
    exact mkCall_in h
  | .sign m p, sc, e, hsc, h => by
    simp only [Raw.elab, el_bind_ok] at h
    obtain ⟨a, ha, h⟩ := h
    rw [mkUnary_typ h]
    exact elab_in hs p sc a hsc ha
  | .not p, sc, e, hsc, h => by
    simp only [Raw.elab, el_bind_ok] at h
    obtain ⟨a, ha, h⟩ := h
    rw [mkUnary_typ h]
    exact typIn_bool
  | .abs p, sc, e, hsc, h => by
    simp only [Raw.elab, el_bind_ok] at h
    obtain ⟨a, ha, h⟩ := h
    rw [mkUnary_typ h]
    exact elab_in hs p sc a hsc ha
  | .power l r, sc, e, hsc, h => by
    simp only [Raw.elab, el_bind_ok] at h
    obtain ⟨a, ha, b, hb, h⟩ := h
    exact mkPower_in (elab_in hs l sc a hsc ha) h
  | .arith op l r, sc, e, hsc, h => by
    simp only [Raw.elab, el_bind_ok] at h
    obtain ⟨a, ha, b, hb, h⟩ := h
    exact mkArith_in (elab_in hs l sc a hsc ha) h
  | .cmp op l r, sc, e, hsc, h => by
    simp only [Raw.elab, el_bind_ok] at h
    obtain ⟨a, ha, b, hb, h⟩ := h
    rw [mkBinary_typ h]
    exact typIn_bool
  | .isIn neg l r, sc, e, hsc, h => by
    simp only [Raw.elab, el_bind_ok] at h
    obtain ⟨a, ha, b, hb, x, hx, h⟩ := h
    exact mkNot_in (mkIn_in hx) h
  | .inRange neg l a b, sc, e, hsc, h => by
    simp only [Raw.elab, el_bind_ok] at h
    obtain ⟨x, hx, y, hy, z, hz, w, hw, h⟩ := h
    exact mkNot_in (mkRange_in hw) h
  | .logic op l r, sc, e, hsc, h => by
    simp only [Raw.elab, el_bind_ok] at h
    obtain ⟨a, ha, b, hb, h⟩ := h
    exact mkLogical_in h
  | .cond c p rest, sc, e, hsc, h => by
    simp only [Raw.elab, el_bind_ok] at h
    obtain ⟨a, ha, b, hb, h⟩ := h
    split at h
    · cases h
    · next t ht =>
      simp only [el_bind_ok] at h
      obtain ⟨-, -, as, has, h⟩ := h
      cases h
      exact typIn_some (elab_in hs p sc b hsc hb t ht)
  | .quant u x src body, sc, e, hsc, h => by
    simp only [Raw.elab] at h
    split at h
    · cases h
    split at h
    · cases h
    split at h
    · cases h
    split at h
    · simp only [el_bind_ok] at h
      obtain ⟨b, hb, -, -, h⟩ := h
      cases h
      exact typIn_bool
    · cases h

/-! ## Nothing changes -/

theorem el_bind_congr {α β : Type} {a a' : El α} {f f' : α → El β} (h : a = a')
    (hf : ∀ x, a' = .ok x → f x = f' x) : a.bind f = a'.bind f' := by
  subst h
  cases a with
  | ok x => exact hf x rfl
  | err e => rfl
  | crash c => rfl

section
variable (hp : Pre D D') (wf : WFDecls D) (wf' : WFDecls D')
include hp wf wf'

theorem eqTypes_same {l r : Option Ty} (hl : TypIn D l) (hr : TypIn D r) :
    eqTypes D' l r = eqTypes D l r := by
  unfold eqTypes
  split
  · next l r =>
    split
    · split
      · next ls rs e1 e2 =>
        have key : ∀ {τ : Ty} {ms : List Nat}, TypIn D (some τ) → τ.members = some ms →
            ∀ m ∈ ms, m < D.recs.length := by
          intro τ ms h e m hm
          have := h τ rfl
          unfold Ty.members at e
          split at e
          · cases e
            rw [List.mem_singleton] at hm
            subst hm
            exact this
          · cases e
            exact this m hm
          · cases e
        have k1 := key hl e1
        have k2 := key hr e2
        have : (ls.any fun a => rs.any fun b => D'.isSubclassOf a b || D'.isSubclassOf b a) =
            ls.any fun a => rs.any fun b => D.isSubclassOf a b || D.isSubclassOf b a := by
          rw [Bool.eq_iff_iff]
          simp only [List.any_eq_true]
          constructor <;> rintro ⟨a, ha, b, hb, h⟩ <;> refine ⟨a, ha, b, hb, ?_⟩
          · rwa [hp.isSubclassOf wf wf' (k1 a ha), hp.isSubclassOf wf wf' (k2 b hb)] at h
          · rwa [hp.isSubclassOf wf wf' (k1 a ha), hp.isSubclassOf wf wf' (k2 b hb)]
        rw [this]
      · rfl
    · rfl
  · rfl

theorem mkBinary_same {typ : Option Ty} {op : BinOp} {l r : Expr} (hl : TypIn D l.typ)
    (hr : TypIn D r.typ) : mkBinary D' typ op l r = mkBinary D typ op l r := by
  unfold mkBinary
  have : binaryTypes D' op l.typ r.typ = binaryTypes D op l.typ r.typ := by
    unfold binaryTypes
    cases op <;> simp only
    all_goals exact eqTypes_same hp wf wf' hl hr
  rw [this]

theorem mkField_same {p : Expr} {f : String} (h : TypIn D p.typ) : mkField D' p f = mkField D p f := by
  unfold mkField
  split
  · next t ht => rw [hp.fields (h _ ht)]
  · next t ht => rw [hp.component wf wf' (h _ ht)]
  · next id ms ht => rw [hp.fieldMap wf wf' (h _ ht)]
  · rfl

theorem mkIndex_same {p i : Expr} (h : TypIn D p.typ) (h' : TypIn D i.typ) :
    mkIndex D' p i = mkIndex D p i := by
  unfold mkIndex
  split
  · exact mkBinary_same hp wf wf' h h'
  · rfl

theorem mkPower_same {l r : Expr} (h : TypIn D l.typ) (h' : TypIn D r.typ) :
    mkPower D' rx l r = mkPower D rx l r := by
  unfold mkPower
  rw [mkBinary_same hp wf wf' h h']

theorem mkArith_same {op : ArOp} {l r : Expr} (h : TypIn D l.typ) (h' : TypIn D r.typ) :
    mkArith D' op l r = mkArith D op l r := by
  unfold mkArith
  cases op <;> exact mkBinary_same hp wf wf' h h'

theorem mkIn_same {l r : Expr} (h : TypIn D l.typ) (h' : TypIn D r.typ) :
    mkIn D' l r = mkIn D l r := by
  unfold mkIn
  rw [mkBinary_same hp wf wf' h h', mkBinary_same hp wf wf' h h']

omit hp wf wf' in
theorem mkLogical_same {op : LogOp} {l r : Expr} : mkLogical D' op l r = mkLogical D op l r := by
  cases op <;> rfl

theorem mkCall_same {f : String} {args : Exprs} (h : ∀ a ∈ args.toList, TypIn D a.typ) :
    mkCall D' rx rxOk f args = mkCall D rx rxOk f args := by
  unfold mkCall
  have key : ∀ (a b : Expr) (op : BinOp), args.toList = [a, b] →
      mkBinary D' (some .bool) op a b = mkBinary D (some .bool) op a b := by
    intro a b op e
    rw [e] at h
    exact mkBinary_same hp wf wf' (h a (by simp)) (h b (by simp))
  split
  · rfl
  split
  · split
    · next a b e => exact key a b _ e
    · rfl
  split
  · split
    · next a b e => exact key a b _ e
    · rfl
  split
  · split
    · next a b e => simp only [key a b _ e]
    · rfl
  rfl

end

mutual
/-- Declaring further types does not change the outcome of elaboration. -/
theorem elab_same (hp : Pre D D') (wf' : WFDecls D') (hs : SoundDecls D infos seps) :
    ∀ (r : Raw) (sc : TScope), ScIn D sc →
      Raw.elab ⟨D', rx, rxOk⟩ sc r = Raw.elab ⟨D, rx, rxOk⟩ sc r
  | .null, sc, _ | .bool _, sc, _ | .int _, sc, _ | .dec _, sc, _ | .str _, sc, _ | .name _, sc, _ => by
    simp only [Raw.elab]
  | .enumLit path lit, sc, hsc => by
    simp only [Raw.elab]
    split
    · rfl
    · next t ht => rw [prefix_same hp.enums (hsc.enums path t ht)]
  | .dot p f, sc, hsc => by
    simp only [Raw.elab]
    exact el_bind_congr (elab_same hp wf' hs p sc hsc) fun a ha =>
      mkField_same hp hs.world.wf wf' (elab_in hs p sc a hsc ha)
  | .index p i, sc, hsc => by
    simp only [Raw.elab]
    exact el_bind_congr (elab_same hp wf' hs p sc hsc) fun a ha =>
      el_bind_congr (elab_same hp wf' hs i sc hsc) fun b hb =>
        mkIndex_same hp hs.world.wf wf' (elab_in hs p sc a hsc ha) (elab_in hs i sc b hsc hb)
  | .call f args, sc, hsc => by
    simp only [Raw.elab]
    obtain ⟨h1, h2⟩ := elabs_same hp wf' hs args sc hsc
    exact el_bind_congr h1 fun a ha => mkCall_same hp hs.world.wf wf' (h2 a ha)
  | .sign m p, sc, hsc => by
    simp only [Raw.elab]
    exact el_bind_congr (elab_same hp wf' hs p sc hsc) fun _ _ => rfl
  | .not p, sc, hsc => by
    simp only [Raw.elab]
    exact el_bind_congr (elab_same hp wf' hs p sc hsc) fun _ _ => rfl
  | .abs p, sc, hsc => by
    simp only [Raw.elab]
    exact el_bind_congr (elab_same hp wf' hs p sc hsc) fun _ _ => rfl
  | .power l r, sc, hsc => by
    simp only [Raw.elab]
    exact el_bind_congr (elab_same hp wf' hs l sc hsc) fun a ha =>
      el_bind_congr (elab_same hp wf' hs r sc hsc) fun b hb =>
        mkPower_same hp hs.world.wf wf' (elab_in hs l sc a hsc ha) (elab_in hs r sc b hsc hb)
  | .arith op l r, sc, hsc => by
    simp only [Raw.elab]
    exact el_bind_congr (elab_same hp wf' hs l sc hsc) fun a ha =>
      el_bind_congr (elab_same hp wf' hs r sc hsc) fun b hb =>
        mkArith_same hp hs.world.wf wf' (elab_in hs l sc a hsc ha) (elab_in hs r sc b hsc hb)
  | .cmp op l r, sc, hsc => by
    simp only [Raw.elab]
    exact el_bind_congr (elab_same hp wf' hs l sc hsc) fun a ha =>
      el_bind_congr (elab_same hp wf' hs r sc hsc) fun b hb =>
        mkBinary_same hp hs.world.wf wf' (elab_in hs l sc a hsc ha) (elab_in hs r sc b hsc hb)
  | .isIn neg l r, sc, hsc => by
    simp only [Raw.elab]
    exact el_bind_congr (elab_same hp wf' hs l sc hsc) fun a ha =>
      el_bind_congr (elab_same hp wf' hs r sc hsc) fun b hb => by
        rw [mkIn_same hp hs.world.wf wf' (elab_in hs l sc a hsc ha) (elab_in hs r sc b hsc hb)]
  | .inRange neg l a b, sc, hsc => by
    simp only [Raw.elab]
    exact el_bind_congr (elab_same hp wf' hs l sc hsc) fun _ _ =>
      el_bind_congr (elab_same hp wf' hs a sc hsc) fun _ _ =>
        el_bind_congr (elab_same hp wf' hs b sc hsc) fun _ _ => rfl
  | .logic op l r, sc, hsc => by
    simp only [Raw.elab]
    exact el_bind_congr (elab_same hp wf' hs l sc hsc) fun a ha =>
      el_bind_congr (elab_same hp wf' hs r sc hsc) fun b hb =>
        mkLogical_same
  | .cond c p rest, sc, hsc => by
    simp only [Raw.elab]
    refine el_bind_congr (elab_same hp wf' hs c sc hsc) fun a ha =>
      el_bind_congr (elab_same hp wf' hs p sc hsc) fun b hb => ?_
    split
    · rfl
    · next t ht =>
      exact el_bind_congr rfl fun _ _ => el_bind_congr (elaba_same hp wf' hs rest sc t hsc) fun _ _ => rfl
  | .quant u x src body, sc, hsc => by
    simp only [Raw.elab]
    split
    · rfl
    split
    · rfl
    split
    · rfl
    next c hc =>
    split
    · next id elem lo hi hty =>
      have he : TyIn D elem := by
        have := hsc.comp src c hc
        rw [hty] at this
        exact this
      exact el_bind_congr (elab_same hp wf' hs body _ (hsc.bind he)) fun _ _ => rfl
    · rfl

theorem elabs_same (hp : Pre D D') (wf' : WFDecls D') (hs : SoundDecls D infos seps) :
    ∀ (rs : Raws) (sc : TScope), ScIn D sc →
      Raws.elab ⟨D', rx, rxOk⟩ sc rs = Raws.elab ⟨D, rx, rxOk⟩ sc rs ∧
      ∀ es, Raws.elab ⟨D, rx, rxOk⟩ sc rs = .ok es → ∀ a ∈ es.toList, TypIn D a.typ
  | .nil, sc, hsc => by
    simp only [Raws.elab, El.ok.injEq, true_and]
    rintro es rfl a ha
    cases ha
  | .cons r rs, sc, hsc => by
    simp only [Raws.elab]
    obtain ⟨h1, h2⟩ := elabs_same hp wf' hs rs sc hsc
    refine ⟨el_bind_congr (elab_same hp wf' hs r sc hsc) fun _ _ => el_bind_congr h1 fun _ _ => rfl, ?_⟩
    intro es h
    simp only [el_bind_ok] at h
    obtain ⟨a, ha, b, hb, h⟩ := h
    cases h
    intro x hx
    rcases List.mem_cons.1 hx with rfl | hx
    · exact elab_in hs r sc _ hsc ha
    · exact h2 b hb x hx

theorem elaba_same (hp : Pre D D') (wf' : WFDecls D') (hs : SoundDecls D infos seps) :
    ∀ (rs : RActs) (sc : TScope) (t : Ty), ScIn D sc →
      RActs.elab ⟨D', rx, rxOk⟩ sc t rs = RActs.elab ⟨D, rx, rxOk⟩ sc t rs
  | .els r, sc, t, hsc => by
    simp only [RActs.elab]
    exact el_bind_congr (elab_same hp wf' hs r sc hsc) fun _ _ => rfl
  | .act c r rest, sc, t, hsc => by
    simp only [RActs.elab]
    exact el_bind_congr (elab_same hp wf' hs c sc hsc) fun _ _ =>
      el_bind_congr (elab_same hp wf' hs r sc hsc) fun _ _ =>
        el_bind_congr rfl fun _ _ => el_bind_congr rfl fun _ _ =>
          el_bind_congr (elaba_same hp wf' hs rest sc t hsc) fun _ _ => rfl
end

theorem elabCheck_same (hp : Pre D D') (wf' : WFDecls D') (hs : SoundDecls D infos seps) {r : Raw}
    {sc : TScope} (hsc : ScIn D sc) : elabCheck ⟨D', rx, rxOk⟩ sc r = elabCheck ⟨D, rx, rxOk⟩ sc r := by
  unfold elabCheck
  rw [elab_same hp wf' hs r sc hsc]

end Verif.Lemmas
