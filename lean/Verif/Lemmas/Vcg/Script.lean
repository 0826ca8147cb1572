import Verif.Lemmas.Vcg.SortsF
import Verif.Lemmas.Vcg.Mono2
/-! What is declared at the nodes of a graph. -/
namespace Verif.Lemmas.Vcg
open Verif.Model Verif.Spec Verif.Lemmas

/-! ### The number of temporaries grows -/

/-- the number of temporaries does not get smaller -/
def Up {α : Type} (x : TrM α) : Prop := ∀ s a s', x s = .ok a s' → s.tmp ≤ s'.tmp

theorem Up.bind {α γ : Type} {x : TrM α} {f : α → TrM γ} (hx : Up x) (hf : ∀ a, Up (f a)) : Up (x >>= f) := by
  intro s b s' h
  obtain ⟨a, s1, h1, h2⟩ := trm_bind.1 h
  exact Nat.le_trans (hx _ _ _ h1) (hf _ _ _ _ h2)

theorem up_pure {α : Type} {a : α} : Up (pure a : TrM α) := by
  intro s b s' h
  rw [trm_pure] at h
  rw [h.2]

theorem up_need {α : Type} {x : Option α} : Up (TrM.need x) := by
  intro s b s' h
  rw [trm_need] at h
  rw [h.2]

theorem up_attach {ss : List SStmt} : Up (attach ss) := by
  intro s b s' h
  rw [trm_attach] at h
  rw [← h]
  exact (att_le _ _).tmp

theorem up_newTemp : Up newTemp := by
  intro s b s' h
  rw [trm_newTemp] at h
  rw [h.2]
  exact (bump_le _).tmp

theorem up_newNode : Up newNode := by
  intro s b s' h
  rw [trm_newNode] at h
  rw [h.2]
  exact (fresh_le _).tmp

theorem up_getStart : Up getStart := by
  intro s b s' h
  rw [trm_getStart] at h
  rw [h.2]

theorem up_setStart {n : Nat} : Up (setStart n) := by
  intro s b s' h
  rw [trm_setStart] at h
  rw [h]
  exact (goto_le _ _).tmp

theorem up_edgeTo {n : Nat} : Up (edgeTo n) := by
  intro s b s' h
  rw [trm_edgeTo] at h
  rw [h]
  exact (link_le _ _).tmp

theorem up_lift {α : Type} {x : FR α} : Up (FR.lift x) := by
  intro s b s' h
  rw [trm_lift] at h
  rw [h.2]

theorem up_crash {α : Type} : Up (TrM.crash : TrM α) := by
  intro s b s' h
  cases h

theorem up_checkValid {em : Bool} {d : Smt} : Up (checkValid em d) := by
  unfold checkValid
  split
  · exact up_attach
  · exact up_pure

theorem up_checkGoals {em : Bool} {gs : List (Smt × Feedback)} : Up (checkGoals em gs) := by
  unfold checkGoals
  split
  · exact up_attach
  · exact up_pure

theorem up_createReturn {t : Option Ty} {v : Smt} : Up (createReturn t v) := by
  unfold createReturn declareTemp
  exact up_newTemp.bind fun _ => up_attach.bind fun _ => up_pure

mutual
theorem tr_up {T : TrEnv} {em : Bool} : ∀ (e : Expr) (ρ : NameTrs), Up (e.tr T em ρ)
  | .null, ρ | .bool _, ρ | .int _, ρ | .dec _, ρ | .str _, ρ | .enum _ _, ρ => by
    simp only [Expr.tr]
    exact up_pure
  | .name n _, ρ => by
    simp only [Expr.tr]
    exact up_need.bind fun _ => up_pure
  | .unary t op e, ρ => by
    simp only [Expr.tr]
    exact (tr_up e ρ).bind fun _ => up_checkValid.bind fun _ => up_need.bind fun _ => up_need.bind fun _ => up_createReturn
  | .binary t op l r, ρ => by
    simp only [Expr.tr]
    refine (tr_up l ρ).bind fun _ => ?_
    split
    · exact (tr_up r ρ).bind fun _ => up_need.bind fun _ => up_createReturn
    · exact up_checkValid.bind fun _ => (tr_up r ρ).bind fun _ => up_checkValid.bind fun _ => up_need.bind fun _ => up_need.bind fun _ =>
        up_checkGoals.bind fun _ => up_need.bind fun _ => up_createReturn
  | .logic op l r, ρ => by
    simp only [Expr.tr]
    exact (tr_up l ρ).bind fun _ => up_checkValid.bind fun _ => up_need.bind fun _ => up_getStart.bind fun _ => up_newTemp.bind fun _ =>
      up_newNode.bind fun _ => up_attach.bind fun _ => up_attach.bind fun _ => up_edgeTo.bind fun _ => up_setStart.bind fun _ =>
      up_attach.bind fun _ => (tr_up r ρ).bind fun _ => up_checkValid.bind fun _ => up_attach.bind fun _ => up_edgeTo.bind fun _ =>
      up_setStart.bind fun _ => up_pure
  | .field p n _, ρ => by
    simp only [Expr.tr]
    exact (tr_up p ρ).bind fun _ => up_checkValid.bind fun _ => up_need.bind fun _ => up_need
  | .range e lo up, ρ => by
    simp only [Expr.tr]
    exact (tr_up e ρ).bind fun _ => up_checkValid.bind fun _ => (tr_up lo ρ).bind fun _ => up_checkValid.bind fun _ =>
      (tr_up up ρ).bind fun _ => up_checkValid.bind fun _ => up_need.bind fun _ => up_need.bind fun _ => up_need.bind fun _ => up_createReturn
  | .oneof cs, ρ => by
    simp only [Expr.tr]
    exact (trs_up cs ρ).bind fun _ => up_need.bind fun _ => up_createReturn
  | .cond t as, ρ => by
    simp only [Expr.tr]
    exact up_newNode.bind fun _ => up_newTemp.bind fun _ => (acts_up _ _ _ as ρ).bind fun _ => up_setStart.bind fun _ => up_pure
  | .quant u x src body, ρ => by
    simp only [Expr.tr]
    refine up_need.bind fun x => up_checkValid.bind fun _ => up_getStart.bind fun _ => ?_
    split
    · refine up_newTemp.bind fun _ => up_newTemp.bind fun _ => up_attach.bind fun _ => (tr_up body _).bind fun _ => up_checkValid.bind fun _ =>
        up_setStart.bind fun _ => up_newTemp.bind fun _ => up_lift.bind fun _ => up_need.bind fun _ => ?_
      split <;> exact up_pure
    · exact up_crash
theorem trs_up {T : TrEnv} {em : Bool} : ∀ (es : Exprs) (ρ : NameTrs), Up (es.tr T em ρ)
  | .nil, ρ => by
    simp only [Exprs.tr]
    exact up_pure
  | .cons e es, ρ => by
    simp only [Exprs.tr]
    exact (tr_up e ρ).bind fun _ => up_checkValid.bind fun _ => up_need.bind fun _ => (trs_up es ρ).bind fun _ => up_pure
theorem acts_up {T : TrEnv} {em : Bool} (k : Nat) (srt : Srt) (fin : Nat) : ∀ (as : Acts) (ρ : NameTrs), Up (as.tr T em ρ k srt fin)
  | .els e, ρ => by
    simp only [Acts.tr]
    exact (tr_up e ρ).bind fun _ => up_checkValid.bind fun _ => up_attach.bind fun _ => up_edgeTo
  | .act c e rest, ρ => by
    simp only [Acts.tr]
    exact (tr_up c ρ).bind fun _ => up_checkValid.bind fun _ => up_need.bind fun _ => up_getStart.bind fun _ => up_attach.bind fun _ =>
      (tr_up e ρ).bind fun _ => up_checkValid.bind fun _ => up_attach.bind fun _ => up_edgeTo.bind fun _ => up_setStart.bind fun _ =>
      up_attach.bind fun _ => acts_up k srt fin rest ρ
end

/-! ### What is known at a node -/

/-- The constants that are surely declared, with their sorts, and the constants that may be declared -/
structure Ctx where
  kn : Sym → Option Srt
  us : Sym → Prop
  ok : ∀ x t, kn x = some t → us x

/-- nothing is declared -/
def Ctx.empty : Ctx := ⟨fun _ => none, fun _ => False, fun _ _ h => by cases h⟩

/-- one more constant -/
def Ctx.add (c : Ctx) (s : Sym) (srt : Srt) : Ctx :=
  ⟨declared c.kn s srt, fun x => x = s ∨ c.us x, fun x t h => by
    unfold declared at h
    split at h
    · next he => exact .inl he
    · exact .inr (c.ok x t h)⟩

/-- after a statement -/
def Ctx.step (c : Ctx) : SStmt → Ctx
  | .declare s srt _ => c.add s srt
  | _ => c

/-- after statements -/
def Ctx.after (c : Ctx) : List SStmt → Ctx
  | [] => c
  | st :: r => (c.step st).after r

/-- a statement is well formed -/
def Fits1 (D : Decls) (c : Ctx) : SStmt → Prop
  | .declare s srt v => ¬ c.us s ∧ ∀ a, v = some a → Sorted D c.kn [] a srt
  | .assert a => Sorted D c.kn [] a .bool
  | .goal a _ => Sorted D c.kn [] a .bool

/-- statements are well formed -/
def Fits (D : Decls) (c : Ctx) : List SStmt → Prop
  | [] => True
  | st :: r => Fits1 D c st ∧ Fits D (c.step st) r

/-- more is surely declared, and less may be -/
structure Covers (c d : Ctx) : Prop where
  kn : KLe d.kn c.kn
  us : ∀ x, c.us x → d.us x

theorem Covers.rfl' {c : Ctx} : Covers c c := ⟨KLe.rfl', fun _ h => h⟩
theorem Covers.trans {c d e : Ctx} (h : Covers c d) (h' : Covers d e) : Covers c e := ⟨h'.kn.trans h.kn, fun x hx => h'.us x (h.us x hx)⟩

theorem declared_mono {K K' : Sym → Option Srt} (h : KLe K K') (s : Sym) (srt : Srt) : KLe (declared K s srt) (declared K' s srt) := by
  intro x t hx
  unfold declared at *
  split at hx
  · next he => rw [if_pos he]; exact hx
  · next he => rw [if_neg he]; exact h x t hx

theorem Covers.step {c d : Ctx} (h : Covers c d) (st : SStmt) : Covers (c.step st) (d.step st) := by
  cases st with
  | declare s srt v => exact ⟨declared_mono h.kn s srt, fun x hx => hx.imp id (h.us x)⟩
  | assert a => exact h
  | goal a f => exact h

theorem Fits.covers {D : Decls} : ∀ {ss : List SStmt} {c d : Ctx}, Fits D d ss → Covers c d → Fits D c ss ∧ Covers (c.after ss) (d.after ss)
  | [], _, _, _, h => ⟨trivial, h⟩
  | st :: r, c, d, hf, h => by
    obtain ⟨h1, h2⟩ := hf
    obtain ⟨i1, i2⟩ := Fits.covers h2 (h.step st)
    refine ⟨⟨?_, i1⟩, i2⟩
    cases st with
    | declare s srt v => exact ⟨fun hs => h1.1 (h.us s hs), fun a ha => Sorted.more h.kn (h1.2 a ha)⟩
    | assert a => exact Sorted.more h.kn h1
    | goal a f => exact Sorted.more h.kn h1

theorem kn_add {c : Ctx} {s : Sym} (h : ¬ c.us s) (srt : Srt) : KLe c.kn (c.add s srt).kn := by
  intro x t hx
  show declared c.kn s srt x = some t
  unfold declared
  split
  · next he => exact absurd (c.ok x t hx) (he ▸ h)
  · exact hx

theorem kn_self {c : Ctx} {s : Sym} {srt : Srt} : (c.add s srt).kn s = some srt := by
  show declared c.kn s srt s = some srt
  simp [declared]

/-- what is declared at the nodes of a graph -/
abbrev Ann := Nat → Ctx

/-- the statements of all nodes are well formed -/
structure Inv (D : Decls) (A : Ann) (s : TS) : Prop where
  first : A 0 = Ctx.empty
  fits : ∀ (i : Nat) ss, s.nodes[i]? = some ss → Fits D (A i) ss
  edges : ∀ a b : Nat, (a, b) ∈ s.edges → b < s.nodes.length ∧ ∃ ss, s.nodes[a]? = some ss ∧ Covers ((A a).after ss) (A b)

/-- what is known after a node -/
def At (A : Ann) (s : TS) (i : Nat) (c : Ctx) : Prop := ∃ ss, s.nodes[i]? = some ss ∧ Covers ((A i).after ss) c

/-- the state of the translation -/
structure St (D : Decls) (A : Ann) (s : TS) (c : Ctx) : Prop where
  inv : Inv D A s
  here : At A s s.start c
  fresh : ∀ j, s.tmp < j → ¬ c.us (.tmp j)

/-- the graph has grown -/
structure Grow (A : Ann) (s : TS) (A' : Ann) (s' : TS) : Prop where
  agree : ∀ i, i < s.nodes.length → A' i = A i
  nodes : s.nodes <+: s'.nodes
  tmp : s.tmp ≤ s'.tmp

theorem Grow.rfl' {A : Ann} {s : TS} : Grow A s A s := ⟨fun _ _ => rfl, List.prefix_rfl, Nat.le_refl _⟩
theorem Grow.trans {A A' A'' : Ann} {s s' s'' : TS} (h : Grow A s A' s') (h' : Grow A' s' A'' s'') : Grow A s A'' s'' :=
  ⟨fun i hi => (h'.agree i (Nat.lt_of_lt_of_le hi h.nodes.length_le)).trans (h.agree i hi), h.nodes.trans h'.nodes, Nat.le_trans h.tmp h'.tmp⟩

theorem getElem?_prefix {α : Type} {l l' : List α} (h : l <+: l') {i : Nat} {a : α} (ha : l[i]? = some a) : l'[i]? = some a := by
  obtain ⟨m, rfl⟩ := h
  rw [List.getElem?_append_left (List.getElem?_eq_some_iff.1 ha).1]
  exact ha

theorem At.grow {A A' : Ann} {s s' : TS} {i : Nat} {c : Ctx} (h : At A s i c) (g : Grow A s A' s') : At A' s' i c := by
  obtain ⟨ss, h1, h2⟩ := h
  refine ⟨ss, getElem?_prefix g.nodes h1, ?_⟩
  rw [g.agree i (List.getElem?_eq_some_iff.1 h1).1]
  exact h2

/-- more is known, and only new temporaries may have been declared -/
structure Wide (c : Ctx) (n : Nat) (c' : Ctx) (m : Nat) : Prop where
  kn : KLe c.kn c'.kn
  us : ∀ x, c'.us x → c.us x ∨ ∃ j, x = .tmp j ∧ n < j ∧ j ≤ m

theorem Wide.rfl' {c : Ctx} {n m : Nat} : Wide c n c m := ⟨KLe.rfl', fun _ h => .inl h⟩
theorem Wide.trans {c c' c'' : Ctx} {n m k : Nat} (h : Wide c n c' m) (h' : Wide c' m c'' k) (h1 : n ≤ m) (h2 : m ≤ k) : Wide c n c'' k := by
  refine ⟨h.kn.trans h'.kn, fun x hx => ?_⟩
  rcases h'.us x hx with hx | ⟨j, rfl, h3, h4⟩
  · rcases h.us x hx with hx | ⟨j, rfl, h3, h4⟩
    · exact .inl hx
    · exact .inr ⟨j, rfl, h3, by omega⟩
  · exact .inr ⟨j, rfl, by omega, h4⟩

/-- the translation goes on to a state where something holds -/
def Fwd (D : Decls) (A : Ann) (s : TS) (c : Ctx) (s' : TS) (Q : Ctx → Prop) : Prop :=
  ∃ A' c', Grow A s A' s' ∧ St D A' s' c' ∧ Wide c s.tmp c' s'.tmp ∧ Q c'

variable {D : Decls} {A : Ann} {s s' s'' : TS} {c : Ctx}

theorem Fwd.bind {Q R : Ctx → Prop} (h : Fwd D A s c s' Q)
    (h' : ∀ A' c', Grow A s A' s' → St D A' s' c' → Wide c s.tmp c' s'.tmp → Q c' → Fwd D A' s' c' s'' R) : Fwd D A s c s'' R := by
  obtain ⟨A', c', h1, h2, h3, h4⟩ := h
  obtain ⟨A'', c'', g1, g2, g3, g4⟩ := h' A' c' h1 h2 h3 h4
  exact ⟨A'', c'', h1.trans g1, g2, h3.trans g3 h1.tmp g1.tmp, g4⟩

theorem St.stay {Q : Ctx → Prop} (h : St D A s c) (hq : Q c) : Fwd D A s c s Q := ⟨A, c, Grow.rfl', h, Wide.rfl', hq⟩

theorem St.bump (h : St D A s c) : St D A (bump s) c :=
  ⟨⟨h.inv.first, h.inv.fits, h.inv.edges⟩, h.here, fun j hj => h.fresh j (by simp only [Vcg.bump] at hj; omega)⟩

theorem Grow.bump : Grow A s A (bump s) := ⟨fun _ _ => rfl, List.prefix_rfl, Nat.le_succ _⟩

/-- a new node with what is known there -/
def Ann.set (A : Ann) (n : Nat) (c : Ctx) : Ann := fun i => if i = n then c else A i

theorem set_lt {n i : Nat} (h : i < n) : A.set n c i = A i := if_neg (by omega)
theorem set_self {n : Nat} : A.set n c n = c := if_pos rfl

/-- the first node is not changed -/
theorem St.pos (h : St D A s c) : 0 < s.nodes.length := by
  obtain ⟨ss, h1, -⟩ := h.here
  have := (List.getElem?_eq_some_iff.1 h1).1
  omega

theorem inv_append (h : St D A s c) {ss : List SStmt} {d : Ctx} (hf : Fits D d ss) (hn : s'.nodes = s.nodes ++ [ss]) (he : ∀ e ∈ s'.edges, e ∈ s.edges ∨ (e = (s.start, s.nodes.length) ∧ Covers c d)) :
    Inv D (A.set s.nodes.length d) s' := by
  refine ⟨?_, ?_, ?_⟩
  · rw [set_lt h.pos]
    exact h.inv.first
  · intro i xs hi
    rw [hn] at hi
    rcases Nat.lt_trichotomy i s.nodes.length with hlt | rfl | hgt
    · rw [List.getElem?_append_left hlt] at hi
      rw [set_lt hlt]
      exact h.inv.fits i xs hi
    · simp only [List.getElem?_concat_length, Option.some.injEq] at hi
      subst hi
      rw [set_self]
      exact hf
    · rw [List.getElem?_eq_none (by simp; omega)] at hi
      cases hi
  · intro a b hab
    rcases he _ hab with hab | ⟨hab, hcov⟩
    · obtain ⟨h1, xs, h2, h3⟩ := h.inv.edges a b hab
      have ha := (List.getElem?_eq_some_iff.1 h2).1
      refine ⟨by rw [hn]; simp; omega, xs, ?_, ?_⟩
      · rw [hn, List.getElem?_append_left ha]; exact h2
      · rw [set_lt ha, set_lt h1]; exact h3
    · cases hab
      obtain ⟨xs, h1, h2⟩ := h.here
      have ha := (List.getElem?_eq_some_iff.1 h1).1
      refine ⟨by rw [hn]; simp, xs, ?_, ?_⟩
      · rw [hn, List.getElem?_append_left ha]; exact h1
      · rw [set_lt ha, set_self]; exact h2.trans hcov

/-- a node with statements behind the current one -/
theorem St.attach (h : St D A s c) {ss : List SStmt} (hf : Fits D c ss) (hfr : ∀ j, s.tmp < j → ¬ (c.after ss).us (.tmp j)) :
    Grow A s (A.set s.nodes.length c) (att s ss) ∧ St D (A.set s.nodes.length c) (att s ss) (c.after ss) := by
  refine ⟨⟨fun i hi => set_lt hi, List.prefix_append _ _, Nat.le_refl _⟩, ⟨?_, ?_, hfr⟩⟩
  · refine inv_append h hf rfl fun e he => ?_
    rcases List.mem_append.1 he with he | he
    · exact .inl he
    · exact .inr ⟨List.mem_singleton.1 he, Covers.rfl'⟩
  · refine ⟨ss, by simp [att], ?_⟩
    show Covers ((A.set s.nodes.length c s.nodes.length).after ss) _
    rw [set_self]
    exact Covers.rfl'

/-- a node with statements behind the current one, which stays -/
theorem St.aside (h : St D A s c) {ss : List SStmt} (hf : Fits D c ss) (h' : s' = { s with nodes := s.nodes ++ [ss], edges := s.edges ++ [(s.start, s.nodes.length)] }) :
    Grow A s (A.set s.nodes.length c) s' ∧ St D (A.set s.nodes.length c) s' c := by
  subst h'
  have g : Grow A s (A.set s.nodes.length c) { s with nodes := s.nodes ++ [ss], edges := s.edges ++ [(s.start, s.nodes.length)] } :=
    ⟨fun i hi => set_lt hi, List.prefix_append _ _, Nat.le_refl _⟩
  refine ⟨g, ⟨?_, h.here.grow g, h.fresh⟩⟩
  refine inv_append h hf rfl fun e he => ?_
  rcases List.mem_append.1 he with he | he
  · exact .inl he
  · exact .inr ⟨List.mem_singleton.1 he, Covers.rfl'⟩

/-- an empty node, where something is known -/
theorem St.node (h : St D A s c) (d : Ctx) :
    Grow A s (A.set s.nodes.length d) (Vcg.fresh s) ∧ St D (A.set s.nodes.length d) (Vcg.fresh s) c ∧ At (A.set s.nodes.length d) (Vcg.fresh s) s.nodes.length d := by
  have g : Grow A s (A.set s.nodes.length d) (Vcg.fresh s) := ⟨fun i hi => set_lt hi, List.prefix_append _ _, Nat.le_refl _⟩
  refine ⟨g, ⟨?_, h.here.grow g, h.fresh⟩, ⟨[], by simp [Vcg.fresh], ?_⟩⟩
  · exact inv_append h (ss := []) trivial rfl fun e he => .inl he
  · rw [set_self]; exact Covers.rfl'

/-- an edge to another node -/
theorem St.link (h : St D A s c) {n : Nat} (hn : n < s.nodes.length) (hc : Covers c (A n)) : St D A (link s n) c := by
  refine ⟨⟨h.inv.first, h.inv.fits, fun a b hab => ?_⟩, h.here, h.fresh⟩
  rcases List.mem_append.1 hab with hab | hab
  · exact h.inv.edges a b hab
  · cases List.mem_singleton.1 hab
    obtain ⟨xs, h1, h2⟩ := h.here
    exact ⟨hn, xs, h1, h2.trans hc⟩

theorem Grow.link {n : Nat} : Grow A s A (link s n) := ⟨fun _ _ => rfl, List.prefix_rfl, Nat.le_refl _⟩
theorem Grow.goto {n : Nat} : Grow A s A (goto s n) := ⟨fun _ _ => rfl, List.prefix_rfl, Nat.le_refl _⟩

/-- going on at another node -/
theorem St.goto (h : St D A s c) {n : Nat} {d : Ctx} (ha : At A s n d) (hf : ∀ j, s.tmp < j → ¬ d.us (.tmp j)) : St D A (goto s n) d :=
  ⟨⟨h.inv.first, h.inv.fits, h.inv.edges⟩, ha, hf⟩

/-! ### Pieces of the translation -/

/-- statements that declare nothing -/
def NoDecl : SStmt → Prop
  | .declare .. => False
  | _ => True

theorem after_noDecl : ∀ {ss : List SStmt} {c : Ctx}, (∀ st ∈ ss, NoDecl st) → c.after ss = c
  | [], _, _ => rfl
  | st :: r, c, h => by
    have : c.step st = c := by
      have := h st List.mem_cons_self
      cases st <;> first | rfl | exact this.elim
    simp only [Ctx.after, this]
    exact after_noDecl fun x hx => h x (List.mem_cons_of_mem _ hx)

theorem fits_noDecl : ∀ {ss : List SStmt} {c : Ctx}, (∀ st ∈ ss, NoDecl st ∧ Fits1 D c st) → Fits D c ss
  | [], _, _ => trivial
  | st :: r, c, h => by
    have : c.step st = c := by
      have := (h st List.mem_cons_self).1
      cases st <;> first | rfl | exact this.elim
    refine ⟨(h st List.mem_cons_self).2, ?_⟩
    rw [this]
    exact fits_noDecl fun x hx => h x (List.mem_cons_of_mem _ hx)

theorem St.note (h : St D A s c) {ss : List SStmt} (hs : ∀ st ∈ ss, NoDecl st ∧ Fits1 D c st) : Fwd D A s c (att s ss) (fun c' => c' = c) := by
  have ha : c.after ss = c := after_noDecl fun st hst => (hs st hst).1
  obtain ⟨h1, h2⟩ := h.attach (fits_noDecl hs) (by rw [ha]; exact h.fresh)
  rw [ha] at h2
  exact ⟨_, c, h1, h2, Wide.rfl', rfl⟩

theorem St.valid (h : St D A s c) {em : Bool} {d : Smt} (hd : Sorted D c.kn [] d .bool) {u : Unit} (hr : checkValid em d s = .ok u s') :
    Fwd D A s c s' (fun c' => c' = c) := by
  rw [trm_checkValid] at hr
  subst hr
  split
  · exact h.note fun st hst => by cases List.mem_singleton.1 hst; exact ⟨trivial, hd⟩
  · exact h.stay rfl

theorem St.goals (h : St D A s c) {em : Bool} {gs : List (Smt × Feedback)} (hd : ∀ g ∈ gs, Sorted D c.kn [] g.1 .bool) {u : Unit}
    (hr : checkGoals em gs s = .ok u s') : Fwd D A s c s' (fun c' => c' = c) := by
  rw [trm_checkGoals] at hr
  subst hr
  split
  · refine h.note fun st hst => ?_
    obtain ⟨g, hg, rfl⟩ := List.mem_map.1 hst
    exact ⟨trivial, hd g hg⟩
  · exact h.stay rfl

/-- the declaration of a temporary that was reserved -/
theorem St.declare (h : St D A s c) {k : Nat} (hk : k ≤ s.tmp) (hu : ¬ c.us (.tmp k)) {srt : Srt} {v : Option Smt}
    (hv : ∀ a, v = some a → Sorted D c.kn [] a srt) :
    Grow A s (A.set s.nodes.length c) (att s [.declare (.tmp k) srt v]) ∧
    St D (A.set s.nodes.length c) (att s [.declare (.tmp k) srt v]) (c.add (.tmp k) srt) := by
  refine h.attach ⟨⟨hu, hv⟩, trivial⟩ fun j hj hx => ?_
  rcases hx with hx | hx
  · cases hx
    omega
  · exact h.fresh j hj hx

theorem wide_add {k n m : Nat} {srt : Srt} (hu : ¬ c.us (.tmp k)) (h1 : n < k) (h2 : k ≤ m) : Wide c n (c.add (.tmp k) srt) m :=
  ⟨kn_add hu srt, fun x hx => by
    rcases hx with rfl | hx
    · exact .inr ⟨k, rfl, h1, h2⟩
    · exact .inl hx⟩

/-- a result -/
theorem St.ret (h : St D A s c) {t : Option Ty} {v : Smt} (hv : Sorted? D c.kn [] t v) {p : TrPair} (hr : createReturn t v s = .ok p s') :
    Fwd D A s c s' (fun c' => PSorted D c'.kn [] t p) := by
  rw [trm_createReturn] at hr
  obtain ⟨rfl, rfl⟩ := hr
  obtain ⟨τ, rfl, hv⟩ := hv
  have hu : ¬ c.us (.tmp (s.tmp + 1)) := h.fresh _ (Nat.lt_succ_self _)
  obtain ⟨h1, h2⟩ := h.bump.declare (k := s.tmp + 1) (Nat.le_refl _) hu (srt := τ.srt) (v := some v) fun a ha => by cases ha; exact hv
  exact ⟨_, _, Grow.bump.trans h1, h2, wide_add hu (Nat.lt_succ_self _) (Nat.le_refl _), psorted_some (.sym kn_self)⟩

end Verif.Lemmas.Vcg
