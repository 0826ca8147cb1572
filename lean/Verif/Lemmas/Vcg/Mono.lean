import Verif.Lemmas.Vcg.Bounds
/-! The graph only grows, and terms only use temporaries that exist. -/
namespace Verif.Lemmas.Vcg
open Verif.Model Verif.Spec

/-- temporaries and bound variables have numbers up to `n` -/
def below (n : Nat) : Smt → Prop
  | .bool _ | .int _ | .real _ | .str _ | .enum _ _ => True
  | .sym (.tmp k) => k ≤ n
  | .sym _ => True
  | .idx k => k ≤ n
  | .un _ a => below n a
  | .bin _ a b => below n a ∧ below n b
  | .ite c a b => below n c ∧ below n a ∧ below n b
  | .nth _ a i => below n a ∧ below n i
  | .all k a | .ex k a => k ≤ n ∧ below n a
  | .field a _ => below n a
  | .deref _ a => below n a
  | .matches a b => below n a ∧ below n b

theorem below_mono {n m : Nat} (h : n ≤ m) : ∀ {a : Smt}, below n a → below m a
  | .bool _, _ | .int _, _ | .real _, _ | .str _, _ | .enum _ _, _ => trivial
  | .sym (.tmp k), h' => by simp only [below] at *; omega
  | .sym (.value _), _ | .sym (.valid _), _ => trivial
  | .idx k, h' => by simp only [below] at *; omega
  | .un _ a, h' => by simp only [below] at *; exact below_mono h h'
  | .bin _ a b, h' => by simp only [below] at *; exact ⟨below_mono h h'.1, below_mono h h'.2⟩
  | .ite c a b, h' => by simp only [below] at *; exact ⟨below_mono h h'.1, below_mono h h'.2.1, below_mono h h'.2.2⟩
  | .nth _ a b, h' => by simp only [below] at *; exact ⟨below_mono h h'.1, below_mono h h'.2⟩
  | .all k a, h' | .ex k a, h' => by simp only [below] at *; exact ⟨by omega, below_mono h h'.2⟩
  | .field a _, h' => by simp only [below] at *; exact below_mono h h'
  | .deref _ a, h' => by simp only [below] at *; exact below_mono h h'
  | .matches a b, h' => by simp only [below] at *; exact ⟨below_mono h h'.1, below_mono h h'.2⟩

/-- the interpretations only differ in temporaries with numbers above `n` -/
structure Same (n : Nat) (I I' : Interp) : Prop where
  access : I'.access = I.access
  rx     : I'.rxMatch = I.rxMatch
  tmp    : ∀ k, k ≤ n → I'.const (.tmp k) = I.const (.tmp k)
  value  : ∀ c, I'.const (.value c) = I.const (.value c)
  valid  : ∀ c, I'.const (.valid c) = I.const (.valid c)

theorem Same.rfl' {n : Nat} {I : Interp} : Same n I I := ⟨rfl, rfl, fun _ _ => rfl, fun _ => rfl, fun _ => rfl⟩

theorem Same.trans {n m : Nat} {I I' I'' : Interp} (h : Same n I I') (h' : Same m I' I'') (hnm : n ≤ m) : Same n I I'' :=
  ⟨h'.access.trans h.access, h'.rx.trans h.rx, fun k hk => (h'.tmp k (by omega)).trans (h.tmp k hk),
    fun c => (h'.value c).trans (h.value c), fun c => (h'.valid c).trans (h.valid c)⟩

theorem Same.weaken {n m : Nat} {I I' : Interp} (h : Same m I I') (hnm : n ≤ m) : Same n I I' :=
  ⟨h.access, h.rx, fun k hk => h.tmp k (by omega), h.value, h.valid⟩

theorem value_below {D : Decls} {n : Nat} {I I' : Interp} (hI : Same n I I') : ∀ {a : Smt} {β β' : Nat → Int}, below n a →
    (∀ k, k ≤ n → β' k = β k) → value D I' β' a = value D I β a
  | .bool _, β, β', h, hβ | .int _, β, β', h, hβ | .real _, β, β', h, hβ | .str _, β, β', h, hβ
  | .enum _ _, β, β', h, hβ => by simp only [value]
  | .sym (.tmp k), β, β', h, hβ => by simp only [value]; exact hI.tmp k h
  | .sym (.value k), β, β', h, hβ => by simp only [value]; exact hI.value k
  | .sym (.valid k), β, β', h, hβ => by simp only [value]; exact hI.valid k
  | .idx k, β, β', h, hβ => by simp only [value]; rw [hβ k h]
  | .un _ a, β, β', h, hβ => by
    simp only [below] at h
    simp only [value]; rw [value_below hI h hβ]
  | .bin _ a b, β, β', h, hβ => by
    simp only [below] at h
    simp only [value]; rw [value_below hI h.1 hβ, value_below hI h.2 hβ]
  | .ite c a b, β, β', h, hβ => by
    simp only [below] at h
    simp only [value]; rw [value_below hI h.1 hβ, value_below hI h.2.1 hβ, value_below hI h.2.2 hβ]
  | .nth _ a b, β, β', h, hβ => by
    simp only [below] at h
    simp only [value]; rw [value_below hI h.1 hβ, value_below hI h.2 hβ]
  | .all k a, β, β', h, hβ | .ex k a, β, β', h, hβ => by
    simp only [below] at h
    have : ∀ i : Int, value D I' (fun m => if m = k then i else β' m) a = value D I (fun m => if m = k then i else β m) a := by
      intro i
      refine value_below hI h.2 fun m hm => ?_
      split
      · rfl
      · exact hβ m hm
    simp only [value, SV.bool.injEq, decide_eq_decide]
    first
      | exact forall_congr' fun i => by rw [this]
      | exact exists_congr fun i => by rw [this]
  | .field a _, β, β', h, hβ => by
    simp only [below] at h
    simp only [value]; rw [value_below hI h hβ]
  | .deref _ a, β, β', h, hβ => by
    simp only [below] at h
    simp only [value]; rw [value_below hI h hβ, hI.access]
  | .matches a b, β, β', h, hβ => by
    simp only [below] at h
    simp only [value]; rw [value_below hI h.1 hβ, value_below hI h.2 hβ, hI.rx]

/-- the graph has only grown -/
structure Le (s s' : TS) : Prop where
  nodes : s.nodes <+: s'.nodes
  edges : s.edges <+: s'.edges
  tmp   : s.tmp ≤ s'.tmp

theorem Le.rfl' {s : TS} : Le s s := ⟨List.prefix_rfl, List.prefix_rfl, Nat.le_refl _⟩

theorem Le.trans {s s' s'' : TS} (h : Le s s') (h' : Le s' s'') : Le s s'' :=
  ⟨h.nodes.trans h'.nodes, h.edges.trans h'.edges, Nat.le_trans h.tmp h'.tmp⟩

/-- the current node exists -/
def Ok (s : TS) : Prop := s.start < s.nodes.length

theorem Le.len {s s' : TS} (h : Le s s') : s.nodes.length ≤ s'.nodes.length := h.nodes.length_le

/-- the state after a node with statements was attached -/
def att (s : TS) (ss : List SStmt) : TS :=
  { s with nodes := s.nodes ++ [ss], edges := s.edges ++ [(s.start, s.nodes.length)], start := s.nodes.length }

theorem att_le (s : TS) (ss : List SStmt) : Le s (att s ss) :=
  ⟨List.prefix_append _ _, List.prefix_append _ _, Nat.le_refl _⟩

theorem att_ok (s : TS) (ss : List SStmt) : Ok (att s ss) := by simp [Ok, att]

/-- the state after an empty node was made -/
def fresh (s : TS) : TS := { s with nodes := s.nodes ++ [[]] }
/-- the state after an edge was added -/
def link (s : TS) (n : Nat) : TS := { s with edges := s.edges ++ [(s.start, n)] }
/-- the state with another current node -/
def goto (s : TS) (n : Nat) : TS := { s with start := n }
/-- the state with one more temporary -/
def bump (s : TS) : TS := { s with tmp := s.tmp + 1 }

theorem fresh_le (s : TS) : Le s (fresh s) := ⟨List.prefix_append _ _, List.prefix_rfl, Nat.le_refl _⟩
theorem link_le (s : TS) (n : Nat) : Le s (link s n) := ⟨List.prefix_rfl, List.prefix_append _ _, Nat.le_refl _⟩
theorem goto_le (s : TS) (n : Nat) : Le s (goto s n) := ⟨List.prefix_rfl, List.prefix_rfl, Nat.le_refl _⟩
theorem bump_le (s : TS) : Le s (bump s) := ⟨List.prefix_rfl, List.prefix_rfl, Nat.le_succ _⟩
theorem fresh_ok {s : TS} (h : Ok s) : Ok (fresh s) := by simp only [Ok, fresh, List.length_append] at *; omega
theorem link_ok {s : TS} (h : Ok s) (n : Nat) : Ok (link s n) := h
theorem bump_ok {s : TS} (h : Ok s) : Ok (bump s) := h
theorem goto_ok {s : TS} {n : Nat} (h : n < s.nodes.length) : Ok (goto s n) := h

theorem trm_bind {α γ : Type} {x : TrM α} {f : α → TrM γ} {s : TS} {b : γ} {s'' : TS} :
    (x >>= f) s = .ok b s'' ↔ ∃ a s', x s = .ok a s' ∧ f a s' = .ok b s'' := by
  show TrM.bind x f s = _ ↔ _
  unfold TrM.bind
  cases x s <;> simp

theorem trm_pure {α : Type} {a b : α} {s s' : TS} : (pure a : TrM α) s = .ok b s' ↔ a = b ∧ s = s' := by
  show TrR.ok a s = _ ↔ _
  simp

theorem trm_need {α : Type} {x : Option α} {b : α} {s s' : TS} : TrM.need x s = .ok b s' ↔ x = some b ∧ s = s' := by
  cases x with
  | none => simp [TrM.need, TrM.crash]
  | some a => simp [TrM.need, trm_pure]

theorem trm_attach {ss : List SStmt} {s s' : TS} {u : Unit} : attach ss s = .ok u s' ↔ att s ss = s' := by simp [attach, att]
theorem trm_newTemp {s s' : TS} {k : Nat} : newTemp s = .ok k s' ↔ k = s.tmp + 1 ∧ s' = bump s := by
  simp only [newTemp, TrR.ok.injEq, bump]; constructor <;> (rintro ⟨rfl, rfl⟩; exact ⟨rfl, rfl⟩)
theorem trm_newNode {s s' : TS} {k : Nat} : newNode s = .ok k s' ↔ k = s.nodes.length ∧ s' = fresh s := by
  simp only [newNode, TrR.ok.injEq, fresh]; constructor <;> (rintro ⟨rfl, rfl⟩; exact ⟨rfl, rfl⟩)
theorem trm_getStart {s s' : TS} {k : Nat} : getStart s = .ok k s' ↔ k = s.start ∧ s = s' := by
  simp only [getStart, TrR.ok.injEq]; constructor <;> (rintro ⟨rfl, rfl⟩; exact ⟨rfl, rfl⟩)
theorem trm_setStart {s s' : TS} {k : Nat} {u : Unit} : setStart k s = .ok u s' ↔ s' = goto s k := by
  simp only [setStart, TrR.ok.injEq, goto, true_and]; exact eq_comm
theorem trm_edgeTo {s s' : TS} {k : Nat} {u : Unit} : edgeTo k s = .ok u s' ↔ s' = link s k := by
  simp only [edgeTo, TrR.ok.injEq, link, true_and]; exact eq_comm
theorem trm_lift {α : Type} {x : FR α} {a : α} {s s' : TS} : FR.lift x s = .ok a s' ↔ x = .ok a ∧ s = s' := by
  cases x <;> simp [FR.lift, trm_pure, TrM.unsupported, TrM.crash]

/-- what `checkValid` does -/
theorem trm_checkValid {em : Bool} {d : Smt} {s s' : TS} {u : Unit} :
    checkValid em d s = .ok u s' ↔ s' = if em = true ∧ d ≠ .bool true then att s [.goal d .null] else s := by
  unfold checkValid
  split
  · rw [trm_attach]; exact eq_comm
  · simp only [trm_pure, true_and]; exact eq_comm

theorem trm_checkGoals {em : Bool} {gs : List (Smt × Feedback)} {s s' : TS} {u : Unit} :
    checkGoals em gs s = .ok u s' ↔ s' = if em = true ∧ gs ≠ [] then att s (gs.map fun g => .goal g.1 g.2) else s := by
  unfold checkGoals
  split
  · rw [trm_attach]; exact eq_comm
  · simp only [trm_pure, true_and]; exact eq_comm

theorem trm_createReturn {t : Option Ty} {v : Smt} {s s' : TS} {p : TrPair} :
    createReturn t v s = .ok p s' ↔ p = (some (.sym (.tmp (s.tmp + 1))), .bool true) ∧
      s' = att (bump s) [.declare (.tmp (s.tmp + 1)) (tySrt t) (some v)] := by
  simp only [createReturn, trm_bind, trm_newTemp, declareTemp, trm_attach, trm_pure]
  constructor
  · rintro ⟨a, s1, ⟨rfl, rfl⟩, a', s2, rfl, rfl, rfl⟩; exact ⟨rfl, rfl⟩
  · rintro ⟨rfl, rfl⟩; exact ⟨_, _, ⟨rfl, rfl⟩, ⟨⟩, _, rfl, rfl, rfl⟩

theorem valid_le {em : Bool} {d : Smt} {s s' : TS} {u : Unit} (h : checkValid em d s = .ok u s') (ho : Ok s) :
    Le s s' ∧ Ok s' ∧ s'.tmp = s.tmp := by
  rw [trm_checkValid] at h
  subst h
  split
  · exact ⟨att_le _ _, att_ok _ _, rfl⟩
  · exact ⟨Le.rfl', ho, rfl⟩

theorem goals_le {em : Bool} {gs : List (Smt × Feedback)} {s s' : TS} {u : Unit} (h : checkGoals em gs s = .ok u s') (ho : Ok s) :
    Le s s' ∧ Ok s' ∧ s'.tmp = s.tmp := by
  rw [trm_checkGoals] at h
  subst h
  split
  · exact ⟨att_le _ _, att_ok _ _, rfl⟩
  · exact ⟨Le.rfl', ho, rfl⟩

/-- both terms of a pair -/
def PBelow (n : Nat) (p : TrPair) : Prop := (∀ a, p.1 = some a → below n a) ∧ below n p.2

theorem PBelow.mono {n m : Nat} {p : TrPair} (h : PBelow n p) (hnm : n ≤ m) : PBelow m p :=
  ⟨fun a ha => below_mono hnm (h.1 a ha), below_mono hnm h.2⟩

/-- the terms of all names -/
def NBelow (n : Nat) (ρ : NameTrs) : Prop := ∀ m x, ρ m = some x → below n x.value ∧ below n x.valid

theorem NBelow.mono {n m : Nat} {ρ : NameTrs} (h : NBelow n ρ) (hnm : n ≤ m) : NBelow m ρ :=
  fun k x hx => ⟨below_mono hnm (h k x hx).1, below_mono hnm (h k x hx).2⟩

theorem NBelow.bind {n : Nat} {ρ : NameTrs} (h : NBelow n ρ) (x : String) {a : Smt} (ha : below n a) (t : Ty) :
    NBelow n (ρ.bind x a t) := by
  intro m y hy
  simp only [NameTrs.bind] at hy
  split at hy
  · cases hy; exact ⟨ha, trivial⟩
  · exact h m y hy

/-! ### the terms of operators -/

theorem unTerm_below {n op t a x} (h : unTerm op t a = some x) (ha : below n a) : below n x := by
  unfold unTerm at h
  repeat' split at h
  all_goals first
    | (cases h; done)
    | (cases h; simpa [below] using ha)

theorem powTerm_below {n mul a} (ha : below n a) : ∀ k, below n (powTerm mul a k)
  | 0 => ha
  | k + 1 => ⟨powTerm_below ha k, ha⟩

theorem binTerm_below {n T op l r a b x} (h : binTerm T op l r a b = some x) (ha : below n a) (hb : below n b) : below n x := by
  unfold binTerm arithTerm at h
  repeat' split at h
  all_goals first
    | (cases h; done)
    | (cases h; simp only [below]; exact ⟨ha, hb⟩)
    | (cases h; simp only [below]; exact ⟨hb, ha⟩)
    | (cases h; simp only [below]; exact ⟨ha, trivial⟩)
    | (cases h; simp only [below]; done)
    | (cases h; exact powTerm_below ha _)

theorem fold_below {n} (op : SBin) : ∀ (ps : List Smt) (p : Smt), below n p → (∀ q ∈ ps, below n q) →
    below n (ps.foldl (fun a b => .bin op a b) p)
  | [], p, hp, h => hp
  | q :: ps, p, hp, h => fold_below op ps _ ⟨hp, h q List.mem_cons_self⟩ fun r hr => h r (List.mem_cons_of_mem _ hr)

theorem conj_below {n} : ∀ (ps : List Smt), (∀ q ∈ ps, below n q) → below n (conjTerm ps)
  | [], h => trivial
  | p :: ps, h => fold_below _ ps p (h p List.mem_cons_self) fun r hr => h r (List.mem_cons_of_mem _ hr)

theorem coreEq_below {n D} : ∀ (fuel : Nat) (t : Ty) (a b : Smt), below n a → below n b → below n (coreEq D fuel t a b)
  | 0, t, a, b, ha, hb => by simp only [coreEq, below]; exact ⟨ha, hb⟩
  | fuel + 1, t, a, b, ha, hb => by
    by_cases ht : ∃ t', t = .tup t'
    · obtain ⟨t', rfl⟩ := ht
      simp only [coreEq]
      refine conj_below _ fun q hq => ?_
      obtain ⟨c, -, rfl⟩ := List.mem_map.1 hq
      have := coreEq_below (n := n) (D := D) fuel c.ty (.field a (.value c.name)) (.field b (.value c.name)) ha hb
      split
      · exact ⟨⟨ha, hb⟩, ha, this⟩
      · exact this
    · cases t <;> first
        | exact absurd ⟨_, rfl⟩ ht
        | exact ⟨ha, hb⟩

theorem eqTerm_below {n D t} {p q : TrPair} {x} (h : eqTerm D t p q = some x) (hp : PBelow n p) (hq : PBelow n q) : below n x := by
  have key : ∀ a b e, p.1 = some a → q.1 = some b → t.map (fun t => coreEq D (D.tups.length + 1) t a b) = some e → below n e := by
    intro a b e ha hb he
    obtain ⟨t, -, rfl⟩ := Option.map_eq_some_iff.1 he
    exact coreEq_below _ _ _ _ (hp.1 a ha) (hq.1 b hb)
  simp only [eqTerm] at h
  split at h
  · split at h
    · next a b ha hb => exact key a b x ha hb h
    · cases h
  · split at h
    · cases h; trivial
    · split at h
      · cases h; exact hq.2
      · cases h; exact hp.2
      · next a b ha hb =>
        obtain ⟨e, he, rfl⟩ := Option.map_eq_some_iff.1 h
        exact ⟨⟨hp.2, hq.2⟩, hp.2, key a b e ha hb he⟩

theorem negIf_below {n op a} (h : below n a) : below n (negIf op a) := by
  unfold negIf; split
  · exact h
  · exact h

theorem fieldTerm_below {n D t a m p} (h : fieldTerm D t a m = some p) (ha : below n a) : PBelow n p := by
  unfold fieldTerm at h
  split at h
  all_goals first
    | (cases h; done)
    | (obtain ⟨c, -, rfl⟩ := Option.map_eq_some_iff.1 h
       refine ⟨?_, ?_⟩
       · intro x hx; cases hx; exact ha
       · simp only; split <;> first | exact ha | trivial)

theorem oneofTerm_below {n} {cs : List Smt} {x} (h : oneofTerm cs = some x) (hc : ∀ c ∈ cs, below n c) : below n x := by
  unfold oneofTerm at h
  split at h
  · cases h
  · cases h; exact hc _ (by simp)
  · cases h; exact ⟨hc _ (by simp), hc _ (by simp)⟩
  · simp only at h
    have hp : ∀ p ∈ (List.range cs.length).map fun k => conjTerm (cs.zipIdx.map fun (c, j) => if j = k then c else .un .not c),
        below n p := by
      intro p hp
      obtain ⟨k, -, rfl⟩ := List.mem_map.1 hp
      refine conj_below _ fun q hq => ?_
      obtain ⟨⟨c, j⟩, hm, rfl⟩ := List.mem_map.1 hq
      have : c ∈ cs := by
        obtain ⟨-, h2⟩ := List.mem_zipIdx_iff_le_and_getElem?_sub.1 hm
        exact List.mem_of_getElem? h2
      simp only
      split
      · exact hc c this
      · exact hc c this
    split at h
    · cases h
    · next p ps hps =>
      cases h
      rw [hps] at hp
      exact fold_below _ _ _ (hp p List.mem_cons_self) fun q hq => hp q (List.mem_cons_of_mem _ hq)

mutual
theorem trF_below {T n} : ∀ (e : Expr) (ρ : NameTrs) (p : TrPair), Expr.trF T ρ e = .ok p → NBelow n ρ → PBelow n p
  | .null, ρ, p, h, hn | .bool _, ρ, p, h, hn | .int _, ρ, p, h, hn | .dec _, ρ, p, h, hn | .str _, ρ, p, h, hn
  | .enum _ _, ρ, p, h, hn => by
    simp only [Expr.trF, FR.ok.injEq] at h
    subst h
    exact ⟨fun a ha => by cases ha <;> trivial, trivial⟩
  | .name m t, ρ, p, h, hn => by
    simp only [Expr.trF, fr_bind, fr_need, FR.ok.injEq] at h
    obtain ⟨x, hx, rfl⟩ := h
    exact ⟨fun a ha => by cases ha; exact (hn m x hx).1, (hn m x hx).2⟩
  | .unary t op e, ρ, p, h, hn => by
    simp only [Expr.trF, fr_bind, fr_need, FR.ok.injEq] at h
    obtain ⟨q, hq, a, ha, x, hx, rfl⟩ := h
    have ih := trF_below e ρ q hq hn
    exact ⟨fun y hy => by cases hy; exact unTerm_below hx (ih.1 a ha), trivial⟩
  | .binary t op l r, ρ, p, h, hn => by
    simp only [Expr.trF, fr_bind] at h
    obtain ⟨p1, hp1, p2, hp2, h⟩ := h
    have ihl := trF_below l ρ p1 hp1 hn
    have ihr := trF_below r ρ p2 hp2 hn
    split at h
    · simp only [fr_bind, fr_need, FR.ok.injEq] at h
      obtain ⟨x, hx, rfl⟩ := h
      exact ⟨fun y hy => by cases hy; exact negIf_below (eqTerm_below hx ihl ihr), trivial⟩
    · simp only [fr_bind, fr_need, FR.ok.injEq] at h
      obtain ⟨x, hx, rfl⟩ := h
      exact ⟨fun y hy => by cases hy; exact negIf_below (eqTerm_below hx ihl ihr), trivial⟩
    · cases h
    · cases h
    · cases h
    · simp only [fr_bind, fr_need, FR.ok.injEq] at h
      obtain ⟨a, ha, b, hb, x, hx, rfl⟩ := h
      exact ⟨fun y hy => by cases hy; exact binTerm_below hx (ihl.1 a ha) (ihr.1 b hb), trivial⟩
  | .logic op l r, ρ, p, h, hn => by
    simp only [Expr.trF, fr_bind, fr_need] at h
    obtain ⟨p1, hp1, p2, hp2, a, ha, b, hb, h⟩ := h
    have ihl := trF_below l ρ p1 hp1 hn
    have ihr := trF_below r ρ p2 hp2 hn
    cases op <;> simp only [FR.ok.injEq] at h <;> subst h
    all_goals exact ⟨fun y hy => by cases hy; exact ⟨ihl.1 a ha, ihr.1 b hb⟩, trivial⟩
  | .field e m t, ρ, p, h, hn => by
    simp only [Expr.trF, fr_bind, fr_need] at h
    obtain ⟨q, hq, a, ha, h⟩ := h
    exact fieldTerm_below h ((trF_below e ρ q hq hn).1 a ha)
  | .range e lo up, ρ, p, h, hn => by
    simp only [Expr.trF, fr_bind, reduceCtorEq, and_false, exists_false] at h
  | .oneof cs, ρ, p, h, hn => by
    cases cs <;> simp only [Expr.trF, fr_bind, reduceCtorEq, and_false, exists_false] at h
  | .cond t as, ρ, p, h, hn => by
    simp only [Expr.trF, fr_bind, FR.ok.injEq] at h
    obtain ⟨a, ha, rfl⟩ := h
    exact ⟨fun y hy => by cases hy; exact actsF_below as ρ a ha hn, trivial⟩
  | .quant _ _ _ _, ρ, p, h, hn => by
    simp only [Expr.trF, reduceCtorEq] at h
theorem actsF_below {T n} : ∀ (as : Acts) (ρ : NameTrs) (a : Smt), Acts.trF T ρ as = .ok a → NBelow n ρ → below n a
  | .els e, ρ, a, h, hn => by
    simp only [Acts.trF, fr_bind, fr_need] at h
    obtain ⟨p, hp, ha⟩ := h
    exact (trF_below e ρ p hp hn).1 a ha
  | .act k e rest, ρ, a, h, hn => by
    simp only [Acts.trF, fr_bind, fr_need, FR.ok.injEq] at h
    obtain ⟨x, hx, p, hp, tk, htk, q, hq, ae, hae, rfl⟩ := h
    exact ⟨(trF_below k ρ p hp hn).1 tk htk, (trF_below e ρ q hq hn).1 ae hae, actsF_below rest ρ x hx hn⟩
end

end Verif.Lemmas.Vcg
