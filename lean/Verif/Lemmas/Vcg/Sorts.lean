import Verif.Spec.Sorts
import Verif.Lemmas.Vcg.Apt
import Verif.Lemmas.Vcg.Functional
import Verif.Lemmas.Vcg.Ops4
import Verif.Lemmas.Vcg.Order
/-! The terms made for expressions are well formed and have the sort of the type of the expression. -/
namespace Verif.Lemmas.Vcg
open Verif.Model Verif.Spec Verif.Lemmas

/-- more constants -/
def KLe (K K' : Sym → Option Srt) : Prop := ∀ x t, K x = some t → K' x = some t

theorem KLe.rfl' {K : Sym → Option Srt} : KLe K K := fun _ _ h => h
theorem KLe.trans {K K' K'' : Sym → Option Srt} (h : KLe K K') (h' : KLe K' K'') : KLe K K'' := fun x t hx => h' x t (h x t hx)

variable {D : Decls} {K K' : Sym → Option Srt} {bs bs' : List Nat}

theorem Sorted.mono (hK : KLe K K') {a : Smt} {s : Srt} (h : Sorted D K bs a s) : ∀ {bs' : List Nat}, (∀ n ∈ bs, n ∈ bs') → Sorted D K' bs' a s := by
  induction h with
  | bool => intros; exact .bool
  | int => intros; exact .int
  | real => intros; exact .real
  | str => intros; exact .str
  | enum h1 h2 => intros; exact .enum h1 h2
  | sym h => intros; exact .sym (hK _ _ h)
  | idx h => intro _ hb; exact .idx (hb _ h)
  | un _ h ih => intro _ hb; exact .un (ih hb) h
  | bin _ _ h ih1 ih2 => intro _ hb; exact .bin (ih1 hb) (ih2 hb) h
  | ite _ _ _ ih1 ih2 ih3 => intro _ hb; exact .ite (ih1 hb) (ih2 hb) (ih3 hb)
  | nth _ _ ih1 ih2 => intro _ hb; exact .nth (ih1 hb) (ih2 hb)
  | all _ ih => intro _ hb; exact .all (ih fun n hn => by
      rcases List.mem_cons.1 hn with rfl | hn
      · exact List.mem_cons_self
      · exact List.mem_cons_of_mem _ (hb n hn))
  | ex _ ih => intro _ hb; exact .ex (ih fun n hn => by
      rcases List.mem_cons.1 hn with rfl | hn
      · exact List.mem_cons_self
      · exact List.mem_cons_of_mem _ (hb n hn))
  | tuple _ h ih => intro _ hb; exact .tuple (ih hb) h
  | record _ h ih => intro _ hb; exact .record (ih hb) h
  | «matches» _ _ ih1 ih2 => intro _ hb; exact .matches (ih1 hb) (ih2 hb)

theorem Sorted.more (hK : KLe K K') {a : Smt} {s : Srt} (h : Sorted D K bs a s) : Sorted D K' bs a s := Sorted.mono hK h fun _ h => h

theorem Sorted.bound {a : Smt} {s : Srt} (n : Nat) (h : Sorted D K bs a s) : Sorted D K (n :: bs) a s :=
  Sorted.mono KLe.rfl' h fun _ h => List.mem_cons_of_mem _ h

/-- a term for an expression of a type -/
def Sorted? (D : Decls) (K : Sym → Option Srt) (bs : List Nat) (t : Option Ty) (a : Smt) : Prop := ∃ τ, t = some τ ∧ Sorted D K bs a τ.srt

/-- value and validity of an expression of a type -/
structure PSorted (D : Decls) (K : Sym → Option Srt) (bs : List Nat) (t : Option Ty) (p : TrPair) : Prop where
  value : ∀ a, p.1 = some a → Sorted? D K bs t a
  null : p.1 = none → t = none
  valid : Sorted D K bs p.2 .bool

theorem PSorted.more (hK : KLe K K') {t : Option Ty} {p : TrPair} (h : PSorted D K bs t p) : PSorted D K' bs t p :=
  ⟨fun a ha => (h.value a ha).imp fun _ h => ⟨h.1, Sorted.more hK h.2⟩, h.null, Sorted.more hK h.valid⟩

/-- the terms of names -/
def NSorted (D : Decls) (K : Sym → Option Srt) (bs : List Nat) (Γ : Gamma) (ρ : NameTrs) : Prop :=
  ∀ n τ b, Γ n = some (τ, b) → ∃ x, ρ n = some x ∧ x.ty = τ ∧ Sorted D K bs x.value τ.srt ∧ Sorted D K bs x.valid .bool

theorem NSorted.more (hK : KLe K K') {Γ : Gamma} {ρ : NameTrs} (h : NSorted D K bs Γ ρ) : NSorted D K' bs Γ ρ := by
  intro n τ b hn
  obtain ⟨x, h1, h2, h3, h4⟩ := h n τ b hn
  exact ⟨x, h1, h2, Sorted.more hK h3, Sorted.more hK h4⟩

theorem NSorted.bound {Γ : Gamma} {ρ : NameTrs} (m : Nat) (h : NSorted D K bs Γ ρ) : NSorted D K (m :: bs) Γ ρ := by
  intro n τ b hn
  obtain ⟨x, h1, h2, h3, h4⟩ := h n τ b hn
  exact ⟨x, h1, h2, Sorted.bound m h3, Sorted.bound m h4⟩

theorem NSorted.bind {Γ : Gamma} {ρ : NameTrs} (h : NSorted D K bs Γ ρ) (x : String) {a : Smt} {t : Ty} (ha : Sorted D K bs a t.srt) :
    NSorted D K bs (Γ.bind x t) (ρ.bind x a t) := by
  intro n τ b hn
  unfold Gamma.bind at hn
  unfold NameTrs.bind
  split at hn
  · next he =>
    cases hn
    rw [if_pos he]
    exact ⟨_, rfl, rfl, ha, .bool⟩
  · next he =>
    rw [if_neg he]
    exact h n τ b hn

/-! ### Operators -/

theorem tySrt_some {t : Ty} : tySrt (some t) = t.srt := rfl

theorem unTerm_sorted {op : UnOp} {σ : Ty} {t : Option Ty} (hu : unOk op (some σ) t) (h1 : op = .toInt → some σ ≠ some Ty.int)
    (h2 : op = .toDec → some σ ≠ some Ty.dec) {a x : Smt} (ha : Sorted D K bs a σ.srt) (hx : unTerm op (some σ) a = some x) :
    Sorted? D K bs t x := by
  cases op <;> simp only [unOk] at hu
  case minus | plus | abs =>
    obtain ⟨hn, rfl⟩ := hu
    refine ⟨σ, rfl, ?_⟩
    rcases hn with hn | hn <;> cases hn <;> simp only [unTerm, Option.some.injEq] at hx <;> subst hx
    all_goals first
      | exact ha
      | exact .un ha (by constructor)
  case logicalNot =>
    obtain ⟨hn, rfl⟩ := hu
    cases hn
    simp only [unTerm, Option.some.injEq] at hx
    subst hx
    exact ⟨_, rfl, .un ha .not⟩
  case strLen =>
    obtain ⟨hn, rfl⟩ := hu
    simp only [unTerm, Option.some.injEq] at hx
    subst hx
    refine ⟨_, rfl, .un (s := .str) ?_ .strLen⟩
    rcases hn with hn | hn <;> cases hn <;> exact ha
  case arrLen =>
    obtain ⟨⟨id, e, lo, hi, hn⟩, rfl⟩ := hu
    simp only [unTerm, Option.some.injEq] at hx
    subst hx
    cases hn
    exact ⟨_, rfl, .un ha .seqLen⟩
  case toInt =>
    obtain ⟨hn, rfl⟩ := hu
    simp only [unTerm, Option.some.injEq] at hx
    subst hx
    rcases hn with hn | hn
    · exact absurd hn (h1 rfl)
    · cases hn; exact ⟨_, rfl, .un ha .toInt⟩
  case toDec =>
    obtain ⟨hn, rfl⟩ := hu
    simp only [unTerm, Option.some.injEq] at hx
    subst hx
    rcases hn with hn | hn
    · cases hn; exact ⟨_, rfl, .un ha .toReal⟩
    · exact absurd hn (h2 rfl)

theorem powTerm_sorted {mul : SBin} {s : Srt} (hm : BinSort mul s s s) {a : Smt} (ha : Sorted D K bs a s) : ∀ n, Sorted D K bs (powTerm mul a n) s
  | 0 => ha
  | n + 1 => .bin (powTerm_sorted hm ha n) ha hm

theorem isStr_srt {τ : Ty} (h : isStr (some τ)) : τ.srt = .str := by
  rcases h with h | h <;> cases h <;> rfl

theorem binTerm_sorted {T : TrEnv} {op : BinOp} {l r : Expr} {t : Option Ty} (hb : binOk op l.typ r.typ t)
    (hi : op = .arrContains → ∀ τ id σ lo hi, l.typ = some τ → r.typ = some (.arr id σ lo hi) → τ.srt = σ.srt)
    {a b x : Smt} (ha : Sorted? D K bs l.typ a) (hb' : Sorted? D K bs r.typ b) (hx : binTerm T op l r a b = some x) :
    Sorted? D K bs t x := by
  obtain ⟨τ, hτ, ha⟩ := ha
  obtain ⟨σ, hσ, hb'⟩ := hb'
  unfold binTerm at hx
  rw [hτ, hσ] at hb
  rw [hτ] at hx hi
  rw [hσ] at hi
  cases op <;> simp only [binOk] at hb
  case eq | neq => cases hx
  case xor =>
    obtain ⟨h1, h2, rfl⟩ := hb
    cases h1; cases h2; cases hx
    exact ⟨_, rfl, .bin ha hb' .xor⟩
  case lt | leq | gt | geq =>
    obtain ⟨h1, h2, rfl⟩ := hb
    cases h2
    cases hx
    refine ⟨_, rfl, .bin ha hb' ?_⟩
    rcases h1 with h1 | h1 <;> cases h1 <;> constructor <;> simp [Ty.srt]
  case strContains | startsWith | endsWith =>
    obtain ⟨h1, h2, rfl⟩ := hb
    cases hx
    rw [isStr_srt h1] at ha
    rw [isStr_srt h2] at hb'
    exact ⟨_, rfl, .bin hb' ha (by constructor)⟩
  case regex =>
    obtain ⟨h1, h2, rfl⟩ := hb
    rw [isStr_srt h1] at ha
    dsimp only at hx
    split at hx
    · cases hx
      exact ⟨_, rfl, .matches ha .str⟩
    · cases hx
  case arrContains =>
    obtain ⟨⟨id, e, lo, hi', h1⟩, rfl⟩ := hb
    cases h1
    cases hx
    rw [hi rfl τ id e lo hi' rfl rfl] at ha
    exact ⟨_, rfl, .bin hb' ha .seqContains⟩
  case plus =>
    rcases hb with ⟨h1, h2, rfl⟩ | ⟨h1, h2, rfl⟩
    · cases h2
      rcases h1 with h1 | h1 <;> cases h1 <;> cases hx <;> exact ⟨_, rfl, .bin ha hb' (by constructor)⟩
    · have h3 := isStr_srt h1
      rw [isStr_srt h1] at ha
      rw [isStr_srt h2] at hb'
      rcases h1 with h1 | h1 <;> cases h1 <;> cases hx <;> exact ⟨_, rfl, .bin ha hb' .concat⟩
  case minus | times | divide =>
    obtain ⟨h1, h2, rfl⟩ := hb
    cases h2
    rcases h1 with h1 | h1 <;> cases h1 <;> cases hx <;> exact ⟨_, rfl, .bin ha hb' (by constructor)⟩
  case remainder =>
    obtain ⟨h1, h2, rfl⟩ := hb
    cases h1; cases h2; cases hx
    exact ⟨_, rfl, .bin ha hb' .adaRem⟩
  case power =>
    obtain ⟨h1, h2, rfl⟩ := hb
    dsimp only at hx
    split at hx
    · split at hx
      · cases hx
      · split at hx
        · next he _ => cases he; cases hx; exact ⟨_, rfl, .int⟩
        · next he _ => cases he; cases hx; exact ⟨_, rfl, .real⟩
        · next he _ => cases he; cases hx; exact ⟨_, rfl, powTerm_sorted .mulInt ha _⟩
        · next he _ => cases he; cases hx; exact ⟨_, rfl, powTerm_sorted .mulReal ha _⟩
        · cases hx
    · cases hx
  case index =>
    obtain ⟨⟨id, e, lo, hi', h1, rfl⟩, h2⟩ := hb
    cases h1; cases h2; cases hx
    exact ⟨_, rfl, .nth ha hb'⟩

theorem opGoals_sorted {op : BinOp} {l r : Option Ty} {t : Option Ty} (hb : binOk op l r t) {a b : Smt} (ha : Sorted? D K bs l a)
    (hb' : Sorted? D K bs r b) : ∀ g ∈ opGoals op l a b, Sorted D K bs g.1 .bool := by
  obtain ⟨τ, rfl, ha⟩ := ha
  obtain ⟨σ, rfl, hb'⟩ := hb'
  intro g hg
  cases op <;> simp only [binOk] at hb <;> try (simp [opGoals] at hg; done)
  case divide =>
    obtain ⟨h1, h2, rfl⟩ := hb
    cases h2
    rcases h1 with h1 | h1 <;> cases h1 <;> simp only [opGoals, List.mem_singleton] at hg <;> subst hg
    · exact .un (.bin hb' .int .eq) .not
    · exact .un (.bin hb' .real .eq) .not
  case remainder =>
    obtain ⟨h1, h2, rfl⟩ := hb
    cases h1; cases h2
    simp only [opGoals, List.mem_singleton] at hg
    subst hg
    exact .un (.bin hb' .int .eq) .not
  case index =>
    obtain ⟨⟨id, e, lo, hi', h1, rfl⟩, h2⟩ := hb
    cases h1; cases h2
    simp only [opGoals, List.mem_cons, List.not_mem_nil, or_false] at hg
    rcases hg with rfl | rfl
    · exact .bin hb' .int (.geq (.inl rfl))
    · exact .bin hb' (.un ha .seqLen) (.lt (.inl rfl))

theorem fold_sorted {op : SBin} (ho : BinSort op .bool .bool .bool) : ∀ (ps : List Smt) (p : Smt), Sorted D K bs p .bool →
    (∀ q ∈ ps, Sorted D K bs q .bool) → Sorted D K bs (ps.foldl (fun a b => .bin op a b) p) .bool
  | [], _, hp, _ => hp
  | q :: ps, p, hp, h => fold_sorted ho ps _ (.bin hp (h q List.mem_cons_self) ho) fun r hr => h r (List.mem_cons_of_mem _ hr)

theorem conj_sorted : ∀ (ps : List Smt), (∀ q ∈ ps, Sorted D K bs q .bool) → Sorted D K bs (conjTerm ps) .bool
  | [], _ => .bool
  | p :: ps, h => fold_sorted .and ps p (h p List.mem_cons_self) fun r hr => h r (List.mem_cons_of_mem _ hr)

theorem key_value (ht : TuplesOk D) {t : Nat} {c : Comp} (hc : c ∈ D.fields t) : tupleKey D t (.value c.name) = some c.ty.srt := by
  simp [tupleKey, find_of_mem (fields_names ht t) hc]

theorem key_valid (ht : TuplesOk D) {t : Nat} {c : Comp} (hc : c ∈ D.fields t) (ho : c.optional = true) : tupleKey D t (.valid c.name) = some .bool := by
  simp [tupleKey, find_of_mem (fields_names ht t) hc, ho]

theorem coreEq_sorted (ht : TuplesOk D) : ∀ (fuel : Nat) (τ : Ty) (a b : Smt), Sorted D K bs a τ.srt → Sorted D K bs b τ.srt →
    Sorted D K bs (coreEq D fuel τ a b) .bool
  | 0, τ, a, b, ha, hb => by
    simp only [coreEq]
    exact .bin ha hb .eq
  | fuel + 1, τ, a, b, ha, hb => by
    by_cases h : ∃ t, τ = .tup t
    · obtain ⟨t, rfl⟩ := h
      simp only [coreEq]
      refine conj_sorted _ fun q hq => ?_
      obtain ⟨c, hc, rfl⟩ := List.mem_map.1 hq
      have ih := coreEq_sorted ht fuel c.ty _ _ (.tuple ha (key_value ht hc)) (.tuple hb (key_value ht hc))
      split
      · next ho => exact .bin (.bin (.tuple ha (key_valid ht hc ho)) (.tuple hb (key_valid ht hc ho)) .eq) (.bin (.tuple ha (key_valid ht hc ho)) ih .imp) .and
      · exact ih
    · have : coreEq D (fuel + 1) τ a b = .bin .eq a b := by
        cases τ <;> first | rfl | exact absurd ⟨_, rfl⟩ h
      rw [this]
      exact .bin ha hb .eq

theorem comparable_srt {τ σ : Ty} (h : Comparable D (some τ) (some σ)) : τ.srt = σ.srt := by
  simp only [Comparable] at h
  rcases h with ⟨-, -, rfl⟩ | ⟨-, m, n, h1, h2, -⟩
  · rfl
  · cases τ <;> simp only [RefersTo] at h1 <;> cases σ <;> simp only [RefersTo] at h2 <;> rfl

theorem eqTerm_sorted (ht : TuplesOk D) {tl tr : Option Ty} (hc : Comparable D tl tr) {p q : TrPair} (hp : PSorted D K bs tl p)
    (hq : PSorted D K bs tr q) {t : Option Ty} (hct : ∀ a, p.1 = some a → t = tl) {x : Smt} (hx : eqTerm D t p q = some x) :
    Sorted D K bs x .bool := by
  have core : ∀ a b y, p.1 = some a → q.1 = some b → (t.map fun t => coreEq D (D.tups.length + 1) t a b) = some y → Sorted D K bs y .bool := by
    intro a b y ha hb hy
    rw [hct a ha] at hy
    obtain ⟨τ, rfl, h1⟩ := hp.value a ha
    obtain ⟨σ, rfl, h2⟩ := hq.value b hb
    cases hy
    rw [← comparable_srt hc] at h2
    exact coreEq_sorted ht _ _ _ _ h1 h2
  unfold eqTerm at hx
  dsimp only at hx
  split at hx
  · split at hx
    · next a b ha hb => exact core a b x ha hb hx
    · cases hx
  · split at hx
    · cases hx; exact .bool
    · split at hx
      · cases hx; exact .un hq.valid .not
      · cases hx; exact .un hp.valid .not
      · next a b ha hb =>
        simp only [Option.map_eq_some_iff] at hx
        obtain ⟨y, hy, rfl⟩ := hx
        exact .bin (.bin hp.valid hq.valid .eq) (.bin hp.valid (core a b y ha hb (by simpa using hy)) .imp) .and

theorem negIf_sorted {op : BinOp} {x : Smt} (h : Sorted D K bs x .bool) : Sorted D K bs (negIf op x) .bool := by
  unfold negIf
  split
  · exact .un h .not
  · exact h

theorem fieldTerm_sorted (wf : WFDecls D) (hu : UniqueNames D) {t : Option Ty} {n : String} {ty : Ty}
    (hf : fieldOk D t n ty) {a : Smt} (ha : Sorted? D K bs t a) {p : TrPair} (hp : fieldTerm D t a n = some p) : PSorted D K bs (some ty) p := by
  obtain ⟨τ, rfl, ha⟩ := ha
  cases τ <;> simp only [fieldOk] at hf
  case tup t =>
    obtain ⟨c, hc1, rfl⟩ := hf
    simp only [fieldTerm, hc1, Option.map_some, Option.some.injEq] at hp
    subst hp
    refine ⟨fun a' ha' => ?_, fun h => (by cases h), ?_⟩
    · cases ha'
      exact ⟨_, rfl, .tuple ha (by simp [tupleKey, hc1])⟩
    · dsimp only
      split
      · next ho => exact .tuple ha (by simp [tupleKey, hc1, ho])
      · exact .bool
  case record t =>
    obtain ⟨c, hc1, rfl, rfl⟩ := hf
    simp only [fieldTerm, Option.map_eq_some_iff] at hp
    obtain ⟨d, hd, rfl⟩ := hp
    obtain ⟨hcomp, hn⟩ := component_hasComp wf hd
    have := hu t d c hcomp hc1 hn
    subst this
    refine ⟨fun a' ha' => ?_, fun h => (by cases h), ?_⟩
    · cases ha'
      exact ⟨_, rfl, .record ha (by simp [refKey, hd])⟩
    · dsimp only
      split
      · next ho => exact .record ha (by simp [refKey, hd, ho])
      · exact .bool
  case union id ms =>
    obtain ⟨i, τ, hi, hτ, rfl⟩ := hf
    simp only [fieldTerm, hi, Option.map_some, Option.some.injEq] at hp
    subst hp
    have hd := fieldMap_describes D ms n
    rw [hi] at hd
    obtain ⟨g1, g2, g3, -, -⟩ := hd
    have hcomp := g3 τ hτ i.comp g1 g2
    refine ⟨fun a' ha' => ?_, fun h => (by cases h), ?_⟩
    · cases ha'
      exact ⟨_, rfl, .record ha (by simp [refKey, hi, hτ, hcomp])⟩
    · dsimp only
      split
      · next hcond =>
        refine .record ha ?_
        simp only [refKey, hi, Option.bind_some, hτ, Option.map_some]
        rw [if_neg]
        intro hall
        have hcnt := count_members (D := D) ms n i hi
        rcases hcond with h | h
        · exact h (hcnt.2 fun m hm => (hall m hm).imp fun c hc => ⟨hc.1, hc.2.1⟩)
        · simp only [Decls.optionalInAny, List.any_eq_true, Option.any_eq_true] at h
          obtain ⟨m', hm', c, hf, hopt⟩ := h
          obtain ⟨c', hc', hn', ho'⟩ := hall m' hm'
          have hc'' := (mem_allComponents wf m' c').1 hc'
          have := find_name wf hu hc''
          rw [hn', hf] at this
          cases this
          rw [ho'] at hopt
          cases hopt
      · exact .bool

theorem oneof_sorted {cs : List Smt} (h : ∀ c ∈ cs, Sorted D K bs c .bool) {x : Smt} (hx : oneofTerm cs = some x) : Sorted D K bs x .bool := by
  have pick : ∀ k, Sorted D K bs (conjTerm (cs.zipIdx.map fun (c, j) => if j = k then c else .un .not c)) .bool := by
    intro k
    refine conj_sorted _ fun q hq => ?_
    obtain ⟨⟨c, j⟩, hc, rfl⟩ := List.mem_map.1 hq
    have := h c (List.fst_mem_of_mem_zipIdx hc)
    dsimp only
    split
    · exact this
    · exact .un this .not
  unfold oneofTerm at hx
  split at hx
  · cases hx
  · cases hx; exact h _ (by simp)
  · cases hx; exact .bin (h _ (by simp)) (h _ (by simp)) .xor
  · dsimp only at hx
    split at hx
    · cases hx
    · next p ps hps =>
      cases hx
      have : ∀ q ∈ p :: ps, Sorted D K bs q .bool := by
        intro q hq
        rw [← hps] at hq
        obtain ⟨k, -, rfl⟩ := List.mem_map.1 hq
        exact pick k
      exact fold_sorted .or ps p (this p List.mem_cons_self) fun r hr => this r (List.mem_cons_of_mem _ hr)

theorem skipped_sorted {op : SCOp} {a : Smt} (ha : Sorted D K bs a .bool) : Sorted D K bs (skipped op a).1 .bool ∧ Sorted D K bs (skipped op a).2 .bool := by
  cases op <;> exact ⟨by first | exact ha | exact .un ha .not, .bool⟩

theorem evaluated_sorted {op : SCOp} {a : Smt} (ha : Sorted D K bs a .bool) : Sorted D K bs (evaluated op a) .bool := by
  cases op <;> first | exact ha | exact .un ha .not

theorem bounds_sorted {i a : Smt} {s : Srt} (hi : Sorted D K bs i .int) (ha : Sorted D K bs a (.seq s)) : Sorted D K bs (boundsTerm i a) .bool :=
  .bin (.bin hi .int (.geq (.inl rfl))) (.bin hi (.un ha .seqLen) (.lt (.inl rfl))) .and

end Verif.Lemmas.Vcg
