import Verif.Lemmas.Vcg.ScriptTr
import Verif.Lemmas.Vcg.Checks
import Verif.Model.Vcg.Declared
/-! The statements made for a type are well formed. -/
namespace Verif.Lemmas.Vcg
open Verif.Model Verif.Spec Verif.Lemmas

/-! ### Paths -/

theorem fits_append {D : Decls} : ∀ {xs ys : List SStmt} {c : Ctx}, Fits D c (xs ++ ys) ↔ Fits D c xs ∧ Fits D (c.after xs) ys
  | [], ys, c => ⟨fun h => ⟨trivial, h⟩, fun h => h.2⟩
  | x :: xs, ys, c => by
    simp only [List.cons_append, Fits, Ctx.after, fits_append (xs := xs), and_assoc]

theorem after_append : ∀ {xs ys : List SStmt} {c : Ctx}, c.after (xs ++ ys) = (c.after xs).after ys
  | [], _, _ => rfl
  | x :: xs, ys, c => by simp only [List.cons_append, Ctx.after, after_append (xs := xs)]

theorem wf_of_fits {D : Decls} : ∀ {ss : List SStmt} {c : Ctx}, Fits D c ss → WellFormed D c.kn ss
  | [], _, _ => trivial
  | .declare s srt v :: r, c, h => by
    refine ⟨?_, h.1.2, wf_of_fits h.2⟩
    cases hk : c.kn s with
    | none => rfl
    | some t => exact absurd (c.ok s t hk) h.1.1
  | .assert a :: r, c, h => ⟨h.1, wf_of_fits h.2⟩
  | .goal a f :: r, c, h => ⟨h.1, wf_of_fits h.2⟩

theorem path_fits {D : Decls} {A : Ann} {g : TS} (hi : Inv D A g) {n : Nat} {ss : List SStmt} (hp : Path g n ss) :
    Fits D Ctx.empty ss ∧ Covers (Ctx.empty.after ss) (A n) := by
  induction hp with
  | start =>
    refine ⟨trivial, ?_⟩
    rw [hi.first]
    exact Covers.rfl'
  | step hp hn he ih =>
    obtain ⟨i1, i2⟩ := Fits.covers (hi.fits _ _ hn) ih.2
    refine ⟨fits_append.2 ⟨ih.1, i1⟩, ?_⟩
    rw [after_append]
    obtain ⟨-, xs, h1, h2⟩ := hi.edges _ _ he
    rw [hn] at h1
    cases h1
    exact i2.trans h2

theorem vc_wf {D : Decls} {A : Ann} {g : TS} (hi : Inv D A g) {vc : VC} (h : IsVC g vc) : vc.WellFormed D := by
  obtain ⟨ss, ns, h1, h2, h3, h4⟩ := h
  obtain ⟨i1, i2⟩ := path_fits hi h1
  obtain ⟨i3, -⟩ := Fits.covers (hi.fits _ _ h2) i2
  have h5 : ns.take (vc.pos + 1) = ns.take vc.pos ++ [.goal vc.goal vc.fb] := by
    rw [List.take_add_one, h3]
    rfl
  rw [← List.take_append_drop (vc.pos + 1) ns, h5, fits_append] at i3
  unfold VC.WellFormed
  rw [h4, List.append_assoc]
  exact wf_of_fits (c := Ctx.empty) (fits_append.2 ⟨i1, i3.1⟩)

/-! ### Checks -/

variable {T : TrEnv} {rx : List Char → List Char → Bool} {C : CheckTab}

/-- what is known of a check -/
def CheckOk (T : TrEnv) (rx : List Char → List Char → Bool) (K : Sym → Option Srt) (bs : List Nat) (ρ : NameTrs) (e : Expr) : Prop :=
  ∃ Γ, WT T.decls rx Γ e ∧ Formed rx e ∧ Apt T.decls e ∧ Proper e ∧ e.typ = some .bool ∧ NSorted T.decls K bs Γ ρ

theorem CheckOk.more {K K' : Sym → Option Srt} (hK : KLe K K') {ρ : NameTrs} {e : Expr} (h : CheckOk T rx K [] ρ e) : CheckOk T rx K' [] ρ e := by
  obtain ⟨Γ, h1, h2, h3, h4, h5, h6⟩ := h
  exact ⟨Γ, h1, h2, h3, h4, h5, h6.more hK⟩

theorem trCheck_fwd (hD : DeclsOk T.decls) {ρ : NameTrs} {own : Bool} {e : Expr} {A : Ann} {s s' : TS} {c : Ctx} {u : Unit}
    (he : CheckOk T rx c.kn [] ρ e) (hs : St T.decls A s c) (h : trCheck T ρ own e s = .ok u s') : Fwd T.decls A s c s' (fun _ => True) := by
  obtain ⟨Γ, h1, h2, h3, h4, h5, h6⟩ := he
  simp only [trCheck, trm_bind, trm_need, trm_attach, trm_checkFeasible] at h
  obtain ⟨p, s1, hp, _, s2, hv, a, _, ⟨ha, rfl⟩, _, s3, rfl, rfl⟩ := h
  refine (tr_fwd hD e Γ ρ A s c s1 p h1 h2 h3 h4 h6 hs hp).bind fun A1 c1 _ hs1 _ hq => ?_
  refine (hs1.valid hq.valid hv).bind fun A2 c2 _ hs2 _ e2 => ?_
  subst e2
  obtain ⟨τ, hτ, hsa⟩ := hq.value a ha
  rw [h5] at hτ
  cases hτ
  have : ∃ A', Grow A2 s2 A' (if own = true then aside s2 [.goal a (.alwaysTrue e)] else s2) ∧
      St T.decls A' (if own = true then aside s2 [.goal a (.alwaysTrue e)] else s2) c2 := by
    split
    · obtain ⟨h1, h2⟩ := hs2.aside (ss := [.goal a (.alwaysTrue e)]) ⟨hsa, trivial⟩ (s' := aside s2 [.goal a (.alwaysTrue e)]) rfl
      exact ⟨_, h1, h2⟩
    · exact ⟨A2, Grow.rfl', hs2⟩
  obtain ⟨A3, g3, hs3⟩ := this
  obtain ⟨A4, c4, g4, hs4, w4, rfl⟩ := hs3.note (ss := [.assert a]) fun st hst => by
    cases List.mem_singleton.1 hst
    exact ⟨trivial, hsa⟩
  exact ⟨A4, _, g3.trans g4, hs4, Wide.rfl', trivial⟩

theorem trOne_fwd (hD : DeclsOk T.decls) {ρ : NameTrs} {own : Bool} {k : Check} {A : Ann} {s s' : TS} {c : Ctx} {u : Unit}
    (he : CheckOk T rx c.kn [] ρ k.expr) (hs : St T.decls A s c) (h : trOne T ρ own k s = .ok u s') : Fwd T.decls A s c s' (fun _ => True) := by
  simp only [trOne, trm_bind, trm_getStart] at h
  obtain ⟨here, _, ⟨rfl, rfl⟩, _, s1, h1, h⟩ := h
  obtain ⟨A1, c1, g1, hs1, w1, -⟩ := trCheck_fwd hD he hs h1
  split at h
  · rw [trm_pure] at h
    obtain ⟨-, rfl⟩ := h
    exact ⟨A1, c1, g1, hs1, w1, trivial⟩
  · rw [trm_setStart] at h
    subst h
    have := hs1.goto (hs.here.grow g1) fun j hj => hs.fresh j (Nat.lt_of_le_of_lt g1.tmp hj)
    exact ⟨A1, c, g1.trans Grow.goto, this, Wide.rfl', trivial⟩

theorem trChecks_fwd (hD : DeclsOk T.decls) {ρ : NameTrs} (phase : Bool) : ∀ (ks : List (Bool × Check)) {A : Ann} {s s' : TS} {c : Ctx} {u : Unit},
    (∀ x ∈ ks, CheckOk T rx c.kn [] ρ x.2.expr) → St T.decls A s c → trChecks T ρ phase ks s = .ok u s' → Fwd T.decls A s c s' (fun _ => True)
  | [], A, s, s', c, u, _, hs, h => by
    simp only [trChecks, trm_pure] at h
    obtain ⟨-, rfl⟩ := h
    exact hs.stay trivial
  | (own, k) :: ks, A, s, s', c, u, hk, hs, h => by
    unfold trChecks at h
    split at h
    · exact trChecks_fwd hD phase ks (fun x hx => hk x (List.mem_cons_of_mem _ hx)) hs h
    · rw [trm_bind] at h
      obtain ⟨_, s1, h1, h⟩ := h
      refine (trOne_fwd hD (hk _ List.mem_cons_self) hs h1).bind fun A1 c1 _ hs1 w1 _ => ?_
      exact trChecks_fwd hD phase ks (fun x hx => (hk x (List.mem_cons_of_mem _ hx)).more w1.kn) hs1 h

/-! ### Components -/

/-- what is declared for components -/
structure Decl (c : Ctx) (cs : List Comp) (c' : Ctx) : Prop where
  kn : KLe c.kn c'.kn
  names : ∀ d ∈ cs, c'.kn (.value d.name) = some d.ty.srt ∧ c'.kn (.valid d.name) = some .bool
  us : ∀ x, c'.us x → c.us x ∨ ∃ d ∈ cs, x = .value d.name ∨ x = .valid d.name

theorem component_fits {frozen : String → Option FExpr} {c : Ctx} {d : Comp}
    (hv : ∀ v, frozenValue frozen d = .ok v → ∀ a, v = some a → Sorted T.decls c.kn [] a d.ty.srt)
    (hc : ∀ K ts, K (.value d.name) = some d.ty.srt → compConstraints T C d = .ok ts → ∀ a ∈ ts, Sorted T.decls K [] a .bool)
    (h1 : ¬ c.us (.value d.name)) (h2 : ¬ c.us (.valid d.name)) {ss : List SStmt} (h : componentStmts T C frozen d = .ok ss) :
    Fits T.decls c ss ∧ Decl c [d] (c.after ss) := by
  unfold componentStmts at h
  rw [fr_bind] at h
  obtain ⟨v, hv1, h⟩ := h
  rw [fr_bind] at h
  obtain ⟨ts, hts, h⟩ := h
  cases h
  have hnd : ∀ st ∈ ts.map SStmt.assert, NoDecl st := by
    intro st hst
    obtain ⟨a, -, rfl⟩ := List.mem_map.1 hst
    trivial
  have ha : (c.add (.value d.name) d.ty.srt).after (ts.map .assert) = c.add (.value d.name) d.ty.srt := after_noDecl hnd
  have hu : ¬ (c.add (.value d.name) d.ty.srt).us (.valid d.name) := by
    rintro (hx | hx)
    · cases hx
    · exact h2 hx
  have he : c.after (.declare (.value d.name) d.ty.srt v :: ts.map .assert ++ [.declare (.valid d.name) .bool
          (if d.optional = true ∧ frozen d.name = none then none else some (.bool true))]) =
      (c.add (.value d.name) d.ty.srt).add (.valid d.name) .bool := by
    rw [List.cons_append, Ctx.after, after_append]
    simp only [Ctx.step, ha, Ctx.after]
  rw [he]
  refine ⟨?_, ?_, ?_, ?_⟩
  · rw [List.cons_append]
    refine ⟨⟨h1, fun a h => hv v hv1 a h⟩, fits_append.2 ⟨?_, ?_⟩⟩
    · refine fits_noDecl fun st hst => ⟨hnd st hst, ?_⟩
      obtain ⟨a, hat, rfl⟩ := List.mem_map.1 hst
      exact hc _ ts kn_self hts a hat
    · show Fits T.decls ((c.add (.value d.name) d.ty.srt).after _) _
      rw [ha]
      refine ⟨⟨hu, fun a h => ?_⟩, trivial⟩
      split at h
      · cases h
      · cases h; exact .bool
  · exact (kn_add h1 _).trans (kn_add hu _)
  · intro x hx
    cases List.mem_singleton.1 hx
    exact ⟨kn_add hu _ _ _ kn_self, kn_self⟩
  · rintro x (hx | hx | hx)
    · exact .inr ⟨d, List.mem_singleton.2 rfl, .inr hx⟩
    · exact .inr ⟨d, List.mem_singleton.2 rfl, .inl hx⟩
    · exact .inl hx

theorem preamble_fits {frozen : String → Option FExpr} : ∀ (cs : List Comp) {c : Ctx} {ss : List SStmt}, (cs.map (·.name)).Nodup →
    (∀ d ∈ cs, ∀ K v, frozenValue frozen d = .ok v → ∀ a, v = some a → Sorted T.decls K [] a d.ty.srt) →
    (∀ d ∈ cs, ∀ K ts, K (.value d.name) = some d.ty.srt → compConstraints T C d = .ok ts → ∀ a ∈ ts, Sorted T.decls K [] a .bool) →
    (∀ d ∈ cs, ¬ c.us (.value d.name) ∧ ¬ c.us (.valid d.name)) → preamble T C frozen cs = .ok ss → Fits T.decls c ss ∧ Decl c cs (c.after ss)
  | [], c, ss, _, _, _, _, h => by
    cases h
    exact ⟨trivial, KLe.rfl', (fun d hd => by cases hd), fun x hx => .inl hx⟩
  | d :: cs, c, ss, hn, hv, hc, hu, h => by
    unfold preamble at h
    rw [fr_bind] at h
    obtain ⟨xs, hx, h⟩ := h
    rw [fr_bind] at h
    obtain ⟨ys, hy, h⟩ := h
    cases h
    simp only [List.map_cons, List.nodup_cons] at hn
    obtain ⟨f1, d1⟩ := component_fits (hv d List.mem_cons_self c.kn) (hc d List.mem_cons_self) (hu d List.mem_cons_self).1 (hu d List.mem_cons_self).2 hx
    have hne : ∀ e ∈ cs, e.name ≠ d.name := fun e he h => hn.1 (h ▸ List.mem_map_of_mem he)
    obtain ⟨f2, d2⟩ := preamble_fits cs (c := c.after xs) hn.2 (fun e he => hv e (List.mem_cons_of_mem _ he)) (fun e he => hc e (List.mem_cons_of_mem _ he))
      (fun e he => by
        obtain ⟨u1, u2⟩ := hu e (List.mem_cons_of_mem _ he)
        constructor <;> intro hx <;> rcases d1.us _ hx with hx | ⟨d', hd', hx | hx⟩
        · exact u1 hx
        · cases List.mem_singleton.1 hd'; injection hx with hx; exact hne e he hx
        · cases hx
        · exact u2 hx
        · cases hx
        · cases List.mem_singleton.1 hd'; injection hx with hx; exact hne e he hx) hy
    rw [after_append]
    refine ⟨fits_append.2 ⟨f1, f2⟩, d1.kn.trans d2.kn, fun e he => ?_, fun x hx => ?_⟩
    · rcases List.mem_cons.1 he with rfl | he
      · obtain ⟨h1, h2⟩ := d1.names e (List.mem_singleton.2 rfl)
        exact ⟨d2.kn _ _ h1, d2.kn _ _ h2⟩
      · exact d2.names e he
    · rcases d2.us x hx with hx | ⟨e, he, hx⟩
      · rcases d1.us x hx with hx | ⟨e, he, hx⟩
        · exact .inl hx
        · cases List.mem_singleton.1 he
          exact .inr ⟨_, List.mem_cons_self, hx⟩
      · exact .inr ⟨e, List.mem_cons_of_mem _ he, hx⟩

variable {D : Decls} {K : Sym → Option Srt}

theorem frozenTerm_sorted {v : PVal} {τ : Ty} (h : VOk D v τ) {a : Smt} (ha : frozenTerm v.frozenExpr = .ok a) : Sorted D K [] a τ.srt := by
  cases v <;> simp only [VOk] at h
  case bool b => subst h; cases ha; exact .bool
  case int b => subst h; cases ha; exact .int
  case dec b => subst h; cases ha; exact .real
  case str b => subst h; cases ha; exact .str
  case markup b _ => subst h; cases ha; exact .str
  case enum t l => obtain ⟨rfl, ls, h1, h2⟩ := h; cases ha; exact .enum h1 h2
  case neg e =>
    rcases h with ⟨rfl, i, rfl⟩ | ⟨rfl, i, rfl⟩ <;> cases ha
    · exact .un .int .negInt
    · exact .un .real .negReal
  case pos e =>
    rcases h with ⟨rfl, i, rfl⟩ | ⟨rfl, i, rfl⟩ <;> cases ha
    · exact .int
    · exact .real
  all_goals cases ha

theorem tupleNames_sorted {t : Nat} {base : Smt} (hb : Sorted D K [] base (.tup t)) :
    NSorted D K [] (fun n => (D.compIn (.tup t) n).map fun c => (c.ty, c.optional)) (tupleNames D t base) := by
  intro n τ b h
  simp only [Decls.compIn] at h
  simp only [tupleNames]
  cases hf : (D.fields t).find? (·.name == n) with
  | none => rw [hf] at h; cases h
  | some c =>
    rw [hf] at h
    cases h
    refine ⟨_, rfl, rfl, .tuple hb (by simp [tupleKey, hf]), ?_⟩
    dsimp only
    split
    · next ho => exact .tuple hb (by simp [tupleKey, hf, ho])
    · exact .bool

theorem compTrs_sorted {Γ : Gamma} {cs : List Comp} (hb : ∀ n τ b, Γ n = some (τ, b) → ∃ c, cs.find? (·.name == n) = some c ∧ c.ty = τ)
    (hk : ∀ d ∈ cs, K (.value d.name) = some d.ty.srt ∧ K (.valid d.name) = some .bool) : NSorted D K [] Γ (compTrs cs) := by
  intro n τ b h
  obtain ⟨c, h1, rfl⟩ := hb n τ b h
  obtain ⟨h2, h3⟩ := Vcg.find_mem h1
  obtain ⟨h4, h5⟩ := hk c h2
  rw [h3] at h4 h5
  exact ⟨_, by simp only [compTrs, h1, Option.map_some]; rfl, rfl, .sym h4, .sym h5⟩

theorem tupleChecks_sorted (hD : DeclsOk T.decls) {ρ : NameTrs} : ∀ (ks : List Check) {ts : List Smt},
    (∀ k ∈ ks, k.sev ≠ .warning → CheckOk T rx K [] ρ k.expr) → tupleCheckTerms T ρ ks = .ok ts → ∀ a ∈ ts, Sorted T.decls K [] a .bool
  | [], ts, _, h => by cases h; exact fun a ha => by cases ha
  | k :: ks, ts, hk, h => by
    unfold tupleCheckTerms at h
    split at h
    · exact tupleChecks_sorted hD ks (fun x hx => hk x (List.mem_cons_of_mem _ hx)) h
    · next hs =>
      simp only [fr_bind, fr_need] at h
      obtain ⟨p, hp, a, ha, rest, hr, h⟩ := h
      cases h
      obtain ⟨Γ, h1, h2, h3, h4, h5, h6⟩ := hk k List.mem_cons_self hs
      obtain ⟨τ, hτ, hsa⟩ := (trF_sorted hD k.expr [] Γ ρ p h1 h3 h4 h6 hp).value a ha
      rw [h5] at hτ
      cases hτ
      intro b hb
      rcases List.mem_cons.1 hb with rfl | hb
      · exact hsa
      · exact tupleChecks_sorted hD ks (fun x hx => hk x (List.mem_cons_of_mem _ hx)) hr b hb

theorem suffixTerms_sorted (ht : TuplesOk D) {t : Nat} {base : Smt} (hb : Sorted D K [] base (.tup t)) : ∀ (cs : List Comp) {ts : List Smt},
    (∀ c ∈ cs, c ∈ D.fields t) → suffixTerms base cs = .ok ts → ∀ a ∈ ts, Sorted D K [] a .bool
  | [], ts, _, h => by cases h; exact fun a ha => by cases ha
  | c :: cs, ts, hc, h => by
    unfold suffixTerms at h
    split at h
    · next ho =>
      split at h
      · cases h; exact fun a ha => by cases ha
      · next d ds =>
        split at h
        · next hall =>
          rw [fr_bind] at h
          obtain ⟨rest, hr, h⟩ := h
          cases h
          rw [List.all_eq_true] at hall
          intro b hb'
          rcases List.mem_cons.1 hb' with rfl | hb'
          · refine .bin (.un (.tuple hb (key_valid ht (hc c List.mem_cons_self) ho)) .not) (conj_sorted _ fun q hq => ?_) .imp
            obtain ⟨x, hx, rfl⟩ := List.mem_map.1 hq
            exact .un (.tuple hb (key_valid ht (hc x (List.mem_cons_of_mem _ hx)) (hall x hx))) .not
          · exact suffixTerms_sorted ht hb (d :: ds) (fun x hx => hc x (List.mem_cons_of_mem _ hx)) hr b hb'
        · cases h
    · exact suffixTerms_sorted ht hb cs (fun x hx => hc x (List.mem_cons_of_mem _ hx)) h

theorem boundTerms_sorted {a : Smt} {e : Srt} (ha : Sorted D K [] a (.seq e)) (lo : Nat) (hi : Option Nat) : ∀ x ∈ boundTerms a lo hi, Sorted D K [] x .bool := by
  intro x hx
  unfold boundTerms at hx
  rcases List.mem_append.1 hx with hx | hx
  · split at hx
    · cases List.mem_singleton.1 hx
      exact .bin (.un ha .seqLen) .int (.geq (.inl rfl))
    · cases hx
  · split at hx
    · cases hx
    · cases List.mem_singleton.1 hx
      exact .bin (.un ha .seqLen) .int (.leq (.inl rfl))

theorem constraints_sorted (hD : DeclsOk T.decls) {d : Comp}
    (hk : ∀ u, d.ty = .tup u → ∀ k ∈ C.ofTup u, k.sev ≠ .warning → ∀ K, K (.value d.name) = some (.tup u) →
      CheckOk T rx K [] (tupleNames T.decls u (.sym (.value d.name))) k.expr)
    {ts : List Smt} (hK : K (.value d.name) = some d.ty.srt) (h : compConstraints T C d = .ok ts) : ∀ a ∈ ts, Sorted T.decls K [] a .bool := by
  unfold compConstraints at h
  split at h
  · next u hu =>
    rw [hu] at hK
    unfold tupleConstraints at h
    simp only [fr_bind] at h
    obtain ⟨xs, hx, ys, hy, h⟩ := h
    cases h
    intro a ha
    rcases List.mem_append.1 ha with ha | ha
    · exact tupleChecks_sorted hD _ (fun k hkm hs => hk u hu k hkm hs K hK) hx a ha
    · exact suffixTerms_sorted hD.tuples (.sym hK) _ (fun _ h => h) hy a ha
  · next id e lo hi hu =>
    rw [hu] at hK
    cases h
    exact boundTerms_sorted (.sym hK) lo hi
  · cases h
    exact fun a ha => by cases ha

/-! ### A type -/

theorem vcgGraph_inv (hD : DeclsOk T.decls) {v : VcgType} (hn : (v.comps.map (·.name)).Nodup)
    (hv : ∀ d ∈ v.comps, ∀ K x, frozenValue v.frozen d = .ok x → ∀ a, x = some a → Sorted T.decls K [] a d.ty.srt)
    (hc : ∀ d ∈ v.comps, ∀ K ts, K (.value d.name) = some d.ty.srt → compConstraints T C d = .ok ts → ∀ a ∈ ts, Sorted T.decls K [] a .bool)
    (hk : ∀ x ∈ v.checks, ∀ K, (∀ d ∈ v.comps, K (.value d.name) = some d.ty.srt ∧ K (.valid d.name) = some .bool) →
      CheckOk T rx K [] (compTrs v.comps) x.2.expr)
    {u : Unit} {G : TS} (h : vcgGraph T C v TS.empty = .ok u G) : ∃ A, Inv T.decls A G := by
  simp only [vcgGraph, trm_bind, trm_lift, trm_attach] at h
  obtain ⟨ss, _, ⟨hp, rfl⟩, _, s1, rfl, _, s2, h2, h3⟩ := h
  have s0 : St T.decls (fun _ => Ctx.empty) TS.empty Ctx.empty := by
    refine ⟨⟨rfl, fun i ss hi => ?_, fun a b hab => by cases hab⟩, ⟨[], rfl, Covers.rfl'⟩, fun _ _ h => h⟩
    rw [TS.empty] at hi
    match i, hi with
    | 0, hi => cases hi; trivial
  obtain ⟨f, d⟩ := preamble_fits v.comps (c := Ctx.empty) hn hv hc (fun _ _ => ⟨fun h => h, fun h => h⟩) hp
  obtain ⟨-, st1⟩ := s0.attach f fun j _ hx => by
    rcases d.us _ hx with hx | ⟨e, -, hx | hx⟩
    · exact hx
    · cases hx
    · cases hx
  obtain ⟨A2, c2, -, st2, w2, -⟩ := trChecks_fwd hD false v.checks (fun x hx => hk x hx _ d.names) st1 h2
  obtain ⟨A3, c3, -, st3, -, -⟩ := trChecks_fwd hD true v.checks (fun x hx => (hk x hx _ d.names).more w2.kn) st2 h3
  exact ⟨A3, st3.inv⟩

end Verif.Lemmas.Vcg
