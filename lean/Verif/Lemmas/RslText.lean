import Verif.Lemmas.RslChecks
import Verif.Lemmas.SaysRun
import Verif.Lemmas.Process
import Verif.Lemmas.ParseWritten
import Verif.Spec.RslText
/-! What the parser of rsl files reads: the tokens consumed, and what they declare. -/
namespace Verif.Lemmas
open Verif.Model Verif.Spec

variable {α β : Type} {E : FileEnv}

/-- like `spoken` -/
macro "spokens" : tactic => `(tactic| repeat' (first
  | infer_instance
  | exact says_registerType (fun _ => rfl)
  | exact says_modify (fun _ => rfl)
  | apply says_bind'
  | apply says_ite'
  | apply says_cond'
  | intro _
  | split))

/-- If `x` ends normally and reports nothing, then the tokens consumed, the result and the final
state satisfy `Q`. -/
def Rw (x : P α) (s : PS) (Q : α → List Token → PS → Prop) : Prop :=
  ∀ a s', x s = .ok a s' → s'.errs = s.errs → ∃ ts, words s = ts ++ words s' ∧ Q a ts s'

theorem says_mid {x : P α} {f : α → P β} (hx : Says x) {a : α} (hf : Says (f a)) {s s1 s2 : PS} {b : β}
    (h1 : x s = .ok a s1) (h2 : f a s1 = .ok b s2) (he : s2.errs = s.errs) :
    s1.errs = s.errs ∧ s2.errs = s1.errs := by
  obtain ⟨l, e1, -⟩ := hx.ok h1
  obtain ⟨l', e2, -⟩ := hf.ok h2
  have hl := congrArg List.length (e2.symm.trans he)
  rw [e1] at hl
  simp only [List.length_append] at hl
  have h1 : l = [] := List.length_eq_zero_iff.1 (by omega)
  have h2 : l' = [] := List.length_eq_zero_iff.1 (by omega)
  subst h1 h2
  exact ⟨by simpa using e1, by simpa using e2⟩

theorem rw_bind {x : P α} {f : α → P β} {s : PS} {Q : β → List Token → PS → Prop}
    (Q1 : α → List Token → PS → Prop) (hx : Rw x s Q1)
    (hf : ∀ a ts s1, Q1 a ts s1 → Rw (f a) s1 (fun b ts' s2 => Q b (ts ++ ts') s2))
    (sx : Says x := by spokens) (sf : ∀ a, Says (f a) := by spokens) : Rw (x >>= f) s Q := by
  intro b s2 h he
  rw [bind_apply] at h
  cases hxs : x s with
  | err s1 => rw [hxs] at h; cases h
  | crash c s1 => rw [hxs] at h; cases h
  | ok a s1 =>
    rw [hxs] at h
    simp only at h
    obtain ⟨e1, e2⟩ := says_mid sx (sf a) hxs h he
    obtain ⟨ts, hw, hq⟩ := hx a s1 hxs e1
    obtain ⟨ts', hw', hq'⟩ := hf a ts s1 hq b s2 h e2
    exact ⟨ts ++ ts', by rw [hw, hw', List.append_assoc], hq'⟩

theorem Rw.mono {x : P α} {s : PS} {Q Q' : α → List Token → PS → Prop} (h : Rw x s Q)
    (hq : ∀ a ts s', Q a ts s' → Q' a ts s') : Rw x s Q' := by
  intro a s' e he
  obtain ⟨ts, h1, h2⟩ := h a s' e he
  exact ⟨ts, h1, hq _ _ _ h2⟩

theorem Rw.sp {R : PS → PS → Prop} [PreRel R] {x : P α} {s : PS} {Q : α → List Token → PS → Prop}
    {Q' : α → PS → Prop} (h : Rw x s Q) (h' : Sp R x s Q') :
    Rw x s (fun a ts s' => Q a ts s' ∧ R s s' ∧ Q' a s') := by
  intro a s' e he
  obtain ⟨ts, h1, h2⟩ := h a s' e he
  exact ⟨ts, h1, h2, h'.ok e⟩

theorem Rd.rw {x : P α} {s : PS} {Q : α → List Token → PS → Prop} (h : Rd x s Q) :
    Rw x s (fun a ts s' => Q a ts s' ∧ Fr s s') := by
  intro a s' e _
  obtain ⟨h0, ts, h1, h2⟩ := h a s' e
  exact ⟨ts, h1, h2, h0⟩

/-- for a step that reports nothing if its postcondition says so -/
theorem Rd.rwe {x : P α} {s : PS} {Q : α → List Token → PS → Prop}
    (h : Rd x s (fun a ts s' => s'.errs = s.errs → Q a ts s')) :
    Rw x s (fun a ts s' => Q a ts s' ∧ Fr s s') := by
  intro a s' e he
  obtain ⟨h0, ts, h1, h2⟩ := h a s' e
  exact ⟨ts, h1, h2 he, h0⟩

theorem rw_pure {a : α} {s : PS} {Q : α → List Token → PS → Prop} (h : Q a [] s) : Rw (pure a) s Q := by
  intro a' s' e _
  rw [pure_apply] at e
  cases e
  exact ⟨[], rfl, h⟩

theorem rw_fail {e : PErr} {s : PS} {Q : α → List Token → PS → Prop} : Rw (P.fail e : P α) s Q := by
  intro a s' h; cases h

theorem rw_crash {c : PCrash} {s : PS} {Q : α → List Token → PS → Prop} : Rw (P.crash c : P α) s Q := by
  intro a s' h; cases h

theorem rw_get_bind {f : PS → P β} {s : PS} {Q : β → List Token → PS → Prop} (h : Rw (f s) s Q) :
    Rw (P.get >>= f) s Q := h

theorem rw_ite {c : Prop} [Decidable c] {x y : P α} {s : PS} {Q : α → List Token → PS → Prop}
    (hx : c → Rw x s Q) (hy : ¬ c → Rw y s Q) : Rw (if c then x else y) s Q := by
  by_cases h : c
  · rw [if_pos h]; exact hx h
  · rw [if_neg h]; exact hy h

theorem rw_cond {c : Bool} {x y : P α} {s : PS} {Q : α → List Token → PS → Prop}
    (hx : c = true → Rw x s Q) (hy : c = false → Rw y s Q) : Rw (P.cond c x y) s Q := by
  cases c
  · exact hy rfl
  · exact hx rfl

theorem worldOf_fr {s s' : PS} (h : Fr s s') : worldOf s' = worldOf s := by
  unfold worldOf; rw [h.tabs, h.decls, h.infos, h.seps, h.checks, h.objs, h.nid]

theorem Fr.tabs_of {s s' : PS} (h : Fr s s') {N : Names} (hN : N.tabs = s.tabs) : N.tabs = s'.tabs := by
  rw [hN, h.tabs]

theorem Rw.nt {x : P α} {s : PS} {Q : α → List Token → PS → Prop} (h : Rw x s Q) :
    Rw x s (fun a ts s' => s.nt = follow ts s'.nt ∧ Q a ts s') := by
  intro a s' e he
  obtain ⟨ts, h1, h2⟩ := h a s' e he
  exact ⟨ts, h1, nt_follow h1, h2⟩

/-- nothing is declared from `s` to `s'`, but numbers may have been used -/
def Numbered (s s' : PS) : Prop := worldOf s' = { worldOf s with nid := s'.nid }

theorem Numbered.fr {s s' : PS} (h : Fr s s') : Numbered s s' := by
  unfold Numbered; rw [worldOf_fr h, h.nid]; rfl

theorem Numbered.trans {s1 s2 s3 : PS} (h : Numbered s1 s2) (h' : Numbered s2 s3) : Numbered s1 s3 := by
  unfold Numbered at *; rw [h', h]

theorem Numbered.world {s s' : PS} (h : Numbered s s') (e : s'.nid = s.nid) : worldOf s' = worldOf s := by
  unfold Numbered at h; rw [h, e]; rfl

theorem Numbered.tabs {s s' : PS} (h : Numbered s s') : s'.tabs = s.tabs := congrArg World.tabs h
theorem Numbered.decls {s s' : PS} (h : Numbered s s') : s'.decls = s.decls := congrArg World.decls h
theorem Numbered.infos {s s' : PS} (h : Numbered s s') : s'.infos = s.infos := congrArg World.infos h
theorem Numbered.seps {s s' : PS} (h : Numbered s s') : s'.seps = s.seps := congrArg World.seps h

/-! ## Names -/

theorem parseDescribedName_rd {s : PS} : Rd parseDescribedName s (fun t ts _ => Described t.text ts) := by
  unfold parseDescribedName
  refine rd_bind _ matchK_rd ?_
  rintro t _ s1 h1 - ⟨-, hk, rfl⟩
  refine rd_get_bind ?_
  refine rd_cond (fun _ => ?_) (fun _ => rd_pure ⟨t, hk, rfl, .inl rfl⟩)
  refine rd_bind _ matchK_rd ?_
  rintro d _ s2 h2 - ⟨-, hd, rfl⟩
  exact rd_pure ⟨t, hk, rfl, .inr ⟨d, hd, rfl⟩⟩

theorem nameOf_tabs {N N' : Names} (h : N.tabs = N'.tabs) {ts : List Token} {e : Ent} :
    NameOf E N ts e ↔ NameOf E N' ts e := by
  have : ∀ p, N.tab p = N'.tab p := fun p => by unfold Names.tab; rw [h]
  simp only [NameOf, Means, this]

theorem qualifiedName_rd {N : Names} {sub : Ent → Bool} {s : PS} (hN : N.tabs = s.tabs) :
    Rd (parseQualifiedName E sub) s (fun e ts _ => NameOf E N ts e ∧ sub e = true) :=
  parseQualifiedName_rd.mono fun _ _ _ _ h => ⟨(nameOf_tabs (N' := namesOf s) hN).2 h.1, h.2⟩

/-! ## Types of components -/

theorem unionLoop_rd {N : Names} : ∀ (k : Nat) (acc : List Nat) (s : PS), N.tabs = s.tabs →
    Rd (unionLoop E k acc) s (fun ms ts _ => ∀ ts0, RecNames E N acc ts0 → RecNames E N ms (ts0 ++ ts)) := by
  intro k
  induction k with
  | zero => intro acc s _; exact rd_crash
  | succ k ih =>
    intro acc s hN
    unfold unionLoop
    refine rd_get_bind ?_
    refine rd_ite (fun _ => ?_) (fun _ => rd_pure fun ts0 h => by simpa using h)
    refine rd_bind _ matchK_rd ?_
    rintro c _ s1 h1 - ⟨-, hc, rfl⟩
    refine rd_bind _ (qualifiedName_rd (h1.tabs_of hN)) ?_
    rintro e b s2 h2 - ⟨he, hcls⟩
    refine (ih (acc ++ [e.id]) s2 ((h1.trans h2).tabs_of hN)).mono ?_
    intro ms ts s3 _ h ts0 h0
    have := h _ (RecNames.more h0 hc he (by simpa using hcls))
    simpa using this

theorem reportDuplicates_rd : ∀ (ms seen : List Nat) (s : PS),
    Rd (reportDuplicates seen ms) s (fun _ ts s' => ts = [] ∧ (s'.errs = s.errs →
      ms.Nodup ∧ ∀ m ∈ ms, m ∉ seen)) := by
  intro ms
  induction ms with
  | nil => intro seen s; exact rd_pure ⟨rfl, fun _ => ⟨List.nodup_nil, by simp⟩⟩
  | cons m ms ih =>
    intro seen s
    unfold reportDuplicates
    refine rd_ite (fun _ => ?_) (fun hm => ?_)
    · refine rd_bind _ report_rd ?_
      rintro _ _ s1 h1 - ⟨rfl, e1⟩
      refine (ih seen s1).mono ?_
      rintro _ _ s2 h2 ⟨rfl, -⟩
      refine ⟨rfl, fun he => ?_⟩
      obtain ⟨l, hl⟩ := h2.errs
      exact absurd he (errs_ne ⟨l, by rw [← e1]; exact hl⟩)
    · refine (ih (m :: seen) s).mono ?_
      rintro _ _ s2 h2 ⟨rfl, h⟩
      refine ⟨rfl, fun he => ?_⟩
      obtain ⟨hd, hs⟩ := h he
      have hm : m ∉ seen := by simpa using hm
      refine ⟨List.nodup_cons.2 ⟨fun hmem => (hs m hmem) (by simp), hd⟩, ?_⟩
      intro x hx
      rcases List.mem_cons.1 hx with rfl | hx
      · exact hm
      · exact fun hc => hs x hx (by simp [hc])

theorem fresh_rw {s : PS} : Rw P.fresh s (fun n ts s' => ts = [] ∧ n = s.nid ∧ s'.nid = s.nid + 1 ∧
    Numbered s s') := by
  intro a s' e _
  cases e
  exact ⟨[], rfl, rfl, rfl, rfl, rfl⟩

theorem parseUnionType_rw {N : Names} {s : PS} (hN : N.tabs = s.tabs) :
    Rw (parseUnionType E) s (fun τ ts s' => TypeText E N s.nid τ ts s'.nid ∧ Numbered s s') := by
  unfold parseUnionType
  refine rw_bind _ matchK_rd.rw ?_
  rintro a _ s1 ⟨⟨-, ha, rfl⟩, h1⟩
  refine rw_bind _ (qualifiedName_rd (h1.tabs_of hN)).rw ?_
  rintro e b s2 ⟨⟨he, hc⟩, h2⟩
  refine rw_get_bind ?_
  have h12 := h1.trans h2
  refine rw_bind _ (unionLoop_rd _ _ s2 (h12.tabs_of hN)).rw ?_
  rintro ms ts s3 ⟨hms, h3⟩
  have hms := hms b (.one he (by simpa using hc))
  refine rw_bind _ matchK_rd.rw ?_
  rintro k _ s4 ⟨⟨-, hk, rfl⟩, h4⟩
  refine rw_bind (fun _ ts s' => (ts = [] ∧ ms.Nodup) ∧ Fr s4 s') ?_ ?_
  · refine Rd.rwe ((reportDuplicates_rd ms [] s4).mono ?_)
    exact fun _ _ _ _ h he => ⟨h.1, (h.2 he).1⟩
  rintro _ _ s5 ⟨⟨rfl, hd⟩, h5⟩
  refine rw_bind _ fresh_rw ?_
  rintro _ _ s6 ⟨rfl, rfl, e6, h6⟩
  have h15 := h12.trans (h3.trans (h4.trans h5))
  refine rw_pure ⟨?_, (Numbered.fr h15).trans h6⟩
  rw [e6, h15.nid]
  have := TypeText.union (n := s.nid) ha hms hd hk
  simpa using this

theorem parseFieldType_rw {N : Names} {s : PS} (hN : N.tabs = s.tabs) :
    Rw (parseFieldType E) s (fun τ ts s' => TypeText E N s.nid τ ts s'.nid ∧ Numbered s s') := by
  unfold parseFieldType
  refine rw_get_bind ?_
  refine rw_ite (fun _ => parseUnionType_rw hN) (fun _ => ?_)
  refine rw_bind _ (qualifiedName_rd hN).rw ?_
  rintro e b s2 ⟨⟨he, hc⟩, h2⟩
  split
  · next τ hτ => exact rw_pure ⟨by rw [h2.nid]; simpa using TypeText.name he hτ, .fr h2⟩
  · exact rw_crash

theorem natOf_rd {t : Token} {s : PS} : Rd (P.natOf t) s (fun n ts _ => ts = [] ∧ t.value = .int n) := by
  unfold P.natOf
  split
  · next n h => exact rd_pure ⟨rfl, h⟩
  · exact rd_crash

theorem parseUpperBound_rd {s : PS} : Rd parseUpperBound s (fun hi ts _ => ∃ u, ts = [u] ∧ UpperText hi u) := by
  unfold parseUpperBound
  refine rd_get_bind ?_
  refine rd_ite (fun _ => ?_) (fun _ => rd_ite (fun hs => ?_)
    (fun _ => rd_ite (fun _ => rd_crash) (fun _ => rd_fail)))
  · refine rd_bind _ matchK_rd ?_
    rintro u _ s1 h1 - ⟨-, hu, rfl⟩
    refine rd_bind _ natOf_rd ?_
    rintro n _ s2 h2 - ⟨rfl, hn⟩
    exact rd_pure ⟨u, rfl, hu, hn⟩
  · refine rd_bind _ matchK_rd ?_
    rintro u _ s1 h1 - ⟨hn, hu, rfl⟩
    rw [hn] at hs
    simp only [Option.any_some, decide_eq_true_eq] at hs
    exact rd_pure ⟨u, rfl, hs.1, hs.2⟩

theorem parseArrayType_rw {N : Names} {τ : Ty} {s : PS} {ts0 : List Token} {n : Nat}
    (h0 : TypeText E N n τ ts0 s.nid) :
    Rw (parseArrayType τ) s (fun τ' ts s' => CompTypeText E N n τ' (ts0 ++ ts) s'.nid ∧ Numbered s s') := by
  unfold parseArrayType
  refine rw_get_bind ?_
  refine rw_ite (fun _ => ?_) (fun _ => rw_pure ⟨by simpa using CompTypeText.single h0, .fr (Fr.refl _)⟩)
  refine rw_bind _ matchK_rd.rw ?_
  rintro a _ s1 ⟨⟨-, ha, rfl⟩, h1⟩
  refine rw_bind _ matchK_rd.rw ?_
  rintro l _ s2 ⟨⟨-, hl, rfl⟩, h2⟩
  refine rw_bind _ natOf_rd.rw ?_
  rintro lo _ s3 ⟨⟨rfl, hlo⟩, h3⟩
  refine rw_bind _ matchK_rd.rw ?_
  rintro r _ s4 ⟨⟨-, hr, rfl⟩, h4⟩
  refine rw_bind _ parseUpperBound_rd.rw ?_
  rintro hi _ s5 ⟨⟨u, rfl, hu⟩, h5⟩
  refine rw_bind _ matchK_rd.rw ?_
  rintro b _ s6 ⟨⟨-, hb, rfl⟩, h6⟩
  refine rw_bind _ fresh_rw ?_
  rintro _ _ s7 ⟨rfl, rfl, e7, h7⟩
  have h16 := h1.trans (h2.trans (h3.trans (h4.trans (h5.trans h6))))
  refine rw_pure ⟨?_, (Numbered.fr h16).trans h7⟩
  rw [e7, h16.nid]
  exact .arr h0 ha hl hlo hr hu hb

/-! ## Enumerations -/

theorem literals_snoc {ls : List String} {ts a : List Token} {l : String} (h : LiteralsText ls ts)
    (hl : Described l.toList a) : LiteralsText (ls ++ [l]) (ts ++ a) := by
  induction h with
  | nil => simpa using LiteralsText.cons hl .nil
  | cons h1 _ ih => rw [List.append_assoc]; exact .cons h1 ih

/-- `W` with the literals `ls` in its last enumeration type -/
def enumIn (W : World) (tabs : List STab) (ls : List String) : World :=
  { W with tabs, decls := { W.decls with enums := W.decls.enums ++ [ls] } }

theorem getElem?_snoc {γ : Type} (l : List γ) (x : γ) : (l ++ [x])[l.length]? = some x := by simp

theorem modify_snoc {γ : Type} (l : List γ) (x : γ) (f : γ → γ) :
    (l ++ [x]).modify l.length f = l ++ [f x] := by
  induction l with
  | nil => rfl
  | cons y l ih => simp [ih]

theorem literalLoop_rw {W : World} {tabs : List STab} : ∀ (k : Nat) (any : Bool) (ls : List String) (ts0 : List Token)
    (s : PS), worldOf s = enumIn W tabs ls → LiteralsText ls ts0 → (ls.Pairwise fun l l' => ¬ SameName l l') →
    (any = true → ls ≠ []) →
    Rw (literalLoop W.decls.enums.length k any) s (fun any' ts s' => ∃ ls', worldOf s' = enumIn W tabs ls' ∧
      LiteralsText ls' (ts0 ++ ts) ∧ (ls'.Pairwise fun l l' => ¬ SameName l l') ∧ (any' = true → ls' ≠ [])) := by
  intro k
  induction k with
  | zero => intros; exact rw_crash
  | succ k ih =>
    intro any ls ts0 s hw hl hp ha
    unfold literalLoop
    refine rw_get_bind ?_
    refine rw_ite (fun _ => rw_pure ⟨ls, hw, by simpa using hl, hp, ha⟩) (fun _ => ?_)
    refine rw_bind _ parseDescribedName_rd.rw ?_
    rintro tok a s1 ⟨hd, h1⟩
    have hw1 : worldOf s1 = enumIn W tabs ls := (worldOf_fr h1).trans hw
    have hen : s1.decls.enums = W.decls.enums ++ [ls] := congrArg (fun w => w.decls.enums) hw1
    refine rw_bind (fun _ ts s' => ts = [] ∧ worldOf s' = enumIn W tabs (ls ++ [String.ofList tok.text]) ∧
      ∀ l ∈ ls, ¬ SameName l (String.ofList tok.text)) ?_ ?_
    · intro u s2 e _
      unfold P.addLiteral at e
      split at e
      · cases e
      · next hr =>
        cases e
        rw [registerName_ok] at hr
        refine ⟨[], rfl, rfl, ?_, ?_⟩
        · have : ({ worldOf s1 with decls := { s1.decls with enums := s1.decls.enums.modify W.decls.enums.length (· ++ [String.ofList tok.text]) } } : World) = enumIn W tabs (ls ++ [String.ofList tok.text]) := by
            rw [hen, modify_snoc]
            have hD : s1.decls = { W.decls with enums := W.decls.enums ++ [ls] } := congrArg World.decls hw1
            rw [hw1, hD]
            rfl
          exact this
        · intro l hl' hs
          refine hr l.toList ?_ ?_
          · rw [hen, getElem?_snoc]
            exact List.mem_map_of_mem hl'
          · simpa [SameName] using hs
    · rintro _ _ s2 ⟨rfl, hw2, hn⟩
      refine (ih true (ls ++ [String.ofList tok.text]) (ts0 ++ a) s2 hw2 (literals_snoc hl (by simpa using hd)) ?_ (by simp)).mono ?_
      · rw [List.pairwise_append]
        exact ⟨hp, List.pairwise_singleton _ _, fun x hx y hy => by rw [List.mem_singleton] at hy; subst hy; exact hn x hx⟩
      · rintro any' ts s3 ⟨ls', h1, h2, h3⟩
        exact ⟨ls', h1, by simpa using h2, h3⟩

theorem registerType_rw {name : List Char} {id cls : Nat} {upd : PS → PS} {s : PS}
    (hw : words (upd s) = words s) (hu : ∀ tabs, words { upd s with tabs } = words (upd s)) :
    Rw (P.registerType E name id cls upd) s (fun _ ts s' => ts = [] ∧
      ∃ tabs, Enters s.tabs E.pkg name id cls tabs ∧ s' = { upd s with tabs }) := by
  intro a s' e _
  unfold P.registerType at e
  split at e
  · cases e
  · next T hT =>
    split at e
    · cases e
    · next T' hT' =>
      cases e
      exact ⟨[], by rw [List.nil_append, hu, hw], rfl, _, ⟨T, T', hT, hT', rfl⟩, rfl⟩

theorem parseEnumDecl_rw {rx : Regex} {s : PS} :
    Rw (parseEnumDecl E) s (fun _ ts s' => ItemText E rx (worldOf s) ts (worldOf s')) := by
  unfold parseEnumDecl
  refine rw_bind _ matchKw_rd.rw ?_
  rintro k _ s1 ⟨⟨-, hk, hv, rfl⟩, h1⟩
  refine rw_bind _ parseDescribedName_rd.rw ?_
  rintro name a s2 ⟨hd, h2⟩
  refine rw_get_bind ?_
  have h12 := h1.trans h2
  refine rw_bind _ (registerType_rw rfl fun _ => rfl) ?_
  rintro _ _ s3 ⟨rfl, tabs, hT, rfl⟩
  refine rw_bind _ matchK_rd.rw ?_
  rintro b _ s4 ⟨⟨-, hb, rfl⟩, h4⟩
  refine rw_get_bind ?_
  have hw4 : worldOf s4 = enumIn (worldOf s) tabs [] := by
    rw [worldOf_fr h4, ← worldOf_fr h12]
    rfl
  have hlen : s2.decls.enums.length = (worldOf s).decls.enums.length := by rw [h12.decls]; rfl
  rw [hlen]
  refine rw_bind _ (literalLoop_rw _ false [] [] s4 hw4 .nil .nil (by simp)) ?_
  rintro any ts s5 ⟨ls, hw5, hl, hp, hne⟩
  refine rw_bind _ matchK_rd.rw ?_
  rintro c _ s6 ⟨⟨-, hc, rfl⟩, h6⟩
  refine rw_cond (fun ha => rw_pure ?_) (fun _ => rw_fail)
  rw [worldOf_fr h6, hw5]
  have := ItemText.enum (E := E) (rx := rx) (W := worldOf s) ⟨hk, hv⟩ hd hb hl (hne ha) hp hc
    (tabs := tabs) (by rw [h12.tabs, hlen] at hT; exact hT)
  simpa [enumIn] using this

/-! ## Tuples -/

theorem parseTupleField_rw {N : Names} {t : Nat} {allowed required : Bool} {s : PS} (hN : N.tabs = s.tabs) :
    Rw (parseTupleField E t allowed required) s (fun c ts s' => FieldText E N t s.nid c ts s'.nid ∧ Numbered s s') := by
  unfold parseTupleField
  refine rw_bind (fun _ ts s' => ts = [] ∧ s' = s) (rw_cond (fun _ => rw_crash) (fun _ => rw_pure ⟨rfl, rfl⟩)) ?_
  rintro _ _ s0 ⟨rfl, rfl⟩
  refine rw_bind _ parseDescribedName_rd.rw ?_
  rintro name a s1 ⟨hd, h1⟩
  refine rw_get_bind ?_
  refine rw_bind (fun o ts s' => OptionalText o ts ∧ Fr s1 s') ?_ ?_
  · refine rw_cond (fun _ => ?_) (fun _ => rw_pure ⟨rfl, Fr.refl _⟩)
    refine rw_bind _ matchKw_rd.rw ?_
    rintro k _ s2 ⟨⟨-, hk, hv, rfl⟩, h2⟩
    exact rw_cond (fun _ => rw_pure ⟨⟨k, ⟨hk, hv⟩, rfl⟩, h2⟩) (fun _ => rw_fail)
  rintro o ots s2 ⟨ho, h2⟩
  refine rw_bind _ (parseFieldType_rw ((h1.trans h2).tabs_of hN)) ?_
  rintro τ tts s3 ⟨hτ, h3⟩
  rw [(h1.trans h2).nid] at hτ
  exact rw_pure ⟨⟨rfl, a, ots, tts, by simp, by simpa using hd, ho, hτ⟩, (Numbered.fr (h1.trans h2)).trans h3⟩

theorem addField_rw {cs : List Comp} {c : Comp} {s : PS} :
    Rw (P.addField cs c) s (fun cs' ts s' => ts = [] ∧ cs' = cs ++ [c] ∧ s' = s) := by
  unfold P.addField
  cases registerName (compNames cs) c.name.toList with
  | error e => exact rw_fail
  | ok u => exact rw_pure ⟨rfl, rfl, rfl⟩

theorem parseSeparator_rw {cs : List Comp} {seps : List Sep} {s : PS} :
    Rw (parseSeparator cs seps) s (fun ss ts s' => ((s' = s ∧ s.peek .IDENTIFIER = false) ∨
      ∃ sp x, ts = [x] ∧ ss = seps ++ [sp] ∧ SeparatorTok sp x) ∧ Fr s s') := by
  unfold parseSeparator
  refine rw_get_bind ?_
  split
  · next hn => exact rw_pure ⟨.inl ⟨rfl, by simp [PS.peek, hn]⟩, Fr.refl _⟩
  · next t hn =>
    refine rw_ite (fun hk => ?_) (fun hk => rw_pure ⟨.inl ⟨rfl, ?_⟩, Fr.refl _⟩)
    · refine rw_bind _ (advance_rd hn).rw ?_
      rintro _ _ s1 ⟨⟨rfl, -⟩, h1⟩
      refine rw_ite (fun _ => rw_crash) (fun _ => rw_pure ⟨.inr ⟨_, t, rfl, rfl, ?_⟩, h1⟩)
      by_cases hI : t.kind = .IDENTIFIER
      · rw [if_pos hI]
        exact .inl ⟨hI, rfl⟩
      · rw [if_neg hI]
        simp only [hI, false_or] at hk
        exact .inr ⟨hk, rfl⟩
    · simp only [not_or] at hk
      simp [PS.peek, hn, hk.1]

theorem plain_ne {N : Names} {t n n' : Nat} {cs : List Comp} {ts : List Token} (h : PlainFieldsText E N t n cs ts n') :
    cs ≠ [] := by
  cases h <;> simp

theorem plain_single {N : Names} {t n n' : Nat} {cs : List Comp} {ts : List Token}
    (h : PlainFieldsText E N t n cs ts n') (hl : cs.length = 1) : SepFieldsText E N t n cs [] ts n' := by
  cases h with
  | one h => exact .one h
  | more h _ =>
    have := plain_ne h
    rw [List.length_append, List.length_singleton] at hl
    exact absurd (List.length_eq_zero_iff.1 (by omega)) this

/-- the fields read so far -/
def FieldsSoFar (E : FileEnv) (N : Names) (t n : Nat) (has alw : Bool) (cs : List Comp) (seps : List Sep)
    (ts : List Token) (n' : Nat) : Prop :=
  if has then SepFieldsText E N t n cs seps ts n'
  else seps = [] ∧ PlainFieldsText E N t n cs ts n' ∧ (alw = true → cs.length = 1)

theorem tupleLoop_rw {N : Names} {t n : Nat} : ∀ (k : Nat) (has req alw : Bool) (cs : List Comp) (seps : List Sep)
    (ts0 : List Token) (s : PS), N.tabs = s.tabs → RslInv E.global s →
    FieldsSoFar E N t n has alw cs seps ts0 s.nid →
    Rw (tupleLoop E t k has req alw cs seps) s (fun r ts s' => Numbered s s' ∧
      ∃ alw', FieldsSoFar E N t n r.1 alw' r.2.1 r.2.2 (ts0 ++ ts) s'.nid) := by
  intro k
  induction k with
  | zero => intros; exact rw_crash
  | succ k ih =>
    intro has req alw cs seps ts0 s hN hi h0
    unfold tupleLoop
    refine rw_get_bind ?_
    refine rw_ite (fun _ => ?_) (fun _ => rw_pure ⟨.fr (Fr.refl _), alw, by simpa using h0⟩)
    refine rw_ite (fun hsep => ?_) (fun hsep => ?_)
    · refine rw_bind _ matchKw_rd.rw ?_
      rintro k' _ s1 ⟨⟨-, hk, hv, rfl⟩, h1⟩
      refine rw_ite (fun _ => rw_fail) (fun halw => ?_)
      have halw : alw = true := by simpa using halw
      refine rw_bind _ parseSeparator_rw ?_
      rintro ss xs s2 ⟨hss, h2⟩
      have h12 := h1.trans h2
      have hi2 := hi.ft h12.ft
      refine rw_bind _ ((parseTupleField_rw (h12.tabs_of hN)).sp (parseTupleField_sp hi2)) ?_
      rintro c a s3 ⟨⟨hc, hw3⟩, h3, -, hpk, -⟩
      refine rw_bind _ addField_rw ?_
      rintro _ _ s4 ⟨rfl, rfl, rfl⟩
      rcases hss with ⟨rfl, hno⟩ | ⟨sp, x, rfl, rfl, hx⟩
      · rw [hno] at hpk; cases hpk
      have hsf : SepFieldsText E N t n cs seps ts0 s2.nid := by
        rw [h12.nid]
        unfold FieldsSoFar at h0
        split at h0
        · exact h0
        · obtain ⟨rfl, hp, hl⟩ := h0
          exact plain_single hp (hl halw)
      refine (ih true _ alw (cs ++ [c]) (seps ++ [sp]) (ts0 ++ k' :: x :: a) s4
        (by rw [(h12.tabs_of hN)]; exact hw3.tabs.symm) (hi2.ft h3) ?_).mono ?_
      · exact SepFieldsText.more hsf ⟨hk, hv⟩ hx hc
      · rintro r ts s5 ⟨hw5, alw', h5⟩
        exact ⟨(Numbered.fr h12).trans (hw3.trans hw5), alw', by simpa using h5⟩
    · refine rw_bind _ ((parseTupleField_rw hN).sp (parseTupleField_sp hi)) ?_
      rintro c a s3 ⟨⟨hc, hw3⟩, h3, -⟩
      refine rw_bind _ addField_rw ?_
      rintro _ _ s4 ⟨rfl, rfl, rfl⟩
      have hh : has = false := by
        simp only [Bool.or_eq_true, not_or, Bool.not_eq_true] at hsep
        exact hsep.1
      subst hh
      unfold FieldsSoFar at h0
      simp only [Bool.false_eq_true, if_false] at h0
      obtain ⟨rfl, hp, hl⟩ := h0
      refine (ih false _ false (cs ++ [c]) [] (ts0 ++ a) s4
        (by rw [hN]; exact hw3.tabs.symm) (hi.ft h3) ?_).mono ?_
      · unfold FieldsSoFar
        simp only [Bool.false_eq_true, if_false]
        exact ⟨trivial, .more hp hc, fun h => (by cases h)⟩
      · rintro r ts s5 ⟨hw5, alw', h5⟩
        exact ⟨hw3.trans hw5, alw', by simpa using h5⟩

/-- `W` with another tuple type -/
def tupIn (W : World) (tabs : List STab) (cs : List Comp) (seps : List Sep) (n : Nat) : World :=
  { W with
    tabs
    nid := n
    decls := { W.decls with tups := W.decls.tups ++ [cs] }
    seps := W.seps ++ [seps]
    checks := { W.checks with tups := W.checks.tups ++ [[]] } }

theorem parseTupleDecl_rw {rx : Regex} {s : PS} (hi : RslInv E.global s) :
    Rw (parseTupleDecl E) s (fun _ ts s' => ItemText E rx (worldOf s) ts (worldOf s')) := by
  unfold parseTupleDecl
  refine rw_bind _ matchKw_rd.rw ?_
  rintro k _ s1 ⟨⟨-, hk, hv, rfl⟩, h1⟩
  refine rw_bind _ parseDescribedName_rd.rw ?_
  rintro name a s2 ⟨hd, h2⟩
  refine rw_bind _ matchK_rd.rw ?_
  rintro b _ s3 ⟨⟨-, hb, rfl⟩, h3⟩
  refine rw_get_bind ?_
  have h13 := h1.trans (h2.trans h3)
  have hi3 := hi.ft h13.ft
  have hN : (worldOf s).names.tabs = s3.tabs := h13.tabs_of rfl
  refine rw_bind _ ((parseTupleField_rw hN).sp (parseTupleField_sp hi3)) ?_
  rintro c a4 s4 ⟨⟨hc, hw4⟩, h4, -, -, hin, hrank, hmem, -, hopt⟩
  refine rw_bind _ addField_rw ?_
  rintro _ _ s5 ⟨rfl, rfl, rfl⟩
  refine rw_get_bind ?_
  have hi5 := hi3.ft h4
  have hl5 : s5.decls = s3.decls := hw4.decls
  refine rw_bind _ ((tupleLoop_rw (N := (worldOf s).names) (n := s3.nid) _ false false true [c] [] a4 s5
    (by rw [hN]; exact hw4.tabs.symm) hi5 ⟨rfl, .one hc, fun _ => rfl⟩).sp
    (tupleLoop_sp _ false false true [c] [] s5 hi5 (by omega) ?_ (by simp))) ?_
  · rw [hl5]
    have hco : c.optional = false := by
      cases ho : c.optional with
      | false => rfl
      | true => exact absurd (hopt ho) (by simp)
    refine ⟨⟨c, [], rfl, hco⟩, ⟨by simp, trivial⟩, ?_, List.pairwise_singleton _ _, ?_, ?_, by simp⟩
    · intro _ x hx; rw [List.mem_singleton] at hx; subst hx; exact hco
    · intro x hx; rw [List.mem_singleton] at hx; subst hx; exact ⟨hin, hrank, hmem⟩
    · refine fun _ => ⟨rfl, fun x hx => ?_⟩
      rw [List.mem_singleton] at hx; subst hx; exact hco
  rintro ⟨has, cs, seps⟩ ts s6 ⟨⟨hw6, alw, hf⟩, h6, req, hacc⟩
  refine rw_bind _ matchK_rd.rw ?_
  rintro e _ s7 ⟨⟨-, he, rfl⟩, h7⟩
  refine rw_get_bind ?_
  have hw7 : Numbered s s7 := (Numbered.fr h13).trans (hw4.trans (hw6.trans (.fr h7)))
  refine rw_bind (fun _ ts s' => ts = [] ∧ s' = s7 ∧ (has && cs.any fun c => s7.isSepTuple c.ty) = false)
    (rw_cond (fun _ => rw_fail) (fun h => rw_pure ⟨rfl, rfl, h⟩)) ?_
  rintro _ _ s8 ⟨rfl, rfl, hns⟩
  refine (registerType_rw rfl fun _ => rfl).mono ?_
  rintro _ _ s9 ⟨rfl, tabs, hT, rfl⟩
  have hw9 : ∀ tabs, worldOf { s8 with
      tabs
      decls := { s8.decls with tups := s8.decls.tups ++ [cs] }
      seps := s8.seps ++ [seps]
      checks := { s8.checks with tups := s8.checks.tups ++ [[]] } } = tupIn (worldOf s8) tabs cs seps s8.nid := fun _ => rfl
  have hw8 : worldOf s8 = _ := hw7
  rw [hw9, hw8]
  have hlen : s3.decls.tups.length = (worldOf s).decls.tups.length := by rw [h13.decls]; rfl
  rw [hlen] at hf hT
  rw [h13.nid, ← h7.nid] at hf
  have := ItemText.tuple (E := E) (rx := rx) (W := worldOf s) (cs := cs) (seps := seps) (ts := a4 ++ ts) (c := e) (n := s8.nid)
    ⟨hk, hv⟩ hd hb ⟨hacc.names, ?_⟩ he (tabs := tabs) (by rw [hw7.tabs] at hT; exact hT)
  · simpa [tupIn] using this
  · unfold FieldsSoFar at hf
    cases has with
    | false =>
      obtain ⟨rfl, hp, -⟩ := hf
      exact .inl ⟨rfl, hp, (hacc.none rfl).2⟩
    | true =>
      refine .inr ⟨(hacc.some rfl).1, hf, hacc.tail, hacc.first, ?_⟩
      rintro d hdm ⟨u, ss, hu, hs, hne⟩
      rw [Bool.true_and, List.any_eq_false] at hns
      apply hns d hdm
      have hsp : s8.seps = (worldOf s).seps := hw7.seps
      simp only [PS.isSepTuple, hu, hsp, hs, Option.getD_some, decide_eq_true_eq]
      exact hne

/-! ## Records -/

/-- `W` with another record type -/
def recIn (W : World) (tabs : List STab) (parent : Option Nat) (isAbstract isFinal : Bool) (cs : List Comp)
    (fz : List (String × VNode)) (n : Nat) : World :=
  { W with
    tabs
    nid := n
    decls := Decls.withRec W.decls parent cs
    infos := W.infos ++ [{ frozen := fz, isAbstract, isFinal }]
    checks := { W.checks with recs := W.checks.recs ++ [[]] } }

section
variable {W : World} {tabs : List STab} {parent : Option Nat} {isAbstract isFinal : Bool} {cs : List Comp}
  {fz : List (String × VNode)} {n : Nat}

theorem parentOf_old {t p : Nat} (ht : t < W.decls.recs.length) :
    ParentOf (recIn W tabs parent isAbstract isFinal cs fz n).decls t p ↔ ParentOf W.decls t p := by
  unfold ParentOf recIn Decls.withRec
  simp only [List.getElem?_append_left ht]

theorem extends_old (wf : WFDecls W.decls) {t a : Nat} (ht : t < W.decls.recs.length) :
    Extends (recIn W tabs parent isAbstract isFinal cs fz n).decls t a ↔ Extends W.decls t a := by
  constructor
  · intro h
    induction h with
    | refl _ => exact .refl ht
    | step hp _ ih =>
      have hp' := (parentOf_old ht).1 hp
      exact .step hp' (ih (Nat.lt_trans (wf _ _ hp') ht))
  · intro h
    induction h with
    | refl _ => exact .refl (by simp [recIn, Decls.withRec]; omega)
    | step hp _ ih =>
      exact .step ((parentOf_old ht).2 hp) (ih (Nat.lt_trans (wf _ _ hp) ht))

theorem parentOf_new {p : Nat} :
    ParentOf (recIn W tabs parent isAbstract isFinal cs fz n).decls W.decls.recs.length p ↔ parent = some p := by
  unfold ParentOf recIn Decls.withRec
  simp

theorem extends_new (wf : WFDecls W.decls) (hp : ∀ p, parent = some p → p < W.decls.recs.length) {a : Nat} :
    Extends (recIn W tabs parent isAbstract isFinal cs fz n).decls W.decls.recs.length a ↔
      a = W.decls.recs.length ∨ ∃ p, parent = some p ∧ Extends W.decls p a := by
  constructor
  · intro h
    cases h with
    | refl _ => exact .inl rfl
    | step h1 h2 =>
      rw [parentOf_new] at h1
      exact .inr ⟨_, h1, (extends_old wf (hp _ h1)).1 h2⟩
  · rintro (rfl | ⟨p, h1, h2⟩)
    · exact .refl (by simp [recIn, Decls.withRec])
    · exact .step (parentOf_new.2 h1) ((extends_old wf (hp p h1)).2 h2)

theorem declares_old {t : Nat} {c : Comp} (ht : t < W.decls.recs.length) :
    Declares (recIn W tabs parent isAbstract isFinal cs fz n).decls t c ↔ Declares W.decls t c := by
  unfold Declares recIn Decls.withRec
  simp only [List.getElem?_append_left ht]

theorem hasComp_new (wf : WFDecls W.decls) (hp : ∀ p, parent = some p → p < W.decls.recs.length) {c : Comp} :
    HasComp (recIn W tabs parent isAbstract isFinal cs fz n).decls W.decls.recs.length c ↔
      Inherits W parent c ∨ c ∈ cs := by
  constructor
  · rintro ⟨a, h1, h2⟩
    rw [extends_new wf hp] at h1
    rcases h1 with rfl | ⟨p, h1, h3⟩
    · obtain ⟨r, hr, hc⟩ := h2
      simp only [recIn, Decls.withRec, getElem?_snoc, Option.some.injEq] at hr
      subst hr
      exact .inr hc
    · exact .inl ⟨p, h1, a, h3, (declares_old (extends_declared h3).2).1 h2⟩
  · rintro (⟨p, h1, a, h3, h2⟩ | hc)
    · exact ⟨a, (extends_new wf hp).2 (.inr ⟨p, h1, h3⟩), (declares_old (extends_declared h3).2).2 h2⟩
    · exact ⟨_, (extends_new wf hp).2 (.inl rfl), _, by simp only [recIn, Decls.withRec]; rw [getElem?_snoc], hc⟩

theorem frozen_new (wf : WFDecls W.decls) (hp : ∀ p, parent = some p → p < W.decls.recs.length)
    (hl : W.infos.length = W.decls.recs.length) {nm : String} :
    (∃ a, Extends (recIn W tabs parent isAbstract isFinal cs fz n).decls W.decls.recs.length a ∧
      Freezes (recIn W tabs parent isAbstract isFinal cs fz n).infos a nm) ↔
      FrozenAbove W parent nm ∨ nm ∈ fz.map Prod.fst := by
  constructor
  · rintro ⟨a, h1, i, hi, hn⟩
    rw [extends_new wf hp] at h1
    rcases h1 with rfl | ⟨p, h1, h3⟩
    · rw [← hl] at hi
      simp only [recIn, Decls.withRec, getElem?_snoc, Option.some.injEq] at hi
      subst hi
      exact .inr hn
    · refine .inl ⟨p, a, h1, h3, i, ?_, hn⟩
      simp only [recIn] at hi
      rwa [List.getElem?_append_left (by rw [hl]; exact (extends_declared h3).2)] at hi
  · rintro (⟨p, a, h1, h3, i, hi, hn⟩ | hn)
    · refine ⟨a, (extends_new wf hp).2 (.inr ⟨p, h1, h3⟩), i, ?_, hn⟩
      simp only [recIn]
      rwa [List.getElem?_append_left (by rw [hl]; exact (extends_declared h3).2)]
    · exact ⟨_, (extends_new wf hp).2 (.inl rfl), _, by simp only [recIn]; rw [← hl, getElem?_snoc], hn⟩
end

theorem parseComponent_rw {N : Names} {t : Nat} {s : PS} (hN : N.tabs = s.tabs) :
    Rw (parseComponent E t) s (fun c ts s' => MemberText (CompTypeText E N) s.nid c ts s'.nid ∧ Numbered s s') := by
  unfold parseComponent
  refine rw_bind _ parseDescribedName_rd.rw ?_
  rintro name a s1 ⟨hd, h1⟩
  refine rw_get_bind ?_
  refine rw_bind (fun o ts s' => OptionalText o ts ∧ Fr s1 s') ?_ ?_
  · refine rw_cond (fun _ => ?_) (fun _ => rw_pure ⟨rfl, Fr.refl _⟩)
    refine rw_bind _ matchKw_rd.rw ?_
    rintro k _ s2 ⟨⟨-, hk, hv, rfl⟩, h2⟩
    exact rw_pure ⟨⟨k, ⟨hk, hv⟩, rfl⟩, h2⟩
  rintro o ots s2 ⟨ho, h2⟩
  refine rw_bind _ (parseFieldType_rw ((h1.trans h2).tabs_of hN)) ?_
  rintro τ tts s3 ⟨hτ, h3⟩
  rw [(h1.trans h2).nid] at hτ
  refine rw_bind _ (parseArrayType_rw hτ) ?_
  rintro τ' ats s4 ⟨hτ', h4⟩
  exact rw_pure ⟨⟨a, ots, tts ++ ats, by simp, by simpa using hd, ho, hτ'⟩,
    (Numbered.fr (h1.trans h2)).trans (h3.trans h4)⟩

section
variable {W : World} {tabs : List STab} {parent : Option Nat} {isAbstract isFinal : Bool}

theorem parseFreeze_rw {cs : List Comp} {fz : List (String × VNode)} {ts0 : List Token} {s : PS}
    (hs : SoundDecls W.decls W.infos W.seps) (hp : ∀ p, parent = some p → p < W.decls.recs.length)
    (hi : RslInv E.global s) (hw : worldOf s = recIn W tabs parent isAbstract isFinal cs fz s.nid)
    (h0 : MembersText E { W.names with tabs } W parent cs fz ts0 s.nt s.nid) :
    Rw (parseFreeze E W.decls.recs.length) s (fun _ ts s' => ∃ fz',
      worldOf s' = recIn W tabs parent isAbstract isFinal cs fz' s'.nid ∧
      MembersText E { W.names with tabs } W parent cs fz' (ts0 ++ ts) s'.nt s'.nid) := by
  unfold parseFreeze
  refine rw_bind _ matchKw_rd.rw ?_
  rintro k _ s1 ⟨⟨hnk, hk, hv, rfl⟩, h1⟩
  rw [hnk] at h0
  refine rw_bind _ matchK_rd.rw ?_
  rintro x _ s2 ⟨⟨-, hx, rfl⟩, h2⟩
  refine rw_get_bind ?_
  refine rw_bind _ liftSym_rd.rw ?_
  rintro _ _ s3 ⟨⟨rfl, -, rfl⟩, -⟩
  have h12 := h1.trans h2
  have hi3 := hi.ft h12.ft
  have hw3 : worldOf s3 = recIn W tabs parent isAbstract isFinal cs fz s.nid := by rw [worldOf_fr h12, hw]
  have hD3 : s3.decls = (recIn W tabs parent isAbstract isFinal cs fz s.nid).decls := congrArg World.decls hw3
  have hI3 : s3.infos = (recIn W tabs parent isAbstract isFinal cs fz s.nid).infos := congrArg World.infos hw3
  have wf := hi3.sound.world.wf
  split
  · exact rw_crash
  · next c hc =>
    obtain ⟨hc1, hc2⟩ := component_hasComp wf hc
    refine rw_ite (fun _ => rw_fail) (fun hnf => ?_)
    have hty := hi3.sound.world.types _ c hc1
    have hcin : Inherits W parent c ∨ c ∈ cs := by
      rw [hD3, hasComp_new hs.world.wf hp] at hc1
      exact hc1
    have hfz : ¬ (FrozenAbove W parent c.name ∨ c.name ∈ fz.map Prod.fst) := by
      rw [← frozen_new (tabs := tabs) (isAbstract := isAbstract) (isFinal := isFinal) (cs := cs) (n := s.nid)
        hs.world.wf hp hs.infoLen]
      rintro ⟨a, ha, i, hia, hmem⟩
      apply hnf
      rw [isFrozen_iff wf]
      cases hl : i.frozen.lookup c.name with
      | none =>
        rw [List.lookup_eq_none_iff] at hl
        obtain ⟨x, hx, e⟩ := List.mem_map.1 hmem
        have := hl x hx
        rw [e] at this
        simp at this
      | some node => exact ⟨node, a, i, hD3 ▸ ha, hI3 ▸ hia, hl⟩
    refine rw_bind _ matchK_rd.rw ?_
    rintro y _ s4 ⟨⟨-, hy, rfl⟩, h4⟩
    have hpv := parseValue_rd (E := E) wf hi3.sound.world.tuples s3.decls.typeDepth c.ty hty.1
      s4 h4.decls s4 (Fr.refl _)
    refine rw_bind _ hpv.rwe ?_
    rintro v r s5 ⟨hv', h5⟩
    have hw5 : worldOf s5 = recIn W tabs parent isAbstract isFinal cs fz s.nid := by
      rw [worldOf_fr (h4.trans h5), hw3]
    intro a s6 e _
    cases e
    have hn5 : s5.nid = s.nid := (h12.trans (h4.trans h5)).nid
    refine ⟨[], rfl, fz ++ [(c.name, ⟨s5.nid, v⟩)], ?_, ?_⟩
    · have hI5 : s5.infos = W.infos ++ [⟨fz, isAbstract, isFinal⟩] := congrArg World.infos hw5
      have : ({ worldOf s5 with nid := s5.nid + 1, infos := s5.infos.modify W.decls.recs.length fun i =>
          { i with frozen := i.frozen ++ [(c.name, (⟨s5.nid, v⟩ : VNode))] } } : World) =
          recIn W tabs parent isAbstract isFinal cs (fz ++ [(c.name, ⟨s5.nid, v⟩)]) (s5.nid + 1) := by
        rw [hI5, ← hs.infoLen, modify_snoc, hw5]
        rfl
      exact this
    · have hw4 : worldOf s4 = recIn W tabs parent isAbstract isFinal cs fz s.nid := by rw [worldOf_fr h4, hw3]
      have hN4 : namesOf s4 = { W.names with tabs, decls := Decls.withRec W.decls parent cs } :=
        congrArg World.names hw4
      rw [hN4] at hv'
      have := MembersText.freeze h0 ⟨hk, hv⟩ hx hc2 hcin (fun h => hfz (.inl h)) (fun h => hfz (.inr h)) hy hv'
      rw [← hn5] at this
      simpa using this

theorem recordLoop_rw (hs : SoundDecls W.decls W.infos W.seps)
    (hp : ∀ p, parent = some p → p < W.decls.recs.length) : ∀ (k : Nat) (cs : List Comp)
    (fz : List (String × VNode)) (ts0 : List Token) (s : PS), RslInv E.global s → s.toks < k →
    worldOf s = recIn W tabs parent isAbstract isFinal cs fz s.nid →
    MembersText E { W.names with tabs } W parent cs fz ts0 s.nt s.nid → (isFinal = true → cs = []) →
    Rw (recordLoop E W.decls.recs.length k) s (fun _ ts s' => ∃ cs' fz',
      worldOf s' = recIn W tabs parent isAbstract isFinal cs' fz' s'.nid ∧
      MembersText E { W.names with tabs } W parent cs' fz' (ts0 ++ ts) s'.nt s'.nid ∧
      (isFinal = true → cs' = [])) := by
  intro k
  induction k with
  | zero => intros; exact rw_crash
  | succ k ih =>
    intro cs fz ts0 s hi hk hw h0 hf
    have hlen : W.decls.recs.length + 1 = s.decls.recs.length := by
      have : s.decls.recs = W.decls.recs ++ [⟨parent, cs⟩] := congrArg (fun w => w.decls.recs) hw
      rw [this]; simp
    unfold recordLoop
    refine rw_get_bind ?_
    refine rw_ite (fun _ => rw_pure ⟨cs, fz, hw, by simpa using h0, hf⟩) (fun _ => rw_ite (fun _ => ?_) (fun _ => ?_))
    · refine rw_bind _ ((parseFreeze_rw hs hp hi hw h0).sp
        (parseFreeze_sp (ne := 0) (nr := 0) hi hlen (Nat.zero_le _))) ?_
      rintro _ ts s1 ⟨⟨fz', hw1, h1⟩, hr1, hlt, -⟩
      refine (ih cs fz' (ts0 ++ ts) s1 (hr1.inv hi) (by omega) hw1 h1 hf).mono ?_
      rintro _ ts' s2 ⟨cs', fz'', h2, h3, h4⟩
      exact ⟨cs', fz'', h2, by simpa using h3, h4⟩
    · have hN : ({ W.names with tabs } : Names).tabs = s.tabs := (congrArg World.tabs hw).symm
      refine rw_bind _ ((parseComponent_rw hN).nt.sp (parseComponent_sp hi)) ?_
      rintro c a s1 ⟨⟨hnt, hc, hw1⟩, hr1, hlt, hin, hrank, hmem⟩
      rw [hnt] at h0
      have hw1' : worldOf s1 = recIn W tabs parent isAbstract isFinal cs fz s1.nid := by
        have hw1 : worldOf s1 = _ := hw1
        rw [hw1, hw]; rfl
      have hi1 := hi.ft hr1
      have hD1 : s1.decls = s.decls := hw1.decls
      refine rw_get_bind ?_
      refine rw_ite (fun _ => rw_fail) (fun hnf => ?_)
      have hfin : isFinal = false := by
        have : s1.infos = W.infos ++ [⟨fz, isAbstract, isFinal⟩] := congrArg World.infos hw1'
        simpa [PS.info, this, ← hs.infoLen] using hnf
      have hD1' : s1.decls = (recIn W tabs parent isAbstract isFinal cs fz s1.nid).decls := congrArg World.decls hw1'
      refine rw_bind (fun _ ts s' => (ts = [] ∧ s'.nt = s1.nt ∧ s'.nid = s1.nid ∧
        worldOf s' = recIn W tabs parent isAbstract isFinal (cs ++ [c]) fz s'.nid ∧ ∀ d, Inherits W parent d ∨ d ∈ cs → ¬ SameName d.name c.name) ∧ Rs E.global 0 0 s1 s' ∧ s'.toks = s1.toks ∧
          s'.decls.recs.length = s1.decls.recs.length) ?_ ?_
      · refine Rw.sp ?_ (addComponent_sp hi1 (by rw [hD1]; exact hlen) (Nat.zero_le _) hmem
          (by rw [hD1]; exact hin) (by rw [hD1]; exact hrank) (by simpa using hnf))
        intro u s2 e _
        unfold P.addComponent at e
        split at e
        · cases e
        · next hr =>
          cases e
          rw [registerName_ok] at hr
          refine ⟨[], rfl, rfl, rfl, rfl, ?_, ?_⟩
          · have hrec : s1.decls.recs = W.decls.recs ++ [⟨parent, cs⟩] := congrArg (fun w => w.decls.recs) hw1'
            have : ({ worldOf s1 with decls := { s1.decls with recs := s1.decls.recs.modify W.decls.recs.length fun r => { r with own := r.own ++ [c] } } } : World) =
                recIn W tabs parent isAbstract isFinal (cs ++ [c]) fz s1.nid := by
              rw [hrec, modify_snoc, hw1', hD1']
              rfl
            exact this
          · intro d hd hsn
            refine hr d.name.toList ?_ hsn
            refine List.mem_map_of_mem ((mem_allComponents hi1.sound.world.wf _ d).2 ?_)
            rw [hD1', hasComp_new hs.world.wf hp]
            exact hd
      · rintro _ _ s2 ⟨⟨rfl, hnt2, hid2, hw2, hn⟩, hr2, ht2, -⟩
        have := MembersText.comp h0 hmem hc hn
        rw [← hnt2, ← hid2] at this
        refine (ih (cs ++ [c]) fz (ts0 ++ a) s2 (hr2.inv hi1) (by omega) hw2 this (by simp [hfin])).mono ?_
        rintro _ ts' s3 ⟨cs', fz'', h2, h3, h4⟩
        exact ⟨cs', fz'', h2, by simpa using h3, h4⟩
end

theorem registerRecord_sp {s : PS} (hi : RslInv E.global s) {p : Option Nat} {isAbs : Bool} {name : List Char}
    (hp : ∀ q, p = some q → q < s.decls.recs.length) :
    Sp (Rs E.global 0 0) (P.registerType E name s.decls.recs.length clsRecord fun s =>
      { s with
        decls := { s.decls with recs := s.decls.recs ++ [{ parent := p, own := [] }] }
        infos := s.infos ++ [{ frozen := [], isAbstract := isAbs,
                               isFinal := p.any fun p => (s.info p).isFinal }]
        checks := { s.checks with recs := s.checks.recs ++ [[]] } }) s (fun _ _ => True) := by
  refine (registerType_sp (name := name) (cls := clsRecord) (id := s.decls.recs.length) (ne := 0) (nr := 0)
    (upd := fun s => { s with
      decls := { s.decls with recs := s.decls.recs ++ [{ parent := p, own := [] }] }
      infos := s.infos ++ [{ frozen := [], isAbstract := isAbs,
                             isFinal := p.any fun p => (s.info p).isFinal }]
      checks := { s.checks with recs := s.checks.recs ++ [[]] } })
    hi rfl ?_ (sound_addRec hi.sound hp rfl ?_) ?_ hi.ctups rfl ?_
    (grow_addRec (p := p)) ?_ ?_ (fun _ _ => rfl) List.prefix_rfl ckIn_newRec rfl rfl rfl rfl).mono
    fun _ _ _ _ => trivial
  · intro c
    by_cases hc : c = clsRecord
    · subst hc; simp [cnt]
    · simp [cnt, hc]
  · rintro q rfl ⟨i, h5, h6⟩
    simp [PS.info, h5, h6]
  · simp [hi.crecs]
  · refine hi.frozenBefore.sub (Nat.le_refl _) fun i hmem f hf => ?_
    rcases List.mem_append.1 hmem with h | h
    · exact ⟨i, h, hf⟩
    · rw [List.mem_singleton] at h; subst h; cases hf
  · intro t ht; omega
  · intro t ht; omega

theorem parseRecordDecl_rw {rx : Regex} {s : PS} (hi : RslInv E.global s) :
    Rw (parseRecordDecl E) s (fun _ ts s' => ItemText E rx (worldOf s) ts (worldOf s')) := by
  unfold parseRecordDecl
  refine rw_get_bind ?_
  refine rw_bind (fun m ts s' => ModifierText m.1 m.2 ts ∧ Fr s s') ?_ ?_
  · refine rw_cond (fun _ => ?_) (fun _ => rw_cond (fun _ => ?_) (fun _ => rw_pure ⟨.inl ⟨rfl, rfl, rfl⟩, Fr.refl _⟩))
    · refine rw_bind _ matchKw_rd.rw ?_
      rintro k _ s1 ⟨⟨-, hk, hv, rfl⟩, h1⟩
      exact rw_pure ⟨.inr (.inl ⟨k, rfl, ⟨hk, hv⟩, rfl, rfl⟩), h1⟩
    · refine rw_bind _ matchKw_rd.rw ?_
      rintro k _ s1 ⟨⟨-, hk, hv, rfl⟩, h1⟩
      exact rw_pure ⟨.inr (.inr ⟨k, rfl, ⟨hk, hv⟩, rfl, rfl⟩), h1⟩
  rintro ⟨isAbs, isFin⟩ m s1 ⟨hm, h1⟩
  refine rw_bind _ matchKw_rd.rw ?_
  rintro k _ s2 ⟨⟨-, hk, hv, rfl⟩, h2⟩
  refine rw_bind _ parseDescribedName_rd.rw ?_
  rintro name a s3 ⟨hd, h3⟩
  refine rw_get_bind ?_
  have h13 := h1.trans (h2.trans h3)
  refine rw_bind (fun p ts s' => ExtendsText E (worldOf s).names p ts ∧ Fr s3 s' ∧
    ∀ q, p = some q → q < s.decls.recs.length) ?_ ?_
  · refine rw_cond (fun _ => ?_) (fun _ => rw_pure ⟨.inl ⟨rfl, rfl⟩, Fr.refl _, by simp⟩)
    refine rw_bind _ matchKw_rd.rw ?_
    rintro x _ s4 ⟨⟨-, hxk, hxv, rfl⟩, h4⟩
    have h14 := h13.trans h4
    refine rw_bind _ ((qualifiedName_rd (N := (worldOf s).names) (h14.tabs_of rfl)).rw.sp
      (parseQualifiedName_ent (hi.ft h14.ft))) ?_
    rintro e b s5 ⟨⟨⟨he, hc⟩, h5⟩, -, -, -, hent⟩
    have hc : e.cls = clsRecord := by simpa using hc
    refine rw_pure ⟨.inr ⟨x, b, e, by simp, ⟨hxk, hxv⟩, he, hc, rfl⟩, h4.trans h5, ?_⟩
    intro q hq
    cases hq
    have := hent.1 hc
    rwa [h14.decls] at this
  rintro p x s4 ⟨hx, h4, hp⟩
  refine rw_get_bind ?_
  have h14 := h13.trans h4
  have hi4 := hi.ft h14.ft
  have hD4 : s4.decls = s.decls := h14.decls
  refine rw_bind _ ((registerType_rw rfl fun _ => rfl).sp
    (registerRecord_sp hi4 (by rw [hD4]; exact hp))) ?_
  rintro _ _ s5 ⟨⟨rfl, tabs, hT, rfl⟩, hr5, -⟩
  have hi5 := hr5.inv hi4
  refine rw_bind _ matchK_rd.rw ?_
  rintro b _ s6 ⟨⟨-, hb, rfl⟩, h6⟩
  refine rw_get_bind ?_
  have hw6 : worldOf s6 = recIn (worldOf s) tabs p isAbs (p.any fun p => (s.info p).isFinal) [] [] s.nid := by
    rw [worldOf_fr h6]
    have : (p.any fun p => (s4.info p).isFinal) = p.any fun p => (s.info p).isFinal := by
      unfold PS.info; rw [h14.infos]
    rw [← worldOf_fr h14, ← this, ← h14.nid]
    rfl
  have hn6 : s6.nid = (worldOf s).nid := h6.nid.trans h14.nid
  have hlen : s4.decls.recs.length = (worldOf s).decls.recs.length := by rw [hD4]; rfl
  rw [hlen] at hT ⊢
  have hs : SoundDecls (worldOf s).decls (worldOf s).infos (worldOf s).seps := hi.sound
  refine rw_bind _ (recordLoop_rw (E := E) (W := worldOf s) hs hp (s6.toks + 1) [] [] [] s6 (hi5.ft h6.ft)
    (Nat.lt_succ_self _) (by rw [hn6]; exact hw6) (by rw [hn6]; exact .nil) (fun _ => rfl)) ?_
  rintro _ ts s7 ⟨cs, fz, hw7, hmem, hfin⟩
  refine rw_bind _ matchK_rd.rw ?_
  rintro c _ s8 ⟨⟨hn7, hc, rfl⟩, h8⟩
  rw [hn7] at hmem
  have hw8 := (worldOf_fr h8).trans hw7
  have hpf : (p.any fun p => (s.info p).isFinal) = true ↔ ∃ q, p = some q ∧ Final (worldOf s).infos q := by
    cases p with
    | none => simp
    | some q =>
      simp only [Option.any_some, Option.some.injEq, exists_eq_left', PS.info, Final]
      show _ ↔ ∃ i, s.infos[q]? = some i ∧ _
      cases h : s.infos[q]? with
      | none => simp
      | some i => simp
  have fin : ∀ W', W' = recIn (worldOf s) tabs p isAbs (isFin || p.any fun p => (s.info p).isFinal) cs fz s7.nid →
      ItemText E rx (worldOf s) (m ++ k :: a ++ x ++ b :: ts ++ [c]) W' := by
    rintro _ rfl
    exact ItemText.record hm ⟨hk, hv⟩ hd hx hpf (by rw [h14.tabs] at hT; exact hT) hb (by simpa using hmem) hfin hc
  refine rw_cond (fun hf => ?_) (fun hf => rw_pure ?_)
  · intro u s9 e _
    cases e
    refine ⟨[], rfl, ?_⟩
    have := fin { worldOf s8 with infos := s8.infos.modify (worldOf s).decls.recs.length fun i => { i with isFinal := true } } ?_
    · simpa [worldOf] using this
    · have hI8 : s8.infos = (worldOf s).infos ++ [⟨fz, isAbs, p.any fun p => (s.info p).isFinal⟩] :=
        congrArg World.infos hw8
      rw [hI8, ← hs.infoLen, modify_snoc, hw8]
      simp [recIn, hf]
  · have := fin (worldOf s8) (by rw [hw8, hf]; simp)
    simpa using this

theorem parseTypeDecl_rw {rx : Regex} {s : PS} (hi : RslInv E.global s) :
    Rw (parseTypeDecl E) s (fun _ ts s' => ItemText E rx (worldOf s) ts (worldOf s')) := by
  unfold parseTypeDecl
  refine rw_get_bind ?_
  exact rw_ite (fun _ => parseEnumDecl_rw) fun _ => rw_ite (fun _ => parseTupleDecl_rw hi)
    fun _ => parseRecordDecl_rw hi

/-! ## Checks -/

theorem mem_componentsOf {D : Decls} (wf : WFDecls D) {ct : CompositeTy} {c : Comp} :
    c ∈ D.componentsOf ct ↔ CompOf D ct c := by
  cases ct with
  | record t => exact mem_allComponents wf t c
  | tup t =>
    simp only [Decls.componentsOf, Decls.fields, CompOf]
    cases h : D.tups[t]? with
    | none => simp
    | some cs => simp

theorem find_unique {cs : List Comp} {c : Comp} (h : cs.Pairwise fun c c' => ¬ SameName c.name c'.name)
    (hc : c ∈ cs) : cs.find? (·.name == c.name) = some c := by
  induction h with
  | nil => cases hc
  | cons h1 _ ih =>
    rcases List.mem_cons.1 hc with rfl | hc
    · simp
    · rw [List.find?_cons_of_neg, ih hc]
      intro e
      exact h1 c hc (by rw [beq_iff_eq.1 e]; rfl)

theorem compIn_iff {D : Decls} {infos : List RecInfo} {seps : List (List Sep)} (hs : SoundDecls D infos seps)
    {ct : CompositeTy} {n : String} {c : Comp} : D.compIn ct n = some c ↔ CompOf D ct c ∧ c.name = n := by
  cases ct with
  | record t =>
    constructor
    · exact fun h => component_hasComp hs.world.wf h
    · rintro ⟨hc, rfl⟩
      show D.component t c.name = some c
      cases h : D.component t c.name with
      | some c' =>
        obtain ⟨h1, h2⟩ := component_hasComp hs.world.wf h
        rw [hs.similar t c' c h1 hc (by rw [h2]; rfl)]
      | none =>
        obtain ⟨u, hu, hd⟩ := hc
        have h1 := List.findSome?_eq_none_iff.1 h u ((mem_ancestors hs.world.wf t u).2 hu)
        have h2 := List.find?_eq_none.1 h1 c ((mem_own u c).2 hd)
        simp at h2
  | tup t =>
    simp only [Decls.compIn, Decls.fields, CompOf]
    cases h : D.tups[t]? with
    | none => simp
    | some cs =>
      simp only [Option.getD_some, Option.some.injEq, exists_eq_left']
      constructor
      · intro h
        exact ⟨List.mem_of_find?_eq_some h, by simpa using List.find?_some h⟩
      · rintro ⟨hc, rfl⟩
        exact find_unique (hs.similarFields t cs h) hc

theorem parseSeverity_rd {s : PS} : Rd parseSeverity s (fun sev ts _ => SeverityText sev ts) := by
  unfold parseSeverity
  refine rd_get_bind ?_
  refine rd_ite (fun _ => ?_) (fun _ => rd_pure (.inl ⟨rfl, rfl⟩))
  refine rd_bind _ matchK_rd ?_
  rintro k _ s1 h1 - ⟨-, hk, rfl⟩
  refine rd_ite (fun h => rd_pure (.inr ⟨k, rfl, hk, ?_⟩)) (fun _ => rd_ite (fun h => rd_pure (.inr ⟨k, rfl, hk, ?_⟩))
    (fun _ => rd_ite (fun h => rd_pure (.inr ⟨k, rfl, hk, ?_⟩)) (fun _ => rd_fail)))
  all_goals
    unfold Token.text at h
    split at h
    · next v hv => rw [hv, h]
    · cases h

theorem parseMessage_rw {s : PS} : Rw parseMessage s (fun msg ts s' => (∃ m, ts = [m] ∧ m.kind = .STRING ∧
    msg = String.ofList m.text ∧ '\n' ∉ m.text) ∧ Fr s s') := by
  unfold parseMessage
  refine rw_bind _ matchK_rd.rw ?_
  rintro m _ s1 ⟨⟨-, hm, rfl⟩, h1⟩
  refine rw_bind (fun _ ts s' => (ts = [] ∧ '\n' ∉ m.text) ∧ Fr s1 s') ?_ ?_
  · refine Rd.rwe (cond_report_rd.mono ?_)
    exact fun _ _ _ _ h he => ⟨h.1, by simpa using h.2 he⟩
  rintro _ _ s2 ⟨⟨rfl, hn⟩, h2⟩
  refine rw_pure ⟨⟨m, rfl, hm, ?_, hn⟩, h1.trans h2⟩
  congr 1
  conv => rhs; rw [← List.map_id m.text]
  refine List.map_congr_left fun c hc => ?_
  rw [if_neg (by rintro rfl; exact hn hc), id]

theorem parseAnchor_rd {ct : CompositeTy} {s : PS} (wf : WFDecls s.decls) :
    Rd (parseAnchor ct) s (fun a ts _ => ∃ x m, ts = [x] ∧ x.kind = .IDENTIFIER ∧ a = some (String.ofList x.text) ∧
      CompOf s.decls ct m ∧ m.name = String.ofList x.text) := by
  unfold parseAnchor
  refine rd_bind _ matchK_rd ?_
  rintro x _ s1 h1 - ⟨-, hx, rfl⟩
  refine rd_get_bind ?_
  refine rd_bind _ liftSym_rd ?_
  rintro _ _ s2 - - ⟨rfl, hl, rfl⟩
  obtain ⟨m, hm, he⟩ := List.mem_map.1 (lookupName_ok hl)
  rw [h1.decls] at hm
  refine rd_pure ⟨x, m, rfl, hx, rfl, (mem_componentsOf wf).1 hm, ?_⟩
  rw [← he]; simp

theorem parseExtras_rd {ct : CompositeTy} {s : PS} (wf : WFDecls s.decls) :
    Rd (parseExtras ct) s (fun a ts _ => ExtrasText s.decls ct a ts) := by
  unfold parseExtras
  refine rd_get_bind ?_
  refine rd_ite (fun _ => ?_) (fun _ => rd_pure ⟨[], [], rfl, .inl rfl, rfl⟩)
  refine rd_bind _ matchK_rd ?_
  rintro c _ s1 h1 - ⟨-, hc, rfl⟩
  refine rd_get_bind ?_
  refine rd_ite (fun _ => ?_) (fun _ => rd_ite (fun _ => ?_)
    (fun _ => rd_ite (fun _ => rd_crash) (fun _ => rd_fail)))
  · refine (parseAnchor_rd (by rw [h1.decls]; exact wf)).mono ?_
    rintro a _ s2 h2 ⟨x, m, rfl, hx, rfl, hm, hn⟩
    rw [h1.decls] at hm
    exact ⟨[], [c, x], rfl, .inl rfl, c, x, m, rfl, hc, hx, rfl, hm, hn⟩
  · refine rd_bind _ matchK_rd ?_
    rintro d _ s2 h2 - ⟨-, hd, rfl⟩
    refine rd_get_bind ?_
    refine rd_ite (fun _ => ?_) (fun _ => rd_pure ⟨[c, d], [], rfl, .inr ⟨c, d, rfl, hc, hd⟩, rfl⟩)
    refine rd_bind _ matchK_rd ?_
    rintro c' _ s3 h3 - ⟨-, hc', rfl⟩
    have hD : s3.decls = s.decls := (h1.trans (h2.trans h3)).decls
    refine (parseAnchor_rd (by rw [hD]; exact wf)).mono ?_
    rintro a _ s4 h4 ⟨x, m, rfl, hx, rfl, hm, hn⟩
    rw [hD] at hm
    exact ⟨[c, d], [c', x], rfl, .inr ⟨c, d, rfl, hc, hd⟩, c', x, m, rfl, hc', hx, rfl, hm, hn⟩

theorem parseCheck_rw {rx : Regex} {ct : CompositeTy} {s : PS} (hi : RslInv E.global s) :
    Rw (parseCheck E rx ct) s (fun _ ts s' => ∃ k, CheckText E rx (worldOf s) ct k ts ∧
      worldOf s' = (worldOf s).withChecks ct [k]) := by
  unfold parseCheck
  refine rw_get_bind ?_
  refine rw_bind (fun e ts s' => (∃ r, GExpr E (namesOf s) (ValueNames (s.decls.compIn ct) []) ts r ∧
      Raw.elab ⟨s.decls, rx.search, rx.valid⟩ (scopeIn E (namesOf s) (s.decls.compIn ct) []) r = .ok e) ∧ Fr s s') ?_ ?_
  · intro e s' hr _
    have h1 := parseExpr_tot (E := E) (X := ⟨s.decls, rx.search, rx.valid⟩) (s.toks + 1)
      ⟨s.scope E, s.decls.compIn ct, []⟩ s (by omega)
    obtain ⟨ts, hst, r, hg, he⟩ := parseExpr_snd ⟨E, ⟨s.decls, rx.search, rx.valid⟩, namesOf s, s.decls.compIn ct⟩
        (s.toks + 1) [] s rfl e s' hr
    exact ⟨ts, hst.words, ⟨r, hg, he⟩, (h1.ok hr).1⟩
  rintro e ets s1 ⟨⟨r, hg, he⟩, h1⟩
  refine rw_bind (fun _ ts s' => ts = [] ∧ s' = s1 ∧ e.typ = some .bool) (rw_cond
    (fun hb => rw_pure ⟨rfl, rfl, by simpa using hb⟩) (fun _ => rw_fail)) ?_
  rintro _ _ s2 ⟨rfl, rfl, hb⟩
  refine rw_bind _ matchK_rd.rw ?_
  rintro c _ s3 ⟨⟨-, hc, rfl⟩, h3⟩
  refine rw_bind _ parseSeverity_rd.rw ?_
  rintro sev sts s4 ⟨hsev, h4⟩
  refine rw_bind _ parseMessage_rw ?_
  rintro msg _ s5 ⟨⟨m, rfl, hm, rfl, hn⟩, h5⟩
  have h15 := h1.trans (h3.trans (h4.trans h5))
  refine rw_bind _ (parseExtras_rd (by rw [h15.decls]; exact hi.sound.world.wf)).rw ?_
  rintro anchor xts s6 ⟨hx, h6⟩
  rw [h15.decls] at hx
  intro u s7 e7 _
  cases e7
  refine ⟨[], by cases ct <;> rfl, ⟨e, sev, String.ofList m.text, anchor⟩, ?_, ?_⟩
  · refine ⟨s.decls.compIn ct, ets, r, c, sts, m, xts, by simp, ?_, hg, ?_, hc, hsev, hm, rfl, hn, hx⟩
    · exact fun n d => compIn_iff hi.sound
    · show elabCheck ⟨s.decls, rx.search, rx.valid⟩ (scopeIn E (namesOf s) (s.decls.compIn ct) []) r = .ok e
      unfold elabCheck
      rw [he]
      simp [El.bind, hb]
  · have hw6 := worldOf_fr (h15.trans h6)
    rw [← hw6]
    cases ct <;> rfl

theorem withChecks_add {W : World} {ct : CompositeTy} {k : Check} {ks : List Check} :
    (W.withChecks ct [k]).withChecks ct ks = W.withChecks ct (k :: ks) := by
  have : ∀ (xss : List (List Check)) (t : Nat), (xss.modify t (· ++ [k])).modify t (· ++ ks) = xss.modify t (· ++ (k :: ks)) := by
    intro xss t
    rw [List.modify_modify_eq]
    congr 1
    funext l
    simp
  cases ct <;> simp [World.withChecks, this]

theorem withChecks_nil {W : World} {ct : CompositeTy} : W.withChecks ct [] = W := by
  have : ∀ (xss : List (List Check)) (t : Nat), xss.modify t (· ++ []) = xss := by
    intro xss t
    simp only [List.append_nil]
    exact List.modify_id ..
  cases ct <;> simp only [World.withChecks, this]

theorem checkText_withChecks {rx : Regex} {W : World} {ct : CompositeTy} {ks : List Check} {k : Check}
    {ts : List Token} : CheckText E rx (W.withChecks ct ks) ct k ts ↔ CheckText E rx W ct k ts := Iff.rfl

theorem checksText_withChecks {rx : Regex} {W : World} {ct : CompositeTy} {js ks : List Check}
    {ts : List Token} (h : ChecksText E rx (W.withChecks ct js) ct ks ts) : ChecksText E rx W ct ks ts := by
  induction h with
  | nil => exact .nil
  | cons h1 _ ih => exact .cons (checkText_withChecks.1 h1) ih

theorem checkLoop_rw {rx : Regex} {ct : CompositeTy} : ∀ (k : Nat) (s : PS), RslInv E.global s →
    CtIn s.decls ct → Rw (checkLoop E rx ct k) s (fun _ ts s' => ∃ ks, ChecksText E rx (worldOf s) ct ks ts ∧
      worldOf s' = (worldOf s).withChecks ct ks) := by
  intro k
  induction k with
  | zero => intros; exact rw_crash
  | succ k ih =>
    intro s hi hct
    unfold checkLoop
    refine rw_get_bind ?_
    refine rw_ite (fun _ => rw_pure ⟨[], .nil, withChecks_nil.symm⟩) (fun _ => ?_)
    refine rw_bind _ ((parseCheck_rw hi).sp (parseCheck_sp hi hct)) ?_
    rintro _ a s1 ⟨⟨c, hc, hw1⟩, hr1, -⟩
    refine (ih s1 (hr1.inv hi) (by rw [hr1.decls]; exact hct)).mono ?_
    rintro _ ts s2 ⟨ks, hks, hw2⟩
    rw [hw1] at hks hw2
    exact ⟨c :: ks, .cons hc (checksText_withChecks hks), by rw [hw2, withChecks_add]⟩

theorem composite_ent {e : Ent} {ct : CompositeTy} (h : e.composite? = some ct) : CompositeEnt e ct := by
  unfold Ent.composite? at h
  split at h
  · next hc => cases h; exact ⟨hc, rfl⟩
  · split at h
    · next hc => cases h; exact ⟨hc, rfl⟩
    · cases h

theorem parseCheckBlock_rw {rx : Regex} {s : PS} (hi : RslInv E.global s) :
    Rw (parseCheckBlock E rx) s (fun _ ts s' => ItemText E rx (worldOf s) ts (worldOf s')) := by
  unfold parseCheckBlock
  refine rw_bind _ matchKw_rd.rw ?_
  rintro k _ s1 ⟨⟨-, hk, hv, rfl⟩, h1⟩
  refine rw_bind _ matchK_rd.rw ?_
  rintro x _ s2 ⟨⟨-, hx, rfl⟩, h2⟩
  refine rw_get_bind ?_
  refine rw_bind _ liftSym_rd.rw ?_
  rintro e _ s3 ⟨⟨rfl, he, rfl⟩, -⟩
  have h12 := h1.trans h2
  have hi2 := hi.ft h12.ft
  split
  · exact rw_crash
  · next ct hct =>
    have hin := composite_in hct (hi2.tab_ent he)
    refine rw_bind _ matchK_rd.rw ?_
    rintro b _ s4 ⟨⟨-, hb, rfl⟩, h4⟩
    refine rw_get_bind ?_
    refine rw_bind _ (checkLoop_rw (s4.toks + 1) s4 (hi2.ft h4.ft) (by rw [h4.decls]; exact hin)) ?_
    rintro _ ts s5 ⟨ks, hks, hw5⟩
    refine rw_bind _ matchK_rd.rw ?_
    rintro c _ s6 ⟨⟨-, hc, rfl⟩, h6⟩
    refine rw_pure ?_
    have hw4 := worldOf_fr (h12.trans h4)
    rw [hw4] at hks hw5
    rw [worldOf_fr h6, hw5]
    have he' : ((worldOf s).names.tab E.pkg).lookup x.text none = .ok e := by
      have : (worldOf s).names.tab E.pkg = s3.tab E.pkg := by
        unfold Names.tab PS.tab
        rw [h12.tabs]; rfl
      rw [this]
      exact (lookup_sub he).1
    have := ItemText.checks (rx := rx) ⟨hk, hv⟩ hx he' (composite_ent hct) hb hks hc
    simpa using this

/-! ## Files -/

theorem parseRslItem_rw {rx : Regex} {s : PS} (hi : RslInv E.global s) :
    Rw (parseRslItem E rx) s (fun _ ts s' => ItemText E rx (worldOf s) ts (worldOf s')) := by
  unfold parseRslItem
  refine rw_get_bind ?_
  exact rw_ite (fun _ => parseCheckBlock_rw hi) fun _ => parseTypeDecl_rw hi

theorem Tells.grows {x : P Bool} (h : Tells x) : Grows x := by
  intro s
  have := h s
  cases hx : x s <;> rw [hx] at this
  · next b s1 => cases b <;> exact ⟨_, this.choose_spec.1⟩
  · exact ⟨_, this.choose_spec.1⟩
  · exact this

theorem rw_bindg {x : P α} {f : α → P β} {s : PS} {Q : β → List Token → PS → Prop}
    (Q1 : α → List Token → PS → Prop) (hx : Rw x s Q1)
    (hf : ∀ a ts s1, Q1 a ts s1 → Rw (f a) s1 (fun b ts' s2 => Q b (ts ++ ts') s2))
    (gx : Grows x) (gf : ∀ a, Grows (f a)) : Rw (x >>= f) s Q := by
  intro b s2 h he
  rw [bind_apply] at h
  cases hxs : x s with
  | err s1 => rw [hxs] at h; cases h
  | crash c s1 => rw [hxs] at h; cases h
  | ok a s1 =>
    rw [hxs] at h
    simp only at h
    obtain ⟨l, e1⟩ := gx s
    obtain ⟨l', e2⟩ := gf a s1
    rw [hxs] at e1
    rw [h] at e2
    simp only [PR.state] at e1 e2
    have : l = [] ∧ l' = [] := by
      rw [e2, e1] at he
      simpa using he
    rw [this.1, List.append_nil] at e1
    rw [this.2, List.append_nil] at e2
    obtain ⟨ts, hw, hq⟩ := hx a s1 hxs e1
    obtain ⟨ts', hw', hq'⟩ := hf a ts s1 hq b s2 h e2
    exact ⟨ts ++ ts', by rw [hw, hw', List.append_assoc], hq'⟩

theorem rw_tryCatch {x h : P α} {s : PS} {Q : α → List Token → PS → Prop} (hx : Rw x s Q) (sx : ∀ s', x s = .err s' → s'.errs ≠ s.errs ∧ ∃ l, s'.errs = s.errs ++ l)
    (gh : Grows h) : Rw (P.tryCatch x h) s Q := by
  intro a s' e he
  unfold P.tryCatch at e
  cases hs : x s with
  | ok b s1 => rw [hs] at e; cases e; exact hx _ _ hs he
  | crash c s1 => rw [hs] at e; cases e
  | err s1 =>
    rw [hs] at e
    dsimp only at e
    obtain ⟨h1, l, h2⟩ := sx s1 hs
    obtain ⟨l', h3⟩ := gh s1
    rw [e] at h3
    simp only [PR.state] at h3
    rw [h3, h2] at he
    have : l = [] := by
      have := congrArg List.length he
      simp only [List.length_append] at this
      exact List.length_eq_zero_iff.1 (by omega)
    subst this
    exact absurd (by simpa using h2) h1

theorem rslLoop_rw {rx : Regex} : ∀ (k : Nat) (ok : Bool) (s : PS), RslInv E.global s →
    Rw (rslLoop E rx k ok) s (fun _ ts s' => RslText E rx (worldOf s) ts (worldOf s') ∧ s'.peekEof = true) := by
  intro k
  induction k with
  | zero => intros; exact rw_crash
  | succ k ih =>
    intro ok s hi
    unfold rslLoop
    refine rw_get_bind ?_
    refine rw_ite (fun he => rw_pure ⟨.nil, he⟩) (fun _ => ?_)
    have h1 : Rw (do parseRslItem E rx; pure true) s (fun _ ts s' => ItemText E rx (worldOf s) ts (worldOf s') ∧
        RslInv E.global s') := by
      refine rw_bind _ ((parseRslItem_rw hi).sp (parseRslItem_sp hi)) ?_
      rintro _ ts s1 ⟨h1, hr, -⟩
      exact rw_pure ⟨by simpa using h1, hr.keep hi⟩
    refine rw_bindg _ (rw_tryCatch h1 ?_ recoverRsl_grows) ?_ ?_ ?_
    · intro s' he
      have : Says (do parseRslItem E rx; pure true : P Bool) := by spoken
      obtain ⟨l, a1, a2⟩ := this.err he
      exact ⟨by rw [a1]; simpa using a2, l, a1⟩
    · rintro b a s1 ⟨h1, hi1⟩
      refine (ih (ok && b) s1 hi1).mono ?_
      rintro _ ts s2 ⟨h2, h3⟩
      exact ⟨.cons h1 h2, h3⟩
    · exact (tells_item inferInstance recoverRsl_grows fun s b s' h => recoverRsl_false h).grows
    · intro b s1
      rw [rslLoop_and]
      exact grows_bind (rslLoop_tells E rx k).grows (fun _ s => ⟨[], by simp [pure_apply, PR.state]⟩) s1

theorem parseRslFile_rw {rx : Regex} {s : PS} (hi : RslInv E.global s) :
    Rw (parseRslFile E rx) s (fun _ ts s' => ts = words s ∧ RslText E rx (worldOf s) ts (worldOf s')) := by
  unfold parseRslFile
  refine rw_get_bind ?_
  have key : Rw (do let ok ← rslLoop E rx (s.toks + 1) true; P.matchEof; pure ok) s
      (fun _ ts s' => RslText E rx (worldOf s) ts (worldOf s') ∧ words s' = []) := by
    refine rw_bindg _ (rslLoop_rw (s.toks + 1) true s hi) ?_ (rslLoop_tells E rx _).grows
      (fun _ => Says.grows (by spoken))
    rintro b ts s1 ⟨h1, h2⟩
    have hn : s1.nt = none := by simpa [PS.peekEof] using h2
    intro b' s2 h _
    rw [bind_apply] at h
    have : P.matchEof s1 = .ok () s1 := by simp [P.matchEof, bind_apply, P.get, hn, pure_apply]
    rw [this] at h
    cases h
    exact ⟨[], rfl, by simpa using h1, by simp [words, hn]⟩
  intro b s' h he
  obtain ⟨ts, h1, h2, h3⟩ := key b s' h he
  exact ⟨ts, h1, by rw [h1, h3, List.append_nil], h2⟩

theorem runRslFiles_rw {rx : Regex} {g : STab} : ∀ (fs : List OpenFile) (s : PS), (∀ f ∈ fs, f.env.global = g) →
    RslInv g s → AllAcc rx s → ∀ b s', runRslFiles rx fs s = .ok b s' → s'.errs = s.errs →
      RslFilesText rx (worldOf s) fs (worldOf s') := by
  intro fs
  induction fs with
  | nil => intro s _ _ _ b s' h _; cases h; exact .nil
  | cons f fs ih =>
    intro s hg hi ha b s' h he
    have hf : f.env.global = g := hg f (by simp)
    have hi' : RslInv g (s.enter f) := ⟨hi.glob, hi.sound, hi.crecs, hi.ctups, hi.objs, hi.sees, hi.ents,
      hi.keys, hi.entered, hi.once, hi.frozenBefore⟩
    unfold runRslFiles at h
    rw [bind_apply] at h
    have g1 := (tells_file (f := f) (parseRslFile_tells f.env rx)).grows s
    change ∃ l, (runRslFile rx f s).state.errs = _ at g1
    cases h1 : runRslFile rx f s with
    | err s1 => rw [h1] at h; cases h
    | crash c s1 => rw [h1] at h; cases h
    | ok b1 s1 =>
      rw [h1] at h g1
      dsimp only at h
      rw [bind_apply] at h
      have g2 := (runRslFiles_tells rx fs).grows s1
      cases h2 : runRslFiles rx fs s1 with
      | err s2 => rw [h2] at h; cases h
      | crash c s2 => rw [h2] at h; cases h
      | ok b2 s2 =>
        rw [h2] at h g2
        cases h
        obtain ⟨l, e1⟩ := g1
        obtain ⟨l', e2⟩ := g2
        simp only [PR.state] at e1 e2
        have : l = [] ∧ l' = [] := by
          rw [e2, e1] at he
          simpa using he
        rw [this.1, List.append_nil] at e1
        rw [this.2, List.append_nil] at e2
        have d1 := (runRslFiles_done (rx := rx) g [f] s (by simpa using hf) hi ha).1
        have e3 : (runRslFiles rx [f] s).state = s1 := by
          simp [runRslFiles, bind_apply, h1, pure_apply, PR.state]
        rw [e3] at d1
        refine .cons ?_ (ih s1 (fun f hf => hg f (List.mem_cons_of_mem _ hf)) d1.inv d1.acc b2 _ h2 e2)
        have h1' : P.tryCatch (parseRslFile f.env rx) (pure false) (s.enter f) = .ok b1 s1 := h1
        obtain ⟨ts, -, rfl, ht⟩ := rw_tryCatch (parseRslFile_rw (rx := rx) (E := f.env) (by rw [hf]; exact hi'))
          (by
            intro s' he
            have := parseRslFile_tells f.env rx (s.enter f)
            rw [he] at this
            obtain ⟨l, a1, a2⟩ := this
            exact ⟨by rw [a1]; simpa using a2, l, a1⟩) (Says.grows (by spoken)) b1 s1 h1' e1
        exact ht

end Verif.Lemmas
