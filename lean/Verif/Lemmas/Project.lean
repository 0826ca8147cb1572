import Verif.Spec.Project
import Verif.Lemmas.Preamble
import Verif.Lemmas.RslAccepts
import Verif.Lemmas.PastLexer
/-! # When the preambles of all files are accepted -/
namespace Verif.Lemmas
open Verif.Model Verif.Spec

/-! ## A preamble has one reading -/

theorem imports_unique {ts ts' r r' : List Token} {is is' : List (List Char)} (h : ImportsText ts is)
    (h' : ImportsText ts' is') (e : ts ++ r = ts' ++ r') (hr : ∀ t q, r = t :: q → ¬ IsKw "import" t)
    (hr' : ∀ t q, r' = t :: q → ¬ IsKw "import" t) : is = is' := by
  induction h generalizing ts' is' with
  | nil =>
    cases h' with
    | nil => rfl
    | cons hk _ _ => exact absurd hk (hr _ _ e)
  | cons hk _ _ ih =>
    cases h' with
    | nil => exact absurd hk (hr' _ _ e.symm)
    | cons hk' ht h2 =>
      simp only [List.cons_append, List.cons.injEq] at e
      obtain ⟨-, rfl, e⟩ := e
      rw [ih h2 e]

theorem reads_unique {f : Source} {p p' : List Char} {is is' : List (List Char)} (h : ReadsPreamble f p is)
    (h' : ReadsPreamble f p' is') : p = p' ∧ is = is' := by
  obtain ⟨_, r, e, ⟨k, t, ts, rfl, -, -, rfl, hi⟩, hr⟩ := h
  obtain ⟨_, r', e', ⟨k', t', ts', rfl, -, -, rfl, hi'⟩, hr'⟩ := h'
  rw [e] at e'
  simp only [List.cons_append, List.cons.injEq] at e'
  obtain ⟨-, rfl, e'⟩ := e'
  exact ⟨rfl, imports_unique hi hi' e' hr hr'⟩

theorem belongs_unique {f : Source} {p p' : List Char} (h : Belongs f p) (h' : Belongs f p') : p = p' := by
  obtain ⟨_, h⟩ := h
  obtain ⟨_, h'⟩ := h'
  exact (reads_unique h h').1

theorem imports_of_reads {f : Source} {p i : List Char} {is : List (List Char)} (h : ReadsPreamble f p is) :
    Imports f i ↔ i ∈ is := by
  constructor
  · rintro ⟨p', is', h', hi⟩
    rw [(reads_unique h h').2]
    exact hi
  · exact fun hi => ⟨p, is, h, hi⟩

/-! ## Declaring packages -/

/-- The table has the builtin names and the packages `P`. -/
structure Known (g : STab) (P : List (List Char)) : Prop where
  base : ∀ k e, Frame.get globalTable.own k = some e → g.own.get k = some e
  pk : ∀ p ∈ P, ∃ e, g.own.get (simplifiedName p) = some e ∧ e.name = p ∧ e.cls = clsPackage
  only : ∀ k e, g.own.get k = some e → Frame.get globalTable.own k = some e ∨
    (e.cls = clsPackage ∧ e.name ∈ P ∧ k = simplifiedName e.name)

theorem known_global : Known globalTable [] :=
  ⟨fun _ _ h => h, by simp, fun _ _ h => .inl h⟩

theorem builtin_iff (p : List Char) :
    (∃ e, Frame.get globalTable.own (simplifiedName p) = some e) ↔ ∃ b ∈ builtinNames, Alike b.toList p := by
  have h : globalTable.own.map Prod.fst = builtinNames.map fun b => simplifiedName b.toList := by decide +kernel
  constructor
  · rintro ⟨e, he⟩
    have : simplifiedName p ∈ globalTable.own.map Prod.fst := by
      unfold Frame.get at he
      rw [Option.map_eq_some_iff] at he
      obtain ⟨x, hx, -⟩ := he
      have h1 := List.find?_some hx
      have h2 := List.mem_of_find?_eq_some hx
      simp only [decide_eq_true_eq] at h1
      rw [← h1]
      exact List.mem_map_of_mem h2
    rw [h] at this
    obtain ⟨b, h1, h2⟩ := List.mem_map.1 this
    exact ⟨b, h1, h2⟩
  · rintro ⟨b, h1, h2⟩
    cases hg : Frame.get globalTable.own (simplifiedName p) with
    | some e => exact ⟨e, rfl⟩
    | none =>
      have := frame_get_none hg
      rw [h] at this
      exact absurd (List.mem_map.2 ⟨b, h1, (show simplifiedName b.toList = simplifiedName p from h2)⟩) this

theorem global_not_package {k : List Char} {e : Ent} (h : Frame.get globalTable.own k = some e) :
    e.cls ≠ clsPackage := by
  unfold Frame.get at h
  rw [Option.map_eq_some_iff] at h
  obtain ⟨x, hx, rfl⟩ := h
  have h2 := List.mem_of_find?_eq_some hx
  have : ∀ x ∈ globalTable.own, x.2.cls ≠ clsPackage := by decide +kernel
  exact this x h2

/-- Package `p` may be declared by a file of this kind. -/
def Fits (P : List (List Char)) (kind : FKind) (p : List Char) : Prop :=
  (∀ b ∈ builtinNames, ¬ Alike b.toList p) ∧ ∀ q ∈ P, Alike p q → p = q ∧ kind = .trlc

theorem flat_contains {g : STab} (ht : PkgTab g) (k : List Char) (pr : Option (List Char)) :
    g.containsRaw k pr = match g.own.get k with
      | some e => pr.all (· = e.name)
      | none => false := by
  unfold STab.containsRaw
  rw [ht.glob.parents, ht.glob.imported]
  cases g.own.get k <;> rfl

theorem known_declared {g : STab} {P : List (List Char)} (hk : Known g P) {kind : FKind} {p : List Char}
    (hf : Fits P kind p) :
    g.own.get (simplifiedName p) = none ∧ p ∉ P ∨
    (kind = .trlc ∧ p ∈ P ∧ ∃ e, g.own.get (simplifiedName p) = some e ∧ e.name = p ∧ e.cls = clsPackage) := by
  cases hg : g.own.get (simplifiedName p) with
  | none =>
    refine .inl ⟨rfl, fun hp => ?_⟩
    obtain ⟨e, h1, -⟩ := hk.pk p hp
    rw [hg] at h1
    cases h1
  | some e =>
    refine .inr ?_
    rcases hk.only _ _ hg with h | ⟨h1, h2, h3⟩
    · obtain ⟨b, h1, h2⟩ := (builtin_iff p).1 ⟨e, h⟩
      exact absurd h2 (hf.1 b h1)
    · obtain ⟨h4, h5⟩ := hf.2 _ h2 h3
      exact ⟨h5, h4 ▸ h2, e, rfl, h4.symm, h1⟩

/-- A package can be declared iff it fits. -/
theorem declare_iff {g : STab} {P : List (List Char)} (ht : PkgTab g) (hk : Known g P) (kind : FKind)
    (p : List Char) : (∃ g' id, declarePackage g kind p = .ok (g', id)) ↔ Fits P kind p := by
  constructor
  · rintro ⟨g', id, h⟩
    unfold declarePackage at h
    split at h
    · dsimp only at h
      split at h
      · next g1 hr =>
        obtain ⟨h1, -⟩ := register_entry hr
        refine ⟨?_, ?_⟩
        · intro b hb hab
          obtain ⟨e, he⟩ := (builtin_iff p).2 ⟨b, hb, hab⟩
          rw [hk.base _ _ he] at h1
          cases h1
        · intro q hq hpq
          obtain ⟨e, he, -⟩ := hk.pk q hq
          unfold Alike at hpq
          rw [← hpq, h1] at he
          cases he
      · cases h
    · next hc =>
      have hkind : kind = .trlc := by
        cases kind with
        | rsl => simp at hc
        | trlc => rfl
      split at h
      · next e he =>
        unfold STab.lookup STab.lookupDirect at he
        rw [flat_find ht.glob.parents ht.glob.imported] at he
        split at he
        · next rv hrv =>
          split at he
          · cases he
          · next hn =>
            split at he
            · cases he
            · next hs =>
              cases he
              have hn' : e.name = p := by simpa using hn
              have hs' : e.cls = clsPackage := by simpa [isPackage] using hs
              refine ⟨?_, ?_⟩
              · intro b hb hab
                obtain ⟨e', he'⟩ := (builtin_iff p).2 ⟨b, hb, hab⟩
                have := hk.base _ _ he'
                rw [hrv] at this
                cases this
                exact global_not_package he' hs'
              · intro q hq hpq
                obtain ⟨e', he', h1, -⟩ := hk.pk q hq
                unfold Alike at hpq
                rw [← hpq, hrv] at he'
                cases he'
                exact ⟨hn'.symm.trans h1, hkind⟩
        · cases he
      · cases h
  · intro hf
    rcases known_declared hk hf with ⟨h1, h2⟩ | ⟨hkind, h1, e, h2, h3, h4⟩
    · have hc : g.contains p = false := by unfold STab.contains; rw [flat_contains ht, h1]
      have hr : ∀ id, g.register ⟨p, id, clsPackage⟩ = .ok { g with own := g.own ++ [(simplifiedName p, ⟨p, id, clsPackage⟩)] } := by
        intro id
        unfold STab.register
        dsimp only
        rw [flat_contains ht, h1]
        rfl
      refine ⟨{ g with own := g.own ++ [(simplifiedName p,
        ⟨p, (g.own.filter fun x => isPackage x.2).length, clsPackage⟩)] }, (g.own.filter fun x => isPackage x.2).length, ?_⟩
      unfold declarePackage
      rw [hc]
      simp only [Bool.not_false, Bool.or_true, if_true, hr]
    · refine ⟨g, e.id, ?_⟩
      have hc : g.contains p = true := by
        unfold STab.contains
        rw [flat_contains ht, h2]
        simp [h3]
      unfold declarePackage
      rw [hc, hkind, flat_lookup ht.glob.parents ht.glob.imported h2 h3 h4]
      rfl

theorem declare_known {g g' : STab} {P : List (List Char)} (ht : PkgTab g) (hk : Known g P) {kind : FKind}
    {p : List Char} {id : Nat} (h : declarePackage g kind p = .ok (g', id)) : Known g' (p :: P) := by
  have hf := (declare_iff ht hk kind p).1 ⟨g', id, h⟩
  obtain ⟨-, -, e0, hl, -⟩ := declarePackage_ok ht h
  rcases known_declared hk hf with ⟨h1, h2⟩ | ⟨hkind, h1, e, h2, h3, h4⟩
  · have hc : g.contains p = false := by unfold STab.contains; rw [flat_contains ht, h1]
    unfold declarePackage at h
    rw [hc] at h
    simp only [Bool.not_false, Bool.or_true, if_true] at h
    split at h
    · next g1 hr =>
      cases h
      obtain ⟨-, rfl⟩ := register_entry hr
      have hget : ∀ k, Frame.get (g.own ++ [(simplifiedName p,
          (⟨p, (g.own.filter fun x => isPackage x.2).length, clsPackage⟩ : Ent))]) k =
          (g.own.get k).or (if simplifiedName p = k then
            some ⟨p, (g.own.filter fun x => isPackage x.2).length, clsPackage⟩ else none) := by
        intro k
        rw [frame_get_append]
        congr 1
        unfold Frame.get
        by_cases hh : simplifiedName p = k <;> simp [hh]
      refine ⟨?_, ?_, ?_⟩
      · intro k e he
        dsimp only
        rw [hget, hk.base k e he]
        rfl
      · intro q hq
        dsimp only
        rw [hget]
        rcases List.mem_cons.1 hq with rfl | hq
        · rw [h1]
          simp
        · obtain ⟨e, he, h3⟩ := hk.pk q hq
          rw [he]
          exact ⟨e, rfl, h3⟩
      · intro k e he
        dsimp only at he
        rw [hget] at he
        cases hgk : g.own.get k with
        | some e' =>
          rw [hgk] at he
          cases he
          rcases hk.only k e hgk with h | ⟨h3, h4, h5⟩
          · exact .inl h
          · exact .inr ⟨h3, List.mem_cons_of_mem _ h4, h5⟩
        | none =>
          rw [hgk] at he
          simp only [Option.none_or] at he
          split at he
          · next hh => cases he; exact .inr ⟨rfl, by simp, hh.symm⟩
          · cases he
    · cases h
  · have hc : g.contains p = true := by
      unfold STab.contains
      rw [flat_contains ht, h2]
      simp [h3]
    unfold declarePackage at h
    rw [hc, hkind, flat_lookup ht.glob.parents ht.glob.imported h2 h3 h4] at h
    cases h
    refine ⟨hk.base, ?_, ?_⟩
    · intro q hq
      rcases List.mem_cons.1 hq with rfl | hq
      · exact ⟨e, h2, h3, h4⟩
      · exact hk.pk q hq
    · intro k e' he
      rcases hk.only k e' he with h | ⟨h5, h6, h7⟩
      · exact .inl h
      · exact .inr ⟨h5, List.mem_cons_of_mem _ h6, h7⟩

theorem known_lookup {g : STab} {P : List (List Char)} (ht : PkgTab g) (hk : Known g P) (i : List Char) :
    (∃ e, g.lookup i (some isPackage) = .ok e) ↔ i ∈ P := by
  constructor
  · rintro ⟨e, he⟩
    unfold STab.lookup STab.lookupDirect at he
    rw [flat_find ht.glob.parents ht.glob.imported] at he
    split at he
    · next rv hrv =>
      split at he
      · cases he
      · next hn =>
        split at he
        · cases he
        · next hs =>
          cases he
          have hn' : e.name = i := by simpa using hn
          have hs' : e.cls = clsPackage := by simpa [isPackage] using hs
          rcases hk.only _ _ hrv with h | ⟨-, h, -⟩
          · exact absurd hs' (global_not_package h)
          · exact hn' ▸ h
    · cases he
  · intro hi
    obtain ⟨e, h1, h2, h3⟩ := hk.pk i hi
    exact ⟨e, flat_lookup ht.glob.parents ht.glob.imported h1 h2 h3⟩

/-! ## One file -/

theorem reads_words {s : PS} {f : Source} : words (s.use f) = sourceWords f := rfl

theorem readImports_on {K : PS} {W : World} {n : Nat} {w : List Token} {own : List Char} :
    ∀ (k : Nat) (ts : List Token) (is : List (List Char)) (s : PS), ImportsText ts is → own ∉ is →
    (∀ t r, w = t :: r → ¬ IsKw "import" t) → On K W n (ts ++ w) s → ts.length < k →
    ∃ s', readImports own k s = (is, .ok () s') ∧ On K W n w s' := by
  intro k
  induction k with
  | zero => intro ts is s _ _ _ _ h; omega
  | succ k ih =>
    intro ts is s hi ho hw hon hk
    rw [readImports_succ]
    cases hi with
    | nil =>
      have : s.peekKw "import" = false := by
        cases w with
        | nil =>
          unfold PS.peekKw
          rw [show s.nt = none from hon.nt]
          rfl
        | cons t r => exact hon.peekKw_false (hw t r rfl)
      rw [this]
      exact ⟨s, rfl, hon⟩
    | @cons kw t ts is hkw ht hi =>
      rw [hon.peekKw_true (w := t :: (ts ++ w)) hkw, if_pos rfl]
      rw [List.mem_cons, not_or] at ho
      have hacc : Acc readImport s (fun t' s' => t' = t ∧ On K W n (ts ++ w) s') := by
        unfold readImport
        refine acc_bind _ (matchKw_on (w := t :: (ts ++ w)) hon hkw) ?_
        rintro a s1 ⟨-, h1⟩
        exact matchK_on h1 ht
      obtain ⟨a, s1, h1, rfl, h2⟩ := hacc
      rw [h1]
      dsimp only
      rw [if_neg (fun e => ho.1 e.symm)]
      obtain ⟨s', h3, h4⟩ := ih ts is s1 hi ho.2 hw h2 (by simp only [List.length_cons] at hk; omega)
      rw [h3]
      exact ⟨s', rfl, h4⟩

instance past_readPackage : Past readPackage := by unfold readPackage; passed

instance past_readImport : Past readImport := by unfold readImport; passed

theorem readImports_past (own : List Char) : ∀ (k : Nat) (s : PS) (is : List (List Char)) (s' : PS) (u : Unit),
    readImports own k s = (is, .ok u s') → Trail s s' := by
  intro k
  induction k with
  | zero => intro s is s' u h; cases h
  | succ k ih =>
    intro s is s' u h
    rw [readImports_succ] at h
    split at h
    · split at h
      · next t s1 h1 =>
        split at h
        · cases h
        · have hsnd := congrArg Prod.snd h
          dsimp only at hsnd
          exact (past_readImport.ok h1).trans (ih s1 _ s' u (Prod.ext rfl hsnd))
      · cases h
      · cases h
    · cases h; exact Trail.refl _

/-- What is known about a file whose preamble was read without errors -/
structure GoodLoad (f : Source) (l : Loaded) (p : List Char) (is : List (List Char)) : Prop where
  reads : ReadsPreamble f p is
  own : p ∉ is
  noErr : l.cu.err = false
  package : l.cu.package = some p
  pre : l.cu.file.pre = .pkg p is false
  raw : l.cu.raw = (addImports p [] is).1
  file : l.src.file = f.file
  trail : (f.nt = none → f.rest = []) → (l.src.nt = none → l.src.rest = [])
  suffix : l.src.rest <:+ f.rest

theorem loadPreamble_good {g g' : STab} {f : Source} {s s' : PS} {l : Loaded} 
    (h : loadPreamble g f s = .ok (g', l) s') (he : s'.errs = s.errs) :
    ∃ p is id, GoodLoad f l p is ∧ declarePackage g f.file.kind p = .ok (g', id) := by
  unfold loadPreamble at h
  split at h
  · cases h
  · next s1 h1 =>
    cases h
    obtain ⟨l, h2, h3⟩ := says_readPackage.err (s := s.use f) h1
    rw [he] at h2
    exact absurd (List.append_right_eq_self.1 h2.symm) h3
  · next t s1 h1 =>
    obtain ⟨l1, e1, -⟩ := says_readPackage.ok h1
    replace e1 : s1.errs = s.errs ++ l1 := e1
    split at h
    · next e hd =>
      cases h
      dsimp only at he
      rw [e1, List.append_assoc] at he
      have := List.append_right_eq_self.1 he
      simp at this
    · next g1 id hd =>
      split at h
      · cases h
      · next is u s2 h2 =>
        cases h
        obtain ⟨h3, h4, h5, -, ts, h8, h9⟩ := readImports_ok _ _ _ _ _ _ h2
        obtain ⟨-, ts1, h10, k, rfl, h11, h12⟩ := readPackage_rd t s1 h1
        refine ⟨t.text, is, id, ⟨⟨[k, t] ++ ts, words s', ?_, ⟨k, t, ts, rfl, h11, h12, rfl, h9⟩, ?_⟩, h3,
          rfl, rfl, rfl, rfl, rfl, ?_, ?_⟩, hd⟩
        · rw [← reads_words (s := s), h10, h8, List.append_assoc]
        · intro u r hr hkw
          have : s'.nt = some u := by
            unfold words at hr
            split at hr
            · cases hr
            · next v hv => rw [List.cons.injEq] at hr; rw [hv, hr.1]
          unfold PS.peekKw at h5
          rw [this] at h5
          simp [hkw.1, hkw.2] at h5
        · exact fun hf => ((past_readPackage.ok h1).trans (readImports_past _ _ _ _ _ _ h2)).atEnd hf
        · exact ((past_readPackage.ok h1).trans (readImports_past _ _ _ _ _ _ h2)).suffix
      · next is s2 h2 =>
        cases h
        obtain ⟨h4, l', h6, h7⟩ := readImports_err _ _ _ _ _ h2
        rw [he, e1, List.append_assoc] at h6
        have := List.append_right_eq_self.1 h6.symm
        simp [h7] at this

theorem loadPreamble_accepts {g g' : STab} {f : Source} {s : PS} {p : List Char} {is : List (List Char)} {id : Nat}
    (hc : CleanSource f) (hr : ReadsPreamble f p is) (ho : p ∉ is)
    (hd : declarePackage g f.file.kind p = .ok (g', id)) :
    ∃ l s', loadPreamble g f s = .ok (g', l) s' ∧ s'.errs = s.errs := by
  obtain ⟨_, w, e, ⟨k, t, ts, rfl, hk, ht, rfl, hi⟩, hw⟩ := hr
  have hon : On (s.use f) (worldOf (s.use f)) (s.use f).nid (k :: t :: (ts ++ w)) (s.use f) :=
    ⟨hc, e, rfl, rfl, rfl, rfl⟩
  have hacc : Acc readPackage (s.use f) (fun t' s' => t' = t ∧
      On (s.use f) (worldOf (s.use f)) (s.use f).nid (ts ++ w) s') := by
    unfold readPackage
    refine acc_bind _ (matchKw_on hon hk) ?_
    rintro a s1 ⟨-, h1⟩
    exact matchK_on h1 ht
  obtain ⟨a, s1, h1, rfl, h2⟩ := hacc
  obtain ⟨s', h3, h4⟩ := readImports_on (s1.toks + 1) ts is s1 hi ho hw h2 (by
    have := h2.len
    rw [List.length_append] at this
    omega)
  unfold loadPreamble
  rw [h1]
  dsimp only
  rw [hd]
  dsimp only
  rw [h3]
  exact ⟨_, s', rfl, h4.errs⟩

/-! ## Files of one kind -/

/-- The preambles of the files can be read after those of packages `P`. -/
def Loadable : List (List Char) → List Source → Prop
  | _, [] => True
  | P, f :: fs => ∃ p is, ReadsPreamble f p is ∧ p ∉ is ∧ Fits P f.file.kind p ∧ Loadable (p :: P) fs

theorem loadPreambles_good {g g' : STab} {P : List (List Char)} {fs : List Source} {s s' : PS} {ls : List Loaded}
    (ht : PkgTab g) (hk : Known g P) (h : loadPreambles g fs s = .ok (g', ls) s') (he : s'.errs = s.errs) :
    Loadable P fs ∧ (∃ P', Known g' P' ∧ ∀ q, q ∈ P' ↔ q ∈ P ∨ ∃ f ∈ fs, Belongs f q) ∧
      List.Forall₂ (fun f l => ∃ p is, GoodLoad f l p is) fs ls := by
  induction fs generalizing g s ls P with
  | nil =>
    unfold loadPreambles at h
    rw [pure_apply] at h
    cases h
    exact ⟨trivial, ⟨P, hk, by simp⟩, .nil⟩
  | cons f fs ih =>
    unfold loadPreambles at h
    rw [bind_apply] at h
    split at h
    · next r s1 h1 =>
      obtain ⟨g1, l⟩ := r
      have hl := loadPreamble_ok ht h1
      rw [bind_apply] at h
      split at h
      · next r2 s2 h2 =>
        obtain ⟨g2, ls2⟩ := r2
        rw [pure_apply] at h
        cases h
        have ha := loadPreambles_ok hl.tab h2
        obtain ⟨e1, q1⟩ := hl.quiet.errs
        obtain ⟨e2, q2⟩ := ha.quiet.errs
        have he1 : s1.errs = s.errs := by
          rw [q2, q1, List.append_assoc] at he
          have := List.append_right_eq_self.1 he
          rw [List.append_eq_nil_iff] at this
          rw [q1, this.1, List.append_nil]
        obtain ⟨p, is, id, hgood, hd⟩ := loadPreamble_good h1 he1
        obtain ⟨i1, ⟨P', i2, i3⟩, i4⟩ := ih hl.tab (declare_known ht hk hd) h2 (he.trans he1.symm)
        refine ⟨⟨p, is, hgood.reads, hgood.own, (declare_iff ht hk _ p).1 ⟨_, _, hd⟩, i1⟩, ⟨P', i2, ?_⟩,
          .cons ⟨p, is, hgood⟩ i4⟩
        intro q
        rw [i3, List.mem_cons]
        constructor
        · rintro ((rfl | h) | ⟨f', hf', h⟩)
          · exact .inr ⟨f, by simp, is, hgood.reads⟩
          · exact .inl h
          · exact .inr ⟨f', List.mem_cons_of_mem _ hf', h⟩
        · rintro (h | ⟨f', hf', h⟩)
          · exact .inl (.inr h)
          · rcases List.mem_cons.1 hf' with rfl | hf'
            · exact .inl (.inl (belongs_unique h ⟨is, hgood.reads⟩))
            · exact .inr ⟨f', hf', h⟩
      · cases h
      · cases h
    · cases h
    · cases h

theorem loadPreambles_accepts {g : STab} {P : List (List Char)} {fs : List Source} {s : PS}
    (ht : PkgTab g) (hk : Known g P) (hc : ∀ f ∈ fs, CleanSource f) (h : Loadable P fs) :
    ∃ g' ls s', loadPreambles g fs s = .ok (g', ls) s' ∧ s'.errs = s.errs := by
  induction fs generalizing g s P with
  | nil => exact ⟨g, [], s, rfl, rfl⟩
  | cons f fs ih =>
    obtain ⟨p, is, h1, h2, h3, h4⟩ := h
    obtain ⟨g1, id, hd⟩ := (declare_iff ht hk _ p).2 h3
    obtain ⟨l, s1, h5, h6⟩ := loadPreamble_accepts (s := s) (hc f (by simp)) h1 h2 hd
    have hl := loadPreamble_ok ht h5
    obtain ⟨g', ls, s', h7, h8⟩ := ih (s := s1) hl.tab (declare_known ht hk hd)
      (fun f hf => hc f (List.mem_cons_of_mem _ hf)) h4
    refine ⟨g', l :: ls, s', ?_, h8.trans h6⟩
    unfold loadPreambles
    exact (bind_ok h5).trans ((bind_ok h7).trans rfl)

theorem loadable_iff {fs : List Source} : ∀ {P : List (List Char)}, Loadable P fs ↔
    (∀ f ∈ fs, ∃ p is, ReadsPreamble f p is ∧ p ∉ is) ∧
    (∀ f ∈ fs, ∀ p, Belongs f p → ∀ b ∈ builtinNames, ¬ Alike b.toList p) ∧
    (∀ f ∈ fs, ∀ p, Belongs f p → ∀ q ∈ P, Alike p q → p = q ∧ f.file.kind = .trlc) ∧
    fs.Pairwise (fun f f' => ∀ p p', Belongs f p → Belongs f' p' → Alike p' p → p' = p ∧ f'.file.kind = .trlc) := by
  induction fs with
  | nil => intro P; simp [Loadable]
  | cons f fs ih =>
    intro P
    rw [List.pairwise_cons]
    constructor
    · rintro ⟨p, is, h1, h2, h3, h4⟩
      obtain ⟨a1, a2, a3, a4⟩ := ih.1 h4
      have hp : ∀ q, Belongs f q → q = p := fun q hq => belongs_unique hq ⟨is, h1⟩
      refine ⟨?_, ?_, ?_, ?_, a4⟩
      · intro x hx
        rcases List.mem_cons.1 hx with rfl | hx
        · exact ⟨p, is, h1, h2⟩
        · exact a1 x hx
      · intro x hx q hq
        rcases List.mem_cons.1 hx with rfl | hx
        · rw [hp q hq]; exact h3.1
        · exact a2 x hx q hq
      · intro x hx q hq r hr
        rcases List.mem_cons.1 hx with rfl | hx
        · rw [hp q hq]; exact h3.2 r hr
        · exact a3 x hx q hq r (List.mem_cons_of_mem _ hr)
      · intro f' hf' q q' hq hq' hal
        rw [hp q hq] at hal ⊢
        exact a3 f' hf' q' hq' p (by simp) hal
    · rintro ⟨a1, a2, a3, a4, a5⟩
      obtain ⟨p, is, h1, h2⟩ := a1 f (by simp)
      refine ⟨p, is, h1, h2, ⟨a2 f (by simp) p ⟨is, h1⟩, a3 f (by simp) p ⟨is, h1⟩⟩, ih.2 ⟨?_, ?_, ?_, a5⟩⟩
      · exact fun x hx => a1 x (List.mem_cons_of_mem _ hx)
      · exact fun x hx => a2 x (List.mem_cons_of_mem _ hx)
      · intro x hx q hq r hr hal
        rcases List.mem_cons.1 hr with rfl | hr
        · exact a4 x hx r q ⟨is, h1⟩ hq hal
        · exact a3 x (List.mem_cons_of_mem _ hx) q hq r hr hal

/-! ## Imports -/

theorem addImports_mem {own : List Char} : ∀ (is raw : List (List Char)), own ∉ is →
    ∀ i, i ∈ (addImports own raw is).1 ↔ i ∈ raw ∨ i ∈ is := by
  intro is
  induction is with
  | nil => intro raw _ i; simp [addImports]
  | cons j is ih =>
    intro raw h i
    rw [List.mem_cons, not_or] at h
    unfold addImports
    rw [if_neg (fun e => h.1 e.symm)]
    split
    · next hc =>
      rw [ih _ h.2, List.mem_cons]
      constructor
      · rintro (h | h)
        · exact .inl h
        · exact .inr (.inr h)
      · rintro (h | rfl | h)
        · exact .inl h
        · exact .inl (by simpa using hc)
        · exact .inr h
    · rw [ih _ h.2, List.mem_append, List.mem_singleton, List.mem_cons, or_assoc]

theorem importErrors_good {g : STab} {P : List (List Char)} (ht : PkgTab g) (hk : Known g P) {f : Source} {l : Loaded}
    {p : List Char} {is : List (List Char)} (h : GoodLoad f l p is) :
    importErrors g l.cu = [] ↔ ∀ i, Imports f i → i ∈ P := by
  unfold importErrors
  rw [h.noErr, h.package, h.raw]
  simp only [Option.isNone_some, Bool.or_self, Bool.false_eq_true, if_false, List.filterMap_eq_nil_iff]
  constructor
  · intro hh i hi
    rw [imports_of_reads h.reads] at hi
    have := hh i ((addImports_mem is [] h.own i).2 (.inr hi))
    refine (known_lookup ht hk i).1 ?_
    cases hl : g.lookup i (some isPackage) with
    | ok e => exact ⟨e, rfl⟩
    | error e => rw [hl] at this; cases this
  · intro hh i hi
    have hi' := (addImports_mem is [] h.own i).1 hi
    simp only [List.not_mem_nil, false_or] at hi'
    obtain ⟨e, he⟩ := (known_lookup ht hk i).2 (hh i ((imports_of_reads h.reads).2 hi'))
    rw [he]

theorem importErrors_all {g : STab} {P : List (List Char)} (ht : PkgTab g) (hk : Known g P) {fs : List Source}
    {ls : List Loaded} (h : List.Forall₂ (fun f l => ∃ p is, GoodLoad f l p is) fs ls) :
    (ls.flatMap fun l => importErrors g l.cu) = [] ↔ ∀ f ∈ fs, ∀ i, Imports f i → i ∈ P := by
  induction h with
  | nil => simp
  | cons h1 _ ih =>
    obtain ⟨p, is, h1⟩ := h1
    rw [List.flatMap_cons, List.append_eq_nil_iff, ih, importErrors_good ht hk h1, List.forall_mem_cons]

/-! ## All files -/

theorem kinds_mem {fs : List Source} {k : FKind} {f : Source} :
    f ∈ sortSources (fs.filter (·.file.kind = k)) ↔ f ∈ fs ∧ f.file.kind = k := by
  rw [sortSources_mem, List.mem_filter, decide_eq_true_eq]

theorem pairwise_mem {α : Type} {R : α → α → Prop} (hs : ∀ x y, R x y → R y x) (hr : ∀ x, R x x) {l : List α}
    (h : l.Pairwise R) {x y : α} (hx : x ∈ l) (hy : y ∈ l) : R x y := by
  induction h with
  | nil => cases hx
  | cons h1 _ ih =>
    rcases List.mem_cons.1 hx with rfl | hx'
    · rcases List.mem_cons.1 hy with rfl | hy'
      · exact hr _
      · exact h1 _ hy'
    · rcases List.mem_cons.1 hy with rfl | hy'
      · exact hs _ _ (h1 _ hx')
      · exact ih hx' hy'

/-- what two lists of loadable files say about a project -/
theorem project_iff {fs : List Source} {P1 P2 : List (List Char)}
    (h1 : ∀ q, q ∈ P1 ↔ ∃ f ∈ fs, f.file.kind = .rsl ∧ Belongs f q)
    (h2 : ∀ q, q ∈ P2 ↔ ∃ f ∈ fs, Belongs f q) :
    (Loadable [] (sortSources (fs.filter (·.file.kind = .rsl))) ∧
      Loadable P1 (sortSources (fs.filter (·.file.kind = .trlc))) ∧
      (∀ f ∈ sortSources (fs.filter (·.file.kind = .rsl)), ∀ i, Imports f i → i ∈ P1) ∧
      (∀ f ∈ sortSources (fs.filter (·.file.kind = .trlc)), ∀ i, Imports f i → i ∈ P2)) ↔ Project fs := by
  have hsplit : ∀ f ∈ fs, f ∈ sortSources (fs.filter (·.file.kind = .rsl)) ∨
      f ∈ sortSources (fs.filter (·.file.kind = .trlc)) := by
    intro f hf
    rw [kinds_mem, kinds_mem]
    cases f.file.kind
    · exact .inl ⟨hf, rfl⟩
    · exact .inr ⟨hf, rfl⟩
  have hperm1 := pySort_perm (fun a b : Source => pyLe a.file.name.toList b.file.name.toList)
    (fs.filter (·.file.kind = .rsl))
  have hpair : ∀ {k : FKind} {R : Source → Source → Prop}, (∀ x y, R x y → R y x) →
      ((sortSources (fs.filter (·.file.kind = k))).Pairwise R ↔ (fs.filter (·.file.kind = k)).Pairwise R) := by
    intro k R hR
    exact (pySort_perm _ _).pairwise_iff (fun {x y} h => hR x y h)
  rw [loadable_iff, loadable_iff]
  constructor
  · rintro ⟨⟨a1, a2, -, a4⟩, ⟨b1, b2, b3, b4⟩, c1, c2⟩
    have hreads : ∀ f ∈ fs, ∃ p is, ReadsPreamble f p is ∧ p ∉ is := fun f hf =>
      (hsplit f hf).elim (a1 f) (b1 f)
    have hA : (fs.filter (·.file.kind = .rsl)).Pairwise fun f f' => ∀ p p', Belongs f p → Belongs f' p' → ¬ Alike p' p := by
      refine (hpair ?_).1 ?_
      · intro x y h p p' hp hp' hal
        exact h p' p hp' hp (Eq.symm hal)
      · refine a4.imp_of_mem ?_
        intro x y _ hy h p p' hp hp' hal
        have := (h p p' hp hp' hal).2
        rw [(kinds_mem.1 hy).2] at this
        cases this
    have hB : (fs.filter (·.file.kind = .trlc)).Pairwise fun f f' => ∀ p p', Belongs f p → Belongs f' p' →
        Alike p' p → p' = p := by
      refine (hpair ?_).1 ?_
      · intro x y h p p' hp hp' hal
        exact (h p' p hp' hp (Eq.symm hal)).symm
      · exact b4.imp fun h p p' hp hp' hal => (h p p' hp hp' hal).1
    have hmix : ∀ f ∈ fs, ∀ f' ∈ fs, f.file.kind = .trlc → f'.file.kind = .rsl → ∀ p p', Belongs f p →
        Belongs f' p' → Alike p p' → p = p' := by
      intro f hf f' hf' hk hk' p p' hp hp' hal
      exact (b3 f (kinds_mem.2 ⟨hf, hk⟩) p hp p' ((h1 p').2 ⟨f', hf', hk', hp'⟩) hal).1
    refine ⟨?_, ?_, ?_, ?_, ?_, ?_⟩
    · intro f hf
      obtain ⟨p, is, h, -⟩ := hreads f hf
      exact ⟨p, is, h⟩
    · intro f hf i hi hb
      obtain ⟨p, is, h, hn⟩ := hreads f hf
      rw [belongs_unique hb ⟨is, h⟩, imports_of_reads h] at hi
      exact hn hi
    · exact fun f hf => (hsplit f hf).elim (a2 f) (b2 f)
    · intro f hf f' hf' p p' hp hp' hal
      by_cases hff : f = f'
      · subst hff; exact belongs_unique hp hp'
      · cases hk : f.file.kind with
        | rsl =>
          cases hk' : f'.file.kind with
          | rsl =>
            exact absurd hal (pairwise_mem
              (R := fun f f' => f ≠ f' → ∀ p p', Belongs f p → Belongs f' p' → ¬ Alike p p')
              (fun x y h hne p p' hp hp' hal => h (Ne.symm hne) p' p hp' hp (Eq.symm hal))
              (fun x hne => absurd rfl hne)
              (hA.imp fun h _ p p' hp hp' hal => h p p' hp hp' (Eq.symm hal))
              (List.mem_filter.2 ⟨hf, by simpa using hk⟩) (List.mem_filter.2 ⟨hf', by simpa using hk'⟩) hff p p' hp hp')
          | trlc => exact (hmix f' hf' f hf hk' hk p' p hp' hp (Eq.symm hal)).symm
        | trlc =>
          cases hk' : f'.file.kind with
          | rsl => exact hmix f hf f' hf' hk hk' p p' hp hp' hal
          | trlc =>
            exact pairwise_mem
              (R := fun f f' => f ≠ f' → ∀ p p', Belongs f p → Belongs f' p' → Alike p p' → p = p')
              (fun x y h hne p p' hp hp' hal => (h (Ne.symm hne) p' p hp' hp (Eq.symm hal)).symm)
              (fun x hne => absurd rfl hne)
              (hB.imp fun h _ p p' hp hp' hal => (h p p' hp hp' (Eq.symm hal)).symm)
              (List.mem_filter.2 ⟨hf, by simpa using hk⟩) (List.mem_filter.2 ⟨hf', by simpa using hk'⟩) hff p p' hp hp' hal
    · exact hA.imp fun h p hp hp' => h p p hp hp' rfl
    · intro f hf i hi
      cases hk : f.file.kind with
      | rsl =>
        obtain ⟨f', hf', hk', hb⟩ := (h1 i).1 (c1 f (kinds_mem.2 ⟨hf, hk⟩) i hi)
        exact ⟨f', hf', hb, fun _ => hk'⟩
      | trlc =>
        obtain ⟨f', hf', hb⟩ := (h2 i).1 (c2 f (kinds_mem.2 ⟨hf, hk⟩) i hi)
        exact ⟨f', hf', hb, fun e => by cases e⟩
  · intro hp
    have hreads : ∀ f ∈ fs, ∃ p is, ReadsPreamble f p is ∧ p ∉ is := by
      intro f hf
      obtain ⟨p, is, h⟩ := hp.reads f hf
      exact ⟨p, is, h, fun hi => hp.self f hf p ⟨p, is, h, hi⟩ ⟨is, h⟩⟩
    refine ⟨⟨?_, ?_, ?_, ?_⟩, ⟨?_, ?_, ?_, ?_⟩, ?_, ?_⟩
    · exact fun f hf => hreads f (kinds_mem.1 hf).1
    · exact fun f hf => hp.builtin f (kinds_mem.1 hf).1
    · simp
    · have : (fs.filter (·.file.kind = .rsl)).Pairwise fun f f' => ∀ p p', Belongs f p → Belongs f' p' → ¬ Alike p' p := by
        refine hp.once.imp_of_mem ?_
        intro x y hx hy h p p' hb hb' hal
        have := hp.alike y (List.mem_filter.1 hy).1 x (List.mem_filter.1 hx).1 p' p hb' hb hal
        subst this
        exact h _ hb hb'
      refine ((hpair (k := .rsl) ?_).2 this).imp ?_
      · intro x y h p p' hp hp' hal
        exact h p' p hp' hp (Eq.symm hal)
      · intro x y h p p' hb hb' hal
        exact absurd hal (h p p' hb hb')
    · exact fun f hf => hreads f (kinds_mem.1 hf).1
    · exact fun f hf => hp.builtin f (kinds_mem.1 hf).1
    · intro f hf p hb q hq hal
      obtain ⟨f', hf', -, hb'⟩ := (h1 q).1 hq
      exact ⟨hp.alike f (kinds_mem.1 hf).1 f' hf' p q hb hb' hal, (kinds_mem.1 hf).2⟩
    · refine List.pairwise_of_forall_mem_list ?_
      intro x hx y hy p p' hb hb' hal
      exact ⟨hp.alike y (kinds_mem.1 hy).1 x (kinds_mem.1 hx).1 p' p hb' hb hal, (kinds_mem.1 hy).2⟩
    · intro f hf i hi
      obtain ⟨f', hf', hb, hk⟩ := hp.declared f (kinds_mem.1 hf).1 i hi
      exact (h1 i).2 ⟨f', hf', hk (kinds_mem.1 hf).2, hb⟩
    · intro f hf i hi
      obtain ⟨f', hf', hb, -⟩ := hp.declared f (kinds_mem.1 hf).1 i hi
      exact (h2 i).2 ⟨f', hf', hb⟩

/-- the files that belong to a package -/
theorem belongs_kinds {fs : List Source} {P1 P2 : List (List Char)}
    (h1 : ∀ q, q ∈ P1 ↔ q ∈ ([] : List (List Char)) ∨ ∃ f ∈ sortSources (fs.filter (·.file.kind = .rsl)), Belongs f q)
    (h2 : ∀ q, q ∈ P2 ↔ q ∈ P1 ∨ ∃ f ∈ sortSources (fs.filter (·.file.kind = .trlc)), Belongs f q) :
    (∀ q, q ∈ P1 ↔ ∃ f ∈ fs, f.file.kind = .rsl ∧ Belongs f q) ∧ ∀ q, q ∈ P2 ↔ ∃ f ∈ fs, Belongs f q := by
  have a : ∀ q, q ∈ P1 ↔ ∃ f ∈ fs, f.file.kind = .rsl ∧ Belongs f q := by
    intro q
    rw [h1]
    simp only [List.not_mem_nil, false_or, kinds_mem, and_assoc]
  refine ⟨a, fun q => ?_⟩
  rw [h2, a]
  simp only [kinds_mem]
  constructor
  · rintro (⟨f, hf, -, hb⟩ | ⟨f, ⟨hf, -⟩, hb⟩)
    · exact ⟨f, hf, hb⟩
    · exact ⟨f, hf, hb⟩
  · rintro ⟨f, hf, hb⟩
    cases hk : f.file.kind with
    | rsl => exact .inl ⟨f, hf, hk, hb⟩
    | trlc => exact .inr ⟨f, ⟨hf, hk⟩, hb⟩

theorem goodLoad_resolved {f : Source} {l : Loaded} {p : List Char} {is : List (List Char)} (g : STab)
    (h : GoodLoad f l p is) : GoodLoad f { l with cu := resolveImports g l.cu } p is := by
  have hr := resolveImports_file g l.cu
  refine ⟨h.reads, h.own, ?_, ?_, ?_, ?_, h.file, h.trail, h.suffix⟩
  · dsimp only; rw [hr.2.1]; exact h.noErr
  · dsimp only; rw [hr.2.2.1]; exact h.package
  · dsimp only; rw [hr.1]; exact h.pre
  · dsimp only; rw [hr.2.2.2]; exact h.raw

theorem goodLoads_resolved {fs : List Source} {ls : List Loaded} (g : STab)
    (h : List.Forall₂ (fun f l => ∃ p is, GoodLoad f l p is) fs ls) :
    List.Forall₂ (fun f l => ∃ p is, GoodLoad f l p is) fs (ls.map fun l => { l with cu := resolveImports g l.cu }) := by
  induction h with
  | nil => exact .nil
  | cons h1 _ ih =>
    obtain ⟨p, is, h1⟩ := h1
    exact .cons ⟨p, is, goodLoad_resolved g h1⟩ ih

/-- Without errors, the files form a project. -/
theorem loadAll_good {fs : List Source} {s s' : PS} {g : STab} {ls : List Loaded}
    (h : loadAll globalTable fs s = .ok (g, ls) s') (he : s'.errs = s.errs) :
    Project fs ∧ List.Forall₂ (fun f l => ∃ p is, GoodLoad f l p is)
      (sortSources (fs.filter (·.file.kind = .rsl)) ++ sortSources (fs.filter (·.file.kind = .trlc))) ls := by
  unfold loadAll at h
  rw [bind_apply] at h
  split at h
  · next r1 s1 h1 =>
    obtain ⟨g1, l1⟩ := r1
    have a1 := loadPreambles_ok globalTable_pkgTab h1
    rw [bind_apply] at h
    split at h
    · next l1' s2 h2 =>
      obtain ⟨e1, e2⟩ := resolveLoaded_ok h2
      rw [bind_apply] at h
      split at h
      · next r3 s3 h3 =>
        obtain ⟨g2, l2⟩ := r3
        have a2 := loadPreambles_ok a1.tab h3
        rw [bind_apply] at h
        split at h
        · next l2' s4 h4 =>
          obtain ⟨e3, e4⟩ := resolveLoaded_ok h4
          rw [pure_apply] at h
          injection h with h h'
          subst h'
          injection h with h h'
          subst h
          subst h'
          dsimp only at e1 e2 e3 e4 a2 h3
          obtain ⟨x1, q1⟩ := a1.quiet.errs
          obtain ⟨x2, q2⟩ := a2.quiet.errs
          have q3 : s2.errs = s1.errs ++ l1.flatMap fun l => importErrors g1 l.cu := by rw [e2]
          have q4 : s4.errs = s3.errs ++ l2.flatMap fun l => importErrors g2 l.cu := by rw [e4]
          rw [q4, q2, q3, q1, List.append_assoc, List.append_assoc, List.append_assoc] at he
          have hn := List.append_right_eq_self.1 he
          simp only [List.append_eq_nil_iff] at hn
          obtain ⟨rfl, n2, rfl, n4⟩ := hn
          rw [n2] at q3
          obtain ⟨b1, ⟨P1, k1, m1⟩, f1⟩ := loadPreambles_good globalTable_pkgTab known_global h1 (by simpa using q1)
          obtain ⟨b2, ⟨P2, k2, m2⟩, f2⟩ := loadPreambles_good a1.tab k1 h3 (by simpa using q2)
          obtain ⟨m1', m2'⟩ := belongs_kinds m1 m2
          subst e1
          subst e3
          exact ⟨(project_iff m1' m2').1 ⟨b1, b2, (importErrors_all a1.tab k1 f1).1 n2, (importErrors_all a2.tab k2 f2).1 n4⟩,
            forall₂_append (goodLoads_resolved _ f1) (goodLoads_resolved _ f2)⟩
        · cases h
        · cases h
      · cases h
      · cases h
    · cases h
    · cases h
  · cases h
  · cases h

theorem loadable_congr {fs : List Source} {P P' : List (List Char)} (hP : ∀ q, q ∈ P ↔ q ∈ P') (h : Loadable P fs) :
    Loadable P' fs := by
  rw [loadable_iff] at h ⊢
  exact ⟨h.1, h.2.1, fun f hf p hb q hq => h.2.2.1 f hf p hb q ((hP q).2 hq), h.2.2.2⟩

theorem project_packages {fs : List Source} (h : Project fs) : ∃ P1 P2 : List (List Char),
    (∀ q, q ∈ P1 ↔ ∃ f ∈ fs, f.file.kind = .rsl ∧ Belongs f q) ∧ ∀ q, q ∈ P2 ↔ ∃ f ∈ fs, Belongs f q := by
  have key : ∀ gs : List Source, (∀ f ∈ gs, f ∈ fs) → ∃ P : List (List Char), ∀ q, q ∈ P ↔ ∃ f ∈ gs, Belongs f q := by
    intro gs
    induction gs with
    | nil => intro _; exact ⟨[], by simp⟩
    | cons f gs ih =>
      intro hg
      obtain ⟨P, hP⟩ := ih fun x hx => hg x (List.mem_cons_of_mem _ hx)
      obtain ⟨p, hp⟩ := h.reads f (hg f (by simp))
      refine ⟨p :: P, fun q => ?_⟩
      rw [List.mem_cons, hP]
      constructor
      · rintro (rfl | ⟨x, hx, h⟩)
        · exact ⟨f, by simp, hp⟩
        · exact ⟨x, List.mem_cons_of_mem _ hx, h⟩
      · rintro ⟨x, hx, h⟩
        rcases List.mem_cons.1 hx with rfl | hx
        · exact .inl (belongs_unique h hp)
        · exact .inr ⟨x, hx, h⟩
  obtain ⟨P1, h1⟩ := key (fs.filter (·.file.kind = .rsl)) fun f hf => (List.mem_filter.1 hf).1
  obtain ⟨P2, h2⟩ := key fs fun f hf => hf
  refine ⟨P1, P2, fun q => ?_, h2⟩
  rw [h1]
  simp only [List.mem_filter, decide_eq_true_eq, and_assoc]

/-- The files of a project are loaded without errors. -/
theorem loadAll_accepts {fs : List Source} {s : PS} (hc : ∀ f ∈ fs, CleanSource f) (h : Project fs) :
    ∃ g ls s', loadAll globalTable fs s = .ok (g, ls) s' ∧ s'.errs = s.errs := by
  obtain ⟨P1, P2, m1, m2⟩ := project_packages h
  obtain ⟨b1, b2, c1, c2⟩ := (project_iff m1 m2).2 h
  obtain ⟨g1, l1, s1, h1, q1⟩ := loadPreambles_accepts (s := s) globalTable_pkgTab known_global
    (fun f hf => hc f (kinds_mem.1 hf).1) b1
  have a1 := loadPreambles_ok globalTable_pkgTab h1
  obtain ⟨-, ⟨Q1, k1, n1⟩, f1⟩ := loadPreambles_good globalTable_pkgTab known_global h1 q1
  have e1 : ∀ q, q ∈ Q1 ↔ q ∈ P1 := by
    intro q
    rw [n1, m1]
    simp only [List.not_mem_nil, false_or, kinds_mem, and_assoc]
  have i1 : (l1.flatMap fun l => importErrors g1 l.cu) = [] :=
    (importErrors_all a1.tab k1 f1).2 fun f hf i hi => (e1 i).2 (c1 f hf i hi)
  let s2 : PS := { s1 with errs := s1.errs ++ l1.flatMap fun l => importErrors g1 l.cu }
  have q2 : s2.errs = s1.errs := by show s1.errs ++ _ = _; rw [i1, List.append_nil]
  obtain ⟨g2, l2, s3, h3, q3⟩ := loadPreambles_accepts (s := s2) a1.tab k1
    (fun f hf => hc f (kinds_mem.1 hf).1) (loadable_congr (fun q => (e1 q).symm) b2)
  have a2 := loadPreambles_ok a1.tab h3
  obtain ⟨-, ⟨Q2, k2, n2⟩, f2⟩ := loadPreambles_good a1.tab k1 h3 q3
  have e2 := (belongs_kinds n1 n2).2
  have i2 : (l2.flatMap fun l => importErrors g2 l.cu) = [] :=
    (importErrors_all a2.tab k2 f2).2 fun f hf i hi => (e2 i).2 ((m2 i).1 (c2 f hf i hi))
  refine ⟨_, _, _, (bind_ok h1).trans ((bind_ok (x := resolveLoaded g1 l1) (s1 := s2) rfl).trans
    ((bind_ok h3).trans ((bind_ok (x := resolveLoaded g2 l2) rfl).trans rfl))), ?_⟩
  show s3.errs ++ _ = s.errs
  rw [i2, List.append_nil, q3, q2, q1]

end Verif.Lemmas
