import Mathlib.Data.List.Forall2
import Verif.Lemmas.Markup
/-!
# Markup strings: parsing
-/
namespace Verif.Lemmas.MarkupP
open Verif.Model Verif.Spec Verif.Lemmas

/-! ## The tokens of a text -/

/-- kind and text of a token -/
abbrev MTk := MKind × List Char

/-- The text consists of the given tokens. -/
inductive MLexes : Bool → List Char → List MTk → Prop
  | done {refl t} : mscan refl t = .eof → MLexes refl t []
  | tok {refl t n k len refl' ts} : mscan refl t = .tok n k len refl' →
      MLexes refl' (t.drop (n + len)) ts → MLexes refl t ((k, (t.drop n).take len) :: ts)

/-- tokens, then the end or an error -/
inductive Ends : List MOut → Prop
  | eof : Ends [.eof]
  | error {a b c d} : Ends [.error a b c d]
  | tok {t l} : Ends l → Ends (.tok t :: l)

theorem mscan_len {refl : Bool} {t : List Char} {n : Nat} {k : MKind} {len : Nat} {refl' : Bool}
    (h : mscan refl t = .tok n k len refl') : 0 < len ∧ n + len ≤ t.length := by
  unfold mscan at h
  dsimp only at h
  generalize (if refl = true then (t.takeWhile isSpace).length else 0) = m at h
  split at h
  · cases h
  · next c r hd =>
    have hl : t.length - m = r.length + 1 := by
      have := congrArg List.length hd
      simpa using this
    have two : ∀ d, r.head? = some d → 1 ≤ r.length := by
      intro d hd
      cases r with
      | nil => cases hd
      | cons _ _ => simp
    split at h
    · next hh =>
      split at h <;> cases h
      have := two _ hh.2
      omega
    · split at h
      · next hh =>
        split at h <;> cases h
        have := two _ hh.2
        omega
      · split at h
        · cases h; omega
        · split at h
          · cases h; omega
          · split at h
            · cases h; omega
            · split at h
              · cases h
                have : (r.takeWhile isWord).length ≤ r.length := (List.takeWhile_prefix _).length_le
                omega
              · cases h

theorem markupStream_ends : ∀ (fuel : Nat) (l : MLex), Inv l.s → l.s.todo.length < fuel →
    Ends (markupStream fuel l) := by
  intro fuel
  induction fuel with
  | zero => intro l _ h; omega
  | succ fuel ih =>
    intro l hi hf
    unfold markupStream
    rw [mtoken_eq hi]
    cases hm : mscan l.refl l.s.todo with
    | eof => exact .eof
    | err n k => exact .error
    | tok n k len refl =>
      have := mscan_len hm
      refine .tok (ih _ (inv_advN hi _) ?_)
      simp only [advN_todo, List.length_drop]
      omega

/-- kind and text -/
def MTok.tk (t : MTok) : MTk := (t.kind, t.text)

theorem stream_lexes : ∀ (ts : List MTok) (fuel : Nat) (l : MLex), Inv l.s →
    markupStream fuel l = ts.map .tok ++ [.eof] → MLexes l.refl l.s.todo (ts.map MTok.tk) := by
  intro ts
  induction ts with
  | nil =>
    intro fuel l hi h
    cases fuel with
    | zero => cases h
    | succ fuel =>
      unfold markupStream at h
      rw [mtoken_eq hi] at h
      cases hm : mscan l.refl l.s.todo with
      | eof => exact .done hm
      | err n k => rw [hm] at h; simp at h
      | tok n k len refl => rw [hm] at h; simp at h
  | cons t ts ih =>
    intro fuel l hi h
    cases fuel with
    | zero => cases h
    | succ fuel =>
      unfold markupStream at h
      rw [mtoken_eq hi] at h
      cases hm : mscan l.refl l.s.todo with
      | eof => rw [hm] at h; simp at h
      | err n k => rw [hm] at h; simp at h
      | tok n k len refl =>
        rw [hm] at h
        simp only [List.map_cons, List.cons_append, List.cons.injEq, MOut.tok.injEq] at h
        obtain ⟨rfl, h⟩ := h
        have := ih fuel _ (inv_advN hi _) h
        simp only [advN_todo] at this
        exact .tok hm this

theorem lexes_stream {refl : Bool} {text : List Char} {ts : List MTk} (h : MLexes refl text ts) :
    ∀ (fuel : Nat) (l : MLex), Inv l.s → l.s.todo.length < fuel → l.refl = refl → l.s.todo = text →
      ∃ toks : List MTok, markupStream fuel l = toks.map .tok ++ [.eof] ∧ toks.map MTok.tk = ts := by
  induction h with
  | done hm =>
    intro fuel l hi hf h1 h2
    cases fuel with
    | zero => omega
    | succ fuel =>
      refine ⟨[], ?_, rfl⟩
      unfold markupStream
      rw [mtoken_eq hi, h1, h2, hm]
      rfl
  | @tok refl t n k len refl' ts hm _ ih =>
    intro fuel l hi hf h1 h2
    cases fuel with
    | zero => omega
    | succ fuel =>
      have hl := mscan_len hm
      obtain ⟨toks, h3, h4⟩ := ih fuel ⟨refl', advN (n + len) l.s⟩ (inv_advN hi _)
        (by simp only [advN_todo, List.length_drop]; rw [h2]; rw [h2] at hf; omega) rfl
        (by simp only [advN_todo, h2])
      refine ⟨⟨k, (t.drop n).take len, l.s.pos + n, l.s.pos + n + len - 1,
          lineOf l.s.content (l.s.pos + n), colOf l.s.content (l.s.pos + n)⟩ :: toks, ?_, ?_⟩
      · unfold markupStream
        rw [mtoken_eq hi, h1, h2, hm]
        simp only [List.map_cons, List.cons_append, h3]
      · simp [MTok.tk, h4]

/-! ## Grammar on tokens -/

/-- tokens of a name -/
inductive GMName : List MTk → MName → Prop
  | plain {n} : GMName [(.IDENTIFIER, n)] (none, n)
  | qualified {p d n} : GMName [(.IDENTIFIER, p), (.DOT, d), (.IDENTIFIER, n)] (some p, n)

/-- tokens of further names -/
inductive GMTail : List MTk → List MName → Prop
  | nil : GMTail [] []
  | cons {x ts n ts' ns} : GMName ts n → GMTail ts' ns → GMTail ((.COMMA, x) :: (ts ++ ts')) (n :: ns)

/-- tokens of a markup string -/
inductive GMAll : List MTk → List MName → Prop
  | nil : GMAll [] []
  | char {x ts ns} : GMAll ts ns → GMAll ((.CHARACTER, x) :: ts) ns
  | refs {x ts n ts' ns y ts'' ms} : GMName ts n → GMTail ts' ns → GMAll ts'' ms →
      GMAll ((.BEGIN, x) :: (ts ++ (ts' ++ (.END, y) :: ts''))) (n :: ns ++ ms)

/-! ## States of the parser -/

/-- what is still to come -/
def outs (s : MS) : List MOut := match s.nt with
  | some t => .tok t :: s.rest
  | none => [.eof]

/-- nothing is missing at the end -/
def WfS (s : MS) : Prop := s.nt.isSome → Ends s.rest

theorem advance_cases {s : MS} {t : MTok} (hw : WfS s) (hn : s.nt = some t) :
    s.advance = .error ∨ ∃ s', s.advance = .ok s' ∧ outs s = .tok t :: outs s' ∧ s'.ct = some t ∧
      s'.refs = s.refs ∧ WfS s' := by
  have he := hw (by rw [hn]; rfl)
  have ho : outs s = .tok t :: s.rest := by unfold outs; rw [hn]
  unfold MS.advance
  rw [ho]
  generalize hr : s.rest = r at he
  cases he with
  | eof => right; exact ⟨_, rfl, rfl, hn, rfl, by intro h; cases h⟩
  | error => left; rfl
  | tok he => right; exact ⟨_, rfl, rfl, hn, rfl, fun _ => he⟩

theorem match_cases {s : MS} {k : MKind} (hw : WfS s) :
    s.match k = .error ∨ ∃ t s', t.kind = k ∧ s.match k = .ok s' ∧ outs s = .tok t :: outs s' ∧
      s'.ct = some t ∧ s'.refs = s.refs ∧ WfS s' := by
  unfold MS.match
  by_cases hp : s.peek k = true
  · rw [if_pos hp]
    unfold MS.peek at hp
    cases hn : s.nt with
    | none => rw [hn] at hp; simp at hp
    | some t =>
      rw [hn] at hp
      rcases advance_cases hw hn with h | ⟨s', h1, h2, h3, h4, h5⟩
      · exact .inl h
      · exact .inr ⟨t, s', by simpa using hp, h1, h2, h3, h4, h5⟩
  · rw [if_neg hp]
    exact .inl rfl

theorem match_ok {s : MS} {t : MTok} {k : MKind} {ts : List MTok} (hw : WfS s) (hk : t.kind = k)
    (ho : outs s = (t :: ts).map .tok ++ [.eof]) :
    ∃ s', s.match k = .ok s' ∧ outs s' = ts.map .tok ++ [.eof] ∧ s'.ct = some t ∧ s'.refs = s.refs ∧
      WfS s' := by
  have hn : s.nt = some t ∧ s.rest = ts.map .tok ++ [.eof] := by
    unfold outs at ho
    cases hn : s.nt with
    | none => rw [hn] at ho; simp at ho
    | some t' =>
      rw [hn] at ho
      simp only [List.map_cons, List.cons_append, List.cons.injEq, MOut.tok.injEq] at ho
      exact ⟨by rw [ho.1], ho.2⟩
  have hp : s.peek k = true := by unfold MS.peek; rw [hn.1]; simpa using hk
  rcases match_cases (k := k) hw with h | ⟨t', s', h1, h2, h3, h4, h5, h6⟩
  · exfalso
    unfold MS.match at h
    rw [if_pos hp] at h
    unfold MS.advance at h
    rw [hn.2] at h
    cases ts <;> simp at h
  · rw [h3] at ho
    simp only [List.map_cons, List.cons_append, List.cons.injEq, MOut.tok.injEq] at ho
    exact ⟨s', h2, ho.2, by rw [h4, ho.1], h5, h6⟩

theorem peek_iff {s : MS} {k : MKind} : s.peek k = true ↔ ∃ t l, outs s = .tok t :: l ∧ t.kind = k := by
  unfold MS.peek outs
  cases s.nt <;> simp

theorem lookup_package {g : STab} {n : List Char} {p : Ent → Bool} {e : Ent} :
    g.lookupDirect n (some p) false = .ok e ↔ g.lookup n none = .ok e ∧ p e = true := by
  unfold STab.lookup STab.lookupDirect
  cases g.find (simplifiedName n) with
  | none => simp
  | some rv =>
    by_cases hn : rv.name = n
    · simp only [hn, ne_eq, not_true_eq_false, decide_false, Bool.and_false, Bool.false_eq_true, if_false,
        Option.any_some, Option.any_none]
      constructor
      · intro h
        split at h
        · cases h
        · next hp => cases h; exact ⟨rfl, by simpa using hp⟩
      · rintro ⟨h, hp⟩
        cases h
        simp [hp]
    · simp [hn]

/-! ## Soundness -/

section
variable (E : MEnv)

/-- What is consumed, and the new references -/
def MStep (x : MR) (s : MS) (G : List MTk → List MRef → Prop) : Prop :=
  x = .error ∨ (x = .crash ∧ E.resolved = false) ∨ ∃ (s' : MS) (ts : List MTok) (rs : List MRef), x = .ok s' ∧ WfS s' ∧
    outs s = ts.map .tok ++ outs s' ∧ s'.refs = s.refs ++ rs ∧ G (ts.map MTok.tk) rs

theorem qualifiedName_cases {s : MS} (hw : WfS s) :
    MStep E (s.qualifiedName E) s (fun ts rs => ∃ n r, GMName ts n ∧ Refers E n r ∧ rs = [r]) := by
  unfold MS.qualifiedName
  rcases match_cases (k := .IDENTIFIER) hw with h | ⟨t, s1, hk, h, ho, hc, hr, hw1⟩
  · rw [h]; exact .inl rfl
  · rw [h]
    simp only [MR.bind]
    split
    · have hv : s1.value = t.text := by simp [MS.value, hc]
      rw [hv]
      cases hl : E.global.lookupDirect t.text (some fun e => decide (e.cls = clsPackage)) false with
      | error _ => exact .inl rfl
      | ok e =>
        simp only
        cases hres : E.resolved with
        | false => exact .inr (.inl ⟨rfl, hres⟩)
        | true =>
          simp only [Bool.not_true, Bool.false_eq_true, if_false]
          split
          · next hvis =>
            rcases match_cases (k := .DOT) hw1 with h | ⟨d, s2, hk2, h, ho2, hc2, hr2, hw2⟩
            · rw [h]; exact .inl rfl
            · rw [h]
              simp only [MR.bind]
              rcases match_cases (k := .IDENTIFIER) hw2 with h | ⟨t', s3, hk3, h, ho3, hc3, hr3, hw3⟩
              · rw [h]; exact .inl rfl
              · rw [h]
                simp only [MR.bind]
                refine .inr (.inr ⟨_, [t, d, t'], [⟨e.id, s3.value⟩], rfl, hw3, ?_, ?_, ?_⟩)
                · rw [ho, ho2, ho3]; rfl
                · simp [hr3, hr2, hr]
                · have hv3 : s3.value = t'.text := by simp [MS.value, hc3]
                  rw [hv3]
                  refine ⟨(some t.text, t'.text), _, ?_, ⟨e, ?_, ?_, hres, ?_, rfl⟩, rfl⟩
                  · simp only [List.map_cons, List.map_nil, MTok.tk, hk, hk2, hk3]
                    exact .qualified
                  · exact (lookup_package.1 hl).1
                  · simpa using (lookup_package.1 hl).2
                  · simpa using hvis
          · exact .inl rfl
    · refine .inr (.inr ⟨_, [t], [⟨E.pkg, s1.value⟩], rfl, hw1, ?_, ?_, ?_⟩)
      · rw [ho]; rfl
      · simp [hr]
      · have hv : s1.value = t.text := by simp [MS.value, hc]
        rw [hv]
        refine ⟨(none, t.text), _, ?_, rfl, rfl⟩
        simp only [List.map_cons, List.map_nil, MTok.tk, hk]
        exact .plain

theorem outs_pos (s : MS) : 0 < (outs s).length := by
  unfold outs; split <;> simp

theorem names_cases : ∀ (k : Nat) (s : MS), WfS s → (outs s).length ≤ k →
    MStep E (s.names E k) s (fun ts rs => ∃ ns, GMTail ts ns ∧ List.Forall₂ (Refers E) ns rs) := by
  intro k
  induction k with
  | zero => intro s _ h; have := outs_pos s; omega
  | succ k ih =>
    intro s hw hk
    unfold MS.names
    split
    · rcases match_cases (k := .COMMA) hw with h | ⟨c, s1, hk1, h, ho, hc, hr, hw1⟩
      · rw [h]; exact .inl rfl
      · rw [h]
        simp only [MR.bind]
        rcases qualifiedName_cases E hw1 with h | ⟨h, h'⟩ | ⟨s2, ts, rs, h, hw2, ho2, hr2, n, r, hg, hrf, rfl⟩
        · rw [h]; exact .inl rfl
        · rw [h]; exact .inr (.inl ⟨rfl, h'⟩)
        · rw [h]
          simp only
          have hl : (outs s2).length ≤ k := by
            rw [ho, ho2] at hk
            simp only [List.length_cons, List.length_append] at hk
            omega
          rcases ih s2 hw2 hl with h | ⟨h, h'⟩ | ⟨s3, ts', rs', h, hw3, ho3, hr3, ns, hg', hf⟩
          · exact .inl h
          · exact .inr (.inl ⟨h, h'⟩)
          · refine .inr (.inr ⟨s3, c :: (ts ++ ts'), r :: rs', h, hw3, ?_, ?_, n :: ns, ?_, .cons hrf hf⟩)
            · rw [ho, ho2, ho3]; simp
            · rw [hr3, hr2, hr]; simp
            · simp only [List.map_cons, List.map_append, MTok.tk, hk1]
              exact .cons hg hg'
    · exact .inr (.inr ⟨s, [], [], rfl, hw, rfl, by simp, [], .nil, .nil⟩)

theorem outs_rest {s : MS} : (outs s).length ≤ s.rest.length + 1 := by
  unfold outs; split <;> simp

theorem refList_cases {s : MS} (hw : WfS s) :
    MStep E (s.refList E) s (fun ts rs => ∃ x ts1 n ts2 ns y, ts = (.BEGIN, x) :: (ts1 ++ (ts2 ++ [(.END, y)])) ∧
      GMName ts1 n ∧ GMTail ts2 ns ∧ List.Forall₂ (Refers E) (n :: ns) rs) := by
  unfold MS.refList
  rcases match_cases (k := .BEGIN) hw with h | ⟨b, s1, hk1, h, ho, hc, hr, hw1⟩
  · rw [h]; exact .inl rfl
  · rw [h]
    simp only [MR.bind]
    rcases qualifiedName_cases E hw1 with h | ⟨h, h'⟩ | ⟨s2, ts1, rs, h, hw2, ho2, hr2, n, r, hg, hrf, rfl⟩
    · rw [h]; exact .inl rfl
    · rw [h]; exact .inr (.inl ⟨rfl, h'⟩)
    · rw [h]
      simp only
      rcases names_cases E (s2.rest.length + 1) s2 hw2 outs_rest with
        h | ⟨h, h'⟩ | ⟨s3, ts2, rs2, h, hw3, ho3, hr3, ns, hg', hf⟩
      · rw [h]; exact .inl rfl
      · rw [h]; exact .inr (.inl ⟨rfl, h'⟩)
      · rw [h]
        simp only
        rcases match_cases (k := .END) hw3 with h | ⟨e, s4, hk4, h, ho4, hc4, hr4, hw4⟩
        · exact .inl h
        · refine .inr (.inr ⟨s4, b :: (ts1 ++ (ts2 ++ [e])), r :: rs2, h, hw4, ?_, ?_,
            b.text, ts1.map MTok.tk, n, ts2.map MTok.tk, ns, e.text, ?_, hg, hg', .cons hrf hf⟩)
          · rw [ho, ho2, ho3, ho4]; simp
          · rw [hr4, hr3, hr2, hr]; simp
          · simp [MTok.tk, hk1, hk4]

theorem all_cases : ∀ (k : Nat) (s : MS), WfS s → (outs s).length ≤ k →
    (s.all E k = .error ∨ (s.all E k = .crash ∧ E.resolved = false) ∨ ∃ (s' : MS) (ts : List MTok) (rs : List MRef) (ns : List MName), s.all E k = .ok s' ∧
      outs s = ts.map .tok ++ [.eof] ∧ s'.refs = s.refs ++ rs ∧ GMAll (ts.map MTok.tk) ns ∧
      List.Forall₂ (Refers E) ns rs) := by
  intro k
  induction k with
  | zero => intro s _ h; have := outs_pos s; omega
  | succ k ih =>
    intro s hw hk
    unfold MS.all
    cases hn : s.nt with
    | none => exact .inr (.inr ⟨s, [], [], [], by simp, by simp [outs, hn], by simp, .nil, .nil⟩)
    | some t =>
      simp only [Option.isSome_some, if_true]
      have ho : outs s = .tok t :: s.rest := by simp [outs, hn]
      by_cases hp : s.peek .CHARACTER = true
      · rw [if_pos hp]
        have hkind : t.kind = .CHARACTER := by
          unfold MS.peek at hp; rw [hn] at hp; simpa using hp
        rcases advance_cases hw hn with h | ⟨s1, h, ho1, -, hr1, hw1⟩
        · rw [h]; exact .inl rfl
        · rw [h]
          simp only [MR.bind]
          have hl : (outs s1).length ≤ k := by
            rw [ho1] at hk
            simp only [List.length_cons] at hk
            omega
          rcases ih s1 hw1 hl with h | h | ⟨s2, ts, rs, ns, h, h1, h2, h3, h4⟩
          · exact .inl h
          · exact .inr (.inl h)
          · exact .inr (.inr ⟨s2, t :: ts, rs, ns, h, by rw [ho1, h1]; rfl, by rw [h2, hr1],
            by simp only [List.map_cons, MTok.tk, hkind]; exact .char h3, h4⟩)
      · rw [if_neg hp]
        rcases refList_cases E hw with h | ⟨h, h'⟩ | ⟨s1, ts, rs, h, hw1, ho1, hr1, x, ts1, n, ts2, ns, y, hts, a2, a3, a5⟩
        · rw [h]; exact .inl rfl
        · rw [h]; exact .inr (.inl ⟨rfl, h'⟩)
        · rw [h]
          simp only [MR.bind]
          have hl : (outs s1).length ≤ k := by
            have ht := congrArg List.length hts
            rw [ho1] at hk
            simp only [List.length_map, List.length_cons, List.length_append] at hk ht
            omega
          rcases ih s1 hw1 hl with h | h | ⟨s2, ts', rs', ms, h, h1, h2, h3, h4⟩
          · exact .inl h
          · exact .inr (.inl h)
          · refine .inr (.inr ⟨s2, ts ++ ts', rs ++ rs', n :: ns ++ ms, h, ?_, ?_, ?_, ?_⟩)
            · rw [ho1, h1]; simp
            · rw [h2, hr1, List.append_assoc]
            · rw [List.map_append, hts]
              have := GMAll.refs (x := x) (y := y) a2 a3 h3
              simpa using this
            · exact List.rel_append a5 h4

/-! ## Completeness -/

/-- exactly the given tokens are to come -/
def At (s : MS) (ts : List MTk) : Prop :=
  ∃ toks : List MTok, outs s = toks.map .tok ++ [.eof] ∧ toks.map MTok.tk = ts ∧ WfS s

theorem At.match {s : MS} {k : MKind} {x : List Char} {ts : List MTk} (h : At s ((k, x) :: ts)) :
    ∃ s', s.match k = .ok s' ∧ At s' ts ∧ s'.value = x ∧ s'.refs = s.refs := by
  obtain ⟨toks, ho, ht, hw⟩ := h
  cases toks with
  | nil => cases ht
  | cons t toks =>
    simp only [List.map_cons, List.cons.injEq, MTok.tk, Prod.mk.injEq] at ht
    obtain ⟨s', h1, h2, h3, h4, h5⟩ := match_ok hw ht.1.1 ho
    exact ⟨s', h1, ⟨toks, h2, ht.2, h5⟩, by simp [MS.value, h3, ht.1.2], h4⟩

theorem At.peek {s : MS} {ts : List MTk} {k : MKind} (h : At s ts) :
    s.peek k = (ts.head?.any fun t => t.1 = k) := by
  obtain ⟨toks, ho, rfl, hw⟩ := h
  rw [Bool.eq_iff_iff, peek_iff, ho]
  cases toks <;> simp [MTok.tk]

theorem At.length {s : MS} {ts : List MTk} (h : At s ts) : (outs s).length = ts.length + 1 := by
  obtain ⟨toks, ho, rfl, hw⟩ := h
  rw [ho]; simp

theorem qualifiedName_ok {s : MS} {ts ts' : List MTk} {n : MName} {r : MRef} (hg : GMName ts n)
    (hr : Refers E n r) (h : At s (ts ++ ts')) (hd : ts'.head?.all fun t => t.1 ≠ .DOT) :
    ∃ s', s.qualifiedName E = .ok s' ∧ At s' ts' ∧ s'.refs = s.refs ++ [r] := by
  unfold MS.qualifiedName
  cases hg with
  | @plain n =>
    obtain ⟨s1, h1, h2, hv, h4⟩ := At.match h
    have hp : s1.peek .DOT = false := by
      rw [h2.peek]
      cases ts' with
      | nil => rfl
      | cons t' _ => simpa using hd
    simp only [Refers] at hr
    rw [h1]
    simp only [MR.bind, hp, MS.add, hv]
    exact ⟨_, rfl, h2, by rw [← h4, hr]⟩
  | @qualified p d n =>
    obtain ⟨s1, h1, h2, hv, h4⟩ := At.match h
    have hp : s1.peek .DOT = true := by
      rw [h2.peek]; simp
    obtain ⟨e, he, hc, hres, hvis, rfl⟩ := hr
    obtain ⟨s2, h5, h6, h7, h8⟩ := At.match h2
    obtain ⟨s3, h9, h10, hv3, h12⟩ := At.match h6
    have hl : E.global.lookupDirect p (some fun e => decide (e.cls = clsPackage)) false = .ok e :=
      lookup_package.2 ⟨he, by simpa using hc⟩
    have hvis' : (e.id == E.pkg || E.imports.contains e.id) = true := by simpa using hvis
    rw [h1]
    simp only [MR.bind, hp, if_true, hv, hl, hres, Bool.not_true, Bool.false_eq_true, if_false, hvis', h5,
      h9, MS.add, hv3]
    exact ⟨_, rfl, h10, by rw [h12, h8, h4]⟩

theorem names_ok {ts : List MTk} {ns : List MName} (hg : GMTail ts ns) :
    ∀ (k : Nat) (s : MS) (ts' : List MTk) (rs : List MRef), List.Forall₂ (Refers E) ns rs →
      At s (ts ++ ts') → (∃ y l, ts' = (.END, y) :: l) → (outs s).length ≤ k →
      ∃ s', s.names E k = .ok s' ∧ At s' ts' ∧ s'.refs = s.refs ++ rs := by
  induction hg with
  | nil =>
    intro k s ts' rs hf h he hk
    cases hf
    cases k with
    | zero => have := outs_pos s; omega
    | succ k =>
      unfold MS.names
      obtain ⟨y, l, rfl⟩ := he
      have hp : s.peek .COMMA = false := by rw [h.peek]; simp
      simp only [hp]
      exact ⟨s, rfl, h, by simp⟩
  | @cons x ts n ts2 ns hg1 hg2 ih =>
    intro k s ts' rs hf h he hk
    cases hf with
    | @cons _ r _ rs hr hf =>
      cases k with
      | zero => have := outs_pos s; omega
      | succ k =>
        unfold MS.names
        have hp : s.peek .COMMA = true := by rw [h.peek]; simp
        rw [if_pos hp]
        obtain ⟨s1, h1, h2, h3, h4⟩ := At.match h
        rw [h1]
        simp only [MR.bind]
        have hd : (ts2 ++ ts').head?.all fun t => t.1 ≠ .DOT := by
          cases hg2 with
          | nil => obtain ⟨e, l, rfl⟩ := he; simp
          | cons _ _ => simp
        replace h2 : At s1 (ts ++ (ts2 ++ ts')) := by rw [← List.append_assoc]; exact h2
        obtain ⟨s2, h5, h6, h7⟩ := qualifiedName_ok E hg1 hr h2 hd
        rw [h5]
        simp only
        have hl : (outs s2).length ≤ k := by
          have a := h.length
          have b := h6.length
          simp only [List.length_append, List.length_cons] at a b
          omega
        obtain ⟨s3, h8, h9, h10⟩ := ih k s2 ts' rs hf h6 he hl
        exact ⟨s3, h8, h9, by rw [h10, h7, h4]; simp⟩

theorem peek_isSome {s : MS} {k : MKind} (hp : s.peek k = true) : s.nt.isSome = true := by
  unfold MS.peek at hp
  cases hn : s.nt with
  | none => rw [hn] at hp; cases hp
  | some t => rfl

theorem all_ok {ts : List MTk} {ns : List MName} (hg : GMAll ts ns) :
    ∀ (k : Nat) (s : MS) (rs : List MRef), List.Forall₂ (Refers E) ns rs → At s ts → (outs s).length ≤ k →
      ∃ s', s.all E k = .ok s' ∧ s'.refs = s.refs ++ rs := by
  induction hg with
  | nil =>
    intro k s rs hf h hk
    cases hf
    cases k with
    | zero => have := outs_pos s; omega
    | succ k =>
      unfold MS.all
      have : s.nt = none := by
        obtain ⟨toks, ho, ht, -⟩ := h
        cases toks with
        | cons _ _ => cases ht
        | nil =>
          unfold outs at ho
          cases hn : s.nt with
          | none => rfl
          | some t => rw [hn] at ho; simp at ho
      simp only [this]
      exact ⟨s, rfl, by simp⟩
  | @char x ts ns _ ih =>
    intro k s rs hf h hk
    cases k with
    | zero => have := outs_pos s; omega
    | succ k =>
      unfold MS.all
      obtain ⟨s1, h1, h2, h3, h4⟩ := At.match h
      have hp : s.peek .CHARACTER = true := by rw [h.peek]; simp
      unfold MS.match at h1
      rw [if_pos hp] at h1
      rw [if_pos (peek_isSome hp), if_pos hp, h1]
      simp only [MR.bind]
      have hl : (outs s1).length ≤ k := by
        have a := h.length
        have b := h2.length
        simp only [List.length_cons] at a
        omega
      obtain ⟨s2, h5, h6⟩ := ih k s1 rs hf h2 hl
      exact ⟨s2, h5, by rw [h6, h4]⟩
  | @refs x ts1 n ts2 ns y ts3 ms hg1 hg2 _ ih =>
    intro k s rs hf h hk
    cases k with
    | zero => have := outs_pos s; omega
    | succ k =>
      unfold MS.all
      have hp : s.peek .CHARACTER = false := by rw [h.peek]; simp
      have hp' : s.peek .BEGIN = true := by rw [h.peek]; simp
      rw [if_pos (peek_isSome hp'), hp]
      simp only [Bool.false_eq_true, if_false]
      unfold MS.refList
      obtain ⟨s1, h1, h2, h3, h4⟩ := At.match h
      rw [h1]
      simp only [MR.bind]
      obtain ⟨rs1, rs2, hf1, hf2, rfl⟩ : ∃ rs1 rs2, List.Forall₂ (Refers E) (n :: ns) rs1 ∧
          List.Forall₂ (Refers E) ms rs2 ∧ rs = rs1 ++ rs2 := by
        refine ⟨rs.take (n :: ns).length, rs.drop (n :: ns).length, ?_, ?_, (List.take_append_drop _ _).symm⟩
        · have := List.forall₂_take (n :: ns).length hf
          rwa [List.take_left'] at this
          rfl
        · have := List.forall₂_drop (n :: ns).length hf
          rwa [List.drop_left'] at this
          rfl
      cases hf1 with
      | @cons _ r _ rs1 hr hf1 =>
        have hd : (ts2 ++ (.END, y) :: ts3).head?.all fun t => t.1 ≠ .DOT := by
          cases hg2 with
          | nil => simp
          | cons _ _ => simp
        obtain ⟨s2, h5, h6, h7⟩ := qualifiedName_ok E hg1 hr h2 hd
        rw [h5]
        simp only
        obtain ⟨s3, h8, h9, h10⟩ := names_ok E hg2 (s2.rest.length + 1) s2 ((.END, y) :: ts3) rs1 hf1 h6
          ⟨y, ts3, rfl⟩ outs_rest
        rw [h8]
        simp only
        obtain ⟨s4, h11, h12, h13, h14⟩ := At.match h9
        rw [h11]
        simp only
        have hl : (outs s4).length ≤ k := by
          have a := h.length
          have b := h12.length
          simp only [List.length_append, List.length_cons] at a b
          omega
        obtain ⟨s5, h15, h16⟩ := ih k s4 rs2 hf2 h12 hl
        exact ⟨s5, h15, by rw [h16, h14, h10, h7, h4]; simp⟩

end

end Verif.Lemmas.MarkupP
