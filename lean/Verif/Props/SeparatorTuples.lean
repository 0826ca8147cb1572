import Verif.Props.Objects
import Verif.Props.Grammar
import Verif.Lemmas.ValueAccepts
/-!
# C34: what is accepted for tuple types with separators
-/
namespace Verif.Props
open Verif.Model Verif.Spec Verif.Lemmas

/-! ## Specification -/

/-- After a field: further fields, each behind its separator, up to a required field whose separator is missing: its value
comes at once.  What is behind that value is left open. -/
def GapTail (E : FileEnv) (N : Names) :
    List (String × PVal) → List Comp → List Sep → List Token → Option Token → Prop
  | f :: fs, c :: cs, sp :: seps, ts, nx =>
      (c.optional = false ∧ (∀ x, follow ts nx = some x → ¬ SepTok sp x) ∧
        ∃ a b, ts = a ++ b ∧ WrittenField E N f c a (follow b nx)) ∨
      (∃ x a b, ts = x :: a ++ b ∧ SepTok sp x ∧ WrittenField E N f c a (follow b nx) ∧
        GapTail E N fs cs seps b nx)
  | _, _, _, _, _ => False

/-- The tokens are a value of a tuple type with separators in which the separator in front of a required field is missing. -/
def GapForm (E : FileEnv) (N : Names) :
    List (String × PVal) → List Comp → List Sep → List Token → Option Token → Prop
  | f :: fs, c :: cs, seps, ts, nx =>
      ∃ a b, ts = a ++ b ∧ WrittenField E N f c a (follow b nx) ∧ GapTail E N fs cs seps b nx
  | _, _, _, _, _ => False

/-! ## Lemmas -/

private theorem tail_either {E : FileEnv} {N : Names} : ∀ (cs : List Comp) (fs : List (String × PVal))
    (seps : List Sep) (ts : List Token) (nx : Option Token), OptionalTail cs → seps.length = cs.length →
    (match seps with
      | [] => WrittenSep E N fs cs [] false ts nx
      | sp :: seps => (∃ x r, ts = x :: r ∧ SepTok sp x ∧ WrittenSep E N fs cs seps false r nx) ∨
          ((∀ x, follow ts nx = some x → ¬ SepTok sp x) ∧ WrittenSep E N fs cs seps true ts nx)) →
    SepTail E N fs cs seps ts nx ∨ GapTail E N fs cs seps ts nx := by
  intro cs
  induction cs with
  | nil =>
    intro fs seps ts nx _ hl h
    simp only [List.length_nil, List.length_eq_zero_iff] at hl
    subst hl
    cases fs with
    | nil => exact .inl (by simpa [WrittenSep, SepTail] using h)
    | cons f fs => simp [WrittenSep] at h
  | cons c cs ih =>
    intro fs seps ts nx hopt hl h
    cases seps with
    | nil => simp at hl
    | cons sp seps =>
      have hlen : seps.length = cs.length := by simpa using hl
      simp only at h
      cases fs with
      | nil =>
        rcases h with ⟨x, r, -, -, h⟩ | ⟨-, h⟩ <;> simp only [WrittenSep] at h
      | cons f fs =>
        simp only [SepTail, GapTail]
        rcases h with ⟨x, r, rfl, hx, h⟩ | ⟨hno, h⟩
        · simp only [WrittenSep] at h
          rcases h with ⟨h, -⟩ | ⟨-, a, b, rfl, h1, h2⟩
          · cases h
          · have := ih fs seps b nx hopt.2 hlen (by cases seps <;> exact h2)
            rcases this with h3 | h3
            · exact .inl (.inr ⟨x, a, b, rfl, hx, h1, h3⟩)
            · exact .inr (.inr ⟨x, a, b, rfl, hx, h1, h3⟩)
        · simp only [WrittenSep] at h
          rcases h with ⟨-, ho, rfl, h⟩ | ⟨h, a, b, rfl, h1, -⟩
          · exact .inl (.inl ⟨rfl, by simpa [ho] using hopt.1 ho, h⟩)
          · exact .inr (.inl ⟨h trivial, hno, a, b, rfl, h1⟩)

private theorem tail_written {E : FileEnv} {N : Names} : ∀ (cs : List Comp) (fs : List (String × PVal))
    (seps : List Sep) (ts : List Token) (nx : Option Token), seps.length = cs.length →
    (∀ x, nx = some x → ∀ sp ∈ seps, ¬ SepTok sp x) → SepTail E N fs cs seps ts nx →
    (match seps with
      | [] => WrittenSep E N fs cs [] false ts nx
      | sp :: seps => (∃ x r, ts = x :: r ∧ SepTok sp x ∧ WrittenSep E N fs cs seps false r nx) ∨
          ((∀ x, follow ts nx = some x → ¬ SepTok sp x) ∧ WrittenSep E N fs cs seps true ts nx)) := by
  intro cs
  induction cs with
  | nil =>
    intro fs seps ts nx hl _ h
    simp only [List.length_nil, List.length_eq_zero_iff] at hl
    subst hl
    cases fs with
    | nil => simpa [WrittenSep, SepTail] using h
    | cons f fs => simp [SepTail] at h
  | cons c cs ih =>
    intro fs seps ts nx hl hnx h
    cases seps with
    | nil => simp at hl
    | cons sp seps =>
      have hlen : seps.length = cs.length := by simpa using hl
      simp only
      cases fs with
      | nil => simp [SepTail] at h
      | cons f fs =>
        simp only [SepTail] at h
        rcases h with ⟨rfl, ho, habs⟩ | ⟨x, a, b, rfl, hx, h1, h2⟩
        · refine .inr ⟨fun x hx => hnx x (by simpa [follow] using hx) sp (by simp), ?_⟩
          simp only [WrittenSep]
          exact .inl ⟨trivial, ho c (by simp), trivial, habs⟩
        · refine .inl ⟨x, a ++ b, by simp, hx, ?_⟩
          have := ih fs seps b nx hlen (fun x hx sp hm => hnx x hx sp (by simp [hm])) h2
          simp only [WrittenSep]
          refine .inr ⟨by simp, a, b, rfl, h1, ?_⟩
          cases seps <;> exact this

private theorem nt_words (s : PS) : s.nt = (words s).head? := by
  unfold words
  split
  · next h => simp [h]
  · next h => simp [h]

/-! ## C34 -/

variable {E : FileEnv} {n t : Nat} {s s' : PS} {c : Comp} {cs : List Comp} {seps : List Sep}

/-- **C34**, for all tuple types with separators: an accepted value has the form the reference manual gives, or else the
separator in front of a required field is missing (`C34_separator_missing` shows that this happens). -/
theorem C34_either {v : PVal} (hwf : WFDecls s.decls) (htup : TuplesOk s.decls)
    (ht : s.decls.tups[t]? = some (c :: cs)) (hs : s.seps[t]? = some seps) (hne : seps ≠ [])
    (hl : seps.length = cs.length) (h : parseValue E n (.tup t) s = .ok v s') (he : s'.errs = s.errs) :
    ∃ fs ts, v = .tup t fs ∧ words s = ts ++ words s' ∧
      (SepForm E (namesOf s) fs (c :: cs) seps ts s'.nt ∨ GapForm E (namesOf s) fs (c :: cs) seps ts s'.nt) := by
  have hlt : t < s.decls.tups.length := by
    rcases Nat.lt_or_ge t s.decls.tups.length with h | h
    · exact h
    · rw [List.getElem?_eq_none h] at ht; cases ht
  obtain ⟨-, ts, hw, hwr⟩ := parseValue_rd hwf htup n (.tup t) hlt s rfl s (Fr.refl _) v s' h
  have hwr := hwr he
  cases v with
  | tup t' fs =>
    simp only [Written] at hwr
    obtain ⟨ht', cs', hcs', hwr⟩ := hwr
    injection ht' with ht'
    subst ht'
    have hcs' : s.decls.tups[t]? = some cs' := hcs'
    rw [ht] at hcs'
    injection hcs' with hcs'
    subst hcs'
    refine ⟨fs, ts, rfl, hw, ?_⟩
    rcases hwr with ⟨seps', h1, -, h2⟩ | ⟨h1, -⟩
    · have h1 : s.seps[t]? = some seps' := h1
      rw [hs] at h1
      injection h1 with h1
      subst h1
      cases fs with
      | nil => simp only [WrittenSep] at h2
      | cons f fs =>
        simp only [WrittenSep] at h2
        rcases h2 with ⟨h2, -⟩ | ⟨-, a, b, rfl, h1, h2⟩
        · cases h2
        · rcases tail_either cs fs seps b s'.nt (htup t _ ht).tail.2 hl
              (by cases hsp : seps with | nil => rw [hsp] at h2; exact h2 | cons _ _ => rw [hsp] at h2; exact h2) with h3 | h3
          · exact .inl ⟨a, b, rfl, h1, h3⟩
          · exact .inr ⟨a, b, rfl, h1, h3⟩
    · have h1 : (s.seps[t]?).getD [] = [] := h1
      rw [hs] at h1
      exact absurd h1 hne
  | neg v => simp [Written] at hwr
  | pos v => simp [Written] at hwr
  | inull => simp [Written] at hwr
  | bool b => simp [Written] at hwr
  | int b => simp [Written] at hwr
  | dec b => simp [Written] at hwr
  | str b => simp [Written] at hwr
  | markup b => simp [Written] at hwr
  | enum a b => simp [Written] at hwr
  | arr a b =>
    simp only [Written] at hwr
    obtain ⟨h1, id, elem, lo, hi, a, r, b, h2, -⟩ := hwr
    rw [← h1] at h2
    cases h2
  | ref a b c =>
    simp only [Written] at hwr
    obtain ⟨h1, ⟨r, h2⟩ | ⟨id, ms, h2⟩, -⟩ := hwr <;> (rw [← h1] at h2; cases h2)

/-- **C34**, what is not lost, for all tuple types with separators: if the words ahead have the form the reference manual
gives and no separator of the type comes behind them, they are accepted, and the value has these fields. -/
theorem C34_accepted {fs : List (String × PVal)} {ts w : List Token} (hwf : WFDecls s.decls) (htup : TuplesOk s.decls)
    (ht : s.decls.tups[t]? = some (c :: cs)) (hs : s.seps[t]? = some seps) (hne : seps ≠ [])
    (hl : seps.length = cs.length) (hn : t + 1 < n) (ha : Ahead s ts w)
    (hnx : ∀ x, w.head? = some x → ∀ sp ∈ seps, ¬ SepTok sp x)
    (hform : SepForm E (namesOf s) fs (c :: cs) seps ts w.head?) :
    ∃ s', parseValue E n (.tup t) s = .ok (.tup t fs) s' ∧ words s' = w ∧ OnlyMoved s s' := by
  obtain ⟨s', hst, hws, -⟩ := clean_steps ts s w ha.2 ha.1
  have hlt : t < s.decls.tups.length := by
    rcases Nat.lt_or_ge t s.decls.tups.length with h | h
    · exact h
    · rw [List.getElem?_eq_none h] at ht; cases ht
  refine ⟨s', parseValue_acc (N := namesOf s) hwf htup n (.tup t) hn hlt _ ts s s' ?_ hst rfl, hws, steps_moved hst⟩
  rw [nt_words, hws]
  simp only [Written]
  refine ⟨trivial, c :: cs, ht, .inl ⟨seps, hs, hne, ?_⟩⟩
  cases fs with
  | nil => simp [SepForm] at hform
  | cons f fs =>
    obtain ⟨a, b, rfl, h1, h2⟩ := hform
    have := tail_written cs fs seps b w.head? hl hnx h2
    simp only [WrittenSep]
    refine .inr ⟨by simp, a, b, rfl, h1, ?_⟩
    cases seps <;> exact this

/-- **C34**, exactly, if all fields after the first are optional: a value is accepted if and only if the words have the form
the reference manual gives.  (Behind the value comes no separator of the type.) -/
theorem C34_exactly_partial {fs : List (String × PVal)} {w : List Token} (hwf : WFDecls s.decls) (htup : TuplesOk s.decls)
    (ht : s.decls.tups[t]? = some (c :: cs)) (hs : s.seps[t]? = some seps) (hne : seps ≠ [])
    (hl : seps.length = cs.length) (hopt : ∀ d ∈ cs, d.optional = true) (hn : t + 1 < n)
    (hc : ∀ o ∈ s.rest, (∃ t, o = .tok t) ∨ o = .eof)
    (hnx : ∀ x, w.head? = some x → ∀ sp ∈ seps, ¬ SepTok sp x) :
    (∃ s', parseValue E n (.tup t) s = .ok (.tup t fs) s' ∧ words s' = w ∧ s'.errs = s.errs) ↔
      ∃ ts, words s = ts ++ w ∧ SepForm E (namesOf s) fs (c :: cs) seps ts w.head? := by
  constructor
  · rintro ⟨s', h, rfl, he⟩
    obtain ⟨fs', ts, h1, h2, h3⟩ := C34_separators_partial hwf htup ht hs hne hl hopt h he
    cases h1
    rw [nt_words] at h3
    exact ⟨ts, h2, h3⟩
  · rintro ⟨ts, h1, h2⟩
    obtain ⟨s', h3, h4, h5⟩ := C34_accepted hwf htup ht hs hne hl hn ⟨h1, hc⟩ hnx h2
    exact ⟨s', h3, h4, h5.2.2.2.2.2.2.2⟩

/-- the hypotheses are met: `1 @ 2` in front of `}`, for a type with two integers and separator `@` -/
example : let s := before twoState "1 @ 2 }"
    s.decls.tups[0]? = some [Sample.comp "a" .int false (.tup 0), Sample.comp "b" .int false (.tup 0)] ∧
    s.seps[0]? = some [.kind .AT] ∧ (s.rest.all fun o => match o with | .tok _ => true | .eof => true | _ => false) = true ∧
    (words s).length = 4 ∧ Sample.isOk (parseValue Sample.env0 5 (.tup 0) s) = true := by decide +kernel

/-- the words have the required form -/
example : ∃ ts w, Ahead (before twoState "1 @ 2 }") ts w ∧ (∀ x, w.head? = some x → ∀ sp ∈ [Sep.kind .AT], ¬ SepTok sp x) ∧
    SepForm Sample.env0 (namesOf (before twoState "1 @ 2 }")) [("a", .int 1), ("b", .int 2)]
      [Sample.comp "a" .int false (.tup 0), Sample.comp "b" .int false (.tup 0)] [.kind .AT] ts w.head? := by
  refine ⟨(words (before twoState "1 @ 2 }")).take 3, (words (before twoState "1 @ 2 }")).drop 3,
    ⟨(List.take_append_drop _ _).symm, ?_⟩, ?_, ?_⟩
  · have h : ((before twoState "1 @ 2 }").rest.all fun o => match o with | .tok _ => true | .eof => true | _ => false) = true := by
      decide +kernel
    intro o ho
    have := List.all_eq_true.1 h o ho
    split at this
    · exact .inl ⟨_, rfl⟩
    · exact .inr rfl
    · cases this
  · have h : (((words (before twoState "1 @ 2 }")).drop 3).head?.all fun x => x.kind != .AT) = true := by decide +kernel
    intro x hx sp hsp
    rw [hx] at h
    simp at hsp h
    subst hsp
    exact h
  · have h : ((words (before twoState "1 @ 2 }")).take 3).map (fun t => (t.kind, t.value)) =
        [(.INTEGER, .int 1), (.AT, .none), (.INTEGER, .int 2)] := by decide +kernel
    revert h
    generalize (words (before twoState "1 @ 2 }")).take 3 = ts
    intro h
    obtain ⟨x, ts, rfl, h1, h⟩ := List.map_eq_cons_iff.1 h
    obtain ⟨y, ts, rfl, h2, h⟩ := List.map_eq_cons_iff.1 h
    obtain ⟨z, ts, rfl, h3, h⟩ := List.map_eq_cons_iff.1 h
    obtain rfl := List.map_eq_nil_iff.1 h
    simp only [Prod.mk.injEq] at h1 h2 h3
    refine ⟨[x], [y, z], rfl, ?_, ?_⟩
    · simp only [WrittenField, Written]
      exact ⟨rfl, rfl, x, 1, rfl, h1.1, h1.2, rfl⟩
    · simp only [SepTail]
      refine .inr ⟨y, [z], [], rfl, h2.1, ?_, rfl⟩
      simp only [WrittenField, Written]
      exact ⟨rfl, rfl, z, 2, rfl, h3.1, h3.2, rfl⟩

end Verif.Props
