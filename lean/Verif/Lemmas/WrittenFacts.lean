import Verif.Lemmas.Run
import Verif.Spec.Separators
namespace Verif.Lemmas
open Verif.Model Verif.Spec

/-! ## Bounds -/

mutual
theorem written_bounds {E : FileEnv} {N : Names} : (v : PVal) → (τ : Ty) → (ts : List Token) → (nx : Option Token) →
    Written E N v τ ts nx → BoundsOk false v
  | .inull, _, _, _, h => h.elim
  | .bool _, _, _, _, _ => trivial
  | .int _, _, _, _, _ => trivial
  | .dec _, _, _, _, _ => trivial
  | .str _, _, _, _, _ => trivial
  | .markup _ _, _, _, _, _ => trivial
  | .enum _ _, _, _, _, _ => trivial
  | .neg v, τ, _, nx, h => by
    simp only [Written] at h
    obtain ⟨t, r, -, -, -, h, -⟩ := h
    exact written_bounds v τ r nx h
  | .pos v, τ, _, nx, h => by
    simp only [Written] at h
    obtain ⟨t, r, -, -, -, h, -⟩ := h
    exact written_bounds v τ r nx h
  | .arr ty es, τ, _, _, h => by
    simp only [Written] at h
    obtain ⟨-, id, elem, lo, hi, a, r, b, -, -, -, -, h, hl⟩ := h
    exact ⟨hl, writtenElems_bounds es elem r _ h⟩
  | .tup t fs, τ, ts, nx, h => by
    simp only [Written] at h
    obtain ⟨-, cs, -, ⟨seps, -, -, h⟩ | ⟨-, a, r, b, -, -, -, h⟩⟩ := h
    · exact writtenSep_bounds fs cs seps false ts nx h
    · exact writtenPlain_bounds fs cs true r _ h
  | .ref _ _ _, _, _, _, _ => trivial

theorem writtenElems_bounds {E : FileEnv} {N : Names} : (es : List PVal) → (τ : Ty) →
    (ts : List Token) → (nx : Option Token) → WrittenElems E N es τ ts nx → AllBoundsOk false es
  | [], _, _, _, _ => trivial
  | e :: es, τ, ts, nx, h => by
    simp only [WrittenElems] at h
    obtain ⟨a, b, -, h1, ⟨rfl, -⟩ | ⟨-, c, r, -, -, h2⟩⟩ := h
    · exact ⟨written_bounds e τ a _ h1, trivial⟩
    · exact ⟨written_bounds e τ a _ h1, writtenElems_bounds es τ r nx h2⟩

theorem writtenPlain_bounds {E : FileEnv} {N : Names} : (fs : List (String × PVal)) →
    (cs : List Comp) → (first : Bool) → (ts : List Token) → (nx : Option Token) → WrittenPlain E N fs cs first ts nx →
    FieldsBoundsOk false fs
  | [], [], _, _, _, _ => trivial
  | [], _ :: _, _, _, _, h => trivial
  | _ :: _, [], _, _, _, h => by simp only [WrittenPlain] at h
  | f :: fs, c :: cs, first, ts, nx, h => by
    simp only [WrittenPlain] at h
    obtain ⟨k, a, b, -, -, h1, h2⟩ := h
    exact ⟨writtenField_bounds f c a _ h1, writtenPlain_bounds fs cs false b nx h2⟩

theorem writtenSep_bounds {E : FileEnv} {N : Names} : (fs : List (String × PVal)) →
    (cs : List Comp) → (seps : List Sep) → (missed : Bool) → (ts : List Token) → (nx : Option Token) →
    WrittenSep E N fs cs seps missed ts nx → FieldsBoundsOk false fs
  | [], [], _, _, _, _, _ => trivial
  | [], _ :: _, _, _, _, _, _ => trivial
  | _ :: _, [], _, _, _, _, h => by simp only [WrittenSep] at h
  | f :: fs, c :: cs, seps, missed, ts, nx, h => by
    simp only [WrittenSep] at h
    rcases h with ⟨-, -, -, h⟩ | ⟨-, a, b, -, h1, h2⟩
    · exact absent_bounds (f :: fs) (c :: cs) h
    · refine ⟨writtenField_bounds f c a _ h1, ?_⟩
      cases seps with
      | nil => exact writtenSep_bounds fs cs [] missed b nx h2
      | cons sp seps =>
        simp only at h2
        rcases h2 with ⟨x, r, -, -, h2⟩ | ⟨-, h2⟩
        · exact writtenSep_bounds fs cs seps missed r nx h2
        · exact writtenSep_bounds fs cs seps true b nx h2

theorem writtenField_bounds {E : FileEnv} {N : Names} : (f : String × PVal) → (c : Comp) →
    (ts : List Token) → (nx : Option Token) → WrittenField E N f c ts nx → FieldBoundsOk false f
  | (n, v), c, ts, nx, h => by
    simp only [WrittenField] at h
    exact written_bounds v c.ty ts nx h.2

theorem absent_bounds : (fs : List (String × PVal)) → (cs : List Comp) → Absent fs cs →
    FieldsBoundsOk false fs
  | [], _, _ => trivial
  | (n, v) :: fs, [], h => h.elim
  | (n, v) :: fs, c :: cs, h => by
    obtain ⟨-, h1, h2⟩ := h
    simp only at h1
    subst h1
    exact ⟨trivial, absent_bounds fs cs h2⟩
end

/-! ## Assignments of written objects -/

theorem writtenAssigns_mem {E : FileEnv} {N : Names} {t : Nat} : ∀ {asg : List (String × PVal)}
    {ts : List Token} {nx : Option Token}, WrittenAssigns E N t asg ts nx →
    ∀ p ∈ asg, ∃ x y, WrittenAssign E N t p x y := by
  intro asg
  induction asg with
  | nil => intro ts nx _ p hp; cases hp
  | cons a asg ih =>
    intro ts nx h p hp
    simp only [WrittenAssigns] at h
    obtain ⟨x, r, -, h1, h2⟩ := h
    rcases List.mem_cons.1 hp with rfl | hp
    · exact ⟨x, _, h1⟩
    · exact ih h2 p hp

/-- every assignment of every object is written somewhere -/
theorem writtenEntries_assigns {E : FileEnv} {N N' : Names} {k : Nat} {S : List (List Char)}
    {items : List (Obj × List (String × PVal))} {ts : List Token}
    (h : WrittenEntries E N k S items ts N') :
    ∀ x ∈ items, ∀ p ∈ x.2, ∃ M τ r nx, Written E M p.2 τ r nx := by
  induction h with
  | nil => intro x hx; cases hx
  | obj h1 h2 h3 h4 h5 ih =>
    intro x hx p hp
    rcases List.mem_cons.1 hx with rfl | hx
    · obtain ⟨a, e, b, -, -, -, -, x, b', r, k', -, -, -, -, -, hw⟩ := h4
      obtain ⟨y, nx, hy⟩ := writtenAssigns_mem hw p hp
      obtain ⟨x, y, r, c, -, -, -, -, -, -, h⟩ := hy
      exact ⟨_, _, _, _, h⟩
    · exact ih x hx p hp
  | sect h1 h2 h3 h4 h5 h6 ih1 ih2 =>
    intro x hx p hp
    rcases List.mem_append.1 hx with hx | hx
    · exact ih1 x hx p hp
    · exact ih2 x hx p hp

theorem writtenFiles_assigns {N N' : Names} {k : Nat} {fs : List OpenFile}
    {items : List (Obj × List (String × PVal))} (h : WrittenFiles N k fs items N') :
    ∀ x ∈ items, ∀ p ∈ x.2, ∃ E M τ r nx, Written E M p.2 τ r nx := by
  induction h with
  | nil => intro x hx; cases hx
  | cons h1 h2 ih =>
    intro x hx p hp
    rcases List.mem_append.1 hx with hx | hx
    · exact ⟨_, writtenEntries_assigns h1 x hx p hp⟩
    · exact ih x hx p hp

/-! ## Separators -/

theorem sepTail_of {E : FileEnv} {N : Names} : ∀ (cs : List Comp) (fs : List (String × PVal))
    (seps : List Sep) (ts : List Token) (nx : Option Token), (∀ c ∈ cs, c.optional = true) → seps.length = cs.length →
    (match seps with
      | [] => WrittenSep E N fs cs [] false ts nx
      | sp :: seps => (∃ x r, ts = x :: r ∧ SepTok sp x ∧ WrittenSep E N fs cs seps false r nx) ∨
          ((∀ x, follow ts nx = some x → ¬ SepTok sp x) ∧ WrittenSep E N fs cs seps true ts nx)) →
    SepTail E N fs cs seps ts nx := by
  intro cs
  induction cs with
  | nil =>
    intro fs seps ts nx _ hl h
    simp only [List.length_nil, List.length_eq_zero_iff] at hl
    subst hl
    cases fs with
    | nil => simpa [WrittenSep, SepTail] using h
    | cons f fs => simp [WrittenSep] at h
  | cons c cs ih =>
    intro fs seps ts nx hopt hl h
    cases seps with
    | nil => simp at hl
    | cons sp seps =>
      have hlen : seps.length = cs.length := by simpa using hl
      simp only at h
      cases fs with
      | nil =>
        rcases h with ⟨x, r, -, -, h⟩ | ⟨-, h⟩ <;> simp only [WrittenSep] at h
      | cons f fs =>
        simp only [SepTail]
        rcases h with ⟨x, r, rfl, hx, h⟩ | ⟨-, h⟩
        · simp only [WrittenSep] at h
          rcases h with ⟨h, -⟩ | ⟨-, a, b, rfl, h1, h2⟩
          · cases h
          · refine .inr ⟨x, a, b, rfl, hx, h1, ih fs seps b nx (fun d hd => hopt d (List.mem_cons_of_mem _ hd)) hlen ?_⟩
            cases seps with
            | nil => exact h2
            | cons sp' seps => exact h2
        · simp only [WrittenSep] at h
          rcases h with ⟨-, -, rfl, h⟩ | ⟨h, -⟩
          · exact .inl ⟨rfl, hopt, h⟩
          · have := hopt c List.mem_cons_self
            rw [h trivial] at this
            cases this

theorem sepForm_of {E : FileEnv} {N : Names} {c : Comp} {cs : List Comp} {fs : List (String × PVal)}
    {seps : List Sep} {ts : List Token} {nx : Option Token} (hopt : ∀ d ∈ cs, d.optional = true)
    (hl : seps.length = cs.length) (h : WrittenSep E N fs (c :: cs) seps false ts nx) :
    SepForm E N fs (c :: cs) seps ts nx := by
  cases fs with
  | nil => simp only [WrittenSep] at h
  | cons f fs =>
    simp only [WrittenSep] at h
    rcases h with ⟨h, -⟩ | ⟨-, a, b, rfl, h1, h2⟩
    · cases h
    · refine ⟨a, b, rfl, h1, sepTail_of cs fs seps b nx hopt hl ?_⟩
      cases seps with
      | nil => exact h2
      | cons sp seps => exact h2

end Verif.Lemmas
