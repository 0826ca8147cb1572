import Verif.Lemmas.RenameValue
import Verif.Model.Markup
/-!
# Two runs with different packages: the text of a markup string
-/
namespace Verif.Lemmas.Rename
open Verif.Model Verif.Lemmas

/-- the same state of the parser -/
def Ren.ms (K : Ren) (s : MS) : MS := { s with refs := s.refs.map K.mref }

/-- All names to come, and those found, mean the same in both runs. -/
structure MInv (K : Ren) (s : MS) : Prop where
  next : ∀ t, s.nt = some t → t.kind = .IDENTIFIER → K.Seen t.text
  rest : ∀ t, MOut.tok t ∈ s.rest → t.kind = .IDENTIFIER → K.Seen t.text
  refs : ∀ r ∈ s.refs, K.Seen r.name

/-- The results in the two runs -/
inductive MResR (K : Ren) (A : MS → Prop) : MR → MR → Prop
  | ok {s : MS} : MInv K s → A s → MResR K A (.ok s) (.ok (K.ms s))
  | error : MResR K A .error .error
  | crash : MResR K A .crash .crash

/-- What the parser is given in the two runs -/
structure MEnvR (K : Ren) (E E' : MEnv) : Prop where
  global : E.global = K.g
  global' : E'.global = K.g'
  pkg : E'.pkg = K.num E.pkg
  resolved : E'.resolved = E.resolved
  visible : ∀ i, (K.num i == E'.pkg || E'.imports.contains (K.num i)) = (i == E.pkg || E.imports.contains i)

variable {K : Ren}

theorem MResR.bind {A B : MS → Prop} {x x' : MR} {f f' : MS → MR} (h : MResR K A x x')
    (hf : ∀ s, MInv K s → A s → MResR K B (f s) (f' (K.ms s))) : MResR K B (x.bind f) (x'.bind f') := by
  cases h with
  | ok h1 h2 => exact hf _ h1 h2
  | error => exact .error
  | crash => exact .crash

theorem mAdvance {s : MS} (h : MInv K s) : MResR K (fun u => u.ct = s.nt) s.advance (K.ms s).advance := by
  unfold MS.advance
  dsimp only [Ren.ms]
  cases hr : s.rest with
  | nil => exact .ok ⟨(fun _ h => by cases h), (fun _ h => by cases h), h.refs⟩ rfl
  | cons o r =>
    cases o with
    | tok t =>
      refine .ok ⟨fun u hu => ?_, fun u hu => ?_, h.refs⟩ rfl
      · cases hu; exact h.rest t (hr ▸ List.mem_cons_self ..)
      · exact h.rest u (hr ▸ List.mem_cons_of_mem _ hu)
    | eof => exact .ok ⟨(fun _ h => by cases h), (fun _ h => by cases h), h.refs⟩ rfl
    | error => exact .error

theorem mMatch {s : MS} {k : MKind} (h : MInv K s) :
    MResR K (fun u => k = .IDENTIFIER → K.Seen u.value) (s.match k) ((K.ms s).match k) := by
  unfold MS.match
  show MResR K _ (if s.peek k then _ else _) (if s.peek k then _ else _)
  split
  · next hp =>
    have h1 := mAdvance h
    generalize s.advance = a at h1 ⊢
    generalize (K.ms s).advance = b at h1 ⊢
    cases h1 with
    | error => exact .error
    | crash => exact .crash
    | @ok u h2 h3 =>
      refine .ok h2 fun hk => ?_
      unfold MS.peek at hp
      cases hn : s.nt with
      | none => rw [hn] at hp; cases hp
      | some t =>
        rw [hn] at hp h3
        unfold MS.value
        rw [h3]
        have : t.kind = k := by simpa using hp
        exact h.next t hn (this.trans hk)
  · exact .error

theorem mAdd {s : MS} {p : Nat} (h : MInv K s) (hv : K.Seen s.value) :
    MResR K (fun _ => True) (s.add p) ((K.ms s).add (K.num p)) := by
  unfold MS.add
  have : ({ K.ms s with refs := (K.ms s).refs ++ [⟨K.num p, (K.ms s).value⟩] } : MS) =
      K.ms { s with refs := s.refs ++ [⟨p, s.value⟩] } := by
    unfold Ren.ms
    dsimp only
    rw [List.map_append]
    rfl
  rw [this]
  refine .ok ⟨h.next, h.rest, fun r hr => ?_⟩ trivial
  rcases List.mem_append.1 hr with hr | hr
  · exact h.refs r hr
  · rw [List.mem_singleton.1 hr]; exact hv

theorem ms_peek (s : MS) (k : MKind) : (K.ms s).peek k = s.peek k := rfl

section
variable [hK : K.Ok] {E E' : MEnv} (hE : MEnvR K E E')
include hE

theorem mQualifiedName {s : MS} (h : MInv K s) :
    MResR K (fun _ => True) (s.qualifiedName E) ((K.ms s).qualifiedName E') := by
  unfold MS.qualifiedName
  refine (mMatch h).bind fun s h hv => ?_
  rw [ms_peek]
  split
  · rw [hE.global, hE.global', show (K.ms s).value = s.value from rfl,
      (agree_glob (hv rfl)).lookupDirect subR_cls]
    cases hl : K.g.lookupDirect s.value (some fun e => decide (e.cls = clsPackage)) false with
    | error => exact .error
    | ok e =>
      have hc : e.cls = clsPackage := of_decide_eq_true (lookup_sub hl)
      dsimp only [Except.map]
      rw [ent_id hc, hE.visible, hE.resolved]
      split
      · exact .crash
      · split
        · exact (mMatch h).bind fun s h _ => (mMatch h).bind fun s h hv => mAdd h (hv rfl)
        · exact .error
  · rw [hE.pkg]; exact mAdd h (hv rfl)

theorem mNames (k : Nat) : ∀ {s : MS}, MInv K s → MResR K (fun _ => True) (s.names E k) ((K.ms s).names E' k) := by
  induction k with
  | zero => intro s _; exact .crash
  | succ k ih =>
    intro s h
    unfold MS.names
    rw [ms_peek]
    split
    · exact (mMatch h).bind fun s h _ => (mQualifiedName hE h).bind fun s h _ => ih h
    · exact .ok h trivial

theorem mRefList {s : MS} (h : MInv K s) : MResR K (fun _ => True) (s.refList E) ((K.ms s).refList E') := by
  unfold MS.refList
  refine (mMatch h).bind fun s h _ => (mQualifiedName hE h).bind fun s h _ => (mNames hE _ h).bind fun s h _ => ?_
  have h1 := mMatch (k := .END) h
  generalize s.match .END = a at h1 ⊢
  generalize (K.ms s).match .END = b at h1 ⊢
  cases h1 with
  | error => exact .error
  | crash => exact .crash
  | ok h2 _ => exact .ok h2 trivial

theorem mAll (k : Nat) : ∀ {s : MS}, MInv K s → MResR K (fun _ => True) (s.all E k) ((K.ms s).all E' k) := by
  induction k with
  | zero => intro s _; exact .crash
  | succ k ih =>
    intro s h
    unfold MS.all
    rw [ms_peek, show (K.ms s).nt = s.nt from rfl]
    split
    · split
      · exact (mAdvance h).bind fun s h _ => ih h
      · exact (mRefList hE h).bind fun s h _ => ih h
    · exact .ok h trivial

/-- The references of a markup string are the same. -/
theorem markup_same {content : List Char} {t : Token}
    (h : ∀ u, MOut.tok u ∈ markupTokens (nestedText (slice content t.startPos t.endPos)) → u.kind = .IDENTIFIER →
      K.Seen u.text) :
    MarkR K (markupParser E content t) (markupParser E' content t) := by
  unfold markupParser parseMarkupText
  dsimp only
  generalize nestedText (slice content t.startPos t.endPos) = text at h ⊢
  have h0 : MInv K ⟨none, none, markupTokens text, []⟩ := ⟨(fun _ h => by cases h), h, (fun _ h => by cases h)⟩
  have h1 := (mAdvance h0).bind fun s h _ => mAll hE (text.length + 2) h
  rw [show K.ms ⟨none, none, markupTokens text, []⟩ = ⟨none, none, markupTokens text, []⟩ from rfl] at h1
  generalize ((MS.mk none none (markupTokens text) []).advance.bind fun s => s.all E (text.length + 2)) = a at h1 ⊢
  generalize ((MS.mk none none (markupTokens text) []).advance.bind fun s => s.all E' (text.length + 2)) = b at h1 ⊢
  cases h1 with
  | error => exact .error
  | crash => exact .crash
  | ok h2 _ => exact .ok h2.refs

end

end Verif.Lemmas.Rename
