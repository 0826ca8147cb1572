import Verif.Props.Removed
import Verif.Props.TokenSamples
/-!
# C94 applies to a concrete project
-/
namespace Verif.Props
open Verif.Model Verif.Spec Verif.Lemmas Verif.Lemmas.Rearrange

namespace RemoveSample
open RunSample (options outside)
open TokenSample
open MoveSample (none' findAll findAll_sound samePiece samePiece_sound sameRsl lexed lexed_sound)

def after : List Source := [rsl, noZ', b]
def after' : List Source := [rsl, noY, b]

/-- the name of the object -/
def named (k : Piece) (p : Nat) (n : List Char) : Bool :=
  match k.toks with
  | t :: x :: b :: _ => decide (k.env.pkg = p ∧ t.kind = .IDENTIFIER ∧ x.kind = .IDENTIFIER ∧ b.kind = .C_BRA ∧ n = x.text)
  | _ => false

theorem named_sound {k : Piece} {p : Nat} {n : List Char} (h : named k p n = true) : k.Names p n := by
  unfold named at h
  split at h
  · next t x b r e =>
    simp only [decide_eq_true_eq] at h
    obtain ⟨h1, h2, h3, h4, h5⟩ := h
    exact ⟨h1, [t], x, b, r, by rw [e]; rfl, .inl ⟨t, rfl, h2⟩, h3, h4, h5⟩
  · cases h

/-- a number, nothing, or a reference to one of the objects -/
def inside (ks : List Piece) : PVal → Bool
  | .inull | .int _ => true
  | .ref _ p n => ks.any fun k => named k p n
  | _ => false

theorem inside_sound {ks : List Piece} {v : PVal} (h : inside ks v = true) :
    (∀ τ p n, HasRef v τ p n → Stays ks p n) ∧ ∀ r, HasMark v r → Stays ks r.pkg r.name := by
  cases v with
  | inull => exact ⟨fun _ _ _ h => (by cases h), fun _ h => (by cases h)⟩
  | int => exact ⟨fun _ _ _ h => (by cases h), fun _ h => (by cases h)⟩
  | ref =>
    refine ⟨fun τ p n hr => ?_, fun _ h => (by cases h)⟩
    cases hr
    obtain ⟨k, h1, h2⟩ := List.any_eq_true.1 h
    exact ⟨k, h1, named_sound h2⟩
  | _ => cases h

def contained (ks : List Piece) (objs : List Obj) : Bool := objs.all fun o => o.fields.all fun f => inside ks f.2.val

theorem contained_sound {ks : List Piece} {objs : List Obj} (h : contained ks objs = true) : SelfContained ks objs := by
  simp only [contained, List.all_eq_true] at h
  intro o ho _ f hf
  exact inside_sound (h o ho f hf)

/-- one of four declarations is missing -/
def thin (fs fs' : List OpenFile) (j : Nat) : Option (List Piece) :=
  match findAll fs, findAll fs' with
  | some [p, q, r, t], some [a, b, c] =>
    if j = 1 ∧ samePiece p a ∧ samePiece r b ∧ samePiece t c then some [p, r, t]
    else if j = 2 ∧ samePiece p a ∧ samePiece q b ∧ samePiece t c then some [p, q, t] else none
  | _, _ => none

theorem thin_sound {fs fs' : List OpenFile} {j : Nat} {ks : List Piece} (h : thin fs fs' j = some ks) : Thinned fs fs' ks := by
  unfold thin at h
  split at h
  · next p q r t a b c h1 h2 =>
    split at h
    · next k =>
      cases h
      refine ⟨_, [q], _, findAll_sound h1, findAll_sound h2, ?_,
        .cons (samePiece_sound k.2.1) (.cons (samePiece_sound k.2.2.1) (.cons (samePiece_sound k.2.2.2) .nil))⟩
      exact .cons p (List.perm_append_comm (l₁ := [q]) (l₂ := [r, t]))
    · split at h
      · next k =>
        cases h
        refine ⟨_, [r], _, findAll_sound h1, findAll_sound h2, ?_,
          .cons (samePiece_sound k.2.1) (.cons (samePiece_sound k.2.2.1) (.cons (samePiece_sound k.2.2.2) .nil))⟩
        exact .cons p (.cons q (List.perm_append_comm (l₁ := [r]) (l₂ := [t])))
      · cases h
  · cases h

/-- everything about the two projects that can be computed -/
def fits (fs' : List Source) (j : Nat) : Option (List Piece) :=
  match loadAll globalTable project start, loadAll globalTable fs' start with
  | .ok (g, ls) s1, .ok (g', ls') s1' =>
    if (project.all lexed = true ∧ fs'.all lexed = true) ∧
      (g = g' ∧ s1.errs = start.errs ∧ s1'.errs = start.errs) ∧ sameRsl ls ls' = true then
      thin ((trlcFiles ∅ ls).map (·.openFile g options.recover)) ((trlcFiles ∅ ls').map (·.openFile g' options.recover)) j
    else none
  | _, _ => none

theorem fits_sound {fs' : List Source} {j : Nat} {ks : List Piece} (h : fits fs' j = some ks) : ∃ g ls ls' s1 s1',
    Alike none' start project fs' g ls ls' s1 s1' ∧
    Thinned ((trlcFiles (none' (ls.map (·.cu))) ls).map (·.openFile g options.recover))
      ((trlcFiles (none' (ls'.map (·.cu))) ls').map (·.openFile g options.recover)) ks := by
  unfold fits at h
  cases e1 : loadAll globalTable project start with
  | err s => rw [e1] at h; cases h
  | crash c s => rw [e1] at h; cases h
  | ok r s1 =>
    cases e2 : loadAll globalTable fs' start with
    | err s => rw [e1, e2] at h; cases h
    | crash c s => rw [e1, e2] at h; cases h
    | ok r' s1' =>
      obtain ⟨g, ls⟩ := r
      obtain ⟨g', ls'⟩ := r'
      rw [e1, e2] at h
      dsimp only at h
      split at h
      · next k =>
        obtain ⟨⟨h1, h2⟩, ⟨rfl, h3, h4⟩, h5⟩ := k
        simp only [List.all_eq_true] at h1 h2
        simp only [sameRsl, decide_eq_true_eq] at h5
        exact ⟨g, ls, ls', s1, s1', ⟨e1, e2, h3, h4, fun f hf => (lexed_sound (h1 f hf)).1, fun f hf => (lexed_sound (h2 f hf)).1,
          fun f hf => (lexed_sound (h1 f hf)).2, fun f hf => (lexed_sound (h2 f hf)).2, h5.1, h5.2⟩, thin_sound h⟩
      · cases h

def objs : List Obj := (process options outside none' project start).state.objs

set_option maxRecDepth 100000 in
theorem before_table : (process options outside none' project start).out = .table := by decide +kernel

set_option maxRecDepth 100000 in
theorem before_errs : (process options outside none' project start).state.errs = start.errs := by decide +kernel

set_option maxRecDepth 100000 in
theorem fits_true : ((fits after 1).map fun ks => contained ks objs) = some true := by decide +kernel

set_option maxRecDepth 100000 in
theorem fits_some : (fits after' 2).isSome = true := by decide +kernel

set_option maxRecDepth 100000 in
theorem after_fails : (process options outside none' after' start).out ≠ .table := by decide +kernel

attribute [local irreducible] process in
/-- C94 applies: without `z` everything else is the same; without `y` it is not processed, as something refers to it. -/
example : ∃ ks ks', SelfContained ks objs ∧ SameAsSome (Stays ks) objs
      (process options outside none' after start).state.objs ∧ ¬ SelfContained ks' objs := by
  obtain ⟨ks, h1, h2⟩ := Option.map_eq_some_iff.1 fits_true
  obtain ⟨ks', h3⟩ := Option.isSome_iff_exists.1 fits_some
  obtain ⟨g, ls, ls', s1, s1', m, ht⟩ := fits_sound h1
  obtain ⟨_, _, _, _, _, m', ht'⟩ := fits_sound h3
  have hs := contained_sound h2
  have hX : options.lint = true → LintsDecls outside := fun _ => linter_decls (fun _ => ("", "")) rfl
  have k := C94_removed (X := outside) (fresh_blank _) rfl hX m ht before_table before_errs hs
  have k' := C94_removed_iff (X := outside) (fresh_blank _) rfl hX m' ht' before_table before_errs
  exact ⟨ks, ks', hs, k.2.2.2.2.2.2, fun h => after_fails (k'.2 h).1⟩

end RemoveSample
end Verif.Props
