import Verif.Props.Reorder
import Verif.Props.TokenSamples
/-!
# C97 for concrete projects
-/
namespace Verif.Props
open Verif.Model Verif.Spec Verif.Lemmas Verif.Lemmas.Rearrange

namespace OrderSample
open RunSample (options outside)
open TokenSample
open MoveSample (none' findAll findAll_sound sameToks sameToks_sound sameRsl lexed lexed_sound)

/-- `tuple T { a Integer separator x b optional Integer } type R { t T u optional Integer x optional Integer }` -/
def types : Source := file "p.rsl" .rsl (pkg ++ ([kw "tuple", idn "T", pun .C_BRA, idn "a", idn "Integer", kw "separator", idn "x", idn "b", kw "optional", idn "Integer", pun .C_KET] ++
  [kw "type", idn "R", pun .C_BRA, idn "t", idn "T", idn "u", kw "optional", idn "Integer", idn "x", kw "optional", idn "Integer", pun .C_KET]))

/-- `R o { t = 1 u = 2 }` -/
def tu : Source := file "a.trlc" .trlc (pkg ++ [idn "R", idn "o", pun .C_BRA, idn "t", pun .ASSIGN, num 1, idn "u", pun .ASSIGN, num 2, pun .C_KET])

/-- `R o { u = 2 t = 1 }` -/
def ut : Source := file "a.trlc" .trlc (pkg ++ [idn "R", idn "o", pun .C_BRA, idn "u", pun .ASSIGN, num 2, idn "t", pun .ASSIGN, num 1, pun .C_KET])

/-- `R o { t = 1 x = 2 }` -/
def tx : Source := file "a.trlc" .trlc (pkg ++ [idn "R", idn "o", pun .C_BRA, idn "t", pun .ASSIGN, num 1, idn "x", pun .ASSIGN, num 2, pun .C_KET])

/-- `R o { x = 2 t = 1 }` -/
def xt : Source := file "a.trlc" .trlc (pkg ++ [idn "R", idn "o", pun .C_BRA, idn "x", pun .ASSIGN, num 2, idn "t", pun .ASSIGN, num 1, pun .C_KET])

def sepTok : Sep → Token → Bool
  | .kind k, t => decide (t.kind = k)
  | .ident v, t => decide (t.kind = .IDENTIFIER ∧ t.value = .str v)

theorem sepTok_iff {sp : Sep} {t : Token} : sepTok sp t = true ↔ SepTok sp t := by
  cases sp <;> simp [sepTok, SepTok]

/-- the same object with two assignments exchanged -/
def swapped (S : List (List Sep)) (p p' : Piece) : Bool :=
  match p.toks with
  | [n, x, b, a1, a2, a3, b1, b2, b3, k] =>
    decide (n.kind = .IDENTIFIER ∧ x.kind = .IDENTIFIER ∧ b.kind = .C_BRA ∧ k.kind = .C_KET ∧ a1.kind = .IDENTIFIER ∧
      a2.kind = .ASSIGN ∧ a3.kind ≠ .ASSIGN ∧ b1.kind = .IDENTIFIER ∧ b2.kind = .ASSIGN ∧ b3.kind ≠ .ASSIGN) &&
    S.all (fun ss => ss.all fun sp => !sepTok sp a1 && !sepTok sp b1) &&
    sameToks p.env p'.env [n, x, b, b1, b2, b3, a1, a2, a3, k] p'.toks &&
    decide (p'.env.global = p.env.global ∧ p'.env.pkg = p.env.pkg ∧ p'.env.imports = p.env.imports ∧
      p'.env.resolved = p.env.resolved)
  | _ => false

theorem swapped_sound {S : List (List Sep)} {p p' : Piece} (h : swapped S p p' = true) : Reordered S p p' := by
  unfold swapped at h
  split at h
  · next n x b a1 a2 a3 b1 b2 b3 k e =>
    simp only [Bool.and_eq_true, decide_eq_true_eq, List.all_eq_true, Bool.not_eq_true'] at h
    obtain ⟨⟨⟨⟨h1, h2, h3, h4, h5, h6, h7, h8, h9, h10⟩, hS⟩, hT⟩, h11, h12, h13, h14⟩ := h
    refine ⟨⟨h11, h12, h13, h14⟩, [n], x, b, [[a1, a2, a3], [b1, b2, b3]], [[b1, b2, b3], [a1, a2, a3]], k, e, .inl ⟨n, rfl, h1⟩, h2, h3,
      h4, ?_, List.Perm.swap _ _ _, sameToks_sound hT⟩
    have no : ∀ t, (t = a1 ∨ t = b1) → ∀ ss ∈ S, ∀ sp ∈ ss, ¬ SepTok sp t := by
      intro t ht ss hss sp hsp hx
      have := hS ss hss sp hsp
      rw [← sepTok_iff] at hx
      rcases ht with rfl | rfl
      · rw [this.1] at hx; cases hx
      · rw [this.2] at hx; cases hx
    intro a ha
    simp only [List.mem_cons, List.not_mem_nil, or_false] at ha
    rcases ha with rfl | rfl
    · refine ⟨⟨_, _, [a3], rfl, h5, h6, by simpa using h7⟩, fun t ht => ?_⟩
      cases ht
      exact no _ (.inl rfl)
    · refine ⟨⟨_, _, [b3], rfl, h8, h9, by simpa using h10⟩, fun t ht => ?_⟩
      cases ht
      exact no _ (.inr rfl)
  · cases h

/-- one object with two assignments exchanged -/
def exchanged (S : List (List Sep)) (fs fs' : List OpenFile) : Bool :=
  match findAll fs, findAll fs' with
  | some [p], some [p'] => swapped S p p'
  | _, _ => false

theorem exchanged_sound {S : List (List Sep)} {fs fs' : List OpenFile} (h : exchanged S fs fs' = true) :
    RearrangedBy (Reordered S) fs fs' := by
  unfold exchanged at h
  split at h
  · next p p' h1 h2 => exact ⟨_, [p], _, findAll_sound h1, findAll_sound h2, .refl _, .cons (swapped_sound h) .nil⟩
  · cases h

/-- everything about two projects that can be computed -/
def fits (S : List (List Sep)) (ps ps' : List Source) : Bool :=
  ps.all lexed && ps'.all lexed &&
  match loadAll globalTable ps start, loadAll globalTable ps' start with
  | .ok (g, ls) s1, .ok (g', ls') s1' =>
    decide (g = g' ∧ s1.errs = start.errs ∧ s1'.errs = start.errs) && sameRsl ls ls' &&
    exchanged S ((trlcFiles ∅ ls).map (·.openFile g options.recover)) ((trlcFiles ∅ ls').map (·.openFile g' options.recover))
  | _, _ => false

theorem fits_sound {S : List (List Sep)} {ps ps' : List Source} (h : fits S ps ps' = true) :
    ∃ g ls ls' s1 s1', Alike none' start ps ps' g ls ls' s1 s1' ∧
    RearrangedBy (Reordered S) ((trlcFiles (none' (ls.map (·.cu))) ls).map (·.openFile g options.recover))
      ((trlcFiles (none' (ls'.map (·.cu))) ls').map (·.openFile g options.recover)) := by
  unfold fits at h
  simp only [Bool.and_eq_true, List.all_eq_true] at h
  obtain ⟨⟨h1, h2⟩, h3⟩ := h
  cases e1 : loadAll globalTable ps start with
  | err s => rw [e1] at h3; cases h3
  | crash c s => rw [e1] at h3; cases h3
  | ok r s1 =>
    cases e2 : loadAll globalTable ps' start with
    | err s => rw [e1, e2] at h3; cases h3
    | crash c s => rw [e1, e2] at h3; cases h3
    | ok r' s1' =>
      obtain ⟨g, ls⟩ := r
      obtain ⟨g', ls'⟩ := r'
      rw [e1, e2] at h3
      simp only [Bool.and_eq_true, decide_eq_true_eq] at h3
      obtain ⟨⟨⟨rfl, h4, h5⟩, h6⟩, h7⟩ := h3
      simp only [sameRsl, decide_eq_true_eq] at h6
      exact ⟨g, ls, ls', s1, s1', ⟨e1, e2, h4, h5, fun f hf => (lexed_sound (h1 f hf)).1, fun f hf => (lexed_sound (h2 f hf)).1,
        fun f hf => (lexed_sound (h1 f hf)).2, fun f hf => (lexed_sound (h2 f hf)).2, h6.1, h6.2⟩, exchanged_sound h7⟩

set_option maxRecDepth 100000 in
theorem tu_table : (process options outside none' [types, tu] start).out = .table ∧
    (process options outside none' [types, tu] start).state.errs = start.errs ∧
    (process options outside none' [types, tu] start).state.seps = [[.ident ['x']]] := by decide +kernel

set_option maxRecDepth 100000 in
theorem tu_fits : fits [[.ident ['x']]] [types, tu] [types, ut] = true := by decide +kernel

attribute [local irreducible] process in
/-- C97 applies: `t` and `u` can be exchanged. -/
example : (process options outside none' [types, ut] start).out = .table ∧
    SameContent (process options outside none' [types, tu] start).state.objs (process options outside none' [types, ut] start).state.objs := by
  obtain ⟨g, ls, ls', s1, s1', m, ht⟩ := fits_sound tu_fits
  rw [← tu_table.2.2] at ht
  have h := C97_order_partial (X := outside) (fresh_blank _) rfl (fun _ => linter_decls (fun _ => ("", "")) rfl) m ht
    tu_table.1 tu_table.2.1
  exact ⟨h.1, h.2.2.2.2.2.2⟩

set_option maxRecDepth 100000 in
theorem xt_table : (process options outside none' [types, xt] start).out = .table ∧
    (process options outside none' [types, xt] start).state.errs = start.errs ∧
    (process options outside none' [types, tx] start).out ≠ .table := by decide +kernel

set_option maxRecDepth 100000 in
theorem xt_fits : fits [] [types, xt] [types, tx] = true := by decide +kernel

end OrderSample

attribute [local irreducible] process in
/-- **C97** does not hold in general: in `R o { x = 2 t = 1 }` the assignments cannot be exchanged if the second component of
the tuple type of `t` is optional and written behind a separator `x`. -/
theorem C97_order_matters : ∃ (o : Options) (X : Outside) (required : List CU → Finset PNode) (fs fs' : List Source) (s : PS) (g : STab)
    (ls ls' : List Loaded) (s1 s1' : PS), Blank s ∧ o.parseTrlc = true ∧ LintsDecls X ∧ Alike required s fs fs' g ls ls' s1 s1' ∧
    RearrangedBy (Reordered []) ((trlcFiles (required (ls.map (·.cu))) ls).map (·.openFile g o.recover))
      ((trlcFiles (required (ls'.map (·.cu))) ls').map (·.openFile g o.recover)) ∧
    (process o X required fs s).out = .table ∧ (process o X required fs s).state.errs = s.errs ∧
    (process o X required fs' s).out ≠ .table := by
  obtain ⟨g, ls, ls', s1, s1', m, ht⟩ := OrderSample.fits_sound OrderSample.xt_fits
  exact ⟨_, _, _, _, _, _, g, ls, ls', s1, s1', fresh_blank _, rfl, linter_decls (fun _ => ("", "")) rfl, m, ht, OrderSample.xt_table.1,
    OrderSample.xt_table.2.1, OrderSample.xt_table.2.2⟩

end Verif.Props
