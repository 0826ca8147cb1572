import Verif.Lemmas.QuoteMain
import Verif.Props.Grammar
import Verif.Props.LexerSpans
import Verif.Lemmas.RslInv
/-!
# Expressions quoted in messages (C81)

A message about a check quotes the expression.  Would the text, written instead of the
expression, be read as that expression?  No: brackets, quotes of strings, decimal points and
packages are lost, and so another expression may be quoted.  It is read as that expression if
nothing of that kind is in it (`Spec/Quote.lean`).
-/
namespace Verif.Props
open Verif.Model Verif.Spec Verif.Lemmas

variable {E : FileEnv} {X : ElEnv} {comp : String → Option Comp} {vars : List (String × Ty)}

/-- In a file in which the names of `s` are known, the whole text is read as the expression:
there is no lexical error, the parser accepts it, reports nothing and has nothing left. -/
def ReadAs (E : FileEnv) (X : ElEnv) (comp : String → Option Comp) (vars : List (String × Ty)) (s : PS)
    (text : List Char) (e : Expr) : Prop :=
  ∃ t rest s', lexStream (text.length + 1) (LexState.init text) = .tok t :: rest ∧
    (∀ o ∈ rest, (∃ t, o = .tok t) ∨ o = .eof) ∧
    parseExpr E X (text.length + 1) (scopeFor E s comp vars) { s with nt := some t, rest := rest } = .ok e s' ∧
    words s' = [] ∧ s'.errs = s.errs

/-- The environments of checks: the builtin functions and conversions are declared, and `names`
are the names of the enumeration types. -/
def QuoteEnv (E : FileEnv) (s : PS) (names : Nat → String) : Prop :=
  BuiltinCalls E ∧ EnumsNamed E (namesOf s) names

theorem lexes_stream {s s' : LexState} {ts : List Token} (h : Lexes s ts s') (hi : Inv s) (he : s'.todo = []) :
    ∀ n, s.todo.length < n → lexStream n s = ts.map .tok ++ [.eof] ∧ (∀ t ∈ ts, t.kind ≠ .COMMENT) ∧
      ts.length ≤ s.todo.length := by
  induction h with
  | nil =>
    intro n hn
    match n, hn with
    | n + 1, _ =>
      rename_i s _ _
      cases htok : token s with
      | mk o s1 =>
        have ho : o = .eof := by
          rcases C03_token_progress s hi o s1 htok with ⟨h, _⟩ | h
          · exact h
          · rw [he] at h; simp at h
        subst ho
        refine ⟨by simp [lexStream, htok], by simp, by simp⟩
  | cons h1 h2 _ ih =>
    intro n hn
    match n, hn with
    | n + 1, hn =>
      rcases C03_token_progress _ hi _ _ h1 with ⟨h, _⟩ | h
      · cases h
      · obtain ⟨k1, k2, k3⟩ := ih (token_inv hi h1).1 he n (by omega)
        refine ⟨by simp [lexStream, h1, k1], ?_, by simp only [List.length_cons]; omega⟩
        intro t ht
        rcases List.mem_cons.1 ht with rfl | ht
        · exact h2
        · exact k2 t ht

theorem tokensOf_clean : ∀ (ts : List Token), (∀ t ∈ ts, t.kind ≠ .COMMENT) → tokensOf (ts.map LexOut.tok ++ [.eof]) = ts
  | [], _ => rfl
  | t :: ts, h => by
    have := tokensOf_clean ts (fun u hu => h u (by simp [hu]))
    simp [tokensOf, this, h t (by simp)]

/-- What should hold: the text with which an accepted expression is quoted is read as that
expression. -/
def C81_full : Prop :=
  ∀ (E : FileEnv) (X : ElEnv) (comp : String → Option Comp) (vars : List (String × Ty)) (names : Nat → String) (n : Nat)
    (s s' : PS) (e : Expr), QuoteEnv E s names → parseExpr E X n (scopeFor E s comp vars) s = .ok e s' →
    ReadAs E X comp vars s (e.quote names) e

/-- A well typed expression in which nothing has to be put in brackets, and which is free of
literals that are quoted differently, is quoted as a text that is read as that expression.
(Missing for the full statement: it does not hold for others, see below.) -/
theorem C81_partial {s : PS} {r : Raw} {e : Expr} {names : Nat → String} (hq : QuoteEnv E s names)
    (he : r.elab X (scopeIn E (namesOf s) comp vars) = .ok e) (hp : QuotePlain (ValueNames comp vars) 5 r) :
    ReadAs E X comp vars s (e.quote names) e := by
  have h := (quote_plain (F := ⟨E, X, namesOf s, comp⟩) hq.1 hq.2 r vars e 5 he hp).expr
  obtain ⟨ts, l', hg, hl, -, htodo⟩ := h (LexState.init (e.quote names)) [] [] (inv_init _) (by simp [LexState.init])
    (by simp) (by intro c hc; cases hc)
  have hg : GExpr E (namesOf s) (ValueNames comp vars) ts r := hg
  obtain ⟨h1, h2, h3⟩ := lexes_stream hl (inv_init _) htodo ((e.quote names).length + 1) (by simp [LexState.init])
  have h3 : ts.length ≤ (e.quote names).length := by simpa [LexState.init] using h3
  cases ts with
  | nil => exact absurd rfl (startsWith_ne (expr_first hg))
  | cons t ts =>
    have hw : words { s with nt := some t, rest := ts.map LexOut.tok ++ [.eof] } = (t :: ts) ++ [] := by
      simp [words, tokensOf_clean ts (fun u hu => h2 u (by simp [hu]))]
    have hc : ∀ o ∈ ts.map LexOut.tok ++ [.eof], (∃ t, o = .tok t) ∨ o = .eof := by
      intro o ho
      rcases List.mem_append.1 ho with h | h
      · obtain ⟨u, -, rfl⟩ := List.mem_map.1 h
        exact .inl ⟨u, rfl⟩
      · exact .inr (List.mem_singleton.1 h)
    obtain ⟨s', k1, k2, k3⟩ := C36_complete (X := X) (comp := comp) (vars := vars) (e := e)
      (s := { s with nt := some t, rest := ts.map LexOut.tok ++ [.eof] }) (n := (e.quote names).length + 1)
      (ts := t :: ts) (w := []) (r := r) (by omega) ⟨hw, hc⟩ hg he (by simp)
    exact ⟨t, _, s', by simpa using h1, hc, k1, k2, k3.2.2.2.2.2.2.2⟩

/-! ## Expressions that are quoted as others -/
namespace QuoteSample

/-- the names that are always declared, two packages -/
def gtab : STab := Sample.global.registerAll [⟨"Decimal".toList, 2, clsBuiltinType⟩, ⟨"len".toList, 100, clsFunction⟩,
  ⟨"startswith".toList, 101, clsFunction⟩, ⟨"endswith".toList, 102, clsFunction⟩,
  ⟨"matches".toList, 103, clsFunction⟩, ⟨"oneof".toList, 104, clsFunction⟩]

/-- a file of package `pkg` -/
def env0 : FileEnv := ⟨gtab, 0, [], true, fun _ => .ok [], true⟩
/-- a file of package `other` that imports `pkg` -/
def env1 : FileEnv := ⟨gtab, 1, [0], true, fun _ => .ok [], true⟩
/-- what the elaboration needs to know -/
def ex : ElEnv := ⟨Sample.decls, fun _ _ => false, fun _ => true⟩
/-- the name of the only enumeration type -/
def nm : Nat → String := fun _ => "Color"

/-- the components of `Ext` -/
def comps : String → Option Comp := Sample.decls.component 1

/-- before the first token of the text -/
def start (text : List Char) : PS :=
  match lexStream (text.length + 1) (LexState.init text) with
  | .tok t :: rest => { Sample.start with nt := some t, rest := rest }
  | _ => Sample.start

/-- the expression read from a whole text -/
def read (E : FileEnv) (text : List Char) : Option Expr :=
  match parseExpr E ex (text.length + 1) (scopeFor E Sample.start comps []) (start text) with
  | .ok e s' => if words s' = [] then some e else none
  | _ => none

/-- how the expression read from a text is quoted -/
def quoted (E : FileEnv) (text : String) : Option (List Char) := (read E text.toList).map (·.quote nm)

/-- the value of the expression read from a text, if it is a boolean -/
def value (E : FileEnv) (text : String) : Option Bool :=
  match read E text.toList with
  | some e => match e.eval ⟨fun _ => none, fun _ _ => false⟩ (some []) with
    | .ok ⟨_, .bool b⟩ => some b
    | _ => none
  | none => none

example : quoted env0 "(1 + 2) * 3 == 9" = some "1 + 2 * 3 == 9".toList := by decide +kernel
example : value env0 "(1 + 2) * 3 == 9" = some true ∧ value env0 "1 + 2 * 3 == 9" = some false := by decide +kernel
example : quoted env0 "1.5 > 1.0" = some "3/2 > 1".toList := by decide +kernel
example : value env0 "1.5 > 1.0" = some true ∧ value env0 "3/2 > 1" = some false := by decide +kernel
example : quoted env0 "text == \"size\"" = some "text == size".toList := by decide +kernel
example : quoted env0 "not (extra > 1)" = some "not extra > 1".toList ∧ quoted env0 "not extra > 1" = none := by decide +kernel
example : quoted env0 "\"a\" not in text" = some "not a in text".toList ∧ quoted env0 "not a in text" = none := by decide +kernel
example : quoted env0 "true" = some "True".toList ∧ quoted env0 "True" = none := by decide +kernel
example : quoted env1 "kind == pkg.Color.red" = some "kind == Color.red".toList ∧ quoted env1 "kind == Color.red" = none := by
  decide +kernel
example : quoted env0 "kind == Color.red and len(text) > 3 and extra in 1 .. 5" =
  some "kind == Color.red and len(text) > 3 and extra in 1 .. 5".toList := by decide +kernel

theorem chainGet_mem {fs : List Frame} {k : List Char} {e : Ent} (h : chainGet fs k = some e) : ∃ f ∈ fs, ∃ x ∈ f, x.2 = e := by
  induction fs with
  | nil => cases h
  | cons f fs ih =>
    simp only [chainGet] at h
    split at h
    · next e' he =>
      cases h
      unfold Frame.get at he
      obtain ⟨x, hx, rfl⟩ := Option.map_eq_some_iff.1 he
      exact ⟨f, by simp, x, List.mem_of_find?_eq_some hx, rfl⟩
    · obtain ⟨g, hg, h⟩ := ih h
      exact ⟨g, List.mem_cons_of_mem _ hg, h⟩

theorem lookup_enum {T : STab} (hT : ∀ c ∈ (T.own :: T.parents) :: T.imported, ∀ f ∈ c, ∀ x ∈ f,
      x.2.cls = clsEnum → x.2.name = "Color".toList) {n : List Char} {e : Ent} (h : T.lookup n none = .ok e)
    (he : e.cls = clsEnum) : n = "Color".toList := by
  rw [← lookup_spelled h]
  have hf : T.find (simplifiedName n) = some e := (lookup_find h).1
  unfold STab.find at hf
  obtain ⟨c, hc, hcg⟩ := List.exists_of_findSome?_eq_some hf
  obtain ⟨f, hfc, x, hx, rfl⟩ := chainGet_mem hcg
  exact hT c hc f hfc x hx he

/-- The sample files meet the hypothesis of the theorem. -/
theorem quoteEnv {E : FileEnv} (hE : E = env0 ∨ E = env1) : QuoteEnv E Sample.start nm := by
  refine ⟨?_, ?_⟩
  · have hg : E.global = gtab := by rcases hE with rfl | rfl <;> rfl
    intro f hf
    rw [hg]
    have h : ∀ f ∈ ["len", "startswith", "endswith", "matches", "oneof", "Integer", "Decimal"],
        (match gtab.lookup f.toList none with
          | .ok e => decide (e.cls = clsFunction ∨ e.ty? = some .int ∨ e.ty? = some .dec)
          | .error _ => false) = true := by decide +kernel
    have := h f hf
    split at this
    · next e he => exact ⟨e, he, by unfold Callable; exact of_decide_eq_true this⟩
    · cases this
  · intro n t h
    show "Color" = n
    simp only [enumsOf, Option.bind_eq_some_iff] at h
    obtain ⟨e, hm, h⟩ := h
    split at h
    · next hc =>
      rw [← String.toList_inj]
      symm
      unfold meaning at hm
      split at hm
      · next e' he =>
        cases hm
        split at he
        · refine lookup_enum ?_ he hc
          rcases hE with rfl | rfl <;> decide +kernel
        · refine lookup_enum ?_ he hc
          rcases hE with rfl | rfl <;> decide +kernel
      · cases hm
    · cases h

/-- the text has tokens, and no lexical errors -/
def clean (text : List Char) : Bool :=
  match lexStream (text.length + 1) (LexState.init text) with
  | .tok _ :: rest => rest.all fun o => match o with
    | .tok _ | .eof => true
    | _ => false
  | _ => false

theorem readAs_of {E : FileEnv} {text : List Char} {e : Expr} (hc : clean text = true) (h : read E text = some e) :
    ReadAs E ex comps [] Sample.start text e := by
  unfold clean at hc
  unfold read start at h
  split at hc
  · next t rest hl =>
    rw [hl] at h
    simp only at h
    split at h
    · next e' s' hp =>
      split at h
      · next hw =>
        cases h
        refine ⟨t, rest, s', hl, ?_, hp, hw, ?_⟩
        · intro o ho
          have := List.all_eq_true.1 hc o ho
          split at this
          · exact .inl ⟨_, rfl⟩
          · exact .inr rfl
          · cases this
        · exact (C36_sound (s := { Sample.start with nt := some t, rest := rest }) hp).choose_spec.choose_spec.2.2.2.2.2.2.2.2.2.2
      · cases h
    · cases h
  · cases hc

theorem read_of {E : FileEnv} {text : List Char} {e : Expr} (h : ReadAs E ex comps [] Sample.start text e) :
    read E text = some e := by
  obtain ⟨t, rest, s', h1, -, h2, h3, -⟩ := h
  unfold read start
  rw [h1]
  simp only
  rw [h2]
  simp only
  rw [if_pos h3]

/-- the value of a boolean expression without components -/
def valueOf (e : Expr) : Option Bool :=
  match e.eval ⟨fun _ => none, fun _ _ => false⟩ (some []) with
  | .ok ⟨_, .bool b⟩ => some b
  | _ => none

/-- what is read from the text is quoted as a text from which another value is read -/
def changes (E : FileEnv) (text : String) : Bool :=
  clean text.toList && match read E text.toList with
  | some e => clean (e.quote nm) && (match read E (e.quote nm) with
    | some e' => valueOf e == some true && valueOf e' == some false
    | none => false)
  | none => false

/-- what is read from the text is quoted as a text which is not accepted -/
def rejects (E : FileEnv) (text : String) : Bool :=
  clean text.toList && match read E text.toList with
  | some e => (read E (e.quote nm)).isNone
  | none => false

end QuoteSample
open QuoteSample

/-- Expressions that are true are quoted as expressions that are false: brackets are left out,
and decimal literals are written as fractions, whose division is then one of integers. -/
theorem C81_quoted_as_another : ∀ text ∈ ["(1 + 2) * 3 == 9", "1.5 > 1.0"], ∃ e e',
    ReadAs env0 ex comps [] Sample.start text.toList e ∧ ReadAs env0 ex comps [] Sample.start (e.quote nm) e' ∧
      valueOf e = some true ∧ valueOf e' = some false := by
  intro text ht
  have h : ∀ text ∈ ["(1 + 2) * 3 == 9", "1.5 > 1.0"], changes env0 text = true := by decide +kernel
  have h := h text ht
  unfold changes at h
  rw [Bool.and_eq_true] at h
  obtain ⟨h1, h⟩ := h
  split at h
  · next e he =>
    rw [Bool.and_eq_true] at h
    obtain ⟨h2, h⟩ := h
    split at h
    · next e' he' =>
      simp only [Bool.and_eq_true, beq_iff_eq] at h
      exact ⟨e, e', readAs_of h1 he, readAs_of h2 he', h.1, h.2⟩
    · cases h
  · cases h

/-- Expressions that are quoted as texts which are not accepted: without brackets, without the
quotes of a string, with the python literals for booleans, with a negation in front of `in`. -/
theorem C81_quoted_as_none : ∀ text ∈ ["not (extra > 1)", "text == \"some text\"", "true", "\"a\" not in text"], ∃ e,
    ReadAs env0 ex comps [] Sample.start text.toList e ∧ ∀ e', ¬ ReadAs env0 ex comps [] Sample.start (e.quote nm) e' := by
  intro text ht
  have h : ∀ text ∈ ["not (extra > 1)", "text == \"some text\"", "true", "\"a\" not in text"], rejects env0 text = true := by
    decide +kernel
  have h := h text ht
  unfold rejects at h
  rw [Bool.and_eq_true] at h
  obtain ⟨h1, h⟩ := h
  split at h
  · next e he =>
    refine ⟨e, readAs_of h1 he, fun e' hr => ?_⟩
    rw [read_of hr] at h
    cases h
  · cases h

/-- Without the package, the literal of an enumeration of an imported package is not found. -/
theorem C81_package_lost : ∃ e, ReadAs env1 ex comps [] Sample.start "kind == pkg.Color.red".toList e ∧
    ∀ e', ¬ ReadAs env1 ex comps [] Sample.start (e.quote nm) e' := by
  have h : rejects env1 "kind == pkg.Color.red" = true := by decide +kernel
  unfold rejects at h
  rw [Bool.and_eq_true] at h
  obtain ⟨h1, h⟩ := h
  split at h
  · next e he =>
    refine ⟨e, readAs_of h1 he, fun e' hr => ?_⟩
    rw [read_of hr] at h
    cases h
  · cases h

/-- The full statement does not hold. -/
theorem C81_violated : ¬ C81_full := by
  intro h
  obtain ⟨e, ⟨t, rest, s', -, -, h1, -, -⟩, h2⟩ := C81_quoted_as_none "true" (by simp)
  obtain ⟨t', rest', s'', h3⟩ := h env0 ex comps [] nm _ { Sample.start with nt := some t, rest := rest } s' e
    (quoteEnv (.inl rfl)) h1
  exact h2 e ⟨t', rest', s'', h3⟩

/-- The hypotheses of `C81_partial`, for `kind == Color.red and len(text) > 3`. -/
example : ∃ e, "kind == Color.red and len(text) > 3".toList = e.quote nm ∧
    ReadAs env0 ex comps [] Sample.start (e.quote nm) e := by
  have he : (Raw.logic .and (.cmp .eq (.name "kind") (.enumLit ["Color"] "red"))
      (.cmp .gt (.call "len" (.cons (.name "text") .nil)) (.int 3))).elab ex (scopeIn env0 (namesOf Sample.start) comps []) =
      .ok (.logic .and (.binary (some .bool) .eq (.name "kind" (.enum 0)) (.enum 0 "red"))
        (.binary (some .bool) .gt (.unary (some .int) .strLen (.name "text" .str)) (.int 3))) := by rfl
  refine ⟨_, ?_, C81_partial (quoteEnv (.inl rfl)) he ?_⟩
  · decide +kernel
  · have h1 : IsName "kind" := ⟨isWord_lower (by decide) (by decide), by decide⟩
    have h2 : IsName "red" := ⟨isWord_lower (by decide) (by decide), by decide⟩
    have h3 : IsName "text" := ⟨isWord_lower (by decide) (by decide), by decide⟩
    have h4 : IsName "Color" := ⟨⟨'C', "olor".toList, by decide, .inr (by decide), fun c hc => .inl (.inl (by
      simp only [show "olor".toList = ['o', 'l', 'o', 'r'] from rfl, List.mem_cons, List.not_mem_nil, or_false] at hc
      rcases hc with rfl | rfl | rfl | rfl <;> decide))⟩, by decide⟩
    have h5 : ¬ ValueNames comps [] "Color" := by
      rintro (⟨t, h⟩ | ⟨c, h⟩)
      · cases h
      · exact absurd h (by simp [show comps "Color" = none by decide +kernel])
    simp only [QuotePlain, QuotePlainAll]
    exact ⟨by omega, .inl ⟨by omega, h1, "Color", rfl, h4, h2, h5⟩, by omega, ⟨h3, trivial⟩, trivial⟩

end Verif.Props
