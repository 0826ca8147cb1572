import Verif.Lemmas.ExprAccepts
import Verif.Lemmas.ExprTotal
import Verif.Lemmas.ParseWitness
/-!
# Expressions (C36)

`Spec/Grammar.lean` says which syntax tree a sequence of tokens stands for.  Here: the parser
accepts the expressions of that grammar that are well typed, and builds the typed expression
of that tree.
-/
namespace Verif.Props
open Verif.Model Verif.Spec Verif.Lemmas

variable {E : FileEnv} {X : ElEnv} {comp : String → Option Comp} {vars : List (String × Ty)}
  {n : Nat} {s s' : PS} {e : Expr}

/-- Where the expression of a check is parsed: the global names, those of the package, the
components and the quantified variables. -/
def scopeFor (E : FileEnv) (s : PS) (comp : String → Option Comp) (vars : List (String × Ty)) :
    LScope := ⟨[E.global, s.tab E.pkg], comp, vars⟩

/-- The tokens ahead are the words `ts`, and then `w`; there is no lexical error ahead. -/
def Ahead (s : PS) (ts w : List Token) : Prop :=
  words s = ts ++ w ∧ ∀ o ∈ s.rest, (∃ t, o = .tok t) ∨ o = .eof

/-- Nothing but the position in the file has changed. -/
def OnlyMoved (s s' : PS) : Prop :=
  s'.sects = s.sects ∧ s'.decls = s.decls ∧ s'.infos = s.infos ∧ s'.seps = s.seps ∧
    s'.tabs = s.tabs ∧ s'.objs = s.objs ∧ s'.nid = s.nid ∧ s'.errs = s.errs

theorem steps_moved {ts : List Token} (h : Steps s ts s') : OnlyMoved s s' := by
  obtain ⟨_, _, _, rfl⟩ := h.same
  exact ⟨rfl, rfl, rfl, rfl, rfl, rfl, rfl, rfl⟩

/-- The expression the parser returns is the one of a syntax tree which the grammar gives for
exactly the tokens that were consumed. -/
theorem C36_sound (h : parseExpr E X n (scopeFor E s comp vars) s = .ok e s') :
    ∃ ts r, words s = ts ++ words s' ∧ GExpr E (namesOf s) (ValueNames comp vars) ts r ∧
      r.elab X (scopeIn E (namesOf s) comp vars) = .ok e ∧ OnlyMoved s s' := by
  obtain ⟨ts, hst, r, hg, he⟩ := parseExpr_snd ⟨E, X, namesOf s, comp⟩ n vars s rfl e s' h
  exact ⟨ts, r, hst.words, hg, he, steps_moved hst⟩

/-- If the tokens ahead are an expression of the grammar that is well typed, and are not
followed by something that goes on with it, then the parser accepts them. -/
theorem C36_complete {ts w : List Token} {r : Raw} (hn : ts.length ≤ n) (ha : Ahead s ts w)
    (hg : GExpr E (namesOf s) (ValueNames comp vars) ts r)
    (he : r.elab X (scopeIn E (namesOf s) comp vars) = .ok e)
    (hw : ∀ t ∈ w.head?, ¬ Cont 5 t) :
    ∃ s', parseExpr E X n (scopeFor E s comp vars) s = .ok e s' ∧ words s' = w ∧ OnlyMoved s s' := by
  obtain ⟨s', hst, hws, -⟩ := clean_steps ts s w ha.2 ha.1
  refine ⟨s', ?_, hws, steps_moved hst⟩
  refine parseExpr_acc ⟨E, X, namesOf s, comp⟩ n vars ts r e s s' hn hg he hst rfl ?_
  intro t ht
  apply hw
  rw [← hws]
  unfold words
  rw [ht]
  rfl

/-- What is accepted in front of `w` are exactly the well typed expressions of the grammar. -/
theorem C36_exact {w : List Token} (hn : (words s).length ≤ n)
    (hc : ∀ o ∈ s.rest, (∃ t, o = .tok t) ∨ o = .eof) (hw : ∀ t ∈ w.head?, ¬ Cont 5 t) :
    (∃ s', parseExpr E X n (scopeFor E s comp vars) s = .ok e s' ∧ words s' = w) ↔
      ∃ ts r, words s = ts ++ w ∧ GExpr E (namesOf s) (ValueNames comp vars) ts r ∧
        r.elab X (scopeIn E (namesOf s) comp vars) = .ok e := by
  constructor
  · rintro ⟨s', h, rfl⟩
    obtain ⟨ts, r, h1, h2, h3, -⟩ := C36_sound h
    exact ⟨ts, r, h1, h2, h3⟩
  · rintro ⟨ts, r, h1, h2, h3⟩
    obtain ⟨s', h4, h5, -⟩ := C36_complete (n := n) (by rw [h1] at hn; simp at hn; omega) ⟨h1, hc⟩ h2 h3 hw
    exact ⟨s', h4, h5⟩

/-- A sequence of tokens has only one meaning: all its well typed syntax trees are the same
typed expression. -/
theorem C36_one_meaning {ts w : List Token} {r r' : Raw} {e' : Expr} (ha : Ahead s ts w)
    (hw : ∀ t ∈ w.head?, ¬ Cont 5 t)
    (hg : GExpr E (namesOf s) (ValueNames comp vars) ts r)
    (he : r.elab X (scopeIn E (namesOf s) comp vars) = .ok e)
    (hg' : GExpr E (namesOf s) (ValueNames comp vars) ts r')
    (he' : r'.elab X (scopeIn E (namesOf s) comp vars) = .ok e') : e = e' := by
  obtain ⟨s1, h1, -⟩ := C36_complete (n := ts.length) (Nat.le_refl _) ha hg he hw
  obtain ⟨s2, h2, -⟩ := C36_complete (n := ts.length) (Nat.le_refl _) ha hg' he' hw
  rw [h1] at h2
  cases h2
  rfl

/-- A chain of `and` ends at `or`, `xor` and `implies`, and a chain of `or` at the others: the
operator is left over, so the expression in brackets or the check is rejected. -/
theorem C36_no_mixing {op op' : LogOp} {a w : List Token} {l : Raw} {is : List (Link LogOp)}
    {t' : Token} (hop : op = .and ∨ op = .or) (hne : op' ≠ op) (his : is ≠ [])
    (hn : (a ++ spell is).length ≤ n) (ha : Ahead s (a ++ spell is) (t' :: w)) (ht' : LogTok op' t')
    (hg : GRel E (namesOf s) (ValueNames comp vars) a l)
    (ht : ∀ i ∈ is, i.op = op ∧ LogTok op i.tok)
    (hgs : ∀ i ∈ is, GRel E (namesOf s) (ValueNames comp vars) i.ts i.raw)
    (he : (leftAssoc .logic l is).elab X (scopeIn E (namesOf s) comp vars) = .ok e) :
    ∃ s', parseExpr E X n (scopeFor E s comp vars) s = .ok e s' ∧ words s' = t' :: w := by
  obtain ⟨s', hst, hws, -⟩ := clean_steps _ s _ ha.2 ha.1
  have hn' : s'.nt = some t' := by
    unfold words at hws
    split at hws
    · cases hws
    · next t ht => rw [ht]; cases hws; rfl
  obtain ⟨t0, rest, e0, -⟩ := rel_first hg
  obtain ⟨n, rfl⟩ : ∃ j, n = j + 1 := ⟨n - 1, by
    rw [e0] at hn; simp only [List.cons_append, List.length_cons] at hn; omega⟩
  exact ⟨s', mixed_acc (parseRel_acc ⟨E, X, namesOf s, comp⟩ vars n) hop hne his hn hg ht hgs he hst
    rfl hn' ht', hws⟩

/-- `xor` and `implies` are not chained: a second logical operator is left over. -/
theorem C36_no_chaining {op op' : LogOp} {a b w : List Token} {l r : Raw} {t t' : Token}
    (hop : op = .xor ∨ op = .implies) (hn : (a ++ t :: b).length ≤ n)
    (ha : Ahead s (a ++ t :: b) (t' :: w)) (ht : LogTok op t) (ht' : LogTok op' t')
    (hg : GRel E (namesOf s) (ValueNames comp vars) a l)
    (hg' : GRel E (namesOf s) (ValueNames comp vars) b r)
    (he : (Raw.logic op l r).elab X (scopeIn E (namesOf s) comp vars) = .ok e) :
    ∃ s', parseExpr E X n (scopeFor E s comp vars) s = .ok e s' ∧ words s' = t' :: w := by
  obtain ⟨s', hst, hws, -⟩ := clean_steps _ s _ ha.2 ha.1
  have hn' : s'.nt = some t' := by
    unfold words at hws
    split at hws
    · cases hws
    · next t ht => rw [ht]; cases hws; rfl
  obtain ⟨t0, rest, e0, -⟩ := rel_first hg
  obtain ⟨n, rfl⟩ : ∃ j, n = j + 1 := ⟨n - 1, by
    rw [e0] at hn; simp only [List.cons_append, List.length_cons] at hn; omega⟩
  exact ⟨s', once_acc (parseRel_acc ⟨E, X, namesOf s, comp⟩ vars n) hop hn hg ht hg' he hst
    rfl (fun t h => by rw [hn'] at h; cases h; exact logTok_cont ht'), hws⟩

/-- Parsing an expression ends, and takes at least one token. -/
theorem C36_ends {sc : LScope} (hn : s.toks < n) :
    match parseExpr E X n sc s with
    | .ok _ s' => s'.toks < s.toks
    | .err _ => True
    | .crash c _ => c ≠ .fuel := by
  have := parseExpr_tot (E := E) (X := X) n sc s hn
  unfold Sp at this
  cases h : parseExpr E X n sc s with
  | ok a s1 => rw [h] at this; exact this.2
  | err s1 => trivial
  | crash c s1 => rw [h] at this; exact this.2.1

/-! ## Examples -/
namespace GrammarSample

/-- the sample declarations, with `len` -/
def gtab : STab := Sample.global.registerAll [⟨"len".toList, 100, clsFunction⟩]
/-- a file of package 0 -/
def genv : FileEnv := ⟨gtab, 0, [], true, fun _ => .ok [], true⟩

/-- before the first token of the text -/
def exprStart (text : String) : PS :=
  let o := Sample.openText genv text
  { Sample.start with nt := o.nt, rest := o.rest }

/-- what the elaboration needs to know -/
def exprEnv : ElEnv := ⟨Sample.decls, fun _ _ => false, fun _ => true⟩

/-- the expression at the start of the text, and the tokens after it -/
def exprRun (text : String) : Option Expr × List Kind :=
  let s := exprStart text
  match parseExpr genv exprEnv (s.toks + 1) (scopeFor genv s (Sample.decls.component 1) []) s with
  | .ok e s' => (some e, (words s').map (·.kind))
  | _ => (none, [])


/-- an expression with all brackets -/
def bracketed : Expr → String
  | .bool b => if b then "true" else "false"
  | .int _ => "#"
  | .name n _ => n
  | .field p f _ => bracketed p ++ "." ++ f
  | .enum _ l => l
  | .unary _ .strLen e => "len(" ++ bracketed e ++ ")"
  | .unary _ .logicalNot e => "(not " ++ bracketed e ++ ")"
  | .binary _ op l r => "(" ++ bracketed l ++ (match op with
      | .plus => "+" | .minus => "-" | .times => "*" | .gt => ">" | .eq => "==" | .power => "**"
      | .xor => "^" | _ => "?") ++ bracketed r ++ ")"
  | .logic op l r => "(" ++ bracketed l ++ (match op with
      | .and => "&" | .or => "|" | .implies => "=>") ++ bracketed r ++ ")"
  | .quant u x src b => (if u then "(A" else "(E") ++ x ++ ":" ++ src ++ " " ++ bracketed b ++ ")"
  | _ => "?"

/-- `exprRun`, readable -/
def exprShow (text : String) : Option String × List Kind := ((exprRun text).1.map bracketed, (exprRun text).2)

example : exprShow "1 - 2 - 3 * 4 == extra and (exists i in empty => i > 0)," =
  (some "((((#-#)-(#*#))==extra)&(Ei:empty (i>#)))", [.COMMA]) := by decide +kernel
example : exprShow "true and false or true" = (some "(true&false)", [.KEYWORD, .KEYWORD]) := by decide +kernel
example : exprShow "true xor false implies true" = (some "(true^false)", [.KEYWORD, .KEYWORD]) := by decide +kernel
example : exprShow "(true and false or true)" = (none, []) := by decide +kernel
example : exprShow "len(text) > 3 and kind == Color.red and not (size.a > 2)" =
   (some "(((len(text)>#)&(kind==red))&(not (size.a>#)))", []) := by decide +kernel
example : exprShow "2 ** 2 * extra" = (some "((#**#)*extra)", []) := by decide +kernel

/-- a keyword -/
def kwTok (v : String) : Token := ⟨.KEYWORD, .str v.toList, 0, 0, 1, 1⟩

/-- before the given tokens -/
def before : List Token → PS
  | [] => { Sample.start with nt := none, rest := [] }
  | t :: ts => { Sample.start with nt := some t, rest := ts.map .tok }

theorem ahead_before (ts w : List Token) (hc : ∀ t ∈ ts ++ w, t.kind ≠ .COMMENT) :
    Ahead (before (ts ++ w)) ts w := by
  cases h : ts ++ w with
  | nil => refine ⟨by simp [before, words, h], by simp [before]⟩
  | cons t u =>
    refine ⟨?_, ?_⟩
    · have : tokensOf (u.map LexOut.tok) = u := by
        rw [h] at hc
        clear h
        induction u with
        | nil => rfl
        | cons a u ih =>
          have := ih fun t ht => hc t (by
            rcases List.mem_cons.1 ht with h | h
            · simp [h]
            · simp [h])
          simp [tokensOf, this, hc a (by simp)]
      simp [before, words, h, this]
    · simp [before]

theorem gBool {V : String → Prop} {N : Names} (b : Bool) :
    GRel genv N V [kwTok (if b then "true" else "false")] (.bool b) := by
  have h : GFactor genv N V [kwTok (if b then "true" else "false")] (.bool b) := by
    cases b
    · exact .primary (.false ⟨rfl, rfl⟩)
    · exact .primary (.true ⟨rfl, rfl⟩)
  have h1 := GTerm.mk (is := []) h (by simp) (by simp)
  have h2 := GSimple.plain (is := []) h1 (by simp) (by simp)
  simpa [spell, leftAssoc] using GRel.simple h2

/-- The hypotheses of `C36_no_mixing`, for `true and false or true`. -/
example : ∃ s', parseExpr genv exprEnv 9 (scopeFor genv
      (before [kwTok "true", kwTok "and", kwTok "false", kwTok "or", kwTok "true"]) (fun _ => none) [])
      (before [kwTok "true", kwTok "and", kwTok "false", kwTok "or", kwTok "true"]) =
        .ok (.logic .and (.bool true) (.bool false)) s' ∧ words s' = [kwTok "or", kwTok "true"] :=
  C36_no_mixing (op := .and) (op' := .or) (a := [kwTok "true"]) (l := .bool true)
    (is := [⟨.and, kwTok "and", [kwTok "false"], .bool false⟩]) (.inl rfl) (by simp) (by simp)
    (by simp [spell]) (ahead_before [kwTok "true", kwTok "and", kwTok "false"] _ (by simp [kwTok])) ⟨rfl, rfl⟩
    (gBool true) (by simp [LogTok, IsKw, kwTok]) (by simpa using gBool false) rfl

/-- The hypotheses of `C36_no_chaining`, for `true implies false implies true`. -/
example : ∃ s', parseExpr genv exprEnv 9 (scopeFor genv
      (before [kwTok "true", kwTok "implies", kwTok "false", kwTok "implies", kwTok "true"]) (fun _ => none) [])
      (before [kwTok "true", kwTok "implies", kwTok "false", kwTok "implies", kwTok "true"]) =
        .ok (.logic .implies (.bool true) (.bool false)) s' ∧ words s' = [kwTok "implies", kwTok "true"] :=
  C36_no_chaining (op := .implies) (op' := .implies) (a := [kwTok "true"]) (b := [kwTok "false"])
    (l := .bool true) (r := .bool false) (.inr rfl) (by simp)
    (ahead_before [kwTok "true", kwTok "implies", kwTok "false"] _ (by simp [kwTok])) ⟨rfl, rfl⟩ ⟨rfl, rfl⟩
    (gBool true) (gBool false) rfl

/-- The hypotheses of `C36_complete` (and with it of `C36_exact` and `C36_one_meaning`), for
`true xor false` at the end of the file. -/
example : ∃ s', parseExpr genv exprEnv 3 (scopeFor genv
      (before [kwTok "true", kwTok "xor", kwTok "false"]) (fun _ => none) [])
      (before [kwTok "true", kwTok "xor", kwTok "false"]) =
        .ok (.binary (some .bool) .xor (.bool true) (.bool false)) s' ∧ words s' = [] ∧
        OnlyMoved (before [kwTok "true", kwTok "xor", kwTok "false"]) s' :=
  C36_complete (ts := [kwTok "true", kwTok "xor", kwTok "false"]) (w := []) (by simp)
    (ahead_before [kwTok "true", kwTok "xor", kwTok "false"] [] (by simp [kwTok]))
    (.once (a := [kwTok "true"]) (.inl rfl) (gBool true) ⟨rfl, rfl⟩ (gBool false)) rfl (by simp)

end GrammarSample
end Verif.Props
