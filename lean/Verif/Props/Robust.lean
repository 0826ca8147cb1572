import Verif.Lemmas.CalmRun
import Verif.Lemmas.SaysRun
import Verif.Props.Lint
import Verif.Props.RunSamples
/-!
# Malformed files are reported (C85)

Internal exceptions (other than reported errors) stop a run only in the situations listed by `Excuse`.
-/
namespace Verif.Props
open Verif.Model Verif.Spec Verif.Lemmas

variable {o : Options} {X : Outside} {required : List CU → Finset PNode} {fs : List Source} {s : PS}
variable {files includes : List SrcFile}

/-! ## Specification -/

/-- What makes the tool stop with an internal exception:
a file ends with a quote that is not closed;
a file ends where a position is asked of the next token;
a type of an imported package is used though imports could not be resolved, which was reported before;
`Integer` or `Decimal` do not have exactly one argument;
the right side of `in` is `null`;
a quantifier occurs where a static value is needed;
a check of the kinds described by `SideOf` (C63);
the linter looks at a tuple type as described by `LintFails` (C71). -/
inductive Excuse (files : List SrcFile) (lint : Bool) (s : PS) : ProcCrash → Prop
  | quote (f : SrcFile) (pre tail : List Char) : f ∈ files → f.content = pre ++ tail → tail ∈ danglingQuotes →
      Excuse files lint s (.parse .lexer)
  | endOfFile : s.nt = none → Excuse files lint s (.parse .attribute)
  | imports : s.errs ≠ [] → Excuse files lint s (.parse .assertion)
  | arity : Excuse files lint s (.parse (.expr .arityOfType))
  | null : Excuse files lint s (.parse (.expr .membershipOfNull))
  | quantifier : Excuse files lint s (.parse (.expr (.static .staticQuantifier)))
  | check (ct : CompositeTy) (ck : Check) (c : CheckCrash) : CkIn s.checks ct ck → ¬ SideOf s.decls ct ck →
      Excuse files lint s (.check c)
  | linter (t : Nat) : lint = true → LintFails s.decls s.seps t → Excuse files lint s .lint

/-! ## Proof -/

theorem find_pkg {g : STab} (ht : PkgTab g) {p : List Char} {e : Ent} (h : g.lookup p (some isPackage) = .ok e) :
    e.id < (pkgsOf g).length := by
  obtain ⟨h1, h2⟩ := lookup_sub h
  obtain ⟨h3, -⟩ := lookup_find h1
  unfold STab.find at h3
  rw [ht.glob.parents, ht.glob.imported] at h3
  have h4 : g.own.get (simplifiedName p) = some e := by
    simp only [List.findSome?_cons, List.findSome?_nil, chainGet] at h3
    cases hx : g.own.get (simplifiedName p) with
    | none => simp [hx] at h3
    | some x => simpa [hx] using h3
  have h5 : ∃ x ∈ g.own, x.2 = e := by
    unfold Frame.get at h4
    rw [Option.map_eq_some_iff] at h4
    obtain ⟨x, hx, rfl⟩ := h4
    exact ⟨x, List.mem_of_find?_eq_some hx, rfl⟩
  obtain ⟨x, hx, rfl⟩ := h5
  have : x.2.id ∈ (pkgsOf g).map (·.2.id) :=
    List.mem_map.2 ⟨x, List.mem_filter.2 ⟨hx, h2⟩, rfl⟩
  rw [ht.nums] at this
  exact List.mem_range.1 this

theorem prepared_pid {g : STab} {ls : List Loaded} {s' : PS} (k : Prepared globalTable fs s g ls s') {l : Loaded}
    (hl : l ∈ ls) (hp : l.cu.package ≠ none) : l.pid < (s'.withPackages g).tabs.length := by
  cases h : l.cu.package with
  | none => exact absurd h hp
  | some p =>
    obtain ⟨e, h1, h2⟩ := k.pid l hl p h
    rw [← h2]
    show _ < (List.replicate _ _).length
    rw [List.length_replicate]
    exact find_pkg k.tab h1

theorem rslFiles_mem {R : Finset PNode} {ls : List Loaded} {l : Loaded} (h : l ∈ rslFiles R ls) :
    l ∈ ls ∧ l.cu.package ≠ none := by
  unfold rslFiles at h
  obtain ⟨n, -, hn⟩ := List.mem_filterMap.1 h
  unfold rslMap at hn
  have h1 := List.find?_some hn
  refine ⟨List.mem_of_find?_eq_some hn, ?_⟩
  intro hz
  simp [hz] at h1

theorem errs_grow {s s' : PS} {x : P Bool} (h : Tells x) {c : PCrash} (e : x s = .crash c s') (hs : s.errs ≠ []) :
    s'.errs ≠ [] := by
  have := h s
  rw [e] at this
  obtain ⟨l, hl⟩ := this
  rw [hl]
  intro hz
  exact hs (List.append_eq_nil_iff.1 hz).1

/-- `process`, with a condition `Q` that holds if the lexer fails -/
theorem process_parse {Q : Prop} (hq : ∀ f ∈ fs, Src Q f.nt f.rest) (hb : Lemmas.Blank s) {c : PCrash}
    (h : (process o X required fs s).out = .crash (.parse c)) :
    (c = .lexer ∧ Q) ∨ (c = .attribute ∧ (process o X required fs s).state.nt = none) ∨
      (c = .assertion ∧ (process o X required fs s).state.errs ≠ []) ∨ ∃ x, c = .expr x ∧ Mild x := by
  have hl := loadAll_lexes (g := globalTable) (s := s) hq
  unfold process at h ⊢
  split at h
  · next h1 =>
    cases h
    rw [h1] at hl
    exact .inl hl
  · cases h
  · next g ls s1 h1 =>
    rw [h1] at hl
    dsimp only at h ⊢
    have k := loadAll_ok globalTable_pkgTab h1
    obtain ⟨i, a⟩ := start_inv (rx := X.rx) k.tab (hb.quiet k.quiet)
    obtain ⟨d, d'⟩ := runRsl_done (recover := o.recover) (required := required (ls.map (·.cu))) (ls := ls) i a
    unfold analyse at h ⊢
    split at h
    · next c' s2 h2 =>
      cases h
      have hk := runRsl_known (Q := Q) (R := (s1.withPackages g).errs ≠ []) i a (fun l hm => by
        obtain ⟨m1, m2⟩ := rslFiles_mem hm
        refine ⟨hl l m1, prepared_pid k m1 m2, fun hf => ?_⟩
        have he : l.cu.err = true := by
          cases h : l.cu.err with
          | true => rfl
          | false => rw [k.resolved l m1 h] at hf; cases hf
        obtain ⟨es, h3, h4⟩ := k.bad ⟨l, m1, he⟩
        show s1.errs ≠ []
        rw [h3]
        intro hz
        exact h4 (List.append_eq_nil_iff.1 hz).2) h2
      rcases hk with hk | hk | hk | hk | hk | hk
      · exact absurd hk (d' _ _ h2).1
      · exact absurd hk (d' _ _ h2).2
      · exact .inl hk
      · exact .inr (.inl hk)
      · exact .inr (.inr (.inl ⟨hk.1, errs_grow (runRsl_tells _ _ _ _ _) h2 hk.2⟩))
      · exact .inr (.inr (.inr hk))
    · cases h
    · next b s2 h2 =>
      rw [h2] at d
      dsimp only at h ⊢
      split at h
      · cases h
      · next h3 =>
        rw [if_neg h3]
        split at h
        · cases h
        · split at h
          · dsimp only at h
            split at h <;> cases h
          · next h4 =>
            rw [if_neg h4]
            unfold finish at h ⊢
            split at h
            · next c' s3 h5 =>
              cases h
              have hw := d.inv.sound.world
              have hk := runTrlcFiles_known (Q := Q) hw _ _ rfl rfl (fun l hm => by
                have hm' := (List.mem_filter.1 hm).2
                simp only [Bool.and_eq_true, Bool.not_eq_true'] at hm'
                have m1 := (List.mem_filter.1 hm).1
                refine ⟨hl l m1, ?_, k.resolved l m1 hm'.1.2⟩
                have := prepared_pid k m1 (k.pkg l m1 hm'.1.2)
                rw [← d.tabs] at this
                exact this) _ _ h5
              have hn := ((runTrlcFiles_sp hw 0 _ s2 rfl rfl).crash h5).2
              rcases hk with hk | hk | hk | hk | hk | hk
              · exact absurd hk hn.1
              · exact absurd hk hn.2
              · exact .inl hk
              · exact .inr (.inl hk)
              · exact hk.2.elim
              · exact .inr (.inr (.inr hk))
            · cases h
            · cases h
            · dsimp only at h
              split at h
              · cases h
              · split at h
                · cases h
                · split at h <;> cases h

/-- the outcome of `process`, with all kinds of exceptions -/
theorem process_excuse {render : LintMsg → String × String} (hX : X.lint = linter render)
    (hq : ∀ f ∈ fs, Src (∃ f ∈ files, EndsBadly f.content) f.nt f.rest) (hb : Lemmas.Blank s) {c : ProcCrash}
    (h : (process o X required fs s).out = .crash c) :
    Excuse files o.lint (process o X required fs s).state c := by
  cases c with
  | parse c =>
    rcases process_parse hq hb h with ⟨rfl, f, hf, pre, tail, h1, h2⟩ | ⟨rfl, h'⟩ | ⟨rfl, h'⟩ | ⟨x, rfl, h | h | h⟩
    · exact .quote f pre tail hf h1 h2
    · exact .endOfFile h'
    · exact .imports h'
    · subst h; exact .arity
    · subst h; exact .null
    · subst h; exact .quantifier
  | check c =>
    obtain ⟨ct, ck, h1, h2⟩ := C63_no_crash_partial hb h
    exact .check ct ck c h1 h2
  | lint =>
    obtain ⟨h1, t, h2⟩ := C71_crash_partial hX hb h
    exact .linter t h1 h2

/-! ## C85 -/

/-- **C85**: whatever the files contain, and whatever the options are, the tool stops with an internal
exception only in the situations listed by `Excuse`; malformed files are reported otherwise.

Missing: the listed situations, each of which does happen (see below, and `C53_dangling_quote_crash`,
`C16_index_crash`, `C71_crash`). -/
theorem C85_exceptions_partial {render : LintMsg → String × String} (hX : X.lint = linter render) {c : ProcCrash}
    (h : (runTool o X required files includes).out = .crash c) :
    Excuse (files ++ includes) o.lint (runTool o X required files includes).state c := by
  have h1 := registerFiles_lexes (Q := ∃ f ∈ files ++ includes, EndsBadly f.content) (pt := o.parseTrlc) files
    (PS.fresh []) fun f hf hbad => ⟨f, List.mem_append_left _ hf, hbad⟩
  have lex : ∀ {c : PCrash} {s : PS}, (c = .lexer ∧ ∃ f ∈ files ++ includes, EndsBadly f.content) →
      Excuse (files ++ includes) o.lint s (.parse c) := by
    rintro c s ⟨rfl, f, hf, pre, tail, h1, h2⟩
    exact .quote f pre tail hf h1 h2
  unfold runTool at h ⊢
  split at h
  · next h2 => cases h; rw [h2] at h1; exact lex h1
  · cases h
  · next srcs ok s1 h2 =>
    rw [h2] at h1
    split at h
    · next hok =>
      rw [if_pos hok]
      have b1 := (fresh_blank []).quiet (registerFiles_ok h2).quiet
      have h3 := registerFiles_lexes (Q := ∃ f ∈ files ++ includes, EndsBadly f.content) (pt := o.parseTrlc) includes
        s1 fun f hf hbad => ⟨f, List.mem_append_right _ hf, hbad⟩
      unfold processAll at h ⊢
      split at h
      · next h4 => cases h; rw [h4] at h3; exact lex h3
      · cases h
      · next more b s2 h4 =>
        rw [h4] at h3
        refine process_excuse hX (fun f hf => ?_) (b1.quiet (registerFiles_ok h4).quiet) h
        rcases List.mem_append.1 hf with hf | hf
        · exact h1 f hf
        · exact h3 f hf
    · cases h

/-- **C85** on the command line: the tool ends with an exit code, or there is an excuse. -/
theorem C85_exit_partial {render : LintMsg → String × String} (hX : X.lint = linter render) (eow : Bool) :
    (∃ n, commandLine eow (runTool o X required files includes) = .code n) ∨
    ∃ c, commandLine eow (runTool o X required files includes) = .crash c ∧
      Excuse (files ++ includes) o.lint (runTool o X required files includes).state c := by
  unfold commandLine
  cases hr : (runTool o X required files includes).out with
  | crash c => exact .inr ⟨c, rfl, C85_exceptions_partial hX hr⟩
  | none => exact .inl ⟨_, rfl⟩
  | table => exact .inl ⟨_, rfl⟩

namespace RobustSample

open RunSample in
/-- how the tool ends for a single rsl file -/
def ends (text : String) : Exit :=
  commandLine false (runTool options outside (fun _ => ∅) [⟨"p.rsl", .rsl, true, text.toList⟩] [])

end RobustSample

open RobustSample in
set_option maxRecDepth 100000 in
/-- **C85** fails: the file ends with a quote, ends too early, uses a type of an imported package
though there was an error in its imports, or has an expression that is not expected. -/
theorem C85_exceptions :
    ends "package P\n'" = .crash (.parse .lexer) ∧
    ends "package P type T { x Integer[1.." = .crash (.parse .attribute) ∧
    ends "package P import P type T { x P.T }" = .crash (.parse .assertion) ∧
    ends "package P type T { x Integer } checks T { Integer(1, 2) == x, \"m\" }" =
      .crash (.parse (.expr .arityOfType)) ∧
    ends "package P type T { x String } checks T { x in null, \"m\" }" =
      .crash (.parse (.expr .membershipOfNull)) ∧
    ends "package P type T { x Integer[1..2] } checks T { 2 ** (forall z in x => z == 1) == 1, \"m\" }" =
      .crash (.parse (.expr (.static .staticQuantifier))) := by
  decide +kernel

open RobustSample in
/-- **C85**: a run with malformed files ends with an exit code, another one with an exception; the
linter is as assumed -/
example : RunSample.outside.lint = linter (fun _ => ("", "")) ∧
    ends "package P type { x Integer[3..1] ) checks" = .code 1 ∧
    ends "package P\n'" = .crash (.parse .lexer) :=
  ⟨rfl, by decide +kernel, C85_exceptions.1⟩

end Verif.Props
