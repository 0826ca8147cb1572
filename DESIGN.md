# Formal model of TRLC (bmw-software-engineering/trlc) in Lean 4

## Method

* The model consists of total functions over `List`, `Nat`, `Int`, `Rat`, `Option` and
  structures.  It follows the Python functions branch by branch; the comment of every definition
  cites the file and lines it models and says where it simplifies.  Loops and recursion that
  Python bounds only by the input carry a bound in the model ("fuel"); running out of it is an
  outcome of its own, and C03 and C37 show that it never happens.
* Python exceptions are values.  A step of a parser or an evaluation ends normally, with a
  *reported error* (`TRLC_Error`, raised by the message handler), or with a *crash*
  (`IndexError`, `AssertionError`, `KeyError`, `AttributeError`), so "never crashes" can be proved
  or refuted.
* Object identity is kept where the code depends on it: values in record objects and anonymous
  types are numbered in order of creation.
* Specifications are separate from the model (`Verif/Spec`): grammars as inductive relations on
  tokens, typing rules, a denotational meaning of expressions, relations saying what objects,
  declarations and markup strings are.  They do not call functions of the model, except that they
  share data types with it (tokens, syntax trees, values, declarations).
* If the code contradicts a property, its negation is proved with a concrete witness (names ending
  in `_violated`, `_crash` and the like) and the strongest correct restriction is proved under a
  name ending in `_partial`.
* `example`s beside the theorems show that the hypotheses can be met; for whole runs these are
  complete sample projects (`Props/RunSamples.lean`, `Props/Accepts.lean`).
* The theorems were tested against wrong programs: `seeded/LOG.jsonl` lists edits of the model as
  realistic bugs would make them, with the theorems that then failed and what was tightened.

## Layout

* `lean/Verif/Model`: the model.  `Lexer`, `Location`, `PyStr`, `PySort`, `Math`, `Messages`;
  `SymbolTable`, `Types`, `Values`; `Elab` (building typed expressions), `Eval`, `CanBeNull`,
  `Checks`; `Markup`; `Parse/*` (the recursive descent parser as functions on tokens);
  `Sources` (registration, dependency graph), `Run/*` (preambles, all files, `process`, exit code);
  `Sections`, `Lint`, `Export` (Python values), `Vcg` and `Vcg/*` (translation of checks for the solver,
  reports).
* `lean/Verif/Spec`: specifications.
* `lean/Verif/Lemmas`: proofs about the model.
* `lean/Verif/Props`: the theorems of the properties, named after them.

## Trusted base

* The kernel of Lean 4.33.0, and the axioms `propext`, `Classical.choice`, `Quot.sound` (see
  "Axioms" below).  No own axioms, no `sorry`, `native_decide` or `bv_decide`.  Mathlib is used
  for a few tactics and for finite sets; everything is checked by the kernel.
* The reading of the Python sources as this model.  It was made by hand; there is no extraction
  and the code was not run.
* The specifications, as far as they are to say what the English statements say.
* Facts about Python: `str` is a sequence of code points (Lean's `Char` has no surrogates, which
  the text of a UTF-8 file does not contain either); `int` and `Fraction` are exact; `dict` keeps
  the order of insertion; `sorted` sorts by code points and is stable; `str.isspace`, `strip` and
  `splitlines` are given by explicit tables (`Model/PyStr.lean`).
* Simplifications that are not proved harmless: texts of messages, descriptions and the details
  text of checks are not kept; `ast_link`s are not kept; Python's limit on recursion and on the
  number of digits of integers is ignored; the file system is a list of texts (a file that cannot
  be decoded is a registration that fails); `re` is an arbitrary function (all theorems hold for
  every such function).
* For C76 and C77: `pyvcg` and the SMT solver (not part of the repository).  `Spec/Solver.lean` gives
  solver terms their SMT-LIB meaning; strings range over all sequences of `Char` (SMT-LIB strings stop
  at `0x2FFFF`); `nth` beyond the end of a sequence has one fixed value (a solver leaves it open, so
  "unsat" from the solver says more than the hypothesis used here); `Answers` in `Props/Reports.lean`
  says that answers are right and all paths of the graph are enumerated.

## What is modelled and what is not

| file | modelled | not modelled |
|---|---|---|
| `lexer.py` | all of `TRLC_Lexer`, `Token`, `Source_Reference`, `triple_quoted_string_value` | `Token_Stream` (keeps a list of tokens), `ast_link` |
| `nested.py` | all | |
| `math.py` | all | |
| `errors.py` | counters, suppression, fatal errors, categories, what is printed (`emit`, `to_string`), `cross_file_reference` | opening and closing the output file, `ice_loc` |
| `parser.py` | all parse functions of `Markup_Lexer`, `Markup_Parser`, `Parser_Base`, `Parser`: preamble, declarations, check blocks, expressions, values, objects, sections, recovery | locations and links attached to nodes, descriptions |
| `ast.py` | `Value`, all expression classes (constructors with their type checks, `evaluate`, `can_be_null`, `uses_field_access`, `to_string`), `Check.perform`, type classes, `Record_Type`, `Tuple_Type`, `Union_Type`, `Array_Type`, `Enumeration_Type`, `Record_Object`, `Symbol_Table`, `Scope`, `Compilation_Unit`, `get_example_value`, `iter_record_objects_by_section`, `iter_record_objects`, `to_python_object`, `to_python_dict`, `is_component_implicit_null`, `dump` | `to_string` of values and types, `__repr__`, `Check_Block` (a list of checks already kept with the type), `Node` |
| `trlc.py` | `Source_Manager` (registration, includes, graph, order, `process`), progress, common root, `cross_file_reference`, end of `trlc()` (exit code), the summary and the list of files, `--debug-api-dump`, `--debug-dump` | argument parsing, `main` |
| `lint.py` | all checks on types and the loop over them; `verify_imports`, `markup_ref` for one file | the loop of `verify_imports` over files (its messages are the arbitrary parameter `notes` of whole runs) |
| `vcg.py` | `checks_on_composite_type` (graph, loop over the answers), `tr_check`, `tr_component_decl`, `emit_tuple_constraints`, all of `tr_expression`, `fraction_to_decimal_string`, numbers, strings and references in `value_to_trlc` | the rest of counterexamples, debug output, calling the solver; declarations of sorts and functions (part of the meaning of terms in `Spec/Solver.lean`) |

## Properties

The statements are in `properties.jsonl`, the exact theorem names in `MANIFEST.json`. "partial" means that the code violates the claim (or a part of it is not covered); the last column says which.

| id | title | modelled code | how proved | status and remarks |
|---|---|---|---|---|
| C01 | Token spans tile the source text | `TRLC_Lexer.token`, `advance` as a state machine on the characters left | invariant of `advance`, induction over token requests | **proved** |
| C02 | Token line and column numbers are exact | same | invariant relating line and column to the consumed prefix | **proved** |
| C03 | Lexing always terminates | same, and resumption after a lexical error | characters left decrease; strong induction | **proved** |
| C04 | Words are maximal and classified by the fixed keyword list | identifier branch, keyword table | run lemma for the identifier loop | **proved** |
| C05 | Simple string literals round-trip | string branch, `replace` | induction over the written string | **proved**. second theorem: why the trailing backslash has to be excluded |
| C06 | Integer literals denote the number written | number branch, `int()` | induction over digits; value given by a separate positional definition | **proved** |
| C07 | Decimal literals are exact rationals | number branch, `Fraction()` | induction over digits | **proved** |
| C08 | Remainder operator | `math.remainder` | integer arithmetic; witness against the reference manual | **partial**. the code violates the sign rule of the reference manual (sign follows the dividend); refuted by witness, proved for operands of equal sign |
| C09 | Integer conversion rounds to nearest, ties away from zero | `math.round_nearest_away` | floor and ceiling of rationals | **proved** |
| C10 | Message handler counters are exact | message handler as counters and trace | induction over report sequences | **proved** |
| C100 | Leaving out the trlc files | `registerFiles`, `loadAll`, `process`, `runTool` with both values of `parseTrlc` | the preambles of trlc files do not declare packages again and give no edges to rsl nodes, so the order of rsl files is the same; their parsers start in states that differ only in the position in the file; parsing trlc files and evaluating checks keeps declarations and only appends messages | **proved**. The linter is a parameter; it is required not to look at the position of the parser in a file, which holds for the model of the linter (`SkipTrlc.linter_away`). The messages on imports (`notes`) are left out of C100_lint. |
| C101 | Where parsing goes on after an error | `skip_until_newline`, the recovery loops of `parse_rsl_file` and `parse_trlc_file` | one lemma for both loops: the words consumed, the last one and that none of those that begin a line can begin an entry, by induction on the bound | **proved**. States the outcome of every recovery that ends; it always ends (C37). The hypotheses on tables (no parents, global table without imports) hold for tables made by declarations (registerAll_frame). |
| C11 | Declared names stay pairwise distinct after simplification | `Symbol_Table.register` with parents and imports | invariant over declaration histories | **proved** |
| C12 | Lookup finds exactly what was declared | `contains`, `lookup_assuming`, `lookup_direct`, `lookup` | equivalence with the history of declarations | **proved** |
| C13 | Name scopes resolve innermost first and are restored | `Scope` | induction over operations | **proved** |
| C14 | Exactly the needed packages are parsed | `build_graph`: work list over packages and imports | invariant; result is the reflexive transitive closure | **proved**. C14_declared_once: no package is declared by two rsl files; C14_broken_files: files with a broken preamble are left out (except requested rsl files whose package is known). |
| C15 | Packages are parsed after everything they import | layered loop of `parse_rsl_files` | invariant; acyclicity as existence of a rank | **partial**. Importing an included package whose preamble is broken is reported as a circular import (refuted by witness). The equivalence with acyclicity is proved when every imported package has a usable file; C15_circularity_iff shows for all projects that these are the only two reasons for the error. |
| C16 | Evaluation never gets stuck on well-typed checks | type checks while building expressions (`Elab`) and `evaluate` with a crash value (`Eval`) | type soundness by induction over expressions; witnesses for the three crashes | **partial**. Type soundness from the parser's type checks to evaluation. Violated in three ways, each witnessed: index equal to array length, quantifier body evaluating to null, field of a union that an extension of a member redeclares with another type. Proved: no other internal exception occurs, and none at all when these three are excluded. |
| C17 | Logical operators short-circuit | `Binary_Expression.evaluate` | case analysis on arbitrary operands | **proved**. For arbitrary operand expressions including failing ones. |
| C18 | Null is rejected everywhere but in equality tests | `evaluate` | case analysis for every operator | **partial**. Missing: the right operand of and/or/implies and the parameters of oneof, where null is accepted (C18_null_and_accepted, C18_null_oneof_accepted). C18_logic_right and C21_oneof_null say what happens then. |
| C19 | Quantifiers mean for-all and exists | `Quantified_Expression.evaluate` | induction over the array | **proved**. Arrays of any length; the predicate gives a Boolean for all elements, C19_first_decides covers evaluation that stops early. |
| C20 | Range membership is the conjunction of two comparisons | `Range_Test` | case analysis, both from the tree and from the source form | **proved**. C20_source connects the source form `x in a .. b` and `x not in a .. b` through the elaboration. |
| C21 | oneof means exactly one | `OneOf_Expression.evaluate` | induction over the parameters | **partial**. Proved when every parameter gives a Boolean. A null parameter is accepted and counted as false (C18_null_oneof_accepted); C21_oneof_null gives the result for all parameters. |
| C22 | Conditional expressions pick the first true branch | `Conditional_Expression.evaluate` | induction over the branches | **proved**. Any number of branches; later conditions and other dependents unconstrained. |
| C23 | Array indexing is bounds-checked | index operator | arithmetic on indices | **partial**. Missing: index equal to the length, which raises an internal exception for every array (C23_index_at_length). |
| C24 | Integer division and division by zero | `//`, `/` and the check for zero | floor characterisation | **proved**. Uses the floor characterisation proved for the integer division model. |
| C25 | Array membership equals an existential test with == | `in` on arrays, `Value.__eq__` | induction over the array; structural equality | **partial**. Proved for every array component with conforming elements and every expression x that has a non-null value of exactly the element type. The full claim is false: for a null x the test `x in A` is an error while the quantifier gives false (C25_null), and for a union type `x in A` is always false if x and A are declared with two separately written union types, even with the same members and the same object (C25_unions). |
| C26 | Record reference equality is identity | `==` on references | heap invariant: objects have distinct field objects | **partial**. Proved for objects with a component that is not frozen, also for whole runs; refuted for objects without components. C26_same_type and C26_run_same_type are exact for objects of the same type: references are equal if and only if the objects are the same or the type has no component that is not frozen. |
| C27 | Check severity | `Check.perform`, `Record_Object.perform_checks` | induction over the list of checks | **proved**. For every list of checks with a defined or reported outcome: messages in order, counters, fatal stops. |
| C28 | Checks are inherited and run base first | `iter_checks` | induction over the extension chain | **proved**. The performed list is the concatenation over the extension chain, base first, each type once, declared order. |
| C29 | All tuple values are checked | `perform_type_checks` of arrays, tuples | induction over components; witnesses | **partial**. Proved for tuples as components and array elements (pass/fail outcome). The claim as stated is false for the code: tuples nested in tuples are never checked, and array elements after a failing one are not evaluated; both proved as counterexamples. |
| C30 | Type extension is a tree order | `is_subclass_of`, `all_components` | induction over the extension chain | **proved**. For all declarations in which a parent is declared before its extensions (WFDecls), which the parser guarantees by looking the parent up. |
| C31 | Frozen components | `is_frozen`, `parse_record_object_declaration`, whole runs | invariant of the whole run | **proved**. For whole runs of process() that return the symbol table (files of any content). |
| C32 | Accepted record objects are complete | same | loop invariants over assignments and completion; whole runs | **proved**. C32_run: for whole runs of process() from the text of the files, without assumptions on the declarations. |
| C33 | Array sizes respect declared bounds | array values | loop invariant | **partial**. Proved except for an upper bound of 0, which the code does not enforce (counterexample proved). |
| C34 | Separator tuples | separator loop of `parse_value` | loop invariant in both directions: what is read has the form of the manual or lacks a separator in front of a required field; what has the form is read (from the acceptance theorem for written values); witness | **partial**. What has the form of the reference manual is accepted, for all types (C34_accepted). The converse is false: the separator in front of a required field may be missing (C34_separator_missing); C34_either shows for all types that this is the only deviation. If all fields after the first are optional, the claim holds exactly (C34_exactly_partial). Required in front of words that do not begin with a separator of the type. |
| C35 | References are type-safe | `resolve_references` | equivalence, induction over values; whole runs | **proved**. Exact characterisation of success of reference resolution; C35_run for whole runs of process(). |
| C36 | Expression grammar | recursive descent of expressions on tokens | soundness and completeness against a relational grammar, by induction on fuel and derivations | **proved**. The whole recursive descent (expression, relation, simple_expression, term, factor, primary, quantified, conditional, builtin calls, names) on tokens, against the relational grammar of Spec/Grammar.lean; soundness, completeness, uniqueness, no mixing and no chaining of logical operators, termination. Not modelled: locations attached to nodes. |
| C37 | Parsing always terminates, even after errors | recovery loops of both file parsers | tokens left decrease; the fuel of the model is never exhausted, whole runs | **proved**. C37_run: rsl and trlc files, in whole runs of process(): the fuel standing for loops and recursion is never exhausted. |
| C38 | Union types: members, fields and compatibility | `Union_Type` | list lemmas, equivalences | **partial**. Compatibility, accepted and rejected fields and the null for missing fields are proved in full, each as an equivalence. The common type does not cover extensions of member types: C38_extension_clash gives well-formed declarations and objects where an Integer field access yields a String. |
| C39 | Null result means errors were reported and vice versa | `process` | every piece of the parser that fails has reported (class `Says`); whole runs | **partial**. None is returned only after a reported error (full). The converse is violated by the code: unresolvable imports and a few non-fatal errors are reported although a table is returned (C39_violated); C39_table_partial shows that these are the only kinds. |
| C40 | Exit code | end of `trlc()` | decision logic on top of C39 | **proved**. On the model of the command line tool's handling of the result; crash outcomes are excluded by hypothesis (C85 says when they happen). |
| C41 | Progress never decreases and never exceeds 100% | `signal_progress` | induction over signals | **proved** |
| C42 | Common root of registered files | `update_common_root` | induction over registrations | **partial**. Holds when no registered directory is a proper prefix of another. Violated otherwise: registering a directory that is a prefix of the current root leaves the root unchanged, so the result depends on the order (witness C42_root_not_common). The prefix is on characters, not path components. C42_root_iff: exactly if a file is in a directory above the root; in all cases each common prefix is a prefix of the root. |
| C43 | End of a location | `Source_Reference.get_end_location` | list lemmas | **partial**. Violated for ranges that end in a line break and if the last line break before the end is at offset 0 or 1 of the text (a wrong column is witnessed). C43_end_location_iff shows that these are exactly the cases. |
| C44 | Context lines | `Source_Reference.context_lines` | list lemmas | **proved** |
| C45 | Triple-quoted string values | `triple_quoted_string_value` | list lemmas; trimming and the common indentation are unique, which gives the exact condition for the rule of the manual | **partial**. Trailing white space of the first line is kept (witness); C45_lrm_iff shows that this is the only deviation from the reference manual, for all texts. |
| C46 | A closed triple-quoted string is always accepted | triple-quoted branch of the lexer | scan lemma | **partial**. Holds when something follows the string. Violated for every triple-quoted string that is closed exactly at the end of the file: it is rejected as unterminated (proved for all such strings). |
| C47 | Markup references keep their source positions | `Nested_Lexer.source_location` | position arithmetic | **partial**. Violated: a token on the first line of a triple-quoted string is reported at the column of the first character of the string (C47_first_line_column). Everything else holds: offsets and lines of all tokens, columns in ordinary strings and on later lines. |
| C48 | Markup strings: every bracketed name is a reference, nothing else is | `Markup_Lexer`, `Markup_Parser` | soundness and completeness against a grammar of markup | **proved**. Acceptance and the references, for all texts; rejection by a message if the imports of the file were resolved (otherwise the assertion of is_visible fails). |
| C49 | Registration order does not matter | `buildCUs`, `parseRslOrder`, `registerFiles`, `runTool` | sorting two permutations of files with different names gives the same list; registering a file depends only on the file, so permuted registrations give permuted parsers and states that differ only in the current tokens, which the next parser replaces | **proved**. `C49_run` is about the whole run of the command line tool on the text of the files. Files with different names (a file given twice is registered once, C55). Lexical errors in files of include directories do not stop the run and are reported in the order in which the files are found, so `C49_run_includes` is about files without such errors. |
| C50 | Sections iterate objects once, in order | `iter_record_objects_by_section` | induction over objects | **partial**. a second iteration yields no titles (witness) |
| C51 | Evaluation only depends on the components an expression mentions | `evaluate` | induction over expressions and values | **proved**. Outcome (value, error or internal exception) depends only on the mentioned components, and only on record objects reachable from the context. Evaluation is a pure function in the model, so it has no effect on the object. |
| C52 | Import visibility | `parse_qualified_name`, references, `is_visible` | case analysis | **proved** |
| C53 | Lexical problems are reported, never internal exceptions | all branches of `token` | case analysis on the text ahead, exact characterisation | **partial**. Exact characterisation: an internal exception occurs iff the text ahead is white space followed by one of four dangling quotes ending the file; three concrete crashing files are given. |
| C54 | Operators and delimiters use the longest match | operator branch | case analysis with the next characters | **proved** |
| C55 | A file given explicitly and found through an include directory is processed once | `register_include`, `register_file` | induction over registrations; witness | **partial**. Proved for include directories registered before the files (what the command line tool does), with files distinct and spellings unambiguous. In the other order the run ends in a failing assertion (same spelling) or the file is registered twice (other spelling), see C55_include_after_file. |
| C56 | Arithmetic and comparisons are exact | arithmetic operators | equality with the operations on `Int` and `Rat` | **proved**. For all operands; integers and decimals. |
| C57 | String operators | string operators, `len` | equality with operations on lists | **proved**. All strings and arrays. |
| C58 | Inherited components are accessible through references | constructor of `Field_Access_Expression` | case analysis; the violation holds in all cases | **partial**. Proved for components declared in the type itself. For inherited components the claim is false in all cases: C58_inherited_rejected proves that every such access is rejected (the constructor compares the static type of the prefix with the declaring type by identity). Access through a union type works. |
| C59 | can_be_null is sound | `can_be_null` | induction over expressions; witnesses | **partial**. Proved for expressions whose value is not passed on from and/or/implies or from a field access. Witnesses show the claim is false for these. C59_universal_field: for fields of unions can_be_null is false exactly if every member has the field. |
| C60 | == in checks is an equivalence relation | `Value.__eq__` | mutual structural induction | **proved**. Hypothesis: tuple types have distinct field names and dictionaries have distinct keys. |
| C61 | The objects are those written in the files | `parse_trlc_file`, sections, whole runs | parser soundness against the grammar of objects | **proved**. C61_run: for whole runs of process(), from the text of the files, including preambles, package membership, imports and selection of files. |
| C62 | Checks of different objects are independent | `perform_checks` over all objects | induction over objects | **proved**. Hypothesis: no object crashes (C63 shows this for accepted checks). |
| C63 | Accepted checks always evaluate; the run passes iff they all pass | checks on all objects, whole runs | equivalence, using C16, C35, C66 | **partial**. The characterisation of success is complete (C63_passes_iff, C63_run). Absence of internal exceptions is violated by the code (C63_violated); C63_no_crash_partial shows which checks can be responsible. |
| C64 | Extent of comments | comment branch | scan lemma | **proved**. Also shows that unclosed block comments are accepted silently and that /*/ is a closed comment. |
| C65 | Typing rules of check expressions | type checks of expressions | equivalence with separate typing rules, by induction | **proved**. Exact (both directions), from syntax trees and from tokens. The rule for membership in arrays is weaker than the reference manual (kind of type instead of type); C65_membership_of_other_type shows the consequence. The rule for fields of records is the one the code has (only components declared by the type itself, see C58). |
| C66 | The meaning of check expressions | type checks and evaluation | equivalence with a denotational meaning, by induction | **proved**. Spec/Meaning.lean gives the meaning by recursion over syntax trees, without the model's evaluator; the theorem is an equivalence between evaluation of the elaborated expression and that meaning, for every value. C66_markup_membership records a surprise: a Markup_String is never in an array of String. |
| C67 | Assumptions of the verification of checks | `VCG.checks_on_composite_type` (order only), `uses_field_access` | list lemmas; witness | **partial**. Violated: the verification first goes through the checks that do not follow references, the evaluation follows the order of declaration, so a fatal check that comes later is assumed for an earlier one (C67_violated, division by zero). Proved for lists in which fatal checks without field access come before checks with field access; uses_field_access is proved exact. |
| C68 | String tokens are closed literals | string branch | scan lemma on all tokens | **proved**. All tokens of all texts; C05 and C46 are the converse. |
| C69 | Declarations are well-formed after a successful run | `parse_rsl_files` | invariant of the parser of rsl files (`RslInv`), whole runs | **proved**. For whole runs of process() that return the symbol table. |
| C70 | The linter reports every questionable declaration exactly once | `lint.py` on types | loop invariant over the reachable types | **proved**. For lint mode without verification. LintReport: every relevant type contributes once (messages of one type are themselves distinct unless a union repeats a member), then the abstract leaf types, each once. |
| C71 | The linter does not crash | same | exact characterisation of the crash; witness | **partial**. The code violates this: a tuple type with separator x or b after an Integer field followed by a further separator runs into a failing assertion; followed by a field of an enumeration type (directly or nested) it runs into an AttributeError in get_example_value. C71_crash_partial and C71_crash show that these are exactly the cases. |
| C72 | After a successful run the types and checks are exactly those written in the rsl files | `parse_rsl_file`, whole runs | parser soundness against a grammar of declarations and checks | **proved**. Grammar of declarations and check blocks in Spec/RslText.lean, stated without the parser; expressions of checks by the grammar of C36 and the typing rules of C65; frozen values by the grammar of C34. Locations, descriptions and the details text of checks are not part of the model. The converse (every text of the grammar is accepted) is C73. |
| C73 | Files that follow the language are accepted, and have one reading | `parse_rsl_file`, `parse_trlc_file` over all files | parser completeness; determinism of the parser gives uniqueness of the reading | **proved**. The grammar (Spec/RslText, Spec/Written, Spec/References) is stated without the parser. Where the grammar of TRLC is ambiguous (a tuple value with an optional field missing, followed by an identifier equal to its separator) the rules say which reading counts, see WrittenSep in Spec/Written and DESIGN.md. Acceptance of the preambles and of whole runs is C74. |
| C74 | A project that follows the language is processed without false alarms | `registerFiles`, `loadAll`, `process` | reading a preamble is inverted (`readImports_on`), declaring packages is characterised by the table of packages (`Known`, `Fits`), then C73, C35 and C63 are put together | **proved**. Project, NoCycle, PkgWanted (Spec/Project) speak about the texts of the files only. C74_run: the hypothesis on the linter is needed because it can fail with an internal exception (C71). That the files have to be written in the language is C72/C73. |
| C75 | The Python API hands out exactly what is written | `Model/Export.lean`: `to_python_object` of all values, `to_python_dict`, `fully_qualified_name`, rounding to IEEE doubles, `iter_record_objects`, the debug API dump | `Spec/Export.lean` says what the nearest double is (minimal distance over all doubles, ties to even) and what a Python value for a written value is; rounding is proved in `Lemmas/Float.lean`, then induction over values with the invariants of successful runs | **partial**. The entries are right whenever the export returns (C75_dict, C75_as_checked). False of the code: a Decimal of 2^1024 or more raises OverflowError (C75_violated); it is the only exception and values up to the largest double are exported (C75_exported_partial). The debug API dump is keyed by unqualified names and loses objects (C75_dump_violated); it is complete when names are different (C75_dump_partial). is_component_implicit_null returns true exactly when the component is not an implicit null (C75_implicit_null). |
| C76 | Checks that verification accepts without findings never go wrong | `Model/Vcg/*`: the whole translation of declarations, frozen values, tuple constraints and checks into a graph of solver statements, in both modes (functional and not), including failing assertions and unsupported constructs | `Spec/Solver.lean` gives solver terms a meaning, `Spec/Strict.lean` evaluates checks and fails on any error, `Spec/Analysis.lean` says what a verified graph is. By induction over expressions each object yields a path and an assignment on which the terms have the values of the evaluation (`Lemmas/Vcg/*`); a goal that holds on all paths then excludes the error; for whole runs the conditions on values are derived from what the parser does (`Lemmas/Shapes.lean`, `Lemmas/Ids.lean`) | **partial**. Proved for the translation of all expression kinds, for single objects and for whole runs of the tool (C76_run_partial), under stated conditions that nothing in the code ensures: fatal checks come first in the order of the analysis too (C67), tuple checks assumed by the analysis hold, no array type has an upper bound of 0 (C33), enumerations are not empty. That values have the form the analysis relies on (keys, numbering, lengths, order of nulls, frozen values) is proved from the parser, not assumed, in C76_run_partial. False of the code without the conditions: tuple checks of severity error are assumed but do not stop the evaluation (C76_tuple_error, C76_violated). The meaning of solver terms is Spec/Solver.lean; pyvcg and the solver are trusted to decide it (hypothesis Answers). |
| C77 | Verification reports each finding once and misses none | `Model/Vcg/Graph.lean`: `solveStep`, `feasLoop`, `solveAll` | invariant of the fold over verification conditions, characterising all three sets of places | **proved**. Exact for the loop over verification conditions; `Answers` says that the solver's answers are right for the terms as Spec/Solver.lean reads them and that pyvcg enumerates the paths of the graph. |
| C78 | Verification of checks always comes to an end with a report | `Model/Vcg/Declared.lean`: `verifying`, the linter with verification of all declared types, plugged into `process`; the translation as for C76, with internal exceptions and `Unsupported` as outcomes | every expression the parser accepts has the form the translation relies on (`Lemmas/Vcg/NoCrash.lean`, induction over elaboration); by induction over such expressions the translation reaches no failing assertion or missing entry if they are `Verifiable` (`NoCrash2.lean`, `Props/Verify.lean`); witness for the full statement in `Props/VerifySamples.lean` | **partial**. Exact description of what holds: an internal exception needs a type whose quantifier bodies or tuple checks contain a division, remainder, index, range test or oneof (or the linter's own C71). Such checks do crash the code: C78_violated exhibits `(forall x in a => x in 1 .. 5)`. C78_report gives the messages of successful runs, and a warning only for types with quantifiers nested in such places or frozen aggregates. Sorts of solver terms (assertions of pyvcg) and the text of counterexamples are not modelled. |
| C79 | Numbers and references in examples of findings are exact | `Model/Vcg/Example.lean`: `intText`, `fractionText` with both loops, `instanceText` | the factor loop decides whether the denominator is of the form 2^a*5^b (induction over the rounds), which is equivalent to a finite expansion; the digit loop keeps `digits * den = i * 10^length` and ends since the denominator divides a power of ten; literals are those of `Spec/Numbers.lean`; names are split at the last underscore | **proved**. For all integers and rationals; the literals are those of the independent specification used for C06/C07. Values that are not fractions (algebraic numbers) are shown as a comment by the code and not covered. Names of packages and types contain no period (lexer). |
| C80 | Strings in examples of findings read back | `Model/Vcg/Example.lean`: `stringText`; the lexer as for C05 | without quotes the text is the escaped form, so C05 applies, and C46 for strings with line breaks; conversely C68 says what the text of any string token is, so the text shown is read back only if nothing in it was an escape and the layout rules leave it alone; three witnesses for violations | **partial**. The full claim is false. C80_exactly says for every string whether it reads back: a string on one line does if and only if it has no quote and does not end in a backslash; a string with line breaks does if and only if it does not contain the closing quotes and the layout rules for triple-quoted strings (C45) leave it unchanged. C80_lines spells out sufficient conditions for the second case. The violations: quotes are not escaped, a final backslash escapes the closing quote, and white space at the ends of multi-line strings and of their lines gets lost. |
| C81 | Expressions quoted in messages read back | `Model/Quote.lean`: `to_string` of all expressions of checks; the lexer and parser as for C03 and C36 | induction over syntax trees: the text of each piece is read by the lexer as tokens of the phrase of the grammar for it, whatever follows (`Lemmas/Spelled.lean`, `Lemmas/QuoteMain.lean`), then C36; witnesses for the rest are parsed, quoted and parsed again | **partial**. Holds for all expressions in which no operand has to be put in brackets and which contain no literal that is printed differently (booleans, decimals, strings, enumerations of other packages, `not in`); Spec/Quote.lean says which. The code violates the rest: `(1 + 2) * 3 == 9` is quoted as `1 + 2 * 3 == 9`, `1.5 > 1.0` as `3/2 > 1`, both with the opposite value; others are quoted as text that is not accepted. |
| C82 | An import reported as unused can be removed | `Model/Imports.lean`: `verify_imports` for one file; the parser and the preambles as for C36 and C67 | relation between two runs of the parser, with and without the package among the imports, through all functions of the parser: if the first ends without error, the name of the package is not among the tokens and no value refers to it, then the second does the same (`Lemmas/Unimport*.lean`); the first state by induction over the files before; the lexer (C04) for the counted tokens | **partial**. Holds for all files in which no markup string inside an array or a tuple refers to the package. For these the code is wrong: the strings inside arrays and tuples have no link from a token, so the check does not see their references; the import is reported as unused, but without it the file is rejected (C82_violated). Removing is modelled on the parsed preamble: the tokens behind it stay as they are. |
| C83 | Error recovery does not change the result | the loops over items of a file with `error_recovery`, `process` (as for C39) | the two loops agree up to the first item that raises, since items are parsed without looking at the option; after it one run raises and the other can never return `True` and only adds errors (`Lemmas/Recovery.lean`); lifted over the loops over files and the steps of `process` | **proved**. Only the first error is common to both runs of a project: without recovery, files that need a declaration behind the first error get errors that are not reported with recovery (example beside the theorems). |
| C84 | Layout and comments do not matter | lexer, all functions of the parser, preambles, `process` (as for C39); the words of a file are `Spec/Layout.lean` | a simulation between parsers whose tokens differ in positions and between which other comments stand, composed along every function of the parser (`Lemmas/Layout*.lean`), lifted over files and the steps of `process`; with recovery from C83; for texts: reading a token depends on what is left only, and looks at most at the next character (two for `..`), by induction over the tokens before the change | **proved**. What is outside the model (regular expressions, the linter, hints) is assumed to be the same up to locations (`SameOutside`); for the linter without verification of checks this is shown beside the theorems. `C84_words`: any change of white space and complete comments between words, at the start or at the end of a file leaves the words as they are; after a word white space has to come first (a comment directly after `/` reads differently). |
| C85 | Malformed files are reported, not internal exceptions | lexer, all functions of the parser, preambles, `process`, checks, linter without verification of checks (as for C39, C71) | every function of the parser raises an internal exception only as described by `KnownEnd` (`Lemmas/Calm*.lean`): expressions that are built are well typed, so that evaluation of static ones does not fail (`Lemmas/StaticSound.lean`, as for C16), number tokens have numbers, packages are registered, markup strings are never cut short; lifted over files and the steps of `process` | **partial**. It fails in eight situations, which are listed (`Excuse`), and which happen (`C85_exceptions`, C53, C16/C63, C71): a file that ends with an open quote; a file that ends after `..` of array bounds, after the comma behind the text of a check, or before a tuple with separators; a type of another package used though the imports of the file are wrong (an error was reported before); `Integer(1, 2)`; `x in null`; a quantifier in an exponent or pattern; checks with `[]` etc. (C63); lint mode with certain tuple types (C71). The theorem shows that there are no others. The linter is the one without verification of checks. |
| C86 | References to other places in messages identify these | `cross_file_reference`, `Location.to_string`, `os.path.relpath` (`Model/CrossRef.lean`) | where a path leads to is an inductive relation on texts (`Follow`); normalising paths computes it, and going up and down again along the common part leads to the file; the last colon separates path and line | **proved**. `os.path.abspath` and `os.path.relpath` are modelled as they are on POSIX systems, for paths that do not start with exactly two slashes. References to builtin types and functions have no line; their "file" `<builtin>` is treated like the name of a file. |
| C87 | What is printed for a message tells where and what | `emit` up to writing to the file, `to_string`, `Kind.__str__` (`Model/Emit.lean`) | the first colon ends the name of the file, numbers have no colons or blanks, so the text can be taken apart from the left; marks from C44, replacing tabs keeps positions | **partial**. Violated in two ways, which the theorems leave out: the prefix given to `--log` is removed from names that have it, so that `lib/a.rsl` looks like `a.rsl` (`C87_prefix`); file names can have colons (`C87_colon`). A tag (category) is part of the text of a message. |
| C88 | Notifications of a run tell its progress | `signal_progress` and its calls in `parse_rsl_files` and `parse_trlc_files`, the other notifications in `process` (`Model/Progress.lean`) | induction over the files parsed; the two selections have the same members (C14, C15) and no duplicates, hence the same length | **proved**. `C88_success` holds if trlc files are registered only when they are to be parsed, as `register_file` sees to. In a failing run 100 can be seen before the last file (`C88_early`): rsl files with an error in their preamble are not counted but parsed. |
| C89 | Formulas given to the solver are well formed | well-sortedness of terms and well-formedness of scripts (`Spec/Sorts.lean`), independent of the translation; the graph as for C76 | nodes are annotated with the constants surely and possibly declared there; the translation keeps the annotation consistent (mutual induction over expressions), then induction over paths | **partial**. In full it does not hold: `Integer(x)` of an Integer and `Decimal(x)` of a Decimal are accepted and translated as conversions from the other number type (`C89_violated`); the operator `in` accepts a value of one enumeration or tuple type and an array of another, which are different sorts (`C89_violated_in`). `C89_partial` excludes these two cases and nothing else. Declarations of sorts and functions themselves are not modelled. |
| C90 | Files of include directories that are not needed have no effect | `process` on both projects; `Spec/Unneeded.lean` says which files are needed and which words a file has | relational: the two runs are simulated against each other through the whole parser, with packages renumbered; every function keeps the relation between states | **partial**. In full it does not hold: every package is declared in a table that is visible everywhere, so a type or object whose name looks like that of an unneeded package is refused (`C90_violated`). `C90_partial` requires that no word in the given files looks like the name of a package that is only declared in the additional files. The run is without lint messages, and loading succeeds in both cases (an unneeded file that cannot be lexed or whose preamble is wrong is reported). |
| C91 | The summary and the list of files tell what was processed | `Model/Summary.lean`: `summary`, `countsOf`, `fileList`; `Spec/Summary.lean` says what the words of a text are, which files are needed and what a line of the list says | the text is a list of words, which is unique; case analysis on words; for the numbers the files as loaded correspond one to one to the files given, and the needed ones are known from C14 and C74 | **proved**. Files count as processed if they are given or needed; if an rsl file is refused then the trlc files are counted although they were not parsed. `C91_counts` and `C91_file_list` are about preambles without errors, `C91_file_list_printed` about all runs in which the list is printed. With --skip-trlc-files the number of trlc files is not printed, so `C91_numbers` then assumes it. |
| C92 | Requirements can be moved | the parser, resolution and evaluation of checks of the other properties; `Spec/Rearrange.lean` says what the declarations of a text are and when two sets of files have the same ones | what the grammar says about an accepted text (C61, C68) gives the objects of each declaration and that it has the shape assumed; conversely a list of well-formed declarations with distinct names is accepted; references resolve to corresponding objects; evaluation of an expression gives corresponding values on corresponding objects (induction on fuel), so that the same checks pass | **proved**. The structure `Moved` says what moving is: the texts have no lexical errors, the preambles are read without message and name the packages in the same order of first use, the same rsl files are parsed in the same order, and the trlc files that are parsed have the same declarations. Declarations are told apart by their braces only (`ObjectShape`), not by what the parser makes of them. 'Values' includes references by package and name; `MoveSample` applies the theorem to four objects in two files. |
| C93 | Dumping the symbol table | `dump` of expressions, checks, types, values, objects, packages and tables, with a bound on how deeply the calls are nested; a line is its indentation and what it is about | well-typed expressions have all the attributes that are printed; induction on the bound and on expressions shows that the only failure is nesting, which happens exactly along the relation `RangesOver`; the lines at each level of indentation are found by induction on the structure; the table of a finished run has every declared type and every object in exactly one package | **partial**. It does not end if a check of a record type quantifies over an array of records of the same type, as the type of the variable of a quantifier is dumped with all its checks (ast.py:2393-2396, 2938-2951): `DumpSample.C93_violated` is a run on such a project. `C93_partial` proves that it ends exactly if no type reaches itself along such quantifiers, `C93_depth` that otherwise the depth is at most the number of record and tuple types, `C93_outcome` that no other exception occurs. The other theorems are on what is printed. `C93_values` shows that the printed lines determine the values up to the packages of referenced objects, which are not printed. |
| C94 | Requirements can be removed and added separately | as for C92; `Spec/Removed.lean` says what removing declarations is and when objects do not refer to others | as for C92, with a relation between the objects of two runs that need not cover all objects of the first: names determine objects, so that objects with the same name have the same values, and evaluation of checks gives corresponding values | **proved**. The hypotheses (`Alike`, `Thinned`) say that the same rsl files are parsed, the preambles are read without message, and the trlc files of the second project consist of some of the declarations of the first, found by their braces only. `SelfContained` is on the values of the objects of the first run. `RemoveSample` applies both theorems, to an object nobody refers to and to one that is referred to. |
| C95 | Checks can be removed without changing anything else | as for C92; `Spec/LessChecks.lean` says what removing check blocks is | every parsing function of rsl files, including all of the expressions, is shown to do the same in two states that differ in their checks and positions (`Lemmas/SameExpr.lean`, `Lemmas/LessChecks.lean`); a check block changes nothing but the checks; then as for C92 | **proved**. The hypotheses (`ChecksRemoved`) say that the preambles are read without message, that the rsl files are parsed in the same order and have the same blocks apart from some blocks that start with `checks`, and that the trlc files have the same declarations in any arrangement. Blocks are found by their braces only. Errors include failing checks with severity error; warnings of removed checks disappear. `UncheckSample` applies the theorem, with one of two check blocks removed. |
| C96 | Sections only group requirements | as for C92 | as for C92, with a correspondence between what is written that does not keep sections (`Lemmas/Resection.lean`) | **proved**. The hypotheses say that the same rsl files are parsed, the preambles are read without message, and the trlc files of the second project consist of the declarations of the first (`RearrangedBy SameDecl`), found by their braces only. Which sections the objects are then in is C61. `SectionSample` applies the theorem. |
| C97 | The order of the assignments in an object does not matter | as for C92 | values contain no `=`, so the assignments are found in the text; what is written does not depend on what comes behind it, unless that is a dot or a separator (`Lemmas/Reorder.lean`); then as for C96. A concrete project violates the property in general | **partial**. `C97_order_matters` shows that the code violates the property: with a tuple type whose second component is optional and written behind a separator that is a name `x`, `{ x = 2 t = 1 }` is accepted but `{ t = 1 x = 2 }` is not, since `x` is read as the separator. The partial theorems cover all other objects: those in which no component assigned has the name of a separator. `OrderSample` applies the theorem. |
| C98 | Linting and verification of checks only add warnings | `process` with and without `lint`; `linter`, `verifying` | the linter and the verification return without exception only with `True` and warnings; then case analysis over the steps of `process`, in which nothing else depends on the option | **proved**. What is not modelled (regular expressions, locations, hints of the parser, warnings on imports) is assumed to be the same in both runs, apart from warnings (`SameApart`). If the linter raises an internal exception nothing is claimed; C71 and C78 say when that happens. |
| C99 | Runs do not depend on the order of sets | `Required` (the loop with `set.pop` as a relation), `parseLayers`, `runTool` | every outcome of the loop is the set of wanted packages (C14), so there is only one; the layers are permuted by another order of the work list and then sorted by names, by induction on the rounds | **proved**. The sets of packages in build_graph and parse_rsl_files. The other sets of the code are only asked for membership, not iterated (imports are iterated only to make another set of graph edges, which C99_parse_order covers); all_names returns a set to the caller. |

## Axioms

From `#print axioms` on every theorem named in `MANIFEST.json`:

* `Classical.choice`, `Quot.sound`, `propext`: all 333 others.
* `Quot.sound`, `propext`: C13_no_underflow, C15_enough_rounds, C16_record_context, C30_test_is_extends, C30_partial_order, C30_comparable, C30_components, C30_base_first, C30_component_lookup, C38_compatible, C41_progress, C42_common_root_partial, C42_root_iff, C50_objects, C52_qualified_names, C67_uses_field_access, C67_assumptions, C77_reports, C88_hundred.
* `propext`: C06_value_unique, C11_history, C13_push_pop, C13_balanced, C32_mandatory, C42_unique, C75_implicit_null.
* none: C08_lrm_sign_rule_violated.

## Findings

Deviations of the code from what a user would expect, found while proving.  Those marked with a
property are proved in the model; the others were read off the code.

Internal exceptions

* An index equal to the length of the array raises `IndexError` (C16, C23, C63).
* A quantifier whose body evaluates to null, and a field of a union that an extension of a member
  redeclares with another type, run into failing assertions or values of the wrong type (C16, C38).
* `x in null`, `Integer()` and `Integer(1, 2)`, and a quantifier in a static context crash while
  the expression is parsed.
* End of file in front of a value of a tuple type with separators, after `[1 ..` in a component,
  or after the comma behind the message of a check, raises `AttributeError`.
* Four kinds of quote at the very end of a file fail an assertion when the position of the error is built (C53).
* After an error in the preamble of an rsl file that is parsed nevertheless, a qualified name fails
  the assertion on `imports`.
* The linter fails an assertion on `tuple U { p Integer separator x q Integer separator x r Integer }`
  (`previous_was_bad_sep` is never reset) and raises `AttributeError` for separator `x` or `b`
  between an Integer and a field of an enumeration type (`choice.name`, `ast.py:3188`) (C71).
* Registering an include directory after a file below it fails an assertion (C55).
* `to_python_dict` raises `OverflowError` for decimals of `2^1024` or more (C75).
* `--verify` fails an assertion on range tests, `oneof`, division, remainder and index in the body of a
  quantifier or in a tuple check (`attach_*_check` assert `not self.functional`, `vcg.py:165-258`).

Wrong acceptance

* An unresolvable import is reported, and yet `process` returns a table (C39); so do missing
  commas in arrays, arrays that are too short or too long, duplicate members of unions, and line
  breaks in messages.
* An upper bound of 0 means no upper bound (C33); lower bounds above upper bounds are left to the
  linter.
* Separators in front of mandatory fields may be missing (C34).
* Tuples in tuples are not checked (C29).  Elements after a failing one are not checked.
* Null as right operand of `and`, `or`, `implies` and as parameter of `oneof` (C18, C21).
* Membership of a literal of another enumeration type (C65); `P.len(x)` for any visible package.
* Unclosed block comments (C64).  Text that is not lexically correct behind the preamble of a file
  that is not needed.
* Types and objects whose declaration failed stay registered (the run fails, but later files see
  them).

Wrong rejection

* Components inherited by the type of a reference cannot be accessed (C58).
* Importing a package whose only file has a broken preamble is called a circular import (C15).
* A triple-quoted string that ends the file is called unterminated (C46).
* The separator of tuples is matched greedily: in `t = 1 x = 2`, where `x` is both the separator of
  an optional field and the next component, `x` is taken as separator and the file is rejected.
  Where the grammar is ambiguous in this way, `Spec/Written.lean` gives the reading of the parser.

Wrong results

* The sign of `%` follows the dividend; the reference manual says the divisor (C08).
* References to objects without components are equal (C26); `Markup_String`s are never in an array
  of `String` (C66); two union types with the same members are different (C25).
* `can_be_null` is not sound for `and`, `or`, `implies` and fields (C59).
* Verification assumes checks in another order than they are evaluated (C67).
* Verification assumes tuple checks of severity `error`, though evaluation goes on when they fail (C76),
  the constraints of optional tuples and arrays even if they are null, and the upper bound 0 of arrays
  that is not enforced.
* Columns of markup tokens on the first line of triple-quoted strings (C47), of the end of ranges
  (C43); the common root depends on the order of registration (C42); the second iteration over
  sections yields no titles (C50); trailing white space of the first line of triple-quoted strings
  is kept (C45).
* `--debug-api-dump` keys objects by their unqualified name, so that only one of two objects with
  the same name in different packages is in the dump; `is_component_implicit_null` returns the
  opposite of what its name says (C75).
* `Tuple_Aggregate.to_string` (`ast.py:1045-1066`) overwrites its result at the end and returns
  `")"` or the empty string.
* `err.kind == "lex error"` in the recovery of the parsers is never true.
* An abstract type with only abstract extensions is reported as having no extensions by the linter;
  element types of arrays are not visited (C70 describes exactly what is reported).
* Strings in counterexamples are printed without escaping quotes, and multi-line ones do not read back
  (C80, `vcg.py:496-500`).
* Quoted expressions lose brackets, string quotes, packages, and show decimals as fractions: some are quoted
  as expressions with another value (C81, `ast.py:1570-1612, 773-774, 825-826`).
* An import that is used only in markup strings inside arrays or tuples is reported as unused, but the file is
  rejected without it (C82, `lint.py:224-254`, `parser.py:1878-1884`).  The imports are a Python set, so the order
  of these reports for one file is not determined.
