{"id": "C01", "title": "Token spans tile the source text", "statement": "If lexing a text succeeds, the source spans of the returned tokens (including comments) are non-empty, lie inside the text, are strictly increasing and pairwise disjoint, and every character that is not in some span is whitespace; no character of the text is silently dropped or used twice.", "quantifier": "all texts (arbitrary length, arbitrary characters) for which the lexer reports no error", "why_tests_cant": "The input space (all texts) is infinite; a test fixes finitely many texts.", "anchors": ["trlc/lexer.py:Lexer_Base.advance", "trlc/lexer.py:Lexer_Base.skip_whitespace", "trlc/lexer.py:TRLC_Lexer.token"]}
{"id": "C02", "title": "Token line and column numbers are exact", "statement": "The line number reported for a token is 1 plus the number of newline characters before its first character and its column is its distance from the preceding newline (or from the start of the file), counted from 1.", "quantifier": "all texts and every token the lexer returns for it, or the position of the lexer at any point", "why_tests_cant": "The input space (all texts) is infinite; a test fixes finitely many texts.", "anchors": ["trlc/lexer.py:Lexer_Base.advance", "trlc/lexer.py:TRLC_Lexer.token"]}
{"id": "C03", "title": "Lexing always terminates", "statement": "Asking for tokens repeatedly reaches end of file or a lexical error after at most length+1 requests; each request consumes at least one character; no text makes the lexer loop.", "quantifier": "all texts", "why_tests_cant": "Non-termination on one untested text is not observable by finitely many finished test runs.", "anchors": ["trlc/lexer.py:TRLC_Lexer.token", "trlc/lexer.py:Token_Stream.token"]}
{"id": "C04", "title": "Words are maximal and classified by the fixed keyword list", "statement": "A token is a keyword or identifier exactly when its text starts with an ASCII letter; its text then matches [A-Za-z][A-Za-z0-9_]*, the next character of the file does not continue it, and it is a keyword iff its text is one of the 32 reserved words.", "quantifier": "all texts, all tokens", "why_tests_cant": "The input space (all texts) is infinite; a test fixes finitely many texts.", "anchors": ["trlc/lexer.py:TRLC_Lexer.token", "trlc/lexer.py:TRLC_Lexer.KEYWORDS"]}
{"id": "C05", "title": "Simple string literals round-trip", "statement": "Writing any newline-free string that does not end in a backslash between double quotes with every double quote written as backslash-quote, and lexing it, gives a single STRING token with exactly the original string as value, whatever follows the literal.", "quantifier": "all strings without newline not ending in a backslash, all continuations of the file", "why_tests_cant": "The set of string values is infinite, and the interaction of backslash and quote characters has unboundedly many interleavings.", "anchors": ["trlc/lexer.py:TRLC_Lexer.token"]}
{"id": "C06", "title": "Integer literals denote the number written", "statement": "A decimal, 0x or 0b literal with digit groups separated by single underscores lexes as one INTEGER token whose value is the positional value of its digits in base 10, 16 or 2; underscores do not influence the value.", "quantifier": "all digit strings and groupings, all bases", "why_tests_cant": "Unbounded digit count and groupings.", "anchors": ["trlc/lexer.py:TRLC_Lexer.token"]}
{"id": "C07", "title": "Decimal literals are exact rationals", "statement": "A literal I.F lexes as one DECIMAL token whose value is exactly I + F/10^len(F), without rounding; underscores do not influence the value.", "quantifier": "all digit strings for the integer and fractional part", "why_tests_cant": "Unbounded digit count; floating-point like rounding would only show for particular long literals.", "anchors": ["trlc/lexer.py:TRLC_Lexer.token"]}
{"id": "C08", "title": "Remainder operator", "statement": "For every non-zero divisor y, x % y has absolute value below |y|, x - (x % y) is a multiple of y, (-x) % y = -(x % y), and a non-zero x % y has the sign the language reference manual prescribes (the sign of y).", "quantifier": "all integers x and all non-zero integers y", "why_tests_cant": "Infinitely many integer pairs; sign combinations interact with magnitudes.", "anchors": ["trlc/math.py:remainder", "language-reference-manual/lrm.trlc:Remainder_Semantics", "language-reference-manual/lrm.trlc:Unary_Minus_Parsing"]}
{"id": "C09", "title": "Integer conversion rounds to nearest, ties away from zero", "statement": "Integer(d) is an integer at distance at most 1/2 from d, it is the unique nearest integer when there is one, and for ties it is the one farther from zero; Integer(-d) = -Integer(d).", "quantifier": "all rational numbers", "why_tests_cant": "Infinitely many rationals.", "anchors": ["trlc/math.py:round_nearest_away", "trlc/ast.py:Unary_Expression.evaluate"]}
{"id": "C10", "title": "Message handler counters are exact", "statement": "After any sequence of reports the number of errors equals the number of error reports and the number of warnings equals the number of warning and check reports; suppressing a kind changes what is printed but not the counters nor which reports raise; every report of a non-suppressed kind is printed once and in order.", "quantifier": "all sequences of message-handler calls, all sets of suppressed kinds", "why_tests_cant": "Sequences are unbounded, interleavings of kinds and suppression are unbounded.", "anchors": ["trlc/errors.py:Message_Handler.emit", "trlc/errors.py:Message_Handler.error", "trlc/errors.py:Message_Handler.warning", "trlc/errors.py:Message_Handler.check", "trlc/errors.py:Message_Handler.lex_error", "trlc/errors.py:Message_Handler.suppress"]}
{"id": "C100", "title": "Leaving out the trlc files", "statement": "With `--skip-trlc-files` the rsl files are treated as without it: the same types, separators, frozen components and checks are declared, whatever the trlc files contain; every error and every message of the linter that is given then is also given without the option, in the same order and before all others; and if all files are accepted without the option, so are they with it. Types and checks are determined by the rsl files alone.", "quantifier": "all sets of files given whose preambles have no errors and where every package has an rsl file; all options and contents of the trlc files", "why_tests_cant": "The option changes which files are registered, so the graph of packages, the work lists and the numbering of packages are all computed from other data; that nothing of this has an influence on rsl files is a claim on all projects.", "anchors": ["trlc/trlc.py:Source_Manager.register_trlc_file", "trlc/trlc.py:Source_Manager.build_graph", "trlc/trlc.py:Source_Manager.process", "trlc/trlc.py:trlc"]}
{"id": "C101", "title": "Where parsing goes on after an error", "statement": "With error recovery, after an error in an entry of a trlc file the parser goes on at the first later line that begins with `section`, the name of a package, or the name of a record type of the package of the file, and with the end of the file if there is none. For rsl files it is the first later line that begins with checks, type, abstract, final, tuple or enum. Everything in between is skipped and has no effect. If the lexer rejects a character on the way, that error is raised instead.", "quantifier": "all files, all places of errors, all symbol tables", "why_tests_cant": "Tests have a few files with errors; that no entry behind an error is lost, or read from its middle, has to hold for every text and every set of declared names.", "anchors": ["trlc/parser.py:Parser.skip_until_newline", "trlc/parser.py:Parser.parse_rsl_file", "trlc/parser.py:Parser.parse_trlc_file"]}
{"id": "C11", "title": "Declared names stay pairwise distinct after simplification", "statement": "In any package (or record type, enumeration, tuple), after any history of declarations, no two declared names are equal after lower-casing and removing underscores, including names visible through the enclosing/parent table; a declaration that would break this is rejected with an error and leaves the table unchanged.", "quantifier": "all sequences of declarations into a table and its chain of parent tables", "why_tests_cant": "Histories of declarations are unbounded.", "anchors": ["trlc/ast.py:Symbol_Table.register", "trlc/ast.py:Symbol_Table.contains_raw", "trlc/ast.py:Symbol_Table.simplified_name"]}
{"id": "C12", "title": "Lookup finds exactly what was declared", "statement": "A name lookup succeeds iff an entity was declared under exactly this spelling (in the table or a parent of it) and then returns that entity; looking up a name that differs in case or underscores is an error; later declarations never change the result of an earlier successful lookup.", "quantifier": "all histories of declarations, all names", "why_tests_cant": "Histories are unbounded.", "anchors": ["trlc/ast.py:Symbol_Table.lookup", "trlc/ast.py:Symbol_Table.lookup_direct", "trlc/ast.py:Symbol_Table.contains", "trlc/ast.py:Symbol_Table.lookup_assuming"]}
{"id": "C13", "title": "Name scopes resolve innermost first and are restored", "statement": "Looking a name up in nested scopes returns the entity of the innermost scope that declares it; entering a scope and leaving it again restores all lookups; scopes can not be left more often than entered.", "quantifier": "all sequences of push/pop/lookup", "why_tests_cant": "Sequences are unbounded.", "anchors": ["trlc/ast.py:Scope.push", "trlc/ast.py:Scope.pop", "trlc/ast.py:Scope.lookup", "trlc/ast.py:Scope.contains"]}
{"id": "C14", "title": "Exactly the needed packages are parsed", "statement": "With partial loading, the packages that are loaded are exactly those reachable from the packages of the requested files through the import relation (and their rsl parts), independent of the order in which files are registered or dependencies are visited.", "quantifier": "all finite package graphs, all sets of requested files, all work-list orders", "why_tests_cant": "All graphs and all schedules of a work list; tests fix a few graphs.", "anchors": ["trlc/trlc.py:Source_Manager.build_graph"]}
{"id": "C15", "title": "Packages are parsed after everything they import", "statement": "When all rsl files of a set of packages are processed, every package is fully processed after all packages it imports; processing succeeds for all packages iff the import relation of the packages is acyclic, and otherwise a circular-import error is reported and no package on a cycle is processed.", "quantifier": "all finite import graphs", "why_tests_cant": "All graphs; tests fix a few.", "anchors": ["trlc/trlc.py:Source_Manager.parse_rsl_files"]}
{"id": "C16", "title": "Evaluation never gets stuck on well-typed checks", "statement": "Evaluating a well-typed check expression on a record object that matches its type yields a value of the expression's type, null, or a reported error; it never raises an internal (Python) exception.", "quantifier": "all well-typed expressions, all type-conforming objects", "why_tests_cant": "Expressions and objects are unbounded recursive structures.", "anchors": ["trlc/ast.py:Expression.evaluate", "trlc/ast.py:Binary_Expression", "trlc/ast.py:Unary_Expression", "trlc/ast.py:Quantified_Expression", "trlc/ast.py:Conditional_Expression"]}
{"id": "C17", "title": "Logical operators short-circuit", "statement": "`a and b`, `a or b` and `a implies b` evaluate b only when a does not decide the result; in particular when a decides, the outcome is a's decision even if evaluating b would report an error.", "quantifier": "all expressions a and b, all objects", "why_tests_cant": "All sub-expressions including failing ones.", "anchors": ["trlc/ast.py:Binary_Expression.evaluate"]}
{"id": "C18", "title": "Null is rejected everywhere but in equality tests", "statement": "If an operand of an arithmetic, ordering, logical, string, membership or indexing operator evaluates to null the evaluation reports an error; == and != never report an error because of null, and null is equal only to null.", "quantifier": "all operators, all operand expressions, all objects", "why_tests_cant": "All operand expressions and contexts.", "anchors": ["trlc/ast.py:Binary_Expression.evaluate", "trlc/ast.py:Unary_Expression.evaluate", "trlc/ast.py:OneOf_Expression.evaluate", "trlc/ast.py:Range_Test.evaluate"]}
{"id": "C19", "title": "Quantifiers mean for-all and exists", "statement": "If the predicate evaluates without error on all elements, forall is true iff it is true for every element and exists is true iff it is true for some element, for arrays of any length; forall over an empty array is true and exists is false; forall is the negation of exists of the negated predicate.", "quantifier": "all arrays (any length), all predicates", "why_tests_cant": "Arrays of unbounded length.", "anchors": ["trlc/ast.py:Quantified_Expression.evaluate"]}
{"id": "C20", "title": "Range membership is the conjunction of two comparisons", "statement": "`x in a .. b` is true iff a <= x and x <= b, and `x not in a .. b` iff x < a or x > b, for integers and decimals, in particular false (resp. true) for empty ranges.", "quantifier": "all operands", "why_tests_cant": "Infinite numeric domains.", "anchors": ["trlc/ast.py:Range_Test.evaluate", "trlc/parser.py:Parser.parse_relation"]}
{"id": "C21", "title": "oneof means exactly one", "statement": "`oneof(e1, ..., en)` evaluates to true iff exactly one of its parameters is true and all others are false.", "quantifier": "all parameter lists of any length, all objects", "why_tests_cant": "Unbounded arity; null parameters are a rarely-exercised dimension.", "anchors": ["trlc/ast.py:OneOf_Expression.evaluate"]}
{"id": "C22", "title": "Conditional expressions pick the first true branch", "statement": "The value of if/elsif/else is the value of the dependent expression of the first condition that is true, otherwise of the else branch; later conditions and other dependents are not evaluated.", "quantifier": "all numbers of branches, all sub-expressions", "why_tests_cant": "Unbounded branch lists; sub-expressions may fail.", "anchors": ["trlc/ast.py:Conditional_Expression.evaluate", "trlc/ast.py:Action"]}
{"id": "C23", "title": "Array indexing is bounds-checked", "statement": "`a[i]` gives the i-th element (from 0) when 0 <= i < len(a), and otherwise a reported error - never another element, and never an internal exception.", "quantifier": "all arrays and indices", "why_tests_cant": "All lengths and indices.", "anchors": ["trlc/ast.py:Binary_Expression.evaluate"]}
{"id": "C24", "title": "Integer division and division by zero", "statement": "a / b is the floor of the quotient for integers and the exact quotient for decimals; division or remainder by zero is a reported error.", "quantifier": "all numeric operands", "why_tests_cant": "Infinite domains.", "anchors": ["trlc/ast.py:Binary_Expression.evaluate"]}
{"id": "C25", "title": "Array membership equals an existential test with ==", "statement": "`x in A` gives the same result as `(exists i in A => i == x)` and `x not in A` the same as `(forall i in A => i != x)`.", "quantifier": "all well-typed x and arrays A", "why_tests_cant": "Arrays of unbounded length and element types; polymorphic references.", "anchors": ["trlc/ast.py:Binary_Expression.evaluate", "trlc/ast.py:Value.__eq__", "language-reference-manual/lrm.trlc:Array_Membership_Semantics"]}
{"id": "C26", "title": "Record reference equality is identity", "statement": "Two record references compare equal in a check iff they refer to the same record object.", "quantifier": "all pairs of record objects of all types", "why_tests_cant": "All record types including those without components.", "anchors": ["trlc/ast.py:Record_Reference.evaluate", "trlc/ast.py:Binary_Expression.evaluate", "language-reference-manual/lrm.trlc:Equality_On_Record_References"]}
{"id": "C27", "title": "Check severity", "statement": "For every check of an object that evaluates to false: a warning adds one to the warnings and does not fail the object, an error adds one to the errors and fails the object but the remaining checks are still evaluated, a fatal check adds one to the errors and no later check of this object is evaluated; a check evaluating to true has no effect.", "quantifier": "all lists of checks, all objects", "why_tests_cant": "Unbounded check lists and all outcomes.", "anchors": ["trlc/ast.py:Check.perform", "trlc/ast.py:Record_Object.perform_checks", "trlc/trlc.py:Source_Manager.perform_checks"]}
{"id": "C28", "title": "Checks are inherited and run base first", "statement": "The checks evaluated for an object are exactly those of its type and all ancestors, each once, all checks of an ancestor before those of its extensions, checks of one type in declared order.", "quantifier": "all extension chains of any depth, all check lists", "why_tests_cant": "Unbounded inheritance depth.", "anchors": ["trlc/ast.py:Record_Type.iter_checks", "trlc/ast.py:Composite_Type.iter_checks", "trlc/ast.py:Record_Object.perform_checks"]}
{"id": "C29", "title": "All tuple values are checked", "statement": "The checks of a tuple type are evaluated for every value of that type contained in a record object - directly, as array element, or nested in another tuple.", "quantifier": "all record objects and nesting of arrays/tuples", "why_tests_cant": "Unbounded nesting and array length.", "anchors": ["trlc/ast.py:Array_Type.perform_type_checks", "trlc/ast.py:Tuple_Type.perform_type_checks", "trlc/ast.py:Record_Object.perform_checks", "language-reference-manual/lrm.trlc:Evaluation_Of_Checks"]}
{"id": "C30", "title": "Type extension is a tree order", "statement": "is-extension-of is reflexive, transitive and antisymmetric, two ancestors of one type are always comparable, and an extension has all components of each of its ancestors, base components first and in declared order.", "quantifier": "all extension hierarchies", "why_tests_cant": "Unbounded hierarchies.", "anchors": ["trlc/ast.py:Record_Type.is_subclass_of", "trlc/ast.py:Record_Type.all_components"]}
{"id": "C31", "title": "Frozen components", "statement": "A component frozen in a type is frozen in all its extensions with the same value, every object of such a type has that value, no object can assign it, and it can be frozen at most once along an extension chain.", "quantifier": "all extension hierarchies and freeze declarations", "why_tests_cant": "Unbounded hierarchies.", "anchors": ["trlc/ast.py:Record_Type.is_frozen", "trlc/ast.py:Record_Type.get_freezing_expression", "trlc/parser.py:Parser.parse_record_declaration", "trlc/parser.py:Parser.parse_record_object_declaration"]}
{"id": "C32", "title": "Accepted record objects are complete", "statement": "If an object declaration is accepted, every component of its type has exactly one value: the frozen value, the assigned value, or null when it is optional and was not assigned; no component is assigned twice, no unknown component is assigned, and mandatory components are never null. No object has an abstract type.", "quantifier": "all record types, all lists of component assignments", "why_tests_cant": "Unbounded numbers of components and orders of assignments.", "anchors": ["trlc/parser.py:Parser.parse_record_object_declaration", "trlc/ast.py:Record_Object.assign", "trlc/ast.py:Record_Object.__init__"]}
{"id": "C33", "title": "Array sizes respect declared bounds", "statement": "When processing reports no error, every array value has at least lower-bound many and at most upper-bound many elements.", "quantifier": "all array types and values", "why_tests_cant": "All sizes; special values such as 0.", "anchors": ["trlc/parser.py:Parser.parse_value", "trlc/ast.py:Array_Type"]}
{"id": "C34", "title": "Separator tuples", "statement": "A value of a tuple type with separators is accepted iff it lists values in field order, separated by exactly the declared separators, where only a trailing run of optional fields together with their separators may be missing.", "quantifier": "all tuple types with separators, all token sequences", "why_tests_cant": "Unbounded numbers of fields and token sequences.", "anchors": ["trlc/parser.py:Parser.parse_value", "language-reference-manual/lrm.trlc:Tuple_Separator_Form"]}
{"id": "C35", "title": "References are type-safe", "statement": "After resolving references without error every reference points to an existing object of the named package with exactly the referenced name whose type is the declared type or an extension of it (for a union: of one of its members).", "quantifier": "all sets of objects and references, in any declaration order", "why_tests_cant": "All object graphs, including cycles and forward references.", "anchors": ["trlc/ast.py:Record_Reference.resolve_references", "trlc/ast.py:Union_Type.is_compatible", "trlc/trlc.py:Source_Manager.resolve_record_references"]}
{"id": "C36", "title": "Expression grammar", "statement": "The expression parser accepts exactly the token sequences of the grammar in the reference manual, reading each sequence as the tree the grammar gives: left-associative additive and multiplicative chains, binary chains of only `and` or only `or`, single xor/implies; mixing different logical operators without parentheses is rejected.", "quantifier": "all token sequences", "why_tests_cant": "Infinite language.", "anchors": ["trlc/parser.py:Parser.parse_expression", "trlc/parser.py:Parser.parse_relation", "trlc/parser.py:Parser.parse_simple_expression", "trlc/parser.py:Parser.parse_term", "trlc/parser.py:Parser.parse_factor", "trlc/parser.py:Parser.parse_primary"]}
{"id": "C37", "title": "Parsing always terminates, even after errors", "statement": "Parsing an rsl or trlc file with error recovery terminates for every token sequence; each recovery step consumes at least one token.", "quantifier": "all token sequences", "why_tests_cant": "Non-termination can not be excluded by finitely many runs.", "anchors": ["trlc/parser.py:Parser.parse_rsl_file", "trlc/parser.py:Parser.parse_trlc_file", "trlc/parser.py:Parser_Base.skip_until_newline"]}
{"id": "C38", "title": "Union types: members, fields and compatibility", "statement": "A field of a union is accessible iff some member declares it with one common type across all members that declare it; accessing it on an object whose type lacks it yields null; an object is compatible with a union iff its type is or extends a member.", "quantifier": "all unions (any number of members), all objects", "why_tests_cant": "Unbounded member lists and hierarchies.", "anchors": ["trlc/ast.py:Union_Type", "trlc/ast.py:Field_Access_Expression.evaluate"]}
{"id": "C39", "title": "Null result means errors were reported and vice versa", "statement": "Processing files through the API returns a symbol table iff no error was reported (docs: 'returns None if there were any errors').", "quantifier": "all inputs", "why_tests_cant": "All inputs; only some error paths are non-fatal.", "anchors": ["trlc/trlc.py:Source_Manager.process"]}
{"id": "C40", "title": "Exit code", "statement": "The command-line tool exits with 0 iff processing succeeded, no error was counted, and - when warnings are treated as errors - no warning was counted.", "quantifier": "all combinations of outcome and counters", "why_tests_cant": "Counters are unbounded.", "anchors": ["trlc/trlc.py:trlc"]}
{"id": "C41", "title": "Progress never decreases and never exceeds 100%", "statement": "Progress signals are between 0 and 100 and non-decreasing over a run.", "quantifier": "all sequences of progress signals", "why_tests_cant": "Unbounded sequences.", "anchors": ["trlc/trlc.py:Source_Manager.signal_progress"]}
{"id": "C42", "title": "Common root of registered files", "statement": "After registering any sequence of files the common root is a common prefix of all their directories, independent of the order of registration.", "quantifier": "all sequences of file registrations", "why_tests_cant": "All sequences and orders.", "anchors": ["trlc/trlc.py:Source_Manager.update_common_root"]}
{"id": "C43", "title": "End of a location", "statement": "The end location of a source range is the line and column of its last character.", "quantifier": "all texts and ranges", "why_tests_cant": "The input space (all texts) is infinite; a test fixes finitely many texts.", "anchors": ["trlc/lexer.py:Source_Reference.get_end_location"]}
{"id": "C44", "title": "Context lines", "statement": "The context printed for a message is the source line containing the start of the range, without its indentation, and the marker line underlines exactly the part of the range on that line.", "quantifier": "all texts and ranges", "why_tests_cant": "The input space (all texts) is infinite; a test fixes finitely many texts.", "anchors": ["trlc/lexer.py:Source_Reference.context_lines"]}
{"id": "C45", "title": "Triple-quoted string values", "statement": "The value of a triple-quoted string is its text with surrounding whitespace removed, the indentation common to all non-empty lines but the first removed from all lines but the first, and trailing whitespace removed from every line.", "quantifier": "all texts", "why_tests_cant": "The input space (all texts) is infinite; a test fixes finitely many texts.", "anchors": ["trlc/lexer.py:triple_quoted_string_value", "language-reference-manual/lrm.trlc:Complex_String_Value"]}
{"id": "C46", "title": "A closed triple-quoted string is always accepted", "statement": "A string opened and closed by three equal quotes lexes to a STRING token, whatever follows (including end of file).", "quantifier": "all string bodies, all continuations", "why_tests_cant": "The input space (all texts) is infinite; a test fixes finitely many texts.", "anchors": ["trlc/lexer.py:TRLC_Lexer.token"]}
{"id": "C47", "title": "Markup references keep their source positions", "statement": "A token inside a markup string is reported at the file position (offset, line, column) where its characters are in the source file, also when the string contains escaped quotes or spans lines.", "quantifier": "all markup strings, all tokens in them", "why_tests_cant": "The input space (all texts) is infinite; a test fixes finitely many texts.", "anchors": ["trlc/nested.py:Nested_Lexer.source_location", "trlc/parser.py:Markup_Lexer"]}
{"id": "C48", "title": "Markup strings: every bracketed name is a reference, nothing else is", "statement": "Parsing a markup string accepts iff double brackets are balanced and non-nested and each bracket pair contains a comma-separated list of qualified names, and the references are exactly these names in order.", "quantifier": "all markup strings", "why_tests_cant": "The input space (all texts) is infinite; a test fixes finitely many texts.", "anchors": ["trlc/parser.py:Markup_Parser", "trlc/parser.py:Markup_Lexer"]}
{"id": "C49", "title": "Registration order does not matter", "statement": "Names resolve and diagnostics are the same for any order in which files are registered; files are processed in sorted order of their names.", "quantifier": "all permutations of the registered files", "why_tests_cant": "Factorially many orders.", "anchors": ["trlc/trlc.py:Source_Manager.build_graph", "trlc/trlc.py:Source_Manager.parse_rsl_files", "trlc/trlc.py:Source_Manager.parse_trlc_files"]}
{"id": "C50", "title": "Sections iterate objects once, in order", "statement": "Iterating record objects by section yields every record object exactly once with its section, in declaration order per table, and on every iteration the titles of all enclosing sections and the file name come before the object, each once.", "quantifier": "all symbol tables and sequences of record objects with nested sections", "why_tests_cant": "unbounded nesting and any number of objects, packages and iterations", "anchors": ["trlc/ast.py:Symbol_Table.iter_record_objects_by_section", "trlc/ast.py:Section"]}
{"id": "C51", "title": "Evaluation only depends on the components an expression mentions", "statement": "The result of evaluating a check on an object is a function of the values of the components it mentions; changing any other component does not alter the result, and evaluation has no effect on the object.", "quantifier": "all expressions, all pairs of objects agreeing on the mentioned components", "why_tests_cant": "All expressions and pairs of objects.", "anchors": ["trlc/ast.py:Expression.evaluate", "trlc/ast.py:Name_Reference.evaluate"]}
{"id": "C52", "title": "Import visibility", "statement": "A qualified name resolves only into the current package or an explicitly imported package, and an unqualified name only into the current package (or builtins).", "quantifier": "all files, import lists and names", "why_tests_cant": "All names and import lists.", "anchors": ["trlc/ast.py:Compilation_Unit.is_visible", "trlc/parser.py:Parser.parse_qualified_name"]}
{"id": "C53", "title": "Lexical problems are reported, never internal exceptions", "statement": "For every text, asking the lexer for a token gives a token, end of file, or a reported lexical error; it never raises an internal exception such as an index or assertion error.", "quantifier": "all texts and all positions in them", "why_tests_cant": "quantifies over all texts; crashes only show on texts nobody wrote down", "anchors": ["trlc/lexer.py:TRLC_Lexer.token", "trlc/lexer.py:Token_Stream"]}
{"id": "C54", "title": "Operators and delimiters use the longest match", "statement": "At every position an operator or delimiter token has the longest text among the fixed operator table that matches the text ahead, and its kind is the table entry.", "quantifier": "all texts and positions", "why_tests_cant": "any following text", "anchors": ["trlc/lexer.py:TRLC_Lexer.token"]}
{"id": "C55", "title": "A file given explicitly and found through an include directory is processed once", "statement": "Registering files, directories and include directories in any order processes each file exactly once.", "quantifier": "all sequences of registrations", "why_tests_cant": "all registration orders and directory contents", "anchors": ["trlc/trlc.py:Source_Manager.register_file", "trlc/trlc.py:Source_Manager.register_include", "trlc/trlc.py:Source_Manager.register_directory"]}
{"id": "C56", "title": "Arithmetic and comparisons are exact", "statement": "In checks, +, -, *, ** with a non-negative exponent, unary minus, abs and the comparison operators on integers and decimals are the exact mathematical operations, without overflow or rounding; Decimal(i) is i and Integer(d) is the nearest integer, away from zero on ties.", "quantifier": "all integers and decimals", "why_tests_cant": "infinite domains; rounding and overflow show only on special values", "anchors": ["trlc/ast.py:Binary_Expression.evaluate", "trlc/ast.py:Unary_Expression.evaluate"]}
{"id": "C57", "title": "String operators", "statement": "On strings + is concatenation, `s in t` holds iff s occurs contiguously in t, startswith and endswith hold iff the second string is a prefix or suffix of the first, == is equality of texts, and len counts characters (elements for arrays).", "quantifier": "all strings and arrays", "why_tests_cant": "unbounded lengths", "anchors": ["trlc/ast.py:Binary_Expression.evaluate", "trlc/ast.py:Unary_Expression.evaluate"]}
{"id": "C58", "title": "Inherited components are accessible through references", "statement": "If a check contains `e.f` where `e` refers to a record of type T, and T has a component `f` - declared in T or inherited from a type it extends - then `e.f` is accepted.", "quantifier": "all record type hierarchies and all components", "why_tests_cant": "The depth of hierarchies is unbounded and every component of every ancestor is concerned; the existing tests use a reference of the declaring type or a union.", "anchors": ["trlc/parser.py:Parser.parse_name", "trlc/ast.py:Field_Access_Expression.__init__", "trlc/ast.py:Expression.ensure_type", "language-reference-manual/lrm.trlc:Type_Extensions_Inherit_Everything"]}
{"id": "C59", "title": "can_be_null is sound", "statement": "If the method can_be_null of an accepted expression returns False, evaluating the expression never yields null.", "quantifier": "all accepted expressions and all conforming objects", "why_tests_cant": "Ranges over all expressions and all objects.", "anchors": ["trlc/ast.py:Expression.can_be_null"]}
{"id": "C60", "title": "== in checks is an equivalence relation", "statement": "For all values of components (arrays, tuples, references, null included) `a == a` is true, `a == b` and `b == a` agree, `a == b` and `b == c` imply `a == c`, and `a != b` is the negation of `a == b`.", "quantifier": "all expressions and all values, of unbounded nesting", "why_tests_cant": "Values nest without bound.", "anchors": ["trlc/ast.py:Binary_Expression.evaluate", "trlc/ast.py:Value.__eq__"]}
{"id": "C61", "title": "The objects are those written in the files", "statement": "After a run over the trlc files that reports nothing, the record objects are exactly those written in the files, in file and declaration order, each with the type, the package, the enclosing sections and the component values denoted by its tokens.", "quantifier": "all sets of trlc files and token sequences", "why_tests_cant": "Infinite language of files.", "anchors": ["trlc/parser.py:Parser.parse_trlc_file", "trlc/parser.py:Parser.parse_section_declaration", "trlc/parser.py:Parser.parse_record_object_declaration", "trlc/parser.py:Parser.parse_value", "trlc/trlc.py:Source_Manager.parse_trlc_files"]}
{"id": "C62", "title": "Checks of different objects are independent", "statement": "The messages reported when checks are performed are, object by object in symbol table order, the messages of each object; a fatal or undefined check stops only its own object; the run passes iff every object passes on its own.", "quantifier": "all symbol tables, all check lists, all objects", "why_tests_cant": "Any number of objects, and any combination of outcomes.", "anchors": ["trlc/trlc.py:Source_Manager.perform_checks", "trlc/ast.py:Record_Object.perform_checks"]}
{"id": "C63", "title": "Accepted checks always evaluate; the run passes iff they all pass", "statement": "If checks are accepted by the type rules, and all objects were parsed and their references resolved, performing checks never crashes, and it succeeds iff every applicable record check and every check of a (directly or array-) contained tuple holds or is only a warning.", "quantifier": "all declarations, check lists and sets of trlc files", "why_tests_cant": "Quantifies over all programs and all data.", "anchors": ["trlc/trlc.py:Source_Manager.perform_checks", "trlc/ast.py:Check.perform", "trlc/parser.py:Parser.parse_check_block"]}
{"id": "C64", "title": "Extent of comments", "statement": "A token is a comment iff it starts with // or /*; a // comment extends up to but excluding the next line break (or end of file); a /* comment is the shortest text of the form / ... */ from there, or the rest of the file if it is not closed.", "quantifier": "all texts, all tokens", "why_tests_cant": "Infinite input space.", "anchors": ["trlc/lexer.py:TRLC_Lexer.token", "language-reference-manual/lrm.trlc:Comments"]}
{"id": "C65", "title": "Typing rules of check expressions", "statement": "A check expression is accepted exactly if it follows the typing rules: operands of arithmetic and order comparisons are two Integers or two Decimals, + also joins strings, == and != compare values of the same type, references one of which is of a union type that could be the same object, or null; the logical operators, conditions and check expressions are Boolean; all branches of a conditional have one type; field, index and function-call operands have the types the reference manual lists; a quantified variable has a name that is not in scope yet and ranges over an array component. The type of the expression is the one the rules give, and there is only one.", "quantifier": "all expressions, declarations and scopes", "why_tests_cant": "Infinitely many expressions and combinations of declared types.", "anchors": ["trlc/parser.py:Parser.parse_expression", "trlc/parser.py:Parser.parse_name", "trlc/parser.py:Parser.parse_quantified_expression", "trlc/ast.py:Binary_Expression", "trlc/ast.py:Unary_Expression", "trlc/ast.py:Expression.ensure_type"]}
{"id": "C66", "title": "The meaning of check expressions", "statement": "For an object whose values conform to the declarations, an accepted check expression evaluates to exactly the value given by the rules of the language, stated by recursion over its syntax tree: names are the value of the component or quantified variable; + - * / % ** and comparisons are arithmetic on exact numbers (+ also joins strings); and/or/xor/implies look at the right operand only if the left one does not decide; ranges, membership in strings and arrays, field access through references and tuples, indexing, conditionals (first true branch), quantifiers, len/startswith/endswith/matches/oneof and conversions have their usual meaning. It has no value (an error is reported, or an exception is raised) exactly if the rules give none. A check therefore reports its message exactly if its expression means false. Excluded: field access through a union where an extension of a member has a field of the same name and another type (see C29/C38).", "quantifier": "all well-formed declarations, scopes, accepted syntax trees of any depth, conforming object heaps, contexts and regular expression engines", "why_tests_cant": "Expressions nest without bound and the value of each depends on the values of all parts; tests fix a finite number of expressions and objects.", "anchors": ["trlc/ast.py:585-2334 (evaluate)", "trlc/parser.py:771-1537 (parse_expression ... parse_name)", "trlc/ast.py:Check.perform"]}
{"id": "C67", "title": "Assumptions of the verification of checks", "statement": "With --verify, a check may be analysed under the assumption that certain fatal checks hold. Whenever that check is evaluated for an object, all the checks assumed for it hold for this object (otherwise the verification can declare a check safe that reports an error or fails when evaluated). uses_field_access, which decides about the order of the analysis, is true exactly for checks in which some part is a field access through a reference to a record or union.", "quantifier": "all lists of checks of a type, all objects and evaluations", "why_tests_cant": "The order of the analysis and the order of the evaluation are computed in different places from an arbitrary list of checks; a test only sees the lists it contains.", "anchors": ["trlc/vcg.py:VCG.checks_on_composite_type", "trlc/ast.py:Check.uses_field_access", "trlc/ast.py:Record_Type.iter_checks", "trlc/ast.py:Record_Object.perform_checks"]}
{"id": "C68", "title": "String tokens are closed literals", "statement": "Every STRING token of a file is either a double-quoted literal on one line in which each inner quote is preceded by a backslash, and its value is the inside with these backslashes removed, or a triple-quoted literal ending at the first three quotes after the opening ones, with the trimmed value.", "quantifier": "all file contents, all tokens of kind STRING", "why_tests_cant": "The input space (all texts) is infinite; a test fixes finitely many texts.", "anchors": ["trlc/lexer.py:TRLC_Lexer.token", "trlc/lexer.py:triple_quoted_string_value"]}
{"id": "C69", "title": "Declarations are well-formed after a successful run", "statement": "When processing returns a symbol table, all declarations are well-formed: the extension hierarchy has no cycles; all types of components and fields are declared; no two components along a chain of extensions, no two fields of a tuple and no two literals of an enumeration have names that differ only in case or underscores; a tuple type has separators between all its fields or none at all, fields are optional only with separators and only at the end, and a tuple type with separators contains no tuple type with separators; extensions of a final type are final and add no components; frozen values belong to existing components and are unique along a chain. Every check of every type was accepted by the typing rules for that type.", "quantifier": "all sets of files, all contents", "why_tests_cant": "Unbounded sets of declarations in arbitrary order over several files, including error recovery.", "anchors": ["trlc/trlc.py:Source_Manager.process", "trlc/parser.py:Parser.parse_rsl_file", "trlc/parser.py:Parser.parse_record_declaration", "trlc/parser.py:Parser.parse_tuple_declaration", "trlc/parser.py:Parser.parse_check_block"]}
{"id": "C70", "title": "The linter reports every questionable declaration exactly once", "statement": "After a successful run in lint mode (without verification of checks) the message handler has received from the linter: for every declared type and every type of a component or tuple field, each once, exactly the messages that apply to it (separator x or b after an integer field; union with a single member; a union member that extends another member; array bounds where the upper is smaller than the lower, is zero, 1..1, or 0..1), followed by one message for each abstract type that no concrete type extends. No other linter messages on declarations are produced.", "quantifier": "All inputs (sets of rsl and trlc files) for which process() succeeds in lint mode.", "why_tests_cant": "Types refer to each other recursively through components, unions and extensions in any order and depth over many packages; tests see a few of those shapes, and cannot show that no type is skipped or reported twice.", "anchors": ["trlc/lint.py:Linter.perform_sanity_checks", "trlc/lint.py:Linter.verify_type", "trlc/lint.py:Linter.verify_tuple_type", "trlc/lint.py:Linter.verify_record_type", "trlc/lint.py:Linter.verify_array_type"]}
{"id": "C71", "title": "The linter does not crash", "statement": "If all files are parsed without errors, the sanity checks on declarations end normally: lint mode never stops a run with an internal exception.", "quantifier": "All inputs whose rsl files are accepted.", "why_tests_cant": "The exception depends on the combination of field types, separators and their number in a tuple type, which is an unbounded space.", "anchors": ["trlc/lint.py:Linter.verify_tuple_type", "trlc/ast.py:Enumeration_Type.get_example_value", "trlc/ast.py:Tuple_Type.get_example_value"]}
{"id": "C72", "title": "After a successful run the types and checks are exactly those written in the rsl files", "statement": "If Source_Manager.process() returns the symbol table and no error was reported, the rsl files that are wanted (requested, or needed by imports) were each read exactly once, after the rsl files of the packages they import; the text of each is a sequence of enum, tuple and type declarations and check blocks of the TRLC grammar; and the enumerations, tuple types, record types (with parents, components, optionality, array bounds, unions, modifiers, frozen values) and checks (expression, severity, message, anchor) that exist afterwards are exactly the ones these declarations say, in this order, with each name meaning the entity declared before under that name in the visible packages. The objects are those written in the trlc files, where names mean what the rsl files declare.", "quantifier": "all sets of files, all contents, all options, all import structures", "why_tests_cant": "A test compares a few declarations with expected results; that no accepted text is ever read differently (components dropped, merged, attached to the wrong type, checks attached to the wrong type, wrong severity) is a statement about all token sequences.", "anchors": ["trlc/parser.py: parse_rsl_file", "trlc/parser.py: parse_type_declaration", "trlc/parser.py: parse_check_block", "trlc/trlc.py: Source_Manager.parse_rsl_files", "trlc/trlc.py: Source_Manager.process"]}
{"id": "C73", "title": "Files that follow the language are accepted, and have one reading", "statement": "A set of rsl files in which the lexer finds no error and whose texts are declarations and check blocks of the TRLC grammar (names declared before use, in visible packages; declared names new; types of expressions right) is accepted by the parser without any message, and declares exactly what is written; and an rsl text has at most one meaning. A set of trlc files in which the lexer finds no error, whose texts are sections and objects of the grammar over the declared types, and in which every object has a value for every component that needs one, is accepted without any message, and the objects are the written ones. Conversely whatever is accepted without message is of this form: there are no false alarms and no missed errors in parsing.", "quantifier": "all token sequences, all declarations, all numbers of files, all package structures", "why_tests_cant": "Tests show that some correct inputs are accepted. That no correct input is ever rejected, and that the recursive-descent parser with one token of lookahead never chooses the wrong branch, is a statement about all derivations of the grammar.", "anchors": ["trlc/parser.py: parse_rsl_file", "trlc/parser.py: parse_trlc_file", "trlc/parser.py: parse_value", "trlc/parser.py: parse_record_declaration", "trlc/parser.py: parse_check_block"]}
{"id": "C74", "title": "A project that follows the language is processed without false alarms", "statement": "Files without lexical errors are registered without messages. Their preambles are accepted without any message iff they fit together: every file starts with a package indication, packages are named neither like builtin names nor nearly like each other, there is at most one rsl file per package, no file imports its own package, and imported packages exist (for rsl files: have an rsl file). If moreover no needed package imports itself directly or indirectly, the needed rsl and trlc files are written in the language, then processing them reports no error of the parser, declares what is written, and Source_Manager.process returns the symbol table iff all references lead to objects of the right types and all checks pass. Conversely a run that returns the symbol table without errors had such preambles and no such cycle.", "quantifier": "all sets of files, all texts, all package structures, all declarations and objects", "why_tests_cant": "Tests run on some projects. That there is no combination of files, import structure and content that follows the rules and is nevertheless rejected is a statement about all projects.", "anchors": ["trlc/trlc.py: Source_Manager.process", "trlc/trlc.py: Source_Manager.build_graph", "trlc/parser.py: parse_preamble", "trlc/trlc.py: Source_Manager.parse_rsl_files"]}
{"id": "C75", "title": "The Python API hands out exactly what is written", "statement": "After Source_Manager.process() returned the symbol table, Record_Object.to_python_dict() of an object yields one entry for every component of the type of the object and nothing else: null is None, Booleans and Integers are themselves, Decimals are the double nearest to the written value, strings are their text, enumeration literals are their name, arrays and tuples are lists and dictionaries of the exports of their parts in order, and references are the package-qualified name of an existing object; each entry agrees with what a check sees under the name of the component. The export raises no exception. Names of is_component_implicit_null() and the debug API dump agree with the objects: the dump contains the dictionary of every object.", "quantifier": "all projects, all files, all runs that return the symbol table, all objects and values of any size and nesting, all rational numbers", "why_tests_cant": "The claim ranges over all values that can be written (numbers of any size, arrays of any length, nested tuples, references between any packages); rounding to doubles and overflow only show at values no test lists.", "anchors": ["trlc/ast.py:Record_Object.to_python_dict", "trlc/ast.py:Expression.to_python_object", "trlc/ast.py:Record_Object.is_component_implicit_null", "trlc/ast.py:Entity.fully_qualified_name", "trlc/ast.py:Symbol_Table.iter_record_objects", "trlc/trlc.py:trlc (--debug-api-dump)"]}
{"id": "C76", "title": "Checks that verification accepts without findings never go wrong", "statement": "If `trlc --verify` reports no possible error (null dereference, division by zero, index out of bounds) for the type of an object, the types it extends and the tuple types in its components, then performing the checks of any object of this type raises no internal exception and issues only messages of checks that are really false: no check of the object or of its tuples evaluates to null or stops with an error. A check reported as always true is true for every object for which it is evaluated.", "quantifier": "all declarations, all check blocks, all objects and tuples with components of any size, all regular expression semantics, all answers of the solver that are correct", "why_tests_cant": "It relates a static analysis to every evaluation: all expressions the parser accepts, translated into solver terms over all paths, against all objects. Tests compare the output of the analysis on listed files and never the two semantics.", "anchors": ["trlc/vcg.py:VCG.checks_on_composite_type", "trlc/vcg.py:VCG.tr_expression", "trlc/vcg.py:VCG.tr_check", "trlc/vcg.py:VCG.tr_component_decl", "trlc/vcg.py:VCG.emit_tuple_constraints", "trlc/ast.py:Record_Object.perform_checks", "trlc/ast.py:Check.perform"]}
{"id": "C77", "title": "Verification reports each finding once and misses none", "statement": "For every type, the messages of `trlc --verify` are exactly: one message for each place of a check where the solver found a path on which an operand is null, a divisor zero or an index out of bounds, and one 'always true' message for each check whose negation is unsatisfiable on all paths that reach it; no message is repeated however many paths lead to the place, and if no message of the first kind is issued then every place is safe on every path.", "quantifier": "all lists of verification conditions with answers of the solver, in any order, any number of paths to a place; all graphs", "why_tests_cant": "The number of paths through a check is exponential in its operators and the loop keeps three sets of places across paths; only a proof covers all combinations and orders of answers.", "anchors": ["trlc/vcg.py:VCG.checks_on_composite_type", "trlc/vcg.py:Feedback"]}
{"id": "C78", "title": "Verification of checks always comes to an end with a report", "statement": "With `trlc --verify`, whatever types and checks the rsl files declare (without errors), the tool does not stop with an internal exception in the verification: for every record and tuple type it ends with findings about its checks, or with the warning that a construct is not supported. Types whose quantifiers do not contain quantifiers are verified, not warned about.", "quantifier": "all rsl files accepted without errors, all check expressions of any nesting, all types, all answers of the solver", "why_tests_cant": "The translation has two modes and asserts in one of them what only holds in the other; whether an assertion is reached depends on the nesting of operators in quantifiers and tuple checks, of which tests list a few.", "anchors": ["trlc/lint.py:Linter.verify_record_type", "trlc/lint.py:Linter.verify_tuple_type", "trlc/vcg.py:VCG.analyze", "trlc/vcg.py:VCG.tr_expression", "trlc/vcg.py:VCG.attach_validity_check", "trlc/vcg.py:VCG.attach_index_check", "trlc/vcg.py:VCG.flag_unsupported"]}
{"id": "C79", "title": "Numbers and references in examples of findings are exact", "statement": "When `trlc --verify` illustrates a finding with an example object, the text for an Integer or Decimal is always produced and denotes exactly the value found by the solver: an (optionally negated) literal of the language if one denotes the value, and otherwise the numerator and denominator. Two references to records are shown with the same name only if they are to the same object of the same type.", "quantifier": "all integers, all rationals of any size, all pairs of references, packages and type names", "why_tests_cant": "Exactness and termination of the digit loop depend on the factors of the denominator; tests see the few fractions a solver happens to return.", "anchors": ["trlc/vcg.py:VCG.fraction_to_decimal_string", "trlc/vcg.py:VCG.value_to_trlc", "trlc/vcg.py:VCG.create_counterexample"]}
{"id": "C80", "title": "Strings in examples of findings read back", "statement": "When `trlc --verify` illustrates a finding with an example object, the text shown for a String, placed in a trlc file at the end of a line, is read as a string literal with exactly that value.", "quantifier": "all strings, all positions in all files", "why_tests_cant": "The printer knows nothing of escapes or of the layout rules for multi-line strings; which strings survive is a statement about all strings.", "anchors": ["trlc/vcg.py:VCG.value_to_trlc", "trlc/lexer.py:TRLC_Lexer.token", "trlc/lexer.py:triple_quoted_string_value"]}
{"id": "C81", "title": "Expressions quoted in messages read back", "statement": "Messages about checks (failed evaluation, findings of `trlc --verify`, names in type errors) quote the expression concerned. Written in place of that expression, the quoted text is accepted and read as the same expression.", "quantifier": "all well typed expressions, all files, declarations and variables in scope", "why_tests_cant": "Whether brackets, literals and names survive printing depends on the nesting of arbitrary expressions and on how the parser would group the printed text; tests compare a few messages with expected text and do not parse them again.", "anchors": ["trlc/ast.py:Expression.to_string", "trlc/ast.py:Binary_Expression.to_string", "trlc/ast.py:Unary_Expression.to_string", "trlc/ast.py:Conditional_Expression.to_string", "trlc/ast.py:Quantified_Expression.to_string", "trlc/parser.py:Parser.parse_expression"]}
{"id": "C82", "title": "An import reported as unused can be removed", "statement": "If `trlc` (linting) reports \"unused import P\" for a file of a project without errors, then the import statement can be removed: without it the file is accepted as well, and declares the same types, checks and objects with the same values.", "quantifier": "all projects, all rsl and trlc files in them, all imported packages", "why_tests_cant": "The report is made by counting tokens and looking at some of the values, long after parsing; that nothing in the parser needs the import depends on every place where a package name can occur, in every file. Tests have one or two unused imports.", "anchors": ["trlc/lint.py:Linter.verify_imports", "trlc/lint.py:Linter.markup_ref", "trlc/parser.py:Parser.parse_qualified_name", "trlc/parser.py:Markup_Parser.parse_qualified_name", "trlc/ast.py:Compilation_Unit.is_visible"]}
{"id": "C83", "title": "Error recovery does not change the result", "statement": "A project is accepted with error recovery if and only if it is accepted without (`error_recovery=False`, `--no-error-recovery`), and then with the same declarations, objects and messages. A project that is rejected is rejected in both cases, with the same first error; for each single file, what is reported without recovery is the beginning of what is reported with recovery. The exit code of the tool does not depend on it, except for internal exceptions.", "quantifier": "all options, all files, all states of the source manager", "why_tests_cant": "After an error the parser skips tokens and goes on anywhere, in a state in which declarations are missing; that this never makes a wrong file pass, and that nothing before the first error depends on the option, concerns every possible error at every position.", "anchors": ["trlc/trlc.py:Source_Manager.process", "trlc/parser.py:Parser.parse_rsl_file", "trlc/parser.py:Parser.parse_trlc_file"]}
{"id": "C84", "title": "Layout and comments do not matter", "statement": "Two projects whose files have the same names and the same words (kinds and values of tokens, the text of string literals, lexical errors at the same places), and differ in white space, comments and the spelling of numbers only, are treated alike: without error recovery the outcome is the same, with the same declarations, objects, errors and messages up to locations; with error recovery both are accepted with the same result, or both are rejected with the same first error. The exit code is the same, except for internal exceptions with error recovery.", "quantifier": "all pairs of projects with the same words, all options, all requested and included files", "why_tests_cant": "Every function of the parser could look at positions, lines or comments (skipping after errors does); that none of them lets these influence what is accepted or stored concerns all programs and all layouts.", "anchors": ["trlc/parser.py:Parser_Base.advance", "trlc/parser.py:Parser", "trlc/parser.py:Markup_Parser", "trlc/nested.py:Nested_Lexer", "trlc/trlc.py:Source_Manager.process"]}
{"id": "C85", "title": "Malformed files are reported, not internal exceptions", "statement": "Whatever the registered and included files contain and whatever the options are, the tool ends with an exit code after reporting errors; it does not stop with an internal exception.", "quantifier": "all files (arbitrary text), all options", "why_tests_cant": "Exceptions show up on malformed texts that nobody wrote down; that no attribute access, index, assertion or conversion in any function of the parser can fail on any text is a statement about all inputs.", "anchors": ["trlc/parser.py:Parser", "trlc/parser.py:Markup_Parser", "trlc/lexer.py:TRLC_Lexer", "trlc/ast.py:Expression", "trlc/trlc.py:Source_Manager.process", "trlc/trlc.py:main"]}
{"id": "C86", "title": "References to other places in messages identify these", "statement": "Where a message refers to another place (a previous definition, the failing part of a check), the text is a path that leads from the common root of the registered files to the file, and the line; two such references with the same text refer to the same line of the same file.", "quantifier": "all current directories, common roots, file names (relative or absolute, with `.` and `..`) and lines", "why_tests_cant": "The common root is found character by character and need not be a directory or above the file; that the path still leads to the file, and that no two files get the same text, concerns all combinations of paths.", "anchors": ["trlc/trlc.py:Source_Manager.cross_file_reference", "trlc/errors.py:Message_Handler.cross_file_reference", "trlc/errors.py:Location.to_string"]}
{"id": "C87", "title": "What is printed for a message tells where and what", "statement": "A message is printed with the file, line (and column, in brief form or without source text), kind and text, such that two messages that look the same are about the same place and say the same. In full form the source line is shown with a mark under each character the message is about (tabs do not shift the marks), and the lines of the explanation have their bar under the last mark.", "quantifier": "all places, kinds, texts, tags, explanations, source texts and settings of the message handler", "why_tests_cant": "Existing tests compare the output for some files; that no two places give the same output, and that marks and text agree for every line, place and mixture of tabs and blanks, needs all texts.", "anchors": ["trlc/errors.py:Message_Handler.emit", "trlc/errors.py:Location.to_string", "trlc/errors.py:Kind.__str__", "trlc/lexer.py:Source_Reference.context_lines"]}
{"id": "C88", "title": "Notifications of a run tell its progress", "statement": "Overriding the notification methods of a source manager, one sees in every run first the beginning, then percentages that never decrease and never exceed 100, and then the end, unless there is an internal exception. In a successful run there is one percentage for each file that is parsed, the k-th of n being floor(100k/n), so 100 is seen after the last file and not before.", "quantifier": "all sets of files, options and executions", "why_tests_cant": "No test looks at the notifications; that the number of files announced when the dependency graph is built is the number of files parsed later depends on two different selections over arbitrary graphs.", "anchors": ["trlc/trlc.py:Source_Manager.signal_progress", "trlc/trlc.py:Source_Manager.build_graph", "trlc/trlc.py:Source_Manager.process", "trlc/trlc.py:Source_Manager.callback_parse_progress"]}
{"id": "C89", "title": "Formulas given to the solver are well formed", "statement": "When the checks of a type are verified, every script given to the solver is well formed: each constant is declared exactly once and before it is used, every operator gets operands of the sorts it is defined for, and what is asserted or to be shown is Boolean. So the solver never refuses the input.", "quantifier": "all accepted rsl files, all declared types, all paths through the graph and all goals", "why_tests_cant": "The graph has exponentially many paths, and temporaries are declared in branches that join; each verification condition is assembled from another path. A script is rejected only for the one combination of operators and types that is translated wrongly.", "anchors": ["trlc/vcg.py:VCG.checks_on_composite_type", "trlc/vcg.py:VCG.tr_component_decl", "trlc/vcg.py:VCG.tr_expression", "trlc/vcg.py:VCG.tr_unary_expression", "trlc/vcg.py:VCG.tr_binary_expression", "trlc/vcg.py:VCG.emit_tuple_constraints"]}
{"id": "C90", "title": "Files of include directories that are not needed have no effect", "statement": "Adding an include directory whose packages are not imported, directly or indirectly, by the given files changes nothing: the same input is accepted, the same errors are reported, and the types, checks, objects and values are the same.", "quantifier": "all sets of files, all additional files not needed by them, all contents of both", "why_tests_cant": "All files are read for their package before the needed ones are chosen, and they share one symbol table; independence from unneeded files is a statement about two runs over arbitrary projects.", "anchors": ["trlc/trlc.py:Source_Manager.build_graph", "trlc/trlc.py:Source_Manager.parse_rsl_files", "trlc/trlc.py:Source_Manager.parse_trlc_files", "trlc/trlc.py:Source_Manager.process", "trlc/ast.py:Symbol_Table.register", "trlc/ast.py:Symbol_Table.make_visible", "trlc/parser.py:Parser.parse_preamble"]}
{"id": "C91", "title": "The summary and the list of files tell what was processed", "statement": "The last line of the command line tool gives the number of files of each kind, how many of them were given or needed, and the numbers of warnings and errors; different numbers give different texts, the word error or warning follows the right number, and 'no issues' is said only if there are none. With --show-file-list every file appears once, in order, marked as given, needed or not used, together with the package its text declares, and printing the list never fails.", "quantifier": "all numbers, all sets of files with any contents whose preambles are accepted", "why_tests_cant": "The text is built from conditional pieces (plural forms, 'of', skipped kinds); that it determines the numbers, and that the numbers are those of the needed files of any dependency graph, is a statement about all inputs.", "anchors": ["trlc/trlc.py:trlc", "trlc/trlc.py:Source_Manager.build_graph", "trlc/trlc.py:Source_Manager.process"]}
{"id": "C92", "title": "Requirements can be moved", "statement": "Moving the declarations of objects to another place - another position in a file, another file of the same package with the same imports, another order of the files - while keeping them in sections of the same names does not change the result: the project is accepted without errors exactly if it was before, all types and checks are the same, and there are the same objects with the same names, types, sections and values, whichever objects refer to which.", "quantifier": "all projects, all texts of the files, all permutations of the declarations and all distributions over files and sections", "why_tests_cant": "Any declaration may refer to any other, before or behind it and in any file, and checks evaluate expressions that follow references; a test can only try some arrangements of some objects.", "anchors": ["trlc/parser.py:Parser.parse_trlc_file", "trlc/parser.py:Parser.parse_section_declaration", "trlc/parser.py:Parser.parse_record_object_declaration", "trlc/trlc.py:Source_Manager.process", "trlc/trlc.py:Source_Manager.resolve_record_references", "trlc/trlc.py:Source_Manager.perform_checks", "trlc/ast.py:Record_Object.resolve_references"]}
{"id": "C93", "title": "Dumping the symbol table", "statement": "For every accepted set of files `--debug-dump` ends and prints the whole symbol table: all builtin types and functions, every package with the types and objects in it, every object exactly once with its type, its fields in order and its section, and every record type with the type it extends, its own and inherited components and its checks.", "quantifier": "all texts of files that are accepted", "why_tests_cant": "Types refer to types, checks to types by the arrays they quantify over and values to objects, in any shape; whether following all of this ends is a question about all such graphs.", "anchors": ["trlc/ast.py:Symbol_Table.dump", "trlc/ast.py:Record_Type.dump", "trlc/ast.py:Tuple_Type.dump", "trlc/ast.py:Quantified_Variable.dump", "trlc/ast.py:Record_Object.dump", "trlc/ast.py:Check.dump", "trlc/ast.py:Package.dump", "trlc/trlc.py:trlc"]}
{"id": "C94", "title": "Requirements can be removed and added separately", "statement": "If objects are removed from a project that is processed without errors, what is left is processed without errors exactly if none of the objects left refers to a removed one (in a component, an array, a tuple or a markup string). The types, checks and all objects left are then the same as before, with the same names, types, sections and values; no check that passed fails. Read the other way round: adding objects to a project does not change the others.", "quantifier": "all projects, all texts of the files, all subsets of the objects, all arrangements of what is left", "why_tests_cant": "Which objects a declaration can affect (name lookup, numbering, references, equality of records in checks) is a question about all projects and all subsets; a test removes some object of some project.", "anchors": ["trlc/parser.py:Parser.parse_trlc_file", "trlc/parser.py:Parser.parse_record_object_declaration", "trlc/trlc.py:Source_Manager.process", "trlc/trlc.py:Source_Manager.resolve_record_references", "trlc/trlc.py:Source_Manager.perform_checks", "trlc/ast.py:Record_Object.resolve_references", "trlc/ast.py:Record_Reference.resolve"]}
{"id": "C95", "title": "Checks can be removed without changing anything else", "statement": "If check blocks are removed from the rsl files of a project that is processed without errors, the project is still processed without errors. The types and the objects (names, types, sections, values) are the same as before, and every type keeps the remaining checks in the same order.", "quantifier": "all projects, all texts of the files, all sets of check blocks, all rearrangements of the objects", "why_tests_cant": "That a check block has no effect on how the declarations after it are read (names, frozen components, types of literals) is a question about all texts of rsl files; a test removes some checks of some project.", "anchors": ["trlc/parser.py:Parser.parse_check_block", "trlc/parser.py:Parser.parse_check_declaration", "trlc/parser.py:Parser.parse_expression", "trlc/parser.py:Parser.parse_rsl_file", "trlc/trlc.py:Source_Manager.process", "trlc/trlc.py:Source_Manager.perform_checks", "trlc/ast.py:Composite_Type.add_check"]}
{"id": "C96", "title": "Sections only group requirements", "statement": "If the objects of a project are put into other sections (sections are renamed, added, removed or nested differently, objects are moved between them), the project is processed without errors exactly if it was before. The types and checks are then the same, and the objects have the same names, types and values; only their sections and their order change.", "quantifier": "all projects, all texts of the files, all ways to put the objects into sections", "why_tests_cant": "That the sections an object is in do not matter for names, references and checks is a question about all projects; a test compares some arrangements of some project.", "anchors": ["trlc/parser.py:Parser.parse_section_declaration", "trlc/parser.py:Parser.parse_record_object_declaration", "trlc/parser.py:Parser.parse_trlc_file", "trlc/trlc.py:Source_Manager.process", "trlc/trlc.py:Source_Manager.resolve_record_references", "trlc/trlc.py:Source_Manager.perform_checks", "trlc/ast.py:Section"]}
{"id": "C97", "title": "The order of the assignments in an object does not matter", "statement": "If the assignments of the objects of a project are written in another order, the project is processed without errors exactly if it was before. The types and checks are then the same, and the objects have the same names, types and values.", "quantifier": "all projects, all texts of the files, all orders of the assignments of all objects", "why_tests_cant": "That no order of no object matters is a question about all projects and permutations; a test tries some. Indeed there are rare projects where the order does matter.", "anchors": ["trlc/parser.py:Parser.parse_record_object_declaration", "trlc/parser.py:Parser.parse_value", "trlc/parser.py:Parser.parse_trlc_file", "trlc/trlc.py:Source_Manager.process", "trlc/trlc.py:Source_Manager.resolve_record_references", "trlc/ast.py:Record_Object.assign"]}
{"id": "C98", "title": "Linting and verification of checks only add warnings", "statement": "Processing a project with the linter (with or without verification of checks) and with --no-lint ends in the same way: the same result, errors, types, checks and objects, and the same messages apart from warnings that do not come from checks written by the user. The exit code is the same unless warnings are treated as errors. The only exception is that the linter itself can raise an internal exception (C71, C78).", "quantifier": "all projects, all options, all answers of the solver", "why_tests_cant": "A test compares the two modes for some projects; that no project makes the optional analysis change the verdict is a statement about all of them.", "anchors": ["trlc/trlc.py:Source_Manager.process", "trlc/lint.py:Linter.perform_sanity_checks", "trlc/lint.py:Linter.verify_imports", "trlc/vcg.py:VCG.analyze", "trlc/trlc.py:trlc"]}
{"id": "C99", "title": "Runs do not depend on the order of sets", "statement": "Processing the same files gives the same result, the same messages in the same order, and the same symbol table in every run, in whatever order Python iterates over its sets (which differs between runs, as hashes of strings are randomised).", "quantifier": "all projects, all orders in which elements are taken out of the work lists of packages", "why_tests_cant": "A test sees the orders of one hash seed; whether another seed changes the order of files or messages shows up only by accident.", "anchors": ["trlc/trlc.py:Source_Manager.build_graph", "trlc/trlc.py:Source_Manager.parse_rsl_files"]}
