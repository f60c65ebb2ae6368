{"id": "C01", "title": "Lexing is lossless", "statement": "For every source text, the concatenated text of the tokens that lex.Lex delivers is exactly the source when the stream ends in EOF, and is a prefix of the source when the stream ends in an error token. Nothing is dropped, duplicated or reordered.", "quantifier": "all byte strings, including invalid UTF-8, and all classifications of non-ASCII letters/digits", "why_tests_cant": "A unit test fixes a finite set of sources; a lost byte can hide behind any unusual rune or any token boundary.", "anchors": ["lex/lex.go: Lex, run, emit, lexText, lexComment, lexString, lexInteger, lexSpace, lexIdentifier"]}
{"id": "C02", "title": "Lexing ends exactly once", "statement": "For every source text the token stream is finite and contains exactly one terminal token (EOF or error), which is the last token; there are at most as many other tokens as bytes.", "quantifier": "all byte strings", "why_tests_cant": "Termination of the state machine on every input is a liveness statement no finite set of runs establishes.", "anchors": ["lex/lex.go: run, lexText, errorf"]}
{"id": "C03", "title": "Tokens obey the lexical grammar", "statement": "Every delivered token's text belongs to the lexical class named by its kind: identifiers are a letter followed by alphanumerics and are not reserved words, a reserved-word kind carries exactly that word, integers are decimal or 0x hexadecimal digit runs, strings are quoted with only the four legal escapes, comments start with // and contain no newline, operators carry exactly their spelling.", "quantifier": "all byte strings and all tokens of the resulting stream", "why_tests_cant": "The claim ranges over every token of every input.", "anchors": ["lex/lex.go: lexText, lexString, lexInteger, lexHexOrDecInteger, lexIdentifier, lexComment, key"]}
{"id": "C04", "title": "Longest match", "statement": "Space, integer, identifier/keyword and comment tokens are maximal: the text following the token never begins with a rune that could have extended it.", "quantifier": "all byte strings and all tokens of the stream", "why_tests_cant": "Maximal munch is a statement about every continuation of every token.", "anchors": ["lex/lex.go: lexSpace, lexInteger, lexHexOrDecInteger, lexIdentifier, lexComment"]}
{"id": "C05", "title": "Token positions", "statement": "The line of a token is one plus the number of newlines before its first byte; its column is determined by the runes since the last newline. The same column base is used on every line.", "quantifier": "all byte strings and all tokens", "why_tests_cant": "Tests check a few positions; the claim covers every offset and multi-byte rune.", "anchors": ["lex/lex.go: linePos, lineNumber, emit"]}
{"id": "C06", "title": "Token channel delivers everything under every schedule", "statement": "The lexer runs as a goroutine writing to an unbuffered channel. Under every interleaving the consumer that reads until a terminal token receives exactly the token sequence in order, no step blocks forever, and the goroutine always terminates (no leak), whether the stream ends in EOF or in an error.", "quantifier": "all schedules of producer and consumer and all source texts", "why_tests_cant": "The Go scheduler is free to interleave; a test run observes one schedule.", "anchors": ["lex/lex.go: Lex, run, NextToken, emit", "main.go: lexAndParse"]}
{"id": "C07", "title": "Printing then lexing is the identity", "statement": "Writing any sequence of valid token texts separated by single spaces and lexing the result yields exactly those tokens with their kinds (plus the separating spaces).", "quantifier": "all finite sequences of lexically valid tokens", "why_tests_cant": "Infinite input space; adjacency bugs depend on pairs of tokens.", "anchors": ["lex/lex.go: lexText, atTerminator"]}
{"id": "C08", "title": "The parser terminates on every token stream", "statement": "For every token stream that ends in EOF, valid or not, the parser (including error recovery) halts after a bounded number of steps and never indexes outside the token list.", "quantifier": "all token lists ending in EOF", "why_tests_cant": "Divergence in error recovery only shows on particular malformed inputs; no finite test set excludes it.", "anchors": ["parse.go: Parse, need, parseBlock, parseStatement, parseExpr, parseMatch, parseEnum, parseStruct, parseParenList, next, syntaxError"]}
{"id": "C09", "title": "A program accepted without errors was read to its end", "statement": "If parsing reports no error then every token of the input was consumed by a construct of the result; truncated programs are reported.", "quantifier": "all token lists ending in EOF", "why_tests_cant": "The claim is about every truncation point of every program.", "anchors": ["parse.go: Parse, parseExpr, next, onUnexpectedEof"]}
{"id": "C10", "title": "Operator precedence and associativity", "statement": "Rendering any expression tree with parentheses only where precedence and left associativity require them and parsing it yields the same tree; precedence levels are those of the language's operator table.", "quantifier": "all expression trees over literals, identifiers, unary and binary operators, ternaries, calls, indexing, field access, array literals", "why_tests_cant": "Expression trees are unbounded; precedence bugs need particular nestings.", "anchors": ["parse.go: parseExpr, prefix, infix, parseBinaryExpr, parseUnaryExpr, parseTernary, parseFnCall, parseArrayExpr", "lex/lex.go: Precedence, Associativity"]}
{"id": "C11", "title": "Statements and declarations round trip", "statement": "Rendering any program (functions, structs, enums, if/elseif/else, while, for, match, return, declarations, assignments, types) to tokens and parsing it yields the same tree, no errors.", "quantifier": "all program trees of the grammar", "why_tests_cant": "Unbounded nesting of constructs.", "anchors": ["parse.go: Parse, parseFn, parseStruct, parseEnum, parseBlock, parseStatement, parseIf, parseMatch, parseFor, parseWhile, parseReturn, parseType"]}
{"id": "C12", "title": "Syntax errors are located in the source", "statement": "Every syntax error produced carries the line and column of some token of the input, and a non-empty error list is produced whenever the parser enters recovery.", "quantifier": "all token lists ending in EOF", "why_tests_cant": "All malformed inputs.", "anchors": ["parse.go: syntaxError, need, Parse"]}
{"id": "C13", "title": "Type equality is an equivalence", "statement": "Type matching is reflexive, symmetric and transitive, so 'same type' never depends on which operand is on the left.", "quantifier": "all pairs and triples of types", "why_tests_cant": "Types are an infinite inductive family.", "anchors": ["symtab.go: Type.Matches, MatchesImpl"]}
{"id": "C14", "title": "Generic calls are sound", "statement": "When a call to a generic function is accepted with some type-parameter bindings, substituting the bindings into each declared parameter type gives exactly the argument's type.", "quantifier": "all parameter/argument type lists, all initial bindings", "why_tests_cant": "Unbounded types; tests instantiate only a handful.", "anchors": ["symtab.go: Type.PolyMatch, MatchesImpl", "typecheck.go: matchFuncCallByType, substituteType"]}
{"id": "C15", "title": "Generic calls are complete", "statement": "If some choice of type arguments makes the declared parameter types equal to the argument types, matching succeeds and finds it, and the result is the unique such choice.", "quantifier": "all parameter/argument type lists", "why_tests_cant": "Existential over all type assignments.", "anchors": ["symtab.go: MatchesImpl", "typecheck.go: matchFuncCallByType"]}
{"id": "C16", "title": "Overload resolution picks the first declared match", "statement": "A call by name resolves to the earliest declared overload whose parameter list accepts the arguments, and fails only if none does; adding later overloads never changes an already resolved call.", "quantifier": "all overload sets and argument lists", "why_tests_cant": "Ranges over every overload set.", "anchors": ["typecheck.go: typeCheckFuncCall, matchFuncCallBySymbol, matchFuncCallByType", "symtab.go: Symbol.Next, Define"]}
{"id": "C17", "title": "Passing an overloaded function as an argument considers every overload independently", "statement": "When an argument names an overloaded function, the call is accepted if some overload makes the types match; rejected candidates leave no trace.", "quantifier": "all overload sets, parameter types and bindings", "why_tests_cant": "Depends on order of all overloads.", "anchors": ["typecheck.go: matchFuncCallByType"]}
{"id": "C18", "title": "No type parameter of the callee escapes", "statement": "An accepted generic call has a result type that mentions none of the callee's own type parameters unless supplied by the caller.", "quantifier": "all generic signatures and bindings", "why_tests_cant": "All signatures.", "anchors": ["typecheck.go: findUnboundTypeParameters, substituteType, typeCheckFuncCall"]}
{"id": "C19", "title": "Type instantiation terminates", "statement": "Instantiating the type of any declared struct, enum or function with type arguments terminates.", "quantifier": "all type graphs, including recursive structs", "why_tests_cant": "Non-termination cannot be observed by a finite test, and type graphs are unbounded.", "anchors": ["typecheck.go: substituteType", "semantic.go: instantiateType"]}
{"id": "C20", "title": "Distinct functions get distinct assembler symbols", "statement": "Two functions that the compiler accepts in one program never share an assembler symbol.", "quantifier": "all pairs of accepted signatures", "why_tests_cant": "All pairs of signatures.", "anchors": ["symtab.go: Type.AsmName, FunctionType.AsmName", "semantic.go: processFnType"]}
{"id": "C21", "title": "Lexical scoping", "statement": "A name resolves to the declaration in the innermost enclosing scope that has one; declaring a name never changes what outer scopes resolve; a second declaration in one scope is reported and the first is kept.", "quantifier": "all sequences of declarations, scope openings and closings", "why_tests_cant": "All histories of symbol-table operations.", "anchors": ["symtab.go: SymTab.Define, Resolve, ResolveAll, Owns, Child"]}
{"id": "C22", "title": "A function with a result always returns", "statement": "A function body accepted by the missing-return check never runs off its end: every terminating run returns or panics.", "quantifier": "all function bodies and all executions", "why_tests_cant": "All programs, inputs and branch outcomes.", "anchors": ["ast.go: isTerminating", "typecheck.go: typeCheck (opBlockFnDcl)"]}
{"id": "C23", "title": "An accepted match is exhaustive and unambiguous", "statement": "An accepted match has exactly one case for each constructor of the enum, so every value is handled by exactly one case.", "quantifier": "all enum declarations and case lists, all values", "why_tests_cant": "All enum declarations.", "anchors": ["typecheck.go: typeCheck (opMatch), typeCheckCase"]}
{"id": "C24", "title": "Match runs the case of the value", "statement": "Executing a match on a value runs exactly the body of the case named by the value's constructor with the case variables bound to the constructor arguments, then continues after the match.", "quantifier": "all enum values, case lists, bodies and states", "why_tests_cant": "All values and programs.", "anchors": ["semantic.go: lowerMatchStatement"]}
{"id": "C25", "title": "Range for loops visit the documented values", "statement": "for v in a .. b runs the body for a, a+1, ..., b-1 in order when a <= b; for v in a .. 0 with a >= 0 runs a-1, ..., 0; docs say any decreasing range counts down with an exclusive start and inclusive end.", "quantifier": "all bounds, bodies and states", "why_tests_cant": "All integer bounds and loop bodies.", "anchors": ["semantic.go: lowerForStatement", "docs/index.md: For"]}
{"id": "C26", "title": "Array for loops visit every element once in order", "statement": "for x in xs runs the body once per element of xs from first to last and evaluates the expression xs once.", "quantifier": "all arrays, array expressions, bodies and states", "why_tests_cant": "All arrays and side effects.", "anchors": ["semantic.go: lowerForStatement"]}
{"id": "C27", "title": "Integer literals mean their value", "statement": "Every integer literal accepted by the compiler evaluates at run time to the number it denotes.", "quantifier": "all integer literal spellings", "why_tests_cant": "2^64 literals in several spellings.", "anchors": ["typecheck.go: typeCheck (opLit)", "semantic.go: foldConstants", "asm.go: intOp", "codegen.go: genExpr (opLit)"]}
{"id": "C28", "title": "Closures capture exactly the variables they use", "statement": "Every variable of an enclosing function that a function literal mentions is captured, nothing else is, and the literal's body reads the value the variable had when the literal was evaluated.", "quantifier": "all function bodies and scope structures", "why_tests_cant": "All expression shapes.", "anchors": ["closures.go: clIdentifyFreeVars, freeVarChecker, clRewriteFreeVars, rewriteAnonFnAndClosures"]}
{"id": "C29", "title": "Integer expressions compute 63-bit two's complement arithmetic", "statement": "For every integer expression, the generated code leaves in the result register the tagged value of the expression under 63-bit wrap-around arithmetic (+, -, *, truncating /, &, |, ^, ~, <<, >>, unary -).", "quantifier": "all expressions, all variable values, all machine states", "why_tests_cant": "63-bit operands, unbounded expressions.", "anchors": ["codegen.go: genExpr, tag, untag, save, restore, ins", "asm.go"]}
{"id": "C30", "title": "Comparisons and boolean operators", "statement": "Comparison operators order integers as signed numbers; and/or/not compute the boolean connectives of 0/1 values, evaluating both operands.", "quantifier": "all integer values and expressions", "why_tests_cant": "All operand pairs.", "anchors": ["codegen.go: genExpr (opEq, opGt, opLt, opGte, opLte, opAnd, opOr, opNot)"]}
{"id": "C31", "title": "Array accesses are checked", "statement": "An array read or write touches memory only if 0 <= index < length, and then touches exactly element index; otherwise control goes to the index panic with the index and length.", "quantifier": "all array lengths and all 63-bit indices", "why_tests_cant": "All indices including negative ones.", "anchors": ["codegen.go: genExpr (opArray), genIoobTrampoline, genAssignStmt"]}
{"id": "C32", "title": "Expression code is stack neutral", "statement": "Code for any expression or statement leaves the stack pointer where it was and never writes memory above it, so temporaries never corrupt variables.", "quantifier": "all expressions and statements", "why_tests_cant": "All nestings.", "anchors": ["codegen.go: genExpr, save, restore, function.incSp, decSp"]}
{"id": "C33", "title": "The stack is 16-byte aligned at every call", "statement": "At every emitted call instruction the stack pointer is a multiple of 16, as the system ABI requires, whatever temporaries are live.", "quantifier": "all functions, call nestings and argument counts", "why_tests_cant": "Depends on parity of live temporaries at every call site.", "anchors": ["codegen.go: genFnEntry, genFnCall, function.AlignStack, isSpAligned"]}
{"id": "C34", "title": "Statements execute as written", "statement": "Generated code for declarations, assignments, if/elseif/else, while and return has the effect of the source statement on variables and control.", "quantifier": "all statements, variable values and runs", "why_tests_cant": "All programs and runs.", "anchors": ["codegen.go: genStmtList, genAssignStmt, genWhileStmt, genIfElseIfElseStmts, genReturnStmt"]}
{"id": "C35", "title": "The peephole optimiser preserves behaviour", "statement": "Merging adjacent instructions never changes the result of the generated code.", "quantifier": "all generated instruction sequences and machine states", "why_tests_cant": "All instruction sequences.", "anchors": ["peep.go: peepWriter.ins, write", "codegen.go"]}
{"id": "C36", "title": "Generated labels are unique", "statement": "No two labels emitted for one program coincide.", "quantifier": "all programs (all sequences of label requests)", "why_tests_cant": "All sequences.", "anchors": ["asm.go: gasWriter.newLabel, stringLit, roSymbol"]}
{"id": "C37", "title": "Call arguments survive nested calls", "statement": "When arguments contain calls, each argument value reaches the callee in its own register unchanged, left to right.", "quantifier": "all argument lists with arbitrarily nested calls", "why_tests_cant": "All nestings and clobbered registers.", "anchors": ["codegen.go: genFnCall, SpillRegisters, RestoreRegisters, RegisterInUse"]}
{"id": "C38", "title": "Constructors and field access agree", "statement": "Reading field i of a freshly constructed struct or enum value yields the i-th constructor argument, and assigning one field changes only that field.", "quantifier": "all structs, field types and values", "why_tests_cant": "All field counts and values.", "anchors": ["codegen.go: genConstructor, genExpr (opDot)", "symtab.go: StructType.HasField, GetField", "semantic.go: generateStructConstructor", "ast.go: generateStruct"]}
{"id": "C39", "title": "String literals are shared consistently", "statement": "Equal string literals get one label, different ones different labels, each emitted once with a length equal to the number of bytes of the value; every accepted string literal can be emitted.", "quantifier": "all sequences of literals", "why_tests_cant": "All sequences of literals and contents.", "anchors": ["asm.go: gasWriter.stringLit, flush", "lex/lex.go: lexString"]}
{"id": "C40", "title": "Every live pointer variable is a GC root", "statement": "At every call site the root map contains every pointer variable in scope and no variable whose scope has ended.", "quantifier": "all sequences of scope openings, declarations, calls and scope closings", "why_tests_cant": "All program shapes.", "anchors": ["gc.go: GcState.OpenScope, CloseScope, Add, Snapshot", "codegen.go: genStmtList, genAssignStmt"]}
{"id": "C41", "title": "A collection keeps exactly the reachable objects", "statement": "After gc() an object is still allocated if and only if it was reachable from the roots, its contents are unchanged and its mark is clear; read-only objects are never touched.", "quantifier": "all heaps (any shape, cyclic or shared), all root sets", "why_tests_cant": "All heap graphs.", "anchors": ["install/lib/gc.clara: gc, gcMark, gcMarkPointer, gcSweep"]}
{"id": "C42", "title": "Object headers keep type id and flags apart", "statement": "Setting or clearing the mark, and the read-only bit, never disturbs the type id, and the type id read back is the one allocated with.", "quantifier": "all type ids and header values", "why_tests_cant": "All 63-bit headers.", "anchors": ["install/lib/gc.clara: typeId, isMarked, setMark, clearMark, isReadOnly", "gc.go: readOnlyGcHeader", "install/lib/mem.clara: claralloc"]}
{"id": "C43", "title": "Tagged integers are never taken for pointers", "statement": "The collector's pointer test rejects every integer value and boolean and accepts every heap address the allocator can return.", "quantifier": "all 63-bit integers, all aligned addresses", "why_tests_cant": "2^63 values.", "anchors": ["install/lib/gc.clara: isReal", "codegen.go: tag", "install/lib/mem.clara"]}
{"id": "C44", "title": "Temporaries held across calls are rooted", "statement": "A heap value held in a temporary while another call runs (call argument, array base, right-hand side of an assignment) is visible to the collector.", "quantifier": "all expressions with nested calls", "why_tests_cant": "All expression shapes.", "anchors": ["codegen.go: genFnCall, SpillRegisters, genExpr (opArray), genAssignStmt, save"]}
{"id": "C45", "title": "The type table describes the object layout", "statement": "For each constructor the type table entry lists exactly the offsets of its pointer fields, at the index given by its type id (and tag for enums).", "quantifier": "all type declarations", "why_tests_cant": "All sequences of declarations.", "anchors": ["codegen.go: genTypeInfoTable", "gc.go: GcTypes.AssignId, AddBuiltins"]}
{"id": "C46", "title": "The hash map is a map", "statement": "put, get, remove, contains and size on the library map behave as on a mathematical finite map, through any number of resizes and collisions.", "quantifier": "all keys, values, hashers/matchers that agree, and all operation histories", "why_tests_cant": "All histories and hash distributions.", "anchors": ["install/lib/map.clara"]}
{"id": "C47", "title": "List functions meet their contracts", "statement": "toList, append, reverse, find, map, reduce, remove and foreach of the library list compute the corresponding list functions.", "quantifier": "all lists, element types and function arguments", "why_tests_cant": "All lists.", "anchors": ["install/lib/list.clara"]}
{"id": "C48", "title": "option and result obey their laws", "statement": "isNone, isSome, filter, orElse, map, peek and then on option and result values obey case analysis and the functor/monad laws, and call their function arguments exactly when the value is present.", "quantifier": "all values and functions", "why_tests_cant": "All functions.", "anchors": ["install/lib/functional.clara", "install/lib/enums.clara"]}
{"id": "C49", "title": "String equality is byte equality", "statement": "Equals returns true exactly when both strings have the same bytes.", "quantifier": "all pairs of byte strings", "why_tests_cant": "All strings.", "anchors": ["install/lib/strings.clara: Equals"]}
{"id": "C50", "title": "IndexOf finds the first occurrence", "statement": "IndexOf returns the least position at or after the start at which the substring occurs, or -1 if there is none, without reading outside either string.", "quantifier": "all strings, substrings and start positions", "why_tests_cant": "All strings.", "anchors": ["install/lib/strings.clara: IndexOf, matchRun"]}
{"id": "C51", "title": "append and Substring are concatenation and slicing", "statement": "append yields the concatenation of the bytes and Substring yields the bytes from start up to end.", "quantifier": "all strings and bounds", "why_tests_cant": "All strings and bounds.", "anchors": ["install/lib/strings.clara"]}
{"id": "C52", "title": "Integer printing is exact", "statement": "toString of every int is its decimal numeral, with a minus sign exactly for negatives; distinct ints print differently.", "quantifier": "all 2^63 ints", "why_tests_cant": "2^63 values.", "anchors": ["install/lib/core.clara: toString"]}
{"id": "C53", "title": "Byte arrays are bounds checked and store bytes", "statement": "Reading index i after storing v at i gives v's low byte sign-extended, other indices are unaffected, and any index outside the array panics.", "quantifier": "all lengths, indices and values", "why_tests_cant": "All indices.", "anchors": ["install/lib/bytes.clara: get, set", "codegen.go: genRead, genWrite"]}
{"id": "C54", "title": "A byte buffer holds exactly what was appended", "statement": "After any sequence of appends the buffer's content is the concatenation of what was appended and growth preserves content; appending always terminates.", "quantifier": "all append histories and initial capacities", "why_tests_cant": "All histories.", "anchors": ["install/lib/strings.clara: byteBuffer append, grow"]}
{"id": "C55", "title": "fnv1a is the published 32-bit FNV-1a hash", "statement": "fnv1a of every string equals the published FNV-1a 32-bit function of its bytes and lies in [0, 2^32).", "quantifier": "all byte strings", "why_tests_cant": "All strings.", "anchors": ["install/lib/hash.clara"]}
{"id": "C56", "title": "mod is the remainder of truncated division", "statement": "i.mod(m) for m != 0 satisfies i = (i/m)*m + i.mod(m), has magnitude below |m| and the sign of i.", "quantifier": "all ints and non-zero moduli", "why_tests_cant": "All pairs.", "anchors": ["install/lib/core.clara: mod"]}
{"id": "C57", "title": "Binary printing is exact", "statement": "toBinary prints the 63 two's-complement bits of every int, most significant first, grouped by eight.", "quantifier": "all 2^63 ints", "why_tests_cant": "2^63 values.", "anchors": ["install/lib/core.clara: toBinary"]}
{"id": "C58", "title": "Environment and argument parsing", "statement": "The program's argument list is exactly the strings of the argument vector that the entry point receives, in order, and its environment map gives every name the value of its last NAME=VALUE entry, split at the first '='.", "quantifier": "all argument vectors and environments", "why_tests_cant": "All C strings.", "anchors": ["install/lib/runtime.clara: parseArgs, parseEnv, parseCString"]}
{"id": "C59", "title": "Errors stop compilation", "statement": "Compile produces an output file only when no phase reported an error; type errors are never swallowed by an enclosing construct.", "quantifier": "all programs", "why_tests_cant": "All placements of an error.", "anchors": ["main.go: Compile", "typecheck.go: typeCheckTernary, typeCheckArrayLit, typeCheckFuncCall"]}
{"id": "C60", "title": "Well-typed programs compile", "statement": "A program accepted by the type checker never crashes the code generator.", "quantifier": "all accepted programs", "why_tests_cant": "All programs.", "anchors": ["typecheck.go: typeCheck", "codegen.go: genExpr, tagLenFor, genFnCall, genConstructor", "asm.go: displace, flush"]}
{"id": "C61", "title": "The lexer rejects exactly the malformed texts", "statement": "A run of the lexer ends in an error token exactly when the text after the delivered tokens begins with no token: a rune that starts nothing, a word directly followed by a rune that may not follow a word, 0x without digits, or a string that is unterminated or has an unknown escape. Blanks between a word and an operator or bracket are optional.", "quantifier": "all source texts", "why_tests_cant": "All byte sequences.", "anchors": ["lex/lex.go: lexText, lexIdentifier, atTerminator, lexString, lexHexOrDecInteger"]}
{"id": "C62", "title": "Accepted programs obey the typing rules", "statement": "If the type checker reports no error for a program, every expression carries the type that the typing rules give it, arguments match the parameters of the function called (up to type arguments), returned values match the declared result, and only values (not types) are used as values.", "quantifier": "all programs, scopes and declarations", "why_tests_cant": "All programs.", "anchors": ["typecheck.go: typeCheck, typeCheckFuncCall, typeCheckDotSelection, typeCheckAssignment, typeCheckIndex"]}
{"id": "C63", "title": "Type checking terminates", "statement": "Apart from the instantiation of types (C19), the type checker returns for every syntax tree, although it rewrites l.f(..) and l.f[..] and checks the new trees again; the outcome does not depend on how deep the recursion may go.", "quantifier": "all programs, scopes and declarations", "why_tests_cant": "All programs; non-termination is not observable by a test.", "anchors": ["typecheck.go: typeCheck (opDot, opFuncCall)"]}
{"id": "C64", "title": "Copies of generic structs have the declared fields", "statement": "After the declarations of a program are processed, every copy of a struct that a field, parameter or result has as its type has exactly the fields of the declared struct with the type parameters replaced by the type arguments, and type checking (which substitutes in these types) keeps it so.", "quantifier": "all programs that the declaration phase accepts", "why_tests_cant": "All programs and all orders of declarations.", "anchors": ["semantic.go: processTopLevelTypes, instantiateType, instantiateFieldTypes, instantiateFunctionTypes, createType", "typecheck.go: substituteType"]}
{"id": "C65", "title": "Declarations mean what is written", "statement": "If the declaration phase reports no error, every name means exactly the types and functions declared with it (and the built-in ones), with the parameter, result and field types that are written; structs have constructors, enums list their constructors in order, and every declared function is checked with its own parameters, type parameters, result type and body.", "quantifier": "all lists of declarations that are accepted", "why_tests_cant": "All programs.", "anchors": ["semantic.go: processTopLevelTypes, processFnType, createType, instantiateType, generateStructConstructor", "main.go: stdSyms"]}
{"id": "C66", "title": "No source text crashes the compiler", "statement": "For all source files, the phases of the compiler up to type checking (lexing, parsing, declarations, folding of literals, type checking) end after finitely many steps, with errors or with checked functions; none of them panics.", "quantifier": "all lists of source texts, all schedules of the lexer", "why_tests_cant": "All source texts; the failing ones are rare combinations of names and types.", "anchors": ["main.go: Compile, parse (lines 60-130)", "lex.go, parser.go, semantic.go: processTopLevelTypes, foldConstants", "typecheck.go: typeCheck, substituteType"]}
{"id": "C67", "title": "Type checking keeps the program", "statement": "Whatever type checking reports, the functions it leaves are the ones it was given, with types and symbols filled in: no statement, operand, argument or name is lost, added or exchanged. The only changes of shape are those the language defines for dots: l.f(..) is a call of the field f, or, only if l has no such field, a call of f with l as its first argument; l.f[i] indexes the field f.", "quantifier": "all programs, with and without errors", "why_tests_cant": "All syntax trees and all outcomes; a tree lost only in rare combinations of errors and rewritten dots would go unseen.", "anchors": ["typecheck.go: typeCheck (lines 13-476), typeCheckFuncCall, typeCheckFor, typeCheckCase, typeCheckIdentifier, typeCheckIfs"]}
{"id": "C68", "title": "Compiled programs compute what they say", "statement": "What a call of a function computes according to the program that the type checker accepted - names bound to the innermost declaration, arguments from left to right, loops over their ranges and arrays, match by constructor - the generated machine code computes: it returns with the same result and leaves the same heap.", "quantifier": "all programs after type checking, all arguments, all heaps, all terminating runs", "why_tests_cant": "All programs and all runs; a wrong binding of names, a wrong offset or a wrong case shows only for particular programs.", "anchors": ["closures.go: rewriteAnonFnAndClosures (lines 10-135)", "semantic.go: lowerForStatement, rewriteArrayLiteralExpr, lowerMatchStatement (lines 468-607)", "codegen.go: genFunc, genConstructor, genStmtList, genFnCall, genExpr (lines 153-856)"]}
{"id": "C69", "title": "Calling a function value runs its function", "statement": "A function value is the address of a function or the address of a closure object. Called through invokeDynamic with at most five arguments (the compiler panics on more, C60), it runs exactly the function it stands for, with the given arguments and, for a closure, its environment in front of them; the result and the memory afterwards are those of that function. Which of the two it is is decided by the read-only bit of the word before it, whether or not the collector has marked the object.", "quantifier": "all programs with the library functions, all function values, all argument lists of at most five values, all heaps, with and without the peephole optimiser", "why_tests_cant": "All functions, closures, heaps and register contents; invokeDynamic reads registers that the caller did not set and returns a register that it does not mention.", "anchors": ["install/lib/runtime.clara: closure, invokeDynamic, isClosure (lines 109-132)", "install/lib/gc.clara: toRawInt, inc (lines 113-120)", "closures.go: rewrite of calls of values (lines 84-97)", "asm.go: fnStart (line 388)", "codegen.go: genFnCall, genUnsafe (lines 358-363)"]}
{"id": "C70", "title": "The collector's walk visits every suspended frame", "statement": "At every call in every execution, following the saved frame pointers from the current frame, as gcMark does, ends at the frame of the function that was entered first (entrypoint, whose frame is the recorded stack base) after one step for each call that has not returned. It visits the frames of exactly these calls, innermost first; the return address in each frame leads to the root map behind the call, and the words of each frame are those at the time of the call. Assumed of the execution: enough stack, stores through pointers do not hit the part of the stack in use by frames, and external functions keep to the calling convention.", "quantifier": "all programs, all executions, all depths of calls and recursion, with and without the peephole optimiser", "why_tests_cant": "All programs and stacks of any depth; a map that is missing after one kind of call or a frame that is off by one word shows only if a collection happens exactly there.", "anchors": ["install/lib/gc.clara: gcMark, gcMarkSlot (lines 11-41)", "install/lib/runtime.clara: frame, slot, gcMap, entrypoint (lines 1-29)", "codegen.go: genFnEntry, genFnExit, genFnCall", "install/init/runtime.c: setStackBase, isStackBase (lines 22-31)"]}
{"id": "C71", "title": "A collection keeps what the variables of all suspended calls point to", "statement": "Whenever a collection runs, every pointer variable in scope at a call that has not returned is looked up in its frame, with the value that it had at the call, and the objects that are reachable from it survive the collection with their contents.", "quantifier": "all programs, all executions, all heaps, all depths of calls", "why_tests_cant": "Combines code generation, root maps, the layout of the stack and the collector; a test would have to collect at every call of every program.", "anchors": ["install/lib/gc.clara: gc, gcMark, gcSweep (lines 1-112)", "gc.go: GcState", "codegen.go: genFnCall, genFnEntry, genFnExit", "install/lib/runtime.clara: frame, slot, gcMap (lines 1-12)"]}
{"id": "C72", "title": "The assembler helpers do what the library takes them to do", "statement": "unsafe adds an offset to an address, readInt, readByte, writeInt and writeByte read and write the cell with the given index (bytes with their sign) and change no other byte of memory outside of the helper's own two stack words, toTaggedInt and toUntaggedInt convert between a word and the number with that value, getFramePointer gives the frame of its caller; each comes back to its caller with the stack pointer, the frame pointer and all registers but rax and the first two argument registers as they were. On the machine of words the helpers meet what the correctness of generated code assumes of external functions.", "quantifier": "all register contents, memories, indexes and addresses, including negative indexes", "why_tests_cant": "All 64-bit words and memory contents; an extra byte written or a register not restored shows only in callers that depend on it.", "anchors": ["codegen.go: genRead, genWrite, genFramePointerAccess, genUnsafe, genToTaggedInt, genToUntaggedInt (lines 325-377)", "asm.go: memOp, movb, movsbq", "install/lib/runtime.clara: lines 134-175", "install/lib/bytes.clara"]}
{"id": "C73", "title": "Objects that the program goes on to use are not freed", "statement": "When the allocator is called and a collection runs, every object whose address the program afterwards stores into another object, before its next call, is still there.", "quantifier": "all programs, all executions, all heaps, all calls of the allocator", "why_tests_cant": "A freed object keeps its contents until its memory is used again, and the collection must fall between the evaluation of two parts of one statement.", "anchors": ["codegen.go: genAssignStmt, genExpr (intermediate values on the stack)", "gc.go: GcState", "install/lib/gc.clara: gc, gcMark, gcSweep (lines 1-112)", "install/lib/mem.clara: claralloc"]}
{"id": "C74", "title": "File functions pass on what the operating system does", "statement": "open, seek, size, read and readAll return an error with errno exactly when a call of the operating system fails. Otherwise open gives a file with the descriptor, seek the new position, size the length of the file with the position unchanged, read fills the buffer with the next bytes of the file and nothing else, and readAll gives the contents of the file.", "quantifier": "all operating systems that follow POSIX for lseek and read (any call may fail, reads may be short), all files, positions, buffers and sizes", "why_tests_cant": "Failing and short reads depend on the system and on timing; tests see one system and small files.", "anchors": ["install/lib/io.clara: seek, read (lines 6-16)", "install/lib/fs.clara: open, readAll, size (lines 6-25)", "install/lib/functional.clara: map, then, peek of result (lines 59-84)", "codegen.go: genFnCall, raw values (lines 598-606, 636-638)"]}
{"id": "C75", "title": "Error descriptions are complete and tell errors apart", "statement": "describe gives a text for every error: the text of its code followed by the message if there is one. Different codes have different texts; the codes 1 to 34 have texts of their own and all others are shown with their number.", "quantifier": "all 63-bit codes, all messages up to 2^58 bytes", "why_tests_cant": "All ints and all strings; a swapped or repeated line in a long chain of conditions is easily missed.", "anchors": ["install/lib/err.clara: describe (lines 6-87)", "install/lib/strings.clara: byteBuffer, append", "install/lib/core.clara: toString (lines 44-66)"]}
{"id": "C76", "title": "Times are those of the operating system", "statement": "Now gives the seconds and microseconds that gettimeofday stores, and toMicros, toMillis and toSecs convert them without loss other than rounding down.", "quantifier": "all 63-bit seconds and microseconds for Now; seconds from 0 below 2^42 and microseconds below 10^6 for the conversions", "why_tests_cant": "The fields hold untagged words for a moment; a test sees only the present time.", "anchors": ["install/lib/time.clara: Now, toMicros, toMillis, toSecs (lines 10-21)", "install/lib/runtime.clara: tag (line 136)"]}
{"id": "C77", "title": "Programs that do not end normally", "statement": "A function that goes on for ever also does so when compiled, without getting stuck. Every call it comes to, of the C library, of the allocator or of the panic for an index out of range, is made with the arguments, heap and outside world of the source. A division by zero of the source is one of the processor.", "quantifier": "all programs, functions, arguments, heaps and machine states with enough stack, with and without the optimiser, however deep in loops and calls", "why_tests_cant": "A test cannot run for ever, and says nothing about executions that stop in the middle of an expression.", "anchors": ["codegen.go: genWhileStmt, genAssignStmt, genFnCall (lines 495-640), array access (lines 820-850)", "codegen.go: genIoobTrampoline (lines 420-430)", "peep.go: instWriter"]}
{"id": "C78", "title": "What is printed", "statement": "print and println write exactly the bytes of their string, the decimal numeral of their int or the name of their bool; printHex and printHexPadded write the hexadecimal digits of the 64-bit value, the latter always sixteen. panic and assert name the cause, the message for an index out of range shows the index and the length, and the program ends with status 1.", "quantifier": "all heaps, strings, ints, bools and all output so far", "why_tests_cant": "Sampled values do not show that every int, at both ends of the range, and every string, with whatever bytes, is printed faithfully; both failures found need values that tests do not use.", "anchors": ["install/lib/core.clara: print, println, printHex, printHexPadded, toString (lines 33-43)", "install/lib/runtime.clara: panic, assert, indexOutOfBounds (lines 82-103)", "main.go: stdSyms (lines 218-220)"]}
{"id": "C79", "title": "The assembly file says what the compiler means", "statement": "Every instruction that the compiler writes exists: its operands have a form, a size and a displacement that the processor can encode. Every line is read by the assembler as exactly the instruction that was meant, with the same operands in the same order; jumps go to labels of the file, constants and literals copied from the source are read as the numbers that the compiler took them for, and names of functions are symbols.", "quantifier": "all programs for which code is generated, all instructions, with and without the optimiser; all integer literals; all function names and types", "why_tests_cant": "Operands depend on constants, offsets, slots and on which pairs of instructions the optimiser merges; tests assemble only the combinations that occur in them, and a line that assembles to something else shows up only as a wrong result.", "anchors": ["asm.go: memOp, operands, regNames, instNames, stringLit, ins (lines 14-324, 400-451)", "peep.go: ins (lines 15-37)", "codegen.go: genExpr, genFunc, genFnCall (lines 100-830)", "symtab.go: AsmName (lines 241-279, 341-357)"]}
{"id": "C80", "title": "Allocation is fresh and loses nothing", "statement": "A new object lies in memory of its own, is cleared, has the type it was made with and is found by the next collection; objects that are rooted when it is made keep their contents; constructors fill it with the words they were given. A program that keeps across allocations only words in root slots never holds the address of a freed object, however long it runs.", "quantifier": "all heaps, stacks, sizes, types, answers of calloc, and all sequences of loads, stores and allocations", "why_tests_cant": "Runs of any length with every interleaving of collections, and every answer of the C allocator; freed memory usually still has its old contents.", "anchors": ["install/lib/mem.clara: claralloc, inc, isValidBlock (lines 9-37)", "codegen.go: genConstructor (lines 433-466)", "install/lib/gc.clara: gc, typeId, isReal"]}
{"id": "C81", "title": "Arrays have room for their elements", "statement": "An array or byte array of a given length has that length in its first word and memory for that many elements behind it, initialised with zero or the default; for a length for which there cannot be an array the program panics.", "quantifier": "all 63-bit lengths, defaults, heaps and answers of calloc", "why_tests_cant": "Lengths whose size overflows or falls below the header are rare and the writes behind the block need not crash.", "anchors": ["install/lib/arrays.clara: array, arrayNoInit, intArray, stringArray, initWith (lines 22-53)", "install/lib/bytes.clara: Bytes (lines 1-5)", "install/lib/mem.clara: claralloc"]}
{"id": "C82", "title": "The tables of the assembly file are what the collector reads", "statement": "The assembler reads every line of the data that the compiler writes (maps of stack slots and of fields, type entries, the array of entries, the beginnings of functions and of string literals). In the memory that it makes of them, the collector reads at each map label the offsets of the map, and at the array the type table of the program; everything that is not allocated (entries, functions, literals) lies at a multiple of eight, has a header with the read only flag, and functions and literals have their type id. The operand of a string literal is the address of a string object with the length and the bytes of the literal's value and a final zero.", "quantifier": "all type tables, maps, names made of symbol characters, statements before, between and after, base addresses and values of other symbols; labels different, as the assembler demands", "why_tests_cant": "The layout is spread over text, directives, labels and little-endian words; a wrong offset is read only when a collection meets an object of that type, and then keeps too much or frees what is used.", "anchors": ["asm.go: addr, tab, spacer, fnStart, stringLit, flush, roSymbol, gcMap, taggedInt (lines 361-475)", "codegen.go: genFunc (190-203), genTypeInfoTable (211-318), genNoGc (387-392)", "gc.go: readOnlyGcHeader (12-14)", "install/lib/gc.clara: typeInfo, typeInfoTable, block (lines 100-175)"]}
{"id": "C83", "title": "A process starts the program with the arguments of the command line", "statement": "The C main takes the options of the runtime from the command line and hands argc, argv and envp to clara_asm_entrypoint, which calls entrypoint with the number of arguments as an integer of the program and both pointers, with the stack aligned, and returns to C with its stack and frame pointer. The list of arguments that the program sees is the command line, in its order, and arguments that are not options of the runtime are no concern of the runtime. (The last sentence is false: getopt_long moves everything that begins with a dash to the front and complains about the options of the program; what holds is the exact order, that nothing is lost, and when the order is kept.)", "quantifier": "all program names and lists of arguments; all machine states, return addresses, and behaviours of entrypoint that obey the calling convention", "why_tests_cant": "The order changes only for mixtures of options, other arguments and --; test programs are started without arguments.", "anchors": ["install/init/bootstrap.c: options, main (lines 11-44)", "codegen.go: genAsmEntrypoint (lines 380-385)", "install/lib/runtime.clara: entrypoint, parseArgs (lines 25-45)"]}
{"id": "C84", "title": "The preprocessor leaves the assembly file alone", "statement": "The assembly file is named .S, so gcc runs the C preprocessor on it before the assembler. The lines that the assembler reads are those that the compiler wrote, whatever macros gcc predefines, and different labels stay different. (False: the names of types are part of the labels of functions, and linux, unix and names that begin with two underscores are macros of gcc; fn f(x: linux) and fn f(x: unix) get the same label. What holds: a function label mentions a reserved name exactly if a struct or enum in its parameter types has one; a program without such names is read unchanged, line by line; literals are never changed.)", "quantifier": "all sets of predefined macros with reserved names, all functions, parameter types, instructions, whole programs, maps, type tables and literals", "why_tests_cant": "The macros apply only where a type or an external function has a name such as linux, which no test program has; they depend on the version and the options of gcc.", "anchors": ["main.go: asmPath (line 138)", "main.go: gcc (lines 155-165)", "symtab.go: Type.AsmName, FunctionType.AsmName (lines 241-280, 341-359)", "asm.go: ins, label, flush (lines 340-475)"]}
{"id": "C85", "title": "A compilation overwrites none of the files it reads", "statement": "The compiler writes an assembly file <tmp>/<name>.S and the program <out>/<name>, where <name> is the name of the source without its extension. Neither is the source or a file of the library, the program is an entry of the output directory, and compilations of different sources do not share an assembly file. (False: a source without an extension is overwritten when the output goes to its directory, which is the default; /tmp/a.S is removed; map.clara.clara with the library as output directory replaces map.clara; .clara gives the directory itself; a/x.clara and b/x.clara share /tmp/x.S. What holds: exactly when the source is overwritten, and the claim for sources name.clara without another dot.)", "quantifier": "all working directories, temporary and output directories, names of sources and contents of the library directories", "why_tests_cant": "The tests compile name.clara into another directory; the cases depend on the relation of three directories and on the dots in a name.", "anchors": ["main.go: flags and glob (lines 32-45)", "main.go: basename, progName, asmPath, os.Remove (lines 135-143)", "main.go: outputPath (lines 154-165)"]}
{"id": "C86", "title": "Walks over the tree visit every node once", "statement": "On the tree of a program without syntax errors Walk dereferences no nil pointer, whatever the function that is called. WalkPreOrder calls the function once for each node that is not below a refused one, with nil at the end of each node that was not refused, such that a function that pushes nodes and pops at nil always has exactly the ancestors of the node on its stack. WalkPostOrder calls it once for each node, directly after the calls for all nodes below it. Not visited are only the type parameters in the heads of structures and enumerations.", "quantifier": "all token sequences that the parser accepts (also those it should not accept), and all functions for which nodes to descend into", "why_tests_cant": "Walk has a case for each of about fifty node types, and which fields may be nil depends on the parser; a field that is missing in one case shows up only in programs with such a node and with something in that field, and then as a symbol or type that was never resolved.", "anchors": ["walk.go: WalkPreOrder, WalkPostOrder (lines 5-14)", "walk.go: Walk (lines 16-121)", "parse.go: the trees that the parser makes"]}
{"id": "C87", "title": "Error messages tell types apart", "statement": "Two types that the compiler takes for different ones are written differently in error messages, so that none says got 'X', wanted 'X'; the candidates in the list of an overload error are written differently unless their parameters and results are the same. (False: a type parameter may have the name of an enumeration, and both are written as the name. What holds: where each name stands for one thing, two types have the same text exactly if Matches holds for them; likewise for candidates, and for the names under which allocations are recorded.)", "quantifier": "all types, built from names of any length, and all tables of what names stand for", "why_tests_cant": "Types nest without bound; whether lists of types, arrays and functions with results can be read in two ways is a question about all texts.", "anchors": ["symtab.go: Type.String (lines 203-239)", "symtab.go: FunctionType.Describe, Symbol.Describe (lines 359-374, 471-480)", "symtab.go: MatchesImpl (lines 81-156)", "typecheck.go: mismatched types (lines 95, 120, 192, 385, 752, 787), candidates (lines 682, 744, 779)"]}
{"id": "C88", "title": "The assembly file, read as a whole, has the code of the program in its order", "statement": "The assembler reads every line that the compiler writes for the functions of a program and for the trampoline. What it puts into the text section is, in this order and without anything else, each instruction and label of the program, the header and alignment before each function, and after each call that has one the address of a map; the root maps that are written between the functions go to the data section, and each address leads to the map of its call: the collector reads there the offsets of the roots of that call, whatever order the maps are written in. The same holds for the file with the helpers that are written in assembly, the entry point and typeInfoTable: the text section has all of them in their order, each with exactly its instructions, and nothing of _noGc or of the type table.", "quantifier": "all programs for which code is generated, all literals and ways to write constants, all orders in which Go goes through a map, all encodings of instructions and all other content of the file", "why_tests_cant": "Maps are numbered through the program, kept in an unordered map until the function ends, and written in the middle of the code; a missing .text, a number used twice or a map of another function shows up only when the collector runs during that call.", "anchors": ["codegen.go: NewGcMap and reset (lines 40-65)", "codegen.go: genFunc (lines 153-204)", "codegen.go: genIoobTrampoline (lines 420-431)", "asm.go: gasWriter (lines 288-475)", "codegen.go: codegen, genRead to genNoGc (lines 121-151, 319-392)"]}
{"id": "C89", "title": "The tree that -ast shows is the tree of the program", "statement": "printTree writes one line for each node of the declarations that the filter lets pass, in the order parameters, left operand, right operand, statements, with as many columns before a line as the node has ancestors; the last child of a node has the branch └── and the others have ├──; so the tree can be read off the lines, and different trees are shown differently.", "quantifier": "all trees, all filters, all texts for the nodes", "why_tests_cant": "The printer is a debugging aid without tests; nesting and the combination of parameters, operands and statements are unbounded, and a wrong prefix shows only below certain nodes.", "anchors": ["ast.go: printTree, printTreeImpl, printNodeListImpl (lines 466-529)", "main.go: buildAstMatcher (lines 242-253)"]}
{"id": "C90", "title": "The words that the collector is shown are those of variables and waiting arguments, and are addresses of objects", "statement": "Whenever a collection can begin, each word that the root maps of the pending calls show to the collector is the word of a pointer variable in scope at its call or of a pointer argument that waits for later arguments. If the variables in scope hold addresses of objects, so do all of these words; the collection then ends and keeps everything that is reachable from the variables.", "quantifier": "all programs, all executions up to any call, all heaps", "why_tests_cant": "It needs a collection while an argument of an external function waits for a later argument that allocates; the harm (a changed length, a wild read) shows elsewhere and later.", "anchors": ["codegen.go: genFnCall (lines 540-650)", "codegen.go: spill and restore of registers in use", "install/lib/gc.clara: gcMark, gcMarkSlot, gcMarkPointer (lines 20-82)"]}
{"id": "C91", "title": "A copy of a tree is the same tree and shares no node with it", "statement": "copyNode ends for every tree and gives a tree with the same tokens, operators, symbols and types and the same children in the same places, made of new nodes only, each used once even where the original uses a node twice. The nodes that were there are not changed. So what is done later to the original leaves the copy as it is, and the other way round. Attributes are not copied and nil entries of lists are left out.", "quantifier": "all trees of nodes, also with shared nodes, in all memories; all later changes", "why_tests_cant": "A shared node shows only when one of the two trees is rewritten afterwards, as the lowering of closures and loops does at some places of some programs.", "anchors": ["ast.go: copyNode (lines 324-358)", "closures.go: rewriteAnonFnAndClosures (lines 31, 68)", "semantic.go: lowerForStatement (lines 485-510)"]}
{"id": "C92", "title": "Every pointer variable of the source is a root at every call in its scope", "statement": "At every call in a function of the source, the root map of the call contains the slot of every pointer variable that is in scope in the source: parameters, declared variables, the variables of loops in the bodies of the loops, the variables of cases in the cases.", "quantifier": "all functions with nested ifs, whiles, fors and matches; all calls", "why_tests_cant": "A missing root shows only if a collection runs at that call and nothing else holds the object.", "anchors": ["semantic.go: lowerForStatement (lines 470-512: `as`, not `das`, for the variable of an array loop)", "semantic.go: lowerMatchStatement (lines 552-606)", "codegen.go: genAssignStmt (lines 512-533)", "gc.go: GcState"]}
{"id": "C93", "title": "A collection is not made to fail by what the stack holds", "statement": "In a program in which no intermediate value waits on the stack at any call: when the allocator is called, the heap is in order and the pointer variables in scope at the pending calls hold nothing or addresses of objects, a collection ends without looking at anything that is not an object.", "quantifier": "all programs without waiting values, all executions up to any call of the allocator, all heaps in order", "why_tests_cant": "What an unwritten slot holds depends on the calls made before at the same depth of the stack; mostly it is zero or an old object that is still there.", "anchors": ["gc.go: GcState.CloseScope (lines 49-51)", "codegen.go: genStmtList (lines 468-493), genFnEntry", "install/lib/gc.clara: gcMark, gcMarkSlot, gcMarkPointer (lines 11-79)"]}
{"id": "C94", "title": "Compiling a program twice gives the same assembly file", "statement": "The assembly file depends on the source only: whatever the order in which Go goes through its maps (root maps of a function, string literals, captured variables of a function literal), the lines of the file are the same.", "quantifier": "all programs, all orders of iteration over the three maps", "why_tests_cant": "Go picks another order in each run; a test that compares two runs passes or fails by chance.", "anchors": ["codegen.go: genFunc (line 201: range fn.gcMaps)", "asm.go: gasWriter.flush (lines 413-429)", "closures.go: clIdentifyFreeVars (line 103: range checker.free)"]}
{"id": "C95", "title": "Texts that are used as formats arrive unchanged", "statement": "The writer gives the text of labels and directives to fmt.Sprintf as a format, some of it twice. Every line of the assembly file arrives in the file with exactly the text it was given, and instructions and literals, which may contain percent signs, are only ever arguments of a format.", "quantifier": "all programs whose function and type names are symbols, all orders of maps, all literals", "why_tests_cant": "A percent sign in one line of one program is enough to garble it; tests see only the names they use.", "anchors": ["asm.go: gasWriter.write, tab, spacer (lines 357-382)", "asm.go: flush (line 426), label, raw, ins (lines 437-451)", "asm.go: fnStart (lines 384-398)"]}
{"id": "C96", "title": "Error messages are complete", "statement": "Every error of the semantic passes, the type checker and the parser has the text of its format with each directive replaced, in order, by the value meant for it: file, line and column of the token first, nothing missing, nothing left over and no value of a type the directive does not take. Errors are printed with their text as it is.", "quantifier": "all 65 calls of semanticError and semanticError2 and the syntax error of the parser, all tokens, all values of the types the calls give", "why_tests_cant": "The formats are constants and the calls pass untyped values; a message with a missing or extra value shows only when that very error is provoked and its text is compared.", "anchors": ["semantic.go: formats (lines 16-43), semanticError, semanticError2 (lines 665-675)", "typecheck.go: calls of them (lines 28-909), typeCheckArrayLit (lines 540-555)", "semantic.go: calls of them (lines 94-640)", "parse.go: errSyntaxMsg (line 10), syntaxError (lines 583-598)", "main.go: printing of errors (lines 47-53)"]}
{"id": "C97", "title": "-types shows nodes as they are written", "statement": "With -types the compiler prints one line for each node it has checked: the place of its token (or that the compiler made the node), its operation with the text of the token (literals as written, other texts in quotes), and its type, in columns of at least 60 and 30 characters that never cut anything off.", "quantifier": "all nodes: all tokens, operations and types, including nodes without a type or a file", "why_tests_cant": "The output goes to the terminal and no test reads it; texts with percent signs are treated specially.", "anchors": ["typecheck.go: printTypeInfo (lines 919-940)", "semantic.go: debugTypeInfoFormat (line 48)", "console/consts.go (lines 4-7)"]}
{"id": "C98", "title": "Lexical errors are reported at a place of the source", "statement": "The error token with which the lexer ends has the line and column of one place in the source, which is not before the token the error is about.", "quantifier": "all source texts the lexer rejects", "why_tests_cant": "The line is computed from the beginning of the token and the column from the current position; they belong to different places only for tokens with newlines, which a test has to think of.", "anchors": ["lex/lex.go: errorf, linePos, lineNumber (lines 543-558)", "lex/lex.go: lexString (lines 432-454)", "lex/lex.go: lexHexOrDecInteger, lexIdentifier (lines 465-511), lexText (line 417)"]}
