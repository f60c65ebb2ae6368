# Formal model of the Clara compiler, runtime and library

This directory holds a Lean 4 model of `g-dx/clara` (the Go compiler in `/repo`, its Clara
runtime and standard library) and machine-checked proofs of the properties in
`properties.jsonl`. `MANIFEST.json` says which theorems stand for which property.

## Trusted base

* Lean 4.33.0's kernel. Nothing is proved with `native_decide`, `bv_decide`, `sorry` or own axioms.
* The axioms a theorem may depend on: `propext`, `Classical.choice`, `Quot.sound`
  (`lean/Verif/Audit.lean` prints the axioms of the property theorems at build time).
* The faithfulness of the hand-written model definitions to the cited source lines. Every model
  definition carries the file and lines it models, and the simplifications it makes. The source was
  read, not run: the model was not compared with the program by tests.
* External behaviour that the code relies on and that is written down as a definition or a
  hypothesis: Go's `utf8.DecodeRune`, `unicode.IsLetter/IsDigit` (left abstract), `strconv.ParseInt`,
  Go slices, maps and channels, the x86-64 instructions used by the code generator
  (`Verif/Gen/Machine.lean`), how GNU as reads labels, integer and string literals, and `calloc`.

## Layout

* `Verif/<Area>/...` model definitions and helper lemmas.
* `Verif/Props/<Area>.lean` the property theorems, each with its specification and at least one
  concrete non-trivial instance of the hypotheses.
* When the code violates a property, the negation is proved with a concrete witness
  (`..._violated`), and the strongest true version found is proved as `..._partial`.
* `seeded/LOG.jsonl`: wrong versions of the model that were tried, and the theorems that then failed.

## What is modelled, and what is not

### Lexer (`lex/lex.go`), C01-C07, C61
All of it, over raw bytes. Letters and digits are abstract predicates on runes. The goroutine and its
unbuffered channel are a transition system in which producer and consumer meet (C06). Positions
are kept; the text of error messages is not (their formats and values are the subject of C96).

### Parser (`parse.go`), C08-C12
All of it, as `partial_fixpoint` functions over the remaining tokens (instead of a position), with recorded
errors and the EOF panic as values; termination is a theorem. The text of errors is not modelled, the Go
stack is unlimited. The grammar is a separate set of rules; syntax trees are rendered to tokens
independently of the parser.

### Types (`symtab.go`, `typecheck.go` 694-894), C13-C21
Matching of types, inference of type parameters and substitution on trees, where pointer identity matters
only for type parameters; struct fields, which make types cyclic, are a separate graph model (C19).
Assembler names are strings of characters, symbol tables an indexed list of scopes.

### Declarations and literals (`semantic.go`), C22, C23, C27, C45, C64, C65
Missing returns, enums and `match`, constant folding with Go's integer syntax, type declarations up to the
type table. `processTopLevelTypes`, `substituteType` on declared structs and their copies, and
`generateStructConstructor` are modelled in `Sema/Declare.lean`, starting from a list of declarations (all files
that are imported, in order) and ending with the symbol tables and functions that type checking uses. A struct
type is the declared one (fields looked up in the table) or a copy (with the fields it had when it was made); this is how
pointers to types matter. The depth of nested declared structs has fuel (C19 is about cyclic ones). Nil types and
the panics that they cause are values. `DeclareSpec` and `DeclareRules` are the specifications.
Imports of files are not modelled.

### Type checking (`typecheck.go`), C59, C60, C62, C63, C67
All node kinds of function bodies (`Sema/Check.lean`), starting from the symbol tables that
`processTopLevelTypes` leaves. Errors are kinds without text. The recursion has fuel. The typing rules
(`Sema/Typing.lean`) do not mention the checker. `Compile` (`main.go`) is modelled over abstract phases;
of the file system only success and failure are kept. `Sema/ToGen.lean` turns checked trees into the
trees of the code generator. Programs that use names of types as values, and function literals in which the
search for captured variables goes wrong (C28), end in `.outside`, about which C60 says nothing. `Sema/Says.lean` (C67)
says what it means that a checked tree is the given one with types and symbols filled in; it does not mention the checker.

### What checked programs mean, C68
`Sema/Meaning.lean` is a semantics of checked programs that follows the tree: variables by name, blocks with scopes, `for` and
`match` as such. It takes from the annotations only what is a declared function, its number, the types of objects with fields, cases or
elements, and what kind of value external functions get. `Sema/MeaningOk.lean`, `MeaningFine.lean`, `MeaningEnd.lean` (and `MeaningSteady.lean`
for programs with steady loops) connect it with
`Sema/ToGen.lean`; then C24, C69 and C34 lead to the machine. A function literal is an object with the values of the variables it
captures (`Sema/Lits.lean`: these are the ones that the compiler finds, and their fields are theirs); assignments to them go to that
object. Calls of values go through the library function `isClosure`, array literals through `arrayNoInit` and `setElement`, all of which
are run as the functions that they are. Literals are told apart by their trees, so programs with two equal ones are not covered. Calls go to
the declared function with the number of the symbol; that its name in the assembly is the one of this function is assumed
(`mnFits`; about such names see C20).

### The compiler up to type checking (`main.go`), C66
`Sema/FromNode.lean` reads nodes of the parser as the trees above (nodes without what is looked at: crash).
`Sema/Pipeline.lean` composes lexer, parser, declarations, folding and type checking on the texts of the files;
lexing runs under all schedules. The list of files is given (imports are not followed), and only whether there are
errors is kept. C66 is false; it holds for tame programs (`Sema/Tame.lean`, `Sema/DeclareTame.lean`, stated on the syntax) whose
structs are not inside of themselves. Found: a struct whose constructor is named like a type panics, so does
a call of a variable called `unsafe`, and a generic struct that is inside of itself makes `substituteType` run for ever.

### Rewrites after type checking (`closures.go`, `semantic.go` 468-607), C24-C26, C28
`match` and `for` are lowered on the trees that the code generator reads, so the lowering theorems compose
with those about generated code. The meaning of the source statements is given directly. Programs are
`fine` (no assignment to temporaries of the lowering, library function `asEnum` as in `enums.clara`).
Closure conversion is on trees that keep scopes and symbols only; environments are not written after
their creation; how such values are called is C69. Array literals are rewritten in `Sema/ToGen.lean` only; elsewhere
the expressions have array literals whose builder call is given.

### Code generator (`codegen.go`, `asm.go`, `peep.go`, `gc.go`), C29-C44
From lowered trees to calls on the assembly writer (Go panics are events), through the peephole optimiser to
instructions, which run on a machine with 64-bit words. Memory is a map from addresses to words, so
accesses never overlap partially; instructions are placed in the address space with any
sizes; of the flags only those of the last comparison are known. Meaning of programs: a big-step semantics
with a stack budget; the theorems speak about runs that end (others: C77). Memory outside of the stack is abstract (`σ`), allocation and
external functions are hypotheses on `Prog`. The assembly helper functions (`genRead` etc.) are treated as
external functions; C72 shows that their code meets the hypothesis. String literals and labels are modelled as text (C38, C39).

### Function values with and without the optimiser, C35
The addresses of functions differ between the two images. `Gen/Rename.lean` relates values, variables and heaps that differ in such
addresses only, and follows every rule of the semantics under the relation (operators take integers and booleans, an object is never at the
address of a function, a function is called by its address). What is asked of the runtime is in `Blind`: it does the same
whatever the addresses are. The bump allocator of the examples meets it when it allocates below the code; the example
keeps a function in an object.

### Executions that do not end, C77
`Gen/Going.lean` says how far an evaluation gets: it makes a number of rounds of loops and goes on, comes to a call, or divides by
zero. The parts that are over are described by the big-step semantics. `Gen/SimGo.lean` follows every rule in the generated code; a
round of a loop is at least one step of the machine, so a run with any number of rounds has any number of steps. A run whose calls nest
deeper than the stack is not covered.

### Calls of function values (`runtime.clara` 109-132, `gc.clara` 113-120), C69
`invokeDynamic` passes on whatever is in the argument registers and leaves the result of another function in `rax`, which no rule
for Clara functions allows; the semantics has a rule of its own for a function with exactly its body (`Gen/DynFn.lean`), and
`Gen/Dyn.lean` shows that the code generated for that body follows it. `isClosure`, `inc` and `toRawInt` run by the
ordinary rules. `unsafe`, written in assembler, is a hypothesis (it adds two words; C72 is about its code). That the header words are
where the emitted code and the allocator put them is part of the hypothesis that a word is a function value (`dyValue`).

### Bytes and assembler helpers (`codegen.go` 325-377), C72
`Gen/Bytes.lean` has the same machine with a memory of bytes, the lowest byte of a word first. `words_exec` and `words_step`: as long as the words touched are
at multiples of eight, both machines do the same, step by step and in both directions; so the assumption that accesses do not overlap comes down to
alignment. The helpers (`Gen/Helpers.lean`) run on bytes; they are straight code, run from the state after the call up to `ret`.
The peephole optimiser finds nothing to join in them (no two `movq` in a row), so there is one version (`C88_helpers_peep`).
`clara_asm_entrypoint` is in C83 and `typeInfoTable` in C82 (`C82_call`).

### Root maps and type table, C40, C44, C45
`GcState` with its missing pop in `CloseScope`. What is alive at a call is read off the syntax tree
(`Gen/Sites.lean`), without the generator. The type table is modelled from declarations on.

### The stack as the collector finds it, C70, C71, C73
`Gen/Active.lean` pairs executions of the machine with the list of the calls that have not returned. It covers all programs that
the generator accepts, and also executions that never end. Assumed of the execution (`Tidy`): the stack does not run
out, and stores through pointers do not hit the stack at or above the frame pointer. Functions whose code is not in the program
(C, assembler helpers) keep `rsp`, `rbp` and the stack above `rsp`. Nothing is said after an index error. The walk
(`walkFrames`) reads the saved frame pointer and the return address; the word at the return address is the address of the root list, of which
the model keeps the list. The last `roots = fp.map.roots` at the stack base, whose result is not used, is left out.
In C71 the heap of the collector is separate from the memory of the machine; that the words found are addresses of blocks is a hypothesis,
as in C41.

C73 follows one execution through machine, walk and collector (`Props/Freed.lean`): in `a[next()] = Box(5)` the box is only on
the stack while `next` allocates, the collection frees it, and the assignment then stores its address. The memory of the machine and
the heap of the collector agree on the words of the objects (`HeapIs`).

### Collector (`gc.clara`, `mem.clara`, `runtime.c`), C41-C43
Memory is a partial map of blocks, access outside of a block is `wild`. The stack is a list of frames.
Recursion is unlimited, `debug` output is left out. Addresses of `calloc` are 16-aligned in
[4096, 2^47).

Allocation (C80, C81; `Gc/Alloc.lean`): `calloc` is any function of the heap and the number of bytes that fails or gives an aligned
block that overlaps none. Objects are whole words; the bytes behind the last whole word of a byte array are not described. A run of
a program is a sequence of loads, stores and allocations (`Step`); that compiled code keeps across a call only what is in root slots
is a hypothesis there, and is what C44 and C73 are about. Types have ids below 2^15 (see C42).

### Library, C46-C58
Functions of `lib/*.clara` as programs over a heap of objects (no collection, unlimited memory, strings
shorter than 2^61) or as monadic programs (`functional.clara`, `list.clara`). Integers wrap at 63 bits. The hash
map has pure hashers and matchers.

### Files, errors, time (`io.clara`, `fs.clara`, `err.clara`, `time.clara`), C74-C76
The C library is an arbitrary system (`Os`) with a state; what POSIX says of `lseek` and `read` is a separate specification (`Posix`) in
which every call may fail and reads may be short. Programs run on the heap of the string model and the state of the system. Files and
errors are immutable values. Assumed: allocation does not change `errno`, and `errnum` leaves the upper half of `rax` zero. `file.path` in
`read` (the name of the struct instead of the parameter, which the checker accepts, see C62) is a load from address 8 and
is modelled as a crash.

### Printing (`core.clara` 33-43, `runtime.clara` 82-103), C78
The output is the state of the system. Of `printf` the conversions `%s`, `%d`, `%i`, `%x` with `ll`, zero flag and width are modelled
(`Lib/Print.lean`); it takes 32 bits for `%d` without `ll`, and strings up to the first NUL byte. Writing does not fail, buffering is left
out. `exit` is the value that the function ends with.

### The assembly text (`asm.go` 14-324, 400-451), C79
`Gen/Text.lean` is the text of a line of code on Linux, as characters; `Gen/Gas.lean` is how the GNU assembler reads such a line, from its
manual, and `Gen/Valid.lean` which instructions exist. Lines of data are the subject of C82; C38, C39 and C45 take
them for the words and bytes they say. A constant may be written in any way that reads as the number, which covers both `Itoa` and literals
copied from the source. The names `%r8l` and `%r9l` of `asm.go` 194-195 are none that the assembler knows (they are `%r8b`, `%r9b`); no
code uses them. Characters from 128 on are taken as characters of symbols.

`C79_literal` joins C03 to this: an integer token begins with a decimal digit and its second character is not an `o`, so the text of a literal is read by the assembler as the number that `ParseInt` gave.

### The preprocessor (`main.go` 138, 155-165), C84

The assembly file ends in `.S`, so `gcc` preprocesses it. `Gen/Cpp.lean` is the C preprocessor on one line: identifiers,
numbers, strings and macros without parameters, where `$` is no character of an identifier (as for assembly files). It does
not model comments, character constants, directives (`none`; no line of the compiler has them), continued lines, nor that a macro
is expanded again. The predefined macros are a parameter; all that is assumed is that their names are `linux`, `unix` or reserved
for the implementation (`reserved`). Macros with parameters are not needed: `gcc` predefines them under reserved names only.

### The files of a compilation (`main.go` 32-45, 135-164), C85

`Sema/Paths.lean` has `filepath.Base`, `Ext`, `Clean`, `Join` of two and the three names made from them, on Linux, as texts. The
specification (`fileOf`) is how a name is looked up part by part from a directory, without symbolic or hard links. That the files are
written at these names (`os.Remove`, `os.Create`, `gcc -o`) is read off `main.go`. `glob` is modelled by what it finds in one
directory; special characters in the path of the installation are left out.

### Walks over the tree (`walk.go` 5-121), C86

`Parse/Walk.lean` has the calls that `WalkPreOrder` and `WalkPostOrder` make, on the trees of the parser (`Parse/Model.lean`); a nil pointer in a field that is visited without a test gives `none`. The order of the fields is that of `Sema/Literal.lean`. The shape of the trees of accepted programs (which fields are there, which lists are empty) is proved from the concrete syntax of C09. The specification (`Props/Walk.lean`) knows the fields of a node and no order: it lists each node with its ancestors, and replays the calls with a stack. The function that is called does not change the tree here; the one walk that does so, with literals, is in `Sema/Literal.lean` (C27). Nodes that come from the compiler's own rewriting are not walked in this model.

### Texts of types (`symtab.go` 203-239, 359-374, 471-480), C87

`Types/Texts.lean` has `String`, the list of candidates and the descriptions of functions, as texts. The other parts of a message (file, line, the word in question) are C12's or not modelled. The specification is the compiler's own comparison of types (`Ty.same`, C13) together with a table of what each name stands for. That both types of `C87_violated` can meet in one assignment is read off the scoping rule (C21), not derived from a source text.

### The code as a file, C88

`Gen/CodeFile.lean` has the lines that are written for the items of C79 (functions, trampoline) with the headers, the addresses of maps and the maps at the end of each function, and a reader for lines of both kinds: a line whose first word is a mnemonic is read as in C79, any other as in C82. `C88_code` puts C79 and C82 together: the statement is about the sections of the whole file. The order of the maps of a function is any permutation. The assembly helpers around the trampoline are not in `codeLines`; `C88_helpers` (`Props/HelperLines.lean`) shows one helper at a time, with any lines after it, that it is read as the instructions of C72 (`C88_entry`: those of C83; `C88_tableFn`: the function `typeInfoTable`, of which `C82_call` in `Props/TableFn.lean` shows that it gives the address of the table), and `C88_helpers_peep` that the optimiser merges none of them. `C88_tail` (`Props/FileTail.lean`) is about all lines behind the trampoline up to the literals: in the text section are those functions and nothing of `_noGc` or the type table. `C88_text` (`Props/WholeText.lean`) puts everything together in the order of `codegen` (functions, four helpers, trampoline, four helpers, entry point, `_noGc`, table, `typeInfoTable`), for any place of these lines in a file; only the literals of `flush` are not among them (C82). Lines are given one by one, as in C79 and C82. Assumed are, as there, that names are symbols, that labels of the data are different and that offsets are below 2^59 words.

### The tree that is shown, C89

`Parse/Print.lean` has `printTreeImpl` and `printNodeListImpl` on the trees of the parser. What is written of a node behind its branch (token, kind, symbol, colours) is a parameter, nil children are missing children, and the regular expression of the filter is any predicate. The reader of `Props/TreePrint.lean` counts columns of five characters. The claim about the branches is false (`C89_violated`: the last parameter has `└──` though statements follow; `C89_violated_filter`: with a filter no declaration may have `└──`); `C89_marks_partial` is the full claim for trees in which a node has one kind of children, `C89_partial` has, for all trees, the lines, their order, their depth and their texts, and `C89_trees_partial` says that equal outputs come from equal trees.

### The words that the collector is shown, C90

`Props/RootWords.lean` combines the root maps (C40), the walk over the frames (C70, C71) and the collector (C41). `C90_words_partial`: the words are those of pointer variables in scope and of waiting pointer arguments, for functions whose maps are exact (C40_ended_partial). The claim that they are addresses of objects when the variables are is false (`C90_violated`): for `printf` and external functions with `#[RawValues]` the address of a string is moved behind its length as soon as it is in its register, and then waits in a slot of the root map. `C90_violated_length` shows what marking this word does to memory: the length 4 becomes 5 (`markWord`, a reading of `gcMarkPointer` and `setMark` on words, since the heap of `Gc/Collect.lean` has no blocks inside objects). `C90_partial` assumes of the waiting arguments what it assumes of the variables.

### Copies of trees, C91

`Parse/Copy.lean` has `copyNode` on nodes with addresses: a memory is a list of nodes, new nodes are put at its end, and fields are set as in the Go code, one after the other, with the fields of the original read when they are needed. What is copied as it is (token, operator, symbol, type, symbol table) is one parameter. `TreeAt` of `Props/Copies.lean` says which tree is at an address and at which addresses its nodes are. Shared nodes are allowed in the original; for cyclic structures `copyNode` does not end, and `TreeAt` has none.

### Pointer variables of the source, C92

C40 speaks of the statements that code is generated from. C92 (`Props/SourceRoots.lean`) takes the scopes from the source:
`scS`, `scB`, `scM` list the calls of a statement in the order of the code, each with the variables in scope there; the variable
of a loop is in scope in the body, the variables of a case in the case. The claim is false. `lowerForStatement` assigns the
variable of a loop over an array with `as` instead of `das`, and `genAssignStmt` registers roots only for `das`, so this
variable is in no map (`C92_violated`). `C92_violated_freed` follows an execution of the generated code of
`for b in a { a[0] = c  next()  a[0] = b }`: the collection in `next` frees the box in `b`, and its address is stored
again; nothing waits on the stack at any call of this program. `C92_partial`: all functions without loops over arrays of pointers.
`C92_literal`: the array of a loop over an array literal, which no variable of the source holds, is kept in a declared variable during the loop.

### Words that nobody wrote, C93

`Props/Unwritten.lean`. C40_violated shows that a map can have the slot of a variable whose block has ended; here is what comes of it.
`C93_claim` is for programs in which nothing waits on the stack at any call, so that C44 and C90 play no part. It is false: in
`fn f(c: bool) { if c { t := Box(5)  if c {} }  next() }` the slot of `t` is in the map of the call of `next`. Called with `false`
the slot is never written and has what earlier calls left on the stack; in the execution of `C93_violated`, which starts with a stack of zeros,
it is a saved `rbp`, and `gcMarkPointer` takes the stack for an object (`Err.wild`). `C93_partial`: functions whose inner blocks declare no pointer
variable before a block of their own. A `match` with an `if` in one case and a call in another is such a function too (`C92_other_case`).

### Orders of maps, C94

Go goes through a map in any order. The compiler does so in three places that reach the file: `codegen.go` 201, `asm.go` 415 and `closures.go` 103; the models of all
three have the order as a parameter, a permutation. (The two loops over `bound` in `typecheck.go` look for a key that is the same pointer, so there is at most one; `allTypes` of `symtab.go` is not called.)
C94 says that the file does not depend on it. It does: `C94_code_iff` and `C94_strings_iff` say exactly when (two calls with roots in a function; two different literals). What does not depend on it is the
text section, statement by statement (`C94_text_partial`, as the assembler reads it), and the collection of lines. For function literals the variables of an environment are the same and their
order is not, and with it the code.  Not stated: that programs whose environments have another order print the same; C28 and C68 hold for each order.

### Texts as formats, C95

`write` of `asm.go` is `Sprintf`, and `tab`, `label`, `raw` and `spacer` give it their text as a format; `tab` formats it once before. `Gen/Text.lean` and `Gen/Data.lean` leave this out. `Gen/Format.lean` is `Sprintf` for strings
(`%s`, `%v`, `-`, widths, missing and extra arguments; no other flags, which the formats of the writer do not have) and the writer's functions on top of it. C95 closes the gap: lines of code, of the type table and of literals
are written as the other models have them, because names of symbols have no `%`, and the lines that do have one (registers, texts of literals) are arguments (`C95_ins`, `C95_ascii`). That names are symbols is `C79_names`. The eight
assembly helpers are `C95_helpers`, `clara_asm_entrypoint` is `C95_entry`, the function `typeInfoTable` is `C95_tableFn`.

### Error messages, C96

`Sema/Messages.lean` has the formats of `semantic.go` 16-43 and `parse.go` 10, `semanticError` and `semanticError2`, and the table of all 65 calls with the Go types of their values; `Sprintf` is modelled with its complaints (missing,
extra, wrong verb). The values themselves (which type is `left.typ`) are quantified over, and a type is the text of its `String` method (C87). C96: each message is its format filled in. It is false for the empty array literal
(`C96_violated`): `typecheck.go` 542 calls `semanticError`, which passes the text of the token, and the format has no place for it, so that users read `... yet!%!(EXTRA string=[)`. `C96_reached` shows that the checker gets there.
`C96_partial` is the claim for the other 64 calls. `Parse/Kinds.lean` has `KindValues` and the texts of expectations; the invariant of the parser (`Parse/Spec.lean`) gives that every syntax error says what was expected (`C96_expected`), although comments, `?` and `or` have no text. The message for an element of an array literal always says that `int` was wanted (`typecheck.go` 550), whatever the type of the first element (`C96_violated_elem`). Left out: the two
messages of the lexer with argument indexes (`lex.go` 417, 499), texts of panics and debug output.

### The output of `-types`, C97

`Sema/ShowTypes.lean` is `printTypeInfo` on the `Sprintf` of C95. C97 says what a line has to show. It is false for texts with a `%` (`C97_violated`): `typecheck.go` 930 doubles the sign "to escape Go format strings", but the text is
an argument, not a format, so `"%"` is shown as `"%%"`. `C97_partial` is the claim for texts without `%`, `C97_doubled` says what is shown otherwise. Operations have names of their own (`C97_ops`). Texts of types
(C87) are given; widths count characters.

### Places of lexical errors, C98

C05 is about tokens that are not errors. `errorf` (`lex.go` 543-546) takes the line of the beginning of the token and the column of the current position. C98 is false for string literals that go over a newline (`C98_violated`: the
source `"⏎abc` is reported at line 1, column 4, and line 1 has one character). `C98_place` says what is reported for every rejected source, `C98_partial` that all errors but those about string literals that are followed by a line feed have the line and column of
one place; the proof shows that only string literals can have a newline at that point.

### The start of a process (`install/init/bootstrap.c`, `codegen.go` 380-385), C83

`Lib/Boot.lean` has the loop over `getopt_long` and the code of `clara_asm_entrypoint`. `getopt_long` is modelled after
the documentation of GNU libc for the one option of this program (`-g`, `--gc.debug` and its beginnings), without
`POSIXLY_CORRECT`; messages are counted, not printed. The assembly runs on the byte machine of C72; `HRuns` takes what
the called function does as a relation, and `C83_entry` asks of it the calling convention (stack and frame pointer
restored, the 16 bytes of the frame of the caller left alone). Assumed: the C compiler zero-extends `argc` into `rdi`.
Not modelled: that Clara code changes `rbx`, `r12`-`r15`, which the ABI keeps for the caller (the C `main` only returns 0
afterwards), and the exit status, which is always 0.

### The data of the assembly file (`asm.go` 361-475, `codegen.go` 190-318, 387-392), C82

`Gen/Data.lean` has the lines that are not instructions: `tab`, `spacer`, `label`, `taggedInt`, `addr`, `gcMap`, `roSymbol`,
`fnStart`, `flush`, `genNoGc`, the maps of a function and `genTypeInfoTable`.  `Gen/GasData.lean` is
about the assembler only: statements (`;` and line feeds), labels, `.8byte`, `.align`, `.data`, `.text`, `.ascii` with its escapes
(without hexadecimal ones); sections; the places of
labels; little-endian bytes.  Trusted: that GNU as does this, that sections begin at multiples of eight, that the filling of
`.align` has no effect.  Instructions are bytes that are given (C79 is about them).  The file is a sequence of bytes, a character of a
line is one byte; `C82_string` (`Gen/DataText.lean`) follows literals from their spelling (`stringLit`, `flush` of C39) to the objects.  A file is any
list of statements with these lines in it; its labels are assumed different, since the assembler rejects others.  What the
collector reads (`readInts`, `readInfo`, `readTable`, `readHeader` in `Gen/DataTable.lean`) is written from `gc.clara`.  The names
of types and the labels of their descriptions are parameters.

`Gen/DataLabels.lean` has the labels among these lines for C36: which maps a program gets, that `enum_N_tag_K` determines `N` and
`K`, and that no head `struct_` or `enum_` is that of another label.  The names of types are `Ty.asm` of structs and enums with
different names without `$` (`semantic.go` 129-133 rejects a name that is declared twice; `env.%X` and `cl.%X` of closures count
up).

## Plan per property

| Id | Modelled | Proof |
|----|----------|-------|
| C01-C05 | lexer state machine | induction over the remaining input; a token-by-token invariant; lexical grammar given as a separate predicate |
| C06 | producer and consumer as a labelled transition system | invariant over all reachable states, progress, decreasing measure |
| C07 | same lexer | per-class lemma "valid text followed by a space lexes to one token", then induction over the token list |
| C08 | parser as partial functions | definedness bounded by the number of remaining tokens |
| C09 | same parser | invariant "stopped early => error recorded", which fails for `parseExpr`; witness + partial |
| C10, C11 | same parser; separate surface syntax with a renderer | mutual induction over syntax |
| C12 | same parser | invariant on the error list |
| C13-C15, C17 | `MatchesImpl`, `PolyMatch`, `substituteType` on an inductive type language | structural induction; first-order matching soundness/completeness |
| C16 | overload loop | list induction |
| C18 | `findUnboundTypeParameters` + `substituteType` | structural induction; witness for function types |
| C19 | type graph with pointers, fuelled `substituteType` | terminates on acyclic graphs; on a recursive struct no fuel suffices |
| C20 | `AsmName` on strings | unique decodability; collision witnesses |
| C21 | `SymTab` | trace invariant |
| C22 | `isTerminating` with a relational big-step semantics of statements | rule induction |
| C23 | match checking | pigeonhole |
| C24-C26 | lowering functions producing the statements of the code generator | equivalence with a direct semantics of match/for |
| C27 | literal parsing, tagging | arithmetic; witness 2^62 |
| C28 | free-variable walk, environments | induction against textbook free variables; witness `a[i]` |
| C29-C38 | `genExpr`/`genStmt` to instruction lists, `peep.go`, x86-64 subset over `BitVec 64` | compiler correctness by induction on syntax |
| C39 | `stringLit` table, `flush` | invariant; witness raw newline |
| C40 | `GcState` | trace invariant; witness stale root |
| C41 | heap graph, mark and sweep | reachability, induction on unmarked objects |
| C42, C43 | header words and tags as `BitVec` | bit-level extensionality |
| C44 | rooted/unrooted temporaries of code generation | witness + partial |
| C45 | `genTypeInfoTable` | list induction |
| C46-C58 | shallow embeddings of the library functions | refinement / induction |
| C59 | phase pipeline, error propagation of `typeCheck` | induction; witness for ternary |
| C60 | panics of the code generator as events, translation of checked trees | witnesses + partial |
| C61 | lexer | characterisation of the inputs that end in an error token |
| C62 | `typeCheck` | soundness for separate typing rules; witnesses for the strict rules |
| C63 | `typeCheck` | weight of trees that rewrites decrease; outcomes do not depend on fuel |
| C64 | tables of types with copies of structs | witnesses for order and leaked type parameters; invariant of the third loop |
| C65 | the three loops of `processTopLevelTypes` | one description of the tables per loop, composed; types by erasure of copies |
| C66 | the phases in `Sema/Pipeline.lean` | per phase: the parser theorems, tame programs keep types applied as declared, then no panic |
| C67 | `typeCheck` | induction on fuel; a relation on trees that allows only the rewrites of dots |
| C68 | checked trees to machine code | simulation by induction on runs; numbers of variables grow inwards; then C24 and C34 |
| C69 | generated code of `invokeDynamic` and `isClosure` | simulation with unknown registers; the word before the object decides |
| C70 | executions with their pending calls, the walk of `gcMark` | invariant: a chain of frames, one per pending call; depths of the stack from C36 |
| C71 | C70 with the calls of the source | C40 and C41 |
| C72 | machine with a memory of bytes, code of the helpers | computation of straight code; agreement of the two machines |
| C73 | C71 and C41 on one execution | the run is computed by the kernel, the box is not reachable; what variables hold: C71 |
| C74 | `Lib/Files.lean` over any operating system | symbolic execution against the POSIX specification; counterexamples with a system of one file |
| C75 | `describe` on the heap of strings | buffer lemmas of C54, numerals of C52 |
| C76 | `Now` and conversions | arithmetic |
| C77 | C34 for executions without an end | induction on how far the source gets, counting jumps |
| C78 | printing functions with `printf` | formats are parsed by computation, their pieces symbolically; witnesses for NUL bytes and indices of more than 32 bits |
| C79 | text of lines, reader for the assembler | operands one by one, then lines with up to two operands; jump targets from C36; an invariant of the optimiser |
| C80 | allocator on the model of the collector | C41 for the collection, then the new block is linked; stores keep heaps well formed; induction over runs; violated for sizes -16 to -1 |
| C81 | array functions on the allocator | arithmetic of sizes at 63 and 64 bits; violated for lengths -3, -2 and from 2^59 on |
| C82 | lines of data, assembler, sections in memory | reading of each line; places of labels by prefix lengths; words back from bytes; table by induction on the types |
| C83 | loop over `getopt_long`, code of the entry | induction on the arguments; bytes of the frame on the stack; violated by options behind other arguments |
| C84 | C preprocessor on lines | words of a text between other characters; violated by types named `linux` and `unix` |
| C85 | functions of `filepath` on parts of names | `Clean` keeps the file; violated by sources without an extension |
| C86 | shape of accepted trees; replay with a stack | proved |
| C87 | texts can be read in one way | violated by a type parameter with the name of an enumeration |
| C88 | induction over the calls on the writer; C79 for instructions, C82 for maps | |
| C89 | mutual induction over the tree; depth-first lists with depths are injective | └── is not always at the last child |
| C90 | root maps, walk and collector together; concrete execution for the violation | addresses for `#[RawValues]` functions wait where the collector looks |
| C91 | strong induction over the size of the tree; memory as a list of nodes | attributes are not copied |
| C92 | induction over the source, with the calls of the lowered statements beside those of the source; C40; an execution computed by the kernel | false for loops over arrays of pointers |
| C93 | C90; an execution computed by the kernel | false for functions with inexact maps (C40) |
| C94 | induction over the lines for two orders at once | exact conditions; the text section is the same |
| C95 | `Sprintf` on texts without `%` is the identity; the lines have none | instructions and literals are arguments |
| C96 | a check of formats against types of values, sound for all values; table of the calls | false for the empty array literal (`typecheck.go` 542) |
| C97 | `Sprintf` with widths, computed for all texts | false for texts with `%` (`typecheck.go` 930) |
| C98 | induction on runs of the lexer, cases of the errors | false for string literals with newlines (`lex.go` 544) |
