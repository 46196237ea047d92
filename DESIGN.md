# Formal model of perl11/potion in Lean 4: design

## Method
* Everything lives in `/verif/lean/Verif/`. `Model/*` are total, computable Lean functions that follow the C code
  function by function; every definition cites file and lines of `/repo`. `Spec/*` are small specifications that do
  not mention the model's algorithms. `Proof/*` hold invariants and lemmas. `Props/*` hold the property theorems (names
  in `MANIFEST.json`) with concrete cases of their hypotheses next to them.
* Undefined behaviour (out-of-bounds access, signed overflow, division by zero, over-long shift) is a distinct outcome
  (`none` / `stuck`), never a totalised value. Reads that the code does make outside an object yield an arbitrary word.
* Where the C code violates the English property, we prove the negation with a concrete witness (`_refuted`,
  `_counterexample`), and prove the strongest true restriction we found with the suffix `_partial`.
* Loops become structural recursion or recursion with an explicit measure; where the C loop might not end, the model has
  fuel and a theorem states that some fuel suffices (or that none does).
* Histories: for mutable structures the theorems quantify over all sequences of operations from an empty or boot state
  (`List` of operations or an inductive `Run`), by an invariant.

## Trusted base
* Lean 4.33.0 kernel; axioms at most `propext`, `Classical.choice`, `Quot.sound`. No axioms of our own, no compiled
  evaluation (`decide +kernel` is evaluated by the kernel).
* The reading of the C code: nothing of it is executed. Platform: LP64, two's complement, arithmetic `>>` on negative
  longs, GCC bit-field layout (only the 12-bit signed range is used), little endian where byte order matters, default
  build (no `POTION_JIT_TARGET` for the interpreter theorems; the JIT is modelled for integer operators and for instance
  variable access only).
* For the parser: the semantics of greg's generated code (Model/Peg.lean) read from tools/compile.c, not the generated
  C file (syntax.c is produced at build time).
* Abstract, hence universally quantified: hash functions, the random identities of objects, the text conversion and the
  arithmetic of doubles, callbacks, what lies beyond objects in memory, when collections happen.

## What is modelled
| Lean module | code | part |
|---|---|---|
| Word, Number, Op | potion.h, number.c, vm.c, vm-x86.c, opcodes.h, asm.c | tags, integer methods and operators, integer JIT sequences, instruction fields |
| Khash, KhashLayout | khash.h, table.c | hash tables: probing, deletion, in-place rehash, byte layout, Table methods |
| Tuple, Sort, Cmp | table.c, primitive.c | lists: storage, indexing, slices, iteration, reverse, sorting, search, comparison |
| Str, Decimal, Bytes, Intern | string.c, contrib.c, internal.h, asm.c, syntax.y | UTF-8, escapes, numerals, growing buffers, interning |
| Mt | mt19937ar.c | the generator, `rand` |
| Sig, Objects, Can | objmodel.c, internal.c | signature queries, classes, method lookup, instance variables, can, isa?, methods |
| Peg, Syntax, Lower | syntax.y, tools/compile.c | the whole statement grammar, actions included; not the signature grammar used by `potion_sig` |
| Ast, Compile | compile.c | `potion_source_asmb` for literals, locals, assignment, operators, if/elsif/else, while, loop, break, continue, return, functions with plain parameters, captured variables, calls of variables |
| Vm | vm.c | the interpreter loop for immediates, locals, captured variables, jumps, closures, calls of compiled functions, default arguments |
| X86, Jit | vm-x86.c, vm.c `potion_jit_proto` | decoder and executor of the x86-64 instructions used; generation for moves, constants, variables, integer arithmetic, comparisons, tests, jumps, return, prologue and parameters; instance variable lookup |
| Dump | compile.c | bytecode files: writer and reader |
| File | file.c | files over a model of POSIX open/read/write/close, lines of standard input, `Env` |
| Scan | gc.c, gc.h, potion.h | scan of the machine stack on memory as bytes, copying, forwarding pointers |
| Load | load.c | search for a file on the path, dispatch on its extension |
| Show | table.c, lick.c, primitive.c, string.c | `string` of nil, booleans, integers, strings, lists, tables, licks |
| Greg | tools/compile.c, core/syntax.y | code generated for a grammar, the functions it calls, running the actions, consumesInput, character classes |
| PotionGrammar | core/syntax.y | the grammar as a tree (generated by a script from the text) |
| PotionActs | core/syntax.y 61-413 | the actions of the grammar, potion_parse |
| PotionSig | core/syntax.y 353-378, 438-465 | potion_sig |
| CompileAll | compile.c | the whole compiler: every kind of node, signatures, named arguments, classes, extern, licks, tables, paths, queries; not DEBUG instructions; C70 proves that it agrees with Compile and Lower on their programs |
| Cont | callcc.c, gc.c | saving and resuming the machine stack (inline assembly), copying of continuations |
| Call | vm.c, internal.c, potion.h | CALL of functions written in C with defaults; potion_call; potion_vm_proto, the entry from C into compiled code |
| Cli | potion.c | options, what main goes on to do, potion_cmd_exec over a map of files; not the output of -V, the interactive loop, --compile=target |
| Double, Mixed | number.c, vm.c 369-440, 749-790 | text of doubles, mixed arithmetic, comparison and conversion; sprintf is modelled exactly, the FPU, strtod and pow are parameters (assumed correctly rounding, pow: nothing); sqrt and rand are not in it |
| Send | vm.c 596-951 | the interpreter loop over abstract objects: MOVE, LOADK, LOADPN, SELF, GETLOCAL, SETLOCAL, NEWTUPLE, SETTUPLE, SETTABLE, GETTUPLE, GETTABLE, NEWLICK, CALLSET, GETPATH, SETPATH, GLOBAL, DEF, operators, BIND, MSG, TEST, jumps, CALL, RET; method lookup, running a method, arithmetic and storage are parameters |
| Literal | vm.c 725-743, table.c 47-76, 119-129, 152-155, 310-321, lick.c 12-54 | lists, tables and licks in memory as an instance of Send |
| Can | objmodel.c 430-443, 551-561, 624-630 | can, isa?, methods |
| TreeText | ast.c 12-26, 64-90, 103-145 | the text of trees of programs |
| SigShow | compile.c 60-94, objmodel.c 52-60 | the text of signatures and functions |
| Buffile | lib/buffile.c 36-50, 129-235 | buffered files over streams of the C library |
| Clone | compile.c 1080-1112; potion.h 454-471, 781-786 | the clone of a function |
| Listing | compile.c 28-43, 98-182 | the listing of a compiled function |
| Gc, Heap, Alloc | gc.c, gc.h, potion.h, table.c, objmodel.c | minor and full collections, store list, forwarding, mutator steps, bump allocation and region growth |

Not modelled: generated code for calls, closures, tables and doubles (vm-x86.c), vm-ppc.c, vm-arm.c,
classes from bytecode, calls that overflow the interpreter's stack segment, aio, readline, FFI, the p2 (Perl) syntax, the other files of `lib`.

## Per property
| id | property | status | model and proof | scope and exceptions |
|----|----------|--------|-----------------|----------------------|
| C01 | Integers survive boxing | proved | Word: tag macros on 64-bit words; bit-vector lemmas through integer arithmetic | all 63-bit integers and all 64-bit words |
| C02 | Integer methods compute exact arithmetic modulo 2^63 | proved | Number: number methods, undefined behaviour is `none`; characterisation by balanced remainder | all operand pairs; undefined pairs characterised exactly |
| C03 | Script operators + - * never silently wrap | proved | Number: interpreter operators with overflow test; case split on range | +,-,* proved never to wrap; / wraps for the single overflowing quotient (counterexample theorem, outside the claim) |
| C04 | Integer comparison operators agree with numeric order | partial | Number: comparisons of the interpreter (unsigned words) and of the JIT (signed words) | true of the JIT; false of the interpreter (refuted with -1 < 0), exact characterisation and same-sign partial proved |
| C05 | A Table is a finite map over any history | proved | Khash: get/put/del/resize generic in key, value, hash; representation invariant, refinement to a finite map over all histories | any key type, hash function and history |
| C06 | Table length and enumeration match its contents | proved | Khash: corollary of the invariant | any history |
| C07 | Table operations always terminate | proved | Khash: probe loops with fuel; a free bucket always exists, so the probe sequence ends | any history; probe loops need at most n_buckets rounds |
| C08 | Growing a Table loses and duplicates nothing | proved | Khash: in-place rehash with its kick-out chains; invariant on the partly moved table | any table reachable by a history |
| C09 | Table storage cells never overlap | proved | KhashLayout: offsets and packed flags; arithmetic | any pair size and bucket count; 32-bit wrap excluded up to 2^27 buckets; an out-of-bounds read of the temporary flag array in kh_resize is recorded as a finding |
| C10 | Tuple push/pop/shift/unshift behave as a sequence | partial | Tuple: block of words with capacity and length; refinement to lists over all histories | any history from a list with capacity >= 1 that never pops/shifts an empty list; push onto a zero-capacity block (list(0), clone of ()) and pop/shift of an empty list refuted (out of bounds / length wraps) |
| C11 | Tuple indexing | partial | Tuple | at proved for every index >= -length and put inside/at end; below -length refuted (wild access) |
| C12 | Tuple slice | partial | Tuple | proved when both bounds lie in the list; reads outside for bounds beyond the list refuted |
| C13 | Tuple remove and delete | partial | Tuple | proved for indices inside the list; an index outside removes the last element (refuted) |
| C14 | Reverse | proved | Sort | every list |
| C15 | Binary search | partial | Sort: loop invariant | proved for every non-empty list ordered by identity hash (and numeric order below 1024); empty list reads out of bounds and numeric order above 1023 fails (refuted) |
| C16 | Sorting is a permutation in order | partial | Sort: partition and insertion loops; permutation invariant, order by strong induction | permutation proved for every mode; order proved for sort(true)/sort(false) on non-negative integers and short ins_sort; refuted: empty list, negative numbers, default mode; with a block the order is descending |
| C17 | Equal strings are the same object | partial | Intern: string table over all creation histories | any history of NUL-free creations with any constructors; format does not intern and embedded NULs are lost (refuted); collections are C34 |
| C18 | String length counts UTF-8 characters | proved | Str: word-at-a-time counting, with alignment; invariant on the accumulated count | every byte string, address (alignment) and surrounding memory |
| C19 | Character indexing and slicing of strings | partial | Str | at proved for -length <= i < length; slice proved for bounds of equal sign in order and start >= 0 > end in order; slice(-k), end < start and at(length) refuted |
| C20 | Unicode escapes encode the code point | partial | Str: encoder, DFA decoder | all scalar values except C0, C1, 7FF, FFFF (\\U) and 10FFFF, which are refuted; ord round trip proved for every accepted escape |
| C21 | Decimal literals and number parsing | proved | Decimal: induction on digits | literals of any length (exact below 2^62, modulo 2^63 beyond), number for up to nine digits, string for all integers; ten digits become a double (shown) |
| C22 | Appending to Bytes never overruns and concatenates | proved | Bytes: invariant over histories | any history of appends, self-appends and formatted writes below 2 GiB |
| C23 | Compiled code survives dump and load | partial | Dump: writer and reader; round trip by induction on the function tree, bytes left over threaded | every function tree with at most 255 elements per list and at most 8200 bytes, constants that are immediates, strings or doubles whose text reads back as the same double (see C76; the conversions are parameters) and is not followed by bytes that look like more digits; 256 constants (C23_refuted), larger dumps (C23_size, C23_refuted_size) and 1.5 followed by a constant of 18 characters or the integer 1048600 (C23_refuted_double: strtod reads on into the next constant) fail |
| C24 | Instruction fields | proved | Op | all operands; immediates characterised exactly; silent truncation outside the range recorded |
| C25 | Compiled expressions compute what the source says | partial | Compile, Vm, Ast: simulation of evaluation by the interpreter, induction on the program | every well-scoped expression over integers, booleans, nil, locals, assignment, ++/--, seven arithmetic operators, comparisons, ==, not, ~, and, or, parenthesised operands; code up to 2048 instructions and 255 registers; order comparison of operands of different sign is refuted (C25_refuted), so the theorem claims same-sign comparisons only |
| C26 | Control flow | partial | as C25, with jumps, loops and back-patching | every well-scoped program with if/elsif/else, while, loop, break, continue, return whose non-final branches keep the condition register (guarded); nested if, while or ==nil in a branch before else runs both branches (refuted) |
| C27 | Method lookup follows the inheritance chain | proved | Objects: invariant over definition histories | every history of class creation and method definition; instances and classes as receivers; user-defined lookup methods (which replace the mechanism) excluded and shown to matter (C27_custom_lookup) |
| C28 | Every class has its own type id and layout | partial | Objects | distinct types, slots for all own and inherited variables, independence of variables whose random 32-bit identities differ (C28_refuted_uniq: names sharing an identity share the slot, and such names exist for every assignment); types made with delegated collide with their metaclass (C28_refuted); the lookup function generated by the JIT is proved on its machine code (C28_lookup_code); the fallback used without JIT is not modelled |
| C29 | Signatures determine arity | partial | Sig: induction on signatures | arity, lookup by position and name for every declared signature whose defaults are not the integer 58 (refuted otherwise, C29_refuted); minargs for every signature; lookup by name if no default is a string (C29_refuted_find) |
| C30 | Integer iteration | partial | Number: loops with budget | times, to and positive step proved; non-positive step refuted (does not terminate) |
| C31 | The random generator is the Mersenne Twister | proved | Mt: in-place state update against the recurrence | every interleaving of seeding, drawing and object creation (every allocation consumes one output) |
| C32 | Garbage collection preserves the program's data | partial | Gc, Heap: Cheney copy; invariant = partial isomorphism between old and new heap; observation = paths from the roots | every history of the modelled mutator steps from boot, full collections: everything reachable survives with the same contents and sharing, and no program can tell; error objects (truncated to 16 bytes on copy) and closure/prototype names (never updated) are excluded and refuted |
| C33 | Minor collections respect the write barrier | partial | Gc, Heap: minor collection with store list; invariant over histories | minor collections after any history in which every write to an old object is recorded in the store list; list/table methods called through a forwarded reference record the wrong cell (C33_refuted_forwarded), table map records late (C33_refuted_map) |
| C34 | Live strings stay interned across collections | partial | Gc, Heap: string table across collections | full collections for every history; minor collections for interned strings reachable without the store list; refuted in general (C34_refuted: minor collections sweep the string table before tracing) |
| C35 | Allocation returns fresh, aligned memory | partial | Alloc: bump allocator, store list, region growth; invariant over histories | every history of allocations, touches, collections; requests below 256 MB (C35_refuted beyond), at most 1000 live continuations |
| C36 | Reallocated objects stay reachable through old references | proved | Heap: forwarding chains | every heap and reference: following forwarding pointers |
| C37 | Instruction buffers grow correctly | proved | Bytes | any sequence of emissions; reading the buffer as a C string at exact capacity runs past its end (finding) |
| C38 | List comparison is lexicographic | partial | Cmp | refuted (only first elements and lengths count; raw C integers returned); exact behaviour proved for all integer lists |
| C39 | Table clone and slice | proved | Khash | any history |
| C40 | Lists convert to tables by index | proved | Tuple, Khash | lists up to 2^62 elements, any hash function |
| C41 | Higher-order list methods | proved | Tuple: callbacks with state | any list and callbacks with arbitrary state |
| C42 | Function calls have fresh locals | partial | Vm: frames, calls, captured variables | argument, receiver and captured variable binding proved for every reachable call of a well-formed program (no default values); that other locals start unset is refuted (C42_refuted) |
| C43 | JIT and interpreter agree on integer operators | partial | Number: the JIT operator sequences against the interpreter | +,-,* and unary operators agree modulo 2^63; agreement beyond overflow refuted |
| C44 | Table filter | partial | Khash | refuted (deletes by the original bucket numbers); proved: result is always a subset of the receiver, and exact when the clone has the same layout |
| C45 | Table storage is bounded by its contents | partial | Khash | refuted in general: churn with at most one live key grows the table without bound; proved for histories of puts |
| C46 | Reading and cloning Bytes | partial | Bytes | reading proved for every buffer and index; clone refuted (contents not copied) |
| C47 | n rand is a random fraction | partial | Mt | refuted for every state: always the integer 0 |
| C48 | A call leaves its caller's frame alone | partial | Vm: frame invariant over all reachable states | every reachable call in every well-formed program without default parameter values; with defaults and recursion it is refuted (C48_refuted) |
| C49 | subclass? agrees with the class hierarchy | partial | Objects | every heap object, class and history; integers, booleans and nil are refuted (C49_refuted) |
| C50 | Converting a list to a table converts it for every reference | partial | Heap | every heap in which the list is not itself reached through a forwarding cell; refuted through a forwarding pointer (C50_refuted) |
| C51 | Parsing respects precedence and associativity | partial | Peg, Syntax: parsing expression semantics; induction on derivations of a context free specification, with follow sets | every text generated by the grammar of Spec/Syntax.lean (all operators except `||`, `|` and `:=`, decimal, hexadecimal and floating point numbers, strings in single and double quotes with all escapes, names, paths, queries, messages with literal (also negative) and listed arguments, lists, functions, blocks, comments); operators followed by white space; refuted for `x-1` (C51_refuted_minus), names beginning with extern (C51_refuted_extern), `||` and `|` in a block (C51_refuted_pipe) |
| C52 | Parsing ends | proved | Peg, Syntax: rank and nullability argument, well-founded induction on input length | every byte sequence; every rule of syntax.y except the signature grammar, greg semantics of Model/Peg.lean |
| C53 | Running a text gives the value of the program it denotes | partial | Lower, Compile, Vm: composition of C51 and C26 | every layout (elsif and else also on lines of their own) of every well-scoped program of the fragment of C54, with functions and calls, under the restrictions of C54 |
| C54 | Functions, closures and calls | partial | Compile, Vm: simulation as C26 with a relation between places and stack words or shared cells that is kept by nested calls (CompileSim, CompileCall) | every well-scoped program of the fragment of C26 with functions of plain parameters, nested functions, captured variables (shared, outliving the call) and calls of variables, recursion up to the depth for which one stack segment has room; functions introduce no variables of their own (refuted otherwise: C54_refuted), branches before else are guarded (C54_refuted_else), comparisons of the same sign |
| C55 | Adding and comparing strings | partial | Intern, Str: the interning invariant of C17 extended to additions; strcmp over an arbitrary memory by induction; UTF-8 order by cases on encoding lengths | every sequence of creations and additions and every pair of NUL-free strings; with an embedded NUL `+` loses text (C55_add_nul_refuted); collections between are C34 |
| C56 | Files hold what was written to them | partial | File: descriptor table and files of the operating system; invariant that open Files have distinct descriptors; induction over histories | every history of opening, closing, reading and writing strings, every short transfer and error, POSIX files as modelled; integers and Bytes are written wrongly (C56_refuted_int, C56_refuted_bytes), a read of 0 bytes looks like the end (C56_refuted_read0); File fd(n) and negative sizes are not modelled |
| C57 | Standard input and the environment | partial | File: fgets by induction over the input; Env by the table theorems of C05 | every NUL-free input (C57_refuted_nul otherwise) and every environment whose entries contain = |
| C58 | Generated machine code does what the interpreter does | partial | X86, Jit: a decoder and an executor for the x86-64 bytes; every emitted unit is proved by running it symbolically (JitUnit, JitOps), the layout with patched jumps by induction over the generator (JitLayout), then a simulation of interpreter steps by machine steps (JitSim, JitStep, JitEntry, JitMain) | functions whose inner functions capture nothing, made of the instructions MOVE LOADK LOADPN SELF GET/SETLOCAL GET/SETUPVAL ADD SUB MULT DIV REM EQ NEQ LT LTE GT GTE BITN NOT TEST JMP TESTJMP NOTJMP RETURN 0, at most 1024 of them; every size, every control flow, terminating or not. DIV and REM for operands of 31 bits with a non-negative result (what the machine code does otherwise: C58_division_is_32_bit). CALL, PROTO, tables, shifts and doubles are not covered. The full claim is refuted where Simple and Tame exclude a case: see the counterexamples |
| C59 | Running a text in the default mode gives the value of the program | partial | C53, C26 and C58 composed: the simulation of C26 carries that every step is one machine code does alike (CompileSim Mild), compiled code is shown to meet C58 (NativeCode) | programs without functions, calls and shifts, return only as a statement, order comparisons not in registers 16 to 31, at most 1023 instructions; operands as C58 (same sign, no overflow, 31-bit division with non-negative result), assigned variables only; no if/while/== nil in a branch followed by else (C26). The restrictions are needed: C59_refuted, C58 and C26 counterexamples |
| C60 | Continuations resume where they were made | partial | Cont: the assembly of yield on the machine of X86, its copy loop by induction; what here saves, and that only the object and the stack change; histories by induction | x86-64; the inline assembly is executed instruction by instruction, the code the C compiler makes around it is not modelled (callee-saved registers are those in the body of here, its return is leave; ret). The full claim is refuted across collections: the collector copies five words too few (C60_refuted_moved, C60_refuted) |
| C61 | The values on the machine stack are the roots | partial | Scan: memory as bytes; simulation of updList (Gc) by the loop over the words, by induction over the stack; composed with C32 and C33 | memory as bytes, every stack contents; for words that are references, words outside the collector memory, and words inside it that do not look like the header of an object. The full claim is refuted for integers: C61_refuted. The size of an object is a given function of its address; room for all copies is assumed; how the objects are laid out in bytes is a parameter (W) of the theorem; the objects reached from the stack are handled on cells (C32, C33) |
| C62 | load finds and runs the first file on the path | partial | Load: search as the C code does it on strings with NUL, against the list of candidates (Spec/Load), by induction over the path; bytecode files through C23 | names without a dot; with slashes if nothing is to be found under the last component with an extension; directories of shared objects without a dot. The full claim is refuted: bytecode files are never run, names with a dot are overwritten, extensions are lost, Potion_Init_ gets a wrong name, a block is one byte too small (C62_refuted_*). File system fixed during the call, all files readable; what running a text does: C53, C59 |
| C63 | The text of a value, and reading it back | partial | Show: mutual induction over values; buffers of Model/Bytes, numerals of Model/Decimal; reading back through the grammar of Spec/Syntax (C49) | text: every value without cycles, strings without NUL, text below 2 GiB, built-in string methods. Reading back and uniqueness: nil, booleans, integers but the smallest, and lists of these, nested. Refuted for strings and the empty table (ambiguous, C63_refuted_string) and the smallest integer (C63_refuted_smallest) |
| C64 | A generated parser does what its grammar says | partial | Greg: compiler from expressions to statements with labels and jumps, executed with fuel; forward simulation from Eval by induction over the derivation, converse by induction over the fuel (code that returns has a derivation); the potion grammar is compared with Model/Syntax by normal forms checked by the kernel | grammars given as trees (potion grammar transcribed mechanically, Model/PotionGrammar); inputs below 16384 bytes; 7-bit one-character literals, well-formed classes; conditions look at the marked text only. Refuted: characters above 127 (C64_refuted_char), text from failed alternatives (C64_refuted_text). That the tree of an accepted potion program is the one of C51 is proved for the parser model of Model/Syntax, whose set of accepted texts is proved the same (C64_potion); the actions of syntax.y themselves are a parameter here |
| C65 | A generated parser returns and stays inside its arrays | partial | Greg: eval_total by induction over remaining input, rank and expression, then the simulation of C64; potion by a checker run in the kernel (no sampling: it inspects the grammar) | inputs below 16384 bytes: from there on one byte is written past the buffer (C65_refuted_buffer); rules without actions that assign from rules without variables can overflow the values (C65_refuted_values), potion has none that matters |
| C66 | greg's own checks and character classes are right | partial | Greg: induction over class texts; over derivations; over ranks | classes without \\- and without octal above \\377 (C66_refuted_dash, C66_refuted_octal); no false alarm; but left recursion behind ?, *, & and ! and empty repetition are not found (C66_refuted_recursion, C66_refuted_repetition) |
| C67 | Parsing a program gives its tree | partial | PotionActs: the 129 actions as functions on trees; for every rule, the events of a derivation run from any state leave the tree of the parsing expression in $$ (induction over the nesting of Model/Peg, the derivation of greg being inverted rule by rule; expressions are matched by compositional lemmas Same); then C64, C65, C51, C53 | texts below 16384 bytes; every text: syntax errors, and the tree up to what is not determined (parameters of a function without a parameter list, arguments of extern, strings with refused escapes, whose YY_ERROR ends the process); texts of Spec/Syntax.lean: exactly the tree. Refuted: a function without parameter list takes over a stale value (C67_refuted_function), nested extern (C67_refuted_extern). No line numbers; tuples are values. Running as C53 |
| C68 | The text of a signature declares its parameters | partial | PotionSig: the rule sig and its actions; relations Does (what a match of an expression reads and what its actions do) and Miss, composed rule by rule; induction over the texts of Spec/SigText; then C64, C65 and, for the queries, C29 | texts below 16384 bytes; names of ASCII letters, digits, _, $, @, defaults nil, true, false and numbers; C68_queries_partial leaves out the default 58 (C29). Refuted: a default that is a string ends the process (C68_refuted_string), a type of more than one letter declares a further parameter (C68_refuted_type) |
| C69 | Compiled code stays inside its function's frame | partial | CompileAll: the whole of compile.c with open recursion; an invariant of the function being built (every instruction inside the frame so far, upvalues linked to the functions around, pending jumps of the loop), kept by every construct with registers promised and then raised; induction on the depth; Spec/Bytecode gives what each instruction touches from vm.c | every kind of node of the compiler; functions whose sizes fit 12-bit operands and 8-bit registers. Refuted for an operator with () on its right, a class with a body and ?x = e (C69_refuted): there one register or position too far, never more (C69_inside_any). The stub of extern is left out, as are the register NAMED stores into and the element GETTUPLE reads, which depend on values. Further: a string literal of 33 bytes crashes the compiler (C69_33_refuted), a[2000] reads another element (C69_index_refuted); the 1025th break of a loop is stored behind an array (C69_refuted_breaks) |
| C70 | The code proved safe is the code proved right | partial | a relation between the states of the two models of the compiler (fields equal, instructions equal under the translation of opcodes, frames of the enclosing functions), kept by every construct; induction on the size of the tree; then C51, C54 | programs without an operator with () on its right, where the compiler reserves one register less than the model of C53 and C54 (C70_refuted); C70_run_partial also as C53_run_partial |
| C71 | Built-in functions get the arguments and the declared defaults | partial | Model/Call.lean: CALL of closures that are not compiled code, as vm.c:803-830 (sig_check, the loop that fills in defaults, the 12-bit operand), and potion_call with its sixteen cases. Values are signature elements; registers are a function with a bound. Proof: the loop stores the list of defaults after the arguments (induction on it, with C29 for the lookup), then the cases of potion_call. | Proved for functions of at most fourteen parameters when every omitted parameter has a default or a type (for registers below 2048 and inside the stack); refusals, potion_call and functions without signature in full. Refuted otherwise: a function of fifteen or more parameters is never called, the answer is nil (for every such signature); omitting a parameter with neither type nor default reads outside a list of one element. |
| C72 | Compiled functions called from C get the arguments they were called with | partial | Model/Call.lean: potion_vm_proto over an arbitrary stream of variadic words; addresses of strings, bounds of the young generation and types of objects are parameters. Proof: case split on the kind of each parameter, with C29 for the lookup. | Proved when optional arguments are of the declared type and are not taken for foreign pointers, and self is not one of the words below 10. Refuted: nil, false, true and the integers 0 to 4 as self become nil; negative integers for optional parameters are replaced by the default; if fewer arguments are passed and the number is not told, parameters without type are whatever the stack holds (a block of two parameters run by a method that passes one). |
| C73 | The command line selects the program, its arguments and the mode | partial | Model/Cli.lean: the loop over the options as a function of the argument list, a null or out-of-bounds access is an outcome. Spec/Cli.lean: options as a data type with spellings and meanings. Proof: one step lemma per option, then induction on the options for each component of the state. | every argument vector is covered (C73_complete). The file, code, show and no-file forms are proved for at most one module option, which comes before -e. Refuted: of two modules only the last is loaded; modules after -e are not; -Ldir and --debug=module as in the usage text are not recognised; with -e and the program in two arguments the program is also scanned as an option (C73_refuted_dash) or is an argument of itself (C73_separate_partial); -e or -L at the end and --debug= access memory outside of the arguments |
| C74 | Compiling a file and running the result is running the file | partial | Model/Cli.lean: potion_cmd_exec over a map from names to contents, with parser and compiler as a parameter and the bytecode writer and reader of Model/Dump.lean. From C73 and C23. | C74_run and C74_check in full for options without -e and modules; C74_compile_partial for functions that bytecode can store (C23), names of at most 253 bytes, no modules. What a text compiles to is an arbitrary function. Refuted: longer names overrun a buffer; with -M or -d bytecode is parsed as text; the exit status is 0 after errors; the file written by -c -e is an option |
| C75 | Integers and floating point numbers calculate together | partial | Model/Mixed.lean: the operators on tagged words and doubles (Model/Double.lean), the floating point unit as a parameter; Spec/Mixed.lean: it rounds to a nearest double. Proof: doubles as rationals; for % that a rounded quotient does not reach the next integer (the double before it is nearer); existence of a nearest double from finiteness. | Arithmetic, comparison, type errors, double and abs in full for finite doubles, any correctly rounding FPU (its existence is proved) and results below 2^1023. % for whole numbers below 2^53 with a quotient that fits an int; integer from 0 to 2^62; == for two numbers of the same kind. Refuted: 1 == 1.0 is false; integers beyond 2^53 are rounded before they are compared; % with a larger quotient and integer of negative numbers are undefined; shifts give 0.0; ** and <=> of doubles in the interpreter depend on addresses; cmp of a double reads a null pointer, cmp with a double compares with 0 |
| C76 | The text of a floating point number | partial | Model/Double.lean: sprintf("%.16f") as exact rounding of m*2^e*10^16, the loop that drops zeros, the buffer. Proof: error of the rounding in the rationals; reading back because doubles from one half on are multiples of 2^-53, which is more than 10^-16, and one half itself is exact. | The form and error of the text and the buffer bound (exactly the numbers between -10^21 and 10^22) in full. Reading back for numbers of at least one half in magnitude, or with at most 16 decimals. Refuted: below one half different doubles have the same text (0.1 and its successor), 2^-60 prints as 0.0, 10^22 and -10^21 overrun the buffer of 40 bytes |
| C77 | A message is sent to the value before it | partial | Model/Send.lean: the loop of the interpreter over abstract values, with lookup, calls and operators as parameters, run on the code of Model/CompileAll.lean. Spec/Send.lean: expressions as a data type, their trees, and their meaning in a state monad without registers. Proof: each node emits code that, wherever it is embedded, does the computation and leaves the registers below its own alone; induction over expressions. Statements (Spec/Stmt.lean): meaning as a relation between start and end, with an inductive relation for loops; code meets a relation if it ends whenever and as the relation says, and otherwise runs at least k instructions for every k. Statements may end by a jump; the jumps of break and continue are listed while they are emitted and filled in at the end of the loop: what a statement emits is said for every code that contains it with these jumps filled in. | Literals, lists and tables, licks, elements (x[3], x[k], x["k"]), variables, messages, calls, queries, fields, global names, method definitions, x(...) = e, ++ and --, operators, and/or/not, to any depth (C77_run); with if, elsif, else, while, loop, break, continue and return, nested, ending or not (C77_statements; a branch before an else or elsif may only contain jumps, literals, variables and assignments of them: C77_refuted_else; up to 1024 breaks and continues in a loop: C69_refuted_breaks); in code that fits its fields (2048 instructions and constants, 256 registers). Not in it: blocks, classes, named arguments, conditional assignments. Methods, lookup and arithmetic are parameters. Refuted: what is sent to a list in an operand is not sent (C77_refuted_operand), the value of an assignment to a field is the object (C77_refuted_assign), ?x = e does not assign (C77_refuted_default), | & ^ are compiled to nothing (C77_refuted_bits), x[1024] is x[1] (C77_refuted_index), a lick that is only a value has a piece of the syntax tree as its name (C77_refuted_lick), /y(1) = e reads a field of a string named by an unset register (C77_refuted_setcall). A message without arguments passes one argument, nil |
| C78 | A value written down in a program is that value | partial | Model/Literal.lean: a heap of lists, tables and licks as an instance of the abstract world of C77, all other operations arbitrary; Spec/Literal.lean: which object is which value (Rep), which expression (Writes) and which text (Spells) writes a value down. Proof: C77_run gives the evaluation; induction over the expression, with the object under construction set apart from the rest of the memory (its parts are made of objects after it); texts by the grammar of C51. | nil, booleans, numbers that are not negative, strings of other than 33 bytes, lists, tables with distinct names as keys (C78_put for any later key), elements before them, licks; in code that fits its fields. Texts with any layout for all but licks (C78_text), licks from their tree (C78_run); the parser of C51, which C67 shows to be the generated one. Tables are finite maps (C05), nothing is freed or moved (C32-C36). Refuted: (k=1, 2) pushes 2 onto a table as if it were a list (C78_refuted_mixed). Not covered: negative and floating point numbers inside, indexes from 1024 on (C77_refuted_index) |
| C79 | What can, isa? and methods say about an object | proved | Model/Can.lean on top of Model/Objects.lean. Proof: the search of potion_bind is the nearest class with the method (C27), which exists exactly if the history has a definition on the chain; types of classes are distinct (C28). | All histories of classes made and methods defined. isa? is of the very class: a value of a class made from C is not isa?(C) (C79_refuted_isa), although subclass?(C) is true. A class with its own lookup method answers for itself (C79_custom_lookup; LookupKept). Same model as C27, C28, C49. |
| C80 | The text of the tree of a program | partial | Model/TreeText.lean: potion_source_string over the buffers of Model/Bytes.lean, with the read of the length through a forwarded reference; Spec/TreeText.lean: the text by recursion on the tree. Proof: besides its contents, the invariant of a buffer says that it has its first size exactly if the text fits into that; induction over the tree. | Every tree whose text is below 2 GiB and no longer than the low half of the address a buffer is moved to (else a nil may cut the text elsewhere); other values by their texts (C63, C76); strings without NUL. Refuted: nil operands at the end are left out only if the text of the node before them has at most 14 characters, because the length of a buffer that was moved is read from its forwarding pointer (C80_refuted_nil; C80_text is the exact text); quotes in strings are not escaped, so different trees have one text (C80_refuted_quote) |
| C81 | The text of a signature, and of a function | partial | Model/SigShow.lean: the loop of potion_sig_string with its flags over the elements of Model/Sig.lean, and potion_closure_string; Spec/SigBack.lean: the text by recursion on the declarations, and the layout of declarations. Proof: what one element adds, induction on the declarations with the comma flag as invariant; the text is one of those of Spec/SigText.lean, so that C68 reads it back. | Every signature without modifiers whose types are letters and whose defaults are nil, true, false or integers the low half of which is not the code of . : or |, in the layout of the grammar; texts shorter than the buffer of the parser, of functions below 2 GiB. Refuted (C81_refuted): a parameter with a modifier is shown as `x,nil=-`, a default 46 as a dot, `x...` as `x.` |
| C82 | The listing of a function | partial | Model/Listing.lean: potion_proto_string over the buffers of Model/Bytes.lean, with the table of names and operand counts indexed by the opcode; Spec/Listing.lean: the lines by recursion on the function. Proof: every part appends its text to what the buffer holds (closed under composition), induction over nested functions and instructions; C82_jump against the step of Model/Vm.lean. | Every function whose signature has a text as in C81 (no modifiers), whose instructions name constants and variables that exist and whose listing is below 2 GiB; constants by their texts (C63, C76); the formats of libc (decimal numbers, padding) are written out, log10 without rounding. C82_jump: for jumps inside the code. C82_columns: all numbers have one width unless the number of instructions is a power of ten (C82_refuted_columns: ten instructions) |
| C83 | The clone of a function | partial | Model/Clone.lean: potion_proto_clone over the method lookup of Model/Objects.lean, for arbitrary values; the proof uses C27_nearest for the string that receives the tuple as a message. The history of the program (Runs) is arbitrary. | C83_shares_partial: what a clone shares. The rest of the claim is false, for every function: C83_refuted_nil (all tables of the clone are nil), C83_refuted_copy (none is a copy) and C83_copy_only (a copy needs a method of strings named by the tuple). What methods do is an arbitrary function; the machine code pointer and the cached number of arguments are not modelled. |
| C84 | Buffered files | partial | Model/Buffile.lean: the methods over streams (bytes, position, end-of-file indicator) that behave as ISO C says; lines reuse the proof of C57_lines, lengths of strings C18_length. | Proved for every content, position and text: C84_bytes, C84_eof, C84_lines_partial (no NUL bytes), C84_write_bytes, C84_write_ascii, C84_fputs, C84_fputc, C84_write_items, C84_read_items, C84_read_back, C84_open (the six modes), C84_seek. False: C84_refuted_write (every string with a character of more than one byte is cut off), C84_refuted_empty, C84_refuted_short, C84_refuted_outside, C84_refuted_write_outside, C84_refuted_fputs, C84_refuted_line, C84_refuted_nul. Streams are those of ISO C; buffering delays, fdopen, freopen, fmemopen, tmpfile, unlink and locking are not modelled. |

## Findings (code that violates the stated property; each has a theorem unless marked *)
* Integers: `<`, `<=`, `>`, `>=` in the interpreter compare tagged words as unsigned, so -1 < 0 is false (C04, C25).
  `/` wraps for the one overflowing quotient (C03). The JIT wraps where the interpreter makes a double (C43). Generated code divides and shifts in 32 bits:
  -7 / 2 is 2147483645 and 5 / 2^32 kills the process (C58_division_counterexample).
  `step` with a non-positive step never ends (C30). `rand` on a number is always 0 (C47).
* Lists: push onto a zero-capacity list, pop and shift of an empty one, indices below -length, slices beyond the list, and
  remove outside the list access or corrupt memory (C10-C13). `bsearch` on an empty list reads outside; numeric order
  beyond 1023 is not the order searched (C15). `sort` fails on the empty list, on negative numbers and in default mode
  (C16). Comparison looks at the first elements and lengths only (C38).
* Tables: `filter` deletes by the bucket numbers of another layout (C44); churn grows storage without bound (C45);
  `kh_resize` reads outside its temporary flag array (C09).
* Files: `write` of an integer n writes the bytes of 4n+3, of n Bytes 2n+1 bytes; `read(0)` answers nil; `print` hides
  short writes; a NUL in a line of standard input hides the rest of the line (C56, C57).
* Strings: `format` does not intern, embedded NULs are lost (C17); `slice` with a negative start only, reversed bounds and
  `at(length)` (C19); escapes for C0, C1, 7FF, FFFF, 10FFFF are rejected or mis-encoded (C20); Bytes `clone` copies nothing (C46).
* Numbers: `1 == 1.0` is false; `**` and `<=>` of doubles in the interpreter use the addresses of the doubles; `cmp` of a double reads a null pointer and `1 cmp(1.5)` is 1, as `potion_send(PN_number, n)` has receiver and message exchanged; `%` of doubles with a quotient beyond 2^31 and `integer` of negative doubles are undefined in C (C75). `string` of doubles beyond 10^22 or -10^21 overruns a buffer of 40 bytes, and of doubles below one half loses digits (C76).
* Bytecode files: a double followed by what looks like digits is read wrongly, since strtod is not told where its text ends (C23).
* Bytecode files: more than 255 elements in a list and dumps beyond 8200 bytes are corrupt (C23). Operands outside 12 bits
  are truncated silently (C24).
* The text of a value: strings are not quoted, so `(1, 2)` is the text of a list and of a string; an empty table prints as an empty list; the smallest integer does not read back as itself (C63). A list that contains itself makes `string` recurse without end*. `cmp` of nil and booleans answers raw C integers, not values*.
* `clone` of a function: receiver and message are exchanged, so the constants, nested functions, variables, paths and signature of the clone are nil (C83_refuted_nil); the interpreter then reads the length of nil*.
* Buffered files: `write` of a string writes as many bytes as the string has characters (C84_refuted_write); writing nothing is an error; short reads are errors; `fread` overruns a small buffer; `fputs` answers -1 on failure since it tests for 0.
* The listing of 10, 100, .. instructions is not in columns: the width is `ceil(log10(n))` (C82_refuted_columns).
* The text of a signature shows a parameter with a modifier, `-x`, as `x,nil=-`, a default 46 as a dot (also any default the low 32 bits of which are 46) and `x...` as `x.` (C81_refuted).
* The text of a tree: nil at the end of a node is left out only while the text is short: after the buffer has moved its length is read from the forwarding pointer (C80).
* greg: an input of 16384 bytes or more makes `YY_INPUT` write one byte past the buffer (C65). Literals of one character above 127 never match; actions may get
  text marked in an alternative that failed (C64). Left recursion behind `?`, `*`, `&`, `!` and repetition of the empty text are not reported (C66). `[a\-c]` is a range (C66).
* A function without a parameter list gets as parameters what its variable of the parser's stack holds: after the statement `(a)`, `: 2.` is a function of `a` (C67).
  An `extern` inside the arguments of an `extern` drops the arguments before it (C67).
* `potion_sig` parses without a string buffer: a signature with a string as default, `x:='a'`, writes through a null pointer. `x=Num` is accepted and declares `x` and `um` (C68).
* greg's array of values is allocated with malloc and is not a root of the collector; potion_parse writes a NUL into the source string at byte 80 on a syntax error (not proved).
* Continuations: a collection copies five words too few; a later call fills the base of the stack with other memory (C60).
* load: bytecode files are loaded and never run; a dot in the name is overwritten with NUL in the (interned) string, and the copy is left unterminated; extensions are lost for a/b found as a/b/b.pn; a heap block is one byte too small; Potion_Init_ of the wrong name for directories with a dot (C62).
* An integer on the machine stack that happens to be an address inside a string whose characters there read as the number of a type is replaced by an address, and the string is overwritten (C61).
* Compiler: an `if`, `while` or `== nil` inside a branch followed by `else` runs both branches (C26). Locals of a called
  function keep values of earlier calls (C42); default arguments and recursion overwrite the caller's frame (C48); a variable
  of a called function can overwrite a captured variable of its caller, and a call before `else` runs both branches (C54). A
  loop with more than 1024 `break`s overruns an array (C69_refuted_breaks). `?x = e` on a local is compiled without the store (C77). `^`, `&`
  and `|` have no case in the compiler: they generate no code (C77). Messages after a parenthesised operand are dropped, and the value of an assignment to a field is the object (C77). `x[1024]` is `x[1]`, `[5]` is a lick named by a piece of the syntax tree, and
  `/y(1) = 5` reads a field of the string "y" (C77). `(k=1, 2)` pushes onto a table as if it were a list (C78).
* Signatures: a default equal to the integer 58 or a string default confuses arity and lookup (C29). An optional parameter
  without a type over-reads, a built-in function of fifteen parameters is never called (C71). Called from C, a function loses a small `self` and negative optional arguments (C72).
* Command line (C73, C74): of several -M only the last is loaded, and none named after -e; -Ldir and --debug=module of the usage text are not recognised; the
  program after `-e ` is scanned again as an option or argument; `-e`, `-L` at the end and `--debug=` access memory outside of the arguments; the exit
  status is 0 after errors; -c overruns a buffer for names of 254 bytes; a bytecode file is parsed as text with -M; `-c -e1` writes a file that cannot be
  run by its name. --compile= with an unknown target opens a file of indeterminate name*.
* Classes: types made by delegation collide with their metaclass; two variables with equal random identities share a slot
  (C28); `subclass?` on integers, booleans, nil (C49).
* Collector: errors are truncated to 16 bytes when copied, names of closures and prototypes are not updated (C32); list
  and table methods called through a forwarded reference record the wrong cell (C33_refuted_forwarded), `map` on a table
  writes before recording (C33_refuted_map); minor collections sweep the string table before tracing (C34); requests of
  256 MB or more get memory outside the region (C35); a list turned into a table through a forwarding pointer is converted for
  some references only (C50). `potion_type_new` and `potion_add_metaclass` write references into old objects without
  recording them*; growing `P->vts` beyond 4096 types does not record `P`*; `pass % PERIOD == PERIOD` is never true*;
  a failed page allocation leaves `collecting` set*.
* Parser: `x-1` is a call of `x` with the argument -1 and `1-1` a call of 1 (C51_refuted_minus); a name beginning with `extern` is a
  declaration (C51_refuted_extern); `||` and `|` in a block are syntax errors (C51_refuted_pipe). A closure without
  parameter list takes a stale value of the parser's stack as its signature*. A syntax error reads standard input and
  exits the process*.
* Machine code (the default mode): a false `<`, `<=`, `>`, `>=` in registers 16 to 31 jumps into the middle of an instruction
  (C58_register_16_counterexample); `x = e` on a captured variable cuts the connection to the functions that captured it
  (C58_assignment_unlinks_captured_variable); RETURN ignores its operand; functions of four or more parameters overwrite
  the caller's %rbx; unassigned variables are stack contents; integer overflow wraps; functions of more than 1024
  instructions overrun arrays (C58_*_counterexample). Results of calls go to the wrong slot above register 15*.
* The compiler leaves the frame (C69): `1 + ()` reads a register that is not there; a class with a body puts its function one
  register past the frame (`breg` is shadowed, compile.c:641); `?x = e` on a local stores nothing and, if x is true, jumps over the next
  instruction, past the end if there is none. A string literal of exactly 33 bytes crashes it: PN_PART of a string is its length, and
  AST_LICK is 33 (compile.c:356, C69_33_refuted). `a[2000]` and `a[-1]` read the element numbered like a register (compile.c:383-392,
  C69_index_refuted).
* *Also read in compile.c while modelling it: `a[k]` in a nested function takes a new local k, not the one captured (374-376); a method
  named loop gets its receiver in the wrong register (704, 714); the function of `extern` runs only RETURN in the interpreter (672-695);
  a class without a body is used as a tuple (640); a message argument that is only a block group is dropped; `x|y=o` in a signature
  drops the type.
