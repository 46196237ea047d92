{"id": "C01", "title": "Integers survive boxing", "statement": "A machine integer in the 63-bit range turned into a Potion value and back is the same integer; an integer value is never mistaken for nil, true, false or an object reference, and two integers are the same value exactly when they are numerically equal.", "quantifier": "every integer in [-2^62, 2^62) and every 64-bit word", "why_tests_cant": "2^63 values; boundary values near the tag bit and sign bit cannot be enumerated by tests", "anchors": ["core/potion.h: PN_NUM, PN_INT, PN_IS_INT, PN_IS_BOOL, PN_IS_PTR, PN_IS_NIL, PN_TEST", "core/internal.c: potion_type"]}
{"id": "C02", "title": "Integer methods compute exact arithmetic modulo 2^63", "statement": "The Integer methods +, -, *, /, %, ~, << and >> applied to two integers return the mathematically exact (C truncating) result whenever it fits in 63 bits, and otherwise wrap modulo 2^63; division or remainder by zero, overlong shifts and 64-bit multiplication overflow are the only operand pairs without a defined result.", "quantifier": "all pairs of 63-bit integers and all operators", "why_tests_cant": "2^126 operand pairs; wrap and trap boundaries are exact points", "anchors": ["core/number.c: PN_NUM_MATH, potion_num_add, potion_num_sub, potion_num_mult, potion_num_div, potion_num_rem, potion_num_bitn, potion_num_bitl, potion_num_bitr"]}
{"id": "C03", "title": "Script operators + - * never silently wrap", "statement": "In the bytecode interpreter, a + b, a - b and a * b on two integers yield the exact integer when it fits in 63 bits and otherwise a double computed from the two operands; they never yield a wrapped integer.", "quantifier": "all pairs of 63-bit integers", "why_tests_cant": "overflow boundary is a curve through a 2^126 space", "anchors": ["core/vm.c: PN_VM_MATH3, potion_vm"]}
{"id": "C04", "title": "Integer comparison operators agree with numeric order", "statement": "a < b, a <= b, a > b and a >= b on two integers are true exactly when the numeric relation holds, in the interpreter as in the JIT.", "quantifier": "all pairs of 63-bit integers", "why_tests_cant": "tests only compare a few non-negative literals; the interpreter compares the unsigned tagged words", "anchors": ["core/vm.c: PN_VM_NUMCMP", "core/vm-x86.c: X86_NUMCMP", "core/number.c: potion_num_cmp"]}
{"id": "C05", "title": "A Table is a finite map over any history", "statement": "After any sequence of put, remove and at calls on a Table, at(key) returns the value of the latest put of that key not followed by a remove, and nil if there is none.", "quantifier": "every finite history of table operations, every key, every hash function", "why_tests_cant": "probe chains, tombstones and in-place rehash interact through unboundedly long histories and arbitrary collisions", "anchors": ["core/khash.h: kh_get, kh_put, kh_del, kh_resize", "core/table.c: potion_table_at, potion_table_put, potion_table_remove"]}
{"id": "C06", "title": "Table length and enumeration match its contents", "statement": "length is the number of distinct live keys; keys/values/each visit every live key exactly once, with its current value, and nothing else.", "quantifier": "every finite history of table operations", "why_tests_cant": "duplicates or omissions only appear for particular collision/tombstone/rehash histories", "anchors": ["core/table.c: potion_table_length, potion_table_keys, potion_table_values, potion_table_each", "core/khash.h"]}
{"id": "C07", "title": "Table operations always terminate", "statement": "Lookups, insertions and deletions in a Table always terminate: after any history there is at least one never-used slot on every probe sequence, also after unboundedly many deletions.", "quantifier": "every history, every key, every hash function", "why_tests_cant": "a full-of-tombstones table would loop forever only after a specific long history", "anchors": ["core/khash.h: kh_get, kh_put, kh_resize"]}
{"id": "C08", "title": "Growing a Table loses and duplicates nothing", "statement": "The in-place rehash performed when a Table grows keeps exactly the same set of (key, value) associations.", "quantifier": "every reachable table and every hash function", "why_tests_cant": "kick-out chains in the in-place rehash depend on the full collision structure", "anchors": ["core/khash.h: kh_resize"]}
{"id": "C09", "title": "Table storage cells never overlap", "statement": "The status word, key and value cells of all buckets of a Table occupy pairwise disjoint byte ranges inside the allocated block, for every table size and cell size.", "quantifier": "every bucket count and every pair of bucket indices", "why_tests_cant": "aliasing bugs appear only at particular sizes and indexes", "anchors": ["core/khash.h: kh_mem, __ac_flag, kh_key, kh_val, kh_size"]}
{"id": "C10", "title": "Tuple push/pop/shift/unshift behave as a sequence", "statement": "push appends at the end, unshift prepends, pop removes and returns the last element, shift removes and returns the first, length tracks them, and no write leaves the allocated block, over any history.", "quantifier": "every finite history of list operations from any literal list", "why_tests_cant": "capacity growth schedules and in-place memmove bounds depend on the history", "anchors": ["core/table.c: potion_tuple_push, potion_tuple_pop, potion_tuple_shift, potion_tuple_unshift"]}
{"id": "C11", "title": "Tuple indexing", "statement": "at(i) returns element i counting from the front for i>=0 and from the back for i<0, and nil out of range; put(i,v) changes exactly that element.", "quantifier": "every tuple and every integer index", "why_tests_cant": "all (length, index) combinations including negatives", "anchors": ["core/table.c: potion_tuple_at, potion_tuple_put"]}
{"id": "C12", "title": "Tuple slice", "statement": "slice(start, end) returns the elements at the positions between start and end inclusive, in list order whichever bound is larger, negative bounds counting from the end, keeping only positions that exist; without end it goes to the last element; it never reads outside the list.", "quantifier": "every tuple, start and length", "why_tests_cant": "clamping errors occur at specific combinations of three integers", "anchors": ["core/table.c: potion_tuple_slice"]}
{"id": "C13", "title": "Tuple remove and delete", "statement": "delete(i) removes exactly the element at index i in place, remove(i) returns a copy without that element and leaves the receiver alone; an index outside the list leaves the contents unchanged.", "quantifier": "every tuple, index and value", "why_tests_cant": "all lengths/positions including absent ones", "anchors": ["core/table.c: potion_tuple_remove, potion_tuple_delete"]}
{"id": "C14", "title": "Reverse", "statement": "reverse returns a new list with the elements in opposite order and leaves the receiver alone; nreverse does so in place; applying either twice gives the original order.", "quantifier": "every tuple", "why_tests_cant": "unbounded lengths, odd/even middles", "anchors": ["core/table.c: potion_tuple_reverse, potion_tuple_nreverse"]}
{"id": "C15", "title": "Binary search", "statement": "bsearch on a list sorted by the identity order the method documents returns an index holding a value of that identity whenever one occurs and -1 otherwise, never reading outside the list; in particular it finds numbers in a numerically sorted list.", "quantifier": "every sorted tuple and every key", "why_tests_cant": "off-by-one errors appear at particular lengths/positions", "anchors": ["core/table.c: potion_tuple_bsearch"]}
{"id": "C16", "title": "Sorting is a permutation in order", "statement": "sort leaves the list a permutation of its former elements, in ascending order.", "quantifier": "every tuple of integers and every comparison mode", "why_tests_cant": "factorially many arrangements, length threshold between insertion sort and quicksort", "anchors": ["core/table.c: potion_tuple_sort, potion_tuple_ins_sort, potion_sort_internal"]}
{"id": "C17", "title": "Equal strings are the same object", "statement": "Two strings created with the same NUL-free contents by any constructor are identical (==), and a string's contents are those it was created with.", "quantifier": "every history of string creations and every contents", "why_tests_cant": "depends on the whole intern-table history, including collisions and growth", "anchors": ["core/string.c: potion_str, potion_str2, potion_strcat, potion_bytes_string, potion_add_str, potion_lookup_str"]}
{"id": "C18", "title": "String length counts UTF-8 characters", "statement": "length of a string is the number of its bytes that are not UTF-8 continuation bytes, whatever the alignment and length of the text.", "quantifier": "every byte string and every start alignment", "why_tests_cant": "the word-at-a-time counter has alignment and chunk boundary cases for each length", "anchors": ["core/contrib.c: potion_cp_strlen_utf8"]}
{"id": "C19", "title": "Character indexing and slicing of strings", "statement": "s(i) and slice(start,end) select whole UTF-8 characters by character position (negative from the end) and never split a character or read outside the string.", "quantifier": "every valid UTF-8 string and all indices", "why_tests_cant": "all combinations of multi-byte characters and index pairs", "anchors": ["core/string.c: potion_str_at, potion_str_slice, potion_utf8char_offset, potion_str_slice_index"]}
{"id": "C20", "title": "Unicode escapes encode the code point", "statement": "A \\u escape in a string literal denotes the UTF-8 encoding of its code point: s.ord gives the code point back.", "quantifier": "every code point", "why_tests_cant": "1.1M code points with boundary cases", "anchors": ["core/syntax.y: escaped/utf8 rules", "core/string.c: potion_str_ord"]}
{"id": "C21", "title": "Decimal literals and number parsing", "statement": "The number method on a short decimal string, and string on the integer, are inverse to each other.", "quantifier": "every integer of at most nine digits", "why_tests_cant": "10^9 values and all leading-zero forms", "anchors": ["core/string.c: potion_str_number", "core/internal.h: PN_ATOI", "core/number.c: potion_num_string"]}
{"id": "C22", "title": "Appending to Bytes never overruns and concatenates", "statement": "After any sequence of append/print/write operations a Bytes object holds the concatenation of everything appended, NUL-terminated, and each write stays inside its allocation.", "quantifier": "every history of appends and sizes", "why_tests_cant": "growth factor and alignment arithmetic per size; integer-division subtleties", "anchors": ["core/string.c: potion_bytes_append, potion_byte_str, BYTES_ALIGN"]}
{"id": "C23", "title": "Compiled code survives dump and load", "statement": "Loading the bytes produced by dumping a compiled function yields a function with the same constants, paths, locals, upvalues, nested functions and instructions.", "quantifier": "every compiled function tree", "why_tests_cant": "unbounded nesting and constant pools; field-width truncation only shows past 255/2047 entries", "anchors": ["core/compile.c: potion_proto_dump, potion_proto_load, READ_CONST, WRITE_CONST"]}
{"id": "C24", "title": "Instruction fields", "statement": "Register numbers, constants and jump offsets encoded in an instruction are read back unchanged whenever they lie in the encodable range, and immediate constants are only emitted when they do.", "quantifier": "every operand value", "why_tests_cant": "12-bit signed truncation only shows for large operands", "anchors": ["core/opcodes.h: PN_OP", "core/compile.c: PN_ASM2, potion_source_asmb"]}
{"id": "C25", "title": "Compiled expressions compute what the source says", "statement": "Running the compiled code of an expression built from integer/boolean/nil literals, local variables, assignments, arithmetic, comparison, not, and, or gives the value and variable updates of evaluating the expression left to right with short-circuiting, for every nesting depth.", "quantifier": "every expression tree and every variable state", "why_tests_cant": "unbounded nesting; register clobbering appears only at particular shapes", "anchors": ["core/compile.c: potion_source_asmb", "core/vm.c: potion_vm"]}
{"id": "C26", "title": "Control flow", "statement": "if/elsif/else runs exactly one branch, while/loop repeat while the condition is true, for every nesting.", "quantifier": "every nesting of statements and all states", "why_tests_cant": "register reuse and jump patching bugs depend on body shape", "anchors": ["core/compile.c: potion_source_asmb (MSG if/elsif/else/while/loop)", "core/vm.c: potion_vm JMP/TESTJMP/NOTJMP"]}
{"id": "C27", "title": "Method lookup follows the inheritance chain", "statement": "Sending a message finds the method defined in the nearest class on the receiver's parent chain; defining a method in a class affects that class and its descendants that do not override it, and nobody else.", "quantifier": "every class hierarchy and history of definitions", "why_tests_cant": "unbounded hierarchies and definition orders", "anchors": ["core/objmodel.c: potion_bind, potion_def_method, potion_lookup, potion_class"]}
{"id": "C28", "title": "Every class has its own type id and layout", "statement": "Creating classes in any order gives each class and metaclass a distinct type id; an object of a class has a slot for each of its own and its ancestors' instance variables, and distinct variables use distinct slots.", "quantifier": "every history of class creations", "why_tests_cant": "depends on the whole history of type allocation", "anchors": ["core/objmodel.c: potion_class, potion_type_new2, potion_add_metaclass, potion_ivars, potion_obj_find_ivar", "core/internal.c: potion_delegated"]}
{"id": "C29", "title": "Signatures determine arity", "statement": "For a function signature with n parameters of which the first m are mandatory, arity is n, minargs is m, and parameter lookup by position and by name find the declared parameter.", "quantifier": "every signature", "why_tests_cant": "all mixes of types, defaults and optionals", "anchors": ["core/objmodel.c: potion_sig_arity, potion_sig_minargs, potion_sig_at, potion_sig_name_at", "core/syntax.y: potion_sig_find"]}
{"id": "C30", "title": "Integer iteration", "statement": "n times(f) calls f exactly with 0..n-1 in order; a to(b, f) calls f with every integer from a to b in order in either direction; a step(b,c,f) calls f with a, a+c, ... up to b and terminates.", "quantifier": "all bounds and steps", "why_tests_cant": "inclusive/exclusive bound errors; non-termination for some steps", "anchors": ["core/number.c: potion_num_times, potion_num_to, potion_num_step"]}
{"id": "C31", "title": "The random generator is the Mersenne Twister", "statement": "For every seed the generator's outputs are the MT19937 sequence defined by its recurrence and tempering, each below 2^32, and re-seeding reproduces the sequence.", "quantifier": "every seed and output position", "why_tests_cant": "infinite sequence, block-wise in-place state update", "anchors": ["core/mt19937ar.c: init_genrand, next_state, genrand_int32"]}
{"id": "C32", "title": "Garbage collection preserves the program's data", "statement": "After a full collection, everything the program can reach from its roots has the same shape, types, contents and sharing (including cycles) as before, and nothing else is kept.", "quantifier": "every heap graph and root set", "why_tests_cant": "arbitrary cyclic graphs and object sizes", "anchors": ["core/gc.c: potion_gc_major, potion_mark_stack, potion_gc_copy, potion_mark_major"]}
{"id": "C33", "title": "Minor collections respect the write barrier", "statement": "If every old object whose fields were changed to reference young objects has been touched, then after a minor collection every reference reachable by the program is valid and the old objects' contents are preserved.", "quantifier": "every heap, mutation history and collection point", "why_tests_cant": "collection may happen at any allocation; requires reasoning over all mutation schedules", "anchors": ["core/gc.c: potion_gc_minor, potion_mark_minor", "core/gc.h: potion_gc_update"]}
{"id": "C34", "title": "Live strings stay interned across collections", "statement": "A string that is still referenced stays in the intern table after any collection, so later strings with the same contents are still identical to it.", "quantifier": "every heap and every collection point", "why_tests_cant": "the order of string sweeping versus scanning matters only for strings reachable indirectly", "anchors": ["core/gc.c: GC_MINOR_STRINGS, GC_MAJOR_STRINGS, potion_gc_minor, potion_gc_major"]}
{"id": "C35", "title": "Allocation returns fresh, aligned memory", "statement": "Each allocation returns an 8-byte aligned block, large enough to be replaced by a forwarding pointer, disjoint from every previous block still in the birth space, inside the space.", "quantifier": "every sequence of allocation sizes", "why_tests_cant": "history dependent bump-pointer arithmetic", "anchors": ["core/gc.h: potion_gc_alloc", "core/gc.c", "core/potion.h: PN_ALIGN"]}
{"id": "C36", "title": "Reallocated objects stay reachable through old references", "statement": "After any number of reallocations, every reference ever handed out for an object resolves to its current storage, with its contents.", "quantifier": "every history of reallocations", "why_tests_cant": "chains of unbounded length", "anchors": ["core/potion.h: potion_fwd", "core/gc.h: potion_gc_realloc, potion_type"]}
{"id": "C37", "title": "Instruction buffers grow correctly", "statement": "Emitting any sequence of instructions or bytes yields a buffer whose contents are exactly that sequence in order, never written outside its capacity.", "quantifier": "every sequence of emissions", "why_tests_cant": "growth boundaries", "anchors": ["core/asm.c: potion_asm_op, potion_asm_put, potion_asm_write", "core/internal.h: PN_FLEX_NEEDS"]}
{"id": "C38", "title": "List comparison is lexicographic", "statement": "cmp on two lists orders them lexicographically by their elements, and cmp on booleans and nil yields an integer -1, 0 or 1 like cmp on numbers.", "quantifier": "every pair of lists", "why_tests_cant": "all pairs of lists", "anchors": ["core/table.c: potion_tuple_cmp", "core/primitive.c: potion_bool_cmp, potion_nil_cmp"]}
{"id": "C39", "title": "Table clone and slice", "statement": "clone has the same associations as the receiver, each once, and slice(keys) has exactly those associations of the receiver whose key is listed.", "quantifier": "every history producing the receiver, every key list, every hash function", "why_tests_cant": "bucket layouts of the copy and the original differ for particular histories", "anchors": ["core/table.c: potion_table_clone, potion_table_slice"]}
{"id": "C40", "title": "Lists convert to tables by index", "statement": "Assigning past the end of a list, or casting it, yields a table in which at(i) is the list's element i for every index, plus the assignment.", "quantifier": "every tuple and every index", "why_tests_cant": "all lengths/indices", "anchors": ["core/table.c: potion_table_cast, potion_table_set, potion_tuple_put"]}
{"id": "C41", "title": "Higher-order list methods", "statement": "map, filter, each, reduce and join visit the elements in order exactly once and produce the mapped/filtered/folded/joined result.", "quantifier": "every tuple and every callback", "why_tests_cant": "arbitrary lengths and callbacks", "anchors": ["core/table.c: potion_tuple_map, potion_tuple_filter, potion_tuple_each, potion_tuple_reduce, potion_tuple_join"]}
{"id": "C42", "title": "Function calls have fresh locals", "statement": "Each call of a function starts with its parameters bound to the arguments and every other local unset, so results and captured variables of one call do not depend on earlier calls.", "quantifier": "every function body and call history", "why_tests_cant": "stale frame contents depend on what ran before at the same stack depth", "anchors": ["core/vm.c: potion_vm reentry, CALL, RETURN, PROTO"]}
{"id": "C43", "title": "JIT and interpreter agree on integer operators", "statement": "An integer operator applied to two integers gives the same value whether the function is interpreted or compiled to machine code.", "quantifier": "all pairs of 63-bit integers, operators + - * and unary ones", "why_tests_cant": "2^126 operand pairs, two independent implementations", "anchors": ["core/vm.c: potion_vm", "core/vm-x86.c: X86_MATH, potion_x86_add, potion_x86_sub, potion_x86_mult"]}
{"id": "C44", "title": "Table filter", "statement": "filter(block) returns a table with exactly the associations of the receiver for which the block returns a true value.", "quantifier": "every history producing the receiver, every predicate, every hash function", "why_tests_cant": "correct for tables without collisions; the wrong element is dropped only for particular insertion orders", "anchors": ["core/table.c: potion_table_filter", "core/khash.h: kh_del"]}
{"id": "C45", "title": "Table storage is bounded by its contents", "statement": "The number of buckets of a table is bounded by a multiple of the largest number of associations it ever held at once.", "quantifier": "every history of puts and removes", "why_tests_cant": "needs unboundedly long churn histories", "anchors": ["core/khash.h: kh_put, kh_resize"]}
{"id": "C46", "title": "Reading and cloning Bytes", "statement": "b(i) returns the i-th byte of a Bytes object for every index inside and nil for every index outside; each visits all bytes in order; clone gives an equal independent Bytes object.", "quantifier": "every Bytes object and index", "why_tests_cant": "all buffer contents and all integer indices, including negative and huge ones", "anchors": ["core/string.c: potion_bytes_at, potion_bytes_each, potion_bytes_clone"]}
{"id": "C47", "title": "n rand is a random fraction", "statement": "n rand answers a number in [0,1) built from 53 bits of the generator, different states giving different numbers.", "quantifier": "every seed and every history of draws", "why_tests_cant": "a statement about all states of a generator with period 2^19937-1", "anchors": ["core/mt19937ar.c: potion_num_rand, potion_rand_double", "core/potion.h: PN_NUM"]}
{"id": "C48", "title": "A call leaves its caller's frame alone", "statement": "While a called Potion function runs, and when it has returned, the variables and intermediate results of the function that called it, and of all functions suspended below, are the ones they were before the call, except for the result of the call and for variables shared through closures.", "quantifier": "every program, call, and execution of the called function, including recursion", "why_tests_cant": "quantifies over all programs and all states at a call; recursion depth and history are unbounded", "anchors": ["core/vm.c: potion_vm (CALL, RETURN, reentry)"]}
{"id": "C49", "title": "subclass? agrees with the class hierarchy", "statement": "x subclass?(C) is true exactly when C is the kind of x or one of the ancestors of its kind.", "quantifier": "every value, every class, every history of class creation", "why_tests_cant": "quantifies over all hierarchies of any depth", "anchors": ["core/objmodel.c: potion_object_subclass, potion_lobby_isa, potion_lobby_kind"]}
{"id": "C50", "title": "Converting a list to a table converts it for every reference", "statement": "When a list is turned into a table (by storing under a key that is not an index), every reference to the list sees the table: they all continue to denote one and the same object, and writes through one are visible through the others.", "quantifier": "every heap and every set of references to the list, after any history of growth and collection", "why_tests_cant": "the number and nature of references and the history of forwarding pointers are unbounded", "anchors": ["core/table.c: potion_table_cast, potion_tuple_put", "core/potion.h: potion_fwd"]}
{"id": "C51", "title": "Parsing respects precedence and associativity", "statement": "The syntax tree of a program text is the one its grouping denotes: operators of a higher level bind tighter, operators of a level group from the left, assignments from the right, parentheses and blocks delimit, white space, newlines after an operator, and comments do not matter; no text has two readings.", "quantifier": "every text of the language, of any length and nesting, with any white space", "why_tests_cant": "infinitely many texts; ordered choice and greedy repetition can go wrong for particular continuations only", "anchors": ["core/syntax.y: statements, stmt, sets, eqs, cmps, bitors, bitand, bitshift, sum, product, power, expr, atom, call, list, block", "tools/compile.c: the generated parser"]}
{"id": "C52", "title": "Parsing ends", "statement": "Given any text, the parser ends, with a syntax tree or a syntax error.", "quantifier": "every finite sequence of bytes", "why_tests_cant": "non-termination needs a particular input; all byte sequences cannot be tried", "anchors": ["core/syntax.y", "tools/compile.c: the generated parser"]}
{"id": "C53", "title": "Running a text gives the value of the program it denotes", "statement": "A text of a program in scope, however it is laid out, is parsed and compiled, and running the result returns the value of the program and leaves its variables with their final values.", "quantifier": "every program of the modelled fragment, every layout of it, every terminating execution", "why_tests_cant": "all programs, layouts and executions", "anchors": ["core/syntax.y", "core/compile.c: potion_source_asmb, potion_source_compile", "core/vm.c: potion_vm"]}
{"id": "C54", "title": "Functions, closures and calls", "statement": "A call evaluates its arguments from left to right, binds fresh parameters to them, runs the body of the function in the scope where the function was written, and yields the value of the body or of the return statement reached; functions share the variables they capture with their surroundings and with each other, and every call of the surrounding function makes new ones.", "quantifier": "every program of functions, closures, calls and control flow, every nesting of calls including recursion, every terminating execution", "why_tests_cant": "infinitely many programs and executions; sharing of captured variables depends on the history of calls and on stale stack contents", "anchors": ["core/compile.c: potion_source_asmb (AST_PROTO, AST_MSG), PN_BLOCK, PN_UPVAL, potion_arg_asmb, potion_sig_compile", "core/vm.c: potion_vm (PROTO, CALL, RETURN, GETUPVAL, SETUPVAL), potion_vm_proto"]}
{"id": "C55", "title": "Adding and comparing strings", "statement": "a + b is the string with the characters of a followed by those of b: equal concatenations are the same string however they were built, and existing strings never change. a cmp b is negative, zero or positive as a comes before, equals or comes after b in the order of their characters' code points, zero exactly for the same string.", "quantifier": "every sequence of string creations and additions, every pair of strings wherever they lie in memory", "why_tests_cant": "all strings, all histories of the string table; byte order and code point order agree only because of the encoding", "anchors": ["core/string.c: potion_str_add, potion_str_cmp, potion_str2"]}
{"id": "C56", "title": "Files hold what was written to them", "statement": "Through any number of File objects, opened, read, written, printed to and closed in any order: each has its own position; modes do what they say; a file to which one File writes (or several append) holds the written strings in order; reading it back piece by piece until nil yields exactly these bytes; a closed File touches nothing, even when its descriptor is reused; write answers the number of bytes written and writes objects in their binary form.", "quantifier": "every history of operations on any Files, every pattern of short reads and writes and of errors", "why_tests_cant": "interleavings, descriptor reuse and kernel decisions are unbounded", "anchors": ["core/file.c: potion_file_new, potion_file_close, potion_file_read, potion_file_write, potion_file_print"]}
{"id": "C57", "title": "Standard input and the environment", "statement": "read gives the lines of standard input in order, nothing lost or repeated, nil at the end; Env maps every environment variable to its value and has no other keys.", "quantifier": "every input and every environment", "why_tests_cant": "all byte sequences, all line lengths, all environments", "anchors": ["core/file.c: potion_lobby_read, potion_file_init"]}
{"id": "C58", "title": "Generated machine code does what the interpreter does", "statement": "Calling the machine code generated for a function returns, to the address after the call, the value the interpreter computes for the same arguments, leaves shared variables as the interpreter leaves them and keeps the caller's registers and stack; it never traps, and runs forever only if the interpreter does.", "quantifier": "every function, every arguments, every state of memory and registers at the call, every execution, terminating or not", "why_tests_cant": "all functions and all machine states; wrong encodings, displacements and jump distances show only for particular register numbers, sizes and values", "anchors": ["core/vm.c: potion_jit_proto", "core/vm-x86.c: potion_x86_setup, potion_x86_stack, potion_x86_registers, potion_x86_local, potion_x86_upvals, potion_x86_jmpedit, X86_MATH, X86_NUMCMP, TAG_JMP, potion_x86_return"]}
{"id": "C59", "title": "Running a text in the default mode gives the value of the program", "statement": "A text of a program in scope is parsed and compiled, machine code is generated for it, and calling that code returns the value of the program to the caller with the caller's registers and stack as they were, whatever the stack held before.", "quantifier": "every program of the modelled fragment, every layout of its text, every terminating execution, every state of the machine at the call", "why_tests_cant": "all programs, texts, executions and stack contents at once, through four translations", "anchors": ["core/syntax.y", "core/compile.c: potion_source_asmb", "core/vm.c: potion_jit_proto", "core/vm-x86.c"]}
{"id": "C60", "title": "Continuations resume where they were made", "statement": "Calling a continuation makes the call of here that produced it return once more, with the continuation as its value: the stack of the callers of here and the callee-saved registers are as they were at that call, everything else in memory stays as it is now; this holds wherever in the program the continuation is called, and however often.", "quantifier": "every state of the machine at here and at the call, every stack depth, every history in between, including collections", "why_tests_cant": "unbounded stack depth and history; the resumed state is the whole machine stack", "anchors": ["core/callcc.c: potion_callcc, potion_continuation_yield", "core/gc.c: potion_type_size, potion_gc_copy"]}
{"id": "C61", "title": "The values on the machine stack are the roots", "statement": "A collection started with any contents of the machine stack finds every reference on it, between the current stack pointer and the base recorded at start-up: what the references lead to is kept, the words on the stack are replaced by the new addresses, and words that are not references, as well as all memory outside the collector's, stay as they are.", "quantifier": "every stack depth and contents, every heap, minor and full collections", "why_tests_cant": "unbounded stack contents; integers and references are told apart only by where they point", "anchors": ["core/gc.c: potion_mark_stack, pngc_mark_array, potion_gc_copy, HAS_REAL_TYPE", "core/gc.h: GC_FORWARD, IS_GC_PROTECTED, IN_BIRTH_REGION", "core/potion.h: potion_fwd"]}
{"id": "C62", "title": "load finds and runs the first file on the path", "statement": "load name takes the first file there is among: in each directory of the path in order, the name, the name with .pnb, .pn, .so, and the same for its last component in the directory of that name. It runs a source or bytecode file found, once; calls Potion_Init_ and the name in a shared object; and only prints a message when there is none. The name itself stays as it is.", "quantifier": "every file system, search path and name", "why_tests_cant": "all directory contents, path lists and names", "anchors": ["core/load.c: potion_find_file, find_extension, potion_load, potion_load_code, potion_initializer_name"]}
{"id": "C63", "title": "The text of a value, and reading it back", "statement": "x string is nil, true, false, the decimal numeral, the characters of a string, (a, b, c) for a list of values, (k=v, k=v) for a table, and name, contents and attributes of a lick with blanks between; a list of licks is in brackets. The text of a value is read back as an expression for that value, and no other value has the same text.", "quantifier": "every value without cycles, of any nesting and size", "why_tests_cant": "infinitely many values; buffers grow at particular lengths only; ambiguity shows for particular pairs of values only", "anchors": ["core/table.c: potion_tuple_string, potion_table_string", "core/lick.c: potion_lick_string", "core/primitive.c: potion_bool_string", "core/number.c: potion_num_string", "core/string.c: pn_printf, potion_bytes_obj_string, potion_bytes_string", "core/syntax.y"]}
{"id": "C64", "title": "A generated parser does what its grammar says", "statement": "The function greg generates for a rule returns true with the position after the match exactly when the grammar matches there (ordered choice, greedy repetition, lookahead), and false otherwise with position and pending actions restored. The actions run afterwards are exactly those of the parts that matched, in the order of the text, each with the text marked before it and its own rule's variables. The parser generated for potion accepts exactly the texts of the language.", "quantifier": "every grammar, every input, every set of actions", "why_tests_cant": "all grammars and inputs; backtracking interacts with pending actions and label numbering in nested choices only", "anchors": ["tools/compile.c: Node_compile_c_ko, Rule_compile_c2, defineVariables, yymatchDot, yymatchChar, yymatchString, yymatchClass, yyDo, yyText, yyDone, yyPush, yyPop, yySet, yyparse_from", "core/syntax.y"]}
{"id": "C65", "title": "A generated parser returns and stays inside its arrays", "statement": "For a grammar without left recursion and without repetition of something possibly empty, parsing returns on every input, and buffer, text, thunks and values are never accessed outside their bounds. Potion's grammar is such a grammar.", "quantifier": "every such grammar, every input and nesting depth", "why_tests_cant": "array growth happens at particular depths and lengths; termination is about all inputs", "anchors": ["tools/compile.c: yyrefill, yyDo, yyText, yyPush, yyPop, yySet, yyparse_from", "core/syntax.y: YY_INPUT"]}
{"id": "C66", "title": "greg's own checks and character classes are right", "statement": "A character class stands for the set of bytes its text denotes; what greg takes to consume input does; greg warns of left recursion exactly when a rule can call itself before a character is consumed.", "quantifier": "every class text, every grammar", "why_tests_cant": "all class texts and grammars", "anchors": ["tools/compile.c: makeCharClass, readChar, consumesInput"]}
{"id": "C67", "title": "Parsing a program gives its tree", "statement": "potion_parse returns for the text of a program the tree its grouping denotes: the generated parser with the grammar's actions, whatever the fresh parser's memory contains; a text that is not in the language is a syntax error. Compiling and running that tree gives the program's value.", "quantifier": "every text, every contents of the parser's fresh arrays", "why_tests_cant": "all texts and nesting depths; the actions run after the match on a shared stack of values", "anchors": ["core/syntax.y: grammar actions, potion_parse", "tools/compile.c: yyDone, yyPush, yyPop, yySet", "core/compile.c: potion_source_compile"]}
{"id": "C68", "title": "The text of a signature declares its parameters", "statement": "The signature given with a function written in C declares exactly the parameters its text lists, with their types, modifiers, defaults, the bar and the dots: arity, number of mandatory arguments, names and positions are those of the text. No text declares two different things; what is not a signature is a syntax error.", "quantifier": "every signature text, with any layout, any memory of the fresh parser", "why_tests_cant": "names, layouts and numbers of parameters are unbounded; tests try the signatures in use", "anchors": ["core/syntax.y: potion_sig, sig, args, arg-list, arg-set, arg", "core/potion.h: PN_FUNC", "core/objmodel.c: potion_sig_arity, potion_sig_minargs, potion_sig_name_at"]}
{"id": "C69", "title": "Compiled code stays inside its function's frame", "statement": "Whatever program is compiled, every instruction of every function in it names registers, locals, upvalues, constants and functions that exist, every jump leads to an instruction of the same function, a closure finds as many variables to take as it needs, and the code ends with a return: the interpreter, which checks none of this, never leaves the frame.", "quantifier": "every program text that compiles, every nesting of functions, every outcome of the tests at run time", "why_tests_cant": "all programs; a register one past the frame is memory of the caller or callee and shows only by chance", "anchors": ["core/compile.c: potion_source_asmb, potion_arg_asmb, potion_sig_compile, potion_source_compile", "core/vm.c: potion_vm", "core/asm.h"]}
{"id": "C70", "title": "The code proved safe is the code proved right", "statement": "The compiler makes of every program of the core language (numbers, booleans, nil, variables, assignments, operators, branches, loops, functions and calls), whatever its nesting, one function: the same number of registers, locals and upvalues, the same constants, instructions and inner functions whether the program's value (C53, C54) or the safety of its code (C69) is asked for. So running the code the whole compiler makes returns the program's value and leaves its variables.", "quantifier": "every program of the core language, every text of it", "why_tests_cant": "all programs; two descriptions of a compiler can agree on any number of examples and differ in one register of another", "anchors": ["core/compile.c: potion_source_asmb, potion_arg_asmb, potion_sig_compile, potion_source_compile", "core/vm.c: potion_vm"]}
{"id": "C71", "title": "Built-in functions get the arguments and the declared defaults", "statement": "Calling a built-in function from a script with a number of arguments its signature allows (none, or at least the mandatory and at most all of the parameters) calls it exactly once, with self, the given arguments in order and, for each parameter left out, its declared default or the zero value of its type; with any other number it is not called and the call reports an error. potion_call passes exactly the arguments of the array it is given; an empty closure gives an error.", "quantifier": "every signature, every list of arguments, every register, every content of the registers", "why_tests_cant": "The number of parameters, the kinds of the omitted ones and the position of the call in the frame vary independently; tests call functions of up to three parameters, and the functions that fail have fifteen or an optional parameter without type.", "anchors": ["core/vm.c CALL, potion_sig_check", "core/internal.c potion_call", "core/potion.h potion_type_default", "core/objmodel.c potion_closure_new, potion_sig_at"]}
{"id": "C72", "title": "Compiled functions called from C get the arguments they were called with", "statement": "C code that calls a compiled function through its function pointer, passing self and all arguments, or in place of self the number of arguments it passes: the function runs with this self and these arguments, and the declared defaults for the others, whatever the machine registers and the stack hold after the passed arguments.", "quantifier": "every signature, every list of arguments, every content of the registers and the stack after them, every layout of the heap", "why_tests_cant": "What follows the variadic arguments in registers and stack depends on the compiler and the history of the process, and whether an argument is taken for a foreign pointer on the addresses of the heap: a test sees one of them.", "anchors": ["core/vm.c potion_vm_proto", "core/potion.h PN_IS_FFIPTR", "core/internal.c potion_type_char"]}
{"id": "C73", "title": "The command line selects the program, its arguments and the mode", "statement": "Of the arguments of the command, options are read up to the first argument that does not start with a dash, or up to --. The next argument is the program file, or the program is the text given with -e; all later arguments are the script's argv, whatever they look like. The last option that chooses a mode counts; -I and -V are independent of it; -L directories are searched in the order given; the modules named with -M and -d are loaded before the program; -v, -h and -s end the command.", "quantifier": "every argument vector", "why_tests_cant": "Argument vectors are arbitrary lists of arbitrary byte strings; tests run a handful of them, and an option that swallows or loses an argument shows only in particular orders.", "anchors": ["core/potion.c: main, addmodule, potion_cmd_usage"]}
{"id": "C74", "title": "Compiling a file and running the result is running the file", "statement": "potion -c name writes the file named name and b, and no other; running that file, with any mode and arguments, runs the same function as running name with them. Running or checking a program changes no file by itself; --check runs nothing. The exit status tells whether there were errors.", "quantifier": "every program text, file name, option list and file system", "why_tests_cant": "All programs, names and option lists; a program is compiled in one process and loaded in another, and only sizes beyond a limit fail.", "anchors": ["core/potion.c: main, potion_cmd_exec", "core/compile.c: potion_source_dumpbc, potion_source_load"]}
{"id": "C75", "title": "Integers and floating point numbers calculate together", "statement": "+ - * / of two numbers of which at least one is a double give the double nearest to the exact result (exactly it, if it is a double), % of whole numbers is exact, < <= > >= compare the numbers; + - * of two integers give the exact integer or, if it needs more than 63 bits, a double; an operand that is no number is an error. Equal numbers are ==. integer rounds down, double and abs keep the number.", "quantifier": "every pair of numbers, every operator", "why_tests_cant": "All pairs of 64-bit integers and doubles; rounding, the limits 2^53 and 2^62 and the rounded quotient in % differ only at particular values.", "anchors": ["core/vm.c: PN_VM_MATH2, PN_VM_MATH3, PN_VM_NUMCMP, potion_vm_eq, potion_vm_neq, OP_POW, OP_CMP", "core/number.c: PN_NUM_MATH, potion_num_rem, potion_num_bitl, potion_num_bitr, potion_num_integer, potion_num_double, potion_num_abs, potion_num_cmp"]}
{"id": "C76", "title": "The text of a floating point number", "statement": "string of a double is a decimal number with at most 16 digits after the point and no superfluous zeros, within 5e-17 of the double and equal to it if the double has no more decimals. Reading the text gives the same double. It is written within its buffer. Doubles in bytecode files, which hold this text, are read back as the same doubles.", "quantifier": "every double, every correctly rounding strtod", "why_tests_cant": "All 2^64 doubles; the text of most is right, and those that do not read back or overrun the buffer are particular ones.", "anchors": ["core/number.c: potion_num_string, potion_dbl_string, potion_strtod", "core/compile.c: WRITE_CONST, READ_CONST"]}
{"id": "C77", "title": "A message is sent to the value before it", "statement": "A chain of messages, calls, fields and queries is evaluated from left to right: the receiver, then the method, then each argument once, in order, then the call, and the next message goes to its result. A name with no value before it is the variable of this name if it has been assigned to, and a message to self otherwise. Lists, tables and trees of licks are built from their parts in order, x[k] is an element of the value of x, x(a) = e calls what the class of x has for such assignments with the arguments and the value, and/or leave out the second operand, an assignment stores the value of its right side. x++ and x-- are the value of x before it is changed, ++x and --x the one after. if runs the branch of the first true condition, or else the last one, and nothing of the others; while runs its body as long as the condition is true, and loop without one; break ends the loop around it, continue begins its next round, and return ends the program with a value; the value of what is not run is the value before it. An error anywhere ends the evaluation there, and a program that never ends runs for ever.", "quantifier": "every program of such expressions and statements, nested to any depth, every kind of object and method, every state of the memory", "why_tests_cant": "Programs nest without limit, the registers of the parts must not overlap, and what methods do, change or raise is arbitrary.", "anchors": ["core/compile.c: potion_source_asmb, potion_arg_asmb, PN_ARG", "core/vm.c: potion_vm, OP_CALL", "core/syntax.y"]}
{"id": "C78", "title": "A value written down in a program is that value", "statement": "A program that consists of a number, a string, nil, a boolean, a list, a table or a list of licks, of these in any nesting and layout, is parsed and compiled, and running it builds exactly that value in memory and changes no object there was. x[i] is element i of a list assigned to x, x['k'] the value at the key k of a table, nil if there is none; elements written before the first pair of a table have their numbers as keys; setting a key of a table changes that key only, of a list makes it the table with the numbers of its elements as keys; name, attr, text and licks give the parts of a lick.", "quantifier": "every such value of any size and nesting, every text that writes it down, every state of the memory, whatever the other operations do", "why_tests_cant": "Values nest without limit; the parts of a value are built while it is being built, in the same memory and overlapping registers.", "anchors": ["core/syntax.y: list, lick, lick-item, value", "core/compile.c: AST_LIST, AST_LICK, AST_VALUE", "core/vm.c: NEWTUPLE, SETTUPLE, SETTABLE, NEWLICK, GETTUPLE, GETTABLE", "core/table.c: potion_tuple_push, potion_table_set, potion_table_cast, potion_table_at", "core/lick.c"]}
{"id": "C79", "title": "What can, isa? and methods say about an object", "statement": "x can(n) is true exactly if the message n sent to x finds a method, that is if some class on the parent chain of the class of x (for a class, of its metaclass) has a method of that name, and false otherwise; so what the values of a class can do those of every class made from it can. x isa?(C) is true exactly if C is the class of x. methods answers the table of the methods defined in the class itself, the last definition of each name.", "quantifier": "every history of classes made and methods defined, every value and class, every name", "why_tests_cant": "Histories and class trees are unbounded; the answers must agree with what sending does in every state.", "anchors": ["core/objmodel.c: potion_lobby_can, potion_lobby_isa, potion_lobby_methods, potion_bind, potion_object_subclass"]}
{"id": "C80", "title": "The text of the tree of a program", "statement": "The text of a program's tree, as potion -V prints it, names every node by its kind, followed by its operands in their order (in parentheses if the kind has two or three), strings in quotes, a new line after an operand that begins on a later line, and leaves out nil operands at the end; name, size and lineno of a node are the first word of this text, the number of operands of the kind and its line.", "quantifier": "every tree of any size and depth, every content of the buffers and every address at which a buffer may be allocated", "why_tests_cant": "Trees nest without limit; the text of a node is made in a buffer that moves while it grows, so what is printed can depend on its length.", "anchors": ["core/ast.c: potion_source_string, potion_source_name, potion_source_size, potion_source_lineno, potion_ast_names, potion_ast_sizes", "core/string.c: pn_printf, potion_bytes_obj_string"]}
{"id": "C81", "title": "The text of a signature, and of a function", "statement": "The text of the signature of a function (`string` of the function, the heading of its listing) declares the parameters the signature was declared with: names in order, `=` and the letter of a type, `:=` and the text of a default, `|` before optional parameters, `.`, and commas between parameters. Declaring a signature by this text gives the same tuple again, and signatures with the same text declare the same. The text of a function is `function`, its name if it has one, and this text in parentheses.", "quantifier": "every signature of parameters with and without types and defaults, in groups separated by bars and dots; every text that declares one; every name", "why_tests_cant": "The text is made by a loop with two flags over a flat tuple in which types, bars, dots and defaults are numbers: whether each is shown as what it is depends on what is around it.", "anchors": ["core/compile.c: potion_sig_string", "core/objmodel.c: potion_closure_string", "core/syntax.y: potion_sig, rule sig"]}
{"id": "C82", "title": "The listing of a function", "statement": "The listing of a compiled function (its `string`, printed by `potion -V`) is complete and in order: the heading with its size, name, signature and number of registers, each path, local, captured variable and constant with its number, the listings of the functions written in it, and one line for each instruction with its number, name, operands and remark. The remark of a jump is the number of the line of the instruction that is executed next when the jump is taken; that of a load or store names the constant or variable. Lines are in columns.", "quantifier": "every compiled function with functions nested to any depth; every state of the interpreter at a jump", "why_tests_cant": "The listing is made in a buffer that moves while it grows; the numbers in remarks are computed from the operands with other offsets than those of the interpreter.", "anchors": ["core/compile.c: potion_proto_string, potion_ops", "core/vm.c: potion_vm (OP_JMP, OP_TESTJMP, OP_NOTJMP)", "core/string.c: pn_printf, potion_bytes_obj_string"]}
{"id": "C83", "title": "The clone of a function", "statement": "f clone for a function f gives a function with the same name, source, tree, sizes and instructions and with copies of its tables (constants, nested functions, variables, paths, signature). As built, the instructions, name, source, tree and sizes are those of f, but every table of the clone is nil, for every function, unless the program itself has defined a method of strings named by that very tuple: the code sends the tuple as a message to the string clone instead of clone to the tuple.", "quantifier": "all functions, all programs that have made classes and defined methods before, all tables", "why_tests_cant": "The clone prints and is of the right class; what is lost is only seen when it is called or listed, and whether a lookup under a tuple can ever succeed depends on every method definition made before.", "anchors": ["core/compile.c: potion_proto_clone", "core/potion.h: potion_send, struct PNProto", "core/objmodel.c: potion_bind"]}
{"id": "C84", "title": "Buffered files", "statement": "A buffered file is the bytes written to it: fgetc gives the bytes one after the other and then -1; fgets gives the lines, in order, losing nothing; write and fputs put all the bytes of a text where the file stands and say so, or give an error; what was written is read back; ftell after fseek is the place asked for. As built, write of a string writes as many bytes as the string has characters, so a text with a non-ASCII character is cut off and reported as written; writing nothing is an error; a read that meets the end is an error though it has taken the bytes; reading more than the buffer holds writes outside of it; fputs and fputc answer -1 instead of an error; what follows a NUL in a line is lost.", "quantifier": "all contents of files, positions, modes, texts, buffers and numbers", "why_tests_cant": "Contents, positions and texts are unbounded, and the failures need long lines, short reads, or texts of more than ASCII; a test with ASCII texts passes.", "anchors": ["lib/buffile.c: potion_buffile_fopen, potion_buffile_fgetc, potion_buffile_fgets, potion_buffile_fread, potion_buffile_fwrite, potion_buffile_fputc, potion_buffile_fputs, potion_buffile_fseek, potion_buffile_ftell, potion_buffile_feof", "core/string.c: potion_str_length, potion_byte_str"]}
