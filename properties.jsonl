{"id": "C01", "title": "String escaping round-trips", "statement": "Escaping any string and unescaping the result gives the original string back, and unescaping succeeds exactly on texts in which every backslash starts one of the known escapes.", "quantifier": "all strings of characters", "why_tests_cant": "the set of strings is infinite and the interesting ones mix escapes in arbitrary positions", "anchors": ["llrl0/src/string.rs: escape, unescape, escape_char, unescape_char"]}
{"id": "C02", "title": "Lexing loses nothing", "statement": "For every source text, the token source slices, concatenated in order, are exactly the source text; every token covers at least one character; each token begins where the previous one ended.", "quantifier": "all source texts", "why_tests_cant": "tests fix a handful of texts; the claim is about arbitrary interleavings of all token classes and broken tokens", "anchors": ["llrl0/src/lexer.rs: Lexer::next, Eat"]}
{"id": "C03", "title": "The lexer never fails", "statement": "For every source text, lexing terminates without panicking: the unescape of a terminated string or character literal always succeeds, a terminated character literal holds one character, and some alternative always consumes input.", "quantifier": "all source texts", "why_tests_cant": "absence of panic must hold for every input including malformed and non-ASCII text", "anchors": ["llrl0/src/lexer.rs: Lexer::next, eat_string, eat_char", "llrl0/src/string.rs: unescape"]}
{"id": "C04", "title": "Token locations are true", "statement": "The start and end of every token give the byte offset, line and column that one gets by counting the bytes before it, the line feeds before it, and the bytes since the last line feed.", "quantifier": "all source texts and all tokens in them", "why_tests_cant": "depends on every prefix of every text", "anchors": ["llrl0/src/source_loc/location.rs: Location::eat", "llrl0/src/lexer.rs: produce_with"]}
{"id": "C05", "title": "Dependency groups are exactly the mutual-dependency classes", "statement": "Topological sorting outputs every input item exactly once, and two items land in the same group if and only if each depends (transitively) on the other.", "quantifier": "all finite dependency graphs with distinct keys, any order of items and of dependencies, dependencies on unknown keys included", "why_tests_cant": "graphs of any size and shape; Tarjan's low-link bookkeeping fails only on particular shapes", "anchors": ["llrl0/src/topological_sort.rs: topological_sort, Context::visit"]}
{"id": "C06", "title": "Dependencies come first", "statement": "If an item depends on an item of another group, that other group appears earlier in the output.", "quantifier": "all finite dependency graphs with distinct keys", "why_tests_cant": "order must hold for every graph shape and traversal order", "anchors": ["llrl0/src/topological_sort.rs: topological_sort"]}
{"id": "C07", "title": "Exhaustiveness check is exact", "statement": "A match is accepted as exhaustive if and only if every well-typed value matches some clause; when it is rejected, the reported missing pattern matches at least one value and no value it matches is matched by any clause.", "quantifier": "all clause lists over all algebraic data types and literal types with unbounded literal domains", "why_tests_cant": "the value space is infinite and clause matrices are arbitrary", "anchors": ["llrl0/src/pattern_matching.rs: check, exhaustiveness_check", "llrl0/src/pattern_matching/matrix.rs: compute_usefulness, compute_missing"]}
{"id": "C08", "title": "Useless-clause check is exact", "statement": "A clause is reported as useless if and only if every well-typed value it matches is already matched by an earlier clause.", "quantifier": "all clause lists", "why_tests_cant": "quantifies over all values for each clause", "anchors": ["llrl0/src/pattern_matching.rs: useless_check", "llrl0/src/pattern_matching/matrix.rs: compute_usefulness, specialize, defaults"]}
{"id": "C09", "title": "Compiled match picks the first matching clause", "statement": "The branching code produced for a match behaves on every scrutinee value like trying the clauses from top to bottom: it runs the body of the first clause whose pattern matches, with the pattern variables bound to the matching parts, and falls to the unreachable branch only if no clause matches.", "quantifier": "all clause lists and all scrutinee values", "why_tests_cant": "the decision tree depends on the whole matrix; the value space is infinite", "anchors": ["llrl0/src/lowering/branch_expander.rs: MatchProgress, branch_expander"]}
{"id": "C10", "title": "Data representation keeps constructors apart", "statement": "After data types are lowered to tagged, boxed, enum or alias representation, a value built with constructor i is accepted by the lowered pattern of constructor j exactly when i = j, and the fields read back are the fields stored.", "quantifier": "all data types, constructors and field values", "why_tests_cant": "data shapes and numbers of constructors are unbounded (tag widths change with the number of constructors)", "anchors": ["llrl0/src/lowering/data_expander.rs: DataExpansion, enum_ct"]}
{"id": "C11", "title": "Parallel build respects dependencies", "statement": "Under every scheduling of worker threads, each module is built at most once, only after all the modules it depends on were built successfully; when the build ends, every module whose transitive dependencies all build successfully has been built, and no module depending on a failed one has been.", "quantifier": "all acyclic module graphs (with repeated dependency entries), all build outcomes, all interleavings", "why_tests_cant": "interleavings cannot be enumerated by tests", "anchors": ["llrl0/src/module/parallel.rs: build scheduler (leader_count, followers)"]}
{"id": "C12", "title": "Source collection is schedule independent", "statement": "Under every interleaving of loads, each module path is loaded at most once, and the set of sources at the end is exactly the set of paths reachable from the requested ones through the dependencies of the loaded sources.", "quantifier": "all dependency graphs including cyclic ones, all interleavings, load failures included", "why_tests_cant": "interleavings and graphs are unbounded", "anchors": ["llrl0/src/source/collector.rs: Collector", "llrl0/src/source.rs"]}
{"id": "C13", "title": "Module initialisation order", "statement": "In the generated main function every top-level evaluation of every module reachable from the entry module appears exactly once, and all evaluations a module was made to wait for (its imports) come before those that follow the import.", "quantifier": "all acyclic module graphs", "why_tests_cant": "graphs unbounded; diamonds and repeated imports interact", "anchors": ["llrl0/src/lowering.rs: MainStatements::enqueue", "llrl0/src/lowering/ir/def.rs: Function::main"]}
{"id": "C14", "title": "Import name patterns are consistent", "statement": "For import and export patterns `_`, `prefix_`, `_suffix`: a name is selected exactly when it has the shape of the pattern, and renaming with another pattern replaces just the fixed part (renaming back gives the original name).", "quantifier": "all names and patterns", "why_tests_cant": "strings are unbounded", "anchors": ["llrl0/src/module/sema/importer.rs: WildcardPortTarget", "llrl0/src/module/sema/exporter.rs"]}
{"id": "C15", "title": "Explicit imports shadow the implicit ones", "statement": "After a module's imports are processed, every explicitly imported name means what the import said, the implicit standard import provides the names that are not otherwise imported and no others, and giving one name two different meanings (by two imports, or by an import and a definition) is reported as an error instead of one silently winning. Exporting gives exactly the names the export forms say.", "quantifier": "all import lists and export tables", "why_tests_cant": "arbitrary name sets", "anchors": ["llrl0/src/module/sema/importer.rs", "llrl0/src/module/scope.rs: TopLevel::define"]}
{"id": "C16", "title": "Leaving a local scope restores the outer bindings", "statement": "After a local scope ends, every name means what it meant before the scope began, whatever was defined inside it.", "quantifier": "all sequences of definitions in nested scopes", "why_tests_cant": "histories are unbounded", "anchors": ["llrl0/src/module/scope.rs: LocalScope::define, enter_scope, leave_scope"]}
{"id": "C17", "title": "Preprocessor bindings are lexically scoped", "statement": "After a `$let` (or equivalent binding directive) is expanded, every preprocessor variable has the value it had before.", "quantifier": "all binding lists and environments", "why_tests_cant": "histories are unbounded; repeated names are the corner case", "anchors": ["llrl0/src/preprocess.rs: with_binds"]}
{"id": "C18", "title": "Interning is a bijection on what was interned", "statement": "Two interned values get the same identifier if and only if they are equal, and looking an identifier up always gives back the value that was interned, regardless of later interning.", "quantifier": "all sequences of intern calls", "why_tests_cant": "histories are unbounded", "anchors": ["llrl0/src/interning.rs"]}
{"id": "C19", "title": "Module paths round-trip", "statement": "Printing a module path and parsing it gives the same path back, and different module paths denote different source files.", "quantifier": "all valid module paths", "why_tests_cant": "strings are unbounded", "anchors": ["llrl0/src/path.rs: Path"]}
{"id": "C20", "title": "Kind unification is sound, complete and terminating", "statement": "Unifying two kinds succeeds exactly when some assignment of the unknown kinds makes them (and everything unified before) equal; after success they are equal under the current assignment, every solution is still a solution, and no cyclic kind is ever created.", "quantifier": "all kinds and all histories of unifications", "why_tests_cant": "unbounded terms and histories", "anchors": ["llrl0/src/unification/kind.rs", "llrl0/src/unification.rs"]}
{"id": "C21", "title": "Type unification is sound and most general", "statement": "After a successful unification the two types are equal under the current assignment, any assignment solving the earlier and the new equations is an instance of the current one, and no infinite type is created.", "quantifier": "all types and all histories of unifications", "why_tests_cant": "unbounded terms and histories", "anchors": ["llrl0/src/unification/types.rs"]}
{"id": "C22", "title": "Memory layout is well formed", "statement": "For every aggregate, each field's offset is a multiple of its alignment, fields do not overlap, all lie within the size of the aggregate, and the size is a multiple of the alignment.", "quantifier": "all field lists and nested types", "why_tests_cant": "type structure is unbounded", "anchors": ["llrl0/src/backend/native/mem_layout.rs: Layout"]}
{"id": "C23", "title": "Stack slots of live variables never overlap", "statement": "In the stack frame computed for a function, two variables that are in scope together occupy disjoint slots, and every slot lies in the reserved area.", "quantifier": "all function bodies", "why_tests_cant": "term structure is unbounded", "anchors": ["llrl0/src/backend/chibi/codegen/stack_frame.rs"]}
{"id": "C24", "title": "Machine operand encoding is faithful", "statement": "For every register, memory operand and displacement accepted by the assembler, decoding the emitted REX/ModRM/SIB/displacement bytes by the rules of the architecture gives back exactly the given operand.", "quantifier": "all registers, scales and 32-bit displacements", "why_tests_cant": "2^32 displacements times all register combinations", "anchors": ["xten0/src/asm/encoding.rs", "xten0/src/asm/operand.rs"]}
{"id": "C25", "title": "Jumps land on their labels", "statement": "For every program of the assembler, after label resolution the processor executing a relative jump or call from the emitted bytes arrives at the position where the label was defined.", "quantifier": "all sequences of writes, label definitions (before or after use) and uses", "why_tests_cant": "program length unbounded", "anchors": ["xten0/src/asm/writer.rs", "xten0/src/asm/obj.rs: resolve_statically"]}
{"id": "C26", "title": "The JIT linker never truncates an offset silently", "statement": "When linking succeeds, every patched location denotes the address of its target; a target out of the range of the relocation is reported instead of being truncated.", "quantifier": "all load addresses, objects and symbols", "why_tests_cant": "depends on addresses chosen at run time", "anchors": ["xten0/src/jit.rs: Linker::relocate"]}
{"id": "C27", "title": "JIT memory blocks are disjoint", "statement": "Over any sequence of allocations from a JIT segment, every returned block lies inside its mapping and never overlaps a block returned earlier.", "quantifier": "all allocation sequences", "why_tests_cant": "histories unbounded", "anchors": ["xten0/src/jit/segment.rs: Segment::allocate"]}
{"id": "C28", "title": "JIT symbols resolve to one definition", "statement": "A symbol that was bound keeps its address for ever; binding it twice is reported; linking an object succeeds only if each symbol it uses is defined; each symbol has one address-table entry which holds the symbol's address.", "quantifier": "all sequences of object additions", "why_tests_cant": "histories unbounded", "anchors": ["xten0/src/jit/symbol_table.rs", "xten0/src/jit/address_table.rs", "xten0/src/jit.rs: Engine::add_object"]}
{"id": "C29", "title": "Persistent ordered map behaves like a finite map", "statement": "Looking up a key after any sequence of insertions and removals gives the last value inserted for this key, or nothing if it was removed since or never inserted; old versions of the map are unchanged.", "quantifier": "all operation sequences, all totally ordered key types", "why_tests_cant": "histories unbounded; rebalancing cases depend on deep tree shapes", "anchors": ["std/persistent/ord-map.llrl: insert, remove, lookup?"]}
{"id": "C30", "title": "Persistent ordered map stays balanced", "statement": "In every reachable map no red node has a red child and every path from the root passes the same number of black nodes (so depth is at most 2 log2(n+1)), and the assertions inside the rebalancing code never fail.", "quantifier": "all operation sequences", "why_tests_cant": "deep rebalancing cases are reached only by particular long histories", "anchors": ["std/persistent/ord-map.llrl: balance-left, balance-right, bubble-left, bubble-right, remove-min, remove-max"]}
{"id": "C31", "title": "Persistent ordered map set operations", "statement": "union, intersection and difference of two maps contain exactly the keys in either, in both, and in the first but not the second.", "quantifier": "all pairs of maps", "why_tests_cant": "unbounded maps", "anchors": ["std/persistent/ord-map.llrl: union*, intersection*, difference*"]}
{"id": "C32", "title": "Ordered map iteration is sorted and complete", "statement": "Iterating over an ordered map yields each entry exactly once, in strictly ascending key order.", "quantifier": "all maps", "why_tests_cant": "unbounded maps", "anchors": ["std/persistent/ord-map.llrl: cursor, it, iter"]}
{"id": "C33", "title": "Mutable ordered map (B-tree) behaves like a finite map", "statement": "Any sequence of insertions, removals and lookups on the mutable ordered map gives the results a finite map would give, its length is the number of its keys, and its internal assertions never fail.", "quantifier": "all operation sequences", "why_tests_cant": "splits, steals and merges need long particular histories", "anchors": ["std/ord-map.llrl: node/insert!, node/remove!, check-underflow, steal-left!, steal-right!, merge!"]}
{"id": "C34", "title": "Hash map behaves like a finite map", "statement": "Any sequence of insertions, removals and lookups on a mutable hash map made empty or with a positive capacity gives the results a finite map would give, whatever the hash function, and every operation terminates.", "quantifier": "all operation sequences and all hash functions", "why_tests_cant": "collision patterns and wrap-around depend on the hash; histories unbounded", "anchors": ["std/hash-map.llrl"]}
{"id": "C35", "title": "Hash map capacity is always sufficient", "statement": "For every requested capacity n, the table allocated has a power of two size with room for n entries and at least one free slot left, and the map can be used right away.", "quantifier": "all 64-bit capacities", "why_tests_cant": "2^64 capacities; the corner cases are 0 and near overflow", "anchors": ["std/hash-map.llrl: appropriate-minimal-capacity, with-capacity, reserve!", "std/bits.llrl: next-power-of-two"]}
{"id": "C36", "title": "Persistent hash map behaves like a finite map", "statement": "Any sequence of insertions, removals and lookups on the persistent hash map gives the results a finite map would give, whatever the hash function (full 64-bit collisions included), and its length is the number of its keys.", "quantifier": "all operation sequences and all hash functions", "why_tests_cant": "trie shapes and collisions unbounded", "anchors": ["std/persistent/hash-map.llrl"]}
{"id": "C37", "title": "UTF-8 encoding round-trips", "statement": "Encoding any Unicode scalar value and decoding the bytes gives the value back.", "quantifier": "all Unicode scalar values", "why_tests_cant": "over a million values; needs an argument about bit layouts", "anchors": ["std/internal/utf-8.llrl: encode, decode", "std/internal/char.llrl: char/from-unicode-scalar"]}
{"id": "C38", "title": "UTF-8 validation is exact", "statement": "A byte sequence is accepted as a string if and only if it is the concatenation of valid encodings of scalar values; decoding it yields these scalars in order.", "quantifier": "all byte sequences", "why_tests_cant": "infinite set of byte sequences", "anchors": ["std/internal/utf-8.llrl: decode-step, input-class", "std/internal/string-text.llrl: valid-sequence?, chars, char-boundary?"]}
{"id": "C39", "title": "Array accesses are bounds checked", "statement": "Reading, writing, inserting or removing at an index succeeds exactly when the index is in range, and otherwise fails the assertion instead of touching memory outside the array.", "quantifier": "all arrays and all 64-bit indices", "why_tests_cant": "2^64 indices, corner cases at 0 and length", "anchors": ["std/internal/array-vector.llrl: array/ref, array/update, array/insert, array/remove"]}
{"id": "C40", "title": "Vectors behave like lists", "statement": "Any sequence of push, pop, insert, remove, swap-remove, truncate, append and reserve on a vector gives the results the same operations would give on a list; the length never exceeds the capacity.", "quantifier": "all operation sequences", "why_tests_cant": "histories and reallocation points unbounded", "anchors": ["std/internal/array-vector.llrl: vector/*"]}
{"id": "C41", "title": "String operations preserve well-formedness", "statement": "Slicing at a character boundary, concatenating, splitting, joining, replacing and reversing well-formed strings give well-formed strings; joining what splitting produced gives back the original.", "quantifier": "all well-formed strings", "why_tests_cant": "infinite set of strings", "anchors": ["std/internal/string-text.llrl"]}
{"id": "C42", "title": "Streaming hash is chunking independent", "statement": "Feeding a byte sequence to the streaming hasher in any partition into chunks gives the same digest as feeding it at once.", "quantifier": "all byte sequences and all partitions", "why_tests_cant": "infinite combinations; boundary handling of the 32-byte buffer", "anchors": ["std/xxhash.llrl: update!, digest, finalize"]}
{"id": "C43", "title": "Stack allocation never outlives its use", "statement": "Moving a heap allocation to the stack never changes the result of a program: a value is promoted only if its address cannot be stored, returned, captured or passed on.", "quantifier": "all function bodies", "why_tests_cant": "term structure is unbounded", "anchors": ["llrl0/src/lowering/heap2stack.rs"]}
{"id": "C44", "title": "Printing then parsing an S-expression", "statement": "Printing an S-expression and parsing the text gives the same S-expression back.", "quantifier": "all S-expressions", "why_tests_cant": "unbounded nesting; sugar and annotation forms interact", "anchors": ["llrl0/src/sexp.rs: Display", "llrl0/src/parser/grammar.rs"]}
{"id": "C45", "title": "The parser always makes progress and terminates", "statement": "For every token sequence, parsing terminates, reports at least one error or consumes every token, and never panics.", "quantifier": "all token sequences", "why_tests_cant": "error recovery loops depend on arbitrary malformed inputs", "anchors": ["llrl0/src/parser.rs", "llrl0/src/parser/primitive.rs: RecoverableSeq"]}
{"id": "C46", "title": "Cyclic class hierarchies are rejected", "statement": "If a class is, directly or through other classes, its own superclass, the compiler reports an error.", "quantifier": "all class hierarchies", "why_tests_cant": "graphs unbounded", "anchors": ["llrl0/src/module/sema/type_inference.rs: verify_classes_hierarchy"]}
{"id": "C47", "title": "Module cycles are rejected, acyclic sets are ordered", "statement": "Resolving the dependency order of a set of sources reports an error exactly when some module depends on itself through one or more other modules; otherwise it returns an order in which every module comes after its dependencies.", "quantifier": "all module graphs", "why_tests_cant": "graphs unbounded", "anchors": ["llrl0/src/source/set.rs: SourceSet::resolve_dependencies_order"]}
{"id": "C48", "title": "File path functions agree", "statement": "Canonicalising a path is idempotent and keeps its meaning; a path joined from directory name and base name denotes the original path; joining with an absolute path gives that path.", "quantifier": "all path strings", "why_tests_cant": "strings unbounded", "anchors": ["std/io/path.llrl"]}
{"id": "C49", "title": "Integer printing and reading round-trip", "statement": "Printing an integer in any radix and reading it back in the same radix gives the same integer; reading rejects text that is not a number or is out of range.", "quantifier": "all 64-bit integers and all radices", "why_tests_cant": "2^64 values times 35 radices", "anchors": ["rt/rt.c: llrt_u64_to_string, llrt_string_to_u64, llrt_string_to_i64", "rt/llrt.rs"]}
{"id": "C50", "title": "Derived orderings are total orders", "statement": "The ordering derived for a data type from total orders on its fields is a total order: constructors in declaration order, then fields lexicographically; min and max agree with it.", "quantifier": "all data types and values", "why_tests_cant": "unbounded data shapes", "anchors": ["std/ord.llrl: derive Ord, ordering/or, min, max", "std/ordering.llrl"]}
{"id": "C51", "title": "String trimming functions terminate", "statement": "Removing a prefix or suffix from a string, splitting a string and replacing in a string terminate for every argument.", "quantifier": "all pairs of strings", "why_tests_cant": "corner case of the empty pattern is one of infinitely many", "anchors": ["std/internal/string-text.llrl: remove-start, remove-end, replace, split"]}
{"id": "C52", "title": "Layout resolution is deterministic and total on sized types", "statement": "Registering a set of structure and union definitions succeeds exactly when each of them has a finite layout (no type contains itself by value, every contained type is known), and the layout given to a type depends only on the definitions, not on the order in which the hash map of definitions happens to be iterated; earlier layouts are kept.", "quantifier": "all sets of definitions, all iteration orders, all earlier registrations", "why_tests_cant": "hash iteration orders and definition graphs are unbounded", "anchors": ["llrl0/src/backend/native/mem_layout.rs: LayoutResolver::register, register_visit"]}
{"id": "C53", "title": "Values, arguments and results are placed consistently in registers and on the stack", "statement": "Every value not kept in memory occupies one or two distinct result registers that cover all its bytes; in a C call no register is given to two arguments and rdi stays free for a result in memory; at every call instruction the stack is 16-byte aligned, the result area is disjoint from the arguments, and after the call exactly the result remains.", "quantifier": "all layouts, argument lists and stack depths", "why_tests_cant": "combinations of argument types are unbounded", "anchors": ["llrl0/src/backend/chibi/codegen/reg_assign.rs: RegAssign::build", "llrl0/src/backend/chibi/codegen/call_frame.rs", "llrl0/src/backend/native/mem_layout.rs: Layout::eightbytes"]}
{"id": "C54", "title": "Values survive the stack machine of the code generator", "statement": "Storing a value from the result registers to memory writes exactly its bytes, loading gives back the stored bytes, pushing and popping a value of any layout restores it, and constructing a structure and then reading its i-th element gives the i-th value.", "quantifier": "all layouts, values and memories", "why_tests_cant": "layouts and values are unbounded", "anchors": ["llrl0/src/backend/chibi/codegen/stack_inst.rs", "llrl0/src/backend/chibi/codegen.rs: ConstructStruct, StructElem"]}
{"id": "C55", "title": "Instruction forms are complete and told apart", "statement": "For every instruction form offered by the assembler and all operands of its classes, the processor reads the emitted bytes as the mandatory prefixes, REX.W bit, opcode and operands of that form; the bytes of two different instructions (that are not synonyms) never coincide.", "quantifier": "all instruction forms of the generated table, all operands", "why_tests_cant": "over a thousand forms times all registers and addresses", "anchors": ["xten0/src/asm/inst.rs", "xtencg/src/instr/encoding.rs: put_opcode_part"]}
{"id": "C56", "title": "Operands naming a label refer to the label's location", "statement": "Every instruction whose operand names a label - calls, jumps, loads and stores relative to the instruction pointer - once its object is produced or linked addresses the location where the label is defined, whatever other operands follow in the instruction.", "quantifier": "all programs of the assembler, all label positions", "why_tests_cant": "the positions of labels and instructions are unbounded", "anchors": ["xten0/src/asm/writer.rs"]}
{"id": "C57", "title": "The parallel build is given what it asserts", "statement": "When the collected sources have no errors and an order of them was found, the list handed to the parallel build has the builtin module first, every other module has builtin among its dependencies, every module that did not opt out has std among its dependencies, all paths differ, and each module comes after the ones it uses: the assertions at the start of the build never fail.", "quantifier": "all loaders (all contents of packages), all inputs, all interleavings of the collection, all hash map orders", "why_tests_cant": "graphs, contents and schedules unbounded", "anchors": ["llrl0/src/module/parallel.rs: build (assert!)", "llrl0/src/source.rs: Source::resolve_dependencies", "llrl0/src/source/set.rs: resolve_dependencies_order", "llrl0/src/pipeline.rs: Pipeline::run"]}
{"id": "C58", "title": "The streaming hasher computes XXH64", "statement": "For every seed and every byte sequence the digest of the hasher is the XXH64 hash the specification defines.", "quantifier": "all seeds and all byte sequences", "why_tests_cant": "byte sequences are unbounded; a deviation shows only for particular remaining lanes", "anchors": ["std/xxhash.llrl: finalize, digest", "std/conv.llrl"]}
{"id": "C59", "title": "The parser accepts exactly the grammar", "statement": "A token sequence parses without errors to a list of S-expressions if and only if the grammar of marks, terms, postfix forms, bracketed bodies and dotted tails derives that list from the sequence without its blanks and comments; and the grammar derives at most one list.", "quantifier": "all token sequences and all lists of S-expressions", "why_tests_cant": "nesting and lengths are unbounded; the lookahead sets and the recovery interact with every production", "anchors": ["llrl0/src/parser/grammar.rs", "llrl0/src/parser/primitive.rs", "llrl0/src/sexp.rs: list_like"]}
{"id": "C60", "title": "Equal keys hash alike", "statement": "For every type with Eq and Hash instances in the standard library (integers, chars, strings, options, results, eithers, tuples, arrays, ordered maps and data types deriving them), two values that = holds for hash to the same digest, whatever the hasher's state.", "quantifier": "all types built from these, all declarations of data types, all pairs of values, all hasher seeds and states", "why_tests_cant": "types and values are unbounded; a hash map loses keys only for pairs equal under = and different as bits", "anchors": ["std/hash.llrl", "std/eq.llrl", "std/ord-map.llrl", "std/xxhash.llrl"]}
{"id": "C61", "title": "The code for arithmetic computes the operation it is for", "statement": "For every integer and pointer operation, comparison and conversion of the IR and every operand size, the instructions the chibi backend emits leave the mathematical result (modulo the width, signed or unsigned as the operation says) in the low part of rax, take exactly the left operand from the stack, and trap exactly for divisions without a result; conversions between integers and floats keep the value or round to nearest even.", "quantifier": "all operations, all operand sizes, all register contents and stacks", "why_tests_cant": "2^128 pairs of operands per operation; corner cases are signs, byte-size divisions through ah, and registers with rubbish in the upper parts", "anchors": ["llrl0/src/backend/chibi/codegen.rs: eval_unary, eval_binary"]}
{"id": "C62", "title": "Closure conversion keeps the meaning", "statement": "For every well-scoped program with distinct names, lifting its local functions (also nested, recursive, mutually recursive, escaping) to static functions with environments gives a program without local functions that, run as long, does the same: it prints the same, ends with the same value and the same memory, or goes on as well. The conversion ends on every program.", "quantifier": "all programs, all orders in which captured variables come out of a hash set, all numbers of steps", "why_tests_cant": "programs, depths of nesting and executions are unbounded; a captured variable missed, an environment read in another order or a name used twice show only in particular nestings", "anchors": ["llrl0/src/lowering/normalizer.rs: ClosureConversion, Normalizer::before_rt", "llrl0/src/lowering/ir/traverser.rs: captured_vars"]}
{"id": "C63", "title": "A transparent function inlined means the same as called", "statement": "Replacing a call of a transparent function by its body, with the arguments for the parameters and fresh names for its variables, keeps what a program prints, computes and leaves in memory, whatever the program, and never panics.", "quantifier": "all programs, all functions and arguments, all numbers of steps", "why_tests_cant": "programs and executions are unbounded; a captured name, an effect dropped, doubled or moved shows only for particular bodies and arguments", "anchors": ["llrl0/src/lowering/normalizer.rs: Normalizer::after_rt, call_transparent", "llrl0/src/lowering/ir/rewriter.rs: replace_rt, realloc_rts", "std/tuple.llrl: Hash.unit", "std/display.llrl: Display.String"]}
{"id": "C64", "title": "The chibi code generator keeps the meaning of functions", "statement": "For every program of lowered functions, the machine code that the chibi backend generates, called by its calling convention, computes what the function means: the same result (in registers or in the memory it is given), the same heap and allocations, the same calls of C functions in the same order with the same arguments; it keeps the stack, the frame pointer and all memory of its callers, and every call is made with an aligned stack.", "quantifier": "all programs in which variables have distinct names, all arguments, all initial memories, all results of C functions, all executions that end", "why_tests_cant": "programs and executions are unbounded; a wrong depth, a slot shared, a register overwritten by a later sub-expression or a jump out of a half-evaluated call shows only in particular nestings", "anchors": ["llrl0/src/backend/chibi/codegen.rs: FunctionCodegen", "llrl0/src/backend/chibi/codegen/stack_inst.rs", "llrl0/src/backend/chibi/codegen/stack_frame.rs"]}
{"id": "C65", "title": "Type inference is sound", "statement": "Whenever type inference accepts a module, the types it gives are types of the module in the declarative system of Hindley and Milner: every function has the types of its scheme for all types in place of its parameters (an annotated function for any types in place of those of its annotation, a function without annotation for parameters that are not in its environment), every expression, pattern and return has the type required where it is, and nothing is left unknown.", "quantifier": "all modules (nested and mutually recursive functions, with and without annotations, with type parameters of outer functions in scope), all imported environments of closed types", "why_tests_cant": "programs are unbounded; a level that is one off or a variable generalised although it is in the environment shows only in particular nestings and orders of unification, and then as a program that is accepted and goes wrong at run time", "anchors": ["llrl0/src/module/sema/type_inference.rs: run, infer_expr, infer_impl_local_functions, infer_expl_local_function, compute_common_type_vars, finalize_scope", "llrl0/src/unification/types.rs: unify, adjust_level, get_vars", "llrl0/src/module/sema/type_inference/unification.rs: instantiate_types, register_scoped_gen_types"]}
{"id": "C66", "title": "Constraints are satisfied by the instances that are for them, in one way only", "statement": "A satisfaction that the compiler finds for a class constraint proves it from the premises and the available instances, whatever becomes of unknown types later, and the dictionary made of it (superclasses followed through the tables of instances) is one for that constraint. Instances that pass the check for overlaps are for different constraints, so there is at most one dictionary for a constraint, whichever way it was found. If a constraint without unknown types has a proof within the recursion limit, a satisfaction is found.", "quantifier": "all sets of classes and instances of closed types whose parameters are in their targets, all premises, all constraints, all states of the unifier, all dictionaries given for premises", "why_tests_cant": "instances, types and nestings are unbounded; a wrong path to a superclass or an instance matched too freely gives the methods of another type at run time", "anchors": ["llrl0/src/module/sema/type_inference.rs: install_premise_constraint, build_satisfaction, ensure_overlap_checked, infer_instance_satisfaction", "llrl0/src/unification/types.rs: unify, match_to_right, equal", "llrl0/src/lowering/translator.rs: SatisfactionByPremise, SatisfactionByInstance", "llrl0/src/lowering/normalizer.rs"]}
{"id": "C67", "title": "Looking for superclasses ends", "statement": "For classes and instances that the compiler accepts, finding the premises that follow from a constraint ends, and so does making the dictionary of a satisfaction.", "quantifier": "all accepted classes and instances, all premises and satisfactions", "why_tests_cant": "it fails only for particular hierarchies of classes; a test sees the compiler not end", "anchors": ["llrl0/src/module/sema/type_inference.rs: install_premise_constraint, verify_classes_hierarchy, infer_instance_satisfaction", "llrl0/src/lowering/normalizer.rs"]}
{"id": "C68", "title": "Kind inference finds kinds exactly where there are some", "statement": "Kind inference always returns and never panics. If it accepts a module, the module is well kinded with kinds that agree with the recorded ones and with those of other modules, everything declared has a kind recorded, that kind can be imported, and type parameters have first class kinds. If it rejects a module, the module is not well kinded with any kinds that agree with those already recorded for type parameters without annotation; in particular a module whose type parameters are all annotated is accepted exactly if it is well kinded.", "quantifier": "all modules (data types, built-in types, classes, instances, functions, nested expressions with local functions), all kinds of other modules", "why_tests_cant": "modules and kinds are unbounded; a kind fixed too early or an equation left out shows only for type constructors of particular kinds used in particular places, and an unknown kind left over is a panic in another module", "anchors": ["llrl0/src/module/sema/kind_inference.rs: run, kind_of, fix_kind_of, setup_generic, fix_generic, Infer", "llrl0/src/unification/kind.rs: unify, default_vars, import, export", "llrl0/src/ast/kind.rs: is_first_class", "llrl0/src/topological_sort.rs: run"]}
{"id": "C69", "title": "Kind inference does not depend on the order of declarations", "statement": "Two modules with the same declarations, listed in different orders, are both accepted or both rejected by kind inference.", "quantifier": "all modules and all orders of their declarations (the order is that of hash maps with random seeds)", "why_tests_cant": "the order changes from run to run, a test sees one", "anchors": ["llrl0/src/module/sema/kind_inference.rs: Infer<ast::Root>", "llrl0/src/ast/root.rs: Root", "llrl0/src/ast/decl.rs: traverse_dependencies"]}
{"id": "C70", "title": "Monomorphisation computes what compile-time expressions mean", "statement": "What the normalizer makes of a list of compile-time expressions contains no instances of generics, no table entries and no aliases; each expression stands for the value that the given one has by unfolding aliases, looking up tables and substituting arguments; the definition of every identifier that is mentioned, directly or through other definitions, is the evaluated definition of what the identifier stands for; and two expressions become the same if and only if they have the same value, so that every instance is made exactly once.", "quantifier": "all definitions made by the translator (recursive, mutually recursive, of higher kind), all lists of expressions", "why_tests_cant": "definitions refer to each other in any pattern, and a definition may be looked at while it is being normalized; an instance made twice, or a stale definition taken, shows only for particular patterns of recursion", "anchors": ["llrl0/src/lowering/normalizer.rs: after_ct", "llrl0/src/lowering/context.rs: bind_ct, instantiate, get_processing_def", "llrl0/src/lowering/ir/rewriter.rs: Rewrite, replace_ct"]}
{"id": "C71", "title": "Monomorphisation ends exactly when finitely many instances are needed", "statement": "The normalizer ends without a panic on a list of compile-time expressions if and only if each has a value and the references needed for them, and for the definitions that these mention in turn, are finitely many.", "quantifier": "all definitions made by the translator, all lists of expressions", "why_tests_cant": "it is a statement about termination for unboundedly many instances, and about recursion through definitions that are being normalized", "anchors": ["llrl0/src/lowering/normalizer.rs: after_ct", "llrl0/src/lowering/context.rs: bind_ct, instantiate, get_processing_def"]}
{"id": "C72", "title": "The backend is given every definition that it needs, once", "statement": "Whatever is populated, in however many calls: the definitions of all generations together are exactly those that the populated expressions mention, directly or through other definitions, and that have a definition at all; each is given once, nothing is given under two identifiers, each is the evaluated definition of what its identifier stands for and never an alias, a table or a generic, and it is not changed afterwards; populate ends whenever the normalizer does; and the backend is given all of them except the data types.", "quantifier": "all kind-correct definitions made by the translator, all sequences of calls of populate", "why_tests_cant": "a missing or repeated definition depends on what earlier calls have marked as done, for unboundedly many calls and instances", "anchors": ["llrl0/src/lowering/context.rs: populate, GenerationCollector, is_populated", "llrl0/src/lowering/ir/traverser.rs: Traverse for Ct and Def"]}
{"id": "C73", "title": "A relocatable object file says exactly what is in the object", "statement": "Whatever is written for an object, read by the rules of ELF, is the object: the file header is that of a relocatable file for x86-64, the section headers are at its end, sections are inside the file and do not overlap, .text, .data and .rodata have the object's bytes with their flags and .bss its size, the symbol table has the null symbol, the file, the sections, the local symbols and then the global ones with sh_info at the first global one, and the relocations of each section are those of the object, in order, with offset, type and addend, against the symbol that is meant. Writing does not panic when no name has a zero byte, relocations name symbols of the object and none is in .bss.", "quantifier": "all objects with any number of symbols, names and relocations, as long as the file is smaller than 4 GiB", "why_tests_cant": "offsets of strings, symbols and sections depend on everything written before, for unboundedly many of them", "anchors": ["xten0/src/elf/format.rs: Strtab, Symtab, Rela, Elf::write", "xten0/src/elf/adapter.rs: into_relocatable_object, write_relocatable_object"]}
{"id": "C74", "title": "Iterator combinators compute the functions on lists", "statement": "When an iterator yields the elements of a list and then has ended, for good, the iterators made from it with map, filter, filter-map, with-index, take, skip, take-while, skip-while, flat-map, chain, zip, zip* and zip-either yield what the functions of these names make of lists, and then have ended; count, first?, at, fold, sum, product, all?, any?, find?, find-map?, find-index?, traverse-option and traverse-result return what they do on lists, and leave the iterator right behind the last element they needed; take, map, filter and zip* also work on infinite iterators.", "quantifier": "all iterators, lists and functions without effects, any nesting of combinators", "why_tests_cant": "iterators have hidden state, calls after the end and nesting are unbounded", "anchors": ["std/it.llrl", "std/iterator.llrl"]}
{"id": "C75", "title": "A range iterates over its numbers and ends", "statement": "iterator/range start end step yields exactly the numbers start + k * step that lie before end in the direction of the step, in order, and then has ended.", "quantifier": "all integer types, starts, ends and steps", "why_tests_cant": "the sum that goes past the end of the type only happens near the limits", "anchors": ["std/iterator.llrl: iterator/range"]}
{"id": "C76", "title": "A quasi-quotation comes to its template, filled", "statement": "The expression that a quasi-quotation expands to comes to the template with every ,e replaced by what e comes to and every ,@e by the elements of the list that e comes to; the expressions are evaluated once each, from left to right; a return in one of them ends it; splicing what is not a list before other elements returns an error, and at the end of a list anything may be spliced.", "quantifier": "all templates (nested quasi-quotations are not treated differently), expressions, environments and states", "why_tests_cant": "templates nest without bound and expressions have effects", "anchors": ["std/boot/3-quasiquote.llrl", "std/boot/1-try.llrl", "std/boot/0-s.llrl"]}
{"id": "C77", "title": "s/match takes apart what quasi-quotation puts together", "statement": "s/match goes on with the body of the first clause whose pattern the value fits, with the variables of the pattern bound to the parts; a pattern of variables matches what the quasi-quotation written in the same way comes to, and the variables are what they were there.", "quantifier": "all values, clauses, patterns with variables, nested patterns and splices", "why_tests_cant": "patterns and values nest without bound", "anchors": ["std/boot/2-s-match.llrl", "std/boot/3-quasiquote.llrl"]}
{"id": "C78", "title": "Functions on lists of S-expressions", "statement": "s/force-proper-list, s/reverse, s/append, s/traverse, s/for-each, s/map, s/zip, s/foldl, s/foldr, s/length and s/unsnoc give for proper lists what the functions of these names give for lists, and an error for everything else, before the function given is called.", "quantifier": "all S-expressions and functions", "why_tests_cant": "lists are unbounded and the ways not to be a list are many", "anchors": ["std/s.llrl"]}
{"id": "C79", "title": "The control macros come to what they say", "statement": "is?, |>, when, when?, cond, cond?, let*, with, with?, if-match, if-match1, while-match, while-match1, when-match and when-match1 expand to expressions that come to what they are said to come to: conditions, patterns and bodies are evaluated in order and no more often than needed, variables of a pattern are known to what follows it and not in the other branch, and a return anywhere ends the whole.", "quantifier": "all clauses, patterns, bodies, states, environments, hosts and symbols made by gensym", "why_tests_cant": "Clauses of all kinds combine freely and every expression in them may have effects, fail to match or return; tests try a few of these combinations.", "anchors": ["std/control.llrl"]}
{"id": "C80", "title": "S-expressions are handed to macros and back unchanged", "statement": "Conversion of an S-expression of the compiler to the cells that a macro works on gives the same elements in the same order with the same locations, different S-expressions give different cells, and conversion back gives the S-expression it was made from. Cells made by a macro become an S-expression that is again the same cells, except that the cells after the first one of a list get the location of the first one; what follows a dot is never a list.", "quantifier": "all S-expressions of the compiler whose native values are captured uses, and all cells", "why_tests_cant": "Lists nest without bound, may be dotted anywhere, and two representations of lists are joined at every cell.", "anchors": ["llrl0/src/ast/builtin.rs", "llrl0/src/sexp.rs", "llrl0/src/backend/native/data.rs"]}
{"id": "C81", "title": "The standard library writes S-expressions as the compiler does", "statement": "display! of (Syntax Sexp) writes, for the cells that a macro gets for an S-expression, the text that Display of the compiler writes for it, so that it is read back where that text is.", "quantifier": "all S-expressions whose native values are captured uses", "why_tests_cant": "Abbreviations, annotations, dots and escapes nest freely in two separate implementations.", "anchors": ["std/s-display.llrl", "std/char.llrl", "llrl0/src/sexp.rs"]}
{"id": "C82", "title": "Readers are read to their end, integers are read as written, files are closed once", "statement": "read-bytes-to-end-into! and read-bytes-to-end! give all the bytes that a reader has left, however the reader splits them, and the error of the reader if it fails; read-string-to-end! gives them exactly if they are the text of characters that the library knows. Vectors and files keep to the class Read and fill the array while they have bytes. Integers of all sizes written one after the other are read again. with-file! gives what the function gives and closes the file exactly once; a closed file is neither read nor written.", "quantifier": "all readers that keep to the class Read, all contents, initial temporary arrays, integers, and functions given to with-file!", "why_tests_cant": "Contents and the ways to split them are unbounded; errors of the system come at any byte.", "anchors": ["std/rw.llrl", "std/io/file.llrl", "std/string-reader.llrl"]}
{"id": "C83", "title": "read-bytes! fills the array if the reader has enough bytes", "statement": "read-bytes!, and read-u8! and so on, succeed if the reader has enough bytes left, and fail with the error of the reader or with unexpected-eof if not.", "quantifier": "all readers that keep to the class Read, and all arrays", "why_tests_cant": "Readers may split what they have anywhere; the tests read from vectors only.", "anchors": ["std/rw.llrl"]}
{"id": "C84", "title": "The two lexers agree", "statement": "The lexer of the self-hosted compiler gives the same tokens, at the same locations, as the lexer of llrl0, and panics on no text.", "quantifier": "all texts and all readers of floating-point numbers", "why_tests_cant": "The tests of the lexers use a dozen short texts each and never compare the two; a difference shows only in a self-hosted compiler that reads some program differently.", "anchors": ["llrl1/sexp/lexer.llrl", "llrl1/source-location.llrl", "llrl0/src/lexer.rs"]}
{"id": "C85", "title": "The two parsers read the same S-expressions", "statement": "The parser of the self-hosted compiler ends on every sequence of tokens, accepts exactly what the parser of llrl0 accepts without an error, and gives the same S-expressions.", "quantifier": "all sequences of tokens", "why_tests_cant": "The tests of the parsers use a few dozen short texts and never compare the two; nesting of lists, dots, marks and suffixes has no bound.", "anchors": ["llrl1/sexp/parser.llrl", "llrl1/sexp/data.llrl", "llrl0/src/parser/grammar.rs"]}
{"id": "C86", "title": "Both compilers read and print the same module paths", "statement": "path/from-string of the self-hosted compiler gives a path exactly where llrl0's Path::from_str does, and the same one; otherwise the error names a part of the string that is not acceptable. Paths are displayed with the bytes that llrl0 prints, and are read again from them. The names builtin and std are acceptable.", "quantifier": "all strings and paths", "why_tests_cant": "Strings are unbounded in length and in number of parts; a disagreement makes one compiler load a module that the other does not.", "anchors": ["llrl1/path.llrl", "llrl1/util.llrl", "llrl0/src/path.rs"]}
