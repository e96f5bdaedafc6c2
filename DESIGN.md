# Formal model of llrl — design

Sources: `/repo` (llrl0 = Rust compiler, xten0 = Rust assembler/JIT, std = standard library written in llrl, rt = runtime).
Model and proofs: Lean 4.33.0, `/verif/lean/Verif/`.  Each area `X` has

* `Verif/X/Model.lean`  – the model, every definition cites the file and lines it models;
* `Verif/X/Spec.lean`   – (where needed) the specification, independent of the model's helpers;
* `Verif/X/Lemmas.lean` – helper lemmas;
* `Verif/X/Props.lean`  – the property theorems with non-vacuity `example`s.

## Trusted base

* Lean's kernel, and the three standard axioms `propext`, `Classical.choice`, `Quot.sound` (nothing else; no `sorry`,
  no `native_decide`, no `bv_decide`, no axioms of our own).  `Verif/Axioms.lean` prints the axioms of each property theorem.
* The reading of the code: the code is not run; each model definition cites the lines it models.
* The specifications (`Spec.lean` files) say what the English property says.

## Plan per property

| id | model | proof |
|----|-------|-------|
| C01 | `escape`/`unescape` on `List Char` | induction on the text |
| C02–C04 | the lexer on `List Char`, number recognition as an abstract classifier of identifier text (float parsing is not modelled) | progress lemma for every alternative, induction on fuel-free well-founded recursion; locations by induction |
| C05, C06 | Tarjan's algorithm with explicit state, recursion bounded by number of unvisited nodes | standard Tarjan invariants; spec: reachability as `Relation.ReflTransGen` |
| C07, C08 | pattern matrices, `compute_usefulness`, `compute_missing` | induction on the measure of the matrix; spec: value semantics of patterns |
| C09 | `MatchProgress`, decision tree and its evaluator | simulation |
| C10 | data expansion choice and lowered construct/test/read | case analysis per representation |
| C11 | scheduler as labelled transition system (any worker may take any ready event) | invariants over all executions + termination measure |
| C12 | collector as labelled transition system | invariants |
| C13 | `enqueue` over module graph | induction on fuel/number of unvisited modules |
| C14, C15 | wildcard patterns; scope `define` and import loops | string lemmas; fold invariants |
| C16, C17 | scope stash / bind-restore | refutation by witness (code violates it for duplicate names) and `_partial` for distinct names |
| C18 | interner | invariant over op list |
| C19 | Path parser/printer, file name mapping | induction; refutation of injectivity (extension replaced) and `_partial` |
| C20, C21 | substitution store, unify/occurs/resolve | soundness, most-generality, termination measures |
| C22 | `Layout` product/sum | fold invariants |
| C23 | slot allocation over a term | structural induction |
| C24 | operand encoder; spec: independent decoder from the SDM | exhaustive on registers, symbolic on displacement |
| C25 | assembler buffer with label uses/definitions | invariant over op list; spec: CPU's `rip + len + disp` rule |
| C26 | `Linker.relocate` | refutation (range check is never true) + `_partial` |
| C27, C28 | segment allocator, symbol table, address table | invariants over op list |
| C29–C32 | Okasaki red-black tree with deletion, as written | BST/RB invariants, map laws; C31 difference refuted |
| C33 | B-tree functionally | refinement to sorted association list |
| C34, C35 | Robin Hood table | refinement; capacity 0 refuted |
| C36 | HAMT | refinement |
| C37, C38 | byte-level decode/encode | arithmetic; refutation above 111411 and `_partial` |
| C39, C40 | arrays and vectors | list refinement; out-of-bounds witnesses |
| C41, C51 | string functions on byte lists | refutations + `_partial` |
| C42 | streaming state | buffer invariant |
| C43 | escape analysis on a small IR | simulation |
| C44, C45 | parser and printer on token lists | induction; refutations + fragment |
| C46, C47 | SCC-based checks on top of C05 | corollaries of C05/C06 |
| C48 | path functions | induction / refutations |
| C49 | digit loops | induction |
| C50 | ordering combinators | algebra |
| C60 | `hash` and `=` on values of a small type language with declared data types | induction on typing; refutation for floats |
| C61 | emitted instructions on registers with 64 bits, flags and a stack | case analysis per operation, bit-vector lemmas generic in the width; rounding by division with remainder |
| C62 | big-step semantics with fuel for an IR with local and static functions, memory and output; the normaliser with its queue | a relation between source and converted terms, simulation by induction on fuel and terms; scoping and freshness invariants of the algorithm |
| C63 | the semantics of C62; substitution of arguments, renaming with its assertion, the rewriting of a function | a relation closed under replacing a call by the body, results in the limit of fuel in both directions, freshness invariants of the renaming; witnesses where effects move |
| C64 | lowered expressions by number of eightbytes, the generator with its depth, labels and frame, an instruction set of 20 instructions with memory below and above zero; a flag for a variant of the generator with three changes | meaning by fuel with values, returns and jumps; forward simulation by induction on the fuel over nine mutual claims, with the depth as an invariant, the frame from C23, labels unique; witnesses for the code as it is |
| C65 | inference with levels and a substitution in place of the pool of cells; a declarative type system written separately; a flag for the variant that generalises over the variables of any function of a group | invariants on levels and scopes (`Fit`, `Av`), states only grow, mutual induction over expressions; a witness for the code as it is |
| C66 | premises with paths, search through instances on the state of C65, the check for overlaps, dictionaries from satisfactions; a declarative notion of proof and of right dictionaries written separately | unification and matching extend the substitution; solutions survive unification, so failure means apart; maps of types that respect instances; induction on proofs for completeness, on dictionaries for coherence |
| C67 | the same | rank of a class from the order of C06, size of a constraint when instances require smaller ones; witnesses of both loops |
| C68, C69 | the walk of kind inference over types, expressions, declarations and modules, on the pool of C35–C37 (`KindUnify`) and the order of C05; declarative kinding rules written separately for any assignment of kinds | every action is described by the condition it puts on kinds: on success the solutions are exactly those that satisfy it, on failure there are none; rules for sequences and loops, mutual induction over types and expressions; results do not depend on fuel; witness for the order |
| C70, C71 | the normalizer's `after_ct` on compile-time expressions with the context's phases, instances and identifiers; evaluation of expressions by unfolding and substitution written separately | an invariant that relates every definition in the context to the one it stands for, in each phase; identifiers are injective in their meaning; termination by induction on how much of a finite set of references has not been looked at, inside it on the evaluation |
| C72 | `Context::populate` and the collector of new definitions, on the context of C70; kinds of expressions and what a complete set of definitions is written separately | the collector's result is closed under mention and reachable; evaluation keeps kinds, so that only normalized types and functions are met; an invariant over all calls |
| C73 | the writer of ELF object files: string tables, symbol tables, relocations, section headers, and the adapter from objects; a reader of ELF files by the System V ABI written separately | what is read at an offset is what was appended there; a string table holds every string it has given an index for, whatever is appended later; the file is read back section by section |
| C74, C75 | the iterators of `std/iterator.llrl` and `std/it.llrl` as state machines with fuel; what an iterator yields, and that it has ended for good, written separately | each combinator by a relation between its state and the list that is left, which every call keeps; loops by induction on the list; ranges are refuted near the end of the type |
| C76, C77, C78 | the macros `s:k`, `s:list`, `try!`, `try?`, `s/match` and `quasiquote` on S-expressions, an evaluator with fuel for the part of the language that they expand to, over any host for the rest; `std/s.llrl` | templates, what fills them and what fits them are inductive, without expansions; the expansions by induction on the template; patterns with `,@` before other elements are refuted |
| C79 | the control macros of `std/control.llrl` and the cases of the evaluator for `begin`, `if`, `let` with one variable and `while`; the words of the language (`unit`, `if`, …) are not rebound; not modelled: `lambda`, `loop`, `case` and the variants of `with` and `match` with `1` and `?` not named in C79 | what bodies, patterns, clauses and loops come to is a relation over any evaluation of expressions; each macro is shown to produce a fixed expression, which is evaluated by induction on the relation |
| C80, C81 | `SyntaxBody::pack`/`unpack`, `from_host`/`into_host` of the native S-expressions on trees of cells (bytes and collector left out), `std/s-display.llrl`; floating-point printing is a parameter | that cells are an S-expression is an inductive relation on elements, ends and locations; the conversion by induction on the S-expression through a structural reference; the text against the model of the compiler's printer (C44) |
| C82, C83 | `std/rw.llrl`, `std/string-reader.llrl` and `std/io/file.llrl` on lists of bytes; a stream of C is what is left of it and the error after it | what a reader has left is any relation that its reads keep to; reading to the end by induction on what is left, for every such reader; `read-bytes!` with a reader that gives one byte at a time is refuted |
| C84 | `llrl1/sexp/lexer.llrl` and `location/eat` of `llrl1/source-location.llrl`, beside the lexer of `llrl0` (C02 to C04); reading floating-point numbers is one parameter for each | the functions agree one by one on known characters, so do the tokens, by induction on what is left; integers through C49; panics by what each function has consumed; `+5` is refuted |
| C85 | `llrl1/sexp/parser.llrl` without locations, beside the parser of `llrl0` (C44, C45) | a grammar of its own that differs from that of `llrl0` in one rule; soundness by induction on fuel, completeness by induction on derivations, with what may follow; an end for every sequence of tokens by counting them; `x {@ y}` is refuted |
| C86 | `llrl1/path.llrl` on the string operations of the area `StrOps`, beside the paths of `llrl0` (C19) | encoding of strings as bytes; the first slash by the specification of `string/find?`, parts by uniqueness of cuts; a character above 111411 is refuted |
| C52–C59 | see `properties.jsonl`; stack machine, string and preprocessor areas added while the model grew | invariants and refinements in the area's `Props.lean` |

Nothing is planned as "not expressible"; floating-point parsing/printing, OS calls, mmap protection and thread memory ordering
are outside the model, and are named at each theorem where they matter.

## Where the code and a property disagree

The model follows the code.  Where the code violates the property, the violation is a theorem with a concrete witness and the claim is `partial`.

* `unification/types.rs` `match_to_right` is not one-sided: `match_binds_right` matches `F x x` with `F w Int` and binds `w`, an unknown of the right side.
* `rt/rt.c` `llrt_i64_to_string` writes the sign of the least `I64` in radix 2 one byte before its 64-byte buffer (`to_string_overflows_partial`); all other values and radices are fine.
* `std/internal/array-vector.llrl` `array/ref` accepts the index equal to the length (`array_ref_end_partial`), and `array/update` on an empty array accepts every index, because `length - 1` wraps (`array_update_empty_partial`).
* `std/internal/string-text.llrl` `string/remove-start` and `string/remove-end` never end for an empty prefix or suffix (`remove_start_empty_partial`, `remove_end_empty_partial`), and `string/reverse` reverses bytes, so that every string with a character beyond ASCII becomes malformed (`reverse_breaks_partial`).
* `std/io/path.llrl` `path/canonicalize` gives the empty string for every path denoting the root (`canonicalize_root_partial`), which denotes the working directory; and `path/join` of the empty path with a relative path is absolute (`join_empty_partial`).
* `std/xxhash.llrl` `finalize` reads the remaining lane of 4 bytes as an `I32` and extends its sign, so that the digest is XXH64 exactly if that lane is less than 2^31 (`digest_xxh64_partial`, an equivalence); the digest is nevertheless independent of the chunks.
* `std/persistent/hash-map.llrl` `tree/from-collision-elems` cuts the number of collision elements to a `U32`: after 2^32 + 1 insertions of keys with one hash the map has lost keys (`collision_overflow`); with fewer it is a finite map (`hash_map_partial`).
* `llrl0/src/parser/primitive.rs` `RecoverableSeq` never ends on a token sequence containing an `Eof` token (`parse_eof_diverges`); the lexer produces none, and then parsing always ends (`parse_lexed`).
* `llrl0/src/sexp.rs` `Display` loses, on reading back: the sign flag of integers that are not negative (`signed_lost`), symbols and floats printed as digits (`digits_symbol_lost`, `digits_float_lost`), an annotated or tried quotation (`marked_annotate_lost`, `marked_try_lost`), two `try` marks in a row (`glued_try_lost`), a dotted list ending in a list (`dotted_list_lost`), symbols whose text is not a symbol (`symbol_only`) and natives (`native_lost`).  Everything else is read back as it was (`print_parse_partial`).
* `std/hash.llrl` hashes the bits of floats, while `=` on floats compares numbers: `0.0` and `-0.0` are equal and hash apart (`zeros_hash_apart`, `zeros_digests_apart`).  Without floats equal values always hash alike (`equal_hash_alike_no_float`).
* `llrl0/src/backend/chibi/codegen.rs` `eval_binary` compares floats with `comisd` and `sete`/`setb`/`setbe`: with not-a-number `=`, `<` and `<=` hold (`fcompare_unordered`, `chibi_nan`); the LLVM backend uses the ordered comparisons.
* `llrl0/src/backend/chibi/codegen.rs` `eval_unary` converts floats to 8 unsigned bytes by the signed conversion: all numbers from 2^63 become 2^63 (`ftou_upper`, `ftou_fails`; there is a FIXME).
* `normalizer.rs` `call_transparent` puts arguments where parameters are, so an effect of an argument is dropped, doubled or moved (`drops_effects`, `doubles_effects`, `reorders_effects`, `reads_late`), `return` leaves the caller (`returns_too_far`), an argument that defines a variable and is used twice makes the compiler panic (`panics`), and a recursive transparent function makes it loop (`recursion_never_ends`).  The standard library has transparent functions of the first kind (`Hash.unit`, `Display.String`).
* `backend/chibi/codegen.rs` generates no code at all for a call whose callee has no type (`no_code_for_callee`), still counts after a loop what a body that never finishes has pushed, which misaligns the stack at the next call (`depth_after_loop`), and evaluates the arguments of C functions from right to left (`order_of_arguments`).  `codegen_correct` is about the generator with these three repaired, `codegen_correct_partial` about the code as it is for programs without them.  Both need that no argument of a jump jumps (`jump_in_jump`).
* `llrl0/src/module/sema/type_inference.rs` `compute_common_type_vars` generalises the functions of a recursive group only over the variables that are in the types of all of them.  The others keep their level, stay in the environment and are generalised by the next function that gets hold of them: a module is accepted with types it does not have (`weak_variables`: a type parameter of one function is free in the type of another), and a well-typed one refused (`weak_refused`).  `infer_sound` is about the variant that generalises over all of them, `infer_sound_partial` about the code as it is for groups of one function.
* `llrl0/src/module/sema/type_inference.rs` `infer_instance_satisfaction` accepts a superclass that follows from what the instance itself is required for.  With classes `Z`, `A` (superclass `Z`) and `B` (superclass `A`), the instances `(A a)` where `(B a)` and `(B Int)` are accepted without any instance of `Z`; the table for `Z` of `(A Int)` is then looked for in itself and the normalizer does not end (`Instances.superclass_loop`).
* `llrl0/src/module/sema/type_inference.rs` `install_premise_constraint` does not end for a class that is its own superclass, which `verify_classes_hierarchy` lets pass (`Instances.self_superclass`).
* `llrl0/src/unification/types.rs` `match_to_right` writes to the unknown types of its right side when a parameter of the instance is there twice, also when the match then fails: a constraint put off to an outer scope may leave a type behind that nothing in the program asks for (`Instances.match_binds`, `Instances.failed_match_binds`).
* `llrl0/src/module/sema/kind_inference.rs` sorts classes by the constraints of their interfaces only, not by what the bodies of default methods refer to, and the kind of a type parameter of a local function is fixed to `*` where nothing has been found out about it yet.  A module with such a default method is accepted or not depending on which class comes first in a `HashMap` (`KindInfer.order_matters`), and with a superclass it is refused in every order although it is well kinded (`KindInfer.well_kinded_rejected`).
* Polymorphic recursion (an annotated generic function that uses itself at a larger type) is not refused before monomorphisation, and there it makes instances for ever (`Mono.poly_never_ends`); C71 says exactly when this happens.
* `iterator/range` adds the step after the last element too, and the sum may wrap around: the range of `U8` from 250 to 255 in steps of 4 never ends (`Iter.range_wraps`); C75 holds when the end of the range is at least a step away from the limit, and always for steps of one.
* `s/match` expands a pattern with `,@x` before other elements of a list to one that matches the text `(unquote-splicing x)` there, without an error (`Macro.sMatch_middle`); C77 holds for `,@` at the end of lists.
* `std/s-display.llrl` and `Display` in `llrl0/src/sexp.rs` disagree on `(try? ())` and `(try! ())` (`()?` only in the compiler, `SexpData.try_nil_differs`) and on a dotted list after `try?` or `try!` (`(a . b)!` only in the standard library, `SexpData.try_dotted_differs`).
* `std/rw.llrl` `read-bytes!` reads once only: with a reader that gives fewer bytes than it is asked for, as the class allows, it says `unexpected-eof` though there are enough bytes, and has taken some of them (`Rw.short_read_fails`); vectors and files never do so.
* `+5` is an integer for `llrl0/src/lexer.rs`, as `u64::from_str` takes a plus sign, but not for `llrl1/sexp/lexer.llrl`, as `integer/from-string?` does not and `float/from-string?` does (`SelfLexer.plus_differs`).
* `llrl1/sexp/lexer.llrl` panics on exactly the texts with a character above 111411, even within comments, which `llrl0` takes (`SelfLexer.lex_panics_iff`).
* `llrl1/sexp/parser.llrl` accepts `@` within braces, as `x {@ y}`, which `llrl0/src/parser/grammar.rs` rejects (`SelfParser.at_in_braces`).
* `llrl1/path.llrl` `path/from-string` panics on a path with a character above 111411, which `llrl0/src/path.rs` reads (`SelfPath.unknown_panics`).
