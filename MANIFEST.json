{
 "claims": [
  {
   "property": "C01",
   "status": "proved",
   "theorems": [
    "Verif.Str.escape_unescape",
    "Verif.Str.unescape_exact",
    "Verif.Str.denotes_functional",
    "Verif.Str.escape_one_line"
   ],
   "note": "unescape is exactly the inverse of the escape grammar; escape then unescape is the identity."
  },
  {
   "property": "C02",
   "status": "proved",
   "theorems": [
    "Verif.Lexer.lex_lossless",
    "Verif.Lexer.lex_contiguous",
    "Verif.Lexer.lex_iff"
   ],
   "note": "Token slices concatenate to the input; lex equals the unique tokenisation of an independent grammar."
  },
  {
   "property": "C03",
   "status": "proved",
   "theorems": [
    "Verif.Lexer.lex_total"
   ],
   "note": "lex never panics."
  },
  {
   "property": "C04",
   "status": "proved",
   "theorems": [
    "Verif.Lexer.lex_lossless",
    "Verif.Lexer.lex_iff"
   ],
   "note": "Start and end of every token are the line/byte-column/offset of its slice."
  },
  {
   "property": "C16",
   "status": "partial",
   "theorems": [
    "Verif.Scope.scopes_refine_frames",
    "Verif.Scope.leaving_restores",
    "Verif.Scope.define_reports_duplicates",
    "Verif.Scope.duplicate_corrupts_outer",
    "Verif.Scope.third_definition_panics"
   ],
   "note": "Holds for every run without a duplicate definition in a frame; the two refutations show the error path of the code violates it."
  },
  {
   "property": "C17",
   "status": "partial",
   "theorems": [
    "Verif.Preprocess.run_lexical_partial",
    "Verif.Preprocess.expand_restores_partial",
    "Verif.Preprocess.run_no_fuel",
    "Verif.Preprocess.duplicate_leaks"
   ],
   "note": "Holds when no single directive binds one name twice; duplicate_leaks is a concrete violation by the code otherwise."
  },
  {
   "property": "C14",
   "status": "proved",
   "theorems": [
    "Verif.Import.fromPattern_isSome",
    "Verif.Import.deconstruct_iff",
    "Verif.Import.construct_iff",
    "Verif.Import.rename_back",
    "Verif.Import.rename_injective"
   ],
   "note": "Patterns stated by an independent shape relation."
  },
  {
   "property": "C15",
   "status": "proved",
   "theorems": [
    "Verif.Import.import_meaning",
    "Verif.Import.import_succeeds",
    "Verif.Import.import_inits",
    "Verif.Import.definitions_succeed",
    "Verif.Import.export_meaning"
   ],
   "note": "For every iteration order of the export tables."
  },
  {
   "property": "C18",
   "status": "partial",
   "theorems": [
    "Verif.Interning.review_intern_partial",
    "Verif.Interning.intern_eq_iff_partial",
    "Verif.Interning.wraps_around"
   ],
   "note": "Holds up to 2^32 different values; wraps_around shows the 32-bit index wraps beyond that."
  },
  {
   "property": "C19",
   "status": "partial",
   "theorems": [
    "Verif.Path.parse_print",
    "Verif.Path.parse_reachable",
    "Verif.Path.print_injective",
    "Verif.Path.parse_accepts",
    "Verif.Path.files_collide",
    "Verif.Path.files_differ_partial"
   ],
   "note": "Round trip proved in full; 'different paths denote different files' is refuted by files_collide (the extension replaces anything after the last dot) and proved for last parts without a dot."
  },
  {
   "property": "C05",
   "status": "proved",
   "theorems": [
    "Verif.TopoSort.output_exists",
    "Verif.TopoSort.sort_partition",
    "Verif.TopoSort.sort_same_group"
   ],
   "note": "Tarjan correctness for all finite graphs; recursion depth shown bounded by the number of items."
  },
  {
   "property": "C06",
   "status": "proved",
   "theorems": [
    "Verif.TopoSort.sort_order"
   ],
   "note": "Also for indirect dependencies."
  },
  {
   "property": "C46",
   "status": "partial",
   "theorems": [
    "Verif.TopoSort.cyclic_classes_rejected_partial",
    "Verif.TopoSort.self_superclass_accepted"
   ],
   "note": "Exact for cycles through two or more classes; self_superclass_accepted shows the code accepts a class that is its own direct superclass."
  },
  {
   "property": "C47",
   "status": "proved",
   "theorems": [
    "Verif.TopoSort.cycle_iff_error",
    "Verif.TopoSort.order_respects",
    "Verif.TopoSort.not_own_dependency"
   ],
   "note": ""
  },
  {
   "property": "C37",
   "status": "partial",
   "theorems": [
    "Verif.Utf8.utf8_round_trip_partial",
    "Verif.Utf8.encode_iff",
    "Verif.Utf8.encode_refuses",
    "Verif.Utf8.round_trip_fails"
   ],
   "note": "Holds for scalars up to 111411; the code writes 111411 where 1114111 is meant, so encode_refuses shows every larger scalar is rejected."
  },
  {
   "property": "C38",
   "status": "partial",
   "theorems": [
    "Verif.Utf8.valid_iff_partial",
    "Verif.Utf8.chars_utf8s",
    "Verif.Utf8.char_indices_utf8s",
    "Verif.Utf8.char_boundary_iff",
    "Verif.Utf8.substring_spec",
    "Verif.Utf8.utf8s_injective"
   ],
   "note": "Exact for scalars up to 111411 (same wrong constant as C37)."
  },
  {
   "property": "C34",
   "status": "proved",
   "theorems": [
    "Verif.RobinHood.hash_map_refines",
    "Verif.RobinHood.run_refines",
    "Verif.RobinHood.step_refines",
    "Verif.RobinHood.eqMaps_iff"
   ],
   "note": "All operation sequences of up to 2^61 calls on a map of positive capacity (hash-map/empty has 32), every hash function; also iteration and Eq. The capacity 0 defect is under C35."
  },
  {
   "property": "C35",
   "status": "partial",
   "theorems": [
    "Verif.RobinHood.capacity_sufficient_partial",
    "Verif.RobinHood.with_capacity_spec",
    "Verif.RobinHood.with_capacity_large",
    "Verif.RobinHood.insert_capacity",
    "Verif.RobinHood.with_capacity_zero",
    "Verif.RobinHood.with_capacity_zero_insert"
   ],
   "note": "Exact for 1..2^62; with_capacity_zero shows that a map of capacity 0 has no slots and that looking up in it reads out of bounds; a power of two n gets exactly n slots, the free slot comes from the growth at insertion."
  },
  {
   "property": "C29",
   "status": "proved",
   "theorems": [
    "Verif.RbMap.lookup_history",
    "Verif.RbMap.lookup_insert",
    "Verif.RbMap.lookup_remove",
    "Verif.RbMap.collect_spec"
   ],
   "note": "Trees are values, so older versions are the arguments themselves."
  },
  {
   "property": "C30",
   "status": "proved",
   "theorems": [
    "Verif.RbMap.balanced",
    "Verif.RbMap.removals_succeed"
   ],
   "note": ""
  },
  {
   "property": "C31",
   "status": "partial",
   "theorems": [
    "Verif.RbMap.unionWith_spec",
    "Verif.RbMap.union_spec",
    "Verif.RbMap.intersectionWith_spec",
    "Verif.RbMap.intersection_spec",
    "Verif.RbMap.difference_spec",
    "Verif.RbMap.difference_subset_partial",
    "Verif.RbMap.difference_wrong"
   ],
   "note": "Union and intersection hold. The difference is really the symmetric difference (difference_spec); it is right only when the keys of the second map are in the first."
  },
  {
   "property": "C32",
   "status": "proved",
   "theorems": [
    "Verif.RbMap.elems_sorted_complete",
    "Verif.RbMap.getMin_eq",
    "Verif.RbMap.getMax_eq",
    "Verif.RbMap.elems_removeMin",
    "Verif.RbMap.elems_removeMax",
    "Verif.RbMap.eq_iff_same_bindings",
    "Verif.RbMap.compare_lt_iff",
    "Verif.RbMap.compare_eq_iff"
   ],
   "note": ""
  },
  {
   "property": "C22",
   "status": "proved",
   "theorems": [
    "Verif.MemLayout.product_c_struct",
    "Verif.MemLayout.product_placed",
    "Verif.MemLayout.sum_fits",
    "Verif.MemLayout.sum_least",
    "Verif.MemLayout.resolved_wf"
   ],
   "note": "Structures are laid out as C does, by an independent specification."
  },
  {
   "property": "C52",
   "status": "proved",
   "theorems": [
    "Verif.MemLayout.register_succeeds_iff",
    "Verif.MemLayout.register_depth",
    "Verif.MemLayout.register_layouts",
    "Verif.MemLayout.register_order_independent",
    "Verif.MemLayout.register_all_orders",
    "Verif.MemLayout.register_cyclic_fails"
   ],
   "note": ""
  },
  {
   "property": "C53",
   "status": "proved",
   "theorems": [
    "Verif.MemLayout.value_in_registers",
    "Verif.MemLayout.other_on_stack",
    "Verif.MemLayout.c_args_placed",
    "Verif.MemLayout.c_ret_placed",
    "Verif.MemLayout.call_aligned",
    "Verif.MemLayout.call_padding",
    "Verif.MemLayout.call_result",
    "Verif.MemLayout.resolved_regular"
   ],
   "note": ""
  },
  {
   "property": "C23",
   "status": "proved",
   "theorems": [
    "Verif.StackFrame.live_disjoint",
    "Verif.StackFrame.live_in_frame",
    "Verif.StackFrame.param_where_pushed",
    "Verif.StackFrame.allocations_disjoint"
   ],
   "note": "For functions whose variables have different identifiers (identifiers come from a generator, rt.rs:7-30)."
  },
  {
   "property": "C24",
   "status": "proved",
   "theorems": [
    "Verif.Asm.decode_encode",
    "Verif.Asm.encode_reg_accepts",
    "Verif.Asm.address_accepts",
    "Verif.Asm.encode_bytes_lt",
    "Verif.Asm.encode_injective",
    "Verif.Asm.decode_in_opcode",
    "Verif.Asm.views"
   ],
   "note": "Against an independent decoder following the architecture manual."
  },
  {
   "property": "C55",
   "status": "partial",
   "theorems": [
    "Verif.Asm.forms_decode_partial",
    "Verif.Asm.forms_decode_refuted",
    "Verif.Asm.forms_distinct_partial",
    "Verif.Asm.forms_distinct_refuted",
    "Verif.Asm.same_key_same_instruction",
    "Verif.Asm.same_group_same_kind"
   ],
   "note": "Proved for the 1188 forms with a ModR/M byte other than pminsb, whose opcode lacks a byte; jecxz and jrcxz have the same bytes. Fixed forms (no ModR/M) are only transcribed."
  },
  {
   "property": "C25",
   "status": "proved",
   "theorems": [
    "Verif.Obj.jump_lands",
    "Verif.Obj.jump_linked",
    "Verif.Obj.produce_succeeds_iff",
    "Verif.Obj.labels_distinct",
    "Verif.Obj.inst_some"
   ],
   "note": "For every sequence of writer operations; jumps inside the object are proved on the produced bytes, jumps to other objects on the linked image (Linked is what a correct linker establishes)."
  },
  {
   "property": "C56",
   "status": "partial",
   "theorems": [
    "Verif.Obj.operand_linked_partial",
    "Verif.Obj.operand_linked_refuted",
    "Verif.Obj.table_operand_linked",
    "Verif.Obj.use_linked",
    "Verif.Obj.use_linked_table",
    "Verif.Obj.use_linked_abs"
   ],
   "note": "All label operands except movq label, imm32, whose relocation overwrites the immediate instead of the displacement (operand_linked_refuted)."
  },
  {
   "property": "C26",
   "status": "partial",
   "theorems": [
    "Verif.Jit.add_linked_partial",
    "Verif.Jit.near_in_reach",
    "Verif.Jit.far_refuted",
    "Verif.Jit.jit_jump_lands_partial",
    "Verif.Jit.jit_table_operand_partial",
    "Verif.Jit.local_table_refuted",
    "Verif.Jit.local_table_refused"
   ],
   "note": "Every successful link is right when the targets are within reach, which near_in_reach shows for everything in the engine's own memory. far_refuted: the range check never fires, so an out of range target is truncated silently."
  },
  {
   "property": "C27",
   "status": "proved",
   "theorems": [
    "Verif.Jit.blocks_disjoint",
    "Verif.Jit.allocate_fails_iff",
    "Verif.Jit.add_placed",
    "Verif.Jit.loaded_stay"
   ],
   "note": "For every operating system whose mmap answers do not overlap; also that sections keep their contents."
  },
  {
   "property": "C28",
   "status": "partial",
   "theorems": [
    "Verif.Jit.symbol_kept",
    "Verif.Jit.register_iff",
    "Verif.Jit.add_duplicate_fails",
    "Verif.Jit.add_defined",
    "Verif.Jit.add_origin",
    "Verif.Jit.table_entry",
    "Verif.Jit.table_entries_apart",
    "Verif.Jit.local_table_refuted"
   ],
   "note": "Holds for the symbols of the engine; a symbol local to an object has no address table entry of its own: through the table it is confused with a symbol of the same name of another object (local_table_refuted)."
  },
  {
   "property": "C07",
   "status": "partial",
   "theorems": [
    "Verif.PatMatch.accepted_covers",
    "Verif.PatMatch.rejected_missing",
    "Verif.PatMatch.rejected_disjoint_partial",
    "Verif.PatMatch.accepted_iff_partial",
    "Verif.PatMatch.validate_total",
    "Verif.PatMatch.missing_overlap_refuted",
    "Verif.PatMatch.empty_type_refuted",
    "Verif.PatMatch.literals_never_exhaust"
   ],
   "note": "Accepted implies exhaustive without conditions; rejected implies each reported pattern matches an unmatched value if all types have values and literals do not exhaust a type. That no value of a reported pattern is matched is refuted for literals (`_` is reported) and proved without them."
  },
  {
   "property": "C08",
   "status": "partial",
   "theorems": [
    "Verif.PatMatch.useless_reported",
    "Verif.PatMatch.needed_unless_reported_partial",
    "Verif.PatMatch.useless_iff_partial",
    "Verif.PatMatch.accepted_iff_partial",
    "Verif.PatMatch.useless_missed_refuted"
   ],
   "note": "A reported clause is useless without conditions; the converse holds when different literals denote different values, and is refuted otherwise (5 and +5)."
  },
  {
   "property": "C09",
   "status": "partial",
   "theorems": [
    "Verif.Branch.first_match_partial",
    "Verif.Branch.expand_total",
    "Verif.Branch.expand_fuel",
    "Verif.Branch.first_match_refuted"
   ],
   "note": "Proved for every list of clauses and every value when different constants in the patterns denote different values; expansion terminates without a panic for every input. first_match_refuted: 5 and +5 are different constants with the same value, and the code then picks the wrong clause."
  },
  {
   "property": "C54",
   "status": "partial",
   "theorems": [
    "Verif.StackMachine.compile_correct_partial",
    "Verif.StackMachine.push_spec",
    "Verif.StackMachine.pop_spec",
    "Verif.StackMachine.load_spec",
    "Verif.StackMachine.store_spec",
    "Verif.StackMachine.slide_spec",
    "Verif.StackMachine.store_load",
    "Verif.StackMachine.push_pop",
    "Verif.StackMachine.elem_of_struct",
    "Verif.StackMachine.elem_zero_refuted"
   ],
   "note": "Every layout of the resolver, every value, every memory; register bytes and memory modelled with the x86-64 meaning of the emitted instructions. Storing, loading, pushing, popping and sliding hold without conditions; reading component 0 of a structure of as many eightbytes needs the two to be in the same registers, and otherwise the code is wrong: elem_zero_refuted (a structure of an F32 and an I32)."
  },
  {
   "property": "C11",
   "status": "proved",
   "theorems": [
    "Verif.Parallel.built_once",
    "Verif.Parallel.dependencies_first",
    "Verif.Parallel.result_available",
    "Verif.Parallel.final_results",
    "Verif.Parallel.run_bounded",
    "Verif.Parallel.run_progress",
    "Verif.Parallel.build_ends"
   ],
   "note": "Every interleaving of the atomic actions of the worker threads, for every list of sources in dependency order with distinct paths (what SourceSet::resolve_dependencies_order gives and build asserts), every outcome of Module::build; repeated dependency entries included."
  },
  {
   "property": "C12",
   "status": "proved",
   "theorems": [
    "Verif.Collector.loaded_once",
    "Verif.Collector.loaded_reachable",
    "Verif.Collector.sources_reachable",
    "Verif.Collector.schedule_independent",
    "Verif.Collector.run_bounded",
    "Verif.Collector.run_progress",
    "Verif.Collector.collect_ends",
    "Verif.Collector.no_errors_iff"
   ],
   "note": "Every interleaving of the atomic actions, every loader (errors included), every iteration order of the dependency maps, cyclic graphs included. Termination for finitely many reachable modules."
  },
  {
   "property": "C57",
   "status": "proved",
   "theorems": [
    "Verif.Collector.order_sorted",
    "Verif.Collector.build_asserts"
   ],
   "note": "For every run of the collection that ended, composed with the proved topological sort."
  },
  {
   "property": "C13",
   "status": "proved",
   "theorems": [
    "Verif.MainInit.evaluated_once",
    "Verif.MainInit.evaluated_count",
    "Verif.MainInit.imports_first",
    "Verif.MainInit.module_imports_first",
    "Verif.MainInit.arrival_independent",
    "Verif.MainInit.run_progress",
    "Verif.MainInit.run_bounded",
    "Verif.MainInit.run_ends",
    "Verif.MainInit.parallel_requests",
    "Verif.MainInit.main_evaluates"
   ],
   "note": "Every arrival order of requests relative to the loop of the lowering thread; the hypothesis on requests (every module once, after what it waits for) is discharged for parallel builds by parallel_requests. Position statements use that different top-level expressions are different (they carry different node ids)."
  },
  {
   "property": "C10",
   "status": "proved",
   "theorems": [
    "Verif.DataExpander.constructors_apart",
    "Verif.DataExpander.data_program",
    "Verif.DataExpander.data_typed",
    "Verif.DataExpander.defs_apart",
    "Verif.DataExpander.types_end",
    "Verif.DataExpander.compute_some"
   ],
   "note": "Every data type, representation, nested value and nested pattern; uninitialized memory and wrong variants are never read. The logarithm computed in f64 is modelled as exact; types of one generation are assumed not to be mentioned by earlier generations (collected with everything they mention)."
  },
  {
   "property": "C20",
   "status": "proved",
   "theorems": [
    "Verif.KindUnify.kind_history",
    "Verif.KindUnify.kind_acyclic",
    "Verif.KindUnify.kind_unify_equal",
    "Verif.KindUnify.kind_default",
    "Verif.KindUnify.kind_default_type"
   ],
   "note": "All histories of creating, importing, unifying, exporting kinds, also after failures; principal solutions; default_vars. The strings of the error messages are not modelled (an unknown is exported as its number)."
  },
  {
   "property": "C21",
   "status": "proved",
   "theorems": [
    "Verif.TypeUnify.type_unify_decides",
    "Verif.TypeUnify.type_most_general",
    "Verif.TypeUnify.type_unify_equal",
    "Verif.TypeUnify.type_match_ground",
    "Verif.TypeUnify.type_acyclic",
    "Verif.TypeUnify.type_total"
   ],
   "note": "unification/types.rs modelled with its path compression, levels and kinds. After every history of operations unify returns Ok exactly when the equations (with kinds and levels) are solvable, the exported types are those of a most general solution, and no cyclic type exists even after failed unifications. The kind environment is a function; unknown names are cell indices."
  },
  {
   "property": "C50",
   "status": "proved",
   "theorems": [
    "Verif.Derive.derive_ord",
    "Verif.Derive.derive_ord_total",
    "Verif.Derive.derive_ord_antisymm",
    "Verif.Derive.derive_eq_agrees",
    "Verif.Derive.ofCompare_lawful",
    "Verif.Derive.ofTests_lawful",
    "Verif.Derive.min_least",
    "Verif.Derive.max_greatest",
    "Verif.Derive.chain_iff",
    "Verif.Derive.array_ord",
    "Verif.Derive.string_ord",
    "Verif.Derive.option_ord",
    "Verif.Derive.result_ord"
   ],
   "note": "derive/Ord and derive/Eq are modelled by the clauses they generate and first-match evaluation, for all (mutually recursive) data declarations with distinct constructor names; base types are parameters with total orders (floats with NaN are not one). min, max, chained comparisons, default methods, arrays, strings, Option and Result included. S-expression syntax of the generated code is not modelled."
  },
  {
   "property": "C49",
   "status": "partial",
   "theorems": [
    "Verif.Integer.from_string_denotes",
    "Verif.Integer.to_string_denotes_partial",
    "Verif.Integer.to_string_overflows_partial",
    "Verif.Integer.denotes_unique",
    "Verif.Integer.to_string_radix"
   ],
   "note": "Reading is proved completely: for every integer type, radix and text it is defined and accepts exactly the text that denotes a value of the type. Printing and the round trip are proved for every value and radix 2..36 except the least I64 in radix 2, where the code writes its sign outside the buffer (to_string_overflows_partial)."
  },
  {
   "property": "C39",
   "status": "partial",
   "theorems": [
    "Verif.Vector.array_get",
    "Verif.Vector.array_set",
    "Verif.Vector.array_insert",
    "Verif.Vector.array_remove",
    "Verif.Vector.array_update_partial",
    "Verif.Vector.array_update_empty_partial",
    "Verif.Vector.array_ref_partial",
    "Verif.Vector.array_ref_end_partial",
    "Verif.Vector.array_subarray",
    "Verif.Vector.array_take_skip",
    "Verif.Vector.array_concat"
   ],
   "note": "Reading, writing, insert, remove, subarray, take, skip and concat are proved for all arrays and indices over a memory model with explicit out-of-bounds, uninitialised and overlap errors. The code violates the property in two places, each a theorem: array/ref accepts the length, array/update accepts any index on an empty array. For these two the property is proved outside the violating cases."
  },
  {
   "property": "C40",
   "status": "proved",
   "theorems": [
    "Verif.Vector.run_list",
    "Verif.Vector.step_list",
    "Verif.Vector.length_le_capacity",
    "Verif.Vector.others_keep",
    "Verif.Vector.consume_apart",
    "Verif.Vector.empty_holds",
    "Verif.Vector.from_array_holds",
    "Verif.Vector.init_wf"
   ],
   "note": "All operation sequences on one vector refine list operations; the only other outcome is running out of memory when more than the allocation limit is asked for. Elements without size are left out."
  },
  {
   "property": "C41",
   "status": "partial",
   "theorems": [
    "Verif.StrOps.substring_text",
    "Verif.StrOps.substring_ok",
    "Verif.StrOps.take_ok",
    "Verif.StrOps.skip_ok",
    "Verif.StrOps.take_skip_beyond",
    "Verif.StrOps.take_skip_text",
    "Verif.StrOps.contains_iff",
    "Verif.StrOps.find_spec",
    "Verif.StrOps.split_join",
    "Verif.StrOps.cut_unique",
    "Verif.StrOps.join_text",
    "Verif.StrOps.replace_spec",
    "Verif.StrOps.split_lines_spec",
    "Verif.StrOps.concat_text",
    "Verif.StrOps.consume_text",
    "Verif.StrOps.reverse_partial",
    "Verif.StrOps.reverse_breaks_partial",
    "Verif.StrOps.find_fails_partial"
   ],
   "note": "Slicing, concatenating, splitting, joining, replacing, cutting into lines and consuming are proved to keep strings well-formed for all strings of characters the library knows (up to 111411), with exact specifications; joining what splitting produced gives back the original. The code violates the property when reversing: every string with a character beyond ASCII is reversed into one that is not well-formed (reverse_breaks_partial). Strings with characters beyond 111411 make searching fail an assertion (find_fails_partial)."
  },
  {
   "property": "C51",
   "status": "partial",
   "theorems": [
    "Verif.StrOps.split_ends",
    "Verif.StrOps.replace_spec",
    "Verif.StrOps.remove_start_partial",
    "Verif.StrOps.remove_start_empty_partial",
    "Verif.StrOps.remove_end_partial",
    "Verif.StrOps.remove_end_empty_partial",
    "Verif.StrOps.split_lines_spec"
   ],
   "note": "Splitting and replacing end for all pairs of strings; removing a non-empty prefix or suffix ends. The code violates the property for the empty prefix and the empty suffix: the loops never end (remove_start_empty_partial, remove_end_empty_partial)."
  },
  {
   "property": "C48",
   "status": "partial",
   "theorems": [
    "Verif.FilePath.canonicalize_partial",
    "Verif.FilePath.canonicalize_root_partial",
    "Verif.FilePath.canonicalized_path_spec",
    "Verif.FilePath.join_absolute",
    "Verif.FilePath.join_partial",
    "Verif.FilePath.join_empty_partial",
    "Verif.FilePath.path_macros_agree",
    "Verif.FilePath.dir_base_join",
    "Verif.FilePath.extension_spec",
    "Verif.FilePath.with_extension_spec",
    "Verif.FilePath.with_extension_extension",
    "Verif.FilePath.default_extension_spec"
   ],
   "note": "Paths are strings of bytes with a meaning (a location reached from a working directory). Dir name and base name always join to a path with the same meaning; joining an absolute path gives it; canonicalising is idempotent and keeps the meaning unless the path denotes the root, where both are refuted (the result is the empty string); joining to the empty path is refuted too. Extension functions and the two macros are specified."
  },
  {
   "property": "C42",
   "status": "proved",
   "theorems": [
    "Verif.XxHash.chunking_independent",
    "Verif.XxHash.partition_independent"
   ],
   "note": "For all histories of write, finish and reset, with arrays at least 32 bytes shorter than the address space (memory holds none longer), and with no bound on the total length."
  },
  {
   "property": "C58",
   "status": "partial",
   "theorems": [
    "Verif.XxHash.digest_signed",
    "Verif.XxHash.digest_xxh64_partial"
   ],
   "note": "The digest is XXH64 (specified separately on whole byte lists) exactly if the remaining lane of 4 bytes is less than 2^31 or absent; otherwise it is proved to differ, because the code extends the sign."
  },
  {
   "property": "C45",
   "status": "partial",
   "theorems": [
    "Verif.Parser.parse_terminates_partial",
    "Verif.Parser.parse_lexed",
    "Verif.Parser.recovery_stops",
    "Verif.Parser.parse_eof_diverges"
   ],
   "note": "Every token sequence without an Eof token - in particular everything the lexer gives - parses to an end within an explicit number of steps, with every token consumed or an error. Partial: an Eof token inside the sequence makes RecoverableSeq loop forever (shown)."
  },
  {
   "property": "C44",
   "status": "partial",
   "theorems": [
    "Verif.Parser.print_parse_partial",
    "Verif.Parser.print_parse_all_partial",
    "Verif.Parser.signed_lost",
    "Verif.Parser.digits_symbol_lost",
    "Verif.Parser.digits_float_lost",
    "Verif.Parser.marked_annotate_lost",
    "Verif.Parser.marked_try_lost",
    "Verif.Parser.dotted_list_lost",
    "Verif.Parser.glued_try_lost",
    "Verif.Parser.symbol_only",
    "Verif.Parser.native_lost"
   ],
   "note": "Every faithful S-expression (defined in the Spec: the sugar is not ambiguous, symbols and floats read as themselves) is read back from its printed text, alone and in a sequence. Partial: the other S-expressions are lost, shown by refutations. Float printing and reading are parameters."
  },
  {
   "property": "C59",
   "status": "proved",
   "theorems": [
    "Verif.Parser.parse_iff_grammar",
    "Verif.Parser.grammar_unambiguous",
    "Verif.Parser.aggregate_ok_iff"
   ],
   "note": "Error-free parsing is equivalent to derivability in the grammar of the Spec, which is unambiguous; the aggregation of errors succeeds exactly in that case."
  },
  {
   "property": "C36",
   "status": "partial",
   "theorems": [
    "Verif.Hamt.hash_map_partial",
    "Verif.Hamt.collect_partial",
    "Verif.Hamt.hash_map_eq_partial",
    "Verif.Hamt.hash_map_empty_partial",
    "Verif.Hamt.deep_copy_partial",
    "Verif.Hamt.collision_overflow"
   ],
   "note": "Proved for all sequences of insertions and removals, any equivalence of keys and any hash function that agrees with it: lookup, membership, length, emptiness, iteration, collect, eq? and deep copies are those of a finite map, and no bucket is read outside of its bounds. Missing: more than 2^32 operations on keys of one and the same 64-bit hash, where the U32 number of collision elements overflows; collision_overflow shows that keys are then lost."
  },
  {
   "property": "C33",
   "status": "proved",
   "theorems": [
    "Verif.BTree.ord_map",
    "Verif.BTree.ord_map_outputs_unique",
    "Verif.BTree.ord_map_depth",
    "Verif.BTree.ord_map_collect",
    "Verif.BTree.ord_map_copy",
    "Verif.BTree.ord_map_compare"
   ],
   "note": "All operations, cursors, copies and comparisons of std/ord-map.llrl. The length is a U64, so the theorem assumes fewer than 2^64 keys, which holds for any sequence of fewer than 2^64 operations."
  },
  {
   "property": "C43",
   "status": "proved",
   "theorems": [
    "Verif.Heap2Stack.heap2stack_moves",
    "Verif.Heap2Stack.heap2stack_same",
    "Verif.Heap2Stack.heap2stack_value",
    "Verif.Heap2Stack.heap2stack_needs_names"
   ],
   "note": "Every program whose functions bind no variable twice and whose allocations are numbered apart; every set of other operations that reach only what they are given. The pass moves only allocations whose variable is loaded from and stored to and nothing else, and every call gives the same outcome after any number of steps (value, exit, or still running). heap2stack_needs_names shows that unique variable ids are needed."
  },
  {
   "property": "C60",
   "status": "partial",
   "theorems": [
    "Verif.Hash.equal_hash_alike_partial",
    "Verif.Hash.equal_hash_alike_no_float",
    "Verif.Hash.equal_digest_alike",
    "Verif.Hash.array_of_bytes_digest",
    "Verif.Hash.zeros_hash_apart",
    "Verif.Hash.zeros_digests_apart",
    "Verif.Hash.chibi_nan",
    "Verif.Hash.equal_hash_alike_fails"
   ],
   "note": "Without floats, equal values hash alike (all types, values, hashers); with floats 0.0 and -0.0 refute it, on Chibi also not-a-number; for floats only bit-equal or regular values are covered."
  },
  {
   "property": "C61",
   "status": "partial",
   "theorems": [
    "Verif.Arith.binary_correct",
    "Verif.Arith.division_traps",
    "Verif.Arith.compare_correct",
    "Verif.Arith.complement_correct",
    "Verif.Arith.popCount_correct",
    "Verif.Arith.sext_correct",
    "Verif.Arith.uext_correct",
    "Verif.Arith.trunc_correct",
    "Verif.Arith.fcompare_correct_partial",
    "Verif.Arith.fcompare_unordered",
    "Verif.Arith.stof_input",
    "Verif.Arith.utof_input",
    "Verif.Arith.utof_correct",
    "Verif.Arith.ftos_correct",
    "Verif.Arith.ftou_correct_partial",
    "Verif.Arith.ftou_lower",
    "Verif.Arith.ftou_upper",
    "Verif.Arith.ftou_fails"
   ],
   "note": "All integer and pointer operations, comparisons, extensions and conversions are right for all operands; the property fails for comparisons of floats with not-a-number and for conversion to 8 unsigned bytes from 2^63 up; shifts have a meaning below the width only."
  },
  {
   "property": "C62",
   "status": "proved",
   "theorems": [
    "Verif.Closure.closure_conversion_correct",
    "Verif.Closure.closure_conversion_flat",
    "Verif.Closure.closure_conversion_ends",
    "Verif.Closure.closure_conversion_needs_distinct_names"
   ],
   "note": "Whole conversion of llrl0/src/lowering/normalizer.rs (before_rt, ClosureConversion) over an untyped IR; distinct names are an assumption, shown to be needed by closure_conversion_needs_distinct_names. Inlining of transparent functions and generic instances are not part of it."
  },
  {
   "property": "C63",
   "status": "partial",
   "theorems": [
    "Verif.Inline.inline_keeps_meaning_partial",
    "Verif.Inline.inline_all_partial",
    "Verif.Inline.inline_no_panic_partial",
    "Verif.Inline.drops_effects",
    "Verif.Inline.reorders_effects",
    "Verif.Inline.doubles_effects",
    "Verif.Inline.reads_late",
    "Verif.Inline.returns_too_far",
    "Verif.Inline.panics",
    "Verif.Inline.recursion_never_ends"
   ],
   "note": "Proved for pure arguments and bodies without return, with distinct names, function by function in any order; for other arguments and bodies the code violates the property, shown by witnesses. Missing: bodies inlined before they are normalised (mutual recursion through a transparent function)."
  },
  {
   "property": "C64",
   "status": "partial",
   "theorems": [
    "Verif.Codegen.codegen_correct_partial",
    "Verif.Codegen.codegen_correct",
    "Verif.Codegen.no_code_for_callee",
    "Verif.Codegen.depth_after_loop",
    "Verif.Codegen.order_of_arguments",
    "Verif.Codegen.jump_in_jump"
   ],
   "note": "The generator with three repairs is correct for all programs whose jumps have no jumps in their arguments (codegen_correct); the code as it is is correct for the programs without callees that have no type and without loops whose bodies never finish, with arguments of C functions from right to left (codegen_correct_partial); the other four theorems show that each restriction is needed. Floating point, strings, arrays, syntax and static stack allocation are not in the model."
  },
  {
   "property": "C65",
   "status": "partial",
   "theorems": [
    "Verif.Infer.infer_sound",
    "Verif.Infer.infer_sound_partial",
    "Verif.Infer.weak_variables",
    "Verif.Infer.weak_refused"
   ],
   "note": "Type classes (constraints, premises, satisfactions), kinds, classes, instances and macros are not in the model; integer and float constants have any type. The code as it is is proved for groups of one function (infer_sound_partial) and refuted for larger groups (weak_variables, weak_refused); infer_sound is about the variant that generalises a group over the variables of any of its functions. Completeness (well-typed modules are accepted, with principal types) is not claimed."
  },
  {
   "property": "C66",
   "status": "proved",
   "theorems": [
    "Verif.Instances.premises_exact",
    "Verif.Instances.satisfaction_sound",
    "Verif.Instances.dictionary_right",
    "Verif.Instances.no_overlap",
    "Verif.Instances.coherent",
    "Verif.Instances.satisfaction_complete"
   ],
   "note": "One set of available instances for all modules; kinds and methods left out; instances are assumed to have all their parameters in the target, which the compiler does not check."
  },
  {
   "property": "C67",
   "status": "partial",
   "theorems": [
    "Verif.Instances.install_ends_partial",
    "Verif.Instances.dictionary_ends_partial",
    "Verif.Instances.superclass_loop",
    "Verif.Instances.self_superclass"
   ],
   "note": "Refuted for the code as it is (superclass_loop, self_superclass). Proved when no class is its own superclass, and when instances require constraints of smaller types and superclasses are of no larger ones."
  },
  {
   "property": "C68",
   "status": "proved",
   "theorems": [
    "Verif.KindInfer.kind_inference_ends",
    "Verif.KindInfer.kind_inference_sound",
    "Verif.KindInfer.kind_inference_complete",
    "Verif.KindInfer.kind_inference_annotated"
   ],
   "note": "Positions of errors and the export of kinds for messages are left out; declarations are lists in any order. Recorded kinds are guesses (*) only for type parameters without annotation."
  },
  {
   "property": "C69",
   "status": "partial",
   "theorems": [
    "Verif.KindInfer.order_partial",
    "Verif.KindInfer.order_matters",
    "Verif.KindInfer.well_kinded_rejected"
   ],
   "note": "Refuted for the code as it is (order_matters). Proved for modules whose type parameters are all annotated."
  },
  {
   "property": "C70",
   "status": "proved",
   "theorems": [
    "Verif.Mono.normalize_correct",
    "Verif.Mono.normalize_unique"
   ],
   "note": "Compile-time expressions of functions only; local functions and transparent functions are taken to be lifted and inlined already (C62, C63). All of the translator's definitions are there from the start."
  },
  {
   "property": "C71",
   "status": "proved",
   "theorems": [
    "Verif.Mono.normalize_ends_iff",
    "Verif.Mono.normalize_ends",
    "Verif.Mono.poly_never_ends"
   ],
   "note": "The same model as C70. poly_never_ends is an example of a program for which it does not end."
  },
  {
   "property": "C72",
   "status": "proved",
   "theorems": [
    "Verif.Generations.populate_complete",
    "Verif.Generations.populate_related",
    "Verif.Generations.populate_final",
    "Verif.Generations.populate_ends"
   ],
   "note": "On top of the model of C70. The translator has run before; expansions of data types and the passes after the collector are left out (they have models of their own). Hypothesis: the definitions have kinds that fit (Kinded), without which the collector would mark definitions that are not normalized."
  },
  {
   "property": "C73",
   "status": "proved",
   "theorems": [
    "Verif.Elf.writeObject_represents",
    "Verif.Elf.writeObject_isSome"
   ],
   "note": "The 4 GiB limit is a hypothesis: indices into string and symbol tables are 32 bits wide in the format and the code truncates them without a check."
  },
  {
   "property": "C74",
   "status": "proved",
   "theorems": [
    "Verif.Iter.empty_yields",
    "Verif.Iter.only_yields",
    "Verif.Iter.repeat_yields",
    "Verif.Iter.unfold_yields",
    "Verif.Iter.forever_begins",
    "Verif.Iter.map_yields",
    "Verif.Iter.map_begins",
    "Verif.Iter.filter_yields",
    "Verif.Iter.filter_begins",
    "Verif.Iter.filterMap_yields",
    "Verif.Iter.withIndex_yields",
    "Verif.Iter.take_yields",
    "Verif.Iter.take_begins",
    "Verif.Iter.skip_yields",
    "Verif.Iter.takeWhile_yields",
    "Verif.Iter.skipWhile_yields",
    "Verif.Iter.chain_yields",
    "Verif.Iter.zipWith_yields",
    "Verif.Iter.zipWith_yields_total",
    "Verif.Iter.zip_yields",
    "Verif.Iter.zipEither_yields",
    "Verif.Iter.flatMap_yields",
    "Verif.Iter.count_yields",
    "Verif.Iter.first_yields",
    "Verif.Iter.at_yields",
    "Verif.Iter.fold_yields",
    "Verif.Iter.total_yields",
    "Verif.Iter.all_yields",
    "Verif.Iter.any_yields",
    "Verif.Iter.find_yields",
    "Verif.Iter.findMap_yields",
    "Verif.Iter.findIndex_yields",
    "Verif.Iter.traverseOption_yields",
    "Verif.Iter.traverseResult_yields"
   ],
   "note": "Functions given to combinators are pure and total, and an iterator has one consumer; with-index and find-index? assume fewer than 2^64 elements."
  },
  {
   "property": "C75",
   "status": "partial",
   "theorems": [
    "Verif.Iter.range_yields_partial",
    "Verif.Iter.range_one",
    "Verif.Iter.range_wraps"
   ],
   "note": "False in general: the step after the last element may wrap around, and then the range never ends (range_wraps). Proved when the end of the range is at least a step away from the limit of the type, and always for steps of one."
  },
  {
   "property": "C76",
   "status": "proved",
   "theorems": [
    "Verif.Macro.quasiquote_fills",
    "Verif.Macro.quasiquote_only",
    "Verif.Macro.written_read",
    "Verif.Macro.sList_evals",
    "Verif.Macro.tryOpt_some",
    "Verif.Macro.tryOpt_none",
    "Verif.Macro.evals_tryBang_ok",
    "Verif.Macro.evals_tryBang_err"
   ],
   "note": "The rest of the language is any host; locations are left out; a quasi-quotation inside of another is a part of the template like any other, as in the code."
  },
  {
   "property": "C77",
   "status": "partial",
   "theorems": [
    "Verif.Macro.sMatch_partial",
    "Verif.Macro.expandPat_fits",
    "Verif.Macro.match_quasiquote",
    "Verif.Macro.sMatch_middle"
   ],
   "note": "False when ,@ stands before other elements of a list (sMatch_middle); proved for ,@ at the end of lists. Patterns of the language inside are any that can be matched with everything."
  },
  {
   "property": "C78",
   "status": "proved",
   "theorems": [
    "Verif.Macro.forceProperList_list",
    "Verif.Macro.forceProperList_not",
    "Verif.Macro.reverse_list",
    "Verif.Macro.append_list",
    "Verif.Macro.traverse_list",
    "Verif.Macro.forEach_list",
    "Verif.Macro.map_list",
    "Verif.Macro.zip_list",
    "Verif.Macro.zip_not",
    "Verif.Macro.foldl_list",
    "Verif.Macro.foldr_list",
    "Verif.Macro.length_list",
    "Verif.Macro.unsnoc_list",
    "Verif.Macro.unsnoc_nil",
    "Verif.Macro.lists_not"
   ],
   "note": "Functions given to s/map and the like have no effects, except for s/for-each; s/length for fewer than 2^64 elements; s/foldr folds the list with its first argument in front, as its tests say."
  },
  {
   "property": "C79",
   "status": "proved",
   "theorems": [
    "Verif.Macro.cond_evals",
    "Verif.Macro.condOpt_evals",
    "Verif.Macro.letStar_evals",
    "Verif.Macro.with_evals",
    "Verif.Macro.withOpt_evals",
    "Verif.Macro.when_evals",
    "Verif.Macro.whenOpt_evals",
    "Verif.Macro.is_evals",
    "Verif.Macro.thread_eq",
    "Verif.Macro.ifMatch_evals",
    "Verif.Macro.ifMatch1_evals",
    "Verif.Macro.whileMatch_evals",
    "Verif.Macro.whileMatch1_evals",
    "Verif.Macro.whenMatch_evals",
    "Verif.Macro.whenMatch1_evals"
   ],
   "note": ""
  },
  {
   "property": "C81",
   "status": "partial",
   "theorems": [
    "Verif.SexpData.display_text_partial",
    "Verif.SexpData.display_parse_partial",
    "Verif.SexpData.try_nil_differs",
    "Verif.SexpData.try_dotted_differs"
   ],
   "note": "Holds for S-expressions without (try? ()), (try! ()) and dotted lists after try? or try!, where the two texts differ (try_nil_differs, try_dotted_differs), and with floating-point numbers and captured uses written alike, which is a hypothesis."
  },
  {
   "property": "C82",
   "status": "proved",
   "theorems": [
    "Verif.Rw.toEndInto_reads",
    "Verif.Rw.toEndInto_fails",
    "Verif.Rw.toEnd_reads",
    "Verif.Rw.toEnd_fails",
    "Verif.Rw.stringToEnd_reads",
    "Verif.Rw.stringToEnd_fails",
    "Verif.Rw.vector_filling",
    "Verif.Rw.file_filling",
    "Verif.Rw.writeInt_bytes",
    "Verif.Rw.readInt_bytes",
    "Verif.Rw.ints_roundtrip",
    "Verif.Rw.fileWrite_appends",
    "Verif.Rw.fileWrite_fails",
    "Verif.Rw.fileWrites",
    "Verif.Rw.withFile_closes",
    "Verif.Rw.withFile_fails",
    "Verif.Rw.closed_file"
   ],
   "note": "Arrays and vectors are lists of bytes, and an array and the reader are never the same memory. Streams of C are modelled by what is left of them and by the error that follows."
  },
  {
   "property": "C83",
   "status": "partial",
   "theorems": [
    "Verif.Rw.readBytes_fills_partial",
    "Verif.Rw.short_read_fails"
   ],
   "note": "Holds for the readers that never give fewer bytes than they are asked for while they have some, such as vectors and files. It fails for others that keep to the class (short_read_fails)."
  },
  {
   "property": "C80",
   "status": "proved",
   "theorems": [
    "Verif.SexpData.fromHost_same",
    "Verif.SexpData.host_roundtrip",
    "Verif.SexpData.cell_roundtrip",
    "Verif.SexpData.fromHost_injective",
    "Verif.SexpData.hostListLike_conses",
    "Verif.SexpData.hostListLike_ok"
   ],
   "note": "All S-expressions whose native values are captured uses, and all cells. A native value that is not a captured use panics (foreign_panics)."
  },
  {
   "property": "C84",
   "status": "partial",
   "theorems": [
    "Verif.SelfLexer.lexers_agree_partial",
    "Verif.SelfLexer.lexers_equal_partial",
    "Verif.SelfLexer.lex_panics_iff",
    "Verif.SelfLexer.plus_differs"
   ],
   "note": "Proved for all texts of characters up to 111411, save for tokens whose text is an integer with a plus sign (plus_differs) or is read differently by the two readers of floating-point numbers. All other texts make the lexer of the self-hosted compiler panic (lex_panics_iff), so the rest does not hold."
  },
  {
   "property": "C85",
   "status": "partial",
   "theorems": [
    "Verif.SelfParser.parse_iff_grammar",
    "Verif.SelfParser.parses_what_llrl0_parses",
    "Verif.SelfParser.llrl0_parses_partial",
    "Verif.SelfParser.parsers_agree",
    "Verif.SelfParser.parse_total",
    "Verif.SelfParser.parse_error",
    "Verif.SelfParser.toSexp_injective",
    "Verif.SelfParser.at_in_braces",
    "Verif.SelfParser.error_token"
   ],
   "note": "Whatever the parser of llrl0 accepts without an error is accepted with the same S-expressions, for all sequences of tokens; parsing always ends. The other direction is proved for sequences without @; it does not hold in general, as @ is allowed within braces (at_in_braces). Locations are not modelled."
  },
  {
   "property": "C86",
   "status": "partial",
   "theorems": [
    "Verif.SelfPath.fromString_eq_partial",
    "Verif.SelfPath.print_eq",
    "Verif.SelfPath.print_fromString",
    "Verif.SelfPath.packages_ok",
    "Verif.SelfPath.unknown_panics"
   ],
   "note": "Strings with characters above 111411 are missing: the standard library takes them for invalid and path/from-string panics (unknown_panics). The length of the string in bytes is below 2^64."
  }
 ]
}