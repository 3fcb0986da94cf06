{
"C01": [
"proved",
"For every tree AddressTree::new may return (any outcome of the unstable sorts)."
],
"C02": [
"proved",
""
],
"C03": [
"proved",
""
],
"C04": [
"proved",
""
],
"C05": [
"proved",
""
],
"C06": [
"proved",
"Over every history of inserted symbol table entries."
],
"C07": [
"partial",
"Proved for line tables of DWARF versions below 5 with no file listed twice in a unit; the claim is false of the code for DWARF 5, because file numbers are always read 1-based (C07_dwarf5_file_numbers_fail)."
],
"C08": [
"proved",
""
],
"C09": [
"proved",
""
],
"C10": [
"partial",
"False of the code: lookup_address pops the last result although its message says it returns the first (C10_first_result_fails). Proved: the last one is returned, which is the first when there is at most one."
],
"C100": [
"partial",
"Proved for functions, and methods of variables and of parts of variables of the user's own types, with numbers, variables and their parts as arguments and results of which the size is known; false for functions and methods that return nothing (C100_no_result_fails, C100_method_no_result_fails); the number of arguments of methods is not checked by the code (C72_method_count_fails); for texts as arguments of functions and methods see C104."
],
"C101": [
"proved",
"C101_no_variable and C101_missing; Missing (Proof/Missing.lean) says what is not there: a field, an element at or beyond the length of a Vec or array, an element or entry of what has none, a key that no entry has, and any place on top of one"
],
"C102": [
"partial",
"C102_builtin_partial has Result with tags of one and two bytes only: for four and eight bytes the property is false of the code (C102_result_fails; the same defect as C32_result_tag_fails). C102_arguments and C102_no_parts are the errors. Options must store their discriminant in the tag or a niche that is 0 for None (DiscStored)"
],
"C103": [
"partial",
"Proved for programs whose functions have described types; false of the code where a function takes an RwLock: account and list crash (C103_rwlock_fails). Where the path of the code is not the user's own nothing is listed (C103_outside_not_listed); functions that print the same share an entry of the account (the last is told, as stated)."
],
"C104": [
"partial",
"Proved for calls of functions and of methods of variables and of parts of variables, with numbers, texts, variables and parts of variables as arguments in any order; the receiver's type must have a name that tells it from all others if it is a part. An allocator is assumed that has room and keeps blocks apart; the memory that is read for the places is assumed to be in use."
],
"C105": [
"proved",
"Reads of no bytes are assumed to give no bytes (or see C77, C86 for debuggers that refuse them). The theorem at the level of the evaluator also covers expressions with methods that call nothing."
],
"C106": [
"partial",
"C106_inside_partial: proved for the places the debugger finds parts of (Place, as in C98) and values nested at most four deep; for other parts the debugger shows an error (C98_part_of_field_fails, C98_reference_fails, C98_own_element_fails, C98_slice_element_fails)."
],
"C107": [
"partial",
"Proved of Vec, slices (with the length behind the pointer), arrays, texts and options, for executables and values as in C98, C102. False for an option of which the payload is itself shown as None (C107_none_fails). Results are left out: they are never shown (C85), and their methods are wrong for tags of four bytes (C102_result_fails). capacity() has no counterpart in what is shown."
],
"C11": [
"partial",
"Splitting is proved exact and the round trip holds for every symbol; that no segment is empty and that every angle bracket is a bracket is false of the code (C11_empty_segment_possible, C11_arrow_is_not_a_bracket_fails)."
],
"C12": [
"partial",
"The exact rule is proved; the property itself is false of the code: any last segment starting with 'h' of at least the tested shape is dropped, and a plain one-segment name is rejected."
],
"C13": [
"proved",
""
],
"C14": [
"proved",
""
],
"C15": [
"partial",
"Proved for all ASCII text of any length and nesting, and for any text without string literals and exotic white space; false of the code otherwise: positions count characters but slices count bytes (C15_non_ascii_string_fails, C15_non_ascii_space_fails). Stack use is not modelled."
],
"C16": [
"partial",
"Proved for every ASCII input, with soundness and completeness against a separate grammar; false of the code for non-ASCII string literals (C16_non_ascii_fails)."
],
"C17": [
"partial",
"False of the code: tokens after a complete expression are ignored (C17_trailing_word_fails). Proved: the result accounts for all the tokens before the ignored ones."
],
"C18": [
"proved",
"Every digit string of any length, decimal and hexadecimal, alone and in context."
],
"C19": [
"partial",
"Reflexive, antisymmetric, transitive and total for all values; values that compare equal are equal except for the recorded types of unread pointers (C19_equal_pointers_fails refutes full equality)."
],
"C20": [
"partial",
"Sizes are proved for every layout except bare str and IndexMap, where the code panics (C20_size_total_fails); C20_cell_size_ignores_contents: sizes of Cell/RefCell/Mutex ignore their contents."
],
"C21": [
"partial",
"Reflexive and symmetric for all types; transitive and exact on types without aliases; transitivity with aliases is false of the code, and array lengths and mutability are not distinguished (the two _fails theorems)."
],
"C22": [
"proved",
"All widths and every memory; bool and char included. Float text is the standard library's and not modelled."
],
"C23": [
"proved",
""
],
"C24": [
"partial",
"Exact for arrays, slices, Vec, String and &str with the element size the layout gives; C24_cell_stride_fails: that size is wrong for Cell/RefCell/Mutex elements."
],
"C25": [
"partial",
"Choice of variant and shown value proved for every explicit discriminant and for enumerations that store none; tuple payloads keep declaration order up to ten fields and not beyond (C25_tuple_order_fails); an enumeration of one variant whose first four bytes are not 0 cannot be shown (C25_single_variant_fails)."
],
"C26": [
"partial",
"Complementarity is proved for every width and value; agreement of display and is_some/is_none is proved for discriminants below 256 and is false of the code beyond (C26_low_byte_fails: a Box at a multiple of 256 is displayed as None); niche values other than 0 are ignored (C26_niche_value_fails)."
],
"C27": [
"proved",
"For well-formed tables; for any memory at all only occupied buckets are shown (C27_only_occupied)."
],
"C28": [
"partial",
"Any height and fill, keys and values of non-zero size told by name and the root pointer first in the root; zero-sized values, keys or values of a user's own type and a height-first root are not shown or shown wrongly (the three _fails theorems)."
],
"C29": [
"partial",
"Exact agreement for arrays and Vecs whose element type is not an alias, bounds for everything; false of the code for slices (indexing always fails) and for aliased element types."
],
"C30": [
"partial",
"Exact for keys without quotes at their ends; keys that differ only in such quotes are confused by the code (C30_quoted_keys_fail)."
],
"C31": [
"partial",
"Read-back is proved for every string, memory and allocator. Staying inside the allocation is proved for fields inside the 16 (24) bytes of the value; a field offset of 16 passes the code's check and is written outside (C31_offset_16_fails). &str longer than 1 MiB are refused after having been written."
],
"C32": [
"partial",
"Everything is proved except correctness of is_ok/is_err, which is false of the code for 4- and 8-byte tags (C32_result_tag_fails)."
],
"C33": [
"partial",
"Proved for functions none of whose variables crashes type resolution: which variables are collected, unique names are found, unknown names are not, what is found is a variable of the function, the listing is exact and agrees with lookup for unique names. Refuted: one variable that crashes hides all (C33_one_crash_hides_all_fails); of several bindings the first in document order is returned (C33_first_binding_wins_fails, C33_shadowed_local_fails, C33_undeclared_local_fails)."
],
"C34": [
"proved",
"Pointer expansion: terminates on any closed (possibly cyclic) set of readable pointers, depends only on memory within eight steps, is complete for shallower values, and leaves pointer-free values alone."
],
"C35": [
"partial",
"Proved for sessions in which nothing panics, for every backend and every client input. Refuted in general: a non-ASCII string argument panics the session thread and the command gets no response."
],
"C36": [
"partial",
"An undecodable line after initialization is answered and has no other effect; sessions end only as described. Refuted: a bad first line, a binary that cannot be loaded, and commands (even shutdown) sent during an event are lost."
],
"C37": [
"partial",
"Exactly once, in order, for expressions whose arguments contain no calls or only calls yielding a memory location. Refuted: n nested calls returning plain numbers are executed 2^n - 1 times."
],
"C38": [
"partial",
"Unmapped paths, first mapping when no later one applies to the result, whole components. Fails in general: mappings are chained (C38_mappings_chain_fails) and applied again when the file is read (C38_remapped_twice_fails)."
],
"C39": [
"partial",
"For every file of well-formed Rust units (offsets ascending, named namespaces) and non-Rust units: every entry, every offset between entries, offsets outside units, and lookup by path. The entry that comes with the path is the module's own provided something in another module follows in the unit (C39_module_entry_partial); for the last module of a unit it is the entry of the unit (C39_last_module_entry_fails). A namespace without a name panics the index (C39_unnamed_namespace_panics)."
],
"C40": [
"partial",
"Which functions are found, that each is found once, which are callable and with which signature: proved for every history of the symbol index. Refuted: the documented 'exact matches first' and fuzzy matching, listing all functions (instances that print alike collapse), untyped parameters are dropped, a type whose resolution panics takes discovery down."
],
"C41": [
"proved",
"Parsers over entry trees as modelled combinators: first matching child per pattern, independence of the patterns of a tuple, no silent loss with try-for-each, field paths sum offsets (overflow panics, shown)."
],
"C42": [
"proved",
"Walking any unit (any tree, any sibling attributes and padding) runs any stateful visitor exactly as the recursive specification; which entries are visited, order, exactly once; termination and no panic on damaged units. Remaining observation: a unit starting with a null entry trips an assertion (C42_leading_null_panics)."
],
"C43": [
"partial",
"Proved for the class Robust (scalars, pointers, structs, enums, options, strings, arrays, Box/Mutex/RefCell and aliases); false of the code for Vec, HashMap, Rc, tuples, Result, str and short reads (the _fails theorems)."
],
"C44": [
"partial",
"Soundness and completeness relative to where the code looks (entries of the type in modules of the same path, impl blocks next to it) and grouping of all methods by first parameter: proved. Refuted: methods of enums without fields, self: Box<Self>, impl blocks in other modules, duplicates, one unreadable self type is an error for all, free functions listed as methods, trait label."
],
"C45": [
"partial",
"Proved for every nesting: names as the compiler writes them (spec relation Names: primitives, std and user paths with generics, references, slices, arrays, tuples, functions, trait objects, raw pointers, paths through {impl#n} and {vtable_type}) parse, print back and give the specified layout; std types with path or prelude form agree; user types outside std roots and types declared in impl blocks are never given a std layout; printing and reparsing is the identity on plain types; debug-info entries get the layout of their qualified name. Refuted by the code for raw pointers, unsafe fn and {{vtable.shim}} (printing), same-named user types, comparison of a user type with a std type of the same name, and &mut [T]. Tokenizer and parser library by contract (Lib)."
],
"C46": [
"partial",
"Exact with respect to the debug files of the nearest symbols; completeness over all debug files is false of the code (C46_complete_fails)."
],
"C47": [
"partial",
"Cell, RwLock and UnsafeCell panic (C47_cell_fails)."
],
"C48": [
"partial",
"Holds for whole expressions, indexes and keys; refuted as object of a field, index or method and as argument."
],
"C49": [
"proved",
"For every call-free expression, state and debugger."
],
"C50": [
"partial",
"Variables as keys and positions agree with literals, and reading them terminates. Refuted: a map is never indexed by a number literal."
],
"C51": [
"proved",
"The program counter is fixed by the first variable and used for all of them."
],
"C52": [
"partial",
"Refuted: one unreadable field makes the whole struct an error."
],
"C53": [
"partial",
"Proved for every file whose units state a language, with readable linkage names and no range past the address space: names (last entry wins), addresses, each function found; and that building the index crashes exactly if some function's range, moved to its symbol, does not fit into the address space (C53_crashes_iff). Refuted in general: a unit without a language attribute ends the indexing (C53_unit_without_language_fails)."
],
"C54": [
"partial",
"Refuted: the code of methods described by a declaration plus a definition that refers to it is not found at any address; functions inside enumerations, unions or other functions are not indexed at all. Proved: what is found always comes from one entry with both linkage name and code; with C53_function_found the converse."
],
"C55": [
"partial",
"Proved for frame-relative variables with a register frame base and for variables without location. Refuted: register and multi-piece locations panic, fixed addresses are shifted by the function's address, a call-frame-address frame base uses the stack pointer, one register parameter makes the whole listing panic."
],
"C56": [
"partial",
"Absolute and relative directories proved. Fails for files recorded with an absolute name (C56_absolute_name_fails)."
],
"C57": [
"partial",
"Exact characterisation (iff) for Vec, String, HashMap, BTreeMap, Option, Result, Box, Rc/Arc, Mutex/RefCell/Cell, UnsafeCell. The crash-freedom part is false of the code: RwLock and IndexMap panic (C57_rwlock_fails, C57_index_map_fails)."
],
"C58": [
"partial",
"Exact characterisation of structs, tuples, arrays, slices, pointers, C enums; enums sound and complete when all variants are understood. False of the code for function types (arguments lost, return type looked up twice) and for variants that do not resolve, which are dropped silently (\u2026_fails theorems)."
],
"C59": [
"partial",
"Depth independence and one-step recursive user types proved; termination is false for cyclic pointer entries (C59_cyclic_pointer_fails)."
],
"C60": [
"partial",
"False of the code: the offset of the discriminant member is ignored (C60_discriminant_offset_fails); the type, the offset-0 case and the implicit case are proved; variants at a non-zero offset panic in debug builds."
],
"C61": [
"partial",
"Proved: which entry is found (first file, first entry), not found only if none matches, when it is an error, an entry with exactly the looked-up name is always matched. Refuted: types outside any namespace are never found."
],
"C62": [
"proved",
"Holds; C62_other_language_fails records that sources of non-Rust units are unknown (a documented restriction, not a violation)."
],
"C63": [
"partial",
"Debug files, attribution and nearest lookup proved for every visiting order. Refuted parts: the function found by name among equal names depends on hash map order (C63_order_fails); of two objects under the same path and member the first is no debug file although its functions are indexed (C63_duplicate_object_fails)."
],
"C64": [
"partial",
"Proved for DWARF 4 line tables (see C07 for DWARF 5). Refuted parts: columns are ignored (C64_column_fails, C64_second_column_fails); with an ambiguous partial path the first file is taken even if another one has the code (C64_ambiguous_fails)."
],
"C65": [
"partial",
"Proved for debug information that says one thing about each address (structure Clean); refuted when two rows share an address (C65_shared_address_fails)."
],
"C66": [
"proved",
"Proved as stated for what the code computes. Consequences a user may not expect are recorded as theorems: no workspace, no types (C66_no_workspace_fails); without cargo a member counts as the workspace (C66_member_fails)."
],
"C67": [
"proved",
"JSON by its grammar on both sides (natural numbers only), text as characters; every client message whose numbers fit 64 bits and every server message"
],
"C68": [
"partial",
"Proved for every interleaving without interrupts, and per-connection order (C68_fifo) with them; C68_alive_partial assumes ASCII arguments and a backend that does not panic; with interrupts (Ctrl-C) the property is false of the code: C68_interrupt_fails, C68_interrupt_ends_fails"
],
"C69": [
"partial",
"Holds while the executable of the target stays the same; false when another target is selected (C69_other_target_fails) and when the connection is gone (C69_dead_connection_fails)"
],
"C70": [
"partial",
"Expressions without string literals in any spacing, and any text with single blanks; white space in string literals is not kept (C70_string_fails)"
],
"C71": [
"proved",
"LLDB's evaluation of the expression is a parameter"
],
"C72": [
"partial",
"Callee, every argument passed (C72_function, C72_method with the specification Passes) and result size proved for all expressions; false of the code as to parameter types (C72_types_fail) and the number of method parameters (C72_method_count_fails)"
],
"C73": [
"partial",
"Proved when the numbering is that of LLDB's register sets; false of the code for x86-64 DWARF numbers (C73_x86_fails) and narrow registers by number (C73_narrow_fails)"
],
"C74": [
"partial",
"False of the code for init files whose last line is not ended (C74_glued_fails), for imports that are commented out (C74_commented_fails) and for relative directories (C74_relative_fails); the rest is proved for all histories"
],
"C75": [
"partial",
"Exact for numeric IPv4 addresses (C75_numeric, C75_only); host names and bare IPv6 addresses are refused although a server can be started with them (C75_name_fails)"
],
"C76": [
"partial",
"Composes type resolution, memory reading, expansion and formatting, by induction over the value: proved for every description of plain types, String, &str, Vec, slice, array, references, pointers, Box, Rc, Arc, Mutex, RefCell, Option, struct, enums, field-less enums, HashMap, BTreeMap nested up to four levels of containers; for variables wherever they are kept (C76_variable_partial), for locals described in the debug information by a frame-base or register location (C76_local_partial), for fields and for elements of a Vec, slice or array (C76_element_partial). False of the code for deeper values (addresses are printed), for x.f.g where f is of a user's type, and for arrays of arrays of user types (the _fails theorems)."
],
"C77": [
"partial",
"Every question is answered, looking changes nothing, and memory, program counter, frame, variables and registers are passed on exactly; writes, allocations and calls happen as asked or are reported as failed; the server's view satisfies the contract of a remote process used by C31 (C77_remote_partial). False of the code with LLDB: reading 0 bytes is refused by LLDB, so an empty String cannot be shown (C77_empty_string_fails); a short read or write is passed on as complete (C77_short_read_fails); allocation failures and expression errors are reported in ways the _fails theorems state."
],
"C78": [
"partial",
"Stability of answers, new sessions seeing the new build, and independence of sessions are proved for every history. False of the code: object files are loaded lazily, so a session can mix builds (C78_mixed_builds_fails); a failed load is never retried (C78_not_retried_fails); in LLDB a rebuilt program is still answered from the old build (C78_rebuilt_in_lldb_fails). Files overwritten in place while mapped are not modelled."
],
"C79": [
"proved",
"For every number of sessions and every interleaving. That a shutdown or a failing accept does end the others is C79_shutdown_fails, C79_accept_fails. Not modelled: salsa blocking one thread while another computes the same query, and passing on its panic."
],
"C80": [
"proved",
"Proved for every behaviour of the network, the process and time. Limits recorded as theorems: a server that takes longer than five seconds is killed again and again (C80_slow_fails), and the output of a server started this way is never read, so that it blocks in the end (C80_pipe_fails)."
],
"C81": [
"proved",
"JSON by its grammar, natural numbers only; a repeated field (an error for serde, the last one for Python) is outside the model"
],
"C82": [
"partial",
"False of functions that return nothing: what is left in the register is shown as a usize (C82_unit_fails). Values nested at most four levels, as in C76; registers of floating-point results are LLDB's business and not modelled."
],
"C83": [
"partial",
"Proved for values printed in full: at most ten elements, texts on one line, keys that show where they end. False otherwise: more than ten elements are only counted (C83_long_fails), texts are not escaped (C83_quotes_fail), and CR LF in a text inside a collection becomes LF (C83_crlf_fails)."
],
"C84": [
"partial",
"Proved for function, method and value commands, from the typed line to the printed text. False for a pattern with a blank: only its first word is searched for (C84_blank_in_pattern_fails). Evaluation and type lookup by name are parameters here (C31, C76, C82 say what they give)."
],
"C85": [
"partial",
"Proved for all types but raw pointers, tuples of one, functions without parameters and shared references to empty arrays; user types are known by their names. False for raw pointers (C85_pointer_fails), tuples of one (C85_one_tuple_fails), usize/isize (C85_usize_fails), arrays inside other types (C85_array_part_fails) and types of the same name in different modules (C85_same_name_fails)."
],
"C86": [
"partial",
"Proved for values nested at most four levels deep in which no text is empty (C86_place_partial, C86_variable_partial, C86_local_partial); false for empty Strings, which LLDB cannot read (C86_empty_string_fails). The types the debug information resolves to are those the variable's layout is stated in (TypesFrom)."
],
"C87": [
"proved",
"C87_command for one command, C87_session for a session with any client, C87_undisturbed for what is typed in LLDB."
],
"C88": [
"partial",
"False of the code: the load address is never asked for (C88_base_not_asked_fails), what is printed does not depend on it (C88_load_address_ignored_fails), and in a program that was moved no variable is found (C88_moved_variable_fails). For programs loaded where their file says, C86 and C89."
],
"C89": [
"partial",
"Proved for numbers and variables as arguments of functions and of methods of a variable (C89_function_partial, C89_method_partial) and for any arguments of functions, in terms of what C72 passes for them (C89_function_any_partial); results with a size, nested at most four levels deep, without empty texts. Other results: C82."
],
"C90": [
"proved",
"A static cannot be asked for by its path (C90_path_not_found)."
],
"C91": [
"proved",
"The demangler is a parameter; names mangled the newer way (_R) depend on it alone."
],
"C92": [
"partial",
"Proved for text of identifiers, decimal numbers, punctuation and brackets; for other text under the hypothesis that tokenizing does not crash. Fails (C92_arrow_fails): a function type with a result beside an argument that cannot be read makes the name of the map unreadable, because the > of the arrow is counted as a bracket."
],
"C93": [
"partial",
"Proved for all histories and worlds in which reading the declarations of the functions of the indexed files does not crash: the printed names accounted for are exactly those of the functions in force, each verdict means what it says, and the listing of all methods agrees. When it does crash is C93_crashes_fails (an equivalence). Not kept by the code: instances of a generic function print alike and share one entry (C93_instances_share_an_entry_fails), which is about the last in name order."
],
"C94": [
"partial",
"Exact for single entries (C94_variable_read, C94_position, C94_crash); functions: found by name if the name is bound once and no type crashes the resolution (C94_found_partial), the listing by lines (C94_listed_partial), and from the entries to the text rd print x prints, user types included (C94_printed_partial; values as in C86). False of the code: one variable of type RwLock makes every lookup in its function crash (C94_rwlock_fails) and ends the session (C94_session_lost_fails), a variable of a file the unit does not list is dropped (C94_unlisted_file_fails), and lines of different files are compared for variables declared by macros (C94_other_file_fails)."
],
"C95": [
"partial",
"Refuted for files with a namespace that has no name (C95_unnamed_namespace_fails: the module index crashes, and with it every type); proved for all other files. That the offset of an entry decides its unit is a simplification of the model."
],
"C96": [
"partial",
"Proved from the contents of the executable for variables at an offset from the frame base, stopped exactly at the start of a row of the line table, where the types of the function's variables are understood and no other function extends over the program counter. Refuted inside a line (C96_inside_line_fails): after a call, as in every frame but the innermost, no variable is known. Debug information in the executable itself (no object map)."
],
"C97": [
"partial",
"C97_functions_partial: proved for the functions whose parameters and results have described types that are called in a known way (the types of C85 and C94 and the structures and enumerations of the program); it is false for functions that take an RwLock, for which the whole list fails (C97_rwlock_fails). C97_line_unique: the specification leaves no choice of the line."
],
"C98": [
"partial",
"Proved for variables, fields, elements of Vec and arrays, entries of maps with text keys, and their combinations, wherever the code looks into the value (Place says where); an index or key may be the value of another variable or a part of it (C98_variable_index_partial, C98_variable_key_partial). False of the code for the rest, with proofs: fields and elements behind references and smart pointers, *v, parts of fields of the user's own types, elements of the user's own types, elements of slices; printing tuples and results crashes the session."
],
"C99": [
"partial",
"Proved for structures, tuples and enumerations whose neighbours in the module are describable types, for variables and for parts of variables (C99_methods_of_part_partial: there only the name of the type is known, which must not be mistakable for another). False of the code, hence partial: a C-like enumeration gets no functions of its own (C99_enumeration_fails); an unnamed first parameter of the type counts as self (C99_unnamed_parameter_fails); self: Box<Self>, Rc<Self> and Arc<Self> are not listed (C99_boxed_self_fails); a type after which nothing of another module comes in its unit gets no trait methods."
]
}