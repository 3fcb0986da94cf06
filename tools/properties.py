import json
P=[]
def p(title, statement, quantifier, why, *anchors):
    P.append(dict(id="C%02d"%(len(P)+1), title=title, statement=statement, quantifier=quantifier, why_tests_cant=why, anchors=list(anchors)))
A="crates/rudy-dwarf/src/address/mod.rs"
p("Address lookup is exact",
  "Looking up a binary (absolute) address in the function address index built from any list of functions returns exactly the functions whose half-open range [start,end) contains the address, each as many times as it was supplied; nothing is missed because of pruning and nothing else is returned.",
  "every list of functions (any overlap, nesting, duplicates, empty ranges, inverted ranges), every order an unstable sort may leave equal keys in, every address",
  "Pruning bugs in an interval tree show up only for particular overlap shapes; the number of shapes is unbounded.",
  A+"::AddressTree::new", A+"::AddressTree::query_address", A+"::query_address_recursive")
p("Debug-file-relative address lookup is exact",
  "The same index answers lookups by debug-file-relative address exactly: the result is the multiset of functions whose relative range contains the address, independently of how absolute and relative orders relate.",
  "every list of functions with arbitrary, unrelated absolute and relative ranges, every relative address",
  "The second tree is built from a different sort; only special inputs make both orders differ.",
  A+"::AddressTree::new", A+"::AddressTree::query_address")
p("Address range lookup is exact",
  "Looking up an address range returns exactly the functions whose range overlaps it.",
  "every list of functions, every pair of range ends, including empty and inverted queries",
  "Same as C01, with two free bounds.",
  A+"::AddressTree::query_address_range", A+"::query_interval_recursive")
p("Lookups do not depend on discovery order",
  "Building the index from the same functions in any other order gives the same answers (as multisets) to every point and range lookup.",
  "all permutations of all function lists, all queries",
  "The number of permutations is factorial and sort_unstable is free to reorder equal keys.",
  A+"::AddressTree::new")
p("Nearest symbol lookup",
  "The nearest-function lookup for an address returns the functions registered at the greatest registered address not above it; it returns nothing only if no function is registered at or below the address.",
  "every sequence of symbol insertions, every address",
  "Boundary at exact hits, before the first and after the last symbol, for every symbol population.",
  "crates/rudy-dwarf/src/symbols/mod.rs::SymbolIndex::function_at_address", "rudy-db/src/index.rs::find_closest_function")
p("Symbol index lookups agree with insertion history",
  "After any sequence of symbol insertions, a symbol is found by name exactly when it was inserted, with the address of the last insertion; every function symbol is findable by its short name, by its full name and by its address; non-function symbols are never reported as functions.",
  "every history of insertions from executables and from mapped object files",
  "Several maps must stay mutually consistent for every history with repeated names.",
  "crates/rudy-dwarf/src/symbols/mod.rs::SymbolIndex", "crates/rudy-dwarf/src/symbols/mod.rs::index_binary", "crates/rudy-dwarf/src/symbols/mod.rs::index_mapped_file")
p("Breakpoint line resolution picks the closest following line",
  "Resolving file:line to an address returns a line-table row of that file whose line is at or after the requested one and for which no usable row is closer; it fails only when no usable row exists; an exact line is always preferred.",
  "every line program, function table, requested file and line",
  "Line tables are arbitrary; the early return on distance 0 and the skipping of rows without function must not lose the minimum.",
  "crates/rudy-dwarf/src/address/resolution.rs::location_to_address", "crates/rudy-dwarf/src/address/resolution.rs::address_to_location")
p("Absolute and relative addresses convert back and forth without loss",
  "For an address inside a function, converting the runtime address to the debug file's relative address and back gives the original address, and the converted address lies in the function's other range; the absolute range registered for a function has the same length as its DWARF range.",
  "every function, every address in its range, every load slide",
  "Any slide, including images above 2^63, must be covered; offsets are u64.",
  "crates/rudy-dwarf/src/function/index.rs", "crates/rudy-dwarf/src/address/resolution.rs")
p("Position lookup over several debug files is a global minimum",
  "Resolving a source position over all debug files returns an address whose line distance is minimal among the answers of all debug files, and returns an answer whenever one file has one.",
  "every number and order of debug files and every per-file answer",
  "The loop stops early at distance 0 and keeps the first of equals; the claim is about all orders.",
  "rudy-db/src/query.rs::lookup_position")
p("Address lookup returns the documented first result",
  "When several debug files describe an address, the lookup returns the first description found (as the code's own message says).",
  "every number of candidate locations",
  "Only multi-candidate histories distinguish first from last.",
  "rudy-db/src/query.rs::lookup_address")
p("Demangled symbol splitting is structure preserving",
  "Parsing a demangled symbol splits it exactly at the '::' separators outside angle brackets, so that generic arguments and <T as Trait> qualifiers stay whole, no segment is empty, and joining module path, name and hash with '::' gives back the (whitespace-normalised) symbol.",
  "every string",
  "Symbols nest generics to unbounded depth.",
  "crates/rudy-parser/src/types.rs::parse_symbol", "crates/rudy-dwarf/src/symbols/names.rs::SymbolName::parse")
p("Only compiler hashes are treated as hashes",
  "A trailing path segment is dropped from the function name as a hash only if it is a legacy mangling hash ('h' followed by 16 hex digits); an ordinary function name is never dropped.",
  "every symbol whose last segment starts with 'h'",
  "The set of user function names is unbounded.",
  "crates/rudy-parser/src/types.rs::parse_symbol")
p("Symbol name ordering is a total order consistent with equality",
  "The ordering used as key order of the symbol and function maps is total, antisymmetric and transitive, and two parsed names compare equal exactly when they are equal names, so no map silently merges different functions or splits one.",
  "all pairs and triples of parsed symbol names",
  "Order axioms quantify over all triples.",
  "crates/rudy-dwarf/src/symbols/names.rs::SymbolName::cmp", "crates/rudy-dwarf/src/symbols/names.rs::TypeName::cmp")
p("Name-and-module matching is suffix matching",
  "A symbol matches a (name, module) query exactly when its short name is equal and the query's module path is a suffix of the symbol's module path; matching is monotone: dropping leading query modules never loses a match.",
  "all symbols and queries",
  "Path lengths are unbounded.",
  "crates/rudy-dwarf/src/symbols/names.rs::SymbolName::matches_name_and_module")
p("Expression parsing never panics",
  "Parsing any user-typed expression returns a tree or an error; it never panics, whatever characters the user types.",
  "every input string, including non-ASCII text",
  "Input strings are unbounded and the tokenizer mixes character and byte positions.",
  "crates/rudy-parser/src/expressions.rs::parse_expression", "crates/rudy-parser/src/expressions.rs::Tokenizer")
p("Expression printing and parsing round-trip",
  "Printing an expression obtained by parsing and parsing the print-out gives back the same expression (so errors and echoed expressions mean what they show).",
  "every expression that parsing can produce",
  "Expressions nest without bound; precedence mistakes appear only in particular nestings.",
  "crates/rudy-parser/src/expressions.rs::Expression::fmt", "crates/rudy-parser/src/expressions.rs::Parser")
p("Expressions are not silently truncated",
  "If parsing an expression succeeds, the whole input was part of the expression: no trailing tokens are ignored.",
  "every input string",
  "Every suffix of every valid expression is a potential counterexample.",
  "crates/rudy-parser/src/expressions.rs::parse_expression", "crates/rudy-parser/src/expressions.rs::Parser::parse")
p("Number literals denote their value",
  "A decimal or 0x-hexadecimal literal parses to exactly its mathematical value when it fits in 64 bits, and is rejected with an error (never wrapped) when it does not.",
  "every digit string of any length",
  "Digit strings are unbounded and overflow must be exact.",
  "crates/rudy-parser/src/expressions.rs::Tokenizer::read_number")
p("Value ordering is a total order",
  "The ordering used for struct maps and sorting of read values is reflexive, transitive, antisymmetric and total, and values compare equal exactly when they are equal.",
  "all values, of any nesting",
  "Values nest without bound.",
  "rudy-db/src/outputs.rs::Value::cmp", "rudy-db/src/outputs.rs::TypedPointer::cmp")
p("Type sizes are computed without crashing",
  "The size of every type layout can be queried; it is the sum/product prescribed by the layout (array = length times element) and querying it never panics.",
  "every type layout",
  "Layouts nest without bound; unimplemented branches hide in nested positions.",
  "crates/rudy-types/src/lib.rs::Layout::size")
p("Type matching is an equivalence",
  "The type matching used to find methods and converted arguments is reflexive, symmetric and transitive, and does not identify types a user would call different.",
  "all pairs and triples of types",
  "Types nest without bound.",
  "crates/rudy-types/src/lib.rs::Layout::matching_type")
p("Integers are read exactly",
  "Reading an integer of any supported width and signedness from memory gives exactly the little-endian two's-complement value stored there; unsupported widths are errors; a read touches exactly its bytes.",
  "all byte strings of all widths, all addresses",
  "2^128 values per width.",
  "rudy-db/src/data.rs::read_primitive_from_memory", "rudy-db/src/debug_info.rs::read_variable")
p("Struct reading shows every field once at its offset",
  "Reading a struct yields exactly its declared fields, each paired with a pointer to base+offset of the field's type; no memory outside the struct is dereferenced and it works for any field order.",
  "every struct definition, base address and memory",
  "Field lists are unbounded.",
  "rudy-db/src/data.rs::read_from_memory")
p("Sequences show exactly their elements",
  "Reading an array, slice or Vec yields exactly `length` elements, the i-th at data+i*element size, in order; String reads exactly its length bytes.",
  "every length, element type, base address and memory",
  "Lengths are unbounded.",
  "rudy-db/src/data.rs::read_primitive_from_memory", "rudy-db/src/data.rs::read_std_from_memory")
p("Enum variants are decoded from the discriminant",
  "Reading an enum selects the variant whose declared discriminant equals the stored value, otherwise the dataful (niche) variant; the discriminant is read at the declared offset and width; with no matching variant an error is returned.",
  "every enum layout with any number of variants, any discriminant width and offset, any memory",
  "Variants, offsets and values are unbounded.",
  "rudy-db/src/data.rs::read_enum", "rudy-db/src/data.rs::read_c_enum")
p("Option contents agree with is_some/is_none",
  "For every Option in memory the displayed value is None exactly when is_none() returns true; is_some and is_none are complementary.",
  "every option layout, every discriminant width and value",
  "Values where the low byte is zero but the discriminant is not are a sparse set.",
  "rudy-db/src/data.rs::read_option_from_memory", "rudy-db/src/synthetic_methods.rs::evaluate_option_method")
p("HashMap reading yields exactly the occupied buckets",
  "Reading a HashMap returns one entry per occupied control byte, in bucket order, at the bucket's address below the control bytes; for a well-formed table the number of entries equals len().",
  "every table size, occupancy pattern and key/value layout",
  "Occupancy patterns are exponential in the table size.",
  "rudy-db/src/data.rs::read_map_entries")
p("BTreeMap reading is the in-order traversal",
  "Reading a BTreeMap returns exactly the entries of the tree in key order (in-order traversal), whatever its height and fill, and len() agrees with the number of entries.",
  "every B-tree of any height and fan-out stored in memory",
  "Trees are unbounded in height and shape.",
  "rudy-db/src/data.rs::read_btree_node_entries")
p("Indexing agrees with reading and is bounds checked",
  "Indexing element i of an array, Vec or slice succeeds exactly when i is below the length and gives the same address and type as the i-th element of the displayed sequence; any other index is an error, never an out-of-bounds read.",
  "every sequence value and every 64-bit index",
  "Indices and lengths are unbounded.",
  "rudy-db/src/debug_info.rs::index_by_int", "rudy-db/src/debug_info.rs::index_array_or_slice")
p("Map indexing returns the entry of that key",
  "Indexing a map by a key returns the value of an entry whose key equals the requested key, fails when there is none, and never confuses different keys.",
  "every map contents and every key",
  "Keys are arbitrary strings.",
  "rudy-db/src/debug_info.rs::index_by_value", "rudy-db/src/debug_info.rs::values_equal")
p("Created strings read back unchanged and stay in their allocation",
  "Creating a &str or String in the target for a method argument allocates enough memory, writes only inside what was allocated, and reading the created value gives back the given text.",
  "every string, every layout offsets, every allocator",
  "String lengths and layout offsets vary freely.",
  "rudy-db/src/debug_info.rs::create_typed_value", "rudy-db/src/debug_info.rs::create_str_slice_with_layout", "rudy-db/src/debug_info.rs::create_owned_string_with_layout")
p("Synthetic len/is_empty/is_some agree with the contents",
  "For every collection value, the synthetic len() equals the number of elements shown when the value is read, is_empty() is len()==0, is_ok/is_err are complementary, and every advertised synthetic method can be evaluated.",
  "every type layout, memory and method name",
  "Agreement of two independent readers over every memory.",
  "rudy-db/src/synthetic_methods.rs", "rudy-db/src/data.rs")
p("Variable lookup finds the live binding",
  "Looking a variable up by name returns the binding of that name live at the current line: the latest declared before it, never a shadowed or not yet declared one; an unknown name is not found; listing all variables shows the parameters and the locals declared before the current line, and agrees with looking each up.",
  "every function, shadowing pattern and program counter",
  "Shadowing patterns are unbounded.",
  "rudy-db/src/debug_info.rs::get_variable_at_pc", "rudy-db/src/debug_info.rs::get_all_variables_at_pc")
p("Pointer expansion terminates on cyclic data",
  "Expanding a value for display follows pointers to a bounded depth, so it terminates on cyclic or self-referential memory, and a value without pointers is returned unchanged.",
  "every memory, including cyclic graphs",
  "Memory graphs are unbounded.",
  "rudy-lldb/src/evaluator.rs::read_pointer_recursive")
p("One terminal response per command",
  "In a debug session every command line received at top level is answered by exactly one terminal response (result, completion or error) after zero or more events, in order.",
  "every sequence of client messages and every debugger answer",
  "Histories are unbounded.",
  "rudy-lldb/src/server.rs::run_server_loop", "rudy-lldb/src/server.rs::handle_command")
p("Malformed client input does not end the session",
  "An undecodable line is answered with an error and the session continues; the session ends only on shutdown, end of input, or a protocol violation; commands sent in the middle of an event exchange are not lost.",
  "every sequence of client lines",
  "Histories are unbounded.",
  "rudy-lldb/src/server.rs::read_next_message", "rudy-lldb/src/server.rs::send_event_request")
p("Evaluating a call executes it once",
  "Evaluating an expression with nested method calls executes each call in the target exactly once.",
  "every nesting of calls",
  "Nesting is unbounded; re-execution is exponential in depth.",
  "rudy-lldb/src/evaluator.rs::convert_expression_to_method_arg_typed", "rudy-lldb/src/evaluator.rs::evaluate_method_call")
p("Source path remapping applies a single mapping",
  "A path is rewritten by the first source mapping whose source directory contains it, and by no other; a path no mapping applies to is unchanged; the file whose existence is checked when a debug file is registered is the file that is later read.",
  "every list of mappings and every path",
  "Lists of overlapping mappings are unbounded.",
  "crates/rudy-dwarf/src/lib.rs::remap_path", "rudy-db/src/database.rs", "crates/rudy-dwarf/src/file/mod.rs")
p("Module of a DIE offset is the innermost enclosing one",
  "Looking up the module of a debug-info offset returns the innermost namespace range that contains the offset.",
  "every nesting of namespaces and every offset",
  "Nestings are unbounded.",
  "crates/rudy-dwarf/src/modules.rs::find_by_offset")
p("Function discovery by pattern",
  "Function discovery returns every function with an address whose full name equals the pattern or whose short name equals it with the module path as suffix, and only those, exact matches first.",
  "every symbol population and every pattern",
  "Populations are unbounded.",
  "rudy-db/src/function_discovery.rs::discover_functions", "rudy-db/src/function_discovery.rs::function_matches_pattern")
p("Tree pattern parsers take the first matching child",
  "A child pattern (member by name, field path) selects the first child for which it succeeds, independent of the other patterns; a field path's offset is the sum of the member offsets along the path.",
  "every DIE tree and every combination of patterns",
  "Trees are unbounded.",
  "crates/rudy-dwarf/src/parser/children.rs", "crates/rudy-dwarf/src/parser/combinators.rs", "crates/rudy-dwarf/src/parser/primitives.rs")
p("DIE walking visits every entry once in document order",
  "Walking a compilation unit visits each debug-info entry the visitor descends into exactly once, parents before children, and skipping children continues at the next sibling.",
  "every DIE tree and every set of descend/skip decisions",
  "Trees are unbounded.",
  "crates/rudy-dwarf/src/visitor.rs::DieWalker")
p("Corrupt target memory does not crash the debugger",
  "Reading any value from uninitialised or corrupt memory returns a value or an error; it never panics.",
  "every type layout and every memory contents",
  "Garbage memory is the common case when stopping early in a function.",
  "rudy-db/src/data.rs")
p("Method discovery lists exactly the methods of the type",
  "Discovering methods for a type returns every function whose first parameter's type matches the type (by value, reference or mutable reference) plus the evaluable built-in methods, and nothing else.",
  "every function population and every type",
  "Populations are unbounded.",
  "rudy-db/src/function_discovery.rs::discover_methods_for_type")
p("Type names convert to layouts and back",
  "Printing a parsed type name and parsing it again gives the same type; a std type written with its path or in its prelude form yields the same layout, and a user type is never confused with a std type of the same name.",
  "every type name",
  "Type names nest without bound.",
  "crates/rudy-parser/src/types.rs::Type", "crates/rudy-parser/src/types.rs::as_layout")
p("Address lookup describes every function containing the address",
  "Looking up an address reports, for every function of any debug file whose range contains the address and whose line table has a row for it, the function's name and that row's location, and reports nothing else.",
  "every set of debug files, symbols and addresses",
  "Functions of different debug files can interleave in unboundedly many ways.",
  "rudy-db/src/index.rs::find_all_by_address", "crates/rudy-dwarf/src/function/index.rs::address_to_locations")
p("Pointers and smart pointers show what they point to",
  "Reading a reference, raw pointer, Box, Rc, Arc, Mutex or RefCell shows exactly the value read at the address it stores (or, for Mutex and RefCell, at the contained value), with only the shown type wrapped; an alias shows what the named type shows; a dangling pointer is an error.",
  "every nesting of pointer types, every address and memory",
  "Pointer nestings and memory contents are unbounded.",
  "rudy-db/src/data.rs::read_from_memory", "rudy-db/src/data.rs::read_std_from_memory")
p("Parentheses do not change the meaning of an expression",
  "Writing a subexpression in parentheses gives the same result as writing it without, wherever it stands: as the whole expression, as the object of a field access, index or method call, and as an argument.",
  "every expression and every place of a subexpression", "Expressions are unbounded.",
  "rudy-lldb/src/evaluator.rs::evaluate", "rudy-lldb/src/evaluator.rs::evaluate_to_ref", "rudy-lldb/src/evaluator.rs::convert_expression_to_method_arg_typed")
p("Expressions without calls do not disturb the process",
  "Evaluating an expression that contains no method or function call executes nothing in the debugged process and writes nothing to it, whether the evaluation succeeds or fails.",
  "every call-free expression, process state and debugger", "Expressions and process states are unbounded.",
  "rudy-lldb/src/evaluator.rs::evaluate")
p("Index and key expressions",
  "Indexing with a variable gives the same element as indexing with a literal of the value the variable holds, for sequences and for maps; reading the index or key terminates; a map with number keys can be indexed by a number.",
  "every base expression, index expression and memory", "Memories and key types are unbounded.",
  "rudy-lldb/src/evaluator.rs::evaluate_index", "rudy-lldb/src/evaluator.rs::evaluate_to_int", "rudy-lldb/src/evaluator.rs::evaluate_to_string", "rudy-lldb/src/evaluator.rs::read_string_from_memory")
p("One frame per expression",
  "All variables of an expression are looked up at the same program counter, the one the debugger reports when the first of them is evaluated, whatever is executed in between.",
  "every expression, process state and debugger", "Expressions and debugger behaviours are unbounded.",
  "rudy-lldb/src/evaluator.rs::get_pc", "rudy-lldb/src/evaluator.rs::evaluate_variable_to_ref")
p("Unreadable parts do not hide the rest",
  "When one field, element or entry of a value cannot be read, the readable others are still shown.",
  "every value and memory", "Memories are unbounded.",
  "rudy-lldb/src/evaluator.rs::read_pointer_recursive", "rudy-lldb/src/evaluator.rs::pointer_to_result")
p("The function index holds exactly the linked functions",
  "Indexing a debug file registers, under its symbol's name, every function entry whose linkage name is in the symbol table and, by address, every such entry with code, with a range of the same length starting at the symbol's address; nothing else is registered, and one unit does not hide the functions of another.",
  "every debug file, symbol table and address", "Debug files are unbounded; a unit far away can end the indexing.",
  "crates/rudy-dwarf/src/function/index.rs::function_index", "crates/rudy-dwarf/src/visitor.rs::visit_cu", "crates/rudy-dwarf/src/parser/primitives.rs::rust_cu")
p("Every function with code is found at its addresses",
  "Every function of the program that has code and a symbol is found when one of its addresses is looked up, however the compiler describes it (free function, method, function inside another item).",
  "every debug file", "The ways to describe a function are unbounded.",
  "crates/rudy-dwarf/src/function/index.rs::visit_function")
p("The address of a variable follows its location description",
  "The address reported for a variable is the one its DWARF location denotes (frame base plus offset, fixed address, ...); a variable without a memory address is reported without one, and does not keep the other variables from being listed.",
  "every location expression, frame base and register content", "Location expressions are unbounded programs.",
  "crates/rudy-dwarf/src/expressions.rs::resolve_data_location", "crates/rudy-dwarf/src/expressions.rs::get_function_frame_base", "rudy-db/src/debug_info.rs::variable_info")
p("The path of a source file follows the line table",
  "The path reported for a source file is its name taken relative to its directory, which is taken relative to the compilation directory; absolute names and directories are used as they are.",
  "every file table entry and compilation directory", "Paths are unbounded strings.",
  "crates/rudy-dwarf/src/die/utils.rs::file_entry_to_path")
p("Standard library layouts follow the debug file",
  "Resolving a Vec, String, HashMap, BTreeMap, Option, Result, Box, Rc, Arc, Mutex, RefCell, Cell or UnsafeCell succeeds exactly when the debug file describes the members the type is made of; the reported offsets are then the sums of the member offsets along the way, and element, key, value and payload types are the ones the debug file names. No type the resolver recognises by name makes it crash.",
  "every debug file (any order and number of further members, any offsets), every nesting of types",
  "tests resolve the types of one compiler version; the layouts must follow whatever offsets the debug file gives",
  "crates/rudy-dwarf/src/types/resolution.rs: resolve_as_builtin_type, resolve_map_type, resolve_smart_ptr_type", "crates/rudy-dwarf/src/parser/{vec,hashmap,btreemap,option,result,pointers}.rs")
p("User type layouts are complete and in order",
  "Resolving a structure, tuple, array, slice, pointer, enumeration, field-less enumeration or function type reports every field, element, variant or argument the debug file lists, in order, with the offset and type the debug file gives; nothing is invented or silently lost.",
  "every debug file, every type entry, any number of members",
  "tests look at a few structures; completeness must hold for any member list",
  "crates/rudy-dwarf/src/types/resolution.rs: resolve_struct_type, resolve_tuple_type, resolve_primitive_type, resolve_type_offset", "crates/rudy-dwarf/src/parser/enums.rs: enum_def, c_enum_def, enum_variant")
p("Type resolution is well defined and terminates",
  "The layout resolved for a type does not depend on available stack: two resolutions that succeed agree, recursive user types resolve in one step, and resolution ends with a result or an error for every debug file.",
  "every debug file including cyclic type references, every recursion depth",
  "termination and independence of the recursion depth are statements about all depths",
  "crates/rudy-dwarf/src/types/resolution.rs: shallow_resolve_type, resolve_type_offset")
p("Enum discriminants are read where the debug file puts them",
  "The discriminant of an enum is read at the offset of its discriminant member and with that member's integer type; an enum without one has an implicit discriminant.",
  "every enum layout, every offset of the discriminant member",
  "tests only have enums whose discriminant comes first; niche layouts can put it anywhere",
  "crates/rudy-dwarf/src/parser/enums.rs: enum_discriminant, enum_variant")
p("Types are found by name",
  "Looking a type up by its name gives the type of the first entry, in the first debug file that has one, that lies directly in the namespace the name gives and whose own name stands for a matching type; nothing is found only if there is no such entry, and an error means the text is no type name or the entry found does not resolve.",
  "every debug file, every type name",
  "a test can look up a few names in one binary; which entry of which file is taken must hold for every order of files and entries",
  "rudy-db/src/index.rs: resolve_type", "crates/rudy-dwarf/src/types/index.rs: find_type_by_name", "rudy-db/src/debug_info.rs: lookup_type_by_name")
p("Known source files",
  "A source file is known exactly if a Rust compilation unit of some debug file lists it; under it are exactly the debug files that have such a unit, in order, none twice.",
  "every set of debug files, compilation units and file tables",
  "tests index a handful of binaries", "rudy-db/src/index.rs: debug_index", "crates/rudy-dwarf/src/file/index.rs: index_debug_file_sources")
p("Debug files and the functions attributed to them",
  "The debug files of a binary are the binary itself and the mapped objects that can be opened; every function symbol of these (and no other) is known, with its address and the debug file it comes from, whatever order the objects are visited in.",
  "every object map, every set of missing objects, every order of visiting the objects",
  "the order of a hash map differs from run to run and cannot be chosen by a test", "crates/rudy-dwarf/src/symbols/mod.rs: index_symbol_map, SymbolIndex")
p("Breakpoints by source position",
  "The address found for file:line is that of the closest row at or after the line, in the known file with this path or, failing that, the first one whose path ends with it; no debug file of that file has a closer row; nothing is found only if there is no such row; a unique partial path is as good as the full one.",
  "every source file name, line, set of debug files and line tables", "which row of which file is closest is a statement about all of them",
  "rudy-db/src/debug_info.rs: find_address_from_source_location", "rudy-db/src/query.rs: lookup_position")
p("Position to address and back",
  "Looking up the address of a source position and then the location of that address gives the same file and a line at or after the one asked for, the same line if it has code.",
  "every file, line and debug file", "a round trip through unbounded line tables and symbol tables",
  "rudy-db/src/debug_info.rs: find_address_from_source_location, address_to_location")
p("Where types are looked for",
  "Types are looked up by name in exactly the debug files that have a source below the workspace root, which is the directory of the manifest cargo names or else the nearest directory at or above the current one with a Cargo.toml.",
  "every working directory, workspace and set of source paths", "depends on the directory the debugger is started in",
  "crates/rudy-dwarf/src/file/mod.rs: detect_cargo_root", "rudy-db/src/index.rs: debug_index, resolve_type")
p("Messages survive the connection",
  "Whatever message the LLDB command or the server sends, whatever characters its texts contain, the other side reads exactly that message: one per line, in order, nothing lost, added or changed; a number that does not fit 64 bits makes the message unreadable, never another number.",
  "every sequence of messages, every text and number in them", "texts and sequences are unbounded; two JSON writers and two readers have to agree on all of them",
  "rudy-lldb/src/protocol.rs", "rudy-lldb/src/server.rs: read_next_message, write_message", "rudy-lldb/python/rudy_lldb.py: _send_message, _read_message, _handle_event")
p("The debugger and the server stay in step",
  "Every command the user gives is answered, after finitely many steps, in order and exactly once, by the response the server computes for that command from the answers LLDB gave while it ran; the two sides never wait for each other and never talk at the same time; as long as nothing panics and nobody shuts the server down the connection lasts.",
  "every interleaving of the two sides, every sequence of commands and every answer LLDB gives, interrupts included", "schedules and answers cannot be enumerated",
  "rudy-lldb/python/rudy_lldb.py: send_command, rudy_command", "rudy-lldb/src/server.rs: run_server_loop, send_event_request, handle_command")
p("Commands go to the right session",
  "A command is answered from the debug information of the executable of the selected target, and a connection that is gone is opened again.",
  "every history of commands, targets and server states", "histories are unbounded",
  "rudy-lldb/python/rudy_lldb.py: _get_connection, rudy_command")
p("Commands arrive as typed",
  "The command sent is the one the user named, in full or by its short form, with the words after it; the server parses the expression the user typed, however it is spaced; an empty line sends nothing.",
  "every command line", "texts are unbounded",
  "rudy-lldb/python/rudy_lldb.py: rudy_command", "rudy-lldb/src/server.rs: handle_command", "crates/rudy-parser/src/expressions.rs: parse_expression")
p("Calls into the program are the calls meant",
  "The expression LLDB is given for a call is well-formed and says unambiguously which call it is: the address, the arguments in order, each passed as its kind requires, the object first for methods, every structure defined once, a result of the right size; the answer passed on is what LLDB found.",
  "every address, argument list and result size, every answer of LLDB", "argument lists and their texts are unbounded",
  "rudy-lldb/python/rudy_lldb.py: _handle_execute_method, _handle_execute_function")
p("The calls made are the calls written",
  "Evaluating an expression makes only calls that are written in it, of the function or method the debug information has for that name, with one argument for each argument written, as many as there are parameters and of their types, and with the size of the type returned.",
  "every expression and every state of the process", "expressions nest without bound",
  "rudy-lldb/src/evaluator.rs: evaluate_function_call, evaluate_method_call, convert_expression_to_method_arg_typed")
p("Registers by number and by name",
  "The contents of a register are those of the register with the number used in the debug information, or with the name asked for; otherwise there is an error.",
  "every register set and number", "register sets differ between machines",
  "rudy-lldb/python/rudy_lldb.py: _handle_read_register, _handle_read_register_by_index")
p("Installing the LLDB script",
  "Installing writes the script of the newest rudy-lldb release and makes LLDB import it, by a line of its own added once, however often it is run; what was in the init file stays; declined questions and network failures change nothing.",
  "every history of installations, every init file, answer and release listing", "files and histories are unbounded, and a test of the network is not repeatable",
  "rudy-lldb/src/main.rs: install_lldb_client")
p("Stopping a server",
  "The stop command makes a server running at the given host and port confirm and exit.",
  "every host and port", "addresses cannot be enumerated",
  "rudy-lldb/src/main.rs: stop_server", "rudy-lldb/src/server.rs: init")
p("What is printed is what the program holds",
  "A variable, field, element or call result is printed as exactly the value in memory: numbers, texts, elements, fields by name, map entries, the variant, and what references and smart pointers lead to, for types as the debug information describes them.",
  "every description of types, every memory contents and every value of those types", "values and types nest and grow without bound",
  "rudy-lldb/src/evaluator.rs: evaluate, pointer_to_result, read_pointer_recursive, format_value", "rudy-db/src/data.rs: read_from_memory", "crates/rudy-dwarf/src/types: resolve_type_offset, shallow_resolve_type")
p("The debugger is asked, and answers, faithfully",
  "What the server learns during a command (memory, program counter, frame, variables, registers) is what the debugger knows of the stopped process; what it asks for (writing, allocating, calling) is done exactly as asked or reported as not done; every question is answered.",
  "every state and behaviour of the debugger, every sequence of questions", "debugger states and memory are unbounded",
  "rudy-lldb/python/rudy_lldb.py: EventHandler", "rudy-lldb/src/server.rs: RemoteDataAccess", "rudy-db/src/data.rs: DataResolver")
p("Answers are about one build of the program",
  "A session answers from the debug information as it was on disk when first used; later changes on disk and other sessions never change its answers, and a session started after a rebuild sees the new build.",
  "every history of rebuilds, sessions and queries", "histories and their interleavings are unbounded",
  "crates/rudy-dwarf/src/file/mod.rs: File::build, load", "rudy-db/src/database.rs: load_binary, get_sync_ref")
p("Sessions do not disturb each other",
  "Each session behaves as if it were the only one of its server: its responses are those of its own commands, binary and debugger, it is never held up by another session, and errors or panics in one session do not reach another; only shutting the server down, or its being unable to accept connections, ends the others.",
  "every number of sessions and every interleaving of their steps", "interleavings cannot be enumerated",
  "rudy-lldb/src/server.rs: run_server, run_server_loop", "rudy-lldb/python/rudy_lldb.py: RudyConnection", "rudy-lldb/src/main.rs: stop_server")
p("Starting the server when it is needed",
  "The LLDB command starts a server only if there is none and the user has not turned this off, one at most, for the host and port it connects to; it goes on as soon as the server answers, gives up after five seconds, and leaves no unused server behind.",
  "every behaviour of the network, the process and time", "timing and process behaviour cannot be enumerated",
  "rudy-lldb/python/rudy_lldb.py: _ensure_server_running, _start_server, _get_connection")
p("Only well-formed messages are acted on",
  "A line that reaches the server or the LLDB command is acted on exactly if it is the text of a JSON object whose fields say one of the messages of the protocol, each field present and of its type and range (or, for the command, absent and then taken for its default); it is then acted on as that message and no other. Every other line - no JSON, text after the end, a bad escape, a field missing or of the wrong type, a byte above 255 - is never taken for a message: the server answers it with an error.",
  "every line of text (numbers in it being natural ones)",
  "the set of malformed lines is infinite; a test feeds a few", 
  "rudy-lldb/src/protocol.rs", "rudy-lldb/src/server.rs: read_next_message", "rudy-lldb/python/rudy_lldb.py: _read_message, _handle_event, send_command")
p("A call shows what it returned",
  "A function or method the user calls in an expression shows a result only if it was run in the process - the function found, with the values of its arguments - and the result shown is what it returned: the value in the register in decimal, or what is in memory at the address of the result after the call, shown as a value of the declared return type. A method rudy answers itself is not run at all.",
  "every program, process, debugger and call",
  "functions, return types and memory contents are unbounded; a test calls a few functions",
  "rudy-lldb/src/evaluator.rs: evaluate_method_call, evaluate_function_call, evaluate_function_call_to_ref", "rudy-lldb/python/rudy_lldb.py: _handle_execute_function, _handle_execute_method")
p("Different values look different",
  "What is shown of a value determines it: two values of one type that are shown with the same text are the same value - the same elements in the same order, the same fields, the same entries, the same texts - be it in two places, in two processes, or before and after a step. The lines of the text follow the structure of the value: one line for each simple part, nested parts two blanks further in.",
  "every pair of values of every type",
  "pairs of values are unbounded; a test compares a few texts with what is expected",
  "rudy-lldb/src/evaluator.rs: format_value, indent", "rudy-db/src/data.rs: read_from_memory")
p("Listings show what was found",
  "What LLDB prints for a typed command is exactly what the server found: `rd functions` prints the number of functions found and one line for each, in order, with path, signature and whether it can be called; `rd methods` prints the type, one line for each method of the program and then the built-in methods, for a place or for the name of a type; `rd print` prints the type and the value; what cannot be found or evaluated is printed as an error. Nothing is added, left out or changed on the way through the connection.",
  "every typed line, program, debugger and result",
  "results and names are unbounded; a test prints a few listings",
  "rudy-lldb/src/server.rs: handle_command, handle_methods_command, handle_functions_command", "rudy-lldb/python/rudy_lldb.py: rudy_command")
p("Types are called by their names in Rust",
  "The name shown for a type - of a variable, a field, a parameter or a result - is the type as one writes it in Rust, with the names of its parts inside; typed in by the user it is read as that type again, and two types shown with the same name are the same type.",
  "every type, nested without bound, and every debug file",
  "types nest without bound and pairs of types cannot be enumerated; a test compares a few names",
  "crates/rudy-types/src/lib.rs: display_name", "crates/rudy-parser/src/types.rs: Type::parse", "crates/rudy-dwarf/src/types/resolution.rs: shallow_resolve_type")
p("What is typed and what is printed",
  "When the program is stopped in a function with a variable x, `rd print x` typed in LLDB prints the name of the type of x and the value the memory of the process holds where the debug information puts x, as C76 describes it; the same for any expression that evaluates to a place. The process is left as it was.",
  "every program, process, debugger, variable and value",
  "programs, memory contents and nesting of values are unbounded; a test runs a debugger on a few programs",
  "rudy-lldb/python/rudy_lldb.py: rudy_command, RudyClient", "rudy-lldb/src/server.rs: handle_command", "rudy-lldb/src/evaluator.rs: evaluate", "rudy-db/src/data.rs: read_from_memory")
p("What a command can make the debugger do",
  "Whatever the debugger answers, a command makes the server ask only for what is written in it: memory, registers and the frame are looked at only for an expression with a variable or function in it; a method or function is run only if it is called in the expression, at the address found for its name, with the arguments written there; memory is allocated and written only for a text that is an argument of a call. Commands other than eval, print and methods ask nothing. A command without a call leaves the process as it was.",
  "every program, every expression, every sequence of lines a client sends, wrong or missing answers included",
  "expressions nest without bound and answers are arbitrary; a test sends a few",
  "rudy-lldb/src/evaluator.rs: evaluate, evaluate_to_ref, convert_expression_to_method_arg_typed", "rudy-lldb/src/server.rs: handle_command, send_event_request")
p("The place where a program is loaded does not matter",
  "A position independent program that the system loads at other addresses than those in its file is debugged like one that is not: its variables are found by the program counter, and its functions are called where they are.",
  "every program, load address and command",
  "load addresses cannot be enumerated; a test runs a program where the system happens to put it",
  "rudy-lldb/src/evaluator.rs: get_pc, evaluate_function_call", "rudy-lldb/python/rudy_lldb.py: _handle_get_frame_info, _handle_get_base_address", "rudy-db/src/debug_info.rs: get_variable_at_pc")
p("What is typed and what a call prints",
  "`rd print f(1, 2)` and `rd print x.m(1, 2)` typed in LLDB run the function found under that name, or the method of the type of x, once, at its address - for a method on x itself - with these numbers, and print the name of the return type and the value memory holds, after the call, at the address of the result.",
  "every program, process, debugger, function, method, list of numbers and result",
  "programs, memory contents and results are unbounded; a test calls a few functions",
  "rudy-lldb/src/evaluator.rs: evaluate_function_call, evaluate_method_call", "rudy-lldb/python/rudy_lldb.py: rudy_command, _handle_execute_function, _handle_execute_method", "rudy-db/src/function_discovery.rs")
p("Statics by name",
  "find_symbol_by_name finds, for a name without its path, a static of the program of that name with its address; of several statics of that name the first by module path; nothing exactly if the program has none. It never finds a function.",
  "every history of symbol tables read and every name",
  "symbol tables are arbitrary and of any size; a test looks up one static",
  "rudy-db/src/debug_info.rs: find_symbol_by_name", "crates/rudy-dwarf/src/symbols/mod.rs: index_binary, index_mapped_file")
p("Symbol names on Linux and macOS",
  "The underscore macOS puts before every mangled name makes no difference: the same functions and statics are found by name and by address as in the program built for Linux.",
  "every symbol table, every demangler and every name",
  "symbol tables are arbitrary; a test looks at a few names",
  "crates/rudy-dwarf/src/symbols/names.rs: demangle_symbol", "crates/rudy-dwarf/src/symbols/mod.rs: index_binary")
p("Unusual type names",
  "Reading the name of a type never crashes; a vector, map, option, smart pointer or other standard type is recognised whatever its generic arguments are, also closures and other types whose names cannot be read.",
  "every text that tokenizes and every list of generic arguments",
  "the compiler writes names of unbounded nesting with items no grammar lists; a test tries a few",
  "crates/rudy-parser/src/types.rs: Type, GenericArgs, AngleTokenTree, parse_type", "crates/rudy-dwarf/src/types/index.rs: get_die_typename")
p("Account of all functions",
  "discover_all_methods_debug has an entry for the printed name of every function symbol in force and for nothing else; it says discovered exactly when the declaration of the function reads, with its signature, and otherwise why not: its file was not indexed, it has no declaration, or the declaration does not read. It agrees with discover_all_methods: what that lists is discovered here with the same signature.",
  "every history of symbol tables, every set of indexed files and all debugging information",
  "symbols, indexed files and declarations combine without bound; a test has one binary",
  "rudy-db/src/function_discovery.rs: discover_all_functions_debug, SymbolAnalysisResult", "rudy-db/src/debug_info.rs: discover_all_methods_debug")
p("Reading variables",
  "A variable or parameter is known with the name, type and place of declaration its entry states. One that cannot be read does not keep the others of the function from being found, and the listing of locals at a position shows exactly those declared before it.",
  "all functions, entries of variables, file tables and positions",
  "the entries of a function combine without bound, and files of a unit are numbered differently by DWARF versions; a test has one function",
  "crates/rudy-dwarf/src/function/variables.rs: variable, resolve_function_variables", "crates/rudy-dwarf/src/die/mod.rs: position", "rudy-db/src/debug_info.rs: get_variable_at_pc, get_all_variables_at_pc")
p("Entries of a debug file",
  "What is read of an entry of a debug file and of its children is what is in the file there, however the compiler wrote the tree; from it follows, by module and name, whether an entry describes a type of the standard library, and this is known for every entry of a file without crashing.",
  "all files of trees of entries (any depth, with or without sibling references, padding, units in other languages), all offsets and names",
  "the trees, names and ways of encoding combine without bound; a test reads the files of one compiler",
  "crates/rudy-dwarf/src/die/mod.rs: children, with_entry", "crates/rudy-dwarf/src/types/index.rs: get_die_typename", "crates/rudy-dwarf/src/modules.rs: get_containing_module")
p("From the executable to what is printed",
  "If the program is stopped in a function and the executable says, in its symbol table, line tables and debug information, that the function has a variable of some name and type at some place of the frame, then `rd print` of this name prints the name of the type and the value that memory holds there, whatever else is in the executable.",
  "all executables with debug information as a compiler writes it, all functions in them, stopping points, variables, types and contents of memory",
  "the answer depends on five indexes built from the whole executable; a test has one executable and one stopping point",
  "rudy-db/src/index.rs: debug_index, get_function, find_all_by_address", "rudy-db/src/query.rs: lookup_address", "crates/rudy-dwarf/src/symbols/mod.rs: index_symbol_map", "rudy-db/src/debug_info.rs: get_variable_at_pc")
p("From the executable to the list of its functions",
  "`rd functions a::b::f` prints one line for each function called f in a module path ending in a::b for which the symbol table of the executable has code, in the order of their names, and none for anything else; the line gives the parameters and the result that the entry of the function in the debug information declares, with the names of their types, or says that the function has no entry and cannot be called.",
  "all executables with debug information as a compiler writes it and all paths asked for",
  "which line is printed depends on the whole symbol table and on every unit of the debug information; a test has one executable",
  "crates/rudy-dwarf/src/symbols/mod.rs: index_symbol_map", "crates/rudy-dwarf/src/function/index.rs: function_index", "rudy-db/src/function_discovery.rs: discover_functions", "rudy-lldb/src/server.rs: handle_functions_command", "rudy-lldb/python/rudy_lldb.py: rudy_command")
p("From the executable to the parts of a variable",
  "With the program stopped in a function, `rd print` of a place in a variable - a field of a struct, an element of an array, slice or Vec, the entry of a map with a text key, what a reference refers to, or what these make together as in x.names[\"a\"][2] - prints the name of the type that the entries of the executable give the place, and the value that memory holds there.",
  "all executables with debug information as a compiler writes it, all variables, all memories and all places however deep",
  "places are made by combining steps without bound, over all types and memories; a test has one",
  "rudy-lldb/src/evaluator.rs: evaluate_to_ref", "rudy-db/src/debug_info.rs: get_struct_field, index_array_or_slice, index_map", "rudy-lldb/src/server.rs: handle_command", "crates/rudy-dwarf/src/types/resolution.rs: resolve_type_offset")
p("From the executable to the methods of a type",
  "With the program stopped in a function, `rd methods v` of a variable of a type of the program lists, in the order of the debug information, the methods that the `impl` blocks of the type and the trait `impl` blocks of its module declare for it - those whose first parameter is a self, &self or &mut self of that type - each with its parameters and result as the program writes them and with the word callable exactly when the executable has code for it; `rd methods path::Type` lists besides the functions of the type without self.",
  "all executables with debug information as a compiler writes it, all types, all sets of functions and impl blocks, all ways of passing self",
  "which functions belong to a type is decided over a whole program, by modules, impl blocks, linkage names and types of parameters; a test has one program",
  "rudy-db/src/function_discovery.rs: discover_methods_for_type, find_matching_type_dies, discover_direct_methods, discover_trait_impl_methods, convert_function_to_method", "rudy-lldb/src/server.rs: handle_methods_command", "crates/rudy-dwarf/src/modules.rs: module_index", "crates/rudy-dwarf/src/types/index.rs: find_type_by_name")
p("From the executable to what a call prints",
  "With the program stopped in a function, `rd print a::b::f(1, v.x)` runs, once and nothing else, the function whose name and module path end in a::b::f - the first in the order of names - at the address the symbol table has for it, passing the numbers and the addresses of the places; and prints the name of the type that the debug information declares for its result and the value memory then holds at the address returned. A call with the wrong number of arguments, or of a function there is no code for, is an error and nothing is run. The same holds of methods `v.m(1)` of the type of a variable.",
  "all executables with debug information as a compiler writes it, all functions and methods, all parameters, arguments, result types and memories, before and after the call",
  "what is called depends on the symbol table, the entries, the modules and the variables in scope together; a test has one program and a few calls",
  "rudy-lldb/src/evaluator.rs: evaluate_function_call, execute_real_method, convert_expression_to_method_arg_typed", "rudy-db/src/function_discovery.rs: discover_functions", "rudy-lldb/python/rudy_lldb.py: _handle_execute_function", "crates/rudy-dwarf/src/symbols/mod.rs: index_binary")
p("What is not there is answered by an error",
  "With the program stopped in a function, `rd print` of a variable the function does not have, of a field its type does not have, of an element beyond the end of a Vec or array, of a key a map does not hold, of an element of what has none, or of any part of such a thing, is answered by an error; nothing in the process is changed and the session goes on.",
  "all executables with debug information as a compiler writes it, all functions, variables, types, memories, indices and keys, and all expressions built on top of what is missing",
  "the error must come whatever the number of fields, elements and entries, and wherever in the expression the missing part is; a test has one type and one wrong name",
  "rudy-lldb/src/evaluator.rs: evaluate_to_ref, evaluate_index_to_ref, evaluate_field_access_to_ref", "rudy-db/src/debug_info.rs: get_struct_field, index_array_or_slice, index_map, get_variable_at_pc")
p("From the executable to what a built-in method returns",
  "With the program stopped in a function, `rd print x.len()`, `is_empty()`, `capacity()`, `is_some()`, `is_none()`, `is_ok()` and `is_err()` print the name of the type and the value that the method of the standard library returns for what memory holds in the variable or the part x, which is a Vec, String, slice, &str, array, Option or Result; no code of the program is run, and a call with arguments, or a part of what is returned, is an error.",
  "all executables with debug information as a compiler writes it, all variables, fields, elements and entries, all lengths, capacities and contents in memory",
  "what is returned depends on the layout the entries give the type and on every byte of lengths and tags; tests run a few methods on a few values",
  "rudy-lldb/src/evaluator.rs: evaluate_method_call", "rudy-db/src/synthetic_methods.rs: evaluate_synthetic_method, evaluate_slice_method, evaluate_option_method, evaluate_result_method")
p("From the executable to the account of its functions and the list of all methods",
  "The account of all function symbols (`discover_all_methods_debug`) has an entry for each name of a function the symbol table has code for, and no other; it says what the debug information has: that the code is not the user's own, that there is no entry of the function, that its entry cannot be read, or its name, parameters, result and receiver with the names of their types. The list of all methods (`discover_all_methods`) has under the name of a type exactly the functions with code whose first parameter is of that type, behind any references and pointers, told as declared.",
  "all executables with debug information as a compiler writes it, all symbol tables, functions, parameters, results and types",
  "account and list range over the whole program, and one function that cannot be handled takes all others with it; tests look up a few functions of small programs",
  "rudy-db/src/function_discovery.rs: discover_all_functions_debug, discover_all_methods", "crates/rudy-dwarf/src/function/mod.rs: resolve_function_signature, function_declaration", "rudy-db/src/debug_info.rs: discover_all_methods, discover_all_methods_debug")
p("From the executable to a call with texts as arguments",
  "When the user types a call of a function with texts among its arguments, then for each text a value of the type that the entry of the function declares for that parameter - a `&str` or a `String` - is made in memory got from the program's own `malloc`, with exactly this text; the function is called once, with copies of these values, when all of them are there and nothing that was in use has changed; what it returns is printed. A text for a parameter of any other type is an error, and nothing is run or written.",
  "all executables with debug information as a compiler writes it, all functions, texts, numbers of arguments, debuggers, memories and allocators that keep blocks apart",
  "the values are written piece by piece through the debugger, at offsets that come from the debug information, and a later text must not disturb an earlier one; tests use one process and one layout",
  "rudy-lldb/src/evaluator.rs: convert_expression_to_method_arg_typed, evaluate_function_call", "rudy-db/src/debug_info.rs: create_typed_value, create_str_slice_with_layout", "rudy-lldb/python/rudy_lldb.py: _handle_allocate_memory, _handle_write_memory, _handle_execute_function")
p("What is shown depends only on the memory that is read, and a failed read is never papered over",
  "If `rd print` shows a value for an expression that calls no function of the program, it shows exactly the same for every process stopped at the same place with the same registers that has at least the same memory, whatever else is in memory and whichever debugger reads it. With less memory readable, the same is shown or there is an error, never another value; two processes whose memories nowhere contradict each other are never shown two different values.",
  "all executables, expressions without calls, processes, memories and debuggers",
  "a part of a value that cannot be read could be shown as empty, as 0, as null or be left out, and only for one of many shapes of values and one of the many reads that can fail; tests read from memory that is all there",
  "rudy-db/src/data.rs: read_from_memory, read_map_entries, read_enum, read_std_from_memory", "rudy-lldb/src/evaluator.rs: evaluate, evaluate_to_ref, pointer_to_result", "rudy-lldb/python/rudy_lldb.py: _handle_read_memory")
p("A part asked for by itself is shown as inside the whole",
  "If `rd print x` shows a value, then `rd print x.f`, `rd print x[i]` and `rd print x[\"key\"]` show what stands in it after `f: `, at the position `i`, and after `\"key\": `, and so on for parts of parts; for the parts that the debugger can find at all.",
  "all executables, places in a stopped program, values nested to the depth that is shown in full, and paths to parts of them",
  "the whole and the part are read by different code (read_from_memory for the one, field_access, index_by_int, index_by_value for the other), which must agree on every offset, size, order and key for every type; a test compares one part of one value",
  "rudy-db/src/data.rs: read_from_memory, field_access, index_by_int, index_by_value", "rudy-lldb/src/evaluator.rs: evaluate, evaluate_to_ref, evaluate_index")
p("What the methods answer agrees with what is shown",
  "If `rd print x` shows a `Vec`, slice or array with n elements, `rd print x.len()` prints n, and `x.is_empty()` whether that is none; if it shows a text, `x.len()` is the number of bytes that it shows; if it shows an `Option` as anything but `None`, `x.is_some()` prints true and `x.is_none()` false.",
  "all executables, places in a stopped program, and values nested to the depth that is shown in full",
  "values and the answers of methods are read by two independent implementations (data.rs and synthetic_methods.rs), which must agree on where lengths and discriminants are for every type; a test compares one value",
  "rudy-db/src/synthetic_methods.rs: evaluate_vec_method, evaluate_string_method, evaluate_option_method, evaluate_slice_method, evaluate_array_method", "rudy-db/src/data.rs: read_from_memory, read_std_from_memory, read_option_from_memory, extract_vec_info", "rudy-lldb/src/evaluator.rs: evaluate, evaluate_method_call")
open('/verif/properties.jsonl','w').write("".join(json.dumps(x)+"\n" for x in P))
print(len(P))
