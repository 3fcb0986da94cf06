{"id": "C01", "title": "Address lookup is exact", "statement": "Looking up a binary (absolute) address in the function address index built from any list of functions returns exactly the functions whose half-open range [start,end) contains the address, each as many times as it was supplied; nothing is missed because of pruning and nothing else is returned.", "quantifier": "every list of functions (any overlap, nesting, duplicates, empty ranges, inverted ranges), every order an unstable sort may leave equal keys in, every address", "why_tests_cant": "Pruning bugs in an interval tree show up only for particular overlap shapes; the number of shapes is unbounded.", "anchors": ["crates/rudy-dwarf/src/address/mod.rs::AddressTree::new", "crates/rudy-dwarf/src/address/mod.rs::AddressTree::query_address", "crates/rudy-dwarf/src/address/mod.rs::query_address_recursive"]}
{"id": "C02", "title": "Debug-file-relative address lookup is exact", "statement": "The same index answers lookups by debug-file-relative address exactly: the result is the multiset of functions whose relative range contains the address, independently of how absolute and relative orders relate.", "quantifier": "every list of functions with arbitrary, unrelated absolute and relative ranges, every relative address", "why_tests_cant": "The second tree is built from a different sort; only special inputs make both orders differ.", "anchors": ["crates/rudy-dwarf/src/address/mod.rs::AddressTree::new", "crates/rudy-dwarf/src/address/mod.rs::AddressTree::query_address"]}
{"id": "C03", "title": "Address range lookup is exact", "statement": "Looking up an address range returns exactly the functions whose range overlaps it.", "quantifier": "every list of functions, every pair of range ends, including empty and inverted queries", "why_tests_cant": "Same as C01, with two free bounds.", "anchors": ["crates/rudy-dwarf/src/address/mod.rs::AddressTree::query_address_range", "crates/rudy-dwarf/src/address/mod.rs::query_interval_recursive"]}
{"id": "C04", "title": "Lookups do not depend on discovery order", "statement": "Building the index from the same functions in any other order gives the same answers (as multisets) to every point and range lookup.", "quantifier": "all permutations of all function lists, all queries", "why_tests_cant": "The number of permutations is factorial and sort_unstable is free to reorder equal keys.", "anchors": ["crates/rudy-dwarf/src/address/mod.rs::AddressTree::new"]}
{"id": "C05", "title": "Nearest symbol lookup", "statement": "The nearest-function lookup for an address returns the functions registered at the greatest registered address not above it; it returns nothing only if no function is registered at or below the address.", "quantifier": "every sequence of symbol insertions, every address", "why_tests_cant": "Boundary at exact hits, before the first and after the last symbol, for every symbol population.", "anchors": ["crates/rudy-dwarf/src/symbols/mod.rs::SymbolIndex::function_at_address", "rudy-db/src/index.rs::find_closest_function"]}
{"id": "C06", "title": "Symbol index lookups agree with insertion history", "statement": "After any sequence of symbol insertions, a symbol is found by name exactly when it was inserted, with the address of the last insertion; every function symbol is findable by its short name, by its full name and by its address; non-function symbols are never reported as functions.", "quantifier": "every history of insertions from executables and from mapped object files", "why_tests_cant": "Several maps must stay mutually consistent for every history with repeated names.", "anchors": ["crates/rudy-dwarf/src/symbols/mod.rs::SymbolIndex", "crates/rudy-dwarf/src/symbols/mod.rs::index_binary", "crates/rudy-dwarf/src/symbols/mod.rs::index_mapped_file"]}
{"id": "C07", "title": "Breakpoint line resolution picks the closest following line", "statement": "Resolving file:line to an address returns a line-table row of that file whose line is at or after the requested one and for which no usable row is closer; it fails only when no usable row exists; an exact line is always preferred.", "quantifier": "every line program, function table, requested file and line", "why_tests_cant": "Line tables are arbitrary; the early return on distance 0 and the skipping of rows without function must not lose the minimum.", "anchors": ["crates/rudy-dwarf/src/address/resolution.rs::location_to_address", "crates/rudy-dwarf/src/address/resolution.rs::address_to_location"]}
{"id": "C08", "title": "Absolute and relative addresses convert back and forth without loss", "statement": "For an address inside a function, converting the runtime address to the debug file's relative address and back gives the original address, and the converted address lies in the function's other range; the absolute range registered for a function has the same length as its DWARF range.", "quantifier": "every function, every address in its range, every load slide", "why_tests_cant": "Any slide, including images above 2^63, must be covered; offsets are u64.", "anchors": ["crates/rudy-dwarf/src/function/index.rs", "crates/rudy-dwarf/src/address/resolution.rs"]}
{"id": "C09", "title": "Position lookup over several debug files is a global minimum", "statement": "Resolving a source position over all debug files returns an address whose line distance is minimal among the answers of all debug files, and returns an answer whenever one file has one.", "quantifier": "every number and order of debug files and every per-file answer", "why_tests_cant": "The loop stops early at distance 0 and keeps the first of equals; the claim is about all orders.", "anchors": ["rudy-db/src/query.rs::lookup_position"]}
{"id": "C10", "title": "Address lookup returns the documented first result", "statement": "When several debug files describe an address, the lookup returns the first description found (as the code's own message says).", "quantifier": "every number of candidate locations", "why_tests_cant": "Only multi-candidate histories distinguish first from last.", "anchors": ["rudy-db/src/query.rs::lookup_address"]}
{"id": "C11", "title": "Demangled symbol splitting is structure preserving", "statement": "Parsing a demangled symbol splits it exactly at the '::' separators outside angle brackets, so that generic arguments and <T as Trait> qualifiers stay whole, no segment is empty, and joining module path, name and hash with '::' gives back the (whitespace-normalised) symbol.", "quantifier": "every string", "why_tests_cant": "Symbols nest generics to unbounded depth.", "anchors": ["crates/rudy-parser/src/types.rs::parse_symbol", "crates/rudy-dwarf/src/symbols/names.rs::SymbolName::parse"]}
{"id": "C12", "title": "Only compiler hashes are treated as hashes", "statement": "A trailing path segment is dropped from the function name as a hash only if it is a legacy mangling hash ('h' followed by 16 hex digits); an ordinary function name is never dropped.", "quantifier": "every symbol whose last segment starts with 'h'", "why_tests_cant": "The set of user function names is unbounded.", "anchors": ["crates/rudy-parser/src/types.rs::parse_symbol"]}
{"id": "C13", "title": "Symbol name ordering is a total order consistent with equality", "statement": "The ordering used as key order of the symbol and function maps is total, antisymmetric and transitive, and two parsed names compare equal exactly when they are equal names, so no map silently merges different functions or splits one.", "quantifier": "all pairs and triples of parsed symbol names", "why_tests_cant": "Order axioms quantify over all triples.", "anchors": ["crates/rudy-dwarf/src/symbols/names.rs::SymbolName::cmp", "crates/rudy-dwarf/src/symbols/names.rs::TypeName::cmp"]}
{"id": "C14", "title": "Name-and-module matching is suffix matching", "statement": "A symbol matches a (name, module) query exactly when its short name is equal and the query's module path is a suffix of the symbol's module path; matching is monotone: dropping leading query modules never loses a match.", "quantifier": "all symbols and queries", "why_tests_cant": "Path lengths are unbounded.", "anchors": ["crates/rudy-dwarf/src/symbols/names.rs::SymbolName::matches_name_and_module"]}
{"id": "C15", "title": "Expression parsing never panics", "statement": "Parsing any user-typed expression returns a tree or an error; it never panics, whatever characters the user types.", "quantifier": "every input string, including non-ASCII text", "why_tests_cant": "Input strings are unbounded and the tokenizer mixes character and byte positions.", "anchors": ["crates/rudy-parser/src/expressions.rs::parse_expression", "crates/rudy-parser/src/expressions.rs::Tokenizer"]}
{"id": "C16", "title": "Expression printing and parsing round-trip", "statement": "Printing an expression obtained by parsing and parsing the print-out gives back the same expression (so errors and echoed expressions mean what they show).", "quantifier": "every expression that parsing can produce", "why_tests_cant": "Expressions nest without bound; precedence mistakes appear only in particular nestings.", "anchors": ["crates/rudy-parser/src/expressions.rs::Expression::fmt", "crates/rudy-parser/src/expressions.rs::Parser"]}
{"id": "C17", "title": "Expressions are not silently truncated", "statement": "If parsing an expression succeeds, the whole input was part of the expression: no trailing tokens are ignored.", "quantifier": "every input string", "why_tests_cant": "Every suffix of every valid expression is a potential counterexample.", "anchors": ["crates/rudy-parser/src/expressions.rs::parse_expression", "crates/rudy-parser/src/expressions.rs::Parser::parse"]}
{"id": "C18", "title": "Number literals denote their value", "statement": "A decimal or 0x-hexadecimal literal parses to exactly its mathematical value when it fits in 64 bits, and is rejected with an error (never wrapped) when it does not.", "quantifier": "every digit string of any length", "why_tests_cant": "Digit strings are unbounded and overflow must be exact.", "anchors": ["crates/rudy-parser/src/expressions.rs::Tokenizer::read_number"]}
{"id": "C19", "title": "Value ordering is a total order", "statement": "The ordering used for struct maps and sorting of read values is reflexive, transitive, antisymmetric and total, and values compare equal exactly when they are equal.", "quantifier": "all values, of any nesting", "why_tests_cant": "Values nest without bound.", "anchors": ["rudy-db/src/outputs.rs::Value::cmp", "rudy-db/src/outputs.rs::TypedPointer::cmp"]}
{"id": "C20", "title": "Type sizes are computed without crashing", "statement": "The size of every type layout can be queried; it is the sum/product prescribed by the layout (array = length times element) and querying it never panics.", "quantifier": "every type layout", "why_tests_cant": "Layouts nest without bound; unimplemented branches hide in nested positions.", "anchors": ["crates/rudy-types/src/lib.rs::Layout::size"]}
{"id": "C21", "title": "Type matching is an equivalence", "statement": "The type matching used to find methods and converted arguments is reflexive, symmetric and transitive, and does not identify types a user would call different.", "quantifier": "all pairs and triples of types", "why_tests_cant": "Types nest without bound.", "anchors": ["crates/rudy-types/src/lib.rs::Layout::matching_type"]}
{"id": "C22", "title": "Integers are read exactly", "statement": "Reading an integer of any supported width and signedness from memory gives exactly the little-endian two's-complement value stored there; unsupported widths are errors; a read touches exactly its bytes.", "quantifier": "all byte strings of all widths, all addresses", "why_tests_cant": "2^128 values per width.", "anchors": ["rudy-db/src/data.rs::read_primitive_from_memory", "rudy-db/src/debug_info.rs::read_variable"]}
{"id": "C23", "title": "Struct reading shows every field once at its offset", "statement": "Reading a struct yields exactly its declared fields, each paired with a pointer to base+offset of the field's type; no memory outside the struct is dereferenced and it works for any field order.", "quantifier": "every struct definition, base address and memory", "why_tests_cant": "Field lists are unbounded.", "anchors": ["rudy-db/src/data.rs::read_from_memory"]}
{"id": "C24", "title": "Sequences show exactly their elements", "statement": "Reading an array, slice or Vec yields exactly `length` elements, the i-th at data+i*element size, in order; String reads exactly its length bytes.", "quantifier": "every length, element type, base address and memory", "why_tests_cant": "Lengths are unbounded.", "anchors": ["rudy-db/src/data.rs::read_primitive_from_memory", "rudy-db/src/data.rs::read_std_from_memory"]}
{"id": "C25", "title": "Enum variants are decoded from the discriminant", "statement": "Reading an enum selects the variant whose declared discriminant equals the stored value, otherwise the dataful (niche) variant; the discriminant is read at the declared offset and width; with no matching variant an error is returned.", "quantifier": "every enum layout with any number of variants, any discriminant width and offset, any memory", "why_tests_cant": "Variants, offsets and values are unbounded.", "anchors": ["rudy-db/src/data.rs::read_enum", "rudy-db/src/data.rs::read_c_enum"]}
{"id": "C26", "title": "Option contents agree with is_some/is_none", "statement": "For every Option in memory the displayed value is None exactly when is_none() returns true; is_some and is_none are complementary.", "quantifier": "every option layout, every discriminant width and value", "why_tests_cant": "Values where the low byte is zero but the discriminant is not are a sparse set.", "anchors": ["rudy-db/src/data.rs::read_option_from_memory", "rudy-db/src/synthetic_methods.rs::evaluate_option_method"]}
{"id": "C27", "title": "HashMap reading yields exactly the occupied buckets", "statement": "Reading a HashMap returns one entry per occupied control byte, in bucket order, at the bucket's address below the control bytes; for a well-formed table the number of entries equals len().", "quantifier": "every table size, occupancy pattern and key/value layout", "why_tests_cant": "Occupancy patterns are exponential in the table size.", "anchors": ["rudy-db/src/data.rs::read_map_entries"]}
{"id": "C28", "title": "BTreeMap reading is the in-order traversal", "statement": "Reading a BTreeMap returns exactly the entries of the tree in key order (in-order traversal), whatever its height and fill, and len() agrees with the number of entries.", "quantifier": "every B-tree of any height and fan-out stored in memory", "why_tests_cant": "Trees are unbounded in height and shape.", "anchors": ["rudy-db/src/data.rs::read_btree_node_entries"]}
{"id": "C29", "title": "Indexing agrees with reading and is bounds checked", "statement": "Indexing element i of an array, Vec or slice succeeds exactly when i is below the length and gives the same address and type as the i-th element of the displayed sequence; any other index is an error, never an out-of-bounds read.", "quantifier": "every sequence value and every 64-bit index", "why_tests_cant": "Indices and lengths are unbounded.", "anchors": ["rudy-db/src/debug_info.rs::index_by_int", "rudy-db/src/debug_info.rs::index_array_or_slice"]}
{"id": "C30", "title": "Map indexing returns the entry of that key", "statement": "Indexing a map by a key returns the value of an entry whose key equals the requested key, fails when there is none, and never confuses different keys.", "quantifier": "every map contents and every key", "why_tests_cant": "Keys are arbitrary strings.", "anchors": ["rudy-db/src/debug_info.rs::index_by_value", "rudy-db/src/debug_info.rs::values_equal"]}
{"id": "C31", "title": "Created strings read back unchanged and stay in their allocation", "statement": "Creating a &str or String in the target for a method argument allocates enough memory, writes only inside what was allocated, and reading the created value gives back the given text.", "quantifier": "every string, every layout offsets, every allocator", "why_tests_cant": "String lengths and layout offsets vary freely.", "anchors": ["rudy-db/src/debug_info.rs::create_typed_value", "rudy-db/src/debug_info.rs::create_str_slice_with_layout", "rudy-db/src/debug_info.rs::create_owned_string_with_layout"]}
{"id": "C32", "title": "Synthetic len/is_empty/is_some agree with the contents", "statement": "For every collection value, the synthetic len() equals the number of elements shown when the value is read, is_empty() is len()==0, is_ok/is_err are complementary, and every advertised synthetic method can be evaluated.", "quantifier": "every type layout, memory and method name", "why_tests_cant": "Agreement of two independent readers over every memory.", "anchors": ["rudy-db/src/synthetic_methods.rs", "rudy-db/src/data.rs"]}
{"id": "C33", "title": "Variable lookup finds the live binding", "statement": "Looking a variable up by name returns the binding of that name live at the current line: the latest declared before it, never a shadowed or not yet declared one; an unknown name is not found; listing all variables shows the parameters and the locals declared before the current line, and agrees with looking each up.", "quantifier": "every function, shadowing pattern and program counter", "why_tests_cant": "Shadowing patterns are unbounded.", "anchors": ["rudy-db/src/debug_info.rs::get_variable_at_pc", "rudy-db/src/debug_info.rs::get_all_variables_at_pc"]}
{"id": "C34", "title": "Pointer expansion terminates on cyclic data", "statement": "Expanding a value for display follows pointers to a bounded depth, so it terminates on cyclic or self-referential memory, and a value without pointers is returned unchanged.", "quantifier": "every memory, including cyclic graphs", "why_tests_cant": "Memory graphs are unbounded.", "anchors": ["rudy-lldb/src/evaluator.rs::read_pointer_recursive"]}
{"id": "C35", "title": "One terminal response per command", "statement": "In a debug session every command line received at top level is answered by exactly one terminal response (result, completion or error) after zero or more events, in order.", "quantifier": "every sequence of client messages and every debugger answer", "why_tests_cant": "Histories are unbounded.", "anchors": ["rudy-lldb/src/server.rs::run_server_loop", "rudy-lldb/src/server.rs::handle_command"]}
{"id": "C36", "title": "Malformed client input does not end the session", "statement": "An undecodable line is answered with an error and the session continues; the session ends only on shutdown, end of input, or a protocol violation; commands sent in the middle of an event exchange are not lost.", "quantifier": "every sequence of client lines", "why_tests_cant": "Histories are unbounded.", "anchors": ["rudy-lldb/src/server.rs::read_next_message", "rudy-lldb/src/server.rs::send_event_request"]}
{"id": "C37", "title": "Evaluating a call executes it once", "statement": "Evaluating an expression with nested method calls executes each call in the target exactly once.", "quantifier": "every nesting of calls", "why_tests_cant": "Nesting is unbounded; re-execution is exponential in depth.", "anchors": ["rudy-lldb/src/evaluator.rs::convert_expression_to_method_arg_typed", "rudy-lldb/src/evaluator.rs::evaluate_method_call"]}
{"id": "C38", "title": "Source path remapping applies a single mapping", "statement": "A path is rewritten by the first source mapping whose source directory contains it, and by no other; a path no mapping applies to is unchanged; the file whose existence is checked when a debug file is registered is the file that is later read.", "quantifier": "every list of mappings and every path", "why_tests_cant": "Lists of overlapping mappings are unbounded.", "anchors": ["crates/rudy-dwarf/src/lib.rs::remap_path", "rudy-db/src/database.rs", "crates/rudy-dwarf/src/file/mod.rs"]}
{"id": "C39", "title": "Module of a DIE offset is the innermost enclosing one", "statement": "Looking up the module of a debug-info offset returns the innermost namespace range that contains the offset.", "quantifier": "every nesting of namespaces and every offset", "why_tests_cant": "Nestings are unbounded.", "anchors": ["crates/rudy-dwarf/src/modules.rs::find_by_offset"]}
{"id": "C40", "title": "Function discovery by pattern", "statement": "Function discovery returns every function with an address whose full name equals the pattern or whose short name equals it with the module path as suffix, and only those, exact matches first.", "quantifier": "every symbol population and every pattern", "why_tests_cant": "Populations are unbounded.", "anchors": ["rudy-db/src/function_discovery.rs::discover_functions", "rudy-db/src/function_discovery.rs::function_matches_pattern"]}
{"id": "C41", "title": "Tree pattern parsers take the first matching child", "statement": "A child pattern (member by name, field path) selects the first child for which it succeeds, independent of the other patterns; a field path's offset is the sum of the member offsets along the path.", "quantifier": "every DIE tree and every combination of patterns", "why_tests_cant": "Trees are unbounded.", "anchors": ["crates/rudy-dwarf/src/parser/children.rs", "crates/rudy-dwarf/src/parser/combinators.rs", "crates/rudy-dwarf/src/parser/primitives.rs"]}
{"id": "C42", "title": "DIE walking visits every entry once in document order", "statement": "Walking a compilation unit visits each debug-info entry the visitor descends into exactly once, parents before children, and skipping children continues at the next sibling.", "quantifier": "every DIE tree and every set of descend/skip decisions", "why_tests_cant": "Trees are unbounded.", "anchors": ["crates/rudy-dwarf/src/visitor.rs::DieWalker"]}
{"id": "C43", "title": "Corrupt target memory does not crash the debugger", "statement": "Reading any value from uninitialised or corrupt memory returns a value or an error; it never panics.", "quantifier": "every type layout and every memory contents", "why_tests_cant": "Garbage memory is the common case when stopping early in a function.", "anchors": ["rudy-db/src/data.rs"]}
{"id": "C44", "title": "Method discovery lists exactly the methods of the type", "statement": "Discovering methods for a type returns every function whose first parameter's type matches the type (by value, reference or mutable reference) plus the evaluable built-in methods, and nothing else.", "quantifier": "every function population and every type", "why_tests_cant": "Populations are unbounded.", "anchors": ["rudy-db/src/function_discovery.rs::discover_methods_for_type"]}
{"id": "C45", "title": "Type names convert to layouts and back", "statement": "Printing a parsed type name and parsing it again gives the same type; a std type written with its path or in its prelude form yields the same layout, and a user type is never confused with a std type of the same name.", "quantifier": "every type name", "why_tests_cant": "Type names nest without bound.", "anchors": ["crates/rudy-parser/src/types.rs::Type", "crates/rudy-parser/src/types.rs::as_layout"]}
{"id": "C46", "title": "Address lookup describes every function containing the address", "statement": "Looking up an address reports, for every function of any debug file whose range contains the address and whose line table has a row for it, the function's name and that row's location, and reports nothing else.", "quantifier": "every set of debug files, symbols and addresses", "why_tests_cant": "Functions of different debug files can interleave in unboundedly many ways.", "anchors": ["rudy-db/src/index.rs::find_all_by_address", "crates/rudy-dwarf/src/function/index.rs::address_to_locations"]}
{"id": "C47", "title": "Pointers and smart pointers show what they point to", "statement": "Reading a reference, raw pointer, Box, Rc, Arc, Mutex or RefCell shows exactly the value read at the address it stores (or, for Mutex and RefCell, at the contained value), with only the shown type wrapped; an alias shows what the named type shows; a dangling pointer is an error.", "quantifier": "every nesting of pointer types, every address and memory", "why_tests_cant": "Pointer nestings and memory contents are unbounded.", "anchors": ["rudy-db/src/data.rs::read_from_memory", "rudy-db/src/data.rs::read_std_from_memory"]}
{"id": "C48", "title": "Parentheses do not change the meaning of an expression", "statement": "Writing a subexpression in parentheses gives the same result as writing it without, wherever it stands: as the whole expression, as the object of a field access, index or method call, and as an argument.", "quantifier": "every expression and every place of a subexpression", "why_tests_cant": "Expressions are unbounded.", "anchors": ["rudy-lldb/src/evaluator.rs::evaluate", "rudy-lldb/src/evaluator.rs::evaluate_to_ref", "rudy-lldb/src/evaluator.rs::convert_expression_to_method_arg_typed"]}
{"id": "C49", "title": "Expressions without calls do not disturb the process", "statement": "Evaluating an expression that contains no method or function call executes nothing in the debugged process and writes nothing to it, whether the evaluation succeeds or fails.", "quantifier": "every call-free expression, process state and debugger", "why_tests_cant": "Expressions and process states are unbounded.", "anchors": ["rudy-lldb/src/evaluator.rs::evaluate"]}
{"id": "C50", "title": "Index and key expressions", "statement": "Indexing with a variable gives the same element as indexing with a literal of the value the variable holds, for sequences and for maps; reading the index or key terminates; a map with number keys can be indexed by a number.", "quantifier": "every base expression, index expression and memory", "why_tests_cant": "Memories and key types are unbounded.", "anchors": ["rudy-lldb/src/evaluator.rs::evaluate_index", "rudy-lldb/src/evaluator.rs::evaluate_to_int", "rudy-lldb/src/evaluator.rs::evaluate_to_string", "rudy-lldb/src/evaluator.rs::read_string_from_memory"]}
{"id": "C51", "title": "One frame per expression", "statement": "All variables of an expression are looked up at the same program counter, the one the debugger reports when the first of them is evaluated, whatever is executed in between.", "quantifier": "every expression, process state and debugger", "why_tests_cant": "Expressions and debugger behaviours are unbounded.", "anchors": ["rudy-lldb/src/evaluator.rs::get_pc", "rudy-lldb/src/evaluator.rs::evaluate_variable_to_ref"]}
{"id": "C52", "title": "Unreadable parts do not hide the rest", "statement": "When one field, element or entry of a value cannot be read, the readable others are still shown.", "quantifier": "every value and memory", "why_tests_cant": "Memories are unbounded.", "anchors": ["rudy-lldb/src/evaluator.rs::read_pointer_recursive", "rudy-lldb/src/evaluator.rs::pointer_to_result"]}
{"id": "C53", "title": "The function index holds exactly the linked functions", "statement": "Indexing a debug file registers, under its symbol's name, every function entry whose linkage name is in the symbol table and, by address, every such entry with code, with a range of the same length starting at the symbol's address; nothing else is registered, and one unit does not hide the functions of another.", "quantifier": "every debug file, symbol table and address", "why_tests_cant": "Debug files are unbounded; a unit far away can end the indexing.", "anchors": ["crates/rudy-dwarf/src/function/index.rs::function_index", "crates/rudy-dwarf/src/visitor.rs::visit_cu", "crates/rudy-dwarf/src/parser/primitives.rs::rust_cu"]}
{"id": "C54", "title": "Every function with code is found at its addresses", "statement": "Every function of the program that has code and a symbol is found when one of its addresses is looked up, however the compiler describes it (free function, method, function inside another item).", "quantifier": "every debug file", "why_tests_cant": "The ways to describe a function are unbounded.", "anchors": ["crates/rudy-dwarf/src/function/index.rs::visit_function"]}
{"id": "C55", "title": "The address of a variable follows its location description", "statement": "The address reported for a variable is the one its DWARF location denotes (frame base plus offset, fixed address, ...); a variable without a memory address is reported without one, and does not keep the other variables from being listed.", "quantifier": "every location expression, frame base and register content", "why_tests_cant": "Location expressions are unbounded programs.", "anchors": ["crates/rudy-dwarf/src/expressions.rs::resolve_data_location", "crates/rudy-dwarf/src/expressions.rs::get_function_frame_base", "rudy-db/src/debug_info.rs::variable_info"]}
{"id": "C56", "title": "The path of a source file follows the line table", "statement": "The path reported for a source file is its name taken relative to its directory, which is taken relative to the compilation directory; absolute names and directories are used as they are.", "quantifier": "every file table entry and compilation directory", "why_tests_cant": "Paths are unbounded strings.", "anchors": ["crates/rudy-dwarf/src/die/utils.rs::file_entry_to_path"]}
{"id": "C57", "title": "Standard library layouts follow the debug file", "statement": "Resolving a Vec, String, HashMap, BTreeMap, Option, Result, Box, Rc, Arc, Mutex, RefCell, Cell or UnsafeCell succeeds exactly when the debug file describes the members the type is made of; the reported offsets are then the sums of the member offsets along the way, and element, key, value and payload types are the ones the debug file names. No type the resolver recognises by name makes it crash.", "quantifier": "every debug file (any order and number of further members, any offsets), every nesting of types", "why_tests_cant": "tests resolve the types of one compiler version; the layouts must follow whatever offsets the debug file gives", "anchors": ["crates/rudy-dwarf/src/types/resolution.rs: resolve_as_builtin_type, resolve_map_type, resolve_smart_ptr_type", "crates/rudy-dwarf/src/parser/{vec,hashmap,btreemap,option,result,pointers}.rs"]}
{"id": "C58", "title": "User type layouts are complete and in order", "statement": "Resolving a structure, tuple, array, slice, pointer, enumeration, field-less enumeration or function type reports every field, element, variant or argument the debug file lists, in order, with the offset and type the debug file gives; nothing is invented or silently lost.", "quantifier": "every debug file, every type entry, any number of members", "why_tests_cant": "tests look at a few structures; completeness must hold for any member list", "anchors": ["crates/rudy-dwarf/src/types/resolution.rs: resolve_struct_type, resolve_tuple_type, resolve_primitive_type, resolve_type_offset", "crates/rudy-dwarf/src/parser/enums.rs: enum_def, c_enum_def, enum_variant"]}
{"id": "C59", "title": "Type resolution is well defined and terminates", "statement": "The layout resolved for a type does not depend on available stack: two resolutions that succeed agree, recursive user types resolve in one step, and resolution ends with a result or an error for every debug file.", "quantifier": "every debug file including cyclic type references, every recursion depth", "why_tests_cant": "termination and independence of the recursion depth are statements about all depths", "anchors": ["crates/rudy-dwarf/src/types/resolution.rs: shallow_resolve_type, resolve_type_offset"]}
{"id": "C60", "title": "Enum discriminants are read where the debug file puts them", "statement": "The discriminant of an enum is read at the offset of its discriminant member and with that member's integer type; an enum without one has an implicit discriminant.", "quantifier": "every enum layout, every offset of the discriminant member", "why_tests_cant": "tests only have enums whose discriminant comes first; niche layouts can put it anywhere", "anchors": ["crates/rudy-dwarf/src/parser/enums.rs: enum_discriminant, enum_variant"]}
{"id": "C61", "title": "Types are found by name", "statement": "Looking a type up by its name gives the type of the first entry, in the first debug file that has one, that lies directly in the namespace the name gives and whose own name stands for a matching type; nothing is found only if there is no such entry, and an error means the text is no type name or the entry found does not resolve.", "quantifier": "every debug file, every type name", "why_tests_cant": "a test can look up a few names in one binary; which entry of which file is taken must hold for every order of files and entries", "anchors": ["rudy-db/src/index.rs: resolve_type", "crates/rudy-dwarf/src/types/index.rs: find_type_by_name", "rudy-db/src/debug_info.rs: lookup_type_by_name"]}
{"id": "C62", "title": "Known source files", "statement": "A source file is known exactly if a Rust compilation unit of some debug file lists it; under it are exactly the debug files that have such a unit, in order, none twice.", "quantifier": "every set of debug files, compilation units and file tables", "why_tests_cant": "tests index a handful of binaries", "anchors": ["rudy-db/src/index.rs: debug_index", "crates/rudy-dwarf/src/file/index.rs: index_debug_file_sources"]}
{"id": "C63", "title": "Debug files and the functions attributed to them", "statement": "The debug files of a binary are the binary itself and the mapped objects that can be opened; every function symbol of these (and no other) is known, with its address and the debug file it comes from, whatever order the objects are visited in.", "quantifier": "every object map, every set of missing objects, every order of visiting the objects", "why_tests_cant": "the order of a hash map differs from run to run and cannot be chosen by a test", "anchors": ["crates/rudy-dwarf/src/symbols/mod.rs: index_symbol_map, SymbolIndex"]}
{"id": "C64", "title": "Breakpoints by source position", "statement": "The address found for file:line is that of the closest row at or after the line, in the known file with this path or, failing that, the first one whose path ends with it; no debug file of that file has a closer row; nothing is found only if there is no such row; a unique partial path is as good as the full one.", "quantifier": "every source file name, line, set of debug files and line tables", "why_tests_cant": "which row of which file is closest is a statement about all of them", "anchors": ["rudy-db/src/debug_info.rs: find_address_from_source_location", "rudy-db/src/query.rs: lookup_position"]}
{"id": "C65", "title": "Position to address and back", "statement": "Looking up the address of a source position and then the location of that address gives the same file and a line at or after the one asked for, the same line if it has code.", "quantifier": "every file, line and debug file", "why_tests_cant": "a round trip through unbounded line tables and symbol tables", "anchors": ["rudy-db/src/debug_info.rs: find_address_from_source_location, address_to_location"]}
{"id": "C66", "title": "Where types are looked for", "statement": "Types are looked up by name in exactly the debug files that have a source below the workspace root, which is the directory of the manifest cargo names or else the nearest directory at or above the current one with a Cargo.toml.", "quantifier": "every working directory, workspace and set of source paths", "why_tests_cant": "depends on the directory the debugger is started in", "anchors": ["crates/rudy-dwarf/src/file/mod.rs: detect_cargo_root", "rudy-db/src/index.rs: debug_index, resolve_type"]}
{"id": "C67", "title": "Messages survive the connection", "statement": "Whatever message the LLDB command or the server sends, whatever characters its texts contain, the other side reads exactly that message: one per line, in order, nothing lost, added or changed; a number that does not fit 64 bits makes the message unreadable, never another number.", "quantifier": "every sequence of messages, every text and number in them", "why_tests_cant": "texts and sequences are unbounded; two JSON writers and two readers have to agree on all of them", "anchors": ["rudy-lldb/src/protocol.rs", "rudy-lldb/src/server.rs: read_next_message, write_message", "rudy-lldb/python/rudy_lldb.py: _send_message, _read_message, _handle_event"]}
{"id": "C68", "title": "The debugger and the server stay in step", "statement": "Every command the user gives is answered, after finitely many steps, in order and exactly once, by the response the server computes for that command from the answers LLDB gave while it ran; the two sides never wait for each other and never talk at the same time; as long as nothing panics and nobody shuts the server down the connection lasts.", "quantifier": "every interleaving of the two sides, every sequence of commands and every answer LLDB gives, interrupts included", "why_tests_cant": "schedules and answers cannot be enumerated", "anchors": ["rudy-lldb/python/rudy_lldb.py: send_command, rudy_command", "rudy-lldb/src/server.rs: run_server_loop, send_event_request, handle_command"]}
{"id": "C69", "title": "Commands go to the right session", "statement": "A command is answered from the debug information of the executable of the selected target, and a connection that is gone is opened again.", "quantifier": "every history of commands, targets and server states", "why_tests_cant": "histories are unbounded", "anchors": ["rudy-lldb/python/rudy_lldb.py: _get_connection, rudy_command"]}
{"id": "C70", "title": "Commands arrive as typed", "statement": "The command sent is the one the user named, in full or by its short form, with the words after it; the server parses the expression the user typed, however it is spaced; an empty line sends nothing.", "quantifier": "every command line", "why_tests_cant": "texts are unbounded", "anchors": ["rudy-lldb/python/rudy_lldb.py: rudy_command", "rudy-lldb/src/server.rs: handle_command", "crates/rudy-parser/src/expressions.rs: parse_expression"]}
{"id": "C71", "title": "Calls into the program are the calls meant", "statement": "The expression LLDB is given for a call is well-formed and says unambiguously which call it is: the address, the arguments in order, each passed as its kind requires, the object first for methods, every structure defined once, a result of the right size; the answer passed on is what LLDB found.", "quantifier": "every address, argument list and result size, every answer of LLDB", "why_tests_cant": "argument lists and their texts are unbounded", "anchors": ["rudy-lldb/python/rudy_lldb.py: _handle_execute_method, _handle_execute_function"]}
{"id": "C72", "title": "The calls made are the calls written", "statement": "Evaluating an expression makes only calls that are written in it, of the function or method the debug information has for that name, with one argument for each argument written, as many as there are parameters and of their types, and with the size of the type returned.", "quantifier": "every expression and every state of the process", "why_tests_cant": "expressions nest without bound", "anchors": ["rudy-lldb/src/evaluator.rs: evaluate_function_call, evaluate_method_call, convert_expression_to_method_arg_typed"]}
{"id": "C73", "title": "Registers by number and by name", "statement": "The contents of a register are those of the register with the number used in the debug information, or with the name asked for; otherwise there is an error.", "quantifier": "every register set and number", "why_tests_cant": "register sets differ between machines", "anchors": ["rudy-lldb/python/rudy_lldb.py: _handle_read_register, _handle_read_register_by_index"]}
{"id": "C74", "title": "Installing the LLDB script", "statement": "Installing writes the script of the newest rudy-lldb release and makes LLDB import it, by a line of its own added once, however often it is run; what was in the init file stays; declined questions and network failures change nothing.", "quantifier": "every history of installations, every init file, answer and release listing", "why_tests_cant": "files and histories are unbounded, and a test of the network is not repeatable", "anchors": ["rudy-lldb/src/main.rs: install_lldb_client"]}
{"id": "C75", "title": "Stopping a server", "statement": "The stop command makes a server running at the given host and port confirm and exit.", "quantifier": "every host and port", "why_tests_cant": "addresses cannot be enumerated", "anchors": ["rudy-lldb/src/main.rs: stop_server", "rudy-lldb/src/server.rs: init"]}
{"id": "C76", "title": "What is printed is what the program holds", "statement": "A variable, field, element or call result is printed as exactly the value in memory: numbers, texts, elements, fields by name, map entries, the variant, and what references and smart pointers lead to, for types as the debug information describes them.", "quantifier": "every description of types, every memory contents and every value of those types", "why_tests_cant": "values and types nest and grow without bound", "anchors": ["rudy-lldb/src/evaluator.rs: evaluate, pointer_to_result, read_pointer_recursive, format_value", "rudy-db/src/data.rs: read_from_memory", "crates/rudy-dwarf/src/types: resolve_type_offset, shallow_resolve_type"]}
{"id": "C77", "title": "The debugger is asked, and answers, faithfully", "statement": "What the server learns during a command (memory, program counter, frame, variables, registers) is what the debugger knows of the stopped process; what it asks for (writing, allocating, calling) is done exactly as asked or reported as not done; every question is answered.", "quantifier": "every state and behaviour of the debugger, every sequence of questions", "why_tests_cant": "debugger states and memory are unbounded", "anchors": ["rudy-lldb/python/rudy_lldb.py: EventHandler", "rudy-lldb/src/server.rs: RemoteDataAccess", "rudy-db/src/data.rs: DataResolver"]}
{"id": "C78", "title": "Answers are about one build of the program", "statement": "A session answers from the debug information as it was on disk when first used; later changes on disk and other sessions never change its answers, and a session started after a rebuild sees the new build.", "quantifier": "every history of rebuilds, sessions and queries", "why_tests_cant": "histories and their interleavings are unbounded", "anchors": ["crates/rudy-dwarf/src/file/mod.rs: File::build, load", "rudy-db/src/database.rs: load_binary, get_sync_ref"]}
{"id": "C79", "title": "Sessions do not disturb each other", "statement": "Each session behaves as if it were the only one of its server: its responses are those of its own commands, binary and debugger, it is never held up by another session, and errors or panics in one session do not reach another; only shutting the server down, or its being unable to accept connections, ends the others.", "quantifier": "every number of sessions and every interleaving of their steps", "why_tests_cant": "interleavings cannot be enumerated", "anchors": ["rudy-lldb/src/server.rs: run_server, run_server_loop", "rudy-lldb/python/rudy_lldb.py: RudyConnection", "rudy-lldb/src/main.rs: stop_server"]}
{"id": "C80", "title": "Starting the server when it is needed", "statement": "The LLDB command starts a server only if there is none and the user has not turned this off, one at most, for the host and port it connects to; it goes on as soon as the server answers, gives up after five seconds, and leaves no unused server behind.", "quantifier": "every behaviour of the network, the process and time", "why_tests_cant": "timing and process behaviour cannot be enumerated", "anchors": ["rudy-lldb/python/rudy_lldb.py: _ensure_server_running, _start_server, _get_connection"]}
{"id": "C81", "title": "Only well-formed messages are acted on", "statement": "A line that reaches the server or the LLDB command is acted on exactly if it is the text of a JSON object whose fields say one of the messages of the protocol, each field present and of its type and range (or, for the command, absent and then taken for its default); it is then acted on as that message and no other. Every other line - no JSON, text after the end, a bad escape, a field missing or of the wrong type, a byte above 255 - is never taken for a message: the server answers it with an error.", "quantifier": "every line of text (numbers in it being natural ones)", "why_tests_cant": "the set of malformed lines is infinite; a test feeds a few", "anchors": ["rudy-lldb/src/protocol.rs", "rudy-lldb/src/server.rs: read_next_message", "rudy-lldb/python/rudy_lldb.py: _read_message, _handle_event, send_command"]}
{"id": "C82", "title": "A call shows what it returned", "statement": "A function or method the user calls in an expression shows a result only if it was run in the process - the function found, with the values of its arguments - and the result shown is what it returned: the value in the register in decimal, or what is in memory at the address of the result after the call, shown as a value of the declared return type. A method rudy answers itself is not run at all.", "quantifier": "every program, process, debugger and call", "why_tests_cant": "functions, return types and memory contents are unbounded; a test calls a few functions", "anchors": ["rudy-lldb/src/evaluator.rs: evaluate_method_call, evaluate_function_call, evaluate_function_call_to_ref", "rudy-lldb/python/rudy_lldb.py: _handle_execute_function, _handle_execute_method"]}
{"id": "C83", "title": "Different values look different", "statement": "What is shown of a value determines it: two values of one type that are shown with the same text are the same value - the same elements in the same order, the same fields, the same entries, the same texts - be it in two places, in two processes, or before and after a step. The lines of the text follow the structure of the value: one line for each simple part, nested parts two blanks further in.", "quantifier": "every pair of values of every type", "why_tests_cant": "pairs of values are unbounded; a test compares a few texts with what is expected", "anchors": ["rudy-lldb/src/evaluator.rs: format_value, indent", "rudy-db/src/data.rs: read_from_memory"]}
{"id": "C84", "title": "Listings show what was found", "statement": "What LLDB prints for a typed command is exactly what the server found: `rd functions` prints the number of functions found and one line for each, in order, with path, signature and whether it can be called; `rd methods` prints the type, one line for each method of the program and then the built-in methods, for a place or for the name of a type; `rd print` prints the type and the value; what cannot be found or evaluated is printed as an error. Nothing is added, left out or changed on the way through the connection.", "quantifier": "every typed line, program, debugger and result", "why_tests_cant": "results and names are unbounded; a test prints a few listings", "anchors": ["rudy-lldb/src/server.rs: handle_command, handle_methods_command, handle_functions_command", "rudy-lldb/python/rudy_lldb.py: rudy_command"]}
{"id": "C85", "title": "Types are called by their names in Rust", "statement": "The name shown for a type - of a variable, a field, a parameter or a result - is the type as one writes it in Rust, with the names of its parts inside; typed in by the user it is read as that type again, and two types shown with the same name are the same type.", "quantifier": "every type, nested without bound, and every debug file", "why_tests_cant": "types nest without bound and pairs of types cannot be enumerated; a test compares a few names", "anchors": ["crates/rudy-types/src/lib.rs: display_name", "crates/rudy-parser/src/types.rs: Type::parse", "crates/rudy-dwarf/src/types/resolution.rs: shallow_resolve_type"]}
{"id": "C86", "title": "What is typed and what is printed", "statement": "When the program is stopped in a function with a variable x, `rd print x` typed in LLDB prints the name of the type of x and the value the memory of the process holds where the debug information puts x, as C76 describes it; the same for any expression that evaluates to a place. The process is left as it was.", "quantifier": "every program, process, debugger, variable and value", "why_tests_cant": "programs, memory contents and nesting of values are unbounded; a test runs a debugger on a few programs", "anchors": ["rudy-lldb/python/rudy_lldb.py: rudy_command, RudyClient", "rudy-lldb/src/server.rs: handle_command", "rudy-lldb/src/evaluator.rs: evaluate", "rudy-db/src/data.rs: read_from_memory"]}
{"id": "C87", "title": "What a command can make the debugger do", "statement": "Whatever the debugger answers, a command makes the server ask only for what is written in it: memory, registers and the frame are looked at only for an expression with a variable or function in it; a method or function is run only if it is called in the expression, at the address found for its name, with the arguments written there; memory is allocated and written only for a text that is an argument of a call. Commands other than eval, print and methods ask nothing. A command without a call leaves the process as it was.", "quantifier": "every program, every expression, every sequence of lines a client sends, wrong or missing answers included", "why_tests_cant": "expressions nest without bound and answers are arbitrary; a test sends a few", "anchors": ["rudy-lldb/src/evaluator.rs: evaluate, evaluate_to_ref, convert_expression_to_method_arg_typed", "rudy-lldb/src/server.rs: handle_command, send_event_request"]}
{"id": "C88", "title": "The place where a program is loaded does not matter", "statement": "A position independent program that the system loads at other addresses than those in its file is debugged like one that is not: its variables are found by the program counter, and its functions are called where they are.", "quantifier": "every program, load address and command", "why_tests_cant": "load addresses cannot be enumerated; a test runs a program where the system happens to put it", "anchors": ["rudy-lldb/src/evaluator.rs: get_pc, evaluate_function_call", "rudy-lldb/python/rudy_lldb.py: _handle_get_frame_info, _handle_get_base_address", "rudy-db/src/debug_info.rs: get_variable_at_pc"]}
{"id": "C89", "title": "What is typed and what a call prints", "statement": "`rd print f(1, 2)` and `rd print x.m(1, 2)` typed in LLDB run the function found under that name, or the method of the type of x, once, at its address - for a method on x itself - with these numbers, and print the name of the return type and the value memory holds, after the call, at the address of the result.", "quantifier": "every program, process, debugger, function, method, list of numbers and result", "why_tests_cant": "programs, memory contents and results are unbounded; a test calls a few functions", "anchors": ["rudy-lldb/src/evaluator.rs: evaluate_function_call, evaluate_method_call", "rudy-lldb/python/rudy_lldb.py: rudy_command, _handle_execute_function, _handle_execute_method", "rudy-db/src/function_discovery.rs"]}
{"id": "C90", "title": "Statics by name", "statement": "find_symbol_by_name finds, for a name without its path, a static of the program of that name with its address; of several statics of that name the first by module path; nothing exactly if the program has none. It never finds a function.", "quantifier": "every history of symbol tables read and every name", "why_tests_cant": "symbol tables are arbitrary and of any size; a test looks up one static", "anchors": ["rudy-db/src/debug_info.rs: find_symbol_by_name", "crates/rudy-dwarf/src/symbols/mod.rs: index_binary, index_mapped_file"]}
{"id": "C91", "title": "Symbol names on Linux and macOS", "statement": "The underscore macOS puts before every mangled name makes no difference: the same functions and statics are found by name and by address as in the program built for Linux.", "quantifier": "every symbol table, every demangler and every name", "why_tests_cant": "symbol tables are arbitrary; a test looks at a few names", "anchors": ["crates/rudy-dwarf/src/symbols/names.rs: demangle_symbol", "crates/rudy-dwarf/src/symbols/mod.rs: index_binary"]}
{"id": "C92", "title": "Unusual type names", "statement": "Reading the name of a type never crashes; a vector, map, option, smart pointer or other standard type is recognised whatever its generic arguments are, also closures and other types whose names cannot be read.", "quantifier": "every text that tokenizes and every list of generic arguments", "why_tests_cant": "the compiler writes names of unbounded nesting with items no grammar lists; a test tries a few", "anchors": ["crates/rudy-parser/src/types.rs: Type, GenericArgs, AngleTokenTree, parse_type", "crates/rudy-dwarf/src/types/index.rs: get_die_typename"]}
{"id": "C93", "title": "Account of all functions", "statement": "discover_all_methods_debug has an entry for the printed name of every function symbol in force and for nothing else; it says discovered exactly when the declaration of the function reads, with its signature, and otherwise why not: its file was not indexed, it has no declaration, or the declaration does not read. It agrees with discover_all_methods: what that lists is discovered here with the same signature.", "quantifier": "every history of symbol tables, every set of indexed files and all debugging information", "why_tests_cant": "symbols, indexed files and declarations combine without bound; a test has one binary", "anchors": ["rudy-db/src/function_discovery.rs: discover_all_functions_debug, SymbolAnalysisResult", "rudy-db/src/debug_info.rs: discover_all_methods_debug"]}
{"id": "C94", "title": "Reading variables", "statement": "A variable or parameter is known with the name, type and place of declaration its entry states. One that cannot be read does not keep the others of the function from being found, and the listing of locals at a position shows exactly those declared before it.", "quantifier": "all functions, entries of variables, file tables and positions", "why_tests_cant": "the entries of a function combine without bound, and files of a unit are numbered differently by DWARF versions; a test has one function", "anchors": ["crates/rudy-dwarf/src/function/variables.rs: variable, resolve_function_variables", "crates/rudy-dwarf/src/die/mod.rs: position", "rudy-db/src/debug_info.rs: get_variable_at_pc, get_all_variables_at_pc"]}
{"id": "C95", "title": "Entries of a debug file", "statement": "What is read of an entry of a debug file and of its children is what is in the file there, however the compiler wrote the tree; from it follows, by module and name, whether an entry describes a type of the standard library, and this is known for every entry of a file without crashing.", "quantifier": "all files of trees of entries (any depth, with or without sibling references, padding, units in other languages), all offsets and names", "why_tests_cant": "the trees, names and ways of encoding combine without bound; a test reads the files of one compiler", "anchors": ["crates/rudy-dwarf/src/die/mod.rs: children, with_entry", "crates/rudy-dwarf/src/types/index.rs: get_die_typename", "crates/rudy-dwarf/src/modules.rs: get_containing_module"]}
{"id": "C96", "title": "From the executable to what is printed", "statement": "If the program is stopped in a function and the executable says, in its symbol table, line tables and debug information, that the function has a variable of some name and type at some place of the frame, then `rd print` of this name prints the name of the type and the value that memory holds there, whatever else is in the executable.", "quantifier": "all executables with debug information as a compiler writes it, all functions in them, stopping points, variables, types and contents of memory", "why_tests_cant": "the answer depends on five indexes built from the whole executable; a test has one executable and one stopping point", "anchors": ["rudy-db/src/index.rs: debug_index, get_function, find_all_by_address", "rudy-db/src/query.rs: lookup_address", "crates/rudy-dwarf/src/symbols/mod.rs: index_symbol_map", "rudy-db/src/debug_info.rs: get_variable_at_pc"]}
{"id": "C97", "title": "From the executable to the list of its functions", "statement": "`rd functions a::b::f` prints one line for each function called f in a module path ending in a::b for which the symbol table of the executable has code, in the order of their names, and none for anything else; the line gives the parameters and the result that the entry of the function in the debug information declares, with the names of their types, or says that the function has no entry and cannot be called.", "quantifier": "all executables with debug information as a compiler writes it and all paths asked for", "why_tests_cant": "which line is printed depends on the whole symbol table and on every unit of the debug information; a test has one executable", "anchors": ["crates/rudy-dwarf/src/symbols/mod.rs: index_symbol_map", "crates/rudy-dwarf/src/function/index.rs: function_index", "rudy-db/src/function_discovery.rs: discover_functions", "rudy-lldb/src/server.rs: handle_functions_command", "rudy-lldb/python/rudy_lldb.py: rudy_command"]}
{"id": "C98", "title": "From the executable to the parts of a variable", "statement": "With the program stopped in a function, `rd print` of a place in a variable - a field of a struct, an element of an array, slice or Vec, the entry of a map with a text key, what a reference refers to, or what these make together as in x.names[\"a\"][2] - prints the name of the type that the entries of the executable give the place, and the value that memory holds there.", "quantifier": "all executables with debug information as a compiler writes it, all variables, all memories and all places however deep", "why_tests_cant": "places are made by combining steps without bound, over all types and memories; a test has one", "anchors": ["rudy-lldb/src/evaluator.rs: evaluate_to_ref", "rudy-db/src/debug_info.rs: get_struct_field, index_array_or_slice, index_map", "rudy-lldb/src/server.rs: handle_command", "crates/rudy-dwarf/src/types/resolution.rs: resolve_type_offset"]}
{"id": "C99", "title": "From the executable to the methods of a type", "statement": "With the program stopped in a function, `rd methods v` of a variable of a type of the program lists, in the order of the debug information, the methods that the `impl` blocks of the type and the trait `impl` blocks of its module declare for it - those whose first parameter is a self, &self or &mut self of that type - each with its parameters and result as the program writes them and with the word callable exactly when the executable has code for it; `rd methods path::Type` lists besides the functions of the type without self.", "quantifier": "all executables with debug information as a compiler writes it, all types, all sets of functions and impl blocks, all ways of passing self", "why_tests_cant": "which functions belong to a type is decided over a whole program, by modules, impl blocks, linkage names and types of parameters; a test has one program", "anchors": ["rudy-db/src/function_discovery.rs: discover_methods_for_type, find_matching_type_dies, discover_direct_methods, discover_trait_impl_methods, convert_function_to_method", "rudy-lldb/src/server.rs: handle_methods_command", "crates/rudy-dwarf/src/modules.rs: module_index", "crates/rudy-dwarf/src/types/index.rs: find_type_by_name"]}
{"id": "C100", "title": "From the executable to what a call prints", "statement": "With the program stopped in a function, `rd print a::b::f(1, v.x)` runs, once and nothing else, the function whose name and module path end in a::b::f - the first in the order of names - at the address the symbol table has for it, passing the numbers and the addresses of the places; and prints the name of the type that the debug information declares for its result and the value memory then holds at the address returned. A call with the wrong number of arguments, or of a function there is no code for, is an error and nothing is run. The same holds of methods `v.m(1)` of the type of a variable.", "quantifier": "all executables with debug information as a compiler writes it, all functions and methods, all parameters, arguments, result types and memories, before and after the call", "why_tests_cant": "what is called depends on the symbol table, the entries, the modules and the variables in scope together; a test has one program and a few calls", "anchors": ["rudy-lldb/src/evaluator.rs: evaluate_function_call, execute_real_method, convert_expression_to_method_arg_typed", "rudy-db/src/function_discovery.rs: discover_functions", "rudy-lldb/python/rudy_lldb.py: _handle_execute_function", "crates/rudy-dwarf/src/symbols/mod.rs: index_binary"]}
{"id": "C101", "title": "What is not there is answered by an error", "statement": "With the program stopped in a function, `rd print` of a variable the function does not have, of a field its type does not have, of an element beyond the end of a Vec or array, of a key a map does not hold, of an element of what has none, or of any part of such a thing, is answered by an error; nothing in the process is changed and the session goes on.", "quantifier": "all executables with debug information as a compiler writes it, all functions, variables, types, memories, indices and keys, and all expressions built on top of what is missing", "why_tests_cant": "the error must come whatever the number of fields, elements and entries, and wherever in the expression the missing part is; a test has one type and one wrong name", "anchors": ["rudy-lldb/src/evaluator.rs: evaluate_to_ref, evaluate_index_to_ref, evaluate_field_access_to_ref", "rudy-db/src/debug_info.rs: get_struct_field, index_array_or_slice, index_map, get_variable_at_pc"]}
{"id": "C102", "title": "From the executable to what a built-in method returns", "statement": "With the program stopped in a function, `rd print x.len()`, `is_empty()`, `capacity()`, `is_some()`, `is_none()`, `is_ok()` and `is_err()` print the name of the type and the value that the method of the standard library returns for what memory holds in the variable or the part x, which is a Vec, String, slice, &str, array, Option or Result; no code of the program is run, and a call with arguments, or a part of what is returned, is an error.", "quantifier": "all executables with debug information as a compiler writes it, all variables, fields, elements and entries, all lengths, capacities and contents in memory", "why_tests_cant": "what is returned depends on the layout the entries give the type and on every byte of lengths and tags; tests run a few methods on a few values", "anchors": ["rudy-lldb/src/evaluator.rs: evaluate_method_call", "rudy-db/src/synthetic_methods.rs: evaluate_synthetic_method, evaluate_slice_method, evaluate_option_method, evaluate_result_method"]}
{"id": "C103", "title": "From the executable to the account of its functions and the list of all methods", "statement": "The account of all function symbols (`discover_all_methods_debug`) has an entry for each name of a function the symbol table has code for, and no other; it says what the debug information has: that the code is not the user's own, that there is no entry of the function, that its entry cannot be read, or its name, parameters, result and receiver with the names of their types. The list of all methods (`discover_all_methods`) has under the name of a type exactly the functions with code whose first parameter is of that type, behind any references and pointers, told as declared.", "quantifier": "all executables with debug information as a compiler writes it, all symbol tables, functions, parameters, results and types", "why_tests_cant": "account and list range over the whole program, and one function that cannot be handled takes all others with it; tests look up a few functions of small programs", "anchors": ["rudy-db/src/function_discovery.rs: discover_all_functions_debug, discover_all_methods", "crates/rudy-dwarf/src/function/mod.rs: resolve_function_signature, function_declaration", "rudy-db/src/debug_info.rs: discover_all_methods, discover_all_methods_debug"]}
{"id": "C104", "title": "From the executable to a call with texts as arguments", "statement": "When the user types a call of a function with texts among its arguments, then for each text a value of the type that the entry of the function declares for that parameter - a `&str` or a `String` - is made in memory got from the program's own `malloc`, with exactly this text; the function is called once, with copies of these values, when all of them are there and nothing that was in use has changed; what it returns is printed. A text for a parameter of any other type is an error, and nothing is run or written.", "quantifier": "all executables with debug information as a compiler writes it, all functions, texts, numbers of arguments, debuggers, memories and allocators that keep blocks apart", "why_tests_cant": "the values are written piece by piece through the debugger, at offsets that come from the debug information, and a later text must not disturb an earlier one; tests use one process and one layout", "anchors": ["rudy-lldb/src/evaluator.rs: convert_expression_to_method_arg_typed, evaluate_function_call", "rudy-db/src/debug_info.rs: create_typed_value, create_str_slice_with_layout", "rudy-lldb/python/rudy_lldb.py: _handle_allocate_memory, _handle_write_memory, _handle_execute_function"]}
{"id": "C105", "title": "What is shown depends only on the memory that is read, and a failed read is never papered over", "statement": "If `rd print` shows a value for an expression that calls no function of the program, it shows exactly the same for every process stopped at the same place with the same registers that has at least the same memory, whatever else is in memory and whichever debugger reads it. With less memory readable, the same is shown or there is an error, never another value; two processes whose memories nowhere contradict each other are never shown two different values.", "quantifier": "all executables, expressions without calls, processes, memories and debuggers", "why_tests_cant": "a part of a value that cannot be read could be shown as empty, as 0, as null or be left out, and only for one of many shapes of values and one of the many reads that can fail; tests read from memory that is all there", "anchors": ["rudy-db/src/data.rs: read_from_memory, read_map_entries, read_enum, read_std_from_memory", "rudy-lldb/src/evaluator.rs: evaluate, evaluate_to_ref, pointer_to_result", "rudy-lldb/python/rudy_lldb.py: _handle_read_memory"]}
{"id": "C106", "title": "A part asked for by itself is shown as inside the whole", "statement": "If `rd print x` shows a value, then `rd print x.f`, `rd print x[i]` and `rd print x[\"key\"]` show what stands in it after `f: `, at the position `i`, and after `\"key\": `, and so on for parts of parts; for the parts that the debugger can find at all.", "quantifier": "all executables, places in a stopped program, values nested to the depth that is shown in full, and paths to parts of them", "why_tests_cant": "the whole and the part are read by different code (read_from_memory for the one, field_access, index_by_int, index_by_value for the other), which must agree on every offset, size, order and key for every type; a test compares one part of one value", "anchors": ["rudy-db/src/data.rs: read_from_memory, field_access, index_by_int, index_by_value", "rudy-lldb/src/evaluator.rs: evaluate, evaluate_to_ref, evaluate_index"]}
{"id": "C107", "title": "What the methods answer agrees with what is shown", "statement": "If `rd print x` shows a `Vec`, slice or array with n elements, `rd print x.len()` prints n, and `x.is_empty()` whether that is none; if it shows a text, `x.len()` is the number of bytes that it shows; if it shows an `Option` as anything but `None`, `x.is_some()` prints true and `x.is_none()` false.", "quantifier": "all executables, places in a stopped program, and values nested to the depth that is shown in full", "why_tests_cant": "values and the answers of methods are read by two independent implementations (data.rs and synthetic_methods.rs), which must agree on where lengths and discriminants are for every type; a test compares one value", "anchors": ["rudy-db/src/synthetic_methods.rs: evaluate_vec_method, evaluate_string_method, evaluate_option_method, evaluate_slice_method, evaluate_array_method", "rudy-db/src/data.rs: read_from_memory, read_std_from_memory, read_option_from_memory, extract_vec_info", "rudy-lldb/src/evaluator.rs: evaluate, evaluate_method_call"]}
