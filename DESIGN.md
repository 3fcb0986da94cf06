# DESIGN

A formal model of samscott89/rudy (source in /repo, read as text, nothing executed) in Lean 4.33.0, with theorems
about it. The Lean project is `lean/`; `properties.jsonl` lists the properties in English, `MANIFEST.json` the theorems
for each, `seeded/LOG.jsonl` the wrong programs the theorems were tested against, `AXIOMS.md` the axioms of every theorem.

This file is made by `tools/design.py` from `tools/design_head.md` (sections 1 to 4, written by hand) and the property
list; the first version of it, written before the proofs, is in the history of the repository.

## 1. Layout

* `Verif/Model/*.lean` — the code, function by function. Every definition cites file and lines in /repo; a comment says
  where it simplifies. Nothing in here mentions a property.
* `Verif/Proof/*.lean` — lemmas, and where a file says so the vocabulary of specifications (grammars, relations between
  memory and values, descriptions of types) that is independent of the model's functions.
* `Verif/Props/*.lean` — the theorems `Cnn_…`. Each file starts with a small specification, ends with concrete cases
  that meet the hypotheses of its theorems.

Names: `Cnn_…` belongs to property Cnn; a suffix `_partial` marks a theorem that proves only part of its property, a suffix
`_fails` (or `_panics`) a theorem saying that the property, or a part of it, is false of the code, or a limit of the code
a user runs into. A property is `partial` in the manifest if the code as it is refutes a part of it, or if
hypotheses had to be added that users cannot rely on; the note says which. In all `partial` cases the part that is false
is stated and proved false; nothing is left open silently.

## 2. Conventions of the model

* **Results.** `Res α` is `ok`, `err` (a Rust `Err`, or `None` where that is an error; the text of messages is dropped) or
  `panic`. Arithmetic on `u64`/`usize` is on natural numbers with checked operations (`addU`, `subU`, `mulU`) that
  panic on overflow: the model is that of a debug build. Indexing, slicing, `unwrap`, `todo!` and `unreachable!` panic.
* **Texts** are lists of characters. Where the code mixes byte and character positions (the expression tokenizer) UTF-8
  lengths are modelled; elsewhere UTF-8 encoding is not.
* **Recursion.** Structural where the code's is. The readers of memory and the type resolver recurse through memory or
  references; there a fuel argument stands for the stack and running out of it is a panic (memory) or a separate
  outcome (types); theorems quantify over the fuel or say how much is enough. Stack use of structurally recursive code
  (deeply nested expressions) is not modelled.
* **Unstable sorts, hash maps.** `sort_unstable` is any sorted permutation; iteration over a hash map is any order. Theorems
  quantify over all of them.
* **Memory of the process** is a partial map from addresses to bytes (`Mem`), seen through `Target`, which may also
  answer short or fail. C77 derives this interface from the client, the messages and LLDB's calls.
* **Concurrency.** Client and server of a connection are a small-step system with one queue for each direction, the steps of
  both sides in any order; a server with its connections is a product of these. Theorems are invariants and
  well-foundedness statements over all interleavings, with no bound on their number or length.

## 3. What is modelled

| Code | Model |
|---|---|
| crates/rudy-dwarf/src/address/{mod,resolution}.rs | Address, Resolve |
| crates/rudy-dwarf/src/symbols/{mod,names}.rs | Symbols, SourceIndex, TypeNames |
| crates/rudy-dwarf/src/die/{mod,utils,cu,navigation}.rs | Die, Parser, Remap, SourceIndex |
| crates/rudy-dwarf/src/visitor.rs, modules.rs | Walker, Modules |
| crates/rudy-dwarf/src/function/{index,mod,variables}.rs, expressions.rs | FnIndex, Discovery, Variables |
| crates/rudy-dwarf/src/parser/*.rs | Parser, TypeRes, Discovery |
| crates/rudy-dwarf/src/types/{resolution,index}.rs | TypeRes, TypeNames |
| crates/rudy-dwarf/src/file/{mod,index}.rs, lib.rs | Cache, SourceIndex, Remap |
| crates/rudy-parser/src/expressions.rs | Expr |
| crates/rudy-parser/src/types.rs | TypeNames, Symbols |
| crates/rudy-types/src/lib.rs | Layout |
| rudy-db/src/data.rs, outputs.rs | Memory, Value |
| rudy-db/src/debug_info.rs, query.rs, index.rs | Index, Resolve, SourceIndex, Variables |
| rudy-db/src/synthetic_methods.rs, function_discovery.rs, database.rs | Index, Discovery, Cache |
| rudy-lldb/src/evaluator.rs | Eval, Remote |
| rudy-lldb/src/server.rs, protocol.rs | Server, Wire, Client, Sessions |
| rudy-lldb/src/main.rs | Install, Sessions |
| rudy-lldb/python/rudy_lldb.py | Front, Wire, Client, Calls, Remote, Autostart |

Not modelled: `xtask` (development tool), the text printed by `Display`/`Debug` where no property speaks of it, logging
(except that its output fills a pipe, C80), `From` conversions and constructors that only wrap, `pretty_print`
helpers, `__lldb_init_module`.

## 4. Trusted base

* **Lean's kernel**, version 4.33.0, and the axioms `propext`, `Quot.sound`, `Classical.choice`; no other axiom is used by any
  theorem (AXIOMS.md), no compiled code is trusted.
* **The reading of the code.** The model was written by reading Rust and Python; that it says what the code does is not checked
  by machine. The citations are there to check it by hand, the seeded experiments to see that theorems depend on it.
* **Libraries by contract**, not modelled from their source (it is not in the repository):
  * *gimli*: the abbreviation decoder yields a list of entries, nulls and errors for a unit (Walker); attributes, line programs
    and range lists are what gimli reports (Die, Resolve); evaluation of DWARF expressions is a resumable process that asks
    for registers, frame base and relocated addresses (Variables).
  * *object*: a binary is given by the symbols, object map and sections reported (SourceIndex).
  * *salsa*: tracked functions are pure functions of their inputs, evaluated when first asked for and remembered (Cache); that
    a thread may wait for another which computes the same query, and is told of its panic, is not modelled.
  * *unsynn, proc_macro2*: token trees and the order of alternatives, with what is left open collected in the structure `Lib`
    over which the theorems of C45 quantify.
  * *serde, serde_json, Python json*: JSON by its grammar; numbers are naturals (the messages contain no others).
  * *rustc-demangle*, the demangled text of a symbol: a parameter.
  * *std*: `BTreeMap` as a sorted association list, `sort_unstable` as any sorted permutation, the parser of socket addresses for
    IPv4 by its grammar, floating-point printing as a parameter.
* **LLDB** is a parameter (`Lldb`, `Outcome`): what its calls return in each of its states, including that they raise.
* **The file system** has no I/O errors other than missing files, and different path texts are different files in Install; source
  maps work on path components. Files changed in place while they are mapped are not modelled.
* **The network**: reading and writing of an open connection do not fail; a connection is closed when its thread or the process
  ends.

Interfaces between parts of the model that are connected by theorems rather than assumed: the evaluator's world of variables,
methods and functions by C33/C55/C40/C44 and `C76_local_partial`; memory and calls by C77; the backend of a session by
C68/C79; type names by `C45_entry_name`.

## 5. Property by property

For each: how it is modelled and proved, the file with the theorems, and the verdict.

### C01 Address lookup is exact — proved

Looking up a binary (absolute) address in the function address index built from any list of functions returns exactly the functions whose half-open range [start,end) contains the address, each as many times as it was supplied; nothing is missed because of pruning and nothing else is returned.

* How: Model Node/build_recursive/query functions literally over Nat addresses; prove the query result is a permutation of the filtered input by induction on the tree (sortedness + max_end invariant), for every sorted permutation sort_unstable may produce.
* Where: Props/Address.lean; 2 theorems.
* Verdict: For every tree AddressTree::new may return (any outcome of the unstable sorts).

### C02 Debug-file-relative address lookup is exact — proved

The same index answers lookups by debug-file-relative address exactly: the result is the multiset of functions whose relative range contains the address, independently of how absolute and relative orders relate.

* How: Same tree theorem instantiated at the relative key; the second sort starts from the first sort's output.
* Where: Props/Address.lean; 1 theorems.

### C03 Address range lookup is exact — proved

Looking up an address range returns exactly the functions whose range overlaps it.

* How: Same invariant, interval overlap instead of containment.
* Where: Props/Address.lean; 2 theorems.

### C04 Lookups do not depend on discovery order — proved

Building the index from the same functions in any other order gives the same answers (as multisets) to every point and range lookup.

* How: Corollary: permutation of input gives permutation of output.
* Where: Props/Address.lean; 2 theorems.

### C05 Nearest symbol lookup — proved

The nearest-function lookup for an address returns the functions registered at the greatest registered address not above it; it returns nothing only if no function is registered at or below the address.

* How: Ordered-map model of functions_by_address; greatest-key-below characterisation.
* Where: Props/Symbols.lean; 2 theorems.

### C06 Symbol index lookups agree with insertion history — proved

After any sequence of symbol insertions, a symbol is found by name exactly when it was inserted, with the address of the last insertion; every function symbol is findable by its short name, by its full name and by its address; non-function symbols are never reported as functions.

* How: Fold model of index_binary/index_mapped_file; invariants over the insertion history.
* Where: Props/Symbols.lean; 8 theorems.
* Verdict: Over every history of inserted symbol table entries.

### C07 Breakpoint line resolution picks the closest following line — partial

Resolving file:line to an address returns a line-table row of that file whose line is at or after the requested one and for which no usable row is closer; it fails only when no usable row exists; an exact line is always preferred.

* How: Line program as a list of rows; loop as a fold with early return; minimality by induction.
* Where: Props/Resolve.lean; 7 theorems, of which against the code or marking limits: C07_dwarf5_file_numbers_fail.
* Verdict: Proved for line tables of DWARF versions below 5 with no file listed twice in a unit; the claim is false of the code for DWARF 5, because file numbers are always read 1-based (C07_dwarf5_file_numbers_fail).

### C08 Absolute and relative addresses convert back and forth without loss — proved

For an address inside a function, converting the runtime address to the debug file's relative address and back gives the original address, and the converted address lies in the function's other range; the absolute range registered for a function has the same length as its DWARF range.

* How: Arithmetic model with checked u64 semantics (panic on overflow explicit).
* Where: Props/Resolve.lean; 5 theorems.

### C09 Position lookup over several debug files is a global minimum — proved

Resolving a source position over all debug files returns an address whose line distance is minimal among the answers of all debug files, and returns an answer whenever one file has one.

* How: Fold with early break over per-file answers.
* Where: Props/Resolve.lean; 3 theorems.

### C10 Address lookup returns the documented first result — partial

When several debug files describe an address, the lookup returns the first description found (as the code's own message says).

* How: Model `lookup_address` with its `pop`; the full statement refuted by a witness, the exact behaviour proved.
* Where: Props/Resolve.lean; 3 theorems, of which against the code or marking limits: C10_first_result_fails.
* Verdict: False of the code: lookup_address pops the last result although its message says it returns the first (C10_first_result_fails). Proved: the last one is returned, which is the first when there is at most one.

### C11 Demangled symbol splitting is structure preserving — partial

Parsing a demangled symbol splits it exactly at the '::' separators outside angle brackets, so that generic arguments and <T as Trait> qualifiers stay whole, no segment is empty, and joining module path, name and hash with '::' gives back the (whitespace-normalised) symbol.

* How: Character-level model of parse_symbol; spec of top-level separators; induction over the text.
* Where: Props/Symbols.lean; 7 theorems, of which against the code or marking limits: C11_arrow_is_not_a_bracket_fails.
* Verdict: Splitting is proved exact and the round trip holds for every symbol; that no segment is empty and that every angle bracket is a bracket is false of the code (C11_empty_segment_possible, C11_arrow_is_not_a_bracket_fails).

### C12 Only compiler hashes are treated as hashes — partial

A trailing path segment is dropped from the function name as a hash only if it is a legacy mangling hash ('h' followed by 16 hex digits); an ordinary function name is never dropped.

* How: Character-level model of the rule; exact characterisation, and witnesses against the property.
* Where: Props/Symbols.lean; 4 theorems, of which against the code or marking limits: C12_only_hashes_dropped_fails.
* Verdict: The exact rule is proved; the property itself is false of the code: any last segment starting with 'h' of at least the tested shape is dropped, and a plain one-segment name is rejected.

### C13 Symbol name ordering is a total order consistent with equality — proved

The ordering used as key order of the symbol and function maps is total, antisymmetric and transitive, and two parsed names compare equal exactly when they are equal names, so no map silently merges different functions or splits one.

* How: Comparison function model; order axioms by lexicographic composition.
* Where: Props/Symbols.lean; 3 theorems.

### C14 Name-and-module matching is suffix matching — proved

A symbol matches a (name, module) query exactly when its short name is equal and the query's module path is a suffix of the symbol's module path; matching is monotone: dropping leading query modules never loses a match.

* How: Suffix model; equivalence with IsSuffix.
* Where: Props/Symbols.lean; 3 theorems.

### C15 Expression parsing never panics — partial

Parsing any user-typed expression returns a tree or an error; it never panics, whatever characters the user types.

* How: Tokenizer over (chars, char position, byte slicing) with explicit panic; no panic for ASCII by induction; witness for non-ASCII.
* Where: Props/Expr.lean; 3 theorems, of which against the code or marking limits: C15_non_ascii_string_fails, C15_non_ascii_space_fails.
* Verdict: Proved for all ASCII text of any length and nesting, and for any text without string literals and exotic white space; false of the code otherwise: positions count characters but slices count bytes (C15_non_ascii_string_fails, C15_non_ascii_space_fails). Stack use is not modelled.

### C16 Expression printing and parsing round-trip — partial

Printing an expression obtained by parsing and parsing the print-out gives back the same expression (so errors and echoed expressions mean what they show).

* How: Printer and parser models; round trip by induction on the parse.
* Where: Props/Expr.lean; 4 theorems, of which against the code or marking limits: C16_non_ascii_fails.
* Verdict: Proved for every ASCII input, with soundness and completeness against a separate grammar; false of the code for non-ASCII string literals (C16_non_ascii_fails).

### C17 Expressions are not silently truncated — partial

If parsing an expression succeeds, the whole input was part of the expression: no trailing tokens are ignored.

* How: Negation witness and characterisation.
* Where: Props/Expr.lean; 2 theorems, of which against the code or marking limits: C17_trailing_word_fails.
* Verdict: False of the code: tokens after a complete expression are ignored (C17_trailing_word_fails). Proved: the result accounts for all the tokens before the ignored ones.

### C18 Number literals denote their value — proved

A decimal or 0x-hexadecimal literal parses to exactly its mathematical value when it fits in 64 bits, and is rejected with an error (never wrapped) when it does not.

* How: Digit fold with checked multiply-add = positional value.
* Where: Props/Expr.lean; 3 theorems.
* Verdict: Every digit string of any length, decimal and hexadecimal, alone and in context.

### C19 Value ordering is a total order — partial

The ordering used for struct maps and sorting of read values is reflexive, transitive, antisymmetric and total, and values compare equal exactly when they are equal.

* How: Value model; comparison axioms by structural induction; negation for pointers.
* Where: Props/ValueOrd.lean; 7 theorems, of which against the code or marking limits: C19_equal_pointers_fails.
* Verdict: Reflexive, antisymmetric, transitive and total for all values; values that compare equal are equal except for the recorded types of unread pointers (C19_equal_pointers_fails refutes full equality).

### C20 Type sizes are computed without crashing — partial

The size of every type layout can be queried; it is the sum/product prescribed by the layout (array = length times element) and querying it never panics.

* How: Layout size model with explicit panic value; characterise the panicking layouts.
* Where: Props/Layout.lean; 7 theorems, of which against the code or marking limits: C20_size_total_fails.
* Verdict: Sizes are proved for every layout except bare str and IndexMap, where the code panics (C20_size_total_fails); C20_cell_size_ignores_contents: sizes of Cell/RefCell/Mutex ignore their contents.

### C21 Type matching is an equivalence — partial

The type matching used to find methods and converted arguments is reflexive, symmetric and transitive, and does not identify types a user would call different.

* How: matching_type model; reflexive/symmetric by induction; negation of transitivity.
* Where: Props/Layout.lean; 10 theorems, of which against the code or marking limits: C21_not_transitive_fails, C21_identifies_different_types_fails.
* Verdict: Reflexive and symmetric for all types; transitive and exact on types without aliases; transitivity with aliases is false of the code, and array lengths and mutability are not distinguished (the two _fails theorems).

### C22 Integers are read exactly — proved

Reading an integer of any supported width and signedness from memory gives exactly the little-endian two's-complement value stored there; unsupported widths are errors; a read touches exactly its bytes.

* How: Byte memory model; little-endian value.
* Where: Props/Memory.lean; 8 theorems.
* Verdict: All widths and every memory; bool and char included. Float text is the standard library's and not modelled.

### C23 Struct reading shows every field once at its offset — proved

Reading a struct yields exactly its declared fields, each paired with a pointer to base+offset of the field's type; no memory outside the struct is dereferenced and it works for any field order.

* How: read_from_memory struct branch.
* Where: Props/Index.lean, Props/Memory.lean; 5 theorems.

### C24 Sequences show exactly their elements — partial

Reading an array, slice or Vec yields exactly `length` elements, the i-th at data+i*element size, in order; String reads exactly its length bytes.

* How: Sequence branches, induction on length.
* Where: Props/Memory.lean; 9 theorems, of which against the code or marking limits: C24_cell_stride_fails.
* Verdict: Exact for arrays, slices, Vec, String and &str with the element size the layout gives; C24_cell_stride_fails: that size is wrong for Cell/RefCell/Mutex elements.

### C25 Enum variants are decoded from the discriminant — partial

Reading an enum selects the variant whose declared discriminant equals the stored value, otherwise the dataful (niche) variant; the discriminant is read at the declared offset and width; with no matching variant an error is returned.

* How: read_enum/read_c_enum model.
* Where: Props/Enums.lean; 13 theorems, of which against the code or marking limits: C25_single_variant_fails, C25_tuple_order_fails.
* Verdict: Choice of variant and shown value proved for every explicit discriminant and for enumerations that store none; tuple payloads keep declaration order up to ten fields and not beyond (C25_tuple_order_fails); an enumeration of one variant whose first four bytes are not 0 cannot be shown (C25_single_variant_fails).

### C26 Option contents agree with is_some/is_none — partial

For every Option in memory the displayed value is None exactly when is_none() returns true; is_some and is_none are complementary.

* How: Two readers compared; negation witness, partial agreement.
* Where: Props/Synthetic.lean; 5 theorems, of which against the code or marking limits: C26_low_byte_fails, C26_niche_value_fails.
* Verdict: Complementarity is proved for every width and value; agreement of display and is_some/is_none is proved for discriminants below 256 and is false of the code beyond (C26_low_byte_fails: a Box at a multiple of 256 is displayed as None); niche values other than 0 are ignored (C26_niche_value_fails).

### C27 HashMap reading yields exactly the occupied buckets — proved

Reading a HashMap returns one entry per occupied control byte, in bucket order, at the bucket's address below the control bytes; for a well-formed table the number of entries equals len().

* How: SwissTable loop model; refinement to filter over buckets.
* Where: Props/Maps.lean; 2 theorems.
* Verdict: For well-formed tables; for any memory at all only occupied buckets are shown (C27_only_occupied).

### C28 BTreeMap reading is the in-order traversal — partial

Reading a BTreeMap returns exactly the entries of the tree in key order (in-order traversal), whatever its height and fill, and len() agrees with the number of entries.

* How: B-tree representation predicate; in-order refinement by induction on height.
* Where: Props/Maps.lean; 5 theorems, of which against the code or marking limits: C28_zero_sized_fails, C28_height_first_fails, C28_user_types_fails.
* Verdict: Any height and fill, keys and values of non-zero size told by name and the root pointer first in the root; zero-sized values, keys or values of a user's own type and a height-first root are not shown or shown wrongly (the three _fails theorems).

### C29 Indexing agrees with reading and is bounds checked — partial

Indexing element i of an array, Vec or slice succeeds exactly when i is below the length and gives the same address and type as the i-th element of the displayed sequence; any other index is an error, never an out-of-bounds read.

* How: index_by_int model versus read model.
* Where: Props/Index.lean; 5 theorems, of which against the code or marking limits: C29_slices_fail, C29_alias_elements_fail.
* Verdict: Exact agreement for arrays and Vecs whose element type is not an alias, bounds for everything; false of the code for slices (indexing always fails) and for aliased element types.

### C30 Map indexing returns the entry of that key — partial

Indexing a map by a key returns the value of an entry whose key equals the requested key, fails when there is none, and never confuses different keys.

* How: index_by_value/values_equal model.
* Where: Props/Index.lean; 3 theorems, of which against the code or marking limits: C30_quoted_keys_fail.
* Verdict: Exact for keys without quotes at their ends; keys that differ only in such quotes are confused by the code (C30_quoted_keys_fail).

### C31 Created strings read back unchanged and stay in their allocation — partial

Creating a &str or String in the target for a method argument allocates enough memory, writes only inside what was allocated, and reading the created value gives back the given text.

* How: Allocator and memory writes as an abstract remote process (`Remote.Backed`); read-back by the memory model; C77 shows the real client gives such a process.
* Where: Props/Create.lean; 6 theorems, of which against the code or marking limits: C31_offset_16_fails.
* Verdict: Read-back is proved for every string, memory and allocator. Staying inside the allocation is proved for fields inside the 16 (24) bytes of the value; a field offset of 16 passes the code's check and is written outside (C31_offset_16_fails). &str longer than 1 MiB are refused after having been written.

### C32 Synthetic len/is_empty/is_some agree with the contents — partial

For every collection value, the synthetic len() equals the number of elements shown when the value is read, is_empty() is len()==0, is_ok/is_err are complementary, and every advertised synthetic method can be evaluated.

* How: Synthetic method evaluator model.
* Where: Props/Synthetic.lean; 13 theorems, of which against the code or marking limits: C32_result_tag_fails.
* Verdict: Everything is proved except correctness of is_ok/is_err, which is false of the code for 4- and 8-byte tags (C32_result_tag_fails).

### C33 Variable lookup finds the live binding — partial

Looking a variable up by name returns the binding of that name live at the current line: the latest declared before it, never a shadowed or not yet declared one; an unknown name is not found; listing all variables shows the parameters and the locals declared before the current line, and agrees with looking each up.

* How: Scope walk over entry trees, variables in document order; listing and lookup compared; witnesses for shadowing.
* Where: Props/Variables.lean; 11 theorems, of which against the code or marking limits: C33_one_crash_hides_all_fails, C33_first_binding_wins_fails, C33_shadowed_local_fails, C33_undeclared_local_fails.
* Verdict: Proved for functions none of whose variables crashes type resolution: which variables are collected, unique names are found, unknown names are not, what is found is a variable of the function, the listing is exact and agrees with lookup for unique names. Refuted: one variable that crashes hides all (C33_one_crash_hides_all_fails); of several bindings the first in document order is returned (C33_first_binding_wins_fails, C33_shadowed_local_fails, C33_undeclared_local_fails).

### C34 Pointer expansion terminates on cyclic data — proved

Expanding a value for display follows pointers to a bounded depth, so it terminates on cyclic or self-referential memory, and a value without pointers is returned unchanged.

* How: Structural depth bound; invariance of the expansion under changes of memory further than eight steps away; cyclic sets of pointers.
* Where: Props/Eval.lean; 4 theorems.
* Verdict: Pointer expansion: terminates on any closed (possibly cyclic) set of readable pointers, depends only on memory within eight steps, is complete for shallower values, and leaves pointer-free values alone.

### C35 One terminal response per command — partial

In a debug session every command line received at top level is answered by exactly one terminal response (result, completion or error) after zero or more events, in order.

* How: Session as a function from input lines to a trace (`session`), conversations as resumable computations (`Conv`); induction over the input.
* Where: Props/Server.lean; 4 theorems, of which against the code or marking limits: C35_panic_fails.
* Verdict: Proved for sessions in which nothing panics, for every backend and every client input. Refuted in general: a non-ASCII string argument panics the session thread and the command gets no response.

### C36 Malformed client input does not end the session — partial

An undecodable line is answered with an error and the session continues; the session ends only on shutdown, end of input, or a protocol violation; commands sent in the middle of an event exchange are not lost.

* How: Same state machine.
* Where: Props/Server.lean; 5 theorems, of which against the code or marking limits: C36_first_line_fails, C36_command_during_event_fails, C36_shutdown_lost_fails.
* Verdict: An undecodable line after initialization is answered and has no other effect; sessions end only as described. Refuted: a bad first line, a binary that cannot be loaded, and commands (even shutdown) sent during an event are lost.

### C37 Evaluating a call executes it once — partial

Evaluating an expression with nested method calls executes each call in the target exactly once.

* How: Evaluator with the list of executed calls as output; induction over expressions; exponential family as witness.
* Where: Props/Eval.lean; 2 theorems, of which against the code or marking limits: C37_nested_calls_fail.
* Verdict: Exactly once, in order, for expressions whose arguments contain no calls or only calls yielding a memory location. Refuted: n nested calls returning plain numbers are executed 2^n - 1 times.

### C38 Source path remapping applies a single mapping — partial

A path is rewritten by the first source mapping whose source directory contains it, and by no other; a path no mapping applies to is unchanged; the file whose existence is checked when a debug file is registered is the file that is later read.

* How: remap_path model.
* Where: Props/Remap.lean; 8 theorems, of which against the code or marking limits: C38_mappings_chain_fails, C38_remapped_twice_fails.
* Verdict: Unmapped paths, first mapping when no later one applies to the result, whole components. Fails in general: mappings are chained (C38_mappings_chain_fails) and applied again when the file is read (C38_remapped_twice_fails).

### C39 Module of a DIE offset is the innermost enclosing one — partial

Looking up the module of a debug-info offset returns the innermost namespace range that contains the offset.

* How: Range list with partition_point; nested-range invariant.
* Where: Props/Modules.lean; 7 theorems, of which against the code or marking limits: C39_unnamed_namespace_panics, C39_last_module_entry_fails.
* Verdict: For every file of well-formed Rust units (offsets ascending, named namespaces) and non-Rust units: every entry, every offset between entries, offsets outside units, and lookup by path. The entry that comes with the path is the module's own provided something in another module follows in the unit (C39_module_entry_partial); for the last module of a unit it is the entry of the unit (C39_last_module_entry_fails). A namespace without a name panics the index (C39_unnamed_namespace_panics).

### C40 Function discovery by pattern — partial

Function discovery returns every function with an address whose full name equals the pattern or whose short name equals it with the module path as suffix, and only those, exact matches first.

* How: Discovery model over symbol index.
* Where: Props/Discovery.lean; 12 theorems, of which against the code or marking limits: C40_exact_first_fails, C40_fuzzy_fails, C40_all_loses_instances_fails, C40_untyped_parameter_fails.
* Verdict: Which functions are found, that each is found once, which are callable and with which signature: proved for every history of the symbol index. Refuted: the documented 'exact matches first' and fuzzy matching, listing all functions (instances that print alike collapse), untyped parameters are dropped, a type whose resolution panics takes discovery down.

### C41 Tree pattern parsers take the first matching child — proved

A child pattern (member by name, field path) selects the first child for which it succeeds, independent of the other patterns; a field path's offset is the sum of the member offsets along the path.

* How: Rose-tree DIE model and combinators.
* Where: Props/Parser.lean; 10 theorems, of which against the code or marking limits: C41_field_path_overflow_panics.
* Verdict: Parsers over entry trees as modelled combinators: first matching child per pattern, independence of the patterns of a tuple, no silent loss with try-for-each, field paths sum offsets (overflow panics, shown).

### C42 DIE walking visits every entry once in document order — proved

Walking a compilation unit visits each debug-info entry the visitor descends into exactly once, parents before children, and skipping children continues at the next sibling.

* How: Cursor model of DieWalker with depth counters.
* Where: Props/Walker.lean; 10 theorems, of which against the code or marking limits: C42_leading_null_panics, C42_failed_unit_ends_file.
* Verdict: Walking any unit (any tree, any sibling attributes and padding) runs any stateful visitor exactly as the recursive specification; which entries are visited, order, exactly once; termination and no panic on damaged units. Remaining observation: a unit starting with a null entry trips an assertion (C42_leading_null_panics).

### C43 Corrupt target memory does not crash the debugger — partial

Reading any value from uninitialised or corrupt memory returns a value or an error; it never panics.

* How: Panic outcome reachable in the read model: characterise and give witnesses.
* Where: Props/Corrupt.lean; 8 theorems, of which against the code or marking limits: C43_never_panics_partial, C43_vec_length_fails, C43_hashmap_mask_fails, C43_hashmap_ctrl_fails, C43_rc_pointer_fails, C43_unimplemented_fails, C43_unresolved_fails, C43_short_read_fails.
* Verdict: Proved for the class Robust (scalars, pointers, structs, enums, options, strings, arrays, Box/Mutex/RefCell and aliases); false of the code for Vec, HashMap, Rc, tuples, Result, str and short reads (the _fails theorems).

### C44 Method discovery lists exactly the methods of the type — partial

Discovering methods for a type returns every function whose first parameter's type matches the type (by value, reference or mutable reference) plus the evaluable built-in methods, and nothing else.

* How: Discovery model with SelfType.
* Where: Props/Methods.lean; 14 theorems, of which against the code or marking limits: C44_one_bad_method_fails, C44_unreadable_type_fails, C44_c_enum_methods_fails, C44_boxed_self_fails, C44_impl_elsewhere_fails, C44_listed_twice_fails, C44_trait_name_fails, C44_trait_name_is_first_segment_fails, C44_free_function_listed_fails.
* Verdict: Soundness and completeness relative to where the code looks (entries of the type in modules of the same path, impl blocks next to it) and grouping of all methods by first parameter: proved. Refuted: methods of enums without fields, self: Box<Self>, impl blocks in other modules, duplicates, one unreadable self type is an error for all, free functions listed as methods, trait label.

### C45 Type names convert to layouts and back — partial

Printing a parsed type name and parsing it again gives the same type; a std type written with its path or in its prelude form yields the same layout, and a user type is never confused with a std type of the same name.

* How: Type display/as_layout model.
* Where: Props/TypeLookup.lean, Props/TypeNames.lean; 13 theorems, of which against the code or marking limits: C45_pointer_print_fails, C45_unsafe_print_fails, C45_shim_print_fails, C45_same_name_fails, C45_user_type_matches_std_fails, C45_mut_slice_fails.
* Verdict: Proved for every nesting: names as the compiler writes them (spec relation Names: primitives, std and user paths with generics, references, slices, arrays, tuples, functions, trait objects, raw pointers, paths through {impl#n} and {vtable_type}) parse, print back and give the specified layout; std types with path or prelude form agree; user types outside std roots and types declared in impl blocks are never given a std layout; printing and reparsing is the identity on plain types; debug-info entries get the layout of their qualified name. Refuted by the code for raw pointers, unsafe fn and {{vtable.shim}} (printing), same-named user types, comparison of a user type with a std type of the same name, and &mut [T]. Tokenizer and parser library by contract (Lib).

### C46 Address lookup describes every function containing the address — partial

Looking up an address reports, for every function of any debug file whose range contains the address and whose line table has a row for it, the function's name and that row's location, and reports nothing else.

* How: Composition of the nearest-symbol lookup, the per-file function trees and the line rows; multiset characterisation; witness for incompleteness.
* Where: Props/Resolve.lean; 3 theorems, of which against the code or marking limits: C46_complete_fails.
* Verdict: Exact with respect to the debug files of the nearest symbols; completeness over all debug files is false of the code (C46_complete_fails).

### C47 Pointers and smart pointers show what they point to — partial

Reading a reference, raw pointer, Box, Rc, Arc, Mutex or RefCell shows exactly the value read at the address it stores (or, for Mutex and RefCell, at the contained value), with only the shown type wrapped; an alias shows what the named type shows; a dangling pointer is an error.

* How: Branches of the reader for pointers and smart pointers, against the value read at the stored address.
* Where: Props/Enums.lean; 7 theorems, of which against the code or marking limits: C47_cell_fails.
* Verdict: Cell, RwLock and UnsafeCell panic (C47_cell_fails).

### C48 Parentheses do not change the meaning of an expression — partial

Writing a subexpression in parentheses gives the same result as writing it without, wherever it stands: as the whole expression, as the object of a field access, index or method call, and as an argument.

* How: Evaluator compared on an expression and its parenthesised form, for every position; witnesses where it differs.
* Where: Props/Eval.lean; 2 theorems, of which against the code or marking limits: C48_inner_fails.
* Verdict: Holds for whole expressions, indexes and keys; refuted as object of a field, index or method and as argument.

### C49 Expressions without calls do not disturb the process — proved

Evaluating an expression that contains no method or function call executes nothing in the debugged process and writes nothing to it, whether the evaluation succeeds or fails.

* How: Induction over call-free expressions: the list of executed calls is empty and the state is unchanged.
* Where: Props/Eval.lean; 1 theorems.
* Verdict: For every call-free expression, state and debugger.

### C50 Index and key expressions — partial

Indexing with a variable gives the same element as indexing with a literal of the value the variable holds, for sequences and for maps; reading the index or key terminates; a map with number keys can be indexed by a number.

* How: Index and key evaluation compared for variables and literals; termination by the structural recursion of the reader.
* Where: Props/Eval.lean; 4 theorems, of which against the code or marking limits: C50_numeric_key_fails.
* Verdict: Variables as keys and positions agree with literals, and reading them terminates. Refuted: a map is never indexed by a number literal.

### C51 One frame per expression — proved

All variables of an expression are looked up at the same program counter, the one the debugger reports when the first of them is evaluated, whatever is executed in between.

* How: The evaluator state carries the program counter of the first lookup; induction over expressions.
* Where: Props/Eval.lean; 2 theorems.
* Verdict: The program counter is fixed by the first variable and used for all of them.

### C52 Unreadable parts do not hide the rest — partial

When one field, element or entry of a value cannot be read, the readable others are still shown.

* How: Witness: a struct with one unreadable field.
* Where: Props/Eval.lean; 1 theorems, of which against the code or marking limits: C52_one_bad_field_fails.
* Verdict: Refuted: one unreadable field makes the whole struct an error.

### C53 The function index holds exactly the linked functions — partial

Indexing a debug file registers, under its symbol's name, every function entry whose linkage name is in the symbol table and, by address, every such entry with code, with a range of the same length starting at the symbol's address; nothing else is registered, and one unit does not hide the functions of another.

* How: Visitor of the function index run by the walker of C42; the resulting maps characterised by the entries visited.
* Where: Props/FnIndex.lean; 6 theorems, of which against the code or marking limits: C53_units_before_failure_kept, C53_unit_without_language_fails.
* Verdict: Proved for every file whose units state a language, with readable linkage names and no range past the address space: names (last entry wins), addresses, each function found; and that building the index crashes exactly if some function's range, moved to its symbol, does not fit into the address space (C53_crashes_iff). Refuted in general: a unit without a language attribute ends the indexing (C53_unit_without_language_fails).

### C54 Every function with code is found at its addresses — partial

Every function of the program that has code and a symbol is found when one of its addresses is looked up, however the compiler describes it (free function, method, function inside another item).

* How: Same index; witnesses for declarations with separate definitions and for functions inside other items.
* Where: Props/FnIndex.lean; 3 theorems, of which against the code or marking limits: C54_method_code_missing_fails, C54_enclosed_function_missing_fails.
* Verdict: Refuted: the code of methods described by a declaration plus a definition that refers to it is not found at any address; functions inside enumerations, unions or other functions are not indexed at all. Proved: what is found always comes from one entry with both linkage name and code; with C53_function_found the converse.

### C55 The address of a variable follows its location description — partial

The address reported for a variable is the one its DWARF location denotes (frame base plus offset, fixed address, ...); a variable without a memory address is reported without one, and does not keep the other variables from being listed.

* How: DWARF expression evaluation as a resumable process (gimli by contract); one theorem per kind of location.
* Where: Props/Variables.lean; 7 theorems, of which against the code or marking limits: C55_register_variable_fails, C55_pieces_fail, C55_static_variable_fails, C55_call_frame_fails, C55_one_register_parameter_hides_all_fails.
* Verdict: Proved for frame-relative variables with a register frame base and for variables without location. Refuted: register and multi-piece locations panic, fixed addresses are shifted by the function's address, a call-frame-address frame base uses the stack pointer, one register parameter makes the whole listing panic.

### C56 The path of a source file follows the line table — partial

The path reported for a source file is its name taken relative to its directory, which is taken relative to the compilation directory; absolute names and directories are used as they are.

* How: Path components; the joined path against the specification.
* Where: Props/Remap.lean; 3 theorems, of which against the code or marking limits: C56_absolute_name_fails.
* Verdict: Absolute and relative directories proved. Fails for files recorded with an absolute name (C56_absolute_name_fails).

### C57 Standard library layouts follow the debug file — partial

Resolving a Vec, String, HashMap, BTreeMap, Option, Result, Box, Rc, Arc, Mutex, RefCell, Cell or UnsafeCell succeeds exactly when the debug file describes the members the type is made of; the reported offsets are then the sums of the member offsets along the way, and element, key, value and payload types are the ones the debug file names. No type the resolver recognises by name makes it crash.

* How: Parsers of C41 applied to entry trees; for each std type an iff between resolving and the members being there, with offset sums.
* Where: Props/TypeRes.lean; 12 theorems, of which against the code or marking limits: C57_rwlock_fails, C57_index_map_fails.
* Verdict: Exact characterisation (iff) for Vec, String, HashMap, BTreeMap, Option, Result, Box, Rc/Arc, Mutex/RefCell/Cell, UnsafeCell. The crash-freedom part is false of the code: RwLock and IndexMap panic (C57_rwlock_fails, C57_index_map_fails).

### C58 User type layouts are complete and in order — partial

Resolving a structure, tuple, array, slice, pointer, enumeration, field-less enumeration or function type reports every field, element, variant or argument the debug file lists, in order, with the offset and type the debug file gives; nothing is invented or silently lost.

* How: Same for user types; order and completeness of fields, variants, elements.
* Where: Props/UserTypes.lean; 14 theorems, of which against the code or marking limits: C58_enum_variant_lost_fails, C58_function_pointer_fails, C58_subroutine_return_fails.
* Verdict: Exact characterisation of structs, tuples, arrays, slices, pointers, C enums; enums sound and complete when all variants are understood. False of the code for function types (arguments lost, return type looked up twice) and for variants that do not resolve, which are dropped silently (…_fails theorems).

### C59 Type resolution is well defined and terminates — partial

The layout resolved for a type does not depend on available stack: two resolutions that succeed agree, recursive user types resolve in one step, and resolution ends with a result or an error for every debug file.

* How: Fuel monotonicity of the mutually recursive resolver (two successful resolutions agree); witness for a cycle.
* Where: Props/UserTypes.lean; 4 theorems, of which against the code or marking limits: C59_cyclic_pointer_fails.
* Verdict: Depth independence and one-step recursive user types proved; termination is false for cyclic pointer entries (C59_cyclic_pointer_fails).

### C60 Enum discriminants are read where the debug file puts them — partial

The discriminant of an enum is read at the offset of its discriminant member and with that member's integer type; an enum without one has an implicit discriminant.

* How: Resolver of enums against the discriminant member; witness for non-zero offsets.
* Where: Props/UserTypes.lean; 4 theorems, of which against the code or marking limits: C60_discriminant_offset_fails, C60_variant_offset_panics.
* Verdict: False of the code: the offset of the discriminant member is ignored (C60_discriminant_offset_fails); the type, the offset-0 case and the implicit case are proved; variants at a non-zero offset panic in debug builds.

### C61 Types are found by name — partial

Looking a type up by its name gives the type of the first entry, in the first debug file that has one, that lies directly in the namespace the name gives and whose own name stands for a matching type; nothing is found only if there is no such entry, and an error means the text is no type name or the entry found does not resolve.

* How: Type index and lookup as first match over files and entries, both directions.
* Where: Props/TypeLookup.lean; 7 theorems, of which against the code or marking limits: C61_no_module_fails.
* Verdict: Proved: which entry is found (first file, first entry), not found only if none matches, when it is an error, an entry with exactly the looked-up name is always matched. Refuted: types outside any namespace are never found.

### C62 Known source files — proved

A source file is known exactly if a Rust compilation unit of some debug file lists it; under it are exactly the debug files that have such a unit, in order, none twice.

* How: Index of sources as fold over units; membership characterised.
* Where: Props/SourceIndex.lean; 3 theorems, of which against the code or marking limits: C62_other_language_fails.
* Verdict: Holds; C62_other_language_fails records that sources of non-Rust units are unknown (a documented restriction, not a violation).

### C63 Debug files and the functions attributed to them — partial

The debug files of a binary are the binary itself and the mapped objects that can be opened; every function symbol of these (and no other) is known, with its address and the debug file it comes from, whatever order the objects are visited in.

* How: Index of mapped objects for every visiting order of the hash map.
* Where: Props/SourceIndex.lean; 6 theorems, of which against the code or marking limits: C63_order_fails, C63_duplicate_object_fails.
* Verdict: Debug files, attribution and nearest lookup proved for every visiting order. Refuted parts: the function found by name among equal names depends on hash map order (C63_order_fails); of two objects under the same path and member the first is no debug file although its functions are indexed (C63_duplicate_object_fails).

### C64 Breakpoints by source position — partial

The address found for file:line is that of the closest row at or after the line, in the known file with this path or, failing that, the first one whose path ends with it; no debug file of that file has a closer row; nothing is found only if there is no such row; a unique partial path is as good as the full one.

* How: Choice of file, then C07/C09 over its debug files.
* Where: Props/SourceIndex.lean; 10 theorems, of which against the code or marking limits: C64_column_fails, C64_ambiguous_fails, C64_second_column_fails.
* Verdict: Proved for DWARF 4 line tables (see C07 for DWARF 5). Refuted parts: columns are ignored (C64_column_fails, C64_second_column_fails); with an ambiguous partial path the first file is taken even if another one has the code (C64_ambiguous_fails).

### C65 Position to address and back — partial

Looking up the address of a source position and then the location of that address gives the same file and a line at or after the one asked for, the same line if it has code.

* How: Composition of C64 and C46 under the hypothesis that the line tables are consistent (`Clean`).
* Where: Props/SourceIndex.lean; 2 theorems, of which against the code or marking limits: C65_shared_address_fails.
* Verdict: Proved for debug information that says one thing about each address (structure Clean); refuted when two rows share an address (C65_shared_address_fails).

### C66 Where types are looked for — proved

Types are looked up by name in exactly the debug files that have a source below the workspace root, which is the directory of the manifest cargo names or else the nearest directory at or above the current one with a Cargo.toml.

* How: Search for the workspace root over path components; files filtered by prefix.
* Where: Props/SourceIndex.lean; 6 theorems, of which against the code or marking limits: C66_no_workspace_fails, C66_member_fails.
* Verdict: Proved as stated for what the code computes. Consequences a user may not expect are recorded as theorems: no workspace, no types (C66_no_workspace_fails); without cargo a member counts as the workspace (C66_member_fails).

### C67 Messages survive the connection — proved

Whatever message the LLDB command or the server sends, whatever characters its texts contain, the other side reads exactly that message: one per line, in order, nothing lost, added or changed; a number that does not fit 64 bits makes the message unreadable, never another number.

* How: Printer/parser of JSON on both sides; round trip by induction over values, line framing by induction over text.
* Where: Props/Wire.lean; 7 theorems.
* Verdict: JSON by its grammar on both sides (natural numbers only), text as characters; every client message whose numbers fit 64 bits and every server message

### C68 The debugger and the server stay in step — partial

Every command the user gives is answered, after finitely many steps, in order and exactly once, by the response the server computes for that command from the answers LLDB gave while it ran; the two sides never wait for each other and never talk at the same time; as long as nothing panics and nobody shuts the server down the connection lasts.

* How: Small-step system of both sides with queues; invariant over every interleaving, accessibility for termination, refinement to `session`.
* Where: Props/Client.lean; 11 theorems, of which against the code or marking limits: C68_interrupt_fails, C68_interrupt_ends_fails.
* Verdict: Proved for every interleaving without interrupts, and per-connection order (C68_fifo) with them; C68_alive_partial assumes ASCII arguments and a backend that does not panic; with interrupts (Ctrl-C) the property is false of the code: C68_interrupt_fails, C68_interrupt_ends_fails

### C69 Commands go to the right session — partial

A command is answered from the debug information of the executable of the selected target, and a connection that is gone is opened again.

* How: History of commands with the remembered connection; invariant, and witnesses.
* Where: Props/Front.lean; 5 theorems, of which against the code or marking limits: C69_other_target_fails, C69_dead_connection_fails.
* Verdict: Holds while the executable of the target stays the same; false when another target is selected (C69_other_target_fails) and when the connection is gone (C69_dead_connection_fails)

### C70 Commands arrive as typed — partial

The command sent is the one the user named, in full or by its short form, with the words after it; the server parses the expression the user typed, however it is spaced; an empty line sends nothing.

* How: Word splitting and joining against the tokenizer of C15/C16.
* Where: Props/Front.lean; 6 theorems, of which against the code or marking limits: C70_string_fails.
* Verdict: Expressions without string literals in any spacing, and any text with single blanks; white space in string literals is not kept (C70_string_fails)

### C71 Calls into the program are the calls meant — proved

The expression LLDB is given for a call is well-formed and says unambiguously which call it is: the address, the arguments in order, each passed as its kind requires, the object first for methods, every structure defined once, a result of the right size; the answer passed on is what LLDB found.

* How: The text given to LLDB is parsed back by an independent reader of C expressions of this form.
* Where: Props/Calls.lean; 4 theorems.
* Verdict: LLDB's evaluation of the expression is a parameter

### C72 The calls made are the calls written — partial

Evaluating an expression makes only calls that are written in it, of the function or method the debug information has for that name, with one argument for each argument written, as many as there are parameters and of their types, and with the size of the type returned.

* How: Relation between the expression and the calls recorded by the evaluator (`Passes`), by induction.
* Where: Props/CallArgs.lean; 7 theorems, of which against the code or marking limits: C72_types_fail, C72_method_count_fails.
* Verdict: Callee, every argument passed (C72_function, C72_method with the specification Passes) and result size proved for all expressions; false of the code as to parameter types (C72_types_fail) and the number of method parameters (C72_method_count_fails)

### C73 Registers by number and by name — partial

The contents of a register are those of the register with the number used in the debug information, or with the name asked for; otherwise there is an error.

* How: Register sets of LLDB; lookup by number and by name against the specification; DWARF numbering of x86-64 as witness.
* Where: Props/Registers.lean; 5 theorems, of which against the code or marking limits: C73_x86_fails, C73_narrow_fails.
* Verdict: Proved when the numbering is that of LLDB's register sets; false of the code for x86-64 DWARF numbers (C73_x86_fails) and narrow registers by number (C73_narrow_fails)

### C74 Installing the LLDB script — partial

Installing writes the script of the newest rudy-lldb release and makes LLDB import it, by a line of its own added once, however often it is run; what was in the init file stays; declined questions and network failures change nothing.

* How: Files as a map from paths to texts; histories of installations; line-wise specification of the init file.
* Where: Props/Install.lean; 11 theorems, of which against the code or marking limits: C74_glued_fails, C74_commented_fails, C74_relative_fails.
* Verdict: False of the code for init files whose last line is not ended (C74_glued_fails), for imports that are commented out (C74_commented_fails) and for relative directories (C74_relative_fails); the rest is proved for all histories

### C75 Stopping a server — partial

The stop command makes a server running at the given host and port confirm and exit.

* How: Socket-address parser by contract; composition with C36.
* Where: Props/Install.lean; 4 theorems, of which against the code or marking limits: C75_name_fails.
* Verdict: Exact for numeric IPv4 addresses (C75_numeric, C75_only); host names and bare IPv6 addresses are refused although a server can be started with them (C75_name_fails)

### C76 What is printed is what the program holds — partial

A variable, field, element or call result is printed as exactly the value in memory: numbers, texts, elements, fields by name, map entries, the variant, and what references and smart pointers lead to, for types as the debug information describes them.

* How: Description of types in the debug file (`Desc`) and values in memory (`Holds`) as independent relations; induction over values through resolution, reading, expansion and printing.
* Where: Props/Shown.lean, Props/ShownPlaces.lean; 8 theorems, of which against the code or marking limits: C76_nested_field_fails, C76_deep_fails, C76_array_of_arrays_fails.
* Verdict: Composes type resolution, memory reading, expansion and formatting, by induction over the value: proved for every description of plain types, String, &str, Vec, slice, array, references, pointers, Box, Rc, Arc, Mutex, RefCell, Option, struct, enums, field-less enums, HashMap, BTreeMap nested up to four levels of containers; for variables wherever they are kept (C76_variable_partial), for locals described in the debug information by a frame-base or register location (C76_local_partial), for fields and for elements of a Vec, slice or array (C76_element_partial). False of the code for deeper values (addresses are printed), for x.f.g where f is of a user's type, and for arrays of arrays of user types (the _fails theorems).

### C77 The debugger is asked, and answers, faithfully — partial

What the server learns during a command (memory, program counter, frame, variables, registers) is what the debugger knows of the stopped process; what it asks for (writing, allocating, calling) is done exactly as asked or reported as not done; every question is answered.

* How: LLDB as a parameter; each handler of the client, the text of the messages (C67) and the server's accessors composed (`talk`).
* Where: Props/Remote.lean; 25 theorems, of which against the code or marking limits: C77_failed, C77_empty_string_fails, C77_short_read_fails, C77_out_of_memory_fails, C77_expression_fails.
* Verdict: Every question is answered, looking changes nothing, and memory, program counter, frame, variables and registers are passed on exactly; writes, allocations and calls happen as asked or are reported as failed; the server's view satisfies the contract of a remote process used by C31 (C77_remote_partial). False of the code with LLDB: reading 0 bytes is refused by LLDB, so an empty String cannot be shown (C77_empty_string_fails); a short read or write is passed on as complete (C77_short_read_fails); allocation failures and expression errors are reported in ways the _fails theorems state.

### C78 Answers are about one build of the program — partial

A session answers from the debug information as it was on disk when first used; later changes on disk and other sessions never change its answers, and a session started after a rebuild sees the new build.

* How: Histories of changes on disk, builds of file inputs and memoised loads; induction over histories.
* Where: Props/Cache.lean; 7 theorems, of which against the code or marking limits: C78_mixed_builds_fails, C78_not_retried_fails, C78_rebuilt_in_lldb_fails.
* Verdict: Stability of answers, new sessions seeing the new build, and independence of sessions are proved for every history. False of the code: object files are loaded lazily, so a session can mix builds (C78_mixed_builds_fails); a failed load is never retried (C78_not_retried_fails); in LLDB a rebuilt program is still answered from the old build (C78_rebuilt_in_lldb_fails). Files overwritten in place while mapped are not modelled.

### C79 Sessions do not disturb each other — proved

Each session behaves as if it were the only one of its server: its responses are those of its own commands, binary and debugger, it is never held up by another session, and errors or panics in one session do not reach another; only shutting the server down, or its being unable to accept connections, ends the others.

* How: Product of the systems of C68 with process exit; projection to each connection, composability, well-founded measure.
* Where: Props/Sessions.lean; 9 theorems, of which against the code or marking limits: C79_shutdown_fails, C79_accept_fails.
* Verdict: For every number of sessions and every interleaving. That a shutdown or a failing accept does end the others is C79_shutdown_fails, C79_accept_fails. Not modelled: salsa blocking one thread while another computes the same query, and passing on its panic.

### C80 Starting the server when it is needed — proved

The LLDB command starts a server only if there is none and the user has not turned this off, one at most, for the host and port it connects to; it goes on as soon as the server answers, gives up after five seconds, and leaves no unused server behind.

* How: World as a state with arbitrary answers; trace of actions; induction over the rounds.
* Where: Props/Autostart.lean; 8 theorems, of which against the code or marking limits: C80_slow_fails, C80_pipe_fails.
* Verdict: Proved for every behaviour of the network, the process and time. Limits recorded as theorems: a server that takes longer than five seconds is killed again and again (C80_slow_fails), and the output of a server started this way is never read, so that it blocks in the end (C80_pipe_fails).

### C81 Only well-formed messages are acted on — proved

A line that reaches the server or the LLDB command is acted on exactly if it is the text of a JSON object whose fields say one of the messages of the protocol, each field present and of its type and range (or, for the command, absent and then taken for its default); it is then acted on as that message and no other. Every other line - no JSON, text after the end, a bad escape, a field missing or of the wrong type, a byte above 255 - is never taken for a message: the server answers it with an error.

* How: The grammar of JSON as an inductive relation; the reader accepts exactly it (soundness by induction on fuel, completeness by induction on derivations); messages as relations on fields.
* Where: Props/Grammar.lean; 4 theorems.
* Verdict: JSON by its grammar, natural numbers only; a repeated field (an error for serde, the last one for Python) is outside the model

### C82 A call shows what it returned — partial

A function or method the user calls in an expression shows a result only if it was run in the process - the function found, with the values of its arguments - and the result shown is what it returned: the value in the register in decimal, or what is in memory at the address of the result after the call, shown as a value of the declared return type. A method rudy answers itself is not run at all.

* How: `RanFunction`/`RanMethod` say what it takes for a call to run; showing is proved equivalent to it (inversion of the evaluator's monad), and composed with C76 for what is in memory and with C77 for the debugger.
* Where: Props/CallShown.lean; 7 theorems, of which against the code or marking limits: C82_unit_fails.
* Verdict: False of functions that return nothing: what is left in the register is shown as a usize (C82_unit_fails). Values nested at most four levels, as in C76; registers of floating-point results are LLDB's business and not modelled.

### C83 Different values look different — partial

What is shown of a value determines it: two values of one type that are shown with the same text are the same value - the same elements in the same order, the same fields, the same entries, the same texts - be it in two places, in two processes, or before and after a step. The lines of the text follow the structure of the value: one line for each simple part, nested parts two blanks further in.

* How: The text is cut into lines; by structural induction with the text that may follow a value, two values printed in full whose texts agree (with what follows) agree. An independent description of the lines is proved equal to the text.
* Where: Props/Text.lean; 6 theorems, of which against the code or marking limits: C83_long_fails, C83_quotes_fail, C83_crlf_fails.
* Verdict: Proved for values printed in full: at most ten elements, texts on one line, keys that show where they end. False otherwise: more than ten elements are only counted (C83_long_fails), texts are not escaped (C83_quotes_fail), and CR LF in a text inside a collection becomes LF (C83_crlf_fails).

### C84 Listings show what was found — partial

What LLDB prints for a typed command is exactly what the server found: `rd functions` prints the number of functions found and one line for each, in order, with path, signature and whether it can be called; `rd methods` prints the type, one line for each method of the program and then the built-in methods, for a place or for the name of a type; `rd print` prints the type and the value; what cannot be found or evaluated is printed as an error. Nothing is added, left out or changed on the way through the connection.

* How: The typed line, its text on the wire (C67), the session's command, the JSON of the result, its text on the wire and Python's printing composed as one function; an independent description of the printed pages is proved equal, and composed with C40 and C44.
* Where: Props/Listing.lean; 13 theorems, of which against the code or marking limits: C84_blank_in_pattern_fails.
* Verdict: Proved for function, method and value commands, from the typed line to the printed text. False for a pattern with a blank: only its first word is searched for (C84_blank_in_pattern_fails). Evaluation and type lookup by name are parameters here (C31, C76, C82 say what they give).

### C85 Types are called by their names in Rust — partial

The name shown for a type - of a variable, a field, a parameter or a result - is the type as one writes it in Rust, with the names of its parts inside; typed in by the user it is read as that type again, and two types shown with the same name are the same type.

* How: Types of Rust (`RTy`) with the text Rust gives them, and a relation between layouts and types that leaves offsets open; structural induction for the text, composition with the names of C45 for reading back and telling apart, and with the resolution of C57/C76 for the entries of a program.
* Where: Props/TypeText.lean; 11 theorems, of which against the code or marking limits: C85_array_part_fails, C85_same_name_fails, C85_pointer_fails, C85_one_tuple_fails, C85_usize_fails.
* Verdict: Proved for all types but raw pointers, tuples of one, functions without parameters and shared references to empty arrays; user types are known by their names. False for raw pointers (C85_pointer_fails), tuples of one (C85_one_tuple_fails), usize/isize (C85_usize_fails), arrays inside other types (C85_array_part_fails) and types of the same name in different modules (C85_same_name_fails).

### C86 What is typed and what is printed — partial

When the program is stopped in a function with a variable x, `rd print x` typed in LLDB prints the name of the type of x and the value the memory of the process holds where the debug information puts x, as C76 describes it; the same for any expression that evaluates to a place. The process is left as it was.

* How: Composition of C84 (typed line to printed text), C77 (questions answered by LLDB), C76 (types and memory to text), C33/C55 (where a variable is) and C85 (what its type is called), over a binary (Model/Whole.lean) whose evaluator is the conversation-style one (Model/Ask.lean) and whose methods and functions come from Model/Discovery.lean. Proof/Ask.lean is a simulation: answered by LLDB, the conversation does what the evaluator of Model/Eval.lean does. A second simulation, between debuggers that answer reads of no bytes and LLDB, which refuses them, carries C76 over to LLDB for values without empty texts.
* Where: Props/Whole.lean; 7 theorems, of which against the code or marking limits: C86_empty_string_fails.
* Verdict: Proved for values nested at most four levels deep in which no text is empty (C86_place_partial, C86_variable_partial, C86_local_partial); false for empty Strings, which LLDB cannot read (C86_empty_string_fails). The types the debug information resolves to are those the variable's layout is stated in (TypesFrom).

### C87 What a command can make the debugger do — proved

Whatever the debugger answers, a command makes the server ask only for what is written in it: memory, registers and the frame are looked at only for an expression with a variable or function in it; a method or function is run only if it is called in the expression, at the address found for its name, with the arguments written there; memory is allocated and written only for a text that is an argument of a call. Commands other than eval, print and methods ask nothing. A command without a call leaves the process as it was.

* How: Model/Ask.lean is the evaluator as a conversation; Proof/Asked.lean has a predicate on conversations, 'every question satisfies P whatever is answered', and shows it of every reader. Props/Ask.lean: induction over the expression, with a specification (May) of what may be asked in terms of the parts of the expression; then induction over the lines of the session.
* Where: Props/Ask.lean; 3 theorems.
* Verdict: C87_command for one command, C87_session for a session with any client, C87_undisturbed for what is typed in LLDB.

### C88 The place where a program is loaded does not matter — partial

A position independent program that the system loads at other addresses than those in its file is debugged like one that is not: its variables are found by the program counter, and its functions are called where they are.

* How: False of the code. From C87: the event that asks for the load address is never sent, so nothing can depend on it (two debuggers that differ only there give the same output); and a program counter outside the addresses of the file finds no variable.
* Where: Props/Moved.lean; 3 theorems, of which against the code or marking limits: C88_base_not_asked_fails, C88_load_address_ignored_fails, C88_moved_variable_fails.
* Verdict: False of the code: the load address is never asked for (C88_base_not_asked_fails), what is printed does not depend on it (C88_load_address_ignored_fails), and in a program that was moved no variable is found (C88_moved_variable_fails). For programs loaded where their file says, C86 and C89.

### C89 What is typed and what a call prints — partial

`rd print f(1, 2)` and `rd print x.m(1, 2)` typed in LLDB run the function found under that name, or the method of the type of x, once, at its address - for a method on x itself - with these numbers, and print the name of the return type and the value memory holds, after the call, at the address of the result.

* How: Composition of C86_place_partial with C82 (what a call that ran returns), C77 (LLDB runs the text of the call), C40/C44 (discovery, through Model/Whole.lean).
* Where: Props/Moved.lean; 4 theorems.
* Verdict: Proved for numbers and variables as arguments of functions and of methods of a variable (C89_function_partial, C89_method_partial) and for any arguments of functions, in terms of what C72 passes for them (C89_function_any_partial); results with a size, nested at most four levels deep, without empty texts. Other results: C82.

### C90 Statics by name — proved

find_symbol_by_name finds, for a name without its path, a static of the program of that name with its address; of several statics of that name the first by module path; nothing exactly if the program has none. It never finds a function.

* How: The index invariant of C06 holds for the table of other symbols by exchanging the roles of the two tables (Proof/SymbolIndex.lean, staticInv); the first entry of an ordered map is the least.
* Where: Props/Statics.lean; 4 theorems.
* Verdict: A static cannot be asked for by its path (C90_path_not_found).

### C91 Symbol names on Linux and macOS — proved

The underscore macOS puts before every mangled name makes no difference: the same functions and statics are found by name and by address as in the program built for Linux.

* How: demangle with the external demangler as a parameter; the two histories insert the same events up to the raw name (induction), and C06 says what is found in terms of the events.
* Where: Props/Statics.lean; 3 theorems.
* Verdict: The demangler is a parameter; names mangled the newer way (_R) depend on it alone.

### C92 Unusual type names — partial

Reading the name of a type never crashes; a vector, map, option, smart pointer or other standard type is recognised whatever its generic arguments are, also closures and other types whose names cannot be read.

* How: Induction on the size of the token list for the whole grammar (Proof/TypeTotal.lean): no parser runs out of its bound, and what a parser of types consumes closes at least as many angle brackets as it opens, so generic arguments cannot end at an inner bracket.
* Where: Props/OddNames.lean; 6 theorems, of which against the code or marking limits: C92_arrow_fails.
* Verdict: Proved for text of identifiers, decimal numbers, punctuation and brackets; for other text under the hypothesis that tokenizing does not crash. Fails (C92_arrow_fails): a function type with a result beside an argument that cannot be read makes the name of the map unreadable, because the > of the arrow is counted as a bracket.

### C93 Account of all functions — partial

discover_all_methods_debug has an entry for the printed name of every function symbol in force and for nothing else; it says discovered exactly when the declaration of the function reads, with its signature, and otherwise why not: its file was not indexed, it has no declaration, or the declaration does not read. It agrees with discover_all_methods: what that lists is discovered here with the same signature.

* How: Model/Report.lean models the loop; induction over the symbols in name order shows that the entry under a name is that of the last symbol printing so, the per-file invariant of the symbol index that no symbol is passed over, and the specification of declarations of C44 what each verdict means.
* Where: Props/Report.lean; 4 theorems, of which against the code or marking limits: C93_crashes_fails, C93_instances_share_an_entry_fails.
* Verdict: Proved for all histories and worlds in which reading the declarations of the functions of the indexed files does not crash: the printed names accounted for are exactly those of the functions in force, each verdict means what it says, and the listing of all methods agrees. When it does crash is C93_crashes_fails (an equivalence). Not kept by the code: instances of a generic function print alike and share one entry (C93_instances_share_an_entry_fails), which is about the last in name order.

### C94 Reading variables — partial

A variable or parameter is known with the name, type and place of declaration its entry states. One that cannot be read does not keep the others of the function from being found, and the listing of locals at a position shows exactly those declared before it.

* How: Model/Declared.lean models position and variable; the specification says which entries describe which variable (Describes), with file numbers per DWARF version; both are shown equivalent, and composed with C33 for whole functions. Variables.lean keeps crashes of the type resolution.
* Where: Props/Declared.lean, Props/DeclaredShown.lean; 11 theorems, of which against the code or marking limits: C94_unlisted_file_fails, C94_rwlock_fails, C94_other_file_fails, C94_session_lost_fails.
* Verdict: Exact for single entries (C94_variable_read, C94_position, C94_crash); functions: found by name if the name is bound once and no type crashes the resolution (C94_found_partial), the listing by lines (C94_listed_partial), and from the entries to the text rd print x prints, user types included (C94_printed_partial; values as in C86). False of the code: one variable of type RwLock makes every lookup in its function crash (C94_rwlock_fails) and ends the session (C94_session_lost_fails), a variable of a file the unit does not list is dropped (C94_unlisted_file_fails), and lines of different files are compared for variables declared by macros (C94_other_file_fails).

### C95 Entries of a debug file — partial

What is read of an entry of a debug file and of its children is what is in the file there, however the compiler wrote the tree; from it follows, by module and name, whether an entry describes a type of the standard library, and this is known for every entry of a file without crashing.

* How: Model/Entries.lean models reading entries and children on the items of a unit (gimli's EntriesTree, with sibling jumps); by induction over the trees it reads back exactly the trees that were written; with the module index (C39) and the type names (C45) this gives the type each entry stands for.
* Where: Props/Entries.lean; 10 theorems, of which against the code or marking limits: C95_unnamed_namespace_fails.
* Verdict: Refuted for files with a namespace that has no name (C95_unnamed_namespace_fails: the module index crashes, and with it every type); proved for all other files. That the offset of an entry decides its unit is a simplification of the model.

### C96 From the executable to what is printed — partial

If the program is stopped in a function and the executable says, in its symbol table, line tables and debug information, that the function has a variable of some name and type at some place of the frame, then `rd print` of this name prints the name of the type and the value that memory holds there, whatever else is in the executable.

* How: Model/Image.lean puts the indexes together from the contents of an executable: symbol table, units, line tables, location expressions. The vocabulary (Compiled, StoppedIn, LineAt) speaks of these contents only; the proof composes C05, C06, C07, C39, C53, C94 and C95.
* Where: Props/Image.lean; 4 theorems, of which against the code or marking limits: C96_inside_line_fails.
* Verdict: Proved from the contents of the executable for variables at an offset from the frame base, stopped exactly at the start of a row of the line table, where the types of the function's variables are understood and no other function extends over the program counter. Refuted inside a line (C96_inside_line_fails): after a call, as in every frame but the innermost, no variable is known. Debug information in the executable itself (no object map).

### C97 From the executable to the list of its functions — partial

`rd functions a::b::f` prints one line for each function called f in a module path ending in a::b for which the symbol table of the executable has code, in the order of their names, and none for anything else; the line gives the parameters and the result that the entry of the function in the debug information declares, with the names of their types, or says that the function has no entry and cannot be called.

* How: The model of the executable of C96 (Model/Image.lean). The vocabulary (CodeOf, Names, EntryOf, Args, Result, Line) speaks of the symbol table and the trees of entries; the proof composes C06, C11, C40, C53, C84, C85 and C95. C97_line_unique shows that the specification determines the line.
* Where: Props/ImageFunctions.lean; 3 theorems, of which against the code or marking limits: C97_rwlock_fails.
* Verdict: C97_functions_partial: proved for the functions whose parameters and results have described types that are called in a known way (the types of C85 and C94 and the structures and enumerations of the program); it is false for functions that take an RwLock, for which the whole list fails (C97_rwlock_fails). C97_line_unique: the specification leaves no choice of the line.

### C98 From the executable to the parts of a variable — partial

With the program stopped in a function, `rd print` of a place in a variable - a field of a struct, an element of an array, slice or Vec, the entry of a map with a text key, what a reference refers to, or what these make together as in x.names["a"][2] - prints the name of the type that the entries of the executable give the place, and the value that memory holds there.

* How: The model of the executable of C96. The places are an inductive specification over the entries and memory (Place in Proof/Places.lean); the proof is by induction over the place that evaluation finds its address and type, then C96, C85 and C76 give the texts. The places left out are refuted one by one (C98_..._fails).
* Where: Props/ImageIndexed.lean, Props/ImagePlaces.lean; 9 theorems, of which against the code or marking limits: C98_reference_fails, C98_deref_fails, C98_part_of_field_fails, C98_own_element_fails, C98_slice_element_fails, C98_tuple_fails.
* Verdict: Proved for variables, fields, elements of Vec and arrays, entries of maps with text keys, and their combinations, wherever the code looks into the value (Place says where); an index or key may be the value of another variable or a part of it (C98_variable_index_partial, C98_variable_key_partial). False of the code for the rest, with proofs: fields and elements behind references and smart pointers, *v, parts of fields of the user's own types, elements of the user's own types, elements of slices; printing tuples and results crashes the session.

### C99 From the executable to the methods of a type — partial

With the program stopped in a function, `rd methods v` of a variable of a type of the program lists, in the order of the debug information, the methods that the `impl` blocks of the type and the trait `impl` blocks of its module declare for it - those whose first parameter is a self, &self or &mut self of that type - each with its parameters and result as the program writes them and with the word callable exactly when the executable has code for it; `rd methods path::Type` lists besides the functions of the type without self.

* How: The model of the executable of C96, with the discovery of methods of C93 and the module index of C39. What the entries declare is a specification over the entries (FunctionsOf, HomeOf in Props/ImageMethods.lean): functions of the entries of the type, and of the impl blocks beside it. The proof shows the module of the type is found, its entries are read as declared, and what is printed is that list. What is left out is refuted (C99_..._fails).
* Where: Props/ImageMethods.lean, Props/ImageParts.lean; 6 theorems, of which against the code or marking limits: C99_enumeration_fails, C99_unnamed_parameter_fails, C99_boxed_self_fails.
* Verdict: Proved for structures, tuples and enumerations whose neighbours in the module are describable types, for variables and for parts of variables (C99_methods_of_part_partial: there only the name of the type is known, which must not be mistakable for another). False of the code, hence partial: a C-like enumeration gets no functions of its own (C99_enumeration_fails); an unnamed first parameter of the type counts as self (C99_unnamed_parameter_fails); self: Box<Self>, Rc<Self> and Arc<Self> are not listed (C99_boxed_self_fails); a type after which nothing of another module comes in its unit gets no trait methods.

### C100 From the executable to what a call prints — partial

With the program stopped in a function, `rd print a::b::f(1, v.x)` runs, once and nothing else, the function whose name and module path end in a::b::f - the first in the order of names - at the address the symbol table has for it, passing the numbers and the addresses of the places; and prints the name of the type that the debug information declares for its result and the value memory then holds at the address returned. A call with the wrong number of arguments, or of a function there is no code for, is an error and nothing is run. The same holds of methods `v.m(1)` of the type of a variable.

* How: The model of the executable of C96, the discovery of functions of C97, places of C98 and calls of C89, put together: which function is called is a specification over the symbol table and the entries (Callee in Props/ImageCalls.lean), what is passed one over memory (Passed), and the text LLDB is given is the one of C77.
* Where: Props/ImageCalls.lean, Props/ImageParts.lean; 9 theorems, of which against the code or marking limits: C100_no_result_fails, C100_method_no_result_fails.
* Verdict: Proved for functions, and methods of variables and of parts of variables of the user's own types, with numbers, variables and their parts as arguments and results of which the size is known; false for functions and methods that return nothing (C100_no_result_fails, C100_method_no_result_fails); the number of arguments of methods is not checked by the code (C72_method_count_fails); for texts as arguments of functions and methods see C104.

### C101 What is not there is answered by an error — proved

With the program stopped in a function, `rd print` of a variable the function does not have, of a field its type does not have, of an element beyond the end of a Vec or array, of a key a map does not hold, of an element of what has none, or of any part of such a thing, is answered by an error; nothing in the process is changed and the session goes on.

* How: What is missing is an inductive specification over the entries and memory (Missing in Proof/Missing.lean: a field that is in no entry, an index at or beyond the length, a key that is no entry's), and the part of the expression on top of it is arbitrary; the answer is derived by induction on it, from the model of the executable of C96 and the places of C98.
* Where: Props/ImageMissing.lean; 2 theorems.
* Verdict: C101_no_variable and C101_missing; Missing (Proof/Missing.lean) says what is not there: a field, an element at or beyond the length of a Vec or array, an element or entry of what has none, a key that no entry has, and any place on top of one

### C102 From the executable to what a built-in method returns — partial

With the program stopped in a function, `rd print x.len()`, `is_empty()`, `capacity()`, `is_some()`, `is_none()`, `is_ok()` and `is_err()` print the name of the type and the value that the method of the standard library returns for what memory holds in the variable or the part x, which is a Vec, String, slice, &str, array, Option or Result; no code of the program is run, and a call with arguments, or a part of what is returned, is an error.

* How: What each method returns is a specification over the type and memory (Returns in Props/ImageBuiltins.lean), independent of the evaluator; composed with the places of C98, the model of the executable of C96 and the output of the command of C84.
* Where: Props/ImageBuiltins.lean; 4 theorems, of which against the code or marking limits: C102_result_fails.
* Verdict: C102_builtin_partial has Result with tags of one and two bytes only: for four and eight bytes the property is false of the code (C102_result_fails; the same defect as C32_result_tag_fails). C102_arguments and C102_no_parts are the errors. Options must store their discriminant in the tag or a niche that is 0 for None (DiscStored)

### C103 From the executable to the account of its functions and the list of all methods — partial

The account of all function symbols (`discover_all_methods_debug`) has an entry for each name of a function the symbol table has code for, and no other; it says what the debug information has: that the code is not the user's own, that there is no entry of the function, that its entry cannot be read, or its name, parameters, result and receiver with the names of their types. The list of all methods (`discover_all_methods`) has under the name of a type exactly the functions with code whose first parameter is of that type, behind any references and pointers, told as declared.

* How: What the account should say is an inductive specification over the symbol table and the entries (Accounts, Reads, Garbled in Props/ImageReport.lean), which determines it (C103_account_unique); the general theorems C93 and C44 are composed with the model of the executable of C96. Behind says which type a reference leads to.
* Where: Props/ImageReport.lean; 5 theorems, of which against the code or marking limits: C103_rwlock_fails.
* Verdict: Proved for programs whose functions have described types; false of the code where a function takes an RwLock: account and list crash (C103_rwlock_fails). Where the path of the code is not the user's own nothing is listed (C103_outside_not_listed); functions that print the same share an entry of the account (the last is told, as stated).

### C104 From the executable to a call with texts as arguments — partial

When the user types a call of a function with texts among its arguments, then for each text a value of the type that the entry of the function declares for that parameter - a `&str` or a `String` - is made in memory got from the program's own `malloc`, with exactly this text; the function is called once, with copies of these values, when all of them are there and nothing that was in use has changed; what it returns is printed. A text for a parameter of any other type is an error, and nothing is run or written.

* How: What is in memory for a text (TextAt), what may be offered for the parameters (Offered) and what the function is given (Received) are inductive specifications in Props/ImageTexts.lean; a debugger with an allocator is the structure Heap. By induction over the arguments, with the effect of making each value (C31) framed against what is in use; composed with the model of the executable (C96, C100) and of the client (C77).
* Where: Props/ImagePartTexts.lean, Props/ImageTexts.lean; 5 theorems.
* Verdict: Proved for calls of functions and of methods of variables and of parts of variables, with numbers, texts, variables and parts of variables as arguments in any order; the receiver's type must have a name that tells it from all others if it is a part. An allocator is assumed that has room and keeps blocks apart; the memory that is read for the places is assumed to be in use.

### C105 What is shown depends only on the memory that is read, and a failed read is never papered over — proved

If `rd print` shows a value for an expression that calls no function of the program, it shows exactly the same for every process stopped at the same place with the same registers that has at least the same memory, whatever else is in memory and whichever debugger reads it. With less memory readable, the same is shown or there is an error, never another value; two processes whose memories nowhere contradict each other are never shown two different values.

* How: Monotonicity: every reader of the model, run on a target that answers more reads (Covers), succeeds with the same result whenever it succeeded before (Proof/Covers.lean); by induction over the expression for the evaluator (Props/Kept.lean, Sees); composed with the client (C77) and the command line (C84, C86) in Props/KeptPrinted.lean. That two compatible processes agree is shown with a third process that has both memories.
* Where: Props/Kept.lean, Props/KeptPrinted.lean; 4 theorems.
* Verdict: Reads of no bytes are assumed to give no bytes (or see C77, C86 for debuggers that refuse them). The theorem at the level of the evaluator also covers expressions with methods that call nothing.

### C106 A part asked for by itself is shown as inside the whole — partial

If `rd print x` shows a value, then `rd print x.f`, `rd print x[i]` and `rd print x["key"]` show what stands in it after `f: `, at the position `i`, and after `"key": `, and so on for parts of parts; for the parts that the debugger can find at all.

* How: Specification Inside: a path from a shown value to a shown part of it, beside the types of the entries. By induction over the path, from what memory holds (Holds, inverted: a type has one description, is_layout) to the place of the part and what it holds (Place, C98), to what rd print shows of the whole and the part.
* Where: Props/ImageInside.lean; 1 theorems.
* Verdict: C106_inside_partial: proved for the places the debugger finds parts of (Place, as in C98) and values nested at most four deep; for other parts the debugger shows an error (C98_part_of_field_fails, C98_reference_fails, C98_own_element_fails, C98_slice_element_fails).

### C107 What the methods answer agrees with what is shown — partial

If `rd print x` shows a `Vec`, slice or array with n elements, `rd print x.len()` prints n, and `x.is_empty()` whether that is none; if it shows a text, `x.len()` is the number of bytes that it shows; if it shows an `Option` as anything but `None`, `x.is_some()` prints true and `x.is_none()` false.

* How: Specification Says: what a method says of a value that is shown. From what memory holds for the value (Holds, inverted by the description of its type) to what Rust's own method returns (Returns, C102), and from both to what rd print shows (C98, C102). The counterexample is an option of a reference to None, as an executable.
* Where: Props/ImageAgrees.lean; 3 theorems, of which against the code or marking limits: C107_none_fails.
* Verdict: Proved of Vec, slices (with the length behind the pointer), arrays, texts and options, for executables and values as in C98, C102. False for an option of which the payload is itself shown as None (C107_none_fails). Results are left out: they are never shown (C85), and their methods are wrong for tags of four bytes (C102_result_fails). capacity() has no counterpart in what is shown.

