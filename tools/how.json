{
"C01": "Model Node/build_recursive/query functions literally over Nat addresses; prove the query result is a permutation of the filtered input by induction on the tree (sortedness + max_end invariant), for every sorted permutation sort_unstable may produce.",
"C02": "Same tree theorem instantiated at the relative key; the second sort starts from the first sort's output.",
"C03": "Same invariant, interval overlap instead of containment.",
"C04": "Corollary: permutation of input gives permutation of output.",
"C05": "Ordered-map model of functions_by_address; greatest-key-below characterisation.",
"C06": "Fold model of index_binary/index_mapped_file; invariants over the insertion history.",
"C07": "Line program as a list of rows; loop as a fold with early return; minimality by induction.",
"C08": "Arithmetic model with checked u64 semantics (panic on overflow explicit).",
"C09": "Fold with early break over per-file answers.",
"C10": "Model `lookup_address` with its `pop`; the full statement refuted by a witness, the exact behaviour proved.",
"C100": "The model of the executable of C96, the discovery of functions of C97, places of C98 and calls of C89, put together: which function is called is a specification over the symbol table and the entries (Callee in Props/ImageCalls.lean), what is passed one over memory (Passed), and the text LLDB is given is the one of C77.",
"C101": "What is missing is an inductive specification over the entries and memory (Missing in Proof/Missing.lean: a field that is in no entry, an index at or beyond the length, a key that is no entry's), and the part of the expression on top of it is arbitrary; the answer is derived by induction on it, from the model of the executable of C96 and the places of C98.",
"C102": "What each method returns is a specification over the type and memory (Returns in Props/ImageBuiltins.lean), independent of the evaluator; composed with the places of C98, the model of the executable of C96 and the output of the command of C84.",
"C103": "What the account should say is an inductive specification over the symbol table and the entries (Accounts, Reads, Garbled in Props/ImageReport.lean), which determines it (C103_account_unique); the general theorems C93 and C44 are composed with the model of the executable of C96. Behind says which type a reference leads to.",
"C104": "What is in memory for a text (TextAt), what may be offered for the parameters (Offered) and what the function is given (Received) are inductive specifications in Props/ImageTexts.lean; a debugger with an allocator is the structure Heap. By induction over the arguments, with the effect of making each value (C31) framed against what is in use; composed with the model of the executable (C96, C100) and of the client (C77).",
"C105": "Monotonicity: every reader of the model, run on a target that answers more reads (Covers), succeeds with the same result whenever it succeeded before (Proof/Covers.lean); by induction over the expression for the evaluator (Props/Kept.lean, Sees); composed with the client (C77) and the command line (C84, C86) in Props/KeptPrinted.lean. That two compatible processes agree is shown with a third process that has both memories.",
"C106": "Specification Inside: a path from a shown value to a shown part of it, beside the types of the entries. By induction over the path, from what memory holds (Holds, inverted: a type has one description, is_layout) to the place of the part and what it holds (Place, C98), to what rd print shows of the whole and the part.",
"C107": "Specification Says: what a method says of a value that is shown. From what memory holds for the value (Holds, inverted by the description of its type) to what Rust's own method returns (Returns, C102), and from both to what rd print shows (C98, C102). The counterexample is an option of a reference to None, as an executable.",
"C11": "Character-level model of parse_symbol; spec of top-level separators; induction over the text.",
"C12": "Character-level model of the rule; exact characterisation, and witnesses against the property.",
"C13": "Comparison function model; order axioms by lexicographic composition.",
"C14": "Suffix model; equivalence with IsSuffix.",
"C15": "Tokenizer over (chars, char position, byte slicing) with explicit panic; no panic for ASCII by induction; witness for non-ASCII.",
"C16": "Printer and parser models; round trip by induction on the parse.",
"C17": "Negation witness and characterisation.",
"C18": "Digit fold with checked multiply-add = positional value.",
"C19": "Value model; comparison axioms by structural induction; negation for pointers.",
"C20": "Layout size model with explicit panic value; characterise the panicking layouts.",
"C21": "matching_type model; reflexive/symmetric by induction; negation of transitivity.",
"C22": "Byte memory model; little-endian value.",
"C23": "read_from_memory struct branch.",
"C24": "Sequence branches, induction on length.",
"C25": "read_enum/read_c_enum model.",
"C26": "Two readers compared; negation witness, partial agreement.",
"C27": "SwissTable loop model; refinement to filter over buckets.",
"C28": "B-tree representation predicate; in-order refinement by induction on height.",
"C29": "index_by_int model versus read model.",
"C30": "index_by_value/values_equal model.",
"C31": "Allocator and memory writes as an abstract remote process (`Remote.Backed`); read-back by the memory model; C77 shows the real client gives such a process.",
"C32": "Synthetic method evaluator model.",
"C33": "Scope walk over entry trees, variables in document order; listing and lookup compared; witnesses for shadowing.",
"C34": "Structural depth bound; invariance of the expansion under changes of memory further than eight steps away; cyclic sets of pointers.",
"C35": "Session as a function from input lines to a trace (`session`), conversations as resumable computations (`Conv`); induction over the input.",
"C36": "Same state machine.",
"C37": "Evaluator with the list of executed calls as output; induction over expressions; exponential family as witness.",
"C38": "remap_path model.",
"C39": "Range list with partition_point; nested-range invariant.",
"C40": "Discovery model over symbol index.",
"C41": "Rose-tree DIE model and combinators.",
"C42": "Cursor model of DieWalker with depth counters.",
"C43": "Panic outcome reachable in the read model: characterise and give witnesses.",
"C44": "Discovery model with SelfType.",
"C45": "Type display/as_layout model.",
"C46": "Composition of the nearest-symbol lookup, the per-file function trees and the line rows; multiset characterisation; witness for incompleteness.",
"C47": "Branches of the reader for pointers and smart pointers, against the value read at the stored address.",
"C48": "Evaluator compared on an expression and its parenthesised form, for every position; witnesses where it differs.",
"C49": "Induction over call-free expressions: the list of executed calls is empty and the state is unchanged.",
"C50": "Index and key evaluation compared for variables and literals; termination by the structural recursion of the reader.",
"C51": "The evaluator state carries the program counter of the first lookup; induction over expressions.",
"C52": "Witness: a struct with one unreadable field.",
"C53": "Visitor of the function index run by the walker of C42; the resulting maps characterised by the entries visited.",
"C54": "Same index; witnesses for declarations with separate definitions and for functions inside other items.",
"C55": "DWARF expression evaluation as a resumable process (gimli by contract); one theorem per kind of location.",
"C56": "Path components; the joined path against the specification.",
"C57": "Parsers of C41 applied to entry trees; for each std type an iff between resolving and the members being there, with offset sums.",
"C58": "Same for user types; order and completeness of fields, variants, elements.",
"C59": "Fuel monotonicity of the mutually recursive resolver (two successful resolutions agree); witness for a cycle.",
"C60": "Resolver of enums against the discriminant member; witness for non-zero offsets.",
"C61": "Type index and lookup as first match over files and entries, both directions.",
"C62": "Index of sources as fold over units; membership characterised.",
"C63": "Index of mapped objects for every visiting order of the hash map.",
"C64": "Choice of file, then C07/C09 over its debug files.",
"C65": "Composition of C64 and C46 under the hypothesis that the line tables are consistent (`Clean`).",
"C66": "Search for the workspace root over path components; files filtered by prefix.",
"C67": "Printer/parser of JSON on both sides; round trip by induction over values, line framing by induction over text.",
"C68": "Small-step system of both sides with queues; invariant over every interleaving, accessibility for termination, refinement to `session`.",
"C69": "History of commands with the remembered connection; invariant, and witnesses.",
"C70": "Word splitting and joining against the tokenizer of C15/C16.",
"C71": "The text given to LLDB is parsed back by an independent reader of C expressions of this form.",
"C72": "Relation between the expression and the calls recorded by the evaluator (`Passes`), by induction.",
"C73": "Register sets of LLDB; lookup by number and by name against the specification; DWARF numbering of x86-64 as witness.",
"C74": "Files as a map from paths to texts; histories of installations; line-wise specification of the init file.",
"C75": "Socket-address parser by contract; composition with C36.",
"C76": "Description of types in the debug file (`Desc`) and values in memory (`Holds`) as independent relations; induction over values through resolution, reading, expansion and printing.",
"C77": "LLDB as a parameter; each handler of the client, the text of the messages (C67) and the server's accessors composed (`talk`).",
"C78": "Histories of changes on disk, builds of file inputs and memoised loads; induction over histories.",
"C79": "Product of the systems of C68 with process exit; projection to each connection, composability, well-founded measure.",
"C80": "World as a state with arbitrary answers; trace of actions; induction over the rounds.",
"C81": "The grammar of JSON as an inductive relation; the reader accepts exactly it (soundness by induction on fuel, completeness by induction on derivations); messages as relations on fields.",
"C82": "`RanFunction`/`RanMethod` say what it takes for a call to run; showing is proved equivalent to it (inversion of the evaluator's monad), and composed with C76 for what is in memory and with C77 for the debugger.",
"C83": "The text is cut into lines; by structural induction with the text that may follow a value, two values printed in full whose texts agree (with what follows) agree. An independent description of the lines is proved equal to the text.",
"C84": "The typed line, its text on the wire (C67), the session's command, the JSON of the result, its text on the wire and Python's printing composed as one function; an independent description of the printed pages is proved equal, and composed with C40 and C44.",
"C85": "Types of Rust (`RTy`) with the text Rust gives them, and a relation between layouts and types that leaves offsets open; structural induction for the text, composition with the names of C45 for reading back and telling apart, and with the resolution of C57/C76 for the entries of a program.",
"C86": "Composition of C84 (typed line to printed text), C77 (questions answered by LLDB), C76 (types and memory to text), C33/C55 (where a variable is) and C85 (what its type is called), over a binary (Model/Whole.lean) whose evaluator is the conversation-style one (Model/Ask.lean) and whose methods and functions come from Model/Discovery.lean. Proof/Ask.lean is a simulation: answered by LLDB, the conversation does what the evaluator of Model/Eval.lean does. A second simulation, between debuggers that answer reads of no bytes and LLDB, which refuses them, carries C76 over to LLDB for values without empty texts.",
"C87": "Model/Ask.lean is the evaluator as a conversation; Proof/Asked.lean has a predicate on conversations, 'every question satisfies P whatever is answered', and shows it of every reader. Props/Ask.lean: induction over the expression, with a specification (May) of what may be asked in terms of the parts of the expression; then induction over the lines of the session.",
"C88": "False of the code. From C87: the event that asks for the load address is never sent, so nothing can depend on it (two debuggers that differ only there give the same output); and a program counter outside the addresses of the file finds no variable.",
"C89": "Composition of C86_place_partial with C82 (what a call that ran returns), C77 (LLDB runs the text of the call), C40/C44 (discovery, through Model/Whole.lean).",
"C90": "The index invariant of C06 holds for the table of other symbols by exchanging the roles of the two tables (Proof/SymbolIndex.lean, staticInv); the first entry of an ordered map is the least.",
"C91": "demangle with the external demangler as a parameter; the two histories insert the same events up to the raw name (induction), and C06 says what is found in terms of the events.",
"C92": "Induction on the size of the token list for the whole grammar (Proof/TypeTotal.lean): no parser runs out of its bound, and what a parser of types consumes closes at least as many angle brackets as it opens, so generic arguments cannot end at an inner bracket.",
"C93": "Model/Report.lean models the loop; induction over the symbols in name order shows that the entry under a name is that of the last symbol printing so, the per-file invariant of the symbol index that no symbol is passed over, and the specification of declarations of C44 what each verdict means.",
"C94": "Model/Declared.lean models position and variable; the specification says which entries describe which variable (Describes), with file numbers per DWARF version; both are shown equivalent, and composed with C33 for whole functions. Variables.lean keeps crashes of the type resolution.",
"C95": "Model/Entries.lean models reading entries and children on the items of a unit (gimli's EntriesTree, with sibling jumps); by induction over the trees it reads back exactly the trees that were written; with the module index (C39) and the type names (C45) this gives the type each entry stands for.",
"C96": "Model/Image.lean puts the indexes together from the contents of an executable: symbol table, units, line tables, location expressions. The vocabulary (Compiled, StoppedIn, LineAt) speaks of these contents only; the proof composes C05, C06, C07, C39, C53, C94 and C95.",
"C97": "The model of the executable of C96 (Model/Image.lean). The vocabulary (CodeOf, Names, EntryOf, Args, Result, Line) speaks of the symbol table and the trees of entries; the proof composes C06, C11, C40, C53, C84, C85 and C95. C97_line_unique shows that the specification determines the line.",
"C98": "The model of the executable of C96. The places are an inductive specification over the entries and memory (Place in Proof/Places.lean); the proof is by induction over the place that evaluation finds its address and type, then C96, C85 and C76 give the texts. The places left out are refuted one by one (C98_..._fails).",
"C99": "The model of the executable of C96, with the discovery of methods of C93 and the module index of C39. What the entries declare is a specification over the entries (FunctionsOf, HomeOf in Props/ImageMethods.lean): functions of the entries of the type, and of the impl blocks beside it. The proof shows the module of the type is found, its entries are read as declared, and what is printed is that list. What is left out is refuted (C99_..._fails)."
}