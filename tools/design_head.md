# DESIGN

A formal model of samscott89/rudy (source in /repo, read as text, nothing executed) in Lean 4.33.0, with theorems
about it. The Lean project is `lean/`; `properties.jsonl` lists the properties in English, `MANIFEST.json` the theorems
for each, `seeded/LOG.jsonl` the wrong programs the theorems were tested against, `AXIOMS.md` the axioms of every theorem.

This file is made by `tools/design.py` from `tools/design_head.md` (sections 1 to 4, written by hand) and the property
list; the first version of it, written before the proofs, is in the history of the repository.

## 1. Layout

* `Verif/Model/*.lean` — the code, function by function. Every definition cites file and lines in /repo; a comment says
  where it simplifies. Nothing in here mentions a property.
* `Verif/Proof/*.lean` — lemmas, and where a file says so the vocabulary of specifications (grammars, relations between
  memory and values, descriptions of types) that is independent of the model's functions.
* `Verif/Props/*.lean` — the theorems `Cnn_…`. Each file starts with a small specification, ends with concrete cases
  that meet the hypotheses of its theorems.

Names: `Cnn_…` belongs to property Cnn; a suffix `_partial` marks a theorem that proves only part of its property, a suffix
`_fails` (or `_panics`) a theorem saying that the property, or a part of it, is false of the code, or a limit of the code
a user runs into. A property is `partial` in the manifest if the code as it is refutes a part of it, or if
hypotheses had to be added that users cannot rely on; the note says which. In all `partial` cases the part that is false
is stated and proved false; nothing is left open silently.

## 2. Conventions of the model

* **Results.** `Res α` is `ok`, `err` (a Rust `Err`, or `None` where that is an error; the text of messages is dropped) or
  `panic`. Arithmetic on `u64`/`usize` is on natural numbers with checked operations (`addU`, `subU`, `mulU`) that
  panic on overflow: the model is that of a debug build. Indexing, slicing, `unwrap`, `todo!` and `unreachable!` panic.
* **Texts** are lists of characters. Where the code mixes byte and character positions (the expression tokenizer) UTF-8
  lengths are modelled; elsewhere UTF-8 encoding is not.
* **Recursion.** Structural where the code's is. The readers of memory and the type resolver recurse through memory or
  references; there a fuel argument stands for the stack and running out of it is a panic (memory) or a separate
  outcome (types); theorems quantify over the fuel or say how much is enough. Stack use of structurally recursive code
  (deeply nested expressions) is not modelled.
* **Unstable sorts, hash maps.** `sort_unstable` is any sorted permutation; iteration over a hash map is any order. Theorems
  quantify over all of them.
* **Memory of the process** is a partial map from addresses to bytes (`Mem`), seen through `Target`, which may also
  answer short or fail. C77 derives this interface from the client, the messages and LLDB's calls.
* **Concurrency.** Client and server of a connection are a small-step system with one queue for each direction, the steps of
  both sides in any order; a server with its connections is a product of these. Theorems are invariants and
  well-foundedness statements over all interleavings, with no bound on their number or length.

## 3. What is modelled

| Code | Model |
|---|---|
| crates/rudy-dwarf/src/address/{mod,resolution}.rs | Address, Resolve |
| crates/rudy-dwarf/src/symbols/{mod,names}.rs | Symbols, SourceIndex, TypeNames |
| crates/rudy-dwarf/src/die/{mod,utils,cu,navigation}.rs | Die, Parser, Remap, SourceIndex |
| crates/rudy-dwarf/src/visitor.rs, modules.rs | Walker, Modules |
| crates/rudy-dwarf/src/function/{index,mod,variables}.rs, expressions.rs | FnIndex, Discovery, Variables |
| crates/rudy-dwarf/src/parser/*.rs | Parser, TypeRes, Discovery |
| crates/rudy-dwarf/src/types/{resolution,index}.rs | TypeRes, TypeNames |
| crates/rudy-dwarf/src/file/{mod,index}.rs, lib.rs | Cache, SourceIndex, Remap |
| crates/rudy-parser/src/expressions.rs | Expr |
| crates/rudy-parser/src/types.rs | TypeNames, Symbols |
| crates/rudy-types/src/lib.rs | Layout |
| rudy-db/src/data.rs, outputs.rs | Memory, Value |
| rudy-db/src/debug_info.rs, query.rs, index.rs | Index, Resolve, SourceIndex, Variables |
| rudy-db/src/synthetic_methods.rs, function_discovery.rs, database.rs | Index, Discovery, Cache |
| rudy-lldb/src/evaluator.rs | Eval, Remote |
| rudy-lldb/src/server.rs, protocol.rs | Server, Wire, Client, Sessions |
| rudy-lldb/src/main.rs | Install, Sessions |
| rudy-lldb/python/rudy_lldb.py | Front, Wire, Client, Calls, Remote, Autostart |

Not modelled: `xtask` (development tool), the text printed by `Display`/`Debug` where no property speaks of it, logging
(except that its output fills a pipe, C80), `From` conversions and constructors that only wrap, `pretty_print`
helpers, `__lldb_init_module`.

## 4. Trusted base

* **Lean's kernel**, version 4.33.0, and the axioms `propext`, `Quot.sound`, `Classical.choice`; no other axiom is used by any
  theorem (AXIOMS.md), no compiled code is trusted.
* **The reading of the code.** The model was written by reading Rust and Python; that it says what the code does is not checked
  by machine. The citations are there to check it by hand, the seeded experiments to see that theorems depend on it.
* **Libraries by contract**, not modelled from their source (it is not in the repository):
  * *gimli*: the abbreviation decoder yields a list of entries, nulls and errors for a unit (Walker); attributes, line programs
    and range lists are what gimli reports (Die, Resolve); evaluation of DWARF expressions is a resumable process that asks
    for registers, frame base and relocated addresses (Variables).
  * *object*: a binary is given by the symbols, object map and sections reported (SourceIndex).
  * *salsa*: tracked functions are pure functions of their inputs, evaluated when first asked for and remembered (Cache); that
    a thread may wait for another which computes the same query, and is told of its panic, is not modelled.
  * *unsynn, proc_macro2*: token trees and the order of alternatives, with what is left open collected in the structure `Lib`
    over which the theorems of C45 quantify.
  * *serde, serde_json, Python json*: JSON by its grammar; numbers are naturals (the messages contain no others).
  * *rustc-demangle*, the demangled text of a symbol: a parameter.
  * *std*: `BTreeMap` as a sorted association list, `sort_unstable` as any sorted permutation, the parser of socket addresses for
    IPv4 by its grammar, floating-point printing as a parameter.
* **LLDB** is a parameter (`Lldb`, `Outcome`): what its calls return in each of its states, including that they raise.
* **The file system** has no I/O errors other than missing files, and different path texts are different files in Install; source
  maps work on path components. Files changed in place while they are mapped are not modelled.
* **The network**: reading and writing of an open connection do not fail; a connection is closed when its thread or the process
  ends.

Interfaces between parts of the model that are connected by theorems rather than assumed: the evaluator's world of variables,
methods and functions by C33/C55/C40/C44 and `C76_local_partial`; memory and calls by C77; the backend of a session by
C68/C79; type names by `C45_entry_name`.
