# Formal model of progenitor

Target: `/repo` (oxidecomputer/progenitor, pinned). Properties: `properties.jsonl`.
Status of each: `MANIFEST.json`. Mutation log: `seeded/LOG.jsonl`.

## Layout

| directory | content |
|---|---|
| `lean/Verif/Model/*` | definitions that follow the Rust code, function by function, each citing file:lines |
| `lean/Verif/Spec/*` | small independent specifications (grammars, decoders, OpenAPI rules); they do not mention the model |
| `lean/Verif/Lemmas/*` | helper lemmas |
| `lean/Verif/Props/*` | the property theorems `Cnn_*`, each followed by a non-vacuity `example` |

Text is `List Char` (or `List UInt8` where bytes matter). `panic!`/`assert!`/`todo!`
in the generator is the `panic` outcome of the `Res` monad, so "does not panic" is a
statement about the model, not an assumption.

The generator emits Rust source. We model the *meaning* of what it emits: a small
record of what the emitted tokens are (identifiers, format string, match arms,
builder fields) together with an interpreter for that fragment of Rust. Variable
lookup is modelled, so shadowing is observable.

When the code violates a property we prove the negation with a concrete witness
(`Cnn_..._fails`), and the strongest guarded version as `Cnn_..._partial`.

## Trusted base

* Lean's kernel (4.33.0). Axioms allowed: `propext`, `Quot.sound`, `Classical.choice`.
  No added axioms, no `sorry`, no `native_decide`, no `bv_decide`. The axioms of each
  theorem of the manifest are listed in `AXIOMS.md`.
* The reading of the Rust source into `Model/*` (checked by review only).
* The rendering of third-party behaviour, listed next.

### What is assumed of other crates

| part | rendering |
|---|---|
| `format!` | interpolation of `{}`-placeholders, `{{`/`}}` escapes; a malformed string does not compile |
| `percent_encoding`, `url` | encoding of UTF-8 bytes by a set; the WHATWG path parser (segments, `\\`, dot segments, their encoded forms) |
| `serde`, `serde_urlencoded`, `form_urlencoded` | the serde data model as an inductive type; serializers by case |
| `reqwest`, `http` | request building in order of calls; `HeaderMap` as an association list with `insert`/`append`; an unparsable URL is an error at `build` |
| server, hooks | arbitrary functions of the history of events (so any stateful server) |
| `serde_json` | decoding is an arbitrary function from type and bytes to value or error |
| typify | types are opaque identifiers with tables: builder of a type, properties of a struct, inner type of an `Option`, whether `FromStr`/a clap parser exists. Builder setters are arbitrary functions. `C31_agree` and `C40_execute` assume that `From<T>` followed by `TryFrom` on a builder gives the value back. C96 has the calls that make types: any library whose types do not change once made (what a failing call leaves behind is not modelled) |
| `std` sorting | stable insertion sort (what the standard library does up to 20 elements); `C15_any_stable_sort` covers any stable sort where the comparator is an order |
| `BTreeMap`, `IndexMap`, `HashMap` | ordered association lists; for `HashMap`, every order |
| `futures` | `try_unfold`, `try_flatten`, `iter`, `once`, `chain`, `take` as transition systems with steps emit/done/ask/silent |
| `heck` 0.5 | word splitting and case functions, over a record `Unicode` of character tables. Theorems hold for all tables that satisfy `Spec.Lawful`; these laws were checked exhaustively outside Lean against Unicode 14 data |
| `syn` identifiers | XID rules and the list of reserved words |
| `regex` | a fragment: literals, `.`, `[^/]*`, repetition, anchors; metacharacters parsed as the crate does; other syntax gives no theorem |
| `httpmock` | a mock sees the raw path and the form-decoded query; all expectations must hold; it answers with a mock that matches (any, if there are several) or with status 404. JSON bodies are compared as values: `JsonLib` is an arbitrary reading of texts and Rust values as JSON; for the refutation on forms, only that the empty text is not JSON and that JSON texts with `=` have a quote |
| `http` 1.3.1 | table of canonical reasons |
| `clap` | rules for required arguments, `get_one`, and unique argument names; the words of a command line are read by the documented rules for long options that are set once (`Model/Argv.lean`), with arbitrary value parsers and the parser of enums as emitted. `-h` and `--help` are not accepted (the program ends); of what they show only the texts are modelled (C99: `about` for `-h`, `long_about` or else `about` for `--help`); subcommands and terminals are left out |
| `schemars`/JSON schema | validation semantics over an arbitrary set of JSON values; numbers are rationals, `f64` as the rationals it can hold (NaN and infinities excluded); `pattern` by an arbitrary relation |
| `serde_tokenstream`, `syn` | reading one value is an arbitrary partial function; a key given twice is an error (serde), unknown keys are either errors or ignored (both are covered). Traits of a replacement type are listed in a fixed order instead of the order of a `HashSet` |
| `openapiv3` | parsing is not modelled: theorems are about its data types. `nullable: true` accepts null in addition to what the schema accepts |

### Not modelled

typify (beyond the tables), token printing and rustfmt (but `space_out_items` is), TLS,
I/O (but see C74 and C76 for files read and written), tokio scheduling inside hooks and `reqwest`,
JSON/YAML parsing, how `rustdoc` and `clap` lay out texts, lifetimes and visibility of emitted items.
Where a theorem says that code compiles (C60, C86), traits of typify's types are taken for granted
(`Display` for parameters in paths and headers, `Serialize` for those in queries and bodies, `Clone` and
`Debug` where used), and so are the names inside of hook expressions, which a parameter could hide.
The capacity of a `HeaderMap` and the greatest length of a header name are not modelled.

Where the generator can panic for several reasons the model has them in the order of
the code; theorems speak about whether it panics, never about the message.

## How a property that fails is treated

1. `Cnn_..._fails`: the negation, with a concrete document, argument list or command line.
2. `Cnn_..._partial`: the property under a guard, as weak as we could find.
3. `Cnn_..._iff`: where possible, the exact condition.

## Properties

| id | what is modelled | how proved |
|---|---|---|
| C01 | `parse` state machine | induction on input against an inductive grammar; the stray-`}` case refutes the clean statement |
| C02 | `parse`, `to_string`, `names` | loop invariant relating state to consumed input; collapse function as spec |
| C03 | `compile` + `format!` interpreter | induction on components; guard excludes stray `}`, and is necessary (`C03_url_iff`) |
| C04 | `encode_path` on UTF-8 bytes | induction on bytes against an independent decoder |
| C05 | `encode_path` + WHATWG path parser; a segment is a literal, or one parameter with text around it that stands for itself | segment lemma; a parameter with text around it is like one with a longer argument (`encodePath_around`); refuted for `\` , `.` and `..` |
| C06 | `compile` + segment splitting | recovery function, injectivity corollary; two parameters in one segment: colliding arguments constructed for every template |
| C07-C11 | serde data model, `QuerySerializer`, `serde_urlencoded`; `Spec/Query.lean`: what an argument stands for (`Means`) and which arguments cannot be sent (`Unsent`) | case analysis / induction over values; C11 refuted, and exactly: an argument is sent as what it stands for or refused, the latter iff a newtype or tuple would need the name of the parameter. `Props/QueryExact.lean`: arrays, structs and maps of any values at all are sent iff their elements, fields and keys are single texts (or absent), and then as the pairs of those. `Props/FormExact.lean`: the same for every value of the serde data model, in queries (`QueryOf`) and in form bodies (`FormOf`); `C11_request_partial` (`Props/Separate.lean`) has it for the query of a whole request, if neither base URL nor path has a question mark |
| C12 | form encoding | induction, independent decoder |
| C13 | `parameter_map`, override | finite-map reasoning; refuted for equal names in different locations; the exact condition for every parameter to be an argument is an iff |
| C14, C15 | `sort_params` comparator, stable insertion sort | sortedness + permutation; C15 refuted (header/body), with the exact conditions as iffs |
| C16 | `unique_ident_from` | termination by pigeonhole, freshness; refuted for `header_map` (and see C60 for `encode_path`, a function that a parameter can hide) |
| C17-C22 | interpreter of the generated method body over an arbitrary world | trace semantics, induction over headers / queries |
| C23-C26, C56 | response extraction and generated `match` | case analysis on arms for every u16 status |
| C27, C28 | `ResponseValue`, `Error` | direct, numeral semantics as spec; the exact condition for C27, like those for C03, C19, C54 and C59, is in `Props/Exactly.lean` |
| C29-C31 | builder fields as a state machine over setter histories | induction over histories, equivalence of interpreters |
| C32-C36 | futures combinators as pull automata, arbitrary stateful server | simulation with a page-walk specification |
| C37 | `dropshot_pagination_data` | iff characterisation |
| C38 | the emitted loop over `take(limit)` of the stream (`Model/Cli.lean`) | simulation with the page walk of C32; refuted for raw errors and for limits that are not `NonZeroU32` |
| C39 | `cli_method_args`, `CliOperationArgs`, body properties | invariant of the loop over properties; iff for success of generation; word splitting gives injectivity of flag names; refuted for raw bodies and U+0130 |
| C40 | setter calls made for a command line, run by the builder interpreter | `C40_outcomes` relates them to builder outcomes (C30), then C31 gives the positional call |
| C41-C43 | heck, `sanitize`, XID classes as parameters with laws | word-list normal form; C43 refuted |
| C44 | `validate_openapi` | iff characterisation |
| C45-C47 | schema AST, `convert`, two validation semantics; `Spec/SchemaExact.lean`: the values a schema has after conversion, in terms of the schema (`EValid`) | structural induction; refuted where the code is lossy. `C45_exact` has no guard (`Maps`: properties are maps), so `EValid` says all that is lost: counts modulo 2^32, rounded limits of integers, `null` in nullable combinations, types of nullable schemas without type |
| C48, C49 | regex fragment, mock matchers, what the server sees of a request | denotational regex semantics; exact for dots: inexact if and only if there is one; refuted for unescaped constants, encoded and regex-like values, renamed query parameters, headers |
| C50 | methods of `Then` and the generated `match` of the client | status classes, then the classification of C23-C25 |
| C51 | tag grouping | induction over operations |
| C52 | dependency list | flags accumulated over operations |
| C53, C54 | macro settings | induction over modifier lists; order dependence refuted |
| C55 | `item` | fuel semantics; divergence on cycles refutes termination |
| C57 | `space_out_items` regex replace | subsequence relation |
| C58 | tables | inversion over all strings |
| C59 | `sort_params` against the template | positions looked up by the comparator; refuted for a single parameter |
| C60 | compile check of the emitted body (scopes, types of arguments, methods of `reqwest::Client`) | inversion of `process_operation`, then the interpreter of C17; refuted per guard |
| C61 | `Accept` header against possible outcomes | case analysis on kinds |
| C62 | `builder_struct`, names of builder methods | iff for generation and for the struct; refuted |
| C63 | capture of arguments by the closures of `stream` | iff per parameter; refuted for three names and non-string tokens |
| C64, C65 | item names in the emitted modules; method resolution through the prelude | normal form of pascal case for words that start with letters; exact characterisation of resolution |
| C66 | `process_operation` for all operations of a document and the emitted methods | induction over operations |
| C67 | names and generation of mock code | table of reasons, injectivity of names |
| C68 | reports of commands | case analysis on kinds, with C40 |
| C69 | functions and variants of the CLI | iff on sanitized ids; idempotence (C42) and injectivity (C64) |
| C70 | document to wire, including objects as query arguments (read by the keys of their fields) | an independent server (`Spec/Wire.lean`: routing, per-parameter readers) applied to the request; from C13, C17, C19, C20, C21, C66; a counterexample for each guard (`Props/WireGuards.lean`) |
| C71 | requests determine arguments | C70 for both calls, injectivity of UTF-8 and of the readers |
| C72 | replies to results | `Documented` (which response of the document describes a status) and `Delivered` against `call`; the remote form composes it with C70: the result of a call is what a service answers to the arguments. `Spec/Reply.lean` (`Treats`): what a reply with any status is taken for, from the responses of the document alone; proved equal to the emitted `match` for all statuses and operations, websockets included |
| C73 | messages of errors | `Model/ErrorText.lean`; prefixes are pairwise not prefixes of each other; the chain of causes is an inductive type |
| C74 | the crate on disk | `Model/Crate.lean` (files as a function, any step may fail); an independent TOML reader (`Spec/Toml.lean`) applied to the manifest |
| C75 | calls against mocks | `Props/Mocked.lean`: a world whose server is a mock server (`MockServer`, `Answers`); composes C49 (request matched, and the converse), C23/C50 (status) and C72 (`call`) |
| C76 | `Model/Settings.lean`: `GenerationSettings` and its `with_*` methods, `Generator::new` (what is passed to typify), reading of the options of `generate_api!`, iteration of hash maps in any order, the document read and the expansion | folds of calls characterised by the last call of each kind (`lastOf`); inversion of the option reader; `struct_builder`, which the documentation lists, is not among the options |
| C77 | `Model/ClientStruct.lean`: the generated struct, constructors and accessors; what methods take from the client (base URL, version, `reqwest` client, inner value for hooks). `reqwest::ClientBuilder` is its two timeouts and a partial function to clients | composition with C17, C21, C22 and C70; the text parsed as URL begins with the base URL whatever the template is; partial: reception by the server has the guards of C70. Refuted: base URLs that end in a slash (`C77_slash_fails`), base URLs with query or fragment (`C77_query_fails`) |
| C78 | `Model/Tasks.lean`: the future of a call as the pieces of the method body between `await`s, with the answers of hooks and network chosen by the environment; programs as sequences of moves (call, poll, drop) on a list of futures. Polls without an answer change nothing and are left out; the executor is any order of polls | invariant per future relating what was observed of it to `Exec.call` in surroundings that give the observed answers; frame property of moves; measure on phases |
| C79 | `Model/Argv.lean`: words of a command line, `clap` options, parsers of enums and other types, files, override functions of `CliConfig`, the emitted `execute_..` function run on words | words are read exactly if written by an inductive relation; maps with sorted keys; composed with C40, C68, C72. Refuted: values that begin with `-`, parameters called `help`. Guarded: as C72, and kinds of responses that are supported |
| C80 | no new model: requests of generated methods and the routes of the document; `Spec/Route.lean`: which operations a server takes a request for, OpenAPI's preference for paths without parameters | templates that some path is read as both: iff; a request is taken for another template iff the filled-in path spells it, via `C20_segments_iff`; composed over the document with C66. Refuted: an argument equal to a literal of another path, twin templates are accepted. Guarded: as the path part of C70 |
| C81 | `Model/ListWords.lean`: the whole list command from words to reports (clap as in C79, builder as in C33, stream as in C38, requests as in C21), with the override; run for any number of steps against any server. `Spec/ListWords.lean`: the pages that are asked for when tokens are followed, what is reported for them, the limit written | invariants of runs (C38) carried to the run against a server; every page answers at most one request (C21) which is received as meant (C70); termination by a measure on pages left and items reported. Guarded: as C70 and C79 (path arguments that survive, query parameters with different keys, builders that keep values). Refuted: a limit of another type panics after `list_start` |
| C82 | `sanitize` and heck's division into words as in C41/C43; `Spec/Words.lean`: words of an identifier by their boundaries, snake and Pascal case of a list of words, the words that stand for `+`, `-` and an empty name | the automaton of heck (mode after each character) against the boundaries by induction over the text; uniqueness of the division; injectivity of joining words by underscores. ASCII only: case mapping of other characters is a parameter of the model. Refuted: Pascal case of `+1`, `-1` |
| C83 | `Model/RefDoc.lean`: a document with `ReferenceOr` in the places where `item` is called, resolved in the order of the code, with at most `n` calls per reference (no result if that is not enough). `Spec/Pointer.lean`: RFC 6901 tokens and pointers, what a reference stands for, the document with references replaced | each step of the code gives, for all large `n`, what the step of the document without references gives; uniqueness of tokens and pointers. Types of schemas are given with their use (typify follows those references itself); C96 does without this. Guarded: references without `%` and `~`. Conversely (references that name components of their kind), what was accepted had all references resolved: results do not change when more calls are allowed. Refuted: references to other documents or sections, escaped references |
| C84 | `Spec/Paging.lean`: a server as a function from tokens to pages or errors, the chain of its pages, the values for the page of a token. `Props/Paging.lean`: the server reads requests with the reader of C70 (`Provides`, `Shows`) and answers with replies as in C8; the client is the whole of the streams and the list command as modelled for C32, C33 and C81. | The request for each token is read by the server as that token (C70 and C33), so each answer of the chain is what the stream gets; a stream run to the end of its answers gives out their elements (`stream_drains`). Requests for later pages exist if the first does (`issues_later`). Guards: those of C70 for values, bodies and headers; hooks that let requests and replies pass unchanged. |
| C85 | `Spec/Accepted.lean`: which parameters count, which bodies, paths, responses and methods are supported, stated on the document alone; `Model/Doc.lean` `generate` with everything below it | each step succeeds iff its part is supported: maps keyed by name (last one wins), sorting of parameters (panics only if two path parameters meet), the stable sort of responses (its last element decides whether the default is dropped), kinds of bodies. The check for websocket and pagination together follows from the responses. Types are given, so failures of schema conversion and of typify are outside; that the generated code compiles is C60 to C64 |
| C86 | `Spec/Compiles.lean`: what a document has to avoid beyond C85 for its client to compile, stated on the document alone (with pagination as `Paged`); whether code compiles is as in `Model/Exec.lean` (`noCompile`), `Model/Builder.lean` (`structOk`), `Model/Stream.lean` (scopes of the closures) and `Model/Doc.lean` (`namesOk`) | equivalences for one method, one builder, one stream of each style, for being paginated and for names, put together over the operations of a document with C85. Rust's rules are those that the model has: names in one scope, shadowing, argument types, functions that `reqwest::Client` has; what is checked inside of typify's output is outside. The builder theorem uses that a value converted to its builder and back is the value |
| C87 | `Model/MockDoc.lean`: `Generator::httpmock` for a document, and what it takes for its output to compile: names, format strings made from paths, `to_string` for path and query parameters, and that `json_body_obj` of httpmock takes a reference (typify passes structs, lists and maps by reference, strings as `&str`, numbers, `()` and plain enums by value). How values of a type are passed and whether they have `to_string` is a table (`MockTypes`), quantified over. `Spec/MockDoc.lean` has the conditions on the document | processing succeeds iff the parts are understood (`understood_iff`, weaker than C85, as mocks do not need one type per outcome), statuses have methods iff they have names in HTTP, format strings have one argument iff the parameter is in the path once, struct names are injective in the stem before `When` and `Then`; put together over the operations. The mocks of two test documents, which the repository leaves out of its compile test (`tests/output/src/lib.rs`), are those with values passed to `json_body_obj` |
| C88 | `Model/CliDoc.lean`: `Generator::cli` for a document, over `Model/Cli.lean`, and which method of the client a command calls (`callee`: `into` and `try_into` of the standard prelude, then inherent methods, then those of the traits for tags and of `Clone` and `ToOwned`). What types have (`CliTypes`: parser, `FromStr`, properties, `Option`) is a table, quantified over. That types have `Serialize`, `JsonSchema` and `Debug` for the reports is left out, that the builder of a body has a setter for each property is taken for granted, and the path of the client crate is taken to parse. `Spec/CliDoc.lean` has the conditions on the document | flags of a command are those of the parameters of the document and of properties (`command_flags`, `commandFlag_iff`), `extract_types` succeeds iff the listed kinds agree (`kinds_iff`), names as in C69 and C65; put together over the operations as for C87 |
| C89 | `Model/DocText.lean`: the texts of comments on methods, `send`, `stream`, builders, traits and the client, and the way of summaries and descriptions from the document to them. How `rustdoc` renders them is not modelled; `Spec/DocText.lean` has a reader of comments that knows nothing of the generator (lines, items, announcements, calls of the example, link definitions), and theorems compare what it reads with the method | the lines of comments are computed (`comment_lines`, `example_lines`) and read back; texts follow parameters through the sorted map and the sort (`C89_texts`, `C89_descriptions`); the example is run through the model of builders (C31), links are compared with the traits of C51 |
| C90 | nothing new; `Spec/Evolve.lean` says what it is for an operation to have further optional parameters (`Grown`, on the parameters as written in the document), for arguments to have `None` in the new places (`ArgsGrown`) and for a document to have some of the operations of another (`Part`) | the parameters of the old method are those of the new one without the new ones, because order (C14) and names determine the list (`grown_params`); variables that hold `None` add no header and no query pair, and an untouched query stays (`growth_build`); builders with untouched fields run in step (`growth_builder`); operations by C66, C85 and C86; responses by C72. `C90_bare_fails`, `C90_names_fails` and `C90_undocumented_fails` show that the conditions are needed |
| C91 | nothing new; `Spec/EvolveCli.lean` says which flags of the body are in use before (`FlagsFree`, on the document) and that no new parameter is needed for the first page (`FirstPageOld`) | streams: two machines whose states are related stay in step, for every combinator that streams are made of (`unfold_rel`, `flatten_rel`, `chain_rel`, `run_rel` …), applied to requests that differ in untouched fields (`Spread`); `C91_builder`, `C91_positional`. Commands: the flags of the old command are flags of the new one with the same meaning, and the others are optional (`ArgsAlike`), so that the same words match in the same way (`alike_matches`) and lead to the same calls (`alike_calls`); `C91_words`, `C91_command`, `C91_list`. `C91_flags_fails` and `C91_first_fails` show that the two conditions are needed |
| C92 | nothing new; `Spec/Separate.lean` says that two calls agree in the arguments of one kind (`SameFor`) and that the URL has no question mark of its own (`NoQueryInUrl`) | `Props/Separate.lean`: each part of the request is a function of the arguments of its kind (through `operands` and `buildWith`), then the pieces of one query parameter, header and path segment; `C92_query_fails`, `C92_segments_fails` for the limits |
| C93 | `Model/Generator.lean`: the flags of `Generator` threaded through `process_operation`, `positional_method`, `builder_struct`, `generate_tokens`, `cli` and `httpmock`, with the statements at which they are set; a failing call keeps what was set before | `Props/Generator.lean`: the flagged run is the run of `Model/Doc.lean` plus a set of flags (`Adds`), computed exactly; by induction on the calls; `C93_single` is C52 without its assumption about the flags |
| C94 | nothing new: the server of `Exec` is a mock server (`MockServer`) over the mocks of `Model/Mock.lean` | `Spec/MockedList.lean`: `PageChain`, the pages and their tokens; `Props/MockedList.lean`: C75 for each page, joined by `Followed` of C81, and C31, C68, C79 for builders and words; `C94_token_fails` for the mock without a filter on the token |
| C95 | `Model/Schema.lean`: `metadata` and `extensions` of schemas, `reduce`, and how `oneof_nullable_wrapper` moves them | `Spec/SchemaNotes.lean`: steps from a schema to its parts, on both sides, and which parts are at the same place; `Props/SchemaNotes.lean`: the parts of a converted schema are the converted parts (`conv_core`), then by induction along the path; `Spec/SchemaPlain.lean`, `Props/SchemaPlain.lean`: removing all annotations commutes with conversion |
| C96 | `Model/Typed.lean`: documents with schemas where `Model/Doc.lean` has types; the generator with the type space it changes, typify as any `Library` (`add_type_with_name`, `add_ref_types`, `get_type`); `item` in the order of the code, with at most `n` calls per reference | `Spec/Typed.lean`: the calls a document asks for, and the document with the answers in place of schemas, as relations. `Props/Typed.lean` reads them off a successful run, `Props/TypedExact.lean` shows that whenever they exist there is such a run (`C96_iff`), `Props/TypedUse.lean` follows the types to arguments, bodies and responses and their values (with C45). `LawfulTypes` is assumed of typify: types do not change, and the types that are returned or mentioned are there |
| C97 | nothing new: `Typed.generate` (C96), `conv` (C45), `call` (C25, C72). `Spec/TypedReply.lean`: the response described for a status, the schema of its first JSON media type, what it means that deserialization reads (`ReadsTypes`) and serialization writes (`WritesTypes`) the values of types | `Props/TypedReply.lean`: each operation has the method and code made from it, in order; the type of the response of a status is that asked for with its schema (C96), the treatment of the status decodes with this type (C72), and its values are those that the schema has after conversion (`RightTypes`, `C45_exact`), so `C97_reply` and `C97_body`. Guarded: schemas that keep their meaning (`Faithful`); refuted without. Hooks only look on. Assumed of typify and serde: `RightTypes`, `ReadsTypes`, `WritesTypes` |
| C98 | nothing new. `Spec/Conforming.lean`: an answer keeps to the document (`KeepsDocument`): a response is described for its status and, if it has JSON, the body is as the schema says; the caller gets the answer (`HandedOver`) or an error that says what is wrong (`Surprised`) | `Props/Conforming.lean`: for each status the document decides the kind of the response, also where it has no JSON or is not described (`treats_described`); the outcomes of the client (C72) are then compared with the answer, in both directions (`C98_conforming_iff`). `C98_conforming_partial` is the same for the schemas as the document has them, guarded by `Faithful` (C97_reply_fails refutes it without). Statuses other than 2xx, 4xx, 5xx and websockets are left out (C72 has them); hooks only look on |
| C99 | `Model/CliHelp.lean`: the loop of `Model/Cli.lean` with the help of each flag, `about` and `long_about`; descriptions of properties come from typify | `Props/CliHelp.lean`: without texts it is the loop of C39 (`cliHelps_bare`); entries are followed through the loop (`paramHelps_entries`, `propHelps_entries`), which gives the flags with their texts exactly (`C99_flags_iff`), and C89 leads on to the document |
| C100 | nothing new: `Typed.generate` (C96), `conv` (C45), requests (C17 to C21). `Spec/FormStyle.lean`: decimal numbers, the JSON value of what is serialized (the data model of serde as serde_json writes it; byte strings, and floats that are no numbers, have none), the styles `form` and `simple` of OpenAPI, what a server reads for a parameter | `Props/FormStyle.lean`: what an argument stands for in a query (C11) is its JSON value in style `form` (`means_form`); effective parameters of the document with schemas are those of the one with types; C70 for what is read, C96 for the types, C45 for the schemas. That types are displayed as they are serialized is a hypothesis on arguments in paths and headers; `C100_display_fails` is what happens otherwise (as with times of chrono, which are displayed as `2020-01-01 00:00:00 UTC`) |
| C101 | nothing new: the method body (C17 to C22), `queryPairs` (C08 to C11), headers (C18). Said of a call in `Props/Sent.lean`: the first header that cannot be sent, a value that is no form, a URL, query or JSON that cannot be made | `Props/Sent.lean`: `C101_outcome` is a complete case distinction: for each call that compiles (C86), exactly what it returns and that the history is unchanged, or the request that is performed; `C101_sent_iff` is the exact condition for a request. `C101_builder` puts builders before this: the first parameter without a value, or the method with the values (from C30 and C31). Which values can be sent in a query or as a form is said by `QueryOf` and `FormOf` (`Spec/QueryExact.lean`), for all values of the serde data model. Which texts are URLs is a parameter of the model |
| C102 | nothing new: `process_operation` and `method_sig_body` for one operation (C14 to C29, C85) with the way each of their steps fails: `Res.err` is an `Err`, `Res.panic` a panic | `Spec/Errors.lean` says which parameters, bodies, paths and extensions are reported; `Props/Errors.lean`: `C102_error_iff` is the exact condition for an error, with the order in which deficiencies are found, and `C102_panic_iff` that for a panic, by C85. `C102_document_iff` and `C102_document_panic_iff` are the same for whole documents. Hypothesis `PropsDistinct`: no struct of typify has two properties of one name. The texts of the errors are not part of the claim |
| C103 | nothing new: command lines (C79), commands (C40), methods (C17 to C22), `Typed.generate` (C96), `conv` (C45). `Spec/TypedLine.lean`: `FlagArrives` says what is read for a parameter in terms of the words | `Props/TypedLine.lean`: the events of a command are those of the positional method with the values of the words (C79, C40); the values are values of the types if the parsers, files and builders give those (`ReadersTyped`, a hypothesis about clap, serde and typify); then C100 for parameters, C19 and C96 for the body. Guards as in C100 (`SWireReady`, `Recoverable`, `BaseUrl`); paginated commands are those of C105. `Props/TypedForms.lean`: form bodies, by C100; other bodies have no schema to follow |
| C104 | nothing new: builders (C30, C31), methods (C17 to C22), `Typed.generate` (C96), `conv` (C45). `Spec/TypedBuilder.lean`: `SetterArrives` says what is read for a parameter in terms of the setter calls | `Props/TypedBuilder.lean`: if a request is sent, all parameters have values and the request is that of the positional method (C101); the values are values of the types if what setters are given and what builders of types make is (`SettersTyped`, a hypothesis about callers, serde and typify); then C100 for parameters, C19 and C96 for the body. Guards as in C100. `Props/TypedForms.lean`: form bodies, by C100; other bodies have no schema to follow |
| C105 | nothing new: streams (C32), later requests (C84), `Typed.generate` (C96), `conv` (C45). `Spec/TypedPages.lean`: `PageArrives` says what is read from the request for the page of a token, `TokenOf` where tokens come from | `Props/TypedPages.lean`: by induction on the pages followed, each request sent is a request of the method, with the arguments for the first page and with `laterValue` of a token that came with an earlier page for others; these values are values of the types if the arguments and the tokens are (`ValuesTyped`, `TokensTyped`, hypotheses about serde, typify and servers); then C100 for each request. `Props/TypedStreams.lean`: the calls in every run of the streams of both interfaces and of list commands follow the tokens in this way, so the same holds for their requests, however far they are read. Guards as in C100 and C84 |

## Checking the theorems

`seeded/LOG.jsonl` has one line per edit of a model definition that was tried, with the
theorems that then fail. The field `outcome` says `caught`, `survived` (every theorem still proves),
`model does not compile` (says nothing about the theorems) or that the build gave no verdict.
Until late in the work only caught edits were written down: lines without `outcome` are all caught,
and the 26 other attempts whose results had been kept were added afterwards (field `note`). Some
early results were not kept; those edits were tried again. So the share of caught edits among
the lines without `outcome` says nothing. A survivor that was dealt with has a later line
for the same edit, with the new theorems under `tightened`; a survivor without one is an edit
that no theorem notices; its `note` says why (mostly, that the edited model describes the same programs).
Edits whose build ran out of memory were tried again without the examples that had to be refuted.
