{"id": "C01", "title": "Path templates: exact acceptance", "statement": "An OpenAPI path string is accepted by the generator exactly when it starts with '/', every '{' opens a parameter closed by the next '}', no parameter name contains '/' or '{', and no '}' occurs outside a parameter; everything else is an error, never a panic.", "quantifier": "all strings (any Unicode characters, any length)", "why_tests_cant": "The set of path strings is infinite; a test suite can only sample accepted and rejected strings and the parser is a hand-written state machine whose corner states are easy to miss.", "anchors": ["progenitor-impl/src/template.rs: parse"]}
{"id": "C02", "title": "Path templates: faithful round trip", "statement": "Printing an accepted path template gives back the original path with runs of '/' collapsed to a single '/', the parameter names are exactly the brace groups of the path in order, and re-reading the printed form gives the same template.", "quantifier": "all accepted path strings", "why_tests_cant": "Equality must hold for every interleaving of constants, parameters and slash runs.", "anchors": ["progenitor-impl/src/template.rs: parse, names, to_string"]}
{"id": "C03", "title": "URL construction", "statement": "The URL a generated method requests is the client's base URL, followed by the operation's path with each {name} replaced by the percent-encoding of the argument supplied for that parameter (looked up by API name), and nothing else.", "quantifier": "all base URLs, accepted path templates, parameter renamings and argument values", "why_tests_cant": "The generated format string is interpreted by a second language (format!), so agreement must be shown for every template, not the handful in the sample documents.", "anchors": ["progenitor-impl/src/template.rs: compile", "progenitor-client/src/progenitor_client.rs: encode_path", "progenitor-impl/src/method.rs: method_sig_body"]}
{"id": "C04", "title": "Percent-encoding of path arguments is lossless", "statement": "Percent-decoding an encoded path argument returns exactly the original bytes; encoding is injective, distributes over concatenation, emits only printable ASCII outside the reserved set, and leaves strings of unreserved characters unchanged.", "quantifier": "all argument strings (all byte sequences)", "why_tests_cant": "Round trip over all byte strings cannot be enumerated.", "anchors": ["progenitor-client/src/progenitor_client.rs: PATH_SET, encode_path"]}
{"id": "C05", "title": "Path arguments cannot change the URL structure", "statement": "Whatever string is passed for a path parameter, after standard URL parsing the request path has the same number of segments as the template, the segment holding the parameter decodes to the argument, and no query or fragment is introduced.", "quantifier": "all argument strings, all templates with at most one parameter per segment, with or without text around it", "why_tests_cant": "An injection property: must hold for every adversarial argument.", "anchors": ["progenitor-client/src/progenitor_client.rs: PATH_SET, encode_path", "progenitor-impl/src/template.rs: compile"]}
{"id": "C06", "title": "Different path arguments give different URLs", "statement": "For a template whose parameters are separated by '/', two different argument tuples never produce the same URL, and the arguments can be recovered from the URL by the server.", "quantifier": "all templates with at most one parameter per segment, with or without text around it, all pairs of argument tuples", "why_tests_cant": "A two-run injectivity property over unbounded strings.", "anchors": ["progenitor-impl/src/template.rs: compile", "progenitor-client/src/progenitor_client.rs: encode_path"]}
{"id": "C07", "title": "Scalar query parameters", "statement": "A scalar query argument (bool, integer, float, char, string, unit enum variant, or Some of these) contributes exactly one name=value pair carrying the API name and the value's text.", "quantifier": "all parameter names and all scalar values", "why_tests_cant": "Ranges over the whole serde data model and all strings.", "anchors": ["progenitor-client/src/progenitor_client.rs: QueryParam, QuerySerializer"]}
{"id": "C08", "title": "Array query parameters", "statement": "A sequence-valued query argument contributes one pair per element, in order, each under the parameter's API name (elements that are None contribute nothing); no element is lost, duplicated or reordered.", "quantifier": "all parameter names, all sequences of scalars of any length", "why_tests_cant": "Unbounded sequence length.", "anchors": ["progenitor-client/src/progenitor_client.rs: QuerySerializer::serialize_seq, QuerySeq"]}
{"id": "C09", "title": "Object query parameters", "statement": "A struct-, map- or enum-object-valued query argument contributes exactly one pair per present field, under the field's own name, in field order; fields that are None are omitted.", "quantifier": "all objects with scalar fields", "why_tests_cant": "Unbounded set of shapes.", "anchors": ["progenitor-client/src/progenitor_client.rs: QuerySerializer::serialize_struct, serialize_map, serialize_newtype_variant"]}
{"id": "C10", "title": "Absent optional query parameters leave no trace", "statement": "Passing None for any subset of optional query parameters yields the same query string as if the operation did not declare these parameters; with no pair at all there is no '?' component.", "quantifier": "all operations, all subsets of absent parameters, all values of the rest", "why_tests_cant": "Exponentially many subsets, unbounded values.", "anchors": ["progenitor-client/src/progenitor_client.rs: QuerySerializer::serialize_none", "progenitor-impl/src/method.rs: method_sig_body"]}
{"id": "C11", "title": "Transparent newtypes in the query", "statement": "Wrapping a query argument in a newtype struct does not change what is sent: the pair still carries the parameter's name and the inner value.", "quantifier": "all values of the serde data model", "why_tests_cant": "Ranges over every wrapped value shape.", "anchors": ["progenitor-client/src/progenitor_client.rs: QuerySerializer::serialize_newtype_struct"]}
{"id": "C12", "title": "Query strings decode to what was passed", "statement": "The server's application/x-www-form-urlencoded decoding of the generated query string is exactly the list of pairs contributed by the parameters, in order, whatever reserved characters names and values contain.", "quantifier": "all lists of name/value pairs", "why_tests_cant": "Injection property over unbounded strings.", "anchors": ["progenitor-client/src/progenitor_client.rs: QueryParam", "progenitor-impl/src/method.rs: method_sig_body"]}
{"id": "C13", "title": "Operation-level parameters override path-level ones", "statement": "The parameters of a generated method are those of the path item together with those of the operation, an operation parameter replacing exactly the path-item parameter with the same name and location; none is lost or duplicated.", "quantifier": "all parameter lists", "why_tests_cant": "All combinations of two lists of parameters.", "anchors": ["progenitor-impl/src/util.rs: parameter_map", "progenitor-impl/src/method.rs: process_operation"]}
{"id": "C14", "title": "Parameter order of generated methods", "statement": "Generated methods take path parameters first, in the order they occur in the path, then query parameters alphabetically, then header parameters alphabetically, then the body; exactly the declared parameters occur, whatever order the document lists them in.", "quantifier": "all parameter lists and templates", "why_tests_cant": "All permutations of unbounded lists.", "anchors": ["progenitor-impl/src/method.rs: sort_params, process_operation"]}
{"id": "C15", "title": "Parameter comparison is a strict weak order", "statement": "The comparison used to order parameters is antisymmetric and transitive, so the standard library sort neither panics nor returns an unspecified order.", "quantifier": "all pairs and triples of parameters", "why_tests_cant": "Algebraic law over all triples.", "anchors": ["progenitor-impl/src/method.rs: sort_params"]}
{"id": "C16", "title": "Hygiene of generated methods", "statement": "No local variable introduced by a generated method has the name of one of its parameters (so that no parameter is shadowed), whatever the parameters are called; the search for fresh names always terminates.", "quantifier": "all sets of parameter names", "why_tests_cant": "All sets of names, termination included.", "anchors": ["progenitor-impl/src/util.rs: unique_ident_from", "progenitor-impl/src/method.rs: method_sig_body, builder_struct"]}
{"id": "C17", "title": "Header parameters", "statement": "A request carries every required header argument and every optional one that is Some, under its API name with its text, and nothing for those that are None; the api-version header is always present with the document's version.", "quantifier": "all header parameter lists and argument values", "why_tests_cant": "Unbounded lists and values.", "anchors": ["progenitor-impl/src/method.rs: method_sig_body", "progenitor-impl/src/lib.rs: generate_tokens"]}
{"id": "C18", "title": "Invalid header values fail before any effect", "statement": "If any header argument is not a legal header value, the call returns InvalidRequest and no hook is run and no request is sent.", "quantifier": "all header lists and values", "why_tests_cant": "All values; absence of effects.", "anchors": ["progenitor-impl/src/method.rs: method_sig_body", "progenitor-client/src/progenitor_client.rs: From<InvalidHeaderValue>"]}
{"id": "C19", "title": "Request bodies", "statement": "An operation with a body sends exactly one body, encoded and labelled by the declared content type (JSON, form, octet-stream, text); an operation without a body sends none. Media-type parameters after ';' do not change the choice.", "quantifier": "all operations, all content-type strings, all bodies", "why_tests_cant": "All strings.", "anchors": ["progenitor-impl/src/method.rs: BodyContentType, get_body_param, method_sig_body", "progenitor-client/src/progenitor_client.rs: form_urlencoded"]}
{"id": "C20", "title": "End-to-end request fidelity", "statement": "Decoding the request a generated method sends - path by the template, query by form decoding, headers by name - gives back every argument of the call.", "quantifier": "all operations with well-formed templates and all arguments", "why_tests_cant": "Composition over every operation and all argument values.", "anchors": ["progenitor-impl/src/method.rs: method_sig_body", "progenitor-impl/src/template.rs: compile", "progenitor-client/src/progenitor_client.rs: QueryParam, encode_path"]}
{"id": "C21", "title": "At most one request per call", "statement": "A call of a generated (non-stream) method sends at most one HTTP request, and sends none if it fails locally (bad header, unserializable query or body, failing pre-hook).", "quantifier": "all operations, arguments, hook behaviours and server behaviours", "why_tests_cant": "All hook and server behaviours.", "anchors": ["progenitor-impl/src/method.rs: method_sig_body"]}
{"id": "C22", "title": "Hook protocol", "statement": "Configured hooks run in order pre, async pre, request, post, async post, each exactly once; an async pre-hook error prevents the request and all later hooks; the request sent is the one left by the async pre-hook; an async post-hook error wins over the server's answer.", "quantifier": "all hook configurations and behaviours", "why_tests_cant": "All behaviours of user code.", "anchors": ["progenitor-impl/src/method.rs: method_sig_body", "progenitor-impl/src/lib.rs: GenerationSettings"]}
{"id": "C23", "title": "Every status code is handled", "statement": "For every response set the generator accepts, the generated dispatch has a branch for each 16-bit status code, and its answer for a code does not depend on the order in which the document lists responses.", "quantifier": "all response sets, all status codes, all document orders", "why_tests_cant": "All combinations of sets and codes.", "anchors": ["progenitor-impl/src/method.rs: method_sig_body, extract_responses"]}
{"id": "C24", "title": "Success is only reported for success statuses", "statement": "A generated method returns Ok only if the response status is 101 or 2xx and the document covers it by that code, its range, or a default response (or the document has no success response at all).", "quantifier": "all response sets and status codes", "why_tests_cant": "All response sets.", "anchors": ["progenitor-impl/src/method.rs: method_sig_body, extract_responses, OperationResponseStatus"]}
{"id": "C25", "title": "Documented errors and unexpected statuses", "statement": "A 4xx/5xx status covered by a documented code, range or default is returned as ErrorResponse with that status; any status covered by nothing is returned as UnexpectedResponse carrying the response; neither is ever reported as Ok.", "quantifier": "all response sets and status codes", "why_tests_cant": "All response sets.", "anchors": ["progenitor-impl/src/method.rs: method_sig_body, extract_responses"]}
{"id": "C26", "title": "Websocket operations", "statement": "A websocket operation returns Ok only for status 101; every other status is an error; generation succeeds for every websocket operation with documented JSON errors.", "quantifier": "all response sets of websocket operations, all statuses", "why_tests_cant": "All response sets.", "anchors": ["progenitor-impl/src/method.rs: process_operation, extract_responses, method_sig_body", "progenitor-client/src/progenitor_client.rs: upgrade"]}
{"id": "C27", "title": "Response accessors are faithful", "statement": "status and headers reported by a ResponseValue (after map or conversion to untyped errors) are those of the HTTP response; a body that does not deserialize is returned as InvalidResponsePayload with the raw bytes; Error::status is Some exactly for errors that stem from a response with a status.", "quantifier": "all responses, all sequences of map / into_untyped", "why_tests_cant": "All responses and compositions.", "anchors": ["progenitor-client/src/progenitor_client.rs: ResponseValue, Error"]}
{"id": "C28", "title": "content_length", "statement": "content_length is Some(n) exactly when the Content-Length header is present with a visible-ASCII decimal numeral (optional '+') of value n below 2^64.", "quantifier": "all header values", "why_tests_cant": "All byte strings, overflow included.", "anchors": ["progenitor-client/src/progenitor_client.rs: ResponseValue::content_length"]}
{"id": "C29", "title": "Builder: last setting wins", "statement": "The request sent by a builder depends only on the last call of each setter; calls of different setters commute; a failed conversion is forgotten once the parameter is set again.", "quantifier": "all sequences of setter calls", "why_tests_cant": "All histories.", "anchors": ["progenitor-impl/src/method.rs: builder_struct"]}
{"id": "C30", "title": "Builder: missing or invalid parameters", "statement": "send() on a builder where some required parameter was never set (a body that has a builder of its own counts as set to that builder's default), or some last conversion failed, returns InvalidRequest with the reason for the first such parameter in signature order - naming the parameter, unless the reason comes from an incomplete body builder - and sends nothing; otherwise it does what the positional method does.", "quantifier": "all setter histories", "why_tests_cant": "All histories.", "anchors": ["progenitor-impl/src/method.rs: builder_struct"]}
{"id": "C31", "title": "Builder and positional interfaces agree", "statement": "A builder whose parameters have all been set issues the same request and returns the same result as the positional method with the same arguments.", "quantifier": "all operations, arguments, hooks, servers", "why_tests_cant": "Two-program equivalence.", "anchors": ["progenitor-impl/src/method.rs: builder_struct, positional_method, method_sig_body"]}
{"id": "C32", "title": "Pagination stream yields all items in order", "statement": "The stream of a paginated operation yields exactly the items of the pages obtained by following next_page tokens from the first page, in order, without loss or duplication, however many pages are empty.", "quantifier": "all servers (including stateful ones), all page contents", "why_tests_cant": "All page histories, unbounded length.", "anchors": ["progenitor-impl/src/method.rs: positional_method, builder_struct"]}
{"id": "C33", "title": "Pagination requests", "statement": "The first page is requested with the caller's arguments; each later page is requested with the token of the preceding page, the same limit, the same path/header arguments and no other query argument.", "quantifier": "all servers and argument values", "why_tests_cant": "All histories.", "anchors": ["progenitor-impl/src/method.rs: positional_method, builder_struct"]}
{"id": "C34", "title": "Pagination termination and errors", "statement": "After a page without token or after the first error no further request is made; an error is yielded exactly once, as the last element, after all items of the preceding pages.", "quantifier": "all servers", "why_tests_cant": "All histories and failure points.", "anchors": ["progenitor-impl/src/method.rs: positional_method, builder_struct"]}
{"id": "C35", "title": "Pagination is lazy", "statement": "Polling a stream for n elements requests no page beyond the one that supplies the n-th element; creating the stream requests nothing.", "quantifier": "all servers, all n", "why_tests_cant": "All schedules of polls.", "anchors": ["progenitor-impl/src/method.rs: positional_method, builder_struct"]}
{"id": "C36", "title": "Pagination: builder and positional streams agree", "statement": "Builder stream() and positional _stream() yield the same elements and make the same requests for the same arguments when no page token was set.", "quantifier": "all servers and arguments", "why_tests_cant": "Two-program equivalence.", "anchors": ["progenitor-impl/src/method.rs: positional_method, builder_struct"]}
{"id": "C37", "title": "Only conforming operations are paginated", "statement": "A stream method is generated only for operations with the pagination extension, optional page_token and limit query parameters, no other required query parameter, no raw body, and exactly one typed success response whose type has just items (array) and next_page (optional string).", "quantifier": "all operations", "why_tests_cant": "All operations.", "anchors": ["progenitor-impl/src/method.rs: dropshot_pagination_data"]}
{"id": "C38", "title": "CLI list output", "statement": "A CLI list command reports list_start, then the first `limit` items of the stream in order, then exactly one of list_end_success or list_end_error; it reports failure exactly if an error occurs among the first `limit` elements.", "quantifier": "all streams, all limits", "why_tests_cant": "All streams.", "anchors": ["progenitor-impl/src/cli.rs: cli_method"]}
{"id": "C39", "title": "CLI arguments cover every required input", "statement": "Each parameter other than the body (and page_token of paginated operations) has exactly one flag, required exactly when the parameter is; every required body property has a flag or else the JSON body option is required.", "quantifier": "all operations", "why_tests_cant": "All operations.", "anchors": ["progenitor-impl/src/cli.rs: cli_method_args, CliOperationArgs"]}
{"id": "C40", "title": "CLI body precedence", "statement": "If a JSON body file is given, the body sent is that file's content whatever body flags are given; otherwise it is the default body updated by the flags given.", "quantifier": "all flag combinations and values", "why_tests_cant": "All combinations.", "anchors": ["progenitor-impl/src/cli.rs: cli_method_args"]}
{"id": "C41", "title": "Sanitized names are valid identifiers", "statement": "For every input string the name generated for a method, parameter or type is a non-empty legal Rust identifier that is not a keyword.", "quantifier": "all strings", "why_tests_cant": "All strings.", "anchors": ["progenitor-impl/src/util.rs: sanitize"]}
{"id": "C42", "title": "Name sanitization is idempotent", "statement": "Sanitizing an already sanitized snake-case name does not change it, so the CLI dispatcher refers to the functions that are defined.", "quantifier": "all strings", "why_tests_cant": "All strings.", "anchors": ["progenitor-impl/src/util.rs: sanitize", "progenitor-impl/src/cli.rs: cli"]}
{"id": "C43", "title": "Operations get distinct method names", "statement": "Two operations of an accepted document have different method names.", "quantifier": "all pairs of operation ids", "why_tests_cant": "All pairs of strings.", "anchors": ["progenitor-impl/src/lib.rs: validate_openapi", "progenitor-impl/src/util.rs: sanitize", "progenitor-impl/src/method.rs: process_operation"]}
{"id": "C44", "title": "Document validation", "statement": "A document is accepted by validation exactly when its version (ignoring surrounding blanks) starts with 3.0., no path item is a reference, every operation has an operationId and the operationIds are pairwise different.", "quantifier": "all documents", "why_tests_cant": "All documents.", "anchors": ["progenitor-impl/src/lib.rs: validate_openapi, validate_openapi_spec_version"]}
{"id": "C45", "title": "Schema conversion preserves validity", "statement": "A JSON value is valid for an OpenAPI schema exactly when it is valid for the JSON schema it is converted to.", "quantifier": "all schemas (arbitrary nesting, references included) and all JSON values", "why_tests_cant": "Infinite schemas and values.", "anchors": ["progenitor-impl/src/to_schema.rs: Convert impls"]}
{"id": "C46", "title": "Nullable schemas accept null", "statement": "A nullable schema without enumeration accepts null after conversion and otherwise exactly the values accepted without nullable.", "quantifier": "all schemas and values", "why_tests_cant": "Infinite schemas and values.", "anchors": ["progenitor-impl/src/to_schema.rs: oneof_nullable_wrapper, Convert<Schema>"]}
{"id": "C47", "title": "Numeric limits survive conversion", "statement": "minimum, maximum, their exclusive variants, multipleOf, and length / item / property count limits mean the same before and after conversion, whatever their magnitude.", "quantifier": "all limits and values", "why_tests_cant": "All 64-bit values.", "anchors": ["progenitor-impl/src/to_schema.rs: Convert<Schema>"]}
{"id": "C48", "title": "Mock path matching", "statement": "The mock server's path matcher of an operation matches every request path the client can produce for it and no path that is not an instance of the template.", "quantifier": "all templates and all paths", "why_tests_cant": "All strings.", "anchors": ["progenitor-impl/src/httpmock.rs: httpmock_method", "progenitor-impl/src/template.rs: as_wildcard"]}
{"id": "C49", "title": "Mock parameter filters", "statement": "A mock restricted to given path and query values matches the request a client makes with exactly these values.", "quantifier": "all operations and values", "why_tests_cant": "All strings.", "anchors": ["progenitor-impl/src/httpmock.rs: httpmock_method", "progenitor-impl/src/template.rs: as_wildcard_param"]}
{"id": "C50", "title": "Mock responses stay in their class", "statement": "A mock response built by a status-class method has a status of that class and is classified by the client accordingly.", "quantifier": "all statuses", "why_tests_cant": "All 16-bit values times all response sets.", "anchors": ["progenitor-impl/src/httpmock.rs: httpmock_method"]}
{"id": "C51", "title": "Tags partition the operations", "statement": "With separate tag interfaces every operation is exposed by the base client exactly if it has no tag and by the extension trait of each of its tags otherwise; traits contain nothing else.", "quantifier": "all documents", "why_tests_cant": "All documents.", "anchors": ["progenitor-impl/src/method.rs: builder_tags", "progenitor-impl/src/lib.rs: builder_separate"]}
{"id": "C52", "title": "Generated crate dependencies", "statement": "The dependency list written for a generated crate is sorted, duplicate-free, and contains every crate the generated code uses (futures for pagination, base64 and rand for websockets, ...).", "quantifier": "all feature combinations and all operation lists", "why_tests_cant": "Combination of all operation lists with all settings.", "anchors": ["cargo-progenitor/src/main.rs: dependencies", "progenitor-impl/src/lib.rs: uses_futures, uses_websockets"]}
{"id": "C53", "title": "Macro trait-impl lists", "statement": "For a replaced or converted type the set of implied traits is {FromStr, Display} changed by the listed modifiers, the last mention of a trait deciding.", "quantifier": "all modifier lists", "why_tests_cant": "All lists.", "anchors": ["progenitor-macro/src/token_utils.rs: into_name_and_impls"]}
{"id": "C54", "title": "Macro crate specifications", "statement": "A crate specification 'orig@version' or 'version' is split at the first '@'; the resulting configuration does not depend on the order in which crates are listed.", "quantifier": "all strings, all orders", "why_tests_cant": "All strings and permutations.", "anchors": ["progenitor-macro/src/lib.rs: MacroCrateSpec, do_generate_api", "progenitor-impl/src/lib.rs: with_crate"]}
{"id": "C55", "title": "Reference resolution", "statement": "Resolving a component reference follows references until a definition is reached and returns it; resolution terminates for every document.", "quantifier": "all component maps and references", "why_tests_cant": "All reference graphs.", "anchors": ["progenitor-impl/src/util.rs: ReferenceOr::item"]}
{"id": "C56", "title": "Generator does not panic on valid responses", "statement": "For every document whose success responses share one type and whose error responses share one type, response processing succeeds.", "quantifier": "all response sets", "why_tests_cant": "All response sets.", "anchors": ["progenitor-impl/src/method.rs: extract_responses"]}
{"id": "C57", "title": "Formatting only inserts newlines", "statement": "Spacing out items changes the generated source only by inserting newline characters.", "quantifier": "all source strings", "why_tests_cant": "All strings.", "anchors": ["progenitor-impl/src/lib.rs: space_out_items"]}
{"id": "C58", "title": "HTTP methods and media types round trip", "statement": "Parsing the printed form of an HTTP method or body content type gives it back, and only the listed names are accepted.", "quantifier": "all strings", "why_tests_cant": "All strings.", "anchors": ["progenitor-impl/src/method.rs: HttpMethod, BodyContentType"]}
{"id": "C59", "title": "Path parameters occur in the path", "statement": "Every path parameter of an accepted operation occurs in the path template, so that no path argument of a generated method is silently ignored.", "quantifier": "all parameter lists and templates", "why_tests_cant": "the check is a side effect of comparisons made by a sort, so it depends on the number and order of parameters", "anchors": ["progenitor-impl/src/method.rs:sort_params", "progenitor-impl/src/method.rs:process_operation"]}
{"id": "C60", "title": "Generated method bodies are well formed", "statement": "For every operation the generator accepts, the generated method body has a meaning for all arguments of the declared types: every identifier resolves to the parameter it stands for, the format string fits its arguments, the called reqwest method exists and the match on the status is exhaustive.", "quantifier": "all operations, all arguments, all servers", "why_tests_cant": "Generated code is only compiled for the sample documents.", "anchors": ["progenitor-impl/src/method.rs: method_sig_body, process_operation"]}
{"id": "C61", "title": "JSON is asked for when it will be decoded", "statement": "Unless the caller supplies an Accept header argument, a request carries Accept: application/json exactly when some documented success is decoded as JSON, or successes have no content and some documented error is decoded as JSON; an Accept argument replaces it.", "quantifier": "all operations, all arguments", "why_tests_cant": "Depends on all combinations of documented responses.", "anchors": ["progenitor-impl/src/method.rs: method_sig_body"]}
{"id": "C62", "title": "Builder and positional styles accept the same documents", "statement": "Every operation for which the positional style generates a compiling method also gets a compiling builder: generation does not panic, and parameter names do not clash with the builder's own methods.", "quantifier": "all parameter lists and type assignments", "why_tests_cant": "All combinations of parameter names, kinds and types.", "anchors": ["progenitor-impl/src/method.rs: builder_struct"]}
{"id": "C63", "title": "Streams of paginated operations compile", "statement": "For every operation recognised as paginated, whose method compiles, the generated _stream method compiles for all well-typed arguments.", "quantifier": "all parameter lists and type assignments", "why_tests_cant": "All combinations of parameter names, kinds and types.", "anchors": ["progenitor-impl/src/method.rs: positional_method"]}
{"id": "C64", "title": "Names of generated items do not clash", "statement": "In the code generated for an accepted document the methods of Client, the structs of mod builder, the extension traits and the methods of each trait have pairwise different names, and no struct hides a name that generated code uses.", "quantifier": "all documents, both interface styles, both tag styles", "why_tests_cant": "All sets of operation ids and tags.", "anchors": ["progenitor-impl/src/lib.rs: generate_tokens, generate_tokens_builder_merged, generate_tokens_builder_separate", "progenitor-impl/src/method.rs: positional_method, builder_struct, builder_tags"]}
{"id": "C65", "title": "Operations can be called through the prelude", "statement": "With separate tag interfaces and everything imported from the prelude, client.name() calls the operation `name`.", "quantifier": "all documents and all operations of them", "why_tests_cant": "All sets of operation ids and tags.", "anchors": ["progenitor-impl/src/method.rs: builder_tags", "progenitor-impl/src/lib.rs: generate_tokens_builder_separate"]}
{"id": "C66", "title": "Every operation has one method", "statement": "If generation succeeds, the generated client has exactly one method per operation of the document, in document order, named after its operation id and using its HTTP method and path; both interface styles run the same code for it.", "quantifier": "all documents, both interface styles, both tag styles", "why_tests_cant": "All documents.", "anchors": ["progenitor-impl/src/lib.rs: generate_tokens", "progenitor-impl/src/method.rs: process_operation, method_sig_body"]}
{"id": "C67", "title": "Mock code is generated and its names are distinct", "statement": "For every operation that has client code the mock code is generated as well: generation does not panic, the structs that wrap When and Then have distinct names, and so have the methods of each wrapper.", "quantifier": "all documents; all sets of documented statuses and parameter names", "why_tests_cant": "All status codes, names and sets of operations.", "anchors": ["progenitor-impl/src/httpmock.rs: httpmock, httpmock_method"]}
{"id": "C68", "title": "CLI commands report exactly one result", "statement": "A command for an operation that is not paginated calls exactly one of success_item (typed responses), success_no_item (empty responses) and error, with what the client method returned for the arguments on the command line, and fails exactly if the request failed.", "quantifier": "all operations, command lines, server behaviours", "why_tests_cant": "All operations and outcomes.", "anchors": ["progenitor-impl/src/cli.rs: cli_method"]}
{"id": "C69", "title": "CLI items refer to each other and do not clash", "statement": "The generated CLI items compile together: the functions called by get_command and execute exist, each command calls the functions made for its own operation, and functions and enum variants have distinct names.", "quantifier": "all documents", "why_tests_cant": "All sets of operation ids.", "anchors": ["progenitor-impl/src/cli.rs: cli, cli_ops, cli_method"]}
{"id": "C70", "title": "A server that implements the document understands every request", "statement": "Every request that a generated method sends is accepted by a server that implements the OpenAPI document, for the operation the method was generated from; and for every parameter of that operation (path, query, header) and its body the server reads exactly what the argument of the call says, absent optional parameters not being sent.", "quantifier": "all documents, all operations, all arguments, both interface styles, all servers", "why_tests_cant": "The statement relates every document to every call of every generated method; tests compare generated text for fixed documents.", "anchors": ["progenitor-impl/src/method.rs: process_operation, method_sig_body", "progenitor-impl/src/template.rs", "progenitor-client/src/progenitor_client.rs: encode_path, QueryParam"]}
{"id": "C71", "title": "Different arguments give different requests", "statement": "Two calls of a generated method that send the same request were given arguments with the same texts for each path, query and header parameter, and bodies with the same encoding.", "quantifier": "all documents, all operations, all pairs of calls", "why_tests_cant": "Quantifies over pairs of calls with arbitrary arguments.", "anchors": ["progenitor-impl/src/method.rs: method_sig_body", "progenitor-client/src/progenitor_client.rs: encode_path, QueryParam"]}
{"id": "C72", "title": "A documented reply reaches the caller", "statement": "When a server answers the request of a generated method with a reply that the OpenAPI document describes, the caller gets that reply: a documented success as Ok, a documented error as an error response, each with the value read at the documented type (or the failure to read it), the status and the headers; a failed exchange is a communication error. Composed with C70: if the server answers by a service from what it reads for the parameters, the result of a call is what the service answers to the arguments.", "quantifier": "all documents, all operations, all arguments, all servers and replies, both interface styles", "why_tests_cant": "Relates every document to every reply to every call of every generated method.", "anchors": ["progenitor-impl/src/method.rs: process_operation, extract_responses, method_sig_body", "progenitor-client/src/progenitor_client.rs: ResponseValue"]}
{"id": "C73", "title": "Error messages tell what happened", "statement": "The text of an Error tells its kind whatever it contains (errors of different kinds never have the same text, in any of the forms {}, {:#}, {:?}); it contains the message, status, headers, bytes or response that the error carries; with {:#} it ends in the messages of all causes, outermost first, each once; an untyped error has the same text except for the value of a documented error.", "quantifier": "all errors, all contents, all chains of causes", "why_tests_cant": "Arbitrary messages, values and chains of causes.", "anchors": ["progenitor-client/src/progenitor_client.rs: Display, Debug, source and From of Error"]}
{"id": "C74", "title": "cargo progenitor writes the crate that was asked for", "statement": "If cargo progenitor succeeds, the output directory contains a manifest that TOML reads as the name, version, license and registry given and exactly the dependencies needed, the formatted code generated from the document (with the module declaration and the support code iff asked for), and no other file changed; if the document cannot be read or generation fails, no file changes.", "quantifier": "all documents, arguments, file systems and failures of the operating system", "why_tests_cant": "Arbitrary arguments and failures; the manifest is assembled as text.", "anchors": ["cargo-progenitor/src/main.rs: main, dependencies, load_api, save"]}
{"id": "C75", "title": "Calls against a generated mock get the answer that was set up", "statement": "Let a test set up a mock of an operation on a mock server, expecting values for some of its parameters and answering with a method of Then. A call of the generated client method for the operation with these values sends exactly one request, the mock matches it, and the caller gets the answer: as Ok or as an error response according to its status, with the value that was given to Then. Conversely a call that the mock matches was made with the values it expects.", "quantifier": "for all operations accepted by the generator, arguments, expectations, documented responses, hooks that look on, and mock servers", "why_tests_cant": "Client and mock are generated separately from the document; agreement has to hold for every operation, argument and response, while tests only exercise the samples in the repository.", "anchors": ["progenitor-impl/src/httpmock.rs:112-252", "progenitor-impl/src/httpmock.rs:270-365", "progenitor-impl/src/method.rs:766-1152"]}
{"id": "C76", "title": "Generators run with the settings that were asked for", "statement": "After any sequence of with_* calls on GenerationSettings, generator and type space have exactly the settings the calls say (the last call decides, for maps by key; derives and conversions accumulate). generate_api! accepts an invocation iff it names a document and every option at most once with a readable value, in any order; the settings are the values written and the defaults for all else; a string alone means the same as spec alone; the code comes from the file named (relative to the manifest), JSON or else YAML; other failures are compile errors.", "quantifier": "all sequences of calls, all sets and orders of options, all iteration orders of hash maps, all files", "why_tests_cant": "Combinations of fifteen options and iteration orders that change from run to run; tests use a few fixed invocations.", "anchors": ["progenitor-impl/src/lib.rs:58-305", "progenitor-macro/src/lib.rs:119-398"]}
{"id": "C77", "title": "A client talks to the server it was created for", "statement": "Client::new(url) and Client::new_with_client(url, client), with an inner value iff an inner type is configured, give a client whose accessors return exactly these and the version of the document; new uses a reqwest client with timeouts of 15 seconds (none on wasm32) and panics only if reqwest cannot make one. Every call of every generated method then sends at most one request, to a URL that begins with url, with the version in the api-version header, through the reqwest client of this client; the configured hooks get its inner value. If url is the URL of a server that implements the document, the server understands the request as the call made. Refuted: url with a trailing slash (an empty segment is added, the server does not accept any request), url with a query or fragment (all methods request the same path).", "quantifier": "all documents, settings, URLs, clients, inner values, methods and arguments", "why_tests_cant": "Every combination of base URL, settings and operation; tests use one base URL of a mock server.", "anchors": ["progenitor-impl/src/lib.rs: generate_tokens (struct Client, new, new_with_client, baseurl, client, api_version, inner)", "progenitor-impl/src/method.rs: method_sig_body (inner, hooks)", "progenitor-impl/src/template.rs: compile"]}
{"id": "C78", "title": "Concurrent calls do not disturb each other; dropped calls stop", "statement": "A program makes any number of calls of generated methods, on the same or different clients, polls the futures in any order and drops some of them. A call has no effect before it is first polled. A call that completes has exactly the result and effects (hooks, request) that it has on its own given the answers of its own hooks and the reply to its own request; a value it returns is decoded from the reply to its own request. At every time the effects of a call are the first ones of what it does on its own; it sends at most one request, also if dropped, and nothing after it was dropped or has completed. No call waits for another: each can go on as soon as its own hooks and the server answer, and completes after at most five answers.", "quantifier": "all programs, interleavings, methods, arguments, hooks, replies and points of cancellation", "why_tests_cant": "Schedulers choose interleavings; tests see a few of unboundedly many, and rarely drop futures at every await.", "anchors": ["progenitor-impl/src/method.rs: positional_method, builder_struct (async fn)", "progenitor-impl/src/method.rs: method_sig_body"]}
{"id": "C79", "title": "Commands of the generated command line do what their words say", "statement": "For the words after the name of a command of the generated command line interface: they are accepted exactly if they are arguments of the command (--name value or --name=value), each at most once, with values that can be read, and everything required is there; the values used are those written, in whatever order and form they are written. For enums exactly the names of the variants are accepted. What is not accepted sends nothing, and reading never panics. An override function of CliConfig gets the request made of the words: if it fails nothing is sent and nothing reported, otherwise the request is sent as the override leaves it. A server that implements the document reads exactly the values of the command line, and its documented answer is what is reported. Refuted: values that begin with '-' written as a word of their own are not accepted; a parameter called help clashes with the argument of clap; --json-body-template has no effect.", "quantifier": "all documents and operations, all lists of words, parsers, files, override functions and servers", "why_tests_cant": "Unboundedly many command lines; the tests of the project compare the emitted code with a stored copy and run no command.", "anchors": ["progenitor-impl/src/cli.rs: cli_method, cli_method_args, cli_method_body_arg, clap_arg", "progenitor-impl/src/cli.rs: CliConfig (execute_ functions)"]}
{"id": "C80", "title": "Requests are taken for the operation that was called", "statement": "For every document for which a client is generated and every call of a generated method, a server that implements the document takes the request for the operation the method was generated for: HTTP method and path match it. It can be taken for another operation of the document exactly if that has the same HTTP method and the path, filled in with the arguments, spells its template; in documents whose templates cannot be confused never. With OpenAPI's rule that paths without parameters come first, the called operation is meant exactly if its path has no parameters or the arguments do not spell such a path. Refuted: in a document with /v1/{id} and /v1/mine a call of the first operation with the argument mine is taken for the second; documents with two templates that differ only in the names of parameters are accepted.", "quantifier": "all documents, settings, operations, base URLs, arguments (path arguments that survive URL parsing), servers and hooks that keep the request", "why_tests_cant": "Unboundedly many pairs of templates and arguments; the tests of the project never look at two operations of a document together.", "anchors": ["progenitor-impl/src/template.rs: PathTemplate::compile", "progenitor-impl/src/lib.rs: generate_tokens, validate_openapi", "progenitor-client/src/progenitor_client.rs: encode_path"]}
{"id": "C81", "title": "List commands given as text request and report what their words say", "statement": "For the words after the name of a command of the generated command line interface whose operation is paginated: the first request has the arguments written, every later one has the token of the page before, the same limit, no other query argument, and the arguments written for path and headers; a server that implements the document reads exactly these values, and there is at most one request for each page. What is reported is list_start, then the first items of the pages up to the value of --limit (u32::MAX if it is absent) and then the end, with the error if a request fails; no page is requested once enough items were reported. The command returns whenever the pages end, a request fails or enough items arrive. Words that are not accepted request and report nothing. An override function gets the request before anything is reported; if it fails, nothing is reported or sent. Refuted: if the type of the limit parameter is not NonZeroU32, giving it makes the command panic after reporting list_start.", "quantifier": "all documents and paginated operations, all lists of words, parsers, override functions, servers and hooks, runs of every length", "why_tests_cant": "Unboundedly many command lines, numbers of pages and answers of servers; the tests of the project compare the emitted code with a stored copy and run no command.", "anchors": ["progenitor-impl/src/cli.rs: cli_method (paginated branch)", "progenitor-impl/src/method.rs: dropshot_pagination_data, builder_impl (stream)", "progenitor-client/src/progenitor_client.rs"]}
{"id": "C82", "title": "Names consist of the words of the document's identifiers", "statement": "Every ASCII identifier of a document has exactly one division into words: at characters that are no letters or digits, before a capital letter that follows a small one, and before the last capital letter of a run that is followed by a small one; digits change nothing. The snake-case name made from it (methods, parameters) consists of these words in small letters separated by underscores, the Pascal-case name of the words with a capital first letter, apart from a prefix or suffix where the result would begin with a digit, be empty or be a keyword. So two operation ids collide if and only if they have the same words apart from case, and the method names of a document are different if and only if no two ids do. Refuted: the words plus and minus that stand for a leading + or - get no capital letter in Pascal case.", "quantifier": "all ASCII texts, all pairs of them, all documents with ASCII operation ids", "why_tests_cant": "All pairs of strings; the tests of the project check single names.", "anchors": ["progenitor-impl/src/util.rs: sanitize", "progenitor-impl/src/lib.rs: validate_openapi", "progenitor-impl/src/method.rs: process_operation"]}
{"id": "C83", "title": "References mean what they say", "statement": "A document with references to components (parameters, request bodies, responses, schemas of bodies) is treated like the document in which every reference is replaced by the definition that it denotes: # and a JSON pointer (RFC 6901) into the components of this document, followed as often as needed. The same methods and code are generated, or the same failure is reported; so the client talks to a server that implements the document without references. Every reference denotes at most one definition. Refuted: references to other documents and to other sections are taken for the component of this document that has the same last name, and escapes in a reference are not decoded.", "quantifier": "all documents, all references and components, both interface styles", "why_tests_cant": "All documents and reference graphs; the project's tests use fixed documents with plain references.", "anchors": ["progenitor-impl/src/util.rs: ReferenceOr::item, items, parameter_map", "progenitor-impl/src/method.rs: process_operation, get_body_param", "progenitor-impl/src/lib.rs: generate_tokens"]}
{"id": "C84", "title": "A list that a server provides in pages arrives whole", "statement": "Let a server read the requests of a paginated operation as the document says (path, query, headers as in C70), and let it answer the request without token with the first page and the request with a token with the page of that token. Then following the generated streams gives exactly the list that the server provides: the items of the pages in the order of the server, each once, up to the first error, which is the last element; after the last page the stream ends. One request is sent for each page and none after the last. This holds for the stream of the positional interface, the stream of the builder, and the list command given as text, which reports the first elements of this list up to the limit and then returns. The first request being possible is enough: all later ones then are.", "quantifier": "all documents and paginated operations, all argument values, all servers whatever lists, tokens, errors and page lengths they provide, lists of any length", "why_tests_cant": "Unboundedly many lists, tokens, page sizes and argument values; tokens may contain any character; the client and the server are joined by the text of the requests, which the tests of the project compare with nothing.", "anchors": ["progenitor-impl/src/method.rs: dropshot_pagination_data, positional_method (stream), builder_impl (stream)", "progenitor-impl/src/cli.rs: cli_method (paginated branch)", "progenitor-client/src/progenitor_client.rs: encode_path, QueryParam"]}
{"id": "C85", "title": "Exactly these documents are accepted", "statement": "A client is generated for a document if and only if: the version is 3.0.x, no path item is a reference, every operation has an id and ids differ; separate tags are asked for only in the builder style; and every operation satisfies: (1) every parameter that counts (among parameters of one name, the last of the operation, else the last of the path item) has a schema and is a required path parameter of simple style, a query parameter of form style, or a header; (2) there is no body, or one of a single media type (JSON or form without encodings, bytes with a binary string schema, plain text or markdown with a string schema); (3) the path begins with a slash and its braces pair up (one stray } directly after a parameter is let through), every name in it is that of a path parameter that counts, and if there are several path parameters all of them occur in it; (4) every JSON response has a schema and no encodings, all success responses have the same kind of body and all error responses too, where the default counts as an error, and as a success unless 2XX is documented, no status from 201 to 299 is, and 200 is not documented after 2XX; a response of bytes is added if none covers a success, and 101 for websockets; (5) the method is one of the eight of HTTP; (6) in the builder style no parameter has a struct type, other than the body or a required parameter whose name becomes body. Otherwise generation reports an error or panics.", "quantifier": "all documents, all type spaces, both interface styles, both tag styles", "why_tests_cant": "An equivalence over all documents; tests show single documents that are accepted or refused, not that nothing else is.", "anchors": ["progenitor-impl/src/lib.rs:308-361", "progenitor-impl/src/lib.rs:656-702", "progenitor-impl/src/method.rs:286-549", "progenitor-impl/src/method.rs:766-1204", "progenitor-impl/src/method.rs:1400-1675", "progenitor-impl/src/method.rs:2016-2140", "progenitor-impl/src/method.rs:2227-2289", "progenitor-impl/src/template.rs"]}
{"id": "C86", "title": "Exactly these documents give a client that compiles", "statement": "Let types, and the builders typify makes for them, be given. The generated client, with every call of its operations with arguments of the types in the signatures, compiles if and only if the document is accepted (C85) and: (1) no path has a brace outside of a parameter; (2) no operation is for OPTIONS or TRACE; (3) the Rust names of the parameters of an operation differ from each other and from body if there is a body; (4) no query or header parameter becomes header_map, and no parameter becomes encode_path if the path has a parameter; (5) names of methods differ from each other and from new, new_with_client, baseurl, client, api_version and (with inner state) inner, and none is that of a paginated operation followed by _stream; (6) for a paginated operation the token is a string and no path or header parameter becomes state, first or page. In the builder style (5) and (6) are replaced by: no parameter becomes new, send, stream or clone (paginated) or body_map (body of a struct type), no parameter is of a struct type, tokens are strings, names of structs differ from each other, from what the module of builders imports and from the names of the standard library that any builder mentions (Result; String with any parameter; Option with an optional one; From with a struct body; Unpin with pages), functions of the client (operations without tags only, if tags are separate) differ from those it has anyway, and with separate tags no operation has a tag twice and different tags have different names in Pascal case. Which operations are paginated is stated on the document, too.", "quantifier": "all documents, all type spaces whose structs have distinct property names, both interface styles, both tag styles, all arguments and setter sequences, all tables of characters with the ASCII facts", "why_tests_cant": "An equivalence over all documents; the tests compile the output for a few documents, which says nothing about the others, and nothing about which others fail to compile.", "anchors": ["progenitor-impl/src/lib.rs:308-616", "progenitor-impl/src/method.rs:556-763", "progenitor-impl/src/method.rs:766-1204", "progenitor-impl/src/method.rs:1206-1320", "progenitor-impl/src/method.rs:1400-1860", "progenitor-impl/src/method.rs:1863-2001", "progenitor-impl/src/util.rs:sanitize", "progenitor-impl/src/template.rs"]}
{"id": "C87", "title": "Exactly these documents give mocks, and mocks that compile", "statement": "Generating mocks (Generator::httpmock) succeeds if and only if the document is valid, every operation is understood (parameters, body, path, responses, method; no pages over websockets) and every documented status code has a name in HTTP and every class is one of 1XX to 5XX. The result compiles if and only if moreover: (1) different operations have different names in Pascal case with When appended; (2) the Rust names of the parameters of an operation differ from each other, from body if there is a body, and from new and into_inner; (3) every parameter in a path occurs in it once, and no brace is outside of a parameter; (4) the types of path and query parameters have to_string; (5) the types of JSON and form bodies and of all typed responses are passed by reference; (6) statuses are documented once, and 101 is not documented for a websocket. In particular a document with a client that compiles may have no mocks (status 299), or mocks that do not compile (strings returned, lists in the query).", "quantifier": "all documents, all type spaces whose structs have distinct property names, all ways in which types are passed and displayed, all tables of characters with the ASCII facts", "why_tests_cant": "An equivalence over all documents; the tests compare the mocks of a few documents with stored output and leave those that do not compile out of the compile test.", "anchors": ["progenitor-impl/src/httpmock.rs:32-127", "progenitor-impl/src/httpmock.rs:129-374", "progenitor-impl/src/method.rs:294-553", "progenitor-impl/tests/output/src/lib.rs"]}
{"id": "C88", "title": "Exactly these documents give a command line, and one that compiles", "statement": "Generating a command line (Generator::cli) succeeds if and only if the document is valid, every operation is understood, has one kind of success and one kind of error, and its parameters have different flags (kebab case of the Rust names; the token of a paginated operation has no flag). If there is a client, only the flags can be missing, and for ASCII names that differ in Rust they are not. For a client in the builder style, the result compiles if and only if moreover: (1) sanitizing the name of a method once more gives the name of a method, and the names differ in Pascal case; (2) no method is called like a function of the client itself or like one that every value has (into, try_into), and with a trait per tag no operation has two tags, and none with a tag is called like a function that every value that can be copied has from a trait (clone, clone_into, to_owned); (3) the values of each flag have a parser; (4) the Rust name of each parameter with a flag, sanitized once more, is that of a parameter (or body, if there is a typed body); (5) a body some of whose properties have flags is a struct with a builder. clap accepts the arguments of all commands if and only if no flag is called help, nor json-body or json-body-template for an operation with a typed body. A property of the body has a flag if and only if its values (inside of Option) can be given as text, and no parameter and no earlier such property has the flag. In particular a document with a client that compiles may have a command line that does not (two tags, lists in the query), or one that panics when run (a parameter help).", "quantifier": "all documents, all type spaces whose structs have distinct property names, all tables saying which types have parsers, are structs with which properties, or are options, all tables of characters with the ASCII facts, both styles for tags, clients with and without inner state", "why_tests_cant": "An equivalence over all documents; the tests compile the command lines of six documents.", "anchors": ["progenitor-impl/src/cli.rs:26-168", "progenitor-impl/src/cli.rs:170-372", "progenitor-impl/src/cli.rs:374-693", "progenitor-impl/src/lib.rs:534-619"]}
{"id": "C89", "title": "Documentation in the generated code describes the code", "statement": "Comments in the generated code say what the code does. (1) The comment of a method, of send and of stream names the HTTP method and the path of the operation, and the request that the method sends is for that HTTP method and that path with the arguments put in. (2) As soon as one argument has a description, the comment lists exactly the arguments of the method, in the order of the signature, each with the description of the parameter it stands for (of the operation before that of the path item) or of the request body; the comment of the method for streams leaves out the page token, as the method does. (3) The example in the comment of a builder calls the documented method and then each setter once with a variable named like the parameter; with variables holding values of the right types it does what the positional method does with these values. (4) The comment of a builder links to exactly the methods that make it, those of the client or of the traits for its tags. (5) The comment of a trait is the description of the last tag of that name; that of the client begins with the title and ends with the version that api_version returns; summaries appear without final dots and commas, followed by the description. For (1) to (3) lines of descriptions must not look like items or announcements, and the path must not have line breaks.", "quantifier": "all documents, operations, texts, Unicode tables that agree with ASCII, arguments and servers", "why_tests_cant": "Comments are strings built from the texts of documents; tests compare them for a few documents with stored output, which says nothing about whether they agree with the code, and no test runs the examples (they are marked ignore).", "anchors": ["progenitor-impl/src/method.rs:2143-2224", "progenitor-impl/src/method.rs:1644-1652", "progenitor-impl/src/method.rs:1705-1712", "progenitor-impl/src/method.rs:1789-1841", "progenitor-impl/src/method.rs:1863-1897", "progenitor-impl/src/method.rs:286-549", "progenitor-impl/src/lib.rs:348-352", "progenitor-impl/src/lib.rs:390-406"]}
{"id": "C90", "title": "Documents can grow without changes for callers", "statement": "Calls that were written for the client of one document do the same with the client of a document that has more in it. (1) Further parameters that are optional (query or header): a chain of calls on the builder that compiled has the same result and the same exchange with the server, and so has a call of the positional method with None in the places of the new parameters. This needs that the new client compiles (C86; a new parameter called header_map breaks the method) and that the URL does not end in a bare question mark, which it never does if neither the path nor the base URL contains one (with it, the request changes). (2) Further operations, and any order of operations: the method of an operation and its code do not depend on other operations, the interface style or tags, and leaving out operations of a document whose client compiles gives a client that compiles. (3) Further responses: a success or failure that was documented is treated as before; so is a status that is documented neither before nor after, unless it is a success, nothing was documented as success and there is no default response.", "quantifier": "all documents and extensions of them, all call chains and arguments, all servers, hooks and replies, all base URLs", "why_tests_cant": "Relates two clients generated from two documents for all calls; snapshot tests look at one client at a time.", "anchors": ["progenitor-impl/src/method.rs: process_operation, sort_params, method_sig_body, builder_struct, extract_responses", "progenitor-client/src/progenitor_client.rs: QueryParam", "progenitor-impl/src/lib.rs: generate_tokens"]}
{"id": "C91", "title": "Documents can grow without changes for users of streams and commands", "statement": "As C90, for what is built on the methods. A document gets further optional parameters (query or header). (1) An operation with pages still has them, and its stream, of the builder or of the positional method (with None for the new parameters), makes the same requests, gives the same items and ends in the same way, however far it is followed and whatever the server answers. (2) For an operation that gets its pages by the new parameters (page_token) the command becomes one for lists; for every other one, words that its command took are taken by the new command, with the same values for the same calls on the builder; what the command sends, prints and returns is the same, and so for the commands of operations with pages. For commands no new parameter may have a flag that the body already has (--json-body, --json-body-template or that of a property; otherwise what was said of the property is silently said of the parameter), and no new parameter may be needed for the first page (otherwise the words are refused). As for C90, the new client must compile and the URL must not end in a bare question mark.", "quantifier": "all documents and extensions of them, all call chains, arguments and command lines, all servers, hooks and replies, all base URLs, any number of steps", "why_tests_cant": "Relates two clients and two command lines generated from two documents, for all words and all executions of streams; snapshot tests look at one client at a time.", "anchors": ["progenitor-impl/src/method.rs: uses_pagination, positional_method, builder_struct", "progenitor-impl/src/cli.rs: cli_method, cli_method_arguments, cli_subcommand"]}
{"id": "C92", "title": "Each argument reaches only its own part of the request", "statement": "Take two calls of the same operation, with any arguments, that both send a request. (1) The URL without its query depends only on the path arguments, the headers only on the header arguments (the API version is the same for all), the body only on the body argument, and the query only on path and query arguments; if neither the base URL nor the path contains a question mark, it depends only on the query arguments. So changing one argument changes nothing elsewhere. (2) Changing one query argument replaces only the pairs of its parameter in the query string; those of the others stay, in their order. (3) Changing one header argument changes only the values under its name. (4) Changing one path argument leaves the number of segments of the path and all segments but those with its parameter as they are, if the arguments are ones that can be recovered (C78); the argument \"..\" takes away a segment that is not its own, and an argument for a placeholder after a question mark ends up in the query.", "quantifier": "all operations, base URLs, and pairs of argument lists", "why_tests_cant": "Non-interference relates two calls; tests look at one call and cannot tell that no other argument could change a part of it.", "anchors": ["progenitor-impl/src/method.rs: method_sig_body", "progenitor-impl/src/template.rs: compile", "progenitor-client/src/progenitor_client.rs: QueryParam, encode_path", "progenitor-impl/src/util.rs: sanitize"]}
{"id": "C93", "title": "A generator can be used more than once", "statement": "A Generator keeps the flags uses_futures and uses_websockets between calls of generate_tokens, cli and httpmock, and dependencies() reads them. For any sequence of calls, of which any may fail: (1) apart from the types that it finds, what a call gives does not depend on the calls before it; (2) uses_futures is set exactly if a call of generate_tokens got to the code of an operation with pages, and uses_websockets exactly if any call got to an operation with a channel whose parameters are understood; if all calls succeed, exactly if there is such an operation; (3) the dependencies listed at the end cover every client that was generated, and for a new generator with one client they are exactly what that client needs. The flags say more than is needed after a failed call (websockets) and less for the command line: cli() writes code that uses futures and does not set the flag.", "quantifier": "all sequences of calls with any documents, all states of the flags before", "why_tests_cant": "The flags are state across calls; tests make a new generator for each document, and only for calls that succeed.", "anchors": ["progenitor-impl/src/lib.rs: Generator, generate_tokens, dependencies", "progenitor-impl/src/method.rs: process_operation, positional_method, builder_struct", "progenitor-impl/src/cli.rs: cli", "progenitor-impl/src/httpmock.rs: httpmock"]}
{"id": "C94", "title": "Builders, commands and lists get what the generated mocks were set up for", "statement": "With the httpmock helpers of a document, mocks are set up for calls of an operation: one for the arguments of a call, and for a list one for each page, with the page token of that page or with no_page_token. Then against that server: (1) the positional method and the builder, given those arguments, each send one request and deliver the answer of the mock with the status and type of the document; (2) a command whose words stand for those arguments reports that answer; (3) the positional stream and the builder stream yield the items of the pages in order, send one request for each page, and end; (4) the list command reports the first n of these items, where n is the value of --limit. A mock for the first page that does not mention the token also answers the later pages; a list then has no end.", "quantifier": "all documents, argument values, command lines, numbers and sizes of pages, orders of other mocks, hooks that look on, histories", "why_tests_cant": "Each test of a mock covers one call with one set of values; that the filters keep the pages of a list apart, for any tokens and any number of pages, is a statement about all of them.", "anchors": ["progenitor-impl/src/httpmock.rs: httpmock_op", "progenitor-impl/src/method.rs: positional_method, builder_struct", "progenitor-impl/src/cli.rs: cli_method", "progenitor-client/src/progenitor_client.rs: ClientHooks"]}
{"id": "C95", "title": "Schemas keep their annotations", "statement": "The title, description, default, example, the flags deprecated, readOnly and writeOnly, and the extensions (such as x-rust-type) of every schema in a document, at any depth, are those of the converted schema at the same place: under the same property name, as items, as additional properties, or with the same number in oneOf, allOf or anyOf. For a nullable combination they are on the outer schema, not on the alternative. No other part of the converted schema has annotations. Annotations influence nothing else: schemas that differ in annotations only are converted to schemas that differ in annotations only, which accept the same values.", "quantifier": "all schemas of any depth, all annotations", "why_tests_cant": "Infinitely many nestings; the cases with nullable move annotations between levels, and the types generated from them (names, defaults, replaced types) depend on each.", "anchors": ["progenitor-impl/src/to_schema.rs: Convert<Schema> for openapiv3::Schema, oneof_nullable_wrapper, reduce"]}
{"id": "C96", "title": "Types of arguments and results come from the schemas of the document", "statement": "For a document with schemas, generation asks typify for the types of the component schemas, and then, operation by operation and in a fixed order, for one type for each parameter that counts, for a JSON or form body, and for each response with JSON (its first JSON media type), each time with the converted schema at that place of the document (references to parameters, bodies and responses followed) and the name made of the operation id and the parameter name, body or response. Generation succeeds exactly if typify answers each of these calls and the document with the answers in place of the schemas has a client; the client is that one. So the argument for a parameter has the type made from its schema (for a query parameter with an optional type the type inside, and the argument is then optional), the body has the type made from its schema, and a response has the type made from its schema. If typify is right about JSON schemas, the values of these types are those valid for the schema in the document. The names do not tell types apart: all JSON responses of an operation have the same.", "quantifier": "all documents with schemas of any depth, all libraries in which types do not change once made", "why_tests_cant": "Each golden file shows one document; that no type is confused with that of another parameter, level, body or status, whatever is referred to or overridden, is about all of them.", "anchors": ["progenitor-impl/src/lib.rs: generate_tokens", "progenitor-impl/src/method.rs: process_operation, get_body_param", "progenitor-impl/src/util.rs: ReferenceOrExt"]}
{"id": "C97", "title": "Replies and bodies follow the schemas of the document", "statement": "When the server answers a call with a status for which the document describes a JSON response (by its code, by its range, or by the default response, references followed), the caller gets a value, as a success for 2xx and as an error response for 4xx and 5xx, exactly if the answer is JSON that is valid for the schema at that place of the document; if not, the call fails with InvalidResponsePayload, which has the bytes. The JSON body that a method sends is valid for the schema of the request body. This presupposes that typify makes types whose values are those valid for the JSON schema and that serde reads and writes those, and that the schema keeps its meaning when converted; without the last, a response that is valid for the document can be refused.", "quantifier": "all documents with schemas, all operations, all arguments, all histories, all answers of servers", "why_tests_cant": "No test has all documents with all answers; the claim joins conversion of schemas, the requests for types, the choice of the type for a status and the dispatch of the response, each of which can confuse two types without another test noticing.", "anchors": ["progenitor-impl/src/method.rs: process_operation, get_body_param, extract_responses, method_sig_body", "progenitor-impl/src/lib.rs: generate_tokens", "progenitor-impl/src/to_schema.rs", "progenitor-client/src/progenitor_client.rs: ResponseValue::from_response"]}
{"id": "C98", "title": "The client accepts the answers that keep to the document, and no others", "statement": "For an answer with a status of 2xx, 4xx or 5xx, a call of a generated method hands the answer to the caller (Ok for 2xx, ErrorResponse for 4xx and 5xx, with its status and headers) exactly if it keeps to the document: a response is described for its status (code, range or default) and, if that response has JSON, the body can be read and is what the schema of its first JSON media type has after conversion. The one exception are 2xx answers to operations for which the document describes no success at all: these are handed over too. Any other answer gives UnexpectedResponse if no response is described for its status, and InvalidResponsePayload or ResponseBodyError if one is. So a server that keeps to the document never surprises the client, and one that does not is always noticed. The schemas as the document has them can be used instead if they keep their meaning in conversion.", "quantifier": "all documents with schemas, all operations other than websockets, all arguments, all histories, all answers with 2xx, 4xx and 5xx", "why_tests_cant": "It is an equivalence over all answers for all documents; tests of single statuses and bodies cannot exclude that some answer outside the document is accepted, or one within it refused.", "anchors": ["progenitor-impl/src/method.rs: process_operation, extract_responses, method_sig_body", "progenitor-impl/src/to_schema.rs", "progenitor-client/src/progenitor_client.rs: ResponseValue::from_response, ResponseValue::empty, ResponseValue::stream"]}
{"id": "C99", "title": "The texts of commands are those of the document", "statement": "The command of an operation shows the summary of the operation for -h, and its description (or else its summary) for --help; empty texts count as absent. Every flag for a parameter has as its help the description that the document has for this parameter: that of the operation if it has a parameter of that name, otherwise that of the path item; and no help if there is none. Every flag for a property of the body has the description of this property, also if several properties or a parameter compete for the flag. There are no other flags, except the two for files that commands with a typed body have.", "quantifier": "all operations with all texts, all parameters and types of bodies for which a command is generated", "why_tests_cant": "Tests compare a few generated files; that no flag ever has the text of another argument depends on sorting, on overriding of parameters and on clashes of names, for all documents.", "anchors": ["progenitor-impl/src/cli.rs: cli_method, cli_method_args, cli_method_body_arg, clap_arg", "progenitor-impl/src/method.rs: process_operation"]}
{"id": "C100", "title": "Parameters and forms arrive as values of the document's schemas", "statement": "When a method of a generated client sends a request, a server that implements the document reads, for every parameter that applies to the operation, nothing if its argument was not given, and otherwise the JSON value of the argument written in the style of its location (form, exploded, in the query; simple in the path and in headers); that value is one that the parameter's schema in the document has. The pairs of a form body are likewise the fields of a JSON value that the schema of the body has.", "quantifier": "all documents with schemas for which generation succeeds, all operations and parameters, all schemas, arguments, configurations and base URLs, for every library of types whose types have the values of the schemas", "why_tests_cant": "Tests look at single requests; the agreement between the schema, the converted schema, the type, the serialization of a value and the text a server reads has to hold for every schema and every value.", "anchors": ["progenitor-client/src/progenitor_client.rs:455-664", "progenitor-impl/src/method.rs:286-420", "progenitor-impl/src/method.rs:780-900", "progenitor-impl/src/template.rs:20-75", "progenitor-impl/src/to_schema.rs:1-120"]}
{"id": "C101", "title": "A call ends before sending exactly for the documented reasons, with the right error", "statement": "A call of a generated method whose arguments have the declared types does one of the following, decided in this order. The API version is no header value: it panics. Some given header cannot be sent: the first such header, in the order of the signature, decides, and an illegal value is returned as the error 'failed to parse header value' while an illegal name panics. The argument for a form is not one that can be written as a form: the error 'failed to serialize body'. The URL cannot be parsed, an argument cannot be sent in the query (it has no text of its own and is neither an array of texts nor something that can be written as a form), or the body has no JSON: a communication error. In all these cases nothing is sent and no hook runs. In every other case there is a request, and the call goes on to the hooks and the server. So a request is made if and only if none of the reasons applies and the operation is sound. A builder reports the first parameter that has no value before all of this; if all parameters have values it does what the method does with them.", "quantifier": "all operations of all documents, all arguments, configurations, hooks, servers, decoders and histories", "why_tests_cant": "Tests exercise single failures; that there is no other reason for a call to fail, and which of several reasons is reported, is a statement about all arguments and configurations.", "anchors": ["progenitor-impl/src/method.rs:766-1152", "progenitor-client/src/progenitor_client.rs:434-445", "progenitor-client/src/progenitor_client.rs:455-664"]}
{"id": "C102", "title": "Which unsupported operations are reported as errors and which panic", "statement": "If no method can be generated for an operation, its first deficiency decides how the generator fails; parameters are looked at first, by name, then the request body, the path, the responses and the method. An error is returned for a cookie parameter, a parameter with an unsupported style or without a schema, a body without a schema, of an unknown media type, or of bytes or text not described as strings, a malformed path, pages provided by a websocket, and a method that is not one of HTTP. It panics for a path parameter that is not required, several media types or encodings of a body, several path parameters of which one is not in the path, a JSON response without schema or with an encoding, a name in the path that is no path parameter, and responses with different kinds of bodies. For a whole document an error is returned exactly if the document is invalid, or if the first operation that does not get past the first pass (everything but the two last kinds of panics) has an error for its first deficiency.", "quantifier": "all documents, all operations of them, and all tables of types", "why_tests_cant": "Tests show single bad documents; which of several deficiencies is reported, and that nothing else is an error or a panic, is a statement about all documents.", "anchors": ["progenitor-impl/src/method.rs:286-549", "progenitor-impl/src/method.rs:766-1152", "progenitor-impl/src/method.rs:2016-2140", "progenitor-impl/src/template.rs:89-160", "progenitor-impl/src/lib.rs:309-361", "progenitor-impl/src/lib.rs:656-702"]}
{"id": "C103", "title": "Commands send what the document asks for", "statement": "When a generated command of an operation that is not paginated is run with words of a command line and sends a request, a server that reads the request by the document finds for each parameter nothing if its flag is not given, and otherwise the JSON value that the text after the flag stands for, in the style of its location (simple in paths and headers, form in queries); that value is valid for the schema of the parameter in the document. A JSON body of the request, whether read from a file or built from flags, is valid for the schema of the body in the document. A form body is the pairs of such a value.", "quantifier": "all documents the generator accepts, all operations of them, all command lines, all configurations of the client", "why_tests_cant": "Tests compare the code of commands with recorded files. That a command line ends as a request with values valid for the document runs through the parser of flags, the builder, the method, the URL encoding and the conversion of schemas, for all command lines.", "anchors": ["progenitor-impl/src/cli.rs:170-360", "progenitor-impl/src/cli.rs:361-526", "progenitor-impl/src/cli.rs:527-640", "progenitor-impl/src/method.rs:766-1152", "progenitor-impl/src/to_schema.rs:1-120"]}
{"id": "C104", "title": "Builders send what the document asks for", "statement": "When a builder sends a request after any chain of setter calls, a server that reads the request by the document finds for each parameter nothing if its setter was not called, and otherwise the JSON value that the setter was given last, in the style of its location (simple in paths and headers, form in queries); that value is valid for the schema of the parameter in the document. A JSON body of the request, however it was set, mapped or built, is valid for the schema of the body in the document. A form body is the pairs of such a value.", "quantifier": "all documents the generator accepts, all operations of them, all chains of setter calls, all configurations of the client", "why_tests_cant": "Tests compare the code of builders with recorded files. That a chain of setter calls ends as a request with values valid for the document, with the last value of each setter, is a statement about all chains and all documents.", "anchors": ["progenitor-impl/src/method.rs:1480-1660", "progenitor-impl/src/method.rs:1660-1960", "progenitor-impl/src/method.rs:766-1152", "progenitor-impl/src/to_schema.rs:1-120"]}
{"id": "C105", "title": "Requests for later pages send what the document asks for", "statement": "When a paginated operation is followed page by page, a server that reads the requests by the document finds in the request for the first page what the arguments say. In each later request it finds for page_token the token that came with an earlier page, for the limit and for parameters outside the query what the arguments say, and for other query parameters nothing. Every value found is valid for the schema of its parameter in the document. This holds for the streams of both interfaces and for list commands, however far they are read.", "quantifier": "all documents the generator accepts, all paginated operations of them, all arguments, all servers and all lengths of lists", "why_tests_cant": "Which requests are sent depends on the tokens a server gives; tests compare the code of streams with recorded files. That every request of every list has values valid for the schemas of the document is a statement about all documents, servers and lists.", "anchors": ["progenitor-impl/src/method.rs:628-765", "progenitor-impl/src/method.rs:1195-1300", "progenitor-impl/src/to_schema.rs:1-120"]}
