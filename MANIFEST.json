{
 "claims": [
  {
   "property": "C01",
   "status": "partial",
   "theorems": [
    "Progenitor.Props.C01_accepts_iff",
    "Progenitor.Props.C01_wellformed_accepted",
    "Progenitor.Props.C01_only_wellformed_fails",
    "Progenitor.Props.C01_only_wellformed_partial"
   ],
   "note": "Exact acceptance criterion proved (C01_accepts_iff); every well-formed path accepted. The converse is false for this code: a stray } directly after a parameter is accepted (C01_only_wellformed_fails); it holds when no } follows a } (_partial)."
  },
  {
   "property": "C02",
   "status": "proved",
   "theorems": [
    "Progenitor.Props.C02_printed",
    "Progenitor.Props.C02_reparse",
    "Progenitor.Props.C02_names",
    "Progenitor.Props.C02_injective"
   ],
   "note": "Printed form is the path with adjacent slashes collapsed, reparsing is the identity, names in order, printing injective."
  },
  {
   "property": "C03",
   "status": "partial",
   "theorems": [
    "Progenitor.Props.C03_url_iff",
    "Progenitor.Props.C03_url_partial",
    "Progenitor.Props.C03_stray_brace_never_compiles",
    "Progenitor.Props.C03_url_fails",
    "Progenitor.Props.C03_panics_iff"
   ],
   "note": "URL construction proved for every accepted template without a stray brace constant; the unrestricted claim is refuted (C03_url_fails) because such a template yields a format string that does not compile. Exactly (C03_url_iff): a URL exists iff the path is well formed, and is then the one claimed."
  },
  {
   "property": "C04",
   "status": "proved",
   "theorems": [
    "Progenitor.Props.C04_decode",
    "Progenitor.Props.C04_injective",
    "Progenitor.Props.C04_append",
    "Progenitor.Props.C04_alphabet",
    "Progenitor.Props.C04_unreserved"
   ],
   "note": "encode_path is inverted by percent decoding for every string, injective, output alphabet characterised."
  },
  {
   "property": "C05",
   "status": "partial",
   "theorems": [
    "Progenitor.Props.C05_confined_iff",
    "Progenitor.Props.C05_backslash_fails",
    "Progenitor.Props.C05_dotdot_fails",
    "Progenitor.Props.C05_dot_fails",
    "Progenitor.Props.C05_confined_partial",
    "Progenitor.Props.C05_no_query_or_fragment"
   ],
   "note": "Arguments . and .. that fill a segment and arguments containing a backslash change the URL structure (three refutations proved); for all other arguments every argument stays in one path segment, and these are exactly the arguments for which that holds (C05_confined_iff)."
  },
  {
   "property": "C06",
   "status": "proved",
   "theorems": [
    "Progenitor.Props.C06_url_injective",
    "Progenitor.Props.C06_needs_separators",
    "Progenitor.Props.C06_shared_fails"
   ],
   "note": "Injective when every segment has at most one parameter, with or without text around it; not injective whenever two parameters share a segment and the text between them stands for itself (C06_shared_fails)."
  },
  {
   "property": "C07",
   "status": "proved",
   "theorems": [
    "Progenitor.Props.C07_scalar"
   ],
   "note": "All scalar kinds."
  },
  {
   "property": "C08",
   "status": "partial",
   "theorems": [
    "Progenitor.Props.C08_seq",
    "Progenitor.Props.C08_seq_all",
    "Progenitor.Props.C08_fixed_size_arrays_fail",
    "Progenitor.Props.C08_seq_iff",
    "Progenitor.Props.C08_refused_iff"
   ],
   "note": "Sequences give one pair per element in order; exactly (C08_seq_iff, C08_refused_iff): an array is sent iff each element is one text or absent, and then as one pair per text; fixed-size arrays (serde tuples) always fail (refutation proved)."
  },
  {
   "property": "C09",
   "status": "proved",
   "theorems": [
    "Progenitor.Props.C09_struct",
    "Progenitor.Props.C09_map",
    "Progenitor.Props.C09_newtype_variant",
    "Progenitor.Props.C09_nested_rejected",
    "Progenitor.Props.C09_struct_iff",
    "Progenitor.Props.C09_map_iff"
   ],
   "note": "Structs and maps emit their own keys, newtype variants the variant name, nested composites are rejected. Exactly (C09_struct_iff, C09_map_iff): sent iff fields, keys and values are single texts or absent."
  },
  {
   "property": "C10",
   "status": "proved",
   "theorems": [
    "Progenitor.Props.C10_none_invisible",
    "Progenitor.Props.C10_no_query"
   ],
   "note": ""
  },
  {
   "property": "C11",
   "status": "partial",
   "theorems": [
    "Progenitor.Props.C11_sent_iff",
    "Progenitor.Props.C11_newtype_fails",
    "Progenitor.Props.C11_newtype_fails_scalar",
    "Progenitor.Props.C11_newtype_partial",
    "Progenitor.Props.C11_newtype_element",
    "Progenitor.Props.C11_exact",
    "Progenitor.Props.C11_nothing_else",
    "Progenitor.Props.C11_sent_meaning",
    "Progenitor.Props.C11_request_partial"
   ],
   "note": "False: a newtype struct around a scalar is refused (refutation proved). Exactly (C11_exact): whatever an argument stands for is sent or refused, and refused iff a newtype or tuple would need the name of the parameter. C11_sent_iff has what every value is sent as; C11_request_partial what the query of a request is (no question mark in base URL and path)."
  },
  {
   "property": "C12",
   "status": "proved",
   "theorems": [
    "Progenitor.Props.C12_decode",
    "Progenitor.Props.C12_alphabet",
    "Progenitor.Props.C12_error_iff",
    "Progenitor.Props.C12_injective"
   ],
   "note": "Form-decoding the final query string gives exactly the pairs in order, for any texts."
  },
  {
   "property": "C13",
   "status": "partial",
   "theorems": [
    "Progenitor.Props.C13_override_iff",
    "Progenitor.Props.C13_override_fails",
    "Progenitor.Props.C13_override_partial"
   ],
   "note": "Refuted as stated: parameters are merged by name only, so a same-named parameter in another location is lost (C13_override_fails). Exactly (C13_override_iff): every effective parameter is an argument iff no two effective parameters have the same name; then there are no other arguments (C13_override_partial)."
  },
  {
   "property": "C14",
   "status": "proved",
   "theorems": [
    "Progenitor.Props.C14_order",
    "Progenitor.Props.C14_exactly",
    "Progenitor.Props.C14_order_independent"
   ],
   "note": "Order, exact multiset, and independence of the document order (parameter lists with distinct names, which OpenAPI demands). The sort is insertion sort (standard library, up to 20 elements); for longer lists see C15_any_stable_sort."
  },
  {
   "property": "C15",
   "status": "partial",
   "theorems": [
    "Progenitor.Props.C15_antisymmetric_iff",
    "Progenitor.Props.C15_incomparable_iff",
    "Progenitor.Props.C15_antisymmetry_fails",
    "Progenitor.Props.C15_incomparability_fails",
    "Progenitor.Props.C15_antisymmetric_partial",
    "Progenitor.Props.C15_transitive_partial",
    "Progenitor.Props.C15_any_stable_sort",
    "Progenitor.Props.C15_no_panic"
   ],
   "note": "Header/body comparison is not antisymmetric and incomparability is not transitive (two refutations). Exactly: antisymmetric iff there are no headers or no body (C15_antisymmetric_iff), incomparability transitive iff there is no body or at most one header name (C15_incomparable_iff); in the good case every stable sort gives the modelled result."
  },
  {
   "property": "C16",
   "status": "partial",
   "theorems": [
    "Progenitor.Props.C16_search",
    "Progenitor.Props.C16_hygiene_fails",
    "Progenitor.Props.C16_hygiene_partial",
    "Progenitor.Props.C16_locals_distinct"
   ],
   "note": "Freshness and termination of the identifier search proved for every parameter list; header_map is not protected (C16_hygiene_fails). C86_method_iff has the exact condition under which the method compiles."
  },
  {
   "property": "C17",
   "status": "proved",
   "theorems": [
    "Progenitor.Props.C17_exact",
    "Progenitor.Props.C17_given",
    "Progenitor.Props.C17_api_version",
    "Progenitor.Props.C17_added",
    "Progenitor.Props.C17_absent"
   ],
   "note": "C17_exact: for every issued request the query pairs, header values and URL are exactly those of the arguments; C17_api_version and C17_given spell out the api-version header and given arguments, C17_absent absent optional ones."
  },
  {
   "property": "C18",
   "status": "proved",
   "theorems": [
    "Progenitor.Props.C18_invalid_value",
    "Progenitor.Props.C18_version"
   ],
   "note": "For every list of parameters and arguments: if some header argument is not a legal header value, no request is issued and the call returns the documented InvalidRequest (or panics for an illegal header name coming from the document). C18_version: a version of the document with other characters than printable ASCII and tabs makes every call panic before any effect; otherwise nothing panics before the request is complete."
  },
  {
   "property": "C19",
   "status": "partial",
   "theorems": [
    "Progenitor.Props.C19_label_iff",
    "Progenitor.Props.C19_body",
    "Progenitor.Props.C19_no_body",
    "Progenitor.Props.C19_form_decodes",
    "Progenitor.Props.C19_label_partial",
    "Progenitor.Props.C19_label_fails",
    "Progenitor.Props.C19_media_parameters",
    "Progenitor.Props.C19_declared",
    "Progenitor.Props.C19_declared_iff",
    "Progenitor.Props.C19_media_types",
    "Progenitor.Props.C19_print",
    "Progenitor.Props.C19_form_iff",
    "Progenitor.Props.C19_form_meaning",
    "Progenitor.Props.C19_operation"
   ],
   "note": "Body bytes proved exactly (C19_body, C19_form_decodes). The Content-Type label is right when no header parameter is itself called Content-Type (C19_label_partial); C19_label_fails is the witness that the code violates the unguarded statement. Exactly (C19_label_iff): given header arguments of that name replace the label, so it is right iff none are given or they say the same. Which values are sent as a form, and as what, is exact (C19_form_iff)."
  },
  {
   "property": "C20",
   "status": "partial",
   "theorems": [
    "Progenitor.Props.C20_roundtrip_partial",
    "Progenitor.Props.C20_roundtrip_fails",
    "Progenitor.Props.C20_queries_partial",
    "Progenitor.Props.C20_segments_iff"
   ],
   "note": "The round trip (a server that parses the request recovers all arguments) is proved for path arguments that contain no backslash and do not make their segment '.' or '..'; the path can be read exactly for those (C20_segments_iff). C20_queries_partial has the pairs in the query for all query arguments of all requests. C20_roundtrip_fails is the witness that it is false otherwise."
  },
  {
   "property": "C21",
   "status": "proved",
   "theorems": [
    "Progenitor.Props.C21_at_most_one",
    "Progenitor.Props.C21_sent_iff",
    "Progenitor.Props.C21_local_failure",
    "Progenitor.Props.C21_bad_query"
   ],
   "note": "For every world (hooks, server) at most one request is sent per call, and exactly one iff building succeeded and the pre hook accepted; local failures send nothing."
  },
  {
   "property": "C22",
   "status": "proved",
   "theorems": [
    "Progenitor.Props.C22_order",
    "Progenitor.Props.C22_data",
    "Progenitor.Props.C22_call"
   ],
   "note": "The event sequence of every call is pre, pre-async, send, post, post-async restricted to configured hooks, cut at the first failure; with the data each hook sees."
  },
  {
   "property": "C23",
   "status": "proved",
   "theorems": [
    "Progenitor.Props.C23_total",
    "Progenitor.Props.C23_classified",
    "Progenitor.Props.C23_order"
   ],
   "note": "Totality, exact classification and order independence of the emitted match."
  },
  {
   "property": "C24",
   "status": "proved",
   "theorems": [
    "Progenitor.Props.C24_ok_only_success",
    "Progenitor.Props.C24_kind",
    "Progenitor.Props.C24_documented_success"
   ],
   "note": "Ok implies a covered success status, and every documented success status gives Ok (or the failure to read the value); the value carries status and headers."
  },
  {
   "property": "C25",
   "status": "proved",
   "theorems": [
    "Progenitor.Props.C25_documented_errors",
    "Progenitor.Props.C25_unexpected",
    "Progenitor.Props.C25_never_ok"
   ],
   "note": "A typed error body that cannot be read or decoded is InvalidResponsePayload / ResponseBodyError; stated exactly by ReportsError."
  },
  {
   "property": "C26",
   "status": "partial",
   "theorems": [
    "Progenitor.Props.C26_ok_only_upgrade",
    "Progenitor.Props.C26_other_statuses",
    "Progenitor.Props.C26_generation_fails",
    "Progenitor.Props.C26_generation_partial"
   ],
   "note": "Ok only for 101 holds. Acceptance of every websocket operation with JSON errors is false (C26_generation_fails); sufficient condition proved. C85_responses_iff has the exact condition, for websockets too."
  },
  {
   "property": "C27",
   "status": "partial",
   "theorems": [
    "Progenitor.Props.C27_faithful",
    "Progenitor.Props.C27_map",
    "Progenitor.Props.C27_decode",
    "Progenitor.Props.C27_untyped",
    "Progenitor.Props.C27_status_fails",
    "Progenitor.Props.C27_status_partial",
    "Progenitor.Props.C27_status_iff"
   ],
   "note": "Accessors proved. Error::status is None for InvalidResponsePayload (C27_status_fails). Exactly (C27_status_iff): the status is that of the response the error stems from iff the error is not of that kind."
  },
  {
   "property": "C28",
   "status": "proved",
   "theorems": [
    "Progenitor.Props.C28_content_length",
    "Progenitor.Props.C28_bound"
   ],
   "note": "Full characterisation, including overflow."
  },
  {
   "property": "C29",
   "status": "proved",
   "theorems": [
    "Progenitor.Props.C29_outcomes",
    "Progenitor.Props.C29_commute",
    "Progenitor.Props.C29_overwrite"
   ],
   "note": "For all well-typed chains of setter calls. Conversions are represented by their results; nested body builders by an arbitrary builder type."
  },
  {
   "property": "C30",
   "status": "proved",
   "theorems": [
    "Progenitor.Props.C30_invalid",
    "Progenitor.Props.C30_message",
    "Progenitor.Props.C30_total",
    "Progenitor.Props.C30_unset_body"
   ],
   "note": "C30_total: every parameter has exactly one outcome. C30_unset_body shows the default of a nested body builder being used."
  },
  {
   "property": "C31",
   "status": "proved",
   "theorems": [
    "Progenitor.Props.C31_values",
    "Progenitor.Props.C31_agree"
   ],
   "note": "C31_values needs no assumption on typify; C31_agree assumes that From<T> followed by TryFrom on a nested body builder gives the value back. The emitted struct must compile (see C62)."
  },
  {
   "property": "C32",
   "status": "proved",
   "theorems": [
    "Progenitor.Props.C32_prefix",
    "Progenitor.Props.C32_complete",
    "Progenitor.Props.C32_progress"
   ],
   "note": "Every execution of the transition system of both streams, with arbitrary answers: what was given out is a prefix of the items of the pages received, everything was given out at the end, and the stream makes progress."
  },
  {
   "property": "C33",
   "status": "proved",
   "theorems": [
    "Progenitor.Props.C33_calls",
    "Progenitor.Props.C33_positional_args",
    "Progenitor.Props.C33_query",
    "Progenitor.Props.C33_builder_args"
   ],
   "note": "C33_calls: every call is the one prescribed by following tokens; C33_positional_args, C33_query and C33_builder_args say with which arguments. Argument lists for which the stream compiles only (see C63)."
  },
  {
   "property": "C34",
   "status": "proved",
   "theorems": [
    "Progenitor.Props.C34_no_more_calls",
    "Progenitor.Props.C34_error_last"
   ],
   "note": "No call after an error or a page without token; an error is given out once and last."
  },
  {
   "property": "C35",
   "status": "proved",
   "theorems": [
    "Progenitor.Props.C35_nothing_at_start",
    "Progenitor.Props.C35_on_demand",
    "Progenitor.Props.C35_no_page_beyond"
   ],
   "note": "Creating a stream makes no call; a call is made only after everything received was given out."
  },
  {
   "property": "C36",
   "status": "proved",
   "theorems": [
    "Progenitor.Props.C36_agree"
   ],
   "note": "Step-by-step equality of elements, answers and event histories for every server, when the token parameter has the rust name page_token (TokenNamed)."
  },
  {
   "property": "C37",
   "status": "proved",
   "theorems": [
    "Progenitor.Props.C37_paginated"
   ],
   "note": "C37_paginated is an iff for every accepted operation, against a page-type predicate independent of the map lookups. Assumption: struct properties of a type have distinct names (typify)."
  },
  {
   "property": "C38",
   "status": "partial",
   "theorems": [
    "Progenitor.Props.C38_limit",
    "Progenitor.Props.C38_limit_fails",
    "Progenitor.Props.C38_list",
    "Progenitor.Props.C38_calls",
    "Progenitor.Props.C38_progress",
    "Progenitor.Props.C38_raw_error_fails",
    "Progenitor.Props.C38_raw_error_silent_fails"
   ],
   "note": "If the error responses are typed or empty: list_start, the first limit items in order, exactly one end report, failure iff an error is among the first limit elements, no requests beyond those needed, and progress; the limit is the value of the limit flag (C38_limit). Operations with raw error responses panic instead (C38_raw_error_fails), as do limit flags of a type other than NonZeroU32 (C38_limit_fails)."
  },
  {
   "property": "C39",
   "status": "partial",
   "theorems": [
    "Progenitor.Props.C39_flags",
    "Progenitor.Props.C39_body",
    "Progenitor.Props.C39_body_other",
    "Progenitor.Props.C39_no_body",
    "Progenitor.Props.C39_generates_iff",
    "Progenitor.Props.C39_generates_partial",
    "Progenitor.Props.C39_values",
    "Progenitor.Props.C39_properties",
    "Progenitor.Props.C39_raw_body_fails",
    "Progenitor.Props.C39_document_partial",
    "Progenitor.Props.C39_names_iff",
    "Progenitor.Props.C39_flag_fails",
    "Progenitor.Props.C39_property_fails"
   ],
   "note": "Flags, their requiredness, and the JSON body option are characterised for all operations for which generation succeeds; when it does is characterised (C39_generates_iff, C39_generates_partial and C39_document_partial for ASCII names; C39_flag_fails), and when argument names differ (C39_names_iff). Raw bodies have no flag, so such commands always fail (C39_raw_body_fails); optional properties called like a parameter have none (C39_property_fails). C88_generates_iff and C88_arguments_iff have the exact conditions on documents."
  },
  {
   "property": "C40",
   "status": "proved",
   "theorems": [
    "Progenitor.Props.C40_body",
    "Progenitor.Props.C40_outcomes",
    "Progenitor.Props.C40_execute"
   ],
   "note": "The body is that of the file, or the default updated by the flags given; and the command makes the same call as the positional method with the arguments of the command line."
  },
  {
   "property": "C41",
   "status": "proved",
   "theorems": [
    "Progenitor.Props.C41_valid"
   ],
   "note": "For every table of Unicode properties that satisfies the stated laws (which were checked outside Lean against the Unicode character data)."
  },
  {
   "property": "C42",
   "status": "partial",
   "theorems": [
    "Progenitor.Props.C42_idempotent_partial",
    "Progenitor.Props.C42_ascii_partial",
    "Progenitor.Props.C42_idempotent_fails"
   ],
   "note": "False for some non-ASCII inputs (U+0130): proved negation; proved when case mapping of the result is settled, in particular for all ASCII inputs."
  },
  {
   "property": "C43",
   "status": "partial",
   "theorems": [
    "Progenitor.Props.C43_snake_partial",
    "Progenitor.Props.C43_collision_iff",
    "Progenitor.Props.C43_distinct_fails"
   ],
   "note": "False in general (getFoo / get_foo; negation proved); exact characterisation for ASCII ids (see also C82_distinct_iff); proved for ids in snake case."
  },
  {
   "property": "C44",
   "status": "proved",
   "theorems": [
    "Progenitor.Props.C44_validate_iff",
    "Progenitor.Props.C44_validate_total"
   ],
   "note": "Under the stated laws of the Unicode tables (only for blanks)."
  },
  {
   "property": "C45",
   "status": "partial",
   "theorems": [
    "Progenitor.Props.C45_valid_partial",
    "Progenitor.Props.C45_components_partial",
    "Progenitor.Props.C45_converts_iff",
    "Progenitor.Props.C45_combined_fails",
    "Progenitor.Props.C45_untyped_fails",
    "Progenitor.Props.C45_enum_fails",
    "Progenitor.Props.C45_panics_iff",
    "Progenitor.Props.C45_exact",
    "Progenitor.Props.C45_components_exact",
    "Progenitor.Props.C45_combination_iff",
    "Progenitor.Props.C45_not_iff",
    "Progenitor.Props.C45_untyped_exact"
   ],
   "note": "Validity is preserved for schemas meeting Faithful (limits in range; nullable schemas without type are combinations that reject null). Conversion panics exactly for unsupported schemas. Counterexamples proved: nullable combination of schemas that accept null; nullable untyped schema with numeric keywords or an enumeration. C45_exact says without guard what every schema means after conversion; C45_combination_iff and C45_not_iff when combinations keep their meaning."
  },
  {
   "property": "C46",
   "status": "partial",
   "theorems": [
    "Progenitor.Props.C46_typed_iff",
    "Progenitor.Props.C46_typed",
    "Progenitor.Props.C46_combined_iff",
    "Progenitor.Props.C46_combined_partial",
    "Progenitor.Props.C46_combined_fails",
    "Progenitor.Props.C46_untyped_fails",
    "Progenitor.Props.C46_typed_allOf_fails"
   ],
   "note": "Proved for typed schemas without enumeration; with enumerations exactly when null is accepted (null listed). For combinations exactly when the schema rejects null before. Counterexamples proved for combinations accepting null, untyped keywords, and typed schemas with allOf."
  },
  {
   "property": "C47",
   "status": "partial",
   "theorems": [
    "Progenitor.Props.C47_number",
    "Progenitor.Props.C47_integer_partial",
    "Progenitor.Props.C47_minimum_iff",
    "Progenitor.Props.C47_maximum_iff",
    "Progenitor.Props.C47_integer_rounded",
    "Progenitor.Props.C47_integer_fails",
    "Progenitor.Props.C47_string_counts",
    "Progenitor.Props.C47_array_counts",
    "Progenitor.Props.C47_object_counts",
    "Progenitor.Props.C47_maxLength_iff",
    "Progenitor.Props.C47_minLength_iff",
    "Progenitor.Props.C47_maxLength_fails"
   ],
   "note": "Numbers: unconditional. Integers: preserved exactly if 53 significant bits suffice; in general limits are rounded to the nearest such integer, ties to even (C47_integer_rounded). Lengths and counts: taken modulo 2^32, preserved iff below 2^32. Counterexamples proved."
  },
  {
   "property": "C48",
   "status": "partial",
   "theorems": [
    "Progenitor.Props.C48_exact_partial",
    "Progenitor.Props.C48_request_partial",
    "Progenitor.Props.C48_dot_fails",
    "Progenitor.Props.C48_plus_fails",
    "Progenitor.Props.C48_paren_fails",
    "Progenitor.Props.C48_space_fails",
    "Progenitor.Props.C48_dots_fails",
    "Progenitor.Props.C48_dots_partial",
    "Progenitor.Props.C48_exact_iff_partial"
   ],
   "note": "The matcher is exact for templates whose constants have no regex metacharacters and, for requests of the client, constants and base path that are left alone by URL parsing. If dots are the only metacharacters, each dot matches any character but a line break, and the matcher is exact if and only if there is no dot. Fails otherwise: constants are not escaped, so '.' matches more, '+' and '(' match less or panic; constants that are percent-encoded and '..' arguments are missed."
  },
  {
   "property": "C49",
   "status": "partial",
   "theorems": [
    "Progenitor.Props.C49_exact_partial",
    "Progenitor.Props.C49_request_partial",
    "Progenitor.Props.C49_renamed_fails",
    "Progenitor.Props.C49_renamed_optional_fails",
    "Progenitor.Props.C49_encoded_fails",
    "Progenitor.Props.C49_regex_fails",
    "Progenitor.Props.C49_panic_fails",
    "Progenitor.Props.C49_header_fails",
    "Progenitor.Props.C49_form_fails",
    "Progenitor.Props.C49_compiles",
    "Progenitor.Props.C49_overlap_fails",
    "Progenitor.Props.C49_tells_partial"
   ],
   "note": "Holds for path values without regex metacharacters that URL encoding leaves alone, query parameters whose Rust name is the API name, and JSON, text and octet stream bodies; the converse (a mock that matches tells the values) under the same guards. Fails for renamed query parameters, encoded values, header parameters, values read as regular expressions, adjacent path parameters, and forms (the expectation is on JSON: no request of the method matches)."
  },
  {
   "property": "C50",
   "status": "proved",
   "theorems": [
    "Progenitor.Props.C50_class",
    "Progenitor.Props.C50_code",
    "Progenitor.Props.C50_classified",
    "Progenitor.Props.C50_value",
    "Progenitor.Props.C50_content",
    "Progenitor.Props.C50_never_ok"
   ],
   "note": "For all 16-bit statuses and all sets of responses."
  },
  {
   "property": "C51",
   "status": "proved",
   "theorems": [
    "Progenitor.Props.C51_base",
    "Progenitor.Props.C51_trait_methods",
    "Progenitor.Props.C51_partition"
   ],
   "note": "The trait of a tag is identified by the tag; clashes of trait names are in C64."
  },
  {
   "property": "C52",
   "status": "proved",
   "theorems": [
    "Progenitor.Props.C52_sorted",
    "Progenitor.Props.C52_complete"
   ],
   "note": "Crates needed by typify types are given by flags of the type space."
  },
  {
   "property": "C53",
   "status": "proved",
   "theorems": [
    "Progenitor.Props.C53_last_mention",
    "Progenitor.Props.C53_nodup"
   ],
   "note": "Membership in the trait set is characterised by the last mention; unknown names are ignored; no duplicates."
  },
  {
   "property": "C54",
   "status": "partial",
   "theorems": [
    "Progenitor.Props.C54_order_iff",
    "Progenitor.Props.C54_split",
    "Progenitor.Props.C54_order_partial",
    "Progenitor.Props.C54_order_fails"
   ],
   "note": "Meaning of a specification characterised exactly. Order independence is false when two entries name the same crate through orig@version (C54_order_fails; the entries come from a HashMap). Exactly (C54_order_iff): the result is the same in every order iff the entries are about different crates."
  },
  {
   "property": "C55",
   "status": "partial",
   "theorems": [
    "Progenitor.Props.C55_denotes",
    "Progenitor.Props.C55_deterministic",
    "Progenitor.Props.C55_panics_iff",
    "Progenitor.Props.C55_bound",
    "Progenitor.Props.C55_terminates_iff_partial",
    "Progenitor.Props.C55_terminates_fails",
    "Progenitor.Props.C55_no_components"
   ],
   "note": "Result characterised exactly (definition reached, or panic iff dangling). Termination is false for cyclic references (C55_terminates_fails); it holds iff the reference does not lead into a cycle, within one call per component plus one."
  },
  {
   "property": "C56",
   "status": "partial",
   "theorems": [
    "Progenitor.Props.C56_no_panic_fails",
    "Progenitor.Props.C56_no_panic_partial"
   ],
   "note": "False in general: T/default-E documents panic and acceptance depends on document order (C56_no_panic_fails); sufficient condition proved. C85_responses_iff has the exact condition."
  },
  {
   "property": "C57",
   "status": "proved",
   "theorems": [
    "Progenitor.Props.C57_spaced",
    "Progenitor.Props.C57_only_newlines",
    "Progenitor.Props.C57_same_text",
    "Progenitor.Props.C57_first_gap"
   ],
   "note": "Only newlines are inserted, and only after a line that ends in a closing brace; the first place where the pattern applies is characterised too."
  },
  {
   "property": "C58",
   "status": "proved",
   "theorems": [
    "Progenitor.Props.C58_method_roundtrip",
    "Progenitor.Props.C58_method_only",
    "Progenitor.Props.C58_media_only",
    "Progenitor.Props.C58_media_roundtrip"
   ],
   "note": "Inversion over all strings for methods and body media types."
  },
  {
   "property": "C59",
   "status": "partial",
   "theorems": [
    "Progenitor.Props.C59_in_template_iff",
    "Progenitor.Props.C59_in_template_fails",
    "Progenitor.Props.C59_in_template_partial"
   ],
   "note": "A single path parameter missing from the template is accepted (refutation); with two or more the generator only succeeds if all occur. C59_in_template_iff: that case is the only exception. C85_operation_iff has the exact condition under which the operation is accepted."
  },
  {
   "property": "C60",
   "status": "partial",
   "theorems": [
    "Progenitor.Props.C60_compiles_partial",
    "Progenitor.Props.C60_compiles_fails"
   ],
   "note": "C60_compiles_partial assumes a well-formed path, distinct argument names, no non-path parameter called header_map, no parameter called encode_path if the path has parameters, and a method other than OPTIONS/TRACE; C60_compiles_fails shows that the code violates the statement when a guard is dropped (shadowed header_map or encode_path, reqwest::Client has no options/trace method, argument name clash). C86 has the exact condition."
  },
  {
   "property": "C61",
   "status": "proved",
   "theorems": [
    "Progenitor.Props.C61_accept",
    "Progenitor.Props.C61_explicit"
   ],
   "note": "C61_accept and C61_explicit for every issued request; the condition is phrased by which outcomes are possible, not by the kinds computed in the generator."
  },
  {
   "property": "C62",
   "status": "partial",
   "theorems": [
    "Progenitor.Props.C62_struct",
    "Progenitor.Props.C62_generates",
    "Progenitor.Props.C62_generation_partial",
    "Progenitor.Props.C62_generation_fails",
    "Progenitor.Props.C62_clash_fails"
   ],
   "note": "Refuted: object-typed parameters outside the body make generation panic (C62_generation_fails), a parameter named send/new/stream/body_map clashes (C62_clash_fails), and so does one named clone if there is a stream. Proved: exact conditions (C62_generates, C62_struct) and the guarded version. C85_builder_iff and C86_builder_iff have the exact conditions in terms of the document."
  },
  {
   "property": "C63",
   "status": "partial",
   "theorems": [
    "Progenitor.Props.C63_positional_partial",
    "Progenitor.Props.C63_captured_fails",
    "Progenitor.Props.C63_token_fails"
   ],
   "note": "False: a parameter used after the first page and called state, first or page, or a token that is not a string, does not compile (C63_captured_fails, C63_token_fails). C63_positional_partial: compiles otherwise. C86_stream_iff has the exact condition."
  },
  {
   "property": "C64",
   "status": "partial",
   "theorems": [
    "Progenitor.Props.C64_positional_partial",
    "Progenitor.Props.C64_builder_merged_partial",
    "Progenitor.Props.C64_builder_separate_partial",
    "Progenitor.Props.C64_own_fails",
    "Progenitor.Props.C64_struct_fails",
    "Progenitor.Props.C64_hidden_fails",
    "Progenitor.Props.C64_tags_fails"
   ],
   "note": "False in general (four kinds of clashes proved); proved for snake case ids outside stated lists and tags without repetition. C86_positional_iff and C86_builder_client_iff have the exact conditions for whole clients."
  },
  {
   "property": "C65",
   "status": "partial",
   "theorems": [
    "Progenitor.Props.C65_merged_iff",
    "Progenitor.Props.C65_reaches_iff",
    "Progenitor.Props.C65_two_tags_fails",
    "Progenitor.Props.C65_into_fails",
    "Progenitor.Props.C65_clone_fails",
    "Progenitor.Props.C65_own_fails"
   ],
   "note": "C65_reaches_iff and C65_merged_iff say exactly when the call reaches the operation; false for operations with two tags (C65_two_tags_fails), for tagged operations named like methods of Client (C65_own_fails), for operations called into or try_into (C65_into_fails: the standard Into comes first) and for tagged ones called clone, clone_into or to_owned (C65_clone_fails). The caller is taken to have a variable of type Client and the 2021 edition."
  },
  {
   "property": "C66",
   "status": "proved",
   "theorems": [
    "Progenitor.Props.C66_methods",
    "Progenitor.Props.C66_code",
    "Progenitor.Props.C66_unsupported"
   ],
   "note": "One method per operation in order with the HTTP method, path and code of the operation; positional style with separate tags never succeeds."
  },
  {
   "property": "C67",
   "status": "partial",
   "theorems": [
    "Progenitor.Props.C67_generates_iff",
    "Progenitor.Props.C67_reason_fails",
    "Progenitor.Props.C67_then",
    "Progenitor.Props.C67_statuses",
    "Progenitor.Props.C67_when_iff",
    "Progenitor.Props.C67_new_fails",
    "Progenitor.Props.C67_wrappers_iff",
    "Progenitor.Props.C67_wrappers_partial",
    "Progenitor.Props.C67_wrappers_fails"
   ],
   "note": "Methods of Then are distinct; generation succeeds exactly if every documented code has a canonical reason; methods of When are distinct exactly if no parameter is called new or into_inner; when wrapper structs are distinct is exact (C67_wrappers_iff), and they are for snake case ids with words that start with letters. Fails otherwise: code 299, parameter `new`, ids a1 and a_1. C87 has the exact criterion on documents."
  },
  {
   "property": "C68",
   "status": "partial",
   "theorems": [
    "Progenitor.Props.C68_report",
    "Progenitor.Props.C68_reported",
    "Progenitor.Props.C68_execute_partial",
    "Progenitor.Props.C68_raw_fails",
    "Progenitor.Props.C68_kinds"
   ],
   "note": "Exactly one report, that of the outcome of the positional method, and failure iff the request failed, when the responses in question are typed or empty; with raw or upgraded responses the command panics after the request (C68_raw_fails)."
  },
  {
   "property": "C69",
   "status": "partial",
   "theorems": [
    "Progenitor.Props.C69_items_iff",
    "Progenitor.Props.C69_dispatch_partial",
    "Progenitor.Props.C69_document_partial",
    "Progenitor.Props.C69_variant_fails",
    "Progenitor.Props.C69_function_fails",
    "Progenitor.Props.C69_dispatch_fails"
   ],
   "note": "Exact criterion (C69_items_iff); it holds for operation ids of words that start with letters (C69_document_partial), and each ASCII command calls its own functions. Variants may clash (a1, a_1) and U+0130 calls missing or wrong functions (_fails). C88_compiles_iff has the exact condition on documents."
  },
  {
   "property": "C70",
   "status": "partial",
   "theorems": [
    "Progenitor.Props.C70_received_partial",
    "Progenitor.Props.C70_body_partial",
    "Progenitor.Props.C70_document_partial",
    "Progenitor.Props.C70_received_fails",
    "Progenitor.Props.C70_headers_fails",
    "Progenitor.Props.C70_keys_fails",
    "Progenitor.Props.C70_backslash_fails"
   ],
   "note": "Guards: at most one parameter per path segment, no path argument that makes its segment a dot segment or contains a backslash, query parameters (including objects) with different keys, no header parameter that requests contain anyway, no name in two locations. Each is needed: C70_received_fails and C70_backslash_fails (path arguments), C70_keys_fails (query keys), C70_headers_fails (header names), C13_override_fails (names)."
  },
  {
   "property": "C71",
   "status": "partial",
   "theorems": [
    "Progenitor.Props.C71_determined_partial",
    "Progenitor.Props.C71_determined_fails"
   ],
   "note": "Same guards as C70; fails without the guard on path arguments (the empty text and a single dot give the same request)."
  },
  {
   "property": "C72",
   "status": "partial",
   "theorems": [
    "Progenitor.Props.C72_document_partial",
    "Progenitor.Props.C72_remote_partial",
    "Progenitor.Props.C72_redirect_fails",
    "Progenitor.Props.C72_treated",
    "Progenitor.Props.C72_every_status",
    "Progenitor.Props.C72_one_treatment",
    "Progenitor.Props.C72_every_reply"
   ],
   "note": "For all operations (websockets included) and all statuses: what the caller gets is what Treats says about the document (C72_treated, C72_every_status, C72_every_reply, unguarded except that asynchronous hooks only look on). That a documented reply arrives as documented: statuses 2xx, 4xx and 5xx of operations that are not websockets; the remote form has the guards of C70. Fails for documented 3xx replies."
  },
  {
   "property": "C73",
   "status": "proved",
   "theorems": [
    "Progenitor.Props.C73_class",
    "Progenitor.Props.C73_causes",
    "Progenitor.Props.C73_content",
    "Progenitor.Props.C73_debug",
    "Progenitor.Props.C73_untyped",
    "Progenitor.Props.C73_conversions"
   ],
   "note": "Display and Debug of other types are arbitrary functions."
  },
  {
   "property": "C74",
   "status": "partial",
   "theorems": [
    "Progenitor.Props.C74_manifest_iff",
    "Progenitor.Props.C74_manifest_fails",
    "Progenitor.Props.C74_files",
    "Progenitor.Props.C74_frame"
   ],
   "note": "Files and frame are unconditional. The manifest is read as intended exactly if the arguments contain no quote, backslash or control character (C74_manifest_iff); a license with a quote adds entries to the manifest (C74_manifest_fails)."
  },
  {
   "property": "C75",
   "status": "partial",
   "theorems": [
    "Progenitor.Props.C75_mocked_partial",
    "Progenitor.Props.C75_renamed_fails"
   ],
   "note": "Guards (Mockable): template constants and base URL plain, expectations expressible, path values that need no encoding, scalar query arguments, names used once; statuses 2xx, 4xx, 5xx; not an upgraded response. C75_renamed_fails: with an expectation on a renamed query parameter the call gets status 404."
  },
  {
   "property": "C76",
   "status": "partial",
   "theorems": [
    "Progenitor.Props.C76_calls",
    "Progenitor.Props.C76_macro",
    "Progenitor.Props.C76_order",
    "Progenitor.Props.C76_literal",
    "Progenitor.Props.C76_accepted_iff",
    "Progenitor.Props.C76_struct_builder_fails",
    "Progenitor.Props.C76_unique_partial",
    "Progenitor.Props.C76_path",
    "Progenitor.Props.C76_expansion",
    "Progenitor.Props.C76_errors"
   ],
   "note": "Proved: what settings result from calls and from macro options, which invocations are accepted (iff), order of options, the string form, the document read, errors. Guarded: the result is unique if no two entries of crates are about the same crate. Refuted: the documented option struct_builder exists."
  },
  {
   "property": "C77",
   "status": "partial",
   "theorems": [
    "Progenitor.Props.C77_accessors",
    "Progenitor.Props.C77_new",
    "Progenitor.Props.C77_requests",
    "Progenitor.Props.C77_query_fails",
    "Progenitor.Props.C77_received_partial",
    "Progenitor.Props.C77_slash_fails",
    "Progenitor.Props.C77_own",
    "Progenitor.Props.C77_hook",
    "Progenitor.Props.C77_hooks"
   ],
   "note": "Accessors, constructors, base URL prefix, version header, hooks and transport are proved for all clients. Reception by the server (C77_received_partial) has the guards of C70. Refuted: base URLs ending in a slash (C77_slash_fails) or containing a query or fragment (C77_query_fails)."
  },
  {
   "property": "C78",
   "status": "proved",
   "theorems": [
    "Progenitor.Props.C78_lazy",
    "Progenitor.Props.C78_sequential",
    "Progenitor.Props.C78_prefix",
    "Progenitor.Props.C78_once",
    "Progenitor.Props.C78_own_reply",
    "Progenitor.Props.C78_frame",
    "Progenitor.Props.C78_over",
    "Progenitor.Props.C78_progress"
   ],
   "note": "All interleavings of calls, polls and drops; each completed call agrees with the sequential semantics under its own answers."
  },
  {
   "property": "C79",
   "status": "partial",
   "theorems": [
    "Progenitor.Props.C79_words_iff",
    "Progenitor.Props.C79_order",
    "Progenitor.Props.C79_enum",
    "Progenitor.Props.C79_safe",
    "Progenitor.Props.C79_enum_fails",
    "Progenitor.Props.C79_hyphen_fails",
    "Progenitor.Props.C79_template",
    "Progenitor.Props.C79_names_iff",
    "Progenitor.Props.C79_help_fails",
    "Progenitor.Props.C79_default",
    "Progenitor.Props.C79_override",
    "Progenitor.Props.C79_silent",
    "Progenitor.Props.C79_argument",
    "Progenitor.Props.C79_remote_partial"
   ],
   "note": "Exact characterisation of accepted command lines, order independence, enums, overrides and silence of rejected lines are proved in full; the end-to-end theorem has the guards of C72 (path arguments that survive URL parsing) and C68 (supported kinds of responses); refuted for values that begin with - as a separate word and for parameters called help."
  },
  {
   "property": "C80",
   "status": "partial",
   "theorems": [
    "Progenitor.Props.C80_meets_iff",
    "Progenitor.Props.C80_taken_iff_partial",
    "Progenitor.Props.C80_served_partial",
    "Progenitor.Props.C80_only_partial",
    "Progenitor.Props.C80_preferred_iff_partial",
    "Progenitor.Props.C80_argument_fails",
    "Progenitor.Props.C80_twin_fails"
   ],
   "note": "Guards: at most one parameter per path segment, no path argument that makes its segment a dot segment or contains a backslash, plain base URL, no name in two locations, asynchronous hooks that keep the request. Exact criteria for which other operations a request is taken for (C80_served_partial, C80_preferred_iff_partial) and for which pairs of templates share a request (C80_meets_iff). Refuted without further assumption on the document (C80_argument_fails, C80_twin_fails)."
  },
  {
   "property": "C81",
   "status": "partial",
   "theorems": [
    "Progenitor.Props.C81_ends",
    "Progenitor.Props.C81_list_partial",
    "Progenitor.Props.C81_rejected",
    "Progenitor.Props.C81_override",
    "Progenitor.Props.C81_limit_fails",
    "Progenitor.Props.C81_body_fails",
    "Progenitor.Props.C81_no_stream_fails",
    "Progenitor.Props.C81_requests_partial",
    "Progenitor.Props.C81_raw_fails"
   ],
   "note": "proved for values that survive as in C70 and bodies whose builder keeps values; path arguments '.' and '..' or with a backslash are missing"
  },
  {
   "property": "C82",
   "status": "partial",
   "theorems": [
    "Progenitor.Props.C82_snake",
    "Progenitor.Props.C82_words",
    "Progenitor.Props.C82_collision_iff",
    "Progenitor.Props.C82_pascal",
    "Progenitor.Props.C82_plus_fails",
    "Progenitor.Props.C82_letters",
    "Progenitor.Props.C82_distinct_iff"
   ],
   "note": "Proved for all ASCII texts and documents with ASCII operation ids; other characters are missing (case mapping is a parameter). The claim about leading + and - in Pascal case is refuted."
  },
  {
   "property": "C83",
   "status": "partial",
   "theorems": [
    "Progenitor.Props.C83_inlined_partial",
    "Progenitor.Props.C83_received_partial",
    "Progenitor.Props.C83_one_meaning",
    "Progenitor.Props.C83_foreign_fails",
    "Progenitor.Props.C83_section_fails",
    "Progenitor.Props.C83_escaped_fails",
    "Progenitor.Props.C83_accepted_iff_partial"
   ],
   "note": "proved for documents whose references are local and written without escapes (C83_inlined_partial, C83_received_partial); such documents are accepted exactly if all references stand for something and the document with that inserted is accepted (C83_accepted_iff_partial); a reference has one meaning; refuted for references to other documents (C83_foreign_fails), other sections (C83_section_fails) and escaped references (C83_escaped_fails)"
  },
  {
   "property": "C84",
   "status": "partial",
   "theorems": [
    "Progenitor.Props.C84_followed_partial",
    "Progenitor.Props.C84_positional_partial",
    "Progenitor.Props.C84_builder_partial",
    "Progenitor.Props.C84_command_partial"
   ],
   "note": "proved for values that survive as in C70 (path arguments '.' and '..' or with a backslash are missing) and hooks that change neither requests nor replies"
  },
  {
   "property": "C85",
   "status": "proved",
   "theorems": [
    "Progenitor.Props.C85_responses_iff",
    "Progenitor.Props.C85_operation_iff",
    "Progenitor.Props.C85_builder_iff",
    "Progenitor.Props.C85_generates_iff"
   ],
   "note": "acceptance of a document as an equivalence stated on the document alone, for operations, responses, builders and whole documents; schema conversion and typify are outside of the model (types are given)"
  },
  {
   "property": "C86",
   "status": "proved",
   "theorems": [
    "Progenitor.Props.C86_method_iff",
    "Progenitor.Props.C86_builder_iff",
    "Progenitor.Props.C86_stream_iff",
    "Progenitor.Props.C86_builder_stream_iff",
    "Progenitor.Props.C86_paged_iff",
    "Progenitor.Props.C86_positional_iff",
    "Progenitor.Props.C86_builder_client_iff"
   ],
   "note": "equivalences on the document alone for methods, builders, streams, pagination, names and whole documents in both styles; compiling means the rules of Rust that the model has (scopes, shadowing, argument types, known functions), typify's output is outside"
  },
  {
   "property": "C87",
   "status": "proved",
   "theorems": [
    "Progenitor.Props.C87_generates_iff",
    "Progenitor.Props.C87_compiles_iff",
    "Progenitor.Props.C87_client_iff",
    "Progenitor.Props.C87_unnamed_status",
    "Progenitor.Props.C87_strings",
    "Progenitor.Props.C87_lists",
    "Progenitor.Props.C87_websocket"
   ],
   "note": "Both equivalences (C87_generates_iff, C87_compiles_iff) hold for all documents. C87_client_iff says what is missing beside a client; C87_unnamed_status, C87_strings, C87_lists and C87_websocket are documents with clients that compile and without mocks that do."
  },
  {
   "property": "C88",
   "status": "proved",
   "theorems": [
    "Progenitor.Props.C88_generates_iff",
    "Progenitor.Props.C88_client_iff",
    "Progenitor.Props.C88_ascii",
    "Progenitor.Props.C88_compiles_iff",
    "Progenitor.Props.C88_arguments_iff",
    "Progenitor.Props.C88_two_tags",
    "Progenitor.Props.C88_lists",
    "Progenitor.Props.C88_help"
   ],
   "note": "All three equivalences (C88_generates_iff, C88_compiles_iff, C88_arguments_iff) hold for all documents. C88_client_iff says what is missing beside a client, and C88_ascii that nothing is for ASCII names; C88_two_tags and C88_lists are documents with clients that compile and command lines that do not, and C88_help is one whose command line compiles and panics when run."
  },
  {
   "property": "C89",
   "status": "partial",
   "theorems": [
    "Progenitor.Props.C89_texts",
    "Progenitor.Props.C89_descriptions",
    "Progenitor.Props.C89_comment_partial",
    "Progenitor.Props.C89_stream_partial",
    "Progenitor.Props.C89_builder_methods",
    "Progenitor.Props.C89_request_partial",
    "Progenitor.Props.C89_builder_doc_partial",
    "Progenitor.Props.C89_example",
    "Progenitor.Props.C89_links",
    "Progenitor.Props.C89_trait",
    "Progenitor.Props.C89_client",
    "Progenitor.Props.C89_summary",
    "Progenitor.Props.C89_comment_fails"
   ],
   "note": "C89_comment_partial, C89_stream_partial, C89_request_partial and C89_builder_doc_partial need descriptions without lines that look like items or announcements, and paths without line breaks; C89_comment_fails is a description that adds an argument to the list. C89_builder_methods, C89_descriptions, C89_example, C89_links, C89_trait, C89_client (version without line breaks) and C89_summary have no such conditions. Rendering by rustdoc is not modelled."
  },
  {
   "property": "C90",
   "status": "proved",
   "theorems": [
    "Progenitor.Props.C90_builder",
    "Progenitor.Props.C90_positional",
    "Progenitor.Props.C90_clean",
    "Progenitor.Props.C90_part_positional",
    "Progenitor.Props.C90_part_builder",
    "Progenitor.Props.C90_operations",
    "Progenitor.Props.C90_responses",
    "Progenitor.Props.C90_undocumented",
    "Progenitor.Props.C90_undocumented_fails",
    "Progenitor.Props.C90_bare_fails",
    "Progenitor.Props.C90_names_fails"
   ],
   "note": "C90_builder and C90_positional: further optional parameters; C90_clean: sufficient condition on URLs; C90_operations, C90_part_positional, C90_part_builder: further operations; C90_responses, C90_undocumented: further responses. The conditions are part of the statement; C90_bare_fails, C90_names_fails and C90_undocumented_fails show that they are needed. Streams of pages are not compared."
  },
  {
   "property": "C91",
   "status": "proved",
   "theorems": [
    "Progenitor.Props.C91_words",
    "Progenitor.Props.C91_command",
    "Progenitor.Props.C91_list",
    "Progenitor.Props.C91_flags_fails",
    "Progenitor.Props.C91_first_fails",
    "Progenitor.Props.C91_builder",
    "Progenitor.Props.C91_positional"
   ],
   "note": "The conditions on the flags of the body and on the first page are shown to be needed (C91_flags_fails, C91_first_fails); the override function of a command is left out, as it may do anything."
  },
  {
   "property": "C92",
   "status": "partial",
   "theorems": [
    "Progenitor.Props.C92_url",
    "Progenitor.Props.C92_query_partial",
    "Progenitor.Props.C92_query_any",
    "Progenitor.Props.C92_headers",
    "Progenitor.Props.C92_body",
    "Progenitor.Props.C92_query_one_partial",
    "Progenitor.Props.C92_header_one",
    "Progenitor.Props.C92_others",
    "Progenitor.Props.C92_segments_partial",
    "Progenitor.Props.C92_query_fails",
    "Progenitor.Props.C92_segments_fails"
   ],
   "note": "URL, headers and body without guards; the query alone needs that neither base URL nor path has a question mark (C92_query_fails shows the need, C92_query_any holds always); the segments of the path need recoverable arguments (C92_segments_fails)"
  },
  {
   "property": "C93",
   "status": "proved",
   "theorems": [
    "Progenitor.Props.C93_results",
    "Progenitor.Props.C93_futures_iff",
    "Progenitor.Props.C93_websockets_iff",
    "Progenitor.Props.C93_exact",
    "Progenitor.Props.C93_covers",
    "Progenitor.Props.C93_single",
    "Progenitor.Props.C93_failed_fails",
    "Progenitor.Props.C93_cli_fails"
   ],
   "note": "(1)-(3) for all sequences of calls; C93_failed_fails and C93_cli_fails show the two limits that the statement names"
  },
  {
   "property": "C94",
   "status": "partial",
   "theorems": [
    "Progenitor.Props.C94_call_partial",
    "Progenitor.Props.C94_builder_partial",
    "Progenitor.Props.C94_words_partial",
    "Progenitor.Props.C94_followed_partial",
    "Progenitor.Props.C94_positional_partial",
    "Progenitor.Props.C94_stream_partial",
    "Progenitor.Props.C94_list_partial",
    "Progenitor.Props.C94_token_fails"
   ],
   "note": "Guards of C75 (Mockable: plain template constants and base URL, path values that need no encoding, scalar query arguments, names used once; statuses 2xx, 4xx, 5xx), no other mock matches the request, and for commands the guards of C79 and C81. C94_token_fails: a mock that says nothing of the token answers every page."
  },
  {
   "property": "C95",
   "status": "proved",
   "theorems": [
    "Progenitor.Props.C95_place",
    "Progenitor.Props.C95_kept",
    "Progenitor.Props.C95_only",
    "Progenitor.Props.C95_rest",
    "Progenitor.Props.C95_values"
   ],
   "note": "for all schemas whose property names differ (they are keys of a map); C95_kept and C95_place: same annotations at the same place, C95_only: no others; C95_rest and C95_values: nothing else depends on annotations"
  },
  {
   "property": "C96",
   "status": "partial",
   "theorems": [
    "Progenitor.Props.C96_document",
    "Progenitor.Props.C96_generate",
    "Progenitor.Props.C96_iff",
    "Progenitor.Props.C96_argument",
    "Progenitor.Props.C96_response",
    "Progenitor.Props.C96_body",
    "Progenitor.Props.C96_values",
    "Progenitor.Props.C96_values_partial",
    "Progenitor.Props.C96_names_fails"
   ],
   "note": "C96_document, C96_iff, C96_generate, C96_argument, C96_body, C96_response: for all documents and all libraries with LawfulTypes; the values of types (C96_values_partial) for schemas with Faithful and a library that is right about JSON schemas; refuted: names given to typify differ (C96_names_fails)"
  },
  {
   "property": "C97",
   "status": "partial",
   "theorems": [
    "Progenitor.Props.C97_reply",
    "Progenitor.Props.C97_reply_partial",
    "Progenitor.Props.C97_body",
    "Progenitor.Props.C97_body_partial",
    "Progenitor.Props.C97_reply_fails"
   ],
   "note": "C97_reply and C97_body hold for all documents in terms of what schemas mean after conversion (EValid, C45_exact). In terms of validity for the schemas of the document the guard is that they keep their meaning (Faithful); C97_reply_fails refutes the claim without it. RightTypes, ReadsTypes and WritesTypes are assumed of typify and serde; parameters and form bodies are in C100."
  },
  {
   "property": "C98",
   "status": "proved",
   "theorems": [
    "Progenitor.Props.C98_conforming_iff",
    "Progenitor.Props.C98_conforming_partial"
   ],
   "note": "C98_conforming_iff, both directions, in terms of what schemas mean after conversion (EValid); properties of objects have distinct names (Maps), as maps have. C98_conforming_partial: the same for validity of the schemas in the document, guarded by Faithful. RightTypes and ReadsTypes are assumed of typify and serde."
  },
  {
   "property": "C99",
   "status": "proved",
   "theorems": [
    "Progenitor.Props.C99_flags_iff",
    "Progenitor.Props.C99_command",
    "Progenitor.Props.C99_names",
    "Progenitor.Props.C99_files"
   ],
   "note": "Exact for all flags (C99_flags_iff); C99_command leads to the texts of the document. Descriptions of properties are taken from typify. The help of --json-body-template is the placeholder XXX (C99_files)."
  },
  {
   "property": "C100",
   "status": "partial",
   "theorems": [
    "Progenitor.Props.C100_parameters_partial",
    "Progenitor.Props.C100_form_partial",
    "Progenitor.Props.C100_display_fails"
   ],
   "note": "C100_parameters_partial has the guards of C70 on names, path arguments and query keys; RightTypes and RightOptions are assumed of typify, and ValuesTyped says that arguments are values of their types, in paths and headers displayed as they are serialized (C100_display_fails: needed). Validity for the schemas in the document needs Faithful; without it the value is one that the schema has after conversion. C100_form_partial is for all form bodies whose JSON value is no array and in which no unit struct occurs (C19_form_iff has what those are sent as)."
  },
  {
   "property": "C101",
   "status": "proved",
   "theorems": [
    "Progenitor.Props.C101_outcome",
    "Progenitor.Props.C101_sent_iff",
    "Progenitor.Props.C101_builder"
   ],
   "note": "the complete outcome of calls before sending, and the exact condition for a request, for all arguments (what a query and a form can have is QueryOf and FormOf of C11 and C19); URL parsing and JSON serialization are parameters"
  },
  {
   "property": "C102",
   "status": "proved",
   "theorems": [
    "Progenitor.Props.C102_error_iff",
    "Progenitor.Props.C102_panic_iff",
    "Progenitor.Props.C102_document_iff",
    "Progenitor.Props.C102_document_panic_iff"
   ],
   "note": "For all operations: the exact conditions for an error and for a panic, with the order in which deficiencies are found. The texts of the errors are not part of the claim; PropsDistinct is a fact about typify."
  },
  {
   "property": "C103",
   "status": "partial",
   "theorems": [
    "Progenitor.Props.C103_form_partial",
    "Progenitor.Props.C103_flags_partial",
    "Progenitor.Props.C103_body_partial"
   ],
   "note": "Commands of operations that are not paginated (list commands: C105_command_partial). ReadersTyped is a hypothesis about the parsers of clap, files read by serde and the builders of typify; guards of C100 for parameters. Bodies: JSON, and forms (C103_form_partial) whose JSON value is no array and in which no unit struct occurs."
  },
  {
   "property": "C104",
   "status": "partial",
   "theorems": [
    "Progenitor.Props.C104_setters_partial",
    "Progenitor.Props.C104_body_partial",
    "Progenitor.Props.C104_form_partial"
   ],
   "note": "SettersTyped says that setters are given values of their types and that builders of typify make such; guards of C100 for parameters. Bodies: JSON, and forms (C104_form_partial) whose JSON value is no array and in which no unit struct occurs."
  },
  {
   "property": "C105",
   "status": "partial",
   "theorems": [
    "Progenitor.Props.C105_pages_partial",
    "Progenitor.Props.C105_positional_partial",
    "Progenitor.Props.C105_builder_partial",
    "Progenitor.Props.C105_command_partial"
   ],
   "note": "ValuesTyped, SettersTyped, ReadersTyped and TokensTyped say that arguments and the tokens of servers are values of their types; guards of C100 and C84 for parameters, and of C81 for list commands."
  }
 ]
}