{
 "claims": [
  {
   "property": "C01",
   "status": "proved",
   "theorems": [
    "Props.C01.C01_roundtrip_base",
    "Props.C01.C01_roundtrip_nobase",
    "Props.C01.C01_wire_format",
    "Props.C01.C01_reading",
    "Props.C01.C01_forms",
    "Props.C01.C01_injective"
   ],
   "note": "Round trip for every token list with and without base, exact exception, RFC 6901 wire format and reading, injectivity."
  },
  {
   "property": "C02",
   "status": "proved",
   "theorems": [
    "Props.C02.C02_resolves",
    "Props.C02.C02_pointer"
   ],
   "note": "Every object found by the walk is registered under the JSON pointer of its place, and resolving that pointer from the root gives the object back; for documents without empty or repeated names. int() spellings of list indices beyond plain digits are outside the model."
  },
  {
   "property": "C03",
   "status": "proved",
   "theorems": [
    "Props.C03.C03_visited",
    "Props.C03.C03_order",
    "Props.C03.C03_root",
    "Props.C03.C03_calls",
    "Props.C03.C03_sees",
    "Props.C03.C03_twice_false"
   ],
   "note": "Exact set, multiplicity and order of the visited objects for leaf and non-leaf classes, and the handlers called for each, in order. The reading 'a handler is called at most once per object' is refuted: a handler registered for a class and one of its bases is called twice (C03_twice_false)."
  },
  {
   "property": "C04",
   "status": "proved",
   "theorems": [
    "Props.C04.C04_roundtrip_iff",
    "Props.C04.C04_roundtrip",
    "Props.C04.C04_neutral",
    "Props.C04.C04_form",
    "Props.C04.C04_split",
    "Props.C04.C04_separator_free_false"
   ],
   "note": "Round trip under the exact (iff) condition on the separator; the weaker 'components do not contain the separator' is refuted by a witness."
  },
  {
   "property": "C05",
   "status": "partial",
   "theorems": [
    "Props.C05.C05_exact",
    "Props.C05.C05_absent",
    "Props.C05.C05_unique_suffix",
    "Props.C05.C05_last_component",
    "Props.C05.C05_ambiguous",
    "Props.C05.C05_tuple",
    "Props.C05.C05_tuple_none",
    "Props.C05.C05_order_independent",
    "Props.C05.C05_short_name_partial",
    "Props.C05.C05_short_name_false"
   ],
   "note": "Complete decision of every lookup and order independence are proved; the claim that a short name finds only an entry with that last component is refuted (suffix match is not component-aligned)."
  },
  {
   "property": "C06",
   "status": "partial",
   "theorems": [
    "Props.C06.C06_index",
    "Props.C06.C06_access_partial",
    "Props.C06.C06_every_tag_false"
   ],
   "note": "Exact index, SchemaError condition and access by the first tag are proved; access by further tags, as documented, is refuted (only tags[0] is indexed)."
  },
  {
   "property": "C07",
   "status": "proved",
   "theorems": [
    "Props.C07.C07_walk",
    "Props.C07.C07_deterministic",
    "Props.C07.C07_default"
   ],
   "note": "Termination, soundness, completeness, no duplicates, for every finite graph (vertices of any linearly ordered type)."
  },
  {
   "property": "C08",
   "status": "proved",
   "theorems": [
    "Props.C08.C08_edges",
    "Props.C08.C08_strict_cycle_check"
   ],
   "note": "For documents whose references resolve within a finite set (app.resolve not raising)."
  },
  {
   "property": "C09",
   "status": "proved",
   "theorems": [
    "Props.C09.C09_terminates",
    "Props.C09.C09_result_iff",
    "Props.C09.C09_error",
    "Props.C09.C09_guard",
    "Props.C09.C09_final"
   ],
   "note": "Termination on finite graphs, exact result and error condition, guard contents."
  },
  {
   "property": "C10",
   "status": "partial",
   "theorems": [
    "Props.C10.C10_none",
    "Props.C10.C10_local",
    "Props.C10.C10_absolute",
    "Props.C10.C10_relative",
    "Props.C10.C10_idempotent",
    "Props.C10.C10_total",
    "Props.C10.C10_split",
    "Props.C10.C10_normalize_url",
    "Props.C10.C10_drive",
    "Props.C10.C10_root_document_false"
   ],
   "note": "Local, absolute and relative references (the latter for documents below a folder), totality, idempotence and splitting are proved; for documents at the root of the host the relative case is refuted (doubled slash)."
  },
  {
   "property": "C11",
   "status": "proved",
   "theorems": [
    "Props.C11.C11_spec_functional",
    "Props.C11.C11_components",
    "Props.C11.C11_no_dots",
    "Props.C11.C11_identity",
    "Props.C11.C11_idempotent",
    "Props.C11.C11_text",
    "Props.C11.C11_params_false"
   ],
   "note": "For absolute URLs without ';' in the path (and without '//' when there is no authority); the ';' hypothesis is shown to be needed."
  },
  {
   "property": "C12",
   "status": "proved",
   "theorems": [
    "Props.C12.C12_join",
    "Props.C12.C12_join_text",
    "Props.C12.C12_join_components",
    "Props.C12.C12_dirname_other",
    "Props.C12.C12_dirname_file",
    "Props.C12.C12_dirname_root_file"
   ],
   "note": "Component level for every URL; text level for absolute URLs."
  },
  {
   "property": "C13",
   "status": "proved",
   "theorems": [
    "Props.C13.C13_spec",
    "Props.C13.C13_ends",
    "Props.C13.C13_idempotent"
   ],
   "note": "POSIX; exact result, extension choice, idempotence."
  },
  {
   "property": "C14",
   "status": "proved",
   "theorems": [
    "Props.C14.C14_datetime",
    "Props.C14.C14_date",
    "Props.C14.C14_primitives",
    "Props.C14.C14_arguments",
    "Props.C14.C14_z_and_fraction"
   ],
   "note": "All valid dates and date-times with whole-minute offsets below a day; ASCII digits; timestamps are a parameter."
  },
  {
   "property": "C15",
   "status": "partial",
   "theorems": [
    "Props.C15.C15_decision",
    "Props.C15.C15_reject",
    "Props.C15.C15_whole",
    "Props.C15.C15_whole_string_false"
   ],
   "note": "Complete decision (value of the longest prefix in the documented format, ValueError otherwise) is proved; the claim that the whole string must be in the format is refuted."
  },
  {
   "property": "C16",
   "status": "proved",
   "theorems": [
    "Props.C16.C16_read",
    "Props.C16.C16_contains",
    "Props.C16.C16_delete",
    "Props.C16.C16_iterate",
    "Props.C16.C16_size",
    "Props.C16.C16_order"
   ],
   "note": "Reading, membership, deletion, iteration, size and order after any history; lower-casing is an arbitrary function."
  },
  {
   "property": "C17",
   "status": "proved",
   "theorems": [
    "Props.C17.C17_result",
    "Props.C17.C17_others",
    "Props.C17.C17_effect",
    "Props.C17.C17_count",
    "Props.C17.C17_idempotent"
   ],
   "note": "Exact result, frame, effect, multiplicity, idempotence."
  },
  {
   "property": "C18",
   "status": "proved",
   "theorems": [
    "Props.C18.C18_register",
    "Props.C18.C18_credential",
    "Props.C18.C18_header",
    "Props.C18.C18_query",
    "Props.C18.C18_unchanged",
    "Props.C18.C18_idempotent",
    "Props.C18.C18_all_alternatives",
    "Props.C18.C18_no_bearer"
   ],
   "note": "Registration, the exact header/query effect of each scheme, untouched names, idempotence and application of every alternative. An OAuth2 scheme declares no place; the code uses a header access_token, not those of RFC 6750 (C18_no_bearer)."
  },
  {
   "property": "C19",
   "status": "proved",
   "theorems": [
    "Props.C19.C19_list",
    "Props.C19.C19_opt_out",
    "Props.C19.C19_inherit",
    "Props.C19.C19_override",
    "Props.C19.C19_open"
   ],
   "note": "The list in force (own list, else the service-wide one), opting out, inheriting, overriding; combined with the model of Security.__call__."
  },
  {
   "property": "C20",
   "status": "proved",
   "theorems": [
    "Props.C20.C20_fixed",
    "Props.C20.C20_resend",
    "Props.C20.C20_never_fails",
    "Props.C20.C20_named_files",
    "Props.C20.C20_same_dict",
    "Props.C20.C20_shared_options_false",
    "Props.C20.C20_streams_false"
   ],
   "note": "Fixed point and any number of resends for requests without file streams (files given by name included); refuted: reuse of one option dict (C20_shared_options_false) and file streams (C20_streams_false, outside the claim)."
  },
  {
   "property": "C21",
   "status": "proved",
   "theorems": [
    "Props.C21.C21_filled",
    "Props.C21.C21_missing",
    "Props.C21.C21_inserted",
    "Props.C21.C21_structure",
    "Props.C21.C21_injective",
    "Props.C21.C21_path_decoding_false"
   ],
   "note": "Every placeholder is replaced by the quote_plus text of its value and nothing else changes; missing values raise KeyError. C21_path_decoding_false refutes the reading in which the server percent-decodes the path without form decoding ('+' stays)."
  },
  {
   "property": "C22",
   "status": "proved",
   "theorems": [
    "Props.C22.C22_roundtrip",
    "Props.C22.C22_prepared",
    "Props.C22.C22_injective"
   ],
   "note": "An independent form decoder reads back exactly the submitted pairs from the prepared body."
  },
  {
   "property": "C23",
   "status": "proved",
   "theorems": [
    "Props.C23.C23_roundtrip",
    "Props.C23.C23_success",
    "Props.C23.C23_quotes_false",
    "Props.C23.C23_linebreak_false",
    "Props.C23.C23_headers_false"
   ],
   "note": "Round trip through an RFC reader for hexadecimal boundaries absent from the contents, for names without double quotes or carriage returns; C23_quotes_false, C23_linebreak_false, C23_headers_false show that these conditions (and the restriction to two headers) are needed."
  },
  {
   "property": "C24",
   "status": "partial",
   "theorems": [
    "Props.C24.C24_content_type",
    "Props.C24.C24_rejected",
    "Props.C24.C24_accept",
    "Props.C24.C24_headers",
    "Props.C24.C24_form_choice_false",
    "Props.C24.C24_files_unchecked"
   ],
   "note": "Types announced are allowed by the operation, else SchemaError. C24_form_choice_false refutes respect of an explicit choice for form payloads; C24_files_unchecked records the unchecked case handle_files=False."
  },
  {
   "property": "C25",
   "status": "proved",
   "theorems": [
    "Props.C25.C25_candidates",
    "Props.C25.C25_choice",
    "Props.C25.C25_failure",
    "Props.C25.C25_url"
   ],
   "note": "Candidates, choice, failure condition, place in the URL."
  },
  {
   "property": "C26",
   "status": "proved",
   "theorems": [
    "Props.C26.C26_options",
    "Props.C26.C26_result",
    "Props.C26.C26_unchanged",
    "Props.C26.C26_components",
    "Props.C26.C26_params_scheme_false"
   ],
   "note": "Exact result, untouched URL without options, option removal, component-wise statement for absolute URLs with host; C26_params_scheme_false shows the condition on ';' parameters is needed."
  },
  {
   "property": "C27",
   "status": "partial",
   "theorems": [
    "Props.C27.C27_list",
    "Props.C27.C27_joined",
    "Props.C27.C27_dict",
    "Props.C27.C27_none",
    "Props.C27.C27_errors",
    "Props.C27.C27_containers",
    "Props.C27.C27_containers_false",
    "Props.C27.C27_spelling_false"
   ],
   "note": "Exact results for lists, dicts and joining are proved; 'the caller's containers are not modified' is refuted (C27_containers_false), and names are compared with their case (C27_spelling_false)."
  },
  {
   "property": "C28",
   "status": "proved",
   "theorems": [
    "Props.C28.C28_status",
    "Props.C28.C28_headers",
    "Props.C28.C28_raw",
    "Props.C28.C28_raw_last",
    "Props.C28.C28_status_first",
    "Props.C28.C28_reset",
    "Props.C28.C28_declared_spelling_false"
   ],
   "note": "Status, raw body and header values after any history of calls (failed calls included), body before status, reset. Header declarations are matched by exact spelling only (refuted variant C28_declared_spelling_false)."
  },
  {
   "property": "C29",
   "status": "proved",
   "theorems": [
    "Props.C29.C29_entry",
    "Props.C29.C29_body",
    "Props.C29.C29_once",
    "Props.C29.C29_raw_only",
    "Props.C29.C29_stale_data_false",
    "Props.C29.C29_late_headers_false"
   ],
   "note": "Exact outcome of every call that delivers a body after any history. Two natural stronger readings are refuted: data of an earlier body stays when the next is not convertible, and headers delivered after the body do not count."
  },
  {
   "property": "C30",
   "status": "proved",
   "theorems": [
    "Props.C30.C30_lookup",
    "Props.C30.C30_every_text",
    "Props.C30.C30_unregister",
    "Props.C30.C30_registered_parameters_false",
    "Props.C30.C30_unreachable"
   ],
   "note": "Codec used after any history for every Content-Type text, exception when none, unregister. Names registered with parameters are unreachable (refuted variant and general theorem)."
  },
  {
   "property": "C31",
   "status": "partial",
   "theorems": [
    "Props.C31.C31_succeeds",
    "Props.C31.C31_value_error",
    "Props.C31.C31_raises",
    "Props.C31.C31_empty",
    "Props.C31.C31_first_error_false"
   ],
   "note": "Success is characterised exactly, every missing or unknown parameter makes the call raise, and the exception is ValueError when all other arguments are fine. Refuted part: an argument declared earlier that fails to convert raises its own exception first."
  },
  {
   "property": "C32",
   "status": "proved",
   "theorems": [
    "Props.C32.C32_request",
    "Props.C32.C32_only_there",
    "Props.C32.C32_absent",
    "Props.C32.C32_array_texts",
    "Props.C32.C32_converted_by",
    "Props.C32.C32_none_sent"
   ],
   "note": "Contents of every part of the request for every successful call; one location per parameter when names differ. An explicit None is sent as text (separate fact)."
  },
  {
   "property": "C33",
   "status": "partial",
   "theorems": [
    "Props.C33.C33_integer",
    "Props.C33.C33_number",
    "Props.C33.C33_allOf",
    "Props.C33.C33_allOf_number",
    "Props.C33.C33_integer_multiple_false",
    "Props.C33.C33_nan_false",
    "Props.C33.C33_allOf_zero_false"
   ],
   "note": "Decided for every value, limits and schema read by the integer and number handlers (acceptance iff within the limits and multiples), and for each allOf part applied to a non-zero number. Refuted as stated, hence partial: multipleOf is not checked for integers (C33_integer_multiple_false), NaN passes limits (C33_nan_false), limits in allOf are skipped for zero (C33_allOf_zero_false)."
  },
  {
   "property": "C34",
   "status": "partial",
   "theorems": [
    "Props.C34.C34_string",
    "Props.C34.C34_email",
    "Props.C34.C34_allOf",
    "Props.C34.C34_allOf_email",
    "Props.C34.C34_maxLength_zero_false",
    "Props.C34.C34_enum_other_types_false",
    "Props.C34.C34_email_allOf_false",
    "Props.C34.C34_untyped_allOf"
   ],
   "note": "Decided for every text: accepted iff enum and length limits hold; email; allOf parts. Refuted corners, hence partial: maxLength 0 is ignored (C34_maxLength_zero_false), enum of other types is not checked (C34_enum_other_types_false)."
  },
  {
   "property": "C35",
   "status": "partial",
   "theorems": [
    "Props.C35.C35_array",
    "Props.C35.C35_firsts",
    "Props.C35.C35_text",
    "Props.C35.C35_url",
    "Props.C35.C35_separators",
    "Props.C35.C35_empty_elements_false",
    "Props.C35.C35_unique_after_conversion_false",
    "Props.C35.C35_no_items_false"
   ],
   "note": "Decided for every list and text: limits, uniqueness, splitting, joining, URL form. Refuted corners, hence partial: leading empty elements are lost in the text (C35_empty_elements_false), uniqueness is checked before conversion (C35_unique_after_conversion_false), no items object (C35_no_items_false)."
  },
  {
   "property": "C36",
   "status": "partial",
   "theorems": [
    "Props.C36.C36_content",
    "Props.C36.C36_rejects",
    "Props.C36.C36_not_object",
    "Props.C36.C36_allOf",
    "Props.C36.C36_required",
    "Props.C36.C36_allOf_only_false",
    "Props.C36.C36_required_undeclared_false",
    "Props.C36.C36_typeless_false",
    "Props.C36.C36_wrapper"
   ],
   "note": "Exact content, acceptance and rejection proved for object schemas with properties, additionalProperties, defaults, required and allOf. The unrestricted claim is refuted: an allOf-only schema keeps raw values, a required name declared only in a later part raises, and a schema without type is not read as a model."
  },
  {
   "property": "C37",
   "status": "partial",
   "theorems": [
    "Props.C37.C37_write",
    "Props.C37.C37_write_allOf",
    "Props.C37.C37_read",
    "Props.C37.C37_nested_false",
    "Props.C37.C37_array_false"
   ],
   "note": "Exact for the top level of a value and for allOf parts, in both read and write context. The claim for nested objects and for array items is refuted by counterexample."
  },
  {
   "property": "C38",
   "status": "partial",
   "theorems": [
    "Props.C38.C38_meaning",
    "Props.C38.C38_reflexive",
    "Props.C38.C38_symmetric",
    "Props.C38.C38_transitive",
    "Props.C38.C38_ne",
    "Props.C38.C38_none",
    "Props.C38.C38_nonmapping_false",
    "Props.C38.C38_plain_dicts_false",
    "Props.C38.C38_nan_false"
   ],
   "note": "Equality is characterised, and proved reflexive, symmetric and transitive on values that can be compared. Plain dicts, operands that are not mappings and NaN are refuted by counterexample."
  },
  {
   "property": "C39",
   "status": "partial",
   "theorems": [
    "Props.C39.C39_stack",
    "Props.C39.C39_ends",
    "Props.C39.C39_schemas",
    "Props.C39.C39_lists",
    "Props.C39.C39_composed",
    "Props.C39.C39_default_false",
    "Props.C39.C39_text_false"
   ],
   "note": "The statement as given is refuted: a property of its own type whose default is an object (C39_default_false) and a text against an array of itself (C39_text_false) exhaust every stack. Proved: a result never changes with more stack; in every finite graph a conversion ends when the chains of conversions it leads to end, with corollaries for all graphs with ranked items and object-free defaults, for lists, and for graphs cyclic through $ref and allOf only."
  },
  {
   "property": "C40",
   "status": "partial",
   "theorems": [
    "Props.C40.C40_is_primitive",
    "Props.C40.C40_get",
    "Props.C40.C40_none",
    "Props.C40.C40_total",
    "Props.C40.C40_value_error",
    "Props.C40.C40_no_default_false",
    "Props.C40.C40_shipped",
    "Props.C40.C40_frame"
   ],
   "note": "Lookup, fallback, is_primitive and the frame of a registration proved for every history, and the shipped table for every type and format; unknown types raise ValueError. Refuted part: a type registered without a default format raises TypeError for other formats."
  },
  {
   "property": "C41",
   "status": "proved",
   "theorems": [
    "Props.C41.C41_bytes",
    "Props.C41.C41_text",
    "Props.C41.C41_urlsafe",
    "Props.C41.C41_length",
    "Props.C41.C41_injective",
    "Props.C41.C41_rejects",
    "Props.C41.C41_str",
    "Props.C41.C41_read_back_false"
   ],
   "note": "All byte strings and texts; also injectivity, alphabet and length. Reading a received text does not decode it (stated as a separate refutation)."
  },
  {
   "property": "C42",
   "status": "partial",
   "theorems": [
    "Props.C42.C42_grammar",
    "Props.C42.C42_dump",
    "Props.C42.C42_reload",
    "Props.C42.C42_kept",
    "Props.C42.C42_fields",
    "Props.C42.C42_nothing",
    "Props.C42.C42_null_entry",
    "Props.C42.C42_security_false",
    "Props.C42.C42_scopes_false",
    "Props.C42.C42_anything_false",
    "Props.C42.C42_schema_false",
    "Props.C42.C42_extension_false"
   ],
   "note": "Proved for all documents without nulls and without empty containers where they matter (Spec.Doc.Full), for all Swagger 2.0 classes; without that condition the property is false (C42_security_false, C42_scopes_false, C42_anything_false, C42_schema_false, C42_extension_false). The dump of the freshly read document is modelled, before App.prepare adds inherited values."
  },
  {
   "property": "C43",
   "status": "proved",
   "theorems": [
    "Props.C43.C43_fields",
    "Props.C43.C43_untouched",
    "Props.C43.C43_present",
    "Props.C43.C43_scalar",
    "Props.C43.C43_objects_kept",
    "Props.C43.C43_objects_copied",
    "Props.C43.C43_lists",
    "Props.C43.C43_dicts",
    "Props.C43.C43_total",
    "Props.C43.C43_order_false",
    "Props.C43.C43_equal_false"
   ],
   "note": "All classes of Swagger 2.0, all exclusion lists; success for shaped objects in C43_total. C43_order_false and C43_equal_false record that copied lists lose order and Python-equal elements."
  },
  {
   "property": "C44",
   "status": "partial",
   "theorems": [
    "Props.C44.C44_true",
    "Props.C44.C44_equal",
    "Props.C44.C44_both",
    "Props.C44.C44_names",
    "Props.C44.C44_error",
    "Props.C44.C44_class",
    "Props.C44.C44_decides",
    "Props.C44.C44_lists_false"
   ],
   "note": "Proved: True exactly when the second document repeats the first (longer lists allowed), both directions together decide equality, the named place differs, the only exception is IndexError for a longer list. Refuted: list lengths are not compared (C44_lists_false)."
  },
  {
   "property": "C45",
   "status": "partial",
   "theorems": [
    "Props.C45.C45_entries",
    "Props.C45.C45_once",
    "Props.C45.C45_raises",
    "Props.C45.C45_empty",
    "Props.C45.C45_decides",
    "Props.C45.C45_equal_false",
    "Props.C45.C45_numbers_false"
   ],
   "note": "Holds as stated for documents whose lists have elements of one type (texts, numbers, dicts, or at most one element), with Python's equality of scalars (C45_decides); when _diff_ returns, its entries are exactly the differences, each once (C45_entries, C45_once, C45_empty). Fails in general: lists that mix types or cannot be sorted raise even for equal documents (C45_equal_false), and 1, True and 1.0 are not told apart (C45_numbers_false). Exactly when it raises: C45_raises. Empty keys are excluded."
  },
  {
   "property": "C46",
   "status": "partial",
   "theorems": [
    "Props.C46.C46_once",
    "Props.C46.C46_loaded",
    "Props.C46.C46_fetch",
    "Props.C46.C46_bad",
    "Props.C46.C46_rfc",
    "Props.C46.C46_source",
    "Props.C46.C46_hook",
    "Props.C46.C46_pointer_false",
    "Props.C46.C46_empty_false"
   ],
   "note": "Proved for all histories: no URL is fetched again after a fetch brought a document (C46_once), later references see that document (C46_loaded), a first reference fetches once (C46_fetch), values are exactly those found by following the tokens with Python's list indexing, RFC 6901 pointers among them (C46_rfc), dangling pointers raise. Refuted parts: negative indices and fragments that are no pointers do not raise (C46_pointer_false), an empty document is fetched again (C46_empty_false). Fragments are not percent-decoded."
  },
  {
   "property": "C47",
   "status": "partial",
   "theorems": [
    "Props.C47.C47_right",
    "Props.C47.C47_again",
    "Props.C47.C47_below",
    "Props.C47.C47_local",
    "Props.C47.C47_closed",
    "Props.C47.C47_refused",
    "Props.C47.C47_prefix_false",
    "Props.C47.C47_retry_false"
   ],
   "note": "Proved for all histories of references whose pointers are not text prefixes of each other unless their tokens are (C47_right, C47_again, C47_below, C47_local). Refuted in general: a cached User is returned for UserList (C47_prefix_false), and a schema with a dangling $ref raises first and is returned later (C47_retry_false)."
  },
  {
   "property": "C48",
   "status": "partial",
   "theorems": [
    "Props.C48.C48_known",
    "Props.C48.C48_other",
    "Props.C48.C48_fragment",
    "Props.C48.C48_loaded",
    "Props.C48.C48_cases",
    "Props.C48.C48_exception_false"
   ],
   "note": "Proved: which documents are accepted, by which parser, with which version (C48_known, C48_fragment, C48_loaded), other declared versions raise NotImplementedError (C48_other); C48_cases shows the cases are complete for dicts. Refuted part: a document that is no dict raises AttributeError, and a version-less object of a version-less parser raises NameError (C48_exception_false)."
  },
  {
   "property": "C49",
   "status": "proved",
   "theorems": [
    "Props.C49.C49_errors",
    "Props.C49.C49_strict",
    "Props.C49.C49_valid"
   ],
   "note": "Exact errors (with multiplicity and path) of a 2.0 document whose schemas have the shape the parser gives them; strict mode. References are not followed, as the code says."
  },
  {
   "property": "C50",
   "status": "partial",
   "theorems": [
    "Props.C50.C50_exact",
    "Props.C50.C50_alone",
    "Props.C50.C50_override",
    "Props.C50.C50_names",
    "Props.C50.C50_again",
    "Props.C50.C50_location_false",
    "Props.C50.C50_unrelated_false"
   ],
   "note": "Exact result by names, the documented rule when a name is used in one location only, stability under preparing again. Refuted: override by name and location (C50_location_false), independence of inherited parameters (C50_unrelated_false)."
  },
  {
   "property": "C51",
   "status": "proved",
   "theorems": [
    "Props.C51.C51_order",
    "Props.C51.C51_media",
    "Props.C51.C51_schemes",
    "Props.C51.C51_place",
    "Props.C51.C51_reads",
    "Props.C51.C51_item",
    "Props.C51.C51_detached",
    "Props.C51.C51_refused",
    "Props.C51.C51_file",
    "Props.C51.C51_unsent"
   ],
   "note": "Media types, schemes, host, base path, path, method, URL and its reading back, for documents loaded from an absolute URL. C51_refused, C51_file and C51_unsent say when clients refuse an operation and that they send nothing then."
  },
  {
   "property": "C52",
   "status": "partial",
   "theorems": [
    "Props.C52.C52_terminates",
    "Props.C52.C52_raises",
    "Props.C52.C52_chain",
    "Props.C52.C52_scalars",
    "Props.C52.C52_objects",
    "Props.C52.C52_lists",
    "Props.C52.C52_pathItem",
    "Props.C52.C52_first_false"
   ],
   "note": "Termination on cycles, TypeError on another kind, scalar fields and fields with objects from the first object of the chain, path items; list fields are joined over the chain instead, so 'first that sets it' is refuted for them. Internal fields (normalized_ref etc.) are not modelled."
  },
  {
   "property": "C53",
   "status": "proved",
   "theorems": [
    "Props.C53.C53_terminates",
    "Props.C53.C53_composed",
    "Props.C53.C53_document",
    "Props.C53.C53_union",
    "Props.C53.C53_own",
    "Props.C53.C53_inherited",
    "Props.C53.C53_copies",
    "Props.C53.C53_values",
    "Props.C53.C53_alike",
    "Props.C53.C53_whole",
    "Props.C53.C53_scalars",
    "Props.C53.C53_lists",
    "Props.C53.C53_dicts",
    "Props.C53.C53_items",
    "Props.C53.C53_items_inherited",
    "Props.C53.C53_override_false",
    "Props.C53.C53_kinds_false"
   ],
   "note": "Termination for every finite reference graph, exact union of properties, own definitions first, faithful copies; plain fields by kind: lists united (C53_lists), dicts merged (C53_dicts), scalars own-first (C53_scalars), nothing lost when the values are alike (C53_alike). Findings: among the parts a nested base wins over the part that refines it (C53_override_false); values of different kinds in parts make composing raise (C53_kinds_false)."
  },
  {
   "property": "C54",
   "status": "proved",
   "theorems": [
    "Props.C54.C54_keys",
    "Props.C54.C54_lookup",
    "Props.C54.C54_kept",
    "Props.C54.C54_none",
    "Props.C54.C54_again",
    "Props.C54.C54_both_false"
   ],
   "note": "Keys, lookup, exact table when no code has both spellings, stability; the loss with both spellings is shown (C54_both_false), as the statement allows."
  },
  {
   "property": "C55",
   "status": "partial",
   "theorems": [
    "Props.C55.C55_places",
    "Props.C55.C55_site",
    "Props.C55.C55_relative",
    "Props.C55.C55_operation",
    "Props.C55.C55_load",
    "Props.C55.C55_url",
    "Props.C55.C55_url_relative",
    "Props.C55.C55_refused",
    "Props.C55.C55_hosts_false",
    "Props.C55.C55_disjoint_false",
    "Props.C55.C55_empty_false",
    "Props.C55.C55_scheme_false",
    "Props.C55.C55_twice_false"
   ],
   "note": "For every 1.2 document: upgraded host and paths are exactly host and rest of the declared URLs when all are on one site (C55_site, C55_operation, C55_url) and the declared paths when all are relative; refusals decided (C55_refused). Refuted beyond: different hosts are not refused but merged, the scheme is lost, documents without operations crash, one of two operations at one URL is dropped."
  },
  {
   "property": "C56",
   "status": "partial",
   "theorems": [
    "Props.C56.C56_operations",
    "Props.C56.C56_parameters",
    "Props.C56.C56_param",
    "Props.C56.C56_schema",
    "Props.C56.C56_definitions",
    "Props.C56.C56_models",
    "Props.C56.C56_references",
    "Props.C56.C56_schemes",
    "Props.C56.C56_only_schemes",
    "Props.C56.C56_tags",
    "Props.C56.C56_info",
    "Props.C56.C56_accepts",
    "Props.C56.C56_slash_false",
    "Props.C56.C56_auth_false",
    "Props.C56.C56_resource_scopes_false",
    "Props.C56.C56_multiple_limits_false",
    "Props.C56.C56_zero_limit_false",
    "Props.C56.C56_fraction_false",
    "Props.C56.C56_flow_false",
    "Props.C56.C56_no_info_false"
   ],
   "note": "Exact relation between declared and upgraded operations, parameters, data types, models, authorisations and information, and exact acceptance condition (C56_accepts), for all documents. The statement itself is refuted: names with a slash break references and security, resource authorisations with scopes crash, limits of repeated parameters and limits of zero are dropped, fractional limits truncated, flow access_code is not a 2.0 flow. responseMessages and message texts not modelled."
  },
  {
   "property": "C57",
   "status": "partial",
   "theorems": [
    "Props.C57.C57_integer",
    "Props.C57.C57_string",
    "Props.C57.C57_array",
    "Props.C57.C57_email",
    "Props.C57.C57_enum",
    "Props.C57.C57_unknown",
    "Props.C57.C57_integer_limits",
    "Props.C57.C57_number",
    "Props.C57.C57_multiples",
    "Props.C57.C57_multiples_limits",
    "Props.C57.C57_accepted",
    "Props.C57.C57_minimum_false",
    "Props.C57.C57_maximum_false",
    "Props.C57.C57_multiple_false",
    "Props.C57.C57_enum_false",
    "Props.C57.C57_bool_enum_false",
    "Props.C57.C57_long_false",
    "Props.C57.C57_unique_false",
    "Props.C57.C57_items_false",
    "Props.C57.C57_number_false",
    "Props.C57.C57_format_false",
    "Props.C57.C57_fraction_false"
   ],
   "note": "Exact sets of rendered integers, numbers, texts and lists over all random draws, exact effect of an enum and of an unknown format, and acceptance by the factory of everything rendered for fitting schemas of any nesting (C57_accepted). The statement itself is refuted: limits of 0 are ignored, rounding to a multiple goes below the minimum, falsy enum values, long minimum lengths, uniqueItems, arrays without items, negative maxima of numbers, unknown formats and fractional limits. Generators for byte, date, date-time, uuid and file are a parameter; floats are exact."
  },
  {
   "property": "C58",
   "status": "partial",
   "theorems": [
    "Props.C58.C58_object",
    "Props.C58.C58_raises",
    "Props.C58.C58_contents",
    "Props.C58.C58_any",
    "Props.C58.C58_succeeds",
    "Props.C58.C58_value",
    "Props.C58.C58_additional_false",
    "Props.C58.C58_undeclared_false",
    "Props.C58.C58_maxProperties_false",
    "Props.C58.C58_minProperties_false",
    "Props.C58.C58_recursive_false",
    "Props.C58.C58_template_false",
    "Props.C58.C58_minimal_false",
    "Props.C58.C58_names_false",
    "Props.C58.C58_readOnly_false"
   ],
   "note": "Exact sets of rendered objects and of errors over all random draws, their contents (required, templates, minimal_property, max_property), and success for every schema whose limits leave something to choose. The statement itself is refuted: additionalProperties without minProperties raise TypeError, required but undeclared properties, min/maxProperties, recursive optional properties, undeclared templates, minimal_property with additional properties, endless search for names, read-only properties."
  },
  {
   "property": "C59",
   "status": "partial",
   "theorems": [
    "Props.C59.C59_exact",
    "Props.C59.C59_raises",
    "Props.C59.C59_contents",
    "Props.C59.C59_succeeds",
    "Props.C59.C59_accepted",
    "Props.C59.C59_reference_false",
    "Props.C59.C59_reference_name_false",
    "Props.C59.C59_same_name_false",
    "Props.C59.C59_excluded_false",
    "Props.C59.C59_template_false"
   ],
   "note": "Exact sets of rendered parameter sets and of errors over all random draws, their contents, success, and acceptance by the operation for fitting parameters. The statement itself is refuted for parameters declared by reference, parameters of one name at two places, excluded required parameters and templates for unknown names."
  },
  {
   "property": "C60",
   "status": "partial",
   "theorems": [
    "Props.C60.C60_errors",
    "Props.C60.C60_raises",
    "Props.C60.C60_exception",
    "Props.C60.C60_strict",
    "Props.C60.C60_unknown_false",
    "Props.C60.C60_file_false",
    "Props.C60.C60_shaped",
    "Props.C60.C60_read",
    "Props.C60.C60_unreported",
    "Props.C60.C60_missing_false"
   ],
   "note": "Proved over trees of 1.2 objects: unless an operation asks for an unknown authorisation or has a file parameter without consumes, validation lists every violation of the rules exactly once under the pointer and class of the object, and nothing else (C60_errors); it fails exactly in these two cases, with KeyError resp. TypeError (C60_raises, C60_exception); strict mode (C60_strict). Refuted: an unknown authorisation is reported (C60_unknown_false), a file parameter without consumes is reported (C60_file_false). For documents as read by the parser (C85): C60_shaped, C60_read; a missing parameters, apis or anything about an api is never reported (C60_unreported), refuting that the rules of the standard about these are checked (C60_missing_false). Assumed: consumes of an operation is a list where given (a text there is searched by substring)."
  },
  {
   "property": "C61",
   "status": "proved",
   "theorems": [
    "Props.C61.C61_reads",
    "Props.C61.C61_order",
    "Props.C61.C61_local",
    "Props.C61.C61_plain",
    "Props.C61.C61_file_url",
    "Props.C61.C61_drive",
    "Props.C61.C61_file",
    "Props.C61.C61_dir",
    "Props.C61.C61_bare",
    "Props.C61.C61_missing",
    "Props.C61.C61_file_false",
    "Props.C61.C61_simple",
    "Props.C61.C61_dict",
    "Props.C61.C61_dict_false"
   ],
   "note": "Proved for every sequence of calls, whatever is found at each call: k-th result is the k-th URL read by the stated rules, then StopIteration (C61_order, C61_reads); which file a local path stands for is decided exactly (C61_local, C61_plain, C61_file_url, C61_drive, C61_missing) and it is that file which is read (C61_file, C61_dir, C61_bare); SimpleGetter, UrlGetter and DictGetter (C61_simple, C61_dict). Refuted beside it: the located file is always the file read (C61_file_false: directory named like a YAML file), a list of URLs can be used for two DictGetters (C61_dict_false). Parsers, file system and os.path.abspath are parameters."
  },
  {
   "property": "C62",
   "status": "partial",
   "theorems": [
    "Props.C62.C62_keep",
    "Props.C62.C62_off",
    "Props.C62.C62_failed_false",
    "Props.C62.C62_several_false"
   ],
   "note": "Proved for every session of the webapp2 client: with keep_cookie a request carries the cookie of the latest completed exchange that set one, none before (C62_keep); without it none (C62_off). Refuted: the cookie of a reply whose body cannot be converted is lost (C62_failed_false), of several cookies in one reply only the last is kept (C62_several_false). The webapp2 library is a parameter."
  },
  {
   "property": "C63",
   "status": "proved",
   "theorems": [
    "Props.C63.C63_headers",
    "Props.C63.C63_frame",
    "Props.C63.C63_payload",
    "Props.C63.C63_sent"
   ],
   "note": "Exact headers, frame and payload choice."
  },
  {
   "property": "C64",
   "status": "partial",
   "theorems": [
    "Props.C64.C64_requests",
    "Props.C64.C64_tornado",
    "Props.C64.C64_flask",
    "Props.C64.C64_webapp2",
    "Props.C64.C64_webapp2_false",
    "Props.C64.C64_flask_false"
   ],
   "note": "Proved for all four clients (C64_requests, C64_tornado, C64_flask, C64_webapp2), flask with the restriction that of form fields of equal name sent along with files only the last arrives (C64_flask_false), webapp2 for URLs without query not ending in & and with a query not ending in ? (C64_webapp2_false). The libraries are parameters."
  },
  {
   "property": "C65",
   "status": "partial",
   "theorems": [
    "Props.C65.C65_requests",
    "Props.C65.C65_flask",
    "Props.C65.C65_webapp2",
    "Props.C65.C65_tornado",
    "Props.C65.C65_tornado_false"
   ],
   "note": "Proved for requests, flask and webapp2 (C65_requests, C65_flask, C65_webapp2). Refuted for tornado, which reads every body as JSON (C65_tornado_false, exact behaviour C65_tornado)."
  },
  {
   "property": "C66",
   "status": "partial",
   "theorems": [
    "Props.C66.C66_date",
    "Props.C66.C66_date_only",
    "Props.C66.C66_date_false",
    "Props.C66.C66_datetime",
    "Props.C66.C66_datetime_only",
    "Props.C66.C66_naive_false",
    "Props.C66.C66_offset"
   ],
   "note": "Proved for every date given as a date, text or timestamp (C66_date, C66_date_only) and every moment with an offset below a day (C66_datetime, C66_datetime_only). Refuted: a datetime given for a date is written with its time (C66_date_false), a moment without offset is written without one, which is no RFC 3339 date-time (C66_naive_false), and an offset of a day or more is accepted and raises only when it is written (C66_offset)."
  },
  {
   "property": "C67",
   "status": "partial",
   "theorems": [
    "Props.C67.C67_path",
    "Props.C67.C67_no_paths",
    "Props.C67.C67_distinct",
    "Props.C67.C67_base",
    "Props.C67.C67_operation_false"
   ],
   "note": "Proved for path items, every text, base and cache (C67_path, C67_no_paths, C67_distinct, C67_base). Refuted for operations: the documented app.s('user/get') does not reach the operation (C67_operation_false)."
  },
  {
   "property": "C68",
   "status": "partial",
   "theorems": [
    "Props.C68.C68_named",
    "Props.C68.C68_unnamed",
    "Props.C68.C68_scan",
    "Props.C68.C68_upgraded",
    "Props.C68.C68_separator_false",
    "Props.C68.C68_nested_false"
   ],
   "note": "Proved for 2.0 documents (C68_named, C68_unnamed, C68_scan) and 1.2 documents with the default separator (C68_upgraded). Refuted for another separator (C68_separator_false); schemas nested in a definition are named, too (C68_nested_false)."
  },
  {
   "property": "C69",
   "status": "partial",
   "theorems": [
    "Props.C69.C69_read",
    "Props.C69.C69_canonical_spelling",
    "Props.C69.C69_write",
    "Props.C69.C69_roundtrip",
    "Props.C69.C69_bytes",
    "Props.C69.C69_refused",
    "Props.C69.C69_short",
    "Props.C69.C69_strange",
    "Props.C69.C69_error_false",
    "Props.C69.C69_spellings_false"
   ],
   "note": "Proved for reading every spelling and 16 bytes, writing and reading back (C69_read, C69_write, C69_canonical_spelling, C69_roundtrip, C69_bytes); refusals are ValueError except for text of 16 characters, which raises AssertionError (C69_refused, C69_short, C69_strange, C69_error_false). Refuted: only spellings are read (C69_spellings_false)."
  },
  {
   "property": "C70",
   "status": "partial",
   "theorems": [
    "Props.C70.C70_body",
    "Props.C70.C70_errors",
    "Props.C70.C70_injective",
    "Props.C70.C70_unmarshal",
    "Props.C70.C70_roundtrip",
    "Props.C70.C70_not_utf8",
    "Props.C70.C70_nan_false"
   ],
   "note": "Proved for every primitive that denotes a value without NaN and infinities (C70_body, C70_injective, C70_unmarshal, C70_roundtrip, C70_not_utf8), and files and foreign objects are refused with TypeError (C70_errors). `repr` of a finite float is a parameter, required to be a JSON number of that value; `json.loads` is required to read what RFC 8259 reads. Refuted: NaN and infinities are written, as text that is no JSON (C70_nan_false)."
  },
  {
   "property": "C71",
   "status": "partial",
   "theorems": [
    "Props.C71.C71_url",
    "Props.C71.C71_load",
    "Props.C71.C71_complete",
    "Props.C71.C71_malformed",
    "Props.C71.C71_relative_false",
    "Props.C71.C71_getter_object_false"
   ],
   "note": "Proved for lists whose URL has a scheme and no query, parameters or fragment, and whose paths start with a slash and are plain and distinct (C71_url, C71_load, C71_complete); malformed lists: C71_malformed. Reading one resource is a parameter (its operations: C55_load). Refuted: a path without leading slash loses its first character (C71_relative_false); a getter object over one URL cannot load any resource (C71_getter_object_false)."
  },
  {
   "property": "C72",
   "status": "partial",
   "theorems": [
    "Props.C72.C72_path",
    "Props.C72.C72_url",
    "Props.C72.C72_query",
    "Props.C72.C72_header",
    "Props.C72.C72_form",
    "Props.C72.C72_files",
    "Props.C72.C72_body",
    "Props.C72.C72_blank_false"
   ],
   "note": "Proved for routes whose parameters are whole segments (C72_path, C72_url), for query, header and form arguments (C72_query, C72_header, C72_form) and JSON bodies (C72_body). Not covered: files (C23), other media types of bodies. Refuted for servers that read paths by RFC 3986: a blank arrives as a plus sign (C72_blank_false)."
  },
  {
   "property": "C73",
   "status": "partial",
   "theorems": [
    "Props.C73.C73_integer",
    "Props.C73.C73_integer_float",
    "Props.C73.C73_fraction_false",
    "Props.C73.C73_number",
    "Props.C73.C73_string",
    "Props.C73.C73_uuid",
    "Props.C73.C73_date",
    "Props.C73.C73_datetime",
    "Props.C73.C73_array",
    "Props.C73.C73_integers",
    "Props.C73.C73_boolean_false",
    "Props.C73.C73_boolean_text_false",
    "Props.C73.C73_byte",
    "Props.C73.C73_byte_false"
   ],
   "note": "Holds for integers, finite numbers, strings, UUIDs, dates, date-times with an offset and arrays (without unique items; no element text empty or containing the separator). Refuted for booleans (C73_boolean_false: True/False) for fractions given for an integer (C73_fraction_false: the whole part is sent, C73_integer_float) and for bytes (C73_byte_false: the raw bytes decoded as UTF-8, never their base64). Dates given as date-times: see C66."
  },
  {
   "property": "C74",
   "status": "partial",
   "theorems": [
    "Props.C74.C74_integer",
    "Props.C74.C74_number",
    "Props.C74.C74_string",
    "Props.C74.C74_email",
    "Props.C74.C74_uuid",
    "Props.C74.C74_byte",
    "Props.C74.C74_date",
    "Props.C74.C74_datetime",
    "Props.C74.C74_array",
    "Props.C74.C74_simple_array",
    "Props.C74.C74_header",
    "Props.C74.C74_boolean_false",
    "Props.C74.C74_date_false",
    "Props.C74.C74_empty_false",
    "Props.C74.C74_unique_false"
   ],
   "note": "Holds for integers, numbers (infinities and NaN included), strings, e-mail addresses, UUIDs, bytes, dates, date-times, True, and arrays (not empty, not unique; separator-free elements, which C74_simple_array shows for integers, numbers, UUIDs, dates and date-times), and from call to response header (C74_header). Refuted for False (C74_boolean_false), a date-time given for a date (C74_date_false), empty arrays (C74_empty_false) and unique items (C74_unique_false)."
  },
  {
   "property": "C75",
   "status": "partial",
   "theorems": [
    "Props.C75.C75_accepted",
    "Props.C75.C75_upload",
    "Props.C75.C75_request",
    "Props.C75.C75_content",
    "Props.C75.C75_twice_false"
   ],
   "note": "C75_accepted decides which arguments are accepted; C75_request and C75_upload carry them to the parts read by a server, C75_content to the content of each stream. Names and header values must be free of quotes and line breaks (C23). Refuted for a file-like object given twice: the second part is empty (C75_twice_false). Header values other than text, and file-like objects that share their position with another object, are not modelled."
  },
  {
   "property": "C76",
   "status": "partial",
   "theorems": [
    "Props.C76.C76_parse_same",
    "Props.C76.C76_parse",
    "Props.C76.C76_merge_same",
    "Props.C76.C76_merge",
    "Props.C76.C76_scan",
    "Props.C76.C76_scan_missing",
    "Props.C76.C76_inherited",
    "Props.C76.C76_inherited_false"
   ],
   "note": "C76_parse and C76_merge in full for Swagger 2.0, with C76_parse_same/C76_merge_same tying them to the models used elsewhere. For the scan (C76_scan) objects held by tags and by the info object keep what they had (C76_scan_missing). In a prepared document parameters taken over from the path item keep the path item as their parent (C76_inherited, C76_inherited_false). Not covered: 1.2 documents before the upgrade."
  },
  {
   "property": "C77",
   "status": "partial",
   "theorems": [
    "Props.C77.C77_parameter",
    "Props.C77.C77_schema",
    "Props.C77.C77_parameters",
    "Props.C77.C77_prepared",
    "Props.C77.C77_integer",
    "Props.C77.C77_default_false"
   ],
   "note": "C77_parameter, C77_parameters, C77_schema, C77_prepared and the corollary C77_integer in full, except that a default that is a list of scalars is sent without its duplicates and in an order left to the interpreter (C77_default_false), even for a declaration in place. Schemas of body parameters are shown to be copies; what conversion makes of them is C33-C38. The references are taken as normalised (C04)."
  },
  {
   "property": "C78",
   "status": "proved",
   "theorems": [
    "Props.C78.C78_schema",
    "Props.C78.C78_references",
    "Props.C78.C78_body"
   ],
   "note": "C78_schema, C78_references and C78_body in full, in the model: the references are taken as normalised (C04), documents share a base, and attributes of a type Swagger 2.0 does not foresee are taken for missing. Lists of scalars in copies lose duplicates and order (C77_default_false). A null in place of a property or a part is left open."
  },
  {
   "property": "C79",
   "status": "partial",
   "theorems": [
    "Props.C79.C79_conforms",
    "Props.C79.C79_accepted",
    "Props.C79.Parts.C79_nested_false",
    "Props.C79.Parts.C79_unnamed_false",
    "Props.C79.C79_formats",
    "Props.C79.C79_own",
    "Props.C79.C79_back",
    "Props.C79.C79_byte_false",
    "Props.C79.C79_received",
    "Props.C79.C79_null_false"
   ],
   "note": "C79_conforms, C79_accepted, C79_formats, C79_back and C79_received in full for schemas without uniqueItems, enum of other than texts, multipleOf of integers, maxLength and maxItems 0 (what the library does with these differs, see the refutations beside C33-C36); With allOf an object schema may have parts without parts of their own that allow additional properties and declare shared properties alike, and either has one part or requires a property of its own (`Composed`); parts of parts are not looked at (C79_nested_false). Schemas with a discriminator must have a name, others send null for it (C79_unnamed_false). C79_null_false: None is sent as null, C79_byte_false: base64 texts are encoded once more. For C79_accepted no defaults, no discriminators, nothing read-only, required properties declared, and with allOf one of its own. References are taken as normalised (C04)."
  },
  {
   "property": "C80",
   "status": "partial",
   "theorems": [
    "Props.C80.C80_entry",
    "Props.C80.C80_reply",
    "Props.C80.C80_data"
   ],
   "note": "C80_entry, C80_reply and C80_data in full for schemas as in C79 (the keywords refuted beside C33-C36 excluded; for C80_reply also no defaults, no discriminators and required properties declared). For C80_reply declared headers must convert, and json.loads is assumed to read JSON texts as the grammar of C70 does. That Merge does not raise is assumed (C52). References are taken as normalised (C04)."
  },
  {
   "property": "C81",
   "status": "partial",
   "theorems": [
    "Props.C81.C81_conforms",
    "Props.C81.C81_text",
    "Props.C81.C81_texts",
    "Props.C81.C81_query",
    "Props.C81.C81_form",
    "Props.C81.C81_header",
    "Props.C81.C81_path",
    "Props.C81.C81_accepted",
    "Props.C81.C81_received",
    "Props.C81.C81_reply",
    "Props.C81.C81_formats",
    "Props.C81.C81_clear",
    "Props.C81.C81_boolean_false",
    "Props.C81.C81_flag_false",
    "Props.C81.C81_nan_false",
    "Props.C81.C81_separator_false"
   ],
   "note": "C81_conforms, C81_text(s), C81_query, C81_form, C81_header, C81_path, C81_received in full for declarations without type object, unique items and the keywords refuted beside C33-C36; texts that can be read are those of C81_clear: no booleans (C81_boolean_false, C81_flag_false), no NaN (C81_nan_false), no separators within elements (C81_separator_false), no empty arrays. C81_accepted and C81_reply also exclude numbers with format int32/int64. Cookies do not exist; files are C75."
  },
  {
   "property": "C82",
   "status": "partial",
   "theorems": [
    "Props.C82.C82_loads",
    "Props.C82.C82_resolve",
    "Props.C82.C82_parameters",
    "Props.C82.C82_query",
    "Props.C82.C82_form",
    "Props.C82.C82_header",
    "Props.C82.C82_path",
    "Props.C82.C82_body",
    "Props.C82.C82_reply",
    "Props.C82.C82_data",
    "Props.C82.C82_received"
   ],
   "note": "C82_loads, C82_resolve, C82_parameters in full for self-contained documents of Swagger 2.0 with a path item written in place; C82_query, C82_form, C82_header, C82_path, C82_body, C82_reply, C82_data, C82_received under the restrictions of C79-C81, without discriminators. The objects of conversion are given by relations (Declares, Shows) to the loaded objects; C83 makes them. Other documents are C10, C47; documents of 1.2 are C39, C46."
  },
  {
   "property": "C83",
   "status": "partial",
   "theorems": [
    "Props.C83.C83_deref",
    "Props.C83.C83_schemata",
    "Props.C83.C83_operation",
    "Props.C83.C83_responses",
    "Props.C83.C83_parameters",
    "Props.C83.C83_query",
    "Props.C83.C83_form",
    "Props.C83.C83_header",
    "Props.C83.C83_path",
    "Props.C83.C83_body",
    "Props.C83.C83_reply",
    "Props.C83.C83_data",
    "Props.C83.C83_received"
   ],
   "note": "C83_deref, C83_schemata, C83_operation, C83_responses, C83_parameters in full for self-contained documents of Swagger 2.0 with a path item written in place and `collectionFormat` written with scalars; C83_query, C83_form, C83_header, C83_path, C83_body, C83_reply, C83_data, C83_received under the restrictions of C79-C81, without discriminators."
  },
  {
   "property": "C84",
   "status": "proved",
   "theorems": [
    "Props.C84.C84_fields",
    "Props.C84.C84_classes",
    "Props.C84.C84_reads",
    "Props.C84.C84_readable",
    "Props.C84.C84_operation_docs_false"
   ],
   "note": "The one field that differs (`externalDocs` of an operation) is C84_operation_docs_false."
  },
  {
   "property": "C85",
   "status": "proved",
   "theorems": [
    "Props.C85.C85_fields",
    "Props.C85.C85_classes",
    "Props.C85.C85_reads",
    "Props.C85.C85_operations",
    "Props.C85.C85_readable",
    "Props.C85.C85_readable_declaration",
    "Props.C85.C85_listing",
    "Props.C85.C85_null",
    "Props.C85.C85_declaration_false",
    "Props.C85.C85_items_false"
   ],
   "note": "The differences from the standard are C85_declaration_false (authorizations of an API declaration) and C85_items_false (empty items). The model does not read operations whose nickname is no text."
  },
  {
   "property": "C86",
   "status": "partial",
   "theorems": [
    "Props.C86.C86_operation",
    "Props.C86.C86_transfer",
    "Props.C86.C86_address",
    "Props.C86.C86_accept",
    "Props.C86.C86_content",
    "Props.C86.C86_open",
    "Props.C86.C86_registered",
    "Props.C86.C86_query_credential",
    "Props.C86.C86_header_credential",
    "Props.C86.C86_private",
    "Props.C86.C86_query",
    "Props.C86.C86_body"
   ],
   "note": "C86_operation, C86_transfer, C86_address, C86_accept, C86_content, C86_open, C86_registered, C86_query_credential, C86_header_credential and C86_private in full for operations written in place under paths, in documents without references to other documents, with host, basePath, schemes, media types and security of the types of the standard; C86_query and C86_body under the restrictions of C79-C81, without discriminators. The header theorems speak of the request's own headers; custom headers of the client are joined with them as in C27 and C63."
  },
  {
   "property": "C87",
   "status": "partial",
   "theorems": [
    "Props.C87.C87_reads",
    "Props.C87.C87_document",
    "Props.C87.C87_operation",
    "Props.C87.C87_only",
    "Props.C87.C87_operation_relative",
    "Props.C87.C87_request",
    "Props.C87.C87_credentials",
    "Props.C87.C87_models",
    "Props.C87.C87_unknown_model_false"
   ],
   "note": "For documents whose types and references name models of their own resource, whose resource names and model ids have no slash or tilde, and with methods of 2.0 (Closed); C87_unknown_model_false shows that the first is needed, C56_slash_false the second. Operations: all on one site or all given by paths, one per URL and method. The schemes are http and https whatever the URL says (C55_scheme_false)."
  },
  {
   "property": "C88",
   "status": "partial",
   "theorems": [
    "Props.C88.C88_index",
    "Props.C88.C88_tagged",
    "Props.C88.C88_id_partial",
    "Props.C88.C88_only",
    "Props.C88.C88_models",
    "Props.C88.C88_operation",
    "Props.C88.C88_path",
    "Props.C88.C88_id_false"
   ],
   "note": "For documents with path items in place (Merge copies operations into path items with a reference, and the copies are indexed too). app.op[operationId] alone: if no id holds the last character of the separator; C88_id_false shows that unique ids are not enough otherwise."
  },
  {
   "property": "C89",
   "status": "partial",
   "theorems": [
    "Props.C89.C89_named",
    "Props.C89.C89_only",
    "Props.C89.C89_clash",
    "Props.C89.C89_distinct",
    "Props.C89.C89_operation",
    "Props.C89.C89_clear",
    "Props.C89.C89_query",
    "Props.C89.C89_form",
    "Props.C89.C89_header",
    "Props.C89.C89_path",
    "Props.C89.C89_limits_false"
   ],
   "note": "For documents of one site whose models are declared, operations alone at their path and method, elements that may repeat. Limits are kept unless they are 0, a fraction for integers, or those of several values: C89_limits_false. A server can read what is sent under the conditions of C89_clear (booleans, NaN: C81_boolean_false, C81_nan_false). Bodies are not restated here."
  },
  {
   "property": "C90",
   "status": "partial",
   "theorems": [
    "Props.C90.C90_tagged",
    "Props.C90.C90_body",
    "Props.C90.Zoo.C90_received_false"
   ],
   "note": "Requests of 2.0 documents, under the conditions of C83_body. For responses the corresponding statement is false: C90_received_false (a Dog in a reply declared as Animal is handed to the caller as Animal). Schemas written in place are not covered: they have no model name."
  },
  {
   "property": "C91",
   "status": "partial",
   "theorems": [
    "Props.C91.C91_body",
    "Props.C91.C91_data",
    "Props.C91.C91_limits_false",
    "Props.C91.C91_names_false"
   ],
   "note": "Documents of one site, models within reach (Modelled): no sub types of sub types, no property declared twice along a base, a sub type requires a property of its own. Limits of 0 are lost: C91_limits_false. Ids with the separator of scopes are cut: C91_names_false."
  },
  {
   "property": "C92",
   "status": "partial",
   "theorems": [
    "Props.C92.C92_version",
    "Props.C92.C92_create"
   ],
   "note": "Self-contained documents (no references to other documents) with values of the declared types and path items in place; the values of a schema and the parts of its allOf are of the same kinds (else: C94_mixed_false)."
  },
  {
   "property": "C93",
   "status": "partial",
   "theorems": [
    "Props.C93.C93_apart",
    "Props.C93.C93_upgrade",
    "Props.C93.C93_create",
    "Props.C93.C93_lenient_false"
   ],
   "note": "1.2 documents on one site that use models of their own resource and have names of their own for operations and models. Models have values of the kinds the standard asks for. ValueError is not modelled for two equal nicknames in a declaration (such documents are not read). Not strict applications refuse some documents: C93_lenient_false."
  },
  {
   "property": "C94",
   "status": "proved",
   "theorems": [
    "Props.C94.C94_terminates",
    "Props.C94.C94_composed",
    "Props.C94.C94_properties",
    "Props.C94.C94_definition",
    "Props.C94.C94_items",
    "Props.C94.C94_fields",
    "Props.C94.C94_scalars",
    "Props.C94.C94_lists",
    "Props.C94.C94_whole",
    "Props.C94.Notes.C94_kinds_false",
    "Props.C94.Notes.C94_mixed_false"
   ],
   "note": "Said about the document by places. Composing raises for values of different kinds in a schema and its part (C94_kinds_false, C94_mixed_false), which the statement excludes. additionalProperties, xml, externalDocs and the internal name of composed schemas are not modelled. items: C94_items."
  },
  {
   "property": "C95",
   "status": "partial",
   "theorems": [
    "Props.C95.C95_values",
    "Props.C95.C95_raises",
    "Props.C95.C95_nested_false"
   ],
   "note": "Documents without schemas for additionalProperties, whose properties and items have no allOf of their own; C95_nested_false shows that the latter is needed: a property composed before its schema stays uncomposed in it. The formats byte, date, date-time, uuid and the type file are left open."
  },
  {
   "property": "C96",
   "status": "partial",
   "theorems": [
    "Props.C96.C96_date",
    "Props.C96.C96_date_sent",
    "Props.C96.C96_date_allowed",
    "Props.C96.C96_datetime",
    "Props.C96.C96_datetime_allowed",
    "Props.C96.C96_datetime_false",
    "Props.C96.C96_uuid",
    "Props.C96.C96_uuid_sent",
    "Props.C96.C96_uuid_allowed",
    "Props.C96.C96_byte",
    "Props.C96.C96_byte_all",
    "Props.C96.C96_byte_sent",
    "Props.C96.C96_byte_allowed",
    "Props.C96.C96_byte_false",
    "Props.C96.C96_file_given",
    "Props.C96.C96_file",
    "Props.C96.C96_file_sent"
   ],
   "note": "The clause on sending is false for date-times (C96_datetime_false) and for allowed values of format byte (C96_byte_false). Local time has a fixed offset, arithmetic on times is exact, and allowed values are texts."
  },
  {
   "property": "C97",
   "status": "proved",
   "theorems": [
    "Props.C97.C97_handlers",
    "Props.C97.C97_refused",
    "Props.C97.C97_result",
    "Props.C97.C97_scan",
    "Props.C97.C97_no_root",
    "Props.C97.C97_inherited_false"
   ],
   "note": "Registrations and scans for all histories and effects. A class body that supplies obj_route itself is not modelled; handlers do not change the tree during the walk."
  },
  {
   "property": "C98",
   "status": "proved",
   "theorems": [
    "Props.C98.C98_refused",
    "Props.C98.C98_schema",
    "Props.C98.C98_index_false"
   ],
   "note": "Which exception is raised depends on what stands at the place named and is not told; for parameters, responses and path items an exception inside a merge is not told apart from no end. References to other documents are not covered."
  },
  {
   "property": "C99",
   "status": "proved",
   "theorems": [
    "Props.C99.C99_index",
    "Props.C99.C99_refused",
    "Props.C99.C99_tags_false"
   ],
   "note": "Operations with several tags are left out: the copy has them in the order of a Python set, so its name may be another one. C99_tags_false gives a document with two tags that becomes an application, the operation being found under either tag. C99_refused does not say which exception ends the run when a scanner before the index raises one; C99_index says it is SchemaError when none does."
  },
  {
   "property": "C100",
   "status": "partial",
   "theorems": [
    "Props.C100.C100_opened",
    "Props.C100.C100_right",
    "Props.C100.C100_url",
    "Props.C100.C100_distinct",
    "Props.C100.C100_folder",
    "Props.C100.C100_bare",
    "Props.C100.C100_blank_false",
    "Props.C100.C100_escape_false",
    "Props.C100.C100_folder_false",
    "Props.C100.C100_colon_false",
    "Props.C100.C100_reference",
    "Props.C100.C100_dots_false",
    "Props.C100.C100_root_false",
    "Props.C100.C100_references"
   ],
   "note": "C100_opened gives the file for every path, C100_right says when it is the right one, C100_distinct that different files are not mixed up, C100_url covers URLs. The unrestricted claim is refuted: C100_blank_false, C100_escape_false (a blank in the name), C100_folder_false (files in a folder named like a document). C100_folder covers folders given instead of files and C100_bare names given without their extension, when all names have only unreserved characters. A path with a colon may be taken for a URL: C100_colon_false. C100_reference covers relative references between files, C100_references any number of them one after another; not documents at the root (C100_root_false) and not names of three or more dots (C100_dots_false). File names are UTF-8."
  },
  {
   "property": "C101",
   "status": "partial",
   "theorems": [
    "Props.C101.C101_attempt",
    "Props.C101.C101_no_trace",
    "Props.C101.C101_refresh",
    "Props.C101.C101_exchange",
    "Props.C101.C101_clients",
    "Props.C101.C101_read",
    "Props.C101.C101_unread",
    "Props.C101.C101_credentials_false",
    "Props.C101.C101_stream_false"
   ],
   "note": "C101_attempt ties the model with state to the one of C20 and C63; C101_no_trace is the statement (up to handing over to the library; C101_exchange and C101_clients with the reply, for a used response object, too), C101_refresh the case of a new credential, C101_read and C101_unread the streams. Without the condition on credentials it is refuted: a client without credentials sends those of the client used before (C101_credentials_false). Without the condition on streams, too: a failure after reading leaves a stream empty (C101_stream_false). The caller's option and header objects are those of C20 and C27."
  }
 ]
}