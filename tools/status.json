{
 "C01": [
  "proved",
  "Round trip for every token list with and without base, exact exception, RFC 6901 wire format and reading, injectivity."
 ],
 "C04": [
  "proved",
  "Round trip under the exact (iff) condition on the separator; the weaker 'components do not contain the separator' is refuted by a witness."
 ],
 "C05": [
  "partial",
  "Complete decision of every lookup and order independence are proved; the claim that a short name finds only an entry with that last component is refuted (suffix match is not component-aligned)."
 ],
 "C06": [
  "partial",
  "Exact index, SchemaError condition and access by the first tag are proved; access by further tags, as documented, is refuted (only tags[0] is indexed)."
 ],
 "C07": [
  "proved",
  "Termination, soundness, completeness, no duplicates, for every finite graph (vertices of any linearly ordered type)."
 ],
 "C08": [
  "proved",
  "For documents whose references resolve within a finite set (app.resolve not raising)."
 ],
 "C09": [
  "proved",
  "Termination on finite graphs, exact result and error condition, guard contents."
 ],
 "C16": [
  "proved",
  "Reading, membership, deletion, iteration, size and order after any history; lower-casing is an arbitrary function."
 ],
 "C17": [
  "proved",
  "Exact result, frame, effect, multiplicity, idempotence."
 ],
 "C10": [
  "partial",
  "Local, absolute and relative references (the latter for documents below a folder), totality, idempotence and splitting are proved; for documents at the root of the host the relative case is refuted (doubled slash)."
 ],
 "C11": [
  "proved",
  "For absolute URLs without ';' in the path (and without '//' when there is no authority); the ';' hypothesis is shown to be needed."
 ],
 "C12": [
  "proved",
  "Component level for every URL; text level for absolute URLs."
 ],
 "C13": [
  "proved",
  "POSIX; exact result, extension choice, idempotence."
 ],
 "C14": [
  "proved",
  "All valid dates and date-times with whole-minute offsets below a day; ASCII digits; timestamps are a parameter."
 ],
 "C15": [
  "partial",
  "Complete decision (value of the longest prefix in the documented format, ValueError otherwise) is proved; the claim that the whole string must be in the format is refuted."
 ],
 "C18": [
  "proved",
  "Registration, the exact header/query effect of each scheme, untouched names, idempotence and application of every alternative. An OAuth2 scheme declares no place; the code uses a header access_token, not those of RFC 6750 (C18_no_bearer)."
 ],
 "C21": [
  "proved",
  "Every placeholder is replaced by the quote_plus text of its value and nothing else changes; missing values raise KeyError. C21_path_decoding_false refutes the reading in which the server percent-decodes the path without form decoding ('+' stays)."
 ],
 "C22": [
  "proved",
  "An independent form decoder reads back exactly the submitted pairs from the prepared body."
 ],
 "C24": [
  "partial",
  "Types announced are allowed by the operation, else SchemaError. C24_form_choice_false refutes respect of an explicit choice for form payloads; C24_files_unchecked records the unchecked case handle_files=False."
 ],
 "C20": [
  "proved",
  "Fixed point and any number of resends for requests without file streams (files given by name included); refuted: reuse of one option dict (C20_shared_options_false) and file streams (C20_streams_false, outside the claim)."
 ],
 "C23": [
  "proved",
  "Round trip through an RFC reader for hexadecimal boundaries absent from the contents, for names without double quotes or carriage returns; C23_quotes_false, C23_linebreak_false, C23_headers_false show that these conditions (and the restriction to two headers) are needed."
 ],
 "C25": [
  "proved",
  "Candidates, choice, failure condition, place in the URL."
 ],
 "C26": [
  "proved",
  "Exact result, untouched URL without options, option removal, component-wise statement for absolute URLs with host; C26_params_scheme_false shows the condition on ';' parameters is needed."
 ],
 "C27": [
  "partial",
  "Exact results for lists, dicts and joining are proved; 'the caller's containers are not modified' is refuted (C27_containers_false), and names are compared with their case (C27_spelling_false)."
 ],
 "C63": [
  "proved",
  "Exact headers, frame and payload choice."
 ],
 "C28": [
  "proved",
  "Status, raw body and header values after any history of calls (failed calls included), body before status, reset. Header declarations are matched by exact spelling only (refuted variant C28_declared_spelling_false)."
 ],
 "C29": [
  "proved",
  "Exact outcome of every call that delivers a body after any history. Two natural stronger readings are refuted: data of an earlier body stays when the next is not convertible, and headers delivered after the body do not count."
 ],
 "C30": [
  "proved",
  "Codec used after any history for every Content-Type text, exception when none, unregister. Names registered with parameters are unreachable (refuted variant and general theorem)."
 ],
 "C33": [
  "partial",
  "Decided for every value, limits and schema read by the integer and number handlers (acceptance iff within the limits and multiples), and for each allOf part applied to a non-zero number. Refuted as stated, hence partial: multipleOf is not checked for integers (C33_integer_multiple_false), NaN passes limits (C33_nan_false), limits in allOf are skipped for zero (C33_allOf_zero_false)."
 ],
 "C34": [
  "partial",
  "Decided for every text: accepted iff enum and length limits hold; email; allOf parts. Refuted corners, hence partial: maxLength 0 is ignored (C34_maxLength_zero_false), enum of other types is not checked (C34_enum_other_types_false)."
 ],
 "C35": [
  "partial",
  "Decided for every list and text: limits, uniqueness, splitting, joining, URL form. Refuted corners, hence partial: leading empty elements are lost in the text (C35_empty_elements_false), uniqueness is checked before conversion (C35_unique_after_conversion_false), no items object (C35_no_items_false)."
 ],
 "C36": [
  "partial",
  "Exact content, acceptance and rejection proved for object schemas with properties, additionalProperties, defaults, required and allOf. The unrestricted claim is refuted: an allOf-only schema keeps raw values, a required name declared only in a later part raises, and a schema without type is not read as a model."
 ],
 "C37": [
  "partial",
  "Exact for the top level of a value and for allOf parts, in both read and write context. The claim for nested objects and for array items is refuted by counterexample."
 ],
 "C38": [
  "partial",
  "Equality is characterised, and proved reflexive, symmetric and transitive on values that can be compared. Plain dicts, operands that are not mappings and NaN are refuted by counterexample."
 ],
 "C40": [
  "partial",
  "Lookup, fallback, is_primitive and the frame of a registration proved for every history, and the shipped table for every type and format; unknown types raise ValueError. Refuted part: a type registered without a default format raises TypeError for other formats."
 ],
 "C41": [
  "proved",
  "All byte strings and texts; also injectivity, alphabet and length. Reading a received text does not decode it (stated as a separate refutation)."
 ],
 "C31": [
  "partial",
  "Success is characterised exactly, every missing or unknown parameter makes the call raise, and the exception is ValueError when all other arguments are fine. Refuted part: an argument declared earlier that fails to convert raises its own exception first."
 ],
 "C32": [
  "proved",
  "Contents of every part of the request for every successful call; one location per parameter when names differ. An explicit None is sent as text (separate fact)."
 ],
 "C02": [
  "proved",
  "Every object found by the walk is registered under the JSON pointer of its place, and resolving that pointer from the root gives the object back; for documents without empty or repeated names. int() spellings of list indices beyond plain digits are outside the model."
 ],
 "C03": [
  "proved",
  "Exact set, multiplicity and order of the visited objects for leaf and non-leaf classes, and the handlers called for each, in order. The reading 'a handler is called at most once per object' is refuted: a handler registered for a class and one of its bases is called twice (C03_twice_false)."
 ],
 "C44": [
  "partial",
  "Proved: True exactly when the second document repeats the first (longer lists allowed), both directions together decide equality, the named place differs, the only exception is IndexError for a longer list. Refuted: list lengths are not compared (C44_lists_false)."
 ],
 "C19": [
  "proved",
  "The list in force (own list, else the service-wide one), opting out, inheriting, overriding; combined with the model of Security.__call__."
 ],
 "C49": [
  "proved",
  "Exact errors (with multiplicity and path) of a 2.0 document whose schemas have the shape the parser gives them; strict mode. References are not followed, as the code says."
 ],
 "C50": [
  "partial",
  "Exact result by names, the documented rule when a name is used in one location only, stability under preparing again. Refuted: override by name and location (C50_location_false), independence of inherited parameters (C50_unrelated_false)."
 ],
 "C51": [
  "proved",
  "Media types, schemes, host, base path, path, method, URL and its reading back, for documents loaded from an absolute URL. C51_refused, C51_file and C51_unsent say when clients refuse an operation and that they send nothing then."
 ],
 "C54": [
  "proved",
  "Keys, lookup, exact table when no code has both spellings, stability; the loss with both spellings is shown (C54_both_false), as the statement allows."
 ],
 "C42": [
  "partial",
  "Proved for all documents without nulls and without empty containers where they matter (Spec.Doc.Full), for all Swagger 2.0 classes; without that condition the property is false (C42_security_false, C42_scopes_false, C42_anything_false, C42_schema_false, C42_extension_false). The dump of the freshly read document is modelled, before App.prepare adds inherited values."
 ],
 "C43": [
  "proved",
  "All classes of Swagger 2.0, all exclusion lists; success for shaped objects in C43_total. C43_order_false and C43_equal_false record that copied lists lose order and Python-equal elements."
 ],
 "C52": [
  "partial",
  "Termination on cycles, TypeError on another kind, scalar fields and fields with objects from the first object of the chain, path items; list fields are joined over the chain instead, so 'first that sets it' is refuted for them. Internal fields (normalized_ref etc.) are not modelled."
 ],
 "C53": [
  "proved",
  "Termination for every finite reference graph, exact union of properties, own definitions first, faithful copies; plain fields by kind: lists united (C53_lists), dicts merged (C53_dicts), scalars own-first (C53_scalars), nothing lost when the values are alike (C53_alike). Findings: among the parts a nested base wins over the part that refines it (C53_override_false); values of different kinds in parts make composing raise (C53_kinds_false)."
 ],
 "C45": [
  "partial",
  "Holds as stated for documents whose lists have elements of one type (texts, numbers, dicts, or at most one element), with Python's equality of scalars (C45_decides); when _diff_ returns, its entries are exactly the differences, each once (C45_entries, C45_once, C45_empty). Fails in general: lists that mix types or cannot be sorted raise even for equal documents (C45_equal_false), and 1, True and 1.0 are not told apart (C45_numbers_false). Exactly when it raises: C45_raises. Empty keys are excluded."
 ],
 "C46": [
  "partial",
  "Proved for all histories: no URL is fetched again after a fetch brought a document (C46_once), later references see that document (C46_loaded), a first reference fetches once (C46_fetch), values are exactly those found by following the tokens with Python's list indexing, RFC 6901 pointers among them (C46_rfc), dangling pointers raise. Refuted parts: negative indices and fragments that are no pointers do not raise (C46_pointer_false), an empty document is fetched again (C46_empty_false). Fragments are not percent-decoded."
 ],
 "C47": [
  "partial",
  "Proved for all histories of references whose pointers are not text prefixes of each other unless their tokens are (C47_right, C47_again, C47_below, C47_local). Refuted in general: a cached User is returned for UserList (C47_prefix_false), and a schema with a dangling $ref raises first and is returned later (C47_retry_false)."
 ],
 "C48": [
  "partial",
  "Proved: which documents are accepted, by which parser, with which version (C48_known, C48_fragment, C48_loaded), other declared versions raise NotImplementedError (C48_other); C48_cases shows the cases are complete for dicts. Refuted part: a document that is no dict raises AttributeError, and a version-less object of a version-less parser raises NameError (C48_exception_false)."
 ],
 "C60": [
  "partial",
  "Proved over trees of 1.2 objects: unless an operation asks for an unknown authorisation or has a file parameter without consumes, validation lists every violation of the rules exactly once under the pointer and class of the object, and nothing else (C60_errors); it fails exactly in these two cases, with KeyError resp. TypeError (C60_raises, C60_exception); strict mode (C60_strict). Refuted: an unknown authorisation is reported (C60_unknown_false), a file parameter without consumes is reported (C60_file_false). For documents as read by the parser (C85): C60_shaped, C60_read; a missing parameters, apis or anything about an api is never reported (C60_unreported), refuting that the rules of the standard about these are checked (C60_missing_false). Assumed: consumes of an operation is a list where given (a text there is searched by substring)."
 ],
 "C61": [
  "proved",
  "Proved for every sequence of calls, whatever is found at each call: k-th result is the k-th URL read by the stated rules, then StopIteration (C61_order, C61_reads); which file a local path stands for is decided exactly (C61_local, C61_plain, C61_file_url, C61_drive, C61_missing) and it is that file which is read (C61_file, C61_dir, C61_bare); SimpleGetter, UrlGetter and DictGetter (C61_simple, C61_dict). Refuted beside it: the located file is always the file read (C61_file_false: directory named like a YAML file), a list of URLs can be used for two DictGetters (C61_dict_false). Parsers, file system and os.path.abspath are parameters."
 ],
 "C62": [
  "partial",
  "Proved for every session of the webapp2 client: with keep_cookie a request carries the cookie of the latest completed exchange that set one, none before (C62_keep); without it none (C62_off). Refuted: the cookie of a reply whose body cannot be converted is lost (C62_failed_false), of several cookies in one reply only the last is kept (C62_several_false). The webapp2 library is a parameter."
 ],
 "C64": [
  "partial",
  "Proved for all four clients (C64_requests, C64_tornado, C64_flask, C64_webapp2), flask with the restriction that of form fields of equal name sent along with files only the last arrives (C64_flask_false), webapp2 for URLs without query not ending in & and with a query not ending in ? (C64_webapp2_false). The libraries are parameters."
 ],
 "C65": [
  "partial",
  "Proved for requests, flask and webapp2 (C65_requests, C65_flask, C65_webapp2). Refuted for tornado, which reads every body as JSON (C65_tornado_false, exact behaviour C65_tornado)."
 ],
 "C55": [
  "partial",
  "For every 1.2 document: upgraded host and paths are exactly host and rest of the declared URLs when all are on one site (C55_site, C55_operation, C55_url) and the declared paths when all are relative; refusals decided (C55_refused). Refuted beyond: different hosts are not refused but merged, the scheme is lost, documents without operations crash, one of two operations at one URL is dropped."
 ],
 "C56": [
  "partial",
  "Exact relation between declared and upgraded operations, parameters, data types, models, authorisations and information, and exact acceptance condition (C56_accepts), for all documents. The statement itself is refuted: names with a slash break references and security, resource authorisations with scopes crash, limits of repeated parameters and limits of zero are dropped, fractional limits truncated, flow access_code is not a 2.0 flow. responseMessages and message texts not modelled."
 ],
 "C57": [
  "partial",
  "Exact sets of rendered integers, numbers, texts and lists over all random draws, exact effect of an enum and of an unknown format, and acceptance by the factory of everything rendered for fitting schemas of any nesting (C57_accepted). The statement itself is refuted: limits of 0 are ignored, rounding to a multiple goes below the minimum, falsy enum values, long minimum lengths, uniqueItems, arrays without items, negative maxima of numbers, unknown formats and fractional limits. Generators for byte, date, date-time, uuid and file are a parameter; floats are exact."
 ],
 "C58": [
  "partial",
  "Exact sets of rendered objects and of errors over all random draws, their contents (required, templates, minimal_property, max_property), and success for every schema whose limits leave something to choose. The statement itself is refuted: additionalProperties without minProperties raise TypeError, required but undeclared properties, min/maxProperties, recursive optional properties, undeclared templates, minimal_property with additional properties, endless search for names, read-only properties."
 ],
 "C59": [
  "partial",
  "Exact sets of rendered parameter sets and of errors over all random draws, their contents, success, and acceptance by the operation for fitting parameters. The statement itself is refuted for parameters declared by reference, parameters of one name at two places, excluded required parameters and templates for unknown names."
 ],
 "C39": [
  "partial",
  "The statement as given is refuted: a property of its own type whose default is an object (C39_default_false) and a text against an array of itself (C39_text_false) exhaust every stack. Proved: a result never changes with more stack; in every finite graph a conversion ends when the chains of conversions it leads to end, with corollaries for all graphs with ranked items and object-free defaults, for lists, and for graphs cyclic through $ref and allOf only."
 ],
 "C66": [
  "partial",
  "Proved for every date given as a date, text or timestamp (C66_date, C66_date_only) and every moment with an offset below a day (C66_datetime, C66_datetime_only). Refuted: a datetime given for a date is written with its time (C66_date_false), a moment without offset is written without one, which is no RFC 3339 date-time (C66_naive_false), and an offset of a day or more is accepted and raises only when it is written (C66_offset)."
 ],
 "C67": [
  "partial",
  "Proved for path items, every text, base and cache (C67_path, C67_no_paths, C67_distinct, C67_base). Refuted for operations: the documented app.s('user/get') does not reach the operation (C67_operation_false)."
 ],
 "C68": [
  "partial",
  "Proved for 2.0 documents (C68_named, C68_unnamed, C68_scan) and 1.2 documents with the default separator (C68_upgraded). Refuted for another separator (C68_separator_false); schemas nested in a definition are named, too (C68_nested_false)."
 ],
 "C69": [
  "partial",
  "Proved for reading every spelling and 16 bytes, writing and reading back (C69_read, C69_write, C69_canonical_spelling, C69_roundtrip, C69_bytes); refusals are ValueError except for text of 16 characters, which raises AssertionError (C69_refused, C69_short, C69_strange, C69_error_false). Refuted: only spellings are read (C69_spellings_false)."
 ],
 "C70": [
  "partial",
  "Proved for every primitive that denotes a value without NaN and infinities (C70_body, C70_injective, C70_unmarshal, C70_roundtrip, C70_not_utf8), and files and foreign objects are refused with TypeError (C70_errors). `repr` of a finite float is a parameter, required to be a JSON number of that value; `json.loads` is required to read what RFC 8259 reads. Refuted: NaN and infinities are written, as text that is no JSON (C70_nan_false)."
 ],
 "C71": [
  "partial",
  "Proved for lists whose URL has a scheme and no query, parameters or fragment, and whose paths start with a slash and are plain and distinct (C71_url, C71_load, C71_complete); malformed lists: C71_malformed. Reading one resource is a parameter (its operations: C55_load). Refuted: a path without leading slash loses its first character (C71_relative_false); a getter object over one URL cannot load any resource (C71_getter_object_false)."
 ],
 "C72": [
  "partial",
  "Proved for routes whose parameters are whole segments (C72_path, C72_url), for query, header and form arguments (C72_query, C72_header, C72_form) and JSON bodies (C72_body). Not covered: files (C23), other media types of bodies. Refuted for servers that read paths by RFC 3986: a blank arrives as a plus sign (C72_blank_false)."
 ],
 "C73": [
  "partial",
  "Holds for integers, finite numbers, strings, UUIDs, dates, date-times with an offset and arrays (without unique items; no element text empty or containing the separator). Refuted for booleans (C73_boolean_false: True/False) for fractions given for an integer (C73_fraction_false: the whole part is sent, C73_integer_float) and for bytes (C73_byte_false: the raw bytes decoded as UTF-8, never their base64). Dates given as date-times: see C66."
 ],
 "C74": [
  "partial",
  "Holds for integers, numbers (infinities and NaN included), strings, e-mail addresses, UUIDs, bytes, dates, date-times, True, and arrays (not empty, not unique; separator-free elements, which C74_simple_array shows for integers, numbers, UUIDs, dates and date-times), and from call to response header (C74_header). Refuted for False (C74_boolean_false), a date-time given for a date (C74_date_false), empty arrays (C74_empty_false) and unique items (C74_unique_false)."
 ],
 "C75": [
  "partial",
  "C75_accepted decides which arguments are accepted; C75_request and C75_upload carry them to the parts read by a server, C75_content to the content of each stream. Names and header values must be free of quotes and line breaks (C23). Refuted for a file-like object given twice: the second part is empty (C75_twice_false). Header values other than text, and file-like objects that share their position with another object, are not modelled."
 ],
 "C76": [
  "partial",
  "C76_parse and C76_merge in full for Swagger 2.0, with C76_parse_same/C76_merge_same tying them to the models used elsewhere. For the scan (C76_scan) objects held by tags and by the info object keep what they had (C76_scan_missing). In a prepared document parameters taken over from the path item keep the path item as their parent (C76_inherited, C76_inherited_false). Not covered: 1.2 documents before the upgrade."
 ],
 "C77": [
  "partial",
  "C77_parameter, C77_parameters, C77_schema, C77_prepared and the corollary C77_integer in full, except that a default that is a list of scalars is sent without its duplicates and in an order left to the interpreter (C77_default_false), even for a declaration in place. Schemas of body parameters are shown to be copies; what conversion makes of them is C33-C38. The references are taken as normalised (C04)."
 ],
 "C78": [
  "proved",
  "C78_schema, C78_references and C78_body in full, in the model: the references are taken as normalised (C04), documents share a base, and attributes of a type Swagger 2.0 does not foresee are taken for missing. Lists of scalars in copies lose duplicates and order (C77_default_false). A null in place of a property or a part is left open."
 ],
 "C79": [
  "partial",
  "C79_conforms, C79_accepted, C79_formats, C79_back and C79_received in full for schemas without uniqueItems, enum of other than texts, multipleOf of integers, maxLength and maxItems 0 (what the library does with these differs, see the refutations beside C33-C36); With allOf an object schema may have parts without parts of their own that allow additional properties and declare shared properties alike, and either has one part or requires a property of its own (`Composed`); parts of parts are not looked at (C79_nested_false). Schemas with a discriminator must have a name, others send null for it (C79_unnamed_false). C79_null_false: None is sent as null, C79_byte_false: base64 texts are encoded once more. For C79_accepted no defaults, no discriminators, nothing read-only, required properties declared, and with allOf one of its own. References are taken as normalised (C04)."
 ],
 "C80": [
  "partial",
  "C80_entry, C80_reply and C80_data in full for schemas as in C79 (the keywords refuted beside C33-C36 excluded; for C80_reply also no defaults, no discriminators and required properties declared). For C80_reply declared headers must convert, and json.loads is assumed to read JSON texts as the grammar of C70 does. That Merge does not raise is assumed (C52). References are taken as normalised (C04)."
 ],
 "C81": [
  "partial",
  "C81_conforms, C81_text(s), C81_query, C81_form, C81_header, C81_path, C81_received in full for declarations without type object, unique items and the keywords refuted beside C33-C36; texts that can be read are those of C81_clear: no booleans (C81_boolean_false, C81_flag_false), no NaN (C81_nan_false), no separators within elements (C81_separator_false), no empty arrays. C81_accepted and C81_reply also exclude numbers with format int32/int64. Cookies do not exist; files are C75."
 ],
 "C82": [
  "partial",
  "C82_loads, C82_resolve, C82_parameters in full for self-contained documents of Swagger 2.0 with a path item written in place; C82_query, C82_form, C82_header, C82_path, C82_body, C82_reply, C82_data, C82_received under the restrictions of C79-C81, without discriminators. The objects of conversion are given by relations (Declares, Shows) to the loaded objects; C83 makes them. Other documents are C10, C47; documents of 1.2 are C39, C46."
 ],
 "C83": [
  "partial",
  "C83_deref, C83_schemata, C83_operation, C83_responses, C83_parameters in full for self-contained documents of Swagger 2.0 with a path item written in place and `collectionFormat` written with scalars; C83_query, C83_form, C83_header, C83_path, C83_body, C83_reply, C83_data, C83_received under the restrictions of C79-C81, without discriminators."
 ],
 "C84": [
  "proved",
  "The one field that differs (`externalDocs` of an operation) is C84_operation_docs_false."
 ],
 "C85": [
  "proved",
  "The differences from the standard are C85_declaration_false (authorizations of an API declaration) and C85_items_false (empty items). The model does not read operations whose nickname is no text."
 ],
 "C86": [
  "partial",
  "C86_operation, C86_transfer, C86_address, C86_accept, C86_content, C86_open, C86_registered, C86_query_credential, C86_header_credential and C86_private in full for operations written in place under paths, in documents without references to other documents, with host, basePath, schemes, media types and security of the types of the standard; C86_query and C86_body under the restrictions of C79-C81, without discriminators. The header theorems speak of the request's own headers; custom headers of the client are joined with them as in C27 and C63."
 ],
 "C87": [
  "partial",
  "For documents whose types and references name models of their own resource, whose resource names and model ids have no slash or tilde, and with methods of 2.0 (Closed); C87_unknown_model_false shows that the first is needed, C56_slash_false the second. Operations: all on one site or all given by paths, one per URL and method. The schemes are http and https whatever the URL says (C55_scheme_false)."
 ],
 "C88": [
  "partial",
  "For documents with path items in place (Merge copies operations into path items with a reference, and the copies are indexed too). app.op[operationId] alone: if no id holds the last character of the separator; C88_id_false shows that unique ids are not enough otherwise."
 ],
 "C89": [
  "partial",
  "For documents of one site whose models are declared, operations alone at their path and method, elements that may repeat. Limits are kept unless they are 0, a fraction for integers, or those of several values: C89_limits_false. A server can read what is sent under the conditions of C89_clear (booleans, NaN: C81_boolean_false, C81_nan_false). Bodies are not restated here."
 ],
 "C90": [
  "partial",
  "Requests of 2.0 documents, under the conditions of C83_body. For responses the corresponding statement is false: C90_received_false (a Dog in a reply declared as Animal is handed to the caller as Animal). Schemas written in place are not covered: they have no model name."
 ],
 "C91": [
  "partial",
  "Documents of one site, models within reach (Modelled): no sub types of sub types, no property declared twice along a base, a sub type requires a property of its own. Limits of 0 are lost: C91_limits_false. Ids with the separator of scopes are cut: C91_names_false."
 ],
 "C92": [
  "partial",
  "Self-contained documents (no references to other documents) with values of the declared types and path items in place; the values of a schema and the parts of its allOf are of the same kinds (else: C94_mixed_false)."
 ],
 "C93": [
  "partial",
  "1.2 documents on one site that use models of their own resource and have names of their own for operations and models. Models have values of the kinds the standard asks for. ValueError is not modelled for two equal nicknames in a declaration (such documents are not read). Not strict applications refuse some documents: C93_lenient_false."
 ],
 "C94": [
  "proved",
  "Said about the document by places. Composing raises for values of different kinds in a schema and its part (C94_kinds_false, C94_mixed_false), which the statement excludes. additionalProperties, xml, externalDocs and the internal name of composed schemas are not modelled. items: C94_items."
 ],
 "C95": [
  "partial",
  "Documents without schemas for additionalProperties, whose properties and items have no allOf of their own; C95_nested_false shows that the latter is needed: a property composed before its schema stays uncomposed in it. The formats byte, date, date-time, uuid and the type file are left open."
 ],
 "C96": [
  "partial",
  "The clause on sending is false for date-times (C96_datetime_false) and for allowed values of format byte (C96_byte_false). Local time has a fixed offset, arithmetic on times is exact, and allowed values are texts."
 ],
 "C97": [
  "proved",
  "Registrations and scans for all histories and effects. A class body that supplies obj_route itself is not modelled; handlers do not change the tree during the walk."
 ],
 "C98": [
  "proved",
  "Which exception is raised depends on what stands at the place named and is not told; for parameters, responses and path items an exception inside a merge is not told apart from no end. References to other documents are not covered."
 ],
 "C99": [
  "proved",
  "Operations with several tags are left out: the copy has them in the order of a Python set, so its name may be another one. C99_tags_false gives a document with two tags that becomes an application, the operation being found under either tag. C99_refused does not say which exception ends the run when a scanner before the index raises one; C99_index says it is SchemaError when none does."
 ],
 "C100": [
  "partial",
  "C100_opened gives the file for every path, C100_right says when it is the right one, C100_distinct that different files are not mixed up, C100_url covers URLs. The unrestricted claim is refuted: C100_blank_false, C100_escape_false (a blank in the name), C100_folder_false (files in a folder named like a document). C100_folder covers folders given instead of files and C100_bare names given without their extension, when all names have only unreserved characters. A path with a colon may be taken for a URL: C100_colon_false. C100_reference covers relative references between files, C100_references any number of them one after another; not documents at the root (C100_root_false) and not names of three or more dots (C100_dots_false). File names are UTF-8."
 ],
 "C101": [
  "partial",
  "C101_attempt ties the model with state to the one of C20 and C63; C101_no_trace is the statement (up to handing over to the library; C101_exchange and C101_clients with the reply, for a used response object, too), C101_refresh the case of a new credential, C101_read and C101_unread the streams. Without the condition on credentials it is refuted: a client without credentials sends those of the client used before (C101_credentials_false). Without the condition on streams, too: a failure after reading leaves a stream empty (C101_stream_false). The caller's option and header objects are those of C20 and C27."
 ]
}