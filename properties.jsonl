{"id": "C01", "title": "JSON pointer composition and splitting are inverse", "statement": "Composing any list of reference tokens onto any base JSON pointer with jp_compose and splitting the result with jp_split returns the base's tokens followed by exactly the given tokens, whatever '~' and '/' characters the tokens contain; the single exception is the bare empty token without a base.", "quantifier": "all token lists, all characters, all bases (also absent / empty base)", "why_tests_cant": "the escape/unescape interaction ('~01', '~1', '//' ...) has infinitely many combinations; tests sample a handful", "anchors": ["pyswagger/utils.py: jp_compose, jp_split"]}
{"id": "C02", "title": "Every path shown to a scanner resolves back to the visited object", "statement": "For every object visited by a scan of a loaded document, splitting the visited path as a JSON pointer, dropping the leading '#', and resolving the tokens from the root gives exactly that object (so the path shown in errors, and '$ref's built from it, denote it).", "quantifier": "all object trees (any depth, any dict keys, any list lengths), all visited objects", "why_tests_cant": "depends on every nesting of lists/dicts/objects and on keys containing '/' and '~'", "anchors": ["pyswagger/scan.py: default_tree_traversal", "pyswagger/spec/base.py: BaseObj._children_, BaseObj.resolve", "pyswagger/utils.py: jp_compose, jp_split"]}
{"id": "C03", "title": "A scan visits every object exactly once, parents first, and skips below leaves", "statement": "A scan of a tree visits each object reachable through its fields exactly once, each under a distinct path, a parent always before its descendants, and nothing below an object whose class is listed as a leaf; each handler registered for one of the object's classes is called once per visit.", "quantifier": "all object trees, all leaf sets, all handler tables", "why_tests_cant": "quantifies over all tree shapes and registration tables", "anchors": ["pyswagger/scan.py: default_tree_traversal, Scanner.scan, Dispatcher", "pyswagger/spec/base.py: BaseObj._children_"]}
{"id": "C04", "title": "Scope composition and splitting are inverse", "statement": "scope_split(scope_compose(scope, name)) gives back [scope, name] for every pair of non-empty names that do not interact with the separator; scope_compose drops empty/None components and is the identity on the other one.", "quantifier": "all scopes, names and non-empty separators", "why_tests_cant": "separator overlaps (a name ending in a part of '!##!') are invisible to sampled tests", "anchors": ["pyswagger/utils.py: scope_compose, scope_split"]}
{"id": "C05", "title": "Scoped lookup returns the right entry or fails, independent of insertion order", "statement": "Looking up app.op / app.m by key returns the value stored under that exact key if there is one; otherwise the value of the only key ending in it; otherwise of the only key whose last scope component equals the requested last component; otherwise it raises (KeyError when nothing matches, ValueError when ambiguous). It never depends on the order in which entries were stored, and a short name identifies exactly the entry whose last component equals it.", "quantifier": "all dictionaries of scoped keys, all lookup keys (plain or tuple), all insertion orders", "why_tests_cant": "ambiguity depends on the whole key set; tests try single dictionaries", "anchors": ["pyswagger/utils.py: ScopeDict.__getitem__"]}
{"id": "C06", "title": "Every identified operation is reachable through app.op", "statement": "After preparing an app, every operation with an operationId is reachable as app.op[tag, operationId] for each of its tags and under no other entry; preparation raises SchemaError exactly when two operations would share a key; operations without operationId are not indexed.", "quantifier": "all sets of operations, tags and operation ids", "why_tests_cant": "needs all collections of operations, including duplicate and missing ids/tags", "anchors": ["pyswagger/scanner/type_reducer.py: TypeReduce._op", "pyswagger/core.py: App.op, App.prepare"]}
{"id": "C07", "title": "Cycle search terminates and reports exactly the reachable simple cycles", "statement": "utils.walk terminates on every finite graph and returns the previously known cycles followed by exactly the simple cycles reachable from the start vertex, each once, each written from its smallest vertex back to it, and each a genuine closed walk along edges.", "quantifier": "all finite directed graphs (with self loops, parallel edges), all start vertices, all previously known cycle lists", "why_tests_cant": "completeness and termination of a backtracking search cannot be sampled", "anchors": ["pyswagger/utils.py: walk"]}
{"id": "C08", "title": "Strict preparation rejects exactly the documents with circular schemas", "statement": "App.prepare(strict=True) raises CycleDetectionError exactly when, following '$ref's nested anywhere in schemas (properties, allOf, items, additionalProperties), some schema of the document reaches a cycle; with strict=False it does not raise for that reason.", "quantifier": "all documents / reference graphs", "why_tests_cant": "all reference graphs over all schema nestings", "anchors": ["pyswagger/scanner/cycle_detector.py: CycleDetector, _schema_out_obj", "pyswagger/core.py: App.prepare"]}
{"id": "C09", "title": "Dereferencing terminates, ends at a non-reference, and detects every cycle", "statement": "Dereferencing an object through its chain of '$ref's always terminates: it returns the first object in the chain that is not itself a reference, and raises CycleDetectionError exactly when the chain runs into a cycle (or into an object the caller's guard has already seen).", "quantifier": "all reference graphs, all start objects, all guard histories", "why_tests_cant": "termination on arbitrary (cyclic) reference chains", "anchors": ["pyswagger/utils.py: deref, CycleGuard", "pyswagger/utils.py: final"]}
{"id": "C10", "title": "Reference normalisation is absolute, base-correct and idempotent", "statement": "Normalising a '$ref' against the URL of the document containing it yields: the document URL plus the fragment for a local reference, the reference itself when it already has a scheme, and otherwise the reference resolved relative to the document's folder; normalising the result again (against any document) changes nothing.", "quantifier": "all references, all absolute document URLs", "why_tests_cant": "string-level URL behaviour over all references", "anchors": ["pyswagger/utils.py: normalize_jr, jr_split", "pyswagger/scanner/v2_0/norm_ref.py: NormalizeRef"]}
{"id": "C11", "title": "Dot segments are removed and never escape the root", "statement": "The path of a derelativised URL contains no '.', '..' or longer all-dots segment, always starts at the root, keeps scheme, authority, parameters, query and fragment, and derelativising is idempotent.", "quantifier": "all URLs and path segment sequences", "why_tests_cant": "all segment sequences, including more '..' than segments", "anchors": ["pyswagger/utils.py: derelativise_url"]}
{"id": "C12", "title": "URL joining inserts exactly one slash", "statement": "url_join(url, path) changes only the path component of the URL, to the concatenation of the two paths with exactly one '/' at the seam; url_dirname strips the last path component of URLs naming a json/yaml file and leaves every other URL alone.", "quantifier": "all URLs and paths, with or without leading/trailing slash", "why_tests_cant": "boundary combinations of slashes and empty paths", "anchors": ["pyswagger/utils.py: url_join, url_dirname"]}
{"id": "C13", "title": "Resource paths always end in a supported extension", "statement": "patch_path(base, path) always ends in .json, .yaml or .yml, extends the given path (never truncates or rewrites it), prefers the extension of the base over the one of the path, and is idempotent.", "quantifier": "all base paths and paths (POSIX)", "why_tests_cant": "string-level behaviour over all paths", "anchors": ["pyswagger/utils.py: patch_path", "pyswagger/consts/private.py"]}
{"id": "C14", "title": "ISO-8601 text of a date or time is read back to the same value", "statement": "Reading the ISO-8601 text that the library writes for any date or date-time (with or without microseconds, naive, UTC or with a whole-minute offset) gives back the same calendar fields and the same UTC offset; 'Z' means offset zero, short fractions are scaled to microseconds.", "quantifier": "all valid dates, times, microseconds and offsets", "why_tests_cant": "billions of date-times and offsets", "anchors": ["pyswagger/utils.py: from_iso8601, FixedTZ", "pyswagger/primitives/_time.py: Date, Datetime"]}
{"id": "C15", "title": "Text that is not ISO-8601 is rejected", "statement": "from_iso8601 accepts a string only if the whole string is a date or date-time in the documented format with all fields in range, and raises ValueError otherwise.", "quantifier": "all strings", "why_tests_cant": "the set of malformed strings is infinite", "anchors": ["pyswagger/utils.py: from_iso8601"]}
{"id": "C16", "title": "Header dictionaries are case-insensitive maps", "statement": "After any sequence of assignments and deletions, reading a header name returns the value of the last assignment to any spelling of that name not deleted since; iteration yields each name once, in the spelling last assigned; size counts names up to case.", "quantifier": "all operation sequences, all keys and values", "why_tests_cant": "a history property over arbitrary op sequences", "anchors": ["pyswagger/utils.py: CaseInsensitiveDict"]}
{"id": "C17", "title": "Replacing a query parameter keeps the others", "statement": "Replacing a (name, value) pair in a query list leaves exactly the pairs with other names untouched and in order, makes every pair of that name equal to the new one, adds one at the end if there was none, and doing it twice equals doing it once.", "quantifier": "all pair lists and pairs", "why_tests_cant": "all lists, including repeated names", "anchors": ["pyswagger/utils.py: nv_tuple_list_replace"]}
{"id": "C18", "title": "Authorisation adds exactly the credentials that are required and registered", "statement": "Applying security to a request adds, for every scheme named by the operation's security requirements and registered by the user, its latest credential in the place the scheme declares (header or query) and changes nothing else; registering an unknown scheme raises ValueError; applying it again (resending) changes nothing.", "quantifier": "all security definitions, registration histories, requirement lists and requests", "why_tests_cant": "histories of registrations and arbitrary requirement lists", "anchors": ["pyswagger/core.py: Security.update_with, Security.__call__"]}
{"id": "C19", "title": "Requests of operations that opt out of security carry no credentials", "statement": "An operation whose own security list is empty is sent without credentials even if the document declares service-wide security; an operation that declares nothing inherits the service-wide list; a declared list replaces it.", "quantifier": "all documents and security lists", "why_tests_cant": "the None / [] distinction over all documents", "anchors": ["pyswagger/scanner/v2_0/patch_obj.py: PatchObject._operation", "pyswagger/core.py: Security.__call__"]}
{"id": "C20", "title": "Resending a request rebuilds the same request", "statement": "Sending the same request object any number of times through a client produces the same URL, path, headers and payload each time (for requests without file streams).", "quantifier": "all operations, parameter sets, options, and all numbers of resends", "why_tests_cant": "history property over repeated sends", "anchors": ["pyswagger/io.py: Request.reset, Request.prepare", "pyswagger/core.py: BaseClient.request", "pyswagger/contrib/client"]}
{"id": "C21", "title": "Path parameters cannot change the structure of the URL", "statement": "Whatever value is supplied for a path parameter, the characters inserted into the URL contain no '/', '?', '#', '&', '%'-sequence other than an escape, brace or whitespace, and decoding the inserted text gives back the UTF-8 bytes of the value; text outside the placeholders is unchanged; a placeholder without a value raises KeyError.", "quantifier": "all path templates and all parameter values (all Unicode strings)", "why_tests_cant": "all strings, all byte values", "anchors": ["pyswagger/io.py: Request.prepare"]}
{"id": "C22", "title": "Form bodies decode to the submitted fields", "statement": "The urlencoded payload built for form parameters decodes to exactly the submitted (name, value) pairs in order.", "quantifier": "all lists of pairs of Unicode strings", "why_tests_cant": "all strings, including '&', '=', '+', '%', non-ASCII", "anchors": ["pyswagger/io.py: Request._prepare_forms"]}
{"id": "C23", "title": "Multipart bodies decode to the submitted fields and files", "statement": "The multipart payload built for form fields and files, read by a standard multipart reader using the boundary announced in the Content-Type header, yields exactly the submitted fields and files with names, filenames, headers and contents, in order, provided the random boundary does not occur in the content.", "quantifier": "all fields, file lists and contents, all boundaries", "why_tests_cant": "all byte contents and boundaries", "anchors": ["pyswagger/io.py: Request._prepare_files"]}
{"id": "C24", "title": "Content-Type and Accept are always ones the operation declares", "statement": "Whenever a request with a form or body payload is prepared, its Content-Type is one listed by the operation (if it lists any), otherwise SchemaError is raised; likewise for Accept; an explicitly chosen type is honoured or rejected, never silently replaced, and without a choice the first listed type is used.", "quantifier": "all consumes/produces lists, choices and payload kinds", "why_tests_cant": "all combinations of lists and choices", "anchors": ["pyswagger/io.py: Request.prepare, _prepare_body, _prepare_forms, _prepare_files"]}
{"id": "C25", "title": "The scheme used is one both client and operation support", "statement": "The scheme put in the URL is supported by the client and listed by the operation; the user's preferred scheme is used or an exception is raised; without a preference the choice is the alphabetically smallest common one; with no common scheme ValueError is raised.", "quantifier": "all scheme sets, lists and preferences", "why_tests_cant": "all set/list combinations", "anchors": ["pyswagger/core.py: BaseClient.prepare_schemes", "pyswagger/io.py: Request.prepare"]}
{"id": "C26", "title": "URL options change only scheme and host", "statement": "Patching a prepared request with url_netloc/url_scheme replaces exactly the network location/scheme of the URL and keeps path, parameters, query and fragment; without these options the URL is unchanged; used options are removed from the option dict.", "quantifier": "all request URLs and options", "why_tests_cant": "all URLs", "anchors": ["pyswagger/io.py: Request._patch"]}
{"id": "C27", "title": "Custom headers are all sent, and the request's own headers win", "statement": "Composing headers keeps every header of the request and every custom header; as a list it contains all pairs, request headers first; joined, each name carries all its values comma-separated in order; as a dict without joining, a request header overrides a custom header of the same name; the caller's containers are not modified.", "quantifier": "all header lists/dicts and options", "why_tests_cant": "all header multisets and modes", "anchors": ["pyswagger/core.py: BaseClient.compose_headers"]}
{"id": "C28", "title": "Responses accumulate headers, status and raw data faithfully", "statement": "After any sequence of apply_with calls, the status is the last one given, the raw data the last given, and header lookup by any spelling of a name gives all values received for it in arrival order; applying raw data before any status raises.", "quantifier": "all sequences of apply_with calls", "why_tests_cant": "history property", "anchors": ["pyswagger/io.py: Response.apply_with, Response._convert_header, Response.reset"]}
{"id": "C29", "title": "A response is interpreted by the matching status entry, else by default", "statement": "A response body is converted with the schema declared for its status code if declared, otherwise with that of 'default', otherwise left unconverted; the media type is the received Content-Type (any capitalisation of the header name), JSON when absent; with raw_body_only the data stays unset.", "quantifier": "all response tables, statuses, headers and bodies", "why_tests_cant": "all tables and header spellings", "anchors": ["pyswagger/io.py: Response.apply_with"]}
{"id": "C30", "title": "The media-type registry matches types ignoring case and parameters", "statement": "After any sequence of register/unregister calls, the codec used for a Content-Type is the last one registered under the type name it states (blanks around it and ';' parameters removed) up to case and not unregistered since, and an exception is raised when there is none.", "quantifier": "all registration histories and all Content-Type strings", "why_tests_cant": "history and string property", "anchors": ["pyswagger/primitives/codec.py: MimeCodec"]}
{"id": "C31", "title": "Calling an operation rejects missing and unknown parameters", "statement": "Calling an operation raises ValueError if a required parameter without default is missing or a keyword is not a parameter of the operation, and otherwise succeeds iff every supplied or defaulted value converts.", "quantifier": "all parameter declarations and keyword sets", "why_tests_cant": "all combinations of declarations and arguments", "anchors": ["pyswagger/spec/v2_0/objects.py: Operation.__call__"]}
{"id": "C32", "title": "Every parameter is sent in its declared location only", "statement": "In the request built by a successful call, every supplied or defaulted parameter appears under its name in exactly the location its declaration says (files in the file part), with the converted value, and nothing else appears; parameters neither supplied nor defaulted are absent.", "quantifier": "all parameter declarations and keyword sets", "why_tests_cant": "all combinations of declarations and arguments", "anchors": ["pyswagger/spec/v2_0/objects.py: Operation.__call__"]}
{"id": "C33", "title": "Numbers outside the declared range are never accepted", "statement": "A number produced for a schema with minimum/maximum/exclusive bounds/multipleOf always satisfies all of them; violating values raise ValidationError and conforming ones are accepted unchanged.", "quantifier": "all bounds and numbers", "why_tests_cant": "all numbers and bound combinations incl. equality with an exclusive bound", "anchors": ["pyswagger/primitives/_int.py", "pyswagger/primitives/_float.py", "pyswagger/primitives/comm.py: min_max"]}
{"id": "C34", "title": "Strings violating enum or length limits are never accepted", "statement": "A string produced for a schema is in its enum (if any) and within its length limits; violating values raise ValidationError.", "quantifier": "all strings, enums and limits", "why_tests_cant": "all strings and limit combinations incl. limit 0", "anchors": ["pyswagger/primitives/_str.py"]}
{"id": "C35", "title": "Arrays respect item limits, uniqueness and serialise reversibly", "statement": "An array produced for a schema has between minItems and maxItems elements, one per input element in order (first occurrences only with uniqueItems), and its text form for csv/ssv/tsv/pipes, read back with the same format, gives the same elements when no element contains the separator.", "quantifier": "all arrays, limits and collection formats", "why_tests_cant": "all lists of strings incl. empty elements", "anchors": ["pyswagger/primitives/_array.py: Array"]}
{"id": "C36", "title": "Objects carry exactly the declared, defaulted and permitted additional properties", "statement": "An object produced for a schema contains each supplied declared property converted by its own schema, the defaults of the others, supplied undeclared properties iff additional properties are allowed, and nothing else; a missing required property raises.", "quantifier": "all schemas and objects", "why_tests_cant": "all combinations of properties, required lists, defaults and additionalProperties", "anchors": ["pyswagger/primitives/_model.py: Model.apply_with, Model.cleanup", "pyswagger/primitives/__init__.py: Primitive.produce"]}
{"id": "C37", "title": "Read-only properties cannot be sent", "statement": "Building a request value that sets a read-only property raises, at every nesting depth; reading a response may set it.", "quantifier": "all schemas, values and nesting depths", "why_tests_cant": "all nestings", "anchors": ["pyswagger/primitives/_model.py: Model.apply_with", "pyswagger/primitives/_array.py: Array.apply_with"]}
{"id": "C38", "title": "Model equality is an equivalence that treats None as absent", "statement": "Comparing models is reflexive, symmetric and transitive, and two models are equal exactly when they agree on every property, an absent property counting as None; != is its negation.", "quantifier": "all pairs and triples of models", "why_tests_cant": "relational property over all models", "anchors": ["pyswagger/primitives/_model.py: Model.__eq__, Model.__ne__"]}
{"id": "C39", "title": "Converting a value terminates for every schema graph", "statement": "Producing a primitive from any finite value against any schema graph, however cyclic its '$ref's, items, properties and allOf are, terminates: it returns a value or raises.", "quantifier": "all finite schema graphs and all finite values", "why_tests_cant": "termination on arbitrary cyclic schema graphs", "anchors": ["pyswagger/primitives/__init__.py: Primitive.produce", "pyswagger/utils.py: CycleGuard, deref"]}
{"id": "C40", "title": "The primitive registry falls back to the type's default format", "statement": "After any sequence of registrations, the handler for (type, format) is the last one registered for that pair, else the one registered for the type without format, else none (conversion raises ValueError); a type counts as primitive iff something is registered for it.", "quantifier": "all registration histories, types and formats", "why_tests_cant": "history property", "anchors": ["pyswagger/primitives/__init__.py: Primitive.get, register, is_primitive"]}
{"id": "C41", "title": "Byte values survive base64 exchange", "statement": "The JSON text of a byte value is URL-safe base64 whose decoding gives back exactly the bytes; a text value is exchanged as its UTF-8 bytes.", "quantifier": "all byte strings", "why_tests_cant": "all lengths and contents", "anchors": ["pyswagger/primitives/_byte.py: Byte"]}
{"id": "C42", "title": "Dumping a loaded document loses nothing and is stable", "statement": "Dumping a loaded document gives a document that contains every recognised field whose value differs from the default and nothing else; loading the dump gives an equivalent document and dumping that again gives the same text.", "quantifier": "all JSON documents of the supported shape", "why_tests_cant": "all documents of all sizes and nestings", "anchors": ["pyswagger/spec/base.py: BaseObj.dump, Context.parse", "pyswagger/spec/v2_0/objects.py", "pyswagger/spec/v2_0/parser.py", "pyswagger/core.py: App.dump"]}
{"id": "C43", "title": "Merging keeps what is set and fills in only what is missing", "statement": "Merging another object into an object keeps every scalar and child the object already has, takes the other's value where it has none, unions lists, lets the object's own entries win in dicts, and touches no excluded field.", "quantifier": "all pairs of objects and all exclusion lists", "why_tests_cant": "all field-wise combinations", "anchors": ["pyswagger/spec/base.py: BaseObj.merge"]}
{"id": "C44", "title": "compare reports equality exactly for equal objects", "statement": "obj.compare(other) reports True exactly when the two objects have the same class and equal fields recursively (including list lengths), and otherwise names a field that differs.", "quantifier": "all pairs of objects", "why_tests_cant": "relational property over all trees", "anchors": ["pyswagger/spec/base.py: BaseObj.compare"]}
{"id": "C45", "title": "The document differ reports a difference iff there is one", "statement": "_diff_ of two documents is empty exactly when they are equal after dropping excluded keys (and keeping only included ones); each reported entry points at a real difference.", "quantifier": "all pairs of JSON documents, include and exclude sets", "why_tests_cant": "relational property over all trees", "anchors": ["pyswagger/utils.py: _diff_"]}
{"id": "C46", "title": "A document is loaded at most once and pointers are followed exactly", "statement": "However many references into a document are resolved, its source is fetched once (if it loads), later references see the same document, and the result is exactly the value found by following the pointer tokens; a dangling pointer raises.", "quantifier": "all resolution histories, documents and pointers", "why_tests_cant": "history property over resolve calls", "anchors": ["pyswagger/resolve.py: Resolver.resolve"]}
{"id": "C47", "title": "app.resolve returns the object the reference names, cached or not", "statement": "Resolving a JSON reference returns the object designated by that URL and pointer, independent of which references were resolved before.", "quantifier": "all resolution histories and references", "why_tests_cant": "depends on the contents of a cache built by earlier calls", "anchors": ["pyswagger/core.py: App.resolve, App.prepare_obj"]}
{"id": "C48", "title": "Only Swagger 1.2 and 2.0 documents are loaded", "statement": "Loading accepts documents whose declared version is exactly 1.2 or 2.0 (parsed by the corresponding parser) and, for referenced fragments, version-less objects with a known kind; everything else raises NotImplementedError.", "quantifier": "all documents and declared versions", "why_tests_cant": "all version strings and the precedence of the two version keys", "anchors": ["pyswagger/core.py: App.load_obj, App.load", "pyswagger/utils.py: get_swagger_version"]}
{"id": "C49", "title": "Validation reports exactly the schemas requiring a read-only property", "statement": "Validation of a 2.0 document lists one error per schema and required property that is declared read-only, with the schema's path, and nothing else; in strict mode ValidationError is raised iff the list is non-empty.", "quantifier": "all documents", "why_tests_cant": "all schema trees", "anchors": ["pyswagger/scanner/v2_0/validate.py: Validate", "pyswagger/core.py: App.validate"]}
{"id": "C50", "title": "Operations inherit path-level parameters unless they override them", "statement": "The effective parameters of an operation are its own, in order, followed by the path-level ones it does not override; an override is a parameter with the same name and location; preparing again adds nothing.", "quantifier": "all parameter lists", "why_tests_cant": "all combinations of names and locations", "anchors": ["pyswagger/scanner/v2_0/patch_obj.py: PatchObject._operation"]}
{"id": "C51", "title": "Operations inherit service-wide media types, schemes, host and base path", "statement": "An operation's consumes/produces/schemes are its own if non-empty, else the document's; its URL is //host + basePath + path with the document's host, else the host the document was loaded from, else localhost; its method is the field it was declared under. Without any declared schemes the scheme is the one the document was loaded by, so the bundled clients refuse operations of documents loaded from files and send nothing.", "quantifier": "all documents", "why_tests_cant": "all combinations of absent/empty/present values", "anchors": ["pyswagger/scanner/v2_0/patch_obj.py: PatchObject", "pyswagger/core.py: App.load, App.prepare, BaseClient.prepare_schemes"]}
{"id": "C52", "title": "Referenced parameters, responses and path items behave like inlined ones", "statement": "The effective object of a parameter/response/path item given by '$ref' carries, for every field, the value of the first object along the reference chain that sets it; merging terminates on reference cycles and rejects references to objects of another kind.", "quantifier": "all reference chains and field contents", "why_tests_cant": "all chains, including cyclic ones", "anchors": ["pyswagger/scanner/v2_0/merge.py: _merge, Merge", "pyswagger/spec/base.py: BaseObj.merge"]}
{"id": "C53", "title": "allOf composition yields the union of properties, own ones first", "statement": "The composed schema has every property of the schema and of all its (transitive, referenced) allOf parts, the schema's own definition winning; composition terminates on cyclic allOf.", "quantifier": "all schema graphs", "why_tests_cant": "all (cyclic) schema graphs", "anchors": ["pyswagger/scanner/v2_0/aggt.py: _compose"]}
{"id": "C54", "title": "Integer response codes from YAML become strings without losing entries", "statement": "After loading, every response of an operation is stored under a string key; integer keys are replaced by their decimal text, no response is lost or altered unless both spellings of the same code were given.", "quantifier": "all response tables", "why_tests_cant": "all key mixtures", "anchors": ["pyswagger/scanner/v2_0/yaml.py: YamlFixer"]}
{"id": "C55", "title": "Upgrading a 1.2 document preserves every operation's URL", "statement": "After upgrading a Swagger 1.2 document, host plus path of every operation equals the basePath plus path declared in 1.2, under its method; declarations on different hosts are refused.", "quantifier": "all 1.2 documents", "why_tests_cant": "all collections of base paths and paths", "anchors": ["pyswagger/scanner/v1_2/upgrade.py: Upgrade._operation, Upgrade.swagger"]}
{"id": "C56", "title": "Upgrading a 1.2 document preserves parameters, security and models", "statement": "Upgrading maps every 1.2 parameter to one 2.0 parameter of the same name/required flag in the corresponding location with the same type information, every authorisation to a security scheme, and every model reference to the scoped definition of that model.", "quantifier": "all 1.2 documents", "why_tests_cant": "all parameter/type combinations", "anchors": ["pyswagger/scanner/v1_2/upgrade.py"]}
{"id": "C57", "title": "Generated integers, strings and arrays satisfy their schema", "statement": "Every value rendered for an integer/string/array schema satisfies the schema's limits and is accepted when passed back to an operation, whatever random choices are made.", "quantifier": "all schemas and all outcomes of the random generator", "why_tests_cant": "all random outcomes", "anchors": ["pyswagger/primitives/render.py: _int_, _str_, Renderer._generate"]}
{"id": "C58", "title": "Generated objects contain all required properties", "statement": "Rendering an object schema never fails for a satisfiable schema and yields every required property, every templated value, with minimal_property only required ones, with max_property all of them.", "quantifier": "all object schemas, options and random outcomes", "why_tests_cant": "all random outcomes", "anchors": ["pyswagger/primitives/render.py: Renderer._generate"]}
{"id": "C59", "title": "Generated parameter sets can be passed to the operation", "statement": "render_all returns a value for every required parameter not excluded, the template value where given, none for excluded ones, under the parameters' names, so that the result is accepted by the operation.", "quantifier": "all operations, options and random outcomes", "why_tests_cant": "all random outcomes", "anchors": ["pyswagger/primitives/render.py: Renderer.render_all"]}
{"id": "C60", "title": "Validation of 1.2 documents reports exactly the broken rules", "statement": "Validation of a 1.2 document lists exactly the violations of the documented rules (type/$ref presence, array/items pairing, allowMultiple, File, void, authorisation references, required fields) and an unknown authorisation is reported rather than crashing.", "quantifier": "all 1.2 documents", "why_tests_cant": "all field combinations", "anchors": ["pyswagger/scanner/v1_2/validate.py: Validate"]}
{"id": "C61", "title": "Getters deliver every requested resource once, in order", "statement": "Iterating a getter yields the parsed content of each of its URLs in order and then stops; text starting with '{' is read as JSON, other text as YAML, dicts are passed through, other types raise ValueError.", "quantifier": "all URL lists and contents", "why_tests_cant": "iteration histories", "anchors": ["pyswagger/getter.py: Getter.__next__, DictGetter, SimpleGetter, LocalGetter"]}
{"id": "C62", "title": "A cookie-keeping client replays the last cookie it was given", "statement": "With keep_cookie, every request carries the Set-Cookie value of the most recent response that had one, and none before that; without it no request carries a cookie.", "quantifier": "all request/response histories", "why_tests_cant": "history property", "anchors": ["pyswagger/contrib/client/webapp2.py: Webapp2TestClient.request"]}
{"id": "C63", "title": "A prepared request carries everything that was supplied", "statement": "A prepared request has exactly the header parameters (read ignoring case, the last one winning) plus the announced Content-Type and Accept, leaves query, path and other parameters as supplied, and its payload is the files (with the form fields), else the form fields, else the body value marshalled with the body parameter's schema for the chosen media type.", "quantifier": "all operations, parameter sets and choices", "why_tests_cant": "combinations of parameter kinds and header capitalisations", "anchors": ["pyswagger/io.py: Request.prepare, Request._prepare_body"]}
{"id": "C64", "title": "Every bundled client hands the whole prepared request to its library", "statement": "The requests, tornado, flask and webapp2 clients hand over the method in capitals and the URL, query, headers, data and files exactly as prepared: every file once and in order, every form field, and a URL whose query reads as the old query followed by the query parameters.", "quantifier": "all requests, options, headers, credentials and replies", "why_tests_cant": "the clients are tested against one running server; combinations of repeated names, files and query strings are unbounded", "anchors": ["pyswagger/contrib/client/requests.py: Client.request", "pyswagger/contrib/client/tornado.py: TornadoClient.request", "pyswagger/contrib/client/flask.py: FlaskTestClient.request", "pyswagger/contrib/client/webapp2.py: Webapp2TestClient.request"]}
{"id": "C65", "title": "Every bundled client reads a reply by its own status and headers", "statement": "After a request the response holds the status, the raw body and every header of the reply (all values, in any capitalisation), and its data is the body decoded by the media type the reply announces and converted with the schema of the reply's status.", "quantifier": "all replies, response declarations and earlier uses of the response object", "why_tests_cant": "all header lists and media types with every client", "anchors": ["pyswagger/contrib/client/requests.py: Client.request", "pyswagger/contrib/client/tornado.py: TornadoClient.request", "pyswagger/contrib/client/flask.py: FlaskTestClient.request", "pyswagger/contrib/client/webapp2.py: Webapp2TestClient.request", "pyswagger/io.py: Response.apply_with"]}
{"id": "C66", "title": "Dates and times are written in the format the specification asks for", "statement": "Whatever a parameter of format date (date-time) accepts is sent as an RFC 3339 full-date (date-time) of the same day (calendar fields and offset); anything that cannot be written that way is refused when it is given.", "quantifier": "all dates, times, offsets, timestamps and texts", "why_tests_cant": "offsets, microseconds and calendar dates are unbounded combinations; the tests write two or three values", "anchors": ["pyswagger/primitives/_time.py: Time.to_json, Date.apply_with, Datetime.apply_with", "pyswagger/utils.py: from_iso8601, FixedTZ"]}
{"id": "C67", "title": "app.s returns the path item (or operation) of a path", "statement": "app.s(p) returns the path item declared for p, with or without its leading slash and whatever characters p contains, and raises KeyError if there is none; app.s('user/get') accesses '#/paths/~1user/get' as documented.", "quantifier": "all documents, all paths, all states of the cache, all bases", "why_tests_cant": "paths contain '/', '~', '#', '{' in unbounded combinations; tests call it with a few literal paths", "anchors": ["pyswagger/core.py: App.s, App.resolve", "pyswagger/utils.py: jp_compose, jr_split"]}
{"id": "C68", "title": "Definitions are named after their key", "statement": "After preparation every schema at #/definitions/<key> has the name <key> (for a 1.2 document: the name of the model), which XML bodies and discriminators go by; schemas elsewhere have no name.", "quantifier": "all documents, keys and separators", "why_tests_cant": "keys with '/', '~' or parts of the separator", "anchors": ["pyswagger/scanner/v2_0/patch_obj.py: PatchObject._schema", "pyswagger/utils.py: scope_split, jp_split"]}
{"id": "C69", "title": "Every spelling of a UUID is read and its canonical form is written", "statement": "A value of format uuid given as a uuid, as 16 bytes or as text in any usual spelling (upper or lower case, hyphens, braces, urn) is sent in the canonical form of the same UUID, which reads back; anything else is refused with ValueError.", "quantifier": "all 128-bit numbers, all texts and byte strings", "why_tests_cant": "2^128 values times spellings", "anchors": ["pyswagger/primitives/_uuid.py: UUID"]}
{"id": "C70", "title": "A JSON body is the text of the value it was made from", "statement": "The body sent for application/json is a JSON text (RFC 8259) in ASCII that reads as the value of the argument (lists and objects item by item, UUIDs, byte strings, dates and times as their text), so different values give different bodies and decoding gives the value back; values JSON cannot express (files, foreign objects, NaN, infinities) are refused.", "quantifier": "all primitives of any nesting, all texts including quotes, control characters and characters outside the BMP", "why_tests_cant": "unbounded nesting and all of Unicode", "anchors": ["pyswagger/primitives/codec.py: JsonCodec", "pyswagger/primitives/comm.py: PrimJSONEncoder"]}
{"id": "C71", "title": "Every resource of a 1.2 resource list is loaded, from beside the list, in order", "statement": "Loading a Swagger 1.2 resource list asks for each listed resource once, in the order of the list, at the folder of the list followed by its path, and gives exactly the listed resources under their names; a resource that is missing, empty or unreadable makes loading fail with that failure and nothing is asked for afterwards; a malformed list is refused before anything is asked for. Relative paths and getter objects work as well.", "quantifier": "all URLs of lists, all lists, all resolvers, hooks, getters and states of the resolver's cache, all replies", "why_tests_cant": "URL shapes, numbers of resources and places of a failure are unbounded; the tests load a few stored sites", "anchors": ["pyswagger/spec/v1_2/parser.py: ResourceListContext.parse", "pyswagger/utils.py: url_dirname, url_join", "pyswagger/resolve.py: Resolver.resolve"]}
{"id": "C72", "title": "A server reads from the prepared request the arguments of the call", "statement": "Calling an operation with arguments and preparing the request gives a request from which a server reads exactly those arguments: under each path template name the text of the path argument (both in the path and in the URL), under each query and header name the texts of the argument, in the body the form fields or, for JSON, the value of the body argument; it reads nothing under names that were not supplied.", "quantifier": "all operations, parameters, arguments and routes; all settings of prepare", "why_tests_cant": "the claim composes conversion, placement, quoting, templating and encoding over all texts; tests check each stage on a few literals", "anchors": ["pyswagger/spec/v2_0/objects.py: Operation.__call__", "pyswagger/io.py: Request.prepare"]}
{"id": "C73", "title": "The text of an argument in a path, query, header or form denotes the argument", "statement": "The text sent for an argument in a path, query, header or form is one from which the argument can be read back by anyone: integers and numbers and booleans as JSON writes them, strings as they are, UUIDs in canonical form, dates and date-times as RFC 3339 has them, bytes in base64, arrays as the texts of the elements between separators. This holds whether the argument is given as an object or as text.", "quantifier": "all values of each type, all texts that stand for them", "why_tests_cant": "all integers, rationals, UUIDs, days, moments and byte strings", "anchors": ["pyswagger/spec/v2_0/objects.py: Operation.__call__", "pyswagger/primitives/_byte.py: Byte", "pyswagger/primitives/_bool.py", "pyswagger/primitives/_int.py", "pyswagger/primitives/_float.py", "pyswagger/primitives/_uuid.py", "pyswagger/primitives/_time.py", "pyswagger/primitives/_array.py"]}
{"id": "C74", "title": "A text that was sent and comes back is read as the value that was sent", "statement": "If the text sent for an argument comes back (say in a response header) and is converted by an object with the same type, format and limits, the result equals the converted argument: for integers, numbers, strings, e-mail addresses, UUIDs, bytes, dates, date-times, booleans and arrays of these. In particular a header argument echoed by a server in a header that the response declares the same way is found under that name as the value that was passed to the operation.", "quantifier": "all values, objects with arbitrary limits, all requests and replies", "why_tests_cant": "round trips over unbounded domains through four layers (conversion, text, request, response)", "anchors": ["pyswagger/primitives/__init__.py: Primitive.produce", "pyswagger/primitives/_array.py: Array", "pyswagger/spec/v2_0/objects.py: Operation.__call__", "pyswagger/io.py: Request.prepare, Response.apply_with"]}
{"id": "C75", "title": "Files given to an operation arrive in the multipart body", "statement": "Calling an operation with files (a dict with filename, header and data for a file parameter, or a list of such dicts for an array of files) and preparing the request gives a multipart body whose content type is announced; a server reads in it one part for each form text and then one part for each file, in the order of the parameters, with the parameter's name, the file name, its Content-Type and Content-Transfer-Encoding, and the content of the file-like object or of the file of that name. What is given for a file is accepted exactly if it is a dict that names a file or holds a file-like object.", "quantifier": "all operations, parameters, arguments, contents and boundaries that do not occur in them", "why_tests_cant": "contents, names and numbers of files are unbounded, and the reading end is another program", "anchors": ["pyswagger/primitives/_file.py: File.apply_with", "pyswagger/spec/v2_0/objects.py: Operation.__call__", "pyswagger/io.py: Request._prepare_files, Request.prepare"]}
{"id": "C76", "title": "The parent of an object is the object that holds it", "statement": "After a document is read, the root has no parent and the parent of every other object is the object of the document that holds it in one of its fields, directly or in a list or dict. Merging one object into another copies: the result holds none of the other's objects, every object it holds has the right parent, and no object that existed before gets another parent. The scan that follows the upgrade of a 1.2 document gives every object its parent, whatever the upgrade left.", "quantifier": "all documents, all pairs of objects merged, all upgraded documents and all orders of visiting", "why_tests_cant": "trees of objects are unbounded, and aliasing between a copy and its source shows only when an object is reached on two paths", "anchors": ["pyswagger/spec/base.py: BaseObj.__init__, _assign_parent, merge, _parent_", "pyswagger/scanner/v2_0/assign_parent.py: AssignParent", "pyswagger/scanner/v2_0/patch_obj.py: PatchObject._operation"]}
{"id": "C77", "title": "The parameters of a call are the ones the document declares", "statement": "An operation is called with exactly the parameters in force for it, in order: its own, then those of its path item with another name. Each has the name, the location, the type, the limits, the default, the allowed values and the items written in the document, no matter whether the declaration stands in place, in the path item, or at the end of a chain of references; preparing it does not raise. So an integer given for a declared integer query parameter is what the server reads under its name, and it lies within the declared limits.", "quantifier": "all documents read as parameter objects, all chains of references, all own and path-level lists, all calls", "why_tests_cant": "chains of references and lists of declarations are unbounded, and a reference shows its effect only after reading, merging, patching, calling and preparing", "anchors": ["pyswagger/scanner/v2_0/merge.py: Merge._parameter, _merge", "pyswagger/scanner/v2_0/patch_obj.py: PatchObject._operation", "pyswagger/spec/v2_0/objects.py: Parameter, Items, Operation.__call__", "pyswagger/spec/base.py: Context.parse, BaseObj.merge, is_set"]}
{"id": "C78", "title": "A conversion follows the schemas as the document writes them", "statement": "Every Schema object a conversion meets is what the document writes at its place: type, format, limits, default, allowed values, required names, the schema of the items, of every declared property (and no others), of every part in allOf, and additionalProperties; and where the document has a reference, the conversion goes on where the references of the document lead, through any number of them, recursive schemas included. This holds for the objects read from the document and for their copies in the parameters of a call.", "quantifier": "all documents read as schema objects, all objects reached from them by any number of steps, all chains of references", "why_tests_cant": "schemas are recursive and unbounded; a copied or a referenced object behaves like the written one only if every field, at every depth, does", "anchors": ["pyswagger/spec/v2_0/objects.py: Schema", "pyswagger/scanner/v2_0/resolve.py: Resolve", "pyswagger/scanner/v2_0/merge.py: Merge", "pyswagger/spec/base.py: Context.parse, BaseObj.merge", "pyswagger/spec/v2_0/parser.py: SchemaContext, AdditionalPropertiesContext", "pyswagger/utils.py: deref"]}
{"id": "C79", "title": "A JSON body that is sent conforms to the schema written in the document", "statement": "Whatever argument without None is accepted for a body parameter, the value a server reads from the JSON body conforms to the schema the document writes for the parameter, in the sense of JSON Schema: type, limits, allowed values, format, items, required, declared and additional properties, and every part in allOf, through references and at any depth. The other way round, every JSON value that conforms to the schema is accepted as an argument and sent as the same JSON value.", "quantifier": "all schemas without the keywords refuted beside C33-C36, recursive ones, allOf without parts of parts and discriminators of named schemas included, all arguments, all JSON values", "why_tests_cant": "both the schemas and the values are unbounded and recursive; a test sees single pairs of them and never that everything accepted conforms", "anchors": ["pyswagger/primitives/__init__.py: Primitive.produce", "pyswagger/primitives/_model.py: Model", "pyswagger/primitives/_array.py: Array", "pyswagger/primitives/comm.py: PrimJSONEncoder", "pyswagger/primitives/codec.py: JsonCodec", "pyswagger/spec/v2_0/objects.py: Operation.__call__, Schema"]}
{"id": "C80", "title": "A JSON reply that conforms to the document is accepted, and its data conforms", "statement": "The response used for a status is the one the document writes for it (or for default), through references: its schema is the schema of the document and its headers are the headers of the document. A reply whose JSON body, as text or as UTF-8 bytes, conforms to that schema and whose media type is JSON (or not sent) is accepted, and the data stands for the JSON value that was sent. The other way round, after any history of calls, the data of a call that raises nothing conforms to the schema.", "quantifier": "all documents, statuses, references between responses, schemas as in C79, bodies, headers and histories of apply_with", "why_tests_cant": "statuses, references, schemas and bodies combine without bound; a test applies a few replies to a few documents", "anchors": ["pyswagger/io.py: Response.apply_with, Response._convert_header", "pyswagger/scanner/v2_0/merge.py: Merge", "pyswagger/primitives/codec.py: MimeCodec.unmarshal", "pyswagger/primitives/__init__.py: Primitive.produce", "pyswagger/spec/v2_0/objects.py: Response"]}
{"id": "C81", "title": "Parameters sent, and headers received, conform to what the document declares", "statement": "Whatever a parameter, header or items object converts is a value that conforms to what the document writes for it. In a prepared request a server finds for every parameter with a value, by its declaration in the document, a text (or, in query and form under multi, several) that it reads as a conforming value: in the query, the form body, the headers and the path; numbers are read as JSON, strings as they are, arrays by the separator of their collection format. In a reply, texts of headers that read as conforming values are accepted as these values, and whatever is accepted conforms, for all capitalisations of the name it is looked up by.", "quantifier": "all documents, references between parameters and between responses, declarations without object types, arguments, requests and histories of replies", "why_tests_cant": "types, limits, nested collection formats and texts combine without bound; a test sends a few values", "anchors": ["pyswagger/spec/v2_0/objects.py: Operation.__call__, Parameter, Header, Items", "pyswagger/io.py: Request.prepare, Response.apply_with", "pyswagger/primitives/__init__.py: Primitive.produce", "pyswagger/primitives/_array.py: Array", "pyswagger/primitives/_int.py", "pyswagger/primitives/_float.py", "pyswagger/primitives/_str.py"]}
{"id": "C82", "title": "Requests and replies follow the one JSON document the application was created from", "statement": "For a document that refers to places in itself only (by fragments or by its own URL): it is read without exception once it can be parsed, every object is found at the place where the document writes it, with the values written there, and a reference leads to the place it names. The parameters of an operation are exactly the declarations the document has in force for it, wherever they are written; what is sent in query, form, headers, path and body conforms to what the document writes; a reply that conforms is accepted as the value that was sent, and whatever data or header a reply yields conforms. What is concluded speaks of the JSON document and the bytes sent or received, not of objects of the library.", "quantifier": "all documents that speak about themselves only, URLs, places, chains of references, arguments, requests and replies", "why_tests_cant": "documents, references and values are unbounded, and the statement joins loading, resolving, merging, patching, conversion and serialisation; a test fixes one document", "anchors": ["pyswagger/core.py: App.prepare_obj, App.resolve", "pyswagger/scanner/v2_0/norm_ref.py: NormalizeRef", "pyswagger/scanner/v2_0/merge.py: Merge", "pyswagger/scanner/v2_0/resolve.py: Resolve", "pyswagger/utils.py: normalize_jr, jr_split, jp_split", "pyswagger/spec/v2_0/objects.py: Operation.__call__", "pyswagger/io.py: Request.prepare, Response.apply_with"]}
{"id": "C83", "title": "The objects of a document are made as it is written, so that requests and replies depend on the document alone", "statement": "For a document that refers to places in itself only: the parameters and responses of an operation are made without exception, one for each declaration in force and in this order, whether declared in place or at the end of references; dereferencing any object ends within a number of rounds that depends on the document only; every schema, parameter, header and body of the conversion is the one the document writes. So what is sent conforms to the document, a conforming reply is accepted, and data and headers of a reply conform, without any assumption about objects of the library.", "quantifier": "all documents that speak about themselves only, URLs, numberings of objects, orders of sets, arguments, requests and replies", "why_tests_cant": "documents and chains of references are unbounded; a test fixes one document", "anchors": ["pyswagger/core.py: App.prepare_obj, App.resolve", "pyswagger/scanner/v2_0/merge.py: Merge", "pyswagger/scanner/v2_0/resolve.py: Resolve", "pyswagger/scanner/v2_0/patch_obj.py: PatchObject", "pyswagger/utils.py: deref, final", "pyswagger/spec/v2_0/objects.py: Operation.__call__", "pyswagger/io.py: Request.prepare, Response.apply_with"]}
{"id": "C84", "title": "A document is read with exactly the objects and fields of the Swagger 2.0 standard", "statement": "Reading a document gives, for each object of the Swagger 2.0 standard, an object with exactly the fixed fields of the standard; a plain field has the value written, or the default of the standard; a field that holds an object, a list of objects or objects by name has these objects, read in the same way, in order and under their names; unknown keys have no effect. A dict can be read exactly when every such field can. The one exception is externalDocs of an operation, which is kept as the plain dict.", "quantifier": "all fifteen objects of the standard, all names of fields, all JSON documents", "why_tests_cant": "every pair of an object and a field, at every depth of a document; a missing entry in a table shows only in a document that uses it", "anchors": ["pyswagger/spec/v2_0/objects.py", "pyswagger/spec/v2_0/parser.py", "pyswagger/spec/base.py: Context.parse, BaseObj.__init__"]}
{"id": "C85", "title": "A 1.2 document is read with the objects and fields of the Swagger 1.2 standard", "statement": "Reading a Swagger 1.2 document gives, for each object of the 1.2 standard, an object with exactly the fields of the standard (an API declaration has a description as well); a plain field has the value written, or the default; a field that holds an object, a list, objects by name or lists by name has these objects, read in the same way, in order and under their names; a filled items is an Items object. An API declaration has the operations of all its apis by nickname, in order, each with the path of its api, and cannot be read if a nickname occurs twice. A dict can be read exactly when every such field can. Exceptions: authorizations of an API declaration stay a plain value, an empty items stays as it is.", "quantifier": "all nineteen objects of the standard, all names of fields, all JSON documents", "why_tests_cant": "every pair of an object and a field, at every depth of a document; every list of apis and operations", "anchors": ["pyswagger/spec/v1_2/objects.py", "pyswagger/spec/v1_2/parser.py", "pyswagger/spec/base.py: Context.parse, BaseObj.__init__"]}
{"id": "C86", "title": "A request goes where and how the document says, with the credentials the document asks for", "statement": "A request made by calling an operation of a loaded JSON document and sent by a client has the method the document writes it under and goes to the host of the document (else of the URL it was loaded from, else localhost), by a scheme that the client knows and the document allows for the operation; a server with the route written in the document, below its base path, reads the arguments of the call from its path. Accept is the first media type the document lists, the announced Content-Type is listed. The credentials it carries are those last registered, made as the securityDefinitions of the document say, of the schemes required by the operation, or by the document if the operation says nothing; an operation with security: [] carries none; nothing else is in query and headers but what the call gives. Credentials change nothing else, so that from query and body as sent a server reads values that conform to what the document writes.", "quantifier": "all documents without references to other documents, all their operations, calls, clients and registrations", "why_tests_cant": "every combination of fields of the document, of the operation, of the client and of registrations", "anchors": ["pyswagger/scanner/v2_0/patch_obj.py: PatchObject", "pyswagger/core.py: Security, BaseClient.request, App.prepare", "pyswagger/io.py: Request.prepare"]}
{"id": "C87", "title": "A Swagger 1.2 service is served as the 2.0 document that says the same", "statement": "A resource listing and its API declarations, as JSON, are read as what they say, and the objects they are upgraded to are those that reading a certain Swagger 2.0 JSON document gives, from whatever URL. This document has an operation under every URL and method declared and no other, with the tags, media types, parameters, response and security that the 1.2 operation (else its resource) declares; a definition for every model; a security scheme of the same kind for every authorization; and no key beyond. So all that holds of 2.0 documents (C82 to C86) holds of 1.2 documents: a request for a declared operation goes with the method declared to host and path of the URL declared.", "quantifier": "all resource listings and API declarations in JSON that refer to models of their own resource, with operations on one site or given by paths", "why_tests_cant": "every nesting and combination of the objects of both standards; agreement of two loaders", "anchors": ["pyswagger/spec/v1_2/parser.py", "pyswagger/scanner/v1_2/upgrade.py: Upgrade", "pyswagger/core.py: App.prepare_obj"]}
{"id": "C88", "title": "What a document declares is found by the name it gives", "statement": "For a Swagger 2.0 JSON document, preparing raises SchemaError exactly if two of its operations have the same name (operationId, after the first tag if there is one); otherwise app.op holds every operation with a name, under its name, and nothing else. app.op[tag, operationId] is the operation written with this tag and id; app.op[operationId] too if no other operation has the id. app.s(path) has the operation under its method. What is found is the operation of C83 and C86: its parameters are the ones declared for it and its path item, and it goes where the document says. app.m[name] is the schema under definitions.", "quantifier": "all JSON documents with references into themselves and path items in place, all numbers of operations and tags, all separators", "why_tests_cant": "every combination of tags, ids and places; agreement of the walk over the objects with the document", "anchors": ["pyswagger/core.py: App._prepare_obj, App.op, App.m, App.s", "pyswagger/scanner/type_reducer.py: TypeReduce", "pyswagger/scan.py: Scanner", "pyswagger/utils.py: ScopeDict"]}
{"id": "C89", "title": "The operations of a 1.2 document are found by resource and nickname, and called with what it declares", "statement": "For a Swagger 1.2 document of one site, app.op[resource, nickname] is the operation declared there, and nothing else is found in app.op; preparing raises SchemaError only if two operations at different places have the same name. A call of what is found goes to the URL, with the method, media types and security of its declaration, and works with the parameters declared, the last one first. Whatever argument is given for a query, form, header or path parameter, the text that is sent is read by a server as a value the declaration allows: of its type, within its limits, one of the values listed, in its format; one for each if several are allowed.", "quantifier": "all resource listings and API declarations on one site whose models are declared, all arguments, all defaults, all limits but 0, fractions of integers and those of several values", "why_tests_cant": "every combination of declarations, types, limits and arguments; agreement of the upgrade to 2.0, preparing, conversion and sending", "anchors": ["pyswagger/scanner/v1_2/upgrade.py: Upgrade", "pyswagger/core.py: App._prepare_obj, App.op", "pyswagger/spec/v2_0/objects.py: Operation.__call__", "pyswagger/io.py: Request.prepare", "pyswagger/primitives/__init__.py: Primitive.produce"]}
{"id": "C90", "title": "What is sent for a model carries the name of the model under its discriminator", "statement": "Wherever the body of a request holds an object for a schema given by a reference to a definition, the object holds the name of that definition under the discriminator of the schema and of the parts of its allOf, whatever the caller passed: inside arrays, properties and additional properties, at any depth.", "quantifier": "all self-contained 2.0 documents, schemas, chains of references, values and environments", "why_tests_cant": "every nesting of arrays, properties, allOf parts and references, every value the caller may pass for the discriminator", "anchors": ["pyswagger/primitives/_model.py: Model.apply_with, Model.cleanup", "pyswagger/primitives/__init__.py: Primitive.produce", "pyswagger/scanner/v2_0/patch_obj.py: PatchObject._schema"]}
{"id": "C91", "title": "Bodies and results of the operations of a 1.2 document are values its models allow", "statement": "What a client sends as the body for an operation of a 1.2 document is JSON text of a value the declared data type allows: models with the properties they require, each of its declared type, together with those of the models that list it as a sub type; and the object holds the id of its model under the discriminators. What a response is read to, whatever its status, is a value the declared result type allows.", "quantifier": "all 1.2 documents on one site, models, sub types, arguments, statuses, payloads and environments", "why_tests_cant": "every graph of models and sub types, every value the caller or the server may pass", "anchors": ["pyswagger/scanner/v1_2/upgrade.py: convert_schema_from_datatype, Upgrade._operation, Upgrade._parameter, Upgrade._model", "pyswagger/primitives/_model.py: Model.apply_with", "pyswagger/scanner/v2_0/patch_obj.py: PatchObject._schema", "pyswagger/io.py: Request._prepare_body, Response.apply_with"]}
{"id": "C92", "title": "App.create refuses exactly the documents with a fault, with the exception for it", "statement": "App.create(url, strict) of a Swagger 2.0 document raises ValidationError if it is strict and a schema requires a property that it marks as read-only; else SchemaError if two operations have the same name; else CycleDetectionError if it is strict and a schema leads back to itself along references; else it returns an application whose tables hold exactly the operations and the definitions of the document. Documents of other versions are refused with NotImplementedError.", "quantifier": "all self-contained 2.0 documents with values of the declared types, URLs, separators, orders of sets, both modes", "why_tests_cant": "every combination of faults anywhere in a document, every graph of references", "anchors": ["pyswagger/core.py: App.create, App.prepare, App.validate, App.prepare_obj, App.load_obj", "pyswagger/scanner/cycle_detector.py: CycleDetector", "pyswagger/scanner/v2_0/merge.py: Merge", "pyswagger/scanner/v2_0/resolve.py: Resolve", "pyswagger/scanner/v2_0/validate.py: Validate", "pyswagger/scanner/type_reducer.py: TypeReduce"]}
{"id": "C93", "title": "App.create makes applications of 1.2 documents, or refuses them for a stated fault", "statement": "App.create(url, strict) of a Swagger 1.2 resource listing with its API declarations raises KeyError or TypeError, strict or not, if an operation asks for an authorisation the listing does not have or takes a file without saying what it consumes; else ValidationError if it is strict and an object breaks a rule; else SchemaError if two operations have the same resource and nickname; else CycleDetectionError if it is strict and a model leads back to itself through properties, items or sub types; else it returns an application where app.op holds exactly the operations by resource and nickname and app.m every model by resource and id. A document that cannot be converted to 2.0 is refused with the exception of the converter. Resources whose names do not hold the first character of the separator never clash.", "quantifier": "all 1.2 documents on one site that use their own models only and have distinct names, URLs, orders of sets, both modes", "why_tests_cant": "every combination of faults anywhere in the listing and its declarations, every graph of models and sub types", "anchors": ["pyswagger/core.py: App.create, App.prepare, App.validate, App.prepare_obj", "pyswagger/scanner/v1_2/validate.py: Validate", "pyswagger/scanner/v1_2/upgrade.py: Upgrade", "pyswagger/scanner/cycle_detector.py: CycleDetector", "pyswagger/scanner/type_reducer.py: TypeReduce", "pyswagger/spec/v1_2/objects.py: Resource"]}
{"id": "C94", "title": "Schemas of a document are composed of themselves and the parts their allOf leads to", "statement": "After App.create every Schema Object of the document that is no mere reference has a final with exactly the properties written in it and in the parts that its allOf lists, directly, by reference, or through the allOf of a part; a property is a copy of the definition written in the schema itself, or else in a part; scalar fields are the own ones, or else those of a part; required and enum hold the elements of all. This comes to an end for every graph of references. Nothing is raised if the values of a field are of the same kind (scalar, list, dict) in a schema and its parts.", "quantifier": "all documents of Swagger 2.0 whose references stay inside of the document, all places in it, URLs", "why_tests_cant": "every nesting of schemas under paths, parameters, responses and definitions, every graph of references and parts", "anchors": ["pyswagger/core.py: App.prepare", "pyswagger/scanner/v2_0/aggt.py: Aggregate, _compose", "pyswagger/scanner/v2_0/resolve.py: Resolve", "pyswagger/spec/base.py: BaseObj.merge"]}
{"id": "C95", "title": "What Renderer makes for a schema of a document is what the schema and its parts say", "statement": "A value that Renderer makes for a Schema Object of the document, with any options, fits what is written at the place that references lead to and in its parts: an object has keys among the properties of the schema and its parts, with all required ones, each value fitting the definition of the schema itself or else of a part; an array has a length within the limits and fitting items; other values are an allowed value that is not empty, or within the limits that the schema and its parts give. An exception has its reason in the document: references in a circle, a missing type, an unknown format, limits that exclude each other, an array without items, in this schema or one that is needed.", "quantifier": "all documents of Swagger 2.0 whose references stay inside, whose properties and items have no allOf of their own (references to schemas with allOf are covered) and that have no schemas for additional properties; all places, options, outcomes of the random generator, recursion depths", "why_tests_cant": "every nesting of objects and arrays, every graph of references and parts, every sequence of random draws", "anchors": ["pyswagger/primitives/render.py: Renderer._generate", "pyswagger/scanner/v2_0/aggt.py: Aggregate", "pyswagger/utils.py: deref, final"]}
{"id": "C96", "title": "What Renderer makes for byte, uuid, date, date-time and files, and what is sent for it", "statement": "Without an allowed value, a rendered date is any valid day from January 2, 1970 to before January 19, 2038 and is sent as its RFC 3339 full-date; a rendered UUID is any UUID of version 4 and is sent in canonical form; rendered bytes are the base64 text of at most max_byte_length letters, and what is sent decodes to them; a rendered date-time is any moment from local midnight of the first to local midnight of the last of these days, to the microsecond, but has no offset, so what is sent is never an RFC 3339 date-time. An allowed value is read as the day, moment or UUID that it spells, or ValueError is raised; an allowed value of format byte is encoded once more, so that the text that is sent is never the allowed one. For a file one of the files of the options is made, any of them; without such, a nameless text file of at most max_file_length letters, which is accepted and uploaded with its type and content.", "quantifier": "all outcomes of the random generator, all offsets of local time from UTC, all texts as allowed values", "why_tests_cant": "there are 24854 days, 2^122 UUIDs and countless texts; the limits of the random times depend on the local time zone", "anchors": ["pyswagger/primitives/render.py: _byte_, _uuid_, _date_, _date_time_, _file_", "pyswagger/primitives/_time.py: Date, Datetime", "pyswagger/primitives/_byte.py: Byte", "pyswagger/primitives/_uuid.py: UUID", "pyswagger/primitives/_file.py: File"]}
{"id": "C97", "title": "A scan calls the handlers registered with the dispatchers of its scanner objects, and no others", "statement": "After any sequence of definitions of dispatchers, registrations and result functions, a dispatcher has for a class exactly the handlers registered with it for that class, in order, none of its parents, children or other dispatchers; a registration whose targets include something that is no class of objects raises ValueError and counts for the targets before. A scan calls, for each object of the document in the order of the walk, for each scanner object and each dispatcher in the body of its class, for the class of the object and its parents, these handlers; each return value goes to the last result function given to that dispatcher, if any; an exception of either ends the scan. A scanner class that is derived from another and has no dispatcher of its own calls nothing.", "quantifier": "all histories of definitions and registrations, all handlers and result functions with any effects and exceptions, all documents, class hierarchies and lists of scanner objects", "why_tests_cant": "isolation of dispatchers is about every interleaving of registrations; tests use a few scanners", "anchors": ["pyswagger/scan.py: DispatcherMeta, Dispatcher.register, Dispatcher.result, Scanner.__build_route, Scanner.scan"]}
{"id": "C98", "title": "A document with a reference that leads nowhere does not become an application", "statement": "When a schema, parameter, response or path item of a Swagger 2.0 document refers to a place of the document where no object of the same kind is written - nothing at all, a value, or an object of another kind - App.create never returns an application, strict or not. For schemas it raises an exception whatever else the document says. Only list indices in another form than the usual one (such as -1) are taken although no place is written so.", "quantifier": "all documents whose references stay within them, all places of the referring object, all targets in ordinary form, strict or not, any amount of recursion", "why_tests_cant": "whether a reference is found out must hold for every place a reference can stand at and every place it can name; tests try a few", "anchors": ["pyswagger/core.py: App.create, App.prepare, App.resolve", "pyswagger/scanner/v2_0/resolve.py: Resolve", "pyswagger/scanner/v2_0/merge.py: Merge", "pyswagger/spec/base.py: BaseObj.resolve"]}
{"id": "C99", "title": "Two paths cannot share a named operation by reference", "statement": "When a path of a Swagger 2.0 document is given as a reference to another path of the document that has an operation with an operationId and at most one tag, and the referring path has no operation of its own for that method, App.create never returns an application, strict or not: Merge copies the operation with its name, and building app.op on the merged document raises SchemaError for the duplicate. The standard allows such references.", "quantifier": "all documents whose references stay within them, all pairs of paths, all methods, whatever else the document holds, every order of the walk over sets, strict or not", "why_tests_cant": "the outcome depends on the interplay of three scanners over the whole document and on the order in which path items are merged into each other; tests load one document at a time", "anchors": ["pyswagger/scanner/v2_0/merge.py: Merge._path_item", "pyswagger/scanner/type_reducer.py: TypeReduce._op", "pyswagger/spec/base.py: BaseObj.merge", "pyswagger/core.py: App.prepare"]}
{"id": "C100", "title": "A document given by the path of a file is read from that file", "statement": "App.load with a path (absolute or relative, with dots and steps up) opens the file the path means, if all characters of the names on the way to it are unreserved in URLs; for other names it opens another file: the one whose name is the percent-encoded name. Paths of different files never open the same file. The path of a folder opens the first of the four well-known names in it, a name without extension the first of the three extensions, under which there is a file. With a file: URL the file opened is the one whose path is written in it, without decoding. A relative reference in a document that is not at the root opens the file its steps lead to from the document's folder, and so do references in the documents opened.", "quantifier": "all file systems without folders named like documents, all working directories, all paths without colon to names ending in .json, .yaml or .yml", "why_tests_cant": "the tests use the folders of the test data only; which characters survive the way through URL and getter is a statement about all names", "anchors": ["pyswagger/utils.py: path2url, normalize_url, normalize_jr, derelativise_url, jr_split, patch_path", "pyswagger/resolve.py: Resolver.resolve", "pyswagger/getter.py: LocalGetter", "pyswagger/core.py: App.load"]}
{"id": "C101", "title": "A request can be sent again after a failure, by any client", "statement": "Whatever was tried with a request before - sending it by any clients with any options and headers, successfully or ending with an exception at any point, and any settings of media types and scheme in between - sending it gives the same as sending a request that only got the settings, if the earlier clients had no credentials or those of the same schemes as the client sending now (so a new value for a token is the only one sent), and no file is an open stream. When writing a file fails, the streams of the files before it have been read and those of the files behind it have not.", "quantifier": "all operations, requests, histories of attempts and settings, clients, options, headers and file systems", "why_tests_cant": "the tests send requests that succeed; what is left behind by a failure at each of the points where one is possible is a statement about all histories", "anchors": ["pyswagger/io.py: Request.prepare, reset, _prepare_files, consume, produce, scheme", "pyswagger/core.py: BaseClient.request, Security.__call__, update_with", "pyswagger/contrib/client: Client.request"]}
