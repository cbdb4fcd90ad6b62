# Formal model of pyswagger: design

## Technique

The Python code in /repo is modelled by hand, function by function, as total
functions in Lean 4 (`lean/Verif/`). Every model definition cites the file and
lines it models and says where it simplifies. Exceptions are values
(`Except Exc`), mutation is returned state, loops are folds or recursion with a
proved termination argument. Theorems are proved for all inputs.

Layout of `lean/Verif/`:

* `Py/`     - Python substrate: strings as `List Char`, dicts as insertion-ordered
              association lists, values, UTF-8, `urllib.parse`, `posixpath`,
              base64, random draws, exceptions
* `Spec/`   - what the properties mean, written without the functions of the model
              (RFC readers and printers, decoders, relations)
* `Model/`  - the model of pyswagger, one file per area
* `Proofs/` - helper lemmas
* `Props/`  - the property theorems, each with non-vacuity examples. Theorem names
              start with the property id (`C01_...`).

Naming: `Cxx_..._partial` proves part of a property; `Cxx_..._false` is a
refutation of (part of) the English claim by a concrete witness - the unchanged
code violates it. A property whose English statement is refuted somewhere is
listed as `partial` in MANIFEST.json even when the remaining part is decided
exactly; the note says what holds and what does not.

## Plan per property

| id | property | model and proof |
|----|----------|-----------------|
| C01 | JSON pointer composition and splitting are inverse | jp_compose/jp_split over character lists; induction on tokens and characters. |
| C02 | Every path shown to a scanner resolves back to the visited object | object trees as an inductive type (objects/lists/dicts/scalars); traversal with explicit stack; induction on the tree plus C01. |
| C03 | A scan visits every object exactly once, parents first, and skips below leaves | same tree model; permutation/no-duplicate/order theorems by induction on tree size; dispatcher as a table of handler lists. |
| C04 | Scope composition and splitting are inverse | str.split on character lists; exact overlap condition. |
| C05 | Scoped lookup returns the right entry or fails, independent of insertion order | ScopeDict as insertion-ordered association list; full decision theorem, permutation invariance; refutation for suffixes that are not aligned to a component. |
| C06 | Every identified operation is reachable through app.op | TypeReduce as a fold; iff theorem for SchemaError; refutation of the documented access by a second tag. |
| C07 | Cycle search terminates and reports exactly the reachable simple cycles | walk as a step function on (ctx, stack, cycles); termination by a measure; invariants for soundness; completeness by relating the run to the set of simple paths. |
| C08 | Strict preparation rejects exactly the documents with circular schemas | schema trees, `_schema_out_obj`, CycleDetector fold over visited schemas; corollary of C07. |
| C09 | Dereferencing terminates, ends at a non-reference, and detects every cycle | heap with a ref_obj map; deref with a termination measure (unvisited objects). |
| C10 | Reference normalisation is absolute, base-correct and idempotent | urlparse/urlunparse modelled from CPython; normalize_jr over strings. |
| C11 | Dot segments are removed and never escape the root | derelativise loop over segments. |
| C12 | URL joining inserts exactly one slash | url_join/url_dirname over the parsed URL. |
| C13 | Resource paths always end in a supported extension | os.path.splitext (POSIX) modelled; case analysis. |
| C14 | ISO-8601 text of a date or time is read back to the same value | regex matcher as a parser on character lists, datetime constructor checks, isoformat printer; round trip by digit lemmas. |
| C15 | Text that is not ISO-8601 is rejected | refutation with concrete witnesses; partial: exact characterisation of what is accepted. |
| C16 | Header dictionaries are case-insensitive maps | refinement of the store to an abstract map over operation lists. |
| C17 | Replacing a query parameter keeps the others | list lemma by induction. |
| C18 | Authorisation adds exactly the credentials that are required and registered | Security state machine: registrations and application as folds. |
| C19 | Requests of operations that opt out of security carry no credentials | decision theorem on Option (List _). |
| C20 | Resending a request rebuilds the same request | Request state machine: reset/prepare/apply security; idempotence. File streams: refutation (stream is consumed). |
| C21 | Path parameters cannot change the structure of the URL | quote_plus over UTF-8 bytes, str.format for {name} fields; decode inverse. |
| C22 | Form bodies decode to the submitted fields | urlencode and an independent decoder; round trip. |
| C23 | Multipart bodies decode to the submitted fields and files | byte-level encoder and an independent multipart reader; round trip under boundary freshness; refutation for filenames with quotes/CRLF. |
| C24 | Content-Type and Accept are always ones the operation declares | decision theorems on prepare. |
| C25 | The scheme used is one both client and operation support | sorted/set intersection; decision theorem. |
| C26 | URL options change only scheme and host | _patch over urlparse model. |
| C27 | Custom headers are all sent, and the request's own headers win | compose_headers on association lists incl. mutation of the caller's containers (refutation). |
| C28 | Responses accumulate headers, status and raw data faithfully | Response state machine; induction over call lists. |
| C29 | A response is interpreted by the matching status entry, else by default | decision theorem on apply_with. |
| C30 | The media-type registry matches types ignoring case and parameters | codec registry; refinement over histories. |
| C31 | Calling an operation rejects missing and unknown parameters | Operation.__call__ with conversion as parameter; iff theorem. |
| C32 | Every parameter is sent in its declared location only | same; membership theorem for every location. |
| C33 | Numbers outside the declared range are never accepted | integers and rationals (floats idealised as rationals: rounding not modelled). |
| C34 | Strings violating enum or length limits are never accepted | decision theorem, refutation for limit 0. |
| C35 | Arrays respect item limits, uniqueness and serialise reversibly | Array.apply_with, __str__, to_url; refutation for leading empty elements and for uniqueItems after conversion. |
| C36 | Objects carry exactly the declared, defaulted and permitted additional properties | Model.apply_with/cleanup inside produce; field-wise theorem. |
| C37 | Read-only properties cannot be sent | produce with read/write context; refutation for nested properties. |
| C38 | Model equality is an equivalence that treats None as absent | Model.__eq__ over nested values. |
| C39 | Converting a value terminates for every schema graph | produce over a finite schema graph; well-founded induction over the conversions a conversion leads to, inside it over the objects the guard has not seen; refutations by induction on the depth of the stack. |
| C40 | The primitive registry falls back to the type's default format | registry histories. |
| C41 | Byte values survive base64 exchange | base64 encoder/decoder over bytes. |
| C42 | Dumping a loaded document loses nothing and is stable | generic parser/dumper over a class table, instantiated with the 2.0 table; round trip by induction on JSON; refutations for empty containers. |
| C43 | Merging keeps what is set and fills in only what is missing | merge over field maps with an arbitrary set order. |
| C44 | compare reports equality exactly for equal objects | refutation (longer lists), partial for equal list lengths. |
| C45 | The document differ reports a difference iff there is one | _diff_ over JSON, exceptions for heterogeneous lists. |
| C46 | A document is loaded at most once and pointers are followed exactly | Resolver state machine with a loader oracle. |
| C47 | app.resolve returns the object the reference names, cached or not | App cache model; refutation (prefix match not aligned to tokens), partial under alignment. |
| C48 | Only Swagger 1.2 and 2.0 documents are loaded | decision theorem. |
| C49 | Validation reports exactly the schemas requiring a read-only property | fold of the handler over the traversal. |
| C50 | Operations inherit path-level parameters unless they override them | list theorem; refutation for same name in another location. |
| C51 | Operations inherit service-wide media types, schemes, host and base path | decision theorems. |
| C52 | Referenced parameters, responses and path items behave like inlined ones | chain merge with fuel from guard; field-wise first-set theorem. |
| C53 | allOf composition yields the union of properties, own ones first | _compose over a finite schema graph, with the plain fields as the values they are: lists are united, dicts merged, scalars own-first. Values of different kinds in two parts (a number and a dict as `default`) make the merge raise: C53_kinds_false. |
| C54 | Integer response codes from YAML become strings without losing entries | dict rebuild; injectivity of decimal printing. |
| C55 | Upgrading a 1.2 document preserves every operation's URL | commonprefix + urlparse; partial for one common host; refutation for different hosts and for documents without operations. |
| C56 | Upgrading a 1.2 document preserves parameters, security and models | field-wise conversion theorems. |
| C57 | Generated integers, strings and arrays satisfy their schema | random numbers as an arbitrary choice function within randint's contract; refutations (maximum 0, multipleOf below minimum). |
| C58 | Generated objects contain all required properties | same; refutation for additionalProperties without minProperties. |
| C59 | Generated parameter sets can be passed to the operation | same; refutation for '$ref' parameters. |
| C60 | Validation of 1.2 documents reports exactly the broken rules | decision theorems; refutation (crash on unknown authorisation). |
| C61 | Getters deliver every requested resource once, in order | iterator state machine. |
| C62 | A cookie-keeping client replays the last cookie it was given | client state machine. |
| C63 | A prepared request carries everything that was supplied | headers and payload of a prepared request; decision theorems. |
| C64 | Every bundled client hands the whole prepared request to its library | what each bundled client hands to its HTTP library; the library is a parameter. |
| C65 | Every bundled client reads a reply by its own status and headers | what each bundled client makes of the reply. |
| C66 | Dates and times are written in the format the specification asks for | decision per kind of argument against an RFC 3339 spec; refutations (datetime for a date, missing offset, offset of a day). |
| C67 | app.s returns the path item (or operation) of a path | equality with following two tokens from the root; refutation of the documented example. |
| C68 | Definitions are named after their key | over the scan (C03); separator of 1.2 keys (C04); refutation for another separator. |
| C69 | Every spelling of a UUID is read and its canonical form is written | model of `uuid.UUID` against an RFC 4122 spec; refutations (16 characters, lenient `int`). |
| C70 | A JSON body is the text of the value it was made from | model of `json.dumps` against a reader of RFC 8259, induction on values; refutation for NaN and infinities. |
| C71 | Every resource of a 1.2 resource list is loaded, from beside the list, in order | induction on the list over the resolver's state, URL lemmas of C12; refutations for relative paths and getter objects. |
| C72 | A server reads from the prepared request the arguments of the call | composition of C21, C22, C24, C31, C32, C63 and C70 with a reader of routes (`Spec/Server.lean`) that inverts quoting and templating. |
| C73 | The text of an argument in a path, query, header or form denotes the argument | the conversions and constructors filled in (`World`, `Py/Number.lean`), composed with C33-C35, C66, C69 and the JSON reader of C70; refutations for booleans and bytes. |
| C74 | A text that was sent and comes back is read as the value that was sent | conversion inverted on the texts of C73, type by type; arrays over their elements; composed with C72 and C28; refutations for False, date-times given for dates, empty arrays and unique items. |
| C75 | Files given to an operation arrive in the multipart body | `Uploads` (what the dicts describe) against `Spec.Multipart.read` of the prepared body; composition of the file conversion, C32 entries in order, C35 arrays, C23 and C63; streams given twice arrive empty. |
| C76 | The parent of an object is the object that holds it | objects with identities and a heap of parents; reading and merging refine the models of C01 and C43 (erasing identities) and keep the invariant that new objects are fresh, distinct and rightly parented; holders are unique because the identities held are a permutation of all but the root. |
| C77 | The parameters of a call are the ones the document declares | composition of reading (C42), merging (C43, C52), patching (C50), calling (C32), the request (C72) and conversion (C33); a chain of references ending in a declaration is acyclic because its length is a function of where it starts; every field but the reference is a copy of the declaration's. |
| C78 | A conversion follows the schemas as the document writes them | one step of a simulation: an object that belongs to a dict has the attributes the dict states, and its parts belong to the parts of the dict; closed under copies (C43), reading (C42) and references (C09), so it holds at every depth, for recursive schemas too. |
| C79 | A JSON body that is sent conforms to the schema written in the document | `Conforms` (Spec/Conform.lean) says it about the dicts of the document; soundness by induction on the depth of the conversion with the simulation of C78, completeness by induction on `Conforms` with fuel monotonicity. `allOf`: a successful conversion is inverted into one conversion per property by the schema or part that came first (Proofs/PrimParts.lean); the converse by C36_allOf. Formats with the shipped objects; the server's value by C72 and C70. |
| C80 | A JSON reply that conforms to the document is accepted, and its data conforms | C77's reading of references for responses (`MeansAs`, Spec/Described.lean), C28/C29 for the state of `Response`, C30 and C70 for the codec, C79 for the value. `Reply.Table` joins the models. |
| C81 | Parameters sent, and headers received, conform to what the document declares | Spec/Wire.lean says how a server reads texts, Spec/Conform.lean (C79) when a value conforms. `Made` (Proofs/Wire.lean) is what conversion gives for a declaration; C72 finds the texts, C77 the declarations, C80 those of replies. That Python reads what JSON calls a number: Proofs/JsonNumber.lean. |
| C82 | Requests and replies follow the one JSON document the application was created from | Spec/Pointed.lean says what is written where in a document, and what it is to speak about itself only. Model/Loaded.lean is NormalizeRef and App.resolve for the document in the cache. Proofs/Simulate.lean carries the steps of C77-C81 from absolute references back to those written, Proofs/Origin.lean joins them. The concrete document is in Props/C82Example.lean; Proofs/Checked.lean decides for a document if it speaks about itself only. |
| C83 | The objects of a document are made as it is written, so that requests and replies depend on the document alone | Model/Objects.lean makes the objects of conversion: by places of the document, and by places inside the objects `final`. Proofs/Shape.lean: a document has the shape that `merge` needs; Proofs/Prepared.lean: `Merge` raises nothing; Proofs/Fit.lean: schemas and items are those of the document; Proofs/Made.lean: dereferencing ends (C09), parameters and responses. Props/C83Example.lean has a numbering and the document of C82. |
| C84 | A document is read with exactly the objects and fields of the Swagger 2.0 standard | Spec/Swagger20.lean has the tables of the standard, written independently; both tables are compared by `decide +kernel` on all names that occur in either, every other name is in neither; a one-step relation for reading, closed under the reading of the parts. |
| C85 | A 1.2 document is read with the objects and fields of the Swagger 1.2 standard | as C84, with Spec/Swagger12.lean; the constructors of data types (`items`) and of Resource (operations by nickname) are one step each; `Operations` gives the flattened entries as a relation. |
| C86 | A request goes where and how the document says, with the credentials the document asks for | Model/Service.lean makes the operation of a request and the security schemes from the prepared document; Spec/Service.lean says what the JSON dicts hold. Composes C51, C18, C25, C24, C72 and C83: the theorems go from the JSON document to what is handed to the HTTP library. |
| C87 | A Swagger 1.2 service is served as the 2.0 document that says the same | Model/Upgraded.lean reads the objects of 1.2 into the records of Model/Upgrade.lean and makes the objects of 2.0 of the records it gives; Spec/Listing12.lean and Spec/Document20.lean say what the JSON of both standards holds. Composes C85, C55, C56 and C86. What 1.2 JSON holds besides these records (responseMessages, grant endpoints other than the URLs) is not carried over by the library. |
| C88 | What a document declares is found by the name it gives | Model/Index.lean puts the walk (C03), the index (C06) and the objects of documents (C83, C86) together; Spec/Index.lean says what a JSON document calls an operation. Proofs/Index.lean shows that an object of the prepared document stands where it is written, and that operations are written under paths, a path and a method only. Documents with path items by reference are not modelled here (Merge copies operations into them). |
| C89 | The operations of a 1.2 document are found by resource and nickname, and called with what it declares | The composition of C87 (upgrade), C88 (index) and C86 (requests), said in terms of the 1.2 document alone. Spec/Data12.lean is what a 1.2 declaration says about the texts of a parameter; Proofs/Data12.lean carries what the upgraded parameter says over to it. The refutation C89_limits_false: limits of `0` and those of several values are lost, fractional limits of integers are cut. Bodies: C86 with C87_models. |
| C90 | What is sent for a model carries the name of the model under its discriminator | Spec/Tagged.lean says which discriminators a value holds, in terms of the document alone. C90_tagged is an induction over the conversion for any setting whose objects are named after what references lead to (Names); names_of shows it of the objects of a loaded document; C90_body is about whole requests. A schema written in place is not asked to carry a name: the library takes the last token of its path below `definitions` (a property's name), which is no model. C90_received_false: in what is received the discriminator is replaced as well, by the name of the declared schema, so the model the server named is lost. |
| C91 | Bodies and results of the operations of a 1.2 document are values its models allow | Spec/Model12.lean says in terms of the 1.2 records which values a data type allows (Instance) and which ids stand under discriminators (Tagged), and which data types and models are within reach. Proofs/Model12.lean shows that the definitions written for them form a closed set of schemas (the hypothesis of C79/C83) and that conforming to them gives Instance; C91_body and C91_data speak of whole requests and responses. Out of reach: arrays with uniqueItems (C89), limits of 0 (C91_limits_false: dropped by the converter), sub types of sub types, properties declared again by a sub type. Ids that contain the separator of scopes are cut: C91_names_false. |
| C92 | App.create refuses exactly the documents with a fault, with the exception for it | Model/Create.lean puts the models of the scanners in the order of prepare; Spec/Refused.lean says the faults (Faulty, Clash, Circular) and the conditions (Regular) in terms of the dicts of the document. Proved by going through the scanners: each ends without an exception for such documents unless there is its fault. Aggregate ends without an exception if the values of a schema and its parts are of the same kinds (C94). |
| C93 | App.create makes applications of 1.2 documents, or refuses them for a stated fault | create12 of Model/Create.lean reads, upgrades, checks the objects of the 1.2 document and prepares. Spec/Refused12.lean says which models use each other in terms of the declarations; Proofs/Parts12.lean shows that the parts of upgraded models fit together, Proofs/Uses12.lean that a cycle of these is a cycle of references of the upgraded document. The rest is C92.prepared with the conditions shown for every upgraded document, and C60 for the checks. C93_lenient_false: an unknown authorisation is a KeyError even when the application is not strict. |
| C94 | Schemas of a document are composed of themselves and the parts their allOf leads to | Model/Composed.lean makes the heap of Model/Aggregate.lean from a prepared document, by the places of its Schema objects. Spec/Composed.lean says parts, properties and values in terms of the document; Proofs/Composed.lean shows that the heap has what is written, so that C53 applies. C94_kinds_false, C94_mixed_false: a number and a dict as `default` of a schema and its part make App.create raise. |
| C95 | What Renderer makes for a schema of a document is what the schema and its parts say | Model/Rendering.lean gives Model/Render.lean the heap that Aggregate leaves behind. Spec/Generated.lean says, about the document and its places, which values fit and which exceptions have a reason. Proofs by induction on the recursion depth, over originals and copies of schemas (Proofs/Generated.lean). C95_nested_false: without the condition on properties and items rendering may raise for a schema that has a type. |
| C96 | What Renderer makes for byte, uuid, date, date-time and files, and what is sent for it | Model/RenderFormats.lean over Py/Calendar.lean (days and seconds since 1970, `uniform`, `uuid4`). The calendar is proved to count days in order (Proofs/Calendar.lean). What is sent is read by the independent specifications of RFC 3339, RFC 4122 and base64. C96_datetime_false: date-times are sent without offset. C96_byte_false: allowed bytes are never sent as written. Files (Props/C96Files.lean) are described by Spec/Upload.lean and sent by C75. |
| C97 | A scan calls the handlers registered with the dispatchers of its scanner objects, and no others | Model/Dispatch.lean: a state of dispatcher classes changed by events; nested loops with exceptions. Spec/Dispatched.lean reads handlers and result functions off the history and gives the calls that are due as one list with a relation for what they do. Invariants by induction on the history; C97_scan equates the loops with the list. C97_inherited_false: derived scanner classes. |
| C98 | A document with a reference that leads nowhere does not become an application | Spec/Dangling.lean (Inside, Ordinary, Dangling) over the places of Spec/Pointed.lean. Model/Create.lean as in C92, for documents whose references need not lead anywhere; BaseObj.resolve along ordinary tokens leads to an object only where one is written (induction on the tokens). C98_index_false: -1 in a list. |
| C99 | Two paths cannot share a named operation by reference | Spec/Shared.lean (Shares). Model/Create.lean merges the path items one after another, each into the document the next one finds (spread); Proofs/MergeWF.lean: merging keeps objects well-formed. Invariant of that walk: the path referred to keeps its operation, the referring one has its copy once it has been merged (C52), and a copy has the same id and the same single tag. Then the walk for the index meets two operations of one name (C03, C06). With two tags the outcome depends on the order of a set: C99_tags_false runs a document to the end for one order (Props/C99Example.lean). |
| C100 | A document given by the path of a file is read from that file | Spec/File.lean (Leads, Means, Document, encoded). Model/LocalFile.lean: `posixpath.abspath`, `pathlib.Path.as_uri` and the chain of App.load, Resolver and LocalGetter up to `open`. Proofs/LocalFile.lean: normalisation follows the steps of the path; quoting is decided character by character, its fixed points are the texts of unreserved characters, and an ending without characters of escapes is an ending of the text before (so folders and extensions are those of the file meant). The URL is canonical (C10). A folder's path ends with none of the four names, since such an ending would make its last name a document's. References: the steps of a path and the segments of a URL are read alike when no name consists of three or more dots, so C10_relative gives the URL of the file meant. |
| C101 | A request can be sent again after a failure, by any client | Model/Attempt.lean: `prepare` and the clients with the request as it is after an exception, statement by statement, and the streams read so far. Everything an attempt changes is reset by the next one, except the credentials put among the parameters; applying credentials over others of the same places gives the same as applying them alone (replacing pairs twice with the same names), so by induction over the history. |

## Trusted base

* Lean's kernel, and the axioms `propext`, `Classical.choice`, `Quot.sound` only;
  AXIOMS.md lists them per theorem (`tools/axioms.py`). No `sorry`, no axioms of
  our own, no `native_decide`, no `bv_decide`.
* The reading of the Python source recorded in the citations. The code was not
  executed. (`Py/Url.lean`, the model of `urllib.parse` and `posixpath`, which are
  not part of /repo, was compared by hand with the interpreter at hand on random
  strings; the one difference found, newer `urlunsplit` treatment of paths starting
  with `//` and an empty authority, is excluded by hypotheses of the theorems.)
* Python semantics assumed: CPython 3.7-3.9 on POSIX; `str` as a sequence of
  code points; dicts iterate in insertion order; sets iterate in an arbitrary
  order (where order matters the model takes it as a parameter `order`);
  `urllib.parse.quote` keeps `~`; `random.randrange` as in these versions.

### Conventions of the model

* Exceptions are values of `Exc`; messages are not modelled except where a property
  is about them. Logging is not modelled anywhere.
* Termination. Functions of the code that always end are total functions here.
  Where the code may run forever, either the depth of the stack or the rounds of a
  loop are an argument (`fuel`, `rounds`; running out is `RecursionError` or `none`),
  or the function is a `partial_fixpoint` whose value `none` means "runs forever".
  Theorems either hold for every amount of fuel or say from which amount on.
* Random draws (`Py/Random.lean`) are all outcomes allowed by the contract of the
  `random` module; probabilities are not modelled.
* Identity. Where the code compares objects by identity the model numbers them
  (`Deref`, `Aggregate`, `MergeRefs`, `Prim`, `Render`); elsewhere objects are trees.
* Ghost fields that the code does not have: `log` (the fetches of a resolver),
  `origin` and `composed` in the allOf model. They are never read by a modelled
  function.
* Floats are exact rationals with infinities and NaN; rounding is not modelled.

### What is left open (parameters of the model)

| parameter | stands for |
|---|---|
| `order` | iteration order of a Python set |
| `sortable` | whether `sorted` succeeds on a list of mixed values |
| `world`, `load`, `isfile`, `abspath` | what is found at a URL or path at each fetch |
| `json`, `yaml` | the JSON and YAML parsers, `json.dumps` |
| `server` | the HTTP library and everything behind it |
| `lower`, `upper`, `str`, `toInt`, `toFloat`, `toStr`, `float`, `int` | Python's conversions where their details do not matter |
| `atom`, `mismatch` | constructors of UUID, Byte, Date, Datetime and File objects inside `produce` (`atom` is filled in by `World`); the outcome of a second pass of a handler made for another type |
| `special` | the generators for byte, date, date-time, uuid and file values inside a larger value (by themselves the first four are modelled in RenderFormats, C96) |
| `resolve`, `deref` | `App.resolve` and `utils.deref` where they are not the subject (modelled in `AppResolve`, `Deref`) |
| `leaf` | the text of a primitive other than an array (filled in by `World`) |
| `Outside` | the objects among the arguments, `fromtimestamp`, `utcfromtimestamp`, `repr` of floats |

### What is modelled

| source | model | not modelled |
|---|---|---|
| utils.py | JsonPointer, Scope, CIDict, Iso8601, Deref, Url, Walk, Diff, AppResolve (versions) | `import_string`, `get_or_none`, `get_dict_as_tuple`, `_diff_`'s use in tests; `int()` spellings other than digits; non-ASCII digits in dates; the bracket and NFKC checks of `urlparse` |
| core.py | Security, Client, AppResolve (`resolve`, `s`), Patch (schemes), Validate, CycleDetector (strict check), Create (`create`, `prepare`: the scanners in their order) | fragments are not percent-decoded (nor are they in the code); `App.dump` is the tree dump of Doc; deprecated constructors |
| io.py | Request, Multipart part of Request, Response, Attempt (the state of a request after an exception) | |
| getter.py, resolve.py | Getter, Resolver, LocalFile (with `path2url` and `abspath` of POSIX) | custom getters supplied by the user are `world` |
| scan.py | Scan, Dispatch (dispatchers, scanner objects, effects of handlers) | handlers that change the tree while it is walked |
| spec/base.py | Tree, Doc, Merge, Compare, Parent | parents of 1.2 objects, `__origin_keys`, internal fields |
| spec/v2_0 | Doc20, Call, Ask, Patch | `Parameter`/`Header` constructors beyond their fields |
| spec/v1_2 | Load12 (`ResourceListContext.parse`), Doc12 (the classes and the parser), Upgrade, Upgraded (from the objects of 1.2 to the records of Upgrade, from these to the objects of 2.0; a null for defaultValue counts as unset), Validate12 (objects as read by the converter and the rules) | nicknames that are no texts; `responseMessages` in the converter |
| scanner | Loaded (norm_ref, with core.py prepare_obj and resolve), Effective (merge, then patch_obj), Schemas (resolve, for conversions), Service (operations and security schemes of a prepared document, for patch_obj and core.py), Objects (the objects of conversion, by places of the document; their names, of 1.2 documents too), Composed (the schemas of a document, for aggt), Index (type_reducer, with core.py op, m, s), Reply (merge of responses, with io.py), CycleDetector, Scope (type_reducer), Upgrade, Validate12, Aggregate, MergeRefs, Patch, Validate, Yaml, AppResolve (resolve, norm_ref), Parent (assign_parent) | |
| primitives | Registry, Prim, World (_int, _float, _bool, _str, _file and the constructors), ModelEq, Byte, Codec, Json, Iso8601 (_time), Uuid, Render, RenderFormats (byte, uuid, date, date-time), Rendering (the schemas of a document, for Render) | a local time zone whose offset changes; user supplied handlers; keys of a body that are no text; `repr` of floats is a parameter; `int()` and `float()` of text with non-ASCII digits or spaces; integers too large for a float |
| contrib/client | Client, Clients | the libraries themselves; `headers['Set-Cookie']` of webob is taken to be the last such header |

## Disagreements between the English properties and the code

Every theorem named `..._false` is one. The note of the property in MANIFEST.json
names them; the docstring of the theorem says what happens in the code.

## Testing the theorems

`tools/mutate.py` applies edits (JSON lists of file, definition, old and new text) to a
copy of the project outside /verif, rebuilds and records in seeded/LOG.jsonl which
theorems failed. Edits that survived led to the theorems named under `tightened`.

How to read the log:
- `survived: true`: everything still builds.
- `survived: false`: a declaration of Proofs/ or Props/ fails. The build stops at the first failing module of
  each chain. For many entries this is a helper lemma under Proofs/, so the theorems of the property that use
  it were not reached. Such an entry shows that the proof as written notices the edit. It does not
  show that the statement of the property is false of the edited model.
- `survived: null`: the build failed in Model/, Py/ or Spec/ only. The edited model did not elaborate, its
  termination proof broke, or a literal example beside it failed. No theorem was tested, so this is no evidence.
  Fourteen early entries of this kind had been recorded as failures of theorems. They were corrected and carry a note.
  Their repetition, with `also` naming the edits that let the model elaborate, comes later in the log.
