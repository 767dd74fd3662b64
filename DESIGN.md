# Design

A Lean 4 model of `obsidian-rs/obsidian` (source in `/repo`), and machine-checked proofs of the
properties in `properties.jsonl` about that model. `MANIFEST.json` says which theorems belong to which
property.

## Layout

* `lean/Verif/Model/*` - the model, one definition per Rust function, each citing file and lines.
* `lean/Verif/Spec/*` - small, self-contained specifications with which the theorems are stated. They
  never mention the trie or other inner data of the library. `Calls`, `Answers` and `Runs` hold the words
  of the claims (handlers as a user writes them, what an answer is, whose turn it is); they use the API.
* `lean/Verif/Proofs/*` - helper lemmas (invariants, refinement).
* `lean/Verif/Props/*` - the property theorems (`Cnn_*`), and beside them concrete cases that satisfy
  their hypotheses. Only these files are named in `MANIFEST.json`.
* `lean/Verif/Check/RepoTests.lean` - the unit tests of the repository and the routes of its example,
  evaluated on the model. These are tests of the model, not proofs of anything; all of them give what the
  repository's tests expect (those of `Context::json`, where serde_json is a parameter, are left out).
* `seeded/LOG.jsonl` - wrong programs against which the theorems were tried.

## Names of theorems

* `Cnn_...` proves property `Cnn` or a part of it; a property is `proved` if its theorems together prove
  the whole statement.
* `Cnn_false...` proves, with a concrete witness, that the property fails for the code.
* `Cnn_..._partial` proves the part of the property that does hold; its comment says what is missing.

## Modelling decisions

* Rust strings are lists of Unicode scalar values; byte offsets are computed with the UTF-8 sizes;
  slicing out of range or off a boundary is an explicit panic.
* A function with `&mut` arguments returns the new values. `process_insertion`, which returns a
  `&mut Node` into the tree, takes what the caller does with that reference as a continuation.
* A panic is a value; a registration call returns the state it leaves behind *and* the panic, so that
  the state seen after `catch_unwind` is part of the model.
* `HashMap` is an association list with `insert`/`get`; where the code iterates over a hash map
  (decoding of forms), the theorems quantify over all orders of iteration.
* `async` code is a tree of atomic steps on an arbitrary shared world (`Act`), with output as separate
  steps and panics as leaves. Handlers and middlewares are arbitrary functions into such trees; a
  middleware gets the rest of the chain as a function. The server runs any number of such trees in any
  interleaving (`Server`).
* Application state and context data are values of an arbitrary universe of types (`Univ`), `TypeId`
  being the code of the type.
* Types that are decoded are described by the calls that their `Deserialize` implementations make
  (`Ty`, `Field`, `Shape`): those of serde for the standard types and those generated by
  `#[derive(Deserialize)]` for structs (with `rename`, `alias`, `default`, `deny_unknown_fields`).
* The file system is part of the world; reading a file is one atomic step that gives bytes or an error
  text.
* In `get_next_node` the slice `&node.key[1..]` is evaluated as soon as the parameter branch is entered,
  not only when the parameter is stored; the slice never panics (C21), so this makes no difference.
* `listen` and `serve` of `App` differ from the model only in what hyper and tokio do (see below).

## How the routing theorems are proved

The trie is related to the *log* of what was registered (`Spec/Routing.lean`: a list of paths with what
was put there). `Rep` says that a trie represents a log: read as a map from keys without slashes it has
exactly the entries of the log. Every registration keeps this relation and panics exactly if a
condition on the log holds (`Proofs/Insert`, `InsertLoop`, `RepOps`, `Program`, by induction over the
tree, the segments and the program, including nested routers). A search in a trie that represents a log
gives what the specification of the search on the log gives (`Proofs/Search`). The properties are then
proved about logs (`LogFacts`, `LogFacts2`, `Shift`).

This part assumes that the registered paths are in the documented syntax: a colon only at the beginning
of a segment (`CleanPath`). What happens with other colons is the subject of C65.

A second method needs no assumption on the paths. A *way* (`Proofs/Way`) leads from the root to a node
along the segments of a path, such that a search for a request that fits the segments takes the same
turns. Every successful registration makes a way to its node and keeps all ways that there are
(`WayInsert`, `WayProg`). And whatever is stored in the tree was registered (`Everywhere`: a condition
on values that holds of all nodes). With these: C01, C02, C12, C19, C51, C52, C60, C63 and parts of C04,
C08, C13, C16, C17, C65. `First` compares the tables of a program with and without a first global
middleware, for any paths (C31, C59).

Theorems about single calls in arbitrary states (C06, C10, C21, C22), and everything about answers,
chains, responses and forms, have no assumption on paths either.

## Per property: what is modelled and how it is proved

"Log" and "way" stand for the methods of the preceding section.

| id | property | modelled code | proof, or why not |
|----|----------|---------------|-------------------|
| C01 | static routes reachable | route_trie.rs insertion and search, router.rs | way through the tree, kept by every call; any path syntax |
| C02 | parameter routes reachable | same | way through the tree, kept by every call; any path syntax |
| C03 | wildcard catches longer paths | same | log; proviso: no mount at a path ending in `*` |
| C04 | segment-wise soundness | same | **false**: `/ab` is served by `/a/b`; partial: true once slashes are dropped; and exactly: served if and only if the request *leads to* the path (`Spec/Follow`: where slashes may be, which wildcard wins); for paths of any form (`C04_any_path_partial`): the path can be read off the request with some segments left out (`Spec/Reading`; places of the values in the tree, induction over insertions and over the search) |
| C05 | unmatched paths are not found | same | log; contrapositive of soundness (stated modulo slashes); `C05_exact`: found if and only if the request leads to a registered path |
| C06 | redundant slashes | `segs` and all operations | every operation and the search factor through the segments, in arbitrary states |
| C07 | order of routes | same | the log specification is invariant under permutations; with nested routers through C18 (`C07_with_mounts`) |
| C08 | one handler per method | resource.rs, insertion | log; that a second registration panics also for any path syntax (way) |
| C09 | ambiguity exact | get_insertion_action | log: outcome of insertion characterised by the log |
| C10 | wildcard validation exact | validation loops | induction over segments, arbitrary states |
| C11 | compatible routes coexist | insertion | **false**: `/user/:id` and `/users`; partial from C09 |
| C12 | global middlewares first | insert_default_middleware, search | invariant on all nodes of the tree; any path syntax |
| C13 | path middleware reaches | insert_middleware, search | by request: way, any path syntax; by handler: log |
| C14 | path middleware only below | same | **false**: middleware of `/ad` runs for `/admin`; partial modulo slashes; for paths of any form as in C04 |
| C15 | nesting order | same | **false**: inner before outer (except global ones); partial: the exact order |
| C16 | use_service_to takes effect | insert_middleware | **false** for `/` (silently ignored); partial for other paths |
| C17 | middleware does not change routing | same | **false**: a node with only a middleware hides a wildcard; partial: if the path has an entry already; requests that are found stay found, and requests that are served keep handler and parameters, unless a wildcard serves them and the middleware's path begins with the characters before it (`C17_only_wildcards_partial`, from C51) |
| C18 | mounting is prefixing | insert_sub_route | structural, for paths of any form: an insertion has a focus (`Proofs/Focus`), the nested calls are made at the focus (`Proofs/Prefix`); the very same router results, and where an empty router can be mounted the same programs are accepted (`C18_same_cases`); by recursion over the nesting all mounts can be removed (`C18_nothing_nested`); single requests below the mount: log, `Shift`, documented syntax |
| C19 | mounting keeps routes | same | **false** at the root (table replaced); partial for other paths |
| C20 | mount conflicts exact | same | **false**: a mount at `/api` is rejected because of `/apix`; partial: exact in terms of the characters; whether a router can be mounted does not depend on the router (`C20_any_router_partial`, paths of any form) |
| C21 | lookup total | get_next_node with explicit panics | induction over arbitrary trees |
| C22 | documented panics only | insertion with explicit panics | induction over arbitrary trees |
| C23 | parameters of the matched route | search | **false**: a request spelling out `:id` is served without the parameter; partial: nothing leaks, and all are bound if the request has no colon, or only at the beginning of segments |
| C24 | method dispatch | app.rs resolve_endpoint, resource.rs | case analysis; log for the registered methods; provenance invariant of the tree for paths of any form (`C24_any_path`) |
| C25 | unknown paths | resolve_endpoint, page_not_found | case analysis |
| C26 | chain order | EndpointExecutor::next | induction over the chain |
| C27 | short circuit | same | induction over the chain |
| C28 | errors are 500 | resolve_endpoint, obsidian_error.rs | case analysis |
| C29 | built response is sent | resolve_endpoint | case analysis |
| C30 | all headers sent | resolve_endpoint (header insertion) | **false** for repeated names and invalid values (panic); partial: last value per name |
| C31 | logger transparent | middleware/logger.rs | **false**: panics if there is no response; partial otherwise |
| C32 | application state | App, AppServer | induction over configuration calls and requests |
| C33 | typed store | context.rs add/get, http Extensions | induction over operations |
| C34 | body consumed once | take_body, form, json | case analysis |
| C35 | values grouped in order | parse_queries | induction over the pairs |
| C36 | hash order irrelevant | req_deserializer.rs | permutations of entries |
| C37 | fields from their values | req_deserializer.rs with derive-generated visitors | induction over entries; meaning of scalar texts given independently |
| C38 | no panic, termination | deserializer with explicit panics | induction; parse_queries drops empty values |
| C39 | whole body decoded | form, json (`body.data()`) | **false**: only the first chunk; partial: single chunk; `C39_first_chunk`: exactly the first non-empty chunk of any readable body is decoded |
| C40 | sequences of options | deserializer | **false**: elements lost; partial: non-empty values; `C40_exactly`: the one outcome for any value list (which values are skipped or lost, which error, when it panics), for element types of one text (scalars, `()`, newtypes, options of them); missing: optional lists and tuples as elements |
| C41 | integers exact | integer parser of core | arithmetic induction against an independent `number` |
| C42 | static mapping | static handlers, `file` | equational, log for routing; behind middlewares that only watch by C83 for single requests |
| C43 | no traversal | static handlers | **false**: `..` is not filtered; partial: no `..`; and for `use_static_to` exactly (`C43_exactly_partial`): a request stays in the directory, whichever it is, if and only if its pieces never go up further than they went down (induction over the pieces; otherwise a directory with a name that does not occur in them is left) |
| C44 | static in scopes | static handlers and mounts | **false**: prefix of the scope is not skipped; partial: what is served instead, and at the root; also behind middlewares that only watch (by C83) |
| C45 | response building | response.rs, ResponseBuilder | induction over calls |
| C46 | parameter conversion | Context::param | case analysis |
| C47 | bare prefix of wildcard | search | **false** at the root and after parameters; partial otherwise |
| C48 | isolation | interleavings of tasks | invariant over schedules |
| C49 | caught panics | insertion with the state after a panic | **false**: a duplicate has already replaced the handler; also false for requests served by a wildcard (`C49_false_wildcard`: a rejected ambiguous path has split a node); partial: wildcard-free routes; of every request: found stays found, and the handler changes only in these two cases (`C49_only_wildcards_partial`) |
| C50 | one segment per parameter | search | invariant of the search: every stored value is a whole segment of the request; paths of any form |
| C51 | further registrations | insertion and search | **false**: with `/*` and `/ab`, registering `/ac` makes `/a/b` go to `/ab` (also without `/*`, where it was answered with 404: `C51_false_unknown`); partial: requests that match a wildcard-free route keep it; if all new paths begin with a character with which no old path begins, every request that does not begin with it (also one served by a wildcard, or by nothing) is found, dispatched and given parameters as before (`C51_other_section_partial`); for any new paths: who is found stays found, and only requests that a wildcard serves can get another handler, and only if a new path begins with the characters before the wildcard (`C51_only_wildcards_partial`: induction along two paths that one request follows, in the old and in the new table) |
| C52 | mounted routes reachable | insert_sub_route, search | **false** under `*`; partial otherwise |
| C53 | handler at most once | chain | **false**: a middleware may call the rest twice; partial: middlewares that call it at most once |
| C54 | from_cow_map never panics | deserializer | **false**: empty value lists, empty values in sequences of options; partial, for every target: maps whose lists of values are not empty and fit their types |
| C55 | hash order, any type | deserializer | **false**: `String` takes the first key; partial: structs and maps |
| C56 | absolute directories | static handlers | **false**: the leading slash is lost; partial: relative ones |
| C57 | every readable file | `file` (read_to_string) | **false**: not UTF-8 gives 404; partial: text files |
| C58 | built answers on the wire | responder.rs, response_body.rs, ResponseBuilder, resolve_endpoint | composition; JSON arrays read back by an independent reader; behind middlewares that only watch by C83 for single requests |
| C59 | logging | logger.rs, App::default | **false**: 404s are not logged; partial: found routes |
| C60 | HEAD like GET | router, resolve_endpoint | **false**: HEAD is never handled; partial: true where there is no GET handler; what other methods get is proved |
| C61 | every request is answered | server with infinite schedules that are fair to the request in question (a hanging task is one that gets no more turns) | well-founded progress |
| C62 | url-encoding | parse_queries with form_urlencoded | induction over the ways of writing; existence and uniqueness of the reading of every byte string |
| C63 | percent signs in paths | search, param | **false**: nothing is decoded; partial: exactly the texts without `%` |
| C64 | content types | responder.rs, response.rs | **false** for `(status, text)`, files; partial: texts, JSON, explicit types, also behind middlewares that only watch |
| C65 | inner colons | insertion and search | **false**: they become parameters once a node starts there, the order of registration matters, and segments of a request can be skipped (`/a/c/d/x` is served by `/ac/x` next to `/a:b`); partial: what is accepted serves its own requests; a single route serves only them; whatever the calls, also after caught panics, a handler or middleware is only reached if its path can be read off the request with some segments left out |
| C66 | output under concurrency | `Server.step`, `logger` | invariant over all interleavings: the output is a merge of the outputs of the requests; with C59 for the logger's lines |
| C67 | round trip of structs | req_deserializer.rs, parse_queries, `urlParse` | **false** for empty texts and lists; partial: all other values, by induction over types and fields (`SentAs`, `Submits`), for all ways of url-encoding |
| C68 | nothing ignored | the same | **false**: second values of scalars, surplus values of tuples, further characters; partial: lists, single values, aliases, denied unknown fields |
| C69 | empty texts | parse_queries | **false**: dropped; partial: as if absent (default, None) |
| C70 | enums, nested structs | forwarding to `deserialize_any` | **false**: always refused; partial: an error whenever there is a value, default or None otherwise, at any depth of the type |
| C71 | maps, optional queries | `FormDeserializer` | **false**: number keys and wrapped types are refused; partial: String keys with any type of values, exactly |
| C72 | most specific route | search_node, insert | the place found by the specification's lookup against every other matching entry: equal for wildcard-free ones, extends the prefix for wildcards |
| C73 | matching requests are served | the same | **false**: a route of another method, or a middleware, hides a wildcard; partial: routes without wildcard; wildcards that no other path hides |
| C74 | all parameters readable | params of the search result | **false**: for equal names only the leftmost value is kept; partial: different names |
| C75 | global middleware sees everything | use_service, resolve_endpoint | **false**: nothing runs for unknown paths and methods; partial: handled requests |
| C76 | file names | static handlers | **false**: not decoded; partial: names sent without percent signs |
| C77 | an application of pages | registration, search_node, resolve_endpoint | **false**: `/ab` gets the page `/a/b`; partial: exactly which page each path gets (`Page.Answers`), and the responses for text pages; acceptance proved |
| C78 | programs of the README and examples | whole application | from C77 for the one page, and C58 for the response: all requests |
| C79 | applications and routers | App::new, default, set_app_state, registration | induction over the calls: the registrations run on the router, the state is the last one |
| C80 | integer parameters | Context::param, whole application | **false**: `/users:id` is not answered with 404; partial: all other requests, from `C04_exact_partial` for the one entry |
| C81 | JSON services | Context::json, Response::json, whole application | **false**: bodies in several chunks; partial: all other requests, for any reader and writer, also for a handler anywhere in any application; leaving out slashes of the path makes no other path (C77); also behind middlewares that only watch (by C83) |
| C82 | routing blind to behaviour | registration, search_node, resolve_endpoint | relational induction: related programs build related trees, related trees give related lookups; for applications with any relation that the middlewares respect |
| C83 | watching middlewares | use_service, search_node, logger, resolve_endpoint | the same induction with more middlewares at the root, `Merged` chains; for single requests and any middlewares that only watch, wherever registered: simulation with the router stripped of middlewares |
| C84 | errors of forms | parse_queries, from_cow_map, str::parse of integers and truth values | the decoder refines `Complains` (mutual induction over types), invariant of the loop over entries |
| C85 | form services | Context::form, whole application | **false**: bodies in several chunks; partial: all other requests (C62, C67, C84), also for a handler anywhere in any application; leaving out slashes of the path makes no other path (C77); also behind middlewares that only watch (by C83) |
| C86 | query services | Context::query_params, whole application | composition of C62, C37 and C84: a handler anywhere in any application, and with routing of one page at any fixed path: all requests; also behind middlewares that only watch (by C83) |
| C87 | order with nested routers | use_router, scope, insert_sub_route | **false**: a nested router has to come before what is below its path (in characters); partial: which orders are accepted, exactly, and that accepted orders agree, from the log |
| C88 | serving, completely | App::listen, resolve_endpoint, EndpointExecutor, router and trie | refinement: composition of `C04_exact_partial`, the chain of the log, `finish`; the specification is `Spec/Whole` |
| C89 | the example application | examples/main.rs, middleware/logger_example.rs, whole application | **false**: `GET /` without `Host` panics, `/testradix` gets the page `/test/radix`; partial: every page for every request with a visible host, 404 for all paths that are no page even without slashes, no other panics |
| C90 | requests that share the world step by step | app.rs listen, resolve_endpoint, whole application | invariant over all interleavings (`SharedOK`): the steps done so far, each with its task, extend to a run of `serve` for every way of going on; counters by an invariant on what is still to be added (`CountOK`) |
| C91 | connections with several requests | app.rs listen (`Model/Conn`) | projection of the server to one connection (`step_solo`), invariant "sent ++ still to come = all responses" for every continuation (`OnTrack`), liveness by induction on the waiting requests and the running computation (`delivers`); with a shared world an invariant as in C90 (`ConnsOK`); what is sent stays sent (`C91_kept`), a connection with nothing left to do has sent everything (`C91_idle`), and a single client gets exactly the run of its requests one after another, with world and printed lines (`C91_one_client`) |
| C92 | headers set by name | response.rs, context.rs (`Model/HeaderName` for the table of the http crate) | byte table checked completely for ASCII and for bytes from 128 on, induction over the UTF-8 text; what is sent from C88's `finish_sends`; also behind middlewares that only watch (by C83) |
| C93 | flattened parts | req_deserializer.rs (`Model/Flatten`), context.rs `parse_queries` | the loop over the entries is that for the own fields plus a list of kept texts (induction); parts by induction over the kept texts, exact description `PartsValue` in both directions; false for numbers (witness), true for texts |
| C94 | which applications start | route_trie.rs, router.rs, app.rs registration calls | exact outcome of each call on a represented table (`Rep.insertRoute` …), mutual induction over nested programs; `Stops` describes the first fault without the table and determines the panic up to the keys an ambiguity message names (`stops_unique`); `C94_nested` for paths of any form |
| C95 | the work of a lookup | route_trie.rs `search_route`, `get_next_node` with counters (`Model/Cost`) | the counted lookup gives the same result (mutual induction over the tree); its counts are at most the size of the tree; an insertion adds at most two nodes for each segment and the characters of the path (`slight_processInsertion`, induction on the key), by mutual induction over nested programs. moved segments: the list of remaining segments never grows (mutual induction, keys are not empty). Not counted: splitting the request path, copying what is found |
| C96 | a guard sees every request below its path | router, trie, `EndpointExecutor::next` | **false** with a wildcard above the path (`/*` serves `/admin/secret` without the middleware of `/admin`), and for a guarded path that ends in `*`; partial: where a request below the path leads (induction along the guarded path: below it, or to a wildcard above it), so the guard is in the chain or the handler is one of a wildcard above; and without such wildcards: a guard that refuses makes all handlers irrelevant (induction over the chain). Refusing is a condition on the context that the other middlewares must keep (`Preserves`); middlewares of longer paths run before the guard (C15) |
| C97 | what is behind a guard stays behind it | same | lookup, chain and parameters depend only on the log without its handlers; a handler at or below the guarded path has the guard in its chain; a chain with a middleware that does not use what comes after it does not depend on the handler |
| C98 | errors about flattened parts | req_deserializer.rs (`Model/Flatten`), context.rs `parse_queries` | what each step of a part can say is described without the deserializer (`RejectsFlat`, `LacksFlat`, `PartComplaint`); induction over the kept texts and the parts; a complaint excludes a value (`complaint_not_value`), so the description is exact about when there is an error. Which of several refused texts is named depends on the order of the map, so the message is determined only up to that choice; maps after optional parts, and parts that share names with an optional part before them, are left out (`OptionApart`, see C100) |
| C99 | responses cannot be split | app.rs `resolve_endpoint` (headers are put into the response with a check), listen as interleaving | every end of every computation of a task is sendable (induction over computations, invariant of the server); what is written, in the format of HTTP/1.1, is read back by a tolerant client (`Spec/Wire`; round trip by induction over the headers). That names are tokens is the invariant of the type `HeaderName` (C92). hyper's own headers and the transfer encoding of the body are not modelled |
| C100 | flattened parts and hash order | req_deserializer.rs (`Model/Flatten`), context.rs `parse_queries` | **false**: an optional struct that cannot be read has already taken the texts that came before the bad one, and a map after it gets the rest (witness: `page=5&sort=up`); partial: if no part has to do with the texts of an optional part before it (`OptionApart`), from C93 in both directions and the uniqueness of the values |
| C101 | rejected registrations | insertion with the state after a panic, lookup | **false**: the handler of a rejected duplicate serves the requests; partial: all other panics, paths of any form, any further calls (provenance invariant of the tree: every stored handler and middleware comes from a call that was not rejected) |
| C102 | middlewares at most as often as added | insertion with the state after a panic, lookup, EndpointExecutor::next | counting invariant of the tree: the number of stored middlewares satisfying any predicate is at most the number added by calls that did not panic, and a search collects each stored one at most once; started-at-most for middlewares that use the rest of the chain at most once (C53 says that others exist) |
| C103 | serving together is like serving one after the other (linearizability) | Server.step/run with one shared world, App::resolve_endpoint, EndpointExecutor::next, Logger | false in general: two requests whose handler reads a counter and sets it in another step leave a world that no order of serving them leaves (`C103_false`).  Proved if serving touches the world at most once (`Once`: before and after this step only output), for any registrations of such handlers with middlewares that do not touch the world themselves (the logger is one): forward simulation, the order is that of the steps, a request without a step counting when it is received; `C103_connections_partial`: the same for connections with several requests each, panics and clients that hang up (`ConnServer`).  `C103_commuting_partial` (and for registrations): any number of steps, if the changes commute and nobody looks at the world (counters), by the invariant that finishing what has begun gives the world after serving one by one.  `C103_main_step_partial`, `C103_main_step_registrations_partial`, `C103_main_step_connections_partial`: one step of any kind among any number of such changes, which it does not see (reduction in the style of Lipton: the invariant keeps what was changed before the main step and what is still to be changed after it, and moves both past everything else); about the world they speak only when no request is under way.  `C103_apart_partial`, `C103_apart_registrations_partial`: any number of steps that read and change, if each request works on one part of the world (such as a key of a map) and requests for the same part take turns; the order is that of arrival; invariant: finishing everything in order of arrival gives the world and the answers of serving one by one.  Parts may have counters in common that nobody looks at.  Missing: for several steps, the world while requests are under way; conditions for requests that overlap on the same part and are serialised by a lock held across steps |
| C104 | names of parameters | insertion (registrations, nested routers), lookup, parameters | **false** for requests with colons inside segments: `/a:id` is served by `/a/:id`, but not by `/a/:user` (`C104_false`).  Proved for all other requests, clean programs: paths as lists of characters and whole parameters (`Tok`); clashes, places, parameters, known places, lookups and chains are shown to commute with the renaming |
| C105 | characters without a meaning | everything of route_trie.rs and router.rs (registrations, nested routers, lookup) | every function of the model commutes with the replacement (induction over tree, segments and program); byte offsets are those of common beginnings |
| C106 | changes below a path | registrations, nested routers, lookup, serving | search on both logs at the same time: it stays away from P (`Away`), and away from P both logs say the same about parameters, ends of segments, forks, entries and middlewares; `C106_slashes_needed` shows why slashes are left out |
| C107 | different parts of the state | serving as a tree of steps, interleavings, registrations | invariant: every task, run to its end from now on, ends as it would alone, and untouched cells are unchanged; `C107_registrations` derives the used cells from the registered functions; examples: a counter per user that is read and set in two steps |
| C108 | values of parameters | trie, registrations, lookup | induction over the lookup in the registrations, which binds the value and does not look at it; `C108_syntax_needed`: with `/a:id` and `/ab` (a colon inside a segment) the value does decide |
| C109 | interchanged methods | trie, registrations, lookup | every function of the tree commutes with the interchange of methods, by induction; paths of any form, also after caught panics |
| C110 | data added by middlewares | App::serve, Context::add, execNext, chains | two applications whose handlers agree where the condition holds are compared; the end of the chain from the middleware on is split off, and induction over it |

## Disagreements between code and properties

Every row above marked **false** is a theorem `Cnn_false...` with a concrete program and request. Most
of them are consequences of a few causes:

* Segments are concatenated in the tree without separator: `/a/b` and `/ab` share a node (C04, C05, C11,
  C14, C20, C43, C51, C77, C89).
* A colon inside a segment of a request is compared with the colon of a parameter (C23, C80, C104).
* A colon anywhere in a path is taken for a parameter once a node of the tree begins there (C65).
* Middlewares of inner nodes are collected before those of outer nodes (C15).
* The root is treated specially: `use_service_to("/")` has no effect (C16), mounting at the root
  replaces everything (C19), `/*` does not match `/` (C47).
* A duplicate method is detected after the handler has been replaced (C49, C101), and a rejected ambiguous path may
  already have split a node, which changes where requests served by a wildcard go (C49).
* Headers are inserted, not appended, and values are checked only when they are sent (C30).
* A nested router can only be mounted before anything is registered below its path, and `/v1` not after `/v10` (C20, C87).
* Only the first chunk of a body is read (C39, C81, C85).
* Empty values are dropped before decoding (C40, C67, C69), and all types but a few are given plain
  strings (C70, C71).  In flattened parts it is the other way round: enums are accepted and numbers are
  refused (C93).
* The middleware of the example unwraps the `Host` header, which HTTP/1.0 and HTTP/2 requests need not have (C89).
* A lookup that fails below a path falls back to a wildcard above it, without the middlewares of the path (C96).
* An optional flattened part takes texts also if it cannot be read; in which order it sees them is up to the
  hash map of the framework (C100).
* Nothing in paths is decoded or filtered (C43, C63, C76).

## Trusted base

* The Lean kernel (4.33.0). Theorems use at most the axioms `propext`, `Classical.choice` and
  `Quot.sound`; there are no axioms of our own, no `sorry`, no `native_decide`, no `bv_decide`.
* That the model is what the Rust code does. It was written and re-read function by function; the
  citations are the means to check it.
* The descriptions of libraries:
  * `std`: strings, `HashMap` (`HMap`), `str::split`, integer and boolean parsing (`Model/Form`).
  * `hyper`/`http`: `Method`, `Body` (a list of chunks, possibly failing), `HeaderMap::insert`,
    `HeaderValue::from_static` (visible ASCII or panic), `Extensions`; parsing of header names is a
    parameter, except in C92, where it is the table of the crate (`Model/HeaderName`).
  * `url` 2.2: `form_urlencoded::parse` (`Model/UrlEncoded`); for the theorems other than C62 it is an
    arbitrary function.
  * `serde`: which calls the implementations of standard types and derived structs make; `serde_json` is
    a parameter (except that a byte vector is encoded as an array of decimal numbers).
  * `async_std::fs::read_to_string`: bytes at a path, one atomic step, error for invalid UTF-8.
  * `tokio`/`hyper` server: requests arrive at any time, tasks take their atomic steps in any order, a
    panic ends only its task. In `Model/Conn` (C91): hyper gives the requests of a connection of HTTP/1.1
    to its service one after the other, a panic ends the connection, and if the client hangs up, the
    running request is dropped at one of its steps.

## What the seeded mistakes show, and what they do not

Each line of `seeded/LOG.jsonl` says which kind of evidence there is (`evidence`):

* `claim theorem failed`: Lean reported an error inside a theorem of the claim that the edit breaks.
* `theorem false on an instance`: a concrete consequence of the named theorem is false in the edited model.
  In the unedited tree Lean derives the consequence from the theorem, without unfolding the function
  in question (`seeded/instances/*.txt`); so the theorem is false of the edited model, however its proof is
  repaired. `instances_refuted` names theorem and instance. For edits made by hand the theorem belongs to the
  claim that the edit is meant to break; otherwise the line says `theorem of another claim false on an
  instance`.
* `snapshot changed`: something observable that, by an argument on paper, the named theorems determine (the
  handlers, chains, parameters, errors, answers for a fixed list of programs and requests) is different in
  the edited model. Lean has *not* derived these observations from the theorems; they are in
  `seeded/instances/Snap.txt` and `Snap2.txt`, listed as `snapshots_changed`.
* `claim false on an example`: a Boolean version of the claim, written separately and evaluated on the
  edited model, is false on a concrete input. The theorem itself may not have been reached.
* `helper lemma only`: a lemma on which the claim's theorems depend no longer proves, so that they could not
  be checked (`theorems_not_rechecked`). Some of these lemmas unfold definitions and fail after any edit,
  harmless ones included. This is *no* evidence that the theorem of the claim is strong enough: a theorem
  that is too weak might be provable again after repairing the lemma.
* `none`: everything still proves (or the attempt ran out of memory); see the note.

Up to commit c221e8e the log listed the theorems that were not rechecked under `theorems_failed`, and did not
list the automatically generated edits (ids `p...`) at all, among them those that survived. Both are
corrected. In lines kept from early runs (without `evidence`) the raw results are lost, so `theorems_failed`
may there still contain theorems that were only blocked. For generated edits the build stops at the first
failure, the claim broken is known only if that failure is in a claim's theorem or an instance is refuted.
Generated edits with ids `v...` were only evaluated on the instances and snapshots, their proofs were not
built; a `survived` there means that no instance and no snapshot changed. A line `p...` with status
`survived` and an instance refuted survived the theorems of the commit that it names, and contradicts the
present ones. What survives now is, as far as looked at: fuel and bounds that are never reached, branches
that the code cannot reach (`internal_server_error`, texts of methods that cannot be registered), and edits
that do not change the function. Two hand-made edits of the trie are refuted by no instance: `b53` (no
difference found; a parameter node seems never to have siblings, since a wildcard beside it is rejected) and
`e17` (only the path in a panic message changes).

Many instances are conditional: a check about a program asks first whether the *edited* model accepts the
program, or still finds the handler and the chain that the theorem assumes, and passes if it does not. So an
edit that rejects every such program is not refuted by these checks; it needs one of the theorems that say
that a program is accepted. The Boolean checks of the sets `Rt`, `R2` (routing) and `Ap` (applications,
responses, static files, the server) cover claims for which earlier there was only indirect evidence.

## What is modelled, and what is not

| file | modelled | not modelled |
|------|----------|--------------|
| src/router/route_trie.rs | all functions | `Debug` output, tests |
| src/router/resource.rs, route.rs | all | `Debug` |
| src/router.rs | all registration calls, scopes, static files | - |
| src/app.rs | App, AppServer::resolve_endpoint, EndpointExecutor, page_not_found, listen as interleaving | sockets, address parsing, the callback of listen |
| src/context.rs | all | `form_with_param`, `json_with_param` are `unimplemented!()` (modelled as that panic); file uploads do not exist |
| src/middleware.rs, middleware/logger.rs | all | the time that is printed is arbitrary |
| src/router/handler.rs, responder.rs, response.rs, response_body.rs | all | - |
| src/router/req_deserializer.rs | the calls made by serde's implementations for scalars, options, sequences, tuples, maps, structs, units, newtypes; enums, nested structs, other keys and other types for the whole form as refused; see `Model/Form`; `#[serde(flatten)]` with structs, optional structs and maps as parts (`Model/Flatten`; serde's `Content` as documented) | other attributes that change the calls, aliases inside flattened parts, maps with structs as keys |
| examples/main.rs, examples/middleware/logger_example.rs | all (`Model/Example`); examples/hello.rs, hello_handler.rs, json.rs, app_state.rs as C78 | colours, `dbg!`, the text of `{:?}` |
| src/error/obsidian_error.rs | all | `source()` |

Not modelled: computations that take steps forever (a handler that waits forever is one whose task gets
no more turns; the theorems about servers hold for the other tasks), HTTP/2, time limits of hyper, memory and stack
exhaustion, the limit of 32768 entries beyond which the header map of `http` panics, time.
