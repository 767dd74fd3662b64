{"id": "C01", "title": "Registered static routes stay reachable", "statement": "If a program of registrations completes without panicking, then for every static route it registered (no ':' parameter, no '*'), a request whose path has exactly that route's segments finds a route entry, and for the registered method that entry selects exactly the handler that was registered, whatever else was registered before or after (as long as no later root mount replaced the table).", "quantifier": "all registration programs (any number, any order, nested routers and scopes), all static routes in them", "why_tests_cant": "The trie shape (node splits, prefix sharing) depends on every other registered path; tests see a few shapes only.", "anchors": ["src/router/route_trie.rs: insert_route, process_insertion, get_next_node, search_route", "src/router.rs: get/post/put/patch/delete"]}
{"id": "C02", "title": "Registered parameter routes are reachable and bind their parameters", "statement": "If a program completes without panicking and registered a route whose path contains ':name' segments (and no '*'), then for every choice of non-empty, slash-free values for the parameters, the request path obtained by substituting them finds that route's handler, and the context's parameters map each name to the raw request segment at its position; when a name occurs twice, the leftmost segment wins.", "quantifier": "all registration programs, all parameter routes in them, all values for the parameters", "why_tests_cant": "Values and surrounding tables are unbounded; backtracking in the search mutates shared state.", "anchors": ["src/router/route_trie.rs: get_next_node, search_route, is_param", "src/context.rs: param"]}
{"id": "C03", "title": "Wildcard routes catch every longer path", "statement": "If a program completes without panicking, mounted no nested router at a path that ends in '*', and registered a route at prefix/*, then every request that starts with the prefix segments followed by one or more further segments (parameters in the prefix standing for any one segment) finds some entry (it is never answered as an unknown path), and the entry is the wildcard's own one unless the static part of another registered path below the same prefix claims the request.", "quantifier": "all programs, all wildcard routes, all request suffixes; registered paths are in the documented syntax (a colon only at the beginning of a segment, see C65)", "why_tests_cant": "Unbounded suffixes and arbitrary competing routes; failed deeper matches must fall back to the wildcard.", "anchors": ["src/router/route_trie.rs: get_next_node (wildcard check, child '*' fallback)"]}
{"id": "C04", "title": "A request is only served by a route whose pattern matches it segment by segment", "statement": "If a request is dispatched to a handler, the handler was registered at a pattern whose segments match the request's segments one by one: static segments equal, a parameter matches one segment, a wildcard matches the rest.", "quantifier": "all programs, all request paths; registered paths are in the documented syntax (a colon only at the beginning of a segment, see C65)", "why_tests_cant": "Needs all tables and all paths; wrong matches only show up for particular prefix-sharing combinations (e.g. /a/b with /ab).", "anchors": ["src/router/route_trie.rs: get_next_node, get_insertion_action"]}
{"id": "C05", "title": "Requests matching no registered pattern are not found", "statement": "If no registered path, read as a pattern, agrees with the request (static characters equal once slashes are dropped, each parameter one whole segment, wildcard the rest), the lookup reports that the path is not registered; nothing the program never registered is ever served.", "quantifier": "all programs, all request paths; registered paths are in the documented syntax (a colon only at the beginning of a segment, see C65)", "why_tests_cant": "A negative over every unregistered path.", "anchors": ["src/router/route_trie.rs: search_route"]}
{"id": "C06", "title": "Redundant slashes are irrelevant", "statement": "Leading, trailing and doubled slashes never matter: registering or requesting two paths that have the same non-empty segments in the same order has the same effect, in every state of the router.", "quantifier": "all pairs of path strings with equal non-empty segments, all operations, all router states", "why_tests_cant": "Infinite family of spellings per path, for every operation and state.", "anchors": ["src/router/route_trie.rs: insert_route, insert_middleware, insert_sub_route, search_route (split('/').filter)"]}
{"id": "C07", "title": "Registration order of routes is irrelevant", "statement": "For any list of routes (method, path, handler), whether registering all of them on an empty router succeeds does not depend on the order, and when it does, every request is dispatched identically (same handlers, parameters and middlewares) for every order; this also holds if some of the calls are made through nested routers (as in C18) and for middlewares that keep their order, as long as both programs are accepted.", "quantifier": "all finite lists of routes, all permutations, all requests; registered paths are in the documented syntax (a colon only at the beginning of a segment, see C65)", "why_tests_cant": "Factorially many orders; the tree built differs per order (child order, splits).", "anchors": ["src/router/route_trie.rs: process_insertion, get_insertion_action, get_next_node"]}
{"id": "C08", "title": "A method is registered at most once per path; different methods coexist", "statement": "Registering the same method twice at the same path panics; registering a different method at an already registered path never panics and leaves the other methods' handlers in place.", "quantifier": "all programs, all paths, all pairs of methods; registered paths are in the documented syntax (a colon only at the beginning of a segment, see C65)", "why_tests_cant": "Quantifies over all reachable tables.", "anchors": ["src/router/resource.rs: add_route, get_route", "src/router/route_trie.rs: insert_route, insert_default_route"]}
{"id": "C09", "title": "Ambiguous parameter definitions are rejected, exactly", "statement": "Registering a path panics with the ambiguity error exactly when, at some point, the new path and an already registered path continue differently and one of them continues with a ':name' segment there; otherwise the path is accepted (up to duplicate methods).", "quantifier": "all programs, all new paths; registered paths are in the documented syntax (a colon only at the beginning of a segment, see C65)", "why_tests_cant": "Exactness over all tables and all new paths, both directions.", "anchors": ["src/router/route_trie.rs: get_insertion_action, process_insertion"]}
{"id": "C10", "title": "Wildcard placement is validated, exactly", "statement": "Registering (a route, a middleware or a nested router) at a path panics with the wildcard error exactly when some segment contains '*' without being just '*', or '*' is a segment other than the last one; a rejected call leaves the router untouched.", "quantifier": "all path strings, all router states", "why_tests_cant": "All strings; both directions.", "anchors": ["src/router/route_trie.rs: insert_route, insert_middleware, insert_sub_route (validation loops)"]}
{"id": "C11", "title": "Routes that no request can confuse can be registered together", "statement": "If two routes have no request path in common (no path matches both patterns segment by segment), registering both never panics.", "quantifier": "all pairs of routes, in any table; registered paths are in the documented syntax (a colon only at the beginning of a segment, see C65)", "why_tests_cant": "The failure depends on character-level prefix sharing between segments (e.g. /user/:id with /users).", "anchors": ["src/router/route_trie.rs: get_insertion_action"]}
{"id": "C12", "title": "Global middleware runs first on every found route, in registration order", "statement": "Every middleware added with use_service on the top-level router is in the chain of every request that finds an entry, before any path middleware, in the order in which they were added (as long as no later root mount replaced the table).", "quantifier": "all programs, all requests", "why_tests_cant": "All tables and requests.", "anchors": ["src/router/route_trie.rs: insert_default_middleware, search_route", "src/app.rs: use_service"]}
{"id": "C13", "title": "Path middleware runs on everything at or below its path", "statement": "A middleware added with use_service_to(Q) (Q static and non-root) is in the chain of every request that finds an entry registered at Q or at a path that extends Q by further segments.", "quantifier": "all programs, all static paths Q, all registered paths below Q, all requests; registered paths are in the documented syntax (a colon only at the beginning of a segment, see C65)", "why_tests_cant": "Node splits move values around; must hold for every later registration.", "anchors": ["src/router/route_trie.rs: insert_middleware, get_next_node"]}
{"id": "C14", "title": "Path middleware runs only at or below its path", "statement": "A middleware added with use_service_to(Q) is in the chain of a request only if the path matched by the request is Q or extends Q by further segments.", "quantifier": "all programs, all requests; registered paths are in the documented syntax (a colon only at the beginning of a segment, see C65)", "why_tests_cant": "Only fails for prefix-sharing paths (/ad, /admin).", "anchors": ["src/router/route_trie.rs: get_next_node (middlewares.append on every node passed)"]}
{"id": "C15", "title": "Middleware order is the documented nesting order", "statement": "In the chain of a request, middlewares of an outer path run before middlewares of an inner path, and middlewares of the same path run in registration order.", "quantifier": "all programs, all requests; registered paths are in the documented syntax (a colon only at the beginning of a segment, see C65)", "why_tests_cant": "Depends on accumulation order in recursive search, for every depth.", "anchors": ["src/router/route_trie.rs: get_next_node, search_route"]}
{"id": "C16", "title": "use_service_to takes effect on the path it names", "statement": "After use_service_to(P, m) succeeds, m is in the chain of every request that finds the entry of P.", "quantifier": "all routers, all paths P, including \"/\"; registered paths are in the documented syntax (a colon only at the beginning of a segment, see C65)", "why_tests_cant": "All paths including boundary spelling '/' and ''.", "anchors": ["src/router/route_trie.rs: insert_middleware", "src/router.rs: use_service_to"]}
{"id": "C17", "title": "Adding a path middleware does not change routing", "statement": "After use_service_to(P, m) succeeds, every request that was dispatched to a handler before is dispatched to the same handler.", "quantifier": "all routers, all paths P, all requests; registered paths are in the documented syntax (a colon only at the beginning of a segment, see C65)", "why_tests_cant": "Only fails when a wildcard served the path through fallback.", "anchors": ["src/router/route_trie.rs: insert_middleware, get_next_node (None => child '*')"]}
{"id": "C18", "title": "Mounting a router is registering its routes under the prefix", "statement": "use_router(p, sub) (and scope) with a non-root, wildcard-free p and a non-empty sub (itself without root mounts and root use_service_to) leaves exactly the router that is left when every registration of sub is made directly with p prepended, so every request is answered in the same way, also when further registrations follow and to any depth of nesting (a program with nested routers leaves the router of the program without them); where an empty router could be mounted at p, the two programs are accepted in exactly the same cases; in particular a request for p/x finds what sub finds for x: the same handlers, p's parameters and sub's, and sub's middlewares between the main router's global ones and the ones of p.", "quantifier": "all main programs, all sub programs (nested to any depth), all prefixes, all requests; paths of any form (the part about a single request for p/x: registered paths in the documented syntax)", "why_tests_cant": "Unbounded nesting and all requests.", "anchors": ["src/router/route_trie.rs: insert_sub_route", "src/router.rs: use_router", "src/app.rs: scope"]}
{"id": "C19", "title": "Mounting a router never removes existing routes", "statement": "After use_router(p, sub) or scope(p, ..) succeeds, every wildcard-free route registered before still serves every request that matches it, with the same parameters.", "quantifier": "all routers, all p including \"/\" and \"\"", "why_tests_cant": "All tables; fails at the root path only.", "anchors": ["src/router/route_trie.rs: insert_sub_route (des.head = src.head)", "src/app.rs: scope"]}
{"id": "C20", "title": "Mount conflicts are detected, exactly", "statement": "use_router(p, sub) at a non-root p that passes the wildcard and ambiguity checks panics exactly when the main router already has routing data at p or below it; a mount never merges with or overwrites existing data silently.", "quantifier": "all main programs, all p, all sub routers; registered paths are in the documented syntax (a colon only at the beginning of a segment, see C65)", "why_tests_cant": "All reachable tables, both directions.", "anchors": ["src/router/route_trie.rs: insert_sub_route"]}
{"id": "C21", "title": "Lookup is total", "statement": "Looking up any path in any router never panics (no empty-vector removal, no out-of-range or non-boundary string slice) and always terminates, for arbitrary Unicode paths and arbitrary route tables.", "quantifier": "all route tables (even ones outside the supported pattern syntax), all request paths", "why_tests_cant": "All Unicode strings and tables; byte offsets versus char boundaries.", "anchors": ["src/router/route_trie.rs: get_next_node (key.remove(0), &curr_key[count..], node.key[1..]), search_route"]}
{"id": "C22", "title": "Registration only panics for the documented reasons", "statement": "Any registration call on any router either succeeds or panics with the wildcard, ambiguity, duplicate-method or mount-conflict message; it never reaches unreachable!(), an out-of-range index or a non-boundary string slice.", "quantifier": "all route tables, all path strings (any Unicode)", "why_tests_cant": "All strings, all tables.", "anchors": ["src/router/route_trie.rs: process_insertion (unreachable!, key[count..], node.key[count..])"]}
{"id": "C23", "title": "Parameters come from the matched route only", "statement": "The parameters handed to the context are exactly the ones named by the matched route's pattern; nothing leaks from branches the search tried and abandoned.", "quantifier": "all programs, all request paths; registered paths are in the documented syntax (a colon only at the beginning of a segment, see C65)", "why_tests_cant": "Search uses shared mutable maps through backtracking.", "anchors": ["src/router/route_trie.rs: get_next_node (params: &mut HashMap)"]}
{"id": "C24", "title": "Method dispatch", "statement": "A found entry runs a handler only if one is registered for exactly the request's method; otherwise the answer is 404 with body '404 Not Found' and neither middleware nor handler runs.", "quantifier": "all routers, all requests, all handlers and middlewares", "why_tests_cant": "All programs of handlers.", "anchors": ["src/app.rs: resolve_endpoint, page_not_found", "src/router/resource.rs: get_route"]}
{"id": "C25", "title": "Unknown paths are answered with 404 and run nothing", "statement": "When the lookup reports that the path is unknown, the response is status 404 with body '404 Not Found', and no middleware and no handler has any effect.", "quantifier": "all routers, all requests, all world states", "why_tests_cant": "All requests and effects.", "anchors": ["src/app.rs: resolve_endpoint, page_not_found"]}
{"id": "C26", "title": "The middleware chain runs in list order around the handler", "statement": "The chain runs the first middleware with a continuation that runs the rest and finally the handler; if all middlewares forward, their pre-parts run in chain order, then the handler exactly once, then their post-parts in reverse order.", "quantifier": "all middleware lists of any length, all handlers, all contexts", "why_tests_cant": "Unbounded chain length, arbitrary middleware.", "anchors": ["src/app.rs: EndpointExecutor::next"]}
{"id": "C27", "title": "Short-circuiting stops the chain", "statement": "If a middleware answers without forwarding, no later middleware and not the handler has any effect, and its answer is what the earlier middlewares see; if every middleware uses the rest of the chain at most once, the handler runs at most once per request.", "quantifier": "all middleware lists, all positions", "why_tests_cant": "Unbounded chain length, arbitrary middleware.", "anchors": ["src/app.rs: EndpointExecutor::next"]}
{"id": "C28", "title": "Errors become 500 responses carrying the error text", "statement": "If the chain returns an error, the response is status 500 with the error's display text as body and no headers.", "quantifier": "all routers, requests, handlers, errors", "why_tests_cant": "All handlers and errors.", "anchors": ["src/app.rs: resolve_endpoint", "src/error/obsidian_error.rs: Display"]}
{"id": "C29", "title": "What the handler builds is what is sent", "statement": "If the chain returns a context with a response, the sent response has exactly its status and body; if it has none, the response is 200 with an empty body.", "quantifier": "all handlers, statuses, bodies", "why_tests_cant": "All responses.", "anchors": ["src/app.rs: resolve_endpoint", "src/context.rs: ResponseBuilder::ok, take_response"]}
{"id": "C30", "title": "Every header the handler sets is sent", "statement": "Every (name, value) pair a handler adds to its response is present in the sent response.", "quantifier": "all header lists", "why_tests_cant": "Fails only for repeated names (e.g. two Set-Cookie).", "anchors": ["src/app.rs: resolve_endpoint (response_headers.insert)", "src/router/response.rs: set_header, set_headers"]}
{"id": "C31", "title": "The default logger is transparent", "statement": "Adding the Logger middleware never changes the response of any request.", "quantifier": "all handlers, all requests, all chains", "why_tests_cant": "All handlers; fails for handlers that return a context without response.", "anchors": ["src/middleware/logger.rs: handle", "src/app.rs: App::default"]}
{"id": "C32", "title": "Application state reaches every request", "statement": "If an application state was set, the first link of every request's chain sees a copy of the state set last under its type; requests never see each other's changes to it.", "quantifier": "all states, all requests, all histories of requests", "why_tests_cant": "All request histories and handlers.", "anchors": ["src/app.rs: set_app_state, listen, resolve_endpoint", "src/context.rs: add, get"]}
{"id": "C33", "title": "Context data is a typed store", "statement": "Context data behaves as a map from types to values: get returns the value added last for that type, and adding one type never affects another; parameters, request line and response are unaffected.", "quantifier": "all sequences of add operations, all types", "why_tests_cant": "All operation sequences.", "anchors": ["src/context.rs: add, get, get_mut"]}
{"id": "C34", "title": "Bodies are consumed once", "statement": "take_body, form and json hand out the body and leave an empty one: a second read always sees an empty body, and nothing else of the context changes.", "quantifier": "all contexts, all bodies, all sequences of reads", "why_tests_cant": "All sequences.", "anchors": ["src/context.rs: take_body, form, json"]}
{"id": "C35", "title": "Form and query values are grouped by key in order", "statement": "For every form or query, each key is associated with exactly the list of its non-empty values in order of appearance; keys all of whose values are empty are absent.", "quantifier": "all sequences of key/value pairs", "why_tests_cant": "All sequences, all keys.", "anchors": ["src/context.rs: parse_queries"]}
{"id": "C36", "title": "Form decoding does not depend on hash order", "statement": "Decoding a form or query into a struct or a map gives the same value, or fails, independent of the iteration order of the hash map that holds the values.", "quantifier": "all maps, all iteration orders, all struct shapes", "why_tests_cant": "Hash order is randomised per process; tests see one order per run.", "anchors": ["src/router/req_deserializer.rs: from_cow_map, FromMap::next_key_seed", "src/context.rs: parse_queries"]}
{"id": "C37", "title": "Struct fields are decoded from their own values", "statement": "When decoding into a struct succeeds, each field's value is the decoding of that field's own value list (scalars the first value, sequences all values in order); absent Option fields are None, absent defaulted fields have their default, unknown keys are ignored; an absent required field is an error.", "quantifier": "all maps, all struct shapes over the supported field types", "why_tests_cant": "All shapes and inputs.", "anchors": ["src/router/req_deserializer.rs: FormDeserializer, FormValueDeserializer, FromSeq, FromMap"]}
{"id": "C38", "title": "Decoding a form or query never panics", "statement": "Context::form and Context::query_params never panic and always return, whatever the body or query, the target type and the hash order: bad input gives an error. Decoding any map with from_cow_map ends.", "quantifier": "all bodies and queries, all hash orders, all target types over the supported field types", "why_tests_cant": "All inputs, including empty values and empty value lists; the decoder indexes value lists without checking.", "anchors": ["src/router/req_deserializer.rs: self.input[0], self.input[1..]", "src/context.rs: parse_queries"]}
{"id": "C39", "title": "The whole body is decoded", "statement": "form and json decode the whole request body, independent of how the transport splits it into chunks.", "quantifier": "all bodies, all splits into chunks", "why_tests_cant": "Tests use single-chunk bodies.", "anchors": ["src/context.rs: form, json (buf.chunk())"]}
{"id": "C40", "title": "Sequences of optional values are decoded element by element", "statement": "Decoding a value list into a sequence of optional values gives one element per value: None for an empty value, Some for any other.", "quantifier": "all value lists", "why_tests_cant": "Only fails when an empty value is not last.", "anchors": ["src/router/req_deserializer.rs: deserialize_option, FromSeq::next_element_seed"]}
{"id": "C41", "title": "Integers are decoded exactly", "statement": "A decimal rendering of an in-range integer is decoded to that integer, an out-of-range or malformed one is an error, for every integer width.", "quantifier": "all integers, all widths, all strings", "why_tests_cant": "All integers and strings.", "anchors": ["src/router/req_deserializer.rs: from_string_forms_impl"]}
{"id": "C42", "title": "Static file serving maps the request path into the directory", "statement": "After use_static_to(v, d), a GET request for v/x1/../xn that is dispatched to it, without middlewares in between or behind middlewares that only watch (the logger), reads exactly the file d/x1/../xn (with redundant slashes dropped) and answers 200 with its content, or 404 with the error text if it cannot be read.", "quantifier": "all v, d, request paths, file systems; registered paths are in the documented syntax (a colon only at the beginning of a segment, see C65)", "why_tests_cant": "All paths and file systems.", "anchors": ["src/router.rs: use_static_to, static_virtual_file_handler, use_static, static_dir_file_handler", "src/router/response.rs: file"]}
{"id": "C43", "title": "Static file serving never leaves the directory", "statement": "No request makes static file serving read a file outside the served directory.", "quantifier": "all request paths", "why_tests_cant": "Needs adversarial paths with '..' segments.", "anchors": ["src/router.rs: static_virtual_file_handler, static_dir_file_handler"]}
{"id": "C44", "title": "Static file serving works inside scopes", "statement": "A static directory registered inside a scope s serves s/v/x from d/x, like outside.", "quantifier": "all scopes, v, d, x; registered paths are in the documented syntax (a colon only at the beginning of a segment, see C65)", "why_tests_cant": "Only fails for mounted routers.", "anchors": ["src/router.rs: static_virtual_file_handler (skip(virtual_path_len))"]}
{"id": "C45", "title": "Response building is last-writer-wins on status and body, append on headers", "statement": "After any sequence of builder calls the status is the one set last, the body the one set last, and the header list is all set headers in call order. Header names that are given as text have to be valid: the first invalid one panics, and nothing else does.", "quantifier": "all sequences of builder calls", "why_tests_cant": "All sequences.", "anchors": ["src/router/response.rs: set_status, set_body, set_header, set_headers, set_headers_str", "src/context.rs: ResponseBuilder"]}
{"id": "C46", "title": "Parameter conversion", "statement": "param(name) is an error for an absent name (NoneError), an error naming the parameter for an unparsable value (ParamError), and otherwise the parsed value; it never panics and never changes the context.", "quantifier": "all contexts, all names, all parse functions", "why_tests_cant": "All parsers and values.", "anchors": ["src/context.rs: param", "src/error/obsidian_error.rs"]}
{"id": "C47", "title": "A trailing wildcard also matches its bare prefix", "statement": "A route at prefix/* also serves the request for prefix itself when nothing is registered at prefix.", "quantifier": "all prefixes, including the root and prefixes ending in a parameter; registered paths are in the documented syntax (a colon only at the beginning of a segment, see C65)", "why_tests_cant": "Holds for static prefixes only.", "anchors": ["src/router/route_trie.rs: get_next_node (None => child '*'), search_route"]}
{"id": "C48", "title": "Requests are isolated from each other", "statement": "Serving requests never changes the routing table or another request's context: the answers to any interleaving of requests are the answers each would get alone, as far as handlers do not share state themselves.", "quantifier": "all interleavings of request steps, all requests", "why_tests_cant": "All schedules.", "anchors": ["src/app.rs: listen (server_clone), resolve_endpoint", "src/context.rs: Context::new"]}
{"id": "C49", "title": "A panicking registration does not damage the table", "statement": "If a registration panics and the panic is caught, every route that was registered before is still found and dispatched to the same handler.", "quantifier": "all routers, all failing registrations; registered paths are in the documented syntax (a colon only at the beginning of a segment, see C65)", "why_tests_cant": "All tables and crash points inside the insertion.", "anchors": ["src/router/route_trie.rs: insert_route, insert_middleware, insert_sub_route"]}
{"id": "C50", "title": "Parameters never capture more than one segment", "statement": "A parameter's value is exactly one request segment: non-empty and without slash.", "quantifier": "all programs, all requests", "why_tests_cant": "All requests.", "anchors": ["src/router/route_trie.rs: get_next_node"]}
{"id": "C51", "title": "Registrations do not affect requests they do not match", "statement": "Registering a further route does not change which handler serves a request that does not match the new route.", "quantifier": "all programs, all further routes, all requests", "why_tests_cant": "The new path can split a tree node in the middle of another path's segment.", "anchors": ["src/router/route_trie.rs: process_insertion, get_next_node"]}
{"id": "C52", "title": "Mounted routes are reachable wherever they are mounted", "statement": "If use_router(p, sub) is accepted, every request that p followed by a route of sub describes is served by that route, also when p ends in '*'.", "quantifier": "all programs, all mount paths, all routes of the nested router", "why_tests_cant": "Only fails for mount paths that end in a wildcard, which the validation accepts.", "anchors": ["src/router/route_trie.rs: insert_sub_route, get_next_node"]}
{"id": "C53", "title": "A handler runs at most once per request", "statement": "Whatever the middlewares do, the handler of a request is started at most once.", "quantifier": "all middlewares, all chains, all handlers", "why_tests_cant": "EndpointExecutor::next takes self by value, which suggests that a middleware can run the rest of the chain only once; its public fields and constructor allow rebuilding it.", "anchors": ["src/app.rs: EndpointExecutor", "src/middleware.rs: Middleware"]}
{"id": "C54", "title": "from_cow_map never panics", "statement": "Decoding any map of value lists with the public from_cow_map returns a value or an error.", "quantifier": "all maps, all target types over the supported field types", "why_tests_cant": "Only fails for empty value lists and for empty values inside sequences of optional values.", "anchors": ["src/router/req_deserializer.rs: deserialize_option, deserialize_unit, IntoDeserializer for values"]}
{"id": "C55", "title": "Decoding does not depend on hash order, whatever the type", "statement": "Decoding a map of value lists into any type gives the same value, or fails, for every iteration order of the map.", "quantifier": "all maps, all orders, all target types", "why_tests_cant": "Hash order is randomised per process.", "anchors": ["src/router/req_deserializer.rs: from_cow_map, FormDeserializer"]}
{"id": "C56", "title": "Absolute directories are served", "statement": "use_static_to(v, d) serves the files of the directory d, also if d is an absolute path.", "quantifier": "all v, d, request paths, working directories", "why_tests_cant": "The leading slash is dropped when the path is split and joined; a test run from the root directory, or with a relative directory, does not notice.", "anchors": ["src/router.rs: static_virtual_file_handler"]}
{"id": "C57", "title": "Every readable file is served", "statement": "A request for a file that can be read is answered with 200 and exactly the bytes of the file.", "quantifier": "all files and contents", "why_tests_cant": "All contents, including ones that are not text.", "anchors": ["src/router/response.rs: file (read_to_string)", "src/router.rs: static_virtual_file_handler"]}
{"id": "C58", "title": "What a handler builds is what the client gets", "statement": "Without middlewares in between or behind middlewares that only watch (the logger), and with valid names and values of headers, a handler that answers with ctx.build(value) and further calls of the builder makes the client get the status set last (or else the one the value stands for), the body the value stands for, and for every header the value set last; a byte vector is sent as a JSON array from which the bytes can be read back. The same holds for build_json (application/json; 500 and the text of the error if the value cannot be encoded) and build_file (404 and the text of the error if the file cannot be read).", "quantifier": "all responder values, all sequences of builder calls, all requests and worlds", "why_tests_cant": "The composition of responder conversion, builder calls and final conversion over all values cannot be enumerated.", "anchors": ["src/context.rs: build, ResponseBuilder", "src/router/responder.rs: respond_to", "src/app.rs: AppServer::resolve"]}
{"id": "C59", "title": "Every request is logged with the status that the client gets", "statement": "An application started with App::default() prints for every request its method and URI, and then the status that the client gets, or the error that the client gets with status 500.", "quantifier": "all route tables, all handlers and middlewares, all requests", "why_tests_cant": "Requires comparing the output with the final answer for every composition of chain, error and conversion; output is not captured by tests.", "anchors": ["src/middleware/logger.rs: Logger::handle", "src/app.rs: default, resolve_endpoint"]}
{"id": "C60", "title": "HEAD is answered like GET", "statement": "A HEAD request is answered like the GET request for the same path.", "quantifier": "all route tables, all paths", "why_tests_cant": "Needs a quantifier over all route tables.", "anchors": ["src/app.rs: resolve_endpoint", "src/router/resource.rs: get_route"]}
{"id": "C61", "title": "Every request is answered in the end", "statement": "A request whose task gets its turn again and again is finished at some point, whatever other requests arrive, panic, wait forever or do to shared state; if requests do not share state, it gets exactly the answer it gets alone, even while other requests hang.", "quantifier": "all applications, all infinite schedules fair to the one request, all arrival patterns", "why_tests_cant": "A liveness property over infinite schedules.", "anchors": ["src/app.rs: listen, AppServer::resolve_endpoint"]}
{"id": "C62", "title": "Names and values survive url-encoding", "statement": "Whatever way a client writes the names and values of a query or of a form that arrives in one piece (any byte as a percent sign and two hexadecimal digits, spaces also as a plus sign, empty values also without equals sign), query_params and form give exactly the non-empty values of each name, in order; two ways to write the same pairs are decoded alike, for every type. Every query and every body, of whatever bytes, is a way to write exactly one list of names and values (a percent sign without two hexadecimal digits means itself, so does an equals sign in a value, empty parts between ampersands mean nothing), and these are what handlers get.", "quantifier": "all lists of pairs of texts, all ways to write them, all byte strings, all orders of iteration", "why_tests_cant": "The texts and the ways to write them cannot be enumerated.", "anchors": ["src/context.rs: parse_queries, query_params, form", "src/router/req_deserializer.rs: from_cow_map"]}
{"id": "C63", "title": "Parameters of the path are decoded", "statement": "A path parameter has the text that the client meant, whether it was written as it is or with percent signs; and a route is found however its name is written.", "quantifier": "all route tables, all texts, all ways to write them in a path", "why_tests_cant": "The texts and the ways to write them cannot be enumerated.", "anchors": ["src/router/route_trie.rs: search_route", "src/context.rs: param"]}
{"id": "C64", "title": "A response with a body tells the type of its content", "statement": "Every answer with a body that is not empty has a Content-Type header.", "quantifier": "all values a handler can answer with, all static files", "why_tests_cant": "The values and their combinations with builder calls cannot be enumerated.", "anchors": ["src/router/responder.rs: respond_to", "src/router/response.rs: file, json, html", "src/context.rs: build"]}
{"id": "C65", "title": "Characters of a path without special meaning stand for themselves", "statement": "A colon that is not at the beginning of a segment has no special meaning: a route with such a path serves exactly the requests for this path.", "quantifier": "all route tables with such paths, all requests", "why_tests_cant": "Whether an inner colon becomes the start of a node depends on all the other routes.", "anchors": ["src/router/route_trie.rs: is_param, insert_default, get_next_node"]}
{"id": "C66", "title": "No output is lost when requests are served at the same time", "statement": "However requests are interleaved, as far as handlers do not share state themselves, the output of the server consists of exactly the lines that each request prints when it is served alone, each request's lines in their order; in particular, where the logger of App::default() is in force, its first and last line of every handled request are there.", "quantifier": "all applications, all arrival patterns, all interleavings", "why_tests_cant": "All schedules.", "anchors": ["src/middleware/logger.rs: Logger::handle", "src/app.rs: listen, AppServer::resolve_endpoint"]}
{"id": "C67", "title": "A submitted struct is the struct that the handler gets", "statement": "If a client submits the values of a struct as a url-encoded form or query (each scalar under its field's name, lists and tuples as repeated names, None by leaving the name out), in any way of writing it, then decoding it at that struct type gives exactly these values.", "quantifier": "all structs of scalar, tuple, list and optional fields, all values, all ways of url-encoding, all hash orders", "why_tests_cant": "All struct types, all values and all encodings.", "anchors": ["src/router/req_deserializer.rs: from_cow_map, FormValueDeserializer, FromMap, FromSeq", "src/context.rs: form, query_params, parse_queries"]}
{"id": "C68", "title": "Nothing that was submitted is silently ignored", "statement": "If decoding a form or query succeeds, every submitted value of a known field is in the result: there is no field of which only some of the values were used.", "quantifier": "all structs, all forms", "why_tests_cant": "Ranges over all multisets of keys and values.", "anchors": ["src/router/req_deserializer.rs: FormValueDeserializer, FromSeq, FromMap", "src/context.rs: parse_queries"]}
{"id": "C69", "title": "An empty text is submitted as an empty text", "statement": "A field or map entry that is submitted with an empty value (name=) is received as the empty text by String fields, as None by optional fields.", "quantifier": "all structs and maps, all forms", "why_tests_cant": "All combinations of fields and values.", "anchors": ["src/context.rs: parse_queries", "src/router/req_deserializer.rs: deserialize_option, deserialize_string"]}
{"id": "C70", "title": "Enums and nested structs are decoded or refused", "statement": "A field whose type is an enum is decoded from the name of the variant; types that cannot be written in a form lead to an error, never to a panic or a wrong value.", "quantifier": "all structs with such fields at any depth, all forms", "why_tests_cant": "All types and forms.", "anchors": ["src/router/req_deserializer.rs: FormValueDeserializer (forward_to_deserialize_any)"]}
{"id": "C71", "title": "Queries and forms can be decoded as maps and as optional values", "statement": "A query or form can be decoded as a map from any type of key that can be written as text to any type of value, as an optional struct, or as a list of pairs.", "quantifier": "all value types, all queries and forms", "why_tests_cant": "All maps and value types.", "anchors": ["src/router/req_deserializer.rs: FormDeserializer, from_string_forms_key_impl, FromMap"]}
{"id": "C72", "title": "The most specific route serves the request", "statement": "When several registered routes match a request, the one that serves it is the most specific: a route without wildcard if there is one that matches, and otherwise the wildcard with the longest matching prefix.", "quantifier": "all registration programs, all requests, any number of overlapping routes; registered paths are in the documented syntax (a colon only at the beginning of a segment, see C65)", "why_tests_cant": "All combinations of overlapping routes, in all orders.", "anchors": ["src/router/route_trie.rs: search_node, insert", "src/router.rs: search_route"]}
{"id": "C73", "title": "A request that matches a registered route is served", "statement": "If the request path matches the pattern of some route that is registered for its method, the request is served by a handler (that route's, or a more specific one's), not answered with 404.", "quantifier": "all registration programs, all requests; registered paths are in the documented syntax (a colon only at the beginning of a segment, see C65)", "why_tests_cant": "All other registrations that could hide a route.", "anchors": ["src/router/route_trie.rs: search_node, search", "src/router.rs: search_route", "src/app.rs: resolve_endpoint"]}
{"id": "C74", "title": "All parameters of a route can be read", "statement": "For a request served by a route, every `:name` of the route, including those of the path it is mounted at, gives the handler the segment at its position.", "quantifier": "all registration programs with nested routers, all requests; registered paths are in the documented syntax (a colon only at the beginning of a segment, see C65)", "why_tests_cant": "All patterns, mounts and requests.", "anchors": ["src/router/route_trie.rs: search_node, squash_node", "src/context.rs: param"]}
{"id": "C75", "title": "A global middleware sees every request", "statement": "A middleware added with use_service is called for every request that reaches the application, also for those that end with 404.", "quantifier": "all applications, all requests", "why_tests_cant": "All requests, including all unknown paths and methods.", "anchors": ["src/router.rs: use_service, search_route", "src/app.rs: resolve_endpoint"]}
{"id": "C76", "title": "Files with any name can be requested", "statement": "A file below the directory of use_static_to is served for the request that writes its name in the path, with percent-encoding where needed.", "quantifier": "all directories, all file names, all ways of writing them", "why_tests_cant": "All names and encodings.", "anchors": ["src/router.rs: use_static_to", "src/app.rs: listen"]}
{"id": "C77", "title": "An application of pages serves each page at its path, and 404 elsewhere", "statement": "If an application consists of handlers for paths without parameters and wildcards, a request gets the answer of the page with its method and path (leading, trailing and repeated slashes aside), and 404 if there is none; the registrations are accepted if and only if no method and path occurs twice.", "quantifier": "all finite lists of pages in any order, all request paths and methods", "why_tests_cant": "All sites and all request paths, with all ways in which paths share prefixes.", "anchors": ["src/router/route_trie.rs: insert, search_node, break_key", "src/router.rs: get, post, put, patch, delete", "src/app.rs: resolve_endpoint, page_not_found"]}
{"id": "C78", "title": "The programs of the README and the state example answer as they say", "statement": "The program of the README answers GET requests for the root with 200, text/plain and `Hello World`, and all other requests with 404; the program of examples/app_state.rs answers with the text of the state that was set.", "quantifier": "all requests, all states", "why_tests_cant": "All methods, paths, headers and bodies of requests.", "anchors": ["README.md", "examples/app_state.rs", "src/app.rs: new, get, set_app_state, resolve_endpoint", "src/router/responder.rs: respond_to"]}
{"id": "C79", "title": "Configuring an application is configuring its router", "statement": "An application can be started if and only if its registrations would be accepted by an empty router, and otherwise the configuration stops with the panic of the first rejected one; when and how often the state is set does not matter, except for the last value; the default application is the empty one with the logger registered first.", "quantifier": "all sequences of configuration calls", "why_tests_cant": "All sequences and interleavings of calls.", "anchors": ["src/app.rs: new, default, get, post, put, patch, delete, use_service, use_service_to, use_router, scope, set_app_state"]}
{"id": "C80", "title": "A route with an integer parameter answers integers and refuses everything else", "statement": "An application whose only route is `/a/:name`, with a handler that reads the parameter as an integer, answers `/a/v` with the handler's answer if `v` is a decimal number of the integer type, with 500 and the name of the parameter if it is not, and every other request with 404.", "quantifier": "all fixed segments and parameter names, all integer widths, all answers, all requests", "why_tests_cant": "All texts of the segment, all other paths and methods.", "anchors": ["src/context.rs: param", "src/router/route_trie.rs: search_node", "src/app.rs: resolve_endpoint"]}
{"id": "C81", "title": "A JSON service answers with what it computes from the body", "statement": "An application whose handler reads a value with ctx.json and answers with ctx.build_json sends the encoded result of every body that encodes a value, 500 with the error text for every other body, and 404 for other paths and methods (paths in which slashes are left out being no other paths, see C77); in particular a service that returns its input returns an encoding of the same value.", "quantifier": "all codecs, all functions, all bodies and all ways of dividing them into chunks, all requests", "why_tests_cant": "All bodies and all divisions into chunks.", "anchors": ["src/context.rs: json, take_body, build_json", "src/router/response.rs: json", "src/app.rs: resolve_endpoint"]}
{"id": "C82", "title": "Routing does not depend on what handlers and middlewares do", "statement": "Two applications configured with the same calls, but other handlers and middlewares, are accepted or rejected alike, and send every request to the handler and middlewares standing in the same places, with the same parameters; in particular a handler can be replaced by one with the same behaviour without changing the behaviour of the application.", "quantifier": "all programs with nested routers and scopes, paths of any form, all handlers and middlewares, all requests", "why_tests_cant": "All programs, all pairs of handlers, all requests: a relational statement.", "anchors": ["src/router/route_trie.rs: insert, search_node, insert_sub_route", "src/router.rs: all registrations", "src/app.rs: resolve_endpoint"]}
{"id": "C83", "title": "Middlewares that only watch change no answer", "statement": "Middlewares that leave requests and results alone (metrics, tracing; the logger if every handler builds a response or fails), registered for the whole application with use_service, at any places and in any number, change neither whether the registrations are accepted nor the outcome of any request nor its effect on the rest of the world.", "quantifier": "all programs, all such middlewares, all places where they are added, all requests", "why_tests_cant": "All applications and all places; the middleware must be invisible for every request.", "anchors": ["src/router.rs: use_service", "src/router/route_trie.rs: insert_default_middleware, search_node", "src/middleware/logger.rs: handle", "src/app.rs: resolve_endpoint"]}
{"id": "C84", "title": "The error of a form or query says what is wrong with it", "statement": "If a form or query cannot be decoded into a struct, the error says something true: which kind of text the value of a field is not (an integer that is empty, has a character that is no digit, or is too large or too small, according to the first character with which things go wrong; a truth value), that a field was given under two names, or that a name is unknown; and if nothing of this kind is wrong, it names the first required field that is lacking. Decoding fails only if one of these things is wrong. For maps, the error is about the values of one of the names.", "quantifier": "all structs, all types of fields, all submitted names and values, all orders of iteration", "why_tests_cant": "All structs and all inputs; which of several errors is reported depends on the hash map.", "anchors": ["src/router/req_deserializer.rs: from_cow_map, FromMap, FormValueDeserializer, FromSeq", "src/context.rs: parse_queries"]}
{"id": "C85", "title": "A form service answers every request", "statement": "An application whose handler reads a struct with ctx.form and answers with a text sends this answer for every body that encodes a struct, in whatever url-encoded writing, 500 with a text that says what is wrong for every other body, and 404 for other paths and methods (paths in which slashes are left out being no other paths, see C77).", "quantifier": "all structs, all answers, all bodies and all ways of dividing them into chunks, all requests", "why_tests_cant": "All bodies and all divisions into chunks.", "anchors": ["src/context.rs: form, take_body, parse_queries", "src/router/req_deserializer.rs: from_cow_map", "src/app.rs: resolve_endpoint"]}
{"id": "C86", "title": "A service that reads its query answers every request", "statement": "Every query, of whatever characters, stands for exactly one list of names and values. An application whose handler reads a struct with ctx.query_params and answers with a text sends this answer for every query that encodes a struct, in whatever url-encoded writing; 500 with a text that says what is wrong with the query for every other query; and 404 for other paths and methods (paths in which slashes are left out being no other paths, see C77). The same holds, but for the 404, for such a handler anywhere in any application, for every request that reaches it without middlewares. A request without query is treated like one with an empty query, and the body does not matter.", "quantifier": "all structs, all answers, all queries, all requests, all orders of iteration", "why_tests_cant": "All queries and all structs; the order of the hash map is random.", "anchors": ["src/context.rs: query_params, parse_queries", "src/router/req_deserializer.rs: from_cow_map", "src/app.rs: resolve_endpoint"]}
{"id": "C87", "title": "The order of registrations with nested routers is irrelevant", "statement": "If two programs make the same calls in different orders, including mounts of nested routers (not at the root), with the calls that add middlewares in the same order, then both are accepted or both are rejected, and if they are accepted, no request can tell the applications apart.", "quantifier": "all programs with nested routers of any depth, all permutations, all requests; registered paths are in the documented syntax (a colon only at the beginning of a segment, see C65)", "why_tests_cant": "All programs, all permutations and all requests.", "anchors": ["src/router.rs: use_router, scope, all registrations", "src/router/route_trie.rs: insert_sub_route, insert, search_node"]}
{"id": "C88", "title": "Serving a request is determined by the registrations", "statement": "For every application and every request: if the request leads to no registered path with a route for its method, the answer is 404 and nothing else happens; otherwise the handler of this route runs inside the middlewares of the root, in order, and those of the beginnings of the path, longer ones first; it gets the request unchanged, the parameters read on the way and the application state that was set last; and when it ends, the client gets 500 and the text of the error, or the response with its status, its body and the last value of every header, or 200 if there is no response; the effects on the world and the output are those of the handler and the middlewares.", "quantifier": "all programs (without nested routers at a path that ends in '*'), all handlers and middlewares, all states, all requests and worlds; registered paths are in the documented syntax (a colon only at the beginning of a segment, see C65)", "why_tests_cant": "A complete description of the behaviour for all programs and all requests.", "anchors": ["src/app.rs: listen, resolve_endpoint, set_app_state, EndpointExecutor::next", "src/router.rs: all registrations, search_route", "src/router/route_trie.rs: all", "src/context.rs: Context::new, add"]}
{"id": "C89", "title": "The example application", "statement": "examples/main.rs starts, and serves what its source says: every page in it is answered, for its method, with its status, headers and body (also below /test/wildcard, /params, /files, where the rest of the path selects the file under assets), /user prints what the query says or which field is missing, the middleware prints one line about every request to a page and hands its data to the handlers, all other requests are answered with 404, and no request makes a handler panic.", "quantifier": "all requests, all worlds, all contents of the file system, all queries", "why_tests_cant": "Infinitely many paths, queries, hosts and file systems.", "anchors": ["examples/main.rs", "examples/middleware/logger_example.rs: LoggerExample::handle", "src/app.rs: whole application", "src/router/route_trie.rs: search_node"]}
{"id": "C90", "title": "Requests that share the world step by step", "statement": "Whatever requests arrive and however the tokio tasks are interleaved, all working on the same shared world: the world is always the result of single steps of the requests, one after the other; every request that is finished was served by its handler inside its middlewares, or answered with 404, as if it were alone but for the worlds that its own steps found, and nothing but its steps and lines is charged to it; if every handler adds one to a shared counter, in one step, then the counter has gone up by exactly the number of requests that lead to a handler: no update is lost.", "quantifier": "all programs (without nested routers at a path that ends in '*'), all handlers and middlewares, all worlds, all sequences of arrivals and steps; registered paths are in the documented syntax (see C65)", "why_tests_cant": "All interleavings of any number of requests; races are not reproducible in tests.", "anchors": ["src/app.rs: listen, resolve_endpoint, EndpointExecutor::next", "src/router.rs: search_route"]}
{"id": "C91", "title": "Connections with several requests", "statement": "On each connection the requests are served strictly one after the other in the order in which they were received, and their responses are sent in this order, whatever happens on other connections; a connection is closed only by its client or by a panic of its own request, and then no other connection notices; if a connection gets its turn again and again and its client does not hang up, every request that it receives is answered, up to the first one that panics.", "quantifier": "all applications, all worlds, all sequences of received requests, turns and hang-ups on any number of connections, also infinite ones", "why_tests_cant": "All interleavings of any number of connections, and a liveness property over infinite executions.", "anchors": ["src/app.rs: listen, make_service_fn, service_fn, resolve_endpoint"]}
{"id": "C92", "title": "Headers set by name", "statement": "with_header_str, with_headers_str and set_headers_str accept exactly the header names of HTTP (tokens), and panic for every other text; capitalisation does not matter: a page whose handler sets headers by name is answered, for every name in any capitalisation, with the value given last for it in any capitalisation (the content type being preset), if all values are visible ASCII; otherwise its handler panics and no other request notices.", "quantifier": "all lists of names and values, all texts, all requests and worlds; for any version of the http crate, as to the quotation mark and the greatest length of names", "why_tests_cant": "All texts as names and values, including those outside ASCII.", "anchors": ["src/router/response.rs: set_header_str, set_headers_str, with_header_str, with_headers_str", "src/context.rs: ResponseBuilder::with_headers_str", "src/app.rs: resolve_endpoint"]}
{"id": "C93", "title": "Flattened parts are read like own fields", "statement": "If a struct that is read from a form or query has a field with #[serde(flatten)], the result is the same as if the fields of that part were fields of the struct itself; a flattened HashMap<String, String> gets the first value of every other key.", "quantifier": "all structs, all parts, all queries, all orders in which the maps are visited", "why_tests_cant": "All types of structs and parts, all queries, all orders of iteration.", "anchors": ["src/router/req_deserializer.rs: from_cow_map, FormDeserializer::deserialize_map, FromMap::next_key_seed, FromMap::next_value_seed, FormValueDeserializer::deserialize_any", "src/context.rs: parse_queries"]}
{"id": "C94", "title": "Which applications start", "statement": "The configuration of an application is accepted exactly if every registration, also inside mounted routers and scopes, has its wildcard alone and at the end, does not clash with an earlier one, is not the second of its method at its place and, if it mounts a router, finds its place free; otherwise the configuration stops with a panic that tells the first of these faults, the nested router being built before it is mounted, and nothing is mounted.", "quantifier": "all sequences of registrations, nested to any depth, and all states that are set between them", "why_tests_cant": "All programs of registrations, of any length and depth of nesting.", "anchors": ["src/app.rs: App::get, App::post, App::put, App::patch, App::delete, App::use_service_to, App::scope, App::use_router", "src/router.rs: insert_route, use_service_to, use_router", "src/router/route_trie.rs: insert_route, insert_middleware, insert_sub_route, insert"]}
{"id": "C95", "title": "The work of a lookup is bounded by the table", "statement": "However a request path is made up, the number of steps to find its route depends only on what was registered: at most two visited nodes for each registered segment, at most as many compared characters as were registered, and calls nested at most one deeper than the longest registered path has characters; only the moving of the remaining segments depends on the request, at most linearly in the number of its segments for a given table.", "quantifier": "all sequences of registrations, nested to any depth, also those that panicked, and all request paths", "why_tests_cant": "All tables and all request paths, of any length.", "anchors": ["src/router/route_trie.rs: search_route, get_next_node, process_insertion, insert_route, insert_middleware, insert_sub_route", "src/router.rs: search_route"]}
{"id": "C96", "title": "A guard on a path sees every request below it", "statement": "A middleware added with use_service_to(Q) (Q without wildcard) is called for every request for Q or for something below it that reaches a handler: if it refuses a request, no handler of the application runs or influences the answer.", "quantifier": "all sequences of registrations, nested to any depth, all guarded paths with and without parameters, all requests below them, all handlers and all other middlewares that do not undo the reason for which the guard refuses; registered paths are in the documented syntax (a colon only at the beginning of a segment, see C65)", "why_tests_cant": "Whether some request slips past a guard depends on all other routes of the table and on all spellings of the request path; and that a handler has no influence is a statement about all handlers.", "anchors": ["src/app.rs: App::use_service_to, App::resolve_endpoint", "src/router.rs: use_service_to", "src/router/route_trie.rs: insert_middleware, search_route, get_next_node"]}
{"id": "C97", "title": "What is behind a guard stays behind it", "statement": "If a middleware added with use_service_to(Q) refuses a request, the handlers registered at Q or below it have no influence on the answer, on the state of the world and on the output, whatever the path of the request and however it is written (slashes, wildcards, nested routers, other methods): with any other handlers in their places the application does exactly the same.", "quantifier": "all pairs of applications that differ only in handlers at or below Q, all requests, all conditions under which the guard refuses that the middlewares keep which can be called before it (global ones and ones of longer paths, see C15); registered paths are in the documented syntax (a colon only at the beginning of a segment, see C65)", "why_tests_cant": "A non-interference property: it compares all pairs of applications on all requests.", "anchors": ["src/app.rs: App::use_service_to, App::resolve_endpoint, EndpointExecutor::next", "src/router.rs: use_service_to", "src/router/route_trie.rs: insert_middleware, search_route, get_next_node"]}
{"id": "C98", "title": "Errors about flattened parts are true", "statement": "If a struct with #[serde(flatten)] parts cannot be read from a query, the error says why: if the own fields cannot be read it is exactly the error for the struct without the parts; otherwise it is about the first part that cannot be read, and names a text that the part really got and does not take, or the first field for which there is none. An optional part is never complained about, and without a true complaint there is no error.", "quantifier": "all structs, all parts (such that no part has to do with the texts of an optional part before it), all queries, all orders in which the maps are visited", "why_tests_cant": "All types of structs and parts, all queries, all orders of iteration: the error depends on the order in which a hash map is visited.", "anchors": ["src/router/req_deserializer.rs: from_cow_map, FormDeserializer::deserialize_map, FromMap::next_key_seed, FromMap::next_value_seed, FormValueDeserializer::deserialize_any", "src/context.rs: parse_queries"]}
{"id": "C99", "title": "Responses cannot be split", "statement": "Whatever handlers and middlewares put into their responses, a client that reads a response finds exactly the headers that are in it, each name once, and after them exactly the body: no header value can begin another header or end the head, since no value with control characters is ever sent.", "quantifier": "all applications, all handlers and middlewares, all requests, all interleavings of requests that share the world, all orders in which the headers are written", "why_tests_cant": "It is about all header values, which may be made from user input, and all interleavings.", "anchors": ["src/app.rs: AppServer::resolve_endpoint, App::listen", "src/router/response.rs: set_header, set_headers"]}
{"id": "C100", "title": "Flattened parts do not depend on hash order", "statement": "Whether a struct with #[serde(flatten)] parts can be read from a query, and what is read, does not depend on the order in which hash maps are visited.", "quantifier": "all structs with flattened parts, all queries, all orders in which the maps are visited", "why_tests_cant": "The order of a hash map is random: a test sees one order each time.", "anchors": ["src/router/req_deserializer.rs: from_cow_map, FormDeserializer::deserialize_map, FromMap::next_key_seed, FromMap::next_value_seed", "src/context.rs: parse_queries"]}
{"id": "C101", "title": "A rejected registration never takes effect", "statement": "If a registration call panics and the panic is caught, what it asked for does not happen: its handler serves no request, its middleware is in no chain, and nothing of the router it mounts is reachable, neither then nor after further calls.", "quantifier": "all sequences of registration calls of which any number panic, all path strings, all requests", "why_tests_cant": "It is about every state in which a panic can leave the tree, and all requests and calls after it.", "anchors": ["src/router.rs: get, post, put, patch, delete, use_service_to, use_router", "src/router/route_trie.rs: insert_route, insert_middleware, insert_sub_route, process_insertion, search_route, get_next_node"]}
{"id": "C102", "title": "A middleware runs at most as often as it was added", "statement": "For no request is a middleware in the chain more often than it was added by use_service and use_service_to calls that did not panic, in the application itself or in mounted routers and scopes; so, unless a middleware runs the rest of the chain more than once, it is started at most so often during one request, and the chain of a request is never longer than the number of such calls.", "quantifier": "all sequences of registration calls, nested to any depth, also with panics that are caught, all path strings, all requests", "why_tests_cant": "All tables and all requests: whether a middleware is found twice on the way down the tree depends on how all the other registrations have split its nodes.", "anchors": ["src/app.rs: App::use_service, App::use_service_to, App::scope, App::use_router, App::resolve_endpoint", "src/router.rs: use_service, use_service_to, use_router", "src/router/route_trie.rs: insert_default_middleware, insert_middleware, insert_sub_route, search_route, get_next_node, process_insertion"]}
{"id": "C103", "title": "Serving requests at the same time is like serving them one after the other", "statement": "Whatever requests are served at the same time, and however the tokio tasks are interleaved: the answers and the state that they leave are those of serving them one after the other, each from start to end, in an order in which a request that was finished before another one was received comes before it.", "quantifier": "all applications, all sequences of requests, all interleavings of their tasks at every moment, all states of the world", "why_tests_cant": "All interleavings: a test sees a few schedules, and a lost update or a stale answer shows up in few of them.", "anchors": ["src/app.rs: App::listen, AppServer::resolve_endpoint", "src/router/handler.rs: Handler::call", "src/middleware.rs: Middleware::handle", "src/middleware/logger.rs: Logger::handle"]}
{"id": "C104", "title": "How parameters are called does not matter", "statement": "If the parameters of all registered paths are given other names, different ones for different parameters, the application behaves the same: the same registrations are accepted, every request finds the same handler and the same middlewares, and every parameter has the same value under its new name.", "quantifier": "all sequences of registrations, nested to any depth, all injective renamings of parameters that neither make nor lose slashes, colons and stars, all requests; registered paths are in the documented syntax (a colon only at the beginning of a segment, see C65)", "why_tests_cant": "It compares all tables with all their renamings on all requests: the names are part of the keys by which the tree is split and searched.", "anchors": ["src/router.rs: get, post, put, patch, delete, use_service_to, use_router", "src/router/route_trie.rs: insert_route, insert_middleware, insert_sub_route, process_insertion, search_route, get_next_node", "src/context.rs: param"]}
{"id": "C105", "title": "Characters without a meaning are all alike", "statement": "In paths only the slash, the colon and the star mean something. If all other characters of the registered paths and of the request are replaced by other ones (different ones by different ones: small by capital letters, letters by those of another script, with other lengths in UTF-8), the same registrations are accepted, the rejected ones panic with the same message about the replaced paths, and the request finds the same handler, the same middlewares and the same, replaced, parameters.", "quantifier": "all sequences of registrations, nested to any depth, also after caught panics, all path strings, all injective maps of characters that keep slash, colon and star, all requests", "why_tests_cant": "All texts and all replacements: the tree splits keys at byte offsets that depend on the characters.", "anchors": ["src/router.rs: get, post, put, patch, delete, use_service_to, use_router", "src/router/route_trie.rs: insert_route, insert_middleware, insert_sub_route, process_insertion, get_insertion_action, search_route, get_next_node", "src/context.rs: param"]}
{"id": "C106", "title": "What is below a path matters only to requests that can lead there", "statement": "Two applications whose registrations differ only at a path P or below it (for example in the contents of a router mounted at P, at any depth) do exactly the same for every request that matches no path beginning with P, where slashes between characters do not count (see C04): the same answer, output and effects on the state, also if the request is answered by a wildcard or with 404.", "quantifier": "all pairs of applications that register the same elsewhere and something at or below P, all paths P with and without parameters, all requests that match no path beginning with P; registered paths are in the documented syntax (a colon only at the beginning of a segment, see C65)", "why_tests_cant": "It compares all pairs of applications on all requests: what is below P changes how the nodes above it are split and on which ways the search goes wrong.", "anchors": ["src/app.rs: App::scope, App::use_router, AppServer::resolve_endpoint", "src/router.rs: use_router, search_route", "src/router/route_trie.rs: insert_sub_route, insert_route, insert_middleware, process_insertion, search_route, get_next_node"]}
{"id": "C107", "title": "Requests that use different parts of the state do not notice each other", "statement": "If no request changes a part of the shared state that another request reads or changes, then however the steps of the requests are interleaved, every request gets the answer that it gets when it is the only one and leaves its parts of the state as it does then; what nobody changes stays as it was. When all are finished, serving them one after the other, in whatever order, would have had the same result. Which parts a request uses follows from the handlers and middlewares that are registered (the logger of the library uses none).", "quantifier": "all applications, registered by any calls, all ways of dividing the state into parts, all handlers and middlewares, which may touch their parts any number of times, all requests, all interleavings", "why_tests_cant": "All interleavings of any number of requests with any number of steps; a test runs a few of them, and the scheduler decides which.", "anchors": ["src/app.rs: AppServer::resolve_endpoint, App::listen", "src/router/route_trie.rs: search_route", "src/middleware/logger.rs: Logger::handle"]}
{"id": "C108", "title": "The value of a parameter does not decide where a request goes", "statement": "If a request has a value for a parameter, then with any other segment in the place of this value (whatever its characters: a star, a colon, a text that is registered elsewhere) it is served by the same handler, for every method, or has none as before, inside the same middlewares; this parameter has the new value, and all other parameters have the same values as before.", "quantifier": "all sequences of registrations, nested to any depth, all requests, all values; registered paths are in the documented syntax (a colon only at the beginning of a segment, see C65)", "why_tests_cant": "All tables, requests and values: which values take another way through the tree is exactly what a test would have to guess.", "anchors": ["src/context.rs: param", "src/router/route_trie.rs: search_route, get_next_node, process_insertion, get_insertion_action", "src/app.rs: AppServer::resolve_endpoint"]}
{"id": "C109", "title": "All methods are treated alike", "statement": "If the methods are interchanged in all registrations (get becomes post, post becomes delete and so on), the same registrations are accepted, the others panic with the same message up to the method that it names, and every request with the interchanged method finds the same handler, middlewares and parameters: no method has a part of its own, neither among those that can be registered nor among the others (HEAD, OPTIONS, extensions).", "quantifier": "all sequences of registrations, nested to any depth, also after caught panics, all path strings, all injective maps of methods that take registrable methods to registrable ones, all requests", "why_tests_cant": "It compares all tables with all their interchanged ones on all requests with all methods, of which there are infinitely many.", "anchors": ["src/router.rs: get, post, put, patch, delete, use_router", "src/router/resource.rs: add_route, get_route", "src/router/route_trie.rs: insert_route, insert_default_route, insert_sub_route, search_route", "src/app.rs: App::get, App::post, App::put, App::patch, App::delete, AppServer::resolve_endpoint"]}
{"id": "C110", "title": "Handlers behind a middleware that adds data find the data", "statement": "If a middleware added with use_service_to(Q) (or use_service) only ever passes on contexts in which a certain datum is present, and no middleware that can be called after it removes it, then every handler registered at Q or below it is only ever called with such contexts: what the handler would do without the datum (for example panic in unwrap) makes no difference to any request. The same holds for all handlers and the application state. Of two middlewares that set the same datum, the one of the outer path is called last and its value is the one the handler finds.", "quantifier": "all pairs of applications that differ only in what handlers at or below Q do without the datum, all requests, all conditions on contexts; registered paths and the path in the documented syntax; registered paths are in the documented syntax (a colon only at the beginning of a segment, see C65)", "why_tests_cant": "A non-interference property over all pairs of applications, all requests and all middlewares.", "anchors": ["src/app.rs: App::use_service_to, set_app_state, resolve_endpoint, EndpointExecutor::next", "src/context.rs: add, get", "src/router/route_trie.rs: search_route, get_next_node"]}
