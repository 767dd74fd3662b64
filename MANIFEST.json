{
 "claims": [
  {
   "property": "C01",
   "status": "proved",
   "theorems": [
    "Obsidian.Props.C01_static_routes_reachable",
    "Obsidian.Props.C01_direct"
   ],
   "note": "way through the tree, kept by every call; any path syntax"
  },
  {
   "property": "C02",
   "status": "proved",
   "theorems": [
    "Obsidian.Props.C02_parameter_routes_reachable"
   ],
   "note": "way through the tree, kept by every call; any path syntax"
  },
  {
   "property": "C03",
   "status": "proved",
   "theorems": [
    "Obsidian.Props.C03_wildcard_catches"
   ],
   "note": "log; proviso: no mount at a path ending in `*`. Registered paths: colon only at the beginning of a segment."
  },
  {
   "property": "C04",
   "status": "partial",
   "theorems": [
    "Obsidian.Props.C04_any_path_partial",
    "Obsidian.Props.C04_exact_partial",
    "Obsidian.Props.C04_false",
    "Obsidian.Props.C04_served_by_matching_route_partial",
    "Obsidian.Props.C04_registered_for_method"
   ],
   "note": "false: `/ab` is served by `/a/b`; partial: true once slashes are dropped; and exactly: served if and only if the request *leads to* the path (`Spec/Follow`: where slashes may be, which wildcard wins); for paths of any form (`C04_any_path_partial`): the path can be read off the request with some segments left out (`Spec/Reading`; places of the values in the tree, induction over insertions and over the search). Registered paths: colon only at the beginning of a segment."
  },
  {
   "property": "C05",
   "status": "proved",
   "theorems": [
    "Obsidian.Props.C05_exact",
    "Obsidian.Props.C05_unmatched_not_found"
   ],
   "note": "log; contrapositive of soundness (stated modulo slashes); `C05_exact`: found if and only if the request leads to a registered path. Registered paths: colon only at the beginning of a segment."
  },
  {
   "property": "C06",
   "status": "proved",
   "theorems": [
    "Obsidian.Props.C06_answers",
    "Obsidian.Props.C06_same_chain",
    "Obsidian.Props.C06_route",
    "Obsidian.Props.C06_middleware",
    "Obsidian.Props.C06_mount",
    "Obsidian.Props.C06_request",
    "Obsidian.Props.C06_programs",
    "Obsidian.Props.C06_spellings",
    "Obsidian.Props.C06_normal_form"
   ],
   "note": "every operation and the search factor through the segments, in arbitrary states"
  },
  {
   "property": "C07",
   "status": "proved",
   "theorems": [
    "Obsidian.Props.C07_answers",
    "Obsidian.Props.C07_order_irrelevant",
    "Obsidian.Props.C07_routes",
    "Obsidian.Props.C07_with_mounts",
    "Obsidian.Props.C07_answers_with_mounts"
   ],
   "note": "the log specification is invariant under permutations; with nested routers through C18 (`C07_with_mounts`). Registered paths: colon only at the beginning of a segment."
  },
  {
   "property": "C08",
   "status": "proved",
   "theorems": [
    "Obsidian.Props.C08_same_method",
    "Obsidian.Props.C08_same_method_any",
    "Obsidian.Props.C08_same_method_calls",
    "Obsidian.Props.C08_other_method"
   ],
   "note": "log; that a second registration panics also for any path syntax (way). Registered paths: colon only at the beginning of a segment."
  },
  {
   "property": "C09",
   "status": "proved",
   "theorems": [
    "Obsidian.Props.C09_route",
    "Obsidian.Props.C09_middleware",
    "Obsidian.Props.C09_mount"
   ],
   "note": "log: outcome of insertion characterised by the log. Registered paths: colon only at the beginning of a segment."
  },
  {
   "property": "C10",
   "status": "proved",
   "theorems": [
    "Obsidian.Props.C10_route",
    "Obsidian.Props.C10_middleware",
    "Obsidian.Props.C10_mount"
   ],
   "note": "induction over segments, arbitrary states"
  },
  {
   "property": "C11",
   "status": "partial",
   "theorems": [
    "Obsidian.Props.C11_false",
    "Obsidian.Props.C11_compatible_routes_partial"
   ],
   "note": "false: `/user/:id` and `/users`; partial from C09. Registered paths: colon only at the beginning of a segment."
  },
  {
   "property": "C12",
   "status": "proved",
   "theorems": [
    "Obsidian.Props.C12_globals_first",
    "Obsidian.Props.C12_services_first"
   ],
   "note": "invariant on all nodes of the tree; any path syntax"
  },
  {
   "property": "C13",
   "status": "proved",
   "theorems": [
    "Obsidian.Props.C13_matching_requests",
    "Obsidian.Props.C13_served_handlers"
   ],
   "note": "by request: way, any path syntax; by handler: log. Registered paths: colon only at the beginning of a segment."
  },
  {
   "property": "C14",
   "status": "partial",
   "theorems": [
    "Obsidian.Props.C14_any_path_partial",
    "Obsidian.Props.C14_false",
    "Obsidian.Props.C14_only_below_partial"
   ],
   "note": "false: middleware of `/ad` runs for `/admin`; partial modulo slashes; for paths of any form as in C04. Registered paths: colon only at the beginning of a segment."
  },
  {
   "property": "C15",
   "status": "partial",
   "theorems": [
    "Obsidian.Props.C15_false",
    "Obsidian.Props.C15_chain_order_partial",
    "Obsidian.Props.C15_inner_first_partial"
   ],
   "note": "false: inner before outer (except global ones); partial: the exact order. Registered paths: colon only at the beginning of a segment."
  },
  {
   "property": "C16",
   "status": "partial",
   "theorems": [
    "Obsidian.Props.C16_false",
    "Obsidian.Props.C16_takes_effect_partial"
   ],
   "note": "false for `/` (silently ignored); partial for other paths. Registered paths: colon only at the beginning of a segment."
  },
  {
   "property": "C17",
   "status": "partial",
   "theorems": [
    "Obsidian.Props.C17_only_wildcards_partial",
    "Obsidian.Props.C17_false",
    "Obsidian.Props.C17_routing_unchanged_partial",
    "Obsidian.Props.C17_matching_requests_partial"
   ],
   "note": "false: a node with only a middleware hides a wildcard; partial: if the path has an entry already; requests that are found stay found, and requests that are served keep handler and parameters, unless a wildcard serves them and the middleware's path begins with the characters before it (`C17_only_wildcards_partial`, from C51). Registered paths: colon only at the beginning of a segment."
  },
  {
   "property": "C18",
   "status": "proved",
   "theorems": [
    "Obsidian.Props.C18_answers",
    "Obsidian.Props.C18_mount_is_prefixing",
    "Obsidian.Props.C18_same_cases",
    "Obsidian.Props.C18_requests_below",
    "Obsidian.Props.C18_nothing_nested"
   ],
   "note": "structural, for paths of any form: an insertion has a focus (`Proofs/Focus`), the nested calls are made at the focus (`Proofs/Prefix`); the very same router results, and where an empty router can be mounted the same programs are accepted (`C18_same_cases`); by recursion over the nesting all mounts can be removed (`C18_nothing_nested`); single requests below the mount: log, `Shift`, documented syntax"
  },
  {
   "property": "C19",
   "status": "partial",
   "theorems": [
    "Obsidian.Props.C19_false",
    "Obsidian.Props.C19_mount_keeps_routes_partial"
   ],
   "note": "false at the root (table replaced); partial for other paths"
  },
  {
   "property": "C20",
   "status": "partial",
   "theorems": [
    "Obsidian.Props.C20_false",
    "Obsidian.Props.C20_conflict_partial",
    "Obsidian.Props.C20_any_router_partial"
   ],
   "note": "false: a mount at `/api` is rejected because of `/apix`; partial: exact in terms of the characters; whether a router can be mounted does not depend on the router (`C20_any_router_partial`, paths of any form). Registered paths: colon only at the beginning of a segment."
  },
  {
   "property": "C21",
   "status": "proved",
   "theorems": [
    "Obsidian.Props.C21_lookup_total"
   ],
   "note": "induction over arbitrary trees"
  },
  {
   "property": "C22",
   "status": "proved",
   "theorems": [
    "Obsidian.Props.C22_route",
    "Obsidian.Props.C22_middleware",
    "Obsidian.Props.C22_mount",
    "Obsidian.Props.C22_programs"
   ],
   "note": "induction over arbitrary trees"
  },
  {
   "property": "C23",
   "status": "partial",
   "theorems": [
    "Obsidian.Props.C23_exact_partial",
    "Obsidian.Props.C23_false",
    "Obsidian.Props.C23_parameters_of_matched_route_partial"
   ],
   "note": "false: a request spelling out `:id` is served without the parameter; partial: nothing leaks, and all are bound if the request has no colon, or only at the beginning of segments. Registered paths: colon only at the beginning of a segment."
  },
  {
   "property": "C24",
   "status": "proved",
   "theorems": [
    "Obsidian.Props.C24_no_handler",
    "Obsidian.Props.C24_only_registered_methods",
    "Obsidian.Props.C24_handler_runs",
    "Obsidian.Props.C24_any_path"
   ],
   "note": "case analysis; log for the registered methods; provenance invariant of the tree for paths of any form (`C24_any_path`)"
  },
  {
   "property": "C25",
   "status": "proved",
   "theorems": [
    "Obsidian.Props.C25_unknown_paths"
   ],
   "note": "case analysis"
  },
  {
   "property": "C26",
   "status": "proved",
   "theorems": [
    "Obsidian.Props.C26_forwarding_chain",
    "Obsidian.Props.C26_requests"
   ],
   "note": "induction over the chain"
  },
  {
   "property": "C27",
   "status": "proved",
   "theorems": [
    "Obsidian.Props.C27_chain",
    "Obsidian.Props.C27_short_circuit",
    "Obsidian.Props.C27_rest_irrelevant",
    "Obsidian.Props.C27_handler_at_most_once"
   ],
   "note": "induction over the chain"
  },
  {
   "property": "C28",
   "status": "proved",
   "theorems": [
    "Obsidian.Props.C28_errors_are_500",
    "Obsidian.Props.C28_texts"
   ],
   "note": "case analysis"
  },
  {
   "property": "C29",
   "status": "proved",
   "theorems": [
    "Obsidian.Props.C29_built_response_is_sent"
   ],
   "note": "case analysis"
  },
  {
   "property": "C30",
   "status": "partial",
   "theorems": [
    "Obsidian.Props.C30_false",
    "Obsidian.Props.C30_false_panic",
    "Obsidian.Props.C30_last_values_partial"
   ],
   "note": "false for repeated names and invalid values (panic); partial: last value per name"
  },
  {
   "property": "C31",
   "status": "partial",
   "theorems": [
    "Obsidian.Props.C31_false",
    "Obsidian.Props.C31_logger_transparent_partial",
    "Obsidian.Props.C31_default_app_partial"
   ],
   "note": "false: panics if there is no response; partial otherwise"
  },
  {
   "property": "C32",
   "status": "proved",
   "theorems": [
    "Obsidian.Props.C32_state_reaches_requests"
   ],
   "note": "induction over configuration calls and requests"
  },
  {
   "property": "C33",
   "status": "proved",
   "theorems": [
    "Obsidian.Props.C33_typed_store",
    "Obsidian.Props.C33_get_add"
   ],
   "note": "induction over operations"
  },
  {
   "property": "C34",
   "status": "proved",
   "theorems": [
    "Obsidian.Props.C34_read_empties",
    "Obsidian.Props.C34_second_read"
   ],
   "note": "case analysis"
  },
  {
   "property": "C35",
   "status": "proved",
   "theorems": [
    "Obsidian.Props.C35_query",
    "Obsidian.Props.C35_entries"
   ],
   "note": "induction over the pairs"
  },
  {
   "property": "C36",
   "status": "proved",
   "theorems": [
    "Obsidian.Props.C36_struct",
    "Obsidian.Props.C36_map",
    "Obsidian.Props.C36_form"
   ],
   "note": "permutations of entries"
  },
  {
   "property": "C37",
   "status": "proved",
   "theorems": [
    "Obsidian.Props.C37_names",
    "Obsidian.Props.C37_struct",
    "Obsidian.Props.C37_form",
    "Obsidian.Props.C37_values",
    "Obsidian.Props.C37_missing"
   ],
   "note": "induction over entries; meaning of scalar texts given independently"
  },
  {
   "property": "C38",
   "status": "proved",
   "theorems": [
    "Obsidian.Props.C38_form",
    "Obsidian.Props.C38_context",
    "Obsidian.Props.C38_terminates"
   ],
   "note": "induction; parse_queries drops empty values"
  },
  {
   "property": "C39",
   "status": "partial",
   "theorems": [
    "Obsidian.Props.C39_false",
    "Obsidian.Props.C39_false_json",
    "Obsidian.Props.C39_single_chunk_partial",
    "Obsidian.Props.C39_first_chunk",
    "Obsidian.Props.C39_false_urlencoded"
   ],
   "note": "false: only the first chunk; partial: single chunk; `C39_first_chunk`: exactly the first non-empty chunk of any readable body is decoded"
  },
  {
   "property": "C40",
   "status": "partial",
   "theorems": [
    "Obsidian.Props.C40_false",
    "Obsidian.Props.C40_non_empty_partial",
    "Obsidian.Props.C40_exactly"
   ],
   "note": "false: elements lost; partial: non-empty values; `C40_exactly`: the one outcome for any value list (which values are skipped or lost, which error, when it panics), for element types of one text (scalars, `()`, newtypes, options of them); missing: optional lists and tuples as elements"
  },
  {
   "property": "C41",
   "status": "proved",
   "theorems": [
    "Obsidian.Props.C41_integers",
    "Obsidian.Props.C41_round_trip"
   ],
   "note": "arithmetic induction against an independent `number`"
  },
  {
   "property": "C42",
   "status": "proved",
   "theorems": [
    "Obsidian.Props.C42_behind_watchers",
    "Obsidian.Props.C42_dir_behind_watchers",
    "Obsidian.Props.C42_handler",
    "Obsidian.Props.C42_use_static_to",
    "Obsidian.Props.C42_use_static",
    "Obsidian.Props.C42_alone"
   ],
   "note": "equational, log for routing; behind middlewares that only watch by C83 for single requests. Registered paths: colon only at the beginning of a segment."
  },
  {
   "property": "C43",
   "status": "partial",
   "theorems": [
    "Obsidian.Props.C43_false",
    "Obsidian.Props.C43_no_dots_partial",
    "Obsidian.Props.C43_use_static_partial",
    "Obsidian.Props.C43_false_slashes",
    "Obsidian.Props.C43_exactly_partial"
   ],
   "note": "false: `..` is not filtered; partial: no `..`; and for `use_static_to` exactly (`C43_exactly_partial`): a request stays in the directory, whichever it is, if and only if its pieces never go up further than they went down (induction over the pieces; otherwise a directory with a name that does not occur in them is left)"
  },
  {
   "property": "C44",
   "status": "partial",
   "theorems": [
    "Obsidian.Props.C44_behind_watchers",
    "Obsidian.Props.C44_in_scopes",
    "Obsidian.Props.C44_false",
    "Obsidian.Props.C44_root_partial"
   ],
   "note": "false: prefix of the scope is not skipped; partial: what is served instead, and at the root; also behind middlewares that only watch (by C83). Registered paths: colon only at the beginning of a segment."
  },
  {
   "property": "C45",
   "status": "proved",
   "theorems": [
    "Obsidian.Props.C45_calls",
    "Obsidian.Props.C45_invalid_names",
    "Obsidian.Props.C45_builder"
   ],
   "note": "induction over calls"
  },
  {
   "property": "C46",
   "status": "proved",
   "theorems": [
    "Obsidian.Props.C46_param",
    "Obsidian.Props.C46_stable"
   ],
   "note": "case analysis"
  },
  {
   "property": "C47",
   "status": "partial",
   "theorems": [
    "Obsidian.Props.C47_false_root",
    "Obsidian.Props.C47_false_param",
    "Obsidian.Props.C47_bare_prefix_partial"
   ],
   "note": "false at the root and after parameters; partial otherwise. Registered paths: colon only at the beginning of a segment."
  },
  {
   "property": "C48",
   "status": "proved",
   "theorems": [
    "Obsidian.Props.C48_isolation",
    "Obsidian.Props.C48_no_blocking"
   ],
   "note": "invariant over schedules"
  },
  {
   "property": "C49",
   "status": "partial",
   "theorems": [
    "Obsidian.Props.C49_false",
    "Obsidian.Props.C49_routes_survive_panics_partial",
    "Obsidian.Props.C49_false_wildcard",
    "Obsidian.Props.C49_only_wildcards_partial"
   ],
   "note": "false: a duplicate has already replaced the handler; also false for requests served by a wildcard (`C49_false_wildcard`: a rejected ambiguous path has split a node); partial: wildcard-free routes; of every request: found stays found, and the handler changes only in these two cases (`C49_only_wildcards_partial`). Registered paths: colon only at the beginning of a segment."
  },
  {
   "property": "C50",
   "status": "proved",
   "theorems": [
    "Obsidian.Props.C50_parameter_is_one_segment"
   ],
   "note": "invariant of the search: every stored value is a whole segment of the request; paths of any form"
  },
  {
   "property": "C51",
   "status": "partial",
   "theorems": [
    "Obsidian.Props.C51_other_section_partial",
    "Obsidian.Props.C51_below_partial",
    "Obsidian.Props.C51_only_wildcards_partial",
    "Obsidian.Props.C51_false",
    "Obsidian.Props.C51_false_unknown",
    "Obsidian.Props.C51_further_registrations_partial"
   ],
   "note": "false: with `/*` and `/ab`, registering `/ac` makes `/a/b` go to `/ab` (also without `/*`, where it was answered with 404: `C51_false_unknown`); partial: requests that match a wildcard-free route keep it; if all new paths begin with a character with which no old path begins, every request that does not begin with it (also one served by a wildcard, or by nothing) is found, dispatched and given parameters as before (`C51_other_section_partial`); for any new paths: who is found stays found, and only requests that a wildcard serves can get another handler, and only if a new path begins with the characters before the wildcard (`C51_only_wildcards_partial`: induction along two paths that one request follows, in the old and in the new table)"
  },
  {
   "property": "C52",
   "status": "partial",
   "theorems": [
    "Obsidian.Props.C52_mounted_routes_partial",
    "Obsidian.Props.C52_false"
   ],
   "note": "false under `*`; partial otherwise"
  },
  {
   "property": "C53",
   "status": "partial",
   "theorems": [
    "Obsidian.Props.C53_false",
    "Obsidian.Props.C53_handler_at_most_once_partial"
   ],
   "note": "false: a middleware may call the rest twice; partial: middlewares that call it at most once"
  },
  {
   "property": "C54",
   "status": "partial",
   "theorems": [
    "Obsidian.Props.C54_false",
    "Obsidian.Props.C54_from_cow_map_partial"
   ],
   "note": "false: empty value lists, empty values in sequences of options; partial, for every target: maps whose lists of values are not empty and fit their types"
  },
  {
   "property": "C55",
   "status": "partial",
   "theorems": [
    "Obsidian.Props.C55_false",
    "Obsidian.Props.C55_structs_and_maps_partial"
   ],
   "note": "false: `String` takes the first key; partial: structs and maps"
  },
  {
   "property": "C56",
   "status": "partial",
   "theorems": [
    "Obsidian.Props.C56_false",
    "Obsidian.Props.C56_relative_partial"
   ],
   "note": "false: the leading slash is lost; partial: relative ones"
  },
  {
   "property": "C57",
   "status": "partial",
   "theorems": [
    "Obsidian.Props.C57_false",
    "Obsidian.Props.C57_text_partial"
   ],
   "note": "false: not UTF-8 gives 404; partial: text files"
  },
  {
   "property": "C58",
   "status": "proved",
   "theorems": [
    "Obsidian.Props.C58_build_behind_watchers",
    "Obsidian.Props.C58_json_behind_watchers",
    "Obsidian.Props.C58_file_behind_watchers",
    "Obsidian.Props.C58_json_on_the_wire",
    "Obsidian.Props.C58_file_on_the_wire",
    "Obsidian.Props.C58_values",
    "Obsidian.Props.C58_starts",
    "Obsidian.Props.C58_build_on_the_wire",
    "Obsidian.Props.C58_bytes_round_trip"
   ],
   "note": "composition; JSON arrays read back by an independent reader; behind middlewares that only watch by C83 for single requests"
  },
  {
   "property": "C59",
   "status": "partial",
   "theorems": [
    "Obsidian.Props.C59_false",
    "Obsidian.Props.C59_logged_partial"
   ],
   "note": "false: 404s are not logged; partial: found routes"
  },
  {
   "property": "C60",
   "status": "partial",
   "theorems": [
    "Obsidian.Props.C60_false",
    "Obsidian.Props.C60_other_methods",
    "Obsidian.Props.C60_head_partial"
   ],
   "note": "false: HEAD is never handled; partial: true where there is no GET handler; what other methods get is proved"
  },
  {
   "property": "C61",
   "status": "proved",
   "theorems": [
    "Obsidian.Props.C61_every_request_finishes",
    "Obsidian.Props.C61_every_request_is_answered"
   ],
   "note": "well-founded progress"
  },
  {
   "property": "C62",
   "status": "proved",
   "theorems": [
    "Obsidian.Props.C62_query",
    "Obsidian.Props.C62_form",
    "Obsidian.Props.C62_struct",
    "Obsidian.Props.C62_any_writing",
    "Obsidian.Props.C62_every_input",
    "Obsidian.Props.C62_any_query",
    "Obsidian.Props.C62_texts"
   ],
   "note": "induction over the ways of writing; existence and uniqueness of the reading of every byte string"
  },
  {
   "property": "C63",
   "status": "partial",
   "theorems": [
    "Obsidian.Props.C63_false",
    "Obsidian.Props.C63_false_route",
    "Obsidian.Props.C63_plain_partial"
   ],
   "note": "false: nothing is decoded; partial: exactly the texts without `%`"
  },
  {
   "property": "C64",
   "status": "partial",
   "theorems": [
    "Obsidian.Props.C64_behind_watchers_partial",
    "Obsidian.Props.C64_false",
    "Obsidian.Props.C64_typed_partial"
   ],
   "note": "false for `(status, text)`, files; partial: texts, JSON, explicit types, also behind middlewares that only watch"
  },
  {
   "property": "C65",
   "status": "partial",
   "theorems": [
    "Obsidian.Props.C65_false_skipped",
    "Obsidian.Props.C65_reading_partial",
    "Obsidian.Props.C65_false",
    "Obsidian.Props.C65_false_ambiguous",
    "Obsidian.Props.C65_false_order",
    "Obsidian.Props.C65_own_requests_partial",
    "Obsidian.Props.C65_single_route_partial"
   ],
   "note": "false: they become parameters once a node starts there, the order of registration matters, and segments of a request can be skipped (`/a/c/d/x` is served by `/ac/x` next to `/a:b`); partial: what is accepted serves its own requests; a single route serves only them; whatever the calls, also after caught panics, a handler or middleware is only reached if its path can be read off the request with some segments left out"
  },
  {
   "property": "C66",
   "status": "proved",
   "theorems": [
    "Obsidian.Props.C66_output",
    "Obsidian.Props.C66_logged"
   ],
   "note": "invariant over all interleavings: the output is a merge of the outputs of the requests; with C59 for the logger's lines"
  },
  {
   "property": "C67",
   "status": "partial",
   "theorems": [
    "Obsidian.Props.C67_round_trip_partial",
    "Obsidian.Props.C67_false"
   ],
   "note": "false for empty texts and lists; partial: all other values, by induction over types and fields (`SentAs`, `Submits`), for all ways of url-encoding"
  },
  {
   "property": "C68",
   "status": "partial",
   "theorems": [
    "Obsidian.Props.C68_false",
    "Obsidian.Props.C68_all_values_partial"
   ],
   "note": "false: second values of scalars, surplus values of tuples, further characters; partial: lists, single values, aliases, denied unknown fields"
  },
  {
   "property": "C69",
   "status": "partial",
   "theorems": [
    "Obsidian.Props.C69_false",
    "Obsidian.Props.C69_as_if_absent_partial"
   ],
   "note": "false: dropped; partial: as if absent (default, None)"
  },
  {
   "property": "C70",
   "status": "partial",
   "theorems": [
    "Obsidian.Props.C70_false",
    "Obsidian.Props.C70_refused_partial"
   ],
   "note": "false: always refused; partial: an error whenever there is a value, default or None otherwise, at any depth of the type"
  },
  {
   "property": "C71",
   "status": "partial",
   "theorems": [
    "Obsidian.Props.C71_false",
    "Obsidian.Props.C71_maps_partial"
   ],
   "note": "false: number keys and wrapped types are refused; partial: String keys with any type of values, exactly"
  },
  {
   "property": "C72",
   "status": "proved",
   "theorems": [
    "Obsidian.Props.C72_most_specific"
   ],
   "note": "the place found by the specification's lookup against every other matching entry: equal for wildcard-free ones, extends the prefix for wildcards. Registered paths: colon only at the beginning of a segment."
  },
  {
   "property": "C73",
   "status": "partial",
   "theorems": [
    "Obsidian.Props.C73_false_method",
    "Obsidian.Props.C73_false_middleware",
    "Obsidian.Props.C73_wildcard_partial",
    "Obsidian.Props.C73_no_wildcard_partial"
   ],
   "note": "false: a route of another method, or a middleware, hides a wildcard; partial: routes without wildcard; wildcards that no other path hides. Registered paths: colon only at the beginning of a segment."
  },
  {
   "property": "C74",
   "status": "partial",
   "theorems": [
    "Obsidian.Props.C74_false",
    "Obsidian.Props.C74_all_parameters_partial",
    "Obsidian.Props.C74_wildcard_parameters_partial"
   ],
   "note": "false: for equal names only the leftmost value is kept; partial: different names. Registered paths: colon only at the beginning of a segment."
  },
  {
   "property": "C75",
   "status": "partial",
   "theorems": [
    "Obsidian.Props.C75_false",
    "Obsidian.Props.C75_handled_partial"
   ],
   "note": "false: nothing runs for unknown paths and methods; partial: handled requests"
  },
  {
   "property": "C76",
   "status": "partial",
   "theorems": [
    "Obsidian.Props.C76_false",
    "Obsidian.Props.C76_plain_partial"
   ],
   "note": "false: not decoded; partial: names sent without percent signs"
  },
  {
   "property": "C77",
   "status": "partial",
   "theorems": [
    "Obsidian.Props.C77_accepted",
    "Obsidian.Props.C77_false",
    "Obsidian.Props.C77_pages_partial",
    "Obsidian.Props.C77_texts_partial"
   ],
   "note": "false: `/ab` gets the page `/a/b`; partial: exactly which page each path gets (`Page.Answers`), and the responses for text pages; acceptance proved"
  },
  {
   "property": "C78",
   "status": "proved",
   "theorems": [
    "Obsidian.Props.C78_json",
    "Obsidian.Props.C78_hello_world",
    "Obsidian.Props.C78_app_state"
   ],
   "note": "from C77 for the one page, and C58 for the response: all requests"
  },
  {
   "property": "C79",
   "status": "proved",
   "theorems": [
    "Obsidian.Props.C79_registrations",
    "Obsidian.Props.C79_order"
   ],
   "note": "induction over the calls: the registrations run on the router, the state is the last one"
  },
  {
   "property": "C80",
   "status": "partial",
   "theorems": [
    "Obsidian.Props.C80_integer_route_partial",
    "Obsidian.Props.C80_false"
   ],
   "note": "false: `/users:id` is not answered with 404; partial: all other requests, from `C04_exact_partial` for the one entry"
  },
  {
   "property": "C81",
   "status": "partial",
   "theorems": [
    "Obsidian.Props.C81_behind_watchers_partial",
    "Obsidian.Props.C81_anywhere_partial",
    "Obsidian.Props.C81_service_partial",
    "Obsidian.Props.C81_echo_partial",
    "Obsidian.Props.C81_false"
   ],
   "note": "false: bodies in several chunks; partial: all other requests, for any reader and writer, also for a handler anywhere in any application; leaving out slashes of the path makes no other path (C77); also behind middlewares that only watch (by C83)"
  },
  {
   "property": "C82",
   "status": "proved",
   "theorems": [
    "Obsidian.Props.C82_routing_blind",
    "Obsidian.Props.C82_renamed",
    "Obsidian.Props.C82_handled_alike",
    "Obsidian.Props.C82_replaced_handlers"
   ],
   "note": "relational induction: related programs build related trees, related trees give related lookups; for applications with any relation that the middlewares respect"
  },
  {
   "property": "C83",
   "status": "proved",
   "theorems": [
    "Obsidian.Props.C83_logger_watches",
    "Obsidian.Props.C83_behind_watchers",
    "Obsidian.Props.C83_watching",
    "Obsidian.Props.C83_loggers"
   ],
   "note": "the same induction with more middlewares at the root, `Merged` chains; for single requests and any middlewares that only watch, wherever registered: simulation with the router stripped of middlewares"
  },
  {
   "property": "C84",
   "status": "proved",
   "theorems": [
    "Obsidian.Props.C84_struct",
    "Obsidian.Props.C84_map",
    "Obsidian.Props.C84_scalars",
    "Obsidian.Props.C84_integers"
   ],
   "note": "the decoder refines `Complains` (mutual induction over types), invariant of the loop over entries"
  },
  {
   "property": "C85",
   "status": "partial",
   "theorems": [
    "Obsidian.Props.C85_behind_watchers_partial",
    "Obsidian.Props.C85_anywhere_partial",
    "Obsidian.Props.C85_service_partial",
    "Obsidian.Props.C85_submitted_partial",
    "Obsidian.Props.C85_false"
   ],
   "note": "false: bodies in several chunks; partial: all other requests (C62, C67, C84), also for a handler anywhere in any application; leaving out slashes of the path makes no other path (C77); also behind middlewares that only watch (by C83)"
  },
  {
   "property": "C86",
   "status": "proved",
   "theorems": [
    "Obsidian.Props.C86_behind_watchers",
    "Obsidian.Props.C86_every_query",
    "Obsidian.Props.C86_anywhere",
    "Obsidian.Props.C86_service",
    "Obsidian.Props.C86_submitted"
   ],
   "note": "composition of C62, C37 and C84: a handler anywhere in any application, and with routing of one page at any fixed path: all requests; also behind middlewares that only watch (by C83)"
  },
  {
   "property": "C87",
   "status": "partial",
   "theorems": [
    "Obsidian.Props.C87_reordered_partial",
    "Obsidian.Props.C87_accepted_partial",
    "Obsidian.Props.C87_false"
   ],
   "note": "false: a nested router has to come before what is below its path (in characters); partial: which orders are accepted, exactly, and that accepted orders agree, from the log"
  },
  {
   "property": "C88",
   "status": "proved",
   "theorems": [
    "Obsidian.Props.C88_serving",
    "Obsidian.Props.C88_default"
   ],
   "note": "refinement: composition of `C04_exact_partial`, the chain of the log, `finish`; the specification is `Spec/Whole`"
  },
  {
   "property": "C89",
   "status": "partial",
   "theorems": [
    "Obsidian.Props.C89_pages_partial",
    "Obsidian.Props.C89_below_partial",
    "Obsidian.Props.C89_files_partial",
    "Obsidian.Props.C89_accepted",
    "Obsidian.Props.C89_others_partial",
    "Obsidian.Props.C89_total_partial",
    "Obsidian.Props.C89_false",
    "Obsidian.Props.C89_user_partial"
   ],
   "note": "false: `GET /` without `Host` panics, `/testradix` gets the page `/test/radix`; partial: every page for every request with a visible host, 404 for all paths that are no page even without slashes, no other panics"
  },
  {
   "property": "C90",
   "status": "proved",
   "theorems": [
    "Obsidian.Props.C90_together",
    "Obsidian.Props.C90_counter"
   ],
   "note": "invariant over all interleavings (`SharedOK`): the steps done so far, each with its task, extend to a run of `serve` for every way of going on; counters by an invariant on what is still to be added (`CountOK`)"
  },
  {
   "property": "C91",
   "status": "proved",
   "theorems": [
    "Obsidian.Props.C91_in_order",
    "Obsidian.Props.C91_undisturbed",
    "Obsidian.Props.C91_answered",
    "Obsidian.Props.C91_shared",
    "Obsidian.Props.C91_closed",
    "Obsidian.Props.C91_kept",
    "Obsidian.Props.C91_idle",
    "Obsidian.Props.C91_one_client"
   ],
   "note": "projection of the server to one connection (`step_solo`), invariant \"sent ++ still to come = all responses\" for every continuation (`OnTrack`), liveness by induction on the waiting requests and the running computation (`delivers`); with a shared world an invariant as in C90 (`ConnsOK`); what is sent stays sent (`C91_kept`), a connection with nothing left to do has sent everything (`C91_idle`), and a single client gets exactly the run of its requests one after another, with world and printed lines (`C91_one_client`)"
  },
  {
   "property": "C92",
   "status": "proved",
   "theorems": [
    "Obsidian.Props.C92_behind_watchers",
    "Obsidian.Props.C92_names",
    "Obsidian.Props.C92_anywhere",
    "Obsidian.Props.C92_headers"
   ],
   "note": "byte table checked completely for ASCII and for bytes from 128 on, induction over the UTF-8 text; what is sent from C88's `finish_sends`; also behind middlewares that only watch (by C83)"
  },
  {
   "property": "C93",
   "status": "partial",
   "theorems": [
    "Obsidian.Props.C93_false",
    "Obsidian.Props.C93_parts",
    "Obsidian.Props.C93_read",
    "Obsidian.Props.C93_total",
    "Obsidian.Props.C93_texts_partial",
    "Obsidian.Props.C93_refused",
    "Obsidian.Props.C93_rest"
   ],
   "note": "the loop over the entries is that for the own fields plus a list of kept texts (induction); parts by induction over the kept texts, exact description `PartsValue` in both directions; false for numbers (witness), true for texts"
  },
  {
   "property": "C94",
   "status": "proved",
   "theorems": [
    "Obsidian.Props.C94_programs",
    "Obsidian.Props.C94_applications",
    "Obsidian.Props.C94_nested"
   ],
   "note": "exact outcome of each call on a represented table (`Rep.insertRoute` …), mutual induction over nested programs; `Stops` describes the first fault without the table and determines the panic up to the keys an ambiguity message names (`stops_unique`); `C94_nested` for paths of any form"
  },
  {
   "property": "C95",
   "status": "proved",
   "theorems": [
    "Obsidian.Props.C95_lookup_is_bounded"
   ],
   "note": "the counted lookup gives the same result (mutual induction over the tree); its counts are at most the size of the tree; an insertion adds at most two nodes for each segment and the characters of the path (`slight_processInsertion`, induction on the key), by mutual induction over nested programs. moved segments: the list of remaining segments never grows (mutual induction, keys are not empty). Not counted: splitting the request path, copying what is found"
  },
  {
   "property": "C96",
   "status": "partial",
   "theorems": [
    "Obsidian.Props.C96_false",
    "Obsidian.Props.C96_star_false",
    "Obsidian.Props.C96_guarded_partial",
    "Obsidian.Props.C96_barred_partial"
   ],
   "note": "false with a wildcard above the path (`/*` serves `/admin/secret` without the middleware of `/admin`), and for a guarded path that ends in `*`; partial: where a request below the path leads (induction along the guarded path: below it, or to a wildcard above it), so the guard is in the chain or the handler is one of a wildcard above; and without such wildcards: a guard that refuses makes all handlers irrelevant (induction over the chain). Refusing is a condition on the context that the other middlewares must keep (`Preserves`); middlewares of longer paths run before the guard (C15). Registered paths: colon only at the beginning of a segment."
  },
  {
   "property": "C97",
   "status": "proved",
   "theorems": [
    "Obsidian.Props.C97_behind_a_guard"
   ],
   "note": "lookup, chain and parameters depend only on the log without its handlers; a handler at or below the guarded path has the guard in its chain; a chain with a middleware that does not use what comes after it does not depend on the handler. Registered paths: colon only at the beginning of a segment."
  },
  {
   "property": "C98",
   "status": "proved",
   "theorems": [
    "Obsidian.Props.C98_errors"
   ],
   "note": "what each step of a part can say is described without the deserializer (`RejectsFlat`, `LacksFlat`, `PartComplaint`); induction over the kept texts and the parts; a complaint excludes a value (`complaint_not_value`), so the description is exact about when there is an error. Which of several refused texts is named depends on the order of the map, so the message is determined only up to that choice; maps after optional parts, and parts that share names with an optional part before them, are left out (`OptionApart`, see C100)"
  },
  {
   "property": "C99",
   "status": "proved",
   "theorems": [
    "Obsidian.Props.C99_no_splitting"
   ],
   "note": "every end of every computation of a task is sendable (induction over computations, invariant of the server); what is written, in the format of HTTP/1.1, is read back by a tolerant client (`Spec/Wire`; round trip by induction over the headers). That names are tokens is the invariant of the type `HeaderName` (C92). hyper's own headers and the transfer encoding of the body are not modelled"
  },
  {
   "property": "C100",
   "status": "partial",
   "theorems": [
    "Obsidian.Props.C100_false",
    "Obsidian.Props.C100_order_partial"
   ],
   "note": "false: an optional struct that cannot be read has already taken the texts that came before the bad one, and a map after it gets the rest (witness: `page=5&sort=up`); partial: if no part has to do with the texts of an optional part before it (`OptionApart`), from C93 in both directions and the uniqueness of the values"
  },
  {
   "property": "C101",
   "status": "partial",
   "theorems": [
    "Obsidian.Props.C101_false",
    "Obsidian.Props.C101_rejected_partial"
   ],
   "note": "false: the handler of a rejected duplicate serves the requests; partial: all other panics, paths of any form, any further calls (provenance invariant of the tree: every stored handler and middleware comes from a call that was not rejected)"
  },
  {
   "property": "C102",
   "status": "proved",
   "theorems": [
    "Obsidian.Props.C102_at_most_as_often_as_added",
    "Obsidian.Props.C102_programs",
    "Obsidian.Props.C102_chain_length",
    "Obsidian.Props.C102_started_at_most"
   ],
   "note": "counting invariant of the tree: the number of stored middlewares satisfying any predicate is at most the number added by calls that did not panic, and a search collects each stored one at most once; started-at-most for middlewares that use the rest of the chain at most once (C53 says that others exist)"
  },
  {
   "property": "C103",
   "status": "partial",
   "theorems": [
    "Obsidian.Props.C103_commuting_partial",
    "Obsidian.Props.C103_commuting_registrations_partial",
    "Obsidian.Props.C103_main_step_partial",
    "Obsidian.Props.C103_main_step_registrations_partial",
    "Obsidian.Props.C103_main_step_connections_partial",
    "Obsidian.Props.C103_one_after_another_partial",
    "Obsidian.Props.C103_registrations_partial",
    "Obsidian.Props.C103_false",
    "Obsidian.Props.C103_connections_partial",
    "Obsidian.Props.C103_apart_partial",
    "Obsidian.Props.C103_apart_registrations_partial"
   ],
   "note": "false in general: two requests whose handler reads a counter and sets it in another step leave a world that no order of serving them leaves (`C103_false`).  Proved if serving touches the world at most once (`Once`: before and after this step only output), for any registrations of such handlers with middlewares that do not touch the world themselves (the logger is one): forward simulation, the order is that of the steps, a request without a step counting when it is received; `C103_connections_partial`: the same for connections with several requests each, panics and clients that hang up (`ConnServer`).  `C103_commuting_partial` (and for registrations): any number of steps, if the changes commute and nobody looks at the world (counters), by the invariant that finishing what has begun gives the world after serving one by one.  `C103_main_step_partial`, `C103_main_step_registrations_partial`, `C103_main_step_connections_partial`: one step of any kind among any number of such changes, which it does not see (reduction in the style of Lipton: the invariant keeps what was changed before the main step and what is still to be changed after it, and moves both past everything else); about the world they speak only when no request is under way.  `C103_apart_partial`, `C103_apart_registrations_partial`: any number of steps that read and change, if each request works on one part of the world (such as a key of a map) and requests for the same part take turns; the order is that of arrival; invariant: finishing everything in order of arrival gives the world and the answers of serving one by one.  Parts may have counters in common that nobody looks at.  Missing: for several steps, the world while requests are under way; conditions for requests that overlap on the same part and are serialised by a lock held across steps"
  },
  {
   "property": "C104",
   "status": "partial",
   "theorems": [
    "Obsidian.Props.C104_names_partial",
    "Obsidian.Props.C104_false"
   ],
   "note": "false for requests with colons inside segments: `/a:id` is served by `/a/:id`, but not by `/a/:user` (`C104_false`).  Proved for all other requests, clean programs: paths as lists of characters and whole parameters (`Tok`); clashes, places, parameters, known places, lookups and chains are shown to commute with the renaming. Registered paths: colon only at the beginning of a segment."
  },
  {
   "property": "C105",
   "status": "proved",
   "theorems": [
    "Obsidian.Props.C105_characters",
    "Obsidian.Props.C105_characters_caught"
   ],
   "note": "every function of the model commutes with the replacement (induction over tree, segments and program); byte offsets are those of common beginnings"
  },
  {
   "property": "C106",
   "status": "proved",
   "theorems": [
    "Obsidian.Props.C106_elsewhere",
    "Obsidian.Props.C106_elsewhere_served",
    "Obsidian.Props.C106_nested_router",
    "Obsidian.Props.C106_outside_static",
    "Obsidian.Props.C106_slashes_needed"
   ],
   "note": "search on both logs at the same time: it stays away from P (`Away`), and away from P both logs say the same about parameters, ends of segments, forks, entries and middlewares; `C106_slashes_needed` shows why slashes are left out. Registered paths: colon only at the beginning of a segment."
  },
  {
   "property": "C107",
   "status": "proved",
   "theorems": [
    "Obsidian.Props.C107_apart",
    "Obsidian.Props.C107_any_order",
    "Obsidian.Props.C107_serving_uses",
    "Obsidian.Props.C107_registrations"
   ],
   "note": "invariant: every task, run to its end from now on, ends as it would alone, and untouched cells are unchanged; `C107_registrations` derives the used cells from the registered functions; examples: a counter per user that is read and set in two steps"
  },
  {
   "property": "C108",
   "status": "proved",
   "theorems": [
    "Obsidian.Props.C108_any_value",
    "Obsidian.Props.C108_syntax_needed"
   ],
   "note": "induction over the lookup in the registrations, which binds the value and does not look at it; `C108_syntax_needed`: with `/a:id` and `/ab` (a colon inside a segment) the value does decide. Registered paths: colon only at the beginning of a segment."
  },
  {
   "property": "C109",
   "status": "proved",
   "theorems": [
    "Obsidian.Props.C109_methods",
    "Obsidian.Props.C109_methods_caught"
   ],
   "note": "every function of the tree commutes with the interchange of methods, by induction; paths of any form, also after caught panics"
  },
  {
   "property": "C110",
   "status": "proved",
   "theorems": [
    "Obsidian.Props.C110_provided",
    "Obsidian.Props.C110_from_the_start",
    "Obsidian.Props.C110_app_state",
    "Obsidian.Props.C110_adding_provides",
    "Obsidian.Props.C110_adding_keeps",
    "Obsidian.Props.C110_logger_keeps",
    "Obsidian.Props.C110_needing_agree"
   ],
   "note": "two applications whose handlers agree where the condition holds are compared; the end of the chain from the middleware on is split off, and induction over it. Registered paths: colon only at the beginning of a segment."
  }
 ]
}
