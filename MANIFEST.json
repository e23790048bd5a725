{
 "claims": [
  {
   "property": "C01",
   "status": "proved",
   "theorems": [
    "Verif.Props.C01_quote_roundtrip",
    "Verif.Props.C01_filename_roundtrip_iff"
   ],
   "note": "Round trip for every string; the is_filename variant is characterised exactly (UNC paths)."
  },
  {
   "property": "C02",
   "status": "proved",
   "theorems": [
    "Verif.Props.C02_quote_wellformed",
    "Verif.Props.C02_quoted_string_unique"
   ],
   "note": "Every output is a token or one complete quoted-string."
  },
  {
   "property": "C03",
   "status": "partial",
   "theorems": [
    "Verif.Props.C03_list_roundtrip_false",
    "Verif.Props.C03_list_roundtrip_partial"
   ],
   "note": "The unrestricted claim is false (C03_list_roundtrip_false); the partial theorem is an exact iff saying which lists survive."
  },
  {
   "property": "C04",
   "status": "partial",
   "theorems": [
    "Verif.Props.C04_dict_roundtrip_false",
    "Verif.Props.C04_dict_roundtrip_partial",
    "Verif.Props.C04_last_wins"
   ],
   "note": "The unrestricted claim is false (C04_dict_roundtrip_false); the partial theorem is an exact iff."
  },
  {
   "property": "C05",
   "status": "partial",
   "theorems": [
    "Verif.Props.C05_parse_dump",
    "Verif.Props.C05_roundtrip_false",
    "Verif.Props.C05_roundtrip_partial",
    "Verif.Props.C05_last_wins"
   ],
   "note": "The unrestricted claim is false (C05_roundtrip_false); the partial theorem is an exact condition."
  },
  {
   "property": "C06",
   "status": "proved",
   "theorems": [
    "Verif.Props.C06_step",
    "Verif.Props.C06_no_newlines",
    "Verif.Props.C06_one_line_per_header",
    "Verif.Props.C06_unchecked_inputs"
   ],
   "note": "Over every history of calls, with the unchecked entry points named in C06_unchecked_inputs."
  },
  {
   "property": "C07",
   "status": "proved",
   "theorems": [
    "Verif.Props.C07_step",
    "Verif.Props.C07_refines",
    "Verif.Props.C07_refines_empty",
    "Verif.Props.C07_lookups",
    "Verif.Props.C07_getlist_exact"
   ],
   "note": "Refinement of a case-insensitive multimap."
  },
  {
   "property": "C08",
   "status": "proved",
   "theorems": [
    "Verif.Props.C08_set_in_place",
    "Verif.Props.C08_set_unique"
   ],
   "note": ""
  },
  {
   "property": "C09",
   "status": "proved",
   "theorems": [
    "Verif.Props.C09_atomic",
    "Verif.Props.C09_rejects_iff",
    "Verif.Props.C09_positions",
    "Verif.Props.C09_extend_not_atomic"
   ],
   "note": "Exact rejection condition; extend is the one call that is not atomic (C09_extend_not_atomic)."
  },
  {
   "property": "C10",
   "status": "partial",
   "theorems": [
    "Verif.Props.C10_coherence_false",
    "Verif.Props.C10_coherent_partial",
    "Verif.Props.C10_membership"
   ],
   "note": "False in general (C10_coherence_false); proved for histories without the calls that break it; C127 says exactly which these are."
  },
  {
   "property": "C11",
   "status": "partial",
   "theorems": [
    "Verif.Props.C11_range_in_bounds",
    "Verif.Props.C11_range_exact_partial",
    "Verif.Props.C11_suffix_false"
   ],
   "note": "Bounds for every range and length; the exact set of positions for every range but suffixes longer than the resource and of length zero (C11_suffix_false)."
  },
  {
   "property": "C12",
   "status": "proved",
   "theorems": [
    "Verif.Props.C12_parsed_ranges_wellformed"
   ],
   "note": ""
  },
  {
   "property": "C13",
   "status": "partial",
   "theorems": [
    "Verif.Props.C13_total_false",
    "Verif.Props.C13_total_partial",
    "Verif.Props.C13_raises_partial"
   ],
   "note": "False in general (C13_total_false). Proved for every syntactically valid list of items with no open ended item before the last. For every text, nothing but ValueError (for an item with a hyphen and no number) and TypeError (for an item behind an open ended one) is raised (C13_raises_partial)."
  },
  {
   "property": "C14",
   "status": "proved",
   "theorems": [
    "Verif.Props.C14_range_roundtrip"
   ],
   "note": ""
  },
  {
   "property": "C15",
   "status": "proved",
   "theorems": [
    "Verif.Props.C15_content_range_valid",
    "Verif.Props.C15_accepts_iff",
    "Verif.Props.C15_make_content_range",
    "Verif.Props.C15_parsed_valid",
    "Verif.Props.C15_content_range_roundtrip",
    "Verif.Props.C15_limits"
   ],
   "note": "Limits (raw attribute setters, stop beyond length, superscript digit) are stated in C15_limits."
  },
  {
   "property": "C16",
   "status": "proved",
   "theorems": [
    "Verif.Props.C16_etag_quote_roundtrip"
   ],
   "note": "Every tag without a double quote, weak and strong."
  },
  {
   "property": "C17",
   "status": "partial",
   "theorems": [
    "Verif.Props.C17_roundtrip_false",
    "Verif.Props.C17_header_roundtrip_partial"
   ],
   "note": "False for tags containing a quote or for a strong tag spelled W/... (C17_roundtrip_false); proved for all other sets."
  },
  {
   "property": "C18",
   "status": "partial",
   "theorems": [
    "Verif.Props.C18_terminates_false",
    "Verif.Props.C18_terminates_partial"
   ],
   "note": "False: an empty item makes the loop spin (C18_terminates_false); proved that it terminates exactly when every step consumes input."
  },
  {
   "property": "C19",
   "status": "partial",
   "theorems": [
    "Verif.Props.C19_weak_comparison_false",
    "Verif.Props.C19_decision_partial",
    "Verif.Props.C19_other_methods",
    "Verif.Props.C19_data"
   ],
   "note": "The decision table is proved; the claim that If-None-Match uses weak comparison is false (C19_weak_comparison_false)."
  },
  {
   "property": "C20",
   "status": "proved",
   "theorems": [
    "Verif.Props.C20_comparison",
    "Verif.Props.C20_wildcard"
   ],
   "note": ""
  },
  {
   "property": "C21",
   "status": "proved",
   "theorems": [
    "Verif.Props.C21_value_roundtrip"
   ],
   "note": "Every byte string."
  },
  {
   "property": "C22",
   "status": "proved",
   "theorems": [
    "Verif.Props.C22_value_safe",
    "Verif.Props.C22_no_injection"
   ],
   "note": "Value grammar plus the exact list of segments of the emitted header; names, expiry and path are not quoted by the code and must not contain ';'."
  },
  {
   "property": "C23",
   "status": "partial",
   "theorems": [
    "Verif.Props.C23_header_roundtrip",
    "Verif.Props.C23_dump_roundtrip_partial",
    "Verif.Props.C23_roundtrip_false"
   ],
   "note": "Request header round trip proved for every list of cookies. The dump_cookie round trip is false with Secure, HttpOnly or Domain (C23_roundtrip_false) and proved otherwise. Cookies given as text with their encoding are in C125."
  },
  {
   "property": "C24",
   "status": "proved",
   "theorems": [
    "Verif.Props.C24_init",
    "Verif.Props.C24_refines",
    "Verif.Props.C24_views"
   ],
   "note": "Refinement over every history, plus every view as a projection of the abstract map. update from the dictionary itself (which does not terminate in the code) is outside the model."
  },
  {
   "property": "C25",
   "status": "partial",
   "theorems": [
    "Verif.Props.C25_present_false",
    "Verif.Props.C25_present_partial"
   ],
   "note": "False: setlist(k, []) and setlistdefault(k) leave an unreadable key (C25_present_false); proved for histories that store no empty list."
  },
  {
   "property": "C26",
   "status": "partial",
   "theorems": [
    "Verif.Props.C26_history",
    "Verif.Props.C26_order_partial",
    "Verif.Props.C26_clear_false"
   ],
   "note": "Proved on the doubly linked bucket list for every history without clear (C26_order_partial). clear, inherited from dict, breaks it (C26_clear_false): with it, lookups follow the log since the last clear, and iteration gives that log behind everything held at each clear (C26_history, for every history)."
  },
  {
   "property": "C27",
   "status": "partial",
   "theorems": [
    "Verif.Props.C27_views_partial",
    "Verif.Props.C27_items",
    "Verif.Props.C27_get",
    "Verif.Props.C27_readonly",
    "Verif.Props.C27_to_dict_false"
   ],
   "note": "All views proved to agree except to_dict(flat=False), which is refuted (C27_to_dict_false). Wrapped dictionaries are MultiDicts."
  },
  {
   "property": "C28",
   "status": "partial",
   "theorems": [
    "Verif.Props.C28_dict",
    "Verif.Props.C28_ordered_headers",
    "Verif.Props.C28_immutable_false",
    "Verif.Props.C28_immutable_partial"
   ],
   "note": "Proved for dicts, ordered multi dicts and environ headers; refuted for ImmutableList.clear and for lists handed out by ImmutableMultiDict.listvalues."
  },
  {
   "property": "C29",
   "status": "partial",
   "theorems": [
    "Verif.Props.C29_multi_partial",
    "Verif.Props.C29_ordered_partial",
    "Verif.Props.C29_mixed_false"
   ],
   "note": "Proved within ImmutableMultiDict and within ImmutableOrderedMultiDict; refuted across the two and for CombinedMultiDict."
  },
  {
   "property": "C30",
   "status": "partial",
   "theorems": [
    "Verif.Props.C30_notify_partial",
    "Verif.Props.C30_silent",
    "Verif.Props.C30_mirror_partial",
    "Verif.Props.C30_update_false"
   ],
   "note": "Proved for every history without an update that raises half way; that case is refuted (C30_update_false)."
  },
  {
   "property": "C31",
   "status": "partial",
   "theorems": [
    "Verif.Stream.C31_limit_partial",
    "Verif.Stream.C31_limit_false"
   ],
   "note": "Proved for every history with permitted sizes (read: None, -1 or n >= 0; readline: None or n >= 0; exhaust: positive chunk) and every pattern of failing calls. Refuted for the rest: readline(-1) and read(-2) are passed to the wrapped stream and read past the limit."
  },
  {
   "property": "C32",
   "status": "partial",
   "theorems": [
    "Verif.Stream.C32_prefix_partial",
    "Verif.Stream.C32_readlines_false",
    "Verif.Stream.C32_short_reported",
    "Verif.Stream.C32_complete"
   ],
   "note": "Prefix and order proved for every history with permitted sizes in which readlines/exhaust succeed (on an error these drop what they read); completeness and reporting of short streams proved in full for permitted sizes. Refuted for readlines on a stream that fails in between (C32_readlines_false)."
  },
  {
   "property": "C33",
   "status": "proved",
   "theorems": [
    "Verif.LineIter.C33_lines",
    "Verif.LineIter.C33_chunking_irrelevant",
    "Verif.LineIter.C33_iterable"
   ],
   "note": "Lines is an independent inductive specification; it is shown to determine the lines uniquely."
  },
  {
   "property": "C34",
   "status": "partial",
   "theorems": [
    "Verif.LineIter.C34_lossless",
    "Verif.LineIter.C34_single_block_partial",
    "Verif.LineIter.C34_chunks_partial",
    "Verif.LineIter.C34_chunks_false"
   ],
   "note": "Exact for one-character separators with any block boundaries and for any separator in a single block; lossless for all. Refuted for longer separators: one divided by a block boundary is missed."
  },
  {
   "property": "C35",
   "status": "proved",
   "theorems": [
    "Verif.Wsgi.C35_mount"
   ],
   "note": "Longest matching mount wins; SCRIPT_NAME and PATH_INFO are moved exactly; the default application gets the rest. Observed: with a path that does not start with '/', the default application has the first segment moved to SCRIPT_NAME."
  },
  {
   "property": "C36",
   "status": "proved",
   "theorems": [
    "Verif.Wsgi.C36_no_escape"
   ],
   "note": "Every file served lies inside its exported directory after resolving '.' and '..' lexically; exports of packages and of loader callables included. Symbolic links inside an exported directory are outside the model (the filesystem is a predicate on paths)."
  },
  {
   "property": "C37",
   "status": "partial",
   "theorems": [
    "Verif.Wsgi.C37_sound",
    "Verif.Wsgi.C37_exact_partial",
    "Verif.Wsgi.C37_ports_partial",
    "Verif.Wsgi.C37_source",
    "Verif.Wsgi.C37_subdomain_false",
    "Verif.Wsgi.C37_dotted_raises",
    "Verif.Wsgi.C37_get_host"
   ],
   "note": "Soundness for every list and host, exact decision for lists without dotted entries. Refuted for dotted entries: every host that reaches one without being its own name raises TypeError (bytes.endswith given a str), so subdomains are never accepted."
  },
  {
   "property": "C38",
   "status": "proved",
   "theorems": [
    "Verif.Utils.C38_safe",
    "Verif.Utils.C38_posix_head",
    "Verif.Utils.C38_windows_device",
    "Verif.Utils.C38_directories",
    "Verif.Utils.C38_idempotent"
   ],
   "note": "For every string and any NFKD function: only safe characters, no separator, not '.' or '..', no leading or trailing dot or underscore (posix), device names guarded on Windows, idempotent."
  },
  {
   "property": "C39",
   "status": "partial",
   "theorems": [
    "Verif.Urls.C39_scan",
    "Verif.Urls.C39_delimiters",
    "Verif.Urls.C39_meaning_partial",
    "Verif.Urls.C39_reserved",
    "Verif.Urls.C39_meaning_false"
   ],
   "note": "Decoding is exactly the scan of the specification for every string; delimiters are never created or removed; meaning kept for well formed text. Refuted for malformed text (%%34%31). The UTF-8 decoding after unquoting is in C129."
  },
  {
   "property": "C40",
   "status": "proved",
   "theorems": [
    "Verif.Dispatch.C40_lookup",
    "Verif.Dispatch.C40_sound",
    "Verif.Dispatch.C40_view"
   ],
   "note": "After every history of adding views and nesting dispatchers, lookup equals the specification read off the list of additions; statuses 501 and 405 exactly; HEAD falls back to GET. Adding a dispatcher to itself does not terminate and is left out."
  },
  {
   "property": "C41",
   "status": "partial",
   "theorems": [
    "Verif.Accept.C41_sound",
    "Verif.Accept.C41_complete_partial",
    "Verif.Accept.C41_complete_false"
   ],
   "note": "Soundness for every offer and header with respect to the content type. Completeness for offers without language and charset and well formed ranges. Refuted for the rest: Accept-Language and Accept-Charset are ignored, a language without content type raises AttributeError, two charsets raise TypeError, malformed headers raise ValueError."
  },
  {
   "property": "C42",
   "status": "partial",
   "theorems": [
    "Verif.Accept.C42_later_partial",
    "Verif.Accept.C42_concrete_partial",
    "Verif.Accept.C42_best_false",
    "Verif.Props.AcceptB.C42_wildcards_partial",
    "Verif.Props.AcceptB.C42_typed_partial",
    "Verif.Props.AcceptB.C42_typed_limits"
   ],
   "note": "Refuted with wildcards (the comparison is not transitive): an offer worse in match and quality than another is selected, and the order of ranges matters. Proved: later offers always compare as worse; with concrete ranges the selected one has the largest quality; with wildcards, when no general range gives more than a more specific one, no offer exceeds the selected one in specificity or in quality, and it is the last of the equal ones (C42_wildcards_partial). Offers with a content type are preferred to those without when all have the same quality of their own (C42_typed_partial), but not otherwise (C42_typed_limits)."
  },
  {
   "property": "C43",
   "status": "partial",
   "theorems": [
    "Verif.Accept.C43_zero_partial",
    "Verif.Accept.C43_zero_false",
    "Verif.Props.AcceptB.C43_wildcards_partial"
   ],
   "note": "Refuted: q=0 does not exclude. Proved: with concrete ranges a q=0 offer is never chosen when one with positive quality exists; the same with wildcards, when no general range gives more than a more specific one (C43_wildcards_partial)."
  },
  {
   "property": "C44",
   "status": "proved",
   "theorems": [
    "Verif.Dispatch.C44_lookup"
   ],
   "note": "Exact for every handler table, resolution order and negotiation outcome."
  },
  {
   "property": "C45",
   "status": "partial",
   "theorems": [
    "Verif.Dispatch.C45_nested_false",
    "Verif.Dispatch.C45_nested_partial"
   ],
   "note": "Refuted: adding any dispatcher with a handler raises AttributeError; only an empty one can be added."
  },
  {
   "property": "C46",
   "status": "partial",
   "theorems": [
    "Verif.Props.CanonP.C46_independent_false",
    "Verif.Props.RoutingP.C46_best_partial",
    "Verif.Props.RoutingP.C46_outcome_partial",
    "Verif.Props.RoutingP.C46_not_found_partial",
    "Verif.Props.RoutingP.C46_independent_partial",
    "Verif.Props.RoutingP.C46_order_false"
   ],
   "note": "C46_best_partial: for every history of add_routes calls and lookups in which no failed add_routes call is pending, a found route is a registered route that matches, and every other matching route is less specific or registered later. C46_outcome_partial: the same route decides redirects. C46_not_found_partial: NotFound exactly when no registered route matches, provided no converter raises NotFound itself. C46_independent_partial: routes of distinct specificity give the same answer in any order of registration, when default and alias redirects are off or unused. C46_order_false: after an add_routes call that fails half way the claim is false (a route that was kept is used unsorted). C46_independent_false: with default values the address a request is redirected to depends on the order of registration."
  },
  {
   "property": "C47",
   "status": "partial",
   "theorems": [
    "Verif.Props.RoutingP.C47_match_partial",
    "Verif.Props.RoutingP.C47_adapter_partial",
    "Verif.Props.RoutingP.C47_equal_false"
   ],
   "note": "C47_match_partial/C47_adapter_partial: a strict leaf route without variables matches a path exactly when it is the rule or the rule followed by one line break. C47_equal_false: the claim as stated fails, because the `$` of the pattern also matches before a final line break. A rule that begins with two slashes is never matched through an adapter, since the adapter drops leading slashes."
  },
  {
   "property": "C48",
   "status": "partial",
   "theorems": [
    "Verif.Props.RoutingP.C48_route_partial",
    "Verif.Props.RoutingP.C48_asks",
    "Verif.Props.RoutingP.C48_map_partial",
    "Verif.Props.RoutingP.C48_found_partial",
    "Verif.Props.RoutingP.C48_conversion_false",
    "Verif.Props.RoutingP.C48_newline_false"
   ],
   "note": "C48_asks: a strict branch route that matches a path with the slash asks for it without. C48_route_partial/C48_map_partial/C48_found_partial: the redirect goes to the address standing for the path plus a slash, and requesting it is answered by the same route without another slash redirect, provided the arguments convert, the path does not end with a line break and no strict leaf route matches texts ending with a slash. C48_conversion_false and C48_newline_false: without these conditions the redirect leads to NotFound."
  },
  {
   "property": "C49",
   "status": "partial",
   "theorems": [
    "Verif.Props.RoutingP.C49_route_partial",
    "Verif.Props.RoutingP.C49_map_partial",
    "Verif.Props.RoutingP.C49_newline_false",
    "Verif.Props.RoutingP.C49_segments_false"
   ],
   "note": "C49_route_partial/C49_map_partial: for rules whose variables are each followed by a slash or the end, with the string (at least one character), any, int and uuid converters, the float converter for floats that Python writes without an exponent, and no variables in the domain, the address built from valid arguments, percent-decoded, is matched by the route with the same arguments, unless the path ends with a line break; other values only go to the query. C49_newline_false: with a value ending in a line break another argument can come back. C49_segments_false: variables that share a segment can come back differently."
  },
  {
   "property": "C50",
   "status": "proved",
   "theorems": [
    "Verif.Props.RoutingP.C50_delivered",
    "Verif.Props.RoutingP.C50_digits",
    "Verif.Props.RoutingP.C50_roundtrip"
   ],
   "note": "C50_delivered: whatever a map with the built-in converters delivers is in the stated set of the converter; C50_digits: number of characters of an integer; C50_roundtrip: the text written for a valid value stands for a text that is read back as the same value. The decimal value of a character is a parameter (Decimal) that holds for Python's tables; min_length <= max_length is assumed. Floats are included: what is read is within the bounds, and the round trip is stated for those which Python writes without an exponent (C112)."
  },
  {
   "property": "C51",
   "status": "proved",
   "theorems": [
    "Verif.Props.Resp.C51_no_body",
    "Verif.Props.Resp.C51_otherwise_body",
    "Verif.Props.Resp.C51_length",
    "Verif.Props.Resp.C51_not_modified"
   ],
   "note": "For every response, method and status; entity header names as in RFC 2616. The URL functions applied to Location are arbitrary and may raise."
  },
  {
   "property": "C52",
   "status": "partial",
   "theorems": [
    "Verif.Props.Resp.C52_length_partial",
    "Verif.Props.Resp.C52_text_false",
    "Verif.Props.Resp.C52_stale_false"
   ],
   "note": "For every history of calls, when automatically_set_content_length is on and text elements put into a list or written take as many bytes as characters. Refuted otherwise: lengths of text count characters; with the flag off freeze leaves a stale length."
  },
  {
   "property": "C53",
   "status": "partial",
   "theorems": [
    "Verif.Props.Resp.C53_server_partial",
    "Verif.Props.Resp.C53_direct_false",
    "Verif.Props.Resp.C53_raising_false",
    "Verif.Props.Resp.C53_application_partial",
    "Verif.Props.Resp.C53_application_twice_false"
   ],
   "note": "Exactly once for a plain server unless in direct passthrough mode (never called) or a callback raises (later ones skipped); through the application exactly once when read to the end, but twice when closed early. All four are theorems."
  },
  {
   "property": "C54",
   "status": "partial",
   "theorems": [
    "Verif.Props.Resp.C54_coherent_partial",
    "Verif.Props.Resp.C54_prefix_partial",
    "Verif.Props.Resp.C54_prefix_false"
   ],
   "note": "First word of the line is a number equal to the code, for all histories without blank lines; starts with the decimal code when the assigned lines do. Refuted for padded numbers, leading space and blank lines."
  },
  {
   "property": "C55",
   "status": "proved",
   "theorems": [
    "Verif.Props.ReqP.C55_same_bytes",
    "Verif.Props.ReqP.C55_read_once",
    "Verif.Props.ReqP.C55_first_read",
    "Verif.Props.ReqP.C55_short_body"
   ],
   "note": "get_data with caching over the model of get_input_stream/LimitedStream: same bytes and untouched stream after any later calls (C55_same_bytes, C55_read_once); the first call returns exactly Content-Length bytes (C55_first_read); a short body is reported and not cached (C55_short_body)."
  },
  {
   "property": "C56",
   "status": "proved",
   "theorems": [
    "Verif.Props.AuthP.C56_basic",
    "Verif.Props.AuthP.C56_basic_text"
   ],
   "note": "For usernames/passwords as octets, scheme in any case and any white space; base 64 per RFC 4648 (Spec/Base64). The text version is for latin-1 text; text sent as UTF-8 is delivered as its octets read as latin-1."
  },
  {
   "property": "C57",
   "status": "proved",
   "theorems": [
    "Verif.Props.AuthP.C57_sound",
    "Verif.Props.AuthP.C57_digest"
   ],
   "note": "C57_sound for every header text; C57_digest gives the converse for headers built from a directive mapping."
  },
  {
   "property": "C58",
   "status": "partial",
   "theorems": [
    "Verif.Props.CacheP.C58_flag",
    "Verif.Props.CacheP.C58_value_partial",
    "Verif.Props.CacheP.C58_max_age_text",
    "Verif.Props.CacheP.C58_value_false",
    "Verif.Props.CacheP.C58_other",
    "Verif.Props.CacheP.C58_unset_partial",
    "Verif.Props.CacheP.C58_unset_false",
    "Verif.Props.CacheP.C58_del"
   ],
   "note": "Flags, numbers and text read back as set (C58_flag, C58_value_partial), other directives unchanged, deletion removes. False parts: True on no_transform/s_maxage reads as None, False on no_cache is written into the header (C58_value_false), assigning None to an absent directive raises KeyError (C58_unset_false)."
  },
  {
   "property": "C59",
   "status": "proved",
   "theorems": [
    "Verif.Props.DateP.C59_roundtrip",
    "Verif.Props.DateP.C59_timestamp",
    "Verif.Props.DateP.C59_early_years"
   ],
   "note": "For all dates of the years 100 to 9999; C59_timestamp ties the date to the number of seconds since 1970 through an independent calendar (Spec/Calendar.lean). C59_early_years gives the exact wrong answer for years below 100, which the statement excludes. The email package's parser is modelled from its text."
  },
  {
   "property": "C60",
   "status": "proved",
   "theorems": [
    "Verif.Props.RedirectP.C60_markup",
    "Verif.Props.RedirectP.C60_location"
   ],
   "note": "Page split into texts and tags by a small HTML reader (Spec/Html); the URI is arbitrary, so the theorem covers whatever iri_to_uri returns. Location header via the Headers model (C60_location)."
  },
  {
   "property": "C61",
   "status": "proved",
   "theorems": [
    "Verif.Dispatch.C61_order",
    "Verif.Dispatch.C61_outermost"
   ],
   "note": "Order of passing for any list of recording middleware, and the composition law for arbitrary wrappers."
  },
  {
   "property": "C62",
   "status": "partial",
   "theorems": [
    "Verif.Dispatch.C62_errors_partial",
    "Verif.Dispatch.C62_handler_false"
   ],
   "note": "View responses, handled exceptions and unhandled ones are as claimed. Refuted when the handler lookup itself raises: a malformed Accept header makes every handler unreachable."
  },
  {
   "property": "C63",
   "status": "proved",
   "theorems": [
    "Verif.Wsgi.C63_content_length",
    "Verif.Wsgi.C63_body_bounded"
   ],
   "note": "Never negative for every environ; the body delivered is a prefix of at most the declared length for permitted read sizes (see C31)."
  },
  {
   "property": "C64",
   "status": "proved",
   "theorems": [
    "Verif.Props.C64_remove_entity",
    "Verif.Props.C64_remove_hop_by_hop"
   ],
   "note": ""
  },
  {
   "property": "C65",
   "status": "proved",
   "theorems": [
    "Verif.Props.AbortP.C65_table_sound",
    "Verif.Props.AbortP.C65_table_complete",
    "Verif.Props.AbortP.C65_base_kept",
    "Verif.Props.AbortP.C65_abort",
    "Verif.Props.AbortP.C65_application",
    "Verif.Props.AbortP.C65_extra"
   ],
   "note": "For every integer with the classes of the library; table construction for every list of classes; extra entries."
  },
  {
   "property": "C66",
   "status": "proved",
   "theorems": [
    "Verif.Props.C66_notified_on_change",
    "Verif.Props.C66_delIdx_limit"
   ],
   "note": "delIdx limit stated separately."
  },
  {
   "property": "C67",
   "status": "partial",
   "theorems": [
    "Verif.LineIter.C67_bytes_false",
    "Verif.LineIter.C67_bytes_partial"
   ],
   "note": "Refuted for every non-empty byte input: TypeError from `item[-1:] in '\\r\\n'`. Only the empty input works."
  },
  {
   "property": "C68",
   "status": "proved",
   "theorems": [
    "Verif.Urls.C68_quote_idempotent",
    "Verif.Urls.C68_iri_to_uri_idempotent"
   ],
   "note": "For every reference without scheme and authority (for those see C95) and every safe set containing '%'."
  },
  {
   "property": "C69",
   "status": "partial",
   "theorems": [
    "Verif.Urls.C69_reference_partial",
    "Verif.Urls.C69_reference_false"
   ],
   "note": "Proved when the decoded path holds no '#'. Refuted otherwise: /a%23b becomes /a#b, so the path is cut. Scheme, authority and UTF-8 are in C129."
  },
  {
   "property": "C70",
   "status": "proved",
   "theorems": [
    "Verif.Accept.C70_language_range",
    "Verif.Accept.C70_membership"
   ],
   "note": "Exact for every tag and list of ranges. Comparison is case sensitive, as in the code."
  },
  {
   "property": "C71",
   "status": "partial",
   "theorems": [
    "Verif.Accept.C71_roundtrip_partial",
    "Verif.Accept.C71_roundtrip_false"
   ],
   "note": "For ranges with parts free of separators and surrounding space. Refuted otherwise: parameters are written without quoting. Uses only float(str(q)) = q of float formatting."
  },
  {
   "property": "C72",
   "status": "partial",
   "theorems": [
    "Verif.Accept.C72_quality_partial",
    "Verif.Accept.C72_quality_false"
   ],
   "note": "Between 0 and 1, or NaN: q=nan is accepted and kept (refutation)."
  },
  {
   "property": "C73",
   "status": "partial",
   "theorems": [
    "Verif.Props.Resp.C73_closed_once_partial",
    "Verif.Props.Resp.C73_closed_false"
   ],
   "note": "Exactly once for histories that do not replace the body. Refuted for freeze, set_data, and make_sequence in direct passthrough mode."
  },
  {
   "property": "C74",
   "status": "partial",
   "theorems": [
    "Verif.Props.CacheP.C74_quoted_false",
    "Verif.Props.CacheP.C74_header_partial",
    "Verif.Props.CacheP.C74_response",
    "Verif.Props.CacheP.C74_max_age",
    "Verif.Props.CacheP.C74_flag"
   ],
   "note": "Proved for directives with proper names and values that are text not enclosed in quotes, or integers (false otherwise: C74_quoted_false); assignment through the response uses the Headers model."
  },
  {
   "property": "C75",
   "status": "partial",
   "theorems": [
    "Verif.Props.AuthP.C75_roundtrip_partial",
    "Verif.Props.AuthP.C75_roundtrip_false",
    "Verif.Props.AuthP.C75_digest",
    "Verif.Props.AuthP.C75_properties"
   ],
   "note": "Round trip for parameters with text values not enclosed in quotes (C75_roundtrip_partial, C75_digest), property access (C75_properties). A parameter without a value is written as None (C75_roundtrip_false). str.title and str.lower are parameters."
  },
  {
   "property": "C76",
   "status": "proved",
   "theorems": [
    "Verif.Props.DateP.C76_total",
    "Verif.Props.DateP.C76_fields"
   ],
   "note": "With the parser of Python 3.12; earlier versions lack its check for empty parts."
  },
  {
   "property": "C77",
   "status": "proved",
   "theorems": [
    "Verif.Props.DateP.C77_offset",
    "Verif.Props.DateP.C77_rfc850",
    "Verif.Props.DateP.C77_asctime",
    "Verif.Props.DateP.C77_named"
   ],
   "note": ""
  },
  {
   "property": "C78",
   "status": "proved",
   "theorems": [
    "Verif.Props.Desc.C78_set_get",
    "Verif.Props.Desc.C78_rejects",
    "Verif.Props.Desc.C78_add"
   ],
   "note": "Header names are lower-cased by a function that agrees with str.lower on the names the library writes."
  },
  {
   "property": "C79",
   "status": "partial",
   "theorems": [
    "Verif.Props.Desc.C79_other_methods",
    "Verif.Props.Desc.C79_decision_partial",
    "Verif.Props.Desc.C79_unconditional",
    "Verif.Props.Desc.C79_revalidate",
    "Verif.Props.Desc.C79_decision_false"
   ],
   "note": "The decision is proved for nonempty tags and for tag lists as the library writes them; C79_decision_false shows that empty tags and weakly listed strong tags are not matched."
  },
  {
   "property": "C80",
   "status": "partial",
   "theorems": [
    "Verif.Props.Desc.C80_assign_read",
    "Verif.Props.Desc.C80_rejects",
    "Verif.Props.Desc.C80_delete",
    "Verif.Props.Desc.C80_read_only",
    "Verif.Props.Desc.C80_total",
    "Verif.Props.Desc.C80_age_false"
   ],
   "note": "All properties but age; C80_age_false shows that age does not hold a number."
  },
  {
   "property": "C81",
   "status": "partial",
   "theorems": [
    "Verif.Props.Desc.C81_assign",
    "Verif.Props.Desc.C81_roundtrip_partial",
    "Verif.Props.Desc.C81_params_partial",
    "Verif.Props.Desc.C81_delete_partial",
    "Verif.Props.Desc.C81_params_false"
   ],
   "note": "Exact condition for the media type; parameters for content types as the library writes them; C81_params_false for the absent header."
  },
  {
   "property": "C82",
   "status": "partial",
   "theorems": [
    "Verif.Props.Desc.C82_assign",
    "Verif.Props.Desc.C82_assign_text",
    "Verif.Props.Desc.C82_live_partial",
    "Verif.Props.Desc.C82_live_false",
    "Verif.Props.SetPositionsP.C82_positions_partial"
   ],
   "note": "For names distinct up to case, and removal with lower case arguments; C82_live_false for the rest. `C82_positions_partial` extends this to assignment by position and to removing absent names, for every call that leaves the set itself consistent (C127)."
  },
  {
   "property": "C83",
   "status": "partial",
   "theorems": [
    "Verif.Props.Desc.C83_set_read",
    "Verif.Props.Desc.C83_rejects",
    "Verif.Props.Desc.C83_unset",
    "Verif.Props.Desc.C83_read_partial",
    "Verif.Props.Desc.C83_read_false",
    "Verif.Props.Desc.C83_assign_false"
   ],
   "note": "Everything but that reading has no effect, which is false (C83_read_false); C83_assign_false for single attributes."
  },
  {
   "property": "C84",
   "status": "partial",
   "theorems": [
    "Verif.Props.Desc.C84_assign_read",
    "Verif.Props.Desc.C84_negative",
    "Verif.Props.Desc.C84_total_false",
    "Verif.Props.Desc.C84_total_partial"
   ],
   "note": "Reading raises for superscript digits and numbers beyond the calendar (C84_total_false); C84_total_partial for everything else."
  },
  {
   "property": "C85",
   "status": "partial",
   "theorems": [
    "Verif.Props.Desc.C85_set_cookie_partial",
    "Verif.Props.Desc.C85_semicolon_false",
    "Verif.Props.Desc.C85_rejects",
    "Verif.Props.Desc.C85_delete_cookie"
   ],
   "note": "Arguments are the encoded bytes. Exact for names, dates and paths without ';', which are not quoted (C85_semicolon_false); values and domains are arbitrary; refusal of line breaks without restriction."
  },
  {
   "property": "C86",
   "status": "partial",
   "theorems": [
    "Verif.Props.Desc.C86_roundtrip_partial",
    "Verif.Props.Desc.C86_tag",
    "Verif.Props.Desc.C86_parse",
    "Verif.Props.Desc.C86_roundtrip_false"
   ],
   "note": "Dates from the year 100, tags without commas (C86_roundtrip_partial); a tag without quotes is read back exactly if its quoted form is no date (C86_tag), and C86_roundtrip_false for tags that look like dates."
  },
  {
   "property": "C87",
   "status": "partial",
   "theorems": [
    "Verif.Props.Desc.C87_live_partial",
    "Verif.Props.Desc.C87_clear",
    "Verif.Props.Desc.C87_live_false"
   ],
   "note": "Parameters with values that are not quoted at both ends; C87_live_false otherwise."
  },
  {
   "property": "C88",
   "status": "proved",
   "theorems": [
    "Verif.Props.ReqUrlP.C88_round_trip",
    "Verif.Props.ReqUrlP.C88_reading",
    "Verif.Props.ReqUrlP.C88_delimiters"
   ],
   "note": ""
  },
  {
   "property": "C89",
   "status": "proved",
   "theorems": [
    "Verif.Props.ReqUrlP.C89_slashes",
    "Verif.Props.ReqUrlP.C89_texts",
    "Verif.Props.ReqUrlP.C89_missing",
    "Verif.Props.ReqUrlP.C89_usual"
   ],
   "note": ""
  },
  {
   "property": "C90",
   "status": "partial",
   "theorems": [
    "Verif.Props.ReqUrlP.C90_args_partial",
    "Verif.Props.ReqUrlP.C90_args_full_partial",
    "Verif.Props.ReqUrlP.C90_args_false",
    "Verif.Props.ReqUrlP.C90_total"
   ],
   "note": "Pairs with an empty value are dropped (C90_args_false)."
  },
  {
   "property": "C91",
   "status": "partial",
   "theorems": [
    "Verif.Props.ReqUrlP.C91_urls",
    "Verif.Props.ReqUrlP.C91_nested",
    "Verif.Props.ReqUrlP.C91_read_back_partial",
    "Verif.Props.ReqUrlP.C91_read_back_false"
   ],
   "note": "Script roots and paths without a hash sign; C91_read_back_false otherwise."
  },
  {
   "property": "C92",
   "status": "partial",
   "theorems": [
    "Verif.Props.ReqUrlP.C92_route",
    "Verif.Props.ReqUrlP.C92_hops_partial",
    "Verif.Props.ReqUrlP.C92_hops_false",
    "Verif.Props.ReqUrlP.C92_secure_false",
    "Verif.Props.ReqUrlP.C92_xhr",
    "Verif.Props.ReqUrlP.C92_method"
   ],
   "note": "max_forwards raises without the header (C92_hops_false); is_secure is always None (C92_secure_false)."
  },
  {
   "property": "C93",
   "status": "proved",
   "theorems": [
    "Verif.Props.EnvHeadersP.C93_view",
    "Verif.Props.EnvHeadersP.C93_underscore_limits",
    "Verif.Props.EnvHeadersP.C93_no_duplicates"
   ],
   "note": "underscored names are excluded, see C93_underscore_limits"
  },
  {
   "property": "C94",
   "status": "partial",
   "theorems": [
    "Verif.Props.WrapFileP.C94_file",
    "Verif.Props.WrapFileP.C94_whole_blocks",
    "Verif.Props.WrapFileP.C94_zero_limits",
    "Verif.Props.WrapFileP.C94_server",
    "Verif.Props.WrapFileP.C94_close_partial",
    "Verif.Props.WrapFileP.C94_request_partial",
    "Verif.Props.WrapFileP.C94_raising",
    "Verif.Props.WrapFileP.C94_close_false"
   ],
   "note": "callbacks that raise stop the others: C94_raising, C94_close_false"
  },
  {
   "property": "C95",
   "status": "partial",
   "theorems": [
    "Verif.Props.IriP.C95_ascii",
    "Verif.Props.IriP.C95_iri_partial",
    "Verif.Props.IriP.C95_fix_partial",
    "Verif.Props.IriP.C95_host_false",
    "Verif.Props.IriP.C95_redirect_limits",
    "Verif.Props.IriP.C95_codec_limits",
    "Verif.Props.IriP.C95_drive"
   ],
   "note": "Proved for web URLs with a host without brackets whose labels the host codec maps to letters, digits, hyphens and characters of the label; a codec that makes delimiters (as NFKC does of compatibility characters) is shown to lead to another host (C95_codec_limits). For any input the result is ASCII. Local references with several leading slashes are shown to become references to another host."
  },
  {
   "property": "C96",
   "status": "partial",
   "theorems": [
    "Verif.Props.MultipartP.C96_threshold",
    "Verif.Props.MultipartP.C96_files_partial",
    "Verif.Props.MultipartP.C96_text_false",
    "Verif.Props.MultipartP.C96_bytes_false",
    "Verif.Props.MultipartP.C96_quote_limits"
   ],
   "note": "Proved for forms of files whose names have no carriage return and whose contents do not contain the delimiter; text fields raise TypeError and byte fields are written twice, both proved; independence of the threshold is proved in full."
  },
  {
   "property": "C97",
   "status": "partial",
   "theorems": [
    "Verif.Props.BuilderP.C97_precedence",
    "Verif.Props.BuilderP.C97_repeated_limits",
    "Verif.Props.BuilderP.C97_request_partial",
    "Verif.Props.BuilderP.C97_default",
    "Verif.Props.BuilderP.C97_base_partial",
    "Verif.Props.BuilderP.C97_args_partial",
    "Verif.Props.BuilderP.C97_args_false",
    "Verif.Props.BuilderP.C97_host"
   ],
   "note": "Paths of the form `/...` without a second slash, with or without escapes and a query behind `?`; bases with http or https, a host the host codec leaves alone and a script root without escapes; no base. Precedence of overrides, headers and base for all entries. Query parameters: one value each (witness for more). Flags and streams for errors are not modelled."
  },
  {
   "property": "C98",
   "status": "partial",
   "theorems": [
    "Verif.Props.BuilderP.C98_history",
    "Verif.Props.BuilderP.C98_refusals",
    "Verif.Props.BuilderP.C98_stream_partial",
    "Verif.Props.BuilderP.C98_position_false",
    "Verif.Props.BuilderP.C98_data",
    "Verif.Props.BuilderP.C98_form_partial",
    "Verif.Props.BuilderP.C98_files_partial",
    "Verif.Props.BuilderP.C98_mixed_false"
   ],
   "note": "Histories and refusals proved in full; streams not standing behind their end, fields without files (first value of each) and files without fields are proved to arrive; mixed forms are shown to raise."
  },
  {
   "property": "C99",
   "status": "partial",
   "theorems": [
    "Verif.Props.RunAppP.C99_unbuffered_partial",
    "Verif.Props.RunAppP.C99_unstarted",
    "Verif.Props.RunAppP.C99_buffered_partial",
    "Verif.Props.RunAppP.C99_write_false",
    "Verif.Props.RunAppP.C99_empty_false"
   ],
   "note": "What an application is given as: the acts of the call and of every `next`. For applications that raise nothing: unbuffered, status and headers are the first ones started, the body is what was written or yielded up to the start and all that is yielded later, closed once; buffered, the body is what is yielded, closed once also when raising. False for writes under buffering, late writes and responses without bytes (witnesses). `start_response` with `exc_info` always raises, as in the code."
  },
  {
   "property": "C100",
   "status": "partial",
   "theorems": [
    "Verif.Props.ClientP.C100_follows",
    "Verif.Props.ClientP.C100_loop",
    "Verif.Props.ClientP.C100_ends",
    "Verif.Props.ClientP.C100_target_partial",
    "Verif.Props.ClientP.C100_external",
    "Verif.Props.ClientP.C100_relative_false",
    "Verif.Props.ClientP.C100_subdomain_false",
    "Verif.Props.ClientP.C100_plain",
    "Verif.Props.ClientP.C100_308_false",
    "Verif.Props.ClientP.C100_body_false",
    "Verif.Props.ClientP.C100_revisit_limits",
    "Verif.Props.ClientP.C100_endless_limits"
   ],
   "note": "The application with the cookie jar is any function of a state and an environ. The loop is characterised by a transition relation (both directions, for results and for loops), ends when locations are finitely many, and each request is the one the location names (paths of the form `/...` without second slash, http and https, hosts the host codec leaves alone). Missing: relative locations are refused, subdomains raise, 307 loses the body, 308 is not followed (witnesses); cookies are inside the application function."
  },
  {
   "property": "C101",
   "status": "partial",
   "theorems": [
    "Verif.Props.FactoryP.C101_flat_partial",
    "Verif.Props.FactoryP.C101_added_partial",
    "Verif.Props.FactoryP.C101_once",
    "Verif.Props.FactoryP.C101_reuse",
    "Verif.Props.FactoryP.C101_settings_false",
    "Verif.Props.FactoryP.C101_slash_false",
    "Verif.Props.FactoryP.C101_template_false"
   ],
   "note": "All nests of the four factories whose rules and paths start with a slash, and templates whose placeholders are names given as keyword arguments. Histories over any number of maps. False for paths without slash, copies of bound routes and redirects in templates (witnesses). User-defined factories are not modelled."
  },
  {
   "property": "C102",
   "status": "partial",
   "theorems": [
    "Verif.Props.MountP.C102_prefix_match",
    "Verif.Props.MountP.C102_prefix_build",
    "Verif.Props.MountP.C102_prefix_only",
    "Verif.Props.MountP.C102_subdomain_partial",
    "Verif.Props.MountP.C102_submount_partial",
    "Verif.Props.MountP.C102_submount_only",
    "Verif.Props.MountP.C102_submount_build_partial",
    "Verif.Props.MountP.C102_factories",
    "Verif.Props.MountP.C102_subdomain_limits",
    "Verif.Props.MountP.C102_target_limits"
   ],
   "note": "EndpointPrefix without restriction. Subdomain for routes without a subdomain of their own in maps that match subdomains. Submount for paths without variables and special characters, routes on the default subdomain, without redirect_to and without defaults or aliases that redirect; built URLs are full ones. Limits shown by witnesses."
  },
  {
   "property": "C103",
   "status": "partial",
   "theorems": [
    "Verif.Props.BindP.C103_subdomain_partial",
    "Verif.Props.BindP.C103_stays",
    "Verif.Props.BindP.C103_domain_partial",
    "Verif.Props.BindP.C103_foreign_partial",
    "Verif.Props.BindP.C103_environ",
    "Verif.Props.BindP.C103_hint_partial",
    "Verif.Props.BindP.C103_case",
    "Verif.Props.BindP.C103_refused",
    "Verif.Props.BindP.C103_foreign_false",
    "Verif.Props.BindP.C103_total_false",
    "Verif.Props.BindP.C103_port_limits",
    "Verif.Props.BindP.C103_default_path_false"
   ],
   "note": "Hosts and server names in ASCII with labels of at most 63 characters; the codec for other names is a parameter. Foreign hosts are not found where no subdomain has variables; otherwise shown false by a witness. match() and case hold without restriction."
  },
  {
   "property": "C104",
   "status": "partial",
   "theorems": [
    "Verif.Props.JoinP.C104_own_host",
    "Verif.Props.JoinP.C104_path_partial",
    "Verif.Props.JoinP.C104_relative_partial",
    "Verif.Props.JoinP.C104_scheme",
    "Verif.Props.JoinP.C104_off",
    "Verif.Props.JoinP.C104_host_limits",
    "Verif.Props.JoinP.C104_relative_false",
    "Verif.Props.JoinP.C104_path_false"
   ],
   "note": "Staying on the host holds for every path. The meaning of the path is kept without dot segments and, for relative paths, without empty segments; otherwise shown false by witnesses. Hosts in the form that C91 and C95 treat; sent only if no other header is refused."
  },
  {
   "property": "C105",
   "status": "partial",
   "theorems": [
    "Verif.Props.BuildP.C105_build_partial",
    "Verif.Props.BuildP.C105_request_partial",
    "Verif.Props.BuildP.C105_dots_false",
    "Verif.Props.BuildP.C105_empty_segment_false",
    "Verif.Props.BuildP.C105_script_false"
   ],
   "note": "For routes for matching whose variables each fill a segment and whose values the converters accept; for paths without dot segments, inner empty segments and a newline at the end, each shown necessary or refuted by witnesses here or in C48/C49; if no other route takes the path (Best); the request is one made by the test environment builder at the root of its server."
  },
  {
   "property": "C106",
   "status": "partial",
   "theorems": [
    "Verif.Props.AppP.C106_slash_partial",
    "Verif.Props.AppP.C106_follow_partial",
    "Verif.Props.AppP.C106_append_partial",
    "Verif.Props.AppP.C106_view_partial",
    "Verif.Props.AppP.C106_unknown",
    "Verif.Props.AppP.C106_slash_false",
    "Verif.Props.AppP.C106_append_false",
    "Verif.Props.AppP.C106_append_missing"
   ],
   "note": "For applications made without a root of their own, paths of non-empty segments other than . and .., and first segments without a colon (refuted otherwise by C106_slash_false); append_slash_redirect for ASCII without %?# (refuted otherwise); middleware and closing are modelled elsewhere."
  },
  {
   "property": "C107",
   "status": "partial",
   "theorems": [
    "Verif.Props.AppBuilderP.C107_frozen",
    "Verif.Props.AppBuilderP.C107_apart",
    "Verif.Props.AppBuilderP.C107_contents_partial",
    "Verif.Props.AppBuilderP.C107_again",
    "Verif.Props.AppBuilderP.C107_mixins",
    "Verif.Props.AppBuilderP.C107_derived",
    "Verif.Props.AppBuilderP.C107_expose",
    "Verif.Props.AppBuilderP.C107_again_false",
    "Verif.Props.AppBuilderP.C107_override_false"
   ],
   "note": "That a builder can be called again is refuted for routes in no factory (C107_again, C107_again_false), that mixins override the base class by C107_override_false. The contents are given for histories without expose decorators (C107_expose says what those register), and for routes each registered once. The config of the application is not modelled."
  },
  {
   "property": "C108",
   "status": "partial",
   "theorems": [
    "Verif.Props.CanonP.C108_chosen",
    "Verif.Props.CanonP.C108_unbuildable",
    "Verif.Props.CanonP.C108_settled",
    "Verif.Props.CanonP.C108_default_partial",
    "Verif.Props.CanonP.C108_alias_partial",
    "Verif.Props.CanonP.C108_to_partial",
    "Verif.Props.CanonP.C108_to_root_partial",
    "Verif.Props.CanonP.C108_loop_false",
    "Verif.Props.CanonP.C108_alias_false",
    "Verif.Props.CanonP.C108_convert_false",
    "Verif.Props.CanonP.C108_open_false"
   ],
   "note": "That redirects come to an end is refuted by C108_loop_false and C108_alias_false, that every match is answered by C108_convert_false, that redirect_to stays below the script root by C108_open_false; the partial theorems take arguments with built-in converters (floats those that Python writes without an exponent) and, for redirect_to, a text without dot segments."
  },
  {
   "property": "C109",
   "status": "partial",
   "theorems": [
    "Verif.Props.AppUrlP.C109_root_partial",
    "Verif.Props.AppUrlP.C109_request_partial",
    "Verif.Props.AppUrlP.C109_slash_partial",
    "Verif.Props.AppUrlP.C109_host_limits",
    "Verif.Props.AppUrlP.C109_root_false"
   ],
   "note": "Any root is refuted by C109_root_false; the theorems take http and https roots with plain names of hosts, arguments with built-in converters (floats those that Python writes without an exponent), no defaults or aliases, and paths without dot or empty segments (C105_dots_false, C105_empty_segment_false). What is sent for a redirect from an application without a root is C106."
  },
  {
   "property": "C110",
   "status": "partial",
   "theorems": [
    "Verif.Props.ConvArgsP.C110_args",
    "Verif.Props.ConvArgsP.C110_int",
    "Verif.Props.ConvArgsP.C110_string",
    "Verif.Props.ConvArgsP.C110_length",
    "Verif.Props.ConvArgsP.C110_any",
    "Verif.Props.ConvArgsP.C110_refused",
    "Verif.Props.ConvArgsP.C110_pure",
    "Verif.Props.ConvArgsP.C110_negative_false",
    "Verif.Props.ConvArgsP.C110_space_false",
    "Verif.Props.ConvArgsP.C110_words_false"
   ],
   "note": "Refuted for negative numbers, numbers without white space after the comma, and words that are numbers (C110_*_false). The theorems take the remaining spellings; what a converter does with a float as a bound is C112."
  },
  {
   "property": "C111",
   "status": "partial",
   "theorems": [
    "Verif.Props.RuleP.C111_read",
    "Verif.Props.RuleP.C111_only",
    "Verif.Props.RuleP.C111_refused",
    "Verif.Props.RuleP.C111_parenthesis_false",
    "Verif.Props.RuleP.C111_bracket_corner",
    "Verif.Props.RuleP.C111_route",
    "Verif.Props.RuleP.C111_delivered"
   ],
   "note": "Arguments with closing parentheses are left out of C111_read (C111_parenthesis_false); C111_only and C111_refused hold for all rules."
  },
  {
   "property": "C112",
   "status": "partial",
   "theorems": [
    "Verif.Props.FloatP.C112_delivered",
    "Verif.Props.FloatP.C112_accepted",
    "Verif.Props.FloatP.C112_bounds",
    "Verif.Props.FloatP.C112_roundtrip_partial",
    "Verif.Props.FloatP.C112_roundtrip_false"
   ],
   "note": "Refuted for floats that Python writes with an exponent (C112_roundtrip_false); the round trip is proved for the others, given float(str(f)) = f."
  },
  {
   "property": "C113",
   "status": "partial",
   "theorems": [
    "Verif.Props.SharedP.C113_found",
    "Verif.Props.SharedP.C113_through",
    "Verif.Props.SharedP.C113_served",
    "Verif.Props.SharedP.C113_uncached",
    "Verif.Props.SharedP.C113_revalidate",
    "Verif.Props.SharedP.C113_since",
    "Verif.Props.SharedP.C113_methods_false",
    "Verif.Props.SharedP.C113_disallow_false",
    "Verif.Props.SharedP.C113_stale_false",
    "Verif.Props.SharedP.C113_length_false"
   ],
   "note": "Refuted for other methods, package data, changes within a second and patterns with directories (C113_*_false). Proved for the rest, with mktime one to one (no change of local time), times of the years 1 to 9999, keys and directories without a slash at the right. HEAD gets a body, as for GET."
  },
  {
   "property": "C114",
   "status": "partial",
   "theorems": [
    "Verif.Props.ViewsP.C114_sent_partial",
    "Verif.Props.ViewsP.C114_none",
    "Verif.Props.ViewsP.C114_debug_false",
    "Verif.Props.ViewsP.C114_nan_false",
    "Verif.Props.ViewsP.C114_keys_false",
    "Verif.Props.ViewsP.C114_bound"
   ],
   "note": "Refuted for applications without the attribute debug, for nan and infinities, and for keys that become equal texts. The proof is for clean values, and for applications with the attribute. Floats are given by their text; float keys are left out."
  },
  {
   "property": "C115",
   "status": "partial",
   "theorems": [
    "Verif.Props.ViewsP.C115_class",
    "Verif.Props.ViewsP.C115_patch_false"
   ],
   "note": "Refuted for PATCH, OPTIONS and any method beyond the five (C115_patch_false); proved for GET, HEAD, POST, PUT and DELETE."
  },
  {
   "property": "C116",
   "status": "partial",
   "theorems": [
    "Verif.Props.FileP.C116_saved",
    "Verif.Props.FileP.C116_blocks",
    "Verif.Props.FileP.C116_errors",
    "Verif.Props.FileP.C116_twice_false",
    "Verif.Props.FileP.C116_zero_limits"
   ],
   "note": "Refuted for saving twice (C116_twice_false) and a buffer size of zero. Failing of open and of writes is left out."
  },
  {
   "property": "C117",
   "status": "partial",
   "theorems": [
    "Verif.Props.FileP.C117_text_partial",
    "Verif.Props.FileP.C117_bytes_false"
   ],
   "note": "Refuted for every stream of bytes (C117_bytes_false); proved for streams of text."
  },
  {
   "property": "C118",
   "status": "partial",
   "theorems": [
    "Verif.Props.FileP.C118_filename",
    "Verif.Props.FileP.C118_stream_false",
    "Verif.Props.FileP.C118_type",
    "Verif.Props.FileP.C118_refused",
    "Verif.Props.FileP.C118_stale_false",
    "Verif.Props.FileP.C118_nested_false",
    "Verif.Props.FileP.C118_length_false"
   ],
   "note": "Refuted for streams with a number as name, streams that count as false, types asked for before (C118_stream_false, C118_stale_false, C118_nested_false) and lengths that are not numbers (C118_length_false). Types are proved for names without spaces, separators and quotes; parameters as in C05."
  },
  {
   "property": "C119",
   "status": "partial",
   "theorems": [
    "Verif.Props.FromAppP.C119_same_partial",
    "Verif.Props.FromAppP.C119_app_partial",
    "Verif.Props.FromAppP.C119_buffered_partial",
    "Verif.Props.FromAppP.C119_type_false",
    "Verif.Props.FromAppP.C119_status_false",
    "Verif.Props.FromAppP.C119_head_false",
    "Verif.Props.FromAppP.C119_address_false"
   ],
   "note": "Proved for applications that raise nothing and do not write after their response was started (C99), and responses with a content type that send bytes. Refuted otherwise: C119_type_false, C119_status_false, C119_head_false, C119_address_false."
  },
  {
   "property": "C120",
   "status": "partial",
   "theorems": [
    "Verif.Props.CopiesP.C120_calls",
    "Verif.Props.CopiesP.C120_independent",
    "Verif.Props.CopiesP.C120_copies",
    "Verif.Props.CopiesP.C120_made",
    "Verif.Props.CopiesP.C120_ordered_partial",
    "Verif.Props.CopiesP.C120_order_false",
    "Verif.Props.CopiesP.C120_combined_false"
   ],
   "note": "Proved for plain multi dictionaries, and the contents of copies of ordered ones; refuted for deep copies of ordered and combined ones: C120_order_false, C120_combined_false. Pickling is taken to give back equal keys and values."
  },
  {
   "property": "C121",
   "status": "proved",
   "theorems": [
    "Verif.Props.CopiesP.C121_live",
    "Verif.Props.CopiesP.C121_listvalues"
   ],
   "note": ""
  },
  {
   "property": "C122",
   "status": "partial",
   "theorems": [
    "Verif.Props.ReqDescP.C122_etags",
    "Verif.Props.ReqDescP.C122_dates",
    "Verif.Props.ReqDescP.C122_dates_any",
    "Verif.Props.ReqDescP.C122_range",
    "Verif.Props.ReqDescP.C122_if_range_partial",
    "Verif.Props.ReqDescP.C122_cache",
    "Verif.Props.ReqDescP.C122_cache_frozen",
    "Verif.Props.ReqDescP.C122_authorization",
    "Verif.Props.ReqDescP.C122_text",
    "Verif.Props.ReqDescP.C122_mimetype_partial",
    "Verif.Props.ReqDescP.C122_pragma",
    "Verif.Props.ReqDescP.C122_sent_false"
   ],
   "note": "Entity tags in If-Range are without commas, tags are not empty, and parameters have non-empty values, as in C86, C17 and C05; values of no_cache and no_transform may come back as text (C122_cache). What is missing is false of the code: C122_sent_false."
  },
  {
   "property": "C123",
   "status": "partial",
   "theorems": [
    "Verif.Props.RespBodyP.C123_body",
    "Verif.Props.RespBodyP.C123_sent_partial",
    "Verif.Props.RespBodyP.C123_length",
    "Verif.Props.RespBodyP.C123_freeze",
    "Verif.Props.RespBodyP.C123_sent_false"
   ],
   "note": "Proved in full for the body; what is sent in direct passthrough mode is proved for bodies of bytes (text is passed on as it is, C123_sent_false). Charsets that cannot encode some text are left out."
  },
  {
   "property": "C124",
   "status": "partial",
   "theorems": [
    "Verif.Props.MapP.C124_all",
    "Verif.Props.MapP.C124_endpoint",
    "Verif.Props.MapP.C124_expecting",
    "Verif.Props.MapP.C124_asking",
    "Verif.Props.MapP.C124_query_partial",
    "Verif.Props.MapP.C124_query_false",
    "Verif.Props.MapP.C124_equal_partial"
   ],
   "note": "The order is claimed as long as no call of add_routes failed since the last successful one; empty query values are dropped as in C90 (C124_query_partial); equality is proved for rules without slashes at the start of a part, in the terms of C111 (C124_equal_partial)."
  },
  {
   "property": "C125",
   "status": "partial",
   "theorems": [
    "Verif.Props.CookieTextP.C125_sent",
    "Verif.Props.CookieTextP.C125_arrives",
    "Verif.Props.CookieTextP.C125_client",
    "Verif.Props.CookieTextP.C125_atomic",
    "Verif.Props.CookieTextP.C125_date",
    "Verif.Props.CookieTextP.C125_expiry",
    "Verif.Props.CookieTextP.C125_attributes",
    "Verif.Props.CookieTextP.C125_domain",
    "Verif.Props.CookieTextP.C125_path",
    "Verif.Props.CookieTextP.C125_malformed_false",
    "Verif.Props.CookieTextP.C125_malformed_partial",
    "Verif.Props.CookieTextP.C125_path_limits",
    "Verif.Props.CookieTextP.C125_paths_limits"
   ],
   "note": "That reading never raises is false (C125_malformed_false); what is proved is that nothing but UnicodeError is raised. Names are as in C23 and without `;`; the path as written and a text for Expires are without `;`, which C125_path proves for paths without query. Time stamps are whole seconds in the years 1 to 9999, and cookies of one domain and path are considered. How http.cookiejar fills the jar of the test client is not modelled."
  },
  {
   "property": "C126",
   "status": "partial",
   "theorems": [
    "Verif.Props.HViewP.C126_equal",
    "Verif.Props.HViewP.C126_equal_values",
    "Verif.Props.HViewP.C126_equal_false",
    "Verif.Props.HViewP.C126_slice",
    "Verif.Props.HViewP.C126_put",
    "Verif.Props.HViewP.C126_bounds",
    "Verif.Props.HViewP.C126_views",
    "Verif.Props.HViewP.C126_by_name",
    "Verif.Props.HViewP.C126_convert",
    "Verif.Props.HViewP.C126_bytes_limits",
    "Verif.Props.HViewP.C126_bytes",
    "Verif.Props.HViewP.C126_int",
    "Verif.Props.HViewP.C126_setdefault",
    "Verif.Props.HViewP.C126_setdefault_false",
    "Verif.Props.HViewP.C126_extend_dict",
    "Verif.Props.HViewP.C126_extend_self_false",
    "Verif.Props.HViewP.C126_extend_copy",
    "Verif.Props.HViewP.C126_independent"
   ],
   "note": "That equal headers answer alike, that headers can be extended with themselves and that setdefault returns what is held are false (C126_equal_false, C126_extend_self_false, C126_setdefault_false); the rest is proved. Slices have no step."
  },
  {
   "property": "C127",
   "status": "partial",
   "theorems": [
    "Verif.Props.HSetQ.C127_exact",
    "Verif.Props.HSetQ.C127_answers_partial",
    "Verif.Props.HSetQ.C127_answers_false",
    "Verif.Props.HSetQ.C127_positions"
   ],
   "note": "False for removals of names that are not in lower case, for assigning names that are there and for names given twice (C127_answers_false); C127_exact shows that these are the only calls that break it. str.lower is taken to be idempotent."
  },
  {
   "property": "C128",
   "status": "partial",
   "theorems": [
    "Verif.Props.MultiCmpP.C128_multi",
    "Verif.Props.MultiCmpP.C128_ordered",
    "Verif.Props.MultiCmpP.C128_mixed",
    "Verif.Props.MultiCmpP.C128_answers",
    "Verif.Props.MultiCmpP.C128_symm_partial",
    "Verif.Props.MultiCmpP.C128_ne_partial",
    "Verif.Props.MultiCmpP.C128_ne_false",
    "Verif.Props.MultiCmpP.C128_false",
    "Verif.Props.MultiCmpP.C128_update_self_false",
    "Verif.Props.MultiCmpP.C128_update_self_partial"
   ],
   "note": "Symmetry, transitivity, != as the opposite and updates with the dictionary itself are false in the cases shown (C128_false, C128_ne_false, C128_update_self_false); outside them they are proved. Histories of ordered dictionaries have no clear (see C26). Values are no lists."
  },
  {
   "property": "C129",
   "status": "partial",
   "theorems": [
    "Verif.Props.IriBackP.C129_shown_partial",
    "Verif.Props.IriBackP.C129_back_partial",
    "Verif.Props.IriBackP.C129_again_partial",
    "Verif.Props.IriBackP.C129_hash_false",
    "Verif.Props.IriBackP.C129_user_false",
    "Verif.Props.IriBackP.C129_replace_false",
    "Verif.Props.IriBackP.C129_strict_limits",
    "Verif.Props.IriBackP.C129_semicolon_limits"
   ],
   "note": "Proved for web URIs with a host whose escapes are well formed UTF-8, with no escaped `#` in the path and no escaped `?#[]` in user name and password; shown false otherwise (C129_hash_false, C129_user_false, C129_replace_false). Host codec: results not empty and without new ASCII characters, and an inverse on the host at hand."
  },
  {
   "property": "C130",
   "status": "partial",
   "theorems": [
    "Verif.Props.AcceptQ.C130_answer",
    "Verif.Props.AcceptQ.C130_language",
    "Verif.Props.AcceptQ.C130_best_partial",
    "Verif.Props.AcceptQ.C130_order_partial",
    "Verif.Props.AcceptQ.C130_override",
    "Verif.Props.AcceptQ.C130_best_false",
    "Verif.Props.AcceptQ.C130_header",
    "Verif.Props.AcceptQ.C130_slash_limits"
   ],
   "note": "C130_answer holds for every header. The most specific range wins, and order makes no difference, unless a general range gives more than a more specific one before it; then it wins (C130_override, C130_best_false). Content types must have one slash. Parameters of ranges other than q have no influence in the code."
  },
  {
   "property": "C131",
   "status": "partial",
   "theorems": [
    "Verif.Props.LinesP.C131_tell",
    "Verif.Props.LinesP.C131_tell_failing",
    "Verif.Props.LinesP.C131_readline",
    "Verif.Props.LinesP.C131_readlines",
    "Verif.Props.LinesP.C131_iteration",
    "Verif.Props.LinesP.C131_lines",
    "Verif.Props.LinesP.C131_hint_partial",
    "Verif.Props.LinesP.C131_hint_false"
   ],
   "note": "Proved for streams that hold what the limit promises and do not fail; with failures the position stays within the limit and the bytes taken (C131_tell_failing). readlines(n) gives pieces of lines (C131_hint_partial) and is shown to cut them (C131_hint_false)."
  },
  {
   "property": "C132",
   "status": "partial",
   "theorems": [
    "Verif.Props.BuildArgsP.C132_values_partial",
    "Verif.Props.BuildArgsP.C132_nothing",
    "Verif.Props.BuildArgsP.C132_empty_limits",
    "Verif.Props.BuildArgsP.C132_multi_false",
    "Verif.Props.BuildArgsP.C132_query_partial",
    "Verif.Props.BuildArgsP.C132_lists_false"
   ],
   "note": "Dictionaries of values: proved, for absolute addresses of maps bound with a server (C132_query_partial). None counts as not given (C132_values_partial). Of lists only the first value arrives (C132_values_partial, C132_lists_false), empty ones raise (C132_empty_limits), and multi dictionaries always raise (C132_multi_false). Lists given for arguments of a route are outside the theorem."
  },
  {
   "property": "C133",
   "status": "partial",
   "theorems": [
    "Verif.Props.BuilderFilesP.C133_only",
    "Verif.Props.BuilderFilesP.C133_once",
    "Verif.Props.BuilderFilesP.C133_close_partial",
    "Verif.Props.BuilderFilesP.C133_create_partial",
    "Verif.Props.BuilderFilesP.C133_distinct_partial",
    "Verif.Props.BuilderFilesP.C133_same_name_false",
    "Verif.Props.BuilderFilesP.C133_displaced_false",
    "Verif.Props.BuilderFilesP.C133_empty_limits"
   ],
   "note": "Refuted for several files with one name (C133_same_name_false), for files displaced by an input stream and for those added after close (C133_displaced_false); a name without files raises IndexError (C133_empty_limits). Proved: the first file of every name is closed, and no others (C133_close_partial, C133_create_partial), so all are when the names are distinct (C133_distinct_partial); none that was not given (C133_only); nothing after close has returned (C133_once). A file is a number, and its close has no effect but that it was called."
  },
  {
   "property": "C134",
   "status": "partial",
   "theorems": [
    "Verif.Accept.C134_reading",
    "Verif.Accept.C134_refused",
    "Verif.Accept.C134_form_false"
   ],
   "note": "Reading and refusing proved in full (C134_reading, C134_refused). That values have their form is false: only the beginning is looked at (C134_form_false)."
  },
  {
   "property": "C135",
   "status": "partial",
   "theorems": [
    "Verif.Props.BuildP.C135_server_partial",
    "Verif.Props.BuildP.C135_values_partial",
    "Verif.Props.BuildP.C135_scheme_false",
    "Verif.Props.BuildP.C135_domain_false"
   ],
   "note": "False for values with a segment `..` (C135_scheme_false) and for variables in domains (C135_domain_false). Proved for every value with which the routes write a path that stays below the root and a domain without delimiters (C135_server_partial); such are all values for routes with plain domains and quoting converters, as long as no segment is `..` (C135_values_partial). The script name is a plain path."
  },
  {
   "property": "C136",
   "status": "proved",
   "theorems": [
    "Verif.Props.Desc.C136_current",
    "Verif.Props.Desc.C136_answers",
    "Verif.Props.Desc.C136_weak_limits",
    "Verif.Props.Desc.C136_collision_limits"
   ],
   "note": "C136_current says what a client sees of any run that completes, C136_answers that runs complete. GET requests without If-Modified-Since; direct passthrough, which get_data refuses for iterators, is left out. A hash with collisions makes the client show an old document (C136_collision_limits)."
  },
  {
   "property": "C137",
   "status": "partial",
   "theorems": [
    "Verif.Props.Desc.C137_parts_partial",
    "Verif.Props.Desc.C137_complete_partial",
    "Verif.Props.Desc.C137_suffix_false"
   ],
   "note": "False for suffixes that are empty or longer than the document (C137_suffix_false); proved for all other requests with one range (C137_parts_partial), and completeness from it (C137_complete_partial). Strong tags without commas, as generate_etag makes them. The bytes are cut out by the view, since the library does not do that."
  },
  {
   "property": "C138",
   "status": "proved",
   "theorems": [
    "Verif.Props.AppP.C138_head",
    "Verif.Props.AppP.C138_length",
    "Verif.Props.AppP.C138_conditional",
    "Verif.Props.AppP.C138_close",
    "Verif.Props.AppP.C138_own_limits"
   ],
   "note": "Requires that no view is bound to HEAD at the end point: such a view takes the place of the one for GET (C138_own_limits). The announced length is right where it is right for GET (C52)."
  },
  {
   "property": "C139",
   "status": "partial",
   "theorems": [
    "Verif.Props.AppUrlP.C139_nested",
    "Verif.Props.AppUrlP.C139_mounted_partial",
    "Verif.Props.AppUrlP.C139_percent_false",
    "Verif.Props.AppUrlP.C139_root_false"
   ],
   "note": "The split of paths is proved for all trees and all paths that are empty or begin with a slash (C139_nested). The round trip is proved under the restrictions of C109, for mount paths without a percent sign (false with one, C139_percent_false); the root has to be given (C139_root_false)."
  },
  {
   "property": "C140",
   "status": "partial",
   "theorems": [
    "Verif.Props.Desc.C140_exchange",
    "Verif.Props.Desc.C140_current_partial",
    "Verif.Props.Desc.C140_stale_false"
   ],
   "note": "What is exchanged is proved for every history (C140_exchange). That the current document is shown is proved when every change moves the date to a later second (C140_current_partial) and false otherwise (C140_stale_false)."
  },
  {
   "property": "C141",
   "status": "partial",
   "theorems": [
    "Verif.Props.CookieTextP.C141_session_partial",
    "Verif.Props.CookieTextP.C141_answers",
    "Verif.Props.CookieTextP.C141_lifetime",
    "Verif.Props.CookieTextP.C141_path_false"
   ],
   "note": "For names as in C23 and without `;`, paths and texts for Expires that are written without `;` (the rest is false, see C125 and C85_semicolon_false), dates from 1970 on, and cookies of one domain and path."
  },
  {
   "property": "C142",
   "status": "partial",
   "theorems": [
    "Verif.Props.WireP.C142_message_partial",
    "Verif.Props.WireP.C142_connection_partial",
    "Verif.Props.WireP.C142_status_false",
    "Verif.Props.WireP.C142_name_false",
    "Verif.Props.WireP.C142_init_false",
    "Verif.Props.WireP.C142_text_false"
   ],
   "note": "Missing: status lines, header names and values given to the constructor that contain line breaks (false, with witnesses), `Content-Length` set by the application, text in lists that takes more bytes than characters (false, `C142_text_false`), bodies of unknown length before the last response. Transfer codings are not modelled."
  },
  {
   "property": "C143",
   "status": "partial",
   "theorems": [
    "Verif.Props.GrammarP.C143_list_partial",
    "Verif.Props.GrammarP.C143_dict_partial",
    "Verif.Props.GrammarP.C143_options_partial",
    "Verif.Props.GrammarP.C143_etags_partial",
    "Verif.Props.GrammarP.C143_list_false",
    "Verif.Props.GrammarP.C143_dict_false",
    "Verif.Props.GrammarP.C143_options_false",
    "Verif.Props.GrammarP.C143_etags_false"
   ],
   "note": "Missing (false, with witnesses): values that begin and end with a quote and empty elements in lists, white space around `=`, names in other letters, white space behind token values of parameters, escapes of other characters in parameters, file names that begin with a backslash, the empty tag."
  },
  {
   "property": "C144",
   "status": "partial",
   "theorems": [
    "Verif.Props.ImmCopyP.C144_dict",
    "Verif.Props.ImmCopyP.C144_multi_partial",
    "Verif.Props.ImmCopyP.C144_multi_false",
    "Verif.Props.ImmCopyP.C144_ordered_partial",
    "Verif.Props.ImmCopyP.C144_combined",
    "Verif.Props.ImmCopyP.C144_fromkeys",
    "Verif.Props.ImmCopyP.C144_cache_partial",
    "Verif.Props.ImmCopyP.C144_authorization_false"
   ],
   "note": "Missing (false, with witnesses or as exact conditions): a pickled `ImmutableMultiDict` loses keys whose list is empty; a deep copy of an ordered one moves pairs with the same key together; `Authorization` loses everything; `provided` of a `RequestCacheControl` made from None becomes True."
  },
  {
   "property": "C145",
   "status": "partial",
   "theorems": [
    "Verif.Props.ErrorsP.C145_single",
    "Verif.Props.ErrorsP.C145_wrap",
    "Verif.Props.ErrorsP.C145_classes",
    "Verif.Props.ErrorsP.C145_answer",
    "Verif.Props.ErrorsP.C145_reasons",
    "Verif.Props.ErrorsP.C145_unknown_limits",
    "Verif.Props.ErrorsP.C145_missing_partial"
   ],
   "note": "Missing: that a parameter sent with an empty value reaches the view (false, C90); handlers that do not answer with the code of the exception are the application's own."
  },
  {
   "property": "C146",
   "status": "partial",
   "theorems": [
    "Verif.Props.ThreadsP.C146_any_partial",
    "Verif.Props.ThreadsP.C146_settled",
    "Verif.Props.ThreadsP.C146_progress",
    "Verif.Props.ThreadsP.C146_match_settled",
    "Verif.Props.ThreadsP.C146_warm",
    "Verif.Props.ThreadsP.C146_match_partial",
    "Verif.Props.ThreadsP.C146_alone",
    "Verif.Props.ThreadsP.C146_build_partial",
    "Verif.Props.ThreadsP.C146_keys",
    "Verif.Props.ThreadsP.C146_match_false"
   ],
   "note": "Missing: equality while the map is being put in order (false, `C146_match_false`); there `C146_match_partial` and `C146_build_partial` give all answers that are possible. Routes that are added while other threads look up are not modelled."
  },
  {
   "property": "C147",
   "status": "proved",
   "theorems": [
    "Verif.Props.MatchCostP.C147_options",
    "Verif.Props.MatchCostP.C147_accept",
    "Verif.Props.MatchCostP.C147_etag_rounds",
    "Verif.Props.MatchCostP.C147_etag",
    "Verif.Props.MatchCostP.C147_cookie",
    "Verif.Props.MatchCostP.C147_cookie_limits",
    "Verif.Props.MatchCostP.C147_cookie_quadratic_false",
    "Verif.Props.MatchCostP.C147_route",
    "Verif.Props.MatchCostP.C147_converters",
    "Verif.Props.MatchCostP.C147_map",
    "Verif.Props.MatchCostP.C147_search"
   ],
   "note": "CPython's `re` is modelled as plain backtracking; its optimisations save attempts. Converters of applications may repeat repetitions and are outside the claim. Entity tags that end in a newline are looped over for ever (C18), each round with quadratically many attempts."
  },
  {
   "property": "C148",
   "status": "partial",
   "theorems": [
    "Verif.Props.ShareP.C148_stable",
    "Verif.Props.ShareP.C148_moment",
    "Verif.Props.ShareP.C148_full_path",
    "Verif.Props.ShareP.C148_current",
    "Verif.Props.ShareP.C148_plain",
    "Verif.Props.ShareP.C148_latest",
    "Verif.Props.ShareP.C148_body_alone",
    "Verif.Props.ShareP.C148_body_kept",
    "Verif.Props.ShareP.C148_body_second",
    "Verif.Props.ShareP.C148_body_false",
    "Verif.Props.ShareP.C148_body_bound",
    "Verif.Props.ShareP.C148_mixed_false"
   ],
   "note": "False as stated for bodies and for changed environs (`C148_body_false`, `C148_mixed_false`); proved: everything said about unchanged environs, stability, moments, the body of one reader and the bound for several. Attributes with values of their own state (`headers`, `cookies`) are left out; attributes assigned by the program are not modelled."
  },
  {
   "property": "C149",
   "status": "partial",
   "theorems": [
    "Verif.Props.AddersP.C149_adders",
    "Verif.Props.AddersP.C149_sound",
    "Verif.Props.AddersP.C149_old_or_new",
    "Verif.Props.AddersP.C149_then_lookup",
    "Verif.Props.AddersP.C149_lost_false",
    "Verif.Props.AddersP.C149_stale_false",
    "Verif.Props.AddersP.C149_later",
    "Verif.Props.AddersP.C149_fails_limits"
   ],
   "note": "False as stated when adding overlaps with putting in order (`C149_lost_false`, `C149_stale_false`, `C149_fails_limits`); proved for any number of threads that add, for lookups during adding on a map in order, for lookups afterwards, and that lookups never invent. Steps follow CPython's interpreter lock; building URLs is not among the steps (C146 has it for fixed maps)."
  },
  {
   "property": "C150",
   "status": "partial",
   "theorems": [
    "Verif.Props.OrderP.C150_lookup",
    "Verif.Props.OrderP.C150_distinct",
    "Verif.Props.OrderP.C150_handlers",
    "Verif.Props.OrderP.C150_handlers_distinct",
    "Verif.Props.OrderP.C150_app",
    "Verif.Props.OrderP.C150_status_partial",
    "Verif.Props.OrderP.C150_best_partial",
    "Verif.Props.OrderP.C150_order_false"
   ],
   "note": "Proved for registrations that keep the order among bindings of one name and method, for every negotiation, and for whole applications; for permutations among equals: the status for well formed types (`C150_status_partial`), the quality for headers without wildcards (`C150_best_partial`); false with wildcards (`C150_order_false`)."
  },
  {
   "property": "C151",
   "status": "partial",
   "theorems": [
    "Verif.Props.ClientJarP.C151_jar",
    "Verif.Props.ClientJarP.C151_seen",
    "Verif.Props.ClientJarP.C151_one",
    "Verif.Props.ClientJarP.C151_atomic",
    "Verif.Props.ClientJarP.C151_hosts_false",
    "Verif.Props.ClientJarP.C151_expired_false",
    "Verif.Props.ClientJarP.C151_delete_limits"
   ],
   "note": "Proved for every history: the jar (`C151_jar`, `C151_atomic`), what is seen (`C151_seen`), and exactly so for one host and path (`C151_one`). False of the code: cookies are sent to other hosts (`C151_hosts_false`) and after they ended (`C151_expired_false`). `http.cookiejar` is modelled as an agent after RFC 6265."
  },
  {
   "property": "C152",
   "status": "partial",
   "theorems": [
    "Verif.Props.ClientJarP.C152_jar",
    "Verif.Props.ClientJarP.C152_next_partial",
    "Verif.Props.ClientJarP.C152_history_partial",
    "Verif.Props.ClientJarP.C152_undo_false",
    "Verif.Props.ClientJarP.C152_single"
   ],
   "note": "`C152_jar` for every list of calls (removals first, then the others); equal to the calls one after the other where no call removes what an earlier one has set for the same response, for one response (`C152_next_partial`) and for whole histories of calls on the client and responses (`C152_history_partial`); false otherwise (`C152_undo_false`). `http.cookiejar` is modelled by reading its source, with RFC 6265 for the syntax of headers."
  },
  {
   "property": "C153",
   "status": "partial",
   "theorems": [
    "Verif.Props.CookiePathsP.C153_kept",
    "Verif.Props.CookiePathsP.C153_seen",
    "Verif.Props.CookiePathsP.C153_name_partial",
    "Verif.Props.CookiePathsP.C153_specific_false"
   ],
   "note": "What is kept (`C153_kept`) and exactly what is seen (`C153_seen`: the shortest path counts) for every history; what is meant where a name has one path that covers the request (`C153_name_partial`); false for several (`C153_specific_false`). Cookies with a domain are not covered; names, paths and dates as in C141."
  },
  {
   "property": "C154",
   "status": "partial",
   "theorems": [
    "Verif.Props.AuthSetsP.C154_challenge_partial",
    "Verif.Props.AuthSetsP.C154_remove_false",
    "Verif.Props.AuthSetsP.C154_credentials",
    "Verif.Props.AuthSetsP.C154_refused_false",
    "Verif.Props.AuthSetsP.C154_response_partial",
    "Verif.Props.AuthSetsP.C154_domain_false",
    "Verif.Props.SetPositionsP.C154_positions_partial"
   ],
   "note": "Live for every history of calls that leaves the set itself consistent, assignment by position included (`C154_challenge_partial`, `C154_positions_partial`), and through a response for names that are tokens (`C154_response_partial`); false for removal with capital letters (`C154_remove_false`) and for names that need quotes (`C154_domain_false`). Credentials: `C154_credentials` for every call; a refused change stays in the set (`C154_refused_false`)."
  }
 ]
}