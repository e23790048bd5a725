{"id": "C01", "title": "Header value quoting round-trips", "statement": "For every string v and either setting of allow_token, unquoting the result of quote_header_value(v) yields v again.", "quantifier": "every unicode string v; allow_token true or false", "why_tests_cant": "Depends on the interplay of two global replace passes on arbitrary runs of backslashes and quotes; samples cannot cover all run lengths.", "anchors": ["verktyg/http/basic.py:quote_header_value", "verktyg/http/basic.py:unquote_header_value"]}
{"id": "C02", "title": "A quoted header value cannot break out of its quotes", "statement": "The result of quote_header_value(v) is either v itself made only of token characters, or one complete quoted-string: an opening quote, a body in which every quote and backslash is escaped, and a closing quote that is the last character.", "quantifier": "every string v, both settings of allow_token", "why_tests_cant": "Header injection is an adversarial-input property: it must hold for every possible attacker chosen string.", "anchors": ["verktyg/http/basic.py:quote_header_value"]}
{"id": "C03", "title": "List headers round-trip", "statement": "parse_list_header(dump_header(items)) returns items, for every list of strings.", "quantifier": "every list of strings", "why_tests_cant": "Interaction of a stateful tokenizer, whitespace stripping and two unquoting passes over unbounded lists of unbounded strings.", "anchors": ["verktyg/http/basic.py:dump_header", "verktyg/http/basic.py:parse_list_header"]}
{"id": "C04", "title": "Dictionary headers round-trip", "statement": "parse_dict_header(dump_header(d)) returns the same mapping (same keys, same values, None for valueless keys) for every mapping with token keys.", "quantifier": "every mapping from token keys to optional string values", "why_tests_cant": "Unbounded mappings of unbounded values through the same tokenizer as list headers.", "anchors": ["verktyg/http/basic.py:dump_header", "verktyg/http/basic.py:parse_dict_header"]}
{"id": "C05", "title": "Option headers round-trip", "statement": "parse_options_header(dump_options_header(h, opts)) returns h and the same options, for every token header value and options with token names and arbitrary values.", "quantifier": "every header value, every list of options, every option value", "why_tests_cant": "The parser is a backtracking regular expression; only a proof shows no value confuses the split at ';' and '='.", "anchors": ["verktyg/http/basic.py:dump_options_header", "verktyg/http/basic.py:parse_options_header"]}
{"id": "C06", "title": "Header values stored through the API never contain line breaks", "statement": "Starting from an empty Headers object, after any sequence of public mutating calls (add, set, item assignment, index assignment, setdefault, extend, pop, remove, clear) no stored value contains CR or LF, so serialising cannot create an extra header line.", "quantifier": "every history of operations with arbitrary arguments", "why_tests_cant": "Response splitting must be excluded for every operation history and argument.", "anchors": ["verktyg/http/basic.py:Headers"]}
{"id": "C07", "title": "Headers is a case-insensitive multimap", "statement": "After any history, getlist(k) is exactly the list of values that an abstract case-insensitive map from names to value lists would hold, get/[]/in agree with it, and operations on one name never change what is observed for a name that differs by more than case.", "quantifier": "every history, every name, any case folding function", "why_tests_cant": "State machine refinement over unbounded histories.", "anchors": ["verktyg/http/basic.py:Headers"]}
{"id": "C08", "title": "Setting a header leaves exactly one occurrence in place", "statement": "After set(name, v) there is exactly one entry for name (ignoring case), it holds v, it sits where the first old entry was (or at the end when there was none), and all other entries keep their relative order.", "quantifier": "every header list, name and value", "why_tests_cant": "In-place slice surgery on a list with arbitrarily many duplicates in arbitrary places.", "anchors": ["verktyg/http/basic.py:Headers.set"]}
{"id": "C09", "title": "A rejected header call changes nothing", "statement": "If add or set or an index assignment raises because of an invalid value, the stored headers are exactly what they were before.", "quantifier": "every header list and argument", "why_tests_cant": "Needs all intermediate states of the mutation, for every list.", "anchors": ["verktyg/http/basic.py:Headers.add", "verktyg/http/basic.py:Headers.set", "verktyg/http/basic.py:Headers.__setitem__"]}
{"id": "C10", "title": "HeaderSet membership, iteration and serialisation agree", "statement": "After any history of add, remove, discard, update and clear on a HeaderSet built from distinct names, `name in hs` holds exactly when iteration (and to_header) lists that name ignoring case, and len(hs) is the number of listed names.", "quantifier": "every history, every name", "why_tests_cant": "Two redundant containers must stay coherent over every history.", "anchors": ["verktyg/http/basic.py:HeaderSet"]}
{"id": "C11", "title": "Resolved byte ranges lie inside the resource", "statement": "Whenever Range.range_for_length(length) returns (start, stop), then 0 <= start < stop <= length; for a single satisfiable bytes range it returns exactly the requested part clipped to the length.", "quantifier": "every range value and every length", "why_tests_cant": "Off by one at the boundaries for every integer combination.", "anchors": ["verktyg/http/cache_control.py:Range.range_for_length", "verktyg/http/basic.py:is_byte_range_valid"]}
{"id": "C12", "title": "Accepted Range headers are ordered and disjoint", "statement": "Whenever parse_range_header returns a range set, each range is non-empty, ranges are in increasing order and do not overlap, and only the last one may be open ended or a suffix.", "quantifier": "every header string", "why_tests_cant": "Parser invariants over an unbounded list of comma separated items.", "anchors": ["verktyg/http/cache_control.py:parse_range_header"]}
{"id": "C13", "title": "Malformed Range headers are reported as None", "statement": "parse_range_header never raises: for every string it returns a Range or None.", "quantifier": "every header string", "why_tests_cant": "Absence of exceptions over every possible input string.", "anchors": ["verktyg/http/cache_control.py:parse_range_header"]}
{"id": "C14", "title": "Range headers round-trip", "statement": "For every well formed range set r, parse_range_header(r.to_header()) has the same units and ranges.", "quantifier": "every units token and every well formed list of ranges", "why_tests_cant": "Unbounded integers and unbounded lists.", "anchors": ["verktyg/http/cache_control.py:Range.to_header", "verktyg/http/cache_control.py:parse_range_header"]}
{"id": "C15", "title": "Content-Range objects stay valid and round-trip", "statement": "Every ContentRange built by its constructor, set, unset or the parser is a valid byte range (both bounds or none, 0 <= start < stop, start < length), and parsing to_header of a set one returns the same units, start, stop and length.", "quantifier": "every history of set/unset, every integer triple, every header string", "why_tests_cant": "Unbounded integers; validity is an invariant over histories.", "anchors": ["verktyg/http/cache_control.py:ContentRange", "verktyg/http/cache_control.py:parse_content_range_header", "verktyg/http/basic.py:is_byte_range_valid"]}
{"id": "C16", "title": "ETag quoting round-trips", "statement": "For every etag without a double quote and either strength, unquote_etag(quote_etag(e, weak)) = (e, weak); quote_etag rejects every etag containing a double quote.", "quantifier": "every string, weak or strong", "why_tests_cant": "All strings, including those that look like weak prefixes or quoted forms.", "anchors": ["verktyg/http/cache_control.py:quote_etag", "verktyg/http/cache_control.py:unquote_etag"]}
{"id": "C17", "title": "ETag set headers round-trip", "statement": "parse_etags(e.to_header()) contains exactly the same strong and weak tags as e, for all tags without quotes, and '*' is preserved.", "quantifier": "every finite set of strong and weak tags", "why_tests_cant": "The parser is a lazy regular expression run in a loop over unbounded input.", "anchors": ["verktyg/http/cache_control.py:ETags.to_header", "verktyg/http/cache_control.py:parse_etags"]}
{"id": "C18", "title": "Parsing an ETag header terminates", "statement": "parse_etags returns for every header string.", "quantifier": "every header string", "why_tests_cant": "Termination cannot be observed by finite tests.", "anchors": ["verktyg/http/cache_control.py:parse_etags"]}
{"id": "C19", "title": "Conditional request decision", "statement": "For GET and HEAD, is_resource_modified answers False exactly when the supplied If-None-Match (when present) contains the etag under weak comparison, or, without a usable If-None-Match, when If-Modified-Since is not earlier than the last modification truncated to seconds; If-None-Match takes precedence.", "quantifier": "every combination of method, etag, data, date and headers", "why_tests_cant": "Decision table over unbounded inputs with precedence between header fields.", "anchors": ["verktyg/http/cache_control.py:is_resource_modified"]}
{"id": "C20", "title": "Weak and strong ETag comparison", "statement": "A strong comparison (`in`, contains) never succeeds on a tag that was only listed as weak, a weak comparison succeeds for tags listed either way, and the wildcard succeeds for both.", "quantifier": "every tag set, every tag", "why_tests_cant": "All sets and tags.", "anchors": ["verktyg/http/cache_control.py:ETags"]}
{"id": "C21", "title": "Cookie value quoting round-trips", "statement": "Unquoting the quoted form of any byte string yields the same bytes.", "quantifier": "every byte string", "why_tests_cant": "The decoder interleaves two regular expression scans; octal-looking text after an escaped backslash is the classic failure.", "anchors": ["verktyg/http/cookies.py:_cookie_quote", "verktyg/http/cookies.py:_cookie_unquote"]}
{"id": "C22", "title": "Cookie values cannot inject cookie attributes", "statement": "The serialised form of any cookie value contains no ';', no ',', no control or non-ASCII byte, and any '\"' or '\\\\' inside is escaped, so the attributes of the emitted cookie are only those passed explicitly.", "quantifier": "every byte string value", "why_tests_cant": "Adversarial input: must hold for every value.", "anchors": ["verktyg/http/cookies.py:_cookie_quote", "verktyg/http/cookies.py:dump_cookie"]}
{"id": "C23", "title": "Cookies round-trip through the header", "statement": "For every cookie name (without separators or whitespace, not an attribute name) and every value, parsing the header produced by dump_cookie gives back exactly that name and value.", "quantifier": "every name, every value", "why_tests_cant": "Backtracking regular expression over arbitrary quoted content.", "anchors": ["verktyg/http/cookies.py:dump_cookie", "verktyg/http/cookies.py:_cookie_parse_impl", "verktyg/http/cookies.py:parse_cookie"]}
{"id": "C24", "title": "MultiDict refines a key to value-list map", "statement": "After any history of operations, getlist, get, [], in, keys, items, lists, values and len of a MultiDict agree with an abstract finite map from keys to lists of values.", "quantifier": "every history, every key", "why_tests_cant": "State machine refinement over unbounded histories.", "anchors": ["verktyg/datastructures.py:MultiDict"]}
{"id": "C25", "title": "A key that is present can be looked up", "statement": "If `k in d` then d[k] returns the first value of getlist(k); iterating items() never raises.", "quantifier": "every history", "why_tests_cant": "Depends on all reachable states.", "anchors": ["verktyg/datastructures.py:MultiDict.__getitem__", "verktyg/datastructures.py:MultiDict.setlist"]}
{"id": "C26", "title": "OrderedMultiDict preserves the global insertion order", "statement": "After any history of operations the items(multi=True) sequence of an OrderedMultiDict is exactly the log of added pairs with removed keys' pairs deleted, and getlist(k), keys and len are its projections.", "quantifier": "every history", "why_tests_cant": "Doubly linked list with per-key buckets: pointer invariants over every history.", "anchors": ["verktyg/datastructures.py:OrderedMultiDict", "verktyg/datastructures.py:_omd_bucket"]}
{"id": "C27", "title": "CombinedMultiDict behaves as the layered union", "statement": "Lookups return the first value of the first dict holding the key, getlist concatenates in order, in/keys/len describe the union and every mutating call raises without changing anything; all views agree with each other.", "quantifier": "every list of dicts, every key", "why_tests_cant": "All stacks of dictionaries.", "anchors": ["verktyg/datastructures.py:CombinedMultiDict"]}
{"id": "C28", "title": "Immutable structures cannot be changed", "statement": "No sequence of public method calls changes the observable contents of ImmutableList, ImmutableDict, ImmutableMultiDict, ImmutableOrderedMultiDict or EnvironHeaders.", "quantifier": "every history of method calls", "why_tests_cant": "Requires every inherited mutator in every order.", "anchors": ["verktyg/datastructures.py:ImmutableListMixin", "verktyg/datastructures.py:ImmutableDictMixin", "verktyg/datastructures.py:ImmutableMultiDictMixin", "verktyg/http/basic.py:ImmutableHeadersMixin"]}
{"id": "C29", "title": "Equal immutable multidicts hash equally", "statement": "If two hashable multidicts compare equal then their hashes are equal.", "quantifier": "every pair", "why_tests_cant": "Pairs of arbitrary dictionaries.", "anchors": ["verktyg/datastructures.py:ImmutableMultiDictMixin", "verktyg/datastructures.py:ImmutableOrderedMultiDict._iter_hashitems", "verktyg/datastructures.py:CombinedMultiDict"]}
{"id": "C30", "title": "Observed dictionaries notify on every change", "statement": "For every history on a CallbackDict, each call that changes the contents invokes the callback exactly once, after the change, and calls that raise never invoke it; so a mirror refreshed by the callback always equals the dictionary.", "quantifier": "every history", "why_tests_cant": "Coherence invariant over histories.", "anchors": ["verktyg/datastructures.py:UpdateDictMixin", "verktyg/datastructures.py:CallbackDict"]}
{"id": "C31", "title": "LimitedStream never reads past its limit", "statement": "Whatever sequence of read, readline, readlines, iteration and exhaust calls is made, the total number of bytes taken from the wrapped stream never exceeds the limit.", "quantifier": "every call history with any sizes, every underlying stream behaviour", "why_tests_cant": "Reading past the body hangs or desynchronises keep-alive connections; depends on history and stream chunking.", "anchors": ["verktyg/wsgi.py:LimitedStream"]}
{"id": "C32", "title": "LimitedStream delivers exactly the stream prefix", "statement": "The concatenation of everything returned is a prefix of the wrapped stream's first limit bytes, nothing is lost or duplicated, and a short stream is reported as a client disconnect instead of silently truncated data.", "quantifier": "every call history, every stream", "why_tests_cant": "Same.", "anchors": ["verktyg/wsgi.py:LimitedStream"]}
{"id": "C33", "title": "Line iteration does not depend on chunking", "statement": "make_line_iter yields the lines of the text split after each CRLF, CR or LF, whatever the boundaries of the chunks the stream delivers, and concatenating the lines gives back the text.", "quantifier": "every text and every partition into chunks", "why_tests_cant": "A CRLF pair can be split at any boundary.", "anchors": ["verktyg/wsgi.py:make_line_iter"]}
{"id": "C34", "title": "Chunk iteration does not depend on chunking", "statement": "make_chunk_iter yields the pieces of the data split at the separator, whatever the boundaries of the chunks.", "quantifier": "every data, separator and partition", "why_tests_cant": "A separator can straddle any boundary.", "anchors": ["verktyg/wsgi.py:make_chunk_iter"]}
{"id": "C35", "title": "Mount dispatch preserves the path and picks the longest mount", "statement": "DispatcherMiddleware calls exactly one application, with SCRIPT_NAME + PATH_INFO unchanged; the chosen mount is the longest mounted prefix ending at a segment boundary, and the default application is used exactly when no mount is such a prefix.", "quantifier": "every path, every mount table", "why_tests_cant": "All paths and mount tables.", "anchors": ["verktyg/wsgi.py:DispatcherMiddleware"]}
{"id": "C36", "title": "Shared data cannot be escaped", "statement": "For every PATH_INFO, every path handed to a directory loader stays inside the exported directory after resolving dot segments.", "quantifier": "every path, every export prefix", "why_tests_cant": "Path traversal is adversarial.", "anchors": ["verktyg/wsgi.py:SharedDataMiddleware"]}
{"id": "C37", "title": "Host trust check", "statement": "host_is_trusted accepts a host exactly when its name (without port, after IDNA) equals a listed entry, or is a subdomain (or the domain itself) of an entry starting with a dot.", "quantifier": "every host, every trusted list", "why_tests_cant": "Adversarial host header.", "anchors": ["verktyg/wsgi.py:host_is_trusted", "verktyg/wsgi.py:get_host"]}
{"id": "C38", "title": "Secure file names are safe and stable", "statement": "secure_filename returns only letters, digits, '_', '-' and '.', never starts or ends with '.' or '_', contains no path separator, and is idempotent.", "quantifier": "every string, any unicode normalisation", "why_tests_cant": "Adversarial file names.", "anchors": ["verktyg/utils.py:secure_filename"]}
{"id": "C39", "title": "Safe percent-decoding keeps reserved characters encoded", "statement": "_safe decoding with a set of unsafe characters never decodes an escape of an unsafe character, decodes every other well formed escape, leaves everything else, and re-encoding does not change the meaning of a well formed path.", "quantifier": "every string, every unsafe set", "why_tests_cant": "All strings.", "anchors": ["verktyg/urls.py:_safe_urlunquote_to_bytes", "verktyg/urls.py:uri_to_iri", "verktyg/urls.py:iri_to_uri"]}
{"id": "C40", "title": "Method dispatch decision", "statement": "Looking up an endpoint fails with 501 exactly when no binding has that name, with 405 exactly when the name is bound but not for the method (HEAD may use GET bindings when there is no HEAD binding), and otherwise only bindings of that name and method compete; nested dispatchers behave as if their bindings were added directly.", "quantifier": "every set of bindings, every name and method", "why_tests_cant": "All registration orders and tables.", "anchors": ["verktyg/dispatch.py:Dispatcher"]}
{"id": "C41", "title": "Content negotiation is sound and complete", "statement": "select_representation returns one of the offered representations, one that is acceptable for every supplied Accept header, and raises NotAcceptable exactly when none is.", "quantifier": "every list of representations and Accept headers", "why_tests_cant": "All combinations.", "anchors": ["verktyg/accept/__init__.py:select_representation", "verktyg/accept/_base.py:Value.acceptability"]}
{"id": "C42", "title": "Content negotiation picks a best representation", "statement": "The selected representation is not strictly worse, in every respect, than another offered acceptable one, and the result does not depend on the order of ranges in the Accept header.", "quantifier": "every list of representations and Accept headers", "why_tests_cant": "Needs the comparison to be a total preorder for all values.", "anchors": ["verktyg/accept/__init__.py:Acceptability", "verktyg/accept/_base.py:Acceptability", "verktyg/accept/__init__.py:select_representation"]}
{"id": "C43", "title": "A zero quality excludes a representation", "statement": "A representation whose most specific matching range has q=0 is never selected.", "quantifier": "every Accept header", "why_tests_cant": "All headers.", "anchors": ["verktyg/accept/_base.py:Value.acceptability"]}
{"id": "C44", "title": "Exception handlers: most specific acceptable class wins", "statement": "Handler lookup returns the handler chosen among those registered for the first class in method resolution order that has an acceptable handler, and None exactly when no class in the order has one.", "quantifier": "every handler table and class hierarchy", "why_tests_cant": "All hierarchies.", "anchors": ["verktyg/exception_dispatch.py:ExceptionDispatcher.lookup"]}
{"id": "C45", "title": "Exception dispatchers can be nested", "statement": "Adding one exception dispatcher to another makes its handlers available in the outer one.", "quantifier": "every pair of dispatchers", "why_tests_cant": "All tables.", "anchors": ["verktyg/exception_dispatch.py:ExceptionDispatcher"]}
{"id": "C46", "title": "Routing picks the best matching route", "statement": "A successful match returns the first route, in order of decreasing specificity (ties by registration), among those that match; routes with distinct specificity give a result independent of registration order; NotFound is raised exactly when no route matches.", "quantifier": "every route table, every path", "why_tests_cant": "All tables and insertion orders.", "anchors": ["verktyg/routing.py:URLMap.update", "verktyg/routing.py:MapAdapter.match", "verktyg/routing.py:Route.match_compare_key"]}
{"id": "C47", "title": "A static route matches only its own path", "statement": "A strict leaf route without variables matches a path exactly when the path equals the rule.", "quantifier": "every rule, every path", "why_tests_cant": "Regular expression anchoring on all strings.", "anchors": ["verktyg/routing.py:Route.compile", "verktyg/routing.py:Route.match"]}
{"id": "C48", "title": "Trailing slash redirects converge", "statement": "A branch route requested without its trailing slash produces a redirect to the same path plus a slash, and requesting that path matches the same route with the same arguments without a further redirect.", "quantifier": "every branch route, every path", "why_tests_cant": "All rules and paths.", "anchors": ["verktyg/routing.py:Route.match", "verktyg/routing.py:MapAdapter.match"]}
{"id": "C49", "title": "Building and matching URLs are inverse", "statement": "For a route whose variables each fill a path segment, matching the (percent-decoded) URL built from acceptable arguments gives back the same arguments.", "quantifier": "every such route, every argument value", "why_tests_cant": "All values, through regular expression backtracking and percent encoding.", "anchors": ["verktyg/routing.py:Route.build", "verktyg/routing.py:Route.match", "verktyg/routing.py:BaseConverter"]}
{"id": "C50", "title": "Converters only deliver values they declare valid", "statement": "Every value delivered by the integer converter is within its bounds and has the fixed number of digits, string values have a length within bounds and no slash, `any` values are among the listed ones; reading back the (percent-decoded) text written for a valid value gives that value.", "quantifier": "every converter configuration, every path, every value", "why_tests_cant": "All strings and integers.", "anchors": ["verktyg/routing.py:IntegerConverter", "verktyg/routing.py:UnicodeConverter", "verktyg/routing.py:AnyConverter", "verktyg/routing.py:UUIDConverter"]}
{"id": "C51", "title": "Bodyless responses have no body", "statement": "For HEAD requests and statuses 1xx, 204 and 304 the WSGI iterable is empty; 1xx and 204 announce Content-Length 0 and 304 carries no entity headers other than Expires and Content-Location.", "quantifier": "every response and request method", "why_tests_cant": "All statuses.", "anchors": ["verktyg/responses.py:BaseResponse.get_app_iter", "verktyg/responses.py:BaseResponse.get_wsgi_headers"]}
{"id": "C52", "title": "Content-Length equals the body length", "statement": "Whenever the emitted headers of a buffered response carry a Content-Length that was computed by the library, it is the number of bytes of the emitted body, after any history of set_data, stream writes and freeze.", "quantifier": "every history", "why_tests_cant": "Histories of mutation with cached length.", "anchors": ["verktyg/responses.py:BaseResponse.set_data", "verktyg/responses.py:BaseResponse.get_wsgi_headers", "verktyg/responses.py:ResponseStream"]}
{"id": "C53", "title": "Close callbacks run exactly once", "statement": "For every way a server can consume the WSGI iterable (fully, partially then close, close immediately after start), the response's close callbacks run exactly once.", "quantifier": "every consumption schedule", "why_tests_cant": "Depends on the crash/abort point.", "anchors": ["verktyg/responses.py:BaseResponse.close", "verktyg/wsgi.py:ClosingIterator", "verktyg/application.py:Application._wsgi_inner"]}
{"id": "C54", "title": "Status line and status code stay coherent", "statement": "After any sequence of assignments to status or status_code, the status line starts with the decimal status code.", "quantifier": "every history", "why_tests_cant": "All strings and integers.", "anchors": ["verktyg/responses.py:BaseResponse._set_status", "verktyg/responses.py:BaseResponse._set_status_code"]}
{"id": "C55", "title": "Request data is read once", "statement": "get_data with caching returns the same bytes on every call and consumes the input stream at most once.", "quantifier": "every call history", "why_tests_cant": "Histories.", "anchors": ["verktyg/requests.py:BaseRequest.get_data"]}
{"id": "C56", "title": "Basic credentials round-trip", "statement": "For every username without ':' and every password, parsing the Authorization header built from them gives the same octets back (as the latin-1 text WSGI uses).", "quantifier": "every pair of byte strings", "why_tests_cant": "Base64 over all byte strings.", "anchors": ["verktyg/http/auth.py:parse_authorization_header"]}
{"id": "C57", "title": "Digest credentials are complete", "statement": "An Authorization object is only returned for digest when username, realm, nonce, uri and response are present, and when qop is given nc and cnonce are non-empty.", "quantifier": "every header", "why_tests_cant": "All headers.", "anchors": ["verktyg/http/auth.py:parse_authorization_header"]}
{"id": "C58", "title": "Cache-Control properties", "statement": "Reading a directive property after setting it returns the set value, setting one directive does not change another, and unsetting removes it.", "quantifier": "every state, every directive", "why_tests_cant": "All states.", "anchors": ["verktyg/http/cache_control.py:cache_property", "verktyg/http/cache_control.py:_CacheControl"]}
{"id": "C59", "title": "HTTP dates round-trip", "statement": "parse_date(http_date(t)) is t, for every UTC timestamp with a year of at least 100.", "quantifier": "every date", "why_tests_cant": "Calendar arithmetic over all dates.", "anchors": ["verktyg/http/basic.py:parse_date", "verktyg/http/basic.py:http_date"]}
{"id": "C60", "title": "Redirect pages do not allow markup injection", "statement": "The page produced by redirect(location) contains no markup other than its fixed template, for every location.", "quantifier": "every location string", "why_tests_cant": "Adversarial.", "anchors": ["verktyg/utils.py:redirect"]}
{"id": "C61", "title": "Middleware composition order", "statement": "The middleware added last is outermost, and the request reaches the application through every middleware in reverse order of registration.", "quantifier": "every list of middleware", "why_tests_cant": "All lists.", "anchors": ["verktyg/application.py:Application"]}
{"id": "C62", "title": "Errors reach the most specific handler or propagate", "statement": "For every outcome of routing, dispatch and view execution, either the view's response is used, or the handler chosen for the raised exception's class produces the response, or the exception propagates unchanged because no handler exists.", "quantifier": "every application configuration and outcome", "why_tests_cant": "All combinations.", "anchors": ["verktyg/application.py:Application._get_response"]}
{"id": "C63", "title": "Declared content length is never negative", "statement": "get_content_length returns None or a non-negative integer for every environ, and a request body stream is never larger than the declared length.", "quantifier": "every environ", "why_tests_cant": "All strings.", "anchors": ["verktyg/wsgi.py:get_content_length", "verktyg/wsgi.py:get_input_stream"]}
{"id": "C64", "title": "Hop-by-hop and entity header removal", "statement": "remove_entity_headers removes exactly the entity headers that are not explicitly allowed, ignoring case, and keeps everything else in order; hop-by-hop removal likewise; both are idempotent.", "quantifier": "every header list", "why_tests_cant": "All lists.", "anchors": ["verktyg/http/basic.py:remove_entity_headers", "verktyg/http/basic.py:remove_hop_by_hop_headers"]}
{"id": "C65", "title": "Abort raises the exception for the code", "statement": "abort(code) raises an HTTP exception whose code is exactly the requested one for each known code, and a LookupError for every other code.", "quantifier": "every integer code", "why_tests_cant": "All integers.", "anchors": ["verktyg/exceptions.py:Aborter", "verktyg/exceptions.py:default_exceptions"]}
{"id": "C66", "title": "HeaderSet notifies its observer on every change", "statement": "For every HeaderSet state and call: if the call completes and the visible content (members, listed names) differs afterwards, the update callback has been invoked, and a call that changes nothing and raises does not invoke it.", "quantifier": "every HeaderSet state and call", "why_tests_cant": "Every reachable state and call combination, including case variants.", "anchors": ["verktyg/http/basic.py:HeaderSet"]}
{"id": "C67", "title": "Line iteration over a request body", "statement": "make_line_iter over a stream of bytes, such as a request body, yields the lines of the body.", "quantifier": "every byte stream", "why_tests_cant": "All streams.", "anchors": ["verktyg/wsgi.py:make_line_iter"]}
{"id": "C68", "title": "Percent encoding is idempotent", "statement": "iri_to_uri(iri_to_uri(x)) equals iri_to_uri(x), for the path, query and fragment of every IRI, and the result contains only unreserved, permitted and escaped bytes.", "quantifier": "every IRI reference", "why_tests_cant": "All strings.", "anchors": ["verktyg/urls.py:iri_to_uri"]}
{"id": "C69", "title": "Converting a URI to an IRI and back keeps its parts", "statement": "iri_to_uri(uri_to_iri(u)) has a path, query and fragment that percent-decode to the same bytes as those of u.", "quantifier": "every well formed reference", "why_tests_cant": "Interaction of decoding with the delimiters of the syntax, for all strings.", "anchors": ["verktyg/urls.py:uri_to_iri", "verktyg/urls.py:iri_to_uri"]}
{"id": "C70", "title": "Language and charset ranges match as specified", "statement": "A language is in a parsed Accept-Language header exactly when one of its ranges is '*' or consists of leading subtags of the language; a charset is in a parsed Accept-Charset header exactly when a range is '*' or equal to it; the test never raises.", "quantifier": "every language tag, charset and header", "why_tests_cant": "All strings.", "anchors": ["verktyg/accept/language.py:Language", "verktyg/accept/charset.py:Charset", "verktyg/accept/_base.py:Accept.__contains__"]}
{"id": "C71", "title": "Accept headers round-trip", "statement": "Parsing the header written for a list of ranges gives the same ranges, qualities and parameters.", "quantifier": "every list of ranges", "why_tests_cant": "All values and parameters.", "anchors": ["verktyg/accept/_base.py:Accept.to_header", "verktyg/accept/_base.py:split_accept_string"]}
{"id": "C72", "title": "Qualities lie between zero and one", "statement": "Every quality delivered by parsing an Accept header lies between 0 and 1.", "quantifier": "every header", "why_tests_cant": "All strings.", "anchors": ["verktyg/accept/_base.py:Range", "verktyg/accept/_base.py:split_accept_string"]}
{"id": "C73", "title": "Closing a response closes the wrapped iterable", "statement": "When the server closes the iterable of a response made from an iterable with a close method, that method is called exactly once, whatever was done with the response before.", "quantifier": "every response and every history of calls on it", "why_tests_cant": "All histories and consumption patterns.", "anchors": ["verktyg/responses.py:BaseResponse.close", "verktyg/responses.py:BaseResponse.make_sequence", "verktyg/responses.py:BaseResponse.freeze"]}
{"id": "C74", "title": "Cache-Control directives survive the header", "statement": "Writing cache control directives into a header and parsing it again keeps every flag, max_age and the text of every other directive; assigning a directive through response.cache_control is visible to the next read, keeps the other directives, and changes no other header.", "quantifier": "every set of directives with proper names and text or integer values, every response header list", "why_tests_cant": "Tests assign one or two fixed directives to an otherwise empty response.", "anchors": ["verktyg/http/cache_control.py:_CacheControl", "verktyg/http/cache_control.py:parse_cache_control_header", "verktyg/responses.py:cache_control"]}
{"id": "C75", "title": "WWW-Authenticate round trip", "statement": "Parsing the header written for an authentication challenge gives the same scheme and the same parameters; reading a challenge property after setting it gives the set value, unsetting removes it, other properties are unaffected.", "quantifier": "every challenge whose parameter names are header tokens, every property value", "why_tests_cant": "Tests use two or three fixed challenges with simple values; quoting and commas inside values are what breaks parsers.", "anchors": ["verktyg/http/auth.py:WWWAuthenticate", "verktyg/http/auth.py:parse_www_authenticate_header"]}
{"id": "C76", "title": "Reading a date never raises", "statement": "Whatever the text of a date header, parse_date raises nothing: it answers None or a date of the calendar; a date whose fields are out of range is None.", "quantifier": "every string", "why_tests_cant": "The parser indexes words, splits on punctuation and converts pieces to numbers; a test only feeds it a few malformed headers.", "anchors": ["verktyg/http/basic.py: parse_date"]}
{"id": "C77", "title": "The other date formats denote the same moment", "statement": "parse_date reads the three formats of HTTP/1.1: a date of the years 1969 to 2068 written in the format of RFC 850, a date written in the format of asctime(), and a date with a numeric offset, which denotes the moment that offset earlier (None only outside of the years 1 to 9999).", "quantifier": "every valid date, every name of a day in RFC 850 dates, every offset of up to 99 hours and 59 minutes", "why_tests_cant": "There are billions of dates and the month lengths, leap years and two-digit years interact; tests use one date per format.", "anchors": ["verktyg/http/basic.py: parse_date"]}
{"id": "C78", "title": "Entity tags of a response", "statement": "get_etag returns the tag and strength given to set_etag; a tag with a quote or line break is refused without effect; add_etag keeps an existing tag unless told to overwrite it, and otherwise sets the hash of the complete body without changing the body; no other header changes.", "quantifier": "every tag, strength, header list and response body, however it is divided into pieces", "why_tests_cant": "Tests use one tag and one body; the pieces of a body and unusual characters in tags are not covered.", "anchors": ["verktyg/responses.py: ETagResponseMixin.set_etag", "verktyg/responses.py: get_etag", "verktyg/responses.py: add_etag"]}
{"id": "C79", "title": "Conditional responses", "statement": "make_conditional turns the response to a GET or HEAD into an empty 304 exactly when the validators sent by the client show that its copy is still good, and otherwise leaves status and body alone; all other headers than Date and Content-Length stay as they are; other methods and requests without conditional headers never lead to a 304; a client that sends back the tag it was given gets the 304.", "quantifier": "every response, tag, list of tags, pair of dates and method", "why_tests_cant": "The decision depends on a combination of four optional headers; tests cover a handful of combinations.", "anchors": ["verktyg/responses.py: make_conditional", "verktyg/http/cache_control.py: is_resource_modified"]}
{"id": "C80", "title": "Typed header properties", "statement": "Assigning a number, date or text to a header property of a response and reading it gives back the value; text with line breaks is refused without effect; deleting the property removes the header in whatever case; reading never raises whatever the header says; headers of other names never change.", "quantifier": "every header list, value and header text", "why_tests_cant": "All header texts; tests assign one value per property.", "anchors": ["verktyg/responses.py: content_length, date, expires, last_modified, location, age", "verktyg/datastructures.py: header_property"]}
{"id": "C81", "title": "Media type and parameters of a response", "statement": "Assigning mimetype writes Content-Type with the charset for text and XML types and without it for others, and reading mimetype gives the value back; assigning one entry of mimetype_params keeps the media type and the other parameters and is read back; no other header changes.", "quantifier": "every media type, charset, parameter name and value, header list", "why_tests_cant": "All strings; the quoting of parameters is where such code fails.", "anchors": ["verktyg/responses.py: _get_mimetype, _set_mimetype, mimetype_params", "verktyg/utils.py: get_content_type"]}
{"id": "C82", "title": "Set-valued headers are live views", "statement": "After any history of calls on the set obtained from vary, content_language or allow, reading the property again gives the same set; assigning a list of names is read back in order; an empty set removes the header; no other header changes.", "quantifier": "every initial header and every history of calls", "why_tests_cant": "All histories; tests make one or two calls.", "anchors": ["verktyg/responses.py: _set_property, vary, content_language, allow", "verktyg/http/basic.py: HeaderSet"]}
{"id": "C83", "title": "content_range is a live view", "statement": "A range written through response.content_range is read back; invalid ranges are refused without effect; unset removes the header; reading the property has no effect on the headers.", "quantifier": "every header list, range and header text", "why_tests_cant": "All numbers and header texts.", "anchors": ["verktyg/responses.py: _get_content_range, _set_content_range", "verktyg/http/cache_control.py: ContentRange"]}
{"id": "C84", "title": "retry_after", "statement": "A number of seconds assigned to retry_after is read as the moment that many seconds from now, a date as that date, None removes the header; reading never raises.", "quantifier": "every number, date, current time, and header text", "why_tests_cant": "All numbers, dates and texts; the end of the calendar and unusual digits are not tested.", "anchors": ["verktyg/responses.py: _get_retry_after, _set_retry_after"]}
{"id": "C85", "title": "Cookies on responses", "statement": "set_cookie adds exactly one Set-Cookie header after all others; it consists of the cookie and exactly the attributes given, which no argument can extend; line breaks are refused without effect; delete_cookie adds a cookie with empty value, expired in 1970 and with age zero, for the given path and domain.", "quantifier": "every name, value, set of attributes and header list", "why_tests_cant": "All byte strings.", "anchors": ["verktyg/responses.py: set_cookie, delete_cookie", "verktyg/http/cookies.py: dump_cookie"]}
{"id": "C86", "title": "If-Range round trip", "statement": "Parsing the If-Range header written for a date or for an entity tag gives that date or tag; parsing never raises and never gives both.", "quantifier": "every date, tag and header text", "why_tests_cant": "All strings; a tag that looks like a date is not tested.", "anchors": ["verktyg/http/cache_control.py: IfRange, parse_if_range_header"]}
{"id": "C87", "title": "www_authenticate is a live view", "statement": "A challenge changed through response.www_authenticate is read back with all parameters; clearing it removes the header; no other header changes.", "quantifier": "every challenge with proper parameter names, every header list", "why_tests_cant": "All values.", "anchors": ["verktyg/responses.py: www_authenticate", "verktyg/http/auth.py: WWWAuthenticate"]}
{"id": "C88", "title": "Text survives the WSGI environ", "statement": "Any text put into the environ in the WSGI way and read back is the same text; what is put there only has characters up to U+00FF; reading raises exactly for texts no server may send, and an ASCII delimiter is never lost to broken UTF-8 around it.", "quantifier": "every text, every environ value", "why_tests_cant": "All texts over all of Unicode, including every malformed byte sequence.", "anchors": ["verktyg/wsgi.py: wsgi_encoding_dance, wsgi_decoding_dance"]}
{"id": "C89", "title": "Path, script root and query string of a request", "statement": "request.path begins with exactly one slash, request.script_root never ends with one, and together with query_string they are the texts the server was asked for.", "quantifier": "every environ", "why_tests_cant": "All environs; tests use a handful of ASCII paths.", "anchors": ["verktyg/requests.py: path, full_path, script_root, query_string", "verktyg/wsgi.py: get_path_info, get_script_name, get_query_string"]}
{"id": "C90", "title": "Query parameters arrive", "statement": "For every list of pairs of texts, a request whose query string is their URL encoding has exactly these pairs as arguments, in order; any query string is read without an exception.", "quantifier": "every list of pairs, every query string", "why_tests_cant": "All texts; delimiters, plus signs, percent signs and non-ASCII text interact.", "anchors": ["verktyg/requests.py: args"]}
{"id": "C91", "title": "URLs of a request", "statement": "host_url, url_root, base_url and url are nested prefixes made of scheme, host, script root, path and query; taking url apart again gives the scheme, host, path and query arguments of the request.", "quantifier": "every environ with a web scheme and every host, script root, path and query", "why_tests_cant": "All texts; quoting and unquoting with several sets of safe characters are combined.", "anchors": ["verktyg/requests.py: url, base_url, url_root, host_url", "verktyg/wsgi.py: get_current_url", "verktyg/urls.py: uri_to_iri"]}
{"id": "C92", "title": "Origin and method of a request", "statement": "access_route lists the addresses of the forwarding header in order, or the peer; is_xhr recognises the header in any case; method is in upper case and defaults to GET; max_forwards is the number in the header or None; is_secure tells whether the scheme is https.", "quantifier": "every environ", "why_tests_cant": "All header texts; the cases without a header are not tested.", "anchors": ["verktyg/requests.py: access_route, is_xhr, method, max_forwards, is_secure"]}
{"id": "C93", "title": "Headers of a request", "statement": "The headers of a request behave as a Headers object holding the headers the client sent: lookup in any case, membership, all values of a name, and iteration in order agree with each other.", "quantifier": "every list of headers with distinct names without underscores, every lookup name, every other environ entry", "why_tests_cant": "All names and values; the translation of names to environ keys and back is total only on paper.", "anchors": ["verktyg/wsgi.py: EnvironHeaders"]}
{"id": "C94", "title": "Wrapped files and close callbacks", "statement": "A server that takes blocks from a wrapped file gets exactly the bytes of the file, in non-empty blocks no longer than the buffer size; closing a wrapped iterable or a request runs the close function of the iterable and every registered callback once, in order.", "quantifier": "every file content, every way a file divides its reads, every buffer size, every list of callbacks", "why_tests_cant": "All divisions of reads and all callback lists, including ones that raise.", "anchors": ["verktyg/wsgi.py: FileWrapper, wrap_file, ClosingIterator", "verktyg/requests.py: close, call_on_close"]}
{"id": "C95", "title": "URLs from international text", "statement": "iri_to_uri and url_fix give ASCII text for every input they accept; for web URLs they keep scheme, host, port, path and query, and applying them again changes nothing.", "quantifier": "every text, every host codec and lower-casing that behaves on ASCII as Python's do", "why_tests_cant": "All texts; escaping, host names, ports and user information interact.", "anchors": ["verktyg/urls.py: iri_to_uri, url_fix, _encode_netloc"]}
{"id": "C96", "title": "Multipart bodies", "statement": "A form is written as a multipart body from which a receiver who cuts at the boundary reads back every field and file in order, with its name, type and exactly its bytes; whether a temporary file is used makes no difference, and the length returned is that of the body.", "quantifier": "every form, boundary and threshold", "why_tests_cant": "All contents; contents that resemble the boundary, and the switch to a temporary file at each size.", "anchors": ["verktyg/test.py: stream_encode_multipart"]}
{"id": "C97", "title": "Requests built for tests", "statement": "A request made by EnvironBuilder has the path, script root, host, scheme, method, query and headers it was built with; overrides win over headers, headers over the entries the builder makes, these over the base of the environ.", "quantifier": "every path, base URL, query, header list, base and overrides", "why_tests_cant": "All texts; escaping on the way in and unescaping on the way out must agree for every character.", "anchors": ["verktyg/test.py: EnvironBuilder.__init__, base_url, query_string, args, get_environ", "verktyg/requests.py: path, script_root, args"]}
{"id": "C98", "title": "Bodies built for tests", "statement": "After any history of assignments the body of a built request is what was given last: a stream displaces fields and files and the other way round; the body arrives unchanged, its length is in the environ, and fields or files are read back by a receiver.", "quantifier": "every history of assignments to input_stream, form, files, query_string, args, content type and length; all data", "why_tests_cant": "Unbounded histories.", "anchors": ["verktyg/test.py: EnvironBuilder form, files, input_stream, query_string, args, get_environ"]}
{"id": "C99", "title": "Running applications in tests", "statement": "Running an application gives the status and headers it started its response with and everything it wrote or yielded, in order; its close function is called once, with buffering before the call returns and also when it raises.", "quantifier": "every application: any order of starting, writing, yielding and raising", "why_tests_cant": "All interleavings of start_response, write and yielded bytes.", "anchors": ["verktyg/test.py: run_wsgi_app"]}
{"id": "C100", "title": "Redirects in tests", "statement": "With follow_redirects the client follows redirects on the same host until a response is no redirect and returns that response; every request asks for the location that was given; a location given twice with one status is reported as a loop; other hosts are refused.", "quantifier": "every application with any state, every chain of redirects, every location", "why_tests_cant": "All stateful applications and chains of any length; end of the loop for all of them.", "anchors": ["verktyg/test.py: Client.open, Client.resolve_redirect"]}
{"id": "C101", "title": "Factories of routes", "statement": "A nest of Subdomain, Submount, EndpointPrefix and RouteTemplate factories registers exactly the routes in it, in order, each with the paths and end point prefixes of all factories around it, the subdomain of the outermost Subdomain and its placeholders filled; a route added itself can be added to one map only, while factories can be used again for any map.", "quantifier": "every nest of factories of any depth, every set of routes, every history of additions to any number of maps", "why_tests_cant": "All trees of factories and all histories.", "anchors": ["verktyg/routing.py: Subdomain, Submount, EndpointPrefix, RouteTemplate, RouteTemplateFactory, Route.empty, Route.bind, URLMap.add_routes"]}
{"id": "C102", "title": "What route factories do to matching and building", "statement": "Routes put under EndpointPrefix answer and are built exactly as without it, but for the prefix of their end points; under Subdomain they behave as in a map whose default subdomain is that one; under Submount they answer below its path exactly what they answer without it in a map bound to that path, nothing elsewhere, and their URLs have that path in front.", "quantifier": "every history of additions and look-ups, every path, query, end point and set of values, every prefix, subdomain and mount path", "why_tests_cant": "Equality of two maps for all requests and all sets of routes; tests compare single requests.", "anchors": ["verktyg/routing.py: Subdomain, Submount, EndpointPrefix, MapAdapter.match, MapAdapter.build, Route.match_compare_key"]}
{"id": "C103", "title": "A map bound to a request serves the host and the path of that request", "statement": "bind_to_environ gives an adapter whose match() decides the decoded path and query of the request; with the name of a server the subdomain is what stands before that name in the Host header, letter case aside, redirects stay on that host, and a host that is neither the server nor below it is not found.", "quantifier": "every environ, host, server name, script, path, query and history of additions", "why_tests_cant": "Host headers are chosen by clients; the comparison works on labels and has to hold for every host, not for the few in the tests.", "anchors": ["verktyg/routing.py: URLMap.bind, URLMap.bind_to_environ, MapAdapter.match, MapAdapter.get_host"]}
{"id": "C104", "title": "The Location header sent is absolute and stays on the request's host", "statement": "A response whose Location has no scheme and host of its own is sent with a Location on the scheme and host of the request: a path from the root takes the place of the path, a relative path goes below the application's root, query and fragment keep their meaning; a Location with another scheme is sent as it is; with autocorrect_location_header off only the encoding is changed.", "quantifier": "every response, request, script root, location, query and fragment", "why_tests_cant": "The header is made of an IRI conversion, the URL of the request and a join by the rules for relative references; redirects are built from user input and tests try a few of them.", "anchors": ["verktyg/responses.py: BaseResponse.get_wsgi_headers", "verktyg/urls.py: iri_to_uri", "verktyg/wsgi.py: get_current_url"]}
{"id": "C105", "title": "A request for a built address reaches the end point it was built for", "statement": "Building an address for an end point and values with a bound map, and then requesting that address, reaches a route of that end point; the request has the path the address stands for, the route gets the same values for its variables, and the values that are no variables of the route are the arguments of the query of the request. The address is below the script the map is bound to.", "quantifier": "every map, history of registrations, end point, values and script", "why_tests_cant": "The address is quoted once by the route, joined to the script by the rules for relative references, split and decoded by the environment of the request and matched again; tests compare a few addresses with literals and seldom request them.", "anchors": ["verktyg/routing.py: MapAdapter.build", "verktyg/routing.py: Route.build", "verktyg/routing.py: Map.bind_to_environ", "verktyg/routing.py: MapAdapter.match", "verktyg/test.py: EnvironBuilder", "verktyg/requests.py: BaseRequest.path", "verktyg/requests.py: BaseRequest.args"]}
{"id": "C106", "title": "An application answers from its routes, and its slash redirects stay on the host", "statement": "An application answers a request with what the view of the best route's end point returns for the path's arguments, in the representation selected by the request's Accept headers. A request for a path that lacks the final slash of its best route is answered with status 301 and one Location, on the scheme and host of the request, below the script, standing for the same path with the slash and the same query; a request for that Location reaches the end point of the route with the path's arguments. A path without route raises NotFound to the handlers. append_slash_redirect gives the same Location.", "quantifier": "every application, request, path of segments and query", "why_tests_cant": "The redirect passes through the router's quotation, iri_to_uri twice, the joining to the root of the request and the header list; tests of each part use a few literal paths and do not follow the result.", "anchors": ["verktyg/application.py: BaseApplication._get_response", "verktyg/application.py: BaseApplication._wsgi_inner", "verktyg/application.py: _default_redirect_handler", "verktyg/utils.py: redirect", "verktyg/utils.py: append_slash_redirect", "verktyg/routing.py: MapAdapter.match", "verktyg/responses.py: BaseResponse.get_wsgi_headers"]}
{"id": "C107", "title": "An application is what was registered with its builder before it was built", "statement": "Calling an ApplicationBuilder gives an application that routes requests and builds addresses with exactly the routes registered before the call and the converters registered last under each name, chooses among exactly the bindings registered (a dispatcher counts with all that was added to it before the call), has the default redirect handler and the handlers registered, in order, and the middleware in order; nothing registered, built or requested later changes it, and no two applications share a map. A builder can be called again. A mixin extends the class of applications or requests, and earlier mixins take precedence over later ones. A function decorated by expose is bound to the end point and routed.", "quantifier": "every history of calls on the builder, its dispatchers, its decorators and its applications", "why_tests_cant": "Aliasing between a builder and its applications shows only for particular interleavings of registration, building and requests; tests build one application from a few literal registrations.", "anchors": ["verktyg/application.py: ApplicationBuilder", "verktyg/application.py: ApplicationBuilder.__call__", "verktyg/application.py: ApplicationBuilder.expose", "verktyg/application.py: ApplicationBuilder.add_application_mixins", "verktyg/application.py: BaseApplication.__init__", "verktyg/routing.py: URLMap.add_routes", "verktyg/dispatch.py: Dispatcher.add_bindings"]}
{"id": "C108", "title": "End points have one address for given arguments and other ones are redirected to it", "statement": "The address of an end point is the one given by the preferred route that the values suit: routes that are no aliases come first, then those with more arguments, then those with more defaults, then the one registered first; where no route suits the values building raises BuildError. A request for a route whose arguments are the defaults of a preferred route of the end point, or for an alias, is answered with a redirect to the address of the preferred route, below the script root and with the query of the request, and a request for that address finds the route with the same arguments, so that redirects come to an end. A route with redirect_to is answered with a redirect to its text with the arguments filled in and quoted, below the script root or, where it begins with a slash, the root of the host. Other requests are answered without a redirect.", "quantifier": "every map, however its routes were registered, every request path and query and all arguments", "why_tests_cant": "Which route is preferred depends on all pairs of routes of an end point and how they were added; whether a redirect leads back depends on quoting, converters and the urljoin of arbitrary values. Tests follow a few literal redirects.", "anchors": ["verktyg/routing.py: MapAdapter.match", "verktyg/routing.py: MapAdapter.build", "verktyg/routing.py: MapAdapter.get_default_redirect", "verktyg/routing.py: MapAdapter.make_alias_redirect_url", "verktyg/routing.py: MapAdapter.make_redirect_url", "verktyg/routing.py: Route.provides_defaults_for", "verktyg/routing.py: Route.suitable_for", "verktyg/routing.py: Route.build_compare_key"]}
{"id": "C109", "title": "A request for the address that an application gives for an end point calls that end point", "statement": "An application made with the root scheme://host/dirs, with or without a slash at its end, gives for an end point and arguments an address below that root (below / where it has no root). A request for this address, with the directories of the root left out of the path by the server, calls the representation of the end point for the method of the request, with the arguments the address was made for, and the other values are the arguments of the query. Where only the slash at the end of the path is missing the answer is a redirect to the address on the machine of the root, whichever host was asked, and following it calls the end point.", "quantifier": "every root, every set of routes and bindings, all arguments and all requests for the address", "why_tests_cant": "The round trip passes urlparse, bind, build with quoting and urljoin, WSGI decoding, matching, conversion and dispatch; a test fixes one literal at each step.", "anchors": ["verktyg/application.py: BaseApplication.__init__", "verktyg/application.py: BaseApplication.url_for", "verktyg/application.py: BaseApplication._get_response", "verktyg/routing.py: URLMap.bind", "verktyg/routing.py: MapAdapter.build", "verktyg/routing.py: MapAdapter.match", "verktyg/dispatch.py: Dispatcher.lookup"]}
{"id": "C110", "title": "Arguments of converters mean what is written in the rule", "statement": "The arguments written after the name of a converter in a rule are read in their order: words, quoted texts, whole numbers, True, False and None, with or without a name before an equals sign, are the values given to the converter, positional ones in order and named ones by name. int(fixed_digits=, min=, max=), string(minlength=, maxlength=), string(length=) and any(...) restrict the variable to exactly the values described; unknown converters, unknown names of arguments, and arguments of path and uuid are refused.", "quantifier": "every list of arguments, every spelling with or without white space where it is not needed, all numbers and texts", "why_tests_cant": "The grammar is one regular expression with overlapping alternatives and lazy repetition; which alternative wins depends on the text that follows, and a few literal rules cannot settle it.", "anchors": ["verktyg/routing.py: parse_converter_args", "verktyg/routing.py: _converter_args_re", "verktyg/routing.py: _pythonize", "verktyg/routing.py: Route.get_converter", "verktyg/routing.py: UnicodeConverter.__init__", "verktyg/routing.py: AnyConverter.__init__", "verktyg/routing.py: NumberConverter.__init__", "verktyg/routing.py: DEFAULT_CONVERTERS"]}
{"id": "C111", "title": "Rules are read as they are written", "statement": "A rule made of text and variables <name>, <converter:name> and <converter(arguments):name> with different names is read as exactly these, in their order: the path of the route consists of the texts and of the variables, each with the converter named for it, and every match delivers for a variable a value of the kind written in the rule. Whatever is accepted as a rule is such a text, of which nothing is lost; anything else, such as a variable used twice or an angle bracket without its partner, is refused with ValueError.", "quantifier": "every rule, any number of variables, every text between them", "why_tests_cant": "The reader is a loop over a regular expression with optional groups; that no rule exists which is accepted and read differently is a statement about all texts.", "anchors": ["verktyg/routing.py: parse_route", "verktyg/routing.py: _route_re", "verktyg/routing.py: Route.compile", "verktyg/routing.py: Route.match"]}
{"id": "C112", "title": "Floats in paths are read within their bounds and written so that they can be read", "statement": "A variable with the float converter is delivered with the value of a piece of the path that consists of digits, a dot and digits, never with one outside of min and max, and every such text within the bounds is taken. An address made for a float that Python writes in this notation is read back as the same float.", "quantifier": "every path, every pair of bounds, every float", "why_tests_cant": "Which floats are written with an exponent depends on their size; tests use a handful of small numbers.", "anchors": ["verktyg/routing.py: FloatConverter", "verktyg/routing.py: NumberConverter.to_python", "verktyg/routing.py: NumberConverter.to_url"]}
{"id": "C113", "title": "What the shared data middleware sends", "statement": "A request whose path, without empty and .. segments, is below the key of an export gets the file of the first export that has one: the exported file, or the file of that name in the exported directory; all other requests, and those for disallowed names, reach the application. A GET or HEAD gets 200 with the contents, their type and length, the time of the last change, an entity tag and the caching headers. A client that asks again with the tag or the date it was given gets 304 exactly when the file has not changed, and the present contents otherwise; without caching it always gets the contents.", "quantifier": "every list of exports, every path, every state of the files at the first and at the second request, every time", "why_tests_cant": "The second answer depends on two states of the file system and on two requests; tests have one file that does not change.", "anchors": ["verktyg/wsgi.py: SharedDataMiddleware.__call__", "verktyg/wsgi.py: SharedDataMiddleware.generate_etag", "verktyg/wsgi.py: SharedDataMiddleware.is_allowed", "verktyg/http/cache_control.py: is_resource_modified"]}
{"id": "C114", "title": "JSON views send JSON that means the result", "statement": "A view bound with expose_json whose action returns data sends status 200, Content-Type application/json and a JSON text (RFC 8259, in ASCII) that a reader reads back as these data, with the right Content-Length, whether the application is in debug mode (indented) or not (compact). When the action returns None the response is 204 without a body, and a response object is sent unchanged. The view answers for its methods as a representation application/json.", "quantifier": "all data of nested lists and dictionaries with any texts and numbers, both modes, every reader depth that suffices", "why_tests_cant": "Texts contain any characters, escapes and surrogate pairs, nested at any depth; agreement of the two notations on all values is not a finite check.", "anchors": ["verktyg/views.py: JsonView.__call__", "verktyg/views.py: JsonView.__init__", "verktyg/views.py: expose_json", "verktyg/application.py: BaseApplication"]}
{"id": "C115", "title": "Class views answer for the methods they define", "statement": "A view made of a class answers for each HTTP method the class has a method for, with this method; HEAD is answered by GET when the class has no HEAD; a method it does not have gets 405.", "quantifier": "every class with any set of methods, every request method", "why_tests_cant": "All subsets of methods and every method name.", "anchors": ["verktyg/views.py: ClassView.get_bindings", "verktyg/dispatch.py: Dispatcher.lookup"]}
{"id": "C116", "title": "Saving an upload writes all of it", "statement": "FileStorage.save writes the whole upload from where its stream is, in order: to a path it leaves a closed file with exactly these bytes, to an open file they follow what it has and the file stays open. No block in memory exceeds the buffer size. If reading raises, the same error is raised, what was written is a beginning of the upload and a file opened for a path is closed. Saving again saves the same.", "quantifier": "every upload, every way its stream divides its reads, every buffer size other than zero, every point of failure", "why_tests_cant": "Reads may be cut anywhere; all divisions and all failure points cannot be enumerated.", "anchors": ["verktyg/http/basic.py: FileStorage.save"]}
{"id": "C117", "title": "Iterating over an upload gives its lines", "statement": "Iterating over a FileStorage gives the lines of the upload, each with its line feed, and then ends.", "quantifier": "every contents, text and bytes", "why_tests_cant": "That an iteration ends is a statement about all its steps; a test that hit the fault would hang.", "anchors": ["verktyg/http/basic.py: FileStorage.__iter__"]}
{"id": "C118", "title": "Uploads know their name and type", "statement": "A FileStorage has the file name it is given, or the name of its stream unless that is in angle brackets; content_type and content_length are those given, mimetype is the type in lower case without parameters and mimetype_params are the parameters; values with line breaks are refused.", "quantifier": "every stream, file name, content type with any parameters, length and headers", "why_tests_cant": "Content types and names are arbitrary texts; streams may have any name.", "anchors": ["verktyg/http/basic.py: FileStorage.__init__", "verktyg/http/basic.py: FileStorage.content_type", "verktyg/http/basic.py: FileStorage.content_length", "verktyg/http/basic.py: FileStorage.mimetype", "verktyg/http/basic.py: FileStorage.mimetype_params", "verktyg/http/basic.py: FileStorage.__bool__", "verktyg/http/basic.py: FileStorage.__getattr__"]}
{"id": "C119", "title": "Applications made responses send what they sent", "statement": "from_app and force_type turn a WSGI application into a response with its status, code, headers and everything it writes and yields as body. In particular a response that is run as an application and made a response again sends the same status, headers and body to the same request; with buffering it also gets the length it has. A response given to force_type is left as it is; an application without an environment is refused with TypeError.", "quantifier": "every application (what it writes and yields, when it starts its response, whether it has close), every response, method and way addresses are encoded", "why_tests_cant": "Applications may start, write and yield in any order, and headers are rewritten both times; that the second time changes nothing is a statement about all header lists.", "anchors": ["verktyg/responses.py: BaseResponse.from_app", "verktyg/responses.py: BaseResponse.force_type", "verktyg/responses.py: BaseResponse.__call__", "verktyg/test.py: run_wsgi_app"]}
{"id": "C120", "title": "Copies of multi dictionaries are independent", "statement": "A copy, a deep copy and a pickled copy of a multi dictionary are new dictionaries with the same keys and values. Changes to a copy are never seen in the original or the other way round, whatever lists and dictionaries either was made from or has been given, and changing the lists that getlist, lists, to_dict and poplist return or that were handed to the dictionary does not change it. Copies of ordered dictionaries keep the order of the pairs; a deep copy of a combined dictionary answers lookups as the original.", "quantifier": "every program that makes, copies and changes dictionaries and lists, of any length; every dictionary; keys and values of any types", "why_tests_cant": "Whether two objects share a list shows only after a particular sequence of changes; the claim is about all sequences after all ways to get at a dictionary.", "anchors": ["verktyg/datastructures.py: MultiDict.copy", "verktyg/datastructures.py: MultiDict.deepcopy", "verktyg/datastructures.py: MultiDict.__getstate__", "verktyg/datastructures.py: MultiDict.__setstate__", "verktyg/datastructures.py: MultiDict.setlist", "verktyg/datastructures.py: MultiDict.setlistdefault", "verktyg/datastructures.py: MultiDict.listvalues", "verktyg/datastructures.py: MultiDict.getlist", "verktyg/datastructures.py: MultiDict.to_dict", "verktyg/datastructures.py: MultiDict.update", "verktyg/datastructures.py: MultiDict.poplist", "verktyg/datastructures.py: OrderedMultiDict", "verktyg/datastructures.py: CombinedMultiDict.copy"]}
{"id": "C121", "title": "Lists handed out live stay live", "statement": "The list setlistdefault returns is the list of the key: as long as the dictionary is changed by nothing but add, the list shows the values of the key, and changing it changes the values of that key and nothing else. The same holds for each of the lists that listvalues returns.", "quantifier": "every program before and in between, every dictionary, key and list", "why_tests_cant": "Aliasing is not visible in the result of a call; it is a statement about everything that may happen later.", "anchors": ["verktyg/datastructures.py: MultiDict.setlistdefault", "verktyg/datastructures.py: MultiDict.listvalues", "verktyg/datastructures.py: MultiDict.add"]}
{"id": "C122", "title": "Typed headers of a request are what was sent", "statement": "What a client writes into its headers with this library's own writers is what the request object shows: entity tag sets, moments, byte ranges, cache directives, credentials, media type with parameters and pragma. Headers that were not sent give None or an empty object, reading dates never raises, and the cache directives of a request cannot be changed.", "quantifier": "every list of headers with names in ASCII without underscores, in any case and order, passed on by a server that follows WSGI; every set of tags, moment, range list, directive set, credentials and media type as quantified in the theorems", "why_tests_cant": "The claim joins three translations (writing, the server's renaming, parsing) for all values of each; tests fix a few strings.", "anchors": ["verktyg/requests.py: ETagRequestMixin.cache_control", "verktyg/requests.py: ETagRequestMixin.if_match", "verktyg/requests.py: ETagRequestMixin.if_none_match", "verktyg/requests.py: ETagRequestMixin.if_modified_since", "verktyg/requests.py: ETagRequestMixin.if_unmodified_since", "verktyg/requests.py: ETagRequestMixin.if_range", "verktyg/requests.py: ETagRequestMixin.range", "verktyg/requests.py: AuthorizationMixin.authorization", "verktyg/requests.py: CommonRequestDescriptorsMixin.content_type", "verktyg/requests.py: CommonRequestDescriptorsMixin.content_encoding", "verktyg/requests.py: CommonRequestDescriptorsMixin.content_md5", "verktyg/requests.py: CommonRequestDescriptorsMixin.referrer", "verktyg/requests.py: CommonRequestDescriptorsMixin.date", "verktyg/requests.py: CommonRequestDescriptorsMixin.mimetype", "verktyg/requests.py: CommonRequestDescriptorsMixin.mimetype_params", "verktyg/requests.py: CommonRequestDescriptorsMixin.pragma", "verktyg/http/cache_control.py: RequestCacheControl"]}
{"id": "C123", "title": "The body sent is what was set and written", "statement": "After any calls on a response and its stream the body is what was set last followed by what was written since; get_data returns it and the server is sent it. Writing, flushing and asking a closed stream raises ValueError and changes nothing, as does RuntimeError where an iterator may not be read. Writing removes the announced length; set_data and freeze announce the right one; freezing also adds the entity tag of the body unless there is one.", "quantifier": "every response, every history of calls on it and its stream, every total charset", "why_tests_cant": "Histories of mixed calls are unbounded, and each call behaves differently for lists, tuples and iterators.", "anchors": ["verktyg/responses.py: ResponseStream.write", "verktyg/responses.py: ResponseStream.writelines", "verktyg/responses.py: ResponseStream.close", "verktyg/responses.py: ResponseStream.flush", "verktyg/responses.py: ResponseStream.isatty", "verktyg/responses.py: ResponseStreamMixin.stream", "verktyg/responses.py: BaseResponse.get_data", "verktyg/responses.py: BaseResponse.set_data", "verktyg/responses.py: BaseResponse.freeze", "verktyg/responses.py: ETagResponseMixin.freeze"]}
{"id": "C124", "title": "A map tells which routes it has and what they expect", "statement": "Asking a map for its routes gives every registered route exactly once, all of them in the order in which they are tried for a path, those of one end point in the order in which they are tried for building; KeyError is raised exactly for end points without routes. An end point expects some arguments exactly if one single route of it mentions all of them. Asking never changes what the map matches, builds or answers later. Query arguments passed as a dictionary, with lists among its values, reach the request that follows the redirect. Two routes are equal exactly if their subdomains and paths have the same texts and names.", "quantifier": "every configuration, every history of adding routes, looking up and building, every end point, every list of names, every dictionary of query arguments, every two routes", "why_tests_cant": "The answers depend on everything added and sorted before, and equality on all pairs of rules.", "anchors": ["verktyg/routing.py: URLMap.is_endpoint_expecting", "verktyg/routing.py: URLMap.iter_routes", "verktyg/routing.py: Route.__eq__", "verktyg/routing.py: MapAdapter.encode_query_args"]}
{"id": "C125", "title": "Cookies set on a response arrive with the next request", "statement": "Whatever cookies an application sets and deletes, as text and with whatever attributes, the next request of a user agent that follows RFC 6265 shows exactly the cookies that were set and not deleted since, with their last values. Each call adds one header without line breaks or raises and changes nothing. The user agent reads the attributes given and no others; with a max_age the cookie also carries the moment at which it ends, which parse_date reads back; the domain is the host without its port and must have a dot. The test client sends exactly the cookies in its jar. Reading the cookies of a request does not raise.", "quantifier": "every history of set_cookie and delete_cookie with every name, value and attributes, every user agent as specified, every environ", "why_tests_cant": "The claim joins encoding, quoting, the user agent's parsing and the library's own parsing over all texts and histories of calls.", "anchors": ["verktyg/http/cookies.py: _make_cookie_domain", "verktyg/http/cookies.py: parse_cookie", "verktyg/http/cookies.py: dump_cookie", "verktyg/http/cookies.py: cookie_date", "verktyg/responses.py: BaseResponse.set_cookie", "verktyg/responses.py: BaseResponse.delete_cookie", "verktyg/requests.py: BaseRequest.cookies", "verktyg/test.py: _TestCookieJar.inject_wsgi"]}
{"id": "C126", "title": "Headers are copied, sliced, compared and listed as their contents say", "statement": "Copies of headers, slices of them, headers made from lists and from other headers and the lists that to_wsgi_list hands out are independent of each other. headers[a:b] holds the entries at the positions in the slice, deleting it leaves the others, assigning to it puts the new entries there. items, keys and values list each entry once in order and fit index access, lookup and length. Bytes and numbers that are set are read back as bytes and numbers. Two headers are equal exactly when they have the same pairs of name and value, and then they answer alike. setdefault returns what the headers then hold, and headers can be extended with a dictionary, a copy of themselves or themselves.", "quantifier": "every program of constructions and calls, every contents, bounds, index, name and value", "why_tests_cant": "Sharing of lists shows only in particular sequences of calls on particular objects; equality and slices range over all contents and bounds.", "anchors": ["verktyg/http/basic.py: Headers.__init__", "verktyg/http/basic.py: Headers.__getitem__", "verktyg/http/basic.py: Headers.__eq__", "verktyg/http/basic.py: Headers.get", "verktyg/http/basic.py: Headers.getlist", "verktyg/http/basic.py: Headers.items", "verktyg/http/basic.py: Headers.keys", "verktyg/http/basic.py: Headers.values", "verktyg/http/basic.py: Headers.extend", "verktyg/http/basic.py: Headers.__setitem__", "verktyg/http/basic.py: Headers.__delitem__", "verktyg/http/basic.py: Headers.setdefault", "verktyg/http/basic.py: Headers.to_wsgi_list", "verktyg/http/basic.py: Headers.copy", "verktyg/http/basic.py: unicodify_header_value"]}
{"id": "C127", "title": "All answers of a header set agree", "statement": "However a header set was changed, membership, index, as_set, iteration, length and truth value tell the same: a name is a member exactly when it is listed up to case, index gives the one place where it stands and raises IndexError for no member, and no name is listed twice. Negative positions count from the far side.", "quantifier": "every list of names, every history of calls with every name and position", "why_tests_cant": "Two containers must be kept in step by every call in every state; only particular histories bring them apart.", "anchors": ["verktyg/http/basic.py: HeaderSet.__init__", "verktyg/http/basic.py: HeaderSet.remove", "verktyg/http/basic.py: HeaderSet.update", "verktyg/http/basic.py: HeaderSet.find", "verktyg/http/basic.py: HeaderSet.index", "verktyg/http/basic.py: HeaderSet.as_set", "verktyg/http/basic.py: HeaderSet.__getitem__", "verktyg/http/basic.py: HeaderSet.__delitem__", "verktyg/http/basic.py: HeaderSet.__setitem__", "verktyg/http/basic.py: HeaderSet.__contains__", "verktyg/http/basic.py: HeaderSet.__len__", "verktyg/http/basic.py: HeaderSet.__iter__", "verktyg/http/basic.py: HeaderSet.__nonzero__"]}
{"id": "C128", "title": "Multi dictionaries are equal when they answer alike", "statement": "Two multi dictionaries are equal when they have the same keys with the same lists of values, two ordered ones when they hold the same pairs in the same order, and then they answer alike. Comparison is reflexive, symmetric and transitive, and != is the opposite of ==, whatever the classes of the two sides. A dictionary can be updated with any dictionary, itself included.", "quantifier": "every pair of dictionaries of every class, every history of calls that made them", "why_tests_cant": "Which method Python asks depends on both classes; the answer depends on all keys and values; a loop that never ends is no result a test can report.", "anchors": ["verktyg/datastructures.py: MultiDict", "verktyg/datastructures.py: OrderedMultiDict.__eq__", "verktyg/datastructures.py: OrderedMultiDict.__ne__", "verktyg/datastructures.py: OrderedMultiDict.update", "verktyg/datastructures.py: MultiDict.update", "verktyg/datastructures.py: iter_multi_items", "verktyg/datastructures.py: CombinedMultiDict", "verktyg/datastructures.py: ImmutableMultiDict"]}
{"id": "C129", "title": "URIs shown as international text come back as they were", "statement": "uri_to_iri shows a URI with its scheme and port, the host decoded label by label and every other part as the text its escapes stand for, delimiters of that part excepted. iri_to_uri takes that text back to a URI with the same scheme, host and port and with user name, password, path, query and fragment of the same meaning; showing the shown text changes nothing.", "quantifier": "every web URI with a host, every host codec that is its own inverse on that host", "why_tests_cant": "Decoding, UTF-8, host names, authorities and the splitting of URLs interact; one escaped delimiter moves text to another part.", "anchors": ["verktyg/urls.py: uri_to_iri", "verktyg/urls.py: iri_to_uri", "verktyg/urls.py: decode_idna", "verktyg/urls.py: encode_idna", "verktyg/urls.py: _safe_urlunquote", "verktyg/urls.py: _encode_netloc"]}
{"id": "C130", "title": "An Accept header says what its most specific range says", "statement": "Asking a parsed Accept, Accept-Language or Accept-Charset header about a value gives the quality of the range that speaks of the value most specifically, says whether that range names the value itself, and raises KeyError exactly if no range speaks of it. The order of the ranges makes no difference.", "quantifier": "every value, every list of ranges with any qualities, every product of qualities", "why_tests_cant": "Answers depend on the interplay of specificity and quality over lists of ranges of any length and order.", "anchors": ["verktyg/accept/_base.py: Accept.__getitem__", "verktyg/accept/_base.py: Value.acceptability", "verktyg/accept/_base.py: Acceptability.__gt__", "verktyg/accept/content_type.py: ContentTypeAcceptability.exact_match", "verktyg/accept/language.py: LanguageAcceptability.tail", "verktyg/accept/charset.py: CharsetAcceptability"]}
{"id": "C131", "title": "Lines and position of a limited stream", "statement": "Whatever was read before, readline() of a limited stream gives the first of the lines left in the body, readlines() and iteration give all of them in order and then end, tell() is the number of bytes handed out, and is_exhausted says whether any of the body is left.", "quantifier": "every body, every limit the stream can fill, every history of calls with permitted sizes", "why_tests_cant": "Lines interact with the limit, with sizes of earlier calls and with the position over histories of any length.", "anchors": ["verktyg/wsgi.py: LimitedStream.readline", "verktyg/wsgi.py: LimitedStream.readlines", "verktyg/wsgi.py: LimitedStream.__next__", "verktyg/wsgi.py: LimitedStream.tell", "verktyg/wsgi.py: LimitedStream.is_exhausted"]}
{"id": "C132", "title": "Values given to build arrive in the address", "statement": "Every value that is given to build for an end point and is not an argument of the route can be read from the query of the address, which otherwise is the address built without them; values which are None count as not given, and the values may come as a dictionary, as a dictionary of lists or as a multi dictionary.", "quantifier": "every map, adapter, end point and every collection of values", "why_tests_cant": "Values of all shapes are combined with all routes of an end point, and how many are lost depends on both.", "anchors": ["verktyg/routing.py: MapAdapter.build", "verktyg/routing.py: Route.build", "verktyg/routing.py: Route.suitable_for", "verktyg/datastructures.py: MultiDict.__init__", "verktyg/datastructures.py: MultiDict.items"]}
{"id": "C133", "title": "Files given to a builder of requests are closed", "statement": "When an environ has been made from files with create_environ or the test client, or an EnvironBuilder has been closed, all files given to it have been closed, none which was not given to it, and each only once.", "quantifier": "every dictionary of files and every history of assignments to a builder", "why_tests_cant": "A file that stays open is not seen in any result; which ones do depends on the names and on the order of assignments.", "anchors": ["verktyg/test.py: EnvironBuilder.close", "verktyg/test.py: create_environ", "verktyg/test.py: FileMultiDict.add_file", "verktyg/datastructures.py: MultiDict.values"]}
{"id": "C134", "title": "Headers of content negotiation are read or refused", "statement": "An Accept, Accept-Language or Accept-Charset header is read as one range for each of its items between commas: a value, a quality (1 when there is none, the last when there are several) and the other parameters with their last values. A header with an item of another form is refused with ValueError and with no other exception. The values read have the form the header asks for.", "quantifier": "every header text, every function from texts to floats", "why_tests_cant": "All header texts; tests try a few malformed ones.", "anchors": ["verktyg/accept/_base.py:split_accept_string", "verktyg/accept/_base.py:Range", "verktyg/accept/content_type.py:parse_accept_header", "verktyg/accept/language.py:parse_accept_language_header", "verktyg/accept/charset.py:parse_accept_charset_header"]}
{"id": "C135", "title": "Built addresses lead to the server of the map", "statement": "The address a bound map builds for an end point leads to the server of the map whatever the values are: for a route on the host of the adapter it is a path with one slash at its start from which neither a scheme nor a host is read, for any other route it is an absolute address with the scheme of the adapter and the host of the route, which is the server or below it.", "quantifier": "every map, adapter, end point and all values, including texts taken from users; forced external or not, with unknown values in the query or not", "why_tests_cant": "Values are texts of users: all of them, with slashes, colons, dots and delimiters at any place.", "anchors": ["verktyg/routing.py:MapAdapter.build", "verktyg/routing.py:Route.build", "verktyg/routing.py:BaseConverter.to_url", "verktyg/routing.py:MapAdapter.get_host"]}
{"id": "C136", "title": "A client that revalidates always shows the current document", "statement": "When a view calls add_etag and make_conditional, a client that keeps the documents it receives and sends back the tag of its copy in If-None-Match shows the current document after every request; the document is transferred exactly when it is not that of the request before, and otherwise the answer is a 304 with the same tag and without a body.  No request fails if no header has line breaks and no Location is rewritten.", "quantifier": "every number of requests, every document at each, however the view divides it into text and bytes, strong and weak tags, every hash that tells these documents apart", "why_tests_cant": "A copy that is wrongly taken for good shows only with a certain history of documents and requests.", "anchors": ["verktyg/responses.py:ETagResponseMixin.add_etag", "verktyg/responses.py:ETagResponseMixin.make_conditional", "verktyg/responses.py:BaseResponse.get_wsgi_headers", "verktyg/responses.py:BaseResponse.get_app_iter", "verktyg/http/cache_control.py:parse_etags"]}
{"id": "C137", "title": "Documents fetched in parts come together", "statement": "A client that fetches a document in parts, on condition (If-Range) that the document is the one it has parts of, and writes each part to the place Content-Range names, has exactly the positions it asked for since the document last changed, all with the bytes of that one document, and the whole document as soon as a change shows; when every position was asked for it has the document.  The server uses parse_range_header, parse_if_range_header, make_content_range and quote_etag, the client parse_content_range_header.", "quantifier": "every number of requests with any ranges (closed, open, suffixes) in any order, every document at each request, every hash that tells these documents apart", "why_tests_cant": "Overlaps, orders, ends and changes of the document between requests cannot be enumerated; an offset that is wrong by one on both sides goes unnoticed by tests of each side.", "anchors": ["verktyg/http/cache_control.py:parse_range_header", "verktyg/http/cache_control.py:Range.range_for_length", "verktyg/http/cache_control.py:Range.make_content_range", "verktyg/http/cache_control.py:ContentRange.to_header", "verktyg/http/cache_control.py:parse_content_range_header", "verktyg/http/cache_control.py:parse_if_range_header", "verktyg/http/cache_control.py:quote_etag"]}
{"id": "C138", "title": "HEAD is answered as GET without the body", "statement": "For every request that an application answers to GET, the same request with the method HEAD is answered with the same status line and exactly the same headers (among them the Content-Length of the body that GET would have sent, absolute Location and entity tags) and no body; what is raised for the one is raised for the other; the functions called when the answer is closed are the same.  This holds for end points without views of their own for HEAD, and views that use make_conditional are among those it holds for.", "quantifier": "every application (map, dispatcher history, handlers, views that treat both methods alike), every environ, all responses", "why_tests_cant": "Routing, dispatch, negotiation, error handlers and finalising all see the environ; tests compare single headers of single responses.", "anchors": ["verktyg/application.py:BaseApplication._get_response", "verktyg/dispatch.py:Dispatcher.lookup", "verktyg/responses.py:BaseResponse.get_wsgi_headers", "verktyg/responses.py:BaseResponse.get_app_iter", "verktyg/responses.py:ETagResponseMixin.make_conditional"]}
{"id": "C139", "title": "Mounted applications are reached at the addresses they give", "statement": "In a site made of DispatcherMiddleware within DispatcherMiddleware to any depth, every request reaches exactly one application, the one that the longest mounts on the way lead to, with the path split between SCRIPT_NAME and PATH_INFO there; and a request for what a mounted application gives as the address of an end point (with the address of its mount as root) reaches that application and calls the code behind that end point with the arguments the address was made for.", "quantifier": "every tree of mounts, every environ, every application, end point and set of values with an address", "why_tests_cant": "Building, the decoding by the server, each table on the way and routing must agree about where a path is cut; tests mount one application at one literal path.", "anchors": ["verktyg/wsgi.py:DispatcherMiddleware.__call__", "verktyg/application.py:BaseApplication.url_for", "verktyg/application.py:BaseApplication._get_response", "verktyg/routing.py:MapAdapter.build", "verktyg/routing.py:MapAdapter.match"]}
{"id": "C140", "title": "A client that revalidates by date shows its copy until a later document is there", "statement": "A client keeps the document it received with its Last-Modified and asks with If-Modified-Since. Over any number of requests to a view that sets last_modified and calls make_conditional, every request is answered; the answer is a 304 without a body, and the client shows its copy, exactly when the current document is not dated in a later second than the copy; otherwise the document is transferred in full. So the client always shows the current document if every change moves the date to a later second, and does not if not.", "quantifier": "every history of requests, every sequence of documents, forms of body and dates from the year 100 on", "why_tests_cant": "Whether the two ends agree depends on the written date, the parsed date, the comparison and the headers that are dropped, over a whole history; tests compare two literal dates.", "anchors": ["verktyg/responses.py:ETagResponseMixin.make_conditional", "verktyg/responses.py:CommonResponseDescriptorsMixin.last_modified", "verktyg/http/cache_control.py:is_resource_modified", "verktyg/http/basic.py:http_date", "verktyg/http/basic.py:parse_date", "verktyg/responses.py:BaseResponse.get_wsgi_headers"]}
{"id": "C141", "title": "Cookies last as long as they are meant to", "statement": "Over any number of requests at any times, an application that sets and deletes cookies depending on those it sees, and a user agent that follows RFC 6265, behave as if the cookies were kept in a dictionary: at each request the application sees exactly the cookies it set at earlier requests and did not delete since and that have not ended, with their last values. With max_age a cookie ends that many seconds after it was received, whatever the clock of the server shows; with expires at that time. If no call of set_cookie raises, no request of the session fails.", "quantifier": "every application, every history of requests, times, clocks of the server, names, values and attributes", "why_tests_cant": "The state of a session is spread over headers, the user agent and time; tests look at one header at a time and never at a later request.", "anchors": ["verktyg/responses.py:BaseResponse.set_cookie", "verktyg/responses.py:BaseResponse.delete_cookie", "verktyg/http/cookies.py:dump_cookie", "verktyg/http/cookies.py:parse_cookie", "verktyg/requests.py:BaseRequest.cookies", "verktyg/responses.py:BaseResponse.get_wsgi_headers"]}
{"id": "C142", "title": "Answers on one connection are read back as they were meant", "statement": "When responses are written one after the other on a connection that is kept open, a client that follows RFC 7230 reads each of them back: the status line, the headers and the body of each are those the application gave, and the next response starts where the client expects it. No text an application puts in a header value, in a status reason or in the body can add a header, end the head early, or begin another response.", "quantifier": "every sequence of requests and responses, every constructor argument, every history of calls on each response, every method and status", "why_tests_cant": "Response splitting and lost framing need a client's view of many responses on one connection; tests look at the parts of a single response, never at what is read from the wire.", "anchors": ["verktyg/responses.py:BaseResponse.__call__", "verktyg/responses.py:BaseResponse.get_wsgi_response", "verktyg/responses.py:BaseResponse.get_wsgi_headers", "verktyg/responses.py:BaseResponse.get_app_iter", "verktyg/responses.py:BaseResponse.status", "verktyg/datastructures/headers.py:Headers"]}
{"id": "C143", "title": "Headers that other programs write are read as the RFCs say", "statement": "A list, a list of directives, a media type with parameters or a list of entity tags that follows the RFCs is read as the values it stands for, however its author spaced it, quoted it and escaped it: the parser does not depend on the header having been written by this library.", "quantifier": "every list of elements, pairs, parameters or tags; every spelling of each (token or quoted string, any escapes, any optional white space)", "why_tests_cant": "Round trips only test the spelling this library writes itself. What clients send is an infinite set of spellings of the same values, and tests pick a few.", "anchors": ["verktyg/http/basic.py:parse_list_header", "verktyg/http/basic.py:parse_dict_header", "verktyg/http/basic.py:parse_options_header", "verktyg/http/basic.py:unquote_header_value", "verktyg/http/cache_control.py:parse_etags"]}
{"id": "C144", "title": "Immutable structures survive copying, pickling and fromkeys", "statement": "An immutable dictionary, list or multi dictionary that is copied, deep-copied or pickled and restored has the same contents, is equal to the original and has the same hash; `fromkeys` gives every key the value; copies and pickles of parsed headers (credentials, cache control) answer as the original does.", "quantifier": "every dictionary, list, multi dictionary, ordered multi dictionary, combined dictionary, list of keys, authorization and cache control object", "why_tests_cant": "Copies are made by frameworks, caches and worker queues far from the code under test, and differ from the original only for contents that a test does not happen to use: keys without values, interleaved keys, attributes kept beside the dictionary.", "anchors": ["verktyg/datastructures.py:ImmutableDictMixin.__reduce_ex__", "verktyg/datastructures.py:ImmutableDictMixin.fromkeys", "verktyg/datastructures.py:ImmutableMultiDictMixin.__reduce_ex__", "verktyg/datastructures.py:ImmutableMultiDict", "verktyg/datastructures.py:ImmutableOrderedMultiDict", "verktyg/datastructures.py:CombinedMultiDict.__reduce_ex__", "verktyg/http/auth.py:Authorization", "verktyg/http/cache_control.py:RequestCacheControl"]}
{"id": "C145", "title": "Errors are answered with the status of their class", "statement": "Every HTTP exception class of the library derives from what its documentation says and has its code; a class made by `wrap` is both an HTTP exception and the exception it wraps, with HTTP handlers preferred and the code of the former; an answer made with the code of an exception has the status line of that code and its name, which reads back as the code; and a request without a parameter that the view reads is answered with 400 where a handler for HTTP exceptions is registered, not with the handler for KeyError.", "quantifier": "every class of the module, every pair of classes that is wrapped, every application, request, list of query parameters and set of handlers", "why_tests_cant": "What a class inherits is decided by the order in which Python linearizes it, and which handler is chosen by that order, the registrations and the Accept headers together; tests try single classes and single handlers.", "anchors": ["verktyg/exceptions.py:HTTPException", "verktyg/exceptions.py:HTTPException.wrap", "verktyg/exceptions.py:HTTP_STATUS_CODES", "verktyg/exceptions.py:BadRequestKeyError", "verktyg/exception_dispatch.py:ExceptionDispatcher.lookup", "verktyg/application.py:BaseApplication._get_response", "verktyg/datastructures.py:MultiDict.__getitem__"]}
{"id": "C146", "title": "Requests answered at the same time are answered as if alone", "statement": "However many threads look up or build URLs in one URL map at the same time, and however they take turns, each gets the result it would get alone; no thread has to wait for another; and routes are put in order once.", "quantifier": "every map, every number of threads, every request of each, every interleaving of their steps, of any length", "why_tests_cant": "Whether a thread sees the list of routes while another sorts it depends on when the interpreter switches; a test runs one or a few of unboundedly many interleavings and practically never the bad ones.", "anchors": ["verktyg/routing.py:URLMap.update", "verktyg/routing.py:URLMap.add", "verktyg/routing.py:MapAdapter.match", "verktyg/routing.py:MapAdapter.build", "verktyg/routing.py:MapAdapter.get_default_redirect"]}
{"id": "C147", "title": "Headers and paths are matched in polynomial time", "statement": "However a client writes a header or a path, the pattern matching it causes ends after a number of attempts that is bounded by a fixed power of its length: linear for a value of an Accept header, quadratic for a header with options, cubic for entity tags that do not end in a newline, a fixed power for cookies, and for paths the power that is the number of unbounded repetitions in the variables of a route.  Cookies are the worst: a header of spaces takes cubically many attempts.", "quantifier": "every text, of any length; every route whose converters repeat only classes of characters, which all converters of the library do", "why_tests_cant": "Backtracking is hit by texts chosen to cause it; a test can time some texts but not show that none takes exponentially long.", "anchors": ["verktyg/http/basic.py:_option_header_piece_re", "verktyg/http/basic.py:parse_options_header", "verktyg/http/cache_control.py:_etag_re", "verktyg/http/cache_control.py:parse_etags", "verktyg/http/cookies.py:_cookie_re", "verktyg/http/cookies.py:_cookie_parse_impl", "verktyg/accept/_base.py:_value_re", "verktyg/accept/content_type.py:_content_type_value_re", "verktyg/routing.py:Route.match"]}
{"id": "C148", "title": "Requests that share an environ agree about it, but not about the body", "statement": "However many request objects middleware and applications make from one environ, and in whatever order their attributes and body are read: as long as nobody changes the environ, all of them say the same about the path, the query, the method, the addresses and the URLs, namely what the environ says; an attribute once read stays the same for its object, and every answer was true at some moment since the object was made; `full_path` always goes with the object's own `path` and `query_string`.  Making requests and reading attributes does not touch the body; an object that has its body keeps it; all objects together take no more than the announced length for each object from the connection.  The environ names the request made last.  (False of the code: two objects do not see the same body, and an object whose environ is changed may mix moments.)", "quantifier": "every environ, every body, every history of making requests, reading attributes and bodies and changing the environ, with any number of objects", "why_tests_cant": "Tests make one request from one environ; the answers depend on which attributes were read before the environ was changed and on who read the body first, over histories of any length.", "anchors": ["verktyg/requests.py:BaseRequest.__init__", "verktyg/requests.py:BaseRequest.path", "verktyg/requests.py:BaseRequest.full_path", "verktyg/requests.py:BaseRequest.query_string", "verktyg/requests.py:BaseRequest.script_root", "verktyg/requests.py:BaseRequest.url", "verktyg/requests.py:BaseRequest.host", "verktyg/requests.py:BaseRequest.access_route", "verktyg/requests.py:BaseRequest.remote_addr", "verktyg/requests.py:BaseRequest.stream", "verktyg/requests.py:BaseRequest.get_data", "verktyg/utils.py:cached_property", "verktyg/wsgi.py:get_input_stream"]}
{"id": "C149", "title": "Routes may be added by several threads, but not while others look up", "statement": "However many threads add routes to one URL map at the same time, and however they take turns, no route is lost or doubled, the routes of each thread keep their order, and the next lookup puts the map in order and finds the best of all of them.  While routes are being added to a map that is in order, lookups are answered as before, or with a new route where there was no answer.  A lookup never answers with a route that nobody added.  (False of the code: when a thread finishes adding while another puts the map in order, routes can be lost, stay out of order for good, or make the lookup fail.)", "quantifier": "every map, any number of threads that add and look up, every list of routes, every interleaving of their steps, of any length", "why_tests_cant": "Whether another thread runs between two steps of a sort is up to the interpreter; of the unboundedly many interleavings a test runs a few, and practically never the bad ones.", "anchors": ["verktyg/routing.py:URLMap.add_routes", "verktyg/routing.py:URLMap.update", "verktyg/routing.py:MapAdapter.match"]}
{"id": "C150", "title": "Only the order among equals matters when views and handlers are registered", "statement": "Views and exception handlers may be registered in any order, directly or by way of other dispatchers: as long as the bindings for one name and method (the handlers for one class) keep their order among each other, every lookup and every request is answered alike.  Where there is one binding for each name and method the order does not matter at all.  Among several, the order decides neither whether the request is refused nor, for headers without wildcards, how good the answer is.  (False of the code with wildcards: the order decides between offers that the client rates differently.)", "quantifier": "every two histories of registration over any number of dispatchers, every negotiation, name, method, exception and request", "why_tests_cant": "Which orders of registration occur depends on the order of imports and on the layout of the application; the number of orders grows with the factorial of the number of views.", "anchors": ["verktyg/dispatch.py:Dispatcher.add_bindings", "verktyg/dispatch.py:Dispatcher.lookup", "verktyg/exception_dispatch.py:ExceptionDispatcher.lookup", "verktyg/application.py:BaseApplication._get_response", "verktyg/accept:select_representation"]}
{"id": "C151", "title": "The test client keeps the cookies that were set", "statement": "After any calls of set_cookie and delete_cookie on a test client, for any hosts and paths, the client keeps exactly the cookies that were set, have not ended when they were set, and were not deleted since, each by host, path and name; a call that raises changes nothing.  The application that is asked next sees a cookie exactly for the names that are kept, each with a value that was set for it, whatever characters it has and in whatever order the jar is gone through; for one host and path it sees exactly the last values.  As with a browser, cookies are only sent to the host they were set for, and only until they end.  (The last sentence is false of the code.)", "quantifier": "every history of calls with proper names and without a domain, every host, path, value, date and order of the jar", "why_tests_cant": "A test sets a cookie and looks at the next request; what is sent after a history of calls for several hosts and paths, with values of any characters, is not covered by examples.", "anchors": ["verktyg/test.py:_TestCookieJar.inject_wsgi", "verktyg/test.py:_TestCookieJar.extract_wsgi", "verktyg/test.py:Client.set_cookie", "verktyg/test.py:Client.delete_cookie", "verktyg/http/cookies.py:dump_cookie", "verktyg/http/cookies.py:parse_cookie"]}
{"id": "C152", "title": "Cookies of a response are in the next request of the test client", "statement": "After a response for which the application called set_cookie and delete_cookie any number of times, the next request of the test client has a cookie exactly for the names that a browser would have kept, by host, path and name, after the calls one after the other, each with a value that the browser would have.  (False of the code for a view that sets a cookie and removes it again for the same response: the client keeps it.)", "quantifier": "every list of calls with proper names and without a domain, every jar before, every host, path, value, date and order of the jar", "why_tests_cant": "Tests have responses with one or two cookies; what becomes of a list of calls on top of any cookies from before depends on the order in which the standard library works on the headers.", "anchors": ["verktyg/test.py:Client.run_wsgi_app", "verktyg/test.py:_TestCookieJar.extract_wsgi", "verktyg/test.py:_TestCookieHeaders.get_all", "verktyg/responses.py:BaseResponse.set_cookie", "verktyg/responses.py:BaseResponse.delete_cookie"]}
{"id": "C153", "title": "Cookies are seen where and as long as they are meant to be", "statement": "After any responses of an application to requests for any hosts and paths, each with any calls of set_cookie and delete_cookie, a browser that follows RFC 6265 has exactly the cookies that are meant, each for its host, path and time.  A view that answers a later request, to any host and path and at any time, sees a value for a name exactly when a cookie of that name is meant for this host and covers this path and has not ended; among several cookies of one name it sees the one with the most specific path.  (The last is false of the code: it sees the one with the least specific path.)", "quantifier": "every history of responses and calls with proper names and without a domain, every later request and every order of sending that RFC 6265 recommends", "why_tests_cant": "Tests use one host, one path and one cookie; which cookie counts where several paths cover a request depends on the order in which browsers send them and on how equal names are read.", "anchors": ["verktyg/responses.py:BaseResponse.set_cookie", "verktyg/responses.py:BaseResponse.delete_cookie", "verktyg/requests.py:BaseRequest.cookies", "verktyg/http/cookies.py:dump_cookie", "verktyg/http/cookies.py:parse_cookie"]}
{"id": "C154", "title": "Set-valued parameters of challenges and credentials", "statement": "The sets obtained from qop and domain of a challenge are live: after any history of calls on such a set, reading the parameter again, from the challenge or from the response it is sent with, gives the same set, and nothing else of the challenge or the response changes.  The set obtained from the qop of credentials is for reading: a call that would change it is refused and changes nothing.  (False of the code where names are removed with capital letters, where names need quotes, as the paths of domain do, and in that a refused change stays in the set.)", "quantifier": "every challenge, every history of calls on the set, every response; every credentials and every call", "why_tests_cant": "Tests read qop once; whether a set and the header behind it stay together depends on all histories and on how values are quoted twice.", "anchors": ["verktyg/http/auth.py:WWWAuthenticate.qop", "verktyg/http/auth.py:WWWAuthenticate.domain", "verktyg/http/auth.py:Authorization.qop", "verktyg/http/basic.py:HeaderSet", "verktyg/responses.py:WWWAuthenticateMixin.www_authenticate"]}
