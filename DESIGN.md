# Formal model of verktyg: design

## Scope and method

The source in `/repo` (Python 3.6 era, standard library only) is read as text and never
run.  Each modelled function becomes a small, total Lean 4 function that follows the
Python branch by branch; every definition cites the file and lines it models and names
its simplifications.

* `str` is `List Char` (no lone surrogates), `bytes` is `List UInt8`, `int` is `Int` or
  `Nat`.
* Python exceptions are values of `Except PyErr`.
* Mutable objects are a state plus one function per method.  Histories are `List Op`
  folded over the state, so a theorem about a history holds for every sequence of calls.
* Loops are structural recursion.  Where termination is itself a claim (`parse_etags`)
  the loop has a fuel argument and the theorem quantifies over it.
* Library calls outside the repository are modelled from the text of CPython
  (`str.replace/split/strip/rsplit`, `int()`, `urllib.request.parse_http_list`,
  `email.utils.parsedate_tz`, base 64, percent coding, UTF-8 with replacement,
  `urlsplit`, `urlunsplit`, `parse_qsl`, `urlencode`, `posixpath.join`, and the `re`
  module as an ordered list-of-successes backtracking matcher in `Verif/Regex.lean`), or
  are parameters of the theorem (`str.lower`, `str.title`, NFKD, IDNA, `float`, the
  Unicode decimal table, the file system, `hash`).
* Models are in `Verif/Model/*.lean`, specifications that need more than core list
  functions in `Verif/Spec/*.lean`, theorems in `Verif/Props/*.lean`.
* A property that is false of the code is kept at full strength: a theorem whose name
  ends in `_false` proves its negation with a concrete reachable witness, and the
  strongest true part is proved under a name ending in `_partial`.  Several of the
  partial theorems are exact (`iff`), so nothing stronger holds of the code.
* Theorems about behaviour that is surprising but not part of the claim are named
  `_limits`, `_corner` or after what happens.

## Trusted base

* Lean 4.33.0's kernel.
* The axioms listed at the end of this file: `propext`, `Classical.choice`, `Quot.sound`.
  There is no `sorry`, no added axiom, no `native_decide` and no `bv_decide`.
* The faithfulness of the model to the cited lines, established by reading.
* The stated simplifications and the models of library functions named above.

Every theorem has been tested against wrong programs: `seeded/LOG.jsonl` lists the edits
made to the model in a scratch copy, and which theorems stopped being provable.

## Not modelled at all

Sockets and servers, mimetypes, file contents, `email` MIME parsing, form and multipart
parsing (not in the repository), `__repr__` methods, warnings, threads.  Pickling and
copying are modelled for `MultiDict` and `OrderedMultiDict` only (C120).

## Faults of the code found while proving

Each item is a theorem; the property in question is marked `partial`.

* C03, C04, C05: header values that begin and end with a quote, or an empty sole item, do
  not survive writing and parsing.
* C10: `HeaderSet.remove` with upper case letters leaves the set and the list different.
* C13: some malformed `Range` headers raise instead of giving `None`.
* C18: an `ETag` header with an unusual end makes `parse_etags` loop for ever.
* C19: `If-None-Match` does not use weak comparison.
* C25: `setlist(k, [])` leaves a key that is present but cannot be read.
* C26: `OrderedMultiDict.clear` leaves stale buckets.
* C27: `CombinedMultiDict.to_dict(flat=False)` loses values.
* C28: `ImmutableList.clear` works, and `ImmutableMultiDict.listvalues` hands out its lists.
* C29: equal immutable dictionaries of different classes hash differently.
* C31: `readline(-1)` and `read(-2)` of `LimitedStream` read past the limit.
* C34: a separator of several characters divided by a block boundary is missed.
* C37: a trusted host with a leading dot raises `TypeError` instead of matching subdomains.
* C39, C69: malformed escapes and `%23` in paths change meaning when converted.
* C41, C42, C43: `Accept-Language` and `Accept-Charset` are ignored in negotiation, `q=0`
  does not exclude, and selection with wildcards depends on the order of the ranges.
* C45: exception dispatchers cannot be nested.
* C47, C48, C49: `$` in the compiled pattern also matches before a final line break.
* C52: `Content-Length` counts characters for text.
* C53, C73: close callbacks run twice when closed early, or never in passthrough mode.
* C54: blank status lines.
* C58: assigning `None` to an absent directive raises `KeyError`.
* C62: a malformed `Accept` header makes every error handler unreachable.
* C67: `make_line_iter` raises `TypeError` for every non-empty byte input.
* C71, C72: parameters are written unquoted in `Accept`; `q=nan` is kept.
* C75: a parameter without value is written as the text `None`.
* C79: an empty tag never matches, and a strong tag listed as weak does not match.
* C80: `age` is treated as a date, so that the standard `Age: 30` reads as `None`.
* C81: assigning a parameter without a `Content-Type` makes the parameter the media type.
* C82: removing a name with capital letters from `vary` leaves it in the header.
* C83: reading `content_range` removes or rewrites the header.
* C84: `Retry-After: ²` raises `ValueError` and large numbers raise `OverflowError`.
* C86: a quoted tag that looks like a date is read as a date.
* C87: reading a challenge with a bare parameter and writing it back adds `=None`.
* C90: a query parameter with an empty value is dropped.
* C91: a `#` in the path is not escaped in `request.url` and starts a fragment.
* C92: `is_secure` is always `None`; `max_forwards` raises `TypeError` without the header.
* C93: a header name with underscores is found by lookup but is not listed.
* C94: a raising close callback keeps the remaining callbacks from running.
* C95: a path starting with several slashes loses two of them in `iri_to_uri`, so a local reference becomes a reference to another host.
* C96: a text field in a multipart form raises `TypeError`, a byte field is written twice, and quotation marks in names are not escaped.
* C97: of a query parameter with several values, and of repeated headers, one value is sent.
* C98: a form with text fields and files cannot be sent; a stream standing behind its end gets a negative length.
* C99: with buffering everything written through `write` is lost, without it what is written after the first bytes yielded once the response is started; a generator that starts a response and yields nothing raises `StopIteration` and is not closed.
* C100: locations without a host are refused; `allow_subdomain_redirects` makes every redirect an `AttributeError`; status 307 repeats the method without the body; 308 is not followed.
* C101: the path of a `Submount` is not checked for its first slash; copies of a bound route keep the settings of the first map; `RouteTemplate` drops `redirect_to`, `alias` and `host`.
* C102: `Subdomain` is silently ignored where hosts are matched as a whole; a relative `redirect_to` is resolved against the script root, not the `Submount`.
* C103: a route with a variable in its subdomain is found for foreign hosts, with the value `<invalid>`; a label of more than 63 characters in the Host header raises UnicodeError out of `bind_to_environ`; `match()` on a map bound without a path raises AttributeError instead of using the root.
* C104: a location of four slashes, which splits into no host, is sent as the URL of another host, since iri_to_uri drops two of them before the join; empty segments of relative locations are lost.
* C105: the address built for the value '.' or '..' is the address of another page, since dots are not quoted and are resolved when it is joined to the script; a route with an empty segment is built without it and its address is not found; the script name is not quoted.
* C106: a request for the path /https:evil.org with a branch route /<x>/ is redirected to https:///evil.org/, another host for browsers: the redirect of an application without root is a relative reference in which colons are not quoted.
* C106: append_slash_redirect writes the undecoded path into an address without quoting it: question marks, percent signs and colons change its meaning and text outside of ASCII is encoded twice.
* C107: a builder with a route that is in no factory can be called once only: the second call raises RuntimeError, also when the first one failed because of its app_root.
* C107: mixins are appended to the bases, so a mixin can not override anything BaseApplication or BaseRequest defines, and one that derives from these makes every call raise TypeError.
* C107: a decorator from ApplicationBuilder.expose that is used on a second function keeps the end point of the first and registers no route.
* C108: redirects to defaults need not come to an end: with two routes of the same rule, one of which has a default for its own variable, /a/2 is redirected to /b and /b to /a/2.
* C108: an alias of an end point without another route is redirected to itself for ever: the assertion against it compares an absolute address with the host and path, and never fails.
* C108: where two routes of an end point have an argument with different converters, a request that matches one raises ValueError while looking for defaults of the other.
* C108: redirect_to='<p>' with a path converter redirects to any machine (/go/http://evil.org/x), and .. in the value leaves the script root. The query of the request is lost.
* C109: a root without a scheme ('example.org/app') makes every address relative to the page it stands on, and the parameters or query of a root are dropped without an error.
* C109: an application with a root answers requests for any host and below any script.
* C110: int(min=-1) is read as fixed_digits=1: the name and the sign are dropped without an error; so is any text between arguments that fits nothing.
* C110: numbers need white space after the comma: int(4,1) has the one argument '4,1'; any(1,2) is the one text '1,2'.
* C110: words and quoted texts that look like numbers are numbers (any(nan, a) and any(1, 2) are refused).
* C111: arguments end at the first ')' followed by a colon, a name and '>', even within quotes.
* C112: 0.00001 is read as 1e-05, and the address made for it has 1e-05, which no float variable takes; bounds are not checked when an address is made.
* C113: POST, PUT and other methods get 304 Not Modified for a shared file, whether or not they have conditions (C113_methods_false).
* C113: data of packages outside of the file system are sent with Content-Length: 0 (C113_length_false).
* C113: contents changed within the second of the last change and of the same size keep their tag; the client keeps the old ones (C113_stale_false).
* C113: disallow is compared with the base name only, so patterns with a directory disallow nothing (C113_disallow_false); a list of patterns, as documented, raises TypeError on the first request.
* C114: JsonView reads env.debug, which no application has unless a mixin adds it: every JSON view that returns data fails with AttributeError (C114_debug_false).
* C114: nan and infinities are sent as NaN and Infinity, which are not JSON (C114_nan_false).
* C114: keys 1 and '1' of a dictionary become the same name twice (C114_keys_false).
* C115: methods PATCH and OPTIONS of a class are ignored: such requests get 405 (C115_patch_false).
* C116: saving twice leaves an empty file the second time (C116_twice_false); a buffer size of zero saves nothing (C116_zero_limits).
* C117: iteration compares lines with the empty text, so over a stream of bytes it never ends: it goes on with empty lines (C117_bytes_false).
* C118: a stream named by a descriptor number (TemporaryFile) cannot be wrapped without a file name: TypeError; a stream that counts as false is dropped (C118_stream_false).
* C118: mimetype is remembered and does not follow the headers (C118_stale_false), and is taken from the stream when that is an upload itself (C118_nested_false).
* C119: an application without content type is given one (C119_type_false); a status that does not start with a number is sent with a zero in front, an empty one raises IndexError (C119_status_false); a buffered answer to HEAD announces the length zero (C119_head_false); a content location with more than three slashes in front changes each time it is sent (C119_address_false).
* C120: a deep copy of an ordered dictionary moves pairs with the same key together (C120_order_false); a deep copy of a combined dictionary raises TypeError for each of its keys (C120_combined_false); a dictionary that has an empty list cannot be pickled (C120_copies).
* `parse_cookie` ignores its argument `errors`: one cookie that is not UTF-8 makes `request.cookies` raise UnicodeError (C125_malformed_false).
* `set_cookie` leaves `;` after `?` or `#` in the path as it is, so that such a path can add attributes (C125_path_limits).
* `headers.extend(headers)` never ends: it appends to the list it iterates over (C126_extend_self_false).
* `Headers.setdefault` returns the object it was given and not the text it stored (C126_setdefault_false).
* Headers that differ only in the case of names are not equal, and headers with the values of a name in another order are (C126_equal_false).
* `HeaderSet.__setitem__` does not look whether the name is there already, and `HeaderSet(["a", "A"])` counts one name and lists two (C127_answers_false).
* `d.update(d)` never ends for a `MultiDict` or an `OrderedMultiDict` that holds any value (C128_update_self_false).
* An `OrderedMultiDict` is neither `==` nor `!=` to a plain dictionary or to any other object (C128_ne_false).
* `ImmutableMultiDict == OrderedMultiDict` is false where the swapped comparison is true, and all `CombinedMultiDict`s are equal to each other (C128_false).
* `uri_to_iri` decodes `#` and `?` in user names and `#` in paths: `http://evil.com%23@good.com/` is shown as `http://evil.com#@good.com/`, whose host is evil.com (C129_user_false, C129_hash_false).
* `uri_to_iri` raises UnicodeDecodeError for a user name that is not UTF-8, whatever `errors` says (C129_strict_limits).
* `iri_to_uri` escapes the semicolons of paths, and `uri_to_iri` keeps them escaped (C129_semicolon_limits).
* A general range overrides a more specific one before it if its quality is higher: with `Accept: text/html;q=0.5, */*` HTML counts 1.0 (C130_best_false, C130_override).
* `Accept: text/html/x` is read without complaint, and every question to it raises ValueError (C130_slash_limits).
* `LimitedStream.readlines(n)` cuts lines: the first if it is longer than `n`, a later one at `n` bytes (C131_hint_false).
* `MapAdapter.build` raises AttributeError for every multi dictionary that is not empty: it calls `iteritems`, which multi dictionaries do not have (C132_multi_false).
* `MapAdapter.build` puts only the first value of a list into the query, and raises IndexError for an empty one (C132_lists_false, C132_empty_limits).
* `EnvironBuilder.close`, and so `create_environ` and the test client, closes only the first of several files with the same name (C133_same_name_false).
* Values in Accept headers are checked only at their beginning, so that `en us` and `text/html/xml` are read (C134_form_false).
* Which of two routes with the same default values a request is redirected to depends on the order in which they were added (C46_independent_false).
* An empty entity tag in If-Range arrives as none, a tag that reads as a date arrives as a date, and a parameter with an empty value arrives as one without (C122_sent_false).
* C135: a value such as `../javascript:alert(1)` takes a built address above the root, so that it is read as one with a scheme (C135_scheme_false); neither dots nor colons are quoted.
* C135: slashes are not quoted in the variables of a domain, so that `evil.org/` as a subdomain gives an address on another server (C135_domain_false).
* C136: weak tags are sent as `w/"..."`, which is no entity tag of RFC 7232, where `W/` is case sensitive (C136_weak_limits); a client that reads tags cannot use them.
* C137: a suffix range longer than the document is refused although it asks for all of it, and one of length zero is answered with all of it (C137_suffix_false, C11_suffix_false).
* C139: the root is written into addresses without escaping, so that a mount path with a percent sign in it gives addresses that lead elsewhere (C139_percent_false).
* C140: a document that is replaced within the second, or by one with an older date, is not seen by a client that asks by date (C140_stale_false). This is a limit of dates of whole seconds; the entity tags of C136 do not have it.
* C142: `response.status = text` and header names are not checked for line breaks, nor are the values of a list of headers given to the constructor: a line break there adds headers or starts another response (`C142_status_false`, `C142_name_false`, `C142_init_false`).
* C143: `parse_options_header` keeps white space behind a token value (`charset=utf-8 ; q=1`) and the backslash of `\\a`; parameter and directive names depend on case; `realm = x` is read under the name `realm ` (`C143_options_false`, `C143_dict_false`).
* C144: an `Authorization` that is copied (`copy.copy`, `copy.deepcopy`) or pickled loses all credentials, and its `type` becomes the dictionary (`C144_authorization_false`).
* C145: a parameter sent with an empty value (`?id=`) is answered with 400 as if it were missing, because the query is read without blank values (C90); 308, 421, 451, 508 and 511 are sent as `UNKNOWN` (`C145_unknown_limits`).
* C146: `URLMap.update` sorts the lists of routes in place without a lock. A request that comes while the first request sorts them sees an empty list and is answered 404 for a page that exists (`C146_match_false`), misses a redirect, or gets `BuildError`. Calling `update()` once before threads start avoids it (`C146_warm`, `C146_match_settled`).
* C147: `_cookie_re` begins with `[^=]+\\s*=` and is searched for: a `Cookie` header of `n` spaces and no `=` takes more than `n^3/6` attempts (`C147_cookie_limits`), so a header of 8 kB occupies the server for some ninety thousand million.
* C148: `get_input_stream` makes a new `LimitedStream` over `wsgi.input` for every request object and leaves no trace in the environ, so after one object has read the body a second one (an application behind middleware that looked at the body) reads the bytes that follow it on the connection, the next request of the client, or reports that the client has gone away (`C148_body_second`).
* C148: attributes are cached one by one, so a dispatcher that moves a segment from `PATH_INFO` to `SCRIPT_NAME` after `request.path` was read leaves a request whose `script_root + path` names a place that was never asked for (`C148_mixed_false`).
* C149: `add_routes` and `update` share `_routes`, `_routes_by_endpoint` and `_remap` without a lock. A route added while another thread sorts is thrown away by the sort (`C149_lost_false`); a mark set between the last sort and `_remap = False` is taken back, so that the new routes stay behind less specific ones until something else is added (`C149_stale_false`); a new end point added during the loop of `update` makes a lookup fail with `RuntimeError` (`C149_fails_limits`).
* C150: with wildcards in the Accept header the order of registration decides between offers that the client rates differently, because acceptabilities are not compared by a linear order (`C150_order_false`).
* C85: names, paths and texts for Expires are written into cookies without quoting, so that one with a semicolon adds attributes (`C85_semicolon_false`).
* C74: the value of a Cache-Control directive that is itself enclosed in quotes loses them on the way through the header (`C74_quoted_false`).
* C151: the test client sends a cookie to every host, also to those it was not set for, where it can take the place of the right one (`C151_hosts_false`).
* C151: the test client sends cookies after they have ended (`C151_expired_false`).
* C152: a cookie that a view sets and then removes for the same response stays in the jar of the test client, while a browser drops it (`C152_undo_false`).
* C153: where two cookies of one name cover a request, the view sees the one with the shorter path, since browsers send the more specific one first and `parse_cookie` keeps the last (`C153_specific_false`).
* C154: `response.www_authenticate.domain` with two paths is read back as one name, since paths are quoted in the set and quoted again in the challenge (`C154_domain_false`).
* C154: changing `authorization.qop` raises `TypeError` but the set is changed (`C154_refused_false`).

## Coverage of the source

Functions and methods of `/repo/verktyg` outside the test suite: 679, of which 575 have at least half of their body lines cited by a definition of the model.  `__repr__` and some one-line methods are left out although they lie within a cited range.  The lists below are generated from the citations.

### `accept/__init__.py`

Modelled: `Acceptability.__init__`, `Acceptability.__eq__`, `Acceptability.__gt__`, `select_representation`, `Representation.__init__`, `Representation.acceptability`.

Not modelled: `Representation.__repr__`.

### `accept/_base.py`

Modelled: `Range.__init__`, `Range._validate_value`, `Range.to_header`, `Accept.__init__`, `Accept.__iter__`, `Accept.__contains__`, `Accept.__getitem__`, `Accept.__str__`, `Accept.to_header`, `Acceptability.__init__`, `Acceptability.exact_match`, `Acceptability.quality`, `Acceptability.__eq__`, `Acceptability.__gt__`, `Value.__init__`, `Value._acceptability_for_option`, `Value.acceptability`, `Value.__str__`, `Value.to_header`, `split_accept_string`.

Not modelled: `Range._validate_param`, `Range.__repr__`, `Range.__str__`, `Accept.__repr__`.

### `accept/charset.py`

Modelled: `_CharsetRange._validate_param`, `CharsetAcceptability.exact_match`, `parse_accept_charset_header`, `parse_charset_header`.

Not modelled: `CharsetAcceptability.__init__`, `CharsetAcceptability.charset`.

### `accept/content_type.py`

Modelled: `_ContentTypeRange._validate_value`, `_ContentTypeRange.type`, `_ContentTypeRange.subtype`, `ContentTypeAcceptability.type_matches`, `ContentTypeAcceptability.subtype_matches`, `ContentTypeAcceptability.exact_match`, `ContentType.type`, `ContentType.subtype`, `ContentType._acceptability_for_option`, `ContentType.to_header`, `parse_accept_header`, `parse_content_type_header`.

Not modelled: `ContentTypeAcceptability.__init__`, `ContentTypeAcceptability.content_type`.

### `accept/language.py`

Modelled: `_LanguageRange._validate_param`, `LanguageAcceptability.specificity`, `LanguageAcceptability.tail`, `LanguageAcceptability.exact_match`, `Language._acceptability_for_option`, `parse_accept_language_header`, `parse_language_header`.

Not modelled: `LanguageAcceptability.__init__`, `LanguageAcceptability.language`.

### `application.py`

Modelled: `_default_redirect_handler`, `BaseApplication.__init__`, `BaseApplication._get_response`, `BaseApplication._wsgi_inner`, `BaseApplication.__call__`, `BaseApplication.url_for`, `ApplicationBuilder.__init__`, `ApplicationBuilder.add_application_mixins`, `ApplicationBuilder.add_request_mixins`, `ApplicationBuilder.add_converters`, `ApplicationBuilder.add_routes`, `ApplicationBuilder.add_bindings`, `ApplicationBuilder.expose`, `ApplicationBuilder.add_middleware`, `ApplicationBuilder.add_exception_handlers`, `ApplicationBuilder.add_exception_handler`, `ApplicationBuilder.exception_handler`, `ApplicationBuilder.__call__`.

### `datastructures.py`

Modelled: `is_immutable`, `iter_multi_items`, `ImmutableListMixin.__delitem__`, `ImmutableListMixin.__delslice__`, `ImmutableListMixin.__iadd__`, `ImmutableListMixin.__setitem__`, `ImmutableListMixin.__setslice__`, `ImmutableListMixin.append`, `ImmutableListMixin.extend`, `ImmutableListMixin.insert`, `ImmutableListMixin.pop`, `ImmutableListMixin.reverse`, `ImmutableListMixin.sort`, `ImmutableDictMixin._iter_hashitems`, `ImmutableDictMixin.__hash__`, `ImmutableDictMixin.setdefault`, `ImmutableDictMixin.update`, `ImmutableDictMixin.pop`, `ImmutableDictMixin.popitem`, `ImmutableDictMixin.__setitem__`, `ImmutableDictMixin.__delitem__`, `ImmutableDictMixin.clear`, `ImmutableMultiDictMixin._iter_hashitems`, `ImmutableMultiDictMixin.add`, `ImmutableMultiDictMixin.popitemlist`, `ImmutableMultiDictMixin.poplist`, `ImmutableMultiDictMixin.setlist`, `ImmutableMultiDictMixin.setlistdefault`, `UpdateDictMixin.calls_update`, `UpdateDictMixin.setdefault`, `UpdateDictMixin.pop`, `TypeConversionDict.get`, `MultiDict.__init__`, `MultiDict.__getstate__`, `MultiDict.__setstate__`, `MultiDict.__getitem__`, `MultiDict.__setitem__`, `MultiDict.add`, `MultiDict.getlist`, `MultiDict.setlist`, `MultiDict.setdefault`, `MultiDict.setlistdefault`, `MultiDict.items`, `MultiDict.lists`, `MultiDict.keys`, `MultiDict.__iter__`, `MultiDict.values`, `MultiDict.listvalues`, `MultiDict.copy`, `MultiDict.deepcopy`, `MultiDict.to_dict`, `MultiDict.update`, `MultiDict.pop`, `MultiDict.popitem`, `MultiDict.poplist`, `MultiDict.popitemlist`, `MultiDict.__copy__`, `MultiDict.__deepcopy__`, `_omd_bucket.__init__`, `_omd_bucket.unlink`, `OrderedMultiDict.__init__`, `OrderedMultiDict.__eq__`, `OrderedMultiDict.__ne__`, `OrderedMultiDict.__reduce_ex__`, `OrderedMultiDict.__getstate__`, `OrderedMultiDict.__setstate__`, `OrderedMultiDict.__getitem__`, `OrderedMultiDict.__setitem__`, `OrderedMultiDict.__delitem__`, `OrderedMultiDict.keys`, `OrderedMultiDict.values`, `OrderedMultiDict.items`, `OrderedMultiDict.lists`, `OrderedMultiDict.listvalues`, `OrderedMultiDict.add`, `OrderedMultiDict.getlist`, `OrderedMultiDict.setlist`, `OrderedMultiDict.setlistdefault`, `OrderedMultiDict.update`, `OrderedMultiDict.poplist`, `OrderedMultiDict.pop`, `OrderedMultiDict.popitem`, `OrderedMultiDict.popitemlist`, `CombinedMultiDict.__init__`, `CombinedMultiDict.fromkeys`, `CombinedMultiDict.__getitem__`, `CombinedMultiDict.get`, `CombinedMultiDict.getlist`, `CombinedMultiDict._keys_impl`, `CombinedMultiDict.keys`, `CombinedMultiDict.items`, `CombinedMultiDict.values`, `CombinedMultiDict.lists`, `CombinedMultiDict.listvalues`, `CombinedMultiDict.copy`, `CombinedMultiDict.to_dict`, `CombinedMultiDict.__len__`, `CombinedMultiDict.__contains__`, `ImmutableOrderedMultiDict._iter_hashitems`, `CallbackDict.__init__`.

Not modelled: `ImmutableListMixin.__hash__`, `ImmutableListMixin.__reduce_ex__`, `ImmutableList.__repr__`, `ImmutableDictMixin.fromkeys`, `ImmutableDictMixin.__reduce_ex__`, `ImmutableMultiDictMixin.__reduce_ex__`, `ImmutableTypeConversionDict.copy`, `ImmutableTypeConversionDict.__copy__`, `MultiDict.__repr__`, `CombinedMultiDict.__reduce_ex__`, `CombinedMultiDict.__repr__`, `ImmutableDict.__repr__`, `ImmutableDict.copy`, `ImmutableDict.__copy__`, `ImmutableMultiDict.copy`, `ImmutableMultiDict.__copy__`, `ImmutableOrderedMultiDict.copy`, `ImmutableOrderedMultiDict.__copy__`, `CallbackDict.__repr__`.

### `dispatch.py`

Modelled: `Binding.__init__`, `Binding.__call__`, `Binding.get_bindings`, `Dispatcher.__init__`, `Dispatcher.add_bindings`, `Dispatcher.get_bindings`, `Dispatcher.lookup`.

Not modelled: `BindingFactory.get_bindings`, `Binding.__repr__`.

### `exception_dispatch.py`

Modelled: `ExceptionHandler.__init__`, `ExceptionDispatcher.add_exception_handlers`, `ExceptionDispatcher.get_exception_handlers`, `ExceptionDispatcher.lookup`.

Not modelled: `ExceptionHandlerFactory.get_exception_handlers`, `ExceptionHandler.get_exception_handlers`, `ExceptionHandler.__repr__`, `ExceptionDispatcher.__init__`.

### `exceptions.py`

Modelled: `HTTPException.__init__`, `MethodNotAllowed.__init__`, `_find_exceptions`, `Aborter.__init__`, `Aborter.__call__`.

Not modelled: `HTTPException.wrap`, `HTTPException.name`, `HTTPException.__str__`, `HTTPException.__repr__`.

### `http/auth.py`

Modelled: `Authorization.__init__`, `parse_authorization_header`, `auth_property`, `WWWAuthenticate.__init__`, `WWWAuthenticate.set_basic`, `WWWAuthenticate.set_digest`, `WWWAuthenticate.to_header`, `WWWAuthenticate._set_property`, `WWWAuthenticate._get_stale`, `WWWAuthenticate._set_stale`, `parse_www_authenticate_header`.

Not modelled: `Authorization.qop`, `WWWAuthenticate.__str__`, `WWWAuthenticate.__repr__`.

### `http/basic.py`

Modelled: `wsgi_to_bytes`, `bytes_to_wsgi`, `quote_header_value`, `unquote_header_value`, `_options_header_vkw`, `unicodify_header_value`, `Headers.__init__`, `Headers.__getitem__`, `Headers.__eq__`, `Headers.__ne__`, `Headers.get`, `Headers.getlist`, `Headers.get_all`, `Headers.items`, `Headers.keys`, `Headers.values`, `Headers.extend`, `Headers.__delitem__`, `Headers.remove`, `Headers.pop`, `Headers.popitem`, `Headers.__contains__`, `Headers.__iter__`, `Headers.__len__`, `Headers.add`, `Headers._validate_value`, `Headers.add_header`, `Headers.clear`, `Headers.set`, `Headers.setdefault`, `Headers.__setitem__`, `Headers.to_list`, `Headers.to_wsgi_list`, `Headers.copy`, `Headers.__copy__`, `Headers.__str__`, `ImmutableHeadersMixin.__delitem__`, `ImmutableHeadersMixin.__setitem__`, `ImmutableHeadersMixin.add`, `ImmutableHeadersMixin.extend`, `ImmutableHeadersMixin.insert`, `ImmutableHeadersMixin.pop`, `ImmutableHeadersMixin.popitem`, `ImmutableHeadersMixin.setdefault`, `dump_options_header`, `dump_header`, `parse_list_header`, `parse_dict_header`, `parse_options_header`, `parse_date`, `_dump_date`, `http_date`, `remove_entity_headers`, `remove_hop_by_hop_headers`, `is_entity_header`, `is_hop_by_hop_header`, `is_byte_range_valid`, `FileStorage.__init__`, `FileStorage._parse_content_type`, `FileStorage.content_type`, `FileStorage.content_length`, `FileStorage.mimetype`, `FileStorage.mimetype_params`, `FileStorage.save`, `FileStorage.__nonzero__`, `FileStorage.__getattr__`, `HeaderSet.__init__`, `HeaderSet.add`, `HeaderSet.remove`, `HeaderSet.update`, `HeaderSet.discard`, `HeaderSet.find`, `HeaderSet.index`, `HeaderSet.clear`, `HeaderSet.as_set`, `HeaderSet.to_header`, `HeaderSet.__getitem__`, `HeaderSet.__delitem__`, `HeaderSet.__setitem__`, `HeaderSet.__contains__`, `HeaderSet.__len__`, `HeaderSet.__iter__`, `HeaderSet.__nonzero__`, `HeaderSet.__str__`, `parse_set_header`.

Not modelled: `Headers.__repr__`, `FileStorage.close`, `FileStorage.__iter__`, `FileStorage.__repr__`, `HeaderSet.__repr__`.

### `http/cache_control.py`

Modelled: `IfRange.__init__`, `IfRange.to_header`, `parse_if_range_header`, `Range.__init__`, `Range.range_for_length`, `Range.make_content_range`, `Range.to_header`, `Range.__str__`, `parse_range_header`, `ContentRange.__init__`, `ContentRange._callback_property`, `ContentRange.set`, `ContentRange.unset`, `ContentRange.to_header`, `ContentRange.__nonzero__`, `ContentRange.__str__`, `parse_content_range_header`, `cache_property`, `_CacheControl.__init__`, `_CacheControl._get_cache_value`, `_CacheControl._set_cache_value`, `_CacheControl._del_cache_value`, `_CacheControl.to_header`, `parse_cache_control_header`, `quote_etag`, `unquote_etag`, `ETags.__init__`, `ETags.as_set`, `ETags.is_weak`, `ETags.contains_weak`, `ETags.contains`, `ETags.contains_raw`, `ETags.to_header`, `ETags.__call__`, `ETags.__bool__`, `ETags.__contains__`, `parse_etags`, `generate_etag`, `is_resource_modified`.

Not modelled: `IfRange.__str__`, `IfRange.__repr__`, `Range.__repr__`, `ContentRange.__repr__`, `_CacheControl.__str__`, `_CacheControl.__repr__`, `ETags.__str__`, `ETags.__iter__`, `ETags.__repr__`.

### `http/cookies.py`

Modelled: `_cookie_quote`, `_cookie_unquote`, `_make_cookie_domain`, `_cookie_parse_impl`, `cookie_date`, `parse_cookie`, `dump_cookie`.

### `requests.py`

Modelled: `_assert_not_shallow`, `BaseRequest.__init__`, `BaseRequest.from_values`, `BaseRequest._get_stream_for_parsing`, `BaseRequest.call_on_close`, `BaseRequest.close`, `BaseRequest.stream`, `BaseRequest.input_stream`, `BaseRequest.args`, `BaseRequest.get_data`, `BaseRequest.cookies`, `BaseRequest.headers`, `BaseRequest.path`, `BaseRequest.full_path`, `BaseRequest.script_root`, `BaseRequest.url`, `BaseRequest.base_url`, `BaseRequest.url_root`, `BaseRequest.host_url`, `BaseRequest.host`, `BaseRequest.query_string`, `BaseRequest.method`, `BaseRequest.access_route`, `BaseRequest.remote_addr`, `BaseRequest.scheme`, `BaseRequest.is_xhr`, `BaseRequest.is_secure`, `ETagRequestMixin.cache_control`, `ETagRequestMixin.if_match`, `ETagRequestMixin.if_none_match`, `ETagRequestMixin.if_modified_since`, `ETagRequestMixin.if_unmodified_since`, `ETagRequestMixin.if_range`, `ETagRequestMixin.range`, `AuthorizationMixin.authorization`, `CommonRequestDescriptorsMixin.content_type`, `CommonRequestDescriptorsMixin.content_encoding`, `CommonRequestDescriptorsMixin.content_md5`, `CommonRequestDescriptorsMixin.referrer`, `CommonRequestDescriptorsMixin.date`, `CommonRequestDescriptorsMixin.max_forwards`, `CommonRequestDescriptorsMixin._parse_content_type`, `CommonRequestDescriptorsMixin.mimetype`, `CommonRequestDescriptorsMixin.mimetype_params`, `CommonRequestDescriptorsMixin.pragma`.

Not modelled: `BaseRequest.__repr__`, `BaseRequest.app`, `BaseRequest.__enter__`, `BaseRequest.__exit__`, `BaseRequest.remote_user`, `BaseRequest.is_multithread`, `BaseRequest.is_multiprocess`, `BaseRequest.is_run_once`, `CommonRequestDescriptorsMixin.content_length`.

### `responses.py`

Modelled: `_iter_encoded`, `BaseResponse.__init__`, `BaseResponse.call_on_close`, `BaseResponse.force_type`, `BaseResponse.from_app`, `BaseResponse._get_status_code`, `BaseResponse._set_status_code`, `BaseResponse._get_status`, `BaseResponse._set_status`, `BaseResponse.get_data`, `BaseResponse.set_data`, `BaseResponse.calculate_content_length`, `BaseResponse._ensure_sequence`, `BaseResponse.make_sequence`, `BaseResponse.iter_encoded`, `BaseResponse.set_cookie`, `BaseResponse.delete_cookie`, `BaseResponse.is_sequence`, `BaseResponse.close`, `BaseResponse.freeze`, `BaseResponse.get_wsgi_headers`, `BaseResponse.get_app_iter`, `BaseResponse.get_wsgi_response`, `BaseResponse.__call__`, `ETagResponseMixin.cache_control`, `ETagResponseMixin.make_conditional`, `ETagResponseMixin.add_etag`, `ETagResponseMixin.set_etag`, `ETagResponseMixin.get_etag`, `ETagResponseMixin.freeze`, `ETagResponseMixin._get_content_range`, `ResponseStream.__init__`, `ResponseStream.write`, `ResponseStream.writelines`, `ResponseStream.close`, `ResponseStream.flush`, `ResponseStream.isatty`, `CommonResponseDescriptorsMixin._get_mimetype`, `CommonResponseDescriptorsMixin._set_mimetype`, `CommonResponseDescriptorsMixin._get_mimetype_params`, `CommonResponseDescriptorsMixin._get_retry_after`, `CommonResponseDescriptorsMixin._set_retry_after`, `CommonResponseDescriptorsMixin._set_property`, `WWWAuthenticateMixin.www_authenticate`.

Not modelled: `_run_wsgi_app`, `_warn_if_string`, `BaseResponse.__repr__`, `BaseResponse.is_streamed`, `BaseResponse.__enter__`, `BaseResponse.__exit__`, `ETagResponseMixin._set_content_range`, `ResponseStream.encoding`, `ResponseStreamMixin.stream`.

### `routing.py`

Modelled: `_pythonize`, `parse_converter_args`, `parse_route`, `RequestRedirect.__init__`, `Subdomain.__init__`, `Subdomain.get_routes`, `Submount.__init__`, `Submount.get_routes`, `EndpointPrefix.__init__`, `EndpointPrefix.get_routes`, `RouteTemplate.__init__`, `RouteTemplate.__call__`, `RouteTemplateFactory.__init__`, `RouteTemplateFactory.get_routes`, `Route.__init__`, `Route.empty`, `Route.get_routes`, `Route.refresh`, `Route.bind`, `Route.get_converter`, `Route.compile`, `Route.match`, `Route.build`, `Route.provides_defaults_for`, `Route.suitable_for`, `Route.match_compare_key`, `Route.build_compare_key`, `Route.__eq__`, `BaseConverter.__init__`, `BaseConverter.to_python`, `BaseConverter.to_url`, `UnicodeConverter.__init__`, `AnyConverter.__init__`, `NumberConverter.__init__`, `NumberConverter.num_convert`, `NumberConverter.to_python`, `NumberConverter.to_url`, `FloatConverter.__init__`, `UUIDConverter.to_python`, `UUIDConverter.to_url`, `URLMap.__init__`, `URLMap.is_endpoint_expecting`, `URLMap.iter_routes`, `URLMap.add_routes`, `URLMap.bind`, `URLMap.bind_to_environ`, `URLMap.update`, `MapAdapter.__init__`, `MapAdapter.match`, `MapAdapter.test`, `MapAdapter.get_host`, `MapAdapter.get_default_redirect`, `MapAdapter.encode_query_args`, `MapAdapter.make_redirect_url`, `MapAdapter.make_alias_redirect_url`, `MapAdapter.build`.

Not modelled: `RequestAliasRedirect.__init__`, `BuildError.__init__`, `RouteFactory.get_routes`, `Route.__ne__`, `Route.__str__`, `Route.__repr__`, `URLMap.__repr__`.

### `test.py`

Modelled: `stream_encode_multipart`, `_TestCookieHeaders.getheaders`, `_TestCookieHeaders.get_all`, `_TestCookieJar.inject_wsgi`, `_TestCookieJar.extract_wsgi`, `_iter_data`, `FileMultiDict.add_file`, `EnvironBuilder.__init__`, `EnvironBuilder._add_file_from_data`, `EnvironBuilder._get_base_url`, `EnvironBuilder._set_base_url`, `EnvironBuilder._get_content_type`, `EnvironBuilder._set_content_type`, `EnvironBuilder._get_content_length`, `EnvironBuilder._set_content_length`, `EnvironBuilder.form_property`, `EnvironBuilder._get_input_stream`, `EnvironBuilder._set_input_stream`, `EnvironBuilder._get_query_string`, `EnvironBuilder._set_query_string`, `EnvironBuilder._get_args`, `EnvironBuilder._set_args`, `EnvironBuilder.server_name`, `EnvironBuilder.server_port`, `EnvironBuilder.close`, `EnvironBuilder.get_environ`, `EnvironBuilder.get_request`, `Client.set_cookie`, `Client.delete_cookie`, `Client.run_wsgi_app`, `Client.resolve_redirect`, `Client.open`, `create_environ`, `run_wsgi_app`.

Not modelled: `encode_multipart`, `_TestCookieHeaders.__init__`, `_TestCookieResponse.__init__`, `_TestCookieResponse.info`, `EnvironBuilder.__del__`, `Client.__init__`, `Client.get`, `Client.patch`, `Client.post`, `Client.head`, `Client.put`, `Client.delete`, `Client.options`, `Client.trace`, `Client.__repr__`.

### `urls.py`

Modelled: `_safe_urlunquote_to_bytes`, `_safe_urlunquote`, `encode_idna`, `decode_idna`, `uri_to_iri`, `_encode_netloc`, `iri_to_uri`, `url_fix`.

### `utils.py`

Modelled: `cached_property.__set__`, `cached_property.__get__`, `header_property.__init__`, `header_property.__get__`, `header_property.__set__`, `header_property.__delete__`, `get_content_type`, `secure_filename`, `redirect`, `append_slash_redirect`.

Not modelled: `cached_property.__init__`, `header_property.__repr__`.

### `views.py`

Modelled: `View.__init__`, `View.get_bindings`, `ClassView.get_bindings`, `JsonView.__init__`, `JsonView.__call__`, `expose`, `expose_json`.

Not modelled: `View.__call__`.

### `wsgi.py`

Modelled: `wsgi_decoding_dance`, `wsgi_encoding_dance`, `wsgi_get_bytes`, `get_current_url`, `host_is_trusted`, `get_host`, `get_content_length`, `get_input_stream`, `get_query_string`, `EnvironHeaders.__init__`, `EnvironHeaders.__eq__`, `EnvironHeaders.__getitem__`, `EnvironHeaders.__len__`, `EnvironHeaders.__iter__`, `EnvironHeaders.copy`, `SharedDataMiddleware.__init__`, `SharedDataMiddleware.is_allowed`, `SharedDataMiddleware._opener`, `SharedDataMiddleware.get_file_loader`, `SharedDataMiddleware.get_package_loader`, `SharedDataMiddleware.get_directory_loader`, `SharedDataMiddleware.generate_etag`, `SharedDataMiddleware.__call__`, `DispatcherMiddleware.__init__`, `DispatcherMiddleware.__call__`, `ClosingIterator.__init__`, `ClosingIterator.__iter__`, `ClosingIterator.__next__`, `ClosingIterator.close`, `wrap_file`, `FileWrapper.__iter__`, `FileWrapper.__next__`, `_make_chunk_iter`, `make_line_iter`, `make_chunk_iter`, `LimitedStream.__init__`, `LimitedStream.__iter__`, `LimitedStream.is_exhausted`, `LimitedStream.on_exhausted`, `LimitedStream.on_disconnect`, `LimitedStream.exhaust`, `LimitedStream.read`, `LimitedStream.readline`, `LimitedStream.readlines`, `LimitedStream.tell`, `LimitedStream.__next__`.

Not modelled: `get_path_info`, `get_script_name`, `FileWrapper.__init__`, `FileWrapper.close`.

## Properties

Status, the file with the theorems, how they are proved, and what is missing where the
status is `partial`.  Names of theorems are in `MANIFEST.json`; all of a property's
theorems begin with its id.

| id | title | status | file | how proved | remarks |
|----|-------|--------|------|-----------|---------|
| C01 | Header value quoting round-trips | proved | Props/Quote | induction over the text, with replacement passes turned into one character-wise scan | Round trip for every string; the is_filename variant is characterised exactly (UNC paths). |
| C02 | A quoted header value cannot break out of its quotes | proved | Props/Quote | induction; the quoted-string grammar of Spec/QuotedString is the specification | Every output is a token or one complete quoted-string. |
| C03 | List headers round-trip | partial | Props/Quote | invariant of the splitting automaton per item, induction over the items; both directions of the iff | The unrestricted claim is false (C03_list_roundtrip_false); the partial theorem is an exact iff saying which lists survive. |
| C04 | Dictionary headers round-trip | partial | Props/Quote | as C03, with distinct keys folded into a dictionary | The unrestricted claim is false (C04_dict_roundtrip_false); the partial theorem is an exact iff. |
| C05 | Option headers round-trip | partial | Props/Options | first success of the option pattern characterised piece by piece, then induction over the options | The unrestricted claim is false (C05_roundtrip_false); the partial theorem is an exact condition. |
| C06 | Header values stored through the API never contain line breaks | proved | Props/Headers | invariant over all histories of calls | Over every history of calls, with the unchecked entry points named in C06_unchecked_inputs. |
| C07 | Headers is a case-insensitive multimap | proved | Props/Headers | refinement to a function from folded names to value lists, over all histories | Refinement of a case-insensitive multimap. |
| C08 | Setting a header leaves exactly one occurrence in place | proved | Props/Headers | induction over the list of headers |  |
| C09 | A rejected header call changes nothing | proved | Props/Headers | case analysis per call: exact rejection condition and unchanged state | Exact rejection condition; extend is the one call that is not atomic (C09_extend_not_atomic). |
| C10 | HeaderSet membership, iteration and serialisation agree | partial | Props/HeaderSet | invariant between the set and the list over histories; refutation by a concrete history | False in general (C10_coherence_false); proved for histories without the calls that break it; C127 says exactly which these are. |
| C11 | Resolved byte ranges lie inside the resource | partial | Props/Range | case analysis on integers (omega) | Bounds for every range and length; the exact set of positions for every range but suffixes longer than the resource and of length zero (C11_suffix_false). |
| C12 | Accepted Range headers are ordered and disjoint | proved | Props/Range | loop invariant of the parser (last end), induction over the items |  |
| C13 | Malformed Range headers are reported as None | partial | Props/Range | induction over the items; refutation by a concrete header | False in general (C13_total_false). Proved for every syntactically valid list of items with no open ended item before the last. For every text, nothing but ValueError (for an item with a hyphen and no number) and TypeError (for an item behind an open ended one) is raised (C13_raises_partial). |
| C14 | Range headers round-trip | proved | Props/Range | decimal round trip lemma, induction over the ranges |  |
| C15 | Content-Range objects stay valid and round-trip | proved | Props/Range | invariant over histories of set/unset and assignments; decimal round trip | Limits (raw attribute setters, stop beyond length, superscript digit) are stated in C15_limits. |
| C16 | ETag quoting round-trips | proved | Props/Etag | case analysis and list lemmas | Every tag without a double quote, weak and strong. |
| C17 | ETag set headers round-trip | partial | Props/Etag | first success of the etag pattern, induction over the tags | False for tags containing a quote or for a strong tag spelled W/... (C17_roundtrip_false); proved for all other sets. |
| C18 | Parsing an ETag header terminates | partial | Props/Etag | progress measure for the loop; refutation by showing a state that repeats | False: an empty item makes the loop spin (C18_terminates_false); proved that it terminates exactly when every step consumes input. |
| C19 | Conditional request decision | partial | Props/Etag | decision table by case analysis on the environ | The decision table is proved; the claim that If-None-Match uses weak comparison is false (C19_weak_comparison_false). |
| C20 | Weak and strong ETag comparison | proved | Props/Etag | list lemmas |  |
| C21 | Cookie value quoting round-trips | proved | Props/Cookie | induction over bytes with the octal escapes | Every byte string. |
| C22 | Cookie values cannot inject cookie attributes | proved | Props/Cookie | induction over bytes, grammar of the value; split of the header on ';' | Value grammar plus the exact list of segments of the emitted header; names, expiry and path are not quoted by the code and must not contain ';'. |
| C23 | Cookies round-trip through the header | partial | Props/Cookie | first success of the cookie pattern, induction over the cookies | Request header round trip proved for every list of cookies. The dump_cookie round trip is false with Secure, HttpOnly or Domain (C23_roundtrip_false) and proved otherwise. Cookies given as text with their encoding are in C125. |
| C24 | MultiDict refines a key to value-list map | proved | Props/MultiDict | refinement to a map from keys to lists, over all histories | Refinement over every history, plus every view as a projection of the abstract map. update from the dictionary itself (which does not terminate in the code) is outside the model. |
| C25 | A key that is present can be looked up | partial | Props/MultiDict | invariant (no empty list) over histories | False: setlist(k, []) and setlistdefault(k) leave an unreadable key (C25_present_false); proved for histories that store no empty list. |
| C26 | OrderedMultiDict preserves the global insertion order | partial | Props/OrderedMultiDict | pointer invariant of the linked buckets, refinement to a list of pairs over histories | Proved on the doubly linked bucket list for every history without clear (C26_order_partial). clear, inherited from dict, breaks it (C26_clear_false): with it, lookups follow the log since the last clear, and iteration gives that log behind everything held at each clear (C26_history, for every history). |
| C27 | CombinedMultiDict behaves as the layered union | partial | Props/Combined | each view computed from the layers, induction over the layers | All views proved to agree except to_dict(flat=False), which is refuted (C27_to_dict_false). Wrapped dictionaries are MultiDicts. |
| C28 | Immutable structures cannot be changed | partial | Props/Combined | every mutating call of the model raises or leaves the state; refutations with concrete calls | Proved for dicts, ordered multi dicts and environ headers; refuted for ImmutableList.clear and for lists handed out by ImmutableMultiDict.listvalues. |
| C29 | Equal immutable multidicts hash equally | partial | Props/Combined | hash as an arbitrary function of the frozenset/tuple handed to hash | Proved within ImmutableMultiDict and within ImmutableOrderedMultiDict; refuted across the two and for CombinedMultiDict. |
| C30 | Observed dictionaries notify on every change | partial | Props/Combined | per call: changed state implies one more notification, over histories | Proved for every history without an update that raises half way; that case is refuted (C30_update_false). |
| C31 | LimitedStream never reads past its limit | partial | Props/Stream | invariant over call histories on an arbitrary short-reading stream | Proved for every history with permitted sizes (read: None, -1 or n >= 0; readline: None or n >= 0; exhaust: positive chunk) and every pattern of failing calls. Refuted for the rest: readline(-1) and read(-2) are passed to the wrapped stream and read past the limit. |
| C32 | LimitedStream delivers exactly the stream prefix | partial | Props/Stream | as C31, prefix invariant | Prefix and order proved for every history with permitted sizes in which readlines/exhaust succeed (on an error these drop what they read); completeness and reporting of short streams proved in full for permitted sizes. Refuted for readlines on a stream that fails in between (C32_readlines_false). |
| C33 | Line iteration does not depend on chunking | proved | Props/LineIter | independent inductive specification `Lines` shown deterministic; induction over the chunks | Lines is an independent inductive specification; it is shown to determine the lines uniquely. |
| C34 | Chunk iteration does not depend on chunking | partial | Props/LineIter | generalised induction over the blocks with the carried buffer | Exact for one-character separators with any block boundaries and for any separator in a single block; lossless for all. Refuted for longer separators: one divided by a block boundary is missed. |
| C35 | Mount dispatch preserves the path and picks the longest mount | proved | Props/Wsgi | loop invariant script ++ path_info = path; induction over the number of slashes | Longest matching mount wins; SCRIPT_NAME and PATH_INFO are moved exactly; the default application gets the rest. Observed: with a path that does not start with '/', the default application has the first segment moved to SCRIPT_NAME. |
| C36 | Shared data cannot be escaped | proved | Props/Wsgi | segment-wise induction for posixpath.join/normpath | Every file served lies inside its exported directory after resolving '.' and '..' lexically; exports of packages and of loader callables included. Symbolic links inside an exported directory are outside the model (the filesystem is a predicate on paths). |
| C37 | Host trust check | partial | Props/Wsgi | induction over the trusted list | Soundness for every list and host, exact decision for lists without dotted entries. Refuted for dotted entries: every host that reaches one without being its own name raises TypeError (bytes.endswith given a str), so subdomains are never accepted. |
| C38 | Secure file names are safe and stable | proved | Props/Utils | induction over the text for each of the stripping passes | For every string and any NFKD function: only safe characters, no separator, not '.' or '..', no leading or trailing dot or underscore (posix), device names guarded on Windows, idempotent. |
| C39 | Safe percent-decoding keeps reserved characters encoded | partial | Props/Urls | induction over the pieces between '%' | Decoding is exactly the scan of the specification for every string; delimiters are never created or removed; meaning kept for well formed text. Refuted for malformed text (%%34%31). The UTF-8 decoding after unquoting is in C129. |
| C40 | Method dispatch decision | proved | Props/Dispatch | refinement of nested tables to the list of additions, over histories | After every history of adding views and nesting dispatchers, lookup equals the specification read off the list of additions; statuses 501 and 405 exactly; HEAD falls back to GET. Adding a dispatcher to itself does not terminate and is left out. |
| C41 | Content negotiation is sound and complete | partial | Props/Accept | case analysis on the offer and induction over the ranges | Soundness for every offer and header with respect to the content type. Completeness for offers without language and charset and well formed ranges. Refuted for the rest: Accept-Language and Accept-Charset are ignored, a language without content type raises AttributeError, two charsets raise TypeError, malformed headers raise ValueError. |
| C42 | Content negotiation picks a best representation | partial | Props/Accept, Props/AcceptBest | induction over the offers with the selection as a fold | Refuted with wildcards (the comparison is not transitive): an offer worse in match and quality than another is selected, and the order of ranges matters. Proved: later offers always compare as worse; with concrete ranges the selected one has the largest quality; with wildcards, when no general range gives more than a more specific one, no offer exceeds the selected one in specificity or in quality, and it is the last of the equal ones (C42_wildcards_partial). Offers with a content type are preferred to those without when all have the same quality of their own (C42_typed_partial), but not otherwise (C42_typed_limits). |
| C43 | A zero quality excludes a representation | partial | Props/Accept, Props/AcceptBest | as C42 | Refuted: q=0 does not exclude. Proved: with concrete ranges a q=0 offer is never chosen when one with positive quality exists; the same with wildcards, when no general range gives more than a more specific one (C43_wildcards_partial). |
| C44 | Exception handlers: most specific acceptable class wins | proved | Props/Dispatch | induction over the resolution order | Exact for every handler table, resolution order and negotiation outcome. |
| C45 | Exception dispatchers can be nested | partial | Props/Dispatch | case analysis | Refuted: adding any dispatcher with a handler raises AttributeError; only an empty one can be added. |
| C46 | Routing picks the best matching route | partial | Props/RoutingCanon, Props/RoutingOrder | stable sort lemmas, induction over the routes and over histories of the map | C46_best_partial: for every history of add_routes calls and lookups in which no failed add_routes call is pending, a found route is a registered route that matches, and every other matching route is less specific or registered later. C46_outcome_partial: the same route decides redirects. C46_not_found_partial: NotFound exactly when no registered route matches, provided no converter raises NotFound itself. C46_independent_partial: routes of distinct specificity give the same answer in any order of registration, when default and alias redirects are off or unused. C46_order_false: after an add_routes call that fails half way the claim is false (a route that was kept is used unsorted). C46_independent_false: with default values the address a request is redirected to depends on the order of registration. |
| C47 | A static route matches only its own path | partial | Props/RoutingPath | language of the compiled pattern (RegexLang) computed for static parts | C47_match_partial/C47_adapter_partial: a strict leaf route without variables matches a path exactly when it is the rule or the rule followed by one line break. C47_equal_false: the claim as stated fails, because the `$` of the pattern also matches before a final line break. A rule that begins with two slashes is never matched through an adapter, since the adapter drops leading slashes. |
| C48 | Trailing slash redirects converge | partial | Props/RoutingPath | language of the pattern with its optional slash; induction over the routes for the map level | C48_asks: a strict branch route that matches a path with the slash asks for it without. C48_route_partial/C48_map_partial/C48_found_partial: the redirect goes to the address standing for the path plus a slash, and requesting it is answered by the same route without another slash redirect, provided the arguments convert, the path does not end with a line break and no strict leaf route matches texts ending with a slash. C48_conversion_false and C48_newline_false: without these conditions the redirect leads to NotFound. |
| C49 | Building and matching URLs are inverse | partial | Props/RoutingBuild | segment uniqueness of the compiled pattern, induction over the parts | C49_route_partial/C49_map_partial: for rules whose variables are each followed by a slash or the end, with the string (at least one character), any, int and uuid converters, the float converter for floats that Python writes without an exponent, and no variables in the domain, the address built from valid arguments, percent-decoded, is matched by the route with the same arguments, unless the path ends with a line break; other values only go to the query. C49_newline_false: with a value ending in a line break another argument can come back. C49_segments_false: variables that share a segment can come back differently. |
| C50 | Converters only deliver values they declare valid | proved | Props/RoutingConv | language of each converter's pattern, then value-by-value; induction over the delivered groups | C50_delivered: whatever a map with the built-in converters delivers is in the stated set of the converter; C50_digits: number of characters of an integer; C50_roundtrip: the text written for a valid value stands for a text that is read back as the same value. The decimal value of a character is a parameter (Decimal) that holds for Python's tables; min_length <= max_length is assumed. Floats are included: what is read is within the bounds, and the round trip is stated for those which Python writes without an exponent (C112). |
| C51 | Bodyless responses have no body | proved | Props/Response | case analysis on method and status, header filtering lemmas | For every response, method and status; entity header names as in RFC 2616. The URL functions applied to Location are arbitrary and may raise. |
| C52 | Content-Length equals the body length | partial | Props/Response | invariant over histories of the response | For every history of calls, when automatically_set_content_length is on and text elements put into a list or written take as many bytes as characters. Refuted otherwise: lengths of text count characters; with the flag off freeze leaves a stale length. |
| C53 | Close callbacks run exactly once | partial | Props/Response | counting lemma over the list of callbacks and the closing iterator | Exactly once for a plain server unless in direct passthrough mode (never called) or a callback raises (later ones skipped); through the application exactly once when read to the end, but twice when closed early. All four are theorems. |
| C54 | Status line and status code stay coherent | partial | Props/Response | invariant over histories of assignments | First word of the line is a number equal to the code, for all histories without blank lines; starts with the decimal code when the assigned lines do. Refuted for padded numbers, leading space and blank lines. |
| C55 | Request data is read once | proved | Props/Request | request state over LimitedStream, induction over later calls | get_data with caching over the model of get_input_stream/LimitedStream: same bytes and untouched stream after any later calls (C55_same_bytes, C55_read_once); the first call returns exactly Content-Length bytes (C55_first_read); a short body is reported and not cached (C55_short_body). |
| C56 | Basic credentials round-trip | proved | Props/Auth | base 64 round trip by groups of three bytes | For usernames/passwords as octets, scheme in any case and any white space; base 64 per RFC 4648 (Spec/Base64). The text version is for latin-1 text; text sent as UTF-8 is delivered as its octets read as latin-1. |
| C57 | Digest credentials are complete | proved | Props/Auth | case analysis over the required keys; C04's parser lemmas | C57_sound for every header text; C57_digest gives the converse for headers built from a directive mapping. |
| C58 | Cache-Control properties | partial | Props/CacheControl | case analysis per property kind, dictionary lemmas | Flags, numbers and text read back as set (C58_flag, C58_value_partial), other directives unchanged, deletion removes. False parts: True on no_transform/s_maxage reads as None, False on no_cache is written into the header (C58_value_false), assigning None to an absent directive raises KeyError (C58_unset_false). |
| C59 | HTTP dates round-trip | proved | Props/Date | calendar arithmetic (days from civil), tokenizer on the fixed layout | For all dates of the years 100 to 9999; C59_timestamp ties the date to the number of seconds since 1970 through an independent calendar (Spec/Calendar.lean). C59_early_years gives the exact wrong answer for years below 100, which the statement excludes. The email package's parser is modelled from its text. |
| C60 | Redirect pages do not allow markup injection | proved | Props/Redirect | escaping lemma by induction, then the HTML reader on the concatenated page | Page split into texts and tags by a small HTML reader (Spec/Html); the URI is arbitrary, so the theorem covers whatever iri_to_uri returns. Location header via the Headers model (C60_location). |
| C61 | Middleware composition order | proved | Props/Dispatch | induction over the middleware | Order of passing for any list of recording middleware, and the composition law for arbitrary wrappers. |
| C62 | Errors reach the most specific handler or propagate | partial | Props/Dispatch | case analysis over the application loop using C44's lookup | View responses, handled exceptions and unhandled ones are as claimed. Refuted when the handler lookup itself raises: a malformed Accept header makes every handler unreachable. |
| C63 | Declared content length is never negative | proved | Props/Wsgi | case analysis; composed with C31 | Never negative for every environ; the body delivered is a prefix of at most the declared length for permitted read sizes (see C31). |
| C64 | Hop-by-hop and entity header removal | proved | Props/Headers | list filter lemmas |  |
| C65 | Abort raises the exception for the code | proved | Props/Abort | induction over the list of classes | For every integer with the classes of the library; table construction for every list of classes; extra entries. |
| C66 | HeaderSet notifies its observer on every change | proved | Props/HeaderSet | per call case analysis over histories | delIdx limit stated separately. |
| C67 | Line iteration over a request body | partial | Props/LineIter | case analysis | Refuted for every non-empty byte input: TypeError from `item[-1:] in '\r\n'`. Only the empty input works. |
| C68 | Percent encoding is idempotent | proved | Props/Urls | induction over the text | For every reference without scheme and authority (for those see C95) and every safe set containing '%'. |
| C69 | Converting a URI to an IRI and back keeps its parts | partial | Props/Urls | composition of C39's scan with quoting; urlsplit lemmas | Proved when the decoded path holds no '#'. Refuted otherwise: /a%23b becomes /a#b, so the path is cut. Scheme, authority and UTF-8 are in C129. |
| C70 | Language and charset ranges match as specified | proved | Props/AcceptHeader | induction over the ranges | Exact for every tag and list of ranges. Comparison is case sensitive, as in the code. |
| C71 | Accept headers round-trip | partial | Props/AcceptHeader | parser lemmas per item, induction over the items | For ranges with parts free of separators and surrounding space. Refuted otherwise: parameters are written without quoting. Uses only float(str(q)) = q of float formatting. |
| C72 | Qualities lie between zero and one | partial | Props/AcceptHeader | case analysis on the parsed number | Between 0 and 1, or NaN: q=nan is accepted and kept (refutation). |
| C73 | Closing a response closes the wrapped iterable | partial | Props/Response | invariant over histories of the response | Exactly once for histories that do not replace the body. Refuted for freeze, set_data, and make_sequence in direct passthrough mode. |
| C74 | Cache-Control directives survive the header | partial | Props/CacheControl | composition of C04's parser lemmas with the directive table | Proved for directives with proper names and values that are text not enclosed in quotes, or integers (false otherwise: C74_quoted_false); assignment through the response uses the Headers model. |
| C75 | WWW-Authenticate round trip | partial | Props/Auth | composition of C04's parser lemmas | Round trip for parameters with text values not enclosed in quotes (C75_roundtrip_partial, C75_digest), property access (C75_properties). A parameter without a value is written as None (C75_roundtrip_false). str.title and str.lower are parameters. |
| C76 | Reading a date never raises | proved | Props/Date | totality of the parser model by cases on the token list | With the parser of Python 3.12; earlier versions lack its check for empty parts. |
| C77 | The other date formats denote the same moment | proved | Props/Date | tokenizer on the fixed layouts and calendar arithmetic |  |
| C78 | Entity tags of a response | proved | Props/Descriptors | in-place replacement of header entries (C08), quoting of tags (C16), induction over the pieces of the body | Header names are lower-cased by a function that agrees with str.lower on the names the library writes. |
| C79 | Conditional responses | partial | Props/Descriptors | case analysis over the validators on top of the decision theorem C19 and the date round trip C59 | The decision is proved for nonempty tags and for tag lists as the library writes them; C79_decision_false shows that empty tags and weakly listed strong tags are not matched. |
| C80 | Typed header properties | partial | Props/Descriptors | one lemma for all properties, instantiated with the number, date and text conversions | All properties but age; C80_age_false shows that age does not hold a number. |
| C81 | Media type and parameters of a response | partial | Props/DescriptorViews | round trip of options (C05), lookup lemma for dict assignment | Exact condition for the media type; parameters for content types as the library writes them; C81_params_false for the absent header. |
| C82 | Set-valued headers are live views | partial | Props/DescriptorViews, Props/SetPositions | invariant over histories: the fresh reading equals the live set; uses C03, C10 and C66 | For names distinct up to case, and removal with lower case arguments; C82_live_false for the rest. `C82_positions_partial` extends this to assignment by position and to removing absent names, for every call that leaves the set itself consistent (C127). |
| C83 | content_range is a live view | partial | Props/DescriptorViews | round trip of content ranges (C15), idempotence of header assignment | Everything but that reading has no effect, which is false (C83_read_false); C83_assign_false for single attributes. |
| C84 | retry_after | partial | Props/Descriptors | calendar arithmetic; text without spaces is no date | Reading raises for superscript digits and numbers beyond the calendar (C84_total_false); C84_total_partial for everything else. |
| C85 | Cookies on responses | partial | Props/DescriptorViews | segments of the dumped cookie (C22), bytes of the text are those of its segments | Arguments are the encoded bytes. Exact for names, dates and paths without ';', which are not quoted (C85_semicolon_false); values and domains are arbitrary; refusal of line breaks without restriction. |
| C86 | If-Range round trip | partial | Props/Descriptors | tracing the date parser on text that starts with a quote; C16, C59, C76 | Dates from the year 100, tags without commas (C86_roundtrip_partial); a tag without quotes is read back exactly if its quoted form is no date (C86_tag), and C86_roundtrip_false for tags that look like dates. |
| C87 | www_authenticate is a live view | partial | Props/DescriptorViews | round trip of challenges (C75), legality of the written text | Parameters with values that are not quoted at both ends; C87_live_false otherwise. |
| C88 | Text survives the WSGI environ | proved | Props/RequestUrl | the UTF-8 codec of `Verif/Utf8.lean`: decoder inverts encoder, and restarts at ASCII bytes |  |
| C89 | Path, script root and query string of a request | proved | Props/RequestUrl | C88 plus stripping lemmas |  |
| C90 | Query parameters arrive | partial | Props/RequestUrl | induction over the pairs; quoting keeps delimiters out and unquoting inverts it | Pairs with an empty value are dropped (C90_args_false). |
| C91 | URLs of a request | partial | Props/RequestUri | closed form of each URL, then splitting lemmas and inversion of the escapes left in path and query | Script roots and paths without a hash sign; C91_read_back_false otherwise. |
| C92 | Origin and method of a request | partial | Props/RequestUri | case analysis; splitting inverts joining | max_forwards raises without the header (C92_hops_false); is_secure is always None (C92_secure_false). |
| C93 | Headers of a request | proved | Props/EnvironHeaders | inversion of the key translation on ASCII names, induction on the environ | underscored names are excluded, see C93_underscore_limits |
| C94 | Wrapped files and close callbacks | partial | Props/WrapFile | induction on the bytes left in the file; induction on the callbacks | callbacks that raise stop the others: C94_raising, C94_close_false |
| C95 | URLs from international text | partial | Props/Iri | character analysis of the escape, inversion of splitting and joining | Proved for web URLs with a host without brackets whose labels the host codec maps to letters, digits, hyphens and characters of the label; a codec that makes delimiters (as NFKC does of compatibility characters) is shown to lead to another host (C95_codec_limits). For any input the result is ASCII. Local references with several leading slashes are shown to become references to another host. |
| C96 | Multipart bodies | partial | Props/Multipart | induction on the fields; a delimiter whose first byte occurs once in it is found where it was put | Proved for forms of files whose names have no carriage return and whose contents do not contain the delimiter; text fields raise TypeError and byte fields are written twice, both proved; independence of the threshold is proved in full. |
| C97 | Requests built for tests | partial | Props/EnvironBuilder | unescaping inverts escaping; last-value analysis of the updates | Paths of the form `/...` without a second slash, with or without escapes and a query behind `?`; bases with http or https, a host the host codec leaves alone and a script root without escapes; no base. Precedence of overrides, headers and base for all entries. Query parameters: one value each (witness for more). Flags and streams for errors are not modelled. |
| C98 | Bodies built for tests | partial | Props/EnvironBuilder | refinement: every step of the builder is a step of the specification; case analysis of the body | Histories and refusals proved in full; streams not standing behind their end, fields without files (first value of each) and files without fields are proved to arrive; mixed forms are shown to raise. |
| C99 | Running applications in tests | partial | Props/RunApp | induction over the steps of the application | What an application is given as: the acts of the call and of every `next`. For applications that raise nothing: unbuffered, status and headers are the first ones started, the body is what was written or yielded up to the start and all that is yielded later, closed once; buffered, the body is what is yielded, closed once also when raising. False for writes under buffering, late writes and responses without bytes (witnesses). `start_response` with `exc_info` always raises, as in the code. |
| C100 | Redirects in tests | partial | Props/TestClient | soundness and completeness of the loop against a transition relation; pigeonhole for the end | The application with the cookie jar is any function of a state and an environ. The loop is characterised by a transition relation (both directions, for results and for loops), ends when locations are finitely many, and each request is the one the location names (paths of the form `/...` without second slash, http and https, hosts the host codec leaves alone). Missing: relative locations are refused, subdomains raise, 307 loses the body, 308 is not followed (witnesses); cookies are inside the application function. |
| C101 | Factories of routes | partial | Props/RouteFactory | structural induction over the tree of factories, read from the outside in; induction over histories of additions | All nests of the four factories whose rules and paths start with a slash, and templates whose placeholders are names given as keyword arguments. Histories over any number of maps. False for paths without slash, copies of bound routes and redirects in templates (witnesses). User-defined factories are not modelled. |
| C102 | What route factories do to matching and building | partial | Props/RouteMount, Props/SubmountUrl | simulation between the two maps kept through every history; the parser and the matcher commute with text in front of a rule; the order of routes is unchanged by a common prefix | EndpointPrefix without restriction. Subdomain for routes without a subdomain of their own in maps that match subdomains. Submount for paths without variables and special characters, routes on the default subdomain, without redirect_to and without defaults or aliases that redirect; built URLs are full ones. Limits shown by witnesses. |
| C103 | A map bound to a request serves the host and the path of that request | partial | Props/RouteBind | lists of labels and text correspond (split and join); the codec leaves short ASCII labels alone; a route with a plain domain matches no other domain, for every history | Hosts and server names in ASCII with labels of at most 63 characters; the codec for other names is a parameter. Foreign hosts are not found where no subdomain has variables; otherwise shown false by a witness. match() and case hold without restriction. |
| C104 | The Location header sent is absolute and stays on the request's host | partial | Props/UrlJoin | urljoin of the standard library is modelled; splitting, quoting and joining commute with the segments of a path (induction on texts); the headers of get_wsgi_headers are followed for one name | Staying on the host holds for every path. The meaning of the path is kept without dot segments and, for relative paths, without empty segments; otherwise shown false by witnesses. Hosts in the form that C91 and C95 treat; sent only if no other header is refused. |
| C105 | A request for a built address reaches the end point it was built for | partial | Props/BuildUrl | the text a route builds is shown to be a character by character quotation of the path (induction on its parts), quotation keeps the segments, so joining to the script changes nothing (C104's model of urljoin), decoding it gives back the path (C97), and C49 with C103 matches it | For routes for matching whose variables each fill a segment and whose values the converters accept; for paths without dot segments, inner empty segments and a newline at the end, each shown necessary or refuted by witnesses here or in C48/C49; if no other route takes the path (Best); the request is one made by the test environment builder at the root of its server. |
| C106 | An application answers from its routes, and its slash redirects stay on the host | partial | Props/Application | the application is modelled from the environ to status and headers by composing the models of routing, dispatch, selection, redirect and headers; the redirect's text is shown to be a quoted relative reference, so C104 gives its place, C48 that the route is found there; existence of the answer is part of the conclusion | For applications made without a root of their own, paths of non-empty segments other than . and .., and first segments without a colon (refuted otherwise by C106_slash_false); append_slash_redirect for ASCII without %?# (refuted otherwise); middleware and closing are modelled elsewhere. |
| C107 | An application is what was registered with its builder before it was built | partial | Props/AppBuilder | histories of calls are folded over a state of route objects, maps, dispatchers, decorators, builder and applications; the contents are read off the history; classes are linearised by a model of C3 whose order and uniqueness are proved by induction on the merge | That a builder can be called again is refuted for routes in no factory (C107_again, C107_again_false), that mixins override the base class by C107_override_false. The contents are given for histories without expose decorators (C107_expose says what those register), and for routes each registered once. The config of the application is not modelled. |
| C108 | End points have one address for given arguments and other ones are redirected to it | partial | Props/RoutingCanon | the order of routes is a specification (Preferred), shown to be the one in which the routes of an end point are kept by induction over the history and the insertion sort; redirects are built from the round trip of addresses (C105) and the urljoin model (C104), and read back | That redirects come to an end is refuted by C108_loop_false and C108_alias_false, that every match is answered by C108_convert_false, that redirect_to stays below the script root by C108_open_false; the partial theorems take arguments with built-in converters (floats those that Python writes without an exponent) and, for redirect_to, a text without dot segments. |
| C109 | A request for the address that an application gives for an end point calls that end point | partial | Props/AppUrl | the adapter of a root is computed from the models of urlparse and bind; the round trip composes C105 with the models of the path of a request, dispatch (C40) and the application, for all arguments of the built-in converters | Any root is refuted by C109_root_false; the theorems take http and https roots with plain names of hosts, arguments with built-in converters (floats those that Python writes without an exponent), no defaults or aliases, and paths without dot or empty segments (C105_dots_false, C105_empty_segment_false). What is sent for a redirect from an application without a root is C106. |
| C110 | Arguments of converters mean what is written in the rule | partial | Props/ConvArgs | the matches of the regular expression of arguments are determined by lemmas on which alternative matches first; the loop by induction over the written arguments; the converters are compared with those of the specification (Kind) | Refuted for negative numbers, numbers without white space after the comma, and words that are numbers (C110_*_false). The theorems take the remaining spellings; what a converter does with a float as a bound is C112. |
| C111 | Rules are read as they are written | partial | Props/RuleText | both directions: the first match of the regular expression is computed for written variables, and every match is shown to be one; induction over the rule and over the loop; delivered values through C50 | Arguments with closing parentheses are left out of C111_read (C111_parenthesis_false); C111_only and C111_refused hold for all rules. |
| C112 | Floats in paths are read within their bounds and written so that they can be read | partial | Props/FloatConv | the language of the pattern is computed; delivered values come from a piece of the path by the lemma of C50; float() and str() are parameters | Refuted for floats that Python writes with an exponent (C112_roundtrip_false); the round trip is proved for the others, given float(str(f)) = f. |
| C113 | What the shared data middleware sends | partial | Props/SharedData | the loop over the exports is shown to be the first of a function on segments by induction over the exports and unique decomposition of paths; tags are shown to determine the second and the size (injectivity of decimal notation); dates through C59; two worlds and two requests in one theorem | Refuted for other methods, package data, changes within a second and patterns with directories (C113_*_false). Proved for the rest, with mktime one to one (no change of local time), times of the years 1 to 9999, keys and directories without a slash at the right. HEAD gets a body, as for GET. |
| C114 | JSON views send JSON that means the result | partial | Props/Views | a reader for RFC 8259 is the specification (Spec/Json.lean); reading back what json.dumps writes is proved for both notations at once by mutual induction over the value, with any white space between tokens; responses through the model of Response.__init__ | Refuted for applications without the attribute debug, for nan and infinities, and for keys that become equal texts. The proof is for clean values, and for applications with the attribute. Floats are given by their text; float keys are left out. |
| C115 | Class views answer for the methods they define | partial | Props/Views | the bindings of a class are compared with the specification of lookups (C40) | Refuted for PATCH, OPTIONS and any method beyond the five (C115_patch_false); proved for GET, HEAD, POST, PUT and DELETE. |
| C116 | Saving an upload writes all of it | partial | Props/FileStorage | copyfileobj is a recursion on what the stream still has, over reads cut by any list of bounds and failing at any point; strong induction on the remaining length | Refuted for saving twice (C116_twice_false) and a buffer size of zero. Failing of open and of writes is left out. |
| C117 | Iterating over an upload gives its lines | partial | Props/FileStorage | lines are specified by what they are together and where their line feeds are; induction on the number of items taken | Refuted for every stream of bytes (C117_bytes_false); proved for streams of text. |
| C118 | Uploads know their name and type | partial | Props/FileStorage | the constructor and the properties are modelled with the stream's attributes; the types through the parser of C05 and the lemmas of its first piece | Refuted for streams with a number as name, streams that count as false, types asked for before (C118_stream_false, C118_stale_false, C118_nested_false) and lengths that are not numbers (C118_length_false). Types are proved for names without spaces, separators and quotes; parameters as in C05. |
| C119 | Applications made responses send what they sent | partial | Props/FromApp | from_app is the model of run_wsgi_app followed by the constructor; the headers made of a response are shown to be kept when they are made again, name by name, from what each step leaves of the entries of a name | Proved for applications that raise nothing and do not write after their response was started (C99), and responses with a content type that send bytes. Refuted otherwise: C119_type_false, C119_status_false, C119_head_false, C119_address_false. |
| C120 | Copies of multi dictionaries are independent | partial | Props/Copies | list objects and dictionaries live in a memory, and programs are folded over it; the invariant is that no list belongs to two dictionaries or twice to one, and that a list the program has belongs to a dictionary only if that dictionary handed it out | Proved for plain multi dictionaries, and the contents of copies of ordered ones; refuted for deep copies of ordered and combined ones: C120_order_false, C120_combined_false. Pickling is taken to give back equal keys and values. |
| C121 | Lists handed out live stay live | proved | Props/Copies | by the same invariant, and the list stored under a key is the same object after add |  |
| C122 | Typed headers of a request are what was sent | partial | Props/RequestDesc | the entries of the environ are those of the headers (C93), and what the parsers make of written values are the round trips C17, C59, C14, C86, C04, C56, C57, C05 and C03 | Entity tags in If-Range are without commas, tags are not empty, and parameters have non-empty values, as in C86, C17 and C05; values of no_cache and no_transform may come back as text (C122_cache). What is missing is false of the code: C122_sent_false. |
| C123 | The body sent is what was set and written | partial | Props/ResponseBody | the response refines a specification with three components (bytes, closed, lazy): each call does to the body what the specification says and has the same result, then induction over histories | Proved in full for the body; what is sent in direct passthrough mode is proved for bodies of bytes (text is passed on as it is, C123_sent_false). Charsets that cannot encode some text are left out. |
| C124 | A map tells which routes it has and what they expect | partial | Props/MapQueries | an invariant over histories (the lists of the map hold the registered routes, once each, and are sorted after an update), the sort of C106, the round trip C90 for query arguments, and unique reading of rules for equality | The order is claimed as long as no call of add_routes failed since the last successful one; empty query values are dropped as in C90 (C124_query_partial); equality is proved for rules without slashes at the start of a part, in the terms of C111 (C124_equal_partial). |
| C125 | Cookies set on a response arrive with the next request | partial | Props/CookieText | an invariant over histories (the store of the user agent holds the quoted UTF-8 of what the application means), reading of headers by the specified user agent (C22), the parser on the line it sends (C23, C21) and UTF-8 decoding; dates as in C59 | That reading never raises is false (C125_malformed_false); what is proved is that nothing but UnicodeError is raised. Names are as in C23 and without `;`; the path as written and a text for Expires are without `;`, which C125_path proves for paths without query. Time stamps are whole seconds in the years 1 to 9999, and cookies of one domain and path are considered. How http.cookiejar fills the jar of the test client is not modelled. |
| C126 | Headers are copied, sliced, compared and listed as their contents say | partial | Props/HeaderViews | refinement of a store of shared list objects by plain values (no two variables have one list object), induction over positions for slices, over entries for views and conversions; a measure that never decreases for the loop of extend | That equal headers answer alike, that headers can be extended with themselves and that setdefault returns what is held are false (C126_equal_false, C126_extend_self_false, C126_setdefault_false); the rest is proved. Slices have no step. |
| C127 | All answers of a header set agree | partial | Props/HeaderSetQueries | an invariant of the list and the set that is shown to be kept by a call exactly when the call is safe, by cases of the calls | False for removals of names that are not in lower case, for assigning names that are there and for names given twice (C127_answers_false); C127_exact shows that these are the only calls that break it. str.lower is taken to be idempotent. |
| C128 | Multi dictionaries are equal when they answer alike | partial | Props/MultiCompare | Python's choice of the method that is asked first is modelled; equality is characterised by counting keys (subset and equal length), using the refinement of C26 for ordered dictionaries; an invariant of the loop for updates with the dictionary itself | Symmetry, transitivity, != as the opposite and updates with the dictionary itself are false in the cases shown (C128_false, C128_ne_false, C128_update_self_false); outside them they are proved. Histories of ordered dictionaries have no clear (see C26). Values are no lists. |
| C129 | URIs shown as international text come back as they were | partial | Props/IriBack | induction over escapes with the text so far as accumulator (decoding restarts at ASCII bytes), inversion of writing and reading authorities, splitting of what is joined | Proved for web URIs with a host whose escapes are well formed UTF-8, with no escaped `#` in the path and no escaped `?#[]` in user name and password; shown false otherwise (C129_hash_false, C129_user_false, C129_replace_false). Host codec: results not empty and without new ASCII characters, and an inverse on the host at hand. |
| C130 | An Accept header says what its most specific range says | partial | Props/AcceptQueries | induction over the ranges with the best answer so far as accumulator; matches are ordered as a rank of the range, so the comparison is lexicographic as long as no general range gives more than a more specific one before it | C130_answer holds for every header. The most specific range wins, and order makes no difference, unless a general range gives more than a more specific one before it; then it wins (C130_override, C130_best_false). Content types must have one slash. Parameters of ranges other than q have no influence in the code. |
| C131 | Lines and position of a limited stream | partial | Props/StreamLines | invariant of histories (C31, C32), the first line of a prefix is the cut of the first line, induction over the lines that are left; lines are specified by their concatenation and the places of line feeds, and proved unique | Proved for streams that hold what the limit promises and do not fail; with failures the position stays within the limit and the bytes taken (C131_tell_failing). readlines(n) gives pieces of lines (C131_hint_partial) and is shown to cut them (C131_hint_false). |
| C132 | Values given to build arrive in the address | partial | Props/BuildArgs | induction over the routes tried, comparing lookups in the dictionary with lookups in its first values; the query is compared with C105's specification | Dictionaries of values: proved, for absolute addresses of maps bound with a server (C132_query_partial). None counts as not given (C132_values_partial). Of lists only the first value arrives (C132_values_partial, C132_lists_false), empty ones raise (C132_empty_limits), and multi dictionaries always raise (C132_multi_false). Lists given for arguments of a route are outside the theorem. |
| C133 | Files given to a builder of requests are closed | partial | Props/BuilderClose | induction over histories: files closed were given, and nothing is closed after close; the dictionary of files is compared with the list of pairs it was made from | Refuted for several files with one name (C133_same_name_false), for files displaced by an input stream and for those added after close (C133_displaced_false); a name without files raises IndexError (C133_empty_limits). Proved: the first file of every name is closed, and no others (C133_close_partial, C133_create_partial), so all are when the names are distinct (C133_distinct_partial); none that was not given (C133_only); nothing after close has returned (C133_once). A file is a number, and its close has no effect but that it was called. |
| C134 | Headers of content negotiation are read or refused | partial | Props/AcceptSyntax | The patterns are turned into their languages (RegexLang), the loop over parameters into a fold of assignments described by the list of pairs; both directions, so that the ranges read are determined. | Reading and refusing proved in full (C134_reading, C134_refused). That values have their form is false: only the beginning is looked at (C134_form_false). |
| C135 | Built addresses lead to the server of the map | partial | Props/BuildHost | The joined path is followed segment by segment with the root as invariant (first segment empty, the others not); the text a route writes is related to the plain text of its parts segment by segment. | False for values with a segment `..` (C135_scheme_false) and for variables in domains (C135_domain_false). Proved for every value with which the routes write a path that stays below the root and a domain without delimiters (C135_server_partial); such are all values for routes with plain domains and quoting converters, as long as no segment is `..` (C135_values_partial). The script name is a plain path. |
| C136 | A client that revalidates always shows the current document | proved | Props/Revalidate | Both sides are composed into one run over a list of requests and compared with a small specification by induction on the list; the invariant is that the copy is the document of the request before, with its tag. | C136_current says what a client sees of any run that completes, C136_answers that runs complete. GET requests without If-Modified-Since; direct passthrough, which get_data refuses for iterators, is left out. A hash with collisions makes the client show an old document (C136_collision_limits). |
| C137 | Documents fetched in parts come together | partial | Props/Download | Both sides are composed into one run over a list of requests, which refines a specification that knows one document and a set of positions; the relation is kept by each exchange (induction on the list). | False for suffixes that are empty or longer than the document (C137_suffix_false); proved for all other requests with one range (C137_parts_partial), and completeness from it (C137_complete_partial). Strong tags without commas, as generate_etag makes them. The bytes are cut out by the view, since the library does not do that. |
| C138 | HEAD is answered as GET without the body | proved | Props/HeadRequest | Two runs of the application are related step by step: everything but the dispatcher and the body reads the environ at other keys than the method; the dispatcher falls back to GET (from the specification of C40). | Requires that no view is bound to HEAD at the end point: such a view takes the place of the one for GET (C138_own_limits). The announced length is right where it is right for GET (C52). |
| C139 | Mounted applications are reached at the addresses they give | partial | Props/MountUrl | Induction over the tree of mounts with the specification of one DispatcherMiddleware (C35); the environ it leaves is shown to be one for the same address below the longer script name, to which the round trip of C109 applies. | The split of paths is proved for all trees and all paths that are empty or begin with a slash (C139_nested). The round trip is proved under the restrictions of C109, for mount paths without a percent sign (false with one, C139_percent_false); the root has to be given (C139_root_false). |
| C140 | A client that revalidates by date shows its copy until a later document is there | partial | Props/RevalidateDate | Induction over the requests, generalised over the copy that is kept; one exchange is the decision of C79 with the calendar of C59, and the headers that get_wsgi_headers leaves alone. | What is exchanged is proved for every history (C140_exchange). That the current document is shown is proved when every change moves the date to a later second (C140_current_partial) and false otherwise (C140_stale_false). |
| C141 | Cookies last as long as they are meant to | partial | Props/CookieSession | A simulation between the store of a user agent with times (Verif.Spec.TimedAgent) and a dictionary of texts, by induction over the requests and the calls at each of them; reading back is C125, and that the cookies survive get_wsgi_headers is shown for every status. | For names as in C23 and without `;`, paths and texts for Expires that are written without `;` (the rest is false, see C125 and C85_semicolon_false), dates from 1970 on, and cookies of one domain and path. |
| C142 | Answers on one connection are read back as they were meant | partial | Props/Wire | A client of RFC 7230 (Verif.Spec.Wire) reads what a server writes for the result of `get_wsgi_headers`, the status and the iterable. Invariants over the calls on a response (names only from calls, values checked, status lines with their number) and C52 for the length; induction over the responses of the connection. | Missing: status lines, header names and values given to the constructor that contain line breaks (false, with witnesses), `Content-Length` set by the application, text in lists that takes more bytes than characters (false, `C142_text_false`), bodies of unknown length before the last response. Transfer codings are not modelled. |
| C143 | Headers that other programs write are read as the RFCs say | partial | Props/Grammar | The grammar of the RFCs is in Verif.Spec.Grammar (text and value related by inductive predicates). Lists and pairs: induction over the elements through the loop of `parse_http_list`; parameters and tags: the first match of the patterns is computed for every spelling, then induction over the pieces. | Missing (false, with witnesses): values that begin and end with a quote and empty elements in lists, white space around `=`, names in other letters, white space behind token values of parameters, escapes of other characters in parameters, file names that begin with a backslash, the empty tag. |
| C144 | Immutable structures survive copying, pickling and fromkeys | partial | Props/ImmCopy | What pickling does to a multi dictionary is computed exactly (it drops the entries with empty lists) by induction with an accumulator of disjoint keys; equality is that of C128 and the hash that of C29. Ordered ones through `ordered_of` of C120. The credentials are refuted for every object. | Missing (false, with witnesses or as exact conditions): a pickled `ImmutableMultiDict` loses keys whose list is empty; a deep copy of an ordered one moves pairs with the same key together; `Authorization` loses everything; `provided` of a `RequestCacheControl` made from None becomes True. |
| C145 | Errors are answered with the status of their class | partial | Props/ErrorClasses | Python's linearization of classes (C3) is modelled; for a class with one base and for a wrapped class its result is computed for all resolution orders by induction over the phases of the merge. The classes of the module are a finite table, checked completely. The run from request to status line composes C40, C62, C90 and C106. | Missing: that a parameter sent with an empty value reaches the view (false, C90); handlers that do not answer with the code of the exception are the application's own. |
| C146 | Requests answered at the same time are answered as if alone | partial | Props/MapThreads | Threads are modelled as programs of updates and loops whose steps interleave by an arbitrary schedule; `list.sort` empties the list while keys are computed, as CPython does, and iterators read the live list. An invariant over all reachable states (each list is as added, empty, or in order; a thread past its update sees no unordered list) gives what threads can answer; sorting twice is sorting once since the order is total. In ordered maps a second invariant gives equality with the sequential functions, to which the programs are proved equal. | Missing: equality while the map is being put in order (false, `C146_match_false`); there `C146_match_partial` and `C146_build_partial` give all answers that are possible. Routes that are added while other threads look up are not modelled. |
| C147 | Headers and paths are matched in polynomial time | proved | Props/MatchCost | A backtracking search with continuations counts every attempt; it is proved to succeed exactly where the matcher of the model does (`C147_search`). Bounds are compositional: constants and powers multiply over sequences; repetitions of classes, of parts that begin with a separator and of unambiguous parts add one power. For options and `Accept` sharper lemmas use that what follows fails at once on the symbols that are repeated, or always succeeds. The lower bound for cookies is by induction on the number of spaces. | CPython's `re` is modelled as plain backtracking; its optimisations save attempts. Converters of applications may repeat repetitions and are outside the claim. Entity tags that end in a newline are looped over for ever (C18), each round with quadratically many attempts. |
| C148 | Requests that share an environ agree about it, but not about the body | partial | Props/RequestShare | The model keeps the environ, the connection and any number of objects with their `__dict__`; what an environ says is a function of the environ alone. One lemma describes what reading may add to an object's memory, and invariants over histories follow by induction. The body is a simulation of the model of one request (C55) when one object reads it, and a sum over the positions of all objects otherwise. | False as stated for bodies and for changed environs (`C148_body_false`, `C148_mixed_false`); proved: everything said about unchanged environs, stability, moments, the body of one reader and the bound for several. Attributes with values of their own state (`headers`, `cookies`) are left out; attributes assigned by the program are not modelled. |
| C149 | Routes may be added by several threads, but not while others look up | partial | Props/MapAdders | Threads are programs of small steps over the lists, the dictionary of end points and the mark of the map, with CPython's rules for lists changed while they are sorted and dictionaries that grow during a loop. What is in the lists and what the threads still hold is together a permutation of what there was and what they were given: an invariant of every step. Lookups during adding are covered by an invariant over the prefix already looked at; lookups afterwards by induction on the lists. The false parts are concrete interleavings. | False as stated when adding overlaps with putting in order (`C149_lost_false`, `C149_stale_false`, `C149_fails_limits`); proved for any number of threads that add, for lookups during adding on a map in order, for lookups afterwards, and that lookups never invent. Steps follow CPython's interpreter lock; building URLs is not among the steps (C146 has it for fixed maps). |
| C150 | Only the order among equals matters when views and handlers are registered | partial | Props/RegisterOrder | Lookups are a function of the bindings for the name and method in order (C40, an invariant of the index under every call), so registrations that agree on those give equal answers; the same for handlers by induction on the ancestry, and for whole applications. For permutations among equals: completeness (C41) and optimality (C42) of the negotiation do not mention the order. | Proved for registrations that keep the order among bindings of one name and method, for every negotiation, and for whole applications; for permutations among equals: the status for well formed types (`C150_status_partial`), the quality for headers without wildcards (`C150_best_partial`); false with wildcards (`C150_order_false`). |
| C151 | The test client keeps the cookies that were set | partial | Props/ClientJar | The jar is a dictionary by host, path and name, filled by reading the header that `dump_cookie` writes as RFC 6265 says. Reading a written header gives back name, quoted value, path and end (the lemmas of C85 and C125), so by induction on the history the jar is the image of the meant dictionary under an injective renaming of keys. What the application sees follows from reading back a Cookie header (C125) for any permutation of the jar. | Proved for every history: the jar (`C151_jar`, `C151_atomic`), what is seen (`C151_seen`), and exactly so for one host and path (`C151_one`). False of the code: cookies are sent to other hosts (`C151_hosts_false`) and after they ended (`C151_expired_false`). `http.cookiejar` is modelled as an agent after RFC 6265. |
| C152 | Cookies of a response are in the next request of the test client | partial | Props/ClientAnswer | All headers of a response are read first, which removes cookies, and the others are kept afterwards, as `http.cookiejar` does. The headers are the dumps of the calls in order (induction on the calls), each is read back (C151), so the jar is the image of the meant dictionary with all removals first (`C152_jar`). Where no call removes what an earlier one set, removals commute with the other calls up to lookup, by induction. | `C152_jar` for every list of calls (removals first, then the others); equal to the calls one after the other where no call removes what an earlier one has set for the same response, for one response (`C152_next_partial`) and for whole histories of calls on the client and responses (`C152_history_partial`); false otherwise (`C152_undo_false`). `http.cookiejar` is modelled by reading its source, with RFC 6265 for the syntax of headers. |
| C153 | Cookies are seen where and as long as they are meant to be | partial | Props/CookiePaths | Spec/PathAgent.lean gives the browser (RFC 6265, sections 5.1.4, 5.3, 5.4). By induction on responses and calls its store is the image of the meant store, since every header that `set_cookie` writes is read back (C151). Two paths of equal length that cover one request are equal, so the order of sending is strict among cookies of one name, and reading the Cookie header (C125) keeps the last, which has the shortest path (`C153_seen`, an equivalence). | What is kept (`C153_kept`) and exactly what is seen (`C153_seen`: the shortest path counts) for every history; what is meant where a name has one path that covers the request (`C153_name_partial`); false for several (`C153_specific_false`). Cookies with a domain are not covered; names, paths and dates as in C141. |
| C154 | Set-valued parameters of challenges and credentials | partial | Props/AuthSets, Props/SetPositions | Model/AuthSets.lean gives the sets and their callbacks. By induction on the calls the set stays coherent and the parameter holds its text, which is read back (C03); for responses the final challenge meets the conditions of C87, since a list of tokens has no quotes. For credentials every notification ends in `TypeError` except for an empty set without the parameter, where nothing has changed. | Live for every history of calls that leaves the set itself consistent, assignment by position included (`C154_challenge_partial`, `C154_positions_partial`), and through a response for names that are tokens (`C154_response_partial`); false for removal with capital letters (`C154_remove_false`) and for names that need quotes (`C154_domain_false`). Credentials: `C154_credentials` for every call; a refused change stays in the set (`C154_refused_false`). |

## Axioms per theorem

Obtained with `Lean.collectAxioms` for every theorem named in `MANIFEST.json`.  `propext`,
`Classical.choice` and `Quot.sound` are the standard axioms of Lean; no other axiom occurs.

* no axioms (16): `C03_list_roundtrip_false`, `C04_dict_roundtrip_false`, `C05_roundtrip_false`, `C131_hint_false`, `C133_empty_limits`, `C143_dict_false`, `C143_options_false`, `C144_multi_false`, `C27_to_dict_false`, `C28_dict`, `C30_update_false`, `C31_limit_false`, `C37_subdomain_false`, `C45_nested_partial`, `C92_method`, `C94_server`.
* Classical.choice, Quot.sound, propext (361): `C01_filename_roundtrip_iff`, `C01_quote_roundtrip`, `C02_quote_wellformed`, `C03_list_roundtrip_partial`, `C04_dict_roundtrip_partial`, `C04_last_wins`, `C05_last_wins`, `C05_parse_dump`, `C05_roundtrip_partial`, `C07_refines`, `C07_refines_empty`, `C07_step`, `C08_set_unique`, `C09_positions`, `C100_endless_limits`, `C100_ends`, `C100_target_partial`, `C101_added_partial`, `C101_flat_partial`, `C102_factories`, `C102_prefix_match`, `C102_subdomain_limits`, `C102_subdomain_partial`, `C102_submount_build_partial`, `C102_submount_only`, `C102_submount_partial`, `C103_case`, `C103_domain_partial`, `C103_environ`, `C103_foreign_partial`, `C103_hint_partial`, `C103_stays`, `C103_subdomain_partial`, `C104_off`, `C104_own_host`, `C104_path_partial`, `C104_relative_partial`, `C104_scheme`, `C105_build_partial`, `C105_request_partial`, `C106_append_partial`, `C106_follow_partial`, `C106_slash_partial`, `C106_unknown`, `C106_view_partial`, `C107_apart`, `C107_contents_partial`, `C107_frozen`, `C108_alias_partial`, `C108_chosen`, `C108_default_partial`, `C108_settled`, `C108_to_partial`, `C108_to_root_partial`, `C108_unbuildable`, `C109_request_partial`, `C109_slash_partial`, `C10_membership`, `C110_any`, `C110_args`, `C110_int`, `C110_length`, `C110_refused`, `C110_string`, `C111_delivered`, `C111_only`, `C111_read`, `C111_refused`, `C111_route`, `C112_accepted`, `C112_bounds`, `C112_delivered`, `C112_roundtrip_false`, `C112_roundtrip_partial`, `C113_methods_false`, `C113_revalidate`, `C113_served`, `C113_since`, `C113_through`, `C113_uncached`, `C114_bound`, `C114_none`, `C114_sent_partial`, `C115_class`, `C115_patch_false`, `C118_type`, `C119_app_partial`, `C119_buffered_partial`, `C119_same_partial`, `C11_range_exact_partial`, `C11_range_in_bounds`, `C120_calls`, `C120_combined_false`, `C120_copies`, `C120_independent`, `C120_ordered_partial`, `C121_listvalues`, `C121_live`, `C122_authorization`, `C122_cache`, `C122_dates`, `C122_dates_any`, `C122_etags`, `C122_if_range_partial`, `C122_mimetype_partial`, `C122_pragma`, `C122_range`, `C122_text`, `C123_freeze`, `C123_length`, `C124_all`, `C124_endpoint`, `C124_equal_partial`, `C124_expecting`, `C124_query_false`, `C124_query_partial`, `C125_arrives`, `C125_attributes`, `C125_client`, `C125_date`, `C125_expiry`, `C125_paths_limits`, `C125_sent`, `C126_bytes`, `C126_equal`, `C126_equal_values`, `C126_independent`, `C126_int`, `C126_setdefault`, `C126_slice`, `C126_views`, `C127_answers_partial`, `C127_exact`, `C127_positions`, `C128_answers`, `C128_mixed`, `C128_multi`, `C128_ne_false`, `C128_ordered`, `C128_symm_partial`, `C128_update_self_false`, `C128_update_self_partial`, `C129_again_partial`, `C129_back_partial`, `C129_shown_partial`, `C12_parsed_ranges_wellformed`, `C130_header`, `C130_order_partial`, `C131_hint_partial`, `C131_iteration`, `C131_lines`, `C131_readline`, `C131_readlines`, `C131_tell`, `C131_tell_failing`, `C132_query_partial`, `C134_reading`, `C134_refused`, `C135_server_partial`, `C135_values_partial`, `C136_answers`, `C136_current`, `C136_weak_limits`, `C137_complete_partial`, `C137_parts_partial`, `C137_suffix_false`, `C138_close`, `C138_head`, `C138_length`, `C139_mounted_partial`, `C139_nested`, `C13_total_partial`, `C140_current_partial`, `C140_exchange`, `C140_stale_false`, `C141_answers`, `C141_lifetime`, `C141_session_partial`, `C142_connection_partial`, `C142_message_partial`, `C143_dict_partial`, `C143_etags_partial`, `C143_list_partial`, `C143_options_partial`, `C144_fromkeys`, `C144_multi_partial`, `C144_ordered_partial`, `C145_answer`, `C145_missing_partial`, `C146_alone`, `C146_any_partial`, `C146_build_partial`, `C146_keys`, `C146_match_partial`, `C146_match_settled`, `C147_cookie`, `C147_cookie_limits`, `C147_cookie_quadratic_false`, `C147_etag`, `C147_etag_rounds`, `C147_options`, `C147_search`, `C148_body_bound`, `C14_range_roundtrip`, `C150_app`, `C150_best_partial`, `C150_distinct`, `C150_handlers_distinct`, `C150_lookup`, `C150_status_partial`, `C151_jar`, `C151_one`, `C151_seen`, `C152_history_partial`, `C152_jar`, `C152_next_partial`, `C153_kept`, `C153_name_partial`, `C153_seen`, `C154_challenge_partial`, `C154_credentials`, `C154_positions_partial`, `C154_response_partial`, `C15_accepts_iff`, `C15_content_range_roundtrip`, `C15_content_range_valid`, `C15_make_content_range`, `C15_parsed_valid`, `C17_header_roundtrip_partial`, `C18_terminates_false`, `C18_terminates_partial`, `C19_decision_partial`, `C20_comparison`, `C21_value_roundtrip`, `C23_dump_roundtrip_partial`, `C23_header_roundtrip`, `C24_refines`, `C24_views`, `C26_history`, `C26_order_partial`, `C27_get`, `C27_views_partial`, `C29_mixed_false`, `C29_multi_partial`, `C30_mirror_partial`, `C30_silent`, `C31_limit_partial`, `C32_complete`, `C32_prefix_partial`, `C32_short_reported`, `C33_chunking_irrelevant`, `C33_iterable`, `C33_lines`, `C35_mount`, `C38_directories`, `C38_idempotent`, `C38_posix_head`, `C38_safe`, `C40_lookup`, `C40_sound`, `C41_complete_partial`, `C42_concrete_partial`, `C42_typed_partial`, `C42_wildcards_partial`, `C43_wildcards_partial`, `C43_zero_partial`, `C44_lookup`, `C46_best_partial`, `C46_independent_partial`, `C46_not_found_partial`, `C46_outcome_partial`, `C47_adapter_partial`, `C47_match_partial`, `C48_asks`, `C48_found_partial`, `C48_map_partial`, `C48_route_partial`, `C49_map_partial`, `C49_route_partial`, `C50_delivered`, `C50_digits`, `C50_roundtrip`, `C51_length`, `C51_not_modified`, `C52_length_partial`, `C54_coherent_partial`, `C54_prefix_partial`, `C57_digest`, `C57_sound`, `C58_del`, `C58_max_age_text`, `C58_unset_false`, `C58_unset_partial`, `C59_early_years`, `C59_roundtrip`, `C59_timestamp`, `C60_location`, `C60_markup`, `C62_errors_partial`, `C63_body_bounded`, `C63_content_length`, `C70_membership`, `C74_flag`, `C74_header_partial`, `C74_max_age`, `C74_response`, `C75_digest`, `C75_roundtrip_partial`, `C76_fields`, `C76_total`, `C77_asctime`, `C77_named`, `C77_offset`, `C77_rfc850`, `C78_add`, `C78_set_get`, `C79_decision_partial`, `C79_revalidate`, `C79_unconditional`, `C80_assign_read`, `C80_delete`, `C80_total`, `C81_assign`, `C81_delete_partial`, `C81_params_partial`, `C81_roundtrip_partial`, `C82_assign`, `C82_assign_text`, `C82_live_partial`, `C82_positions_partial`, `C83_read_partial`, `C83_rejects`, `C83_set_read`, `C83_unset`, `C84_assign_read`, `C84_negative`, `C84_total_partial`, `C86_parse`, `C86_roundtrip_partial`, `C87_clear`, `C87_live_partial`, `C88_reading`, `C88_round_trip`, `C89_texts`, `C89_usual`, `C90_args_full_partial`, `C90_args_partial`, `C90_total`, `C91_nested`, `C91_read_back_partial`, `C91_urls`, `C92_hops_partial`, `C93_view`, `C94_file`, `C95_ascii`, `C95_fix_partial`, `C95_iri_partial`, `C97_args_partial`, `C97_base_partial`, `C97_request_partial`, `C98_form_partial`.
* Quot.sound, propext (281): `C02_quoted_string_unique`, `C06_no_newlines`, `C06_one_line_per_header`, `C06_step`, `C08_set_in_place`, `C09_atomic`, `C09_rejects_iff`, `C100_308_false`, `C100_body_false`, `C100_external`, `C100_follows`, `C100_loop`, `C100_plain`, `C100_relative_false`, `C100_revisit_limits`, `C100_subdomain_false`, `C101_reuse`, `C101_settings_false`, `C101_slash_false`, `C102_prefix_build`, `C102_prefix_only`, `C102_target_limits`, `C103_default_path_false`, `C103_foreign_false`, `C103_port_limits`, `C103_total_false`, `C104_host_limits`, `C104_path_false`, `C104_relative_false`, `C105_dots_false`, `C105_empty_segment_false`, `C105_script_false`, `C106_append_false`, `C106_append_missing`, `C106_slash_false`, `C107_again`, `C107_again_false`, `C107_derived`, `C107_expose`, `C107_mixins`, `C107_override_false`, `C108_alias_false`, `C108_convert_false`, `C108_loop_false`, `C108_open_false`, `C109_host_limits`, `C109_root_false`, `C109_root_partial`, `C10_coherent_partial`, `C110_negative_false`, `C110_pure`, `C110_space_false`, `C110_words_false`, `C113_disallow_false`, `C113_found`, `C113_length_false`, `C113_stale_false`, `C114_debug_false`, `C114_keys_false`, `C114_nan_false`, `C116_blocks`, `C116_errors`, `C116_saved`, `C116_twice_false`, `C116_zero_limits`, `C117_bytes_false`, `C117_text_partial`, `C118_filename`, `C118_nested_false`, `C118_refused`, `C118_stream_false`, `C119_address_false`, `C119_head_false`, `C11_suffix_false`, `C120_made`, `C120_order_false`, `C122_sent_false`, `C123_body`, `C123_sent_partial`, `C124_asking`, `C125_atomic`, `C125_domain`, `C125_path`, `C125_path_limits`, `C126_bounds`, `C126_by_name`, `C126_bytes_limits`, `C126_convert`, `C126_extend_dict`, `C126_put`, `C126_setdefault_false`, `C129_hash_false`, `C129_replace_false`, `C129_semicolon_limits`, `C129_strict_limits`, `C129_user_false`, `C130_answer`, `C130_best_partial`, `C130_language`, `C130_override`, `C132_empty_limits`, `C132_lists_false`, `C132_multi_false`, `C132_nothing`, `C132_values_partial`, `C133_close_partial`, `C133_create_partial`, `C133_displaced_false`, `C133_distinct_partial`, `C133_only`, `C133_same_name_false`, `C135_domain_false`, `C135_scheme_false`, `C136_collision_limits`, `C138_conditional`, `C138_own_limits`, `C139_percent_false`, `C139_root_false`, `C13_raises_partial`, `C141_path_false`, `C142_init_false`, `C142_name_false`, `C142_status_false`, `C142_text_false`, `C143_list_false`, `C144_cache_partial`, `C144_combined`, `C144_dict`, `C145_classes`, `C145_reasons`, `C145_single`, `C145_unknown_limits`, `C145_wrap`, `C146_match_false`, `C146_progress`, `C146_settled`, `C146_warm`, `C147_accept`, `C147_converters`, `C147_map`, `C147_route`, `C148_body_alone`, `C148_body_false`, `C148_body_kept`, `C148_body_second`, `C148_current`, `C148_full_path`, `C148_latest`, `C148_mixed_false`, `C148_moment`, `C148_plain`, `C148_stable`, `C149_adders`, `C149_fails_limits`, `C149_later`, `C149_lost_false`, `C149_old_or_new`, `C149_sound`, `C149_stale_false`, `C149_then_lookup`, `C150_handlers`, `C151_atomic`, `C151_delete_limits`, `C151_expired_false`, `C151_hosts_false`, `C152_single`, `C152_undo_false`, `C153_specific_false`, `C15_limits`, `C16_etag_quote_roundtrip`, `C22_no_injection`, `C22_value_safe`, `C24_init`, `C25_present_partial`, `C27_items`, `C27_readonly`, `C28_immutable_partial`, `C30_notify_partial`, `C32_readlines_false`, `C34_chunks_false`, `C34_chunks_partial`, `C34_lossless`, `C34_single_block_partial`, `C36_no_escape`, `C37_exact_partial`, `C37_ports_partial`, `C38_windows_device`, `C39_delimiters`, `C39_meaning_partial`, `C39_reserved`, `C39_scan`, `C40_view`, `C41_sound`, `C42_later_partial`, `C45_nested_false`, `C46_independent_false`, `C46_order_false`, `C47_equal_false`, `C48_conversion_false`, `C48_newline_false`, `C49_newline_false`, `C49_segments_false`, `C51_no_body`, `C51_otherwise_body`, `C52_stale_false`, `C52_text_false`, `C53_application_partial`, `C53_application_twice_false`, `C53_direct_false`, `C53_raising_false`, `C53_server_partial`, `C54_prefix_false`, `C55_first_read`, `C55_short_body`, `C56_basic`, `C56_basic_text`, `C58_flag`, `C58_other`, `C58_value_false`, `C58_value_partial`, `C61_outermost`, `C62_handler_false`, `C64_remove_entity`, `C64_remove_hop_by_hop`, `C65_abort`, `C65_base_kept`, `C65_extra`, `C65_table_complete`, `C65_table_sound`, `C66_notified_on_change`, `C67_bytes_false`, `C67_bytes_partial`, `C68_iri_to_uri_idempotent`, `C68_quote_idempotent`, `C69_reference_partial`, `C70_language_range`, `C71_roundtrip_partial`, `C72_quality_partial`, `C73_closed_false`, `C73_closed_once_partial`, `C74_quoted_false`, `C75_properties`, `C78_rejects`, `C79_decision_false`, `C79_other_methods`, `C80_age_false`, `C83_assign_false`, `C83_read_false`, `C85_delete_cookie`, `C85_rejects`, `C85_set_cookie_partial`, `C86_roundtrip_false`, `C86_tag`, `C88_delimiters`, `C89_slashes`, `C91_read_back_false`, `C92_route`, `C92_xhr`, `C94_close_false`, `C94_whole_blocks`, `C94_zero_limits`, `C95_codec_limits`, `C95_drive`, `C95_host_false`, `C95_redirect_limits`, `C96_files_partial`, `C96_quote_limits`, `C97_args_false`, `C97_default`, `C97_host`, `C97_precedence`, `C97_repeated_limits`, `C98_data`, `C98_files_partial`, `C98_history`, `C98_mixed_false`, `C98_position_false`, `C98_refusals`, `C98_stream_partial`, `C99_buffered_partial`, `C99_unbuffered_partial`.
* propext (86): `C06_unchecked_inputs`, `C07_getlist_exact`, `C07_lookups`, `C09_extend_not_atomic`, `C101_once`, `C101_template_false`, `C103_refused`, `C10_coherence_false`, `C111_bracket_corner`, `C111_parenthesis_false`, `C118_length_false`, `C118_stale_false`, `C119_status_false`, `C119_type_false`, `C122_cache_frozen`, `C123_sent_false`, `C125_malformed_false`, `C125_malformed_partial`, `C126_equal_false`, `C126_extend_copy`, `C126_extend_self_false`, `C127_answers_false`, `C128_false`, `C128_ne_partial`, `C130_best_false`, `C130_slash_limits`, `C133_once`, `C134_form_false`, `C13_total_false`, `C143_etags_false`, `C144_authorization_false`, `C150_order_false`, `C154_domain_false`, `C154_refused_false`, `C154_remove_false`, `C17_roundtrip_false`, `C19_data`, `C19_other_methods`, `C19_weak_comparison_false`, `C20_wildcard`, `C23_roundtrip_false`, `C25_present_false`, `C26_clear_false`, `C28_immutable_false`, `C28_ordered_headers`, `C29_ordered_partial`, `C37_dotted_raises`, `C37_get_host`, `C37_sound`, `C37_source`, `C39_meaning_false`, `C41_complete_false`, `C42_best_false`, `C42_typed_limits`, `C43_zero_false`, `C55_read_once`, `C55_same_bytes`, `C61_order`, `C65_application`, `C66_delIdx_limit`, `C69_reference_false`, `C71_roundtrip_false`, `C72_quality_false`, `C75_roundtrip_false`, `C80_read_only`, `C80_rejects`, `C81_params_false`, `C82_live_false`, `C84_total_false`, `C85_semicolon_false`, `C87_live_false`, `C89_missing`, `C90_args_false`, `C92_hops_false`, `C92_secure_false`, `C93_no_duplicates`, `C93_underscore_limits`, `C94_close_partial`, `C94_raising`, `C94_request_partial`, `C96_bytes_false`, `C96_text_false`, `C96_threshold`, `C99_empty_false`, `C99_unstarted`, `C99_write_false`.
