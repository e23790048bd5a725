import Verif.Py
import Verif.Model.Headers
/-! Model of `redirect`, `/repo/verktyg/utils.py:185-219`. -/
namespace Verif.Redirect
open Verif

/-- `html.escape(s)` of the standard library, used at utils.py:203 and 215. -/
def escape (s : Str) : Str :=
  Py.replace s%"'" s%"&#x27;" (Py.replace s%"\"" s%"&quot;" (Py.replace s%">" s%"&gt;"
    (Py.replace s%"<" s%"&lt;" (Py.replace s%"&" s%"&amp;" s))))

/-- The page, utils.py:203-217; `uri` is `iri_to_uri(location)`. -/
def page (location uri : Str) : Str :=
  s%"<!DOCTYPE HTML PUBLIC \"-//W3C//DTD HTML 3.2 Final//EN\">\n<title>Redirecting...</title>\n<h1>Redirecting...</h1>\n<p>You should be redirected automatically to target URL: <a href=\"" ++
  escape uri ++ s%"\">" ++ escape location ++ s%"</a>.  If not click the link."

/-- The headers: those of the new response, then `Location`, utils.py:209-218. -/
def headers (lower : Str → Str) (initial : Headers.HList) (uri : Str) : Headers.HList × Except PyErr Unit :=
  Headers.set lower initial s%"Location" uri []

end Verif.Redirect
