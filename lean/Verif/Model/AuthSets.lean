import Verif.Model.Auth
import Verif.Model.HeaderSet
/-!
Model of the set-valued parameters of authentication headers: `qop` and `domain` of a
`WWWAuthenticate` and `qop` of an `Authorization`
(`/repo/verktyg/http/auth.py:64-73`, `191-199`, `211-214`, `231-232`).
-/
namespace Verif.AuthSets
open Verif

section
variable (lower : Str → Str)

/-- `parse_set_header(self.get(name), on_update)`, auth.py:73, auth.py:198 and basic.py:1113-1142;
a missing parameter, one without a value and an empty one all give the empty set. -/
def view (d : List (Str × Option Str)) (name : Str) : HeaderSet.HS :=
  HeaderSet.init lower (Quote.parseListHeader ((Auth.getProp d name).getD []))

/-- `on_update` of `WWWAuthenticate._set_property`, auth.py:193-197; the truth of a `HeaderSet` is
its length. -/
def wwwUpdate (w : Auth.WWW) (name : Str) (s : HeaderSet.HS) : Auth.WWW :=
  if HeaderSet.len s = 0 then (if Dict.has w name then Dict.del w name else w)
  else Dict.set w name (some (HeaderSet.toHeader s))

/-- A call on the set obtained from `challenge.qop` or `challenge.domain`, together with the
challenge it writes to, auth.py:191-199. -/
def wwwCall (name : Str) (st : Auth.WWW × HeaderSet.HS) (op : HeaderSet.Op) : Auth.WWW × HeaderSet.HS :=
  (if HeaderSet.notifies lower st.2 op then wwwUpdate st.1 name (HeaderSet.step lower st.2 op) else st.1,
    HeaderSet.step lower st.2 op)

/-- `on_update` of `Authorization.qop`, auth.py:68-72: both branches write to a dictionary whose
`__setitem__` and `__delitem__` raise `TypeError` (datastructures.py:149-153). -/
def credUpdate (a : Auth.Authorization) (s : HeaderSet.HS) : Except PyErr Unit :=
  if HeaderSet.len s = 0 then (if Dict.has a.data s%"qop" then .error .typeError else .ok ())
  else .error .typeError

/-- How a call on a `HeaderSet` ends that does not notify, basic.py:977-1089. -/
def plainOutcome (s : HeaderSet.HS) : HeaderSet.Op → Except PyErr Unit
  | .remove x => (HeaderSet.remove lower s x).2
  | .delIdx i => (HeaderSet.delIdx lower s i).2
  | .setIdx i v => (HeaderSet.setIdx lower s i v).2
  | _ => .ok ()

/-- A call on the set obtained from `authorization.qop`: the set afterwards and how the call ends,
auth.py:64-73.  `discard` only catches `KeyError` (basic.py:1021-1024).  The credentials are never
written. -/
def credCall (a : Auth.Authorization) (s : HeaderSet.HS) (op : HeaderSet.Op) :
    HeaderSet.HS × Except PyErr Unit :=
  (HeaderSet.step lower s op,
    if HeaderSet.notifies lower s op then credUpdate a (HeaderSet.step lower s op)
    else plainOutcome lower s op)

end
end Verif.AuthSets
