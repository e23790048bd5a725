import Verif.Model.Descriptors
/-!
The body of a response with its stream: `ResponseStream` (`/repo/verktyg/responses.py:776-814`), which a response has one of
(`ResponseStreamMixin.stream`, 826-829), and `ETagResponseMixin.freeze` (730-737).
-/
namespace Verif.RespBody
open Verif Verif.Response

/-- A response and whether its stream has been closed, responses.py:785-787. -/
structure St where
  resp : Resp
  closed : Bool

variable (cfg : Cfg)

/-- `stream.write(value)`, responses.py:789-794. -/
def write (s : St) (v : Item) : St × Except PyErr Unit :=
  if s.closed then (s, .error .valueError)
  else match Response.write cfg s.resp v with
    | (r, res) => ({ s with resp := r }, res)

/-- `stream.writelines(seq)`, responses.py:796-798. -/
def writelines (s : St) : List Item → St × Except PyErr Unit
  | [] => (s, .ok ())
  | v :: vs => match write cfg s v with
    | (s', .ok _) => writelines s' vs
    | (s', .error e) => (s', .error e)

/-- `stream.flush()` and `stream.isatty()`, responses.py:803-810. -/
def check (s : St) : Except PyErr Unit := if s.closed then .error .valueError else .ok ()

/-- Calls on a response and its stream.  Used for responses.py:70-632, 776-814. -/
inductive Call where
  | setData (v : Item)
  | getData
  | calcLength
  | makeSequence
  | freeze
  | write (v : Item)
  | writelines (vs : List Item)
  | close
  | flush
  | isatty
  | callOnClose (n : Nat)
  | setStatus (t : Str)
  | setStatusCode (n : Int)
  | header (op : Headers.Op)

/-- One call: the state after it, and the bytes `get_data` returns or the error that is raised.  Used for responses.py:70-632, 776-814.
Simplification: results of the other calls are not shown. -/
def exec (s : St) : Call → St × Except PyErr (Option Bytes)
  | .setData v => ({ s with resp := (Response.setData cfg s.resp v).1 }, (Response.setData cfg s.resp v).2.map fun _ => none)
  | .getData => ({ s with resp := (Response.getData cfg s.resp).1 }, (Response.getData cfg s.resp).2.map some)
  | .calcLength => ({ s with resp := (Response.calcLength cfg s.resp).1 }, (Response.calcLength cfg s.resp).2.map fun _ => none)
  | .makeSequence => ({ s with resp := (Response.makeSequence cfg s.resp).1 }, (Response.makeSequence cfg s.resp).2.map fun _ => none)
  | .freeze => ({ s with resp := (Response.freeze cfg s.resp).1 }, (Response.freeze cfg s.resp).2.map fun _ => none)
  | .write v => ((write cfg s v).1, (write cfg s v).2.map fun _ => none)
  | .writelines vs => ((writelines cfg s vs).1, (writelines cfg s vs).2.map fun _ => none)
  | .close => ({ s with closed := true }, .ok none)
  | .flush => (s, (check s).map fun _ => none)
  | .isatty => (s, (check s).map fun _ => none)
  | .callOnClose n => ({ s with resp := callOnClose s.resp n }, .ok none)
  | .setStatus t => ({ s with resp := (Response.setStatus s.resp t).1 }, (Response.setStatus s.resp t).2.map fun _ => none)
  | .setStatusCode n => ({ s with resp := setStatusCode cfg s.resp n }, .ok none)
  | .header op => ({ s with resp := { s.resp with headers := Headers.step cfg.lower s.resp.headers op } }, .ok none)

/-- A history of calls on a response whose stream is open.  Used for responses.py:70-632, 776-814. -/
def run (r : Resp) (cs : List Call) : St := cs.foldl (fun s c => (exec cfg s c).1) ⟨r, false⟩

/-- `ETagResponseMixin.freeze(no_etag)`, responses.py:730-737. -/
def freezeTagged (md5 : Bytes → Str) (r : Resp) (noEtag : Bool) : Resp × Except PyErr Unit :=
  if noEtag then Response.freeze cfg r
  else match Desc.addEtag cfg md5 r false false with
    | (r', .error e) => (r', .error e)
    | (r', .ok _) => Response.freeze cfg r'

end Verif.RespBody
