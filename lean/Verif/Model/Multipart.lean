import Verif.Utf8
import Verif.Model.MultiDict
/-!
Model of `stream_encode_multipart`, /repo/verktyg/test.py:35-112.
-/
namespace Verif.Multipart
open Verif

/-- A file to be sent: what `filename` (or `name`) and `content_type` of the object give, and its
content.  Used for test.py:82-99. -/
structure FileField where
  filename : Option Str
  contentType : Option Str
  data : Bytes
deriving DecidableEq

/-- A value of a form: an object with `read` is a file.  Used for test.py:80-107. -/
inductive Value where
  | text (s : Str)
  | bytes (b : Bytes)
  | file (f : FileField)
deriving DecidableEq

/-- Where the output goes: to memory until more than `threshold` bytes have been written, then
to a temporary file.  Models the variables of test.py:45-47. -/
structure Sink where
  content : Bytes
  total : Nat
  onDisk : Bool
deriving DecidableEq

/-- `write_binary`, test.py:49-66. -/
def writeBinary (useTempfile : Bool) (threshold : Nat) (s : Sink) (b : Bytes) : Sink :=
  if useTempfile then
    if s.onDisk then { s with content := s.content ++ b }
    else if b.length + s.total ≤ threshold then { s with content := s.content ++ b, total := s.total + b.length }
    else { content := s.content ++ b, total := s.total + b.length, onDisk := true }
  else { s with content := s.content ++ b }

/-- Several calls of `write_binary`.  Used for test.py:49-108. -/
def writeAll (useTempfile : Bool) (threshold : Nat) (s : Sink) (bs : List Bytes) : Sink :=
  bs.foldl (writeBinary useTempfile threshold) s

/-- The loop that copies a file, test.py:95-99: chunks of at most 16384 bytes.  The fuel is the
size of the file. -/
def chunks : Nat → Bytes → List Bytes
  | 0, _ => []
  | n + 1, d => if d = [] then [] else d.take 16384 :: chunks n (d.drop 16384)

/-- The content type of a file, test.py:85-89; `guess` is `mimetypes.guess_type`. -/
def contentTypeOf (guess : Str → Option Str) (f : FileField) : Str :=
  match f.contentType with
  | some t => t
  | none => match f.filename with
    | some (c :: cs) => (guess (c :: cs)).getD s%"application/octet-stream"
    | _ => s%"application/octet-stream"

/-- The text before each value, test.py:76-79. -/
def fieldHead (boundary key : Str) : Str :=
  s%"--" ++ boundary ++ s%"\r\nContent-Disposition: form-data; name=\"" ++ key ++ s%"\""

/-- What one value writes, test.py:76-107, and whether an exception ends it: a `str` value is
given to `write_binary`, which raises `TypeError`; other values are written twice. -/
def writes (guess : Str → Option Str) (boundary key : Str) : Value → List Bytes × Option PyErr
  | .file f =>
    ([Utf8.encode (fieldHead boundary key),
      Utf8.encode (match f.filename with
        | some n => s%"; filename=\"" ++ n ++ s%"\"\r\n"
        | none => s%"\r\n"),
      Utf8.encode (s%"Content-Type: " ++ contentTypeOf guess f ++ s%"\r\n\r\n")] ++
      chunks f.data.length f.data ++ [Utf8.encode s%"\r\n"], none)
  | .text s =>
    ([Utf8.encode (fieldHead boundary key), Utf8.encode s, Utf8.encode s%"\r\n\r\n"], some .typeError)
  | .bytes b =>
    ([Utf8.encode (fieldHead boundary key), b, Utf8.encode s%"\r\n\r\n", b, Utf8.encode s%"\r\n"], none)

/-- The loop over the fields, test.py:74-107. -/
def writeFields (guess : Str → Option Str) (useTempfile : Bool) (threshold : Nat) (boundary : Str) (s : Sink) :
    List (Str × Value) → Except PyErr Sink
  | [] => .ok s
  | (k, v) :: rest =>
    match writes guess boundary k v with
    | (_, some e) => .error e
    | (bs, none) => writeFields guess useTempfile threshold boundary (writeAll useTempfile threshold s bs) rest

/-- `stream_encode_multipart`, test.py:35-112: the content of the stream and its length. -/
def streamEncode (guess : Str → Option Str) (useTempfile : Bool) (threshold : Nat) (boundary : Str)
    (values : MD.MDict Str Value) : Except PyErr (Bytes × Nat) :=
  match writeFields guess useTempfile threshold boundary ⟨[], 0, false⟩ (MD.itemsMulti values) with
  | .error e => .error e
  | .ok s =>
    let s := writeBinary useTempfile threshold s (Utf8.encode (s%"--" ++ boundary ++ s%"--\r\n"))
    .ok (s.content, s.content.length)

end Verif.Multipart
