import Verif.Model.WrapFile
import Verif.Model.Headers
import Verif.Model.Options
/-!
Model of `FileStorage` (`/repo/verktyg/http/basic.py:834-957`), with the parts of the standard library it
rests on: `shutil.copyfileobj`, `iter(callable, sentinel)` and the `readline` of streams.
-/
namespace Verif.FileStorage
open Verif

/-! ### names and types -/

/-- The attribute `name` of a stream: a text, bytes if the file was opened by a name in bytes, or the
number of a file descriptor (`os.fdopen`, `tempfile.TemporaryFile`).  Used for basic.py:855. -/
inductive Name where
  | str (s : Str)
  | bytes (b : Bytes)
  | fd (n : Int)
  deriving DecidableEq

/-- A parsed content type: the type and its parameters.  Used for basic.py:879-881. -/
abbrev Parsed := Str × List (Str × Option Str)

/-- What of a stream is looked at when it is wrapped: whether it counts as true (a `FileStorage` without a
file name does not), its attribute `name` and, for a stream that is itself a `FileStorage`, its attribute
`_parsed_content_type`.  `id` stands for the object.  Used for basic.py:841-881. -/
structure Src where
  id : Nat
  truthy : Bool
  name : Option Name
  parsed : Option Parsed
  deriving DecidableEq

/-- A new `BytesIO()`, basic.py:847. -/
def Src.empty : Src := ⟨0, true, none, none⟩

/-- The attributes of a `FileStorage`, basic.py:841-881. -/
structure FS where
  name : Option Str
  stream : Src
  filename : Option Name
  headers : Headers.HList
  parsed : Option Parsed
  deriving DecidableEq

/-- Python's `filename and filename[0] == '<' and filename[-1] == '>'` for a text, basic.py:865. -/
def special (s : Str) : Bool := s.head? == some '<' && s.getLast? == some '>'

/-- The file name taken from the stream, basic.py:854-866.  `fsdecode` is decoding with the encoding of the
file system and 'replace'.  A number other than zero has no first item. -/
def streamName (fsdecode : Bytes → Str) : Option Name → Except PyErr (Option Name)
  | none => .ok none
  | some (.str s) => .ok (if special s then none else some (.str s))
  | some (.bytes b) => .ok (if special (fsdecode b) then none else some (.str (fsdecode b)))
  | some (.fd n) => if n = 0 then .ok (some (.fd 0)) else .error .typeError

/-- `headers[key] = value` unless the value is `None`, basic.py:872-875. -/
def setHeader (lower : Str → Str) (h : Headers.HList) (key : Str) : Option Str → Except PyErr Headers.HList
  | none => .ok h
  | some v => match Headers.set lower h key v [] with
    | (_, .error e) => .error e
    | (h', .ok _) => .ok h'

/-- `stream or BytesIO()`, basic.py:847. -/
def kept : Option Src → Src
  | some s => if s.truthy then s else .empty
  | none => .empty

/-- The file name, basic.py:853-868. -/
def fileName (fsdecode : Bytes → Str) (stream : Option Src) : Option Str → Except PyErr (Option Name)
  | some f => .ok (some (.str f))
  | none => streamName fsdecode (stream.bind (·.name))

/-- `FileStorage.__init__`, basic.py:841-875. -/
def init (fsdecode : Bytes → Str) (lower : Str → Str) (stream : Option Src) (filename name contentType : Option Str)
    (contentLength : Option Int) (headers : Option Headers.HList) : Except PyErr FS := do
  let file ← fileName fsdecode stream filename
  let h ← setHeader lower (headers.getD []) s%"Content-Type" contentType
  let h ← setHeader lower h s%"Content-Length" (contentLength.map Py.intStr)
  pure ⟨name, kept stream, file, h, none⟩

/-- `content_type`, basic.py:883-886. -/
def contentType (lower : Str → Str) (f : FS) : Option Str := Headers.get lower f.headers s%"content-type"

/-- `content_length`, basic.py:888-891. -/
def contentLength (lower : Str → Str) (f : FS) : Except PyErr Int :=
  match Headers.get lower f.headers s%"content-length" with
  | none => .ok 0
  | some s => if s = [] then .ok 0 else Py.intOf s

/-- `_parse_content_type`, basic.py:877-881, and the attribute it leaves.  `hasattr` also finds the attribute
of the wrapped stream, through `__getattr__` (basic.py:944-945). -/
def parseContentType (lower : Str → Str) (f : FS) : FS × Except PyErr Parsed :=
  match f.parsed.or f.stream.parsed with
  | some p => (f, .ok p)
  | none => match Options.parseOptionsHeader ((contentType lower f).getD []) with
    | .error e => (f, .error e)
    | .ok p => ({ f with parsed := some p }, .ok p)

/-- `mimetype`, basic.py:893-901. -/
def mimetype (lower : Str → Str) (f : FS) : FS × Except PyErr Str :=
  match parseContentType lower f with
  | (f', .error e) => (f', .error e)
  | (f', .ok p) => (f', .ok (lower p.1))

/-- `mimetype_params`, basic.py:903-910. -/
def mimetypeParams (lower : Str → Str) (f : FS) : FS × Except PyErr (List (Str × Option Str)) :=
  match parseContentType lower f with
  | (f', .error e) => (f', .error e)
  | (f', .ok p) => (f', .ok p.2)

/-- `__bool__`, basic.py:940-942. -/
def truthy (f : FS) : Bool :=
  match f.filename with
  | some (.str s) => s ≠ []
  | some (.bytes b) => b ≠ []
  | some (.fd n) => n ≠ 0
  | none => false

/-- A `FileStorage` as the stream of another, basic.py:841-875 and 944-945: its file name is not its `name`;
its `name` is the name of the form field. -/
def asStream (id : Nat) (f : FS) : Src := ⟨id, truthy f, f.name.map .str, f.parsed.or f.stream.parsed⟩

/-! ### saving -/

/-- A stream to copy from: the file, and how many reads succeed before one raises, if any does.  Used for
basic.py:931-934. -/
structure Source where
  file : WrapFile.File
  fails : Option (Nat × PyErr)

/-- `shutil.copyfileobj(self.stream, dst, buffer_size)`, used at basic.py:932: the blocks written, how it ended
and what the stream still has. -/
def copy (bufferSize : Int) (s : Source) : List Bytes × Except PyErr Unit × Source :=
  match s.fails with
  | some (0, e) => ([], .error e, s)
  | fails =>
    if (s.file.read bufferSize).1 = [] then
      ([], .ok (), ⟨(s.file.read bufferSize).2, fails.map fun p => (p.1 - 1, p.2)⟩)
    else
      ((s.file.read bufferSize).1 ::
        (copy bufferSize ⟨(s.file.read bufferSize).2, fails.map fun p => (p.1 - 1, p.2)⟩).1,
       (copy bufferSize ⟨(s.file.read bufferSize).2, fails.map fun p => (p.1 - 1, p.2)⟩).2)
termination_by s.file.data.length
decreasing_by
  all_goals
    rename_i h
    simp only [WrapFile.File.read, List.length_drop, List.take_eq_nil_iff, not_or] at h ⊢
    have := List.length_pos_iff.2 h.2
    omega

/-- Where an upload is saved: a path, whose file is opened for this, or a file that is open already and has
some contents before its position.  Used for basic.py:927-930. -/
inductive Dst where
  | path
  | file (before : Bytes)

/-- What becomes of the destination: its contents, and whether it is closed.  Used for basic.py:927-936. -/
structure Saved where
  contents : Bytes
  closed : Bool
  deriving DecidableEq

/-- `save`, basic.py:912-936.  Opening a path empties the file.  Failing of `open` and of writing is left out. -/
def save (s : Source) (dst : Dst) (bufferSize : Int) : Saved × Except PyErr Unit × Source :=
  match dst with
  | .path => (⟨(copy bufferSize s).1.flatten, true⟩, (copy bufferSize s).2)
  | .file before => (⟨before ++ (copy bufferSize s).1.flatten, false⟩, (copy bufferSize s).2)

/-! ### lines -/

/-- A line, with its line feed, and what follows it.  Used for basic.py:948. -/
def cutLine {α : Type} [DecidableEq α] (nl : α) : List α → List α × List α
  | [] => ([], [])
  | a :: l => if a = nl then ([a], l) else (a :: (cutLine nl l).1, (cutLine nl l).2)

/-- What a stream still has: bytes, or text.  Used for basic.py:948. -/
inductive Rest where
  | bytes (b : Bytes)
  | text (s : Str)
  deriving DecidableEq

/-- A line is of the kind of the stream.  Used for basic.py:948. -/
abbrev Line := Rest

/-- `readline()` of the stream, through `__getattr__`, basic.py:944-948. -/
def readline : Rest → Line × Rest
  | .bytes b => (.bytes (cutLine 10 b).1, .bytes (cutLine 10 b).2)
  | .text s => (.text (cutLine '\n' s).1, .text (cutLine '\n' s).2)

/-- The next item of `iter(self.readline, '')`, basic.py:947-948: none when the line equals the empty text,
which empty bytes do not. -/
def next (r : Rest) : Option Line × Rest :=
  if (readline r).1 = .text [] then (none, (readline r).2) else (some (readline r).1, (readline r).2)

/-- At most `n` items of the iteration, and whether its end was seen.  Used for basic.py:947-948. -/
def items : Nat → Rest → List Line × Bool
  | 0, _ => ([], false)
  | n + 1, r => match next r with
    | (none, _) => ([], true)
    | (some l, r') => (l :: (items n r').1, (items n r').2)

end Verif.FileStorage
