import Verif.Py
/-!
The UTF-8 and Latin-1 codecs of Python, as the code uses them: `str.encode('utf-8')`,
`bytes.decode('utf-8', 'strict' | 'replace')`, `str.encode('latin1')` and
`bytes.decode('latin1')`.  A Lean `Char` is never a surrogate, so the error of
`str.encode('utf-8')` for lone surrogates is out of the model.
-/
namespace Verif.Utf8
open Verif

/-- The byte with the given number. -/
def byte (n : Nat) : UInt8 := UInt8.ofNat n

/-- The UTF-8 bytes of one character. -/
def encChar (c : Char) : Bytes :=
  let n := c.toNat
  if n < 0x80 then [byte n]
  else if n < 0x800 then [byte (0xC0 + n / 64), byte (0x80 + n % 64)]
  else if n < 0x10000 then [byte (0xE0 + n / 4096), byte (0x80 + n / 64 % 64), byte (0x80 + n % 64)]
  else [byte (0xF0 + n / 262144), byte (0x80 + n / 4096 % 64), byte (0x80 + n / 64 % 64), byte (0x80 + n % 64)]

/-- `s.encode('utf-8')`. -/
def encode (s : Str) : Bytes := s.flatMap encChar

/-- A continuation byte. -/
def isCont (b : UInt8) : Bool := 0x80 ≤ b.toNat && b.toNat < 0xC0

/-- How many continuation bytes follow a leading byte, `none` for a byte that cannot lead. -/
def follow (b : UInt8) : Option Nat :=
  let n := b.toNat
  if n < 0x80 then some 0
  else if n < 0xC2 then none
  else if n < 0xE0 then some 1
  else if n < 0xF0 then some 2
  else if n < 0xF5 then some 3
  else none

/-- Whether the second byte can follow the leading byte: a continuation byte, and neither an
overlong form, nor a surrogate, nor beyond U+10FFFF. -/
def second (b c : UInt8) : Bool :=
  isCont c &&
    (if b.toNat = 0xE0 then 0xA0 ≤ c.toNat
     else if b.toNat = 0xED then c.toNat < 0xA0
     else if b.toNat = 0xF0 then 0x90 ≤ c.toNat
     else if b.toNat = 0xF4 then c.toNat < 0x90
     else true)

/-- One step of the decoder at the byte `b`, followed by `rest`: the character, or `none` for
an error, and the number of further bytes that belong to it.  An error takes the longest
prefix of a valid sequence (CPython, `stringlib/codecs.h`). -/
def step (b : UInt8) (rest : Bytes) : Option Char × Nat :=
  match follow b with
  | none => (none, 0)
  | some 0 => (some (Char.ofNat b.toNat), 0)
  | some 1 =>
    match rest with
    | c :: _ => if second b c then (some (Char.ofNat ((b.toNat - 0xC0) * 64 + (c.toNat - 0x80))), 1) else (none, 0)
    | _ => (none, 0)
  | some 2 =>
    match rest with
    | c :: d :: _ =>
      if second b c then
        if isCont d then
          (some (Char.ofNat ((b.toNat - 0xE0) * 4096 + (c.toNat - 0x80) * 64 + (d.toNat - 0x80))), 2)
        else (none, 1)
      else (none, 0)
    | [c] => if second b c then (none, 1) else (none, 0)
    | [] => (none, 0)
  | some _ =>
    match rest with
    | c :: d :: e :: _ =>
      if second b c then
        if isCont d then
          if isCont e then
            (some (Char.ofNat ((b.toNat - 0xF0) * 262144 + (c.toNat - 0x80) * 4096 + (d.toNat - 0x80) * 64 + (e.toNat - 0x80))), 3)
          else (none, 2)
        else (none, 1)
      else (none, 0)
    | [c, d] => if second b c then (if isCont d then (none, 2) else (none, 1)) else (none, 0)
    | [c] => if second b c then (none, 1) else (none, 0)
    | [] => (none, 0)

/-- The decoder: a character or an error for every sequence; the number counts bytes of the
last sequence that are still to be skipped. -/
def items : Nat → Bytes → List (Option Char)
  | _, [] => []
  | 0, b :: rest => (step b rest).1 :: items (step b rest).2 rest
  | n + 1, _ :: rest => items n rest

/-- `b.decode('utf-8', 'replace')`. -/
def decode (b : Bytes) : Str := (items 0 b).map fun o => o.getD '�'

/-- `b.decode('utf-8')`: an error raises. -/
def decodeStrict (b : Bytes) : Except PyErr Str :=
  if (items 0 b).all Option.isSome then .ok (decode b) else .error .unicodeError

/-- `b.decode('latin1')`. -/
def latin1 (b : Bytes) : Str := b.map fun x => Char.ofNat x.toNat

/-- `s.encode('latin1')`. -/
def toLatin1 (s : Str) : Except PyErr Bytes :=
  if s.all (fun c => c.toNat < 256) then .ok (s.map fun c => byte c.toNat) else .error .unicodeError

end Verif.Utf8
