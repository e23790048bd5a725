import Verif.Py
/-! Specification: what a client reads from a connection (RFC 7230).  The bytes of the connection
are given as the characters U+0000 to U+00FF, as WSGI does.

The client is the lenient one: a line feed alone ends a line too.  Transfer codings, folded lines
and interim responses are outside: a message of status 1xx counts as a message. -/
namespace Verif.Spec.Wire
open Verif

/-- A message as a client sees it. -/
structure Message where
  status : Str
  fields : List (Str × Str)
  body : Str
deriving DecidableEq

/-- The text before the first line feed, and the text after it. -/
def upTo : Str → Option (Str × Str)
  | [] => none
  | c :: s =>
    if c = '\n' then some ([], s)
    else match upTo s with
      | none => none
      | some (l, r) => some (c :: l, r)

/-- A line, without the carriage return before its end. -/
def line (s : Str) : Option (Str × Str) :=
  match upTo s with
  | none => none
  | some (l, r) => some (if l.getLast? = some '\r' then l.dropLast else l, r)

/-- Space and tab. -/
def blank (c : Char) : Bool := c == ' ' || c == '\t'

/-- A text without the blanks around it. -/
def trim (s : Str) : Str := ((s.dropWhile blank).reverse.dropWhile blank).reverse

/-- The name and the value of a header line. -/
def field (l : Str) : Option (Str × Str) :=
  match l.head? with
  | none => none
  | some c =>
    if blank c then none
    else match l.dropWhile (· != ':') with
      | _ :: v => some (l.takeWhile (· != ':'), trim v)
      | [] => none

/-- Header lines up to the empty one, at most so many. -/
def fields : Nat → Str → Option (List (Str × Str) × Str)
  | 0, _ => none
  | n + 1, s =>
    match line s with
    | none => none
    | some (l, r) =>
      if l = [] then some ([], r)
      else match field l, fields n r with
        | some f, some (fs, r') => some (f :: fs, r')
        | _, _ => none

/-- A decimal digit. -/
def digit (c : Char) : Bool := decide (48 ≤ c.toNat ∧ c.toNat ≤ 57)

/-- The number written in decimal digits. -/
def number (s : Str) : Option Nat :=
  if s ≠ [] ∧ s.all digit then some (s.foldl (fun a c => a * 10 + (c.toNat - 48)) 0) else none

/-- Whether the message after this status line has no body: the answer to a `HEAD` request, or one
of the statuses 1xx, 204 and 304. -/
def empty (head : Bool) (status : Str) : Bool :=
  head || match number (status.takeWhile digit) with
    | some n => decide (100 ≤ n ∧ n ≤ 199) || n == 204 || n == 304
    | none => false

/-- The values of the `Content-Length` lines. -/
def lengths (lower : Str → Str) (fs : List (Str × Str)) : List Str :=
  (fs.filter fun f => decide (lower f.1 = s%"content-length")).map (·.2)

/-- One message, and what is left on the connection.  Without an announced length the message ends
with the connection; two lengths, or a length that is no number, are an error. -/
def readOne (lower : Str → Str) (head : Bool) (s : Str) : Option (Message × Str) :=
  match line s with
  | none => none
  | some (l, r) =>
    if l.take 9 ≠ s%"HTTP/1.1 " then none
    else match fields (r.length + 1) r with
      | none => none
      | some (fs, r) =>
        if empty head (l.drop 9) then some (⟨l.drop 9, fs, []⟩, r)
        else match lengths lower fs with
          | [] => some (⟨l.drop 9, fs, r⟩, [])
          | [v] => match number v with
            | some n => if n ≤ r.length then some (⟨l.drop 9, fs, r.take n⟩, r.drop n) else none
            | none => none
          | _ => none

/-- The answers to the requests made on one connection, which then ends. -/
def readAll (lower : Str → Str) : List Bool → Str → Option (List Message)
  | [], s => if s = [] then some [] else none
  | head :: hs, s =>
    match readOne lower head s with
    | none => none
    | some (m, r) => match readAll lower hs r with
      | none => none
      | some ms => some (m :: ms)

/-- What a server writes for a status line, headers and a body. -/
def written (status : Str) (fs : List (Str × Str)) (body : Str) : Str :=
  s%"HTTP/1.1 " ++ status ++ s%"\r\n" ++ (fs.flatMap fun f => f.1 ++ s%": " ++ f.2 ++ s%"\r\n") ++
    s%"\r\n" ++ body

/-- A text that can stand at the left of a header line. -/
def FieldName (n : Str) : Prop :=
  (∃ c, n.head? = some c ∧ blank c = false) ∧ ':' ∉ n ∧ '\n' ∉ n ∧ '\r' ∉ n

/-- A status line with a number of three digits, a space and a text in one line. -/
def StatusLine (code : Nat) (s : Str) : Prop :=
  100 ≤ code ∧ code ≤ 999 ∧ ∃ t, s = Py.natStr code ++ ' ' :: t ∧ '\n' ∉ t ∧ '\r' ∉ t

end Verif.Spec.Wire
