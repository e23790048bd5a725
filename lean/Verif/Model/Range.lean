import Verif.Py
/-!
Model of byte ranges: `is_byte_range_valid` (`/repo/verktyg/http/basic.py:819-830`),
`Range`, `parse_range_header`, `ContentRange`, `parse_content_range_header`
(`/repo/verktyg/http/cache_control.py:63-273`).
-/
namespace Verif.Range
open Verif

/-- `is_byte_range_valid(start, stop, length)`, basic.py:819-830. -/
def isByteRangeValid (start stop length : Option Int) : Bool :=
  match start, stop, length with
  | none, some _, _ => false
  | some _, none, _ => false
  | none, none, none => true
  | none, none, some l => decide (l ≥ 0)
  | some s, some e, none => decide (0 ≤ s ∧ s < e)
  | some s, some e, some l => if s ≥ e then false else decide (0 ≤ s ∧ s < l)

/-- `Range`, cache_control.py:63-74: units and `(begin, end)` pairs. -/
structure Range where
  units : Str
  ranges : List (Int × Option Int)
  deriving DecidableEq, Repr

/-- `Range.range_for_length(length)`, cache_control.py:76-89. -/
def Range.rangeForLength (r : Range) (length : Option Int) : Option (Int × Int) :=
  match length, r.ranges with
  | some len, [(start0, end0)] =>
    if r.units ≠ s%"bytes" then none
    else
      let (start, stop) := match end0 with
        | none => (if start0 < 0 then start0 + len else start0, len)
        | some e => (start0, e)
      if isByteRangeValid (some start) (some stop) (some len) then some (start, min stop len)
      else none
  | _, _ => none

/-- One range of `Range.to_header`, cache_control.py:99-107. -/
def dumpRange (r : Int × Option Int) : Str :=
  match r.2 with
  | none => if r.1 ≥ 0 then Py.intStr r.1 ++ s%"-" else Py.intStr r.1
  | some e => Py.intStr r.1 ++ s%"-" ++ Py.intStr (e - 1)

/-- `Range.to_header()`, cache_control.py:99-107. -/
def Range.toHeader (r : Range) : Str :=
  r.units ++ s%"=" ++ Py.join s%"," (r.ranges.map dumpRange)

/-- The loop of `parse_range_header`, cache_control.py:131-152.  `lastEnd` is `none` after
an open ended item: comparing it then raises `TypeError`. -/
def parseItems (lastEnd : Option Int) (acc : List (Int × Option Int)) :
    List Str → Except PyErr (Option (List (Int × Option Int)))
  | [] => .ok (some acc)
  | item0 :: rest =>
    let item := Py.strip item0
    if ¬ item.contains '-' then .ok none
    else if item.head? = some '-' then
      match lastEnd with
      | none => .error .typeError
      | some le =>
        if le < 0 then .ok none
        else match Py.intOf item with
          | .error e => .error e
          | .ok b => parseItems (some (-1)) (acc ++ [(b, none)]) rest
    else
      let beginText := (Py.split1 '-' item).1
      let endText := (Py.split1 '-' item).2.getD []
      match Py.intOf beginText with
      | .error e => .error e
      | .ok b =>
        match lastEnd with
        | none => .error .typeError
        | some le =>
          if b < le ∨ le < 0 then .ok none
          else if endText ≠ [] then
            match Py.intOf endText with
            | .error e => .error e
            | .ok e =>
              if b ≥ e + 1 then .ok none
              else parseItems (some (e + 1)) (acc ++ [(b, some (e + 1))]) rest
          else parseItems none (acc ++ [(b, none)]) rest

/-- `parse_range_header(value)`, cache_control.py:116-154.  `lower` is `str.lower`. -/
def parseRangeHeader (lower : Str → Str) (value : Str) : Except PyErr (Option Range) :=
  match Py.split1 '=' value with
  | (_, none) => .ok none
  | (units, some rng) =>
    match parseItems (some 0) [] (Py.splitOn ',' rng) with
    | .error e => .error e
    | .ok none => .ok none
    | .ok (some rs) => .ok (some ⟨lower (Py.strip units), rs⟩)

/-- `ContentRange`, cache_control.py:157-229. -/
structure ContentRange where
  units : Option Str
  start : Option Int
  stop : Option Int
  length : Option Int
  deriving DecidableEq, Repr

/-- `ContentRange.set` and the constructor, cache_control.py:161-165, 187-196. -/
def ContentRange.mk? (units : Option Str) (start stop length : Option Int) :
    Except PyErr ContentRange :=
  if isByteRangeValid start stop length then .ok ⟨units, start, stop, length⟩
  else .error .valueError

/-- `Range.make_content_range(length)`, cache_control.py:91-97. -/
def Range.makeContentRange (r : Range) (length : Option Int) :
    Except PyErr (Option ContentRange) :=
  match r.rangeForLength length with
  | none => .ok none
  | some (a, b) => (ContentRange.mk? (some r.units) (some a) (some b) length).map some

/-- Calls on a content range.  The attribute setters (167-188) store without checking.
Models cache_control.py:157-229. -/
inductive Op where
  | set (start stop length : Option Int) (units : Option Str)
  | unset
  | assignStart (v : Option Int)
  | assignStop (v : Option Int)
  | assignLength (v : Option Int)
  | assignUnits (v : Option Str)

/-- Effect of one call.  Models cache_control.py:157-229. -/
def ContentRange.step (c : ContentRange) : Op → ContentRange
  | .set s e l u => match ContentRange.mk? u s e l with
    | .ok c' => c'
    | .error _ => c
  | .unset => match ContentRange.mk? none none none none with
    | .ok c' => c'
    | .error _ => c
  | .assignStart v => { c with start := v }
  | .assignStop v => { c with stop := v }
  | .assignLength v => { c with length := v }
  | .assignUnits v => { c with units := v }

/-- `ContentRange.to_header()`, cache_control.py:204-218; `none` stands for the
`TypeError` of `None - 1` when the setters left a start without a stop. -/
def ContentRange.toHeader (c : ContentRange) : Option Str :=
  match c.units with
  | none => some []
  | some u =>
    let len := match c.length with
      | none => s%"*"
      | some l => Py.intStr l
    match c.start with
    | none => some (u ++ s%" */" ++ len)
    | some s => match c.stop with
      | none => none
      | some e => some (u ++ s%" " ++ Py.intStr s ++ s%"-" ++ Py.intStr (e - 1) ++ s%"/" ++ len)

/-- `s.split(None, 1)` unpacked into two names; `none` is the `ValueError` of the
unpacking.  Used for cache_control.py:232-273. -/
def splitWs1 (s : Str) : Option (Str × Str) :=
  let s := Py.lstrip s
  let rest := Py.lstrip (s.dropWhile (fun c => !Py.isSpace c))
  if rest = [] then none else some (s.takeWhile (fun c => !Py.isSpace c), rest)

/-- `c.isdigit()`: ASCII digits and the Latin-1 superscripts, which `int()` rejects.
Simplification: digits beyond Latin-1 cannot occur in WSGI header text.
Used for cache_control.py:232-273. -/
def isDigit (c : Char) : Bool :=
  (48 ≤ c.toNat && c.toNat ≤ 57) || c == '²' || c == '³' || c == '¹'

/-- `parse_content_range_header(value)`, cache_control.py:232-273. -/
def parseContentRangeHeader (value : Str) : Except PyErr (Option ContentRange) :=
  match splitWs1 (Py.strip value) with
  | none => .ok none
  | some (units, rangedef) =>
    match Py.split1 '/' rangedef with
    | (_, none) => .ok none
    | (rng, some lengthText) =>
      let go (length : Option Int) : Except PyErr (Option ContentRange) :=
        if rng = s%"*" then (ContentRange.mk? (some units) none none length).map some
        else match Py.split1 '-' rng with
          | (_, none) => .ok none
          | (startText, some stopText) =>
            match Py.intOf startText, Py.intOf stopText with
            | .ok start, .ok stop =>
              if isByteRangeValid (some start) (some (stop + 1)) length then
                (ContentRange.mk? (some units) (some start) (some (stop + 1)) length).map some
              else .ok none
            | _, _ => .ok none
      if lengthText = s%"*" then go none
      else if lengthText ≠ [] ∧ lengthText.all isDigit then
        match Py.intOf lengthText with
        | .ok l => go (some l)
        | .error e => .error e
      else .ok none

end Verif.Range
