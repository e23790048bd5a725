import Verif.Props.Range
import Verif.Props.Descriptors
/-! Property theorems C137: documents that are fetched in parts, while they may change. -/
namespace Verif.Props.Desc
open Verif Verif.Spec Verif.Desc Verif.Date Verif.Range

/-! ### Both sides of the exchange -/

/-- An answer: status code, tag, Content-Range and body. -/
structure Part where
  code : Nat
  tag : Str
  range : Option Str
  body : Bytes

/-- A view that sends what a Range header asks for, with `parse_range_header` and `make_content_range`
(cache_control.py:91-154): the whole document if the header is not understood, 416 if nothing can be sent. -/
def sendPart (lower : Str → Str) (doc : Bytes) (tag header : Str) : Except PyErr Part :=
  match parseRangeHeader lower header with
  | .error e => .error e
  | .ok none => .ok ⟨200, tag, none, doc⟩
  | .ok (some r) =>
    match r.makeContentRange (some doc.length) with
    | .error e => .error e
    | .ok none => .ok ⟨416, tag, none, []⟩
    | .ok (some c) => .ok ⟨206, tag, c.toHeader, (doc.take (c.stop.getD 0).toNat).drop (c.start.getD 0).toNat⟩

/-- The same with `parse_if_range_header` (cache_control.py:50-60): the whole document unless the tag is that
of the document.  `md5` is `generate_etag`. -/
def servePart (lower : Str → Str) (md5 : Bytes → Str) (doc : Bytes) (header : Str) (condition : Option Str) :
    Except PyErr Part :=
  match Etag.quoteEtag (md5 doc) false with
  | .error e => .error e
  | .ok tag =>
    match condition with
    | none => sendPart lower doc tag header
    | some v =>
      match parseIfRange v with
      | .error e => .error e
      | .ok c => if c.etag = some (md5 doc) then sendPart lower doc tag header else .ok ⟨200, tag, none, doc⟩

/-- What a client has of a document: its tag and some of its bytes. -/
structure Held where
  tag : Str
  bytes : Nat → Option UInt8

/-- Writing a part at its place. -/
def put (start : Nat) (part : Bytes) (held : Nat → Option UInt8) (i : Nat) : Option UInt8 :=
  if start ≤ i ∧ i < start + part.length then part[i - start]? else held i

/-- One request: the document at that time, and what is asked for. -/
structure Ask where
  doc : Bytes
  item : RangeItem

/-- A client that asks for a part, on condition that the document is the one it has parts of, and writes
what it receives to the place Content-Range names, read with `parse_content_range_header`
(cache_control.py:232-273).  `none` means that something raised or could not be read. -/
def fetch (lower : Str → Str) (md5 : Bytes → Str) (held : Option Held) (v : Ask) : Option (Option Held) :=
  match servePart lower md5 v.doc (s%"bytes=" ++ v.item.text) (held.map (·.tag)) with
  | .error _ => none
  | .ok p =>
    if p.code = 206 then
      match p.range.map parseContentRangeHeader with
      | some (.ok (some c)) => some (some ⟨p.tag, put (c.start.getD 0).toNat p.body ((held.map (·.bytes)).getD fun _ => none)⟩)
      | _ => none
    else if p.code = 200 then some (some ⟨p.tag, fun i => p.body[i]?⟩)
    else some held

/-- All requests. -/
def download (lower : Str → Str) (md5 : Bytes → Str) (held : Option Held) : List Ask → Option (Option Held)
  | [] => some held
  | v :: vs => match fetch lower md5 held v with
    | none => none
    | some held' => download lower md5 held' vs

/-! ### What is expected -/

/-- The positions a range asks for, RFC 7233 2.1. -/
def Wanted : RangeItem → Nat → Nat → Prop
  | .closed a b, len, i => a ≤ i ∧ i ≤ b ∧ i < len
  | .openEnd a, len, i => a ≤ i ∧ i < len
  | .suffix n, len, i => len ≤ i + n ∧ i < len

/-- A range that ends before it begins, which RFC 7233 tells servers to ignore. -/
def Backward : RangeItem → Prop
  | .closed a b => b < a
  | _ => False

/-- One document, and the positions of it that are there. -/
structure Have where
  doc : Bytes
  positions : Nat → Prop

open Classical in
/-- What a client has after a request: the positions asked for besides those it had, if the document is
still the same, and otherwise the whole of the new document. -/
noncomputable def next (have_ : Option Have) (v : Ask) : Option Have :=
  if Backward v.item then some ⟨v.doc, fun _ => True⟩
  else match have_ with
    | none => if ∃ i, Wanted v.item v.doc.length i then some ⟨v.doc, Wanted v.item v.doc.length⟩ else none
    | some h =>
      if h.doc = v.doc then some ⟨v.doc, fun i => h.positions i ∨ Wanted v.item v.doc.length i⟩
      else some ⟨v.doc, fun _ => True⟩

/-- A client has exactly these bytes of this document. -/
def Has (md5 : Bytes → Str) : Option Held → Option Have → Prop
  | none, none => True
  | some held, some h => held.tag = s%"\"" ++ md5 h.doc ++ s%"\"" ∧
      (∀ i, h.positions i → held.bytes i = h.doc[i]?) ∧ (∀ i, ¬ h.positions i → held.bytes i = none)
  | _, _ => False

/-- No suffix that is empty or longer than the document; see `C137_suffix_false`. -/
def Fits (v : Ask) : Prop := ∀ n, v.item = .suffix n → 0 < n ∧ n ≤ v.doc.length

/-- What is needed of the hash. -/
def TagDigest (md5 : Bytes → Str) : Prop := ∀ b, '"' ∉ md5 b ∧ ',' ∉ md5 b ∧ md5 b ≠ []

/-! ### Proof -/

/-- The pair that a range is read as. -/
def pairOf : RangeItem → Int × Option Int
  | .closed a b => (a, some (b + 1))
  | .openEnd a => (a, none)
  | .suffix n => (-n, none)

theorem item_no_comma (it : RangeItem) : ',' ∉ it.text := by
  cases it with
  | closed a b =>
    simp only [RangeItem.text, List.mem_append, List.mem_singleton, not_or]
    exact ⟨⟨RangeAux.comma_notin a, by decide⟩, RangeAux.comma_notin b⟩
  | openEnd a =>
    simp only [RangeItem.text, List.mem_append, List.mem_singleton, not_or]
    exact ⟨RangeAux.comma_notin a, by decide⟩
  | suffix n =>
    simp only [RangeItem.text, List.mem_append, List.mem_singleton, not_or]
    exact ⟨by decide, RangeAux.comma_notin n⟩

theorem parse_item (lower : Str → Str) (hb : lower s%"bytes" = s%"bytes") (it : RangeItem) :
    (¬ Backward it → parseRangeHeader lower (s%"bytes=" ++ it.text) = .ok (some ⟨s%"bytes", [pairOf it]⟩)) ∧
    (Backward it → parseRangeHeader lower (s%"bytes=" ++ it.text) = .ok none) := by
  have hs : Py.split1 '=' (s%"bytes=" ++ it.text) = (s%"bytes", some it.text) :=
    Py.split1_some '=' s%"bytes" it.text (by decide)
  have hst : Py.strip s%"bytes" = s%"bytes" := by decide
  unfold parseRangeHeader
  rw [hs]
  have hsp : Py.splitOn ',' it.text = [it.text] := Py.splitOn_single _ _ (item_no_comma it)
  simp only [hsp, hst, hb]
  clear hs hsp
  cases it with
  | closed a b =>
    simp only [RangeItem.text, RangeAux.step_closed, Backward, pairOf]
    rw [if_neg (by omega)]
    constructor
    · intro h; rw [if_neg (by omega)]; rfl
    · intro h; rw [if_pos (by omega)]
  | openEnd a =>
    simp only [RangeItem.text, RangeAux.step_open, Backward, pairOf]
    rw [if_neg (by omega)]
    exact ⟨fun _ => rfl, False.elim⟩
  | suffix n =>
    simp only [RangeItem.text, Backward, pairOf, List.cons_append, List.nil_append, RangeAux.step_suffix]
    rw [if_neg (by omega)]
    exact ⟨fun _ => rfl, False.elim⟩

theorem wanted_range (it : RangeItem) (hb : ¬ Backward it) (len : Nat) (hf : ∀ n, it = .suffix n → 0 < n ∧ n ≤ len) :
    ((∃ i, Wanted it len i) → ∃ a b : Nat, a < b ∧ b ≤ len ∧
      Range.rangeForLength ⟨s%"bytes", [pairOf it]⟩ (some len) = some ((a : Int), (b : Int)) ∧
      ∀ i, Wanted it len i ↔ a ≤ i ∧ i < b) ∧
    ((¬ ∃ i, Wanted it len i) → Range.rangeForLength ⟨s%"bytes", [pairOf it]⟩ (some len) = none) := by
  have hnone : ∀ p : Int × Option Int, (∀ a b, Range.rangeForLength ⟨s%"bytes", [p]⟩ (some (len : Int)) ≠ some (a, b)) →
      Range.rangeForLength ⟨s%"bytes", [p]⟩ (some (len : Int)) = none := by
    intro p h
    cases hr : Range.rangeForLength ⟨s%"bytes", [p]⟩ (some (len : Int)) with
    | none => rfl
    | some ab => exact absurd hr (h ab.1 ab.2)
  cases it with
  | closed a b =>
    simp only [Backward] at hb
    simp only [pairOf, Wanted]
    constructor
    · rintro ⟨i, h1, h2, h3⟩
      refine ⟨a, min (b + 1) len, by omega, by omega, ?_, fun i => by omega⟩
      rw [RangeAux.rfl_iff]
      simp; omega
    · intro h
      apply hnone
      intro x y e
      rw [RangeAux.rfl_iff] at e
      simp at e
      exact h ⟨a, by omega, by omega, by omega⟩
  | openEnd a =>
    simp only [pairOf, Wanted]
    constructor
    · rintro ⟨i, h1, h2⟩
      refine ⟨a, len, by omega, by omega, ?_, fun i => by omega⟩
      rw [RangeAux.rfl_iff]
      simp; omega
    · intro h
      apply hnone
      intro x y e
      rw [RangeAux.rfl_iff] at e
      simp at e
      exact h ⟨a, by omega, by omega⟩
  | suffix n =>
    obtain ⟨hn, hl⟩ := hf n rfl
    simp only [pairOf, Wanted]
    constructor
    · rintro ⟨i, h1, h2⟩
      refine ⟨len - n, len, by omega, by omega, ?_, fun i => by omega⟩
      rw [RangeAux.rfl_iff]
      simp; omega
    · intro h
      exact absurd ⟨len - n, by omega, by omega⟩ h

/-- What is sent when the range is honoured. -/
theorem sendPart_spec (lower : Str → Str) (hb : lower s%"bytes" = s%"bytes") (doc : Bytes) (tag : Str) (it : RangeItem)
    (hf : ∀ n, it = .suffix n → 0 < n ∧ n ≤ doc.length) :
    (Backward it → sendPart lower doc tag (s%"bytes=" ++ it.text) = .ok ⟨200, tag, none, doc⟩) ∧
    (¬ Backward it → (¬ ∃ i, Wanted it doc.length i) →
      sendPart lower doc tag (s%"bytes=" ++ it.text) = .ok ⟨416, tag, none, []⟩) ∧
    (¬ Backward it → (∃ i, Wanted it doc.length i) → ∃ (a b : Nat) (r : Str), a < b ∧ b ≤ doc.length ∧
      sendPart lower doc tag (s%"bytes=" ++ it.text) = .ok ⟨206, tag, some r, (doc.take b).drop a⟩ ∧
      parseContentRangeHeader r = .ok (some ⟨some s%"bytes", some a, some b, some doc.length⟩) ∧
      ∀ i, Wanted it doc.length i ↔ a ≤ i ∧ i < b) := by
  obtain ⟨p1, p2⟩ := parse_item lower hb it
  refine ⟨fun h => ?_, fun h hw => ?_, fun h hw => ?_⟩
  · unfold sendPart; rw [p2 h]
  · obtain ⟨-, w2⟩ := wanted_range it h doc.length hf
    obtain ⟨c, e1, e2, -⟩ := C15_make_content_range ⟨s%"bytes", [pairOf it]⟩ doc.length
    have hc : c = none := e2.mpr (w2 hw)
    subst hc
    unfold sendPart; rw [p1 h]; simp only; rw [e1]
  · obtain ⟨w1, -⟩ := wanted_range it h doc.length hf
    obtain ⟨a, b, hab, hbl, hr, hwant⟩ := w1 hw
    obtain ⟨c, e1, e2, e3⟩ := C15_make_content_range ⟨s%"bytes", [pairOf it]⟩ doc.length
    cases c with
    | none => rw [e2.mp rfl] at hr; cases hr
    | some c =>
      obtain ⟨a', b', hr', hc, -⟩ := e3 c rfl
      rw [hr] at hr'
      simp only [Option.some.injEq, Prod.mk.injEq] at hr'
      obtain ⟨rfl, rfl⟩ := hr'
      obtain ⟨r, hr1, hr2⟩ := C15_content_range_roundtrip s%"bytes" (some a) (some b) (some doc.length) (by decide) (by decide)
        (.inr ⟨a, b, rfl, rfl, by omega, by omega, fun l hl => by simp at hl; omega⟩)
      refine ⟨a, b, r, hab, hbl, ?_, hr2, hwant⟩
      unfold sendPart; rw [p1 h]; simp only; rw [e1]
      subst hc
      simp [hr1]

theorem put_slice (doc : Bytes) (a b : Nat) (hb : b ≤ doc.length) (old : Nat → Option UInt8) (i : Nat) :
    put a ((doc.take b).drop a) old i = if a ≤ i ∧ i < b then doc[i]? else old i := by
  unfold put
  simp only [List.length_drop, List.length_take]
  by_cases h : a ≤ i ∧ i < b
  · rw [if_pos (by omega), if_pos h, List.getElem?_drop, show a + (i - a) = i by omega, List.getElem?_take, if_pos h.2]
  · rw [if_neg (by omega), if_neg h]

/-- One exchange keeps the relation. -/
theorem fetch_spec (lower : Str → Str) (hb : lower s%"bytes" = s%"bytes") (md5 : Bytes → Str) (hm : TagDigest md5)
    (held : Option Held) (h : Option Have) (hh : Has md5 held h) (v : Ask) (hf : Fits v)
    (hinj : ∀ x, h = some x → md5 x.doc = md5 v.doc → x.doc = v.doc) :
    ∃ held', fetch lower md5 held v = some held' ∧ Has md5 held' (next h v) := by
  have hq : ∀ d, Etag.quoteEtag (md5 d) false = .ok (s%"\"" ++ md5 d ++ s%"\"") := by
    intro d
    unfold Etag.quoteEtag
    rw [if_neg (by simpa using (hm d).1)]
    rfl
  obtain ⟨s1, s2, s3⟩ := sendPart_spec lower hb v.doc (s%"\"" ++ md5 v.doc ++ s%"\"") v.item hf
  -- the answer when the range is honoured, for what was held before
  have honour : ∀ (held : Option Held) (old : Nat → Prop),
      (∀ i, old i → ((held.map (·.bytes)).getD fun _ => none) i = v.doc[i]?) →
      (∀ i, ¬ old i → ((held.map (·.bytes)).getD fun _ => none) i = none) →
      servePart lower md5 v.doc (s%"bytes=" ++ v.item.text) (held.map (·.tag)) =
        sendPart lower v.doc (s%"\"" ++ md5 v.doc ++ s%"\"") (s%"bytes=" ++ v.item.text) →
      (Backward v.item → ∃ held', fetch lower md5 held v = some held' ∧ Has md5 held' (some ⟨v.doc, fun _ => True⟩)) ∧
      (¬ Backward v.item → (¬ ∃ i, Wanted v.item v.doc.length i) → fetch lower md5 held v = some held) ∧
      (¬ Backward v.item → (∃ i, Wanted v.item v.doc.length i) → ∃ held', fetch lower md5 held v = some held' ∧
        Has md5 held' (some ⟨v.doc, fun i => old i ∨ Wanted v.item v.doc.length i⟩)) := by
    intro held old ho1 ho2 hs
    refine ⟨fun hbk => ?_, fun hbk hw => ?_, fun hbk hw => ?_⟩
    · unfold fetch; rw [hs, s1 hbk]
      exact ⟨_, rfl, rfl, fun i _ => rfl, fun i h => absurd trivial h⟩
    · unfold fetch; rw [hs, s2 hbk hw]; rfl
    · obtain ⟨a, b, r, hab, hbl, e1, e2, hwant⟩ := s3 hbk hw
      unfold fetch; rw [hs, e1]
      simp only [if_true, Option.map_some, e2]
      refine ⟨_, rfl, rfl, ?_, ?_⟩
      · intro i hi
        simp only [Option.getD_some, Int.toNat_natCast]
        rw [put_slice v.doc a b hbl]
        split
        · rfl
        · rename_i hn
          rcases hi with hi | hi
          · exact ho1 i hi
          · exact absurd ((hwant i).mp hi) hn
      · intro i hi
        simp only [Option.getD_some, Int.toNat_natCast]
        rw [put_slice v.doc a b hbl, if_neg (fun x => hi (.inr ((hwant i).mpr x)))]
        exact ho2 i (fun x => hi (.inl x))
  cases h with
  | none =>
    cases held with
    | some _ => exact hh.elim
    | none =>
      obtain ⟨t1, t2, t3⟩ := honour none (fun _ => False) (fun _ h => h.elim) (fun _ _ => rfl)
        (by unfold servePart; rw [hq]; rfl)
      unfold next
      split
      · rename_i hbk; exact t1 hbk
      · rename_i hbk
        simp only
        split
        · rename_i hw
          obtain ⟨h', e1, e2⟩ := t3 hbk hw
          simp only [false_or] at e2
          exact ⟨h', e1, e2⟩
        · rename_i hw
          exact ⟨none, t2 hbk hw, trivial⟩
  | some x =>
    cases held with
    | none => exact hh.elim
    | some held =>
      obtain ⟨htag, hp, hnp⟩ := hh
      have hif : parseIfRange (s%"\"" ++ md5 x.doc ++ s%"\"") = .ok ⟨some (md5 x.doc), none⟩ := by
        obtain ⟨s, c1, c2, c3, -⟩ := C86_tag (md5 x.doc) (hm x.doc).1
        have hs : s = s%"\"" ++ md5 x.doc ++ s%"\"" := by rw [c2]; rfl
        subst hs
        exact c3 (by rw [show s%"\"" ++ md5 x.doc ++ s%"\"" = '"' :: (md5 x.doc ++ ['"']) by simp]
                     exact parseDate_quote _ (by simp [(hm x.doc).2.1]))
      by_cases hd : x.doc = v.doc
      · obtain ⟨t1, t2, t3⟩ := honour (some held) x.positions (by rw [← hd]; exact hp) hnp
          (by
            unfold servePart
            rw [hq]
            simp only [Option.map_some, htag]
            rw [hif]
            simp [hd])
        unfold next
        split
        · rename_i hbk; exact t1 hbk
        · rename_i hbk
          simp only [hd, if_true]
          by_cases hw : ∃ i, Wanted v.item v.doc.length i
          · exact t3 hbk hw
          · refine ⟨some held, t2 hbk hw, ?_⟩
            refine ⟨by rw [htag, hd], ?_, ?_⟩
            · rintro i (hi | hi)
              · rw [← hd]; exact hp i hi
              · exact absurd ⟨i, hi⟩ hw
            · intro i hi; exact hnp i (fun y => hi (.inl y))
      · have hne : ¬ md5 x.doc = md5 v.doc := fun e => hd (hinj x rfl e)
        have hs : servePart lower md5 v.doc (s%"bytes=" ++ v.item.text) ((some held).map (·.tag)) =
            .ok ⟨200, s%"\"" ++ md5 v.doc ++ s%"\"", none, v.doc⟩ := by
          unfold servePart
          rw [hq]
          simp only [Option.map_some, htag]
          rw [hif]
          simp [hne]
        refine ⟨some ⟨s%"\"" ++ md5 v.doc ++ s%"\"", fun i => v.doc[i]?⟩, by unfold fetch; rw [hs]; rfl, ?_⟩
        have hn : next (some x) v = some ⟨v.doc, fun _ => True⟩ := by
          unfold next
          split
          · rfl
          · simp [hd]
        rw [hn]
        exact ⟨rfl, fun i _ => rfl, fun i h => absurd trivial h⟩

theorem next_doc (h : Option Have) (v : Ask) (x : Have) (hx : next h v = some x) : x.doc = v.doc := by
  unfold next at hx
  split at hx
  · rw [← Option.some.inj hx]
  · split at hx
    · split at hx
      · rw [← Option.some.inj hx]
      · cases hx
    · split at hx <;> rw [← Option.some.inj hx]

/-- C137.  A client that fetches a document in parts, any ranges in any order, on condition that the document
has not changed, and writes each part to the place Content-Range names: what it has are exactly the positions
it asked for since the document last changed, with the bytes of that one document, or the whole document if the
change showed or a range was no range.  No request fails.  (Missing from the full claim: suffixes that are empty
or longer than the document, for which it is false.) -/
theorem C137_parts_partial (lower : Str → Str) (hb : lower s%"bytes" = s%"bytes") (md5 : Bytes → Str) (hm : TagDigest md5)
    (asks : List Ask) (hf : ∀ v ∈ asks, Fits v)
    (hinj : ∀ v ∈ asks, ∀ w ∈ asks, md5 v.doc = md5 w.doc → v.doc = w.doc) :
    ∃ held, download lower md5 none asks = some held ∧ Has md5 held (asks.foldl next none) := by
  suffices H : ∀ (asks : List Ask) (held : Option Held) (h : Option Have), Has md5 held h → (∀ v ∈ asks, Fits v) →
      (∀ v ∈ asks, ∀ w ∈ asks, md5 v.doc = md5 w.doc → v.doc = w.doc) →
      (∀ x, h = some x → ∀ v ∈ asks, md5 x.doc = md5 v.doc → x.doc = v.doc) →
      ∃ held', download lower md5 held asks = some held' ∧ Has md5 held' (asks.foldl next h) from
    H asks none none trivial hf hinj nofun
  intro asks
  induction asks with
  | nil => intro held h hh _ _ _; exact ⟨held, rfl, hh⟩
  | cons v vs ih =>
    intro held h hh hf hinj hx
    obtain ⟨held', e1, e2⟩ := fetch_spec lower hb md5 hm held h hh v (hf v (by simp)) (fun x e => hx x e v (by simp))
    obtain ⟨held'', e3, e4⟩ := ih held' (next h v) e2 (fun w hw => hf w (by simp [hw]))
      (fun a ha b hb => hinj a (by simp [ha]) b (by simp [hb]))
      (fun x e w hw => by rw [next_doc h v x e]; exact hinj v (by simp) w (by simp [hw]))
    refine ⟨held'', ?_, e4⟩
    unfold download
    rw [e1]
    exact e3

/-- C137.  A document that does not change is complete when every position was asked for. -/
theorem C137_complete_partial (lower : Str → Str) (hb : lower s%"bytes" = s%"bytes") (md5 : Bytes → Str) (hm : TagDigest md5)
    (doc : Bytes) (hne : doc ≠ []) (items : List RangeItem) (hf : ∀ n, .suffix n ∈ items → 0 < n ∧ n ≤ doc.length)
    (hcover : ∀ i, i < doc.length → ∃ it ∈ items, Wanted it doc.length i) :
    ∃ held, download lower md5 none (items.map fun it => ⟨doc, it⟩) = some (some held) ∧
      ∀ i, held.bytes i = doc[i]? := by
  obtain ⟨held, e1, e2⟩ := C137_parts_partial lower hb md5 hm (items.map fun it => ⟨doc, it⟩)
    (by
      intro v hv
      obtain ⟨it, hi, rfl⟩ := List.mem_map.mp hv
      intro n e
      exact hf n (by simpa [← e] using hi))
    (by
      intro v hv w hw _
      obtain ⟨_, _, rfl⟩ := List.mem_map.mp hv
      obtain ⟨_, _, rfl⟩ := List.mem_map.mp hw
      rfl)
  have inv : ∀ (items : List RangeItem) (h : Option Have), (∀ x, h = some x → x.doc = doc) →
      (∀ x, (items.map fun it => (⟨doc, it⟩ : Ask)).foldl next h = some x → x.doc = doc ∧
        (∀ i, (∃ y, h = some y ∧ y.positions i) → x.positions i) ∧
        (∀ it ∈ items, ∀ i, Wanted it doc.length i → x.positions i)) ∧
      ((items.map fun it => (⟨doc, it⟩ : Ask)).foldl next h = none → ∀ it ∈ items, ∀ i, ¬ Wanted it doc.length i) := by
    intro items
    induction items with
    | nil =>
      intro h hd
      refine ⟨fun x hx => ⟨hd x hx, ?_, by simp⟩, by simp⟩
      rintro i ⟨y, hy, hp⟩
      simp only [List.map_nil, List.foldl_nil] at hx
      rw [hy] at hx
      rw [← Option.some.inj hx]; exact hp
    | cons it its ih =>
      intro h hd
      simp only [List.map_cons, List.foldl_cons]
      have hstep : (∀ y, h = some y → ∃ z, next h ⟨doc, it⟩ = some z ∧ ∀ i, y.positions i → z.positions i) ∧
          (∀ i, Wanted it doc.length i → ∃ z, next h ⟨doc, it⟩ = some z ∧ z.positions i) := by
        unfold next
        by_cases hbk : Backward it
        · rw [if_pos hbk]
          exact ⟨fun _ _ => ⟨_, rfl, fun _ _ => trivial⟩, fun _ _ => ⟨_, rfl, trivial⟩⟩
        · rw [if_neg hbk]
          cases h with
          | none =>
            simp only
            refine ⟨nofun, fun i hi => ?_⟩
            rw [if_pos ⟨i, hi⟩]
            exact ⟨_, rfl, hi⟩
          | some y =>
            simp only [hd y rfl, if_true]
            refine ⟨fun y' e => ⟨_, rfl, fun i hp => .inl ?_⟩, fun i hi => ⟨_, rfl, .inr hi⟩⟩
            rw [Option.some.inj e]; exact hp
      obtain ⟨k1, k2⟩ := ih (next h ⟨doc, it⟩) (fun x hx => next_doc h _ x hx)
      refine ⟨fun x hx => ?_, fun hx => ?_⟩
      · obtain ⟨j1, j2, j3⟩ := k1 x hx
        refine ⟨j1, ?_, ?_⟩
        · rintro i ⟨y, hy, hp⟩
          obtain ⟨z, hz, hzp⟩ := hstep.1 y hy
          exact j2 i ⟨z, hz, hzp i hp⟩
        · intro it' hit i hi
          rcases List.mem_cons.mp hit with rfl | hit
          · obtain ⟨z, hz, hzp⟩ := hstep.2 i hi
            exact j2 i ⟨z, hz, hzp⟩
          · exact j3 it' hit i hi
      · intro it' hit i hi
        rcases List.mem_cons.mp hit with rfl | hit
        · obtain ⟨z, hz, hzp⟩ := hstep.2 i hi
          have keep : ∀ (its : List RangeItem) (z : Have), z.doc = doc →
              (its.map fun it => (⟨doc, it⟩ : Ask)).foldl next (some z) ≠ none := by
            intro its
            induction its with
            | nil => intro z _; simp
            | cons it its ih =>
              intro z hz
              simp only [List.map_cons, List.foldl_cons]
              have : ∃ w, next (some z) ⟨doc, it⟩ = some w := by
                unfold next; split
                · exact ⟨_, rfl⟩
                · simp [hz]
              obtain ⟨w, hw⟩ := this
              rw [hw]
              exact ih w (next_doc _ _ w hw)
          rw [hz] at hx
          exact keep its z (next_doc h _ z hz) hx
        · exact k2 hx it' hit i hi
  obtain ⟨i1, i2⟩ := inv items none nofun
  cases hfin : (items.map fun it => (⟨doc, it⟩ : Ask)).foldl next none with
  | none =>
    exfalso
    have hpos : 0 < doc.length := List.length_pos_iff.mpr hne
    obtain ⟨it, hi, hw⟩ := hcover 0 hpos
    exact i2 hfin it hi 0 hw
  | some x =>
    rw [hfin] at e2
    cases held with
    | none => exact e2.elim
    | some held =>
      obtain ⟨-, hp, hnp⟩ := e2
      obtain ⟨j1, -, j3⟩ := i1 x hfin
      refine ⟨held, e1, fun i => ?_⟩
      by_cases hi : i < doc.length
      · obtain ⟨it, hit, hw⟩ := hcover i hi
        rw [hp i (j3 it hit i hw), j1]
      · by_cases hx : x.positions i
        · rw [hp i hx, j1]
        · rw [hnp i hx, List.getElem?_eq_none (by omega)]

/-! ### Cases -/

/-- Three parts of one document, the middle one last, and then one of another document. -/
def fourAsks : List Ask :=
  [⟨b%"abcdef", .closed 0 1⟩, ⟨b%"abcdef", .suffix 2⟩, ⟨b%"abcdef", .closed 2 3⟩, ⟨b%"xyz", .openEnd 1⟩]

example : ∀ v ∈ fourAsks, Fits v := by
  intro v hv
  simp only [fourAsks, List.mem_cons, List.not_mem_nil, or_false] at hv
  rcases hv with rfl | rfl | rfl | rfl <;> intro n h <;> simp at h
  subst h; decide

example : ∀ i, i < 6 → ∃ it ∈ [RangeItem.closed 0 1, .suffix 2, .closed 2 3], Wanted it 6 i := by
  intro i hi
  by_cases h1 : i ≤ 1
  · exact ⟨.closed 0 1, by simp, by omega, h1, hi⟩
  by_cases h2 : 4 ≤ i
  · exact ⟨.suffix 2, by simp, by omega, hi⟩
  · exact ⟨.closed 2 3, by simp, by omega, by omega, hi⟩

/-- A hash for the examples that tells bodies apart by their length. -/
def countHash (b : Bytes) : Str := 'h' :: List.replicate b.length 'x'

example : TagDigest countHash := by intro b; simp [countHash, List.mem_replicate]

/-- What is held after two, three and four of them. -/
example : (([2, 3, 4].map fun n => (download asciiLower countHash none (fourAsks.take n)).map fun h =>
      h.map fun h => (h.tag, (List.range 7).map h.bytes)) : List (Option (Option (Str × List (Option UInt8))))) =
    [some (some (s%"\"hxxxxxx\"", [some 97, some 98, none, none, some 101, some 102, none])),
     some (some (s%"\"hxxxxxx\"", [some 97, some 98, some 99, some 100, some 101, some 102, none])),
     some (some (s%"\"hxxx\"", [some 120, some 121, some 122, none, none, none, none]))] := by decide +kernel

/-- C137 (refutation).  The last ten bytes of a document of five are its whole, RFC 7233 2.1, but none of them is
sent; the last zero bytes are none, but all are sent. -/
theorem C137_suffix_false :
    (∀ i, Wanted (.suffix 10) 5 i ↔ i < 5) ∧ (∀ i, ¬ Wanted (.suffix 0) 5 i) ∧
    (download asciiLower (fun _ => s%"t") none [⟨b%"abcde", .suffix 10⟩]).map (·.isSome) = some false ∧
    (download asciiLower (fun _ => s%"t") none [⟨b%"abcde", .suffix 0⟩]).map
      (fun h => h.map fun h => (List.range 5).map h.bytes) = some (some (b%"abcde".map some)) := by
  refine ⟨fun i => by simp only [Wanted]; omega, fun i => by simp only [Wanted]; omega, ?_, ?_⟩ <;> decide +kernel

end Verif.Props.Desc
