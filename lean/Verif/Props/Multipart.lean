import Verif.Model.Multipart
import Verif.Spec.Multipart
import Verif.Utf8Lemmas
/-!
C96: multipart bodies.
-/
namespace Verif.Props.MultipartP
open Verif Verif.Multipart Verif.Spec.Multipart

/-! ### The threshold -/

theorem writeBinary_content (u : Bool) (t : Nat) (s : Sink) (b : Bytes) : (writeBinary u t s b).content = s.content ++ b := by
  unfold writeBinary
  split
  · split
    · rfl
    · split <;> rfl
  · rfl

theorem writeAll_content (u : Bool) (t : Nat) (bs : List Bytes) (s : Sink) :
    (writeAll u t s bs).content = s.content ++ bs.flatten := by
  unfold writeAll
  induction bs generalizing s with
  | nil => simp
  | cons b bs ih => rw [List.foldl_cons, ih, writeBinary_content]; simp

/-- What the values write, one after the other; `none` when one of them raises. -/
def allWrites (guess : Str → Option Str) (boundary : Str) : List (Str × Value) → Except PyErr Bytes
  | [] => .ok []
  | (k, v) :: rest =>
    match writes guess boundary k v with
    | (_, some e) => .error e
    | (bs, none) => (allWrites guess boundary rest).map (bs.flatten ++ ·)

theorem writeFields_content (guess : Str → Option Str) (u : Bool) (t : Nat) (boundary : Str) (l : List (Str × Value)) (s : Sink) :
    (writeFields guess u t boundary s l).map Sink.content = (allWrites guess boundary l).map (s.content ++ ·) := by
  induction l generalizing s with
  | nil => simp [writeFields, allWrites, Except.map]
  | cons p l ih =>
    obtain ⟨k, v⟩ := p
    simp only [writeFields, allWrites]
    split
    · rename_i h; simp only [h]; rfl
    · rename_i bs h
      simp only [h]
      rw [ih, writeAll_content]
      cases allWrites guess boundary l with
      | error e => rfl
      | ok x => simp [Except.map]

/-- The body in closed form. -/
theorem streamEncode_eq (guess : Str → Option Str) (u : Bool) (t : Nat) (boundary : Str) (values : MD.MDict Str Value) :
    streamEncode guess u t boundary values = (allWrites guess boundary (MD.itemsMulti values)).map fun x =>
      (x ++ Utf8.encode (s%"--" ++ boundary ++ s%"--\r\n"), (x ++ Utf8.encode (s%"--" ++ boundary ++ s%"--\r\n")).length) := by
  have h := writeFields_content guess u t boundary (MD.itemsMulti values) ⟨[], 0, false⟩
  unfold streamEncode
  cases hw : writeFields guess u t boundary ⟨[], 0, false⟩ (MD.itemsMulti values) with
  | error e =>
    rw [hw] at h
    cases ha : allWrites guess boundary (MD.itemsMulti values) with
    | error e' => rw [ha] at h; simp [Except.map] at h; simp [Except.map, h]
    | ok x => rw [ha] at h; simp [Except.map] at h
  | ok s =>
    rw [hw] at h
    cases ha : allWrites guess boundary (MD.itemsMulti values) with
    | error e' => rw [ha] at h; simp [Except.map] at h
    | ok x =>
      rw [ha] at h
      simp [Except.map] at h
      simp only [Except.map, writeBinary_content, h]

/-- **C96, the threshold.**  How many bytes are kept in memory, and whether a temporary file may be
used at all, makes no difference to the body; the length given with it is its number of bytes. -/
theorem C96_threshold (guess : Str → Option Str) (u u' : Bool) (t t' : Nat) (boundary : Str) (values : MD.MDict Str Value) :
    streamEncode guess u t boundary values = streamEncode guess u' t' boundary values ∧
    ∀ body n, streamEncode guess u t boundary values = .ok (body, n) → n = body.length := by
  refine ⟨by rw [streamEncode_eq, streamEncode_eq], ?_⟩
  intro body n h
  rw [streamEncode_eq] at h
  cases ha : allWrites guess boundary (MD.itemsMulti values) with
  | error e => rw [ha] at h; simp [Except.map] at h
  | ok x => rw [ha] at h; simp [Except.map] at h; rw [← h.2, ← h.1]; simp

/-! ### Cutting at a delimiter -/

theorem cutAt_append {d t : Bytes} {c : UInt8} (hd : d = c :: t) (hc : c ∉ t) (a r : Bytes) (h : ¬ d <:+: a) :
    cutAt d (a ++ (d ++ r)) = some (a, r) := by
  induction a with
  | nil =>
    subst hd
    simp [cutAt]
  | cons x a ih =>
    have h1 : ¬ d <+: x :: (a ++ (d ++ r)) := by
      intro hp
      by_cases hl : d.length ≤ (x :: a).length
      · apply h
        have : d <+: x :: a := by
          have e : x :: (a ++ (d ++ r)) = (x :: a) ++ (d ++ r) := rfl
          rw [e] at hp
          exact List.prefix_of_prefix_length_le hp (List.prefix_append _ _) hl
        exact this.isInfix
      · have hl : (x :: a).length ≤ d.length := by omega
        have e : x :: (a ++ (d ++ r)) = (x :: a) ++ (d ++ r) := rfl
        rw [e] at hp
        have hpre : x :: a <+: d := List.prefix_of_prefix_length_le (List.prefix_append _ _) hp hl
        obtain ⟨d', hd'⟩ := hpre
        have hd'ne : d' ≠ [] := by
          intro h0
          subst h0
          simp only [List.append_nil] at hd'
          rename_i hne
          apply hne
          rw [← hd']; exact Nat.le_refl _
        obtain ⟨s, hs⟩ := hp
        rw [← hd', List.append_assoc] at hs
        have hs' : d' ++ s = x :: a ++ d' ++ r := by
          have := List.append_cancel_left hs
          simpa using this
        -- the rest of the delimiter begins with its first byte
        cases d' with
        | nil => exact hd'ne rfl
        | cons y d' =>
          have hx : x = c := by rw [hd] at hd'; simp at hd'; exact hd'.1
          have hy : y = x := by simpa using congrArg List.head? hs'
          apply hc
          have ht : t = a ++ y :: d' := by rw [hd] at hd'; simp at hd'; exact hd'.2.symm
          rw [ht, hy, hx]; simp
    have h2 : ¬ d <:+: a := fun h0 => h (h0.trans (List.infix_cons (List.infix_refl a)))
    rw [List.cons_append, cutAt, if_neg h1, ih h2]
    rfl

theorem cutAt_none {d : Bytes} (hd : d ≠ []) (a : Bytes) (h : ¬ d <:+: a) : cutAt d a = none := by
  induction a with
  | nil => simp [cutAt, hd]
  | cons x a ih =>
    have h1 : ¬ d <+: x :: a := fun h0 => h h0.isInfix
    have h2 : ¬ d <:+: a := fun h0 => h (h0.trans (List.infix_cons (List.infix_refl a)))
    rw [cutAt, if_neg h1, ih h2]; rfl

/-- Cutting a text that is made of pieces with the delimiter before each. -/
theorem pieces_join {d t : Bytes} {c : UInt8} (hd : d = c :: t) (hc : c ∉ t) (last : Bytes) (hl : ¬ d <:+: last) (first : Bytes)
    (hf : ¬ d <:+: first) (ps : List Bytes) (h : ∀ p ∈ ps, ¬ d <:+: p) (n : Nat) (hn : ps.length + 1 ≤ n) :
    pieces d n (first ++ ((ps.map (d ++ ·)).flatten ++ (d ++ last))) = first :: (ps ++ [last]) := by
  induction ps generalizing first n with
  | nil =>
    cases n with
    | zero => omega
    | succ n =>
      simp only [List.map_nil, List.flatten_nil, List.nil_append]
      rw [pieces, cutAt_append hd hc first last hf]
      simp only
      cases n with
      | zero => rfl
      | succ n => rw [pieces, cutAt_none (by rw [hd]; simp) last hl]
  | cons p ps ih =>
    cases n with
    | zero => omega
    | succ n =>
      have e : first ++ (((p :: ps).map (d ++ ·)).flatten ++ (d ++ last)) =
          first ++ (d ++ (p ++ ((ps.map (d ++ ·)).flatten ++ (d ++ last)))) := by
        simp
      rw [e, pieces, cutAt_append hd hc first _ hf]
      simp only
      rw [ih p (h p (by simp)) (fun q hq => h q (by simp [hq])) n (by simp at hn; omega)]
      rfl

/-! ### Files -/

/-- The header of a part that carries a file. -/
def fileHeader (guess : Str → Option Str) (key : Str) (f : FileField) : Str :=
  s%"Content-Disposition: form-data; name=\"" ++ key ++ s%"\"" ++
    (match f.filename with
      | some n => s%"; filename=\"" ++ n ++ s%"\""
      | none => []) ++
    s%"\r\nContent-Type: " ++ contentTypeOf guess f

theorem chunks_flatten (n : Nat) (d : Bytes) (h : d.length ≤ n) : (chunks n d).flatten = d := by
  induction n generalizing d with
  | zero => simp at h; subst h; rfl
  | succ n ih =>
    unfold chunks
    split
    · rename_i h0; rw [h0]; rfl
    · rename_i h0
      rw [List.flatten_cons, ih _ (by rw [List.length_drop]; have := List.length_pos_iff.2 h0; omega), List.take_append_drop]

theorem encode_crlf : Utf8.encode s%"\r\n" = crlf := by decide
theorem encode_dashes : Utf8.encode s%"--" = [45, 45] := by decide

/-- What a file writes. -/
theorem writes_file (guess : Str → Option Str) (boundary key : Str) (f : FileField) :
    (writes guess boundary key (.file f)).1.flatten =
      [45, 45] ++ Utf8.encode boundary ++ (crlf ++ Utf8.encode (fileHeader guess key f) ++ (crlf ++ crlf) ++ f.data) ++ crlf := by
  simp only [writes, List.flatten_append, List.flatten_cons, List.flatten_nil, List.append_nil, chunks_flatten _ _ (Nat.le_refl _)]
  have e1 : Utf8.encode (fieldHead boundary key) = [45, 45] ++ Utf8.encode boundary ++ crlf ++
      Utf8.encode (s%"Content-Disposition: form-data; name=\"" ++ key ++ s%"\"") := by
    unfold fieldHead
    have : s%"--" ++ boundary ++ s%"\r\nContent-Disposition: form-data; name=\"" ++ key ++ s%"\"" =
        s%"--" ++ boundary ++ s%"\r\n" ++ (s%"Content-Disposition: form-data; name=\"" ++ key ++ s%"\"") := by simp
    rw [this, Utf8.encode_append, Utf8.encode_append, Utf8.encode_append, encode_crlf, encode_dashes]
  have e2 : Utf8.encode (s%"Content-Type: " ++ contentTypeOf guess f ++ s%"\r\n\r\n") =
      Utf8.encode (s%"Content-Type: " ++ contentTypeOf guess f) ++ (crlf ++ crlf) := by
    rw [Utf8.encode_append]; congr 1
  have e3 : Utf8.encode (fileHeader guess key f) = Utf8.encode (s%"Content-Disposition: form-data; name=\"" ++ key ++ s%"\"") ++
      Utf8.encode (match f.filename with
        | some n => s%"; filename=\"" ++ n ++ s%"\"\r\n"
        | none => s%"\r\n") ++ Utf8.encode (s%"Content-Type: " ++ contentTypeOf guess f) := by
    unfold fileHeader
    rw [← Utf8.encode_append, ← Utf8.encode_append]
    congr 1
    cases f.filename <;> simp
  rw [e1, e2, e3, encode_crlf]
  simp only [List.append_assoc]
  cases f.filename <;> rfl

/-- A line break in the bytes of a text comes from the text. -/
theorem cr_encode {s : Str} (h : '\r' ∉ s) : (13 : UInt8) ∉ Utf8.encode s := by
  intro hm
  unfold Utf8.encode at hm
  simp only [List.mem_flatMap] at hm
  obtain ⟨c, hc, hb⟩ := hm
  by_cases hl : c.toNat < 128
  · rw [Utf8.encChar_ascii hl] at hb
    simp only [List.mem_singleton] at hb
    have : (13 : UInt8).toNat = (Utf8.byte c.toNat).toNat := by rw [hb]
    rw [Utf8.byte_toNat (by omega)] at this
    apply h
    have e : c = '\r' := by rw [← Utf8.ofNat_toNat c, ← this]; rfl
    rw [← e]; exact hc
  · have := Utf8.encChar_high (by omega : 128 ≤ c.toNat) _ hb
    simp at this

/-- A file that a multipart body can carry: no line of its content begins with the delimiter, and no
carriage return is in its names. -/
structure Sendable (guess : Str → Option Str) (boundary key : Str) (f : FileField) : Prop where
  key : '\r' ∉ key
  name : ∀ n, f.filename = some n → '\r' ∉ n
  type : '\r' ∉ contentTypeOf guess f
  data : ¬ (crlf ++ [45, 45] ++ Utf8.encode boundary) <:+: crlf ++ f.data

theorem infix_cr {t a b : Bytes} (ha : (13 : UInt8) ∉ a) (h : 13 :: t <:+: a ++ b) : 13 :: t <:+: b := by
  induction a with
  | nil => exact h
  | cons x a ih =>
    rw [List.cons_append, List.infix_cons_iff] at h
    rcases h with h | h
    · exfalso
      obtain ⟨s, hs⟩ := h
      simp at hs
      exact ha (by simp [hs.1])
    · exact ih (fun h0 => ha (by simp [h0])) h

theorem infix_crlf {t b : Bytes} (hne : ¬ 13 :: 10 :: t <+: crlf ++ b) (h : 13 :: 10 :: t <:+: crlf ++ b) :
    13 :: 10 :: t <:+: b := by
  unfold crlf at h hne
  rw [List.cons_append, List.infix_cons_iff] at h
  rcases h with h | h
  · exact absurd h hne
  · rw [List.cons_append, List.infix_cons_iff] at h
    rcases h with h | h
    · obtain ⟨s, hs⟩ := h; simp at hs
    · exact h

/-- The header is two lines. -/
theorem header_lines (guess : Str → Option Str) (key : Str) (f : FileField) :
    Utf8.encode (fileHeader guess key f) = Utf8.encode (s%"Content-Disposition: form-data; name=\"" ++ key ++ s%"\"" ++
      (match f.filename with
        | some n => s%"; filename=\"" ++ n ++ s%"\""
        | none => [])) ++ (crlf ++ Utf8.encode (s%"Content-Type: " ++ contentTypeOf guess f)) := by
  unfold fileHeader
  have : ∀ a b : Str, a ++ s%"\r\nContent-Type: " ++ b = a ++ (s%"\r\n" ++ (s%"Content-Type: " ++ b)) := by simp
  rw [this, Utf8.encode_append, Utf8.encode_append s%"\r\n", encode_crlf]

theorem first_line_cr {guess : Str → Option Str} {boundary key : Str} {f : FileField} (h : Sendable guess boundary key f) :
    '\r' ∉ s%"Content-Disposition: form-data; name=\"" ++ key ++ s%"\"" ++
      (match f.filename with
        | some n => s%"; filename=\"" ++ n ++ s%"\""
        | none => []) := by
  simp only [List.mem_append, not_or]
  refine ⟨⟨⟨by decide, h.key⟩, by decide⟩, ?_⟩
  cases hf : f.filename with
  | none => simp
  | some n => simp only [List.mem_append, not_or]; exact ⟨⟨by decide, h.name n hf⟩, by decide⟩

theorem second_line_cr {guess : Str → Option Str} {boundary key : Str} {f : FileField} (h : Sendable guess boundary key f) :
    '\r' ∉ s%"Content-Type: " ++ contentTypeOf guess f := by
  simp only [List.mem_append, not_or]
  exact ⟨by decide, h.type⟩

/-- The bytes of the first line begin with a letter. -/
theorem line_head (k : Str) : ∃ r, Utf8.encode ('C' :: k) = 67 :: r := by
  rw [Utf8.encode_cons, Utf8.encChar_ascii (by decide)]
  exact ⟨Utf8.encode k, rfl⟩

theorem encode_first (guess : Str → Option Str) (key : Str) (f : FileField) : ∃ r, Utf8.encode (fileHeader guess key f) = 67 :: r := by
  unfold fileHeader
  simp only [List.cons_append]
  exact line_head _

theorem encode_second (t : Str) : ∃ r, Utf8.encode (s%"Content-Type: " ++ t) = 67 :: r := by
  simp only [List.cons_append]
  exact line_head _

/-- The delimiter is not in a part. -/
theorem part_clean {guess : Str → Option Str} {boundary key : Str} {f : FileField} (h : Sendable guess boundary key f) :
    ¬ (crlf ++ [45, 45] ++ Utf8.encode boundary) <:+:
      crlf ++ Utf8.encode (fileHeader guess key f) ++ (crlf ++ crlf) ++ f.data := by
  intro hi
  have hd := h.data
  have e : crlf ++ [45, 45] ++ Utf8.encode boundary = 13 :: 10 :: 45 :: 45 :: Utf8.encode boundary := rfl
  rw [e] at hi hd
  rw [header_lines] at hi
  simp only [List.append_assoc] at hi
  have n1 : ∀ b, ¬ 13 :: 10 :: 45 :: 45 :: Utf8.encode boundary <+: crlf ++ (67 :: b) := by
    intro b h0
    obtain ⟨s, hs⟩ := h0
    simp [crlf] at hs
  have n2 : ∀ b, ¬ 13 :: 10 :: 45 :: 45 :: Utf8.encode boundary <+: crlf ++ (13 :: b) := by
    intro b h0
    obtain ⟨s, hs⟩ := h0
    simp [crlf] at hs
  have k1 := infix_crlf (by
    obtain ⟨r, hr⟩ := encode_first guess key f
    rw [header_lines] at hr
    intro h0
    rw [← List.append_assoc (Utf8.encode _)] at h0
    have h0' : 13 :: 10 :: 45 :: 45 :: Utf8.encode boundary <+:
      crlf ++ ((Utf8.encode (s%"Content-Disposition: form-data; name=\"" ++ key ++ s%"\"" ++
      (match f.filename with
        | some n => s%"; filename=\"" ++ n ++ s%"\""
        | none => [])) ++ (crlf ++ Utf8.encode (s%"Content-Type: " ++ contentTypeOf guess f))) ++ (crlf ++ (crlf ++ f.data))) := by
      simpa using h0
    rw [hr] at h0'
    exact n1 _ h0') hi
  have k2 := infix_cr (cr_encode (by simpa using first_line_cr h)) k1
  have k3 := infix_crlf (by
    obtain ⟨r, hr⟩ := encode_second (contentTypeOf guess f)
    rw [hr]; exact n1 _) k2
  have k4 := infix_cr (cr_encode (second_line_cr h)) k3
  have k5 := infix_crlf (n2 _) k4
  exact hd k5

theorem cutAt_skip (a b : Bytes) (h : (13 : UInt8) ∉ a) :
    cutAt (crlf ++ crlf) (a ++ b) = (cutAt (crlf ++ crlf) b).map fun r => (a ++ r.1, r.2) := by
  induction a with
  | nil => cases hb : cutAt (crlf ++ crlf) b <;> simp [hb]
  | cons x a ih =>
    rw [List.cons_append, cutAt, if_neg, ih (fun h0 => h (by simp [h0]))]
    · cases hb : cutAt (crlf ++ crlf) b <;> simp
    · intro h0; obtain ⟨s, hs⟩ := h0; simp [crlf] at hs; exact h (by simp [hs.1])

/-- A part is read back. -/
theorem readPart_file {guess : Str → Option Str} {boundary key : Str} {f : FileField} (h : Sendable guess boundary key f) :
    readPart (crlf ++ Utf8.encode (fileHeader guess key f) ++ (crlf ++ crlf) ++ f.data) =
      some (Utf8.encode (fileHeader guess key f), f.data) := by
  unfold readPart
  have e0 : crlf <+: crlf ++ Utf8.encode (fileHeader guess key f) ++ (crlf ++ crlf) ++ f.data := by
    simp only [List.append_assoc]; exact List.prefix_append _ _
  rw [if_pos e0]
  have e1 : (crlf ++ Utf8.encode (fileHeader guess key f) ++ (crlf ++ crlf) ++ f.data).drop 2 =
      Utf8.encode (fileHeader guess key f) ++ ((crlf ++ crlf) ++ f.data) := by
    simp [crlf]
  rw [e1, header_lines]
  obtain ⟨r, hr⟩ := encode_second (contentTypeOf guess f)
  have h1 := cr_encode (first_line_cr h)
  have h2 := cr_encode (second_line_cr h)
  generalize Utf8.encode (s%"Content-Type: " ++ contentTypeOf guess f) = b at hr h2 ⊢
  generalize Utf8.encode (s%"Content-Disposition: form-data; name=\"" ++ key ++ s%"\"" ++
      (match f.filename with
        | some n => s%"; filename=\"" ++ n ++ s%"\""
        | none => [])) = a at h1 ⊢
  have e2 : a ++ (crlf ++ b) ++ (crlf ++ crlf ++ f.data) = a ++ (13 :: 10 :: (b ++ ((crlf ++ crlf) ++ f.data))) := by simp [crlf]
  rw [e2, cutAt_skip a _ h1]
  have e3 : cutAt (crlf ++ crlf) (13 :: 10 :: (b ++ ((crlf ++ crlf) ++ f.data))) =
      (cutAt (crlf ++ crlf) (b ++ ((crlf ++ crlf) ++ f.data))).map fun r => (13 :: 10 :: r.1, r.2) := by
    rw [cutAt, if_neg, cutAt, if_neg]
    · cases cutAt (crlf ++ crlf) (b ++ ((crlf ++ crlf) ++ f.data)) <;> rfl
    · intro h0; obtain ⟨s, hs⟩ := h0; simp [crlf] at hs
    · intro h0; obtain ⟨s, hs⟩ := h0; rw [hr] at hs; simp [crlf] at hs
  rw [e3, cutAt_skip b _ h2]
  have e4 : cutAt (crlf ++ crlf) (crlf ++ crlf ++ f.data) = some ([], f.data) := by
    simp [crlf, cutAt]
  rw [e4]
  simp [crlf]

theorem allWrites_files (guess : Str → Option Str) (boundary : Str) (l : List (Str × FileField)) :
    allWrites guess boundary (l.map fun p => (p.1, .file p.2)) = .ok ((l.map fun p =>
      [45, 45] ++ Utf8.encode boundary ++ (crlf ++ Utf8.encode (fileHeader guess p.1 p.2) ++ (crlf ++ crlf) ++ p.2.data) ++ crlf).flatten) := by
  induction l with
  | nil => rfl
  | cons p l ih =>
    rw [List.map_cons, allWrites]
    have h := writes_file guess boundary p.1 p.2
    cases hw : writes guess boundary p.1 (.file p.2) with
    | mk bs e =>
      have he : e = none := by
        have : (writes guess boundary p.1 (.file p.2)).2 = none := rfl
        rw [hw] at this; exact this
      subst he
      rw [hw] at h
      simp only at h
      simp only [ih, h, Except.map]
      simp

theorem shift (d : Bytes) (parts : List Bytes) :
    crlf ++ ((parts.map fun p => d ++ p ++ crlf).flatten ++ d) = (parts.map (fun p => crlf ++ d ++ p)).flatten ++ (crlf ++ d) := by
  induction parts with
  | nil => simp
  | cons p parts ih =>
    simp only [List.map_cons, List.flatten_cons, List.append_assoc]
    have : crlf ++ ((parts.map fun p => d ++ p ++ crlf).flatten ++ d) = (parts.map (fun p => crlf ++ d ++ p)).flatten ++ (crlf ++ d) := ih
    simp only [List.append_assoc] at this
    rw [this]

/-- The files of a form read back: header and content of each, in order. -/
theorem readParts_files (guess : Str → Option Str) (boundary : Str) (l : List (Str × FileField))
    (h : ∀ p ∈ l, Sendable guess boundary p.1 p.2) :
    readParts ((l.map fun p => crlf ++ Utf8.encode (fileHeader guess p.1 p.2) ++ (crlf ++ crlf) ++ p.2.data) ++ [[45, 45, 13, 10]]) =
      some (l.map fun p => (Utf8.encode (fileHeader guess p.1 p.2), p.2.data)) := by
  induction l with
  | nil => rfl
  | cons p l ih =>
    rw [List.map_cons, List.cons_append, readParts, if_neg, readPart_file (h p (by simp)), ih (fun q hq => h q (by simp [hq]))]
    · rfl
    · intro h0
      obtain ⟨s, hs⟩ := h0
      simp [crlf] at hs

/-- **C96, files.**  A form that holds only files is written so that a receiver who cuts the body at
the boundary reads every file back, in order, with its name, its type and exactly its bytes.
Missing from the claim: text fields (`C96_text_false`), byte fields (`C96_bytes_false`), and names
with quotation marks (`C96_quote_limits`). -/
theorem C96_files_partial (guess : Str → Option Str) (u : Bool) (t : Nat) (boundary : Str) (values : MD.MDict Str Value)
    (l : List (Str × FileField)) (hl : MD.itemsMulti values = l.map fun p => (p.1, .file p.2)) (hb : '\r' ∉ boundary)
    (h : ∀ p ∈ l, Sendable guess boundary p.1 p.2) :
    ∃ body, streamEncode guess u t boundary values = .ok (body, body.length) ∧
      read (Utf8.encode boundary) body = some (l.map fun p =>
        (Utf8.encode (s%"Content-Disposition: form-data; name=\"" ++ p.1 ++ s%"\"" ++
          (match p.2.filename with
            | some n => s%"; filename=\"" ++ n ++ s%"\""
            | none => []) ++
          s%"\r\nContent-Type: " ++ contentTypeOf guess p.2), p.2.data)) := by
  rw [streamEncode_eq, hl, allWrites_files]
  refine ⟨_, rfl, ?_⟩
  have hend : Utf8.encode (s%"--" ++ boundary ++ s%"--\r\n") = [45, 45] ++ Utf8.encode boundary ++ [45, 45, 13, 10] := by
    rw [Utf8.encode_append, Utf8.encode_append, encode_dashes]
    congr 1
  rw [hend]
  unfold Spec.Multipart.read
  have key := shift ([45, 45] ++ Utf8.encode boundary)
    (l.map fun p => crlf ++ Utf8.encode (fileHeader guess p.1 p.2) ++ (crlf ++ crlf) ++ p.2.data)
  simp only [List.map_map, Function.comp_def] at key
  have e : crlf ++ ((l.map fun p => [45, 45] ++ Utf8.encode boundary ++
      (crlf ++ Utf8.encode (fileHeader guess p.1 p.2) ++ (crlf ++ crlf) ++ p.2.data) ++ crlf).flatten ++
      ([45, 45] ++ Utf8.encode boundary ++ [45, 45, 13, 10])) =
      [] ++ (((l.map fun p => crlf ++ Utf8.encode (fileHeader guess p.1 p.2) ++ (crlf ++ crlf) ++ p.2.data).map
        ((crlf ++ [45, 45] ++ Utf8.encode boundary) ++ ·)).flatten ++ ((crlf ++ [45, 45] ++ Utf8.encode boundary) ++ [45, 45, 13, 10])) := by
    rw [← List.append_assoc ((l.map _).flatten), ← List.append_assoc crlf, key]
    simp [Function.comp_def]
  rw [e]
  have hdc : (13 : UInt8) ∉ 10 :: 45 :: 45 :: Utf8.encode boundary := by
    have := cr_encode hb
    simp [this]
  have hd : crlf ++ [45, 45] ++ Utf8.encode boundary = 13 :: 10 :: 45 :: 45 :: Utf8.encode boundary := rfl
  rw [pieces_join hd hdc]
  · exact readParts_files guess boundary l h
  · intro h0
    rw [hd] at h0
    simp [List.infix_cons_iff] at h0
  · intro h0
    rw [hd] at h0
    simp at h0
  · intro p hp
    obtain ⟨q, hq, rfl⟩ := List.mem_map.1 hp
    exact part_clean (h q hq)
  · rw [List.length_map, List.length_append, List.length_flatten, List.map_map]
    have : l.length ≤ ((l.map (List.length ∘ fun p => [45, 45] ++ Utf8.encode boundary ++
      (crlf ++ Utf8.encode (fileHeader guess p.1 p.2) ++ (crlf ++ crlf) ++ p.2.data) ++ crlf))).sum := by
      clear hl h key e
      induction l with
      | nil => simp
      | cons p l ih => simp only [List.length_cons, List.map_cons, List.sum_cons, Function.comp_apply] at ih ⊢; simp at ih ⊢; omega
    simp at this ⊢
    omega

/-- Two files under one name, one of them with a line break before hyphens. -/
def demoFiles : MD.MDict Str Value :=
  [(s%"up", [.file ⟨some s%"a.txt", none, b%"x\r\n--y\r\n"⟩, .file ⟨none, some s%"image/png", []⟩])]

example : ∃ body, streamEncode (fun _ => some s%"text/plain") true 10 s%"--bnd" demoFiles = .ok (body, body.length) ∧
    read (Utf8.encode s%"--bnd") body = some
      [(Utf8.encode s%"Content-Disposition: form-data; name=\"up\"; filename=\"a.txt\"\r\nContent-Type: text/plain", b%"x\r\n--y\r\n"),
       (Utf8.encode s%"Content-Disposition: form-data; name=\"up\"\r\nContent-Type: image/png", [])] := by
  refine C96_files_partial (fun _ => some s%"text/plain") true 10 s%"--bnd" demoFiles
    [(s%"up", ⟨some s%"a.txt", none, b%"x\r\n--y\r\n"⟩), (s%"up", ⟨none, some s%"image/png", []⟩)] rfl (by decide) ?_
  intro p hp
  simp only [List.mem_cons, List.not_mem_nil, or_false] at hp
  rcases hp with rfl | rfl
  · exact ⟨by decide, (by intro n hn; cases hn; decide), by decide, by decide⟩
  · exact ⟨by decide, (by intro n hn; cases hn), by decide, by decide⟩

/-! ### Fields -/

theorem allWrites_text (guess : Str → Option Str) (boundary : Str) (l : List (Str × Value)) (k v : Str) (h : (k, Value.text v) ∈ l) :
    allWrites guess boundary l = .error .typeError := by
  induction l with
  | nil => simp at h
  | cons p l ih =>
    obtain ⟨k', v'⟩ := p
    rw [allWrites]
    rcases List.mem_cons.1 h with h0 | h0
    · cases h0; rfl
    · cases v' with
      | text s => rfl
      | bytes b => simp only [writes, ih h0]; rfl
      | file f => simp only [writes, ih h0]; rfl

/-- **C96, text.**  A form with a text field cannot be written at all: whatever else it holds, the
call raises `TypeError`. -/
theorem C96_text_false (guess : Str → Option Str) (u : Bool) (t : Nat) (boundary : Str) (values : MD.MDict Str Value) (k v : Str)
    (h : (k, Value.text v) ∈ MD.itemsMulti values) : streamEncode guess u t boundary values = .error .typeError := by
  rw [streamEncode_eq, allWrites_text guess boundary _ k v h]; rfl

example : streamEncode (fun _ => none) true 500 s%"bnd" [(s%"a", [.bytes b%"x"]), (s%"b", [.text s%"hello"])] = .error .typeError :=
  C96_text_false _ _ _ _ _ s%"b" s%"hello" (by decide)

/-- **C96, bytes.**  A field of bytes is written on the line of its own header and a second time as
the content. -/
theorem C96_bytes_false (guess : Str → Option Str) (u : Bool) (t : Nat) (boundary key : Str) (d : Bytes) :
    streamEncode guess u t boundary [(key, [.bytes d])] = .ok
      (Utf8.encode (s%"--" ++ boundary ++ s%"\r\nContent-Disposition: form-data; name=\"" ++ key ++ s%"\"") ++ d ++
        Utf8.encode s%"\r\n\r\n" ++ d ++ Utf8.encode s%"\r\n" ++ Utf8.encode (s%"--" ++ boundary ++ s%"--\r\n"),
       (Utf8.encode (s%"--" ++ boundary ++ s%"\r\nContent-Disposition: form-data; name=\"" ++ key ++ s%"\"") ++ d ++
        Utf8.encode s%"\r\n\r\n" ++ d ++ Utf8.encode s%"\r\n" ++ Utf8.encode (s%"--" ++ boundary ++ s%"--\r\n")).length) := by
  rw [streamEncode_eq]
  simp [MD.itemsMulti, allWrites, writes, Except.map, fieldHead]

/-- **C96, names.**  Names are not quoted: a field whose name holds a quotation mark is written
exactly as another field with a file name. -/
theorem C96_quote_limits (guess : Str → Option Str) (u : Bool) (t : Nat) (boundary k n ct : Str) (d : Bytes) :
    streamEncode guess u t boundary [(k ++ s%"\"; filename=\"" ++ n, [.file ⟨none, some ct, d⟩])] =
      streamEncode guess u t boundary [(k, [.file ⟨some n, some ct, d⟩])] := by
  have h : ∀ (key : Str) (f : FileField), streamEncode guess u t boundary [(key, [.file f])] = _ := fun key f =>
    (streamEncode_eq guess u t boundary [(key, [.file f])]).trans
      (by rw [show MD.itemsMulti [(key, [Value.file f])] = [(key, f)].map (fun p => (p.1, Value.file p.2)) from rfl, allWrites_files])
  rw [h, h]
  have e : fileHeader guess (k ++ s%"\"; filename=\"" ++ n) ⟨none, some ct, d⟩ = fileHeader guess k ⟨some n, some ct, d⟩ := by
    simp [fileHeader, contentTypeOf]
  simp only [List.map_cons, e, List.map_nil]

end Verif.Props.MultipartP
