import Verif.Utf8
/-!
Facts about the codecs of `Verif.Utf8`.
-/
namespace Verif.Utf8
open Verif

theorem byte_toNat {n : Nat} (h : n < 256) : (byte n).toNat = n := by
  unfold byte
  simp [UInt8.toNat_ofNat']; omega

theorem byte_of_toNat (b : UInt8) : byte b.toNat = b := by
  unfold byte; simp

theorem char_valid (c : Char) : c.toNat < 0xD800 ∨ (0xDFFF < c.toNat ∧ c.toNat < 0x110000) := by
  have := c.valid
  unfold UInt32.isValidChar Nat.isValidChar at this
  exact this

theorem ofNat_toNat (c : Char) : Char.ofNat c.toNat = c := by
  simp

theorem toNat_ofNat {n : Nat} (h : n < 0xD800 ∨ (0xDFFF < n ∧ n < 0x110000)) : (Char.ofNat n).toNat = n := by
  have hv : n.isValidChar := h
  unfold Char.ofNat
  rw [dif_pos hv]
  unfold Char.ofNatAux Char.toNat
  simp only [UInt32.toNat, BitVec.toNat_ofNatLT]

/-- Skipping is dropping. -/
theorem items_skip (k : Nat) (b : Bytes) : items k b = items 0 (b.drop k) := by
  induction b generalizing k with
  | nil => cases k <;> rfl
  | cons x xs ih =>
    cases k with
    | zero => rfl
    | succ n => simp only [items, List.drop_succ_cons]; exact ih n

theorem items_cons (b : UInt8) (rest : Bytes) :
    items 0 (b :: rest) = (step b rest).1 :: items 0 (rest.drop (step b rest).2) := by
  rw [items, items_skip]

/-- The decoder reads back one encoded character. -/
theorem items_encChar (c : Char) (rest : Bytes) : items 0 (encChar c ++ rest) = some c :: items 0 rest := by
  have hv := char_valid c
  have hc := ofNat_toNat c
  generalize hn : c.toNat = n at hv hc
  unfold encChar
  rw [hn]
  simp only
  split
  · rename_i h
    simp only [List.cons_append, List.nil_append, items_cons]
    have : step (byte n) rest = (some c, 0) := by
      simp only [step, follow, byte_toNat (show n < 256 by omega), if_pos h, hc]
    simp [this]
  split
  · rename_i h1 h2
    simp only [List.cons_append, List.nil_append, items_cons]
    have : step (byte (0xC0 + n / 64)) (byte (0x80 + n % 64) :: rest) = (some c, 1) := by
      have e1 := byte_toNat (show 0xC0 + n / 64 < 256 by omega)
      have e2 := byte_toNat (show 0x80 + n % 64 < 256 by omega)
      have hf : follow (byte (0xC0 + n / 64)) = some 1 := by
        unfold follow; simp only [e1]
        rw [if_neg (by omega), if_neg (by omega), if_pos (by omega)]
      have hs : second (byte (0xC0 + n / 64)) (byte (0x80 + n % 64)) = true := by
        unfold second isCont
        rw [e1, e2, if_neg (by omega), if_neg (by omega), if_neg (by omega), if_neg (by omega)]
        simp; omega
      simp only [step, hf, hs, if_true, e1, e2]
      rw [show (0xC0 + n / 64 - 0xC0) * 64 + (0x80 + n % 64 - 0x80) = n by omega, hc]
    simp [this]
  split
  · rename_i h0 h1 h2
    simp only [List.cons_append, List.nil_append, items_cons]
    have : step (byte (0xE0 + n / 4096)) (byte (0x80 + n / 64 % 64) :: byte (0x80 + n % 64) :: rest) = (some c, 2) := by
      have e1 := byte_toNat (show 0xE0 + n / 4096 < 256 by omega)
      have e2 := byte_toNat (show 0x80 + n / 64 % 64 < 256 by omega)
      have e3 := byte_toNat (show 0x80 + n % 64 < 256 by omega)
      have hf : follow (byte (0xE0 + n / 4096)) = some 2 := by
        unfold follow; simp only [e1]
        rw [if_neg (by omega), if_neg (by omega), if_neg (by omega), if_pos (by omega)]
      have hs : second (byte (0xE0 + n / 4096)) (byte (0x80 + n / 64 % 64)) = true := by
        unfold second isCont
        rw [e1, e2]
        have : (128 ≤ 128 + n / 64 % 64 ∧ 128 + n / 64 % 64 < 192) := by omega
        simp only [this, decide_true, Bool.and_self, Bool.true_and]
        split
        · simp; omega
        split
        · simp; omega
        rw [if_neg (by omega), if_neg (by omega)]
      have hd : isCont (byte (0x80 + n % 64)) = true := by
        unfold isCont; rw [e3]; simp; omega
      simp only [step, hf, hs, hd, if_true, e1, e2, e3]
      rw [show (0xE0 + n / 4096 - 0xE0) * 4096 + (0x80 + n / 64 % 64 - 0x80) * 64 + (0x80 + n % 64 - 0x80) = n by omega, hc]
    simp [this]
  · rename_i h0 h1 h2
    simp only [List.cons_append, List.nil_append, items_cons]
    have : step (byte (0xF0 + n / 262144)) (byte (0x80 + n / 4096 % 64) :: byte (0x80 + n / 64 % 64) ::
        byte (0x80 + n % 64) :: rest) = (some c, 3) := by
      have e1 := byte_toNat (show 0xF0 + n / 262144 < 256 by omega)
      have e2 := byte_toNat (show 0x80 + n / 4096 % 64 < 256 by omega)
      have e3 := byte_toNat (show 0x80 + n / 64 % 64 < 256 by omega)
      have e4 := byte_toNat (show 0x80 + n % 64 < 256 by omega)
      have hf : follow (byte (0xF0 + n / 262144)) = some 3 := by
        unfold follow; simp only [e1]
        rw [if_neg (by omega), if_neg (by omega), if_neg (by omega), if_neg (by omega), if_pos (by omega)]
      have hs : second (byte (0xF0 + n / 262144)) (byte (0x80 + n / 4096 % 64)) = true := by
        unfold second isCont
        rw [e1, e2]
        have : (128 ≤ 128 + n / 4096 % 64 ∧ 128 + n / 4096 % 64 < 192) := by omega
        simp only [this, decide_true, Bool.and_self, Bool.true_and]
        rw [if_neg (by omega), if_neg (by omega)]
        split
        · simp; omega
        split
        · simp; omega
        rfl
      have hd : isCont (byte (0x80 + n / 64 % 64)) = true := by
        unfold isCont; rw [e3]; simp; omega
      have he : isCont (byte (0x80 + n % 64)) = true := by
        unfold isCont; rw [e4]; simp; omega
      simp only [step, hf, hs, hd, he, if_true, e1, e2, e3, e4]
      rw [show (0xF0 + n / 262144 - 0xF0) * 262144 + (0x80 + n / 4096 % 64 - 0x80) * 4096 +
        (0x80 + n / 64 % 64 - 0x80) * 64 + (0x80 + n % 64 - 0x80) = n by omega, hc]
    simp [this]

theorem items_encode_append (s : Str) (rest : Bytes) : items 0 (encode s ++ rest) = s.map some ++ items 0 rest := by
  induction s with
  | nil => rfl
  | cons c s ih =>
    have : encode (c :: s) = encChar c ++ encode s := by simp [encode]
    rw [this, List.append_assoc, items_encChar, ih]; rfl

theorem items_encode (s : Str) : items 0 (encode s) = s.map some := by
  have := items_encode_append s []
  simpa [items] using this

/-- Decoding reads back an encoded text. -/
theorem decode_encode (s : Str) : decode (encode s) = s := by
  unfold decode; rw [items_encode]; simp [Function.comp_def]

theorem decode_encode_append (s : Str) (rest : Bytes) : decode (encode s ++ rest) = s ++ decode rest := by
  unfold decode; rw [items_encode_append]; simp [Function.comp_def]

theorem encode_append (s t : Str) : encode (s ++ t) = encode s ++ encode t := by
  simp [encode]

theorem encode_cons (c : Char) (t : Str) : encode (c :: t) = encChar c ++ encode t := by
  simp [encode]

/-- Text of ASCII characters is encoded byte by byte. -/
theorem encChar_ascii {c : Char} (h : c.toNat < 128) : encChar c = [byte c.toNat] := by
  unfold encChar; simp only; rw [if_pos h]

theorem encode_ascii {s : Str} (h : ∀ c ∈ s, c.toNat < 128) : encode s = s.map fun c => byte c.toNat := by
  induction s with
  | nil => rfl
  | cons c s ih =>
    rw [encode_cons, encChar_ascii (h c (by simp)), ih (fun d hd => h d (by simp [hd]))]; rfl

/-- The bytes of a character beyond ASCII are all beyond ASCII. -/
theorem encChar_high {c : Char} (h : 128 ≤ c.toNat) : ∀ b ∈ encChar c, 128 ≤ b.toNat := by
  have hv := char_valid c
  unfold encChar
  generalize c.toNat = n at *
  simp only
  rw [if_neg (by omega)]
  intro b hb
  split at hb
  · simp only [List.mem_cons, List.not_mem_nil, or_false] at hb
    rcases hb with rfl | rfl <;> rw [byte_toNat (by omega)] <;> omega
  split at hb
  · simp only [List.mem_cons, List.not_mem_nil, or_false] at hb
    rcases hb with rfl | rfl | rfl <;> rw [byte_toNat (by omega)] <;> omega
  · simp only [List.mem_cons, List.not_mem_nil, or_false] at hb
    rcases hb with rfl | rfl | rfl | rfl <;> rw [byte_toNat (by omega)] <;> omega

theorem second_cont {b c : UInt8} (h : second b c = true) : isCont c = true := by
  unfold second at h; simp at h; exact h.1

theorem second_bounds {b c : UInt8} (h : second b c = true) :
    (b.toNat = 0xE0 → 0xA0 ≤ c.toNat) ∧ (b.toNat = 0xED → c.toNat < 0xA0) ∧
    (b.toNat = 0xF0 → 0x90 ≤ c.toNat) ∧ (b.toNat = 0xF4 → c.toNat < 0x90) := by
  unfold second at h
  rw [Bool.and_eq_true] at h
  have h2 := h.2
  refine ⟨?_, ?_, ?_, ?_⟩ <;> intro hb <;> rw [hb] at h2 <;> simpa using h2

theorem isCont_low {b : UInt8} (h : b.toNat < 128) : isCont b = false := by
  unfold isCont; simp; omega

theorem second_low {b c : UInt8} (h : c.toNat < 128) : second b c = false := by
  unfold second; rw [isCont_low h]; rfl

/-- A step never looks past an ASCII byte. -/
theorem step_ascii (b x : UInt8) (a rest : Bytes) (h : x.toNat < 128) :
    step b (a ++ x :: rest) = step b a ∧ (step b a).2 ≤ a.length := by
  unfold step
  have h1 := isCont_low h
  have h2 : ∀ y, second y x = false := fun y => second_low h
  cases hf : follow b with
  | none => simp
  | some k =>
    match k with
    | 0 => simp
    | 1 =>
      match a with
      | [] => simp [h2]
      | [c] => simp only [List.cons_append]; cases second b c <;> simp
      | c :: d :: t => simp only [List.cons_append]; cases second b c <;> simp
    | 2 =>
      match a with
      | [] =>
        cases rest <;> simp [h2]
      | [c] => simp only [List.cons_append, List.nil_append]; cases second b c <;> simp [h1]
      | c :: d :: t =>
        simp only [List.cons_append]
        cases second b c <;> cases isCont d <;> simp
    | k + 3 =>
      match a with
      | [] =>
        match rest with
        | [] => simp [h2]
        | [_] => simp [h2]
        | _ :: _ :: _ => simp [h2]
      | [c] =>
        cases rest <;> simp only [List.cons_append, List.nil_append] <;> cases second b c <;> simp [h1]
      | [c, d] =>
        simp only [List.cons_append, List.nil_append]
        cases second b c <;> cases isCont d <;> simp [h1]
      | c :: d :: e :: t =>
        simp only [List.cons_append]
        cases second b c <;> cases isCont d <;> cases isCont e <;> simp

/-- The decoder restarts at every ASCII byte. -/
theorem items_ascii (a : Bytes) (x : UInt8) (rest : Bytes) (h : x.toNat < 128) :
    items 0 (a ++ x :: rest) = items 0 a ++ some (Char.ofNat x.toNat) :: items 0 rest := by
  generalize hn : a.length = n
  induction n using Nat.strongRecOn generalizing a with
  | _ n ih =>
    cases a with
    | nil =>
      simp only [List.nil_append, items_cons]
      have : step x rest = (some (Char.ofNat x.toNat), 0) := by
        have hf : follow x = some 0 := by unfold follow; simp only [if_pos h]
        simp only [step, hf]
      rw [this]; rfl
    | cons b t =>
      simp only [List.cons_append, items_cons]
      obtain ⟨h1, h2⟩ := step_ascii b x t rest h
      rw [h1, List.drop_append_of_le_length h2]
      rw [ih _ (by simp at hn ⊢; omega) _ rfl]

theorem decode_ascii (a : Bytes) (x : UInt8) (rest : Bytes) (h : x.toNat < 128) :
    decode (a ++ x :: rest) = decode a ++ Char.ofNat x.toNat :: decode rest := by
  unfold decode; rw [items_ascii a x rest h]; simp

/-- What a successful step reads is the encoding of its character. -/
theorem step_some {b : UInt8} {rest : Bytes} {c : Char} {k : Nat} (h : step b rest = (some c, k)) :
    encChar c = b :: rest.take k ∧ k ≤ rest.length := by
  have hb := b.toNat_lt
  unfold step at h
  have hfol : ∀ j, follow b = some j → (j = 0 → b.toNat < 0x80) ∧ (j = 1 → 0xC2 ≤ b.toNat ∧ b.toNat < 0xE0) ∧
      (j = 2 → 0xE0 ≤ b.toNat ∧ b.toNat < 0xF0) ∧ (j ≥ 3 → j = 3 ∧ 0xF0 ≤ b.toNat ∧ b.toNat < 0xF5) := by
    intro j hj
    unfold follow at hj
    simp only at hj
    repeat' (split at hj)
    all_goals (first | (simp at hj; done) | (injection hj with hj; subst hj; refine ⟨?_, ?_, ?_, ?_⟩ <;> intro hh <;> omega))
  cases hf : follow b with
  | none => simp [hf] at h
  | some j =>
    have hr := hfol j hf
    rw [hf] at h
    match j with
    | 0 =>
      simp only [Prod.mk.injEq, Option.some.injEq] at h
      obtain ⟨rfl, rfl⟩ := h
      have h0 := hr.1 rfl
      have e := toNat_ofNat (n := b.toNat) (by omega)
      unfold encChar
      simp only [e, if_pos h0, byte_of_toNat]
      simp
    | 1 =>
      have h0 := hr.2.1 rfl
      match rest with
      | [] => simp at h
      | x :: t =>
        simp only at h
        split at h
        · rename_i hs
          have hc := second_cont hs
          simp [isCont] at hc
          simp only [Prod.mk.injEq, Option.some.injEq] at h
          obtain ⟨rfl, rfl⟩ := h
          have e := toNat_ofNat (n := (b.toNat - 0xC0) * 64 + (x.toNat - 0x80)) (by omega)
          unfold encChar
          simp only [e]
          rw [if_neg (by omega), if_pos (by omega)]
          rw [show 0xC0 + ((b.toNat - 0xC0) * 64 + (x.toNat - 0x80)) / 64 = b.toNat by omega,
            show 0x80 + ((b.toNat - 0xC0) * 64 + (x.toNat - 0x80)) % 64 = x.toNat by omega]
          simp [byte_of_toNat]
        · simp at h
    | 2 =>
      have h0 := hr.2.2.1 rfl
      match rest with
      | [] => simp at h
      | [x] => simp only at h; split at h <;> simp at h
      | x :: y :: t =>
        simp only at h
        split at h
        · rename_i hs
          split at h
          · rename_i hd
            have hc := second_cont hs
            simp [isCont] at hc hd
            have hs2 := second_bounds hs
            simp only [Prod.mk.injEq, Option.some.injEq] at h
            obtain ⟨rfl, rfl⟩ := h
            have hA := hs2.1
            have hB := hs2.2.1
            have e := toNat_ofNat (n := (b.toNat - 0xE0) * 4096 + (x.toNat - 0x80) * 64 + (y.toNat - 0x80)) (by omega)
            unfold encChar
            simp only [e]
            rw [if_neg (by omega), if_neg (by omega), if_pos (by omega)]
            rw [show 0xE0 + ((b.toNat - 0xE0) * 4096 + (x.toNat - 0x80) * 64 + (y.toNat - 0x80)) / 4096 = b.toNat by omega,
              show 0x80 + ((b.toNat - 0xE0) * 4096 + (x.toNat - 0x80) * 64 + (y.toNat - 0x80)) / 64 % 64 = x.toNat by omega,
              show 0x80 + ((b.toNat - 0xE0) * 4096 + (x.toNat - 0x80) * 64 + (y.toNat - 0x80)) % 64 = y.toNat by omega]
            simp [byte_of_toNat]
          · simp at h
        · simp at h
    | k' + 3 =>
      have h0 := (hr.2.2.2 (by omega)).2
      match rest with
      | [] => simp at h
      | [x] => simp only at h; split at h <;> simp at h
      | [x, y] => simp only at h; repeat' (split at h)
                  all_goals simp at h
      | x :: y :: z :: t =>
        simp only at h
        split at h
        · rename_i hs
          split at h
          · rename_i hd
            split at h
            · rename_i he
              have hc := second_cont hs
              simp [isCont] at hc hd he
              have hs2 := second_bounds hs
              simp only [Prod.mk.injEq, Option.some.injEq] at h
              obtain ⟨rfl, rfl⟩ := h
              have hA := hs2.2.2.1
              have hB := hs2.2.2.2
              have e := toNat_ofNat (n := (b.toNat - 0xF0) * 262144 + (x.toNat - 0x80) * 4096 + (y.toNat - 0x80) * 64 +
                (z.toNat - 0x80)) (by omega)
              unfold encChar
              simp only [e]
              rw [if_neg (by omega), if_neg (by omega), if_neg (by omega)]
              rw [show 0xF0 + ((b.toNat - 0xF0) * 262144 + (x.toNat - 0x80) * 4096 + (y.toNat - 0x80) * 64 +
                  (z.toNat - 0x80)) / 262144 = b.toNat by omega,
                show 0x80 + ((b.toNat - 0xF0) * 262144 + (x.toNat - 0x80) * 4096 + (y.toNat - 0x80) * 64 +
                  (z.toNat - 0x80)) / 4096 % 64 = x.toNat by omega,
                show 0x80 + ((b.toNat - 0xF0) * 262144 + (x.toNat - 0x80) * 4096 + (y.toNat - 0x80) * 64 +
                  (z.toNat - 0x80)) / 64 % 64 = y.toNat by omega,
                show 0x80 + ((b.toNat - 0xF0) * 262144 + (x.toNat - 0x80) * 4096 + (y.toNat - 0x80) * 64 +
                  (z.toNat - 0x80)) % 64 = z.toNat by omega]
              simp [byte_of_toNat]
            · simp at h
          · simp at h
        · simp at h

/-- Bytes the decoder accepts are the encoding of what it read. -/
theorem encode_of_items {b : Bytes} {s : Str} (h : items 0 b = s.map some) : encode s = b := by
  generalize hn : b.length = n
  induction n using Nat.strongRecOn generalizing b s with
  | _ n ih =>
    cases b with
    | nil => cases s <;> simp [items] at h ⊢; rfl
    | cons x t =>
      rw [items_cons] at h
      cases s with
      | nil => simp at h
      | cons c s =>
        simp only [List.map_cons, List.cons.injEq] at h
        obtain ⟨h1, h2⟩ := h
        obtain ⟨e1, e2⟩ := step_some (c := c) (k := (step x t).2) (Prod.ext h1 rfl)
        rw [encode_cons, e1]
        have := ih _ (by simp at hn ⊢; omega) h2 rfl
        rw [this, List.cons_append, List.take_append_drop]

/-- Strict decoding is exactly the inverse of encoding. -/
theorem decodeStrict_iff (b : Bytes) (s : Str) : decodeStrict b = .ok s ↔ encode s = b := by
  constructor
  · intro h
    unfold decodeStrict at h
    split at h
    · rename_i ha
      cases h
      apply encode_of_items
      unfold decode
      rw [List.map_map]
      symm
      have : ∀ (l : List (Option Char)), l.all Option.isSome = true →
          l.map (some ∘ fun o => o.getD '�') = l := by
        intro l hl
        induction l with
        | nil => rfl
        | cons o l ih =>
          simp at hl
          cases o with
          | none => simp at hl
          | some v => simp; exact ih (by simpa using hl.2)
      exact this _ ha
    · exact absurd h (by simp)
  · rintro rfl
    unfold decodeStrict
    rw [decode_encode, items_encode]
    simp

/-- Latin-1 decoding and encoding are inverse. -/
theorem toLatin1_latin1 (b : Bytes) : toLatin1 (latin1 b) = .ok b := by
  have ht : ∀ x : UInt8, (Char.ofNat x.toNat).toNat = x.toNat := fun x =>
    toNat_ofNat (Or.inl (by have := x.toNat_lt; omega))
  unfold toLatin1 latin1
  rw [if_pos]
  · rw [List.map_map]
    congr 1
    conv => rhs; rw [← List.map_id b]
    apply List.map_congr_left
    intro x _
    simp only [Function.comp_apply, ht, byte_of_toNat, id]
  · simp only [List.all_map, List.all_eq_true, Function.comp_apply, ht]
    intro x _
    have := x.toNat_lt
    simp; omega

theorem latin1_toLatin1 {s : Str} {b : Bytes} (h : toLatin1 s = .ok b) : latin1 b = s := by
  unfold toLatin1 at h
  split at h
  · rename_i ha
    cases h
    unfold latin1
    rw [List.map_map]
    conv => rhs; rw [← List.map_id s]
    apply List.map_congr_left
    intro c hc
    have := List.all_eq_true.1 ha c hc
    simp at this
    simp only [Function.comp_apply, id]
    rw [byte_toNat this, ofNat_toNat]
  · exact absurd h (by simp)

theorem toLatin1_ok {s : Str} (h : ∀ c ∈ s, c.toNat < 256) : toLatin1 s = .ok (s.map fun c => byte c.toNat) := by
  unfold toLatin1
  rw [if_pos]
  simpa using h

theorem toLatin1_error {s : Str} : toLatin1 s = .error .unicodeError ↔ ∃ c ∈ s, 256 ≤ c.toNat := by
  unfold toLatin1
  split
  · rename_i h
    simp at h
    constructor
    · intro h'; exact absurd h' (by simp)
    · rintro ⟨c, hc, hh⟩; have := h c hc; omega
  · rename_i h
    simp at h
    constructor
    · intro _; exact h
    · intro _; rfl

example : encode s%"aé€😀" = [97, 0xC3, 0xA9, 0xE2, 0x82, 0xAC, 0xF0, 0x9F, 0x98, 0x80] := by decide +kernel
example : decode [97, 0xFF, 0xE2, 0x82, 98, 0xC0, 0xAF, 0xED, 0xA0, 0x80] = s%"a��b�����" := by decide +kernel

end Verif.Utf8
