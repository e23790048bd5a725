import Verif.Model.Request
import Verif.Props.Stream
/-! Property theorem C55: the body of a request. -/
namespace Verif.Props.ReqP
open Verif Verif.Wsgi Verif.Stream Verif.Request

variable (decode : Bytes → Except PyErr Str)

theorem getStream_cached (r : Req) : (getStream r).1.cached = r.cached := by
  unfold getStream
  split
  · rfl
  · split <;> rfl

theorem streamRead_cached (r : Req) (n : Option Int) : (streamRead r n).1.cached = r.cached := by
  have h := getStream_cached r
  unfold streamRead
  split
  · rename_i e; rw [e] at h; exact h
  · rename_i e; rw [e] at h; exact h
  · rename_i e; rw [e] at h; split <;> exact h
  · rename_i e; rw [e] at h; exact h

theorem step_cached (r : Req) (op : Request.Op) (b : Bytes) (h : r.cached = some b) :
    (Request.step decode r op).cached = some b := by
  cases op with
  | getData c t => simp [Request.step, getData, h]
  | read n => rw [Request.step, streamRead_cached, h]
  | parse => simp [Request.step, parseRead, h]

/-- The bytes behind a successful call of `get_data`. -/
theorem getData_ok (r r' : Req) (c t : Bool) (d : Data) (h : getData decode r c t = (r', .ok d)) :
    ∃ b, conv decode t b = .ok d ∧ (r.cached = some b ∨ (streamRead r none).2 = .ok b) ∧
      (c = true → r'.cached = some b) := by
  unfold getData at h
  split at h
  · rename_i b hb
    rw [Prod.mk.injEq] at h
    exact ⟨b, h.2, .inl hb, fun _ => by rw [← h.1]; exact hb⟩
  · split at h
    · cases h
    · rename_i b hb
      rw [Prod.mk.injEq] at h
      refine ⟨b, h.2, .inr (by rw [hb]), fun hc => ?_⟩
      rw [← h.1, hc]; rfl

/-- Once `get_data` has been called with caching and succeeded, then after any further calls
on the request it returns the same bytes, as text their decoding, with or without caching, and
it does not touch the request or the server's stream; the stream offered for parsing delivers
the same bytes. -/
theorem C55_same_bytes (r r' : Req) (t : Bool) (d : Data) (h : getData decode r true t = (r', .ok d)) :
    ∃ b, conv decode t b = .ok d ∧ ∀ ops c,
      getData decode (Request.run decode r' ops) c false = (Request.run decode r' ops, .ok (.bytes b)) ∧
      getData decode (Request.run decode r' ops) c true =
        (Request.run decode r' ops, (decode b).map .text) ∧
      parseRead (Request.run decode r' ops) = (Request.run decode r' ops, .ok b) := by
  obtain ⟨b, h1, -, h3⟩ := getData_ok decode r r' true t d h
  refine ⟨b, h1, fun ops c => ?_⟩
  have hc : (Request.run decode r' ops).cached = some b := by
    replace h3 := h3 rfl
    clear h h1
    induction ops generalizing r' with
    | nil => exact h3
    | cons o ops ih => exact ih _ (step_cached decode r' o b h3)
  unfold getData parseRead
  rw [hc]
  refine ⟨rfl, ?_, rfl⟩
  simp only [conv, if_true]
  cases decode b <;> rfl

/-- A history that only asks for the data with caching reads the server's stream at most once:
every call after the first successful one leaves it alone. -/
theorem C55_read_once (r : Req) (t : Bool) (d : Data) (h : (getData decode r true t).2 = .ok d)
    (calls : List Bool) :
    Request.run decode (getData decode r true t).1 (calls.map (Request.Op.getData true)) = (getData decode r true t).1 := by
  obtain ⟨b, _, hb⟩ := C55_same_bytes decode r _ t d (Prod.ext rfl h)
  induction calls with
  | nil => rfl
  | cons c cs ih =>
    have := hb [] true
    rw [List.map_cons]
    show Request.run decode (getData decode (getData decode r true t).1 true c).1 _ = _
    have e : (getData decode (getData decode r true t).1 true c).1 = (getData decode r true t).1 := by
      cases c
      · exact (congrArg Prod.fst this.1 :)
      · exact (congrArg Prod.fst this.2.1 :)
    rw [e]; exact ih

/-- The first call on a fresh request with a declared length `n` that the server can deliver
returns exactly the first `n` bytes of the stream and takes no more from it. -/
theorem C55_first_read (environ : List (Str × Str)) (n : Int) (hn : getContentLength environ = some n)
    (D : Bytes) (hD : n ≤ D.length) (c : Bool) :
    let g := getData decode (new false environ false ⟨D, []⟩) c false
    g.2 = .ok (.bytes (D.take n.toNat)) ∧ g.1.src = ⟨D.drop n.toNat, []⟩ := by
  have h0 : 0 ≤ n := by
    unfold getContentLength at hn
    split at hn
    · cases hn
    · split at hn
      · cases hn; omega
      · cases hn
  intro g
  have hs : getStream (new false environ false ⟨D, []⟩) =
      ({ new false environ false ⟨D, []⟩ with stream := some (.limited 0 n) }, .ok (.limited 0 n)) := by
    simp [getStream, new, openStream, getInputStream, hn]
  have hr : Stream.read ⟨⟨D, []⟩, 0, n⟩ none = (⟨⟨D.drop n.toNat, []⟩, n, n⟩, .ok (D.take n.toNat)) := by
    unfold Stream.read
    by_cases hz : n = 0
    · subst hz
      simp [onExhausted, Src.read]
    · rw [if_neg (by simp only; omega)]
      have h1 : ¬ (n < 0) := by omega
      have h2 : ((D.take n.toNat).length : Int) = n := by
        rw [List.length_take]; omega
      simp only [readSize, Int.sub_zero, Int.min_self, Src.read, List.headD_nil, Bool.false_eq_true, if_false, h1,
        List.tail_nil]
      rw [if_neg (fun h => h.2 h2), h2]
      simp
  have hstr : streamRead (new false environ false ⟨D, []⟩) none =
      ({ new false environ false ⟨D, []⟩ with src := ⟨D.drop n.toNat, []⟩, stream := some (.limited n n) },
        .ok (D.take n.toNat)) := by
    unfold streamRead
    rw [hs]
    simp only [new]
    rw [hr]
  have hg : g = (if c then { (streamRead (new false environ false ⟨D, []⟩) none).1 with cached := some (D.take n.toNat) }
      else (streamRead (new false environ false ⟨D, []⟩) none).1, .ok (.bytes (D.take n.toNat))) := by
    show getData decode _ _ _ = _
    unfold getData
    rw [hstr]
    rfl
  rw [hg, hstr]
  refine ⟨rfl, ?_⟩
  cases c <;> rfl

/-- A body shorter than announced is reported and nothing is cached. -/
theorem C55_short_body (environ : List (Str × Str)) (n : Int) (hn : getContentLength environ = some n)
    (D : Bytes) (hD : D.length < n) (c : Bool) :
    let g := getData decode (new false environ false ⟨D, []⟩) c false
    g.2 = .error .clientDisconnected ∧ g.1.cached = none := by
  intro g
  have hs : getStream (new false environ false ⟨D, []⟩) =
      ({ new false environ false ⟨D, []⟩ with stream := some (.limited 0 n) }, .ok (.limited 0 n)) := by
    simp [getStream, new, openStream, getInputStream, hn]
  have hr : (Stream.read ⟨⟨D, []⟩, 0, n⟩ none).2 = .error .clientDisconnected := by
    unfold Stream.read
    rw [if_neg (by simp only; omega)]
    have h1 : ¬ (n < 0) := by omega
    have h2 : ((D.take n.toNat).length : Int) ≠ n := by
      rw [List.length_take]; omega
    simp only [readSize, Int.sub_zero, Int.min_self, Src.read, List.headD_nil, Bool.false_eq_true, if_false, h1,
      List.tail_nil]
    rw [if_pos ⟨by omega, h2⟩]
  have hstr : (streamRead (new false environ false ⟨D, []⟩) none).2 = .error .clientDisconnected := by
    unfold streamRead
    rw [hs]
    exact hr
  have hc := streamRead_cached (new false environ false ⟨D, []⟩) none
  show (getData decode _ _ _).2 = _ ∧ (getData decode _ _ _).1.cached = none
  unfold getData
  cases hq : streamRead (new false environ false ⟨D, []⟩) none with
  | mk q v =>
    rw [hq] at hstr hc
    simp only at hstr hc
    subst hstr
    exact ⟨rfl, hc⟩

example : getContentLength [(s%"CONTENT_LENGTH", s%"3")] = some 3 ∧
    (getData (fun b => .ok (b.map fun x => Char.ofNat x.toNat))
      (new false [(s%"CONTENT_LENGTH", s%"3")] false ⟨b%"abcdef", []⟩) true true).2 = .ok (.text s%"abc") := by
  decide +kernel

example : (getData (fun b => .ok (b.map fun x => Char.ofNat x.toNat))
      (new false [(s%"CONTENT_LENGTH", s%"9")] false ⟨b%"abcdef", []⟩) true true).2 = .error .clientDisconnected := by
  decide +kernel

end Verif.Props.ReqP
