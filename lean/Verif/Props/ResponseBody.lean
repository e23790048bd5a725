import Verif.Model.ResponseBody
import Verif.Props.Descriptors
import Verif.Utf8
/-! C123: the body that is sent is what was set and written. -/
namespace Verif.Props.RespBodyP
open Verif Verif.Response Verif.RespBody Verif.Headers Verif.Spec Verif.Props.Resp Verif.Props.Desc

/-! ### Specification -/

/-- The body as its user sees it: the bytes, whether its stream is closed, and whether it is still an iterator. -/
structure Doc where
  bytes : Bytes
  closed : Bool
  lazy : Bool
deriving DecidableEq

/-- The bytes of a text or of bytes. -/
def bytesOf (e : Str → Bytes) : Item → Bytes
  | .text s => e s
  | .bytes b => b

/-- What a call does to the body, and its result if the call is about the body.  `blocked` tells that iterators may not be turned into lists. -/
def Doc.step (e : Str → Bytes) (blocked : Bool) (d : Doc) : Call → Doc × Option (Except PyErr (Option Bytes))
  | .setData v => (⟨bytesOf e v, d.closed, false⟩, some (.ok none))
  | .getData => if d.lazy && blocked then (d, some (.error .runtimeError)) else ({ d with lazy := false }, some (.ok (some d.bytes)))
  | .calcLength => if d.lazy && blocked then (d, some (.ok none)) else ({ d with lazy := false }, some (.ok none))
  | .makeSequence => ({ d with lazy := false }, some (.ok none))
  | .freeze => ({ d with lazy := false }, some (.ok none))
  | .write v =>
    if d.closed then (d, some (.error .valueError))
    else if d.lazy && blocked then (d, some (.error .runtimeError))
    else (⟨d.bytes ++ bytesOf e v, d.closed, false⟩, some (.ok none))
  | .writelines [] => (d, some (.ok none))
  | .writelines (v :: vs) =>
    if d.closed then (d, some (.error .valueError))
    else if d.lazy && blocked then (d, some (.error .runtimeError))
    else (⟨d.bytes ++ (v :: vs).flatMap (bytesOf e), d.closed, false⟩, some (.ok none))
  | .close => ({ d with closed := true }, some (.ok none))
  | .flush => (d, some (if d.closed then .error .valueError else .ok none))
  | .isatty => (d, some (if d.closed then .error .valueError else .ok none))
  | _ => (d, none)

/-- What a history of calls does to the body. -/
def Doc.run (e : Str → Bytes) (blocked : Bool) (d : Doc) (cs : List Call) : Doc := cs.foldl (fun d c => (d.step e blocked c).1) d

/-! ### Proofs -/

section
variable (cfg : Cfg) (e : Str → Bytes) (he : ∀ t, cfg.encode t = .ok (e t))

/-- The body of a response as its user sees it. -/
def docOf (s : St) : Doc := ⟨s.resp.body.items.flatMap (bytesOf e), s.closed, !s.resp.body.isSequence⟩

/-- Iterators may not be turned into lists. -/
def Blocked (r : Resp) : Bool := r.direct || !cfg.implicitSeq

include he in
theorem item_enc (v : Item) : encodeItem cfg v = .ok (bytesOf e v) := by
  cases v with
  | text s => exact he s
  | bytes b => rfl

include he in
theorem all_enc (xs : List Item) : encodeAll cfg xs = .ok (xs.map (bytesOf e)) := by
  induction xs with
  | nil => rfl
  | cons x xs ih =>
    unfold encodeAll
    rw [item_enc cfg e he x, ih]
    rfl

theorem flat_bytes (xs : List Item) : (((xs.map (bytesOf e)).map Item.bytes).flatMap (bytesOf e)) = xs.flatMap (bytesOf e) := by
  induction xs with
  | nil => rfl
  | cons x xs ih =>
    rw [List.map_cons, List.map_cons, List.flatMap_cons, List.flatMap_cons, ih]
    rfl

/-- What turning the body into a list gives. -/
structure Listed (r r' : Resp) : Prop where
  seq : r'.body.isSequence = true
  items : r'.body.items.flatMap (bytesOf e) = r.body.items.flatMap (bytesOf e)
  direct : r'.direct = r.direct
  headers : r'.headers = r.headers
  status : r'.status = r.status
  code : r'.code = r.code

include he in
theorem makeSequence_ok (r : Resp) : ∃ r', makeSequence cfg r = (r', .ok ()) ∧ Listed e r r' := by
  unfold makeSequence
  split
  · rename_i h
    exact ⟨r, rfl, h, rfl, rfl, rfl, rfl, rfl⟩
  · rw [all_enc cfg e he]
    exact ⟨_, rfl, rfl, flat_bytes e _, rfl, rfl, rfl, rfl⟩

include he in
theorem ensure_ok (r : Resp) (m : Bool) :
    ((!r.body.isSequence && Blocked cfg r) = true → ensureSequence cfg r m = (r, .error .runtimeError)) ∧
    ((!r.body.isSequence && Blocked cfg r) = false → ∃ r', ensureSequence cfg r m = (r', .ok ()) ∧ Listed e r r') := by
  unfold ensureSequence Blocked
  cases hs : r.body.isSequence with
  | true =>
    simp only [Bool.not_true, Bool.false_and, Bool.false_eq_true, false_implies, if_true, true_and, forall_const]
    cases m with
    | false => exact ⟨r, rfl, hs, rfl, rfl, rfl, rfl, rfl⟩
    | true => exact ⟨_, rfl, rfl, rfl, rfl, rfl, rfl, rfl⟩
  | false =>
    simp only [Bool.not_false, Bool.true_and, Bool.false_eq_true, if_false]
    cases r.direct with
    | true => simp
    | false =>
      cases cfg.implicitSeq with
      | false => simp
      | true => simpa using makeSequence_ok cfg e he r

include he in
theorem write_ok (s : St) (v : Item) :
    (s.closed = true → RespBody.write cfg s v = (s, .error .valueError)) ∧
    (s.closed = false → (!s.resp.body.isSequence && Blocked cfg s.resp) = true → RespBody.write cfg s v = (s, .error .runtimeError)) ∧
    (s.closed = false → (!s.resp.body.isSequence && Blocked cfg s.resp) = false →
      ∃ s', RespBody.write cfg s v = (s', .ok ()) ∧ s'.closed = false ∧ s'.resp.body.isSequence = true ∧ s'.resp.direct = s.resp.direct ∧
        s'.resp.body.items.flatMap (bytesOf e) = s.resp.body.items.flatMap (bytesOf e) ++ bytesOf e v ∧
        s'.resp.headers = delKey cfg.lower s.resp.headers s%"Content-Length") := by
  unfold RespBody.write Response.write
  refine ⟨fun h => by rw [if_pos h], fun h hb => ?_, fun h hb => ?_⟩
  · rw [if_neg (by simp [h]), (ensure_ok cfg e he s.resp true).1 hb]
  · obtain ⟨r', h1, h2⟩ := (ensure_ok cfg e he s.resp true).2 hb
    rw [if_neg (by simp [h]), h1]
    refine ⟨_, rfl, h, rfl, h2.direct, ?_, by rw [← h2.headers]⟩
    show (r'.body.items ++ [v]).flatMap _ = _
    rw [List.flatMap_append, h2.items]
    simp

include he in
theorem writelines_ok (vs : List Item) (s : St) (hs : s.closed = false) (hb : (!s.resp.body.isSequence && Blocked cfg s.resp) = false) (hne : vs ≠ []) :
    ∃ s', writelines cfg s vs = (s', .ok ()) ∧ s'.closed = false ∧ s'.resp.body.isSequence = true ∧ s'.resp.direct = s.resp.direct ∧
      s'.resp.body.items.flatMap (bytesOf e) = s.resp.body.items.flatMap (bytesOf e) ++ vs.flatMap (bytesOf e) := by
  induction vs generalizing s with
  | nil => exact absurd rfl hne
  | cons v vs ih =>
    obtain ⟨s1, h1, h2, h3, h4, h5, _⟩ := (write_ok cfg e he s v).2.2 hs hb
    unfold writelines
    rw [h1]
    show ∃ s', writelines cfg s1 vs = _ ∧ _
    by_cases hv : vs = []
    · subst hv
      exact ⟨s1, rfl, h2, h3, h4, by simp [h5]⟩
    · obtain ⟨s2, g1, g2, g3, g4, g5⟩ := ih s1 h2 (by simp [h3]) hv
      exact ⟨s2, g1, g2, g3, by rw [g4, h4], by rw [g5, h5]; simp⟩

theorem doc_eq (s s' : St) (b : Bytes) (h1 : s'.resp.body.items.flatMap (bytesOf e) = b) (h2 : s'.closed = s.closed)
    (h3 : s'.resp.body.isSequence = true) : docOf e s' = ⟨b, s.closed, false⟩ := by
  unfold docOf
  rw [h1, h2, h3]
  rfl

include he in
theorem step_ok (s : St) (c : Call) :
    docOf e (exec cfg s c).1 = ((docOf e s).step e (Blocked cfg s.resp) c).1 ∧
    (exec cfg s c).1.resp.direct = s.resp.direct ∧
    ∀ r, ((docOf e s).step e (Blocked cfg s.resp) c).2 = some r → (exec cfg s c).2 = r := by
  have lazy : (docOf e s).lazy = !s.resp.body.isSequence := rfl
  have closed : (docOf e s).closed = s.closed := rfl
  cases c with
  | setData v =>
    simp only [exec, Response.setData, item_enc cfg e he, Doc.step]
    refine ⟨doc_eq e s _ _ (by simp [Body.items, bytesOf]) rfl rfl, trivial, ?_⟩
    rintro r ⟨⟩
    rfl
  | getData =>
    simp only [exec, Response.getData, Doc.step, lazy]
    cases hb : (!s.resp.body.isSequence && Blocked cfg s.resp) with
    | true =>
      rw [(ensure_ok cfg e he s.resp false).1 hb]
      refine ⟨rfl, rfl, ?_⟩
      rintro r ⟨⟩
      rfl
    | false =>
      obtain ⟨r', h1, h2⟩ := (ensure_ok cfg e he s.resp false).2 hb
      rw [h1]
      simp only [all_enc cfg e he, Bool.false_eq_true, if_false]
      refine ⟨doc_eq e s _ _ h2.items rfl h2.seq, h2.direct, ?_⟩
      rintro r ⟨⟩
      rw [← List.flatMap_def, h2.items]
      rfl
  | calcLength =>
    simp only [exec, Response.calcLength, Doc.step, lazy]
    cases hb : (!s.resp.body.isSequence && Blocked cfg s.resp) with
    | true =>
      rw [(ensure_ok cfg e he s.resp false).1 hb]
      refine ⟨rfl, rfl, ?_⟩
      rintro r ⟨⟩
      rfl
    | false =>
      obtain ⟨r', h1, h2⟩ := (ensure_ok cfg e he s.resp false).2 hb
      rw [h1]
      refine ⟨doc_eq e s _ _ h2.items rfl h2.seq, h2.direct, ?_⟩
      rintro r ⟨⟩
      rfl
  | makeSequence =>
    obtain ⟨r', h1, h2⟩ := makeSequence_ok cfg e he s.resp
    simp only [exec, Doc.step, h1]
    refine ⟨doc_eq e s _ _ h2.items rfl h2.seq, h2.direct, ?_⟩
    rintro r ⟨⟩
    rfl
  | freeze =>
    simp only [exec, Response.freeze, all_enc cfg e he, Doc.step]
    refine ⟨doc_eq e s _ _ (flat_bytes e _) rfl rfl, trivial, ?_⟩
    rintro r ⟨⟩
    rfl
  | write v =>
    simp only [exec, Doc.step, lazy, closed]
    obtain ⟨w1, w2, w3⟩ := write_ok cfg e he s v
    cases hc : s.closed with
    | true =>
      rw [w1 hc]
      refine ⟨rfl, rfl, ?_⟩
      rintro r ⟨⟩
      rfl
    | false =>
      cases hb : (!s.resp.body.isSequence && Blocked cfg s.resp) with
      | true =>
        rw [w2 hc hb]
        refine ⟨rfl, rfl, ?_⟩
        rintro r ⟨⟩
        rfl
      | false =>
        obtain ⟨s', h1, h2, h3, h4, h5, _⟩ := w3 hc hb
        rw [h1]
        refine ⟨?_, h4, ?_⟩
        · rw [doc_eq e s s' _ h5 (by rw [h2, hc]) h3, hc]
          rfl
        · rintro r ⟨⟩
          rfl
  | writelines vs =>
    cases vs with
    | nil =>
      refine ⟨rfl, rfl, ?_⟩
      rintro r ⟨⟩
      rfl
    | cons v vs =>
      simp only [exec, Doc.step, lazy, closed]
      obtain ⟨w1, w2, w3⟩ := write_ok cfg e he s v
      cases hc : s.closed with
      | true =>
        rw [writelines, w1 hc]
        refine ⟨rfl, rfl, ?_⟩
        rintro r ⟨⟩
        rfl
      | false =>
        cases hb : (!s.resp.body.isSequence && Blocked cfg s.resp) with
        | true =>
          rw [writelines, w2 hc hb]
          refine ⟨rfl, rfl, ?_⟩
          rintro r ⟨⟩
          rfl
        | false =>
          obtain ⟨s', h1, h2, h3, h4, h5⟩ := writelines_ok cfg e he (v :: vs) s hc hb (by simp)
          rw [h1]
          refine ⟨?_, h4, ?_⟩
          · rw [doc_eq e s s' _ h5 (by rw [h2, hc]) h3, hc]
            rfl
          · rintro r ⟨⟩
            rfl
  | close =>
    refine ⟨rfl, rfl, ?_⟩
    rintro r ⟨⟩
    rfl
  | flush =>
    refine ⟨rfl, rfl, ?_⟩
    rintro r ⟨⟩
    simp only [exec, check, closed]
    split <;> rfl
  | isatty =>
    refine ⟨rfl, rfl, ?_⟩
    rintro r ⟨⟩
    simp only [exec, check, closed]
    split <;> rfl
  | callOnClose n => exact ⟨rfl, rfl, by rintro r ⟨⟩⟩
  | setStatus t =>
    have : ((Response.setStatus s.resp t).1.body = s.resp.body) ∧ (Response.setStatus s.resp t).1.direct = s.resp.direct := by
      unfold Response.setStatus
      split <;> (try split) <;> exact ⟨rfl, rfl⟩
    refine ⟨?_, this.2, by rintro r ⟨⟩⟩
    simp only [exec, docOf, Doc.step, this.1]
  | setStatusCode n => exact ⟨rfl, rfl, by rintro r ⟨⟩⟩
  | header op => exact ⟨rfl, rfl, by rintro r ⟨⟩⟩

include he in
theorem run_ok (cs : List Call) (s : St) :
    docOf e (cs.foldl (fun s c => (exec cfg s c).1) s) = (docOf e s).run e (Blocked cfg s.resp) cs ∧
    (cs.foldl (fun s c => (exec cfg s c).1) s).resp.direct = s.resp.direct := by
  induction cs generalizing s with
  | nil => exact ⟨rfl, rfl⟩
  | cons c cs ih =>
    obtain ⟨h1, h2, _⟩ := step_ok cfg e he s c
    obtain ⟨g1, g2⟩ := ih (exec cfg s c).1
    rw [List.foldl_cons]
    refine ⟨?_, by rw [g2, h2]⟩
    rw [g1, h1]
    unfold Blocked
    rw [h2]
    rfl

include he in
/-- **C123.**  After any calls on a response and its stream, the body is what was set last and written since, and each call gives the
result that the specification says: `get_data` the whole body, calls on a closed stream `ValueError`, calls that would
need to read an iterator that may not be read `RuntimeError`, which change nothing. -/
theorem C123_body (r : Resp) (cs : List Call) (c : Call) :
    docOf e (RespBody.run cfg r cs) = (docOf e ⟨r, false⟩).run e (r.direct || !cfg.implicitSeq) cs ∧
    ∀ res, (((docOf e ⟨r, false⟩).run e (r.direct || !cfg.implicitSeq) cs).step e (r.direct || !cfg.implicitSeq) c).2 = some res →
      (exec cfg (RespBody.run cfg r cs) c).2 = res := by
  have key := run_ok cfg e he cs ⟨r, false⟩
  refine ⟨key.1, ?_⟩
  intro res h
  obtain ⟨_, _, h3⟩ := step_ok cfg e he (RespBody.run cfg r cs) c
  apply h3
  have h4 : (RespBody.run cfg r cs).resp.direct = r.direct := key.2
  have h5 : docOf e (RespBody.run cfg r cs) = _ := key.1
  unfold Blocked
  rw [h4, h5]
  exact h

include he in
/-- **C123, sending.**  That body is what the server gets, in pieces, unless the response must not have one; in direct passthrough mode, if the
pieces are bytes. -/
theorem C123_sent_partial (r : Resp) (method : Str) (hm : ¬ Bodyless method r.code) (hd : r.direct = true → ∀ x ∈ r.body.items, ∃ b, x = .bytes b) :
    ∃ pieces : List Bytes, (appIter method r).yields cfg = .ok (pieces.map .bytes) ∧ pieces.flatten = (docOf e ⟨r, false⟩).bytes := by
  unfold appIter
  rw [if_neg (fun h => hm ((bodyless_iff _ _).mp h))]
  refine ⟨r.body.items.map (bytesOf e), ?_, by rw [← List.flatMap_def]; rfl⟩
  cases h : r.direct with
  | false =>
    simp only [Bool.false_eq_true, if_false, AppIter.yields]
    rw [all_enc cfg e he]
  | true =>
    simp only [if_true, AppIter.yields]
    congr 1
    rw [List.map_map]
    symm
    have := hd h
    generalize r.body.items = xs at this
    induction xs with
    | nil => rfl
    | cons x xs ih =>
      obtain ⟨b, rfl⟩ := this x (by simp)
      rw [List.map_cons, ih (fun y hy => this y (by simp [hy]))]
      rfl

theorem one_value (lower : Str → Str) (h : HList) (k v : Str) (hv : LegalValue v) : getlist lower (Headers.set lower h k v []).1 k = [v] := by
  rw [getlist_set lower h k v k hv, if_pos rfl]

include he in
/-- **C123, lengths.**  Writing to the stream removes the announced length and no other header; `set_data` announces the length of the data
and `freeze` that of the whole body, and neither touches other headers. -/
theorem C123_length (ha : cfg.autoLength = true) (s : St) (v : Item) :
    ((exec cfg s (.write v)).2 = .ok none → getlist cfg.lower (exec cfg s (.write v)).1.resp.headers s%"Content-Length" = [] ∧
      SameOthers cfg.lower s%"Content-Length" s.resp.headers (exec cfg s (.write v)).1.resp.headers) ∧
    (getlist cfg.lower (exec cfg s (.setData v)).1.resp.headers s%"Content-Length" = [Py.natStr (bytesOf e v).length] ∧
      SameOthers cfg.lower s%"Content-Length" s.resp.headers (exec cfg s (.setData v)).1.resp.headers) ∧
    (getlist cfg.lower (exec cfg s .freeze).1.resp.headers s%"Content-Length" = [Py.natStr (docOf e s).bytes.length] ∧
      SameOthers cfg.lower s%"Content-Length" s.resp.headers (exec cfg s .freeze).1.resp.headers) := by
  refine ⟨?_, ⟨?_, ?_⟩, ?_, ?_⟩
  · intro h
    obtain ⟨w1, w2, w3⟩ := write_ok cfg e he s v
    simp only [exec] at h ⊢
    cases hc : s.closed with
    | true => rw [w1 hc] at h; cases h
    | false =>
      cases hb : (!s.resp.body.isSequence && Blocked cfg s.resp) with
      | true => rw [w2 hc hb] at h; cases h
      | false =>
        obtain ⟨s', h1, _, _, _, _, h6⟩ := w3 hc hb
        rw [h1, h6]
        exact ⟨by rw [getlist_delKey, if_pos rfl], sameOthers_del _ _ _⟩
  · simp only [exec, Response.setData, item_enc cfg e he, ha, if_true, setLength]
    exact one_value cfg.lower _ _ _ (natStr_legal _)
  · simp only [exec, Response.setData, item_enc cfg e he, ha, if_true, setLength]
    exact sameOthers_set _ _ _ _
  · simp only [exec, Response.freeze, all_enc cfg e he, setLength]
    have : ((s.resp.body.items.map (bytesOf e)).map List.length).sum = (docOf e s).bytes.length := by
      unfold docOf
      rw [List.flatMap_def, List.length_flatten]
    rw [this]
    exact one_value cfg.lower _ _ _ (natStr_legal _)
  · simp only [exec, Response.freeze, all_enc cfg e he, setLength]
    exact sameOthers_set _ _ _ _

include he in
/-- **C123, freezing.**  A frozen response has the same body as a list of bytes, its length as content length, and the entity tag it had
before or else that of its body; nothing else changes.  It fails, and changes nothing, if there is no tag and the body
is an iterator that may not be read. -/
theorem C123_freeze (hn : Names cfg.lower) (md5 : Bytes → Str) (hmd5 : ∀ b, '"' ∉ md5 b ∧ '\n' ∉ md5 b ∧ '\r' ∉ md5 b) (r : Resp) (noEtag : Bool) :
    let d := docOf e ⟨r, false⟩
    let bad := noEtag = false ∧ getlist cfg.lower r.headers s%"ETag" = [] ∧ d.lazy = true ∧ (r.direct || !cfg.implicitSeq) = true
    (bad → freezeTagged cfg md5 r noEtag = (r, .error .runtimeError)) ∧
    (¬ bad → ∃ r', freezeTagged cfg md5 r noEtag = (r', .ok ()) ∧ docOf e ⟨r', false⟩ = ⟨d.bytes, false, false⟩ ∧
      (∀ x ∈ r'.body.items, ∃ b, x = .bytes b) ∧ r'.status = r.status ∧ r'.code = r.code ∧
      getlist cfg.lower r'.headers s%"Content-Length" = [Py.natStr d.bytes.length] ∧
      (noEtag = true ∨ getlist cfg.lower r.headers s%"ETag" ≠ [] → getlist cfg.lower r'.headers s%"ETag" = getlist cfg.lower r.headers s%"ETag") ∧
      (noEtag = false → getlist cfg.lower r.headers s%"ETag" = [] → Verif.Desc.getEtag cfg.lower r'.headers = (some (md5 d.bytes), some false)) ∧
      SameExcept cfg.lower [s%"etag", s%"content-length"] r.headers r'.headers) := by
  intro d bad
  have lens : ∀ r' : Resp, ((r'.body.items.map (bytesOf e)).map List.length).sum = (docOf e ⟨r', false⟩).bytes.length := by
    intro r'
    unfold docOf
    rw [List.flatMap_def, List.length_flatten]
  have pieces : ∀ r' : Resp, ∀ x ∈ (Response.freeze cfg r').1.body.items, ∃ b, x = .bytes b := by
    intro r' x hx
    simp only [Response.freeze, all_enc cfg e he, Body.items, List.mem_map] at hx
    obtain ⟨b, _, rfl⟩ := hx
    exact ⟨b, rfl⟩
  have hd : ∀ r' : Resp, docOf e ⟨(Response.freeze cfg r').1, false⟩ = ⟨(docOf e ⟨r', false⟩).bytes, false, false⟩ := by
    intro r'
    simp only [Response.freeze, all_enc cfg e he]
    exact doc_eq e ⟨r', false⟩ ⟨_, false⟩ _ (flat_bytes e _) rfl rfl
  have hl : ∀ r' : Resp, getlist cfg.lower (Response.freeze cfg r').1.headers s%"Content-Length" = [Py.natStr (docOf e ⟨r', false⟩).bytes.length] := by
    intro r'
    simp only [Response.freeze, all_enc cfg e he, setLength]
    rw [lens]
    exact one_value cfg.lower _ _ _ (natStr_legal _)
  have ho : ∀ r' : Resp, SameOthers cfg.lower s%"Content-Length" r'.headers (Response.freeze cfg r').1.headers := by
    intro r'
    simp only [Response.freeze, all_enc cfg e he, setLength]
    exact sameOthers_set _ _ _ _
  have hok : ∀ r' : Resp, (Response.freeze cfg r').2 = .ok () ∧ (Response.freeze cfg r').1.status = r'.status ∧ (Response.freeze cfg r').1.code = r'.code := by
    intro r'
    simp only [Response.freeze, all_enc cfg e he]
    exact ⟨trivial, trivial, trivial⟩
  have tagNe : cfg.lower s%"ETag" ≠ cfg.lower s%"Content-Length" := by rw [hn.etag, hn.length]; decide
  have lenEx : ∀ r' : Resp, SameExcept cfg.lower [s%"etag", s%"content-length"] r'.headers (Response.freeze cfg r').1.headers := by
    intro r' x hx
    exact sameOthers_get cfg.lower _ x (ho r') (fun h => hx (by rw [h, hn.length]; simp))
  have plain : ∃ r', Response.freeze cfg r = (r', .ok ()) ∧ docOf e ⟨r', false⟩ = ⟨d.bytes, false, false⟩ ∧
      (∀ x ∈ r'.body.items, ∃ b, x = .bytes b) ∧ r'.status = r.status ∧ r'.code = r.code ∧
      getlist cfg.lower r'.headers s%"Content-Length" = [Py.natStr d.bytes.length] ∧
      getlist cfg.lower r'.headers s%"ETag" = getlist cfg.lower r.headers s%"ETag" ∧
      SameExcept cfg.lower [s%"etag", s%"content-length"] r.headers r'.headers :=
    ⟨(Response.freeze cfg r).1, Prod.ext rfl (hok r).1, hd r, pieces r, (hok r).2.1, (hok r).2.2, hl r,
      sameOthers_get cfg.lower _ _ (ho r) tagNe, lenEx r⟩
  have hc : Headers.contains cfg.lower r.headers s%"etag" = !(getlist cfg.lower r.headers s%"ETag").isEmpty := by
    have := (C07_lookups cfg.lower r.headers s%"ETag" s%"etag" (by rw [hn.etag, hn.etag']))
    rw [← this.2.2.2.2]
    unfold Headers.contains; rw [getItem_eq]
    cases getlist cfg.lower r.headers s%"ETag" <;> rfl
  unfold freezeTagged
  cases noEtag with
  | true =>
    refine ⟨fun h => absurd h.1 (by simp), fun _ => ?_⟩
    obtain ⟨r', h1, h2, h3, h4, h5, h6, h7, h8⟩ := plain
    exact ⟨r', h1, h2, h3, h4, h5, h6, fun _ => h7, fun h => absurd h (by simp), h8⟩
  | false =>
    simp only [Bool.false_eq_true, if_false]
    cases ht : getlist cfg.lower r.headers s%"ETag" with
    | cons t ts =>
      refine ⟨fun h => absurd h.2.1 (by simp [ht]), fun _ => ?_⟩
      rw [(C78_add cfg hn md5 hmd5 r false false).1 rfl (by simp [ht])]
      obtain ⟨r', h1, h2, h3, h4, h5, h6, h7, h8⟩ := plain
      exact ⟨r', h1, h2, h3, h4, h5, h6, fun _ => by rw [h7, ht], fun _ h => by simp at h, h8⟩
    | nil =>
      have hcon : Headers.contains cfg.lower r.headers s%"etag" = false := by rw [hc, ht]; rfl
      have hadd : ∀ x, Verif.Desc.addEtag cfg md5 r false false = x → x = match Response.getData cfg r with
        | (r', .error er) => (r', .error er)
        | (r', .ok b) => ({ r' with headers := (Verif.Desc.setEtag cfg.lower r'.headers (md5 b) false).1 }, (Verif.Desc.setEtag cfg.lower r'.headers (md5 b) false).2) := by
        rintro x rfl
        unfold Verif.Desc.addEtag
        rw [hcon]
        rfl
      cases hb : (!r.body.isSequence && Blocked cfg r) with
      | true =>
        have hbad : bad := by
          rw [Bool.and_eq_true] at hb
          exact ⟨rfl, ht, hb.1, hb.2⟩
        refine ⟨fun _ => ?_, fun h => absurd hbad h⟩
        rw [hadd _ rfl]
        unfold Response.getData
        rw [(ensure_ok cfg e he r false).1 hb]
      | false =>
        have hgood : ¬ bad := by
          rintro ⟨_, _, h1, h2⟩
          have : (!r.body.isSequence && Blocked cfg r) = true := by
            rw [Bool.and_eq_true]
            exact ⟨h1, h2⟩
          rw [hb] at this
          cases this
        refine ⟨fun h => absurd h hgood, fun _ => ?_⟩
        obtain ⟨r1, h1, h2⟩ := (ensure_ok cfg e he r false).2 hb
        have hg : Response.getData cfg r = (r1, .ok d.bytes) := by
          unfold Response.getData
          rw [h1]
          simp only [all_enc cfg e he]
          rw [← List.flatMap_def, h2.items]
          rfl
        obtain ⟨k1, k2, k3⟩ := C78_set_get cfg.lower r1.headers (md5 d.bytes) false (hmd5 _).1 (hmd5 _).2
        have ha : Verif.Desc.addEtag cfg md5 r false false = ({ r1 with headers := (Verif.Desc.setEtag cfg.lower r1.headers (md5 d.bytes) false).1 }, .ok ()) := by
          rw [hadd _ rfl, hg]
          simp only [k1]
        rw [ha]
        generalize hr2 : { r1 with headers := (Verif.Desc.setEtag cfg.lower r1.headers (md5 d.bytes) false).1 } = r2
        have e2 : docOf e ⟨r2, false⟩ = ⟨d.bytes, false, false⟩ := by
          subst hr2
          exact doc_eq e ⟨r, false⟩ ⟨_, false⟩ _ h2.items rfl h2.seq
        have h3 : r2.headers = (Verif.Desc.setEtag cfg.lower r1.headers (md5 d.bytes) false).1 := by subst hr2; rfl
        have h4 : r2.status = r.status ∧ r2.code = r.code := by subst hr2; exact ⟨h2.status, h2.code⟩
        refine ⟨(Response.freeze cfg r2).1, Prod.ext rfl (hok r2).1, by rw [hd r2, e2], pieces r2, by rw [(hok r2).2.1, h4.1], by rw [(hok r2).2.2, h4.2],
          by rw [hl r2, e2], ?_, ?_, ?_⟩
        · rintro (h | h) <;> simp at h
        · intro _ _
          have hsame := sameOthers_get cfg.lower _ s%"ETag" (ho r2) tagNe
          unfold Verif.Desc.getEtag at k2 ⊢
          rw [← k2, ← h3]
          congr 2
          rw [getItem_eq, getItem_eq, hsame]
        · intro x hx
          rw [lenEx r2 x hx, h3, sameOthers_get cfg.lower _ x k3 (fun h => hx (by rw [h, hn.etag]; simp)), h2.headers]

end
/-! ### Examples -/

/-- A configuration whose charset is total. -/
def bodyCfg : Cfg := { demo with encode := fun t => .ok (Utf8.encode t) }

/-- A response with an iterator as body. -/
def lazyResp : Resp := ⟨[(s%"Content-Length", s%"3")], s%"200 OK", 200, .stream [.text s%"é", .bytes b%"x"] true, [], false⟩

/-- The hypotheses hold, and the body is what the calls say. -/
example : (∀ t, bodyCfg.encode t = .ok (Utf8.encode t)) ∧ ¬ Bodyless s%"GET" lazyResp.code :=
  ⟨fun _ => rfl, by unfold Bodyless; decide +kernel⟩

example : docOf Utf8.encode (RespBody.run bodyCfg lazyResp [.write (.text s%"y"), .close, .write (.bytes b%"z"), .getData]) =
    ⟨[195, 169, 120, 121], true, false⟩ ∧
    (exec bodyCfg (RespBody.run bodyCfg lazyResp [.write (.text s%"y"), .close]) (.write (.bytes b%"z"))).2 = .error .valueError ∧
    (RespBody.run bodyCfg lazyResp [.write (.text s%"y")]).resp.headers = [] ∧
    docOf Utf8.encode (RespBody.run bodyCfg lazyResp [.write (.text s%"y"), .setData (.text s%"ab"), .writelines [.bytes b%"c", .text s%"d"]]) =
    ⟨b%"abcd", false, false⟩ := by decide +kernel

/-- C123 fails in direct passthrough mode for text: the server is given the text instead of its bytes. -/
theorem C123_sent_false : ∃ r : Resp, ¬ Bodyless s%"GET" r.code ∧
    (appIter s%"GET" r).yields bodyCfg = .ok [.text s%"é", .bytes b%"x"] ∧ (docOf Utf8.encode ⟨r, false⟩).bytes = [195, 169, 120] :=
  ⟨{ lazyResp with direct := true }, by unfold Bodyless; decide +kernel, by decide +kernel, by decide +kernel⟩

/-- An iterator that may not be read. -/
example : (exec bodyCfg ⟨{ lazyResp with direct := true }, false⟩ .getData).2 = .error .runtimeError ∧
    (exec bodyCfg ⟨{ lazyResp with direct := true }, false⟩ (.write (.bytes b%"z"))).2 = .error .runtimeError := by decide +kernel

example : (freezeTagged bodyCfg (fun _ => s%"d41d") lazyResp false).1.headers = [(s%"Content-Length", s%"3"), (s%"ETag", s%"\"d41d\"")] ∧
    (freezeTagged bodyCfg (fun _ => s%"d41d") lazyResp false).2 = .ok () ∧
    (freezeTagged bodyCfg (fun _ => s%"d41d") { lazyResp with direct := true } false).2 = .error .runtimeError := by decide +kernel

end Verif.Props.RespBodyP
