import Verif.Props.Response
import Verif.Utf8Lemmas
import Verif.Spec.Wire
/-! Property theorems C142: the answers written on one connection are read back as they are. -/
namespace Verif.Props.WireP
open Verif Verif.Headers Verif.Spec Verif.Response Verif.Props.Resp
open Verif.Spec.Wire

/-! ### Reading what was written -/

theorem upTo_append (l s : Str) (h : '\n' ∉ l) : upTo (l ++ '\n' :: s) = some (l, s) := by
  induction l with
  | nil => simp [upTo]
  | cons c l ih =>
    simp only [List.mem_cons, not_or] at h
    have hc : ¬ c = '\n' := fun e => h.1 e.symm
    simp [upTo, hc, ih h.2]

theorem line_append (l s : Str) (h : '\n' ∉ l) : line (l ++ s%"\r\n" ++ s) = some (l, s) := by
  have he : l ++ s%"\r\n" ++ s = (l ++ ['\r']) ++ '\n' :: s := by simp
  rw [he]
  unfold line
  rw [upTo_append _ _ (by simp [h])]
  simp

theorem trim_blank (c : Char) (s : Str) (h : blank c = true) : trim (c :: s) = trim s := by
  unfold trim
  simp [h]

theorem takeWhile_stop {p : Char → Bool} (n v : Str) (c : Char) (hn : ∀ x ∈ n, p x = true) (hc : p c = false) :
    (n ++ c :: v).takeWhile p = n ∧ (n ++ c :: v).dropWhile p = c :: v := by
  induction n with
  | nil => simp [hc]
  | cons x n ih =>
    have := ih (fun y hy => hn y (by simp [hy]))
    simp [hn x (by simp), this]

theorem field_written (n v : Str) (hn : FieldName n) : field (n ++ s%": " ++ v) = some (n, trim v) := by
  obtain ⟨⟨c, hc, hb⟩, h1, -, -⟩ := hn
  have he : n ++ s%": " ++ v = n ++ ':' :: (' ' :: v) := by simp
  have hp : ∀ x ∈ n, (x != ':') = true := by
    intro x hx; simp only [bne_iff_ne, ne_eq]; rintro rfl; exact h1 hx
  obtain ⟨ht, hd⟩ := takeWhile_stop (p := (· != ':')) n (' ' :: v) ':' hp (by decide)
  have hh : (n ++ ':' :: (' ' :: v)).head? = some c := by
    cases n with
    | nil => cases hc
    | cons x n => exact hc
  rw [he]
  unfold field
  rw [hh]
  simp only [hb, Bool.false_eq_true, if_false, hd, ht]
  rw [trim_blank _ _ (by decide)]

/-- A header line that is read as one. -/
def GoodField (p : Str × Str) : Prop := FieldName p.1 ∧ LegalValue p.2

theorem fields_written (fs : List (Str × Str)) (h : ∀ f ∈ fs, GoodField f) (body : Str) (n : Nat)
    (hn : fs.length < n) :
    fields n ((fs.flatMap fun f => f.1 ++ s%": " ++ f.2 ++ s%"\r\n") ++ s%"\r\n" ++ body) =
      some (fs.map fun f => (f.1, trim f.2), body) := by
  induction fs generalizing n with
  | nil =>
    cases n with
    | zero => simp at hn
    | succ n =>
      have := line_append [] body (by simp)
      simp only [List.nil_append] at this
      simp only [List.flatMap_nil, List.nil_append, fields, this, if_true, List.map_nil]
  | cons f fs ih =>
    cases n with
    | zero => simp at hn
    | succ n =>
      have hf := h f (by simp)
      have hl : '\n' ∉ f.1 ++ s%": " ++ f.2 := by
        simp only [List.mem_append, not_or]
        exact ⟨⟨hf.1.2.2.1, by decide⟩, hf.2.1⟩
      have hne : f.1 ++ s%": " ++ f.2 ≠ [] := by simp
      have := line_append (f.1 ++ s%": " ++ f.2)
        ((fs.flatMap fun f => f.1 ++ s%": " ++ f.2 ++ s%"\r\n") ++ s%"\r\n" ++ body) hl
      have he : ((f :: fs).flatMap fun f => f.1 ++ s%": " ++ f.2 ++ s%"\r\n") ++ s%"\r\n" ++ body =
          (f.1 ++ s%": " ++ f.2) ++ s%"\r\n" ++
            ((fs.flatMap fun f => f.1 ++ s%": " ++ f.2 ++ s%"\r\n") ++ s%"\r\n" ++ body) := by
        simp only [List.flatMap_cons, List.append_assoc]
      rw [he, fields, this]
      simp only [hne, if_false]
      rw [field_written _ _ hf.1, ih (fun g hg => h g (by simp [hg])) n (by simp at hn; omega)]
      rfl

theorem isDig_digit (c : Char) (h : Py.IsDig c) : digit c = true := by
  unfold digit
  simpa [Py.IsDig] using h

theorem number_natStr (n : Nat) : number (Py.natStr n) = some n := by
  unfold number
  rw [if_pos ⟨Py.natStr_ne_nil n, List.all_eq_true.mpr fun c hc => isDig_digit c (Py.natStr_digits n c hc)⟩,
    Py.natStr_val]

theorem trim_natStr (n : Nat) : trim (Py.natStr n) = Py.natStr n := by
  have hb : ∀ c ∈ Py.natStr n, blank c = false := by
    intro c hc
    have h := Py.natStr_digits n c hc
    unfold blank
    simp only [Bool.or_eq_false_iff, beq_eq_false_iff_ne, ne_eq]
    constructor <;> (rintro rfl; simp [Py.IsDig] at h)
  have hd : ∀ s : Str, (∀ c ∈ s, blank c = false) → s.dropWhile blank = s := by
    intro s hs
    cases s with
    | nil => rfl
    | cons c s => simp [hs c (by simp)]
  unfold trim
  rw [hd _ hb, hd _ (fun c hc => hb c (List.mem_reverse.mp hc)), List.reverse_reverse]

theorem empty_statusLine (head : Bool) (code : Nat) (s : Str) (h : StatusLine code s) :
    empty head s = (head || (decide (100 ≤ code ∧ code ≤ 199) || code == 204 || code == 304)) := by
  obtain ⟨-, -, t, rfl, -, -⟩ := h
  unfold empty
  rw [(takeWhile_stop (p := digit) (Py.natStr code) t ' '
    (fun c hc => isDig_digit c (Py.natStr_digits code c hc)) (by decide)).1, number_natStr]

/-- The body that a client takes from the text after the head. -/
theorem read_written (lower : Str → Str) (head : Bool) (code : Nat) (status : Str) (hs : StatusLine code status)
    (fs : List (Str × Str)) (hf : ∀ f ∈ fs, GoodField f) (body : Str) :
    readOne lower head (written status fs body) =
      if empty head status then some (⟨status, fs.map fun f => (f.1, trim f.2), []⟩, body)
      else match lengths lower (fs.map fun f => (f.1, trim f.2)) with
        | [] => some (⟨status, fs.map fun f => (f.1, trim f.2), body⟩, [])
        | [v] => match number v with
          | some n =>
            if n ≤ body.length then some (⟨status, fs.map fun f => (f.1, trim f.2), body.take n⟩, body.drop n)
            else none
          | none => none
        | _ => none := by
  have hl : '\n' ∉ s%"HTTP/1.1 " ++ status := by
    obtain ⟨-, -, t, rfl, h1, h2⟩ := hs
    simp only [List.mem_append, List.mem_cons, not_or]
    exact ⟨by decide, Py.natStr_not_mem code _ (by decide), by decide, h1⟩
  have he : written status fs body = (s%"HTTP/1.1 " ++ status) ++ s%"\r\n" ++
      ((fs.flatMap fun f => f.1 ++ s%": " ++ f.2 ++ s%"\r\n") ++ s%"\r\n" ++ body) := by
    simp only [written, List.append_assoc]
  have hlen : fs.length <
      ((fs.flatMap fun f => f.1 ++ s%": " ++ f.2 ++ s%"\r\n") ++ s%"\r\n" ++ body).length + 1 := by
    have : ∀ fs : List (Str × Str),
        fs.length ≤ (fs.flatMap fun f => f.1 ++ s%": " ++ f.2 ++ s%"\r\n").length := by
      intro fs
      induction fs with
      | nil => simp
      | cons f fs ih => simp only [List.flatMap_cons, List.length_append, List.length_cons]; simp only [List.length_nil]; omega
    have := this fs
    simp only [List.length_append] at this ⊢
    omega
  rw [he]
  unfold readOne
  rw [line_append _ _ hl]
  have ht : (s%"HTTP/1.1 " ++ status).take 9 = s%"HTTP/1.1 " := List.take_left' rfl
  have hd : (s%"HTTP/1.1 " ++ status).drop 9 = status := List.drop_left' rfl
  simp only [ht, hd, ne_eq, not_true_eq_false, if_false]
  rw [fields_written fs hf body _ hlen]
  rfl

/-! ### What a response hands to the server -/

/-- The bytes of the elements of an iterable; text is refused by the server. -/
def bytesOf : List Item → Option Bytes
  | [] => some []
  | .bytes b :: xs => (bytesOf xs).map (b ++ ·)
  | .text _ :: _ => none

theorem bytesOf_length (xs : List Item) (b : Bytes) (h : bytesOf xs = some b) :
    b.length = (xs.map Item.len).sum := by
  induction xs generalizing b with
  | nil => cases h; rfl
  | cons x xs ih =>
    cases x with
    | text s => cases h
    | bytes c =>
      simp only [bytesOf, Option.map_eq_some_iff] at h
      obtain ⟨d, hd, rfl⟩ := h
      simp [ih d hd, Item.len]

/-- Names given to a header call. -/
def opNames : Headers.Op → List Str
  | .add k _ _ => [k]
  | .set k _ _ => [k]
  | .setIndex _ k _ => [k]
  | .setSlice _ _ ps => ps.map (·.1)
  | .extend ps => ps.map (·.1)
  | .setdefault k _ => [k]
  | _ => []

theorem set_names (lower : Str → Str) (P : Str → Prop) (l : HList) (k v : Str) (kw)
    (h : ∀ p ∈ l, P p.1) (hk : P k) : ∀ p ∈ (Headers.set lower l k v kw).1, P p.1 := by
  intro p hp
  by_cases hv : LegalValue (effValue v kw)
  · rcases set_legal lower l k v kw hv with ⟨_, e⟩ | ⟨pre, q, post, e, _, _, h3⟩
    · rw [e] at hp
      simp only [List.mem_append, List.mem_singleton] at hp
      rcases hp with hp | rfl
      · exact h p hp
      · exact hk
    · rw [h3] at hp
      subst e
      simp only [List.mem_append, List.mem_cons, List.mem_filter] at hp
      rcases hp with hp | rfl | hp
      · exact h p (by simp [hp])
      · exact hk
      · exact h p (by simp [hp.1])
  · rw [set_illegal lower l k v kw hv] at hp; exact h p hp

/-- Header calls store no names but those they are given. -/
theorem names_step (lower : Str → Str) (P : Str → Prop) (l : HList) (op : Headers.Op)
    (h : ∀ p ∈ l, P p.1) (ho : ∀ k ∈ opNames op, P k) : ∀ p ∈ Headers.step lower l op, P p.1 := by
  cases op with
  | add k v kw =>
    simp only [Headers.step]
    by_cases hv : LegalValue (effValue v kw)
    · rw [add_legal l k v kw hv]
      intro p hp
      simp only [List.mem_append, List.mem_singleton] at hp
      rcases hp with hp | rfl
      · exact h p hp
      · exact ho _ (by simp [opNames])
    · rw [add_illegal l k v kw hv]; exact h
  | set k v kw => exact set_names lower P l k v kw h (ho k (by simp [opNames]))
  | setIndex i k v =>
    simp only [Headers.step, setIndex, validate_ok]
    by_cases hv : LegalValue v
    · simp only [hv, if_true]
      split
      · intro p hp
        rcases List.mem_or_eq_of_mem_set hp with hp | rfl
        · exact h p hp
        · exact ho _ (by simp [opNames])
      · exact h
    · simp only [hv, if_false]; exact h
  | setSlice i j ps =>
    simp only [Headers.step, setSlice]
    rcases validateAll_ok ps with hv | hv
    · rw [hv]
      intro p hp
      simp only [List.mem_append] at hp
      rcases hp with (hp | hp) | hp
      · exact h p (List.mem_of_mem_take hp)
      · exact ho _ (List.mem_map.mpr ⟨p, hp, rfl⟩)
      · exact h p (List.mem_of_mem_drop hp)
    · rw [hv]; exact h
  | delKey k => intro p hp; exact h p (List.mem_filter.mp hp).1
  | delIndex i =>
    simp only [Headers.step, delIndex]
    split
    · intro p hp; exact h p (List.mem_of_mem_eraseIdx hp)
    · exact h
  | extend ps =>
    simp only [Headers.step, extend_eq]
    intro p hp
    simp only [List.mem_append] at hp
    rcases hp with hp | hp
    · exact h p hp
    · exact ho _ (List.mem_map.mpr ⟨p, (List.takeWhile_sublist _).subset hp, rfl⟩)
  | popKey k d =>
    simp only [Headers.step, popKey]
    split
    · intro p hp; exact h p (List.mem_filter.mp hp).1
    · split <;> exact h
  | popLast =>
    simp only [Headers.step, popLast]
    split
    · intro p hp; exact h p ((List.dropLast_sublist l).subset hp)
    · exact h
  | popIndex i =>
    simp only [Headers.step, popIndex]
    split
    · split
      · intro p hp; exact h p (List.mem_of_mem_eraseIdx hp)
      · exact h
    · exact h
  | setdefault k v =>
    simp only [Headers.step, setdefault]
    split
    · exact h
    · have := set_names lower P l k v [] h (ho k (by simp [opNames]))
      split <;> (rename_i he; rw [he] at this; exact this)
  | clear => simp [Headers.step]

theorem good_set (lower : Str → Str) (l : HList) (k v : Str) (kw) (h : ∀ p ∈ l, GoodField p)
    (hk : FieldName k) : ∀ p ∈ (Headers.set lower l k v kw).1, GoodField p := fun p hp =>
  ⟨set_names lower FieldName l k v kw (fun p hp => (h p hp).1) hk p hp,
    C06_step lower l (.set k v kw) (fun p hp => (h p hp).2) p hp⟩

theorem good_step (lower : Str → Str) (l : HList) (op : Headers.Op) (h : ∀ p ∈ l, GoodField p)
    (ho : ∀ k ∈ opNames op, FieldName k) : ∀ p ∈ Headers.step lower l op, GoodField p := fun p hp =>
  ⟨names_step lower FieldName l op (fun p hp => (h p hp).1) ho p hp,
    C06_step lower l op (fun p hp => (h p hp).2) p hp⟩

theorem fieldName_length : FieldName s%"Content-Length" :=
  ⟨⟨'C', rfl, rfl⟩, by decide, by decide, by decide⟩

theorem fieldName_location : FieldName s%"Location" :=
  ⟨⟨'L', rfl, rfl⟩, by decide, by decide, by decide⟩

theorem fieldName_contentLocation : FieldName s%"Content-Location" :=
  ⟨⟨'C', rfl, rfl⟩, by decide, by decide, by decide⟩

theorem fieldName_contentType : FieldName s%"Content-Type" :=
  ⟨⟨'C', rfl, rfl⟩, by decide, by decide, by decide⟩

/-- The statuses and header names that a call gives. -/
def PlainOp : Response.Op → Prop
  | .setStatus s => ∃ n, StatusLine n s
  | .setStatusCode n => 100 ≤ n ∧ n ≤ 999
  | .header op => ∀ k ∈ opNames op, FieldName k
  | _ => True

theorem makeSequence_headers (cfg : Cfg) (r : Resp) : (makeSequence cfg r).1.headers = r.headers := by
  unfold makeSequence
  split
  · rfl
  · split <;> rfl

theorem ensure_headers (cfg : Cfg) (r : Resp) (m : Bool) : (ensureSequence cfg r m).1.headers = r.headers := by
  unfold ensureSequence
  split
  · cases m <;> rfl
  · split
    · rfl
    · split
      · rfl
      · exact makeSequence_headers cfg r

theorem headers_good (cfg : Cfg) (r : Resp) (op : Response.Op) (h : ∀ p ∈ r.headers, GoodField p)
    (ho : PlainOp op) : ∀ p ∈ (Response.step cfg r op).headers, GoodField p := by
  cases op with
  | setData v =>
    simp only [Response.step, setData]
    split
    · exact h
    · simp only
      split
      · exact good_set _ _ _ _ _ h fieldName_length
      · exact h
  | getData =>
    simp only [Response.step, ensure_fst_getData]
    rw [ensure_headers cfg r false]; exact h
  | calcLength =>
    simp only [Response.step, ensure_fst_calc]
    rw [ensure_headers cfg r false]; exact h
  | makeSequence =>
    simp only [Response.step]
    rw [makeSequence_headers cfg r]; exact h
  | freeze =>
    simp only [Response.step, freeze]
    split
    · exact h
    · exact good_set _ _ _ _ _ h fieldName_length
  | write v =>
    have he := ensure_headers cfg r true
    simp only [Response.step, write]
    split
    · rename_i e; rw [e] at he; simp only at he ⊢; rw [he]; exact h
    · rename_i e
      rw [e] at he; simp only at he ⊢; rw [he]
      intro p hp
      exact h p (List.mem_filter.mp hp).1
  | callOnClose n => exact h
  | setStatus s =>
    simp only [Response.step, setStatus]
    split
    · exact h
    · split <;> exact h
  | setStatusCode n => exact h
  | header op => exact good_step _ _ op h ho

/-- The reason phrases stand in one line, as those of `HTTP_STATUS_CODES` do. -/
def PlainReasons (cfg : Cfg) : Prop := ∀ n t, cfg.reason n = some t → LegalValue t

/-- The status line is as it should be, and its number is the status code. -/
def GoodStatus (r : Resp) : Prop := ∃ n : Nat, r.code = n ∧ StatusLine n r.status

theorem setStatusCode_good (cfg : Cfg) (hr : PlainReasons cfg) (r : Resp) (n : Int)
    (h : 100 ≤ n ∧ n ≤ 999) : GoodStatus (setStatusCode cfg r n) := by
  obtain ⟨m, rfl⟩ : ∃ m : Nat, n = m := ⟨n.toNat, by omega⟩
  refine ⟨m, rfl, by omega, by omega, ?_⟩
  simp only [setStatusCode]
  split
  · rename_i t ht
    exact ⟨t, by simp [Py.intStr], (hr _ _ ht).1, (hr _ _ ht).2⟩
  · exact ⟨s%"UNKNOWN", by simp [Py.intStr], by decide, by decide⟩

theorem setStatus_good (r : Resp) (s : Str) (n : Nat) (h : StatusLine n s) :
    GoodStatus (setStatus r s).1 := by
  have h' := h
  obtain ⟨-, -, t, rfl, -, -⟩ := h
  have hw : firstWord (Py.natStr n ++ ' ' :: t) = some (Py.natStr n) := by
    have := firstWord_intStr (n : Int) t
    simpa [Py.intStr] using this
  unfold setStatus
  rw [hw]
  simp only [Py.intOf_natStr]
  exact ⟨n, rfl, h'⟩

theorem status_good (cfg : Cfg) (hr : PlainReasons cfg) (r : Resp) (op : Response.Op) (h : GoodStatus r)
    (ho : PlainOp op) : GoodStatus (Response.step cfg r op) := by
  rcases status_step cfg r op with ⟨h1, h2⟩ | ⟨s, rfl⟩ | ⟨n, rfl⟩
  · obtain ⟨n, hn, hs⟩ := h
    exact ⟨n, by rw [h2, hn], by rw [h1]; exact hs⟩
  · obtain ⟨n, hn⟩ := ho
    exact setStatus_good r s n hn
  · exact setStatusCode_good cfg hr r n ho

/-- What is asked of a response: header lines that can be read, and a status line. -/
def Plain (r : Resp) : Prop := (∀ p ∈ r.headers, GoodField p) ∧ GoodStatus r

theorem plain_run (cfg : Cfg) (hr : PlainReasons cfg) (ops : List Response.Op) (r : Resp) (h : Plain r)
    (ho : ∀ op ∈ ops, PlainOp op) : Plain (Response.run cfg r ops) := by
  induction ops generalizing r with
  | nil => exact h
  | cons op ops ih =>
    have h1 := ho op (by simp)
    exact ih _ ⟨headers_good cfg r op h.1 h1, status_good cfg hr r op h.2 h1⟩ (fun o hm => ho o (by simp [hm]))

theorem plain_init (cfg : Cfg) (hr : PlainReasons cfg) (headers : HList) (hh : ∀ p ∈ headers, GoodField p)
    (ct : Option Str) (code : Int) (hc : 100 ≤ code ∧ code ≤ 999) (direct : Bool) (b : Init) (r : Resp)
    (h : Response.init cfg headers ct code direct b = .ok r) : Plain r := by
  have main : ∀ h1 : HList, (∀ p ∈ h1, GoodField p) → Response.init cfg h1 none code direct b = .ok r →
      Plain r := by
    intro h1 g1 h
    have hp : Plain (setStatusCode cfg ⟨h1, [], 0, .list [], [], direct⟩ code) :=
      ⟨g1, setStatusCode_good cfg hr _ code hc⟩
    unfold Response.init at h
    cases b with
    | none => cases h; exact hp
    | body bd => cases h; exact hp
    | data v =>
      simp only at h
      split at h
      · rename_i r' _ he
        cases h
        have := plain_run cfg hr [.setData v] _ hp (by intro op ho; simp at ho; subst ho; trivial)
        simp only [Response.run, List.foldl_cons, List.foldl_nil, Response.step, he] at this
        exact this
      · cases h
  cases ct with
  | none => exact main headers hh h
  | some t => exact main _ (good_set _ _ _ t [] hh fieldName_contentType) h

theorem good_wsgi (cfg : Cfg) (iri absolute : Str → Except PyErr Str) (r : Resp)
    (h : ∀ p ∈ r.headers, GoodField p) (hs : HList) (he : wsgiHeaders cfg iri absolute r = .ok hs) :
    ∀ p ∈ hs, GoodField p := by
  unfold wsgiHeaders at he
  split at he
  · cases he
  rename_i h1 e1
  have g1 : ∀ p ∈ h1, GoodField p := by
    unfold fixLocation at e1
    split at e1
    · cases e1; exact h
    · split at e1
      · cases e1
      · split at e1
        · cases e1
        · rename_i l _
          split at e1
          · cases e1; exact h
          · have := good_set cfg.lower r.headers s%"Location" l [] h fieldName_location
            split at e1
            · cases e1
            · rename_i e; cases e1; rw [e] at this; exact this
  split at he
  · cases he
  rename_i h2 e2
  have g2 : ∀ p ∈ h2, GoodField p := by
    unfold fixContentLocation at e2
    split at e2
    · cases e2; exact g1
    · split at e2
      · cases e2
      · rename_i l _
        have := good_set cfg.lower h1 s%"Content-Location" l [] g1 fieldName_contentLocation
        split at e2
        · cases e2
        · rename_i e; cases e2; rw [e] at this; exact this
  unfold fixLength at he
  split at he
  · cases he; exact good_set _ _ _ _ _ g2 fieldName_length
  · split at he
    · unfold dropEntity at he
      have := good_step cfg.lower h2 (.setSlice 0 h2.length
        (Headers.removeEntityHeaders cfg.lower h2 [s%"expires", s%"content-location"])) g2 (by
          intro k hk
          simp only [opNames, List.mem_map] at hk
          obtain ⟨p, hp, rfl⟩ := hk
          exact (g2 p (List.mem_filter.mp hp).1).1)
      simp only [Headers.step] at this
      split at he
      · cases he
      · rename_i e; cases he; rw [e] at this; exact this
    · split at he
      · cases he; exact good_set _ _ _ _ _ g2 fieldName_length
      · cases he; exact g2

/-! ### Connections -/

/-- A request and the response made for it: the arguments of the constructor, the calls made on
the response, and what stands for `iri_to_uri` and for joining with the address of the request. -/
structure Exchange where
  method : Str
  headers : HList
  contentType : Option Str
  code : Int
  direct : Bool
  body : Init
  ops : List Response.Op
  iri : Str → Except PyErr Str
  absolute : Str → Except PyErr Str

/-- The response when it is called, or the error of the constructor. -/
def Exchange.response (cfg : Cfg) (x : Exchange) : Except PyErr Resp :=
  match Response.init cfg x.headers x.contentType x.code x.direct x.body with
  | .error e => .error e
  | .ok r => .ok (Response.run cfg r x.ops)

/-- The message meant: the status line of the response, the headers that `get_wsgi_headers` gives,
and the bytes of the iterable that `get_app_iter` gives. -/
def Exchange.meant (cfg : Cfg) (x : Exchange) : Option Message :=
  match x.response cfg with
  | .error _ => none
  | .ok r =>
    match wsgiHeaders cfg x.iri x.absolute r, (appIter x.method r).yields cfg with
    | .ok h, .ok ys => (bytesOf ys).map fun b => ⟨r.status, h, Utf8.latin1 b⟩
    | _, _ => none

/-- What a server writes for the message, calling the response with `start_response`. -/
def text (m : Message) : Str := written m.status m.fields m.body

/-- The message as it is read: blanks around values are not part of them. -/
def seen (m : Message) : Message := { m with fields := m.fields.map fun f => (f.1, trim f.2) }

/-- What is asked of an exchange: `Content-Length` is left to the library, text in lists takes as
many bytes as it has characters, header names and status lines are fit to be sent, and the values
of the headers given to the constructor are. -/
structure Proper (cfg : Cfg) (x : Exchange) : Prop where
  fields : ∀ p ∈ x.headers, GoodField p
  noLength : ∀ p ∈ x.headers, cfg.lower p.1 ≠ s%"content-length"
  code : 100 ≤ x.code ∧ x.code ≤ 999
  body : ∀ bd, x.body = .body bd → bd.isSequence = true → ∀ i ∈ bd.items, Fit cfg i
  ops : ∀ op ∈ x.ops, OkOp cfg op ∧ PlainOp op

/-- The end of the message can be told: the body is a sequence, or there is none. -/
def Framed (cfg : Cfg) (x : Exchange) : Prop :=
  ∀ r, x.response cfg = .ok r → r.body.isSequence = true ∨ Bodyless x.method r.code

theorem lengths_map (lower : Str → Str) (hl : lower s%"Content-Length" = s%"content-length") (h : HList) :
    lengths lower (h.map fun f => (f.1, trim f.2)) = (getlist lower h s%"Content-Length").map trim := by
  rw [getlist_eq, hl]
  unfold lengths
  rw [List.filter_map, List.map_map, List.map_map]
  rfl

theorem latin1_length (b : Bytes) : (Utf8.latin1 b).length = b.length := by simp [Utf8.latin1]

theorem written_append (status : Str) (fs : List (Str × Str)) (body s : Str) :
    written status fs body ++ s = written status fs (body ++ s) := by
  simp only [written, List.append_assoc]

/-- One message is read as it was meant and no more is taken from the connection.  When the body
comes from an iterator and no length is announced, it must be the last one. -/
theorem C142_message_partial (cfg : Cfg) (hl : LowerNames cfg.lower) (ha : cfg.autoLength = true)
    (hr : PlainReasons cfg) (x : Exchange) (hx : Proper cfg x) (m : Message) (hm : x.meant cfg = some m)
    (rest : Str) (hrest : Framed cfg x ∨ rest = []) :
    readOne cfg.lower (x.method == s%"HEAD") (text m ++ rest) = some (seen m, rest) := by
  unfold Exchange.meant at hm
  split at hm
  · cases hm
  rename_i r hresp
  split at hm
  · rename_i h ys hh hy
    simp only [Option.map_eq_some_iff] at hm
    obtain ⟨b, hb, rfl⟩ := hm
    have hresp' := hresp
    unfold Exchange.response at hresp
    split at hresp
    · cases hresp
    rename_i r0 hr0
    cases hresp
    have hp : Plain (Response.run cfg r0 x.ops) :=
      plain_run cfg hr x.ops r0 (plain_init cfg hr _ hx.fields _ _ hx.code _ _ r0 hr0) (fun op ho => (hx.ops op ho).2)
    obtain ⟨n, hn, hs⟩ := hp.2
    have hg := good_wsgi cfg x.iri x.absolute _ hp.1 h hh
    unfold text seen
    simp only
    rw [written_append, read_written cfg.lower _ n _ hs h hg, empty_statusLine _ n _ hs]
    have hbl : ((x.method == s%"HEAD") || (decide (100 ≤ n ∧ n ≤ 199) || n == 204 || n == 304)) = true ↔
        Bodyless x.method (Response.run cfg r0 x.ops).code := by
      rw [hn]
      unfold Bodyless
      simp only [Bool.or_eq_true, beq_iff_eq, decide_eq_true_eq]
      apply or_congr Iff.rfl
      omega
    by_cases hbody : Bodyless x.method (Response.run cfg r0 x.ops).code
    · rw [if_pos (hbl.mpr hbody)]
      rw [C51_no_body cfg _ _ hbody] at hy
      cases hy
      cases hb
      rfl
    · rw [if_neg (fun e => hbody (hbl.mp e)), lengths_map _ hl.length]
      have hmeth : x.method ≠ s%"HEAD" := fun e => hbody (.inl e)
      obtain ⟨h1, h2⟩ := C52_length_partial cfg hl ha x.headers hx.noLength x.contentType x.code x.direct x.body
        hx.body r0 hr0 x.ops (fun op ho => (hx.ops op ho).1) x.iri x.absolute x.method hmeth h hh ys hy
      have hlen := bytesOf_length ys b hb
      have hfound : getlist cfg.lower h s%"Content-Length" = [Py.natStr (ys.map Item.len).sum] →
          (match (getlist cfg.lower h s%"Content-Length").map trim with
            | [] => some ((⟨(Response.run cfg r0 x.ops).status, h.map fun f => (f.1, trim f.2),
                Utf8.latin1 b ++ rest⟩ : Message), ([] : Str))
            | [v] => match number v with
              | some n =>
                if n ≤ (Utf8.latin1 b ++ rest).length then
                  some (⟨(Response.run cfg r0 x.ops).status, h.map fun f => (f.1, trim f.2),
                    (Utf8.latin1 b ++ rest).take n⟩, (Utf8.latin1 b ++ rest).drop n)
                else none
              | none => none
            | _ => none) =
          some (⟨(Response.run cfg r0 x.ops).status, h.map fun f => (f.1, trim f.2), Utf8.latin1 b⟩, rest) := by
        intro e
        rw [e, ← hlen]
        simp only [List.map_cons, List.map_nil, trim_natStr, number_natStr]
        rw [if_pos (by simp [latin1_length]), List.take_left' (latin1_length b), List.drop_left' (latin1_length b)]
      rcases hrest with hrest | rfl
      · rcases hrest _ hresp' with hsq | hbl'
        · exact hfound (h2 hsq (fun e => hbody (.inr (.inr (.inr e)))))
        · exact absurd hbl' hbody
      · rcases h1 with h1 | h1
        · rw [h1, List.append_nil]; rfl
        · exact hfound h1
  · cases hm

/-- C142.  On one connection, the answers are read one after the other as they were meant.
Missing: `Content-Length` is left to the library; header names, status lines and the values of
headers given to the constructor are fit to be sent; only the last body may come from an iterator
of unknown length. -/
theorem C142_connection_partial (cfg : Cfg) (hl : LowerNames cfg.lower) (ha : cfg.autoLength = true)
    (hr : PlainReasons cfg) (xs : List Exchange) (x : Exchange) (hxs : ∀ y ∈ xs, Proper cfg y ∧ Framed cfg y)
    (hx : Proper cfg x) (ms : List Message) (hms : (xs ++ [x]).map (·.meant cfg) = ms.map some) :
    readAll cfg.lower ((xs ++ [x]).map (·.method == s%"HEAD")) (ms.flatMap text) = some (ms.map seen) := by
  induction xs generalizing ms with
  | nil =>
    cases ms with
    | nil => cases hms
    | cons m ms =>
      simp only [List.nil_append, List.map_cons, List.map_nil, List.cons.injEq] at hms
      obtain ⟨hm, h0⟩ := hms
      have : ms = [] := by simpa using h0.symm
      subst this
      have := C142_message_partial cfg hl ha hr x hx m hm [] (.inr rfl)
      simp only [List.append_nil] at this
      simp [readAll, this]
  | cons y xs ih =>
    cases ms with
    | nil => cases hms
    | cons m ms =>
      simp only [List.cons_append, List.map_cons, List.cons.injEq] at hms
      have hy := hxs y (by simp)
      have h1 := C142_message_partial cfg hl ha hr y hy.1 m hms.1 (ms.flatMap text) (.inl hy.2)
      have h2 := ih (fun z hz => hxs z (by simp [hz])) ms hms.2
      simp only [List.cons_append, List.map_cons, List.flatMap_cons, readAll, h1, h2]

/-- Four requests: a page, its head, a removal answered with 204, and a page made by a generator. -/
def sample : List Exchange :=
  [⟨s%"GET", [(s%"X-A", s%" 1 ")], some s%"text/plain", 200, false, .data (.text s%"hé"),
      [.header (.add s%"X-B" s%"2\r\nX-C: 3" []), .write (.bytes b%"\r\n\r\n")], .ok, .ok⟩,
    ⟨s%"HEAD", [], none, 200, false, .data (.bytes b%"abc"), [.freeze], .ok, .ok⟩,
    ⟨s%"DELETE", [], none, 200, false, .body (.tuple [.bytes b%"gone"]), [.setStatusCode 204], .ok, .ok⟩]

def sampleLast : Exchange :=
  ⟨s%"GET", [], none, 200, false, .body (.stream [.text s%"é", .bytes b%"!"] true), [.setStatus s%"418 TEAPOT"],
    .ok, .ok⟩

theorem demo_reasons : PlainReasons demo := by
  intro n t h
  simp only [demo] at h
  split at h
  · cases h; decide
  · split at h
    · cases h; decide
    · cases h

example : (∀ y ∈ sample, Proper demo y ∧ Framed demo y) ∧ Proper demo sampleLast := by
  have hX : FieldName s%"X-A" := ⟨⟨'X', rfl, rfl⟩, by decide, by decide, by decide⟩
  have hY : FieldName s%"X-B" := ⟨⟨'X', rfl, rfl⟩, by decide, by decide, by decide⟩
  refine ⟨?_, ?_⟩
  · intro y hy
    simp only [sample, List.mem_cons, List.not_mem_nil, or_false] at hy
    rcases hy with rfl | rfl | rfl
    · refine ⟨⟨?_, ?_, by decide, (by intro bd h; cases h), ?_⟩, ?_⟩
      · intro p hp; simp at hp; subst hp; exact ⟨hX, by decide⟩
      · intro p hp; simp at hp; subst hp; decide
      · intro op ho
        simp only [List.mem_cons, List.not_mem_nil, or_false] at ho
        rcases ho with rfl | rfl
        · exact ⟨show asciiLower s%"X-B" ≠ s%"content-length" by decide,
            by intro k hk; simp [opNames] at hk; subst hk; exact hY⟩
        · exact ⟨fit_bytes _ _, trivial⟩
      · intro r hr
        exact .inl (by
          have : (Except.ok r : Except PyErr Resp) = .ok _ := hr.symm.trans rfl
          cases this; rfl)
    · refine ⟨⟨by simp, by simp, by decide, (by intro bd h; cases h), ?_⟩, fun _ _ => .inr (.inl rfl)⟩
      intro op ho; simp at ho; subst ho; exact ⟨trivial, trivial⟩
    · refine ⟨⟨by simp, by simp, by decide, ?_, ?_⟩, ?_⟩
      · intro bd h _ i hi; cases h; simp [Body.items] at hi; subst hi; exact fit_bytes _ _
      · intro op ho; simp at ho; subst ho; exact ⟨trivial, by simp [PlainOp]⟩
      · intro r hr
        exact .inl (by
          have : (Except.ok r : Except PyErr Resp) = .ok _ := hr.symm.trans rfl
          cases this; rfl)
  · refine ⟨by simp [sampleLast], by simp [sampleLast], by decide, ?_, ?_⟩
    · intro bd h hs; cases h; cases hs
    · intro op ho; simp [sampleLast] at ho; subst ho
      exact ⟨trivial, 418, by decide, by decide, s%"TEAPOT", by decide +kernel, by decide, by decide⟩

example :
    (sample ++ [sampleLast]).map (·.meant demo) =
      [some ⟨s%"200 OK", [(s%"X-A", s%" 1 "), (s%"Content-Type", s%"text/plain"), (s%"Content-Length", s%"7")],
          Utf8.latin1 (b%"h" ++ [195, 169] ++ b%"\r\n\r\n")⟩,
        some ⟨s%"200 OK", [(s%"Content-Length", s%"3")], []⟩,
        some ⟨s%"204 NO CONTENT", [(s%"Content-Length", s%"0")], []⟩,
        some ⟨s%"418 TEAPOT", [], Utf8.latin1 ([195, 169] ++ b%"!")⟩] := by
  decide +kernel

/-- What is sent for one exchange, when it can be sent. -/
def sent (cfg : Cfg) (x : Exchange) : Str := ((x.meant cfg).map text).getD []

/-- A status line with a line break adds a header, and can end the head. -/
theorem C142_status_false :
    readOne asciiLower false
      (sent demo ⟨s%"GET", [], none, 200, false, .none, [.setStatus s%"200 OK\r\nSet-Cookie: a=b"], .ok, .ok⟩) =
      some (⟨s%"200 OK", [(s%"Set-Cookie", s%"a=b"), (s%"Content-Length", s%"0")], []⟩, []) := by
  decide +kernel

/-- So does a header name with a line break. -/
theorem C142_name_false :
    readOne asciiLower false
      (sent demo ⟨s%"GET", [], none, 200, false, .none,
        [.header (.set s%"X: 1\r\nSet-Cookie" s%"a=b" [])], .ok, .ok⟩) =
      some (⟨s%"200 OK", [(s%"X", s%"1"), (s%"Set-Cookie", s%"a=b"), (s%"Content-Length", s%"0")], []⟩, []) := by
  decide +kernel

/-- A value given to the constructor can end the response and begin another one. -/
theorem C142_init_false :
    readAll asciiLower [false, false]
      (sent demo ⟨s%"GET", [(s%"X", s%"1\r\nContent-Length: 0\r\n\r\nHTTP/1.1 404 NOT FOUND\r\nY: 2")], none, 200,
        false, .none, [], .ok, .ok⟩) =
      some [⟨s%"200 OK", [(s%"X", s%"1"), (s%"Content-Length", s%"0")], []⟩,
        ⟨s%"404 NOT FOUND", [(s%"Y", s%"2"), (s%"Content-Length", s%"0")], []⟩] := by
  decide +kernel

/-- A list with the text `é` leaves a byte on the connection, and the next answer is lost. -/
theorem C142_text_false :
    let x : Exchange := ⟨s%"GET", [], none, 200, false, .body (.list [.text s%"é"]), [], .ok, .ok⟩
    readOne asciiLower false (sent demo x ++ sent demo x) =
        some (⟨s%"200 OK", [(s%"Content-Length", s%"1")], [Char.ofNat 195]⟩, Char.ofNat 169 :: sent demo x) ∧
      readAll asciiLower [false, false] (sent demo x ++ sent demo x) = none := by
  decide +kernel

end Verif.Props.WireP
