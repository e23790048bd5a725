import Verif.Model.FileStorage
import Verif.Props.WrapFile
import Verif.Props.Options
import Verif.Props.Descriptors
/-!
C116: saving an upload.  C117: the lines of an upload.  C118: names and types of uploads.
-/
namespace Verif.Props.FileP
open Verif Verif.FileStorage Verif.Props Verif.Spec

/-! ### C116: saving -/

theorem read_ne (bufferSize : Int) (h0 : bufferSize ≠ 0) (f : WrapFile.File) :
    (f.read bufferSize).1 = [] ↔ f.data = [] := by
  constructor
  · intro h
    simp only [WrapFile.File.read, List.take_eq_nil_iff] at h
    rcases h with h | h
    · unfold WrapFile.File.amount at h
      split at h
      · exact List.length_eq_zero_iff.1 h
      · split at h <;> omega
    · exact h
  · intro h
    simp [WrapFile.File.read, h]

theorem read_le (bufferSize : Int) (h0 : 0 < bufferSize) (f : WrapFile.File) :
    (((f.read bufferSize).1).length : Int) ≤ bufferSize := by
  simp only [WrapFile.File.read, List.length_take]
  unfold WrapFile.File.amount
  rw [if_neg (by omega)]
  split <;> omega

theorem copy_none (bufferSize : Int) (h0 : bufferSize ≠ 0) (k : Nat) : ∀ f : WrapFile.File, f.data.length = k →
    (copy bufferSize ⟨f, none⟩).1.flatten = f.data ∧
    (copy bufferSize ⟨f, none⟩).2.1 = .ok () ∧ (copy bufferSize ⟨f, none⟩).2.2.file.data = [] ∧
    (copy bufferSize ⟨f, none⟩).2.2.fails = none ∧
    (0 < bufferSize → ∀ b ∈ (copy bufferSize ⟨f, none⟩).1, (b.length : Int) ≤ bufferSize) := by
  induction k using Nat.strongRecOn with
  | _ k ih =>
    intro f hk
    rw [copy]
    simp only [Option.map_none]
    by_cases hd : (f.read bufferSize).1 = []
    · rw [if_pos hd]
      have := (read_ne bufferSize h0 f).1 hd
      simp [this, WrapFile.File.read]
    · rw [if_neg hd]
      have hne : f.data ≠ [] := fun h => hd ((read_ne bufferSize h0 f).2 h)
      have hlt : (f.read bufferSize).2.data.length < k := by
        simp only [WrapFile.File.read, List.length_drop, List.take_eq_nil_iff, not_or] at hd ⊢
        have := List.length_pos_iff.2 hne
        omega
      obtain ⟨i1, i2, i3, i4, i5⟩ := ih _ hlt (f.read bufferSize).2 rfl
      refine ⟨?_, i2, i3, i4, ?_⟩
      · simp only [List.flatten_cons, i1]
        simp [WrapFile.File.read]
      · intro hp b hb
        rcases List.mem_cons.1 hb with rfl | hb
        · exact read_le bufferSize hp f
        · exact i5 hp b hb

/-- **C116.**  An upload is saved completely, and after what a file held before; the file made for a path
holds the upload alone and is closed, a file given is left open.  The stream has nothing left.  No block
written is larger than a buffer size above zero. -/
theorem C116_saved (bufferSize : Int) (h0 : bufferSize ≠ 0) (f : WrapFile.File) (before : Bytes) :
    (save ⟨f, none⟩ .path bufferSize).1 = ⟨f.data, true⟩ ∧
    (save ⟨f, none⟩ (.file before) bufferSize).1 = ⟨before ++ f.data, false⟩ ∧
    ∀ dst, (save ⟨f, none⟩ dst bufferSize).2.1 = .ok () ∧ (save ⟨f, none⟩ dst bufferSize).2.2.file.data = [] := by
  obtain ⟨c1, c2, c3, c4, c5⟩ := copy_none bufferSize h0 _ f rfl
  refine ⟨?_, ?_, ?_⟩
  · simp [save, c1]
  · simp [save, c1]
  · intro dst; cases dst <;> exact ⟨c2, c3⟩

/-- **C116, memory.**  While an upload is saved no block is held that is larger than the buffer size. -/
theorem C116_blocks (bufferSize : Int) (h0 : 0 < bufferSize) (f : WrapFile.File) :
    ∀ b ∈ (copy bufferSize ⟨f, none⟩).1, (b.length : Int) ≤ bufferSize :=
  (copy_none bufferSize (by omega) _ f rfl).2.2.2.2 h0

example : (save ⟨⟨b%"hello world", [3, 9]⟩, none⟩ .path 4).1 = ⟨b%"hello world", true⟩ ∧
    (save ⟨⟨b%"hello", []⟩, none⟩ (.file b%"oh, ") 16384).1 = ⟨b%"oh, hello", false⟩ :=
  ⟨(C116_saved 4 (by decide) _ []).1, (C116_saved 16384 (by decide) _ _).2.1⟩

theorem copy_fails (bufferSize : Int) (e : PyErr) (k : Nat) : ∀ (f : WrapFile.File) (n : Nat), f.data.length = k →
    ∃ rest, f.data = (copy bufferSize ⟨f, some (n, e)⟩).1.flatten ++ rest ∧
      ((copy bufferSize ⟨f, some (n, e)⟩).2.1 = .error e ∨
        (copy bufferSize ⟨f, some (n, e)⟩).2.1 = .ok () ∧ (bufferSize ≠ 0 → rest = [])) := by
  induction k using Nat.strongRecOn with
  | _ k ih =>
    intro f n hk
    cases n with
    | zero =>
      rw [copy]
      exact ⟨f.data, rfl, .inl rfl⟩
    | succ n =>
      rw [copy]
      · simp only [Option.map_some, Nat.add_sub_cancel]
        by_cases hd : (f.read bufferSize).1 = []
        · rw [if_pos hd]
          exact ⟨f.data, rfl, .inr ⟨rfl, fun h0 => (read_ne bufferSize h0 f).1 hd⟩⟩
        · rw [if_neg hd]
          have hlt : (f.read bufferSize).2.data.length < k := by
            simp only [WrapFile.File.read, List.length_drop, List.take_eq_nil_iff, not_or] at hd ⊢
            have := List.length_pos_iff.2 hd.2
            omega
          obtain ⟨rest, i1, i2⟩ := ih _ hlt (f.read bufferSize).2 n rfl
          refine ⟨rest, ?_, i2⟩
          have : f.data = (f.read bufferSize).1 ++ (f.read bufferSize).2.data := by simp [WrapFile.File.read]
          simp only [List.flatten_cons, List.append_assoc, ← i1, ← this]

/-- **C116, errors.**  If reading the upload raises, saving raises the same; what has been written by then is
a beginning of the upload, and the file made for a path is closed all the same.  Else all of it is written. -/
theorem C116_errors (bufferSize : Int) (h0 : bufferSize ≠ 0) (f : WrapFile.File) (n : Nat) (e : PyErr) :
    (save ⟨f, some (n, e)⟩ .path bufferSize).1.closed = true ∧
    ∃ rest, f.data = (save ⟨f, some (n, e)⟩ .path bufferSize).1.contents ++ rest ∧
      ((save ⟨f, some (n, e)⟩ .path bufferSize).2.1 = .error e ∨
        (save ⟨f, some (n, e)⟩ .path bufferSize).2.1 = .ok () ∧ rest = []) := by
  obtain ⟨rest, h1, h2⟩ := copy_fails bufferSize e _ f n rfl
  refine ⟨rfl, rest, h1, ?_⟩
  rcases h2 with h2 | ⟨h2, h3⟩
  · exact .inl h2
  · exact .inr ⟨h2, h3 h0⟩

/-- One read succeeds and one raises. -/
example : (save ⟨⟨b%"hello", []⟩, some (1, .runtimeError)⟩ .path 2).1 = ⟨b%"he", true⟩ ∧
    (save ⟨⟨b%"hello", []⟩, some (1, .runtimeError)⟩ .path 2).2.1 = .error .runtimeError := by
  constructor <;> simp [save, copy, WrapFile.File.read, WrapFile.File.amount]

/-- **Not so**: saving an upload twice does not make two files with it.  The second is empty, whatever the
upload was, because the stream is not rewound. -/
theorem C116_twice_false (bufferSize : Int) (h0 : bufferSize ≠ 0) (f : WrapFile.File) :
    (save (save ⟨f, none⟩ .path bufferSize).2.2 .path bufferSize).1 = ⟨[], true⟩ ∧
    (save (save ⟨f, none⟩ .path bufferSize).2.2 .path bufferSize).2.1 = .ok () := by
  obtain ⟨_, _, c3, c4, _⟩ := copy_none bufferSize h0 _ f rfl
  obtain ⟨f', hf⟩ : ∃ f', (save ⟨f, none⟩ .path bufferSize).2.2 = ⟨f', none⟩ ∧ f'.data = [] := by
    refine ⟨(copy bufferSize ⟨f, none⟩).2.2.file, ?_, c3⟩
    show (copy bufferSize ⟨f, none⟩).2.2 = _
    generalize (copy bufferSize ⟨f, none⟩).2.2 = r at c4
    obtain ⟨a, b⟩ := r
    simp only at c4
    rw [c4]
  rw [hf.1]
  obtain ⟨s1, _, s3⟩ := C116_saved bufferSize h0 f' []
  exact ⟨by rw [s1, hf.2], (s3 .path).1⟩

/-- With a buffer size of zero nothing is saved, and nothing raised. -/
theorem C116_zero_limits (f : WrapFile.File) :
    (save ⟨f, none⟩ .path 0).1 = ⟨[], true⟩ ∧ (save ⟨f, none⟩ .path 0).2.1 = .ok () := by
  have h : (f.read 0).1 = [] := by
    simp only [WrapFile.File.read, WrapFile.File.amount]
    cases f.short <;> simp
  have e : copy 0 ⟨f, none⟩ = ([], .ok (), ⟨(f.read 0).2, none⟩) := by
    rw [copy]
    simp only [Option.map_none]
    rw [if_pos h]
  simp [save, e]

/-! ### C117: lines -/

/-- The lines of some contents: all of them together are the contents, none is empty, a line feed is only at
the last place of a line, and all lines but the last have one. -/
def IsLines {α : Type} (nl : α) (s : List α) (ls : List (List α)) : Prop :=
  ls.flatten = s ∧ (∀ l ∈ ls, l ≠ [] ∧ nl ∉ l.dropLast) ∧ ∀ l ∈ ls.dropLast, l.getLast? = some nl

theorem cutLine_append {α : Type} [DecidableEq α] (nl : α) (s : List α) :
    (cutLine nl s).1 ++ (cutLine nl s).2 = s := by
  induction s with
  | nil => rfl
  | cons a l ih =>
    unfold cutLine
    split
    · rfl
    · simp [ih]

theorem cutLine_ne {α : Type} [DecidableEq α] (nl a : α) (l : List α) : (cutLine nl (a :: l)).1 ≠ [] := by
  unfold cutLine
  split <;> simp

theorem cutLine_inner {α : Type} [DecidableEq α] (nl : α) (s : List α) :
    nl ∉ (cutLine nl s).1.dropLast ∧ ((cutLine nl s).2 ≠ [] → (cutLine nl s).1.getLast? = some nl) := by
  induction s with
  | nil => simp [cutLine]
  | cons a l ih =>
    unfold cutLine
    split
    · rename_i h; simp [h]
    · rename_i h
      cases hc : (cutLine nl l).1 with
      | nil =>
        refine ⟨by simp, fun h2 => ?_⟩
        have := ih.2 h2
        rw [hc] at this; cases this
      | cons b m =>
        rw [hc] at ih
        constructor
        · simp only [List.dropLast_cons_of_ne_nil (List.cons_ne_nil b m), List.mem_cons, not_or]
          exact ⟨fun e => h e.symm, ih.1⟩
        · intro h2
          simpa using ih.2 h2

/-- The lines of contents, computed. -/
def linesOf {α : Type} [DecidableEq α] (nl : α) : Nat → List α → List (List α)
  | 0, _ => []
  | _ + 1, [] => []
  | n + 1, a :: l => (cutLine nl (a :: l)).1 :: linesOf nl n (cutLine nl (a :: l)).2

theorem cutLine_shorter {α : Type} [DecidableEq α] (nl a : α) (l : List α) :
    (cutLine nl (a :: l)).2.length ≤ l.length := by
  have h1 := congrArg List.length (cutLine_append nl (a :: l))
  have h2 := List.length_pos_iff.2 (cutLine_ne nl a l)
  simp only [List.length_append, List.length_cons] at h1
  omega

theorem linesOf_ok {α : Type} [DecidableEq α] (nl : α) (n : Nat) : ∀ s : List α, s.length ≤ n → IsLines nl s (linesOf nl n s) := by
  induction n with
  | zero =>
    intro s h
    have : s = [] := List.length_eq_zero_iff.1 (by omega)
    subst this
    exact ⟨rfl, by simp [linesOf], by simp [linesOf]⟩
  | succ n ih =>
    intro s h
    cases s with
    | nil => exact ⟨rfl, by simp [linesOf], by simp [linesOf]⟩
    | cons a l =>
      have hs := cutLine_shorter nl a l
      simp only [List.length_cons] at h
      obtain ⟨i1, i2, i3⟩ := ih (cutLine nl (a :: l)).2 (by omega)
      refine ⟨?_, ?_, ?_⟩
      · simp only [linesOf, List.flatten_cons, i1, cutLine_append]
      · intro x hx
        rcases List.mem_cons.1 hx with rfl | hx
        · exact ⟨cutLine_ne nl a l, (cutLine_inner nl (a :: l)).1⟩
        · exact i2 x hx
      · intro x hx
        simp only [linesOf] at hx
        cases hr : linesOf nl n (cutLine nl (a :: l)).2 with
        | nil => rw [hr] at hx; cases hx
        | cons b m =>
          rw [hr, List.dropLast_cons_of_ne_nil (List.cons_ne_nil b m)] at hx
          rcases List.mem_cons.1 hx with rfl | hx
          · apply (cutLine_inner nl (a :: l)).2
            intro he
            rw [he] at hr
            cases n <;> cases hr
          · rw [← hr] at hx
            exact i3 x hx

theorem items_text (n : Nat) : ∀ s : Str, s.length ≤ n →
    items (n + 1) (.text s) = ((linesOf '\n' n s).map .text, true) := by
  induction n with
  | zero =>
    intro s h
    have : s = [] := List.length_eq_zero_iff.1 (by omega)
    subst this
    rfl
  | succ n ih =>
    intro s h
    cases s with
    | nil => rfl
    | cons a l =>
      have hs := cutLine_shorter '\n' a l
      simp only [List.length_cons] at h
      have hi := ih (cutLine '\n' (a :: l)).2 (by omega)
      have hn : next (.text (a :: l)) = (some (.text (cutLine '\n' (a :: l)).1), .text (cutLine '\n' (a :: l)).2) := by
        unfold next
        rw [if_neg (by
          intro h'
          simp only [readline, Rest.text.injEq] at h'
          exact cutLine_ne '\n' a l h')]
        rfl
      rw [items, hn]
      simp only [hi, linesOf, List.map_cons]

/-- **C117, text.**  Iterating over an upload whose stream is of text gives its lines, each with its line feed,
and ends. -/
theorem C117_text_partial (s : Str) (n : Nat) (hn : s.length < n) :
    ∃ ls, IsLines '\n' s ls ∧ items n (.text s) = (ls.map .text, true) := by
  obtain ⟨n, rfl⟩ : ∃ m, n = m + 1 := ⟨n - 1, by omega⟩
  exact ⟨linesOf '\n' n s, linesOf_ok '\n' n s (by omega), items_text n s (by omega)⟩

example : items 20 (.text s%"a\n\nbc") = ([.text s%"a\n", .text s%"\n", .text s%"bc"], true) := by decide

theorem items_bytes (n : Nat) : ∀ (b : Bytes) (k : Nat), b.length ≤ k →
    items n (.bytes b) = (((linesOf 10 k b).map Rest.bytes ++ List.replicate n (Rest.bytes [])).take n, false) := by
  induction n with
  | zero => intro b k h; simp [items]
  | succ n ih =>
    intro b k h
    have hn : next (.bytes b) = (some (.bytes (cutLine 10 b).1), .bytes (cutLine 10 b).2) := by
      unfold next
      rw [if_neg (by intro h'; simp [readline] at h')]
      rfl
    rw [items, hn]
    cases b with
    | nil =>
      have hi := ih [] 0 (by simp)
      have e : linesOf (10 : UInt8) k [] = [] := by cases k <;> rfl
      simp only [cutLine, e, hi]
      simp [linesOf, List.replicate_succ]
    | cons a l =>
      simp only [List.length_cons] at h
      obtain ⟨k, rfl⟩ : ∃ m, k = m + 1 := ⟨k - 1, by omega⟩
      have hs := cutLine_shorter 10 a l
      have hi := ih (cutLine 10 (a :: l)).2 k (by omega)
      simp only [hi, linesOf, List.map_cons, List.cons_append, List.take_succ_cons]
      congr 2
      rw [List.take_append, List.take_append, List.take_replicate, List.take_replicate]
      congr 2
      omega

/-- **Not so** for the streams uploads have, which are of bytes: after the lines, each as it should be, come
empty lines without end, whatever the upload is. -/
theorem C117_bytes_false (b : Bytes) :
    ∃ ls, IsLines 10 b ls ∧ ∀ n, items n (.bytes b) = ((ls.map Rest.bytes ++ List.replicate n (Rest.bytes [])).take n, false) :=
  ⟨linesOf 10 b.length b, linesOf_ok 10 _ b (Nat.le_refl _), fun n => items_bytes n b _ (Nat.le_refl _)⟩

example : items 5 (.bytes b%"a\nbc") = ([.bytes b%"a\n", .bytes b%"bc", .bytes [], .bytes [], .bytes []], false) := by decide

/-! ### C118: names and types -/

variable {fsdecode : Bytes → Str} {lower : Str → Str}

/-- **C118, file names.**  The file name given is kept, whatever it is; without one it is the name of the
stream, as a text, unless the stream has none or one in angle brackets.  A stream that counts as true is kept. -/
theorem C118_filename (stream : Src) (name : Option Str) (ct : Option Str) (len : Option Int) (h : Option Headers.HList) (f : FS) :
    (∀ s, init fsdecode lower (some stream) (some s) name ct len h = .ok f →
      f.filename = some (.str s) ∧ truthy f = decide (s ≠ [])) ∧
    (init fsdecode lower (some stream) none name ct len h = .ok f →
      (stream.name = none → f.filename = none) ∧
      (∀ s, stream.name = some (.str s) ∨ (∃ b, stream.name = some (.bytes b) ∧ fsdecode b = s) →
        f.filename = if s.head? = some '<' ∧ s.getLast? = some '>' then none else some (.str s))) ∧
    (∀ fn, init fsdecode lower (some stream) fn name ct len h = .ok f → f.name = name ∧ (stream.truthy = true → f.stream = stream)) := by
  have key : ∀ fn, init fsdecode lower (some stream) fn name ct len h = .ok f →
      f.name = name ∧ f.stream = kept (some stream) ∧ fileName fsdecode (some stream) fn = .ok f.filename := by
    intro fn hi
    unfold init at hi
    cases ha : fileName fsdecode (some stream) fn with
    | error e => rw [ha] at hi; cases hi
    | ok a =>
      simp only [ha, bind, Except.bind, pure, Except.pure] at hi
      cases h1 : setHeader lower (h.getD []) s%"Content-Type" ct with
      | error e => rw [h1] at hi; cases hi
      | ok b =>
        simp only [h1] at hi
        cases h2 : setHeader lower b s%"Content-Length" (len.map Py.intStr) with
        | error e => rw [h2] at hi; cases hi
        | ok c =>
          simp only [h2, Except.ok.injEq] at hi
          subst hi
          exact ⟨rfl, rfl, rfl⟩
  refine ⟨fun s hi => ?_, fun hi => ?_, fun fn hi => ?_⟩
  · have := (key _ hi).2.2
    simp only [fileName, Except.ok.injEq] at this
    refine ⟨this.symm, ?_⟩
    unfold truthy
    rw [← this]
  · have := (key _ hi).2.2
    simp only [fileName, Option.bind_some] at this
    refine ⟨fun hn => ?_, fun s hs => ?_⟩
    · rw [hn] at this
      simp only [streamName, Except.ok.injEq] at this
      exact this.symm
    · have hsp : special s = true ↔ s.head? = some '<' ∧ s.getLast? = some '>' := by simp [special]
      rcases hs with hs | ⟨b, hb, rfl⟩
      · rw [hs] at this
        simp only [streamName, Except.ok.injEq, hsp] at this
        exact this.symm
      · rw [hb] at this
        simp only [streamName, Except.ok.injEq, hsp] at this
        exact this.symm
  · obtain ⟨k1, k2, _⟩ := key fn hi
    exact ⟨k1, fun ht => by rw [k2, kept, if_pos ht]⟩

example : init (fun _ => s%"x") asciiLower (some ⟨1, true, some (.str s%"/tmp/a.txt"), none⟩) none (some s%"field") none none none =
    .ok ⟨some s%"field", ⟨1, true, some (.str s%"/tmp/a.txt"), none⟩, some (.str s%"/tmp/a.txt"), [], none⟩ ∧
    init (fun _ => s%"x") asciiLower (some ⟨1, true, some (.str s%"<stderr>"), none⟩) none none none none none =
    .ok ⟨none, ⟨1, true, some (.str s%"<stderr>"), none⟩, none, [], none⟩ := by decide

/-- **Not so**: a stream whose name is the number of a descriptor, as of `TemporaryFile`, cannot be wrapped
without a file name; and a stream that counts as false is replaced by an empty one. -/
theorem C118_stream_false (stream : Src) (name ct : Option Str) (len : Option Int) (h : Option Headers.HList) (n : Int) (hn : n ≠ 0)
    (hs : stream.name = some (.fd n)) (inner f : FS) (fn : Str) (id : Nat) (hi : inner.filename = none)
    (hf : init fsdecode lower (some (asStream id inner)) (some fn) none none none none = .ok f) :
    init fsdecode lower (some stream) none name ct len h = .error .typeError ∧ f.stream = .empty := by
  constructor
  · unfold init
    simp only [fileName, Option.bind_some, hs, streamName, if_neg hn]
    rfl
  · have ht : (asStream id inner).truthy = false := by simp [asStream, truthy, hi]
    unfold init at hf
    simp only [bind, Except.bind, pure, Except.pure, fileName, setHeader, Option.map_none, kept, ht, Except.ok.injEq] at hf
    subst hf
    rfl

/-- The stream of a temporary file; and a storage without a file name. -/
example : init (fun _ => s%"x") asciiLower (some ⟨1, true, some (.fd 5), none⟩) none none none none none = .error .typeError ∧
    init (fun _ => s%"x") asciiLower (some (asStream 7 ⟨none, ⟨1, true, none, none⟩, none, [], none⟩)) (some s%"a") none none none none =
      .ok ⟨none, .empty, some (.str s%"a"), [], none⟩ :=
  ⟨(C118_stream_false ⟨1, true, some (.fd 5), none⟩ none none none none 5 (by decide) rfl
    ⟨none, ⟨1, true, none, none⟩, none, [], none⟩ _ s%"a" 7 rfl rfl).1, rfl⟩

/-- The first piece of an options header is the name, whatever follows its semicolon. -/
theorem parse_first (mt rest : Str) (hm : OptAux.CleanName mt) (hr : OptAux.Tail rest) :
    ∃ d, Options.parseOptionsHeader (mt ++ rest) = .ok (mt, d) := by
  unfold Options.parseOptionsHeader
  rw [if_neg (by intro h; exact hm.1 (List.append_eq_nil_iff.1 h).1)]
  have hst := OptAux.starts_piece none [] mt none rest hm (by intro c hc; cases hc) hr
  obtain ⟨txt, hst⟩ := hst
  simp only [OptAux.valText, List.nil_append] at hst
  have hkey : Quote.unquoteHeaderValue mt = mt := by
    apply Quote.unquote_id
    left
    intro h
    exact (hm.2 '"' (List.mem_of_head? h)).2.2.2 rfl
  unfold Options.tokenize
  rw [Options.findIter]
  rw [hst.first]
  simp only [List.map_cons, OptAux.group_key, Option.getD_some, hkey]
  exact ⟨_, rfl⟩

theorem intStr_legal' (i : Int) : LegalValue (Py.intStr i) := by
  have h := Resp.intStr_nospace i
  constructor
  · intro hm; exact absurd (h _ hm) (by decide)
  · intro hm; exact absurd (h _ hm) (by decide)

/-- **C118, types.**  An upload made with a content type and a length has them; its type without parameters is
in lower case, and whatever follows a semicolon is left out. -/
theorem C118_type (hl : lower s%"Content-Type" = s%"content-type" ∧ lower s%"content-type" = s%"content-type" ∧
      lower s%"Content-Length" = s%"content-length" ∧ lower s%"content-length" = s%"content-length")
    (stream : Option Src) (hp : ∀ s, stream = some s → s.parsed = none) (fn : Str) (name : Option Str) (ct : Str) (len : Int)
    (h : Option Headers.HList) (hc : LegalValue ct) :
    ∃ f, init fsdecode lower stream (some fn) name (some ct) (some len) h = .ok f ∧
      contentType lower f = some ct ∧ contentLength lower f = .ok len ∧
      (∀ mt rest, ct = mt ++ rest → OptAux.CleanName mt → (rest = [] ∨ rest.head? = some ';') →
        (mimetype lower f).2 = .ok (lower mt)) ∧
      (∀ mt opts, ct = Quote.dumpOptionsHeader (some mt) opts → OptAux.CleanName mt → (∀ kv ∈ opts, OptAux.CleanName kv.1) →
        (opts.map (·.1)).Nodup → (∀ k v, (k, some v) ∈ opts → v ≠ [] ∧ (k = s%"filename" → v.head? ≠ some '\\')) →
        (mimetypeParams lower f).2 = .ok opts) := by
  obtain ⟨l1, l2, l3, l4⟩ := hl
  have hlen : LegalValue (Py.intStr len) := intStr_legal' len
  have e1 := Desc.set_ok lower (h.getD []) s%"Content-Type" ct hc
  have g1 := fun x => Desc.getItem_set lower (h.getD []) s%"Content-Type" ct x hc
  have s1 : setHeader lower (h.getD []) s%"Content-Type" (some ct) = .ok (Headers.set lower (h.getD []) s%"Content-Type" ct []).1 := by
    unfold setHeader
    simp only
    generalize Headers.set lower (h.getD []) s%"Content-Type" ct [] = r at e1
    obtain ⟨a, b⟩ := r
    simp only at e1
    subst e1; rfl
  generalize (Headers.set lower (h.getD []) s%"Content-Type" ct []).1 = h1 at s1 g1
  have e2 := Desc.set_ok lower h1 s%"Content-Length" (Py.intStr len) hlen
  have g2 := fun x => Desc.getItem_set lower h1 s%"Content-Length" (Py.intStr len) x hlen
  have s2 : setHeader lower h1 s%"Content-Length" (some (Py.intStr len)) = .ok (Headers.set lower h1 s%"Content-Length" (Py.intStr len) []).1 := by
    unfold setHeader
    simp only
    generalize Headers.set lower h1 s%"Content-Length" (Py.intStr len) [] = r at e2
    obtain ⟨a, b⟩ := r
    simp only at e2
    subst e2; rfl
  generalize (Headers.set lower h1 s%"Content-Length" (Py.intStr len) []).1 = h2 at s2 g2
  have hct : Headers.get lower h2 s%"content-type" = some ct := by
    unfold Headers.get
    rw [g2, if_neg (by rw [l2, l3]; decide), g1, if_pos (by rw [l1, l2])]
  have hcl : Headers.get lower h2 s%"content-length" = some (Py.intStr len) := by
    unfold Headers.get
    rw [g2, if_pos (by rw [l3, l4])]
  have hpar : ∀ s : Src, s = kept stream → s.parsed = none := by
    intro s hs
    cases stream with
    | none => subst hs; rfl
    | some t =>
      simp only [kept] at hs
      split at hs
      · rw [hs]; exact hp t rfl
      · rw [hs]; rfl
  have hnone := hpar _ rfl
  refine ⟨⟨name, kept stream, some (.str fn), h2, none⟩, ?_, hct, ?_, ?_, ?_⟩
  · unfold init
    simp only [fileName, Option.map_some, bind, Except.bind, pure, Except.pure, s1, s2]
  · unfold contentLength
    simp only [hcl, if_neg (Resp.intStr_ne_nil len), Py.intOf_intStr]
  · intro mt rest hmt hclean hrest
    obtain ⟨d, hd⟩ := parse_first mt rest hclean hrest
    unfold mimetype parseContentType
    simp only [hnone, Option.or, contentType, hct, Option.getD_some, hmt, hd]
  · intro mt opts hmt hclean hk hnd hv
    have hd := (C05_roundtrip_partial mt opts hclean hk hnd).2 hv
    unfold mimetypeParams parseContentType
    simp only [hnone, Option.or, contentType, hct, Option.getD_some, hmt, hd]

example : ∃ f, init (fun _ => []) asciiLower none (some s%"a.html") none (some s%"text/HTML; charset=\"utf 8\"") (some 12) none = .ok f ∧
    (mimetype asciiLower f).2 = .ok s%"text/html" ∧ contentLength asciiLower f = .ok 12 ∧
    (mimetypeParams asciiLower f).2 = .ok [(s%"charset", some s%"utf 8")] := by
  refine ⟨⟨none, .empty, some (.str s%"a.html"), [(s%"Content-Type", s%"text/HTML; charset=\"utf 8\""), (s%"Content-Length", s%"12")], none⟩, ?_, ?_, ?_, ?_⟩ <;> decide +kernel

/-- A content type with a line break is refused. -/
theorem C118_refused (stream : Option Src) (fn : Str) (name : Option Str) (ct : Str) (len : Option Int)
    (h : Option Headers.HList) (hc : '\n' ∈ ct ∨ '\r' ∈ ct) :
    init fsdecode lower stream (some fn) name (some ct) len h = .error .valueError := by
  have hb := Desc.set_bad lower (h.getD []) s%"Content-Type" ct (by
    intro hl
    rcases hc with hc | hc
    · exact hl.1 hc
    · exact hl.2 hc)
  unfold init
  simp only [fileName, bind, Except.bind, pure, Except.pure, setHeader, hb]

example : init (fun _ => []) asciiLower none (some s%"a") none (some s%"text/html\nX: y") none none = .error .valueError :=
  C118_refused _ _ _ _ _ _ (.inl (by decide))

/-- **Not so**: once the type has been asked for, it does not follow the headers any more. -/
theorem C118_stale_false (f : FS) (t : Str) (h : Headers.HList) (ht : (mimetype lower f).2 = .ok t) :
    (mimetype lower { (mimetype lower f).1 with headers := h }).2 = .ok t := by
  unfold mimetype parseContentType at ht ⊢
  cases hp : f.parsed.or f.stream.parsed with
  | some p =>
    simp only [hp] at ht ⊢
    exact ht
  | none =>
    simp only [hp] at ht ⊢
    cases ho : Options.parseOptionsHeader ((contentType lower f).getD []) with
    | error e => rw [ho] at ht; cases ht
    | ok p =>
      rw [ho] at ht
      simp only at ht ⊢
      simpa [Option.or] using ht

/-- **Not so**: an upload whose stream is another upload, whose type has been asked for, has the type of that
one, although its own content type is a different one; and its file name is the name of the form field. -/
theorem C118_nested_false : ∃ (inner outer : FS), inner = ⟨some s%"field", .empty, some (.str s%"a.png"), [(s%"Content-Type", s%"image/png")], none⟩ ∧
    init (fun _ => []) asciiLower (some (asStream 3 (mimetype asciiLower inner).1)) none none (some s%"text/plain") none none = .ok outer ∧
    contentType asciiLower outer = some s%"text/plain" ∧ (mimetype asciiLower outer).2 = .ok s%"image/png" ∧
    outer.filename = some (.str s%"field") := by
  refine ⟨_, ⟨none, asStream 3 ⟨some s%"field", .empty, some (.str s%"a.png"), [(s%"Content-Type", s%"image/png")], some (s%"image/png", [])⟩, some (.str s%"field"), [(s%"Content-Type", s%"text/plain")], none⟩, rfl, ?_, ?_, ?_, rfl⟩ <;> decide +kernel

/-- **Not so**: the length is not a number when the header is not. -/
theorem C118_length_false : ∃ f : FS, f = ⟨none, .empty, none, [(s%"Content-Length", s%"12a")], none⟩ ∧
    contentLength asciiLower f = .error .valueError :=
  ⟨_, rfl, by decide +kernel⟩

end Verif.Props.FileP
