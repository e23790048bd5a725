import Verif.Model.WrapFile
/-!
C94: files and callbacks of responses.
-/
namespace Verif.Props.WrapFileP
open Verif Verif.WrapFile

theorem amount_pos (f : File) (n : Int) (hn : 0 < n) : 0 < f.amount n ∧ f.amount n ≤ n.toNat := by
  unfold File.amount
  rw [if_neg (by omega)]
  split <;> omega

/-- **C94, files.**  A server that takes blocks from a wrapped file until the end gets the bytes
of the file, complete and in order, in blocks that are not empty and not longer than the buffer
size, and it does get to the end, however the file divides its reads. -/
theorem C94_file (bufferSize : Int) (hb : 0 < bufferSize) (f : File) (n : Nat) (hn : f.data.length < n) :
    (blocks bufferSize n f).1.flatten = f.data ∧ (blocks bufferSize n f).2 = true ∧
    ∀ b ∈ (blocks bufferSize n f).1, b ≠ [] ∧ (b.length : Int) ≤ bufferSize := by
  induction n generalizing f with
  | zero => omega
  | succ n ih =>
    obtain ⟨h1, h2⟩ := amount_pos f bufferSize hb
    unfold blocks next File.read
    by_cases hd : f.data = []
    · simp [hd]
    · have hne : f.data.take (f.amount bufferSize) ≠ [] := by
        cases h : f.data with
        | nil => exact absurd h hd
        | cons a l =>
          rw [show f.amount bufferSize = (f.amount bufferSize - 1) + 1 by omega]
          simp
      simp only [hne, ne_eq, not_false_eq_true, if_true]
      have hlen : 0 < f.data.length := List.length_pos_iff.2 hd
      obtain ⟨i1, i2, i3⟩ := ih ⟨f.data.drop (f.amount bufferSize), f.short.tail⟩ (by
        simp only [List.length_drop]; omega)
      refine ⟨?_, i2, ?_⟩
      · rw [List.flatten_cons, i1, List.take_append_drop]
      · intro b hb'
        rcases List.mem_cons.1 hb' with rfl | hb'
        · refine ⟨hne, ?_⟩
          rw [List.length_take]; omega
        · exact i3 b hb'

example : blocks 4 10 ⟨b%"hello world", [3, 9]⟩ = ([b%"hel", b%"lo w", b%"orld"], true) := by decide

/-- **C94, whole blocks.**  A file that does not divide its reads comes in blocks of exactly the
buffer size, but for the last. -/
theorem C94_whole_blocks (bufferSize : Int) (hb : 0 < bufferSize) (data : Bytes) (n : Nat) (hn : data.length < n) :
    ∀ b ∈ (blocks bufferSize n ⟨data, []⟩).1.dropLast, (b.length : Int) = bufferSize := by
  induction n generalizing data with
  | zero => omega
  | succ n ih =>
    unfold blocks next File.read
    have hamt : (⟨data, []⟩ : File).amount bufferSize = bufferSize.toNat := by
      unfold File.amount; rw [if_neg (by omega)]
    simp only [hamt]
    by_cases hd : data.take bufferSize.toNat = []
    · simp [hd]
    · simp only [hd, ne_eq, not_false_eq_true, if_true, List.tail_nil]
      have hlen : 0 < data.length := by
        cases data with
        | nil => simp at hd
        | cons a l => simp
      intro b hb'
      cases hr : (blocks bufferSize n ⟨data.drop bufferSize.toNat, []⟩).1 with
      | nil => rw [hr] at hb'; simp at hb'
      | cons x xs =>
        rw [hr, List.dropLast_cons_of_ne_nil (by simp)] at hb'
        rcases List.mem_cons.1 hb' with rfl | hb'
        · rw [List.length_take]
          have hrest : data.drop bufferSize.toNat ≠ [] := by
            intro h
            rw [h] at hr
            cases n with
            | zero => simp [blocks] at hr
            | succ n => simp [blocks, next, File.read] at hr
          have : bufferSize.toNat < data.length := by
            have := List.length_pos_iff.2 hrest
            rw [List.length_drop] at this; omega
          omega
        · have h := ih (data.drop bufferSize.toNat) (by rw [List.length_drop]; omega)
          rw [hr] at h
          exact h b hb'

/-- **C94, limits.**  With a buffer size of zero nothing is sent. -/
theorem C94_zero_limits (f : File) (n : Nat) : blocks 0 (n + 1) f = ([], true) := by
  have : f.amount 0 = 0 := by unfold File.amount; simp; split <;> simp
  simp [blocks, next, File.read, this]

/-- **C94, the wrapper of the server** is used whenever there is one, with the same file and size. -/
theorem C94_server {W : Type} (server : Option (File → Int → W)) (wrapper : File → Int → W) (f : File) (b : Int) :
    (∀ w, server = some w → wrapFile server wrapper f b = w f b) ∧
    (server = none → wrapFile server wrapper f b = wrapper f b) := by
  constructor
  · rintro w rfl; rfl
  · rintro rfl; rfl

theorem callAll_ok {C : Type} (raises : C → Option PyErr) (l : List C) (h : ∀ c ∈ l, raises c = none) :
    callAll raises l = (l, .ok ()) := by
  induction l with
  | nil => rfl
  | cons c l ih => simp [callAll, h c (by simp), ih fun d hd => h d (by simp [hd])]

theorem callAll_stop {C : Type} (raises : C → Option PyErr) (l r : List C) (c : C) (e : PyErr)
    (h : ∀ c ∈ l, raises c = none) (hc : raises c = some e) : callAll raises (l ++ c :: r) = (l ++ [c], .error e) := by
  induction l with
  | nil => simp [callAll, hc]
  | cons d l ih => simp [callAll, h d (by simp), ih fun x hx => h x (by simp [hx])]

/-- The functions a closing iterator is made with. -/
def given {C : Type} : Callbacks C → List C
  | .none => []
  | .one c => [c]
  | .many l => l

/-- **C94, closing.**  When no function raises, closing a closing iterator runs the `close` of the
iterable first, if it has one, then every function given to it once, in order.  Missing from the
full statement: functions that raise. -/
theorem C94_close_partial {C : Type} (raises : C → Option PyErr) (iterClose : Option C) (cs : Callbacks C)
    (h : ∀ c, c ∈ iterClose.toList ++ given cs → raises c = none) :
    close raises iterClose cs = (iterClose.toList ++ given cs, .ok ()) := by
  have : callbacks iterClose cs = iterClose.toList ++ given cs := by
    cases iterClose <;> cases cs <;> rfl
  unfold close
  rw [this, callAll_ok raises _ h]

/-- **C94, closing a request** closes the files that were read, then runs every function
registered, in order, when none of them raises. -/
theorem C94_request_partial {C : Type} (raises : C → Option PyErr) (files : Option (List C)) (onClose : List C)
    (h : ∀ c, c ∈ files.getD [] ++ onClose → raises c = none) :
    requestClose raises files onClose = (files.getD [] ++ onClose, .ok ()) := by
  unfold requestClose
  rw [callAll_ok raises _ fun c hc => h c (by simp [hc])]
  simp only
  rw [callAll_ok raises _ fun c hc => h c (by simp [hc])]

/-- What happens otherwise: the functions after the first that raises are not run, and its
exception comes out. -/
theorem C94_raising {C : Type} (raises : C → Option PyErr) (iterClose : Option C) (cs : Callbacks C) (l r : List C) (c : C)
    (e : PyErr) (hl : iterClose.toList ++ given cs = l ++ c :: r) (h : ∀ c ∈ l, raises c = none) (hc : raises c = some e) :
    close raises iterClose cs = (l ++ [c], .error e) := by
  have : callbacks iterClose cs = iterClose.toList ++ given cs := by
    cases iterClose <;> cases cs <;> rfl
  unfold close
  rw [this, hl, callAll_stop raises l r c e h hc]

/-- The full statement is false: a raising `close` of the iterable keeps all functions from
running. -/
theorem C94_close_false : ¬ ∀ (raises : Nat → Option PyErr) (iterClose : Option Nat) (cs : Callbacks Nat),
    ∀ c ∈ given cs, c ∈ (close raises iterClose cs).1 := by
  intro h
  have := h (fun c => if c = 0 then some .valueError else none) (some 0) (.many [1, 2]) 1 (by decide)
  revert this
  decide

example : close (fun _ => none) (some 7) (.many [1, 2]) = ([7, 1, 2], .ok ()) := by decide

end Verif.Props.WrapFileP
