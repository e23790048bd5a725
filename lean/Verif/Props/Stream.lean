import Verif.Model.Stream
/-!
C31, C32: `LimitedStream` (`/repo/verktyg/wsgi.py:781-932`).
-/
namespace Verif.Stream
open Verif

/-- A successful call moved over exactly the bytes `r`. -/
def OkT (s s' : LS) (r : Bytes) : Prop :=
  s.src.data = r ++ s'.src.data ∧ s'.pos = s.pos + r.length ∧ s'.limit = s.limit ∧
    r.length ≤ (s.limit - s.pos).toNat

/-- A failed call left the position alone; if it took bytes the wrapped stream is at its end. -/
def ErrT (s s' : LS) : Prop :=
  ∃ x, s.src.data = x ++ s'.src.data ∧ s'.pos = s.pos ∧ s'.limit = s.limit ∧
    x.length ≤ (s.limit - s.pos).toNat ∧ (x = [] ∨ s'.src.data = [])

theorem OkT.refl (s : LS) : OkT s s [] := ⟨rfl, by simp, rfl, by simp⟩

theorem OkT.trans {s t u : LS} {a b : Bytes} (h : OkT s t a) (k : OkT t u b) : OkT s u (a ++ b) := by
  obtain ⟨h1, h2, h3, h4⟩ := h
  obtain ⟨k1, k2, k3, k4⟩ := k
  refine ⟨by rw [h1, k1, List.append_assoc], ?_, by rw [k3, h3], ?_⟩
  · simp only [List.length_append]; omega
  · simp only [List.length_append]; omega

/-- Sizes the callers may pass: `read` takes `None`, `-1` or a size; `readline` takes `None`
or a size; `exhaust` a positive chunk size. -/
def Valid : Op → Prop
  | .read n => ∀ k, n = some k → -1 ≤ k
  | .readline n => ∀ k, n = some k → 0 ≤ k
  | .readlines _ => True
  | .next => True
  | .exhaust c => 0 < c

/-- The number of bytes asked of `read` when `room` bytes are left (`None` and `-1`: all). -/
def asked (room : Int) : Option Int → Int
  | none => room
  | some k => if k = -1 then room else k

/-- The number of bytes a line may have. -/
def askedLine (room : Int) : Option Int → Nat
  | none => room.toNat
  | some k => k.toNat

theorem lineLen_le (d : Bytes) : lineLen d ≤ d.length := by
  induction d with
  | nil => simp [lineLen]
  | cons c cs ih => simp only [lineLen, List.length_cons]; split <;> omega

theorem lineLen_pos (d : Bytes) (h : d ≠ []) : 0 < lineLen d := by
  cases d with
  | nil => exact absurd rfl h
  | cons c cs => simp only [lineLen]; split <;> omega

theorem Src.read_nat (s : Src) (n : Nat) : s.read n =
    if s.fails.headD false then (none, ⟨s.data, s.fails.tail⟩)
    else (some (s.data.take n), ⟨s.data.drop n, s.fails.tail⟩) := by
  unfold Src.read
  split
  · rfl
  · have : ¬ ((n : Int) < 0) := by omega
    simp [this]

theorem Src.readline_nat (s : Src) (n : Nat) : s.readline n =
    if s.fails.headD false then (none, ⟨s.data, s.fails.tail⟩)
    else (some (s.data.take (min n (lineLen s.data))), ⟨s.data.drop (min n (lineLen s.data)), s.fails.tail⟩) := by
  unfold Src.readline
  split
  · rfl
  · have : ¬ ((n : Int) < 0) := by omega
    simp [this]

theorem onExhausted_spec (s : LS) :
    (∀ s' r, onExhausted s = (s', .ok r) → OkT s s' r ∧ r = []) ∧
    (∀ s' e, onExhausted s = (s', .error e) → ErrT s s' ∧ s'.src.data = s.src.data) := by
  unfold onExhausted Src.read
  split
  · rename_i h
    split at h
    · simp at h
    · simp at h
      obtain ⟨rfl, rfl⟩ := h
      simp [OkT]
  · rename_i h
    split at h
    · simp at h
      subst h
      simp [ErrT]
    · simp at h

/-- `read` with a permitted size: exactly the wanted number of bytes, or an error. -/
theorem read_spec (s : LS) (size : Option Int) (hv : ∀ k, size = some k → -1 ≤ k) (hp : 0 ≤ s.pos) :
    (∀ s' r, read s size = (s', .ok r) → OkT s s' r ∧
      (r.length : Int) = max 0 (min (s.limit - s.pos) (asked (s.limit - s.pos) size))) ∧
    (∀ s' e, read s size = (s', .error e) → ErrT s s') := by
  unfold read
  split
  · rename_i h
    refine ⟨fun s' r he => ?_, fun s' e he => ((onExhausted_spec s).2 s' e he).1⟩
    obtain ⟨h1, rfl⟩ := (onExhausted_spec s).1 s' r he
    refine ⟨h1, ?_⟩
    simp; omega
  · rename_i h
    dsimp only
    generalize hz : readSize s.limit size = z
    have hz0 : 0 ≤ min (s.limit - s.pos) z := by
      cases size with
      | none => simp [readSize, lineSize, stopAt] at hz; omega
      | some k =>
        have := hv k rfl
        simp [readSize, lineSize, stopAt] at hz
        split at hz <;> omega
    have hze : max 0 (min (s.limit - s.pos) (asked (s.limit - s.pos) size))
        = min (s.limit - s.pos) z := by
      cases size with
      | none => simp [readSize, lineSize, stopAt, asked, askedLine] at hz ⊢; omega
      | some k =>
        have := hv k rfl
        simp [readSize, lineSize, stopAt, asked, askedLine] at hz ⊢
        split at hz <;> simp_all <;> omega
    rw [hze]
    generalize hm : min (s.limit - s.pos) z = m at *
    have hml : m ≤ s.limit - s.pos := by omega
    obtain ⟨n, rfl⟩ : ∃ n : Nat, m = n := ⟨m.toNat, by omega⟩
    rw [Src.read_nat]
    by_cases hf : s.src.fails.headD false
    · rw [if_pos hf]
      dsimp only
      refine ⟨fun s' r he => (by simp at he), fun s' e he => ?_⟩
      simp at he
      obtain ⟨rfl, -⟩ := he
      exact ⟨[], by simp⟩
    · rw [if_neg hf]
      dsimp only
      split
      · rename_i hlt
        refine ⟨fun s' r he => (by simp at he), fun s' e he => ?_⟩
        simp at he
        obtain ⟨rfl, -⟩ := he
        refine ⟨s.src.data.take n, by simp, rfl, rfl, by simp; omega, Or.inr ?_⟩
        simp at hlt ⊢
        omega
      · rename_i hlt
        refine ⟨fun s' r he => ?_, fun s' e he => (by simp at he)⟩
        simp at he
        obtain ⟨rfl, rfl⟩ := he
        refine ⟨⟨by simp, by simp, rfl, by simp; omega⟩, ?_⟩
        simp at hlt ⊢
        omega

/-- `readline` with a permitted size: the next line cut at the size and the limit, never
empty unless no byte may be returned, or an error. -/
theorem readline_spec (s : LS) (size : Option Int) (hv : ∀ k, size = some k → 0 ≤ k) :
    (∀ s' r, readline s size = (s', .ok r) → OkT s s' r ∧ (r = [] → s.limit ≤ s.pos ∨ size = some 0)
      ∧ (r.length = min (lineLen s.src.data) (min (s.limit - s.pos).toNat (askedLine (s.limit - s.pos) size)))) ∧
    (∀ s' e, readline s size = (s', .error e) → ErrT s s' ∧ s'.src.data = s.src.data) := by
  unfold readline
  split
  · rename_i h
    refine ⟨fun s' r he => ?_, fun s' e he => (onExhausted_spec s).2 s' e he⟩
    obtain ⟨h1, rfl⟩ := (onExhausted_spec s).1 s' r he
    refine ⟨h1, fun _ => Or.inl h, ?_⟩
    have : (s.limit - s.pos).toNat = 0 := by omega
    simp [this]
  · rename_i h
    dsimp only
    generalize hz : lineSize (s.limit - s.pos) size = z
    have hz0 : 0 ≤ z ∧ z ≤ s.limit - s.pos ∧ (z = 0 → size = some 0) := by
      cases size with
      | none => simp [readSize, lineSize, stopAt] at hz; omega
      | some k =>
        have := hv k rfl
        simp [readSize, lineSize, stopAt] at hz
        refine ⟨by omega, by omega, fun hh => ?_⟩
        congr 1; omega
    have hze : min (s.limit - s.pos).toNat (askedLine (s.limit - s.pos) size) = z.toNat := by
      cases size with
      | none => simp [readSize, lineSize, stopAt, asked, askedLine] at hz ⊢; omega
      | some k => simp [readSize, lineSize, stopAt, asked, askedLine] at hz ⊢; omega
    rw [hze]
    obtain ⟨hz1, hz2, hz3⟩ := hz0
    obtain ⟨n, rfl⟩ : ∃ n : Nat, z = n := ⟨z.toNat, by omega⟩
    have hll := lineLen_le s.src.data
    rw [Src.readline_nat]
    by_cases hf : s.src.fails.headD false
    · rw [if_pos hf]
      dsimp only
      refine ⟨fun s' r he => (by simp at he), fun s' e he => ?_⟩
      simp at he
      obtain ⟨rfl, -⟩ := he
      exact ⟨⟨[], by simp⟩, rfl⟩
    · rw [if_neg hf]
      dsimp only
      split
      · rename_i hlt
        refine ⟨fun s' r he => (by simp at he), fun s' e he => ?_⟩
        simp at he
        obtain ⟨rfl, -⟩ := he
        obtain ⟨hn, ht⟩ := hlt
        have h0 : s.src.data = [] := by
          apply Classical.byContradiction
          intro hne
          have := lineLen_pos _ hne
          have hl : (List.take (min n (lineLen s.src.data)) s.src.data).length = 0 := by rw [ht]; rfl
          rw [List.length_take] at hl
          omega
        refine ⟨⟨[], ?_, rfl, rfl, by simp, Or.inl rfl⟩, ?_⟩ <;> simp [h0]
      · rename_i hlt
        refine ⟨fun s' r he => ?_, fun s' e he => (by simp at he)⟩
        simp at he
        obtain ⟨rfl, rfl⟩ := he
        refine ⟨⟨by simp, by simp, rfl, by simp; omega⟩, fun hr => ?_, ?_⟩
        · right
          apply hz3
          apply Classical.byContradiction
          intro hn
          exact hlt ⟨hn, hr⟩
        · simp only [List.length_take]; omega

theorem readlinesGo_none : ∀ (n : Nat) (s : LS) (p q stop : Int) (acc : List Bytes),
    readlinesGo n s none p stop acc = readlinesGo n s none q stop acc
  | 0, _, _, _, _, _ => rfl
  | n + 1, s, p, q, stop, acc => by
    unfold readlinesGo
    dsimp only [Option.map_none]
    split
    · rfl
    · split
      · exact readlinesGo_none n _ _ _ stop _
      · rfl

theorem readlinesGo_spec : ∀ (n : Nat) (s : LS) (size : Option Int) (stop : Int) (acc : List Bytes),
    (∀ k, size = some k → 0 < k ∨ stop ≤ s.pos) → stop ≤ s.limit → (stop - s.pos).toNat < n →
    (∀ s' r, readlinesGo n s size s.pos stop acc = (s', .ok r) →
      ∃ q, r = acc ++ q ∧ OkT s s' q.flatten ∧ stop ≤ s'.pos ∧ ∀ l ∈ q, l ≠ []) ∧
    (∀ s' e, readlinesGo n s size s.pos stop acc = (s', .error e) →
      ∃ t r, OkT s t r ∧ ErrT t s' ∧ s'.src.data = t.src.data ∧ s'.pos < stop)
  | 0, s, size, stop, acc, _, _, hn => by omega
  | n + 1, s, size, stop, acc, hv, hl, hn => by
    unfold readlinesGo
    have hs : (size.map fun z => z - (s.pos - s.pos)) = size := by cases size <;> simp
    dsimp only
    rw [hs]
    split
    · rename_i hge
      refine ⟨fun s' r he => ?_, fun s' e he => by simp at he⟩
      simp at he
      obtain ⟨rfl, rfl⟩ := he
      exact ⟨[], by simp, OkT.refl s, hge, by simp⟩
    · rename_i hge
      have hv' : ∀ k, size = some k → 0 ≤ k := fun k hk => by
        rcases hv k hk with h | h <;> omega
      have sp := readline_spec s size hv'
      split
      · rename_i t l hrl
        obtain ⟨hok, hne, -⟩ := sp.1 t l hrl
        have hlne : l ≠ [] := by
          intro h0
          rcases hne h0 with h | h
          · omega
          · have := hv 0 h; omega
        have hlpos : 0 < l.length := List.length_pos_iff.2 hlne
        obtain ⟨o1, o2, o3, o4⟩ := hok
        have hlp : (if size.isSome then t.pos else s.pos) = t.pos ∨ size = none := by
          cases size <;> simp
        have ih := readlinesGo_spec n t size stop (acc ++ [l])
          (fun k hk => by rcases hv k hk with h | h
                          · exact Or.inl h
                          · omega) (by omega) (by omega)
        have heq : readlinesGo n t size (if size.isSome then t.pos else s.pos) stop (acc ++ [l])
            = readlinesGo n t size t.pos stop (acc ++ [l]) := by
          cases size with
          | some k => simp
          | none => exact readlinesGo_none n t _ _ stop _
        rw [heq]
        refine ⟨fun s' r he => ?_, fun s' e he => ?_⟩
        · obtain ⟨q, rfl, hq, hst, hqn⟩ := ih.1 s' r he
          refine ⟨l :: q, by simp, ?_, hst, ?_⟩
          · have := OkT.trans ⟨o1, o2, o3, o4⟩ hq
            simpa using this
          · intro x hx
            rcases List.mem_cons.1 hx with rfl | hx
            · exact hlne
            · exact hqn x hx
        · obtain ⟨u, r, hu, hs', hd⟩ := ih.2 s' e he
          exact ⟨u, l ++ r, OkT.trans ⟨o1, o2, o3, o4⟩ hu, hs', hd⟩
      · rename_i t e hrl
        obtain ⟨he1, he2⟩ := sp.2 t e hrl
        refine ⟨fun s' r he => by simp at he, fun s' e he => ?_⟩
        simp at he
        obtain ⟨rfl, -⟩ := he
        refine ⟨s, [], OkT.refl s, he1, he2, ?_⟩
        obtain ⟨x, -, hx, -⟩ := he1
        omega

theorem readlines_spec (s : LS) (size : Option Int) :
    (∀ s' r, readlines s size = (s', .ok r) → OkT s s' r.flatten ∧
      stopAt s size ≤ s'.pos ∧
      ∀ l ∈ r, l ≠ []) ∧
    (∀ s' e, readlines s size = (s', .error e) →
      ∃ t r, OkT s t r ∧ ErrT t s' ∧ s'.src.data = t.src.data ∧ s'.pos < s.limit) := by
  unfold readlines
  dsimp only
  generalize hz : stopAt s size = z
  have h1 : ∀ k, size = some k → 0 < k ∨ z ≤ s.pos := fun k hk => by subst hk; simp [readSize, lineSize, stopAt] at hz; omega
  have h2 : z ≤ s.limit := by cases size <;> simp [readSize, lineSize, stopAt] at hz <;> omega
  have sp := readlinesGo_spec ((z - s.pos).toNat + 1) s size z [] h1 h2 (by omega)
  refine ⟨fun s' r he => ?_, fun s' e he => ?_⟩
  · obtain ⟨q, rfl, h⟩ := sp.1 s' r he
    exact h
  · obtain ⟨t, r, a, b, c, d⟩ := sp.2 s' e he
    exact ⟨t, r, a, b, c, by omega⟩

theorem exhaustGo_spec : ∀ (n : Nat) (s : LS) (toRead chunk : Int), 0 ≤ s.pos → 0 < chunk →
    toRead = s.limit - s.pos → toRead.toNat < n →
    (∀ s' u, exhaustGo n s toRead chunk = (s', .ok u) → (∃ r, OkT s s' r) ∧ s.limit ≤ s'.pos) ∧
    (∀ s' e, exhaustGo n s toRead chunk = (s', .error e) → ∃ t r, OkT s t r ∧ ErrT t s')
  | 0, s, toRead, chunk, _, _, _, hn => by omega
  | n + 1, s, toRead, chunk, hp, hc, ht, hn => by
    unfold exhaustGo
    split
    · rename_i hpos
      dsimp only
      have sp := read_spec s (some (min toRead chunk)) (fun k hk => by simp at hk; omega) hp
      split
      · rename_i t b hr
        obtain ⟨hok, hlen⟩ := sp.1 t b hr
        have hlen' : (b.length : Int) = min toRead chunk := by
          simp only [asked] at hlen
          rw [if_neg (by omega)] at hlen
          omega
        obtain ⟨o1, o2, o3, o4⟩ := hok
        have ih := exhaustGo_spec n t (toRead - min toRead chunk) (min toRead chunk)
          (by omega) (by omega) (by omega) (by omega)
        refine ⟨fun s' u he => ?_, fun s' e he => ?_⟩
        · obtain ⟨⟨r, hr'⟩, hl⟩ := ih.1 s' u he
          exact ⟨⟨b ++ r, OkT.trans ⟨o1, o2, o3, o4⟩ hr'⟩, by omega⟩
        · obtain ⟨u, r, hu, hs'⟩ := ih.2 s' e he
          exact ⟨u, b ++ r, OkT.trans ⟨o1, o2, o3, o4⟩ hu, hs'⟩
      · rename_i t e hr
        have he1 := sp.2 t e hr
        refine ⟨fun s' r he => by simp at he, fun s' e he => ?_⟩
        simp at he
        obtain ⟨rfl, -⟩ := he
        exact ⟨s, [], OkT.refl s, he1⟩
    · rename_i hpos
      refine ⟨fun s' r he => ?_, fun s' e he => by simp at he⟩
      simp at he
      subst he
      exact ⟨⟨[], OkT.refl s⟩, by omega⟩

/-- Every call with permitted arguments. -/
theorem step_spec (s : LS) (o : Op) (hv : Valid o) (hp : 0 ≤ s.pos) :
    (∀ s' r, step s o = (s', .ok r) → (∃ q, OkT s s' q ∧
      ((∀ c, o ≠ .exhaust c) → q = r.flatten) ∧ (∀ c, o = .exhaust c → r = [] ∧ s.limit ≤ s'.pos))) ∧
    (∀ s' e, step s o = (s', .error e) → ∃ t q, OkT s t q ∧ ErrT t s' ∧
      ((∀ c, o ≠ .exhaust c) → (∀ c, o ≠ .readlines c) → q = [])) := by
  cases o with
  | read n =>
    have sp := read_spec s n hv hp
    rcases hr : read s n with ⟨t, (e | b)⟩
    · simp only [step, hr, Except.map]
      refine ⟨fun s' r he => by simp at he, fun s' e' he => ?_⟩
      simp at he
      obtain ⟨rfl, -⟩ := he
      exact ⟨s, [], OkT.refl s, sp.2 _ _ hr, by simp⟩
    · simp only [step, hr, Except.map]
      refine ⟨fun s' r he => ?_, fun s' e' he => by simp at he⟩
      simp at he
      obtain ⟨rfl, rfl⟩ := he
      exact ⟨b, (sp.1 _ _ hr).1, by simp, by simp⟩
  | readline n =>
    have sp := readline_spec s n hv
    rcases hr : readline s n with ⟨t, (e | b)⟩
    · simp only [step, hr, Except.map]
      refine ⟨fun s' r he => by simp at he, fun s' e' he => ?_⟩
      simp at he
      obtain ⟨rfl, -⟩ := he
      exact ⟨s, [], OkT.refl s, (sp.2 _ _ hr).1, by simp⟩
    · simp only [step, hr, Except.map]
      refine ⟨fun s' r he => ?_, fun s' e' he => by simp at he⟩
      simp at he
      obtain ⟨rfl, rfl⟩ := he
      exact ⟨b, (sp.1 _ _ hr).1, by simp, by simp⟩
  | next =>
    have sp := readline_spec s none (by simp)
    rcases hr : readline s none with ⟨t, (e | b)⟩
    · simp only [step, hr]
      refine ⟨fun s' r he => by simp at he, fun s' e' he => ?_⟩
      simp at he
      obtain ⟨rfl, -⟩ := he
      exact ⟨s, [], OkT.refl s, (sp.2 _ _ hr).1, by simp⟩
    · simp only [step, hr]
      have := (sp.1 _ _ hr).1
      by_cases hb : b = []
      · subst hb
        simp only [if_true]
        refine ⟨fun s' r he => by simp at he, fun s' e' he => ?_⟩
        simp at he
        obtain ⟨rfl, -⟩ := he
        obtain ⟨o1, o2, o3, o4⟩ := this
        exact ⟨s, [], OkT.refl s, ⟨[], o1, by simpa using o2, o3, by simp, Or.inl rfl⟩, by simp⟩
      · simp only [hb, if_false]
        refine ⟨fun s' r he => ?_, fun s' e' he => by simp at he⟩
        simp at he
        obtain ⟨rfl, rfl⟩ := he
        exact ⟨b, this, by simp, by simp⟩
  | readlines n =>
    have sp := readlines_spec s n
    refine ⟨fun s' r he => ⟨r.flatten, (sp.1 _ _ he).1, by simp, by simp⟩, fun s' e he => ?_⟩
    obtain ⟨t, q, h1, h2, -⟩ := sp.2 _ _ he
    exact ⟨t, q, h1, h2, fun _ h => absurd rfl (h n)⟩
  | exhaust c =>
    have hc : 0 < c := hv
    have sp := exhaustGo_spec ((s.limit - s.pos).toNat + 1) s (s.limit - s.pos) c hp hc rfl (by omega)
    rcases hr : exhaust s c with ⟨t, (e | b)⟩
    · simp only [step, hr, Except.map]
      refine ⟨fun s' r he => by simp at he, fun s' e' he => ?_⟩
      simp at he
      obtain ⟨rfl, -⟩ := he
      obtain ⟨t, q, h1, h2⟩ := sp.2 _ _ hr
      exact ⟨t, q, h1, h2, fun h => absurd rfl (h c)⟩
    · simp only [step, hr, Except.map]
      refine ⟨fun s' r he => ?_, fun s' e' he => by simp at he⟩
      simp at he
      obtain ⟨rfl, rfl⟩ := he
      obtain ⟨⟨q, hq⟩, hl⟩ := sp.1 _ _ hr
      exact ⟨q, hq, fun h => absurd rfl (h c), fun _ _ => ⟨rfl, hl⟩⟩

/-- What every reachable state satisfies: the bytes taken are a prefix of the data, at most
`limit` many, and `_pos` counts them unless the wrapped stream is at its end. -/
def Inv (D : Bytes) (L : Int) (s : LS) : Prop :=
  s.limit = L ∧ 0 ≤ s.pos ∧ ∃ pre : Bytes, D = pre ++ s.src.data ∧ pre.length ≤ L.toNat ∧ s.pos ≤ pre.length ∧
    (s.pos = pre.length ∨ s.src.data = [])

theorem Inv.ok {D L s s' r} (h : Inv D L s) (k : OkT s s' r) : Inv D L s' := by
  obtain ⟨h1, h2, pre, h3, h4, h5, h6⟩ := h
  obtain ⟨k1, k2, k3, k4⟩ := k
  refine ⟨by omega, by omega, pre ++ r, by rw [h3, k1, List.append_assoc], ?_, ?_, ?_⟩
  · rcases h6 with h6 | h6
    · simp only [List.length_append]; omega
    · rw [h6] at k1
      have : r = [] := (List.append_eq_nil_iff.1 k1.symm).1
      simpa [this] using h4
  · simp only [List.length_append]; omega
  · rcases h6 with h6 | h6
    · left; simp only [List.length_append]; omega
    · right
      rw [h6] at k1
      exact (List.append_eq_nil_iff.1 k1.symm).2

theorem Inv.err {D L s s'} (h : Inv D L s) (k : ErrT s s') : Inv D L s' := by
  obtain ⟨h1, h2, pre, h3, h4, h5, h6⟩ := h
  obtain ⟨x, k1, k2, k3, k4, k5⟩ := k
  refine ⟨by omega, by omega, pre ++ x, by rw [h3, k1, List.append_assoc], ?_, ?_, ?_⟩
  · rcases h6 with h6 | h6
    · simp only [List.length_append]; omega
    · rw [h6] at k1
      have : x = [] := (List.append_eq_nil_iff.1 k1.symm).1
      simpa [this] using h4
  · simp only [List.length_append]; omega
  · rcases h6 with h6 | h6
    · rcases k5 with rfl | k5
      · left; simp; omega
      · exact Or.inr k5
    · right
      rw [h6] at k1
      exact (List.append_eq_nil_iff.1 k1.symm).2

theorem Inv.step {D L s} (h : Inv D L s) (o : Op) (hv : Valid o) : Inv D L (step s o).1 := by
  have sp := step_spec s o hv h.2.1
  rcases hs : Stream.step s o with ⟨t, (e | r)⟩
  · obtain ⟨u, q, h1, h2, -⟩ := sp.2 _ _ hs
    exact (h.ok h1).err h2
  · obtain ⟨q, h1, -⟩ := sp.1 _ _ hs
    exact h.ok h1

theorem Inv.run {D L} : ∀ (ops : List Op) (s : LS), Inv D L s → (∀ o ∈ ops, Valid o) → Inv D L (run s ops)
  | [], _, h, _ => h
  | o :: ops, s, h, hv =>
    Inv.run ops (Stream.step s o).1 (h.step o (hv o (by simp))) (fun p hp => hv p (by simp [hp]))

theorem Inv.init (D : Bytes) (fails : List Bool) (L : Int) : Inv D L ⟨⟨D, fails⟩, 0, L⟩ :=
  ⟨rfl, Int.le_refl _, [], by simp⟩

/-- **C31, for permitted sizes.**  Whatever the wrapped stream holds, whichever of its calls
fail, and whatever calls are made: at most `limit` bytes are ever taken from it, and they are
its first ones. -/
theorem C31_limit_partial (D : Bytes) (fails : List Bool) (L : Int) (ops : List Op)
    (hv : ∀ o ∈ ops, Valid o) :
    ∃ taken, D = taken ++ (run ⟨⟨D, fails⟩, 0, L⟩ ops).src.data ∧ taken.length ≤ L.toNat := by
  obtain ⟨-, -, pre, h1, h2, -⟩ := Inv.run ops _ (Inv.init D fails L) hv
  exact ⟨pre, h1, h2⟩

/-- **C31 fails** for the other sizes: `readline(-1)` and `read(-2)` read past the limit. -/
theorem C31_limit_false :
    (∃ (D : Bytes) (L : Int), 0 ≤ L ∧ L.toNat + (run ⟨⟨D, []⟩, 0, L⟩ [.readline (some (-1))]).src.data.length < D.length) ∧
    (∃ (D : Bytes) (L : Int), 0 ≤ L ∧ L.toNat + (run ⟨⟨D, []⟩, 0, L⟩ [.read (some (-2))]).src.data.length < D.length) :=
  ⟨⟨b%"abcdef", 3, by decide, by decide⟩, ⟨b%"abcdef", 3, by decide, by decide⟩⟩

example : (run ⟨⟨b%"ab\ncd\nef", [false, true]⟩, 0, 5⟩
    [.readline none, .read none, .read (some 1), .readlines none]).src.data = b%"\nef" := by decide

/-- What the caller has received in total. -/
def received (rs : List (Except PyErr (List Bytes))) : Bytes :=
  (rs.map fun | .ok r => r.flatten | .error _ => []).flatten

/-- Calls that discard what they took when they fail (`readlines`, `exhaust`) succeeded. -/
def BulkOk : List Op → List (Except PyErr (List Bytes)) → Prop
  | o :: ops, r :: rs =>
    (((∃ c, o = .exhaust c) ∨ (∃ c, o = .readlines c)) → ∃ v, r = .ok v) ∧ BulkOk ops rs
  | _, _ => True

theorem received_cons (r : Except PyErr (List Bytes)) (rs) :
    received (r :: rs) = (match r with | .ok r => r.flatten | .error _ => []) ++ received rs := rfl

/-- `X ++ received` is the whole of what was taken, unless the end has been reached. -/
theorem received_aux {D : Bytes} {L : Int} : ∀ (ops : List Op) (s : LS) (X : Bytes), Inv D L s →
    (∀ o ∈ ops, Valid o) → BulkOk ops (results s ops) →
    (D = X ++ s.src.data ∨ (∃ Y, D = X ++ Y ++ s.src.data ∧ (s.src.data = [] ∨ L ≤ s.pos))) →
    ∃ Z, D = X ++ received (results s ops) ++ Z ++ (run s ops).src.data ∧
      (Z ≠ [] → (run s ops).src.data = [] ∨ L ≤ (run s ops).pos)
  | [], s, X, hi, _, _, hx => by
    rcases hx with hx | ⟨Y, hY, hs⟩
    · exact ⟨[], by simpa [results, received, run] using hx, by simp⟩
    · exact ⟨Y, by simpa [results, received, run] using hY, fun _ => hs⟩
  | o :: ops, s, X, hi, hv, hb, hx => by
    have hvo := hv o (by simp)
    have hv' : ∀ p ∈ ops, Valid p := fun p hp => hv p (by simp [hp])
    have sp := step_spec s o hvo hi.2.1
    have hi' := hi.step o hvo
    have hL : s.limit = L := hi.1
    obtain ⟨hb1, hb2⟩ := hb
    show ∃ Z, D = X ++ received ((step s o).2 :: results (step s o).1 ops) ++ Z ++ (run (step s o).1 ops).src.data ∧ _
    rw [received_cons]
    rcases hs : Stream.step s o with ⟨t, (e | r)⟩
    · rw [hs] at hi' hb1 hb2
      have he : (∀ c, o ≠ .exhaust c) ∧ (∀ c, o ≠ .readlines c) := by
        constructor <;> intro c hc
        · obtain ⟨v, hv⟩ := hb1 (Or.inl ⟨c, hc⟩); simp at hv
        · obtain ⟨v, hv⟩ := hb1 (Or.inr ⟨c, hc⟩); simp at hv
      obtain ⟨u, q, h1, h2, h3⟩ := sp.2 _ _ hs
      have hq := h3 he.1 he.2
      subst hq
      obtain ⟨o1, o2, o3, -⟩ := h1
      obtain ⟨x, k1, k2, k3, k4, k5⟩ := h2
      have := received_aux ops t X hi' hv' hb2 (by
        rcases hx with hx | ⟨Y, hY, hY2⟩
        · rcases k5 with rfl | k5
          · left; rw [hx, o1, k1]; simp
          · right; exact ⟨x, by rw [hx, o1, k1]; simp, Or.inl k5⟩
        · right
          refine ⟨Y ++ x, by rw [hY, o1, k1]; simp, ?_⟩
          rcases hY2 with h | h
          · left; rw [o1, k1] at h; simpa using (List.append_eq_nil_iff.1 (by simpa using h)).2
          · right; rw [k2, o2]; simpa using h)
      obtain ⟨Z, hZ, hZ2⟩ := this
      exact ⟨Z, by simpa [run, hs] using hZ, by simpa [run, hs] using hZ2⟩
    · rw [hs] at hi' hb1 hb2
      obtain ⟨q, ⟨o1, o2, o3, o4⟩, h2, h3⟩ := sp.1 _ _ hs
      by_cases hex : ∃ c, o = .exhaust c
      · obtain ⟨c, rfl⟩ := hex
        obtain ⟨rfl, hl⟩ := h3 c rfl
        have := received_aux ops t X hi' hv' hb2 (by
          right
          rcases hx with hx | ⟨Y, hY, -⟩
          · exact ⟨q, by rw [hx, o1]; simp, Or.inr (by omega)⟩
          · exact ⟨Y ++ q, by rw [hY, o1]; simp, Or.inr (by omega)⟩)
        obtain ⟨Z, hZ, hZ2⟩ := this
        exact ⟨Z, by simpa [run, hs] using hZ, by simpa [run, hs] using hZ2⟩
      · have hq : q = r.flatten := h2 fun c hc => hex ⟨c, hc⟩
        have := received_aux ops t (X ++ r.flatten) hi' hv' hb2 (by
          rcases hx with hx | ⟨Y, hY, hY2⟩
          · left; rw [hx, o1, hq]; simp
          · have hq0 : q = [] := by
              rcases hY2 with h | h
              · rw [h] at o1
                exact (List.append_eq_nil_iff.1 o1.symm).1
              · apply List.length_eq_zero_iff.1; omega
            right
            refine ⟨Y, by rw [hY, o1, ← hq, hq0]; simp, ?_⟩
            rcases hY2 with h | h
            · left; rw [h] at o1; exact (List.append_eq_nil_iff.1 o1.symm).2
            · right; omega)
        obtain ⟨Z, hZ, hZ2⟩ := this
        exact ⟨Z, by simpa [run, hs] using hZ, by simpa [run, hs] using hZ2⟩

/-- **C32, order.**  Over any history with permitted sizes in which the bulk calls succeed
(others may fail), what the caller received, put together, is a prefix of the first `limit`
bytes of the wrapped stream: nothing lost in between, nothing duplicated. -/
theorem C32_prefix_partial (D : Bytes) (fails : List Bool) (L : Int) (ops : List Op)
    (hv : ∀ o ∈ ops, Valid o) (hb : BulkOk ops (results ⟨⟨D, fails⟩, 0, L⟩ ops)) :
    received (results ⟨⟨D, fails⟩, 0, L⟩ ops) <+: D.take L.toNat := by
  have hi := Inv.init D fails L
  obtain ⟨Z, hZ, -⟩ := received_aux ops _ [] hi hv hb (Or.inl (by simp))
  obtain ⟨t, ht, hl⟩ := C31_limit_partial D fails L ops hv
  have hlen : (received (results ⟨⟨D, fails⟩, 0, L⟩ ops)).length ≤ t.length := by
    have := congrArg List.length (hZ.symm.trans ht)
    simp at this
    omega
  rw [List.prefix_take_iff]
  refine ⟨⟨Z ++ (run ⟨⟨D, fails⟩, 0, L⟩ ops).src.data, ?_⟩, by omega⟩
  rw [← List.append_assoc]
  simpa using hZ.symm

example : BulkOk [.read (some 2), .readline none, .exhaust 4]
      (results ⟨⟨b%"ab\ncdef", []⟩, 0, 6⟩ [.read (some 2), .readline none, .exhaust 4]) ∧
    received (results ⟨⟨b%"ab\ncdef", []⟩, 0, 6⟩ [.read (some 2), .readline none, .exhaust 4]) = b%"ab\n" := by
  refine ⟨⟨by simp, by simp, ⟨fun _ => ⟨[], by decide⟩, trivial⟩⟩, by decide⟩

/-- C32 fails when the wrapped stream fails during `readlines`: the lines read before are lost, and reading goes on
behind them. -/
theorem C32_readlines_false : ∃ (D : Bytes) (fails : List Bool) (L : Int),
    results ⟨⟨D, fails⟩, 0, L⟩ [.readlines none, .read none] = [.error .clientDisconnected, .ok [b%"bc"]] ∧
    ¬ received (results ⟨⟨D, fails⟩, 0, L⟩ [.readlines none, .read none]) <+: D.take L.toNat :=
  ⟨b%"a\nbc", [false, true], 4, by decide, by decide⟩

theorem onExhausted_err {s s' : LS} {e : PyErr} (h : onExhausted s = (s', .error e)) :
    e = .clientDisconnected := by
  unfold onExhausted at h
  split at h <;> simp at h
  exact h.2.symm

theorem read_err {s s' : LS} {z : Option Int} {e : PyErr} (h : read s z = (s', .error e)) :
    e = .clientDisconnected := by
  unfold read at h
  split at h
  · exact onExhausted_err h
  · dsimp only at h
    split at h
    · simp at h; exact h.2.symm
    · split at h <;> simp at h
      exact h.2.symm

theorem readline_err {s s' : LS} {z : Option Int} {e : PyErr} (h : readline s z = (s', .error e)) :
    e = .clientDisconnected := by
  unfold readline at h
  split at h
  · exact onExhausted_err h
  · dsimp only at h
    split at h
    · simp at h; exact h.2.symm
    · split at h <;> simp at h
      exact h.2.symm

theorem readlinesGo_err : ∀ (n : Nat) (s s' : LS) (z : Option Int) (p q : Int) (acc : List Bytes) (e : PyErr),
    readlinesGo n s z p q acc = (s', .error e) → e = .clientDisconnected
  | 0, _, _, _, _, _, _, _, h => by simp [readlinesGo] at h
  | n + 1, s, s', z, p, q, acc, e, h => by
    unfold readlinesGo at h
    dsimp only at h
    split at h
    · simp at h
    · split at h
      · exact readlinesGo_err n _ _ _ _ _ _ _ h
      · rename_i hr
        simp at h
        rw [← h.2]
        exact readline_err hr

theorem exhaustGo_err : ∀ (n : Nat) (s s' : LS) (t c : Int) (e : PyErr),
    exhaustGo n s t c = (s', .error e) → e = .clientDisconnected
  | 0, _, _, _, _, _, h => by simp [exhaustGo] at h
  | n + 1, s, s', t, c, e, h => by
    unfold exhaustGo at h
    split at h
    · dsimp only at h
      split at h
      · exact exhaustGo_err n _ _ _ _ _ h
      · rename_i hr
        simp at h
        rw [← h.2]
        exact read_err hr
    · simp at h

/-- A call ends in nothing else than a result, `ClientDisconnected`, or the `StopIteration`
of an iteration that reached the limit. -/
theorem step_err {s s' : LS} {o : Op} {e : PyErr} (h : step s o = (s', .error e)) :
    e = .clientDisconnected ∨ (o = .next ∧ e = .stopIteration ∧ s.limit ≤ s.pos) := by
  cases o with
  | read n =>
    rcases hr : read s n with ⟨t, (e' | b)⟩ <;> simp [step, hr, Except.map] at h
    exact Or.inl (h.2 ▸ read_err hr)
  | readline n =>
    rcases hr : readline s n with ⟨t, (e' | b)⟩ <;> simp [step, hr, Except.map] at h
    exact Or.inl (h.2 ▸ readline_err hr)
  | readlines n => exact Or.inl (readlinesGo_err _ _ _ _ _ _ _ _ h)
  | next =>
    rcases hr : readline s none with ⟨t, (e' | b)⟩
    · simp [step, hr] at h
      exact Or.inl (h.2 ▸ readline_err hr)
    · simp only [step, hr] at h
      split at h <;> simp at h
      rename_i hb
      obtain ⟨-, h2, -⟩ := (readline_spec s none (by simp)).1 _ _ hr
      rcases h2 hb with h3 | h3
      · exact Or.inr ⟨rfl, h.2.symm, h3⟩
      · simp at h3
  | exhaust c =>
    rcases hr : exhaust s c with ⟨t, (e' | b)⟩ <;> simp [step, hr, Except.map] at h
    exact Or.inl (h.2 ▸ exhaustGo_err _ _ _ _ _ _ hr)

theorem Inv.pos_le {D L s} (h : Inv D L s) : s.pos ≤ D.length := by
  obtain ⟨-, -, pre, h1, -, h2, -⟩ := h
  rw [h1, List.length_append]
  omega

/-- **C32, a short stream is reported.**  If the wrapped stream ends before the limit, then
after every history with permitted sizes (whatever was returned or failed so far) an
unbounded `read`, `readlines` or `exhaust` raises `ClientDisconnected`, and iteration and
`readline` never signal a regular end. -/
theorem C32_short_reported (D : Bytes) (fails : List Bool) (L : Int) (ops : List Op)
    (hv : ∀ o ∈ ops, Valid o) (hs : (D.length : Int) < L) :
    let s := run ⟨⟨D, fails⟩, 0, L⟩ ops
    (step s (.read none)).2 = .error .clientDisconnected ∧
    (step s (.read (some (-1)))).2 = .error .clientDisconnected ∧
    (step s (.readlines none)).2 = .error .clientDisconnected ∧
    (∀ c, 0 < c → (step s (.exhaust c)).2 = .error .clientDisconnected) ∧
    ((step s .next).2 = .error .clientDisconnected ∨ ∃ l, l ≠ [] ∧ (step s .next).2 = .ok [l]) ∧
    ((step s (.readline none)).2 = .error .clientDisconnected ∨
      ∃ l, l ≠ [] ∧ (step s (.readline none)).2 = .ok [l]) := by
  intro s
  have hi : Inv D L s := Inv.run ops _ (Inv.init D fails L) hv
  have hl : s.limit = L := hi.1
  have hp := hi.pos_le
  have aux : ∀ o, Valid o → (∀ s' r, step s o = (s', .ok r) → L ≤ s'.pos) → o ≠ .next →
      (step s o).2 = .error .clientDisconnected := by
    intro o ho hk hn
    have hi' := (hi.step o ho).pos_le
    rcases hs' : step s o with ⟨t, (e | r)⟩
    · rcases step_err hs' with h | h
      · rw [h]
      · exact absurd h.1 hn
    · have := hk _ _ hs'
      rw [hs'] at hi'
      simp only at hi'
      omega
  have hrd : ∀ n, asked (s.limit - s.pos) n = s.limit - s.pos → (∀ k, n = some k → -1 ≤ k) →
      ∀ s' r, step s (.read n) = (s', .ok r) → L ≤ s'.pos := by
    intro n hn hva s' r h
    rcases hr : read s n with ⟨t, (e' | b)⟩ <;> simp [step, hr, Except.map] at h
    obtain ⟨⟨-, o2, -⟩, hlen⟩ := (read_spec s n hva hi.2.1).1 _ _ hr
    rw [hn] at hlen
    rw [← h.1]
    omega
  refine ⟨aux _ (by simp [Valid]) (hrd none rfl (by simp)) (by simp),
    aux _ (by simp [Valid]) (hrd (some (-1)) (by simp [asked]) (by simp)) (by simp),
    aux _ trivial ?_ (by simp), fun c hc => aux _ hc ?_ (by simp), ?_, ?_⟩
  · intro s' r h
    have := ((readlines_spec s none).1 s' r h).2.1
    simpa [stopAt, hl] using this
  · intro s' r h
    obtain ⟨q, -, -, h3⟩ := (step_spec s (.exhaust c) hc hi.2.1).1 s' r h
    have := (h3 c rfl).2
    omega
  · rcases hs' : step s .next with ⟨t, (e | r)⟩
    · rcases step_err hs' with h | h
      · exact Or.inl (by rw [h])
      · omega
    · right
      rcases hr : readline s none with ⟨t', (e' | b)⟩ <;> simp only [step, hr] at hs'
      · simp at hs'
      · split at hs'
        · simp at hs'
        · rename_i hb
          simp at hs'
          exact ⟨b, hb, by rw [hs'.2]⟩
  · rcases hr : readline s none with ⟨t', (e' | b)⟩
    · left
      simp [step, hr, Except.map, readline_err hr]
    · right
      refine ⟨b, fun hb => ?_, by simp [step, hr, Except.map]⟩
      obtain ⟨-, h2, -⟩ := (readline_spec s none (by simp)).1 _ _ hr
      rcases h2 hb with h3 | h3
      · omega
      · simp at h3

example : (step (run ⟨⟨b%"abc", []⟩, 0, 10⟩ [.read (some 2)]) (.read none)).2
    = .error .clientDisconnected := by decide

/-- The wrapped stream does not fail and holds enough for the limit. -/
def Rich (s : LS) : Prop := s.src.fails = [] ∧ s.limit - s.pos ≤ s.src.data.length

theorem Rich.ok {s s' r} (h : Rich s) (k : OkT s s' r) (hf : s'.src.fails = []) : Rich s' := by
  obtain ⟨-, h2⟩ := h
  obtain ⟨k1, k2, k3, -⟩ := k
  refine ⟨hf, ?_⟩
  have := congrArg List.length k1
  simp at this
  omega

theorem onExhausted_rich {s : LS} (h : Rich s) :
    ∃ s' r, onExhausted s = (s', .ok r) ∧ s'.src.fails = [] := by
  unfold onExhausted
  rw [show (0 : Int) = ((0 : Nat) : Int) from rfl, Src.read_nat, h.1]
  exact ⟨_, _, rfl, rfl⟩

theorem read_rich {s : LS} (h : Rich s) (n : Option Int) (hv : ∀ k, n = some k → -1 ≤ k) (hp : 0 ≤ s.pos) :
    ∃ s' r, read s n = (s', .ok r) ∧ Rich s' := by
  suffices hh : ∃ s' r, read s n = (s', .ok r) ∧ s'.src.fails = [] by
    obtain ⟨s', r, h1, h2⟩ := hh
    exact ⟨s', r, h1, h.ok ((read_spec s n hv hp).1 _ _ h1).1 h2⟩
  unfold read
  split
  · exact onExhausted_rich h
  · rename_i hlt
    dsimp only
    have h0 : 0 ≤ min (s.limit - s.pos) (readSize s.limit n) := by
      cases n with
      | none => simp [readSize]; omega
      | some k =>
        have := hv k rfl
        simp only [readSize]
        split <;> omega
    generalize hm : min (s.limit - s.pos) (readSize s.limit n) = m at *
    obtain ⟨j, rfl⟩ : ∃ n : Nat, m = n := ⟨m.toNat, by omega⟩
    have hj : j ≤ s.src.data.length := by have := h.2; omega
    rw [Src.read_nat, h.1]
    simp [hj]

theorem readline_rich {s : LS} (h : Rich s) (n : Option Int) (hv : ∀ k, n = some k → 0 ≤ k) :
    ∃ s' r, readline s n = (s', .ok r) ∧ Rich s' := by
  suffices hh : ∃ s' r, readline s n = (s', .ok r) ∧ s'.src.fails = [] by
    obtain ⟨s', r, h1, h2⟩ := hh
    exact ⟨s', r, h1, h.ok ((readline_spec s n hv).1 _ _ h1).1 h2⟩
  unfold readline
  split
  · exact onExhausted_rich h
  · rename_i hlt
    dsimp only
    have h0 : 0 ≤ lineSize (s.limit - s.pos) n := by
      cases n with
      | none => simp [lineSize]; omega
      | some k =>
        have := hv k rfl
        simp only [lineSize]
        omega
    generalize hm : lineSize (s.limit - s.pos) n = m at *
    obtain ⟨j, rfl⟩ : ∃ n : Nat, m = n := ⟨m.toNat, by omega⟩
    rw [Src.readline_nat, h.1]
    have hne : s.src.data ≠ [] := by
      intro h0
      have := h.2
      rw [h0] at this
      simp at this
      omega
    have := lineLen_pos _ hne
    have h3 : ¬ ((j : Int) ≠ 0 ∧ List.take (min j (lineLen s.src.data)) s.src.data = []) := by
      rintro ⟨a, b⟩
      rcases List.take_eq_nil_iff.1 b with b | b
      · omega
      · exact hne b
    simp only [List.headD_nil, Bool.false_eq_true, if_false]
    rw [if_neg h3]
    exact ⟨_, _, rfl, rfl⟩

theorem readlinesGo_rich : ∀ (n : Nat) (s : LS) (z : Option Int) (q : Int) (acc : List Bytes), Rich s →
    (∀ k, z = some k → 0 ≤ k ∨ q ≤ s.pos) →
    ∃ s' r, readlinesGo n s z s.pos q acc = (s', .ok r) ∧ Rich s'
  | 0, s, _, _, _, h, _ => ⟨s, _, rfl, h⟩
  | n + 1, s, z, q, acc, h, hv => by
    unfold readlinesGo
    have hs : (z.map fun z => z - (s.pos - s.pos)) = z := by cases z <;> simp
    dsimp only
    rw [hs]
    split
    · exact ⟨_, _, rfl, h⟩
    · rename_i hge
      have hv' : ∀ k, z = some k → 0 ≤ k := fun k hk => by rcases hv k hk with h | h <;> omega
      obtain ⟨t, l, h1, h2⟩ := readline_rich h z hv'
      rw [h1]
      simp only
      have heq : readlinesGo n t z (if z.isSome then t.pos else s.pos) q (acc ++ [l])
            = readlinesGo n t z t.pos q (acc ++ [l]) := by
          cases z with
          | some k => simp
          | none => exact readlinesGo_none n t _ _ _ _
      rw [heq]
      exact readlinesGo_rich n t z q _ h2 (fun k hk => Or.inl (hv' k hk))

theorem exhaustGo_rich : ∀ (n : Nat) (s : LS) (t c : Int), Rich s → 0 ≤ s.pos → 0 < c →
    ∃ s' r, exhaustGo n s t c = (s', .ok r) ∧ Rich s'
  | 0, s, _, _, h, _, _ => ⟨s, _, rfl, h⟩
  | n + 1, s, t, c, h, hp, hc => by
    unfold exhaustGo
    split
    · rename_i ht
      dsimp only
      have hva : ∀ k, some (min t c) = some k → -1 ≤ k := fun k hk => by simp at hk; omega
      obtain ⟨u, r, h1, h2⟩ := read_rich h (some (min t c)) hva hp
      rw [h1]
      simp only
      obtain ⟨-, o2, -⟩ := ((read_spec s _ hva hp).1 _ _ h1).1
      exact exhaustGo_rich n u _ _ h2 (by omega) (by omega)
    · exact ⟨_, _, rfl, h⟩

theorem step_rich {s : LS} (h : Rich s) (o : Op) (hv : Valid o) (hp : 0 ≤ s.pos) :
    Rich (step s o).1 ∧ ((∃ r, (step s o).2 = .ok r) ∨
      (o = .next ∧ (step s o).2 = .error .stopIteration ∧ s.limit ≤ s.pos ∧ OkT s (step s o).1 [])) := by
  cases o with
  | read n =>
    obtain ⟨s', r, h1, h2⟩ := read_rich h n hv hp
    simp only [step, h1, Except.map]
    exact ⟨h2, Or.inl ⟨_, rfl⟩⟩
  | readline n =>
    obtain ⟨s', r, h1, h2⟩ := readline_rich h n hv
    simp only [step, h1, Except.map]
    exact ⟨h2, Or.inl ⟨_, rfl⟩⟩
  | readlines n =>
    obtain ⟨s', r, h1, h2⟩ := readlinesGo_rich ((stopAt s n - s.pos).toNat + 1) s n (stopAt s n) [] h (by
      intro k hk; subst hk; simp only [stopAt]; omega)
    have : step s (.readlines n) = (s', .ok r) := h1
    rw [this]
    exact ⟨h2, Or.inl ⟨_, rfl⟩⟩
  | next =>
    obtain ⟨s', r, h1, h2⟩ := readline_rich h none (by simp)
    simp only [step, h1]
    by_cases hr : r = []
    · subst hr
      obtain ⟨a, b, -⟩ := (readline_spec s none (by simp)).1 _ _ h1
      rcases b rfl with b | b
      · exact ⟨by simpa using h2, Or.inr ⟨by trivial, by simp, b, by simpa using a⟩⟩
      · simp at b
    · simp only [hr, if_false]
      exact ⟨h2, Or.inl ⟨_, rfl⟩⟩
  | exhaust c =>
    obtain ⟨s', r, h1, h2⟩ := exhaustGo_rich ((s.limit - s.pos).toNat + 1) s (s.limit - s.pos) c h hp hv
    have : exhaust s c = (s', .ok r) := h1
    simp only [step, this, Except.map]
    exact ⟨h2, Or.inl ⟨_, rfl⟩⟩

theorem rich_results {D : Bytes} {L : Int} : ∀ (ops : List Op) (s : LS), Rich s → Inv D L s →
    (∀ o ∈ ops, Valid o) → (∀ o ∈ ops, ∀ c, o ≠ .exhaust c) →
    OkT s (run s ops) (received (results s ops)) ∧ Rich (run s ops)
  | [], s, h, _, _, _ => ⟨OkT.refl s, h⟩
  | o :: ops, s, h, hi, hv, hx => by
    have hvo := hv o (by simp)
    obtain ⟨h1, h2⟩ := step_rich h o hvo hi.2.1
    obtain ⟨a, b⟩ := rich_results ops (step s o).1 h1 (hi.step o hvo) (fun p hp => hv p (by simp [hp]))
      (fun p hp => hx p (by simp [hp]))
    refine ⟨?_, b⟩
    show OkT s (run (step s o).1 ops) (received ((step s o).2 :: results (step s o).1 ops))
    rw [received_cons]
    rcases h2 with ⟨r, hr⟩ | ⟨-, hr, -, hk⟩
    · obtain ⟨q, hq, hq2, -⟩ := (step_spec s o hvo hi.2.1).1 (step s o).1 r (by rw [← hr])
      rw [hr]
      have hq' := hq2 (hx o (by simp))
      subst hq'
      exact hq.trans a
    · rw [hr]
      exact hk.trans a

/-- **C32, nothing is missing.**  If the wrapped stream does not fail and holds at least
`limit` bytes, every call with permitted sizes succeeds (iteration ends at the limit), and
whatever mix of calls came first, a final `read()` completes what the caller received to
exactly the first `limit` bytes. -/
theorem C32_complete (D : Bytes) (L : Int) (h0 : 0 ≤ L) (hL : L ≤ D.length) (ops : List Op)
    (hv : ∀ o ∈ ops, Valid o) :
    (∀ o, Valid o → (∃ r, (step (run ⟨⟨D, []⟩, 0, L⟩ ops) o).2 = .ok r) ∨
      (o = .next ∧ (step (run ⟨⟨D, []⟩, 0, L⟩ ops) o).2 = .error .stopIteration)) ∧
    ((∀ o ∈ ops, ∀ c, o ≠ .exhaust c) →
      received (results ⟨⟨D, []⟩, 0, L⟩ (ops ++ [.read none])) = D.take L.toNat) := by
  have hi := Inv.init D [] L
  have hr : Rich ⟨⟨D, []⟩, 0, L⟩ := ⟨rfl, by simpa using hL⟩
  have hrun : ∀ (ops : List Op) (s : LS), Rich s → Inv D L s → (∀ o ∈ ops, Valid o) → Rich (run s ops) := by
    intro ops
    induction ops with
    | nil => intro s h _ _; exact h
    | cons o ops ih =>
      intro s h hi hv
      have hvo := hv o (by simp)
      exact ih _ (step_rich h o hvo hi.2.1).1 (hi.step o hvo) (fun p hp => hv p (by simp [hp]))
  constructor
  · intro o ho
    have hi' := Inv.run ops _ hi hv
    rcases (step_rich (hrun ops _ hr hi hv) o ho hi'.2.1).2 with h | h
    · exact Or.inl h
    · exact Or.inr ⟨h.1, h.2.1⟩
  · intro hx
    have hv' : ∀ o ∈ ops ++ [Op.read none], Valid o := by
      intro o ho
      rcases List.mem_append.1 ho with h | h
      · exact hv o h
      · simp at h; subst h; simp [Valid]
    have hx' : ∀ o ∈ ops ++ [Op.read none], ∀ c, o ≠ .exhaust c := by
      intro o ho
      rcases List.mem_append.1 ho with h | h
      · exact hx o h
      · simp at h; subst h; simp
    obtain ⟨⟨a1, a2, a3, a4⟩, -⟩ := rich_results (ops ++ [.read none]) _ hr hi hv' hx'
    have hi' := Inv.run ops _ hi hv
    have hrr := hrun ops _ hr hi hv
    have hend : run ⟨⟨D, []⟩, 0, L⟩ (ops ++ [.read none]) = (step (run ⟨⟨D, []⟩, 0, L⟩ ops) (.read none)).1 := by
      simp [run]
    obtain ⟨s', r, h1, -⟩ := read_rich hrr none (by simp) hi'.2.1
    obtain ⟨⟨-, o2, -⟩, hlen⟩ := (read_spec _ none (by simp) hi'.2.1).1 _ _ h1
    have hpos : L ≤ (run ⟨⟨D, []⟩, 0, L⟩ (ops ++ [.read none])).pos := by
      rw [hend]
      simp only [step, h1]
      have := hi'.1
      simp only [asked] at hlen
      omega
    simp only [Int.zero_add, Int.sub_zero] at a2 a4
    have hl : (received (results ⟨⟨D, []⟩, 0, L⟩ (ops ++ [.read none]))).length = L.toNat := by omega
    simp only at a1
    rw [← hl]
    exact (List.prefix_iff_eq_take.1 ⟨_, a1.symm⟩)

example : received (results ⟨⟨b%"ab\ncd\nef", []⟩, 0, 7⟩ ([.readline none, .read (some 1), .readlines (some 2)] ++ [.read none]))
    = b%"ab\ncd\ne" := by decide

end Verif.Stream
