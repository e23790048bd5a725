import Verif.Model.StreamPos
import Verif.Props.Stream
import Verif.Props.FileStorage
/-!
C131: the lines and the position of a limited stream.
-/
namespace Verif.Props.LinesP
open Verif Verif.Stream Verif.FileStorage Verif.Props.FileP

/-- What is still to come: the body without what was taken. -/
def rest (s : LS) : Bytes := s.src.data.take (s.limit - s.pos).toNat

/-! ### Lines -/

theorem cutLine_line {nl : UInt8} : ∀ {l r : Bytes}, l ≠ [] → nl ∉ l.dropLast → (l.getLast? = some nl ∨ r = []) →
    cutLine nl (l ++ r) = (l, r)
  | [], _, h, _, _ => absurd rfl h
  | [a], r, _, _, h => by
    rcases h with h | rfl
    · simp at h; subst h; simp [cutLine]
    · by_cases ha : a = nl
      · subst ha; simp [cutLine]
      · simp [cutLine, ha]
  | a :: b :: l, r, _, h1, h2 => by
    have h1' : a ≠ nl ∧ nl ∉ (b :: l).dropLast := by
      simp only [List.dropLast_cons_of_ne_nil (List.cons_ne_nil b l), List.mem_cons, not_or] at h1
      exact ⟨fun e => h1.1 e.symm, h1.2⟩
    have ih := cutLine_line (nl := nl) (l := b :: l) (r := r) (by simp) h1'.2 (by
      rcases h2 with h2 | h2
      · left; simpa using h2
      · exact Or.inr h2)
    simp only [List.cons_append] at ih ⊢
    rw [cutLine, ih]
    simp [h1'.1]

/-- Contents have one list of lines. -/
theorem lines_unique {nl : UInt8} : ∀ {ls : List Bytes} {n : Nat} {s : Bytes}, s.length ≤ n → IsLines nl s ls → ls = linesOf nl n s
  | [], n, s, _, h => by
    have : s = [] := h.1.symm
    subst this
    cases n <;> rfl
  | l :: ls, n, s, hn, ⟨h1, h2, h3⟩ => by
    have hl := h2 l (by simp)
    have hc : cutLine nl s = (l, ls.flatten) := by
      rw [← h1, List.flatten_cons]
      refine cutLine_line hl.1 hl.2 ?_
      cases ls with
      | nil => right; rfl
      | cons b m => left; exact h3 l (by simp)
    have hs : s = l ++ ls.flatten := by rw [← h1]; rfl
    have hpos : 0 < l.length := List.length_pos_iff.2 hl.1
    have hlen : s.length = l.length + ls.flatten.length := by rw [hs, List.length_append]
    obtain ⟨n, rfl⟩ : ∃ m, n = m + 1 := ⟨n - 1, by omega⟩
    obtain ⟨a, t, rfl⟩ : ∃ a t, s = a :: t := by
      cases s with
      | nil => simp at hlen; omega
      | cons a t => exact ⟨a, t, rfl⟩
    rw [linesOf, hc]
    have ih := lines_unique (nl := nl) (ls := ls) (n := n) (s := ls.flatten) (by simp at *; omega)
      ⟨rfl, fun x hx => h2 x (by simp [hx]), fun x hx => h3 x (by
        cases ls with
        | nil => simp at hx
        | cons b m => rw [List.dropLast_cons_of_ne_nil (List.cons_ne_nil b m)]; simp [hx])⟩
    rw [← ih]

theorem isLines_unique {nl : UInt8} {s : Bytes} {a b : List Bytes} (h : IsLines nl s a) (k : IsLines nl s b) : a = b := by
  rw [lines_unique (Nat.le_refl _) h, lines_unique (Nat.le_refl _) k]

theorem cut_take (d : Bytes) : ∀ n : Nat, cutLine 10 (d.take n) = (d.take (min n (lineLen d)), (d.take n).drop (min n (lineLen d))) := by
  induction d with
  | nil => intro n; simp [cutLine]
  | cons c cs ih =>
    intro n
    cases n with
    | zero => simp [cutLine]
    | succ n =>
      simp only [List.take_succ_cons, cutLine, lineLen]
      by_cases hc : c = 10
      · subst hc
        simp
      · simp only [hc, if_false, ih n]
        rw [Nat.add_min_add_right]
        simp

theorem rest_step {s s' : LS} {r : Bytes} (h : OkT s s' r) : rest s = r ++ rest s' := by
  obtain ⟨h1, h2, h3, h4⟩ := h
  unfold rest
  rw [h1, h3, h2, List.take_append]
  rw [List.take_of_length_le h4]
  congr 2
  omega

theorem readline_cut {s : LS} (h : Rich s) : ∃ s', readline s none = (s', .ok (cutLine 10 (rest s)).1) ∧ Rich s' ∧
    OkT s s' (cutLine 10 (rest s)).1 ∧ rest s' = (cutLine 10 (rest s)).2 := by
  obtain ⟨s', r, h1, h2⟩ := readline_rich h none (by simp)
  obtain ⟨k1, k2, k3⟩ := (readline_spec s none (by simp)).1 _ _ h1
  have hr : r = (cutLine 10 (rest s)).1 := by
    unfold rest
    rw [cut_take]
    simp only [askedLine, Nat.min_self] at k3
    rw [Nat.min_comm, ← k3, k1.1]
    simp
  subst hr
  refine ⟨s', h1, h2, k1, ?_⟩
  have := rest_step k1
  conv at this => lhs; rw [← cutLine_append 10 (rest s)]
  exact (List.append_cancel_left this).symm

theorem rest_nil {s : LS} (h : Rich s) : rest s = [] ↔ s.limit ≤ s.pos := by
  unfold rest
  have := h.2
  rw [List.take_eq_nil_iff]
  constructor
  · rintro (h | h)
    · omega
    · rw [h] at this; simp at this; omega
  · intro h; left; omega

theorem readlinesGo_lines : ∀ (n : Nat) (s : LS) (p : Int) (acc : List Bytes), Rich s → (rest s).length < n →
    ∃ s', readlinesGo n s none p s.limit acc = (s', .ok (acc ++ linesOf 10 (rest s).length (rest s))) ∧ Rich s' ∧
      OkT s s' (rest s)
  | 0, _, _, _, _, h => absurd h (by omega)
  | n + 1, s, p, acc, hr, hn => by
    unfold readlinesGo
    dsimp only [Option.map_none]
    by_cases he : s.pos ≥ s.limit
    · rw [if_pos he]
      have : rest s = [] := (rest_nil hr).2 he
      rw [this]
      exact ⟨s, by simp [linesOf], hr, OkT.refl s⟩
    · rw [if_neg he]
      obtain ⟨t, h1, h2, h3, h4⟩ := readline_cut hr
      rw [h1]
      dsimp only
      have hne : rest s ≠ [] := fun h => he ((rest_nil hr).1 h)
      obtain ⟨a, l, hal⟩ : ∃ a l, rest s = a :: l := by
        cases hh : rest s with
        | nil => exact absurd hh hne
        | cons a l => exact ⟨a, l, rfl⟩
      have hlen : (rest t).length ≤ l.length := by rw [h4, hal]; exact cutLine_shorter 10 a l
      have hl' : (rest s).length = l.length + 1 := by rw [hal]; rfl
      have ih := readlinesGo_lines n t (if (none : Option Int).isSome then t.pos else p) (acc ++ [(cutLine 10 (rest s)).1]) h2 (by omega)
      obtain ⟨s', i1, i2, i3⟩ := ih
      rw [h3.2.2.1] at i1
      refine ⟨s', ?_, i2, ?_⟩
      · rw [i1]
        have e1 : linesOf 10 (rest s).length (rest s) = (cutLine 10 (rest s)).1 :: linesOf 10 l.length (rest t) := by
          rw [hl', h4]
          rw [hal]; rfl
        have e2 : linesOf 10 l.length (rest t) = linesOf 10 (rest t).length (rest t) :=
          (lines_unique (n := l.length) hlen (linesOf_ok 10 _ _ (Nat.le_refl _))).symm
        rw [e1, e2]
        simp
      · have := h3.trans i3
        rw [h4, cutLine_append] at this
        exact this

/-! ### After any history -/

theorem rich_run {D : Bytes} {L : Int} (ops : List Op) (hL : L ≤ D.length) (hv : ∀ o ∈ ops, Valid o) :
    Rich (run (mk D [] L) ops) ∧ Inv D L (run (mk D [] L) ops) := by
  have go : ∀ (ops : List Op) (s : LS), Rich s → Inv D L s → (∀ o ∈ ops, Valid o) → Rich (run s ops) := by
    intro ops
    induction ops with
    | nil => intro s h _ _; exact h
    | cons o ops ih =>
      intro s h hi hv
      have hvo := hv o (by simp)
      exact ih _ (step_rich h o hvo hi.2.1).1 (hi.step o hvo) (fun p hp => hv p (by simp [hp]))
  exact ⟨go ops _ ⟨rfl, by simpa [mk] using hL⟩ (Inv.init D [] L) hv, Inv.run ops _ (Inv.init D [] L) hv⟩

/-- The part of the body behind a position. -/
def behind (D : Bytes) (L p : Int) : Bytes := (D.take L.toNat).drop p.toNat

theorem rest_behind {D : Bytes} {L : Int} {s : LS} (hr : Rich s) (hi : Inv D L s) (h0 : 0 ≤ L) : rest s = behind D L (tell s) := by
  obtain ⟨h1, h2, pre, h3, h4, h5, h6⟩ := hi
  have hp : s.pos = pre.length := by
    rcases h6 with h6 | h6
    · exact h6
    · have := hr.2
      rw [h6] at this
      simp at this
      omega
  unfold rest behind tell
  rw [h1, h3, hp]
  simp only [Int.toNat_natCast]
  rw [List.drop_take, List.drop_left]
  congr 1
  omega

/-- **C131, position.**  After any history of calls `tell()` is the number of bytes handed out, it lies
between zero and the limit, and the stream is exhausted exactly when it has reached the limit, that is
when nothing of the body is left. -/
theorem C131_tell (D : Bytes) (L : Int) (h0 : 0 ≤ L) (hL : L ≤ D.length) (ops : List Op) (hv : ∀ o ∈ ops, Valid o) :
    let s := run (mk D [] L) ops
    0 ≤ tell s ∧ tell s ≤ L ∧ s.src.data = D.drop (tell s).toNat ∧ (isExhausted s = true ↔ tell s = L) ∧
      (isExhausted s = true ↔ behind D L (tell s) = []) ∧
      ((∀ o ∈ ops, ∀ c, o ≠ .exhaust c) → tell s = (received (results (mk D [] L) ops)).length) := by
  intro s
  obtain ⟨hr, hi⟩ := rich_run ops hL hv
  have hb := rest_behind hr hi h0
  obtain ⟨h1, h2, pre, h3, h4, h5, h6⟩ := id hi
  have hp : s.pos = pre.length := by
    rcases h6 with h6 | h6
    · exact h6
    · have := hr.2
      rw [h6] at this
      simp at this
      have e : s.pos ≤ pre.length := h5
      show (run (mk D [] L) ops).pos = _
      omega
  have hex : isExhausted s = true ↔ L ≤ s.pos := by
    have : s.limit = L := h1
    simp [isExhausted, this]
  refine ⟨h2, ?_, ?_, ?_, ?_, ?_⟩
  · show s.pos ≤ L
    omega
  · show s.src.data = D.drop s.pos.toNat
    have e : D = pre ++ s.src.data := h3
    rw [hp, e]
    simp
  · rw [hex]
    show L ≤ s.pos ↔ s.pos = L
    omega
  · rw [← hb, rest_nil hr, hex]
    have : s.limit = L := h1
    show L ≤ s.pos ↔ s.limit ≤ s.pos
    rw [this]
  · intro hx
    obtain ⟨⟨_, a2, _⟩, _⟩ := rich_results ops (mk D [] L) ⟨rfl, by simpa [mk] using hL⟩ (Inv.init D [] L) hv hx
    show s.pos = _
    rw [a2]
    simp [mk]

/-- **C131, position after failures.**  Whatever calls of the wrapped stream fail, the position stays
within the limit and never counts more bytes than were taken. -/
theorem C131_tell_failing (D : Bytes) (fails : List Bool) (L : Int) (h0 : 0 ≤ L) (ops : List Op) (hv : ∀ o ∈ ops, Valid o) :
    let s := run (mk D fails L) ops
    0 ≤ tell s ∧ tell s ≤ L ∧ ∃ taken, D = taken ++ s.src.data ∧ tell s ≤ taken.length ∧
      (tell s = taken.length ∨ s.src.data = []) := by
  intro s
  obtain ⟨h1, h2, pre, h3, h4, h5, h6⟩ := Inv.run ops _ (Inv.init D fails L) hv
  refine ⟨h2, ?_, pre, h3, h5, h6⟩
  have : s.pos ≤ pre.length := h5
  show s.pos ≤ L
  omega

/-- **C131, a line.**  After any history `readline()` gives the first of the lines that are left, or
nothing if none is. -/
theorem C131_readline (D : Bytes) (L : Int) (h0 : 0 ≤ L) (hL : L ≤ D.length) (ops : List Op) (hv : ∀ o ∈ ops, Valid o)
    (ls : List Bytes) (hls : IsLines 10 (behind D L (tell (run (mk D [] L) ops))) ls) :
    (readline (run (mk D [] L) ops) none).2 = .ok (ls.headD []) := by
  obtain ⟨hr, hi⟩ := rich_run ops hL hv
  have hb := rest_behind hr hi h0
  obtain ⟨t, h1, _⟩ := readline_cut hr
  rw [h1, hb]
  rw [← hb] at hls
  cases ls with
  | nil =>
    have : rest (run (mk D [] L) ops) = [] := hls.1.symm
    rw [← hb, this]
    rfl
  | cons l ls =>
    have hc := hls.2.1 l (by simp)
    rw [← hb, ← hls.1, List.flatten_cons, cutLine_line hc.1 hc.2 (by
      cases ls with
      | nil => right; rfl
      | cons b m => left; exact hls.2.2 l (by simp))]
    rfl

/-- **C131, all lines.**  After any history `readlines()` gives the lines that are left, and the stream
is exhausted. -/
theorem C131_readlines (D : Bytes) (L : Int) (h0 : 0 ≤ L) (hL : L ≤ D.length) (ops : List Op) (hv : ∀ o ∈ ops, Valid o)
    (ls : List Bytes) (hls : IsLines 10 (behind D L (tell (run (mk D [] L) ops))) ls) :
    (readlines (run (mk D [] L) ops) none).2 = .ok ls ∧ isExhausted (readlines (run (mk D [] L) ops) none).1 = true := by
  obtain ⟨hr, hi⟩ := rich_run ops hL hv
  have hb := rest_behind hr hi h0
  have hlen : (rest (run (mk D [] L) ops)).length < ((run (mk D [] L) ops).limit - (run (mk D [] L) ops).pos).toNat + 1 := by
    unfold rest
    rw [List.length_take]
    omega
  obtain ⟨t, h1, h2, h3⟩ := readlinesGo_lines _ (run (mk D [] L) ops) (run (mk D [] L) ops).pos [] hr hlen
  have e : readlines (run (mk D [] L) ops) none = (t, .ok (linesOf 10 (rest (run (mk D [] L) ops)).length (rest (run (mk D [] L) ops)))) := by
    unfold readlines stopAt
    simpa using h1
  rw [e]
  refine ⟨?_, ?_⟩
  · rw [← hb] at hls
    rw [lines_unique (Nat.le_refl _) hls]
  · have := rest_step h3
    have ht : rest t = [] := by
      have := congrArg List.length this
      simp only [List.length_append] at this
      exact List.length_eq_zero_iff.1 (by omega)
    simpa [isExhausted] using (rest_nil h2).1 ht

theorem next_lines : ∀ (ls : List Bytes) (s : LS), Rich s → IsLines 10 (rest s) ls →
    results s (List.replicate (ls.length + 1) .next) = ls.map (fun l => .ok [l]) ++ [.error .stopIteration]
  | [], s, hr, h => by
    have h0 : rest s = [] := h.1.symm
    obtain ⟨t, h1, _⟩ := readline_cut hr
    rw [h0] at h1
    simp [results, step, h1, cutLine]
  | l :: ls, s, hr, h => by
    have hl := h.2.1 l (by simp)
    have hc : cutLine 10 (rest s) = (l, ls.flatten) := by
      rw [← h.1, List.flatten_cons]
      refine cutLine_line hl.1 hl.2 ?_
      cases ls with
      | nil => right; rfl
      | cons b m => left; exact h.2.2 l (by simp)
    obtain ⟨t, h1, h2, h3, h4⟩ := readline_cut hr
    rw [hc] at h1 h4
    have hs : step s .next = (t, .ok [l]) := by simp [step, h1, hl.1]
    have ih := next_lines ls t h2 (by
      rw [h4]
      refine ⟨rfl, fun x hx => h.2.1 x (by simp [hx]), fun x hx => h.2.2 x ?_⟩
      cases ls with
      | nil => simp at hx
      | cons b m => rw [List.dropLast_cons_of_ne_nil (List.cons_ne_nil b m)]; simp [hx])
    rw [List.length_cons, List.replicate_succ, results, hs]
    simp only [ih, List.map_cons, List.cons_append]

/-- **C131, iteration.**  After any history iterating gives the lines that are left, and then ends. -/
theorem C131_iteration (D : Bytes) (L : Int) (h0 : 0 ≤ L) (hL : L ≤ D.length) (ops : List Op) (hv : ∀ o ∈ ops, Valid o)
    (ls : List Bytes) (hls : IsLines 10 (behind D L (tell (run (mk D [] L) ops))) ls) :
    results (run (mk D [] L) ops) (List.replicate (ls.length + 1) .next) =
      ls.map (fun l => .ok [l]) ++ [.error .stopIteration] := by
  obtain ⟨hr, hi⟩ := rich_run ops hL hv
  rw [← rest_behind hr hi h0] at hls
  exact next_lines ls _ hr hls

/-- **C131, lines are there**: every body has lines, and only one list of them. -/
theorem C131_lines (b : Bytes) : ∃ ls, IsLines 10 b ls ∧ ∀ ls', IsLines 10 b ls' → ls' = ls :=
  ⟨_, linesOf_ok 10 b.length b (Nat.le_refl _), fun _ h => isLines_unique h (linesOf_ok 10 b.length b (Nat.le_refl _))⟩

theorem readlinesGo_hint (k : Int) (hk : 0 < k) : ∀ (n : Nat) (s : LS) (q : Int) (acc : List Bytes), Rich s → (q - s.pos).toNat < n →
    q ≤ s.limit → ∃ s' ls, readlinesGo n s (some k) s.pos q acc = (s', .ok (acc ++ ls)) ∧ Rich s' ∧ OkT s s' ls.flatten ∧
      q ≤ s'.pos ∧ (s.pos < q + k → s'.pos < q + k) ∧
      ∀ l ∈ ls, l ≠ [] ∧ (l.length : Int) ≤ k ∧ (10 : UInt8) ∉ l.dropLast
  | 0, _, _, _, _, h, _ => absurd h (by omega)
  | n + 1, s, q, acc, hr, hn, hq => by
    unfold readlinesGo
    have hs : ((some k).map fun z => z - (s.pos - s.pos)) = some k := by simp
    dsimp only
    rw [hs]
    by_cases he : s.pos ≥ q
    · rw [if_pos he]
      exact ⟨s, [], by simp, hr, OkT.refl s, he, fun h => h, by simp⟩
    · rw [if_neg he]
      obtain ⟨t, l, h1, h2⟩ := readline_rich hr (some k) (fun j hj => by simp at hj; omega)
      obtain ⟨k1, k2, k3⟩ := (readline_spec s (some k) (fun j hj => by simp at hj; omega)).1 _ _ h1
      rw [h1]
      simp only [Option.isSome_some, if_true]
      have hl : l ≠ [] := by
        intro h
        rcases k2 h with h | h
        · omega
        · simp at h; omega
      have hpos : 0 < l.length := List.length_pos_iff.2 hl
      simp only [askedLine] at k3
      have hlk : (l.length : Int) ≤ k := by omega
      obtain ⟨s', ls, i1, i2, i3, i4, i5, i6⟩ := readlinesGo_hint k hk n t q (acc ++ [l]) h2 (by
        have := k1.2.1
        omega) (by rw [k1.2.2.1]; exact hq)
      refine ⟨s', l :: ls, by rw [i1]; simp, i2, ?_, i4, ?_, ?_⟩
      · rw [List.flatten_cons]; exact k1.trans i3
      · intro _
        exact i5 (by have := k1.2.1; omega)
      · intro x hx
        rcases List.mem_cons.1 hx with rfl | hx
        · refine ⟨hl, hlk, ?_⟩
          have hle : x.length ≤ lineLen s.src.data := by omega
          have hx' : x = s.src.data.take x.length := by rw [k1.1]; simp
          rw [hx']
          have : s.src.data.take x.length = (cutLine 10 (s.src.data.take x.length)).1 := by
            rw [cut_take, Nat.min_eq_left hle]
          rw [this]
          exact (cutLine_inner 10 _).1
        · exact i6 x hx

/-- **C131, `readlines(n)`** (partial: these are pieces of lines).  After any history, for a positive
`n`, the pieces given are what comes next in the body, at least `n` bytes of it or all, and less than
twice `n`; none is empty, goes beyond a line, or is longer than `n`. -/
theorem C131_hint_partial (D : Bytes) (L : Int) (h0 : 0 ≤ L) (hL : L ≤ D.length) (ops : List Op) (hv : ∀ o ∈ ops, Valid o)
    (n : Int) (hn : 0 < n) :
    ∃ ls, (readlines (run (mk D [] L) ops) (some n)).2 = .ok ls ∧
      ls.flatten <+: behind D L (tell (run (mk D [] L) ops)) ∧
      (n ≤ ls.flatten.length ∨ ls.flatten = behind D L (tell (run (mk D [] L) ops))) ∧ (ls.flatten.length : Int) < 2 * n ∧
      ∀ l ∈ ls, l ≠ [] ∧ (l.length : Int) ≤ n ∧ (10 : UInt8) ∉ l.dropLast := by
  obtain ⟨hr, hi⟩ := rich_run ops hL hv
  have hb := rest_behind hr hi h0
  generalize hs : run (mk D [] L) ops = s at *
  obtain ⟨t, ls, h1, h2, h3, h4, h5, h6⟩ := readlinesGo_hint n hn ((stopAt s (some n) - s.pos).toNat + 1) s (stopAt s (some n)) [] hr
    (by omega) (by simp only [stopAt]; omega)
  have hrest := rest_step h3
  have hroom : (rest s).length = (s.limit - s.pos).toNat := by
    unfold rest
    rw [List.length_take]
    have := hr.2
    omega
  refine ⟨ls, ?_, ?_, ?_, ?_, h6⟩
  · unfold readlines
    dsimp only
    rw [h1]
    simp
  · rw [← hb, hrest]; exact ⟨_, rfl⟩
  · simp only [stopAt] at h4
    have hp := h3.2.1
    by_cases hc : n ≤ ls.flatten.length
    · exact Or.inl hc
    · right
      rw [← hb, hrest]
      have : (rest t).length = 0 := by
        have := congrArg List.length hrest
        rw [List.length_append] at this
        have := h3.2.2.2
        omega
      rw [List.length_eq_zero_iff.1 this]
      simp
  · have hp := h3.2.1
    simp only [stopAt] at h5
    have := h5 (by
      have h7 := hi.2.1
      have h8 : s.pos ≤ s.limit ∨ s.limit < s.pos := by omega
      rcases h8 with h8 | h8
      · omega
      · have := hi.2.2
        obtain ⟨pre, _, hp1, hp2, _⟩ := this
        have := hi.1
        omega)
    omega

/-- **C131 is false of `readlines(n)`**: it cuts lines, the first if it is longer than `n`, and a later
one at `n` bytes. -/
theorem C131_hint_false :
    (readlines (mk b%"abcdef\ngh" [] 9) (some 3)).2 = .ok [b%"abc"] ∧
    (readlines (mk b%"a\nbcdefgh\n" [] 10) (some 4)).2 = .ok [b%"a\n", b%"bcde"] := by
  constructor <;> decide

example : IsLines 10 (behind b%"ab\ncd\nef" 7 (tell (run (mk b%"ab\ncd\nef" [] 7) [.read (some 1)]))) [b%"b\n", b%"cd\n", b%"e"] := by
  refine ⟨by decide, by decide, by decide⟩
example : (readlines (run (mk b%"ab\ncd\nef" [] 7) [.read (some 1)]) none).2 = .ok [b%"b\n", b%"cd\n", b%"e"] := by decide
example : results (mk b%"ab\nc" [] 4) [.next, .next, .next] = [.ok [b%"ab\n"], .ok [b%"c"], .error .stopIteration] := by decide
example : tell (run (mk b%"abc" [false, true] 3) [.read (some 1), .read none]) = 1 := by decide

end Verif.Props.LinesP
