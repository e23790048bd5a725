import Verif.Props.Dispatch
/-!
C150: the order in which views and exception handlers are registered
(`/repo/verktyg/dispatch.py`, `/repo/verktyg/exception_dispatch.py`,
`/repo/verktyg/application.py`).
-/
namespace Verif.Props.OrderP
open Verif Verif.Accept Verif.Dispatch Verif.Negotiation

/-! ### Specification -/

/-- Two registrations agree when, for each name and method, they hold the same bindings in the
same order; how bindings for different names or methods are mixed does not matter. -/
def Alike (l l' : List Binding) : Prop := ∀ n m,
  (l.filter fun b => b.name = n ∧ b.method = m) = l'.filter fun b => b.name = n ∧ b.method = m

/-- The same for exception handlers, for each class of exceptions. -/
def AlikeH (l l' : List Handler) : Prop := ∀ c, (l.filter fun h => h.cls = c) = l'.filter fun h => h.cls = c

theorem named {l : List Binding} {n : Str} : (∀ b ∈ l, b.name ≠ n) ↔ ∀ m, candidates l n m = [] := by
  constructor
  · intro h m
    unfold candidates
    rw [List.filter_eq_nil_iff]
    intro b hb
    simp [h b hb]
  · intro h b hb hn
    have := h b.method
    unfold candidates at this
    rw [List.filter_eq_nil_iff] at this
    exact this b hb (by simp [hn])

theorem spec_alike {l l' : List Binding} (h : Alike l l') (sel : List Rep → Except PyErr Rep) (name method : Str) :
    specLookup sel l name method = specLookup sel l' name method := by
  have e : ∀ n m, candidates l n m = candidates l' n m := h
  have hn : (∀ b ∈ l, b.name ≠ name) ↔ ∀ b ∈ l', b.name ≠ name := by
    rw [named, named]
    simp only [e]
  unfold specLookup
  simp only [hn, e]

/-- A list of at most one element is determined up to order. -/
theorem short_perm {α} {l l' : List α} (h : List.Perm l l') (hs : l.length ≤ 1) : l = l' := by
  match l, hs with
  | [], _ => exact (List.nil_perm.1 h).symm
  | [x], _ => exact List.singleton_perm.1 h

theorem short_filter {α} {β} (f : α → β) {l : List α} (hd : (l.map f).Nodup) (p : α → Bool) (v : β)
    (hp : ∀ x, p x = true → f x = v) : (l.filter p).length ≤ 1 := by
  induction l with
  | nil => simp
  | cons x xs ih =>
    rw [List.map_cons, List.nodup_cons] at hd
    rw [List.filter_cons]
    split
    · rename_i hx
      have : xs.filter p = [] := by
        rw [List.filter_eq_nil_iff]
        intro y hy hpy
        refine hd.1 (List.mem_map.2 ⟨y, hy, ?_⟩)
        rw [hp y hpy, hp x hx]
      simp [this]
    · exact ih hd.2

theorem alike_distinct {l l' : List Binding} (hp : List.Perm l l') (hd : (l.map fun b => (b.name, b.method)).Nodup) :
    Alike l l' := by
  intro n m
  refine short_perm (hp.filter _) (short_filter (fun b : Binding => (b.name, b.method)) hd _ (n, m) ?_)
  intro x hx
  simp at hx
  simp [hx.1, hx.2]

theorem alikeH_distinct {l l' : List Handler} (hp : List.Perm l l') (hd : (l.map (·.cls)).Nodup) : AlikeH l l' := by
  intro c
  refine short_perm (hp.filter _) (short_filter (fun h : Handler => h.cls) hd _ c ?_)
  intro x hx
  simpa using hx

/-! ### Views -/

/-- **C150, views.**  Two dispatchers, filled by any calls, directly or from other dispatchers,
answer every lookup alike, whatever the negotiation, when for each name and method they were
given the same bindings in the same order. -/
theorem C150_lookup (ops ops' : List Op) (d d' : Nat) (h : Alike (log ops d) (log ops' d'))
    (sel : List Rep → Except PyErr Rep) (name method : Str) :
    (run ops d).lookup sel name method = (run ops' d').lookup sel name method := by
  rw [C40_lookup, C40_lookup]
  exact spec_alike h sel name method

/-- **C150, one view each.**  When each method of each name has one binding, the order does not
matter at all. -/
theorem C150_distinct (ops ops' : List Op) (d d' : Nat) (hp : List.Perm (log ops d) (log ops' d'))
    (hd : ((log ops d).map fun b => (b.name, b.method)).Nodup)
    (sel : List Rep → Except PyErr Rep) (name method : Str) :
    (run ops d).lookup sel name method = (run ops' d').lookup sel name method :=
  C150_lookup ops ops' d d' (alike_distinct hp hd) sel name method

/-! ### Handlers -/

/-- **C150, handlers.**  The same for exception handlers, whatever the ancestry of the
exception. -/
theorem C150_handlers (l l' : List Handler) (h : AlikeH l l') (sel : List Rep → Except PyErr Rep) (mro : List Nat) :
    exLookup sel (register l) mro = exLookup sel (register l') mro := by
  have e : ∀ c, Dict.get (register l) c = Dict.get (register l') c := by
    intro c
    rw [get_register, get_register]
    unfold handlersFor
    rw [h c]
  induction mro with
  | nil => rfl
  | cons c cs ih => simp only [exLookup, e, ih]

/-- **C150, one handler each.** -/
theorem C150_handlers_distinct (l l' : List Handler) (hp : List.Perm l l') (hd : (l.map (·.cls)).Nodup)
    (sel : List Rep → Except PyErr Rep) (mro : List Nat) :
    exLookup sel (register l) mro = exLookup sel (register l') mro :=
  C150_handlers l l' (alikeH_distinct hp hd) sel mro

/-! ### Whole applications -/

/-- **C150, applications.**  Two applications that were given the same views and handlers, mixed
in different orders, answer every request alike, whatever the routes and the code of the views
and handlers do. -/
theorem C150_app {Req Args Resp : Type} (a a' : App Req Args Resp) (ops ops' : List Op) (d d' : Nat)
    (hs hs' : List Handler) (hd : a.disp = run ops d) (hd' : a'.disp = run ops' d')
    (hh : a.handlers = register hs) (hh' : a'.handlers = register hs')
    (hr : a.route = a'.route) (hv : a.view = a'.view) (hc : a.handle = a'.handle)
    (h : Alike (log ops d) (log ops' d')) (hH : AlikeH hs hs')
    (mro : Exc → List Nat) (method : Req → Str) (sel : Req → List Rep → Except PyErr Rep) (req : Req) :
    getResponse a mro method sel req = getResponse a' mro method sel req := by
  simp only [getResponse, hd, hd', hh, hh', hr, hv, hc, C150_lookup ops ops' d d' h, C150_handlers hs hs' hH]

/-! ### Among equals -/

/-- **C150, what is refused.**  Offers for the same name and method may be registered in any
order: whether there is an acceptable one, or which error is raised, is the same (for well
formed types and ranges). -/
theorem C150_status_partial (mul : Flt → Flt → Flt) (os : List Rng) (ops ops' : List Op) (d d' : Nat)
    (hp : List.Perm (log ops d) (log ops' d')) (hos : ∀ o ∈ os, ∃ t s, IsMedia o.value t s)
    (hreps : ∀ b ∈ log ops d, Plain b.rep) (name method : Str) :
    (∃ r r', (run ops d).lookup (selectParsed mul os) name method = .ok r ∧
      (run ops' d').lookup (selectParsed mul os) name method = .ok r') ∨
    ∃ e, (run ops d).lookup (selectParsed mul os) name method = .error e ∧
      (run ops' d').lookup (selectParsed mul os) name method = .error e := by
  rw [C40_lookup, C40_lookup]
  generalize log ops d = l at *
  generalize log ops' d' = l' at *
  have hc : ∀ n m, List.Perm (candidates l n m) (candidates l' n m) := fun n m => hp.filter _
  have hnil : ∀ n m, candidates l n m = [] ↔ candidates l' n m = [] := fun n m =>
    ⟨fun h => List.nil_perm.1 (h ▸ hc n m), fun h => List.perm_nil.1 (h ▸ hc n m)⟩
  have hn : (∀ b ∈ l, b.name ≠ name) ↔ ∀ b ∈ l', b.name ≠ name := by
    simp only [hp.mem_iff]
  have sel : ∀ n m, (∃ r r', selectParsed mul os ((candidates l n m).map (·.rep)) = .ok r ∧
        selectParsed mul os ((candidates l' n m).map (·.rep)) = .ok r') ∨
      ∃ e, selectParsed mul os ((candidates l n m).map (·.rep)) = .error e ∧
        selectParsed mul os ((candidates l' n m).map (·.rep)) = .error e := by
    intro n m
    have hp' : List.Perm ((candidates l n m).map (·.rep)) ((candidates l' n m).map (·.rep)) := (hc n m).map _
    have h1 : ∀ r ∈ (candidates l n m).map (·.rep), Plain r := by
      intro r hr
      obtain ⟨b, hb, rfl⟩ := List.mem_map.1 hr
      exact hreps b (List.mem_filter.1 hb).1
    have h2 : ∀ r ∈ (candidates l' n m).map (·.rep), Plain r := fun r hr => h1 r (hp'.mem_iff.2 hr)
    rcases C41_complete_partial mul os _ hos h1 with ⟨r, hr, e, ha⟩ | ⟨e, ha⟩ <;>
      rcases C41_complete_partial mul os _ hos h2 with ⟨r', hr', e', ha'⟩ | ⟨e', ha'⟩
    · exact Or.inl ⟨r, r', e, e'⟩
    · exact absurd ha (ha' r (hp'.mem_iff.1 hr))
    · exact absurd ha' (ha r' (hp'.mem_iff.2 hr'))
    · exact Or.inr ⟨_, e, e'⟩
  have k1 : (candidates l name method ≠ []) ↔ candidates l' name method ≠ [] := not_congr (hnil _ _)
  have k2 : (method = s%"HEAD" ∧ candidates l name s%"GET" ≠ []) ↔
      method = s%"HEAD" ∧ candidates l' name s%"GET" ≠ [] := and_congr Iff.rfl (not_congr (hnil _ _))
  unfold specLookup
  by_cases c1 : ∀ b ∈ l, b.name ≠ name
  · rw [if_pos c1, if_pos (hn.1 c1)]
    exact Or.inr ⟨_, rfl, rfl⟩
  · rw [if_neg c1, if_neg (mt hn.2 c1)]
    by_cases c2 : candidates l name method ≠ []
    · rw [if_pos c2, if_pos (k1.1 c2)]
      exact sel _ _
    · rw [if_neg c2, if_neg (mt k1.2 c2)]
      by_cases c3 : method = s%"HEAD" ∧ candidates l name s%"GET" ≠ []
      · rw [if_pos c3, if_pos (k2.1 c3)]
        exact sel _ _
      · rw [if_neg c3, if_neg (mt k2.2 c3)]
        exact Or.inr ⟨_, rfl, rfl⟩

theorem flt_le_antisymm {a b : Flt} (h1 : Flt.le a b = true) (h2 : Flt.le b a = true) : a = b := by
  cases a <;> cases b <;> simp_all [Flt.le]
  · rename_i x y
    cases x <;> cases y <;> simp_all
  · omega

/-- **C150, what is chosen.**  When the client lists media types without wildcards, the offers
may be registered in any order: what is chosen counts for the same; only among offers that count
for the same does the order matter. -/
theorem C150_best_partial (mul : Flt → Flt → Flt) (os : List Rng) (reps reps' : List Rep) (r r' : Rep)
    (hp : List.Perm reps reps') (hos : ConcreteRanges os) (hreps : ∀ r ∈ reps, Simple mul os r)
    (h : selectParsed mul os reps = .ok r) (h' : selectParsed mul os reps' = .ok r') :
    ∃ v qs v' qs' q, r.contentType = some (v, qs) ∧ r'.contentType = some (v', qs') ∧
      (∃ o ∈ os, o.value = v ∧ Counts mul o.q qs = q) ∧ ∃ o ∈ os, o.value = v' ∧ Counts mul o.q qs' = q := by
  have hmem : r ∈ reps := by
    obtain ⟨a, pre, post, e, _⟩ := C42_later_partial mul os reps r h
    rw [e]; simp
  have hmem' : r' ∈ reps' := by
    obtain ⟨a, pre, post, e, _⟩ := C42_later_partial mul os reps' r' h'
    rw [e]; simp
  obtain ⟨v, qs, q, hv, ⟨o, ho, hov, hoq⟩, hm⟩ := C42_concrete_partial mul os reps r hos hreps h
  obtain ⟨v', qs', q', hv', ⟨o', ho', hov', hoq'⟩, hm'⟩ := C42_concrete_partial mul os reps' r' hos
    (fun x hx => hreps x (hp.mem_iff.2 hx)) h'
  have l1 := hm r' (hp.mem_iff.2 hmem') v' qs' hv' o' ho' hov'
  have l2 := hm' r (hp.mem_iff.1 hmem) v qs hv o ho hov
  rw [hoq'] at l1
  rw [hoq] at l2
  have : q' = q := flt_le_antisymm l1 l2
  exact ⟨v, qs, v', qs', q, hv, hv', ⟨o, ho, hov, hoq⟩, o', ho', hov', this ▸ hoq'⟩

/-- **C150 fails** with wildcards: two offers are registered, and which of them is chosen depends
on the order, although the client's qualities for them differ; and of offers that count for the
same the one registered last is chosen. -/
theorem C150_order_false :
    select demoFloat demoMul [offer 0 s%"a/x", offer 1 s%"b/y"] (some s%"b/y;q=0.5, */*;q=0.9") none none
      ≠ select demoFloat demoMul [offer 1 s%"b/y", offer 0 s%"a/x"] (some s%"b/y;q=0.5, */*;q=0.9") none none ∧
    select demoFloat demoMul [offer 0 s%"a/x", offer 1 s%"b/y"] none none none = .ok (offer 1 s%"b/y") ∧
    select demoFloat demoMul [offer 1 s%"b/y", offer 0 s%"a/x"] none none none = .ok (offer 0 s%"a/x") := by
  refine ⟨by decide +kernel, by decide +kernel, by decide +kernel⟩

/-! ### Examples -/

/-- Views for two names, filled directly. -/
def direct : List Op := [.add 0 [⟨s%"page", s%"GET", offer 1 s%"text/html"⟩, ⟨s%"page", s%"GET", offer 2 s%"text/plain"⟩,
  ⟨s%"user", s%"GET", offer 3 s%"text/html"⟩]]

/-- The same, with the second name first, by way of another dispatcher. -/
def nested : List Op := [.add 1 [⟨s%"user", s%"GET", offer 3 s%"text/html"⟩],
  .add 1 [⟨s%"page", s%"GET", offer 1 s%"text/html"⟩, ⟨s%"page", s%"GET", offer 2 s%"text/plain"⟩], .nest 0 1]

example : Alike (log direct 0) (log nested 0) := by
  intro n m
  show List.filter _ [_, _, _] = List.filter _ [_, _, _]
  by_cases h1 : s%"page" = n
  · subst h1; by_cases h3 : s%"GET" = m <;> simp [h3]
  · by_cases h2 : s%"user" = n
    · subst h2; by_cases h3 : s%"GET" = m <;> simp [h3]
    · simp [h1, h2]

example : (run direct 0).lookup (fun rs => select demoFloat demoMul rs (some s%"text/html") none none) s%"page" s%"HEAD"
    = .ok (offer 1 s%"text/html") := by decide +kernel
example : (run nested 0).lookup (fun rs => select demoFloat demoMul rs (some s%"text/html") none none) s%"page" s%"HEAD"
    = .ok (offer 1 s%"text/html") := by decide +kernel

example : List.Perm (log [.add 0 [⟨s%"a", s%"GET", offer 1 s%"a/x"⟩, ⟨s%"a", s%"POST", offer 2 s%"a/x"⟩]] 0)
    (log [.add 0 [⟨s%"a", s%"POST", offer 2 s%"a/x"⟩], .add 0 [⟨s%"a", s%"GET", offer 1 s%"a/x"⟩]] 0) :=
  List.Perm.swap _ _ _

example : AlikeH [⟨0, offer 1 s%"a/x"⟩, ⟨1, offer 2 s%"a/x"⟩, ⟨0, offer 3 s%"b/y"⟩]
    [⟨1, offer 2 s%"a/x"⟩, ⟨0, offer 1 s%"a/x"⟩, ⟨0, offer 3 s%"b/y"⟩] := by
  intro c
  simp only [List.filter_cons, List.filter_nil]
  by_cases h0 : 0 = c
  · subst h0; simp
  · by_cases h1 : 1 = c <;> simp [h0, h1]

end Verif.Props.OrderP
