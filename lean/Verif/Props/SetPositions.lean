import Verif.Props.AuthSets
import Verif.Props.HeaderSetQueries
/-! Property theorems C82 and C154: sets that are live views of a header or of a parameter, for
every history of calls that leaves their own answers consistent. -/
namespace Verif.Props.SetPositionsP
open Verif Verif.Headers Verif.Spec Verif.Desc Verif.AuthSets Verif.Quote Verif.Props.Desc Verif.Props.Resp
  Verif.Props.HSetQ Verif.Props.AuthSetsP

/-- Every call of a history is safe in the state in which it is made: names are removed as written in
lower case, unless they are not there, and a name that another position has is not assigned. -/
def SafeCalls (lower : Str → Str) (s : HeaderSet.HS) (ops : List HeaderSet.Op) : Prop :=
  SafeAll lower s (ops.map .call)

/-- Two sets list the same names in the same order and give the same answers on membership and
length. -/
def SameSet (lower : Str → Str) (s t : HeaderSet.HS) : Prop :=
  s.headers = t.headers ∧ (∀ x, HeaderSet.contains lower s x = HeaderSet.contains lower t x) ∧
    HeaderSet.len s = HeaderSet.len t

theorem agree_len (lower : Str → Str) (s : HeaderSet.HS) (h : Agree lower s) :
    HeaderSet.len s = s.headers.length := by
  unfold HeaderSet.len
  rw [perm_length _ _ h.1 h.2.1 h.2.2, List.length_map]

theorem sameSet_init (lower : Str → Str) (s : HeaderSet.HS) (h : Agree lower s) :
    SameSet lower (HeaderSet.init lower s.headers) s := by
  have hc := agree_of_coherent lower _ (HSet.coherent_init lower s.headers h.2.1)
  refine ⟨rfl, fun x => ?_, ?_⟩
  · unfold HeaderSet.contains
    rw [Bool.eq_iff_iff, List.contains_iff_mem, List.contains_iff_mem, hc.2.2, h.2.2]
    rfl
  · rw [agree_len lower s h, agree_len lower _ hc]
    rfl

theorem silent_agree (lower : Str → Str) (s : HeaderSet.HS) (op : HeaderSet.Op) (ha : Agree lower s)
    (hn : HeaderSet.notifies lower s op = false) : HeaderSet.step lower s op = s := by
  by_cases hd : ∃ i, op = .delIdx i
  · obtain ⟨i, rfl⟩ := hd
    simp only [HeaderSet.notifies, HeaderSet.delIdx] at hn
    simp only [HeaderSet.step, HeaderSet.delIdx]
    split at hn
    · rfl
    · rename_i rv hi
      split at hn
      · simp [Except.toOption] at hn
      · rename_i hx
        exfalso
        apply hx
        rw [List.contains_iff_mem, ha.2.2]
        exact List.mem_map_of_mem (List.mem_of_getElem? hi)
  · exact C66_notified_on_change lower s op hn (fun i hi => hd ⟨i, hi⟩)

theorem agree_init (lower : Str → Str) (l : List Str) (h : (l.map lower).Nodup) :
    Agree lower (HeaderSet.init lower l) := agree_of_coherent lower _ (HSet.coherent_init lower l h)

/-- C154.  After every history of calls on the set obtained from `qop` or `domain` of a challenge,
assignment by position and removal of absent names included, reading the parameter again gives the
same set, and the other parameters keep their values.  (Missing: removing a present name that is not
written in lower case and assigning a name that another position has, after which the set itself is
inconsistent: C127; names quoted at both ends and empty ones.) -/
theorem C154_positions_partial (lower : Str → Str) (idem : ∀ x, lower (lower x) = lower x) (name : Str)
    (w : Auth.WWW) (hnd : (Dict.keys w).Nodup) (hd : ((view lower w name).headers.map lower).Nodup)
    (hi : ∀ x ∈ (view lower w name).headers, Item x) (ops : List HeaderSet.Op)
    (hs : SafeCalls lower (view lower w name) ops) (ho : ∀ op ∈ ops, ∀ x ∈ addedNames op, Item x) :
    let r := ops.foldl (wwwCall lower name) (w, view lower w name)
    SameSet lower (view lower r.1 name) r.2 ∧ r.2 = HeaderSet.run lower (view lower w name) ops ∧
      ∀ k, k ≠ name → Dict.get r.1 k = Dict.get w k := by
  have key : ∀ (ops : List HeaderSet.Op) (g : Auth.WWW) (s : HeaderSet.HS), (Dict.keys g).Nodup →
      view lower g name = HeaderSet.init lower s.headers → Agree lower s → (∀ x ∈ s.headers, Item x) →
      SafeCalls lower s ops → (∀ op ∈ ops, ∀ x ∈ addedNames op, Item x) →
      SameSet lower (view lower (ops.foldl (wwwCall lower name) (g, s)).1 name) (ops.foldl (wwwCall lower name) (g, s)).2 ∧
      (ops.foldl (wwwCall lower name) (g, s)).2 = HeaderSet.run lower s ops ∧
      ∀ k, k ≠ name → Dict.get (ops.foldl (wwwCall lower name) (g, s)).1 k = Dict.get g k := by
    intro ops
    induction ops with
    | nil => intro g s _ hv ha _ _ _; exact ⟨hv ▸ sameSet_init lower s ha, rfl, fun _ _ => rfl⟩
    | cons op ops ih =>
      intro g s hnd hv ha hi hsafe ho
      obtain ⟨hs1, hs2⟩ := hsafe
      have ha' : Agree lower (HeaderSet.step lower s op) := (C127_exact lower idem s ha (.call op)).2 hs1
      have hi' : ∀ x ∈ (HeaderSet.step lower s op).headers, Item x := by
        intro x hx
        rcases headers_step lower s op x hx with h | h
        · exact hi x h
        · exact ho op (by simp) x h
      have hstep : (Dict.keys (wwwCall lower name (g, s) op).1).Nodup ∧
          view lower (wwwCall lower name (g, s) op).1 name = HeaderSet.init lower (HeaderSet.step lower s op).headers ∧
          ∀ k, k ≠ name → Dict.get (wwwCall lower name (g, s) op).1 k = Dict.get g k := by
        simp only [wwwCall]
        cases hn : HeaderSet.notifies lower s op with
        | false =>
          rw [if_neg (by simp), silent_agree lower s op ha hn]
          exact ⟨hnd, hv, fun _ _ => rfl⟩
        | true =>
          rw [if_pos rfl]
          unfold AuthSets.wwwUpdate
          rw [agree_len lower _ ha']
          by_cases he : (HeaderSet.step lower s op).headers = []
          · rw [if_pos (by simp [he]), he]
            by_cases hcn : Dict.has g name = true
            · rw [if_pos hcn]
              refine ⟨Dict.nodup_del hnd name, ?_, fun k hk => by rw [Dict.get_del hnd, if_neg hk]⟩
              unfold view Auth.getProp
              rw [Dict.get_del hnd, if_pos rfl]
              rfl
            · rw [if_neg hcn]
              refine ⟨hnd, ?_, fun _ _ => rfl⟩
              unfold view Auth.getProp
              have : Dict.get g name = none := by
                unfold Dict.has at hcn
                simpa using hcn
              rw [this]
              rfl
          · rw [if_neg (by simpa using he)]
            refine ⟨Dict.nodup_set hnd name _, ?_, fun k hk => by rw [Dict.get_set, if_neg hk]⟩
            have hto : HeaderSet.toHeader (HeaderSet.step lower s op) =
                dumpHeaderList (HeaderSet.step lower s op).headers := rfl
            rw [hto]
            unfold view Auth.getProp
            rw [Dict.get_set, if_pos rfl]
            simp only [Option.join_some, Option.getD_some]
            rw [parse_item _ hi']
      obtain ⟨i1, i2, i3⟩ := ih _ _ hstep.1 hstep.2.1 ha' hi' hs2 (fun o h => ho o (by simp [h]))
      exact ⟨i1, i2, fun k hk => (i3 k hk).trans (hstep.2.2 k hk)⟩
  exact key ops w _ hnd rfl (agree_init lower _ hd) hi hs ho

/-- C82.  The same for the set obtained from `vary`, `content_language` or `allow` of a response: after
every history of calls, assignment by position and removal of absent names included, reading the
property again gives the same set, and the headers of other names are untouched.  (Missing: as for
C154; also names with line breaks.) -/
theorem C82_positions_partial (lower : Str → Str) (idem : ∀ x, lower (lower x) = lower x) (name : Str) (h : HList)
    (hd : ((setView lower h name).headers.map lower).Nodup)
    (hi : ∀ x ∈ (setView lower h name).headers, ListItem x) (ops : List HeaderSet.Op)
    (hs : SafeCalls lower (setView lower h name) ops) (ho : ∀ op ∈ ops, ∀ x ∈ addedNames op, ListItem x) :
    let r := ops.foldl (setCall lower name) (h, setView lower h name)
    SameSet lower (setView lower r.1 name) r.2 ∧ r.2 = HeaderSet.run lower (setView lower h name) ops ∧
      SameOthers lower name h r.1 := by
  have key : ∀ (ops : List HeaderSet.Op) (g : HList) (s : HeaderSet.HS),
      setView lower g name = HeaderSet.init lower s.headers → Agree lower s → (∀ x ∈ s.headers, ListItem x) →
      SafeCalls lower s ops → (∀ op ∈ ops, ∀ x ∈ addedNames op, ListItem x) →
      SameSet lower (setView lower (ops.foldl (setCall lower name) (g, s)).1 name) (ops.foldl (setCall lower name) (g, s)).2 ∧
      (ops.foldl (setCall lower name) (g, s)).2 = HeaderSet.run lower s ops ∧
      SameOthers lower name g (ops.foldl (setCall lower name) (g, s)).1 := by
    intro ops
    induction ops with
    | nil => intro g s hv ha _ _ _; exact ⟨hv ▸ sameSet_init lower s ha, rfl, rfl⟩
    | cons op ops ih =>
      intro g s hv ha hi hsafe ho
      obtain ⟨hs1, hs2⟩ := hsafe
      have ha' : Agree lower (HeaderSet.step lower s op) := (C127_exact lower idem s ha (.call op)).2 hs1
      have hi' : ∀ x ∈ (HeaderSet.step lower s op).headers, ListItem x := by
        intro x hx
        rcases headers_step lower s op x hx with h | h
        · exact hi x h
        · exact ho op (by simp) x h
      have hstep : setView lower (setCall lower name (g, s) op).1 name =
            HeaderSet.init lower (HeaderSet.step lower s op).headers ∧
          SameOthers lower name g (setCall lower name (g, s) op).1 := by
        simp only [setCall]
        cases hn : HeaderSet.notifies lower s op with
        | false =>
          rw [if_neg (by simp), silent_agree lower s op ha hn]
          exact ⟨hv, rfl⟩
        | true =>
          rw [if_pos rfl]
          unfold setUpdate
          rw [agree_len lower _ ha']
          by_cases he : (HeaderSet.step lower s op).headers = []
          · rw [if_pos (by simp [he]), he]
            by_cases hcn : contains lower g name = true
            · simp only [hcn, if_true]
              refine ⟨?_, sameOthers_del lower g name⟩
              unfold setView
              rw [getItem_del, if_pos rfl]
              rfl
            · rw [if_neg hcn]
              refine ⟨?_, rfl⟩
              unfold setView
              have : getItem lower g name = none := by
                unfold contains at hcn
                simpa using hcn
              rw [this]
              rfl
          · rw [if_neg (by simpa using he)]
            have hto : HeaderSet.toHeader (HeaderSet.step lower s op) =
                dumpHeaderList (HeaderSet.step lower s op).headers := rfl
            rw [hto]
            refine ⟨?_, sameOthers_set lower g _ _⟩
            unfold setView
            rw [getItem_set lower g _ _ _ (legal_items _ hi'), if_pos rfl, Option.getD_some, parse_items _ hi']
      obtain ⟨i1, i2, i3⟩ := ih _ _ hstep.1 ha' hi' hs2 (fun o h => ho o (by simp [h]))
      refine ⟨i1, i2, ?_⟩
      have := hstep.2
      unfold SameOthers at *
      exact i3.trans this
  exact key ops h _ rfl (agree_init lower _ hd) hi hs ho

example : ([.setIdx 0 s%"Cookie", .discard s%"X-Not-There"].foldl (setCall asciiLower s%"Vary")
    ([(s%"vary", s%"Accept, Range")], setView asciiLower [(s%"vary", s%"Accept, Range")] s%"Vary")).1 =
    [(s%"Vary", s%"Cookie, Range")] := by decide +kernel

example : SafeCalls asciiLower (setView asciiLower [(s%"vary", s%"Accept")] s%"Vary")
    [.setIdx 0 s%"Cookie", .discard s%"X-Not-There"] := by
  rw [show setView asciiLower [(s%"vary", s%"Accept")] s%"Vary" = ⟨[s%"Accept"], [s%"accept"]⟩ by decide +kernel]
  refine ⟨?_, Or.inr ?_, trivial⟩
  · intro j h hj hjh _
    rw [List.getElem?_eq_none (by simp; omega)] at hjh
    cases hjh
  · rw [show (HeaderSet.change asciiLower ⟨[s%"Accept"], [s%"accept"]⟩ (.call (.setIdx 0 s%"Cookie"))).headers =
      [s%"Cookie"] by decide +kernel]
    intro x hx
    rcases List.mem_singleton.1 hx with rfl
    decide

end Verif.Props.SetPositionsP
