import Verif.Model.RequestShare
import Verif.Props.Request
/-! Property theorem C148: several request objects over one environ. -/
namespace Verif.Props.ShareP
open Verif Verif.ReqUrl Verif.Stream Verif.Share

/-! ### Specification -/

/-- What an environ says about the request, without any request object in between. -/
def told (lib : Lib) (e : List (Str × Str)) : Attr → Except PyErr Val
  | .args => (argPairs lib.semi e).map .pairs
  | .path => (path e).map .text
  | .fullPath => (fullPath e).map .text
  | .scriptRoot => (scriptRoot e).map .text
  | .url part => (currentUrl lib.idna lib.lower lib.label lib.usesNetloc lib.trusted part e).map .text
  | .host => (Wsgi.getHost lib.idna e lib.trusted).map .text
  | .queryString => (queryString e).map .text
  | .method => .ok (.text (method lib.upper e))
  | .accessRoute => .ok (.texts (accessRoute e))
  | .remoteUser => .ok (.opt (Dict.get e s%"REMOTE_USER"))
  | .scheme => .ok (.opt (Dict.get e s%"wsgi.url_scheme"))
  | .remoteAddr => .ok (.opt (Dict.get e s%"REMOTE_ADDR"))
  | .isXhr => .ok (.flag (isXhr lib.lower e))

/-- The attributes that are looked up anew each time. -/
def plain : Attr → Bool
  | .remoteAddr | .isXhr => true
  | _ => false

/-- Operations that leave the environ as it is. -/
def quiet : Share.Op → Bool
  | .setenv _ _ | .delenv _ => false
  | _ => true

variable (lib : Lib) (decode : Bytes → Except PyErr Str)

/-! ### One object -/

/-- What reading attributes may do to what an object remembers: nothing is forgotten or
replaced, and what is new is what the environ says; a new `full_path` is made of the `path` and
`query_string` remembered beside it. -/
structure Ext (e : List (Str × Str)) (d d' : List (Attr × Val)) : Prop where
  keep : ∀ b v, Dict.get d b = some v → Dict.get d' b = some v
  fresh : ∀ b v, b ≠ .fullPath → Dict.get d b = none → Dict.get d' b = some v → told lib e b = .ok v
  full : ∀ v, Dict.get d .fullPath = none → Dict.get d' .fullPath = some v →
    ∃ p q, Dict.get d' .path = some (.text p) ∧ Dict.get d' .queryString = some (.text q) ∧ v = .text (p ++ '?' :: q)

theorem Ext.refl (e : List (Str × Str)) (d : List (Attr × Val)) : Ext lib e d d :=
  ⟨fun _ _ h => h, fun _ _ _ h h' => (by rw [h] at h'; cases h'), fun _ h h' => (by rw [h] at h'; cases h')⟩

variable {lib} in
theorem Ext.trans {e : List (Str × Str)} {d d' d'' : List (Attr × Val)} (h : Ext lib e d d') (k : Ext lib e d' d'') :
    Ext lib e d d'' := by
  refine ⟨fun b v g => k.keep b v (h.keep b v g), fun b v hb g g' => ?_, fun v g g' => ?_⟩
  · cases hm : Dict.get d' b with
    | none => exact k.fresh b v hb hm g'
    | some u =>
      have := k.keep b u hm
      rw [g'] at this
      cases this
      exact h.fresh b v hb g hm
  · cases hm : Dict.get d' .fullPath with
    | none => exact k.full v hm g'
    | some u =>
      have := k.keep _ u hm
      rw [g'] at this
      cases this
      obtain ⟨p, q, h1, h2, h3⟩ := h.full v g hm
      exact ⟨p, q, k.keep _ _ h1, k.keep _ _ h2, h3⟩

theorem cachedGet_ext (e : List (Str × Str)) (d : List (Attr × Val)) (a : Attr) (ha : a ≠ .fullPath) :
    Ext lib e d (cachedGet d a (told lib e a)).1 := by
  unfold cachedGet
  cases hd : Dict.get d a with
  | some v => exact Ext.refl lib e d
  | none =>
    cases hf : told lib e a with
    | error x => exact Ext.refl lib e d
    | ok v =>
      dsimp only
      refine ⟨fun b u g => ?_, fun b u _ g g' => ?_, fun u g g' => ?_⟩
      · rw [Dict.get_set]
        split
        · rename_i hb; subst hb; rw [hd] at g; cases g
        · exact g
      · rw [Dict.get_set] at g'
        split at g'
        · rename_i hb; subst hb; cases g'; exact hf
        · rw [g] at g'; cases g'
      · rw [Dict.get_set, if_neg (fun h => ha h.symm), g] at g'
        cases g'

theorem cachedGet_ok (d : List (Attr × Val)) (a : Attr) (f : Except PyErr Val) (v : Val)
    (h : (cachedGet d a f).2 = .ok v) : Dict.get (cachedGet d a f).1 a = some v := by
  revert h
  unfold cachedGet
  cases hd : Dict.get d a with
  | some u => intro h; cases h; exact hd
  | none =>
    cases f with
    | error x => intro h; cases h
    | ok u => intro h; cases h; dsimp only; rw [Dict.get_set, if_pos rfl]

theorem readPath_ext (e : List (Str × Str)) (d : List (Attr × Val)) : Ext lib e d (readPath e d).1 :=
  cachedGet_ext lib e d .path (by decide)

theorem readQuery_ext (e : List (Str × Str)) (d : List (Attr × Val)) : Ext lib e d (readQuery e d).1 :=
  cachedGet_ext lib e d .queryString (by decide)

theorem joinQuery_ok {p q v : Val} (h : joinQuery p q = .ok v) :
    ∃ s t, p = .text s ∧ q = .text t ∧ v = .text (s ++ '?' :: t) := by
  cases p <;> cases q <;> first | (cases h; exact ⟨_, _, rfl, rfl, rfl⟩) | cases h

theorem readFull_ext (e : List (Str × Str)) (d : List (Attr × Val)) : Ext lib e d (readFull e d).1 := by
  unfold readFull
  cases hd : Dict.get d .fullPath with
  | some v => exact Ext.refl lib e d
  | none =>
    dsimp only
    have h1 := readPath_ext lib e d
    have k1 := fun v => cachedGet_ok d .path ((path e).map .text) v
    change ∀ v, (readPath e d).2 = .ok v → Dict.get (readPath e d).1 .path = some v at k1
    generalize readPath e d = r at h1 k1 ⊢
    obtain ⟨d1, x⟩ := r
    cases x with
    | error x => exact h1
    | ok p =>
      dsimp only at h1 k1 ⊢
      have h2 := readQuery_ext lib e d1
      have k2 := fun v => cachedGet_ok d1 .queryString ((queryString e).map .text) v
      change ∀ v, (readQuery e d1).2 = .ok v → Dict.get (readQuery e d1).1 .queryString = some v at k2
      generalize readQuery e d1 = r at h2 k2 ⊢
      obtain ⟨d2, y⟩ := r
      cases y with
      | error y => exact h1.trans h2
      | ok q =>
        dsimp only at h2 k2 ⊢
        cases hj : joinQuery p q with
        | error z => exact h1.trans h2
        | ok v =>
          dsimp only
          obtain ⟨s, t, rfl, rfl, rfl⟩ := joinQuery_ok hj
          have h12 := h1.trans h2
          refine ⟨fun b u g => ?_, fun b u hb g g' => ?_, fun u g g' => ?_⟩
          · rw [Dict.get_set]
            split
            · rename_i hb; subst hb; rw [hd] at g; cases g
            · exact h12.keep b u g
          · rw [Dict.get_set, if_neg hb] at g'
            exact h12.fresh b u hb g g'
          · rw [Dict.get_set, if_pos rfl] at g'
            cases g'
            refine ⟨s, t, ?_, ?_, rfl⟩
            · rw [Dict.get_set, if_neg (by decide)]
              exact h2.keep _ _ (k1 _ rfl)
            · rw [Dict.get_set, if_neg (by decide)]
              exact k2 _ rfl

theorem readAttr_ext (e : List (Str × Str)) (d : List (Attr × Val)) (a : Attr) : Ext lib e d (readAttr lib e d a).1 := by
  cases a with
  | fullPath => exact readFull_ext lib e d
  | remoteAddr => exact Ext.refl lib e d
  | isXhr => exact Ext.refl lib e d
  | args => exact cachedGet_ext lib e d .args (by decide)
  | path => exact cachedGet_ext lib e d .path (by decide)
  | scriptRoot => exact cachedGet_ext lib e d .scriptRoot (by decide)
  | url p => exact cachedGet_ext lib e d (.url p) (by simp)
  | host => exact cachedGet_ext lib e d .host (by decide)
  | queryString => exact cachedGet_ext lib e d .queryString (by decide)
  | method => exact cachedGet_ext lib e d .method (by decide)
  | accessRoute => exact cachedGet_ext lib e d .accessRoute (by decide)
  | remoteUser => exact cachedGet_ext lib e d .remoteUser (by decide)
  | scheme => exact cachedGet_ext lib e d .scheme (by decide)

/-- A remembered value is the answer. -/
theorem readAttr_kept (e : List (Str × Str)) (d : List (Attr × Val)) (a : Attr) (v : Val) (ha : plain a = false)
    (h : Dict.get d a = some v) : readAttr lib e d a = (d, .ok v) := by
  cases a <;> first
    | exact absurd ha (by decide)
    | simp only [readAttr, readPath, readQuery, readFull, cachedGet, h]

/-- An answer is remembered. -/
theorem readAttr_keeps (e : List (Str × Str)) (d : List (Attr × Val)) (a : Attr) (v : Val) (ha : plain a = false)
    (h : (readAttr lib e d a).2 = .ok v) : Dict.get (readAttr lib e d a).1 a = some v := by
  cases a with
  | remoteAddr => cases ha
  | isXhr => cases ha
  | fullPath =>
    revert h
    show (readFull e d).2 = _ → Dict.get (readFull e d).1 _ = _
    unfold readFull
    cases hd : Dict.get d .fullPath with
    | some v => intro h; cases h; exact hd
    | none =>
      dsimp only
      generalize readPath e d = r
      obtain ⟨d1, x⟩ := r
      cases x with
      | error x => intro h; cases h
      | ok p =>
        dsimp only
        generalize readQuery e d1 = r
        obtain ⟨d2, y⟩ := r
        cases y with
        | error y => intro h; cases h
        | ok q =>
          dsimp only
          cases joinQuery p q with
          | error z => intro h; cases h
          | ok v => intro h; cases h; dsimp only; rw [Dict.get_set, if_pos rfl]
  | args => exact cachedGet_ok _ _ _ _ h
  | path => exact cachedGet_ok _ _ _ _ h
  | scriptRoot => exact cachedGet_ok _ _ _ _ h
  | url p => exact cachedGet_ok _ _ _ _ h
  | host => exact cachedGet_ok _ _ _ _ h
  | queryString => exact cachedGet_ok _ _ _ _ h
  | method => exact cachedGet_ok _ _ _ _ h
  | accessRoute => exact cachedGet_ok _ _ _ _ h
  | remoteUser => exact cachedGet_ok _ _ _ _ h
  | scheme => exact cachedGet_ok _ _ _ _ h

/-- Without a remembered value the answer is what the environ says. -/
theorem readAttr_new (e : List (Str × Str)) (d : List (Attr × Val)) (a : Attr) (ha : a ≠ .fullPath)
    (h : Dict.get d a = none) : (readAttr lib e d a).2 = told lib e a := by
  have key : ∀ f : Except PyErr Val, Dict.get d a = none → (cachedGet d a f).2 = f := by
    intro f hd
    simp only [cachedGet, hd]
    cases f <;> rfl
  cases a <;> first
    | exact absurd rfl ha
    | exact key _ h
    | rfl

/-- If everything remembered is what the environ says, so is every answer. -/
theorem readAttr_now (e : List (Str × Str)) (d : List (Attr × Val)) (a : Attr)
    (hd : ∀ b v, Dict.get d b = some v → told lib e b = .ok v) : (readAttr lib e d a).2 = told lib e a := by
  cases hg : Dict.get d a with
  | some v =>
    cases hp : plain a with
    | false => rw [readAttr_kept lib e d a v hp hg, hd a v hg]
    | true => cases a <;> first | rfl | cases hp
  | none =>
    by_cases ha : a = .fullPath
    · subst ha
      show (readFull e d).2 = _
      have h1 : (readPath e d).2 = told lib e .path := by
        cases hq : Dict.get d .path with
        | some v =>
          have := readAttr_kept lib e d .path v rfl hq
          rw [show readPath e d = _ from this, hd _ v hq]
        | none => exact readAttr_new lib e d .path (by decide) hq
      have h2 : (readQuery e (readPath e d).1).2 = told lib e .queryString := by
        cases hq : Dict.get (readPath e d).1 .queryString with
        | some v =>
          have := readAttr_kept lib e (readPath e d).1 .queryString v rfl hq
          rw [show readQuery e (readPath e d).1 = _ from this]
          cases hq' : Dict.get d .queryString with
          | some u =>
            have hk := (readPath_ext lib e d).keep _ u hq'
            rw [hq] at hk; cases hk
            exact (hd _ v hq').symm
          | none => exact ((readPath_ext lib e d).fresh _ v (by decide) hq' hq).symm
        | none => exact readAttr_new lib e (readPath e d).1 .queryString (by decide) hq
      unfold readFull
      rw [hg]
      dsimp only
      generalize readPath e d = r at h1 h2 ⊢
      obtain ⟨d1, x⟩ := r
      dsimp only at h1 h2
      subst h1
      unfold told fullPath
      cases hp : path e with
      | error x => simp only [told, hp]; rfl
      | ok p =>
        simp only [told, hp, Except.map]
        generalize readQuery e d1 = r at h2 ⊢
        obtain ⟨d2, y⟩ := r
        dsimp only at h2
        subst h2
        cases hq : queryString e with
        | error x => simp only [told, hq]; rfl
        | ok q => simp only [told, hq]; rfl
    · exact readAttr_new lib e d a ha hg

/-! ### All objects -/

theorem ask_some (w : World) (i : Nat) (a : Attr) (o : Obj) (h : w.reqs[i]? = some o) :
    ask lib w i a = ({ w with reqs := w.reqs.set i { o with dict := (readAttr lib w.environ o.dict a).1 } },
      some (readAttr lib w.environ o.dict a).2) := by
  unfold ask; rw [h]

theorem bodyCall_some (w : World) (i : Nat) (op : Request.Op) (o : Obj) (h : w.reqs[i]? = some o) :
    bodyCall decode w i op = putBack w i o (Request.step decode (view w o) op) := by
  unfold bodyCall; rw [h]

/-- An object before an operation is there afterwards, and remembers what it did. -/
theorem step_keep (w : World) (op : Share.Op) (i : Nat) (o : Obj) (h : w.reqs[i]? = some o) :
    ∃ o', (Share.step lib decode w op).reqs[i]? = some o' ∧ Ext lib w.environ o.dict o'.dict := by
  have hl : i < w.reqs.length := (List.getElem?_eq_some_iff.1 h).1
  cases op with
  | make p s =>
    refine ⟨o, ?_, Ext.refl lib _ _⟩
    show (w.reqs ++ _)[i]? = some o
    rw [List.getElem?_append_left hl, h]
  | setenv k v => exact ⟨o, h, Ext.refl lib _ _⟩
  | delenv k => exact ⟨o, h, Ext.refl lib _ _⟩
  | ask j a =>
    cases hj : w.reqs[j]? with
    | none =>
      refine ⟨o, ?_, Ext.refl lib _ _⟩
      show (ask lib w j a).1.reqs[i]? = some o
      unfold ask; rw [hj]; exact h
    | some o2 =>
      show ∃ o', (ask lib w j a).1.reqs[i]? = some o' ∧ _
      rw [ask_some lib w j a o2 hj]
      by_cases hij : j = i
      · subst hij
        rw [h] at hj; cases hj
        exact ⟨_, by dsimp only; rw [List.getElem?_set_self hl], readAttr_ext lib _ _ _⟩
      · exact ⟨o, by dsimp only; rw [List.getElem?_set_ne hij, h], Ext.refl lib _ _⟩
  | body j b =>
    cases hj : w.reqs[j]? with
    | none =>
      refine ⟨o, ?_, Ext.refl lib _ _⟩
      show (bodyCall decode w j b).reqs[i]? = some o
      unfold bodyCall; rw [hj]; exact h
    | some o2 =>
      show ∃ o', (bodyCall decode w j b).reqs[i]? = some o' ∧ _
      rw [bodyCall_some decode w j b o2 hj]
      by_cases hij : j = i
      · subst hij
        rw [h] at hj; cases hj
        exact ⟨{ o with stream := (Request.step decode (view w o) b).stream,
                        data := (Request.step decode (view w o) b).cached },
          by unfold putBack; dsimp only; rw [List.getElem?_set_self hl], Ext.refl lib _ _⟩
      · exact ⟨o, by unfold putBack; dsimp only; rw [List.getElem?_set_ne hij, h], Ext.refl lib _ _⟩

theorem step_length (w : World) (op : Share.Op) : (Share.step lib decode w op).reqs.length =
    match op with | .make _ _ => w.reqs.length + 1 | _ => w.reqs.length := by
  cases op with
  | make p s => simp [Share.step, make]
  | setenv k v => rfl
  | delenv k => rfl
  | ask j a =>
    show (ask lib w j a).1.reqs.length = _
    unfold ask
    split
    · rfl
    · simp
  | body j b =>
    show (bodyCall decode w j b).reqs.length = _
    unfold bodyCall
    split
    · rfl
    · simp [putBack]

/-- An object after an operation was there before, or is new and remembers nothing. -/
theorem step_obj (w : World) (op : Share.Op) (i : Nat) (o' : Obj) (h : (Share.step lib decode w op).reqs[i]? = some o') :
    (∃ o, w.reqs[i]? = some o ∧ Ext lib w.environ o.dict o'.dict) ∨ o'.dict = [] := by
  cases hi : w.reqs[i]? with
  | some o =>
    obtain ⟨o2, h2, h3⟩ := step_keep lib decode w op i o hi
    rw [h] at h2; cases h2
    exact .inl ⟨o, rfl, h3⟩
  | none =>
    right
    have h1 := List.getElem?_eq_none_iff.1 hi
    have h2 := (List.getElem?_eq_some_iff.1 h).1
    have h3 := step_length lib decode w op
    cases op with
    | make p s =>
      dsimp only at h3
      have : i = w.reqs.length := by omega
      subst this
      change (w.reqs ++ _)[_]? = _ at h
      rw [List.getElem?_append_right (Nat.le_refl _)] at h
      simp at h
      rw [← h]
    | setenv k v => dsimp only at h3; omega
    | delenv k => dsimp only at h3; omega
    | ask j a => dsimp only at h3; omega
    | body j b => dsimp only at h3; omega

theorem step_environ (w : World) (op : Share.Op) (h : quiet op = true) :
    (Share.step lib decode w op).environ = w.environ := by
  cases op with
  | make p s => rfl
  | setenv k v => cases h
  | delenv k => cases h
  | ask j a =>
    show (ask lib w j a).1.environ = _
    unfold ask
    split <;> rfl
  | body j b =>
    show (bodyCall decode w j b).environ = _
    unfold bodyCall
    split <;> rfl

theorem run_keep (ops : List Share.Op) : ∀ (w : World) (i : Nat) (o : Obj), w.reqs[i]? = some o →
    ∃ o', (Share.run lib decode w ops).reqs[i]? = some o' ∧
      ∀ b v, Dict.get o.dict b = some v → Dict.get o'.dict b = some v := by
  induction ops with
  | nil => exact fun w i o h => ⟨o, h, fun _ _ g => g⟩
  | cons op ops ih =>
    intro w i o h
    obtain ⟨o1, h1, h2⟩ := step_keep lib decode w op i o h
    obtain ⟨o2, h3, h4⟩ := ih _ i o1 h1
    exact ⟨o2, h3, fun b v g => h4 b v (h2.keep b v g)⟩

/-! ### The theorems about attributes -/

/-- Once an object has answered for a cached attribute, it gives the same answer after whatever
happens to the environ, to the body and to other objects. -/
theorem C148_stable (w : World) (i : Nat) (a : Attr) (ha : plain a = false) (v : Val)
    (h : (ask lib w i a).2 = some (.ok v)) (ops : List Share.Op) :
    (ask lib (Share.run lib decode (ask lib w i a).1 ops) i a).2 = some (.ok v) := by
  cases hi : w.reqs[i]? with
  | none => unfold ask at h; rw [hi] at h; cases h
  | some o =>
    rw [ask_some lib w i a o hi] at h ⊢
    simp only [Option.some.injEq] at h
    have hk := readAttr_keeps lib _ _ a v ha h
    have hl : i < w.reqs.length := (List.getElem?_eq_some_iff.1 hi).1
    obtain ⟨o', h1, h2⟩ := run_keep lib decode ops
      { w with reqs := w.reqs.set i { o with dict := (readAttr lib w.environ o.dict a).1 } } i _
      (by dsimp only; rw [List.getElem?_set_self hl])
    rw [ask_some lib _ i a o' h1, readAttr_kept lib _ _ a v ha (h2 a v hk)]

theorem run_take_succ (w : World) (ops : List Share.Op) (n : Nat) (h : n < ops.length) :
    Share.run lib decode w (ops.take (n + 1)) = Share.step lib decode (Share.run lib decode w (ops.take n)) ops[n] := by
  unfold Share.run
  rw [List.take_succ_eq_append_getElem h, List.foldl_append]
  rfl

/-- What an object remembers was so at some moment at which the object was there. -/
theorem remembered (e : List (Str × Str)) (tm : Bool) (src : Src) (ops : List Share.Op) (n : Nat) (hn : n ≤ ops.length) :
    ∀ i o, (Share.run lib decode (fresh e tm src) (ops.take n)).reqs[i]? = some o →
      (∀ a v, a ≠ .fullPath → Dict.get o.dict a = some v → ∃ k, k ≤ n ∧
        i < (Share.run lib decode (fresh e tm src) (ops.take k)).reqs.length ∧
        told lib (Share.run lib decode (fresh e tm src) (ops.take k)).environ a = .ok v) ∧
      (∀ v, Dict.get o.dict .fullPath = some v → ∃ p q, Dict.get o.dict .path = some (.text p) ∧
        Dict.get o.dict .queryString = some (.text q) ∧ v = .text (p ++ '?' :: q)) := by
  induction n with
  | zero => intro i o h; simp [Share.run, fresh] at h
  | succ n ih =>
    intro i o' h
    rw [run_take_succ lib decode _ ops n (by omega)] at h
    rcases step_obj lib decode _ _ i o' h with ⟨o, h1, h2⟩ | h1
    · obtain ⟨ih1, ih2⟩ := ih (by omega) i o h1
      constructor
      · intro a v ha g
        cases ho : Dict.get o.dict a with
        | some u =>
          have := h2.keep a u ho
          rw [g] at this; cases this
          obtain ⟨k, k1, k2⟩ := ih1 a v ha ho
          exact ⟨k, by omega, k2⟩
        | none => exact ⟨n, by omega, (List.getElem?_eq_some_iff.1 h1).1, h2.fresh a v ha ho g⟩
      · intro v g
        cases ho : Dict.get o.dict .fullPath with
        | some u =>
          have := h2.keep _ u ho
          rw [g] at this; cases this
          obtain ⟨p, q, k1, k2, k3⟩ := ih2 v ho
          exact ⟨p, q, h2.keep _ _ k1, h2.keep _ _ k2, k3⟩
        | none => exact h2.full v ho g
    · rw [h1]
      exact ⟨fun a v _ g => (by cases g), fun v g => (by cases g)⟩

/-- In every history, whatever an object answers for an attribute other than `full_path` is what
the environ said at some moment since the object was made; an error is what it says now. -/
theorem C148_moment (e : List (Str × Str)) (tm : Bool) (src : Src) (ops : List Share.Op) (i : Nat) (a : Attr)
    (ha : a ≠ .fullPath) (r : Except PyErr Val)
    (h : (ask lib (Share.run lib decode (fresh e tm src) ops) i a).2 = some r) :
    ∃ k, k ≤ ops.length ∧ i < (Share.run lib decode (fresh e tm src) (ops.take k)).reqs.length ∧
      r = told lib (Share.run lib decode (fresh e tm src) (ops.take k)).environ a ∧
      (∀ x, r = .error x → k = ops.length) := by
  cases hi : (Share.run lib decode (fresh e tm src) ops).reqs[i]? with
  | none => unfold ask at h; rw [hi] at h; cases h
  | some o =>
    rw [ask_some lib _ i a o hi] at h
    simp only [Option.some.injEq] at h
    have now : ∀ hr : r = told lib (Share.run lib decode (fresh e tm src) ops).environ a,
        ∃ k, k ≤ ops.length ∧ i < (Share.run lib decode (fresh e tm src) (ops.take k)).reqs.length ∧
        r = told lib (Share.run lib decode (fresh e tm src) (ops.take k)).environ a ∧
        (∀ x, r = .error x → k = ops.length) := fun hr =>
      ⟨ops.length, Nat.le_refl _, by rw [List.take_length]; exact (List.getElem?_eq_some_iff.1 hi).1,
        by rw [List.take_length]; exact hr, fun _ _ => rfl⟩
    cases hg : Dict.get o.dict a with
    | none => exact now (by rw [← h]; exact readAttr_new lib _ _ a ha hg)
    | some v =>
      cases hp : plain a with
      | true =>
        refine now ?_
        rw [← h]
        cases a <;> first | rfl | cases hp
      | false =>
        rw [readAttr_kept lib _ _ a v hp hg] at h
        obtain ⟨k, k1, k2, k3⟩ := (remembered lib decode e tm src ops ops.length (Nat.le_refl _) i o
          (by rw [List.take_length]; exact hi)).1 a v ha hg
        exact ⟨k, k1, k2, by rw [← h]; exact k3.symm, fun x hx => by rw [← h] at hx; cases hx⟩

/-- In every history `full_path` is the `path` of the same object, a question mark and its
`query_string`. -/
theorem C148_full_path (e : List (Str × Str)) (tm : Bool) (src : Src) (ops : List Share.Op) (i : Nat) (v : Val)
    (h : (ask lib (Share.run lib decode (fresh e tm src) ops) i .fullPath).2 = some (.ok v)) (rest : List Share.Op) :
    let w := Share.run lib decode (ask lib (Share.run lib decode (fresh e tm src) ops) i .fullPath).1 rest
    ∃ p q, v = .text (p ++ '?' :: q) ∧ (ask lib w i .path).2 = some (.ok (.text p)) ∧
      (ask lib w i .queryString).2 = some (.ok (.text q)) := by
  intro w
  have hw : w = Share.run lib decode (fresh e tm src) (ops ++ .ask i .fullPath :: rest) := by
    show Share.run lib decode _ rest = _
    unfold Share.run
    rw [List.foldl_append]
    rfl
  have hs := C148_stable lib decode _ i .fullPath rfl v h rest
  change (ask lib w i .fullPath).2 = _ at hs
  have hr := h
  cases hi : w.reqs[i]? with
  | none => unfold ask at hs; rw [hi] at hs; cases hs
  | some o =>
    have hkeep : Dict.get o.dict .fullPath = some v := by
      cases h0 : (Share.run lib decode (fresh e tm src) ops).reqs[i]? with
      | none => unfold ask at hr; rw [h0] at hr; cases hr
      | some o0 =>
        rw [ask_some lib _ i _ o0 h0] at hr
        simp only [Option.some.injEq] at hr
        have hk := readAttr_keeps lib _ _ _ v rfl hr
        have hl := (List.getElem?_eq_some_iff.1 h0).1
        obtain ⟨o', h1, h2⟩ := run_keep lib decode rest
          (ask lib (Share.run lib decode (fresh e tm src) ops) i .fullPath).1 i _
          (by rw [ask_some lib _ i _ o0 h0]; dsimp only; rw [List.getElem?_set_self hl])
        change w.reqs[i]? = _ at h1
        rw [hi] at h1; cases h1
        exact h2 _ _ hk
    rw [hw] at hi
    obtain ⟨p, q, h1, h2, h3⟩ := (remembered lib decode e tm src _ _ (Nat.le_refl _) i o
      (by rw [List.take_length]; exact hi)).2 v hkeep
    rw [← hw] at hi
    refine ⟨p, q, h3, ?_, ?_⟩
    · rw [ask_some lib w i _ o hi, readAttr_kept lib _ _ _ _ rfl h1]
    · rw [ask_some lib w i _ o hi, readAttr_kept lib _ _ _ _ rfl h2]

theorem run_quiet (ops : List Share.Op) : ∀ (w : World), (∀ op ∈ ops, quiet op = true) →
    (∀ (i : Nat) (o : Obj) (b : Attr) (v : Val), w.reqs[i]? = some o → Dict.get o.dict b = some v → told lib w.environ b = .ok v) →
    (Share.run lib decode w ops).environ = w.environ ∧
    ∀ (i : Nat) (o : Obj) (b : Attr) (v : Val), (Share.run lib decode w ops).reqs[i]? = some o → Dict.get o.dict b = some v → told lib w.environ b = .ok v := by
  induction ops with
  | nil => exact fun w _ h => ⟨rfl, h⟩
  | cons op ops ih =>
    intro w hq h
    have he := step_environ lib decode w op (hq op (List.mem_cons_self ..))
    have hstep : ∀ (i : Nat) (o : Obj) (b : Attr) (v : Val), (Share.step lib decode w op).reqs[i]? = some o → Dict.get o.dict b = some v →
        told lib (Share.step lib decode w op).environ b = .ok v := by
      intro i o' b v h1 g
      rw [he]
      rcases step_obj lib decode w op i o' h1 with ⟨o, h2, h3⟩ | h2
      · by_cases hb : b = .fullPath
        · subst hb
          cases ho : Dict.get o.dict .fullPath with
          | some u =>
            have := h3.keep _ u ho
            rw [g] at this; cases this
            exact h i o _ v h2 ho
          | none =>
            obtain ⟨p, q, k1, k2, rfl⟩ := h3.full v ho g
            have hp : told lib w.environ .path = .ok (.text p) := by
              cases hx : Dict.get o.dict .path with
              | some u => have := h3.keep _ u hx; rw [k1] at this; cases this; exact h i o _ _ h2 hx
              | none => exact h3.fresh _ _ (by decide) hx k1
            have hq' : told lib w.environ .queryString = .ok (.text q) := by
              cases hx : Dict.get o.dict .queryString with
              | some u => have := h3.keep _ u hx; rw [k2] at this; cases this; exact h i o _ _ h2 hx
              | none => exact h3.fresh _ _ (by decide) hx k2
            unfold told at hp hq'
            dsimp only at hp hq'
            unfold told fullPath
            dsimp only
            cases hx : path w.environ with
            | error x => rw [hx] at hp; cases hp
            | ok p' =>
              rw [hx] at hp; cases hp
              cases hy : queryString w.environ with
              | error x => rw [hy] at hq'; cases hq'
              | ok q' => rw [hy] at hq'; cases hq'; rfl
        · cases ho : Dict.get o.dict b with
          | some u =>
            have := h3.keep b u ho
            rw [g] at this; cases this
            exact h i o b v h2 ho
          | none => exact h3.fresh b v hb ho g
      · rw [h2] at g; cases g
    obtain ⟨h1, h2⟩ := ih _ (fun o ho => hq o (List.mem_cons_of_mem _ ho)) hstep
    exact ⟨h1.trans he, fun i o b v g k => he ▸ h2 i o b v g k⟩

/-- As long as nobody changes the environ, every request object made from it answers for every
attribute what the environ says: the same for all objects, whatever was read before, in whatever
order, and whoever read the body. -/
theorem C148_current (e : List (Str × Str)) (tm : Bool) (src : Src) (ops : List Share.Op)
    (hq : ∀ op ∈ ops, quiet op = true) (i : Nat) (a : Attr)
    (hi : i < (Share.run lib decode (fresh e tm src) ops).reqs.length) :
    (ask lib (Share.run lib decode (fresh e tm src) ops) i a).2 = some (told lib e a) := by
  obtain ⟨h1, h2⟩ := run_quiet lib decode ops (fresh e tm src) hq (fun i o b v h => by simp [fresh] at h)
  have ho := List.getElem?_eq_getElem hi
  rw [ask_some lib _ i a _ ho, h1]
  exact congrArg some (readAttr_now lib e _ a (fun b v g => h2 i _ b v ho g))

/-- The address of the client and the mark of scripted requests are never out of date. -/
theorem C148_plain (w : World) (ops : List Share.Op) (i : Nat)
    (hi : i < (Share.run lib decode w ops).reqs.length) :
    (ask lib (Share.run lib decode w ops) i .remoteAddr).2 =
      some (.ok (.opt (Dict.get (Share.run lib decode w ops).environ s%"REMOTE_ADDR"))) ∧
    (ask lib (Share.run lib decode w ops) i .isXhr).2 =
      some (.ok (.flag (isXhr lib.lower (Share.run lib decode w ops).environ))) := by
  have ho := List.getElem?_eq_getElem hi
  rw [ask_some lib _ i _ _ ho, ask_some lib _ i _ _ ho]
  exact ⟨rfl, rfl⟩

theorem step_current (w : World) (op : Share.Op) (h : ∀ p s, op = .make p s → p = false ∨ s = true) :
    (Share.step lib decode w op).current = w.current := by
  cases op with
  | make p s =>
    show (if _ then _ else _) = _
    rcases h p s rfl with rfl | rfl
    · rfl
    · cases p <;> rfl
  | setenv k v => rfl
  | delenv k => rfl
  | ask j a =>
    show (ask lib w j a).1.current = _
    unfold ask
    split <;> rfl
  | body j b =>
    show (bodyCall decode w j b).current = _
    unfold bodyCall
    split <;> rfl

/-- The request found in the environ is the one made last, not counting shallow ones and ones
that asked not to be put there. -/
theorem C148_latest (w : World) (ops rest : List Share.Op)
    (h : ∀ p s, Share.Op.make p s ∈ rest → p = false ∨ s = true) :
    (Share.run lib decode w (ops ++ .make true false :: rest)).current =
      some (Share.run lib decode w ops).reqs.length ∧
    (Share.run lib decode w rest).current = w.current := by
  have key : ∀ (rest : List Share.Op) (w : World), (∀ p s, Share.Op.make p s ∈ rest → p = false ∨ s = true) →
      (Share.run lib decode w rest).current = w.current := by
    intro rest
    induction rest with
    | nil => exact fun _ _ => rfl
    | cons op rest ih =>
      intro w h
      refine (ih (Share.step lib decode w op) (fun p s hm => h p s (List.mem_cons_of_mem _ hm))).trans
        (step_current lib decode w op (fun p s e => h p s (e ▸ List.mem_cons_self ..)))
  refine ⟨?_, key rest w h⟩
  unfold Share.run
  rw [List.foldl_append]
  exact key rest _ h

/-! ### The body -/

/-- The calls about the body of object `i` in a history. -/
def bodyOps (i : Nat) (ops : List Share.Op) : List Request.Op :=
  ops.filterMap fun
    | .body j b => if j = i then some b else none
    | _ => none

theorem view_step (decode : Bytes → Except PyErr Str) (r : Request.Req) (b : Request.Op) :
    (Request.step decode r b).shallow = r.shallow ∧ (Request.step decode r b).environ = r.environ ∧
    (Request.step decode r b).terminated = r.terminated := by
  have hg : ∀ r : Request.Req, (Request.getStream r).1.shallow = r.shallow ∧ (Request.getStream r).1.environ = r.environ ∧
      (Request.getStream r).1.terminated = r.terminated := by
    intro r
    unfold Request.getStream
    split
    · exact ⟨rfl, rfl, rfl⟩
    · split <;> exact ⟨rfl, rfl, rfl⟩
  have hr : ∀ (r : Request.Req) n, (Request.streamRead r n).1.shallow = r.shallow ∧
      (Request.streamRead r n).1.environ = r.environ ∧ (Request.streamRead r n).1.terminated = r.terminated := by
    intro r n
    have h := hg r
    unfold Request.streamRead
    split
    · rename_i e; rw [e] at h; exact h
    · rename_i e; rw [e] at h; exact h
    · rename_i e; rw [e] at h; split <;> exact h
    · rename_i e; rw [e] at h; exact h
  cases b with
  | read n => exact hr r n
  | getData c t =>
    have h := hr r none
    show (Request.getData decode r c t).1.shallow = _ ∧ (Request.getData decode r c t).1.environ = _ ∧
      (Request.getData decode r c t).1.terminated = _
    unfold Request.getData
    split
    · exact ⟨rfl, rfl, rfl⟩
    · split
      · rename_i e; rw [e] at h; exact h
      · rename_i e; rw [e] at h; cases c <;> exact h
  | parse =>
    have h := hr r none
    show (Request.parseRead r).1.shallow = _ ∧ (Request.parseRead r).1.environ = _ ∧
      (Request.parseRead r).1.terminated = _
    unfold Request.parseRead
    split
    · exact ⟨rfl, rfl, rfl⟩
    · exact h

/-- As long as the environ is not changed and only one object reads the body, that object reads
it as if it were the only one: making other request objects and reading attributes never
disturbs it. -/
theorem C148_body_alone (ops : List Share.Op) : ∀ (w : World) (i : Nat) (o : Obj), w.reqs[i]? = some o →
    (∀ op ∈ ops, quiet op = true) → (∀ j b, Share.Op.body j b ∈ ops → j = i) →
    ∃ o', (Share.run lib decode w ops).reqs[i]? = some o' ∧
      view (Share.run lib decode w ops) o' = Request.run decode (view w o) (bodyOps i ops) := by
  induction ops with
  | nil => exact fun w i o h _ _ => ⟨o, h, rfl⟩
  | cons op ops ih =>
    intro w i o h hq hb
    have hq' := fun o ho => hq o (List.mem_cons_of_mem op ho)
    have hb' := fun j b hm => hb j b (List.mem_cons_of_mem op hm)
    have hl : i < w.reqs.length := (List.getElem?_eq_some_iff.1 h).1
    cases op with
    | setenv k v => exact absurd (hq _ (List.mem_cons_self ..)) (by simp [quiet])
    | delenv k => exact absurd (hq _ (List.mem_cons_self ..)) (by simp [quiet])
    | make p s =>
      exact ih (make w p s) i o (by show (w.reqs ++ _)[i]? = _; rw [List.getElem?_append_left hl, h]) hq' hb'
    | ask j a =>
      show ∃ o', (Share.run lib decode (ask lib w j a).1 ops).reqs[i]? = _ ∧
        view (Share.run lib decode (ask lib w j a).1 ops) o' = _
      cases hj : w.reqs[j]? with
      | none =>
        have : (ask lib w j a).1 = w := by unfold ask; rw [hj]
        rw [this]
        exact ih w i o h hq' hb'
      | some o2 =>
        rw [ask_some lib w j a o2 hj]
        by_cases hij : j = i
        · subst hij
          rw [h] at hj; cases hj
          exact ih _ j { o with dict := (readAttr lib w.environ o.dict a).1 }
            (by dsimp only; rw [List.getElem?_set_self hl]) hq' hb'
        · exact ih _ i o (by dsimp only; rw [List.getElem?_set_ne hij, h]) hq' hb'
    | body j b =>
      have hij := hb j b (List.mem_cons_self ..)
      subst hij
      show ∃ o', (Share.run lib decode (bodyCall decode w j b) ops).reqs[j]? = _ ∧
        view (Share.run lib decode (bodyCall decode w j b) ops) o' = _
      rw [bodyCall_some decode w j b o h]
      obtain ⟨o', h1, h2⟩ := ih (putBack w j o (Request.step decode (view w o) b)) j
        { o with stream := (Request.step decode (view w o) b).stream, data := (Request.step decode (view w o) b).cached }
        (by unfold putBack; dsimp only; rw [List.getElem?_set_self hl]) hq' hb'
      refine ⟨o', h1, h2.trans ?_⟩
      have hv : view (putBack w j o (Request.step decode (view w o) b))
          { o with stream := (Request.step decode (view w o) b).stream,
                   data := (Request.step decode (view w o) b).cached } = Request.step decode (view w o) b := by
        obtain ⟨e1, e2, e3⟩ := view_step decode (view w o) b
        generalize Request.step decode (view w o) b = r at e1 e2 e3 ⊢
        cases r
        simp only [view] at e1 e2 e3
        subst e1 e2 e3
        rfl
      rw [hv]
      unfold bodyOps
      rw [List.filterMap_cons]
      simp only [if_true]
      rfl

theorem step_data (w : World) (op : Share.Op) (i : Nat) (o : Obj) (b : Bytes) (h : w.reqs[i]? = some o)
    (hd : o.data = some b) : ∃ o', (Share.step lib decode w op).reqs[i]? = some o' ∧ o'.data = some b := by
  have hl : i < w.reqs.length := (List.getElem?_eq_some_iff.1 h).1
  cases op with
  | make p s =>
    refine ⟨o, ?_, hd⟩
    show (w.reqs ++ _)[i]? = some o
    rw [List.getElem?_append_left hl, h]
  | setenv k v => exact ⟨o, h, hd⟩
  | delenv k => exact ⟨o, h, hd⟩
  | ask j a =>
    show ∃ o', (ask lib w j a).1.reqs[i]? = some o' ∧ _
    cases hj : w.reqs[j]? with
    | none => exact ⟨o, by unfold ask; rw [hj]; exact h, hd⟩
    | some o2 =>
      rw [ask_some lib w j a o2 hj]
      by_cases hij : j = i
      · subst hij
        rw [h] at hj; cases hj
        exact ⟨{ o with dict := (readAttr lib w.environ o.dict a).1 }, by dsimp only; rw [List.getElem?_set_self hl], hd⟩
      · exact ⟨o, by dsimp only; rw [List.getElem?_set_ne hij, h], hd⟩
  | body j c =>
    show ∃ o', (bodyCall decode w j c).reqs[i]? = some o' ∧ _
    cases hj : w.reqs[j]? with
    | none => exact ⟨o, by unfold bodyCall; rw [hj]; exact h, hd⟩
    | some o2 =>
      rw [bodyCall_some decode w j c o2 hj]
      by_cases hij : j = i
      · subst hij
        rw [h] at hj; cases hj
        refine ⟨{ o with stream := (Request.step decode (view w o) c).stream,
                         data := (Request.step decode (view w o) c).cached },
          by unfold putBack; dsimp only; rw [List.getElem?_set_self hl], ?_⟩
        exact ReqP.step_cached decode (view w o) c b hd
      · exact ⟨o, by unfold putBack; dsimp only; rw [List.getElem?_set_ne hij, h], hd⟩

/-- Once an object has its body with caching, it returns the same bytes after whatever any object
does to the body or the environ, and without taking anything from the server's stream. -/
theorem C148_body_kept (w : World) (i : Nat) (t : Bool) (d : Request.Data)
    (h : (askData decode w i true t).2 = some (.ok d)) :
    ∃ b, Request.conv decode t b = .ok d ∧ ∀ ops c,
      (askData decode (Share.run lib decode (askData decode w i true t).1 ops) i c false).2 = some (.ok (.bytes b)) ∧
      (askData decode (Share.run lib decode (askData decode w i true t).1 ops) i c false).1.src =
        (Share.run lib decode (askData decode w i true t).1 ops).src := by
  cases hi : w.reqs[i]? with
  | none => unfold askData at h; rw [hi] at h; cases h
  | some o =>
    have hl : i < w.reqs.length := (List.getElem?_eq_some_iff.1 hi).1
    have ha : askData decode w i true t = (putBack w i o (Request.getData decode (view w o) true t).1,
        some (Request.getData decode (view w o) true t).2) := by unfold askData; rw [hi]
    rw [ha] at h ⊢
    simp only [Option.some.injEq] at h
    obtain ⟨b, h1, -, h3⟩ := ReqP.getData_ok decode (view w o) _ true t d (Prod.ext rfl h)
    refine ⟨b, h1, fun ops c => ?_⟩
    have key : ∀ (ops : List Share.Op) (w : World) (o : Obj), w.reqs[i]? = some o → o.data = some b →
        ∃ o', (Share.run lib decode w ops).reqs[i]? = some o' ∧ o'.data = some b := by
      intro ops
      induction ops with
      | nil => exact fun w o h hd => ⟨o, h, hd⟩
      | cons op ops ih =>
        intro w o h hd
        obtain ⟨o1, k1, k2⟩ := step_data lib decode w op i o b h hd
        exact ih _ o1 k1 k2
    obtain ⟨o', k1, k2⟩ := key ops (putBack w i o (Request.getData decode (view w o) true t).1)
      { o with stream := (Request.getData decode (view w o) true t).1.stream,
               data := (Request.getData decode (view w o) true t).1.cached }
      (by unfold putBack; dsimp only; rw [List.getElem?_set_self hl]) (h3 rfl)
    generalize Share.run lib decode _ ops = w' at k1 ⊢
    have hg : Request.getData decode (view w' o') c false = (view w' o', .ok (.bytes b)) := by
      unfold Request.getData
      rw [show (view w' o').cached = some b from k2]
      rfl
    have ha' : askData decode w' i c false = (putBack w' i o' (view w' o'), some (.ok (.bytes b))) := by
      unfold askData; rw [k1]; dsimp only; rw [hg]
    rw [ha']
    exact ⟨rfl, rfl⟩

/-- Two request objects over an environ that announces `n` bytes. -/
def two (e : List (Str × Str)) (D : Bytes) : World :=
  Share.run lib decode (fresh e false ⟨D, []⟩) [.make true false, .make true false]

/-- A second object that asks for the body does not get the body: it reads the `n` bytes that
follow it on the connection, or reports a client that has gone away when there are fewer. -/
theorem C148_body_second (e : List (Str × Str)) (n : Int) (hn : Wsgi.getContentLength e = some n) (D : Bytes)
    (hD : n ≤ D.length) (c c' : Bool) :
    let w := (askData decode (two lib decode e D) 0 c false).1
    (askData decode (two lib decode e D) 0 c false).2 = some (.ok (.bytes (D.take n.toNat))) ∧
    (2 * n ≤ D.length → (askData decode w 1 c' false).2 = some (.ok (.bytes ((D.drop n.toNat).take n.toNat)))) ∧
    (D.length < 2 * n → (askData decode w 1 c' false).2 = some (.error .clientDisconnected)) := by
  intro w
  obtain ⟨h1, h2⟩ := ReqP.C55_first_read decode e n hn D hD c
  have ha : askData decode (two lib decode e D) 0 c false =
      (putBack (two lib decode e D) 0 ⟨false, [], none, none⟩
        (Request.getData decode (Request.new false e false ⟨D, []⟩) c false).1,
        some (Request.getData decode (Request.new false e false ⟨D, []⟩) c false).2) := rfl
  have hw : w = putBack (two lib decode e D) 0 ⟨false, [], none, none⟩
        (Request.getData decode (Request.new false e false ⟨D, []⟩) c false).1 := rfl
  have hb : askData decode w 1 c' false = (putBack w 1 ⟨false, [], none, none⟩
        (Request.getData decode (Request.new false e false ⟨D.drop n.toNat, []⟩) c' false).1,
        some (Request.getData decode (Request.new false e false ⟨D.drop n.toNat, []⟩) c' false).2) := by
    have hv : view w ⟨false, [], none, none⟩ = Request.new false e false ⟨D.drop n.toNat, []⟩ := by
      rw [hw]
      show (⟨false, e, false, (Request.getData decode (Request.new false e false ⟨D, []⟩) c false).1.src, none, none⟩ :
        Request.Req) = _
      rw [h2]
      rfl
    rw [← hv]
    rfl
  rw [ha, hb]
  refine ⟨congrArg some h1, fun h => congrArg some ?_, fun h => congrArg some ?_⟩
  · exact (ReqP.C55_first_read decode e n hn (D.drop n.toNat) (by rw [List.length_drop]; omega) c').1
  · exact (ReqP.C55_short_body decode e n hn (D.drop n.toNat) (by rw [List.length_drop]; omega) c').1

/-- So two request objects over one environ need not agree about the body. -/
theorem C148_body_false (lib : Lib) : ¬ ∀ (e : List (Str × Str)) (D : Bytes) (b b' : Bytes),
    (askData decode (two lib decode e D) 0 true false).2 = some (.ok (.bytes b)) →
    (askData decode (askData decode (two lib decode e D) 0 true false).1 1 true false).2 = some (.ok (.bytes b')) →
    b = b' := by
  intro h
  have k := C148_body_second lib decode [(s%"CONTENT_LENGTH", s%"3")] 3 (by decide) b%"abcGET / HTTP" (by decide) true true
  have := h _ _ _ _ k.1 (k.2.1 (by decide))
  exact absurd this (by decide)

/-- Sizes the callers may pass to `stream.read`. -/
def ValidOp : Share.Op → Prop
  | .body _ (.read (some k)) => -1 ≤ k
  | _ => True

/-- How far an object has read its own stream. -/
def posOf : Option Request.Strm → Nat
  | some (.limited p _) => p.toNat
  | _ => 0

/-- The stream of an object is not opened yet, or limited to `N` bytes and within them. -/
def GoodS (N : Nat) : Option Request.Strm → Prop
  | none => True
  | some (.limited p l) => 0 ≤ p ∧ p ≤ N ∧ l = N
  | _ => False

/-- What one read takes from the connection. -/
def Took (N : Nat) (r r' : Request.Req) : Prop :=
  GoodS N r'.stream ∧ ∃ x, r.src.data = x ++ r'.src.data ∧
    (posOf r'.stream = posOf r.stream + x.length ∨
      (r'.src.data = [] ∧ posOf r'.stream = posOf r.stream ∧ x.length + posOf r.stream ≤ N))

theorem Took.refl (N : Nat) (r : Request.Req) (h : GoodS N r.stream) : Took N r r := ⟨h, [], rfl, .inl rfl⟩

theorem posOf_le {N : Nat} {s : Option Request.Strm} (h : GoodS N s) : posOf s ≤ N := by
  unfold GoodS at h
  unfold posOf
  split at h
  · exact Nat.zero_le _
  · dsimp only; omega
  · cases h

theorem streamRead_took (N : Nat) (r : Request.Req) (ht : r.terminated = false)
    (hn : Wsgi.getContentLength r.environ = some (N : Int)) (hs : GoodS N r.stream) (n : Option Int)
    (hv : ∀ k, n = some k → -1 ≤ k) : Took N r (Request.streamRead r n).1 := by
  have main : ∀ (r' : Request.Req) (p l : Int), r'.src = r.src → posOf r.stream = p.toNat → 0 ≤ p → p ≤ N → l = N →
      Took N r { r' with src := (Stream.read ⟨r'.src, p, l⟩ n).1.src,
                         stream := some (.limited (Stream.read ⟨r'.src, p, l⟩ n).1.pos (Stream.read ⟨r'.src, p, l⟩ n).1.limit) } := by
    intro r' p l e1 e2 e3 e4 e5
    subst e5
    rw [e1]
    obtain ⟨h1, h2⟩ := Stream.read_spec ⟨r.src, p, (N : Int)⟩ n hv e3
    generalize hr : Stream.read ⟨r.src, p, (N : Int)⟩ n = q at h1 h2 ⊢
    obtain ⟨s', x⟩ := q
    cases x with
    | ok b =>
      obtain ⟨⟨k1, k2, k3, k4⟩, -⟩ := h1 s' b rfl
      dsimp only at k1 k2 k3 k4
      refine ⟨?_, b, k1, .inl ?_⟩
      · show 0 ≤ s'.pos ∧ s'.pos ≤ N ∧ s'.limit = N
        exact ⟨by omega, by omega, k3⟩
      · show s'.pos.toNat = _
        rw [e2, k2]; omega
    | error x =>
      obtain ⟨y, k1, k2, k3, k4, k5⟩ := h2 s' x rfl
      dsimp only at k1 k2 k3 k4
      refine ⟨?_, y, k1, ?_⟩
      · show 0 ≤ s'.pos ∧ s'.pos ≤ N ∧ s'.limit = N
        exact ⟨by omega, by omega, k3⟩
      · show s'.pos.toNat = _ ∨ (s'.src.data = [] ∧ s'.pos.toNat = _ ∧ _)
        rcases k5 with rfl | k5
        · left; rw [e2, k2]; simp
        · right; rw [e2, k2]; exact ⟨k5, rfl, by omega⟩
  unfold Request.streamRead Request.getStream
  cases hst : r.stream with
  | some s =>
    rw [hst] at hs
    cases s with
    | raw => cases hs
    | empty => cases hs
    | limited p l =>
      obtain ⟨a1, a2, a3⟩ := hs
      exact main r p l rfl (by rw [hst]; rfl) a1 a2 a3
  | none =>
    dsimp only
    unfold Request.openStream Wsgi.getInputStream
    rw [ht, hn]
    cases hsh : r.shallow with
    | true => exact Took.refl N r hs
    | false =>
      exact main { r with stream := some (.limited 0 N) } 0 N rfl (by rw [hst]; rfl) (by omega) (by omega) rfl

theorem bodyStep_took (N : Nat) (r : Request.Req) (ht : r.terminated = false)
    (hn : Wsgi.getContentLength r.environ = some (N : Int)) (hs : GoodS N r.stream) (op : Request.Op)
    (hv : ∀ k, op = .read (some k) → -1 ≤ k) : Took N r (Request.step decode r op) := by
  cases op with
  | read n =>
    exact streamRead_took N r ht hn hs n (fun k e => hv k (by rw [e]))
  | getData c t =>
    have h := streamRead_took N r ht hn hs none (fun k e => by cases e)
    show Took N r (Request.getData decode r c t).1
    unfold Request.getData
    split
    · exact Took.refl N r hs
    · split
      · rename_i e; rw [e] at h; exact h
      · rename_i e; rw [e] at h; cases c <;> exact h
  | parse =>
    have h := streamRead_took N r ht hn hs none (fun k e => by cases e)
    show Took N r (Request.parseRead r).1
    unfold Request.parseRead
    split
    · exact Took.refl N r hs
    · exact h

/-- How far all objects together have read. -/
def total (l : List Obj) : Nat := (l.map fun o => posOf o.stream).sum

theorem total_set (l : List Obj) (i : Nat) (o o' : Obj) (h : l[i]? = some o) :
    total (l.set i o') + posOf o.stream = total l + posOf o'.stream := by
  induction l generalizing i with
  | nil => cases h
  | cons a l ih =>
    cases i with
    | zero =>
      cases h
      simp only [total, List.set_cons_zero, List.map_cons, List.sum_cons]
      omega
    | succ i =>
      have := ih i h
      simp only [total, List.set_cons_succ, List.map_cons, List.sum_cons] at this ⊢
      omega

theorem total_le (N : Nat) (l : List Obj) (h : ∀ o ∈ l, GoodS N o.stream) : total l ≤ N * l.length := by
  induction l with
  | nil => exact Nat.zero_le _
  | cons a l ih =>
    have h1 := ih (fun o ho => h o (List.mem_cons_of_mem _ ho))
    have h2 := posOf_le (h a (List.mem_cons_self ..))
    simp only [total, List.map_cons, List.sum_cons, List.length_cons, Nat.mul_add, Nat.mul_one] at h1 ⊢
    omega

/-- The invariant behind the bound. -/
def Bound (N : Nat) (e : List (Str × Str)) (D : Bytes) (w : World) : Prop :=
  w.environ = e ∧ w.terminated = false ∧ (∀ o ∈ w.reqs, GoodS N o.stream) ∧
    ∃ taken, D = taken ++ w.src.data ∧
      (taken.length = total w.reqs ∨ (w.src.data = [] ∧ taken.length ≤ N * w.reqs.length))

theorem Bound.step {N : Nat} {e : List (Str × Str)} {D : Bytes} {w : World}
    (hn : Wsgi.getContentLength e = some (N : Int)) (h : Bound N e D w) (op : Share.Op) (hq : quiet op = true)
    (hv : ValidOp op) : Bound N e D (Share.step lib decode w op) := by
  obtain ⟨b1, b2, b3, taken, b4, b5⟩ := h
  cases op with
  | setenv k v => cases hq
  | delenv k => cases hq
  | make p s =>
    refine ⟨b1, b2, ?_, taken, b4, ?_⟩
    · intro o ho
      change o ∈ w.reqs ++ _ at ho
      rcases List.mem_append.1 ho with ho | ho
      · exact b3 o ho
      · rw [List.mem_singleton] at ho; subst ho; trivial
    · show _ = total (w.reqs ++ _) ∨ (_ ∧ _ ≤ N * (w.reqs ++ _).length)
      rcases b5 with b5 | ⟨b5, b6⟩
      · left; rw [b5]; simp [total, posOf]
      · right; refine ⟨b5, Nat.le_trans b6 (Nat.mul_le_mul_left _ ?_)⟩; simp
  | ask j a =>
    show Bound N e D (ask lib w j a).1
    cases hj : w.reqs[j]? with
    | none =>
      have : (ask lib w j a).1 = w := by unfold ask; rw [hj]
      rw [this]; exact ⟨b1, b2, b3, taken, b4, b5⟩
    | some o =>
      rw [ask_some lib w j a o hj]
      refine ⟨b1, b2, ?_, taken, b4, ?_⟩
      · intro o2 ho
        rcases List.mem_or_eq_of_mem_set ho with ho | ho
        · exact b3 o2 ho
        · subst ho; exact b3 o (List.mem_of_getElem? hj)
      · dsimp only
        rw [List.length_set]
        rcases b5 with b5 | b5
        · left
          have := total_set w.reqs j o { o with dict := (readAttr lib w.environ o.dict a).1 } hj
          dsimp only at this
          omega
        · exact .inr b5
  | body j b =>
    show Bound N e D (bodyCall decode w j b)
    cases hj : w.reqs[j]? with
    | none =>
      have : bodyCall decode w j b = w := by unfold bodyCall; rw [hj]
      rw [this]; exact ⟨b1, b2, b3, taken, b4, b5⟩
    | some o =>
      rw [bodyCall_some decode w j b o hj]
      have hg := b3 o (List.mem_of_getElem? hj)
      obtain ⟨t1, x, t2, t3⟩ := bodyStep_took decode N (view w o) b2 (by rw [← b1] at hn; exact hn) hg b
        (fun k ek => by subst ek; exact hv)
      have tle := total_le N w.reqs b3
      have ts := total_set w.reqs j o { o with stream := (Request.step decode (view w o) b).stream,
                                               data := (Request.step decode (view w o) b).cached } hj
      dsimp only at ts
      change w.src.data = _ at t2
      have t3' : posOf (Request.step decode (view w o) b).stream = posOf o.stream + x.length ∨
        ((Request.step decode (view w o) b).src.data = [] ∧
          posOf (Request.step decode (view w o) b).stream = posOf o.stream ∧ x.length + posOf o.stream ≤ N) := t3
      refine ⟨b1, b2, ?_, taken ++ x, ?_, ?_⟩
      · intro o2 ho
        rcases List.mem_or_eq_of_mem_set ho with ho | ho
        · exact b3 o2 ho
        · subst ho; exact t1
      · show D = taken ++ x ++ (Request.step decode (view w o) b).src.data
        rw [List.append_assoc, ← t2]; exact b4
      · show _ = total (w.reqs.set j _) ∨ ((Request.step decode (view w o) b).src.data = [] ∧ _ ≤ N * (w.reqs.set j _).length)
        rw [List.length_set, List.length_append]
        rcases b5 with b5 | ⟨b5, b6⟩
        · rcases t3' with t3 | ⟨t3, t4, t5⟩
          · left; omega
          · right
            refine ⟨t3, ?_⟩
            have := total_le N (w.reqs.set j ⟨o.shallow, o.dict, some (.limited N N), o.data⟩) (by
              intro o2 ho
              rcases List.mem_or_eq_of_mem_set ho with ho | ho
              · exact b3 o2 ho
              · subst ho; exact ⟨by omega, by omega, rfl⟩)
            have ts' := total_set w.reqs j o ⟨o.shallow, o.dict, some (.limited N N), o.data⟩ hj
            rw [List.length_set] at this
            simp only [posOf, Int.toNat_natCast] at ts' t5
            omega
        · rw [b5] at t2
          have hx := List.append_eq_nil_iff.1 t2.symm
          right
          rw [hx.1]
          exact ⟨hx.2, b6⟩

/-- Together, request objects over an unchanged environ that announces `n` bytes take at most
`n` bytes for every object from the connection, in order and without gaps: a single object
never reads past the body. -/
theorem C148_body_bound (e : List (Str × Str)) (n : Int) (hn : Wsgi.getContentLength e = some n) (D : Bytes)
    (fails : List Bool) (ops : List Share.Op) (hq : ∀ op ∈ ops, quiet op = true) (hv : ∀ op ∈ ops, ValidOp op) :
    ∃ taken, D = taken ++ (Share.run lib decode (fresh e false ⟨D, fails⟩) ops).src.data ∧
      taken.length ≤ n.toNat * (Share.run lib decode (fresh e false ⟨D, fails⟩) ops).reqs.length := by
  have h0 : 0 ≤ n := by
    unfold Wsgi.getContentLength at hn
    split at hn
    · cases hn
    · split at hn
      · cases hn; omega
      · cases hn
  obtain ⟨N, rfl⟩ := Int.eq_ofNat_of_zero_le h0
  have key : ∀ (ops : List Share.Op) (w : World), Bound N e D w → (∀ op ∈ ops, quiet op = true) →
      (∀ op ∈ ops, ValidOp op) → Bound N e D (Share.run lib decode w ops) := by
    intro ops
    induction ops with
    | nil => exact fun w h _ _ => h
    | cons op ops ih =>
      intro w h hq hv
      exact ih _ (h.step lib decode hn op (hq op (List.mem_cons_self ..)) (hv op (List.mem_cons_self ..)))
        (fun o ho => hq o (List.mem_cons_of_mem _ ho)) (fun o ho => hv o (List.mem_cons_of_mem _ ho))
  obtain ⟨-, -, b3, taken, b4, b5⟩ := key ops (fresh e false ⟨D, fails⟩)
    ⟨rfl, rfl, fun o ho => (by cases ho), [], rfl, .inl rfl⟩ hq hv
  refine ⟨taken, b4, ?_⟩
  have := total_le N _ b3
  rw [Int.toNat_natCast]
  omega

/-! ### Examples -/

/-- A library for the examples. -/
def exLib : Lib := ⟨id, id, id, fun _ => .ok [], fun _ => true, none, false⟩

/-- A decoding for the examples. -/
def exDecode (b : Bytes) : Except PyErr Str := .ok (Utf8.latin1 b)

/-- Changes of the environ half way mix in one object: the claim that all attributes of one
object always describe one moment is false.  A dispatcher that shifts a segment from the path to
the script name after the path was read leaves a request whose script root and path together name
a place that was never asked for. -/
theorem C148_mixed_false :
    ¬ ∀ (lib : Lib) (decode : Bytes → Except PyErr Str) (e : List (Str × Str)) (ops : List Share.Op) (i : Nat),
      i < (Share.run lib decode (fresh e false ⟨[], []⟩) ops).reqs.length →
      ∃ k, k ≤ ops.length ∧ ∀ a, (ask lib (Share.run lib decode (fresh e false ⟨[], []⟩) ops) i a).2 =
        some (told lib (Share.run lib decode (fresh e false ⟨[], []⟩) (ops.take k)).environ a) := by
  intro h
  obtain ⟨k, hk, hc⟩ := h exLib exDecode [(s%"SCRIPT_NAME", []), (s%"PATH_INFO", s%"/blog/new")]
    [.make true false, .ask 0 .path, .setenv s%"PATH_INFO" s%"/new", .setenv s%"SCRIPT_NAME" s%"/blog"] 0 (by decide +kernel)
  have h1 := hc .path
  have h2 := hc .scriptRoot
  have hk' : k = 0 ∨ k = 1 ∨ k = 2 ∨ k = 3 ∨ k = 4 := by simp only [List.length_cons, List.length_nil] at hk; omega
  rcases hk' with rfl | rfl | rfl | rfl | rfl
  · exact absurd h2 (by decide +kernel)
  · exact absurd h2 (by decide +kernel)
  · exact absurd h2 (by decide +kernel)
  · exact absurd h2 (by decide +kernel)
  · exact absurd h1 (by decide +kernel)

/-- An environ for the examples. -/
def exEnv : List (Str × Str) :=
  [(s%"SCRIPT_NAME", s%"/app"), (s%"PATH_INFO", s%"/blog/new"), (s%"QUERY_STRING", s%"a=1"),
   (s%"CONTENT_LENGTH", s%"3"), (s%"REMOTE_ADDR", s%"10.0.0.1")]

/-- A history for the examples: middleware reads, and the application makes its own request. -/
def exOps : List Share.Op :=
  [.make true false, .ask 0 .queryString, .make true false, .ask 1 .fullPath, .body 0 (.read (some 2)), .make false true]

example : (∀ op ∈ exOps, quiet op = true) ∧
    (ask exLib (Share.run exLib exDecode (fresh exEnv false ⟨b%"abcdef", []⟩) exOps) 0 .fullPath).2 =
      some (.ok (.text s%"/blog/new?a=1")) ∧
    (ask exLib (Share.run exLib exDecode (fresh exEnv false ⟨b%"abcdef", []⟩) exOps) 1 .fullPath).2 =
      some (.ok (.text s%"/blog/new?a=1")) := by decide +kernel

example : (Share.run exLib exDecode (fresh exEnv false ⟨b%"abcdef", []⟩) exOps).current = some 1 ∧
    (Share.run exLib exDecode (fresh exEnv false ⟨b%"abcdef", []⟩) exOps).src.data = b%"cdef" := by decide +kernel

example : (ask exLib (Share.run exLib exDecode (fresh exEnv false ⟨[], []⟩)
      [.make true false, .ask 0 .path, .setenv s%"PATH_INFO" s%"/new", .setenv s%"REMOTE_ADDR" s%"10.0.0.2"]) 0 .fullPath).2 =
      some (.ok (.text s%"/blog/new?a=1")) ∧
    (ask exLib (Share.run exLib exDecode (fresh exEnv false ⟨[], []⟩)
      [.make true false, .ask 0 .path, .setenv s%"PATH_INFO" s%"/new", .setenv s%"REMOTE_ADDR" s%"10.0.0.2"]) 0 .remoteAddr).2 =
      some (.ok (.opt (some s%"10.0.0.2"))) := by decide +kernel

example : (askData exDecode (two exLib exDecode exEnv b%"abcGET") 0 true false).2 = some (.ok (.bytes b%"abc")) ∧
    (askData exDecode (askData exDecode (two exLib exDecode exEnv b%"abcGET") 0 true false).1 1 true false).2 =
      some (.ok (.bytes b%"GET")) := by decide +kernel

example : bodyOps 0 exOps = [.read (some 2)] := rfl

example : Wsgi.getContentLength exEnv = some 3 ∧ (∀ op ∈ exOps, ValidOp op) :=
  ⟨by decide, by simp [exOps, ValidOp]⟩

end Verif.Props.ShareP
