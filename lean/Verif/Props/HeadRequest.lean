import Verif.Props.Application
import Verif.Props.Revalidate
/-! Property theorems C138: a HEAD request is answered as the GET request would be, without the body. -/
namespace Verif.Props.AppP
open Verif Verif.Py Verif.Routing
open Verif.Dispatch hiding Op run step log
open Verif.Iri Verif.Accept Verif.Application Verif.UrlJoin Verif.Spec
open Verif.Props.RoutingP Verif.Props.IriP Verif.Props.JoinP Verif.Props.BuildP

/-! ### What is expected -/

/-- A GET request and a HEAD request that differ in nothing but the method. -/
structure Pair (g h : List (Str × Str)) : Prop where
  asGet : Dict.get g s%"REQUEST_METHOD" = some s%"GET"
  asHead : Dict.get h s%"REQUEST_METHOD" = some s%"HEAD"
  same : ∀ k, k ≠ s%"REQUEST_METHOD" → Dict.get h k = Dict.get g k

/-- Views and handlers that make the same response for the two. -/
def Alike (a : Parts) (get head : List (Str × Str)) : Prop :=
  (∀ rep vs, a.view rep head vs = a.view rep get vs) ∧ ∀ h x, a.handle h head x = a.handle h get x

/-- The two answers: both raise the same, or both are sent with the same status and headers, and nothing
follows the headers of the second. -/
inductive HeadOf (web : Response.Cfg) : Except Exc Sent → Except Exc Sent → Prop
  | raised (e : Exc) : HeadOf web (.error e) (.error e)
  | sent (get head : Sent) (hs : head.status = get.status) (hh : head.headers = get.headers)
      (hb : head.body.yields web = .ok []) : HeadOf web (.ok get) (.ok head)

/-! ### Proof -/

theorem pair_text {g h : List (Str × Str)} (p : Pair g h) (k : Str) (hk : k ≠ s%"REQUEST_METHOD") :
    ReqUrl.envText h k = ReqUrl.envText g k := by
  unfold ReqUrl.envText
  rw [p.same k hk]

theorem pair_route (a : Parts) {g h : List (Str × Str)} (p : Pair g h) : a.route h = a.route g := by
  unfold Parts.route ReqUrl.path ReqUrl.queryString
  rw [pair_text p _ (by decide), pair_text p _ (by decide)]

theorem pair_select (a : Parts) {g h : List (Str × Str)} (p : Pair g h) : a.select h = a.select g := by
  funext reps
  unfold Parts.select
  rw [p.same _ (by decide), p.same _ (by decide), p.same _ (by decide)]

theorem pair_host (idna : Str → Except PyErr Bytes) {g h : List (Str × Str)} (p : Pair g h) :
    Wsgi.getHost idna h none = Wsgi.getHost idna g none := by
  unfold Wsgi.getHost Wsgi.hostOf
  repeat rw [p.same _ (by decide)]

theorem pair_headers (web : Response.Cfg) (autocorrect : Bool) (idna : Str → Except PyErr Bytes) (label : Str → Str)
    {g h : List (Str × Str)} (p : Pair g h) (r : Response.Resp) :
    sentHeaders web autocorrect idna label h r = sentHeaders web autocorrect idna label g r := by
  have hr : rootUri idna web.lower label h = rootUri idna web.lower label g := by
    unfold rootUri ReqUrl.currentUrl
    rw [p.same _ (by decide), pair_host idna p]
    have : ∀ s t, ReqUrl.currentText .root s t h = ReqUrl.currentText .root s t g := by
      intro s t
      unfold ReqUrl.currentText
      rw [pair_text p _ (by decide)]
      simp
    simp only [this]
  unfold sentHeaders
  have : absoluteLocation autocorrect idna web.lower label h = absoluteLocation autocorrect idna web.lower label g := by
    funext l
    unfold absoluteLocation
    rw [hr]
  rw [this]

theorem pair_method {g h : List (Str × Str)} (p : Pair g h) : method g = s%"GET" ∧ method h = s%"HEAD" := by
  unfold method
  rw [p.asGet, p.asHead]
  exact ⟨rfl, rfl⟩

/-- Without bindings for HEAD, those for GET are used. -/
theorem lookup_head (sel : List Rep → Except PyErr Rep) (ops : List Dispatch.Op) (d : Nat) (name : Str)
    (hno : ∀ b ∈ Dispatch.log ops d, b.name = name → b.method ≠ s%"HEAD") :
    (Dispatch.run ops d).lookup sel name s%"HEAD" = (Dispatch.run ops d).lookup sel name s%"GET" := by
  rw [C40_lookup, C40_lookup]
  have hc : candidates (Dispatch.log ops d) name s%"HEAD" = [] := by
    unfold candidates
    rw [List.filter_eq_nil_iff]
    intro b hb
    have := hno b hb
    simpa using this
  unfold specLookup
  rw [hc]
  split
  · rfl
  · by_cases hg : candidates (Dispatch.log ops d) name s%"GET" = []
    · simp [hg]
    · simp [hg]

theorem pair_response (a : Parts) (mro : Exc → List Nat) {g h : List (Str × Str)} (p : Pair g h)
    (ops : List Dispatch.Op) (d : Nat) (hdisp : a.disp = Dispatch.run ops d)
    (hno : ∀ ep vs, a.route g = .ok (ep, vs) → ∀ b ∈ Dispatch.log ops d, b.name = ep → b.method ≠ s%"HEAD")
    (hal : Alike a g h) : a.response mro h = a.response mro g := by
  unfold Parts.response getResponse
  simp only [Parts.app]
  rw [pair_route a p, pair_select a p, (pair_method p).1, (pair_method p).2]
  have hcall : ∀ x e, a.call x h e = a.call x g e := by
    intro x e
    unfold Parts.call
    rw [hal.2]
  cases hr : a.route g with
  | error e => simp only [hcall]
  | ok v =>
    obtain ⟨ep, vs⟩ := v
    simp only
    rw [hdisp, lookup_head _ _ _ _ (hno ep vs hr)]
    simp only [hal.1, hcall]

/-- **C138.**  An application without bindings for HEAD at an end point, whose code makes the same
response for both methods, answers HEAD as GET, without the body: the status and all headers are the
same, nothing follows, and what is raised for the one is raised for the other. -/
theorem C138_head (a : Parts) (mro : Exc → List Nat) (autocorrect : Bool) (label : Str → Str)
    (get head : List (Str × Str)) (p : Pair get head)
    (ops : List Dispatch.Op) (d : Nat) (hdisp : a.disp = Dispatch.run ops d)
    (hno : ∀ ep vs, a.route get = .ok (ep, vs) → ∀ b ∈ Dispatch.log ops d, b.name = ep → b.method ≠ s%"HEAD")
    (hal : Alike a get head) :
    HeadOf a.web (a.serve mro autocorrect label get) (a.serve mro autocorrect label head) := by
  unfold Parts.serve
  rw [pair_response a mro p ops d hdisp hno hal]
  cases a.response mro get with
  | error e => exact .raised e
  | ok r =>
    simp only
    unfold Parts.send
    rw [pair_headers a.web autocorrect a.idna label p r]
    cases sentHeaders a.web autocorrect a.idna label get r with
    | error e => exact .raised _
    | ok l =>
      refine .sent _ _ rfl rfl ?_
      simp only
      rw [(pair_method p).2]
      rfl

/-- **C138, length.**  The length announced in the answer to HEAD is that of the body of the answer to
GET, for responses whose announced length is right when they are sent to a GET request (C52 says
which are). -/
theorem C138_length (a : Parts) (mro : Exc → List Nat) (autocorrect : Bool) (label : Str → Str)
    (get head : List (Str × Str)) (p : Pair get head)
    (ops : List Dispatch.Op) (d : Nat) (hdisp : a.disp = Dispatch.run ops d)
    (hno : ∀ ep vs, a.route get = .ok (ep, vs) → ∀ b ∈ Dispatch.log ops d, b.name = ep → b.method ≠ s%"HEAD")
    (hal : Alike a get head) (x : Sent) (hx : a.serve mro autocorrect label get = .ok x) (ys : List Response.Item)
    (hy : x.body.yields a.web = .ok ys)
    (hlen : Headers.getlist a.web.lower x.headers s%"Content-Length" = [natStr (ys.map Response.Item.len).sum]) :
    ∃ x', a.serve mro autocorrect label head = .ok x' ∧ x'.status = x.status ∧ x'.body.yields a.web = .ok [] ∧
      Headers.getlist a.web.lower x'.headers s%"Content-Length" = [natStr (ys.map Response.Item.len).sum] := by
  have h := C138_head a mro autocorrect label get head p ops d hdisp hno hal
  rw [hx] at h
  generalize he : a.serve mro autocorrect label head = z at h
  cases h with
  | sent _ x' hs hh hb => exact ⟨x', rfl, hs, hb, by rw [hh]; exact hlen⟩

/-- **C138, conditional responses.**  A view that calls `make_conditional` makes the same response for
both methods. -/
theorem C138_conditional (web : Response.Cfg) (now : Date.DateTime) (fuel : Nat) (inm ims : Option Str) (r : Response.Resp) :
    Desc.makeConditional web now fuel s%"HEAD" inm ims r = Desc.makeConditional web now fuel s%"GET" inm ims r := by
  have hm : ∀ ims tag lm, Etag.isResourceModified (D := Unit) (fun _ => []) fuel s%"HEAD" inm ims tag none lm =
      Etag.isResourceModified (D := Unit) (fun _ => []) fuel s%"GET" inm ims tag none lm := by
    intro ims tag lm
    unfold Etag.isResourceModified
    simp
  unfold Desc.makeConditional
  simp only [hm]
  simp

/-- **C138, closing.**  Closing the answer to HEAD calls the functions that closing the answer to GET
calls, in the same order, unless the body is handed to the server directly; those of the response are
called in that case too. -/
theorem C138_close (raises : Response.Cb → Bool) (r : Response.Resp) :
    (r.direct = false → (Response.appIter s%"HEAD" r).close raises r = (Response.appIter s%"GET" r).close raises r) ∧
    (Response.appIter s%"HEAD" r).close raises r = Response.close raises r := by
  constructor
  · intro h
    unfold Response.appIter
    rw [h]
    by_cases h1 : (Response.informational r.code || r.code == 204 || r.code == 304) = true
    · simp only [Bool.or_eq_true] at h1
      have : (s%"GET" == s%"HEAD" || Response.informational r.code || r.code == 204 || r.code == 304) = true := by
        simpa using h1
      rw [this]; rfl
    · have : (s%"GET" == s%"HEAD" || Response.informational r.code || r.code == 204 || r.code == 304) = false := by
        simpa using h1
      rw [this]; rfl
  · rfl

/-! ### A case -/

/-- The time of the requests. -/
def headNow : Date.DateTime := ⟨2017, 3, 4, 5, 6, 7⟩

/-- The page of the application below: its address, and a tag. -/
def headPage : Response.Resp := ⟨[(s%"ETag", s%"\"v1\""), (s%"Content-Location", s%"/a b")], s%"200 OK", 200, .list [.bytes b%"hello"], [], false⟩

/-- Views that answer with a page, or with 304 when the client has it. -/
def headApp : Parts :=
  { appOf dirOps with
    view := fun _ environ _ =>
      match Desc.makeConditional locCfg headNow 100 (method environ) (Dict.get environ s%"HTTP_IF_NONE_MATCH") none headPage with
      | some (r, .ok _) => .ok r
      | _ => .error (.user 0) }

/-- A GET request, and the HEAD request for the same. -/
def headEnv (tag : Str) : List (Str × Str) := Dict.set (appEnv s%"/a b/" []) s%"HTTP_IF_NONE_MATCH" tag

theorem head_pair (tag : Str) : Pair (headEnv tag) (Dict.set (headEnv tag) s%"REQUEST_METHOD" s%"HEAD") where
  asGet := by unfold headEnv; rw [Dict.get_set]; rfl
  asHead := by rw [Dict.get_set]; rfl
  same := by intro k hk; rw [Dict.get_set, if_neg hk]

theorem head_alike (tag : Str) : Alike headApp (headEnv tag) (Dict.set (headEnv tag) s%"REQUEST_METHOD" s%"HEAD") := by
  refine ⟨?_, fun _ _ => rfl⟩
  intro rep vs
  show (match Desc.makeConditional locCfg headNow 100 (method _) _ none headPage with
    | some (r, .ok _) => _ | _ => _) = (match Desc.makeConditional locCfg headNow 100 (method _) _ none headPage with
    | some (r, .ok _) => _ | _ => _)
  rw [(pair_method (head_pair tag)).1, (pair_method (head_pair tag)).2, (head_pair tag).same _ (by decide), C138_conditional]

/-- Status, headers and body of an answer. -/
def headAnswer (environ : List (Str × Str)) : Option (Str × Headers.HList × Response.AppIter) :=
  match headApp.serve appMro true id environ with
  | .error _ => none
  | .ok x => some (x.status, x.headers.filter fun p => p.1 ≠ s%"Date", x.body)

example (tag : Str) : HeadOf headApp.web (headApp.serve appMro true id (headEnv tag))
    (headApp.serve appMro true id (Dict.set (headEnv tag) s%"REQUEST_METHOD" s%"HEAD")) := by
  refine C138_head headApp appMro true id _ _ (head_pair tag) _ 0 rfl ?_ (head_alike tag)
  intro ep vs _ b hb _
  have : b.method = s%"GET" := by
    rcases hb with _ | ⟨_, _ | ⟨_, h⟩⟩
    · rfl
    · rfl
    · cases h
  rw [this]
  decide

set_option synthInstance.maxSize 1000 in
set_option maxRecDepth 8000 in
/-- The answers: the page, its HEAD, and both when the client has the page. -/
example : headAnswer (headEnv s%"\"v0\"") =
      some (s%"200 OK", [(s%"ETag", s%"\"v1\""), (s%"Content-Location", s%"/a%20b"), (s%"Content-Length", s%"5")], .closing [.bytes b%"hello"]) ∧
    headAnswer (Dict.set (headEnv s%"\"v0\"") s%"REQUEST_METHOD" s%"HEAD") =
      some (s%"200 OK", [(s%"ETag", s%"\"v1\""), (s%"Content-Location", s%"/a%20b"), (s%"Content-Length", s%"5")], .closing []) ∧
    headAnswer (headEnv s%"\"v1\"") = some (s%"304 UNKNOWN", [(s%"ETag", s%"\"v1\""), (s%"Content-Location", s%"/a%20b")], .closing []) ∧
    headAnswer (Dict.set (headEnv s%"\"v1\"") s%"REQUEST_METHOD" s%"HEAD") =
      some (s%"304 UNKNOWN", [(s%"ETag", s%"\"v1\""), (s%"Content-Location", s%"/a%20b")], .closing []) := by
  refine ⟨?_, ?_, ?_, ?_⟩ <;> decide +kernel

/-- An application with a view for HEAD of its own, which is not the one for GET. -/
def ownHead : Parts :=
  { appOf dirOps with disp := Dispatch.run [.add 0 [⟨s%"dir", s%"GET", offer 0 s%"text/html"⟩, ⟨s%"dir", s%"HEAD", offer 1 s%"text/html"⟩]] 0 }

/-- The representation that answers. -/
def answered (a : Parts) (environ : List (Str × Str)) : Option (List Str) :=
  match a.serve appMro true id environ with
  | .error _ => none
  | .ok x => some (Headers.getlist demoLower x.headers s%"X-Rep")

set_option synthInstance.maxSize 1000 in
set_option maxRecDepth 8000 in
/-- **C138, limits.**  A view for HEAD takes the place of the one for GET, also where it says something
else. -/
theorem C138_own_limits : answered ownHead (appEnv s%"/a b/" []) = some [s%"0"] ∧
    answered ownHead (Dict.set (appEnv s%"/a b/" []) s%"REQUEST_METHOD" s%"HEAD") = some [s%"1"] := by
  refine ⟨?_, ?_⟩ <;> decide +kernel

end Verif.Props.AppP
