import Verif.Model.Redirect
import Verif.Spec.Html
import Verif.PyLemmas
import Verif.HeadersLemmas
/-! Property theorem C60: redirect pages. -/
namespace Verif.Props.RedirectP
open Verif Verif.Redirect Verif.Spec.Html

/-- What becomes of one character. -/
def esc (c : Char) : Str :=
  if c = '&' then s%"&amp;" else if c = '<' then s%"&lt;" else if c = '>' then s%"&gt;"
  else if c = '"' then s%"&quot;" else if c = '\'' then s%"&#x27;" else [c]

theorem escape_eq (s : Str) : escape s = s.flatMap esc := by
  unfold escape
  simp only [Py.replace_char]
  simp only [List.flatMap_assoc]
  congr 1
  funext c
  unfold esc
  by_cases h1 : c = '&'
  · subst h1; decide
  by_cases h2 : c = '<'
  · subst h2; decide
  by_cases h3 : c = '>'
  · subst h3; decide
  by_cases h4 : c = '"'
  · subst h4; decide
  by_cases h5 : c = '\''
  · subst h5; decide
  simp [h1, h2, h3, h4, h5]

theorem escape_chars (s : Str) : ∀ c ∈ escape s, c ≠ '<' ∧ c ≠ '>' ∧ c ≠ '"' ∧ c ≠ '\'' := by
  rw [escape_eq]
  intro c hc
  obtain ⟨x, _, hx⟩ := List.mem_flatMap.1 hc
  unfold esc at hx
  by_cases h1 : x = '&'
  · rw [if_pos h1] at hx; clear hc; revert c hx; decide
  rw [if_neg h1] at hx
  by_cases h2 : x = '<'
  · rw [if_pos h2] at hx; clear hc; revert c hx; decide
  rw [if_neg h2] at hx
  by_cases h3 : x = '>'
  · rw [if_pos h3] at hx; clear hc; revert c hx; decide
  rw [if_neg h3] at hx
  by_cases h4 : x = '"'
  · rw [if_pos h4] at hx; clear hc; revert c hx; decide
  rw [if_neg h4] at hx
  by_cases h5 : x = '\''
  · rw [if_pos h5] at hx; clear hc; revert c hx; decide
  rw [if_neg h5, List.mem_singleton] at hx
  subst hx
  exact ⟨h2, h3, h4, h5⟩

theorem unescape_plain (c : Char) (h : c ≠ '&') (r : Str) : unescape (c :: r) = c :: unescape r := by
  rw [unescape] <;> simp_all

theorem unescape_esc (c : Char) (r : Str) : unescape (esc c ++ r) = c :: unescape r := by
  unfold esc
  by_cases h1 : c = '&'
  · subst h1; show unescape ('&' :: 'a' :: 'm' :: 'p' :: ';' :: r) = _; rw [unescape]
  rw [if_neg h1]
  by_cases h2 : c = '<'
  · subst h2; show unescape ('&' :: 'l' :: 't' :: ';' :: r) = _; rw [unescape]
  rw [if_neg h2]
  by_cases h3 : c = '>'
  · subst h3; show unescape ('&' :: 'g' :: 't' :: ';' :: r) = _; rw [unescape]
  rw [if_neg h3]
  by_cases h4 : c = '"'
  · subst h4; show unescape ('&' :: 'q' :: 'u' :: 'o' :: 't' :: ';' :: r) = _; rw [unescape]
  rw [if_neg h4]
  by_cases h5 : c = '\''
  · subst h5; show unescape ('&' :: '#' :: 'x' :: '2' :: '7' :: ';' :: r) = _; rw [unescape]
  rw [if_neg h5]
  exact unescape_plain c h1 r

theorem unescape_escape (s : Str) : unescape (escape s) = s := by
  rw [escape_eq]
  induction s with
  | nil => rfl
  | cons c r ih => rw [List.flatMap_cons, unescape_esc, ih]

theorem scan_text (e acc r : Str) (h : ∀ c ∈ e, c ≠ '<') : scan .text acc (e ++ r) = scan .text (acc ++ e) r := by
  induction e generalizing acc with
  | nil => simp
  | cons c e ih =>
    rw [List.cons_append, scan, if_neg (h c (.head _)), ih _ fun x hx => h x (.tail _ hx)]
    simp

theorem scan_quoted (e acc r : Str) (h : ∀ c ∈ e, c ≠ '"') :
    scan .quoted acc (e ++ r) = scan .quoted (acc ++ e) r := by
  induction e generalizing acc with
  | nil => simp
  | cons c e ih =>
    rw [List.cons_append, scan, if_neg (h c (.head _)), ih _ fun x hx => h x (.tail _ hx)]
    simp

set_option maxRecDepth 4000 in
/-- For every location, the page consists of exactly the tags of its template; the link's
target is, once character references are resolved, the URI, and its text is the location. -/
theorem C60_markup (location uri : Str) : ∃ target label,
    tokens (page location uri) =
      [.text [], .tag s%"!DOCTYPE HTML PUBLIC \"-//W3C//DTD HTML 3.2 Final//EN\"", .text s%"\n",
       .tag s%"title", .text s%"Redirecting...", .tag s%"/title", .text s%"\n",
       .tag s%"h1", .text s%"Redirecting...", .tag s%"/h1", .text s%"\n", .tag s%"p",
       .text s%"You should be redirected automatically to target URL: ",
       .tag (s%"a href=\"" ++ target ++ s%"\""), .text label, .tag s%"/a", .text s%".  If not click the link."] ∧
    unescape target = uri ∧ unescape label = location ∧
    (∀ c ∈ target ++ label, c ≠ '<' ∧ c ≠ '>' ∧ c ≠ '"' ∧ c ≠ '\'') := by
  refine ⟨escape uri, escape location, ?_, unescape_escape uri, unescape_escape location, ?_⟩
  · unfold tokens page
    have h1 : ∀ r, scan .text [] (s%"<!DOCTYPE HTML PUBLIC \"-//W3C//DTD HTML 3.2 Final//EN\">\n<title>Redirecting...</title>\n<h1>Redirecting...</h1>\n<p>You should be redirected automatically to target URL: <a href=\"" ++ r) =
      [.text [], .tag s%"!DOCTYPE HTML PUBLIC \"-//W3C//DTD HTML 3.2 Final//EN\"", .text s%"\n",
       .tag s%"title", .text s%"Redirecting...", .tag s%"/title", .text s%"\n",
       .tag s%"h1", .text s%"Redirecting...", .tag s%"/h1", .text s%"\n", .tag s%"p",
       .text s%"You should be redirected automatically to target URL: "] ++ scan .quoted s%"a href=\"" r := fun _ => rfl
    simp only [List.append_assoc]
    rw [h1, scan_quoted _ _ _ fun c hc => (escape_chars uri c hc).2.2.1]
    have h2 : ∀ acc r, scan .quoted acc (s%"\">" ++ r) = .tag (acc ++ s%"\"") :: scan .text [] r := fun _ _ => rfl
    rw [h2, scan_text _ _ _ fun c hc => (escape_chars location c hc).1]
    have h3 : ∀ acc, scan .text acc s%"</a>.  If not click the link." =
      [.text acc, .tag s%"/a", .text s%".  If not click the link."] := fun _ => rfl
    rw [h3]
    simp
  · intro c hc
    rcases List.mem_append.1 hc with h | h
    · exact escape_chars _ c h
    · exact escape_chars _ c h

/-- The response has exactly one `Location` header, holding the URI; a URI with a line break
is refused. -/
theorem C60_location (lower : Str → Str) (initial : Headers.HList) (uri : Str) :
    ('\n' ∉ uri ∧ '\r' ∉ uri → (headers lower initial uri).2 = .ok () ∧
      Headers.getlist lower (headers lower initial uri).1 s%"Location" = [uri]) ∧
    (¬ ('\n' ∉ uri ∧ '\r' ∉ uri) → headers lower initial uri = (initial, .error .valueError)) := by
  constructor
  · intro h
    refine ⟨?_, by rw [headers, Headers.getlist_set lower initial _ _ _ h, if_pos rfl]⟩
    rcases Headers.set_legal lower initial s%"Location" uri [] (by
      simpa [Headers.effValue, Spec.LegalValue] using h) with ⟨_, e⟩ | ⟨_, _, _, _, _, _, e⟩ <;> rw [headers, e]
  · intro h
    exact Headers.set_illegal lower initial _ uri [] (by simpa [Headers.effValue, Spec.LegalValue] using h)

example : escape s%"/a\"><script>'&" = s%"/a&quot;&gt;&lt;script&gt;&#x27;&amp;" := by decide +kernel

end Verif.Props.RedirectP
