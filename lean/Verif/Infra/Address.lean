import Verif.Infra.HasuraClient
/-!
# C97: which server an address in `HASURA_URL` leads to

`/repo/infra/hasura/config.go:15-33` reads the address with `url.Parse`, `client.go:149-153` appends an endpoint to
its path and writes it as a text again, `client.go:119-130` hands that text to `http.NewRequest`, which parses it
again, and to `http.DefaultClient`.  `net/url` and `net/http` are those of Go 1.19 (`/repo/go.mod:3`), followed from
their published source.
-/
namespace Verif.Infra.Address
open Verif.Lib Verif.Index Verif.Infra.HClient

/-! ## Model: `url.Parse`

Only for texts of the characters `urlChar`: for them escaping and unescaping change nothing, there is no user
information and no address in brackets. -/

def isLetter (c : Char) : Bool := ('a' ≤ c && c ≤ 'z') || ('A' ≤ c && c ≤ 'Z')
def isDigit (c : Char) : Bool := '0' ≤ c && c ≤ '9'

/-- the characters of the addresses considered here -/
def urlChar (c : Char) : Bool :=
  isLetter c || isDigit c || ['-', '_', '.', '~', '$', '&', '+', ',', '/', ':', ';', '=', '?', '#'].contains c

/-- `strings.Cut`; `none`: the separator was not found -/
def cut (sep : Char) : Str → Str × Option Str
  | [] => ([], none)
  | c :: cs => if c = sep then ([], some cs) else (c :: (cut sep cs).1, (cut sep cs).2)

/-- `url.URL` without user information, `RawPath` and `RawFragment` -/
structure GoUrl where
  scheme : Str := []
  opaq : Str := []
  host : Str := []
  path : Str := []
  omitHost : Bool := false
  forceQuery : Bool := false
  rawQuery : Str := []
  fragment : Str := []
deriving DecidableEq, Repr

inductive ParseErr where
  | control
  | missingScheme
  | colonInFirstSegment
  | invalidPort
deriving DecidableEq, Repr

/-- results of `getScheme` -/
inductive Scan where
  | none
  | missing
  | found (scheme rest : Str)
deriving DecidableEq, Repr

def Scan.cons (c : Char) : Scan → Scan
  | .found s r => .found (c :: s) r
  | x => x

/-- `net/url` `getScheme`; the flag tells whether the character is the first one -/
def scan : Bool → Str → Scan
  | _, [] => .none
  | first, c :: cs =>
    if isLetter c then (scan false cs).cons c
    else if isDigit c || c = '+' || c = '-' || c = '.' then if first then .none else (scan false cs).cons c
    else if c = ':' then if first then .missing else .found [] cs
    else .none

/-- `net/url` `stringContainsCTLByte` -/
def isControl (c : Char) : Bool := c < ' ' || c = '\x7f'

/-- `strings.ToLower` on the characters of a scheme -/
def lower (s : Str) : Str := s.map Char.toLower

/-- `net/url` `parseHost` with `validOptionalPort`: what follows the last colon are digits -/
def validHost (h : Str) : Bool := !h.contains ':' || (h.reverse.takeWhile (· ≠ ':')).all isDigit

/-- the part of `net/url` `parse` after the query was cut off; `rest` begins with a slash, or there is no scheme -/
def parsePath (u : GoUrl) (rest : Str) : Except ParseErr GoUrl :=
  match rest with
  | '/' :: '/' :: r =>
    if u.scheme ≠ [] ∨ r.head? ≠ some '/' then
      if validHost (cut '/' r).1 then
        .ok { u with host := (cut '/' r).1, path := match (cut '/' r).2 with | some p => '/' :: p | none => [] }
      else .error .invalidPort
    else .ok { u with path := rest }
  | '/' :: _ => .ok { u with path := rest, omitHost := u.scheme ≠ [] }
  | _ => .ok { u with path := rest }

/-- `net/url` `parse` after the scheme.  A single `?` at the very end sets `ForceQuery`. -/
def parseRest (scheme rest : Str) : Except ParseErr GoUrl :=
  let r := cut '?' rest
  let u : GoUrl := { scheme := scheme, forceQuery := r.2 = some [], rawQuery := r.2.getD [] }
  if r.1.head? ≠ some '/' ∧ scheme ≠ [] then .ok { u with opaq := r.1 }
  else if r.1.head? ≠ some '/' ∧ ':' ∈ (cut '/' r.1).1 then .error .colonInFirstSegment
  else parsePath u r.1

/-- `net/url` `parse` -/
def parseBase (s : Str) : Except ParseErr GoUrl :=
  if s.any isControl then .error .control
  else if s = ['*'] then .ok { path := ['*'] }
  else match scan true s with
    | .missing => .error .missingScheme
    | .none => parseRest [] s
    | .found sc rest => parseRest (lower sc) rest

/-- `url.Parse` -/
def parse (s : Str) : Except ParseErr GoUrl :=
  match parseBase (cut '#' s).1 with
  | .error e => .error e
  | .ok u => .ok { u with fragment := (cut '#' s).2.getD [] }

/-! ## Model: the request -/

/-- `url.URL.String`: the part between the scheme and the query -/
def GoUrl.middle (u : GoUrl) : Str :=
  if u.opaq ≠ [] then u.opaq
  else
    (if (u.scheme ≠ [] ∨ u.host ≠ []) ∧ ¬ (u.omitHost = true ∧ u.host = []) ∧ (u.host ≠ [] ∨ u.path ≠ []) then
      ['/', '/'] ++ u.host else []) ++
    (if u.path ≠ [] ∧ u.path.head? ≠ some '/' ∧ u.host ≠ [] then ['/'] else []) ++
    (if u.scheme = [] ∧ u.host = [] ∧ ':' ∈ (cut '/' u.path).1 then ['.', '/'] else []) ++ u.path

/-- the query with its mark -/
def GoUrl.query (u : GoUrl) : Str := if u.forceQuery = true ∨ u.rawQuery ≠ [] then '?' :: u.rawQuery else []

/-- `url.URL.String` -/
def GoUrl.text (u : GoUrl) : Str :=
  (if u.scheme ≠ [] then u.scheme ++ [':'] else []) ++ u.middle ++ u.query ++
    (if u.fragment ≠ [] then '#' :: u.fragment else [])

/-- `/repo/infra/hasura/client.go:149-153` `resolveURL` -/
def resolve (base : GoUrl) (pathname : Str) : Str := ({ base with path := pathJoin base.path pathname } : GoUrl).text

/-- where a request goes: the protocol, the server and what is asked of it -/
structure Target where
  scheme : Str
  host : Str
  uri : Str
deriving DecidableEq, Repr

inductive SendErr where
  | badUrl (e : ParseErr)
  | unsupported (scheme : Str)
  | noHost
deriving DecidableEq, Repr

/-- `net/http` `removeEmptyPort` -/
def removeEmptyPort (h : Str) : Str := if h.getLast? = some ':' then h.dropLast else h

@[irreducible] def http : Str := "http".toList
@[irreducible] def https : Str := "https".toList

/-- `http.NewRequest` and `http.Transport.roundTrip` up to the point where a connection is made; the request line
is `url.URL.RequestURI` -/
def send (address : Str) : Except SendErr Target :=
  match parse address with
  | .error e => .error (.badUrl e)
  | .ok u =>
    if u.scheme ≠ http ∧ u.scheme ≠ https then .error (.unsupported u.scheme)
    else if removeEmptyPort u.host = [] then .error .noHost
    else .ok ⟨u.scheme, removeEmptyPort u.host, (if u.path = [] then ['/'] else u.path) ++ u.query⟩

/-- one request of the command: `/repo/infra/hasura/client.go:119-130` `post` for an endpoint, with the address of
`HASURA_URL`; `none`: the command stopped before, at the address -/
def ask (address endpoint : Str) : Option (Except SendErr Target) :=
  match parse address with
  | .error _ => none
  | .ok u => some (send (resolve u endpoint))

/-! ## Spec -/

/-- An address as one writes it: `http` or `https` in letters of either case, `://`, the server, directories, a query
and a fragment. -/
structure Names (address scheme host dir query fragment : Str) : Prop where
  text : address = scheme ++ (':' :: '/' :: '/' :: (host ++ (dir ++ (query ++ fragment))))
  protocol : scheme.map Char.toLower = "http".toList ∨ scheme.map Char.toLower = "https".toList
  server : ∀ c ∈ host, c ≠ '/' ∧ c ≠ '?' ∧ c ≠ '#'
  port : ∀ a b, host = a ++ ':' :: b → ':' ∉ b → ∀ c ∈ b, '0' ≤ c ∧ c ≤ '9'
  directories : (dir = [] ∨ ∃ d, dir = '/' :: d) ∧ ∀ c ∈ dir, c ≠ '?' ∧ c ≠ '#'
  question : (query = [] ∨ ∃ q, query = '?' :: q) ∧ '#' ∉ query
  rest : fragment = [] ∨ ∃ f, fragment = '#' :: f

/-- the server without a colon that no number follows -/
def Server (host h : Str) : Prop := h ≠ [] ∧ (host = h ∧ h.getLast? ≠ some ':' ∨ host = h ++ [':'])

/-- the three endpoints of Hasura's documentation -/
def Endpoint (ep : Str) : Prop := ep ∈ [apiGraphql, apiExplain, apiSchema]

/-! ## Proofs: cutting -/

theorem cut_spec (sep : Char) (s : Str) :
    sep ∉ (cut sep s).1 ∧ s = (cut sep s).1 ++ (match (cut sep s).2 with | some r => sep :: r | none => []) := by
  induction s with
  | nil => simp [cut]
  | cons c cs ih =>
    unfold cut
    by_cases h : c = sep
    · simp [h]
    · rw [if_neg h]
      refine ⟨?_, ?_⟩
      · simp only [List.mem_cons, not_or]; exact ⟨fun e => h e.symm, ih.1⟩
      · simp only [List.cons_append]; rw [← ih.2]

theorem cut_none (sep : Char) (s : Str) (h : sep ∉ s) : cut sep s = (s, none) := by
  induction s with
  | nil => rfl
  | cons c cs ih =>
    simp only [List.mem_cons, not_or] at h
    unfold cut
    rw [if_neg (fun e => h.1 e.symm), ih h.2]

theorem cut_some (sep : Char) (a b : Str) (h : sep ∉ a) : cut sep (a ++ sep :: b) = (a, some b) := by
  induction a with
  | nil => simp [cut]
  | cons c cs ih =>
    simp only [List.mem_cons, not_or] at h
    rw [List.cons_append]
    unfold cut
    rw [if_neg (fun e => h.1 e.symm), ih h.2]

/-- cutting a text whose tail is empty or begins with the separator -/
theorem cut_tail (sep : Char) (a t : Str) (h : sep ∉ a) (ht : t = [] ∨ ∃ r, t = sep :: r) :
    (cut sep (a ++ t)).1 = a ∧ (cut sep (a ++ t)).2 = (match t with | [] => none | _ :: r => some r) := by
  rcases ht with rfl | ⟨r, rfl⟩
  · rw [List.append_nil, cut_none _ _ h]; simp
  · rw [cut_some _ _ _ h]; simp

/-! ## Proofs: schemes -/

def schemeChar (c : Char) : Bool := isLetter c || isDigit c || c = '+' || c = '-' || c = '.'

theorem scan_found (b : Bool) (s a r : Str) (h : scan b s = .found a r) :
    s = a ++ ':' :: r ∧ (∀ c ∈ a, schemeChar c = true) ∧ (b = true → ∃ c cs, a = c :: cs ∧ isLetter c = true) := by
  induction s generalizing b a with
  | nil => simp [scan] at h
  | cons c cs ih =>
    unfold scan at h
    have key : ∀ x, (scan false cs).cons x = .found a r → ∃ a', a = x :: a' ∧ scan false cs = .found a' r := by
      intro x hx
      cases hs : scan false cs with
      | none => rw [hs] at hx; simp [Scan.cons] at hx
      | missing => rw [hs] at hx; simp [Scan.cons] at hx
      | found s' r' =>
        rw [hs] at hx
        simp only [Scan.cons, Scan.found.injEq] at hx
        exact ⟨s', hx.1.symm, by rw [hx.2]⟩
    by_cases h1 : isLetter c = true
    · rw [if_pos h1] at h
      obtain ⟨a', rfl, hs⟩ := key c h
      obtain ⟨e1, e2, -⟩ := ih false a' hs
      refine ⟨by rw [e1]; rfl, ?_, fun _ => ⟨c, a', rfl, h1⟩⟩
      intro x hx
      rcases List.mem_cons.mp hx with rfl | hx
      · simp [schemeChar, h1]
      · exact e2 x hx
    · rw [if_neg h1] at h
      by_cases h2 : (isDigit c || c = '+' || c = '-' || c = '.') = true
      · rw [if_pos h2] at h
        cases b with
        | true => simp at h
        | false =>
          simp only [Bool.false_eq_true, if_false] at h
          obtain ⟨a', rfl, hs⟩ := key c h
          obtain ⟨e1, e2, -⟩ := ih false a' hs
          refine ⟨by rw [e1]; rfl, ?_, fun hb => by cases hb⟩
          intro x hx
          rcases List.mem_cons.mp hx with rfl | hx
          · simp only [schemeChar, Bool.or_assoc] at h2 ⊢
            rw [h2]; simp
          · exact e2 x hx
      · rw [if_neg h2] at h
        by_cases h3 : c = ':'
        · rw [if_pos h3] at h
          cases b with
          | true => simp at h
          | false =>
            simp only [Bool.false_eq_true, if_false, Scan.found.injEq] at h
            obtain ⟨rfl, rfl⟩ := h
            exact ⟨by rw [h3]; rfl, by simp, fun hb => by cases hb⟩
        · rw [if_neg h3] at h; cases h

theorem scan_of (b : Bool) (a r : Str) (ha : ∀ c ∈ a, schemeChar c = true)
    (hb : b = true → ∃ c cs, a = c :: cs ∧ isLetter c = true) : scan b (a ++ ':' :: r) = .found a r := by
  induction a generalizing b with
  | nil =>
    cases b with
    | true => obtain ⟨c, cs, h, -⟩ := hb rfl; cases h
    | false => simp [scan, isLetter, isDigit]
  | cons c cs ih =>
    have hs := ih false (fun x hx => ha x (List.mem_cons_of_mem _ hx)) (fun h => by cases h)
    rw [List.cons_append]
    unfold scan
    rw [hs]
    by_cases h1 : isLetter c = true
    · rw [if_pos h1]; rfl
    · rw [if_neg h1]
      have hc := ha c List.mem_cons_self
      have h2 : (isDigit c || c = '+' || c = '-' || c = '.') = true := by
        simp only [schemeChar, Bool.or_assoc] at hc ⊢
        rwa [Bool.eq_false_iff.mpr h1, Bool.false_or] at hc
      rw [if_pos h2]
      cases b with
      | true =>
        obtain ⟨d, ds, h, hl⟩ := hb rfl
        cases h
        exact absurd hl h1
      | false => rfl

theorem scan_missing (s : Str) (h : scan true s = .missing) : ∃ r, s = ':' :: r := by
  have hf : ∀ t, scan false t ≠ .missing := by
    intro t
    induction t with
    | nil => simp [scan]
    | cons c cs ih =>
      have hc : (scan false cs).cons c ≠ .missing := by
        cases hs : scan false cs with
        | none => simp [Scan.cons]
        | missing => exact absurd hs ih
        | found a b => simp [Scan.cons]
      unfold scan
      split
      · exact hc
      · split
        · simpa using hc
        · split <;> simp
  cases s with
  | nil => simp [scan] at h
  | cons c cs =>
    unfold scan at h
    have hc : (scan false cs).cons c ≠ .missing := by
      cases hs : scan false cs with
      | none => simp [Scan.cons]
      | missing => exact absurd hs (hf cs)
      | found a b => simp [Scan.cons]
    split at h
    · exact absurd h hc
    · split at h
      · simp at h
      · split at h
        · rename_i h3; exact ⟨cs, by rw [h3]⟩
        · cases h

theorem colon_not_scheme (c : Char) (h : schemeChar c = true) : c ≠ ':' ∧ c ≠ '/' ∧ c ≠ '?' ∧ c ≠ '#' := by
  refine ⟨?_, ?_, ?_, ?_⟩ <;> (rintro rfl; revert h; decide)

/-! ## Proofs: reading an address -/

theorem urlChar_noControl (c : Char) (h : urlChar c = true) : isControl c = false := by
  unfold urlChar at h
  simp only [Bool.or_eq_true, List.contains_eq_mem, List.mem_cons, List.not_mem_nil, or_false, decide_eq_true_eq] at h
  rcases h with (h | h) | h
  · unfold isLetter at h
    simp only [Bool.or_eq_true, Bool.and_eq_true, decide_eq_true_eq, Char.le_def, UInt32.le_iff_toNat_le] at h
    unfold isControl
    simp only [Bool.or_eq_false_iff, decide_eq_false_iff_not, Char.lt_def, UInt32.lt_iff_toNat_lt]
    refine ⟨?_, ?_⟩
    · have : ' '.val.toNat = 32 := rfl
      have : 'a'.val.toNat = 97 := rfl
      have : 'A'.val.toNat = 65 := rfl
      omega
    · rintro rfl
      revert h; decide
  · unfold isDigit at h
    simp only [Bool.and_eq_true, decide_eq_true_eq, Char.le_def, UInt32.le_iff_toNat_le] at h
    unfold isControl
    simp only [Bool.or_eq_false_iff, decide_eq_false_iff_not, Char.lt_def, UInt32.lt_iff_toNat_lt]
    refine ⟨?_, ?_⟩
    · have : ' '.val.toNat = 32 := rfl
      have : '0'.val.toNat = 48 := rfl
      omega
    · rintro rfl
      revert h; decide
  · rcases h with rfl | rfl | rfl | rfl | rfl | rfl | rfl | rfl | rfl | rfl | rfl | rfl | rfl | rfl <;> decide

/-- an address with a scheme and a server, whatever the scheme -/
structure Parts (address scheme host dir query fragment : Str) : Prop where
  text : address = scheme ++ (':' :: '/' :: '/' :: (host ++ (dir ++ (query ++ fragment))))
  letter : ∃ c cs, scheme = c :: cs ∧ isLetter c = true
  chars : ∀ c ∈ scheme, schemeChar c = true
  server : ∀ c ∈ host, c ≠ '/' ∧ c ≠ '?' ∧ c ≠ '#'
  port : validHost host = true
  directories : (dir = [] ∨ ∃ d, dir = '/' :: d) ∧ ∀ c ∈ dir, c ≠ '?' ∧ c ≠ '#'
  question : (query = [] ∨ ∃ q, query = '?' :: q) ∧ '#' ∉ query
  rest : fragment = [] ∨ ∃ f, fragment = '#' :: f

/-- what is read of them -/
def partsUrl (scheme host dir query fragment : Str) : GoUrl where
  scheme := lower scheme
  host := host
  path := dir
  forceQuery := query = ['?']
  rawQuery := query.tail
  fragment := fragment.tail

theorem parsePath_parts (u : GoUrl) (host dir : Str) (hu : u.scheme ≠ []) (hs : '/' ∉ host) (hp : validHost host = true)
    (hd : dir = [] ∨ ∃ d, dir = '/' :: d) :
    parsePath u ('/' :: '/' :: (host ++ dir)) = .ok { u with host := host, path := dir } := by
  have hc := cut_tail '/' host dir hs hd
  unfold parsePath
  simp only
  rw [if_pos (.inl hu), hc.1, if_pos hp, hc.2]
  rcases hd with rfl | ⟨d, rfl⟩ <;> rfl

theorem lower_ne_nil (s : Str) (h : s ≠ []) : lower s ≠ [] := by
  cases s with
  | nil => exact absurd rfl h
  | cons a as => simp [lower]

theorem parse_parts {a scheme host dir query fragment : Str} (h : Parts a scheme host dir query fragment)
    (hc : ∀ c ∈ a, isControl c = false) : parse a = .ok (partsUrl scheme host dir query fragment) := by
  have e0 : a = (scheme ++ (':' :: '/' :: '/' :: (host ++ (dir ++ query)))) ++ fragment := by rw [h.text]; simp
  have hno : '#' ∉ scheme ++ (':' :: '/' :: '/' :: (host ++ (dir ++ query))) := by
    intro hm
    simp only [List.mem_append, List.mem_cons] at hm
    rcases hm with hm | hm | hm | hm | hm | hm | hm
    · exact (colon_not_scheme _ (h.chars _ hm)).2.2.2 rfl
    · exact absurd hm (by decide)
    · exact absurd hm (by decide)
    · exact absurd hm (by decide)
    · exact (h.server _ hm).2.2 rfl
    · exact (h.directories.2 _ hm).2 rfl
    · exact h.question.2 hm
  have hcut := cut_tail '#' _ fragment hno h.rest
  rw [← e0] at hcut
  have hb : parseBase (scheme ++ (':' :: '/' :: '/' :: (host ++ (dir ++ query)))) =
      .ok { partsUrl scheme host dir query fragment with fragment := [] } := by
    unfold parseBase
    rw [if_neg (by
      intro hx
      obtain ⟨c, hc1, hc2⟩ := List.any_eq_true.mp hx
      rw [hc c (by rw [e0]; exact List.mem_append_left _ hc1)] at hc2
      cases hc2), if_neg (by
      obtain ⟨c, cs, rfl, -⟩ := h.letter
      intro hx
      have := congrArg List.length hx
      simp at this)]
    rw [scan_of true scheme _ h.chars (fun _ => h.letter)]
    simp only
    have hne : lower scheme ≠ [] := lower_ne_nil _ (by obtain ⟨c, cs, rfl, -⟩ := h.letter; simp)
    have hq : '?' ∉ '/' :: '/' :: (host ++ dir) := by
      intro hm
      simp only [List.mem_append, List.mem_cons] at hm
      rcases hm with hm | hm | hm | hm
      · exact absurd hm (by decide)
      · exact absurd hm (by decide)
      · exact (h.server _ hm).2.1 rfl
      · exact (h.directories.2 _ hm).1 rfl
    have hq2 := cut_tail '?' _ query hq h.question.1
    have e1 : ('/' :: '/' :: (host ++ dir)) ++ query = '/' :: '/' :: (host ++ (dir ++ query)) := by simp
    rw [e1] at hq2
    unfold parseRest
    simp only [hq2.1, hq2.2, List.head?_cons, ne_eq, not_true_eq_false, false_and, if_false]
    rw [parsePath_parts _ host dir hne (fun hm => (h.server _ hm).1 rfl) h.port h.directories.1]
    unfold partsUrl
    rcases h.question.1 with rfl | ⟨q, rfl⟩
    · simp
    · simp
  unfold parse
  rw [hcut.1, hb, hcut.2]
  unfold partsUrl
  rcases h.rest with rfl | ⟨f, rfl⟩ <;> simp

theorem parsePath_host (u v : GoUrl) (rest : Str) (hv : parsePath u rest = .ok v) (hu : u.host = []) (hh : v.host ≠ []) :
    ∃ dir, rest = '/' :: '/' :: (v.host ++ dir) ∧ '/' ∉ v.host ∧ validHost v.host = true ∧
      (dir = [] ∨ ∃ d, dir = '/' :: d) := by
  unfold parsePath at hv
  split at hv
  · rename_i r
    split at hv
    · split at hv
      · rename_i hp
        simp only [Except.ok.injEq] at hv
        subst hv
        have hc := cut_spec '/' r
        refine ⟨_, by rw [← hc.2], hc.1, hp, ?_⟩
        cases (cut '/' r).2 with
        | none => exact .inl rfl
        | some d => exact .inr ⟨d, rfl⟩
      · cases hv
    · simp only [Except.ok.injEq] at hv
      subst hv; exact absurd hu hh
  · simp only [Except.ok.injEq] at hv
    subst hv; exact absurd hu hh
  · simp only [Except.ok.injEq] at hv
    subst hv; exact absurd hu hh

/-- only addresses of that form name a server behind a scheme -/
theorem parts_of_parse {a : Str} {u : GoUrl} (h : parse a = .ok u) (hs : u.scheme ≠ []) (hh : u.host ≠ []) :
    ∃ scheme dir query fragment, Parts a scheme u.host dir query fragment := by
  unfold parse at h
  have hc := cut_spec '#' a
  cases hb : parseBase (cut '#' a).1 with
  | error e => rw [hb] at h; cases h
  | ok v =>
    rw [hb] at h
    simp only [Except.ok.injEq] at h
    have es : u.scheme = v.scheme := by rw [← h]
    have eh : u.host = v.host := by rw [← h]
    rw [es] at hs
    rw [eh] at hh ⊢
    unfold parseBase at hb
    split at hb
    · cases hb
    · split at hb
      · simp only [Except.ok.injEq] at hb
        subst hb; exact absurd rfl hh
      · split at hb
        · cases hb
        · unfold parseRest at hb
          simp only at hb
          split at hb
          · simp only [Except.ok.injEq] at hb
            subst hb; exact absurd rfl hh
          · split at hb
            · cases hb
            · unfold parsePath at hb
              split at hb
              · split at hb
                · split at hb
                  · simp only [Except.ok.injEq] at hb
                    subst hb; exact absurd rfl hs
                  · cases hb
                · simp only [Except.ok.injEq] at hb
                  subst hb; exact absurd rfl hs
              · simp only [Except.ok.injEq] at hb
                subst hb; exact absurd rfl hs
              · simp only [Except.ok.injEq] at hb
                subst hb; exact absurd rfl hs
        · rename_i sc rest hsc
          obtain ⟨e1, e2, e3⟩ := scan_found _ _ _ _ hsc
          have hq := cut_spec '?' rest
          unfold parseRest at hb
          simp only at hb
          split at hb
          · simp only [Except.ok.injEq] at hb
            subst hb; exact absurd rfl hh
          · split at hb
            · cases hb
            · obtain ⟨dir, d1, d2, d3, d4⟩ := parsePath_host _ _ _ hb rfl hh
              have hno : '#' ∉ rest := fun hm => hc.1 (by rw [e1]; simp [hm])
              have hno1 : '#' ∉ '/' :: '/' :: (v.host ++ dir) := by
                rw [← d1]; intro hm; exact hno (by rw [hq.2]; exact List.mem_append_left _ hm)
              have hno2 : '?' ∉ '/' :: '/' :: (v.host ++ dir) := by rw [← d1]; exact hq.1
              simp only [List.mem_cons, List.mem_append, not_or] at hno1 hno2
              refine ⟨sc, dir, (match (cut '?' rest).2 with | some r => '?' :: r | none => []),
                (match (cut '#' a).2 with | some r => '#' :: r | none => []), ?_, e3 rfl, e2, ?_, d3, ⟨d4, ?_⟩, ⟨?_, ?_⟩, ?_⟩
              · refine hc.2.trans ?_
                rw [e1]
                have hr : rest = '/' :: '/' :: (v.host ++ dir) ++
                    (match (cut '?' rest).2 with | some r => '?' :: r | none => []) := hq.2.trans (by rw [d1])
                refine Eq.trans (congrArg (fun z => (sc ++ ':' :: z) ++ _) hr) ?_
                simp
              · intro c hm
                refine ⟨?_, ?_, ?_⟩
                · rintro rfl; exact d2 hm
                · rintro rfl; exact hno2.2.2.1 hm
                · rintro rfl; exact hno1.2.2.1 hm
              · intro c hm
                refine ⟨?_, ?_⟩
                · rintro rfl; exact hno2.2.2.2 hm
                · rintro rfl; exact hno1.2.2.2 hm
              · cases (cut '?' rest).2 with
                | none => exact .inl rfl
                | some d => exact .inr ⟨d, rfl⟩
              · intro hm; exact hno (by rw [hq.2]; exact List.mem_append_right _ hm)
              · cases (cut '#' a).2 with
                | none => exact .inl rfl
                | some d => exact .inr ⟨d, rfl⟩

/-! ## Proofs: letters -/

theorem ascii_all (P : Char → Bool) (h : ∀ n : Fin 128, P (Char.ofNat n) = true) (c : Char) (hc : c.toNat < 128) :
    P c = true := by
  have := h ⟨c.toNat, hc⟩
  simpa [Char.ofNat_toNat] using this

theorem urlChar_ascii (c : Char) (h : urlChar c = true) : c.toNat < 128 := by
  unfold urlChar at h
  simp only [Bool.or_eq_true, List.contains_eq_mem, List.mem_cons, List.not_mem_nil, or_false, decide_eq_true_eq] at h
  rcases h with (h | h) | h
  · unfold isLetter at h
    simp only [Bool.or_eq_true, Bool.and_eq_true, decide_eq_true_eq, Char.le_def, UInt32.le_iff_toNat_le] at h
    have h1 : 'z'.val.toNat = 122 := rfl
    have h2 : 'Z'.val.toNat = 90 := rfl
    have h3 : c.toNat = c.val.toNat := rfl
    omega
  · unfold isDigit at h
    simp only [Bool.and_eq_true, decide_eq_true_eq, Char.le_def, UInt32.le_iff_toNat_le] at h
    have h1 : '9'.val.toNat = 57 := rfl
    have h3 : c.toNat = c.val.toNat := rfl
    omega
  · rcases h with rfl | rfl | rfl | rfl | rfl | rfl | rfl | rfl | rfl | rfl | rfl | rfl | rfl | rfl <;> decide

theorem schemeChar_url (c : Char) (h : schemeChar c = true) : urlChar c = true := by
  unfold schemeChar at h
  unfold urlChar
  simp only [Bool.or_eq_true, decide_eq_true_eq] at h
  rcases h with (((h | h) | h) | h) | h
  · simp [h]
  · simp [h]
  all_goals (subst h; decide)

theorem lower_char (c : Char) (h : urlChar c = true) :
    (schemeChar c = true → schemeChar c.toLower = true) ∧ (isLetter c = true ↔ isLetter c.toLower = true) ∧
    c.toLower.toLower = c.toLower := by
  have := ascii_all (fun c => (!schemeChar c || schemeChar c.toLower) && (isLetter c == isLetter c.toLower) &&
    (c.toLower.toLower == c.toLower)) (by decide +kernel) c (urlChar_ascii c h)
  simp only [Bool.and_eq_true, Bool.or_eq_true, Bool.not_eq_true', beq_iff_eq] at this
  refine ⟨fun hs => ?_, by rw [this.1.2], this.2⟩
  rcases this.1.1 with h | h
  · rw [hs] at h; cases h
  · exact h

theorem lower_lower (s : Str) (h : ∀ c ∈ s, schemeChar c = true) : lower (lower s) = lower s := by
  unfold lower
  rw [List.map_map]
  apply List.map_congr_left
  intro c hc
  exact (lower_char c (schemeChar_url c (h c hc))).2.2

/-! ## Proofs: cleaned paths -/

theorem cleanElems_mem (r : Bool) : ∀ (es out : List Str) (e : Str), e ∈ cleanElems r es out → e ∈ out ∨ e ∈ es ∧ e ≠ []
  | [], out, e, h => by simp [cleanElems] at h; exact .inl h
  | x :: es, out, e, h => by
    unfold cleanElems at h
    split at h
    · rcases cleanElems_mem r es out e h with h | h
      · exact .inl h
      · exact .inr ⟨List.mem_cons_of_mem _ h.1, h.2⟩
    · rename_i h1
      have hx : x ≠ [] := fun h => h1 (.inl h)
      have tail : ∀ o : List Str, e ∈ cleanElems r es o → (∀ y ∈ o, y ∈ out ∨ y = x) → e ∈ out ∨ e ∈ x :: es ∧ e ≠ [] := by
        intro o ho hs
        rcases cleanElems_mem r es o e ho with h | h
        · rcases hs e h with h | rfl
          · exact .inl h
          · exact .inr ⟨List.mem_cons_self, hx⟩
        · exact .inr ⟨List.mem_cons_of_mem _ h.1, h.2⟩
      split at h
      · split at h
        · split at h
          · exact tail _ h (by intro y hy; rcases List.mem_cons.mp hy with rfl | hy; exacts [.inr rfl, .inl hy])
          · exact tail _ h (by intro y hy; exact .inl (List.mem_cons_of_mem _ hy))
        · split at h
          · exact tail _ h (by intro y hy; cases hy)
          · exact tail _ h (by intro y hy; exact .inr (List.mem_singleton.mp hy))
      · exact tail _ h (by intro y hy; rcases List.mem_cons.mp hy with rfl | hy; exacts [.inr rfl, .inl hy])

theorem splitOn_mem (sep : Char) (t e : Str) (h : e ∈ splitOn sep t) : sep ∉ e ∧ ∀ c ∈ e, c ∈ t := by
  induction t generalizing e with
  | nil => simp [splitOn] at h; subst h; simp
  | cons c cs ih =>
    unfold splitOn at h
    split at h
    · rcases List.mem_cons.mp h with rfl | h
      · simp
      · exact ⟨(ih e h).1, fun x hx => List.mem_cons_of_mem _ ((ih e h).2 x hx)⟩
    · rename_i hc
      split at h
      · simp at h; subst h
        exact ⟨by simp; exact fun e => hc e.symm, by simp⟩
      · rename_i p ps hp
        rcases List.mem_cons.mp h with rfl | h
        · have := ih p (by rw [hp]; exact List.mem_cons_self)
          refine ⟨?_, ?_⟩
          · simp only [List.mem_cons, not_or]; exact ⟨fun e => hc e.symm, this.1⟩
          · intro x hx
            rcases List.mem_cons.mp hx with rfl | hx
            · exact List.mem_cons_self
            · exact List.mem_cons_of_mem _ (this.2 x hx)
        · have := ih e (by rw [hp]; exact List.mem_cons_of_mem _ h)
          exact ⟨this.1, fun x hx => List.mem_cons_of_mem _ (this.2 x hx)⟩

theorem joinWith_mem (sep : Str) (es : List Str) (c : Char) (h : c ∈ joinWith sep es) : c ∈ sep ∨ ∃ e ∈ es, c ∈ e := by
  induction es with
  | nil => simp [joinWith] at h
  | cons e es ih =>
    cases es with
    | nil => exact .inr ⟨e, List.mem_cons_self, by simpa [joinWith] using h⟩
    | cons f es =>
      simp only [joinWith, List.mem_append] at h
      rcases h with (h | h) | h
      · exact .inr ⟨e, List.mem_cons_self, h⟩
      · exact .inl h
      · rcases ih h with h | ⟨x, hx, h⟩
        · exact .inl h
        · exact .inr ⟨x, List.mem_cons_of_mem _ hx, h⟩

theorem clean_rooted (p : Str) (h : p.head? = some '/') :
    ∃ x, clean p = '/' :: x ∧ x.head? ≠ some '/' ∧ ∀ c ∈ clean p, c ∈ p := by
  have hm : '/' ∈ p := by cases p with | nil => cases h | cons a as => cases h; exact List.mem_cons_self
  refine ⟨joinWith ['/'] (cleanElems true (splitOn '/' p) []), by rw [clean, if_pos h], ?_, ?_⟩
  · have hne : ∀ e ∈ cleanElems true (splitOn '/' p) [], e ≠ [] ∧ '/' ∉ e := by
      intro e he
      rcases cleanElems_mem _ _ _ e he with h | h
      · cases h
      · exact ⟨h.2, (splitOn_mem _ _ _ h.1).1⟩
    cases hes : cleanElems true (splitOn '/' p) [] with
    | nil => simp [joinWith]
    | cons e es =>
      rw [hes] at hne
      obtain ⟨h1, h2⟩ := hne e List.mem_cons_self
      cases e with
      | nil => exact absurd rfl h1
      | cons a as =>
        have ha : a ≠ '/' := by rintro rfl; exact h2 List.mem_cons_self
        cases es with
        | nil => simpa [joinWith] using ha
        | cons f fs => simpa [joinWith] using ha
  · intro c hc
    rw [clean, if_pos h] at hc
    rcases List.mem_cons.mp hc with rfl | hc
    · exact hm
    · rcases joinWith_mem _ _ _ hc with h | ⟨e, he, h⟩
      · rw [List.mem_singleton.mp h]; exact hm
      · rcases cleanElems_mem _ _ _ e he with h' | h'
        · cases h'
        · exact (splitOn_mem _ _ _ h'.1).2 c h

theorem endpoint_slash (ep : Str) (h : Endpoint ep) : ∃ e, ep = '/' :: e ∧ ∀ c ∈ ep, urlChar c = true ∧ c ≠ '?' ∧ c ≠ '#' := by
  unfold Endpoint at h
  rw [api_names.1, api_names.2.1, api_names.2.2.1] at h
  simp only [List.mem_cons, List.not_mem_nil, or_false] at h
  rcases h with rfl | rfl | rfl
  · exact ⟨"v1/graphql".toList, by decide +kernel, by decide +kernel⟩
  · exact ⟨"v1/graphql/explain".toList, by decide +kernel, by decide +kernel⟩
  · exact ⟨"v2/query".toList, by decide +kernel, by decide +kernel⟩

/-- the path of a request to an address whose directories are none or begin with a slash -/
theorem join_rooted (dir ep : Str) (hd : dir = [] ∨ ∃ d, dir = '/' :: d) (he : Endpoint ep) :
    ∃ x, pathJoin dir ep = '/' :: x ∧ x.head? ≠ some '/' ∧ ∀ c ∈ pathJoin dir ep, c ∈ dir ∨ c ∈ ep := by
  obtain ⟨e, rfl, hc⟩ := endpoint_slash ep he
  unfold pathJoin
  rcases hd with rfl | ⟨d, rfl⟩
  · rw [if_pos rfl]
    obtain ⟨x, h1, h2, h3⟩ := clean_rooted ('/' :: e) rfl
    exact ⟨x, h1, h2, fun c hc => .inr (h3 c hc)⟩
  · rw [if_neg (by simp)]
    obtain ⟨x, h1, h2, h3⟩ := clean_rooted ('/' :: d ++ '/' :: '/' :: e) rfl
    refine ⟨x, h1, h2, fun c hc => ?_⟩
    have := h3 c hc
    simp only [List.cons_append, List.mem_cons, List.mem_append] at this
    rcases this with rfl | h | rfl | rfl | h
    · exact .inl List.mem_cons_self
    · exact .inl (List.mem_cons_of_mem _ h)
    · exact .inl List.mem_cons_self
    · exact .inl List.mem_cons_self
    · exact .inr (List.mem_cons_of_mem _ h)

/-- plain directories stay as they are -/
theorem join_plain (dirs : List Str) (slash : Bool) (ep : Str) (hd : ∀ e ∈ dirs, PlainElem e) (he : Endpoint ep) :
    pathJoin ((dirs.flatMap fun e => '/' :: e) ++ (if slash then ['/'] else [])) ep =
      (dirs.flatMap fun e => '/' :: e) ++ ep := by
  have h := C90_address [] [] dirs slash ep hd he
  have hr : ((dirs.flatMap fun e => '/' :: e) ++ (if slash then ['/'] else [])) = [] ∨
      ∃ d, ((dirs.flatMap fun e => '/' :: e) ++ (if slash then ['/'] else [])) = '/' :: d := by
    cases dirs with
    | nil => cases slash <;> simp
    | cons a as => exact .inr ⟨_, rfl⟩
  obtain ⟨x, h1, -, -⟩ := join_rooted _ ep hr he
  unfold resolveURL Url.text at h
  simp only [h1, List.head?_cons, ne_eq, not_true_eq_false, and_false, if_false, if_true, List.append_nil,
    List.nil_append] at h
  rw [h1]
  simpa using h

/-! ## Proofs: the request -/

theorem query_parts (scheme host dir query fragment : Str) (hq : query = [] ∨ ∃ q, query = '?' :: q) :
    (partsUrl scheme host dir query fragment).query = query := by
  unfold GoUrl.query partsUrl
  rcases hq with rfl | ⟨q, rfl⟩
  · simp
  · cases q <;> simp

/-- the fragment as `String` writes it -/
def shownFragment (fragment : Str) : Str := if fragment.tail ≠ [] then '#' :: fragment.tail else []

theorem resolve_parts {a scheme host dir query fragment : Str} (h : Parts a scheme host dir query fragment)
    (hh : host ≠ []) (ep : Str) (he : Endpoint ep) :
    resolve (partsUrl scheme host dir query fragment) ep =
      lower scheme ++ (':' :: '/' :: '/' :: (host ++ (pathJoin dir ep ++ (query ++ shownFragment fragment)))) := by
  obtain ⟨x, h1, -, -⟩ := join_rooted dir ep h.directories.1 he
  have hne : lower scheme ≠ [] := lower_ne_nil _ (by obtain ⟨c, cs, rfl, -⟩ := h.letter; simp)
  have hq := query_parts scheme host (pathJoin dir ep) query fragment h.question.1
  unfold resolve GoUrl.text GoUrl.middle
  have e1 : ({ partsUrl scheme host dir query fragment with
      path := pathJoin (partsUrl scheme host dir query fragment).path ep } : GoUrl) =
      partsUrl scheme host (pathJoin dir ep) query fragment := rfl
  rw [e1, hq, h1]
  simp only [partsUrl, shownFragment, ne_eq, hne, hh, not_true_eq_false, not_false_eq_true, if_true, if_false, true_or, false_and,
    and_false, and_true, List.head?_cons, List.append_nil]
  by_cases hf : fragment.tail = [] <;> simp [hf]

theorem parts_resolved {a scheme host dir query fragment : Str} (h : Parts a scheme host dir query fragment)
    (hh : host ≠ []) (ep : Str) (he : Endpoint ep) :
    Parts (resolve (partsUrl scheme host dir query fragment) ep) (lower scheme) host (pathJoin dir ep) query
      (shownFragment fragment) where
  text := resolve_parts h hh ep he
  letter := by
    obtain ⟨c, cs, rfl, hl⟩ := h.letter
    refine ⟨c.toLower, lower cs, rfl, ?_⟩
    exact ((lower_char c (schemeChar_url c (h.chars c List.mem_cons_self))).2.1).mp hl
  chars := by
    intro c hc
    obtain ⟨d, hd, rfl⟩ := List.mem_map.mp hc
    exact (lower_char d (schemeChar_url d (h.chars d hd))).1 (h.chars d hd)
  server := h.server
  port := h.port
  directories := by
    obtain ⟨x, h1, -, h3⟩ := join_rooted dir ep h.directories.1 he
    refine ⟨.inr ⟨x, h1⟩, fun c hc => ?_⟩
    rcases h3 c hc with h' | h'
    · exact h.directories.2 c h'
    · obtain ⟨e, -, h5⟩ := endpoint_slash ep he
      exact (h5 c h').2
  question := h.question
  rest := by
    unfold shownFragment
    split
    · exact .inr ⟨_, rfl⟩
    · exact .inl rfl

theorem resolved_noControl {a scheme host dir query fragment : Str} (h : Parts a scheme host dir query fragment)
    (hc : ∀ c ∈ a, urlChar c = true) (hh : host ≠ []) (ep : Str) (he : Endpoint ep) :
    ∀ c ∈ resolve (partsUrl scheme host dir query fragment) ep, isControl c = false := by
  intro c hm
  apply urlChar_noControl
  rw [resolve_parts h hh ep he] at hm
  rw [h.text] at hc
  simp only [List.mem_append, List.mem_cons] at hm hc
  rcases hm with hm | hm | hm | hm | hm | hm | hm | hm
  · obtain ⟨d, hd, rfl⟩ := List.mem_map.mp hm
    exact schemeChar_url _ ((lower_char d (schemeChar_url d (h.chars d hd))).1 (h.chars d hd))
  · subst hm; decide
  · subst hm; decide
  · subst hm; decide
  · exact hc c (by tauto)
  · obtain ⟨x, -, -, h3⟩ := join_rooted dir ep h.directories.1 he
    rcases h3 c hm with h' | h'
    · exact hc c (by tauto)
    · obtain ⟨e, -, h5⟩ := endpoint_slash ep he
      exact (h5 c h').1
  · exact hc c (by tauto)
  · unfold shownFragment at hm
    split at hm
    · rcases List.mem_cons.mp hm with rfl | hm
      · decide
      · exact hc c (by have := List.mem_of_mem_tail hm; tauto)
    · cases hm

/-- a request with an address of that form -/
theorem ask_parts {a scheme host dir query fragment : Str} (h : Parts a scheme host dir query fragment)
    (hc : ∀ c ∈ a, urlChar c = true) (hh : host ≠ []) (ep : Str) (he : Endpoint ep) :
    ask a ep = some (if lower scheme ≠ http ∧ lower scheme ≠ https then .error (.unsupported (lower scheme))
      else if removeEmptyPort host = [] then .error .noHost
      else .ok ⟨lower scheme, removeEmptyPort host, pathJoin dir ep ++ query⟩) := by
  have hp := parse_parts h (fun c hm => urlChar_noControl c (hc c hm))
  have h2 := parts_resolved h hh ep he
  have hp2 := parse_parts h2 (resolved_noControl h hc hh ep he)
  obtain ⟨x, h1, -, -⟩ := join_rooted dir ep h.directories.1 he
  unfold ask
  rw [hp]
  simp only
  unfold send
  rw [hp2]
  have e1 : (partsUrl (lower scheme) host (pathJoin dir ep) query (shownFragment fragment)).scheme = lower scheme :=
    lower_lower scheme h.chars
  have e2 : (partsUrl (lower scheme) host (pathJoin dir ep) query (shownFragment fragment)).host = host := rfl
  have e3 : (partsUrl (lower scheme) host (pathJoin dir ep) query (shownFragment fragment)).path = pathJoin dir ep := rfl
  simp only [e1, e2, e3, query_parts _ _ _ _ _ h.question.1]
  rw [if_neg (c := pathJoin dir ep = []) (by rw [h1]; simp)]

/-! ## Proofs: other addresses -/

theorem head_unique (a b r s : Str) (h : a ++ ':' :: r = b ++ ':' :: s) (ha : ':' ∉ a) (hb : ':' ∉ b) : a = b ∧ r = s := by
  have h1 := cut_some ':' a r ha
  have h2 := cut_some ':' b s hb
  rw [h, h2] at h1
  simp only [Prod.mk.injEq, Option.some.injEq] at h1
  exact ⟨h1.1.symm, h1.2.symm⟩

theorem prefix_of_scheme : ∀ (s X Y R : Str), X ++ Y = s ++ ':' :: R → (∀ c ∈ s, schemeChar c = true) →
    (Y = [] ∨ ∃ y ys, Y = y :: ys ∧ (y = '?' ∨ y = '#')) → ∃ z, X = s ++ ':' :: z
  | s, [], Y, R, h, hs, hY => by
    rcases hY with rfl | ⟨y, ys, rfl, hy⟩
    · simp at h
    · exfalso
      simp only [List.nil_append] at h
      cases s with
      | nil => simp at h; rcases hy with rfl | rfl <;> exact absurd h.1 (by decide)
      | cons c cs =>
        simp at h
        have := hs c List.mem_cons_self
        rw [← h.1] at this
        rcases hy with rfl | rfl <;> exact absurd this (by decide)
  | [], x :: X, Y, R, h, _, _ => by simp at h; exact ⟨X, by rw [h.1]; rfl⟩
  | c :: s, x :: X, Y, R, h, hs, hY => by
    simp at h
    obtain ⟨z, hz⟩ := prefix_of_scheme s X Y R h.2 (fun c hc => hs c (List.mem_cons_of_mem _ hc)) hY
    exact ⟨z, by rw [hz, h.1]; rfl⟩

theorem cut_append (sep : Char) (a b : Str) (h : sep ∉ a) : (cut sep (a ++ b)).1 = a ++ (cut sep b).1 := by
  induction a with
  | nil => rfl
  | cons c cs ih =>
    simp only [List.mem_cons, not_or] at h
    rw [List.cons_append, cut, if_neg (fun e => h.1 e.symm), ih h.2]
    rfl

/-- what `parse` never produces -/
structure Inv (u : GoUrl) : Prop where
  scheme : ∀ c ∈ u.scheme, schemeChar c = true
  opaq : u.opaq ≠ [] → u.scheme ≠ [] ∧ u.opaq.head? ≠ some '/'
  path : u.scheme ≠ [] → u.opaq = [] → u.path = [] ∨ ∃ d, u.path = '/' :: d

theorem parsePath_inv (u v : GoUrl) (rest : Str) (h : parsePath u rest = .ok v) (hs : ∀ c ∈ u.scheme, schemeChar c = true)
    (ho : u.opaq = []) (hr : u.scheme ≠ [] → rest.head? = some '/') : Inv v := by
  have mk : ∀ w : GoUrl, w.scheme = u.scheme → w.opaq = [] → (u.scheme ≠ [] → w.path = [] ∨ ∃ d, w.path = '/' :: d) → Inv w := by
    intro w h1 h2 h3
    exact ⟨by rw [h1]; exact hs, fun h => absurd h2 h, fun h _ => h3 (by rwa [h1] at h)⟩
  have key : u.scheme ≠ [] → ∃ d, rest = '/' :: d := by
    intro h
    have := hr h
    cases rest with
    | nil => cases this
    | cons a as => cases this; exact ⟨as, rfl⟩
  unfold parsePath at h
  split at h
  · split at h
    · split at h
      · simp only [Except.ok.injEq] at h
        subst h
        refine mk _ rfl ho fun _ => ?_
        simp only
        split
        · exact .inr ⟨_, rfl⟩
        · exact .inl rfl
      · cases h
    · simp only [Except.ok.injEq] at h
      subst h
      exact mk _ rfl ho fun h => .inr (key h)
  · simp only [Except.ok.injEq] at h
    subst h
    exact mk _ rfl ho fun h => .inr (key h)
  · simp only [Except.ok.injEq] at h
    subst h
    exact mk _ rfl ho fun h => .inr (key h)

theorem parseRest_inv (sc rest : Str) (v : GoUrl) (h : parseRest sc rest = .ok v) (hs : ∀ c ∈ sc, schemeChar c = true) : Inv v := by
  unfold parseRest at h
  simp only at h
  split at h
  · rename_i h1
    simp only [Except.ok.injEq] at h
    subst h
    exact ⟨hs, fun _ => ⟨h1.2, h1.1⟩, fun _ _ => .inl rfl⟩
  · rename_i h1
    split at h
    · cases h
    · refine parsePath_inv _ _ _ h hs rfl fun hne => ?_
      exact Classical.byContradiction fun hn => h1 ⟨hn, hne⟩

theorem parse_inv (a : Str) (u : GoUrl) (h : parse a = .ok u) : Inv u := by
  unfold parse at h
  cases hb : parseBase (cut '#' a).1 with
  | error e => rw [hb] at h; cases h
  | ok v =>
    rw [hb] at h
    simp only [Except.ok.injEq] at h
    have hv : Inv v := by
      unfold parseBase at hb
      split at hb
      · cases hb
      · split at hb
        · simp only [Except.ok.injEq] at hb
          subst hb
          exact ⟨by simp, fun h => absurd rfl h, fun h => absurd rfl h⟩
        · split at hb
          · cases hb
          · exact parseRest_inv _ _ _ hb (by simp)
          · rename_i sc rest hsc
            refine parseRest_inv _ _ _ hb ?_
            obtain ⟨-, e2, -⟩ := scan_found _ _ _ _ hsc
            intro c hc
            obtain ⟨d, hd, rfl⟩ := List.mem_map.mp hc
            exact (lower_char d (schemeChar_url d (e2 d hd))).1 (e2 d hd)
    subst h
    exact ⟨hv.scheme, hv.opaq, hv.path⟩

theorem tail_start (u : GoUrl) :
    (u.query ++ (if u.fragment ≠ [] then '#' :: u.fragment else [])) = [] ∨
    ∃ y ys, (u.query ++ (if u.fragment ≠ [] then '#' :: u.fragment else [])) = y :: ys ∧ (y = '?' ∨ y = '#') := by
  unfold GoUrl.query
  split
  · exact .inr ⟨_, _, rfl, .inl rfl⟩
  · split
    · exact .inr ⟨_, _, rfl, .inr rfl⟩
    · exact .inl rfl

/-- a request that goes out has a server in its address -/
theorem sent_has_server (u : GoUrl) (hu : Inv u) (ep : Str) (he : Endpoint ep) (t : Target)
    (h : send (resolve u ep) = .ok t) : u.scheme ≠ [] ∧ u.host ≠ [] := by
  unfold send at h
  cases hp : parse (resolve u ep) with
  | error e => rw [hp] at h; cases h
  | ok v =>
    rw [hp] at h
    simp only at h
    have hvs : v.scheme ≠ [] := by
      intro hv
      rw [hv, if_pos (by decide +kernel)] at h
      cases h
    split at h
    · cases h
    · split at h
      · cases h
      · rename_i hne
        have hvh : v.host ≠ [] := by intro hv; rw [hv] at hne; exact hne rfl
        obtain ⟨sc, dir, query, fragment, P⟩ := parts_of_parse hp hvs hvh
        have hr := P.text
        have hsc : ':' ∉ sc := fun hm => (colon_not_scheme _ (P.chars _ hm)).1 rfl
        obtain ⟨l, ls, hsl, hl⟩ := P.letter
        have hslash : ∀ r, v.host ++ r ≠ [] ∧ (v.host ++ r).head? ≠ some '/' := by
          intro r
          cases hv : v.host with
          | nil => exact absurd hv hvh
          | cons x xs =>
            refine ⟨by simp, ?_⟩
            simp only [List.cons_append, List.head?_cons, ne_eq, Option.some.injEq]
            rintro rfl
            exact (P.server '/' (by rw [hv]; exact List.mem_cons_self)).1 rfl
        have htail := tail_start u
        unfold resolve GoUrl.text GoUrl.middle at hr
        by_cases hs : u.scheme = []
        · exfalso
          have ho : u.opaq = [] := Classical.byContradiction fun h => (hu.opaq h).1 hs
          simp only [hs, ho, ne_eq, not_true_eq_false, if_false, false_or, List.nil_append] at hr
          by_cases hh : u.host = []
          · simp only [hh, not_true_eq_false, false_and, and_false, if_false, List.nil_append, true_and] at hr
            by_cases hcol : ':' ∈ (cut '/' (pathJoin u.path ep)).1
            · rw [if_pos hcol, hsl] at hr
              simp only [List.cons_append, List.cons.injEq] at hr
              rw [← hr.1] at hl
              exact absurd hl (by decide)
            · rw [if_neg hcol] at hr
              simp only [List.nil_append, List.append_assoc] at hr
              obtain ⟨z, hz⟩ := prefix_of_scheme sc _ _ _ hr P.chars (by simpa [GoUrl.query] using htail)
              apply hcol
              rw [hz]
              have : '/' ∉ sc ++ [':'] := by
                intro hm
                simp only [List.mem_append, List.mem_singleton] at hm
                rcases hm with hm | hm
                · exact (colon_not_scheme _ (P.chars _ hm)).2.1 rfl
                · exact absurd hm (by decide)
              have e : sc ++ ':' :: z = (sc ++ [':']) ++ z := by simp
              rw [e, cut_append _ _ _ this]
              simp
          · simp only [hh, not_false_eq_true, and_false, true_and, true_or, if_true, hsl, List.cons_append,
              List.cons.injEq, and_self] at hr
            rw [← hr.1] at hl
            exact absurd hl (by decide)
        · refine ⟨hs, fun hh => ?_⟩
          have hsn : ':' ∉ u.scheme := fun hm => (colon_not_scheme _ (hu.scheme _ hm)).1 rfl
          by_cases ho : u.opaq = []
          · obtain ⟨x, hx1, hx2, -⟩ := join_rooted u.path ep (hu.path hs ho) he
            simp only [hs, ho, hh, ne_eq, not_true_eq_false, not_false_eq_true, if_true, if_false, true_or, false_or, and_true,
              true_and, false_and, and_false, List.append_nil, List.append_assoc, hx1, List.cons_ne_nil, List.head?_cons] at hr
            cases hom : u.omitHost with
            | true =>
              simp only [hom, not_true_eq_false, if_false, List.nil_append, List.cons_append] at hr
              obtain ⟨-, h2⟩ := head_unique _ _ _ _ hr hsn hsc
              simp only [List.cons.injEq, true_and] at h2
              cases x with
              | cons y ys =>
                simp only [List.cons_append, List.cons.injEq] at h2
                exact hx2 (by rw [h2.1]; rfl)
              | nil =>
                simp only [List.nil_append] at h2
                rcases htail with ht | ⟨y, ys, ht, hy⟩
                · simp only [GoUrl.query, ne_eq] at ht h2
                  rw [ht] at h2; cases h2
                · simp only [GoUrl.query, ne_eq] at ht h2
                  rw [ht] at h2
                  simp only [List.cons.injEq] at h2
                  rw [h2.1] at hy
                  rcases hy with hy | hy <;> exact absurd hy (by decide)
            | false =>
              simp only [hom, Bool.false_eq_true, not_false_eq_true, if_true, List.nil_append, List.cons_append] at hr
              obtain ⟨-, h2⟩ := head_unique _ _ _ _ hr hsn hsc
              simp only [List.cons.injEq, true_and] at h2
              exact (hslash _).2 (by rw [← h2]; rfl)
          · simp only [hs, ho, ne_eq, not_false_eq_true, if_true, List.append_assoc, List.cons_append, List.nil_append] at hr
            obtain ⟨-, h2⟩ := head_unique _ _ _ _ hr hsn hsc
            have h3 := (hu.opaq ho).2
            cases hop : u.opaq with
            | nil => exact ho hop
            | cons o os =>
              rw [hop] at h2 h3
              simp only [List.cons_append, List.cons.injEq] at h2
              exact h3 (by rw [h2.1]; rfl)

/-! ## Proofs: the two forms of an address -/

theorem takeWhile_stop (x y : Str) (h : ':' ∉ x) : (x ++ ':' :: y).takeWhile (· ≠ ':') = x := by
  induction x with
  | nil => simp
  | cons a as ih =>
    simp only [List.mem_cons, not_or] at h
    rw [List.cons_append, List.takeWhile_cons, if_pos (by simpa using fun e => h.1 e.symm), ih h.2]

theorem last_colon (h : Str) (hm : ':' ∈ h) : ∃ a b, h = a ++ ':' :: b ∧ ':' ∉ b := by
  induction h with
  | nil => cases hm
  | cons c cs ih =>
    by_cases hc : ':' ∈ cs
    · obtain ⟨a, b, e, hb⟩ := ih hc
      exact ⟨c :: a, b, by rw [e]; rfl, hb⟩
    · rcases List.mem_cons.mp hm with rfl | h
      · exact ⟨[], cs, rfl, hc⟩
      · exact absurd h hc

theorem validHost_iff (h : Str) :
    validHost h = true ↔ ∀ a b, h = a ++ ':' :: b → ':' ∉ b → ∀ c ∈ b, '0' ≤ c ∧ c ≤ '9' := by
  unfold validHost
  by_cases hm : ':' ∈ h
  · obtain ⟨a, b, rfl, hb⟩ := last_colon h hm
    have e : (a ++ ':' :: b).reverse = b.reverse ++ ':' :: a.reverse := by simp
    rw [e, takeWhile_stop _ _ (by simpa using hb)]
    simp only [List.contains_eq_mem, hm, decide_true, Bool.not_true, Bool.false_or, List.all_reverse, List.all_eq_true, isDigit,
      Bool.and_eq_true, decide_eq_true_eq]
    constructor
    · intro hd a' b' he hb' c hc
      have e2 := congrArg List.reverse he
      simp only [List.reverse_append, List.reverse_cons, List.append_assoc, List.singleton_append] at e2
      have := head_unique _ _ _ _ e2 (by simpa using hb) (by simpa using hb')
      have hbb : b = b' := List.reverse_inj.mp this.1
      exact hd c (hbb ▸ hc)
    · intro hall c hc
      exact hall a b rfl hb c hc
  · simp only [List.contains_eq_mem, hm, decide_false, Bool.not_false, Bool.true_or, true_iff]
    rintro a b rfl
    exact absurd (by simp) hm

theorem http_eq : http = "http".toList ∧ https = "https".toList := by unfold http https; exact ⟨rfl, rfl⟩

theorem letters_of_lower (a scheme r : Str) (ha : a = scheme ++ r) (hc : ∀ c ∈ a, urlChar c = true)
    (h : scheme.map Char.toLower = "http".toList ∨ scheme.map Char.toLower = "https".toList) :
    ∀ c ∈ scheme, isLetter c = true := by
  intro c hm
  have hl : ∀ d ∈ scheme.map Char.toLower, isLetter d = true := by
    rcases h with h | h <;> (rw [h]; decide +kernel)
  exact ((lower_char c (hc c (by rw [ha]; exact List.mem_append_left _ hm))).2.1).mpr (hl _ (List.mem_map_of_mem hm))

theorem parts_of_names {a scheme host dir query fragment : Str} (h : Names a scheme host dir query fragment)
    (hc : ∀ c ∈ a, urlChar c = true) : Parts a scheme host dir query fragment where
  text := h.text
  letter := by
    have hl := letters_of_lower _ _ _ h.text hc h.protocol
    cases scheme with
    | nil =>
      exfalso
      rcases h.protocol with h | h <;> (revert h; decide +kernel)
    | cons c cs => exact ⟨c, cs, rfl, hl c List.mem_cons_self⟩
  chars := by
    intro c hm
    simp [schemeChar, letters_of_lower _ _ _ h.text hc h.protocol c hm]
  server := h.server
  port := (validHost_iff host).mpr h.port
  directories := h.directories
  question := h.question
  rest := h.rest

theorem server_iff (host h : Str) : Server host h ↔ h ≠ [] ∧ (removeEmptyPort host = h ∨ host = h ++ [':']) := by
  unfold Server removeEmptyPort
  constructor
  · rintro ⟨h1, ⟨rfl, h2⟩ | h2⟩
    · exact ⟨h1, .inl (by rw [if_neg h2])⟩
    · exact ⟨h1, .inr h2⟩
  · rintro ⟨h1, h2 | h2⟩
    · refine ⟨h1, ?_⟩
      split at h2
      · rename_i hl
        right
        rw [← h2]
        exact (List.dropLast_append_getLast? ':' hl).symm
      · rename_i hl
        subst h2
        exact .inl ⟨rfl, hl⟩
    · exact ⟨h1, .inr h2⟩

theorem removeEmptyPort_of (host h : Str) (hs : Server host h) : removeEmptyPort host = h := by
  obtain ⟨-, ⟨rfl, h2⟩ | rfl⟩ := hs
  · unfold removeEmptyPort; rw [if_neg h2]
  · unfold removeEmptyPort; rw [if_pos (by simp)]; simp

/-! ## C97 -/

/-- C97: with an address `http://…` or `https://…`, whose directories are plain names (and perhaps a slash at the end),
every request goes to that server, below those directories, with the query of the address.  Missing: addresses with
user information, escapes, brackets, or characters that must be escaped. -/
theorem C97_reached_partial (address scheme host h query fragment : Str) (dirs : List Str) (slash : Bool)
    (hc : ∀ c ∈ address, urlChar c = true)
    (hn : Names address scheme host ((dirs.flatMap fun e => '/' :: e) ++ (if slash then ['/'] else [])) query fragment)
    (hs : Server host h) (hd : ∀ e ∈ dirs, PlainElem e) (ep : Str) (he : Endpoint ep) :
    ask address ep = some (.ok ⟨scheme.map Char.toLower, h, (dirs.flatMap fun e => '/' :: e) ++ ep ++ query⟩) := by
  have hr := removeEmptyPort_of host h hs
  have hh : host ≠ [] := by
    rintro rfl
    exact hs.1 (by rw [← hr]; rfl)
  rw [ask_parts (parts_of_names hn hc) hc hh ep he, join_plain dirs slash ep hd he, hr, if_neg hs.1, if_neg]
  · rfl
  · rw [http_eq.1, http_eq.2]
    rintro ⟨h1, h2⟩
    rcases hn.protocol with h | h
    · exact h1 h
    · exact h2 h

/-- C97: a request that goes out goes to the server that the address names behind `http://` or `https://`, and to no
other; it keeps the query of the address and drops its fragment.  Missing: as before. -/
theorem C97_only_partial (address ep : Str) (t : Target) (hc : ∀ c ∈ address, urlChar c = true) (he : Endpoint ep)
    (h : ask address ep = some (.ok t)) :
    ∃ scheme host dir query fragment path, Names address scheme host dir query fragment ∧
      t.scheme = scheme.map Char.toLower ∧ Server host t.host ∧ t.uri = '/' :: path ++ query := by
  have h0 := h
  unfold ask at h0
  cases hp : parse address with
  | error e => rw [hp] at h0; cases h0
  | ok u =>
    rw [hp] at h0
    simp only [Option.some.injEq] at h0
    obtain ⟨h1, h2⟩ := sent_has_server u (parse_inv _ _ hp) ep he t h0
    obtain ⟨scheme, dir, query, fragment, P⟩ := parts_of_parse hp h1 h2
    rw [ask_parts P hc h2 ep he] at h
    simp only [Option.some.injEq] at h
    split at h
    · cases h
    · rename_i hsch
      split at h
      · cases h
      · rename_i hne
        simp only [Except.ok.injEq] at h
        subst h
        obtain ⟨x, hx, -, -⟩ := join_rooted dir ep P.directories.1 he
        refine ⟨scheme, u.host, dir, query, fragment, x, ⟨P.text, ?_, P.server, (validHost_iff _).mp P.port, P.directories,
          P.question, P.rest⟩, rfl, (server_iff _ _).mpr ⟨hne, .inl rfl⟩, by rw [hx]⟩
        rw [http_eq.1, http_eq.2] at hsch
        exact Classical.byContradiction fun hx => hsch ⟨fun h => hx (.inl h), fun h => hx (.inr h)⟩

/-- C97, negation: without `http://` the address of a local server is accepted, but no request is ever sent: its name
is taken for a protocol. -/
theorem C97_local (name port : Str) (hn : ∃ c cs, name = c :: cs ∧ isLetter c = true) (hs : ∀ c ∈ name, schemeChar c = true)
    (hp : port ≠ []) (hd : ∀ c ∈ port, isDigit c = true) (hh : lower name ≠ "http".toList ∧ lower name ≠ "https".toList)
    (ep : Str) : ask (name ++ ':' :: port) ep = some (.error (.unsupported (lower name))) := by
  have dig : ∀ c ∈ port, c ≠ '?' ∧ c ≠ '#' ∧ c ≠ '/' ∧ isControl c = false := by
    intro c hc
    have h := hd c hc
    refine ⟨?_, ?_, ?_, urlChar_noControl c (by simp [urlChar, h])⟩ <;> (rintro rfl; revert h; decide)
  have key : ∀ nm : Str, (∃ c cs, nm = c :: cs ∧ isLetter c = true) → (∀ c ∈ nm, schemeChar c = true) →
      parse (nm ++ ':' :: port) = .ok { scheme := lower nm, opaq := port } := by
    intro nm h1 h2
    have hno : '#' ∉ nm ++ ':' :: port := by
      intro hm
      simp only [List.mem_append, List.mem_cons] at hm
      rcases hm with hm | hm | hm
      · exact (colon_not_scheme _ (h2 _ hm)).2.2.2 rfl
      · exact absurd hm (by decide)
      · exact (dig _ hm).2.1 rfl
    unfold parse
    rw [cut_none _ _ hno]
    simp only
    unfold parseBase
    rw [if_neg (by
      intro hx
      obtain ⟨c, hc1, hc2⟩ := List.any_eq_true.mp hx
      have : isControl c = false := by
        simp only [List.mem_append, List.mem_cons] at hc1
        rcases hc1 with hm | rfl | hm
        · exact urlChar_noControl c (schemeChar_url c (h2 c hm))
        · decide
        · exact (dig c hm).2.2.2
      rw [this] at hc2; cases hc2), if_neg (by
      obtain ⟨c, cs, rfl, -⟩ := h1
      intro hx
      have := congrArg List.length hx
      simp at this), scan_of true nm port h2 (fun _ => h1)]
    simp only
    unfold parseRest
    rw [cut_none _ _ (fun hm => (dig _ hm).1 rfl)]
    simp only
    have hhead : port.head? ≠ some '/' := by
      cases port with
      | nil => exact absurd rfl hp
      | cons c cs =>
        simp only [List.head?_cons, ne_eq, Option.some.injEq]
        exact (dig c List.mem_cons_self).2.2.1
    rw [if_pos ⟨hhead, lower_ne_nil _ (by obtain ⟨c, cs, rfl, -⟩ := h1; simp)⟩]
    rfl
  have hl : (∃ c cs, lower name = c :: cs ∧ isLetter c = true) ∧ ∀ c ∈ lower name, schemeChar c = true := by
    obtain ⟨c, cs, rfl, hl⟩ := hn
    refine ⟨⟨c.toLower, lower cs, rfl, ((lower_char c (schemeChar_url c (hs c List.mem_cons_self))).2.1).mp hl⟩, ?_⟩
    intro d hd
    obtain ⟨e, he, rfl⟩ := List.mem_map.mp hd
    exact (lower_char e (schemeChar_url e (hs e he))).1 (hs e he)
  have hne : lower name ≠ [] := by obtain ⟨⟨c, cs, h, -⟩, -⟩ := hl; rw [h]; simp
  unfold ask
  rw [key name hn hs]
  simp only
  have hr : resolve { scheme := lower name, opaq := port } ep = lower name ++ ':' :: port := by
    unfold resolve GoUrl.text GoUrl.middle GoUrl.query
    simp [hne, hp]
  rw [hr]
  unfold send
  rw [key _ hl.1 hl.2, lower_lower _ hs]
  simp only
  rw [http_eq.1, http_eq.2, if_pos hh]

/-- C97, negation: with the address that Hasura's console shows, the one of its GraphQL endpoint, requests go to an
endpoint that does not exist. -/
theorem C97_twice (address scheme host h : Str) (hc : ∀ c ∈ address, urlChar c = true)
    (hn : Names address scheme host "/v1/graphql".toList [] []) (hs : Server host h) :
    ask address apiSchema = some (.ok ⟨scheme.map Char.toLower, h, "/v1/graphql/v2/query".toList⟩) := by
  have hd : ([['v', '1'], "graphql".toList].flatMap fun e => '/' :: e) ++ (if false = true then ['/'] else []) =
      "/v1/graphql".toList := by decide +kernel
  have := C97_reached_partial address scheme host h [] [] [['v', '1'], "graphql".toList] false hc (by rw [hd]; exact hn) hs
    (by unfold PlainElem; decide +kernel) apiSchema (by simp [Endpoint])
  rw [this]
  have : ([['v', '1'], "graphql".toList].flatMap fun e => '/' :: e) ++ apiSchema ++ [] = "/v1/graphql/v2/query".toList := by
    unfold apiSchema; decide +kernel
  rw [this]

/-- the requests of C90 are those with such an address: what is written of it there is what is written here -/
theorem C97_client (address scheme host dir : Str) (hc : ∀ c ∈ address, urlChar c = true)
    (hn : Names address scheme host dir [] []) (hh : host ≠ []) (ep : Str) (he : Endpoint ep) :
    ∃ u, parse address = .ok u ∧ resolve u ep = resolveURL ⟨scheme.map Char.toLower, host, dir, []⟩ ep := by
  have P := parts_of_names hn hc
  refine ⟨_, parse_parts P (fun c hm => urlChar_noControl c (hc c hm)), ?_⟩
  obtain ⟨x, hx, -, -⟩ := join_rooted dir ep P.directories.1 he
  rw [resolve_parts P hh ep he]
  unfold resolveURL Url.text lower
  rw [hx]
  simp [shownFragment]

/-! ## Non-vacuity -/

example : ask "HTTPS://db.example:8443/api/?x=1#top".toList apiGraphql =
    some (.ok ⟨"https".toList, "db.example:8443".toList, "/api/v1/graphql?x=1".toList⟩) := by
  unfold apiGraphql; decide +kernel

example : Names "HTTPS://db.example:8443/api/?x=1#top".toList "HTTPS".toList "db.example:8443".toList "/api/".toList
    "?x=1".toList "#top".toList := by
  refine ⟨by decide +kernel, by decide +kernel, by decide +kernel, (validHost_iff _).mp (by decide +kernel),
    ⟨.inr ⟨"api/".toList, by decide +kernel⟩, by decide +kernel⟩, ⟨.inr ⟨"x=1".toList, by decide +kernel⟩, by decide +kernel⟩,
    .inr ⟨"top".toList, by decide +kernel⟩⟩

example : ask "localhost:8080".toList apiGraphql = some (.error (.unsupported "localhost".toList)) := by
  unfold apiGraphql; decide +kernel

example : ask "hasura.example".toList apiGraphql = some (.error (.unsupported [])) := by
  unfold apiGraphql; decide +kernel

example : ask "127.0.0.1:8080".toList apiGraphql = none := by unfold apiGraphql; decide +kernel

example : ask "http:/db.example".toList apiGraphql = some (.error .noHost) := by
  unfold apiGraphql; decide +kernel

end Verif.Infra.Address
