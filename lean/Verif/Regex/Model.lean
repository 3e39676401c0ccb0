/-!
# A backtracking matcher with the priorities of Go's `regexp`

Go's `regexp` documents that, for `FindStringSubmatch`/`MatchString` on an expression compiled with
`MustCompile`, it returns the leftmost match and, among those, "the one that a search would have
found first with a backtracking engine".  This file is that backtracking engine.  It is used for
the regular expressions of `/repo/database/dmodel/index_target.go:18-19`,
`/repo/database/dmodel/index_column.go:25`, the plan parsers and the Hasura query guards.

Simplifications: input is a list of code points (no invalid UTF-8); an iteration of `*` or `+` that
consumes nothing is not taken (none of the modelled expressions has a body that can match the empty
text, so Go's special rule for empty iterations is never exercised).
-/
namespace Verif.Regex

/-- The regular expression syntax used by the modelled code. -/
inductive Re where
  /-- one code point satisfying a test (character classes, literals, `.`) -/
  | cls (p : Char → Bool)
  /-- the empty expression -/
  | eps
  /-- concatenation -/
  | seq (a b : Re)
  /-- `a|b`, `a` preferred -/
  | alt (a b : Re)
  /-- `r*` (`greedy = true`) or `r*?` (`greedy = false`) -/
  | star (greedy : Bool) (r : Re)
  /-- capturing group number `n` -/
  | grp (n : Nat) (r : Re)
  /-- `\A`, or `^` without the multi-line flag -/
  | bos
  /-- `\z`, or `$` without the multi-line flag -/
  | eos

/-- `r+` / `r+?` : Go compiles `x+` as `x` followed by the loop. -/
def Re.plus (greedy : Bool) (r : Re) : Re := .seq r (.star greedy r)

/-- `r?` (greedy). -/
def Re.opt (r : Re) : Re := .alt r .eps

/-- a literal text -/
def Re.lit : List Char → Re
  | [] => .eps
  | [c] => .cls (· == c)
  | c :: cs => .seq (.cls (· == c)) (Re.lit cs)

/-- `.` : any code point except newline (no `s` flag) -/
def Re.dot : Re := .cls (· != '\n')

/-- `\w` is ASCII-only in Go: `[0-9A-Za-z_]` -/
def isWord (c : Char) : Bool :=
  ('0' ≤ c && c ≤ '9') || ('A' ≤ c && c ≤ 'Z') || ('a' ≤ c && c ≤ 'z') || c == '_'

/-- `\d` -/
def isDig (c : Char) : Bool := '0' ≤ c && c ≤ '9'

/-- `\s` in Go: `[\t\n\f\r ]` -/
def isSpc (c : Char) : Bool :=
  c == '\t' || c == '\n' || c == '\x0c' || c == '\r' || c == ' '

/-- Matcher state: number of code points before, remaining text, captures (latest first). -/
structure St where
  pos  : Nat
  rest : List Char
  caps : List (Nat × List Char)

/-- One loop of a starred expression, in continuation-passing style.  `fuel` is the length of the
remaining text, which bounds the number of consuming iterations. -/
def starN (f : St → (St → Option St) → Option St) (greedy : Bool) :
    Nat → St → (St → Option St) → Option St
  | 0, s, k => k s
  | n + 1, s, k =>
    let more := fun (_ : Unit) =>
      f s (fun s' => if s'.rest.length < s.rest.length then starN f greedy n s' k else none)
    if greedy then
      match more () with
      | some r => some r
      | none => k s
    else
      match k s with
      | some r => some r
      | none => more ()

/-- First match in backtracking order, passed to the continuation `k`. -/
def run : Re → St → (St → Option St) → Option St
  | .cls p, s, k =>
    match s.rest with
    | c :: cs => if p c then k { s with pos := s.pos + 1, rest := cs } else none
    | [] => none
  | .eps, s, k => k s
  | .seq a b, s, k => run a s (fun s' => run b s' k)
  | .alt a b, s, k =>
    match run a s k with
    | some r => some r
    | none => run b s k
  | .star g r, s, k => starN (run r) g s.rest.length s k
  | .grp n r, s, k =>
    run r s (fun s' =>
      k { s' with caps := (n, s.rest.take (s.rest.length - s'.rest.length)) :: s'.caps })
  | .bos, s, k => if s.pos = 0 then k s else none
  | .eos, s, k => if s.rest = [] then k s else none

/-- Leftmost match: try every start position from `pos` on. -/
def findFrom (r : Re) (pos : Nat) : List Char → Option St
  | [] => run r ⟨pos, [], []⟩ some
  | c :: cs =>
    match run r ⟨pos, c :: cs, []⟩ some with
    | some s => some s
    | none => findFrom r (pos + 1) cs

/-- `FindStringSubmatch`: the captures of the leftmost match. -/
def find (r : Re) (t : List Char) : Option St := findFrom r 0 t

/-- `MatchString` -/
def isMatch (r : Re) (t : List Char) : Bool := (find r t).isSome

/-- `m[n]` of `FindStringSubmatch`: the last text captured by group `n`, `""` if the group did not
take part. -/
def St.cap (s : St) (n : Nat) : List Char := (s.caps.lookup n).getD []

end Verif.Regex
