import Verif.Client.Diagram
/-!
# C96: what mermaid makes of the diagram of a trace

`/repo/client/src/pages/dig/jaeger/TraceDiagram.svelte:8-13` gives the text of `Diagram.diagram` to `mermaid.render`,
`/repo/client/src/mermaid.ts:5-8` leaves the limit of the size of a text at its default.  Mermaid (9.2.2,
`/repo/client/yarn.lock:3119`) is modelled from its published grammar of sequence diagrams: the rules of the lexer in
their order, the statements a diagram of this program can have, the check of activations and the limit.
-/
namespace Verif.Client.Mermaid
open Verif.Lib Verif.Client.Diagram

abbrev Str := List Char

/-! ## Model: the lexer of sequence diagrams -/

/-- `\s` of JavaScript -/
def isWs (c : Char) : Bool :=
  c == ' ' || (9 ≤ c.toNat && c.toNat ≤ 13) || c.toNat == 0xa0 || c.toNat == 0xfeff || c.toNat == 0x1680 ||
    (0x2000 ≤ c.toNat && c.toNat ≤ 0x200a) || c.toNat == 0x2028 || c.toNat == 0x2029 || c.toNat == 0x202f ||
    c.toNat == 0x205f || c.toNat == 0x3000

/-- `\w` of JavaScript -/
def isWordChar (c : Char) : Bool := c.isAlphanum || c == '_'

/-- `String.prototype.trim` -/
def trim (s : Str) : Str := ((s.dropWhile isWs).reverse.dropWhile isWs).reverse

/-- arrows: `->>` and the seven others -/
inductive Arrow where
  | solid | dotted | solidOpen | dottedOpen | solidCross | dottedCross | solidPoint | dottedPoint
  deriving DecidableEq

/-- tokens; `stop` is where the model ends (text after the words of other statements, directives) -/
inductive Tok where
  | newline | sd | kw | num | comma | plus | minus | invalid | activate | deactivate | stop
  | actor (s : Str) | arrow (a : Arrow) | txt (s : Str)
  deriving DecidableEq

@[irreducible] def wActivate : Str := "activate".toList
@[irreducible] def wDeactivate : Str := "deactivate".toList
@[irreducible] def wDiagram : Str := "sequencediagram".toList

/-- the other words of the grammar, in lower case -/
@[irreducible] def otherWords : List Str := ["participant".toList, "actor".toList, "loop".toList, "rect".toList,
  "opt".toList, "alt".toList, "else".toList, "par".toList, "and".toList, "critical".toList, "option".toList,
  "break".toList, "end".toList, "left of".toList, "right of".toList, "links".toList, "link".toList,
  "properties".toList, "details".toList, "over".toList, "note".toList, "autonumber".toList, "off".toList]

/-- the words that are followed by a text of their own -/
@[irreducible] def titleWords : List Str := ["title".toList, "acctitle".toList, "accdescr".toList]

/-- a word of the grammar, in any case and not as the beginning of a longer word (`\b`) -/
def wordAt (w s : Str) : Bool :=
  (s.take w.length).map Char.toLower == w &&
    (match s.drop w.length with
    | [] => true
    | c :: _ => !isWordChar c)

/-- characters of an actor: `[^\+\->:\n,;]` -/
def isA (c : Char) : Bool := !['+', '-', '>', ':', '\n', ',', ';'].contains c

/-- `x` in any case or a closing parenthesis -/
def isCross (c : Char) : Bool := ['x', 'X', ')'].contains c

/-- `\-x|\-\-x|\-\)|\-\-\)` -/
def crossAhead : Str → Bool
  | '-' :: '-' :: c :: _ => isCross c
  | '-' :: c :: _ => isCross c
  | _ => false

/-- hyphens followed by a character of an actor: `[\-]*[^\+\->:\n,;]` -/
def dashThenA (s : Str) : Bool :=
  match s.dropWhile (· == '-') with
  | c :: _ => isA c
  | [] => false

/-- the token of an actor, `[^\+\->:\n,;]+((?!(\-x|\-\-x|\-\)|\-\-\)))[\-]*[^\+\->:\n,;]+)*`, and the rest; the
flag says that hyphens are being read -/
def actorGo : Bool → Str → Str × Str
  | _, [] => ([], [])
  | false, c :: cs =>
    if isA c then (c :: (actorGo false cs).1, (actorGo false cs).2)
    else if c = '-' ∧ crossAhead (c :: cs) = false ∧ dashThenA (c :: cs) = true then
      (c :: (actorGo true cs).1, (actorGo true cs).2)
    else ([], c :: cs)
  | true, c :: cs =>
    if c = '-' then (c :: (actorGo true cs).1, (actorGo true cs).2)
    else if isA c then (c :: (actorGo false cs).1, (actorGo false cs).2)
    else ([], c :: cs)

/-- the rest of the line, `[^\n]*` -/
def dropLine (s : Str) : Str := s.dropWhile (· != '\n')

/-- `[0-9]+(?=[ \n]+)` -/
def numAt (s : Str) : Bool :=
  !(s.takeWhile Char.isDigit).isEmpty &&
    (match s.dropWhile Char.isDigit with
    | c :: _ => c == ' ' || c == '\n'
    | [] => false)

/-- `"title"\s[^#\n;]+`, `"title:"\s[^#\n;]+`, `accTitle\s*":"`, `accDescr\s*":"`, `accDescr\s*"{"`; whether anything
follows is not looked at -/
def titleAt (s : Str) : Bool :=
  titleWords.any fun w => wordAt w s &&
    (match s.drop w.length with
    | c :: _ => isWs c || c == ':' || c == '{'
    | [] => false)

/-- one application of the lexer: the tokens found and the rest, or the end -/
inductive Step where
  | eof
  | found (ts : List Tok) (rest : Str)

/-- The actor after `activate` and `deactivate` (states `ID` and `ALIAS`):
`[^\->:\n,;]+?([\-]*[^\->:\n,;]+?)*?(?=((?!\n)\s)+"as"(?!\n)\s|[#\n;]|$)`.  Names with white space are left out. -/
def idStep (t : Tok) (s : Str) : Step :=
  let s := s.dropWhile (fun c => isWs c && c != '\n')
  let n := s.takeWhile (fun c => !['>', ':', '\n', ',', ';', '#'].contains c)
  let r := s.dropWhile (fun c => !['>', ':', '\n', ',', ';', '#'].contains c)
  if n.any isWs then .found [t, .stop] []
  else if n = [] ∨ n.head? = some '-' ∨ n.getLast? = some '-' then .found [t, .invalid] []
  else match r with
    | [] => .found [t, .actor n, .newline] []
    | c :: r' => if c = '#' ∨ c = '\n' ∨ c = ';' then .found [t, .actor n, .newline] (c :: r')
      else .found [t, .invalid] []

/-- `"->>"`, `"-->>"`, `"->"`, `"-->"`, `\-[x]`, `\-\-[x]`, `\-[\)]`, `\-\-[\)]` and then `"-"` -/
def dashStep : Str → Step
  | '-' :: '>' :: '>' :: r => .found [.arrow .solid] r
  | '-' :: '-' :: '>' :: '>' :: r => .found [.arrow .dotted] r
  | '-' :: '>' :: r => .found [.arrow .solidOpen] r
  | '-' :: '-' :: '>' :: r => .found [.arrow .dottedOpen] r
  | '-' :: '-' :: c :: r =>
    if c = 'x' ∨ c = 'X' then .found [.arrow .dottedCross] r
    else if c = ')' then .found [.arrow .dottedPoint] r else .found [.minus] ('-' :: c :: r)
  | '-' :: c :: r =>
    if c = 'x' ∨ c = 'X' then .found [.arrow .solidCross] r
    else if c = ')' then .found [.arrow .solidPoint] r else .found [.minus] (c :: r)
  | s => .found [.minus] (s.drop 1)

/-- the rules of the lexer; words of the grammar exclude each other, so their order does not matter -/
def step : Str → Step
  | [] => .eof
  | c :: cs =>
    if c = '%' ∧ cs.take 2 = ['%', '{'] then .found [.stop] []
    else if c = '\n' then .found [.newline] (cs.dropWhile (· == '\n'))
    else if isWs c then .found [] (cs.dropWhile isWs)
    else if c = '#' then .found [] (dropLine cs)
    else if c = '%' ∧ cs.take 1 = ['%'] then .found [] (dropLine cs)
    else if c ≠ '}' ∧ cs.take 2 = ['%', '%'] then .found [] (dropLine cs)
    else if numAt (c :: cs) then .found [.num] ((c :: cs).dropWhile Char.isDigit)
    else if wordAt wActivate (c :: cs) then idStep .activate ((c :: cs).drop wActivate.length)
    else if wordAt wDeactivate (c :: cs) then idStep .deactivate ((c :: cs).drop wDeactivate.length)
    else if wordAt wDiagram (c :: cs) then .found [.sd] ((c :: cs).drop wDiagram.length)
    else if otherWords.any (wordAt · (c :: cs)) || titleAt (c :: cs) then .found [.kw, .stop] []
    else if c = ',' then .found [.comma] cs
    else if c = ';' then .found [.newline] cs
    else if isA c then .found [.actor (trim (actorGo false (c :: cs)).1)] (actorGo false (c :: cs)).2
    else if c = '-' then dashStep (c :: cs)
    else if c = ':' then
      if cs.takeWhile (fun d => !['#', '\n', ';'].contains d) = [] then .found [.invalid] cs
      else .found [.txt (c :: cs.takeWhile (fun d => !['#', '\n', ';'].contains d))]
        (cs.dropWhile (fun d => !['#', '\n', ';'].contains d))
    else if c = '+' then .found [.plus] cs
    else .found [.invalid] cs

/-- all tokens; the end counts as a newline.  (Every rule takes away a character, so the second branch is never
taken.) -/
def lex (s : Str) : List Tok :=
  match step s with
  | .eof => [.newline]
  | .found ts r => if _h : r.length < s.length then ts ++ lex r else ts ++ [.stop]
termination_by s.length

/-! ## Model: the grammar -/

/-- a text that is not a diagram, or one whose reading is not modelled -/
inductive Fail where
  | syntax | outside
  deriving DecidableEq

/-- `yy.parseMessage($1.trim().substring(1))`; the prefix `wrap:` is left out -/
def message (x : Str) : Str := trim ((trim x).drop 1)

def prep (l : Line) : Except Fail (List Line) → Except Fail (List Line)
  | .ok ls => .ok (l :: ls)
  | .error e => .error e

/-- what is expected is missing: an error, unless the model ends here -/
def unexpected : List Tok → Except Fail (List Line)
  | .stop :: _ => .error .outside
  | _ => .error .syntax

/-- `document`: `actor signaltype actor TXT NEWLINE`, `activate actor NEWLINE`, `deactivate actor NEWLINE`.
Other arrows, `+` and `-` before the receiver and other statements are outside the model. -/
def parseDoc : List Tok → Except Fail (List Line)
  | [] => .ok []
  | .newline :: r => parseDoc r
  | .actor f :: .arrow a :: .actor t :: .txt x :: .newline :: r =>
    if a = .solid then prep (.call f t (message x)) (parseDoc r) else .error .outside
  | .actor _ :: .arrow _ :: .actor _ :: .txt _ :: r => unexpected r
  | .actor _ :: .arrow _ :: .actor _ :: r => unexpected r
  | .actor _ :: .arrow _ :: .plus :: _ => .error .outside
  | .actor _ :: .arrow _ :: .minus :: _ => .error .outside
  | .actor _ :: .arrow _ :: r => unexpected r
  | .actor _ :: r => unexpected r
  | .activate :: .actor s :: .newline :: r => prep (.activate s) (parseDoc r)
  | .activate :: .actor _ :: r => unexpected r
  | .activate :: r => unexpected r
  | .deactivate :: .actor s :: .newline :: r => prep (.deactivate s) (parseDoc r)
  | .deactivate :: .actor _ :: r => unexpected r
  | .deactivate :: r => unexpected r
  | .kw :: _ => .error .outside
  | .stop :: _ => .error .outside
  | _ => .error .syntax

/-- `start: NEWLINE start | SD document` -/
def parse : List Tok → Except Fail (List Line)
  | .newline :: r => parse r
  | .sd :: r => parseDoc r
  | r => unexpected r

/-- `addSignal`: a participant that is not active cannot be deactivated; `acts`: the activations -/
def activeOk : List Str → List Line → Bool
  | _, [] => true
  | acts, .call _ _ _ :: ls => activeOk acts ls
  | acts, .activate s :: ls => activeOk (s :: acts) ls
  | acts, .deactivate s :: ls => if s ∈ acts then activeOk (acts.erase s) ls else false

/-- `text.length`, in units of UTF-16 -/
def units : Str → Nat
  | [] => 0
  | c :: cs => (if c.toNat < 0x10000 then 1 else 2) + units cs

/-- `text.replace(/\r\n?/g, '\n')` -/
def crlf : Str → Str
  | [] => []
  | '\r' :: '\n' :: cs => '\n' :: crlf cs
  | '\r' :: cs => '\n' :: crlf cs
  | c :: cs => c :: crlf cs

inductive Drawn where
  | diagram (ls : List Line)
  | tooLong  -- the picture "Maximum text size in diagram exceeded"
  | failed   -- an exception, nothing is drawn
  | outside  -- not modelled

/-- `maxTextSize` of mermaid's configuration -/
def maxTextSize : Nat := 50000

/-- `mermaid.render` -/
def render (text : Str) : Drawn :=
  if maxTextSize < units (crlf text) then .tooLong
  else match parse (lex (crlf text)) with
    | .error .syntax => .failed
    | .error .outside => .outside
    | .ok ls => if activeOk [] ls then .diagram ls else .failed

/-! ## Specification -/

/-- the text begins with the word `w`, in any case -/
def Begins (w s : Str) : Prop :=
  ∃ a r, s = a ++ r ∧ a.map Char.toLower = w ∧ ∀ c r', r = c :: r' → isWordChar c = false

/-- characters of names: no white space and none of `+ - > : , ; # %` -/
def NameChar (c : Char) : Prop := isWs c = false ∧ c ∉ ['+', '-', '>', ':', '\n', ',', ';', '#', '%']

/-- A name mermaid can read: characters as above and hyphens between them, but not before an `x` or a closing
parenthesis, and not beginning with a word of the grammar. -/
structure Plain (n : Str) : Prop where
  first : ∃ a, n.head? = some a ∧ NameChar a
  last : ∃ z, n.getLast? = some z ∧ NameChar z
  chars : ∀ c ∈ n, NameChar c ∨ c = '-'
  cross : ∀ p c r, n = p ++ '-' :: c :: r → c ∉ ['x', 'X', ')']
  words : ∀ w ∈ wActivate :: wDeactivate :: wDiagram :: (otherWords ++ titleWords), ¬ Begins w n

/-- A name mermaid stumbles over: it begins with a word of the grammar, or the first hyphen that is not between
ordinary characters stands before an `x` or a closing parenthesis. -/
def Blocked (n : Str) : Prop :=
  (∃ w ∈ wActivate :: wDeactivate :: wDiagram :: otherWords, Begins w n) ∨
  ∃ p c r, n = p ++ '-' :: c :: r ∧ Plain p ∧ c ∈ ['x', 'X', ')']

/-! ## Lemmas: actors -/

theorem isA_iff (c : Char) : isA c = true ↔ c ∉ ['+', '-', '>', ':', '\n', ',', ';'] := by
  unfold isA
  simp

theorem isCross_iff (c : Char) : isCross c = true ↔ c ∈ ['x', 'X', ')'] := by
  unfold isCross
  simp

theorem NameChar.isA {c : Char} (h : NameChar c) : isA c = true := by
  rw [isA_iff]
  intro hc
  apply h.2
  simp only [List.mem_cons, List.not_mem_nil, or_false] at hc ⊢
  rcases hc with h | h | h | h | h | h | h <;> simp [h]

theorem NameChar.ne {c : Char} (h : NameChar c) (d : Char)
    (hd : d ∈ ['+', '-', '>', ':', '\n', ',', ';', '#', '%']) : c ≠ d := by
  rintro rfl; exact h.2 hd

theorem dashThenA_of (n tail : Str) (hn : n ≠ []) (hc : ∀ c ∈ n, NameChar c ∨ c = '-')
    (hl : ∃ z, n.getLast? = some z ∧ NameChar z) : dashThenA (n ++ tail) = true := by
  induction n with
  | nil => exact absurd rfl hn
  | cons c m ih =>
    by_cases h : c = '-'
    · subst h
      have hm : m ≠ [] := by
        rintro rfl
        obtain ⟨z, hz, hz2⟩ := hl
        simp at hz; subst hz
        exact hz2.2 (by decide)
      have := ih hm (fun x hx => hc x (List.mem_cons_of_mem _ hx)) (by
        obtain ⟨z, hz, hz2⟩ := hl
        exact ⟨z, by rw [List.getLast?_cons] at hz; cases m with
          | nil => exact absurd rfl hm
          | cons a m => simpa [List.getLast?_cons] using hz, hz2⟩)
      unfold dashThenA at this ⊢
      rw [List.cons_append, List.dropWhile_cons, if_pos (by rfl)]
      exact this
    · have hA := (hc c (by simp)).resolve_right h
      unfold dashThenA
      rw [List.cons_append, List.dropWhile_cons, if_neg (by simpa using h)]
      exact hA.isA

theorem getLast_tail {c : Char} {m : Str} (hm : m ≠ []) {P : Char → Prop}
    (hl : ∃ z, (c :: m).getLast? = some z ∧ P z) : ∃ z, m.getLast? = some z ∧ P z := by
  obtain ⟨z, hz, hz2⟩ := hl
  refine ⟨z, ?_, hz2⟩
  cases m with
  | nil => exact absurd rfl hm
  | cons a m => simpa [List.getLast?_cons] using hz

theorem actorGo_name (tail : Str) (ht : actorGo false tail = ([], tail)) (n : Str) :
    ∀ b, n ≠ [] → (∀ c ∈ n, NameChar c ∨ c = '-') → (∃ z, n.getLast? = some z ∧ NameChar z) →
    (∀ p c r, n = p ++ '-' :: c :: r → c ∉ ['x', 'X', ')']) →
    actorGo b (n ++ tail) = (n, tail) := by
  induction n with
  | nil => intro b h; exact absurd rfl h
  | cons c m ih =>
    intro b _ hc hl hx
    have rec' : ∀ b, (m = [] → b = false) → actorGo b (m ++ tail) = (m, tail) := by
      intro b hb
      by_cases hm : m = []
      · subst hm
        rw [hb rfl, List.nil_append, ht]
      · exact ih b hm (fun x hx => hc x (List.mem_cons_of_mem _ hx)) (getLast_tail hm hl)
          (fun p d r e => hx (c :: p) d r (by rw [e, List.cons_append]))
    by_cases h : c = '-'
    · subst h
      have hm : m ≠ [] := by
        rintro rfl
        obtain ⟨z, hz, hz2⟩ := hl
        simp at hz; subst hz
        exact hz2.2 (by decide)
      have r := rec' true (fun e => absurd e hm)
      cases b with
      | true =>
        rw [List.cons_append, actorGo, if_pos rfl, r]
      | false =>
        have h1 : crossAhead ('-' :: (m ++ tail)) = false := by
          cases m with
          | nil => exact absurd rfl hm
          | cons a m =>
            have ha := hx [] a m rfl
            rw [← isCross_iff, Bool.not_eq_true] at ha
            by_cases had : a = '-'
            · subst had
              cases m with
              | nil =>
                obtain ⟨z, hz, hz2⟩ := hl
                simp at hz; subst hz
                exact absurd (by decide) hz2.2
              | cons a2 m =>
                have ha2 := hx ['-'] a2 m rfl
                rw [← isCross_iff, Bool.not_eq_true] at ha2
                simpa [crossAhead] using ha2
            · rw [List.cons_append]
              unfold crossAhead
              split
              · rename_i e
                simp only [List.cons.injEq, true_and] at e
                exact absurd e.1 had
              · rename_i e
                simp only [List.cons.injEq, true_and] at e
                rw [← e.1]; exact ha
              · rfl
        have h2 : dashThenA ('-' :: (m ++ tail)) = true := dashThenA_of ('-' :: m) tail (by simp) hc hl
        rw [List.cons_append, actorGo, if_neg (by decide), if_pos ⟨rfl, h1, h2⟩, r]
    · have hA := ((hc c (by simp)).resolve_right h).isA
      have r := rec' false (fun _ => rfl)
      cases b with
      | true => rw [List.cons_append, actorGo, if_neg h, if_pos hA, r]
      | false => rw [List.cons_append, actorGo, if_pos hA, r]

theorem trim_of_ends (n : Str) (hf : ∃ a, n.head? = some a ∧ isWs a = false)
    (hl : ∃ z, n.getLast? = some z ∧ isWs z = false) : trim n = n := by
  obtain ⟨a, ha, ha2⟩ := hf
  obtain ⟨z, hz, hz2⟩ := hl
  unfold trim
  cases n with
  | nil => simp at ha
  | cons c m =>
    simp at ha; subst ha
    rw [List.dropWhile_cons, if_neg (by simp [ha2])]
    rw [List.getLast?_eq_head?_reverse] at hz
    cases hr : (c :: m).reverse with
    | nil => rw [hr] at hz; simp at hz
    | cons d r =>
      rw [hr] at hz
      simp at hz; subst hz
      rw [List.dropWhile_cons, if_neg (by simp [hz2]), ← hr, List.reverse_reverse]

/-! ## Lemmas: words -/

theorem begins_iff (w s : Str) : wordAt w s = true ↔ Begins w s := by
  unfold wordAt Begins
  rw [Bool.and_eq_true, beq_iff_eq]
  constructor
  · rintro ⟨h1, h2⟩
    refine ⟨s.take w.length, s.drop w.length, (List.take_append_drop _ _).symm, h1, ?_⟩
    intro c r' e
    rw [e] at h2
    simpa using h2
  · rintro ⟨a, r, rfl, h1, h2⟩
    have hlen : w.length = a.length := by rw [← h1, List.length_map]
    rw [hlen, List.take_left, List.drop_left]
    refine ⟨h1, ?_⟩
    cases r with
    | nil => rfl
    | cons c r' => simpa using h2 c r' rfl

/-- a word without hyphen and colon begins a name exactly if it begins the name followed by one of these -/
theorem begins_append (w n : Str) (c : Char) (tail : Str) (hc : c = '-' ∨ c = ':') (hw : c ∉ w) :
    Begins w (n ++ c :: tail) ↔ Begins w n := by
  constructor
  · rintro ⟨a, r, e, h1, h2⟩
    rcases List.append_eq_append_iff.mp e with ⟨k, rfl, hk⟩ | ⟨k, rfl, hk⟩
    · cases k with
      | nil =>
        exact ⟨n, [], by simp, by simpa using h1, by simp⟩
      | cons d k =>
        simp only [List.cons_append, List.cons.injEq] at hk
        obtain ⟨rfl, -⟩ := hk
        exfalso
        apply hw
        rw [← h1, List.map_append, List.map_cons]
        rcases hc with rfl | rfl <;> simp <;> decide
    · cases k with
      | nil => exact ⟨a, [], by simp, h1, by simp⟩
      | cons d k =>
        refine ⟨a, d :: k, rfl, h1, ?_⟩
        intro c' r' e'
        simp only [List.cons.injEq] at e'
        exact h2 c' (r' ++ c :: tail) (by rw [hk, e'.1, e'.2]; rfl)
  · rintro ⟨a, r, rfl, h1, h2⟩
    refine ⟨a, r ++ c :: tail, by simp, h1, ?_⟩
    intro d r' e
    cases r with
    | nil =>
      simp only [List.nil_append, List.cons.injEq] at e
      rw [← e.1]
      rcases hc with rfl | rfl <;> decide
    | cons d' r2 =>
      simp only [List.cons_append, List.cons.injEq] at e
      rw [← e.1]
      exact h2 d' r2 rfl

theorem words_clean : ∀ w ∈ wActivate :: wDeactivate :: wDiagram :: (otherWords ++ titleWords), '-' ∉ w ∧ ':' ∉ w := by
  unfold wActivate wDeactivate wDiagram otherWords titleWords
  decide +kernel

theorem words_letters : ∀ w ∈ wActivate :: wDeactivate :: wDiagram :: otherWords,
    ∃ a b r, w = a :: b :: r ∧ a.isLower = true ∧ b.isLower = true := by
  have h : ∀ w ∈ wActivate :: wDeactivate :: wDiagram :: otherWords,
      (w.take 2).all Char.isLower = true ∧ 2 ≤ w.length := by
    unfold wActivate wDeactivate wDiagram otherWords
    decide +kernel
  intro w hw
  have := h w hw
  match w, this with
  | [], h => simp at h
  | [a], h => simp at h
  | a :: b :: r, h => exact ⟨a, b, r, rfl, by simpa using h.1⟩

theorem letter_of_lower (a c : Char) (h : a.toLower = c) (hc : c.isLower = true) :
    (65 ≤ a.toNat ∧ a.toNat ≤ 90) ∨ (97 ≤ a.toNat ∧ a.toNat ≤ 122) := by
  unfold Char.toLower at h
  split at h
  · rename_i k
    left
    exact ⟨k.1, k.2⟩
  · right
    subst h
    unfold Char.isLower at hc
    simp only [Bool.and_eq_true, decide_eq_true_eq] at hc
    exact hc

theorem letter_facts (a : Char) (h : (65 ≤ a.toNat ∧ a.toNat ≤ 90) ∨ (97 ≤ a.toNat ∧ a.toNat ≤ 122)) :
    isWs a = false ∧ a.isDigit = false ∧ a ∉ ['%', '\n', '#', '-', '+'] := by
  refine ⟨?_, ?_, ?_⟩
  · unfold isWs
    have : a ≠ ' ' := by rintro rfl; revert h; decide
    simp [this]
    omega
  · unfold Char.isDigit
    have e1 : a.val.toNat = a.toNat := rfl
    simp only [ge_iff_le, Bool.and_eq_false_imp, decide_eq_true_eq, decide_eq_false_iff_not, UInt32.le_iff_toNat_le, e1]
    have e2 : '9'.val.toNat = 57 := by decide
    omega
  · intro hm
    simp only [List.mem_cons, List.not_mem_nil, or_false] at hm
    rcases hm with rfl | rfl | rfl | rfl | rfl <;> revert h <;> decide

/-! ## Lemmas: the lexer -/

theorem lex_found {s : Str} {ts : List Tok} {r : Str} (h : step s = .found ts r) (hr : r.length < s.length) :
    lex s = ts ++ lex r := by
  rw [lex, h]
  simp [hr]

theorem lex_nil : lex [] = [.newline] := by
  rw [lex]; rfl

theorem lex_newline (r : Str) (h : r.head? ≠ some '\n') : lex ('\n' :: r) = .newline :: lex r := by
  have : r.dropWhile (· == '\n') = r := by
    cases r with
    | nil => rfl
    | cons c r =>
      rw [List.dropWhile_cons, if_neg]
      intro hc
      exact h (by simpa using hc)
  rw [lex_found (ts := [.newline]) (r := r) (by rw [step, if_neg (by rintro ⟨h, -⟩; revert h; decide), if_pos rfl, this])
    (by simp)]
  rfl

theorem not_num (n tail : Str) (c : Char) (hn : ∀ d ∈ n, isWs d = false) (hc : c = '-' ∨ c = ':') :
    numAt (n ++ c :: tail) = false := by
  unfold numAt
  have : ∀ n : Str, (∀ d ∈ n, isWs d = false) → ∀ d r, (n ++ c :: tail).dropWhile Char.isDigit = d :: r →
      (d == ' ' || d == '\n') = false := by
    intro n
    induction n with
    | nil =>
      intro _ d r h
      rw [List.nil_append, List.dropWhile_cons, if_neg (by rcases hc with rfl | rfl <;> decide)] at h
      simp only [List.cons.injEq] at h
      rw [← h.1]
      rcases hc with rfl | rfl <;> decide
    | cons a n ih =>
      intro hn d r h
      rw [List.cons_append, List.dropWhile_cons] at h
      split at h
      · exact ih (fun x hx => hn x (List.mem_cons_of_mem _ hx)) d r h
      · simp only [List.cons.injEq] at h
        have := hn a (by simp)
        rw [← h.1]
        rw [Bool.or_eq_false_iff]
        constructor
        · rw [beq_eq_false_iff_ne]; rintro rfl; revert this; decide
        · rw [beq_eq_false_iff_ne]; rintro rfl; revert this; decide
  cases hd : (n ++ c :: tail).dropWhile Char.isDigit with
  | nil => simp
  | cons d r =>
    have := this n hn d r hd
    simp only [this, Bool.and_false]

/-- what can follow a name in a message -/
theorem step_name (n : Str) (hn : Plain n) (c : Char) (tail : Str) (hc : c = '-' ∨ c = ':')
    (ht : actorGo false (c :: tail) = ([], c :: tail)) : step (n ++ c :: tail) = .found [.actor n] (c :: tail) := by
  have hne : n ≠ [] := by
    rintro rfl
    obtain ⟨a, ha, -⟩ := hn.first
    simp at ha
  have hgo := actorGo_name (c :: tail) ht n false hne hn.chars hn.last hn.cross
  have htrim : trim n = n := trim_of_ends n
    (by obtain ⟨a, h1, h2⟩ := hn.first; exact ⟨a, h1, h2.1⟩)
    (by obtain ⟨a, h1, h2⟩ := hn.last; exact ⟨a, h1, h2.1⟩)
  have hws : ∀ d ∈ n, isWs d = false := by
    intro d hd
    rcases hn.chars d hd with h | rfl
    · exact h.1
    · decide
  have hw : ∀ w ∈ wActivate :: wDeactivate :: wDiagram :: (otherWords ++ titleWords),
      wordAt w (n ++ c :: tail) = false := by
    intro w hw
    rw [← Bool.not_eq_true, begins_iff, begins_append w n c tail hc]
    · exact hn.words w hw
    · rcases hc with rfl | rfl
      · exact (words_clean w hw).1
      · exact (words_clean w hw).2
  have hpc : ∀ d ∈ n, d ≠ '%' := by
    intro d hd
    rcases hn.chars d hd with h | rfl
    · exact h.ne _ (by decide)
    · decide
  have hnum := not_num n tail c hws hc
  have hot : otherWords.any (wordAt · (n ++ c :: tail)) = false := by
    rw [List.any_eq_false]
    intro w h
    rw [hw w (by simp [h])]; decide
  have htt : titleAt (n ++ c :: tail) = false := by
    unfold titleAt
    rw [List.any_eq_false]
    intro w h
    rw [hw w (by simp [h])]; simp
  obtain ⟨a, ha, ha2⟩ := hn.first
  cases n with
  | nil => exact absurd rfl hne
  | cons b m =>
    simp at ha; subst ha
    have hm2 : (m ++ c :: tail).take 2 ≠ ['%', '%'] := by
      cases m with
      | nil =>
        rw [List.nil_append]
        rcases hc with rfl | rfl <;> simp
      | cons d m =>
        have := hpc d (by simp)
        simp [this]
    rw [List.cons_append] at hgo hnum hot htt ⊢
    have hw1 := hw wActivate (by simp)
    have hw2 := hw wDeactivate (by simp)
    have hw3 := hw wDiagram (by simp)
    rw [List.cons_append] at hw1 hw2 hw3
    rw [step, if_neg (fun h => hpc b (by simp) h.1), if_neg (ha2.ne _ (by decide)),
      if_neg (by rw [ha2.1]; decide), if_neg (ha2.ne _ (by decide)), if_neg (fun h => hpc b (by simp) h.1),
      if_neg (fun h => hm2 h.2), if_neg (by rw [hnum]; decide), if_neg (by rw [hw1]; decide),
      if_neg (by rw [hw2]; decide), if_neg (by rw [hw3]; decide), if_neg (by rw [hot, htt]; decide),
      if_neg (ha2.ne _ (by decide)), if_neg (ha2.ne _ (by decide)), if_pos ha2.isA, hgo, htrim]

theorem go_arrow (r : Str) : actorGo false ('-' :: '>' :: r) = ([], '-' :: '>' :: r) := by
  rw [actorGo, if_neg (by decide), if_neg]
  rintro ⟨-, -, h⟩
  unfold dashThenA at h
  rw [List.dropWhile_cons, if_pos (by rfl), List.dropWhile_cons, if_neg (by decide)] at h
  have : isA '>' = true := h
  revert this; decide

theorem go_colon (r : Str) : actorGo false (':' :: r) = ([], ':' :: r) := by
  rw [actorGo, if_neg (by decide), if_neg (by rintro ⟨h, -⟩; revert h; decide)]

theorem go_cross (c : Char) (hc : c ∈ ['x', 'X', ')']) (r : Str) : actorGo false ('-' :: c :: r) = ([], '-' :: c :: r) := by
  rw [actorGo, if_neg (by decide), if_neg]
  rintro ⟨-, h, -⟩
  have h1 := (isCross_iff c).mpr hc
  have : crossAhead ('-' :: c :: r) = true := by
    unfold crossAhead
    split
    · rename_i e
      simp only [List.cons.injEq, true_and] at e
      rw [e.1] at hc
      exact absurd hc (by decide)
    · rename_i e
      simp only [List.cons.injEq, true_and] at e
      rw [← e.1]; exact h1
    · rename_i h0; exact absurd rfl (h0 c r)
  rw [this] at h; cases h

/-- no word begins with a hyphen or a colon -/
theorem no_word (c : Char) (hc : c = '-' ∨ c = ':') (r : Str) :
    ∀ w ∈ wActivate :: wDeactivate :: wDiagram :: (otherWords ++ titleWords), wordAt w (c :: r) = false := by
  intro w hw
  rw [← Bool.not_eq_true, begins_iff]
  have h2 : w ≠ [] := by
    have : ∀ w ∈ wActivate :: wDeactivate :: wDiagram :: (otherWords ++ titleWords), w ≠ [] := by
      unfold wActivate wDeactivate wDiagram otherWords titleWords
      decide +kernel
    exact this w hw
  have h3 : c ∉ w := by
    rcases hc with rfl | rfl
    · exact (words_clean w hw).1
    · exact (words_clean w hw).2
  rw [show c :: r = [] ++ c :: r from rfl, begins_append w [] c r hc h3]
  rintro ⟨a, r', e, h1, -⟩
  have : a = [] := by
    cases a with
    | nil => rfl
    | cons _ _ => simp at e
  subst this
  exact h2 h1.symm

theorem step_sym (c : Char) (hc : c = '-' ∨ c = ':') (r : Str) (hr : r.take 2 ≠ ['%', '%']) : step (c :: r) =
    if c = '-' then dashStep (c :: r) else
      if r.takeWhile (fun d => !['#', '\n', ';'].contains d) = [] then .found [.invalid] r
      else .found [.txt (c :: r.takeWhile (fun d => !['#', '\n', ';'].contains d))]
        (r.dropWhile (fun d => !['#', '\n', ';'].contains d)) := by
  have hw := no_word c hc r
  have hot : otherWords.any (wordAt · (c :: r)) = false := by
    rw [List.any_eq_false]
    intro w h
    rw [hw w (by simp [h])]; decide
  have htt : titleAt (c :: r) = false := by
    unfold titleAt
    rw [List.any_eq_false]
    intro w h
    rw [hw w (by simp [h])]; simp
  have hnum := not_num [] r c (by simp) hc
  rw [List.nil_append] at hnum
  rw [step, if_neg (fun h => by rcases hc with rfl | rfl <;> exact absurd h.1 (by decide)),
    if_neg (by rcases hc with rfl | rfl <;> decide), if_neg (by rcases hc with rfl | rfl <;> decide),
    if_neg (by rcases hc with rfl | rfl <;> decide),
    if_neg (fun h => by rcases hc with rfl | rfl <;> exact absurd h.1 (by decide)),
    if_neg (fun h => hr h.2), if_neg (by rw [hnum]; decide), if_neg (by rw [hw wActivate (by simp)]; decide),
    if_neg (by rw [hw wDeactivate (by simp)]; decide), if_neg (by rw [hw wDiagram (by simp)]; decide),
    if_neg (by rw [hot, htt]; decide), if_neg (by rcases hc with rfl | rfl <;> decide),
    if_neg (by rcases hc with rfl | rfl <;> decide), if_neg (by rcases hc with rfl | rfl <;> decide)]
  rcases hc with rfl | rfl
  · rfl
  · rw [if_neg (show ¬ ':' = '-' by decide), if_pos rfl, if_neg (show ¬ ':' = '-' by decide)]

theorem lex_name (n : Str) (hn : Plain n) (c : Char) (tail : Str) (hc : c = '-' ∨ c = ':')
    (ht : actorGo false (c :: tail) = ([], c :: tail)) : lex (n ++ c :: tail) = .actor n :: lex (c :: tail) := by
  rw [lex_found (step_name n hn c tail hc ht)]
  · rfl
  · have hne : n ≠ [] := by
      rintro rfl
      obtain ⟨a, ha, -⟩ := hn.first
      simp at ha
    have := List.length_pos_iff.mpr hne
    simp; omega

theorem lex_arrow (r : Str) : lex ('-' :: '>' :: '>' :: r) = .arrow .solid :: lex r := by
  rw [lex_found (ts := [.arrow .solid]) (r := r)]
  · rfl
  · rw [step_sym '-' (.inl rfl) _ (by simp), if_pos rfl]; rfl
  · simp; omega

theorem lex_cross (c : Char) (hc : c ∈ ['x', 'X', ')']) (r : Str) : ∃ a, lex ('-' :: c :: r) = .arrow a :: lex r := by
  have key : ∃ a, step ('-' :: c :: r) = .found [.arrow a] r := by
    rw [step_sym '-' (.inl rfl) _ (by
      intro h
      cases r <;> simp at h
      rw [h.1] at hc
      exact absurd hc (by decide)), if_pos rfl]
    simp only [List.mem_cons, List.not_mem_nil, or_false] at hc
    rcases hc with rfl | rfl | rfl
    · exact ⟨.solidCross, by cases r <;> simp [dashStep]⟩
    · exact ⟨.solidCross, by cases r <;> simp [dashStep]⟩
    · exact ⟨.solidPoint, by cases r <;> simp [dashStep]⟩
  obtain ⟨a, ha⟩ := key
  exact ⟨a, by rw [lex_found ha (by simp; omega)]; rfl⟩

theorem lex_txt (x r : Str) (hx : ∀ c ∈ x, c ∉ ['#', '\n', ';']) :
    lex (':' :: ' ' :: x ++ '\n' :: r) = .txt (':' :: ' ' :: x) :: lex ('\n' :: r) := by
  have h1 : ∀ x : Str, (∀ c ∈ x, c ∉ ['#', '\n', ';']) →
      (x ++ '\n' :: r).takeWhile (fun d => !['#', '\n', ';'].contains d) = x ∧
      (x ++ '\n' :: r).dropWhile (fun d => !['#', '\n', ';'].contains d) = '\n' :: r := by
    intro x hx
    induction x with
    | nil =>
      rw [List.nil_append, List.takeWhile_cons, List.dropWhile_cons, if_neg (by decide), if_neg (by decide)]
      exact ⟨rfl, rfl⟩
    | cons c x ih =>
      have hc : (!['#', '\n', ';'].contains c) = true := by
        have := hx c (by simp)
        simpa using this
      have := ih (fun d hd => hx d (List.mem_cons_of_mem _ hd))
      rw [List.cons_append, List.takeWhile_cons, List.dropWhile_cons, if_pos hc, if_pos hc, this.1, this.2]
      exact ⟨rfl, rfl⟩
  have h2 := h1 (' ' :: x) (by
    intro c hc
    rcases List.mem_cons.mp hc with rfl | hc
    · decide
    · exact hx c hc)
  rw [List.cons_append, List.cons_append]
  rw [List.cons_append] at h2
  rw [lex_found (ts := [.txt (':' :: ' ' :: x)]) (r := '\n' :: r)]
  · rfl
  · rw [step_sym ':' (.inr rfl) _ (by simp), if_neg (by decide), h2.1, h2.2, if_neg (by simp)]
  · simp; omega

/-- the message of a call line -/
def Tidy (x : Str) : Prop :=
  (∀ c ∈ x, c ∉ ['#', '\n', ';']) ∧
    (x = [] ∨ ((∃ a, x.head? = some a ∧ isWs a = false) ∧ ∃ z, x.getLast? = some z ∧ isWs z = false))

theorem trim_space (x : Str) (h : Tidy x) : trim (' ' :: x) = x := by
  rcases h.2 with rfl | ⟨h1, h2⟩
  · decide
  · have := trim_of_ends x h1 h2
    unfold trim at this ⊢
    rw [List.dropWhile_cons, if_pos (by decide)]
    exact this

theorem message_tidy (x : Str) (h : Tidy x) : message (':' :: ' ' :: x) = x := by
  unfold message
  by_cases hx : x = []
  · subst hx; decide
  · rw [trim_of_ends (':' :: ' ' :: x) ⟨':', rfl, by decide⟩]
    · exact trim_space x h
    · obtain ⟨z, hz, hz2⟩ := (h.2.resolve_left hx).2
      refine ⟨z, ?_, hz2⟩
      simp [List.getLast?_cons, hz]

theorem Plain.tidy {n : Str} (h : Plain n) : Tidy n := by
  refine ⟨?_, .inr ⟨?_, ?_⟩⟩
  · intro c hc
    rcases h.chars c hc with k | rfl
    · intro hm
      apply k.2
      simp only [List.mem_cons, List.not_mem_nil, or_false] at hm ⊢
      rcases hm with h | h | h <;> simp [h]
    · decide
  · obtain ⟨a, h1, h2⟩ := h.first; exact ⟨a, h1, h2.1⟩
  · obtain ⟨a, h1, h2⟩ := h.last; exact ⟨a, h1, h2.1⟩

theorem arrow_eq (f t x : Str) : arrow f t x = f ++ '-' :: '>' :: '>' :: (t ++ ':' :: ' ' :: x) := by
  unfold arrow kwTo kwSep
  simp

/-- the tokens of a message between plain names -/
theorem lex_call (f t x rest : Str) (hf : Plain f) (ht : Plain t) (hx : Tidy x) (hr : rest.head? ≠ some '\n') :
    lex (arrow f t x ++ '\n' :: rest) =
      .actor f :: .arrow .solid :: .actor t :: .txt (':' :: ' ' :: x) :: .newline :: lex rest := by
  rw [arrow_eq, List.append_assoc, List.cons_append, List.cons_append, List.cons_append,
    lex_name f hf '-' _ (.inl rfl) (go_arrow _), lex_arrow, List.append_assoc, List.cons_append, List.cons_append,
    lex_name t ht ':' _ (.inr rfl) (go_colon _)]
  have := lex_txt x rest hx.1
  rw [List.cons_append, List.cons_append] at this
  rw [this, lex_newline rest hr]

/-- the words are looked for when the text begins with two letters -/
theorem step_letters (a b : Char) (m : Str)
    (ha : (65 ≤ a.toNat ∧ a.toNat ≤ 90) ∨ (97 ≤ a.toNat ∧ a.toNat ≤ 122))
    (hb : (65 ≤ b.toNat ∧ b.toNat ≤ 90) ∨ (97 ≤ b.toNat ∧ b.toNat ≤ 122)) :
    (wordAt wActivate (a :: b :: m) = true →
      step (a :: b :: m) = idStep .activate ((a :: b :: m).drop wActivate.length)) ∧
    (wordAt wActivate (a :: b :: m) = false → wordAt wDeactivate (a :: b :: m) = true →
      step (a :: b :: m) = idStep .deactivate ((a :: b :: m).drop wDeactivate.length)) ∧
    (wordAt wActivate (a :: b :: m) = false → wordAt wDeactivate (a :: b :: m) = false →
      wordAt wDiagram (a :: b :: m) = true →
      step (a :: b :: m) = .found [.sd] ((a :: b :: m).drop wDiagram.length)) ∧
    (wordAt wActivate (a :: b :: m) = false → wordAt wDeactivate (a :: b :: m) = false →
      wordAt wDiagram (a :: b :: m) = false → otherWords.any (wordAt · (a :: b :: m)) = true →
      step (a :: b :: m) = .found [.kw, .stop] []) := by
  have h1 := letter_facts a ha
  have h2 := letter_facts b hb
  have n1 : a ≠ '%' := fun e => h1.2.2 (by rw [e]; decide)
  have n2 : a ≠ '\n' := fun e => h1.2.2 (by rw [e]; decide)
  have n3 : a ≠ '#' := fun e => h1.2.2 (by rw [e]; decide)
  have n4 : b ≠ '%' := fun e => h2.2.2 (by rw [e]; decide)
  have n5 : (b :: m).take 2 ≠ ['%', '%'] := by
    intro h
    cases m <;> simp at h
    exact n4 h.1
  have n6 : numAt (a :: b :: m) = false := by
    unfold numAt
    rw [List.takeWhile_cons, if_neg (by rw [h1.2.1]; decide)]
    rfl
  refine ⟨?_, ?_, ?_, ?_⟩
  · intro k1
    rw [step, if_neg (fun h => n1 h.1), if_neg n2, if_neg (by rw [h1.1]; decide), if_neg n3,
      if_neg (fun h => n1 h.1), if_neg (fun h => n5 h.2), if_neg (by rw [n6]; decide), if_pos k1]
  · intro k1 k2
    rw [step, if_neg (fun h => n1 h.1), if_neg n2, if_neg (by rw [h1.1]; decide), if_neg n3,
      if_neg (fun h => n1 h.1), if_neg (fun h => n5 h.2), if_neg (by rw [n6]; decide),
      if_neg (by rw [k1]; decide), if_pos k2]
  · intro k1 k2 k3
    rw [step, if_neg (fun h => n1 h.1), if_neg n2, if_neg (by rw [h1.1]; decide), if_neg n3,
      if_neg (fun h => n1 h.1), if_neg (fun h => n5 h.2), if_neg (by rw [n6]; decide),
      if_neg (by rw [k1]; decide), if_neg (by rw [k2]; decide), if_pos k3]
  · intro k1 k2 k3 k4
    rw [step, if_neg (fun h => n1 h.1), if_neg n2, if_neg (by rw [h1.1]; decide), if_neg n3,
      if_neg (fun h => n1 h.1), if_neg (fun h => n5 h.2), if_neg (by rw [n6]; decide),
      if_neg (by rw [k1]; decide), if_neg (by rw [k2]; decide), if_neg (by rw [k3]; decide), k4, Bool.true_or,
      if_pos rfl]

theorem idStep_name (t : Tok) (n rest : Str) (hn : Plain n) :
    idStep t (' ' :: (n ++ '\n' :: rest)) = .found [t, .actor n, .newline] ('\n' :: rest) := by
  obtain ⟨a, ha, ha2⟩ := hn.first
  obtain ⟨z, hz, hz2⟩ := hn.last
  have hne : n ≠ [] := by rintro rfl; simp at ha
  have hws : ∀ d ∈ n, isWs d = false := by
    intro d hd
    rcases hn.chars d hd with h | rfl
    · exact h.1
    · decide
  have e1 : (' ' :: (n ++ '\n' :: rest)).dropWhile (fun c => isWs c && c != '\n') = n ++ '\n' :: rest := by
    rw [List.dropWhile_cons, if_pos (by decide)]
    cases n with
    | nil => exact absurd rfl hne
    | cons b m =>
      rw [List.cons_append, List.dropWhile_cons, if_neg]
      rw [hws b (by simp)]; simp
  have e2 : ∀ n : Str, (∀ c ∈ n, NameChar c ∨ c = '-') →
      (n ++ '\n' :: rest).takeWhile (fun c => !['>', ':', '\n', ',', ';', '#'].contains c) = n ∧
      (n ++ '\n' :: rest).dropWhile (fun c => !['>', ':', '\n', ',', ';', '#'].contains c) = '\n' :: rest := by
    intro n hn
    induction n with
    | nil =>
      rw [List.nil_append, List.takeWhile_cons, List.dropWhile_cons, if_neg (by decide), if_neg (by decide)]
      exact ⟨rfl, rfl⟩
    | cons c n ih =>
      have hc : (!['>', ':', '\n', ',', ';', '#'].contains c) = true := by
        rcases hn c (by simp) with h | rfl
        · have : c ∉ ['>', ':', '\n', ',', ';', '#'] := by
            intro hm
            apply h.2
            simp only [List.mem_cons, List.not_mem_nil, or_false] at hm ⊢
            rcases hm with h | h | h | h | h | h <;> simp [h]
          simpa using this
        · decide
      have := ih (fun d hd => hn d (List.mem_cons_of_mem _ hd))
      rw [List.cons_append, List.takeWhile_cons, List.dropWhile_cons, if_pos hc, if_pos hc, this.1, this.2]
      exact ⟨rfl, rfl⟩
  have e3 := e2 n hn.chars
  unfold idStep
  simp only [e1, e3.1, e3.2]
  rw [if_neg, if_neg, if_pos (by simp)]
  · rintro (h | h | h)
    · exact hne h
    · rw [ha] at h
      exact ha2.ne '-' (by decide) (Option.some.inj h)
    · rw [hz] at h
      exact hz2.ne '-' (by decide) (Option.some.inj h)
  · intro h
    obtain ⟨d, hd, hd2⟩ := List.any_eq_true.mp h
    rw [hws d hd] at hd2; cases hd2

theorem lex_activate (n rest : Str) (hn : Plain n) (hr : rest.head? ≠ some '\n') :
    lex (kwOn ++ n ++ '\n' :: rest) = .activate :: .actor n :: .newline :: .newline :: lex rest := by
  have e : kwOn ++ n ++ '\n' :: rest = 'a' :: 'c' :: ("tivate ".toList ++ (n ++ '\n' :: rest)) := by
    unfold kwOn; simp
  have hw : wordAt wActivate (kwOn ++ n ++ '\n' :: rest) = true := by
    rw [begins_iff]
    refine ⟨wActivate, ' ' :: (n ++ '\n' :: rest), ?_, by unfold wActivate; decide +kernel, ?_⟩
    · have : kwOn = wActivate ++ [' '] := by unfold kwOn wActivate; decide +kernel
      rw [this]; simp
    · intro c r' h
      simp only [List.cons.injEq] at h
      rw [← h.1]; decide
  have hd : (kwOn ++ n ++ '\n' :: rest).drop wActivate.length = ' ' :: (n ++ '\n' :: rest) := by
    have : kwOn = wActivate ++ [' '] := by unfold kwOn wActivate; decide +kernel
    rw [this, List.append_assoc, List.append_assoc, List.drop_left]
    rfl
  have hs : step (kwOn ++ n ++ '\n' :: rest) = .found [.activate, .actor n, .newline] ('\n' :: rest) := by
    rw [e] at hw hd ⊢
    rw [(step_letters 'a' 'c' _ (by decide) (by decide)).1 hw, hd, idStep_name _ _ _ hn]
  rw [lex_found hs (by
    have : kwOn = wActivate ++ [' '] := by unfold kwOn wActivate; decide +kernel
    rw [this]; simp; omega), lex_newline rest hr]
  rfl

theorem lex_deactivate (n rest : Str) (hn : Plain n) (hr : rest.head? ≠ some '\n') :
    lex (kwOff ++ n ++ '\n' :: rest) = .deactivate :: .actor n :: .newline :: .newline :: lex rest := by
  have e : kwOff ++ n ++ '\n' :: rest = 'd' :: 'e' :: ("activate ".toList ++ (n ++ '\n' :: rest)) := by
    unfold kwOff; simp
  have k : kwOff = wDeactivate ++ [' '] := by unfold kwOff wDeactivate; decide +kernel
  have hw : wordAt wDeactivate (kwOff ++ n ++ '\n' :: rest) = true := by
    rw [begins_iff]
    refine ⟨wDeactivate, ' ' :: (n ++ '\n' :: rest), ?_, by unfold wDeactivate; decide +kernel, ?_⟩
    · rw [k]; simp
    · intro c r' h
      simp only [List.cons.injEq] at h
      rw [← h.1]; decide
  have hw0 : wordAt wActivate (kwOff ++ n ++ '\n' :: rest) = false := by
    unfold wordAt
    rw [Bool.and_eq_false_iff]
    left
    rw [List.append_assoc, List.take_append_of_le_length (by unfold wActivate kwOff; decide +kernel)]
    unfold wActivate kwOff; decide +kernel
  have hd : (kwOff ++ n ++ '\n' :: rest).drop wDeactivate.length = ' ' :: (n ++ '\n' :: rest) := by
    rw [k, List.append_assoc, List.append_assoc, List.drop_left]
    rfl
  have hs : step (kwOff ++ n ++ '\n' :: rest) = .found [.deactivate, .actor n, .newline] ('\n' :: rest) := by
    rw [e] at hw hw0 hd ⊢
    rw [(step_letters 'd' 'e' _ (by decide) (by decide)).2.1 hw0 hw, hd, idStep_name _ _ _ hn]
  rw [lex_found hs (by rw [k]; simp; omega), lex_newline rest hr]
  rfl

/-- a name that begins with a word is not an actor -/
theorem lex_word (b : Str) (w : Str) (hw : w ∈ wActivate :: wDeactivate :: wDiagram :: otherWords) (hb : Begins w b)
    (tail : Str) : ∃ t ts, lex (b ++ ':' :: tail) = t :: ts ∧
      (t = .activate ∨ t = .deactivate ∨ t = .sd ∨ t = .kw) := by
  have hB : Begins w (b ++ ':' :: tail) := (begins_append w b ':' tail (.inr rfl)
    (words_clean w (by
      simp only [List.mem_cons, List.mem_append] at hw ⊢
      rcases hw with h | h | h | h <;> simp [h])).2).mpr hb
  obtain ⟨x, y, r, rfl, hx, hy⟩ := words_letters w hw
  have hW := (begins_iff _ _).mpr hB
  obtain ⟨a, r2, e, ha, -⟩ := hB
  match a, ha with
  | [], ha => simp at ha
  | [a1], ha => simp at ha
  | a1 :: a2 :: a', ha =>
    simp only [List.map_cons, List.cons.injEq] at ha
    have l1 := letter_of_lower a1 x ha.1 hx
    have l2 := letter_of_lower a2 y ha.2.1 hy
    have S := step_letters a1 a2 (a' ++ r2) l1 l2
    rw [List.cons_append, List.cons_append] at e
    rw [e] at hW ⊢
    have start : ∀ t ts r3, step (a1 :: a2 :: (a' ++ r2)) = .found (t :: ts) r3 →
        ∃ ts', lex (a1 :: a2 :: (a' ++ r2)) = t :: ts' := by
      intro t ts r3 h
      rw [lex, h]
      simp only
      split
      · exact ⟨_, rfl⟩
      · exact ⟨_, rfl⟩
    have idst : ∀ t s, ∃ ts r3, idStep t s = .found (t :: ts) r3 := by
      intro t s
      unfold idStep
      simp only
      split
      · exact ⟨_, _, rfl⟩
      · split
        · exact ⟨_, _, rfl⟩
        · split
          · exact ⟨_, _, rfl⟩
          · split
            · exact ⟨_, _, rfl⟩
            · exact ⟨_, _, rfl⟩
    by_cases k1 : wordAt wActivate (a1 :: a2 :: (a' ++ r2)) = true
    · obtain ⟨ts, r3, h⟩ := idst .activate ((a1 :: a2 :: (a' ++ r2)).drop wActivate.length)
      obtain ⟨ts', h'⟩ := start _ _ _ ((S.1 k1).trans h)
      exact ⟨_, _, h', .inl rfl⟩
    · rw [Bool.not_eq_true] at k1
      by_cases k2 : wordAt wDeactivate (a1 :: a2 :: (a' ++ r2)) = true
      · obtain ⟨ts, r3, h⟩ := idst .deactivate ((a1 :: a2 :: (a' ++ r2)).drop wDeactivate.length)
        obtain ⟨ts', h'⟩ := start _ _ _ ((S.2.1 k1 k2).trans h)
        exact ⟨_, _, h', .inr (.inl rfl)⟩
      · rw [Bool.not_eq_true] at k2
        by_cases k3 : wordAt wDiagram (a1 :: a2 :: (a' ++ r2)) = true
        · obtain ⟨ts', h'⟩ := start _ _ _ (S.2.2.1 k1 k2 k3)
          exact ⟨_, _, h', .inr (.inr (.inl rfl))⟩
        · rw [Bool.not_eq_true] at k3
          have k4 : otherWords.any (wordAt · (a1 :: a2 :: (a' ++ r2))) = true := by
            rw [List.any_eq_true]
            refine ⟨x :: y :: r, ?_, hW⟩
            simp only [List.mem_cons] at hw
            rcases hw with h | h | h | h
            · rw [← h] at k1; rw [k1] at hW; cases hW
            · rw [← h] at k2; rw [k2] at hW; cases hW
            · rw [← h] at k3; rw [k3] at hW; cases hW
            · exact h
          obtain ⟨ts', h'⟩ := start _ _ _ (S.2.2.2 k1 k2 k3 k4)
          exact ⟨_, _, h', .inr (.inr (.inr rfl))⟩

/-! ## Lemmas: the grammar -/

/-- a message to a blocked name is an error -/
theorem parse_blocked (f t x rest : Str) (hf : Plain f) (ht : Blocked t) :
    parseDoc (lex (arrow f t x ++ '\n' :: rest)) = .error .syntax := by
  rw [arrow_eq, List.append_assoc, List.cons_append, List.cons_append, List.cons_append,
    lex_name f hf '-' _ (.inl rfl) (go_arrow _), lex_arrow, List.append_assoc, List.cons_append, List.cons_append]
  rcases ht with ⟨w, hw, hb⟩ | ⟨p, c, r, rfl, hp, hc⟩
  · obtain ⟨t', ts, h, k⟩ := lex_word t w hw hb (' ' :: (x ++ '\n' :: rest))
    rw [h]
    rcases k with rfl | rfl | rfl | rfl <;> simp [parseDoc, unexpected]
  · rw [List.append_assoc, List.cons_append, List.cons_append,
      lex_name p hp '-' _ (.inl rfl) (go_cross c hc _)]
    obtain ⟨a, ha⟩ := lex_cross c hc (r ++ ':' :: ' ' :: (x ++ '\n' :: rest))
    rw [ha]
    simp [parseDoc, unexpected]

theorem Plain.head {n : Str} (h : Plain n) (r : Str) : (n ++ r).head? ≠ some '\n' := by
  obtain ⟨a, ha, ha2⟩ := h.first
  cases n with
  | nil => simp at ha
  | cons b m =>
    simp at ha; subst ha
    intro e
    simp at e
    exact ha2.ne '\n' (by decide) e

theorem head_render (ls : List Line) (stack : List Str) (last : Str) (st' : List Str)
    (h : run stack last ls = some st') (hs : ∀ n ∈ stack, Plain n) :
    (Diagram.render ls).head? ≠ some '\n' := by
  cases ls with
  | nil => simp [Diagram.render]
  | cons l ls =>
    rw [Diagram.render]
    cases l with
    | call f t x =>
      cases stack with
      | nil => simp [run] at h
      | cons top stack =>
        rw [run] at h
        split at h
        · rename_i e
          subst e
          simp only [Line.text]
          rw [arrow_eq, List.append_assoc]
          exact (hs f (by simp)).head _
        · cases h
    | activate s => simp only [Line.text]; unfold kwOn; simp
    | deactivate s => simp only [Line.text]; unfold kwOff; simp

/-- Lines that open and close as those of a diagram are read as they are, unless a message goes to a blocked name:
then they are not read at all. -/
theorem read_lines (ls : List Line) : ∀ (stack : List Str) (last : Str) (st' : List Str),
    run stack last ls = some st' → (∀ n ∈ stack, Plain n) → Plain last →
    (∀ f t x, .call f t x ∈ ls → (Plain t ∧ Tidy x) ∨ Blocked t) →
    ((∀ f t x, .call f t x ∈ ls → Plain t) ∧ parseDoc (lex (Diagram.render ls)) = .ok ls) ∨
    ((∃ f t x, .call f t x ∈ ls ∧ Blocked t) ∧ parseDoc (lex (Diagram.render ls)) = .error .syntax) := by
  induction ls with
  | nil =>
    intro stack last st' _ _ _ _
    left
    refine ⟨by simp, ?_⟩
    rw [Diagram.render, lex_nil]
    rfl
  | cons l ls ih =>
    intro stack last st' h hs hl hc
    have hc' : ∀ f t x, .call f t x ∈ ls → (Plain t ∧ Tidy x) ∨ Blocked t :=
      fun f t x hm => hc f t x (List.mem_cons_of_mem _ hm)
    rw [Diagram.render]
    cases l with
    | call f t x =>
      cases stack with
      | nil => simp [run] at h
      | cons top stack =>
        rw [run] at h
        split at h
        · rename_i e
          subst e
          have hf := hs f (by simp)
          simp only [Line.text]
          rcases hc f t x (by simp) with ⟨ht, hx⟩ | hb
          · rw [lex_call f t x _ hf ht hx (head_render ls _ _ _ h hs)]
            rcases ih _ _ _ h hs ht hc' with ⟨h1, h2⟩ | ⟨⟨f', t', x', h1, h3⟩, h2⟩
            · left
              refine ⟨?_, ?_⟩
              · intro f' t' x' hm
                rcases List.mem_cons.mp hm with e | hm
                · cases e; exact ht
                · exact h1 f' t' x' hm
              · rw [parseDoc, if_pos rfl, h2, message_tidy x hx]; rfl
            · right
              refine ⟨⟨f', t', x', List.mem_cons_of_mem _ h1, h3⟩, ?_⟩
              rw [parseDoc, if_pos rfl, h2]; rfl
          · right
            exact ⟨⟨f, t, x, by simp, hb⟩, parse_blocked f t x _ hf hb⟩
        · cases h
    | activate s =>
      cases stack with
      | nil => simp [run] at h
      | cons top stack =>
        rw [run] at h
        split at h
        · rename_i e
          subst e
          have hs' : ∀ n ∈ s :: top :: stack, Plain n := by
            intro n hn
            rcases List.mem_cons.mp hn with rfl | hn
            · exact hl
            · exact hs n hn
          simp only [Line.text]
          rw [lex_activate s _ hl (head_render ls _ _ _ h hs')]
          rcases ih _ _ _ h hs' hl hc' with ⟨h1, h2⟩ | ⟨⟨f', t', x', h1, h3⟩, h2⟩
          · left
            refine ⟨?_, ?_⟩
            · intro f' t' x' hm
              rcases List.mem_cons.mp hm with e | hm
              · cases e
              · exact h1 f' t' x' hm
            · rw [parseDoc, parseDoc, h2]; rfl
          · right
            refine ⟨⟨f', t', x', List.mem_cons_of_mem _ h1, h3⟩, ?_⟩
            rw [parseDoc, parseDoc, h2]; rfl
        · cases h
    | deactivate s =>
      match stack, h, hs with
      | [], h, _ => simp [run] at h
      | [top], h, _ => simp [run] at h
      | top :: next :: stack, h, hs =>
        rw [run] at h
        split at h
        · rename_i e
          obtain ⟨rfl, e2⟩ := e
          have hs' : ∀ n ∈ next :: stack, Plain n := fun n hn => hs n (List.mem_cons_of_mem _ hn)
          simp only [Line.text]
          rw [lex_deactivate s _ (hs s (by simp)) (head_render ls _ _ _ h hs')]
          rcases ih _ _ _ h hs' hl hc' with ⟨h1, h2⟩ | ⟨⟨f', t', x', h1, h3⟩, h2⟩
          · left
            refine ⟨?_, ?_⟩
            · intro f' t' x' hm
              rcases List.mem_cons.mp hm with e | hm
              · cases e
              · exact h1 f' t' x' hm
            · rw [parseDoc, parseDoc, h2]; rfl
          · right
            refine ⟨⟨f', t', x', List.mem_cons_of_mem _ h1, h3⟩, ?_⟩
            rw [parseDoc, parseDoc, h2]; rfl
        · cases h

theorem active_of_run (ls : List Line) : ∀ (acts : List Str) (root last : Str) (st' : List Str),
    run (acts ++ [root]) last ls = some st' → activeOk acts ls = true := by
  induction ls with
  | nil => intros; rfl
  | cons l ls ih =>
    intro acts root last st' h
    cases l with
    | call f t x =>
      rw [activeOk]
      cases acts with
      | nil =>
        rw [List.nil_append, run] at h
        split at h
        · exact ih [] root _ _ h
        · cases h
      | cons a acts =>
        rw [List.cons_append, run] at h
        split at h
        · exact ih (a :: acts) root _ _ h
        · cases h
    | activate s =>
      rw [activeOk]
      cases acts with
      | nil =>
        rw [List.nil_append, run] at h
        split at h
        · exact ih [s] root _ _ h
        · cases h
      | cons a acts =>
        rw [List.cons_append, run] at h
        split at h
        · exact ih (s :: a :: acts) root _ _ h
        · cases h
    | deactivate s =>
      cases acts with
      | nil => simp [run] at h
      | cons a acts =>
        have h' : s = a ∧ run (acts ++ [root]) last ls = some st' := by
          cases acts with
          | nil =>
            rw [List.cons_append, List.nil_append, run] at h
            split at h
            · rename_i e; exact ⟨e.1, h⟩
            · cases h
          | cons b acts =>
            rw [List.cons_append, List.cons_append, run] at h
            split at h
            · rename_i e; exact ⟨e.1, h⟩
            · cases h
        obtain ⟨rfl, h'⟩ := h'
        rw [activeOk, if_pos (by simp), List.erase_cons_head]
        exact ih acts root last st' h'

/-! ## Lemmas: the names in a diagram -/

mutual
theorem call_names : ∀ (c : TNode) (f : Str), Diagram.Drawn c → ∀ f' t x, .call f' t x ∈ childLines f c →
    (t = f ∨ t ∈ preL (stands c)) ∧ (x = t ∨ ∃ n j, x = repLabel n j)
  | .rep n s, f, hd, f', t, x, h => by
    cases hd with
    | rep _ _ hn =>
      rw [childLines] at h
      obtain ⟨j, _, e⟩ := List.mem_map.mp h
      cases e
      refine ⟨.inr ?_, .inr ⟨n, j, rfl⟩⟩
      obtain ⟨m, rfl⟩ : ∃ m, n = m + 1 := ⟨n - 1, by omega⟩
      rw [stands, List.replicate_succ, preL, Tree.pre]
      simp
  | .node s cs, f, hd, f', t, x, h => by
    cases hd with
    | node _ _ hcs =>
      have hin : ∀ y, y = s ∨ y ∈ preL (standsL cs) → y ∈ preL (stands (.node s cs)) := by
        intro y hy
        rw [stands, preL, Tree.pre]
        simpa [preL] using hy
      rw [childLines] at h
      rcases List.mem_cons.mp h with e | h
      · cases e
        exact ⟨.inr (hin s (.inl rfl)), .inl rfl⟩
      · split at h
        · simp at h
        · simp only [List.mem_cons, List.mem_append, List.not_mem_nil, or_false] at h
          rcases h with h | h | h | h
          · cases h
          · have := calls_names cs s hcs f' t x h
            exact ⟨.inr (hin t this.1), this.2⟩
          · cases h
            exact ⟨.inl rfl, .inl rfl⟩
          · cases h
theorem calls_names : ∀ (cs : List TNode) (f : Str), (∀ c ∈ cs, Diagram.Drawn c) → ∀ f' t x,
    .call f' t x ∈ childrenLines f cs → (t = f ∨ t ∈ preL (standsL cs)) ∧ (x = t ∨ ∃ n j, x = repLabel n j)
  | [], f, _, f', t, x, h => by rw [childrenLines] at h; simp at h
  | c :: cs, f, hd, f', t, x, h => by
    rw [childrenLines] at h
    rw [standsL, Lib.preL_append]
    rcases List.mem_append.mp h with h | h
    · have := call_names c f (hd c (by simp)) f' t x h
      exact ⟨this.1.imp_right (fun k => List.mem_append_left _ k), this.2⟩
    · have := calls_names cs f (fun x hx => hd x (List.mem_cons_of_mem _ hx)) f' t x h
      exact ⟨this.1.imp_right (fun k => List.mem_append_right _ k), this.2⟩
end

mutual
theorem name_called : ∀ (c : TNode) (f t : Str), t ∈ preL (stands c) → ∃ f' x, .call f' t x ∈ childLines f c
  | .rep n s, f, t, h => by
    rw [stands] at h
    have key : ∀ n, t ∈ preL (List.replicate n (Tree.node s [])) → t = s ∧ 1 ≤ n := by
      intro n
      induction n with
      | zero => intro h; simp [preL] at h
      | succ n ih =>
        intro h
        rw [List.replicate_succ, preL, Tree.pre] at h
        simp only [preL, List.mem_append, List.mem_singleton] at h
        rcases h with h | h
        · exact ⟨h, by omega⟩
        · exact ⟨(ih h).1, by omega⟩
    obtain ⟨rfl, hn⟩ := key n h
    refine ⟨f, repLabel n 0, ?_⟩
    rw [childLines, repLines]
    exact List.mem_map.mpr ⟨0, by simp; omega, rfl⟩
  | .node s cs, f, t, h => by
    rw [stands, preL, Tree.pre] at h
    simp only [preL, List.append_nil, List.mem_cons] at h
    rw [childLines]
    rcases h with rfl | h
    · exact ⟨f, t, by simp⟩
    · have hne : ¬ cs.isEmpty = true := by
        intro e
        rw [List.isEmpty_iff.mp e, standsL] at h
        simp [preL] at h
      obtain ⟨f', x, k⟩ := name_calledL cs s t h
      refine ⟨f', x, ?_⟩
      rw [if_neg hne]
      simp [k]
theorem name_calledL : ∀ (cs : List TNode) (f t : Str), t ∈ preL (standsL cs) →
    ∃ f' x, .call f' t x ∈ childrenLines f cs
  | [], f, t, h => by rw [standsL] at h; simp [preL] at h
  | c :: cs, f, t, h => by
    rw [standsL, Lib.preL_append] at h
    rw [childrenLines]
    rcases List.mem_append.mp h with h | h
    · obtain ⟨f', x, k⟩ := name_called c f t h
      exact ⟨f', x, List.mem_append_left _ k⟩
    · obtain ⟨f', x, k⟩ := name_calledL cs f t h
      exact ⟨f', x, List.mem_append_right _ k⟩
end

theorem digit_of_digits (n : Nat) : ∀ c ∈ digits n, c.isDigit = true := by
  unfold digits
  intro c hc
  have : toString n = n.repr := rfl
  rw [this, Nat.toList_repr] at hc
  exact Nat.isDigit_of_mem_toDigits (by decide) (by decide) hc

theorem repLabel_tidy (n j : Nat) : Tidy (repLabel n j) := by
  have h1 : ∀ c ∈ "More ".toList, c ∉ ['#', '\n', ';'] := by decide +kernel
  have h2 : ∀ c ∈ " times...".toList, c ∉ ['#', '\n', ';'] := by decide +kernel
  unfold repLabel
  split
  · refine ⟨?_, .inr ⟨⟨'M', ?_, by decide⟩, ⟨'.', ?_, by decide⟩⟩⟩
    · intro c hc
      simp only [List.mem_append] at hc
      rcases hc with (hc | hc) | hc
      · exact h1 c hc
      · have := digit_of_digits n c hc
        intro hm
        simp only [List.mem_cons, List.not_mem_nil, or_false] at hm
        rcases hm with rfl | rfl | rfl <;> exact absurd this (by decide)
      · exact h2 c hc
    · have : "More ".toList = 'M' :: "ore ".toList := by decide +kernel
      rw [this]; rfl
    · have : " times...".toList = " times..".toList ++ ['.'] := by decide +kernel
      rw [this, ← List.append_assoc, List.getLast?_append]; rfl
  · exact ⟨by simp, .inl rfl⟩

/-! ## Lemmas: the text -/

theorem crlf_id (s : Str) (h : '\r' ∉ s) : crlf s = s := by
  fun_induction crlf s with
  | case1 => rfl
  | case2 => simp at h
  | case3 => simp at h
  | case4 c cs _ _ ih => rw [ih (fun hm => h (List.mem_cons_of_mem _ hm))]

theorem units_crlf_le (s : Str) : units (crlf s) ≤ units s := by
  fun_induction crlf s with
  | case1 => exact Nat.le_refl _
  | case2 cs ih => simp only [units]; simp; omega
  | case3 cs _ ih => simp only [units]; simp; omega
  | case4 c cs _ _ ih => simp only [units]; omega

theorem length_le_units (s : Str) : s.length ≤ units s := by
  induction s with
  | nil => simp [units]
  | cons c s ih => simp only [units, List.length_cons]; split <;> omega

@[irreducible] def header : Str := "sequenceDiagram".toList

theorem crlf_diagram (t : Str) (h : '\r' ∉ t) :
    crlf ("sequenceDiagram\r\n".toList ++ t) = header ++ '\n' :: t := by
  have e : "sequenceDiagram\r\n".toList = header ++ ['\r', '\n'] := by unfold header; decide +kernel
  have k : ∀ p : Str, '\r' ∉ p → crlf (p ++ '\r' :: '\n' :: t) = p ++ '\n' :: t := by
    intro p hp
    induction p with
    | nil => rw [List.nil_append, crlf, crlf_id t h]; rfl
    | cons c p ih =>
      have hc : c ≠ '\r' := fun e => hp (by simp [e])
      have := ih (fun hm => hp (List.mem_cons_of_mem _ hm))
      rw [List.cons_append, List.cons_append, ← this]
      rw [crlf]
      · rintro cs rfl; exact absurd rfl hc
      · rintro rfl; exact absurd rfl hc
  rw [e, List.append_assoc]
  exact k header (by unfold header; decide +kernel)

theorem lex_header (t : Str) (h : t.head? ≠ some '\n') :
    lex (header ++ '\n' :: t) = .sd :: .newline :: lex t := by
  have hlen : header.length = wDiagram.length := by unfold header wDiagram; decide +kernel
  have e : header ++ '\n' :: t = 's' :: 'e' :: ("quenceDiagram".toList ++ '\n' :: t) := by
    unfold header; simp
  have hw : wordAt wDiagram (header ++ '\n' :: t) = true := by
    rw [begins_iff]
    refine ⟨header, '\n' :: t, rfl, by unfold header wDiagram; decide +kernel, ?_⟩
    intro c r' h
    simp only [List.cons.injEq] at h
    rw [← h.1]; decide
  have h1 : wordAt wActivate (header ++ '\n' :: t) = false := by
    unfold wordAt
    rw [Bool.and_eq_false_iff, List.take_append_of_le_length (by unfold wActivate header; decide +kernel)]
    left; unfold wActivate header; decide +kernel
  have h2 : wordAt wDeactivate (header ++ '\n' :: t) = false := by
    unfold wordAt
    rw [Bool.and_eq_false_iff, List.take_append_of_le_length (by unfold wDeactivate header; decide +kernel)]
    left; unfold wDeactivate header; decide +kernel
  have hd : (header ++ '\n' :: t).drop wDiagram.length = '\n' :: t := by
    rw [← hlen, List.drop_left]
  have hs : step (header ++ '\n' :: t) = .found [.sd] ('\n' :: t) := by
    rw [e] at hw h1 h2 hd ⊢
    rw [(step_letters 's' 'e' _ (by decide) (by decide)).2.2.1 h1 h2 hw, hd]
  rw [lex_found hs (by unfold header; simp), lex_newline t h]
  rfl

theorem plain_no_cr {n : Str} (h : Plain n) : '\r' ∉ n := by
  intro hm
  rcases h.chars _ hm with k | k
  · exact absurd k.1 (by decide)
  · exact absurd k (by decide)

theorem repLabel_no_cr (n j : Nat) : '\r' ∉ repLabel n j := by
  unfold repLabel
  split
  · simp only [List.mem_append, not_or]
    refine ⟨⟨by decide +kernel, ?_⟩, by decide +kernel⟩
    intro h
    exact absurd (digit_of_digits n _ h) (by decide)
  · simp

mutual
theorem child_no_cr : ∀ (c : TNode) (f : Str), '\r' ∉ f → Diagram.Drawn c → (∀ x ∈ preL (stands c), '\r' ∉ x) →
    '\r' ∉ Diagram.render (childLines f c)
  | .rep n s, f, hf, hd, h => by
    cases hd with
    | rep _ _ hn =>
      have hs : '\r' ∉ s := by
        apply h
        obtain ⟨m, rfl⟩ : ∃ m, n = m + 1 := ⟨n - 1, by omega⟩
        rw [stands, List.replicate_succ, preL, Tree.pre]; simp
      rw [childLines, repLines]
      generalize List.range (min n 3) = js
      induction js with
      | nil => simp [Diagram.render]
      | cons j js ih =>
        rw [List.map_cons, Diagram.render, Line.text, arrow_eq]
        simp only [List.mem_append, List.mem_cons, not_or]
        exact ⟨⟨hf, by decide, by decide, by decide, hs, by decide, by decide, repLabel_no_cr n j⟩, by decide, ih⟩
  | .node s cs, f, hf, hd, h => by
    cases hd with
    | node _ _ hcs =>
      have hs : '\r' ∉ s := by
        apply h
        rw [stands, preL, Tree.pre]; simp
      have ih := children_no_cr cs s hs hcs (fun x hx => h x (by
        rw [stands, preL, Tree.pre]
        simp [preL, hx]))
      have k1 : '\r' ∉ kwOn := by unfold kwOn; decide +kernel
      have k2 : '\r' ∉ kwOff := by unfold kwOff; decide +kernel
      rw [childLines, Diagram.render, Line.text, arrow_eq]
      simp only [List.mem_append, List.mem_cons, not_or]
      refine ⟨⟨hf, by decide, by decide, by decide, hs, by decide, by decide, hs⟩, by decide, ?_⟩
      split
      · simp [Diagram.render]
      · rw [Diagram.render, render_append]
        simp only [Line.text, Diagram.render, arrow_eq, List.mem_append, List.mem_cons, not_or]
        exact ⟨⟨k1, hs⟩, by decide, ih, ⟨hs, by decide, by decide, by decide, hf, by decide, by decide, hf⟩,
          by decide, ⟨k2, hs⟩, by decide, by simp⟩
theorem children_no_cr : ∀ (cs : List TNode) (f : Str), '\r' ∉ f → (∀ c ∈ cs, Diagram.Drawn c) →
    (∀ x ∈ preL (standsL cs), '\r' ∉ x) → '\r' ∉ Diagram.render (childrenLines f cs)
  | [], f, _, _, _ => by simp [childrenLines, Diagram.render]
  | c :: cs, f, hf, hd, h => by
    rw [standsL, Lib.preL_append] at h
    rw [childrenLines, render_append, List.mem_append, not_or]
    exact ⟨child_no_cr c f hf (hd c (by simp)) (fun x hx => h x (List.mem_append_left _ hx)),
      children_no_cr cs f hf (fun x hx => hd x (List.mem_cons_of_mem _ hx))
        (fun x hx => h x (List.mem_append_right _ hx))⟩
end

/-- the diagram of a trace, as mermaid reads it -/
theorem reads (s : Span) (h : s.children ≠ []) (hroot : Plain s.val)
    (hn : ∀ x ∈ s.pre, Plain x ∨ Blocked x ∧ '\r' ∉ x) :
    ∃ ls ns, toNode s = .node s.val ns ∧ readBack [] [] ls = some (callsL ns) ∧
      crlf (diagram (toNode s)) = header ++ '\n' :: Diagram.render ls ∧
      activeOk [] ls = true ∧
      (((∀ x ∈ s.pre, Plain x) ∧ parse (lex (crlf (diagram (toNode s)))) = .ok ls) ∨
        ((∃ x ∈ s.pre, Blocked x) ∧ parse (lex (crlf (diagram (toNode s)))) = .error .syntax)) := by
  have hd := drawn_toNode s
  have hst := standsL_toNodes s.children
  obtain ⟨v, cs⟩ := s
  simp only [Tree.children, Tree.val] at h hroot hst ⊢
  rw [toNode] at hd ⊢
  cases hd with
  | node _ _ hcs =>
    have hsub : ∀ x ∈ preL (standsL (toNodes cs)), x ∈ (Tree.node v cs).pre := by
      intro x hx
      rw [hst] at hx
      rw [Tree.pre]; exact List.mem_cons_of_mem _ hx
    have hcr : '\r' ∉ Diagram.render (childrenLines v (toNodes cs)) := by
      apply children_no_cr _ _ (plain_no_cr hroot) hcs
      intro x hx
      rcases hn x (hsub x hx) with k | k
      · exact plain_no_cr k
      · exact k.2
    have hrun : ∀ last, run [v] last (childrenLines v (toNodes cs)) = some [v] := by
      intro last
      obtain ⟨l', h'⟩ := children_nested (toNodes cs) v [] last []
      rw [List.append_nil] at h'
      rw [h', run]
    have htext : crlf (diagram (.node v (toNodes cs))) =
        header ++ '\n' :: Diagram.render (childrenLines v (toNodes cs)) := by
      rw [diagram_lines v _ (toNodes_ne cs h) hcs, crlf_diagram _ hcr]
    have hstack : ∀ n ∈ [v], Plain n := by simpa using hroot
    have hhead := head_render _ _ _ _ (hrun v) hstack
    have hparse : parse (lex (crlf (diagram (.node v (toNodes cs))))) =
        parseDoc (lex (Diagram.render (childrenLines v (toNodes cs)))) := by
      rw [htext, lex_header _ hhead, parse, parseDoc]
    refine ⟨childrenLines v (toNodes cs), toNodes cs, rfl, ?_, htext, active_of_run _ [] v v _ (hrun v), ?_⟩
    · have := readBack_children (toNodes cs) v [] [] [] (.inl rfl)
      rw [List.append_nil, List.nil_append] at this
      rw [this, readBack]
    · rw [hparse]
      rcases read_lines _ [v] v [v] (hrun v) hstack hroot (by
        intro f t x hm
        have k := calls_names (toNodes cs) v hcs f t x hm
        have ht : Plain t ∨ Blocked t := by
          rcases k.1 with rfl | k1
          · exact .inl hroot
          · exact (hn t (hsub t k1)).imp_right And.left
        rcases ht with ht | ht
        · left
          refine ⟨ht, ?_⟩
          rcases k.2 with rfl | ⟨n, j, rfl⟩
          · exact ht.tidy
          · exact repLabel_tidy n j
        · exact .inr ht) with ⟨h1, h2⟩ | ⟨⟨f, t, x, h1, h3⟩, h2⟩
      · left
        refine ⟨?_, h2⟩
        intro x hx
        rw [Tree.pre] at hx
        rcases List.mem_cons.mp hx with rfl | hx
        · exact hroot
        · rw [← hst] at hx
          obtain ⟨f', y, k⟩ := name_calledL (toNodes cs) v x hx
          exact h1 f' x y k
      · right
        refine ⟨⟨t, ?_, h3⟩, h2⟩
        rcases (calls_names (toNodes cs) v hcs f t x h1).1 with rfl | k
        · rw [Tree.pre]; simp
        · exact hsub t k

theorem plain_not_blocked {n : Str} (h : Plain n) : ¬ Blocked n := by
  rintro (⟨w, hw, hb⟩ | ⟨p, c, r, rfl, -, hc⟩)
  · refine h.words w ?_ hb
    simp only [List.mem_cons, List.mem_append] at hw ⊢
    rcases hw with h | h | h | h <;> simp [h]
  · exact h.cross p c r rfl hc

/-! ## The theorems -/

/-- C96: if all service names are plain and the text is not longer than mermaid allows, the picture has the calls
of the trace, in their places. -/
theorem C96_drawn_partial (s : Span) (h : s.children ≠ []) (hn : ∀ x ∈ s.pre, Plain x)
    (hu : units (diagram (toNode s)) ≤ maxTextSize) :
    ∃ ls ns, toNode s = .node s.val ns ∧ stands (toNode s) = [s] ∧
      render (diagram (toNode s)) = .diagram ls ∧ readBack [] [] ls = some (callsL ns) := by
  have hroot : Plain s.val := hn _ (by cases s; simp [Tree.pre, Tree.val])
  obtain ⟨ls, ns, h1, h2, h3, h4, h5⟩ := reads s h hroot (fun x hx => .inl (hn x hx))
  refine ⟨ls, ns, h1, C44_nothing_lost s, ?_, h2⟩
  have hu' := Nat.le_trans (units_crlf_le (diagram (toNode s))) hu
  unfold render
  rw [if_neg (by omega)]
  rcases h5 with ⟨-, h5⟩ | ⟨⟨x, hx, hb⟩, -⟩
  · rw [h5]
    simp only
    rw [if_pos h4]
  · exact absurd hb (plain_not_blocked (hn x hx))

/-- C96, negation: one service below the root whose name begins with a word of the grammar or has a hyphen before an
`x`, among services with plain names, and nothing is drawn. -/
theorem C96_blocked (s : Span) (h : s.children ≠ []) (hroot : Plain s.val)
    (hn : ∀ x ∈ s.pre, Plain x ∨ Blocked x ∧ '\r' ∉ x) (hb : ∃ x ∈ s.pre, Blocked x)
    (hu : units (diagram (toNode s)) ≤ maxTextSize) : render (diagram (toNode s)) = .failed := by
  obtain ⟨ls, ns, h1, h2, h3, h4, h5⟩ := reads s h hroot hn
  have hu' := Nat.le_trans (units_crlf_le (diagram (toNode s))) hu
  unfold render
  rw [if_neg (by omega)]
  rcases h5 with ⟨h5, -⟩ | ⟨-, h5⟩
  · obtain ⟨x, hx, hb⟩ := hb
    exact absurd hb (plain_not_blocked (h5 x hx))
  · rw [h5]

theorem lex_ws (k : Nat) (c : Char) (r : Str) (hc : isWs c = false) :
    lex (List.replicate (k + 1) ' ' ++ c :: r) = lex (c :: r) := by
  have hd : ∀ k, (List.replicate k ' ' ++ c :: r).dropWhile isWs = c :: r := by
    intro k
    induction k with
    | zero => rw [List.replicate_zero, List.nil_append, List.dropWhile_cons, if_neg (by rw [hc]; decide)]
    | succ k ih =>
      rw [List.replicate_succ, List.cons_append, List.dropWhile_cons, if_pos (by decide)]
      exact ih
  rw [List.replicate_succ, List.cons_append,
    lex_found (ts := []) (r := c :: r)]
  · rfl
  · rw [step, if_neg (by rintro ⟨h, -⟩; exact absurd h (by decide)), if_neg (by decide), if_pos (by decide), hd]
  · simp; omega

/-- C96: a trace of one span with a plain name is drawn as a call of itself. -/
theorem C96_single (s : Str) (hs : Plain s) (hu : units (diagram (toNode (.node s []))) ≤ maxTextSize) :
    render (diagram (toNode (.node s []))) = .diagram [.call s s []] := by
  have e : diagram (toNode (.node s [])) = '\n' :: (List.replicate 6 ' ' ++ (header ++ '\n' ::
      (List.replicate 6 ' ' ++ (arrow s s [' '] ++ '\n' :: List.replicate 4 ' ')))) := by
    rw [C45_single]
    have e1 : "\n      sequenceDiagram\n      ".toList =
        '\n' :: (List.replicate 6 ' ' ++ (header ++ '\n' :: List.replicate 6 ' ')) := by unfold header; decide +kernel
    have e2 : " \n    ".toList = [' '] ++ '\n' :: List.replicate 4 ' ' := by decide +kernel
    rw [e1, e2]
    simp [arrow]
  have hcr : '\r' ∉ diagram (toNode (.node s [])) := by
    rw [e, arrow_eq]
    have h1 : '\r' ∉ header := by unfold header; decide +kernel
    have h2 := plain_no_cr hs
    simp [h1, h2]
  obtain ⟨a, ha, ha2⟩ := hs.first
  obtain ⟨m, rfl⟩ : ∃ m, s = a :: m := by
    cases s with
    | nil => simp at ha
    | cons b m => simp at ha; subst ha; exact ⟨m, rfl⟩
  have hname : ∀ r, lex (List.replicate 6 ' ' ++ ((a :: m) ++ r)) = lex ((a :: m) ++ r) := by
    intro r
    rw [List.cons_append]
    exact lex_ws 5 a _ ha2.1
  have hhead : ∀ r, lex (List.replicate 6 ' ' ++ (header ++ r)) = lex (header ++ r) := by
    intro r
    have : header = 's' :: "equenceDiagram".toList := by unfold header; decide +kernel
    rw [this, List.cons_append]
    exact lex_ws 5 's' _ (by decide)
  have hend : lex (List.replicate 4 ' ') = [.newline] := by
    rw [lex_found (ts := []) (r := []) (by rfl) (by simp), lex_nil]; rfl
  have hlex : lex (diagram (toNode (.node (a :: m) []))) =
      [.newline, .sd, .newline, .actor (a :: m), .arrow .solid, .actor (a :: m), .txt [':', ' ', ' '], .newline,
        .newline] := by
    rw [e, lex_newline _ (by simp), hhead, lex_header _ (by simp)]
    rw [arrow_eq, List.append_assoc, hname]
    simp only [List.cons_append (a := '-'), List.cons_append (a := '>'), List.cons_append (a := ':'), List.append_assoc]
    rw [
      lex_name (a :: m) hs '-' _ (.inl rfl) (go_arrow _), lex_arrow, lex_name (a :: m) hs ':' _ (.inr rfl) (go_colon _)]
    have := lex_txt [' '] (List.replicate 4 ' ') (by decide)
    rw [List.cons_append] at this
    rw [this, lex_newline _ (by simp), hend]
  have hu' := Nat.le_trans (units_crlf_le (diagram (toNode (.node (a :: m) [])))) hu
  unfold render
  rw [if_neg (by omega), crlf_id _ hcr, hlex]
  simp only [parse, parseDoc, if_true, prep, activeOk]
  rw [show message [':', ' ', ' '] = [] by decide]

mutual
/-- the spans that call others -/
def inner : Span → Nat
  | .node _ cs => (if cs.isEmpty then 0 else 1) + innerL cs
def innerL : List Span → Nat
  | [] => 0
  | c :: cs => inner c + innerL cs
end

theorem innerL_append (a b : List Span) : innerL (a ++ b) = innerL a + innerL b := by
  induction a with
  | nil => simp [innerL]
  | cons c a ih => simp [innerL, ih]; omega

theorem innerL_replicate (n : Nat) (s : Str) : innerL (List.replicate n (.node s [])) = 0 := by
  induction n with
  | zero => rfl
  | succ n ih => rw [List.replicate_succ, innerL, ih, inner]; rfl

mutual
theorem child_length : ∀ (k : Nat) (c : TNode) (f : Str), k ≤ f.length → (∀ x ∈ preL (stands c), k ≤ x.length) →
    (8 * k + 34) * innerL (stands c) ≤ (Diagram.render (childLines f c)).length
  | k, .rep n s, f, _, _ => by rw [stands, innerL_replicate]; simp
  | k, .node s cs, f, hf, h => by
    have hs : k ≤ s.length := by
      apply h
      rw [stands, preL, Tree.pre]; simp
    have ih := children_length k cs s hs (fun x hx => h x (by
      rw [stands, preL, Tree.pre]
      simp [preL, hx]))
    have k1 : kwOn.length = 9 := by unfold kwOn; decide +kernel
    have k2 : kwOff.length = 11 := by unfold kwOff; decide +kernel
    rw [stands, childLines]
    by_cases he : cs.isEmpty = true
    · rw [List.isEmpty_iff.mp he, standsL]
      simp [innerL, inner]
    · rw [if_neg he]
      simp only [Diagram.render, Line.text, render_append, arrow_eq, List.length_append, List.length_cons, innerL, inner,
        k1, k2, List.length_nil]
      have : (8 * k + 34) * ((if (standsL cs).isEmpty = true then 0 else 1) + innerL (standsL cs) + 0) ≤
          (8 * k + 34) + (8 * k + 34) * innerL (standsL cs) := by
        simp only [Nat.add_zero]
        by_cases hs : (standsL cs).isEmpty = true
        · rw [if_pos hs, Nat.zero_add]; exact Nat.le_add_left _ _
        · rw [if_neg hs, Nat.mul_add (8 * k + 34) 1, Nat.mul_one]; exact Nat.le_refl _
      omega
theorem children_length : ∀ (k : Nat) (cs : List TNode) (f : Str), k ≤ f.length →
    (∀ x ∈ preL (standsL cs), k ≤ x.length) →
    (8 * k + 34) * innerL (standsL cs) ≤ (Diagram.render (childrenLines f cs)).length
  | k, [], f, _, _ => by simp [standsL, innerL]
  | k, c :: cs, f, hf, h => by
    rw [standsL, Lib.preL_append] at h
    have h1 := child_length k c f hf (fun x hx => h x (List.mem_append_left _ hx))
    have h2 := children_length k cs f hf (fun x hx => h x (List.mem_append_right _ hx))
    rw [standsL, childrenLines, render_append, List.length_append, innerL_append, Nat.mul_add]
    omega
end

/-- C96, negation: a trace in which so many spans below the root call others that their lines alone exceed the
limit is not drawn, whatever the names; 8k + 34 characters per span for names of at least k characters. -/
theorem C96_too_long (s : Span) (k : Nat) (hk : ∀ x ∈ s.pre, k ≤ x.length ∧ '\r' ∉ x)
    (hn : maxTextSize < (8 * k + 34) * innerL s.children) : render (diagram (toNode s)) = .tooLong := by
  have hd := drawn_toNode s
  have hst := standsL_toNodes s.children
  obtain ⟨v, cs⟩ := s
  simp only [Tree.children] at hn hst
  have h : cs ≠ [] := by
    rintro rfl
    simp [innerL] at hn
  rw [toNode] at hd ⊢
  cases hd with
  | node _ _ hcs =>
    have hv := hk v (by simp [Tree.pre])
    have hsub : ∀ x ∈ preL (standsL (toNodes cs)), k ≤ x.length ∧ '\r' ∉ x := by
      intro x hx
      rw [hst] at hx
      exact hk x (by rw [Tree.pre]; exact List.mem_cons_of_mem _ hx)
    have hcr := children_no_cr (toNodes cs) v hv.2 hcs (fun x hx => (hsub x hx).2)
    have hlen := children_length k (toNodes cs) v hv.1 (fun x hx => (hsub x hx).1)
    rw [hst] at hlen
    unfold render
    rw [if_pos]
    rw [diagram_lines v _ (toNodes_ne cs h) hcs, crlf_diagram _ hcr]
    have := length_le_units (header ++ '\n' :: Diagram.render (childrenLines v (toNodes cs)))
    simp only [List.length_append, List.length_cons] at this
    omega

/-! ## Examples -/

/-- decides whether a name is plain -/
def plainB (n : Str) : Bool :=
  let ok (c : Char) : Bool := !isWs c && !['+', '-', '>', ':', '\n', ',', ';', '#', '%'].contains c
  n.head?.any ok && n.getLast?.any ok && n.all (fun c => ok c || c == '-') &&
    (n.zip n.tail).all (fun p => !(p.1 == '-' && isCross p.2)) &&
    (wActivate :: wDeactivate :: wDiagram :: (otherWords ++ titleWords)).all (fun w => !wordAt w n)

theorem plain_of_check (n : Str) (h : plainB n = true) : Plain n := by
  unfold plainB at h
  simp only [Bool.and_eq_true] at h
  obtain ⟨⟨⟨⟨h1, h2⟩, h3⟩, h4⟩, h5⟩ := h
  have ok : ∀ c, (!isWs c && !['+', '-', '>', ':', '\n', ',', ';', '#', '%'].contains c) = true → NameChar c := by
    intro c hc
    rw [Bool.and_eq_true] at hc
    exact ⟨by simpa using hc.1, by simpa using hc.2⟩
  refine ⟨?_, ?_, ?_, ?_, ?_⟩
  · cases hh : n.head? with
    | none => rw [hh] at h1; cases h1
    | some a => rw [hh] at h1; exact ⟨a, rfl, ok a h1⟩
  · cases hh : n.getLast? with
    | none => rw [hh] at h2; cases h2
    | some a => rw [hh] at h2; exact ⟨a, rfl, ok a h2⟩
  · intro c hc
    have := List.all_eq_true.mp h3 c hc
    rw [Bool.or_eq_true] at this
    exact this.imp (ok c) (by simp)
  · rintro p c r rfl hc
    have : ('-', c) ∈ (p ++ '-' :: c :: r).zip (p ++ '-' :: c :: r).tail := by
      clear h1 h2 h3 h4 h5
      induction p with
      | nil => simp
      | cons d p ih =>
        cases p with
        | nil => simp
        | cons d2 p =>
          have := ih
          simp only [List.cons_append, List.tail_cons, List.zip_cons_cons, List.mem_cons] at this ⊢
          exact .inr this
    have := List.all_eq_true.mp h4 _ this
    rw [(isCross_iff c).mpr hc] at this
    simp at this
  · intro w hw hb
    have := List.all_eq_true.mp h5 w hw
    rw [(begins_iff w n).mpr hb] at this
    cases this

example : Plain "order-service".toList ∧ Plain "api.gateway/v2".toList ∧ Plain "notes-service".toList := by
  refine ⟨plain_of_check _ ?_, plain_of_check _ ?_, plain_of_check _ ?_⟩ <;>
    unfold plainB wActivate wDeactivate wDiagram otherWords titleWords <;> decide +kernel

theorem link_blocked : Blocked "link-shortener".toList := by
  left
  refine ⟨"link".toList, by unfold otherWords; simp, (begins_iff _ _).mp (by decide +kernel)⟩

theorem xray_blocked : Blocked "aws-xray".toList :=
  .inr ⟨"aws".toList, 'x', "ray".toList, by decide +kernel,
    plain_of_check _ (by unfold plainB wActivate wDeactivate wDiagram otherWords titleWords; decide +kernel), by decide⟩

/-- a gateway that calls a link shortener -/
example : render (diagram (toNode (.node "gateway".toList [.node "link-shortener".toList []]))) = .failed := by
  have hg : Plain "gateway".toList := plain_of_check _ (by
    unfold plainB wActivate wDeactivate wDiagram otherWords titleWords; decide +kernel)
  apply C96_blocked
  · simp [Tree.children]
  · exact hg
  · intro x hx
    simp only [Tree.pre, preL, List.append_nil, List.mem_cons, List.not_mem_nil, or_false] at hx
    rcases hx with rfl | rfl
    · exact .inl hg
    · exact .inr ⟨link_blocked, by decide +kernel⟩
  · exact ⟨_, by simp [Tree.pre, preL], link_blocked⟩
  · have : toNode (.node "gateway".toList [.node "link-shortener".toList []]) =
        .node "gateway".toList [.node "link-shortener".toList []] := by
      simp [toNode, toNodes, isLast, Tree.children, countRepeated, createNodes, nodeAt, Tree.val]
    rw [this]
    decide +kernel

/-- nested calls -/
def chain (x : Str) : Nat → Span
  | 0 => .node x []
  | n + 1 => .node x [chain x n]

theorem inner_chain (x : Str) (n : Nat) : inner (chain x n) = n := by
  induction n with
  | zero => rfl
  | succ n ih => rw [chain, inner, innerL, innerL, ih]; simp; omega

theorem pre_chain (x : Str) (n : Nat) : ∀ y ∈ (chain x n).pre, y = x := by
  induction n with
  | zero => intro y hy; simpa [chain, Tree.pre, preL] using hy
  | succ n ih =>
    intro y hy
    simp only [chain, Tree.pre, preL, List.append_nil, List.mem_cons] at hy
    rcases hy with rfl | hy
    · rfl
    · exact ih y hy

/-- nested calls 400 deep, between services with names of 12 characters -/
example : render (diagram (toNode (chain "recursive-db".toList 401))) = .tooLong := by
  apply C96_too_long _ 12
  · intro x hx
    rw [pre_chain _ _ x hx]
    decide +kernel
  · rw [chain, Tree.children, innerL, innerL, inner_chain]
    decide

end Verif.Client.Mermaid
