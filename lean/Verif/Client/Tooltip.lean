import Verif.Common
import Mathlib.Tactic.Tauto
/-!
# C92: the texts in tooltips

`/repo/client/src/pages/dig/performance_insights/util/LoadTooltip.ts`,
`/repo/client/src/pages/suggest/{mysql,postgres}/ExplainAnalyzeChart.svelte`,
`/repo/client/src/pages/suggest/hasura/ExplainChart.svelte`.  A tooltip is a text that the chart library puts
into the page as HTML (`/repo/client/src/lib/GrChart.ts:51-52,61-70`).
-/
namespace Verif.Client.Tooltip

abbrev Str := List Char

/-! ## Model: the texts

A template literal is cut at its tags. -/

/-- a part of a template literal: text (with the values put in), a tag or comment without its angle brackets,
or `&nbsp;` -/
inductive Piece where
  | txt (s : Str)
  | mark (raw : Str)
  | nbsp

@[irreducible] def nbspText : Str := "&nbsp;".toList

def Piece.render : Piece → Str
  | .txt s => s
  | .mark raw => '<' :: raw ++ ['>']
  | .nbsp => nbspText

def render (ps : List Piece) : Str := ps.flatMap Piece.render

@[irreducible] def boxTag : Str := "div style='max-width: 500px; white-space: normal; max-height: 300px'".toList
@[irreducible] def brTag : Str := "br /".toList
@[irreducible] def marginTag : Str := "div style='margin-bottom: 10px;'".toList
@[irreducible] def boldTag : Str := "span style='font-weight: bold;'".toList
@[irreducible] def sqlTag : Str := "span style='white-space: break-spaces'".toList
@[irreducible] def spanEnd : Str := "/span".toList
@[irreducible] def divEnd : Str := "/div".toList
@[irreducible] def divTag : Str := "div".toList
@[irreducible] def ws : Str := "\n      ".toList
@[irreducible] def dbText : Str := "\n      Database: ".toList
@[irreducible] def avgText : Str := "\n        db.load.avg:".toList
@[irreducible] def sumText : Str := "\n        Sum of db.load.avg:".toList

/-- what the two tooltips of loads share -/
def loadTail (label dbName percent sql : Str) : List Piece :=
  [.txt (dbText ++ dbName), .mark brTag, .txt ws, .mark marginTag, .txt label, .nbsp, .txt ws, .mark boldTag,
   .txt (ws ++ (percent ++ '%' :: ws)), .mark spanEnd, .txt ws, .mark divEnd, .txt ws,
   .mark sqlTag, .txt sql, .mark spanEnd, .txt ws, .mark divEnd, .txt ws]

/-- `/repo/client/src/pages/dig/performance_insights/util/LoadTooltip.ts:8-25`; `date` is the text of
`toUTCString`, `percent` that of `toFixed(2)`; `maxHeight` is always 300.  White space is written the same
everywhere. -/
def loadMaxPieces (date dbName percent sql : Str) : List Piece :=
  [.txt ws, .mark boxTag, .txt (ws ++ date), .mark brTag] ++ loadTail avgText dbName percent sql
def loadMaxTooltip (date dbName percent sql : Str) : Str := render (loadMaxPieces date dbName percent sql)

/-- `/repo/client/src/pages/dig/performance_insights/util/LoadTooltip.ts:33-49` -/
def loadSumPieces (dbName percent sql : Str) : List Piece :=
  [.txt ws, .mark boxTag] ++ loadTail sumText dbName percent sql
def loadSumTooltip (dbName percent sql : Str) : Str := render (loadSumPieces dbName percent sql)

/-- white space of `String.prototype.trim` -/
def isWs (c : Char) : Bool := c == ' ' || c == '\n' || c == '\t' || c == '\r' || c == '\x0b' || c == '\x0c' || c.toNat == 0xa0

/-- `trim` -/
def trim (s : Str) : Str := ((s.dropWhile isWs).reverse.dropWhile isWs).reverse

/-- the text of a node in its tooltip, e.g. `mysql/ExplainAnalyzeChart.svelte:36-40`.  `length` and
`substring` count UTF-16 units; here characters. -/
def shortText (text : Str) : Str := if (trim text).length > 50 then (trim text).take 50 ++ ['.', '.', '.'] else (trim text).take 50

@[irreducible] def planBox : Str := "div style='text-align: left; padding: 5px'".toList
@[irreducible] def titleTag : Str := "div style='margin-bottom: 5px; font-weight: bold'".toList
@[irreducible] def tableTag : Str := "span style='font-weight: bold'".toList
@[irreducible] def tableText : Str := "Table:\n          ".toList

/-- one line of the tooltip -/
def row (s : Str) : List Piece := [.mark divTag, .txt s, .mark divEnd, .txt ws]

/-- the tooltip of a node of a plan, `mysql/ExplainAnalyzeChart.svelte:61-77`,
`postgres/ExplainAnalyzeChart.svelte:52-70`, `hasura/ExplainChart.svelte:49-61`; `rows` are the lines with
numbers. -/
def planPieces (text tableName : Str) (rows : List Str) : List Piece :=
  [.txt ws, .mark planBox, .txt ws, .mark titleTag, .txt (shortText text), .mark divEnd, .txt ws, .mark divTag] ++
  (if tableName ≠ [] then [.txt tableText, .mark tableTag, .txt tableName] else [.txt (tableText ++ ['-'])]) ++
  [.mark spanEnd, .txt ws, .mark divEnd, .txt ws] ++ rows.flatMap row ++ [.mark divEnd]
def planTooltip (text tableName : Str) (rows : List Str) : Str := render (planPieces text tableName rows)

/-! ### The lines with numbers -/

/-- numbers of JavaScript: the text, and whether it is zero (which counts as false) -/
structure Num (F : Type) where
  text : F → Str
  zero : F → Bool

/-- `${x}`, with `null` in it -/
def showNull {F : Type} (N : Num F) : Option F → Str
  | none => ['n', 'u', 'l', 'l']
  | some x => N.text x
/-- `${x ?? "-"}` -/
def showDash {F : Type} (N : Num F) : Option F → Str
  | none => ['-']
  | some x => N.text x
/-- `x ? … : …` -/
def truthy {F : Type} (N : Num F) : Option F → Bool
  | none => false
  | some x => !N.zero x

@[irreducible] def lInit : Str := "Initial cost (estimated) : ".toList
@[irreducible] def lCost : Str := "Cost (estimated) : ".toList
@[irreducible] def lRowsEst : Str := "Rows returned (estimated) : ".toList
@[irreducible] def lWidth : Str := "Width (estimated) : ".toList
@[irreducible] def lTime : Str := "Time (actual) :  ".toList
@[irreducible] def lTimeFirst : Str := "Time first row (actual) : ".toList
@[irreducible] def lTimeLoop : Str := "Time per loop (actual) : ".toList
@[irreducible] def lTimeAvg : Str := "Time (actual) : ".toList
@[irreducible] def lRows : Str := "Rows returned (actual) : ".toList
@[irreducible] def lLoops : Str := "Loop count (actual) : ".toList
@[irreducible] def tilde : Str := " ~ ".toList

/-- the numbers of a node -/
structure Numbers (F : Type) where
  initCost : Option F
  cost : Option F
  rowsEst : Option F
  width : Option F
  firstRow : Option F
  avg : Option F
  rows : Option F
  loops : Option F

/-- `postgres/ExplainAnalyzeChart.svelte:60-69` (the comment among them left out) -/
def pgRows {F : Type} (N : Num F) (d : Numbers F) : List Str :=
  [lInit ++ showNull N d.initCost, lCost ++ showNull N d.cost, lRowsEst ++ showNull N d.rowsEst,
   lWidth ++ showNull N d.width,
   lTime ++ (if truthy N d.firstRow then showNull N d.firstRow ++ (tilde ++ showNull N d.avg) else ['-']),
   lRows ++ showDash N d.rows, lLoops ++ showDash N d.loops]

/-- `hasura/ExplainChart.svelte:56-59` -/
def hasuraRows {F : Type} (N : Num F) (d : Numbers F) : List Str :=
  [lInit ++ showNull N d.initCost, lCost ++ showNull N d.cost, lRowsEst ++ showNull N d.rowsEst, lWidth ++ showNull N d.width]

/-- `mysql/ExplainAnalyzeChart.svelte:42-51,69-75`; `many` says that the loop count is above one.  A line
without initial cost is left out. -/
def mysqlRows {F : Type} (N : Num F) (many : Option F → Bool) (d : Numbers F) : List Str :=
  (if truthy N d.initCost then [lInit ++ showNull N d.initCost] else []) ++
  [lCost ++ showDash N d.cost, lRowsEst ++ showDash N d.rowsEst, lTimeFirst ++ showDash N d.firstRow,
   (if many d.loops then lTimeLoop else lTimeAvg) ++ showDash N d.avg,
   lRows ++ showDash N d.rows, lLoops ++ showDash N d.loops]

/-! ## The browser: reading HTML (HTML standard, 13.2.5: data, tag, attribute and comment states)

Elements whose content is not HTML (`script`, `textarea`, …) are not treated specially, and a comment ends at
its first `>`. -/

/-- what is read: a character of text, or a tag (or comment) -/
inductive Tok where
  | ch (c : Char)
  | mark (raw : Str)
deriving DecidableEq

/-- inside a tag: outside of values, after `=`, in single or double quotes -/
inductive Q where
  | plain | eq | sq | dq

/-- `none`: the tag ends -/
def nextQ : Q → Char → Option Q
  | .plain, c => if c = '>' then none else if c = '=' then some .eq else some .plain
  | .eq, c =>
    if c = '>' then none
    else if c = ' ' ∨ c = '\n' ∨ c = '\t' then some .eq
    else if c = '\'' then some .sq
    else if c = '"' then some .dq
    else some .plain
  | .sq, c => if c = '\'' then some .plain else some .sq
  | .dq, c => if c = '"' then some .plain else some .dq

/-- after `<`: a tag -/
def tagStart (c : Char) : Bool := c.isAlpha || c == '/'
/-- after `<`: a comment -/
def commentStart (c : Char) : Bool := c == '!' || c == '?'
/-- after `&`: a character reference -/
def refStart (c : Char) : Bool := c.isAlphanum || c == '#'

/-- the table of character references: for the text after `&`, the characters meant and the number of
characters used, less one -/
abbrev Refs := Str → Option (Str × Nat)

inductive St where
  | data
  | tag (q : Q) (acc : Str)
  | comment (acc : Str)
  | skip (n : Nat)

def tok (R : Refs) : St → Str → List Tok
  | _, [] => []
  | .data, c :: cs =>
    if c = '<' then
      match cs.head? with
      | none => [.ch '<']
      | some d =>
        if tagStart d then tok R (.tag .plain []) cs
        else if commentStart d then tok R (.comment []) cs
        else .ch '<' :: tok R .data cs
    else if c = '&' then
      match R cs with
      | none => .ch '&' :: tok R .data cs
      | some (out, n) => out.map .ch ++ tok R (.skip n) cs
    else .ch c :: tok R .data cs
  | .tag q acc, c :: cs =>
    match nextQ q c with
    | none => .mark acc.reverse :: tok R .data cs
    | some q' => tok R (.tag q' (c :: acc)) cs
  | .comment acc, c :: cs => if c = '>' then .mark acc.reverse :: tok R .data cs else tok R (.comment (c :: acc)) cs
  | .skip 0, _ :: cs => tok R .data cs
  | .skip (n + 1), _ :: cs => tok R (.skip n) cs

/-- the tags of a page -/
def marks (ts : List Tok) : List Str := ts.filterMap fun t => match t with | .mark r => some r | .ch _ => none

/-- the text -/
def chars (ts : List Tok) : Str := ts.filterMap fun t => match t with | .ch c => some c | .mark _ => none

/-- the text from the first tag `m` up to the next tag -/
def inside (m : Str) (ts : List Tok) : Str :=
  chars (((ts.dropWhile fun t => t ≠ .mark m).drop 1).takeWhile fun t => match t with | .ch _ => true | .mark _ => false)

/-! ## Specification -/

/-- the table knows `&nbsp;`, and references start with a letter, a digit or `#` -/
structure RefsOk (R : Refs) : Prop where
  nbsp : ∀ r, R (['n', 'b', 's', 'p', ';'] ++ r) = some ([Char.ofNat 0xa0], 4)
  none : ∀ s, (∀ c, s.head? = some c → refStart c = false) → R s = none

/-- two characters that a browser reads as text -/
def calm (c d : Char) : Bool :=
  !(c == '<' && (tagStart d || commentStart d)) && !(c == '&' && refStart d)

/-- no `<` directly before a letter, `/`, `!` or `?`; no `&` directly before a letter, a digit or `#` -/
def Harmless : Str → Prop
  | [] => True
  | [_] => True
  | c :: d :: s => calm c d = true ∧ Harmless (d :: s)

instance : ∀ s, Decidable (Harmless s)
  | [] => .isTrue trivial
  | [_] => .isTrue trivial
  | c :: d :: s => by
    unfold Harmless
    haveI := instDecidableHarmless (d :: s)
    infer_instance

/-- the inside of a tag: it starts with a letter or `/`, and no `>` ends it early -/
def runQ : Q → Str → Option Q
  | q, [] => some q
  | q, c :: cs => (nextQ q c).bind fun q' => runQ q' cs
def tagOk (raw : Str) : Bool :=
  (match raw with | c :: _ => tagStart c | [] => false) &&
  (match runQ .plain raw with | some .plain => true | some .eq => true | _ => false)

/-! ## Proofs: reading -/

theorem tok_txt (R : Refs) (hR : RefsOk R) : ∀ (s r : Str), Harmless s →
    (∀ c d, s.getLast? = some c → r.head? = some d → calm c d = true) →
    tok R .data (s ++ r) = s.map .ch ++ tok R .data r := by
  intro s
  induction s with
  | nil => intro r _ _; rfl
  | cons c s ih =>
    intro r hs hl
    have hrest : tok R .data (s ++ r) = s.map .ch ++ tok R .data r := by
      cases s with
      | nil => rfl
      | cons d s' =>
        exact ih r hs.2 fun x y hx hy => hl x y (by simpa using hx) hy
    have hnext : ∀ d, (s ++ r).head? = some d → calm c d = true := by
      intro d hd
      cases s with
      | nil => exact hl c d rfl (by simpa using hd)
      | cons d' s' =>
        simp only [List.cons_append, List.head?_cons, Option.some.injEq] at hd
        subst hd
        exact hs.1
    rw [List.cons_append, tok]
    by_cases h1 : c = '<'
    · subst h1
      rw [if_pos rfl]
      cases hd : (s ++ r).head? with
      | none =>
        have : s ++ r = [] := by simpa using hd
        have hs0 : s = [] := (List.append_eq_nil_iff.mp this).1
        have hr0 : r = [] := (List.append_eq_nil_iff.mp this).2
        subst hs0 hr0
        simp [tok]
      | some d =>
        have hc := hnext d hd
        have h2 : tagStart d = false ∧ commentStart d = false := by
          simp only [calm, beq_self_eq_true, Bool.true_and, Bool.and_eq_true, Bool.not_eq_true', Bool.or_eq_false_iff] at hc
          exact hc.1
        simp only [h2.1, h2.2, Bool.false_eq_true, if_false]
        rw [hrest]; rfl
    · rw [if_neg h1]
      by_cases h2 : c = '&'
      · subst h2
        rw [if_pos rfl, hR.none (s ++ r) (by
          intro d hd
          have hc := hnext d hd
          simp only [calm, beq_self_eq_true, Bool.true_and, Bool.and_eq_true, Bool.not_eq_true'] at hc
          exact hc.2)]
        simp only
        rw [hrest]; rfl
      · rw [if_neg h2, hrest]; rfl

theorem tok_tag (R : Refs) : ∀ (raw r : Str) (q : Q) (acc : Str),
    (runQ q raw = some .plain ∨ runQ q raw = some .eq) →
    tok R (.tag q acc) (raw ++ '>' :: r) = .mark (acc.reverse ++ raw) :: tok R .data r := by
  intro raw
  induction raw with
  | nil =>
    intro r q acc h
    rw [List.nil_append, tok, List.append_nil]
    rcases h with h | h <;> cases h <;> rfl
  | cons c raw ih =>
    intro r q acc h
    rw [List.cons_append, tok]
    cases hq : nextQ q c with
    | none => rw [runQ, hq] at h; simp at h
    | some q' =>
      simp only
      rw [ih r q' (c :: acc) (by rw [runQ, hq] at h; simpa using h)]
      simp

theorem tok_mark (R : Refs) (raw r : Str) (h : tagOk raw = true) :
    tok R .data ('<' :: (raw ++ '>' :: r)) = .mark raw :: tok R .data r := by
  unfold tagOk at h
  cases raw with
  | nil => simp at h
  | cons c raw =>
    rw [Bool.and_eq_true] at h
    have hq : runQ .plain (c :: raw) = some .plain ∨ runQ .plain (c :: raw) = some .eq := by
      have h2 := h.2
      split at h2
      · exact .inl (by assumption)
      · exact .inr (by assumption)
      · cases h2
    rw [tok, if_pos rfl, List.cons_append, List.head?_cons]
    simp only [show tagStart c = true from h.1, if_true]
    rw [← List.cons_append, tok_tag R _ r .plain [] hq]
    rfl

theorem nbsp_eq : nbspText = ['&', 'n', 'b', 's', 'p', ';'] := by decide +kernel

theorem tok_nbsp (R : Refs) (hR : RefsOk R) (r : Str) : tok R .data (nbspText ++ r) = .ch (Char.ofNat 0xa0) :: tok R .data r := by
  rw [nbsp_eq]
  simp only [List.cons_append, List.nil_append]
  rw [tok, if_neg (by decide), if_pos rfl, show ('n' :: 'b' :: 's' :: 'p' :: ';' :: r) = ['n', 'b', 's', 'p', ';'] ++ r from rfl,
    hR.nbsp]
  simp [tok]

/-- what a browser should make of a piece -/
def Piece.toks : Piece → List Tok
  | .txt s => s.map .ch
  | .mark raw => [.mark raw]
  | .nbsp => [.ch (Char.ofNat 0xa0)]

def Piece.Ok : Piece → Prop
  | .txt s => Harmless s
  | .mark raw => tagOk raw = true
  | .nbsp => True

def Piece.isTxt : Piece → Bool
  | .txt _ => true
  | _ => false

def headTxt : List Piece → Bool
  | p :: _ => p.isTxt
  | [] => false

/-- texts are separated by tags -/
def alt : List Piece → Bool
  | [] => true
  | p :: ps => !(p.isTxt && headTxt ps) && alt ps

theorem calm_lt (c : Char) : calm c '<' = true ∧ calm c '&' = true := by
  have h1 : tagStart '<' = false ∧ commentStart '<' = false ∧ refStart '<' = false := by decide
  have h2 : tagStart '&' = false ∧ commentStart '&' = false ∧ refStart '&' = false := by decide
  simp [calm, h1, h2]

theorem tok_render (R : Refs) (hR : RefsOk R) : ∀ ps : List Piece, (∀ p ∈ ps, p.Ok) → alt ps = true →
    tok R .data (render ps) = ps.flatMap Piece.toks := by
  intro ps
  induction ps with
  | nil => intro _ _; rfl
  | cons p ps ih =>
    intro hok halt
    rw [alt, Bool.and_eq_true] at halt
    have ih' := ih (fun q hq => hok q (List.mem_cons_of_mem _ hq)) halt.2
    have hp := hok p List.mem_cons_self
    show tok R .data (p.render ++ render ps) = p.toks ++ ps.flatMap Piece.toks
    rw [← ih']
    cases p with
    | txt s =>
      refine tok_txt R hR s (render ps) hp fun c d _ hd => ?_
      cases ps with
      | nil => simp [render] at hd
      | cons q qs =>
        cases q with
        | txt t => simp [Piece.isTxt, headTxt] at halt
        | mark raw =>
          simp [render, Piece.render] at hd
          subst hd
          exact (calm_lt c).1
        | nbsp =>
          simp [render, Piece.render, nbsp_eq] at hd
          subst hd
          exact (calm_lt c).2
    | mark raw =>
      have := tok_mark R raw (render ps) hp
      simpa [Piece.render, Piece.toks] using this
    | nbsp => exact tok_nbsp R hR (render ps)

theorem marks_toks (ps : List Piece) : marks (ps.flatMap Piece.toks) =
    ps.filterMap fun p => match p with | .mark r => some r | _ => none := by
  induction ps with
  | nil => rfl
  | cons p ps ih =>
    rw [List.flatMap_cons]
    unfold marks at ih ⊢
    rw [List.filterMap_append, ih, List.filterMap_cons]
    cases p with
    | txt s =>
      have : (s.map Tok.ch).filterMap (fun t => match t with | .mark r => some r | .ch _ => none) = [] := by
        simp [List.filterMap_eq_nil_iff]
      simp [Piece.toks]
    | mark r => simp [Piece.toks]
    | nbsp => simp [Piece.toks]

theorem chars_map (s : Str) : chars (s.map .ch) = s := by
  unfold chars
  induction s with
  | nil => rfl
  | cons c s ih => simpa using ih

theorem inside_toks (m s n : Str) (a b : List Piece) (ha : ∀ p ∈ a, p ≠ .mark m) :
    inside m ((a ++ .mark m :: .txt s :: .mark n :: b).flatMap Piece.toks) = s := by
  unfold inside
  have h1 : ((a ++ .mark m :: .txt s :: .mark n :: b).flatMap Piece.toks).dropWhile (fun t => t ≠ .mark m) =
      .mark m :: (s.map .ch ++ .mark n :: b.flatMap Piece.toks) := by
    rw [List.flatMap_append, List.dropWhile_append_of_pos]
    · simp [Piece.toks]
    · intro t ht
      obtain ⟨p, hp, htp⟩ := List.mem_flatMap.mp ht
      have := ha p hp
      cases p with
      | txt u =>
        obtain ⟨c, _, rfl⟩ := List.mem_map.mp htp
        simp
      | mark r =>
        simp only [Piece.toks, List.mem_singleton] at htp
        subst htp
        simpa using this
      | nbsp =>
        simp only [Piece.toks, List.mem_singleton] at htp
        subst htp
        simp
  rw [h1, List.drop_succ_cons, List.drop_zero, List.takeWhile_append_of_pos (by
    intro t ht
    obtain ⟨c, _, rfl⟩ := List.mem_map.mp ht
    rfl)]
  rw [List.takeWhile_cons_of_neg (by simp), List.append_nil, chars_map]

/-- every text is shown -/
theorem chars_shown (ps : List Piece) (s : Str) (h : Piece.txt s ∈ ps) : s <:+: chars (ps.flatMap Piece.toks) := by
  obtain ⟨a, b, rfl⟩ := List.append_of_mem h
  refine ⟨chars (a.flatMap Piece.toks), chars (b.flatMap Piece.toks), ?_⟩
  rw [List.flatMap_append, List.flatMap_cons]
  have e : chars (Piece.txt s).toks = s := chars_map s
  have h2 : ∀ x y, chars (x ++ y) = chars x ++ chars y := fun x y => List.filterMap_append
  rw [h2, h2, e, List.append_assoc]

theorem infix_of_append (a s b t : Str) (h : a ++ (s ++ b) <:+: t) : s <:+: t := by
  obtain ⟨x, y, e⟩ := h
  exact ⟨x ++ a, b ++ y, by rw [← e]; simp⟩

/-! ## Proofs: harmless texts -/

theorem harmless_append : ∀ (a b : Str), Harmless a → Harmless b →
    (∀ c d, a.getLast? = some c → b.head? = some d → calm c d = true) → Harmless (a ++ b)
  | [], b, _, hb, _ => hb
  | [c], [], _, _, _ => trivial
  | [c], d :: b, _, hb, h => ⟨h c d rfl rfl, hb⟩
  | c :: d :: a, b, ha, hb, h => ⟨ha.1, harmless_append (d :: a) b ha.2 hb fun x y hx hy => h x y (by simpa using hx) hy⟩

theorem harmless_right : ∀ (a b : Str), Harmless (a ++ b) → Harmless b
  | [], _, h => h
  | [c], [], _ => trivial
  | [c], d :: b, h => h.2
  | c :: d :: a, b, h => harmless_right (d :: a) b h.2

theorem harmless_left : ∀ (a b : Str), Harmless (a ++ b) → Harmless a
  | [], _, _ => trivial
  | [c], _, _ => trivial
  | c :: d :: a, b, h => ⟨h.1, harmless_left (d :: a) b h.2⟩

theorem calm_of {c : Char} (h1 : c ≠ '<') (h2 : c ≠ '&') (d : Char) : calm c d = true := by
  simp [calm, h1, h2]

/-- after a literal that ends with another character anything may follow -/
theorem harmless_lit (a b : Str) (ha : Harmless a) (hl : a.getLast? ≠ some '<' ∧ a.getLast? ≠ some '&') (hb : Harmless b) :
    Harmless (a ++ b) := by
  refine harmless_append a b ha hb fun c d hc _ => calm_of ?_ ?_ d
  · rintro rfl; exact hl.1 hc
  · rintro rfl; exact hl.2 hc

theorem dropWhile_split (p : Char → Bool) (s : Str) : ∃ a, s = a ++ s.dropWhile p :=
  ⟨s.takeWhile p, (List.takeWhile_append_dropWhile).symm⟩

theorem harmless_trim (s : Str) (h : Harmless s) : Harmless (trim s) := by
  unfold trim
  obtain ⟨a, ha⟩ := dropWhile_split isWs s
  rw [ha] at h
  have h1 := harmless_right _ _ h
  generalize s.dropWhile isWs = t at h1
  obtain ⟨b, hb⟩ := dropWhile_split isWs t.reverse
  have : t = (t.reverse.dropWhile isWs).reverse ++ b.reverse := by
    have := congrArg List.reverse hb
    rw [List.reverse_reverse, List.reverse_append] at this
    exact this
  rw [this] at h1
  exact harmless_left _ _ h1

theorem harmless_short (s : Str) (h : Harmless s) : Harmless (shortText s) := by
  have h1 := harmless_trim s h
  unfold shortText
  generalize trim s = t at h1
  have h2 : Harmless (t.take 50) := harmless_left _ (t.drop 50) (by rwa [List.take_append_drop])
  split
  · refine harmless_append _ _ h2 (by decide) fun c d _ hd => ?_
    simp only [List.head?_cons, Option.some.injEq] at hd
    subst hd
    have : tagStart '.' = false ∧ commentStart '.' = false ∧ refStart '.' = false := by decide
    simp [calm, this]
  · exact h2

theorem tags_ok : ∀ t ∈ [boxTag, brTag, marginTag, boldTag, sqlTag, spanEnd, divEnd, divTag, planBox, titleTag, tableTag],
    tagOk t = true := by decide +kernel

theorem tags_distinct : [boxTag, brTag, marginTag, boldTag, sqlTag, spanEnd, divEnd, divTag, planBox, titleTag, tableTag].Nodup := by
  decide +kernel

theorem lits_ok : ∀ t ∈ [ws, dbText, avgText, sumText, tableText], Harmless t ∧ t.getLast? ≠ some '<' ∧ t.getLast? ≠ some '&' := by
  decide +kernel

theorem harmless_percent (p : Str) (h : Harmless p) : Harmless (ws ++ (p ++ '%' :: ws)) := by
  have hw := lits_ok ws (by simp)
  refine harmless_lit _ _ hw.1 hw.2 (harmless_append _ _ h (by decide +kernel) fun c d _ hd => ?_)
  simp only [List.head?_cons, Option.some.injEq] at hd
  subst hd
  have : tagStart '%' = false ∧ commentStart '%' = false ∧ refStart '%' = false := by decide
  simp [calm, this]

/-! ## C92: loads -/

/-- a number with its label before it, only white space between them -/
def Labelled (label value shown : Str) : Prop := ∃ gap, (∀ c ∈ gap, isWs c = true) ∧ label ++ (gap ++ value) <:+: shown

theorem label_texts : ws ++ "Database: ".toList = dbText ∧ (ws ++ [' ', ' ']) ++ "db.load.avg:".toList = avgText ∧
    (ws ++ [' ', ' ']) ++ "Sum of db.load.avg:".toList = sumText := by decide +kernel

/-- the pieces of a tooltip of loads with other pieces in place of the query -/
def loadMid (label dbName percent : Str) (mid : List Piece) : List Piece :=
  [.txt (dbText ++ dbName), .mark brTag, .txt ws, .mark marginTag, .txt label, .nbsp, .txt ws, .mark boldTag,
   .txt (ws ++ (percent ++ '%' :: ws)), .mark spanEnd, .txt ws, .mark divEnd, .txt ws, .mark sqlTag] ++
   (mid ++ [.mark spanEnd, .txt ws, .mark divEnd, .txt ws])

def frontMax (date : Str) : List Piece := [.txt ws, .mark boxTag, .txt (ws ++ date), .mark brTag]
def frontSum : List Piece := [.txt ws, .mark boxTag]

theorem loadMid_ok (label db pct : Str) (mid : List Piece) (hl : label ∈ [avgText, sumText]) (hd : Harmless db)
    (hp : Harmless pct) (hm : ∀ p ∈ mid, p.Ok) : ∀ p ∈ loadMid label db pct mid, p.Ok := by
  have hlit : ∀ t ∈ [ws, dbText, avgText, sumText, tableText], Harmless t := fun t ht => (lits_ok t ht).1
  have hdb := lits_ok dbText (by simp)
  have hlab : Harmless label := hlit label (by simp only [List.mem_cons] at hl ⊢; tauto)
  unfold loadMid
  intro p hpm
  simp only [List.mem_append, List.mem_cons, List.not_mem_nil, or_false] at hpm
  rcases hpm with (rfl | rfl | rfl | rfl | rfl | rfl | rfl | rfl | rfl | rfl | rfl | rfl | rfl | rfl) |
    (hpm | rfl | rfl | rfl | rfl)
  case inr.inl => exact hm p hpm
  all_goals first
    | exact harmless_lit _ _ hdb.1 hdb.2 hd
    | exact harmless_percent pct hp
    | exact hlab
    | exact trivial
    | exact hlit ws (by simp)
    | exact tags_ok _ (by simp)

theorem frontMax_ok (date : Str) (h : Harmless date) : ∀ p ∈ frontMax date, p.Ok := by
  have hw := lits_ok ws (by simp)
  unfold frontMax
  intro p hpm
  simp only [List.mem_cons, List.not_mem_nil, or_false] at hpm
  rcases hpm with rfl | rfl | rfl | rfl
  · exact hw.1
  · exact tags_ok _ (by simp)
  · exact harmless_lit _ _ hw.1 hw.2 h
  · exact tags_ok _ (by simp)

theorem frontSum_ok : ∀ p ∈ frontSum, p.Ok := by
  have hw := lits_ok ws (by simp)
  unfold frontSum
  intro p hpm
  simp only [List.mem_cons, List.not_mem_nil, or_false] at hpm
  rcases hpm with rfl | rfl
  · exact hw.1
  · exact tags_ok _ (by simp)

/-- the tags of a tooltip of loads, with others inside the query -/
def loadMarks (extra : List Str) : List Str := [brTag, marginTag, boldTag, spanEnd, divEnd, sqlTag] ++ extra ++ [spanEnd, divEnd]

/-- reading the common part after `front` -/
theorem load_read (R : Refs) (hR : RefsOk R) (front : List Piece) (hf : ∀ p ∈ front, p.Ok)
    (hm : front.any (fun p => match p with | .mark r => r == sqlTag | _ => false) = false)
    (label db pct : Str) (hl : label ∈ [avgText, sumText]) (hd : Harmless db) (hp : Harmless pct) (s n : Str) (mid : List Piece)
    (hmid : ∀ p ∈ Piece.txt s :: mid, p.Ok)
    (ht : ∃ rest, mid ++ [.mark spanEnd, .txt ws, .mark divEnd, .txt ws] = .mark n :: rest)
    (halt : alt (front ++ loadMid label db pct (.txt s :: mid)) = true) :
    marks (tok R .data (render (front ++ loadMid label db pct (.txt s :: mid)))) =
      (front.filterMap fun p => match p with | .mark r => some r | _ => none) ++
        loadMarks (mid.filterMap fun p => match p with | .mark r => some r | _ => none) ∧
    inside sqlTag (tok R .data (render (front ++ loadMid label db pct (.txt s :: mid)))) = s ∧
    "Database: ".toList ++ db <:+: chars (tok R .data (render (front ++ loadMid label db pct (.txt s :: mid)))) ∧
    ∀ a l, a ++ l = label →
      Labelled l (pct ++ ['%']) (chars (tok R .data (render (front ++ loadMid label db pct (.txt s :: mid))))) := by
  have hok : ∀ p ∈ front ++ loadMid label db pct (.txt s :: mid), p.Ok := by
    intro p h
    rcases List.mem_append.mp h with h | h
    · exact hf p h
    · exact loadMid_ok label db pct _ hl hd hp hmid p h
  rw [tok_render R hR _ hok halt]
  refine ⟨?_, ?_, ?_, ?_⟩
  · rw [marks_toks, List.filterMap_append]
    congr 1
    simp [loadMid, loadMarks, List.filterMap_cons]
  rotate_left
  · refine infix_of_append ws ("Database: ".toList ++ db) [] _ ?_
    rw [List.append_nil, ← List.append_assoc, label_texts.1]
    exact chars_shown _ _ (by simp [loadMid])
  · intro a l hal
    refine ⟨Char.ofNat 0xa0 :: (ws ++ ws), by decide +kernel, ?_⟩
    have hc : ∀ x y, chars (x ++ y) = chars x ++ chars y := fun x y => List.filterMap_append
    refine infix_of_append a _ ws _ ?_
    refine ⟨chars ((front ++ [Piece.txt (dbText ++ db), .mark brTag, .txt ws, .mark marginTag]).flatMap Piece.toks),
      chars (([Piece.mark spanEnd, .txt ws, .mark divEnd, .txt ws, .mark sqlTag] ++ (Piece.txt s :: mid) ++
        [Piece.mark spanEnd, .txt ws, .mark divEnd, .txt ws]).flatMap Piece.toks), ?_⟩
    have e : front ++ loadMid label db pct (.txt s :: mid) =
        (front ++ [.txt (dbText ++ db), .mark brTag, .txt ws, .mark marginTag]) ++
        ([.txt label, .nbsp, .txt ws, .mark boldTag, .txt (ws ++ (pct ++ '%' :: ws))] ++
        ([Piece.mark spanEnd, .txt ws, .mark divEnd, .txt ws, .mark sqlTag] ++ (Piece.txt s :: mid) ++
        [Piece.mark spanEnd, .txt ws, .mark divEnd, .txt ws])) := by simp [loadMid]
    have e2 : chars ([Piece.txt label, .nbsp, .txt ws, .mark boldTag, .txt (ws ++ (pct ++ '%' :: ws))].flatMap Piece.toks) =
        label ++ (Char.ofNat 0xa0 :: (ws ++ (ws ++ (pct ++ '%' :: ws)))) := by
      have ht : ∀ x, chars (Piece.txt x).toks = x := fun x => chars_map x
      have hm : ∀ x, chars (Piece.mark x).toks = [] := fun x => rfl
      have hn : chars Piece.nbsp.toks = [Char.ofNat 0xa0] := rfl
      simp only [List.flatMap_cons, List.flatMap_nil, hc, ht, hm, hn]
      simp [chars]
    have hf : ∀ x y : List Piece, (x ++ y).flatMap Piece.toks = x.flatMap Piece.toks ++ y.flatMap Piece.toks :=
      fun x y => List.flatMap_append
    have e3 := congrArg (fun x => chars (x.flatMap Piece.toks)) e
    refine Eq.trans ?_ e3.symm
    rw [hf _ ([Piece.txt label, .nbsp, .txt ws, .mark boldTag, .txt (ws ++ (pct ++ '%' :: ws))] ++ _),
      hf [Piece.txt label, .nbsp, .txt ws, .mark boldTag, .txt (ws ++ (pct ++ '%' :: ws))] _,
      hc _ (_ ++ _), hc (List.flatMap Piece.toks [Piece.txt label, .nbsp, .txt ws, .mark boldTag, .txt (ws ++ (pct ++ '%' :: ws))]),
      e2, ← hal]
    simp only [List.append_assoc, List.cons_append, List.nil_append]
  · obtain ⟨rest, hrest⟩ := ht
    have hd := tags_distinct
    have hlen : front ++ loadMid label db pct (.txt s :: mid) =
        (front ++ [.txt (dbText ++ db), .mark brTag, .txt ws, .mark marginTag, .txt label, .nbsp, .txt ws, .mark boldTag,
          .txt (ws ++ (pct ++ '%' :: ws)), .mark spanEnd, .txt ws, .mark divEnd, .txt ws]) ++
          .mark sqlTag :: .txt s :: .mark n :: rest := by
      unfold loadMid
      rw [show (Piece.txt s :: mid) ++ [.mark spanEnd, .txt ws, .mark divEnd, .txt ws] =
        .txt s :: (mid ++ [.mark spanEnd, .txt ws, .mark divEnd, .txt ws]) from rfl, hrest]
      simp
    rw [hlen]
    refine inside_toks sqlTag s n _ _ fun p hpm => ?_
    rcases List.mem_append.mp hpm with h | h
    · rintro rfl
      rw [List.any_eq_false] at hm
      have := hm _ h
      simp at this
    · simp only [List.nodup_cons, List.mem_cons, not_or] at hd
      simp only [List.mem_cons, List.not_mem_nil, or_false] at h
      rcases h with rfl | rfl | rfl | rfl | rfl | rfl | rfl | rfl | rfl | rfl | rfl | rfl | rfl <;>
        simp only [ne_eq, Piece.mark.injEq, reduceCtorEq, not_false_eq_true] <;> tauto

theorem frontMax_sql (date : Str) : (frontMax date).any (fun p => match p with | .mark r => r == sqlTag | _ => false) = false := by
  have : (boxTag == sqlTag) = false ∧ (brTag == sqlTag) = false := by decide +kernel
  simp only [frontMax, List.any_cons, List.any_nil, this.1, this.2, Bool.or_false]

theorem frontSum_sql : frontSum.any (fun p => match p with | .mark r => r == sqlTag | _ => false) = false := by
  have : (boxTag == sqlTag) = false := by decide +kernel
  simp only [frontSum, List.any_cons, List.any_nil, this, Bool.or_false]

/-- C92, loads: for texts without markup the tooltip has only the tags of its template, and shows the query
character by character, and the database and the load after their labels.
Missing: queries with `<` before a letter, `/`, `!` or `?` or with a character reference
(`C92_load_markup`). -/
theorem C92_load_partial (R : Refs) (hR : RefsOk R) (date db pct sql : Str) (hdt : Harmless date) (hd : Harmless db)
    (hp : Harmless pct) (hs : Harmless sql) :
    (marks (tok R .data (loadMaxTooltip date db pct sql)) = boxTag :: brTag :: loadMarks [] ∧
      inside sqlTag (tok R .data (loadMaxTooltip date db pct sql)) = sql ∧
      date <:+: chars (tok R .data (loadMaxTooltip date db pct sql)) ∧
      "Database: ".toList ++ db <:+: chars (tok R .data (loadMaxTooltip date db pct sql)) ∧
      Labelled "db.load.avg:".toList (pct ++ ['%']) (chars (tok R .data (loadMaxTooltip date db pct sql)))) ∧
    (marks (tok R .data (loadSumTooltip db pct sql)) = boxTag :: loadMarks [] ∧
      inside sqlTag (tok R .data (loadSumTooltip db pct sql)) = sql ∧
      "Database: ".toList ++ db <:+: chars (tok R .data (loadSumTooltip db pct sql)) ∧
      Labelled "Sum of db.load.avg:".toList (pct ++ ['%']) (chars (tok R .data (loadSumTooltip db pct sql)))) := by
  have hmid : ∀ p ∈ Piece.txt sql :: [], p.Ok := by
    intro p h; simp only [List.mem_singleton] at h; subst h; exact hs
  have h1 := load_read R hR (frontMax date) (frontMax_ok date hdt) (frontMax_sql date) avgText db pct (by simp) hd hp sql
    spanEnd [] hmid ⟨_, rfl⟩ rfl
  have h2 := load_read R hR frontSum frontSum_ok frontSum_sql sumText db pct (by simp) hd hp sql spanEnd []
    hmid ⟨_, rfl⟩ rfl
  have hdate : date <:+: chars (tok R .data (loadMaxTooltip date db pct sql)) := by
    have hok : ∀ p ∈ frontMax date ++ loadMid avgText db pct [.txt sql], p.Ok := by
      intro p h
      rcases List.mem_append.mp h with h | h
      · exact frontMax_ok date hdt p h
      · exact loadMid_ok avgText db pct _ (by simp) hd hp hmid p h
    show date <:+: chars (tok R .data (render (frontMax date ++ loadMid avgText db pct [.txt sql])))
    rw [tok_render R hR _ hok rfl]
    refine infix_of_append ws date [] _ ?_
    rw [List.append_nil]
    exact chars_shown _ _ (by simp [frontMax])
  exact ⟨⟨h1.1, h1.2.1, hdate, h1.2.2.1, h1.2.2.2 _ _ label_texts.2.1⟩, h2.1, h2.2.1, h2.2.2.1, h2.2.2.2 _ _ label_texts.2.2⟩

/-- a text with a tag in it -/
def tagged (pre raw post : Str) : Str := pre ++ '<' :: raw ++ '>' :: post

/-- C92, loads, negation: a tag in the query becomes a tag of the page (with its attributes, so with its event
handlers), and the text shown breaks off before it. -/
theorem C92_load_markup (R : Refs) (hR : RefsOk R) (date db pct pre raw post : Str) (hdt : Harmless date) (hd : Harmless db)
    (hp : Harmless pct) (h1 : Harmless pre) (h2 : tagOk raw = true) (h3 : Harmless post) :
    (marks (tok R .data (loadMaxTooltip date db pct (tagged pre raw post))) = boxTag :: brTag :: loadMarks [raw] ∧
      inside sqlTag (tok R .data (loadMaxTooltip date db pct (tagged pre raw post))) = pre) ∧
    (marks (tok R .data (loadSumTooltip db pct (tagged pre raw post))) = boxTag :: loadMarks [raw] ∧
      inside sqlTag (tok R .data (loadSumTooltip db pct (tagged pre raw post))) = pre) := by
  have hmid : ∀ p ∈ Piece.txt pre :: [.mark raw, .txt post], p.Ok := by
    intro p h
    simp only [List.mem_cons, List.not_mem_nil, or_false] at h
    rcases h with rfl | rfl | rfl
    · exact h1
    · exact h2
    · exact h3
  have e1 : loadMaxTooltip date db pct (tagged pre raw post) =
      render (frontMax date ++ loadMid avgText db pct (.txt pre :: [.mark raw, .txt post])) := by
    simp [loadMaxTooltip, loadMaxPieces, loadTail, frontMax, loadMid, render, Piece.render, tagged]
  have e2 : loadSumTooltip db pct (tagged pre raw post) =
      render (frontSum ++ loadMid sumText db pct (.txt pre :: [.mark raw, .txt post])) := by
    simp [loadSumTooltip, loadSumPieces, loadTail, frontSum, loadMid, render, Piece.render, tagged]
  rw [e1, e2]
  have h1 := load_read R hR (frontMax date) (frontMax_ok date hdt) (frontMax_sql date) avgText db pct (by simp) hd hp pre raw
    [.mark raw, .txt post] hmid ⟨_, rfl⟩ rfl
  have h2 := load_read R hR frontSum frontSum_ok frontSum_sql sumText db pct (by simp) hd hp pre raw
    [.mark raw, .txt post] hmid ⟨_, rfl⟩ rfl
  exact ⟨⟨h1.1, h1.2.1⟩, h2.1, h2.2.1⟩

/-! ## C92: plans -/

/-- the pieces of a tooltip of a plan, with other pieces for the title and the table -/
def planMid (title table : List Piece) (rows : List Str) : List Piece :=
  [.txt ws, .mark planBox, .txt ws, .mark titleTag] ++ (title ++ ([.mark divEnd, .txt ws, .mark divTag] ++ (table ++
  ([.mark spanEnd, .txt ws, .mark divEnd, .txt ws] ++ (rows.flatMap row ++ [.mark divEnd])))))

/-- the pieces of the table -/
def tablePieces (mid : List Piece) : List Piece := [.txt tableText, .mark tableTag] ++ mid

theorem planMid_ok (title table : List Piece) (rows : List Str) (h1 : ∀ p ∈ title, p.Ok) (h2 : ∀ p ∈ table, p.Ok)
    (h3 : ∀ r ∈ rows, Harmless r) : ∀ p ∈ planMid title table rows, p.Ok := by
  have hw : Harmless ws := (lits_ok ws (by simp)).1
  intro p hp
  unfold planMid at hp
  simp only [List.mem_append, List.mem_cons, List.not_mem_nil, or_false, List.mem_flatMap, row] at hp
  rcases hp with (rfl | rfl | rfl | rfl) | hp | (rfl | rfl | rfl) | hp | (rfl | rfl | rfl | rfl) | ⟨r, hr, rfl | rfl | rfl | rfl⟩ | rfl
  case inr.inl => exact h1 p hp
  case inr.inr.inr.inl => exact h2 p hp
  all_goals first
    | exact hw
    | exact tags_ok _ (by simp)
    | exact h3 r hr

theorem alt_rows (rows : List Str) : alt (rows.flatMap row ++ [.mark divEnd]) = true ∧
    headTxt (rows.flatMap row ++ [.mark divEnd]) = false := by
  induction rows with
  | nil => exact ⟨rfl, rfl⟩
  | cons r rows ih =>
    rw [List.flatMap_cons, List.append_assoc]
    generalize rows.flatMap row ++ [.mark divEnd] = t at ih
    refine ⟨?_, rfl⟩
    have e : headTxt t = false := ih.2
    cases t with
    | nil => rfl
    | cons p t =>
      cases p with
      | txt s => cases e
      | _ => simpa [row, alt, headTxt, Piece.isTxt] using ih.1

/-- the tags of a tooltip of a plan -/
def planMarks (inTitle table : List Str) (rows : Nat) : List Str :=
  [planBox, titleTag] ++ inTitle ++ [divEnd, divTag] ++ table ++ [spanEnd, divEnd] ++
    (List.replicate rows [divTag, divEnd]).flatten ++ [divEnd]

theorem marks_rows (rows : List Str) : ((rows.flatMap row).filterMap fun p => match p with | .mark r => some r | _ => none) =
    (List.replicate rows.length [divTag, divEnd]).flatten := by
  induction rows with
  | nil => rfl
  | cons r rows ih =>
    rw [List.flatMap_cons, List.filterMap_append, ih, List.length_cons, List.replicate_succ, List.flatten_cons]
    rfl

theorem plan_marks (R : Refs) (hR : RefsOk R) (title table : List Piece) (rows : List Str) (h1 : ∀ p ∈ title, p.Ok)
    (h2 : ∀ p ∈ table, p.Ok) (h3 : ∀ r ∈ rows, Harmless r) (halt : alt (planMid title table rows) = true) :
    tok R .data (render (planMid title table rows)) = (planMid title table rows).flatMap Piece.toks ∧
    marks (tok R .data (render (planMid title table rows))) =
      planMarks (title.filterMap fun p => match p with | .mark r => some r | _ => none)
        (table.filterMap fun p => match p with | .mark r => some r | _ => none) rows.length := by
  have h := tok_render R hR _ (planMid_ok title table rows h1 h2 h3) halt
  refine ⟨h, ?_⟩
  rw [h, marks_toks]
  simp only [planMid, planMarks, List.filterMap_append, marks_rows, List.append_assoc]
  simp

theorem plan_title (s n : Str) (mid table : List Piece) (rows : List Str)
    (ht : ∃ rest, mid ++ [.mark divEnd, .txt ws, .mark divTag] = .mark n :: rest) :
    inside titleTag ((planMid (.txt s :: mid) table rows).flatMap Piece.toks) = s := by
  obtain ⟨rest, hrest⟩ := ht
  have hd := tags_distinct
  have : planMid (.txt s :: mid) table rows = [.txt ws, .mark planBox, .txt ws] ++ .mark titleTag :: .txt s :: .mark n ::
      (rest ++ (table ++ ([.mark spanEnd, .txt ws, .mark divEnd, .txt ws] ++ (rows.flatMap row ++ [.mark divEnd])))) := by
    have := congrArg (fun l => l ++ (table ++ ([.mark spanEnd, .txt ws, .mark divEnd, .txt ws] ++
      (rows.flatMap row ++ [.mark divEnd])))) hrest
    simp only [List.append_assoc, List.cons_append] at this
    unfold planMid
    simp only [List.cons_append, List.nil_append] at this ⊢
    rw [this]
  rw [this]
  refine inside_toks titleTag s n _ _ fun p hp => ?_
  simp only [List.nodup_cons, List.mem_cons, not_or] at hd
  simp only [List.mem_cons, List.not_mem_nil, or_false] at hp
  rcases hp with rfl | rfl | rfl <;> simp only [ne_eq, Piece.mark.injEq, reduceCtorEq, not_false_eq_true] <;> tauto

theorem plan_table (s n : Str) (title mid : List Piece) (rows : List Str) (htt : ∀ p ∈ title, p ≠ .mark tableTag)
    (ht : ∃ rest, mid ++ [.mark spanEnd, .txt ws, .mark divEnd, .txt ws] = .mark n :: rest) :
    inside tableTag ((planMid title (tablePieces (.txt s :: mid)) rows).flatMap Piece.toks) = s := by
  obtain ⟨rest, hrest⟩ := ht
  have hd := tags_distinct
  have : planMid title (tablePieces (.txt s :: mid)) rows =
      ([.txt ws, .mark planBox, .txt ws, .mark titleTag] ++ (title ++ [.mark divEnd, .txt ws, .mark divTag, .txt tableText])) ++
      .mark tableTag :: .txt s :: .mark n :: (rest ++ (rows.flatMap row ++ [.mark divEnd])) := by
    have := congrArg (fun l => l ++ (rows.flatMap row ++ [.mark divEnd])) hrest
    simp only [List.append_assoc, List.cons_append] at this
    unfold planMid tablePieces
    simp only [List.cons_append, List.nil_append, List.append_assoc] at this ⊢
    rw [this]
  rw [this]
  refine inside_toks tableTag s n _ _ fun p hp => ?_
  simp only [List.nodup_cons, List.mem_cons, not_or] at hd
  simp only [List.mem_append, List.mem_cons, List.not_mem_nil, or_false] at hp
  rcases hp with (rfl | rfl | rfl | rfl) | hp | rfl | rfl | rfl | rfl
  case inr.inl => exact htt p hp
  all_goals simp only [ne_eq, Piece.mark.injEq, reduceCtorEq, not_false_eq_true] <;> tauto

/-- the table in the tooltip -/
def tableOf (tableName : Str) : List Piece :=
  if tableName ≠ [] then tablePieces [.txt tableName] else [.txt (tableText ++ ['-'])]

theorem planPieces_eq (text tableName : Str) (rows : List Str) :
    planPieces text tableName rows = planMid [.txt (shortText text)] (tableOf tableName) rows := by
  unfold planPieces planMid tableOf tablePieces
  split <;> simp

theorem alt_plan (title table : List Piece) (rows : List Str)
    (h : alt ([.txt ws, .mark planBox, .txt ws, .mark titleTag] ++ (title ++ ([.mark divEnd, .txt ws, .mark divTag] ++ (table ++
      [.mark spanEnd, .txt ws, .mark divEnd, .txt ws])))) = true) : alt (planMid title table rows) = true := by
  have key : ∀ (a b : List Piece), alt a = true → alt b = true → headTxt b = false → alt (a ++ b) = true := by
    intro a b ha hb hh
    induction a with
    | nil => exact hb
    | cons p a ih =>
      rw [alt, Bool.and_eq_true] at ha
      rw [List.cons_append, alt, Bool.and_eq_true]
      refine ⟨?_, ih ha.2⟩
      cases a with
      | nil => simp [hh]
      | cons q a => simpa [headTxt] using ha.1
  have := key _ _ h (alt_rows rows).1 (alt_rows rows).2
  unfold planMid
  simpa using this

theorem tableOf_ok (t : Str) (h : Harmless t) : ∀ p ∈ tableOf t, p.Ok := by
  have hl := lits_ok tableText (by simp)
  intro p hp
  unfold tableOf tablePieces at hp
  split at hp
  · simp only [List.mem_append, List.mem_cons, List.not_mem_nil, or_false] at hp
    rcases hp with (rfl | rfl) | rfl
    · exact hl.1
    · exact tags_ok _ (by simp)
    · exact h
  · simp only [List.mem_singleton] at hp
    subst hp
    exact harmless_lit _ _ hl.1 hl.2 (by decide)

/-- a text without spaces at its ends, cut after 50 characters and marked as cut -/
def Cut (text shown : Str) : Prop :=
  ∃ pre body post kept rest, text = pre ++ body ++ post ∧ (∀ c ∈ pre, isWs c = true) ∧ (∀ c ∈ post, isWs c = true) ∧
    (∀ c, body.head? = some c → isWs c = false) ∧ body = kept ++ rest ∧
    ((rest = [] ∧ kept.length ≤ 50 ∧ shown = kept) ∨ (rest ≠ [] ∧ kept.length = 50 ∧ shown = kept ++ ['.', '.', '.']))

theorem takeWhile_ws (s : Str) : ∀ c ∈ s.takeWhile isWs, isWs c = true := by
  induction s with
  | nil => simp
  | cons a s ih =>
    intro c hc
    rw [List.takeWhile_cons] at hc
    split at hc
    · rename_i h
      rcases List.mem_cons.mp hc with rfl | hc
      · exact h
      · exact ih c hc
    · cases hc

theorem head_dropWhile (s : Str) (c : Char) (h : (s.dropWhile isWs).head? = some c) : isWs c = false := by
  induction s with
  | nil => simp at h
  | cons a s ih =>
    rw [List.dropWhile_cons] at h
    split at h
    · exact ih h
    · rename_i ha
      simp only [List.head?_cons, Option.some.injEq] at h
      subst h
      simpa using ha

theorem short_cut (text : Str) : Cut text (shortText text) := by
  refine ⟨text.takeWhile isWs, trim text, ((text.dropWhile isWs).reverse.takeWhile isWs).reverse,
    (trim text).take 50, (trim text).drop 50, ?_, takeWhile_ws text, ?_, ?_, (List.take_append_drop 50 _).symm, ?_⟩
  · unfold trim
    rw [List.append_assoc, ← List.reverse_append, List.takeWhile_append_dropWhile, List.reverse_reverse,
      List.takeWhile_append_dropWhile]
  · intro c hc
    exact takeWhile_ws _ c (List.mem_reverse.mp hc)
  · intro c hc
    refine head_dropWhile text c ?_
    have e : text.dropWhile isWs = trim text ++ ((text.dropWhile isWs).reverse.takeWhile isWs).reverse := by
      unfold trim
      rw [← List.reverse_append, List.takeWhile_append_dropWhile, List.reverse_reverse]
    rw [e, List.head?_append, hc]
    rfl
  · unfold shortText
    split
    · rename_i h
      exact .inr ⟨by simp; omega, by simp; omega, rfl⟩
    · rename_i h
      exact .inl ⟨by simp; omega, by simp only [List.length_take]; omega, rfl⟩

theorem table_label : "Table:".toList ++ "\n          ".toList = tableText ∧ ∀ c ∈ "\n          ".toList, isWs c = true := by
  decide +kernel

theorem chars_two (A B : List Piece) (s m t : Str) :
    s ++ t <:+: chars ((A ++ .txt s :: .mark m :: .txt t :: B).flatMap Piece.toks) := by
  refine ⟨chars (A.flatMap Piece.toks), chars (B.flatMap Piece.toks), ?_⟩
  have h2 : ∀ x y, chars (x ++ y) = chars x ++ chars y := fun x y => List.filterMap_append
  have ht : ∀ x, chars (Piece.txt x).toks = x := fun x => chars_map x
  have hm : ∀ x, chars (Piece.mark x).toks = [] := fun x => rfl
  rw [List.flatMap_append, List.flatMap_cons, List.flatMap_cons, List.flatMap_cons, h2, h2, h2, h2, ht, ht, hm]
  simp

theorem table_shown (title : List Piece) (tableName : Str) (rows : List Str) :
    Labelled "Table:".toList (if tableName ≠ [] then tableName else ['-'])
      (chars ((planMid title (tableOf tableName) rows).flatMap Piece.toks)) := by
  refine ⟨"\n          ".toList, table_label.2, ?_⟩
  rw [← List.append_assoc, table_label.1]
  unfold tableOf
  split
  · unfold tablePieces planMid
    have := chars_two ([.txt ws, .mark planBox, .txt ws, .mark titleTag] ++ title ++ [.mark divEnd, .txt ws, .mark divTag])
      ([.mark spanEnd, .txt ws, .mark divEnd, .txt ws] ++ rows.flatMap row ++ [.mark divEnd]) tableText tableTag tableName
    simpa only [List.append_assoc, List.cons_append, List.nil_append] using this
  · exact chars_shown _ _ (by simp [planMid])

/-- C92, plans: for texts without markup the tooltip of a node has only the tags of its template and shows the
text of the node (cut after 50 characters), the table after its label (a dash if there is none) and every line.
Missing: texts with `<` before a letter, as MySQL writes them (`C92_plan_markup`, `C92_table_markup`). -/
theorem C92_plan_partial (R : Refs) (hR : RefsOk R) (text tableName : Str) (rows : List Str) (h1 : Harmless text)
    (h2 : Harmless tableName) (h3 : ∀ r ∈ rows, Harmless r) :
    marks (tok R .data (planTooltip text tableName rows)) =
      planMarks [] (if tableName ≠ [] then [tableTag] else []) rows.length ∧
    Cut text (inside titleTag (tok R .data (planTooltip text tableName rows))) ∧
    (tableName ≠ [] → inside tableTag (tok R .data (planTooltip text tableName rows)) = tableName) ∧
    Labelled "Table:".toList (if tableName ≠ [] then tableName else ['-'])
      (chars (tok R .data (planTooltip text tableName rows))) ∧
    ∀ r ∈ rows, r <:+: chars (tok R .data (planTooltip text tableName rows)) := by
  unfold planTooltip
  rw [planPieces_eq]
  obtain ⟨ht, hm⟩ := plan_marks R hR [.txt (shortText text)] (tableOf tableName) rows
    (by intro p hp; simp only [List.mem_singleton] at hp; subst hp; exact harmless_short text h1)
    (tableOf_ok tableName h2) h3 (alt_plan _ _ _ (by unfold tableOf tablePieces; split <;> rfl))
  refine ⟨?_, ?_, ?_, ht ▸ table_shown _ _ _, ?_⟩
  · rw [hm]
    unfold tableOf tablePieces
    split <;> rfl
  · rw [ht, plan_title _ divEnd [] _ _ ⟨_, rfl⟩]
    exact short_cut text
  rotate_left
  · intro r hr
    rw [ht]
    refine chars_shown _ _ ?_
    simp only [planMid, List.mem_append, List.mem_flatMap, row]
    exact .inr (.inr (.inr (.inr (.inr (.inl ⟨r, hr, by simp⟩)))))
  · intro hne
    rw [ht, tableOf, if_pos hne]
    exact plan_table _ spanEnd _ [] _ (by simp) ⟨_, rfl⟩

/-- C92, plans, negation: what stands in angle brackets in the text of a node is taken for a tag, and the title
breaks off before it. -/
theorem C92_plan_markup (R : Refs) (hR : RefsOk R) (pre raw post tableName : Str) (rows : List Str)
    (hs : shortText (tagged pre raw post) = tagged pre raw post) (h1 : Harmless pre) (h2 : tagOk raw = true)
    (h3 : Harmless post) (h4 : Harmless tableName) (h5 : ∀ r ∈ rows, Harmless r) :
    raw ∈ marks (tok R .data (planTooltip (tagged pre raw post) tableName rows)) ∧
    inside titleTag (tok R .data (planTooltip (tagged pre raw post) tableName rows)) = pre := by
  unfold planTooltip
  rw [planPieces_eq, hs]
  have e : render (planMid [.txt (tagged pre raw post)] (tableOf tableName) rows) =
      render (planMid (.txt pre :: [.mark raw, .txt post]) (tableOf tableName) rows) := by
    simp [planMid, render, Piece.render, tagged]
  rw [e]
  obtain ⟨ht, hm⟩ := plan_marks R hR (.txt pre :: [.mark raw, .txt post]) (tableOf tableName) rows
    (by
      intro p hp
      simp only [List.mem_cons, List.not_mem_nil, or_false] at hp
      rcases hp with rfl | rfl | rfl
      · exact h1
      · exact h2
      · exact h3)
    (tableOf_ok tableName h4) h5 (alt_plan _ _ _ (by unfold tableOf tablePieces; split <;> rfl))
  refine ⟨?_, ?_⟩
  · rw [hm]
    simp [planMarks]
  · rw [ht]
    exact plan_title _ raw [.mark raw, .txt post] _ _ ⟨_, rfl⟩

/-- C92, plans, negation: a table called `<…>` (MySQL's `<temporary>`, `<subquery2>`) is not shown at all. -/
theorem C92_table_markup (R : Refs) (hR : RefsOk R) (text raw : Str) (rows : List Str) (h1 : Harmless text)
    (h2 : tagOk raw = true) (h3 : ∀ r ∈ rows, Harmless r) :
    raw ∈ marks (tok R .data (planTooltip text (tagged [] raw []) rows)) ∧
    inside tableTag (tok R .data (planTooltip text (tagged [] raw []) rows)) = [] := by
  unfold planTooltip
  rw [planPieces_eq, tableOf, if_pos (by simp [tagged])]
  have e : render (planMid [.txt (shortText text)] (tablePieces [.txt (tagged [] raw [])]) rows) =
      render (planMid [.txt (shortText text)] (tablePieces (.txt [] :: [.mark raw, .txt []])) rows) := by
    simp [planMid, render, Piece.render, tagged, tablePieces]
  rw [e]
  obtain ⟨ht, hm⟩ := plan_marks R hR [.txt (shortText text)] (tablePieces (.txt [] :: [.mark raw, .txt []])) rows
    (by intro p hp; simp only [List.mem_singleton] at hp; subst hp; exact harmless_short text h1)
    (by
      intro p hp
      simp only [tablePieces, List.mem_append, List.mem_cons, List.not_mem_nil, or_false] at hp
      rcases hp with (rfl | rfl) | rfl | rfl | rfl
      · exact (lits_ok tableText (by simp)).1
      · exact tags_ok _ (by simp)
      · trivial
      · exact h2
      · trivial)
    h3 (alt_plan _ _ _ rfl)
  refine ⟨?_, ?_⟩
  · rw [hm]
    simp [planMarks, tablePieces]
  · rw [ht]
    exact plan_table _ raw _ [.mark raw, .txt []] _ (by simp) ⟨_, rfl⟩

/-! ## C92: numbers -/

/-- the lines are harmless if the texts of numbers are -/
theorem rows_harmless {F : Type} (N : Num F) (many : Option F → Bool) (d : Numbers F) (hN : ∀ x, Harmless (N.text x)) :
    (∀ r ∈ pgRows N d, Harmless r) ∧ (∀ r ∈ hasuraRows N d, Harmless r) ∧ ∀ r ∈ mysqlRows N many d, Harmless r := by
  have hlit : ∀ t ∈ [lInit, lCost, lRowsEst, lWidth, lTime, lTimeFirst, lTimeLoop, lTimeAvg, lRows, lLoops, tilde],
      Harmless t ∧ t.getLast? ≠ some '<' ∧ t.getLast? ≠ some '&' := by decide +kernel
  have hnull : ∀ o, Harmless (showNull N o) := by
    intro o; cases o with
    | none => exact (by decide : Harmless ['n', 'u', 'l', 'l'])
    | some x => exact hN x
  have hdash : ∀ o, Harmless (showDash N o) := by
    intro o; cases o with
    | none => trivial
    | some x => exact hN x
  have lit : ∀ t s, t ∈ [lInit, lCost, lRowsEst, lWidth, lTime, lTimeFirst, lTimeLoop, lTimeAvg, lRows, lLoops, tilde] →
      Harmless s → Harmless (t ++ s) := fun t s ht hs => harmless_lit t s (hlit t ht).1 (hlit t ht).2 hs
  have htilde : Harmless (showNull N d.firstRow ++ (tilde ++ showNull N d.avg)) := by
    refine harmless_append _ _ (hnull _) (lit _ _ (by simp) (hnull _)) fun c e _ he => ?_
    have : tilde = ' ' :: ['~', ' '] := by decide +kernel
    rw [this] at he
    simp only [List.cons_append, List.head?_cons, Option.some.injEq] at he
    subst he
    have : tagStart ' ' = false ∧ commentStart ' ' = false ∧ refStart ' ' = false := by decide
    simp [calm, this]
  have htime : Harmless (lTime ++ (if truthy N d.firstRow then showNull N d.firstRow ++ (tilde ++ showNull N d.avg) else ['-'])) := by
    refine lit _ _ (by simp) ?_
    split
    · exact htilde
    · trivial
  refine ⟨?_, ?_, ?_⟩
  · intro r hr
    simp only [pgRows, List.mem_cons, List.not_mem_nil, or_false] at hr
    rcases hr with rfl | rfl | rfl | rfl | rfl | rfl | rfl
    all_goals first
      | exact htime
      | exact lit _ _ (by simp) (hnull _)
      | exact lit _ _ (by simp) (hdash _)
  · intro r hr
    simp only [hasuraRows, List.mem_cons, List.not_mem_nil, or_false] at hr
    rcases hr with rfl | rfl | rfl | rfl <;> exact lit _ _ (by simp) (hnull _)
  · intro r hr
    simp only [mysqlRows, List.mem_append, List.mem_cons, List.not_mem_nil, or_false] at hr
    rcases hr with hr | rfl | rfl | rfl | rfl | rfl | rfl
    · split at hr
      · simp only [List.mem_singleton] at hr
        subst hr
        exact lit _ _ (by simp) (hnull _)
      · cases hr
    case inr.inr.inr.inr.inl => cases many d.loops <;> exact lit _ _ (by simp) (hdash _)
    all_goals exact lit _ _ (by simp) (hdash _)

/-- Among the lines there is exactly one with this label, and it shows this value. -/
def Shows (rows : List Str) (label : String) (value : Str) : Prop :=
  rows.filter (fun r => label.toList.isPrefixOf r) = [label.toList ++ value]

/-- no line has this label -/
def Hides (rows : List Str) (label : String) : Prop := rows.filter (fun r => label.toList.isPrefixOf r) = []

theorem prefix_clash {a b c : Str} (h1 : a.isPrefixOf b = false) (h2 : b.isPrefixOf a = false) :
    a.isPrefixOf (b ++ c) = false := by
  cases h : a.isPrefixOf (b ++ c) with
  | false => rfl
  | true =>
    rw [List.isPrefixOf_iff_prefix] at h
    rcases Nat.le_total a.length b.length with hl | hl
    · have := List.prefix_of_prefix_length_le h (List.prefix_append b c) hl
      rw [← List.isPrefixOf_iff_prefix, h1] at this
      cases this
    · have := List.prefix_of_prefix_length_le (List.prefix_append b c) h hl
      rw [← List.isPrefixOf_iff_prefix, h2] at this
      cases this

/-- neither begins with the other -/
def apart (a b : Str) : Bool := !a.isPrefixOf b && !b.isPrefixOf a

/-- the lines as pairs of label and value -/
def lines (ps : List (Str × Str)) : List Str := ps.map fun p => p.1 ++ p.2

theorem lines_hide : ∀ (ps : List (Str × Str)) (label : Str), (ps.all fun p => apart label p.1) = true →
    (lines ps).filter (fun r => label.isPrefixOf r) = []
  | [], _, _ => rfl
  | p :: ps, label, h => by
    rw [List.all_cons, Bool.and_eq_true] at h
    simp only [apart, Bool.and_eq_true, Bool.not_eq_true'] at h
    show List.filter _ ((p.1 ++ p.2) :: lines ps) = []
    rw [List.filter_cons, prefix_clash h.1.1 h.1.2]
    exact lines_hide ps label (by simpa [apart] using h.2)

theorem apart_comm (a b : Str) : apart a b = apart b a := by
  unfold apart; exact Bool.and_comm _ _

theorem lines_show : ∀ (ps : List (Str × Str)) (label value : Str),
    (ps.map (·.1)).Pairwise (fun a b => apart a b = true) → (label, value) ∈ ps →
    (lines ps).filter (fun r => label.isPrefixOf r) = [label ++ value]
  | [], _, _, _, h => by cases h
  | p :: ps, label, value, hp, h => by
    rw [List.map_cons, List.pairwise_cons] at hp
    show List.filter _ ((p.1 ++ p.2) :: lines ps) = _
    rw [List.filter_cons]
    rcases List.mem_cons.mp h with rfl | h
    · have hself : label.isPrefixOf (label ++ value) = true := by
        rw [List.isPrefixOf_iff_prefix]; exact List.prefix_append _ _
      simp only [hself, if_true]
      rw [lines_hide ps label (by
        rw [List.all_eq_true]; intro q hq; exact hp.1 _ (List.mem_map_of_mem hq))]
    · have ha := hp.1 label (List.mem_map_of_mem (f := (·.1)) h)
      rw [apart_comm] at ha
      simp only [apart, Bool.and_eq_true, Bool.not_eq_true'] at ha
      rw [prefix_clash ha.1 ha.2]
      exact lines_show ps label value hp.2 h

theorem labels : "Initial cost (estimated) : ".toList = lInit ∧ "Cost (estimated) : ".toList = lCost ∧
    "Rows returned (estimated) : ".toList = lRowsEst ∧ "Width (estimated) : ".toList = lWidth ∧
    "Time (actual) :  ".toList = lTime ∧ "Rows returned (actual) : ".toList = lRows ∧
    "Loop count (actual) : ".toList = lLoops ∧ " ~ ".toList = tilde ∧
    "Time first row (actual) : ".toList = lTimeFirst ∧ "Time per loop (actual) : ".toList = lTimeLoop ∧
    "Time (actual) : ".toList = lTimeAvg := by decide +kernel

theorem showDash_eq {F : Type} (N : Num F) (o : Option F) : showDash N o = (o.map N.text).getD ['-'] := by cases o <;> rfl

/-- C92, numbers: every number of a PostgreSQL node that is known stands in the tooltip, once, behind its label. -/
theorem C92_pg_numbers {F : Type} (N : Num F) (d : Numbers F) :
    (∀ x, d.initCost = some x → Shows (pgRows N d) "Initial cost (estimated) : " (N.text x)) ∧
    (∀ x, d.cost = some x → Shows (pgRows N d) "Cost (estimated) : " (N.text x)) ∧
    (∀ x, d.rowsEst = some x → Shows (pgRows N d) "Rows returned (estimated) : " (N.text x)) ∧
    (∀ x, d.width = some x → Shows (pgRows N d) "Width (estimated) : " (N.text x)) ∧
    (∀ x y, d.firstRow = some x → d.avg = some y → N.zero x = false →
      Shows (pgRows N d) "Time (actual) :  " (N.text x ++ (" ~ ".toList ++ N.text y))) ∧
    (d.firstRow = none → Shows (pgRows N d) "Time (actual) :  " ['-']) ∧
    Shows (pgRows N d) "Rows returned (actual) : " ((d.rows.map N.text).getD ['-']) ∧
    Shows (pgRows N d) "Loop count (actual) : " ((d.loops.map N.text).getD ['-']) := by
  unfold Shows
  obtain ⟨e1, e2, e3, e4, e5, e6, e7, e8, -⟩ := labels
  rw [e1, e2, e3, e4, e5, e6, e7, e8, ← showDash_eq, ← showDash_eq]
  have hl : pgRows N d = lines [(lInit, showNull N d.initCost), (lCost, showNull N d.cost),
      (lRowsEst, showNull N d.rowsEst), (lWidth, showNull N d.width),
      (lTime, if truthy N d.firstRow then showNull N d.firstRow ++ (tilde ++ showNull N d.avg) else ['-']),
      (lRows, showDash N d.rows), (lLoops, showDash N d.loops)] := rfl
  have key := fun label value => lines_show [(lInit, showNull N d.initCost), (lCost, showNull N d.cost),
      (lRowsEst, showNull N d.rowsEst), (lWidth, showNull N d.width),
      (lTime, if truthy N d.firstRow then showNull N d.firstRow ++ (tilde ++ showNull N d.avg) else ['-']),
      (lRows, showDash N d.rows), (lLoops, showDash N d.loops)] label value
      (show [lInit, lCost, lRowsEst, lWidth, lTime, lRows, lLoops].Pairwise _ by decide +kernel)
  rw [← hl] at key
  refine ⟨fun x hx => key _ _ ?_, fun x hx => key _ _ ?_, fun x hx => key _ _ ?_, fun x hx => key _ _ ?_,
    fun x y hx hy hz => key _ _ ?_, fun hx => key _ _ ?_, key _ _ ?_, key _ _ ?_⟩
  · simp [hx, showNull]
  · simp [hx, showNull]
  · simp [hx, showNull]
  · simp [hx, showNull]
  · simp [hx, hy, hz, showNull, truthy]
  · simp [hx, truthy]
  · simp
  · simp

/-- C92, numbers: the same for the plan of a Hasura query, which was not run. -/
theorem C92_hasura_numbers {F : Type} (N : Num F) (d : Numbers F) :
    (∀ x, d.initCost = some x → Shows (hasuraRows N d) "Initial cost (estimated) : " (N.text x)) ∧
    (∀ x, d.cost = some x → Shows (hasuraRows N d) "Cost (estimated) : " (N.text x)) ∧
    (∀ x, d.rowsEst = some x → Shows (hasuraRows N d) "Rows returned (estimated) : " (N.text x)) ∧
    (∀ x, d.width = some x → Shows (hasuraRows N d) "Width (estimated) : " (N.text x)) ∧
    (hasuraRows N d).length = 4 := by
  unfold Shows
  obtain ⟨e1, e2, e3, e4, -⟩ := labels
  rw [e1, e2, e3, e4]
  have hl : hasuraRows N d = lines [(lInit, showNull N d.initCost), (lCost, showNull N d.cost),
      (lRowsEst, showNull N d.rowsEst), (lWidth, showNull N d.width)] := rfl
  have key := fun label value => lines_show [(lInit, showNull N d.initCost), (lCost, showNull N d.cost),
      (lRowsEst, showNull N d.rowsEst), (lWidth, showNull N d.width)] label value
      (show [lInit, lCost, lRowsEst, lWidth].Pairwise _ by decide +kernel)
  rw [← hl] at key
  refine ⟨fun x hx => key _ _ ?_, fun x hx => key _ _ ?_, fun x hx => key _ _ ?_, fun x hx => key _ _ ?_, rfl⟩
  all_goals simp [hx, showNull]

/-- C92, numbers: the same for MySQL.  An initial cost that is 0 or unknown has no line; other unknown numbers are
dashes; the time is called one per loop when there were several. -/
theorem C92_mysql_numbers {F : Type} (N : Num F) (many : Option F → Bool) (d : Numbers F) :
    (∀ x, d.initCost = some x → N.zero x = false →
      Shows (mysqlRows N many d) "Initial cost (estimated) : " (N.text x)) ∧
    ((d.initCost = none ∨ ∃ x, d.initCost = some x ∧ N.zero x = true) →
      Hides (mysqlRows N many d) "Initial cost (estimated) : ") ∧
    Shows (mysqlRows N many d) "Cost (estimated) : " ((d.cost.map N.text).getD ['-']) ∧
    Shows (mysqlRows N many d) "Rows returned (estimated) : " ((d.rowsEst.map N.text).getD ['-']) ∧
    Shows (mysqlRows N many d) "Time first row (actual) : " ((d.firstRow.map N.text).getD ['-']) ∧
    (many d.loops = true →
      Shows (mysqlRows N many d) "Time per loop (actual) : " ((d.avg.map N.text).getD ['-'])) ∧
    (many d.loops = false → Shows (mysqlRows N many d) "Time (actual) : " ((d.avg.map N.text).getD ['-'])) ∧
    Shows (mysqlRows N many d) "Rows returned (actual) : " ((d.rows.map N.text).getD ['-']) ∧
    Shows (mysqlRows N many d) "Loop count (actual) : " ((d.loops.map N.text).getD ['-']) := by
  unfold Shows Hides
  obtain ⟨e1, e2, e3, -, -, e6, e7, -, e9, e10, e11⟩ := labels
  rw [e1, e2, e3, e6, e7, e9, e10, e11, ← showDash_eq, ← showDash_eq, ← showDash_eq, ← showDash_eq, ← showDash_eq,
    ← showDash_eq]
  have hl : mysqlRows N many d = lines ((if truthy N d.initCost then [(lInit, showNull N d.initCost)] else []) ++
      [(lCost, showDash N d.cost), (lRowsEst, showDash N d.rowsEst), (lTimeFirst, showDash N d.firstRow),
       (if many d.loops then lTimeLoop else lTimeAvg, showDash N d.avg),
       (lRows, showDash N d.rows), (lLoops, showDash N d.loops)]) := by
    unfold mysqlRows
    split <;> rfl
  have key := fun label value => lines_show ((if truthy N d.initCost then [(lInit, showNull N d.initCost)] else []) ++
      [(lCost, showDash N d.cost), (lRowsEst, showDash N d.rowsEst), (lTimeFirst, showDash N d.firstRow),
       (if many d.loops then lTimeLoop else lTimeAvg, showDash N d.avg),
       (lRows, showDash N d.rows), (lLoops, showDash N d.loops)]) label value
      (by
        cases truthy N d.initCost <;> cases many d.loops
        · exact (show [lCost, lRowsEst, lTimeFirst, lTimeAvg, lRows, lLoops].Pairwise _ by decide +kernel)
        · exact (show [lCost, lRowsEst, lTimeFirst, lTimeLoop, lRows, lLoops].Pairwise _ by decide +kernel)
        · exact (show [lInit, lCost, lRowsEst, lTimeFirst, lTimeAvg, lRows, lLoops].Pairwise _ by decide +kernel)
        · exact (show [lInit, lCost, lRowsEst, lTimeFirst, lTimeLoop, lRows, lLoops].Pairwise _ by decide +kernel))
  rw [← hl] at key
  refine ⟨fun x hx hz => key _ _ ?_, fun hx => ?_, key _ _ ?_, key _ _ ?_, key _ _ ?_, fun hm => key _ _ ?_,
    fun hm => key _ _ ?_, key _ _ ?_, key _ _ ?_⟩
  · simp [hx, hz, showNull, truthy]
  · have ht : truthy N d.initCost = false := by
      rcases hx with hx | ⟨x, hx, hz⟩
      · rw [hx]; rfl
      · rw [hx]; simp [truthy, hz]
    rw [hl, ht]
    refine lines_hide _ _ ?_
    cases many d.loops
    · exact (show ([lCost, lRowsEst, lTimeFirst, lTimeAvg, lRows, lLoops].all fun p => apart lInit p) = true by
        decide +kernel)
    · exact (show ([lCost, lRowsEst, lTimeFirst, lTimeLoop, lRows, lLoops].all fun p => apart lInit p) = true by
        decide +kernel)
  all_goals simp [*]

/-- C92, numbers, negation: a PostgreSQL node whose first row came after 0 milliseconds has the same tooltip as
a node that was never executed (as far as times go), although its time is known. -/
theorem C92_zero_time_hidden {F : Type} (N : Num F) (zero avg : F) (hz : N.zero zero = true) (d : Numbers F) :
    pgRows N { d with firstRow := some zero, avg := some avg } = pgRows N { d with firstRow := none, avg := none } := by
  simp [pgRows, truthy, hz]

/-- C92, numbers: a PostgreSQL node whose first row took some time shows both times. -/
theorem C92_time_shown {F : Type} (N : Num F) (first avg : F) (hz : N.zero first = false) (d : Numbers F) :
    lTime ++ (N.text first ++ (tilde ++ N.text avg)) ∈ pgRows N { d with firstRow := some first, avg := some avg } := by
  simp [pgRows, truthy, hz, showNull]

/-! ### Concrete cases -/

/-- a table of references for the examples -/
def exRefs : Refs := fun s => if ['n', 'b', 's', 'p', ';'].isPrefixOf s then some ([Char.ofNat 0xa0], 4) else none

theorem exRefs_ok : RefsOk exRefs where
  nbsp r := by simp [exRefs]
  none s h := by
    unfold exRefs
    split
    · rename_i hp
      cases s with
      | nil => simp at hp
      | cons c s =>
        have := h c rfl
        simp only [List.isPrefixOf, Bool.and_eq_true, beq_iff_eq] at hp
        rw [← hp.1] at this
        revert this; decide
    · rfl

@[irreducible] def exSql : Str := "SELECT * FROM t WHERE a < 3 AND b <> '&' AND c<=d".toList
@[irreducible] def exPre : Str := "SELECT * FROM t WHERE a = '".toList
@[irreducible] def exRaw : Str := "img src=x onerror='alert(1)'".toList
@[irreducible] def exPlan : Str := "-> Table scan on ".toList
@[irreducible] def exTemp : Str := "temporary".toList

/-- comparisons are harmless -/
example : Harmless exSql ∧ Harmless exPre ∧ Harmless ['\''] ∧ tagOk exRaw = true := by decide +kernel

/-- `C92_plan_markup` on MySQL's `-> Table scan on <temporary>` -/
example : shortText (tagged exPlan exTemp []) = tagged exPlan exTemp [] ∧ Harmless exPlan ∧ tagOk exTemp = true := by
  decide +kernel

/-- as it is read by the browser -/
example : inside titleTag (tok exRefs .data (planTooltip (tagged exPlan exTemp []) ['t'] [])) = exPlan := by decide +kernel
example : inside sqlTag (tok exRefs .data (loadSumTooltip ['d', 'b'] ['1', '.', '5', '0'] exSql)) = exSql := by decide +kernel

end Verif.Client.Tooltip
