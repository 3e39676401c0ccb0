import Verif.Common
import Verif.Lib.Map
/-!
# C86: the data in the report file

`/repo/html/html_builder.go`, `/repo/html/build_option.go:158-163`.  The data goes through `html/template`
(`{{.gr}}` in a script element: `encoding/json` with HTML escaping) into the file; a browser finds the script
element, runs the assignment, and the page reads `window.grParam`.
-/
namespace Verif.Report
open Verif.Lib

abbrev Str := List Char

/-- What is given to `json.Marshal`, and what the page gets.  Strings are sequences of characters (Go
replaces bytes that are not UTF-8 before that).  A number is the text it is written with, `none` for `NaN`
and the infinities, which have none. -/
inductive Val where
  | null
  | bool (b : Bool)
  | num (text : Option Str)
  | str (s : Str)
  | arr (vs : List Val)
  | obj (fs : List (Str × Val))

/-! ## Model: writing -/

/-- the digits of `\u00xx` and `\u202x` in `encoding/json` -/
def hexDigit (n : Nat) : Char :=
  ['0', '1', '2', '3', '4', '5', '6', '7', '8', '9', 'a', 'b', 'c', 'd', 'e', 'f'].getD n '0'

/-- four digits -/
def hex4 (n : Nat) : Str := [hexDigit (n / 4096 % 16), hexDigit (n / 256 % 16), hexDigit (n / 16 % 16), hexDigit (n % 16)]

/-- the characters written as `\u....`: `encoding/json` with `escapeHTML` (what `json.Marshal` does) and the
two line separators -/
def isEscaped (c : Char) : Bool :=
  c.toNat < 32 || c == '<' || c == '>' || c == '&' || c.toNat == 0x2028 || c.toNat == 0x2029

/-- one character in a string literal, `encodeState.string` of `encoding/json` (Go 1.19) -/
def encChar (c : Char) : Str :=
  if c = '"' then ['\\', '"']
  else if c = '\\' then ['\\', '\\']
  else if c = '\n' then ['\\', 'n']
  else if c = '\r' then ['\\', 'r']
  else if c = '\t' then ['\\', 't']
  else if isEscaped c then '\\' :: 'u' :: hex4 c.toNat
  else [c]

def encStr (s : Str) : Str := '"' :: s.flatMap encChar ++ ['"']

mutual
/-- `json.Marshal` of a value that can be encoded -/
def enc : Val → Str
  | .null => ['n', 'u', 'l', 'l']
  | .bool true => ['t', 'r', 'u', 'e']
  | .bool false => ['f', 'a', 'l', 's', 'e']
  | .num t => t.getD []
  | .str s => encStr s
  | .arr vs => '[' :: encElems vs
  | .obj fs => '{' :: encFields fs
/-- the elements of an array and the bracket -/
def encElems : List Val → Str
  | [] => [']']
  | v :: vs => enc v ++ ((if vs.isEmpty then [] else [',']) ++ encElems vs)
/-- the fields of a struct or the entries of a map, and the brace -/
def encFields : List (Str × Val) → Str
  | [] => ['}']
  | (k, v) :: fs => encStr k ++ (':' :: enc v ++ ((if fs.isEmpty then [] else [',']) ++ encFields fs))
end

mutual
/-- `json.Marshal` does not fail: no `NaN`, no infinity -/
def finite : Val → Bool
  | .num t => t.isSome
  | .arr vs => finiteL vs
  | .obj fs => finiteF fs
  | _ => true
def finiteL : List Val → Bool
  | [] => true
  | v :: vs => finite v && finiteL vs
def finiteF : List (Str × Val) → Bool
  | [] => true
  | (_, v) :: fs => finite v && finiteF fs
end

/-- what `jsValEscaper` of `html/template` writes when `json.Marshal` fails -/
@[irreducible] def failedText : Str := " /* json: unsupported value: NaN */null ".toList

/-- `{{.gr}}` in a script element: `jsValEscaper` of `html/template`.  The value is an object, so no
space is put around it. -/
def embed (v : Val) : Str := if finite v then enc v else failedText

/-- the template up to the first script element, `/repo/html/html_builder.go:26-33` -/
@[irreducible] def tmplHead : Str :=
  "\n<!DOCTYPE html>\n<html lang=\"en\">\n  <head>\n    <meta charset=\"UTF-8\" />\n    <meta name=\"viewport\" content=\"width=device-width, initial-scale=1.0\" />\n    <title>GravityR</title>\n\t".toList
@[irreducible] def scriptTag : Str := "<script>".toList
/-- `/repo/html/html_builder.go:33-34` -/
@[irreducible] def assign : Str := "\n      window.grParam = ".toList
@[irreducible] def lineEnd : Str := "\n    ".toList
/-- `/repo/html/html_builder.go:35-36` -/
@[irreducible] def afterData : Str := "/script>\n\t<style>".toList
/-- `/repo/html/html_builder.go:36-40` -/
@[irreducible] def afterStyle : Str := "</style>\n  </head>\n  <body>\n    <div id=\"app\"></div>\n    <script>".toList
/-- `/repo/html/html_builder.go:40-43` -/
@[irreducible] def tmplEnd : Str := "</script>\n  </body>\n</html>\n".toList

/-- the file, `/repo/html/html_builder.go:25-53`: the style and the script of the page are inserted as they
are (`template.CSS`, `template.JS`) -/
def pageText (gr : Val) (style script : Str) : Str :=
  tmplHead ++ scriptTag ++ (assign ++ embed gr ++ lineEnd ++ '<' :: afterData ++ style ++ afterStyle ++ script ++ tmplEnd)

@[irreducible] def assetDir : Str := "client/dist/assets/".toList
@[irreducible] def dotJs : Str := ".js".toList
@[irreducible] def dotCss : Str := ".css".toList

/-- the outside of `CreateHtml`: the files compiled into the program, creating a file and writing to it
(`none`: all was written; `some t`: an error after `t`) -/
structure Fs (E : Type) where
  asset : Str → Except E Str
  create : Str → Except E Unit
  write : Str → Str → Option (E × Str)

/-- `/repo/html/html_builder.go:16-65` `CreateHtml`: the result and the file with its content, if it was
created.  Building the template never fails: its text is fixed. -/
def createHtml {E : Type} (w : Fs E) (htmlType filename : Str) (gr : Val) : Except E Unit × Option (Str × Str) :=
  match w.asset (assetDir ++ htmlType ++ dotJs) with
  | .error e => (.error e, none)
  | .ok script =>
    match w.asset (assetDir ++ htmlType ++ dotCss) with
    | .error e => (.error e, none)
    | .ok style =>
      match w.create filename with
      | .error e => (.error e, none)
      | .ok _ =>
        match w.write filename (pageText gr style script) with
        | some (e, t) => (.error e, some (filename, t))
        | none => (.ok (), some (filename, pageText gr style script))

/-- `/repo/html/build_option.go:158-163` `createGrMap`; `json.Marshal` sorts the keys of a map -/
@[irreducible] def kDigData : Str := "digData".toList
@[irreducible] def kSuggestData : Str := "suggestData".toList
def grMap (suggestData digData : Val) : Val := .obj [(kDigData, digData), (kSuggestData, suggestData)]

/-! ## The browser: the script element (HTML standard, 13.2.5: script data states) -/

/-- where the tokenizer is: plain script data, after `<!--`, and in a `<script` after that -/
inductive Mode where
  | data | escaped | double
deriving DecidableEq

/-- the end of a tag name -/
def endsName (c : Char) : Bool := c == ' ' || c == '\t' || c == '\n' || c == '\x0c' || c == '/' || c == '>'

/-- the text starts with the tag name `p` in any case, and the name ends there -/
def isTag (p s : Str) : Bool :=
  p == (s.take p.length).map Char.toLower && (match s.drop p.length with | c :: _ => endsName c | [] => false)

@[irreducible] def closeName : Str := "</script".toList
@[irreducible] def openName : Str := "<script".toList

/-- the state after the first character of `s` -/
def nextMode : Mode → Str → Mode
  | .data, s => if ['<', '!', '-', '-'].isPrefixOf s then .escaped else .data
  | .escaped, s => if ['-', '-', '>'].isPrefixOf s then .data else if isTag openName s then .double else .escaped
  | .double, s => if ['-', '-', '>'].isPrefixOf s then .data else if isTag closeName s then .escaped else .double

/-- the text of a script element and what follows its last `<` -/
def scan : Mode → Str → Option (Str × Str)
  | _, [] => none
  | m, c :: cs =>
    if m ≠ .double ∧ isTag closeName (c :: cs) = true then some ([], cs)
    else (scan (nextMode m (c :: cs)) cs).map fun p => (c :: p.1, p.2)

/-- what follows the first `pat` -/
def after (pat : Str) : Str → Option Str
  | [] => if pat.isPrefixOf [] then some [] else none
  | c :: cs => if pat.isPrefixOf (c :: cs) then some ((c :: cs).drop pat.length) else after pat cs

/-- the text of the first script element of a page, and the text after the `<` of its end tag.  (The tag in
the template has no attributes.) -/
def firstScript (page : Str) : Option (Str × Str) := (after "<script>".toList page).bind (scan .data)

/-! ## The browser: the assignment (ECMAScript: literals) -/

/-- where `skip` is: outside, at the star of the start of a comment, in a comment, at the slash of its end -/
inductive InComment where
  | out | start | inside | stop

def skipGo : InComment → Str → Str
  | _, [] => []
  | .out, c :: cs =>
    if c = ' ' ∨ c = '\n' ∨ c = '\t' ∨ c = '\r' then skipGo .out cs
    else if c = '/' ∧ cs.head? = some '*' then skipGo .start cs
    else c :: cs
  | .start, _ :: cs => skipGo .inside cs
  | .inside, c :: cs => if c = '*' ∧ cs.head? = some '/' then skipGo .stop cs else skipGo .inside cs
  | .stop, _ :: cs => skipGo .out cs

/-- white space and comments -/
def skip (s : Str) : Str := skipGo .out s

/-- the value of a hexadecimal digit -/
def hexVal (c : Char) : Option Nat :=
  if '0' ≤ c ∧ c ≤ '9' then some (c.toNat - '0'.toNat)
  else if 'a' ≤ c ∧ c ≤ 'f' then some (c.toNat - 'a'.toNat + 10)
  else if 'A' ≤ c ∧ c ≤ 'F' then some (c.toNat - 'A'.toNat + 10)
  else none

/-- `\uxxxx`; a surrogate is no character (none is ever written) -/
def hexChar (a b c d : Char) : Option Char :=
  match hexVal a, hexVal b, hexVal c, hexVal d with
  | some x, some y, some z, some t =>
    let n := ((x * 16 + y) * 16 + z) * 16 + t
    if h : n.isValidChar then some (Char.ofNatAux n h) else none
  | _, _, _, _ => none

/-- the other escapes: the character itself unless it has a meaning; digits, `x` and line breaks are left
out -/
def simpleEscape (e : Char) : Option Char :=
  if e = 'n' then some '\n'
  else if e = 't' then some '\t'
  else if e = 'r' then some '\r'
  else if e = 'b' then some '\x08'
  else if e = 'f' then some '\x0c'
  else if e = 'v' then some '\x0b'
  else if e.isDigit ∨ e = 'x' ∨ e = '\n' ∨ e = '\r' then none
  else some e

/-- a character that may not stand in a string literal -/
def endsLine (c : Char) : Bool := c == '\n' || c == '\r' || c.toNat == 0x2028 || c.toNat == 0x2029

/-- a string literal after its first quote -/
def readStr : Str → Option (Str × Str)
  | [] => none
  | c :: cs =>
    if c = '"' then some ([], cs)
    else if c = '\\' then
      match cs with
      | [] => none
      | e :: r =>
        if e = 'u' then
          match r with
          | h1 :: h2 :: h3 :: h4 :: r' =>
            match hexChar h1 h2 h3 h4 with
            | some x => (readStr r').map fun p => (x :: p.1, p.2)
            | none => none
          | _ => none
        else
          match simpleEscape e with
          | some x => (readStr r).map fun p => (x :: p.1, p.2)
          | none => none
    else if endsLine c then none
    else (readStr cs).map fun p => (c :: p.1, p.2)

/-- the characters of a number -/
def isNumChar (c : Char) : Bool := c.isDigit || c == '-' || c == '+' || c == '.' || c == 'e' || c == 'E'

@[irreducible] def protoKey : Str := "__proto__".toList

/-- the object of an object literal: of equal names the last one counts, and `"__proto__": v` makes no
property but sets the prototype.  (The order of properties is not observable by name; the engine puts names
that are numbers first.) -/
def literal (fs : List (Str × Val)) : List (Str × Val) :=
  fs.foldl (fun m p => if p.1 = protoKey then m else mapSet p.1 p.2 m) []

/-- a word -/
def readWord (s : Str) : Option (Val × Str) :=
  if ['n', 'u', 'l', 'l'].isPrefixOf s then some (.null, s.drop 4)
  else if ['t', 'r', 'u', 'e'].isPrefixOf s then some (.bool true, s.drop 4)
  else if ['f', 'a', 'l', 's', 'e'].isPrefixOf s then some (.bool false, s.drop 5)
  else none

mutual
/-- a literal; `none` is a syntax error or a program outside this subset.  `n` bounds the depth. -/
def readVal : Nat → Str → Option (Val × Str)
  | 0, _ => none
  | n + 1, s =>
    match skip s with
    | [] => none
    | c :: cs =>
      if c = '"' then (readStr cs).map fun p => (.str p.1, p.2)
      else if c = '[' then (readElems n cs).map fun p => (.arr p.1, p.2)
      else if c = '{' then (readFields n cs).map fun p => (.obj (literal p.1), p.2)
      else if isNumChar c then some (.num (some ((c :: cs).takeWhile isNumChar)), (c :: cs).dropWhile isNumChar)
      else readWord (c :: cs)
/-- the elements of an array, after the bracket or a comma -/
def readElems : Nat → Str → Option (List Val × Str)
  | 0, _ => none
  | n + 1, s =>
    match skip s with
    | [] => none
    | c :: cs =>
      if c = ']' then some ([], cs)
      else
        match readVal n (c :: cs) with
        | none => none
        | some (v, r) =>
          match skip r with
          | [] => none
          | d :: ds =>
            if d = ',' then (readElems n ds).map fun p => (v :: p.1, p.2)
            else if d = ']' then some ([v], ds)
            else none
/-- the properties of an object, after the brace or a comma -/
def readFields : Nat → Str → Option (List (Str × Val) × Str)
  | 0, _ => none
  | n + 1, s =>
    match skip s with
    | [] => none
    | c :: cs =>
      if c = '}' then some ([], cs)
      else if c = '"' then
        match readStr cs with
        | none => none
        | some (k, r) =>
          match skip r with
          | [] => none
          | d :: ds =>
            if d = ':' then
              match readVal n ds with
              | none => none
              | some (v, r2) =>
                match skip r2 with
                | [] => none
                | f :: ys =>
                  if f = ',' then (readFields n ys).map fun p => ((k, v) :: p.1, p.2)
                  else if f = '}' then some ([(k, v)], ys)
                  else none
            else none
      else none
end

@[irreducible] def grParamName : Str := "window.grParam".toList

/-- the value assigned by a script that is one assignment to `window.grParam` -/
def runAssign (script : Str) : Option Val :=
  let s := skip script
  if grParamName.isPrefixOf s then
    match skip (s.drop grParamName.length) with
    | '=' :: r =>
      match readVal (r.length + 1) r with
      | some (v, rest) => if skip rest = [] then some v else none
      | none => none
    | _ => none
  else none

/-- `window.grParam` when the page's own script starts -/
def browserParam (page : Str) : Option Val := (firstScript page).bind fun p => runAssign p.1

/-! ## Spec -/

mutual
/-- numbers are written with the characters of numbers -/
def NumOk : Val → Prop
  | .num t => ∀ x, t = some x → x ≠ [] ∧ ∀ c ∈ x, isNumChar c = true
  | .arr vs => NumOkL vs
  | .obj fs => NumOkF fs
  | _ => True
def NumOkL : List Val → Prop
  | [] => True
  | v :: vs => NumOk v ∧ NumOkL vs
def NumOkF : List (Str × Val) → Prop
  | [] => True
  | (_, v) :: fs => NumOk v ∧ NumOkF fs
end

mutual
/-- Numbers are written with the characters of numbers, names in an object differ, and no name is
`__proto__`. -/
def Sound : Val → Prop
  | .num t => ∀ x, t = some x → x ≠ [] ∧ ∀ c ∈ x, isNumChar c = true
  | .arr vs => SoundL vs
  | .obj fs => (fs.map (·.1)).Nodup ∧ protoKey ∉ fs.map (·.1) ∧ SoundF fs
  | _ => True
def SoundL : List Val → Prop
  | [] => True
  | v :: vs => Sound v ∧ SoundL vs
def SoundF : List (Str × Val) → Prop
  | [] => True
  | (_, v) :: fs => Sound v ∧ SoundF fs
end

/-! ## Proofs: strings -/

theorem escaped_cases (c : Char) (h : isEscaped c = true) :
    c.toNat ∈ List.range 32 ++ [60, 62, 38, 0x2028, 0x2029] := by
  simp only [isEscaped, Bool.or_eq_true, decide_eq_true_eq, beq_iff_eq] at h
  rw [List.mem_append, List.mem_range]
  rcases h with ((((h | h) | h) | h) | h) | h
  · exact .inl h
  · subst h; exact .inr (by decide)
  · subst h; exact .inr (by decide)
  · subst h; exact .inr (by decide)
  · rw [h]; exact .inr (by decide)
  · rw [h]; exact .inr (by decide)

/-- the digits of a number read back -/
def readsHex (n : Nat) : Bool :=
  decide (hexChar (hexDigit (n / 4096 % 16)) (hexDigit (n / 256 % 16)) (hexDigit (n / 16 % 16)) (hexDigit (n % 16)) =
    some (Char.ofNat n))

theorem readsHex_all : (List.range 32 ++ [60, 62, 38, 0x2028, 0x2029]).all readsHex = true := by decide +kernel

theorem readStr_u (h1 h2 h3 h4 x : Char) (r : Str) (hx : hexChar h1 h2 h3 h4 = some x) :
    readStr ('\\' :: 'u' :: h1 :: h2 :: h3 :: h4 :: r) = (readStr r).map fun p => (x :: p.1, p.2) := by
  conv => lhs; unfold readStr
  rw [if_neg (by decide), if_pos rfl]
  simp only [if_true, hx]

theorem readStr_simple (e x : Char) (r : Str) (he : e ≠ 'u') (hx : simpleEscape e = some x) :
    readStr ('\\' :: e :: r) = (readStr r).map fun p => (x :: p.1, p.2) := by
  conv => lhs; unfold readStr
  rw [if_neg (by decide), if_pos rfl]
  simp only [if_neg he, hx]

theorem readStr_char (c : Char) (r : Str) :
    readStr (encChar c ++ r) = (readStr r).map fun p => (c :: p.1, p.2) := by
  unfold encChar
  by_cases h1 : c = '"'
  · rw [if_pos h1, h1]; exact readStr_simple _ _ _ (by decide) (by decide)
  rw [if_neg h1]
  by_cases h2 : c = '\\'
  · rw [if_pos h2, h2]; exact readStr_simple _ _ _ (by decide) (by decide)
  rw [if_neg h2]
  by_cases h3 : c = '\n'
  · rw [if_pos h3, h3]; exact readStr_simple _ _ _ (by decide) (by decide)
  rw [if_neg h3]
  by_cases h4 : c = '\r'
  · rw [if_pos h4, h4]; exact readStr_simple _ _ _ (by decide) (by decide)
  rw [if_neg h4]
  by_cases h5 : c = '\t'
  · rw [if_pos h5, h5]; exact readStr_simple _ _ _ (by decide) (by decide)
  rw [if_neg h5]
  by_cases h6 : isEscaped c = true
  · rw [if_pos h6]
    have hx := List.all_eq_true.mp readsHex_all _ (escaped_cases c h6)
    simp only [readsHex, decide_eq_true_eq, Char.ofNat_toNat] at hx
    exact readStr_u _ _ _ _ _ _ hx
  · rw [if_neg h6, List.singleton_append]
    conv => lhs; unfold readStr
    rw [if_neg h1, if_neg h2, if_neg]
    intro hl
    simp only [endsLine, Bool.or_eq_true, beq_iff_eq] at hl
    apply h6
    simp only [isEscaped, Bool.or_eq_true, beq_iff_eq, decide_eq_true_eq]
    rcases hl with ((hl | hl) | hl) | hl
    · exact absurd hl h3
    · exact absurd hl h4
    · exact .inl (.inr hl)
    · exact .inr hl

theorem readStr_enc (s r : Str) : readStr (s.flatMap encChar ++ '"' :: r) = some (s, r) := by
  induction s with
  | nil => rw [List.flatMap_nil, List.nil_append]; unfold readStr; rw [if_pos rfl]
  | cons c s ih => rw [List.flatMap_cons, List.append_assoc, readStr_char, ih]; rfl

/-! ## Proofs: values -/

/-- a character that starts a token -/
def Solid (c : Char) : Prop := c ≠ ' ' ∧ c ≠ '\n' ∧ c ≠ '\t' ∧ c ≠ '\r' ∧ c ≠ '/'

instance (c : Char) : Decidable (Solid c) := by unfold Solid; infer_instance

theorem skip_solid (c : Char) (cs : Str) (h : Solid c) : skip (c :: cs) = c :: cs := by
  obtain ⟨h1, h2, h3, h4, h5⟩ := h
  unfold skip skipGo
  rw [if_neg (by simp [h1, h2, h3, h4]), if_neg (by simp [h5])]

theorem numChar_cases (c : Char) (h : isNumChar c = true) :
    Solid c ∧ c ≠ '"' ∧ c ≠ '[' ∧ c ≠ '{' ∧ c ≠ ']' ∧ c ≠ '}' ∧ c ≠ ',' := by
  unfold Solid
  refine ⟨⟨?_, ?_, ?_, ?_, ?_⟩, ?_, ?_, ?_, ?_, ?_, ?_⟩ <;> rintro rfl <;> revert h <;> decide

theorem enc_starts (v : Val) (hs : Sound v) (hf : finite v = true) :
    ∃ c t, enc v = c :: t ∧ Solid c ∧ c ≠ ']' ∧ c ≠ '}' ∧ c ≠ ',' := by
  cases v with
  | null => exact ⟨_, _, by rw [enc], by decide⟩
  | bool b => cases b <;> exact ⟨_, _, by rw [enc], by decide⟩
  | num t =>
    cases t with
    | none => simp [finite] at hf
    | some x =>
      obtain ⟨hne, hc⟩ := hs x rfl
      cases x with
      | nil => exact absurd rfl hne
      | cons c t =>
        have := numChar_cases c (hc c List.mem_cons_self)
        exact ⟨c, t, by rw [enc]; rfl, this.1, this.2.2.2.2.1, this.2.2.2.2.2.1, this.2.2.2.2.2.2⟩
  | str s => exact ⟨_, _, by rw [enc, encStr, List.cons_append], by decide⟩
  | arr vs => exact ⟨_, _, by rw [enc], by decide⟩
  | obj fs => exact ⟨_, _, by rw [enc], by decide⟩

/-- the text after a value does not go on with a number -/
def Stops (r : Str) : Prop := ∀ c, r.head? = some c → isNumChar c = false

theorem literal_go (fs : List (Str × Val)) : ∀ m : List (Str × Val), protoKey ∉ fs.map (·.1) →
    ((m ++ fs).map (·.1)).Nodup →
    fs.foldl (fun m p => if p.1 = protoKey then m else mapSet p.1 p.2 m) m = m ++ fs := by
  induction fs with
  | nil => intro m _ _; simp
  | cons p fs ih =>
    intro m hp hn
    rw [List.map_cons, List.mem_cons, not_or] at hp
    rw [List.foldl_cons, if_neg (fun e => hp.1 e.symm)]
    have hset : ∀ l : List (Str × Val), p.1 ∉ l.map (·.1) → mapSet p.1 p.2 l = l ++ [p] := by
      intro l
      induction l with
      | nil => intro _; rfl
      | cons q l ihl =>
        intro h
        rw [List.map_cons, List.mem_cons, not_or] at h
        rw [mapSet, if_neg h.1, ihl h.2]; rfl
    have hm : p.1 ∉ m.map (·.1) := by
      intro h
      rw [List.map_append, List.nodup_append] at hn
      exact hn.2.2 _ h _ (by simp) rfl
    rw [hset m hm, ih _ hp.2 (by simpa using hn)]
    simp

theorem literal_eq (fs : List (Str × Val)) (hp : protoKey ∉ fs.map (·.1)) (hn : (fs.map (·.1)).Nodup) :
    literal fs = fs := by
  unfold literal
  rw [literal_go fs [] hp (by simpa using hn), List.nil_append]

theorem elems_pos (vs : List Val) : 1 ≤ (encElems vs).length := by
  cases vs with
  | nil => simp [encElems]
  | cons v vs =>
    have : 1 ≤ (encElems vs).length := elems_pos vs
    rw [encElems, List.length_append, List.length_append]; omega

theorem fields_pos (fs : List (Str × Val)) : 1 ≤ (encFields fs).length := by
  cases fs with
  | nil => simp [encFields]
  | cons p fs => obtain ⟨k, v⟩ := p; simp [encFields]; omega

theorem takeWhile_stop {x r : Str} (hx : ∀ c ∈ x, isNumChar c = true) (hr : Stops r) :
    (x ++ r).takeWhile isNumChar = x ∧ (x ++ r).dropWhile isNumChar = r := by
  induction x with
  | nil =>
    cases r with
    | nil => simp
    | cons c r => simp [hr c rfl]
  | cons c x ih =>
    have h := ih (fun c hc => hx c (List.mem_cons_of_mem _ hc))
    have hc := hx c List.mem_cons_self
    rw [List.cons_append, List.takeWhile_cons_of_pos hc, List.dropWhile_cons_of_pos hc, h.1, h.2]
    exact ⟨rfl, rfl⟩

theorem stops_elems (vs : List Val) (r : Str) : Stops ((if vs.isEmpty then [] else [',']) ++ (encElems vs ++ r)) := by
  intro c hc
  cases vs with
  | nil => simp [encElems] at hc; subst hc; decide
  | cons w ws => simp at hc; subst hc; decide

theorem stops_fields (fs : List (Str × Val)) (r : Str) :
    Stops ((if fs.isEmpty then [] else [',']) ++ (encFields fs ++ r)) := by
  intro c hc
  cases fs with
  | nil => simp [encFields] at hc; subst hc; decide
  | cons w ws => simp at hc; subst hc; decide

mutual
theorem read_val : ∀ (v : Val), Sound v → finite v = true → ∀ (n : Nat) (r : Str), (enc v).length < n → Stops r →
    readVal n (enc v ++ r) = some (v, r)
  | .null, _, _, n + 1, r, _, _ => by
    rw [enc, List.cons_append, readVal, skip_solid _ _ (by decide)]; rfl
  | .bool true, _, _, n + 1, r, _, _ => by
    rw [enc, List.cons_append, readVal, skip_solid _ _ (by decide)]; rfl
  | .bool false, _, _, n + 1, r, _, _ => by
    rw [enc, List.cons_append, readVal, skip_solid _ _ (by decide)]; rfl
  | .num none, _, hf, _, _, _, _ => by simp [finite] at hf
  | .num (some x), hs, _, n + 1, r, _, hr => by
    obtain ⟨hne, hc⟩ := hs x rfl
    rw [enc, Option.getD_some]
    cases x with
    | nil => exact absurd rfl hne
    | cons c t =>
      have h := numChar_cases c (hc c List.mem_cons_self)
      have ht := takeWhile_stop hc hr
      rw [List.cons_append] at ht
      rw [List.cons_append, readVal, skip_solid _ _ h.1]
      simp only [if_neg h.2.1, if_neg h.2.2.1, if_neg h.2.2.2.1, if_pos (hc c List.mem_cons_self), ht.1, ht.2]
  | .str s, _, _, n + 1, r, _, _ => by
    rw [enc, encStr, List.cons_append, List.cons_append, readVal, skip_solid _ _ (by decide)]
    simp only [List.append_assoc, List.singleton_append, if_true, readStr_enc, Option.map_some]
  | .arr vs, hs, hf, n + 1, r, hn, _ => by
    rw [enc, List.cons_append, readVal, skip_solid _ _ (by decide)]
    rw [enc, List.length_cons] at hn
    simp only [if_neg (by decide : ¬ '[' = '"'), if_true,
      read_elems vs (by simpa [Sound] using hs) (by simpa [finite] using hf) n r (by omega), Option.map_some]
  | .obj fs, hs, hf, n + 1, r, hn, _ => by
    rw [enc, List.cons_append, readVal, skip_solid _ _ (by decide)]
    rw [enc, List.length_cons] at hn
    rw [Sound] at hs
    simp only [if_neg (by decide : ¬ '{' = '"'), if_neg (by decide : ¬ '{' = '['), if_true,
      read_fields fs hs.2.2 (by simpa [finite] using hf) n r (by omega), Option.map_some, literal_eq fs hs.2.1 hs.1]
theorem read_elems : ∀ (vs : List Val), SoundL vs → finiteL vs = true → ∀ (n : Nat) (r : Str),
    (encElems vs).length < n → readElems n (encElems vs ++ r) = some (vs, r)
  | [], _, _, n + 1, r, _ => by
    rw [encElems, List.singleton_append, readElems, skip_solid _ _ (by decide)]; rfl
  | v :: vs, hs, hf, n + 1, r, hn => by
    rw [SoundL] at hs
    rw [finiteL, Bool.and_eq_true] at hf
    have hp := elems_pos vs
    obtain ⟨c, t, e, hc, hc1, -, -⟩ := enc_starts v hs.1 hf.1
    rw [encElems, List.length_append, List.length_append] at hn
    have hv := read_val v hs.1 hf.1 n _ (by omega) (stops_elems vs r)
    rw [encElems, List.append_assoc, List.append_assoc]
    rw [readElems]
    rw [e, List.cons_append] at hv ⊢
    rw [skip_solid _ _ hc]
    simp only [if_neg hc1, hv]
    cases vs with
    | nil => simp only [List.isEmpty_nil, if_true, List.nil_append, encElems, List.singleton_append]; rw [skip_solid _ _ (by decide)]; rfl
    | cons w ws =>
      simp only [List.isEmpty_cons, if_false, List.singleton_append, Bool.false_eq_true]
      rw [skip_solid _ _ (by decide)]
      simp only [if_true]
      rw [read_elems (w :: ws) hs.2 hf.2 n r (by simp at hn; omega)]
      rfl
theorem read_fields : ∀ (fs : List (Str × Val)), SoundF fs → finiteF fs = true → ∀ (n : Nat) (r : Str),
    (encFields fs).length < n → readFields n (encFields fs ++ r) = some (fs, r)
  | [], _, _, n + 1, r, _ => by
    rw [encFields, List.singleton_append, readFields, skip_solid _ _ (by decide)]; rfl
  | (k, v) :: fs, hs, hf, n + 1, r, hn => by
    rw [SoundF] at hs
    rw [finiteF, Bool.and_eq_true] at hf
    have hp := fields_pos fs
    rw [encFields, List.length_append, List.length_append, List.length_cons, List.length_append] at hn
    have hv := read_val v hs.1 hf.1 n _ (by omega) (stops_fields fs r)
    rw [encFields, encStr]
    simp only [List.cons_append, List.append_assoc, List.singleton_append, List.nil_append]
    rw [readFields, skip_solid _ _ (by decide)]
    simp only [if_neg (by decide : ¬ '"' = '}'), if_true, readStr_enc]
    rw [skip_solid _ _ (by decide)]
    simp only [if_true, hv]
    cases fs with
    | nil =>
      simp only [List.isEmpty_nil, if_true, List.nil_append, encFields, List.singleton_append]
      rw [skip_solid _ _ (by decide)]; rfl
    | cons w ws =>
      simp only [List.isEmpty_cons, if_false, List.singleton_append, Bool.false_eq_true]
      rw [skip_solid _ _ (by decide)]
      simp only [if_true]
      rw [read_fields (w :: ws) hs.2 hf.2 n r (by simp at hn; omega)]
      rfl
end

/-! ## Proofs: the page -/

/-- no `<` -/
def Tame (s : Str) : Prop := '<' ∉ s

theorem tame_char (c : Char) : Tame (encChar c) := by
  unfold Tame encChar
  by_cases h1 : c = '"'
  · rw [if_pos h1]; decide
  rw [if_neg h1]
  by_cases h2 : c = '\\'
  · rw [if_pos h2]; decide
  rw [if_neg h2]
  by_cases h3 : c = '\n'
  · rw [if_pos h3]; decide
  rw [if_neg h3]
  by_cases h4 : c = '\r'
  · rw [if_pos h4]; decide
  rw [if_neg h4]
  by_cases h5 : c = '\t'
  · rw [if_pos h5]; decide
  rw [if_neg h5]
  by_cases h6 : isEscaped c = true
  · rw [if_pos h6]
    have : (List.range 32 ++ [60, 62, 38, 0x2028, 0x2029]).all (fun n => !('\\' :: 'u' :: hex4 n).contains '<') = true := by
      decide +kernel
    have h := List.all_eq_true.mp this _ (escaped_cases c h6)
    simpa using h
  · rw [if_neg h6, List.mem_singleton]
    rintro rfl
    exact h6 (by decide)

theorem tame_str (s : Str) : Tame (encStr s) := by
  unfold encStr Tame
  rw [List.cons_append, List.mem_cons, List.mem_append, List.mem_flatMap, List.mem_singleton]
  rintro (h | ⟨c, _, h⟩ | h)
  · exact absurd h (by decide)
  · exact tame_char c h
  · exact absurd h (by decide)

mutual
theorem sound_num : ∀ v : Val, Sound v → NumOk v
  | .null, _ => by simp [NumOk]
  | .bool _, _ => by simp [NumOk]
  | .num _, h => by simpa [NumOk, Sound] using h
  | .str _, _ => by simp [NumOk]
  | .arr vs, h => by
    rw [Sound] at h; rw [NumOk]; exact sound_numL vs h
  | .obj fs, h => by
    rw [Sound] at h; rw [NumOk]; exact sound_numF fs h.2.2
theorem sound_numL : ∀ vs : List Val, SoundL vs → NumOkL vs
  | [], _ => by simp [NumOkL]
  | v :: vs, h => by
    rw [SoundL] at h; rw [NumOkL]; exact ⟨sound_num v h.1, sound_numL vs h.2⟩
theorem sound_numF : ∀ fs : List (Str × Val), SoundF fs → NumOkF fs
  | [], _ => by simp [NumOkF]
  | (_, v) :: fs, h => by
    rw [SoundF] at h; rw [NumOkF]; exact ⟨sound_num v h.1, sound_numF fs h.2⟩
end

mutual
theorem tame_enc : ∀ (v : Val), NumOk v → Tame (enc v)
  | .null, _ => by rw [enc]; unfold Tame; decide
  | .bool true, _ => by rw [enc]; unfold Tame; decide
  | .bool false, _ => by rw [enc]; unfold Tame; decide
  | .num none, _ => by rw [enc]; unfold Tame; decide
  | .num (some x), hs => by
    rw [enc]
    intro h
    have := (hs x rfl).2 _ h
    revert this; decide
  | .str s, _ => by rw [enc]; exact tame_str s
  | .arr vs, hs => by
    rw [enc]
    unfold Tame
    rw [List.mem_cons, not_or]
    exact ⟨by decide, tame_elems vs (by simpa [NumOk] using hs)⟩
  | .obj fs, hs => by
    rw [enc]
    unfold Tame
    rw [List.mem_cons, not_or]
    exact ⟨by decide, tame_fields fs (by simpa [NumOk] using hs)⟩
theorem tame_elems : ∀ (vs : List Val), NumOkL vs → Tame (encElems vs)
  | [], _ => by rw [encElems]; unfold Tame; decide
  | v :: vs, hs => by
    rw [NumOkL] at hs
    rw [encElems]
    unfold Tame
    rw [List.mem_append, List.mem_append, not_or, not_or]
    refine ⟨tame_enc v hs.1, ?_, tame_elems vs hs.2⟩
    split <;> decide
theorem tame_fields : ∀ (fs : List (Str × Val)), NumOkF fs → Tame (encFields fs)
  | [], _ => by rw [encFields]; unfold Tame; decide
  | (k, v) :: fs, hs => by
    rw [NumOkF] at hs
    rw [encFields]
    unfold Tame
    simp only [List.mem_append, List.mem_cons, not_or]
    refine ⟨tame_str k, ⟨by decide, tame_enc v hs.1⟩, ?_, tame_fields fs hs.2⟩
    split <;> decide
end

theorem tame_embed (v : Val) (hs : NumOk v) : Tame (embed v) := by
  unfold embed
  split
  · exact tame_enc v hs
  · unfold Tame; decide +kernel

theorem toLower_lt (c : Char) (h : c.toLower = '<') : c = '<' := by
  unfold Char.toLower at h
  split at h
  · next hc =>
    exfalso
    have := congrArg Char.toNat h
    simp only [Char.toNat] at this
    rw [UInt32.toNat_add] at this
    have h1 : 65 ≤ c.toNat := UInt32.le_iff_toNat_le.mp hc.1
    have h2 : c.toNat ≤ 90 := UInt32.le_iff_toNat_le.mp hc.2
    simp at this
    omega
  · exact h

theorem not_tag (p : Str) (c : Char) (cs : Str) (hp : p.head? = some '<') (hc : c ≠ '<') : isTag p (c :: cs) = false := by
  cases p with
  | nil => cases hp
  | cons a p =>
    simp only [List.head?_cons, Option.some.injEq] at hp
    subst hp
    unfold isTag
    rw [Bool.and_eq_false_iff]
    left
    rw [List.length_cons, List.take_succ_cons, List.map_cons]
    simp only [List.cons_beq_cons, Bool.and_eq_false_iff]
    left
    simp only [beq_eq_false_iff_ne, ne_eq]
    intro h
    exact hc (toLower_lt c h.symm)

theorem scan_tame (a b : Str) (ha : Tame a) : scan .data (a ++ b) = (scan .data b).map fun p => (a ++ p.1, p.2) := by
  induction a with
  | nil => simp
  | cons c a ih =>
    unfold Tame at ha
    rw [List.mem_cons, not_or] at ha
    have hc : c ≠ '<' := fun e => ha.1 e.symm
    rw [List.cons_append, scan, not_tag _ _ _ (by unfold closeName; rfl) hc, if_neg (by simp), nextMode,
      if_neg (by simp [List.isPrefixOf, Ne.symm hc]), ih ha.2, Option.map_map]
    rfl

theorem after_first (pat x : Str) : ∀ h : Str, (∀ i < h.length, pat.isPrefixOf ((h ++ pat).drop i) = false) →
    after pat (h ++ pat ++ x) = some x := by
  intro h
  induction h with
  | nil =>
    intro _
    rw [List.nil_append]
    have hp : pat.isPrefixOf (pat ++ x) = true := List.isPrefixOf_iff_prefix.mpr (List.prefix_append _ _)
    cases hq : pat ++ x with
    | nil => rw [hq] at hp; simp only [after, if_pos hp]; simp at hq; rw [hq.2]
    | cons c cs => rw [hq] at hp; rw [after, if_pos hp, ← hq, List.drop_left]
  | cons c h ih =>
    intro hi
    rw [List.cons_append, List.cons_append, after, if_neg]
    · apply ih
      intro i hlt
      have := hi (i + 1) (by simpa using hlt)
      simpa using this
    · intro hp
      have h0 := hi 0 (by simp)
      rw [List.drop_zero] at h0
      rw [List.isPrefixOf_iff_prefix] at hp
      have : pat <+: (c :: h ++ pat) := by
        apply List.prefix_of_prefix_length_le hp (l₂ := c :: h ++ pat)
        · exact ⟨x, by simp⟩
        · simp; omega
      rw [← List.isPrefixOf_iff_prefix, h0] at this
      cases this

theorem data_close : '<' :: afterData = closeName ++ '>' :: "\n\t<style>".toList := by decide +kernel

theorem isTag_self (p : Str) (c : Char) (r : Str) (hp : p.map Char.toLower = p) (hc : endsName c = true) :
    isTag p (p ++ c :: r) = true := by
  unfold isTag
  simp [hp, hc]

/-- what follows the data on the page -/
def tailOf (style script : Str) : Str := afterData ++ style ++ afterStyle ++ script ++ tmplEnd

theorem scan_end (style script : Str) : scan .data ('<' :: tailOf style script) = some ([], tailOf style script) := by
  rw [scan, if_pos]
  refine ⟨by decide, ?_⟩
  have : '<' :: tailOf style script = closeName ++ '>' :: ("\n\t<style>".toList ++ style ++ afterStyle ++ script ++ tmplEnd) := by
    unfold tailOf
    rw [← List.cons_append, ← List.cons_append, ← List.cons_append, ← List.cons_append, data_close]
    simp
  rw [this]
  exact isTag_self _ _ _ (by decide +kernel) (by decide)

theorem head_free : ∀ i < tmplHead.length, scriptTag.isPrefixOf ((tmplHead ++ scriptTag).drop i) = false := by
  decide +kernel

/-- C86: whatever texts the data contains, the browser takes the data and the assignment around it, all of
it and nothing else, as the text of the script element; after it the page goes on as written by the
template. -/
theorem C86_script (v : Val) (hs : NumOk v) (style script : Str) :
    firstScript (pageText v style script) = some (assign ++ embed v ++ lineEnd, tailOf style script) := by
  have e : pageText v style script =
      tmplHead ++ scriptTag ++ ((assign ++ embed v ++ lineEnd) ++ '<' :: tailOf style script) := by
    unfold pageText tailOf; simp
  rw [firstScript, show "<script>".toList = scriptTag by decide +kernel, e, after_first _ _ _ head_free, Option.bind_some, scan_tame, scan_end]
  · simp
  · intro h
    rw [List.mem_append, List.mem_append] at h
    rcases h with (h | h) | h
    · revert h; decide +kernel
    · exact tame_embed v hs h
    · revert h; decide +kernel

theorem skip_assign (x : Str) : skip (assign ++ x) = grParamName ++ (' ' :: '=' :: ' ' :: x) := by
  have h : assign = '\n' :: ' ' :: ' ' :: ' ' :: ' ' :: ' ' :: ' ' :: 'w' :: (grParamName ++ [' ', '=', ' ']).tail := by
    decide +kernel
  have h2 : grParamName ++ (' ' :: '=' :: ' ' :: x) = 'w' :: (grParamName ++ [' ', '=', ' ']).tail ++ x := by
    have : grParamName ++ [' ', '=', ' '] = 'w' :: (grParamName ++ [' ', '=', ' ']).tail := by decide +kernel
    rw [← this]; simp
  rw [h, h2]
  rfl

theorem skip_lineEnd : skip lineEnd = [] := by decide +kernel

theorem stops_lineEnd : Stops lineEnd := by
  intro c hc
  have : lineEnd.head? = some '\n' := by decide +kernel
  rw [this] at hc
  cases hc; decide

theorem readVal_space (n : Nat) (s : Str) : readVal n (' ' :: s) = readVal n s := by
  cases n with
  | zero => rfl
  | succ n => rw [readVal, readVal]; rfl

/-- running the script of a page -/
theorem runAssign_eq (t : Str) (v : Val) (r : Str) (h : readVal (t.length + 2) t = some (v, r)) (hr : skip r = []) :
    runAssign (assign ++ t) = some v := by
  unfold runAssign
  simp only [skip_assign]
  rw [if_pos (List.isPrefixOf_iff_prefix.mpr (List.prefix_append _ _)), List.drop_left]
  have : skip (' ' :: '=' :: ' ' :: t) = '=' :: ' ' :: t := rfl
  simp only [this, List.length_cons, readVal_space, h, hr, if_true]

/-- C86 (partial): the page reads exactly the data that the command handed over.  Missing: numbers that JSON does
not have, and names `__proto__` (in the variables of a GraphQL query). -/
theorem C86_reads_back_partial (v : Val) (hs : Sound v) (hf : finite v = true) (style script : Str) :
    browserParam (pageText v style script) = some v := by
  rw [browserParam, C86_script v (sound_num v hs), Option.bind_some]
  simp only [embed, hf, if_true, List.append_assoc]
  exact runAssign_eq _ v lineEnd (read_val v hs hf _ _ (by simp; omega) stops_lineEnd) skip_lineEnd

/-- C86: a number that JSON does not have makes the file, written without an error, have no data at all. -/
theorem C86_unencodable (v : Val) (hs : NumOk v) (hf : finite v = false) (style script : Str) :
    browserParam (pageText v style script) = some .null := by
  rw [browserParam, C86_script v hs, Option.bind_some]
  simp only [embed, hf, Bool.false_eq_true, if_false, List.append_assoc]
  apply runAssign_eq _ _ (' ' :: lineEnd)
  · have h : (match readVal ((failedText ++ lineEnd).length + 2) (failedText ++ lineEnd) with
        | some (.null, r) => decide (r = ' ' :: lineEnd)
        | _ => false) = true := by decide +kernel
    split at h
    · next r e => rw [e, of_decide_eq_true h]
    · cases h
  · decide +kernel

/-- a built file of the page -/
def asset (htmlType : Str) (ext : String) : Str := "client/dist/assets/".toList ++ htmlType ++ ext.toList

theorem asset_eq (htmlType : Str) : asset htmlType ".js" = assetDir ++ htmlType ++ dotJs ∧
    asset htmlType ".css" = assetDir ++ htmlType ++ dotCss := by
  unfold asset
  rw [show "client/dist/assets/".toList = assetDir by decide +kernel, show ".js".toList = dotJs by decide +kernel,
    show ".css".toList = dotCss by decide +kernel]
  exact ⟨rfl, rfl⟩

/-- C86: a file is written without an error exactly if the two files of the page exist, the file can be
created, and everything can be written to it; it is the whole page then.  If the script or the style is
missing, or the file cannot be created, nothing is written. -/
theorem C86_written {E : Type} (w : Fs E) (htmlType filename : Str) (gr : Val) :
    ((createHtml w htmlType filename gr).1 = .ok () ↔ ∃ script style,
      w.asset (asset htmlType ".js") = .ok script ∧ w.asset (asset htmlType ".css") = .ok style ∧
      w.create filename = .ok () ∧ w.write filename (pageText gr style script) = none ∧
      (createHtml w htmlType filename gr).2 = some (filename, pageText gr style script)) ∧
    ((createHtml w htmlType filename gr).2 ≠ none → ∃ script style,
      w.asset (asset htmlType ".js") = .ok script ∧ w.asset (asset htmlType ".css") = .ok style ∧
      w.create filename = .ok ()) := by
  rw [(asset_eq htmlType).1, (asset_eq htmlType).2]
  unfold createHtml
  cases h1 : w.asset (assetDir ++ htmlType ++ dotJs) with
  | error e => simp
  | ok script =>
    cases h2 : w.asset (assetDir ++ htmlType ++ dotCss) with
    | error e => simp
    | ok style =>
      cases h3 : w.create filename with
      | error e => simp
      | ok u =>
        cases h4 : w.write filename (pageText gr style script) with
        | some p => obtain ⟨e, t⟩ := p; simp [h4]
        | none => simp [h4]

/-! ## Cases -/

@[irreducible] def kVariables : Str := "gqlVariables".toList
/-- a statement that would end the script element, with a comment and a quote -/
def exQuery : Val := .str "SELECT '</script><script>alert(1)</script>', \"\\\" <!-- \u2028 \n FROM t WHERE a<b".toList
def exData : Val := grMap (.obj [(['q'], exQuery), (['n'], .num (some ['-', '1', '.', '5'])), (['l'], .arr [.null, .bool true, .arr []])]) .null

example : Sound exData ∧ finite exData = true := by
  refine ⟨?_, by decide +kernel⟩
  simp only [exData, grMap, exQuery, Sound, SoundF, SoundL, List.map_cons, List.map_nil]
  refine ⟨by decide +kernel, by decide +kernel, trivial, ⟨by decide +kernel, by decide +kernel, trivial, ?_, ?_, trivial⟩, trivial⟩
  · intro x hx
    cases hx
    decide
  · exact ⟨trivial, trivial, trivial, trivial⟩

/-- C86: GraphQL variables with a member `__proto__` lose it. -/
theorem C86_proto_lost : ∃ (vars : List (Str × Val)), vars.length = 1 ∧
    NumOk (.obj vars) ∧ finite (.obj vars) = true ∧
    browserParam (pageText (grMap (.obj [(kVariables, .obj vars)]) .null) [] []) =
      some (grMap (.obj [(kVariables, .obj [])]) .null) := by
  refine ⟨[(protoKey, .str ['x'])], rfl, by simp [NumOk, NumOkF], by decide +kernel, ?_⟩
  have h : (match browserParam (pageText (grMap (.obj [(kVariables, .obj [(protoKey, .str ['x'])])]) .null) [] []) with
      | some (.obj [(a, .null), (b, .obj [(c, .obj [])])]) =>
        decide (a = kDigData ∧ b = kSuggestData ∧ c = kVariables)
      | _ => false) = true := by decide +kernel
  split at h
  · next a b c e =>
    rw [e]
    obtain ⟨rfl, rfl, rfl⟩ := of_decide_eq_true h
    rfl
  · cases h

end Verif.Report
