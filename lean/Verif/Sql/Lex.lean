import Verif.Regex.Model
/-!
# How a database reads a statement (specification)

A lexer for the part of SQL that matters for quoting: words, quoted identifiers or literals with the
quote doubled inside, and single-character symbols.  It is the specification against which the
generated statements are checked; it models no GravityR code.
-/
namespace Verif.Sql

/-- Lexical elements. -/
inductive Tok where
  | word (s : List Char)
  | quoted (s : List Char)
  | sym (c : Char)
deriving DecidableEq, Repr

/-- Lexer state: between tokens, inside a word, inside quotes, just after a closing quote (which may
turn out to be the first half of a doubled quote). -/
inductive LS where
  | out
  | word (acc : List Char)
  | quo (acc : List Char)
  | quoEnd (acc : List Char)
deriving DecidableEq, Repr

/-- Start of a token: emitted tokens and next state. -/
def start (q c : Char) : List Tok × LS :=
  if c = q then ([], .quo [])
  else if c = ' ' ∨ c = '\n' ∨ c = '\t' then ([], .out)
  else if Regex.isWord c then ([], .word [c])
  else ([.sym c], .out)

/-- The lexer; `none` for an unterminated quote.  `q` is the quote character. -/
def lexGo (q : Char) : LS → List Char → Option (List Tok)
  | .out, [] => some []
  | .word a, [] => some [.word a]
  | .quo _, [] => none
  | .quoEnd a, [] => some [.quoted a]
  | .out, c :: cs => (lexGo q (start q c).2 cs).map ((start q c).1 ++ ·)
  | .word a, c :: cs =>
    if Regex.isWord c then lexGo q (.word (a ++ [c])) cs
    else (lexGo q (start q c).2 cs).map (.word a :: (start q c).1 ++ ·)
  | .quo a, c :: cs => if c = q then lexGo q (.quoEnd a) cs else lexGo q (.quo (a ++ [c])) cs
  | .quoEnd a, c :: cs =>
    if c = q then lexGo q (.quo (a ++ [q])) cs
    else (lexGo q (start q c).2 cs).map (.quoted a :: (start q c).1 ++ ·)

/-- Read a statement with quote character `q`. -/
def lex (q : Char) (s : List Char) : Option (List Tok) := lexGo q .out s

/-! ### Reading lemmas -/

theorem lexGo_quo (q : Char) (s rest a : List Char) (h : q ∉ s) :
    lexGo q (.quo a) (s ++ q :: rest) = lexGo q (.quoEnd (a ++ s)) rest := by
  induction s generalizing a with
  | nil => simp [lexGo]
  | cons c cs ih =>
    have hc : c ≠ q := fun e => h (by simp [e])
    simp only [List.cons_append, lexGo, hc, if_false]
    rw [ih (a ++ [c]) (fun hm => h (by simp [hm]))]
    simp

theorem lexGo_word (q : Char) (w rest a : List Char) (h : ∀ c ∈ w, Regex.isWord c = true) :
    lexGo q (.word a) (w ++ rest) = lexGo q (.word (a ++ w)) rest := by
  induction w generalizing a with
  | nil => simp
  | cons c cs ih =>
    simp only [List.cons_append, lexGo, h c (by simp), if_true]
    rw [ih (a ++ [c]) (fun x hx => h x (by simp [hx]))]
    simp

/-- A quoted name followed by something that is not another quote. -/
theorem lexGo_out_quoted (q : Char) (s : List Char) (c : Char) (rest : List Char) (h : q ∉ s)
    (hc : c ≠ q) :
    lexGo q .out (q :: s ++ q :: c :: rest) =
      (lexGo q .out (c :: rest)).map (.quoted s :: ·) := by
  have h1 : lexGo q .out (q :: s ++ q :: c :: rest) = lexGo q (.quo []) (s ++ q :: c :: rest) := by
    simp [lexGo, start]
  rw [h1, lexGo_quo q s (c :: rest) [] h]
  simp only [List.nil_append, lexGo, hc, if_false, Option.map_map]
  congr 1

theorem lexGo_out_quoted_end (q : Char) (s : List Char) (h : q ∉ s) :
    lexGo q .out (q :: s ++ [q]) = some [.quoted s] := by
  simp only [List.cons_append, lexGo, start, if_true, List.nil_append, Option.map_id']
  rw [lexGo_quo q s [] [] h]
  simp [lexGo]

theorem lexGo_out_space (q : Char) (rest : List Char) (h : q ≠ ' ') :
    lexGo q .out (' ' :: rest) = lexGo q .out rest := by
  simp [lexGo, start, h.symm]

theorem lexGo_out_sym (q c : Char) (rest : List Char) (h : c ≠ q) (hs : c ≠ ' ' ∧ c ≠ '\n' ∧ c ≠ '\t')
    (hw : Regex.isWord c = false) :
    lexGo q .out (c :: rest) = (lexGo q .out rest).map (.sym c :: ·) := by
  simp [lexGo, start, h, hs.1, hs.2.1, hs.2.2, hw]

/-- A keyword followed by a space. -/
theorem lexGo_out_word_space (q : Char) (w rest : List Char) (hne : w ≠ [])
    (h : ∀ c ∈ w, Regex.isWord c = true) (hq : Regex.isWord q = false) (hqs : q ≠ ' ') :
    lexGo q .out (w ++ ' ' :: rest) = (lexGo q .out rest).map (.word w :: ·) := by
  cases w with
  | nil => exact absurd rfl hne
  | cons c cs =>
    have hc := h c (by simp)
    have hcq : c ≠ q := fun e => by rw [e, hq] at hc; cases hc
    have hsp : ¬(c = ' ' ∨ c = '\n' ∨ c = '\t') := by
      rintro (e | e | e) <;> (rw [e] at hc; exact absurd hc (by decide))
    simp only [List.cons_append, lexGo, start, hcq, if_false, hsp, hc, if_true, List.nil_append,
      Option.map_id']
    rw [lexGo_word q cs (' ' :: rest) [c] (fun x hx => h x (by simp [hx]))]
    have : Regex.isWord ' ' = false := by decide
    simp [lexGo, this, start, hqs.symm]

end Verif.Sql
