import Verif.Sql.Lex
import Verif.Lib.Chars
/-!
# What a query means (specification)

A reader for the part of SQL in which the catalogue queries are written, and its meaning over tables: FROM with
INNER and LEFT OUTER JOIN, conjunctions of comparisons, ORDER BY, placeholders, and the three functions these
queries call.  It models no GravityR code: it says what a database does with the text it is sent.

Whatever the reader does not know has no meaning here and counts as NULL.
-/
namespace Verif.Sql.Query

abbrev Str := List Char

/-! ## Reading -/

/-- words in lower case, string literals, symbols, and placeholders, which are numbered from zero -/
inductive T where
  | word (s : Str)
  | lit (s : Str)
  | sym (c : Char)
  | param (n : Nat)
deriving DecidableEq, Repr

/-- the number written by decimal digits -/
def value (ds : Str) : Nat := ds.foldl (fun n d => 10 * n + (d.toNat - 48)) 0

/-- `?` is the next placeholder, `$n` the one numbered `n` from one; words do not depend on case.  The flag says
that a dollar sign was just before. -/
def tokens : Nat → Bool → List Tok → List T
  | _, _, [] => []
  | n, d, .word w :: l => (if d then .param (value w - 1) else .word (w.map Char.toLower)) :: tokens n false l
  | n, _, .quoted s :: l => .lit s :: tokens n false l
  | n, _, .sym c :: l =>
    if c = '?' then .param n :: tokens (n + 1) false l
    else if c = '$' then tokens n true l
    else .sym c :: tokens n false l

/-- tokens with parentheses matched -/
inductive PT where
  | tok (t : T)
  | grp (l : List PT)

/-- match the parentheses: `cur` is the current group, `st` those around it -/
def group (cur : List PT) (st : List (List PT)) : List T → Option (List PT)
  | [] => match st with
    | [] => some cur
    | _ :: _ => none
  | t :: l =>
    if t = .sym '(' then group [] (cur :: st) l
    else if t = .sym ')' then
      match st with
      | [] => none
      | p :: st => group (p ++ [.grp cur]) st l
    else group (cur ++ [.tok t]) st l

def isWord (w : Str) : PT → Bool
  | .tok (.word v) => decide (v = w)
  | _ => false

def isSym (c : Char) : PT → Bool
  | .tok (.sym d) => decide (d = c)
  | _ => false

/-- the parts before and after the first element of this kind -/
def cut (p : PT → Bool) : List PT → Option (List PT × List PT)
  | [] => none
  | x :: l => if p x then some ([], l) else match cut p l with
    | none => none
    | some (a, b) => some (x :: a, b)

/-- the parts between elements of this kind -/
def split (p : PT → Bool) : List PT → List (List PT)
  | [] => [[]]
  | x :: l => if p x then [] :: split p l else match split p l with
    | [] => [[x]]
    | a :: r => (x :: a) :: r

/-- expressions; `array e f a b k key` is `ARRAY(SELECT e FROM f(a, b) AS k ORDER BY key)` -/
inductive Ex where
  | lit (s : Str)
  | num (n : Nat)
  | bool (b : Bool)
  | param (n : Nat)
  | name (c : Str)
  | col (t c : Str)
  | add (a b : Ex)
  | call2 (f : Str) (a b : Ex)
  | call3 (f : Str) (a b c : Ex)
  | array (e : Ex) (f : Str) (a b : Ex) (k : Str) (key : Ex)
  | unknown
deriving DecidableEq, Repr

def atom (w : Str) : Ex :=
  if w = c!"true" then .bool true
  else if w = c!"false" then .bool false
  else if w.all Char.isDigit then .num (value w)
  else .name w

/-- an expression, with as many levels of parentheses as the number says -/
def expr : Nat → List PT → Ex
  | 0, _ => .unknown
  | n + 1, l => match l with
    | [.tok (.lit s)] => .lit s
    | [.tok (.param i)] => .param i
    | [.tok (.word w)] => atom w
    | [.tok (.word a), .tok (.sym d), .tok (.word b)] =>
      if d = '.' then .col a b else if d = '+' then .add (atom a) (atom b) else .unknown
    | [.tok (.word f), .grp g] =>
      if f = c!"array" then
        match g with
        | s :: g => if isWord c!"select" s then
            match cut (isWord c!"from") g with
            | some (e, [.tok (.word f), .grp g, as, .tok (.word k), o, b, .tok (.word key)]) =>
              if isWord c!"as" as && isWord c!"order" o && isWord c!"by" b then
                match split (isSym ',') g with
                | [x, y] => .array (expr n e) f (expr n x) (expr n y) k (atom key)
                | _ => .unknown
              else .unknown
            | _ => .unknown
          else .unknown
        | [] => .unknown
      else
        match split (isSym ',') g with
        | [x, y] => .call2 f (expr n x) (expr n y)
        | [x, y, z] => .call3 f (expr n x) (expr n y) (expr n z)
        | _ => .unknown
    | _ => .unknown

/-- the levels of parentheses that are read -/
def deep : Nat := 8

/-- comparisons: `=`, `>=`, `IN (…)`, `= ANY(…)` -/
inductive Cmp where
  | eq (a b : Ex)
  | ge (a b : Ex)
  | oneOf (a : Ex) (l : List Ex)
  | any (a b : Ex)
deriving DecidableEq, Repr

def comparison (l : List PT) : Option Cmp :=
  match cut (isWord c!"in") l with
  | some (a, [.grp g]) => some (.oneOf (expr deep a) ((split (isSym ',') g).map (expr deep)))
  | some _ => none
  | none => match cut (isSym '>') l with
    | some (a, e :: b) => if isSym '=' e then some (.ge (expr deep a) (expr deep b)) else none
    | some _ => none
    | none => match cut (isSym '=') l with
      | none => none
      | some (a, b) => match b with
        | [w, .grp g] => if isWord c!"any" w then some (.any (expr deep a) (expr deep g)) else none
        | _ => some (.eq (expr deep a) (expr deep b))

/-- `a AND b AND …` -/
def condition (l : List PT) : Option (List Cmp) := (split (isWord c!"and") l).mapM comparison

/-- a table and the name it has in the query -/
structure Src where
  table : Str
  name : Str
deriving DecidableEq, Repr

def source : List PT → Option Src
  | [.tok (.word t)] => some ⟨t, t⟩
  | [.tok (.word t), x, .tok (.word a)] =>
    if isWord c!"as" x then some ⟨t, a⟩
    else if isSym '.' x then some ⟨t ++ '.' :: a, a⟩
    else none
  | _ => none

inductive Kind where
  | inner
  | left
deriving DecidableEq, Repr

/-- what stands before JOIN: the rest of what is before it, and the kind -/
def kind (l : List PT) : Option (List PT × Kind) :=
  match l.reverse with
  | a :: r => if isWord c!"inner" a then some (r.reverse, .inner)
    else match r with
      | b :: r => if isWord c!"outer" a && isWord c!"left" b then some (r.reverse, .left) else none
      | [] => none
  | [] => none

structure Join where
  kind : Kind
  src : Src
  on : List Cmp
deriving DecidableEq, Repr

/-- `source ON condition` -/
def joined (k : Kind) (l : List PT) : Option Join :=
  match cut (isWord c!"on") l with
  | none => none
  | some (a, b) => match source a, condition b with
    | some s, some c => some ⟨k, s, c⟩
    | _, _ => none

/-- the parts after the first JOIN -/
def joins : Kind → List (List PT) → Option (List Join)
  | _, [] => none
  | k, [l] => match joined k l with
    | none => none
    | some j => some [j]
  | k, l :: r => match kind l with
    | none => none
    | some (l, k') => match joined k l, joins k' r with
      | some j, some js => some (j :: js)
      | _, _ => none

def tables (l : List PT) : Option (Src × List Join) :=
  match split (isWord c!"join") l with
  | [] => none
  | [s] => match source s with
    | none => none
    | some s => some (s, [])
  | s :: r => match kind s with
    | none => none
    | some (s, k) => match source s, joins k r with
      | some s, some js => some (s, js)
      | _, _ => none

/-- an expression of the result and its label -/
def item (l : List PT) : Option (Ex × Str) :=
  match cut (isWord c!"as") l with
  | some (e, [.tok (.word w)]) => some (expr deep e, w)
  | some _ => none
  | none => match l with
    | [.tok (.word w)] => some (atom w, w)
    | [.tok (.word a), .tok (.sym _), .tok (.word b)] => some (.col a b, b)
    | _ => none

/-- `SELECT items FROM src joins WHERE cond ORDER BY keys` -/
structure Stmt where
  items : List (Ex × Str)
  src : Src
  joins : List Join
  cond : List Cmp
  keys : List Ex
deriving DecidableEq, Repr

/-- the statement without its final semicolon -/
def strip (l : List PT) : List PT :=
  match l.reverse with
  | x :: r => if isSym ';' x then r.reverse else l
  | [] => l

def statement (l : List PT) : Option Stmt :=
  match strip l with
  | s :: l => if isWord c!"select" s then
      match cut (isWord c!"from") l with
      | none => none
      | some (is, l) => match cut (isWord c!"where") l with
        | none => none
        | some (f, l) => match cut (isWord c!"order") l with
          | some (w, b :: ks) => if isWord c!"by" b then
              match (split (isSym ',') is).mapM item, tables f, condition w with
              | some items, some (s, js), some cond =>
                some ⟨items, s, js, cond, (split (isSym ',') ks).map (expr deep)⟩
              | _, _, _ => none
            else none
          | _ => none
    else none
  | [] => none

/-- read a text -/
def read (text : Str) : Option Stmt :=
  match lex '\'' text with
  | none => none
  | some l => match group [] [] (tokens 0 false l) with
    | none => none
    | some l => statement l

/-! ## Meaning -/

/-- values; `vec` is an `int2vector`, numbered from zero, `texts` an array of texts -/
inductive Val where
  | null
  | text (s : Str)
  | int (i : Int)
  | bool (b : Bool)
  | vec (l : List Int)
  | texts (l : List Str)
deriving DecidableEq, Repr

abbrev Row := List (Str × Val)

/-- the tables, by name, and `pg_get_indexdef` for an index and a position from one -/
structure Db where
  rows : Str → List Row
  indexdef : Int → Int → Str

def field (c : Str) : Row → Option Val
  | [] => none
  | (d, v) :: r => if d = c then some v else field c r

/-- the column of the table called `t` in the query -/
def ofTable (t c : Str) : List (Str × Row) → Val
  | [] => .null
  | (s, r) :: env => if s = t then (field c r).getD .null else ofTable t c env

/-- the column of any table -/
def ofAny (c : Str) : List (Str × Row) → Val
  | [] => .null
  | (_, r) :: env => match field c r with
    | some v => v
    | none => ofAny c env

def asText : Val → Str
  | .text s => s
  | _ => []

def asInt : Val → Int
  | .int i => i
  | _ => 0

/-- put a value in its place by its key -/
def insert (x : Int × Str) : List (Int × Str) → List (Int × Str)
  | [] => [x]
  | y :: l => if x.1 ≤ y.1 then x :: y :: l else y :: insert x l

def sorted : List (Int × Str) → List (Int × Str)
  | [] => []
  | x :: l => insert x (sorted l)

def plus : Val → Val → Val
  | .int a, .int b => .int (a + b)
  | _, _ => .null

def coalesce : Val → Val → Val
  | .null, b => b
  | a, _ => a

def indexdef (db : Db) : Val → Val → Val → Val
  | .int a, .int b, .bool _ => .text (db.indexdef a b)
  | _, _, _ => .null

/-- `GENERATE_SUBSCRIPTS(a, b)` -/
def subscripts : Val → Val → List Int
  | .vec l, .int i => if i = 1 then (List.range l.length).map Int.ofNat else []
  | _, _ => []

/-- the value of an expression over a row of every table of the query -/
def Ex.eval (db : Db) (args : List Val) : List (Str × Row) → Ex → Val
  | _, .lit s => .text s
  | _, .num n => .int n
  | _, .bool b => .bool b
  | _, .param i => args.getD i .null
  | env, .name c => ofAny c env
  | env, .col t c => ofTable t c env
  | env, .add a b => plus (a.eval db args env) (b.eval db args env)
  | env, .call2 f a b =>
    if f = c!"coalesce" then coalesce (a.eval db args env) (b.eval db args env) else .null
  | env, .call3 f a b c =>
    if f = c!"pg_get_indexdef" then indexdef db (a.eval db args env) (b.eval db args env) (c.eval db args env)
    else .null
  | env, .array e f a b k key =>
    if f = c!"generate_subscripts" then
      .texts ((sorted ((subscripts (a.eval db args env) (b.eval db args env)).map fun i =>
        (asInt (key.eval db args ((k, [(k, .int i)]) :: env)),
          asText (e.eval db args ((k, [(k, .int i)]) :: env))))).map Prod.snd)
    else .null
  | _, .unknown => .null

/-- `=` is true; for NULL it never is. -/
def same : Val → Val → Bool
  | .text a, .text b => decide (a = b)
  | .int a, .int b => decide (a = b)
  | .bool a, .bool b => decide (a = b)
  | _, _ => false

def atLeast : Val → Val → Bool
  | .int a, .int b => decide (a ≥ b)
  | _, _ => false

def elementOf : Val → Val → Bool
  | .int a, .vec l => decide (a ∈ l)
  | _, _ => false

def Cmp.holds (db : Db) (args : List Val) (env : List (Str × Row)) : Cmp → Bool
  | .eq a b => same (a.eval db args env) (b.eval db args env)
  | .ge a b => atLeast (a.eval db args env) (b.eval db args env)
  | .oneOf a l => l.any fun b => same (a.eval db args env) (b.eval db args env)
  | .any a b => elementOf (a.eval db args env) (b.eval db args env)

def holds (db : Db) (args : List Val) (env : List (Str × Row)) (c : List Cmp) : Bool := c.all (Cmp.holds db args env)

/-- the rows of a join for one row of what is left of it -/
def Join.rows (db : Db) (args : List Val) (env : List (Str × Row)) (j : Join) : List (List (Str × Row)) :=
  let l := ((db.rows j.src.table).map fun r => env ++ [(j.src.name, r)]).filter fun env => holds db args env j.on
  match j.kind, l with
  | .left, [] => [env ++ [(j.src.name, [])]]
  | _, l => l

def joinAll (db : Db) (args : List Val) : List (List (Str × Row)) → List Join → List (List (Str × Row))
  | l, [] => l
  | l, j :: js => joinAll db args (l.flatMap fun env => j.rows db args env) js

/-- the rows before ORDER BY, each with its keys -/
def Stmt.rows (db : Db) (args : List Val) (s : Stmt) : List (Row × List Val) :=
  ((joinAll db args ((db.rows s.src.table).map fun r => [(s.src.name, r)]) s.joins).filter fun env =>
    holds db args env s.cond).map fun env =>
    (s.items.map fun i => (i.2, i.1.eval db args env), s.keys.map (Ex.eval db args env))

/-- the order of rows by their keys, given that of values -/
def Before (le : Val → Val → Prop) : List Val → List Val → Prop
  | [], _ => True
  | _ :: _, [] => False
  | a :: as, b :: bs => le a b ∧ (le b a → Before le as bs)

/-- `out` is an answer to the statement: its rows in an order that ORDER BY allows. -/
def Answers (le : Val → Val → Prop) (db : Db) (args : List Val) (s : Stmt) (out : List Row) : Prop :=
  ∃ l : List (Row × List Val), l.Perm (s.rows db args) ∧ l.Pairwise (fun a b => Before le a.2 b.2) ∧ out = l.map Prod.fst

/-! ## Lemmas -/

theorem group_sep (st : List (List PT)) (rest : List T) : ∀ (l : List T) (cur : List PT),
    (∀ t ∈ l, t ≠ .sym '(' ∧ t ≠ .sym ')') →
    group cur st (l ++ rest) = group (cur ++ l.map .tok) st rest
  | [], cur, _ => by simp
  | t :: l, cur, h => by
    have ht := h t (by simp)
    have := group_sep st rest l (cur ++ [.tok t]) (fun x hx => h x (List.mem_cons_of_mem _ hx))
    have e : group cur st (t :: (l ++ rest)) = group (cur ++ [.tok t]) st (l ++ rest) := by
      rw [group.eq_def]
      simp only [ht.1, ht.2, if_false]
    rw [List.cons_append, e, this]
    simp

/-- list of tokens with commas between them -/
def commas : List T → List T
  | [] => []
  | [t] => [t]
  | t :: l => t :: .sym ',' :: commas l

theorem commas_plain (l : List T) (h : ∀ t ∈ l, t ≠ .sym '(' ∧ t ≠ .sym ')') :
    ∀ t ∈ commas l, t ≠ .sym '(' ∧ t ≠ .sym ')' := by
  fun_induction commas l with
  | case1 => simp
  | case2 t => simpa using h
  | case3 t l hne ih =>
    intro x hx
    rcases List.mem_cons.mp hx with rfl | hx
    · exact h _ (by simp)
    rcases List.mem_cons.mp hx with rfl | hx
    · decide
    · exact ih (fun y hy => h y (List.mem_cons_of_mem _ hy)) x hx

theorem split_commas (l : List T) (hne : l ≠ []) (h : ∀ t ∈ l, t ≠ .sym ',') :
    split (isSym ',') ((commas l).map .tok) = l.map fun t => [.tok t] := by
  have hs : ∀ t : T, t ≠ .sym ',' → isSym ',' (.tok t) = false := by
    intro t ht
    cases t with
    | sym c => simpa [isSym] using ht
    | _ => rfl
  fun_induction commas l with
  | case1 => exact absurd rfl hne
  | case2 t => simp [split, hs t (h t (by simp))]
  | case3 t l hl ih =>
    rw [List.map_cons, List.map_cons, split, hs t (h t (by simp))]
    have e : isSym ',' (.tok (.sym ',')) = true := by decide
    simp only [Bool.false_eq_true, if_false, split, e, if_true]
    rw [ih (by intro e; exact hl e) (fun y hy => h y (List.mem_cons_of_mem _ hy))]
    rfl

theorem sorted_id : ∀ l : List (Int × Str), l.Pairwise (fun a b => a.1 ≤ b.1) → sorted l = l
  | [], _ => rfl
  | [x], _ => rfl
  | x :: y :: l, h => by
    rw [sorted, sorted_id (y :: l) (List.pairwise_cons.mp h).2, insert,
      if_pos ((List.pairwise_cons.mp h).1 y (by simp))]

end Verif.Sql.Query
