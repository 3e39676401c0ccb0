import Mathlib.Tactic.Tauto
import Verif.Common
import Verif.Index.Model
/-!
# C41: PostgreSQL connection settings (`/repo/infra/postgres/config.go`)
-/
namespace Verif.Infra.Pg
open Verif.Index (joinWith)

abbrev Str := List Char

/-! ## Model -/

/-- `/repo/infra/postgres/config.go:9-17` `Config` -/
structure Config where
  user : Str
  password : Str
  host : Str
  port : Str
  dbName : Str
  searchPath : Str
  paramText : Str
deriving DecidableEq, Repr

/-- The environment variables, `os.Getenv` (unset and empty are the same). -/
abbrev Env := Str → Str

/-- `/repo/lib/env.go:8-14` `GetEnv`; the error carries the variable's name. -/
def getEnv (env : Env) (key : Str) : Except Str Str :=
  if (env key).length = 0 then .error key else .ok (env key)

/-- `/repo/infra/postgres/config.go:19-44` `NewConfigFromEnv` -/
def newConfigFromEnv (env : Env) : Except Str Config :=
  match getEnv env "DB_USERNAME".toList with
  | .error e => .error e
  | .ok username => match getEnv env "DB_DATABASE".toList with
    | .error e => .error e
    | .ok database => .ok
      { user := username
        password := env "DB_PASSWORD".toList
        host := env "DB_HOST".toList
        port := env "DB_PORT".toList
        dbName := database
        searchPath := env "DB_SEARCH_PATH".toList
        paramText := env "DB_PARAM_TEXT".toList }

/-- `key='value'` if the value is not empty, `/repo/infra/postgres/config.go:50-64` -/
def quotedSetting (key value : Str) : List Str :=
  if value ≠ [] then [key ++ '=' :: '\'' :: value ++ ['\'']] else []

/-- `/repo/infra/postgres/config.go:48-71` `GetKVConnectionString` -/
def connectionString (cfg : Config) : Str :=
  joinWith [' '] (
    quotedSetting "user".toList cfg.user ++
    quotedSetting "password".toList cfg.password ++
    quotedSetting "host".toList cfg.host ++
    quotedSetting "port".toList cfg.port ++
    quotedSetting "dbname".toList cfg.dbName ++
    (if cfg.paramText ≠ [] then [cfg.paramText] else []) ++
    ["sslmode=disable".toList])

/-- `/repo/infra/postgres/config.go:73-79` `GetSearchPathOrPublic` -/
def searchPathOrPublic (cfg : Config) : Str :=
  if cfg.searchPath = [] then "public".toList else cfg.searchPath

/-! ## Specification: how the driver reads a connection string

The grammar of libpq's key/value strings as read by `parseOpts` of `github.com/lib/pq` (a dependency,
not part of /repo). -/

/-- `unicode.IsSpace` -/
def isSpace (c : Char) : Bool :=
  c == ' ' || c == '\t' || c == '\n' || c == '\r' || c == '\x0b' || c == '\x0c' ||
  [0x85, 0xA0, 0x1680, 0x2028, 0x2029, 0x202f, 0x205f, 0x3000].contains c.toNat ||
  (0x2000 ≤ c.toNat && c.toNat ≤ 0x200a)

def skipSpaces : Str → Str := List.dropWhile isSpace

/-- a character of a key -/
def isKeyChar (c : Char) : Bool := !isSpace c && c != '='

/-- the rest of a quoted value after the opening quote: the value and what follows the closing quote -/
def readQuoted : Str → Option (Str × Str)
  | [] => none
  | '\'' :: r => some ([], r)
  | '\\' :: c :: r => (readQuoted r).map fun p => (c :: p.1, p.2)
  | '\\' :: [] => none
  | c :: r => (readQuoted r).map fun p => (c :: p.1, p.2)

/-- an unquoted value, up to the next space -/
def readPlain : Str → Option (Str × Str)
  | [] => some ([], [])
  | '\\' :: c :: r => (readPlain r).map fun p => (c :: p.1, p.2)
  | '\\' :: [] => none
  | c :: r => if isSpace c then some ([], r) else (readPlain r).map fun p => (c :: p.1, p.2)

/-- the settings of a connection string in order; `none` for a malformed string (or, with too little
fuel, an unread one) -/
def parseFuel : Nat → Str → Option (List (Str × Str))
  | 0, _ => none
  | n + 1, s =>
    match skipSpaces s with
    | [] => some []
    | s1 =>
      match skipSpaces (s1.dropWhile isKeyChar) with
      | '=' :: s2 =>
        match skipSpaces s2 with
        | [] => some [(s1.takeWhile isKeyChar, [])]
        | '\'' :: s3 => match readQuoted s3 with
          | none => none
          | some (v, r) => (parseFuel n r).map ((s1.takeWhile isKeyChar, v) :: ·)
        | s3 => match readPlain s3 with
          | none => none
          | some (v, r) => (parseFuel n r).map ((s1.takeWhile isKeyChar, v) :: ·)
      | _ => none

/-- the settings of a connection string -/
def parse (s : Str) : Option (List (Str × Str)) := parseFuel (s.length + 1) s

/-- the value in force: the last one given -/
def setting (k : Str) (l : List (Str × Str)) : Option Str :=
  ((l.filter (fun p => decide (p.1 = k))).map (·.2)).getLast?

/-- a value the quoting does not damage -/
def Clean (s : Str) : Prop := '\'' ∉ s ∧ '\\' ∉ s

/-- a key -/
def Key (s : Str) : Prop := s ≠ [] ∧ ∀ c ∈ s, isKeyChar c = true

/-- a value that may stand unquoted -/
def PlainValue (s : Str) : Prop :=
  s ≠ [] ∧ s.head? ≠ some '\'' ∧ ∀ c ∈ s, isSpace c = false ∧ c ≠ '\\'

/-- the settings the user asked for: the non-empty ones -/
def wanted (cfg : Config) : List (Str × Str) :=
  [("user".toList, cfg.user), ("password".toList, cfg.password), ("host".toList, cfg.host),
    ("port".toList, cfg.port), ("dbname".toList, cfg.dbName)].filter (fun p => decide (p.2 ≠ []))

/-- additional settings written as `key=value key=value …` -/
def paramsText (ps : List (Str × Str)) : Str := joinWith [' '] (ps.map fun p => p.1 ++ '=' :: p.2)

/-! ## Proofs -/

theorem readQuoted_cons (c : Char) (r : Str) (h1 : c ≠ '\'') (h2 : c ≠ '\\') :
    readQuoted (c :: r) = (readQuoted r).map fun p => (c :: p.1, p.2) := by
  rw [readQuoted.eq_def]
  split <;> simp_all

theorem readPlain_cons (c : Char) (r : Str) (h2 : c ≠ '\\') :
    readPlain (c :: r) =
      if isSpace c then some ([], r) else (readPlain r).map fun p => (c :: p.1, p.2) := by
  rw [readPlain.eq_def]
  split <;> simp_all

theorem readQuoted_clean (v r : Str) (h : Clean v) :
    readQuoted (v ++ '\'' :: r) = some (v, r) := by
  induction v with
  | nil => simp [readQuoted]
  | cons c v ih =>
    have h1 : c ≠ '\'' := fun e => h.1 (by simp [e])
    have h2 : c ≠ '\\' := fun e => h.2 (by simp [e])
    rw [List.cons_append, readQuoted_cons c _ h1 h2,
      ih ⟨fun e => h.1 (by simp [e]), fun e => h.2 (by simp [e])⟩]
    rfl

theorem readPlain_plain (v r : Str) (h : ∀ c ∈ v, isSpace c = false ∧ c ≠ '\\') :
    readPlain (v ++ ' ' :: r) = some (v, r) ∧ readPlain v = some (v, []) := by
  induction v with
  | nil => exact ⟨by rw [List.nil_append, readPlain_cons _ _ (by decide)]; rfl, rfl⟩
  | cons c v ih =>
    have ⟨i1, i2⟩ := ih (fun x hx => h x (List.mem_cons_of_mem _ hx))
    have hc := h c (by simp)
    constructor
    · rw [List.cons_append, readPlain_cons c _ hc.2, hc.1, i1]
      rfl
    · rw [readPlain_cons c _ hc.2, hc.1, i2]
      rfl

/-- a value read back after repeated backslashes cannot be what was written -/
theorem readQuoted_shift (rest : Str) : ∀ (n : Nat) (v : Str), v.length ≤ n → ∀ (k : Nat) (r : Str),
    readQuoted (v ++ '\'' :: rest) ≠ some (List.replicate (k + 1) '\\' ++ v, r)
  | _, [], _, k, r => by simp [readQuoted, List.replicate_succ]
  | 0, _ :: _, h, _, _ => absurd h (by simp)
  | n + 1, c :: t, hn, k, r => by
    intro h
    by_cases h1 : c = '\''
    · subst h1
      simp [readQuoted, List.replicate_succ] at h
    · by_cases h2 : c = '\\'
      · subst h2
        cases t with
        | nil =>
          simp only [List.cons_append, List.nil_append, readQuoted] at h
          cases hr : readQuoted rest with
          | none => simp [hr] at h
          | some p => simp [hr, List.replicate_succ] at h
        | cons d t =>
          simp only [List.cons_append, readQuoted] at h
          cases hr : readQuoted (t ++ '\'' :: rest) with
          | none => simp [hr] at h
          | some p =>
            simp only [hr, Option.map_some, Option.some.injEq, Prod.mk.injEq, List.replicate_succ,
              List.cons_append, List.cons.injEq] at h
            obtain ⟨⟨rfl, h3⟩, _⟩ := h
            refine readQuoted_shift rest n t (by simp at hn; omega) (k + 1) p.2 ?_
            rw [hr]
            have : p = (p.1, p.2) := rfl
            rw [this, h3]
            congr 2
            rw [List.replicate_succ', List.replicate_succ']
            simp
      · rw [List.cons_append, readQuoted_cons c _ h1 h2] at h
        cases hr : readQuoted (t ++ '\'' :: rest) with
        | none => simp [hr] at h
        | some p =>
          simp only [hr, Option.map_some, Option.some.injEq, Prod.mk.injEq, List.replicate_succ,
            List.cons_append, List.cons.injEq] at h
          exact h2 h.1.1

/-- only clean values are read back as written -/
theorem clean_of_readQuoted (rest : Str) : ∀ (v r : Str),
    readQuoted (v ++ '\'' :: rest) = some (v, r) → Clean v
  | [], _, _ => ⟨by simp, by simp⟩
  | c :: t, r, h => by
    by_cases h1 : c = '\''
    · subst h1
      simp [readQuoted] at h
    · by_cases h2 : c = '\\'
      · subst h2
        cases t with
        | nil =>
          simp only [List.cons_append, List.nil_append, readQuoted] at h
          cases hr : readQuoted rest with
          | none => simp [hr] at h
          | some p => simp [hr] at h
        | cons d t =>
          simp only [List.cons_append, readQuoted] at h
          cases hr : readQuoted (t ++ '\'' :: rest) with
          | none => simp [hr] at h
          | some p =>
            simp only [hr, Option.map_some, Option.some.injEq, Prod.mk.injEq, List.cons.injEq] at h
            obtain ⟨⟨rfl, h3⟩, _⟩ := h
            exfalso
            refine readQuoted_shift rest t.length t (by omega) 0 p.2 ?_
            rw [hr]
            have : p = (p.1, p.2) := rfl
            rw [this, h3]
            rfl
      · rw [List.cons_append, readQuoted_cons c _ h1 h2] at h
        cases hr : readQuoted (t ++ '\'' :: rest) with
        | none => simp [hr] at h
        | some p =>
          simp only [hr, Option.map_some, Option.some.injEq, Prod.mk.injEq, List.cons.injEq,
            true_and] at h
          have hc := clean_of_readQuoted rest t p.2 (by
            rw [hr]
            have : p = (p.1, p.2) := rfl
            rw [this, h.1])
          refine ⟨?_, ?_⟩
          · simp only [List.mem_cons, not_or]
            exact ⟨fun e => h1 e.symm, hc.1⟩
          · simp only [List.mem_cons, not_or]
            exact ⟨fun e => h2 e.symm, hc.2⟩

theorem skip_nonspace (c : Char) (s : Str) (h : isSpace c = false) : skipSpaces (c :: s) = c :: s := by
  simp [skipSpaces, List.dropWhile_cons, h]

theorem key_scan (k s : Str) (hk : ∀ c ∈ k, isKeyChar c = true) :
    (k ++ '=' :: s).takeWhile isKeyChar = k ∧ (k ++ '=' :: s).dropWhile isKeyChar = '=' :: s := by
  induction k with
  | nil =>
    have : isKeyChar '=' = false := by decide
    simp [List.takeWhile_cons, List.dropWhile_cons, this]
  | cons c k ih =>
    have hc := hk c (by simp)
    have := ih (fun x hx => hk x (List.mem_cons_of_mem _ hx))
    simp [List.takeWhile_cons, List.dropWhile_cons, hc, this.1, this.2]

theorem skip_key (k s : Str) (hk : Key k) : skipSpaces (k ++ s) = k ++ s := by
  cases k with
  | nil => exact absurd rfl hk.1
  | cons c k =>
    have := hk.2 c (by simp)
    rw [List.cons_append, skip_nonspace]
    unfold isKeyChar at this
    simp at this
    exact this.1

/-- one setting is read -/
theorem parse_step (n : Nat) (k s : Str) (hk : Key k) :
    parseFuel (n + 1) (k ++ '=' :: s) =
      match skipSpaces s with
      | [] => some [(k, [])]
      | '\'' :: s3 => match readQuoted s3 with
        | none => none
        | some (v, r) => (parseFuel n r).map ((k, v) :: ·)
      | s3 => match readPlain s3 with
        | none => none
        | some (v, r) => (parseFuel n r).map ((k, v) :: ·) := by
  have h1 := (key_scan k s hk.2).1
  have h2 := (key_scan k s hk.2).2
  rw [parseFuel, skip_key k _ hk]
  cases k with
  | nil => exact absurd rfl hk.1
  | cons c k =>
    simp only [List.cons_append] at h1 h2 ⊢
    rw [h1, h2, skip_nonspace '=' _ (by decide)]
    rfl

theorem parse_space (n : Nat) (s : Str) : parseFuel n (' ' :: s) = parseFuel n s := by
  cases n with
  | zero => rfl
  | succ n =>
    have : skipSpaces (' ' :: s) = skipSpaces s := by
      simp [skipSpaces, List.dropWhile_cons, show isSpace ' ' = true from by decide]
    rw [parseFuel, parseFuel, this]

theorem parse_quoted (n : Nat) (k v r : Str) (hk : Key k) (hv : Clean v) :
    parseFuel (n + 1) (k ++ '=' :: '\'' :: (v ++ '\'' :: r)) =
      (parseFuel n r).map ((k, v) :: ·) := by
  rw [parse_step n k _ hk, skip_nonspace '\'' _ (by decide)]
  simp only [readQuoted_clean v r hv]

theorem parse_plain (n : Nat) (k v r : Str) (hk : Key k) (hv : PlainValue v) :
    parseFuel (n + 1) (k ++ '=' :: (v ++ ' ' :: r)) = (parseFuel n r).map ((k, v) :: ·) ∧
    parseFuel (n + 1) (k ++ '=' :: v) = (parseFuel n []).map ((k, v) :: ·) := by
  obtain ⟨h1, h2, h3⟩ := hv
  cases v with
  | nil => exact absurd rfl h1
  | cons c v =>
    have hc := h3 c (by simp)
    have hq : c ≠ '\'' := fun e => h2 (by simp [e])
    have ⟨r1, r2⟩ := readPlain_plain (c :: v) r h3
    constructor
    · rw [parse_step n k _ hk, List.cons_append, skip_nonspace c _ hc.1]
      split
      · rename_i e; simp at e
      · rename_i e; simp at e; exact absurd e.1 hq
      · rename_i e; rw [← List.cons_append, r1]
    · rw [parse_step n k _ hk, skip_nonspace c _ hc.1]
      split
      · rename_i e; simp at e
      · rename_i e; simp at e; exact absurd e.1 hq
      · rename_i e; rw [r2]

/-- a piece of the connection string with the settings it stands for -/
inductive Piece where
  | quoted (k v : Str)
  | plain (k v : Str)

def Piece.text : Piece → Str
  | .quoted k v => k ++ '=' :: '\'' :: v ++ ['\'']
  | .plain k v => k ++ '=' :: v

def Piece.pair : Piece → Str × Str
  | .quoted k v => (k, v)
  | .plain k v => (k, v)

def Piece.Good : Piece → Prop
  | .quoted k v => Key k ∧ Clean v
  | .plain k v => Key k ∧ PlainValue v

theorem piece_step (n : Nat) (p : Piece) (h : p.Good) (r : Str) :
    parseFuel (n + 1) (p.text ++ ' ' :: r) = (parseFuel n r).map (p.pair :: ·) ∧
    parseFuel (n + 2) p.text = some [p.pair] := by
  have h0 : parseFuel (n + 1) [] = some [] := rfl
  cases p with
  | quoted k v =>
    constructor
    · have := parse_quoted n k v (' ' :: r) h.1 h.2
      rw [parse_space] at this
      simpa [Piece.text, Piece.pair] using this
    · have := parse_quoted (n + 1) k v [] h.1 h.2
      rw [h0] at this
      simpa [Piece.text, Piece.pair] using this
  | plain k v =>
    have := parse_plain n k v r h.1 h.2
    have t2 := (parse_plain (n + 1) k v r h.1 h.2).2
    rw [h0] at t2
    constructor
    · simpa [Piece.text, Piece.pair] using this.1
    · simpa [Piece.text, Piece.pair] using t2

theorem parse_pieces : ∀ (ps : List Piece) (n : Nat), (∀ p ∈ ps, p.Good) → ps.length < n →
    parseFuel n (joinWith [' '] (ps.map Piece.text)) = some (ps.map Piece.pair)
  | [], n + 1, _, _ => rfl
  | [p], n + 2, h, _ => by
    have := (piece_step n p (h p (by simp)) []).2
    simpa [joinWith] using this
  | p :: p' :: ps, n + 1, h, hn => by
    have ih := parse_pieces (p' :: ps) n (fun x hx => h x (List.mem_cons_of_mem _ hx)) (by
      simp at hn ⊢; omega)
    have := (piece_step n p (h p (by simp)) (joinWith [' '] ((p' :: ps).map Piece.text))).1
    rw [ih] at this
    simpa [joinWith] using this
  | _, 0, _, hn => absurd hn (by omega)
  | [p], 1, _, hn => absurd hn (by simp)

theorem length_pieces : ∀ (ps : List Piece), (∀ p ∈ ps, p.Good) →
    ps.length ≤ (joinWith [' '] (ps.map Piece.text)).length
  | [], _ => by simp
  | [p], h => by
    cases p <;> simp [joinWith, Piece.text] <;> omega
  | p :: p' :: ps, h => by
    have := length_pieces (p' :: ps) (fun x hx => h x (List.mem_cons_of_mem _ hx))
    simp only [List.map_cons, joinWith, List.length_append, List.length_cons, List.length_nil] at this ⊢
    omega

/-- the pieces of the connection string of a configuration -/
def pieces (cfg : Config) (ps : List (Str × Str)) : List Piece :=
  (wanted cfg).map (fun p => .quoted p.1 p.2) ++ ps.map (fun p => .plain p.1 p.2) ++
    [.plain "sslmode".toList "disable".toList]

theorem key_lit (s : Str) (h : (!s.isEmpty && s.all isKeyChar) = true) : Key s := by
  simp at h
  exact ⟨h.1, h.2⟩

theorem joinWith_append_ne (sep : Str) : ∀ (a b : List Str), a ≠ [] → b ≠ [] →
    joinWith sep (a ++ b) = joinWith sep a ++ sep ++ joinWith sep b
  | [], _, h, _ => absurd rfl h
  | [x], [], _, h => absurd rfl h
  | [x], y :: ys, _, _ => by simp [joinWith]
  | x :: x' :: xs, b, _, h => by
    have := joinWith_append_ne sep (x' :: xs) b (by simp) h
    simp only [List.cons_append, joinWith] at this ⊢
    rw [this]
    simp

theorem wanted_texts (cfg : Config) :
    (wanted cfg).map (fun p => (Piece.quoted p.1 p.2).text) =
      quotedSetting "user".toList cfg.user ++ quotedSetting "password".toList cfg.password ++
      quotedSetting "host".toList cfg.host ++ quotedSetting "port".toList cfg.port ++
      quotedSetting "dbname".toList cfg.dbName := by
  unfold wanted quotedSetting
  simp only [List.filter_cons, List.filter_nil, decide_eq_true_eq]
  split <;> split <;> split <;> split <;> split <;> simp_all [Piece.text]

/-- the connection string is made of these pieces -/
theorem connectionString_pieces (cfg : Config) (ps : List (Str × Str)) (h : cfg.paramText = paramsText ps)
    (hp : ∀ p ∈ ps, Key p.1 ∧ PlainValue p.2) :
    connectionString cfg = joinWith [' '] ((pieces cfg ps).map Piece.text) := by
  have hw := wanted_texts cfg
  unfold connectionString pieces
  rw [List.map_append, List.map_append, List.map_map, List.map_map]
  have e1 : (Piece.text ∘ fun p : Str × Str => Piece.quoted p.1 p.2) =
      fun p => (Piece.quoted p.1 p.2).text := rfl
  rw [e1, hw]
  have hss : [Piece.plain "sslmode".toList "disable".toList].map Piece.text =
      ["sslmode=disable".toList] := by simp [Piece.text]
  rw [hss]
  generalize quotedSetting "user".toList cfg.user ++ quotedSetting "password".toList cfg.password ++
      quotedSetting "host".toList cfg.host ++ quotedSetting "port".toList cfg.port ++
      quotedSetting "dbname".toList cfg.dbName = A
  have e2 : (Piece.text ∘ fun p : Str × Str => Piece.plain p.1 p.2) = fun p => p.1 ++ '=' :: p.2 := rfl
  rw [e2]
  cases ps with
  | nil =>
    have : cfg.paramText = [] := by rw [h]; rfl
    simp [this]
  | cons p ps =>
    have hne : cfg.paramText ≠ [] := by
      rw [h]
      have : Key p.1 := (hp p (by simp)).1
      unfold paramsText
      cases ps <;> cases hp1 : p.1 <;> simp [joinWith, hp1]
    rw [if_pos hne, h]
    unfold paramsText
    rw [List.append_assoc, List.append_assoc]
    have key : ∀ (L : List Str), L ≠ [] →
        joinWith [' '] ([joinWith [' '] L] ++ ["sslmode=disable".toList]) =
          joinWith [' '] (L ++ ["sslmode=disable".toList]) := by
      intro L hL
      rw [joinWith_append_ne _ L _ hL (by simp), joinWith_append_ne _ [_] _ (by simp) (by simp)]
      rfl
    by_cases hA : A = []
    · subst hA
      rw [List.nil_append, List.nil_append]
      exact key _ (by simp)
    · rw [joinWith_append_ne _ A _ hA (by simp), joinWith_append_ne _ A _ hA (by simp), key _ (by simp)]

theorem wanted_keys (cfg : Config) : ∀ p ∈ wanted cfg, Key p.1 := by
  intro p hp
  unfold wanted at hp
  have hp := (List.mem_filter.mp hp).1
  simp only [List.mem_cons, List.not_mem_nil, or_false] at hp
  rcases hp with rfl | rfl | rfl | rfl | rfl <;> apply key_lit <;> simp only <;> decide +kernel

theorem ssl_good : (Piece.plain "sslmode".toList "disable".toList).Good := by
  refine ⟨key_lit _ (by decide +kernel), by simp, by decide +kernel, ?_⟩
  have : ("disable".toList.all fun c => !isSpace c && c != '\\') = true := by decide +kernel
  intro c hc
  have := List.all_eq_true.mp this c hc
  simpa using this

/-- C41: values without quotes and backslashes arrive unchanged, followed by the additional
parameters and the fixed `sslmode=disable`. -/
theorem C41_roundtrip (cfg : Config) (ps : List (Str × Str)) (h : cfg.paramText = paramsText ps)
    (hp : ∀ p ∈ ps, Key p.1 ∧ PlainValue p.2) (hc : ∀ p ∈ wanted cfg, Clean p.2) :
    parse (connectionString cfg) =
      some (wanted cfg ++ ps ++ [("sslmode".toList, "disable".toList)]) := by
  have hg : ∀ p ∈ pieces cfg ps, p.Good := by
    intro p hm
    unfold pieces at hm
    rcases List.mem_append.mp hm with hm | hm
    · rcases List.mem_append.mp hm with hm | hm
      · obtain ⟨q, hq, rfl⟩ := List.mem_map.mp hm
        exact ⟨wanted_keys cfg q hq, hc q hq⟩
      · obtain ⟨q, hq, rfl⟩ := List.mem_map.mp hm
        exact hp q hq
    · simp only [List.mem_singleton] at hm
      subst hm
      exact ssl_good
  unfold parse
  rw [connectionString_pieces cfg ps h hp]
  rw [parse_pieces (pieces cfg ps) _ hg (by have := length_pieces (pieces cfg ps) hg; omega)]
  unfold pieces
  simp only [List.map_append, List.map_map, List.map_cons, List.map_nil, Piece.pair]
  have e1 : (Piece.pair ∘ fun p : Str × Str => Piece.quoted p.1 p.2) = id := rfl
  have e2 : (Piece.pair ∘ fun p : Str × Str => Piece.plain p.1 p.2) = id := rfl
  rw [e1, e2, List.map_id, List.map_id]

/-- C41: and only such values do: the settings arrive as given exactly when no value contains a
quote or a backslash. -/
theorem C41_iff_clean (cfg : Config) (h : cfg.paramText = []) :
    parse (connectionString cfg) = some (wanted cfg ++ [("sslmode".toList, "disable".toList)]) ↔
      ∀ p ∈ wanted cfg, Clean p.2 := by
  constructor
  · intro hpar
    unfold parse at hpar
    rw [connectionString_pieces cfg [] (by rw [h]; rfl) (by simp)] at hpar
    have key : ∀ (n : Nat) (ws : List (Str × Str)) (p : Piece), (∀ w ∈ ws, Key w.1) →
        parseFuel n (joinWith [' '] ((ws.map (fun p => Piece.quoted p.1 p.2) ++ [p]).map Piece.text)) =
          some (ws ++ [p.pair]) → ∀ w ∈ ws, Clean w.2 := by
      intro n ws p
      induction ws generalizing n with
      | nil => intro _ _ w hw; cases hw
      | cons w ws ih =>
        intro hk hpar
        cases n with
        | zero => simp [parseFuel] at hpar
        | succ n =>
          obtain ⟨r, hr⟩ : ∃ r : Str, joinWith [' '] (((w :: ws).map (fun p => Piece.quoted p.1 p.2) ++ [p]).map
              Piece.text) = w.1 ++ '=' :: '\'' :: (w.2 ++ '\'' :: ' ' :: r) ∧
              r = joinWith [' '] ((ws.map (fun p => Piece.quoted p.1 p.2) ++ [p]).map Piece.text) := by
            refine ⟨_, ?_, rfl⟩
            cases ws <;> simp [joinWith, Piece.text]
          rw [hr.1, parse_step n w.1 _ (hk w (by simp)), skip_nonspace '\'' _ (by decide)] at hpar
          simp only at hpar
          cases hq : readQuoted (w.2 ++ '\'' :: ' ' :: r) with
          | none => simp [hq] at hpar
          | some q =>
            obtain ⟨v, r'⟩ := q
            simp only [hq] at hpar
            cases hrest : parseFuel n r' with
            | none => simp [hrest] at hpar
            | some rest =>
              simp only [hrest, Option.map_some, Option.some.injEq, List.cons_append,
                List.cons.injEq] at hpar
              obtain ⟨hw, hrest2⟩ := hpar
              have hv : v = w.2 := by rw [← hw]
              subst hv
              have hcl := clean_of_readQuoted _ _ _ hq
              have hq' := readQuoted_clean w.2 (' ' :: r) hcl
              rw [hq', Option.some.injEq, Prod.mk.injEq] at hq
              rw [← hq.2, parse_space, hr.2, hrest2] at hrest
              intro x hx
              rcases List.mem_cons.mp hx with rfl | hx
              · exact hcl
              · exact ih n (fun y hy => hk y (List.mem_cons_of_mem _ hy)) hrest x hx
    unfold pieces at hpar
    simp only [List.map_nil, List.append_nil] at hpar
    exact key _ (wanted cfg) (.plain "sslmode".toList "disable".toList) (wanted_keys cfg) hpar
  · intro hc
    have := C41_roundtrip cfg [] (by rw [h]; rfl) (by simp) hc
    simpa using this

/-- C41: encryption cannot be asked for: whatever `DB_PARAM_TEXT` says, the `sslmode` in force is
`disable`. -/
theorem C41_sslmode_always_disabled (cfg : Config) (ps : List (Str × Str))
    (h : cfg.paramText = paramsText ps) (hp : ∀ p ∈ ps, Key p.1 ∧ PlainValue p.2)
    (hc : ∀ p ∈ wanted cfg, Clean p.2) :
    (parse (connectionString cfg)).map (setting "sslmode".toList) =
      some (some "disable".toList) := by
  rw [C41_roundtrip cfg ps h hp hc]
  simp [setting]

/-- C41: a database name can redirect the connection to another host. -/
theorem C41_injection : ∃ cfg : Config, cfg.host = "db".toList ∧ cfg.paramText = [] ∧
    ((parse (connectionString cfg)).map (setting "host".toList)) = some (some "evil".toList) :=
  ⟨⟨"u".toList, "p".toList, "db".toList, [], "x' host='evil".toList, [], []⟩, rfl, rfl,
    by decide +kernel⟩

/-- C41: a backslash in the password disappears. -/
theorem C41_backslash : ∃ cfg : Config, cfg.password = "a\\b".toList ∧ cfg.paramText = [] ∧
    ((parse (connectionString cfg)).map (setting "password".toList)) = some (some "ab".toList) :=
  ⟨⟨"u".toList, "a\\b".toList, [], [], "d".toList, [], []⟩, rfl, rfl, by decide +kernel⟩

/-- C41: reading the environment fails exactly if a required variable is missing, and otherwise
takes every variable as it is. -/
theorem C41_env (env : Env) :
    (∀ k, newConfigFromEnv env = .error k ↔ (k = "DB_USERNAME".toList ∧ env "DB_USERNAME".toList = []) ∨
      (k = "DB_DATABASE".toList ∧ env "DB_USERNAME".toList ≠ [] ∧ env "DB_DATABASE".toList = [])) ∧
    ∀ cfg, newConfigFromEnv env = .ok cfg →
      cfg.user ≠ [] ∧ cfg.dbName ≠ [] ∧ cfg.user = env "DB_USERNAME".toList ∧
      cfg.password = env "DB_PASSWORD".toList ∧ cfg.host = env "DB_HOST".toList ∧
      cfg.port = env "DB_PORT".toList ∧ cfg.dbName = env "DB_DATABASE".toList ∧
      cfg.paramText = env "DB_PARAM_TEXT".toList ∧
      (env "DB_SEARCH_PATH".toList = [] → searchPathOrPublic cfg = "public".toList) ∧
      (env "DB_SEARCH_PATH".toList ≠ [] → searchPathOrPublic cfg = env "DB_SEARCH_PATH".toList) := by
  unfold newConfigFromEnv getEnv
  simp only [List.length_eq_zero_iff]
  generalize "DB_USERNAME".toList = u
  generalize "DB_DATABASE".toList = d
  by_cases h1 : env u = []
  · simp only [h1, if_true, ne_eq, not_true_eq_false, false_and, and_false, or_false, and_true]
    refine ⟨fun k => ?_, fun cfg h => by cases h⟩
    rw [Except.error.injEq]
    exact eq_comm
  · by_cases h2 : env d = []
    · simp only [h1, h2, if_true, if_false, and_false, false_or, ne_eq, not_false_eq_true, and_true]
      refine ⟨fun k => ?_, fun cfg h => by cases h⟩
      rw [Except.error.injEq]
      exact eq_comm
    · simp only [h1, h2, if_false, and_false, or_false, iff_false]
      refine ⟨fun k => by simp, ?_⟩
      intro cfg h
      injection h with h
      subst h
      exact ⟨h1, h2, rfl, rfl, rfl, rfl, rfl, rfl, fun h => if_pos h, fun h => if_neg h⟩

/-- a configuration with an additional parameter -/
example : parse (connectionString ⟨"me".toList, "pass word".toList, [], "5432".toList, "d".toList, [],
      "connect_timeout=3".toList⟩) =
    some [("user".toList, "me".toList), ("password".toList, "pass word".toList),
      ("port".toList, "5432".toList), ("dbname".toList, "d".toList),
      ("connect_timeout".toList, "3".toList), ("sslmode".toList, "disable".toList)] := by
  decide +kernel

end Verif.Infra.Pg
