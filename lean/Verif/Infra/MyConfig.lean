import Mathlib.Tactic.Tauto
import Mathlib.Data.List.Basic
import Verif.Common
/-!
# C89: MySQL connection settings (`/repo/infra/mysql/config.go`)
-/
namespace Verif.Infra.My

abbrev Str := List Char

/-! ## Model -/

/-- `/repo/infra/mysql/config.go:9-12` `Config`: the fields of `mysql.Config` (`github.com/go-sql-driver/mysql` v1.6.0)
that are set; all others have the defaults of `NewConfig` -/
structure Config where
  user : Str
  password : Str
  net : Str
  addr : Str
  dbName : Str
  paramText : Str
deriving DecidableEq, Repr

/-- the environment variables, `os.Getenv` (unset and empty are the same) -/
abbrev Env := Str → Str

/-- `/repo/lib/env.go:8-14` `GetEnv`; the error carries the variable's name. -/
def getEnv (env : Env) (key : Str) : Except Str Str :=
  if (env key).length = 0 then .error key else .ok (env key)

@[irreducible] def tcp : Str := "tcp".toList
@[irreducible] def unixNet : Str := "unix".toList
@[irreducible] def kUser : Str := "DB_USERNAME".toList
@[irreducible] def kPassword : Str := "DB_PASSWORD".toList
@[irreducible] def kProtocol : Str := "DB_PROTOCOL".toList
@[irreducible] def kAddress : Str := "DB_ADDRESS".toList
@[irreducible] def kDatabase : Str := "DB_DATABASE".toList
@[irreducible] def kParams : Str := "DB_PARAM_TEXT".toList

/-- `/repo/infra/mysql/config.go:14-46` `NewConfigFromEnv` -/
def newConfigFromEnv (env : Env) : Except Str Config :=
  match getEnv env kUser with
  | .error e => .error e
  | .ok username => match getEnv env kDatabase with
    | .error e => .error e
    | .ok database => .ok
      { user := username
        password := env kPassword
        net := if (env kProtocol).length = 0 then tcp else env kProtocol
        addr := env kAddress
        dbName := database
        paramText := env kParams }

/-- `FormatDSN` of the driver (`dsn.go`), for a configuration whose other fields are the defaults, so that it writes no
parameters -/
def formatDSN (cfg : Config) : Str :=
  (if cfg.user ≠ [] then cfg.user ++ (if cfg.password ≠ [] then ':' :: cfg.password else []) ++ ['@'] else []) ++
  (if cfg.net ≠ [] then cfg.net ++ (if cfg.addr ≠ [] then '(' :: cfg.addr ++ [')'] else []) else []) ++
  '/' :: cfg.dbName

/-- `/repo/infra/mysql/config.go:48-55` `ToDSN` -/
def toDSN (cfg : Config) : Str :=
  if cfg.paramText ≠ [] then formatDSN cfg ++ '?' :: cfg.paramText else formatDSN cfg

/-! ### the driver's side: `ParseDSN` (`dsn.go`) -/

inductive DErr where
  | noSlash
  | badAddr
  | unknownNet
deriving DecidableEq, Repr

/-- what the driver understands -/
structure Target where
  user : Str
  password : Str
  net : Str
  addr : Str
  dbName : Str
  /-- the text of the parameters, which the driver reads next; what it makes of them is not modelled -/
  params : Str
deriving DecidableEq, Repr

/-- around the last `c` -/
def lastSplit (c : Char) (s : Str) : Option (Str × Str) :=
  if c ∈ s then
    some (((s.reverse.dropWhile (· ≠ c)).drop 1).reverse, (s.reverse.takeWhile (· ≠ c)).reverse)
  else none

/-- up to the first `c` -/
def before (c : Char) (s : Str) : Str := s.takeWhile (· ≠ c)
/-- after the first `c`, nothing if there is none -/
def after (c : Char) (s : Str) : Str := (s.dropWhile (· ≠ c)).drop 1

/-- `protocol(address)` -/
def readNet (s : Str) : Except DErr (Str × Str) :=
  if '(' ∈ s then
    if (after '(' s).getLast? = some ')' then .ok (before '(' s, (after '(' s).dropLast) else .error .badAddr
  else .ok (s, [])

/-- the loop of `ParseDSN` -/
def splitDSN (dsn : Str) : Except DErr Target :=
  match lastSplit '/' dsn with
  | none => if dsn = [] then .ok ⟨[], [], [], [], [], []⟩ else .error .noSlash
  | some (left, right) =>
    let (login, netaddr) := (lastSplit '@' left).getD ([], left)
    match readNet netaddr with
    | .error e => .error e
    | .ok (net, addr) => .ok ⟨before ':' login, after ':' login, net, addr, before '?' right, after '?' right⟩

@[irreducible] def defaultTcp : Str := "127.0.0.1:3306".toList
@[irreducible] def defaultUnix : Str := "/tmp/mysql.sock".toList

/-- `normalize` of the driver; `ensurePort` is `ensureHavePort` -/
def normalize (ensurePort : Str → Str) (t : Target) : Except DErr Target :=
  let t := if t.net = [] then { t with net := tcp } else t
  if t.addr = [] then
    if t.net = tcp then .ok { t with addr := defaultTcp }
    else if t.net = unixNet then .ok { t with addr := defaultUnix }
    else .error .unknownNet
  else if t.net = tcp then .ok { t with addr := ensurePort t.addr }
  else .ok t

def parseDSN (ensurePort : Str → Str) (dsn : Str) : Except DErr Target :=
  match splitDSN dsn with
  | .error e => .error e
  | .ok t => normalize ensurePort t

/-! ## Specification -/

/-- settings whose texts do not collide with the separators; a password may contain anything, an address all but `@` -/
structure Clean (cfg : Config) : Prop where
  user : ':' ∉ cfg.user
  net : '@' ∉ cfg.net ∧ '(' ∉ cfg.net
  addr : '@' ∉ cfg.addr
  db : '/' ∉ cfg.dbName ∧ '?' ∉ cfg.dbName
  params : '/' ∉ cfg.paramText

instance (cfg : Config) : Decidable (Clean cfg) :=
  decidable_of_iff (':' ∉ cfg.user ∧ ('@' ∉ cfg.net ∧ '(' ∉ cfg.net) ∧ '@' ∉ cfg.addr ∧
    ('/' ∉ cfg.dbName ∧ '?' ∉ cfg.dbName) ∧ '/' ∉ cfg.paramText)
    ⟨fun h => ⟨h.1, h.2.1, h.2.2.1, h.2.2.2.1, h.2.2.2.2⟩, fun h => ⟨h.user, h.net, h.addr, h.db, h.params⟩⟩

/-- where a connection should go: the address given, with the default port for TCP, or the default one -/
def Reaches (ensurePort : Str → Str) (net addr : Str) : Option Str :=
  if addr ≠ [] then some (if net = "tcp".toList then ensurePort addr else addr)
  else if net = "tcp".toList then some "127.0.0.1:3306".toList
  else if net = "unix".toList then some "/tmp/mysql.sock".toList else none

theorem net_names : "tcp".toList = tcp ∧ "unix".toList = unixNet ∧ "127.0.0.1:3306".toList = defaultTcp ∧
    "/tmp/mysql.sock".toList = defaultUnix := by
  unfold tcp unixNet defaultTcp defaultUnix
  decide +kernel

/-! ## Proofs -/

theorem takeWhile_all (c : Char) (l : Str) (h : c ∉ l) : l.takeWhile (· ≠ c) = l := by
  induction l with
  | nil => rfl
  | cons a l ih =>
    rw [List.mem_cons, not_or] at h
    rw [List.takeWhile_cons, if_pos (by simpa using Ne.symm h.1), ih h.2]

theorem takeWhile_stop (c : Char) (l r : Str) (h : c ∉ l) : (l ++ c :: r).takeWhile (· ≠ c) = l := by
  induction l with
  | nil => simp
  | cons a l ih =>
    rw [List.mem_cons, not_or] at h
    rw [List.cons_append, List.takeWhile_cons, if_pos (by simpa using Ne.symm h.1), ih h.2]

theorem dropWhile_stop (c : Char) (l r : Str) (h : c ∉ l) : (l ++ c :: r).dropWhile (· ≠ c) = c :: r := by
  induction l with
  | nil => simp
  | cons a l ih =>
    rw [List.mem_cons, not_or] at h
    rw [List.cons_append, List.dropWhile_cons, if_pos (by simpa using Ne.symm h.1), ih h.2]

theorem before_eq (c : Char) (l r : Str) (h : c ∉ l) : before c (l ++ c :: r) = l := takeWhile_stop c l r h
theorem after_eq (c : Char) (l r : Str) (h : c ∉ l) : after c (l ++ c :: r) = r := by
  rw [after, dropWhile_stop c l r h]; rfl
theorem before_none (c : Char) (l : Str) (h : c ∉ l) : before c l = l := takeWhile_all c l h
theorem after_none (c : Char) (l : Str) (h : c ∉ l) : after c l = [] := by
  have : l.dropWhile (· ≠ c) = [] := by
    induction l with
    | nil => rfl
    | cons a l ih =>
      rw [List.mem_cons, not_or] at h
      rw [List.dropWhile_cons, if_pos (by simpa using Ne.symm h.1), ih h.2]
  rw [after, this]; rfl
theorem not_mem_before (c : Char) (l : Str) : c ∉ before c l := by
  intro h
  have := List.all_eq_true.1 (List.all_takeWhile (p := fun x => decide (x ≠ c)) (l := l)) c h
  simp at this

/-- a text splits at its first `c` -/
theorem split_first (c : Char) (l : Str) (h : c ∈ l) : l = before c l ++ c :: after c l := by
  induction l with
  | nil => cases h
  | cons a l ih =>
    by_cases e : a = c
    · subst e; simp [before, after]
    · have : c ∈ l := by
        rw [List.mem_cons] at h
        exact h.resolve_left (Ne.symm e)
      conv_lhs => rw [ih this]
      simp [before, after, e]

theorem lastSplit_eq (c : Char) (l r : Str) (h : c ∉ r) : lastSplit c (l ++ c :: r) = some (l, r) := by
  have e : (l ++ c :: r).reverse = r.reverse ++ c :: l.reverse := by simp
  have h' : c ∉ r.reverse := by simpa using h
  rw [lastSplit, if_pos (by simp), e, takeWhile_stop _ _ _ h', dropWhile_stop _ _ _ h']
  simp

theorem lastSplit_none (c : Char) (l : Str) (h : c ∉ l) : lastSplit c l = none := by rw [lastSplit, if_neg h]

/-- a text splits at its last `c` -/
theorem split_last (c : Char) (l : Str) (h : c ∈ l) : ∃ a b, l = a ++ c :: b ∧ c ∉ b := by
  have h' : c ∈ l.reverse := by simpa using h
  refine ⟨(after c l.reverse).reverse, (before c l.reverse).reverse, ?_, by simpa using not_mem_before c _⟩
  have := congrArg List.reverse (split_first c _ h')
  simpa using this

/-- the text in front of the database -/
def left (cfg : Config) : Str :=
  cfg.user ++ (if cfg.password ≠ [] then ':' :: cfg.password else []) ++ '@' ::
    (cfg.net ++ (if cfg.addr ≠ [] then '(' :: cfg.addr ++ [')'] else []))
def right (cfg : Config) : Str := cfg.dbName ++ (if cfg.paramText ≠ [] then '?' :: cfg.paramText else [])

theorem toDSN_eq (cfg : Config) (hu : cfg.user ≠ []) (hn : cfg.net ≠ []) : toDSN cfg = left cfg ++ '/' :: right cfg := by
  unfold toDSN formatDSN left right
  rw [if_pos hu, if_pos hn]
  split <;> simp

theorem readNet_eq (net addr : Str) (h : '(' ∉ net) :
    readNet (net ++ (if addr ≠ [] then '(' :: addr ++ [')'] else [])) = .ok (net, addr) := by
  by_cases ha : addr ≠ []
  · have e : net ++ (if addr ≠ [] then '(' :: addr ++ [')'] else []) = net ++ '(' :: (addr ++ [')']) := by simp [ha]
    rw [e, readNet, if_pos (by simp), before_eq _ _ _ h, after_eq _ _ _ h]
    simp
  · simp only [ne_eq, not_not] at ha
    subst ha
    rw [readNet, if_neg (by simpa using h)]
    simp

theorem split_clean (cfg : Config) (hu : cfg.user ≠ []) (hn : cfg.net ≠ []) (h : Clean cfg) :
    splitDSN (toDSN cfg) = .ok ⟨cfg.user, cfg.password, cfg.net, cfg.addr, cfg.dbName, cfg.paramText⟩ := by
  have h1 : '/' ∉ right cfg := by
    have := h.db; have := h.params
    unfold right
    split <;> simp_all
  have h2 : '@' ∉ cfg.net ++ (if cfg.addr ≠ [] then '(' :: cfg.addr ++ [')'] else []) := by
    have := h.net; have := h.addr
    split <;> simp_all
  have h3 : before ':' (cfg.user ++ (if cfg.password ≠ [] then ':' :: cfg.password else [])) = cfg.user ∧
      after ':' (cfg.user ++ (if cfg.password ≠ [] then ':' :: cfg.password else [])) = cfg.password := by
    by_cases hp : cfg.password ≠ []
    · rw [if_pos hp]; exact ⟨before_eq _ _ _ h.user, after_eq _ _ _ h.user⟩
    · rw [if_neg hp, List.append_nil, before_none _ _ h.user, after_none _ _ h.user]
      simpa using hp
  have h4 : before '?' (right cfg) = cfg.dbName ∧ after '?' (right cfg) = cfg.paramText := by
    unfold right
    by_cases hp : cfg.paramText ≠ []
    · rw [if_pos hp]; exact ⟨before_eq _ _ _ h.db.2, after_eq _ _ _ h.db.2⟩
    · rw [if_neg hp, List.append_nil, before_none _ _ h.db.2, after_none _ _ h.db.2]
      simpa using hp
  rw [toDSN_eq cfg hu hn, splitDSN, lastSplit_eq _ _ _ h1]
  simp only []
  rw [left, lastSplit_eq _ _ _ h2]
  simp only [Option.getD_some, readNet_eq _ _ h.net.2, h3, h4]

/-- protocol and address -/
def wire (cfg : Config) : Str := cfg.net ++ (if cfg.addr ≠ [] then '(' :: cfg.addr ++ [')'] else [])

theorem left_eq (cfg : Config) : left cfg =
    (cfg.user ++ (if cfg.password ≠ [] then ':' :: cfg.password else [])) ++ '@' :: wire cfg := rfl

theorem suffix_last (c : Char) (a b x y : Str) (h : a ++ c :: y = b ++ c :: x) (hy : c ∉ y) : y <:+ x := by
  rw [List.append_eq_append_iff] at h
  rcases h with ⟨z, rfl, h⟩ | ⟨z, rfl, h⟩
  · cases z with
    | nil => injection h with _ h; rw [h]; exact List.suffix_rfl
    | cons d z =>
      injection h with _ h
      exact absurd (by rw [h]; simp) hy
  · cases z with
    | nil => injection h with _ h; rw [h]; exact List.suffix_rfl
    | cons d z =>
      injection h with _ h
      exact ⟨z ++ [c], by rw [h]; simp⟩

theorem readNet_inv (n net addr : Str) (h : readNet n = .ok (net, addr)) :
    ('(' ∉ net ∧ n = net ++ '(' :: (addr ++ [')'])) ∨ ('(' ∉ n ∧ n = net ∧ addr = []) := by
  unfold readNet at h
  split at h
  · next hm =>
    split at h
    · next hl =>
      left
      injection h with h
      injection h with h1 h2
      subst h1 h2
      refine ⟨not_mem_before _ _, ?_⟩
      have : (after '(' n).dropLast ++ [')'] = after '(' n := List.dropLast_append_getLast? _ hl
      rw [this]
      exact split_first _ _ hm
    · cases h
  · next hm =>
    right
    injection h with h
    injection h with h1 h2
    exact ⟨hm, h1, h2.symm⟩

/-! ## C89 -/

/-- C89: with settings that do not collide with the separators of a data source name, the driver gets exactly the user, the
password (which may contain anything), the protocol, the database and the parameters given, and connects to the address
given, or to the default one of the protocol.  Full claim: for all settings, which `C89_user_colon` and
`C89_database_cut` refute. -/
theorem C89_roundtrip_partial (ensurePort : Str → Str) (cfg : Config) (hu : cfg.user ≠ []) (hn : cfg.net ≠ [])
    (h : Clean cfg) :
    (∀ a, Reaches ensurePort cfg.net cfg.addr = some a → parseDSN ensurePort (toDSN cfg) =
      .ok ⟨cfg.user, cfg.password, cfg.net, a, cfg.dbName, cfg.paramText⟩) ∧
    (Reaches ensurePort cfg.net cfg.addr = none → parseDSN ensurePort (toDSN cfg) = .error .unknownNet) := by
  have hd : tcp ≠ unixNet := by decide +kernel
  rw [parseDSN, split_clean cfg hu hn h]
  simp only [normalize, if_neg hn, Reaches, net_names.1, net_names.2.1, net_names.2.2.1, net_names.2.2.2]
  by_cases ha : cfg.addr = [] <;> by_cases ht : cfg.net = tcp <;> by_cases hx : cfg.net = unixNet <;> simp_all

/-- C89: without parameters these settings are the only ones that the driver reads back. -/
theorem C89_iff (cfg : Config) (hu : cfg.user ≠ []) (hn : cfg.net ≠ []) (hp : cfg.paramText = []) :
    splitDSN (toDSN cfg) = .ok ⟨cfg.user, cfg.password, cfg.net, cfg.addr, cfg.dbName, []⟩ ↔ Clean cfg := by
  constructor
  swap
  · intro h
    have := split_clean cfg hu hn h
    rw [hp] at this
    exact this
  intro h
  have hr : right cfg = cfg.dbName := by unfold right; rw [if_neg (by simpa using hp), List.append_nil]
  rw [toDSN_eq cfg hu hn, hr, splitDSN] at h
  obtain ⟨a, b, e, hb⟩ := split_last '/' (left cfg ++ '/' :: cfg.dbName) (by simp)
  rw [e, lastSplit_eq _ _ _ hb] at h
  simp only [] at h
  -- the database
  have hdb : '/' ∉ cfg.dbName ∧ '?' ∉ cfg.dbName := by
    cases h5 : readNet ((lastSplit '@' a).getD ([], a)).2 with
    | error x => rw [h5] at h; cases h
    | ok na =>
      rw [h5] at h
      injection h with h
      injection h with _ _ _ _ h6 h7
      refine ⟨fun hm => hb ?_, ?_⟩
      · rw [← h6] at hm
        exact (List.takeWhile_sublist _).subset hm
      · rw [← h6]; exact not_mem_before _ _
  have e2 : a = left cfg ∧ b = cfg.dbName := by
    have h1 := lastSplit_eq '/' a b hb
    rw [← e, lastSplit_eq _ _ _ hdb.1] at h1
    injection h1 with h1
    injection h1 with h2 h3
    exact ⟨h2.symm, h3.symm⟩
  obtain ⟨rfl, rfl⟩ := e2
  obtain ⟨l, n, e3, hn2⟩ := split_last '@' (left cfg) (by unfold left; simp)
  rw [e3, lastSplit_eq _ _ _ hn2] at h
  simp only [Option.getD_some] at h
  cases h5 : readNet n with
  | error x => rw [h5] at h; cases h
  | ok na =>
    obtain ⟨net', addr'⟩ := na
    rw [h5] at h
    injection h with h
    injection h with h1 h2 h3 h4 _ _
    subst h3 h4
    have hs := suffix_last '@' l _ _ n (e3.symm.trans (left_eq cfg)) hn2
    rcases readNet_inv n _ _ h5 with ⟨h6, h7⟩ | ⟨h6, h7⟩
    · by_cases ha : cfg.addr ≠ []
      · have : n = wire cfg := by
          rw [wire, if_pos ha, h7, List.cons_append]
        exact ⟨by rw [← h1]; exact not_mem_before _ _, ⟨fun hm => hn2 (by rw [this, wire]; simp [hm]), h6⟩,
          fun hm => hn2 (by rw [h7]; simp [hm]), hdb, by rw [hp]; simp⟩
      · have := hs.length_le
        rw [h7, wire, if_neg ha] at this
        simp at this
        omega
    · by_cases ha : cfg.addr ≠ []
      · exact absurd h7.2 ha
      · refine ⟨by rw [← h1]; exact not_mem_before _ _, ⟨fun hm => hn2 (by rw [h7.1]; exact hm), ?_⟩, ?_, hdb, by rw [hp]; simp⟩
        · rw [← h7.1]; exact h6
        · rw [h7.2]; simp

/-- C89: reading the environment fails exactly if the user or the database is missing, and otherwise takes every variable
as it is; the protocol is TCP if none is given. -/
theorem C89_env (env : Env) :
    (∀ k, newConfigFromEnv env = .error k ↔ (k = "DB_USERNAME".toList ∧ env "DB_USERNAME".toList = []) ∨
      (k = "DB_DATABASE".toList ∧ env "DB_USERNAME".toList ≠ [] ∧ env "DB_DATABASE".toList = [])) ∧
    ∀ cfg, newConfigFromEnv env = .ok cfg →
      cfg.user ≠ [] ∧ cfg.dbName ≠ [] ∧ cfg.net ≠ [] ∧ cfg.user = env "DB_USERNAME".toList ∧ cfg.password = env "DB_PASSWORD".toList ∧
      cfg.dbName = env "DB_DATABASE".toList ∧ cfg.addr = env "DB_ADDRESS".toList ∧ cfg.paramText = env "DB_PARAM_TEXT".toList ∧
      (env "DB_PROTOCOL".toList ≠ [] → cfg.net = env "DB_PROTOCOL".toList) ∧ (env "DB_PROTOCOL".toList = [] → cfg.net = "tcp".toList) := by
  have hn : "DB_USERNAME".toList = kUser ∧ "DB_DATABASE".toList = kDatabase ∧ "DB_PASSWORD".toList = kPassword ∧ "DB_ADDRESS".toList = kAddress ∧ "DB_PARAM_TEXT".toList = kParams ∧ "DB_PROTOCOL".toList = kProtocol ∧ "tcp".toList = tcp := by
    decide +kernel
  obtain ⟨e1, e2, e3, e4, e5, e6, e7⟩ := hn
  rw [e1, e2, e3, e4, e5, e6, e7]
  have ht : tcp ≠ [] := by decide +kernel
  unfold newConfigFromEnv getEnv
  simp only [List.length_eq_zero_iff]
  by_cases h1 : env kUser = []
  · simp only [h1, if_true, ne_eq, not_true_eq_false, false_and, and_false, or_false, and_true]
    refine ⟨fun k => ?_, fun cfg h => by cases h⟩
    rw [Except.error.injEq]
    exact eq_comm
  · by_cases h2 : env kDatabase = []
    · simp only [h1, h2, if_true, if_false, and_false, false_or, ne_eq, not_false_eq_true, and_true]
      refine ⟨fun k => ?_, fun cfg h => by cases h⟩
      rw [Except.error.injEq]
      exact eq_comm
    · simp only [h1, h2, if_false, and_false, or_false, iff_false]
      refine ⟨fun k => by simp, ?_⟩
      intro cfg h
      injection h with h
      subst h
      refine ⟨h1, h2, ?_, rfl, rfl, rfl, rfl, rfl, ?_, ?_⟩
      · simp only []
        split
        · exact ht
        · assumption
      · intro h; simp [h]
      · intro h; simp [h]

/-- C89: a user name with a colon logs in as somebody else: as the part before the colon, with the rest in front of the
password. -/
theorem C89_user_colon (cfg : Config) (u v : Str) (hn : cfg.net ≠ []) (hu : cfg.user = u ++ ':' :: v) (hc : ':' ∉ u)
    (h : Clean { cfg with user := [] }) :
    splitDSN (toDSN cfg) = .ok ⟨u, v ++ (if cfg.password ≠ [] then ':' :: cfg.password else []), cfg.net, cfg.addr,
      cfg.dbName, cfg.paramText⟩ := by
  have h1 : '/' ∉ right cfg := by
    have := h.db; have := h.params
    unfold right
    split <;> simp_all
  have h2 : '@' ∉ wire cfg := by
    have := h.net; have := h.addr
    unfold wire
    split <;> simp_all
  have h4 : before '?' (right cfg) = cfg.dbName ∧ after '?' (right cfg) = cfg.paramText := by
    unfold right
    by_cases hp : cfg.paramText ≠ []
    · rw [if_pos hp]; exact ⟨before_eq _ _ _ h.db.2, after_eq _ _ _ h.db.2⟩
    · rw [if_neg hp, List.append_nil, before_none _ _ h.db.2, after_none _ _ h.db.2]
      simpa using hp
  rw [toDSN_eq cfg (by rw [hu]; simp) hn, splitDSN, lastSplit_eq _ _ _ h1]
  simp only []
  rw [left_eq, lastSplit_eq _ _ _ h2, hu]
  simp only [Option.getD_some, List.append_assoc, List.cons_append]
  rw [wire, readNet_eq _ _ h.net.2, before_eq _ _ _ hc, after_eq _ _ _ hc]
  simp only [h4]

/-- C89: of a database name with a question mark the connection uses the part before it, while the tables and indexes are
looked up under the whole name (`/repo/cmd/db/suggest/mysql.go:58`). -/
theorem C89_database_cut (cfg : Config) (d x : Str) (hu : cfg.user ≠ []) (hn : cfg.net ≠ [])
    (hd : cfg.dbName = d ++ '?' :: x) (hc : '?' ∉ d) (hs : '/' ∉ cfg.dbName) (h : Clean { cfg with dbName := [] }) :
    splitDSN (toDSN cfg) = .ok ⟨cfg.user, cfg.password, cfg.net, cfg.addr, d,
      x ++ (if cfg.paramText ≠ [] then '?' :: cfg.paramText else [])⟩ := by
  have e : toDSN cfg = toDSN { cfg with dbName := d, paramText := x ++ (if cfg.paramText ≠ [] then '?' :: cfg.paramText else []) } ∨
      (x = [] ∧ cfg.paramText = []) := by
    by_cases hx : x = [] ∧ cfg.paramText = []
    · exact Or.inr hx
    · left
      rw [toDSN_eq cfg hu hn, toDSN_eq _ (by exact hu) (by exact hn)]
      change left cfg ++ '/' :: right cfg = left cfg ++ '/' :: _
      congr 2
      unfold right
      rw [if_pos (c := (x ++ if cfg.paramText ≠ [] then '?' :: cfg.paramText else []) ≠ []) (by
        by_cases h1 : x = []
        · simp only [h1, true_and] at hx; simp [hx]
        · simp [h1])]
      rw [hd]; simp
  have hx : '/' ∉ x ∧ '/' ∉ d := by rw [hd] at hs; simp at hs; exact ⟨hs.2, hs.1⟩
  rcases e with e | ⟨h1, h2⟩
  · have hcl : Clean { cfg with dbName := d, paramText := x ++ (if cfg.paramText ≠ [] then '?' :: cfg.paramText else []) } := by
      refine ⟨h.user, h.net, h.addr, ⟨hx.2, hc⟩, ?_⟩
      have : '/' ∉ cfg.paramText := h.params
      change '/' ∉ x ++ (if cfg.paramText ≠ [] then '?' :: cfg.paramText else [])
      split <;> simp_all
    rw [e, split_clean _ (by exact hu) (by exact hn) hcl]
  · have hw : '@' ∉ wire cfg := by
      have := h.net; have := h.addr
      unfold wire
      split <;> simp_all
    have hr : right cfg = d ++ '?' :: [] := by
      unfold right
      rw [if_neg (by simpa using h2), hd, h1, List.append_nil]
    have h3 : before ':' (cfg.user ++ (if cfg.password ≠ [] then ':' :: cfg.password else [])) = cfg.user ∧
        after ':' (cfg.user ++ (if cfg.password ≠ [] then ':' :: cfg.password else [])) = cfg.password := by
      by_cases hp : cfg.password ≠ []
      · rw [if_pos hp]; exact ⟨before_eq _ _ _ h.user, after_eq _ _ _ h.user⟩
      · rw [if_neg hp, List.append_nil, before_none _ _ h.user, after_none _ _ h.user]
        simpa using hp
    rw [toDSN_eq cfg hu hn, hr, splitDSN, lastSplit_eq _ _ _ (by simpa using hx.2)]
    simp only []
    rw [left_eq, lastSplit_eq _ _ _ hw]
    simp only [Option.getD_some]
    rw [wire, readNet_eq _ _ h.net.2, before_eq _ _ _ hc, after_eq _ _ _ hc]
    simp only [h3, h1, h2]
    rfl

/-- C89: a slash in the database or in the parameters (`loc=Asia/Tokyo` has to be written `loc=Asia%2FTokyo`) is refused,
whatever the other settings; nothing is guessed.  A closing parenthesis or an `@` next to it can defeat this. -/
theorem C89_slash_refused (ensurePort : Str → Str) (cfg : Config) (hu : cfg.user ≠ []) (hn : cfg.net ≠ [])
    (hs : '/' ∈ cfg.dbName ∨ '/' ∈ cfg.paramText) (hw : '@' ∉ cfg.net ∧ '(' ∉ cfg.net ∧ '@' ∉ cfg.addr)
    (hx : ∀ c ∈ cfg.dbName ++ cfg.paramText, c ≠ '@' ∧ c ≠ ')') :
    ∃ e, parseDSN ensurePort (toDSN cfg) = .error e := by
  have hm : '/' ∈ right cfg := by
    unfold right
    rcases hs with h | h
    · exact List.mem_append_left _ h
    · refine List.mem_append_right _ ?_
      rw [if_pos (by rintro e; rw [e] at h; cases h)]
      exact List.mem_cons_of_mem _ h
  have hr : ∀ c ∈ right cfg, c ≠ '@' ∧ c ≠ ')' := by
    intro c hc
    unfold right at hc
    rw [List.mem_append] at hc
    rcases hc with hc | hc
    · exact hx c (List.mem_append_left _ hc)
    · split at hc
      · rw [List.mem_cons] at hc
        rcases hc with rfl | hc
        · decide
        · exact hx c (List.mem_append_right _ hc)
      · cases hc
  obtain ⟨a, b, e, hb⟩ := split_last '/' (right cfg) hm
  have ha : ∀ c ∈ a, c ≠ '@' ∧ c ≠ ')' := fun c hc => hr c (by rw [e]; simp [hc])
  have e1 : toDSN cfg = (left cfg ++ '/' :: a) ++ '/' :: b := by rw [toDSN_eq cfg hu hn, e]; simp
  have hw2 : '@' ∉ wire cfg ++ '/' :: a := by
    rw [List.mem_append, List.mem_cons]
    rintro (h | h | h)
    · unfold wire at h
      have := hw
      split at h <;> simp_all
    · revert h; decide
    · exact (ha _ h).1 rfl
  have e2 : left cfg ++ '/' :: a =
      (cfg.user ++ (if cfg.password ≠ [] then ':' :: cfg.password else [])) ++ '@' :: (wire cfg ++ '/' :: a) := by
    rw [left_eq]; simp
  rw [parseDSN, splitDSN, e1, lastSplit_eq _ _ _ hb]
  simp only []
  rw [e2, lastSplit_eq _ _ _ hw2]
  simp only [Option.getD_some]
  cases hN : readNet (wire cfg ++ '/' :: a) with
  | error x => exact ⟨x, rfl⟩
  | ok na =>
    obtain ⟨net, addr⟩ := na
    rcases readNet_inv _ _ _ hN with ⟨-, h⟩ | ⟨-, h1, h2⟩
    · have := congrArg List.getLast? h
      exfalso
      have l1 : (net ++ '(' :: (addr ++ [')'])).getLast? = some ')' := by
        rw [show net ++ '(' :: (addr ++ [')']) = (net ++ '(' :: addr) ++ [')'] by simp, List.getLast?_concat]
      rw [l1, List.getLast?_append, List.getLast?_cons] at this
      cases hla : a.getLast? with
      | none => rw [hla] at this; simp at this
      | some c =>
        rw [hla] at this
        simp at this
        exact (ha c (List.mem_of_getLast? hla)).2 this
    · subst h2
      refine ⟨.unknownNet, ?_⟩
      have hsl : '/' ∈ net := by rw [← h1]; simp
      have n1 : net ≠ [] := by rintro rfl; cases hsl
      have n2 : net ≠ tcp := by rintro rfl; revert hsl; decide +kernel
      have n3 : net ≠ unixNet := by rintro rfl; revert hsl; decide +kernel
      simp [normalize, n1, n2, n3]

/-! ## Cases -/

/-- a password with all separators -/
def exConfig : Config := ⟨['r'], "p:@/(?".toList, tcp, "db:3306".toList, ['s'], "parseTime=true".toList⟩
example : exConfig.user ≠ [] ∧ exConfig.net ≠ [] ∧ Clean exConfig := by decide +kernel
example : toDSN exConfig = "r:p:@/(?@tcp(db:3306)/s?parseTime=true".toList := by decide +kernel
/-- a socket -/
example : Clean { exConfig with net := unixNet, addr := "/var/run/mysqld.sock".toList } := by decide +kernel
example : Clean { exConfig with user := [] } ∧ Clean { exConfig with dbName := [] } := by decide +kernel
example : parseDSN id (toDSN { exConfig with user := "root:x".toList, password := [] }) =
    .ok ⟨"root".toList, ['x'], tcp, "db:3306".toList, ['s'], "parseTime=true".toList⟩ := by decide +kernel
example : '/' ∈ "loc=Asia/Tokyo".toList ∧ ∀ c ∈ ['s'] ++ "loc=Asia/Tokyo".toList, c ≠ '@' ∧ c ≠ ')' := by decide +kernel
example : parseDSN id (toDSN { exConfig with paramText := "loc=Asia/Tokyo".toList }) = .error .badAddr := by decide +kernel

end Verif.Infra.My
