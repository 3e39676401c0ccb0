import Verif.Common
import Verif.Cmd.Suggest
import Verif.Client.Shell
import Mathlib.Data.List.Forall2
import Mathlib.Data.List.Perm.Subperm
/-!
# C94: from the command line to the command that runs

`/repo/main.go`, `/repo/cmd/{root,db,app,version}.go`, `/repo/cmd/db/{suggest,dig}.go`, `/repo/cmd/app/dig.go`,
`/repo/cmd/db/suggest/hasura.go`, `/repo/cmd/flag/*.go` and the `init` functions of the commands, with the parts of
cobra 1.6.1 and pflag 1.0.5 they use.
-/
namespace Verif.Cmd.Line
open Verif.Cmd

/-! ## Model: pflag -/

inductive Kind where
  | bool | string | strings | int
deriving DecidableEq

/-- a flag with its shorthand; `required`: `cobra.MarkFlagRequired` -/
structure Flag where
  name : Str
  short : Option Char
  kind : Kind
  required : Bool
deriving DecidableEq

/-- what makes a command line refused -/
inductive Bad where
  | syntax (arg : Str)
  | unknownLong (name : Str)
  | unknownShort (c : Char)
  | needsValue (name : Str)
  | badValue (name value : Str)
  | unknownCommand (w : Str)
  | missing (names : List Str)
deriving DecidableEq

/-- the calls of `Set`, in order: names and values -/
abbrev Sets := List (Str × Str)

/-- `strconv.ParseBool` -/
@[irreducible] def trues : List Str := ["1", "t", "T", "TRUE", "true", "True"].map String.toList
@[irreducible] def falses : List Str := ["0", "f", "F", "FALSE", "false", "False"].map String.toList
@[irreducible] def true' : Str := "true".toList
@[irreducible] def false' : Str := "false".toList
@[irreducible] def test' : Str := "test.".toList

/-- whether `Set` takes the value; `ints` is whether `strconv.ParseInt(_, 0, 64)` succeeds -/
def Flag.accepts (ints : Str → Bool) (f : Flag) (v : Str) : Bool :=
  match f.kind with
  | .bool => trues.contains v || falses.contains v
  | .int => ints v
  | _ => true

/-- `FlagSet.Set` as called by `Parse`; `used`: whether the value was the next argument -/
def setFlag (ints : Str → Bool) (f : Flag) (v : Str) (used : Bool) : Except Bad (Sets × Bool) :=
  if f.accepts ints v then .ok ([(f.name, v)], used) else .error (.badValue f.name v)

def byName (fs : List Flag) (n : Str) : Option Flag := fs.find? fun f => decide (f.name = n)
def byShort (fs : List Flag) (c : Char) : Option Flag := fs.find? fun f => decide (f.short = some c)

/-- `parseLongArg`, of what comes after `--`; `next` is the next argument.  Boolean flags have `NoOptDefVal` `true`. -/
def parseLong (ints : Str → Bool) (fs : List Flag) (body : Str) (next : Option Str) : Except Bad (Sets × Bool) :=
  if body.head? = some '-' ∨ body.head? = some '=' then .error (.syntax body)
  else match byName fs (body.takeWhile (· ≠ '=')) with
    | none => .error (.unknownLong (body.takeWhile (· ≠ '=')))
    | some f => match body.dropWhile (· ≠ '=') with
      | _ :: v => setFlag ints f v false
      | [] =>
        if f.kind = .bool then setFlag ints f true' false
        else match next with
          | some v => setFlag ints f v true
          | none => .error (.needsValue f.name)

/-- `parseShortArg` with `parseSingleShortArg`, of what comes after `-`; all shorthands are ASCII, so that the first
byte of another character is unknown as well -/
def parseShort (ints : Str → Bool) (fs : List Flag) : Str → Option Str → Except Bad (Sets × Bool)
  | [], _ => .ok ([], false)
  | c :: cs, next =>
    if test'.isPrefixOf (c :: cs) then .ok ([], false)
    else match byShort fs c with
      | none => .error (.unknownShort c)
      | some f =>
        if cs.head? = some '=' ∧ cs.length > 1 then setFlag ints f cs.tail false
        else if f.kind = .bool then
          match setFlag ints f true' false with
          | .error e => .error e
          | .ok (s, _) => match parseShort ints fs cs next with
            | .error e => .error e
            | .ok (s', used) => .ok (s ++ s', used)
        else if cs ≠ [] then setFlag ints f cs false
        else match next with
          | some v => setFlag ints f v true
          | none => .error (.needsValue f.name)

/-- one argument; `none`: not a flag -/
def parseOne (ints : Str → Bool) (fs : List Flag) (s : Str) (next : Option Str) : Option (Except Bad (Sets × Bool)) :=
  match s with
  | '-' :: '-' :: body => some (parseLong ints fs body next)
  | '-' :: c :: cs => some (parseShort ints fs (c :: cs) next)
  | _ => none

/-- `FlagSet.parseArgs`, interspersed; the arguments that are no flags are not kept, since no command looks at them -/
def parse (ints : Str → Bool) (fs : List Flag) : List Str → Except Bad Sets
  | [] => .ok []
  | s :: rest =>
    if s = ['-', '-'] then .ok []
    else match parseOne ints fs s rest.head? with
      | none => parse ints fs rest
      | some (.error e) => .error e
      | some (.ok (sets, used)) => match rest with
        | [] => .ok sets
        | v :: rest' =>
          if used then (match parse ints fs rest' with | .ok s => .ok (sets ++ s) | .error e => .error e)
          else match parse ints fs (v :: rest') with | .ok s => .ok (sets ++ s) | .error e => .error e

/-! ## Model: cobra -/

/-- the commands of the program; `builtin` are those that cobra adds (`help`, `completion`, …) -/
inductive Leaf where
  | mysql | postgres | hasura | performanceInsights | jaeger | version | builtin
deriving DecidableEq

/-- a command with its own flags, its persistent flags and its sub-commands; `run = none`: not `Runnable` -/
inductive Command where
  | mk (name : Str) (own pers : List Flag) (run : Option Leaf) (subs : List Command)

def Command.name : Command → Str
  | .mk name _ _ _ _ => name

/-- the two cases of `stripFlags` in which the next argument is taken for a value; the shorthand is one byte -/
def skips (fs : List Flag) (s : Str) : Bool :=
  match s with
  | '-' :: '-' :: body => !body.contains '=' && (match byName fs body with | some f => f.kind ≠ .bool | none => true)
  | ['-', c] => c ≠ '=' && c.toNat < 128 && (match byShort fs c with | some f => f.kind ≠ .bool | none => true)
  | _ => false

/-- `stripFlags`; that the loop ends when one argument is left where two are taken makes no difference -/
def stripFlags (fs : List Flag) : List Str → List Str
  | [] => []
  | s :: rest =>
    if s = ['-', '-'] then []
    else if skips fs s then (match rest with | [] => [] | _ :: rest' => stripFlags fs rest')
    else if s ≠ [] ∧ s.head? ≠ some '-' then s :: stripFlags fs rest
    else stripFlags fs rest

/-- `argsMinusFirstX` -/
def minusFirst (fs : List Flag) (x : Str) : List Str → List Str
  | [] => []
  | s :: rest =>
    if s = ['-', '-'] then s :: rest
    else if skips fs s then (match rest with | [] => [s] | v :: rest' => s :: v :: minusFirst fs x rest')
    else if s.head? ≠ some '-' ∧ s = x then rest
    else s :: minusFirst fs x rest

/-- what `Find` answers: the command, with the names that lead to it and its merged flags, and the arguments left -/
structure Found where
  path : List Str
  flags : List Flag
  run : Option Leaf
  args : List Str

mutual
/-- `innerfind`, `/…/cobra@v1.6.1/command.go` `Find`; `inherited` are the persistent flags of the parents -/
def find (inherited : List Flag) (path : List Str) : Command → List Str → Found
  | .mk _ own pers run subs, args =>
    match stripFlags (own ++ pers ++ inherited) args with
    | [] => ⟨path, own ++ pers ++ inherited, run, args⟩
    | next :: _ => match findAmong (pers ++ inherited) path subs next (minusFirst (own ++ pers ++ inherited) next args) with
      | some f => f
      | none => ⟨path, own ++ pers ++ inherited, run, args⟩
/-- `findNext` and the call for what it found -/
def findAmong (inherited : List Flag) (path : List Str) : List Command → Str → List Str → Option Found
  | [], _, _ => none
  | c :: cs, next, args =>
    if c.name = next then some (find inherited (path ++ [next]) c args) else findAmong inherited path cs next args
end

/-- what comes of a command line -/
inductive Outcome where
  | help
  | builtin
  | refused (b : Bad)
  | ran (l : Leaf) (sets : Sets)
deriving DecidableEq

@[irreducible] def nHelp : Str := "help".toList
@[irreducible] def nOutput : Str := "output".toList
@[irreducible] def nQuery : Str := "query".toList
@[irreducible] def nIndex : Str := "index".toList
@[irreducible] def nExamine : Str := "with-examine".toList
@[irreducible] def nJson : Str := "json-variables".toList
@[irreducible] def nStart : Str := "start-from".toList
@[irreducible] def nService : Str := "service-name".toList
@[irreducible] def nDuration : Str := "min-duration-millisecond".toList
@[irreducible] def nSame : Str := "same-service-threshold".toList
@[irreducible] def nCount : Str := "count".toList
@[irreducible] def nMock : Str := "use-mock".toList
@[irreducible] def nVerbose : Str := "verbose".toList

/-- `InitDefaultHelpFlag` -/
def helpFlag : Flag := ⟨nHelp, some 'h', .bool, false⟩

/-- the last value given, or the default -/
def lastOf (n d : Str) (sets : Sets) : Str := ((sets.filter fun s => decide (s.1 = n)).getLast?.map (·.2)).getD d
def allOf (n : Str) (sets : Sets) : List Str := (sets.filter fun s => decide (s.1 = n)).map (·.2)
def boolOf (n : Str) (sets : Sets) : Bool := trues.contains (lastOf n false' sets)

/-- `ValidateRequiredFlags`; the order of the names is not modelled -/
def missingFlags (fs : List Flag) (sets : Sets) : List Str :=
  (fs.filter fun f => f.required && !(sets.map (·.1)).contains f.name).map (·.name)

/-- `Command.execute`, and what `ExecuteC` makes of `ErrHelp` -/
def execute (ints : Str → Bool) (f : Found) : Outcome :=
  match f.run with
  | some .builtin => .builtin
  | run => match parse ints (f.flags ++ [helpFlag]) f.args with
    | .error e => .refused e
    | .ok sets =>
      if boolOf nHelp sets then .help
      else match run with
        | none => .help
        | some l => match missingFlags f.flags sets with
          | [] => .ran l sets
          | ms => .refused (.missing ms)

/-- `legacyArgs`, which knows unknown commands only below the root, and `ExecuteC` -/
def command (root : Command) (ints : Str → Bool) (args : List Str) : Outcome :=
  let f := find [] [] root args
  match (if f.path = [] then stripFlags f.flags f.args else []) with
  | w :: _ => .refused (.unknownCommand w)
  | [] => execute ints f

/-! ## Model: the commands of the program -/

/-- `/repo/cmd/db.go:21-22`, `/repo/cmd/app.go:18-19` -/
def outputFlag : Flag := ⟨nOutput, some 'o', .string, true⟩
/-- `/repo/cmd/db/suggest/mysql.go:27-32`, the same in `postgres.go:27-32` -/
def suggestFlags : List Flag :=
  [⟨nExamine, none, .bool, false⟩, ⟨nIndex, some 'i', .strings, false⟩, ⟨nQuery, some 'q', .string, true⟩]
/-- `/repo/cmd/db/suggest/hasura/postgres.go:39-45` -/
def hasuraFlags : List Flag := suggestFlags ++ [⟨nJson, none, .string, false⟩]
/-- `/repo/cmd/db/dig/performance_insights.go:24` -/
def piFlags : List Flag := [⟨nStart, none, .string, false⟩]
/-- `/repo/cmd/app/dig/jaeger.go:33-39` -/
def jaegerFlags : List Flag :=
  [⟨nService, some 's', .string, true⟩, ⟨nDuration, some 'd', .int, false⟩, ⟨nSame, some 't', .int, false⟩,
   ⟨nCount, some 'c', .int, false⟩, ⟨nStart, none, .string, false⟩]
/-- `/repo/cmd/root.go:53-54` -/
def globalFlags : List Flag := [⟨nMock, none, .bool, false⟩, ⟨nVerbose, some 'v', .bool, false⟩]

@[irreducible] def wDb : Str := "db".toList
@[irreducible] def wApp : Str := "app".toList
@[irreducible] def wVersion : Str := "version".toList
@[irreducible] def wHelp : Str := "help".toList
@[irreducible] def wCompletion : Str := "completion".toList
@[irreducible] def wComplete : Str := "__complete".toList
@[irreducible] def wCompleteNoDesc : Str := "__completeNoDesc".toList
@[irreducible] def wSuggest : Str := "suggest".toList
@[irreducible] def wDig : Str := "dig".toList
@[irreducible] def wMysql : Str := "mysql".toList
@[irreducible] def wPostgres : Str := "postgres".toList
@[irreducible] def wHasura : Str := "hasura".toList
@[irreducible] def wPi : Str := "performance-insights".toList
@[irreducible] def wJaeger : Str := "jaeger".toList
@[irreducible] def wGr : Str := "gr".toList

/-- `/repo/cmd/db/suggest.go:13-17`, `/repo/cmd/db/suggest/hasura.go:13-15` -/
def suggestCmd : Command := .mk wSuggest [] [] none
  [.mk wMysql suggestFlags [] (some .mysql) [], .mk wPostgres suggestFlags [] (some .postgres) [],
   .mk wHasura [] [] none [.mk wPostgres hasuraFlags [] (some .hasura) []]]
/-- `/repo/cmd/db/dig.go:13-14` -/
def dbDigCmd : Command := .mk wDig [] [] none [.mk wPi piFlags [] (some .performanceInsights) []]
/-- `/repo/cmd/db.go:9-27` -/
def dbCmd : Command := .mk wDb [] [outputFlag] none [suggestCmd, dbDigCmd]
/-- `/repo/cmd/app.go:9-24`, `/repo/cmd/app/dig.go` -/
def appCmd : Command := .mk wApp [] [outputFlag] none [.mk wDig [] [] none [.mk wJaeger jaegerFlags [] (some .jaeger) []]]
/-- `/repo/cmd/root.go:13-54`, `/repo/cmd/version.go`; `completion` has sub-commands that are not distinguished here -/
def grCmd : Command := .mk wGr [] globalFlags none
  [dbCmd, appCmd, .mk wVersion [] [] (some .version) [], .mk wHelp [] [] (some .builtin) [],
   .mk wCompletion [] [] (some .builtin) [], .mk wComplete [] [] (some .builtin) [],
   .mk wCompleteNoDesc [] [] (some .builtin) []]

/-- the whole program: `/repo/cmd/root.go:38-44` `Execute`, the exit status, given whether the command that is run
succeeds -/
def exitStatus (ints : Str → Bool) (succeeds : Leaf → Sets → Bool) (args : List Str) : Nat :=
  match command grCmd ints args with
  | .help => 0
  | .builtin => 0
  | .refused _ => 1
  | .ran l sets => if succeeds l sets then 0 else 1

/-- the variables the flags of the three suggest commands are bound to -/
def suggestOptions (sets : Sets) : Options where
  runsExamination := boolOf nExamine sets
  indexTargets := allOf nIndex sets
  query := lastOf nQuery [] sets
  output := lastOf nOutput [] sets
@[irreducible] def emptyObject : Str := "{}".toList
def jsonVariables (sets : Sets) : Str := lastOf nJson emptyObject sets

/-! ## Specification -/

/-- the words of a command, as the user types them -/
def Leaf.words : Leaf → List Str
  | .mysql => ["db".toList, "suggest".toList, "mysql".toList]
  | .postgres => ["db".toList, "suggest".toList, "postgres".toList]
  | .hasura => ["db".toList, "suggest".toList, "hasura".toList, "postgres".toList]
  | .performanceInsights => ["db".toList, "dig".toList, "performance-insights".toList]
  | .jaeger => ["app".toList, "dig".toList, "jaeger".toList]
  | .version => ["version".toList]
  | .builtin => []

/-- an option: its name, its letter, what it takes, whether it must be there -/
def option (name : String) (short : Option Char) (kind : Kind) (required : Bool) : Flag := ⟨name.toList, short, kind, required⟩

/-- the options every command has -/
def commonFlags : List Flag := [option "use-mock" none .bool false, option "verbose" (some 'v') .bool false]

/-- the options of a command, as its help lists them -/
def Leaf.flags : Leaf → List Flag
  | .mysql => [option "with-examine" none .bool false, option "index" (some 'i') .strings false,
      option "query" (some 'q') .string true, option "output" (some 'o') .string true] ++ commonFlags
  | .postgres => [option "with-examine" none .bool false, option "index" (some 'i') .strings false,
      option "query" (some 'q') .string true, option "output" (some 'o') .string true] ++ commonFlags
  | .hasura => [option "with-examine" none .bool false, option "index" (some 'i') .strings false,
      option "query" (some 'q') .string true, option "json-variables" none .string false,
      option "output" (some 'o') .string true] ++ commonFlags
  | .performanceInsights => [option "start-from" none .string false, option "output" (some 'o') .string true] ++ commonFlags
  | .jaeger => [option "service-name" (some 's') .string true, option "min-duration-millisecond" (some 'd') .int false,
      option "same-service-threshold" (some 't') .int false, option "count" (some 'c') .int false,
      option "start-from" none .string false, option "output" (some 'o') .string true] ++ commonFlags
  | .version => commonFlags
  | .builtin => []

/-- how something can be written after the words of a command -/
inductive Token where
  /-- `-c v` -/
  | short (c : Char) (v : Str)
  /-- `-cv` -/
  | glued (c : Char) (v : Str)
  /-- `-c=v` -/
  | shortEq (c : Char) (v : Str)
  /-- `--n v` -/
  | long (n v : Str)
  /-- `--n=v` -/
  | longEq (n v : Str)
  /-- `--n` -/
  | switch (n : Str)
  /-- `-c` -/
  | shortSwitch (c : Char)
  /-- a further word -/
  | extra (w : Str)

def Token.text : Token → List Str
  | .short c v => [['-', c], v]
  | .glued c v => ['-' :: c :: v]
  | .shortEq c v => ['-' :: c :: '=' :: v]
  | .long n v => ['-' :: '-' :: n, v]
  | .longEq n v => ['-' :: '-' :: (n ++ '=' :: v)]
  | .switch n => ['-' :: '-' :: n]
  | .shortSwitch c => [['-', c]]
  | .extra w => [w]

/-- what the token says, to a command with these flags -/
def Means (ints : Str → Bool) (fs : List Flag) : Token → Sets → Prop
  | .short c v, s => ∃ f ∈ fs, f.short = some c ∧ f.kind ≠ .bool ∧ f.accepts ints v = true ∧ s = [(f.name, v)]
  | .glued c v, s => ∃ f ∈ fs, f.short = some c ∧ f.kind ≠ .bool ∧ f.accepts ints v = true ∧ s = [(f.name, v)] ∧
      v ≠ [] ∧ v.head? ≠ some '=' ∧ test'.isPrefixOf (c :: v) = false
  | .shortEq c v, s => ∃ f ∈ fs, f.short = some c ∧ f.accepts ints v = true ∧ s = [(f.name, v)] ∧ v ≠ []
  | .long n v, s => ∃ f ∈ fs, f.name = n ∧ f.kind ≠ .bool ∧ f.accepts ints v = true ∧ s = [(f.name, v)]
  | .longEq n v, s => ∃ f ∈ fs, f.name = n ∧ f.accepts ints v = true ∧ s = [(f.name, v)]
  | .switch n, s => ∃ f ∈ fs, f.name = n ∧ f.kind = .bool ∧ s = [(f.name, true')]
  | .shortSwitch c, s => ∃ f ∈ fs, f.short = some c ∧ f.kind = .bool ∧ s = [(f.name, true')]
  | .extra w, s => (w.head? ≠ some '-' ∨ w = ['-']) ∧ s = []

/-- the argument mentions the flag: `--name…`, or its letter after a dash -/
def Mentions (f : Flag) (a : Str) : Prop :=
  '-' :: '-' :: f.name <+: a ∨ ∃ c cs, f.short = some c ∧ a = '-' :: cs ∧ c ∈ cs

/-- the flags of the program are such that they can be written -/
structure Wf (fs : List Flag) : Prop where
  names : (fs.map (·.name)).Nodup
  shorts : (fs.filterMap (·.short)).Nodup
  name : ∀ f ∈ fs, f.name ≠ [] ∧ '=' ∉ f.name ∧ f.name.head? ≠ some '-'
  short : ∀ f ∈ fs, f.short ≠ some '-' ∧ f.short ≠ some '='

/-! ## Proofs: parsing -/

theorem true_accepted : trues.contains true' = true := by decide +kernel
theorem false_refused : trues.contains false' = false := by decide +kernel
theorem test_eq : test' = ['t', 'e', 's', 't', '.'] := by decide +kernel

theorem byName_mem {fs : List Flag} {n : Str} {f : Flag} (h : byName fs n = some f) : f ∈ fs ∧ f.name = n := by
  unfold byName at h
  exact ⟨List.mem_of_find?_eq_some h, by simpa using List.find?_some h⟩

theorem byShort_mem {fs : List Flag} {c : Char} {f : Flag} (h : byShort fs c = some f) : f ∈ fs ∧ f.short = some c := by
  unfold byShort at h
  exact ⟨List.mem_of_find?_eq_some h, by simpa using List.find?_some h⟩

theorem byName_of : ∀ {fs : List Flag}, (fs.map (·.name)).Nodup → ∀ {f : Flag}, f ∈ fs → byName fs f.name = some f
  | [], _, _, h => by cases h
  | g :: fs, hn, f, h => by
    rw [List.map_cons, List.nodup_cons] at hn
    unfold byName
    rw [List.find?_cons]
    rcases List.mem_cons.mp h with rfl | h
    · simp
    · have : g.name ≠ f.name := fun e => hn.1 (e ▸ List.mem_map_of_mem h)
      simp only [this, decide_false]
      exact byName_of hn.2 h

theorem byShort_of : ∀ {fs : List Flag}, (fs.filterMap (·.short)).Nodup → ∀ {f : Flag} {c : Char}, f ∈ fs → f.short = some c →
    byShort fs c = some f
  | [], _, _, _, h, _ => by cases h
  | g :: fs, hn, f, c, h, hc => by
    unfold byShort
    rw [List.find?_cons]
    rcases List.mem_cons.mp h with rfl | h
    · simp [hc]
    · have hc' : c ∈ fs.filterMap (·.short) := List.mem_filterMap.mpr ⟨f, h, hc⟩
      cases hg : g.short with
      | none =>
        rw [List.filterMap_cons_none hg] at hn
        simp only [hg, reduceCtorEq, decide_false]
        exact byShort_of hn h hc
      | some d =>
        rw [List.filterMap_cons_some hg, List.nodup_cons] at hn
        have : some d ≠ some c := by
          intro e
          cases e
          exact hn.1 hc'
        simp only [hg, this, decide_false]
        exact byShort_of hn.2 h hc

theorem setFlag_ok {ints : Str → Bool} {f : Flag} {v : Str} (h : f.accepts ints v = true) (used : Bool) :
    setFlag ints f v used = .ok ([(f.name, v)], used) := by
  unfold setFlag
  rw [if_pos h]

theorem accepts_true (ints : Str → Bool) {f : Flag} (h : f.kind = .bool) : f.accepts ints true' = true := by
  unfold Flag.accepts
  rw [h]
  simp only [true_accepted, Bool.true_or]

theorem takeWhile_name {n : Str} (h : '=' ∉ n) (rest : Str) :
    (n ++ '=' :: rest).takeWhile (· ≠ '=') = n ∧ (n ++ '=' :: rest).dropWhile (· ≠ '=') = '=' :: rest := by
  induction n with
  | nil => simp
  | cons c n ih =>
    rw [List.mem_cons, not_or] at h
    have hc : c ≠ '=' := fun e => h.1 e.symm
    obtain ⟨h1, h2⟩ := ih h.2
    simp only [List.cons_append, List.takeWhile_cons, List.dropWhile_cons, ne_eq, hc, not_false_eq_true, decide_true, if_true,
      List.cons.injEq, true_and]
    exact ⟨h1, h2⟩

theorem takeWhile_name' {n : Str} (h : '=' ∉ n) :
    n.takeWhile (· ≠ '=') = n ∧ n.dropWhile (· ≠ '=') = [] := by
  induction n with
  | nil => simp
  | cons c n ih =>
    rw [List.mem_cons, not_or] at h
    have hc : c ≠ '=' := fun e => h.1 e.symm
    obtain ⟨h1, h2⟩ := ih h.2
    simp only [List.takeWhile_cons, List.dropWhile_cons, ne_eq, hc, not_false_eq_true, decide_true, if_true, List.cons.injEq,
      true_and]
    exact ⟨h1, h2⟩

theorem name_head {fs : List Flag} (hw : Wf fs) {f : Flag} (hf : f ∈ fs) (rest : Str) :
    ¬ ((f.name ++ rest).head? = some '-' ∨ (f.name ++ rest).head? = some '=') := by
  obtain ⟨h1, h2, h3⟩ := hw.name f hf
  cases hn : f.name with
  | nil => exact absurd hn h1
  | cons c n =>
    rw [hn] at h2 h3
    simp only [List.head?_cons, ne_eq, Option.some.injEq] at h3
    simp only [List.cons_append, List.head?_cons, Option.some.injEq, not_or]
    refine ⟨h3, ?_⟩
    rintro rfl
    exact h2 List.mem_cons_self

/-- reading one token; with the next argument if it is used -/
theorem parse_token {ints : Str → Bool} {fs : List Flag} (hw : Wf fs) {t : Token} {s : Sets} (h : Means ints fs t s)
    (rest : List Str) : parse ints fs (t.text ++ rest) =
      match parse ints fs rest with | .ok s' => .ok (s ++ s') | .error e => .error e := by
  have hpass : ∀ (a : Str) (s : Sets), a ≠ ['-', '-'] → (∀ next, parseOne ints fs a next = some (.ok (s, false))) →
      parse ints fs ([a] ++ rest) = match parse ints fs rest with | .ok s' => .ok (s ++ s') | .error e => .error e := by
    intro a s ha ho
    rw [List.singleton_append]
    conv => lhs; unfold parse
    rw [if_neg ha, ho]
    cases rest with
    | nil => simp [parse]
    | cons v rest => simp
  have htake : ∀ (a v : Str) (s : Sets), a ≠ ['-', '-'] → parseOne ints fs a (some v) = some (.ok (s, true)) →
      parse ints fs ([a, v] ++ rest) = match parse ints fs rest with | .ok s' => .ok (s ++ s') | .error e => .error e := by
    intro a v s ha ho
    show parse ints fs (a :: v :: rest) = _
    conv => lhs; unfold parse
    rw [if_neg ha]
    simp only [List.head?_cons, ho, if_true]
  have hshort : ∀ {f : Flag} {c : Char}, f ∈ fs → f.short = some c → c ≠ '-' ∧ c ≠ '=' ∧ byShort fs c = some f := by
    intro f c hf hc
    obtain ⟨h1, h2⟩ := hw.short f hf
    rw [hc] at h1 h2
    exact ⟨fun e => h1 (e ▸ rfl), fun e => h2 (e ▸ rfl), byShort_of hw.shorts hf hc⟩
  have hone : ∀ (c : Char), c ≠ '-' → test'.isPrefixOf [c] = false := by
    intro c _
    rw [test_eq]
    simp [List.isPrefixOf]
  cases t with
  | short c v =>
    obtain ⟨f, hf, hc, hk, ha, rfl⟩ := h
    obtain ⟨h1, h2, h3⟩ := hshort hf hc
    refine htake _ _ _ (by simp [h1]) ?_
    unfold parseOne
    split
    · next body e => simp [h1] at e
    · next c' cs' e =>
      cases e
      simp only [parseShort, hone c h1, Bool.false_eq_true, if_false, h3, List.head?_nil, reduceCtorEq, false_and, hk,
        ne_eq, not_true_eq_false, setFlag_ok ha]
    · next e1 e2 => exact absurd rfl (e2 c [])
  | glued c v =>
    obtain ⟨f, hf, hc, hk, ha, rfl, hne, heq, htest⟩ := h
    obtain ⟨h1, h2, h3⟩ := hshort hf hc
    refine hpass _ _ (by simp [h1]) fun next => ?_
    unfold parseOne
    split
    · next body e => simp [h1] at e
    · next c' cs' e =>
      cases e
      simp only [parseShort, htest, Bool.false_eq_true, if_false, h3, heq, false_and, hk, ne_eq, hne, not_false_eq_true, if_true,
        setFlag_ok ha]
    · next e1 e2 => exact absurd rfl (e2 c v)
  | shortEq c v =>
    obtain ⟨f, hf, hc, ha, rfl, hne⟩ := h
    obtain ⟨h1, h2, h3⟩ := hshort hf hc
    refine hpass _ _ (by simp [h1]) fun next => ?_
    have htest : test'.isPrefixOf (c :: '=' :: v) = false := by
      rw [test_eq]
      simp [List.isPrefixOf]
    have hl : '=' :: v ≠ [] ∧ ('=' :: v).length > 1 := ⟨by simp, by
      have := List.length_pos_of_ne_nil hne
      rw [List.length_cons]
      omega⟩
    unfold parseOne
    split
    · next body e => simp [h1] at e
    · next c' cs' e =>
      cases e
      simp only [parseShort, htest, Bool.false_eq_true, if_false, h3, List.head?_cons, hl.2, and_self, if_true, List.tail_cons,
        setFlag_ok ha]
    · next e1 e2 => exact absurd rfl (e2 c ('=' :: v))
  | long n v =>
    obtain ⟨f, hf, rfl, hk, ha, rfl⟩ := h
    obtain ⟨g1, g2, g3⟩ := hw.name f hf
    refine htake _ _ _ (by simp [g1]) ?_
    have hh := name_head hw hf []
    rw [List.append_nil] at hh
    obtain ⟨t1, t2⟩ := takeWhile_name' g2
    show some (parseLong ints fs f.name (some v)) = _
    unfold parseLong
    rw [if_neg hh, t1, t2, byName_of hw.names hf]
    simp only [hk, if_false, setFlag_ok ha]
  | longEq n v =>
    obtain ⟨f, hf, rfl, ha, rfl⟩ := h
    obtain ⟨g1, g2, g3⟩ := hw.name f hf
    refine hpass _ _ (by simp) fun next => ?_
    obtain ⟨t1, t2⟩ := takeWhile_name g2 v
    show some (parseLong ints fs (f.name ++ '=' :: v) next) = _
    unfold parseLong
    rw [if_neg (name_head hw hf _), t1, t2, byName_of hw.names hf]
    simp only [setFlag_ok ha]
  | switch n =>
    obtain ⟨f, hf, rfl, hk, rfl⟩ := h
    obtain ⟨g1, g2, g3⟩ := hw.name f hf
    refine hpass _ _ (by simp [g1]) fun next => ?_
    have hh := name_head hw hf []
    rw [List.append_nil] at hh
    obtain ⟨t1, t2⟩ := takeWhile_name' g2
    show some (parseLong ints fs f.name next) = _
    unfold parseLong
    rw [if_neg hh, t1, t2, byName_of hw.names hf]
    simp only [hk, if_true, setFlag_ok (accepts_true ints hk)]
  | shortSwitch c =>
    obtain ⟨f, hf, hc, hk, rfl⟩ := h
    obtain ⟨h1, h2, h3⟩ := hshort hf hc
    refine hpass _ _ (by simp [h1]) fun next => ?_
    unfold parseOne
    split
    · next body e => simp [h1] at e
    · next c' cs' e =>
      cases e
      simp only [parseShort, hone c h1, Bool.false_eq_true, if_false, h3, List.head?_nil, reduceCtorEq, false_and, hk, if_true,
        setFlag_ok (accepts_true ints hk), List.append_nil]
    · next e1 e2 => exact absurd rfl (e2 c [])
  | extra w =>
    obtain ⟨hwd, rfl⟩ := h
    have ho : parseOne ints fs w rest.head? = none := by
      unfold parseOne
      split
      · rcases hwd with hwd | hwd <;> simp at hwd
      · rcases hwd with hwd | hwd <;> simp at hwd
      · rfl
    have hdd : w ≠ ['-', '-'] := by
      rintro rfl
      rcases hwd with hwd | hwd <;> simp at hwd
    show parse ints fs (w :: rest) = _
    conv => lhs; unfold parse
    rw [if_neg hdd, ho]
    simp only [List.nil_append]
    cases parse ints fs rest <;> rfl

theorem parse_tokens {ints : Str → Bool} {fs : List Flag} (hw : Wf fs) : ∀ {ts : List Token} {ss : List Sets},
    List.Forall₂ (Means ints fs) ts ss → parse ints fs (ts.flatMap Token.text) = .ok ss.flatten
  | _, _, .nil => rfl
  | _, _, .cons h hs => by
    rw [List.flatMap_cons, parse_token hw h, parse_tokens hw hs]
    rfl

/-- what `Set` was called with was asked for -/
structure Asked (ints : Str → Bool) (fs : List Flag) (args : List Str) (s : Str × Str) : Prop where
  flag : ∃ f ∈ fs, f.name = s.1 ∧ f.accepts ints s.2 = true ∧ (∃ a ∈ args, Mentions f a) ∧
    ((∃ a ∈ args, s.2 <:+ a) ∨ f.kind = .bool ∧ s.2 = true')

theorem Asked.mono {ints : Str → Bool} {fs : List Flag} {args args' : List Str} {s : Str × Str} (h : Asked ints fs args s)
    (hs : ∀ a ∈ args, a ∈ args') : Asked ints fs args' s := by
  obtain ⟨f, hf, h1, h2, ⟨a, ha, h3⟩, h4⟩ := h.flag
  refine ⟨f, hf, h1, h2, ⟨a, hs a ha, h3⟩, ?_⟩
  rcases h4 with ⟨b, hb, h4⟩ | h4
  · exact .inl ⟨b, hs b hb, h4⟩
  · exact .inr h4

theorem setFlag_sound {ints : Str → Bool} {f : Flag} {v : Str} {used : Bool} {sets : Sets} {u : Bool}
    (h : setFlag ints f v used = .ok (sets, u)) : sets = [(f.name, v)] ∧ u = used ∧ f.accepts ints v = true := by
  unfold setFlag at h
  split at h
  · next ha =>
    cases h
    exact ⟨rfl, rfl, ha⟩
  · cases h

/-- the values come from the argument, from the next one if it is used, or are `true` -/
def From (ints : Str → Bool) (fs : List Flag) (arg : Str) (next : Option Str) (used : Bool) (s : Str × Str) : Prop :=
  ∃ f ∈ fs, f.name = s.1 ∧ f.accepts ints s.2 = true ∧ Mentions f arg ∧
    (s.2 <:+ arg ∨ (used = true ∧ next = some s.2) ∨ f.kind = .bool ∧ s.2 = true')

theorem parseLong_sound {ints : Str → Bool} {fs : List Flag} {body : Str} {next : Option Str} {sets : Sets} {used : Bool}
    (h : parseLong ints fs body next = .ok (sets, used)) :
    (used = true → next.isSome = true) ∧ ∀ s ∈ sets, From ints fs ('-' :: '-' :: body) next used s := by
  unfold parseLong at h
  split at h
  · cases h
  · split at h
    · cases h
    · next f hf =>
      obtain ⟨hm, hn⟩ := byName_mem hf
      have hpre : Mentions f ('-' :: '-' :: body) := by
        refine .inl ⟨body.dropWhile (· ≠ '='), ?_⟩
        rw [hn, List.cons_append, List.cons_append, List.takeWhile_append_dropWhile]
      split at h
      · next c v hd =>
        obtain ⟨rfl, rfl, ha⟩ := setFlag_sound h
        refine ⟨by simp, fun s hs => ?_⟩
        cases List.mem_singleton.mp hs
        refine ⟨f, hm, rfl, ha, hpre, .inl ?_⟩
        have h1 : v <:+ body.dropWhile (· ≠ '=') := by
          rw [hd]
          exact List.suffix_cons _ _
        exact (h1.trans (List.dropWhile_suffix _)).trans ((List.suffix_cons _ _).trans (List.suffix_cons _ _))
      · split at h
        · next hk =>
          obtain ⟨rfl, rfl, ha⟩ := setFlag_sound h
          refine ⟨by simp, fun s hs => ?_⟩
          cases List.mem_singleton.mp hs
          exact ⟨f, hm, rfl, ha, hpre, .inr (.inr ⟨hk, rfl⟩)⟩
        · split at h
          · next v =>
            obtain ⟨rfl, rfl, ha⟩ := setFlag_sound h
            refine ⟨by simp, fun s hs => ?_⟩
            cases List.mem_singleton.mp hs
            exact ⟨f, hm, rfl, ha, hpre, .inr (.inl ⟨rfl, rfl⟩)⟩
          · cases h

theorem parseShort_sound {ints : Str → Bool} {fs : List Flag} {next : Option Str} : ∀ {cs : Str} {sets : Sets} {used : Bool},
    parseShort ints fs cs next = .ok (sets, used) →
    (used = true → next.isSome = true) ∧ ∀ (pre : Str), ∀ s ∈ sets, From ints fs ('-' :: (pre ++ cs)) next used s
  | [], sets, used, h => by
    unfold parseShort at h
    cases h
    simp
  | c :: cs, sets, used, h => by
    unfold parseShort at h
    split at h
    · cases h
      simp
    · split at h
      · cases h
      · next f hf =>
        obtain ⟨hm, hc⟩ := byShort_mem hf
        have hment : ∀ pre : Str, Mentions f ('-' :: (pre ++ c :: cs)) := fun pre => .inr ⟨c, _, hc, rfl, by simp⟩
        have hsuf : ∀ (pre v : Str), v <:+ cs → v <:+ '-' :: (pre ++ c :: cs) := by
          intro pre v hv
          exact ((hv.trans (List.suffix_cons _ _)).trans (List.suffix_append _ _)).trans (List.suffix_cons _ _)
        split at h
        · obtain ⟨rfl, rfl, ha⟩ := setFlag_sound h
          refine ⟨by simp, fun pre s hs => ?_⟩
          cases List.mem_singleton.mp hs
          exact ⟨f, hm, rfl, ha, hment pre, .inl (hsuf _ _ (List.tail_suffix _))⟩
        · split at h
          · next hk =>
            split at h
            · cases h
            · next s1 u1 h1 =>
              obtain ⟨rfl, -, ha⟩ := setFlag_sound h1
              split at h
              · cases h
              · next s2 u2 h2 =>
                cases h
                obtain ⟨r1, r2⟩ := parseShort_sound h2
                refine ⟨r1, fun pre s hs => ?_⟩
                rcases List.mem_append.mp hs with hs | hs
                · cases List.mem_singleton.mp hs
                  exact ⟨f, hm, rfl, ha, hment pre, .inr (.inr ⟨hk, rfl⟩)⟩
                · have := r2 (pre ++ [c]) s hs
                  rwa [List.append_assoc, List.singleton_append] at this
          · split at h
            · obtain ⟨rfl, rfl, ha⟩ := setFlag_sound h
              refine ⟨by simp, fun pre s hs => ?_⟩
              cases List.mem_singleton.mp hs
              exact ⟨f, hm, rfl, ha, hment pre, .inl (hsuf _ _ (List.suffix_refl _))⟩
            · split at h
              · next v =>
                obtain ⟨rfl, rfl, ha⟩ := setFlag_sound h
                refine ⟨by simp, fun pre s hs => ?_⟩
                cases List.mem_singleton.mp hs
                exact ⟨f, hm, rfl, ha, hment pre, .inr (.inl ⟨rfl, rfl⟩)⟩
              · cases h

theorem parseOne_sound {ints : Str → Bool} {fs : List Flag} {a : Str} {next : Option Str} {sets : Sets} {used : Bool}
    (h : parseOne ints fs a next = some (.ok (sets, used))) :
    (used = true → next.isSome = true) ∧ ∀ s ∈ sets, From ints fs a next used s := by
  unfold parseOne at h
  split at h
  · next body => exact parseLong_sound (Option.some.inj h)
  · next c cs _ =>
    obtain ⟨h1, h2⟩ := parseShort_sound (Option.some.inj h)
    exact ⟨h1, fun s hs => by simpa using h2 [] s hs⟩
  · cases h

theorem parse_sound {ints : Str → Bool} {fs : List Flag} : ∀ {args : List Str} {sets : Sets}, parse ints fs args = .ok sets →
    ∀ s ∈ sets, Asked ints fs args s
  | [], sets, h, s, hs => by
    unfold parse at h
    cases h
    cases hs
  | [a], sets, h, s, hs => by
    unfold parse at h
    split at h
    · cases h
      cases hs
    · split at h
      · unfold parse at h
        cases h
        cases hs
      · cases h
      · next s1 used ho =>
        cases h
        obtain ⟨f, hf, h1, h2, h3, h4⟩ := (parseOne_sound ho).2 s hs
        refine ⟨f, hf, h1, h2, ⟨a, by simp, h3⟩, ?_⟩
        rcases h4 with h4 | ⟨-, h4⟩ | h4
        · exact .inl ⟨a, by simp, h4⟩
        · cases h4
        · exact .inr h4
  | a :: v :: rest, sets, h, s, hs => by
    unfold parse at h
    split at h
    · cases h
      cases hs
    · split at h
      · exact (parse_sound h s hs).mono fun x hx => List.mem_cons_of_mem _ hx
      · cases h
      · next s1 used ho =>
        have hfirst : s ∈ s1 → Asked ints fs (a :: v :: rest) s := by
          intro hs
          obtain ⟨f, hf, h1, h2, h3, h4⟩ := (parseOne_sound ho).2 s hs
          refine ⟨f, hf, h1, h2, ⟨a, by simp, h3⟩, ?_⟩
          rcases h4 with h4 | ⟨-, h4⟩ | h4
          · exact .inl ⟨a, by simp, h4⟩
          · cases h4
            exact .inl ⟨_, by simp, List.suffix_refl _⟩
          · exact .inr h4
        simp only at h
        split at h
        · split at h
          · next s2 h2 =>
            cases h
            rcases List.mem_append.mp hs with hs | hs
            · exact hfirst hs
            · exact (parse_sound h2 s hs).mono fun x hx => List.mem_cons_of_mem _ (List.mem_cons_of_mem _ hx)
          · cases h
        · split at h
          · next s2 h2 =>
            cases h
            rcases List.mem_append.mp hs with hs | hs
            · exact hfirst hs
            · exact (parse_sound h2 s hs).mono fun x hx => List.mem_cons_of_mem _ hx
          · cases h

/-! ## Proofs: finding the command -/

theorem strip_word (fs : List Flag) {w : Str} (h1 : w ≠ []) (h2 : w.head? ≠ some '-') (rest : List Str) :
    stripFlags fs (w :: rest) = w :: stripFlags fs rest ∧ minusFirst fs w (w :: rest) = rest := by
  have hd : w ≠ ['-', '-'] := by
    rintro rfl
    exact h2 rfl
  have hs : skips fs w = false := by
    unfold skips
    split
    · exact absurd rfl h2
    · exact absurd rfl h2
    · rfl
  constructor
  · conv => lhs; unfold stripFlags
    rw [if_neg hd, hs]
    simp only [Bool.false_eq_true, if_false, ne_eq, h1, h2, not_false_eq_true, and_self, if_true]
  · unfold minusFirst
    rw [if_neg hd, hs]
    simp only [Bool.false_eq_true, if_false, ne_eq, h2, not_false_eq_true, and_self, if_true]

theorem strip_mem (fs : List Flag) : ∀ (args : List Str), ∀ w ∈ stripFlags fs args, w ≠ [] ∧ w.head? ≠ some '-' ∧ w ∈ args
  | [], w, h => by
    unfold stripFlags at h
    cases h
  | [s], w, h => by
    unfold stripFlags at h
    split at h
    · cases h
    · split at h
      · cases h
      · split at h
        · next hs =>
          rw [stripFlags, List.mem_singleton] at h
          subst h
          exact ⟨hs.1, hs.2, by simp⟩
        · rw [stripFlags] at h
          cases h
  | s :: v :: rest, w, h => by
    unfold stripFlags at h
    split at h
    · cases h
    · split at h
      · obtain ⟨h1, h2, h3⟩ := strip_mem fs rest w h
        exact ⟨h1, h2, by simp [h3]⟩
      · split at h
        · next hs =>
          rcases List.mem_cons.mp h with rfl | h
          · exact ⟨hs.1, hs.2, by simp⟩
          · obtain ⟨h1, h2, h3⟩ := strip_mem fs (v :: rest) w h
            exact ⟨h1, h2, List.mem_cons_of_mem _ h3⟩
        · obtain ⟨h1, h2, h3⟩ := strip_mem fs (v :: rest) w h
          exact ⟨h1, h2, List.mem_cons_of_mem _ h3⟩

/-- what is taken out is the word found first -/
theorem minus_first (fs : List Flag) : ∀ (args : List Str) (w : Str) (ws : List Str), stripFlags fs args = w :: ws →
    ∃ l r, args = l ++ w :: r ∧ minusFirst fs w args = l ++ r
  | [], w, ws, h => by
    unfold stripFlags at h
    cases h
  | [s], w, ws, h => by
    unfold stripFlags at h
    split at h
    · cases h
    · next hd =>
      split at h
      · cases h
      · next hk =>
        split at h
        · next hs =>
          cases h
          refine ⟨[], [], rfl, ?_⟩
          rw [minusFirst, if_neg hd, if_neg hk, if_pos ⟨hs.2, rfl⟩]
          rfl
        · rw [stripFlags] at h
          cases h
  | s :: v :: rest, w, ws, h => by
    unfold stripFlags at h
    split at h
    · cases h
    · next hd =>
      split at h
      · next hk =>
        obtain ⟨l, r, h1, h2⟩ := minus_first fs rest w ws h
        refine ⟨s :: v :: l, r, by rw [h1]; rfl, ?_⟩
        rw [minusFirst, if_neg hd, if_pos hk]
        simp only [h2]
        rfl
      · next hk =>
        split at h
        · next hs =>
          cases h
          refine ⟨[], v :: rest, rfl, ?_⟩
          rw [minusFirst, if_neg hd, if_neg hk, if_pos ⟨hs.2, rfl⟩]
          rfl
        · next hs =>
          obtain ⟨l, r, h1, h2⟩ := minus_first fs (v :: rest) w ws h
          refine ⟨s :: l, r, by rw [h1]; rfl, ?_⟩
          have hw := strip_mem fs (v :: rest) w (by rw [h]; simp)
          have hne : ¬ (s.head? ≠ some '-' ∧ s = w) := by
            rintro ⟨h3, rfl⟩
            exact hs ⟨hw.1, h3⟩
          rw [minusFirst, if_neg hd, if_neg hk, if_neg hne, h2]
          rfl

mutual
/-- all commands of a tree with the names that lead to them, and their flags -/
def nodes (inherited : List Flag) (path : List Str) : Command → List (List Str × List Flag × Option Leaf)
  | .mk _ own pers run subs => (path, own ++ pers ++ inherited, run) :: nodesAmong (pers ++ inherited) path subs
def nodesAmong (inherited : List Flag) (path : List Str) : List Command → List (List Str × List Flag × Option Leaf)
  | [] => []
  | c :: cs => nodes inherited (path ++ [c.name]) c ++ nodesAmong inherited path cs
end

mutual
theorem find_node (inherited : List Flag) (path : List Str) : ∀ (c : Command) (args : List Str),
    ((find inherited path c args).path, (find inherited path c args).flags, (find inherited path c args).run) ∈
      nodes inherited path c ∧
    ∃ p, (find inherited path c args).path = path ++ p ∧ List.Subperm p args ∧
      ∀ a ∈ (find inherited path c args).args, a ∈ args
  | .mk name own pers run subs, args => by
    have hhere : ((path, own ++ pers ++ inherited, run) : List Str × List Flag × Option Leaf) ∈
        nodes inherited path (.mk name own pers run subs) := by
      rw [nodes]
      exact List.mem_cons_self
    unfold find
    split
    · exact ⟨hhere, [], by simp, List.nil_subperm, fun a ha => ha⟩
    · next w ws hw =>
      obtain ⟨l, r, e1, e2⟩ := minus_first _ _ _ _ hw
      split
      · next f hf =>
        obtain ⟨h1, p, h2, h3, h4⟩ := findAmong_node (pers ++ inherited) path subs w _ f hf
        refine ⟨?_, w :: p, h2, ?_, ?_⟩
        · rw [nodes]
          exact List.mem_cons_of_mem _ h1
        · rw [e2] at h3
          rw [e1]
          exact ((List.subperm_cons w).mpr h3).trans List.perm_middle.symm.subperm
        · intro a ha
          have := h4 a ha
          rw [e2] at this
          rw [e1]
          rcases List.mem_append.mp this with h | h
          · exact List.mem_append_left _ h
          · exact List.mem_append_right _ (List.mem_cons_of_mem _ h)
      · exact ⟨hhere, [], by simp, List.nil_subperm, fun a ha => ha⟩
theorem findAmong_node (inherited : List Flag) (path : List Str) : ∀ (cs : List Command) (next : Str) (args : List Str) (f : Found),
    findAmong inherited path cs next args = some f →
    (f.path, f.flags, f.run) ∈ nodesAmong inherited path cs ∧
    ∃ p, f.path = path ++ next :: p ∧ List.Subperm p args ∧ ∀ a ∈ f.args, a ∈ args
  | [], next, args, f, h => by
    unfold findAmong at h
    cases h
  | c :: cs, next, args, f, h => by
    unfold findAmong at h
    split at h
    · next hn =>
      cases h
      obtain ⟨h1, p, h2, h3, h4⟩ := find_node inherited (path ++ [next]) c args
      refine ⟨?_, p, ?_, h3, h4⟩
      · rw [nodesAmong, hn]
        exact List.mem_append_left _ h1
      · rw [h2, List.append_assoc]
        rfl
    · obtain ⟨h1, h2⟩ := findAmong_node inherited path cs next args f h
      refine ⟨?_, h2⟩
      rw [nodesAmong]
      exact List.mem_append_right _ h1
end

theorem find_leaf (inherited : List Flag) (path : List Str) (name : Str) (own pers : List Flag) (run : Option Leaf)
    (args : List Str) :
    find inherited path (.mk name own pers run []) args = ⟨path, own ++ pers ++ inherited, run, args⟩ := by
  unfold find
  split
  · rfl
  · simp only [findAmong]

theorem find_step (inherited : List Flag) (path : List Str) (name : Str) (own pers : List Flag) (run : Option Leaf)
    (subs : List Command) (w : Str) (h1 : w ≠ []) (h2 : w.head? ≠ some '-') (rest : List Str) (f : Found)
    (hf : findAmong (pers ++ inherited) path subs w rest = some f) :
    find inherited path (.mk name own pers run subs) (w :: rest) = f := by
  obtain ⟨e1, e2⟩ := strip_word (own ++ pers ++ inherited) h1 h2 rest
  unfold find
  rw [e1]
  simp only [e2, hf]

/-- the words of the program are words -/
theorem plain_words : ∀ w ∈ [wDb, wApp, wVersion, wSuggest, wDig, wMysql, wPostgres, wHasura, wPi, wJaeger],
    w ≠ [] ∧ w.head? ≠ some '-' := by decide +kernel

theorem find_words (l : Leaf) (hl : l ≠ .builtin) (rest : List Str) :
    find [] [] grCmd (l.words ++ rest) = ⟨l.words, l.flags, some l, rest⟩ := by
  have hp := plain_words
  simp only [List.mem_cons, List.not_mem_nil, or_false, forall_eq_or_imp, forall_eq] at hp
  obtain ⟨⟨p1, p1'⟩, ⟨p2, p2'⟩, ⟨p3, p3'⟩, ⟨p4, p4'⟩, ⟨p5, p5'⟩, ⟨p6, p6'⟩, ⟨p7, p7'⟩, ⟨p8, p8'⟩, ⟨p9, p9'⟩, p10, p10'⟩ := hp
  have n1 : wDb ≠ wApp := by decide +kernel
  have n2 : wDb ≠ wVersion := by decide +kernel
  have n3 : wApp ≠ wVersion := by decide +kernel
  have n4 : wSuggest ≠ wDig := by decide +kernel
  have n5 : wMysql ≠ wPostgres := by decide +kernel
  have n6 : wMysql ≠ wHasura := by decide +kernel
  have n7 : wPostgres ≠ wHasura := by decide +kernel
  cases l with
  | builtin => exact absurd rfl hl
  | mysql =>
    rw [show Leaf.mysql.words = [wDb, wSuggest, wMysql] by decide +kernel, show Leaf.mysql.flags = suggestFlags ++ outputFlag :: globalFlags by decide +kernel]
    refine find_step _ _ _ _ _ _ _ _ p1 p1' _ _ ?_
    rw [findAmong, dbCmd, Command.name, if_pos rfl]
    refine congrArg some (find_step _ _ _ _ _ _ _ _ p4 p4' _ _ ?_)
    rw [findAmong, suggestCmd, Command.name, if_pos rfl]
    refine congrArg some (find_step _ _ _ _ _ _ _ _ p6 p6' _ _ ?_)
    rw [findAmong, Command.name, if_pos rfl, find_leaf]
    rfl
  | postgres =>
    rw [show Leaf.postgres.words = [wDb, wSuggest, wPostgres] by decide +kernel, show Leaf.postgres.flags = suggestFlags ++ outputFlag :: globalFlags by decide +kernel]
    refine find_step _ _ _ _ _ _ _ _ p1 p1' _ _ ?_
    rw [findAmong, dbCmd, Command.name, if_pos rfl]
    refine congrArg some (find_step _ _ _ _ _ _ _ _ p4 p4' _ _ ?_)
    rw [findAmong, suggestCmd, Command.name, if_pos rfl]
    refine congrArg some (find_step _ _ _ _ _ _ _ _ p7 p7' _ _ ?_)
    rw [findAmong, Command.name, if_neg n5, findAmong, Command.name, if_pos rfl, find_leaf]
    rfl
  | hasura =>
    rw [show Leaf.hasura.words = [wDb, wSuggest, wHasura, wPostgres] by decide +kernel, show Leaf.hasura.flags = hasuraFlags ++ outputFlag :: globalFlags by decide +kernel]
    refine find_step _ _ _ _ _ _ _ _ p1 p1' _ _ ?_
    rw [findAmong, dbCmd, Command.name, if_pos rfl]
    refine congrArg some (find_step _ _ _ _ _ _ _ _ p4 p4' _ _ ?_)
    rw [findAmong, suggestCmd, Command.name, if_pos rfl]
    refine congrArg some (find_step _ _ _ _ _ _ _ _ p8 p8' _ _ ?_)
    rw [findAmong, Command.name, if_neg n6, findAmong, Command.name, if_neg n7, findAmong, Command.name, if_pos rfl]
    refine congrArg some (find_step _ _ _ _ _ _ _ _ p7 p7' _ _ ?_)
    rw [findAmong, Command.name, if_pos rfl, find_leaf]
    rfl
  | performanceInsights =>
    rw [show Leaf.performanceInsights.words = [wDb, wDig, wPi] by decide +kernel, show Leaf.performanceInsights.flags = piFlags ++ outputFlag :: globalFlags by decide +kernel]
    refine find_step _ _ _ _ _ _ _ _ p1 p1' _ _ ?_
    rw [findAmong, dbCmd, Command.name, if_pos rfl]
    refine congrArg some (find_step _ _ _ _ _ _ _ _ p5 p5' _ _ ?_)
    rw [findAmong, suggestCmd, Command.name, if_neg n4, findAmong, dbDigCmd, Command.name, if_pos rfl]
    refine congrArg some (find_step _ _ _ _ _ _ _ _ p9 p9' _ _ ?_)
    rw [findAmong, Command.name, if_pos rfl, find_leaf]
    rfl
  | jaeger =>
    rw [show Leaf.jaeger.words = [wApp, wDig, wJaeger] by decide +kernel, show Leaf.jaeger.flags = jaegerFlags ++ outputFlag :: globalFlags by decide +kernel]
    refine find_step _ _ _ _ _ _ _ _ p2 p2' _ _ ?_
    rw [findAmong, dbCmd, Command.name, if_neg n1, findAmong, appCmd, Command.name, if_pos rfl]
    refine congrArg some (find_step _ _ _ _ _ _ _ _ p5 p5' _ _ ?_)
    rw [findAmong, Command.name, if_pos rfl]
    refine congrArg some (find_step _ _ _ _ _ _ _ _ p10 p10' _ _ ?_)
    rw [findAmong, Command.name, if_pos rfl, find_leaf]
    rfl
  | version =>
    rw [show Leaf.version.words = [wVersion] by decide +kernel, show Leaf.version.flags = globalFlags by decide +kernel]
    refine find_step _ _ _ _ _ _ _ _ p3 p3' _ _ ?_
    rw [findAmong, dbCmd, Command.name, if_neg n2, findAmong, appCmd, Command.name, if_neg n3, findAmong, Command.name,
      if_pos rfl, find_leaf]
    rfl

/-! ## C94 -/

theorem words_ne {l : Leaf} (hl : l ≠ .builtin) : l.words ≠ [] := by
  cases l with
  | builtin => exact absurd rfl hl
  | mysql | postgres | hasura | performanceInsights | jaeger | version => exact List.cons_ne_nil _ _

theorem forall₂_append {α β : Type} {R : α → β → Prop} : ∀ {a : List α} {b : List β} {c : List α} {d : List β},
    List.Forall₂ R a b → List.Forall₂ R c d → List.Forall₂ R (a ++ c) (b ++ d)
  | _, _, _, _, .nil, h => h
  | _, _, _, _, .cons h hs, h' => .cons h (forall₂_append hs h')

theorem wf_flags (l : Leaf) : Wf (l.flags ++ [helpFlag]) := by
  cases l <;> exact ⟨by decide +kernel, by decide +kernel, by decide +kernel, by decide +kernel⟩

theorem help_other (l : Leaf) : ∀ f ∈ l.flags, f.name ≠ nHelp := by
  cases l <;> decide +kernel

theorem Means.mono {ints : Str → Bool} {fs fs' : List Flag} (hs : ∀ f ∈ fs, f ∈ fs') {t : Token} {s : Sets}
    (h : Means ints fs t s) : Means ints fs' t s := by
  cases t with
  | extra => exact h
  | short | glued | shortEq | long | longEq | switch | shortSwitch =>
    obtain ⟨f, hf, h⟩ := h
    exact ⟨f, hs f hf, h⟩

theorem means_names {ints : Str → Bool} {fs : List Flag} {t : Token} {s : Sets} (h : Means ints fs t s) :
    ∀ x ∈ s, ∃ f ∈ fs, f.name = x.1 := by
  intro x hx
  cases t with
  | extra =>
    obtain ⟨-, rfl⟩ := h
    cases hx
  | short =>
    obtain ⟨f, hf, -, -, -, rfl⟩ := h
    exact ⟨f, hf, by rw [List.mem_singleton.mp hx]⟩
  | glued =>
    obtain ⟨f, hf, -, -, -, rfl, -⟩ := h
    exact ⟨f, hf, by rw [List.mem_singleton.mp hx]⟩
  | shortEq =>
    obtain ⟨f, hf, -, -, rfl, -⟩ := h
    exact ⟨f, hf, by rw [List.mem_singleton.mp hx]⟩
  | long =>
    obtain ⟨f, hf, -, -, -, rfl⟩ := h
    exact ⟨f, hf, by rw [List.mem_singleton.mp hx]⟩
  | longEq =>
    obtain ⟨f, hf, -, -, rfl⟩ := h
    exact ⟨f, hf, by rw [List.mem_singleton.mp hx]⟩
  | switch =>
    obtain ⟨f, hf, -, -, rfl⟩ := h
    exact ⟨f, hf, by rw [List.mem_singleton.mp hx]⟩
  | shortSwitch =>
    obtain ⟨f, hf, -, -, rfl⟩ := h
    exact ⟨f, hf, by rw [List.mem_singleton.mp hx]⟩

theorem forall₂_names {ints : Str → Bool} {fs : List Flag} : ∀ {ts : List Token} {ss : List Sets},
    List.Forall₂ (Means ints fs) ts ss → ∀ x ∈ ss.flatten, ∃ f ∈ fs, f.name = x.1
  | _, _, .nil, x, hx => by cases hx
  | _, _, .cons h hs, x, hx => by
    rw [List.flatten_cons] at hx
    rcases List.mem_append.mp hx with hx | hx
    · exact means_names h x hx
    · exact forall₂_names hs x hx

theorem lastOf_absent {n d : Str} {sets : Sets} (h : ∀ x ∈ sets, x.1 ≠ n) : lastOf n d sets = d := by
  unfold lastOf
  rw [List.filter_eq_nil_iff.mpr (by intro x hx; simpa using h x hx)]
  rfl

theorem missing_nil_iff {fs : List Flag} {sets : Sets} :
    missingFlags fs sets = [] ↔ ∀ f ∈ fs, f.required = true → ∃ v, (f.name, v) ∈ sets := by
  unfold missingFlags
  rw [List.map_eq_nil_iff, List.filter_eq_nil_iff]
  constructor
  · intro h f hf hr
    have := h f hf
    simp only [hr, Bool.true_and, Bool.not_eq_true', Bool.not_eq_false, List.contains_eq_mem, decide_eq_true_eq,
      List.mem_map] at this
    obtain ⟨⟨n, v⟩, hv, hn⟩ := this
    exact ⟨v, by rw [← hn]; exact hv⟩
  · intro h f hf
    cases hr : f.required with
    | false => simp
    | true =>
      obtain ⟨v, hv⟩ := h f hf hr
      simp only [Bool.true_and, Bool.not_eq_true', Bool.not_eq_false, List.contains_eq_mem, decide_eq_true_eq, List.mem_map]
      exact ⟨_, hv, rfl⟩

theorem command_line (ints : Str → Bool) (l : Leaf) (hl : l ≠ .builtin) (ts : List Token) (ss : List Sets)
    (h : List.Forall₂ (Means ints l.flags) ts ss) :
    command grCmd ints (l.words ++ ts.flatMap Token.text) =
      match missingFlags l.flags ss.flatten with
      | [] => .ran l ss.flatten
      | ms => .refused (.missing ms) := by
  have hpath := words_ne hl
  have hparse := parse_tokens (wf_flags l) (h.imp fun _ _ h => h.mono fun f hf => List.mem_append_left _ hf)
  have hhelp : boolOf nHelp ss.flatten = false := by
    unfold boolOf
    rw [lastOf_absent, false_refused]
    intro x hx e
    obtain ⟨f, hf, hn⟩ := forall₂_names h x hx
    exact help_other l f hf (hn.trans e)
  unfold command
  simp only [find_words l hl, hpath, if_false]
  unfold execute
  split
  · next e => exact absurd (Option.some.inj e) hl
  · simp only [hparse, hhelp, Bool.false_eq_true, if_false]

/-- C94: the words of a command followed by options of this command, in any order and in any of the ways they can be
written, run this command with exactly these options if all required ones are there; otherwise nothing runs, and those
missing are named. -/
theorem C94_options (ints : Str → Bool) (l : Leaf) (hl : l ≠ .builtin) (ts : List Token) (ss : List Sets)
    (h : List.Forall₂ (Means ints l.flags) ts ss) :
    ((∀ f ∈ l.flags, f.required = true → ∃ v, (f.name, v) ∈ ss.flatten) →
      command grCmd ints (l.words ++ ts.flatMap Token.text) = .ran l ss.flatten) ∧
    (∀ f ∈ l.flags, f.required = true → (∀ v, (f.name, v) ∉ ss.flatten) →
      ∃ ms, f.name ∈ ms ∧ command grCmd ints (l.words ++ ts.flatMap Token.text) = .refused (.missing ms)) := by
  rw [command_line ints l hl ts ss h]
  constructor
  · intro hr
    rw [missing_nil_iff.mpr hr]
  · intro f hf hr hv
    have hm : f.name ∈ missingFlags l.flags ss.flatten := by
      unfold missingFlags
      refine List.mem_map.mpr ⟨f, List.mem_filter.mpr ⟨hf, ?_⟩, rfl⟩
      simp only [hr, Bool.true_and, Bool.not_eq_true', List.contains_eq_mem, decide_eq_false_iff_not, List.mem_map]
      rintro ⟨⟨n, v⟩, hx, hn⟩
      have hn : n = f.name := hn
      subst hn
      exact hv v hx
    split
    · next e => rw [e] at hm; cases hm
    · next ms _ => exact ⟨_, hm, rfl⟩

/-- C94: of such a command line the exit status says whether the command was run and succeeded. -/
theorem C94_exit (ints : Str → Bool) (succeeds : Leaf → Sets → Bool) (l : Leaf) (hl : l ≠ .builtin) (ts : List Token)
    (ss : List Sets) (h : List.Forall₂ (Means ints l.flags) ts ss) :
    exitStatus ints succeeds (l.words ++ ts.flatMap Token.text) = 0 ↔
      (∀ f ∈ l.flags, f.required = true → ∃ v, (f.name, v) ∈ ss.flatten) ∧ succeeds l ss.flatten = true := by
  unfold exitStatus
  rw [command_line ints l hl ts ss h]
  constructor
  · intro he
    split at he
    · next e =>
      split at e <;> cases e
    · next e =>
      split at e <;> cases e
    · cases he
    · next l' sets e =>
      split at e
      · next hm =>
        cases e
        refine ⟨missing_nil_iff.mp hm, ?_⟩
        by_cases hs : succeeds l ss.flatten = true
        · exact hs
        · rw [if_neg hs] at he
          cases he
      · cases e
  · rintro ⟨hr, hs⟩
    rw [missing_nil_iff.mpr hr]
    simp only [hs, if_true]

/-- the commands of the program are those of the specification -/
theorem nodes_ok : ∀ n ∈ nodes [] [] grCmd, ∀ l, n.2.2 = some l → l ≠ .builtin → n.1 = l.words ∧ n.2.1 = l.flags := by
  have h : (nodes [] [] grCmd).all (fun n => match n.2.2 with
      | none => true
      | some l => decide (l = .builtin) || (decide (n.1 = l.words) && decide (n.2.1 = l.flags))) = true := by decide +kernel
  intro n hn l hl hb
  have := List.all_eq_true.mp h n hn
  rw [hl] at this
  simpa [hb] using this

/-- C94: whatever the arguments are, a command is run only if its words are among them and all its required options were
given; and every option it gets is one of its own, mentioned in an argument, with a value it takes that is written on the
command line (or is the `true` of a switch). -/
theorem C94_sound (ints : Str → Bool) (args : List Str) (l : Leaf) (sets : Sets)
    (h : command grCmd ints args = .ran l sets) :
    l.words ≠ [] ∧ l.words.Subperm args ∧ (∀ f ∈ l.flags, f.required = true → ∃ v, (f.name, v) ∈ sets) ∧
      ∀ s ∈ sets, Asked ints (l.flags ++ [helpFlag]) args s := by
  obtain ⟨hn, p, hp, hsub, hargs⟩ := find_node [] [] grCmd args
  rw [List.nil_append] at hp
  unfold command at h
  simp only at h
  split at h
  · cases h
  · unfold execute at h
    split at h
    · cases h
    · next run hrun =>
      split at h
      · cases h
      · next sets' hparse =>
        split at h
        · cases h
        · split at h
          · cases h
          · next l' hl' =>
            split at h
            · next hm =>
              cases h
              have hlb : l ≠ .builtin := by
                rintro rfl
                exact hrun hl'
              obtain ⟨e1, e2⟩ := nodes_ok _ hn l hl' hlb
              have e1 : (find [] [] grCmd args).path = l.words := e1
              have e2 : (find [] [] grCmd args).flags = l.flags := e2
              rw [e2] at hm hparse
              refine ⟨words_ne hlb, ?_, missing_nil_iff.mp hm, fun s hs => ?_⟩
              · rw [← e1, hp]
                exact hsub
              · exact (parse_sound hparse s hs).mono hargs
            · cases h

theorem lastOf_mem {n d : Str} {sets : Sets} (h : lastOf n d sets ≠ d) : (n, lastOf n d sets) ∈ sets := by
  unfold lastOf at h ⊢
  cases e : (sets.filter fun s => decide (s.1 = n)).getLast? with
  | none =>
    rw [e] at h
    exact absurd rfl h
  | some x =>
    have hx := List.mem_of_getLast? e
    rw [List.mem_filter, decide_eq_true_eq] at hx
    obtain ⟨h1, h2⟩ := hx
    simp only [Option.map_some, Option.getD_some]
    rw [← h2]
    exact h1

/-- C94: whatever the arguments are, if none of them begins with `--with-examine`, then no suggest command that is run
creates, drops or measures anything. -/
theorem C94_examine_only_if_asked {T Plan : Type} (ints : Str → Bool) (args : List Str) (l : Leaf) (sets : Sets)
    (h : command grCmd ints args = .ran l sets) (hno : ∀ a ∈ args, ¬ '-' :: '-' :: "with-examine".toList <+: a)
    (pre : Str) (w : World T) (hw : HasuraWorld T Plan) :
    (∀ e, Effect.exam e ∉ (suggestSql pre w (suggestOptions sets)).2) ∧
    (∀ e, Effect.exam e ∉ (suggestHasura hw (suggestOptions sets) (jsonVariables sets)).2) := by
  refine C42_read_only pre w hw _ _ ?_
  show boolOf nExamine sets = false
  unfold boolOf
  by_cases hd : lastOf nExamine false' sets = false'
  · rw [hd, false_refused]
  · exfalso
    obtain ⟨f, hf, hn, -, ⟨a, ha, hm⟩, -⟩ := ((C94_sound ints args l sets h).2.2.2 _ (lastOf_mem hd)).flag
    have hshort : f.short = none := by
      have key : ∀ l : Leaf, ∀ f ∈ l.flags ++ [helpFlag], f.name = nExamine → f.short = none := by
        intro l
        cases l <;> decide +kernel
      exact key l f hf hn
    have hn : f.name = nExamine := hn
    have hx : nExamine = "with-examine".toList := by unfold nExamine; rfl
    rcases hm with hm | ⟨c, cs, hc, -⟩
    · rw [hn, hx] at hm
      exact hno a ha hm
    · rw [hshort] at hc
      cases hc

theorem lastOf_eq {n d : Str} (a : Sets) (v : Str) (b : Sets) (h : ∀ x ∈ b, x.1 ≠ n) : lastOf n d (a ++ (n, v) :: b) = v := by
  unfold lastOf
  have hb : b.filter (fun s => decide (s.1 = n)) = [] := List.filter_eq_nil_iff.mpr (by intro x hx; simpa using h x hx)
  rw [List.filter_append, List.filter_cons_of_pos (by simp), hb]
  simp

theorem lastOf_cases (n d : Str) : ∀ (sets : Sets), (∀ x ∈ sets, x.1 ≠ n) ∨
    ∃ a v b, sets = a ++ (n, v) :: b ∧ ∀ x ∈ b, x.1 ≠ n
  | [] => .inl fun _ h => nomatch h
  | (m, v) :: sets => by
    rcases lastOf_cases n d sets with h | ⟨a, u, b, rfl, h⟩
    · by_cases hm : m = n
      · subst hm
        exact .inr ⟨[], v, sets, rfl, h⟩
      · refine .inl fun x hx => ?_
        rcases List.mem_cons.mp hx with rfl | hx
        · exact hm
        · exact h x hx
    · exact .inr ⟨(m, v) :: a, u, b, rfl, h⟩

/-- C94: what the suggest commands take from the options they are given: of the query, the output file and the variables
the last value, all the indexes in their order, each as it was written; and the examination exactly if its last value
says so. -/
theorem C94_values (sets : Sets) :
    (∀ a v b, sets = a ++ ("query".toList, v) :: b → (∀ x ∈ b, x.1 ≠ "query".toList) → (suggestOptions sets).query = v) ∧
    (∀ a v b, sets = a ++ ("output".toList, v) :: b → (∀ x ∈ b, x.1 ≠ "output".toList) → (suggestOptions sets).output = v) ∧
    (∀ a v b, sets = a ++ ("json-variables".toList, v) :: b → (∀ x ∈ b, x.1 ≠ "json-variables".toList) →
      jsonVariables sets = v) ∧
    ((∀ x ∈ sets, x.1 ≠ "json-variables".toList) → jsonVariables sets = "{}".toList) ∧
    (suggestOptions sets).indexTargets = sets.filterMap (fun s => if s.1 = "index".toList then some s.2 else none) ∧
    ((suggestOptions sets).runsExamination = true ↔ ∃ a v b, sets = a ++ ("with-examine".toList, v) :: b ∧
      (∀ x ∈ b, x.1 ≠ "with-examine".toList) ∧ v ∈ ["1", "t", "T", "true", "TRUE", "True"].map String.toList) := by
  have h1 : "query".toList = nQuery := by unfold nQuery; rfl
  have h2 : "output".toList = nOutput := by unfold nOutput; rfl
  have h3 : "json-variables".toList = nJson := by unfold nJson; rfl
  have h4 : "index".toList = nIndex := by unfold nIndex; rfl
  have h5 : "with-examine".toList = nExamine := by unfold nExamine; rfl
  have h6 : "{}".toList = emptyObject := by unfold emptyObject; rfl
  rw [h1, h2, h3, h4, h5, h6]
  refine ⟨?_, ?_, ?_, lastOf_absent, ?_, ?_⟩
  · rintro a v b rfl h
    exact lastOf_eq a v b h
  · rintro a v b rfl h
    exact lastOf_eq a v b h
  · rintro a v b rfl h
    exact lastOf_eq a v b h
  · show allOf nIndex sets = _
    unfold allOf
    induction sets with
    | nil => rfl
    | cons s sets ih =>
      by_cases hs : s.1 = nIndex
      · rw [List.filter_cons_of_pos (by simpa using hs), List.map_cons, ih, List.filterMap_cons_some (by rw [if_pos hs])]
      · rw [List.filter_cons_of_neg (by simpa using hs), ih, List.filterMap_cons_none (by rw [if_neg hs])]
  · show boolOf nExamine sets = true ↔ _
    have ht : ∀ v, trues.contains v = true ↔ v ∈ ["1", "t", "T", "true", "TRUE", "True"].map String.toList := by
      have e : trues.Perm (["1", "t", "T", "true", "TRUE", "True"].map String.toList) := by decide +kernel
      intro v
      rw [List.contains_eq_mem, decide_eq_true_eq]
      exact e.mem_iff
    unfold boolOf
    rw [ht]
    constructor
    · intro h
      rcases lastOf_cases nExamine false' sets with hn | ⟨a, v, b, e, hb⟩
      · rw [lastOf_absent hn, ← ht, false_refused] at h
        cases h
      · refine ⟨a, v, b, e, hb, ?_⟩
        rwa [e, lastOf_eq a v b hb] at h
    · rintro ⟨a, v, b, rfl, hb, hv⟩
      rwa [lastOf_eq a v b hb]

/-- C94, negation: words that are no options are passed over, wherever they stand: with a query that is not quoted the
command runs on its first word. -/
theorem C94_extra_ignored (ints : Str → Bool) (l : Leaf) (hl : l ≠ .builtin) (ts ts' : List Token) (ss ss' : List Sets)
    (h : List.Forall₂ (Means ints l.flags) ts ss) (h' : List.Forall₂ (Means ints l.flags) ts' ss') (ws : List Str)
    (hws : ∀ w ∈ ws, w.head? ≠ some '-') :
    command grCmd ints (l.words ++ (ts.flatMap Token.text ++ ws ++ ts'.flatMap Token.text)) =
      command grCmd ints (l.words ++ (ts.flatMap Token.text ++ ts'.flatMap Token.text)) := by
  have e1 : ts.flatMap Token.text ++ ws ++ ts'.flatMap Token.text = (ts ++ ws.map Token.extra ++ ts').flatMap Token.text := by
    rw [List.flatMap_append, List.flatMap_append]
    congr 2
    induction ws with
    | nil => rfl
    | cons w ws ih =>
      rw [List.map_cons, List.flatMap_cons, ← ih fun w hw => hws w (List.mem_cons_of_mem _ hw)]
      rfl
  have e2 : ts.flatMap Token.text ++ ts'.flatMap Token.text = (ts ++ ts').flatMap Token.text := by
    rw [List.flatMap_append]
  have hex : List.Forall₂ (Means ints l.flags) (ws.map Token.extra) (ws.map fun _ => []) := by
    induction ws with
    | nil => exact .nil
    | cons w ws ih =>
      have hw := hws w List.mem_cons_self
      rw [List.map_cons, List.map_cons]
      refine .cons ⟨.inl hw, rfl⟩ (ih (fun w hw => hws w (List.mem_cons_of_mem _ hw)) ?_)
      rw [List.flatMap_append, List.flatMap_append]
      congr 2
      clear e1 ih
      induction ws with
      | nil => rfl
      | cons v ws ih =>
        rw [List.map_cons, List.flatMap_cons, ← ih (fun x hx => hws x (by
          rcases List.mem_cons.mp hx with rfl | hx
          · exact List.mem_cons_self
          · exact List.mem_cons_of_mem _ (List.mem_cons_of_mem _ hx)))]
        rfl
  have e3 : (ss ++ ws.map (fun _ => []) ++ ss').flatten = (ss ++ ss').flatten := by
    rw [List.flatten_append, List.flatten_append, List.flatten_append]
    congr 1
    have : (ws.map fun _ => ([] : Sets)).flatten = [] := by
      clear e1 hex hws
      induction ws with
      | nil => rfl
      | cons w ws ih => rw [List.map_cons, List.flatten_cons, ih]; rfl
    rw [this, List.append_nil]
  rw [e1, e2, command_line ints l hl _ _ (forall₂_append (forall₂_append h hex) h'), command_line ints l hl _ _ (forall₂_append h h'), e3]

theorem parse_words (ints : Str → Bool) (fs : List Flag) : ∀ (ws : List Str), (∀ w ∈ ws, w.head? ≠ some '-') →
    parse ints fs ws = .ok []
  | [], _ => rfl
  | w :: ws, h => by
    have hw := h w List.mem_cons_self
    unfold parse
    have hd : w ≠ ['-', '-'] := by
      rintro rfl
      exact hw rfl
    have ho : parseOne ints fs w ws.head? = none := by
      unfold parseOne
      split
      · exact absurd rfl hw
      · exact absurd rfl hw
      · rfl
    rw [if_neg hd, ho]
    exact parse_words ints fs ws fun x hx => h x (List.mem_cons_of_mem _ hx)

/-- C94, negation: a command of `gr db` that does not exist is not an error: the help is shown, and the exit status is
that of success. -/
theorem C94_typo (ints : Str → Bool) (succeeds : Leaf → Sets → Bool) (w : Str) (ws : List Str) (h1 : w ≠ [])
    (h2 : w ≠ "suggest".toList ∧ w ≠ "dig".toList) (h3 : ∀ x ∈ w :: ws, x.head? ≠ some '-') :
    command grCmd ints ("db".toList :: w :: ws) = .help ∧ exitStatus ints succeeds ("db".toList :: w :: ws) = 0 := by
  rw [show "db".toList = wDb by unfold wDb; rfl]
  have hs : wSuggest = "suggest".toList := by unfold wSuggest; rfl
  have hd : wDig = "dig".toList := by unfold wDig; rfl
  rw [← hs, ← hd] at h2
  have hp := plain_words wDb (by simp)
  have hf : find [] [] grCmd (wDb :: w :: ws) = ⟨[wDb], outputFlag :: globalFlags, none, w :: ws⟩ := by
    refine find_step _ _ _ _ _ _ _ _ hp.1 hp.2 _ _ ?_
    rw [findAmong, dbCmd, Command.name, if_pos rfl]
    refine congrArg some ?_
    unfold find
    rw [(strip_word _ h1 (h3 w List.mem_cons_self) ws).1]
    have hn : ∀ x, findAmong ([outputFlag] ++ (globalFlags ++ [])) ([] ++ [wDb]) [suggestCmd, dbDigCmd] w x = none := by
      intro x
      rw [findAmong, suggestCmd, Command.name, if_neg (Ne.symm h2.1), findAmong, dbDigCmd, Command.name,
        if_neg (Ne.symm h2.2), findAmong]
    simp only [hn]
    rfl
  have hc : command grCmd ints (wDb :: w :: ws) = .help := by
    unfold command
    simp only [hf, List.cons_ne_nil, if_false]
    unfold execute
    simp only [parse_words ints _ (w :: ws) h3]
    split <;> rfl
  refine ⟨hc, ?_⟩
  unfold exitStatus
  rw [hc]

/-! ## Cases that meet the hypotheses -/

def exInts (v : Str) : Bool := !v.isEmpty && v.all Char.isDigit
def exLine (s : String) : List Str := (Index.splitOn ' ' s.toList)

/-- `gr db suggest mysql -o a.html --query=Q -it:a --index t:b,c --with-examine` -/
def exTokens : List Token :=
  [.short 'o' "a.html".toList, .longEq "query".toList "Q".toList, .glued 'i' "t:a".toList, .long "index".toList "t:b,c".toList,
   .switch "with-examine".toList]
def exSets : List Sets :=
  [[("output".toList, "a.html".toList)], [("query".toList, "Q".toList)], [("index".toList, "t:a".toList)],
   [("index".toList, "t:b,c".toList)], [("with-examine".toList, "true".toList)]]

theorem exMeans : List.Forall₂ (Means exInts Leaf.mysql.flags) exTokens exSets :=
  .cons ⟨option "output" (some 'o') .string true, by decide +kernel⟩
  (.cons ⟨option "query" (some 'q') .string true, by decide +kernel⟩
  (.cons ⟨option "index" (some 'i') .strings false, by decide +kernel⟩
  (.cons ⟨option "index" (some 'i') .strings false, by decide +kernel⟩
  (.cons ⟨option "with-examine" none .bool false, by decide +kernel⟩ .nil))))

/-- C94_options, C94_exit: a complete command line -/
example : command grCmd exInts (Leaf.mysql.words ++ exTokens.flatMap Token.text) = .ran .mysql exSets.flatten ∧
    exitStatus exInts (fun _ _ => true) (Leaf.mysql.words ++ exTokens.flatMap Token.text) = 0 ∧
    (suggestOptions exSets.flatten).runsExamination = true ∧
    (suggestOptions exSets.flatten).indexTargets = ["t:a".toList, "t:b,c".toList] ∧
    (suggestOptions exSets.flatten).query = "Q".toList ∧ (suggestOptions exSets.flatten).output = "a.html".toList := by
  decide +kernel

example : command grCmd exInts (Leaf.mysql.words ++ exTokens.flatMap Token.text) = .ran .mysql exSets.flatten :=
  (C94_options exInts .mysql (by decide) _ _ exMeans).1 (by
    have h : (Leaf.mysql.flags.all fun f => !f.required || exSets.flatten.any fun s => decide (s.1 = f.name)) = true := by
      decide +kernel
    intro f hf hr
    have := List.all_eq_true.mp h f hf
    rw [hr, Bool.not_true, Bool.false_or, List.any_eq_true] at this
    obtain ⟨⟨n, v⟩, hv, hn⟩ := this
    exact ⟨v, by rw [← of_decide_eq_true hn]; exact hv⟩)

/-- C94_options: the query is missing -/
example : command grCmd exInts (exLine "db suggest mysql -o a.html") = .refused (.missing ["query".toList]) := by decide +kernel

/-- C94_sound: options may also stand between the words of the command -/
example : command grCmd exInts (exLine "db -o a.html suggest -v hasura postgres -q Q") =
    .ran .hasura [("output".toList, "a.html".toList), ("verbose".toList, "true".toList), ("query".toList, "Q".toList)] := by
  decide +kernel

/-- C94_extra_ignored: the query of this line is `SELECT` -/
example : command grCmd exInts (exLine "db suggest mysql -o a.html -q SELECT name FROM users") =
    .ran .mysql [("output".toList, "a.html".toList), ("query".toList, "SELECT".toList)] := by decide +kernel

/-- C94_typo: `sugest` shows the help of `gr db` and succeeds, `bd` is refused -/
example : exitStatus exInts (fun _ _ => false) (exLine "db sugest mysql x") = 0 ∧
    exitStatus exInts (fun _ _ => true) (exLine "bd suggest mysql x") = 1 := by decide +kernel

/-- C94_examine_only_if_asked: both can be the case -/
example : (∃ a ∈ exTokens.flatMap Token.text, '-' :: '-' :: "with-examine".toList <+: a) ∧
    (∀ a ∈ exLine "db suggest mysql -o a.html -q Q", ¬ '-' :: '-' :: "with-examine".toList <+: a) := by decide +kernel

end Verif.Cmd.Line
