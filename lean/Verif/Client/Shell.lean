import Verif.Common
import Verif.Index.Props
/-!
# C43, C61: command lines shown in the reports

`/repo/client/src/models/ExaminationCommandOption.ts`, `/repo/client/src/models/IndexTarget.ts`,
`/repo/client/src/components/IndexSuggestion.svelte`,
`/repo/client/src/pages/dig/performance_insights/util/CommandText.ts`
-/
namespace Verif.Client.Shell
open Verif.Index Verif.Index.Spec

abbrev Str := List Char

/-! ## Model -/

/-- `/repo/client/src/models/ExaminationCommandOption.ts:1-4` -/
structure CommandOption where
  name : Str
  value : Str
  isShort : Bool
deriving DecidableEq, Repr

/-- the class ``["$`\\]`` of line 8 -/
def isSpecial (c : Char) : Bool := c == '"' || c == '$' || c == '`' || c == '\\'

/-- ``value.replace(/(["$`\\])/g, "\\$1")``,
`/repo/client/src/models/ExaminationCommandOption.ts:8` -/
def escape : Str → Str
  | [] => []
  | c :: cs => if isSpecial c then '\\' :: c :: escape cs else c :: escape cs

/-- `/repo/client/src/models/ExaminationCommandOption.ts:6-15` `ToCommandString`; `/^\w+$/` without the
`m` flag is about the whole string. -/
def CommandOption.text (o : CommandOption) : Str :=
  let dash := if o.isShort then ['-'] else ['-', '-']
  let escaped := escape o.value
  if escaped ≠ [] ∧ escaped.all Regex.isWord then dash ++ o.name ++ ' ' :: escaped
  else dash ++ o.name ++ ' ' :: '"' :: escaped ++ ['"']

/-- `/repo/client/src/models/IndexTarget.ts:14-16,28-30` `toGrIndexOption` -/
def toGrIndexOption (it : IndexTarget) : Str :=
  '"' :: it.tableName ++ ':' :: joinWith ['+'] (it.columns.map (·.name)) ++ ['"']

/-- `/repo/client/src/components/IndexSuggestion.svelte:5-9` `subCommands` -/
inductive SubCommand where
  | mysql | postgres | hasuraPostgres
deriving DecidableEq, Repr

def SubCommand.text : SubCommand → Str
  | .mysql => "mysql".toList
  | .postgres => "postgres".toList
  | .hasuraPostgres => "hasura postgres".toList

/-- `/repo/client/src/components/IndexSuggestion.svelte:19-37` `buildCommandText` -/
def examineCommand (sub : SubCommand) (options : List CommandOption) (targets : List IndexTarget) : Str :=
  let command := "gr db suggest ".toList ++ sub.text ++ " --with-examine \\\n".toList
  let iOption :=
    if targets.length = 0 then "\t-i ... \\\n".toList
    else joinWith [] (targets.map fun it => "\t-i ".toList ++ toGrIndexOption it ++ " \\\n".toList)
  let option := joinWith " \\\n".toList (options.map fun o => '\t' :: o.text)
  command ++ iOption ++ option

/-- `/repo/client/src/pages/dig/performance_insights/util/CommandText.ts:1-6` `buildCommandText`; `none`
is `null`/`undefined`. -/
def loadCommand (dbName sql : Option Str) : Str :=
  let db := dbName.getD "...".toList
  let query := sql.getD "...".toList
  "DB_DATABASE=\"".toList ++ db ++ "\" gr db suggest -o \"suggest.html\" \\\n\t-q \"".toList ++ query ++
    ['"']

/-! ## Specification: how a POSIX shell splits a simple command into words

XCU 2.2 (quoting) and 2.3 (token recognition), for texts without expansions: `none` where the shell
would expand something, run a substitution, end the command or wait for a closing quote. -/

/-- unquoted characters without meaning to the shell -/
def isPlain (c : Char) : Bool := Regex.isWord c || ['-', '.', '/', ':', '+', ',', '=', '@', '%'].contains c

/-- the characters a backslash quotes inside double quotes, XCU 2.2.3 (besides the newline, which it
removes) -/
def isDq (c : Char) : Bool := ['$', '`', '"', '\\'].contains c

/-- where the shell is: between words, in a word, in double quotes of a word -/
inductive Q where
  | between
  | bare (acc : Str)
  | dq (acc : Str)

def Q.finish : Q → Option (List Str)
  | .between => some []
  | .bare a => some [a]
  | .dq _ => none

/-- words read so far are pushed by the callers -/
def split : Q → Str → Option (List Str)
  | q, [] => q.finish
  | .between, '\\' :: '\n' :: cs => split .between cs
  | .between, c :: cs =>
    if c = ' ' ∨ c = '\t' then split .between cs
    else if c = '"' then split (.dq []) cs
    else if isPlain c then split (.bare [c]) cs
    else none
  | .bare a, '\\' :: '\n' :: cs => split (.bare a) cs
  | .bare a, c :: cs =>
    if c = ' ' ∨ c = '\t' then (split .between cs).map (a :: ·)
    else if c = '"' then split (.dq a) cs
    else if isPlain c then split (.bare (a ++ [c])) cs
    else none
  | .dq a, '\\' :: c :: cs =>
    if isDq c then split (.dq (a ++ [c])) cs
    else if c = '\n' then split (.dq a) cs
    else split (.dq (a ++ ['\\', c])) cs
  | .dq a, c :: cs =>
    if c = '"' then split (.bare a) cs
    else if c = '$' ∨ c = '`' ∨ c = '\\' then none
    else split (.dq (a ++ [c])) cs

/-- the arguments of a command line -/
def words (s : Str) : Option (List Str) := split .between s

/-- a name that needs no quoting -/
def Bare (s : Str) : Prop := s ≠ [] ∧ ∀ c ∈ s, isPlain c = true

/-- text without the four characters that are special in double quotes -/
def Unspecial (s : Str) : Prop := ∀ c ∈ s, isDq c = false

/-! ## Proofs -/

theorem isSpecial_iff (c : Char) : isSpecial c = true ↔ c = '"' ∨ c = '$' ∨ c = '`' ∨ c = '\\' := by
  simp [isSpecial, or_assoc]

theorem isDq_eq (c : Char) : isDq c = isSpecial c := by
  rw [Bool.eq_iff_iff, isSpecial_iff]
  simp only [isDq, List.contains_eq_mem, List.mem_cons, List.not_mem_nil, or_false, decide_eq_true_eq]
  constructor <;> rintro (h | h | h | h) <;> simp [h]

theorem plain_special (c : Char) (h : isPlain c = true) :
    c ≠ ' ' ∧ c ≠ '\t' ∧ c ≠ '"' ∧ c ≠ '\\' ∧ c ≠ '$' ∧ c ≠ '`' ∧ c ≠ '\n' := by
  refine ⟨?_, ?_, ?_, ?_, ?_, ?_, ?_⟩ <;> rintro rfl <;> revert h <;> decide

theorem split_bare_cons (a : Str) (c : Char) (cs : Str) (h : isPlain c = true) :
    split (.bare a) (c :: cs) = split (.bare (a ++ [c])) cs := by
  obtain ⟨h1, h2, h3, h4, _⟩ := plain_special c h
  rw [split.eq_def]
  split <;> simp_all

theorem split_between_plain (c : Char) (cs : Str) (h : isPlain c = true) :
    split .between (c :: cs) = split (.bare [c]) cs := by
  obtain ⟨h1, h2, h3, h4, _⟩ := plain_special c h
  rw [split.eq_def]
  split <;> simp_all

theorem split_bare (w : Str) (h : ∀ c ∈ w, isPlain c = true) (a rest : Str) :
    split (.bare a) (w ++ rest) = split (.bare (a ++ w)) rest := by
  induction w generalizing a with
  | nil => simp
  | cons c w ih =>
    rw [List.cons_append, split_bare_cons a c _ (h c (by simp)),
      ih (fun x hx => h x (List.mem_cons_of_mem _ hx))]
    simp

theorem split_between (w rest : Str) (h : Bare w) :
    split .between (w ++ rest) = split (.bare w) rest := by
  cases w with
  | nil => exact absurd rfl h.1
  | cons c w =>
    rw [List.cons_append, split_between_plain c _ (h.2 c (by simp)),
      split_bare w (fun x hx => h.2 x (List.mem_cons_of_mem _ hx))]
    simp

theorem split_bare_space (a rest : Str) :
    split (.bare a) (' ' :: rest) = (split .between rest).map (a :: ·) := by
  rw [split.eq_def]; simp

theorem split_between_space (c : Char) (h : c = ' ' ∨ c = '\t') (rest : Str) :
    split .between (c :: rest) = split .between rest := by
  rw [split.eq_def]
  rcases h with rfl | rfl <;> simp

theorem split_between_cont (rest : Str) :
    split .between ('\\' :: '\n' :: rest) = split .between rest := by
  rw [split.eq_def]
  rfl

theorem split_between_quote (rest : Str) : split .between ('"' :: rest) = split (.dq []) rest := by
  rw [split.eq_def]; simp

theorem split_bare_quote (a rest : Str) : split (.bare a) ('"' :: rest) = split (.dq a) rest := by
  rw [split.eq_def]; simp

theorem split_dq_quote (a rest : Str) : split (.dq a) ('"' :: rest) = split (.bare a) rest := by
  rw [split.eq_def]; simp

theorem split_dq_escaped (a rest : Str) (c : Char) (h : isSpecial c = true) :
    split (.dq a) ('\\' :: c :: rest) = split (.dq (a ++ [c])) rest := by
  rw [split.eq_def]
  simp [isDq_eq, h]

theorem split_dq_other (a rest : Str) (c : Char) (h : isSpecial c = false) :
    split (.dq a) (c :: rest) = split (.dq (a ++ [c])) rest := by
  have hn : ¬ (c = '"' ∨ c = '$' ∨ c = '`' ∨ c = '\\') := by
    rw [← isSpecial_iff, h]; simp
  rw [split.eq_def]
  split <;> simp_all

/-- an escaped value in double quotes is the value -/
theorem split_escaped (v a rest : Str) :
    split (.dq a) (escape v ++ '"' :: rest) = split (.bare (a ++ v)) rest := by
  induction v generalizing a with
  | nil => simp [escape, split_dq_quote]
  | cons c v ih =>
    by_cases h : isSpecial c = true
    · rw [escape, if_pos h, List.cons_append, List.cons_append, split_dq_escaped _ _ _ h, ih]
      simp
    · rw [escape, if_neg h, List.cons_append, split_dq_other _ _ _ (by simpa using h), ih]
      simp

theorem escape_unspecial (v : Str) (h : Unspecial v) : escape v = v := by
  induction v with
  | nil => rfl
  | cons c v ih =>
    have := h c (by simp)
    rw [escape, ← isDq_eq, this, ih (fun x hx => h x (List.mem_cons_of_mem _ hx))]
    simp

theorem split_unspecial (v a rest : Str) (h : Unspecial v) :
    split (.dq a) (v ++ '"' :: rest) = split (.bare (a ++ v)) rest := by
  have := split_escaped v a rest
  rwa [escape_unspecial v h] at this

/-- an escaped value of word characters is the value -/
theorem escape_word (v : Str) (h : (escape v).all Regex.isWord = true) :
    escape v = v ∧ ∀ c ∈ v, isPlain c = true := by
  induction v with
  | nil => simp [escape]
  | cons c v ih =>
    by_cases hs : isSpecial c = true
    · rw [escape, if_pos hs] at h
      simp only [List.all_cons, Bool.and_eq_true] at h
      exact absurd h.1 (by decide)
    · rw [escape, if_neg hs] at h ⊢
      simp only [List.all_cons, Bool.and_eq_true] at h
      obtain ⟨h1, h2⟩ := ih h.2
      refine ⟨by rw [h1], ?_⟩
      intro x hx
      rcases List.mem_cons.mp hx with rfl | hx
      · simp [isPlain, h.1]
      · exact h2 x hx

/-- the option as an argument -/
def CommandOption.flag (o : CommandOption) : Str :=
  (if o.isShort then ['-'] else ['-', '-']) ++ o.name

theorem flag_bare (o : CommandOption) (h : Bare o.name) : Bare o.flag := by
  unfold CommandOption.flag
  constructor
  · cases o.isShort <;> simp
  · intro c hc
    rcases List.mem_append.mp hc with hc | hc
    · cases hs : o.isShort <;> simp [hs] at hc <;> subst hc <;> decide
    · exact h.2 c hc

/-- an option is read as its flag and its value; the word goes on after it -/
theorem split_option (o : CommandOption) (h : Bare o.name) (rest : Str) :
    split .between (o.text ++ rest) = (split (.bare o.value) rest).map (o.flag :: ·) := by
  have hb := flag_bare o h
  unfold CommandOption.text
  by_cases hw : escape o.value ≠ [] ∧ (escape o.value).all Regex.isWord = true
  · rw [if_pos hw]
    obtain ⟨h1, h2⟩ := escape_word o.value hw.2
    have hv : Bare o.value := ⟨by rw [h1] at hw; exact hw.1, h2⟩
    rw [h1]
    have := split_between o.flag (' ' :: (o.value ++ rest)) hb
    rw [split_bare_space, split_between _ _ hv] at this
    rw [← this]
    simp [CommandOption.flag]
  · rw [if_neg hw]
    have := split_between o.flag (' ' :: '"' :: (escape o.value ++ '"' :: rest)) hb
    rw [split_bare_space, split_between_quote, split_escaped, List.nil_append] at this
    rw [← this]
    simp [CommandOption.flag]

/-- C43: an option pasted into a shell is its flag followed by exactly its value, whatever characters
the value has. -/
theorem C43_option (o : CommandOption) (h : Bare o.name) : words o.text = some [o.flag, o.value] := by
  have := split_option o h []
  rw [List.append_nil] at this
  unfold words
  rw [this]
  simp [split, Q.finish]

theorem split_cont (a rest : Str) :
    split (.bare a) (" \\\n".toList ++ rest) = (split .between rest).map (a :: ·) := by
  have e : " \\\n".toList ++ rest = ' ' :: '\\' :: '\n' :: rest := by simp
  rw [e, split_bare_space, split_between_cont]

theorem split_options : ∀ (os : List CommandOption), (∀ o ∈ os, Bare o.name) →
    split .between (joinWith " \\\n".toList (os.map fun o => '\t' :: o.text)) =
      some (os.flatMap fun o => [o.flag, o.value])
  | [], _ => by simp [joinWith, split, Q.finish]
  | [o], h => by
    have := C43_option o (h o (by simp))
    simp only [List.map_cons, List.map_nil, joinWith, List.flatMap_cons, List.flatMap_nil,
      List.append_nil]
    rw [split_between_space _ (.inr rfl)]
    exact this
  | o :: o' :: os, h => by
    have ih := split_options (o' :: os) (fun x hx => h x (List.mem_cons_of_mem _ hx))
    have e : joinWith " \\\n".toList ((o :: o' :: os).map fun o => '\t' :: o.text) =
        '\t' :: (o.text ++ (" \\\n".toList ++
          joinWith " \\\n".toList ((o' :: os).map fun o => '\t' :: o.text))) := by
      simp [joinWith]
    rw [e, split_between_space _ (.inr rfl), split_option o (h o (by simp)), split_cont, ih]
    simp

/-- the argument of `-i` for a target -/
def indexArg (it : IndexTarget) : Str :=
  it.tableName ++ ':' :: joinWith ['+'] (it.columns.map (·.name))

theorem toGrIndexOption_eq (it : IndexTarget) : toGrIndexOption it = '"' :: indexArg it ++ ['"'] := by
  simp [toGrIndexOption, indexArg]

theorem split_targets : ∀ (its : List IndexTarget) (rest : Str), (∀ it ∈ its, Unspecial (indexArg it)) →
    split .between (joinWith [] (its.map fun it => "\t-i ".toList ++ toGrIndexOption it ++
        " \\\n".toList) ++ rest) =
      (split .between rest).map ((its.flatMap fun it => ["-i".toList, indexArg it]) ++ ·) := by
  have one : ∀ (it : IndexTarget) (rest : Str), Unspecial (indexArg it) →
      split .between ("\t-i ".toList ++ toGrIndexOption it ++ " \\\n".toList ++ rest) =
        (split .between rest).map (fun r => "-i".toList :: indexArg it :: r) := by
    intro it rest h
    have e : "\t-i ".toList ++ toGrIndexOption it ++ " \\\n".toList ++ rest =
        '\t' :: (['-', 'i'] ++ (' ' :: '"' :: (indexArg it ++ '"' :: (" \\\n".toList ++ rest)))) := by
      rw [toGrIndexOption_eq]
      simp
    rw [e, split_between_space _ (.inr rfl),
      split_between ['-', 'i'] _ ⟨by simp, by decide⟩, split_bare_space, split_between_quote,
      split_unspecial _ _ _ h, List.nil_append, split_cont]
    simp only [Option.map_map]
    congr 1
  intro its
  induction its with
  | nil => intro rest _; simp [joinWith]
  | cons it its ih =>
    intro rest h
    have ih' := ih rest (fun x hx => h x (List.mem_cons_of_mem _ hx))
    have h1 := one it
    cases its with
    | nil =>
      simp only [List.map_cons, List.map_nil, joinWith]
      rw [h1 rest (h it (by simp))]
      simp
    | cons it' its =>
      have e : joinWith [] ((it :: it' :: its).map fun it => "\t-i ".toList ++ toGrIndexOption it ++
          " \\\n".toList) ++ rest =
          "\t-i ".toList ++ toGrIndexOption it ++ " \\\n".toList ++
          (joinWith [] ((it' :: its).map fun it => "\t-i ".toList ++ toGrIndexOption it ++
          " \\\n".toList) ++ rest) := by
        simp [joinWith]
      rw [e, h1 _ (h it (by simp)), ih']
      simp only [Option.map_map]
      congr 1

/-- the words of the command itself -/
def commandWords (sub : SubCommand) : List Str :=
  ["gr".toList, "db".toList, "suggest".toList] ++
  (match sub with
    | .mysql => ["mysql".toList]
    | .postgres => ["postgres".toList]
    | .hasuraPostgres => ["hasura".toList, "postgres".toList]) ++ ["--with-examine".toList]

theorem split_word_space (w rest : Str) (h : Bare w) :
    split .between (w ++ ' ' :: rest) = (split .between rest).map (w :: ·) := by
  rw [split_between w _ h, split_bare_space]

theorem bare_of (w : Str) (h : (!w.isEmpty && w.all isPlain) = true) : Bare w := by
  simp at h
  exact ⟨h.1, h.2⟩

theorem split_words (ws : List Str) (h : ∀ w ∈ ws, (!w.isEmpty && w.all isPlain) = true) (rest : Str) :
    split .between ((ws.map (· ++ [' '])).flatten ++ rest) = (split .between rest).map (ws ++ ·) := by
  induction ws with
  | nil => simp
  | cons w ws ih =>
    have ih := ih (fun x hx => h x (List.mem_cons_of_mem _ hx))
    have e : ((w :: ws).map (· ++ [' '])).flatten ++ rest =
        w ++ ' ' :: ((ws.map (· ++ [' '])).flatten ++ rest) := by simp
    rw [e, split_word_space _ _ (bare_of w (h w (by simp))), ih]
    simp only [Option.map_map]
    congr 1

theorem split_command (sub : SubCommand) (rest : Str) :
    split .between ("gr db suggest ".toList ++ sub.text ++ " --with-examine \\\n".toList ++ rest) =
      (split .between rest).map (commandWords sub ++ ·) := by
  have key : ∀ sub, "gr db suggest ".toList ++ sub.text ++ " --with-examine \\\n".toList =
      ((commandWords sub).map (· ++ [' '])).flatten ++ ['\\', '\n'] := by
    intro sub
    cases sub <;> decide +kernel
  rw [key, List.append_assoc, split_words]
  · rw [show ['\\', '\n'] ++ rest = '\\' :: '\n' :: rest from rfl, split_between_cont]
  · cases sub <;> decide +kernel

/-- C43: the whole command line of the report is read as the command, one `-i` per chosen target and
every option with exactly its value. -/
theorem C43_command (sub : SubCommand) (options : List CommandOption) (targets : List IndexTarget)
    (ho : ∀ o ∈ options, Bare o.name) (ht : ∀ it ∈ targets, Unspecial (indexArg it))
    (hne : targets ≠ []) :
    words (examineCommand sub options targets) =
      some (commandWords sub ++ (targets.flatMap fun it => ["-i".toList, indexArg it]) ++
        options.flatMap fun o => [o.flag, o.value]) := by
  have hl : ¬ targets.length = 0 := by
    rw [List.length_eq_zero_iff]; exact hne
  unfold words examineCommand
  simp only [hl, if_false]
  rw [List.append_assoc, split_command, split_targets targets _ ht, split_options options ho]
  simp

/-- C43: with no target chosen the command has a placeholder `...` in place of a target, which the
program refuses; the options are passed as before. -/
theorem C43_placeholder (sub : SubCommand) (options : List CommandOption)
    (ho : ∀ o ∈ options, Bare o.name) :
    words (examineCommand sub options []) =
      some (commandWords sub ++ ["-i".toList, "...".toList] ++
        options.flatMap fun o => [o.flag, o.value]) ∧
    ∃ e, newIndexTargetFromText "...".toList = .error e := by
  constructor
  · unfold words examineCommand
    simp only [List.length_nil, if_true]
    have e : "\t-i ... \\\n".toList ++ joinWith " \\\n".toList (options.map fun o => '\t' :: o.text) =
        '\t' :: (((["-i".toList, "...".toList].map (· ++ [' '])).flatten) ++
          ('\\' :: '\n' :: joinWith " \\\n".toList (options.map fun o => '\t' :: o.text))) := by rfl
    rw [List.append_assoc, split_command, e, split_between_space _ (.inr rfl), split_words,
      split_between_cont, split_options options ho]
    · simp
    · decide +kernel
  · cases h : newIndexTargetFromText "...".toList with
    | error e => exact ⟨e, rfl⟩
    | ok it =>
      have : (match newIndexTargetFromText "...".toList with | .ok _ => true | .error _ => false) =
        false := by decide +kernel
      rw [h] at this
      cases this

/-- C43: safe targets need no escaping, and reading the argument back gives the target. -/
theorem C43_targets (it : IndexTarget) (h : Plain it) :
    Unspecial (indexArg it) ∧ newIndexTargetFromText (indexArg it) = .ok it := by
  have hr := C02_round_trip it h
  have hg : it.grIndexOption = indexArg it := by
    unfold IndexTarget.grIndexOption indexArg
    simp
  refine ⟨?_, hg ▸ hr⟩
  have hw : ∀ c, Regex.isWord c = true → isDq c = false := by
    intro c hc
    rw [isDq_eq]
    cases hs : isSpecial c with
    | false => rfl
    | true =>
      rcases (isSpecial_iff c).mp hs with rfl | rfl | rfl | rfl <;> exact absurd hc (by decide)
  intro c hc
  unfold indexArg at hc
  rcases List.mem_append.mp hc with hc | hc
  · exact hw c ((isWord_iff c).mpr (h.table.2 c hc))
  · rcases List.mem_cons.mp hc with rfl | hc
    · decide
    · have hj : ∀ (cs : List Str), (∀ x ∈ cs, ∀ d ∈ x, isDq d = false) →
          ∀ d ∈ joinWith ['+'] cs, isDq d = false := by
        intro cs
        induction cs with
        | nil => intro _ d hd; simp [joinWith] at hd
        | cons x xs ih =>
          intro hx d hd
          cases xs with
          | nil => exact hx x (by simp) d (by simpa [joinWith] using hd)
          | cons y ys =>
            simp only [joinWith, List.mem_append] at hd
            rcases hd with (hd | hd) | hd
            · exact hx x (by simp) d hd
            · simp at hd; subst hd; decide
            · exact ih (fun z hz => hx z (List.mem_cons_of_mem _ hz)) d hd
      refine hj _ ?_ c hc
      intro x hx d hd
      obtain ⟨col, hcol, rfl⟩ := List.mem_map.mp hx
      exact hw d ((isWord_iff d).mpr ((h.cols col hcol).2 d hd))

/-- a query with every special character -/
example : words (CommandOption.text ⟨['q'], "SELECT \"a\", `b`\nFROM t WHERE c = '$x\\'".toList, true⟩) =
    some ["-q".toList, "SELECT \"a\", `b`\nFROM t WHERE c = '$x\\'".toList] := by decide +kernel

/-- the command of a report -/
example : words (examineCommand .hasuraPostgres [⟨['o'], "a b.html".toList, true⟩,
      ⟨"json-variables".toList, "{\"x\": 1}".toList, false⟩]
      [⟨"users".toList, [⟨"a".toList⟩, ⟨"b".toList⟩]⟩]) =
    some ["gr".toList, "db".toList, "suggest".toList, "hasura".toList, "postgres".toList,
      "--with-examine".toList, "-i".toList, "users:a+b".toList, "-o".toList, "a b.html".toList,
      "--json-variables".toList, "{\"x\": 1}".toList] := by decide +kernel

/-- C43 does not extend to targets with other names: they are not escaped, and the shell expands
them. -/
theorem C43_unsafe_target_expands :
    words (examineCommand .postgres [] [⟨"a$HOME".toList, [⟨['b']⟩]⟩]) = none := by decide +kernel

/-! ## C61: the command of the load report -/

/-- C61 (partial): the command of the load report passes database and statement unchanged if they
contain none of the characters special in double quotes; for others it is false, see below. -/
theorem C61_load_command_partial (db sql : Str) (hd : Unspecial db) (hs : Unspecial sql) :
    words (loadCommand (some db) (some sql)) =
      some ["DB_DATABASE=".toList ++ db, "gr".toList, "db".toList, "suggest".toList, "-o".toList,
        "suggest.html".toList, "-q".toList, sql] := by
  unfold words loadCommand
  simp only [Option.getD_some]
  have e : "DB_DATABASE=\"".toList ++ db ++ "\" gr db suggest -o \"suggest.html\" \\\n\t-q \"".toList ++
      sql ++ ['"'] =
      "DB_DATABASE=".toList ++ ('"' :: (db ++ '"' :: (' ' ::
        (((["gr".toList, "db".toList, "suggest".toList, "-o".toList].map (· ++ [' '])).flatten ++
        ('"' :: ("suggest.html".toList ++ '"' :: (" \\\n".toList ++ ('\t' :: ((["-q".toList].map
          (· ++ [' '])).flatten ++ ('"' :: (sql ++ '"' :: [])))))))))))) := by
    simp
  have h1 : ∀ w ∈ ["gr".toList, "db".toList, "suggest".toList, "-o".toList],
      (!w.isEmpty && w.all isPlain) = true := by decide +kernel
  have h2 : ∀ w ∈ ["-q".toList], (!w.isEmpty && w.all isPlain) = true := by decide +kernel
  have h3 : Bare "DB_DATABASE=".toList := bare_of _ (by decide +kernel)
  have h4 : Unspecial "suggest.html".toList := by unfold Unspecial; decide +kernel
  rw [e, split_between _ _ h3, split_bare_quote, split_unspecial _ _ _ hd, split_bare_space,
    split_words _ h1, split_between_quote, split_unspecial _ _ _ h4, split_cont,
    split_between_space _ (.inr rfl), split_words _ h2, split_between_quote,
    split_unspecial _ _ _ hs]
  simp [split, Q.finish]

/-- C61 fails: a statement quoting an identifier MySQL's way would be executed by the shell as a
command substitution. -/
theorem C61_backquote_is_executed :
    words (loadCommand (some "d".toList) (some "SELECT * FROM `users`".toList)) = none := by
  decide +kernel

/-- C61 fails: a statement with a double quote is cut into several arguments. -/
theorem C61_quote_splits :
    words (loadCommand (some "d".toList) (some "SELECT \"a b\"".toList)) ≠
      some ["DB_DATABASE=d".toList, "gr".toList, "db".toList, "suggest".toList, "-o".toList,
        "suggest.html".toList, "-q".toList, "SELECT \"a b\"".toList] := by decide +kernel

end Verif.Client.Shell
