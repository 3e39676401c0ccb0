import Verif.Common
import Verif.Index.Props
import Verif.Examine.Props
import Verif.Remover.Props
/-!
# C42, C58, C59: the `suggest` commands

`/repo/cmd/db/suggest/{mysql,postgres}.go`, `/repo/cmd/db/suggest/hasura/postgres.go`,
`/repo/html/viewmodel/vm_examination_command_option.go`, the three `index_suggester.go`.
-/
namespace Verif.Cmd
open Verif.Index Verif.Examine

abbrev Str := List Char

/-! ## Model -/

/-- errors: an `-i` text, a step outside the model, the examination, an empty list for `sqlx.In`, a
GraphQL document with several queries -/
inductive Err where
  | index (e : ParseError)
  | outside (n : Nat)
  | exam (e : Examine.Err)
  | emptyIn
  | queries (n : Nat)
deriving DecidableEq, Repr

/-- `/repo/html/viewmodel/vm_examination_command_option.go:8-12` -/
structure CommandOption where
  isShort : Bool
  name : Str
  value : Str
deriving DecidableEq, Repr

/-- `filepath.Ext`: from the last dot of the last path element; `acc` is what was passed going
backwards. -/
def extRev : Str → Str → Str
  | [], _ => []
  | c :: cs, acc => if c = '/' then [] else if c = '.' then c :: acc else extRev cs (c :: acc)

/-- `filepath.Ext` on a system with `/` as path separator -/
def ext (path : Str) : Str := extRev path.reverse []

/-- `strings.TrimSuffix` -/
def trimSuffix (s suf : Str) : Str :=
  if suf.isSuffixOf s then s.take (s.length - suf.length) else s

/-- `/repo/html/viewmodel/vm_examination_command_option.go:14-25` `CreateOutputExaminationOption` -/
def createOutputExaminationOption (addPrefix : Bool) (filename : Str) : CommandOption :=
  let val := if addPrefix then trimSuffix filename (ext filename) ++ "_examine".toList ++ ext filename
    else filename
  ⟨true, "o".toList, val⟩

/-- What a report page is made of (`createHTML`: `/repo/cmd/db/suggest/mysql.go:111-137`,
`postgres.go:111-142`, `hasura/postgres.go:160-188`).  `T` is the plan tree. -/
structure Report (T : Type) where
  query : Str
  tree : T
  targets : List IndexTarget
  options : List CommandOption
  result : Option Examine.Result

/-- what can be observed of a run from outside -/
inductive Effect (T : Type) where
  /-- the explain statement (or the GraphQL document) is sent -/
  | explain (sql : Str)
  /-- the suggester looks at the query, reading the catalogue -/
  | suggest (query : Str)
  /-- a call during the examination -/
  | exam (e : Examine.Event)
  /-- the report is written -/
  | html (path : Str) (r : Report T)

/-- the command line -/
structure Options where
  runsExamination : Bool
  indexTargets : List Str
  query : Str
  output : Str

/-- the outside of a SQL command: explaining (with building the tree), suggesting, the database under
examination, the clock, and writing the report -/
structure World (T : Type) where
  explain : Str → Except Err T
  suggest : Str → Except Err (List IndexTarget)
  exam : Examine.Env
  now : Nat
  write : Str → Report T → Except Err Unit

/-- `/repo/cmd/db/suggest/mysql.go:96-109` `examine` up to the call of `Run` (the same lines in
`postgres.go:96-109` and `hasura/postgres.go:145-158`). -/
def examineTargets (given possible : List IndexTarget) : List IndexTarget :=
  if given.length = 0 then possible.filter (·.isSafe) else given

/-- the end of the commands, `/repo/cmd/db/suggest/mysql.go:76-94`, `postgres.go:76-94`,
`hasura/postgres.go:118-135`; `extra` are the options only Hasura has. -/
def finish {T : Type} (w : World T) (o : Options) (extra : List CommandOption) (given : List IndexTarget)
    (query : Str) (tree : T) (its : List IndexTarget) (log : List (Effect T)) :
    Except Err Unit × List (Effect T) :=
  let report (er : Option Examine.Result) (log : List (Effect T)) :
      Except Err Unit × List (Effect T) :=
    if o.output ≠ [] then
      let r : Report T := ⟨query, tree, its,
        [createOutputExaminationOption (!o.runsExamination) o.output, ⟨true, "q".toList, o.query⟩] ++
          extra, er⟩
      match w.write o.output r with
      | .error e => (.error e, log)
      | .ok _ => (.ok (), log ++ [.html o.output r])
    else (.ok (), log)
  if o.runsExamination then
    match Examine.run w.exam w.now (examineTargets given its) with
    | (.error e, evs) => (.error (.exam e), log ++ evs.map .exam)
    | (.ok er, evs) => report (some er) (log ++ evs.map .exam)
  else report none log

/-- `/repo/cmd/db/suggest/mysql.go:61-94` and `/repo/cmd/db/suggest/postgres.go:61-94` `suggest`, the
same but for the explain statement: `pre` is `EXPLAIN ANALYZE FORMAT=TREE ` (`/repo/infra/mysql/db.go:51`)
or `EXPLAIN (ANALYZE, BUFFERS) ` (`/repo/infra/postgres/db.go:46`). -/
def suggestSql {T : Type} (pre : Str) (w : World T) (o : Options) :
    Except Err Unit × List (Effect T) :=
  match newIndexTargetsFromTexts o.indexTargets with
  | .error e => (.error (.index e), [])
  | .ok given =>
    let sql := pre ++ o.query
    match w.explain sql with
    | .error e => (.error e, [.explain sql])
    | .ok tree => match w.suggest o.query with
      | .error e => (.error e, [.explain sql, .suggest o.query])
      | .ok its => finish w o [] given o.query tree its [.explain sql, .suggest o.query]

def mysqlPre : Str := "EXPLAIN ANALYZE FORMAT=TREE ".toList
def pgPre : Str := "EXPLAIN (ANALYZE, BUFFERS) ".toList

/-- the outside of the Hasura command: `explain` answers the list of `(SQL, plan)`, `build` is the tree
builder, `parseJson` reads the variables -/
structure HasuraWorld (T Plan : Type) extends World T where
  explainGql : Str → Except Err (List (Str × Plan))
  build : Plan → Except Err T
  parseJson : Str → Except Err Unit

/-- `/repo/cmd/db/suggest/hasura/postgres.go:24-36,67-76,88-135`: `prepare`, then `suggest`.  Note the
later check of `-i`. -/
def suggestHasura {T Plan : Type} (w : HasuraWorld T Plan) (o : Options) (jsonVariables : Str) :
    Except Err Unit × List (Effect T) :=
  match w.parseJson jsonVariables with
  | .error e => (.error e, [])
  | .ok _ => match w.explainGql o.query with
    | .error e => (.error e, [.explain o.query])
    | .ok [(sql, plan)] => match w.build plan with
      | .error e => (.error e, [.explain o.query])
      | .ok tree => match w.suggest sql with
        | .error e => (.error e, [.explain o.query, .suggest sql])
        | .ok its => match newIndexTargetsFromTexts o.indexTargets with
          | .error e => (.error (.index e), [.explain o.query, .suggest sql])
          | .ok given => finish w.toWorld o [⟨false, "json-variables".toList, jsonVariables⟩] given sql
              tree its [.explain o.query, .suggest sql]
    | .ok res => (.error (.queries res.length), [.explain o.query])

/-- `sqlx.In` refuses an empty list; the two `GetIndexes` pass it the table names
(`/repo/infra/mysql/db.go:78-82`, `/repo/infra/postgres/db.go:71-75`). -/
def getIndexesSql (select : List Str → Except Err (List IndexTarget)) (tables : List Str) :
    Except Err (List IndexTarget) :=
  if tables = [] then .error .emptyIn else select tables

/-- `Suggest` of the three suggesters (`/repo/database/mysql/mservice/index_suggester.go:23-40`,
`postgres/pservice/index_suggester.go:22-39`, `hasura/hservice/index_suggester.go:21-38`): parse, list
the candidates, remove those that exist.  `list` answers the candidates or a non-empty list of errors,
the first of which is returned. -/
def suggester {P Stmt : Type} [DecidableEq P] (fold : Char → Char) (deref : P → IndexTarget)
    (parse : Str → Except Err Stmt) (list : Stmt → List P × List Err)
    (getIndexes : List Str → Except Err (List IndexTarget)) (query : Str) : Except Err (List P) :=
  match parse query with
  | .error e => .error e
  | .ok stmt => match list stmt with
    | (_, e :: _) => .error e
    | (its, []) => Remover.remove fold deref getIndexes its

/-! ## Specification -/

/-- the calls of the examination among the effects -/
def examEvents {T : Type} (l : List (Effect T)) : List Examine.Event :=
  l.filterMap fun | .exam e => some e | _ => none

/-- the effects that change the database: creating and dropping indexes -/
def Changes {T : Type} : Effect T → Prop
  | .exam ⟨.create _ _, _⟩ => True
  | .exam ⟨.drop _ _, _⟩ => True
  | _ => False

/-- the given targets if there are any, the safe suggestions otherwise -/
def Chosen (given its ts : List IndexTarget) : Prop :=
  (given ≠ [] → ts = given) ∧ (given = [] → ts = its.filter (·.isSafe))

/-! ## Proofs -/

theorem examineTargets_chosen (given its : List IndexTarget) :
    Chosen given its (examineTargets given its) := by
  unfold Chosen examineTargets
  cases given <;> simp

theorem examEvents_append {T : Type} (a b : List (Effect T)) :
    examEvents (a ++ b) = examEvents a ++ examEvents b := by
  simp [examEvents]

theorem examEvents_map {T : Type} (evs : List Examine.Event) :
    examEvents (evs.map (Effect.exam (T := T))) = evs := by
  induction evs with
  | nil => rfl
  | cons e evs ih => simpa [examEvents] using ih

/-- what the end of a command does -/
theorem finish_spec {T : Type} (w : World T) (o : Options) (extra : List CommandOption)
    (given : List IndexTarget) (query : Str) (tree : T) (its : List IndexTarget)
    (log : List (Effect T)) :
    ∃ evs tail, (finish w o extra given query tree its log).2 = log ++ evs.map .exam ++ tail ∧
      (tail = [] ∨ ∃ r, tail = [.html o.output r]) ∧
      (o.runsExamination = false → evs = []) ∧
      (o.runsExamination = true →
        ∃ ts, Chosen given its ts ∧ evs = (Examine.run w.exam w.now ts).2) := by
  unfold finish
  by_cases hx : o.runsExamination = true
  · simp only [hx, if_true]
    cases hr : Examine.run w.exam w.now (examineTargets given its) with
    | mk res evs =>
      cases res with
      | error e =>
        exact ⟨evs, [], by simp, .inl rfl, by simp, fun _ => ⟨_, examineTargets_chosen given its, by
          rw [hr]⟩⟩
      | ok er =>
        simp only
        have hch : o.runsExamination = true → ∃ ts, Chosen given its ts ∧
            evs = (Examine.run w.exam w.now ts).2 := fun _ =>
          ⟨_, examineTargets_chosen given its, by rw [hr]⟩
        simp only [hx, forall_const] at hch
        split
        · split
          · exact ⟨evs, [], by simp, .inl rfl, by simp, fun _ => hch⟩
          · exact ⟨evs, [_], by simp; rfl, .inr ⟨_, rfl⟩, by simp, fun _ => hch⟩
        · exact ⟨evs, [], by simp, .inl rfl, by simp, fun _ => hch⟩
  · have hx' : o.runsExamination = false := by simpa using hx
    simp only [hx', Bool.false_eq_true, if_false]
    split
    · split
      · exact ⟨[], [], by simp, .inl rfl, by simp, by simp⟩
      · exact ⟨[], [_], by simp; rfl, .inr ⟨_, rfl⟩, by simp, by simp⟩
    · exact ⟨[], [], by simp, .inl rfl, by simp, by simp⟩

/-- shape of every run of a SQL command -/
theorem suggestSql_spec {T : Type} (pre : Str) (w : World T) (o : Options) :
    (∃ e, newIndexTargetsFromTexts o.indexTargets = .error e ∧
      suggestSql pre w o = (.error (.index e), [])) ∨
    (∃ given, newIndexTargetsFromTexts o.indexTargets = .ok given ∧
      ((∃ e, w.explain (pre ++ o.query) = .error e ∧
        suggestSql pre w o = (.error e, [.explain (pre ++ o.query)])) ∨
       (∃ tree e, w.explain (pre ++ o.query) = .ok tree ∧ w.suggest o.query = .error e ∧
        suggestSql pre w o = (.error e, [.explain (pre ++ o.query), .suggest o.query])) ∨
       (∃ tree its, w.explain (pre ++ o.query) = .ok tree ∧ w.suggest o.query = .ok its ∧
        suggestSql pre w o = finish w o [] given o.query tree its
          [.explain (pre ++ o.query), .suggest o.query]))) := by
  unfold suggestSql
  cases h1 : newIndexTargetsFromTexts o.indexTargets with
  | error e => exact .inl ⟨e, rfl, rfl⟩
  | ok given =>
    right
    refine ⟨given, rfl, ?_⟩
    cases h2 : w.explain (pre ++ o.query) with
    | error e => exact .inl ⟨e, rfl, by simp only [h2]⟩
    | ok tree =>
      right
      cases h3 : w.suggest o.query with
      | error e => exact .inl ⟨tree, e, rfl, rfl, by simp only [h2, h3]⟩
      | ok its => exact .inr ⟨tree, its, rfl, rfl, by simp only [h2, h3]⟩

/-- shape of every run of the Hasura command -/
theorem suggestHasura_spec {T Plan : Type} (w : HasuraWorld T Plan) (o : Options) (jv : Str) :
    (∃ e log, suggestHasura w o jv = (.error e, log) ∧ examEvents log = [] ∧
      (∀ p r, Effect.html p r ∉ log)) ∨
    (∃ sql plan tree its given, w.explainGql o.query = .ok [(sql, plan)] ∧ w.build plan = .ok tree ∧
      w.suggest sql = .ok its ∧ newIndexTargetsFromTexts o.indexTargets = .ok given ∧
      suggestHasura w o jv = finish w.toWorld o [⟨false, "json-variables".toList, jv⟩] given sql tree
        its [.explain o.query, .suggest sql]) := by
  unfold suggestHasura
  cases h0 : w.parseJson jv with
  | error e => exact .inl ⟨e, _, rfl, rfl, by simp⟩
  | ok u =>
    simp only
    cases h1 : w.explainGql o.query with
    | error e => exact .inl ⟨e, _, rfl, rfl, by simp⟩
    | ok res =>
      match res with
      | [] => exact .inl ⟨_, _, rfl, rfl, by simp⟩
      | a :: b :: r => exact .inl ⟨_, _, rfl, rfl, by simp⟩
      | [(sql, plan)] =>
        simp only
        cases h2 : w.build plan with
        | error e => exact .inl ⟨e, _, rfl, rfl, by simp⟩
        | ok tree =>
          simp only
          cases h3 : w.suggest sql with
          | error e => exact .inl ⟨e, _, rfl, rfl, by simp⟩
          | ok its =>
            simp only
            cases h4 : newIndexTargetsFromTexts o.indexTargets with
            | error e => exact .inl ⟨_, _, rfl, rfl, by simp⟩
            | ok given => exact .inr ⟨sql, plan, tree, its, given, rfl, h2, h3, rfl, rfl⟩

theorem exam_of_log {T : Type} (a b : Str) (evs : List Examine.Event) (o : Str) (tail : List (Effect T))
    (h : tail = [] ∨ ∃ r, tail = [.html o r]) :
    examEvents ([Effect.explain a, .suggest b] ++ evs.map .exam ++ tail) = evs := by
  rw [examEvents_append, examEvents_append, examEvents_map]
  rcases h with rfl | ⟨r, rfl⟩ <;> simp [examEvents]

theorem bad_option (texts : List Str) (bad : Str) (hb : bad ∈ texts)
    (he : ∃ e, newIndexTargetFromText bad = .error e) (given : List IndexTarget) :
    newIndexTargetsFromTexts texts ≠ .ok given := by
  intro hg
  have := (C04_list_ok_iff texts given).mp hg
  obtain ⟨e, he⟩ := he
  clear hg
  induction this with
  | nil => cases hb
  | cons h1 _ ih =>
    rcases List.mem_cons.mp hb with rfl | hb
    · rw [he] at h1; cases h1
    · exact ih hb

/-- C42: an invalid `-i` value makes the MySQL and PostgreSQL commands fail before any access to the
database. -/
theorem C42_invalid_option {T : Type} (pre : Str) (w : World T) (o : Options) (bad : Str)
    (hb : bad ∈ o.indexTargets) (he : ∃ e, newIndexTargetFromText bad = .error e) :
    ∃ e, suggestSql pre w o = (.error (.index e), []) := by
  rcases suggestSql_spec pre w o with ⟨e, _, h⟩ | ⟨given, hg, _⟩
  · exact ⟨e, h⟩
  · exact absurd hg (bad_option _ bad hb he given)

/-- C42: Hasura's command also fails on an invalid `-i` value, though only after its reads: nothing
is executed for measuring, nothing changed, nothing written. -/
theorem C42_invalid_option_hasura {T Plan : Type} (w : HasuraWorld T Plan) (o : Options) (jv bad : Str)
    (hb : bad ∈ o.indexTargets) (he : ∃ e, newIndexTargetFromText bad = .error e) :
    ∃ e log, suggestHasura w o jv = (.error e, log) ∧ examEvents log = [] ∧
      (∀ p r, Effect.html p r ∉ log) := by
  rcases suggestHasura_spec w o jv with h | ⟨_, _, _, _, given, _, _, _, hg, _⟩
  · exact h
  · exact absurd hg (bad_option _ bad hb he given)

/-- C42: without `--with-examine` nothing is created, dropped or measured, whatever happens. -/
theorem C42_read_only {T Plan : Type} (pre : Str) (w : World T) (hw : HasuraWorld T Plan) (o : Options)
    (jv : Str) (h : o.runsExamination = false) :
    (∀ e, Effect.exam e ∉ (suggestSql pre w o).2) ∧
    (∀ e, Effect.exam e ∉ (suggestHasura hw o jv).2) := by
  have key : ∀ l : List (Effect T), examEvents l = [] → ∀ e, Effect.exam e ∉ l := by
    intro l hl e hm
    have : e ∈ examEvents l := by
      unfold examEvents
      exact List.mem_filterMap.mpr ⟨_, hm, rfl⟩
    rw [hl] at this
    cases this
  constructor
  · apply key
    rcases suggestSql_spec pre w o with ⟨e, _, h1⟩ | ⟨given, _, ⟨e, _, h1⟩ | ⟨_, e, _, _, h1⟩ |
      ⟨tree, its, _, _, h1⟩⟩
    · rw [h1]; rfl
    · rw [h1]; rfl
    · rw [h1]; rfl
    · rw [h1]
      obtain ⟨evs, tail, h2, h3, h4, _⟩ := finish_spec w o [] given o.query tree its
        [.explain (pre ++ o.query), .suggest o.query]
      rw [h2, exam_of_log _ _ _ _ _ h3]
      exact h4 h
  · apply key
    rcases suggestHasura_spec hw o jv with ⟨_, _, h1, h2, _⟩ | ⟨sql, _, tree, its, given, _, _, _, _, h1⟩
    · rw [h1]; exact h2
    · rw [h1]
      obtain ⟨evs, tail, h2, h3, h4, _⟩ := finish_spec hw.toWorld o
        [⟨false, "json-variables".toList, jv⟩] given sql tree its [.explain o.query, .suggest sql]
      rw [h2, exam_of_log _ _ _ _ _ h3]
      exact h4 h

/-- every target on the command line is plain, hence safe -/
theorem given_safe (texts : List Str) (given : List IndexTarget)
    (h : newIndexTargetsFromTexts texts = .ok given) : ∀ it ∈ given, it.isSafe = true := by
  have := (C04_list_ok_iff texts given).mp h
  clear h
  induction this with
  | nil => intro it hit; cases hit
  | cons h1 _ ih =>
    intro it hit
    rcases List.mem_cons.mp hit with rfl | hit
    · exact plain_isSafe _ ((parse_ok_iff _ _).mp h1).1
    · exact ih it hit

theorem chosen_safe (given its ts : List IndexTarget) (hg : ∀ it ∈ given, it.isSafe = true)
    (h : Chosen given its ts) : ∀ it ∈ ts, it.isSafe = true := by
  intro it hit
  by_cases hne : given = []
  · rw [h.2 hne] at hit
    exact (List.mem_filter.mp hit).2
  · rw [h.1 hne] at hit
    exact hg it hit

/-- C42: with `--with-examine`, what is done to the database is one examination of the targets given
by `-i` (all of them, in order) or, if there are none, of the safe suggestions; all targets examined
are safe. -/
theorem C42_examined {T Plan : Type} (pre : Str) (w : World T) (hw : HasuraWorld T Plan) (o : Options)
    (jv : Str) :
    (examEvents (suggestSql pre w o).2 = [] ∨
      ∃ given its ts, newIndexTargetsFromTexts o.indexTargets = .ok given ∧
        w.suggest o.query = .ok its ∧ Chosen given its ts ∧ (∀ it ∈ ts, it.isSafe = true) ∧
        examEvents (suggestSql pre w o).2 = (Examine.run w.exam w.now ts).2) ∧
    (examEvents (suggestHasura hw o jv).2 = [] ∨
      ∃ sql given its ts, newIndexTargetsFromTexts o.indexTargets = .ok given ∧
        hw.suggest sql = .ok its ∧ Chosen given its ts ∧ (∀ it ∈ ts, it.isSafe = true) ∧
        examEvents (suggestHasura hw o jv).2 = (Examine.run hw.exam hw.now ts).2) := by
  constructor
  · rcases suggestSql_spec pre w o with ⟨e, _, h1⟩ | ⟨given, hg, ⟨e, _, h1⟩ | ⟨_, e, _, _, h1⟩ |
      ⟨tree, its, _, hs, h1⟩⟩
    · left; rw [h1]; rfl
    · left; rw [h1]; rfl
    · left; rw [h1]; rfl
    · obtain ⟨evs, tail, h2, h3, h4, h5⟩ := finish_spec w o [] given o.query tree its
        [.explain (pre ++ o.query), .suggest o.query]
      rw [h1, h2, exam_of_log _ _ _ _ _ h3]
      cases hx : o.runsExamination with
      | false => exact .inl (h4 hx)
      | true =>
        obtain ⟨ts, hc, he⟩ := h5 hx
        exact .inr ⟨given, its, ts, hg, hs, hc, chosen_safe given its ts (given_safe _ _ hg) hc, he⟩
  · rcases suggestHasura_spec hw o jv with ⟨_, _, h1, h2, _⟩ | ⟨sql, _, tree, its, given, _, _, hs, hg, h1⟩
    · left; rw [h1]; exact h2
    · obtain ⟨evs, tail, h2, h3, h4, h5⟩ := finish_spec hw.toWorld o
        [⟨false, "json-variables".toList, jv⟩] given sql tree its [.explain o.query, .suggest sql]
      rw [h1, h2, exam_of_log _ _ _ _ _ h3]
      cases hx : o.runsExamination with
      | false => exact .inl (h4 hx)
      | true =>
        obtain ⟨ts, hc, he⟩ := h5 hx
        exact .inr ⟨sql, given, its, ts, hg, hs, hc, chosen_safe given its ts (given_safe _ _ hg) hc, he⟩

/-- C42: a report is written exactly when an output was asked for and every step succeeded; it shows
the suggestions and, after an examination, its result. -/
theorem C42_report {T : Type} (pre : Str) (w : World T) (o : Options) (p : Str) (r : Report T)
    (h : Effect.html p r ∈ (suggestSql pre w o).2) :
    p = o.output ∧ o.output ≠ [] ∧ (suggestSql pre w o).1 = .ok () ∧ r.query = o.query ∧
    w.explain (pre ++ o.query) = .ok r.tree ∧ w.suggest o.query = .ok r.targets ∧
    (o.runsExamination = false → r.result = none) ∧
    (o.runsExamination = true → ∃ given ts er, newIndexTargetsFromTexts o.indexTargets = .ok given ∧
      Chosen given r.targets ts ∧ (Examine.run w.exam w.now ts).1 = .ok er ∧ r.result = some er) := by
  rcases suggestSql_spec pre w o with ⟨e, _, h1⟩ | ⟨given, hg, ⟨e, _, h1⟩ | ⟨_, e, _, _, h1⟩ |
      ⟨tree, its, ht, hs, h1⟩⟩
  · rw [h1] at h; cases h
  · rw [h1] at h; simp at h
  · rw [h1] at h; simp at h
  · rw [h1] at h ⊢
    unfold finish at h ⊢
    by_cases hx : o.runsExamination = true
    · simp only [hx, if_true] at h ⊢
      cases hr : Examine.run w.exam w.now (examineTargets given its) with
      | mk res evs =>
        cases res with
        | error e => simp only [hr] at h; simp at h
        | ok er =>
          simp only [hr] at h ⊢
          by_cases ho : o.output ≠ []
          · rw [if_pos ho] at h ⊢
            cases hwr : w.write o.output ⟨o.query, tree, its,
                [createOutputExaminationOption (!true) o.output, ⟨true, "q".toList, o.query⟩] ++ [],
                some er⟩ with
            | error e => simp only [hwr] at h; simp at h
            | ok u =>
              simp only [hwr] at h ⊢
              simp only [List.cons_append, List.nil_append, List.append_assoc, List.mem_cons,
                List.mem_append, List.mem_map, reduceCtorEq, false_or, and_false, exists_false,
                Effect.html.injEq, List.not_mem_nil, or_false] at h
              obtain ⟨rfl, rfl⟩ := h
              refine ⟨rfl, ho, by trivial, rfl, ht, hs, by simp, fun _ =>
                ⟨given, _, er, hg, examineTargets_chosen given its, by rw [hr], rfl⟩⟩
          · rw [if_neg ho] at h
            simp at h
    · have hx' : o.runsExamination = false := by simpa using hx
      simp only [hx', Bool.false_eq_true, if_false] at h ⊢
      by_cases ho : o.output ≠ []
      · rw [if_pos ho] at h ⊢
        cases hwr : w.write o.output ⟨o.query, tree, its,
            [createOutputExaminationOption (!false) o.output, ⟨true, "q".toList, o.query⟩] ++ [],
            none⟩ with
        | error e => simp only [hwr] at h; simp at h
        | ok u =>
          simp only [hwr] at h ⊢
          simp only [List.cons_append, List.nil_append, List.mem_cons,
            reduceCtorEq, false_or,
            Effect.html.injEq, List.not_mem_nil, or_false] at h
          obtain ⟨rfl, rfl⟩ := h
          exact ⟨rfl, ho, by trivial, rfl, ht, hs, by simp, by simp⟩
      · rw [if_neg ho] at h
        simp at h

/-- C42: with `--with-examine` and valid options, a SQL command that explained and analysed the query
does examine. -/
theorem C42_examines {T : Type} (pre : Str) (w : World T) (o : Options) (given its : List IndexTarget)
    (tree : T) (hx : o.runsExamination = true)
    (hg : newIndexTargetsFromTexts o.indexTargets = .ok given)
    (ht : w.explain (pre ++ o.query) = .ok tree) (hs : w.suggest o.query = .ok its) :
    ∃ ts, Chosen given its ts ∧
      examEvents (suggestSql pre w o).2 = (Examine.run w.exam w.now ts).2 := by
  have h1 : suggestSql pre w o = finish w o [] given o.query tree its
      [.explain (pre ++ o.query), .suggest o.query] := by
    simp only [suggestSql, hg, ht, hs]
  obtain ⟨evs, tail, h2, h3, _, h5⟩ := finish_spec w o [] given o.query tree its
    [.explain (pre ++ o.query), .suggest o.query]
  obtain ⟨ts, hc, he⟩ := h5 hx
  refine ⟨ts, hc, ?_⟩
  rw [h1, h2, exam_of_log _ _ _ _ _ h3, he]

/-- the end of a command in which nothing fails -/
theorem finish_written {T : Type} (w : World T) (o : Options) (extra : List CommandOption)
    (given : List IndexTarget) (query : Str) (tree : T) (its : List IndexTarget)
    (log : List (Effect T)) (ho : o.output ≠ []) (hw : ∀ r, w.write o.output r = .ok ())
    (hx : o.runsExamination = true → ∀ ts, Chosen given its ts →
      ∃ er, (Examine.run w.exam w.now ts).1 = .ok er) :
    (finish w o extra given query tree its log).1 = .ok () ∧
    ∃ r, Effect.html o.output r ∈ (finish w o extra given query tree its log).2 ∧ r.options =
      [createOutputExaminationOption (!o.runsExamination) o.output, ⟨true, "q".toList, o.query⟩] ++
        extra := by
  unfold finish
  by_cases h : o.runsExamination = true
  · obtain ⟨er, he⟩ := hx h _ (examineTargets_chosen given its)
    cases hr : Examine.run w.exam w.now (examineTargets given its) with
    | mk res evs =>
      rw [hr] at he
      subst he
      simp only [h, if_true, if_pos ho, hw, true_and]
      exact ⟨_, List.mem_append_right _ (List.mem_singleton.mpr rfl), rfl⟩
  · have h' : o.runsExamination = false := by simpa using h
    simp only [h', Bool.false_eq_true, if_false, if_pos ho, hw, true_and]
    exact ⟨_, List.mem_append_right _ (List.mem_singleton.mpr rfl), rfl⟩

/-- C42: if every step succeeds and an output was asked for, the report is written, and the options of
the command it suggests are the output file and the query as given. -/
theorem C42_report_written {T : Type} (pre : Str) (w : World T) (o : Options)
    (given its : List IndexTarget) (tree : T)
    (hg : newIndexTargetsFromTexts o.indexTargets = .ok given)
    (ht : w.explain (pre ++ o.query) = .ok tree) (hs : w.suggest o.query = .ok its)
    (ho : o.output ≠ []) (hw : ∀ r, w.write o.output r = .ok ())
    (hx : o.runsExamination = true → ∀ ts, Chosen given its ts →
      ∃ er, (Examine.run w.exam w.now ts).1 = .ok er) :
    (suggestSql pre w o).1 = .ok () ∧ ∃ r, Effect.html o.output r ∈ (suggestSql pre w o).2 ∧
      r.options.map (fun c => (c.name, c.value)) =
        [("o".toList, (createOutputExaminationOption (!o.runsExamination) o.output).value),
         ("q".toList, o.query)] := by
  have h1 : suggestSql pre w o = finish w o [] given o.query tree its
      [.explain (pre ++ o.query), .suggest o.query] := by
    simp only [suggestSql, hg, ht, hs]
  rw [h1]
  obtain ⟨h2, r, h3, h4⟩ := finish_written w o [] given o.query tree its
    [.explain (pre ++ o.query), .suggest o.query] ho hw hx
  refine ⟨h2, r, h3, ?_⟩
  rw [h4]
  rfl

/-- C42: the same for Hasura, for a document with one query: the suggestions are examined if asked for,
and the report is written with the options as given. -/
theorem C42_hasura_runs {T Plan : Type} (w : HasuraWorld T Plan) (o : Options) (jv sql : Str)
    (plan : Plan) (given its : List IndexTarget) (tree : T) (hj : w.parseJson jv = .ok ())
    (he : w.explainGql o.query = .ok [(sql, plan)]) (hb : w.build plan = .ok tree)
    (hs : w.suggest sql = .ok its) (hg : newIndexTargetsFromTexts o.indexTargets = .ok given) :
    (o.runsExamination = true → ∃ ts, Chosen given its ts ∧
      examEvents (suggestHasura w o jv).2 = (Examine.run w.exam w.now ts).2) ∧
    (o.output ≠ [] → (∀ r, w.write o.output r = .ok ()) →
      (o.runsExamination = true → ∀ ts, Chosen given its ts →
        ∃ er, (Examine.run w.exam w.now ts).1 = .ok er) →
      (suggestHasura w o jv).1 = .ok () ∧ ∃ r, Effect.html o.output r ∈ (suggestHasura w o jv).2 ∧
        r.options.map (fun c => (c.name, c.value)) =
          [("o".toList, (createOutputExaminationOption (!o.runsExamination) o.output).value),
           ("q".toList, o.query), ("json-variables".toList, jv)]) := by
  have h1 : suggestHasura w o jv = finish w.toWorld o [⟨false, "json-variables".toList, jv⟩] given sql
      tree its [.explain o.query, .suggest sql] := by
    simp only [suggestHasura, hj, he, hb, hs, hg]
  rw [h1]
  constructor
  · intro hx
    obtain ⟨evs, tail, h2, h3, _, h5⟩ := finish_spec w.toWorld o
      [⟨false, "json-variables".toList, jv⟩] given sql tree its [.explain o.query, .suggest sql]
    obtain ⟨ts, hc, he⟩ := h5 hx
    refine ⟨ts, hc, ?_⟩
    rw [h2, exam_of_log _ _ _ _ _ h3, he]
  · intro ho hw hx
    obtain ⟨h2, r, h3, h4⟩ := finish_written w.toWorld o [⟨false, "json-variables".toList, jv⟩] given sql
      tree its [.explain o.query, .suggest sql] ho hw hx
    refine ⟨h2, r, h3, ?_⟩
    rw [h4]
    rfl

/-- C42: over a whole run, with or without examination, the indexes of the database are in the end
what they were, unless the database refused to drop one. -/
theorem C42_indexes_unchanged {T Plan : Type} (pre : Str) (w : World T) (hw : HasuraWorld T Plan)
    (o : Options) (jv : Str) (before : List (List Char × IndexTarget)) :
    ((∀ e ∈ examEvents (suggestSql pre w o).2, ∀ n t, e.call = .drop n t → Spec.Succeeded e) →
      (Spec.liveAfter before (examEvents (suggestSql pre w o).2)).Perm before) ∧
    ((∀ e ∈ examEvents (suggestHasura hw o jv).2, ∀ n t, e.call = .drop n t → Spec.Succeeded e) →
      (Spec.liveAfter before (examEvents (suggestHasura hw o jv).2)).Perm before) := by
  obtain ⟨h1, h2⟩ := C42_examined pre w hw o jv
  constructor
  · rcases h1 with h | ⟨_, _, ts, _, _, _, _, h⟩
    · rw [h]; intro _; exact .refl _
    · rw [h]; intro hd; exact C07_database_unchanged _ _ _ _ hd
  · rcases h2 with h | ⟨_, _, _, ts, _, _, _, _, h⟩
    · rw [h]; intro _; exact .refl _
    · rw [h]; intro hd; exact C07_database_unchanged _ _ _ _ hd

/-- a run with one index given on the command line; its effects in order -/
example :
    let w : World Unit := ⟨fun _ => .ok (), fun _ => .ok [⟨['t'], [⟨['c']⟩]⟩],
      ⟨fun l _ => .ok l.length, fun _ => 0⟩, 7, fun _ _ => .ok ()⟩
    ((suggestSql pgPre w ⟨true, ["u:d".toList], "SELECT 1".toList, "x".toList⟩).2.map fun
      | .explain _ => "explain"
      | .suggest _ => "suggest"
      | .exam ⟨.execute, _⟩ => "execute"
      | .exam ⟨.create _ it, _⟩ => "create " ++ String.ofList it.tableName
      | .exam ⟨.drop _ it, _⟩ => "drop " ++ String.ofList it.tableName
      | .html _ _ => "html") =
    ["explain", "suggest", "execute", "create u", "execute", "drop u", "html"] := by decide +kernel

/-! ## C58: the file name of the suggested examine command -/

theorem extRev_spec (s acc : Str) :
    extRev s acc = [] ∨ ∃ a b, s = a ++ '.' :: b ∧ '.' ∉ a ∧ '/' ∉ a ∧
      extRev s acc = '.' :: (a.reverse ++ acc) := by
  induction s generalizing acc with
  | nil => exact .inl rfl
  | cons c s ih =>
    rw [extRev]
    by_cases h1 : c = '/'
    · rw [if_pos h1]; exact .inl rfl
    · rw [if_neg h1]
      by_cases h2 : c = '.'
      · rw [if_pos h2]
        subst h2
        exact .inr ⟨[], s, rfl, by simp, by simp, by simp⟩
      · rw [if_neg h2]
        rcases ih (c :: acc) with h | ⟨a, b, e1, e2, e3, e4⟩
        · exact .inl h
        · right
          refine ⟨c :: a, b, by simp [e1], ?_, ?_, by simp [e4]⟩
          · simp only [List.mem_cons, not_or]; exact ⟨fun e => h2 e.symm, e2⟩
          · simp only [List.mem_cons, not_or]; exact ⟨fun e => h1 e.symm, e3⟩

theorem ext_suffix (path : Str) : ∃ stem, path = stem ++ ext path := by
  unfold ext
  rcases extRev_spec path.reverse [] with h | ⟨a, b, e1, _, _, e4⟩
  · exact ⟨path, by simp [h]⟩
  · refine ⟨b.reverse, ?_⟩
    rw [e4]
    have := congrArg List.reverse e1
    simpa using this

theorem trim_ext (path : Str) : path = trimSuffix path (ext path) ++ ext path := by
  obtain ⟨stem, h⟩ := ext_suffix path
  unfold trimSuffix
  have hs : (ext path).isSuffixOf path = true := by
    rw [List.isSuffixOf_iff_suffix]
    exact ⟨stem, h.symm⟩
  rw [if_pos hs]
  have hl : path.length - (ext path).length = stem.length := by
    have := congrArg List.length h
    rw [List.length_append] at this
    omega
  rw [hl]
  have : path.take stem.length = stem := by
    have e : path.take stem.length = (stem ++ ext path).take stem.length := by rw [← h]
    rw [e, List.take_left']
    rfl
  rw [this]
  exact h

/-- C58: the command suggested by a report without examination writes to another file than the
report, next to it: the stem is extended, the extension kept. -/
theorem C58_other_file (filename : Str) :
    ∃ stem e, filename = stem ++ e ∧ e = ext filename ∧
      (createOutputExaminationOption true filename).value = stem ++ "_examine".toList ++ e ∧
      (createOutputExaminationOption true filename).value ≠ filename := by
  refine ⟨trimSuffix filename (ext filename), ext filename, trim_ext filename, rfl, rfl, ?_⟩
  intro h
  have h1 := congrArg List.length h
  have h2 := congrArg List.length (trim_ext filename)
  simp only [createOutputExaminationOption, if_true, List.length_append] at h1 h2
  have h3 : "_examine".toList.length = 8 := by decide +kernel
  omega

/-- C58: the extension is empty or a dot with characters other than dots and slashes. -/
theorem C58_ext (path : Str) : ext path = [] ∨ ∃ e, ext path = '.' :: e ∧ '.' ∉ e ∧ '/' ∉ e := by
  unfold ext
  rcases extRev_spec path.reverse [] with h | ⟨a, b, _, e2, e3, e4⟩
  · exact .inl h
  · right
    exact ⟨a.reverse, by simpa using e4, by simpa using e2, by simpa using e3⟩

/-- C58: after an examination the suggested command rewrites the same report. -/
theorem C58_same_file (filename : Str) : (createOutputExaminationOption false filename).value = filename :=
  rfl

example : (createOutputExaminationOption true "out.d/report.v2.html".toList).value =
    "out.d/report.v2_examine.html".toList := by decide +kernel

example : (createOutputExaminationOption true "out.d/report".toList).value =
    "out.d/report_examine".toList := by decide +kernel

/-! ## C59: queries without candidates, and what is sent before anything is checked -/

/-- C59 fails for MySQL and PostgreSQL: a query for which no index comes into question is an error. -/
theorem C59_no_candidates_is_an_error {P Stmt : Type} [DecidableEq P] (fold : Char → Char)
    (deref : P → IndexTarget) (parse : Str → Except Err Stmt) (list : Stmt → List P × List Err)
    (select : List Str → Except Err (List IndexTarget)) (query : Str) (stmt : Stmt)
    (hp : parse query = .ok stmt) (hl : list stmt = ([], [])) :
    suggester fold deref parse list (getIndexesSql select) query = .error .emptyIn := by
  simp only [suggester, hp, hl]
  rfl

/-- C59: a query that cannot be read, or for which some candidate cannot be worked out, is refused with that error;
the catalogue is not asked for indexes, and no incomplete list is answered. -/
theorem C59_refused {P Stmt : Type} [DecidableEq P] (fold : Char → Char)
    (deref : P → IndexTarget) (parse : Str → Except Err Stmt) (list : Stmt → List P × List Err)
    (get get' : List Str → Except Err (List IndexTarget)) (query : Str)
    (h : (∃ e, parse query = .error e) ∨ ∃ stmt, parse query = .ok stmt ∧ (list stmt).2 ≠ []) :
    ∃ e, (parse query = .error e ∨ ∃ stmt, parse query = .ok stmt ∧ e ∈ (list stmt).2) ∧
      suggester fold deref parse list get query = .error e ∧ suggester fold deref parse list get' query = .error e := by
  rcases h with ⟨e, he⟩ | ⟨stmt, hs, hl⟩
  · exact ⟨e, .inl he, by simp only [suggester, he], by simp only [suggester, he]⟩
  · obtain ⟨its, errs⟩ : List P × List Err := list stmt
    cases hls : list stmt with
    | mk its errs =>
      cases errs with
      | nil => rw [hls] at hl; exact absurd rfl hl
      | cons e es =>
        refine ⟨e, .inr ⟨stmt, hs, by rw [hls]; simp⟩, ?_, ?_⟩ <;> simp only [suggester, hs, hls]

/-- C59: with at least one candidate the answer is the candidates not covered by an existing index,
and fails only if the catalogue cannot be read. -/
theorem C59_candidates {P Stmt : Type} [DecidableEq P] (fold : Char → Char)
    (deref : P → IndexTarget) (parse : Str → Except Err Stmt) (list : Stmt → List P × List Err)
    (select : List Str → Except Err (List IndexTarget)) (query : Str) (stmt : Stmt) (its : List P)
    (hp : parse query = .ok stmt) (hl : list stmt = (its, [])) (hne : its ≠ []) :
    (∃ tables, tables ≠ [] ∧ ∃ e, select tables = .error e ∧
      suggester fold deref parse list (getIndexesSql select) query = .error e) ∨
    ∃ tables existing out, tables ≠ [] ∧ select tables = .ok existing ∧
      suggester fold deref parse list (getIndexesSql select) query = .ok out ∧
      ∀ p, p ∈ out ↔ p ∈ its ∧ ¬ Remover.Covered fold existing (deref p) := by
  have hs : suggester fold deref parse list (getIndexesSql select) query =
      Remover.remove fold deref (getIndexesSql select) its := by
    simp only [suggester, hp, hl]
  rw [hs]
  cases hr : Remover.remove fold deref (getIndexesSql select) its with
  | error e =>
    left
    obtain ⟨tables, ht, he⟩ := (Remover.C11_error fold deref (getIndexesSql select) its e).mp hr
    have htn : tables ≠ [] := by
      obtain ⟨p, rest, rfl⟩ := List.exists_cons_of_ne_nil hne
      rw [ht]
      intro h0
      have : (deref p).tableName ∈ Lib.uniq ((Lib.uniq (p :: rest)).map fun p => (deref p).tableName) := by
        rw [Lib.mem_uniq, List.mem_map]
        exact ⟨p, by rw [Lib.mem_uniq]; simp, rfl⟩
      rw [h0] at this
      cases this
    refine ⟨tables, htn, e, ?_, rfl⟩
    rw [getIndexesSql, if_neg htn] at he
    exact he
  | ok out =>
    right
    obtain ⟨tables, existing, hg, _, hm, ho, _⟩ :=
      Remover.C11_keeps_uncovered fold deref (getIndexesSql select) its out hr
    have htn : tables ≠ [] := by
      obtain ⟨p, rest, rfl⟩ := List.exists_cons_of_ne_nil hne
      intro h0
      have := (hm (deref p).tableName).mpr ⟨p, by simp, rfl⟩
      rw [h0] at this
      cases this
    rw [getIndexesSql, if_neg htn] at hg
    exact ⟨tables, existing, out, htn, hg, rfl, ho⟩

/-- C60: with valid options the statement goes to the database inside the explain statement whatever
it is: nothing has been parsed or checked before. -/
theorem C60_explained_unchecked {T : Type} (pre : Str) (w : World T) (o : Options)
    (given : List IndexTarget) (hg : newIndexTargetsFromTexts o.indexTargets = .ok given) :
    (suggestSql pre w o).2.head? = some (.explain (pre ++ o.query)) := by
  rcases suggestSql_spec pre w o with ⟨e, h, _⟩ | ⟨given', _, ⟨e, _, h1⟩ | ⟨_, e, _, _, h1⟩ |
      ⟨tree, its, _, _, h1⟩⟩
  · rw [hg] at h; cases h
  · rw [h1]; rfl
  · rw [h1]; rfl
  · rw [h1]
    obtain ⟨evs, tail, h2, _⟩ := finish_spec w o [] given' o.query tree its
      [.explain (pre ++ o.query), .suggest o.query]
    rw [h2]
    rfl

/-- C60: what MySQL and PostgreSQL are asked first: to run the statement and tell how they did -/
theorem C60_first_question {T : Type} (w : World T) (o : Options) (given : List IndexTarget)
    (hg : newIndexTargetsFromTexts o.indexTargets = .ok given) :
    (suggestSql mysqlPre w o).2.head? = some (.explain ("EXPLAIN ANALYZE FORMAT=TREE ".toList ++ o.query)) ∧
    (suggestSql pgPre w o).2.head? = some (.explain ("EXPLAIN (ANALYZE, BUFFERS) ".toList ++ o.query)) :=
  ⟨C60_explained_unchecked mysqlPre w o given hg, C60_explained_unchecked pgPre w o given hg⟩

/-- C60: so a data-changing statement is executed by PostgreSQL's `EXPLAIN (ANALYZE)` even though the
suggester then refuses it. -/
theorem C60_delete_is_executed : ∃ (w : World Unit) (o : Options),
    o.runsExamination = false ∧ (suggestSql pgPre w o).1 = .error (.outside 0) ∧
    (suggestSql pgPre w o).2.head? =
      some (.explain "EXPLAIN (ANALYZE, BUFFERS) DELETE FROM users".toList) := by
  refine ⟨⟨fun _ => .ok (), fun _ => .error (.outside 0), ⟨fun _ _ => .ok 0, fun _ => 0⟩, 0,
    fun _ _ => .ok ()⟩, ⟨false, [], "DELETE FROM users".toList, []⟩, rfl, rfl, ?_⟩
  rw [C60_explained_unchecked (given := []) (hg := rfl)]
  congr 2

end Verif.Cmd
