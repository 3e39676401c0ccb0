import Verif.Common
import Verif.Pi.Props
import Verif.Client.Load
/-!
# C82: the command `gr db dig performance-insights`

`/repo/cmd/db/dig/performance_insights.go`, `/repo/infra/aws/{rds,performance_insights}.go`
-/
namespace Verif.Cmd.PerfInsights
open Verif.Lib Verif.Pi

/-! ## Model -/

/-- `types.DBInstance`, both pointers -/
structure Instance where
  identifier : Option Str
  resourceId : Option Str

/-- `/repo/infra/aws/rds_db.go` -/
structure Db where
  name : Str
  resourceId : Str
deriving DecidableEq

/-- the input of `GetResourceMetrics`, `/repo/infra/aws/performance_insights.go:53-68`; the service type is
always the same. -/
structure Query where
  identifier : Str
  metric : Str
  group : Str
  limit : Nat
  start : Time
  stop : Time
  period : Nat
deriving DecidableEq

/-- what the page is made of, `/repo/cmd/db/dig/performance_insights.go:84-86` -/
structure Report (F : Type) where
  raw : List (TimeLoad F)
  tokenized : List (TimeLoad F)

/-- the outside: `time.Parse(time.RFC3339, _)`, the clock, `DescribeDBInstances` (a page of instances and the
marker of the next page), `GetResourceMetrics` at the `n`th call (a page of metrics and the token of the next
page), writing the page. -/
structure World (E F : Type) where
  parse : Str → Except E Time
  now : Time
  describe : List Str → Option Str → Except E (List Instance × Option Str)
  metrics : Nat → Query → Except E (List (Metric F) × Option Str)
  write : Str → Report F → Except E Unit

/-- the flags; `startStr` is `--start-from` -/
structure Options where
  startStr : Str
  output : Str

inductive Err (E : Type) where
  | describe (e : E)
  | badStart (e : E)
  | metrics (e : E)
  | write (e : E)
  | panic
deriving DecidableEq

/-- what can be seen from outside -/
inductive Effect (F : Type) where
  | describe (engines : List Str)
  | ask (q : Query)
  | html (path : Str) (r : Report F)

@[irreducible] def mysql : Str := "mysql".toList
@[irreducible] def sqlGroup : Str := "db.sql".toList
@[irreducible] def tokGroup : Str := "db.sql_tokenized".toList
@[irreducible] def sqlStatement : Str := "db.sql.statement".toList
@[irreducible] def sqlTokId : Str := "db.sql.tokenized_id".toList
@[irreducible] def tokStatement : Str := "db.sql_tokenized.statement".toList
@[irreducible] def tokId : Str := "db.sql_tokenized.id".toList

/-- seven days -/
def week : Int := 7 * 24 * hour

/-- `/repo/infra/aws/rds.go:37-43`; `none` is the panic on a nil name. -/
def dbsOf : List Instance → Option (List Db)
  | [] => some []
  | i :: is => match i.identifier with
    | none => none
    | some n => match i.resourceId with
      | none => none
      | some r => (dbsOf is).map (⟨n, r⟩ :: ·)

/-- `/repo/infra/aws/performance_insights.go:52-68` `getHalfDayMetrics`; `tok` chooses the group of lines
31-49. -/
def query (db : Db) (zone : Zone) (tok : Bool) (t : Int) : Query where
  identifier := db.resourceId
  metric := loadAvgMetricName
  group := if tok then tokGroup else sqlGroup
  limit := 10
  start := ⟨t, zone⟩
  stop := ⟨t + halfDay, zone⟩
  period := 300

/-- `/repo/infra/aws/performance_insights.go:31-112` `GetHalfDaySqlMetrics` and
`GetHalfDayTokenizedSqlMetrics`; the token of the next page is dropped. -/
def halfDayMetrics {E F : Type} (ops : LoadOps F) (w : World E F) (db : Db) (zone : Zone) (i : Nat) (tok : Bool)
    (t : Int) : Except (Err E) (List (LoadAvg F)) :=
  match w.metrics i (query db zone tok t) with
  | .error e => .error (.metrics e)
  | .ok page =>
    match convertMetrics ops db.name (if tok then tokStatement else sqlStatement) (if tok then tokId else sqlTokId)
        page.1 with
    | none => .error .panic
    | some r => .ok r

/-- `/repo/cmd/db/dig/performance_insights.go:63-82`; `i` counts the calls. -/
def collect {E F : Type} (ops : LoadOps F) (w : World E F) (start : Time) : Nat → List Db →
    Except (Err E) (List (LoadAvg F) × List (LoadAvg F)) × List Query
  | _, [] => (.ok ([], []), [])
  | i, db :: dbs => match askWindows (halfDayMetrics ops w db start.zone) 14 i start.ns with
    | (.error e, q) => (.error e, q.map fun x => query db start.zone x.1 x.2)
    | (.ok a, q) => match collect ops w start (i + 28) dbs with
      | (.error e, q') => (.error e, (q.map fun x => query db start.zone x.1 x.2) ++ q')
      | (.ok b, q') => (.ok (a.1 ++ b.1, a.2 ++ b.2), (q.map fun x => query db start.zone x.1 x.2) ++ q')

/-- `/repo/cmd/db/dig/performance_insights.go:52-59` -/
def startOf {E F : Type} (w : World E F) (o : Options) : Except (Err E) Time :=
  if o.startStr ≠ [] then
    match w.parse o.startStr with
    | .error e => .error (.badStart e)
    | .ok t => .ok t
  else .ok ⟨w.now.ns - week, w.now.zone⟩

/-- `/repo/cmd/db/dig/performance_insights.go:84-95`; `none`: a loop over the hours does not end. -/
def present {E F : Type} (ops : LoadOps F) (w : World E F) (o : Options) (start : Time)
    (avgs : List (LoadAvg F) × List (LoadAvg F)) : Option (Except (Err E) Unit × List (Effect F)) :=
  match convertToVms ops start ⟨start.ns + week, start.zone⟩ avgs.1 with
  | none => none
  | some raw => match convertToVms ops start ⟨start.ns + week, start.zone⟩ avgs.2 with
    | none => none
    | some tokenized => match w.write o.output ⟨raw, tokenized⟩ with
      | .error e => some (.error (.write e), [])
      | .ok _ => some (.ok (), [.html o.output ⟨raw, tokenized⟩])

/-- `/repo/cmd/db/dig/performance_insights.go:46-96` `dig`; the configuration of the AWS client and the log are
left out.  The marker of the next page of instances is dropped. -/
def run {E F : Type} (ops : LoadOps F) (w : World E F) (o : Options) :
    Option (Except (Err E) Unit × List (Effect F)) :=
  match w.describe [mysql] none with
  | .error e => some (.error (.describe e), [.describe [mysql]])
  | .ok page => match dbsOf page.1 with
    | none => some (.error .panic, [.describe [mysql]])
    | some dbs => match startOf w o with
      | .error e => some (.error e, [.describe [mysql]])
      | .ok start => match collect ops w start 0 dbs with
        | (.error e, q) => some (.error e, .describe [mysql] :: q.map .ask)
        | (.ok avgs, q) =>
          (present ops w o start avgs).map fun r => (r.1, .describe [mysql] :: q.map .ask ++ r.2)

/-- The hours as the page has them: `/repo/html/viewmodel/vm_time_db_load.go:10-12` writes milliseconds, the
classes of `/repo/client/src/models/{TimeDbLoad,DbLoad,DbLoadOfSql}.ts` read the same fields.  Numbers are taken
to survive JSON. -/
def toPage {F : Type} (e : TimeLoad F) : Client.Load.Hour F where
  date := e.1 / 1000000
  databases := e.2.map fun d => ⟨d.1, d.2.map fun s => ⟨s.sql, s.max, s.sum, s.tokenizedId⟩⟩

/-! ## Specification -/

/-- the kind of statements asked about -/
def groupOf (tok : Bool) : Str := if tok then "db.sql_tokenized".toList else "db.sql".toList

/-- The question to ask about a database and twelve hours, for plain or for tokenized statements: the ten
statements with the highest average load, every five minutes.  All names are those of the service. -/
def asked (db : Db) (zone : Zone) (tok : Bool) (t : Int) : Query :=
  ⟨db.resourceId, averageLoad, groupOf tok, 10, ⟨t, zone⟩,
    ⟨t + 43200000000000, zone⟩, 300⟩

/-- the dimension with the text of the statement -/
def statementOf (tok : Bool) : Str :=
  if tok then "db.sql_tokenized.statement".toList else "db.sql.statement".toList

/-- the dimension with the id of the tokenized statement -/
def idOf (tok : Bool) : Str :=
  if tok then "db.sql_tokenized.id".toList else "db.sql.tokenized_id".toList

/-- the kind of databases listed -/
def engine : Str := "mysql".toList

/-- seven days, in nanoseconds -/
def sevenDays : Int := 604800000000000

/-- the beginning of the week: the time given, or else seven days ago -/
def Begins {E F : Type} (w : World E F) (o : Options) (start : Time) : Prop :=
  (o.startStr ≠ [] ∧ w.parse o.startStr = .ok start) ∨
  (o.startStr = [] ∧ start = ⟨w.now.ns - sevenDays, w.now.zone⟩)

theorem query_eq : query = asked := by
  funext db zone tok t
  unfold query asked groupOf tokGroup sqlGroup
  cases tok <;> rfl

theorem statementOf_eq (tok : Bool) : (if tok then tokStatement else sqlStatement) = statementOf tok := by
  unfold statementOf tokStatement sqlStatement; rfl

theorem idOf_eq (tok : Bool) : (if tok then tokId else sqlTokId) = idOf tok := by
  unfold idOf tokId sqlTokId; rfl

theorem engine_eq : mysql = engine := by unfold mysql engine; rfl

theorem week_eq : week = sevenDays := by unfold week sevenDays hour; decide

theorem begins_iff {E F : Type} (w : World E F) (o : Options) (start : Time) :
    startOf w o = .ok start ↔ Begins w o start := by
  unfold startOf Begins
  rw [week_eq]
  split
  · rename_i h
    split <;> rename_i t ht <;> simp [h, ht]
  · rename_i h
    have h : o.startStr = [] := by simpa using h
    simp [h, eq_comm]

/-- the questions about one database: for each of the 14 half days, plain statements and then tokenized ones -/
def questionsFor (start : Time) (db : Db) : List Query :=
  (List.range 14).flatMap fun (k : Nat) =>
    [asked db start.zone false (start.ns + 43200000000000 * k), asked db start.zone true (start.ns + 43200000000000 * k)]

/-- the number of the call about database `d`, window `k` -/
def callNo (d k : Nat) (tok : Bool) : Nat := 28 * d + 2 * k + (if tok then 1 else 0)

/-- the answer to a call, as far as the program looks at it -/
def answer {E F : Type} (w : World E F) (start : Time) (db : Db) (d k : Nat) (tok : Bool) :
    Except E (List (Metric F) × Option Str) :=
  w.metrics (callNo d k tok) (asked db start.zone tok (start.ns + 43200000000000 * k))

/-- all metrics received for one kind of statements, each with the name of its database, in the order of the
calls; `d` numbers the first database. -/
def received {E F : Type} (w : World E F) (start : Time) (tok : Bool) : Nat → List Db → List (Str × Metric F)
  | _, [] => []
  | d, db :: dbs => ((List.range 14).flatMap fun k => match answer w start db d k tok with
      | .error _ => []
      | .ok page => page.1.map fun m => (db.name, m)) ++ received w start tok (d + 1) dbs

/-- the measurements in a metric: points of a `db.load.avg` metric with dimensions that have a time and a
value other than zero -/
def measured {F : Type} (ops : LoadOps F) (tok : Bool) (x : Str × Metric F) : List (Sample F) :=
  match x.2.key with
  | some (some name, some dims) =>
    if name = averageLoad then
      x.2.points.filterMap fun p => match p.timestamp, p.value with
        | some t, some v =>
          if ops.isZero v then none
          else some ⟨x.1, (mapGet (statementOf tok) dims).getD [], (mapGet (idOf tok) dims).getD [], v, t⟩
        | _, _ => none
    else []
  | _ => []

/-- every measurement received -/
def measurements {E F : Type} (ops : LoadOps F) (w : World E F) (start : Time) (tok : Bool) (dbs : List Db) :
    List (Sample F) :=
  (received w start tok 0 dbs).flatMap (measured ops tok)

/-- The hours show these measurements: one entry per hour from the hour of `start` through `stop`, in it each
database and below it each statement that was measured in the hour, once, with the measurements of that hour,
database and statement, and nothing else. -/
def Shows {F : Type} (ops : LoadOps F) (start stop : Int) (ms : List (Sample F)) (r : List (TimeLoad F)) : Prop :=
  Consecutive hour (start / hour * hour) (r.map (·.1)) ∧ (∀ e ∈ r, e.1 ≤ stop) ∧
  (∀ x, start ≤ x → x ≤ stop → ∃ e ∈ r, e.1 ≤ x ∧ x < e.1 + hour) ∧
  (∀ s ∈ ms, start ≤ s.time.ns → s.time.ns ≤ stop →
    ∃ e ∈ r, e.1 ≤ s.time.ns ∧ s.time.ns < e.1 + hour ∧
      ∃ sqls l, (s.db, sqls) ∈ e.2 ∧ l ∈ sqls ∧ l.sql = s.sql) ∧
  ∀ t dbs, (t, dbs) ∈ r → (dbs.map (·.1)).Nodup ∧
    ∀ db sqls, (db, sqls) ∈ dbs → (sqls.map SqlLoad.sql).Nodup ∧ sqls ≠ [] ∧
      ∀ e ∈ sqls, Reports ops (ofHour ms t db e.sql) e

/-! ## Proofs -/

theorem questionsFor_eq (start : Time) (db : Db) : questionsFor start db =
    (List.range 14).flatMap fun (k : Nat) =>
      [query db start.zone false (start.ns + halfDay * k), query db start.zone true (start.ns + halfDay * k)] := by
  rw [query_eq]; rfl

theorem answer_eq {E F : Type} (w : World E F) (start : Time) (db : Db) (d k : Nat) (tok : Bool) :
    answer w start db d k tok = w.metrics (callNo d k tok) (query db start.zone tok (start.ns + halfDay * k)) := by
  rw [query_eq]; rfl

section
variable {E F : Type} (ops : LoadOps F) (w : World E F) (o : Options)

theorem convertToVms_some (start stop : Time) (avgs : List (LoadAvg F)) :
    ∃ r, convertToVms ops start stop avgs = some r := by
  obtain ⟨ts, h1, _⟩ := timesBelow_spec hour (by decide)
    (enough (normalizeByHour start).ns (stop.ns + 1)) (normalizeByHour start).ns (stop.ns + 1)
    (by unfold enough; omega)
  unfold convertToVms
  simp only [h1]
  exact ⟨_, rfl⟩

theorem present_some (start : Time) (avgs : List (LoadAvg F) × List (LoadAvg F)) :
    ∃ a b, convertToVms ops start ⟨start.ns + week, start.zone⟩ avgs.1 = some a ∧
      convertToVms ops start ⟨start.ns + week, start.zone⟩ avgs.2 = some b ∧
      present ops w o start avgs = some (match w.write o.output ⟨a, b⟩ with
        | .error e => (.error (.write e), [])
        | .ok _ => (.ok (), [.html o.output ⟨a, b⟩])) := by
  obtain ⟨a, ha⟩ := convertToVms_some ops start ⟨start.ns + week, start.zone⟩ avgs.1
  obtain ⟨b, hb⟩ := convertToVms_some ops start ⟨start.ns + week, start.zone⟩ avgs.2
  refine ⟨a, b, ha, hb, ?_⟩
  unfold present
  simp only [ha, hb]
  cases w.write o.output ⟨a, b⟩ <;> rfl

theorem samples_convertMetrics (db : Str) (tok : Bool) : ∀ (ms : List (Metric F)) (r : List (LoadAvg F)),
    convertMetrics ops db (if tok then tokStatement else sqlStatement) (if tok then tokId else sqlTokId) ms = some r →
    samples r = (ms.map fun m => (db, m)).flatMap (measured ops tok)
  | [], r, h => by rw [convertMetrics] at h; cases h; rfl
  | m :: ms, r, h => by
    rw [convertMetrics, averageLoad_eq] at h
    rw [List.map_cons, List.flatMap_cons]
    cases hk : m.key with
    | none => rw [hk] at h; cases h
    | some kd =>
      obtain ⟨name, dims⟩ := kd
      simp only [hk] at h
      by_cases hn : name = some averageLoad
      · rw [if_neg (by simpa using hn)] at h
        cases dims with
        | none =>
          simp only at h
          rw [samples_convertMetrics db tok ms r h]
          simp [measured, hk]
        | some ds =>
          simp only at h
          split at h
          · cases h
          · rename_i r' hr'
            cases h
            have ih := samples_convertMetrics db tok ms r' hr'
            unfold samples at ih ⊢
            rw [List.flatMap_cons, ih]
            congr 1
            simp only [measured, hk, hn, if_true, ← statementOf_eq, ← idOf_eq]
            rw [readPoints_eq, List.map_filterMap]
            congr 1
            funext p
            cases p.timestamp with
            | none => rfl
            | some t => cases p.value with
              | none => rfl
              | some v => cases hz : ops.isZero v <;> simp [hz]
      · rw [if_pos (by simpa using hn)] at h
        rw [samples_convertMetrics db tok ms r h]
        cases name with
        | none => simp [measured, hk]
        | some nm =>
          have : ¬ nm = averageLoad := fun e => hn (by rw [e])
          cases dims <;> simp [measured, hk, this]

theorem samples_append (a b : List (LoadAvg F)) : samples (a ++ b) = samples a ++ samples b := by
  simp [samples]

/-- the windows of one database, when they succeed -/
theorem windows_ok (db : Db) (start : Time) : ∀ (n k d : Nat) (a : List (LoadAvg F) × List (LoadAvg F))
    (q : List (Bool × Int)),
    askWindows (halfDayMetrics ops w db start.zone) n (28 * d + 2 * k) (start.ns + halfDay * k) = (.ok a, q) →
    (∀ j < n, ∀ tok, ∃ page, answer w start db d (k + j) tok = .ok page ∧ ∀ m ∈ page.1, m.key ≠ none) ∧
    (q.map fun x => query db start.zone x.1 x.2) = (List.range n).flatMap (fun j : Nat =>
      [query db start.zone false (start.ns + halfDay * ((k + j : Nat) : Int)),
       query db start.zone true (start.ns + halfDay * ((k + j : Nat) : Int))]) ∧
    samples a.1 = ((List.range n).flatMap fun j => match answer w start db d (k + j) false with
      | .error _ => []
      | .ok page => page.1.map fun m => (db.name, m)).flatMap (measured ops false) ∧
    samples a.2 = ((List.range n).flatMap fun j => match answer w start db d (k + j) true with
      | .error _ => []
      | .ok page => page.1.map fun m => (db.name, m)).flatMap (measured ops true) := by
  intro n
  induction n with
  | zero => intro k d a q h; cases h; simp [samples]
  | succ n ih =>
    intro k d a q h
    rw [askWindows] at h
    have conv : ∀ tok i t x, halfDayMetrics ops w db start.zone i tok t = .ok x →
        ∃ page, w.metrics i (query db start.zone tok t) = .ok page ∧ (∀ m ∈ page.1, m.key ≠ none) ∧
          samples x = (page.1.map fun m => (db.name, m)).flatMap (measured ops tok) := by
      intro tok i t x hx
      unfold halfDayMetrics at hx
      split at hx
      · cases hx
      · rename_i page hp
        split at hx
        · cases hx
        · rename_i r hr
          cases hx
          refine ⟨page, hp, ?_, samples_convertMetrics ops db.name tok page.1 x hr⟩
          intro m hm hk
          rw [C38_nil_key ops _ _ _ _ ⟨m, hm, hk⟩] at hr
          cases hr
    cases h1 : halfDayMetrics ops w db start.zone (28 * d + 2 * k) false (start.ns + halfDay * k) with
    | error e => simp only [h1] at h; cases h
    | ok x =>
      simp only [h1] at h
      cases h2 : halfDayMetrics ops w db start.zone (28 * d + 2 * k + 1) true (start.ns + halfDay * k) with
      | error e => simp only [h2] at h; cases h
      | ok y =>
        simp only [h2] at h
        have e1 : 28 * d + 2 * k + 2 = 28 * d + 2 * (k + 1) := by omega
        have e2 : start.ns + halfDay * (k : Int) + halfDay = start.ns + halfDay * ((k + 1 : Nat) : Int) := by
          rw [mul_succ_cast]; omega
        rw [e1, e2] at h
        cases hr : askWindows (halfDayMetrics ops w db start.zone) n (28 * d + 2 * (k + 1))
            (start.ns + halfDay * ((k + 1 : Nat) : Int)) with
        | mk res q' =>
          rw [hr] at h
          cases res with
          | error e => cases h
          | ok ab =>
            obtain ⟨as, bs⟩ := ab
            cases h
            obtain ⟨i1, i2, i3, i4⟩ := ih (k + 1) d (as, bs) q' hr
            obtain ⟨p1, a1, b1, c1⟩ := conv false _ _ _ h1
            obtain ⟨p2, a2, b2, c2⟩ := conv true _ _ _ h2
            have f1 : answer w start db d k false = .ok p1 := (answer_eq w start db d k false).trans a1
            have f2 : answer w start db d k true = .ok p2 := (answer_eq w start db d k true).trans a2
            have sh : ∀ j, k + 1 + j = k + (j + 1) := by omega
            simp only [sh] at i1 i2 i3 i4
            refine ⟨?_, ?_, ?_, ?_⟩
            · intro j hj tok
              cases j with
              | zero => cases tok
                        · exact ⟨p1, f1, b1⟩
                        · exact ⟨p2, f2, b2⟩
              | succ j => exact i1 j (by omega) tok
            · rw [List.range_succ_eq_map, List.flatMap_cons, List.flatMap_map, List.map_cons, List.map_cons, i2]
              rfl
            · rw [List.range_succ_eq_map, List.flatMap_cons, List.flatMap_map, List.flatMap_append, samples_append,
                c1, i3]
              simp only [Nat.add_zero, f1]
            · rw [List.range_succ_eq_map, List.flatMap_cons, List.flatMap_map, List.flatMap_append, samples_append,
                c2, i4]
              simp only [Nat.add_zero, f2]

theorem collect_ok (start : Time) : ∀ (dbs : List Db) (d : Nat) (a : List (LoadAvg F) × List (LoadAvg F))
    (q : List Query), collect ops w start (28 * d) dbs = (.ok a, q) →
    (∀ j db, dbs[j]? = some db → ∀ k < 14, ∀ tok, ∃ page, answer w start db (d + j) k tok = .ok page ∧
      ∀ m ∈ page.1, m.key ≠ none) ∧
    q = dbs.flatMap (questionsFor start) ∧
    samples a.1 = (received w start false d dbs).flatMap (measured ops false) ∧
    samples a.2 = (received w start true d dbs).flatMap (measured ops true)
  | [], d, a, q, h => by cases h; simp [received, samples]
  | db :: dbs, d, a, q, h => by
    rw [collect] at h
    cases h1 : askWindows (halfDayMetrics ops w db start.zone) 14 (28 * d) start.ns with
    | mk res q1 =>
      rw [h1] at h
      cases res with
      | error e => cases h
      | ok x =>
        cases h2 : collect ops w start (28 * d + 28) dbs with
        | mk res2 q2 =>
          simp only [h2] at h
          cases res2 with
          | error e => cases h
          | ok y =>
            cases h
            obtain ⟨i1, i2, i3, i4⟩ := windows_ok ops w db start 14 0 d x q1 (by simpa using h1)
            obtain ⟨j1, j2, j3, j4⟩ := collect_ok start dbs (d + 1) y q2
              (by rw [show 28 * (d + 1) = 28 * d + 28 by omega]; exact h2)
            simp only [Nat.zero_add] at i1 i2 i3 i4
            refine ⟨?_, ?_, ?_, ?_⟩
            · intro j db' hj k hk tok
              cases j with
              | zero =>
                simp only [List.getElem?_cons_zero, Option.some.injEq] at hj
                subst hj
                exact i1 k hk tok
              | succ j =>
                rw [List.getElem?_cons_succ] at hj
                have := j1 j db' hj k hk tok
                rwa [show d + 1 + j = d + (j + 1) by omega] at this
            · rw [List.flatMap_cons, i2, j2, questionsFor_eq]
            · rw [samples_append, received, List.flatMap_append, i3, j3]
            · rw [samples_append, received, List.flatMap_append, i4, j4]

/-- the windows of one database succeed when all answers are there and have keys -/
theorem windows_succeed (db : Db) (start : Time) (d : Nat) : ∀ (n k : Nat),
    (∀ j < n, ∀ tok, ∃ page, answer w start db d (k + j) tok = .ok page ∧ ∀ m ∈ page.1, m.key ≠ none) →
    ∃ a q, askWindows (halfDayMetrics ops w db start.zone) n (28 * d + 2 * k) (start.ns + halfDay * k) = (.ok a, q) := by
  intro n
  induction n with
  | zero => intro k _; exact ⟨_, _, rfl⟩
  | succ n ih =>
    intro k h
    have conv : ∀ tok, ∃ x, halfDayMetrics ops w db start.zone (callNo d k tok) tok (start.ns + halfDay * k) = .ok x := by
      intro tok
      obtain ⟨page, h1, h2⟩ := h 0 (by omega) tok
      obtain ⟨r, hr, _⟩ := C38_read ops db.name (if tok then tokStatement else sqlStatement)
        (if tok then tokId else sqlTokId) page.1 h2
      refine ⟨r, ?_⟩
      have h1' : w.metrics (callNo d k tok) (query db start.zone tok (start.ns + halfDay * k)) = .ok page :=
        (answer_eq w start db d k tok).symm.trans h1
      unfold halfDayMetrics
      simp only [h1', hr]
    obtain ⟨x, hx⟩ := conv false
    obtain ⟨y, hy⟩ := conv true
    have hx' : halfDayMetrics ops w db start.zone (28 * d + 2 * k) false (start.ns + halfDay * k) = .ok x := hx
    have hy' : halfDayMetrics ops w db start.zone (28 * d + 2 * k + 1) true (start.ns + halfDay * k) = .ok y := hy
    obtain ⟨a, q, hr⟩ := ih (k + 1) (by
      intro j hj tok
      have := h (j + 1) (by omega) tok
      rwa [show k + (j + 1) = k + 1 + j by omega] at this)
    have e1 : 28 * d + 2 * k + 2 = 28 * d + 2 * (k + 1) := by omega
    have e2 : start.ns + halfDay * (k : Int) + halfDay = start.ns + halfDay * ((k + 1 : Nat) : Int) := by
      rw [mul_succ_cast]; omega
    rw [askWindows]
    simp only [hx', hy', e1, e2, hr]
    exact ⟨_, _, rfl⟩

/-- an error of the windows is that of an answer -/
theorem windows_error (db : Db) (start : Time) (d : Nat) (e : Err E) : ∀ (n k : Nat) (q : List (Bool × Int)),
    askWindows (halfDayMetrics ops w db start.zone) n (28 * d + 2 * k) (start.ns + halfDay * k) = (.error e, q) →
    ∃ j < n, ∃ tok, (∃ x, e = .metrics x ∧ answer w start db d (k + j) tok = .error x) ∨
      (e = .panic ∧ ∃ page, answer w start db d (k + j) tok = .ok page ∧ ∃ m ∈ page.1, m.key = none) := by
  intro n
  induction n with
  | zero => intro k q h; cases h
  | succ n ih =>
    intro k q h
    have conv : ∀ tok, halfDayMetrics ops w db start.zone (callNo d k tok) tok (start.ns + halfDay * k) = .error e →
        (∃ x, e = .metrics x ∧ answer w start db d k tok = .error x) ∨
        (e = .panic ∧ ∃ page, answer w start db d k tok = .ok page ∧ ∃ m ∈ page.1, m.key = none) := by
      intro tok hx
      unfold halfDayMetrics at hx
      split at hx
      · rename_i x hm
        cases hx
        exact .inl ⟨x, rfl, (answer_eq w start db d k tok).trans hm⟩
      · rename_i page hm
        split at hx
        · rename_i hc
          cases hx
          refine .inr ⟨rfl, page, (answer_eq w start db d k tok).trans hm, ?_⟩
          by_contra hno
          obtain ⟨r, hr, _⟩ := C38_read ops db.name (if tok then tokStatement else sqlStatement)
            (if tok then tokId else sqlTokId) page.1 (fun m hm hk => hno ⟨m, hm, hk⟩)
          rw [hr] at hc
          cases hc
        · cases hx
    rw [askWindows] at h
    cases h1 : halfDayMetrics ops w db start.zone (28 * d + 2 * k) false (start.ns + halfDay * k) with
    | error e' =>
      simp only [h1] at h; cases h
      exact ⟨0, by omega, false, conv false h1⟩
    | ok x =>
      simp only [h1] at h
      cases h2 : halfDayMetrics ops w db start.zone (28 * d + 2 * k + 1) true (start.ns + halfDay * k) with
      | error e' =>
        simp only [h2] at h; cases h
        exact ⟨0, by omega, true, conv true h2⟩
      | ok y =>
        simp only [h2] at h
        have e1 : 28 * d + 2 * k + 2 = 28 * d + 2 * (k + 1) := by omega
        have e2 : start.ns + halfDay * (k : Int) + halfDay = start.ns + halfDay * ((k + 1 : Nat) : Int) := by
          rw [mul_succ_cast]; omega
        rw [e1, e2] at h
        cases hr : askWindows (halfDayMetrics ops w db start.zone) n (28 * d + 2 * (k + 1))
            (start.ns + halfDay * ((k + 1 : Nat) : Int)) with
        | mk res q' =>
          rw [hr] at h
          cases res with
          | ok ab => cases h
          | error e' =>
            cases h
            obtain ⟨j, hj, tok, hh⟩ := ih (k + 1) q' hr
            rw [show k + 1 + j = k + (j + 1) by omega] at hh
            exact ⟨j + 1, by omega, tok, hh⟩

theorem collect_succeeds (start : Time) : ∀ (dbs : List Db) (d : Nat),
    (∀ j db, dbs[j]? = some db → ∀ k < 14, ∀ tok, ∃ page, answer w start db (d + j) k tok = .ok page ∧
      ∀ m ∈ page.1, m.key ≠ none) → ∃ a q, collect ops w start (28 * d) dbs = (.ok a, q)
  | [], d, _ => ⟨_, _, rfl⟩
  | db :: dbs, d, h => by
    obtain ⟨a, q, h1⟩ := windows_succeed ops w db start d 14 0 (by
      intro j hj tok
      have := h 0 db rfl j hj tok
      simpa using this)
    obtain ⟨b, q', h2⟩ := collect_succeeds start dbs (d + 1) (by
      intro j db' hj k hk tok
      have := h (j + 1) db' (by simpa using hj) k hk tok
      rwa [show d + (j + 1) = d + 1 + j by omega] at this)
    rw [show 28 * (d + 1) = 28 * d + 28 by omega] at h2
    have h1' : askWindows (halfDayMetrics ops w db start.zone) 14 (28 * d) start.ns = (.ok a, q) := by simpa using h1
    rw [collect, h1']
    simp only [h2]
    exact ⟨_, _, rfl⟩

theorem collect_error (start : Time) (e : Err E) : ∀ (dbs : List Db) (d : Nat) (q : List Query),
    collect ops w start (28 * d) dbs = (.error e, q) →
    ∃ j db, dbs[j]? = some db ∧ ∃ k < 14, ∃ tok,
      (∃ x, e = .metrics x ∧ answer w start db (d + j) k tok = .error x) ∨
      (e = .panic ∧ ∃ page, answer w start db (d + j) k tok = .ok page ∧ ∃ m ∈ page.1, m.key = none)
  | [], d, q, h => by cases h
  | db :: dbs, d, q, h => by
    rw [collect] at h
    cases h1 : askWindows (halfDayMetrics ops w db start.zone) 14 (28 * d) start.ns with
    | mk res q1 =>
      rw [h1] at h
      cases res with
      | error e' =>
        cases h
        obtain ⟨k, hk, tok, hh⟩ := windows_error ops w db start d e 14 0 q1 (by simpa using h1)
        rw [Nat.zero_add] at hh
        exact ⟨0, db, rfl, k, hk, tok, hh⟩
      | ok x =>
        cases h2 : collect ops w start (28 * d + 28) dbs with
        | mk res2 q2 =>
          simp only [h2] at h
          cases res2 with
          | ok y => cases h
          | error e' =>
            cases h
            obtain ⟨j, db', hj, k, hk, tok, hh⟩ := collect_error start e dbs (d + 1) q2
              (by rw [show 28 * (d + 1) = 28 * d + 28 by omega]; exact h2)
            rw [show d + 1 + j = d + (j + 1) by omega] at hh
            exact ⟨j + 1, db', by simpa using hj, k, hk, tok, hh⟩

/-- the instances are these databases -/
def Listed (is : List Instance) (dbs : List Db) : Prop := is = dbs.map fun d => ⟨some d.name, some d.resourceId⟩

theorem dbsOf_some : ∀ (is : List Instance) (dbs : List Db), dbsOf is = some dbs ↔ Listed is dbs
  | [], dbs => by
    unfold Listed
    rw [dbsOf, Option.some.injEq]
    constructor
    · rintro rfl; rfl
    · intro h; exact (List.map_eq_nil_iff.mp h.symm).symm
  | ⟨n, r⟩ :: is, dbs => by
    unfold Listed
    rw [dbsOf]
    cases n with
    | none => cases dbs <;> simp
    | some n => cases r with
      | none => cases dbs <;> simp
      | some r =>
        simp only [Option.map_eq_some_iff]
        constructor
        · rintro ⟨l, hl, rfl⟩
          rw [List.map_cons, (dbsOf_some is l).mp hl]
        · intro h
          cases dbs with
          | nil => cases h
          | cons d ds =>
            rw [List.map_cons, List.cons.injEq, Instance.mk.injEq, Option.some.injEq, Option.some.injEq] at h
            obtain ⟨⟨rfl, rfl⟩, h2⟩ := h
            exact ⟨ds, (dbsOf_some is ds).mpr h2, rfl⟩

theorem dbsOf_none : ∀ is : List Instance, dbsOf is = none → ∃ i ∈ is, i.identifier = none ∨ i.resourceId = none
  | [], h => by cases h
  | ⟨n, r⟩ :: is, h => by
    rw [dbsOf] at h
    cases n with
    | none => exact ⟨_, List.mem_cons_self, .inl rfl⟩
    | some n => cases r with
      | none => exact ⟨_, List.mem_cons_self, .inr rfl⟩
      | some r =>
        simp only [Option.map_eq_none_iff] at h
        obtain ⟨i, hi, h⟩ := dbsOf_none is h
        exact ⟨i, List.mem_cons_of_mem _ hi, h⟩

/-- the hours show the measurements read -/
theorem shows (hl : LoadLaws ops) (start : Time) (avgs : List (LoadAvg F)) (ms : List (Sample F))
    (hms : samples avgs = ms) (k : Int) (hz : start.zone.offset = k * hour)
    (hutc : ∀ s ∈ ms, s.time.zone = .utc) (r : List (TimeLoad F))
    (hr : convertToVms ops start ⟨start.ns + week, start.zone⟩ avgs = some r) :
    Shows ops start.ns (start.ns + sevenDays) ms r := by
  rw [week_eq] at hr
  subst hms
  obtain ⟨r', h1, h2, h3, h4⟩ := C37_hours ops start ⟨start.ns + sevenDays, start.zone⟩ avgs k hz
  rw [hr] at h1
  cases h1
  have hc := C37_conserves ops hl start _ avgs k hz hutc r hr
  refine ⟨h2, h3, fun x hx1 hx2 => h4 x (by unfold hour; omega) hx2, ?_, ?_⟩
  · intro s hs hs1 hs2
    obtain ⟨e, he, he1, he2⟩ := h4 s.time.ns (by unfold hour; omega) hs2
    obtain ⟨sqls, l, hx⟩ := (hc e.1 e.2 he).2.2 s hs he1 he2
    exact ⟨e, he, he1, he2, sqls, l, hx⟩
  · intro t dbs he
    exact ⟨(hc t dbs he).1, (hc t dbs he).2.1⟩

/-- all answers are there and have keys -/
def Answered (start : Time) (dbs : List Db) : Prop :=
  ∀ d db, dbs[d]? = some db → ∀ k < 14, ∀ tok, ∃ page, answer w start db d k tok = .ok page ∧
    ∀ m ∈ page.1, m.key ≠ none

theorem report_core (res : Except (Err E) Unit) (effs : List (Effect F)) (path : Str)
    (r : Report F) (h : run ops w o = some (res, effs)) (hr : .html path r ∈ effs) :
    ∃ is marker dbs start, w.describe [engine] none = .ok (is, marker) ∧ Listed is dbs ∧ Begins w o start ∧
      res = .ok () ∧ path = o.output ∧
      effs = .describe [engine] :: (dbs.flatMap (questionsFor start)).map .ask ++ [.html path r] ∧
      Answered w start dbs ∧
      ∃ avgs : List (LoadAvg F) × List (LoadAvg F), samples avgs.1 = measurements ops w start false dbs ∧
        samples avgs.2 = measurements ops w start true dbs ∧
        convertToVms ops start ⟨start.ns + week, start.zone⟩ avgs.1 = some r.raw ∧
        convertToVms ops start ⟨start.ns + week, start.zone⟩ avgs.2 = some r.tokenized := by
  unfold run at h
  rw [engine_eq] at h
  split at h
  · cases h; simp at hr
  · rename_i page hp
    split at h
    · cases h; simp at hr
    · rename_i dbs hd
      split at h
      · cases h; simp at hr
      · rename_i start hs
        split at h
        · cases h; simp at hr
        · rename_i avgs q hc
          obtain ⟨a, b, ha, hb, hpr⟩ := present_some ops w o start avgs
          rw [hpr] at h
          obtain ⟨c1, c2, c3, c4⟩ := collect_ok ops w start dbs 0 avgs q (by simpa using hc)
          cases hwr : w.write o.output ⟨a, b⟩ with
          | error e => simp only [hwr] at h; cases h; simp at hr
          | ok u =>
            simp only [hwr] at h
            cases h
            have hr' : Effect.html path r = .html o.output ⟨a, b⟩ := by
              simpa using hr
            cases hr'
            refine ⟨page.1, page.2, dbs, start, hp, (dbsOf_some _ _).mp hd, (begins_iff _ _ _).mp hs, rfl, rfl, by rw [c2], ?_, ?_⟩
            · intro d db hdb k hk tok
              have := c1 d db hdb k hk tok
              rwa [Nat.zero_add] at this
            · exact ⟨avgs, c3, c4, ha, hb⟩

/-- C82: a page is written only after every question about every database listed was answered, and its hours
show all measurements of the answers. -/
theorem C82_report (hl : LoadLaws ops) (res : Except (Err E) Unit) (effs : List (Effect F)) (path : Str)
    (r : Report F) (h : run ops w o = some (res, effs)) (hr : .html path r ∈ effs) :
    ∃ is marker dbs start, w.describe [engine] none = .ok (is, marker) ∧ Listed is dbs ∧ Begins w o start ∧
      res = .ok () ∧ path = o.output ∧
      effs = .describe [engine] :: (dbs.flatMap (questionsFor start)).map .ask ++ [.html path r] ∧
      Answered w start dbs ∧
      ∀ k, start.zone.offset = k * hour →
        ((∀ s ∈ measurements ops w start false dbs, s.time.zone = .utc) →
          Shows ops start.ns (start.ns + sevenDays) (measurements ops w start false dbs) r.raw) ∧
        ((∀ s ∈ measurements ops w start true dbs, s.time.zone = .utc) →
          Shows ops start.ns (start.ns + sevenDays) (measurements ops w start true dbs) r.tokenized) := by
  obtain ⟨is, marker, dbs, start, h1, h2, h3, h4, h5, h6, h7, avgs, c3, c4, ha, hb⟩ :=
    report_core ops w o res effs path r h hr
  exact ⟨is, marker, dbs, start, h1, h2, h3, h4, h5, h6, h7, fun k hz =>
    ⟨fun hutc => shows ops hl start avgs.1 _ c3 k hz hutc _ ha,
      fun hutc => shows ops hl start avgs.2 _ c4 k hz hutc _ hb⟩⟩

/-- C82 fails in all other zones, for example in India: if the start is not a whole number of hours from UTC, every
hour of the page is empty, whatever was measured. -/
theorem C82_other_zones_empty (res : Except (Err E) Unit) (effs : List (Effect F)) (path : Str)
    (r : Report F) (h : run ops w o = some (res, effs)) (hr : .html path r ∈ effs) :
    ∃ is marker dbs start, w.describe [engine] none = .ok (is, marker) ∧ Listed is dbs ∧ Begins w o start ∧
      ((∀ k : Int, start.zone.offset ≠ k * hour) →
        ((∀ s ∈ measurements ops w start false dbs, s.time.zone = .utc) → ∀ e ∈ r.raw, e.2 = []) ∧
        ((∀ s ∈ measurements ops w start true dbs, s.time.zone = .utc) → ∀ e ∈ r.tokenized, e.2 = [])) := by
  obtain ⟨is, marker, dbs, start, h1, h2, h3, h4, h5, h6, h7, avgs, c3, c4, ha, hb⟩ :=
    report_core ops w o res effs path r h hr
  refine ⟨is, marker, dbs, start, h1, h2, h3, fun hz => ⟨fun hutc => ?_, fun hutc => ?_⟩⟩
  · obtain ⟨r', hr', he⟩ := C37_other_zones_lose ops start ⟨start.ns + week, start.zone⟩ avgs.1 hz (by rw [c3]; exact hutc)
    rw [ha] at hr'; cases hr'; exact he
  · obtain ⟨r', hr', he⟩ := C37_other_zones_lose ops start ⟨start.ns + week, start.zone⟩ avgs.2 hz (by rw [c4]; exact hutc)
    rw [hb] at hr'; cases hr'; exact he

/-- C82: the command comes to an end and succeeds, writing the page, when the databases and all their loads can be
read and the page can be written. -/
theorem C82_succeeds (is : List Instance) (marker : Option Str) (dbs : List Db) (start : Time)
    (h1 : w.describe [engine] none = .ok (is, marker)) (h2 : Listed is dbs) (h3 : Begins w o start)
    (h4 : Answered w start dbs) (h5 : ∀ r, w.write o.output r = .ok ()) :
    ∃ effs r, run ops w o = some (.ok (), effs) ∧ .html o.output r ∈ effs := by
  obtain ⟨a, q, hc⟩ := collect_succeeds ops w start dbs 0 (by
    intro j db hj k hk tok
    rw [Nat.zero_add]
    exact h4 j db hj k hk tok)
  rw [Nat.mul_zero] at hc
  obtain ⟨x, y, _, _, hp⟩ := present_some ops w o start a
  unfold run
  rw [engine_eq]
  simp only [h1, (dbsOf_some is dbs).mpr h2, (begins_iff _ _ _).mpr h3, hc, hp, h5]
  exact ⟨_, ⟨x, y⟩, rfl, by simp⟩

/-- what an error stands for -/
def Cause (dbs : List Db) (start : Time) : Err E → Prop
  | .metrics x => ∃ d db, dbs[d]? = some db ∧ ∃ k < 14, ∃ tok, answer w start db d k tok = .error x
  | .panic => ∃ d db, dbs[d]? = some db ∧ ∃ k < 14, ∃ tok page, answer w start db d k tok = .ok page ∧
      ∃ m ∈ page.1, m.key = none
  | .write x => ∃ r, w.write o.output r = .error x
  | _ => False

/-- C82: the command always ends; if it fails nothing is written, and the error is one that happened. -/
theorem C82_fails : ∃ res effs, run ops w o = some (res, effs) ∧ ∀ e, res = .error e →
    (∀ path r, .html path r ∉ effs) ∧
    ((∃ x, e = .describe x ∧ w.describe [engine] none = .error x) ∨
     (∃ x, e = .badStart x ∧ o.startStr ≠ [] ∧ w.parse o.startStr = .error x) ∨
     (e = .panic ∧ ∃ page, w.describe [engine] none = .ok page ∧
       ∃ i ∈ page.1, i.identifier = none ∨ i.resourceId = none) ∨
     ∃ page dbs start, w.describe [engine] none = .ok page ∧ Listed page.1 dbs ∧ Begins w o start ∧
       Cause w o dbs start e) := by
  unfold run
  rw [engine_eq]
  split
  · rename_i x hx
    refine ⟨_, _, rfl, ?_⟩
    intro e he; cases he
    exact ⟨by simp, .inl ⟨x, rfl, hx⟩⟩
  · rename_i page hp
    split
    · rename_i hd
      refine ⟨_, _, rfl, ?_⟩
      intro e he; cases he
      exact ⟨by simp, .inr (.inr (.inl ⟨rfl, page, hp, dbsOf_none _ hd⟩))⟩
    · rename_i dbs hd
      have hli := (dbsOf_some _ _).mp hd
      split
      · rename_i x hs
        refine ⟨_, _, rfl, ?_⟩
        intro e he; cases he
        refine ⟨by simp, .inr (.inl ?_)⟩
        unfold startOf at hs
        split at hs
        · rename_i hne
          split at hs
          · rename_i y hy
            cases hs
            exact ⟨y, rfl, hne, hy⟩
          · cases hs
        · cases hs
      · rename_i start hs
        split
        · rename_i x q hc
          refine ⟨_, _, rfl, ?_⟩
          intro e he; cases he
          refine ⟨by simp, .inr (.inr (.inr ⟨page, dbs, start, hp, hli, (begins_iff _ _ _).mp hs, ?_⟩))⟩
          obtain ⟨j, db, hj, k, hk, tok, hh⟩ := collect_error ops w start x dbs 0 q (by simpa using hc)
          rw [Nat.zero_add] at hh
          rcases hh with ⟨y, rfl, hy⟩ | ⟨rfl, pg, hpg, hm⟩
          · exact ⟨j, db, hj, k, hk, tok, hy⟩
          · exact ⟨j, db, hj, k, hk, tok, pg, hpg, hm⟩
        · rename_i avgs q hc
          obtain ⟨a, b, ha, hb, hpr⟩ := present_some ops w o start avgs
          rw [hpr]
          cases hwr : w.write o.output ⟨a, b⟩ with
          | ok u =>
            refine ⟨_, _, rfl, ?_⟩
            intro e he; cases he
          | error x =>
            refine ⟨_, _, rfl, ?_⟩
            intro e he; cases he
            exact ⟨by simp, .inr (.inr (.inr ⟨page, dbs, start, hp, hli, (begins_iff _ _ _).mp hs, ⟨a, b⟩, hwr⟩))⟩

/-- C82: the windows asked about for a database and a kind of statements lie in the week from the start and every
instant of it is in exactly one of them. -/
theorem C82_windows (start : Time) (db : Db) (tok : Bool) (x : Int) (h1 : start.ns ≤ x) (h2 : x < start.ns + sevenDays) :
    (∀ q ∈ questionsFor start db, q.identifier = db.resourceId ∧ q.limit = 10 ∧ q.period = 300 ∧
      start.ns ≤ q.start.ns ∧ q.start.ns < q.stop.ns ∧ q.stop.ns ≤ start.ns + sevenDays) ∧
    ∃ q ∈ questionsFor start db, (q.group = groupOf tok ∧ q.start.ns ≤ x ∧ x < q.stop.ns) ∧
      ∀ q' ∈ questionsFor start db,
        q'.group = groupOf tok ∧ q'.start.ns ≤ x ∧ x < q'.stop.ns → q' = q := by
  have hmem : ∀ q, q ∈ questionsFor start db ↔ ∃ k < 14, ∃ t, q = asked db start.zone t (start.ns + 43200000000000 * (k : Nat)) := by
    intro q
    unfold questionsFor
    simp only [List.mem_flatMap, List.mem_range, List.mem_cons, List.not_mem_nil, or_false]
    constructor
    · rintro ⟨k, hk, h | h⟩
      · exact ⟨k, hk, false, h⟩
      · exact ⟨k, hk, true, h⟩
    · rintro ⟨k, hk, t, h⟩
      cases t
      · exact ⟨k, hk, .inl h⟩
      · exact ⟨k, hk, .inr h⟩
  have hgrp : ∀ a b : Bool, groupOf a = groupOf b → a = b := by
    unfold groupOf
    decide +kernel
  constructor
  · intro q hq
    obtain ⟨k, hk, t, rfl⟩ := (hmem q).mp hq
    refine ⟨rfl, rfl, rfl, ?_⟩
    simp only [asked, sevenDays]
    omega
  · have hb : ((x - start.ns) / 43200000000000).toNat < 14 := by
      simp only [sevenDays] at h1 h2 ⊢
      omega
    refine ⟨asked db start.zone tok (start.ns + 43200000000000 * (((x - start.ns) / 43200000000000).toNat : Nat)),
      (hmem _).mpr ⟨_, hb, tok, rfl⟩, ⟨rfl, ?_⟩, ?_⟩
    · simp only [asked, sevenDays] at h1 h2 ⊢
      omega
    · intro q' hq' hc
      obtain ⟨k, hk, t, rfl⟩ := (hmem q').mp hq'
      obtain ⟨hc1, hc2⟩ := hc
      have : t = tok := hgrp t tok hc1
      subst this
      have hk : k = ((x - start.ns) / 43200000000000).toNat := by
        simp only [asked, sevenDays] at h1 h2 hc2 ⊢
        omega
      rw [← hk]

/-- C82: without `--start-from` the sevenDays ends now; with it, it begins at the time given.  The sevenDays is not cut off
at the present: after a start less than a sevenDays ago the command asks every database about the future. -/
theorem C82_range (start : Time) (h : Begins w o start) :
    (o.startStr = [] → start.ns + sevenDays = w.now.ns ∧ start.zone = w.now.zone) ∧
    (o.startStr ≠ [] → w.parse o.startStr = .ok start) ∧
    ∀ db, (∃ q ∈ questionsFor start db, w.now.ns < q.stop.ns) ↔ w.now.ns < start.ns + sevenDays := by
  refine ⟨?_, ?_, ?_⟩
  · intro he
    rcases h with ⟨h, _⟩ | ⟨_, rfl⟩
    · exact absurd he h
    · exact ⟨by simp only; omega, rfl⟩
  · intro he
    rcases h with ⟨_, h⟩ | ⟨h, _⟩
    · exact h
    · exact absurd h he
  · intro db
    constructor
    · rintro ⟨q, hq, hlt⟩
      have := ((C82_windows start db false start.ns (by omega) (by unfold sevenDays; omega)).1 q hq).2.2.2
      omega
    · intro hlt
      refine ⟨asked db start.zone false (start.ns + 43200000000000 * ((13 : Nat) : Int)), ?_, ?_⟩
      · unfold questionsFor
        rw [List.mem_flatMap]
        exact ⟨13, by simp, by simp⟩
      · simp only [asked, sevenDays] at hlt ⊢
        omega

end

section
variable {F P : Type} [LinearOrder F] (ops : LoadOps F)

/-- C82: on the page, no statement occurs twice in an hour of a database, so that the charts are those of C47, and the
date of an hour in milliseconds is exact. -/
theorem C82_chart (start stop : Int) (ms : List (Sample F)) (r : List (TimeLoad F)) (h : Shows ops start stop ms r)
    (zero : Int → P) (targets : List Str) (threshold : F)
    (build : Client.Load.Hour F → Client.Load.DbLoad F → Client.Load.SqlLoad F → P) :
    (∀ x ∈ r.map toPage, ((Client.Load.hourPoints targets threshold build x).map (·.1)).Nodup) ∧
    (∀ x ∈ r, (toPage x).date * 1000000 = x.1) ∧
    ((Client.Load.createSeries zero targets threshold build (r.map toPage)).map (·.1)).Nodup ∧
    ∀ key d, (key, d) ∈ Client.Load.createSeries zero targets threshold build (r.map toPage) →
      d.length = r.length ∧ key.1 ∈ targets ∧ (∃ s ∈ ms, s.db = key.1 ∧ s.sql = key.2) ∧
      ∀ (j : Nat) (t : Int) dbs sqls e, r[j]? = some (t, dbs) → (key.1, sqls) ∈ dbs → e ∈ sqls → e.sql = key.2 →
        ¬ e.max < threshold → d[j]? = some (build (toPage (t, dbs))
          ⟨key.1, sqls.map fun s => ⟨s.sql, s.max, s.sum, s.tokenizedId⟩⟩ ⟨e.sql, e.max, e.sum, e.tokenizedId⟩) := by
  obtain ⟨hcons, _, _, _, h4⟩ := h
  have hd : ∀ x ∈ r.map toPage, ((Client.Load.hourPoints targets threshold build x).map (·.1)).Nodup := by
    intro x hx
    obtain ⟨⟨t, dbs⟩, he, rfl⟩ := List.mem_map.mp hx
    obtain ⟨hn, hsq⟩ := h4 t dbs he
    unfold Client.Load.hourPoints
    rw [List.map_flatMap, List.nodup_flatMap]
    constructor
    · intro d hdm
      rw [List.mem_filter] at hdm
      obtain ⟨⟨name, sqls⟩, hm, rfl⟩ := List.mem_map.mp hdm.1
      have hns := (hsq name sqls hm).1
      rw [List.map_map]
      have hsub : ((List.map (fun s : SqlLoad F => (⟨s.sql, s.max, s.sum, s.tokenizedId⟩ : Client.Load.SqlLoad F)) sqls).filter
          (fun l => !decide (l.loadMax < threshold))).map (fun l => l.sql) |>.Nodup := by
        refine List.Nodup.sublist (List.Sublist.map _ List.filter_sublist) ?_
        rw [List.map_map]
        exact hns
      have := hsub.map (f := fun q : Str => (name, q)) (fun a b hab => by simpa using hab)
      rw [List.map_map] at this
      exact this
    · have hnames : ((List.map (fun d : Str × List (SqlLoad F) => (⟨d.1, d.2.map fun s => ⟨s.sql, s.max, s.sum, s.tokenizedId⟩⟩ :
          Client.Load.DbLoad F)) dbs).map (·.name)).Nodup := by
        rw [List.map_map]; exact hn
      have := List.Nodup.sublist (List.Sublist.map _ (List.filter_sublist (p := fun d : Client.Load.DbLoad F => targets.contains d.name))) hnames
      rw [List.Nodup, List.pairwise_map] at this
      refine this.imp ?_
      intro a b hab
      simp only [Function.onFun, List.disjoint_left, List.mem_map]
      rintro k ⟨y, ⟨l, _, rfl⟩, rfl⟩ ⟨y', ⟨l', _, rfl⟩, e⟩
      simp only [Prod.mk.injEq] at e
      exact hab e.1.symm
  obtain ⟨c1, c2, c3⟩ := Client.Load.C47_series_partial zero targets threshold build (r.map toPage) hd
  refine ⟨hd, ?_, c1, ?_⟩
  · intro x hx
    obtain ⟨j, hj⟩ := consecutive_mul hour (r.map (·.1)) (start / hour) hcons x.1 (List.mem_map.mpr ⟨x, hx, rfl⟩)
    simp only [toPage, hj, hour]
    omega
  intro key d hk
  obtain ⟨l1, f, first, l2, _, l4⟩ := c3 key d hk
  refine ⟨by simpa using l1, ?_, ?_, ?_⟩
  · obtain ⟨x, _, hx⟩ := (c2 key).mp (List.mem_map.mpr ⟨_, hk, rfl⟩)
    obtain ⟨⟨k', p⟩, hp, rfl⟩ := List.mem_map.mp hx
    unfold Client.Load.hourPoints at hp
    obtain ⟨db, hdb, hp⟩ := List.mem_flatMap.mp hp
    obtain ⟨l, _, hl⟩ := List.mem_map.mp hp
    cases hl
    simpa using (List.mem_filter.mp hdb).2
  · obtain ⟨x, hx0, hx⟩ := (c2 key).mp (List.mem_map.mpr ⟨_, hk, rfl⟩)
    obtain ⟨⟨t, dbs⟩, he, rfl⟩ := List.mem_map.mp hx0
    obtain ⟨⟨k', p⟩, hp, rfl⟩ := List.mem_map.mp hx
    unfold Client.Load.hourPoints at hp
    obtain ⟨db, hdb, hp⟩ := List.mem_flatMap.mp hp
    obtain ⟨l, hl0, hl⟩ := List.mem_map.mp hp
    cases hl
    obtain ⟨⟨name, sqls⟩, hm, rfl⟩ := List.mem_map.mp (List.mem_filter.mp hdb).1
    obtain ⟨s0, hs0, rfl⟩ := List.mem_map.mp (List.mem_filter.mp hl0).1
    obtain ⟨s, rest, hs, _⟩ := ((h4 t dbs he).2 name sqls hm).2.2 s0 hs0
    have hsm : s ∈ ofHour ms t name s0.sql := by rw [hs]; simp
    unfold ofHour at hsm
    rw [List.mem_filter] at hsm
    simp only [Bool.and_eq_true, decide_eq_true_eq] at hsm
    exact ⟨s, hsm.1, hsm.2.1.2, hsm.2.2⟩
  · intro j t dbs sqls e hj hdb he hes hth
    refine (l4 j (toPage (t, dbs)) (by rw [List.getElem?_map, hj]; rfl)).1 _ ?_
    have htar : key.1 ∈ targets := by
      obtain ⟨x, _, hx⟩ := (c2 key).mp (List.mem_map.mpr ⟨_, hk, rfl⟩)
      obtain ⟨⟨k', p⟩, hp, rfl⟩ := List.mem_map.mp hx
      unfold Client.Load.hourPoints at hp
      obtain ⟨db, hdb', hp⟩ := List.mem_flatMap.mp hp
      obtain ⟨l, _, hl⟩ := List.mem_map.mp hp
      cases hl
      simpa using (List.mem_filter.mp hdb').2
    unfold Client.Load.hourPoints
    rw [List.mem_flatMap]
    refine ⟨⟨key.1, sqls.map fun s => ⟨s.sql, s.max, s.sum, s.tokenizedId⟩⟩, ?_, ?_⟩
    · rw [List.mem_filter]
      refine ⟨List.mem_map.mpr ⟨(key.1, sqls), hdb, rfl⟩, ?_⟩
      simpa using htar
    · rw [List.mem_map]
      refine ⟨⟨e.sql, e.max, e.sum, e.tokenizedId⟩, ?_, ?_⟩
      · rw [List.mem_filter]
        exact ⟨List.mem_map.mpr ⟨e, he, rfl⟩, by simpa using hth⟩
      · rw [hes]

end

/-! ## Concrete runs -/

/-- a metric with one point -/
def exMetric (tok : Bool) (sql id : Str) (t : Int) (v : Nat) : Metric Nat :=
  ⟨some (some loadAvgMetricName, some [((if tok then tokStatement else sqlStatement), sql),
    ((if tok then tokId else sqlTokId), id)]), [⟨some ⟨t, .utc⟩, some v⟩, ⟨none, some 7⟩, ⟨some ⟨t, .utc⟩, some 0⟩]⟩

/-- Two databases, the second on the second page.  In the first half day statement `s` (id 1) is among the ten
heaviest statements, in the second the tokenized statement `u` (id 2), no single form of which is among the
heaviest. -/
def exWorld : World Unit Nat where
  parse s := if s = ['m'] then .ok ⟨100 * hour, .utc⟩ else .error ()
  now := ⟨200 * hour + 5, .fixed 1 (9 * hour)⟩
  describe _ marker := if marker = none then .ok ([⟨some ['a'], some ['r']⟩], some ['n'])
    else .ok ([⟨some ['b'], some ['q']⟩], none)
  metrics n q :=
    if n = 0 then .ok ([exMetric false ['s'] ['1'] (q.start.ns + 7) 3, exMetric false ['s'] ['1'] (q.start.ns + 9) 4], none)
    else if n = 1 then .ok ([exMetric true ['t'] ['1'] (q.start.ns + 7) 7], none)
    else if n = 3 then .ok ([exMetric true ['u'] ['2'] (q.start.ns + 7) 9], none)
    else .ok ([], none)
  write _ _ := .ok ()

/-- what a run shows: whether it succeeded, the number of effects, and the rows of the last page -/
def outcome (r : Option (Except (Err Unit) Unit × List (Effect Nat))) : Option (Bool × Nat) :=
  r.map fun x => ((match x.1 with | .ok _ => true | .error _ => false), x.2.length)

/-- the page written -/
def pageOf (r : Option (Except (Err Unit) Unit × List (Effect Nat))) : Option (Report Nat) :=
  match r with
  | none => none
  | some x => x.2.findSome? fun e => match e with
    | .html _ p => some p
    | _ => none

example : outcome (run natOps exWorld ⟨[], ['o']⟩) = some (true, 30) := by decide +kernel
example : outcome (run natOps exWorld ⟨['x'], ['o']⟩) = some (false, 1) := by decide +kernel

set_option synthInstance.maxSize 2000 in
set_option synthInstance.maxHeartbeats 200000 in
example : (pageOf (run natOps exWorld ⟨[], ['o']⟩)).map (fun p => (p.raw.length, rows p.raw, rows p.tokenized)) =
    some (169, [(32, ['a'], ['s'], 4, 7, ['1'])],
      [(32, ['a'], ['t'], 7, 7, ['1']), (44, ['a'], ['u'], 9, 9, ['2'])]) := by
  decide +kernel

/-- the hypotheses of the theorems are met -/
example : Answered exWorld ⟨32 * hour + 5, .fixed 1 (9 * hour)⟩ [⟨['a'], ['r']⟩] ∧
    startOf exWorld ⟨[], ['o']⟩ = .ok ⟨32 * hour + 5, .fixed 1 (9 * hour)⟩ ∧
    (∀ s ∈ measurements natOps exWorld ⟨32 * hour + 5, .fixed 1 (9 * hour)⟩ true [⟨['a'], ['r']⟩], s.time.zone = .utc) ∧
    (measurements natOps exWorld ⟨32 * hour + 5, .fixed 1 (9 * hour)⟩ true [⟨['a'], ['r']⟩]).length = 2 := by
  refine ⟨?_, by decide +kernel, by decide +kernel, by decide +kernel⟩
  intro d db hd k hk tok
  unfold answer exWorld
  simp only
  split
  · exact ⟨_, rfl, by simp [exMetric]⟩
  · split
    · exact ⟨_, rfl, by simp [exMetric]⟩
    · split
      · exact ⟨_, rfl, by simp [exMetric]⟩
      · exact ⟨_, rfl, by simp⟩

/-- C82 fails beyond the first page: database `b` exists, the service has said that there are more instances, and
nothing is asked about `b`. -/
theorem C82_first_page_only :
    exWorld.describe [engine] none = .ok ([⟨some ['a'], some ['r']⟩], some ['n']) ∧
    exWorld.describe [engine] (some ['n']) = .ok ([⟨some ['b'], some ['q']⟩], none) ∧
    ∃ effs, run natOps exWorld ⟨[], ['o']⟩ = some (.ok (), effs) ∧
      ∀ q, .ask q ∈ effs → q.identifier ≠ ['q'] := by
  refine ⟨rfl, rfl, ?_⟩
  have h : (match run natOps exWorld ⟨[], ['o']⟩ with
      | some (.ok (), effs) => effs.all fun e => match e with
        | .ask q => decide (q.identifier ≠ ['q'])
        | _ => true
      | _ => false) = true := by decide +kernel
  split at h
  · rename_i effs he
    refine ⟨effs, he, ?_⟩
    intro q hq
    rw [List.all_eq_true] at h
    simpa using h _ hq
  · cases h

/-- C82 fails for a tokenized statement none of whose plain forms is among the ten heaviest statements of any half
day: the page offers its bar, and choosing it throws. -/
theorem C82_details_throw (sort : List (Client.Load.RawLoad Nat) → List (Client.Load.RawLoad Nat)) :
    ∃ p, pageOf (run natOps exWorld ⟨[], ['o']⟩) = some p ∧
      (∃ h ∈ p.tokenized.map toPage, ∃ d ∈ h.databases, ∃ l ∈ d.sqls, l.tokenizedId = ['2']) ∧
      Client.Load.pickRawLoads sort (Client.Load.createRawLoads (p.raw.map toPage)) 10 ['2'] = none := by
  have h : (match pageOf (run natOps exWorld ⟨[], ['o']⟩) with
      | some p => (p.tokenized.map toPage).any (fun h => h.databases.any fun d => d.sqls.any fun l =>
          decide (l.tokenizedId = ['2'])) &&
        (mapGet ['2'] (Client.Load.createRawLoads (p.raw.map toPage))).isNone
      | none => false) = true := by decide +kernel
  split at h
  · rename_i p hp
    refine ⟨p, hp, ?_⟩
    rw [Bool.and_eq_true] at h
    constructor
    · simpa only [List.any_eq_true, decide_eq_true_eq] using h.1
    · unfold Client.Load.pickRawLoads
      rw [Option.isNone_iff_eq_none.mp h.2]
      rfl
  · cases h

end Verif.Cmd.PerfInsights
