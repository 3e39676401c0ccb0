import Verif.Lib.Upsert
import Verif.Lib.Times
/-!
# Database load from Performance Insights

`/repo/infra/aws/{performance_insights,pi_sql_load_avg}.go`, `/repo/cmd/db/dig/performance_insights.go`.

Load values are an abstract type `F` with the operations the code uses: addition, `<`, `== 0`.
-/
namespace Verif.Pi
open Verif.Lib

/-- Texts. -/
abbrev Str := List Char

/-- Operations on `float64`. -/
structure LoadOps (F : Type) where
  add : F → F → F
  lt : F → F → Bool
  isZero : F → Bool

/-! ## Times -/

/-- `time.Location`: UTC, or another one, told apart by its pointer (`id`), with a fixed offset in
nanoseconds (offsets that change over the year are left out). -/
inductive Zone where
  | utc
  | fixed (id : Nat) (offset : Int)
deriving DecidableEq

/-- its offset -/
def Zone.offset : Zone → Int
  | .utc => 0
  | .fixed _ o => o

/-- `time.Time`; as a map key it is compared with its location. -/
structure Time where
  ns : Int
  zone : Zone
deriving DecidableEq

/-- one hour -/
def hour : Int := 3600000000000

/-- `/repo/lib/time.go:5-11` `NormalizeTimeByHour`: the hour on the clock of its zone. -/
def normalizeByHour (t : Time) : Time :=
  ⟨(t.ns + t.zone.offset) / hour * hour - t.zone.offset, t.zone⟩

/-! ## Reading the answers -/

/-- a data point of the service -/
structure DataPoint (F : Type) where
  timestamp : Option Time
  value : Option F

/-- one metric; `key = none`: a nil `Key`; inside, the metric's name and its dimensions, which may be
missing. -/
structure Metric (F : Type) where
  key : Option (Option Str × Option (List (Str × Str)))
  points : List (DataPoint F)

/-- `/repo/infra/aws/pi_sql_load_avg.go:9-14` -/
structure LoadAvg (F : Type) where
  db : Str
  sql : Str
  tokenizedId : Str
  values : List (F × Time)

/-- `loadAvgMetricName` -/
def loadAvgMetricName : Str := "db.load.avg".toList

/-- `performance_insights.go:89-106` -/
def readPoints {F : Type} (ops : LoadOps F) : List (DataPoint F) → List (F × Time)
  | [] => []
  | p :: ps => match p.timestamp with
    | none => readPoints ops ps
    | some t => match p.value with
      | none => readPoints ops ps
      | some v => if ops.isZero v then readPoints ops ps else (v, t) :: readPoints ops ps

/-- `performance_insights.go:72-112` `convertResourceMetricsToAvgs`; `none` is the panic on a nil
key.  A missing dimension reads as "". -/
def convertMetrics {F : Type} (ops : LoadOps F) (db sqlKey tokKey : Str) :
    List (Metric F) → Option (List (LoadAvg F))
  | [] => some []
  | m :: ms => match m.key with
    | none => none
    | some (name, dims) =>
      if name ≠ some loadAvgMetricName then convertMetrics ops db sqlKey tokKey ms
      else match dims with
        | none => convertMetrics ops db sqlKey tokKey ms
        | some ds => match convertMetrics ops db sqlKey tokKey ms with
          | none => none
          | some r => some (⟨db, (mapGet sqlKey ds).getD [], (mapGet tokKey ds).getD [],
              readPoints ops m.points⟩ :: r)

/-! ## Aggregation -/

/-- `viewmodel.VmDbLoadOfSql` -/
structure SqlLoad (F : Type) where
  sql : Str
  max : F
  sum : F
  tokenizedId : Str

/-- a data point with the statement it belongs to -/
structure Sample (F : Type) where
  db : Str
  sql : Str
  tokenizedId : Str
  value : F
  time : Time

/-- the samples in the order of the two loops (`pi_sql_load_avg.go:27-28`) -/
def samples {F : Type} (avgs : List (LoadAvg F)) : List (Sample F) :=
  avgs.flatMap (fun a => a.values.map (fun v => ⟨a.db, a.sql, a.tokenizedId, v.1, v.2⟩))

/-- `pi_sql_load_avg.go:45-67`: the statement's entry is changed, or a new one is appended -/
def addSql {F : Type} (ops : LoadOps F) (s : Sample F) : List (SqlLoad F) → List (SqlLoad F)
  | [] => [⟨s.sql, s.value, s.value, s.tokenizedId⟩]
  | e :: r => if e.sql = s.sql then
      { e with max := if ops.lt e.max s.value then s.value else e.max,
               sum := ops.add e.sum s.value } :: r
    else e :: addSql ops s r

/-- `pi_sql_load_avg.go:39-43`: the database's entry, created on first use.  The program finds it
through `dbLoadMap`, whose values are the entries of `Databases`; here it is found in that list. -/
def addDb {F : Type} (ops : LoadOps F) (s : Sample F) (dbs : List (Str × List (SqlLoad F))) :
    List (Str × List (SqlLoad F)) :=
  upsert s.db [] (addSql ops s) dbs

/-- `pi_sql_load_avg.go:29-37`: the hour's entry in `sqlLoadMap`, created on first use -/
def addSample {F : Type} (ops : LoadOps F) (m : List (Time × List (Str × List (SqlLoad F))))
    (s : Sample F) : List (Time × List (Str × List (SqlLoad F))) :=
  upsert (normalizeByHour s.time) [] (addDb ops s) m

/-- `viewmodel.VmTimeDbLoad`: the instant (the JSON only has its milliseconds) and the databases -/
abbrev TimeLoad (F : Type) := Int × List (Str × List (SqlLoad F))

/-- `pi_sql_load_avg.go:24-81` `ConvertPiSQLLoadAvgsToVms`; `none`: the last loop does not end. -/
def convertToVms {F : Type} (ops : LoadOps F) (start stop : Time) (avgs : List (LoadAvg F)) :
    Option (List (TimeLoad F)) :=
  let m := (samples avgs).foldl (addSample ops) []
  let first := (normalizeByHour start).ns
  match timesBelow (enough first (stop.ns + 1)) first (stop.ns + 1) hour with
  | none => none
  | some targets => some (targets.map (fun t => (t, (mapGet (⟨t, .utc⟩ : Time) m).getD [])))

/-! ## The command -/

/-- 12 hours -/
def halfDay : Int := 12 * hour

/-- `performance_insights.go:62-83` of the command: the 14 windows of one database, the start of
each.  Both kinds of metrics are asked for; `ask i kind t` is the `i`th answer, `none` a panic. -/
def askWindows {E R : Type} (ask : Nat → Bool → Int → Except E (List R)) :
    Nat → Nat → Int → Except E (List R × List R) × List (Bool × Int)
  | 0, _, _ => (.ok ([], []), [])
  | n + 1, i, t => match ask i false t with
    | .error e => (.error e, [(false, t)])
    | .ok a => match ask (i + 1) true t with
      | .error e => (.error e, [(false, t), (true, t)])
      | .ok b => match askWindows ask n (i + 2) (t + halfDay) with
        | (.error e, q) => (.error e, (false, t) :: (true, t) :: q)
        | (.ok (as, bs), q) => (.ok (a ++ as, b ++ bs), (false, t) :: (true, t) :: q)

end Verif.Pi
