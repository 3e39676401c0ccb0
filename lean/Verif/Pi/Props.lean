import Mathlib.Data.List.Basic
import Mathlib.Tactic.Ring
import Verif.Pi.Model
/-!
# C37, C38, C57: database load
-/
namespace Verif.Pi
open Verif.Lib

variable {F : Type} (ops : LoadOps F)

/-! ## Specification -/

/-- What is assumed of `<` on loads: a strict weak order (true of floating point numbers without
NaN). -/
structure LoadLaws : Prop where
  asymm : ∀ a b, ops.lt a b = true → ops.lt b a = false
  negTrans : ∀ a b c, ops.lt b a = false → ops.lt c b = false → ops.lt c a = false

/-- the samples of a statement of a database in the hour from `t` -/
def ofHour (l : List (Sample F)) (t : Int) (db sql : Str) : List (Sample F) :=
  l.filter (fun s => decide (t ≤ s.time.ns ∧ s.time.ns < t + hour) && decide (s.db = db) &&
    decide (s.sql = sql))

/-- The entry reports these samples: sum in order, a largest value, the first one's tokenized id. -/
def Reports (l : List (Sample F)) (e : SqlLoad F) : Prop :=
  ∃ s rest, l = s :: rest ∧ e.tokenizedId = s.tokenizedId ∧
    e.sum = (rest.map Sample.value).foldl ops.add s.value ∧
    e.max ∈ l.map Sample.value ∧ ∀ v ∈ l.map Sample.value, ops.lt e.max v = false

/-! ## Statements of one database in one hour -/

/-- one step for the entry of a statement -/
def stepSql (s : Sample F) : Option (SqlLoad F) → Option (SqlLoad F)
  | none => some ⟨s.sql, s.value, s.value, s.tokenizedId⟩
  | some e => some { e with max := if ops.lt e.max s.value then s.value else e.max,
                            sum := ops.add e.sum s.value }

theorem addSql_upsert (s : Sample F) (es : List (SqlLoad F)) :
    (addSql ops s es).map (fun e => (e.sql, some e)) =
      upsert s.sql none (stepSql ops s) (es.map (fun e => (e.sql, some e))) := by
  induction es with
  | nil => simp [addSql, upsert, stepSql]
  | cons e r ih =>
    rw [addSql, List.map_cons, upsert]
    by_cases h : e.sql = s.sql
    · rw [if_pos h, if_pos h]; simp [stepSql]
    · rw [if_neg h, if_neg h, List.map_cons, ih]

theorem foldl_addSql (l : List (Sample F)) : ∀ es : List (SqlLoad F),
    (l.foldl (fun es s => addSql ops s es) es).map (fun e => (e.sql, some e)) =
      group Sample.sql none (stepSql ops) l (es.map (fun e => (e.sql, some e))) := by
  induction l with
  | nil => intro es; rfl
  | cons s l ih =>
    intro es
    rw [List.foldl_cons, ih, addSql_upsert]
    rfl

theorem foldl_stepSql (h : LoadLaws ops) : ∀ (rest pre : List (Sample F)) (e : SqlLoad F),
    e.max ∈ pre.map Sample.value → (∀ v ∈ pre.map Sample.value, ops.lt e.max v = false) →
    ∃ e', rest.foldl (fun b a => stepSql ops a b) (some e) = some e' ∧ e'.sql = e.sql ∧
      e'.tokenizedId = e.tokenizedId ∧ e'.sum = (rest.map Sample.value).foldl ops.add e.sum ∧
      e'.max ∈ (pre ++ rest).map Sample.value ∧
      ∀ v ∈ (pre ++ rest).map Sample.value, ops.lt e'.max v = false
  | [], pre, e, hm, hv => ⟨e, rfl, rfl, rfl, rfl, by simpa using hm, by simpa using hv⟩
  | s :: rest, pre, e, hm, hv => by
    rw [List.foldl_cons, stepSql]
    have irr : ∀ a, ops.lt a a = false := by
      intro a
      cases hc : ops.lt a a with
      | false => rfl
      | true => have := h.asymm a a hc; rw [hc] at this; cases this
    obtain ⟨e', h1, h2, h3, h4, h5, h6⟩ := foldl_stepSql h rest (pre ++ [s])
      { e with max := if ops.lt e.max s.value then s.value else e.max,
               sum := ops.add e.sum s.value }
      (by
        simp only
        split
        · simp
        · simp only [List.map_append, List.mem_append]; exact .inl hm)
      (by
        intro v hv'
        simp only
        rw [List.map_append, List.mem_append] at hv'
        cases hc : ops.lt e.max s.value with
        | true =>
          simp only [if_true]
          rcases hv' with hv' | hv'
          · exact h.negTrans _ _ _ (hv v hv') (h.asymm _ _ hc)
          · simp at hv'; subst hv'; exact irr _
        | false =>
          simp only [Bool.false_eq_true, if_false]
          rcases hv' with hv' | hv'
          · exact hv v hv'
          · simp at hv'; subst hv'; exact hc)
    refine ⟨e', h1, h2, h3, h4, ?_, ?_⟩
    · simpa using h5
    · simpa using h6

theorem reports_fold (h : LoadLaws ops) (l : List (Sample F)) (hne : l ≠ []) :
    ∃ e, l.foldl (fun b a => stepSql ops a b) none = some e ∧ Reports ops l e := by
  cases l with
  | nil => exact absurd rfl hne
  | cons s rest =>
    rw [List.foldl_cons, stepSql]
    have irr : ∀ a, ops.lt a a = false := by
      intro a
      cases hc : ops.lt a a with
      | false => rfl
      | true => have := h.asymm a a hc; rw [hc] at this; cases this
    obtain ⟨e, h1, _, h3, h4, h5, h6⟩ := foldl_stepSql ops h rest [s]
      ⟨s.sql, s.value, s.value, s.tokenizedId⟩ (by simp) (by simp [irr])
    exact ⟨e, h1, s, rest, rfl, h3, h4, by simpa using h5, by simpa using h6⟩

/-- the entries of one database in one hour -/
theorem sqls_spec (h : LoadLaws ops) (l : List (Sample F)) :
    ((l.foldl (fun es s => addSql ops s es) []).map SqlLoad.sql).Nodup ∧
    (∀ e ∈ l.foldl (fun es s => addSql ops s es) [],
      Reports ops (l.filter (fun s => s.sql = e.sql)) e) ∧
    (∀ s ∈ l, ∃ e ∈ l.foldl (fun es s => addSql ops s es) [], e.sql = s.sql) := by
  have heq := foldl_addSql ops l []
  rw [List.map_nil] at heq
  obtain ⟨hn, hm⟩ := group_spec Sample.sql none (stepSql ops) l
  rw [← heq] at hn hm
  have hmem : ∀ e, e ∈ l.foldl (fun es s => addSql ops s es) [] →
      (e.sql, some e) ∈ (l.foldl (fun es s => addSql ops s es) []).map (fun e => (e.sql, some e)) :=
    fun e he => List.mem_map.mpr ⟨e, he, rfl⟩
  refine ⟨?_, ?_, ?_⟩
  · rw [List.map_map] at hn; exact hn
  · intro e he
    obtain ⟨⟨s, hs, hk⟩, hv⟩ := (hm e.sql (some e)).mp (hmem e he)
    have hne : l.filter (fun s => s.sql = e.sql) ≠ [] := by
      intro hc
      rw [List.filter_eq_nil_iff] at hc
      exact hc s hs (by simpa using hk)
    obtain ⟨e', h1, h2⟩ := reports_fold ops h _ hne
    rw [h1] at hv
    cases hv
    exact h2
  · intro s hs
    have := (hm s.sql _).mpr ⟨⟨s, hs, rfl⟩, rfl⟩
    obtain ⟨e, he, hee⟩ := List.mem_map.mp this
    simp only [Prod.mk.injEq] at hee
    exact ⟨e, he, hee.1⟩

/-! ## Hours -/

theorem foldl_addSample (l : List (Sample F)) :
    l.foldl (addSample ops) [] =
      group (fun s => normalizeByHour s.time) [] (fun s dbs => addDb ops s dbs) l [] := rfl

/-- the databases of an hour -/
theorem hour_get (l : List (Sample F)) (k : Time) :
    (mapGet k (l.foldl (addSample ops) [])).getD [] =
      (l.filter (fun s => normalizeByHour s.time = k)).foldl (fun b a => addDb ops a b) [] := by
  rw [foldl_addSample, group_get]
  by_cases h : ∃ a ∈ l, normalizeByHour a.time = k
  · rw [if_pos h]; simp [mapGet]
  · rw [if_neg h]
    have : l.filter (fun s => normalizeByHour s.time = k) = [] := by
      rw [List.filter_eq_nil_iff]
      intro a ha hk
      exact h ⟨a, ha, by simpa using hk⟩
    simp [mapGet, this]

theorem normalize_utc (t : Time) (hz : t.zone = .utc) (x : Int) (k : Int) (hx : x = k * hour) :
    normalizeByHour t = ⟨x, .utc⟩ ↔ x ≤ t.ns ∧ t.ns < x + hour := by
  subst hx
  simp only [normalizeByHour, hz, Zone.offset, Time.mk.injEq, and_true, hour]
  omega

theorem consecutive_mul (d : Int) : ∀ (r : List Int) (k : Int), Consecutive d (k * d) r →
    ∀ x ∈ r, ∃ j, x = j * d
  | [], _, _, x, hx => by cases hx
  | y :: r, k, ⟨hy, hr⟩, x, hx => by
    rcases List.mem_cons.mp hx with rfl | hx
    · exact ⟨k, hy⟩
    · have e : k * d + d = (k + 1) * d := by ring
      rw [e] at hr
      exact consecutive_mul d r (k + 1) hr x hx

/-- C37: samples in UTC, the start in a zone with a whole number of hours as offset.  The result has
one entry for every hour from the start's hour on through the end, in order. -/
theorem C37_hours (start stop : Time) (avgs : List (LoadAvg F)) (k : Int)
    (hz : start.zone.offset = k * hour) :
    ∃ r, convertToVms ops start stop avgs = some r ∧
      Consecutive hour (start.ns / hour * hour) (r.map (·.1)) ∧
      (∀ e ∈ r, e.1 ≤ stop.ns) ∧
      ∀ x, start.ns / hour * hour ≤ x → x ≤ stop.ns → ∃ e ∈ r, e.1 ≤ x ∧ x < e.1 + hour := by
  have hfirst : (normalizeByHour start).ns = start.ns / hour * hour := by
    simp only [normalizeByHour, hz, hour]
    omega
  obtain ⟨ts, h1, h2, h3, h4, _⟩ := timesBelow_spec hour (by decide)
    (enough (normalizeByHour start).ns (stop.ns + 1)) (normalizeByHour start).ns (stop.ns + 1)
    (by unfold enough; omega)
  refine ⟨ts.map (fun t => (t, (mapGet (⟨t, .utc⟩ : Time) ((samples avgs).foldl (addSample ops) [])).getD [])),
    ?_, ?_, ?_, ?_⟩
  · unfold convertToVms
    simp only [h1]
  · rw [List.map_map]
    have : ((fun e : TimeLoad F => e.1) ∘ fun t => (t, (mapGet (⟨t, .utc⟩ : Time)
        ((samples avgs).foldl (addSample ops) [])).getD [])) = id := rfl
    rw [this, List.map_id, ← hfirst]
    exact h2
  · intro e he
    obtain ⟨t, ht, rfl⟩ := List.mem_map.mp he
    have := h3 t ht
    simp only
    omega
  · intro x hx1 hx2
    obtain ⟨w, hw, hwx⟩ := consecutive_cover hour ts _ x h2 (by omega) (by omega)
    exact ⟨_, List.mem_map.mpr ⟨w, hw, rfl⟩, hwx⟩

/-- C37: in every hour's entry each database with a sample in that hour is listed once, below it each
statement with a sample in that hour and database once, and the statement's entry reports exactly
the samples of that hour, database and statement; nothing else is listed. -/
theorem C37_conserves (hl : LoadLaws ops) (start stop : Time) (avgs : List (LoadAvg F)) (k : Int)
    (hz : start.zone.offset = k * hour) (hutc : ∀ s ∈ samples avgs, s.time.zone = .utc)
    (r : List (TimeLoad F)) (hr : convertToVms ops start stop avgs = some r) (t : Int)
    (dbs : List (Str × List (SqlLoad F))) (he : (t, dbs) ∈ r) :
    (dbs.map (·.1)).Nodup ∧
    (∀ db sqls, (db, sqls) ∈ dbs → (sqls.map SqlLoad.sql).Nodup ∧ sqls ≠ [] ∧
      ∀ e ∈ sqls, Reports ops (ofHour (samples avgs) t db e.sql) e) ∧
    (∀ s ∈ samples avgs, t ≤ s.time.ns → s.time.ns < t + hour →
      ∃ sqls e, (s.db, sqls) ∈ dbs ∧ e ∈ sqls ∧ e.sql = s.sql) := by
  obtain ⟨r', hr', hcons, _, _⟩ := C37_hours ops start stop avgs k hz
  rw [hr] at hr'
  cases hr'
  obtain ⟨j, hj⟩ := consecutive_mul hour (r.map (·.1)) (start.ns / hour) hcons t
    (List.mem_map.mpr ⟨(t, dbs), he, rfl⟩)
  have hdbs : dbs = ((samples avgs).filter (fun s => normalizeByHour s.time = ⟨t, .utc⟩)).foldl
      (fun b a => addDb ops a b) [] := by
    unfold convertToVms at hr
    simp only at hr
    split at hr
    · cases hr
    · rename_i targets _
      rw [Option.some.injEq] at hr
      subst hr
      obtain ⟨t', _, hte⟩ := List.mem_map.mp he
      simp only [Prod.mk.injEq] at hte
      obtain ⟨rfl, rfl⟩ := hte
      exact hour_get ops _ _
  set hs := (samples avgs).filter (fun s => normalizeByHour s.time = ⟨t, .utc⟩) with hhs
  have hin : ∀ s, s ∈ samples avgs → (s ∈ hs ↔ t ≤ s.time.ns ∧ s.time.ns < t + hour) := by
    intro s hsm
    rw [hhs, List.mem_filter, decide_eq_true_eq, normalize_utc s.time (hutc s hsm) t j hj]
    exact ⟨fun h => h.2, fun h => ⟨hsm, h⟩⟩
  have hgr : dbs = group Sample.db [] (fun s es => addSql ops s es) hs [] := hdbs
  obtain ⟨hn, hm⟩ := group_spec Sample.db [] (fun s es => addSql ops s es) hs
  rw [← hgr] at hn hm
  have hof : ∀ db sql, (hs.filter (fun a => a.db = db)).filter (fun s => s.sql = sql) =
      ofHour (samples avgs) t db sql := by
    intro db sql
    rw [hhs, List.filter_filter, List.filter_filter]
    apply List.filter_congr
    intro s hsm
    have := normalize_utc s.time (hutc s hsm) t j hj
    rw [Bool.eq_iff_iff]
    simp only [Bool.and_eq_true, decide_eq_true_eq, this]
    constructor
    · rintro ⟨⟨h1, h2⟩, h3⟩; exact ⟨⟨h3, h2⟩, h1⟩
    · rintro ⟨⟨h3, h2⟩, h1⟩; exact ⟨⟨h1, h2⟩, h3⟩
  refine ⟨hn, ?_, ?_⟩
  · intro db sqls hmem
    obtain ⟨⟨a, ha, hak⟩, rfl⟩ := (hm db sqls).mp hmem
    obtain ⟨h1, h2, h3⟩ := sqls_spec ops hl (hs.filter (fun a => a.db = db))
    refine ⟨h1, ?_, ?_⟩
    · obtain ⟨e, he, _⟩ := h3 a (by simp [ha, hak])
      intro hc
      have he' : e ∈ ([] : List (SqlLoad F)) := hc ▸ he
      cases he'
    · intro e he
      have := h2 e he
      rw [hof] at this
      exact this
  · intro s hsm h1 h2
    have hsin := (hin s hsm).mpr ⟨h1, h2⟩
    have hmem := (hm s.db _).mpr ⟨⟨s, hsin, rfl⟩, rfl⟩
    obtain ⟨_, _, h3⟩ := sqls_spec ops hl (hs.filter (fun a => a.db = s.db))
    obtain ⟨e, he, hes⟩ := h3 s (by simp [hsin])
    exact ⟨_, e, hmem, he, hes⟩

/-! ### Concrete series -/

/-- loads as numbers -/
def natOps : LoadOps Nat := ⟨(· + ·), fun a b => decide (a < b), fun a => a == 0⟩

theorem natLaws : LoadLaws natOps := by
  constructor
  · intro a b h; simp [natOps] at h ⊢; omega
  · intro a b c h1 h2; simp [natOps] at h1 h2 ⊢; omega

/-- two statements over two hours -/
def exAvgs : List (LoadAvg Nat) :=
  [⟨['d'], ['s'], ['1'], [(3, ⟨hour + 5, .utc⟩), (4, ⟨hour + 7, .utc⟩), (9, ⟨2 * hour, .utc⟩)]⟩,
   ⟨['d'], ['s'], ['2'], [(1, ⟨hour + 9, .utc⟩)]⟩]

/-- the series as rows: hour, database, statement, maximum, sum, id -/
def rows (r : List (TimeLoad Nat)) : List (Int × Str × Str × Nat × Nat × Str) :=
  r.flatMap (fun e => e.2.flatMap (fun d => d.2.map (fun q =>
    (e.1 / hour, d.1, q.sql, q.max, q.sum, q.tokenizedId))))

set_option synthInstance.maxSize 2000 in
set_option synthInstance.maxHeartbeats 200000 in
example : ((convertToVms natOps ⟨hour + 30, .fixed 1 (9 * hour)⟩ ⟨3 * hour, .utc⟩ exAvgs).map
    (fun r => (r.length, rows r))) =
    some (3, [(1, ['d'], ['s'], 4, 8, ['1']), (2, ['d'], ['s'], 9, 9, ['1'])]) := by
  decide +kernel

/-- C37 fails in a zone like India's: the hours are taken on the local clock, the samples are stored
by UTC hour, and every load is lost. -/
theorem C37_half_hour_zone_loses :
    ∃ r, convertToVms natOps ⟨hour + 30, .fixed 1 (5 * hour + hour / 2)⟩ ⟨3 * hour, .utc⟩ exAvgs = some r ∧
      (∀ e ∈ r, e.2 = []) ∧ (samples exAvgs).length = 4 := by
  have h : ((convertToVms natOps ⟨hour + 30, .fixed 1 (5 * hour + hour / 2)⟩ ⟨3 * hour, .utc⟩ exAvgs).map
      (fun r => r.all (fun e => e.2.isEmpty))) = some true := by decide +kernel
  cases hc : convertToVms natOps ⟨hour + 30, .fixed 1 (5 * hour + hour / 2)⟩ ⟨3 * hour, .utc⟩ exAvgs with
  | none => rw [hc] at h; cases h
  | some r =>
    refine ⟨r, rfl, ?_, by decide⟩
    rw [hc] at h
    simp only [Option.map_some, Option.some.injEq, List.all_eq_true] at h
    intro e he
    exact List.isEmpty_iff.mp (h e he)

theorem consecutive_add (d : Int) : ∀ (r : List Int) (x : Int), Consecutive d x r → ∀ t ∈ r, ∃ j : Int, t = x + j * d
  | [], _, _, _, ht => by cases ht
  | y :: r, x, h, t, ht => by
    obtain ⟨rfl, h⟩ := h
    rcases List.mem_cons.mp ht with rfl | ht
    · exact ⟨0, by simp⟩
    · obtain ⟨j, rfl⟩ := consecutive_add d r _ h t ht
      exact ⟨j + 1, by ring⟩

/-- C37, exactly: in every zone that is not a whole number of hours from UTC all loads are lost, whatever they
are; together with `C37_conserves` the loads are reported exactly in the other zones. -/
theorem C37_other_zones_lose {F : Type} (ops : LoadOps F) (start stop : Time) (avgs : List (LoadAvg F))
    (hz : ∀ k : Int, start.zone.offset ≠ k * hour) (hutc : ∀ s ∈ samples avgs, s.time.zone = .utc) :
    ∃ r, convertToVms ops start stop avgs = some r ∧ ∀ e ∈ r, e.2 = [] := by
  obtain ⟨targets, h1, h2, -⟩ := timesBelow_spec hour (by unfold hour; omega)
    (enough (normalizeByHour start).ns (stop.ns + 1)) (normalizeByHour start).ns (stop.ns + 1) (by unfold enough; omega)
  refine ⟨targets.map (fun t => (t, (mapGet (⟨t, .utc⟩ : Time) ((samples avgs).foldl (addSample ops) [])).getD [])),
    ?_, ?_⟩
  · unfold convertToVms
    simp only [h1]
  · intro e he
    obtain ⟨t, ht, rfl⟩ := List.mem_map.mp he
    obtain ⟨j, hj⟩ := consecutive_add hour targets _ h2 t ht
    simp only
    rw [hour_get]
    have hn : (samples avgs).filter (fun s => normalizeByHour s.time = ⟨t, .utc⟩) = [] := by
      rw [List.filter_eq_nil_iff]
      intro s hs hc
      rw [decide_eq_true_eq] at hc
      have h3 := congrArg Time.ns hc
      simp only [normalizeByHour, hutc s hs, Zone.offset, Int.add_zero, Int.sub_zero] at h3
      rw [hj] at h3
      simp only [normalizeByHour] at h3
      refine hz ((start.ns + start.zone.offset) / hour + j - s.time.ns / hour) ?_
      have : start.zone.offset = (start.ns + start.zone.offset) / hour * hour + j * hour - s.time.ns / hour * hour := by
        omega
      rw [Int.sub_mul, Int.add_mul]
      exact this
    rw [hn]
    rfl

example : ∀ k : Int, (Zone.fixed 1 (5 * hour + hour / 2)).offset ≠ k * hour := by
  intro k
  simp only [Zone.offset, hour]
  omega

/-! ## C38 -/

/-- the name of the average load among the metrics of the service -/
def averageLoad : Str := "db.load.avg".toList

/-- a metric is used -/
def Used (m : Metric F) : Prop :=
  ∃ ds, m.key = some (some averageLoad, some ds)

/-- what a used metric is read as -/
def ReadAs (db sqlKey tokKey : Str) (m : Metric F) (a : LoadAvg F) : Prop :=
  ∃ ds, m.key = some (some averageLoad, some ds) ∧ a.db = db ∧
    a.sql = (mapGet sqlKey ds).getD [] ∧ a.tokenizedId = (mapGet tokKey ds).getD [] ∧
    a.values = m.points.filterMap (fun p => match p.timestamp, p.value with
      | some t, some v => if ops.isZero v then none else some (v, t)
      | _, _ => none)

theorem averageLoad_eq : loadAvgMetricName = averageLoad := rfl

theorem readPoints_eq (ps : List (DataPoint F)) :
    readPoints ops ps = ps.filterMap (fun p => match p.timestamp, p.value with
      | some t, some v => if ops.isZero v then none else some (v, t)
      | _, _ => none) := by
  induction ps with
  | nil => rfl
  | cons p ps ih =>
    rw [readPoints, List.filterMap_cons, ih]
    cases p.timestamp with
    | none => rfl
    | some t => cases p.value with
      | none => rfl
      | some v => cases h : ops.isZero v <;> simp [h]

open Classical in
/-- C38: when every metric has a key, the series read are, in order, exactly those of the
`db.load.avg` metrics with dimensions, and their values are the data points with a timestamp and a
non-zero value. -/
theorem C38_read (db sqlKey tokKey : Str) : ∀ (ms : List (Metric F)), (∀ m ∈ ms, m.key ≠ none) →
    ∃ r : List (LoadAvg F), convertMetrics ops db sqlKey tokKey ms = some r ∧
      r.length = (ms.filter (fun m => Used m)).length ∧
      ∀ (i : Nat) m a, (ms.filter (fun m => Used m))[i]? = some m → r[i]? = some a →
        ReadAs ops db sqlKey tokKey m a
  | [], _ => ⟨[], rfl, rfl, by simp⟩
  | m :: ms, h => by
    obtain ⟨r, h1, h2, h3⟩ := C38_read db sqlKey tokKey ms (fun x hx => h x (List.mem_cons_of_mem _ hx))
    rw [convertMetrics, averageLoad_eq]
    cases hk : m.key with
    | none => exact absurd hk (h m (by simp))
    | some kd =>
      obtain ⟨name, dims⟩ := kd
      simp only
      by_cases hn : name = some averageLoad
      · subst hn
        cases dims with
        | none =>
          have hu : ¬ Used m := by rintro ⟨ds, hds⟩; rw [hk] at hds; simp at hds
          simp only [ne_eq, not_true_eq_false, if_false, List.filter_cons, hu, decide_false,
            Bool.false_eq_true]
          exact ⟨r, h1, h2, h3⟩
        | some ds =>
          have hu : Used m := ⟨ds, hk⟩
          simp only [ne_eq, not_true_eq_false, if_false, List.filter_cons, hu, decide_true, if_true,
            h1]
          refine ⟨_, rfl, by simp [h2], ?_⟩
          intro i x a hx ha
          cases i with
          | zero =>
            simp at hx ha
            subst hx; subst ha
            exact ⟨ds, hk, rfl, rfl, rfl, readPoints_eq ops _⟩
          | succ i =>
            simp only [List.getElem?_cons_succ] at hx ha
            exact h3 i x a hx ha
      · have hu : ¬ Used m := by
          rintro ⟨ds, hds⟩
          rw [hk] at hds
          simp only [Option.some.injEq, Prod.mk.injEq] at hds
          exact hn hds.1
        simp only [ne_eq, hn, not_false_eq_true, if_true, List.filter_cons, hu, decide_false,
          Bool.false_eq_true, if_false]
        exact ⟨r, h1, h2, h3⟩

/-- C38: a metric without key crashes the command. -/
theorem C38_nil_key (db sqlKey tokKey : Str) : ∀ (ms : List (Metric F)), (∃ m ∈ ms, m.key = none) →
    convertMetrics ops db sqlKey tokKey ms = none
  | [], h => by simp at h
  | m :: ms, h => by
    rw [convertMetrics]
    cases hk : m.key with
    | none => rfl
    | some kd =>
      obtain ⟨name, dims⟩ := kd
      have ih := C38_nil_key db sqlKey tokKey ms (by
        obtain ⟨x, hx, hxk⟩ := h
        rcases List.mem_cons.mp hx with rfl | hx
        · rw [hk] at hxk; cases hxk
        · exact ⟨x, hx, hxk⟩)
      simp only [ih]
      split
      · rfl
      · split <;> rfl

example : (convertMetrics natOps ['d'] ['q'] ['i'] [
    ⟨some (some loadAvgMetricName, some [(['q'], ['S'])]),
      [⟨some ⟨1, .utc⟩, some 0⟩, ⟨some ⟨2, .utc⟩, some 5⟩, ⟨none, some 3⟩, ⟨some ⟨3, .utc⟩, none⟩]⟩,
    ⟨some (some ['x'], some []), []⟩, ⟨some (some loadAvgMetricName, none), []⟩]).map
    (List.map (fun a => (a.sql, a.tokenizedId, a.values.map (fun v => (v.1, v.2.ns))))) =
    some [(['S'], [], [(5, 2)])] := by decide +kernel

/-! ## C57: the command's windows -/

/-- the starts of `n` consecutive half days -/
def halfDays (start : Int) (n : Nat) : List Int := (List.range n).map (fun i : Nat => start + halfDay * (i : Int))

theorem halfDays_succ (start : Int) (n : Nat) :
    halfDays start (n + 1) = start :: halfDays (start + halfDay) n := by
  unfold halfDays
  rw [List.range_succ_eq_map, List.map_cons, List.map_map]
  simp only [Int.ofNat_zero, Int.mul_zero, Int.add_zero, List.cons.injEq, true_and]
  apply List.map_congr_left
  intro i _
  simp only [Function.comp, Nat.succ_eq_add_one, Int.natCast_add, Int.mul_add]
  simp
  omega

/-- C57: if no question fails, both kinds of metrics are asked for once in each window, and all
answers are kept, in order. -/
theorem C57_all {E R : Type} (ask : Nat → Bool → Int → Except E (List R)) :
    ∀ (n i : Nat) (t : Int), (∀ j kind w, ∃ r, ask j kind w = .ok r) →
    ∃ parts : List (List R × List R), parts.length = n ∧
      askWindows ask n i t = (.ok ((parts.map (·.1)).flatten, (parts.map (·.2)).flatten),
        (halfDays t n).flatMap (fun w => [(false, w), (true, w)])) ∧
      ∀ j p, parts[j]? = some p → ask (i + 2 * j) false (t + halfDay * j) = .ok p.1 ∧
        ask (i + 2 * j + 1) true (t + halfDay * j) = .ok p.2
  | 0, i, t, _ => ⟨[], rfl, rfl, by simp⟩
  | n + 1, i, t, h => by
    obtain ⟨a, ha⟩ := h i false t
    obtain ⟨b, hb⟩ := h (i + 1) true t
    obtain ⟨parts, h1, h2, h3⟩ := C57_all ask n (i + 2) (t + halfDay) h
    refine ⟨(a, b) :: parts, by simp [h1], ?_, ?_⟩
    · rw [askWindows]
      simp only [ha, hb, h2, halfDays_succ]
      simp
    · intro j p hp
      cases j with
      | zero => simp at hp; subst hp; simpa using ⟨ha, hb⟩
      | succ j =>
        simp at hp
        have := h3 j p hp
        have e1 : i + 2 + 2 * j = i + 2 * (j + 1) := by omega
        have e2 : t + halfDay + halfDay * (j : Int) = t + halfDay * ((j + 1 : Nat) : Int) := by
          rw [mul_succ_cast]; omega
        rw [e1, e2] at this
        exact this

/-- C57: any failing question makes the whole collection fail with its error. -/
theorem C57_fails {E R : Type} (ask : Nat → Bool → Int → Except E (List R)) :
    ∀ (n i : Nat) (t : Int), ∀ r q, askWindows ask n i t = (.ok r, q) →
      ∀ j < n, (∃ a, ask (i + 2 * j) false (t + halfDay * j) = .ok a) ∧
        ∃ b, ask (i + 2 * j + 1) true (t + halfDay * j) = .ok b
  | 0, _, _, _, _, _, j, hj => absurd hj (by omega)
  | n + 1, i, t, r, q, h, j, hj => by
    rw [askWindows] at h
    cases ha : ask i false t with
    | error e => simp only [ha] at h; simp at h
    | ok a =>
      simp only [ha] at h
      cases hb : ask (i + 1) true t with
      | error e => simp only [hb] at h; simp at h
      | ok b =>
        simp only [hb] at h
        cases hr : askWindows ask n (i + 2) (t + halfDay) with
        | mk x q' =>
          cases x with
          | error e => simp only [hr] at h; simp at h
          | ok ab =>
            cases j with
            | zero => simpa using ⟨⟨a, ha⟩, ⟨b, hb⟩⟩
            | succ j =>
              have := C57_fails ask n (i + 2) (t + halfDay) ab q' hr j (by omega)
              have e1 : i + 2 + 2 * j = i + 2 * (j + 1) := by omega
              have e2 : t + halfDay + halfDay * (j : Int) = t + halfDay * ((j + 1 : Nat) : Int) := by
                rw [mul_succ_cast]; omega
              rw [e1, e2] at this
              exact this

/-- the questions of the command, in order -/
def questions (t : Int) (n : Nat) : List (Bool × Int) :=
  (halfDays t n).flatMap (fun w => [(false, w), (true, w)])

theorem questions_succ (t : Int) (n : Nat) :
    questions t (n + 1) = (false, t) :: (true, t) :: questions (t + halfDay) n := by
  unfold questions
  rw [halfDays_succ]
  rfl

/-- C57: an error is the answer to the first failing question, and nothing is asked after it. -/
theorem C57_first_error {E R : Type} (ask : Nat → Bool → Int → Except E (List R)) :
    ∀ (n i : Nat) (t : Int) (e : E) (q : List (Bool × Int)),
      askWindows ask n i t = (.error e, q) →
      ∃ k, k < 2 * n ∧ q = (questions t n).take (k + 1) ∧
        (∀ kind w, (questions t n)[k]? = some (kind, w) → ask (i + k) kind w = .error e) ∧
        ∀ m < k, ∀ kind w, (questions t n)[m]? = some (kind, w) →
          ∃ r, ask (i + m) kind w = .ok r
  | 0, _, _, _, _, h => by simp [askWindows] at h
  | n + 1, i, t, e, q, h => by
    rw [askWindows] at h
    rw [questions_succ]
    cases ha : ask i false t with
    | error e' =>
      simp only [ha, Prod.mk.injEq, Except.error.injEq] at h
      obtain ⟨rfl, rfl⟩ := h
      refine ⟨0, by omega, by simp, ?_, by omega⟩
      intro kind w hw
      simp at hw
      obtain ⟨rfl, rfl⟩ := hw
      simpa using ha
    | ok a =>
      simp only [ha] at h
      cases hb : ask (i + 1) true t with
      | error e' =>
        simp only [hb, Prod.mk.injEq, Except.error.injEq] at h
        obtain ⟨rfl, rfl⟩ := h
        refine ⟨1, by omega, by simp, ?_, ?_⟩
        · intro kind w hw
          simp at hw
          obtain ⟨rfl, rfl⟩ := hw
          exact hb
        · intro m hm kind w hw
          have : m = 0 := by omega
          subst this
          simp at hw
          obtain ⟨rfl, rfl⟩ := hw
          exact ⟨a, by simpa using ha⟩
      | ok b =>
        simp only [hb] at h
        cases hr : askWindows ask n (i + 2) (t + halfDay) with
        | mk x q' =>
          cases x with
          | ok ab => simp only [hr] at h; simp at h
          | error e' =>
            simp only [hr, Prod.mk.injEq, Except.error.injEq] at h
            obtain ⟨rfl, rfl⟩ := h
            obtain ⟨k, h1, h2, h3, h4⟩ := C57_first_error ask n (i + 2) (t + halfDay) e' q' hr
            refine ⟨k + 2, by omega, by simp [h2], ?_, ?_⟩
            · intro kind w hw
              simp at hw
              have := h3 kind w hw
              rwa [show i + 2 + k = i + (k + 2) from by omega] at this
            · intro m hm kind w hw
              match m, hw with
              | 0, hw =>
                simp at hw
                obtain ⟨rfl, rfl⟩ := hw
                exact ⟨a, by simpa using ha⟩
              | 1, hw =>
                simp at hw
                obtain ⟨rfl, rfl⟩ := hw
                exact ⟨b, hb⟩
              | m + 2, hw =>
                simp at hw
                have := h4 m (by omega) kind w hw
                rwa [show i + 2 + m = i + (m + 2) from by omega] at this

/-- three windows, the fourth question fails -/
example : askWindows (E := Nat) (R := Nat) (fun i _ _ => if i = 3 then .error 7 else .ok [i]) 3 0 0 =
    (.error 7, [(false, 0), (true, 0), (false, halfDay), (true, halfDay)]) := by decide +kernel

/-- C57: the command's 14 windows tile the seven days the report covers. -/
theorem C57_week (start x : Int) (h1 : start ≤ x) (h2 : x < start + 7 * 24 * hour) :
    ∃ w ∈ halfDays start 14, w ≤ x ∧ x < w + halfDay := by
  refine ⟨start + halfDay * (((x - start) / halfDay).toNat : Int), ?_, ?_⟩
  · unfold halfDays
    refine List.mem_map.mpr ⟨((x - start) / halfDay).toNat, ?_, rfl⟩
    rw [List.mem_range]
    simp only [halfDay, hour] at h2 ⊢
    omega
  · simp only [halfDay, hour] at h2 ⊢
    omega

end Verif.Pi
