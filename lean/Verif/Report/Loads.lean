import Verif.Report.Traces
import Verif.Client.Panels
import Verif.Cmd.PerfInsights
/-!
# C93: the page that `gr db dig performance-insights` writes

From the answers of the service over the report (C82), the view models and the file (C86) to the bars of the
charts (`/repo/client/src/App.svelte`, `models/{DigData,PerformanceInsightsData,TimeDbLoad,DbLoad,DbLoadOfSql}.ts`,
`pages/dig/performance_insights/*`).
-/
namespace Verif.Report
open Verif.Lib Verif.Pi

/-! ## Model: the view models -/

section
variable {F : Type} (N : Nums F)

/-- `/repo/html/viewmodel/vm_db_load_of_sql.go` -/
def sqlVal (l : SqlLoad F) : Val :=
  struct [(.sql, .str l.sql), (.loadMax, .num (N.float l.max)), (.loadSum, .num (N.float l.sum)),
    (.tokenizedId, .str l.tokenizedId)]

/-- `/repo/html/viewmodel/vm_db_load.go`: the list starts as an empty slice, not `nil` -/
def dbVal (d : Str × List (SqlLoad F)) : Val :=
  struct [(.name, .str d.1), (.sqls, mapped (d.2.map (sqlVal N)))]

/-- `/repo/html/viewmodel/vm_time_db_load.go`: `UnixMilli`, and a list that starts as an empty slice -/
def hourVal (h : TimeLoad F) : Val :=
  struct [(.timestamp, .num (some (N.int (h.1 / 1000000)))), (.databases, mapped (h.2.map (dbVal N)))]

/-- `/repo/html/build_option.go:51-54,128-135,158-163`; the lists of hours are made by appending
(`/repo/infra/aws/pi_sql_load_avg.go:70`) -/
def loadsVal (r : Cmd.PerfInsights.Report F) : Val :=
  struct [(.digData, struct [(.performanceInsights, struct [
      (.sqlDbLoads, appended (r.raw.map (hourVal N))),
      (.tokenizedSqlDbLoads, appended (r.tokenized.map (hourVal N)))]), (.jaeger, .null)]),
    (.suggestData, .null)]

/-! ## Model: the page -/

/-- how the page reads a float -/
abbrev ReadFloat (F : Type) := Str → Option F

def Js.float (R : ReadFloat F) : Js → Except Crash F
  | .val (.num (some t)) => match R t with
    | some x => .ok x
    | none => .error .typeError
  | _ => .error .typeError

/-- `/repo/client/src/models/DbLoadOfSql.ts`, as the charts read it -/
def readSqlLoad (R : ReadFloat F) (x : Js) : Except Crash (Client.Load.SqlLoad F) := do
  let sql ← (← x.get .sql).string
  let max ← (← x.get .loadMax).float R
  let sum ← (← x.get .loadSum).float R
  let id ← (← x.get .tokenizedId).string
  return ⟨sql, max, sum, id⟩

/-- `/repo/client/src/models/DbLoad.ts` -/
def readDbLoad (R : ReadFloat F) (x : Js) : Except Crash (Client.Load.DbLoad F) := do
  let name ← (← x.get .name).string
  let sqls ← (← (← x.get .sqls).items).mapM (readSqlLoad R)
  return ⟨name, sqls⟩

/-- `/repo/client/src/models/TimeDbLoad.ts` -/
def readHour (R : ReadFloat F) (x : Js) : Except Crash (Client.Load.Hour F) := do
  let t ← (← x.get .timestamp).integer N
  let dbs ← (← (← x.get .databases).items).mapM (readDbLoad R)
  return ⟨t, dbs⟩

/-- the charts loop over the hours they are given (`DbLoadRankingChart.ts:81`, `LoadPropChartSereies.ts:22`);
`null` throws -/
def readHours (R : ReadFloat F) (x : Js) : Except Crash (List (Client.Load.Hour F)) := do
  (← x.items).mapM (readHour N R)

/-- `/repo/client/src/models/DigData.ts:13-19` -/
def loadsPart (x : Js) : Except Crash Js := do
  let p ← x.get .performanceInsights
  return if p.truthy then p else .undef

/-- `/repo/client/src/stores/gr_param.ts` and `/repo/client/src/App.svelte:13-40,66-70`: the data of the page of
loads; with suggestions another page is shown, which is not followed here -/
def loadsData (param : Val) : Except Crash Js := do
  let _ ← (Js.val param).get .dev
  let _ ← (Js.val param).get .suggestData
  let dd ← (Js.val param).get .digData
  if dd.truthy then loadsPart dd else .error .typeError

/-- opening the file: the tab "Plain" of `DigPerformanceInsightsPage.svelte:21-34` -/
def openPlain (R : ReadFloat F) (page : Str) : Except Crash (List (Client.Load.Hour F)) :=
  match browserParam page with
  | some v => do
    let d ← loadsData v
    readHours N R (← d.get .sqlDbLoads)
  | none => .error .typeError

/-- choosing the tab "Tokenized", `DigPerformanceInsightsPage.svelte:36-54`: tokenized and plain hours -/
def openTokenized (R : ReadFloat F) (page : Str) :
    Except Crash (List (Client.Load.Hour F) × List (Client.Load.Hour F)) :=
  match browserParam page with
  | some v => do
    let d ← loadsData v
    let tok ← readHours N R (← d.get .tokenizedSqlDbLoads)
    let raw ← readHours N R (← d.get .sqlDbLoads)
    return (tok, raw)
  | none => .error .typeError

/-! ## Specification -/

/-- numbers: what is written for a float that JSON has is read back as this float (`strconv` writes the shortest
text that does this, JavaScript reads the nearest number) -/
structure Loads.Ok (R : ReadFloat F) : Prop where
  int : ∀ n, N.int n ≠ [] ∧ ∀ c ∈ N.int n, isNumChar c = true
  read : ∀ n, Exact n → N.readInt (N.int n) = some n
  float : ∀ x t, N.float x = some t → (t ≠ [] ∧ ∀ c ∈ t, isNumChar c = true) ∧ R t = some x

/-- a float that JSON has: not `NaN` and not infinite -/
def Finite (x : F) : Prop := N.float x ≠ none

/-- all floats of the report are -/
def FiniteReport (r : Cmd.PerfInsights.Report F) : Prop :=
  ∀ h ∈ r.raw ++ r.tokenized, ∀ d ∈ h.2, ∀ l ∈ d.2, Finite N l.max ∧ Finite N l.sum

end

/-- the value is the largest one measured for the statement in the hour from `t` -/
def Largest {F : Type} [LinearOrder F] (ms : List (Sample F)) (t : Int) (db sql : Str) (m : F) : Prop :=
  m ∈ (ofHour ms t db sql).map (·.value) ∧ ∀ v ∈ (ofHour ms t db sql).map (·.value), v ≤ m

/-! ## Proofs: reading back -/

section
variable {F : Type} {N : Nums F} {R : ReadFloat F}

theorem sound_struct {fs : List (Key × Val)} (hn : (fs.map (·.1)).Nodup) (h : ∀ p ∈ fs, Sound p.2) :
    Sound (struct fs) := by
  have e : (fs.map fun p => (p.1.str, p.2)).map (·.1) = (fs.map (·.1)).map Key.str := by simp
  rw [struct, Sound, e, soundF_iff]
  refine ⟨hn.map (fun a b => str_inj), ?_, ?_⟩
  · rw [List.mem_map]
    rintro ⟨k, -, hk⟩
    exact str_ne_proto k hk
  · intro p hp
    obtain ⟨q, hq, rfl⟩ := List.mem_map.1 hp
    exact h q hq

theorem sound_mapped {α : Type} (f : α → Val) (l : List α) (h : ∀ x ∈ l, Sound (f x)) : Sound (mapped (l.map f)) := by
  rw [mapped, Sound, soundL_iff]
  intro v hv
  obtain ⟨x, hx, rfl⟩ := List.mem_map.1 hv
  exact h x hx

theorem sound_appended {α : Type} (f : α → Val) (l : List α) (h : ∀ x ∈ l, Sound (f x)) : Sound (appended (l.map f)) := by
  unfold appended
  split
  · simp [Sound]
  · exact sound_mapped f l h

theorem sound_float (hN : Loads.Ok N R) (x : F) : Sound (.num (N.float x)) := by
  rw [Sound]
  intro t ht
  exact (hN.float x t ht).1

theorem sound_sql (hN : Loads.Ok N R) (l : SqlLoad F) : Sound (sqlVal N l) := by
  refine sound_struct (by simp) ?_
  simp only [List.mem_cons, List.not_mem_nil, or_false, forall_eq_or_imp, forall_eq]
  exact ⟨(good_str _).1, sound_float hN _, sound_float hN _, (good_str _).1⟩

theorem sound_hour (hN : Loads.Ok N R) (h : TimeLoad F) : Sound (hourVal N h) := by
  refine sound_struct (by simp) ?_
  simp only [List.mem_cons, List.not_mem_nil, or_false, forall_eq_or_imp, forall_eq]
  refine ⟨?_, sound_mapped _ _ fun d _ => ?_⟩
  · rw [Sound]
    intro t ht
    cases ht
    exact hN.int _
  · refine sound_struct (by simp) ?_
    simp only [List.mem_cons, List.not_mem_nil, or_false, forall_eq_or_imp, forall_eq]
    exact ⟨(good_str _).1, sound_mapped _ _ fun l _ => sound_sql hN l⟩

theorem sound_loads (hN : Loads.Ok N R) (r : Cmd.PerfInsights.Report F) : Sound (loadsVal N r) := by
  refine sound_struct (by simp) ?_
  simp only [List.mem_cons, List.not_mem_nil, or_false, forall_eq_or_imp, forall_eq]
  refine ⟨sound_struct (by simp) ?_, good_null.1⟩
  simp only [List.mem_cons, List.not_mem_nil, or_false, forall_eq_or_imp, forall_eq]
  refine ⟨sound_struct (by simp) ?_, good_null.1⟩
  simp only [List.mem_cons, List.not_mem_nil, or_false, forall_eq_or_imp, forall_eq]
  exact ⟨sound_appended _ _ fun h _ => sound_hour hN h, sound_appended _ _ fun h _ => sound_hour hN h⟩

theorem finite_struct (fs : List (Key × Val)) : finite (struct fs) = true ↔ ∀ p ∈ fs, finite p.2 = true := by
  rw [struct, finite, finiteF_iff]
  simp only [List.mem_map, forall_exists_index, and_imp, forall_apply_eq_imp_iff₂]

theorem finite_mapped {α : Type} (f : α → Val) (l : List α) :
    finite (mapped (l.map f)) = true ↔ ∀ x ∈ l, finite (f x) = true := by
  rw [mapped, finite, finiteL_iff]
  simp

theorem finite_appended {α : Type} (f : α → Val) (l : List α) :
    finite (appended (l.map f)) = true ↔ ∀ x ∈ l, finite (f x) = true := by
  unfold appended
  split
  · next h =>
    have : l = [] := by simpa using h
    subst this
    simp [finite]
  · exact finite_mapped f l

theorem finite_float (x : F) : finite (.num (N.float x)) = true ↔ Finite N x := by
  unfold Finite
  cases N.float x <;> simp [finite]

theorem finite_loads (r : Cmd.PerfInsights.Report F) : finite (loadsVal N r) = true ↔ FiniteReport N r := by
  have hs : ∀ s : Str, finite (.str s) = true := fun _ => rfl
  have hi : ∀ s : Str, finite (.num (some s)) = true := fun _ => rfl
  have hn : finite .null = true := rfl
  unfold loadsVal FiniteReport
  simp only [finite_struct, List.mem_cons, List.not_mem_nil, or_false, forall_eq_or_imp, forall_eq, finite_appended,
    hourVal, finite_mapped, dbVal, sqlVal, finite_float, hs, hi, hn, true_and, and_true, List.mem_append]
  constructor
  · rintro ⟨h1, h2⟩ h (hh | hh)
    · exact h1 h hh
    · exact h2 h hh
  · intro h
    exact ⟨fun x hx => h x (.inl hx), fun x hx => h x (.inr hx)⟩

theorem float_back (hN : Loads.Ok N R) (x : F) (h : Finite N x) : (Js.val (.num (N.float x))).float R = .ok x := by
  unfold Finite at h
  cases e : N.float x with
  | none => exact absurd e h
  | some t => simp only [Js.float, (hN.float x t e).2]

theorem read_sql_back (hN : Loads.Ok N R) (l : SqlLoad F) (h : Finite N l.max ∧ Finite N l.sum) :
    readSqlLoad R (.val (sqlVal N l)) = .ok ⟨l.sql, l.max, l.sum, l.tokenizedId⟩ := by
  unfold readSqlLoad sqlVal
  simp only [get_struct, mapGet, bind, Except.bind, reduceCtorEq, if_true, if_false, Js.string, float_back hN _ h.1,
    float_back hN _ h.2]
  rfl

theorem read_db_back (hN : Loads.Ok N R) (d : Str × List (SqlLoad F))
    (h : ∀ l ∈ d.2, Finite N l.max ∧ Finite N l.sum) :
    readDbLoad R (.val (dbVal N d)) = .ok ⟨d.1, d.2.map fun s => ⟨s.sql, s.max, s.sum, s.tokenizedId⟩⟩ := by
  have h1 := mapM_back' (sqlVal N) (fun s => (⟨s.sql, s.max, s.sum, s.tokenizedId⟩ : Client.Load.SqlLoad F))
    (readSqlLoad R) d.2 fun l hl => read_sql_back hN l (h l hl)
  unfold readDbLoad dbVal
  simp only [get_struct, mapGet, bind, Except.bind, reduceCtorEq, if_true, if_false, Js.string, mapped, items_arr, h1]
  rfl

theorem read_hour_back (hN : Loads.Ok N R) (x : TimeLoad F) (ht : Exact (x.1 / 1000000))
    (h : ∀ d ∈ x.2, ∀ l ∈ d.2, Finite N l.max ∧ Finite N l.sum) :
    readHour N R (.val (hourVal N x)) = .ok (Cmd.PerfInsights.toPage x) := by
  have h1 := mapM_back' (dbVal N) (fun d : Str × List (SqlLoad F) =>
      (⟨d.1, d.2.map fun s => ⟨s.sql, s.max, s.sum, s.tokenizedId⟩⟩ : Client.Load.DbLoad F))
    (readDbLoad R) x.2 fun d hd => read_db_back hN d (h d hd)
  unfold readHour hourVal
  simp only [get_struct, mapGet, bind, Except.bind, reduceCtorEq, if_true, if_false, Js.integer, hN.read _ ht, mapped,
    items_arr, h1]
  rfl

theorem appended_ne {vs : List Val} (h : vs ≠ []) : appended vs = .arr vs := by
  unfold appended
  rw [if_neg (by simpa using h)]

theorem read_hours_back (hN : Loads.Ok N R) (l : List (TimeLoad F)) (hne : l ≠ [])
    (ht : ∀ x ∈ l, Exact (x.1 / 1000000)) (h : ∀ x ∈ l, ∀ d ∈ x.2, ∀ s ∈ d.2, Finite N s.max ∧ Finite N s.sum) :
    readHours N R (.val (appended (l.map (hourVal N)))) = .ok (l.map Cmd.PerfInsights.toPage) := by
  rw [appended_ne (by simpa using hne)]
  exact mapM_back' (hourVal N) Cmd.PerfInsights.toPage (readHour N R) l fun x hx => read_hour_back hN x (ht x hx) (h x hx)

theorem loads_data (r : Cmd.PerfInsights.Report F) : loadsData (loadsVal N r) = .ok (.val (struct [
      (.sqlDbLoads, appended (r.raw.map (hourVal N))),
      (.tokenizedSqlDbLoads, appended (r.tokenized.map (hourVal N)))])) := by
  unfold loadsData loadsVal
  rw [get_struct, get_struct, get_struct]
  simp only [mapGet, bind, Except.bind, reduceCtorEq, if_true, if_false, struct_truthy, loadsPart, get_struct, pure,
    Except.pure]

theorem loads_opened (hN : Loads.Ok N R) (r : Cmd.PerfInsights.Report F) (style script : Str) (hf : FiniteReport N r)
    (ht : ∀ x ∈ r.raw ++ r.tokenized, Exact (x.1 / 1000000)) (h1 : r.raw ≠ []) (h2 : r.tokenized ≠ []) :
    openPlain N R (pageText (loadsVal N r) style script) = .ok (r.raw.map Cmd.PerfInsights.toPage) ∧
    openTokenized N R (pageText (loadsVal N r) style script) =
      .ok (r.tokenized.map Cmd.PerfInsights.toPage, r.raw.map Cmd.PerfInsights.toPage) := by
  have hb := C86_reads_back_partial _ (sound_loads hN r) ((finite_loads r).2 hf) style script
  have e1 := read_hours_back hN r.raw h1 (fun x hx => ht x (List.mem_append_left _ hx))
    fun x hx => hf x (List.mem_append_left _ hx)
  have e2 := read_hours_back hN r.tokenized h2 (fun x hx => ht x (List.mem_append_right _ hx))
    fun x hx => hf x (List.mem_append_right _ hx)
  constructor
  · unfold openPlain
    simp only [hb, loads_data, get_struct, mapGet, bind, Except.bind, reduceCtorEq, if_true, if_false, e1]
  · unfold openTokenized
    simp only [hb, loads_data, get_struct, mapGet, bind, Except.bind, reduceCtorEq, if_true, if_false, e1, e2]
    rfl

theorem loads_blank (hN : Loads.Ok N R) (r : Cmd.PerfInsights.Report F) (style script : Str)
    (hf : ¬ FiniteReport N r) : openPlain N R (pageText (loadsVal N r) style script) = .error .typeError := by
  have h : finite (loadsVal N r) = false := by
    rw [← Bool.not_eq_true, finite_loads]
    exact hf
  unfold openPlain
  rw [C86_unencodable _ (sound_num _ (sound_loads hN r)) h]
  rfl
end

/-! ## Proofs: hours and bars -/

section
open Client.Load Client.Panels Cmd.PerfInsights
variable {F : Type} {N : Nums F} {R : ReadFloat F}

theorem consecutive_ge (step : Int) (hs : 0 ≤ step) : ∀ (l : List Int) (t : Int), Consecutive step t l → ∀ x ∈ l, t ≤ x
  | [], _, _, x, hx => by cases hx
  | a :: l, t, h, x, hx => by
    obtain ⟨rfl, h⟩ := h
    rcases List.mem_cons.mp hx with rfl | hx
    · exact Int.le_refl _
    · have := consecutive_ge step hs l _ h x hx
      omega

/-- the times of hours that show something of a week in the years 0 to 9999 -/
theorem hours_exact {ops : LoadOps F} {start : Int} {ms : List (Sample F)} {r : List (TimeLoad F)}
    (h : Shows ops start (start + sevenDays) ms r) (hy : start.natAbs ≤ 4 * 10 ^ 20) : ∀ x ∈ r, Exact (x.1 / 1000000) := by
  intro x hx
  have h1 := consecutive_ge hour (by decide) _ _ h.1 x.1 (List.mem_map_of_mem hx)
  have h2 := h.2.1 x hx
  unfold Exact
  unfold sevenDays at h2
  have : hour = 3600000000000 := by decide
  rw [this] at h1
  omega

theorem hours_ne {ops : LoadOps F} {start : Int} {ms : List (Sample F)} {r : List (TimeLoad F)}
    (h : Shows ops start (start + sevenDays) ms r) : r ≠ [] := by
  obtain ⟨e, he, -⟩ := h.2.2.1 start (Int.le_refl _) (by unfold sevenDays; omega)
  rintro rfl
  cases he

theorem largest_of [LinearOrder F] {ops : LoadOps F} (hlt : ∀ a b, ops.lt a b = decide (a < b)) {ms : List (Sample F)}
    {t : Int} {db sql : Str} {e : Pi.SqlLoad F} (h : Reports ops (ofHour ms t db sql) e) : Largest ms t db sql e.max := by
  obtain ⟨s, rest, -, -, -, h1, h2⟩ := h
  refine ⟨h1, fun v hv => ?_⟩
  have := h2 v hv
  rw [hlt, decide_eq_false_iff_not] at this
  exact not_lt.mp this

/-- a point of a timeline, from the hours -/
theorem bars_from [LinearOrder F] (times100 : F → F) (threshold : F) (hours : List (Hour F)) (targets : List Str)
    (hd : ∀ h ∈ hours, ((hourPoints targets threshold (fun h d l =>
      some (⟨d.name, l.sql, l.tokenizedId, times100 l.loadMax, h.date⟩ : Bar F)) h).map (·.1)).Nodup) (row : List (Option (Bar F)))
    (hrow : row ∈ timelineBars times100 threshold hours targets) :
    row.length = hours.length ∧ ∃ key : Client.Load.Key, ∀ (j : Nat) (b : Bar F), row[j]? = some (some b) → ∃ h d l, hours[j]? = some h ∧
      d ∈ h.databases ∧ l ∈ d.sqls ∧ d.name ∈ targets ∧ ¬ l.loadMax < threshold ∧ (b.db, b.sql) = key ∧
      b = ⟨d.name, l.sql, l.tokenizedId, times100 l.loadMax, h.date⟩ := by
  obtain ⟨⟨key, data⟩, hk, rfl⟩ := List.mem_map.mp hrow
  obtain ⟨l1, f, first, -, -, l4⟩ := (C47_series_partial _ targets threshold _ hours hd).2.2 key data hk
  refine ⟨l1, key, fun j b hj => ?_⟩
  have hjl : j < hours.length := by
    rw [← l1]
    exact (List.getElem?_eq_some_iff.mp hj).1
  have hh : hours[j]? = some hours[j] := List.getElem?_eq_getElem hjl
  by_cases hmem : key ∈ (hourPoints targets threshold (fun h d l =>
      some (⟨d.name, l.sql, l.tokenizedId, times100 l.loadMax, h.date⟩ : Bar F)) hours[j]).map (·.1)
  · obtain ⟨⟨k', p⟩, hp, hkk⟩ := List.mem_map.mp hmem
    have hkk : k' = key := hkk
    subst hkk
    have := (l4 j hours[j] hh).1 p hp
    rw [hj] at this
    unfold hourPoints at hp
    obtain ⟨d, hdm, hp⟩ := List.mem_flatMap.mp hp
    obtain ⟨l, hl, hle⟩ := List.mem_map.mp hp
    rw [List.mem_filter] at hdm hl
    simp only [Prod.mk.injEq] at hle
    have hb : b = ⟨d.name, l.sql, l.tokenizedId, times100 l.loadMax, hours[j].date⟩ := by
      have h1 := Option.some.inj this
      rw [← hle.2] at h1
      exact Option.some.inj h1
    refine ⟨hours[j], d, l, hh, hdm.1, hl.1, by simpa using hdm.2, by simpa using hl.2, ?_, hb⟩
    rw [hb, ← hle.1]
  · have := (l4 j hours[j] hh).2 hmem
    rw [hj] at this
    cases this

theorem bars_all [LinearOrder F] (times100 : F → F) (threshold : F) (hours : List (Hour F)) (targets : List Str)
    (hd : ∀ h ∈ hours, ((hourPoints targets threshold (fun h d l =>
      some (⟨d.name, l.sql, l.tokenizedId, times100 l.loadMax, h.date⟩ : Bar F)) h).map (·.1)).Nodup)
    (h : Hour F) (hh : h ∈ hours) (d : DbLoad F) (hdm : d ∈ h.databases) (l : Client.Load.SqlLoad F) (hl : l ∈ d.sqls)
    (ht : d.name ∈ targets) (hth : ¬ l.loadMax < threshold) :
    ∃ row ∈ timelineBars times100 threshold hours targets,
      some (⟨d.name, l.sql, l.tokenizedId, times100 l.loadMax, h.date⟩ : Bar F) ∈ row := by
  obtain ⟨-, c2, c3⟩ := C47_series_partial (fun _ => (none : Option (Bar F))) targets threshold _ hours hd
  have hp : ((d.name, l.sql), some (⟨d.name, l.sql, l.tokenizedId, times100 l.loadMax, h.date⟩ : Bar F)) ∈
      hourPoints targets threshold (fun h d l =>
        some (⟨d.name, l.sql, l.tokenizedId, times100 l.loadMax, h.date⟩ : Bar F)) h := by
    unfold hourPoints
    rw [List.mem_flatMap]
    refine ⟨d, List.mem_filter.mpr ⟨hdm, by simpa using ht⟩, List.mem_map.mpr ⟨l, List.mem_filter.mpr ⟨hl, by simpa using hth⟩, rfl⟩⟩
  obtain ⟨⟨key, data⟩, hk, hkk⟩ := List.mem_map.mp ((c2 (d.name, l.sql)).mpr ⟨h, hh, List.mem_map.mpr ⟨_, hp, rfl⟩⟩)
  have hkk : key = (d.name, l.sql) := hkk
  subst hkk
  obtain ⟨-, f, first, -, -, l4⟩ := c3 _ data hk
  obtain ⟨j, hj⟩ := List.getElem?_of_mem hh
  refine ⟨data, List.mem_map.mpr ⟨_, hk, rfl⟩, ?_⟩
  exact List.mem_of_getElem? ((l4 j h hj).1 _ hp)

/-! ## C93 -/

/-- the bars of a timeline of the week from `start`: every row is one statement of the databases checked, with one
place per hour; a bar shows the largest load of the statement in its hour, if it reaches the threshold; and every
measurement that reaches it is in the hour of a bar of its statement -/
structure Timeline [LinearOrder F] (times100 : F → F) (threshold : F) (start : Int) (checked : List Str)
    (ms : List (Sample F)) (rows : List (List (Option (Bar F)))) : Prop where
  bar : ∀ row ∈ rows, ∃ key : Client.Load.Key, ∀ (j : Nat) (b : Bar F), row[j]? = some (some b) →
    (b.db, b.sql) = key ∧ b.db ∈ checked ∧ b.date * 1000000 = start / hour * hour + hour * j ∧
    ∃ m, Largest ms (b.date * 1000000) b.db b.sql m ∧ b.percent = times100 m ∧ threshold ≤ m
  all : ∀ s ∈ ms, start ≤ s.time.ns → s.time.ns ≤ start + sevenDays → s.db ∈ checked → threshold ≤ s.value →
    ∃ row ∈ rows, ∃ b, some b ∈ row ∧ b.db = s.db ∧ b.sql = s.sql ∧ b.date * 1000000 ≤ s.time.ns ∧
      s.time.ns < b.date * 1000000 + hour

theorem consecutive_get (step : Int) : ∀ (l : List Int) (t : Int), Consecutive step t l → ∀ (j : Nat) (x : Int),
    l[j]? = some x → x = t + step * j
  | [], _, _, j, x, hx => by simp at hx
  | a :: l, t, h, 0, x, hx => by
    obtain ⟨rfl, -⟩ := h
    simp only [List.getElem?_cons_zero, Option.some.injEq] at hx
    subst hx
    simp
  | a :: l, t, h, j + 1, x, hx => by
    have := consecutive_get step l _ h.2 j x (by simpa using hx)
    rw [this]
    push_cast
    rw [Int.mul_add]
    omega

theorem timeline_of [LinearOrder F] {ops : LoadOps F} (hlt : ∀ a b, ops.lt a b = decide (a < b)) (times100 : F → F)
    (threshold : F) (start : Int) (checked : List Str) (ms : List (Sample F)) (r : List (TimeLoad F))
    (h : Shows ops start (start + sevenDays) ms r) :
    Timeline times100 threshold start checked ms (timelineBars times100 threshold (r.map toPage) checked) := by
  obtain ⟨hd, hdate, -, -⟩ := C82_chart ops start (start + sevenDays) ms r h (fun _ => (none : Option (Bar F))) checked threshold
    (fun h d l => some (⟨d.name, l.sql, l.tokenizedId, times100 l.loadMax, h.date⟩ : Bar F))
  have h' := h
  obtain ⟨hc, -, -, h3, h4⟩ := h'
  constructor
  · intro row hrow
    obtain ⟨-, key, hkey⟩ := bars_from times100 threshold (r.map toPage) checked hd row hrow
    refine ⟨key, fun j b hj => ?_⟩
    obtain ⟨x, d, l, hx, hdm, hl, hdt, hth, hbk, hb⟩ := hkey j b hj
    rw [List.getElem?_map] at hx
    cases hrj : r[j]? with
    | none => rw [hrj] at hx; cases hx
    | some y =>
      rw [hrj] at hx
      cases hx
      obtain ⟨t, dbs⟩ := y
      have hm : (t, dbs) ∈ r := List.mem_of_getElem? hrj
      obtain ⟨⟨name, sqls⟩, hdb, rfl⟩ := List.mem_map.mp hdm
      obtain ⟨e, he, rfl⟩ := List.mem_map.mp hl
      have hdt' := hdate (t, dbs) hm
      have hrep := ((h4 t dbs hm).2 name sqls hdb).2.2 e he
      subst hb
      refine ⟨hbk, hdt, ?_, e.max, ?_, rfl, not_lt.mp hth⟩
      · rw [hdt']
        exact consecutive_get hour _ _ hc j t (by rw [List.getElem?_map, hrj]; rfl)
      · show Largest ms ((toPage (t, dbs)).date * 1000000) name e.sql e.max
        rw [hdt']
        exact largest_of hlt hrep
  · intro s hs hs1 hs2 hck hth
    obtain ⟨⟨t, dbs⟩, he, he1, he2, sqls, l, hdb, hl, hls⟩ := h3 s hs hs1 hs2
    have hrep := ((h4 t dbs he).2 s.db sqls hdb).2.2 l hl
    have hlarge := (largest_of hlt hrep).2 s.value (List.mem_map.mpr ⟨s, by
      unfold ofHour
      rw [List.mem_filter]
      exact ⟨hs, by simp [he1, he2, hls]⟩, rfl⟩)
    obtain ⟨row, hrow, hb⟩ := bars_all times100 threshold (r.map toPage) checked hd (toPage (t, dbs))
      (List.mem_map_of_mem he) ⟨s.db, sqls.map fun s => ⟨s.sql, s.max, s.sum, s.tokenizedId⟩⟩
      (List.mem_map.mpr ⟨(s.db, sqls), hdb, rfl⟩) ⟨l.sql, l.max, l.sum, l.tokenizedId⟩ (List.mem_map.mpr ⟨l, hl, rfl⟩)
      hck (not_lt.mpr (le_trans hth hlarge))
    refine ⟨row, hrow, _, hb, rfl, hls, ?_, ?_⟩
    · have := hdate (t, dbs) he
      show (toPage (t, dbs)).date * 1000000 ≤ _
      rw [this]
      exact he1
    · have := hdate (t, dbs) he
      show _ < (toPage (t, dbs)).date * 1000000 + hour
      rw [this]
      exact he2

theorem laws_of [LinearOrder F] {ops : LoadOps F} (hlt : ∀ a b, ops.lt a b = decide (a < b)) : LoadLaws ops where
  asymm a b h := by
    rw [hlt, decide_eq_true_eq] at h
    rw [hlt, decide_eq_false_iff_not]
    exact not_lt.mpr (le_of_lt h)
  negTrans a b c h1 h2 := by
    rw [hlt, decide_eq_false_iff_not] at h1 h2 ⊢
    exact not_lt.mpr (le_trans (not_lt.mp h1) (not_lt.mp h2))

/-- C93 (partial): opening the file of a run of `dig performance-insights` shows, on both tabs, whatever databases
are checked, the timelines of the loads measured in the week asked for: one row per statement, one place per hour, a
bar with the largest load of the hour.
Missing: a load that is not finite (`C93_blank`); a start whose zone is off by a part of an hour (C37). -/
theorem C93_timelines_partial [LinearOrder F] {E : Type} {ops : LoadOps F} (hlt : ∀ a b, ops.lt a b = decide (a < b))
    (hN : Loads.Ok N R) (w : World E F) (o : Options) (res : Except (Err E) Unit) (effs : List (Effect F)) (path : Str)
    (r : Cmd.PerfInsights.Report F) (h : run ops w o = some (res, effs)) (hr : .html path r ∈ effs) (hf : FiniteReport N r)
    (style script : Str) :
    ∃ is marker dbs start, w.describe [engine] none = .ok (is, marker) ∧ Listed is dbs ∧ Begins w o start ∧
      ∀ k, start.zone.offset = k * hour → start.ns.natAbs ≤ 4 * 10 ^ 20 →
        (∀ tok, ∀ s ∈ measurements ops w start tok dbs, s.time.zone = .utc) →
        ∃ plain tokenized, openPlain N R (pageText (loadsVal N r) style script) = .ok plain ∧
          openTokenized N R (pageText (loadsVal N r) style script) = .ok (tokenized, plain) ∧
          ∀ (times100 : F → F) (threshold : F) (checked : List Str),
            Timeline times100 threshold start.ns checked (measurements ops w start false dbs)
              (timelineBars times100 threshold plain checked) ∧
            Timeline times100 threshold start.ns checked (measurements ops w start true dbs)
              (timelineBars times100 threshold tokenized checked) := by
  obtain ⟨is, marker, dbs, start, h1, h2, h3, -, -, -, -, h4⟩ := C82_report ops w o (laws_of hlt) res effs path r h hr
  refine ⟨is, marker, dbs, start, h1, h2, h3, fun k hk hy hutc => ?_⟩
  have s1 := (h4 k hk).1 (hutc false)
  have s2 := (h4 k hk).2 (hutc true)
  obtain ⟨o1, o2⟩ := loads_opened hN r style script hf (by
    intro x hx
    rcases List.mem_append.mp hx with hx | hx
    · exact hours_exact s1 hy x hx
    · exact hours_exact s2 hy x hx) (hours_ne s1) (hours_ne s2)
  exact ⟨_, _, o1, o2, fun times100 threshold checked =>
    ⟨timeline_of hlt times100 threshold start.ns checked _ _ s1, timeline_of hlt times100 threshold start.ns checked _ _ s2⟩⟩

theorem fold_infinite {ops : LoadOps F} (ha : ∀ a b, ¬ Finite N a ∨ ¬ Finite N b → ¬ Finite N (ops.add a b)) :
    ∀ (l : List F) (a : F), (¬ Finite N a ∨ ∃ x ∈ l, ¬ Finite N x) → ¬ Finite N (l.foldl ops.add a)
  | [], a, h => by
    rcases h with h | ⟨x, hx, -⟩
    · exact h
    · cases hx
  | b :: l, a, h => by
    rw [List.foldl_cons]
    refine fold_infinite ha l _ ?_
    rcases h with h | ⟨x, hx, hxf⟩
    · exact .inl (ha a b (.inl h))
    · rcases List.mem_cons.mp hx with rfl | hx
      · exact .inl (ha a x (.inr hxf))
      · exact .inr ⟨x, hx, hxf⟩

/-- C93, negation: if a single load measured in the week is infinite, the command still succeeds, but the file shows
nothing at all. -/
theorem C93_blank {E : Type} {ops : LoadOps F} (hl : LoadLaws ops) (hN : Loads.Ok N R)
    (ha : ∀ a b, ¬ Finite N a ∨ ¬ Finite N b → ¬ Finite N (ops.add a b))
    (w : World E F) (o : Options) (res : Except (Err E) Unit) (effs : List (Effect F)) (path : Str)
    (r : Cmd.PerfInsights.Report F) (h : run ops w o = some (res, effs)) (hr : .html path r ∈ effs)
    (style script : Str) :
    res = .ok () ∧ ∃ is marker dbs start, w.describe [engine] none = .ok (is, marker) ∧ Listed is dbs ∧ Begins w o start ∧
      ∀ k, start.zone.offset = k * hour → (∀ tok, ∀ s ∈ measurements ops w start tok dbs, s.time.zone = .utc) →
        (∃ tok, ∃ s ∈ measurements ops w start tok dbs, start.ns ≤ s.time.ns ∧ s.time.ns ≤ start.ns + sevenDays ∧
          ¬ Finite N s.value) →
        openPlain N R (pageText (loadsVal N r) style script) = .error .typeError := by
  obtain ⟨is, marker, dbs, start, h1, h2, h3, hres, -, -, -, h4⟩ := C82_report ops w o hl res effs path r h hr
  refine ⟨hres, is, marker, dbs, start, h1, h2, h3, fun k hk hutc => ?_⟩
  rintro ⟨tok, s, hs, hs1, hs2, hinf⟩
  have hsh : ∃ l, (l = r.raw ∨ l = r.tokenized) ∧ Shows ops start.ns (start.ns + sevenDays) (measurements ops w start tok dbs) l := by
    cases tok with
    | false => exact ⟨_, .inl rfl, (h4 k hk).1 (hutc false)⟩
    | true => exact ⟨_, .inr rfl, (h4 k hk).2 (hutc true)⟩
  obtain ⟨hours, hl', -, -, -, h5, h6⟩ := hsh
  obtain ⟨⟨t, ds⟩, he, he1, he2, sqls, l, hdb, hlm, hls⟩ := h5 s hs hs1 hs2
  obtain ⟨s0, rest, e0, -, esum, -⟩ := ((h6 t ds he).2 s.db sqls hdb).2.2 l hlm
  have hmem : s ∈ s0 :: rest := by
    rw [← e0]
    unfold ofHour
    rw [List.mem_filter]
    exact ⟨hs, by simp [he1, he2, hls]⟩
  have hsum : ¬ Finite N l.sum := by
    rw [esum]
    refine fold_infinite ha _ _ ?_
    rcases List.mem_cons.mp hmem with rfl | hmem
    · exact .inl hinf
    · exact .inr ⟨s.value, List.mem_map_of_mem hmem, hinf⟩
  refine loads_blank hN r style script fun hfin => ?_
  refine hsum (hfin (t, ds) ?_ (s.db, sqls) hdb l hlm).2
  rcases hl' with rfl | rfl
  · exact List.mem_append_left _ he
  · exact List.mem_append_right _ he

/-! ## Cases -/

/-- numbers up to 8; whatever is more is taken for infinite -/
def exFewNums : Nums Nat := { exNums with float := fun x => if x < 9 then some (dec x) else none }
def exRead : ReadFloat Nat := fun t => some (readDigits t.reverse)

theorem exNums_loads : Loads.Ok exNums exRead where
  int := exNums_ok.int
  read := exNums_ok.read
  float x t h := by
    obtain ⟨t', h1, h2⟩ := exNums_ok.float x
    rw [h] at h1
    cases h1
    refine ⟨h2, ?_⟩
    cases h
    rw [exRead, readDigits_dec]

theorem exFewNums_loads : Loads.Ok exFewNums exRead where
  int := exNums_ok.int
  read := exNums_ok.read
  float x t h := by
    have h : (if x < 9 then some (dec x) else none) = some t := h
    split at h
    · exact exNums_loads.float x t h
    · cases h

/-- the run of `Cmd.PerfInsights.exWorld` writes a page -/
theorem ex_run : ∃ effs r, run natOps Cmd.PerfInsights.exWorld ⟨[], ['o']⟩ = some (.ok (), effs) ∧ .html ['o'] r ∈ effs := by
  have h : (match run natOps Cmd.PerfInsights.exWorld ⟨[], ['o']⟩ with
      | some (.ok (), effs) => effs.any fun e => match e with
        | .html p _ => decide (p = ['o'])
        | _ => false
      | _ => false) = true := by decide +kernel
  split at h
  · rename_i effs he
    rw [List.any_eq_true] at h
    obtain ⟨e, h1, h2⟩ := h
    match e, h1, h2 with
    | .html p r, h1, h2 =>
      have : p = ['o'] := by simpa using h2
      subst this
      exact ⟨effs, r, he, h1⟩
    | .describe _, _, h2 => cases h2
    | .ask _, _, h2 => cases h2
  · cases h

/-- the start and the measurements of this run, as the theorems want them -/
theorem ex_measured (tok : Bool) (is : List Instance) (marker : Option Str) (dbs : List Db) (start : Time)
    (h1 : Cmd.PerfInsights.exWorld.describe [engine] none = .ok (is, marker)) (h2 : Listed is dbs)
    (h3 : Begins Cmd.PerfInsights.exWorld ⟨[], ['o']⟩ start) :
    start = ⟨32 * hour + 5, .fixed 1 (9 * hour)⟩ ∧ dbs = [⟨['a'], ['r']⟩] ∧
      ∀ s ∈ measurements natOps Cmd.PerfInsights.exWorld start tok dbs, s.time.zone = .utc := by
  have e : startOf Cmd.PerfInsights.exWorld ⟨[], ['o']⟩ = .ok ⟨32 * hour + 5, .fixed 1 (9 * hour)⟩ := by decide +kernel
  rw [← begins_iff, e] at h3
  cases h3
  cases h1
  have hd : dbs = [⟨['a'], ['r']⟩] := by
    unfold Listed at h2
    rcases dbs with _ | ⟨⟨n, i⟩, _ | ⟨_, _⟩⟩
    · simp at h2
    · simp only [List.map_cons, List.map_nil, List.cons.injEq, Instance.mk.injEq, Option.some.injEq, and_true] at h2
      rw [h2.1, h2.2]
    · simp at h2
  subst hd
  refine ⟨rfl, rfl, ?_⟩
  cases tok <;> decide +kernel

theorem ex_sample : ∃ s ∈ measurements natOps Cmd.PerfInsights.exWorld ⟨32 * hour + 5, .fixed 1 (9 * hour)⟩ true
    [⟨['a'], ['r']⟩], s.time.ns = 44 * hour + 12 ∧ s.db = ['a'] ∧ s.sql = ['u'] ∧ s.value = 9 := by
  have h : ((measurements natOps Cmd.PerfInsights.exWorld ⟨32 * hour + 5, .fixed 1 (9 * hour)⟩ true
    [⟨['a'], ['r']⟩]).any fun s => decide (s.time.ns = 44 * hour + 12 ∧ s.db = ['a'] ∧ s.sql = ['u'] ∧ s.value = 9)) = true := by
    decide +kernel
  simpa only [List.any_eq_true, decide_eq_true_eq] using h

/-- C93: the hypotheses are met, and the statement `u` of the second half day, measured once with a load of 9, has its
bar -/
example : ∃ plain tokenized r, openTokenized exNums exRead (pageText (loadsVal exNums r) [] []) = .ok (tokenized, plain) ∧
    ∃ row ∈ timelineBars (· * 100) 1 tokenized [['a']], ∃ b, some b ∈ row ∧ b.db = ['a'] ∧ b.sql = ['u'] ∧
      b.date * 1000000 = 44 * hour := by
  obtain ⟨effs, r, h1, h2⟩ := ex_run
  obtain ⟨is, marker, dbs, start, d1, d2, d3, h⟩ := C93_timelines_partial (N := exNums) (R := exRead) (fun _ _ => rfl)
    exNums_loads Cmd.PerfInsights.exWorld _ _ effs _ r h1 h2 (fun _ _ _ _ _ _ => ⟨by simp [Finite, exNums], by simp [Finite, exNums]⟩) [] []
  obtain ⟨rfl, rfl, -⟩ := ex_measured true is marker dbs start d1 d2 d3
  obtain ⟨plain, tokenized, -, ho, ht⟩ := h 9 rfl (by decide) (fun tok => (ex_measured tok is marker _ _ d1 d2 d3).2.2)
  refine ⟨plain, tokenized, r, ho, ?_⟩
  obtain ⟨s, hm, m1, m2, m3, m4⟩ := ex_sample
  obtain ⟨row, hrow, b, hb, e1, e2, e3, e4⟩ := (ht (· * 100) 1 [['a']]).2.all s hm (by rw [m1]; decide) (by rw [m1]; decide)
    (by rw [m2]; decide) (by rw [m4]; decide)
  rw [m1] at e3 e4
  obtain ⟨key, hk⟩ := (ht (· * 100) 1 [['a']]).2.bar row hrow
  obtain ⟨j, hj⟩ := List.getElem?_of_mem hb
  refine ⟨row, hrow, b, hb, e1.trans m2, e2.trans m3, ?_⟩
  have e5 := (hk j b hj).2.2.1
  simp only [show (hour : Int) = 3600000000000 from by decide] at e3 e4 e5 ⊢
  omega

/-- C93, negation: with numbers up to 8 the load of 9 is infinite, and the page is blank -/
example : ∃ effs r, run natOps Cmd.PerfInsights.exWorld ⟨[], ['o']⟩ = some (.ok (), effs) ∧ .html ['o'] r ∈ effs ∧
    openPlain exFewNums exRead (pageText (loadsVal exFewNums r) [] []) = .error .typeError := by
  obtain ⟨effs, r, h1, h2⟩ := ex_run
  obtain ⟨-, is, marker, dbs, start, d1, d2, d3, h⟩ := C93_blank (N := exFewNums) (R := exRead) natLaws exFewNums_loads
    (by
      have hf : ∀ x, Finite exFewNums x ↔ x < 9 := by
        intro x
        unfold Finite exFewNums
        simp
      intro a b
      rw [hf, hf, hf]
      simp only [natOps]
      omega) Cmd.PerfInsights.exWorld _ _ effs _ r h1 h2 [] []
  obtain ⟨rfl, rfl, -⟩ := ex_measured true is marker dbs start d1 d2 d3
  refine ⟨effs, r, h1, h2, h 9 rfl (fun tok => (ex_measured tok is marker _ _ d1 d2 d3).2.2) ⟨true, ?_⟩⟩
  obtain ⟨s, hm, m1, m2, m3, m4⟩ := ex_sample
  exact ⟨s, hm, by rw [m1]; decide, by rw [m1]; decide, by rw [m4]; simp [Finite, exFewNums]⟩
end

end Verif.Report
