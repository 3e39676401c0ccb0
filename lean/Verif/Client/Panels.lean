import Verif.Client.Load
import Verif.Client.Shell
/-!
# C79: choosing statements on the load report

`/repo/client/src/pages/dig/performance_insights/*.svelte`: four panels, each with check boxes for the
databases, a chart, and the command for the statement chosen.
-/
namespace Verif.Client.Panels
open Verif.Lib Verif.Client.Load

/-! ## Model -/

/-- what a point of a chart carries: `DbLoadChartProp`, `DbTokenizedLoadChartProp`,
`DbLoadRankingChartProp`, `DbTokenizedLoadRankingChartProp`; one type for the four, fields that one of
them lacks are not read by its panel. -/
structure Bar (F : Type) where
  db : Str
  sql : Str
  tokenizedId : Str
  percent : F
  date : Int
deriving DecidableEq

section
variable {F : Type} [LinearOrder F]

/-- `/repo/client/src/pages/dig/performance_insights/util/Databases.ts:3-8` `getAllDatabase`; `sort` is
`Array.prototype.sort`, `Set` keeps the first occurrences. -/
def getAllDatabase (sort : List Str → List Str) (hours : List (Hour F)) : List Str :=
  sort ((hours.flatMap fun h => h.databases.map (·.name)).foldl
    (fun s x => if x ∈ s then s else s ++ [x]) [])

/-- `/repo/client/src/pages/dig/performance_insights/util/Databases.ts:10-16` -/
def getFirstDatabaseAsArray : List Str → List Str
  | [] => []
  | d :: _ => [d]

/-- `/repo/client/src/pages/dig/performance_insights/DbLoadChart.ts:76-94` and
`DbTokenizedLoadChart.ts:86-107`: the points of all series; a point without `prop` is `none`. -/
def timelineBars (times100 : F → F) (threshold : F) (hours : List (Hour F)) (targets : List Str) :
    List (List (Option (Bar F))) :=
  (createSeries (fun _ => none) targets threshold
    (fun h d l => some ⟨d.name, l.sql, l.tokenizedId, times100 l.loadMax, h.date⟩) hours).map (·.2)

/-- `/repo/client/src/pages/dig/performance_insights/DbTokenizedLoadRankingChart.ts:105-117` (and
`DbLoadRankingChart.ts:89-98`) -/
def addBar (add : F → F → F) (times100 : F → F) (h : Hour F) (d : DbLoad F) (l : SqlLoad F)
    (m : List (Key × Option (Bar F))) : List (Key × Option (Bar F)) :=
  upsert (d.name, l.sql) none (fun b => some (match b with
    | none => ⟨d.name, l.sql, l.tokenizedId, times100 l.loadSum, h.date⟩
    | some p => { p with percent := add p.percent (times100 l.loadSum) })) m

/-- `DbTokenizedLoadRankingChart.ts:93-120`: the loop -/
def barTotals (add : F → F → F) (times100 : F → F) (targets : List Str) (hours : List (Hour F)) :
    List (Key × Option (Bar F)) :=
  hours.foldl (fun m h => h.databases.foldl (fun m d =>
    if !targets.contains d.name then m
    else d.sqls.foldl (fun m l => addBar add times100 h d l m) m) m) []

/-- `DbTokenizedLoadRankingChart.ts:92-143` `createDbLoadChartSeries`; `order` is the order of
`Object.keys`, `sort` that of `Array.prototype.sort` by descending percentage. -/
def rankingBars (add : F → F → F) (times100 : F → F) (order : List (Key × Option (Bar F)) → List (Key × Option (Bar F)))
    (sort : List (Option (Bar F)) → List (Option (Bar F))) (dataCount : Nat) (hours : List (Hour F))
    (targets : List Str) : List (List (Option (Bar F))) :=
  [(sort ((order (barTotals add times100 targets hours)).map (·.2))).take dataCount]

/-- `/repo/client/src/lib/GrChart.ts:72-84` `eventsClick`: the `prop` of the point that was clicked;
`none` if the handler returns at once or throws a `TypeError` for an index out of range. -/
def propAt (series : List (List (Option (Bar F)))) (si di : Int) : Option (Option (Bar F)) :=
  if si < 0 then none
  else match series[si.toNat]? with
    | none => none
    | some data => if di < 0 then none else data[di.toNat]?

/-- what the user does -/
inductive Event where
  /-- a check box -/
  | toggle (db : Str)
  /-- a click into the chart, which names series and point -/
  | click (series point : Int)
  /-- a radio button in the list of plain statements -/
  | radio (i : Nat)

/-- `bind:group={checked}`: the order of the names is immaterial. -/
def toggleDb (db : Str) (checked : List Str) : List Str :=
  if db ∈ checked then checked.filter (· ≠ db) else checked ++ [db]

/-- the variables of `HeavySqlTimeline.svelte` and `HeaviestSqlRanking.svelte` -/
structure Plain (F : Type) where
  checked : List Str
  selected : Option (Bar F)

/-- the databases offered: `{#if allDatabases.length > 1}` -/
def offered (all : List Str) (db : Str) : Prop := 1 < all.length ∧ db ∈ all

instance (all : List Str) (db : Str) : Decidable (offered all db) := by unfold offered; infer_instance

/-- `checked.includes(selectedProp?.dbName)` -/
def keeps (checked : List Str) : Option (Bar F) → Bool
  | none => false
  | some b => checked.contains b.db

/-- `/repo/client/src/pages/dig/performance_insights/HeavySqlTimeline.svelte:34-43`.  The chart shows
the bars of the databases checked, because both handlers end with `changeDatabase` or do not change
`checked`.  It is assumed that `checked` is up to date when `on:change` runs. -/
def stepTimeline (bars : List Str → List (List (Option (Bar F)))) (all : List Str) (s : Plain F) :
    Event → Plain F
  | .toggle db =>
    if offered all db then
      let checked := toggleDb db s.checked
      { checked := checked, selected := if keeps checked s.selected then s.selected else none }
    else s
  | .click si di => match propAt (bars s.checked) si di with
    | none => s
    | some p => { s with selected := p }
  | .radio _ => s

/-- `/repo/client/src/pages/dig/performance_insights/HeaviestSqlRanking.svelte:33-39` -/
def stepRanking (bars : List Str → List (List (Option (Bar F)))) (all : List Str) (s : Plain F) :
    Event → Plain F
  | .toggle db => if offered all db then { s with checked := toggleDb db s.checked } else s
  | .click si di => match propAt (bars s.checked) si di with
    | none => s
    | some p => { s with selected := p }
  | .radio _ => s

/-- the variables of `HeavyTokenizedSqlTimeline.svelte` and `HeaviestTokenizedSqlRanking.svelte` -/
structure Tokenized (F : Type) where
  checked : List Str
  selected : Option (Bar F)
  raw : Option (RawLoad F)

/-- `/repo/client/src/pages/dig/performance_insights/HeavyTokenizedSqlTimeline.svelte:41-57` and
`91-108` (the ranking: `40-56`, `89-106`); `rawLoads` is `chart.getRawLoads(10, tokenizedId)`, and
without an answer (a `TypeError`) there are no buttons. -/
def stepTokenized (bars : List Str → List (List (Option (Bar F)))) (rawLoads : Str → Option (List (RawLoad F)))
    (all : List Str) (s : Tokenized F) : Event → Tokenized F
  | .toggle db =>
    if offered all db then
      let checked := toggleDb db s.checked
      if keeps checked s.selected then { s with checked := checked }
      else { checked := checked, selected := none, raw := none }
    else s
  | .click si di => match propAt (bars s.checked) si di with
    | none => s
    | some p => { s with selected := p, raw := none }
  | .radio i => match s.selected with
    | none => s
    | some b => match (rawLoads b.tokenizedId).bind (·[i]?) with
      | none => s
      | some r => { s with raw := some r }

/-- the state after `onMount` -/
def Plain.init (all : List Str) : Plain F := ⟨getFirstDatabaseAsArray all, none⟩
/-- the state after `onMount` -/
def Tokenized.init (all : List Str) : Tokenized F := ⟨getFirstDatabaseAsArray all, none, none⟩

/-- `HeavySqlTimeline.svelte:45`, `HeaviestSqlRanking.svelte:41`: `commandText` -/
def Plain.command (s : Plain F) : Str :=
  Shell.loadCommand (s.selected.map (·.db)) (s.selected.map (·.sql))
/-- `HeavyTokenizedSqlTimeline.svelte:59-62` -/
def Tokenized.command (s : Tokenized F) : Str :=
  Shell.loadCommand (s.raw.map (·.dbName)) (s.raw.map (·.load.sql))

/-! ## Specification -/

/-- the report has this statement for this database -/
def Reported (hours : List (Hour F)) (db : Str) (l : SqlLoad F) : Prop :=
  ∃ h ∈ hours, ∃ d ∈ h.databases, l ∈ d.sqls ∧ d.name = db

/-- the command as long as nothing is selected -/
def emptyForm : Str := "DB_DATABASE=\"...\" gr db suggest -o \"suggest.html\" \\\n\t-q \"...\"".toList

theorem emptyForm_eq : Shell.loadCommand none none = emptyForm := by
  unfold Shell.loadCommand emptyForm
  decide +kernel

/-- the command is the empty form, or that for a statement of the report, of a database that `ok`
allows -/
def CommandOf (hours : List (Hour F)) (ok : Str → Prop) (ok' : SqlLoad F → Prop) (c : Str) : Prop :=
  c = emptyForm ∨
  ∃ db l, Reported hours db l ∧ ok db ∧ ok' l ∧ c = Shell.loadCommand (some db) (some l.sql)

/-- the charts of a panel show statements of the report, of the databases given -/
def FromReport (hours : List (Hour F)) (ok' : SqlLoad F → Prop)
    (bars : List Str → List (List (Option (Bar F)))) : Prop :=
  ∀ targets, ∀ row ∈ bars targets, ∀ b, some b ∈ row →
    b.db ∈ targets ∧ ∃ l, Reported hours b.db l ∧ ok' l ∧ l.sql = b.sql ∧ l.tokenizedId = b.tokenizedId

/-! ## Proofs -/

theorem foldl_inv {α β : Type} (P : β → Prop) (f : β → α → β) : ∀ (l : List α) (b : β), P b →
    (∀ b a, a ∈ l → P b → P (f b a)) → P (l.foldl f b)
  | [], _, hb, _ => hb
  | a :: l, b, hb, h => by
    rw [List.foldl_cons]
    exact foldl_inv P f l _ (h b a (by simp) hb) (fun b' a' ha hb' => h b' a' (by simp [ha]) hb')

/-- all values satisfy `Q` -/
def Vals {α β : Type} (Q : β → Prop) (m : List (α × β)) : Prop := ∀ x ∈ m, Q x.2

theorem addPoint_vals {P : Type} (Q : P → Prop) (i : Nat) (zero : P) (k : Key) (p : P) (hz : Q zero)
    (hp : Q p) : ∀ m : List (Key × List P), Vals (fun d => ∀ x ∈ d, Q x) m →
    Vals (fun d => ∀ x ∈ d, Q x) (addPoint i zero k p m)
  | [], _ => by
    intro x hx y hy
    simp only [addPoint, List.mem_singleton] at hx
    subst hx
    rcases List.mem_append.mp hy with h | h
    · rw [(List.mem_replicate.mp h).2]; exact hz
    · rw [List.mem_singleton.mp h]; exact hp
  | (k', d) :: r, hm => by
    rw [addPoint]
    split
    · intro x hx y hy
      rcases List.mem_cons.mp hx with rfl | hx
      · rcases List.mem_append.mp hy with h | h
        · exact hm (k', d) (by simp) y h
        · rw [List.mem_singleton.mp h]; exact hp
      · exact hm x (by simp [hx]) y hy
    · intro x hx
      rcases List.mem_cons.mp hx with rfl | hx
      · exact hm (k', d) (by simp)
      · exact addPoint_vals Q i zero k p hz hp r (fun x hx => hm x (by simp [hx])) x hx

theorem createSeries_vals {P : Type} (Q : P → Prop) (zero : Int → P) (hz : ∀ d, Q (zero d)) (targets : List Str)
    (threshold : F) (build : Hour F → DbLoad F → SqlLoad F → P) (hours : List (Hour F))
    (hb : ∀ h ∈ hours, ∀ d ∈ h.databases, ∀ l ∈ d.sqls, d.name ∈ targets → ¬ l.loadMax < threshold →
      Q (build h d l)) :
    Vals (fun d => ∀ x ∈ d, Q x) (createSeries zero targets threshold build hours) := by
  unfold createSeries
  suffices ∀ (hs : List (Hour F)) (i : Nat) (m : List (Key × List P)), (∀ h ∈ hs, h ∈ hours) →
      Vals (fun d => ∀ x ∈ d, Q x) m →
      Vals (fun d => ∀ x ∈ d, Q x) (addHours zero targets threshold build i hs m) from
    this hours 0 [] (fun _ h => h) (fun x hx => by cases hx)
  intro hs
  induction hs with
  | nil => exact fun _ _ _ hm => hm
  | cons h hs ih =>
    intro i m hmem hm
    rw [addHours]
    apply ih _ _ (fun x hx => hmem x (by simp [hx]))
    have h1 : Vals (fun d => ∀ x ∈ d, Q x) (h.databases.foldl (fun s d =>
        if !targets.contains d.name then s else addSqls i (zero h.date) threshold build h d s) m) := by
      apply foldl_inv _ _ _ _ hm
      intro s d hd hs'
      by_cases ht : d.name ∈ targets
      · simp only [List.contains_eq_mem, ht, decide_true, Bool.not_true, Bool.false_eq_true, if_false]
        unfold addSqls
        apply foldl_inv _ _ _ _ hs'
        intro s l hl hs''
        split
        · exact hs''
        · rename_i hth
          exact addPoint_vals Q i _ _ _ (hz _) (hb h (hmem h (by simp)) d hd l hl ht hth) s hs''
      · simp only [List.contains_eq_mem, ht, decide_false, Bool.not_false, if_true]
        exact hs'
    rw [addHour]
    intro x hx
    obtain ⟨y, hy, rfl⟩ := List.mem_map.mp hx
    split
    · intro z hzm
      rcases List.mem_append.mp hzm with hzm | hzm
      · exact h1 y hy z hzm
      · rw [List.mem_singleton.mp hzm]; exact hz _
    · exact h1 y hy

/-- the timelines show what the report says, from the threshold on -/
theorem timeline_from (times100 : F → F) (threshold : F) (hours : List (Hour F)) :
    FromReport hours (fun l => ¬ l.loadMax < threshold) (timelineBars times100 threshold hours) := by
  intro targets row hrow b hb
  obtain ⟨x, hx, rfl⟩ := List.mem_map.mp hrow
  have := createSeries_vals (fun p : Option (Bar F) => ∀ b, p = some b →
      b.db ∈ targets ∧ ∃ l, Reported hours b.db l ∧ ¬ l.loadMax < threshold ∧ l.sql = b.sql ∧
        l.tokenizedId = b.tokenizedId)
    (fun _ => none) (by intro _ _ h; cases h) targets threshold
    (fun h d l => some ⟨d.name, l.sql, l.tokenizedId, times100 l.loadMax, h.date⟩) hours (by
      intro h hh d hd l hl ht hth b e
      cases e
      exact ⟨ht, l, ⟨h, hh, d, hd, hl, rfl⟩, hth, rfl, rfl⟩) x hx
  exact this (some b) hb b rfl

theorem upsert_vals {α β : Type} [DecidableEq α] (Q : α → β → Prop) (k : α) (init : β) (f : β → β)
    (hi : Q k (f init)) (hf : ∀ b, Q k b → Q k (f b)) : ∀ m : List (α × β), (∀ x ∈ m, Q x.1 x.2) →
    ∀ x ∈ upsert k init f m, Q x.1 x.2
  | [], _ => by
    intro x hx
    simp only [upsert, List.mem_singleton] at hx
    subst hx; exact hi
  | (k', v) :: m, hm => by
    rw [upsert]
    split
    · rename_i e
      intro x hx
      rcases List.mem_cons.mp hx with rfl | hx
      · subst e; exact hf v (hm (k', v) (by simp))
      · exact hm x (by simp [hx])
    · intro x hx
      rcases List.mem_cons.mp hx with rfl | hx
      · exact hm (k', v) (by simp)
      · exact upsert_vals Q k init f hi hf m (fun x hx => hm x (by simp [hx])) x hx

/-- every bar is of the report -/
def GoodTotals (hours : List (Hour F)) (targets : List Str) (m : List (Key × Option (Bar F))) : Prop :=
  ∀ x ∈ m, ∀ b, x.2 = some b → b.db ∈ targets ∧ ∃ l, Reported hours b.db l ∧ True ∧ l.sql = b.sql ∧
    l.tokenizedId = b.tokenizedId

/-- the rankings show what the report says -/
theorem ranking_from (add : F → F → F) (times100 : F → F)
    (order : List (Key × Option (Bar F)) → List (Key × Option (Bar F)))
    (sort : List (Option (Bar F)) → List (Option (Bar F))) (ho : ∀ l, (order l).Perm l)
    (hs : ∀ l, (sort l).Perm l) (dataCount : Nat) (hours : List (Hour F)) :
    FromReport hours (fun _ => True) (rankingBars add times100 order sort dataCount hours) := by
  intro targets row hrow b hb
  rw [rankingBars, List.mem_singleton] at hrow
  subst hrow
  have h1 := (hs _).mem_iff.mp (List.mem_of_mem_take hb)
  obtain ⟨x, hx, e⟩ := List.mem_map.mp h1
  have hx' := (ho _).mem_iff.mp hx
  have key : GoodTotals hours targets (barTotals add times100 targets hours) := by
    unfold barTotals
    apply foldl_inv (GoodTotals hours targets)
    · intro x hx; cases hx
    intro m h hh hm
    apply foldl_inv (GoodTotals hours targets) _ _ _ hm
    intro m d hd hm
    by_cases ht : d.name ∈ targets
    · simp only [List.contains_eq_mem, ht, decide_true, Bool.not_true, Bool.false_eq_true, if_false]
      apply foldl_inv (GoodTotals hours targets) _ _ _ hm
      intro m l hl hm
      unfold addBar
      apply upsert_vals (fun (_ : Key) (v : Option (Bar F)) => ∀ b, v = some b → b.db ∈ targets ∧ ∃ l, Reported hours b.db l ∧ True ∧
        l.sql = b.sql ∧ l.tokenizedId = b.tokenizedId)
      · intro b e
        cases e
        exact ⟨ht, l, ⟨h, hh, d, hd, hl, rfl⟩, trivial, rfl, rfl⟩
      · intro v hv b e
        cases v with
        | none => cases e; exact ⟨ht, l, ⟨h, hh, d, hd, hl, rfl⟩, trivial, rfl, rfl⟩
        | some p => cases e; exact hv p rfl
      · exact hm
    · simp only [List.contains_eq_mem, ht, decide_false, Bool.not_false, if_true]
      exact hm
  exact key x hx' b e

theorem propAt_mem (series : List (List (Option (Bar F)))) (si di : Int) (p : Option (Bar F))
    (h : propAt series si di = some p) : ∃ row ∈ series, p ∈ row := by
  unfold propAt at h
  split at h
  · cases h
  · split at h
    · cases h
    · rename_i data hd
      split at h
      · cases h
      · exact ⟨data, List.mem_of_getElem? hd, List.mem_of_getElem? h⟩

variable (hours : List (Hour F)) (ok' : SqlLoad F → Prop) (bars : List Str → List (List (Option (Bar F))))
  (all : List Str)

/-- what is known of the bar chosen -/
def GoodBar (checked : List Str) (b : Bar F) : Prop :=
  b.db ∈ checked ∧ ∃ l, Reported hours b.db l ∧ ok' l ∧ l.sql = b.sql ∧ l.tokenizedId = b.tokenizedId

theorem click_good (hb : FromReport hours ok' bars) (checked : List Str) (si di : Int) (p : Option (Bar F))
    (h : propAt (bars checked) si di = some p) : ∀ b, p = some b → GoodBar hours ok' checked b := by
  intro b e
  obtain ⟨row, hrow, hm⟩ := propAt_mem _ _ _ _ h
  exact hb checked row hrow b (e ▸ hm)

/-- C79: on the timeline of statements the command is always that of a statement of the report above the
threshold, of a database that is checked now, whatever was clicked before. -/
theorem C79_timeline (times100 : F → F) (threshold : F) (events : List Event) :
    let s := events.foldl (stepTimeline (timelineBars times100 threshold hours) all) (Plain.init all)
    CommandOf hours (· ∈ s.checked) (fun l => ¬ l.loadMax < threshold) s.command := by
  intro s
  have hb := timeline_from times100 threshold hours
  have key : ∀ b, s.selected = some b → GoodBar hours (fun l => ¬ l.loadMax < threshold) s.checked b := by
    apply foldl_inv (fun s : Plain F => ∀ b, s.selected = some b → GoodBar hours (fun l => ¬ l.loadMax < threshold)
      s.checked b)
    · intro b h; cases h
    · intro s e _ hs
      cases e with
      | toggle db =>
        rw [stepTimeline]
        split
        · intro b hsel
          simp only at hsel
          split at hsel
          · rename_i hk
            rw [hsel] at hk
            obtain ⟨_, hrep⟩ := hs b hsel
            refine ⟨?_, hrep⟩
            simpa [keeps] using hk
          · cases hsel
        · exact hs
      | click si di =>
        rw [stepTimeline]
        split
        · exact hs
        · rename_i p hp
          exact click_good hours _ _ hb _ _ _ _ hp
      | radio i => exact hs
  unfold Plain.command
  cases hsel : s.selected with
  | none => left; rfl
  | some b =>
    obtain ⟨h1, l, h2, h3, h4, _⟩ := key b hsel
    right
    exact ⟨b.db, l, h2, h1, h3, by rw [h4]; rfl⟩

/-- C79 (partial): in the ranking the command is always that of a statement of the report; its database
is checked as long as check boxes are only switched on.  Missing: switching one off, see
`C79_ranking_keeps_unchecked`. -/
theorem C79_ranking_partial (add : F → F → F) (times100 : F → F)
    (order : List (Key × Option (Bar F)) → List (Key × Option (Bar F)))
    (sort : List (Option (Bar F)) → List (Option (Bar F))) (ho : ∀ l, (order l).Perm l)
    (hs : ∀ l, (sort l).Perm l) (dataCount : Nat) (events : List Event) :
    let run := fun es : List Event =>
      es.foldl (stepRanking (rankingBars add times100 order sort dataCount hours) all) (Plain.init all)
    CommandOf hours (fun _ => True) (fun _ => True) (run events).command ∧
    ((∀ pre db post, events = pre ++ .toggle db :: post → db ∉ (run pre).checked) →
      CommandOf hours (· ∈ (run events).checked) (fun _ => True) (run events).command) := by
  intro run
  have hb := ranking_from add times100 order sort ho hs dataCount hours
  have hrun : ∀ es e, run (es ++ [e]) =
      stepRanking (rankingBars add times100 order sort dataCount hours) all (run es) e := by
    intro es e
    simp only [run, List.foldl_append, List.foldl_cons, List.foldl_nil]
  have key : ∀ es, ∀ b, (run es).selected = some b →
      (∃ l, Reported hours b.db l ∧ l.sql = b.sql) ∧
      ((∀ pre db post, es = pre ++ .toggle db :: post → db ∉ (run pre).checked) → b.db ∈ (run es).checked) := by
    intro es
    induction es using List.reverseRecOn with
    | nil => intro b h; cases h
    | append_singleton es e ih =>
      rw [hrun]
      have sub : (∀ pre db post, es ++ [e] = pre ++ .toggle db :: post → db ∉ (run pre).checked) →
          ∀ pre db post, es = pre ++ .toggle db :: post → db ∉ (run pre).checked := by
        intro h pre db post e'
        exact h pre db (post ++ [e]) (by rw [e']; simp)
      cases e with
      | toggle db =>
        rw [stepRanking]
        split
        · intro b hsel
          obtain ⟨h1, h2⟩ := ih b hsel
          refine ⟨h1, fun h => ?_⟩
          have hnot := h es db [] rfl
          have := h2 (sub h)
          simp only [toggleDb, if_neg hnot, List.mem_append]
          exact .inl this
        · intro b hsel
          obtain ⟨h1, h2⟩ := ih b hsel
          exact ⟨h1, fun h => h2 (sub h)⟩
      | click si di =>
        rw [stepRanking]
        split
        · intro b hsel
          obtain ⟨h1, h2⟩ := ih b hsel
          exact ⟨h1, fun h => h2 (sub h)⟩
        · rename_i p hp
          intro b hsel
          obtain ⟨h1, l, h2, _, h4, _⟩ := click_good hours _ _ hb _ _ _ _ hp b hsel
          exact ⟨⟨l, h2, h4⟩, fun _ => h1⟩
      | radio i =>
        intro b hsel
        obtain ⟨h1, h2⟩ := ih b hsel
        exact ⟨h1, fun h => h2 (sub h)⟩
  unfold Plain.command
  cases hsel : (run events).selected with
  | none => exact ⟨.inl rfl, fun _ => .inl rfl⟩
  | some b =>
    obtain ⟨⟨l, h2, h4⟩, h5⟩ := key events b hsel
    exact ⟨.inr ⟨b.db, l, h2, trivial, trivial, by rw [h4]; rfl⟩,
      fun h => .inr ⟨b.db, l, h2, h5 h, trivial, by rw [h4]; rfl⟩⟩

theorem rawOf_reported (raws : List (Hour F)) (id : Str) (r : RawLoad F) (h : r ∈ rawOf id raws) :
    Reported raws r.dbName r.load ∧ r.load.tokenizedId = id := by
  unfold rawOf at h
  obtain ⟨h1, h2⟩ := List.mem_filter.mp h
  obtain ⟨hr, hhr, h1⟩ := List.mem_flatMap.mp h1
  obtain ⟨d, hd, h1⟩ := List.mem_flatMap.mp h1
  obtain ⟨l, hl, rfl⟩ := List.mem_map.mp h1
  exact ⟨⟨hr, hhr, d, hd, hl, rfl⟩, by simpa using h2⟩

/-- C79 (partial): in the panels for tokenized statements the bar chosen is of a database checked now,
and the command is that of a plain statement of the report with the same tokenized form.  Missing: this
statement may be of another database, see `C79_tokenized_other_database`. -/
theorem C79_tokenized_partial (hb : FromReport hours ok' bars) (raws : List (Hour F))
    (sort : List (RawLoad F) → List (RawLoad F)) (hsort : SortsLoads sort) (events : List Event) :
    let s := events.foldl (stepTokenized bars (pickRawLoads sort (createRawLoads raws) 10) all)
      (Tokenized.init all)
    (∀ b, s.selected = some b → GoodBar hours ok' s.checked b) ∧
    CommandOf raws (fun _ => True)
      (fun l => ∃ b, s.selected = some b ∧ b.tokenizedId = l.tokenizedId) s.command := by
  intro s
  have key : (∀ b, s.selected = some b → GoodBar hours ok' s.checked b) ∧
      ∀ r, s.raw = some r → Reported raws r.dbName r.load ∧
        ∃ b, s.selected = some b ∧ b.tokenizedId = r.load.tokenizedId := by
    apply foldl_inv (fun s : Tokenized F => (∀ b, s.selected = some b → GoodBar hours ok' s.checked b) ∧
      ∀ r, s.raw = some r → Reported raws r.dbName r.load ∧
        ∃ b, s.selected = some b ∧ b.tokenizedId = r.load.tokenizedId)
    · exact ⟨nofun, nofun⟩
    · intro s e _ hs
      cases e with
      | toggle db =>
        rw [stepTokenized]
        split
        · simp only
          split
          · rename_i hk
            refine ⟨?_, hs.2⟩
            intro b hsel
            simp only at hsel
            rw [hsel] at hk
            exact ⟨by simpa [keeps] using hk, (hs.1 b hsel).2⟩
          · exact ⟨nofun, nofun⟩
        · exact hs
      | click si di =>
        rw [stepTokenized]
        split
        · exact hs
        · rename_i p hp
          exact ⟨click_good hours _ _ hb _ _ _ _ hp, nofun⟩
      | radio i =>
        rw [stepTokenized]
        split
        · exact hs
        · rename_i b hsel
          split
          · exact hs
          · rename_i r hr
            refine ⟨hs.1, ?_⟩
            intro r' e
            cases e
            obtain ⟨shown, hsh, hi⟩ := Option.bind_eq_some_iff.mp hr
            rcases C62_pick sort hsort raws 10 b.tokenizedId with ⟨_, hn⟩ | ⟨sh, hid, hp, hperm, _⟩
            · rw [hn] at hsh; cases hsh
            · rw [hp] at hsh
              cases hsh
              have := hperm.mem_iff.mp (List.mem_append_left hid (List.mem_of_getElem? hi))
              obtain ⟨k1, k2⟩ := rawOf_reported raws _ _ this
              exact ⟨k1, b, hsel, k2.symm⟩
  refine ⟨key.1, ?_⟩
  unfold Tokenized.command
  cases hr : s.raw with
  | none => left; rfl
  | some r =>
    obtain ⟨h1, b, h2, h3⟩ := key.2 r hr
    right
    exact ⟨r.dbName, r.load, h1, trivial, ⟨b, h2, h3⟩, rfl⟩

/-- C79: both tokenized panels show bars of the report, so that the theorem above applies to them. -/
theorem C79_tokenized_bars (add : F → F → F) (times100 : F → F) (threshold : F)
    (order : List (Key × Option (Bar F)) → List (Key × Option (Bar F)))
    (sort : List (Option (Bar F)) → List (Option (Bar F))) (ho : ∀ l, (order l).Perm l)
    (hs : ∀ l, (sort l).Perm l) (dataCount : Nat) :
    FromReport hours (fun l => ¬ l.loadMax < threshold) (timelineBars times100 threshold hours) ∧
    FromReport hours (fun _ => True) (rankingBars add times100 order sort dataCount hours) :=
  ⟨timeline_from _ _ _, ranking_from _ _ _ _ ho hs _ _⟩

/-- C79: the check boxes offer every database of the report once, in order, and at first exactly the
first one is checked. -/
theorem C79_databases (le : Str → Str → Prop) (sort : List Str → List Str)
    (hs : ∀ l, (sort l).Perm l ∧ (sort l).Pairwise le) :
    (getAllDatabase sort hours).Nodup ∧ (getAllDatabase sort hours).Pairwise le ∧
    (∀ db, db ∈ getAllDatabase sort hours ↔ ∃ h ∈ hours, ∃ d ∈ h.databases, d.name = db) ∧
    (Plain.init (F := F) (getAllDatabase sort hours)).checked = (getAllDatabase sort hours).take 1 ∧
    (Tokenized.init (F := F) (getAllDatabase sort hours)).checked = (getAllDatabase sort hours).take 1 := by
  have hset : ∀ (l s : List Str), s.Nodup →
      (l.foldl (fun s x => if x ∈ s then s else s ++ [x]) s).Nodup ∧
      ∀ y, y ∈ l.foldl (fun s x => if x ∈ s then s else s ++ [x]) s ↔ y ∈ s ∨ y ∈ l := by
    intro l
    induction l with
    | nil => intro s h; exact ⟨h, by simp⟩
    | cons x l ih =>
      intro s h
      rw [List.foldl_cons]
      by_cases hx : x ∈ s
      · rw [if_pos hx]
        obtain ⟨h1, h2⟩ := ih s h
        refine ⟨h1, fun y => ?_⟩
        rw [h2, List.mem_cons]
        constructor
        · rintro (h | h)
          · exact .inl h
          · exact .inr (.inr h)
        · rintro (h | rfl | h)
          · exact .inl h
          · exact .inl hx
          · exact .inr h
      · rw [if_neg hx]
        obtain ⟨h1, h2⟩ := ih (s ++ [x]) (by
          rw [List.nodup_append]
          refine ⟨h, by simp, ?_⟩
          intro a ha b hb
          rw [List.mem_singleton] at hb
          subst hb
          rintro rfl
          exact hx ha)
        refine ⟨h1, fun y => ?_⟩
        rw [h2, List.mem_cons, List.mem_append, List.mem_singleton, or_assoc]
  obtain ⟨h1, h2⟩ := hset (hours.flatMap fun h => h.databases.map (·.name)) [] (by simp)
  have hp := hs ((hours.flatMap fun h => h.databases.map (·.name)).foldl
    (fun s x => if x ∈ s then s else s ++ [x]) [])
  have hfirst : ∀ l : List Str, getFirstDatabaseAsArray l = l.take 1 := by
    intro l; cases l <;> rfl
  refine ⟨hp.1.nodup_iff.mpr h1, hp.2, ?_, hfirst _, hfirst _⟩
  intro db
  unfold getAllDatabase
  rw [hp.1.mem_iff, h2]
  simp only [List.not_mem_nil, false_or, List.mem_flatMap, List.mem_map]

/-- the percentages of a ranking's bars are the totals of C48 -/
theorem C79_ranking_totals (add : F → F → F) (times100 : F → F) (targets : List Str) :
    (barTotals add times100 targets hours).map (fun x => (x.1, x.2.map (·.percent))) =
      totals add times100 targets hours := by
  let g : Key × Option (Bar F) → Key × Option F := fun x => (x.1, x.2.map (·.percent))
  have hup : ∀ (h : Hour F) (d : DbLoad F) (l : SqlLoad F) (m : List (Key × Option (Bar F))),
      (addBar add times100 h d l m).map g = addTotal add times100 (d.name, l.sql) l.loadSum (m.map g) := by
    intro h d l m
    unfold addBar addTotal
    induction m with
    | nil => rfl
    | cons x m ih =>
      obtain ⟨k, v⟩ := x
      simp only [List.map_cons, upsert, g]
      by_cases hk : k = (d.name, l.sql)
      · rw [if_pos hk, if_pos hk, List.map_cons]
        cases v <;> rfl
      · rw [if_neg hk, if_neg hk, List.map_cons, ih]
  have hfold : ∀ {α : Type} (l : List α) (f : List (Key × Option (Bar F)) → α → List (Key × Option (Bar F)))
      (f' : List (Key × Option F) → α → List (Key × Option F)), (∀ m a, (f m a).map g = f' (m.map g) a) →
      ∀ m, (l.foldl f m).map g = l.foldl f' (m.map g) := by
    intro α l f f' hff
    induction l with
    | nil => intro m; rfl
    | cons a l ih => intro m; rw [List.foldl_cons, List.foldl_cons, ih, hff]
  unfold barTotals totals
  show List.map g _ = _
  rw [hfold (f' := fun m h => h.databases.foldl (fun m d =>
    if !targets.contains d.name then m
    else d.sqls.foldl (fun m l => addTotal add times100 (d.name, l.sql) l.loadSum m) m) m)]
  · rfl
  · intro m h
    apply hfold
    intro m d
    by_cases ht : (!targets.contains d.name) = true
    · rw [if_pos ht, if_pos ht]
    · rw [if_neg ht, if_neg ht]
      apply hfold
      intro m l
      exact hup h d l m

end

/-! ## Where it fails -/

/-- a report with two databases running statements of the same form -/
def exHours : List (Hour Int) :=
  [⟨0, [⟨"a".toList, [⟨"select 1".toList, 5, 5, "t".toList⟩]⟩,
        ⟨"b".toList, [⟨"select 2".toList, 7, 7, "t".toList⟩]⟩]⟩]
/-- its databases -/
def exAll : List Str := ["a".toList, "b".toList]
/-- heavier ones first, for the two -/
def exSort (l : List (RawLoad Int)) : List (RawLoad Int) :=
  l.insertionSort (fun a b => b.load.loadMax ≤ a.load.loadMax)
/-- ranking of the example; there is at most one bar per database -/
def exRanking := rankingBars (F := Int) (· + ·) (· * 100) id id 20 exHours

/-- C79 fails in the ranking: check `b`, click its statement, uncheck `b`: the chart shows only `a`, the
command still is for `b`. -/
theorem C79_ranking_keeps_unchecked :
    let s := [Event.toggle "b".toList, .click 0 1, .toggle "b".toList].foldl (stepRanking exRanking exAll)
      (Plain.init exAll)
    s.checked = ["a".toList] ∧ s.selected.map (fun b => (b.db, b.sql)) = some ("b".toList, "select 2".toList) := by
  decide +kernel

/-- the same clicks on the timeline leave no command -/
example :
    let s := [Event.toggle "b".toList, .click 1 0, .toggle "b".toList].foldl
      (stepTimeline (timelineBars (· * 100) 1 exHours) exAll) (Plain.init exAll)
    s.checked = ["a".toList] ∧ s.selected = none := by
  decide +kernel

/-- C79 fails for tokenized statements: with only `a` checked, the list below the chart offers the plain
statements of `b`, and the command is for `b`. -/
theorem C79_tokenized_other_database :
    let s := [Event.click 0 0, .radio 0].foldl
      (stepTokenized (timelineBars (· * 100) 1 exHours) (pickRawLoads exSort (createRawLoads exHours) 10) exAll)
      (Tokenized.init exAll)
    s.checked = ["a".toList] ∧ s.selected.map (·.db) = some "a".toList ∧
      s.raw.map (fun r => (r.dbName, r.load.sql)) = some ("b".toList, "select 2".toList) := by
  decide +kernel

end Verif.Client.Panels
