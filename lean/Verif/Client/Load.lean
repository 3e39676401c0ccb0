import Mathlib.Order.Defs.LinearOrder
import Mathlib.Order.Lattice
import Mathlib.Data.Int.Order.Basic
import Mathlib.Data.List.Sort
import Mathlib.Data.List.Induction
import Verif.Common
import Verif.Lib.Upsert
/-!
# C47, C48, C62: charts of the load report

`/repo/client/src/pages/dig/performance_insights/**`
-/
namespace Verif.Client.Load
open Verif.Lib

abbrev Str := List Char

/-! ## Model -/

/-- `/repo/client/src/models/DbLoadOfSql.ts` -/
structure SqlLoad (F : Type) where
  sql : Str
  loadMax : F
  loadSum : F
  tokenizedId : Str
deriving DecidableEq

/-- `/repo/client/src/models/DbLoad.ts` -/
structure DbLoad (F : Type) where
  name : Str
  sqls : List (SqlLoad F)
deriving DecidableEq

/-- `/repo/client/src/models/TimeDbLoad.ts`; the date is determined by the timestamp. -/
structure Hour (F : Type) where
  date : Int
  databases : List (DbLoad F)
deriving DecidableEq

/-- the database and the text of a statement, under which series and totals are kept.  Names of
inherited properties of JavaScript objects (`constructor`, …) are left aside. -/
abbrev Key := Str × Str

section
variable {F P : Type} [LinearOrder F]

/-- `/repo/client/src/pages/dig/performance_insights/util/chart/LoadPropChartSereies.ts:33-48`: find the
series of a statement or push a new one filled with `i` zeros, then push the point.  The series and the
records of `knownSeries` are the same objects; here they are kept once, in the order of `series`. -/
def addPoint (i : Nat) (zero : P) (k : Key) (p : P) : List (Key × List P) → List (Key × List P)
  | [] => [(k, List.replicate i zero ++ [p])]
  | (k', d) :: r => if k' = k then (k', d ++ [p]) :: r else (k', d) :: addPoint i zero k p r

/-- `/repo/client/src/pages/dig/performance_insights/util/chart/LoadPropChartSereies.ts:27-51`: the
statements of a database -/
def addSqls (i : Nat) (zero : P) (threshold : F) (build : Hour F → DbLoad F → SqlLoad F → P) (h : Hour F)
    (d : DbLoad F) (series : List (Key × List P)) : List (Key × List P) :=
  d.sqls.foldl (fun s l =>
    if l.loadMax < threshold then s else addPoint i zero (d.name, l.sql) (build h d l) s) series

/-- `/repo/client/src/pages/dig/performance_insights/util/chart/LoadPropChartSereies.ts:22-62`, round `i`;
`zero` makes the point `{x: date, y: 0}`. -/
def addHour (zero : Int → P) (targets : List Str) (threshold : F)
    (build : Hour F → DbLoad F → SqlLoad F → P) (i : Nat) (h : Hour F) (series : List (Key × List P)) :
    List (Key × List P) :=
  let s1 := h.databases.foldl (fun s d =>
    if !targets.contains d.name then s else addSqls i (zero h.date) threshold build h d s) series
  s1.map fun s => if s.2.length < i + 1 then (s.1, s.2 ++ [zero h.date]) else s

/-- the loop over the hours -/
def addHours (zero : Int → P) (targets : List Str) (threshold : F)
    (build : Hour F → DbLoad F → SqlLoad F → P) : Nat → List (Hour F) → List (Key × List P) →
    List (Key × List P)
  | _, [], s => s
  | i, h :: hs, s =>
    addHours zero targets threshold build (i + 1) hs (addHour zero targets threshold build i h s)

/-- `/repo/client/src/pages/dig/performance_insights/util/chart/LoadPropChartSereies.ts:8-65`
`createLoadPropChartSeries` -/
def createSeries (zero : Int → P) (targets : List Str) (threshold : F)
    (build : Hour F → DbLoad F → SqlLoad F → P) (hours : List (Hour F)) : List (Key × List P) :=
  addHours zero targets threshold build 0 hours []

/-- `/repo/client/src/pages/dig/performance_insights/DbLoadRankingChart.ts:89-98`; `times100` multiplies
by 100 -/
def addTotal (add : F → F → F) (times100 : F → F) (k : Key) (load : F) (m : List (Key × Option F)) :
    List (Key × Option F) :=
  upsert k none (fun b => some (match b with
    | none => times100 load
    | some v => add v (times100 load))) m

/-- `/repo/client/src/pages/dig/performance_insights/DbLoadRankingChart.ts:79-100`: the totals; `props` is
keyed by database and statement at once. -/
def totals (add : F → F → F) (times100 : F → F) (targets : List Str) (hours : List (Hour F)) :
    List (Key × Option F) :=
  hours.foldl (fun m h => h.databases.foldl (fun m d =>
    if !targets.contains d.name then m
    else d.sqls.foldl (fun m l => addTotal add times100 (d.name, l.sql) l.loadSum m) m) m) []

/-- `/repo/client/src/pages/dig/performance_insights/DbLoadRankingChart.ts:79-123`
`createDbLoadChartSeries` (and `DbTokenizedLoadRankingChart.ts:92-145`); `order` is the order of
`Object.keys`, `sort` is `Array.prototype.sort` with the comparison of line 109. -/
def ranking (add : F → F → F) (times100 : F → F)
    (order sort : List (Key × Option F) → List (Key × Option F)) (dataCount : Nat) (targets : List Str)
    (hours : List (Hour F)) : List (Key × Option F) :=
  (sort (order (totals add times100 targets hours))).take dataCount

/-- `/repo/client/src/pages/dig/performance_insights/util/chart/TokenizedLoad.ts:4-8` -/
structure RawLoad (F : Type) where
  dbName : Str
  load : SqlLoad F
  date : Int
deriving DecidableEq

/-- `/repo/client/src/pages/dig/performance_insights/util/chart/TokenizedLoad.ts:10-31` `createRawLoads` -/
def createRawLoads (hours : List (Hour F)) : List (Str × List (RawLoad F)) :=
  hours.foldl (fun m h => h.databases.foldl (fun m d =>
    d.sqls.foldl (fun m l => upsert l.tokenizedId [] (· ++ [⟨d.name, l, h.date⟩]) m) m) m) []

/-- `/repo/client/src/pages/dig/performance_insights/util/chart/TokenizedLoad.ts:33-44` `pickRawLoads`;
`none`: the `TypeError` of spreading `undefined` -/
def pickRawLoads (sort : List (RawLoad F) → List (RawLoad F)) (raw : List (Str × List (RawLoad F)))
    (size : Nat) (tokenizedId : Str) : Option (List (RawLoad F)) :=
  (mapGet tokenizedId raw).map fun loads => (sort loads).take size

/-! ## Specification -/

/-- the points of an hour: what a statement of a chosen database reached the threshold with -/
def hourPoints (targets : List Str) (threshold : F) (build : Hour F → DbLoad F → SqlLoad F → P)
    (h : Hour F) : List (Key × P) :=
  (h.databases.filter (fun d => targets.contains d.name)).flatMap fun d =>
    (d.sqls.filter (fun l => !decide (l.loadMax < threshold))).map fun l => ((d.name, l.sql), build h d l)

/-- all loads of the chosen databases, in report order -/
def allLoads (targets : List Str) (hours : List (Hour F)) : List (Key × F) :=
  hours.flatMap fun h => (h.databases.filter (fun d => targets.contains d.name)).flatMap fun d =>
    d.sqls.map fun l => ((d.name, l.sql), l.loadSum)

/-- percentages added up from left to right -/
def sumPercent (add : F → F → F) (times100 : F → F) : List F → Option F
  | [] => none
  | a :: r => some (r.foldl (fun s x => add s (times100 x)) (times100 a))

/-- the loads with a tokenized id -/
def rawOf (id : Str) (hours : List (Hour F)) : List (RawLoad F) :=
  (hours.flatMap fun h => h.databases.flatMap fun d => d.sqls.map fun l => RawLoad.mk d.name l h.date).filter
    (fun r => r.load.tokenizedId = id)

end

/-! ## C47 -/

section
variable {P : Type}

/-- an hour as far as the series see it -/
structure Slot (P : Type) where
  zero : P
  points : List (Key × P)

/-- a round, on the points of the hour -/
def slotStep (i : Nat) (s : Slot P) (series : List (Key × List P)) : List (Key × List P) :=
  (s.points.foldl (fun m kp => addPoint i s.zero kp.1 kp.2 m) series).map fun x =>
    if x.2.length < i + 1 then (x.1, x.2 ++ [s.zero]) else x

def slotSteps : Nat → List (Slot P) → List (Key × List P) → List (Key × List P)
  | _, [], m => m
  | i, s :: ss, m => slotSteps (i + 1) ss (slotStep i s m)

theorem slotSteps_snoc (ss : List (Slot P)) (s : Slot P) (i : Nat) (m : List (Key × List P)) :
    slotSteps i (ss ++ [s]) m = slotStep (i + ss.length) s (slotSteps i ss m) := by
  induction ss generalizing i m with
  | nil => rfl
  | cons t ss ih =>
    rw [List.cons_append, slotSteps, slotSteps, ih]
    congr 1
    simp only [List.length_cons]
    omega

theorem addPoint_get (i : Nat) (zero : P) (k k' : Key) (p : P) (m : List (Key × List P)) :
    mapGet k' (addPoint i zero k p m) =
      if k' = k then some ((mapGet k m).getD (List.replicate i zero) ++ [p]) else mapGet k' m := by
  induction m with
  | nil => by_cases h : k' = k <;> simp [addPoint, mapGet, h]
  | cons x m ih =>
    obtain ⟨k0, d⟩ := x
    rw [addPoint]
    by_cases h0 : k0 = k
    · subst h0
      rw [if_pos rfl]
      by_cases h : k' = k0 <;> simp [mapGet, h]
    · rw [if_neg h0, mapGet, ih]
      have h0' : ¬ k = k0 := fun e => h0 e.symm
      by_cases h : k' = k
      · subst h; simp [mapGet, h0']
      · by_cases h1 : k' = k0
        · subst h1; simp [mapGet, h]
        · simp [mapGet, h, h1]

theorem addPoint_keys (i : Nat) (zero : P) (k : Key) (p : P) (m : List (Key × List P)) :
    (addPoint i zero k p m).map (·.1) =
      if k ∈ m.map (·.1) then m.map (·.1) else m.map (·.1) ++ [k] := by
  induction m with
  | nil => simp [addPoint]
  | cons x m ih =>
    obtain ⟨k0, d⟩ := x
    rw [addPoint]
    by_cases h0 : k0 = k
    · rw [if_pos h0]; simp [h0]
    · have h0' : ¬ k = k0 := fun e => h0 e.symm
      rw [if_neg h0, List.map_cons, ih]
      by_cases hm : k ∈ m.map (·.1)
      · rw [if_pos hm, if_pos (by rw [List.map_cons, List.mem_cons]; exact .inr hm)]; rfl
      · rw [if_neg hm, if_neg (by
          rw [List.map_cons, List.mem_cons]; exact not_or.mpr ⟨h0', hm⟩)]; rfl

theorem addPoints_nodup (i : Nat) (zero : P) (pts : List (Key × P)) (m : List (Key × List P))
    (h : (m.map (·.1)).Nodup) :
    ((pts.foldl (fun m kp => addPoint i zero kp.1 kp.2 m) m).map (·.1)).Nodup := by
  induction pts generalizing m with
  | nil => exact h
  | cons kp pts ih =>
    rw [List.foldl_cons]
    apply ih
    rw [addPoint_keys]
    split
    · exact h
    · rename_i hm
      rw [List.nodup_append]
      refine ⟨h, by simp, ?_⟩
      intro x hx y hy
      simp only [List.mem_singleton] at hy
      subst hy
      rintro rfl
      exact hm hx

theorem addPoints_get (i : Nat) (zero : P) (pts : List (Key × P)) (hd : (pts.map (·.1)).Nodup) (k : Key)
    (m : List (Key × List P)) :
    mapGet k (pts.foldl (fun m kp => addPoint i zero kp.1 kp.2 m) m) =
      match mapGet k pts with
      | none => mapGet k m
      | some p => some ((mapGet k m).getD (List.replicate i zero) ++ [p]) := by
  induction pts generalizing m with
  | nil => rfl
  | cons kp pts ih =>
    obtain ⟨k0, p0⟩ := kp
    rw [List.map_cons, List.nodup_cons] at hd
    rw [List.foldl_cons, ih hd.2, addPoint_get]
    by_cases h : k = k0
    · subst h
      rw [mapGet_none_of_not_mem k pts hd.1]
      simp [mapGet]
    · have h' : ¬ k0 = k := fun e => h e.symm
      simp [mapGet, h]

theorem mapGet_map (f : Key → List P → List P) (k : Key) (m : List (Key × List P)) :
    mapGet k (m.map fun x => (x.1, f x.1 x.2)) = (mapGet k m).map (f k) := by
  induction m with
  | nil => rfl
  | cons x m ih =>
    obtain ⟨k0, d⟩ := x
    rw [List.map_cons, mapGet, mapGet, ih]
    by_cases h : k = k0
    · subst h; simp
    · simp [h]

theorem pad_eq (i : Nat) (zero : P) (m : List (Key × List P)) :
    (m.map fun x => if x.2.length < i + 1 then (x.1, x.2 ++ [zero]) else x) =
      m.map fun x => (x.1, if x.2.length < i + 1 then x.2 ++ [zero] else x.2) := by
  apply List.map_congr_left
  rintro ⟨k, d⟩ _
  by_cases h : d.length < i + 1 <;> simp [h]

theorem slotSteps_nodup (ss : List (Slot P)) : ∀ (i : Nat) (m : List (Key × List P)),
    (m.map (·.1)).Nodup → ((slotSteps i ss m).map (·.1)).Nodup := by
  induction ss with
  | nil => exact fun _ _ h => h
  | cons s ss ih =>
    intro i m h
    rw [slotSteps]
    apply ih
    rw [slotStep, pad_eq, List.map_map]
    exact addPoints_nodup i s.zero s.points m h

theorem none_iff {α : Type} (k : Key) (pts : List (Key × α)) :
    mapGet k pts = none ↔ k ∉ pts.map (·.1) := by
  rw [← mapGet_isSome_iff]
  simp

/-- the point of a slot for a key -/
def at' (k : Key) (s : Slot P) : P := (mapGet k s.points).getD s.zero

/-- first slot with a point for the key: the index and the slot -/
def First (k : Key) (ss : List (Slot P)) (f : Nat) (s : Slot P) : Prop :=
  ss[f]? = some s ∧ mapGet k s.points ≠ none ∧ ∀ j t, j < f → ss[j]? = some t → mapGet k t.points = none

/-- the series: zeros of the first hour up to it, then the points hour by hour -/
theorem slotSteps_get (ss : List (Slot P)) (hd : ∀ s ∈ ss, (s.points.map (·.1)).Nodup) (k : Key) :
    (mapGet k (slotSteps 0 ss []) = none ∧ ∀ s ∈ ss, mapGet k s.points = none) ∨
    ∃ f s, First k ss f s ∧
      mapGet k (slotSteps 0 ss []) = some (List.replicate f s.zero ++ (ss.drop f).map (at' k)) := by
  induction ss using List.reverseRecOn with
  | nil => left; exact ⟨rfl, by simp⟩
  | append_singleton ss s ih =>
    have ih := ih (fun x hx => hd x (by simp [hx]))
    have hs := hd s (by simp)
    have hst : mapGet k (slotSteps 0 (ss ++ [s]) []) =
        (match mapGet k s.points with
          | none => mapGet k (slotSteps 0 ss [])
          | some p => some ((mapGet k (slotSteps 0 ss [])).getD (List.replicate ss.length s.zero) ++
              [p])).map (fun d : List P => if d.length < ss.length + 1 then d ++ [s.zero] else d) := by
      rw [slotSteps_snoc, slotStep, pad_eq, Nat.zero_add,
        mapGet_map (fun _ d => if d.length < ss.length + 1 then d ++ [s.zero] else d),
        addPoints_get _ _ _ hs]
    rcases ih with ⟨h1, h2⟩ | ⟨f, t, ⟨hf1, hf2, hf3⟩, h4⟩
    · cases hp : mapGet k s.points with
      | none =>
        left
        rw [hst, hp, h1]
        refine ⟨rfl, ?_⟩
        intro x hx
        rcases List.mem_append.mp hx with hx | hx
        · exact h2 x hx
        · simp only [List.mem_singleton] at hx; subst hx; exact hp
      | some p =>
        right
        refine ⟨ss.length, s, ⟨by simp, by simp [hp], ?_⟩, ?_⟩
        · intro j t hj ht
          rw [List.getElem?_append_left hj] at ht
          exact h2 t (List.mem_of_getElem? ht)
        · rw [hst, hp, h1]
          simp [at', hp]
    · right
      have hlt : f < ss.length := by
        rcases Nat.lt_or_ge f ss.length with h | h
        · exact h
        · rw [List.getElem?_eq_none h] at hf1; cases hf1
      refine ⟨f, t, ⟨?_, hf2, ?_⟩, ?_⟩
      · rw [List.getElem?_append_left hlt]; exact hf1
      · intro j u hj hu
        rw [List.getElem?_append_left (by omega)] at hu
        exact hf3 j u hj hu
      · have hlen : (List.replicate f t.zero ++ (ss.drop f).map (at' k)).length = ss.length := by
          simp; omega
        rw [hst, h4]
        have hdrop : (ss ++ [s]).drop f = ss.drop f ++ [s] := by
          rw [List.drop_append_of_le_length (by omega)]
        rw [hdrop, List.map_append, ← List.append_assoc]
        cases hp : mapGet k s.points with
        | none =>
          simp only [Option.map_some]
          rw [if_pos (by omega)]
          simp [at', hp]
        | some p =>
          simp only [Option.getD_some, Option.map_some]
          rw [if_neg (by rw [List.length_append, hlen]; simp)]
          simp [at', hp]
end

section
variable {F P : Type} [LinearOrder F] (zero : Int → P) (targets : List Str) (threshold : F)
  (build : Hour F → DbLoad F → SqlLoad F → P)

/-- an hour as a slot -/
def slotOf (h : Hour F) : Slot P := ⟨zero h.date, hourPoints targets threshold build h⟩

theorem addSqls_eq (i : Nat) (z : P) (h : Hour F) (d : DbLoad F) (series : List (Key × List P)) :
    addSqls i z threshold build h d series =
      ((d.sqls.filter (fun l => !decide (l.loadMax < threshold))).map
        fun l => ((d.name, l.sql), build h d l)).foldl (fun m kp => addPoint i z kp.1 kp.2 m) series := by
  unfold addSqls
  generalize d.sqls = ls
  induction ls generalizing series with
  | nil => rfl
  | cons l ls ih =>
    rw [List.foldl_cons, ih, List.filter_cons]
    by_cases hl : l.loadMax < threshold <;> simp [hl]

theorem addHour_eq (i : Nat) (h : Hour F) (series : List (Key × List P)) :
    addHour zero targets threshold build i h series =
      slotStep i (slotOf zero targets threshold build h) series := by
  unfold addHour slotStep slotOf hourPoints
  simp only
  congr 1
  generalize h.databases = ds
  induction ds generalizing series with
  | nil => rfl
  | cons d ds ih =>
    rw [List.foldl_cons, ih, List.filter_cons]
    by_cases hd : targets.contains d.name = true
    · simp only [hd, Bool.not_true, Bool.false_eq_true, if_false, if_true, List.flatMap_cons,
        List.foldl_append, addSqls_eq]
    · simp only [hd, Bool.not_false, Bool.false_eq_true, if_false, if_true]

theorem addHours_eq (hs : List (Hour F)) (i : Nat) (series : List (Key × List P)) :
    addHours zero targets threshold build i hs series =
      slotSteps i (hs.map (slotOf zero targets threshold build)) series := by
  induction hs generalizing i series with
  | nil => rfl
  | cons h hs ih => rw [addHours, List.map_cons, slotSteps, ih, addHour_eq]

/-- C47 (partial): there is one series per statement of the chosen databases that ever reaches the
threshold, each with one point per hour, the point of an hour being that hour's value or zero.  Missing:
zeros before the first value carry the date of that first value instead of their own
(`C47_leading_dates_wrong`). -/
theorem C47_series_partial (hours : List (Hour F))
    (hd : ∀ h ∈ hours, ((hourPoints targets threshold build h).map (·.1)).Nodup) :
    ((createSeries zero targets threshold build hours).map (·.1)).Nodup ∧
    (∀ k, k ∈ (createSeries zero targets threshold build hours).map (·.1) ↔
      ∃ h ∈ hours, k ∈ (hourPoints targets threshold build h).map (·.1)) ∧
    ∀ k d, (k, d) ∈ createSeries zero targets threshold build hours →
      d.length = hours.length ∧
      ∃ (f : Nat) (first : Hour F), hours[f]? = some first ∧
        (∀ (j : Nat) (h : Hour F), j < f → hours[j]? = some h → k ∉ (hourPoints targets threshold build h).map (·.1)) ∧
        ∀ (j : Nat) (h : Hour F), hours[j]? = some h →
          (∀ p, (k, p) ∈ hourPoints targets threshold build h → d[j]? = some p) ∧
          (k ∉ (hourPoints targets threshold build h).map (·.1) →
            d[j]? = some (zero (if j < f then first.date else h.date))) := by
  have hd' : ∀ s ∈ hours.map (slotOf zero targets threshold build), (s.points.map (·.1)).Nodup := by
    intro s hs
    obtain ⟨h, hh, rfl⟩ := List.mem_map.mp hs
    exact hd h hh
  have hn := slotSteps_nodup (hours.map (slotOf zero targets threshold build)) 0 [] (by simp)
  unfold createSeries
  rw [addHours_eq]
  refine ⟨hn, ?_, ?_⟩
  · intro k
    have hk := none_iff k (slotSteps 0 (hours.map (slotOf zero targets threshold build)) [])
    rcases slotSteps_get _ hd' k with ⟨h1, h2⟩ | ⟨f, s, ⟨h1, h2, _⟩, h3⟩
    · constructor
      · intro hm; exact absurd hm (hk.mp h1)
      · rintro ⟨h, hh, hm⟩
        have := h2 _ (List.mem_map_of_mem hh)
        exact absurd hm ((none_iff k _).mp this)
    · constructor
      · intro _
        obtain ⟨h, hh, rfl⟩ := List.mem_map.mp (List.mem_of_getElem? h1)
        refine ⟨h, hh, ?_⟩
        by_contra hm
        exact h2 ((none_iff k _).mpr hm)
      · intro _
        by_contra hm
        rw [hk.mpr hm] at h3
        cases h3
  · intro k d hm
    have hg := mapGet_of_mem k d _ hn hm
    rcases slotSteps_get _ hd' k with ⟨h1, _⟩ | ⟨f, s, ⟨h1, h2, h2'⟩, h3⟩
    · rw [h1] at hg; cases hg
    · rw [h3] at hg
      have hg : List.replicate f s.zero ++
        ((hours.map (slotOf zero targets threshold build)).drop f).map (at' k) = d := by
        simpa using hg
      have hfl : f < hours.length := by
        rcases Nat.lt_or_ge f hours.length with h | h
        · exact h
        · rw [List.getElem?_eq_none (by simpa using h)] at h1; cases h1
      obtain ⟨first, hfirst, hfs⟩ : ∃ first, hours[f]? = some first ∧
          slotOf zero targets threshold build first = s := by
        rw [List.getElem?_map] at h1
        cases hx : hours[f]? with
        | none => rw [hx] at h1; cases h1
        | some x => rw [hx] at h1; exact ⟨x, rfl, by simpa using h1⟩
      refine ⟨?_, f, first, hfirst, ?_, ?_⟩
      · rw [← hg]; simp; omega
      · intro j h hj hh
        have := h2' j (slotOf zero targets threshold build h) hj (by rw [List.getElem?_map, hh]; rfl)
        exact (none_iff k _).mp this
      · intro j h hh
        have hjl : j < hours.length := by
          rcases Nat.lt_or_ge j hours.length with h' | h'
          · exact h'
          · rw [List.getElem?_eq_none h'] at hh; cases hh
        rcases Nat.lt_or_ge j f with hjf | hjf
        · have hnone := h2' j (slotOf zero targets threshold build h) hjf
            (by rw [List.getElem?_map, hh]; rfl)
          have hnone' := (none_iff k _).mp hnone
          refine ⟨fun p hp => absurd (List.mem_map_of_mem (f := Prod.fst) hp) hnone', fun _ => ?_⟩
          rw [← hg, List.getElem?_append_left (by simpa using hjf), if_pos hjf]
          simp [hjf, ← hfs, slotOf]
        · have hdj : d[j]? = some (at' k (slotOf zero targets threshold build h)) := by
            rw [← hg, List.getElem?_append_right (by simpa using hjf), List.getElem?_map,
              List.getElem?_drop, List.length_replicate, Nat.add_sub_cancel' hjf, List.getElem?_map, hh]
            rfl
          refine ⟨fun p hp => ?_, fun hm => ?_⟩
          · have := mapGet_of_mem k p _ (hd h (List.mem_of_getElem? hh)) hp
            rw [hdj, at', slotOf]
            simp only
            rw [this]
            rfl
          · rw [hdj, if_neg (by omega), at', slotOf]
            simp only
            rw [(none_iff k _).mpr hm]
            rfl
end

/-- hours with distinct statements, one of them below the threshold -/
example : ∀ h ∈ ([⟨100, []⟩, ⟨200, [⟨['d'], [⟨['s'], 5, 5, ['t']⟩, ⟨['u'], 7, 5, ['t']⟩, ⟨['v'], 0, 0, []⟩]⟩,
      ⟨['x'], [⟨['s'], 9, 9, []⟩]⟩]⟩] : List (Hour Int)),
    ((hourPoints [['d']] 1 (fun h _ l => (h.date, l.loadMax)) h).map (·.1)).Nodup := by decide +kernel

/-- C47 fails: the zeros before a statement's first value do not carry their own hour. -/
theorem C47_leading_dates_wrong :
    createSeries (F := Int) (fun d => (d, (0 : Int))) [['d']] 1 (fun h _ l => (h.date, l.loadMax))
      [⟨100, []⟩, ⟨200, [⟨['d'], [⟨['s'], 5, 5, ['t']⟩]⟩]⟩, ⟨300, []⟩] =
    [((['d'], ['s']), [(200, 0), (200, 5), (300, 0)])] := by decide +kernel

/-- C47 needs distinct statements per hour and database: a repeated one shifts the rest of its series. -/
theorem C47_repeated_statement_shifts :
    createSeries (F := Int) (fun d => (d, (0 : Int))) [['d']] 1 (fun h _ l => (h.date, l.loadMax))
      [⟨100, [⟨['d'], [⟨['s'], 5, 5, ['t']⟩, ⟨['s'], 6, 6, ['u']⟩]⟩]⟩, ⟨200, []⟩] =
    [((['d'], ['s']), [(100, 5), (100, 6)])] := by decide +kernel

/-! ## C48 -/

section
variable {F : Type} [LinearOrder F] (add : F → F → F) (times100 : F → F)

theorem totals_eq (targets : List Str) (hours : List (Hour F)) : totals add times100 targets hours =
    group (·.1) none (fun kl b => some (match b with
      | none => times100 kl.2
      | some v => add v (times100 kl.2))) (allLoads targets hours) [] := by
  unfold totals
  generalize ([] : List (Key × Option F)) = m
  have inner : ∀ (d : DbLoad F) (m : List (Key × Option F)),
      d.sqls.foldl (fun m l => addTotal add times100 (d.name, l.sql) l.loadSum m) m =
      (d.sqls.map fun l => ((d.name, l.sql), l.loadSum)).foldl (fun m a => upsert a.1 none
        (fun b => some (match b with | none => times100 a.2 | some v => add v (times100 a.2))) m) m := by
    intro d m
    rw [List.foldl_map]
    rfl
  have mid : ∀ (ds : List (DbLoad F)) (m : List (Key × Option F)),
      ds.foldl (fun m d => if !targets.contains d.name then m
        else d.sqls.foldl (fun m l => addTotal add times100 (d.name, l.sql) l.loadSum m) m) m =
      ((ds.filter (fun d => targets.contains d.name)).flatMap fun d =>
        d.sqls.map fun l => ((d.name, l.sql), l.loadSum)).foldl (fun m a => upsert a.1 none
        (fun b => some (match b with | none => times100 a.2 | some v => add v (times100 a.2))) m) m := by
    intro ds
    induction ds with
    | nil => intro m; rfl
    | cons d ds ih =>
      intro m
      rw [List.foldl_cons, ih, List.filter_cons]
      by_cases hd : targets.contains d.name = true
      · simp only [hd, Bool.not_true, Bool.false_eq_true, if_false, if_true, List.flatMap_cons,
          List.foldl_append, inner]
      · simp only [hd, Bool.not_false, Bool.false_eq_true, if_false, if_true]
  unfold allLoads
  induction hours generalizing m with
  | nil => rfl
  | cons h hs ih =>
    rw [List.foldl_cons, ih, mid, List.flatMap_cons]
    unfold group
    rw [List.foldl_append]

theorem fold_sumPercent (l : List (Key × F)) (h : l ≠ []) :
    l.foldl (fun b a => some (match b with
      | none => times100 a.2
      | some v => add v (times100 a.2))) none = sumPercent add times100 (l.map (·.2)) := by
  cases l with
  | nil => exact absurd rfl h
  | cons a l =>
    rw [List.foldl_cons, List.map_cons, sumPercent]
    simp only
    generalize times100 a.2 = s
    clear h
    induction l generalizing s with
    | nil => rfl
    | cons b l ih => rw [List.foldl_cons, List.map_cons, List.foldl_cons]; exact ih _

/-- the totals: each statement once, with its loads added up -/
theorem totals_spec (targets : List Str) (hours : List (Hour F)) :
    ((totals add times100 targets hours).map (·.1)).Nodup ∧ ∀ k v, (k, v) ∈ totals add times100 targets hours ↔
      (((allLoads targets hours).filter fun a => decide (a.1 = k)).map (·.2)) ≠ [] ∧ v = sumPercent add times100 (((allLoads targets hours).filter fun a => decide (a.1 = k)).map (·.2)) := by
  obtain ⟨hn, hm⟩ := group_spec (·.1) none (fun (kl : Key × F) b => some (match b with
      | none => times100 kl.2
      | some v => add v (times100 kl.2))) (allLoads targets hours)
  rw [← totals_eq] at hn hm
  refine ⟨hn, fun k v => ?_⟩
  rw [hm]
  have hne : (∃ a ∈ allLoads targets hours, a.1 = k) ↔ (((allLoads targets hours).filter fun a => decide (a.1 = k)).map (·.2)) ≠ [] := by
    rw [Ne, List.map_eq_nil_iff, List.filter_eq_nil_iff]
    constructor
    · rintro ⟨a, ha, hk⟩ h
      exact h a ha (by simpa using hk)
    · intro h
      by_contra hc
      exact h (fun a ha hk => hc ⟨a, ha, by simpa using hk⟩)
  rw [hne]
  constructor
  · rintro ⟨h1, h2⟩
    refine ⟨h1, ?_⟩
    rw [h2, fold_sumPercent]
    intro h0
    exact h1 (by simp [h0])
  · rintro ⟨h1, h2⟩
    refine ⟨h1, ?_⟩
    rw [h2, fold_sumPercent]
    intro h0
    exact h1 (by simp [h0])

/-- what is known about the sort: descending totals -/
def SortsDown (sort : List (Key × Option F) → List (Key × Option F)) : Prop :=
  ∀ l, (sort l).Perm l ∧
    (sort l).Pairwise (fun a b => ∀ x y, a.2 = some x → b.2 = some y → y ≤ x)

/-- C48: the ranking lists at most the requested number of statements of the chosen databases, each
once, with the sum of its loads over all hours, in descending order; all are listed if they fit, and
no statement left out has a larger sum than one listed. -/
theorem C48_ranking (order sort : List (Key × Option F) → List (Key × Option F))
    (ho : ∀ l, (order l).Perm l) (hs : SortsDown sort) (dataCount : Nat) (targets : List Str)
    (hours : List (Hour F)) :
    let r := ranking add times100 order sort dataCount targets hours
    let loads := fun k => ((allLoads targets hours).filter (fun a => a.1 = k)).map (·.2)
    r.length ≤ dataCount ∧ (r.map (·.1)).Nodup ∧
    (∀ k v, (k, v) ∈ r → loads k ≠ [] ∧ v = sumPercent add times100 (loads k)) ∧
    r.Pairwise (fun a b => ∀ x y, a.2 = some x → b.2 = some y → y ≤ x) ∧
    (∀ k, loads k ≠ [] → k ∉ r.map (·.1) → r.length = dataCount ∧
      ∀ a ∈ r, ∀ x y, a.2 = some x → sumPercent add times100 (loads k) = some y → y ≤ x) := by
  intro r loads
  obtain ⟨hn, hm⟩ := group_spec (·.1) none (fun (kl : Key × F) b => some (match b with
      | none => times100 kl.2
      | some v => add v (times100 kl.2))) (allLoads targets hours)
  rw [← totals_eq] at hn hm
  have hval : ∀ k v, (k, v) ∈ totals add times100 targets hours ↔
      loads k ≠ [] ∧ v = sumPercent add times100 (loads k) := by
    intro k v
    rw [hm]
    have hne : (∃ a ∈ allLoads targets hours, a.1 = k) ↔ loads k ≠ [] := by
      simp only [loads]
      rw [Ne, List.map_eq_nil_iff, List.filter_eq_nil_iff]
      constructor
      · rintro ⟨a, ha, hk⟩ h
        exact h a ha (by simpa using hk)
      · intro h
        by_contra hc
        exact h (fun a ha hk => hc ⟨a, ha, by simpa using hk⟩)
    rw [hne]
    constructor
    · rintro ⟨h1, h2⟩
      refine ⟨h1, ?_⟩
      rw [h2, fold_sumPercent]
      intro h0
      exact h1 (by simp [loads, h0])
    · rintro ⟨h1, h2⟩
      refine ⟨h1, ?_⟩
      rw [h2, fold_sumPercent]
      intro h0
      exact h1 (by simp [loads, h0])
  have hp : (sort (order (totals add times100 targets hours))).Perm (totals add times100 targets hours) :=
    (hs _).1.trans (ho _)
  have hpw := (hs (order (totals add times100 targets hours))).2
  have hsub : r.Sublist (sort (order (totals add times100 targets hours))) := List.take_sublist _ _
  have hsplit : sort (order (totals add times100 targets hours)) =
      r ++ (sort (order (totals add times100 targets hours))).drop dataCount :=
    (List.take_append_drop dataCount _).symm
  have hn2 : ((sort (order (totals add times100 targets hours))).map (·.1)).Nodup :=
    (hp.map _).nodup_iff.mpr hn
  refine ⟨?_, hn2.sublist (hsub.map _), ?_, hpw.sublist hsub, ?_⟩
  · exact List.length_take_le _ _
  · intro k v h
    exact (hval k v).mp (hp.mem_iff.mp (hsub.subset h))
  · intro k hk hnot
    have hin : (k, sumPercent add times100 (loads k)) ∈
        sort (order (totals add times100 targets hours)) := hp.mem_iff.mpr ((hval _ _).mpr ⟨hk, rfl⟩)
    rw [hsplit, List.mem_append] at hin
    rcases hin with hin | hin
    · exact absurd (List.mem_map_of_mem (f := (·.1)) hin) hnot
    · refine ⟨?_, ?_⟩
      · have : ¬ (sort (order (totals add times100 targets hours))).length ≤ dataCount := by
          intro hle
          rw [List.drop_eq_nil_of_le hle] at hin
          cases hin
        show (List.take dataCount _).length = dataCount
        rw [List.length_take]
        omega
      · intro a ha x y hx hy
        rw [hsplit, List.pairwise_append] at hpw
        exact hpw.2.2 a ha _ hin x y hx hy
end

/-- two hours, two databases, the larger total first -/
example : ranking (F := Int) (· + ·) (· * 100) id
      (fun l => l.insertionSort (fun a b => (b.2.getD 0) ≤ (a.2.getD 0))) 2 [['d'], ['e']]
      [⟨1, [⟨['d'], [⟨['s'], 1, 2, []⟩, ⟨['t'], 1, 4, []⟩]⟩, ⟨['x'], [⟨['s'], 1, 9, []⟩]⟩]⟩,
        ⟨2, [⟨['d'], [⟨['s'], 1, 3, []⟩]⟩, ⟨['e'], [⟨['s'], 1, 1, []⟩]⟩]⟩] =
    [((['d'], ['s']), some 500), ((['d'], ['t']), some 400)] := by decide +kernel

/-! ## C62 -/

section
variable {F : Type} [LinearOrder F]

theorem createRawLoads_eq (hours : List (Hour F)) : createRawLoads hours =
    group (fun r : RawLoad F => r.load.tokenizedId) [] (fun r b => b ++ [r])
      (hours.flatMap fun h => h.databases.flatMap fun d => d.sqls.map fun l => RawLoad.mk d.name l h.date)
      [] := by
  unfold createRawLoads
  generalize ([] : List (Str × List (RawLoad F))) = m
  have mid : ∀ (h : Hour F) (ds : List (DbLoad F)) (m : List (Str × List (RawLoad F))),
      ds.foldl (fun m d => d.sqls.foldl (fun m l =>
        upsert l.tokenizedId [] (· ++ [⟨d.name, l, h.date⟩]) m) m) m =
      (ds.flatMap fun d => d.sqls.map fun l => RawLoad.mk d.name l h.date).foldl
        (fun m (a : RawLoad F) => upsert a.load.tokenizedId [] (· ++ [a]) m) m := by
    intro h ds
    induction ds with
    | nil => intro m; rfl
    | cons d ds ih =>
      intro m
      rw [List.foldl_cons, ih, List.flatMap_cons, List.foldl_append, List.foldl_map]
  induction hours generalizing m with
  | nil => rfl
  | cons h hs ih =>
    rw [List.foldl_cons, ih, mid, List.flatMap_cons]
    unfold group
    rw [List.foldl_append]

/-- what is known about the sort: descending maxima -/
def SortsLoads (sort : List (RawLoad F) → List (RawLoad F)) : Prop :=
  ∀ l, (sort l).Perm l ∧ (sort l).Pairwise (fun a b => b.load.loadMax ≤ a.load.loadMax)

/-- C62: for a tokenized statement the detail list has at most `size` of its raw loads, the heaviest
ones in descending order; asking for a statement without raw loads throws. -/
theorem C62_pick (sort : List (RawLoad F) → List (RawLoad F)) (hs : SortsLoads sort)
    (hours : List (Hour F)) (size : Nat) (id : Str) :
    (rawOf id hours = [] ∧ pickRawLoads sort (createRawLoads hours) size id = none) ∨
    ∃ shown hidden, pickRawLoads sort (createRawLoads hours) size id = some shown ∧
      (shown ++ hidden).Perm (rawOf id hours) ∧ shown.length = min size (rawOf id hours).length ∧
      shown.Pairwise (fun a b => b.load.loadMax ≤ a.load.loadMax) ∧
      ∀ a ∈ shown, ∀ b ∈ hidden, b.load.loadMax ≤ a.load.loadMax := by
  have hg := group_get (fun r : RawLoad F => r.load.tokenizedId) [] (fun r b => b ++ [r])
    (hours.flatMap fun h => h.databases.flatMap fun d => d.sqls.map fun l => RawLoad.mk d.name l h.date) [] id
  rw [← createRawLoads_eq] at hg
  have hf : ∀ (l acc : List (RawLoad F)), l.foldl (fun b a => b ++ [a]) acc = acc ++ l := by
    intro l
    induction l with
    | nil => intro acc; simp
    | cons a l ih => intro acc; rw [List.foldl_cons, ih]; simp
  by_cases he : ∃ a ∈ (hours.flatMap fun h => h.databases.flatMap fun d =>
      d.sqls.map fun l => RawLoad.mk d.name l h.date), a.load.tokenizedId = id
  · right
    rw [if_pos he, hf] at hg
    have hg : mapGet id (createRawLoads hours) = some (rawOf id hours) := by
      rw [hg]; simp [mapGet, rawOf]
    obtain ⟨hp, hw⟩ := hs (rawOf id hours)
    refine ⟨(sort (rawOf id hours)).take size, (sort (rawOf id hours)).drop size, ?_, ?_, ?_, ?_, ?_⟩
    · rw [pickRawLoads, hg]; rfl
    · rw [List.take_append_drop]; exact hp
    · rw [List.length_take, hp.length_eq]
    · exact hw.sublist (List.take_sublist _ _)
    · rw [← List.take_append_drop size (sort (rawOf id hours)), List.pairwise_append] at hw
      exact hw.2.2
  · left
    rw [if_neg he] at hg
    refine ⟨?_, ?_⟩
    · unfold rawOf
      rw [List.filter_eq_nil_iff]
      intro a ha hk
      exact he ⟨a, ha, by simpa using hk⟩
    · rw [pickRawLoads, hg]; rfl
end

/-- three loads of one tokenized statement, the two heaviest asked for -/
example : (pickRawLoads (F := Int)
      (fun l => l.insertionSort (fun a b => b.load.loadMax ≤ a.load.loadMax)) (createRawLoads
      [⟨1, [⟨['d'], [⟨['s'], 1, 2, ['t']⟩, ⟨['u'], 7, 4, ['t']⟩]⟩]⟩, ⟨2, [⟨['e'], [⟨['v'], 3, 9, ['t']⟩]⟩]⟩])
      2 ['t']).map (fun l => l.map fun r => (r.dbName, r.load.sql, r.load.loadMax)) =
    some [(['d'], ['u'], 7), (['e'], ['v'], 3)] := by decide +kernel

end Verif.Client.Load
