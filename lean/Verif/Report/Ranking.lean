import Verif.Report.Loads
/-!
# C93: the ranking of the page of `gr db dig performance-insights`
-/
namespace Verif.Report
open Verif.Lib Verif.Pi Verif.Client.Load Verif.Client.Panels Verif.Cmd.PerfInsights

/-! ## Specification -/

section
variable {F : Type}

/-- the load of a statement in the hour number `j` from the hour of `start`, if it was measured there: its
measurements of that hour added up -/
def HourLoad (plus : F → F → F) (start : Int) (ms : List (Sample F)) (k : Client.Load.Key) (j : Nat) (x : F) : Prop :=
  ∃ s rest, ofHour ms (start / hour * hour + hour * j) k.1 k.2 = s :: rest ∧ x = (rest.map Sample.value).foldl plus s.value

/-- `v` is the load of a statement over the week from `start`: the loads of the hours in which it was measured, in
percent, added up from the first to the last -/
def Weighs (plus add : F → F → F) (times100 : F → F) (start : Int) (ms : List (Sample F)) (k : Client.Load.Key)
    (v : F) : Prop :=
  ∃ (js : List Nat) (x : F) (xs : List F), js.Pairwise (· < ·) ∧
    List.Forall₂ (HourLoad plus start ms k) js (x :: xs) ∧
    (∀ s ∈ ms, (s.db, s.sql) = k → start ≤ s.time.ns → s.time.ns ≤ start + sevenDays →
      ∃ j ∈ js, start / hour * hour + hour * j ≤ s.time.ns ∧ s.time.ns < start / hour * hour + hour * j + hour) ∧
    v = xs.foldl (fun a y => add a (times100 y)) (times100 x)

/-- a ranking of the week from `start`: at most `n` statements of the databases checked, each once, with its load, the
largest first; and a statement that was measured but is not listed has no larger load than those listed -/
def Ranked [LinearOrder F] (plus add : F → F → F) (times100 : F → F) (n : Nat) (start : Int) (checked : List Str)
    (ms : List (Sample F)) (rows : List (List (Option (Bar F)))) : Prop :=
  ∃ bars : List (Bar F), rows = [bars.map some] ∧ bars.length ≤ n ∧ (bars.map fun b => (b.db, b.sql)).Nodup ∧
    (∀ b ∈ bars, b.db ∈ checked ∧ Weighs plus add times100 start ms (b.db, b.sql) b.percent) ∧
    bars.Pairwise (fun a b => b.percent ≤ a.percent) ∧
    ∀ s ∈ ms, start ≤ s.time.ns → s.time.ns ≤ start + sevenDays → s.db ∈ checked →
      (∀ b ∈ bars, (b.db, b.sql) ≠ (s.db, s.sql)) →
      bars.length = n ∧ ∃ v, Weighs plus add times100 start ms (s.db, s.sql) v ∧ ∀ b ∈ bars, v ≤ b.percent

/-- `Array.prototype.sort` by descending percentage -/
def SortsBars [LinearOrder F] (sort : List (Option (Bar F)) → List (Option (Bar F))) : Prop :=
  ∀ l, (sort l).Perm l ∧ (sort l).Pairwise fun a b => ∀ x y, a = some x → b = some y → y.percent ≤ x.percent

/-! ## Proofs -/

/-- the load of a statement in an hour of the report -/
def pick (k : Client.Load.Key) (dbs : List (Str × List (Pi.SqlLoad F))) : Option F :=
  (dbs.find? fun d => decide (d.1 = k.1)).bind fun d => (d.2.find? fun l => decide (l.sql = k.2)).map (·.sum)

theorem pick_sqls (n q : Str) : ∀ sqls : List (Pi.SqlLoad F), (sqls.map Pi.SqlLoad.sql).Nodup →
    ((sqls.map fun l => (((n, l.sql) : Client.Load.Key), l.sum)).filter fun a => decide (a.1 = (n, q))).map (·.2) =
      ((sqls.find? fun l => decide (l.sql = q)).map (·.sum)).toList
  | [], _ => rfl
  | l :: sqls, h => by
    rw [List.map_cons, List.nodup_cons] at h
    rw [List.map_cons, List.filter_cons, List.find?_cons]
    by_cases hq : l.sql = q
    · have e : (sqls.map fun l => (((n, l.sql) : Client.Load.Key), l.sum)).filter (fun a => decide (a.1 = (n, q))) = [] := by
        rw [List.filter_eq_nil_iff]
        intro a ha
        obtain ⟨l', hl', rfl⟩ := List.mem_map.mp ha
        simp only [decide_eq_true_eq, Prod.mk.injEq, true_and]
        intro e
        exact h.1 (hq ▸ e ▸ List.mem_map_of_mem hl')
      rw [e]
      simp [hq]
    · rw [if_neg (by simp [hq]), pick_sqls n q sqls h.2]
      simp [hq]

theorem pick_dbs (checked : List Str) (k : Client.Load.Key) (hk : k.1 ∈ checked) :
    ∀ dbs : List (Str × List (Pi.SqlLoad F)), (dbs.map (·.1)).Nodup →
      (∀ d ∈ dbs, (d.2.map Pi.SqlLoad.sql).Nodup) →
      (((dbs.filter fun d => checked.contains d.1).flatMap fun d =>
        d.2.map fun l => (((d.1, l.sql) : Client.Load.Key), l.sum)).filter fun a => decide (a.1 = k)).map (·.2) =
      (pick k dbs).toList
  | [], _, _ => rfl
  | (n, sqls) :: dbs, h1, h2 => by
    rw [List.map_cons, List.nodup_cons] at h1
    have ih := pick_dbs checked k hk dbs h1.2 fun d hd => h2 d (List.mem_cons_of_mem _ hd)
    by_cases hn : n = k.1
    · have hd : ∀ d ∈ dbs, d.1 ≠ k.1 := fun d hd e => h1.1 (hn ▸ e ▸ List.mem_map_of_mem hd)
      have e : pick k dbs = none := by
        unfold pick
        rw [List.find?_eq_none.mpr (fun d hd' => by simpa using hd d hd')]
        rfl
      rw [e] at ih
      rw [List.filter_cons, if_pos (by simp [hn, hk]), List.flatMap_cons, List.filter_append, List.map_append, ih]
      obtain ⟨k1, k2⟩ := k
      subst hn
      rw [pick_sqls _ _ _ (h2 _ List.mem_cons_self)]
      simp [pick]
    · have e : pick k ((n, sqls) :: dbs) = pick k dbs := by
        unfold pick
        rw [List.find?_cons_of_neg (by simpa using hn)]
      rw [e, ← ih, List.filter_cons]
      by_cases hc : checked.contains n = true
      · rw [if_pos hc, List.flatMap_cons, List.filter_append]
        have e : (sqls.map fun l => (((n, l.sql) : Client.Load.Key), l.sum)).filter (fun a => decide (a.1 = k)) = [] := by
          rw [List.filter_eq_nil_iff]
          intro a ha
          obtain ⟨l', hl', rfl⟩ := List.mem_map.mp ha
          simp only [decide_eq_true_eq]
          rintro rfl
          exact hn rfl
        rw [e, List.nil_append]
      · rw [if_neg hc]

/-- the loads of a statement in the report -/
def loadsOf [LinearOrder F] (checked : List Str) (hours : List (Client.Load.Hour F)) (k : Client.Load.Key) : List F :=
  ((allLoads checked hours).filter fun a => decide (a.1 = k)).map (·.2)

theorem loadsOf_pick [LinearOrder F] (checked : List Str) (k : Client.Load.Key) (hk : k.1 ∈ checked) (r : List (TimeLoad F))
    (h : ∀ e ∈ r, (e.2.map (·.1)).Nodup ∧ ∀ d ∈ e.2, (d.2.map Pi.SqlLoad.sql).Nodup) :
    loadsOf checked (r.map toPage) k = r.filterMap fun e => pick k e.2 := by
  induction r with
  | nil => rfl
  | cons e r ih =>
    have ih := ih fun e he => h e (List.mem_cons_of_mem _ he)
    obtain ⟨h1, h2⟩ := h e List.mem_cons_self
    have hp := pick_dbs checked k hk e.2 h1 h2
    unfold loadsOf allLoads at ih ⊢
    rw [List.map_cons, List.flatMap_cons, List.filter_append, List.map_append, ih]
    have e1 : (((toPage e).databases.filter fun d => checked.contains d.name).flatMap fun d =>
        d.sqls.map fun l => (((d.name, l.sql) : Client.Load.Key), l.loadSum)) =
        (e.2.filter fun d => checked.contains d.1).flatMap fun d => d.2.map fun l => ((d.1, l.sql), l.sum) := by
      unfold toPage
      rw [List.filter_map, List.flatMap_map]
      congr 1
      funext d
      simp [List.map_map, Function.comp_def]
    rw [e1, hp, List.filterMap_cons]
    cases pick k e.2 <;> rfl

theorem filterMap_indexed {α β : Type} (c : α → Option β) (P : Nat → β → Prop) (l : List α) (i : Nat)
    (h : ∀ (j : Nat) (a : α), l[j]? = some a → ∀ x, c a = some x → P (i + j) x) :
    ∃ js : List Nat, js.Pairwise (· < ·) ∧ (∀ j ∈ js, i ≤ j) ∧ List.Forall₂ P js (l.filterMap c) ∧
      ∀ (j : Nat) (a : α), l[j]? = some a → (c a).isSome → i + j ∈ js := by
  induction l generalizing i with
  | nil => exact ⟨[], .nil, nofun, .nil, fun j a h => by simp at h⟩
  | cons a l ih =>
    obtain ⟨js, h1, h2, h3, h4⟩ := ih (i + 1) fun j b hb x hx => by
      have := h (j + 1) b (by simpa using hb) x hx
      rwa [show i + 1 + j = i + (j + 1) from by omega]
    cases hc : c a with
    | none =>
      refine ⟨js, h1, fun j hj => by have := h2 j hj; omega, by simpa [hc] using h3, ?_⟩
      intro j b hb hs
      cases j with
      | zero =>
        simp only [List.getElem?_cons_zero, Option.some.injEq] at hb
        subst hb
        rw [hc] at hs
        cases hs
      | succ j =>
        rw [show i + (j + 1) = i + 1 + j from by omega]
        exact h4 j b (by simpa using hb) hs
    | some x =>
      refine ⟨i :: js, .cons (fun j hj => by have := h2 j hj; omega) h1, ?_, ?_, ?_⟩
      · intro j hj
        rcases List.mem_cons.mp hj with rfl | hj
        · exact Nat.le_refl _
        · have := h2 j hj; omega
      · rw [List.filterMap_cons, hc]
        exact .cons (by simpa using h 0 a rfl x hc) h3
      · intro j b hb hs
        cases j with
        | zero => exact List.mem_cons_self
        | succ j =>
          rw [show i + (j + 1) = i + 1 + j from by omega]
          exact List.mem_cons_of_mem _ (h4 j b (by simpa using hb) hs)

/-- what the hours of the report say about one statement -/
theorem loadsOf_hours [LinearOrder F] {ops : LoadOps F} {start : Int} {ms : List (Sample F)} {r : List (TimeLoad F)}
    (h : Shows ops start (start + sevenDays) ms r) (checked : List Str) (k : Client.Load.Key) (hk : k.1 ∈ checked) :
    ∃ js : List Nat, js.Pairwise (· < ·) ∧
      List.Forall₂ (HourLoad ops.add start ms k) js (loadsOf checked (r.map toPage) k) ∧
      ∀ s ∈ ms, (s.db, s.sql) = k → start ≤ s.time.ns → s.time.ns ≤ start + sevenDays →
        ∃ j ∈ js, start / hour * hour + hour * j ≤ s.time.ns ∧ s.time.ns < start / hour * hour + hour * j + hour := by
  obtain ⟨hc, -, -, h3, h4⟩ := h
  have hnd : ∀ e ∈ r, (e.2.map (·.1)).Nodup ∧ ∀ d ∈ e.2, (d.2.map Pi.SqlLoad.sql).Nodup := fun e he =>
    ⟨(h4 e.1 e.2 he).1, fun d hd => ((h4 e.1 e.2 he).2 d.1 d.2 hd).1⟩
  rw [loadsOf_pick checked k hk r hnd]
  have ht : ∀ (j : Nat) (e : TimeLoad F), r[j]? = some e → e.1 = start / hour * hour + hour * j := fun j e he =>
    consecutive_get hour _ _ hc j e.1 (by rw [List.getElem?_map, he]; rfl)
  obtain ⟨js, j1, -, j3, j4⟩ := filterMap_indexed (fun e : TimeLoad F => pick k e.2) (HourLoad ops.add start ms k) r 0 (by
    intro j e he x hx
    have hm := List.mem_of_getElem? he
    unfold pick at hx
    cases hd : e.2.find? (fun d => decide (d.1 = k.1)) with
    | none => rw [hd] at hx; cases hx
    | some d =>
      rw [hd, Option.bind_some] at hx
      cases hl : d.2.find? (fun l => decide (l.sql = k.2)) with
      | none => rw [hl] at hx; cases hx
      | some l =>
        rw [hl] at hx
        cases hx
        have hd1 : d.1 = k.1 := by simpa using List.find?_some hd
        have hl1 : l.sql = k.2 := by simpa using List.find?_some hl
        obtain ⟨s, rest, e1, -, e2, -⟩ := ((h4 e.1 e.2 hm).2 d.1 d.2 (List.mem_of_find?_eq_some hd)).2.2 l
          (List.mem_of_find?_eq_some hl)
        rw [Nat.zero_add]
        exact ⟨s, rest, by rw [← e1, hd1, hl1, ht j e he], e2⟩)
  refine ⟨js, j1, j3, ?_⟩
  intro s hs hks hs1 hs2
  obtain ⟨e, he, he1, he2, sqls, l, hdb, hl, hls⟩ := h3 s hs hs1 hs2
  obtain ⟨j, hj⟩ := List.getElem?_of_mem he
  have htj := ht j e hj
  refine ⟨j, ?_, by rw [← htj]; exact he1, by rw [← htj]; exact he2⟩
  have := j4 j e hj (by
    subst hks
    unfold pick
    obtain ⟨n1, n2⟩ := hnd e he
    cases hd : e.2.find? (fun d => decide (d.1 = s.db)) with
    | none => exact absurd (List.find?_eq_none.mp hd _ hdb) (by simp)
    | some d =>
      have hd1 : d.1 = s.db := by simpa using List.find?_some hd
      have hdm := List.mem_of_find?_eq_some hd
      have : d = (s.db, sqls) := (List.inj_on_of_nodup_map n1) hdm hdb hd1
      subst this
      simp only [Option.bind_some, Option.isSome_map]
      rw [List.find?_isSome]
      exact ⟨l, hl, by simpa using hls⟩)
  simpa using this

/-- the totals behind the ranking -/
theorem totals_loads [LinearOrder F] (add : F → F → F) (times100 : F → F) (targets : List Str)
    (hours : List (Client.Load.Hour F)) :
    ((totals add times100 targets hours).map (·.1)).Nodup ∧ ∀ k v, (k, v) ∈ totals add times100 targets hours ↔
      loadsOf targets hours k ≠ [] ∧ v = sumPercent add times100 (loadsOf targets hours k) :=
  totals_spec add times100 targets hours

/-- each bar is kept under its own database and statement -/
theorem barTotals_keys [LinearOrder F] (add : F → F → F) (times100 : F → F) (targets : List Str)
    (hours : List (Client.Load.Hour F)) :
    ∀ x ∈ barTotals add times100 targets hours, ∃ b, x.2 = some b ∧ x.1 = (b.db, b.sql) := by
  let I : List (Client.Load.Key × Option (Bar F)) → Prop := fun m => ∀ x ∈ m, ∃ b, x.2 = some b ∧ x.1 = (b.db, b.sql)
  show I _
  unfold barTotals
  apply foldl_inv I
  · intro x hx; cases hx
  intro m h _ hm
  apply foldl_inv I _ _ _ hm
  intro m d _ hm
  split
  · exact hm
  apply foldl_inv I _ _ _ hm
  intro m l _ hm
  unfold addBar
  induction m with
  | nil =>
    intro x hx
    rw [upsert, List.mem_singleton] at hx
    subst hx
    exact ⟨_, rfl, rfl⟩
  | cons y m ih =>
    obtain ⟨k, v⟩ := y
    obtain ⟨b, hb, hkb⟩ := hm (k, v) List.mem_cons_self
    intro x hx
    rw [upsert] at hx
    split at hx
    · rcases List.mem_cons.mp hx with rfl | hx
      · cases hb
        exact ⟨_, rfl, hkb⟩
      · exact hm x (List.mem_cons_of_mem _ hx)
    · rcases List.mem_cons.mp hx with rfl | hx
      · exact ⟨b, hb, hkb⟩
      · exact ih (fun z hz => hm z (List.mem_cons_of_mem _ hz)) x hx

theorem all_some {α : Type} : ∀ l : List (Option α), (∀ x ∈ l, ∃ a, x = some a) → ∃ as : List α, l = as.map some
  | [], _ => ⟨[], rfl⟩
  | x :: l, h => by
    obtain ⟨a, rfl⟩ := h x List.mem_cons_self
    obtain ⟨as, rfl⟩ := all_some l fun y hy => h y (List.mem_cons_of_mem _ hy)
    exact ⟨a :: as, rfl⟩

theorem ranked_of [LinearOrder F] {ops : LoadOps F} (add : F → F → F) (times100 : F → F)
    (order : List (Client.Load.Key × Option (Bar F)) → List (Client.Load.Key × Option (Bar F)))
    (sort : List (Option (Bar F)) → List (Option (Bar F))) (ho : ∀ l, (order l).Perm l) (hs : SortsBars sort) (n : Nat)
    (start : Int) (checked : List Str) (ms : List (Sample F)) (r : List (TimeLoad F))
    (h : Shows ops start (start + sevenDays) ms r) :
    Ranked ops.add add times100 n start checked ms (rankingBars add times100 order sort n (r.map toPage) checked) := by
  obtain ⟨t1, t2⟩ := totals_loads add times100 checked (r.map toPage)
  rw [← C79_ranking_totals] at t1 t2
  have hkeys := barTotals_keys add times100 checked (r.map toPage)
  generalize hT : barTotals add times100 checked (r.map toPage) = T at t1 t2 hkeys
  rw [List.map_map] at t1
  have t1 : (T.map (·.1)).Nodup := t1
  have hperm : (sort ((order T).map (·.2))).Perm (T.map (·.2)) := (hs _).1.trans ((ho _).map _)
  obtain ⟨all, hall⟩ := all_some (sort ((order T).map (·.2))) (by
    intro x hx
    obtain ⟨y, hy, rfl⟩ := List.mem_map.mp (hperm.mem_iff.mp hx)
    obtain ⟨b, hb, -⟩ := hkeys y hy
    exact ⟨b, hb⟩)
  have hmemT : ∀ b, b ∈ all ↔ ((b.db, b.sql), some b) ∈ T := by
    intro b
    have e : b ∈ all ↔ some b ∈ T.map (·.2) := by
      rw [← hperm.mem_iff, hall]
      simp
    rw [e]
    constructor
    · intro hb
      obtain ⟨⟨k, v⟩, hy, hv⟩ := List.mem_map.mp hb
      obtain ⟨b', hb', hk⟩ := hkeys _ hy
      simp only at hv hb' hk
      subst hv
      cases hb'
      rw [← hk]
      exact hy
    · exact fun hb => List.mem_map.mpr ⟨_, hb, rfl⟩
  have hnd : (all.map fun b => (b.db, b.sql)).Nodup := by
    have e1 : all.map (fun b => (b.db, b.sql)) = (all.map some).map (fun o => (o.map fun b => ((b.db, b.sql) : Client.Load.Key)).getD ([], [])) := by
      simp [List.map_map, Function.comp_def]
    rw [e1, ← hall, (hperm.map _).nodup_iff, List.map_map]
    have e2 : T.map ((fun o : Option (Bar F) => (o.map fun b => ((b.db, b.sql) : Client.Load.Key)).getD ([], [])) ∘ (·.2)) = T.map (·.1) := by
      refine List.map_congr_left fun y hy => ?_
      obtain ⟨b, hb, hk⟩ := hkeys y hy
      simp [Function.comp_def, hb, hk]
    rw [e2]
    exact t1
  have hmean : ∀ b ∈ all, loadsOf checked (r.map toPage) (b.db, b.sql) ≠ [] ∧
      some b.percent = sumPercent add times100 (loadsOf checked (r.map toPage) (b.db, b.sql)) := by
    intro b hb
    exact (t2 _ _).mp (List.mem_map.mpr ⟨_, (hmemT b).mp hb, rfl⟩)
  have hck : ∀ k, loadsOf checked (r.map toPage) k ≠ [] → k.1 ∈ checked := by
    intro k hne
    unfold loadsOf at hne
    obtain ⟨a, ha⟩ := List.exists_mem_of_ne_nil _ (fun e => hne (by rw [e]; rfl) :
      (allLoads checked (r.map toPage)).filter (fun a => decide (a.1 = k)) ≠ [])
    rw [List.mem_filter] at ha
    obtain ⟨ha, hk⟩ := ha
    have hk : a.1 = k := by simpa using hk
    unfold allLoads at ha
    obtain ⟨x, -, hx⟩ := List.mem_flatMap.mp ha
    obtain ⟨d, hd, hx⟩ := List.mem_flatMap.mp hx
    obtain ⟨l, -, rfl⟩ := List.mem_map.mp hx
    subst hk
    simpa using (List.mem_filter.mp hd).2
  have hweigh : ∀ k v, k.1 ∈ checked → some v = sumPercent add times100 (loadsOf checked (r.map toPage) k) →
      Weighs ops.add add times100 start ms k v := by
    intro k v hk hv
    obtain ⟨js, j1, j2, j3⟩ := loadsOf_hours h checked k hk
    cases hl : loadsOf checked (r.map toPage) k with
    | nil => rw [hl] at hv; cases hv
    | cons x xs =>
      rw [hl] at hv j2
      exact ⟨js, x, xs, j1, j2, j3, Option.some.inj hv⟩
  have hpw : all.Pairwise fun a b => b.percent ≤ a.percent := by
    have := (hs ((order T).map (·.2))).2
    rw [hall, List.pairwise_map] at this
    exact this.imp fun {a b} hab => hab a b rfl rfl
  refine ⟨all.take n, ?_, List.length_take_le _ _, ?_, ?_, hpw.sublist (List.take_sublist _ _), ?_⟩
  · rw [rankingBars, hT, hall, List.map_take]
  · rw [List.map_take]
    exact hnd.sublist (List.take_sublist _ _)
  · intro b hb
    obtain ⟨h1, h2⟩ := hmean b (List.mem_of_mem_take hb)
    exact ⟨hck _ h1, hweigh _ _ (hck _ h1) h2⟩
  · intro s hsm hs1 hs2 hck' hnot
    obtain ⟨js, j1, j2, j3⟩ := loadsOf_hours h checked (s.db, s.sql) hck'
    obtain ⟨j, hj, -⟩ := j3 s hsm rfl hs1 hs2
    have hne : loadsOf checked (r.map toPage) (s.db, s.sql) ≠ [] := by
      intro e
      rw [e] at j2
      cases j2
      cases hj
    obtain ⟨y, hy, hy'⟩ := List.mem_map.mp ((t2 (s.db, s.sql) _).mpr ⟨hne, rfl⟩)
    obtain ⟨b, hb, hkb⟩ := hkeys y hy
    have hy1 : y.1 = (s.db, s.sql) := congrArg Prod.fst hy'
    have hba : b ∈ all := (hmemT b).mpr (by rw [← hkb, ← hb]; exact hy)
    have hbk : (b.db, b.sql) = (s.db, s.sql) := hkb.symm.trans hy1
    rw [← List.take_append_drop n all, List.mem_append] at hba
    rcases hba with hba | hba
    · exact absurd hbk (hnot b hba)
    · refine ⟨?_, b.percent, ?_, ?_⟩
      · rw [List.length_take, Nat.min_eq_left]
        by_contra hlt
        rw [List.drop_eq_nil_of_le (by omega)] at hba
        cases hba
      · rw [← hbk]
        obtain ⟨h1, h2⟩ := hmean b (List.mem_of_mem_drop hba)
        exact hweigh _ _ (hck _ h1) h2
      · intro b' hb'
        rw [← List.take_append_drop n all, List.pairwise_append] at hpw
        exact hpw.2.2 b' hb' b hba

variable {N : Nums F} {R : ReadFloat F}

/-- C93 (partial): opening the file of a run of `dig performance-insights` shows, on both tabs, whatever databases are
checked, a ranking of the statements by their load over the week asked for.
Missing: a load that is not finite (`C93_blank`); a start whose zone is off by a part of an hour (C37). -/
theorem C93_ranking_partial [LinearOrder F] {E : Type} {ops : LoadOps F} (hlt : ∀ a b, ops.lt a b = decide (a < b))
    (hN : Loads.Ok N R) (w : World E F) (o : Options) (res : Except (Err E) Unit) (effs : List (Effect F)) (path : Str)
    (r : Cmd.PerfInsights.Report F) (h : run ops w o = some (res, effs)) (hr : .html path r ∈ effs) (hf : FiniteReport N r)
    (style script : Str) :
    ∃ is marker dbs start, w.describe [engine] none = .ok (is, marker) ∧ Listed is dbs ∧ Begins w o start ∧
      ∀ k, start.zone.offset = k * hour → start.ns.natAbs ≤ 4 * 10 ^ 20 →
        (∀ tok, ∀ s ∈ measurements ops w start tok dbs, s.time.zone = .utc) →
        ∃ plain tokenized, openPlain N R (pageText (loadsVal N r) style script) = .ok plain ∧
          openTokenized N R (pageText (loadsVal N r) style script) = .ok (tokenized, plain) ∧
          ∀ (add : F → F → F) (times100 : F → F)
            (order : List (Client.Load.Key × Option (Bar F)) → List (Client.Load.Key × Option (Bar F)))
            (sort : List (Option (Bar F)) → List (Option (Bar F))), (∀ l, (order l).Perm l) → SortsBars sort →
            ∀ (n : Nat) (checked : List Str),
              Ranked ops.add add times100 n start.ns checked (measurements ops w start false dbs)
                (rankingBars add times100 order sort n plain checked) ∧
              Ranked ops.add add times100 n start.ns checked (measurements ops w start true dbs)
                (rankingBars add times100 order sort n tokenized checked) := by
  obtain ⟨is, marker, dbs, start, h1, h2, h3, -, -, -, -, h4⟩ := C82_report ops w o (laws_of hlt) res effs path r h hr
  refine ⟨is, marker, dbs, start, h1, h2, h3, fun k hk hy hutc => ?_⟩
  have s1 := (h4 k hk).1 (hutc false)
  have s2 := (h4 k hk).2 (hutc true)
  obtain ⟨o1, o2⟩ := loads_opened hN r style script hf (by
    intro x hx
    rcases List.mem_append.mp hx with hx | hx
    · exact hours_exact s1 hy x hx
    · exact hours_exact s2 hy x hx) (hours_ne s1) (hours_ne s2)
  exact ⟨_, _, o1, o2, fun add times100 order sort ho hs n checked =>
    ⟨ranked_of add times100 order sort ho hs n start.ns checked _ _ s1,
      ranked_of add times100 order sort ho hs n start.ns checked _ _ s2⟩⟩

end

/-! ## A case -/

/-- C93: in the run of the example the ranking lists one statement if one is asked for, however the page sorts -/
example (sort : List (Option (Bar Nat)) → List (Option (Bar Nat))) (hs : SortsBars sort) :
    ∃ plain tokenized r, openTokenized exNums exRead (pageText (loadsVal exNums r) [] []) = .ok (tokenized, plain) ∧
      ∃ bars : List (Bar Nat), rankingBars (· + ·) (· * 100) id sort 1 tokenized [['a']] = [bars.map some] ∧
        bars.length = 1 := by
  obtain ⟨effs, r, h1, h2⟩ := ex_run
  obtain ⟨is, marker, dbs, start, d1, d2, d3, h⟩ := C93_ranking_partial (N := exNums) (R := exRead) (fun _ _ => rfl)
    exNums_loads Cmd.PerfInsights.exWorld _ _ effs _ r h1 h2 (fun _ _ _ _ _ _ => ⟨by simp [Finite, exNums], by simp [Finite, exNums]⟩) [] []
  obtain ⟨rfl, rfl, -⟩ := ex_measured true is marker dbs start d1 d2 d3
  obtain ⟨plain, tokenized, -, ho, ht⟩ := h 9 rfl (by decide) (fun tok => (ex_measured tok is marker _ _ d1 d2 d3).2.2)
  refine ⟨plain, tokenized, r, ho, ?_⟩
  obtain ⟨s, hm, m1, m2, m3, m4⟩ := ex_sample
  obtain ⟨bars, hb, hlen, -, -, -, hall⟩ := (ht (· + ·) (· * 100) id sort (fun _ => .refl _) hs 1 [['a']]).2
  refine ⟨bars, hb, ?_⟩
  cases bars with
  | cons b bars => exact Nat.le_antisymm hlen (by simp)
  | nil => exact (hall s hm (by rw [m1]; decide) (by rw [m1]; decide) (by rw [m2]; decide) nofun).1

end Verif.Report
