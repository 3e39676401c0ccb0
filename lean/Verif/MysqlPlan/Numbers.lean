import Mathlib.Algebra.Order.Ring.Rat
import Mathlib.Tactic.NormNum
import Verif.Regex.Numbers
import Verif.MysqlPlan.Props
/-!
# C26, C51: the numbers of a MySQL plan line
-/
namespace Verif.MysqlPlan
open Verif.Regex Verif.Lib

/-! ## Specification of printed lines -/

/-- `(actual time=A..B rows=R loops=L)` as MySQL prints it. -/
def actualText (a b : Str) (rows loops : Nat) : Str :=
  pairText "(actual time=".toList " rows=".toList " loops=".toList a b (dec rows) (dec loops)

/-- `(cost=C)` or `(cost=A..C)`, optionally with ` rows=R`, as MySQL prints it. -/
def estimationText (init : Option Str) (c : Str) (rows : Option Nat) : Str :=
  costText "(cost=".toList " rows=".toList init c (rows.map dec)

/-- `s` does not occur in `t`. -/
def Absent (s t : Str) : Prop := ∀ t1 t2, t = t1 ++ t2 → ¬ s <+: t2

/-- What is assumed of `float64` (finite, non-negative values and their order), all true of IEEE
754 arithmetic with any fixed rounding mode, because rounding is monotone. -/
structure FloatLaws {F : Type} (O : FloatOps F) (le : F → F → Prop) : Prop where
  refl : ∀ a, le a a
  trans : ∀ a b c, le a b → le b c → le a c
  tenthMilli_nonneg : le O.zero O.tenthMilli
  ofInt_nonneg : ∀ n : Int, 0 ≤ n → le O.zero (O.ofInt n)
  ofInt_mono : ∀ m n : Int, m ≤ n → le (O.ofInt m) (O.ofInt n)
  zero_mul : ∀ n : Int, 0 ≤ n → O.mul O.zero (O.ofInt n) = O.zero
  mul_mono_right : ∀ c a b, le O.zero c → le O.zero a → le a b → le (O.mul c a) (O.mul c b)
  mul_mono_left : ∀ c a b, le O.zero c → le O.zero a → le a b → le (O.mul a c) (O.mul b c)
  mul_nonneg : ∀ a b, le O.zero a → le O.zero b → le O.zero (O.mul a b)

/-! ## Lemmas -/

theorem actualText_eq (a b : Str) (rows loops : Nat) : actualText a b rows loops =
    pairText "(actual time=".toList " rows=".toList " loops=".toList a b (dec rows) (dec loops) :=
  rfl

theorem analyzeActualReg_eq : analyzeActualReg =
    pairReg "(actual time=".toList " rows=".toList " loops=".toList := by
  have h1 : ("..".toList : List Char) = ['.', '.'] := by simp
  have h2 : (")".toList : List Char) = [')'] := by simp
  rw [analyzeActualReg, pairReg, h1, h2]

theorem analyzeEstimationReg_eq : analyzeEstimationReg =
    costReg "(cost=".toList " rows=".toList := by
  have h1 : ("..".toList : List Char) = ['.', '.'] := by simp
  have h2 : (")".toList : List Char) = [')'] := by simp
  rw [analyzeEstimationReg, costReg, h1, h2]

theorem parseInt_dec (n : Nat) (h : n < 2 ^ 63) : parseInt (dec n) = .ok (n : Int) := by
  rw [parseInt, digitsVal_dec, if_pos h]

section
variable {F : Type} (pf : Str → Option F)

theorem addActual_other (line : Str) (l l' : Line F) (h : addActual pf line l = .ok l') :
    l'.estimatedInitCost = l.estimatedInitCost ∧ l'.estimatedCost = l.estimatedCost ∧
    l'.estimatedReturnedRows = l.estimatedReturnedRows ∧ l'.tableName = l.tableName := by
  unfold addActual at h
  split at h
  · cases h; exact ⟨rfl, rfl, rfl, rfl⟩
  · obtain ⟨_, _, h⟩ := bind_ok h
    obtain ⟨_, _, h⟩ := bind_ok h
    obtain ⟨_, _, h⟩ := bind_ok h
    obtain ⟨_, _, h⟩ := bind_ok h
    cases h; exact ⟨rfl, rfl, rfl, rfl⟩

theorem addEstimation_other (line : Str) (l l' : Line F) (h : addEstimation pf line l = .ok l') :
    l'.actualTimeFirstRow = l.actualTimeFirstRow ∧ l'.actualTimeAvg = l.actualTimeAvg ∧
    l'.actualReturnedRows = l.actualReturnedRows ∧ l'.actualLoopCount = l.actualLoopCount ∧
    l'.tableName = l.tableName := by
  unfold addEstimation at h
  split at h
  · cases h; exact ⟨rfl, rfl, rfl, rfl, rfl⟩
  · obtain ⟨l1, h1, h⟩ := bind_ok h
    have e1 : l1.actualTimeFirstRow = l.actualTimeFirstRow ∧ l1.actualTimeAvg = l.actualTimeAvg ∧
        l1.actualReturnedRows = l.actualReturnedRows ∧ l1.actualLoopCount = l.actualLoopCount ∧
        l1.tableName = l.tableName := by
      unfold addCost at h1
      split at h1
      · obtain ⟨_, _, h1⟩ := bind_ok h1; cases h1; exact ⟨rfl, rfl, rfl, rfl, rfl⟩
      · obtain ⟨_, _, h1⟩ := bind_ok h1
        obtain ⟨_, _, h1⟩ := bind_ok h1
        cases h1; exact ⟨rfl, rfl, rfl, rfl, rfl⟩
    unfold addRows at h
    split at h
    · obtain ⟨_, _, h⟩ := bind_ok h; cases h; exact e1
    · cases h; exact e1

/-! ## C51: numbers are read exactly -/

/-- C51: whatever precedes and follows it on the line, the printed actual part is read back exactly:
first-row time, average time, rows and loops.  (`(actual time=` must not occur earlier.) -/
theorem C51_actual_read (p a b q : Str) (rows loops : Nat) (fa fb : F) (n : Nat) (L : Line F)
    (ha : Decimal a) (hb : Decimal b) (hrows : rows < 2 ^ 63) (hloops : loops < 2 ^ 63)
    (hfa : pf a = some fa) (hfb : pf b = some fb)
    (hp : FirstAt "(actual time=".toList p (actualText a b rows loops ++ q))
    (h : parseLine pf (p ++ actualText a b rows loops ++ q) = .ok (n, L)) :
    L.actualTimeFirstRow = some fa ∧ L.actualTimeAvg = some fb ∧
      L.actualReturnedRows = some (rows : Int) ∧ L.actualLoopCount = some (loops : Int) := by
  unfold parseLine at h
  obtain ⟨l1, _, h⟩ := bind_ok h
  obtain ⟨l2, h2, h⟩ := bind_ok h
  cases h
  rw [actualText_eq] at hp h2
  obtain ⟨m, hm, hc⟩ := find_pair "(actual time=".toList " rows=".toList " loops=".toList p a b
    (dec rows) (dec loops) q ' ' ' ' "rows=".toList "loops=".toList (by simp) (by decide) (by simp)
    (by decide) ha hb (dec_ne_nil _) (dec_isDig _) (dec_ne_nil _) (dec_isDig _) hp
  have c1 : m.cap 1 = a := by simp [St.cap, hc, List.lookup]
  have c2 : m.cap 2 = b := by simp [St.cap, hc, List.lookup]
  have c3 : m.cap 3 = dec rows := by simp [St.cap, hc, List.lookup]
  have c4 : m.cap 4 = dec loops := by simp [St.cap, hc, List.lookup]
  rw [List.append_assoc] at h2
  unfold addActual at h2
  rw [analyzeActualReg_eq, hm] at h2
  simp only [c1, c2, c3, c4, parseFloat, hfa, hfb, parseInt_dec _ hrows, parseInt_dec _ hloops] at h2
  cases h2
  exact ⟨rfl, rfl, rfl, rfl⟩

/-- C51: a line without an actual part (a node that was never executed) has no actual numbers. -/
theorem C51_actual_absent (line : Str) (n : Nat) (L : Line F)
    (ha : Absent "(actual time=".toList line) (h : parseLine pf line = .ok (n, L)) :
    L.actualTimeFirstRow = none ∧ L.actualTimeAvg = none ∧ L.actualReturnedRows = none ∧
      L.actualLoopCount = none := by
  unfold parseLine at h
  obtain ⟨l1, h1, h⟩ := bind_ok h
  obtain ⟨l2, h2, h⟩ := bind_ok h
  cases h
  have : find analyzeActualReg line = none := by
    rw [analyzeActualReg_eq, find, pairReg]
    exact find_none_of_absent _ _ line 0 ha
  unfold addActual at h2
  rw [this] at h2
  cases h2
  obtain ⟨e1, e2, e3, e4, _⟩ := addEstimation_other pf line _ _ h1
  exact ⟨e1, e2, e3, e4⟩

/-- C51: the printed estimation is read back exactly in each of its forms: `(cost=C)`,
`(cost=A..C)`, with or without ` rows=R`. -/
theorem C51_cost_read (p : Str) (init : Option Str) (c q : Str) (rows : Option Nat) (n : Nat)
    (L : Line F) (fi : Option F) (fc : F)
    (hi : ∀ a ∈ init, Decimal a) (hc : Decimal c) (hr : ∀ r ∈ rows, r < 2 ^ 63)
    (hfi : init.map pf = fi.map some) (hfc : pf c = some fc)
    (hp : FirstAt "(cost=".toList p (estimationText init c rows ++ q))
    (h : parseLine pf (p ++ estimationText init c rows ++ q) = .ok (n, L)) :
    L.estimatedInitCost = fi ∧ L.estimatedCost = some fc ∧
      L.estimatedReturnedRows = rows.map (fun r => (r : Int)) := by
  unfold parseLine at h
  obtain ⟨l1, h1, h⟩ := bind_ok h
  obtain ⟨l2, h2, h⟩ := bind_ok h
  cases h
  obtain ⟨o1, o2, o3, _⟩ := addActual_other pf _ _ _ h2
  rw [o1, o2, o3]
  obtain ⟨m, hm, c1, c2, c3, c4, c5⟩ := run_cost " rows=".toList "rows=".toList q ' ' (by simp)
    (by decide) (by decide) "(cost=".toList init c (rows.map dec) (0 + p.length) hi hc (by
      intro r hr'
      obtain ⟨r0, _, rfl⟩ := Option.mem_map.mp hr'
      exact ⟨dec_ne_nil _, dec_isDig _⟩)
  have hfind : find analyzeEstimationReg (p ++ (estimationText init c rows ++ q)) = some m := by
    rw [analyzeEstimationReg_eq, find, find_skip]
    · exact hm
    · intro p1 p2 e h2 pos'
      rw [costReg, run_seq, run_lit_none]
      exact hp p1 p2 e h2
    · rw [show estimationText init c rows = costText "(cost=".toList " rows=".toList init c
        (rows.map dec) from rfl, hm]; rfl
  rw [List.append_assoc] at h1
  unfold addEstimation at h1
  rw [hfind] at h1
  obtain ⟨l3, h3, h1⟩ := bind_ok h1
  have e3 : l3.estimatedInitCost = fi ∧ l3.estimatedCost = some fc ∧
      l3.estimatedReturnedRows = none := by
    unfold addCost at h3
    cases init with
    | none =>
      rw [if_pos (c2.mpr rfl)] at h3
      obtain ⟨x, hx, h3⟩ := bind_ok h3
      rw [c1, Option.getD_none, parseFloat, hfc] at hx
      cases hx; cases h3
      cases fi with
      | none => exact ⟨rfl, rfl, rfl⟩
      | some _ => simp at hfi
    | some a =>
      rw [if_neg (fun e => by have := c2.mp e; cases this)] at h3
      obtain ⟨x, hx, h3⟩ := bind_ok h3
      obtain ⟨y, hy, h3⟩ := bind_ok h3
      rw [c3 (by simp), parseFloat, hfc] at hy
      cases fi with
      | none => simp at hfi
      | some v =>
        have hv : pf a = some v := by simpa using hfi
        rw [c1, Option.getD_some, parseFloat, hv] at hx
        cases hx; cases hy; cases h3
        exact ⟨rfl, rfl, rfl⟩
  unfold addRows at h1
  cases hrows : rows with
  | none =>
    rw [if_neg (by rw [ne_eq, not_not]; exact c4.mpr (by rw [hrows]; rfl))] at h1
    cases h1
    exact e3
  | some r =>
    rw [if_pos (by rw [ne_eq, c4, hrows]; simp)] at h1
    obtain ⟨x, hx, h1⟩ := bind_ok h1
    rw [c5 (dec r) (by rw [hrows]; rfl), parseInt_dec r (hr r hrows)] at hx
    cases hx; cases h1
    exact ⟨e3.1, e3.2.1, rfl⟩

/-- C51: the table is the word after the first ` on `. -/
theorem C51_table_read (p t q : Str) (n : Nat) (L : Line F) (ht : t ≠ [])
    (hw : ∀ c ∈ t, isWord c = true) (hq : ∀ c ∈ q.head?, isWord c = false)
    (hp : FirstAt " on ".toList p (" on ".toList ++ (t ++ q)))
    (h : parseLine pf (p ++ (" on ".toList ++ (t ++ q))) = .ok (n, L)) : L.tableName = t := by
  unfold parseLine at h
  obtain ⟨l1, h1, h⟩ := bind_ok h
  obtain ⟨l2, h2, h⟩ := bind_ok h
  cases h
  rw [(addActual_other pf _ _ _ h2).2.2.2, (addEstimation_other pf _ _ _ h1).2.2.2.2]
  have hrun : ∀ pos, run onReg ⟨pos, " on ".toList ++ (t ++ q), []⟩ some =
      some ⟨pos + " on ".toList.length + t.length, q, [(1, t)]⟩ := by
    intro pos
    rw [onReg, run_seq, run_lit, word, run_grp_greedy 1 isWord _ [] t q _ ht hw hq rfl]
  have hfind : find onReg (p ++ (" on ".toList ++ (t ++ q))) =
      some ⟨0 + p.length + " on ".toList.length + t.length, q, [(1, t)]⟩ := by
    rw [find, find_skip, hrun]
    · intro p1 p2 e h2 pos'
      rw [onReg, run_seq, run_lit_none]
      exact hp p1 p2 e h2
    · rw [hrun]; rfl
  show extractTable _ = t
  unfold extractTable firstMatch
  rw [hfind]
  simp [St.cap]

/-! ## C26: the estimated total time -/

/-- C26: the time shown for a printed line is average times loops, except that an average of zero
with more than 1000 loops counts 0.0001 per loop. -/
theorem C26_from_text [DecidableEq F] (O : FloatOps F) (p a b q : Str) (rows loops : Nat) (fa fb : F)
    (n : Nat) (L : Line F)
    (ha : Decimal a) (hb : Decimal b) (hrows : rows < 2 ^ 63) (hloops : loops < 2 ^ 63)
    (hfa : pf a = some fa) (hfb : pf b = some fb)
    (hp : FirstAt "(actual time=".toList p (actualText a b rows loops ++ q))
    (h : parseLine pf (p ++ actualText a b rows loops ++ q) = .ok (n, L)) :
    L.estimatedTotalTime O = O.mul (if fb = O.zero ∧ 1000 < loops then O.tenthMilli else fb)
      (O.ofInt loops) := by
  obtain ⟨_, h2, _, h4⟩ := C51_actual_read pf p a b q rows loops fa fb n L ha hb hrows hloops hfa
    hfb hp h
  have hcast : ((loops : Int) > 1000) ↔ 1000 < loops := by omega
  unfold Line.estimatedTotalTime
  rw [h2, h4]
  simp only [Option.getD_some, hcast]
  split <;> rfl

end

section
variable {F : Type} [DecidableEq F] (O : FloatOps F) (le : F → F → Prop)

/-- C26: never negative for non-negative numbers (nulls count as zero). -/
theorem C26_nonneg (hO : FloatLaws O le) (l : Line F)
    (ha : ∀ t ∈ l.actualTimeAvg, le O.zero t) (hl : ∀ n ∈ l.actualLoopCount, 0 ≤ n) :
    le O.zero (l.estimatedTotalTime O) := by
  have h1 : le O.zero (l.actualTimeAvg.getD O.zero) := by
    cases h : l.actualTimeAvg with
    | none => exact hO.refl _
    | some t => exact ha t h
  have h2 : 0 ≤ l.actualLoopCount.getD 0 := by
    cases h : l.actualLoopCount with
    | none => exact Int.le_refl _
    | some n => exact hl n h
  unfold Line.estimatedTotalTime
  split
  · exact hO.mul_nonneg _ _ hO.tenthMilli_nonneg (hO.ofInt_nonneg _ h2)
  · exact hO.mul_nonneg _ _ h1 (hO.ofInt_nonneg _ h2)

/-- C26: more loops at the same average never make the estimate smaller, also across the 1000 loop
boundary. -/
theorem C26_monotone_in_loops (hO : FloatLaws O le) (l l' : Line F) (m n : Int)
    (ht : l'.actualTimeAvg = l.actualTimeAvg) (ha : ∀ t ∈ l.actualTimeAvg, le O.zero t)
    (hm : l.actualLoopCount = some m) (hn : l'.actualLoopCount = some n) (h0 : 0 ≤ m) (hmn : m ≤ n) :
    le (l.estimatedTotalTime O) (l'.estimatedTotalTime O) := by
  have h1 : le O.zero (l.actualTimeAvg.getD O.zero) := by
    cases h : l.actualTimeAvg with
    | none => exact hO.refl _
    | some t => exact ha t h
  have hn0 : 0 ≤ n := Int.le_trans h0 hmn
  unfold Line.estimatedTotalTime
  rw [ht, hm, hn]
  simp only [Option.getD_some]
  by_cases hz : l.actualTimeAvg.getD O.zero = O.zero
  · by_cases hm1 : m > 1000
    · rw [if_pos ⟨hz, hm1⟩, if_pos ⟨hz, by omega⟩]
      exact hO.mul_mono_right _ _ _ hO.tenthMilli_nonneg (hO.ofInt_nonneg _ h0)
        (hO.ofInt_mono _ _ hmn)
    · rw [if_neg (fun h => hm1 h.2), hz, hO.zero_mul m h0]
      split
      · exact hO.mul_nonneg _ _ hO.tenthMilli_nonneg (hO.ofInt_nonneg _ hn0)
      · rw [hO.zero_mul n hn0]; exact hO.refl _
  · rw [if_neg (fun h => hz h.1), if_neg (fun h => hz h.1)]
    exact hO.mul_mono_right _ _ _ h1 (hO.ofInt_nonneg _ h0) (hO.ofInt_mono _ _ hmn)

/-- C26: a larger average at the same loops does not make the estimate smaller, provided the larger
average is at least 0.0001 (MySQL prints three decimals, so it is, unless it is zero). -/
theorem C26_monotone_in_average (hO : FloatLaws O le) (l l' : Line F) (s t : F) (n : Int)
    (hs : l.actualTimeAvg = some s) (ht : l'.actualTimeAvg = some t)
    (hl : l.actualLoopCount = some n) (hl' : l'.actualLoopCount = some n) (hn : 0 ≤ n)
    (h0 : le O.zero s) (hst : le s t) (ht' : le O.tenthMilli t) :
    le (l.estimatedTotalTime O) (l'.estimatedTotalTime O) := by
  have hn0 := hO.ofInt_nonneg n hn
  unfold Line.estimatedTotalTime
  rw [hs, ht, hl, hl']
  simp only [Option.getD_some]
  by_cases hz : t = O.zero
  · subst hz
    by_cases h1 : n > 1000
    · rw [if_pos (⟨rfl, h1⟩ : O.zero = O.zero ∧ n > 1000)]
      split
      · exact hO.refl _
      · exact hO.mul_mono_left _ _ _ hn0 h0 (hO.trans _ _ _ hst hO.tenthMilli_nonneg)
    · rw [if_neg (fun h => h1 h.2), if_neg (fun h => h1 h.2)]
      exact hO.mul_mono_left _ _ _ hn0 h0 hst
  · rw [if_neg (fun h : t = O.zero ∧ _ => hz h.1)]
    split
    · exact hO.mul_mono_left _ _ _ hn0 hO.tenthMilli_nonneg ht'
    · exact hO.mul_mono_left _ _ _ hn0 h0 hst

end

/-! ## Examples -/

/-- exact arithmetic, which satisfies the laws -/
def ratOps : FloatOps Rat := ⟨0, 1 / 10000, fun n => (n : Rat), fun a b => a * b⟩

theorem ratOps_laws : FloatLaws ratOps (· ≤ ·) where
  refl := le_refl
  trans _ _ _ := le_trans
  tenthMilli_nonneg := by simp [ratOps]
  ofInt_nonneg n h := by simpa [ratOps] using h
  ofInt_mono m n h := by simpa [ratOps] using h
  zero_mul n _ := by simp [ratOps]
  mul_mono_right c a b hc _ h := mul_le_mul_of_nonneg_left h hc
  mul_mono_left c a b hc _ h := mul_le_mul_of_nonneg_right h hc
  mul_nonneg a b ha hb := _root_.mul_nonneg ha hb

/-- C26: without that proviso it does make it smaller: an average of 0.00001 over 2000 loops counts
less than an average of zero. -/
theorem C26_not_monotone_below_tenth_milli :
    (Line.estimatedTotalTime ratOps { actualTimeAvg := some (1 / 100000), actualLoopCount := some 2000 })
      < Line.estimatedTotalTime ratOps { actualTimeAvg := some 0, actualLoopCount := some 2000 } := by
  simp only [Line.estimatedTotalTime, ratOps, Option.getD_some]
  norm_num

example : actualText "0.1".toList "0.25".toList 30 4 =
    "(actual time=0.1..0.25 rows=30 loops=4)".toList := by decide +kernel
example : estimationText (some "0.1".toList) "7".toList (some 12) =
    "(cost=0.1..7 rows=12)".toList := by decide +kernel

/-- a line with everything -/
def exLine : Str :=
  "    -> Table scan on users (cost=0.1..10.25 rows=98) (actual time=0.059..0.1 rows=100 loops=3)".toList

example : (match parseLine exFloat exLine with
    | .ok (n, l) => some (n, String.ofList l.tableName)
    | .error _ => none) = some (1, "users") := by decide +kernel
example : (match parseLine exFloat exLine with
    | .ok (_, l) => some (l.estimatedInitCost, l.estimatedCost, l.estimatedReturnedRows)
    | .error _ => none) = some (some "0.1".toList, some "10.25".toList, some 98) := by
  decide +kernel
example : (match parseLine exFloat exLine with
    | .ok (_, l) => some (l.actualTimeFirstRow, l.actualTimeAvg, l.actualReturnedRows,
        l.actualLoopCount)
    | .error _ => none) =
      some (some "0.059".toList, some "0.1".toList, some 100, some 3) := by decide +kernel

example : Decimal "0.059".toList :=
  ⟨"0".toList, "059".toList, by simp, by simp; decide, by simp; decide, .inr ⟨by simp, by simp⟩⟩

example : FirstAt "(actual time=".toList "-> a (cost=1) ".toList
    (actualText ['1'] ['2'] 3 4 ++ []) := by
  have key : ∀ n < 14, ("(actual time=".toList).isPrefixOf
      (("-> a (cost=1) ".toList).drop n ++ (actualText ['1'] ['2'] 3 4 ++ [])) = false := by
    decide +kernel
  intro p1 p2 h h2 hp
  have e : p2 = ("-> a (cost=1) ".toList).drop p1.length := by rw [h]; simp
  have hl : p1.length < 14 := by
    have := congrArg List.length h
    have h3 : 0 < p2.length := List.length_pos_iff.mpr h2
    rw [List.length_append, show ("-> a (cost=1) ".toList).length = 14 by decide +kernel] at this
    omega
  have := key _ hl
  rw [← e, List.isPrefixOf_iff_prefix.mpr hp] at this
  cases this

end Verif.MysqlPlan
