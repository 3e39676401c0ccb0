import Verif.Regex.Lang
import Verif.MysqlPlan.Numbers
/-!
# C22, C51: which lines of a MySQL plan can be read, and whose numbers are lost
-/
namespace Verif.MysqlPlan
open Verif.Regex Verif.Lib

/-! ## Specification -/

/-- The line has an estimation as MySQL prints it (or none), with numbers that fit. -/
def EstimationPrinted {F : Type} (pf : Str → Option F) (line : Str) : Prop :=
  Absent "(cost=".toList line ∨ ∃ p init c rows q,
    line = p ++ (estimationText init c rows ++ q) ∧
    FirstAt "(cost=".toList p (estimationText init c rows ++ q) ∧
    (∀ a ∈ init, Decimal a ∧ ∃ x, pf a = some x) ∧ (Decimal c ∧ ∃ x, pf c = some x) ∧
    ∀ r ∈ rows, r < 2 ^ 63

/-- The line has an actual part as MySQL prints it (or none), with numbers that fit. -/
def ActualPrinted {F : Type} (pf : Str → Option F) (line : Str) : Prop :=
  Absent "(actual time=".toList line ∨ ∃ p a b rows loops q,
    line = p ++ (actualText a b rows loops ++ q) ∧
    FirstAt "(actual time=".toList p (actualText a b rows loops ++ q) ∧
    (Decimal a ∧ ∃ x, pf a = some x) ∧ (Decimal b ∧ ∃ x, pf b = some x) ∧
    rows < 2 ^ 63 ∧ loops < 2 ^ 63

/-- `(actual time=A..B rows=R loops=L)` with any runs of digits and dots as times and any runs of
digits as counts. -/
def ActualShape (u : Str) : Prop := ∃ a b r l : Str,
  (a ≠ [] ∧ ∀ c ∈ a, isDig c = true ∨ c = '.') ∧ (b ≠ [] ∧ ∀ c ∈ b, isDig c = true ∨ c = '.') ∧
  (r ≠ [] ∧ ∀ c ∈ r, isDig c = true) ∧ (l ≠ [] ∧ ∀ c ∈ l, isDig c = true) ∧
  u = "(actual time=".toList ++ (a ++ ("..".toList ++ (b ++ (" rows=".toList ++ (r ++
    (" loops=".toList ++ (l ++ ")".toList)))))))

/-! ## Lemmas -/

section
variable {F : Type} (pf : Str → Option F)

theorem addEstimation_ok (line : Str) (h : EstimationPrinted pf line) (l : Line F) :
    ∃ l', addEstimation pf line l = .ok l' := by
  rcases h with h | ⟨p, init, c, rows, q, rfl, hp, hi, ⟨hc, fc, hfc⟩, hr⟩
  · have : find analyzeEstimationReg line = none := by
      rw [analyzeEstimationReg_eq, find, costReg]
      exact find_none_of_absent _ _ line 0 h
    unfold addEstimation
    rw [this]
    exact ⟨_, rfl⟩
  · obtain ⟨m, hm, c1, c2, c3, c4, c5⟩ := run_cost " rows=".toList "rows=".toList q ' ' (by simp)
      (by decide) (by decide) "(cost=".toList init c (rows.map dec) (0 + p.length)
      (fun a ha => (hi a ha).1) hc (by
        intro r hr'
        obtain ⟨r0, _, rfl⟩ := Option.mem_map.mp hr'
        exact ⟨dec_ne_nil _, dec_isDig _⟩)
    have hfind : find analyzeEstimationReg (p ++ (estimationText init c rows ++ q)) = some m := by
      rw [analyzeEstimationReg_eq, find, find_skip]
      · exact hm
      · intro p1 p2 e h2 pos'
        rw [costReg, run_seq, run_lit_none]
        exact hp p1 p2 e h2
      · rw [show estimationText init c rows = costText "(cost=".toList " rows=".toList init c
          (rows.map dec) from rfl, hm]; rfl
    have hcost : ∃ l1, addCost pf m l = .ok l1 := by
      unfold addCost
      cases init with
      | none =>
        rw [if_pos (c2.mpr rfl), c1, Option.getD_none, parseFloat, hfc]
        exact ⟨_, rfl⟩
      | some a =>
        obtain ⟨_, fa, hfa⟩ := hi a rfl
        rw [if_neg (fun e => by have := c2.mp e; cases this), c1, Option.getD_some, c3 (by simp),
          parseFloat, parseFloat, hfa, hfc]
        exact ⟨_, rfl⟩
    obtain ⟨l1, h1⟩ := hcost
    have hrows : ∃ l2, addRows m l1 = .ok l2 := by
      unfold addRows
      cases rows with
      | none => rw [if_neg (by rw [ne_eq, not_not]; exact c4.mpr rfl)]; exact ⟨_, rfl⟩
      | some r =>
        rw [if_pos (by rw [ne_eq, c4]; simp), c5 (dec r) rfl, parseInt_dec r (hr r rfl)]
        exact ⟨_, rfl⟩
    obtain ⟨l2, h2⟩ := hrows
    refine ⟨l2, ?_⟩
    unfold addEstimation
    rw [hfind]
    show (do let l ← addCost pf m l; addRows m l) = _
    rw [h1]
    exact h2

theorem addActual_ok (line : Str) (h : ActualPrinted pf line) (l : Line F) :
    ∃ l', addActual pf line l = .ok l' := by
  rcases h with h | ⟨p, a, b, rows, loops, q, rfl, hp, ⟨ha, fa, hfa⟩, ⟨hb, fb, hfb⟩, hrows, hloops⟩
  · have : find analyzeActualReg line = none := by
      rw [analyzeActualReg_eq, find, pairReg]
      exact find_none_of_absent _ _ line 0 h
    unfold addActual
    rw [this]
    exact ⟨_, rfl⟩
  · rw [actualText_eq] at hp ⊢
    obtain ⟨m, hm, hc⟩ := find_pair "(actual time=".toList " rows=".toList " loops=".toList p a b
      (dec rows) (dec loops) q ' ' ' ' "rows=".toList "loops=".toList (by simp) (by decide) (by simp)
      (by decide) ha hb (dec_ne_nil _) (dec_isDig _) (dec_ne_nil _) (dec_isDig _) hp
    have c1 : m.cap 1 = a := by simp [St.cap, hc, List.lookup]
    have c2 : m.cap 2 = b := by simp [St.cap, hc, List.lookup]
    have c3 : m.cap 3 = dec rows := by simp [St.cap, hc, List.lookup]
    have c4 : m.cap 4 = dec loops := by simp [St.cap, hc, List.lookup]
    unfold addActual
    rw [analyzeActualReg_eq, hm]
    simp only [c1, c2, c3, c4, parseFloat, hfa, hfb, parseInt_dec _ hrows, parseInt_dec _ hloops]
    exact ⟨_, rfl⟩

theorem find_actual_none (line : Str) : find analyzeActualReg line = none ↔
    ∀ p u q, line = p ++ (u ++ q) → ¬ ActualShape u := by
  have hd : ("..".toList : List Char) = ['.', '.'] := by simp
  have hb : (")".toList : List Char) = [')'] := by simp
  rw [analyzeActualReg_eq, find_none_iff]
  constructor
  · rintro h p u q e ⟨a, b, r, l, ha, hb', hr, hl, rfl⟩
    obtain ⟨s', hs⟩ := step_pair_of "(actual time=".toList " rows=".toList " loops=".toList
      ⟨p.length, _, []⟩ a b r l q
      ⟨ha.1, fun c hc => (isNum_iff c).mpr (ha.2 c hc)⟩
      ⟨hb'.1, fun c hc => (isNum_iff c).mpr (hb'.2 c hc)⟩ hr hl rfl
    refine h p _ s' e ?_
    rw [hd, hb]
    exact hs
  · intro h p t s' e hs
    obtain ⟨a, b, r, l, ha, hb', hr, hl, e1, _⟩ := step_pair _ _ _ _ _ hs
    refine h p (pairText "(actual time=".toList " rows=".toList " loops=".toList a b r l) s'.rest
      (by rw [e]; exact congrArg (p ++ ·) e1) ⟨a, b, r, l,
      ⟨ha.1, fun c hc => (isNum_iff c).mp (ha.2 c hc)⟩,
      ⟨hb'.1, fun c hc => (isNum_iff c).mp (hb'.2 c hc)⟩, hr, hl, ?_⟩
    rw [hd, hb]; rfl

/-! ## The theorems -/

/-- C51: every line whose estimation and actual part are printed in one of MySQL's forms (or are not
there) is read. -/
theorem C51_readable (line : Str) (he : EstimationPrinted pf line) (ha : ActualPrinted pf line) :
    Readable pf line := by
  obtain ⟨l1, h1⟩ := addEstimation_ok pf line he { text := line, tableName := extractTable line }
  obtain ⟨l2, h2⟩ := addActual_ok pf line ha l1
  refine ⟨(nestSize line, l2), ?_⟩
  unfold parseLine
  rw [h1]
  show (do let l ← addActual pf line l1; pure (nestSize line, l)) = _
  rw [h2]
  rfl

/-- C22: so a plan of such lines is accepted exactly when its indentation never jumps. -/
theorem C22_printed (text : Str)
    (h : ∀ line ∈ planLines text, EstimationPrinted pf line ∧ ActualPrinted pf line) :
    (∃ t, buildExplainNode pf text = .ok t) ↔ NoJump ((planLines text).map level) := by
  rw [C22_ok_iff]
  exact ⟨fun k => k.2, fun k => ⟨fun line hl => C51_readable pf line (h line hl).1 (h line hl).2, k⟩⟩

/-- C51: a line gets actual numbers exactly when an actual part of that shape is on it. -/
theorem C51_actual_iff (line : Str) (n : Nat) (L : Line F) (h : parseLine pf line = .ok (n, L)) :
    L.actualTimeAvg.isSome = true ↔ ∃ p u q, line = p ++ (u ++ q) ∧ ActualShape u := by
  unfold parseLine at h
  obtain ⟨l1, h1, h⟩ := bind_ok h
  obtain ⟨l2, h2, h⟩ := bind_ok h
  cases h
  have e2 := (addEstimation_other pf line _ _ h1).2.1
  unfold addActual at h2
  constructor
  · intro hs
    refine Classical.byContradiction (fun hno => ?_)
    have : find analyzeActualReg line = none :=
      (find_actual_none line).mpr (fun p u q e hu => hno ⟨p, u, q, e, hu⟩)
    rw [this] at h2
    cases h2
    rw [e2] at hs; cases hs
  · rintro ⟨p, u, q, e, hu⟩
    split at h2
    · rename_i hf
      exact absurd hu ((find_actual_none line).mp hf p u q e)
    · obtain ⟨_, _, h2⟩ := bind_ok h2
      obtain ⟨_, _, h2⟩ := bind_ok h2
      obtain ⟨_, _, h2⟩ := bind_ok h2
      obtain ⟨_, _, h2⟩ := bind_ok h2
      cases h2; rfl

/-- C51 does not extend to counts that are not printed as digits only: newer MySQL versions print a
million rows as `1e+6`.  Then the whole actual part is dropped without an error, also its times,
and the node counts as having taken no time. -/
theorem C51_exponent_lost [DecidableEq F] (O : FloatOps F) (p a b r q : Str) (x : Char) (n : Nat)
    (L : Line F)
    (ha : Decimal a) (hb : Decimal b) (hr : ∀ c ∈ r, isDig c = true) (hx : isDig x = false)
    (hx' : x ≠ ' ')
    (hone : ∀ p' q', p ++ ("(actual time=".toList ++ (a ++ ("..".toList ++ (b ++ (" rows=".toList ++
      (r ++ x :: q)))))) = p' ++ ("(actual time=".toList ++ q') → p' = p)
    (h : parseLine pf (p ++ ("(actual time=".toList ++ (a ++ ("..".toList ++ (b ++
      (" rows=".toList ++ (r ++ x :: q))))))) = .ok (n, L)) :
    L.actualTimeFirstRow = none ∧ L.actualTimeAvg = none ∧ L.actualReturnedRows = none ∧
      L.actualLoopCount = none ∧ L.estimatedTotalTime O = O.mul O.zero (O.ofInt 0) := by
  have hnone : find analyzeActualReg (p ++ ("(actual time=".toList ++ (a ++ ("..".toList ++ (b ++
      (" rows=".toList ++ (r ++ x :: q))))))) = none := by
    rw [find_actual_none]
    rintro p' u q' e ⟨a', b', r', l', ⟨_, ha'⟩, ⟨_, hb'⟩, ⟨_, hr'⟩, _, rfl⟩
    have hp : p' = p := hone p' (a' ++ ("..".toList ++ (b' ++ (" rows=".toList ++ (r' ++
      (" loops=".toList ++ (l' ++ (")".toList ++ q')))))))) (by rw [e]; simp only [List.append_assoc])
    subst hp
    have e1 := List.append_cancel_left e
    simp only [List.append_assoc] at e1
    have e2 := List.append_cancel_left e1
    have d : ("..".toList : Str) = ['.', '.'] := by simp
    have w : (" rows=".toList : Str) = ' ' :: "rows=".toList := by simp
    have w2 : (" loops=".toList : Str) = ' ' :: "loops=".toList := by simp
    rw [d, w, w2] at e2
    -- up to the first blank everything is digits and dots
    have key : (a ++ (['.', '.'] ++ b)) ++ ' ' :: ("rows=".toList ++ (r ++ x :: q)) =
        (a' ++ (['.', '.'] ++ b')) ++ ' ' :: ("rows=".toList ++ (r' ++ (' ' :: "loops=".toList ++
          (l' ++ (")".toList ++ q'))))) := by
      simpa only [List.append_assoc, List.cons_append] using e2
    have num : ∀ (u v : Str), (∀ c ∈ u, isNum c = true) → (∀ c ∈ v, isNum c = true) →
        ∀ c ∈ u ++ (['.', '.'] ++ v), isNum c = true := by
      intro u v hu hv c hc
      simp only [List.mem_append, List.mem_cons, List.not_mem_nil, or_false] at hc
      rcases hc with hc | (hc | hc) | hc
      · exact hu c hc
      · subst hc; decide
      · subst hc; decide
      · exact hv c hc
    obtain ⟨_, _, e3⟩ := run_split (p := isNum) _ _ _ _ _ _ (num a b ha.isNum hb.isNum)
      (num a' b' (fun c hc => (isNum_iff c).mpr (ha' c hc))
        (fun c hc => (isNum_iff c).mpr (hb' c hc))) (by decide) (by decide) key
    have e4 := List.append_cancel_left e3
    obtain ⟨_, e5, _⟩ := run_split (p := isDig) r r' x ' ' _ _ hr hr' hx (by decide) e4
    exact hx' e5
  unfold parseLine at h
  obtain ⟨l1, h1, h⟩ := bind_ok h
  obtain ⟨l2, h2, h⟩ := bind_ok h
  cases h
  unfold addActual at h2
  rw [hnone] at h2
  cases h2
  obtain ⟨e1, e2, e3, e4, _⟩ := addEstimation_other pf _ _ _ h1
  refine ⟨e1, e2, e3, e4, ?_⟩
  unfold Line.estimatedTotalTime
  rw [e2, e4]
  simp

end

/-! ## Examples -/

/-- a line of a newer server: 2.5 seconds, ten million rows -/
def exExponent : Str :=
  "-> Table scan on events (cost=1.01e+6 rows=9.9e+6) (actual time=0.05..2500 rows=1e+7 loops=1)".toList

/-- neither part is read -/
theorem C51_exponent_lost_witness : (match parseLine exFloat exExponent with
    | .ok (_, l) => some (l.estimatedCost, l.estimatedReturnedRows, l.actualTimeAvg,
        l.actualReturnedRows)
    | .error _ => none) = some (none, none, none, none) := by decide +kernel

example : exExponent = "-> Table scan on events (cost=1.01e+6 rows=9.9e+6) ".toList ++
    ("(actual time=".toList ++ ("0.05".toList ++ ("..".toList ++ ("2500".toList ++ (" rows=".toList ++
      ("1".toList ++ 'e' :: "+7 loops=1)".toList)))))) := by decide +kernel

/-- the line of `Numbers.lean` meets the hypotheses of `C51_readable` -/
example : EstimationPrinted exFloat exLine ∧ ActualPrinted exFloat exLine := by
  refine ⟨.inr ⟨"    -> Table scan on users ".toList, some "0.1".toList, "10.25".toList, some 98,
    " (actual time=0.059..0.1 rows=100 loops=3)".toList, by decide +kernel,
    firstAt_of_check _ _ _ (by decide +kernel), ?_, ⟨?_, _, rfl⟩, ?_⟩,
    .inr ⟨"    -> Table scan on users (cost=0.1..10.25 rows=98) ".toList, "0.059".toList,
    "0.1".toList, 100, 3, [], by decide +kernel, firstAt_of_check _ _ _ (by decide +kernel),
    ⟨?_, _, rfl⟩, ⟨?_, _, rfl⟩, by decide, by decide⟩⟩
  · intro a ha
    cases ha
    exact ⟨⟨"0".toList, "1".toList, by simp, by simp; decide, by simp; decide,
      .inr ⟨by simp, by simp⟩⟩, _, rfl⟩
  · exact ⟨"10".toList, "25".toList, by simp, by simp; decide, by simp; decide,
      .inr ⟨by simp, by simp⟩⟩
  · intro r hr; cases hr; decide
  · exact ⟨"0".toList, "059".toList, by simp, by simp; decide, by simp; decide,
      .inr ⟨by simp, by simp⟩⟩
  · exact ⟨"0".toList, "1".toList, by simp, by simp; decide, by simp; decide,
      .inr ⟨by simp, by simp⟩⟩

end Verif.MysqlPlan
