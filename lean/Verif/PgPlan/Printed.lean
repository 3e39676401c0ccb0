import Verif.Regex.Lang
import Verif.PgPlan.Numbers
/-!
# C23, C52: which nodes of a PostgreSQL plan can be read, and whose numbers are lost
-/
namespace Verif.PgPlan
open Verif.Regex Verif.Lib

/-! ## Specification -/

/-- The node has no costs, or a row with them as PostgreSQL prints it and either no actual times on
it or those as PostgreSQL prints them; the numbers fit. -/
def NodePrinted {F : Type} (pf : Str → Option F) (g : List Str) : Prop :=
  (∀ line ∈ g, Absent "(cost=".toList line) ∨ ∃ pre row post p a b rows width q,
    g = pre ++ row :: post ∧ (∀ l ∈ pre, Absent "(cost=".toList l) ∧
    row = p ++ (estimationText a b rows width ++ q) ∧
    FirstAt "(cost=".toList p (estimationText a b rows width ++ q) ∧
    (Decimal a ∧ ∃ x, pf a = some x) ∧ (Decimal b ∧ ∃ x, pf b = some x) ∧
    rows < 2 ^ 63 ∧ width < 2 ^ 63 ∧
    (Absent "(actual time=".toList row ∨ ∃ p a b rows loops q,
      row = p ++ (actualText a b rows loops ++ q) ∧
      FirstAt "(actual time=".toList p (actualText a b rows loops ++ q) ∧
      (Decimal a ∧ ∃ x, pf a = some x) ∧ (Decimal b ∧ ∃ x, pf b = some x) ∧
      rows < 2 ^ 63 ∧ loops < 2 ^ 63)

/-- `(actual time=A..B rows=R loops=L)` with any runs of digits and dots as times and any runs of
digits as counts. -/
def ActualShape (u : Str) : Prop := ∃ a b r l : Str,
  (a ≠ [] ∧ ∀ c ∈ a, isDig c = true ∨ c = '.') ∧ (b ≠ [] ∧ ∀ c ∈ b, isDig c = true ∨ c = '.') ∧
  (r ≠ [] ∧ ∀ c ∈ r, isDig c = true) ∧ (l ≠ [] ∧ ∀ c ∈ l, isDig c = true) ∧
  u = "(actual time=".toList ++ (a ++ ("..".toList ++ (b ++ (" rows=".toList ++ (r ++
    (" loops=".toList ++ (l ++ ")".toList)))))))

/-! ## Lemmas -/

theorem getMetricLine_none (g : List Str) (h : ∀ line ∈ g, Absent "(cost=".toList line) :
    getMetricLine g = [] := by
  induction g with
  | nil => rfl
  | cons l r ih =>
    have : isMatch metricLineReg l = false := by
      rw [isMatch, find, metricLineReg]
      rw [find_none_of_absent _ _ l 0 (h l (by simp))]; rfl
    rw [getMetricLine, this]
    simp only [Bool.false_eq_true, if_false]
    exact ih (fun x hx => h x (by simp [hx]))

theorem find_actual_none (line : Str) : find analyzeActualReg line = none ↔
    ∀ p u q, line = p ++ (u ++ q) → ¬ ActualShape u := by
  have hd : ("..".toList : List Char) = ['.', '.'] := by simp
  have hb : (")".toList : List Char) = [')'] := by simp
  rw [analyzeActualReg, find_none_iff]
  constructor
  · rintro h p u q e ⟨a, b, r, l, ha, hb', hr, hl, rfl⟩
    obtain ⟨s', hs⟩ := step_pair_of "(actual time=".toList " rows=".toList " loops=".toList
      ⟨p.length, _, []⟩ a b r l q
      ⟨ha.1, fun c hc => (isNum_iff c).mpr (ha.2 c hc)⟩
      ⟨hb'.1, fun c hc => (isNum_iff c).mpr (hb'.2 c hc)⟩ hr hl rfl
    refine h p _ s' e ?_
    rw [hd, hb]
    exact hs
  · intro h p t s' e hs
    obtain ⟨a, b, r, l, ha, hb', hr, hl, e1, _⟩ := step_pair _ _ _ _ _ hs
    refine h p (pairText "(actual time=".toList " rows=".toList " loops=".toList a b r l) s'.rest
      (by rw [e]; exact congrArg (p ++ ·) e1) ⟨a, b, r, l,
      ⟨ha.1, fun c hc => (isNum_iff c).mp (ha.2 c hc)⟩,
      ⟨hb'.1, fun c hc => (isNum_iff c).mp (hb'.2 c hc)⟩, hr, hl, ?_⟩
    rw [hd, hb]; rfl

section
variable {F : Type} (pf : Str → Option F)

theorem addEstimation_ok (p a b q : Str) (rows width : Nat) (l : Node F)
    (hp : FirstAt "(cost=".toList p (estimationText a b rows width ++ q))
    (ha : Decimal a ∧ ∃ x, pf a = some x) (hb : Decimal b ∧ ∃ x, pf b = some x)
    (hrows : rows < 2 ^ 63) (hwidth : width < 2 ^ 63) :
    ∃ l', addEstimation pf (p ++ (estimationText a b rows width ++ q)) l = .ok l' := by
  obtain ⟨ha, fa, hfa⟩ := ha
  obtain ⟨hb, fb, hfb⟩ := hb
  obtain ⟨m, hm, hc⟩ := find_pair "(cost=".toList " rows=".toList " width=".toList p a b
    (dec rows) (dec width) q ' ' ' ' "rows=".toList "width=".toList (by simp) (by decide) (by simp)
    (by decide) ha hb (dec_ne_nil _) (dec_isDig _) (dec_ne_nil _) (dec_isDig _) hp
  have c1 : m.cap 1 = a := by simp [St.cap, hc, List.lookup]
  have c2 : m.cap 2 = b := by simp [St.cap, hc, List.lookup]
  have c3 : m.cap 3 = dec rows := by simp [St.cap, hc, List.lookup]
  have c4 : m.cap 4 = dec width := by simp [St.cap, hc, List.lookup]
  unfold addEstimation
  rw [analyzeEstimationReg, show estimationText a b rows width = pairText "(cost=".toList
    " rows=".toList " width=".toList a b (dec rows) (dec width) from rfl, hm]
  simp only [c1, c2, c3, c4, parseFloat, hfa, hfb, parseInt_dec _ hrows, parseInt_dec _ hwidth]
  exact ⟨_, rfl⟩

theorem addActual_ok (row : Str) (l : Node F)
    (h : Absent "(actual time=".toList row ∨ ∃ p a b rows loops q,
      row = p ++ (actualText a b rows loops ++ q) ∧
      FirstAt "(actual time=".toList p (actualText a b rows loops ++ q) ∧
      (Decimal a ∧ ∃ x, pf a = some x) ∧ (Decimal b ∧ ∃ x, pf b = some x) ∧
      rows < 2 ^ 63 ∧ loops < 2 ^ 63) :
    ∃ l', addActual pf row l = .ok l' := by
  rcases h with h | ⟨p, a, b, rows, loops, q, rfl, hp, ⟨ha, fa, hfa⟩, ⟨hb, fb, hfb⟩, hrows, hloops⟩
  · have : find analyzeActualReg row = none := by
      rw [analyzeActualReg, find, pairReg]
      exact find_none_of_absent _ _ row 0 h
    unfold addActual
    rw [this]
    exact ⟨_, rfl⟩
  · obtain ⟨m, hm, hc⟩ := find_pair "(actual time=".toList " rows=".toList " loops=".toList p a b
      (dec rows) (dec loops) q ' ' ' ' "rows=".toList "loops=".toList (by simp) (by decide) (by simp)
      (by decide) ha hb (dec_ne_nil _) (dec_isDig _) (dec_ne_nil _) (dec_isDig _) hp
    have c1 : m.cap 1 = a := by simp [St.cap, hc, List.lookup]
    have c2 : m.cap 2 = b := by simp [St.cap, hc, List.lookup]
    have c3 : m.cap 3 = dec rows := by simp [St.cap, hc, List.lookup]
    have c4 : m.cap 4 = dec loops := by simp [St.cap, hc, List.lookup]
    unfold addActual
    rw [analyzeActualReg, show actualText a b rows loops = pairText "(actual time=".toList
      " rows=".toList " loops=".toList a b (dec rows) (dec loops) from rfl, hm]
    simp only [c1, c2, c3, c4, parseFloat, hfa, hfb, parseInt_dec _ hrows, parseInt_dec _ hloops]
    exact ⟨_, rfl⟩

/-! ## The theorems -/

/-- C52: every node printed in PostgreSQL's form is read. -/
theorem C52_readable (g : List Str) (hg : g ≠ []) (h : NodePrinted pf g) :
    ∃ r, parseNode pf g = .ok r := by
  have hs : ∃ n, spaceSize g = .ok n := by
    cases g with
    | nil => exact absurd rfl hg
    | cons l r => exact ⟨_, rfl⟩
  obtain ⟨n, hs⟩ := hs
  have fin : ∀ l1 l2, addEstimation pf (getMetricLine g)
      { lines := g, tableName := extractTable g } = .ok l1 →
      addActual pf (getMetricLine g) l1 = .ok l2 → ∃ r, parseNode pf g = .ok r := by
    intro l1 l2 h1 h2
    refine ⟨(n, l2), ?_⟩
    unfold parseNode
    rw [h1]
    show (do let l ← addActual pf (getMetricLine g) l1; let n ← spaceSize g; pure (n, l)) = _
    rw [h2]
    show (do let n ← spaceSize g; pure (n, l2)) = _
    rw [hs]
    rfl
  rcases h with h | ⟨pre, row, post, p, a, b, rows, width, q, rfl, hpre, rfl, hp, ha, hb, hrows,
    hwidth, hact⟩
  · have e0 := getMetricLine_none g h
    have h1 : find analyzeEstimationReg [] = none := by decide +kernel
    have h2 : find analyzeActualReg [] = none := by decide +kernel
    refine fin { lines := g, tableName := extractTable g }
      { lines := g, tableName := extractTable g } ?_ ?_
    · unfold addEstimation; rw [e0, h1]
    · unfold addActual; rw [e0, h2]
  · have e0 := getMetricLine_row pre post _ hpre (isMatch_row p a b q rows width ha.1 hb.1)
    obtain ⟨l1, h1⟩ := addEstimation_ok pf p a b q rows width
      { lines := pre ++ (p ++ (estimationText a b rows width ++ q)) :: post,
        tableName := extractTable (pre ++ (p ++ (estimationText a b rows width ++ q)) :: post) }
      hp ha hb hrows hwidth
    obtain ⟨l2, h2⟩ := addActual_ok pf _ l1 hact
    refine fin l1 l2 ?_ ?_
    · rw [e0]; exact h1
    · rw [e0]; exact h2

theorem mapM_isOk {α β ε : Type} (f : α → Except ε β) (l : List α) (h : ∀ x ∈ l, ∃ y, f x = .ok y) :
    ∃ ys, l.mapM f = .ok ys := by
  induction l with
  | nil => exact ⟨[], rfl⟩
  | cons x r ih =>
    obtain ⟨y, hy⟩ := h x (by simp)
    obtain ⟨ys, hys⟩ := ih (fun z hz => h z (by simp [hz]))
    refine ⟨y :: ys, ?_⟩
    rw [List.mapM_cons, hy]
    show (do let bs ← r.mapM f; pure (y :: bs)) = _
    rw [hys]; rfl

/-- C23: a plan of such nodes is always accepted, however its rows are indented. -/
theorem C23_printed (lines : List Str)
    (h : ∀ g ∈ (groupToPlanLineNodes lines).1, NodePrinted pf g) :
    ∃ t, collect pf lines = .ok (t, (groupToPlanLineNodes lines).2) := by
  have hne : ∀ g ∈ (groupToPlanLineNodes lines).1, g ≠ [] := by
    unfold groupToPlanLineNodes
    exact groupLoop_nonempty 0 _ lines (by simp)
  obtain ⟨ns, hns⟩ := mapM_isOk (parseNode pf) (groupToPlanLineNodes lines).1
    (fun g hg => C52_readable pf g (hne g hg) (h g hg))
  exact C23_ok pf lines ns hns

/-- C52: a node gets actual numbers exactly when an actual part of that shape is on the row with its
costs. -/
theorem C52_actual_iff (pre post : List Str) (p a b q : Str) (rows width : Nat) (n : Int)
    (L : Node F) (ha : Decimal a) (hb : Decimal b)
    (hpre : ∀ l ∈ pre, Absent "(cost=".toList l)
    (h : parseNode pf (pre ++ (p ++ (estimationText a b rows width ++ q)) :: post) = .ok (n, L)) :
    L.actualTimeAvg.isSome = true ↔
      ∃ p' u q', p ++ (estimationText a b rows width ++ q) = p' ++ (u ++ q') ∧ ActualShape u := by
  unfold parseNode at h
  obtain ⟨l1, h1, h⟩ := bind_ok h
  obtain ⟨l2, h2, h⟩ := bind_ok h
  obtain ⟨sp, _, h⟩ := bind_ok h
  cases h
  rw [getMetricLine_row pre post _ hpre (isMatch_row p a b q rows width ha hb)] at h2
  have e2 := (addEstimation_lines pf _ _ _ h1).2.2.2.1
  unfold addActual at h2
  constructor
  · intro hs
    refine Classical.byContradiction (fun hno => ?_)
    have := (find_actual_none _).mpr (fun p' u q' e hu => hno ⟨p', u, q', e, hu⟩)
    rw [this] at h2
    cases h2
    rw [e2] at hs; cases hs
  · rintro ⟨p', u, q', e, hu⟩
    split at h2
    · rename_i hf
      exact absurd hu ((find_actual_none _).mp hf p' u q' e)
    · obtain ⟨_, _, h2⟩ := bind_ok h2
      obtain ⟨_, _, h2⟩ := bind_ok h2
      obtain ⟨_, _, h2⟩ := bind_ok h2
      obtain ⟨_, _, h2⟩ := bind_ok h2
      cases h2; rfl

/-- C52 does not extend to row counts that are not printed as digits only: PostgreSQL 18 prints
averages such as `rows=7.00`.  Then the whole actual part is dropped without an error, also its
times, and the node counts as having taken no time. -/
theorem C52_decimal_rows_lost (pre post : List Str) (p a b q p' a' b' r q' : Str)
    (rows width : Nat) (x : Char) (n : Int) (L : Node F) (zero : F)
    (ha : Decimal a) (hb : Decimal b) (ha' : Decimal a') (hb' : Decimal b')
    (hr : ∀ c ∈ r, isDig c = true) (hx : isDig x = false) (hx' : x ≠ ' ')
    (hpre : ∀ l ∈ pre, Absent "(cost=".toList l)
    (hrow : p ++ (estimationText a b rows width ++ q) = p' ++ ("(actual time=".toList ++ (a' ++
      ("..".toList ++ (b' ++ (" rows=".toList ++ (r ++ x :: q')))))))
    (hone : ∀ p1 q1, p ++ (estimationText a b rows width ++ q) =
      p1 ++ ("(actual time=".toList ++ q1) → p1 = p')
    (h : parseNode pf (pre ++ (p ++ (estimationText a b rows width ++ q)) :: post) = .ok (n, L)) :
    L.actualTimeFirstRow = none ∧ L.actualTimeAvg = none ∧ L.actualReturnedRows = none ∧
      L.actualLoopCount = none ∧ L.estimatedTotalTime zero = zero := by
  have hnone : find analyzeActualReg (p ++ (estimationText a b rows width ++ q)) = none := by
    rw [find_actual_none]
    rintro p1 u q1 e ⟨a1, b1, r1, l1, ⟨_, ha1⟩, ⟨_, hb1⟩, ⟨_, hr1⟩, _, rfl⟩
    have hp : p1 = p' := hone p1 (a1 ++ ("..".toList ++ (b1 ++ (" rows=".toList ++ (r1 ++
      (" loops=".toList ++ (l1 ++ (")".toList ++ q1)))))))) (by rw [e]; simp only [List.append_assoc])
    subst hp
    rw [hrow] at e
    have e1 := List.append_cancel_left e
    simp only [List.append_assoc] at e1
    have e2 := List.append_cancel_left e1
    have d : ("..".toList : Str) = ['.', '.'] := by simp
    have w : (" rows=".toList : Str) = ' ' :: "rows=".toList := by simp
    have w2 : (" loops=".toList : Str) = ' ' :: "loops=".toList := by simp
    rw [d, w, w2] at e2
    have key : (a' ++ (['.', '.'] ++ b')) ++ ' ' :: ("rows=".toList ++ (r ++ x :: q')) =
        (a1 ++ (['.', '.'] ++ b1)) ++ ' ' :: ("rows=".toList ++ (r1 ++ (' ' :: "loops=".toList ++
          (l1 ++ (")".toList ++ q1))))) := by
      simpa only [List.append_assoc, List.cons_append] using e2
    have num : ∀ (u v : Str), (∀ c ∈ u, isNum c = true) → (∀ c ∈ v, isNum c = true) →
        ∀ c ∈ u ++ (['.', '.'] ++ v), isNum c = true := by
      intro u v hu hv c hc
      simp only [List.mem_append, List.mem_cons, List.not_mem_nil, or_false] at hc
      rcases hc with hc | (hc | hc) | hc
      · exact hu c hc
      · subst hc; decide
      · subst hc; decide
      · exact hv c hc
    obtain ⟨_, _, e3⟩ := run_split (p := isNum) _ _ _ _ _ _ (num a' b' ha'.isNum hb'.isNum)
      (num a1 b1 (fun c hc => (isNum_iff c).mpr (ha1 c hc))
        (fun c hc => (isNum_iff c).mpr (hb1 c hc))) (by decide) (by decide) key
    have e4 := List.append_cancel_left e3
    obtain ⟨_, e5, _⟩ := run_split (p := isDig) r r1 x ' ' _ _ hr hr1 hx (by decide) e4
    exact hx' e5
  unfold parseNode at h
  obtain ⟨l1, h1, h⟩ := bind_ok h
  obtain ⟨l2, h2, h⟩ := bind_ok h
  obtain ⟨sp, _, h⟩ := bind_ok h
  cases h
  rw [getMetricLine_row pre post _ hpre (isMatch_row p a b q rows width ha hb)] at h2
  unfold addActual at h2
  rw [hnone] at h2
  cases h2
  obtain ⟨_, _, e1, e2, e3, e4⟩ := addEstimation_lines pf _ _ _ h1
  refine ⟨e1, e2, e3, e4, ?_⟩
  rw [Node.estimatedTotalTime, e2]; rfl

end

/-! ## Examples -/

/-- a row of PostgreSQL 18: 1.5 seconds -/
def exDecimal : Str :=
  "Seq Scan on users  (cost=0.00..12.50 rows=3 width=40) (actual time=0.010..1500.2 rows=7.00 loops=2)".toList

/-- the estimation is read, the actual part is not -/
theorem C52_decimal_rows_lost_witness : (match parseNode (F := Nat) (fun s => some s.length)
    [exDecimal] with
    | .ok (_, l) => some (l.estimatedReturnedRows, l.actualTimeAvg, l.actualReturnedRows)
    | .error _ => none) = some (some 3, none, none) := by decide +kernel

example : exDecimal = "Seq Scan on users  ".toList ++
    (estimationText "0.00".toList "12.50".toList 3 40 ++
      " (actual time=0.010..1500.2 rows=7.00 loops=2)".toList) := by decide +kernel
example : exDecimal = "Seq Scan on users  (cost=0.00..12.50 rows=3 width=40) ".toList ++
    ("(actual time=".toList ++ ("0.010".toList ++ ("..".toList ++ ("1500.2".toList ++
      (" rows=".toList ++ ("7".toList ++ '.' :: "00 loops=2)".toList)))))) := by decide +kernel

/-- a node meeting the hypotheses of `C52_readable` -/
example : NodePrinted (F := Nat) (fun s => some s.length)
    [exRow, "        Filter: (id > 3)".toList] := by
  refine .inr ⟨[], exRow, _, "  ->  Seq Scan on users  ".toList, "0.00".toList, "12.50".toList, 3, 40,
    " (actual time=0.010..1.5 rows=7 loops=2)".toList, rfl, by simp, by decide +kernel,
    firstAt_of_check _ _ _ (by decide +kernel), ⟨?_, _, rfl⟩, ⟨?_, _, rfl⟩, by decide, by decide,
    .inr ⟨"  ->  Seq Scan on users  (cost=0.00..12.50 rows=3 width=40) ".toList, "0.010".toList,
      "1.5".toList, 7, 2, [], by decide +kernel, firstAt_of_check _ _ _ (by decide +kernel),
      ⟨?_, _, rfl⟩, ⟨?_, _, rfl⟩, by decide, by decide⟩⟩
  · exact ⟨"0".toList, "00".toList, by simp, by simp; decide, by simp; decide, .inr ⟨by simp, by simp⟩⟩
  · exact ⟨"12".toList, "50".toList, by simp, by simp; decide, by simp; decide, .inr ⟨by simp, by simp⟩⟩
  · exact ⟨"0".toList, "010".toList, by simp, by simp; decide, by simp; decide, .inr ⟨by simp, by simp⟩⟩
  · exact ⟨"1".toList, "5".toList, by simp, by simp; decide, by simp; decide, .inr ⟨by simp, by simp⟩⟩

end Verif.PgPlan
