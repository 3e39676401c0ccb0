import Verif.Regex.Numbers
import Verif.PgPlan.Props
/-!
# C52: the numbers and the table of a PostgreSQL plan node
-/
namespace Verif.PgPlan
open Verif.Regex Verif.Lib

/-! ## Specification of printed lines -/

/-- `(cost=A..B rows=R width=W)` as PostgreSQL prints it. -/
def estimationText (a b : Str) (rows width : Nat) : Str :=
  pairText "(cost=".toList " rows=".toList " width=".toList a b (dec rows) (dec width)

/-- `(actual time=A..B rows=R loops=L)` as PostgreSQL prints it. -/
def actualText (a b : Str) (rows loops : Nat) : Str :=
  pairText "(actual time=".toList " rows=".toList " loops=".toList a b (dec rows) (dec loops)

/-- `s` does not occur in `t`. -/
def Absent (s t : Str) : Prop := ∀ t1 t2, t = t1 ++ t2 → ¬ s <+: t2

/-! ## Lemmas -/

theorem parseInt_dec (n : Nat) (h : n < 2 ^ 63) : parseInt (dec n) = .ok (n : Int) := by
  rw [parseInt, digitsVal_dec, if_pos h]

theorem greedyScan_isSome (p : Char → Bool) (k : St → Option St) (caps) (r : List Char) :
    ∀ (a : List Char) (pos : Nat), (∀ c ∈ a, p c = true) → (k ⟨pos + a.length, r, caps⟩).isSome →
      (greedyScan p k caps pos (a ++ r)).isSome := by
  intro a
  induction a with
  | nil =>
    intro pos _ h
    cases r with
    | nil => simpa [greedyScan] using h
    | cons c cs =>
      simp only [List.nil_append, greedyScan]
      split
      · cases hg : greedyScan p k caps (pos + 1) cs with
        | some x => rfl
        | none => simpa using h
      · simpa using h
  | cons c cs ih =>
    intro pos hp h
    simp only [List.cons_append, greedyScan, hp c (by simp), if_true]
    have := ih (pos + 1) (fun x hx => hp x (by simp [hx])) (by
      rw [List.length_cons] at h
      rw [show pos + 1 + cs.length = pos + (cs.length + 1) by omega]; exact h)
    cases hg : greedyScan p k caps (pos + 1) (cs ++ r) with
    | some x => rfl
    | none => rw [hg] at this; cases this

/-- A literal, anything but newlines, a literal, then something that succeeds. -/
theorem run_span_isSome (s e : Str) (x : Re) (c : Char) (mid q : Str) (pos : Nat)
    (hc : c ≠ '\n') (hm : ∀ d ∈ mid, d ≠ '\n') (hx : ∀ st : St, (run x st some).isSome) :
    (run (.seq (.lit s) (.seq (.plus true .dot) (.seq (.lit e) x)))
      ⟨pos, s ++ ((c :: mid) ++ (e ++ q)), []⟩ some).isSome := by
  rw [run_seq, run_lit, run_seq]
  simp only [Re.plus, Re.dot, run_seq, List.cons_append, run_cls_cons, bne_iff_ne, ne_eq, hc,
    not_false_eq_true, if_true, run_star_greedy_cls]
  apply greedyScan_isSome
  · intro d hd; simpa using hm d hd
  · rw [run_lit]; exact hx _

theorem find_isSome (r : Re) : ∀ (p t : List Char) (pos : Nat),
    (∀ pos', (run r ⟨pos', t, []⟩ some).isSome) → (findFrom r pos (p ++ t)).isSome := by
  intro p
  induction p with
  | nil =>
    intro t pos h
    cases t with
    | nil => simpa [findFrom] using h pos
    | cons c cs =>
      rw [List.nil_append, findFrom]
      have := h pos
      cases hr : run r ⟨pos, c :: cs, []⟩ some with
      | some x => rfl
      | none => rw [hr] at this; cases this
  | cons c cs ih =>
    intro t pos h
    rw [List.cons_append, findFrom]
    cases hr : run r ⟨pos, c :: (cs ++ t), []⟩ some with
    | some x => rfl
    | none => exact ih t (pos + 1) h

theorem run_opt_isSome (x : Re) (st : St) : (run (.opt x) st some).isSome := by
  simp only [Re.opt, run]
  split <;> rfl

theorem isMatch_span (s e : Str) (x : Re) (p mid q : Str) (hne : mid ≠ [])
    (hm : ∀ d ∈ mid, d ≠ '\n') (hx : ∀ st : St, (run x st some).isSome) :
    isMatch (.seq (.lit s) (.seq (.plus true .dot) (.seq (.lit e) x))) (p ++ (s ++ (mid ++ (e ++ q))))
      = true := by
  rw [isMatch, find]
  apply find_isSome
  intro pos'
  cases mid with
  | nil => exact absurd rfl hne
  | cons c mid =>
    exact run_span_isSome s e x c mid q pos' (hm c (by simp)) (fun d hd => hm d (by simp [hd])) hx

theorem no_newline_num {a : Str} (h : ∀ c ∈ a, isNum c = true) : ∀ c ∈ a, c ≠ '\n' := by
  intro c hc e
  have := h c hc
  rw [e] at this
  revert this; decide

theorem no_newline_dec (n : Nat) : ∀ c ∈ dec n, c ≠ '\n' := by
  intro c hc e
  have := dec_isDig n c hc
  rw [e] at this
  revert this; decide

theorem isMatch_row (p a b q : Str) (rows width : Nat) (ha : Decimal a) (hb : Decimal b) :
    isMatch metricLineReg (p ++ (estimationText a b rows width ++ q)) = true := by
  have h2 : (")".toList : List Char) = [')'] := by simp
  have e : p ++ (estimationText a b rows width ++ q) = p ++ ("(cost=".toList ++
      ((a ++ (['.', '.'] ++ (b ++ (" rows=".toList ++ (dec rows ++ (" width=".toList ++
        dec width)))))) ++ ([')'] ++ q))) := by
    rw [estimationText, pairText]; simp only [List.append_assoc]
  rw [e, metricLineReg, h2]
  apply isMatch_span
  · simp
  · have l1 : ∀ c ∈ " rows=".toList, c ≠ '\n' := by decide +kernel
    have l2 : ∀ c ∈ " width=".toList, c ≠ '\n' := by decide +kernel
    have l3 : ∀ c ∈ ['.', '.'], c ≠ '\n' := by decide
    intro c hc
    simp only [List.mem_append] at hc
    rcases hc with hc | hc | hc | hc | hc | hc | hc
    · exact no_newline_num ha.isNum c hc
    · exact l3 c hc
    · exact no_newline_num hb.isNum c hc
    · exact l1 c hc
    · exact no_newline_dec _ c hc
    · exact l2 c hc
    · exact no_newline_dec _ c hc
  · exact fun st => run_opt_isSome _ st

theorem getMetricLine_row (pre post : List Str) (row : Str)
    (hpre : ∀ l ∈ pre, Absent "(cost=".toList l) (hrow : isMatch metricLineReg row = true) :
    getMetricLine (pre ++ row :: post) = row := by
  induction pre with
  | nil => rw [List.nil_append, getMetricLine, if_pos hrow]
  | cons l r ih =>
    rw [List.cons_append, getMetricLine]
    have : isMatch metricLineReg l = false := by
      rw [isMatch, find, metricLineReg]
      rw [find_none_of_absent _ _ l 0 (hpre l (by simp))]; rfl
    rw [this]
    simp only [Bool.false_eq_true, if_false]
    exact ih (fun x hx => hpre x (by simp [hx]))

section
variable {F : Type} (pf : Str → Option F)

/-! ## C52 -/

/-- C52: the printed estimation of a node is read back exactly, whatever else is on its row and
whatever rows surround it (`(cost=` must not occur earlier in the node). -/
theorem C52_estimation_read (pre post : List Str) (p a b q : Str) (rows width : Nat) (fa fb : F)
    (n : Int) (L : Node F)
    (ha : Decimal a) (hb : Decimal b) (hrows : rows < 2 ^ 63) (hwidth : width < 2 ^ 63)
    (hfa : pf a = some fa) (hfb : pf b = some fb)
    (hpre : ∀ l ∈ pre, Absent "(cost=".toList l)
    (hp : FirstAt "(cost=".toList p (estimationText a b rows width ++ q))
    (h : parseNode pf (pre ++ (p ++ (estimationText a b rows width ++ q)) :: post) = .ok (n, L)) :
    L.estimatedInitCost = some fa ∧ L.estimatedCost = some fb ∧
      L.estimatedReturnedRows = some (rows : Int) ∧ L.estimatedWidth = some (width : Int) := by
  unfold parseNode at h
  obtain ⟨l1, h1, h⟩ := bind_ok h
  obtain ⟨l2, h2, h⟩ := bind_ok h
  obtain ⟨sp, _, h⟩ := bind_ok h
  cases h
  obtain ⟨_, _, e1, e2, e3, e4⟩ := addActual_lines pf _ _ _ h2
  rw [getMetricLine_row pre post _ hpre (isMatch_row p a b q rows width ha hb)] at h1
  obtain ⟨m, hm, hc⟩ := find_pair "(cost=".toList " rows=".toList " width=".toList p a b
    (dec rows) (dec width) q ' ' ' ' "rows=".toList "width=".toList (by simp) (by decide) (by simp)
    (by decide) ha hb (dec_ne_nil _) (dec_isDig _) (dec_ne_nil _) (dec_isDig _) hp
  have c1 : m.cap 1 = a := by simp [St.cap, hc, List.lookup]
  have c2 : m.cap 2 = b := by simp [St.cap, hc, List.lookup]
  have c3 : m.cap 3 = dec rows := by simp [St.cap, hc, List.lookup]
  have c4 : m.cap 4 = dec width := by simp [St.cap, hc, List.lookup]
  unfold addEstimation at h1
  rw [analyzeEstimationReg, show estimationText a b rows width = pairText "(cost=".toList
    " rows=".toList " width=".toList a b (dec rows) (dec width) from rfl, hm] at h1
  simp only [c1, c2, c3, c4, parseFloat, hfa, hfb, parseInt_dec _ hrows, parseInt_dec _ hwidth] at h1
  cases h1
  exact ⟨e1, e2, e3, e4⟩

/-- C52: so is the actual part of that row, and the time shown for the node is the printed total
time. -/
theorem C52_actual_read (pre post : List Str) (p a b q p' a' b' q' : Str)
    (rows width rows' loops : Nat) (fa fb : F) (n : Int) (L : Node F) (zero : F)
    (ha : Decimal a) (hb : Decimal b) (ha' : Decimal a') (hb' : Decimal b')
    (hrows : rows' < 2 ^ 63) (hloops : loops < 2 ^ 63)
    (hfa : pf a' = some fa) (hfb : pf b' = some fb)
    (hpre : ∀ l ∈ pre, Absent "(cost=".toList l)
    (hrow : p ++ (estimationText a b rows width ++ q) = p' ++ (actualText a' b' rows' loops ++ q'))
    (hp : FirstAt "(actual time=".toList p' (actualText a' b' rows' loops ++ q'))
    (h : parseNode pf (pre ++ (p ++ (estimationText a b rows width ++ q)) :: post) = .ok (n, L)) :
    L.actualTimeFirstRow = some fa ∧ L.actualTimeAvg = some fb ∧
      L.actualReturnedRows = some (rows' : Int) ∧ L.actualLoopCount = some (loops : Int) ∧
      L.estimatedTotalTime zero = fb := by
  unfold parseNode at h
  obtain ⟨l1, h1, h⟩ := bind_ok h
  obtain ⟨l2, h2, h⟩ := bind_ok h
  obtain ⟨sp, _, h⟩ := bind_ok h
  cases h
  rw [getMetricLine_row pre post _ hpre (isMatch_row p a b q rows width ha hb), hrow] at h2
  obtain ⟨m, hm, hc⟩ := find_pair "(actual time=".toList " rows=".toList " loops=".toList p' a' b'
    (dec rows') (dec loops) q' ' ' ' ' "rows=".toList "loops=".toList (by simp) (by decide) (by simp)
    (by decide) ha' hb' (dec_ne_nil _) (dec_isDig _) (dec_ne_nil _) (dec_isDig _) hp
  have c1 : m.cap 1 = a' := by simp [St.cap, hc, List.lookup]
  have c2 : m.cap 2 = b' := by simp [St.cap, hc, List.lookup]
  have c3 : m.cap 3 = dec rows' := by simp [St.cap, hc, List.lookup]
  have c4 : m.cap 4 = dec loops := by simp [St.cap, hc, List.lookup]
  unfold addActual at h2
  rw [analyzeActualReg, show actualText a' b' rows' loops = pairText "(actual time=".toList
    " rows=".toList " loops=".toList a' b' (dec rows') (dec loops) from rfl, hm] at h2
  simp only [c1, c2, c3, c4, parseFloat, hfa, hfb, parseInt_dec _ hrows, parseInt_dec _ hloops] at h2
  cases h2
  exact ⟨rfl, rfl, rfl, rfl, rfl⟩

/-- C52: a row without an actual part (`(never executed)`) has no actual numbers and time 0. -/
theorem C52_actual_absent (pre post : List Str) (p a b q : Str) (rows width : Nat) (n : Int)
    (L : Node F) (zero : F) (ha : Decimal a) (hb : Decimal b)
    (hpre : ∀ l ∈ pre, Absent "(cost=".toList l)
    (hno : Absent "(actual time=".toList (p ++ (estimationText a b rows width ++ q)))
    (h : parseNode pf (pre ++ (p ++ (estimationText a b rows width ++ q)) :: post) = .ok (n, L)) :
    L.actualTimeFirstRow = none ∧ L.actualTimeAvg = none ∧ L.actualReturnedRows = none ∧
      L.actualLoopCount = none ∧ L.estimatedTotalTime zero = zero := by
  unfold parseNode at h
  obtain ⟨l1, h1, h⟩ := bind_ok h
  obtain ⟨l2, h2, h⟩ := bind_ok h
  obtain ⟨sp, _, h⟩ := bind_ok h
  cases h
  rw [getMetricLine_row pre post _ hpre (isMatch_row p a b q rows width ha hb)] at h2
  have : find analyzeActualReg (p ++ (estimationText a b rows width ++ q)) = none := by
    rw [analyzeActualReg, find, pairReg]
    exact find_none_of_absent _ _ _ 0 hno
  unfold addActual at h2
  rw [this] at h2
  cases h2
  obtain ⟨_, _, e1, e2, e3, e4⟩ := addEstimation_lines pf _ _ _ h1
  refine ⟨e1, e2, e3, e4, ?_⟩
  rw [Node.estimatedTotalTime, e2]; rfl

theorem extractTable_skip (pre r : List Str)
    (h : ∀ l ∈ pre, Absent " on ".toList l ∧ Absent " Key: ".toList l) :
    extractTable (pre ++ r) = extractTable r := by
  induction pre with
  | nil => rfl
  | cons l t ih =>
    obtain ⟨h1, h2⟩ := h l (by simp)
    rw [List.cons_append, extractTable]
    rw [find, onReg, find_none_of_absent _ _ l 0 h1]
    simp only
    rw [find, onWithNamespaceReg, find_none_of_absent _ _ l 0 h1]
    simp only
    rw [find, keyReg, find_none_of_absent _ _ l 0 h2]
    simp only
    exact ih (fun x hx => h x (by simp [hx]))

theorem find_on (p t q : Str) (ht : t ≠ []) (hw : ∀ c ∈ t, isWord c = true)
    (hq : ∀ c ∈ q.head?, isWord c = false)
    (hp : FirstAt " on ".toList p (" on ".toList ++ (t ++ q))) :
    find onReg (p ++ (" on ".toList ++ (t ++ q))) =
      some ⟨0 + p.length + " on ".toList.length + t.length, q, [(1, t)]⟩ := by
  have hrun : ∀ pos, run onReg ⟨pos, " on ".toList ++ (t ++ q), []⟩ some =
      some ⟨pos + " on ".toList.length + t.length, q, [(1, t)]⟩ := by
    intro pos
    rw [onReg, run_seq, run_lit, run_grp_greedy 1 isWord _ [] t q _ ht hw hq rfl]
  rw [find, find_skip, hrun]
  · intro p1 p2 e h2 pos'
    rw [onReg, run_seq, run_lit_none]
    exact hp p1 p2 e h2
  · rw [hrun]; rfl

/-- C52: the table of a node is the word after its first ` on `. -/
theorem C52_table_read (pre post : List Str) (p t q : Str) (n : Int) (L : Node F) (ht : t ≠ [])
    (hw : ∀ c ∈ t, isWord c = true) (hq : ∀ c ∈ q.head?, isWord c = false)
    (hpre : ∀ l ∈ pre, Absent " on ".toList l ∧ Absent " Key: ".toList l)
    (hp : FirstAt " on ".toList p (" on ".toList ++ (t ++ q)))
    (h : parseNode pf (pre ++ (p ++ (" on ".toList ++ (t ++ q))) :: post) = .ok (n, L)) :
    L.tableName = t := by
  unfold parseNode at h
  obtain ⟨l1, h1, h⟩ := bind_ok h
  obtain ⟨l2, h2, h⟩ := bind_ok h
  obtain ⟨sp, _, h⟩ := bind_ok h
  cases h
  rw [(addActual_lines pf _ _ _ h2).2.1, (addEstimation_lines pf _ _ _ h1).2.1]
  show extractTable _ = t
  rw [extractTable_skip pre _ hpre, extractTable, find_on p t q ht hw hq hp]
  simp [St.cap]

/-- C52: a node none of whose rows mentions ` on ` or ` Key: ` has no table. -/
theorem C52_table_absent (g : List Str) (n : Int) (L : Node F)
    (hg : ∀ l ∈ g, Absent " on ".toList l ∧ Absent " Key: ".toList l)
    (h : parseNode pf g = .ok (n, L)) : L.tableName = [] := by
  unfold parseNode at h
  obtain ⟨l1, h1, h⟩ := bind_ok h
  obtain ⟨l2, h2, h⟩ := bind_ok h
  obtain ⟨sp, _, h⟩ := bind_ok h
  cases h
  rw [(addActual_lines pf _ _ _ h2).2.1, (addEstimation_lines pf _ _ _ h1).2.1]
  show extractTable _ = []
  have := extractTable_skip g [] hg
  rw [List.append_nil] at this
  rw [this]; rfl

/-- C52 does not extend to schema-qualified tables: of `on public.users` only the schema is kept,
although there is a pattern with a dot, because the pattern without a dot is tried first.  (The
program asks for plans without `VERBOSE`, which do not print schemas.) -/
theorem C52_qualified_table_cut (p s t q : Str) (n : Int) (L : Node F) (post : List Str) (hs : s ≠ [])
    (hw : ∀ c ∈ s, isWord c = true)
    (hp : FirstAt " on ".toList p (" on ".toList ++ (s ++ ('.' :: t ++ q))))
    (h : parseNode pf ((p ++ (" on ".toList ++ (s ++ ('.' :: t ++ q)))) :: post) = .ok (n, L)) :
    L.tableName = s := by
  refine C52_table_read pf [] post p s ('.' :: t ++ q) n L hs hw ?_ (by simp) hp h
  intro c hc
  simp at hc
  rw [← hc]; decide

end

/-- A row meeting the hypotheses. -/
def exRow : Str := "  ->  Seq Scan on users  (cost=0.00..12.50 rows=3 width=40) (actual time=0.010..1.5 rows=7 loops=2)".toList

example : exRow = "  ->  Seq Scan on users  ".toList ++ (estimationText "0.00".toList "12.50".toList 3 40 ++
    " (actual time=0.010..1.5 rows=7 loops=2)".toList) := by decide +kernel
example : exRow = "  ->  Seq Scan on users  (cost=0.00..12.50 rows=3 width=40) ".toList ++
    (actualText "0.010".toList "1.5".toList 7 2 ++ []) := by decide +kernel
example : (match parseNode (F := Nat) (fun s => some s.length)
    ["  SubPlan 2".toList, exRow, "        Filter: (id > 3)".toList] with
    | .ok (n, L) => some (n, L.tableName, L.estimatedCost, L.actualTimeAvg, L.actualLoopCount)
    | .error _ => none) = some (2, "users".toList, some 5, some 3, some 2) := by decide +kernel

end Verif.PgPlan
