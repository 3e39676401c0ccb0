import Verif.PgPlan.Numbers
/-!
# C78: the label of a node of a PostgreSQL plan

`/repo/database/postgres/pmodel/explain_analyze_result_node.go:155-164`
-/
namespace Verif.PgPlan
open Verif.Regex Verif.Lib

/-! ## Model -/

@[irreducible] def arrow : Str := "->".toList
@[irreducible] def onStart : Str := "on ".toList
@[irreducible] def openParen : Str := "(".toList

/-- `\s+(on |\()`, the end of the expression in `explain_analyze_result_node.go:155` -/
def endReg : Re :=
  .seq (.plus true (.cls isSpc)) (.grp 3 (.alt (.lit onStart) (.lit openParen)))
/-- `explain_analyze_result_node.go:155` -/
def titleReg : Re :=
  .seq (.star true (.cls isSpc)) (.seq (.opt (.grp 1 (.lit arrow))) (.seq (.star true (.cls isSpc))
    (.seq (.grp 2 (.plus false .dot)) endReg)))

/-- `explain_analyze_result_node.go:157-164` `Title` -/
def title (lines : List Str) : Str :=
  match find titleReg (getMetricLine lines) with
  | some m => m.cap 2
  | none => []

/-! ## Specification -/

/-- the text goes on with spaces and `on ` or a parenthesis -/
def Ends (t : Str) : Prop := ∃ sp r, sp ≠ [] ∧ (∀ c ∈ sp, isSpc c = true) ∧
  (t = sp ++ ("on ".toList ++ r) ∨ t = sp ++ '(' :: r)

/-- the first line of a node: indentation, perhaps an arrow and spaces, the operation, and the rest;
the operation goes as far as the first ` on ` or ` (`. -/
structure NodeLine (text op : Str) : Prop where
  shape : ∃ ind mark tail, text = ind ++ (mark ++ (op ++ tail)) ∧ (∀ c ∈ ind, isSpc c = true) ∧
    (mark = [] ∨ ∃ sp, mark = "->".toList ++ sp ∧ ∀ c ∈ sp, isSpc c = true) ∧ Ends tail ∧
    (∀ a1 a2, op = a1 ++ a2 → a1 ≠ [] → a2 ≠ [] → ¬ Ends (a2 ++ tail))
  nonempty : op ≠ []
  start : ∀ c ∈ op.head?, isSpc c = false ∧ c ≠ '-'
  oneLine : '\n' ∉ op

/-! ## Proofs -/

theorem onStart_eq : onStart = ['o', 'n', ' '] := by unfold onStart; rfl
theorem openParen_eq : openParen = ['('] := by unfold openParen; rfl
theorem arrow_eq : arrow = ['-', '>'] := by unfold arrow; rfl

/-- the choice at the end, after the spaces -/
theorem run_choice (st : St) : (run (.grp 3 (.alt (.lit onStart) (.lit openParen))) st some).isSome ↔
    (∃ r, st.rest = "on ".toList ++ r) ∨ ∃ r, st.rest = '(' :: r := by
  obtain ⟨pos, rest, caps⟩ := st
  have ho : "on ".toList = onStart := by unfold onStart; rfl
  simp only [run_grp, run_alt, ho]
  by_cases h1 : onStart <+: rest
  · obtain ⟨r, rfl⟩ := h1
    rw [run_lit]
    simp
  · rw [run_lit_none _ _ _ _ _ h1]
    simp only
    by_cases h2 : openParen <+: rest
    · obtain ⟨r, rfl⟩ := h2
      rw [run_lit]
      simp [openParen_eq]
    · rw [run_lit_none _ _ _ _ _ h2]
      constructor
      · intro h; cases h
      · rintro (⟨r, hr⟩ | ⟨r, hr⟩)
        · exact absurd ⟨r, hr.symm⟩ h1
        · exact absurd ⟨r, by rw [openParen_eq, hr]; rfl⟩ h2

/-- a successful greedy loop ends at some place where the rest succeeds -/
theorem greedyScan_at (p : Char → Bool) (k : St → Option St) (caps) (m : St) : ∀ (t : Str) (q : Nat),
    greedyScan p k caps q t = some m →
      ∃ a' r', t = a' ++ r' ∧ (∀ c ∈ a', p c = true) ∧ k ⟨q + a'.length, r', caps⟩ = some m := by
  intro t
  induction t with
  | nil => intro q h; exact ⟨[], [], rfl, by simp, by simpa [greedyScan] using h⟩
  | cons d ds iht =>
    intro q h
    rw [greedyScan] at h
    split at h
    · rename_i hd
      split at h
      · rename_i x hx
        cases h
        obtain ⟨a', r', e, ha, hk⟩ := iht (q + 1) hx
        refine ⟨d :: a', r', by rw [e]; rfl, ?_, by
          rw [List.length_cons, show q + (a'.length + 1) = q + 1 + a'.length by omega]; exact hk⟩
        intro c hc
        rcases List.mem_cons.mp hc with rfl | hc
        · exact hd
        · exact ha c hc
      · exact ⟨[], d :: ds, rfl, by simp, by simpa using h⟩
    · exact ⟨[], d :: ds, rfl, by simp, by simpa using h⟩

theorem run_end_none (t : Str) (pos : Nat) (caps) (h : ¬ Ends t) :
    run endReg ⟨pos, t, caps⟩ some = none := by
  cases hr : run endReg ⟨pos, t, caps⟩ some with
  | none => rfl
  | some m =>
    exfalso
    cases t with
    | nil => simp [endReg, Re.plus, run] at hr
    | cons c cs =>
      unfold endReg at hr
      rw [run_seq] at hr
      simp only [Re.plus, run_seq, run_cls_cons, run_star_greedy_cls] at hr
      split at hr
      · rename_i hc
        obtain ⟨a', r', e, ha, hk⟩ := greedyScan_at _ _ _ _ _ _ hr
        have := (run_choice _).mp (by rw [hk]; rfl)
        apply h
        refine ⟨c :: a', ?_⟩
        have hall : ∀ d ∈ c :: a', isSpc d = true := by
          intro d hd
          rcases List.mem_cons.mp hd with rfl | hd
          · exact hc
          · exact ha d hd
        rcases this with ⟨r, hr⟩ | ⟨r, hr⟩
        · simp only at hr
          exact ⟨r, by simp, hall, .inl (by rw [e, hr]; rfl)⟩
        · simp only at hr
          exact ⟨r, by simp, hall, .inr (by rw [e, hr]; rfl)⟩
      · cases hr

theorem run_end_some (t : Str) (pos : Nat) (caps) (h : Ends t) :
    (run endReg ⟨pos, t, caps⟩ some).isSome := by
  obtain ⟨sp, r, hne, hsp, ht⟩ := h
  cases sp with
  | nil => exact absurd rfl hne
  | cons c cs =>
    have key : ∀ x, (run (.grp 3 (.alt (.lit onStart) (.lit openParen)))
        ⟨pos + 1 + cs.length, x, caps⟩ some).isSome →
        (run endReg ⟨pos, (c :: cs) ++ x, caps⟩ some).isSome := by
      intro x hx
      unfold endReg
      rw [run_seq]
      simp only [Re.plus, run_seq, List.cons_append, run_cls_cons, hsp c (by simp), if_true,
        run_star_greedy_cls]
      exact greedyScan_isSome _ _ _ _ cs _ (fun d hd => hsp d (by simp [hd])) hx
    rcases ht with rfl | rfl
    · exact key _ ((run_choice _).mpr (.inl ⟨r, rfl⟩))
    · exact key _ ((run_choice _).mpr (.inr ⟨r, rfl⟩))

/-- the end of the expression adds group 3 only -/
theorem run_end_caps (st m : St) (h : run endReg st some = some m) :
    ∃ x, m.caps = (3, x) :: st.caps := by
  obtain ⟨pos, rest, caps⟩ := st
  have hc : ∀ (s m' : St), run (.grp 3 (.alt (.lit onStart) (.lit openParen))) s some = some m' →
      ∃ x, m'.caps = (3, x) :: s.caps := by
    intro s m' h'
    obtain ⟨pos', rest', caps'⟩ := s
    simp only [run_grp, run_alt] at h'
    by_cases h1 : onStart <+: rest'
    · obtain ⟨r, rfl⟩ := h1
      rw [run_lit] at h'
      cases h'
      exact ⟨_, rfl⟩
    · rw [run_lit_none _ _ _ _ _ h1] at h'
      simp only at h'
      by_cases h2 : openParen <+: rest'
      · obtain ⟨r, rfl⟩ := h2
        rw [run_lit] at h'
        cases h'
        exact ⟨_, rfl⟩
      · rw [run_lit_none _ _ _ _ _ h2] at h'
        cases h'
  cases rest with
  | nil => simp [endReg, Re.plus, run] at h
  | cons c cs =>
    unfold endReg at h
    rw [run_seq] at h
    simp only [Re.plus, run_seq, run_cls_cons, run_star_greedy_cls] at h
    split at h
    · obtain ⟨a', r', _, _, hk⟩ := greedyScan_at _ _ _ _ _ _ h
      obtain ⟨x, hx⟩ := hc _ _ hk
      exact ⟨x, hx⟩
    · cases h

/-- lazily up to the end -/
theorem run_op (op tail : Str) (pos : Nat) (caps) (hne : op ≠ []) (hnl : '\n' ∉ op)
    (hno : ∀ a1 a2, op = a1 ++ a2 → a1 ≠ [] → a2 ≠ [] → ¬ Ends (a2 ++ tail)) (he : Ends tail) :
    run (.seq (.grp 2 (.plus false .dot)) endReg) ⟨pos, op ++ tail, caps⟩ some =
      run endReg ⟨pos + op.length, tail, (2, op) :: caps⟩ some := by
  rw [run_seq]
  apply run_grp_lazy 2 (· != '\n') (fun s' => run endReg s' some) caps op tail pos hne
  · intro c hc
    rw [bne_iff_ne]
    intro e
    exact hnl (e ▸ hc)
  · intro a1 a2 e h1 h2 pos' caps'
    exact run_end_none _ _ _ (hno a1 a2 e h1 h2)
  · exact run_end_some _ _ _ he

/-- what remains after the indentation -/
theorem run_mark (mark op tail : Str) (pos : Nat) (hm : mark = [] ∨ ∃ sp, mark = arrow ++ sp ∧
      ∀ c ∈ sp, isSpc c = true) (hne : op ≠ []) (hst : ∀ c ∈ op.head?, isSpc c = false ∧ c ≠ '-')
    (hnl : '\n' ∉ op)
    (hno : ∀ a1 a2, op = a1 ++ a2 → a1 ≠ [] → a2 ≠ [] → ¬ Ends (a2 ++ tail)) (he : Ends tail) :
    ∃ m caps x, run (.seq (.opt (.grp 1 (.lit arrow))) (.seq (.star true (.cls isSpc))
        (.seq (.grp 2 (.plus false .dot)) endReg))) ⟨pos, mark ++ (op ++ tail), []⟩ some = some m ∧
      m.caps = (3, x) :: (2, op) :: caps := by
  have hhead : ∀ c ∈ (op ++ tail).head?, isSpc c = false := by
    cases op with
    | nil => exact absurd rfl hne
    | cons d ds => intro c hc; exact (hst c (by simpa using hc)).1
  have hspc : ∀ (sp : Str) (q : Nat) (caps), (∀ c ∈ sp, isSpc c = true) →
      ∃ m x, run (.seq (.star true (.cls isSpc)) (.seq (.grp 2 (.plus false .dot)) endReg))
        ⟨q, sp ++ (op ++ tail), caps⟩ some = some m ∧ m.caps = (3, x) :: (2, op) :: caps := by
    intro sp q caps hsp
    have hop := run_op op tail (q + sp.length) caps hne hnl hno he
    have hs := run_end_some tail (q + sp.length + op.length) ((2, op) :: caps) he
    obtain ⟨m, hm⟩ := Option.isSome_iff_exists.mp hs
    obtain ⟨x, hx⟩ := run_end_caps _ _ hm
    refine ⟨m, x, ?_, hx⟩
    rw [run_seq, run_star_greedy_cls]
    simp only
    rw [greedyScan_run isSpc _ caps _ hhead sp q hsp, hop, hm]
    rw [hop, hm]; rfl
  rcases hm with rfl | ⟨sp, rfl, hsp⟩
  · obtain ⟨m, x, hm, hx⟩ := hspc [] pos [] (by simp)
    refine ⟨m, [], x, ?_, hx⟩
    rw [run_seq, Re.opt, run_alt, run_grp, List.nil_append, run_lit_none]
    · simpa [run_eps] using hm
    · intro hp
      cases op with
      | nil => exact hne rfl
      | cons d ds =>
        rw [arrow_eq, List.cons_append] at hp
        exact (hst d (by simp)).2 (List.cons_prefix_cons.mp hp).1.symm
  · obtain ⟨m, x, hm, hx⟩ := hspc sp (pos + arrow.length) [(1, arrow)] hsp
    refine ⟨m, [(1, arrow)], x, ?_, hx⟩
    rw [run_seq, Re.opt, run_alt, run_grp, List.append_assoc, run_lit]
    have ht : (arrow ++ (sp ++ (op ++ tail))).take
        ((arrow ++ (sp ++ (op ++ tail))).length - (sp ++ (op ++ tail)).length) = arrow := take_len _ _
    simp only [ht]
    rw [hm]

theorem title_line (text op : Str) (h : NodeLine text op) :
    ∃ m, find titleReg text = some m ∧ m.cap 2 = op := by
  obtain ⟨ind, mark, tail, e, hind, hm, he, hno⟩ := h.shape
  have ha : "->".toList = arrow := by unfold arrow; rfl
  rw [ha] at hm
  have hhead : ∀ c ∈ (mark ++ (op ++ tail)).head?, isSpc c = false := by
    rcases hm with rfl | ⟨sp, rfl, _⟩
    · have := h.start
      cases op with
      | nil => exact absurd rfl h.nonempty
      | cons d ds => intro c hc; exact (this c (by simpa using hc)).1
    · intro c hc
      rw [arrow_eq] at hc
      simp at hc
      subst hc; decide
  obtain ⟨m, caps, x, hr, hc⟩ := run_mark mark op tail (0 + ind.length) hm h.nonempty h.start h.oneLine hno he
  have hrun : run titleReg ⟨0, text, []⟩ some = some m := by
    unfold titleReg
    rw [run_seq, run_star_greedy_cls]
    simp only
    rw [e, greedyScan_run isSpc _ [] _ hhead ind 0 hind, hr]
    rw [hr]; rfl
  refine ⟨m, ?_, by rw [St.cap, hc]; rfl⟩
  have := find_skip titleReg [] text 0 (by
    intro p1 p2 e h2
    exfalso
    have : p1 ++ p2 = [] := e.symm
    simp at this
    exact h2 this.2) (by simp only [List.length_nil, Nat.add_zero]; rw [hrun]; rfl)
  simp only [List.nil_append, List.length_nil, Nat.add_zero] at this
  rw [find, this, hrun]

/-- C78: the label of a PostgreSQL plan node is the name of its operation: what the row with the costs
says between the arrow and the first ` on ` or ` (`, whatever rows surround it. -/
theorem C78_pg_title (pre post : List Str) (p a b q op : Str) (rows width : Nat)
    (ha : Decimal a) (hb : Decimal b) (hpre : ∀ l ∈ pre, Absent "(cost=".toList l)
    (h : NodeLine (p ++ (estimationText a b rows width ++ q)) op) :
    title (pre ++ (p ++ (estimationText a b rows width ++ q)) :: post) = op := by
  obtain ⟨m, hm, hc⟩ := title_line _ _ h
  unfold title
  rw [getMetricLine_row pre post _ hpre (isMatch_row p a b q rows width ha hb), hm]
  exact hc

/-- C78: a node without a row with costs has no label. -/
theorem C78_pg_no_costs (g : List Str) (hg : ∀ l ∈ g, Absent "(cost=".toList l) : title g = [] := by
  have : getMetricLine g = [] := by
    induction g with
    | nil => rfl
    | cons l ls ih =>
      rw [getMetricLine, if_neg, ih (fun x hx => hg x (by simp [hx]))]
      rw [isMatch, find, metricLineReg, find_none_of_absent _ _ _ _ (hg l (by simp))]
      simp
  unfold title
  rw [this]
  have : find titleReg [] = none := by decide +kernel
  rw [this]

/-- a join below a sort -/
example : title ["  ->  Hash Join  (cost=1.00..2.00 rows=3 width=4)".toList,
    "        Hash Cond: (a.id = b.id)".toList] = "Hash Join".toList := by decide +kernel
/-- a scan; the name of the table is not part of the label -/
example : title ["Seq Scan on users u  (cost=0.00..1.00 rows=3 width=4)".toList] = "Seq Scan".toList := by
  decide +kernel
/-- the hypothesis on the line is met -/
example : NodeLine "->  Seq Scan on users u  (cost=0.00..1.00 rows=3 width=4)".toList "Seq Scan".toList := by
  refine ⟨⟨[], "->  ".toList, " on users u  (cost=0.00..1.00 rows=3 width=4)".toList, by decide +kernel,
    by simp, .inr ⟨"  ".toList, by decide +kernel, by decide +kernel⟩,
    ⟨" ".toList, "users u  (cost=0.00..1.00 rows=3 width=4)".toList, by decide +kernel, by decide +kernel,
      .inl (by decide +kernel)⟩, ?_⟩, by decide +kernel, by decide +kernel, by decide +kernel⟩
  intro a1 a2 e h1 h2 hE
  have hs := run_end_some _ 0 [] hE
  have hall : ∀ n < 9, 0 < n → ("Seq Scan".toList).drop n ≠ [] →
      (run endReg ⟨0, ("Seq Scan".toList).drop n ++
        " on users u  (cost=0.00..1.00 rows=3 width=4)".toList, []⟩ some).isSome = false := by
    decide +kernel
  have hd : a2 = ("Seq Scan".toList).drop a1.length := by rw [e]; simp
  have hlen : ("Seq Scan".toList).length = 8 := by decide +kernel
  have hl : a1.length < 9 := by
    have := congrArg List.length e
    rw [hlen, List.length_append] at this
    omega
  rw [hd] at hs h2
  have := hall _ hl (List.length_pos_iff.mpr h1) h2
  rw [this] at hs
  cases hs

end Verif.PgPlan
