import Verif.Examine.Lemmas
import Verif.Examine.Ddl
import Verif.Sql.Lex
import Verif.Index.Props
/-!
# Properties C06-C10: examination runs
-/
namespace Verif.Examine
open Verif.Index Verif.Index.Spec Spec

/-! ## C07 -/

/-- **C07.** Every successful creation is followed, after the one timed query, by a removal of the
same index on the same target, whatever the timed query answered. -/
theorem C07_created_is_dropped (env : Env) (secs : Nat) (its : List IndexTarget)
    (pre post : List Event) (n : List Char) (t : IndexTarget) (v : Int)
    (h : (run env secs its).2 = pre ++ ⟨.create n t, .ok v⟩ :: post) :
    ∃ x d rest, post = ⟨.execute, x⟩ :: ⟨.drop n t, d⟩ :: rest := by
  rcases run_grammar env secs its with ⟨e, hr⟩ | ⟨orig, l, hl, hr⟩
  · rw [hr] at h; rcases pre with _ | ⟨p, ps⟩ <;> simp at h
  · rw [hl] at h
    cases pre with
    | nil => simp at h
    | cons p ps =>
      simp only [List.cons_append, List.cons.injEq] at h
      rcases hr with ⟨e, _, ht⟩ | ⟨rs, _, ht⟩ <;> exact ht.cut_create h.2

/-- **C07.** Conversely every removal is the removal of the index created two calls earlier; so each
created index is dropped exactly once, before the next creation and before the run returns. -/
theorem C07_dropped_was_created (env : Env) (secs : Nat) (its : List IndexTarget)
    (pre post : List Event) (n : List Char) (t : IndexTarget) (d : Except Err Int)
    (h : (run env secs its).2 = pre ++ ⟨.drop n t, d⟩ :: post) :
    ∃ pre' v x, pre = pre' ++ [⟨.create n t, .ok v⟩, ⟨.execute, x⟩] := by
  rcases run_grammar env secs its with ⟨e, hr⟩ | ⟨orig, l, hl, hr⟩
  · rw [hr] at h; rcases pre with _ | ⟨p, ps⟩ <;> simp at h
  · rw [hl] at h
    cases pre with
    | nil => simp at h
    | cons p ps =>
      simp only [List.cons_append, List.cons.injEq] at h
      have : ∃ pre' v x, ps = pre' ++ [⟨.create n t, .ok v⟩, ⟨.execute, x⟩] := by
        rcases hr with ⟨e, _, ht⟩ | ⟨rs, _, ht⟩ <;> exact ht.cut_drop h.2
      obtain ⟨pre', v, x, hp⟩ := this
      exact ⟨p :: pre', v, x, by rw [hp]; rfl⟩

/-- **C07.** If no removal fails, the indexes in the database after the run are those before it. -/
theorem C07_database_unchanged (env : Env) (secs : Nat) (its : List IndexTarget)
    (before : List (List Char × IndexTarget))
    (hd : ∀ e ∈ (run env secs its).2, ∀ n t, e.call = .drop n t → Succeeded e) :
    (liveAfter before (run env secs its).2).Perm before := by
  rcases run_grammar env secs its with ⟨e, hr⟩ | ⟨orig, l, hl, hr⟩
  · rw [hr]; exact .refl _
  · rw [hl] at hd ⊢
    have hd' : ∀ e ∈ l, ∀ n t, e.call = .drop n t → Succeeded e := fun e he => hd e (by simp [he])
    rcases hr with ⟨e, _, ht⟩ | ⟨rs, _, ht⟩ <;> exact ht.live hd' before

/-! ## C08 -/

/-- **C08.** A timed query is either the very first call, or it comes right after a successful
creation and then exactly that one examination index exists, for one of the given targets. -/
theorem C08_one_index_while_timing (env : Env) (secs : Nat) (its : List IndexTarget)
    (pre post : List Event) (x : Except Err Int)
    (h : (run env secs its).2 = pre ++ ⟨.execute, x⟩ :: post) :
    pre = [] ∨ ∃ pre' n t v, pre = pre' ++ [⟨.create n t, .ok v⟩] ∧ t ∈ its ∧
      liveAfter [] pre = [(n, t)] := by
  rcases run_grammar env secs its with ⟨e, hr⟩ | ⟨orig, l, hl, hr⟩
  · rw [hr] at h; rcases pre with _ | ⟨p, ps⟩
    · exact .inl rfl
    · simp at h
  · rw [hl] at h
    cases pre with
    | nil => exact .inl rfl
    | cons p ps =>
      simp only [List.cons_append, List.cons.injEq] at h
      right
      have : ∃ pre' n t v, ps = pre' ++ [⟨.create n t, .ok v⟩] ∧ t ∈ its ∧
          NameOf (dec secs) t n ∧ liveAfter [] ps = [(n, t)] := by
        rcases hr with ⟨e, _, ht⟩ | ⟨rs, _, ht⟩ <;> exact ht.cut_execute h.2
      obtain ⟨pre', n, t, v, hp, ht, _, hlv⟩ := this
      refine ⟨p :: pre', n, t, v, by rw [hp]; rfl, ht, ?_⟩
      rw [← h.1]
      simpa [liveAfter, effect] using hlv

/-- **C08.** At no point of the run does more than one examination index exist. -/
theorem C08_at_most_one_index (env : Env) (secs : Nat) (its : List IndexTarget)
    (pre post : List Event) (h : (run env secs its).2 = pre ++ post) :
    (liveAfter [] pre).length ≤ 1 := by
  rcases run_grammar env secs its with ⟨e, hr⟩ | ⟨orig, l, hl, hr⟩
  · rw [hr] at h
    rcases pre with _ | ⟨p, ps⟩
    · simp [liveAfter]
    · simp at h; simp [← h.1, h.2.1, liveAfter, effect]
  · rw [hl] at h
    cases pre with
    | nil => simp [liveAfter]
    | cons p ps =>
      simp only [List.cons_append, List.cons.injEq] at h
      rw [← h.1]
      rcases hr with ⟨e, _, ht⟩ | ⟨rs, _, ht⟩
      · simpa [liveAfter, effect] using ht.prefix_le_one h.2
      · simpa [liveAfter, effect] using ht.prefix_le_one h.2

/-- **C08.** The baseline is measured first. -/
theorem C08_baseline_first (env : Env) (secs : Nat) (its : List IndexTarget) :
    ∃ x rest, (run env secs its).2 = ⟨.execute, x⟩ :: rest := by
  rcases run_grammar env secs its with ⟨e, hr⟩ | ⟨orig, l, hl, _⟩
  · exact ⟨_, _, by rw [hr]⟩
  · exact ⟨_, _, hl⟩

/-! ## C09 -/

/-- **C09.** The run succeeds exactly when no call fails. -/
theorem C09_success_iff (env : Env) (secs : Nat) (its : List IndexTarget) :
    (∃ r, (run env secs its).1 = .ok r) ↔ ∀ e ∈ (run env secs its).2, Succeeded e := by
  rcases run_grammar env secs its with ⟨e, hr⟩ | ⟨orig, l, hl, ⟨e, hr, ht⟩ | ⟨rs, hr, ht⟩⟩
  · rw [hr]
    constructor
    · rintro ⟨r, h⟩; cases h
    · intro h; obtain ⟨v, hv⟩ := h _ (List.mem_singleton.mpr rfl); cases hv
  · rw [hr, hl]
    constructor
    · rintro ⟨r, h⟩; cases h
    · intro h
      obtain ⟨pre, ev, post, e', hlog, _, hev, _⟩ := ht.err_facts rfl
      obtain ⟨v, hv⟩ := h ev (by rw [hlog]; simp)
      rw [hev] at hv; cases hv
  · rw [hr, hl]
    refine ⟨fun _ => ?_, fun _ => ⟨_, rfl⟩⟩
    intro e he
    rcases List.mem_cons.mp he with rfl | he
    · exact ⟨_, rfl⟩
    · exact (ht.ok_facts rfl).1 e he

/-- **C09.** A successful run reports one entry per target, in order, and the reported times are
the times measured, baseline first. -/
theorem C09_result_faithful (env : Env) (secs : Nat) (its : List IndexTarget) (r : Result)
    (h : (run env secs its).1 = .ok r) :
    r.indexResults.map (·.target) = its ∧
      times (run env secs its).2 = r.origMillis :: r.indexResults.map (·.millis) := by
  rcases run_grammar env secs its with ⟨e, hr⟩ | ⟨orig, l, hl, ⟨e, hr, ht⟩ | ⟨rs, hr, ht⟩⟩
  · rw [hr] at h; cases h
  · rw [hr] at h; cases h
  · rw [hr] at h; cases h
    obtain ⟨_, h2, h3⟩ := ht.ok_facts rfl
    refine ⟨h2, ?_⟩
    rw [hl]
    simp only [times, List.filterMap_cons, List.cons.injEq, true_and]
    exact h3

/-- **C09.** Each reported time was measured while the index of its own target existed: a successful
run's history is the baseline followed by create/execute/drop of each target with its time. -/
theorem C09_success_history (env : Env) (secs : Nat) (its : List IndexTarget) (r : Result)
    (h : (run env secs its).1 = .ok r) :
    ∃ names : List (List Char × Int × Int), names.length = r.indexResults.length ∧
      (run env secs its).2 = ⟨.execute, .ok r.origMillis⟩ ::
        (names.zip r.indexResults).flatMap (fun p =>
          [⟨.create p.1.1 p.2.target, .ok p.1.2.1⟩, ⟨.execute, .ok p.2.millis⟩,
           ⟨.drop p.1.1 p.2.target, .ok p.1.2.2⟩]) := by
  rcases run_grammar env secs its with ⟨e, hr⟩ | ⟨orig, l, hl, ⟨e, hr, ht⟩ | ⟨rs, hr, ht⟩⟩
  · rw [hr] at h; cases h
  · rw [hr] at h; cases h
  · rw [hr] at h; cases h
    rw [hl]
    generalize hR : (Except.ok rs : Except Err (List IndexResult)) = R at ht
    have : ∃ names : List (List Char × Int × Int), names.length = rs.length ∧
        l = (names.zip rs).flatMap (fun p =>
          [⟨.create p.1.1 p.2.target, .ok p.1.2.1⟩, ⟨.execute, .ok p.2.millis⟩,
           ⟨.drop p.1.1 p.2.target, .ok p.1.2.2⟩]) := by
      clear hl hr
      induction ht generalizing rs with
      | done => cases hR; exact ⟨[], rfl, rfl⟩
      | createFail hn => cases hR
      | execFail hn => cases hR
      | dropFail hn => cases hR
      | stepErr hn h ih => cases hR
      | @stepOk it its n v m v' l rs' hn h ih =>
        cases hR
        obtain ⟨names, h1, h2⟩ := ih rs' rfl
        exact ⟨(n, v, v') :: names, by simp [h1], by simp [h2]⟩
    obtain ⟨names, h1, h2⟩ := this
    exact ⟨names, h1, by rw [h2]⟩

/-- **C09.** A failing run reports the error of the first failing call; a removal's error is
reported (wrapped) only if that removal is the first failing call, i.e. the timed query before it
succeeded. -/
theorem C09_first_error_reported (env : Env) (secs : Nat) (its : List IndexTarget) (e : Err)
    (h : (run env secs its).1 = .error e) :
    ∃ pre ev post e', (run env secs its).2 = pre ++ ev :: post ∧ (∀ p ∈ pre, Succeeded p) ∧
      ev.resp = .error e' ∧
      ((e = e' ∧ ∀ n t, ev.call ≠ .drop n t) ∨ (e = .wrapDrop e' ∧ ∃ n t, ev.call = .drop n t)) := by
  rcases run_grammar env secs its with ⟨e0, hr⟩ | ⟨orig, l, hl, ⟨e0, hr, ht⟩ | ⟨rs, hr, ht⟩⟩
  · rw [hr] at h ⊢; cases h
    exact ⟨[], _, [], _, rfl, by simp, rfl, .inl ⟨rfl, by simp⟩⟩
  · rw [hr] at h; cases h
    obtain ⟨pre, ev, post, e', hlog, hp, hev, hor⟩ := ht.err_facts rfl
    refine ⟨_ :: pre, ev, post, e', by rw [hl, hlog]; rfl, ?_, hev, hor⟩
    intro p hpm
    rcases List.mem_cons.mp hpm with rfl | hpm
    · exact ⟨_, rfl⟩
    · exact hp p hpm
  · rw [hr] at h; cases h

/-! ### A concrete run: two targets, the second timed query and its clean-up both fail -/

/-- test data -/
def exTarget (s : String) : IndexTarget := newIndexTarget "users".toList [s.toList]
/-- test environment: the `k`-th call (from 0) fails when listed. -/
def exEnv (failAt : List Nat) : Env where
  answer log _ := if log.length ∈ failAt then .error (.db log.length) else .ok (log.length + 10)
  rand _ := ⟨7, by decide⟩

example : (run (exEnv []) 1600000000 [exTarget "a", exTarget "b"]).1 =
    .ok ⟨10, [⟨exTarget "a", 12⟩, ⟨exTarget "b", 15⟩]⟩ := by rfl
example : (run (exEnv [5, 6]) 1600000000 [exTarget "a", exTarget "b"]).1 = .error (.db 5) := by rfl
example : (run (exEnv [3]) 1600000000 [exTarget "a", exTarget "b"]).1 =
    .error (.wrapDrop (.db 3)) := by rfl
/-- `C07_database_unchanged`'s hypothesis is met by a run whose timed query fails. -/
example : ∀ e ∈ (run (exEnv [5]) 1600000000 [exTarget "a", exTarget "b"]).2,
    ∀ n t, e.call = .drop n t → Succeeded e := by
  intro e he n t hc
  have hl : (run (exEnv [5]) 1600000000 [exTarget "a", exTarget "b"]).2.length = 7 := by rfl
  simp [run, Env.perform, examineAll, examine, exEnv] at he
  rcases he with rfl | rfl | rfl | rfl | rfl | rfl | rfl <;> simp at hc <;> exact ⟨_, rfl⟩

/-! ## C10 -/

theorem safeName_word (c : IndexColumn) : ∀ ch ∈ c.safeName, Regex.isWord ch = true := by
  intro ch h
  simp only [IndexColumn.safeName, List.mem_map] at h
  obtain ⟨x, _, rfl⟩ := h
  split
  · assumption
  · decide

theorem joinWith_all (p : Char → Prop) (sep : List Char) (xs : List (List Char))
    (hsep : ∀ c ∈ sep, p c) (hxs : ∀ x ∈ xs, ∀ c ∈ x, p c) : ∀ c ∈ joinWith sep xs, p c := by
  induction xs with
  | nil => simp [joinWith]
  | cons x xs ih =>
    cases xs with
    | nil => simpa [joinWith] using hxs x (by simp)
    | cons y ys =>
      intro c hc
      simp only [joinWith, List.append_assoc, List.mem_append] at hc
      rcases hc with hc | hc | hc
      · exact hxs x (by simp) c hc
      · exact hsep c hc
      · exact ih (fun z hz => hxs z (by simp [hz])) c hc

theorem fullName_word (secs : Nat) (it : IndexTarget) :
    ∀ c ∈ dec secs ++ "_".toList ++ joinWith "_".toList (it.columns.map (·.safeName)),
      Regex.isWord c = true := by
  intro c hc
  simp only [List.append_assoc, List.mem_append] at hc
  rcases hc with hc | hc | hc
  · exact isWord_of_digit (dec_digits _ _ hc)
  · simp at hc; subst hc; decide
  · refine joinWith_all (fun c => Regex.isWord c = true) _ _ ?_ ?_ c hc
    · intro c hc; simp at hc; subst hc; decide
    · intro x hx
      obtain ⟨col, _, rfl⟩ := List.mem_map.mp hx
      exact safeName_word col

/-- **C10.** Every index name used in a run — in creations and removals alike — has between 1 and 40
characters, all of them word characters, and starts with the first 30 characters of
`<unix seconds>_<safe column names joined by _>` of its target. -/
theorem C10_name_short_and_safe (env : Env) (secs : Nat) (its : List IndexTarget) (e : Event)
    (he : e ∈ (run env secs its).2) (n : List Char) (t : IndexTarget)
    (hc : e.call = .create n t ∨ e.call = .drop n t) :
    t ∈ its ∧ n.length ≤ 40 ∧ Ident n ∧
      (dec secs ++ '_' :: ['_'].intercalate (t.columns.map (·.safeName))).take 30 <+: n := by
  have hname : t ∈ its ∧ NameOf (dec secs) t n := by
    rcases run_grammar env secs its with ⟨e0, hr⟩ | ⟨orig, l, hl, hr⟩
    · rw [hr] at he; simp at he; subst he; simp at hc
    · rw [hl] at he
      rcases List.mem_cons.mp he with rfl | he
      · simp at hc
      · rcases hr with ⟨_, _, ht⟩ | ⟨rs, _, ht⟩ <;> exact ht.names e he n t hc
  obtain ⟨hmem, rnd, hrnd, rfl⟩ := hname
  refine ⟨hmem, ?_⟩
  have hw := fullName_word secs t
  have heq : dec secs ++ '_' :: ['_'].intercalate (t.columns.map (·.safeName)) =
      dec secs ++ "_".toList ++ joinWith "_".toList (t.columns.map (·.safeName)) := by
    rw [joinWith_eq_intercalate]; simp
  rw [heq]
  have hpos : 0 < (dec secs).length := List.length_pos_of_ne_nil (dec_ne_nil secs)
  simp only [indexName]
  generalize hf : dec secs ++ "_".toList ++ joinWith "_".toList (t.columns.map (·.safeName)) = full
    at *
  have hfull : full ≠ [] := by rw [← hf]; simp
  by_cases hlen : full.length > maxIdxNameLen
  · simp only [hlen, if_true]
    have hl9 : (dec rnd).length ≤ 9 := dec_length_le 8 rnd (by omega)
    have h30 : (full.take maxIdxNameLen).length = 30 := by
      simp only [List.length_take, maxIdxNameLen] at hlen ⊢; omega
    refine ⟨?_, ⟨?_, ?_⟩, ?_⟩
    · simp only [List.length_append, h30]; simp; omega
    · simp
    · intro c hcm
      rw [← isWord_iff]
      simp only [List.append_assoc, List.mem_append] at hcm
      rcases hcm with hcm | hcm | hcm
      · exact hw c (List.mem_of_mem_take hcm)
      · simp at hcm; subst hcm; decide
      · exact isWord_of_digit (dec_digits _ _ hcm)
    · simp only [List.append_assoc, maxIdxNameLen]; exact List.prefix_append _ _
  · simp only [hlen, if_false]
    refine ⟨by simp only [maxIdxNameLen] at hlen; omega, ⟨hfull, ?_⟩, List.take_prefix _ _⟩
    intro c hcm
    rw [← isWord_iff]
    exact hw c hcm

example : indexName (dec 1600000000) (newIndexTarget "t".toList ["a-b".toList, "c".toList]) 5 =
    "1600000000_a_b_c".toList := by decide +kernel
example : indexName (dec 1600000000) (newIndexTarget "t".toList ["abcdefghijklmnopqrstuvwxyz".toList]) 5 =
    "1600000000_abcdefghijklmnopqrs_5".toList := by decide +kernel

/-! ## C06 -/

open Sql

/-- The column list of the expected reading: names separated by commas. -/
def columnToks (cols : List (List Char)) : List Tok :=
  [Tok.sym ','].intercalate (cols.map fun c => [Tok.quoted c])

theorem lex_columns (q : Char) (cols : List (List Char)) (rest : List Char)
    (hne : cols ≠ []) (hq : ∀ c ∈ cols, q ∉ c) (hq1 : q ≠ ',') (hq2 : q ≠ ')') :
    lexGo q .out (joinWith [','] (cols.map fun c => q :: c ++ [q]) ++ ')' :: rest) =
      (lexGo q .out rest).map (columnToks cols ++ Tok.sym ')' :: ·) := by
  induction cols with
  | nil => exact absurd rfl hne
  | cons c cs ih =>
    cases cs with
    | nil =>
      have h1 := lexGo_out_quoted q c ')' rest (hq c (by simp)) hq2.symm
      have h2 := lexGo_out_sym q ')' rest hq2.symm (by decide) (by decide)
      simp only [List.map_cons, List.map_nil, joinWith, List.append_assoc, List.cons_append,
        List.nil_append] at h1 ⊢
      rw [h1, h2]
      simp [columnToks, List.intercalate, Option.map_map, Function.comp_def]
    | cons d ds =>
      have ih' := ih (by simp) (fun x hx => hq x (by simp [hx]))
      have h1 := lexGo_out_quoted q c ','
        (joinWith [','] ((d :: ds).map fun c => q :: c ++ [q]) ++ ')' :: rest)
        (hq c (by simp)) hq1.symm
      have h2 := lexGo_out_sym q ','
        (joinWith [','] ((d :: ds).map fun c => q :: c ++ [q]) ++ ')' :: rest) hq1.symm (by decide)
        (by decide)
      have hj : joinWith [','] ((c :: d :: ds).map fun c => q :: c ++ [q]) ++ ')' :: rest =
          q :: c ++ q :: ',' ::
            (joinWith [','] ((d :: ds).map fun c => q :: c ++ [q]) ++ ')' :: rest) := by
        simp [joinWith]
      rw [hj, h1, h2, ih']
      simp [columnToks, List.intercalate, Option.map_map, Function.comp_def]

/-- What "safe" means for the check the code performs. -/
theorem isSafe_iff (it : IndexTarget) :
    it.isSafe = true ↔ Ident it.tableName ∧ ∀ c ∈ it.columns, ∀ ch ∈ c.name, WordChar ch := by
  unfold IndexTarget.isSafe
  have hcol : ∀ c : IndexColumn, (c.name == c.safeName) = true ↔ ∀ ch ∈ c.name, WordChar ch := by
    intro c
    simp only [beq_iff_eq, IndexColumn.safeName]
    have : ∀ l : List Char, l = l.map (fun ch => if Regex.isWord ch then ch else '_') ↔
        ∀ ch ∈ l, WordChar ch := by
      intro l
      induction l with
      | nil => simp
      | cons x xs ih =>
        simp only [List.map_cons, List.cons.injEq, ih, List.mem_cons, forall_eq_or_imp]
        refine and_congr_left fun _ => ?_
        rw [← isWord_iff]
        by_cases hx : Regex.isWord x = true
        · simp [hx]
        · simp only [Bool.not_eq_true] at hx
          simp only [hx, Bool.false_eq_true, if_false, iff_false]
          rintro rfl; exact absurd hx (by decide)
    exact this c.name
  by_cases hw : Regex.isMatch wordOnlyReg it.tableName = true
  · simp only [hw, Bool.not_true, Bool.false_eq_true, if_false, List.all_eq_true, hcol]
    have := (ident_iff _).mp hw
    simp [this]
  · have hn : ¬Ident it.tableName := fun h => hw ((ident_iff _).mpr h)
    simp [hw, hn]

/-- A plain target (one that came from an option text) is safe. -/
theorem plain_isSafe (it : IndexTarget) (h : Plain it) : it.isSafe = true :=
  (isSafe_iff it).mpr ⟨h.table, fun c hc => (h.cols c hc).2⟩

theorem safeName_eq (it : IndexTarget) (h : it.isSafe = true) :
    it.columns.map (·.safeName) = it.columns.map (·.name) := by
  apply List.map_congr_left
  intro c hc
  unfold IndexTarget.isSafe at h
  split at h
  · cases h
  · have := List.all_eq_true.mp h c hc
    exact (beq_iff_eq.mp this).symm

theorem quote_notMem {s : List Char} (q : Char) (hq : ¬WordChar q) (h : ∀ c ∈ s, WordChar c) :
    q ∉ s := fun hm => hq (h q hm)

/-- Keyword helper. -/
theorem kw (q : Char) (w rest : List Char) (h : (w.all Regex.isWord && !w.isEmpty) = true)
    (hq : Regex.isWord q = false) (hqs : q ≠ ' ') :
    lexGo q .out (w ++ ' ' :: rest) = (lexGo q .out rest).map (.word w :: ·) := by
  simp only [Bool.and_eq_true, List.all_eq_true, Bool.not_eq_true', List.isEmpty_eq_false_iff] at h
  exact lexGo_out_word_space q w rest h.2 h.1 hq hqs

/-- **C06 (MySQL).** For a safe target and a word-only name, the statement reads, token by token, as
adding the index on exactly the given table and columns. -/
theorem C06_mysql_create (name : List Char) (it : IndexTarget) (hs : it.isSafe = true)
    (hc : it.columns ≠ []) (hn : Ident name) :
    lex '`' (mysqlCreate name it) = some
      ([.word "ALTER".toList, .word "TABLE".toList, .quoted it.tableName, .word "ADD".toList,
        .word "INDEX".toList, .quoted name, .sym '('] ++
        columnToks (it.columns.map (·.name)) ++ [.sym ')']) := by
  have hsafe := (isSafe_iff it).mp hs
  have hq : ¬WordChar '`' := by unfold WordChar; decide
  have ht := quote_notMem '`' hq hsafe.1.2
  have hnm := quote_notMem '`' hq hn.2
  have hcols : ∀ c ∈ it.columns.map (·.name), '`' ∉ c := by
    intro c hc'
    obtain ⟨x, hx, rfl⟩ := List.mem_map.mp hc'
    exact quote_notMem '`' hq (hsafe.2 x hx)
  have hstmt : mysqlCreate name it = "ALTER".toList ++ ' ' :: ("TABLE".toList ++ ' ' ::
      ('`' :: it.tableName ++ '`' :: ' ' :: ("ADD".toList ++ ' ' :: ("INDEX".toList ++ ' ' ::
        ('`' :: name ++ '`' :: ' ' :: '(' ::
          (joinWith [','] ((it.columns.map (·.name)).map fun c => '`' :: c ++ ['`']) ++
            ')' :: [])))))) := by
    have : (it.columns.map fun c => '`' :: c.safeName ++ ['`']) =
        (it.columns.map (·.name)).map fun c => '`' :: c ++ ['`'] := by
      rw [← safeName_eq it hs]; simp [Function.comp_def]
    unfold mysqlCreate quotedColumns
    rw [this]
    simp
  have hcn : it.columns.map (·.name) ≠ [] := by simpa using hc
  rw [hstmt, lex, kw '`' "ALTER".toList _ (by decide) (by decide) (by decide), kw '`' "TABLE".toList _ (by decide) (by decide) (by decide),
    lexGo_out_quoted _ _ _ _ ht (by decide), lexGo_out_space _ _ (by decide),
    kw '`' "ADD".toList _ (by decide) (by decide) (by decide), kw '`' "INDEX".toList _ (by decide) (by decide) (by decide),
    lexGo_out_quoted _ _ _ _ hnm (by decide), lexGo_out_space _ _ (by decide),
    lexGo_out_sym _ '(' _ (by decide) (by decide) (by decide),
    lex_columns '`' _ [] hcn hcols (by decide) (by decide)]
  simp [lexGo]

/-- **C06 (MySQL).** The removal names the same table and index. -/
theorem C06_mysql_drop (name : List Char) (it : IndexTarget) (hs : it.isSafe = true)
    (hn : Ident name) :
    lex '`' (mysqlDrop name it) = some
      [.word "ALTER".toList, .word "TABLE".toList, .quoted it.tableName, .word "DROP".toList,
        .word "INDEX".toList, .quoted name] := by
  have hsafe := (isSafe_iff it).mp hs
  have hq : ¬WordChar '`' := by unfold WordChar; decide
  have ht := quote_notMem '`' hq hsafe.1.2
  have hnm := quote_notMem '`' hq hn.2
  have hstmt : mysqlDrop name it = "ALTER".toList ++ ' ' :: ("TABLE".toList ++ ' ' ::
      ('`' :: it.tableName ++ '`' :: ' ' :: ("DROP".toList ++ ' ' :: ("INDEX".toList ++ ' ' ::
        ('`' :: name ++ ['`']))))) := by
    unfold mysqlDrop
    simp
  rw [hstmt, lex, kw '`' "ALTER".toList _ (by decide) (by decide) (by decide), kw '`' "TABLE".toList _ (by decide) (by decide) (by decide),
    lexGo_out_quoted _ _ _ _ ht (by decide), lexGo_out_space _ _ (by decide),
    kw '`' "DROP".toList _ (by decide) (by decide) (by decide), kw '`' "INDEX".toList _ (by decide) (by decide) (by decide),
    lexGo_out_quoted_end _ _ hnm]
  simp

/-- **C06 (PostgreSQL and Hasura).** -/
theorem C06_postgres_create (name : List Char) (it : IndexTarget) (hs : it.isSafe = true)
    (hc : it.columns ≠ []) (hn : Ident name) :
    lex '"' (postgresCreate name it) = some
      ([.word "CREATE".toList, .word "INDEX".toList, .quoted name, .word "ON".toList,
        .quoted it.tableName, .sym '('] ++
        columnToks (it.columns.map (·.name)) ++ [.sym ')']) := by
  have hsafe := (isSafe_iff it).mp hs
  have hq : ¬WordChar '"' := by unfold WordChar; decide
  have ht := quote_notMem '"' hq hsafe.1.2
  have hnm := quote_notMem '"' hq hn.2
  have hcols : ∀ c ∈ it.columns.map (·.name), '"' ∉ c := by
    intro c hc'
    obtain ⟨x, hx, rfl⟩ := List.mem_map.mp hc'
    exact quote_notMem '"' hq (hsafe.2 x hx)
  have hstmt : postgresCreate name it = "CREATE".toList ++ ' ' :: ("INDEX".toList ++ ' ' ::
      ('"' :: name ++ '"' :: ' ' :: ("ON".toList ++ ' ' ::
        ('"' :: it.tableName ++ '"' :: ' ' :: '(' ::
          (joinWith [','] ((it.columns.map (·.name)).map fun c => '"' :: c ++ ['"']) ++
            ')' :: []))))) := by
    have : (it.columns.map fun c => '"' :: c.safeName ++ ['"']) =
        (it.columns.map (·.name)).map fun c => '"' :: c ++ ['"'] := by
      rw [← safeName_eq it hs]; simp [Function.comp_def]
    unfold postgresCreate quotedColumns
    rw [this]
    simp
  have hcn : it.columns.map (·.name) ≠ [] := by simpa using hc
  rw [hstmt, lex, kw '"' "CREATE".toList _ (by decide) (by decide) (by decide), kw '"' "INDEX".toList _ (by decide) (by decide) (by decide),
    lexGo_out_quoted _ _ _ _ hnm (by decide), lexGo_out_space _ _ (by decide),
    kw '"' "ON".toList _ (by decide) (by decide) (by decide),
    lexGo_out_quoted _ _ _ _ ht (by decide), lexGo_out_space _ _ (by decide),
    lexGo_out_sym _ '(' _ (by decide) (by decide) (by decide),
    lex_columns '"' _ [] hcn hcols (by decide) (by decide)]
  simp [lexGo]

/-- **C06 (PostgreSQL and Hasura).** -/
theorem C06_postgres_drop (name : List Char) (it : IndexTarget) (hn : Ident name) :
    lex '"' (postgresDrop name it) = some
      [.word "DROP".toList, .word "INDEX".toList, .quoted name] := by
  have hq : ¬WordChar '"' := by unfold WordChar; decide
  have hnm := quote_notMem '"' hq hn.2
  have hstmt : postgresDrop name it = "DROP".toList ++ ' ' :: ("INDEX".toList ++ ' ' ::
        ('"' :: name ++ ['"'])) := by
    unfold postgresDrop
    simp
  rw [hstmt, lex, kw '"' "DROP".toList _ (by decide) (by decide) (by decide), kw '"' "INDEX".toList _ (by decide) (by decide) (by decide),
    lexGo_out_quoted_end _ _ hnm]
  simp

/-- The safety check is needed: without it a table name can smuggle in a second statement. -/
theorem C06_unsafe_table_injects :
    ∃ name it, Ident name ∧ it.isSafe = false ∧
      Tok.word "DROP".toList ∈ (lex '`' (mysqlCreate name it)).getD [] :=
  ⟨"i".toList, newIndexTarget "t` ADD INDEX `i` (`c`); DROP TABLE `u".toList ["c".toList],
    ⟨by decide, by simp [WordChar]⟩, by decide +kernel, by decide +kernel⟩

example : (newIndexTarget "users".toList ["first_name".toList, "id".toList]).isSafe = true := by
  decide +kernel
example : Ident "1600000000_a".toList := ⟨by decide, by simp [WordChar]⟩

end Verif.Examine
