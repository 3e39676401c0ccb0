import Verif.Cmd.Line
import Verif.Report.Page
/-!
# C95: the command shown by a report, run again

What is pasted from the page (`/repo/client/src/components/IndexSuggestion.svelte`, or
`/repo/client/src/pages/dig/performance_insights/util/CommandText.ts`) into a shell and so into the program
(`/repo/cmd/root.go`, `/repo/cmd/db/suggest/{mysql,postgres}.go`, `/repo/cmd/db/suggest/hasura/postgres.go`): C43 for the
text, C94 for the arguments, C42 for what the command then does.
-/
namespace Verif.Report.Again
open Verif.Index Verif.Cmd Verif.Cmd.Line Verif.Client Verif.Index.Spec

/-! ## Model -/

/-- `/repo/client/src/components/IndexSuggestion.svelte:16,38`: the checkboxes, and the targets whose box is checked -/
def chosen (targets : List IndexTarget) (checked : List Bool) : List IndexTarget :=
  ((targets.zip checked).filter (·.2)).map (·.1)

/-- the command shown below the checkboxes -/
def shown {T : Type} (sub : Shell.SubCommand) (r : Cmd.Report T) (checked : List Bool) : Str :=
  Shell.examineCommand sub (r.options.map clientOption) (chosen r.targets checked)

/-! ## Specification -/

/-- the command of the program a report belongs to -/
def leafOf : Shell.SubCommand → Leaf
  | .mysql => .mysql
  | .postgres => .postgres
  | .hasuraPostgres => .hasura

/-- where the examination asked for by a report is reported: beside the report, or in its place if it is the report of
an examination -/
def NextTo (examined : Bool) (output next : Str) : Prop :=
  if examined then next = output
  else ∃ stem e, output = stem ++ e ∧ next = stem ++ "_examine".toList ++ e

/-! ## Proofs -/

/-- the report's options, in all of it -/
theorem finish_options {T : Type} (w : World T) (o : Options) (extra : List CommandOption) (given : List IndexTarget)
    (query : Str) (tree : T) (its : List IndexTarget) (a b : Str) (p : Str) (r : Cmd.Report T)
    (h : Effect.html p r ∈ (finish w o extra given query tree its [.explain a, .suggest b]).2) :
    p = o.output ∧ o.output ≠ [] ∧ r.targets = its ∧ r.options =
      [createOutputExaminationOption (!o.runsExamination) o.output, ⟨true, "q".toList, o.query⟩] ++ extra := by
  unfold finish at h
  by_cases hx : o.runsExamination = true
  · simp only [hx, if_true] at h
    cases hr : Examine.run w.exam w.now (examineTargets given its) with
    | mk res evs =>
      cases res with
      | error e => simp [hr] at h
      | ok er =>
        simp only [hr] at h
        split at h
        · next ho =>
          split at h
          · simp at h
          · simp only [List.cons_append, List.nil_append, List.append_assoc, List.mem_cons, List.mem_append, List.mem_map,
              reduceCtorEq, false_or, and_false, exists_false, Effect.html.injEq, List.not_mem_nil, or_false] at h
            obtain ⟨rfl, rfl⟩ := h
            exact ⟨rfl, ho, rfl, by rw [hx]; rfl⟩
        · simp at h
  · have hx' : o.runsExamination = false := by simpa using hx
    simp only [hx', Bool.false_eq_true, if_false] at h
    split at h
    · next ho =>
      split at h
      · simp at h
      · simp only [List.cons_append, List.nil_append, List.mem_cons, reduceCtorEq, false_or, Effect.html.injEq,
          List.not_mem_nil, or_false] at h
        obtain ⟨rfl, rfl⟩ := h
        exact ⟨rfl, ho, rfl, by rw [hx']; rfl⟩
    · simp at h

theorem sql_options {T : Type} (pre : Str) (w : World T) (o : Options) (p : Str) (r : Cmd.Report T)
    (h : Effect.html p r ∈ (suggestSql pre w o).2) :
    p = o.output ∧ o.output ≠ [] ∧ r.options =
      [createOutputExaminationOption (!o.runsExamination) o.output, ⟨true, "q".toList, o.query⟩] ++ [] := by
  rcases suggestSql_spec pre w o with ⟨e, _, h1⟩ | ⟨given, _, ⟨e, _, h1⟩ | ⟨_, e, _, _, h1⟩ | ⟨tree, its, _, _, h1⟩⟩
  · rw [h1] at h; cases h
  · rw [h1] at h; simp at h
  · rw [h1] at h; simp at h
  · rw [h1] at h
    obtain ⟨e1, e2, -, e3⟩ := finish_options _ _ _ _ _ _ _ _ _ _ _ h
    exact ⟨e1, e2, e3⟩

theorem hasura_options {T Plan : Type} (w : HasuraWorld T Plan) (o : Options) (jv : Str) (p : Str) (r : Cmd.Report T)
    (h : Effect.html p r ∈ (suggestHasura w o jv).2) :
    p = o.output ∧ o.output ≠ [] ∧ r.options =
      [createOutputExaminationOption (!o.runsExamination) o.output, ⟨true, "q".toList, o.query⟩] ++
        [⟨false, "json-variables".toList, jv⟩] := by
  rcases suggestHasura_spec w o jv with ⟨_, _, h1, -, h2⟩ | ⟨sql, _, tree, its, given, _, _, _, _, h1⟩
  · rw [h1] at h
    exact absurd h (h2 p r)
  · rw [h1] at h
    obtain ⟨e1, e2, -, e3⟩ := finish_options _ _ _ _ _ _ _ _ _ _ _ h
    exact ⟨e1, e2, e3⟩

theorem next_to (examined : Bool) (output : Str) :
    NextTo examined output (createOutputExaminationOption (!examined) output).value := by
  cases examined with
  | true => exact C58_same_file output
  | false =>
    obtain ⟨stem, e, h1, -, h2, -⟩ := C58_other_file output
    exact ⟨stem, e, h1, h2⟩

/-- the arguments of the command -/
def againArgs (sub : Shell.SubCommand) (out q : Str) (jv : Option Str) (ts : List IndexTarget) : List Str :=
  (leafOf sub).words ++ ["--with-examine".toList] ++ ts.flatMap (fun it => ["-i".toList, Shell.indexArg it]) ++
    ["-o".toList, out, "-q".toList, q] ++ (match jv with | none => [] | some j => ["--json-variables".toList, j])

def againTokens (out q : Str) (jv : Option Str) (ts : List IndexTarget) : List Token :=
  [.switch "with-examine".toList] ++ ts.map (fun it => .short 'i' (Shell.indexArg it)) ++ [.short 'o' out, .short 'q' q] ++
    (match jv with | none => [] | some j => [.long "json-variables".toList j])

def againSs (out q : Str) (jv : Option Str) (ts : List IndexTarget) : List Sets :=
  [[("with-examine".toList, true')]] ++ ts.map (fun it => [("index".toList, Shell.indexArg it)]) ++
    [[("output".toList, out)], [("query".toList, q)]] ++
    (match jv with | none => [] | some j => [[("json-variables".toList, j)]])

def jsonSets (n : Str) : Option Str → Sets
  | none => []
  | some j => [(n, j)]

def againSets (out q : Str) (jv : Option Str) (ts : List IndexTarget) : Sets :=
  ("with-examine".toList, true') :: (ts.map (fun it => ("index".toList, Shell.indexArg it)) ++
    (("output".toList, out) :: ("query".toList, q) ::
    jsonSets "json-variables".toList jv))

theorem againArgs_eq (sub : Shell.SubCommand) (out q : Str) (jv : Option Str) (ts : List IndexTarget) :
    againArgs sub out q jv ts = (leafOf sub).words ++ (againTokens out q jv ts).flatMap Token.text := by
  have e1 : (ts.map (fun it => Token.short 'i' (Shell.indexArg it))).flatMap Token.text =
      ts.flatMap (fun it => ["-i".toList, Shell.indexArg it]) := by
    rw [List.flatMap_map]
    rfl
  have e2 : (match jv with | none => [] | some j => [Token.long "json-variables".toList j]).flatMap Token.text =
      (match jv with | none => [] | some j => ["--json-variables".toList, j]) := by
    cases jv <;> rfl
  unfold againArgs againTokens
  rw [List.flatMap_append, List.flatMap_append, List.flatMap_append, e1, e2, List.append_assoc, List.append_assoc,
    List.append_assoc, List.append_assoc, List.append_assoc]
  rfl

theorem againSs_flatten (out q : Str) (jv : Option Str) (ts : List IndexTarget) :
    (againSs out q jv ts).flatten = againSets out q jv ts := by
  have e1 : (ts.map (fun it => [("index".toList, Shell.indexArg it)])).flatten =
      ts.map (fun it => ("index".toList, Shell.indexArg it)) := by
    induction ts with
    | nil => rfl
    | cons t ts ih => rw [List.map_cons, List.flatten_cons, ih]; rfl
  unfold againSs againSets
  rw [List.flatten_append, List.flatten_append, List.flatten_append, e1]
  cases jv <;> simp [jsonSets]

theorem again_means (ints : Str → Bool) (sub : Shell.SubCommand) (out q : Str) (jv : Option Str) (ts : List IndexTarget)
    (hj : jv ≠ none → sub = .hasuraPostgres) :
    List.Forall₂ (Means ints (leafOf sub).flags) (againTokens out q jv ts) (againSs out q jv ts) := by
  unfold againTokens againSs
  refine forall₂_append (forall₂_append (forall₂_append ?_ ?_) ?_) ?_
  · exact .cons ⟨option "with-examine" none .bool false, by cases sub <;> decide +kernel, rfl, rfl, rfl⟩ .nil
  · induction ts with
    | nil => exact .nil
    | cons t ts ih =>
      exact .cons ⟨option "index" (some 'i') .strings false, by cases sub <;> decide +kernel, rfl, by decide, rfl, rfl⟩ ih
  · exact .cons ⟨option "output" (some 'o') .string true, by cases sub <;> decide +kernel, rfl, by decide, rfl, rfl⟩
      (.cons ⟨option "query" (some 'q') .string true, by cases sub <;> decide +kernel, rfl, by decide, rfl, rfl⟩ .nil)
  · cases jv with
    | none => exact .nil
    | some j =>
      rw [hj (by simp)]
      exact .cons ⟨option "json-variables" none .string false, by decide +kernel, rfl, by decide, rfl, rfl⟩ .nil

theorem required_names (sub : Shell.SubCommand) : ∀ f ∈ (leafOf sub).flags, f.required = true →
    f.name = "output".toList ∨ f.name = "query".toList := by
  cases sub <;> decide +kernel

theorem again_runs (ints : Str → Bool) (sub : Shell.SubCommand) (out q : Str) (jv : Option Str) (ts : List IndexTarget)
    (hj : jv ≠ none → sub = .hasuraPostgres) :
    command grCmd ints (againArgs sub out q jv ts) = .ran (leafOf sub) (againSets out q jv ts) := by
  have h := C94_options ints (leafOf sub) (by cases sub <;> decide) _ _ (again_means ints sub out q jv ts hj)
  rw [againSs_flatten, ← againArgs_eq] at h
  refine h.1 ?_
  intro f hf hr
  rcases required_names sub f hf hr with hn | hn
  · exact ⟨out, by rw [hn]; exact List.mem_cons_of_mem _ (List.mem_append_right _ List.mem_cons_self)⟩
  · exact ⟨q, by rw [hn]; exact List.mem_cons_of_mem _ (List.mem_append_right _ (List.mem_cons_of_mem _ List.mem_cons_self))⟩

theorem names_differ : ["with-examine".toList, "index".toList, "output".toList, "query".toList, "json-variables".toList].Nodup := by
  decide +kernel

theorem again_options (out q : Str) (jv : Option Str) (ts : List IndexTarget) :
    suggestOptions (againSets out q jv ts) = ⟨true, ts.map Shell.indexArg, q, out⟩ ∧
    (∀ j, jv = some j → jsonVariables (againSets out q jv ts) = j) := by
  have hn := names_differ
  generalize hsets : againSets out q jv ts = sets
  obtain ⟨h1, h2, h3, -, h5, h6⟩ := C94_values sets
  have ht : true' ∈ ["1", "t", "T", "true", "TRUE", "True"].map String.toList := by decide +kernel
  unfold againSets at hsets
  generalize "with-examine".toList = a at *
  generalize "index".toList = b at *
  generalize "output".toList = c at *
  generalize "query".toList = d at *
  generalize "json-variables".toList = e at *
  simp only [List.nodup_cons, List.mem_cons, List.not_mem_nil, or_false, not_or, not_false_eq_true, List.nodup_nil,
    and_true] at hn
  obtain ⟨⟨n1, n2, n3, n4⟩, ⟨n5, n6, n7⟩, ⟨n8, n9⟩, n10⟩ := hn
  have hrest : ∀ x ∈ jsonSets e jv, x.1 = e := by
    intro x hx
    cases jv with
    | none => cases hx
    | some j => rw [List.mem_singleton.mp hx]
  refine ⟨?_, ?_⟩
  · have g1 : (suggestOptions sets).query = q := by
      refine h1 ((a, true') :: (ts.map (fun it => (b, Shell.indexArg it)) ++ [(c, out)])) q _ (by
        rw [← hsets]
        simp only [List.cons_append, List.append_assoc, List.nil_append]
        rfl) ?_
      intro x hx
      rw [hrest x hx]
      exact Ne.symm n10
    have g2 : (suggestOptions sets).output = out := by
      refine h2 ((a, true') :: ts.map (fun it => (b, Shell.indexArg it))) out _ (by
        rw [← hsets]
        simp only [List.cons_append]
        rfl) ?_
      intro x hx
      rcases List.mem_cons.mp hx with rfl | hx
      · exact Ne.symm n8
      · rw [hrest x hx]
        exact Ne.symm n9
    have g3 : (suggestOptions sets).indexTargets = ts.map Shell.indexArg := by
      rw [h5, ← hsets, List.filterMap_cons_none (by rw [if_neg n1]), List.filterMap_append,
        List.filterMap_cons_none (by rw [if_neg (Ne.symm n5)]), List.filterMap_cons_none (by rw [if_neg (Ne.symm n6)])]
      have e1 : (jsonSets e jv).filterMap
          (fun s => if s.1 = b then some s.2 else none) = [] := by
        rw [List.filterMap_eq_nil_iff]
        intro x hx
        rw [hrest x hx, if_neg (Ne.symm n7)]
      rw [e1, List.append_nil, List.filterMap_map]
      induction ts with
      | nil => rfl
      | cons t ts ih => simp
    have g4 : (suggestOptions sets).runsExamination = true := by
      refine h6.mpr ⟨[], true', _, hsets.symm, ?_, ht⟩
      intro x hx
      rcases List.mem_append.mp hx with hx | hx
      · obtain ⟨it, -, rfl⟩ := List.mem_map.mp hx
        exact Ne.symm n1
      · rcases List.mem_cons.mp hx with rfl | hx
        · exact Ne.symm n2
        · rcases List.mem_cons.mp hx with rfl | hx
          · exact Ne.symm n3
          · rw [hrest x hx]
            exact Ne.symm n4
    rw [← g1, ← g2, ← g3, ← g4]
  · rintro j rfl
    refine h3 ((a, true') :: (ts.map (fun it => (b, Shell.indexArg it)) ++ [(c, out), (d, q)])) j [] (by
        rw [← hsets]
        simp only [List.cons_append, List.append_assoc, List.nil_append, jsonSets]) (by intro x hx; cases hx)

theorem parsed (ts : List IndexTarget) (h : ∀ it ∈ ts, Plain it) :
    newIndexTargetsFromTexts (ts.map Shell.indexArg) = .ok ts := by
  rw [C04_list_ok_iff]
  induction ts with
  | nil => exact .nil
  | cons t ts ih =>
    exact .cons (Shell.C43_targets t (h t List.mem_cons_self)).2 (ih fun x hx => h x (List.mem_cons_of_mem _ hx))

theorem bare_names : ∀ n ∈ ["o".toList, "q".toList, "json-variables".toList], Shell.Bare n := by
  intro n hn
  refine Shell.bare_of n ?_
  revert n
  decide +kernel

theorem commandWords_eq (sub : Shell.SubCommand) :
    Shell.commandWords sub = "gr".toList :: ((leafOf sub).words ++ ["--with-examine".toList]) := by
  cases sub <;> rfl

/-- the arguments the shell gives to the program -/
theorem shell_args' (sub : Shell.SubCommand) (out q : Str) (jv : Option Str) (ts : List IndexTarget) (hne : ts ≠ [])
    (hts : ∀ it ∈ ts, Shell.Unspecial (Shell.indexArg it)) :
    Shell.words (Shell.examineCommand sub (([⟨true, "o".toList, out⟩, ⟨true, "q".toList, q⟩] ++
      (match jv with | none => [] | some j => [⟨false, "json-variables".toList, j⟩])).map clientOption) ts) =
      some ("gr".toList :: againArgs sub out q jv ts) := by
  rw [Shell.C43_command sub _ ts _ hts hne, commandWords_eq]
  · unfold againArgs
    cases jv <;> simp [clientOption, Shell.CommandOption.flag]
  · intro x hx
    obtain ⟨y, hy, rfl⟩ := List.mem_map.mp hx
    refine bare_names _ ?_
    cases jv with
    | none =>
      rw [List.append_nil] at hy
      rcases List.mem_cons.mp hy with rfl | hy
      · exact List.mem_cons_self
      · rw [List.mem_singleton.mp hy]
        exact List.mem_cons_of_mem _ List.mem_cons_self
    | some j =>
      rcases List.mem_cons.mp hy with rfl | hy
      · exact List.mem_cons_self
      · rcases List.mem_cons.mp hy with rfl | hy
        · exact List.mem_cons_of_mem _ List.mem_cons_self
        · rw [List.mem_singleton.mp hy]
          exact List.mem_cons_of_mem _ (List.mem_cons_of_mem _ List.mem_cons_self)

theorem shell_args (sub : Shell.SubCommand) (out q : Str) (jv : Option Str) (ts : List IndexTarget) (hne : ts ≠ [])
    (hts : ∀ it ∈ ts, Plain it) :
    Shell.words (Shell.examineCommand sub (([⟨true, "o".toList, out⟩, ⟨true, "q".toList, q⟩] ++
      (match jv with | none => [] | some j => [⟨false, "json-variables".toList, j⟩])).map clientOption) ts) =
      some ("gr".toList :: againArgs sub out q jv ts) :=
  shell_args' sub out q jv ts hne fun it hit => (Shell.C43_targets it (hts it hit)).1

theorem chosen_sublist : ∀ (ts : List IndexTarget) (bs : List Bool), (chosen ts bs).Sublist ts
  | [], _ => .slnil
  | _ :: _, [] => List.nil_sublist _
  | t :: ts, b :: bs => by
    have ih := chosen_sublist ts bs
    unfold chosen at ih ⊢
    rw [List.zip_cons_cons]
    cases b with
    | true => simpa using ih
    | false => simpa using ih.cons t

/-! ## C95 -/

/-- C95: the command a MySQL or PostgreSQL report shows, pasted into a shell, runs the same command of the program again,
on the same query, into a file next to the report, with the examination; and as long as that run can explain and analyse
the query, it examines exactly the indexes chosen on the page. -/
theorem C95_sql {T : Type} (ints : Str → Bool) (sub : Shell.SubCommand) (hsub : sub ≠ .hasuraPostgres) (pre : Str)
    (w : World T) (o : Options) (p : Str) (r : Cmd.Report T) (hr : Effect.html p r ∈ (suggestSql pre w o).2)
    (checked : List Bool) (hne : chosen r.targets checked ≠ []) (hts : ∀ it ∈ chosen r.targets checked, Plain it) :
    ∃ args sets o', Shell.words (shown sub r checked) = some ("gr".toList :: args) ∧
      command grCmd ints args = .ran (leafOf sub) sets ∧ suggestOptions sets = o' ∧
      o'.runsExamination = true ∧ o'.query = o.query ∧ NextTo o.runsExamination o.output o'.output ∧
      ∀ (w' : World T) tree its, w'.explain (pre ++ o.query) = .ok tree → w'.suggest o.query = .ok its →
        examEvents (suggestSql pre w' o').2 = (Examine.run w'.exam w'.now (chosen r.targets checked)).2 := by
  obtain ⟨-, ho, hopt⟩ := sql_options pre w o p r hr
  generalize htc : chosen r.targets checked = ts at *
  obtain ⟨h1, -⟩ := again_options (createOutputExaminationOption (!o.runsExamination) o.output).value o.query none ts
  refine ⟨_, _, _, ?_, again_runs ints sub _ o.query none ts (by simp), h1, rfl, rfl, next_to _ _, ?_⟩
  · unfold shown
    rw [htc, hopt]
    exact shell_args sub _ o.query none ts hne hts
  · intro w' tree its ht hs
    obtain ⟨ts', hc, he⟩ := C42_examines pre w' ⟨true, ts.map Shell.indexArg, o.query, _⟩ ts its tree rfl (parsed ts hts) ht hs
    rw [he, hc.1 hne]

/-- C95: the same for Hasura, with the same variables. -/
theorem C95_hasura {T Plan : Type} (ints : Str → Bool) (w : HasuraWorld T Plan) (o : Options) (jv : Str) (p : Str)
    (r : Cmd.Report T) (hr : Effect.html p r ∈ (suggestHasura w o jv).2) (checked : List Bool)
    (hne : chosen r.targets checked ≠ []) (hts : ∀ it ∈ chosen r.targets checked, Plain it) :
    ∃ args sets o', Shell.words (shown .hasuraPostgres r checked) = some ("gr".toList :: args) ∧
      command grCmd ints args = .ran .hasura sets ∧ suggestOptions sets = o' ∧ jsonVariables sets = jv ∧
      o'.runsExamination = true ∧ o'.query = o.query ∧ NextTo o.runsExamination o.output o'.output ∧
      ∀ (w' : HasuraWorld T Plan) sql plan tree its, w'.parseJson jv = .ok () →
        w'.explainGql o.query = .ok [(sql, plan)] → w'.build plan = .ok tree → w'.suggest sql = .ok its →
        examEvents (suggestHasura w' o' jv).2 = (Examine.run w'.exam w'.now (chosen r.targets checked)).2 := by
  obtain ⟨-, ho, hopt⟩ := hasura_options w o jv p r hr
  generalize htc : chosen r.targets checked = ts at *
  obtain ⟨h1, h2⟩ := again_options (createOutputExaminationOption (!o.runsExamination) o.output).value o.query (some jv) ts
  refine ⟨_, _, _, ?_, again_runs ints .hasuraPostgres _ o.query (some jv) ts (by simp), h1, h2 jv rfl, rfl, rfl, next_to _ _, ?_⟩
  · unfold shown
    rw [htc, hopt]
    exact shell_args .hasuraPostgres _ o.query (some jv) ts hne hts
  · intro w' sql plan tree its hj he hb hs
    obtain ⟨ts', hc, he'⟩ := (C42_hasura_runs w' ⟨true, ts.map Shell.indexArg, o.query, _⟩ jv sql plan ts its tree hj he hb hs
      (parsed ts hts)).1 rfl
    rw [he', hc.1 hne]

/-- C95: the indexes chosen are those whose box is checked, in their order; as the page is opened, all are. -/
theorem C95_chosen (its : List IndexTarget) :
    chosen its (its.map fun _ => true) = its ∧
    ∀ (a b : List IndexTarget) (t : IndexTarget) (ca cb : List Bool) (c : Bool), its = a ++ t :: b → ca.length = a.length →
      chosen its (ca ++ c :: cb) = chosen a ca ++ (if c then [t] else []) ++ chosen b cb := by
  constructor
  · unfold chosen
    induction its with
    | nil => rfl
    | cons t ts ih =>
      rw [List.map_cons, List.zip_cons_cons, List.filter_cons_of_pos rfl, List.map_cons, ih]
  · rintro a b t ca cb c rfl hl
    unfold chosen
    rw [List.zip_append hl.symm, List.zip_cons_cons, List.filter_append, List.map_append, List.append_assoc]
    cases c <;> simp

theorem load_args_refused (ints : Str → Bool) (sql : Str) :
    command grCmd ints ["db".toList, "suggest".toList, "-o".toList, "suggest.html".toList, "-q".toList, sql] =
      .refused (.unknownShort 'q') := by
  have hdb : "db".toList = wDb := by unfold wDb; rfl
  have hsg : "suggest".toList = wSuggest := by unfold wSuggest; rfl
  have h1 : ∀ fs, fs = outputFlag :: globalFlags → skips fs "-o".toList = true ∧ skips fs "-q".toList = true := by
    rintro _ rfl
    decide +kernel
  have h2 : ("-o".toList ≠ ['-', '-']) ∧ "-q".toList ≠ ['-', '-'] := by decide +kernel
  have hs : stripFlags (outputFlag :: globalFlags) ["-o".toList, "suggest.html".toList, "-q".toList, sql] = [] := by
    unfold stripFlags
    rw [if_neg h2.1, (h1 _ rfl).1, if_pos rfl]
    simp only
    unfold stripFlags
    rw [if_neg h2.2, (h1 _ rfl).2, if_pos rfl]
    simp only
    unfold stripFlags
    rfl
  have hf : find [] [] grCmd ["db".toList, "suggest".toList, "-o".toList, "suggest.html".toList, "-q".toList, sql] =
      ⟨[wDb, wSuggest], outputFlag :: globalFlags, none, ["-o".toList, "suggest.html".toList, "-q".toList, sql]⟩ := by
    rw [hdb, hsg]
    refine find_step _ _ _ _ _ _ _ _ (plain_words wDb (by simp)).1 (plain_words wDb (by simp)).2 _ _ ?_
    rw [findAmong, dbCmd, Command.name, if_pos rfl]
    refine congrArg some (find_step _ _ _ _ _ _ _ _ (plain_words wSuggest (by simp)).1 (plain_words wSuggest (by simp)).2 _ _ ?_)
    rw [findAmong, suggestCmd, Command.name, if_pos rfl]
    refine congrArg some ?_
    unfold find
    rw [show ([] ++ [] ++ ([outputFlag] ++ (globalFlags ++ [])) : List Flag) = outputFlag :: globalFlags from rfl, hs]
    rfl
  have hp : parse ints (outputFlag :: globalFlags ++ [helpFlag])
      ["-o".toList, "suggest.html".toList, "-q".toList, sql] = .error (.unknownShort 'q') := by
    have ho : parseOne ints (outputFlag :: globalFlags ++ [helpFlag]) "-o".toList (some "suggest.html".toList) =
        some (.ok ([(nOutput, "suggest.html".toList)], true)) := by
      have ht : test'.isPrefixOf ['o'] = false := by decide +kernel
      have hb : byShort (outputFlag :: globalFlags ++ [helpFlag]) 'o' = some outputFlag := by decide +kernel
      show some (parseShort _ _ ['o'] _) = _
      unfold parseShort
      simp only [ht, Bool.false_eq_true, if_false, hb]
      rfl
    have hq : parseOne ints (outputFlag :: globalFlags ++ [helpFlag]) "-q".toList (some sql) =
        some (.error (.unknownShort 'q')) := by
      have ht : test'.isPrefixOf ['q'] = false := by decide +kernel
      have hb : byShort (outputFlag :: globalFlags ++ [helpFlag]) 'q' = none := by decide +kernel
      show some (parseShort _ _ ['q'] _) = _
      unfold parseShort
      simp only [ht, Bool.false_eq_true, if_false, hb]
    unfold parse
    rw [if_neg h2.1]
    simp only [List.head?_cons, ho, if_true]
    unfold parse
    rw [if_neg h2.2]
    simp only [List.head?_cons, hq]
  unfold command
  simp only [hf, List.cons_ne_nil, if_false]
  unfold execute
  simp only [hp]

/-- C95, negation: the command the page of the load report shows is one the program always refuses: the words of the
command lack the kind of database, and `-q` is no option of `gr db suggest`. -/
theorem C95_load_refused (ints : Str → Bool) (succeeds : Leaf → Sets → Bool) (db sql : Str) (hd : Shell.Unspecial db)
    (hs : Shell.Unspecial sql) :
    ∃ args, Shell.words (Shell.loadCommand (some db) (some sql)) =
        some (("DB_DATABASE=".toList ++ db) :: "gr".toList :: args) ∧
      command grCmd ints args = .refused (.unknownShort 'q') ∧ exitStatus ints succeeds args = 1 := by
  refine ⟨_, Shell.C61_load_command_partial db sql hd hs, load_args_refused ints sql, ?_⟩
  unfold exitStatus
  rw [load_args_refused ints sql]

/-- C95, negation: with a target among the chosen that the command line cannot express, the pasted command fails before
it looks at the database, and examines none of the others. -/
theorem C95_unsafe_refused {T : Type} (ints : Str → Bool) (sub : Shell.SubCommand) (hsub : sub ≠ .hasuraPostgres) (pre : Str)
    (w : World T) (o : Options) (p : Str) (r : Cmd.Report T) (hr : Effect.html p r ∈ (suggestSql pre w o).2)
    (checked : List Bool) (hu : ∀ it ∈ chosen r.targets checked, Shell.Unspecial (Shell.indexArg it))
    (bad : IndexTarget) (hb : bad ∈ chosen r.targets checked) (hnl : '\n' ∉ Shell.indexArg bad)
    (hbad : ∀ t, Plain t → Shell.indexArg t ≠ Shell.indexArg bad) :
    ∃ args sets, Shell.words (shown sub r checked) = some ("gr".toList :: args) ∧
      command grCmd ints args = .ran (leafOf sub) sets ∧
      ∀ w' : World T, ∃ e, suggestSql pre w' (suggestOptions sets) = (.error (.index e), []) := by
  obtain ⟨-, ho, hopt⟩ := sql_options pre w o p r hr
  generalize htc : chosen r.targets checked = ts at *
  have hne : ts ≠ [] := List.ne_nil_of_mem hb
  obtain ⟨h1, -⟩ := again_options (createOutputExaminationOption (!o.runsExamination) o.output).value o.query none ts
  refine ⟨_, _, ?_, again_runs ints sub (createOutputExaminationOption (!o.runsExamination) o.output).value o.query none ts (by simp), fun w' => ?_⟩
  · unfold shown
    rw [htc, hopt]
    exact shell_args' sub _ o.query none ts hne hu
  · rw [h1]
    refine C42_invalid_option pre w' _ (Shell.indexArg bad) (List.mem_map_of_mem hb) ?_
    cases hx : newIndexTargetFromText (Shell.indexArg bad) with
    | error e => exact ⟨e, rfl⟩
    | ok t =>
      exfalso
      obtain ⟨hp, he⟩ := (C02_one_line_iff _ _ hnl).mp hx
      refine hbad t hp ?_
      rw [he, ← grIndexOption_eq_print]
      unfold IndexTarget.grIndexOption Shell.indexArg
      simp

/-! ## Cases that meet the hypotheses -/

def exIt : IndexTarget := ⟨"users".toList, [⟨"name".toList⟩, ⟨"age".toList⟩]⟩
def exIt2 : IndexTarget := ⟨"todos".toList, [⟨"title".toList⟩]⟩
def exBad : IndexTarget := ⟨"my table".toList, [⟨"a".toList⟩]⟩
def exW : World Unit := ⟨fun _ => .ok (), fun _ => .ok [exIt, exIt2], ⟨fun l _ => .ok l.length, fun _ => 0⟩, 7, fun _ _ => .ok ()⟩
def exO : Options := ⟨false, [], "SELECT \"a b\" FROM users".toList, "out/a.html".toList⟩

theorem exPlain : Plain exIt ∧ Plain exIt2 := by
  have h : ∀ s : Str, (!s.isEmpty && s.all Regex.isWord) = true → Ident s := by
    intro s hs
    simp only [Bool.and_eq_true, Bool.not_eq_true', List.isEmpty_eq_false_iff, List.all_eq_true] at hs
    exact ⟨hs.1, fun c hc => (isWord_iff c).mp (hs.2 c hc)⟩
  refine ⟨⟨h _ (by decide +kernel), by decide +kernel, ?_⟩, ⟨h _ (by decide +kernel), by decide +kernel, ?_⟩⟩
  · intro c hc
    refine h _ ?_
    revert c
    decide +kernel
  · intro c hc
    refine h _ ?_
    revert c
    decide +kernel

/-- C95_sql: the report of a run without examination, with the second suggestion unchecked: the new run asks for the
examination of the first only, into `out/a_examine.html` -/
example : ∃ r, Effect.html exO.output r ∈ (suggestSql mysqlPre exW exO).2 ∧ chosen r.targets [true, false] = [exIt] ∧
    Shell.words (shown .mysql r [true, false]) = some (["gr", "db", "suggest", "mysql", "--with-examine", "-i",
      "users:name+age", "-o", "out/a_examine.html", "-q", "SELECT \"a b\" FROM users"].map String.toList) := by
  refine ⟨⟨exO.query, (), [exIt, exIt2], [createOutputExaminationOption true exO.output, ⟨true, "q".toList, exO.query⟩], none⟩,
    ?_, by decide +kernel, by decide +kernel⟩
  exact List.mem_cons_of_mem _ (List.mem_cons_of_mem _ List.mem_cons_self)

/-- C95_unsafe_refused: no plain target is written like this one -/
example : Shell.Unspecial (Shell.indexArg exBad) ∧ '\n' ∉ Shell.indexArg exBad ∧
    ∀ t, Plain t → Shell.indexArg t ≠ Shell.indexArg exBad := by
  refine ⟨by unfold Shell.Unspecial; decide +kernel, by decide +kernel, ?_⟩
  intro t ht he
  have := (Shell.C43_targets t ht).2
  rw [he] at this
  have hn : (match newIndexTargetFromText (Shell.indexArg exBad) with | .ok _ => true | .error _ => false) = false := by
    decide +kernel
  rw [this] at hn
  cases hn

/-- C95_load_refused -/
example : Shell.Unspecial "shop".toList ∧ Shell.Unspecial "SELECT * FROM users WHERE name = 'a'".toList := by
  unfold Shell.Unspecial; decide +kernel

end Verif.Report.Again
