import Verif.Cmd.Suggest
import Verif.Infra.HasuraClient
/-!
# C91: where the user is told the report is

`/repo/cmd/util/log.go:19-24` `LogResultOutputPath`, called by every command after the report was written.
-/
namespace Verif.Cmd.Told
open Verif.Index Verif.Infra.HClient

abbrev Str := List Char

/-! ## Model -/

/-- `path.Join(wd, outputPath)`, `/repo/cmd/util/log.go:22`; the working directory is never empty and the
commands call this only with an output path. -/
def loggedPath (wd outputPath : Str) : Str := pathJoin wd outputPath

/-- what is logged about the file by a run of a command, `/repo/cmd/db/suggest/mysql.go:86-93`,
`postgres.go:86-93`, `hasura/postgres.go:123-130`: one line for each report that was written, and none if the
working directory is not known -/
def logged {T : Type} (wd : Option Str) (effs : List (Cmd.Effect T)) : List Str :=
  match wd with
  | none => []
  | some d => effs.filterMap fun e => match e with
    | .html p _ => some (loggedPath d p)
    | _ => none

/-! ## Specification: which file a path names (POSIX path resolution, without symbolic links) -/

/-- go along the elements of a path from a directory, given by its names from the last to the first -/
def walk : List Str → List Str → List Str
  | dir, [] => dir
  | dir, e :: es =>
    if e = [] ∨ e = ['.'] then walk dir es
    else if e = ['.', '.'] then walk dir.tail es
    else walk (e :: dir) es

/-- the file that is meant by a path in the directory `dir` -/
def file (dir : List Str) (p : Str) : List Str :=
  if p.head? = some '/' then walk [] (splitOn '/' p) else walk dir (splitOn '/' p)

/-- an absolute path -/
def Absolute (p : Str) : Prop := p.head? = some '/'

instance (p : Str) : Decidable (Absolute p) := by unfold Absolute; infer_instance

/-! ## Proofs -/

theorem walk_append (d a b : List Str) : walk d (a ++ b) = walk (walk d a) b := by
  induction a generalizing d with
  | nil => rfl
  | cons e a ih =>
    rw [List.cons_append, walk, walk]
    split
    · exact ih _
    · split
      · exact ih _
      · exact ih _

/-- a proper name -/
def Name (e : Str) : Prop := e ≠ [] ∧ e ≠ ['.'] ∧ e ≠ ['.', '.']

theorem walk_names (d es : List Str) (hd : ∀ e ∈ d, Name e) : ∀ e ∈ walk d es, Name e := by
  induction es generalizing d with
  | nil => exact hd
  | cons e es ih =>
    rw [walk]
    split
    · exact ih d hd
    · split
      · exact ih d.tail fun x hx => hd x (List.mem_of_mem_tail hx)
      · rename_i h1 h2
        rw [not_or] at h1
        refine ih _ fun x hx => ?_
        rcases List.mem_cons.mp hx with rfl | hx
        · exact ⟨h1.1, h1.2, h2⟩
        · exact hd x hx

theorem walk_mem (d es : List Str) : ∀ e ∈ walk d es, e ∈ d ∨ e ∈ es := by
  induction es generalizing d with
  | nil => exact fun e he => .inl he
  | cons a es ih =>
    intro e he
    rw [walk] at he
    split at he
    · exact (ih d e he).imp id (List.mem_cons_of_mem _)
    · split at he
      · exact (ih _ e he).imp List.mem_of_mem_tail (List.mem_cons_of_mem _)
      · rcases ih _ e he with h | h
        · rcases List.mem_cons.mp h with rfl | h
          · exact .inr List.mem_cons_self
          · exact .inl h
        · exact .inr (List.mem_cons_of_mem _ h)

/-- proper names are walked one by one -/
theorem walk_proper (d es : List Str) (h : ∀ e ∈ es, Name e) : walk d es = es.reverse ++ d := by
  induction es generalizing d with
  | nil => rfl
  | cons e es ih =>
    have he := h e List.mem_cons_self
    rw [walk, if_neg (by rw [not_or]; exact ⟨he.1, he.2.1⟩), if_neg he.2.2,
      ih _ fun x hx => h x (List.mem_cons_of_mem _ hx)]
    simp

/-- cleaning a rooted path is walking it -/
theorem clean_walk (es out : List Str) (h : ∀ e ∈ out, Name e) : cleanElems true es out = (walk out es).reverse := by
  induction es generalizing out with
  | nil => rfl
  | cons e es ih =>
    unfold cleanElems
    rw [walk]
    split
    · exact ih out h
    · rename_i h1
      split
      · cases out with
        | nil => exact ih [] h
        | cons o os =>
          simp only [List.tail_cons]
          rw [if_neg (h o List.mem_cons_self).2.2]
          exact ih os fun x hx => h x (List.mem_cons_of_mem _ hx)
      · rename_i h2
        rw [not_or] at h1
        refine ih _ fun x hx => ?_
        rcases List.mem_cons.mp hx with rfl | hx
        · exact ⟨h1.1, h1.2, h2⟩
        · exact h x hx

theorem splitOn_noSep (sep : Char) (t : Str) : ∀ e ∈ splitOn sep t, sep ∉ e := by
  induction t with
  | nil => simp [splitOn]
  | cons c t ih =>
    rw [splitOn]
    split
    · intro e he
      rcases List.mem_cons.mp he with rfl | he
      · simp
      · exact ih e he
    · rename_i hc
      split
      · intro e he
        simp only [List.mem_singleton] at he
        subst he
        simpa using Ne.symm hc
      · rename_i p ps hp
        intro e he
        rcases List.mem_cons.mp he with rfl | he
        · simp only [List.mem_cons, not_or]
          exact ⟨Ne.symm hc, ih p (by rw [hp]; exact List.mem_cons_self)⟩
        · exact ih e (by rw [hp]; exact List.mem_cons_of_mem _ he)

theorem splitOn_slash (a b : Str) : splitOn '/' (a ++ '/' :: b) = splitOn '/' a ++ splitOn '/' b := by
  induction a with
  | nil => simp [splitOn]
  | cons c a ih =>
    rw [List.cons_append, splitOn, splitOn, ih]
    split
    · rfl
    · cases hs : splitOn '/' a with
      | nil => exact absurd hs (splitOn_ne_nil _ _)
      | cons p ps => rfl

/-- a cleaned rooted path names what the path names -/
theorem walk_clean (p : Str) (h : p.head? = some '/') :
    (clean p).head? = some '/' ∧ walk [] (splitOn '/' (clean p)) = walk [] (splitOn '/' p) := by
  rw [clean, if_pos h, clean_walk _ _ (by simp)]
  refine ⟨rfl, ?_⟩
  have hn := walk_names [] (splitOn '/' p) (by simp)
  have hm := walk_mem [] (splitOn '/' p)
  generalize walk [] (splitOn '/' p) = st at hn hm
  rw [splitOn, if_pos rfl]
  by_cases hst : st = []
  · subst hst; rfl
  · rw [splitOn_joinWith '/' st.reverse (by simpa using hst) (by
      intro e he
      rcases hm e (by simpa using he) with h | h
      · cases h
      · exact splitOn_noSep '/' p e h)]
    rw [walk, if_pos (.inl rfl), walk_proper _ _ (by simpa using hn)]
    simp

theorem file_logged (wd out : Str) (hw : Absolute wd) :
    Absolute (loggedPath wd out) ∧ ∀ d, file d (loggedPath wd out) = walk (file [] wd) (splitOn '/' out) := by
  unfold loggedPath pathJoin Absolute
  unfold Absolute at hw
  have hne : wd ≠ [] := by rintro rfl; cases hw
  have hh : (wd ++ '/' :: out).head? = some '/' := by
    cases wd with
    | nil => exact absurd rfl hne
    | cons c cs => simpa using hw
  rw [if_neg hne]
  obtain ⟨h1, h2⟩ := walk_clean _ hh
  refine ⟨h1, fun d => ?_⟩
  unfold file
  rw [if_pos h1, h2, if_pos hw, splitOn_slash, walk_append]

/-! ## C91 -/

/-- C91, relative paths: the path that is logged is absolute and names the file that was written, wherever the
report is and wherever the reader is.
Missing: absolute output paths, for which it is false (`C91_absolute_misplaced`). -/
theorem C91_logged_partial (wd out : Str) (hw : Absolute wd) (ho : ¬ Absolute out) :
    Absolute (loggedPath wd out) ∧ ∀ d, file d (loggedPath wd out) = file (file [] wd) out := by
  obtain ⟨h1, h2⟩ := file_logged wd out hw
  refine ⟨h1, fun d => ?_⟩
  rw [h2 d]
  unfold file
  unfold Absolute at ho
  rw [if_neg (show ¬ out.head? = some '/' from ho)]

/-- C91, negation: for an absolute output path and any working directory but the root, the path that is logged
is never that of the file. -/
theorem C91_absolute_misplaced (wd : Str) (names : List Str) (hw : Absolute wd) (hr : file [] wd ≠ [])
    (hn : ∀ e ∈ names, Name e ∧ '/' ∉ e) (hne : names ≠ []) (d : List Str) :
    file d (names.flatMap fun e => '/' :: e) = names.reverse ∧
    file d (loggedPath wd (names.flatMap fun e => '/' :: e)) ≠ names.reverse := by
  have hh : (names.flatMap fun e => '/' :: e).head? = some '/' := by
    cases names with
    | nil => exact absurd rfl hne
    | cons a as => simp
  have hs : splitOn '/' (names.flatMap fun e => '/' :: e) = [] :: names :=
    split_slashes names (fun e he => (hn e he).2) hne
  have hwalk : ∀ st, walk st ([] :: names) = names.reverse ++ st := by
    intro st
    rw [walk, if_pos (.inl rfl), walk_proper _ _ fun e he => (hn e he).1]
  constructor
  · unfold file
    rw [if_pos hh, hs, hwalk, List.append_nil]
  · rw [(file_logged wd _ hw).2 d, hs, hwalk]
    intro h
    have := congrArg List.length h
    simp only [List.length_append, List.length_reverse] at this
    exact hr (List.eq_nil_of_length_eq_zero (by omega))

/-- no line in it -/
def Silent {T : Type} (l : List (Cmd.Effect T)) : Prop := ∀ p r, Cmd.Effect.html p r ∉ l

theorem logged_append {T : Type} (wd : Str) (a b : List (Cmd.Effect T)) :
    logged (some wd) (a ++ b) = logged (some wd) a ++ logged (some wd) b := by
  unfold logged; exact List.filterMap_append

theorem logged_silent {T : Type} (wd : Str) (l : List (Cmd.Effect T)) (h : Silent l) : logged (some wd) l = [] := by
  unfold logged
  simp only
  rw [List.filterMap_eq_nil_iff]
  intro e he
  cases e with
  | html p r => exact absurd he (h p r)
  | _ => rfl

/-- what is logged after a run -/
def Told {T : Type} (wd : Str) (output : Str) (r : Except Cmd.Err Unit × List (Cmd.Effect T)) : Prop :=
  (r.1 = .ok () ∧ output ≠ [] → ∃ rep, Cmd.Effect.html output rep ∈ r.2 ∧ logged (some wd) r.2 = [loggedPath wd output]) ∧
  (¬ (r.1 = .ok () ∧ output ≠ []) → Silent r.2 ∧ logged (some wd) r.2 = [])

theorem told_quiet {T : Type} (wd output : Str) (r : Except Cmd.Err Unit × List (Cmd.Effect T))
    (h : ¬ (r.1 = .ok () ∧ output ≠ [])) (hs : Silent r.2) : Told wd output r :=
  ⟨fun h' => absurd h' h, fun _ => ⟨hs, logged_silent wd _ hs⟩⟩

theorem told_report {T : Type} (wd : Str) (w : Cmd.World T) (output : Str) (rep : Cmd.Report T) (log : List (Cmd.Effect T))
    (hs : Silent log) :
    Told wd output (if output ≠ [] then
      match w.write output rep with
      | .error e => (.error e, log)
      | .ok _ => (.ok (), log ++ [.html output rep])
    else (.ok (), log)) := by
  split
  · cases w.write output rep with
    | error e => exact told_quiet _ _ _ (by simp) hs
    | ok u =>
      refine ⟨fun _ => ⟨rep, by simp, ?_⟩, fun h => absurd ⟨rfl, by assumption⟩ h⟩
      rw [logged_append, logged_silent wd log hs]
      rfl
  · rename_i ho
    exact told_quiet _ _ _ (fun h => ho h.2) hs

theorem silent_exam {T : Type} (log : List (Cmd.Effect T)) (evs : List Examine.Event) (hs : Silent log) :
    Silent (log ++ evs.map .exam) := by
  intro p r h
  rcases List.mem_append.mp h with h | h
  · exact hs p r h
  · obtain ⟨_, _, h⟩ := List.mem_map.mp h
    cases h

theorem told_finish {T : Type} (wd : Str) (w : Cmd.World T) (o : Cmd.Options) (extra : List Cmd.CommandOption)
    (given : List IndexTarget) (query : Str) (tree : T) (its : List IndexTarget) (log : List (Cmd.Effect T))
    (hs : Silent log) : Told wd o.output (Cmd.finish w o extra given query tree its log) := by
  unfold Cmd.finish
  simp only
  split
  · split
    · exact told_quiet _ _ _ (by simp) (silent_exam log _ hs)
    · exact told_report wd w _ _ _ (silent_exam log _ hs)
  · exact told_report wd w _ _ _ hs

/-- C91, commands: a line about the file is logged exactly when the command succeeded and a report was asked
for, once, and with the path of `-o`; nothing is written or said otherwise. -/
theorem C91_told {T Plan : Type} (wd pre : Str) (w : Cmd.World T) (hw : Cmd.HasuraWorld T Plan) (o : Cmd.Options) (jv : Str) :
    Told wd o.output (Cmd.suggestSql pre w o) ∧ Told wd o.output (Cmd.suggestHasura hw o jv) := by
  constructor
  · rcases Cmd.suggestSql_spec pre w o with ⟨e, _, h⟩ | ⟨given, _, ⟨e, _, h⟩ | ⟨_, e, _, _, h⟩ | ⟨tree, its, _, _, h⟩⟩
    · rw [h]; exact told_quiet _ _ _ (by simp) (by intro p r h; simp at h)
    · rw [h]; exact told_quiet _ _ _ (by simp) (by intro p r h; simp at h)
    · rw [h]; exact told_quiet _ _ _ (by simp) (by intro p r h; simp at h)
    · rw [h]; exact told_finish _ _ _ _ _ _ _ _ _ (by intro p r h; simp at h)
  · rcases Cmd.suggestHasura_spec hw o jv with ⟨e, log, h, _, hn⟩ | ⟨sql, _, tree, its, given, _, _, _, _, h⟩
    · rw [h]; exact told_quiet _ _ _ (by simp) hn
    · rw [h]; exact told_finish _ _ _ _ _ _ _ _ _ (by intro p r h; simp at h)

/-! ### Concrete cases -/

@[irreducible] def exWd : Str := "/home/me/../you".toList
@[irreducible] def exOut : Str := "./out//r.html".toList
@[irreducible] def exAbs : Str := "/tmp/r.html".toList

/-- `C91_logged_partial`: the path is cleaned, and names the file -/
example : Absolute exWd ∧ ¬ Absolute exOut ∧ loggedPath exWd exOut = "/home/you/out/r.html".toList ∧
    file (file [] exWd) exOut = ["r.html".toList, "out".toList, "you".toList, "home".toList] := by decide +kernel

/-- `C91_absolute_misplaced`: the file is `/tmp/r.html` -/
example : file [] exWd ≠ [] ∧ exAbs = ([['t', 'm', 'p'], "r.html".toList].flatMap fun e => '/' :: e) ∧
    (∀ e ∈ [['t', 'm', 'p'], "r.html".toList], Name e ∧ '/' ∉ e) ∧
    loggedPath exWd exAbs = "/home/you/tmp/r.html".toList := by unfold Name; decide +kernel

end Verif.Cmd.Told
