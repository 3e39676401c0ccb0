import Verif.Regex.Words
import Verif.MysqlPlan.Numbers
/-!
# C51: the table of every MySQL plan line

`Numbers.lean` reads the table of a line that has an ` on `.  Here the table of *any* line is
settled: what it is, and when there is none.
-/
namespace Verif.MysqlPlan
open Verif.Regex Verif.Lib

/-! ## Specification -/

/-- `… on users …` -/
def OnTable : Str → Str → Prop := Longest WordChar [' ', 'o', 'n', ' ']
/-- `… Filter: (users.…` -/
def FilterTable : Str → Str → Prop := Dotted " Filter: (".toList
/-- `… Sort: users.…` -/
def SortTable : Str → Str → Prop := Dotted " Sort: ".toList
/-- `… Aggregate: count(users.…` -/
def AggregateTable (b t : Str) : Prop :=
  ∃ f, Run WordChar f ∧ Dotted (" Aggregate: ".toList ++ (f ++ ['('])) b t

/-- The table of a line: the first word after ` on `; if there is none, the table of the column that the line
filters by, else sorts by, else aggregates; else none. -/
def TableOf (line t : Str) : Prop :=
  FirstWith OnTable line t ∨ Nowhere OnTable line ∧
  (FirstWith FilterTable line t ∨ Nowhere FilterTable line ∧
  (FirstWith SortTable line t ∨ Nowhere SortTable line ∧
  (FirstWith AggregateTable line t ∨ Nowhere AggregateTable line ∧ t = [])))

/-! ## Lemmas -/

theorem not_word_paren : ¬ WordChar '(' := by rw [← isWord_iff]; decide

theorem aggregate_unique (b t t' : Str) (h : AggregateTable b t) (h' : AggregateTable b t') : t = t' := by
  obtain ⟨f, hf, h⟩ := h
  obtain ⟨f', hf', h'⟩ := h'
  have : f = f' := by
    obtain ⟨_, r, e⟩ := h
    obtain ⟨_, r', e'⟩ := h'
    rw [e] at e'
    simp only [List.append_assoc, List.cons_append, List.nil_append] at e'
    refine runs_agree f f' _ _ hf.2 hf'.2 ?_ ?_ (List.append_cancel_left e')
    · intro c hc
      simp only [List.head?_cons, Option.mem_def, Option.some.injEq] at hc
      subst hc; exact not_word_paren
    · intro c hc
      simp only [List.head?_cons, Option.mem_def, Option.some.injEq] at hc
      subst hc; exact not_word_paren
  subst this
  exact dotted_unique _ _ _ _ h h'

theorem TableOf.unique {line t t' : Str} (h : TableOf line t) (h' : TableOf line t') : t = t' := by
  rcases h with h | ⟨n1, h⟩
  · rcases h' with h' | ⟨n', _⟩
    · exact h.unique (longest_unique _ _) h'
    · exact (h.not_nowhere n').elim
  rcases h' with h' | ⟨_, h'⟩
  · exact (h'.not_nowhere n1).elim
  rcases h with h | ⟨n2, h⟩
  · rcases h' with h' | ⟨n', _⟩
    · exact h.unique (dotted_unique _) h'
    · exact (h.not_nowhere n').elim
  rcases h' with h' | ⟨_, h'⟩
  · exact (h'.not_nowhere n2).elim
  rcases h with h | ⟨n3, h⟩
  · rcases h' with h' | ⟨n', _⟩
    · exact h.unique (dotted_unique _) h'
    · exact (h.not_nowhere n').elim
  rcases h' with h' | ⟨_, h'⟩
  · exact (h'.not_nowhere n3).elim
  rcases h with h | ⟨n4, rfl⟩
  · rcases h' with h' | ⟨n', _⟩
    · exact h.unique aggregate_unique h'
    · exact (h.not_nowhere n').elim
  rcases h' with h' | ⟨_, rfl⟩
  · exact (h'.not_nowhere n4).elim
  rfl

/-- `\w+\(` -/
theorem step_call (s s' : St) : Step (.seq (.plus true (.cls isWord)) (.lit ['('])) s s' ↔
    ∃ f, Run WordChar f ∧ s.rest = f ++ '(' :: s'.rest ∧ s'.caps = s.caps ∧
      s'.pos = s.pos + f.length + 1 := by
  constructor
  · rintro ⟨t, ⟨t0, ⟨c, cs, e, hp, rfl⟩, h2⟩, h3⟩
    obtain ⟨u, e1, e2, e3, e4⟩ := (iter_cls _ _ _).mp h2
    obtain ⟨f1, f2, f3⟩ := (step_lit _ _ _).mp h3
    simp only at e1 e3 e4
    refine ⟨c :: u, ⟨by simp, ?_⟩, by rw [e, e1, f1]; rfl, by rw [f2, e3], ?_⟩
    · intro x hx
      rcases List.mem_cons.mp hx with rfl | hx
      · exact (isWord_iff _).mp hp
      · exact (isWord_iff _).mp (e2 x hx)
    · rw [f3, e4]; simp only [List.length_cons, List.length_nil]; omega
  · rintro ⟨f, ⟨hne, hf⟩, e1, e2, e3⟩
    cases f with
    | nil => exact absurd rfl hne
    | cons c f =>
      refine ⟨⟨s.pos + (c :: f).length, '(' :: s'.rest, s.caps⟩, ⟨⟨s.pos + 1, f ++ '(' :: s'.rest, s.caps⟩,
        ⟨c, _, e1, (isWord_iff c).mpr (hf c (by simp)), rfl⟩,
        (iter_cls _ _ _).mpr ⟨f, rfl, fun x hx => (isWord_iff x).mpr (hf x (by simp [hx])), rfl, ?_⟩⟩,
        (step_lit _ _ _).mpr ⟨rfl, e2, e3⟩⟩
      simp only [List.length_cons]; omega

theorem find_aggregate (t : Str) :
    (∀ m, find aggregateReg t = some m → FirstWith AggregateTable t (m.cap 1)) ∧
    (find aggregateReg t = none → Nowhere AggregateTable t) := by
  apply find_dotted
  · rintro s s' ⟨t1, h1, t2, h2, t3, h3, h4⟩ hc
    obtain ⟨e1, e2, _⟩ := (step_lit _ _ _).mp h1
    obtain ⟨f, hf, g1, g2, _⟩ := (step_call t1 t3).mp ⟨t2, h2, h3⟩
    obtain ⟨u, f1, f2, f3, f4, _⟩ := (step_word_dot _ _ _).mp h4
    have : s'.cap 1 = u := by simp [St.cap, f4]
    rw [this]
    refine ⟨f, hf, ⟨f1, fun c hc => (isWord_iff c).mp (f2 c hc)⟩, s'.rest, ?_⟩
    rw [e1, g1, f3]
    simp only [List.append_assoc, List.cons_append, List.nil_append]
  · rintro s w ⟨f, hf, ⟨h1, h2⟩, r, e⟩
    obtain ⟨t2, k1, k2⟩ := (step_call ⟨s.pos + " Aggregate: ".toList.length, f ++ '(' :: (w ++ '.' :: r), s.caps⟩
      ⟨s.pos + " Aggregate: ".toList.length + f.length + 1, w ++ '.' :: r, s.caps⟩).mpr ⟨f, hf, rfl, rfl, rfl⟩
    refine ⟨⟨s.pos + " Aggregate: ".toList.length + f.length + 1 + w.length + 1, r, (1, w) :: s.caps⟩,
      ⟨s.pos + " Aggregate: ".toList.length, f ++ '(' :: (w ++ '.' :: r), s.caps⟩,
      (step_lit _ _ _).mpr ⟨?_, rfl, rfl⟩, t2, k1, _, k2,
      (step_word_dot _ _ _).mpr ⟨w, h1, fun c hc => (isWord_iff c).mpr (h2 c hc), rfl, rfl, rfl⟩⟩
    rw [e]
    simp only [List.append_assoc, List.cons_append, List.nil_append]

theorem extractTable_tableOf (line : Str) : TableOf line (extractTable line) := by
  unfold extractTable firstMatch
  have h1 := find_longest [' ', 'o', 'n', ' '] isWord WordChar isWord_iff line
  have h2 := find_pre_dotted " Filter: (".toList line
  have h3 := find_pre_dotted " Sort: ".toList line
  have h4 := find_aggregate line
  change (∀ m, find onReg line = some m → _) ∧ (find onReg line = none → _) at h1
  change (∀ m, find filterReg line = some m → _) ∧ (find filterReg line = none → _) at h2
  change (∀ m, find sortReg line = some m → _) ∧ (find sortReg line = none → _) at h3
  cases e1 : find onReg line with
  | some m => exact .inl (h1.1 m e1)
  | none =>
    refine .inr ⟨h1.2 e1, ?_⟩
    cases e2 : find filterReg line with
    | some m => exact .inl (h2.1 m e2)
    | none =>
      refine .inr ⟨h2.2 e2, ?_⟩
      cases e3 : find sortReg line with
      | some m => exact .inl (h3.1 m e3)
      | none =>
        refine .inr ⟨h3.2 e3, ?_⟩
        cases e4 : find aggregateReg line with
        | some m => exact .inl (h4.1 m e4)
        | none => exact .inr ⟨h4.2 e4, rfl⟩

/-! ## C51 -/

/-- **C51, every line.** The table of a parsed line is the one its text names, and there is none otherwise. -/
theorem C51_table {F : Type} (pf : Str → Option F) (line : Str) (n : Nat) (L : Line F)
    (h : parseLine pf line = .ok (n, L)) (t : Str) : L.tableName = t ↔ TableOf line t := by
  have e : L.tableName = extractTable line := by
    unfold parseLine at h
    obtain ⟨l1, h1, h⟩ := bind_ok h
    obtain ⟨l2, h2, h⟩ := bind_ok h
    cases h
    rw [(addActual_other pf _ _ _ h2).2.2.2, (addEstimation_other pf _ _ _ h1).2.2.2.2]
  have := extractTable_tableOf line
  rw [e]
  constructor
  · rintro rfl; exact this
  · intro h'; exact this.unique h'

/-! ## Examples -/

/-- the table of a line, if it parses -/
def tableShown (s : String) : Option String :=
  match parseLine (F := Nat) (fun s => some s.length) s.toList with
  | .ok (_, L) => some (String.ofList L.tableName)
  | .error _ => none

example : tableShown "    -> Filter: (users.age > 3)  (cost=1.5 rows=3)" = some "users" := by decide +kernel
example : tableShown "    -> Filter: (age > 3)  (cost=1.5 rows=3)" = some "" := by decide +kernel
example : tableShown "-> Sort: tasks.id DESC  (cost=1.5 rows=3)" = some "tasks" := by decide +kernel
example : tableShown "-> Sort: total DESC  (cost=1.5 rows=3)" = some "" := by decide +kernel
example : tableShown "-> Aggregate: count(users.id)" = some "users" := by decide +kernel
example : tableShown "-> Aggregate: count(0)" = some "" := by decide +kernel
example : tableShown "-> Filter: (users.id = 1)  Table scan on tasks" = some "tasks" := by decide +kernel

end Verif.MysqlPlan
