import Verif.Regex.Words
import Verif.PgPlan.Numbers
/-!
# C52: the table of every PostgreSQL plan node

`Numbers.lean` reads the table of a node with a plain ` on `.  Here the table of *any* node is
settled: what it is, and when there is none.
-/
namespace Verif.PgPlan
open Verif.Regex Verif.Lib

/-! ## Specification -/

/-- A character of a name with dots. -/
def NameChar (c : Char) : Prop := WordChar c ∨ c = '.'

/-- `… on users …` -/
def OnTable : Str → Str → Prop := Longest WordChar [' ', 'o', 'n', ' ']
/-- `… on "public.users" …`, with a quote or without -/
def OnName (b t : Str) : Prop :=
  Longest NameChar [' ', 'o', 'n', ' '] b t ∨ Longest NameChar [' ', 'o', 'n', ' ', '"'] b t
/-- `… Key: users.…` -/
def KeyTable : Str → Str → Prop := Dotted " Key: ".toList

/-- The table a row names: the first word after ` on `; if there is none, the first name with dots or a quote
there; if there is none, the table of the first column of its key. -/
def RowTable (line t : Str) : Prop :=
  FirstWith OnTable line t ∨ Nowhere OnTable line ∧
  (FirstWith OnName line t ∨ Nowhere OnName line ∧ FirstWith KeyTable line t)

/-- The row names no table. -/
def RowNone (line : Str) : Prop := Nowhere OnTable line ∧ Nowhere OnName line ∧ Nowhere KeyTable line

/-- The table of a node is that of its first row that names one. -/
inductive NodeTable : List Str → Str → Prop
  | none : NodeTable [] []
  | here (line r t) : RowTable line t → NodeTable (line :: r) t
  | later (line r t) : RowNone line → NodeTable r t → NodeTable (line :: r) t

/-! ## Lemmas -/

theorem quote_not_name : ¬ NameChar '"' := by
  rintro (h | h)
  · rw [← isWord_iff] at h; revert h; decide
  · revert h; decide

theorem nameChar_iff (c : Char) : (isWord c || c == '.') = true ↔ NameChar c := by
  rw [Bool.or_eq_true, isWord_iff, beq_iff_eq]; rfl

theorem onName_unique (b t t' : Str) (h : OnName b t) (h' : OnName b t') : t = t' := by
  have mixed : ∀ t t', Longest NameChar [' ', 'o', 'n', ' '] b t →
      Longest NameChar [' ', 'o', 'n', ' ', '"'] b t' → False := by
    rintro t t' ⟨⟨h1, h2⟩, r, e, _⟩ ⟨_, r', e', _⟩
    rw [e] at e'
    cases t with
    | nil => exact h1 rfl
    | cons c t =>
      simp only [List.cons_append, List.nil_append, List.cons.injEq, true_and] at e'
      rw [e'.1] at h2
      exact quote_not_name (h2 '"' (by simp))
  rcases h with h | h <;> rcases h' with h' | h'
  · exact longest_unique _ _ _ _ _ h h'
  · exact (mixed _ _ h h').elim
  · exact (mixed _ _ h' h).elim
  · exact longest_unique _ _ _ _ _ h h'

theorem RowTable.unique {line t t' : Str} (h : RowTable line t) (h' : RowTable line t') : t = t' := by
  rcases h with h | ⟨n1, h⟩
  · rcases h' with h' | ⟨n', _⟩
    · exact h.unique (longest_unique _ _) h'
    · exact (h.not_nowhere n').elim
  rcases h' with h' | ⟨_, h'⟩
  · exact (h'.not_nowhere n1).elim
  rcases h with h | ⟨n2, h⟩
  · rcases h' with h' | ⟨n', _⟩
    · exact h.unique onName_unique h'
    · exact (h.not_nowhere n').elim
  rcases h' with h' | ⟨_, h'⟩
  · exact (h'.not_nowhere n2).elim
  exact h.unique (dotted_unique _) h'

theorem RowTable.not_none {line t : Str} (h : RowTable line t) (hn : RowNone line) : False := by
  rcases h with h | ⟨_, h | ⟨_, h⟩⟩
  · exact h.not_nowhere hn.1
  · exact h.not_nowhere hn.2.1
  · exact h.not_nowhere hn.2.2

theorem NodeTable.unique {g : List Str} {t t' : Str} (h : NodeTable g t) : NodeTable g t' → t = t' := by
  induction h with
  | none => intro h'; cases h'; rfl
  | here line r t h =>
    intro h'
    cases h' with
    | here _ _ _ h' => exact h.unique h'
    | later _ _ _ hn _ => exact (h.not_none hn).elim
  | later line r t hn _ ih =>
    intro h'
    cases h' with
    | here _ _ _ h' => exact (h'.not_none hn).elim
    | later _ _ _ _ h' => exact ih h'

theorem run_opt_caps (p : Char → Bool) (s : St) : ∃ m, run (.opt (.cls p)) s some = some m ∧ m.caps = s.caps := by
  cases h : run (.opt (.cls p)) s some with
  | none => exact absurd (.inr rfl) ((run_none_iff _ _).mp h s)
  | some m =>
    obtain ⟨s', hs, e⟩ := run_sound _ _ _ _ h
    cases e
    refine ⟨m, rfl, ?_⟩
    rcases hs with ⟨c, cs, _, _, rfl⟩ | rfl <;> rfl

/-- `([\w.]+)"?` -/
theorem run_name (pos : Nat) (u : Str) :
    (∀ m, run (.seq (.grp 1 (.plus true (.cls (fun c => isWord c || c == '.')))) (.opt (.cls (· == '"'))))
      ⟨pos, u, []⟩ some = some m → Longest NameChar [] u (m.cap 1)) ∧
    (run (.seq (.grp 1 (.plus true (.cls (fun c => isWord c || c == '.')))) (.opt (.cls (· == '"'))))
      ⟨pos, u, []⟩ some = none → ∀ w, ¬ Longest NameChar [] u w) := by
  obtain ⟨w, r, rfl, h1, h2⟩ := split_run (fun c => isWord c || c == '.') u
  have hf : ∀ c, (isWord c || c == '.') = false → ¬ NameChar c := by
    intro c h h'
    rw [(nameChar_iff c).mpr h'] at h; cases h
  rw [run_seq]
  by_cases hw : w = []
  · subst hw
    rw [List.nil_append, run_grp_greedy_none _ _ _ _ _ _ h2]
    refine ⟨fun m h => (by cases h), fun _ w ⟨⟨hne, hw⟩, r', e, _⟩ => ?_⟩
    cases w with
    | nil => exact hne rfl
    | cons c w =>
      subst e
      exact hf c (h2 c (by simp)) (hw c (by simp))
  · obtain ⟨m, hm, hc⟩ := run_opt_caps (· == '"') ⟨pos + w.length, r, [(1, w)]⟩
    rw [run_grp_greedy 1 _ _ [] w r _ hw h1 h2 (by rw [hm]; rfl), hm]
    refine ⟨fun m' hm' => ?_, fun h => by cases h⟩
    cases hm'
    have : m.cap 1 = w := by simp [St.cap, hc]
    rw [this]
    exact ⟨⟨hw, fun c hc => (nameChar_iff c).mp (h1 c hc)⟩, r, rfl, fun c hc => hf c (h2 c hc)⟩

theorem longest_pre {P : Char → Prop} (pre u w : Str) : Longest P pre (pre ++ u) w ↔ Longest P [] u w := by
  constructor
  · rintro ⟨h, r, e, h'⟩; exact ⟨h, r, List.append_cancel_left e, h'⟩
  · rintro ⟨h, r, e, h'⟩; exact ⟨h, r, by rw [e]; rfl, h'⟩

theorem find_onName (t : Str) : (∀ m, find onWithNamespaceReg t = some m → FirstWith OnName t (m.cap 1)) ∧
    (find onWithNamespaceReg t = none → Nowhere OnName t) := by
  have key : ∀ pos b, (∀ m, run onWithNamespaceReg ⟨pos, b, []⟩ some = some m → OnName b (m.cap 1)) ∧
      (run onWithNamespaceReg ⟨pos, b, []⟩ some = none → ∀ w, ¬ OnName b w) := by
    intro pos b
    rw [onWithNamespaceReg, run_seq]
    by_cases hb : [' ', 'o', 'n', ' '] <+: b
    · obtain ⟨u, rfl⟩ := hb
      have e4 : " on ".toList = [' ', 'o', 'n', ' '] := rfl
      rw [e4, run_lit, run_seq, Re.opt, run_alt, run_eps]
      have plain := run_name (pos + [' ', 'o', 'n', ' '].length) u
      cases u with
      | nil =>
        rw [run_cls_nil]
        refine ⟨fun m hm => .inl ((longest_pre _ _ _).mpr (plain.1 m hm)), fun hn w hw => ?_⟩
        rcases hw with hw | ⟨_, r, e, _⟩
        · exact plain.2 hn w ((longest_pre _ _ _).mp hw)
        · simp at e
      | cons c v =>
        rw [run_cls_cons]
        by_cases hc : c = '"'
        · subst hc
          simp only [beq_self_eq_true, if_true]
          have quoted := run_name (pos + [' ', 'o', 'n', ' '].length + 1) v
          cases hq : run (.seq (.grp 1 (.plus true (.cls (fun c => isWord c || c == '.'))))
              (.opt (.cls (· == '"')))) ⟨pos + [' ', 'o', 'n', ' '].length + 1, v, []⟩ some with
          | some x =>
            rw [Re.opt] at hq
            rw [hq]
            refine ⟨fun m hm => ?_, fun h => by cases h⟩
            cases hm
            exact .inr ((longest_pre [' ', 'o', 'n', ' ', '"'] v _).mpr (quoted.1 _ (by rw [Re.opt]; exact hq)))
          | none =>
            have hq' := hq
            rw [Re.opt] at hq
            rw [hq]
            refine ⟨fun m hm => .inl ((longest_pre _ _ _).mpr (plain.1 m hm)), fun hn w hw => ?_⟩
            rcases hw with hw | hw
            · exact plain.2 hn w ((longest_pre _ _ _).mp hw)
            · exact quoted.2 hq' w ((longest_pre [' ', 'o', 'n', ' ', '"'] v _).mp hw)
        · have : (c == '"') = false := by simpa using hc
          rw [this]
          refine ⟨fun m hm => .inl ((longest_pre _ _ _).mpr (plain.1 m hm)), fun hn w hw => ?_⟩
          rcases hw with hw | ⟨_, r, e, _⟩
          · exact plain.2 hn w ((longest_pre _ _ _).mp hw)
          · simp only [List.cons_append, List.nil_append, List.cons.injEq, true_and] at e
            exact hc e.1
    · have e4 : " on ".toList = [' ', 'o', 'n', ' '] := rfl
      rw [e4, run_lit_none _ _ _ _ _ hb]
      refine ⟨fun m h => (by cases h), ?_⟩
      rintro _ w (⟨_, r, e, _⟩ | ⟨_, r, e, _⟩)
      · exact hb ⟨w ++ r, e.symm⟩
      · exact hb ⟨'"' :: (w ++ r), e.symm⟩
  exact find_first _ _ (fun pos b => (key pos b).1) (fun pos b => (key pos b).2) t

theorem extractTable_nodeTable (g : List Str) : NodeTable g (extractTable g) := by
  induction g with
  | nil => exact .none
  | cons line r ih =>
    have h1 := find_longest [' ', 'o', 'n', ' '] isWord WordChar isWord_iff line
    have h2 := find_onName line
    have h3 := find_pre_dotted " Key: ".toList line
    change (∀ m, find onReg line = some m → _) ∧ (find onReg line = none → _) at h1
    change (∀ m, find keyReg line = some m → _) ∧ (find keyReg line = none → _) at h3
    rw [extractTable]
    cases e1 : find onReg line with
    | some m => exact .here _ _ _ (.inl (h1.1 m e1))
    | none =>
      cases e2 : find onWithNamespaceReg line with
      | some m => exact .here _ _ _ (.inr ⟨h1.2 e1, .inl (h2.1 m e2)⟩)
      | none =>
        cases e3 : find keyReg line with
        | some m => exact .here _ _ _ (.inr ⟨h1.2 e1, .inr ⟨h2.2 e2, h3.1 m e3⟩⟩)
        | none => exact .later _ _ _ ⟨h1.2 e1, h2.2 e2, h3.2 e3⟩ ih

/-! ## C52 -/

/-- **C52, every node.** The table of a parsed node is the one its rows name, and there is none otherwise. -/
theorem C52_table {F : Type} (pf : Str → Option F) (g : List Str) (n : Int) (L : Node F)
    (h : parseNode pf g = .ok (n, L)) (t : Str) : L.tableName = t ↔ NodeTable g t := by
  have e : L.tableName = extractTable g := by
    unfold parseNode at h
    obtain ⟨l1, h1, h⟩ := bind_ok h
    obtain ⟨l2, h2, h⟩ := bind_ok h
    obtain ⟨sp, _, h⟩ := bind_ok h
    cases h
    rw [(addActual_lines pf _ _ _ h2).2.1, (addEstimation_lines pf _ _ _ h1).2.1]
  have := extractTable_nodeTable g
  rw [e]
  constructor
  · rintro rfl; exact this
  · intro h'; exact this.unique h'

/-- C52 does not extend to quoted names with other characters: of `on "order-items"` the part before the first
such character is shown. -/
theorem C52_quoted_table_cut {F : Type} (pf : Str → Option F) (p w q : Str) (c : Char) (post : List Str) (n : Int)
    (L : Node F) (hw : Run NameChar w) (hc : ¬ NameChar c)
    (hone : ∀ a b, p ++ (" on \"".toList ++ (w ++ c :: q)) = a ++ (" on ".toList ++ b) → a = p)
    (h : parseNode pf ((p ++ (" on \"".toList ++ (w ++ c :: q))) :: post) = .ok (n, L)) : L.tableName = w := by
  refine (C52_table pf _ n L h w).mpr (.here _ _ _ (.inr ⟨?_, .inl ⟨p, _, rfl, .inr ⟨hw, c :: q, rfl, ?_⟩, ?_⟩⟩))
  · rintro a b w' e ⟨⟨h1, h2⟩, r, e', _⟩
    have := hone a (w' ++ r) (by rw [e, e']; rfl)
    subst this
    have e := List.append_cancel_left e
    rw [e'] at e
    cases w' with
    | nil => exact h1 rfl
    | cons d w' =>
      have e : '"' :: (w ++ c :: q) = d :: w' ++ r := List.append_cancel_left (as := [' ', 'o', 'n', ' ']) e
      simp only [List.cons_append, List.cons.injEq] at e
      rw [← e.1] at h2
      exact quote_not_name (.inl (h2 '"' (by simp)))
  · intro x hx
    simp only [List.head?_cons, Option.mem_def, Option.some.injEq] at hx
    subst hx; exact hc
  · rintro a1 a2 w' e hne hq
    have : ∃ b, a2 ++ (" on \"".toList ++ (w ++ c :: q)) = " on ".toList ++ b := by
      rcases hq with ⟨_, r, e', _⟩ | ⟨_, r, e', _⟩
      · exact ⟨_, e'⟩
      · exact ⟨'"' :: (w' ++ r), e'⟩
    obtain ⟨b, hb⟩ := this
    have := hone a1 b (by rw [← hb, e]; simp)
    rw [this] at e
    exact hne (List.self_eq_append_right.mp e)

/-! ## Examples -/

/-- the table of a node, if it parses -/
def tableShown (g : List String) : Option String :=
  match parseNode (F := Nat) (fun s => some s.length) (g.map String.toList) with
  | .ok (_, L) => some (String.ofList L.tableName)
  | .error _ => none

/-- a row meeting the hypotheses of `C52_quoted_table_cut` -/
example : tableShown ["Seq Scan on \"order-items\"  (cost=1.5..2.5 rows=3 width=4)"] = some "order" := by
  decide +kernel

example : tableShown ["  ->  Seq Scan on users u  (cost=1.5..2.5 rows=3 width=4)"] = some "users" := by decide +kernel
example : tableShown ["  ->  Seq Scan on \"user.list\"  (cost=1.5..2.5 rows=3 width=4)"] = some "user.list" := by
  decide +kernel
example : tableShown ["  ->  Sort  (cost=1.5..2.5 rows=3 width=4)", "        Sort Key: tasks.id DESC"] =
    some "tasks" := by decide +kernel
example : tableShown ["  ->  Sort  (cost=1.5..2.5 rows=3 width=4)", "        Sort Key: (count(*)) DESC"] =
    some "" := by decide +kernel
example : tableShown ["  ->  Sort  (cost=1.5..2.5 rows=3 width=4)", "        Sort Key: total"] = some "" := by
  decide +kernel

end Verif.PgPlan
