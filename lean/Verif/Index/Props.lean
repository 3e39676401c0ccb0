import Verif.Index.Spec
import Verif.Index.Lemmas
import Verif.Common
import Mathlib.Tactic.Tauto
import Mathlib.Data.List.Forall2
/-!
# Properties C01-C05: index option texts and target comparison
-/
namespace Verif.Index
open Verif.Regex Spec

/-! ## Bridges between specification and model helpers -/

theorem isWord_iff (c : Char) : isWord c = true ↔ WordChar c := by
  unfold isWord WordChar Char.isAlphanum Char.isAlpha Char.isUpper Char.isLower Char.isDigit
  simp only [Bool.or_eq_true, Bool.and_eq_true, decide_eq_true_eq, beq_iff_eq, ge_iff_le,
    Char.le_def, UInt32.le_iff_toNat_le]
  tauto

theorem ident_iff (s : List Char) : isMatch wordOnlyReg s = true ↔ Ident s := by
  rw [wordOnly_iff]
  simp only [Ident, isWord_iff]

theorem joinWith_eq_intercalate (sep : List Char) (ps : List (List Char)) :
    joinWith sep ps = sep.intercalate ps := by
  induction ps with
  | nil => rfl
  | cons p ps ih =>
    cases ps with
    | nil => simp [joinWith, List.intercalate]
    | cons q qs =>
      simp only [joinWith, ih, List.intercalate, List.intersperse]
      simp

theorem grIndexOption_eq_print (t : IndexTarget) : t.grIndexOption = print t := by
  simp [IndexTarget.grIndexOption, print, joinWith_eq_intercalate]

theorem word_ne {s : List Char} (h : Ident s) (c : Char) (hc : ¬WordChar c) : c ∉ s :=
  fun hm => hc (h.2 c hm)

theorem not_word_colon : ¬WordChar ':' := by unfold WordChar; decide
theorem not_word_plus : ¬WordChar '+' := by unfold WordChar; decide
theorem not_word_nl : ¬WordChar '\n' := by unfold WordChar; decide

theorem isLines_splitOn (text : List Char) : IsLines (splitOn '\n' text) text := by
  refine ⟨splitOn_ne_nil _ _, ?_, by rw [← joinWith_eq_intercalate]; exact joinWith_splitOn _ _⟩
  induction text with
  | nil => intro l hl; simp [splitOn] at hl; simp [hl]
  | cons c cs ih =>
    intro l hl
    by_cases hc : c = '\n'
    · simp only [splitOn, hc, if_true, List.mem_cons] at hl
      rcases hl with rfl | hl
      · simp
      · exact ih l hl
    · cases hs : splitOn '\n' cs with
      | nil => exact absurd hs (splitOn_ne_nil _ _)
      | cons p ps =>
        simp only [splitOn, hc, if_false, hs, List.mem_cons] at hl
        rcases hl with rfl | hl
        · have := ih p (by rw [hs]; simp)
          simp [this]; exact fun h => hc h.symm
        · exact ih l (by rw [hs]; simp [hl])

theorem isLines_unique {ls : List (List Char)} {text : List Char} (h : IsLines ls text) :
    splitOn '\n' text = ls := by
  rw [← h.2.2, ← joinWith_eq_intercalate]
  exact splitOn_joinWith '\n' ls h.1 h.2.1

/-! ## Complete description of the parser -/

/-- The parser accepts `t` exactly when the first line of the shape `something:something` is the
printed form of the plain target `t`. -/
theorem parse_ok_iff (text : List Char) (t : IndexTarget) :
    newIndexTargetFromText text = .ok t ↔
      Plain t ∧ ∃ before after, IsLines (before ++ print t :: after) text ∧
        ∀ l ∈ before, ¬Shaped l := by
  have hfind := findFrom_reg text 0
  constructor
  · intro h
    rcases hfind with ⟨hn, _⟩ | ⟨m, hm, ls1, line, ls2, hs, hl1, hline, h1, h2, hcol⟩
    · simp [newIndexTargetFromText, find, hn] at h
    · simp only [newIndexTargetFromText, find, hm] at h
      by_cases hw : isMatch wordOnlyReg (m.cap 1) = true
      · simp only [hw, if_true] at h
        cases hcols : newIndexColumns (splitOn '+' (m.cap 2)) with
        | error e => rw [hcols] at h; simp [bind, Except.bind] at h
        | ok cols =>
          rw [hcols] at h
          simp only [bind, Except.bind, pure, Except.pure, Except.ok.injEq] at h
          subst h
          obtain ⟨hsp, hwc⟩ := (newIndexColumns_ok _ _).mp hcols
          have hne : cols ≠ [] := by
            intro he; rw [he] at hsp; exact splitOn_ne_nil _ _ hsp
          have hp : Plain ⟨m.cap 1, cols⟩ :=
            ⟨(ident_iff _).mp hw, hne, fun c hc => (ident_iff _).mp (hwc c hc)⟩
          have hpr : print ⟨m.cap 1, cols⟩ = line := by
            rw [hline]
            simp only [print]
            rw [← joinWith_eq_intercalate, ← hsp, joinWith_splitOn]
          refine ⟨hp, ls1, ls2, ?_, hl1⟩
          rw [hpr, ← hs]
          exact isLines_splitOn text
      · simp [hw] at h
  · rintro ⟨hp, before, after, hlines, hbef⟩
    have hsplit := isLines_unique hlines
    have hintne : ['+'].intercalate (t.columns.map (·.name)) ≠ [] := by
      cases hc : t.columns with
      | nil => exact absurd hc hp.nonempty
      | cons c cs =>
        have hcn := (hp.cols c (by rw [hc]; simp)).1
        rw [← joinWith_eq_intercalate]
        cases cs with
        | nil => simpa [joinWith] using hcn
        | cons d ds => simp [joinWith]
    have hshape : Shaped (print t) := ⟨_, _, hp.table.1, hintne, rfl⟩
    rcases hfind with ⟨hn, hall⟩ | ⟨m, hm, ls1, line, ls2, hs, hl1, hline, h1, h2, hcol⟩
    · exact absurd hshape (hall _ (by rw [hsplit]; simp))
    · -- both decompositions are at the first shaped line
      have hsl : Shaped line := ⟨_, _, h1, h2, hline⟩
      have hsame : ls1 = before ∧ line = print t ∧ ls2 = after := by
        rw [hsplit] at hs
        clear hsplit hlines hm
        induction before generalizing ls1 with
        | nil =>
          cases ls1 with
          | nil => simp at hs; exact ⟨rfl, hs.1.symm, hs.2.symm⟩
          | cons l ls =>
            simp only [List.nil_append, List.cons_append, List.cons.injEq] at hs
            exact absurd hshape (hs.1 ▸ hl1 l (by simp))
        | cons b bs ih =>
          cases ls1 with
          | nil =>
            simp only [List.nil_append, List.cons_append, List.cons.injEq] at hs
            exact absurd hsl (hs.1 ▸ hbef b (by simp))
          | cons l ls =>
            simp only [List.cons_append, List.cons.injEq] at hs
            have := ih (fun l hl => hbef l (by simp [hl])) ls hs.2 (fun l hl => hl1 l (by simp [hl]))
            exact ⟨by rw [hs.1, this.1], this.2⟩
      have hcut : m.cap 1 = t.tableName ∧
          m.cap 2 = ['+'].intercalate (t.columns.map (·.name)) := by
        have heq : m.cap 1 ++ ':' :: m.cap 2 = t.tableName ++ ':' ::
            (['+'].intercalate (t.columns.map (·.name))) := by
          rw [← hline, hsame.2.1]; rfl
        have hntab : ':' ∉ t.tableName := word_ne hp.table _ not_word_colon
        have hbne : t.tableName ≠ [] := hp.table.1
        generalize m.cap 1 = a at *
        generalize t.tableName = b at *
        -- `b` has no colon, `a` has none after its first character
        cases a with
        | nil => exact absurd rfl h1
        | cons a0 as =>
          cases b with
          | nil => exact absurd rfl hbne
          | cons b0 bs =>
            simp only [List.cons_append, List.cons.injEq] at heq
            obtain ⟨h0, heq⟩ := heq
            have hbs : ':' ∉ bs := fun h => hntab (by simp [h])
            have has : ':' ∉ as := hcol
            have : as = bs ∧ m.cap 2 = ['+'].intercalate (t.columns.map (·.name)) := by
              clear hcol h1 hntab hline h0 hbne
              induction as generalizing bs with
              | nil =>
                cases bs with
                | nil => simpa using heq
                | cons b bs => simp at heq; exact absurd heq.1 (fun h => hbs (by rw [← h]; simp))
              | cons a as ih =>
                cases bs with
                | nil => simp at heq; exact absurd heq.1 (fun h => has (by simp [h]))
                | cons b bs =>
                  simp only [List.cons_append, List.cons.injEq] at heq
                  have := ih bs heq.2 (fun h => hbs (by simp [h])) (fun h => has (by simp [h]))
                  exact ⟨by rw [heq.1, this.1], this.2⟩
            exact ⟨by rw [h0, this.1], this.2⟩
      have hw : isMatch wordOnlyReg (m.cap 1) = true := by
        rw [hcut.1]; exact (ident_iff _).mpr hp.table
      have hcols : newIndexColumns (splitOn '+' (m.cap 2)) = .ok t.columns := by
        rw [newIndexColumns_ok]
        refine ⟨?_, fun c hc => (ident_iff _).mpr (hp.cols c hc)⟩
        rw [hcut.2, ← joinWith_eq_intercalate]
        apply splitOn_joinWith
        · simp [hp.nonempty]
        · intro p hpm
          obtain ⟨c, hc, rfl⟩ := List.mem_map.mp hpm
          exact word_ne (hp.cols c hc) _ not_word_plus
      simp only [newIndexTargetFromText, find, hm, hw, if_true, hcols, bind, Except.bind, pure,
        Except.pure]
      rw [hcut.1]

/-! ## C01 -/

/-- **C01.** Whatever is accepted is a plain identifier list. -/
theorem C01_parse_sound (text : List Char) (t : IndexTarget)
    (h : newIndexTargetFromText text = .ok t) :
    Ident t.tableName ∧ t.columns ≠ [] ∧ ∀ c ∈ t.columns, Ident c.name := by
  obtain ⟨hp, _⟩ := (parse_ok_iff text t).mp h
  exact ⟨hp.table, hp.nonempty, hp.cols⟩

/-- **C01.** A text none of whose lines is the printed form of a plain target is an error. -/
theorem C01_parse_rejects (text : List Char)
    (h : ∀ lines, IsLines lines text → ∀ t, Plain t → print t ∉ lines) :
    ∃ e, newIndexTargetFromText text = .error e := by
  cases hr : newIndexTargetFromText text with
  | error e => exact ⟨e, rfl⟩
  | ok t =>
    obtain ⟨hp, before, after, hl, _⟩ := (parse_ok_iff text t).mp hr
    exact absurd (by simp) (h _ hl t hp)

example : newIndexTargetFromText "users:status+name".toList =
    .ok ⟨"users".toList, [⟨"status".toList⟩, ⟨"name".toList⟩]⟩ := by decide
example : newIndexTargetFromText "users:status+na me".toList =
    .error (.nonWord "na me".toList) := by decide
example : newIndexTargetFromText "us`ers:status".toList = .error (.nonWord "us`ers".toList) := by
  decide

/-! ## C02 -/

/-- **C02.** Printing (as the result page does) and parsing are inverse. -/
theorem C02_round_trip (t : IndexTarget) (h : Plain t) :
    newIndexTargetFromText t.grIndexOption = .ok t := by
  rw [grIndexOption_eq_print, parse_ok_iff]
  refine ⟨h, [], [], ⟨by simp, ?_, by simp [List.intercalate]⟩, by simp⟩
  intro l hl
  simp only [List.nil_append, List.mem_singleton] at hl
  subst hl
  simp only [print, List.mem_append, List.mem_cons, not_or]
  refine ⟨word_ne h.table _ not_word_nl, by decide, ?_⟩
  intro hm
  simp only [List.intercalate, List.mem_flatten] at hm
  obtain ⟨l, hl, hm⟩ := hm
  have : ∀ (xs : List (List Char)), (∀ x ∈ xs, '\n' ∉ x) → ∀ l ∈ xs.intersperse ['+'], '\n' ∉ l := by
    intro xs
    induction xs with
    | nil => intro _ l hl; simp at hl
    | cons x xs ih =>
      intro hx l hl
      cases xs with
      | nil => simp at hl; subst hl; exact hx _ (by simp)
      | cons y ys =>
        simp only [List.intersperse, List.mem_cons] at hl
        rcases hl with rfl | rfl | hl
        · exact hx _ (by simp)
        · decide
        · exact ih (fun x hxm => hx x (by simp [hxm])) l (by simpa using hl)
  refine this _ ?_ l hl hm
  intro x hx
  obtain ⟨c, hc, rfl⟩ := List.mem_map.mp hx
  exact word_ne (h.cols c hc) _ not_word_nl

/-- **C02.** A one-line text is accepted as `t` exactly when it is the printed form of the plain
target `t`. -/
theorem C02_one_line_iff (text : List Char) (t : IndexTarget) (hnl : '\n' ∉ text) :
    newIndexTargetFromText text = .ok t ↔ Plain t ∧ text = print t := by
  constructor
  · intro h
    obtain ⟨hp, before, after, hl, _⟩ := (parse_ok_iff text t).mp h
    have := isLines_unique hl
    rw [splitOn_notMem _ _ hnl] at this
    cases before with
    | nil => simp at this; exact ⟨hp, this.1⟩
    | cons b bs => simp at this
  · rintro ⟨hp, rfl⟩
    rw [← grIndexOption_eq_print]
    exact C02_round_trip t hp

/-- **C02.** Hence printing is injective on plain targets. -/
theorem C02_print_injective (a b : IndexTarget) (ha : Plain a) (hb : Plain b)
    (h : a.grIndexOption = b.grIndexOption) : a = b := by
  have h1 := C02_round_trip a ha
  rw [h, C02_round_trip b hb] at h1
  exact (Except.ok.inj h1).symm

example : Plain ⟨"users".toList, [⟨"a_1".toList⟩, ⟨"B".toList⟩]⟩ := by
  refine ⟨?_, by simp, ?_⟩
  · refine ⟨by decide, ?_⟩; simp [WordChar]
  · simp [Ident, WordChar]

/-! ## C03 -/

/-- **C03 (full claim).** "Nothing of an accepted text is ignored" would be
`∀ text t, newIndexTargetFromText text = .ok t → text = print t`.  It is false: the code's regular
expression is not anchored and `.` stops at a newline. -/
theorem C03_text_is_ignored :
    ∃ text t, newIndexTargetFromText text = .ok t ∧ text ≠ print t :=
  ⟨"junk\nusers:status\n`; DROP TABLE x".toList, ⟨"users".toList, [⟨"status".toList⟩]⟩, by decide,
    by decide⟩

/-- **C03 (partial).** Proved for one-line texts.  Missing: texts with a newline, for which the
claim is false (`C03_text_is_ignored`). -/
theorem C03_nothing_ignored_partial (text : List Char) (t : IndexTarget) (hnl : '\n' ∉ text)
    (h : newIndexTargetFromText text = .ok t) : text = print t :=
  ((C02_one_line_iff text t hnl).mp h).2

/-- **C03 (what holds in general).** Exactly the lines before and after the first
`something:something` line are ignored. -/
theorem C03_only_other_lines_ignored (text : List Char) (t : IndexTarget)
    (h : newIndexTargetFromText text = .ok t) :
    ∃ before after, IsLines (before ++ print t :: after) text ∧ ∀ l ∈ before, ¬Shaped l :=
  ((parse_ok_iff text t).mp h).2

/-! ## C04 -/

/-- **C04.** A list of texts is accepted exactly when every text is, one target per text, in order. -/
theorem C04_list_ok_iff (texts : List (List Char)) (its : List IndexTarget) :
    newIndexTargetsFromTexts texts = .ok its ↔
      List.Forall₂ (fun text it => newIndexTargetFromText text = .ok it) texts its := by
  induction texts generalizing its with
  | nil => cases its <;> simp [newIndexTargetsFromTexts]
  | cons t ts ih =>
    simp only [newIndexTargetsFromTexts]
    cases ht : newIndexTargetFromText t with
    | error e =>
      constructor
      · intro h; cases h
      · intro h; cases h; rename_i h1 _; rw [ht] at h1; cases h1
    | ok it =>
      cases hts : newIndexTargetsFromTexts ts with
      | error e =>
        constructor
        · intro h; cases h
        · intro h; cases h; rename_i h1 h2; rw [(ih _).mpr h2] at hts; cases hts
      | ok rest =>
        simp only [Except.ok.injEq]
        constructor
        · rintro rfl; exact .cons ht ((ih _).mp hts)
        · intro h; cases h; rename_i h1 h2
          rw [(ih _).mpr h2] at hts; rw [ht] at h1; cases h1; cases hts; rfl

/-- **C04.** Otherwise the error is that of the first bad text. -/
theorem C04_list_error_iff (texts : List (List Char)) (e : ParseError) :
    newIndexTargetsFromTexts texts = .error e ↔
      ∃ good bad rest, texts = good ++ bad :: rest ∧
        (∀ g ∈ good, ∃ it, newIndexTargetFromText g = .ok it) ∧
        newIndexTargetFromText bad = .error e := by
  induction texts with
  | nil => simp [newIndexTargetsFromTexts]
  | cons t ts ih =>
    simp only [newIndexTargetsFromTexts]
    cases ht : newIndexTargetFromText t with
    | error e' =>
      simp only [Except.error.injEq]
      constructor
      · rintro rfl; exact ⟨[], t, ts, rfl, by simp, ht⟩
      · rintro ⟨good, bad, rest, h, hg, hb⟩
        cases good with
        | nil => simp at h; rw [← h.1, ht] at hb; exact Except.error.inj hb
        | cons g gs =>
          simp at h
          obtain ⟨it, hit⟩ := hg g (by simp)
          rw [← h.1, ht] at hit; cases hit
    | ok it =>
      have key : (∃ good bad rest, t :: ts = good ++ bad :: rest ∧
          (∀ g ∈ good, ∃ it, newIndexTargetFromText g = .ok it) ∧
          newIndexTargetFromText bad = .error e) ↔ newIndexTargetsFromTexts ts = .error e := by
        rw [ih]
        constructor
        · rintro ⟨good, bad, rest, h, hg, hb⟩
          cases good with
          | nil => simp at h; rw [← h.1, ht] at hb; cases hb
          | cons g gs =>
            simp at h
            exact ⟨gs, bad, rest, h.2, fun x hx => hg x (by simp [hx]), hb⟩
        · rintro ⟨good, bad, rest, h, hg, hb⟩
          refine ⟨t :: good, bad, rest, by simp [h], ?_, hb⟩
          intro g hgm
          rcases List.mem_cons.mp hgm with rfl | hgm
          · exact ⟨it, ht⟩
          · exact hg g hgm
      rw [key]
      cases newIndexTargetsFromTexts ts <;> simp

example : newIndexTargetsFromTexts ["a:b".toList, "bad".toList, "c d:e".toList] =
    .error (.notAppropriate "bad".toList) := by decide
example : newIndexTargetsFromTexts ["a:b".toList, "a:b".toList] =
    .ok [⟨"a".toList, [⟨"b".toList⟩]⟩, ⟨"a".toList, [⟨"b".toList⟩]⟩] := by decide

/-! ## C05 -/

/-- **C05.** `Equals` holds exactly for equal targets; hence it is an equivalence. -/
theorem C05_equals_iff (a b : IndexTarget) : a.equals b = true ↔ a = b := by
  have hcols : ∀ (xs ys : List IndexColumn), xs.length = ys.length →
      (columnsEqual IndexColumn.equals xs ys = true ↔ xs = ys) := by
    intro xs
    induction xs with
    | nil => intro ys h; cases ys <;> simp [columnsEqual] at h ⊢
    | cons x xs ih =>
      intro ys h
      cases ys with
      | nil => simp at h
      | cons y ys =>
        simp only [columnsEqual, Bool.and_eq_true, IndexColumn.equals, beq_iff_eq,
          ih ys (by simpa using h), List.cons.injEq]
        cases x; cases y; simp
  obtain ⟨at_, ac⟩ := a
  obtain ⟨bt, bc⟩ := b
  unfold IndexTarget.equals
  simp only [IndexTarget.mk.injEq]
  by_cases h1 : at_ = bt
  · by_cases h2 : ac.length = bc.length
    · simp [h1, h2, hcols ac bc h2]
    · simp only [h1, ne_eq, not_true, if_false, h2, not_false_eq_true, if_true, true_and]
      constructor
      · intro h; cases h
      · rintro rfl; exact absurd rfl h2
  · simp [h1]

theorem equalFold_iff (fold : Char → Char) (a b : List Char) :
    equalFold fold a b = true ↔ a.map fold = b.map fold := by
  induction a generalizing b with
  | nil => cases b <;> simp [equalFold]
  | cons x xs ih => cases b <;> simp [equalFold, ih]

/-- **C05.** The comparison used against existing indexes holds exactly when both have the same
columns, in the same order, up to letter case. -/
theorem C05_same_columns_iff (fold : Char → Char) (a b : IndexTarget) :
    a.hasSameIdxColumns fold b = true ↔ SameColumns fold a b := by
  obtain ⟨at_, ac⟩ := a
  obtain ⟨bt, bc⟩ := b
  simp only [IndexTarget.hasSameIdxColumns, SameColumns]
  by_cases h : bc.length = ac.length
  · simp only [h, ne_eq, not_true, if_false]
    induction bc generalizing ac with
    | nil => cases ac <;> simp [columnsEqual] at h ⊢
    | cons x xs ih =>
      cases ac with
      | nil => simp at h
      | cons y ys =>
        simp only [columnsEqual, Bool.and_eq_true, equalFold_iff, ih ys (by simpa using h),
          List.map_cons, List.cons.injEq]
  · simp only [ne_eq, h, not_false_eq_true, if_true, Bool.false_eq_true, false_iff]
    intro he
    exact h (by simpa using (congrArg List.length he).symm)

/-- **C05.** Reflexive, symmetric, transitive. -/
theorem C05_same_columns_equivalence (fold : Char → Char) :
    Equivalence (fun a b : IndexTarget => a.hasSameIdxColumns fold b = true) := by
  refine ⟨fun a => ?_, fun {a b} h => ?_, fun {a b c} h1 h2 => ?_⟩
  · exact (C05_same_columns_iff fold a a).mpr rfl
  · exact (C05_same_columns_iff fold b a).mpr ((C05_same_columns_iff fold a b).mp h).symm
  · exact (C05_same_columns_iff fold a c).mpr
      (((C05_same_columns_iff fold a b).mp h1).trans ((C05_same_columns_iff fold b c).mp h2))

example : (newIndexTarget "t".toList ["Ab".toList, "c".toList]).hasSameIdxColumns Char.toLower
    (newIndexTarget "u".toList ["aB".toList, "C".toList]) = true := by decide
example : (newIndexTarget "t".toList ["a".toList, "b".toList]).hasSameIdxColumns Char.toLower
    (newIndexTarget "t".toList ["b".toList, "a".toList]) = false := by decide

end Verif.Index
