import Mathlib.Data.List.Basic
import Verif.Regex.Lemmas
import Verif.PgPlan.Spec
/-!
# C23, C24: the PostgreSQL plan tree
-/
namespace Verif.PgPlan
open Verif.Regex Verif.Lib

/-! ## Kinds of rows -/

theorem isMatch_iff (r : Re) (t : Str) : isMatch r t = true ↔ ∃ a b s', t = a ++ b ∧ Step r ⟨a.length, b, []⟩ s' := by
  unfold isMatch
  cases h : find r t with
  | none =>
    have := (find_none_iff r t).mp h
    refine ⟨fun h => (by cases h), ?_⟩
    rintro ⟨a, b, s', e, hs⟩
    exact absurd hs (this a b s' e)
  | some m =>
    obtain ⟨a, b, e, hs, _⟩ := find_sound r t m h
    exact ⟨fun _ => ⟨a, b, m, e, hs⟩, fun _ => rfl⟩

theorem isArrow_iff (line : Str) : isArrow line = true ↔ ArrowRow line := by
  rw [isArrow, isMatch_iff]
  constructor
  · rintro ⟨a, b, s', rfl, t, h1, h2⟩
    obtain ⟨u, e1, _, _, _⟩ := (iter_cls _ _ _).mp h1
    obtain ⟨f1, _, _⟩ := (step_lit _ _ _).mp h2
    refine ⟨a ++ u, s'.rest, ?_⟩
    simp only at e1
    rw [e1, f1, List.append_assoc]; rfl
  · rintro ⟨a, b, rfl⟩
    refine ⟨a, _, ⟨a.length + 3, b, []⟩, rfl, ⟨a.length, '-' :: '>' :: ' ' :: b, []⟩, .nil _, ?_⟩
    exact (step_lit _ _ _).mpr ⟨rfl, rfl, rfl⟩

/-- The words of an info row end with a word character, possibly followed by a blank. -/
theorem step_words (s s' : St) (h : Iter (Step (.seq (.plus true (.cls isWord)) (.opt (.cls (· == ' '))))) s s') :
    s' = s ∨ ∃ a c, WordChar c ∧ (s.rest = a ++ c :: s'.rest ∨ s.rest = a ++ c :: ' ' :: s'.rest) := by
  have one : ∀ s t, Step (.seq (.plus true (.cls isWord)) (.opt (.cls (· == ' ')))) s t →
      ∃ a c, WordChar c ∧ (s.rest = a ++ c :: t.rest ∨ s.rest = a ++ c :: ' ' :: t.rest) := by
    rintro s t ⟨t1, ⟨t0, ⟨c, cs, e, hp, rfl⟩, h2⟩, h3⟩
    obtain ⟨u, e1, e2, _, _⟩ := (iter_cls _ _ _).mp h2
    simp only at e1
    have last : ∃ a d, WordChar d ∧ s.rest = a ++ d :: t1.rest := by
      rcases List.eq_nil_or_concat u with rfl | ⟨u', d, rfl⟩
      · exact ⟨[], c, (isWord_iff c).mp hp, by rw [e, e1]; rfl⟩
      · refine ⟨c :: u', d, (isWord_iff d).mp (e2 d (by simp)), ?_⟩
        rw [e, e1]; simp
    obtain ⟨a, d, hd, el⟩ := last
    refine ⟨a, d, hd, ?_⟩
    rcases h3 with ⟨c', cs', e', hp', rfl⟩ | rfl
    · have := beq_iff_eq.mp hp'
      subst this
      exact .inr (by rw [el, e'])
    · exact .inl el
  induction h with
  | nil s => exact .inl rfl
  | @cons s t s'' h1 _ _ ih =>
    refine .inr ?_
    obtain ⟨a, c, hc, e⟩ := one s t h1
    rcases ih with rfl | ⟨a', c', hc', e'⟩
    · exact ⟨a, c, hc, e⟩
    · rcases e with e | e <;> rcases e' with e' | e'
      · exact ⟨a ++ c :: a', c', hc', .inl (by rw [e, e']; simp)⟩
      · exact ⟨a ++ c :: a', c', hc', .inr (by rw [e, e']; simp)⟩
      · exact ⟨a ++ c :: ' ' :: a', c', hc', .inl (by rw [e, e']; simp)⟩
      · exact ⟨a ++ c :: ' ' :: a', c', hc', .inr (by rw [e, e']; simp)⟩

theorem isInfo_iff (line : Str) : isInfo line = true ↔ InfoRow line := by
  rw [isInfo, isMatch_iff]
  constructor
  · rintro ⟨a, b, s', rfl, t1, h1, t2, h2, h3⟩
    obtain ⟨u, e1, _, _, _⟩ := (iter_cls _ _ _).mp h1
    obtain ⟨f1, _, _⟩ := (step_lit _ _ _).mp h3
    simp only at e1
    have hw : ∃ a' c, WordChar c ∧ (t1.rest = a' ++ c :: t2.rest ∨ t1.rest = a' ++ c :: ' ' :: t2.rest) := by
      obtain ⟨t0, k1, k2⟩ := h2
      by_cases hl : t0.rest.length < t1.rest.length
      · rcases step_words t1 t2 (.cons k1 hl k2) with rfl | h
        · exfalso
          rcases step_words _ _ k2 with e | ⟨a', c', _, e | e⟩
          · rw [e] at hl; omega
          · have := congrArg List.length e
            simp at this; omega
          · have := congrArg List.length e
            simp at this; omega
        · exact h
      · exfalso
        obtain ⟨t3, ⟨t4, ⟨c, cs, e, _, rfl⟩, g2⟩, g3⟩ := k1
        obtain ⟨u, e1, _, _, _⟩ := (iter_cls _ _ _).mp g2
        simp only at e1
        have l1 := congrArg List.length e
        have l2 := congrArg List.length e1
        simp at l1 l2
        rcases g3 with ⟨c', cs', e', _, rfl⟩ | rfl
        · have l3 := congrArg List.length e'
          simp at l3 hl; omega
        · omega
    obtain ⟨a', c, hc, e⟩ := hw
    refine ⟨a ++ (u ++ a'), c, s'.rest, hc, ?_⟩
    rcases e with e | e
    · left; rw [e1, e, f1]; simp
    · right; rw [e1, e, f1]; simp
  · rintro ⟨a, c, b, hc, e⟩
    have hw := (isWord_iff c).mpr hc
    rcases e with rfl | rfl
    · refine ⟨a, _, ⟨a.length + 1 + 2, b, []⟩, rfl, _, .nil _, ⟨a.length + 1, ':' :: ' ' :: b, []⟩,
        ⟨_, ⟨⟨a.length + 1, ':' :: ' ' :: b, []⟩, ⟨_, ⟨c, _, rfl, hw, rfl⟩, .nil _⟩, .inr rfl⟩, .nil _⟩, ?_⟩
      exact (step_lit _ _ _).mpr ⟨rfl, rfl, rfl⟩
    · refine ⟨a, _, ⟨a.length + 1 + 1 + 2, b, []⟩, rfl, _, .nil _, ⟨a.length + 1 + 1, ':' :: ' ' :: b, []⟩,
        ⟨_, ⟨⟨a.length + 1, ' ' :: ':' :: ' ' :: b, []⟩, ⟨_, ⟨c, _, rfl, hw, rfl⟩, .nil _⟩,
          .inl ⟨' ', _, rfl, rfl, rfl⟩⟩, .nil _⟩, ?_⟩
      exact (step_lit _ _ _).mpr ⟨rfl, rfl, rfl⟩

theorem wordOrBlank_iff (c : Char) : (isWord c || c == ' ') = true ↔ WordChar c ∨ c = ' ' := by
  rw [Bool.or_eq_true, isWord_iff, beq_iff_eq]

theorem isSummary_iff (line : Str) : isSummary line = true ↔ SummaryRow line := by
  rw [isSummary, isMatch_iff]
  constructor
  · rintro ⟨a, b, s', rfl, t0, ⟨h0, rfl⟩, t1, ⟨c, cs, e, hp, rfl⟩, t2, ⟨t3, ⟨d, ds, e', hp', rfl⟩, h3⟩, h4⟩
    obtain ⟨u, e1, e2, _, _⟩ := (iter_cls _ _ _).mp h3
    obtain ⟨f1, _, _⟩ := (step_lit _ _ _).mp h4
    obtain rfl : a = [] := List.length_eq_zero_iff.mp h0
    simp only at e e' e1
    refine ⟨c, d :: u, s'.rest, (isWord_iff c).mp hp, ⟨by simp, ?_⟩, ?_⟩
    · intro x hx
      rcases List.mem_cons.mp hx with rfl | hx
      · exact (wordOrBlank_iff x).mp hp'
      · exact (wordOrBlank_iff x).mp (e2 x hx)
    · rw [List.nil_append, e, e', e1, f1]; simp
  · rintro ⟨c, w, b, hc, ⟨hne, hw⟩, rfl⟩
    cases w with
    | nil => exact absurd rfl hne
    | cons d u =>
      refine ⟨[], _, ⟨u.length + 3, b, []⟩, rfl, _, ⟨rfl, rfl⟩, _, ⟨c, _, rfl, (isWord_iff c).mpr hc, rfl⟩,
        ⟨u.length + 2, ':' :: b, []⟩,
        ⟨_, ⟨d, _, rfl, (wordOrBlank_iff d).mpr (hw d (by simp)), rfl⟩, (iter_cls _ _ _).mpr
          ⟨u, rfl, fun x hx => (wordOrBlank_iff x).mpr (hw x (by simp [hx])), rfl, ?_⟩⟩, ?_⟩
      · simp only [List.length_nil]; omega
      · exact (step_lit _ _ _).mpr ⟨rfl, rfl, rfl⟩

theorem not_of_iff {b : Bool} {P : Prop} (h : b = true ↔ P) : b = false ↔ ¬ P := by
  rw [← h]; simp

/-- `NodeShape` with the tests of the program. -/
def ShapeB (g : List Str) : Prop :=
  (∃ h t, g = h :: t ∧ ∀ x ∈ t, isInfo x = true) ∨
  (∃ h a t, g = h :: a :: t ∧ isInfo h = false ∧ isArrow h = false ∧ isInfo a = false ∧
    isArrow a = true ∧ ∀ x ∈ t, isInfo x = true)

theorem shapeB_iff (g : List Str) : ShapeB g ↔ NodeShape g := by
  simp only [ShapeB, NodeShape, not_of_iff (isInfo_iff _), not_of_iff (isArrow_iff _), isInfo_iff, isArrow_iff]

/-! ## Grouping -/

/-- Everything collected so far. -/
def GState.all (g : GState) : List Str := g.lineNodes.flatten ++ g.nodeLines

theorem flush_all (g : GState) : (flush g).all = g.all := by
  unfold flush
  split <;> simp [GState.all]

theorem flush_nodeLines (g : GState) : (flush g).nodeLines = [] := by
  unfold flush
  split
  · rfl
  · rename_i h; simpa using h

theorem flush_prev (g : GState) : (flush g).prev = g.prev := by
  unfold flush; split <;> rfl

theorem add_all (g : GState) (line : Str) (t : LineType) : (g.add line t).all = g.all ++ [line] := by
  simp [GState.all, GState.add]

theorem step2_all (g : GState) (line : Str) : (step2 g line).all = g.all ++ [line] := by
  unfold step2
  split
  · exact add_all _ _ _
  · split
    · rw [add_all]; split
      · rw [flush_all]
      · rfl
    · rw [add_all, flush_all]

theorem step_all (first : Bool) (g : GState) (line : Str) :
    (step first g line).all = g.all ++ [line] := by
  unfold step
  split
  · exact add_all _ _ _
  · split
    · split
      · simp [GState.all]
      · rw [step2_all, flush_all]
    · exact step2_all _ _

theorem groupLoop_no_summary (i : Nat) (g : GState) (lines : List Str)
    (h : ∀ l ∈ lines, isSummary l = false) :
    (groupLoop i g lines).2 = 0 ∧ (groupLoop i g lines).1.all = g.all ++ lines := by
  induction lines generalizing i g with
  | nil => simp [groupLoop]
  | cons l r ih =>
    rw [groupLoop]
    simp only [h l (by simp), Bool.false_eq_true, if_false]
    obtain ⟨h1, h2⟩ := ih (i + 1) (step (i == 0) g l) (fun x hx => h x (by simp [hx]))
    exact ⟨h1, by rw [h2, step_all]; simp⟩

theorem groupLoop_summary (i : Nat) (g : GState) (pre : List Str) (s : Str) (post : List Str)
    (h : ∀ l ∈ pre, isSummary l = false) (hs : isSummary s = true) :
    (groupLoop i g (pre ++ s :: post)).2 = i + pre.length ∧
      (groupLoop i g (pre ++ s :: post)).1.lineNodes.flatten = g.all ++ pre := by
  induction pre generalizing i g with
  | nil =>
    rw [List.nil_append, groupLoop, if_pos hs]
    have e := flush_all g
    rw [GState.all, flush_nodeLines, List.append_nil] at e
    exact ⟨by simp, by rw [e]; simp⟩
  | cons l r ih =>
    rw [List.cons_append, groupLoop]
    simp only [h l (by simp), Bool.false_eq_true, if_false]
    obtain ⟨h1, h2⟩ := ih (i + 1) (step (i == 0) g l) (fun x hx => h x (by simp [hx]))
    exact ⟨by rw [h1]; simp; omega, by rw [h2, step_all]; simp⟩

/-- the shape of the lines collected for the current node, with the type of the latest line -/
def Pending (g : List Str) (t : LineType) : Prop :=
  match t with
  | .planName => g = [] ∨ ∃ h, g = [h] ∧ isInfo h = false ∧ isArrow h = false
  | .arrow => (∃ h, g = [h]) ∨ ∃ h a, g = [h, a] ∧ isInfo h = false ∧ isArrow h = false ∧
      isInfo a = false ∧ isArrow a = true
  | .info => ShapeB g

/-- all groups so far have the shape, as has the current one -/
def Good (g : GState) : Prop := (∀ n ∈ g.lineNodes, ShapeB n) ∧ Pending g.nodeLines g.prev

theorem pending_shape {g : List Str} {t : LineType} (h : Pending g t) (hne : g ≠ []) : ShapeB g := by
  cases t with
  | planName =>
    rcases h with h | ⟨x, rfl, _, _⟩
    · exact absurd h hne
    · exact .inl ⟨x, [], rfl, by simp⟩
  | arrow =>
    rcases h with ⟨x, rfl⟩ | ⟨x, a, rfl, h1, h2, h3, h4⟩
    · exact .inl ⟨x, [], rfl, by simp⟩
    · exact .inr ⟨x, a, [], rfl, h1, h2, h3, h4, by simp⟩
  | info => exact h

theorem shape_append {g : List Str} (h : ShapeB g) {line : Str} (hl : isInfo line = true) :
    ShapeB (g ++ [line]) := by
  have mem : ∀ t : List Str, (∀ x ∈ t, isInfo x = true) → ∀ x ∈ t ++ [line], isInfo x = true := by
    intro t ht x hx
    rcases List.mem_append.mp hx with hx | hx
    · exact ht x hx
    · simp at hx; rw [hx]; exact hl
  rcases h with ⟨x, t, rfl, ht⟩ | ⟨x, a, t, rfl, h1, h2, h3, h4, ht⟩
  · exact .inl ⟨x, t ++ [line], rfl, mem t ht⟩
  · exact .inr ⟨x, a, t ++ [line], rfl, h1, h2, h3, h4, mem t ht⟩

theorem flush_good {g : GState} (h : Good g) : ∀ n ∈ (flush g).lineNodes, ShapeB n := by
  unfold flush
  split
  · rename_i hne
    intro n hn
    simp only [List.mem_append, List.mem_singleton] at hn
    rcases hn with hn | rfl
    · exact h.1 n hn
    · exact pending_shape h.2 hne
  · exact h.1

theorem step2_good {g : GState} (line : Str) (h : Good g)
    (hp : g.prev = .info → g.nodeLines = []) (hi : g.prev = .info → isInfo line = false)
    (hn : g.nodeLines ≠ [] ∨ isInfo line = false) :
    Good (step2 g line) := by
  unfold step2
  by_cases h1 : isInfo line = true
  · simp only [h1, if_true]
    refine ⟨h.1, ?_⟩
    have hne : g.nodeLines ≠ [] := by
      rcases hn with hn | hn
      · exact hn
      · rw [h1] at hn; cases hn
    exact shape_append (pending_shape h.2 hne) h1
  · simp only [h1, Bool.false_eq_true, if_false]
    have h1' : isInfo line = false := by simpa using h1
    by_cases h2 : isArrow line = true
    · simp only [h2, if_true]
      by_cases h3 : g.prev = .arrow
      · simp only [h3, if_true]
        refine ⟨flush_good h, ?_⟩
        show Pending ((flush g).nodeLines ++ [line]) .arrow
        rw [flush_nodeLines]
        exact .inl ⟨line, rfl⟩
      · simp only [h3, if_false]
        refine ⟨h.1, ?_⟩
        show Pending (g.nodeLines ++ [line]) .arrow
        cases hprev : g.prev with
        | arrow => exact absurd hprev h3
        | info => rw [hp hprev]; exact .inl ⟨line, rfl⟩
        | planName =>
          have := h.2
          rw [hprev] at this
          rcases this with e | ⟨x, e, hx1, hx2⟩
          · rw [e]; exact .inl ⟨line, rfl⟩
          · rw [e]; exact .inr ⟨x, line, rfl, hx1, hx2, h1', h2⟩
    · simp only [h2, Bool.false_eq_true, if_false]
      have h2' : isArrow line = false := by simpa using h2
      refine ⟨flush_good h, ?_⟩
      show Pending ((flush g).nodeLines ++ [line]) .planName
      rw [flush_nodeLines]
      exact .inr ⟨line, rfl, h1', h2'⟩

theorem add_ne (g : GState) (line : Str) (t : LineType) : (g.add line t).nodeLines ≠ [] := by
  simp [GState.add]

theorem step2_ne (g : GState) (line : Str) : (step2 g line).nodeLines ≠ [] := by
  unfold step2
  split
  · exact add_ne _ _ _
  · split <;> exact add_ne _ _ _

theorem step_good {g : GState} (line : Str) (h : Good g) (hne : g.nodeLines ≠ []) :
    Good (step false g line) := by
  unfold step
  simp only [Bool.false_eq_true, if_false]
  by_cases hp : g.prev = .info
  · simp only [hp, if_true]
    by_cases hi : isInfo line = true
    · simp only [hi, if_true]
      refine ⟨h.1, ?_⟩
      show Pending (g.nodeLines ++ [line]) .info
      have := h.2
      rw [hp] at this
      exact shape_append this hi
    · simp only [hi, Bool.false_eq_true, if_false]
      have hi' : isInfo line = false := by simpa using hi
      -- after the flush nothing is pending, whatever the previous type
      have e : step2 (flush g) line = step2 { flush g with prev := .planName } line := by
        unfold step2
        simp only [hi', Bool.false_eq_true, if_false]
        split
        · have : (flush g).prev ≠ .arrow := by rw [flush_prev, hp]; simp
          simp only [this, if_false]
          rfl
        · simp only [flush, GState.add]
          have := flush_nodeLines g
          unfold flush at this
          split <;> simp_all
      rw [e]
      refine step2_good line ⟨flush_good h, ?_⟩ (by intro h; cases h) (by intro h; cases h)
        (.inr hi')
      show Pending (flush g).nodeLines .planName
      rw [flush_nodeLines]; exact .inl rfl
  · simp only [hp, if_false]
    exact step2_good line h (fun h => absurd h hp) (fun h => absurd h hp) (.inl hne)

theorem step_ne (g : GState) (line : Str) : (step false g line).nodeLines ≠ [] := by
  unfold step
  simp only [Bool.false_eq_true, if_false]
  split
  · split
    · simp
    · exact step2_ne _ _
  · exact step2_ne _ _

theorem groupLoop_good (i : Nat) (g : GState) (lines : List Str) (hi : 0 < i) (h : Good g)
    (hne : g.nodeLines ≠ []) : ∀ n ∈ (groupLoop i g lines).1.lineNodes, ShapeB n := by
  induction lines generalizing i g with
  | nil => rw [groupLoop]; exact h.1
  | cons l r ih =>
    rw [groupLoop]
    split
    · exact flush_good h
    · have : (i == 0) = false := by simp; omega
      rw [this]
      exact ih (i + 1) _ (by omega) (step_good l h hne) (step_ne g l)

theorem groupLoop_nonempty (i : Nat) (g : GState) (lines : List Str)
    (h : ∀ n ∈ g.lineNodes, n ≠ []) : ∀ n ∈ (groupLoop i g lines).1.lineNodes, n ≠ [] := by
  have hf : ∀ g : GState, (∀ n ∈ g.lineNodes, n ≠ []) → ∀ n ∈ (flush g).lineNodes, n ≠ [] := by
    intro g h
    unfold flush
    split
    · rename_i hne
      intro n hn
      simp only [List.mem_append, List.mem_singleton] at hn
      rcases hn with hn | rfl
      · exact h n hn
      · exact hne
    · exact h
  have h2 : ∀ (g : GState) l, (∀ n ∈ g.lineNodes, n ≠ []) → ∀ n ∈ (step2 g l).lineNodes, n ≠ [] := by
    intro g l h
    unfold step2
    split
    · exact h
    · split
      · split
        · exact hf g h
        · exact h
      · exact hf g h
  have hs : ∀ (b : Bool) (g : GState) l, (∀ n ∈ g.lineNodes, n ≠ []) →
      ∀ n ∈ (step b g l).lineNodes, n ≠ [] := by
    intro b g l h
    unfold step
    split
    · exact h
    · split
      · split
        · exact h
        · exact h2 _ _ (hf g h)
      · exact h2 _ _ h
  induction lines generalizing i g with
  | nil => rw [groupLoop]; exact h
  | cons l r ih =>
    rw [groupLoop]
    split
    · exact hf g h
    · exact ih _ _ (hs _ _ _ h)

/-! ### C24 -/

/-- C24 (with a summary, as `EXPLAIN (ANALYZE, BUFFERS)` always prints one): the lines before the
summary are in the nodes exactly once and in order, and the summary text is the remaining lines. -/
theorem C24_no_line_lost_partial (pre : List Str) (s : Str) (post : List Str) (hne : pre ≠ [])
    (h : ∀ l ∈ pre, ¬ SummaryRow l) (hs : SummaryRow s) :
    (groupToPlanLineNodes (pre ++ s :: post)).1.flatten = pre ∧
      (groupToPlanLineNodes (pre ++ s :: post)).2 = joinLines (s :: post) := by
  replace h := fun l hl => (not_of_iff (isSummary_iff l)).mpr (h l hl)
  replace hs := (isSummary_iff s).mpr hs
  obtain ⟨h1, h2⟩ := groupLoop_summary 0 ⟨[], [], .planName⟩ pre s post h hs
  unfold groupToPlanLineNodes
  refine ⟨by rw [h2]; simp [GState.all], ?_⟩
  have hpos : 0 < pre.length := List.length_pos_iff.mpr hne
  simp only [h1, Nat.zero_add, gt_iff_lt, hpos, if_true]
  rw [List.drop_left]

/-- C24: without a summary line the lines of the last node are lost: the nodes followed by the
non-empty remainder are all lines. -/
theorem C24_without_summary (lines : List Str) (hne : lines ≠ [])
    (h : ∀ l ∈ lines, ¬ SummaryRow l) :
    ∃ last, last ≠ [] ∧ (groupToPlanLineNodes lines).1.flatten ++ last = lines ∧
      (groupToPlanLineNodes lines).2 = [] := by
  replace h := fun l hl => (not_of_iff (isSummary_iff l)).mpr (h l hl)
  obtain ⟨h1, h2⟩ := groupLoop_no_summary 0 ⟨[], [], .planName⟩ lines h
  refine ⟨(groupLoop 0 ⟨[], [], .planName⟩ lines).1.nodeLines, ?_, ?_, ?_⟩
  · -- the latest line is always pending
    have key : ∀ (ls : List Str) (i : Nat) (g : GState), (∀ l ∈ ls, isSummary l = false) →
        (ls ≠ [] ∨ g.nodeLines ≠ []) → (groupLoop i g ls).1.nodeLines ≠ [] := by
      intro ls
      induction ls with
      | nil => intro i g _ h; rw [groupLoop]; simpa using h
      | cons l r ih =>
        intro i g hl _
        rw [groupLoop]
        simp only [hl l (by simp), Bool.false_eq_true, if_false]
        refine ih _ _ (fun x hx => hl x (by simp [hx])) (.inr ?_)
        by_cases hi : i = 0
        · subst hi; simp [step, GState.add]
        · have : (i == 0) = false := by simpa using hi
          rw [this]; exact step_ne g l
    exact key lines 0 _ h (.inl hne)
  · unfold groupToPlanLineNodes
    have : (groupLoop 0 ⟨[], [], .planName⟩ lines).1.all = lines := by
      rw [h2]; simp [GState.all]
    exact this
  · unfold groupToPlanLineNodes
    simp [h1]

/-- C24: every node starts with one row and goes on with info rows only, except that the name of a
sub plan may be followed by the row of its plan. -/
theorem C24_node_shape (lines : List Str) : ∀ n ∈ (groupToPlanLineNodes lines).1, NodeShape n := by
  suffices h : ∀ n ∈ (groupToPlanLineNodes lines).1, ShapeB n from fun n hn => (shapeB_iff n).mp (h n hn)
  unfold groupToPlanLineNodes
  cases lines with
  | nil => simp [groupLoop]
  | cons l r =>
    show ∀ n ∈ (groupLoop 0 ⟨[], [], .planName⟩ (l :: r)).1.lineNodes, ShapeB n
    rw [groupLoop]
    split
    · simp [flush]
    · refine groupLoop_good 1 _ r (by omega) ⟨by simp [step, GState.add], ?_⟩
        (by simp [step, GState.add])
      exact .inl ⟨l, rfl⟩

/-- the type of the previous line -/
def typeOf (prev : Option Str) : LineType :=
  match prev with
  | none => .arrow
  | some x => if isInfo x then .info else if isArrow x then .arrow else .planName

theorem typeOf_some_iff (x : Str) : typeOf (some x) = .planName ↔ ¬ InfoRow x ∧ ¬ ArrowRow x := by
  rw [← isInfo_iff, ← isArrow_iff, typeOf]
  by_cases h1 : isInfo x = true
  · simp [h1]
  · by_cases h2 : isArrow x = true <;> simp [h1, h2]

theorem step_group (g : GState) (prev : Option Str) (line : Str) (hp : g.prev = typeOf prev)
    (hne : g.nodeLines ≠ []) :
    (step false g line).prev = typeOf (some line) ∧
    ((Joined prev line ∧ (step false g line).lineNodes = g.lineNodes ∧
        (step false g line).nodeLines = g.nodeLines ++ [line]) ∨
      (¬ Joined prev line ∧ (step false g line).lineNodes = g.lineNodes ++ [g.nodeLines] ∧
        (step false g line).nodeLines = [line])) := by
  have hfl : flush g = { g with lineNodes := g.lineNodes ++ [g.nodeLines], nodeLines := [] } := by
    rw [flush, if_pos hne]
  unfold step
  rw [if_neg (by simp), hfl]
  by_cases hi : isInfo line = true
  · have hj : Joined prev line := .inl ((isInfo_iff line).mp hi)
    by_cases hpi : g.prev = .info
    · rw [if_pos hpi, if_pos hi]
      exact ⟨by simp [typeOf, hi, hpi], .inl ⟨hj, rfl, rfl⟩⟩
    · rw [if_neg hpi, step2, if_pos hi]
      exact ⟨by simp [typeOf, hi, GState.add], .inl ⟨hj, rfl, rfl⟩⟩
  · have hni : ¬ InfoRow line := fun h => hi ((isInfo_iff line).mpr h)
    by_cases ha : isArrow line = true
    · have hty : typeOf (some line) = .arrow := by simp [typeOf, hi, ha]
      have hA := (isArrow_iff line).mp ha
      by_cases hpi : g.prev = .info
      · have hj : ¬ Joined prev line := by
          rintro (h | ⟨_, x, rfl, hx⟩)
          · exact hni h
          · rw [← typeOf_some_iff, ← hp, hpi] at hx; cases hx
        rw [if_pos hpi, if_neg hi, step2, if_neg hi, if_pos ha, hty, if_neg (by simp [hpi])]
        exact ⟨rfl, .inr ⟨hj, rfl, rfl⟩⟩
      · rw [if_neg hpi, step2, if_neg hi, if_pos ha, hty, hfl]
        by_cases hpa : g.prev = .arrow
        · have hj : ¬ Joined prev line := by
            rintro (h | ⟨_, x, rfl, hx⟩)
            · exact hni h
            · rw [← typeOf_some_iff, ← hp, hpa] at hx; cases hx
          rw [if_pos hpa]
          exact ⟨rfl, .inr ⟨hj, rfl, rfl⟩⟩
        · have hpn : g.prev = .planName := by
            cases h : g.prev with
            | info => exact absurd h hpi
            | arrow => exact absurd h hpa
            | planName => rfl
          rw [if_neg hpa]
          refine ⟨rfl, .inl ⟨.inr ⟨hA, ?_⟩, rfl, rfl⟩⟩
          cases prev with
          | none => rw [hp] at hpn; cases hpn
          | some x => exact ⟨x, rfl, (typeOf_some_iff x).mp (hp ▸ hpn)⟩
    · have hty : typeOf (some line) = .planName := by simp [typeOf, hi, ha]
      have hj : ¬ Joined prev line := by
        rintro (h | ⟨h, _⟩)
        · exact hni h
        · exact ha ((isArrow_iff line).mpr h)
      rw [hty]
      by_cases hpi : g.prev = .info
      · rw [if_pos hpi, if_neg hi, step2, if_neg hi, if_neg ha]
        refine ⟨rfl, .inr ⟨hj, ?_, ?_⟩⟩ <;> simp [GState.add, flush]
      · rw [if_neg hpi, step2, if_neg hi, if_neg ha, hfl]
        exact ⟨rfl, .inr ⟨hj, rfl, rfl⟩⟩

theorem groupLoop_groups (s : Str) (post : List Str) (hs : isSummary s = true) (r : List Str) :
    ∀ (i : Nat) (g : GState) (prev : Option Str), 0 < i → g.prev = typeOf prev → g.nodeLines ≠ [] →
      (∀ l ∈ r, isSummary l = false) → ∃ gs, Groups prev g.nodeLines r gs ∧
        (groupLoop i g (r ++ s :: post)).1.lineNodes = g.lineNodes ++ gs := by
  induction r with
  | nil =>
    intro i g prev _ _ hne _
    refine ⟨[g.nodeLines], .done _ _, ?_⟩
    rw [List.nil_append, groupLoop, if_pos hs, flush, if_pos hne]
  | cons y r ih =>
    intro i g prev hi hp hne hr
    have h0 : (i == 0) = false := by simp; omega
    rw [List.cons_append, groupLoop, if_neg (by simp [hr y (by simp)]), h0]
    obtain ⟨h1, h2⟩ := step_group g prev y hp hne
    have hr' : ∀ l ∈ r, isSummary l = false := fun l hl => hr l (by simp [hl])
    rcases h2 with ⟨hj, e1, e2⟩ | ⟨hj, e1, e2⟩
    · obtain ⟨gs, k1, k2⟩ := ih (i + 1) (step false g y) (some y) (by omega) h1 (by rw [e2]; simp) hr'
      rw [e2] at k1
      exact ⟨gs, .join _ _ _ _ _ hj k1, by rw [k2, e1]⟩
    · obtain ⟨gs, k1, k2⟩ := ih (i + 1) (step false g y) (some y) (by omega) h1 (by rw [e2]; simp) hr'
      rw [e2] at k1
      exact ⟨g.nodeLines :: gs, .start _ _ _ _ _ hj k1, by rw [k2, e1]; simp⟩

/-- **C24, where nodes begin.** A line before the summary begins a node of its own unless it is an info row or the
plan of the sub plan named on the line before. -/
theorem C24_groups (l : Str) (r : List Str) (s : Str) (post : List Str) (h : ∀ x ∈ l :: r, ¬ SummaryRow x)
    (hs : SummaryRow s) : Groups none [l] r (groupToPlanLineNodes (l :: r ++ s :: post)).1 := by
  replace h := fun x hx => (not_of_iff (isSummary_iff x)).mpr (h x hx)
  replace hs := (isSummary_iff s).mpr hs
  obtain ⟨gs, h1, h2⟩ := groupLoop_groups s post hs r 1 (step true ⟨[], [], .planName⟩ l) none (by omega) rfl
    (by simp [step, GState.add]) (fun x hx => h x (by simp [hx]))
  have e : (groupToPlanLineNodes (l :: r ++ s :: post)).1 = gs := by
    show (groupLoop 0 ⟨[], [], .planName⟩ (l :: r ++ s :: post)).1.lineNodes = gs
    rw [List.cons_append, groupLoop, if_neg (by simp [h l (by simp)])]
    exact h2
  rw [e]; exact h1

/-! ## The tree -/

theorem dropAncestors {α : Type} (sp : α → Int) (b c : Int) (h : b ≤ c) (earlier : List α) :
    (ancestorsOf sp c earlier).dropWhile (fun x => sp x ≥ b) = ancestorsOf sp b earlier := by
  induction earlier generalizing c with
  | nil => rfl
  | cons x r ih =>
    rw [ancestorsOf, ancestorsOf]
    by_cases h1 : sp x < c
    · rw [if_pos h1]
      by_cases h2 : sp x < b
      · rw [if_pos h2, List.dropWhile_cons, if_neg (by simp; exact h2)]
      · rw [if_neg h2, List.dropWhile_cons, if_pos (by simp; omega)]
        exact ih (sp x) (by omega)
    · rw [if_neg h1, if_neg (by omega)]
      exact ih c h

theorem popTo_spec {α : Type} (sp : α → Int) (n : Int) : ∀ (k : Nat) (s : List (Frame α)),
    s.length = k → (∃ x ∈ s.map (·.1), sp x < n) →
    ∃ s', popTo sp n s = .ok s' ∧ stackPath s' = stackPath s ∧
      s'.map (·.1) = (s.map (·.1)).dropWhile (fun x => sp x ≥ n) := by
  intro k
  induction k with
  | zero =>
    intro s h1 ⟨x, hx, _⟩
    have : s = [] := List.length_eq_zero_iff.mp h1
    rw [this] at hx; simp at hx
  | succ k ih =>
    intro s h1 h2
    match s, h1, h2 with
    | [(a, cs)], _, h2 =>
      have hlt : sp a < n := by simpa using h2
      refine ⟨[(a, cs)], ?_, rfl, ?_⟩
      · rw [popTo, if_neg (by simp; exact hlt)]
      · simp [hlt]
    | (a, cs) :: (b, ds) :: r, h1, h2 =>
      rw [popTo]
      by_cases h : sp a ≥ n
      · rw [if_pos h]
        obtain ⟨s', k1, k2, k3⟩ := ih ((b, ds ++ [.node a cs]) :: r) (by simpa using h1) (by
          obtain ⟨x, hx, hlt⟩ := h2
          simp only [List.map_cons, List.mem_cons] at hx
          rcases hx with rfl | rfl | hx
          · omega
          · exact ⟨x, by simp, hlt⟩
          · exact ⟨x, by simp only [List.map_cons, List.mem_cons]; exact .inr hx, hlt⟩)
        refine ⟨s', k1, by rw [k2, stackPath_pop], ?_⟩
        rw [k3]
        simp [List.dropWhile_cons, h]
      · rw [if_neg h]
        refine ⟨_, rfl, rfl, ?_⟩
        rw [List.map_cons, List.dropWhile_cons, if_neg (by simpa using h)]

/-- One node attached: the stack always holds the path to the latest node. -/
theorem attach_spec {α : Type} (sp : α → Int) (s : List (Frame α)) (a latest : α) (earlier : List α)
    (hs : s.map (·.1) = latest :: ancestorsOf sp (sp latest) earlier)
    (hroot : ∃ x ∈ latest :: ancestorsOf sp (sp latest) earlier, sp x < sp a) :
    ∃ s', attach sp s a = .ok s' ∧
      s'.map (·.1) = a :: ancestorsOf sp (sp a) (latest :: earlier) ∧
      stackPath s' = stackPath s ++ [(ancestorsOf sp (sp a) (latest :: earlier), a)] := by
  match s, hs with
  | (b, cs) :: r, hs =>
    simp only [List.map_cons, List.cons.injEq] at hs
    obtain ⟨rfl, hr⟩ := hs
    rw [attach]
    by_cases h : sp b < sp a
    · rw [if_pos h]
      have e : ancestorsOf sp (sp a) (b :: earlier) = b :: ancestorsOf sp (sp b) earlier := by
        rw [ancestorsOf, if_pos h]
      refine ⟨_, rfl, ?_, ?_⟩
      · rw [List.map_cons, List.map_cons, hr, e]
      · rw [stackPath]; simp only [List.map_cons, hr, e, withPathL]
    · rw [if_neg h]
      have e : ancestorsOf sp (sp a) (b :: earlier) = ancestorsOf sp (sp a) earlier := by
        rw [ancestorsOf, if_neg h]
      obtain ⟨x, hx, hlt⟩ := hroot
      have hx' : x ∈ ancestorsOf sp (sp b) earlier := by
        rcases List.mem_cons.mp hx with rfl | hx
        · exact absurd hlt h
        · exact hx
      -- something is left below
      match r, hr with
      | [], hr => rw [← hr] at hx'; simp at hx'
      | (c, ds) :: r, hr =>
        have hpop : pop ((b, cs) :: (c, ds) :: r) = (c, ds ++ [.node b cs]) :: r := rfl
        have hm : ((c, ds ++ [.node b cs]) :: r).map (·.1) = ancestorsOf sp (sp b) earlier := by
          rw [← hr]; rfl
        obtain ⟨s', k1, k2, k3⟩ := popTo_spec sp (sp a) _ ((c, ds ++ [.node b cs]) :: r) rfl
          ⟨x, by rw [hm]; exact hx', hlt⟩
        rw [hpop, k1]
        have hd : s'.map (·.1) = ancestorsOf sp (sp a) earlier := by
          rw [k3, hm]; exact dropAncestors sp (sp a) (sp b) (by omega) earlier
        refine ⟨_, rfl, ?_, ?_⟩
        · rw [List.map_cons, hd, e]
        · rw [stackPath, k2, stackPath_pop, hd, e]; simp [withPathL]

section
variable {F : Type} (pf : Str → Option F)

theorem mapM_ok_cons {α β ε : Type} (f : α → Except ε β) (x : α) (r : List α) (bs : List β)
    (h : (x :: r).mapM f = .ok bs) : ∃ b bs', f x = .ok b ∧ r.mapM f = .ok bs' ∧ bs = b :: bs' := by
  rw [List.mapM_cons] at h
  cases hx : f x with
  | error e => rw [hx] at h; cases h
  | ok b =>
    rw [hx] at h
    cases hr : r.mapM f with
    | error e => rw [hr] at h; cases h
    | ok bs' => rw [hr] at h; cases h; exact ⟨b, bs', rfl, rfl, rfl⟩

/-- an ancestor chain that reaches the root, which is less indented than everything -/
def RootBelow (root : PNode F) (earlier : List (PNode F)) : Prop :=
  ∃ pre, earlier = pre ++ [root] ∧ root.1 = -1 ∧ ∀ x ∈ pre, 0 ≤ x.1

theorem root_mem (root : PNode F) (pre : List (PNode F)) (n : Int) (hr : root.1 = -1) (hn : 0 ≤ n)
    (hp : ∀ x ∈ pre, 0 ≤ x.1) : root ∈ ancestorsOf (·.1) n (pre ++ [root]) := by
  induction pre generalizing n with
  | nil => simp [ancestorsOf, hr]; omega
  | cons x r ih =>
    rw [List.cons_append, ancestorsOf]
    split
    · exact List.mem_cons_of_mem _ (ih x.1 (hp x (by simp)) (fun y hy => hp y (by simp [hy])))
    · exact ih n hn (fun y hy => hp y (by simp [hy]))

theorem buildLoop_spec (groups : List (List Str)) : ∀ (ns : List (PNode F))
    (s : List (Frame (PNode F))) (root latest : PNode F) (earlier : List (PNode F)),
    groups.mapM (parseNode pf) = .ok ns → (∀ n ∈ ns, 0 ≤ n.1) →
    RootBelow root (latest :: earlier) →
    s.map (·.1) = latest :: ancestorsOf (·.1) latest.1 earlier →
    ∃ s', buildLoop pf groups s = .ok s' ∧ s' ≠ [] ∧
      stackPath s' = stackPath s ++ expectedPaths (·.1) (latest :: earlier) ns := by
  induction groups with
  | nil =>
    intro ns s root latest earlier h _ _ hs
    cases h
    refine ⟨s, rfl, ?_, by simp [expectedPaths]⟩
    rintro rfl; simp at hs
  | cons g r ih =>
    intro ns s root latest earlier h hpos hroot hs
    obtain ⟨n, ns', h1, h2, rfl⟩ := mapM_ok_cons _ _ _ _ h
    have hn : 0 ≤ n.1 := hpos n (by simp)
    obtain ⟨pre, e, hr, hp⟩ := hroot
    have hmem : root ∈ latest :: ancestorsOf (·.1) latest.1 earlier := by
      cases pre with
      | nil => simp at e; rw [e.1]; simp
      | cons x pre =>
        simp only [List.cons_append, List.cons.injEq] at e
        rw [e.2]
        exact List.mem_cons_of_mem _ (root_mem root pre latest.1 hr (by rw [e.1]; exact hp x (by simp))
          (fun y hy => hp y (by simp [hy])))
    obtain ⟨s', k1, k2, k3⟩ := attach_spec (·.1) s n latest earlier hs
      ⟨root, hmem, by rw [hr]; omega⟩
    obtain ⟨s'', m1, m2, m3⟩ := ih ns' s' root n (latest :: earlier) h2
      (fun x hx => hpos x (by simp [hx])) ⟨n :: pre, by rw [e]; rfl, hr, by
        intro x hx
        rcases List.mem_cons.mp hx with rfl | hx
        · exact hn
        · exact hp x hx⟩ k2
    refine ⟨s'', ?_, m2, ?_⟩
    · rw [buildLoop, h1]; simp only [k1]; exact m1
    · rw [m3, k3]; simp [expectedPaths]

theorem buildLoop_error (groups : List (List Str)) : ∀ (s : List (Frame (PNode F))), (∃ s', buildLoop pf groups s = .ok s') →
    ∃ ns, groups.mapM (parseNode pf) = .ok ns := by
  induction groups with
  | nil => intro s _; exact ⟨[], rfl⟩
  | cons g r ih =>
    intro s ⟨s', h⟩
    rw [buildLoop] at h
    cases hp : parseNode pf g with
    | error e => rw [hp] at h; cases h
    | ok n =>
      rw [hp] at h
      cases ha : attach (·.1) s n with
      | error e => simp only [ha] at h; cases h
      | ok s1 =>
        simp only [ha] at h
        obtain ⟨ns', h'⟩ := ih s1 ⟨s', h⟩
        exact ⟨n :: ns', by rw [List.mapM_cons, hp, h']; rfl⟩

theorem bind_ok {ε α β : Type} {x : Except ε α} {f : α → Except ε β} {b : β}
    (h : (x >>= f) = .ok b) : ∃ a, x = .ok a ∧ f a = .ok b := by
  cases x with
  | error e' => cases h
  | ok a => exact ⟨a, rfl, h⟩

theorem bind_error {ε α β : Type} {x : Except ε α} {f : α → Except ε β} {e : ε}
    (h : (x >>= f) = .error e) : x = .error e ∨ ∃ a, x = .ok a ∧ f a = .error e := by
  cases x with
  | error e' => left; simpa [bind, Except.bind] using h
  | ok a => right; exact ⟨a, rfl, h⟩

theorem spaceSize_cons (line : Str) (r : List Str) : spaceSize (line :: r) = .ok (indentOf line : Int) := by
  have h : ∀ r : Str, run prefixSpaceReg ⟨0, r, []⟩ some =
      some ⟨(r.takeWhile isSpc).length, r.dropWhile isSpc,
        [(0, r.take (r.length - (r.dropWhile isSpc).length))]⟩ := by
    intro r
    simp only [prefixSpaceReg, run_grp, run_seq, run_bos, if_true, run_star_greedy_cls]
    rw [greedyScan_total _ _ _ (by intro s; rfl)]
    simp
  have h2 : find prefixSpaceReg line = run prefixSpaceReg ⟨0, line, []⟩ some := by
    cases line with
    | nil => rfl
    | cons c cs => simp only [find, findFrom, h]
  have h3 : line.take (line.length - (line.dropWhile isSpc).length) = line.takeWhile isSpc := by
    have e : line = line.takeWhile isSpc ++ line.dropWhile isSpc := by simp
    have hl : line.length - (line.dropWhile isSpc).length = (line.takeWhile isSpc).length := by
      have := congrArg List.length e
      rw [List.length_append] at this; omega
    rw [hl]
    exact (List.prefix_iff_eq_take.mp (List.takeWhile_prefix _)).symm
  rw [spaceSize, h2, h, indentOf]
  simp [St.cap, h3]

theorem addEstimation_lines (m : Str) (l l' : Node F) (h : addEstimation pf m l = .ok l') :
    l'.lines = l.lines ∧ l'.tableName = l.tableName ∧ l'.actualTimeFirstRow = l.actualTimeFirstRow ∧
      l'.actualTimeAvg = l.actualTimeAvg ∧ l'.actualReturnedRows = l.actualReturnedRows ∧
      l'.actualLoopCount = l.actualLoopCount := by
  unfold addEstimation at h
  split at h
  · cases h; exact ⟨rfl, rfl, rfl, rfl, rfl, rfl⟩
  · obtain ⟨_, _, h⟩ := bind_ok h
    obtain ⟨_, _, h⟩ := bind_ok h
    obtain ⟨_, _, h⟩ := bind_ok h
    obtain ⟨_, _, h⟩ := bind_ok h
    cases h; exact ⟨rfl, rfl, rfl, rfl, rfl, rfl⟩

theorem addActual_lines (m : Str) (l l' : Node F) (h : addActual pf m l = .ok l') :
    l'.lines = l.lines ∧ l'.tableName = l.tableName ∧ l'.estimatedInitCost = l.estimatedInitCost ∧
      l'.estimatedCost = l.estimatedCost ∧ l'.estimatedReturnedRows = l.estimatedReturnedRows ∧
      l'.estimatedWidth = l.estimatedWidth := by
  unfold addActual at h
  split at h
  · cases h; exact ⟨rfl, rfl, rfl, rfl, rfl, rfl⟩
  · obtain ⟨_, _, h⟩ := bind_ok h
    obtain ⟨_, _, h⟩ := bind_ok h
    obtain ⟨_, _, h⟩ := bind_ok h
    obtain ⟨_, _, h⟩ := bind_ok h
    cases h; exact ⟨rfl, rfl, rfl, rfl, rfl, rfl⟩

theorem parseNode_ok (g : List Str) (n : PNode F) (h : parseNode pf g = .ok n) :
    n.2.lines = g ∧ ∃ l r, g = l :: r ∧ n.1 = (indentOf l : Int) := by
  unfold parseNode at h
  obtain ⟨l1, h1, h⟩ := bind_ok h
  obtain ⟨l2, h2, h⟩ := bind_ok h
  obtain ⟨sp, h3, h⟩ := bind_ok h
  cases h
  refine ⟨by rw [(addActual_lines pf _ _ _ h2).1, (addEstimation_lines pf _ _ _ h1).1], ?_⟩
  cases g with
  | nil => cases h3
  | cons l r => rw [spaceSize_cons] at h3; cases h3; exact ⟨l, r, rfl, rfl⟩

theorem parseFloat_error (s : Str) (e : Err) (h : parseFloat pf s = .error e) : e ≠ .panic := by
  unfold parseFloat at h
  split at h <;> cases h
  simp

theorem parseInt_error (s : Str) (e : Err) (h : parseInt s = .error e) : e ≠ .panic := by
  unfold parseInt at h
  split at h <;> cases h
  simp

theorem addEstimation_error (m : Str) (l : Node F) (e : Err) (h : addEstimation pf m l = .error e) :
    e ≠ .panic := by
  unfold addEstimation at h
  split at h
  · cases h
  · rcases bind_error h with h | ⟨_, _, h⟩
    · exact parseFloat_error pf _ _ h
    rcases bind_error h with h | ⟨_, _, h⟩
    · exact parseFloat_error pf _ _ h
    rcases bind_error h with h | ⟨_, _, h⟩
    · exact parseInt_error _ _ h
    rcases bind_error h with h | ⟨_, _, h⟩
    · exact parseInt_error _ _ h
    cases h

theorem addActual_error (m : Str) (l : Node F) (e : Err) (h : addActual pf m l = .error e) :
    e ≠ .panic := by
  unfold addActual at h
  split at h
  · cases h
  · rcases bind_error h with h | ⟨_, _, h⟩
    · exact parseFloat_error pf _ _ h
    rcases bind_error h with h | ⟨_, _, h⟩
    · exact parseFloat_error pf _ _ h
    rcases bind_error h with h | ⟨_, _, h⟩
    · exact parseInt_error _ _ h
    rcases bind_error h with h | ⟨_, _, h⟩
    · exact parseInt_error _ _ h
    cases h

theorem parseNode_error (g : List Str) (hg : g ≠ []) (e : Err) (h : parseNode pf g = .error e) :
    e ≠ .panic := by
  unfold parseNode at h
  rcases bind_error h with h | ⟨_, _, h⟩
  · exact addEstimation_error pf _ _ _ h
  rcases bind_error h with h | ⟨_, _, h⟩
  · exact addActual_error pf _ _ _ h
  cases g with
  | nil => exact absurd rfl hg
  | cons l r => rw [spaceSize_cons] at h; cases h

theorem mapM_lines (groups : List (List Str)) : ∀ ns : List (PNode F),
    groups.mapM (parseNode pf) = .ok ns →
    ns.map (fun n => n.2.lines) = groups ∧
      ns.map (fun n => n.1) = groups.map (fun g => (indentOf (g.headD []) : Int)) := by
  induction groups with
  | nil => intro ns h; cases h; exact ⟨rfl, rfl⟩
  | cons g r ih =>
    intro ns h
    obtain ⟨n, ns', h1, h2, rfl⟩ := mapM_ok_cons _ _ _ _ h
    obtain ⟨k1, l, t, rfl, k2⟩ := parseNode_ok pf g n h1
    obtain ⟨e1, e2⟩ := ih ns' h2
    exact ⟨by rw [List.map_cons, k1, e1], by rw [List.map_cons, List.map_cons, e2, k2]; rfl⟩

/-- the artificial root -/
def rootNode : PNode F := (-1, {})

/-- a failed loop fails with an unreadable number -/
theorem buildLoop_no_panic (groups : List (List Str)) (hg : ∀ g ∈ groups, g ≠ []) :
    ∀ (s : List (Frame (PNode F))) (latest : PNode F) (earlier : List (PNode F)),
    RootBelow rootNode (latest :: earlier) →
    s.map (·.1) = latest :: ancestorsOf (·.1) latest.1 earlier →
    buildLoop pf groups s ≠ .error .panic := by
  induction groups with
  | nil => intro s _ _ _ _ h; cases h
  | cons g r ih =>
    intro s latest earlier hroot hs h
    rw [buildLoop] at h
    cases hp : parseNode pf g with
    | error e =>
      rw [hp] at h
      cases h
      exact parseNode_error pf g (hg g (by simp)) _ hp rfl
    | ok n =>
      obtain ⟨_, l, t, _, hn⟩ := parseNode_ok pf g n hp
      have hn0 : 0 ≤ n.1 := by rw [hn]; omega
      obtain ⟨pre, e, hr, hpre⟩ := hroot
      have hmem : rootNode ∈ latest :: ancestorsOf (·.1) latest.1 earlier := by
        cases pre with
        | nil => simp at e; rw [e.1]; simp
        | cons x pre =>
          simp only [List.cons_append, List.cons.injEq] at e
          rw [e.2]
          exact List.mem_cons_of_mem _ (root_mem rootNode pre latest.1 hr
            (by rw [e.1]; exact hpre x (by simp)) (fun y hy => hpre y (by simp [hy])))
      obtain ⟨s', k1, k2, _⟩ := attach_spec (·.1) s n latest earlier hs
        ⟨rootNode, hmem, by rw [hr]; omega⟩
      rw [hp] at h
      simp only [k1] at h
      exact ih (fun g hg' => hg g (by simp [hg'])) s' n (latest :: earlier)
        ⟨n :: pre, by rw [e]; rfl, hr, by
          intro x hx
          rcases List.mem_cons.mp hx with rfl | hx
          · exact hn0
          · exact hpre x hx⟩ k2 h

/-! ### C23 -/

/-- C23: building succeeds exactly when every node's lines can be read, and then every node hangs
below the nearest earlier node that is less indented (the chain of ancestors goes on like that up to
the root); the nodes in textual order are the groups of lines in order. -/
theorem C23_tree_follows_indentation (lines : List Str) (t : Tree (PNode F)) (summary : Str)
    (h : collect pf lines = .ok (t, summary)) :
    ∃ ns : List (PNode F), (groupToPlanLineNodes lines).1.mapM (parseNode pf) = .ok ns ∧
      t.val = rootNode ∧
      withPathL [rootNode] t.children = expectedPaths (·.1) [rootNode] ns ∧
      ns.map (fun n => n.2.lines) = (groupToPlanLineNodes lines).1 ∧
      ns.map (fun n => n.1) =
        (groupToPlanLineNodes lines).1.map (fun g => (indentOf (g.headD []) : Int)) ∧
      summary = (groupToPlanLineNodes lines).2 := by
  unfold collect at h
  simp only at h
  cases hb : buildLoop pf (groupToPlanLineNodes lines).1 [((-1, {}), [])] with
  | error e => rw [hb] at h; cases h
  | ok s =>
    simp only [hb] at h
    obtain ⟨ns, hns⟩ := buildLoop_error pf _ _ ⟨s, hb⟩
    obtain ⟨m1, m2⟩ := mapM_lines pf _ ns hns
    have hpos : ∀ n ∈ ns, 0 ≤ n.1 := by
      intro n hn
      have : n.1 ∈ ns.map (fun n => n.1) := List.mem_map.mpr ⟨n, hn, rfl⟩
      rw [m2] at this
      obtain ⟨g, _, hg⟩ := List.mem_map.mp this
      rw [← hg]; exact Int.natCast_nonneg _
    obtain ⟨s', k1, k2, k3⟩ := buildLoop_spec pf _ ns [(rootNode, [])] rootNode rootNode [] hns hpos
      ⟨[], rfl, rfl, by simp⟩ rfl
    rw [show [((-1, {}), [])] = [((rootNode : PNode F), ([] : List (Tree (PNode F))))] from rfl, k1]
      at hb
    rw [Except.ok.injEq] at hb
    subst hb
    cases hbot : bottom s' with
    | none => simp only [hbot] at h; cases h
    | some t' =>
      simp only [hbot] at h
      cases h
      have := bottom_stackPath s' t hbot
      rw [k3] at this
      obtain ⟨v, cs⟩ := t
      simp only [Tree.withPath, stackPath, List.map_nil, withPathL, List.nil_append,
        List.cons_append, List.cons.injEq, Prod.mk.injEq, true_and] at this
      obtain ⟨rfl, h2⟩ := this
      exact ⟨ns, hns, rfl, h2, m1, m2, rfl⟩

/-- C23: it succeeds whenever every node can be read. -/
theorem C23_ok (lines : List Str) (ns : List (PNode F))
    (h : (groupToPlanLineNodes lines).1.mapM (parseNode pf) = .ok ns) :
    ∃ t, collect pf lines = .ok (t, (groupToPlanLineNodes lines).2) := by
  obtain ⟨m1, m2⟩ := mapM_lines pf _ ns h
  have hpos : ∀ n ∈ ns, 0 ≤ n.1 := by
    intro n hn
    have : n.1 ∈ ns.map (fun n => n.1) := List.mem_map.mpr ⟨n, hn, rfl⟩
    rw [m2] at this
    obtain ⟨g, _, hg⟩ := List.mem_map.mp this
    rw [← hg]; exact Int.natCast_nonneg _
  obtain ⟨s', k1, k2, k3⟩ := buildLoop_spec pf _ ns [(rootNode, [])] rootNode rootNode [] h hpos
    ⟨[], rfl, rfl, by simp⟩ rfl
  obtain ⟨t, ht⟩ := bottom_isSome s' k2
  refine ⟨t, ?_⟩
  unfold collect
  simp only
  rw [show [((-1, {}), [])] = [((rootNode : PNode F), ([] : List (Tree (PNode F))))] from rfl, k1]
  simp only [ht]

/-- C23: every child is indented more than its parent. -/
theorem C23_children_deeper (earlier : List (PNode F)) (ns : List (PNode F)) :
    ∀ p ∈ expectedPaths (·.1) earlier ns, ∀ a ∈ p.1, a.1 < p.2.1 := by
  have key : ∀ (l : List (PNode F)) (n : Int), ∀ a ∈ ancestorsOf (·.1) n l, a.1 < n := by
    intro l
    induction l with
    | nil => intro n a ha; cases ha
    | cons x r ih =>
      intro n a ha
      rw [ancestorsOf] at ha
      split at ha
      · rename_i hx
        rcases List.mem_cons.mp ha with rfl | ha
        · exact hx
        · have := ih _ a ha; omega
      · exact ih n a ha
  induction ns generalizing earlier with
  | nil => intro p hp; cases hp
  | cons n r ih =>
    intro p hp
    rcases List.mem_cons.mp hp with rfl | hp
    · exact key _ _
    · exact ih _ p hp

/-- C23: no input makes the builder panic. -/
theorem C23_never_panics (lines : List Str) : collect pf lines ≠ .error .panic := by
  intro h
  have hne : ∀ g ∈ (groupToPlanLineNodes lines).1, g ≠ [] := by
    unfold groupToPlanLineNodes
    exact groupLoop_nonempty 0 _ lines (by simp)
  unfold collect at h
  simp only at h
  cases hb : buildLoop pf (groupToPlanLineNodes lines).1 [((-1, {}), [])] with
  | error e =>
    rw [hb] at h
    cases h
    exact buildLoop_no_panic pf _ hne _ rootNode [] ⟨[], rfl, rfl, by simp⟩ rfl hb
  | ok s =>
    obtain ⟨ns, hns⟩ := buildLoop_error pf _ _ ⟨s, hb⟩
    obtain ⟨t, ht⟩ := C23_ok pf lines ns hns
    unfold collect at ht
    simp only at ht
    rw [ht] at h
    cases h

/-- C24: with a summary, every line before it is in exactly one node of the tree, in textual order,
and the summary text is the rest. -/
theorem C24_tree_keeps_all_lines_partial (pre : List Str) (s : Str) (post : List Str)
    (t : Tree (PNode F)) (summary : Str) (hne : pre ≠ [])
    (hpre : ∀ l ∈ pre, ¬ SummaryRow l) (hs : SummaryRow s)
    (h : collect pf (pre ++ s :: post) = .ok (t, summary)) :
    (preL t.children).flatMap (fun n => n.2.lines) = pre ∧ summary = joinLines (s :: post) := by
  obtain ⟨ns, _, _, h3, h4, _, h6⟩ := C23_tree_follows_indentation pf _ t summary h
  obtain ⟨k1, k2⟩ := C24_no_line_lost_partial pre s post hne hpre hs
  refine ⟨?_, by rw [h6, k2]⟩
  have e : preL t.children = ns := by
    rw [← withPathL_snd [rootNode], h3]
    have : ∀ (l : List (PNode F)) (earlier : List (PNode F)),
        (expectedPaths (·.1) earlier l).map (·.2) = l := by
      intro l
      induction l with
      | nil => intro e; rfl
      | cons n r ih => intro e; rw [expectedPaths, List.map_cons, ih]
    exact this ns _
  rw [e, List.flatMap_def, h4, k1]

end

/-! ### Concrete plans -/

/-- A plan with a join, an init plan and a summary. -/
def exPlan : List Str := [
  "Hash Join  (cost=1.00..2.00 rows=3 width=4) (actual time=0.1..0.2 rows=3 loops=1)".toList,
  "  Hash Cond: (a.id = b.id)".toList,
  "  InitPlan 1 (returns $0)".toList,
  "    ->  Result  (cost=0.00..0.01 rows=1 width=4)".toList,
  "  ->  Seq Scan on a  (cost=1.00..2.00 rows=3 width=4)".toList,
  "  ->  Hash  (cost=1.00..2.00 rows=3 width=4)".toList,
  "        Buckets: 1024".toList,
  "        ->  Seq Scan on b  (cost=1.00..2.00 rows=3 width=4)".toList,
  "Planning Time: 0.1 ms".toList,
  "Execution Time: 0.2 ms".toList]

/-- the groups with their tables, and the summary -/
example : (groupToPlanLineNodes exPlan).1.map (fun g => (g.length, extractTable g)) =
    [(2, []), (2, []), (1, ['a']), (2, []), (1, ['b'])] := by decide +kernel

/-- shape (depths and indentation) of the built tree -/
example : (match collect (F := Unit) (fun _ => some ()) exPlan with
    | .ok (t, _) => some ((t.withDepth 0).map (fun p => (p.1, p.2.1)))
    | .error _ => none) =
    some [(0, -1), (1, 0), (2, 2), (2, 2), (2, 2), (3, 8)] := by decide +kernel

/-- the hypotheses of the C24 theorems on this plan -/
example : (∀ l ∈ exPlan.take 8, ¬ SummaryRow l) ∧ SummaryRow "Planning Time: 0.1 ms".toList := by
  simp only [← isSummary_iff]
  decide +kernel

/-- C24 fails without a summary line: a plan printed with `SUMMARY OFF` loses its last node; a
one-line plan has no node at all. -/
theorem C24_fails_without_summary :
    ∃ line : Str, (match collect (F := Unit) (fun _ => some ()) [line] with
      | .ok (t, summary) => some (t.children.length, summary)
      | .error _ => none) = some (0, []) ∧ extractTable [line] = "users".toList :=
  ⟨"Seq Scan on users  (cost=0.00..1.00 rows=3 width=4)".toList, by decide +kernel⟩

end Verif.PgPlan
