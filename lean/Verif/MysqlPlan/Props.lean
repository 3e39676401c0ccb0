import Mathlib.Data.List.Basic
import Verif.Regex.Lemmas
import Verif.MysqlPlan.Spec
/-!
# C21, C22: the MySQL plan tree
-/
namespace Verif.MysqlPlan
open Verif.Regex Verif.Lib

/-! ## Lemmas -/

theorem nestSize_eq (line : Str) : nestSize line = level line := by
  have h : ∀ r : Str, run prefixIndentReg ⟨0, r, []⟩ some =
      some ⟨(r.takeWhile isSpc).length, r.dropWhile isSpc,
        [(0, r.take (r.length - (r.dropWhile isSpc).length))]⟩ := by
    intro r
    simp only [prefixIndentReg, run_grp, run_seq, run_bos, if_true, run_star_greedy_cls]
    rw [greedyScan_total _ _ _ (by intro s; rfl)]
    simp
  have h2 : find prefixIndentReg line = run prefixIndentReg ⟨0, line, []⟩ some := by
    cases line with
    | nil => rfl
    | cons c cs => simp only [find, findFrom, h]
  have h3 : line.take (line.length - (line.dropWhile isSpc).length) = line.takeWhile isSpc := by
    have e : line = line.takeWhile isSpc ++ line.dropWhile isSpc := by simp
    have hl : line.length - (line.dropWhile isSpc).length = (line.takeWhile isSpc).length := by
      have := congrArg List.length e
      rw [List.length_append] at this; omega
    rw [hl]
    exact (List.prefix_iff_eq_take.mp (List.takeWhile_prefix _)).symm
  rw [nestSize, h2, h, level]
  simp [St.cap, h3]

section
variable {F : Type} (pf : Str → Option F)

theorem bind_error {ε α β : Type} {x : Except ε α} {f : α → Except ε β} {e : ε}
    (h : (x >>= f) = .error e) : x = .error e ∨ ∃ a, x = .ok a ∧ f a = .error e := by
  cases x with
  | error e' => left; simpa [bind, Except.bind] using h
  | ok a => right; exact ⟨a, rfl, h⟩

theorem bind_ok {ε α β : Type} {x : Except ε α} {f : α → Except ε β} {b : β}
    (h : (x >>= f) = .ok b) : ∃ a, x = .ok a ∧ f a = .ok b := by
  cases x with
  | error e' => cases h
  | ok a => exact ⟨a, rfl, h⟩

theorem addEstimation_text (line : Str) (l l' : Line F) (h : addEstimation pf line l = .ok l') :
    l'.text = l.text := by
  unfold addEstimation at h
  split at h
  · cases h; rfl
  · obtain ⟨l1, h1, h⟩ := bind_ok h
    have e1 : l1.text = l.text := by
      unfold addCost at h1
      split at h1
      · obtain ⟨_, _, h1⟩ := bind_ok h1; cases h1; rfl
      · obtain ⟨_, _, h1⟩ := bind_ok h1
        obtain ⟨_, _, h1⟩ := bind_ok h1
        cases h1; rfl
    unfold addRows at h
    split at h
    · obtain ⟨_, _, h⟩ := bind_ok h; cases h; exact e1
    · cases h; exact e1

theorem addActual_text (line : Str) (l l' : Line F) (h : addActual pf line l = .ok l') :
    l'.text = l.text := by
  unfold addActual at h
  split at h
  · cases h; rfl
  · obtain ⟨_, _, h⟩ := bind_ok h
    obtain ⟨_, _, h⟩ := bind_ok h
    obtain ⟨_, _, h⟩ := bind_ok h
    obtain ⟨_, _, h⟩ := bind_ok h
    cases h; rfl

theorem parseLine_ok (line : Str) (n : Nat) (l : Line F) (h : parseLine pf line = .ok (n, l)) :
    n = level line ∧ l.text = line := by
  unfold parseLine at h
  obtain ⟨l1, h1, h⟩ := bind_ok h
  obtain ⟨l2, h2, h⟩ := bind_ok h
  cases h
  exact ⟨nestSize_eq line, by rw [addActual_text pf line l1 _ h2, addEstimation_text pf line _ l1 h1]⟩

end

section
variable {α : Type}

theorem popTo_spec (nest : Nat) : ∀ (n : Nat) (s : List (Frame α)), s.length = n →
    nest + 1 ≤ s.length →
    (popTo nest s).length = nest + 1 ∧ stackPre (popTo nest s) = stackPre s := by
  intro n
  induction n with
  | zero => intro s h1 h2; omega
  | succ n ih =>
    intro s h1 h2
    match s, h1, h2 with
    | [(a, cs)], h1, h2 =>
      have : nest = 0 := by simp at h2; exact h2
      rw [popTo]
      · exact ⟨by simp [this], rfl⟩
      · intro a b c d e h; cases h
    | (a, cs) :: (b, ds) :: r, h1, h2 =>
      rw [popTo]
      by_cases h : nest + 1 < r.length + 2
      · rw [if_pos h]
        have := ih ((b, ds ++ [.node a cs]) :: r) (by simpa using h1) (by simp; omega)
        exact ⟨this.1, by rw [this.2, stackPre_pop]⟩
      · rw [if_neg h]
        exact ⟨by simp at h2 ⊢; omega, rfl⟩

theorem pop_spec (s : List (Frame α)) (h : 1 < s.length) :
    (pop s).length + 1 = s.length ∧ stackPre (pop s) = stackPre s := by
  match s, h with
  | (a, cs) :: (b, ds) :: r, _ => exact ⟨by simp [pop], by rw [pop, stackPre_pop]⟩

/-- One line attached. -/
theorem attach_spec (s : List (Frame α)) (nest : Nat) (a : α) (hs : s ≠ []) :
    (nest < s.length → ∃ s', attach s nest a = .ok s' ∧ s'.length = nest + 2 ∧
      stackPre s' = stackPre s ++ [(nest + 1, a)]) ∧
    (s.length ≤ nest → attach s nest a = .error .invalid) := by
  have hpos : 0 < s.length := by
    rcases s with _ | ⟨x, xs⟩
    · exact absurd rfl hs
    · simp
  constructor
  · intro h
    have fin : ∀ s' : List (Frame α), s'.length = nest + 1 → stackPre s' = stackPre s →
        ∃ s'', push a s' = .ok s'' ∧ s''.length = nest + 2 ∧
          stackPre s'' = stackPre s ++ [(nest + 1, a)] := by
      intro s' h1 h2
      cases s' with
      | nil => simp at h1
      | cons x r =>
        refine ⟨(a, []) :: x :: r, rfl, by simp at h1 ⊢; omega, ?_⟩
        rw [stackPre, h1, h2]; simp [withDepthL]
    unfold attach
    by_cases h1 : s.length = nest + 1
    · rw [if_pos h1]
      exact fin s h1 rfl
    · have h2 : nest + 1 < s.length := by omega
      rw [if_neg h1, if_pos h2]
      obtain ⟨p1, p2⟩ := pop_spec s (by omega)
      obtain ⟨q1, q2⟩ := popTo_spec nest _ (pop s) rfl (by omega)
      exact fin _ q1 (q2.trans p2)
  · intro h
    unfold attach
    have h1 : ¬ s.length = nest + 1 := by omega
    have h2 : ¬ nest + 1 < s.length := by omega
    simp only [h1, if_false, h2]

end

/-- Levels allowed after a line of level `m - 1`. -/
def LadderFrom : Nat → List Nat → Prop
  | _, [] => True
  | m, n :: r => n ≤ m ∧ LadderFrom (n + 1) r

theorem ladder_iff (m : Nat) (ls : List Nat) : LadderFrom m ls ↔
    (∀ n ∈ ls.head?, n ≤ m) ∧ ∀ pre a b post, ls = pre ++ a :: b :: post → b ≤ a + 1 := by
  induction ls generalizing m with
  | nil => simp [LadderFrom]
  | cons n r ih =>
    rw [LadderFrom, ih]
    constructor
    · rintro ⟨h1, h2, h3⟩
      refine ⟨by simpa using h1, ?_⟩
      intro pre a b post h
      cases pre with
      | nil =>
        simp only [List.nil_append, List.cons.injEq] at h
        have := h2 b (by rw [h.2]; simp)
        rw [← h.1]; exact this
      | cons x pre =>
        simp only [List.cons_append, List.cons.injEq] at h
        exact h3 pre a b post h.2
    · rintro ⟨h1, h2⟩
      refine ⟨by simpa using h1, ?_, ?_⟩
      · intro b hb
        cases r with
        | nil => simp at hb
        | cons b' r =>
          simp only [List.head?_cons, Option.mem_def, Option.some.injEq] at hb
          rw [← hb]
          exact h2 [] n b' r rfl
      · intro pre a b post h
        exact h2 (n :: pre) a b post (by rw [h]; rfl)

theorem noJump_iff (ls : List Nat) : NoJump ls ↔ LadderFrom 0 ls := by
  rw [ladder_iff, NoJump]; simp

theorem ladder_cons {m n : Nat} {r : List Nat} (h : n ≤ m) :
    LadderFrom m (n :: r) ↔ LadderFrom (n + 1) r := by
  rw [LadderFrom]; exact ⟨fun h => h.2, fun h' => ⟨h, h'⟩⟩

section
variable {F : Type} (pf : Str → Option F)

/-- Success of the loop. -/
theorem buildLoop_ok (lines : List Str) : ∀ (s : List (Frame (Line F))), s ≠ [] →
    (∀ line ∈ lines, line ≠ [] → Readable pf line) →
    LadderFrom (s.length - 1) ((lines.filter (· ≠ [])).map level) →
    ∃ s', buildLoop pf lines s = .ok s' ∧ s' ≠ [] ∧
      (stackPre s').map (fun p => (p.1, p.2.text)) =
        (stackPre s).map (fun p => (p.1, p.2.text)) ++
          (lines.filter (· ≠ [])).map (fun l => (level l + 1, l)) := by
  induction lines with
  | nil => intro s hs _ _; exact ⟨s, rfl, hs, by simp⟩
  | cons line r ih =>
    intro s hs hr hl
    by_cases hline : line = []
    · subst hline
      simpa [buildLoop] using ih s hs (fun l h => hr l (by simp [h])) (by simpa using hl)
    · obtain ⟨⟨n, l⟩, hp⟩ := hr line (by simp) hline
      obtain ⟨hn, ht⟩ := parseLine_ok pf line n l hp
      have hf : (line :: r).filter (· ≠ []) = line :: r.filter (· ≠ []) := by simp [hline]
      rw [hf] at hl ⊢
      rw [List.map_cons, LadderFrom] at hl
      have hpos : 0 < s.length := List.length_pos_iff.mpr hs
      obtain ⟨s', h1, h2, h3⟩ := (attach_spec s n l hs).1 (by rw [hn]; omega)
      have hs' : s' ≠ [] := by intro e; rw [e] at h2; simp at h2
      obtain ⟨s'', k1, k2, k3⟩ := ih s' hs' (fun l h => hr l (by simp [h]))
        (by rw [h2, hn]; exact hl.2)
      refine ⟨s'', ?_, k2, ?_⟩
      · rw [buildLoop, if_neg hline, hp]; simp only [h1]; exact k1
      · rw [k3, h3]; simp [ht, hn]

/-- What success of the loop says. -/
theorem buildLoop_inv : ∀ (lines : List Str) (s0 s : List (Frame (Line F))), s0 ≠ [] →
    buildLoop pf lines s0 = .ok s → (∀ line ∈ lines, line ≠ [] → Readable pf line) ∧
      LadderFrom (s0.length - 1) ((lines.filter (· ≠ [])).map level) := by
  intro lines
  induction lines with
  | nil => intro s0 s _ _; exact ⟨by simp, by simp [LadderFrom]⟩
  | cons line r ih =>
    intro s0 s hs0 hb
    by_cases hline : line = []
    · subst hline
      rw [buildLoop, if_pos rfl] at hb
      obtain ⟨h1, h2⟩ := ih s0 s hs0 hb
      refine ⟨?_, by simpa using h2⟩
      intro x hx hx0
      rcases List.mem_cons.mp hx with rfl | hx
      · exact absurd rfl hx0
      · exact h1 x hx hx0
    · rw [buildLoop, if_neg hline] at hb
      cases hp : parseLine pf line with
      | error e => rw [hp] at hb; simp at hb
      | ok v =>
        obtain ⟨n, l⟩ := v
        rw [hp] at hb
        obtain ⟨hn, _⟩ := parseLine_ok pf line n l hp
        by_cases hlt : n < s0.length
        · obtain ⟨s', h1, h2, _⟩ := (attach_spec s0 n l hs0).1 hlt
          simp only [h1] at hb
          have hs' : s' ≠ [] := by intro e; rw [e] at h2; simp at h2
          obtain ⟨k1, k2⟩ := ih s' s hs' hb
          constructor
          · intro x hx hx0
            rcases List.mem_cons.mp hx with rfl | hx
            · exact ⟨_, hp⟩
            · exact k1 x hx hx0
          · have : (line :: r).filter (· ≠ []) = line :: r.filter (· ≠ []) := by simp [hline]
            rw [this, List.map_cons, LadderFrom]
            refine ⟨by omega, ?_⟩
            rw [← hn, show n + 1 = s'.length - 1 by omega]; exact k2
        · simp only [(attach_spec s0 n l hs0).2 (by omega)] at hb
          cases hb

/-- Failure of the loop: the first offending line. -/
theorem buildLoop_error (lines : List Str) : ∀ (s : List (Frame (Line F))) (e : Err), s ≠ [] →
    buildLoop pf lines s = .error e →
    ∃ pre line post, lines = pre ++ line :: post ∧ line ≠ [] ∧
      (∀ x ∈ pre, x ≠ [] → Readable pf x) ∧
      LadderFrom (s.length - 1) ((pre.filter (· ≠ [])).map level) ∧
      (parseLine pf line = .error e ∨
        (Readable pf line ∧
          ¬ LadderFrom (s.length - 1) (((pre ++ [line]).filter (· ≠ [])).map level) ∧
          e = .invalid)) := by
  induction lines with
  | nil => intro s e _ h; simp [buildLoop] at h
  | cons line r ih =>
    intro s e hs h
    by_cases hline : line = []
    · subst hline
      rw [buildLoop, if_pos rfl] at h
      obtain ⟨pre, l, post, h1, h2, h3, h4, h5⟩ := ih s e hs h
      refine ⟨[] :: pre, l, post, by rw [h1]; rfl, h2, ?_, by simpa using h4, by simpa using h5⟩
      intro x hx hx0
      rcases List.mem_cons.mp hx with rfl | hx
      · exact absurd rfl hx0
      · exact h3 x hx hx0
    · rw [buildLoop, if_neg hline] at h
      cases hp : parseLine pf line with
      | error e' =>
        rw [hp] at h
        simp only [Except.error.injEq] at h
        subst h
        exact ⟨[], line, r, rfl, hline, by simp, by simp [LadderFrom], .inl hp⟩
      | ok v =>
        obtain ⟨n, l⟩ := v
        obtain ⟨hn, ht⟩ := parseLine_ok pf line n l hp
        rw [hp] at h
        have hpos : 0 < s.length := List.length_pos_iff.mpr hs
        by_cases hlt : n < s.length
        · obtain ⟨s', h1, h2, _⟩ := (attach_spec s n l hs).1 hlt
          have hs' : s' ≠ [] := by intro e; rw [e] at h2; simp at h2
          simp only [h1] at h
          obtain ⟨pre, l', post, k1, k2, k3, k4, k5⟩ := ih s' e hs' h
          have hle : level line ≤ s.length - 1 := by omega
          have e2 : s'.length - 1 = level line + 1 := by omega
          have lad : ∀ q : List Str,
              LadderFrom (s.length - 1) (((line :: q).filter (· ≠ [])).map level) ↔
                LadderFrom (s'.length - 1) ((q.filter (· ≠ [])).map level) := by
            intro q
            have : (line :: q).filter (· ≠ []) = line :: q.filter (· ≠ []) := by simp [hline]
            rw [this, List.map_cons, ladder_cons hle, e2]
          refine ⟨line :: pre, l', post, by rw [k1]; rfl, k2, ?_, (lad pre).mpr k4, ?_⟩
          · intro x hx hx0
            rcases List.mem_cons.mp hx with rfl | hx
            · exact ⟨_, hp⟩
            · exact k3 x hx hx0
          · rw [List.cons_append, lad]; exact k5
        · simp only [(attach_spec s n l hs).2 (by omega), Except.error.injEq] at h
          refine ⟨[], line, r, rfl, hline, by simp, by simp [LadderFrom], .inr ⟨⟨_, hp⟩, ?_, h.symm⟩⟩
          have : ([] ++ [line]).filter (· ≠ []) = [line] := by simp [hline]
          rw [this, List.map_cons, LadderFrom]
          intro hh; omega

end

theorem joinLines_split (ls : List Str) (h : ls ≠ []) (hn : ∀ l ∈ ls, '\n' ∉ l) :
    splitLines (joinLines ls) = ls := by
  have one : ∀ (l : Str), '\n' ∉ l → splitLines l = [l] := by
    intro l
    induction l with
    | nil => intro _; rfl
    | cons c cs ih =>
      intro h
      simp only [List.mem_cons, not_or] at h
      rw [splitLines, if_neg (fun e => h.1 e.symm), ih h.2]
  have app : ∀ (l r : Str), '\n' ∉ l → splitLines (l ++ '\n' :: r) = l :: splitLines r := by
    intro l r
    induction l with
    | nil => intro _; simp [splitLines]
    | cons c cs ih =>
      intro h
      simp only [List.mem_cons, not_or] at h
      rw [List.cons_append, splitLines, if_neg (fun e => h.1 e.symm), ih h.2]
  induction ls with
  | nil => exact absurd rfl h
  | cons l r ih =>
    cases r with
    | nil => exact one l (hn l (by simp))
    | cons l2 r =>
      rw [joinLines, app l _ (hn l (by simp)), ih (by simp) (fun x hx => hn x (by simp [hx]))]
      simp

/-! ## Properties -/

section
variable {F : Type} (pf : Str → Option F)

/-- C21: in the tree below the artificial root, the plan lines appear in textual order, each with
its full text, at the depth of its indentation. -/
theorem C21_textual_order_and_depth (text : Str) (t : Tree (Line F))
    (h : buildExplainNode pf text = .ok t) :
    (withDepthL 0 t.children).map (fun p => (p.1, p.2.text)) =
      (planLines text).map (fun l => (level l, l)) := by
  unfold buildExplainNode at h
  cases hb : buildLoop pf (splitLines text) [({}, [])] with
  | error e => rw [hb] at h; simp at h
  | ok s =>
    rw [hb] at h
    have all : (∀ line ∈ splitLines text, line ≠ [] → Readable pf line) ∧
        LadderFrom 0 (((splitLines text).filter (· ≠ [])).map level) := by
      exact buildLoop_inv pf _ _ s (by simp) hb
    obtain ⟨s', k1, k2, k3⟩ := buildLoop_ok pf (splitLines text) [({}, [])] (by simp) all.1 all.2
    have es : s' = s := by rw [k1] at hb; exact Except.ok.inj hb
    subst es
    cases hbot : bottom s' with
    | none => simp only [hbot] at h; cases h
    | some t' =>
      simp only [hbot] at h
      have et : t' = t := Except.ok.inj h
      subst et
      have hw := bottom_stackPre s' t' hbot
      rw [← hw] at k3
      obtain ⟨a, cs⟩ := t'
      simp only [Tree.withDepth, stackPre, List.map_cons, List.length_nil, withDepthL,
        List.nil_append, List.map_nil, List.cons_append, List.cons.injEq] at k3
      have hsh := withDepthL_shift 0 1 cs
      rw [hsh] at k3
      simp only [List.map_map] at k3
      have := congrArg (List.map (fun p : Nat × Str => (p.1 - 1, p.2))) k3.2
      simp only [List.map_map] at this
      simpa [Tree.children, planLines, Function.comp_def] using this

/-- C22: the builder succeeds exactly when every line's numbers can be read and no line is indented
more than one level deeper than the line before it (the first not at all). -/
theorem C22_ok_iff (text : Str) : (∃ t, buildExplainNode pf text = .ok t) ↔
    (∀ line ∈ planLines text, Readable pf line) ∧ NoJump ((planLines text).map level) := by
  have mem : (∀ line ∈ planLines text, Readable pf line) ↔
      ∀ line ∈ splitLines text, line ≠ [] → Readable pf line := by
    simp [planLines]
  rw [mem, noJump_iff]
  constructor
  · rintro ⟨t, h⟩
    by_contra hc
    unfold buildExplainNode at h
    cases hb : buildLoop pf (splitLines text) [({}, [])] with
    | error e => rw [hb] at h; simp at h
    | ok s =>
      apply hc
      exact buildLoop_inv pf _ _ s (by simp) hb
  · rintro ⟨h1, h2⟩
    obtain ⟨s', k1, k2, _⟩ := buildLoop_ok pf (splitLines text) [({}, [])] (by simp) h1 h2
    obtain ⟨t, ht⟩ := bottom_isSome s' k2
    exact ⟨t, by unfold buildExplainNode; rw [k1]; simp only [ht]⟩

/-- C22: when the builder fails, the failure is that of the first offending line: the number that
cannot be read, or an indentation that jumps. -/
theorem C22_error (text : Str) (e : Err) (h : buildExplainNode pf text = .error e) :
    ∃ pre line post, planLines text = pre ++ line :: post ∧
      (∀ x ∈ pre, Readable pf x) ∧ NoJump (pre.map level) ∧
      (parseLine pf line = .error e ∨
        (Readable pf line ∧ ¬ NoJump ((pre ++ [line]).map level) ∧ e = .invalid)) := by
  unfold buildExplainNode at h
  cases hb : buildLoop pf (splitLines text) [({}, [])] with
  | error e' =>
    rw [hb] at h
    simp only [Except.error.injEq] at h
    subst h
    obtain ⟨pre, line, post, h1, h2, h3, h4, h5⟩ := buildLoop_error pf _ _ e' (by simp) hb
    refine ⟨pre.filter (· ≠ []), line, post.filter (· ≠ []), ?_, ?_, (noJump_iff _).mpr h4, ?_⟩
    · rw [planLines, h1]; simp [h2]
    · intro x hx; simp at hx; exact h3 x hx.1 hx.2
    · rcases h5 with h5 | ⟨h5, h6, h7⟩
      · exact .inl h5
      · refine .inr ⟨h5, ?_, h7⟩
        rw [noJump_iff]
        have : (pre ++ [line]).filter (· ≠ []) = pre.filter (· ≠ []) ++ [line] := by simp [h2]
        rw [this] at h6; exact h6
  | ok s =>
    rw [hb] at h
    exfalso
    have : ∀ (lines : List Str) (s0 s : List (Frame (Line F))), s0 ≠ [] →
        buildLoop pf lines s0 = .ok s → s ≠ [] := by
      intro lines
      induction lines with
      | nil => intro s0 s h0 h; simp [buildLoop] at h; rw [← h]; exact h0
      | cons line r ih =>
        intro s0 s h0 h
        rw [buildLoop] at h
        by_cases hline : line = []
        · rw [if_pos hline] at h; exact ih s0 s h0 h
        · rw [if_neg hline] at h
          cases hp : parseLine pf line with
          | error e => rw [hp] at h; simp at h
          | ok v =>
            rw [hp] at h
            by_cases hlt : v.1 < s0.length
            · obtain ⟨s', h1, h2, _⟩ := (attach_spec s0 v.1 v.2 h0).1 hlt
              simp only [h1] at h
              exact ih s' s (by intro e; rw [e] at h2; simp at h2) h
            · simp only [(attach_spec s0 v.1 v.2 h0).2 (by omega)] at h; cases h
    obtain ⟨t, ht⟩ := bottom_isSome s (this _ _ s (by simp) hb)
    simp only [ht] at h; cases h

theorem parseLine_error (line : Str) (e : Err) (h : parseLine pf line = .error e) :
    ∃ s, e = .number s := by
  have pfE : ∀ s e, parseFloat pf s = .error e → ∃ s, e = .number s := by
    intro s e h; unfold parseFloat at h; split at h
    · cases h
    · cases h; exact ⟨_, rfl⟩
  have piE : ∀ s e, parseInt s = .error e → ∃ s, e = .number s := by
    intro s e h; unfold parseInt at h; split at h
    · cases h
    · cases h; exact ⟨_, rfl⟩
  unfold parseLine at h
  rcases bind_error h with h | ⟨l1, _, h⟩
  · unfold addEstimation at h
    split at h
    · cases h
    · rcases bind_error h with h | ⟨l2, _, h⟩
      · unfold addCost at h
        split at h
        · rcases bind_error h with h | ⟨_, _, h⟩
          · exact pfE _ _ h
          · cases h
        · rcases bind_error h with h | ⟨_, _, h⟩
          · exact pfE _ _ h
          · rcases bind_error h with h | ⟨_, _, h⟩
            · exact pfE _ _ h
            · cases h
      · unfold addRows at h
        split at h
        · rcases bind_error h with h | ⟨_, _, h⟩
          · exact piE _ _ h
          · cases h
        · cases h
  · rcases bind_error h with h | ⟨l2, _, h⟩
    · unfold addActual at h
      split at h
      · cases h
      · rcases bind_error h with h | ⟨_, _, h⟩
        · exact pfE _ _ h
        · rcases bind_error h with h | ⟨_, _, h⟩
          · exact pfE _ _ h
          · rcases bind_error h with h | ⟨_, _, h⟩
            · exact piE _ _ h
            · rcases bind_error h with h | ⟨_, _, h⟩
              · exact piE _ _ h
              · cases h
    · cases h

/-- C22: whatever the text, building the tree never dereferences a nil node. -/
theorem C22_never_panics (text : Str) : buildExplainNode pf text ≠ .error .panic := by
  intro h
  obtain ⟨_, line, _, _, _, _, h⟩ := C22_error pf text _ h
  rcases h with h | ⟨_, _, h⟩
  · obtain ⟨s, h⟩ := parseLine_error pf line _ h; cases h
  · cases h

mutual
theorem ladder_withDepth {α : Type} (d : Nat) : ∀ (t : Tree α) (m : Nat) (r : List Nat), d ≤ m →
    (∀ m', d + 1 ≤ m' → LadderFrom m' r) →
    LadderFrom m ((t.withDepth d).map (·.1) ++ r)
  | .node a cs, m, r, hm, hr => by
    simp only [Tree.withDepth, List.map_cons, List.cons_append, LadderFrom]
    refine ⟨hm, ladder_withDepthL (d + 1) cs (d + 1) r (Nat.le_refl _) ?_⟩
    intro m' h; exact hr m' (by omega)
theorem ladder_withDepthL {α : Type} (d : Nat) : ∀ (f : List (Tree α)) (m : Nat) (r : List Nat),
    d ≤ m → (∀ m', d ≤ m' → LadderFrom m' r) →
    LadderFrom m ((withDepthL d f).map (·.1) ++ r)
  | [], m, r, hm, hr => by simpa [withDepthL] using hr m hm
  | t :: ts, m, r, hm, hr => by
    simp only [withDepthL, List.map_append, List.append_assoc]
    refine ladder_withDepth d t m _ hm ?_
    intro m' h
    exact ladder_withDepthL d ts m' r (by omega) hr
end

theorem level_indented (d : Nat) (b : Str) (h : Body b) : level (indented d b) = d := by
  obtain ⟨⟨c, cs, rfl, hc⟩, _⟩ := h
  have : (indented d (c :: cs)).takeWhile isSpc = List.replicate (4 * d) ' ' := by
    unfold indented
    generalize 4 * d = n
    induction n with
    | zero => simp [hc]
    | succ n ih =>
      rw [List.replicate_succ, List.cons_append, List.takeWhile_cons, ih]
      simp [show isSpc ' ' = true by decide]
  rw [level, this, List.length_replicate]; omega

theorem strip_indented (d : Nat) (b : Str) (h : Body b) : (indented d b).dropWhile isSpc = b := by
  obtain ⟨⟨c, cs, rfl, hc⟩, _⟩ := h
  unfold indented
  generalize 4 * d = n
  induction n with
  | zero => simp [hc]
  | succ n ih =>
    rw [List.replicate_succ, List.cons_append, List.dropWhile_cons, ih]
    simp [show isSpc ' ' = true by decide]

theorem planLines_print (f : List (Tree Str)) (hf : ∀ b ∈ preL f, Body b) :
    planLines (printPlan f) = (withDepthL 0 f).map (fun p => indented p.1 p.2) := by
  have hb : ∀ p ∈ withDepthL 0 f, Body p.2 := by
    intro p hp
    apply hf
    rw [← withDepthL_snd 0 f]
    exact List.mem_map.mpr ⟨p, hp, rfl⟩
  by_cases he : withDepthL 0 f = []
  · simp [printPlan, he, joinLines, planLines, splitLines]
  · rw [planLines, printPlan, joinLines_split]
    · rw [List.filter_eq_self]
      intro l hl
      obtain ⟨p, hp, rfl⟩ := List.mem_map.mp hl
      obtain ⟨⟨c, cs, h, _⟩, _⟩ := hb p hp
      simp [indented, h]
    · simpa using he
    · intro l hl
      obtain ⟨p, hp, rfl⟩ := List.mem_map.mp hl
      obtain ⟨_, h⟩ := hb p hp
      simp only [indented, List.mem_append, not_or]
      exact ⟨by simp [List.mem_replicate], h⟩

/-- C21: printing any plan with four spaces for each level and building the tree from the text gives
the plan back: same shape, and every node's text is its line. -/
theorem C21_print_build (f : List (Tree Str)) (hf : ∀ b ∈ preL f, Body b)
    (hr : ∀ line ∈ planLines (printPlan f), Readable pf line) :
    ∃ t, buildExplainNode pf (printPlan f) = .ok t ∧
      mapL (fun l => l.text.dropWhile isSpc) t.children = f := by
  have hb : ∀ p ∈ withDepthL 0 f, Body p.2 := by
    intro p hp
    apply hf
    rw [← withDepthL_snd 0 f]
    exact List.mem_map.mpr ⟨p, hp, rfl⟩
  have hlv : (planLines (printPlan f)).map level = (withDepthL 0 f).map (·.1) := by
    rw [planLines_print f hf, List.map_map]
    apply List.map_congr_left
    intro p hp
    exact level_indented p.1 p.2 (hb p hp)
  have hj : NoJump ((planLines (printPlan f)).map level) := by
    rw [hlv, noJump_iff]
    have := ladder_withDepthL 0 f 0 [] (Nat.le_refl _) (by intro _ _; trivial)
    simpa using this
  obtain ⟨t, ht⟩ := (C22_ok_iff pf _).mpr ⟨hr, hj⟩
  refine ⟨t, ht, ?_⟩
  apply withDepthL_inj 0
  rw [withDepthL_map]
  have h1 := C21_textual_order_and_depth pf _ t ht
  have h2 := congrArg (List.map (fun p : Nat × Str => (p.1, p.2.dropWhile isSpc))) h1
  simp only [List.map_map, Function.comp_def] at h2
  rw [h2, planLines_print f hf, List.map_map]
  conv_rhs => rw [← List.map_id (withDepthL 0 f)]
  apply List.map_congr_left
  intro p hp
  simp [level_indented p.1 p.2 (hb p hp), strip_indented p.1 p.2 (hb p hp)]

end

/-! ## Examples -/

/-- a plan with a join of two tables, the second filtered -/
def exPlan : List (Tree Str) :=
  [.node "-> Nested loop (cost=4.5 rows=2)".toList
    [.node "-> Table scan on a (actual time=0.1..0.2 rows=3 loops=1)".toList [],
     .node "-> Filter: (b.x = 1)".toList [.node "-> Index lookup on b".toList []]]]

/-- a decimal reader good enough for the example: it keeps the digits -/
def exFloat (s : Str) : Option (List Char) := some s

example : ∀ b ∈ preL exPlan, Body b := by
  intro b hb
  simp only [exPlan, preL, Tree.pre, List.append_nil, List.cons_append, List.nil_append,
    List.mem_cons, List.not_mem_nil, or_false] at hb
  rcases hb with rfl | rfl | rfl | rfl <;> exact ⟨⟨_, _, rfl, by decide⟩, by decide +kernel⟩

example : (match buildExplainNode exFloat (printPlan exPlan) with
    | .ok t => (withDepthL 0 t.children).map (fun p => (p.1, String.ofList p.2.tableName,
        p.2.actualLoopCount))
    | .error _ => []) =
      [(0, "", none), (1, "a", some 1), (1, "b", none), (2, "b", none)] := by decide +kernel

/-- the second line is two levels deeper than the first -/
example : (match buildExplainNode exFloat "-> a\n        -> b".toList with
    | .ok _ => none
    | .error e => some e) = some .invalid := by decide +kernel

end Verif.MysqlPlan
