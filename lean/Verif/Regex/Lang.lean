import Verif.Regex.Read
import Verif.Regex.Numbers
/-!
# What the matcher finds, without its order of search

`Step r s s'` says that `r` can take the matcher from `s` to `s'`, in any way; it knows nothing of
preferences or of backtracking.  The matcher of `Model.lean` finds a match exactly when there is one
(`run_sound`, `run_complete`), so statements about what an expression does *not* match can be read
off `Step`.
-/
namespace Verif.Regex

/-- Some number of consuming steps. -/
inductive Iter (M : St → St → Prop) : St → St → Prop
  | nil (s : St) : Iter M s s
  | cons {s s' s'' : St} : M s s' → s'.rest.length < s.rest.length → Iter M s' s'' → Iter M s s''

/-- `r` matches a beginning of the remaining text of `s`, leaving `s'`. -/
def Step : Re → St → St → Prop
  | .cls p, s, s' => ∃ c cs, s.rest = c :: cs ∧ p c = true ∧ s' = ⟨s.pos + 1, cs, s.caps⟩
  | .eps, s, s' => s' = s
  | .seq a b, s, s' => ∃ t, Step a s t ∧ Step b t s'
  | .alt a b, s, s' => Step a s s' ∨ Step b s s'
  | .star _ r, s, s' => Iter (Step r) s s'
  | .grp n r, s, s' => ∃ t, Step r s t ∧
      s' = ⟨t.pos, t.rest, (n, s.rest.take (s.rest.length - t.rest.length)) :: t.caps⟩
  | .bos, s, s' => s.pos = 0 ∧ s' = s
  | .eos, s, s' => s.rest = [] ∧ s' = s

theorem starN_sound (r : Re) (g : Bool)
    (ih : ∀ s k m, run r s k = some m → ∃ s', Step r s s' ∧ k s' = some m) :
    ∀ (n : Nat) (s : St) (k : St → Option St) (m : St), starN (run r) g n s k = some m →
      ∃ s', Iter (Step r) s s' ∧ k s' = some m := by
  intro n
  induction n with
  | zero => intro s k m h; exact ⟨s, .nil s, h⟩
  | succ n ihn =>
    intro s k m h
    have more : ∀ x, run r s (fun s' => if s'.rest.length < s.rest.length then
        starN (run r) g n s' k else none) = some x → ∃ s', Iter (Step r) s s' ∧ k s' = some x := by
      intro x hx
      obtain ⟨t, ht, hk⟩ := ih _ _ _ hx
      split at hk
      · rename_i hl
        obtain ⟨s', h1, h2⟩ := ihn _ _ _ hk
        exact ⟨s', .cons ht hl h1, h2⟩
      · cases hk
    rw [starN] at h
    simp only at h
    split at h
    · split at h
      · rename_i x hx
        cases h
        exact more _ hx
      · exact ⟨s, .nil s, h⟩
    · split at h
      · rename_i x hx
        cases h
        exact ⟨s, .nil s, hx⟩
      · exact more _ h

/-- What the matcher reports is a match. -/
theorem run_sound (r : Re) : ∀ (s : St) (k : St → Option St) (m : St), run r s k = some m →
    ∃ s', Step r s s' ∧ k s' = some m := by
  induction r with
  | cls p =>
    intro s k m h
    rw [run] at h
    split at h
    · rename_i c cs hs
      split at h
      · rename_i hp
        exact ⟨_, ⟨c, cs, hs, hp, rfl⟩, h⟩
      · cases h
    · cases h
  | eps => intro s k m h; exact ⟨s, rfl, h⟩
  | seq a b iha ihb =>
    intro s k m h
    obtain ⟨t, ht, h1⟩ := iha _ _ _ h
    obtain ⟨s', hs, h2⟩ := ihb _ _ _ h1
    exact ⟨s', ⟨t, ht, hs⟩, h2⟩
  | alt a b iha ihb =>
    intro s k m h
    rw [run] at h
    split at h
    · rename_i x hx
      cases h
      obtain ⟨s', h1, h2⟩ := iha _ _ _ hx
      exact ⟨s', .inl h1, h2⟩
    · obtain ⟨s', h1, h2⟩ := ihb _ _ _ h
      exact ⟨s', .inr h1, h2⟩
  | star g r ih =>
    intro s k m h
    rw [run] at h
    exact starN_sound r g ih _ _ _ _ h
  | grp n r ih =>
    intro s k m h
    obtain ⟨t, h1, h2⟩ := ih _ _ _ h
    exact ⟨_, ⟨t, h1, rfl⟩, h2⟩
  | bos =>
    intro s k m h
    rw [run] at h
    split at h
    · rename_i hp; exact ⟨s, ⟨hp, rfl⟩, h⟩
    · cases h
  | eos =>
    intro s k m h
    rw [run] at h
    split at h
    · rename_i hp; exact ⟨s, ⟨hp, rfl⟩, h⟩
    · cases h

theorem starN_complete (r : Re) (g : Bool)
    (ih : ∀ s s' k, Step r s s' → (k s').isSome → (run r s k).isSome) (s s' : St)
    (h : Iter (Step r) s s') : ∀ (n : Nat) (k : St → Option St), s.rest.length ≤ n →
      (k s').isSome → (starN (run r) g n s k).isSome := by
  induction h with
  | nil s =>
    intro n k hn hk
    cases n with
    | zero => exact hk
    | succ n =>
      rw [starN]
      simp only
      split
      · split
        · rfl
        · exact hk
      · cases hks : k s with
        | some x => rfl
        | none => rw [hks] at hk; cases hk
  | @cons s t s'' hst hl _ ihi =>
    intro n k hn hk
    cases n with
    | zero => omega
    | succ n =>
      have hm : (run r s (fun s' => if s'.rest.length < s.rest.length then
          starN (run r) g n s' k else none)).isSome := by
        apply ih s t _ hst
        simp only [hl, if_true]
        exact ihi n k (by omega) hk
      rw [starN]
      simp only
      split
      · split
        · rfl
        · rename_i hx; rw [hx] at hm; cases hm
      · split
        · rfl
        · exact hm

/-- Where there is a match the matcher finds one. -/
theorem run_complete (r : Re) : ∀ (s s' : St) (k : St → Option St), Step r s s' → (k s').isSome →
    (run r s k).isSome := by
  induction r with
  | cls p =>
    rintro s s' k ⟨c, cs, hs, hp, rfl⟩ hk
    rw [run, hs]
    simp only [hp, if_true]
    exact hk
  | eps => intro s s' k h hk; cases h; exact hk
  | seq a b iha ihb =>
    rintro s s' k ⟨t, h1, h2⟩ hk
    exact iha s t _ h1 (ihb t s' k h2 hk)
  | alt a b iha ihb =>
    intro s s' k h hk
    rw [run]
    split
    · rfl
    · rename_i hx
      rcases h with h | h
      · have := iha s s' k h hk
        rw [hx] at this; cases this
      · exact ihb s s' k h hk
  | star g r ih =>
    intro s s' k h hk
    rw [run]
    exact starN_complete r g ih s s' h _ k (Nat.le_refl _) hk
  | grp n r ih =>
    rintro s s' k ⟨t, h1, rfl⟩ hk
    exact ih s t _ h1 hk
  | bos => rintro s s' k ⟨h, rfl⟩ hk; rw [run, if_pos h]; exact hk
  | eos => rintro s s' k ⟨h, rfl⟩ hk; rw [run, if_pos h]; exact hk

theorem run_none_iff (r : Re) (s : St) : run r s some = none ↔ ∀ s', ¬ Step r s s' := by
  constructor
  · intro h s' hs
    have := run_complete r s s' some hs rfl
    rw [h] at this; cases this
  · intro h
    cases hr : run r s some with
    | none => rfl
    | some m =>
      obtain ⟨s', h1, _⟩ := run_sound r s some m hr
      exact absurd h1 (h s')

theorem findFrom_none_iff (r : Re) : ∀ (t : List Char) (pos : Nat), findFrom r pos t = none ↔
    ∀ a b s', t = a ++ b → ¬ Step r ⟨pos + a.length, b, []⟩ s' := by
  intro t
  induction t with
  | nil =>
    intro pos
    rw [findFrom, run_none_iff]
    constructor
    · intro h a b s' e
      obtain ⟨rfl, rfl⟩ := List.append_eq_nil_iff.mp e.symm
      exact h s'
    · intro h s'; exact h [] [] s' rfl
  | cons c cs ih =>
    intro pos
    rw [findFrom]
    constructor
    · intro h a b s' e
      split at h
      · cases h
      · rename_i hr
        cases a with
        | nil =>
          simp only [List.nil_append] at e
          subst e
          exact (run_none_iff r _).mp hr s'
        | cons x a =>
          simp only [List.cons_append, List.cons.injEq] at e
          have := (ih (pos + 1)).mp h a b s' e.2
          rw [List.length_cons, show pos + (a.length + 1) = pos + 1 + a.length by omega]
          exact this
    · intro h
      have h0 : run r ⟨pos, c :: cs, []⟩ some = none :=
        (run_none_iff r _).mpr (fun s' => h [] (c :: cs) s' rfl)
      rw [h0]
      simp only
      apply (ih (pos + 1)).mpr
      intro a b s' e
      have := h (c :: a) b s' (by rw [e]; rfl)
      rw [List.length_cons, show pos + (a.length + 1) = pos + 1 + a.length by omega] at this
      exact this

/-- `FindStringSubmatch` finds nothing exactly when nothing matches anywhere. -/
theorem find_none_iff (r : Re) (t : List Char) : find r t = none ↔
    ∀ a b s', t = a ++ b → ¬ Step r ⟨a.length, b, []⟩ s' := by
  rw [find, findFrom_none_iff]
  simp only [Nat.zero_add]

theorem findFrom_sound (r : Re) : ∀ (t : List Char) (pos : Nat) (m : St),
    findFrom r pos t = some m → ∃ a b, t = a ++ b ∧ Step r ⟨pos + a.length, b, []⟩ m ∧
      ∀ a1 a2 s', a = a1 ++ a2 → a2 ≠ [] → ¬ Step r ⟨pos + a1.length, a2 ++ b, []⟩ s' := by
  intro t
  induction t with
  | nil =>
    intro pos m h
    rw [findFrom] at h
    obtain ⟨s', h1, h2⟩ := run_sound r _ _ _ h
    cases h2
    exact ⟨[], [], rfl, h1, fun a1 a2 s' e h2 => absurd (List.append_eq_nil_iff.mp e.symm).2 h2⟩
  | cons c cs ih =>
    intro pos m h
    rw [findFrom] at h
    split at h
    · rename_i x hx
      cases h
      obtain ⟨s', h1, h2⟩ := run_sound r _ _ _ hx
      cases h2
      exact ⟨[], c :: cs, rfl, h1,
        fun a1 a2 s' e h2 => absurd (List.append_eq_nil_iff.mp e.symm).2 h2⟩
    · rename_i hx
      obtain ⟨a, b, e, h1, h2⟩ := ih (pos + 1) m h
      refine ⟨c :: a, b, by rw [e]; rfl, ?_, ?_⟩
      · rw [List.length_cons, show pos + (a.length + 1) = pos + 1 + a.length by omega]; exact h1
      · intro a1 a2 s' e' hne hs
        cases a1 with
        | nil =>
          simp only [List.nil_append] at e'
          subst e'
          rw [List.cons_append, ← e] at hs
          exact (run_none_iff r _).mp hx s' hs
        | cons y a1 =>
          simp only [List.cons_append, List.cons.injEq] at e'
          rw [List.length_cons, show pos + (a1.length + 1) = pos + 1 + a1.length by omega] at hs
          exact h2 a1 a2 s' e'.2 hne hs

/-- A match that is found is one, and none starts before it. -/
theorem find_sound (r : Re) (t : List Char) (m : St) (h : find r t = some m) :
    ∃ a b, t = a ++ b ∧ Step r ⟨a.length, b, []⟩ m ∧
      ∀ a1 a2 s', a = a1 ++ a2 → a2 ≠ [] → ¬ Step r ⟨a1.length, a2 ++ b, []⟩ s' := by
  have := findFrom_sound r t 0 m h
  simpa only [Nat.zero_add] using this

/-! ## Reading off the pieces -/

theorem step_lit (l : List Char) : ∀ (s s' : St), Step (.lit l) s s' ↔
    s.rest = l ++ s'.rest ∧ s'.caps = s.caps ∧ s'.pos = s.pos + l.length := by
  induction l with
  | nil =>
    intro s s'
    simp only [Re.lit, Step, List.nil_append, List.length_nil, Nat.add_zero]
    constructor
    · rintro rfl; exact ⟨rfl, rfl, rfl⟩
    · obtain ⟨p, r, c⟩ := s
      obtain ⟨p', r', c'⟩ := s'
      rintro ⟨h1, h2, h3⟩
      simp only at h1 h2 h3
      subst h1 h2 h3; rfl
  | cons c cs ih =>
    intro s s'
    have key : ∀ t : St, Step (.cls (· == c)) s t ↔
        s.rest = c :: t.rest ∧ t.caps = s.caps ∧ t.pos = s.pos + 1 := by
      intro t
      simp only [Step]
      constructor
      · rintro ⟨d, ds, h1, h2, rfl⟩
        have := beq_iff_eq.mp h2
        subst this
        exact ⟨h1, rfl, rfl⟩
      · rintro ⟨h1, h2, h3⟩
        obtain ⟨tp, tr, tc⟩ := t
        simp only at h1 h2 h3
        subst h2 h3
        exact ⟨c, tr, h1, by simp, rfl⟩
    cases cs with
    | nil =>
      rw [Re.lit, key]
      simp
    | cons d ds =>
      rw [Re.lit]
      · constructor
        · rintro ⟨t, h1, h2⟩
          obtain ⟨k1, k2, k3⟩ := (key t).mp h1
          obtain ⟨i1, i2, i3⟩ := (ih t s').mp h2
          refine ⟨by rw [k1, i1]; rfl, by rw [i2, k2], ?_⟩
          rw [i3, k3]; simp only [List.length_cons]; omega
        · rintro ⟨h1, h2, h3⟩
          refine ⟨⟨s.pos + 1, (d :: ds) ++ s'.rest, s.caps⟩, (key _).mpr ⟨h1, rfl, rfl⟩,
            (ih _ _).mpr ⟨rfl, h2, ?_⟩⟩
          rw [h3]; simp only [List.length_cons]; omega
      · simp

theorem iter_cls (p : Char → Bool) (s s' : St) : Iter (Step (.cls p)) s s' ↔
    ∃ u, s.rest = u ++ s'.rest ∧ (∀ c ∈ u, p c = true) ∧ s'.caps = s.caps ∧
      s'.pos = s.pos + u.length := by
  constructor
  · intro h
    induction h with
    | nil s => exact ⟨[], rfl, by simp, rfl, rfl⟩
    | @cons s t s'' h1 hl _ ih =>
      obtain ⟨c, cs, e, hp, rfl⟩ := h1
      obtain ⟨u, e1, e2, e3, e4⟩ := ih
      refine ⟨c :: u, by rw [e]; simp only at e1; rw [e1]; rfl, ?_, e3, ?_⟩
      · intro x hx
        rcases List.mem_cons.mp hx with rfl | hx
        · exact hp
        · exact e2 x hx
      · rw [e4]; simp only [List.length_cons]; omega
  · rintro ⟨u, h⟩
    induction u generalizing s with
    | nil =>
      obtain ⟨h1, _, h2, h3⟩ := h
      obtain ⟨a, b, c⟩ := s
      obtain ⟨a', b', c'⟩ := s'
      simp only [List.nil_append, List.length_nil, Nat.add_zero] at h1 h2 h3
      subst h1 h2 h3
      exact .nil _
    | cons c u ih =>
      obtain ⟨h1, hp, h2, h3⟩ := h
      refine .cons (s' := ⟨s.pos + 1, u ++ s'.rest, s.caps⟩) ⟨c, _, h1, hp c (by simp), rfl⟩ ?_ ?_
      · rw [h1]; simp
      · apply ih
        refine ⟨rfl, fun x hx => hp x (by simp [hx]), h2, ?_⟩
        rw [h3]; simp only [List.length_cons]; omega

/-- `(x+)` or `(x+?)`: a non-empty run, which is captured. -/
theorem step_grp_plus (n : Nat) (g : Bool) (p : Char → Bool) (s s' : St) :
    Step (.grp n (.plus g (.cls p))) s s' ↔
    ∃ u, u ≠ [] ∧ (∀ c ∈ u, p c = true) ∧ s.rest = u ++ s'.rest ∧ s'.caps = (n, u) :: s.caps ∧
      s'.pos = s.pos + u.length := by
  constructor
  · rintro ⟨t, ⟨t0, ⟨c, cs, e, hp, rfl⟩, h2⟩, rfl⟩
    obtain ⟨u, e1, e2, e3, e4⟩ := (iter_cls p _ t).mp h2
    simp only at e1 e3 e4
    have er : s.rest = (c :: u) ++ t.rest := by rw [e, e1]; rfl
    refine ⟨c :: u, by simp, ?_, er, ?_, ?_⟩
    · intro x hx
      rcases List.mem_cons.mp hx with rfl | hx
      · exact hp
      · exact e2 x hx
    · simp only [er, take_len, e3]
    · simp only [e4, List.length_cons]; omega
  · rintro ⟨u, hne, hp, h1, h2, h3⟩
    cases u with
    | nil => exact absurd rfl hne
    | cons c u =>
      refine ⟨⟨s'.pos, s'.rest, s.caps⟩, ⟨⟨s.pos + 1, u ++ s'.rest, s.caps⟩,
        ⟨c, _, h1, hp c (by simp), rfl⟩, (iter_cls p _ _).mpr
          ⟨u, rfl, fun x hx => hp x (by simp [hx]), rfl, ?_⟩⟩, ?_⟩
      · simp only [h3, List.length_cons]; omega
      · obtain ⟨a', b', c'⟩ := s'
        simp only at h1 h2 h3 ⊢
        simp only [h1, take_len, h2]

/-- The text of a pair, with any runs of digits and dots in the places of its two numbers. -/
theorem step_pair (l0 l1 l2 : List Char) (s s' : St) (h : Step (pairReg l0 l1 l2) s s') :
    ∃ a b r l, (a ≠ [] ∧ ∀ c ∈ a, isNum c = true) ∧ (b ≠ [] ∧ ∀ c ∈ b, isNum c = true) ∧
      (r ≠ [] ∧ ∀ c ∈ r, isDig c = true) ∧ (l ≠ [] ∧ ∀ c ∈ l, isDig c = true) ∧
      s.rest = pairText l0 l1 l2 a b r l ++ s'.rest ∧
      s'.caps = [(4, l), (3, r), (2, b), (1, a)] ++ s.caps := by
  obtain ⟨t0, h0, t1, h1, t2, h2, t3, h3, t4, h4, t5, h5, t6, h6, t7, h7, h8⟩ := h
  obtain ⟨e0, c0, _⟩ := (step_lit _ _ _).mp h0
  obtain ⟨a, ha, ha', e1, c1, _⟩ := (step_grp_plus _ _ _ _ _).mp h1
  obtain ⟨e2, c2, _⟩ := (step_lit _ _ _).mp h2
  obtain ⟨b, hb, hb', e3, c3, _⟩ := (step_grp_plus _ _ _ _ _).mp h3
  obtain ⟨e4, c4, _⟩ := (step_lit _ _ _).mp h4
  obtain ⟨r, hr, hr', e5, c5, _⟩ := (step_grp_plus _ _ _ _ _).mp h5
  obtain ⟨e6, c6, _⟩ := (step_lit _ _ _).mp h6
  obtain ⟨l, hl, hl', e7, c7, _⟩ := (step_grp_plus _ _ _ _ _).mp h7
  obtain ⟨e8, c8, _⟩ := (step_lit _ _ _).mp h8
  refine ⟨a, b, r, l, ⟨ha, ha'⟩, ⟨hb, hb'⟩, ⟨hr, hr'⟩, ⟨hl, hl'⟩, ?_, ?_⟩
  · rw [e0, e1, e2, e3, e4, e5, e6, e7, e8, pairText]
    simp only [List.append_assoc]
  · rw [c8, c7, c6, c5, c4, c3, c2, c1, c0]; rfl

/-- Conversely every such text is matched. -/
theorem step_pair_of (l0 l1 l2 : List Char) (s : St) (a b r l q : List Char)
    (ha : a ≠ [] ∧ ∀ c ∈ a, isNum c = true) (hb : b ≠ [] ∧ ∀ c ∈ b, isNum c = true)
    (hr : r ≠ [] ∧ ∀ c ∈ r, isDig c = true) (hl : l ≠ [] ∧ ∀ c ∈ l, isDig c = true)
    (h : s.rest = pairText l0 l1 l2 a b r l ++ q) : ∃ s', Step (pairReg l0 l1 l2) s s' := by
  rw [pairText] at h
  simp only [List.append_assoc] at h
  exact ⟨_, _, (step_lit _ s ⟨_, _, _⟩).mpr ⟨h, rfl, rfl⟩,
    _, (step_grp_plus _ _ _ _ ⟨_, _, _⟩).mpr ⟨a, ha.1, ha.2, rfl, rfl, rfl⟩,
    _, (step_lit _ _ ⟨_, _, _⟩).mpr ⟨rfl, rfl, rfl⟩,
    _, (step_grp_plus _ _ _ _ ⟨_, _, _⟩).mpr ⟨b, hb.1, hb.2, rfl, rfl, rfl⟩,
    _, (step_lit _ _ ⟨_, _, _⟩).mpr ⟨rfl, rfl, rfl⟩,
    _, (step_grp_plus _ _ _ _ ⟨_, _, _⟩).mpr ⟨r, hr.1, hr.2, rfl, rfl, rfl⟩,
    _, (step_lit _ _ ⟨_, _, _⟩).mpr ⟨rfl, rfl, rfl⟩,
    _, (step_grp_plus _ _ _ _ ⟨_, _, _⟩).mpr ⟨l, hl.1, hl.2, rfl, rfl, rfl⟩,
    (step_lit _ _ ⟨_, _, _⟩).mpr ⟨rfl, rfl, rfl⟩⟩

/-- A run of one kind of characters, compared at the next character that is of another kind. -/
theorem run_split {p : Char → Bool} : ∀ (u v : List Char) (x y : Char) (s t : List Char),
    (∀ c ∈ u, p c = true) → (∀ c ∈ v, p c = true) → p x = false → p y = false →
    u ++ x :: s = v ++ y :: t → u = v ∧ x = y ∧ s = t := by
  intro u
  induction u with
  | nil =>
    intro v x y s t _ hv hx hy e
    cases v with
    | nil => simp only [List.nil_append, List.cons.injEq] at e; exact ⟨rfl, e.1, e.2⟩
    | cons c v =>
      simp only [List.nil_append, List.cons_append, List.cons.injEq] at e
      have := hv c (by simp)
      rw [← e.1, hx] at this; cases this
  | cons c u ih =>
    intro v x y s t hu hv hx hy e
    cases v with
    | nil =>
      simp only [List.nil_append, List.cons_append, List.cons.injEq] at e
      have := hu c (by simp)
      rw [e.1, hy] at this; cases this
    | cons d v =>
      simp only [List.cons_append, List.cons.injEq] at e
      obtain ⟨h1, h2, h3⟩ := ih v x y s t (fun c hc => hu c (by simp [hc]))
        (fun c hc => hv c (by simp [hc])) hx hy e.2
      exact ⟨by rw [e.1, h1], h2, h3⟩

theorem isNum_iff (c : Char) : isNum c = true ↔ isDig c = true ∨ c = '.' := by
  simp [isNum]

/-- A test for `FirstAt` on given texts. -/
theorem firstAt_of_check (s p t : List Char) (h : ∀ n < p.length, s.isPrefixOf (p.drop n ++ t) = false) :
    FirstAt s p t := by
  intro p1 p2 e h2 hp
  have e2 : p2 = p.drop p1.length := by rw [e]; simp
  have hl : p1.length < p.length := by
    have h3 : 0 < p2.length := List.length_pos_iff.mpr h2
    rw [e, List.length_append]; omega
  have := h _ hl
  rw [← e2, List.isPrefixOf_iff_prefix.mpr hp] at this
  cases this

end Verif.Regex
