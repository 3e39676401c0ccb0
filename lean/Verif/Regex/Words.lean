import Verif.Regex.Lang
/-!
# The word after a fixed text

`FirstWith Q t w`: reading from the left, the first place of `t` whose remaining text is in relation
`Q` to some word is in relation to `w`.  The plan parsers read table names this way; the lemmas here
say so without the matcher.
-/
namespace Verif.Regex

/-! ## Specification -/

/-- A letter, a digit or an underscore. -/
def WordChar (c : Char) : Prop :=
  ('0' ≤ c ∧ c ≤ '9') ∨ ('A' ≤ c ∧ c ≤ 'Z') ∨ ('a' ≤ c ∧ c ≤ 'z') ∨ c = '_'

/-- A non-empty run of characters of a kind. -/
def Run (P : Char → Prop) (w : List Char) : Prop := w ≠ [] ∧ ∀ c ∈ w, P c

/-- Nowhere in `t`. -/
def Nowhere (Q : List Char → List Char → Prop) (t : List Char) : Prop :=
  ∀ a b w, t = a ++ b → ¬ Q b w

/-- The leftmost place. -/
def FirstWith (Q : List Char → List Char → Prop) (t w : List Char) : Prop :=
  ∃ a b, t = a ++ b ∧ Q b w ∧ ∀ a1 a2 w', a = a1 ++ a2 → a2 ≠ [] → ¬ Q (a2 ++ b) w'

/-- The text begins with `pre` and the longest run `w` of characters of a kind. -/
def Longest (P : Char → Prop) (pre b w : List Char) : Prop :=
  Run P w ∧ ∃ r, b = pre ++ (w ++ r) ∧ ∀ c ∈ r.head?, ¬ P c

/-- The text begins with `pre`, the word `w` and a dot. -/
def Dotted (pre b w : List Char) : Prop := Run WordChar w ∧ ∃ r, b = pre ++ (w ++ '.' :: r)

/-! ## Lemmas -/

theorem isWord_iff (c : Char) : isWord c = true ↔ WordChar c := by
  simp only [isWord, WordChar, Bool.or_eq_true, Bool.and_eq_true, decide_eq_true_eq, beq_iff_eq]
  constructor
  · rintro (((h | h) | h) | h)
    · exact .inl h
    · exact .inr (.inl h)
    · exact .inr (.inr (.inl h))
    · exact .inr (.inr (.inr h))
  · rintro (h | h | h | h)
    · exact .inl (.inl (.inl h))
    · exact .inl (.inl (.inr h))
    · exact .inl (.inr h)
    · exact .inr h

theorem find_first (r : Re) (Q : List Char → List Char → Prop)
    (hs : ∀ pos b m, run r ⟨pos, b, []⟩ some = some m → Q b (m.cap 1))
    (hn : ∀ pos b, run r ⟨pos, b, []⟩ some = none → ∀ w, ¬ Q b w) (t : List Char) :
    (∀ m, find r t = some m → FirstWith Q t (m.cap 1)) ∧ (find r t = none → Nowhere Q t) := by
  have key : ∀ (t : List Char) (pos : Nat),
      (∀ m, findFrom r pos t = some m → FirstWith Q t (m.cap 1)) ∧
      (findFrom r pos t = none → Nowhere Q t) := by
    intro t
    induction t with
    | nil =>
      intro pos
      rw [findFrom]
      refine ⟨fun m hm => ⟨[], [], rfl, hs _ _ _ hm, fun a1 a2 w' e h2 =>
        absurd (List.append_eq_nil_iff.mp e.symm).2 h2⟩, fun h a b w e => ?_⟩
      obtain ⟨rfl, rfl⟩ := List.append_eq_nil_iff.mp e.symm
      exact hn _ _ h w
    | cons c cs ih =>
      intro pos
      rw [findFrom]
      cases hr : run r ⟨pos, c :: cs, []⟩ some with
      | some x =>
        refine ⟨fun m hm => ?_, fun h => by cases h⟩
        cases hm
        exact ⟨[], c :: cs, rfl, hs _ _ _ hr, fun a1 a2 w' e h2 =>
          absurd (List.append_eq_nil_iff.mp e.symm).2 h2⟩
      | none =>
        refine ⟨fun m hm => ?_, fun h a b w e => ?_⟩
        · obtain ⟨a, b, e, h1, h2⟩ := (ih (pos + 1)).1 m hm
          refine ⟨c :: a, b, by rw [e]; rfl, h1, ?_⟩
          intro a1 a2 w' e' hne
          cases a1 with
          | nil =>
            simp only [List.nil_append] at e'
            subst e'
            rw [List.cons_append, ← e]
            exact hn _ _ hr w'
          | cons y a1 =>
            simp only [List.cons_append, List.cons.injEq] at e'
            exact h2 a1 a2 w' e'.2 hne
        · cases a with
          | nil => rw [List.nil_append] at e; subst e; exact hn _ _ hr w
          | cons y a =>
            simp only [List.cons_append, List.cons.injEq] at e
            exact (ih (pos + 1)).2 h a b w e.2
  exact key t 0

/-- There is only one first place, and only one word there if `Q` allows one only. -/
theorem FirstWith.unique {Q : List Char → List Char → Prop} (hQ : ∀ b w w', Q b w → Q b w' → w = w')
    {t w w' : List Char} (h : FirstWith Q t w) (h' : FirstWith Q t w') : w = w' := by
  obtain ⟨a, b, e, h1, h2⟩ := h
  obtain ⟨a', b', e', h1', h2'⟩ := h'
  have hl : a.length = a'.length := by
    rcases Nat.lt_trichotomy a.length a'.length with hl | hl | hl
    · obtain ⟨z, hz⟩ := List.prefix_of_prefix_length_le (e ▸ List.prefix_append a b)
        (e' ▸ List.prefix_append a' b') (Nat.le_of_lt hl)
      refine absurd ?_ (h2' a z w hz.symm ?_)
      · have : b = z ++ b' := by
          rw [← hz] at e'
          rw [e, List.append_assoc] at e'
          exact List.append_cancel_left e'
        rw [← this]; exact h1
      · rintro rfl; rw [List.append_nil] at hz; subst hz; omega
    · exact hl
    · obtain ⟨z, hz⟩ := List.prefix_of_prefix_length_le (e' ▸ List.prefix_append a' b')
        (e ▸ List.prefix_append a b) (Nat.le_of_lt hl)
      refine absurd ?_ (h2 a' z w' hz.symm ?_)
      · have : b' = z ++ b := by
          rw [← hz] at e
          rw [e', List.append_assoc] at e
          exact List.append_cancel_left e
        rw [← this]; exact h1'
      · rintro rfl; rw [List.append_nil] at hz; subst hz; omega
  have := List.append_inj (e.symm.trans e') hl
  rw [← this.2] at h1'
  exact hQ _ _ _ h1 h1'

theorem FirstWith.not_nowhere {Q : List Char → List Char → Prop} {t w : List Char} (h : FirstWith Q t w)
    (hn : Nowhere Q t) : False := by
  obtain ⟨a, b, e, h1, _⟩ := h
  exact hn a b w e h1

/-- Two runs followed by something else agree. -/
theorem runs_agree {P : Char → Prop} : ∀ (w w' r r' : List Char), (∀ c ∈ w, P c) → (∀ c ∈ w', P c) →
    (∀ c ∈ r.head?, ¬ P c) → (∀ c ∈ r'.head?, ¬ P c) → w ++ r = w' ++ r' → w = w' := by
  intro w
  induction w with
  | nil =>
    intro w' r r' _ h2 h3 _ e
    cases w' with
    | nil => rfl
    | cons c w' =>
      rw [List.nil_append] at e
      subst e
      exact absurd (h2 c (by simp)) (h3 c (by simp))
  | cons c w ih =>
    intro w' r r' h1 h2 h3 h4 e
    cases w' with
    | nil =>
      rw [List.nil_append] at e
      subst e
      exact absurd (h1 c (by simp)) (h4 c (by simp))
    | cons d w' =>
      simp only [List.cons_append, List.cons.injEq] at e
      obtain ⟨rfl, e⟩ := e
      rw [ih w' r r' (fun x hx => h1 x (by simp [hx])) (fun x hx => h2 x (by simp [hx])) h3 h4 e]

theorem longest_unique (P : Char → Prop) (pre : List Char) (b w w' : List Char)
    (h : Longest P pre b w) (h' : Longest P pre b w') : w = w' := by
  obtain ⟨⟨_, h1⟩, r, e, h2⟩ := h
  obtain ⟨⟨_, h1'⟩, r', e', h2'⟩ := h'
  exact runs_agree w w' r r' h1 h1' h2 h2' (List.append_cancel_left (e.symm.trans e'))

theorem not_word_dot : ¬ WordChar '.' := by
  rw [← isWord_iff]; decide

theorem dotted_longest {pre b w : List Char} (h : Dotted pre b w) : Longest WordChar pre b w := by
  obtain ⟨h1, r, e⟩ := h
  refine ⟨h1, '.' :: r, e, ?_⟩
  intro c hc
  simp only [List.head?_cons, Option.mem_def, Option.some.injEq] at hc
  subst hc; exact not_word_dot

theorem dotted_unique (pre : List Char) (b w w' : List Char)
    (h : Dotted pre b w) (h' : Dotted pre b w') : w = w' :=
  longest_unique _ _ _ _ _ (dotted_longest h) (dotted_longest h')

theorem split_run (p : Char → Bool) (u : List Char) : ∃ w r, u = w ++ r ∧ (∀ c ∈ w, p c = true) ∧
    ∀ c ∈ r.head?, p c = false := by
  induction u with
  | nil => exact ⟨[], [], rfl, by simp, by simp⟩
  | cons c u ih =>
    cases hc : p c with
    | false => exact ⟨[], c :: u, rfl, by simp, by simp [hc]⟩
    | true =>
      obtain ⟨w, r, e, h1, h2⟩ := ih
      refine ⟨c :: w, r, by rw [e]; rfl, ?_, h2⟩
      intro x hx
      rcases List.mem_cons.mp hx with rfl | hx
      · exact hc
      · exact h1 x hx

/-- `(p+)` on a text that does not begin with `p`. -/
theorem run_grp_greedy_none (n : Nat) (p : Char → Bool) (k : St → Option St) (caps) (r : List Char)
    (pos : Nat) (hr : ∀ c ∈ r.head?, p c = false) :
    run (.grp n (.plus true (.cls p))) ⟨pos, r, caps⟩ k = none := by
  cases r with
  | nil => simp [run_grp, Re.plus, run_seq, run_cls_nil]
  | cons c cs => simp [run_grp, Re.plus, run_seq, run_cls_cons, hr c (by simp)]

/-- `pre(p+)` reads the longest run after `pre`. -/
theorem find_longest (pre : List Char) (p : Char → Bool) (P : Char → Prop) (hp : ∀ c, p c = true ↔ P c)
    (t : List Char) :
    (∀ m, find (.seq (.lit pre) (.grp 1 (.plus true (.cls p)))) t = some m →
      FirstWith (Longest P pre) t (m.cap 1)) ∧
    (find (.seq (.lit pre) (.grp 1 (.plus true (.cls p)))) t = none → Nowhere (Longest P pre) t) := by
  have hf : ∀ c, p c = false ↔ ¬ P c := by intro c; rw [← hp]; simp
  have key : ∀ pos b, (∀ m, run (.seq (.lit pre) (.grp 1 (.plus true (.cls p)))) ⟨pos, b, []⟩ some = some m →
      Longest P pre b (m.cap 1)) ∧ (run (.seq (.lit pre) (.grp 1 (.plus true (.cls p)))) ⟨pos, b, []⟩ some = none →
        ∀ w, ¬ Longest P pre b w) := by
    intro pos b
    by_cases hb : pre <+: b
    · obtain ⟨u, rfl⟩ := hb
      rw [run_seq, run_lit]
      obtain ⟨w, r, rfl, h1, h2⟩ := split_run p u
      by_cases hw : w = []
      · subst hw
        rw [List.nil_append, run_grp_greedy_none _ _ _ _ _ _ h2]
        refine ⟨fun m h => (by cases h), fun _ w ⟨⟨hne, hw⟩, r', e, _⟩ => ?_⟩
        have e := List.append_cancel_left e
        cases w with
        | nil => exact hne rfl
        | cons c w =>
          subst e
          have := h2 c (by simp)
          rw [(hp c).mpr (hw c (by simp))] at this
          cases this
      · rw [run_grp_greedy 1 p _ [] w r _ hw h1 h2 rfl]
        refine ⟨fun m hm => ?_, fun h => by cases h⟩
        cases hm
        refine ⟨⟨?_, ?_⟩, r, ?_, fun c hc => (hf c).mp (h2 c hc)⟩
        · simpa [St.cap] using hw
        · intro c hc; exact (hp c).mp (h1 c (by simpa [St.cap] using hc))
        · simp [St.cap]
    · rw [run_seq, run_lit_none _ _ _ _ _ hb]
      refine ⟨fun m h => (by cases h), ?_⟩
      rintro _ w ⟨_, r, e, _⟩
      exact hb ⟨w ++ r, e.symm⟩
  exact find_first _ _ (fun pos b => (key pos b).1) (fun pos b => (key pos b).2) t

/-- `pre(\w+)\.`, possibly with something between `pre` and the word. -/
theorem find_dotted (R : Re) (Q : List Char → List Char → Prop)
    (h1 : ∀ s s' : St, Step R s s' → s.caps = [] → Q s.rest (s'.cap 1))
    (h2 : ∀ s w, Q s.rest w → ∃ s', Step R s s') (t : List Char) :
    (∀ m, find R t = some m → FirstWith Q t (m.cap 1)) ∧ (find R t = none → Nowhere Q t) := by
  apply find_first
  · intro pos b m hm
    obtain ⟨s', hs, e⟩ := run_sound _ _ _ _ hm
    cases e
    exact h1 _ _ hs rfl
  · intro pos b hn w hw
    obtain ⟨s', hs⟩ := h2 ⟨pos, b, []⟩ w hw
    exact (run_none_iff _ _).mp hn s' hs

theorem step_word_dot (s s' : St) (p : Char → Bool) : Step (.seq (.grp 1 (.plus true (.cls p))) (.lit ['.'])) s s' ↔
    ∃ u, u ≠ [] ∧ (∀ c ∈ u, p c = true) ∧ s.rest = u ++ '.' :: s'.rest ∧ s'.caps = (1, u) :: s.caps ∧
      s'.pos = s.pos + u.length + 1 := by
  constructor
  · rintro ⟨t, ht, hs⟩
    obtain ⟨u, e1, e2, e3, e4, e5⟩ := (step_grp_plus _ _ _ _ _).mp ht
    obtain ⟨f1, f2, f3⟩ := (step_lit _ _ _).mp hs
    refine ⟨u, e1, e2, by rw [e3, f1]; rfl, by rw [f2, e4], ?_⟩
    rw [f3, e5]; rfl
  · rintro ⟨u, e1, e2, e3, e4, e5⟩
    exact ⟨⟨s.pos + u.length, '.' :: s'.rest, (1, u) :: s.caps⟩,
      (step_grp_plus _ _ _ _ _).mpr ⟨u, e1, e2, e3, rfl, rfl⟩,
      (step_lit _ _ _).mpr ⟨rfl, e4, e5⟩⟩

/-- `pre(\w+)\.` -/
theorem find_pre_dotted (pre : List Char) (t : List Char) :
    (∀ m, find (.seq (.lit pre) (.seq (.grp 1 (.plus true (.cls isWord))) (.lit ['.']))) t = some m →
      FirstWith (Dotted pre) t (m.cap 1)) ∧
    (find (.seq (.lit pre) (.seq (.grp 1 (.plus true (.cls isWord))) (.lit ['.']))) t = none →
      Nowhere (Dotted pre) t) := by
  apply find_dotted
  · rintro s s' ⟨t, h1, h2⟩ hc
    obtain ⟨e1, e2, _⟩ := (step_lit _ _ _).mp h1
    obtain ⟨u, f1, f2, f3, f4, _⟩ := (step_word_dot _ _ _).mp h2
    have : s'.cap 1 = u := by simp [St.cap, f4]
    rw [this]
    exact ⟨⟨f1, fun c hc => (isWord_iff c).mp (f2 c hc)⟩, s'.rest, by rw [e1, f3]⟩
  · rintro s w ⟨⟨h1, h2⟩, r, e⟩
    exact ⟨⟨s.pos + pre.length + w.length + 1, r, (1, w) :: s.caps⟩,
      ⟨s.pos + pre.length, w ++ '.' :: r, s.caps⟩, (step_lit _ _ _).mpr ⟨e, rfl, rfl⟩,
      (step_word_dot _ _ _).mpr ⟨w, h1, fun c hc => (isWord_iff c).mpr (h2 c hc), rfl, rfl, rfl⟩⟩

end Verif.Regex
