import Mathlib.Tactic.Common
import Verif.Dec
import Verif.Regex.Read
/-! Reading printed decimal numbers back with the plan regular expressions. -/
namespace Verif.Regex

/-- Characters of `[\d.]`. -/
def isNum (c : Char) : Bool := isDig c || c == '.'

/-- `[\d.]+?` in group `n` -/
def num (n : Nat) : Re := .grp n (.plus false (.cls isNum))
/-- `\d+` in group `n` -/
def digits (n : Nat) : Re := .grp n (.plus true (.cls isDig))

/-- The value of a run of decimal digits. -/
def digitsVal (s : List Char) : Nat := s.foldl (fun n c => 10 * n + (c.toNat - '0'.toNat)) 0

/-- A printed decimal number: digits, optionally a dot and more digits. -/
def Decimal (a : List Char) : Prop :=
  ∃ ds es : List Char, ds ≠ [] ∧ (∀ c ∈ ds, isDig c = true) ∧ (∀ c ∈ es, isDig c = true) ∧
    (a = ds ∨ (es ≠ [] ∧ a = ds ++ '.' :: es))

theorem Decimal.ne_nil {a : List Char} (h : Decimal a) : a ≠ [] := by
  obtain ⟨ds, es, h1, _, _, rfl | ⟨_, rfl⟩⟩ := h
  · exact h1
  · simp

theorem Decimal.isNum {a : List Char} (h : Decimal a) : ∀ c ∈ a, isNum c = true := by
  have hd : ∀ c, isDig c = true → Regex.isNum c = true := by intro c h; simp [Regex.isNum, h]
  obtain ⟨ds, es, _, h2, h3, rfl | ⟨_, rfl⟩⟩ := h
  · intro c hc; exact hd c (h2 c hc)
  · intro c hc
    simp only [List.mem_append, List.mem_cons] at hc
    rcases hc with hc | rfl | hc
    · exact hd c (h2 c hc)
    · decide
    · exact hd c (h3 c hc)

/-- After any cut, the rest starts with a digit or with a dot and a digit. -/
theorem Decimal.suffix {a : List Char} (h : Decimal a) (a1 a2 : List Char) (e : a = a1 ++ a2)
    (h2 : a2 ≠ []) : ∃ c r, a2 = c :: r ∧ (isDig c = true ∨
      (c = '.' ∧ ∃ d r', r = d :: r' ∧ isDig d = true)) := by
  cases a2 with
  | nil => exact absurd rfl h2
  | cons c r =>
    refine ⟨c, r, rfl, ?_⟩
    obtain ⟨ds, es, _, hd, he, h⟩ := h
    rcases h with rfl | ⟨hne, rfl⟩
    · exact .inl (hd c (by rw [e]; simp))
    · rcases List.append_eq_append_iff.mp e with ⟨w, h1, h3⟩ | ⟨w, h1, h3⟩
      · -- a1 = ds ++ w, '.' :: es = w ++ c :: r
        cases w with
        | nil =>
          simp only [List.nil_append, List.cons.injEq] at h3
          right
          refine ⟨h3.1.symm, ?_⟩
          rw [← h3.2]
          cases es with
          | nil => exact absurd rfl hne
          | cons d r' => exact ⟨d, r', rfl, he d (by simp)⟩
        | cons x w =>
          simp only [List.cons_append, List.cons.injEq] at h3
          exact .inl (he c (by rw [h3.2]; simp))
      · -- ds = a1 ++ w, c :: r = w ++ '.' :: es
        cases w with
        | nil =>
          simp only [List.nil_append, List.cons.injEq] at h3
          right
          refine ⟨h3.1, ?_⟩
          rw [h3.2]
          cases es with
          | nil => exact absurd rfl hne
          | cons d r' => exact ⟨d, r', rfl, he d (by simp)⟩
        | cons x w =>
          simp only [List.cons_append, List.cons.injEq] at h3
          exact .inl (hd c (by rw [h1, h3.1]; simp))

theorem isDig_ne_dot {c : Char} (h : isDig c = true) : c ≠ '.' := by
  intro e; subst e; exact absurd h (by decide)

/-- `..` cannot be read inside a printed decimal. -/
theorem Decimal.no_dots {a : List Char} (h : Decimal a) (a1 a2 r : List Char) (e : a = a1 ++ a2)
    (h2 : a2 ≠ []) : ¬ ['.', '.'] <+: a2 ++ r := by
  obtain ⟨c, r', rfl, hc | ⟨rfl, d, r'', rfl, hd⟩⟩ := h.suffix a1 a2 e h2
  · intro hp
    rw [List.cons_append, List.cons_prefix_cons] at hp
    exact isDig_ne_dot hc hp.1.symm
  · intro hp
    rw [List.cons_append, List.cons_append, List.cons_prefix_cons, List.cons_prefix_cons] at hp
    exact isDig_ne_dot hd hp.2.1.symm

/-- Nothing that starts with another character can be read inside a printed decimal. -/
theorem Decimal.no_other {a : List Char} (h : Decimal a) (a1 a2 r s : List Char) (e : a = a1 ++ a2)
    (h2 : a2 ≠ []) (x : Char) (hx : Regex.isNum x = false) : ¬ (x :: s) <+: a2 ++ r := by
  cases a2 with
  | nil => exact absurd rfl h2
  | cons c r' =>
    intro hp
    rw [List.cons_append, List.cons_prefix_cons] at hp
    have := h.isNum c (by rw [e]; simp)
    rw [← hp.1, hx] at this; cases this

theorem dec_isDig (n : Nat) : ∀ c ∈ dec n, isDig c = true := by
  intro c hc
  have := dec_digits n c hc
  simp only [List.mem_cons, List.not_mem_nil, or_false] at this
  rcases this with h | h | h | h | h | h | h | h | h | h <;> subst h <;> decide

theorem digitsVal_append (s : List Char) (c : Char) :
    digitsVal (s ++ [c]) = 10 * digitsVal s + (c.toNat - '0'.toNat) := by
  simp [digitsVal]

theorem digitsVal_dec (n : Nat) : digitsVal (dec n) = n := by
  have hd : ∀ m, (digitChar m).toNat - '0'.toNat = m % 10 := by
    intro m
    unfold digitChar
    have h : m % 10 < 10 := Nat.mod_lt _ (by omega)
    generalize m % 10 = k at *
    match k, h with
    | 0, _ => decide
    | 1, _ => decide
    | 2, _ => decide
    | 3, _ => decide
    | 4, _ => decide
    | 5, _ => decide
    | 6, _ => decide
    | 7, _ => decide
    | 8, _ => decide
    | 9, _ => decide
  induction n using Nat.strongRecOn with
  | ind n ih =>
    by_cases h : n < 10
    · rw [dec_lt h]
      have := digitsVal_append [] (digitChar n)
      rw [List.nil_append] at this
      rw [this, hd]; simp [digitsVal]; omega
    · rw [dec_ge h, digitsVal_append, ih (n / 10) (by omega), hd]; omega

/-- The common shape `l0 ([\d.]+?) \.\. ([\d.]+?) l1 (\d+) l2 (\d+) \)`. -/
def pairReg (l0 l1 l2 : List Char) : Re :=
  .seq (.lit l0) (.seq (num 1) (.seq (.lit ['.', '.']) (.seq (num 2)
    (.seq (.lit l1) (.seq (digits 3) (.seq (.lit l2)
      (.seq (digits 4) (.lit [')']))))))))

/-- The text that shape is printed as. -/
def pairText (l0 l1 l2 a b r l : List Char) : List Char :=
  l0 ++ (a ++ (['.', '.'] ++ (b ++ (l1 ++ (r ++ (l2 ++ (l ++ [')'])))))))

theorem run_pair (l0 l1 l2 a b r l q : List Char) (x y : Char) (s1 s2 : List Char)
    (h1 : l1 = x :: s1) (hx : isNum x = false) (h2 : l2 = y :: s2) (hy : isDig y = false)
    (ha : Decimal a) (hb : Decimal b)
    (hr : r ≠ []) (hrd : ∀ c ∈ r, isDig c = true) (hl : l ≠ []) (hld : ∀ c ∈ l, isDig c = true)
    (pos : Nat) :
    ∃ m, run (pairReg l0 l1 l2) ⟨pos, pairText l0 l1 l2 a b r l ++ q, []⟩ some = some m ∧
      m.caps = [(4, l), (3, r), (2, b), (1, a)] := by
  refine ⟨⟨pos + l0.length + a.length + 2 + b.length + l1.length + r.length + l2.length + l.length
    + 1, q, [(4, l), (3, r), (2, b), (1, a)]⟩, ?_, rfl⟩
  -- from the end to the beginning
  have e8 : ∀ p caps, run (.lit [')']) ⟨p, [')'] ++ q, caps⟩ some = some ⟨p + 1, q, caps⟩ := by
    intro p caps; rw [run_lit]; rfl
  have e7 : ∀ p caps, run (digits 4) ⟨p, l ++ ([')'] ++ q), caps⟩
      (fun s => run (.lit [')']) s some) = some ⟨p + l.length + 1, q, (4, l) :: caps⟩ := by
    intro p caps
    rw [digits, run_grp_greedy 4 isDig _ caps l _ p hl hld (by
      intro c hc
      simp at hc; subst hc; decide) (by rw [e8]; rfl), e8]
  have e6 : ∀ p caps, run (.seq (.lit l2) (.seq (digits 4) (.lit [')'])))
      ⟨p, l2 ++ (l ++ ([')'] ++ q)), caps⟩ some =
        some ⟨p + l2.length + l.length + 1, q, (4, l) :: caps⟩ := by
    intro p caps; rw [run_seq, run_lit, run_seq, e7]
  have e5 : ∀ p caps, run (digits 3) ⟨p, r ++ (l2 ++ (l ++ ([')'] ++ q))), caps⟩
      (fun s => run (.seq (.lit l2) (.seq (digits 4) (.lit [')']))) s some) =
        some ⟨p + r.length + l2.length + l.length + 1, q, (4, l) :: (3, r) :: caps⟩ := by
    intro p caps
    rw [digits, run_grp_greedy 3 isDig _ caps r _ p hr hrd (by
      intro c hc
      rw [h2] at hc; simp at hc; subst hc; exact hy) (by
        have := e6 (p + r.length) ((3, r) :: caps)
        rw [this]; rfl)]
    have := e6 (p + r.length) ((3, r) :: caps)
    rw [this]
  have e4 : ∀ p caps, run (.seq (.lit l1) (.seq (digits 3) (.seq (.lit l2)
      (.seq (digits 4) (.lit [')']))))) ⟨p, l1 ++ (r ++ (l2 ++ (l ++ ([')'] ++ q)))), caps⟩ some =
        some ⟨p + l1.length + r.length + l2.length + l.length + 1, q,
          (4, l) :: (3, r) :: caps⟩ := by
    intro p caps; rw [run_seq, run_lit, run_seq, e5]
  have e3 : ∀ p caps, run (num 2) ⟨p, b ++ (l1 ++ (r ++ (l2 ++ (l ++ ([')'] ++ q))))), caps⟩
      (fun s => run (.seq (.lit l1) (.seq (digits 3) (.seq (.lit l2)
        (.seq (digits 4) (.lit [')']))))) s some) =
        some ⟨p + b.length + l1.length + r.length + l2.length + l.length + 1, q,
          (4, l) :: (3, r) :: (2, b) :: caps⟩ := by
    intro p caps
    rw [num, run_grp_lazy 2 isNum _ caps b _ p hb.ne_nil hb.isNum _ (by rw [e4]; rfl), e4]
    intro b1 b2 e _ hb2 p' c'
    rw [run_seq, run_lit_none]
    rw [h1]
    exact hb.no_other b1 b2 _ s1 e hb2 x hx
  have e2 : ∀ p caps, run (.seq (.lit ['.', '.']) (.seq (num 2) (.seq (.lit l1) (.seq (digits 3)
      (.seq (.lit l2) (.seq (digits 4) (.lit [')'])))))))
      ⟨p, ['.', '.'] ++ (b ++ (l1 ++ (r ++ (l2 ++ (l ++ ([')'] ++ q)))))), caps⟩ some =
        some ⟨p + 2 + b.length + l1.length + r.length + l2.length + l.length + 1, q,
          (4, l) :: (3, r) :: (2, b) :: caps⟩ := by
    intro p caps; rw [run_seq, run_lit, run_seq, e3]; rfl
  have et : pairText l0 l1 l2 a b r l ++ q = l0 ++ (a ++ (['.', '.'] ++ (b ++ (l1 ++ (r ++ (l2 ++
      (l ++ ([')'] ++ q)))))))) := by
    simp [pairText]
  rw [et, pairReg, run_seq, run_lit, run_seq, num,
    run_grp_lazy 1 isNum _ [] a _ _ ha.ne_nil ha.isNum _ (by
      have := e2 (pos + l0.length + a.length) [(1, a)]
      rw [this]; rfl)]
  · have := e2 (pos + l0.length + a.length) [(1, a)]
    rw [this]
  · intro a1 a2 e _ ha2 p' c'
    rw [run_seq, run_lit_none]
    exact ha.no_dots a1 a2 _ e ha2

/-- Reading the printed shape anywhere in a line: the leftmost occurrence of `l0` decides. -/
theorem find_pair (l0 l1 l2 p a b r l q : List Char) (x y : Char) (s1 s2 : List Char)
    (h1 : l1 = x :: s1) (hx : isNum x = false) (h2 : l2 = y :: s2) (hy : isDig y = false)
    (ha : Decimal a) (hb : Decimal b)
    (hr : r ≠ []) (hrd : ∀ c ∈ r, isDig c = true) (hl : l ≠ []) (hld : ∀ c ∈ l, isDig c = true)
    (hp : FirstAt l0 p (pairText l0 l1 l2 a b r l ++ q)) :
    ∃ m, find (pairReg l0 l1 l2) (p ++ (pairText l0 l1 l2 a b r l ++ q)) = some m ∧
      m.caps = [(4, l), (3, r), (2, b), (1, a)] := by
  obtain ⟨m, hm, hc⟩ := run_pair l0 l1 l2 a b r l q x y s1 s2 h1 hx h2 hy ha hb hr hrd hl hld
    (0 + p.length)
  refine ⟨m, ?_, hc⟩
  rw [find, find_skip, hm]
  · intro p1 p2 e h2 pos'
    rw [pairReg, run_seq, run_lit_none]
    exact hp p1 p2 e h2
  · rw [hm]; rfl

/-- `l0 ([\d.]+?) (\.\.([\d.]+?))? (l1(\d+))? \)` with groups 1, 2(3), 4(5). -/
def costReg (l0 l1 : List Char) : Re :=
  .seq (.lit l0) (.seq (num 1)
    (.seq (.opt (.grp 2 (.seq (.lit ['.', '.']) (num 3))))
      (.seq (.opt (.grp 4 (.seq (.lit l1) (digits 5)))) (.lit [')']))))

/-- The texts that shape is printed as. -/
def costText (l0 l1 : List Char) (init : Option (List Char)) (c : List Char) (rows : Option (List Char)) :
    List Char :=
  l0 ++ ((match init with
    | none => c
    | some a => a ++ ['.', '.'] ++ c) ++ ((match rows with
    | none => []
    | some r => l1 ++ r) ++ [')']))

theorem take_len (x y : List Char) : (x ++ y).take ((x ++ y).length - y.length) = x := by simp

section Cost
variable (l1 s1 q : List Char) (x1 : Char) (h1 : l1 = x1 :: s1) (hx1 : isNum x1 = false)
  (hx1' : x1 ≠ ')') 

/-- rows part and closing parenthesis -/
def tailRe : Re := .seq (.opt (.grp 4 (.seq (.lit l1) (digits 5)))) (.lit [')'])

/-- the text of the rows part, the closing parenthesis and what follows -/
def tailText (rows : Option (List Char)) : List Char :=
  match rows with
  | none => ')' :: q
  | some r => l1 ++ (r ++ ')' :: q)

/-- the captures of the rows part -/
def tailCaps (rows : Option (List Char)) : List (Nat × List Char) :=
  match rows with
  | none => []
  | some r => [(4, l1 ++ r), (5, r)]

include h1 in
theorem tailRe_fail (y : Char) (s : List Char) (p : Nat) (caps) (hy : y ≠ x1) (hy' : y ≠ ')') :
    run (tailRe l1) ⟨p, y :: s, caps⟩ some = none := by
  have n1 : ¬ l1 <+: y :: s := by
    intro h; rw [h1, List.cons_prefix_cons] at h; exact hy h.1.symm
  have n2 : ¬ [')'] <+: y :: s := by
    intro h; rw [List.cons_prefix_cons] at h; exact hy' h.1.symm
  simp only [tailRe, Re.opt, run_seq, run_alt, run_grp, run_lit_none _ _ _ _ _ n1, run_eps,
    run_lit_none _ _ _ _ _ n2]

include h1 hx1' in
theorem tailRe_ok (rows : Option (List Char))
    (hr : ∀ r ∈ rows, r ≠ [] ∧ ∀ c ∈ r, isDig c = true) (p : Nat) (caps) :
    ∃ p', run (tailRe l1) ⟨p, tailText l1 q rows, caps⟩ some =
      some ⟨p', q, tailCaps l1 rows ++ caps⟩ := by
  have e8 : ∀ p caps, run (.lit [')']) ⟨p, ')' :: q, caps⟩ some = some ⟨p + 1, q, caps⟩ := by
    intro p caps; exact run_lit [')'] p q caps some
  cases rows with
  | none =>
    have n1 : ¬ l1 <+: ')' :: q := by
      intro h; rw [h1, List.cons_prefix_cons] at h; exact hx1' h.1
    refine ⟨p + 1, ?_⟩
    simp only [tailRe, tailText, tailCaps, Re.opt, run_seq, run_alt, run_grp, List.nil_append,
      run_lit_none _ _ _ _ _ n1, run_eps, e8]
  | some r =>
    obtain ⟨hr1, hr2⟩ := hr r rfl
    have hcap : (l1 ++ (r ++ ')' :: q)).take ((l1 ++ (r ++ ')' :: q)).length - (')' :: q).length)
        = l1 ++ r := by
      rw [← List.append_assoc]; exact take_len _ _
    refine ⟨p + l1.length + r.length + 1, ?_⟩
    rw [tailRe, run_seq, Re.opt, run_alt, tailText, run_grp, run_seq, run_lit, digits,
      run_grp_greedy 5 isDig _ caps r _ _ hr1 hr2]
    · simp only [hcap, e8]; rfl
    · intro c hc; simp at hc; subst hc; decide
    · simp only [e8]; rfl

include h1 hx1 in
theorem tailText_no_dots (rows : Option (List Char)) : ¬ ['.', '.'] <+: tailText l1 q rows := by
  intro h
  cases rows with
  | none => rw [tailText, List.cons_prefix_cons] at h; exact absurd h.1 (by decide)
  | some r =>
    rw [tailText, h1, List.cons_append, List.cons_prefix_cons] at h
    rw [← h.1] at hx1; exact absurd hx1 (by decide)

include h1 hx1 in
theorem dec_tail_fail {a : List Char} (ha : Decimal a) (r : List Char) (a1 a2 : List Char)
    (e : a = a1 ++ a2) (h2 : a2 ≠ []) (p : Nat) (caps) :
    run (tailRe l1) ⟨p, a2 ++ r, caps⟩ some = none := by
  cases a2 with
  | nil => exact absurd rfl h2
  | cons y s =>
    have hy := ha.isNum y (by rw [e]; simp)
    refine tailRe_fail l1 s1 x1 h1 y (s ++ r) p caps ?_ ?_
    · rintro rfl; rw [hx1] at hy; cases hy
    · rintro rfl; exact absurd hy (by decide)

include h1 hx1 hx1' in
/-- the captures of the estimation expression on the printed text -/
theorem run_cost (l0 : List Char) (init : Option (List Char)) (c : List Char)
    (rows : Option (List Char)) (pos : Nat)
    (hi : ∀ a ∈ init, Decimal a) (hc : Decimal c)
    (hr : ∀ r ∈ rows, r ≠ [] ∧ ∀ c ∈ r, isDig c = true) :
    ∃ m, run (costReg l0 l1) ⟨pos, costText l0 l1 init c rows ++ q, []⟩ some = some m ∧
      m.cap 1 = init.getD c ∧ (m.cap 2 = [] ↔ init = none) ∧ (init ≠ none → m.cap 3 = c) ∧
      (m.cap 4 = [] ↔ rows = none) ∧ (∀ r ∈ rows, m.cap 5 = r) := by
  have eRe : costReg l0 l1 = .seq (.lit l0) (.seq (num 1)
    (.seq (.opt (.grp 2 (.seq (.lit ['.', '.']) (num 3)))) (tailRe l1))) := rfl
  have l1ne : ∀ r, l1 ++ r ≠ [] := by intro r; rw [h1]; simp
  have optFail : ∀ (t : List Char) (p : Nat) caps (k : St → Option St), ¬ ['.', '.'] <+: t →
      run (.opt (.grp 2 (.seq (.lit ['.', '.']) (num 3)))) ⟨p, t, caps⟩ k = k ⟨p, t, caps⟩ := by
    intro t p caps k h
    simp only [Re.opt, run_alt, run_grp, run_seq, run_lit_none _ _ _ _ _ h, run_eps]
  cases init with
  | none =>
    obtain ⟨p', hp'⟩ := tailRe_ok l1 s1 q x1 h1 hx1' rows hr (pos + l0.length + c.length) [(1, c)]
    have et : costText l0 l1 none c rows ++ q = l0 ++ (c ++ tailText l1 q rows) := by
      cases rows <;> simp [costText, tailText]
    refine ⟨⟨p', q, tailCaps l1 rows ++ [(1, c)]⟩, ?_, ?_, ?_, by simp, ?_, ?_⟩
    · rw [et, eRe, run_seq, run_lit, run_seq]
      conv_lhs => rw [num]
      rw [run_grp_lazy 1 isNum _ [] c _ _ hc.ne_nil hc.isNum]
      · rw [run_seq, optFail _ _ _ _ (tailText_no_dots l1 s1 q x1 h1 hx1 rows)]; exact hp'
      · intro a1 a2 e _ h2 p1 caps1
        rw [run_seq, optFail _ _ _ _ (hc.no_dots a1 a2 _ e h2)]
        exact dec_tail_fail l1 s1 x1 h1 hx1 hc _ a1 a2 e h2 _ _
      · rw [run_seq, optFail _ _ _ _ (tailText_no_dots l1 s1 q x1 h1 hx1 rows), hp']; rfl
    · cases rows <;> simp [tailCaps, St.cap, List.lookup]
    · cases rows <;> simp [tailCaps, St.cap, List.lookup]
    · cases rows <;> simp [tailCaps, St.cap, List.lookup, h1]
    · intro r hr'; cases hr'; simp [tailCaps, St.cap, List.lookup]
  | some a =>
    have ha := hi a rfl
    have et : costText l0 l1 (some a) c rows ++ q =
        l0 ++ (a ++ (['.', '.'] ++ (c ++ tailText l1 q rows))) := by
      cases rows <;> simp [costText, tailText]
    have e2 : ∀ p, ∃ p', run (.opt (.grp 2 (.seq (.lit ['.', '.']) (num 3))))
        ⟨p, ['.', '.'] ++ (c ++ tailText l1 q rows), [(1, a)]⟩ (fun s => run (tailRe l1) s some) =
          some ⟨p', q, tailCaps l1 rows ++ [(2, ['.', '.'] ++ c), (3, c), (1, a)]⟩ := by
      intro p
      obtain ⟨p2, hp2⟩ := tailRe_ok l1 s1 q x1 h1 hx1' rows hr
        (p + ['.', '.'].length + c.length) [(2, ['.', '.'] ++ c), (3, c), (1, a)]
      have hcap : (['.', '.'] ++ (c ++ tailText l1 q rows)).take
          ((['.', '.'] ++ (c ++ tailText l1 q rows)).length - (tailText l1 q rows).length) =
            ['.', '.'] ++ c := by
        rw [← List.append_assoc]; exact take_len _ _
      refine ⟨p2, ?_⟩
      rw [Re.opt, run_alt, run_grp, run_seq, run_lit]
      conv_lhs => rw [num]
      rw [run_grp_lazy 3 isNum _ _ c _ _ hc.ne_nil hc.isNum]
      · simp only [hcap, hp2]
      · intro a1 a2 e _ h2 p1 caps1
        exact dec_tail_fail l1 s1 x1 h1 hx1 hc _ a1 a2 e h2 _ _
      · simp only [hcap, hp2]; rfl
    obtain ⟨p', hp'⟩ := e2 (pos + l0.length + a.length)
    refine ⟨⟨p', q, tailCaps l1 rows ++ [(2, ['.', '.'] ++ c), (3, c), (1, a)]⟩, ?_, ?_, ?_, ?_, ?_, ?_⟩
    · rw [et, eRe, run_seq, run_lit, run_seq]
      conv_lhs => rw [num]
      rw [run_grp_lazy 1 isNum _ [] a _ _ ha.ne_nil ha.isNum]
      · rw [run_seq]; exact hp'
      · intro a1 a2 e _ h2 p1 caps1
        rw [run_seq, optFail _ _ _ _ (ha.no_dots a1 a2 _ e h2)]
        exact dec_tail_fail l1 s1 x1 h1 hx1 ha _ a1 a2 e h2 _ _
      · rw [run_seq, hp']; rfl
    · cases rows <;> simp [tailCaps, St.cap, List.lookup]
    · cases rows <;> simp [tailCaps, St.cap, List.lookup]
    · intro _; cases rows <;> simp [tailCaps, St.cap, List.lookup]
    · cases rows <;> simp [tailCaps, St.cap, List.lookup, h1]
    · intro r hr'; cases hr'; simp [tailCaps, St.cap, List.lookup]

end Cost

end Verif.Regex
