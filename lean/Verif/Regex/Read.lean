import Verif.Regex.Lemmas
/-! Helper lemmas for reading a printed text back with a regular expression. -/
namespace Verif.Regex

theorem run_lit (s : List Char) : ∀ (pos : Nat) (r : List Char) (caps) (k : St → Option St),
    run (.lit s) ⟨pos, s ++ r, caps⟩ k = k ⟨pos + s.length, r, caps⟩ := by
  induction s with
  | nil => intro pos r caps k; simp [Re.lit, run]
  | cons c cs ih =>
    intro pos r caps k
    cases cs with
    | nil => simp [Re.lit, run]
    | cons d ds =>
      have := ih (pos + 1) r caps k
      simp only [Re.lit, run_seq, List.cons_append, run_cls_cons, beq_self_eq_true, if_true] at this ⊢
      rw [this]
      simp only [List.length_cons]
      congr 2; omega

theorem run_lit_none (s : List Char) : ∀ (pos : Nat) (t : List Char) (caps) (k : St → Option St),
    ¬ s <+: t → run (.lit s) ⟨pos, t, caps⟩ k = none := by
  induction s with
  | nil => intro pos t caps k h; exact absurd List.nil_prefix h
  | cons c cs ih =>
    intro pos t caps k h
    cases t with
    | nil => cases cs <;> simp [Re.lit, run]
    | cons d ds =>
      by_cases hc : d = c
      · subst hc
        cases cs with
        | nil => exact absurd (List.cons_prefix_cons.mpr ⟨rfl, List.nil_prefix⟩) h
        | cons e es =>
          simp only [Re.lit, run_seq, run_cls_cons, beq_self_eq_true, if_true]
          refine ih (pos + 1) ds caps k ?_
          intro h'
          exact h (List.cons_prefix_cons.mpr ⟨rfl, h'⟩)
      · have hb : (d == c) = false := by simpa using hc
        cases cs with
        | nil => simp [Re.lit, run_cls_cons, hb]
        | cons e es => simp [Re.lit, run_seq, run_cls_cons, hb]

theorem lazyScan_run (p : Char → Bool) (k : St → Option St) (caps) (r : List Char) :
    ∀ (a : List Char) (pos : Nat), (∀ c ∈ a, p c = true) →
      (∀ a1 a2, a = a1 ++ a2 → a2 ≠ [] → k ⟨pos + a1.length, a2 ++ r, caps⟩ = none) →
      (k ⟨pos + a.length, r, caps⟩).isSome →
      lazyScan p k caps pos (a ++ r) = k ⟨pos + a.length, r, caps⟩ := by
  intro a
  induction a with
  | nil =>
    intro pos _ _ hs
    cases r with
    | nil => simp [lazyScan]
    | cons c cs =>
      simp only [List.nil_append, lazyScan, List.length_nil, Nat.add_zero] at hs ⊢
      cases h : k ⟨pos, c :: cs, caps⟩ with
      | none => rw [h] at hs; simp at hs
      | some x => rfl
  | cons c cs ih =>
    intro pos hp hn hs
    have h0 := hn [] (c :: cs) rfl (by simp)
    simp only [List.length_nil, Nat.add_zero, List.cons_append] at h0
    rw [List.cons_append, lazyScan, h0]
    simp only [hp c (by simp), if_true]
    rw [ih (pos + 1) (fun x hx => hp x (by simp [hx]))]
    · simp only [List.length_cons]; congr 2; omega
    · intro a1 a2 h h2
      have := hn (c :: a1) a2 (by rw [h]; rfl) h2
      rw [List.length_cons] at this
      rw [show pos + 1 + a1.length = pos + (a1.length + 1) by omega]; exact this
    · rw [List.length_cons] at hs
      rw [show pos + 1 + cs.length = pos + (cs.length + 1) by omega]; exact hs

/-- `([p]+?)` followed by something that fails as long as it has not taken all of `a`. -/
theorem run_grp_lazy (n : Nat) (p : Char → Bool) (k : St → Option St) (caps) (a r : List Char)
    (pos : Nat) (ha : a ≠ []) (hp : ∀ c ∈ a, p c = true)
    (hn : ∀ a1 a2, a = a1 ++ a2 → a1 ≠ [] → a2 ≠ [] →
      ∀ pos' caps', k ⟨pos', a2 ++ r, caps'⟩ = none)
    (hs : (k ⟨pos + a.length, r, (n, a) :: caps⟩).isSome) :
    run (.grp n (.plus false (.cls p))) ⟨pos, a ++ r, caps⟩ k =
      k ⟨pos + a.length, r, (n, a) :: caps⟩ := by
  cases a with
  | nil => exact absurd rfl ha
  | cons c cs =>
    have hcap : ∀ (x y : List Char), (x ++ y).take ((x ++ y).length - y.length) = x := by
      intro x y; simp
    have hlen : pos + 1 + cs.length = pos + (c :: cs).length := by simp; omega
    simp only [run_grp, Re.plus, run_seq, List.cons_append, run_cls_cons, hp c (by simp), if_true,
      run_star_lazy_cls]
    rw [lazyScan_run]
    · have := hcap (c :: cs) r
      simp only [List.cons_append] at this
      simp only [this, hlen]
    · intro x hx; exact hp x (by simp [hx])
    · intro a1 a2 h h2
      exact hn (c :: a1) a2 (by rw [h]; rfl) (by simp) h2 _ _
    · have := hcap (c :: cs) r
      simp only [List.cons_append] at this
      simp only [this, hlen]; exact hs

theorem greedyScan_run (p : Char → Bool) (k : St → Option St) (caps) (r : List Char)
    (hr : ∀ c ∈ r.head?, p c = false) :
    ∀ (a : List Char) (pos : Nat), (∀ c ∈ a, p c = true) →
      (k ⟨pos + a.length, r, caps⟩).isSome →
      greedyScan p k caps pos (a ++ r) = k ⟨pos + a.length, r, caps⟩ := by
  intro a
  induction a with
  | nil =>
    intro pos _ _
    cases r with
    | nil => simp [greedyScan]
    | cons c cs => simp [greedyScan, hr c (by simp)]
  | cons c cs ih =>
    intro pos hp hs
    rw [List.length_cons, show pos + (cs.length + 1) = pos + 1 + cs.length by omega] at hs ⊢
    simp only [List.cons_append, greedyScan, hp c (by simp), if_true]
    rw [ih (pos + 1) (fun x hx => hp x (by simp [hx])) hs]
    cases h : k ⟨pos + 1 + cs.length, r, caps⟩ with
    | none => rw [h] at hs; simp at hs
    | some x => rfl

/-- `([p]+)` followed by something that succeeds after all of `a`. -/
theorem run_grp_greedy (n : Nat) (p : Char → Bool) (k : St → Option St) (caps) (a r : List Char)
    (pos : Nat) (ha : a ≠ []) (hp : ∀ c ∈ a, p c = true) (hr : ∀ c ∈ r.head?, p c = false)
    (hs : (k ⟨pos + a.length, r, (n, a) :: caps⟩).isSome) :
    run (.grp n (.plus true (.cls p))) ⟨pos, a ++ r, caps⟩ k =
      k ⟨pos + a.length, r, (n, a) :: caps⟩ := by
  cases a with
  | nil => exact absurd rfl ha
  | cons c cs =>
    have hcap : ∀ (x y : List Char), (x ++ y).take ((x ++ y).length - y.length) = x := by
      intro x y; simp
    have hlen : pos + 1 + cs.length = pos + (c :: cs).length := by simp; omega
    simp only [run_grp, Re.plus, run_seq, List.cons_append, run_cls_cons, hp c (by simp), if_true,
      run_star_greedy_cls]
    have := hcap (c :: cs) r
    simp only [List.cons_append] at this
    rw [greedyScan_run _ _ _ _ hr]
    · simp only [this, hlen]
    · intro x hx; exact hp x (by simp [hx])
    · simp only [this, hlen]; exact hs

/-- The leftmost match is the first position where the expression matches. -/
theorem find_skip (r : Re) : ∀ (p t : List Char) (pos : Nat),
    (∀ p1 p2, p = p1 ++ p2 → p2 ≠ [] → ∀ pos', run r ⟨pos', p2 ++ t, []⟩ some = none) →
    (run r ⟨pos + p.length, t, []⟩ some).isSome →
    findFrom r pos (p ++ t) = run r ⟨pos + p.length, t, []⟩ some := by
  intro p
  induction p with
  | nil =>
    intro t pos _ hs
    cases t with
    | nil => simp [findFrom]
    | cons c cs =>
      simp only [List.nil_append, List.length_nil, Nat.add_zero] at hs ⊢
      rw [findFrom]
      cases h : run r ⟨pos, c :: cs, []⟩ some with
      | none => rw [h] at hs; simp at hs
      | some x => rfl
  | cons c cs ih =>
    intro t pos hn hs
    rw [List.cons_append, findFrom, show run r ⟨pos, c :: (cs ++ t), []⟩ some = none from
      hn [] (c :: cs) rfl (by simp) pos]
    simp only
    rw [List.length_cons, show pos + (cs.length + 1) = pos + 1 + cs.length by omega] at hs ⊢
    exact ih t (pos + 1) (fun p1 p2 h h2 => hn (c :: p1) p2 (by rw [h]; rfl) h2) hs

/-- `s` does not occur in `p ++ t` before `t` starts. -/
def FirstAt (s p t : List Char) : Prop := ∀ p1 p2, p = p1 ++ p2 → p2 ≠ [] → ¬ s <+: p2 ++ t

/-- No match when the leading literal does not occur. -/
theorem find_none_of_absent (s : List Char) (r : Re) : ∀ (t : List Char) (pos : Nat),
    (∀ t1 t2, t = t1 ++ t2 → ¬ s <+: t2) → findFrom (.seq (.lit s) r) pos t = none := by
  intro t
  induction t with
  | nil =>
    intro pos h
    rw [findFrom, run_seq, run_lit_none _ _ _ _ _ (h [] [] rfl)]
  | cons c cs ih =>
    intro pos h
    rw [findFrom, run_seq, run_lit_none _ _ _ _ _ (h [] (c :: cs) rfl)]
    exact ih (pos + 1) (fun t1 t2 e => h (c :: t1) t2 (by rw [e]; rfl))

end Verif.Regex
