import Verif.Client.Shell
/-!
# C61: exactly which statements the command of the load report passes on unchanged
-/
namespace Verif.Client.Shell

/-! ## Specification -/

/-- Without `"`, `$` and backquote, and with every backslash before a character that keeps it. -/
def Harmless (s : Str) : Prop := ∀ a c b, s = a ++ c :: b →
  c ≠ '"' ∧ c ≠ '$' ∧ c ≠ '`' ∧
    (c = '\\' → ∃ d b', b = d :: b' ∧ d ≠ '"' ∧ d ≠ '$' ∧ d ≠ '`' ∧ d ≠ '\\' ∧ d ≠ '\n')

/-! ## Proofs -/

/-- the characters collected so far -/
def Q.acc : Q → Str
  | .between => []
  | .bare a => a
  | .dq a => a

/-- one character is lost if there is a double quote -/
def lost (t : Str) : Nat := if '"' ∈ t then 1 else 0

theorem lost_le (t : Str) : lost t ≤ 1 := by unfold lost; split <;> omega

theorem lost_cons (c : Char) (t : Str) (h : c ≠ '"') : lost (c :: t) = lost t := by
  unfold lost
  simp [Ne.symm h]

theorem split_len (q : Q) (t : Str) : ∀ ws, split q t = some ws →
    ws.flatten.length + lost t ≤ q.acc.length + t.length := by
  fun_induction split q t with
  | case1 q =>
    intro ws h
    cases q <;> simp [Q.finish] at h <;> subst h <;> simp [Q.acc, lost]
  | case2 cs ih =>
    intro ws h
    have := ih ws h
    rw [lost_cons _ _ (by decide), lost_cons _ _ (by decide)]
    simp only [List.length_cons]; omega
  | case3 c cs _ hc ih =>
    intro ws h
    have := ih ws h
    rw [lost_cons _ _ (by rintro rfl; revert hc; decide)]
    simp only [List.length_cons]; omega
  | case4 cs _ _ ih =>
    intro ws h
    have := ih ws h
    have := lost_le ('"' :: cs)
    simp only [List.length_cons, Q.acc, List.length_nil] at *; omega
  | case5 c cs _ _ hq _ ih =>
    intro ws h
    have := ih ws h
    rw [lost_cons _ _ hq]
    simp only [List.length_cons, Q.acc, List.length_nil] at *; omega
  | case6 => intro ws h; cases h
  | case7 a cs ih =>
    intro ws h
    have := ih ws h
    rw [lost_cons _ _ (by decide), lost_cons _ _ (by decide)]
    simp only [List.length_cons]; omega
  | case8 a c cs _ hc ih =>
    intro ws h
    obtain ⟨ws', h1, rfl⟩ := Option.map_eq_some_iff.mp h
    have := ih ws' h1
    rw [lost_cons _ _ (by rintro rfl; revert hc; decide)]
    simp only [List.length_cons, Q.acc, List.length_nil, List.flatten_cons, List.length_append] at *; omega
  | case9 a cs _ _ ih =>
    intro ws h
    have := ih ws h
    have := lost_le ('"' :: cs)
    simp only [List.length_cons, Q.acc] at *; omega
  | case10 a c cs _ _ hq _ ih =>
    intro ws h
    have := ih ws h
    rw [lost_cons _ _ hq]
    simp only [List.length_cons, Q.acc, List.length_append, List.length_nil] at *; omega
  | case11 => intro ws h; cases h
  | case12 a c cs _ ih =>
    intro ws h
    have := ih ws h
    have := lost_le ('\\' :: c :: cs)
    simp only [List.length_cons, Q.acc, List.length_append, List.length_nil] at *; omega
  | case13 a cs _ ih =>
    intro ws h
    have := ih ws h
    rw [lost_cons _ _ (by decide), lost_cons _ _ (by decide)]
    simp only [List.length_cons, Q.acc] at *; omega
  | case14 a c cs hd _ ih =>
    intro ws h
    have := ih ws h
    rw [lost_cons _ _ (by decide), lost_cons _ _ (by rintro rfl; revert hd; decide)]
    simp only [List.length_cons, Q.acc, List.length_append, List.length_nil] at *; omega
  | case15 a cs _ ih =>
    intro ws h
    have := ih ws h
    have := lost_le ('"' :: cs)
    simp only [List.length_cons, Q.acc] at *; omega
  | case16 => intro ws h; cases h
  | case17 a c cs _ hq _ ih =>
    intro ws h
    have := ih ws h
    rw [lost_cons _ _ hq]
    simp only [List.length_cons, Q.acc, List.length_append, List.length_nil] at *; omega

theorem lost_end (s : Str) : lost (s ++ ['"']) = 1 := by unfold lost; simp

/-- a harmless text is taken as it is -/
theorem split_harmless (s : Str) : ∀ a, Harmless s → split (.dq a) (s ++ ['"']) = some [a ++ s] := by
  induction hn : s.length using Nat.strongRecOn generalizing s with
  | ind n ih =>
    intro a h
    cases s with
    | nil => simp [split, Q.finish]
    | cons c s =>
      obtain ⟨h1, h2, h3, h4⟩ := h [] c s rfl
      by_cases hb : c = '\\'
      · subst hb
        obtain ⟨d, s', rfl, d1, d2, d3, d4, d5⟩ := h4 rfl
        have hd : isDq d = false := by
          rw [isDq_eq, Bool.eq_false_iff, ne_eq, isSpecial_iff]
          rintro (k | k | k | k) <;> contradiction
        have := ih s'.length (by rw [← hn]; simp only [List.length_cons]; omega) s' rfl (a ++ ['\\', d])
          (fun x c y e => h ('\\' :: d :: x) c y (by rw [e]; rfl))
        rw [List.cons_append, List.cons_append, split.eq_def]
        simp only [hd, Bool.false_eq_true, if_false, if_neg d5, this]
        simp
      · have := ih s.length (by rw [← hn]; simp) s rfl (a ++ [c])
          (fun x c' y e => h (c :: x) c' y (by rw [e]; rfl))
        rw [List.cons_append, split_dq_other _ _ _ (by
          rw [Bool.eq_false_iff, ne_eq, isSpecial_iff]; rintro (k | k | k | k) <;> contradiction), this]
        simp

/-- and no other text is -/
theorem harmless_of_split (s : Str) : ∀ a, split (.dq a) (s ++ ['"']) = some [a ++ s] → Harmless s := by
  induction hn : s.length using Nat.strongRecOn generalizing s with
  | ind n ih =>
    intro a h
    cases s with
    | nil => intro x c y e; simp at e
    | cons c s =>
      have step : ∀ (p t : Str), (∃ c', p = [c'] ∧ c' ≠ '"' ∧ c' ≠ '$' ∧ c' ≠ '`' ∧ c' ≠ '\\') ∨
          (∃ d, p = ['\\', d] ∧ d ≠ '"' ∧ d ≠ '$' ∧ d ≠ '`' ∧ d ≠ '\\' ∧ d ≠ '\n') →
          Harmless t → Harmless (p ++ t) := by
        intro p t hp ht x c' y e
        rcases hp with ⟨c1, rfl, k1, k2, k3, k4⟩ | ⟨d, rfl, k1, k2, k3, k4, k5⟩
        · cases x with
          | nil =>
            simp only [List.cons_append, List.nil_append, List.cons.injEq] at e
            obtain ⟨rfl, rfl⟩ := e
            exact ⟨k1, k2, k3, fun k => absurd k k4⟩
          | cons z x =>
            simp only [List.cons_append, List.nil_append, List.cons.injEq] at e
            exact ht x c' y e.2
        · cases x with
          | nil =>
            simp only [List.cons_append, List.nil_append, List.cons.injEq] at e
            obtain ⟨rfl, rfl⟩ := e
            exact ⟨by decide, by decide, by decide, fun _ => ⟨d, t, rfl, k1, k2, k3, k4, k5⟩⟩
          | cons z x =>
            simp only [List.cons_append, List.nil_append, List.cons.injEq] at e
            cases x with
            | nil =>
              simp only [List.nil_append, List.cons.injEq] at e
              obtain ⟨_, rfl, rfl⟩ := e
              exact ⟨k1, k2, k3, fun k => absurd k k4⟩
            | cons z' x =>
              simp only [List.cons_append, List.cons.injEq] at e
              exact ht x c' y e.2.2
      by_cases hb : c = '\\'
      · subst hb
        cases s with
        | nil =>
          rw [List.cons_append, List.nil_append, split_dq_escaped _ _ _ (by decide)] at h
          simp [split, Q.finish] at h
        | cons d s =>
          by_cases hd : isSpecial d = true
          · rw [List.cons_append, List.cons_append, split_dq_escaped _ _ _ hd] at h
            have := split_len _ _ _ h
            rw [lost_end] at this
            simp only [Q.acc, List.length_append, List.length_cons, List.length_nil, List.flatten_cons,
              List.flatten_nil] at this
            omega
          · by_cases hnl : d = '\n'
            · subst hnl
              rw [List.cons_append, List.cons_append, split.eq_def] at h
              simp only [show isDq '\n' = false by decide, Bool.false_eq_true, if_false, if_true] at h
              have := split_len _ _ _ h
              rw [lost_end] at this
              simp only [Q.acc, List.length_append, List.length_cons, List.length_nil, List.flatten_cons,
                List.flatten_nil] at this
              omega
            · rw [List.cons_append, List.cons_append, split.eq_def] at h
              simp only [isDq_eq, hd, Bool.false_eq_true, if_false, if_neg hnl] at h
              have hs := ih s.length (by rw [← hn]; simp only [List.length_cons]; omega) s rfl (a ++ ['\\', d])
                (by rw [h]; simp)
              rw [isSpecial_iff] at hd
              exact step ['\\', d] s (.inr ⟨d, rfl, fun k => hd (.inl k), fun k => hd (.inr (.inl k)),
                fun k => hd (.inr (.inr (.inl k))), fun k => hd (.inr (.inr (.inr k))), hnl⟩) hs
      · by_cases hc : isSpecial c = true
        · rcases (isSpecial_iff c).mp hc with rfl | rfl | rfl | rfl
          · rw [List.cons_append, split_dq_quote] at h
            have := split_len _ _ _ h
            rw [lost_end] at this
            simp only [Q.acc, List.length_append, List.length_cons, List.length_nil, List.flatten_cons,
              List.flatten_nil] at this
            omega
          · rw [List.cons_append, split.eq_def] at h; simp at h
          · rw [List.cons_append, split.eq_def] at h; simp at h
          · exact absurd rfl hb
        · rw [List.cons_append, split_dq_other _ _ _ (by simpa using hc)] at h
          have hs := ih s.length (by rw [← hn]; simp) s rfl (a ++ [c]) (by rw [h]; simp)
          rw [isSpecial_iff] at hc
          exact step [c] s (.inl ⟨c, rfl, fun k => hc (.inl k), fun k => hc (.inr (.inl k)),
                fun k => hc (.inr (.inr (.inl k))), hb⟩) hs

/-- C61, exactly: with a database of ordinary characters the command passes the statement on unchanged exactly if
it has no `"`, `$` and backquote, and every backslash in it stands before a character that is not one of these,
a backslash or a newline. -/
theorem C61_iff (db sql : Str) (hd : Unspecial db) :
    words (loadCommand (some db) (some sql)) =
      some ["DB_DATABASE=".toList ++ db, "gr".toList, "db".toList, "suggest".toList, "-o".toList,
        "suggest.html".toList, "-q".toList, sql] ↔ Harmless sql := by
  unfold words loadCommand
  simp only [Option.getD_some]
  have e : "DB_DATABASE=\"".toList ++ db ++ "\" gr db suggest -o \"suggest.html\" \\\n\t-q \"".toList ++
      sql ++ ['"'] =
      "DB_DATABASE=".toList ++ ('"' :: (db ++ '"' :: (' ' ::
        (((["gr".toList, "db".toList, "suggest".toList, "-o".toList].map (· ++ [' '])).flatten ++
        ('"' :: ("suggest.html".toList ++ '"' :: (" \\\n".toList ++ ('\t' :: ((["-q".toList].map
          (· ++ [' '])).flatten ++ ('"' :: (sql ++ ['"'])))))))))))) := by
    simp
  have h1 : ∀ w ∈ ["gr".toList, "db".toList, "suggest".toList, "-o".toList],
      (!w.isEmpty && w.all isPlain) = true := by decide +kernel
  have h2 : ∀ w ∈ ["-q".toList], (!w.isEmpty && w.all isPlain) = true := by decide +kernel
  have h3 : Bare "DB_DATABASE=".toList := bare_of _ (by decide +kernel)
  have h4 : Unspecial "suggest.html".toList := by unfold Unspecial; decide +kernel
  rw [e, split_between _ _ h3, split_bare_quote, split_unspecial _ _ _ hd, split_bare_space,
    split_words _ h1, split_between_quote, split_unspecial _ _ _ h4, split_cont,
    split_between_space _ (.inr rfl), split_words _ h2, split_between_quote]
  constructor
  · intro h
    apply harmless_of_split sql []
    cases hs : split (.dq []) (sql ++ ['"']) with
    | none => rw [hs] at h; simp at h
    | some ws => rw [hs] at h; simpa using h
  · intro h
    rw [split_harmless sql [] h]
    simp

/-! ### Concrete cases -/

/-- a regular expression with a backslash is passed on -/
example : words (loadCommand (some ['d']) (some "SELECT '\\d'".toList)) =
    some ["DB_DATABASE=d".toList, "gr".toList, "db".toList, "suggest".toList, "-o".toList,
      "suggest.html".toList, "-q".toList, "SELECT '\\d'".toList] := by decide +kernel

/-- one with an escaped backslash loses it -/
example : words (loadCommand (some ['d']) (some "SELECT '\\\\d'".toList)) =
    some ["DB_DATABASE=d".toList, "gr".toList, "db".toList, "suggest".toList, "-o".toList,
      "suggest.html".toList, "-q".toList, "SELECT '\\d'".toList] := by decide +kernel

end Verif.Client.Shell
