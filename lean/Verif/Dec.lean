import Verif.Regex.Model
/-! Decimal printing of natural numbers (`strconv.FormatInt(n, 10)`, `%d`). -/
namespace Verif

/-- the digit character of `n % 10` -/
def digitChar (n : Nat) : Char := Char.ofNat (48 + n % 10)

/-- Go's decimal formatting of a non-negative integer. -/
def dec (n : Nat) : List Char :=
  if n < 10 then [digitChar n] else dec (n / 10) ++ [digitChar n]
termination_by n
decreasing_by omega

theorem dec_lt {n : Nat} (h : n < 10) : dec n = [digitChar n] := by rw [dec]; simp [h]
theorem dec_ge {n : Nat} (h : ¬n < 10) : dec n = dec (n / 10) ++ [digitChar n] := by
  rw [dec]; simp [h]

theorem digitChar_cases (n : Nat) : digitChar n ∈ ['0','1','2','3','4','5','6','7','8','9'] := by
  unfold digitChar
  have h : n % 10 < 10 := Nat.mod_lt _ (by omega)
  generalize n % 10 = m at *
  match m, h with
  | 0, _ => decide
  | 1, _ => decide
  | 2, _ => decide
  | 3, _ => decide
  | 4, _ => decide
  | 5, _ => decide
  | 6, _ => decide
  | 7, _ => decide
  | 8, _ => decide
  | 9, _ => decide

theorem dec_digits (n : Nat) : ∀ c ∈ dec n, c ∈ ['0','1','2','3','4','5','6','7','8','9'] := by
  induction n using Nat.strongRecOn with
  | ind n ih =>
    intro c hc
    by_cases h : n < 10
    · rw [dec_lt h] at hc; simp only [List.mem_singleton] at hc; rw [hc]; exact digitChar_cases n
    · rw [dec_ge h] at hc
      rcases List.mem_append.mp hc with hc | hc
      · exact ih (n / 10) (by omega) c hc
      · simp only [List.mem_singleton] at hc; rw [hc]; exact digitChar_cases n

theorem dec_ne_nil (n : Nat) : dec n ≠ [] := by
  by_cases h : n < 10
  · rw [dec_lt h]; simp
  · rw [dec_ge h]; simp

/-- A number below `10^(k+1)` has at most `k+1` digits. -/
theorem dec_length_le (k n : Nat) (h : n < 10 ^ (k + 1)) : (dec n).length ≤ k + 1 := by
  induction k generalizing n with
  | zero => rw [dec_lt (by omega)]; simp
  | succ k ih =>
    by_cases h1 : n < 10
    · rw [dec_lt h1]; simp
    · rw [dec_ge h1]
      have : n / 10 < 10 ^ (k + 1) := by
        rw [Nat.div_lt_iff_lt_mul (by omega)]
        rw [Nat.pow_succ] at h; exact h
      have := ih (n / 10) this
      simp; omega

theorem isWord_of_digit {c : Char} (h : c ∈ ['0','1','2','3','4','5','6','7','8','9']) :
    Regex.isWord c = true := by
  simp only [List.mem_cons, List.not_mem_nil, or_false] at h
  rcases h with h | h | h | h | h | h | h | h | h | h <;> subst h <;> decide

end Verif
