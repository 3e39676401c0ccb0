import Mathlib.Data.List.Basic
/-!
# Ranges of instants

`/repo/lib/time.go`.  Instants are nanoseconds; the overflow of `time.Time` some 290 billion years
from now is left out.
-/
namespace Verif.Lib

/-- `for t := start; t < lim; t += d`: the values of `t`; `none` if the loop outruns the fuel. -/
def timesBelow : Nat → Int → Int → Int → Option (List Int)
  | 0, _, _, _ => none
  | fuel + 1, t, lim, d => if t < lim then
      match timesBelow fuel (t + d) lim d with
      | none => none
      | some r => some (t :: r)
    else some []

/-- fuel that suffices for positive steps -/
def enough (start lim : Int) : Nat := (lim - start).toNat + 1

/-- `/repo/lib/time.go:13-20` `GenerateTimeRanges` -/
def generateTimeRanges (start stop interval : Int) : Option (List Int) :=
  timesBelow (enough start stop) start stop interval

/-! ## C35 -/

/-- Windows of length `d` one after the other, the first at `t`. -/
def Consecutive (d : Int) : Int → List Int → Prop
  | _, [] => True
  | t, x :: xs => x = t ∧ Consecutive d (t + d) xs

theorem mul_succ_cast (d : Int) (n : Nat) : d * ((n + 1 : Nat) : Int) = d + d * (n : Int) := by
  rw [Int.natCast_add, Int.mul_add]; simp; omega

theorem timesBelow_spec (d : Int) (hd : 0 < d) : ∀ (fuel : Nat) (t lim : Int), (lim - t).toNat < fuel →
    ∃ r, timesBelow fuel t lim d = some r ∧ Consecutive d t r ∧ (∀ x ∈ r, t ≤ x ∧ x < lim) ∧
      lim ≤ max t (t + d * r.length) ∧ (∀ x ∈ r, ∃ k : Nat, x = t + d * k) ∧
      (∀ k : Nat, t + d * k < lim → t + d * k ∈ r)
  | 0, t, lim, h => absurd h (by omega)
  | fuel + 1, t, lim, h => by
    rw [timesBelow]
    by_cases hc : t < lim
    · rw [if_pos hc]
      obtain ⟨r, h1, h2, h3, h4, h5, h6⟩ := timesBelow_spec d hd fuel (t + d) lim (by omega)
      simp only [h1]
      refine ⟨t :: r, rfl, ⟨rfl, h2⟩, ?_, ?_, ?_, ?_⟩
      · intro x hx
        rcases List.mem_cons.mp hx with rfl | hx
        · exact ⟨Int.le_refl _, hc⟩
        · have := h3 x hx
          omega
      · have e : d * ((t :: r).length : Int) = d + d * (r.length : Int) := mul_succ_cast d r.length
        rw [e]
        have hnn : 0 ≤ d * (r.length : Int) := Int.mul_nonneg (by omega) (by omega)
        omega
      · intro x hx
        rcases List.mem_cons.mp hx with rfl | hx
        · exact ⟨0, by simp⟩
        · obtain ⟨k, hk⟩ := h5 x hx
          refine ⟨k + 1, ?_⟩
          rw [hk, mul_succ_cast]; omega
      · intro k hk
        cases k with
        | zero => simp
        | succ k =>
          have e : t + d * ((k + 1 : Nat) : Int) = t + d + d * (k : Int) := by
            rw [mul_succ_cast]; omega
          rw [e] at hk ⊢
          exact List.mem_cons_of_mem _ (h6 k hk)
    · rw [if_neg hc]
      refine ⟨[], rfl, trivial, by simp, by simp; omega, by simp, ?_⟩
      intro k hk
      have : 0 ≤ d * (k : Int) := Int.mul_nonneg (by omega) (by omega)
      omega

theorem consecutive_cover (d : Int) : ∀ (r : List Int) (t x : Int), Consecutive d t r → t ≤ x →
    x < t + d * r.length → ∃ w ∈ r, w ≤ x ∧ x < w + d
  | [], t, x, _, h1, h2 => by simp at h2; omega
  | w :: r, t, x, hc, h1, h2 => by
    obtain ⟨rfl, hc⟩ := hc
    by_cases hx : x < w + d
    · exact ⟨w, by simp, h1, hx⟩
    · have e : d * ((w :: r).length : Int) = d + d * (r.length : Int) := mul_succ_cast d r.length
      obtain ⟨v, hv, h3⟩ := consecutive_cover d r (w + d) x hc (by omega) (by rw [e] at h2; omega)
      exact ⟨v, List.mem_cons_of_mem _ hv, h3⟩

/-- C35: for a positive interval the split ends, its windows `[w, w + interval)` are consecutive from
the start, every window starts before the end (so the last one ends less than an interval after it),
and every instant of the range lies in one of them. -/
theorem C35_tiles (start stop interval : Int) (hi : 0 < interval) :
    ∃ r, generateTimeRanges start stop interval = some r ∧ Consecutive interval start r ∧
      (∀ w ∈ r, start ≤ w ∧ w < stop) ∧
      (∀ x, start ≤ x → x < stop → ∃ w ∈ r, w ≤ x ∧ x < w + interval) := by
  obtain ⟨r, h1, h2, h3, h4, _⟩ := timesBelow_spec interval hi (enough start stop) start stop
    (by unfold enough; omega)
  refine ⟨r, h1, h2, h3, fun x hx1 hx2 => ?_⟩
  exact consecutive_cover interval r start x h2 hx1 (by omega)

/-- C35: windows do not overlap. -/
theorem C35_disjoint (d : Int) (hd : 0 < d) : ∀ (r : List Int) (t : Int), Consecutive d t r →
    r.Pairwise (fun v w => v + d ≤ w)
  | [], _, _ => List.Pairwise.nil
  | x :: r, t, h => by
    obtain ⟨rfl, h⟩ := h
    refine List.pairwise_cons.mpr ⟨?_, C35_disjoint d hd r _ h⟩
    have : ∀ (r : List Int) (t : Int), Consecutive d t r → ∀ w ∈ r, t ≤ w := by
      intro r
      induction r with
      | nil => simp
      | cons y r ih =>
        rintro t ⟨rfl, h⟩ w hw
        rcases List.mem_cons.mp hw with rfl | hw
        · exact Int.le_refl _
        · have := ih (y + d) h w hw
          omega
    exact this r (x + d) h

/-- C35: an empty range has no window. -/
theorem C35_empty (start stop interval : Int) (h : stop ≤ start) :
    generateTimeRanges start stop interval = some [] := by
  unfold generateTimeRanges enough
  rw [timesBelow, if_neg (by omega)]

/-- C35 needs a positive interval: otherwise the loop over a non-empty range never ends. -/
theorem C35_diverges (start stop interval : Int) (h : start < stop) (hi : interval ≤ 0) :
    ∀ fuel, timesBelow fuel start stop interval = none := by
  intro fuel
  induction fuel generalizing start with
  | zero => rfl
  | succ fuel ih => rw [timesBelow, if_pos h, ih (start + interval) (by omega)]

example : generateTimeRanges 10 100 30 = some [10, 40, 70] := by decide +kernel
example : generateTimeRanges 10 101 30 = some [10, 40, 70, 100] := by decide +kernel

end Verif.Lib
