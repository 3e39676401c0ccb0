import Mathlib.Data.List.Basic
import Mathlib.Data.List.Perm.Basic
import Verif.Heap.Model
/-!
# C32: the bounded heap keeps the largest values
-/
namespace Verif.Heap

variable {α : Type}

/-- What is assumed of the comparison: a strict weak order. -/
structure StrictWeak (less : α → α → Bool) : Prop where
  asymm : ∀ a b, less a b = true → less b a = false
  negTrans : ∀ a b c, less b a = false → less c b = false → less c a = false

/-- `a` is not above `b` -/
def le (less : α → α → Bool) (a b : α) : Prop := less b a = false

section
variable {less : α → α → Bool} (hw : StrictWeak less)
include hw

theorem le_refl' (a : α) : le less a a := by
  unfold le
  cases h : less a a with
  | false => rfl
  | true => have := hw.asymm a a h; rw [h] at this; cases this

theorem le_trans' {a b c : α} (h1 : le less a b) (h2 : le less b c) : le less a c :=
  hw.negTrans a b c h1 h2

theorem le_of_less {a b : α} (h : less a b = true) : le less a b := hw.asymm a b h
end

/-- heap order at position `k` below its parent -/
def OkAt (less : α → α → Bool) (l : List α) (p k : Nat) : Prop :=
  ∀ a b, l[p]? = some a → l[k]? = some b → le less a b

/-- the first `n` values are a heap -/
def IsHeap (less : α → α → Bool) (l : List α) (n : Nat) : Prop :=
  ∀ k, 0 < k → k < n → OkAt less l ((k - 1) / 2) k

/-- a heap except possibly between `j` and its parent -/
structure UpInv (less : α → α → Bool) (l : List α) (n j : Nat) : Prop where
  other : ∀ k, 0 < k → k < n → k ≠ j → OkAt less l ((k - 1) / 2) k
  grand : 0 < j → ∀ k, 0 < k → k < n → (k - 1) / 2 = j → OkAt less l ((j - 1) / 2) k

/-- a heap except possibly between `i` and its children -/
structure DownInv (less : α → α → Bool) (l : List α) (n i : Nat) : Prop where
  other : ∀ k, 0 < k → k < n → (k - 1) / 2 ≠ i → OkAt less l ((k - 1) / 2) k
  grand : 0 < i → ∀ k, 0 < k → k < n → (k - 1) / 2 = i → OkAt less l ((i - 1) / 2) k

theorem swap_spec (l : List α) (i j : Nat) (hi : i < l.length) (hj : j < l.length) :
    ∃ l', swap l i j = some l' ∧ l'.Perm l ∧ l'.length = l.length ∧
      l'[i]? = l[j]? ∧ l'[j]? = l[i]? ∧ ∀ k, k ≠ i → k ≠ j → l'[k]? = l[k]? := by
  refine ⟨(l.set i l[j]).set j l[i], ?_, List.set_set_perm hi hj, by simp, ?_, ?_, ?_⟩
  · simp [swap, List.getElem?_eq_getElem hi, List.getElem?_eq_getElem hj]
  · by_cases h : i = j
    · subst h; simp [hi]
    · rw [List.getElem?_set_ne (by omega), List.getElem?_set_self hi, List.getElem?_eq_getElem hj]
  · rw [List.getElem?_set_self (by simpa using hj), List.getElem?_eq_getElem hi]
  · intro k h1 h2
    rw [List.getElem?_set_ne (by omega), List.getElem?_set_ne (by omega)]

theorem lessAt_spec (less : α → α → Bool) (l : List α) (i j : Nat) (hi : i < l.length)
    (hj : j < l.length) : lessAt less l i j = some (less l[i] l[j]) := by
  simp [lessAt, List.getElem?_eq_getElem hi, List.getElem?_eq_getElem hj]

theorem okAt_iff {less : α → α → Bool} {l : List α} {p k : Nat} (hp : p < l.length) (hk : k < l.length) :
    OkAt less l p k ↔ le less l[p] l[k] := by
  unfold OkAt
  rw [List.getElem?_eq_getElem hp, List.getElem?_eq_getElem hk]
  constructor
  · exact fun h => h _ _ rfl rfl
  · rintro h a b ⟨rfl⟩ ⟨rfl⟩; exact h

section
variable {less : α → α → Bool} (hw : StrictWeak less)
include hw

theorem up_spec : ∀ (fuel : Nat) (l : List α) (j : Nat), j < fuel → j < l.length →
    UpInv less l l.length j →
    ∃ l', up less fuel l j = some l' ∧ l'.Perm l ∧ IsHeap less l' l'.length
  | 0, l, j, h, _, _ => absurd h (by omega)
  | fuel + 1, l, j, hf, hj, inv => by
    rw [up]
    by_cases h0 : j = 0
    · rw [if_pos h0]
      exact ⟨l, rfl, List.Perm.refl _, fun k h1 h2 => inv.other k h1 h2 (by omega)⟩
    · rw [if_neg h0]
      have hi : (j - 1) / 2 < l.length := by omega
      rw [lessAt_spec less l _ _ hj hi]
      cases hl : less l[j] l[(j - 1) / 2] with
      | false =>
        refine ⟨l, rfl, List.Perm.refl _, fun k h1 h2 => ?_⟩
        by_cases hk : k = j
        · subst hk
          exact (okAt_iff hi hj).mpr hl
        · exact inv.other k h1 h2 hk
      | true =>
        obtain ⟨l', hs, hperm, hlen, e1, e2, e3⟩ := swap_spec l ((j - 1) / 2) j hi hj
        simp only [hs]
        have hinv : UpInv less l' l'.length ((j - 1) / 2) := by
          rw [hlen]
          constructor
          · intro k h1 h2 hki a b ha hb
            by_cases hkj : k = j
            · subst hkj
              rw [e1, List.getElem?_eq_getElem hj] at ha
              rw [e2, List.getElem?_eq_getElem hi] at hb
              cases ha; cases hb
              exact le_of_less hw hl
            · rw [e3 k hki hkj] at hb
              by_cases hp : (k - 1) / 2 = (j - 1) / 2
              · rw [hp, e1, List.getElem?_eq_getElem hj] at ha
                cases ha
                exact le_trans' hw (le_of_less hw hl)
                  (inv.other k h1 h2 hkj _ _ (by rw [hp, List.getElem?_eq_getElem hi]) hb)
              · by_cases hpj : (k - 1) / 2 = j
                · rw [hpj, e2] at ha
                  exact inv.grand (by omega) k h1 h2 hpj _ _ ha hb
                · rw [e3 _ hp hpj] at ha
                  exact inv.other k h1 h2 hkj _ _ ha hb
          · intro hi0 k h1 h2 hpk a b ha hb
            rw [e3 _ (by omega) (by omega)] at ha
            have hb0 : le less a l[(j - 1) / 2] :=
              inv.other ((j - 1) / 2) hi0 hi (by omega) _ _ ha (List.getElem?_eq_getElem hi)
            by_cases hkj : k = j
            · subst hkj
              rw [e2, List.getElem?_eq_getElem hi] at hb
              cases hb
              exact hb0
            · rw [e3 k (by omega) hkj] at hb
              exact le_trans' hw hb0
                (inv.other k h1 h2 hkj _ _ (by rw [hpk, List.getElem?_eq_getElem hi]) hb)
        obtain ⟨l'', h1, h2, h3⟩ := up_spec fuel l' ((j - 1) / 2) (by omega) (by omega) hinv
        exact ⟨l'', h1, h2.trans hperm, h3⟩

theorem child_spec (l : List α) (i n : Nat) (hn : n ≤ l.length) (hi : 2 * i + 1 < n) :
    ∃ j, child less l i n = some j ∧ j < n ∧ (j - 1) / 2 = i ∧ 0 < j ∧
      ∀ k, 0 < k → k < n → (k - 1) / 2 = i → OkAt less l j k := by
  unfold child
  by_cases h2 : 2 * i + 2 < n
  · rw [if_pos h2, lessAt_spec less l _ _ (by omega) (by omega)]
    cases hl : less l[2 * i + 2] l[2 * i + 1] with
    | true =>
      refine ⟨2 * i + 2, rfl, h2, by omega, by omega, fun k h1 h3 h4 => ?_⟩
      rw [okAt_iff (by omega) (by omega)]
      have : k = 2 * i + 1 ∨ k = 2 * i + 2 := by omega
      rcases this with rfl | rfl
      · exact le_of_less hw hl
      · exact le_refl' hw _
    | false =>
      refine ⟨2 * i + 1, rfl, hi, by omega, by omega, fun k h1 h3 h4 => ?_⟩
      rw [okAt_iff (by omega) (by omega)]
      have : k = 2 * i + 1 ∨ k = 2 * i + 2 := by omega
      rcases this with rfl | rfl
      · exact le_refl' hw _
      · exact hl
  · rw [if_neg h2]
    refine ⟨2 * i + 1, rfl, hi, by omega, by omega, fun k h1 h3 h4 => ?_⟩
    rw [okAt_iff (by omega) (by omega)]
    have : k = 2 * i + 1 := by omega
    subst this
    exact le_refl' hw _

theorem down_spec : ∀ (fuel : Nat) (l : List α) (i n : Nat), n < fuel + i → 0 < fuel → n ≤ l.length →
    DownInv less l n i →
    ∃ l', down less fuel l i n = some l' ∧ l'.Perm l ∧ IsHeap less l' n ∧
      ∀ k, n ≤ k → l'[k]? = l[k]?
  | 0, l, i, n, _, h, _, _ => absurd h (by omega)
  | fuel + 1, l, i, n, hf, _, hn, inv => by
    rw [down]
    by_cases h0 : 2 * i + 1 ≥ n
    · rw [if_pos h0]
      exact ⟨l, rfl, List.Perm.refl _, fun k h1 h2 => inv.other k h1 h2 (by omega), fun _ _ => rfl⟩
    · rw [if_neg h0]
      obtain ⟨j, hc, hjn, hji, hj0, hmin⟩ := child_spec hw l i n hn (by omega)
      have hi : i < l.length := by omega
      have hj : j < l.length := by omega
      simp only [hc]
      rw [lessAt_spec less l _ _ hj hi]
      cases hl : less l[j] l[i] with
      | false =>
        refine ⟨l, rfl, List.Perm.refl _, fun k h1 h2 => ?_, fun _ _ => rfl⟩
        by_cases hk : (k - 1) / 2 = i
        · rw [okAt_iff (by omega) (by omega)]
          have h3 := (okAt_iff (by omega) (by omega)).mp (hmin k h1 h2 hk)
          have h4 : le less l[i] l[j] := hl
          have h5 := le_trans' hw h4 h3
          simpa only [hk] using h5
        · exact inv.other k h1 h2 hk
      | true =>
        obtain ⟨l', hs, hperm, hlen, e1, e2, e3⟩ := swap_spec l i j hi hj
        simp only [hs]
        have hinv : DownInv less l' n j := by
          constructor
          · intro k h1 h2 hkj a b ha hb
            by_cases hk : k = j
            · subst hk
              rw [hji, e1, List.getElem?_eq_getElem hj] at ha
              rw [e2, List.getElem?_eq_getElem hi] at hb
              cases ha; cases hb
              exact le_of_less hw hl
            · by_cases hpi : (k - 1) / 2 = i
              · rw [hpi, e1] at ha
                rw [e3 k (by omega) hk] at hb
                exact hmin k h1 h2 hpi _ _ ha hb
              · rw [e3 _ hpi hkj] at ha
                by_cases hki : k = i
                · subst hki
                  rw [e1] at hb
                  exact inv.grand h1 j hj0 hjn hji _ _ ha hb
                · rw [e3 k hki hk] at hb
                  exact inv.other k h1 h2 hpi _ _ ha hb
          · intro _ k h1 h2 hk a b ha hb
            rw [hji, e1] at ha
            rw [e3 k (by omega) (by omega)] at hb
            exact inv.other k h1 h2 (by omega) _ _ (by rw [hk]; exact ha) hb
        obtain ⟨l'', h1, h2, h3, h4⟩ := down_spec fuel l' j n (by omega) (by omega) (by omega) hinv
        exact ⟨l'', h1, h2.trans hperm, h3, fun k hk => by
          rw [h4 k hk, e3 k (by omega) (by omega)]⟩

theorem heap_min (l : List α) (n : Nat) (hn : n ≤ l.length) (h : IsHeap less l n) :
    ∀ k, k < n → OkAt less l 0 k := by
  intro k
  induction k using Nat.strongRecOn with
  | ind k ih =>
    intro hk
    by_cases h0 : k = 0
    · subst h0
      rw [okAt_iff (by omega) (by omega)]
      exact le_refl' hw _
    · have h1 := ih ((k - 1) / 2) (by omega) (by omega)
      have h2 := h k (by omega) hk
      rw [okAt_iff (by omega) (by omega)] at h1 h2 ⊢
      exact le_trans' hw h1 h2

theorem push_spec (l : List α) (x : α) (h : IsHeap less l l.length) :
    ∃ l', push less l x = some l' ∧ l'.Perm (x :: l) ∧ IsHeap less l' l'.length := by
  unfold push
  obtain ⟨l', h1, h2, h3⟩ := up_spec hw (l.length + 1) (l ++ [x]) l.length (by omega) (by simp) (by
    constructor
    · intro k h1 h2 hk a b ha hb
      simp at h2
      rw [List.getElem?_append_left (by omega)] at ha hb
      exact h k h1 (by omega) a b ha hb
    · intro h0 k h1 h2 hk
      simp at h2
      omega)
  refine ⟨l', h1, h2.trans ?_, h3⟩
  exact List.perm_append_singleton x l

theorem pop_spec (l : List α) (hne : l ≠ []) (h : IsHeap less l l.length) :
    ∃ v r, pop less l = some (v, r) ∧ (v :: r).Perm l ∧ IsHeap less r r.length ∧
      ∀ x ∈ l, le less v x := by
  have hpos : 0 < l.length := List.length_pos_iff.mpr hne
  unfold pop
  rw [if_neg (by omega)]
  obtain ⟨l1, hs, hperm, hlen, e1, e2, e3⟩ := swap_spec l 0 (l.length - 1) hpos (by omega)
  simp only [hs]
  obtain ⟨l2, hd, hp2, hh, hkeep⟩ := down_spec hw l.length l1 0 (l.length - 1) (by omega) hpos
    (by omega) (by
      constructor
      · intro k h1 h2 hk a b ha hb
        rw [e3 _ hk (by omega)] at ha
        rw [e3 _ (by omega) (by omega)] at hb
        exact h k h1 (by omega) a b ha hb
      · intro h0; omega)
  simp only [hd]
  have hlen2 : l2.length = l.length := by rw [hp2.length_eq, hlen]
  have hlast : l2.getLast? = some l[0] := by
    rw [List.getLast?_eq_getElem?, hlen2, hkeep _ (by omega), e2, List.getElem?_eq_getElem hpos]
  simp only [hlast]
  refine ⟨l[0], l2.dropLast, rfl, ?_, ?_, ?_⟩
  · have : l2 = l2.dropLast ++ [l[0]] := by
      rw [List.dropLast_append_getLast? _ hlast]
    have h3 : (l[0] :: l2.dropLast).Perm (l2.dropLast ++ [l[0]]) :=
      (List.perm_append_singleton _ _).symm
    rw [← this] at h3
    exact (h3.trans hp2).trans hperm
  · intro k h1 h2 a b ha hb
    simp only [List.length_dropLast] at h2
    rw [List.getElem?_dropLast, if_pos (by omega)] at ha hb
    exact hh k h1 (by omega) a b ha hb
  · intro x hx
    obtain ⟨k, hk, rfl⟩ := List.getElem_of_mem hx
    exact (okAt_iff hpos hk).mp (heap_min hw l l.length (by omega) h k hk)

theorem popAll_spec : ∀ (fuel : Nat) (l : List α), l.length < fuel → IsHeap less l l.length →
    ∃ r, popAll less fuel l = some r ∧ r.Perm l ∧ r.Pairwise (le less)
  | 0, l, h, _ => absurd h (by omega)
  | fuel + 1, l, hf, h => by
    rw [popAll]
    by_cases h0 : l.length > 0
    · rw [if_pos h0]
      obtain ⟨v, r, hp, hperm, hh, hmin⟩ := pop_spec hw l (List.length_pos_iff.mp h0) h
      have hlen := hperm.length_eq
      simp only [List.length_cons] at hlen
      obtain ⟨vs, h1, h2, h3⟩ := popAll_spec fuel r (by omega) hh
      simp only [hp, h1]
      refine ⟨v :: vs, rfl, (h2.cons v).trans hperm, List.pairwise_cons.mpr ⟨?_, h3⟩⟩
      intro x hx
      exact hmin x (hperm.mem_iff.mp (List.mem_cons_of_mem _ (h2.mem_iff.mp hx)))
    · rw [if_neg h0]
      have : l = [] := List.length_eq_zero_iff.mp (by omega)
      subst this
      exact ⟨[], rfl, List.Perm.refl _, List.Pairwise.nil⟩

/-- what holds between pushes: the heap has the largest values pushed so far -/
structure Inv (less : α → α → Bool) (limit : Int) (pushed dropped l : List α) : Prop where
  heap : IsHeap less l l.length
  perm : (l ++ dropped).Perm pushed
  below : ∀ d ∈ dropped, ∀ x ∈ l, le less d x
  len : l.length = min limit.toNat pushed.length

theorem limitedPush_spec (limit : Int) (pushed dropped l : List α) (x : α)
    (inv : Inv less limit pushed dropped l) :
    ∃ l' dropped', limitedPush less limit l x = some l' ∧ Inv less limit (x :: pushed) dropped' l' := by
  unfold limitedPush
  obtain ⟨l1, h1, hp1, hh1⟩ := push_spec hw l x inv.heap
  have hlen1 := hp1.length_eq
  simp only [List.length_cons] at hlen1
  simp only [h1]
  by_cases hl : (l1.length : Int) > limit
  · rw [if_pos hl]
    obtain ⟨v, r, hp, hperm, hh, hmin⟩ := pop_spec hw l1 (by
      intro h; rw [h] at hlen1; simp at hlen1) hh1
    simp only [hp]
    have hlenr := hperm.length_eq
    simp only [List.length_cons] at hlenr
    refine ⟨r, v :: dropped, rfl, hh, ?_, ?_, ?_⟩
    · have e1 : (r ++ v :: dropped).Perm (v :: r ++ dropped) := List.perm_middle
      have e2 : (v :: r ++ dropped).Perm (x :: l ++ dropped) :=
        (hperm.trans hp1).append_right dropped
      exact (e1.trans e2).trans (inv.perm.cons x)
    · intro d hd y hy
      have hy1 : y ∈ l1 := hperm.mem_iff.mp (List.mem_cons_of_mem _ hy)
      rcases List.mem_cons.mp hd with rfl | hd
      · exact hmin y hy1
      · rcases List.mem_cons.mp (hp1.mem_iff.mp hy1) with rfl | hyl
        · obtain ⟨s, t, rfl⟩ := List.append_of_mem hy
          have e : (y :: l).Perm (y :: (v :: (s ++ t))) := by
            refine (hperm.trans hp1).symm.trans ?_
            refine (List.Perm.cons v List.perm_middle).trans (List.Perm.swap _ _ _)
          have hv : v ∈ l := e.cons_inv.mem_iff.mpr (List.mem_cons_self)
          exact le_trans' hw (inv.below d hd v hv) (hmin y hy1)
        · exact inv.below d hd y hyl
    · have := inv.len
      simp only [List.length_cons]
      omega
  · rw [if_neg hl]
    refine ⟨l1, dropped, rfl, hh1, (hp1.append_right dropped).trans (inv.perm.cons x), ?_, ?_⟩
    · have := inv.len
      have hd : dropped = [] := by
        have h3 := inv.perm.length_eq
        simp only [List.length_append] at h3
        exact List.length_eq_zero_iff.mp (by omega)
      subst hd
      intro d hd
      cases hd
    · have := inv.len
      simp only [List.length_cons]
      omega

theorem pushAll_spec (limit : Int) : ∀ (xs pushed dropped l : List α),
    Inv less limit pushed dropped l →
    ∃ l' dropped', pushAll less limit xs l = some l' ∧
      Inv less limit (xs.reverse ++ pushed) dropped' l'
  | [], pushed, dropped, l, inv => ⟨l, dropped, rfl, by simpa using inv⟩
  | x :: xs, pushed, dropped, l, inv => by
    obtain ⟨l1, d1, h1, inv1⟩ := limitedPush_spec hw limit pushed dropped l x inv
    obtain ⟨l2, d2, h2, inv2⟩ := pushAll_spec limit xs (x :: pushed) d1 l1 inv1
    refine ⟨l2, d2, ?_, ?_⟩
    · rw [pushAll]; simp only [h1]; exact h2
    · simpa using inv2

/-- C32: any sequence of pushes into a heap of any limit, then `PopAll`, gives (without an index ever
being out of range) an ascending list of `min limit (number of pushes)` of the pushed values, and no
value left out is above one of them. -/
theorem C32_largest (limit : Int) (xs : List α) :
    ∃ r out, collect less limit xs = some r ∧ r.Pairwise (le less) ∧
      r.length = min limit.toNat xs.length ∧ (r ++ out).Perm xs ∧
      ∀ d ∈ out, ∀ x ∈ r, le less d x := by
  obtain ⟨l, dropped, h1, inv⟩ := pushAll_spec hw limit xs [] [] []
    ⟨fun k _ h => absurd h (by simp), List.Perm.refl _, (fun d hd => by cases hd), by simp⟩
  obtain ⟨r, h2, hp, hs⟩ := popAll_spec hw (l.length + 1) l (by omega) inv.heap
  refine ⟨r, dropped, ?_, hs, ?_, ?_, ?_⟩
  · unfold collect; simp only [h1]; exact h2
  · rw [hp.length_eq, inv.len]; simp
  · refine (hp.append_right dropped).trans (inv.perm.trans ?_)
    rw [List.append_nil]
    exact List.reverse_perm xs
  · intro d hd x hx
    exact inv.below d hd x (hp.mem_iff.mp hx)

end

/-- the order of numbers, for examples -/
theorem natLess : StrictWeak (fun a b : Nat => decide (a < b)) := by
  constructor
  · intro a b h; simp at h ⊢; omega
  · intro a b c h1 h2; simp at h1 h2 ⊢; omega

example : collect (fun a b : Nat => decide (a < b)) 3 [5, 1, 9, 7, 2, 9] = some [7, 9, 9] := by
  decide +kernel
example : collect (fun a b : Nat => decide (a < b)) (-1) [5, 1] = some [] := by decide +kernel
example : collect (fun a b : Nat => decide (a < b)) 10 [5, 1, 9, 7, 2, 9, 0] =
    some [0, 1, 2, 5, 7, 9, 9] := by decide +kernel

end Verif.Heap
