import Verif.Otel.Times
/-!
# C30: the consumed time of a span whose children may end after it
-/
namespace Verif.Otel
open Verif.Lib

/-! ## Specification -/

/-- the instants from `a` to before `b` at which some of the intervals runs -/
def busy (ivs : List (Nat × Nat)) (a b : Nat) : Finset Nat :=
  (Finset.Ico a b).filter (fun t => ∃ iv ∈ ivs, iv.1 ≤ t ∧ t < iv.2)

/-! ## Lemmas -/

theorem idle_add_busy (ivs : List (Nat × Nat)) (a b : Nat) :
    (idle ivs a b).card + (busy ivs a b).card = b - a := by
  have h := Finset.card_filter_add_card_filter_not (s := Finset.Ico a b)
    (fun t => ∀ iv ∈ ivs, ¬ (iv.1 ≤ t ∧ t < iv.2))
  rw [Nat.card_Ico] at h
  rw [← h]
  unfold idle busy
  congr 2
  ext t
  simp only [Finset.mem_filter]
  constructor
  · rintro ⟨h1, iv, h2, h3⟩
    exact ⟨h1, fun hc => hc iv h2 h3⟩
  · rintro ⟨h1, h2⟩
    refine ⟨h1, ?_⟩
    by_contra hc
    exact h2 (fun iv hiv h3 => hc ⟨iv, hiv, h3⟩)

theorem idle_split (ivs : List (Nat × Nat)) (a m b : Nat) (h1 : a ≤ m) (h2 : m ≤ b) :
    (idle ivs a b).card = (idle ivs a m).card + (idle ivs m b).card := by
  have : idle ivs a b = idle ivs a m ∪ idle ivs m b := by
    ext t
    simp only [idle, Finset.mem_filter, Finset.mem_Ico, Finset.mem_union]
    constructor
    · rintro ⟨⟨k1, k2⟩, k3⟩
      by_cases ht : t < m
      · exact .inl ⟨⟨k1, ht⟩, k3⟩
      · exact .inr ⟨⟨by omega, k2⟩, k3⟩
    · rintro (⟨⟨k1, k2⟩, k3⟩ | ⟨⟨k1, k2⟩, k3⟩)
      · exact ⟨⟨k1, by omega⟩, k3⟩
      · exact ⟨⟨by omega, k2⟩, k3⟩
  rw [this, Finset.card_union_of_disjoint]
  rw [Finset.disjoint_left]
  intro t k1 k2
  simp only [idle, Finset.mem_filter, Finset.mem_Ico] at k1 k2
  omega

theorem sub64_wrap {a b : Nat} (hb : b < word) (h : a < b) : sub64 a b = a + word - b := by
  unfold sub64
  rw [Nat.mod_eq_of_lt hb]
  exact Nat.mod_eq_of_lt (by omega)

/-! ## The theorems -/

/-- C30, exactly: the time attributed to a span is the time it runs alone, minus the time its children run after
its end, modulo 2^64.  `M` is any time after everything. -/
theorem C30_exact (sort : List (Nat × Nat) → List (Nat × Nat)) (hsort : SortsByFst sort)
    (s : Span) (children : List Span) (M : Nat) (hM : M < word) (hfwd : s.start ≤ s.stop) (hsM : s.stop ≤ M)
    (hc : ∀ c ∈ children, c.start ≤ c.stop ∧ c.stop ≤ M) :
    consumedTime sort s children =
      ((idle (children.map (fun c => (c.start, c.stop))) s.start s.stop).card + word -
        (busy (children.map (fun c => (c.start, c.stop))) s.stop M).card) % word := by
  have hs := hsort (children.map (fun c => (c.start, c.stop)))
  have hl := consumeLoop_spec M hM (sort (children.map (fun c => (c.start, c.stop)))) 0 s.start
    hs.2 (fun iv hiv => by
      have := hs.1.mem_iff.mp hiv
      obtain ⟨c, hcm, rfl⟩ := List.mem_map.mp this
      exact hc c hcm) (by omega) (by omega)
  rw [idle_perm hs.1] at hl
  have hcard := idle_card_le (children.map (fun c => (c.start, c.stop))) s.start s.stop
  have hsp := idle_split (children.map (fun c => (c.start, c.stop))) s.start s.stop M hfwd hsM
  have hib := idle_add_busy (children.map (fun c => (c.start, c.stop))) s.stop M
  unfold consumedTime
  simp only
  revert hl
  generalize consumeLoop (sort (children.map (fun c => (c.start, c.stop)))) 0 s.start = r
  rintro ⟨l1, l2⟩
  rw [hsp, Nat.zero_add] at l2
  by_cases h : r.2 ≤ s.stop
  · rw [sub64_of_le (by omega) h, add64]
    by_cases hz : (busy (children.map (fun c => (c.start, c.stop))) s.stop M).card = 0
    · rw [hz, Nat.sub_zero, Nat.add_mod_right]
      congr 1; omega
    · rw [show (idle (children.map (fun c => (c.start, c.stop))) s.start s.stop).card + word -
        (busy (children.map (fun c => (c.start, c.stop))) s.stop M).card =
          (r.1 + (s.stop - r.2)) + word by omega, Nat.add_mod_right]
  · rw [sub64_wrap (by omega) (by omega), add64]
    congr 1; omega

/-- C30: so it is the time the span runs alone exactly when no child runs after the end of the span. -/
theorem C30_iff (sort : List (Nat × Nat) → List (Nat × Nat)) (hsort : SortsByFst sort)
    (s : Span) (children : List Span) (h64 : s.stop < word) (hfwd : s.start ≤ s.stop)
    (hc : ∀ c ∈ children, c.start ≤ c.stop ∧ c.stop < word) :
    consumedTime sort s children =
      (idle (children.map (fun c => (c.start, c.stop))) s.start s.stop).card ↔
    ∀ c ∈ children, c.start < c.stop → c.stop ≤ s.stop := by
  have hw := word_pos
  have hcard := idle_card_le (children.map (fun c => (c.start, c.stop))) s.start s.stop
  have hib := idle_add_busy (children.map (fun c => (c.start, c.stop))) s.stop (word - 1)
  rw [C30_exact sort hsort s children (word - 1) (by omega) hfwd (by omega)
    (fun c h => ⟨(hc c h).1, by have := (hc c h).2; omega⟩)]
  have key : (busy (children.map (fun c => (c.start, c.stop))) s.stop (word - 1)).card = 0 ↔
      ∀ c ∈ children, c.start < c.stop → c.stop ≤ s.stop := by
    rw [Finset.card_eq_zero, Finset.eq_empty_iff_forall_notMem]
    constructor
    · intro h c hcm hlt
      by_contra hgt
      have := (hc c hcm).2
      refine h (c.stop - 1) ?_
      simp only [busy, Finset.mem_filter, Finset.mem_Ico]
      exact ⟨⟨by omega, by omega⟩, _, List.mem_map.mpr ⟨c, hcm, rfl⟩, by simp only; omega⟩
    · intro h t ht
      simp only [busy, Finset.mem_filter, Finset.mem_Ico] at ht
      obtain ⟨⟨h1, _⟩, iv, hiv, h2, h3⟩ := ht
      obtain ⟨c, hcm, rfl⟩ := List.mem_map.mp hiv
      simp only at h2 h3
      have := h c hcm (by omega)
      omega
  rw [← key]
  constructor
  · intro h
    by_contra hne
    by_cases hle : (busy (children.map (fun c => (c.start, c.stop))) s.stop (word - 1)).card ≤
        (idle (children.map (fun c => (c.start, c.stop))) s.start s.stop).card
    · rw [show (idle (children.map (fun c => (c.start, c.stop))) s.start s.stop).card + word -
        (busy (children.map (fun c => (c.start, c.stop))) s.stop (word - 1)).card =
        ((idle (children.map (fun c => (c.start, c.stop))) s.start s.stop).card -
          (busy (children.map (fun c => (c.start, c.stop))) s.stop (word - 1)).card) + word by omega,
        Nat.add_mod_right, Nat.mod_eq_of_lt (by omega)] at h
      omega
    · rw [Nat.mod_eq_of_lt (by omega)] at h
      omega
  · intro h
    rw [h, Nat.sub_zero, Nat.add_mod_right, Nat.mod_eq_of_lt (by omega)]

/-- C30: and it lies between zero and the duration exactly when the children run no longer after the end of the
span than the span runs alone; otherwise it has wrapped around. -/
theorem C30_at_most_duration_iff (sort : List (Nat × Nat) → List (Nat × Nat)) (hsort : SortsByFst sort)
    (s : Span) (children : List Span) (M : Nat) (hM : M < word) (hfwd : s.start ≤ s.stop) (hsM : s.stop ≤ M)
    (hc : ∀ c ∈ children, c.start ≤ c.stop ∧ c.stop ≤ M) :
    consumedTime sort s children ≤ s.stop - s.start ↔
      (busy (children.map (fun c => (c.start, c.stop))) s.stop M).card ≤
        (idle (children.map (fun c => (c.start, c.stop))) s.start s.stop).card := by
  have hcard := idle_card_le (children.map (fun c => (c.start, c.stop))) s.start s.stop
  have hib := idle_add_busy (children.map (fun c => (c.start, c.stop))) s.stop M
  rw [C30_exact sort hsort s children M hM hfwd hsM hc]
  constructor
  · intro h
    by_contra hgt
    rw [Nat.mod_eq_of_lt (by omega)] at h
    omega
  · intro h
    rw [show (idle (children.map (fun c => (c.start, c.stop))) s.start s.stop).card + word -
        (busy (children.map (fun c => (c.start, c.stop))) s.stop M).card =
        ((idle (children.map (fun c => (c.start, c.stop))) s.start s.stop).card -
          (busy (children.map (fun c => (c.start, c.stop))) s.stop M).card) + word by omega,
        Nat.add_mod_right, Nat.mod_eq_of_lt (by omega)]
    omega

/-- a span from 0 to 10 with children from 2 to 4 and from 9 to 12: it ran alone for 7, two units too few are
attributed to it -/
example : (idle [(2, 4), (9, 12)] 0 10).card = 7 ∧ (busy [(2, 4), (9, 12)] 10 12).card = 2 ∧
    consumeLoop [(2, 4), (9, 12)] 0 0 = (7, 12) := by
  refine ⟨by decide, by decide, ?_⟩
  simp only [consumeLoop, add64, sub64]
  unfold word
  decide

/-- C30 fails as well for times that run backwards: with a child from 8 to 2 a span from 0 to 10 is said to have
consumed 16, and a span from 10 to 8 more than 584 years. -/
theorem C30_backward :
    (∀ sort, SortsByFst sort →
      consumedTime sort { start := 0, stop := 10 } [{ start := 8, stop := 2 }] = 16) ∧
    (∀ sort, SortsByFst sort → consumedTime sort { start := 10, stop := 8 } [] = word - 2) := by
  constructor
  · intro sort h
    simp only [consumedTime, List.map_cons, List.map_nil, List.perm_singleton.mp (h [_]).1]
    decide +kernel
  · intro sort h
    simp only [consumedTime, List.map_nil, List.perm_nil.mp (h []).1]
    decide +kernel

/-! ## C55: the service that runs longest by itself -/

mutual
/-- the time (nanoseconds) during which spans of the service run and none of their children does -/
def own (service : Str) : Tree Span → Nat
  | .node s cs =>
    (if s.service = service then (idle (cs.map fun c => (c.val.start, c.val.stop)) s.start s.stop).card else 0) +
      owns service cs
/-- the same for several trees -/
def owns (service : Str) : List (Tree Span) → Nat
  | [] => 0
  | t :: ts => own service t + owns service ts
end

/-- Every span runs forward and ends no earlier than the spans it called. -/
def Timed (t : Tree Span) : Prop :=
  ∀ n ∈ infoT [] t, n.2.1.start ≤ n.2.1.stop ∧ n.2.1.stop < word ∧ ∀ c ∈ n.2.2, c.start ≤ c.stop ∧ c.stop ≤ n.2.1.stop

/-- time by itself, over listed spans -/
def sumOf (service : Str) (l : List (List Span × Span × List Span)) : Nat :=
  ((l.filter (fun n => n.2.1.service = service)).map
    (fun n => (idle (n.2.2.map fun c => (c.start, c.stop)) n.2.1.start n.2.1.stop).card)).sum

theorem sumOf_append (service : Str) (l m : List (List Span × Span × List Span)) :
    sumOf service (l ++ m) = sumOf service l + sumOf service m := by
  simp [sumOf, List.filter_append, List.sum_append]

theorem sumOf_one (service : Str) (path : List Span) (s : Span) (cs : List (Tree Span)) :
    sumOf service [(path, s, cs.map Tree.val)] =
      if s.service = service then (idle (cs.map fun c => (c.val.start, c.val.stop)) s.start s.stop).card else 0 := by
  unfold sumOf
  by_cases hs : s.service = service
  · simp only [List.filter_cons, hs, decide_true, if_true, List.filter_nil, List.map_cons, List.map_nil,
        List.sum_cons, List.sum_nil, Nat.add_zero, List.map_map, Function.comp_def]
  · simp [hs]

mutual
theorem sumOf_own (service : Str) :
    ∀ (t : Tree Span) (path : List Span), sumOf service (infoT path t) = own service t
  | .node s cs, path => by
    rw [infoT, ← List.singleton_append, sumOf_append, sumOf_owns service cs (s :: path), own, sumOf_one]
theorem sumOf_owns (service : Str) :
    ∀ (l : List (Tree Span)) (path : List Span), sumOf service (infoL path l) = owns service l
  | [], _ => rfl
  | t :: ts, path => by
    rw [infoL, sumOf_append, sumOf_own service t path, sumOf_owns service ts path, owns]
end

/-- C55: if every span runs forward and ends no earlier than those it called, the service that is named runs
longest by itself. -/
theorem C55_longest_partial (sort : List (Nat × Nat) → List (Nat × Nat)) (hsort : SortsByFst sort)
    (order : List (Str × Nat) → List (Str × Nat)) (ho : ∀ l, (order l).Perm l) (t : Tree Span) (ht : Timed t)
    (h64 : ∀ service, own service t < word) :
    (∀ service, own service t ≤ own (mostConsuming sort order t) t) ∧
    ((∃ s ∈ t.pre, s.service = mostConsuming sort order t) ∨
      (mostConsuming sort order t = [] ∧ ∀ service, own service t = 0)) := by
  have e : ∀ service, totalOf sort service t = own service t := fun service => by
    rw [← sumOf_own service t [], totalOf, sumOf]
    congr 1
    refine List.map_congr_left fun n hn => ?_
    obtain ⟨h1, h2, h3⟩ := ht n (List.mem_filter.mp hn).1
    exact C30_consumed_partial sort hsort n.2.1 n.2.2 h2 h1 h3
  have h := C55_most_consuming sort order ho t (fun service => by rw [e]; exact h64 service)
  simp only [e] at h
  exact h

/-- a call that takes 5 of 30 by itself, and two that take 10 and 15 -/
def exCalls : Tree Span :=
  .node { service := ['a'], start := 0, stop := 30 }
    [.node { service := ['b'], start := 2, stop := 12 } [], .node { service := ['c'], start := 12, stop := 27 } []]

example : Timed exCalls ∧ own ['a'] exCalls = 5 ∧ own ['b'] exCalls = 10 ∧ own ['c'] exCalls = 15 ∧
    mostConsuming fstSort id exCalls = ['c'] := by
  refine ⟨?_, by decide +kernel, by decide +kernel, by decide +kernel, by decide +kernel⟩
  simp only [exCalls, Timed, infoT, infoL, List.map_cons, List.map_nil, Tree.val, List.append_nil, List.cons_append,
    List.nil_append, List.mem_cons, forall_eq_or_imp, List.not_mem_nil, false_imp_iff, implies_true, and_true, word]
  decide +kernel

theorem perm_two {A : Type} {a b : A} : ∀ {l : List A}, l.Perm [a, b] → l = [a, b] ∨ l = [b, a]
  | [], h => by simpa using h.length_eq
  | [_], h => by simpa using h.length_eq
  | _ :: _ :: _ :: _, h => by simpa using h.length_eq
  | [x, y], h => by
    have hx : x ∈ [a, b] := h.mem_iff.mp (by simp)
    rcases List.mem_cons.mp hx with rfl | hx
    · have := List.perm_singleton.mp (List.Perm.cons_inv h)
      simp_all
    · have hx := List.mem_singleton.mp hx
      subst hx
      have := List.perm_singleton.mp (List.Perm.cons_inv (h.trans (List.Perm.swap _ _ _)))
      simp_all

/-- C55 fails with calls that outlast their caller: a service that runs alone for 5 is named although the one it
called runs for 95. -/
theorem C55_late :
    ∃ t : Tree Span, own ['a'] t = 5 ∧ own ['b'] t = 95 ∧
      ∀ (sort : List (Nat × Nat) → List (Nat × Nat)) (order : List (Str × Nat) → List (Str × Nat)),
        SortsByFst sort → (∀ l, (order l).Perm l) → mostConsuming sort order t = ['a'] := by
  refine ⟨.node { service := ['a'], start := 0, stop := 10 } [.node { service := ['b'], start := 5, stop := 100 } []],
    by decide +kernel, by decide +kernel, ?_⟩
  intro sort order hsort ho
  have h1 : sort [(5, 100)] = [(5, 100)] := List.perm_singleton.mp (hsort _).1
  have h0 : sort [] = [] := List.perm_nil.mp (hsort []).1
  have hm : ([([], { service := ['a'], start := 0, stop := 10 }, [{ service := ['b'], start := 5, stop := 100 }]),
      ([{ service := ['a'], start := 0, stop := 10 }], { service := ['b'], start := 5, stop := 100 }, [])] :
        List (List Span × Span × List Span)).foldl (timeEnter sort) [] =
      [(['a'], 18446744073709551531), (['b'], 95)] := by
    simp only [List.foldl_cons, List.foldl_nil, timeEnter, consumedTime, List.map_cons, List.map_nil, h1, h0]
    decide +kernel
  simp only [mostConsuming, infoT, infoL, List.map_cons, List.map_nil, Tree.val, List.append_nil]
  rw [hm]
  have hp := ho [(['a'], 18446744073709551531), (['b'], 95)]
  revert hp
  generalize order [(['a'], 18446744073709551531), (['b'], 95)] = l
  intro hp
  rcases perm_two hp with rfl | rfl <;> decide +kernel

end Verif.Otel
