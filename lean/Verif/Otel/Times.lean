import Mathlib.Data.List.Basic
import Mathlib.Data.List.Sort
import Mathlib.Data.List.Nodup
import Mathlib.Data.List.Forall2
import Mathlib.Order.Interval.Finset.Nat
import Mathlib.Tactic.Ring
import Verif.Otel.Compact
/-!
# C30, C31, C55, C56: what is shown for a trace

`/repo/otel/omodel/{span,trace_tree,same_resource_count_visitor,compact_info_collect_visitor}.go`.
-/
namespace Verif.Otel
open Verif.Lib

/-! ## Model -/

/-- 2^64 -/
@[irreducible] def word : Nat := 18446744073709551616
theorem word_pos : 0 < word := by unfold word; omega
/-- `uint64` addition -/
def add64 (a b : Nat) : Nat := (a + b) % word
/-- `uint64` subtraction -/
def sub64 (a b : Nat) : Nat := (a + word - b % word) % word

/-- `/repo/otel/omodel/span.go:79-86`: the loop over the sorted child times; state
`(consumedTime, lastEndTime)`. -/
def consumeLoop : List (Nat × Nat) → Nat → Nat → Nat × Nat
  | [], consumed, last => (consumed, last)
  | (a, b) :: r, consumed, last =>
    consumeLoop r (if last < a then add64 consumed (sub64 a last) else consumed)
      (if last < b then b else last)

/-- `span.go:70-90` `CalcConsumedTime`; `sort` is `sort.Slice` by start. -/
def consumedTime (sort : List (Nat × Nat) → List (Nat × Nat)) (s : Span) (children : List Span) : Nat :=
  let r := consumeLoop (sort (children.map (fun c => (c.start, c.stop)))) 0 s.start
  add64 r.1 (sub64 s.stop r.2)

/-- `same_resource_count_visitor.go:11-14` -/
def countEnter (m : List (Str × Nat)) (s : Span) : List (Str × Nat) :=
  mapSet s.service ((mapGet s.service m).getD 0 + 1) m

/-- `lo.Max` (`github.com/samber/lo/find.go`): zero for no elements. -/
def loMax : List Nat → Nat
  | [] => 0
  | a :: r => r.foldl (fun m x => if x > m then x else m) a

/-- `trace_tree.go:40-47` `MaxSameServiceAccessCount`; `order` is the map's iteration order. -/
def maxSameService (order : List (Str × Nat) → List (Str × Nat)) (t : Tree Span) : Nat :=
  loMax ((order (t.pre.foldl countEnter [])).map (·.2))

/-- `compact_info_collect_visitor.go:8-11`, the times; each node comes with its children. -/
def timeEnter (sort : List (Nat × Nat) → List (Nat × Nat)) (m : List (Str × Nat))
    (n : List Span × Span × List Span) : List (Str × Nat) :=
  mapSet n.2.1.service
    (add64 ((mapGet n.2.1.service m).getD 0) (consumedTime sort n.2.1 n.2.2)) m

/-- `compact_info_collect_visitor.go:21-33` -/
def mostLoop : List (Str × Nat) → Str × Nat → Str × Nat
  | [], acc => acc
  | (s, t) :: r, acc => mostLoop r (if acc.2 < t then (s, t) else acc)

/-- `GetMostTimeConsumedService` after a visit of the tree -/
def mostConsuming (sort : List (Nat × Nat) → List (Nat × Nat))
    (order : List (Str × Nat) → List (Str × Nat)) (t : Tree Span) : Str :=
  (mostLoop (order ((infoT [] t).foldl (timeEnter sort) [])) ([], 0)).1

/-- `%x` of one byte's half -/
def hexDigit (n : Nat) : Char :=
  if n < 10 then Char.ofNat (48 + n) else Char.ofNat (87 + n)

/-- `fmt.Sprintf("%x", bytes)` -/
def hex (b : Bytes) : Str := b.flatMap (fun n => [hexDigit (n / 16), hexDigit (n % 16)])

/-- `/repo/html/viewmodel/vm_otel_compact_trace.go` `VmOtelTraceSpan` without children -/
structure VmSpan where
  name : Str
  spanId : Str
  startMs : Nat
  stopMs : Nat
  service : Str

/-- `span.go:92-103` without the recursion -/
def vmSpan (s : Span) : VmSpan where
  name := s.name
  spanId := hex s.spanId
  startMs := s.start / 1000 / 1000
  stopMs := s.stop / 1000 / 1000
  service := s.service

mutual
/-- `span.go:92-103` `ToViewModel`.  The conversion `int(uint64 / 10^6)` never overflows. -/
def toViewModel : Tree Span → Tree VmSpan
  | .node s cs => .node (vmSpan s) (toViewModelL cs)
/-- the children -/
def toViewModelL : List (Tree Span) → List (Tree VmSpan)
  | [] => []
  | c :: cs => toViewModel c :: toViewModelL cs
end

/-! ## C30: consumed time -/

/-- What is assumed of `sort.Slice` by the first component. -/
def SortsByFst (sort : List (Nat × Nat) → List (Nat × Nat)) : Prop :=
  ∀ l, (sort l).Perm l ∧ (sort l).Pairwise (fun a b => a.1 ≤ b.1)

/-- the instants from `a` to before `b` at which none of the intervals runs -/
def idle (ivs : List (Nat × Nat)) (a b : Nat) : Finset Nat :=
  (Finset.Ico a b).filter (fun t => ∀ iv ∈ ivs, ¬ (iv.1 ≤ t ∧ t < iv.2))

theorem sub64_of_le {a b : Nat} (ha : a < word) (h : b ≤ a) : sub64 a b = a - b := by
  unfold sub64
  have hb : b % word = b := Nat.mod_eq_of_lt (by omega)
  rw [hb]
  have : a + word - b = (a - b) + word := by omega
  rw [this, Nat.add_mod_right, Nat.mod_eq_of_lt (by omega)]

theorem add64_of_lt {a b : Nat} (h : a + b < word) : add64 a b = a + b := Nat.mod_eq_of_lt h

theorem idle_card_le (ivs : List (Nat × Nat)) (a b : Nat) : (idle ivs a b).card ≤ b - a := by
  have := Finset.card_filter_le (Finset.Ico a b) (fun t => ∀ iv ∈ ivs, ¬ (iv.1 ≤ t ∧ t < iv.2))
  rw [Nat.card_Ico] at this
  exact this

theorem idle_nil (a b : Nat) : (idle [] a b).card = b - a := by
  simp [idle]

/-- one step: the gap before the interval plus what follows it -/
theorem idle_cons (a b : Nat) (r : List (Nat × Nat)) (last stop : Nat) (hab : a ≤ b) (hb : b ≤ stop)
    (hr : ∀ iv ∈ r, a ≤ iv.1) (_hl : last ≤ stop) :
    (idle ((a, b) :: r) last stop).card = (a - last) + (idle r (max b last) stop).card := by
  have : idle ((a, b) :: r) last stop = Finset.Ico last a ∪ idle r (max b last) stop := by
    ext t
    simp only [idle, Finset.mem_filter, Finset.mem_Ico, Finset.mem_union, List.mem_cons,
      forall_eq_or_imp]
    constructor
    · rintro ⟨⟨h1, h2⟩, h3, h4⟩
      by_cases hta : t < a
      · exact .inl ⟨h1, hta⟩
      · right
        refine ⟨⟨?_, h2⟩, h4⟩
        have : b ≤ t := by
          by_contra hc
          exact h3 ⟨by omega, by omega⟩
        omega
    · rintro (⟨h1, h2⟩ | ⟨⟨h1, h2⟩, h3⟩)
      · refine ⟨⟨h1, by omega⟩, by omega, fun iv hiv hc => ?_⟩
        have := hr iv hiv
        omega
      · refine ⟨⟨by omega, h2⟩, by omega, h3⟩
  rw [this, Finset.card_union_of_disjoint, Nat.card_Ico]
  rw [Finset.disjoint_left]
  intro t h1 h2
  simp only [idle, Finset.mem_filter, Finset.mem_Ico] at h1 h2
  omega

theorem consumeLoop_spec (stop : Nat) (hs : stop < word) : ∀ (l : List (Nat × Nat)) (c last : Nat),
    l.Pairwise (fun a b => a.1 ≤ b.1) → (∀ iv ∈ l, iv.1 ≤ iv.2 ∧ iv.2 ≤ stop) → last ≤ stop →
    c + (stop - last) < word →
    (consumeLoop l c last).2 ≤ stop ∧
    (consumeLoop l c last).1 + (stop - (consumeLoop l c last).2) = c + (idle l last stop).card
  | [], c, last, _, _, hl, _ => by
    rw [consumeLoop, idle_nil]
    exact ⟨hl, rfl⟩
  | (a, b) :: r, c, last, hp, hiv, hl, hc => by
    rw [consumeLoop]
    have hp' := List.pairwise_cons.mp hp
    have hab := hiv (a, b) (by simp)
    simp only at hab
    rw [idle_cons a b r last stop hab.1 hab.2 (fun iv h => hp'.1 iv h) hl]
    have hlast : (if last < b then b else last) = max b last := by
      split <;> omega
    have hcons : (if last < a then add64 c (sub64 a last) else c) = c + (a - last) := by
      split
      · rename_i h
        rw [sub64_of_le (by omega) (by omega), add64_of_lt (by omega)]
      · omega
    rw [hlast, hcons]
    have ih := consumeLoop_spec stop hs r (c + (a - last)) (max b last) hp'.2
      (fun iv h => hiv iv (List.mem_cons_of_mem _ h)) (by omega) (by omega)
    exact ⟨ih.1, by rw [ih.2]; omega⟩

theorem idle_perm {l l' : List (Nat × Nat)} (h : l.Perm l') (a b : Nat) : idle l a b = idle l' a b := by
  ext t
  simp only [idle, Finset.mem_filter]
  constructor
  · exact fun ⟨h1, h2⟩ => ⟨h1, fun iv hiv => h2 iv (h.mem_iff.mpr hiv)⟩
  · exact fun ⟨h1, h2⟩ => ⟨h1, fun iv hiv => h2 iv (h.mem_iff.mp hiv)⟩

/-- C30: the consumed time of a span whose children run forward and end no later than the span is
the number of instants (nanoseconds) during which the span runs and none of its children does. -/
theorem C30_consumed_partial (sort : List (Nat × Nat) → List (Nat × Nat)) (hsort : SortsByFst sort)
    (s : Span) (children : List Span) (h64 : s.stop < word) (hfwd : s.start ≤ s.stop)
    (hc : ∀ c ∈ children, c.start ≤ c.stop ∧ c.stop ≤ s.stop) :
    consumedTime sort s children =
      (idle (children.map (fun c => (c.start, c.stop))) s.start s.stop).card := by
  have hs := hsort (children.map (fun c => (c.start, c.stop)))
  have hl := consumeLoop_spec s.stop h64 (sort (children.map (fun c => (c.start, c.stop)))) 0 s.start
    hs.2 (fun iv hiv => by
      have := hs.1.mem_iff.mp hiv
      obtain ⟨c, hcm, rfl⟩ := List.mem_map.mp this
      exact hc c hcm) hfwd (by omega)
  rw [idle_perm hs.1] at hl
  have hcard := idle_card_le (children.map (fun c => (c.start, c.stop))) s.start s.stop
  unfold consumedTime
  simp only
  rw [sub64_of_le h64 hl.1, add64_of_lt (by omega), hl.2, Nat.zero_add]

/-- C30: then it lies between zero and the duration. -/
theorem C30_at_most_duration_partial (sort : List (Nat × Nat) → List (Nat × Nat)) (hsort : SortsByFst sort)
    (s : Span) (children : List Span) (h64 : s.stop < word) (hfwd : s.start ≤ s.stop)
    (hc : ∀ c ∈ children, c.start ≤ c.stop ∧ c.stop ≤ s.stop) :
    consumedTime sort s children ≤ s.stop - s.start := by
  rw [C30_consumed_partial sort hsort s children h64 hfwd hc]
  exact idle_card_le _ _ _

/-- a sort by insertion, for examples -/
def fstSort (l : List (Nat × Nat)) : List (Nat × Nat) := l.insertionSort (fun a b => a.1 ≤ b.1)

theorem fstSort_sorts : SortsByFst fstSort := by
  intro l
  refine ⟨List.perm_insertionSort _ l, ?_⟩
  have : IsTrans (Nat × Nat) (fun a b => a.1 ≤ b.1) := ⟨fun a b c h1 h2 => le_trans h1 h2⟩
  have : Std.Total (fun a b : Nat × Nat => a.1 ≤ b.1) := ⟨fun a b => le_total a.1 b.1⟩
  exact List.pairwise_insertionSort (fun a b : Nat × Nat => a.1 ≤ b.1) l

/-- C30 fails when a child ends after its parent: a parent running from 0 to 10 with one child from
2 to 12 is said to have consumed itself exactly nothing although it ran alone for 2, and with a child
from 5 to 20 more than 584 years (the subtraction wraps). -/
theorem C30_wraps :
    (∀ sort, SortsByFst sort →
      consumedTime sort { start := 0, stop := 10 } [{ start := 2, stop := 12 }] = 0) ∧
    (∀ sort, SortsByFst sort →
      consumedTime sort { start := 0, stop := 10 } [{ start := 5, stop := 20 }] = word - 5) := by
  have one : ∀ sort, SortsByFst sort → ∀ x, sort [x] = [x] := by
    intro sort h x
    exact List.perm_singleton.mp (h [x]).1
  constructor
  · intro sort h
    simp only [consumedTime, List.map_cons, List.map_nil, one sort h]
    decide +kernel
  · intro sort h
    simp only [consumedTime, List.map_cons, List.map_nil, one sort h]
    decide +kernel

example : consumedTime fstSort { start := 10, stop := 40 }
    [{ start := 20, stop := 25 }, { start := 12, stop := 22 }, { start := 5, stop := 11 }] = 16 := by
  decide +kernel

/-! ## C31: counts -/

/-- how often the service occurs -/
def countOf (service : Str) (t : Tree Span) : Nat := (t.pre.filter (fun s => s.service = service)).length

theorem foldl_count : ∀ (l : List Span) (m : List (Str × Nat)) (k : Str),
    (mapGet k (l.foldl countEnter m)).getD 0 =
      (mapGet k m).getD 0 + (l.filter (fun s => s.service = k)).length
  | [], m, k => by simp
  | s :: l, m, k => by
    rw [List.foldl_cons, foldl_count l, countEnter, mapGet_mapSet]
    by_cases h : s.service = k
    · subst h
      simp
      omega
    · have h' : ¬ k = s.service := fun e => h e.symm
      simp [h, h']

theorem foldl_count_isSome : ∀ (l : List Span) (m : List (Str × Nat)) (k : Str),
    (mapGet k (l.foldl countEnter m)).isSome = true ↔
      (mapGet k m).isSome = true ∨ ∃ s ∈ l, s.service = k
  | [], m, k => by simp
  | s :: l, m, k => by
    rw [List.foldl_cons, foldl_count_isSome l, countEnter, mapGet_mapSet]
    by_cases h : s.service = k
    · subst h; simp
    · have h' : ¬ k = s.service := fun e => h e.symm
      simp [h, h']

theorem foldl_nodup {A : Type} (f : List (Str × Nat) → A → List (Str × Nat))
    (hf : ∀ m a, (m.map (·.1)).Nodup → ((f m a).map (·.1)).Nodup) :
    ∀ (l : List A) (m : List (Str × Nat)), (m.map (·.1)).Nodup → ((l.foldl f m).map (·.1)).Nodup
  | [], _, h => h
  | a :: l, m, h => foldl_nodup f hf l (f m a) (hf m a h)

theorem loMax_ge : ∀ (l : List Nat) (x : Nat), x ∈ l → x ≤ loMax l := by
  have aux : ∀ (r : List Nat) (a : Nat), a ≤ r.foldl (fun m x => if x > m then x else m) a ∧
      ∀ x ∈ r, x ≤ r.foldl (fun m x => if x > m then x else m) a := by
    intro r
    induction r with
    | nil => intro a; simp
    | cons b r ih =>
      intro a
      have := ih (if b > a then b else a)
      rw [List.foldl_cons]
      refine ⟨?_, ?_⟩
      · refine le_trans ?_ this.1
        split <;> omega
      · intro x hx
        rcases List.mem_cons.mp hx with rfl | hx
        · refine le_trans ?_ this.1
          split <;> omega
        · exact this.2 x hx
  intro l x hx
  cases l with
  | nil => cases hx
  | cons a r =>
    rcases List.mem_cons.mp hx with rfl | hx
    · exact (aux r _).1
    · exact (aux r a).2 x hx

theorem loMax_mem (l : List Nat) (h : l ≠ []) : loMax l ∈ l := by
  have aux : ∀ (r : List Nat) (a : Nat),
      r.foldl (fun m x => if x > m then x else m) a ∈ a :: r := by
    intro r
    induction r with
    | nil => intro a; simp
    | cons b r ih =>
      intro a
      rw [List.foldl_cons]
      have := ih (if b > a then b else a)
      rcases List.mem_cons.mp this with h | h
      · rw [h]; split <;> simp
      · exact List.mem_cons_of_mem _ (List.mem_cons_of_mem _ h)
  cases l with
  | nil => exact absurd rfl h
  | cons a r => exact aux r a

/-- C31: the count is attained by a service of the trace and no service has more spans, whatever
order the map is read in. -/
theorem C31_count (order : List (Str × Nat) → List (Str × Nat)) (ho : ∀ l, (order l).Perm l)
    (t : Tree Span) :
    (∃ s ∈ t.pre, countOf s.service t = maxSameService order t) ∧
    ∀ service, countOf service t ≤ maxSameService order t := by
  have hnd : ((t.pre.foldl countEnter []).map (·.1)).Nodup :=
    foldl_nodup countEnter (fun _ _ h => nodup_keys_mapSet _ _ _ h) t.pre [] (by simp)
  have hval : ∀ k v, (k, v) ∈ t.pre.foldl countEnter [] →
      v = countOf k t ∧ ∃ s ∈ t.pre, s.service = k := by
    intro k v hkv
    have hg := mapGet_of_mem _ _ _ hnd hkv
    have h1 := foldl_count t.pre [] k
    rw [hg] at h1
    have h2 := (foldl_count_isSome t.pre [] k).mp (by rw [hg]; rfl)
    refine ⟨?_, ?_⟩
    · simpa [mapGet, countOf] using h1
    · rcases h2 with h2 | h2
      · simp [mapGet] at h2
      · exact h2
  have hle : ∀ service, countOf service t ≤ maxSameService order t := by
    intro service
    by_cases h0 : countOf service t = 0
    · omega
    · have : ∃ s ∈ t.pre, s.service = service := by
        by_contra hc
        push Not at hc
        apply h0
        unfold countOf
        rw [List.length_eq_zero_iff, List.filter_eq_nil_iff]
        intro a ha
        simpa using hc a ha
      have hs := (foldl_count_isSome t.pre [] service).mpr (.inr this)
      obtain ⟨v, hv⟩ := Option.isSome_iff_exists.mp hs
      have hm := mem_of_mapGet _ _ _ hv
      have := hval service v hm
      rw [← this.1]
      apply loMax_ge
      rw [List.mem_map]
      exact ⟨(service, v), (ho _).mem_iff.mpr hm, rfl⟩
  refine ⟨?_, hle⟩
  have hne : (order (t.pre.foldl countEnter [])).map (·.2) ≠ [] := by
    obtain ⟨s, cs⟩ := t
    intro h
    have hs := (foldl_count_isSome (Tree.node s cs).pre [] s.service).mpr
      (.inr ⟨s, by simp [Tree.pre], rfl⟩)
    obtain ⟨v, hv⟩ := Option.isSome_iff_exists.mp hs
    have hm := (ho _).mem_iff.mpr (mem_of_mapGet _ _ _ hv)
    rw [List.map_eq_nil_iff] at h
    rw [h] at hm
    cases hm
  have hm := loMax_mem _ hne
  rw [List.mem_map] at hm
  obtain ⟨⟨k, v⟩, hkv, he⟩ := hm
  have := hval k v ((ho _).mem_iff.mp hkv)
  obtain ⟨s, hs, rfl⟩ := this.2
  exact ⟨s, hs, by rw [← this.1]; exact he⟩

example : maxSameService id exTrace = 3 := by decide +kernel

/-! ## C55: the service that consumes most -/

/-- total consumed time of a service -/
def totalOf (sort : List (Nat × Nat) → List (Nat × Nat)) (service : Str) (t : Tree Span) : Nat :=
  (((infoT [] t).filter (fun n => n.2.1.service = service)).map
    (fun n => consumedTime sort n.2.1 n.2.2)).sum

theorem foldl_sum {A : Type} (w : Nat) (hw : 0 < w) (key : A → Str) (f : A → Nat)
    (step : List (Str × Nat) → A → List (Str × Nat))
    (hstep : ∀ m a, step m a = mapSet (key a) (((mapGet (key a) m).getD 0 + f a) % w) m) :
    ∀ (l : List A) (m : List (Str × Nat)) (k : Str), (∀ k', (mapGet k' m).getD 0 < w) →
    (mapGet k (l.foldl step m)).getD 0 =
      ((mapGet k m).getD 0 + ((l.filter (fun a => key a = k)).map f).sum) % w
  | [], m, k, hm => by
    simp only [List.foldl_nil, List.filter_nil, List.map_nil, List.sum_nil, Nat.add_zero]
    exact (Nat.mod_eq_of_lt (hm k)).symm
  | n :: l, m, k, hm => by
    have hm' : ∀ k', (mapGet k' (step m n)).getD 0 < w := by
      intro k'
      rw [hstep, mapGet_mapSet]
      split
      · exact Nat.mod_lt _ hw
      · exact hm k'
    rw [List.foldl_cons, foldl_sum w hw key f step hstep l _ k hm', hstep, mapGet_mapSet]
    by_cases h : key n = k
    · subst h
      simp [Nat.add_assoc]
    · have h' : ¬ k = key n := fun e => h e.symm
      simp [h, h']

theorem foldl_time (sort : List (Nat × Nat) → List (Nat × Nat))
    (l : List (List Span × Span × List Span)) (k : Str) :
    (mapGet k (l.foldl (timeEnter sort) [])).getD 0 =
      ((l.filter (fun n => n.2.1.service = k)).map
        (fun n => consumedTime sort n.2.1 n.2.2)).sum % word := by
  have h := foldl_sum word word_pos (fun n : List Span × Span × List Span => n.2.1.service)
    (fun n => consumedTime sort n.2.1 n.2.2) (timeEnter sort)
    (fun m a => by rw [timeEnter, add64]) l [] k (by intro k'; rw [mapGet, Option.getD]; exact word_pos)
  rw [mapGet, Option.getD_none, Nat.zero_add] at h
  exact h

theorem foldl_time_isSome (sort : List (Nat × Nat) → List (Nat × Nat)) :
    ∀ (l : List (List Span × Span × List Span)) (m : List (Str × Nat)) (k : Str),
    (mapGet k (l.foldl (timeEnter sort) m)).isSome = true ↔
      (mapGet k m).isSome = true ∨ ∃ n ∈ l, n.2.1.service = k
  | [], m, k => by simp
  | n :: l, m, k => by
    rw [List.foldl_cons, foldl_time_isSome sort l, timeEnter, mapGet_mapSet]
    by_cases h : n.2.1.service = k
    · subst h; simp
    · have h' : ¬ k = n.2.1.service := fun e => h e.symm
      simp [h, h']

theorem mostLoop_spec : ∀ (l : List (Str × Nat)) (acc : Str × Nat),
    (mostLoop l acc = acc ∨ mostLoop l acc ∈ l) ∧ acc.2 ≤ (mostLoop l acc).2 ∧
      ∀ e ∈ l, e.2 ≤ (mostLoop l acc).2
  | [], acc => by simp [mostLoop]
  | (s, t) :: l, acc => by
    rw [mostLoop]
    have ih := mostLoop_spec l (if acc.2 < t then (s, t) else acc)
    by_cases h : acc.2 < t
    · simp only [h, if_true] at ih ⊢
      refine ⟨.inr ?_, by omega, ?_⟩
      · rcases ih.1 with h1 | h1
        · rw [h1]; simp
        · exact List.mem_cons_of_mem _ h1
      · intro e he
        rcases List.mem_cons.mp he with rfl | he
        · exact ih.2.1
        · exact ih.2.2 e he
    · simp only [h, if_false] at ih ⊢
      refine ⟨?_, ih.2.1, ?_⟩
      · rcases ih.1 with h1 | h1
        · exact .inl h1
        · exact .inr (List.mem_cons_of_mem _ h1)
      · intro e he
        rcases List.mem_cons.mp he with rfl | he
        · have := ih.2.1; simp only; omega
        · exact ih.2.2 e he

/-- C55: when no sum overflows, the service named as most time consuming has the largest total, for
every map order; it is a service of the trace unless all totals are zero, and then it is empty. -/
theorem C55_most_consuming (sort : List (Nat × Nat) → List (Nat × Nat))
    (order : List (Str × Nat) → List (Str × Nat)) (ho : ∀ l, (order l).Perm l) (t : Tree Span)
    (h64 : ∀ service, totalOf sort service t < word) :
    (∀ service, totalOf sort service t ≤ totalOf sort (mostConsuming sort order t) t) ∧
    ((∃ s ∈ t.pre, s.service = mostConsuming sort order t) ∨
      (mostConsuming sort order t = [] ∧ ∀ service, totalOf sort service t = 0)) := by
  have hpre : ∀ k, (∃ n ∈ infoT [] t, n.2.1.service = k) ↔ ∃ s ∈ t.pre, s.service = k := by
    intro k
    have e : t.pre = (infoT [] t).map (fun x => x.2.1) := by
      rw [← withPath_snd [] t, ← infoT_withPath, List.map_map]
      rfl
    rw [e]
    constructor
    · rintro ⟨n, hn, hk⟩
      exact ⟨n.2.1, List.mem_map.mpr ⟨n, hn, rfl⟩, hk⟩
    · rintro ⟨s, hs, hk⟩
      obtain ⟨n, hn, rfl⟩ := List.mem_map.mp hs
      exact ⟨n, hn, hk⟩
  have hnd : (((infoT [] t).foldl (timeEnter sort) []).map (·.1)).Nodup :=
    foldl_nodup (timeEnter sort) (fun _ _ h => nodup_keys_mapSet _ _ _ h) _ [] (by simp)
  have hget : ∀ k, (mapGet k ((infoT [] t).foldl (timeEnter sort) [])).getD 0 = totalOf sort k t := by
    intro k
    rw [foldl_time]
    exact Nat.mod_eq_of_lt (h64 k)
  have hval : ∀ k v, (k, v) ∈ (infoT [] t).foldl (timeEnter sort) [] →
      v = totalOf sort k t ∧ ∃ s ∈ t.pre, s.service = k := by
    intro k v hkv
    have hg := mapGet_of_mem _ _ _ hnd hkv
    have h1 := hget k
    rw [hg] at h1
    refine ⟨h1, (hpre k).mp ?_⟩
    rcases (foldl_time_isSome sort _ [] k).mp (by rw [hg]; rfl) with h2 | h2
    · simp [mapGet] at h2
    · exact h2
  have hsp := mostLoop_spec (order ((infoT [] t).foldl (timeEnter sort) [])) ([], 0)
  set res := mostLoop (order ((infoT [] t).foldl (timeEnter sort) [])) ([], 0) with hres
  have hmc : mostConsuming sort order t = res.1 := rfl
  have hall : ∀ service, totalOf sort service t ≤ res.2 := by
    intro service
    cases hg : mapGet service ((infoT [] t).foldl (timeEnter sort) []) with
    | none =>
      have := hget service
      rw [hg] at this
      simp at this
      omega
    | some v =>
      have hm := mem_of_mapGet _ _ _ hg
      have h1 := (hval service v hm).1
      rw [← h1]
      exact hsp.2.2 (service, v) ((ho _).mem_iff.mpr hm)
  rw [hmc]
  rcases hsp.1 with h1 | h1
  · rw [h1] at hall ⊢
    have hz : ∀ service, totalOf sort service t = 0 := fun s => by
      have := hall s; simpa using this
    exact ⟨fun s => by rw [hz s]; omega, .inr ⟨rfl, hz⟩⟩
  · have hm := (ho _).mem_iff.mp h1
    have := hval res.1 res.2 hm
    exact ⟨fun s => by rw [← this.1]; exact hall s, .inl this.2⟩

/-- C55: ties are resolved by the map order: two orders name different services. -/
theorem C55_tie :
    ∃ t : Tree Span,
      mostConsuming fstSort id t ≠ mostConsuming fstSort List.reverse t :=
  ⟨.node { service := ['a'], start := 0, stop := 2 }
    [.node { service := ['b'], start := 1, stop := 2 } []], by decide +kernel⟩

example : mostConsuming fstSort id (.node { service := ['a'], start := 0, stop := 9 }
    [.node { service := ['b'], start := 1, stop := 8 } []]) = ['b'] := by decide +kernel

/-! ## C56: the view -/

mutual
theorem toViewModel_map : ∀ t : Tree Span, toViewModel t = t.map vmSpan
  | .node s cs => by rw [toViewModel, Tree.map, toViewModelL_map cs]
theorem toViewModelL_map : ∀ f : List (Tree Span), toViewModelL f = mapL vmSpan f
  | [] => by rw [toViewModelL, mapL]
  | t :: ts => by rw [toViewModelL, mapL, toViewModel_map t, toViewModelL_map ts]
end

/-- the value of a lower case hexadecimal digit -/
def hexValue (c : Char) : Option Nat :=
  "0123456789abcdef".toList.findIdx? (· == c)

/-- the bytes written in hexadecimal, two digits for each, the higher one first -/
def readHex : Str → Option Bytes
  | [] => some []
  | [_] => none
  | c :: d :: r => match hexValue c, hexValue d, readHex r with
    | some x, some y, some bs => some ((16 * x + y) :: bs)
    | _, _, _ => none

theorem hexValue_hexDigit : ∀ a < 16, hexValue (hexDigit a) = some a := by decide +kernel

/-- C56: the shown id is the id in hexadecimal. -/
theorem C56_id_in_hex : ∀ b : Bytes, (∀ x ∈ b, x < 256) → readHex (hex b) = some b
  | [], _ => rfl
  | x :: b, h => by
    have hx := h x (by simp)
    have ih := C56_id_in_hex b (fun z hz => h z (List.mem_cons_of_mem _ hz))
    have e : hex (x :: b) = hexDigit (x / 16) :: hexDigit (x % 16) :: hex b := by simp [hex]
    rw [e, readHex, hexValue_hexDigit _ (by omega), hexValue_hexDigit _ (by omega), ih]
    simp only [Option.some.injEq, List.cons.injEq, and_true]
    omega

/-- C56: the view has the same spans at the same depths, in the same order, with the same names and
services, their ids in hexadecimal. -/
theorem C56_same_tree (t : Tree Span) (h : ∀ s ∈ t.pre, ∀ x ∈ s.spanId, x < 256) :
    ((toViewModel t).withDepth 0).map (fun p => (p.1, p.2.name, p.2.service, readHex p.2.spanId)) =
      (t.withDepth 0).map (fun p => (p.1, p.2.name, p.2.service, some p.2.spanId)) := by
  rw [toViewModel_map, withDepth_map, List.map_map]
  apply List.map_congr_left
  intro p hp
  have hm : p.2 ∈ t.pre := by
    rw [← withDepth_snd 0 t]
    exact List.mem_map_of_mem hp
  simp only [Function.comp_apply, vmSpan, C56_id_in_hex _ (h p.2 hm)]

/-- C56: the instants of the view, span by span. -/
theorem C56_same_times (t : Tree Span) :
    List.Forall₂ (fun p q => p.1 = q.1 ∧ p.2.startMs * 1000000 ≤ q.2.start ∧
      q.2.start < (p.2.startMs + 1) * 1000000 ∧ p.2.stopMs * 1000000 ≤ q.2.stop ∧
      q.2.stop < (p.2.stopMs + 1) * 1000000) ((toViewModel t).withDepth 0) (t.withDepth 0) := by
  rw [toViewModel_map, withDepth_map, List.forall₂_map_left_iff, List.forall₂_same]
  intro p _
  refine ⟨rfl, ?_⟩
  simp only [vmSpan]
  omega

theorem hexDigit_inj : ∀ a < 16, ∀ b < 16, hexDigit a = hexDigit b → a = b := by decide

/-- C56: ids are told apart in the view. -/
theorem C56_ids_distinct : ∀ (a b : Bytes), (∀ x ∈ a, x < 256) → (∀ x ∈ b, x < 256) →
    hex a = hex b → a = b
  | [], [], _, _, _ => rfl
  | [], y :: b, _, _, h => by simp [hex] at h
  | x :: a, [], _, _, h => by simp [hex] at h
  | x :: a, y :: b, ha, hb, h => by
    simp only [hex, List.flatMap_cons, List.cons_append, List.nil_append, List.cons.injEq] at h
    have hx := ha x (by simp)
    have hy := hb y (by simp)
    have h1 := hexDigit_inj _ (by omega) _ (by omega) h.1
    have h2 := hexDigit_inj _ (by omega) _ (by omega) h.2.1
    have : x = y := by omega
    rw [this, C56_ids_distinct a b (fun z hz => ha z (List.mem_cons_of_mem _ hz))
      (fun z hz => hb z (List.mem_cons_of_mem _ hz)) h.2.2]

/-- C56: the shown times are whole milliseconds, cut off, and keep the order of the instants. -/
theorem C56_times (s : Span) :
    (vmSpan s).startMs * 1000000 ≤ s.start ∧ s.start < ((vmSpan s).startMs + 1) * 1000000 ∧
    (vmSpan s).stopMs * 1000000 ≤ s.stop ∧ s.stop < ((vmSpan s).stopMs + 1) * 1000000 ∧
    (s.start ≤ s.stop → (vmSpan s).startMs ≤ (vmSpan s).stopMs) := by
  simp only [vmSpan]
  omega

example : hex [0, 171, 16] = "00ab10".toList := by decide +kernel
example : ∀ s ∈ exTrace.pre, ∀ x ∈ s.spanId, x < 256 := by decide +kernel

end Verif.Otel
