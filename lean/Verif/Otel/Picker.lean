import Verif.Otel.Times
import Verif.Heap.Props
/-!
# C33, C34: picking traces

`/repo/otel/jaeger/trace_picker.go`.
-/
namespace Verif.Otel
open Verif.Lib

/-- `trace_picker.go:25-29`: unsigned subtraction. -/
def duration (t : Tree Span) : Nat := sub64 t.val.stop t.val.start

/-- `trace_picker.go:24-36` `PickSlowTraces`.  Traces whose root is nil (which compaction of converted
traces never yields, `C29_converted`) are left out. -/
def pickSlow (num : Int) (traces : List (Tree Span)) : Option (List (Tree Span)) :=
  (Heap.collect (fun a b => decide (duration a < duration b)) num traces).map List.reverse

/-- `trace_picker.go:18-22` `PickSameServiceAccessTraces` -/
def pickSameService (order : List (Str × Nat) → List (Str × Nat)) (threshold : Int)
    (traces : List (Tree Span)) : List (Tree Span) :=
  traces.filter (fun t => decide ((maxSameService order t : Int) > threshold))

theorem strictWeak_duration :
    Heap.StrictWeak (fun a b : Tree Span => decide (duration a < duration b)) := by
  constructor
  · intro a b h; simp at h ⊢; omega
  · intro a b c h1 h2; simp at h1 h2 ⊢; omega

/-- C33: of traces whose roots run forward, `min num available` are returned, slowest first, and none
left out is slower than one returned. -/
theorem C33_slowest (num : Int) (traces : List (Tree Span))
    (h : ∀ t ∈ traces, t.val.start ≤ t.val.stop ∧ t.val.stop < word) :
    ∃ picked out, pickSlow num traces = some picked ∧
      picked.length = min num.toNat traces.length ∧ (picked ++ out).Perm traces ∧
      picked.Pairwise (fun a b => a.val.stop - a.val.start ≥ b.val.stop - b.val.start) ∧
      ∀ d ∈ out, ∀ x ∈ picked, d.val.stop - d.val.start ≤ x.val.stop - x.val.start := by
  obtain ⟨r, out, h1, h2, h3, h4, h5⟩ := Heap.C32_largest strictWeak_duration num traces
  have hdur : ∀ t ∈ r ++ out, duration t = t.val.stop - t.val.start := by
    intro t ht
    have := h t (h4.mem_iff.mp ht)
    exact sub64_of_le this.2 this.1
  have hle : ∀ a b, Heap.le (fun a b : Tree Span => decide (duration a < duration b)) a b ↔
      duration a ≤ duration b := by
    intro a b; simp [Heap.le]
  refine ⟨r.reverse, out, ?_, by simpa using h3, ?_, ?_, ?_⟩
  · simp [pickSlow, h1]
  · exact ((List.reverse_perm r).append_right out).trans h4
  · rw [List.pairwise_reverse]
    refine h2.imp_of_mem ?_
    intro a b ha hb hab
    rw [hle, hdur a (by simp [ha]), hdur b (by simp [hb])] at hab
    exact hab
  · intro d hd x hx
    have hx' : x ∈ r := by simpa using hx
    have := h5 d hd x hx'
    rw [hle, hdur d (by simp [hd]), hdur x (by simp [hx'])] at this
    exact this

/-- C34: exactly the traces in which some service has more spans than the threshold, in order. -/
theorem C34_filter (order : List (Str × Nat) → List (Str × Nat)) (ho : ∀ l, (order l).Perm l)
    (threshold : Int) (traces : List (Tree Span)) :
    pickSameService order threshold traces =
      traces.filter (fun t => t.pre.any (fun s => decide ((countOf s.service t : Int) > threshold))) := by
  unfold pickSameService
  apply List.filter_congr
  intro t _
  obtain ⟨⟨s, hs, he⟩, hle⟩ := C31_count order ho t
  rw [Bool.eq_iff_iff]
  simp only [decide_eq_true_eq, List.any_eq_true]
  constructor
  · intro h; exact ⟨s, hs, by omega⟩
  · rintro ⟨s', _, h⟩
    have := hle s'.service
    omega

example : (pickSlow 2 [.node { start := 0, stop := 4 } [], .node { start := 1, stop := 9 } [],
    .node { start := 2, stop := 8 } []]).map (List.map (fun t => t.val.stop)) = some [9, 8] := by
  decide +kernel
example : (pickSameService id 2 [exTrace, .node {} []]).length = 1 := by decide +kernel

end Verif.Otel
