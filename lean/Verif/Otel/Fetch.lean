import Verif.Otel.Attrs
import Verif.Otel.Compact
import Verif.Lib.Times
/-!
# C36: fetching traces

`/repo/otel/jaeger/trace_fetcher.go`, `/repo/infra/jaeger/client.go:47-74`.
-/
namespace Verif.Otel
open Verif.Lib

/-! ## Model -/

/-- `api_v3.TraceQueryParameters`: seconds since the epoch, duration as seconds and nanoseconds. -/
structure Query where
  service : Str
  startMin : Int
  startMax : Int
  numTraces : Int
  durSeconds : Int
  durNanos : Int
deriving DecidableEq

/-- Failures: of the server, or a panic. -/
inductive FErr (E : Type) where
  | server (e : E)
  | panic

/-- What the server's stream delivers: chunks, then its end or an error. -/
structure Stream (E : Type) where
  chunks : List (List WireSpan)
  fails : Option E

/-- `trace_fetcher.go:46-54` `toProtoDuration`; both divisions cut toward zero. -/
def toProtoDuration (d : Int) : Int × Int :=
  let secs := d.tdiv 1000000000
  (secs, d - secs * 1000000000)

/-- `time.Time.Unix` -/
def unix (ns : Int) : Int := ns / 1000000000

/-- 30 minutes -/
def fetchInterval : Int := 1800000000000

/-- `trace_fetcher.go:28-34` -/
def queryFor (service : Str) (size minDuration start : Int) : Query where
  service := service
  startMin := unix start
  startMax := unix (start + fetchInterval)
  numTraces := size
  durSeconds := (toProtoDuration minDuration).1
  durNanos := (toProtoDuration minDuration).2

/-- `/repo/infra/jaeger/client.go:47-74` `FindTraces`: the failure of the call itself, or of the
stream, discards what was received. -/
def findTraces {E : Type} (answer : Except E (Stream E)) : Except E (List (List WireSpan)) :=
  match answer with
  | .error e => .error e
  | .ok s => match s.fails with
    | some e => .error e
    | none => .ok s.chunks

/-- conversion of the spans of one chunk; the first panic ends it -/
def holders : List WireSpan → Except Err (List Holder)
  | [] => .ok []
  | s :: r => match toHolder s with
    | .error e => .error e
    | .ok h => match holders r with
      | .error e => .error e
      | .ok hs => .ok (h :: hs)

/-- compaction of the trees of one chunk (`trace_fetcher.go:63-67`) -/
def compactAll : List (Tree Span) → Except Err (List (Option (Tree Span)))
  | [] => .ok []
  | t :: r => match compact t with
    | .error e => .error e
    | .ok c => match compactAll r with
      | .error e => .error e
      | .ok cs => .ok (c :: cs)

/-- one chunk: `ToTraceTrees`, then `Compact` of every tree -/
def chunkTrees (sort order : List Holder → List Holder) (chunk : List WireSpan) :
    Except Err (List (Option (Tree Span))) :=
  match holders chunk with
  | .error e => .error e
  | .ok hs => compactAll ((toTraceTrees sort order hs).map (Tree.map Holder.span))

/-- `trace_fetcher.go:61-68`: all chunks of a window -/
def chunksTrees (sort order : List Holder → List Holder) :
    List (List WireSpan) → Except Err (List (Option (Tree Span)))
  | [] => .ok []
  | c :: r => match chunkTrees sort order c with
    | .error e => .error e
    | .ok ts => match chunksTrees sort order r with
      | .error e => .error e
      | .ok us => .ok (ts ++ us)

/-- `trace_fetcher.go:56-72` `findCompactedTraceTrees` -/
def findCompacted {E : Type} (sort order : List Holder → List Holder) (answer : Except E (Stream E)) :
    Except (FErr E) (List (Option (Tree Span))) :=
  match findTraces answer with
  | .error e => .error (.server e)
  | .ok chunks => match chunksTrees sort order chunks with
    | .error _ => .error .panic
    | .ok ts => .ok ts

/-- `trace_fetcher.go:26-42`: the loop over the windows.  `server n q` is the answer to the `n`th
question; the result comes with the questions asked. -/
def fetchLoop {E : Type} (sort order : List Holder → List Holder) (server : Nat → Query → Except E (Stream E))
    (mk : Int → Query) : Nat → List Int → Except (FErr E) (List (Option (Tree Span))) × List Query
  | _, [] => (.ok [], [])
  | n, w :: ws => match findCompacted sort order (server n (mk w)) with
    | .error e => (.error e, [mk w])
    | .ok ts => match fetchLoop sort order server mk (n + 1) ws with
      | (.error e, qs) => (.error e, mk w :: qs)
      | (.ok us, qs) => (.ok (ts ++ us), mk w :: qs)

/-- `trace_fetcher.go:21-44` `FetchCompactedTraces`; `none`: it does not end. -/
def fetchCompacted {E : Type} (sort order : List Holder → List Holder)
    (server : Nat → Query → Except E (Stream E)) (size start stop : Int) (service : Str)
    (minDuration : Int) : Option (Except (FErr E) (List (Option (Tree Span))) × List Query) :=
  match generateTimeRanges start stop fetchInterval with
  | none => none
  | some ws => some (fetchLoop sort order server (queryFor service size minDuration) 0 ws)

/-! ## Specification -/

/-- what a window's answer contributes, if it is complete -/
def Contributes {E : Type} (sort order : List Holder → List Holder) (answer : Except E (Stream E))
    (ts : List (Option (Tree Span))) : Prop :=
  ∃ (s : Stream E) (parts : List (List (Option (Tree Span)))), answer = .ok s ∧ s.fails = none ∧ s.chunks.map (chunkTrees sort order) = parts.map .ok ∧
    ts = parts.flatten

/-- the server's error in an answer -/
def failure {E : Type} : Except E (Stream E) → Option E
  | .error e => some e
  | .ok s => s.fails

/-- an attribute value of some span of the answer is unset -/
def Malformed {E : Type} (answer : Except E (Stream E)) : Prop :=
  ∃ s, answer = .ok s ∧ ∃ c ∈ s.chunks, ∃ w ∈ c, unsetInKV w.attrs = true

/-! ## Proofs -/

theorem holders_cases (c : List WireSpan) :
    ((∃ w ∈ c, unsetInKV w.attrs = true) ∧ ∃ e, holders c = .error e) ∨
    ((∀ w ∈ c, unsetInKV w.attrs = false) ∧ ∃ hs, holders c = .ok hs) := by
  induction c with
  | nil => simp [holders]
  | cons w r ih =>
    cases hu : unsetInKV w.attrs with
    | true =>
      have := (C54_panics_iff w).mpr hu
      left
      exact ⟨⟨w, by simp, hu⟩, ⟨.panic, by rw [holders]; simp only [this]⟩⟩
    | false =>
      obtain ⟨h, hh⟩ := (C54_converts_iff w).mpr hu
      rcases ih with ⟨⟨w', hw', hu'⟩, e, he⟩ | ⟨hall, hs, he⟩
      · left
        exact ⟨⟨w', List.mem_cons_of_mem _ hw', hu'⟩, ⟨e, by rw [holders]; simp only [hh, he]⟩⟩
      · right
        refine ⟨?_, ⟨h :: hs, by rw [holders]; simp only [hh, he]⟩⟩
        intro x hx
        rcases List.mem_cons.mp hx with rfl | hx
        · exact hu
        · exact hall x hx

theorem compactAll_ok (l : List (Tree Span)) (h : ∀ t ∈ l, ∃ t', compact t = .ok (some t')) :
    ∃ cs : List (Tree Span), compactAll l = .ok (cs.map some) := by
  induction l with
  | nil => exact ⟨[], rfl⟩
  | cons t r ih =>
    obtain ⟨t', ht⟩ := h t (by simp)
    obtain ⟨cs, hcs⟩ := ih (fun x hx => h x (List.mem_cons_of_mem _ hx))
    exact ⟨t' :: cs, by rw [compactAll]; simp only [ht, hcs, List.map_cons]⟩

variable {E : Type} (sort order : List Holder → List Holder)

section
variable (hsort : SortsByStart sort) (horder : ∀ l, (order l).Perm l)
include hsort horder

theorem chunkTrees_cases (c : List WireSpan) :
    ((∃ w ∈ c, unsetInKV w.attrs = true) ∧ ∃ e, chunkTrees sort order c = .error e) ∨
    ((∀ w ∈ c, unsetInKV w.attrs = false) ∧ ∃ ts : List (Tree Span), chunkTrees sort order c = .ok (ts.map some)) := by
  rcases holders_cases c with ⟨h1, e, he⟩ | ⟨h1, hs, he⟩
  · exact .inl ⟨h1, e, by rw [chunkTrees]; simp only [he]⟩
  · right
    refine ⟨h1, ?_⟩
    rw [chunkTrees]
    simp only [he]
    apply compactAll_ok
    intro t ht
    obtain ⟨t0, ht0, rfl⟩ := List.mem_map.mp ht
    exact C29_converted sort order hs hsort horder t0 ht0

theorem chunksTrees_cases (cs : List (List WireSpan)) :
    ((∃ c ∈ cs, ∃ w ∈ c, unsetInKV w.attrs = true) ∧ ∃ e, chunksTrees sort order cs = .error e) ∨
    ((∀ c ∈ cs, ∀ w ∈ c, unsetInKV w.attrs = false) ∧ ∃ parts : List (List (Tree Span)),
      cs.map (chunkTrees sort order) = parts.map (fun p => .ok (p.map some)) ∧
      chunksTrees sort order cs = .ok (parts.map (List.map some)).flatten) := by
  induction cs with
  | nil => right; exact ⟨by simp, [], rfl, rfl⟩
  | cons c r ih =>
    rcases chunkTrees_cases sort order hsort horder c with ⟨h1, e, he⟩ | ⟨h1, ts, he⟩
    · left
      exact ⟨⟨c, by simp, h1⟩, e, by rw [chunksTrees]; simp only [he]⟩
    · rcases ih with ⟨⟨c', hc', h2⟩, e, he'⟩ | ⟨h2, parts, h3, h4⟩
      · left
        exact ⟨⟨c', List.mem_cons_of_mem _ hc', h2⟩, e, by rw [chunksTrees]; simp only [he, he']⟩
      · right
        refine ⟨?_, ts :: parts, ?_, ?_⟩
        · intro x hx
          rcases List.mem_cons.mp hx with rfl | hx
          · exact h1
          · exact h2 x hx
        · simp [he, h3]
        · rw [chunksTrees]; simp only [he, h4]; simp

/-- the three outcomes for one window -/
theorem findCompacted_cases (a : Except E (Stream E)) :
    (∃ e, failure a = some e ∧ findCompacted sort order a = .error (.server e)) ∨
    (failure a = none ∧ Malformed a ∧ findCompacted sort order a = .error .panic) ∨
    (failure a = none ∧ ¬ Malformed a ∧ ∃ ts : List (Tree Span),
      findCompacted sort order a = .ok (ts.map some) ∧ Contributes sort order a (ts.map some)) := by
  cases a with
  | error e => left; exact ⟨e, rfl, rfl⟩
  | ok s =>
    cases hf : s.fails with
    | some e =>
      left
      exact ⟨e, by simp [failure, hf], by simp [findCompacted, findTraces, hf]⟩
    | none =>
      right
      rcases chunksTrees_cases sort order hsort horder s.chunks with ⟨h1, e, he⟩ | ⟨h1, parts, h2, h3⟩
      · left
        exact ⟨by simp [failure, hf], ⟨s, rfl, h1⟩, by simp [findCompacted, findTraces, hf, he]⟩
      · right
        refine ⟨by simp [failure, hf], ?_, parts.flatten, ?_, ?_⟩
        · rintro ⟨s', hs', c, hc, w, hw, hu⟩
          cases hs'
          rw [h1 c hc w hw] at hu
          cases hu
        · simp only [findCompacted, findTraces, hf, h3, List.map_flatten]
        · refine ⟨s, parts.map (List.map some), rfl, hf, ?_, by rw [List.map_flatten]⟩
          rw [h2, List.map_map]
          rfl

/-- C36: if no window's answer fails or is malformed, every window is asked about exactly once, in
order, and the result is the concatenation of what the windows contribute, each trace compacted to a
tree with a root. -/
theorem C36_all (server : Nat → Query → Except E (Stream E)) (mk : Int → Query) :
    ∀ (ws : List Int) (n : Nat),
    (∀ i w, ws[i]? = some w → failure (server (n + i) (mk w)) = none ∧
      ¬ Malformed (server (n + i) (mk w))) →
    ∃ parts : List (List (Tree Span)), parts.length = ws.length ∧
      fetchLoop sort order server mk n ws = (.ok ((parts.flatten).map some), ws.map mk) ∧
      ∀ i w p, ws[i]? = some w → parts[i]? = some p →
        Contributes sort order (server (n + i) (mk w)) (p.map some)
  | [], n, _ => ⟨[], rfl, rfl, by simp⟩
  | w :: ws, n, h => by
    have h0 := h 0 w rfl
    rw [Nat.add_zero] at h0
    rcases findCompacted_cases sort order hsort horder (server n (mk w)) with
      ⟨e, h1, _⟩ | ⟨_, h1, _⟩ | ⟨_, _, ts, h1, h2⟩
    · rw [h0.1] at h1; cases h1
    · exact absurd h1 h0.2
    · obtain ⟨parts, h3, h4, h5⟩ := C36_all server mk ws (n + 1) (fun i v hv => by
        have := h (i + 1) v (by simpa using hv)
        rw [show n + 1 + i = n + (i + 1) by omega]
        exact this)
      refine ⟨ts :: parts, by simp [h3], ?_, ?_⟩
      · rw [fetchLoop]
        simp only [h1, h4]
        simp
      · intro i v p hv hp
        cases i with
        | zero =>
          simp at hv hp
          subst hv; subst hp
          exact h2
        | succ i =>
          simp at hv hp
          have := h5 i v p hv hp
          rw [show n + 1 + i = n + (i + 1) by omega] at this
          exact this

/-- C36: if the `i`th window is the first whose answer fails or is malformed, the whole fetch fails
with that error and no later window is asked about. -/
theorem C36_none (server : Nat → Query → Except E (Stream E)) (mk : Int → Query) :
    ∀ (ws : List Int) (n i : Nat) (w : Int), ws[i]? = some w →
    (∀ j v, j < i → ws[j]? = some v → failure (server (n + j) (mk v)) = none ∧
      ¬ Malformed (server (n + j) (mk v))) →
    (∀ e, failure (server (n + i) (mk w)) = some e →
      fetchLoop sort order server mk n ws = (.error (.server e), (ws.take (i + 1)).map mk)) ∧
    (failure (server (n + i) (mk w)) = none → Malformed (server (n + i) (mk w)) →
      fetchLoop sort order server mk n ws = (.error .panic, (ws.take (i + 1)).map mk))
  | [], _, _, _, h, _ => by simp at h
  | v :: ws, n, i, w, hw, h => by
    cases i with
    | zero =>
      simp at hw
      subst hw
      rw [Nat.add_zero]
      rcases findCompacted_cases sort order hsort horder (server n (mk v)) with
        ⟨e, h1, h2⟩ | ⟨h0, h1, h2⟩ | ⟨h0, h1, ts, h2, _⟩
      · refine ⟨fun e' he' => ?_, (fun hn => by rw [hn] at h1; cases h1)⟩
        rw [h1] at he'
        cases he'
        rw [fetchLoop]; simp only [h2]; simp
      · refine ⟨(fun e' he' => by rw [h0] at he'; cases he'), fun _ _ => ?_⟩
        rw [fetchLoop]; simp only [h2]; simp
      · exact ⟨(fun e' he' => by rw [h0] at he'; cases he'), fun _ hm => absurd hm h1⟩
    | succ i =>
      simp at hw
      have h0 := h 0 v (by omega) rfl
      rw [Nat.add_zero] at h0
      have hrec := C36_none server mk ws (n + 1) i w hw (fun j u hj hu => by
        have := h (j + 1) u (by omega) (by simpa using hu)
        rw [show n + 1 + j = n + (j + 1) by omega]
        exact this)
      rw [show n + 1 + i = n + (i + 1) by omega] at hrec
      rcases findCompacted_cases sort order hsort horder (server n (mk v)) with
        ⟨e, h1, _⟩ | ⟨_, h1, _⟩ | ⟨_, _, ts, h1, h2⟩
      · rw [h0.1] at h1; cases h1
      · exact absurd h1 h0.2
      · refine ⟨fun e he => ?_, fun hn hm => ?_⟩
        · rw [fetchLoop]; simp only [h1, hrec.1 e he]; simp
        · rw [fetchLoop]; simp only [h1, hrec.2 hn hm]; simp

end

/-- C36: fetching asks about the windows of C35. -/
theorem C36_windows (server : Nat → Query → Except E (Stream E)) (size start stop : Int) (service : Str)
    (minDuration : Int) :
    ∃ ws, generateTimeRanges start stop fetchInterval = some ws ∧
      fetchCompacted sort order server size start stop service minDuration =
        some (fetchLoop sort order server (queryFor service size minDuration) 0 ws) := by
  obtain ⟨ws, h, _⟩ := C35_tiles start stop fetchInterval (by decide)
  exact ⟨ws, h, by unfold fetchCompacted; simp only [h]⟩

/-- C36: every instant of the requested range lies, to the second, within a window asked about; the
asked windows join without gap; the last one ends at most 30 minutes after the end. -/
theorem C36_covers (size start stop : Int) (service : Str) (minDuration : Int) (ws : List Int)
    (hws : generateTimeRanges start stop fetchInterval = some ws) :
    (∀ x, start ≤ x → x < stop → ∃ q ∈ ws.map (queryFor service size minDuration),
      q.startMin ≤ unix x ∧ unix x ≤ q.startMax) ∧
    (∀ q ∈ ws.map (queryFor service size minDuration),
      q.startMax = q.startMin + 1800 ∧ q.startMax ≤ unix stop + 1800 ∧ unix start ≤ q.startMin ∧
      q.service = service ∧ q.numTraces = size) := by
  obtain ⟨r, h1, _, h2, h3⟩ := C35_tiles start stop fetchInterval (by decide)
  rw [hws] at h1
  cases h1
  constructor
  · intro x hx1 hx2
    obtain ⟨w, hw, hwx⟩ := h3 x hx1 hx2
    refine ⟨_, List.mem_map.mpr ⟨w, hw, rfl⟩, ?_⟩
    simp only [queryFor, unix, fetchInterval] at hwx ⊢
    omega
  · intro q hq
    obtain ⟨w, hw, rfl⟩ := List.mem_map.mp hq
    have := h2 w hw
    simp only [queryFor, unix, fetchInterval] at this ⊢
    refine ⟨by omega, by omega, by omega, trivial, trivial⟩

/-- C36: the minimum duration is passed on exactly, in the normal form protobuf asks for. -/
theorem C36_duration (d : Int) :
    (toProtoDuration d).1 * 1000000000 + (toProtoDuration d).2 = d ∧
    -1000000000 < (toProtoDuration d).2 ∧ (toProtoDuration d).2 < 1000000000 ∧
    (0 ≤ d → 0 ≤ (toProtoDuration d).1 ∧ 0 ≤ (toProtoDuration d).2) ∧
    (d ≤ 0 → (toProtoDuration d).1 ≤ 0 ∧ (toProtoDuration d).2 ≤ 0) := by
  simp only [toProtoDuration]
  rcases Int.le_total 0 d with h | h
  · rw [Int.tdiv_eq_ediv_of_nonneg h]
    omega
  · have e : d.tdiv 1000000000 = -((-d) / 1000000000) := by
      rw [← Int.tdiv_eq_ediv_of_nonneg (by omega), Int.neg_tdiv, Int.neg_neg]
    rw [e]
    omega

/-- a server for examples: the third question fails -/
def exServer (n : Nat) (_ : Query) : Except Str (Stream Str) :=
  if n = 2 then .ok ⟨[[exWire]], some ['x']⟩ else .ok ⟨[[exWire]], none⟩

example : (fetchCompacted id id exServer 10 5000000000 3605000000000 ['s'] 1500000000).map
    (fun r => ((match r.1 with | .ok ts => some ts.length | _ => none),
      r.2.map (fun q => (q.startMin, q.startMax, q.durSeconds, q.durNanos)))) =
    some (some 2, [(5, 1805, 1, 500000000), (1805, 3605, 1, 500000000)]) := by decide +kernel
example : (fetchCompacted id id exServer 10 5000000000 9605000000000 ['s'] 1500000000).map
    (fun r => ((match r.1 with | .error (.server e) => some e | _ => none), r.2.length)) =
    some (some ['x'], 3) := by decide +kernel

end Verif.Otel
