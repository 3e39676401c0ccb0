import Verif.Otel.Fetch
import Verif.Otel.Picker
import Verif.Otel.Late
/-!
# C81: the command `gr app dig jaeger`

`/repo/cmd/app/dig/jaeger.go`
-/
namespace Verif.Cmd.Jaeger
open Verif.Lib Verif.Otel

/-! ## Model -/

/-- `/repo/html/viewmodel/vm_otel_compact_trace.go` -/
structure VmTrace where
  traceId : Str
  sameServiceAccessCount : Nat
  timeConsumingServiceName : Str
  root : Tree VmSpan

/-- what the page is made of, `/repo/cmd/app/dig/jaeger.go:152-158` -/
structure Report where
  uiURL : Str
  durationMilli : Int
  threshold : Int
  slow : List VmTrace
  same : List VmTrace

/-- the flags, `/repo/cmd/app/dig/jaeger.go:33-43`, and the output path of `app_flag.go` -/
structure Options where
  service : Str
  durationMilli : Int
  threshold : Int
  count : Int
  startStr : Str
  output : Str

/-- the outside: `time.Parse(time.RFC3339, _)` (nanoseconds), the clock, the environment variables, the
connection, Jaeger's answer to the `n`th question, writing the page; and the orders left open by
`sort.Slice` and by ranging over maps. -/
structure World (E : Type) where
  parse : Str → Except E Int
  now : Int
  getenv : Str → Str
  connect : Str → Except E Unit
  server : Nat → Query → Except E (Stream E)
  write : Str → Report → Except E Unit
  sortH : List Holder → List Holder
  orderH : List Holder → List Holder
  sortT : List (Nat × Nat) → List (Nat × Nat)
  orderT : List (Str × Nat) → List (Str × Nat)

inductive Err (E : Type) where
  | badStart (e : E)
  | noEnv (key : Str)
  | connect (e : E)
  | fetch (e : FErr E)
  | write (e : E)
  | panic

/-- what can be seen from outside -/
inductive Effect where
  | ask (q : Query)
  | html (path : Str) (r : Report)

/-- 24 hours in nanoseconds -/
def day : Int := 86400000000000

/-- conversion to `int32` -/
def int32 (n : Int) : Int := (n + 2147483648) % 4294967296 - 2147483648

/-- conversion to `int64`, for the product in `/repo/cmd/app/dig/jaeger.go:112` -/
def int64 (n : Int) : Int := (n + 9223372036854775808) % 18446744073709551616 - 9223372036854775808

/-- `/repo/lib/env.go:8-14` `GetEnv` -/
def getEnv {E : Type} (w : World E) (key : Str) : Except (Err E) Str :=
  if w.getenv key = [] then .error (.noEnv key) else .ok (w.getenv key)

@[irreducible] def uiKey : Str := "JAEGER_UI_URL".toList
@[irreducible] def grpcKey : Str := "JAEGER_GRPC_ADDRESS".toList

/-- the start of the range, `/repo/cmd/app/dig/jaeger.go:66-76` -/
def startOf {E : Type} (w : World E) (o : Options) : Except (Err E) Int :=
  if o.startStr ≠ [] then
    match w.parse o.startStr with
    | .error e => .error (.badStart e)
    | .ok t => .ok t
  else .ok (w.now - day)

/-- the end of the range, `/repo/cmd/app/dig/jaeger.go:78-81` -/
def stopOf {E : Type} (w : World E) (start : Int) : Int :=
  if start + day > w.now then w.now else start + day

/-- what `prepare` sets -/
structure Prepared where
  start : Int
  stop : Int
  uiURL : Str
  grpcAddress : Str

/-- `/repo/cmd/app/dig/jaeger.go:63-97` `prepare` -/
def prepare {E : Type} (w : World E) (o : Options) : Except (Err E) Prepared :=
  match startOf w o with
  | .error e => .error e
  | .ok start => match getEnv w uiKey with
    | .error e => .error e
    | .ok ui => match getEnv w grpcKey with
      | .error e => .error e
      | .ok grpc => .ok ⟨start, stopOf w start, ui, grpc⟩

/-- `/repo/otel/omodel/trace_tree.go:49-64` `ToCompactViewModel` -/
def toVm {E : Type} (w : World E) (t : Tree Span) : VmTrace where
  traceId := hex t.val.traceId
  sameServiceAccessCount := maxSameService w.orderT t
  timeConsumingServiceName := mostConsuming w.sortT w.orderT t
  root := toViewModel t

/-- the trees, if all have a root (a nil root is dereferenced by both pickers and by the log) -/
def roots : List (Option (Tree Span)) → Option (List (Tree Span))
  | [] => some []
  | none :: _ => none
  | some t :: r => (roots r).map (t :: ·)

/-- `/repo/cmd/app/dig/jaeger.go:115-144` and `147-164`: after fetching -/
def present {E : Type} (w : World E) (o : Options) (p : Prepared) (trees : List (Option (Tree Span))) :
    Except (Err E) Unit × List Effect :=
  match roots trees with
  | none => (.error .panic, [])
  | some traces => match pickSlow 100 traces with
    | none => (.error .panic, [])
    | some slow =>
      let same := pickSameService w.orderT o.threshold traces
      if o.output ≠ [] then
        let r : Report := ⟨p.uiURL, o.durationMilli, o.threshold, slow.map (toVm w), same.map (toVm w)⟩
        match w.write o.output r with
        | .error e => (.error (.write e), [])
        | .ok _ => (.ok (), [.html o.output r])
      else (.ok (), [])

/-- `/repo/cmd/app/dig/jaeger.go:23-30`, `99-145`; `none`: it does not end. -/
def run {E : Type} (w : World E) (o : Options) : Option (Except (Err E) Unit × List Effect) :=
  match prepare w o with
  | .error e => some (.error e, [])
  | .ok p => match w.connect p.grpcAddress with
    | .error e => some (.error (.connect e), [])
    | .ok _ =>
      match fetchCompacted w.sortH w.orderH w.server (int32 o.count) p.start p.stop o.service
          (int64 (o.durationMilli * 1000000)) with
      | none => none
      | some (.error e, qs) => some (.error (.fetch e), qs.map .ask)
      | some (.ok trees, qs) =>
        let r := present w o p trees
        some (r.1, qs.map .ask ++ r.2)

/-! ## Specification -/

/-- the orders are orders -/
structure World.Ok {E : Type} (w : World E) : Prop where
  sortH : SortsByStart w.sortH
  sortT : SortsByFst w.sortT
  orderH : ∀ l, (w.orderH l).Perm l
  orderT : ∀ l, (w.orderT l).Perm l

/-- all windows asked about answered completely and well-formed, and the traces they contribute are these,
in order -/
def Collected {E : Type} (w : World E) (qs : List Query) (traces : List (Tree Span)) : Prop :=
  ∃ parts : List (List (Tree Span)), parts.flatten = traces ∧ parts.length = qs.length ∧
    ∀ i q p, qs[i]? = some q → parts[i]? = some p →
      Contributes w.sortH w.orderH (w.server i q) (p.map some)

/-- the questions ask for all of a range: every instant, to the second -/
def Covers (qs : List Query) (start stop : Int) : Prop :=
  ∀ x, start ≤ x → x < stop → ∃ q ∈ qs, q.startMin ≤ unix x ∧ unix x ≤ q.startMax

/-- the trace runs forward -/
def Forward (t : Tree Span) : Prop := t.val.start ≤ t.val.stop ∧ t.val.stop < word

/-- the `n` slowest of the traces, slowest first -/
def Slowest (n : Nat) (traces picked : List (Tree Span)) : Prop :=
  picked.length = min n traces.length ∧
  picked.Pairwise (fun a b => a.val.stop - a.val.start ≥ b.val.stop - b.val.start) ∧
  ∃ out, (picked ++ out).Perm traces ∧
    ∀ d ∈ out, ∀ x ∈ picked, d.val.stop - d.val.start ≤ x.val.stop - x.val.start

/-! ## Proofs -/

theorem roots_some : ∀ ts : List (Tree Span), roots (ts.map some) = some ts
  | [] => rfl
  | t :: ts => by rw [List.map_cons, roots, roots_some ts]; rfl

theorem pickSlow_some (num : Int) (traces : List (Tree Span)) : ∃ l, pickSlow num traces = some l := by
  obtain ⟨r, out, h1, _⟩ := Heap.C32_largest strictWeak_duration num traces
  exact ⟨r.reverse, by simp [pickSlow, h1]⟩

variable {E : Type} (w : World E) (o : Options)

theorem prepare_ok (p : Prepared) (h : prepare w o = .ok p) :
    startOf w o = .ok p.start ∧ p.stop = stopOf w p.start ∧ p.uiURL = w.getenv uiKey ∧ p.uiURL ≠ [] ∧
      p.grpcAddress = w.getenv grpcKey ∧ p.grpcAddress ≠ [] := by
  unfold prepare at h
  split at h
  · cases h
  · rename_i s hs
    split at h
    · cases h
    · rename_i ui hui
      split at h
      · cases h
      · rename_i g hg
        cases h
        unfold getEnv at hui hg
        split at hui
        · cases hui
        · split at hg
          · cases hg
          · cases hui; cases hg
            refine ⟨hs, rfl, rfl, ?_, rfl, ?_⟩ <;> assumption

/-- the environment variable with the address of Jaeger's page -/
def uiVariable : Str := "JAEGER_UI_URL".toList

/-- the environment variable with the address of Jaeger's gRPC service -/
def grpcVariable : Str := "JAEGER_GRPC_ADDRESS".toList

theorem variables_eq : uiKey = uiVariable ∧ grpcKey = grpcVariable := by decide +kernel

/-- C81: the command starts asking only if the start can be read and both addresses are given, and then uses just
these; otherwise the error says what is wrong or missing. -/
theorem C81_prepares :
    (∀ p, prepare w o = .ok p → (o.startStr ≠ [] → w.parse o.startStr = .ok p.start) ∧
      w.getenv uiVariable ≠ [] ∧ p.uiURL = w.getenv uiVariable ∧
      w.getenv grpcVariable ≠ [] ∧ p.grpcAddress = w.getenv grpcVariable) ∧
    ∀ e, prepare w o = .error e →
      (∃ x, e = .badStart x ∧ o.startStr ≠ [] ∧ w.parse o.startStr = .error x) ∨
      ∃ k, e = .noEnv k ∧ (k = uiVariable ∨ k = grpcVariable) ∧ w.getenv k = [] := by
  obtain ⟨e1, e2⟩ := variables_eq
  constructor
  · intro p hp
    obtain ⟨h1, -, h3, h4, h5, h6⟩ := prepare_ok w o p hp
    rw [e1] at h3
    rw [e2] at h5
    refine ⟨fun hs => ?_, h3 ▸ h4, h3, h5 ▸ h6, h5⟩
    unfold startOf at h1
    rw [if_pos hs] at h1
    split at h1
    · cases h1
    · rename_i t ht
      cases h1; exact ht
  · intro e he
    unfold prepare at he
    split at he
    · rename_i x hx
      cases he
      unfold startOf at hx
      split at hx
      · rename_i hs
        split at hx
        · rename_i y hy
          cases hx
          exact .inl ⟨y, rfl, hs, hy⟩
        · cases hx
      · cases hx
    · right
      have env : ∀ k x, getEnv w k = .error x → x = .noEnv k ∧ w.getenv k = [] := by
        intro k x h
        unfold getEnv at h
        split at h
        · rename_i hk
          cases h; exact ⟨rfl, hk⟩
        · cases h
      split at he
      · rename_i x hx
        cases he
        rw [e1] at hx
        exact ⟨_, (env _ _ hx).1, .inl rfl, (env _ _ hx).2⟩
      · split at he
        · rename_i x hx
          cases he
          rw [e2] at hx
          exact ⟨_, (env _ _ hx).1, .inr rfl, (env _ _ hx).2⟩
        · cases he

/-- 24 hours, in nanoseconds -/
def oneDay : Int := 24 * 60 * 60 * 1000000000

theorem oneDay_eq : day = oneDay := by decide

/-- C81: the range asked for is at most a day and ends by now.  Without `--start-from` it is the last 24
hours; with it, it begins at the time given and, unless that lies ahead, is the 24 hours from there as far
as they are over. -/
theorem C81_range (p : Prepared) (h : prepare w o = .ok p) :
    p.stop ≤ w.now ∧ p.stop ≤ p.start + oneDay ∧
    (o.startStr = [] → p.start = w.now - oneDay ∧ p.stop = w.now) ∧
    (o.startStr ≠ [] → w.parse o.startStr = .ok p.start) ∧
    (p.start ≤ w.now → p.start ≤ p.stop ∧ (p.stop = w.now ∨ p.stop = p.start + oneDay)) := by
  rw [← oneDay_eq]
  obtain ⟨h1, h2, _⟩ := prepare_ok w o p h
  have hd : (0 : Int) < day := by decide
  have h3 : p.stop ≤ w.now ∧ p.stop ≤ p.start + day ∧ (p.stop = w.now ∨ p.stop = p.start + day) := by
    rw [h2]
    unfold stopOf
    split <;> omega
  refine ⟨h3.1, h3.2.1, ?_, ?_, ?_⟩
  · intro he
    unfold startOf at h1
    rw [if_neg (by simpa using he)] at h1
    have h1' : w.now - day = p.start := Except.ok.inj h1
    refine ⟨h1'.symm, ?_⟩
    rw [h2]
    unfold stopOf
    split <;> omega
  · intro he
    unfold startOf at h1
    rw [if_pos he] at h1
    split at h1
    · cases h1
    · rename_i t ht
      cases h1; exact ht
  · intro hle
    refine ⟨?_, h3.2.2⟩
    rcases h3.2.2 with e | e <;> omega

/-- what a run with complete answers does -/
theorem run_complete (hw : w.Ok) (p : Prepared) (hp : prepare w o = .ok p) (hc : ∃ u, w.connect p.grpcAddress = .ok u)
    (ws : List Int) (hws : generateTimeRanges p.start p.stop fetchInterval = some ws)
    (hall : ∀ i v, ws[i]? = some v →
      failure (w.server i (queryFor o.service (int32 o.count) (int64 (o.durationMilli * 1000000)) v)) = none ∧
      ¬ Malformed (w.server i (queryFor o.service (int32 o.count) (int64 (o.durationMilli * 1000000)) v))) :
    ∃ traces slow, Collected w (ws.map (queryFor o.service (int32 o.count) (int64 (o.durationMilli * 1000000)))) traces ∧
      pickSlow 100 traces = some slow ∧
      run w o = some ((present w o p (traces.map some)).1,
        (ws.map (queryFor o.service (int32 o.count) (int64 (o.durationMilli * 1000000)))).map .ask ++
          (present w o p (traces.map some)).2) := by
  obtain ⟨u, hu⟩ := hc
  obtain ⟨parts, hl, hf, hcon⟩ := C36_all w.sortH w.orderH hw.sortH hw.orderH w.server
    (queryFor o.service (int32 o.count) (int64 (o.durationMilli * 1000000))) ws 0 (by simpa using hall)
  obtain ⟨slow, hslow⟩ := pickSlow_some 100 parts.flatten
  refine ⟨parts.flatten, slow, ⟨parts, rfl, by simpa using hl, ?_⟩, hslow, ?_⟩
  · intro i q p hq hp'
    rw [List.getElem?_map] at hq
    cases hwi : ws[i]? with
    | none => rw [hwi] at hq; cases hq
    | some v =>
      rw [hwi] at hq
      cases hq
      simpa using hcon i v p hwi hp'
  · unfold run
    rw [hp]
    simp only [hu]
    unfold fetchCompacted
    simp only [hws, hf]

theorem present_cases (p : Prepared) (traces slow : List (Tree Span)) (hs : pickSlow 100 traces = some slow) :
    (o.output = [] ∧ present w o p (traces.map some) = (.ok (), [])) ∨
    (o.output ≠ [] ∧ (∃ e, w.write o.output ⟨p.uiURL, o.durationMilli, o.threshold, slow.map (toVm w),
        (pickSameService w.orderT o.threshold traces).map (toVm w)⟩ = .error e ∧
        present w o p (traces.map some) = (.error (.write e), []))) ∨
    (o.output ≠ [] ∧ present w o p (traces.map some) = (.ok (), [.html o.output
      ⟨p.uiURL, o.durationMilli, o.threshold, slow.map (toVm w),
        (pickSameService w.orderT o.threshold traces).map (toVm w)⟩])) := by
  unfold present
  simp only [roots_some, hs]
  by_cases ho : o.output = []
  · left; simp [ho]
  · right
    cases hwr : w.write o.output ⟨p.uiURL, o.durationMilli, o.threshold, slow.map (toVm w),
        (pickSameService w.orderT o.threshold traces).map (toVm w)⟩ with
    | error e => left; exact ⟨ho, e, rfl, by simp [ho]⟩
    | ok u => right; exact ⟨ho, by simp [ho]⟩

/-- the questions a window stands for -/
abbrev Options.ask (o : Options) : Int → Query :=
  queryFor o.service (int32 o.count) (int64 (o.durationMilli * 1000000))

/-- C81: a page is written only after all windows were answered, and shows the hundred slowest of all traces
of the range, slowest first, and all traces in which some service is visited more often than the threshold. -/
theorem C81_report (hw : w.Ok) (res : Except (Err E) Unit) (effs : List Effect) (path : Str) (r : Report)
    (h : run w o = some (res, effs)) (hr : .html path r ∈ effs) :
    ∃ p qs traces slow, prepare w o = .ok p ∧ res = .ok () ∧ path = o.output ∧ path ≠ [] ∧
      effs = qs.map .ask ++ [.html path r] ∧
      Covers qs p.start p.stop ∧ (∀ q ∈ qs, q.service = o.service ∧ q.numTraces = int32 o.count ∧
        q.durSeconds * 1000000000 + q.durNanos = int64 (o.durationMilli * 1000000)) ∧
      Collected w qs traces ∧
      ((∀ t ∈ traces, Forward t) → Slowest 100 traces slow) ∧ (∀ t ∈ slow, t ∈ traces) ∧
      r = ⟨p.uiURL, o.durationMilli, o.threshold, slow.map (toVm w),
        (traces.filter fun t => t.pre.any fun s => decide ((countOf s.service t : Int) > o.threshold)).map (toVm w)⟩ := by
  cases hp : prepare w o with
  | error e =>
    unfold run at h; rw [hp] at h; cases h; cases hr
  | ok p =>
    cases hc : w.connect p.grpcAddress with
    | error e => unfold run at h; rw [hp] at h; simp only [hc] at h; cases h; cases hr
    | ok u =>
      obtain ⟨ws, hws, hfc⟩ := C36_windows w.sortH w.orderH w.server (int32 o.count) p.start p.stop o.service
        (int64 (o.durationMilli * 1000000))
      by_cases hall : ∀ i v, ws[i]? = some v → failure (w.server i (o.ask v)) = none ∧ ¬ Malformed (w.server i (o.ask v))
      · obtain ⟨traces, slow, h1, h2, h3⟩ := run_complete w o hw p hp ⟨u, hc⟩ ws hws hall
        rw [h3] at h
        have hno : Effect.html path r ∉ (ws.map o.ask).map Effect.ask := by
          simp
        rcases present_cases w o p traces slow h2 with ⟨_, e⟩ | ⟨_, x, _, e⟩ | ⟨ho, e⟩
        · rw [e] at h; cases h
          rw [List.append_nil] at hr
          exact absurd hr hno
        · rw [e] at h; cases h
          rw [List.append_nil] at hr
          exact absurd hr hno
        · rw [e] at h; cases h
          have hr' := (List.mem_append.mp hr).resolve_left hno
          rw [List.mem_singleton] at hr'
          cases hr'
          have hcov := C36_covers (int32 o.count) p.start p.stop o.service (int64 (o.durationMilli * 1000000)) ws hws
          refine ⟨p, ws.map o.ask, traces, slow, rfl, rfl, rfl, ho, rfl, hcov.1, ?_, h1, ?_, ?_, ?_⟩
          · intro q hq
            refine ⟨(hcov.2 q hq).2.2.2.1, (hcov.2 q hq).2.2.2.2, ?_⟩
            obtain ⟨v, _, rfl⟩ := List.mem_map.mp hq
            exact (C36_duration _).1
          · intro hf
            obtain ⟨picked, out, e1, e2, e3, e4, e5⟩ := C33_slowest 100 traces hf
            rw [h2] at e1; cases e1
            exact ⟨e2, e4, out, e3, e5⟩
          · intro t ht
            obtain ⟨r, out, e1, _, _, e4, _⟩ := Heap.C32_largest strictWeak_duration 100 traces
            have : slow = r.reverse := by
              have := h2; simp only [pickSlow, e1, Option.map_some, Option.some.injEq] at this; exact this.symm
            rw [this, List.mem_reverse] at ht
            exact e4.mem_iff.mp (by simp [ht])
          · rw [C34_filter w.orderT hw.orderT]
      · have hex : ∃ i, ∃ v, ws[i]? = some v ∧ ¬ (failure (w.server i (o.ask v)) = none ∧ ¬ Malformed (w.server i (o.ask v))) := by
          simpa only [not_forall, exists_prop] using hall
        classical
        obtain ⟨v, hv, hbad⟩ := Nat.find_spec hex
        have hmin := fun j (hj : j < Nat.find hex) => Nat.find_min hex hj
        have hn := C36_none w.sortH w.orderH hw.sortH hw.orderH w.server o.ask ws 0 (Nat.find hex) v hv (by
          intro j u hj hu
          have := hmin j hj
          simp only [not_exists, not_and] at this
          have := this u hu
          simpa using this)
        have hfail : ∃ e qs, fetchLoop w.sortH w.orderH w.server o.ask 0 ws = (.error e, qs) := by
          cases hf : failure (w.server (0 + Nat.find hex) (o.ask v)) with
          | some e => exact ⟨_, _, hn.1 e hf⟩
          | none =>
            refine ⟨_, _, hn.2 hf ?_⟩
            rw [Nat.zero_add] at hf ⊢
            by_contra hm
            exact hbad ⟨hf, hm⟩
        obtain ⟨e, qs, hf⟩ := hfail
        unfold run at h
        rw [hp] at h
        simp only [hc, hfc, hf] at h
        cases h
        simp at hr

/-- C81: an entry of the page shows its trace: the id of the trace in hexadecimal, the largest number of spans
of one service, the service that runs longest by itself (if no call outlasts its caller), and all spans at their
places. -/
theorem C81_entry (hw : w.Ok) (t : Tree Span) (hb : ∀ x ∈ t.val.traceId, x < 256)
    (hs : ∀ s ∈ t.pre, ∀ x ∈ s.spanId, x < 256) :
    readHex (toVm w t).traceId = some t.val.traceId ∧
    ((∃ s ∈ t.pre, countOf s.service t = (toVm w t).sameServiceAccessCount) ∧
      ∀ service, countOf service t ≤ (toVm w t).sameServiceAccessCount) ∧
    (Timed t → (∀ service, own service t < word) →
      ∀ service, own service t ≤ own (toVm w t).timeConsumingServiceName t) ∧
    ((toVm w t).root.withDepth 0).map (fun p => (p.1, p.2.name, p.2.service, readHex p.2.spanId)) =
      (t.withDepth 0).map (fun p => (p.1, p.2.name, p.2.service, some p.2.spanId)) :=
  ⟨C56_id_in_hex _ hb, C31_count w.orderT hw.orderT t,
    fun ht h64 => (C55_longest_partial w.sortT hw.sortT w.orderT hw.orderT t ht h64).1, C56_same_tree t hs⟩

/-- C81: with an answer for every window the command succeeds, and the page is written unless no path was
given or writing fails. -/
theorem C81_succeeds (hw : w.Ok) (p : Prepared) (hp : prepare w o = .ok p)
    (hc : ∃ u, w.connect p.grpcAddress = .ok u) (hwr : ∀ r, ∃ u, w.write o.output r = .ok u)
    (hall : ∀ n q, failure (w.server n q) = none ∧ ¬ Malformed (w.server n q)) :
    ∃ effs, run w o = some (.ok (), effs) ∧ (o.output ≠ [] → ∃ r, .html o.output r ∈ effs) := by
  obtain ⟨ws, hws, _⟩ := C36_windows w.sortH w.orderH w.server (int32 o.count) p.start p.stop o.service
    (int64 (o.durationMilli * 1000000))
  obtain ⟨traces, slow, h1, h2, h3⟩ := run_complete w o hw p hp hc ws hws (fun i v _ => hall i _)
  rcases present_cases w o p traces slow h2 with ⟨ho, e⟩ | ⟨_, x, hx, _⟩ | ⟨ho, e⟩
  · exact ⟨_, by rw [h3, e], fun hne => absurd ho hne⟩
  · obtain ⟨u, hu⟩ := hwr ⟨p.uiURL, o.durationMilli, o.threshold, slow.map (toVm w),
        (pickSameService w.orderT o.threshold traces).map (toVm w)⟩
    rw [hx] at hu; cases hu
  · exact ⟨_, by rw [h3, e], fun _ => ⟨_, List.mem_append_right _ (List.mem_singleton.mpr rfl)⟩⟩

/-- C81: if Jaeger fails to answer, the command fails with the error of the first such question, asks nothing
more and writes nothing. -/
theorem C81_fails (hw : w.Ok) (p : Prepared) (hp : prepare w o = .ok p) (hc : ∃ u, w.connect p.grpcAddress = .ok u)
    (ws : List Int) (hws : generateTimeRanges p.start p.stop fetchInterval = some ws) (i : Nat) (v : Int)
    (hv : ws[i]? = some v) (e : E) (he : failure (w.server i (o.ask v)) = some e)
    (hbefore : ∀ j u, j < i → ws[j]? = some u →
      failure (w.server j (o.ask u)) = none ∧ ¬ Malformed (w.server j (o.ask u))) :
    run w o = some (.error (.fetch (.server e)), ((ws.take (i + 1)).map o.ask).map .ask) := by
  obtain ⟨u, hu⟩ := hc
  have hn := (C36_none w.sortH w.orderH hw.sortH hw.orderH w.server o.ask ws 0 i v hv (by simpa using hbefore)).1 e
    (by simpa using he)
  unfold run
  rw [hp]
  simp only [hu]
  unfold fetchCompacted
  simp only [hws]
  rw [show queryFor o.service (int32 o.count) (int64 (o.durationMilli * 1000000)) = o.ask from rfl, hn]

/-- C81: exactly the numbers that fit are passed on unchanged. -/
theorem C81_numbers :
    (int32 o.count = o.count ↔ -2147483648 ≤ o.count ∧ o.count < 2147483648) ∧
    (int64 (o.durationMilli * 1000000) = o.durationMilli * 1000000 ↔
      -9223372036854 ≤ o.durationMilli ∧ o.durationMilli ≤ 9223372036854) := by
  unfold int32 int64
  omega

/-- Larger counts are not: asking for 2³² traces asks for none, without any message. -/
theorem C81_count_wraps : int32 4294967296 = 0 ∧ int32 2147483648 = -2147483648 := by decide

/-- A start in the future is not refused: nothing is asked and an empty page is written. -/
theorem C81_future (hw : w.Ok) (p : Prepared) (hp : prepare w o = .ok p) (hfut : w.now ≤ p.start)
    (hc : ∃ u, w.connect p.grpcAddress = .ok u) (hwr : ∀ r, ∃ u, w.write o.output r = .ok u) (ho : o.output ≠ []) :
    run w o = some (.ok (), [.html o.output ⟨p.uiURL, o.durationMilli, o.threshold, [], []⟩]) := by
  have hr := C81_range w o p hp
  have hws : generateTimeRanges p.start p.stop fetchInterval = some [] := by
    unfold generateTimeRanges enough timesBelow
    rw [if_neg (by omega)]
  obtain ⟨traces, slow, ⟨parts, h1, h1', _⟩, h2, h3⟩ := run_complete w o hw p hp hc [] hws (by simp)
  have : traces = [] := by
    have : parts = [] := by simpa using h1'
    rw [← h1, this]; rfl
  subst this
  have hs : slow = [] := by
    have e : pickSlow 100 [] = some [] := by rfl
    rw [e] at h2; exact (Option.some.inj h2).symm
  subst hs
  rcases present_cases w o p [] [] h2 with ⟨h, _⟩ | ⟨_, x, hx, _⟩ | ⟨_, e⟩
  · exact absurd h ho
  · obtain ⟨u, hu⟩ := hwr ⟨p.uiURL, o.durationMilli, o.threshold, [].map (toVm w),
        (pickSameService w.orderT o.threshold []).map (toVm w)⟩
    rw [hx] at hu; cases hu
  · rw [h3, e]; rfl

/-! ## Examples -/

/-- a world whose Jaeger has one trace of two spans in every window -/
def exWorld : World Unit where
  parse _ := .ok 0
  now := 2 * day
  getenv _ := ['x']
  connect _ := .ok ()
  server _ _ := .ok ⟨[[⟨[1], [1], [], ['a'], 0, 10, [], none⟩, ⟨[1], [2], [1], ['b'], 2, 8, [], none⟩]], none⟩
  write _ _ := .ok ()
  sortH := startSort
  orderH := id
  sortT := fstSort
  orderT := id

def exOptions : Options := ⟨['s'], 1000, 0, 500, [], ['o']⟩

example : exWorld.Ok := ⟨startSort_sorts, fstSort_sorts, fun _ => List.Perm.refl _, fun _ => List.Perm.refl _⟩
example : (match prepare exWorld exOptions with
  | .ok p => decide (p.start = day ∧ p.stop = 2 * day)
  | .error _ => false) = true := by decide +kernel
example : (match run exWorld { exOptions with startStr := ['f'] } with
  | some (.ok _, effs) => decide (effs.length = 49)
  | _ => false) = true := by decide +kernel

end Verif.Cmd.Jaeger
