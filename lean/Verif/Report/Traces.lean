import Verif.Report.Page
import Verif.Client.Diagram
import Verif.Cmd.Jaeger
import Mathlib.Data.List.Sort
import Mathlib.Data.List.Forall2
/-!
# C88: the page that `gr app dig jaeger` writes

From the report (C81, `/repo/cmd/app/dig/jaeger.go:147-164`) over the view models and the file (C86) to the two tables
of the page (`/repo/client/src/Mermaid.svelte`, `models/{DigData,JaegerData,OtelCompactedTrace,OtelTraceSpan}.ts`,
`pages/dig/jaeger/*.svelte`).
-/
namespace Verif.Report
open Verif.Lib Verif.Otel

/-! ## Model: the view models -/

mutual
/-- `/repo/html/viewmodel/vm_otel_trace_span.go` and `/repo/otel/omodel/span.go:92-103`: the children are made by
`lo.Map`, so they are never `nil` -/
def spanVal {F : Type} (N : Nums F) : Tree VmSpan → Val
  | .node s cs => struct [(.name, .str s.name), (.spanId, .str s.spanId),
      (.startTimeMillis, .num (some (N.int s.startMs))), (.endTimeMillis, .num (some (N.int s.stopMs))),
      (.serviceName, .str s.service), (.children, mapped (spanVals N cs))]
def spanVals {F : Type} (N : Nums F) : List (Tree VmSpan) → List Val
  | [] => []
  | t :: ts => spanVal N t :: spanVals N ts
end

/-- `/repo/html/viewmodel/vm_otel_compact_trace.go` -/
def traceVal {F : Type} (N : Nums F) (t : Cmd.Jaeger.VmTrace) : Val :=
  struct [(.traceId, .str t.traceId), (.sameServiceAccessCount, .num (some (N.int t.sameServiceAccessCount))),
    (.timeConsumingServiceName, .str t.timeConsumingServiceName), (.root, spanVal N t.root)]

/-- `/repo/html/build_option.go:46-62,138-163` with `/repo/cmd/app/dig/jaeger.go:147-158` -/
def jaegerVal {F : Type} (N : Nums F) (r : Cmd.Jaeger.Report) : Val :=
  struct [(.digData, struct [(.performanceInsights, .null), (.jaeger, struct [
      (.uiPath, .str r.uiURL), (.slowThresholdMilli, .num (some (N.int r.durationMilli))),
      (.sameServiceThreshold, .num (some (N.int r.threshold))),
      (.slowTraces, mapped (r.slow.map (traceVal N))), (.sameServiceTraces, mapped (r.same.map (traceVal N)))])]),
    (.suggestData, .null)]

/-! ## Model: addresses in the browser -/

def isSchemeChar (c : Char) : Bool := c.isAlphanum || c == '+' || c == '-' || c == '.'
@[irreducible] def sHttp : Str := "http".toList
@[irreducible] def sHttps : Str := "https".toList
/-- the special schemes that have a host -/
@[irreducible] def special : List Str := ["http".toList, "https".toList, "ws".toList, "wss".toList, "ftp".toList]
def isSlash (c : Char) : Bool := c == '/' || c == '\\'
def endsHost (c : Char) : Bool := isSlash c || c == '?' || c == '#'

/-- reading and writing an authority, in lower case and without the default port; refuses an empty one for a special
scheme -/
abbrev Host := Str → Str → Option Str

/-- `new URL(path, base).href` for a path that begins with one slash and needs no encoding, and a base without spaces and
control characters.  Of the WHATWG URL standard: the scheme, the authority, and that a base with an opaque path refuses;
`file:` is left out (`none`).  `none` is a `TypeError`. -/
def resolve (host : Host) (path base : Str) : Option Str :=
  let scheme := base.takeWhile isSchemeChar
  match scheme, base.drop scheme.length with
  | c :: _, ':' :: rest =>
    if c.isAlpha then
      let scheme := scheme.map Char.toLower
      if scheme ∈ special then
        (host scheme ((rest.dropWhile isSlash).takeWhile fun c => !endsHost c)).map fun h =>
          scheme ++ [':', '/', '/'] ++ h ++ path
      else match rest with
        | '/' :: '/' :: rest => (host scheme (rest.takeWhile fun c => !(c == '/' || c == '?' || c == '#'))).map fun h =>
            scheme ++ [':', '/', '/'] ++ h ++ path
        | '/' :: _ => some (scheme ++ [':'] ++ path)
        | _ => none
    else none
  | _, _ => none

/-! ## Model: the page -/

/-- `/repo/client/src/models/trace_diagram/TraceTree.ts:3-10` with the diagram of the button -/
structure TraceTree where
  traceId : Str
  durationMilli : Int
  sameServiceAccessCount : Int
  timeConsumingServiceName : Str
  root : Client.Diagram.TNode

/-- a row of `/repo/client/src/pages/dig/jaeger/TracesTable.svelte:40-66` -/
structure TraceRow where
  tree : TraceTree
  link : Str

/-- a table with the numbers of its description -/
structure Table where
  thresholds : List Int
  rows : List TraceRow

/-- `/repo/client/src/pages/dig/jaeger/TracesTable.svelte:10-12`: `Array.prototype.sort` is stable, so it is any stable
sort -/
def sortTrees (ts : List TraceTree) : List TraceTree := ts.insertionSort fun a b => b.durationMilli ≤ a.durationMilli

mutual
/-- what `toTraceNode` reads of a span (`/repo/client/src/models/OtelTraceSpan.ts:15-31`): the name of the service and the
children, whose `length` is asked for -/
def readServices : Val → Option (Tree Str)
  | .obj fs => match mapGet Key.serviceName.str fs, readKids fs with
    | some (.str s), some cs => some (.node s cs)
    | _, _ => none
  | _ => none
/-- `this.children` -/
def readKids : List (Str × Val) → Option (List (Tree Str))
  | [] => none
  | (k, v) :: fs => if k = Key.children.str then readArr v else readKids fs
def readArr : Val → Option (List (Tree Str))
  | .arr vs => readForest vs
  | _ => none
def readForest : List Val → Option (List (Tree Str))
  | [] => some []
  | v :: vs =>
    match readServices v, readForest vs with
    | some t, some ts => some (t :: ts)
    | _, _ => none
end

def readRoot : Js → Except Crash (Tree Str)
  | .val v => match readServices v with
    | some t => .ok t
    | none => .error .typeError
  | .undef => .error .typeError

/-- `/repo/client/src/models/OtelCompactedTrace.ts:13-23` `toTraceTree` -/
def toTraceTree {F : Type} (N : Nums F) (x : Js) : Except Crash TraceTree := do
  let root ← x.get .root
  let stop ← (← root.get .endTimeMillis).integer N
  let start ← (← root.get .startTimeMillis).integer N
  let services ← readRoot root
  let id ← (← x.get .traceId).string
  let count ← (← x.get .sameServiceAccessCount).integer N
  let service ← (← x.get .timeConsumingServiceName).string
  return ⟨id, stop - start, count, service, Client.Diagram.toNode services⟩

@[irreducible] def tracePath : Str := "/trace/".toList

/-- a row, `/repo/client/src/pages/dig/jaeger/TracesTable.svelte:40-66` -/
def rowOf (host : Host) (uiPath : Str) (t : TraceTree) : Except Crash TraceRow :=
  match resolve host (tracePath ++ t.traceId) uiPath with
  | none => .error .typeError
  | some link => .ok ⟨t, link⟩

/-- `/repo/client/src/pages/dig/jaeger/TracesTable.svelte` -/
def table (host : Host) (uiPath : Str) (thresholds : List Int) (ts : List TraceTree) : Except Crash Table := do
  let rows ← (sortTrees ts).mapM (rowOf host uiPath)
  return ⟨thresholds, rows⟩

/-- `/repo/client/src/pages/dig/jaeger/DigJaegerPage.svelte` -/
def jaegerPage {F : Type} (N : Nums F) (host : Host) (d : Js) : Except Crash (Table × Table) := do
  let slow ← (← (← d.get .slowTraces).items).mapM (toTraceTree N)
  let same ← (← (← d.get .sameServiceTraces).items).mapM (toTraceTree N)
  let uiPath ← (← d.get .uiPath).string
  let milli ← (← d.get .slowThresholdMilli).integer N
  let times ← (← d.get .sameServiceThreshold).integer N
  let a ← table host uiPath [milli] slow
  let b ← table host uiPath [times, milli] same
  return (a, b)

/-- `/repo/client/src/models/DigData.ts:13-24`: the Jaeger part -/
def jaegerPart (x : Js) : Except Crash Js := do
  let j ← x.get .jaeger
  return if j.truthy then j else .undef

/-- `/repo/client/src/stores/gr_param.ts` and `/repo/client/src/Mermaid.svelte` with the parameter of the file; suggestions
(of which there are none) are not followed here -/
def mermaidApp {F : Type} (N : Nums F) (host : Host) (param : Val) : Except Crash (Table × Table) := do
  let _ ← (Js.val param).get .dev
  let _ ← (Js.val param).get .suggestData
  let dd ← (Js.val param).get .digData
  if dd.truthy then jaegerPage N host (← jaegerPart dd) else .error .typeError

/-- opening the file in a browser -/
def openTraces {F : Type} (N : Nums F) (host : Host) (page : Str) : Except Crash (Table × Table) :=
  match browserParam page with
  | some v => mermaidApp N host v
  | none => .error .typeError

/-! ## Specification -/

/-- what a table should say about a trace -/
structure Says (link : Str → Str) (t : Cmd.Jaeger.VmTrace) (r : TraceRow) : Prop where
  id : r.tree.traceId = t.traceId
  duration : r.tree.durationMilli = (t.root.val.stopMs : Int) - t.root.val.startMs
  count : r.tree.sameServiceAccessCount = t.sameServiceAccessCount
  service : r.tree.timeConsumingServiceName = t.timeConsumingServiceName
  diagram : r.tree.root = Client.Diagram.toNode (t.root.map (·.service))
  link : r.link = link t.traceId

/-- every trace has one row, the longest first -/
def Lists (link : Str → Str) (ts : List Cmd.Jaeger.VmTrace) (rows : List TraceRow) : Prop :=
  ∃ ts', ts'.Perm ts ∧ List.Forall₂ (Says link) ts' rows ∧
    rows.Pairwise fun a b => a.tree.durationMilli ≥ b.tree.durationMilli

/-- numbers a page can hold -/
def TraceOk (t : Cmd.Jaeger.VmTrace) : Prop :=
  Exact t.root.val.startMs ∧ Exact t.root.val.stopMs ∧ Exact t.sameServiceAccessCount

/-! ## Proofs: reading back -/

theorem mapGet_str (fs : List (Key × Val)) (k : Key) :
    mapGet k.str (fs.map fun p => (p.1.str, p.2)) = mapGet k fs := by
  induction fs with
  | nil => rfl
  | cons p fs ih =>
    rw [List.map_cons, mapGet, mapGet, ih]
    by_cases h : k = p.1
    · rw [if_pos h, if_pos (by rw [h])]
    · rw [if_neg h, if_neg (fun e => h (str_inj e))]

theorem readKids_skip (k : Key) (hk : k ≠ .children) (v : Val) (r : List (Str × Val)) :
    readKids ((k.str, v) :: r) = readKids r := by
  rw [readKids, if_neg fun e => hk (str_inj e)]

variable {F : Type} {N : Nums F}

mutual
theorem good_span (hN : N.Ok) : ∀ t : Tree VmSpan, Good (spanVal N t)
  | .node s cs => by
    rw [spanVal]
    refine good_struct (by simp) ?_
    simp only [List.mem_cons, List.not_mem_nil, or_false, forall_eq_or_imp, forall_eq]
    exact ⟨good_str _, good_str _, good_int hN _, good_int hN _, good_str _, good_arr (good_spans hN cs)⟩
theorem good_spans (hN : N.Ok) : ∀ ts : List (Tree VmSpan), ∀ v ∈ spanVals N ts, Good v
  | [] => by simp [spanVals]
  | t :: ts => by
    rw [spanVals]
    intro v hv
    rw [List.mem_cons] at hv
    rcases hv with hv | hv
    · rw [hv]; exact good_span hN t
    · exact good_spans hN ts v hv
end

theorem good_trace (hN : N.Ok) (t : Cmd.Jaeger.VmTrace) : Good (traceVal N t) := by
  refine good_struct (by simp) ?_
  simp only [List.mem_cons, List.not_mem_nil, or_false, forall_eq_or_imp, forall_eq]
  exact ⟨good_str _, good_int hN _, good_str _, good_span hN _⟩

theorem good_jaeger (hN : N.Ok) (r : Cmd.Jaeger.Report) : Good (jaegerVal N r) := by
  have h : ∀ l : List Cmd.Jaeger.VmTrace, Good (mapped (l.map (traceVal N))) := fun l =>
    good_arr fun v hv => by obtain ⟨x, -, rfl⟩ := List.mem_map.1 hv; exact good_trace hN x
  refine good_struct (by simp) ?_
  simp only [List.mem_cons, List.not_mem_nil, or_false, forall_eq_or_imp, forall_eq]
  refine ⟨good_struct (by simp) ?_, good_null⟩
  simp only [List.mem_cons, List.not_mem_nil, or_false, forall_eq_or_imp, forall_eq]
  refine ⟨good_null, good_struct (by simp) ?_⟩
  simp only [List.mem_cons, List.not_mem_nil, or_false, forall_eq_or_imp, forall_eq]
  exact ⟨good_str _, good_int hN _, good_int hN _, h _, h _⟩

mutual
theorem read_services : ∀ t : Tree VmSpan, readServices (spanVal N t) = some (t.map (·.service))
  | .node s cs => by
    rw [spanVal, struct, readServices, mapGet_str]
    simp only [mapGet, reduceCtorEq, if_true, if_false, List.map_cons, List.map_nil]
    rw [readKids_skip _ (by decide), readKids_skip _ (by decide), readKids_skip _ (by decide),
      readKids_skip _ (by decide), readKids_skip _ (by decide), readKids, if_pos rfl, mapped, readArr, read_forest cs,
      Tree.map]
theorem read_forest : ∀ ts : List (Tree VmSpan), readForest (spanVals N ts) = some (mapL (·.service) ts)
  | [] => by simp [spanVals, readForest, mapL]
  | t :: ts => by rw [spanVals, readForest, read_services t, read_forest ts, mapL]
end

/-- the entry of a trace on the page -/
def treeOf (t : Cmd.Jaeger.VmTrace) : TraceTree :=
  ⟨t.traceId, (t.root.val.stopMs : Int) - t.root.val.startMs, t.sameServiceAccessCount, t.timeConsumingServiceName,
    Client.Diagram.toNode (t.root.map (·.service))⟩

theorem read_trace (hN : N.Ok) (t : Cmd.Jaeger.VmTrace) (h : TraceOk t) :
    toTraceTree N (.val (traceVal N t)) = .ok (treeOf t) := by
  obtain ⟨id, count, service, root⟩ := t
  obtain ⟨h1, h2, h3⟩ := h
  have hs := read_services (N := N) root
  unfold toTraceTree traceVal treeOf
  obtain ⟨s, cs⟩ := root
  simp only [Tree.val] at h1 h2 h3 ⊢
  rw [get_struct, get_struct, get_struct, get_struct]
  simp only [mapGet, bind, Except.bind, reduceCtorEq, if_true, if_false, readRoot, hs, spanVal, get_struct]
  rw [spanVal] at hs
  simp only [hs, Js.integer, Js.string, hN.read _ h1, hN.read _ h2, hN.read _ h3]
  rfl

/-! ## Proofs: addresses -/

/-- what comes before the path -/
def origin (host : Host) (base : Str) : Option Str := resolve host [] base

theorem resolve_origin (host : Host) (path base : Str) :
    resolve host path base = (origin host base).map (· ++ path) := by
  unfold origin resolve
  simp only []
  split
  · split
    · split
      · simp [Function.comp_def]
      · split <;> simp [Function.comp_def]
    · rfl
  · rfl

/-! ## Proofs: tables -/

theorem rows_ok (host : Host) (ui o : Str) (ho : origin host ui = some o) (ts : List TraceTree) :
    ts.mapM (rowOf host ui) = .ok (ts.map fun t => ⟨t, o ++ (tracePath ++ t.traceId)⟩) := by
  induction ts with
  | nil => rfl
  | cons t ts ih =>
    rw [List.mapM_cons, ih, rowOf, resolve_origin, ho]
    rfl

theorem rows_fail (host : Host) (ui : Str) (ho : origin host ui = none) (t : TraceTree) (ts : List TraceTree) :
    (t :: ts).mapM (rowOf host ui) = .error .typeError := by
  rw [List.mapM_cons, rowOf, resolve_origin, ho]
  rfl

theorem sort_nil {ts : List TraceTree} (h : ts ≠ []) : ∃ a l, sortTrees ts = a :: l := by
  cases hs : sortTrees ts with
  | nil =>
    have := (List.perm_insertionSort (fun a b : TraceTree => b.durationMilli ≤ a.durationMilli) ts).length_eq
    unfold sortTrees at hs
    rw [hs] at this
    cases ts with
    | nil => exact absurd rfl h
    | cons a l => cases this
  | cons a l => exact ⟨a, l, rfl⟩

theorem struct_truthy (fs : List (Key × Val)) : (Js.val (struct fs)).truthy = true := rfl

theorem jaeger_page (hN : N.Ok) (host : Host) (r : Cmd.Jaeger.Report) (style script : Str)
    (ht : Exact r.durationMilli ∧ Exact r.threshold) (hs : ∀ t ∈ r.slow ++ r.same, TraceOk t) :
    openTraces N host (pageText (jaegerVal N r) style script) = (do
      let a ← table host r.uiURL [r.durationMilli] (r.slow.map treeOf)
      let b ← table host r.uiURL [r.threshold, r.durationMilli] (r.same.map treeOf)
      return (a, b)) := by
  have hg := good_jaeger hN r
  have h1 := mapM_back' (traceVal N) treeOf (toTraceTree N) r.slow fun t h => read_trace hN t
    (hs t (List.mem_append_left _ h))
  have h2 := mapM_back' (traceVal N) treeOf (toTraceTree N) r.same fun t h => read_trace hN t
    (hs t (List.mem_append_right _ h))
  rw [openTraces, C86_reads_back_partial _ hg.1 hg.2]
  simp only []
  unfold mermaidApp jaegerVal
  rw [get_struct, get_struct, get_struct]
  simp only [mapGet, bind, Except.bind, reduceCtorEq, if_true, if_false, jaegerPart, get_struct, jaegerPage,
    pure, Except.pure]
  simp only [struct_truthy, get_struct, mapGet, reduceCtorEq, if_true, if_false, mapped, items_arr, h1, h2, Js.string, Js.integer,
    hN.read _ ht.1, hN.read _ ht.2]

/-- the traces in the order of their rows -/
def sorted (ts : List Cmd.Jaeger.VmTrace) : List Cmd.Jaeger.VmTrace :=
  ts.insertionSort fun a b => (treeOf b).durationMilli ≤ (treeOf a).durationMilli

theorem sort_map (ts : List Cmd.Jaeger.VmTrace) : sortTrees (ts.map treeOf) = (sorted ts).map treeOf :=
  (List.map_insertionSort (r := fun a b => (treeOf b).durationMilli ≤ (treeOf a).durationMilli)
    (s := fun a b : TraceTree => b.durationMilli ≤ a.durationMilli) treeOf ts fun _ _ _ _ => Iff.rfl).symm

theorem lists_rows (o : Str) (ts : List Cmd.Jaeger.VmTrace) :
    Lists (fun id => o ++ (tracePath ++ id)) ts
      ((sortTrees (ts.map treeOf)).map fun t => ⟨t, o ++ (tracePath ++ t.traceId)⟩) := by
  refine ⟨sorted ts, List.perm_insertionSort _ _, ?_, ?_⟩
  · rw [sort_map, List.map_map, List.forall₂_map_right_iff, List.forall₂_same]
    intro t _
    exact ⟨rfl, rfl, rfl, rfl, rfl, rfl⟩
  · rw [List.pairwise_map]
    have : Std.Total fun a b : TraceTree => b.durationMilli ≤ a.durationMilli := ⟨fun a b => by omega⟩
    have : IsTrans TraceTree fun a b : TraceTree => b.durationMilli ≤ a.durationMilli := ⟨fun a b c h1 h2 => by omega⟩
    exact List.pairwise_insertionSort _ _

/-- a root address of an http server: `http://host:port`, with nothing or something behind the authority; `auth` is how the
browser writes the authority too -/
structure HttpUrl (host : Host) (scheme auth rest url : Str) : Prop where
  isText : url = scheme ++ [':', '/', '/'] ++ auth ++ rest
  isScheme : scheme = sHttp ∨ scheme = sHttps
  isAuth : auth ≠ [] ∧ ∀ c ∈ auth, endsHost c = false
  known : host scheme auth = some auth
  isRest : rest = [] ∨ ∃ c r, rest = c :: r ∧ endsHost c = true

theorem takeWhile_before {p : Char → Bool} (l r : Str) (hl : ∀ c ∈ l, p c = true)
    (hr : r = [] ∨ ∃ c t, r = c :: t ∧ p c = false) : (l ++ r).takeWhile p = l := by
  induction l with
  | nil =>
    rcases hr with rfl | ⟨c, t, rfl, h⟩
    · rfl
    · rw [List.nil_append, List.takeWhile_cons, h]; rfl
  | cons a l ih =>
    rw [List.cons_append, List.takeWhile_cons, hl a (List.mem_cons_self ..), ih fun c h => hl c (List.mem_cons_of_mem _ h)]
    rfl

theorem http_scheme (scheme : Str) (h : scheme = sHttp ∨ scheme = sHttps) :
    (∀ c ∈ scheme, isSchemeChar c = true) ∧ (∃ c r, scheme = c :: r ∧ c.isAlpha = true) ∧
      scheme.map Char.toLower = scheme ∧ scheme ∈ special := by
  rcases h with rfl | rfl
  · exact ⟨by decide +kernel, ⟨'h', ['t', 't', 'p'], by decide +kernel, by decide +kernel⟩, by decide +kernel,
      by decide +kernel⟩
  · exact ⟨by decide +kernel, ⟨'h', ['t', 't', 'p', 's'], by decide +kernel, by decide +kernel⟩, by decide +kernel,
      by decide +kernel⟩

theorem http_origin {host : Host} {scheme auth rest url : Str} (h : HttpUrl host scheme auth rest url) :
    origin host url = some (scheme ++ [':', '/', '/'] ++ auth) := by
  obtain ⟨h1, ⟨c, r, h2, hc⟩, h3, h4⟩ := http_scheme scheme h.isScheme
  subst h2
  have hk := h.known
  have e : url = (c :: r) ++ (':' :: '/' :: '/' :: (auth ++ rest)) := by rw [h.isText]; simp
  have e1 : url.takeWhile isSchemeChar = c :: r := by
    rw [e]; exact takeWhile_before _ _ h1 (Or.inr ⟨_, _, rfl, by decide⟩)
  have e2 : url.drop (c :: r).length = ':' :: '/' :: '/' :: (auth ++ rest) := by
    rw [e]; simp
  have e3 : (('/' :: '/' :: (auth ++ rest)).dropWhile isSlash) = auth ++ rest := by
    rw [List.dropWhile_cons, if_pos (by decide), List.dropWhile_cons, if_pos (by decide)]
    obtain ⟨ha, hb⟩ := h.isAuth
    cases auth with
    | nil => exact absurd rfl ha
    | cons a l =>
      have := hb a (List.mem_cons_self ..)
      unfold endsHost at this
      simp only [Bool.or_eq_false_iff] at this
      rw [List.cons_append, List.dropWhile_cons, this.1.1]
      rfl
  have e4 : (auth ++ rest).takeWhile (fun c => !endsHost c) = auth := by
    refine takeWhile_before _ _ (fun c hc => by rw [h.isAuth.2 c hc]; rfl) ?_
    rcases h.isRest with hr | ⟨c, t, hr, h⟩
    · exact Or.inl hr
    · exact Or.inr ⟨c, t, hr, by rw [h]; rfl⟩
  unfold origin resolve
  simp only [e1, e2]
  simp only [hc, if_true]
  rw [h3, if_pos h4, e3, e4, hk]
  simp

theorem opaque_origin (host : Host) (base : Str) (h1 : '/' ∉ base)
    (h2 : (base.takeWhile (· ≠ ':')).map Char.toLower ∉ special) : origin host base = none := by
  unfold origin resolve
  simp only []
  split
  · next c t rest he hd =>
    have eb : base = base.takeWhile isSchemeChar ++ ':' :: rest := by
      have : base.takeWhile isSchemeChar ++ base.drop (base.takeWhile isSchemeChar).length = base := by
        have := List.takeWhile_append_dropWhile (p := isSchemeChar) (l := base)
        generalize base.takeWhile isSchemeChar = x at this ⊢
        rw [← this]; simp
      rw [hd] at this
      exact this.symm
    have ec : base.takeWhile (· ≠ ':') = base.takeWhile isSchemeChar := by
      conv_lhs => rw [eb]
      refine takeWhile_before _ _ ?_ (Or.inr ⟨_, _, rfl, by simp⟩)
      intro c hc
      have := List.all_eq_true.1 (List.all_takeWhile (p := isSchemeChar) (l := base)) c hc
      rw [decide_eq_true_eq]
      rintro rfl
      revert this
      decide
    rw [ec] at h2
    rw [if_neg h2]
    split
    · split
      · exact absurd (by rw [eb]; simp) h1
      · exact absurd (by rw [eb]; simp) h1
      · rfl
    · rfl
  · rfl

/-! ## C88 -/

/-- where Jaeger's page shows a trace, before its id -/
def traceView : Str := "/trace/".toList

theorem traceView_eq : traceView = tracePath := by
  unfold traceView tracePath
  rfl

/-- C88: opening the file of `dig jaeger` shows two tables, of the slow traces and of those with many accesses to the same
service, each with one row for every trace, the longest first, saying its id, its duration, the count, the service and the
diagram of its spans; if the address of Jaeger's page is that of a http server without a path, its link is the page of this
trace.  Full claim: for every address given, which `C88_path_lost` and `C88_blank` refute. -/
theorem C88_shown_partial (hN : N.Ok) (host : Host) (r : Cmd.Jaeger.Report) (style script scheme auth base : Str)
    (hu : HttpUrl host scheme auth [] base) (hr : r.uiURL = base ∨ r.uiURL = base ++ ['/'])
    (ht : Exact r.durationMilli ∧ Exact r.threshold) (hs : ∀ t ∈ r.slow ++ r.same, TraceOk t) :
    ∃ slow same, openTraces N host (pageText (jaegerVal N r) style script) = .ok (slow, same) ∧
      slow.thresholds = [r.durationMilli] ∧ same.thresholds = [r.threshold, r.durationMilli] ∧
      Lists (fun id => base ++ traceView ++ id) r.slow slow.rows ∧
      Lists (fun id => base ++ traceView ++ id) r.same same.rows := by
  rw [traceView_eq]
  have ho : origin host r.uiURL = some base := by
    have e : scheme ++ [':', '/', '/'] ++ auth = base := by rw [hu.isText]; simp
    rcases hr with hr | hr
    · rw [hr, http_origin hu, e]
    · rw [http_origin (rest := ['/']) ⟨by rw [hr, hu.isText]; simp, hu.isScheme, hu.isAuth, hu.known,
        Or.inr ⟨_, _, rfl, by decide⟩⟩, e]
  simp only [List.append_assoc]
  rw [jaeger_page hN host r style script ht hs]
  unfold table
  rw [rows_ok host _ _ ho, rows_ok host _ _ ho]
  exact ⟨_, _, rfl, rfl, rfl, lists_rows _ _, lists_rows _ _⟩

/-- C88: a path in the address of Jaeger's page (as behind a proxy) is dropped from every link. -/
theorem C88_path_lost (hN : N.Ok) (host : Host) (r : Cmd.Jaeger.Report) (style script scheme auth rest : Str)
    (hu : HttpUrl host scheme auth rest r.uiURL)
    (ht : Exact r.durationMilli ∧ Exact r.threshold) (hs : ∀ t ∈ r.slow ++ r.same, TraceOk t) :
    ∃ slow same, openTraces N host (pageText (jaegerVal N r) style script) = .ok (slow, same) ∧
      ∀ row ∈ slow.rows ++ same.rows,
        row.link = scheme ++ [':', '/', '/'] ++ auth ++ (traceView ++ row.tree.traceId) := by
  rw [traceView_eq]
  have ho := http_origin hu
  rw [jaeger_page hN host r style script ht hs]
  unfold table
  rw [rows_ok host _ _ ho, rows_ok host _ _ ho]
  refine ⟨_, _, rfl, ?_⟩
  intro row hrow
  rw [List.mem_append, List.mem_map, List.mem_map] at hrow
  rcases hrow with ⟨t, -, rfl⟩ | ⟨t, -, rfl⟩ <;> rfl

/-- C88: the address is not checked before.  If it has no scheme, as `localhost:16686` or `jaeger.local`, and traces were
found, opening the file shows nothing at all. -/
theorem C88_blank (hN : N.Ok) (host : Host) (r : Cmd.Jaeger.Report) (style script : Str)
    (ht : Exact r.durationMilli ∧ Exact r.threshold) (hs : ∀ t ∈ r.slow ++ r.same, TraceOk t)
    (h1 : '/' ∉ r.uiURL) (h2 : (r.uiURL.takeWhile (· ≠ ':')).map Char.toLower ∉ "file".toList :: special)
    (_h3 : ∀ c ∈ r.uiURL, ' ' < c) (hne : r.slow ++ r.same ≠ []) :
    openTraces N host (pageText (jaegerVal N r) style script) = .error .typeError := by
  have ho := opaque_origin host _ h1 (fun h => h2 (List.mem_cons_of_mem _ h))
  rw [jaeger_page hN host r style script ht hs]
  unfold table
  by_cases h : r.slow = []
  · have hb : r.same ≠ [] := fun e => hne (by rw [h, e]; rfl)
    obtain ⟨a, l, e⟩ := sort_nil (ts := r.same.map treeOf) (by simpa using hb)
    rw [e, rows_fail host _ ho, h]
    rfl
  · obtain ⟨a, l, e⟩ := sort_nil (ts := r.slow.map treeOf) (by simpa using h)
    rw [e, rows_fail host _ ho]
    rfl

/-- C88: without traces the page opens whatever the address is, with two empty tables. -/
theorem C88_none (hN : N.Ok) (host : Host) (r : Cmd.Jaeger.Report) (style script : Str)
    (ht : Exact r.durationMilli ∧ Exact r.threshold) (h : r.slow = []) (h' : r.same = []) :
    openTraces N host (pageText (jaegerVal N r) style script) =
      .ok (⟨[r.durationMilli], []⟩, ⟨[r.threshold, r.durationMilli], []⟩) := by
  rw [jaeger_page hN host r style script ht (by rw [h, h']; simp), h, h']
  rfl

/-! ### order -/

/-- how long a trace took, in nanoseconds -/
def took (t : Tree Span) : Nat := t.val.stop - t.val.start

theorem shown_duration {E : Type} (w : Cmd.Jaeger.World E) (t : Tree Span) (h : t.val.start ≤ t.val.stop) :
    (took t : Int) - 1000000 < (treeOf (Cmd.Jaeger.toVm w t)).durationMilli * 1000000 ∧
      (treeOf (Cmd.Jaeger.toVm w t)).durationMilli * 1000000 < took t + 1000000 := by
  obtain ⟨s, cs⟩ := t
  have e : (treeOf (Cmd.Jaeger.toVm w (.node s cs))).durationMilli =
      ((s.stop / 1000 / 1000 : Nat) : Int) - (s.start / 1000 / 1000 : Nat) := by
    rw [treeOf, Cmd.Jaeger.toVm, toViewModel]; rfl
  rw [e]
  simp only [took, Tree.val] at h ⊢
  omega

/-- stable sorting of a list that is sorted already by something else -/
theorem sorted_stable {α : Type} (key : α → Int) (R : α → α → Prop) (l : List α) (h : l.Pairwise R) :
    (l.insertionSort fun a b => key b ≤ key a).Pairwise fun a b => key b < key a ∨ (key a = key b ∧ R a b) := by
  induction l with
  | nil => exact List.Pairwise.nil
  | cons a l ih =>
    rw [List.pairwise_cons] at h
    have h1 : ∀ b ∈ l.insertionSort (fun a b => key b ≤ key a), R a b := fun b hb =>
      h.1 b ((List.mem_insertionSort _).1 hb)
    have h2 := ih h.2
    rw [List.insertionSort_cons]
    generalize l.insertionSort (fun a b => key b ≤ key a) = m at h1 h2
    clear ih h
    induction m with
    | nil => simp
    | cons b m ih =>
      rw [List.pairwise_cons] at h2
      rw [List.orderedInsert_cons]
      split
      · next hle =>
        rw [List.pairwise_cons, List.pairwise_cons]
        refine ⟨?_, h2⟩
        intro c hc
        have hR := h1 c hc
        rw [List.mem_cons] at hc
        rcases hc with rfl | hc
        · rcases Int.lt_or_eq_of_le hle with h3 | h3
          · exact Or.inl h3
          · exact Or.inr ⟨h3.symm, hR⟩
        · have h4 : key c ≤ key a := by rcases h2.1 c hc with h3 | ⟨h3, -⟩ <;> omega
          rcases Int.lt_or_eq_of_le h4 with h3 | h3
          · exact Or.inl h3
          · exact Or.inr ⟨h3.symm, hR⟩
      · next hle =>
        rw [List.pairwise_cons]
        refine ⟨?_, ih (fun c hc => h1 c (List.mem_cons_of_mem _ hc)) h2.2⟩
        intro c hc
        rw [List.mem_orderedInsert] at hc
        rcases hc with rfl | hc
        · left; omega
        · exact h2.1 c hc

/-- the rows of a table, told from the traces: each trace once, with its id, and its duration to less than a millisecond;
nowhere is a trace below one that was faster by `slack` nanoseconds -/
def Ranks (slack : Nat) (ts : List (Tree Span)) (rows : List TraceRow) : Prop :=
  ∃ ts', ts'.Perm ts ∧
    List.Forall₂ (fun t (r : TraceRow) => r.tree.traceId = hex t.val.traceId ∧
      (took t : Int) - 1000000 < r.tree.durationMilli * 1000000 ∧
      r.tree.durationMilli * 1000000 < (took t : Int) + 1000000) ts' rows ∧
    ts'.Pairwise fun a b => took b < took a + slack

theorem ranks_rows {E : Type} (w : Cmd.Jaeger.World E) (R : Tree Span → Tree Span → Prop) (slack : Nat) (o : Str)
    (ts : List (Tree Span)) (hf : ∀ t ∈ ts, t.val.start ≤ t.val.stop) (h : ts.Pairwise R)
    (hR : ∀ a b, R a b → (took b : Int) - took a < slack ∨ 2000000 ≤ slack) (hs : 1000000 ≤ slack) :
    Ranks slack ts ((sortTrees ((ts.map (Cmd.Jaeger.toVm w)).map treeOf)).map fun t => ⟨t, o ++ (tracePath ++ t.traceId)⟩) := by
  have e : sortTrees ((ts.map (Cmd.Jaeger.toVm w)).map treeOf) =
      (ts.insertionSort fun a b => (treeOf (Cmd.Jaeger.toVm w b)).durationMilli ≤
        (treeOf (Cmd.Jaeger.toVm w a)).durationMilli).map (fun t => treeOf (Cmd.Jaeger.toVm w t)) := by
    rw [List.map_map]
    exact (List.map_insertionSort (r := fun a b => (treeOf (Cmd.Jaeger.toVm w b)).durationMilli ≤
      (treeOf (Cmd.Jaeger.toVm w a)).durationMilli)
      (s := fun a b : TraceTree => b.durationMilli ≤ a.durationMilli) (fun t => treeOf (Cmd.Jaeger.toVm w t)) ts
      fun _ _ _ _ => Iff.rfl).symm
  have hst := sorted_stable (fun t => (treeOf (Cmd.Jaeger.toVm w t)).durationMilli) R ts h
  rw [e]
  refine ⟨ts.insertionSort fun a b => (treeOf (Cmd.Jaeger.toVm w b)).durationMilli ≤
        (treeOf (Cmd.Jaeger.toVm w a)).durationMilli, List.perm_insertionSort _ _, ?_, ?_⟩
  · rw [List.map_map, List.forall₂_map_right_iff, List.forall₂_same]
    intro t ht
    have := shown_duration w t (hf t ((List.mem_insertionSort _).1 ht))
    exact ⟨rfl, this⟩
  · refine List.Pairwise.imp_of_mem ?_ hst
    intro a b ha hb hab
    have h1 := shown_duration w a (hf a ((List.mem_insertionSort _).1 ha))
    have h2 := shown_duration w b (hf b ((List.mem_insertionSort _).1 hb))
    rcases hab with h3 | ⟨h3, h4⟩
    · omega
    · rcases hR a b h4 with h5 | h5 <;> omega

theorem vm_ok {E : Type} (w : Cmd.Jaeger.World E) (hw : w.Ok) (t : Tree Span) (hf : Cmd.Jaeger.Forward t)
    (hn : t.pre.length ≤ 2 ^ 53) : TraceOk (Cmd.Jaeger.toVm w t) := by
  have hc : (Cmd.Jaeger.toVm w t).sameServiceAccessCount ≤ t.pre.length := by
    obtain ⟨⟨s, -, h⟩, -⟩ := C31_count w.orderT hw.orderT t
    change maxSameService w.orderT t ≤ _
    rw [← h, countOf]
    exact List.length_filter_le _ _
  obtain ⟨s, cs⟩ := t
  obtain ⟨h1, h2⟩ := hf
  unfold word at h2
  simp only [Tree.val] at h1 h2
  have e1 : (Cmd.Jaeger.toVm w (.node s cs)).root.val.startMs = s.start / 1000 / 1000 := by
    rw [Cmd.Jaeger.toVm, toViewModel]; rfl
  have e2 : (Cmd.Jaeger.toVm w (.node s cs)).root.val.stopMs = s.stop / 1000 / 1000 := by
    rw [Cmd.Jaeger.toVm, toViewModel]; rfl
  refine ⟨?_, ?_, ?_⟩
  · rw [e1]; unfold Exact; omega
  · rw [e2]; unfold Exact; omega
  · unfold Exact; omega

/-- C88: the page of a run of `dig jaeger`.  If Jaeger's page is at a http server's root, opening the file shows the hundred
slowest of all traces found, none below one that took a millisecond less, and the traces with more accesses to one service
than the threshold, none below one that took two milliseconds less; durations are right to less than a millisecond and
every link leads to the page of its trace. -/
theorem C88_command_partial {E : Type} (hN : N.Ok) (host : Host) (w : Cmd.Jaeger.World E) (o : Cmd.Jaeger.Options)
    (hw : w.Ok) (res : Except (Cmd.Jaeger.Err E) Unit) (effs : List Cmd.Jaeger.Effect) (path : Str)
    (r : Cmd.Jaeger.Report) (style script scheme auth base : Str)
    (h : Cmd.Jaeger.run w o = some (res, effs)) (hr : .html path r ∈ effs) (hu : HttpUrl host scheme auth [] base)
    (hb : w.getenv Cmd.Jaeger.uiVariable = base ∨ w.getenv Cmd.Jaeger.uiVariable = base ++ ['/'])
    (ht : Exact o.durationMilli ∧ Exact o.threshold) :
    ∃ qs traces, Cmd.Jaeger.Collected w qs traces ∧
      ((∀ t ∈ traces, Cmd.Jaeger.Forward t ∧ t.pre.length ≤ 2 ^ 53) →
        ∃ slowest slow same, openTraces N host (pageText (jaegerVal N r) style script) = .ok (slow, same) ∧
          slow.thresholds = [o.durationMilli] ∧ same.thresholds = [o.threshold, o.durationMilli] ∧
          Cmd.Jaeger.Slowest 100 traces slowest ∧ Ranks 1000000 slowest slow.rows ∧
          Ranks 2000000 (traces.filter fun t => t.pre.any fun s => decide ((countOf s.service t : Int) > o.threshold))
            same.rows ∧
          ∀ row ∈ slow.rows ++ same.rows, row.link = base ++ traceView ++ row.tree.traceId) := by
  rw [traceView_eq]
  obtain ⟨p, qs, traces, slow, hp, -, -, -, -, -, -, hcol, hslow, hmem, rfl⟩ :=
    Cmd.Jaeger.C81_report w o hw res effs path r h hr
  obtain ⟨-, -, hui, -⟩ := Cmd.Jaeger.prepare_ok w o p hp
  refine ⟨qs, traces, hcol, ?_⟩
  intro hall
  have hS := hslow fun t h => (hall t h).1
  have ho : origin host p.uiURL = some base := by
    have e : scheme ++ [':', '/', '/'] ++ auth = base := by rw [hu.isText]; simp
    rw [hui]
    rw [← Cmd.Jaeger.variables_eq.1] at hb
    rcases hb with hr | hr
    · rw [hr, http_origin hu, e]
    · rw [http_origin (rest := ['/']) ⟨by rw [hr, hu.isText]; simp, hu.isScheme, hu.isAuth, hu.known,
        Or.inr ⟨_, _, rfl, by decide⟩⟩, e]
  have hok : ∀ t ∈ traces, TraceOk (Cmd.Jaeger.toVm w t) := fun t h => vm_ok w hw t (hall t h).1 (hall t h).2
  have hfw : ∀ t ∈ traces, t.val.start ≤ t.val.stop := fun t h => (hall t h).1.1
  rw [jaeger_page hN host _ style script ht (by
    intro v hv
    rw [List.mem_append, List.mem_map, List.mem_map] at hv
    rcases hv with ⟨t, h, rfl⟩ | ⟨t, h, rfl⟩
    · exact hok t (hmem t h)
    · exact hok t (List.mem_filter.1 h).1)]
  unfold table
  rw [rows_ok host _ _ ho, rows_ok host _ _ ho]
  refine ⟨slow, _, _, rfl, rfl, rfl, hS, ?_, ?_, ?_⟩
  · exact ranks_rows w (fun a b => took a ≥ took b) 1000000 base slow (fun t h => hfw t (hmem t h)) hS.2.1
      (fun a b h => by left; omega) (Nat.le_refl _)
  · exact ranks_rows w (fun _ _ => True) 2000000 base _ (fun t h => hfw t (List.mem_filter.1 h).1)
      (List.pairwise_of_forall fun _ _ => trivial) (fun _ _ _ => Or.inr (Nat.le_refl _)) (by decide)
  · intro row hrow
    rw [List.mem_append, List.mem_map, List.mem_map] at hrow
    rcases hrow with ⟨t, -, rfl⟩ | ⟨t, -, rfl⟩ <;> simp

/-- C88: the slack is real, because start and end are cut to milliseconds one by one: of two traces, the first slower by
999998 ns and shown as taking 1 ms, the second is shown as taking 2 ms and comes first. -/
theorem C88_order_inverted {E : Type} (hN : N.Ok) (host : Host) (w : Cmd.Jaeger.World E) (hw : w.Ok) (ui base : Str)
    (ho : ∀ id, resolve host (tracePath ++ id) ui = some (base ++ tracePath ++ id)) (style script : Str) :
    ∃ a b : Tree Span, Cmd.Jaeger.Forward a ∧ Cmd.Jaeger.Forward b ∧ took a = took b + 999998 ∧
      ∃ slow same, openTraces N host (pageText (jaegerVal N ⟨ui, 0, 5, [a, b].map (Cmd.Jaeger.toVm w), []⟩) style script) =
        .ok (slow, same) ∧ slow.rows.map (fun x => (x.tree.traceId, x.tree.durationMilli)) =
          [(hex b.val.traceId, 2), (hex a.val.traceId, 1)] := by
  let a : Tree Span := .node { traceId := [1], start := 0, stop := 1999999 } []
  let b : Tree Span := .node { traceId := [2], start := 999999, stop := 2000000 } []
  have ha : Cmd.Jaeger.Forward a := by unfold Cmd.Jaeger.Forward word; decide
  have hb : Cmd.Jaeger.Forward b := by unfold Cmd.Jaeger.Forward word; decide
  obtain ⟨o, ho'⟩ : ∃ o, origin host ui = some o := by
    have := ho []
    rw [resolve_origin] at this
    cases h : origin host ui with
    | none => rw [h] at this; cases this
    | some o => exact ⟨o, rfl⟩
  refine ⟨a, b, ha, hb, by decide, ?_⟩
  rw [jaeger_page hN host _ style script ⟨by simp [Exact], by simp [Exact]⟩ (by
    intro v hv
    simp only [List.append_nil, List.map_cons, List.map_nil, List.mem_cons, List.not_mem_nil, or_false] at hv
    rcases hv with rfl | rfl
    · exact vm_ok w hw a ha (by simp [a, Tree.pre, preL])
    · exact vm_ok w hw b hb (by simp [b, Tree.pre, preL]))]
  unfold table
  rw [rows_ok host _ _ ho', rows_ok host _ _ ho']
  refine ⟨_, _, rfl, ?_⟩
  rw [List.map_map, sortTrees, List.map_map]
  simp only [List.map_cons, List.map_nil, Function.comp_apply, List.insertionSort_cons, List.insertionSort_nil,
    List.orderedInsert_nil, List.orderedInsert_cons]
  have e1 : (treeOf (Cmd.Jaeger.toVm w a)).durationMilli = 1 := by
    rw [treeOf, Cmd.Jaeger.toVm, toViewModel]; rfl
  have e2 : (treeOf (Cmd.Jaeger.toVm w b)).durationMilli = 2 := by
    rw [treeOf, Cmd.Jaeger.toVm, toViewModel]; rfl
  rw [if_neg (by omega)]
  rfl

/-! ## Cases -/

/-- a browser that keeps authorities as they are -/
def exHost : Host := fun _ a => some a
@[irreducible] def exUi : Str := "http://localhost:16686".toList
@[irreducible] def exAuth : Str := "localhost:16686".toList

theorem exUrl : HttpUrl exHost sHttp exAuth [] exUi :=
  ⟨by decide +kernel, Or.inl rfl, by decide +kernel, rfl, Or.inl rfl⟩

/-- the same behind a proxy -/
example : HttpUrl exHost sHttp exAuth "/jaeger".toList "http://localhost:16686/jaeger".toList :=
  ⟨by decide +kernel, Or.inl rfl, by decide +kernel, rfl, Or.inr ⟨'/', "jaeger".toList, by decide +kernel, by decide⟩⟩

def exSpan : Tree VmSpan := .node ⟨['a'], ['1'], 10, 30, ['s']⟩ [.node ⟨['b'], ['2'], 12, 20, ['t']⟩ []]
def exTraces (ui : Str) : Cmd.Jaeger.Report :=
  ⟨ui, 5, 3, [⟨['a', 'b'], 1, ['s'], exSpan⟩, ⟨['c', 'd'], 1, ['t'], exSpan⟩], []⟩

theorem exTraces_ok (ui : Str) : ∀ t ∈ (exTraces ui).slow ++ (exTraces ui).same, TraceOk t := by
  simp [exTraces, TraceOk, exSpan, Tree.val, Exact]

example : ∃ slow same, openTraces exNums exHost (pageText (jaegerVal exNums (exTraces exUi)) [] []) = .ok (slow, same) ∧
    slow.rows.length = 2 := by
  obtain ⟨slow, same, h, -, -, ⟨ts, hp, hf, -⟩, -⟩ := C88_shown_partial exNums_ok exHost (exTraces exUi) [] [] _ _ _
    exUrl (Or.inl rfl) (by decide) (exTraces_ok _)
  refine ⟨slow, same, h, ?_⟩
  rw [← hf.length_eq, hp.length_eq]
  rfl

/-- without a scheme -/
example : openTraces exNums exHost (pageText (jaegerVal exNums (exTraces exAuth)) [] []) = .error .typeError :=
  C88_blank exNums_ok exHost _ _ _ (by decide) (exTraces_ok _) (by decide +kernel) (by decide +kernel) (by decide +kernel)
    (by simp [exTraces])

/-- a run that writes such a page -/
example : (match Cmd.Jaeger.run { Cmd.Jaeger.exWorld with getenv := fun _ => exUi }
    { Cmd.Jaeger.exOptions with startStr := ['f'] } with
  | some (.ok _, effs) => effs.any fun
    | .html _ r => decide (r.uiURL = exUi ∧ r.slow.length = 48)
    | .ask _ => false
  | _ => false) = true := by decide +kernel

end Verif.Report
