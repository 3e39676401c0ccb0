import Verif.Lib.Tree
import Verif.Lib.Map
/-!
# Spans and their conversion to trace trees

`/repo/otel/omodel/{span,any_value}.go`, `/repo/otel/jaeger/v1_converter.go`.
-/
namespace Verif.Otel
open Verif.Lib

/-- Texts. -/
abbrev Str := List Char
/-- Byte strings. -/
abbrev Bytes := List Nat

/-! ## Attribute values -/

/-- The wire format's `AnyValue` (a oneof, `unset` if none of the alternatives is present).  Doubles
are opaque. -/
inductive Wire where
  | str (s : Str) | bool (b : Bool) | int (n : Int) | dbl (bits : Nat)
  | arr (vs : List Wire) | kv (vs : List (Str × Wire)) | bytes (b : Bytes) | unset

/-- `/repo/otel/omodel/any_value.go:3-29` -/
inductive Datum where
  | str (s : Str) | bool (b : Bool) | int (n : Int) | dbl (bits : Nat)
  | arr (vs : List Datum) | kv (vs : List (Str × Datum)) | bytes (b : Bytes)

/-- Failures. -/
inductive Err where
  | panic
deriving DecidableEq, Repr

mutual
/-- `v1_converter.go:87-115` `toAnyValueData` -/
def toDatum : Wire → Except Err Datum
  | .str s => .ok (.str s)
  | .bool b => .ok (.bool b)
  | .int n => .ok (.int n)
  | .dbl d => .ok (.dbl d)
  | .arr vs => match toDatumL vs with
    | .error e => .error e
    | .ok ds => .ok (.arr ds)
  | .kv vs => match toDatumKV vs [] with
    | .error e => .error e
    | .ok ds => .ok (.kv ds)
  | .bytes b => .ok (.bytes b)
  | .unset => .error .panic
/-- `v1_converter.go:98-101` -/
def toDatumL : List Wire → Except Err (List Datum)
  | [] => .ok []
  | v :: vs => match toDatum v with
    | .error e => .error e
    | .ok d => match toDatumL vs with
      | .error e => .error e
      | .ok ds => .ok (d :: ds)
/-- `v1_converter.go:104-107`: later entries overwrite earlier ones. -/
def toDatumKV : List (Str × Wire) → List (Str × Datum) → Except Err (List (Str × Datum))
  | [], m => .ok m
  | (k, v) :: vs, m => match toDatum v with
    | .error e => .error e
    | .ok d => toDatumKV vs (mapSet k d m)
end

/-- `/repo/otel/omodel/any_value.go:31-36` `GetStringValue` -/
def getString : Datum → Str
  | .str s => s
  | _ => []

/-! ## Spans -/

/-- `/repo/otel/omodel/span.go:13-23` without the links `Parent` and `Children`, which are the
structure of the tree. -/
structure Span where
  traceId : Bytes := []
  spanId : Bytes := []
  name : Str := []
  start : Nat := 0
  stop : Nat := 0
  attrs : List (Str × Datum) := []
  service : Str := []

/-- A span of the wire format with its resource's attributes
(`none`: no resource). -/
structure WireSpan where
  traceId : Bytes
  spanId : Bytes
  parentId : Bytes
  name : Str
  start : Nat
  stop : Nat
  attrs : List (Str × Wire)
  resource : Option (List (Str × Wire))

/-- `semconv.ServiceNameKey` -/
def serviceNameKey : Str := "service.name".toList
/-- `semconv.DBSystemKey` -/
def dbSystemKey : Str := "db.system".toList

/-- `GetStringValue` of the wire format: "" for other alternatives. -/
def wireString : Wire → Str
  | .str s => s
  | _ => []

/-- `v1_converter.go:57-65`: the first `service.name` attribute. -/
def serviceOf : List (Str × Wire) → Str
  | [] => []
  | (k, v) :: r => if k = serviceNameKey then wireString v else serviceOf r

/-- A span with the id of its parent, `v1_converter.go:15-18` `spanHolder`. -/
structure Holder where
  parentId : Bytes
  span : Span

/-- The id of a holder's span. -/
abbrev Holder.id (h : Holder) : Bytes := h.span.spanId

/-- `v1_converter.go:56-81` `toOmodelSpan` -/
def toHolder (s : WireSpan) : Except Err Holder :=
  match toDatumKV s.attrs [] with
  | .error e => .error e
  | .ok attrs => .ok {
      parentId := s.parentId
      span := {
        traceId := s.traceId, spanId := s.spanId, name := s.name, start := s.start, stop := s.stop
        attrs := attrs
        service := match s.resource with
          | none => []
          | some r => serviceOf r } }

/-- `v1_converter.go:117-124` `isRootSpan` -/
def zeroParent (h : Holder) : Bool := h.parentId.all (· == 0)

/-! ## Linking -/

/-- The state of the second loop: `roots`, and the `Children` of every span. -/
structure Links where
  roots : List Holder
  kids : Bytes → List Holder

/-- `v1_converter.go:36-48`: one iteration; `m` is `spanIdMap`. -/
def linkOne (m : List (Bytes × Holder)) (s : Links) (h : Holder) : Links :=
  if zeroParent h then { s with roots := s.roots ++ [h] }
  else match mapGet h.parentId m with
    | some p => { s with kids := fun i => if i = p.id then s.kids i ++ [h] else s.kids i }
    | none => { s with roots := s.roots ++ [h] }

/-- `v1_converter.go:35-48`: the second loop, over the entries in the given order. -/
def link (m : List (Bytes × Holder)) (order : List Holder) : Links :=
  order.foldl (linkOne m) ⟨[], fun _ => []⟩

/-- The tree below a span as the program sees it after `SortChildren`
(`/repo/otel/omodel/span.go:25-33`): pointers followed to the given depth, children sorted at every
level by `sort` (`sort.Slice`, not stable).  In Go there is no depth; `Props` shows that from a root
the depth `number of spans` is never reached, so nothing is cut off and the recursion ends. -/
def treeOf (sort : List Holder → List Holder) (kids : Bytes → List Holder) : Nat → Holder → Tree Holder
  | 0, h => .node h []
  | n + 1, h => .node h ((sort (kids h.id)).map (treeOf sort kids n))

/-- `v1_converter.go:25-54` `toTraceTrees` on converted spans: `sort` is `sort.Slice` by start time,
`order` the iteration order of the map. -/
def toTraceTrees (sort order : List Holder → List Holder) (hs : List Holder) : List (Tree Holder) :=
  let m := mapOf Holder.id hs
  let l := link m (order (m.map (·.2)))
  l.roots.map (treeOf sort l.kids hs.length)

end Verif.Otel
