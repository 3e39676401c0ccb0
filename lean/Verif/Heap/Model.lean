/-!
# The bounded heap

`/repo/lib/heap.go` over Go's `container/heap`.  `none` stands for an index out of range (a panic) or
a loop that outruns its fuel; the theorems show that neither happens.
-/
namespace Verif.Heap

variable {α : Type}

/-- `/repo/lib/heap.go:55-57` `Swap` -/
def swap (l : List α) (i j : Nat) : Option (List α) :=
  match l[i]?, l[j]? with
  | some a, some b => some ((l.set i b).set j a)
  | _, _ => none

/-- `/repo/lib/heap.go:51-53` `Less` -/
def lessAt (less : α → α → Bool) (l : List α) (i j : Nat) : Option Bool :=
  match l[i]?, l[j]? with
  | some a, some b => some (less a b)
  | _, _ => none

/-- Go's `heap.up(h, j)`: at the top the parent `(j-1)/2` is `j` itself. -/
def up (less : α → α → Bool) : Nat → List α → Nat → Option (List α)
  | 0, _, _ => none
  | fuel + 1, l, j =>
    if j = 0 then some l
    else match lessAt less l j ((j - 1) / 2) with
      | none => none
      | some false => some l
      | some true => match swap l ((j - 1) / 2) j with
        | none => none
        | some l' => up less fuel l' ((j - 1) / 2)

/-- The smaller child in `heap.down`: the left one, at `2i+1`, unless there is a right one that is
less. -/
def child (less : α → α → Bool) (l : List α) (i n : Nat) : Option Nat :=
  if 2 * i + 2 < n then
    match lessAt less l (2 * i + 2) (2 * i + 1) with
    | none => none
    | some true => some (2 * i + 2)
    | some false => some (2 * i + 1)
  else some (2 * i + 1)

/-- Go's `heap.down(h, i, n)`.  (The overflow guard `j1 < 0` is left out.) -/
def down (less : α → α → Bool) : Nat → List α → Nat → Nat → Option (List α)
  | 0, _, _, _ => none
  | fuel + 1, l, i, n =>
    if 2 * i + 1 ≥ n then some l
    else match child less l i n with
      | none => none
      | some j => match lessAt less l j i with
        | none => none
        | some false => some l
        | some true => match swap l i j with
          | none => none
          | some l' => down less fuel l' j n

/-- Go's `heap.Push` with `/repo/lib/heap.go:59-62`. -/
def push (less : α → α → Bool) (l : List α) (x : α) : Option (List α) :=
  up less (l.length + 1) (l ++ [x]) l.length

/-- Go's `heap.Pop` with `/repo/lib/heap.go:64-70`: the popped value and the rest.  On an empty heap
the index is out of range. -/
def pop (less : α → α → Bool) (l : List α) : Option (α × List α) :=
  if l.length = 0 then none
  else match swap l 0 (l.length - 1) with
    | none => none
    | some l1 => match down less (l.length) l1 0 (l.length - 1) with
      | none => none
      | some l2 => match l2.getLast? with
        | none => none
        | some v => some (v, l2.dropLast)

/-- `/repo/lib/heap.go:27-32` `LimitedHeap.Push` -/
def limitedPush (less : α → α → Bool) (limit : Int) (l : List α) (x : α) : Option (List α) :=
  match push less l x with
  | none => none
  | some l' => if (l'.length : Int) > limit then
      match pop less l' with
      | none => none
      | some (_, r) => some r
    else some l'

/-- `/repo/lib/heap.go:34-41` `PopAll` -/
def popAll (less : α → α → Bool) : Nat → List α → Option (List α)
  | 0, _ => none
  | fuel + 1, l => if l.length > 0 then
      match pop less l with
      | none => none
      | some (v, r) => match popAll less fuel r with
        | none => none
        | some vs => some (v :: vs)
    else some []

/-- pushing one value after another -/
def pushAll (less : α → α → Bool) (limit : Int) : List α → List α → Option (List α)
  | [], l => some l
  | x :: xs, l => match limitedPush less limit l x with
    | none => none
    | some l' => pushAll less limit xs l'

/-- a new heap, all pushes, then `PopAll` -/
def collect (less : α → α → Bool) (limit : Int) (xs : List α) : Option (List α) :=
  match pushAll less limit xs [] with
  | none => none
  | some l => popAll less (l.length + 1) l

end Verif.Heap
