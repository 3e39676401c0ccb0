/-!
# Ordered trees and the builder's stack

The plan builders keep a stack of pointers to the nodes on the current path and append new nodes to
the `Children` of the node on top.  `/repo/lib/stack.go`.
-/
namespace Verif.Lib

/-- A node with its `Children` slice. -/
inductive Tree (α : Type) where
  | node (a : α) (cs : List (Tree α))

/-- Field access. -/
def Tree.val {α : Type} : Tree α → α | .node a _ => a
/-- Field access. -/
def Tree.children {α : Type} : Tree α → List (Tree α) | .node _ cs => cs

section
variable {α : Type}

mutual
/-- Nodes in textual order. -/
def Tree.pre : Tree α → List α
  | .node a cs => a :: preL cs
/-- Nodes of a forest in textual order. -/
def preL : List (Tree α) → List α
  | [] => []
  | t :: ts => t.pre ++ preL ts
end

mutual
/-- Nodes in textual order, each with its depth. -/
def Tree.withDepth (d : Nat) : Tree α → List (Nat × α)
  | .node a cs => (d, a) :: withDepthL (d + 1) cs
/-- The same for a forest. -/
def withDepthL (d : Nat) : List (Tree α) → List (Nat × α)
  | [] => []
  | t :: ts => t.withDepth d ++ withDepthL d ts
end

mutual
/-- Nodes in textual order, each with its ancestors, the nearest first. -/
def Tree.withPath (path : List α) : Tree α → List (List α × α)
  | .node a cs => (path, a) :: withPathL (a :: path) cs
/-- The same for a forest. -/
def withPathL (path : List α) : List (Tree α) → List (List α × α)
  | [] => []
  | t :: ts => t.withPath path ++ withPathL path ts
end

mutual
/-- Change every node, keeping the shape. -/
def Tree.map {β : Type} (g : α → β) : Tree α → Tree β
  | .node a cs => .node (g a) (mapL g cs)
/-- The same for a forest. -/
def mapL {β : Type} (g : α → β) : List (Tree α) → List (Tree β)
  | [] => []
  | t :: ts => t.map g :: mapL g ts
end

/-- A node on the stack with the children it has so far, except that the child that is itself on
the stack (just above) is not yet listed: it is listed when it is popped.  In Go the pointer is
appended to the parent's slice when the node is pushed; nothing else is appended to that slice
before the node is popped, so the final slices are the same. -/
abbrev Frame (α : Type) := α × List (Tree α)

/-- `stack.go:15-24` `Pop`; the popped node has all its children.  Popping the last node leaves the
empty stack. -/
def pop : List (Frame α) → List (Frame α)
  | (a, cs) :: (b, ds) :: r => (b, ds ++ [.node a cs]) :: r
  | _ => []

/-- The node at the bottom of the stack as the rest of the program sees it. -/
def bottom : List (Frame α) → Option (Tree α)
  | [] => none
  | [(a, cs)] => some (.node a cs)
  | (a, cs) :: (b, ds) :: r => bottom ((b, ds ++ [.node a cs]) :: r)
termination_by s => s.length

/-! ## Lemmas -/

theorem withDepthL_append (d : Nat) (f g : List (Tree α)) :
    withDepthL d (f ++ g) = withDepthL d f ++ withDepthL d g := by
  induction f with
  | nil => simp [withDepthL]
  | cons t ts ih => simp [withDepthL, ih]

theorem preL_append (f g : List (Tree α)) : preL (f ++ g) = preL f ++ preL g := by
  induction f with
  | nil => simp [preL]
  | cons t ts ih => simp [preL, ih]

mutual
theorem withDepth_snd (d : Nat) : ∀ t : Tree α, (t.withDepth d).map (·.2) = t.pre
  | .node a cs => by simp [Tree.withDepth, Tree.pre, withDepthL_snd (d + 1) cs]
theorem withDepthL_snd (d : Nat) : ∀ f : List (Tree α), (withDepthL d f).map (·.2) = preL f
  | [] => by simp [withDepthL, preL]
  | t :: ts => by simp [withDepthL, preL, withDepth_snd d t, withDepthL_snd d ts]
end

mutual
theorem withDepth_map {β : Type} (g : α → β) (d : Nat) : ∀ t : Tree α,
    (t.map g).withDepth d = (t.withDepth d).map (fun p => (p.1, g p.2))
  | .node a cs => by simp [Tree.withDepth, Tree.map, withDepthL_map g (d + 1) cs]
theorem withDepthL_map {β : Type} (g : α → β) (d : Nat) : ∀ f : List (Tree α),
    withDepthL d (mapL g f) = (withDepthL d f).map (fun p => (p.1, g p.2))
  | [] => by simp [withDepthL, mapL]
  | t :: ts => by simp [withDepthL, mapL, withDepth_map g d t, withDepthL_map g d ts]
end

mutual
theorem withDepth_shift (d e : Nat) : ∀ t : Tree α,
    t.withDepth (d + e) = (t.withDepth d).map (fun p => (p.1 + e, p.2))
  | .node a cs => by
    simp only [Tree.withDepth, List.map_cons, List.cons.injEq, true_and]
    rw [show d + e + 1 = (d + 1) + e by omega]
    exact withDepthL_shift (d + 1) e cs
theorem withDepthL_shift (d e : Nat) : ∀ f : List (Tree α),
    withDepthL (d + e) f = (withDepthL d f).map (fun p => (p.1 + e, p.2))
  | [] => by simp [withDepthL]
  | t :: ts => by simp [withDepthL, withDepth_shift d e t, withDepthL_shift d e ts]
end

mutual
theorem le_withDepth (d : Nat) : ∀ (t : Tree α) (p : Nat × α), p ∈ t.withDepth d → d ≤ p.1
  | .node a cs, p, h => by
    rw [Tree.withDepth] at h
    rcases List.mem_cons.mp h with rfl | h
    · exact Nat.le_refl _
    · have := le_withDepthL (d + 1) cs p h; omega
theorem le_withDepthL (d : Nat) : ∀ (f : List (Tree α)) (p : Nat × α), p ∈ withDepthL d f → d ≤ p.1
  | [], p, h => by simp [withDepthL] at h
  | t :: ts, p, h => by
    rw [withDepthL] at h
    rcases List.mem_append.mp h with h | h
    · exact le_withDepth d t p h
    · exact le_withDepthL d ts p h
end

/-- Everything on the stack in textual order with depths. -/
def stackPre : List (Frame α) → List (Nat × α)
  | [] => []
  | (a, cs) :: r => stackPre r ++ (r.length, a) :: withDepthL (r.length + 1) cs

theorem stackPre_pop (a b : α) (cs ds : List (Tree α)) (r : List (Frame α)) :
    stackPre ((b, ds ++ [.node a cs]) :: r) = stackPre ((a, cs) :: (b, ds) :: r) := by
  simp [stackPre, withDepthL_append, withDepthL, Tree.withDepth]

theorem bottom_stackPre (s : List (Frame α)) (t : Tree α) (h : bottom s = some t) :
    t.withDepth 0 = stackPre s := by
  induction hn : s.length generalizing s with
  | zero =>
    have : s = [] := List.length_eq_zero_iff.mp hn
    rw [this] at h; simp [bottom] at h
  | succ n ih =>
    match s, h, hn with
    | [(a, cs)], h, _ =>
      rw [bottom] at h
      rw [← Option.some.inj h]; simp [Tree.withDepth, stackPre]
    | (a, cs) :: (b, ds) :: r, h, hn =>
      rw [bottom] at h
      rw [← stackPre_pop]
      exact ih _ h (by simpa using hn)

theorem bottom_isSome (s : List (Frame α)) (h : s ≠ []) : ∃ t, bottom s = some t := by
  induction hn : s.length generalizing s with
  | zero => exact absurd (List.length_eq_zero_iff.mp hn) h
  | succ n ih =>
    match s, hn with
    | [(a, cs)], _ => exact ⟨_, by rw [bottom]⟩
    | (a, cs) :: (b, ds) :: r, hn =>
      rw [bottom]
      exact ih _ (by simp) (by simpa using hn)

theorem withPathL_append (p : List α) (f g : List (Tree α)) :
    withPathL p (f ++ g) = withPathL p f ++ withPathL p g := by
  induction f with
  | nil => simp [withPathL]
  | cons t ts ih => simp [withPathL, ih]

mutual
theorem withPath_snd (p : List α) : ∀ t : Tree α, (t.withPath p).map (·.2) = t.pre
  | .node a cs => by simp [Tree.withPath, Tree.pre, withPathL_snd (a :: p) cs]
theorem withPathL_snd (p : List α) : ∀ f : List (Tree α), (withPathL p f).map (·.2) = preL f
  | [] => by simp [withPathL, preL]
  | t :: ts => by simp [withPathL, preL, withPath_snd p t, withPathL_snd p ts]
end

mutual
theorem withPath_depth (p : List α) : ∀ t : Tree α,
    (t.withPath p).map (fun x => (x.1.length, x.2)) = t.withDepth p.length
  | .node a cs => by
    simp only [Tree.withPath, Tree.withDepth, List.map_cons, List.cons.injEq, true_and]
    exact withPathL_depth (a :: p) cs
theorem withPathL_depth (p : List α) : ∀ f : List (Tree α),
    (withPathL p f).map (fun x => (x.1.length, x.2)) = withDepthL p.length f
  | [] => by simp [withPathL, withDepthL]
  | t :: ts => by simp [withPathL, withDepthL, withPath_depth p t, withPathL_depth p ts]
end

/-- Everything on the stack in textual order with ancestors. -/
def stackPath : List (Frame α) → List (List α × α)
  | [] => []
  | (a, cs) :: r => stackPath r ++ (r.map (·.1), a) :: withPathL (a :: r.map (·.1)) cs

theorem stackPath_pop (a b : α) (cs ds : List (Tree α)) (r : List (Frame α)) :
    stackPath ((b, ds ++ [.node a cs]) :: r) = stackPath ((a, cs) :: (b, ds) :: r) := by
  simp [stackPath, withPathL_append, withPathL, Tree.withPath]

theorem bottom_stackPath (s : List (Frame α)) (t : Tree α) (h : bottom s = some t) :
    t.withPath [] = stackPath s := by
  induction hn : s.length generalizing s with
  | zero =>
    have : s = [] := List.length_eq_zero_iff.mp hn
    rw [this] at h; simp [bottom] at h
  | succ n ih =>
    match s, h, hn with
    | [(a, cs)], h, _ =>
      rw [bottom] at h
      rw [← Option.some.inj h]; simp [Tree.withPath, stackPath]
    | (a, cs) :: (b, ds) :: r, h, hn =>
      rw [bottom] at h
      rw [← stackPath_pop]
      exact ih _ h (by simpa using hn)

/-- heads of `l` are shallower than `d` -/
def Below (d : Nat) : List (Nat × α) → Prop
  | [] => True
  | p :: _ => p.1 < d

theorem withDepthL_split (n : Nat) : ∀ (d : Nat) (f g : List (Tree α)) (r r' : List (Nat × α)),
    (withDepthL d f).length ≤ n → Below d r → Below d r' →
    withDepthL d f ++ r = withDepthL d g ++ r' → f = g ∧ r = r' := by
  induction n with
  | zero =>
    intro d f g r r' hn hr hr' h
    match f, g with
    | [], [] => exact ⟨rfl, by simpa [withDepthL] using h⟩
    | [], .node b ds :: us =>
      simp only [withDepthL, Tree.withDepth, List.nil_append, List.cons_append] at h
      rw [h] at hr; exact absurd hr (Nat.lt_irrefl _)
    | .node a cs :: ts, _ => simp [withDepthL, Tree.withDepth] at hn
  | succ n ih =>
    intro d f g r r' hn hr hr' h
    match f, g with
    | [], [] => exact ⟨rfl, by simpa [withDepthL] using h⟩
    | [], .node b ds :: us =>
      simp only [withDepthL, Tree.withDepth, List.nil_append, List.cons_append] at h
      rw [h] at hr; exact absurd hr (Nat.lt_irrefl _)
    | .node a cs :: ts, [] =>
      simp only [withDepthL, Tree.withDepth, List.nil_append, List.cons_append] at h
      rw [← h] at hr'; exact absurd hr' (Nat.lt_irrefl _)
    | .node a cs :: ts, .node b ds :: us =>
      simp only [withDepthL, Tree.withDepth, List.cons_append, List.append_assoc, List.cons.injEq,
        Prod.mk.injEq, true_and] at h
      have below : ∀ (w : List (Tree α)) (q : List (Nat × α)), Below d q →
          Below (d + 1) (withDepthL d w ++ q) := by
        intro w q hq
        match w, q, hq with
        | .node _ _ :: _, _, _ => simp [withDepthL, Tree.withDepth, Below]
        | [], [], _ => simp [withDepthL, Below]
        | [], p :: _, hq => simp only [withDepthL, List.nil_append, Below] at hq ⊢; omega
      have hlen : (withDepthL (d + 1) cs).length + (withDepthL d ts).length ≤ n := by
        simp [withDepthL, Tree.withDepth] at hn; omega
      obtain ⟨e1, e2⟩ := ih (d + 1) cs ds _ _ (by omega) (below ts r hr) (below us r' hr') h.2
      obtain ⟨e3, e4⟩ := ih d ts us r r' (by omega) hr hr' e2
      exact ⟨by rw [h.1, e1, e3], e4⟩

/-- A forest is determined by its nodes in textual order with their depths. -/
theorem withDepthL_inj (d : Nat) (f g : List (Tree α)) (h : withDepthL d f = withDepthL d g) :
    f = g := by
  refine (withDepthL_split _ d f g [] [] (Nat.le_refl _) trivial trivial ?_).1
  simpa using h

end

end Verif.Lib
