import Mathlib.Data.List.Basic
import Mathlib.Data.List.Nodup
import Mathlib.Data.List.Perm.Subperm
import Mathlib.Data.List.Sort
import Verif.Otel.Model
/-!
# C27, C28: conversion of spans to trees
-/
namespace Verif.Otel
open Verif.Lib

/-! ## Specification -/

/-- The span is not replaced by a later one with the same id. -/
def Survives (hs : List Holder) (h : Holder) : Prop :=
  ∃ pre post, hs = pre ++ h :: post ∧ ∀ y ∈ post, y.id ≠ h.id

/-- The span names a parent: its parent id has a non-zero byte. -/
def NamesParent (h : Holder) : Prop := ∃ b ∈ h.parentId, b ≠ 0

/-- A list of spans, each followed by its parent, up to one that has none among the fetched ones. -/
inductive RootChain (hs : List Holder) : List Holder → Prop where
  | root (h : Holder) : Survives hs h → (NamesParent h → ∀ p ∈ hs, p.id ≠ h.parentId) →
      RootChain hs [h]
  | child (h p : Holder) (path : List Holder) : Survives hs h → NamesParent h → p.id = h.parentId →
      RootChain hs (p :: path) → RootChain hs (h :: p :: path)

mutual
/-- Nodes in textual order, each with its ancestors and its children. -/
def infoT {α : Type} (path : List α) : Tree α → List (List α × α × List α)
  | .node a cs => (path, a, cs.map Tree.val) :: infoL (a :: path) cs
/-- The same for a forest. -/
def infoL {α : Type} (path : List α) : List (Tree α) → List (List α × α × List α)
  | [] => []
  | t :: ts => infoT path t ++ infoL path ts
end

/-- What is assumed of `sort.Slice` with `<` on start times. -/
def SortsByStart (sort : List Holder → List Holder) : Prop :=
  ∀ l, (sort l).Perm l ∧ (sort l).Pairwise (fun a b => a.span.start ≤ b.span.start)

/-! ## Lemmas about trees -/

section
variable {α : Type}

mutual
theorem infoT_withPath (p : List α) : ∀ t : Tree α,
    (infoT p t).map (fun x => (x.1, x.2.1)) = t.withPath p
  | .node a cs => by simp [infoT, Tree.withPath, infoL_withPath (a :: p) cs]
theorem infoL_withPath (p : List α) : ∀ f : List (Tree α),
    (infoL p f).map (fun x => (x.1, x.2.1)) = withPathL p f
  | [] => by simp [infoL, withPathL]
  | t :: ts => by simp [infoL, withPathL, infoT_withPath p t, infoL_withPath p ts]
end

mutual
theorem withPath_suffix (p : List α) : ∀ (t : Tree α) (q : List α) (x : α),
    (q, x) ∈ t.withPath p → t.val :: p <:+ x :: q
  | .node a cs, q, x, h => by
    rw [Tree.withPath, List.mem_cons] at h
    rcases h with h | h
    · cases h; exact List.suffix_refl _
    · obtain ⟨t, _, ht⟩ := withPathL_suffix (a :: p) cs q x h
      exact (List.suffix_cons t.val (a :: p)).trans ht
theorem withPathL_suffix (p : List α) : ∀ (f : List (Tree α)) (q : List α) (x : α),
    (q, x) ∈ withPathL p f → ∃ t ∈ f, t.val :: p <:+ x :: q
  | [], q, x, h => by rw [withPathL] at h; cases h
  | t :: ts, q, x, h => by
    rw [withPathL, List.mem_append] at h
    rcases h with h | h
    · exact ⟨t, by simp, withPath_suffix p t q x h⟩
    · obtain ⟨t', h1, h2⟩ := withPathL_suffix p ts q x h
      exact ⟨t', by simp [h1], h2⟩
end

theorem suffix_head_unique {a b : α} {p l : List α} (h1 : a :: p <:+ l) (h2 : b :: p <:+ l) :
    a = b := by
  have h : a :: p = b :: p := by
    rcases List.suffix_or_suffix_of_suffix h1 h2 with h | h
    · exact h.eq_of_length rfl
    · exact (h.eq_of_length rfl).symm
  cases h; rfl

end

/-! ## Lemmas about linking -/

section
variable (hs : List Holder)

theorem survives_iff (h : Holder) : Survives hs h ↔ h ∈ (mapOf Holder.id hs).map (·.2) :=
  (mem_mapOf_values Holder.id hs h).symm

theorem Survives.mem {hs : List Holder} {h : Holder} (hh : Survives hs h) : h ∈ hs := by
  obtain ⟨pre, post, rfl, _⟩ := hh; simp

theorem survives_unique {a b : Holder} (ha : Survives hs a) (hb : Survives hs b)
    (h : a.id = b.id) : a = b := by
  rw [survives_iff] at ha hb
  exact List.inj_on_of_nodup_map (mapOf_values_nodup_key Holder.id hs) ha hb h

theorem zeroParent_iff (h : Holder) : zeroParent h = false ↔ NamesParent h := by
  unfold zeroParent NamesParent
  simp [List.all_eq_false]

theorem get_parent (h : Holder) :
    (∀ p, mapGet h.parentId (mapOf Holder.id hs) = some p ↔ Survives hs p ∧ p.id = h.parentId) := by
  intro p
  constructor
  · intro hp
    have hm := mem_of_mapGet _ _ _ hp
    have hk := (mapOf_key Holder.id hs _ hm).1
    exact ⟨(survives_iff hs p).mpr (List.mem_map.mpr ⟨_, hm, rfl⟩), hk⟩
  · rintro ⟨h1, h2⟩
    rw [survives_iff] at h1
    obtain ⟨⟨k, v⟩, hq, rfl⟩ := List.mem_map.mp h1
    have hk := (mapOf_key Holder.id hs _ hq).1
    simp only at hk h2
    rw [← h2, hk]
    exact mapGet_of_mem _ _ _ (mapOf_nodup _ _) hq

theorem get_parent_none (h : Holder) :
    mapGet h.parentId (mapOf Holder.id hs) = none ↔ ∀ p ∈ hs, p.id ≠ h.parentId := by
  rw [mapGet_mapOf, List.getLast?_eq_none_iff, List.filter_eq_nil_iff]
  simp

/-- a root of the forest -/
def isTop (h : Holder) : Bool := zeroParent h || (mapGet h.parentId (mapOf Holder.id hs)).isNone

theorem isTop_iff (h : Holder) :
    isTop hs h = true ↔ (NamesParent h → ∀ p ∈ hs, p.id ≠ h.parentId) := by
  unfold isTop
  rw [← get_parent_none, ← zeroParent_iff]
  cases zeroParent h <;> cases mapGet h.parentId (mapOf Holder.id hs) <;> simp

theorem link_spec (order : List Holder) : ∀ s : Links,
    (order.foldl (linkOne (mapOf Holder.id hs)) s).roots = s.roots ++ order.filter (isTop hs) ∧
    ∀ i, (order.foldl (linkOne (mapOf Holder.id hs)) s).kids i =
      s.kids i ++ order.filter (fun h => !isTop hs h && h.parentId = i) := by
  induction order with
  | nil => intro s; simp
  | cons h r ih =>
    intro s
    rw [List.foldl_cons]
    obtain ⟨h1, h2⟩ := ih (linkOne (mapOf Holder.id hs) s h)
    rw [h1]
    by_cases hz : zeroParent h = true
    · have ht : isTop hs h = true := by simp [isTop, hz]
      refine ⟨?_, fun i => ?_⟩
      · rw [List.filter_cons_of_pos ht]; simp [linkOne, hz]
      · rw [h2 i, List.filter_cons_of_neg (by simp [ht])]; simp [linkOne, hz]
    · cases hp : mapGet h.parentId (mapOf Holder.id hs) with
      | none =>
        have ht : isTop hs h = true := by simp [isTop, hp]
        refine ⟨?_, fun i => ?_⟩
        · rw [List.filter_cons_of_pos ht]; simp [linkOne, hz, hp]
        · rw [h2 i, List.filter_cons_of_neg (by simp [ht])]; simp [linkOne, hz, hp]
      | some p =>
        have ht : isTop hs h = false := by simp [isTop, hz, hp]
        have hpid := ((get_parent hs h p).mp hp).2
        refine ⟨?_, fun i => ?_⟩
        · rw [List.filter_cons_of_neg (by simp [ht])]; simp [linkOne, hz, hp]
        · rw [h2 i]
          by_cases hi : h.parentId = i
          · rw [List.filter_cons_of_pos (by simp [ht, hi])]
            have hpi : i = p.id := by rw [hpid, hi]
            simp only [linkOne, hz, hp, Bool.false_eq_true, if_false, hpi, if_true,
              List.append_assoc, List.singleton_append]
          · rw [List.filter_cons_of_neg (by simp [hi])]
            have : ¬ i = p.id := by rw [hpid]; exact fun e => hi e.symm
            simp only [linkOne, hz, hp, Bool.false_eq_true, if_false, this]

theorem rootChain_unique {h : Holder} {p1 p2 : List Holder} (h1 : RootChain hs (h :: p1))
    (h2 : RootChain hs (h :: p2)) : p1 = p2 := by
  induction p1 generalizing h p2 with
  | nil =>
    cases h1 with
    | root _ _ ht =>
      cases h2 with
      | root => rfl
      | child _ p path _ hn hp hc =>
        have : Survives hs p := by cases hc <;> assumption
        exact absurd hp (ht hn p this.mem)
  | cons a r ih =>
    cases h1 with
    | child _ _ _ _ hn hp hc =>
      have ha : Survives hs a := by cases hc <;> assumption
      cases h2 with
      | root _ _ ht => exact absurd hp (ht hn a ha.mem)
      | child _ b path _ _ hp' hc' =>
        have hb : Survives hs b := by cases hc' <;> assumption
        have e : a = b := survives_unique hs ha hb (hp.trans hp'.symm)
        subst e
        rw [ih hc hc']

theorem rootChain_tail {h : Holder} {a b : List Holder} (hc : RootChain hs (a ++ h :: b)) :
    RootChain hs (h :: b) := by
  induction a with
  | nil => exact hc
  | cons x a ih =>
    apply ih
    cases a with
    | nil => cases hc; assumption
    | cons y a => cases hc; assumption

theorem rootChain_nodup {l : List Holder} (hc : RootChain hs l) : l.Nodup := by
  induction hc with
  | root h _ _ => simp
  | child h p path hs' hn hp hc ih =>
    rw [List.nodup_cons]
    refine ⟨?_, ih⟩
    intro hm
    obtain ⟨a, b, e⟩ := List.append_of_mem hm
    have h1 : RootChain hs (h :: (p :: path)) := .child h p path hs' hn hp hc
    have h2 : RootChain hs (h :: b) := rootChain_tail hs (e ▸ hc)
    have := rootChain_unique hs h1 h2
    have hl := congrArg List.length this
    rw [e] at hl
    simp at hl
    omega

theorem rootChain_mem {l : List Holder} (hc : RootChain hs l) : ∀ x ∈ l, Survives hs x := by
  induction hc with
  | root h hs' _ => intro x hx; rw [List.mem_singleton] at hx; subst hx; exact hs'
  | child h p path hs' _ _ _ ih =>
    intro x hx
    rcases List.mem_cons.mp hx with rfl | hx
    · exact hs'
    · exact ih x hx

theorem rootChain_length {l : List Holder} (hc : RootChain hs l) : l.length ≤ hs.length :=
  ((rootChain_nodup hs hc).subperm (fun x hx => (rootChain_mem hs hc x hx).mem)).length_le

end

/-! ## Lemmas about unfolding -/

section
variable (sort : List Holder → List Holder) (kids : Bytes → List Holder)

theorem treeOf_val (n : Nat) (h : Holder) : (treeOf sort kids n h).val = h := by
  cases n <;> rfl

theorem mem_withPathL (p : List Holder) (f : List (Tree Holder)) (q : List Holder) (x : Holder) :
    (q, x) ∈ withPathL p f ↔ ∃ t ∈ f, (q, x) ∈ t.withPath p := by
  induction f with
  | nil => simp [withPathL]
  | cons t ts ih => simp [withPathL, ih]

theorem mem_infoL {α : Type} (p : List α) (f : List (Tree α)) (y : List α × α × List α) :
    y ∈ infoL p f ↔ ∃ t ∈ f, y ∈ infoT p t := by
  induction f with
  | nil => simp [infoL]
  | cons t ts ih => simp [infoL, ih]

/-- a node whose fuel is not used up has its children below it -/
theorem unfold_child (n : Nat) : ∀ (l p q : List Holder) (x c : Holder),
    (q, x) ∈ withPathL p (l.map (treeOf sort kids n)) → q.length < p.length + n →
    c ∈ sort (kids x.id) → (x :: q, c) ∈ withPathL p (l.map (treeOf sort kids n)) := by
  induction n with
  | zero =>
    intro l p q x c h hl
    obtain ⟨t, ht, hx⟩ := (mem_withPathL _ _ _ _).mp h
    obtain ⟨h', _, rfl⟩ := List.mem_map.mp ht
    rw [treeOf, Tree.withPath, withPathL, List.mem_singleton] at hx
    cases hx
    omega
  | succ n ih =>
    intro l p q x c h hl hc
    obtain ⟨t, ht, hx⟩ := (mem_withPathL _ _ _ _).mp h
    obtain ⟨h', hh', rfl⟩ := List.mem_map.mp ht
    refine (mem_withPathL _ _ _ _).mpr ⟨_, List.mem_map.mpr ⟨h', hh', rfl⟩, ?_⟩
    rw [treeOf, Tree.withPath] at hx ⊢
    refine List.mem_cons_of_mem _ ?_
    rcases List.mem_cons.mp hx with hx | hx
    · cases hx
      refine (mem_withPathL _ _ _ _).mpr ⟨_, List.mem_map.mpr ⟨c, hc, rfl⟩, ?_⟩
      cases n <;> simp [treeOf, Tree.withPath]
    · exact ih _ _ _ _ _ hx (by simp; omega) hc

/-- and exactly those -/
theorem unfold_kids (n : Nat) : ∀ (l p q : List Holder) (x : Holder) (cs : List Holder),
    (q, x, cs) ∈ infoL p (l.map (treeOf sort kids n)) → q.length < p.length + n →
    cs = sort (kids x.id) := by
  induction n with
  | zero =>
    intro l p q x cs h hl
    obtain ⟨t, ht, hx⟩ := (mem_infoL _ _ _).mp h
    obtain ⟨h', _, rfl⟩ := List.mem_map.mp ht
    rw [treeOf, infoT, infoL, List.mem_singleton] at hx
    cases hx
    omega
  | succ n ih =>
    intro l p q x cs h hl
    obtain ⟨t, ht, hx⟩ := (mem_infoL _ _ _).mp h
    obtain ⟨h', hh', rfl⟩ := List.mem_map.mp ht
    rw [treeOf, infoT] at hx
    rcases List.mem_cons.mp hx with hx | hx
    · cases hx
      rw [List.map_map]
      conv_rhs => rw [← List.map_id (sort (kids x.id))]
      exact List.map_congr_left (fun y _ => treeOf_val sort kids n y)
    · exact ih _ _ _ _ _ hx (by simp; omega)

theorem unfold_chain (n : Nat) (P : List Holder → Prop)
    (hP : ∀ h path c, P (h :: path) → c ∈ sort (kids h.id) → P (c :: h :: path)) :
    ∀ (l p q : List Holder) (x : Holder), (∀ h ∈ l, P (h :: p)) →
    (q, x) ∈ withPathL p (l.map (treeOf sort kids n)) → P (x :: q) := by
  induction n with
  | zero =>
    intro l p q x hl h
    obtain ⟨t, ht, hx⟩ := (mem_withPathL _ _ _ _).mp h
    obtain ⟨h', hh', rfl⟩ := List.mem_map.mp ht
    rw [treeOf, Tree.withPath, withPathL, List.mem_singleton] at hx
    cases hx
    exact hl _ hh'
  | succ n ih =>
    intro l p q x hl h
    obtain ⟨t, ht, hx⟩ := (mem_withPathL _ _ _ _).mp h
    obtain ⟨h', hh', rfl⟩ := List.mem_map.mp ht
    rw [treeOf, Tree.withPath] at hx
    rcases List.mem_cons.mp hx with hx | hx
    · cases hx; exact hl _ hh'
    · exact ih _ _ _ _ (fun c hc => hP _ _ _ (hl _ hh') hc) hx

theorem unfold_nodup (hk : ∀ i, (sort (kids i)).Nodup) (n : Nat) : ∀ (l p : List Holder), l.Nodup →
    (withPathL p (l.map (treeOf sort kids n))).Nodup := by
  have inner : ∀ (n : Nat), (∀ h p, ((treeOf sort kids n h).withPath p).Nodup) →
      ∀ (l p : List Holder), l.Nodup → (withPathL p (l.map (treeOf sort kids n))).Nodup := by
    intro n hn l
    induction l with
    | nil => intro p _; simp [withPathL]
    | cons a r ih =>
      intro p hl
      rw [List.nodup_cons] at hl
      rw [List.map_cons, withPathL, List.nodup_append]
      refine ⟨hn a p, ih p hl.2, ?_⟩
      rintro ⟨q, x⟩ hx ⟨q', x'⟩ hx' e
      cases e
      have h1 := withPath_suffix p _ q x hx
      obtain ⟨t, ht, h2⟩ := withPathL_suffix p _ q x hx'
      obtain ⟨b, hb, rfl⟩ := List.mem_map.mp ht
      rw [treeOf_val] at h1 h2
      have := suffix_head_unique h1 h2
      subst this
      exact hl.1 hb
  have tree : ∀ (n : Nat) (h : Holder) (p : List Holder),
      ((treeOf sort kids n h).withPath p).Nodup := by
    intro n
    induction n with
    | zero => intro h p; simp [treeOf, Tree.withPath, withPathL]
    | succ n ih =>
      intro h p
      rw [treeOf, Tree.withPath, List.nodup_cons]
      refine ⟨?_, inner n ih _ _ (hk _)⟩
      intro hm
      obtain ⟨t, _, ht⟩ := withPathL_suffix _ _ _ _ hm
      have := ht.length_le
      simp at this
      omega
  exact inner n (tree n)

end

/-! ## Theorems -/

section
variable (sort order : List Holder → List Holder) (hs : List Holder)

theorem mem_kids (horder : ∀ l, (order l).Perm l) (i : Bytes) (c : Holder) :
    c ∈ (link (mapOf Holder.id hs) (order ((mapOf Holder.id hs).map (·.2)))).kids i ↔
      Survives hs c ∧ NamesParent c ∧ (∃ p ∈ hs, p.id = c.parentId) ∧ c.parentId = i := by
  have h := (link_spec hs (order ((mapOf Holder.id hs).map (·.2))) ⟨[], fun _ => []⟩).2 i
  rw [link, h]
  simp only [List.nil_append, List.mem_filter, Bool.and_eq_true, decide_eq_true_eq,
    (horder _).mem_iff, ← survives_iff, Bool.not_eq_true', ← Bool.not_eq_true, isTop_iff,
    not_forall, not_not]
  constructor
  · rintro ⟨h1, ⟨h2, p, h3, h4⟩, h5⟩; exact ⟨h1, h2, ⟨p, h3, h4⟩, h5⟩
  · rintro ⟨h1, h2, ⟨p, h3, h4⟩, h5⟩; exact ⟨h1, ⟨h2, p, h3, h4⟩, h5⟩

theorem mem_roots (horder : ∀ l, (order l).Perm l) (c : Holder) :
    c ∈ (link (mapOf Holder.id hs) (order ((mapOf Holder.id hs).map (·.2)))).roots ↔
      Survives hs c ∧ (NamesParent c → ∀ p ∈ hs, p.id ≠ c.parentId) := by
  have h := (link_spec hs (order ((mapOf Holder.id hs).map (·.2))) ⟨[], fun _ => []⟩).1
  rw [link, h]
  simp only [List.nil_append, List.mem_filter, (horder _).mem_iff, ← survives_iff, isTop_iff]

theorem values_nodup : ((mapOf Holder.id hs).map (·.2)).Nodup :=
  List.Nodup.of_map _ (mapOf_values_nodup_key Holder.id hs)

/-- C27: the ancestors of every span in the forest are exactly its chain of parents, up to a span
without a fetched parent; and every span that has such a chain is there.  In other words: each span
is below its parent if the parent was fetched, else a root, and spans on or below a cycle of parents
(which have no such chain) are left out. -/
theorem C27_exact (hsort : SortsByStart sort) (horder : ∀ l, (order l).Perm l)
    (path : List Holder) (h : Holder) :
    (path, h) ∈ withPathL [] (toTraceTrees sort order hs) ↔ RootChain hs (h :: path) := by
  unfold toTraceTrees
  simp only
  constructor
  · intro hm
    refine unfold_chain sort _ hs.length (RootChain hs) ?_ _ [] path h ?_ hm
    · intro h path c hc hk
      rw [(hsort _).1.mem_iff, mem_kids order hs horder] at hk
      exact .child c h path hk.1 hk.2.1 hk.2.2.2.symm hc
    · intro r hr
      rw [mem_roots order hs horder] at hr
      exact .root r hr.1 hr.2
  · intro hc
    generalize hl : h :: path = l at hc
    induction hc generalizing h path with
    | root r h1 h2 =>
      cases hl
      refine (mem_withPathL _ _ _ _).mpr ⟨_, List.mem_map.mpr ⟨r, ?_, rfl⟩, ?_⟩
      · rw [mem_roots order hs horder]; exact ⟨h1, h2⟩
      · cases hs.length <;> simp [treeOf, Tree.withPath]
    | child c p pa h1 h2 h3 h4 ih =>
      cases hl
      refine unfold_child sort _ hs.length _ [] pa p c (ih pa p rfl) ?_ ?_
      · have := rootChain_length hs h4
        simp at this ⊢; omega
      · rw [(hsort _).1.mem_iff, mem_kids order hs horder]
        have hp := rootChain_mem hs h4 p (by simp)
        exact ⟨h1, h2, ⟨p, hp.mem, h3⟩, h3.symm⟩

/-- C27: no span occurs twice in the forest, not even two spans with the same id. -/
theorem C27_once (hsort : SortsByStart sort) (horder : ∀ l, (order l).Perm l) :
    ((preL (toTraceTrees sort order hs)).map Holder.id).Nodup := by
  have hn : (withPathL [] (toTraceTrees sort order hs)).Nodup := by
    unfold toTraceTrees
    refine unfold_nodup sort _ ?_ _ _ _ ?_
    · intro i
      rw [(hsort _).1.nodup_iff, link, (link_spec hs _ _).2 i, List.nil_append]
      exact ((horder _).nodup_iff.mpr (values_nodup hs)).filter _
    · rw [link, (link_spec hs _ _).1, List.nil_append]
      exact ((horder _).nodup_iff.mpr (values_nodup hs)).filter _
  rw [← withPathL_snd [], List.map_map]
  refine hn.map_on ?_
  rintro ⟨q, x⟩ hx ⟨q', x'⟩ hx' e
  rw [C27_exact sort order hs hsort horder] at hx hx'
  have : x = x' := survives_unique hs (rootChain_mem hs hx x (by simp))
    (rootChain_mem hs hx' x' (by simp)) e
  subst this
  rw [rootChain_unique hs hx hx']

/-- C27: when the ids are distinct, every span with a chain of fetched parents up to a root is in
the forest: the forest loses none of them. -/
theorem C27_all (hsort : SortsByStart sort) (horder : ∀ l, (order l).Perm l) (h : Holder) :
    h ∈ preL (toTraceTrees sort order hs) ↔ ∃ path, RootChain hs (h :: path) := by
  rw [← withPathL_snd [], List.mem_map]
  constructor
  · rintro ⟨⟨q, x⟩, hx, rfl⟩; exact ⟨q, (C27_exact sort order hs hsort horder q x).mp hx⟩
  · rintro ⟨q, hq⟩; exact ⟨(q, h), (C27_exact sort order hs hsort horder q h).mpr hq, rfl⟩

/-- C28: the children of every span in the forest are sorted by start time and are exactly the
(surviving) spans that name it as parent, none twice. -/
theorem C28_children (hsort : SortsByStart sort) (horder : ∀ l, (order l).Perm l)
    (path : List Holder) (x : Holder) (cs : List Holder)
    (h : (path, x, cs) ∈ infoL [] (toTraceTrees sort order hs)) :
    cs.Pairwise (fun a b => a.span.start ≤ b.span.start) ∧ cs.Nodup ∧
      ∀ c, c ∈ cs ↔ Survives hs c ∧ NamesParent c ∧ c.parentId = x.id := by
  have hp : (path, x) ∈ withPathL [] (toTraceTrees sort order hs) := by
    rw [← infoL_withPath, List.mem_map]; exact ⟨_, h, rfl⟩
  rw [C27_exact sort order hs hsort horder] at hp
  have hlen := rootChain_length hs hp
  unfold toTraceTrees at h
  have e := unfold_kids sort _ hs.length _ [] path x cs h (by simp at hlen ⊢; omega)
  subst e
  refine ⟨(hsort _).2, ?_, ?_⟩
  · rw [(hsort _).1.nodup_iff, link, (link_spec hs _ _).2 x.id, List.nil_append]
    exact ((horder _).nodup_iff.mpr (values_nodup hs)).filter _
  · intro c
    rw [(hsort _).1.mem_iff, mem_kids order hs horder]
    have hx := rootChain_mem hs hp x (by simp)
    constructor
    · rintro ⟨h1, h2, _, h3⟩; exact ⟨h1, h2, h3⟩
    · rintro ⟨h1, h2, h3⟩; exact ⟨h1, h2, ⟨x, hx.mem, h3.symm⟩, h3⟩

end

/-! ### Concrete traces -/

/-- insertion sort by start time, an instance of the sort assumption -/
def startSort (l : List Holder) : List Holder :=
  l.insertionSort (fun a b => a.span.start ≤ b.span.start)

theorem startSort_sorts : SortsByStart startSort := by
  intro l
  have h : IsTrans Holder (fun a b => a.span.start ≤ b.span.start) :=
    ⟨fun a b c h1 h2 => Nat.le_trans h1 h2⟩
  have h' : Std.Total (fun a b : Holder => a.span.start ≤ b.span.start) :=
    ⟨fun a b => Nat.le_total _ _⟩
  exact ⟨List.perm_insertionSort _ l, List.pairwise_insertionSort _ l⟩

/-- a span for examples: id, parent, start -/
def ex (i p s : Nat) : Holder := { parentId := [p], span := { spanId := [i], start := s, stop := s + 5 } }

/-- Root 1 with children 3 and 2 (in start order), 4 below 3, 9 whose parent is missing, and a cycle
of 5 and 6 with 7 below it. -/
def exSpans : List Holder :=
  [ex 4 3 40, ex 2 1 30, ex 1 0 10, ex 3 1 20, ex 9 8 1, ex 5 6 1, ex 6 5 1, ex 7 5 1]

example : (withPathL [] (toTraceTrees startSort List.reverse exSpans)).map
    (fun p => (p.1.map (fun h => h.id), p.2.id)) =
    [([], [9]), ([], [1]), ([[1]], [3]), ([[3], [1]], [4]), ([[1]], [2])] := by decide +kernel

/-- C27 for all spans is false: a span that is its own parent is in no tree. -/
theorem C27_cycle_lost : toTraceTrees startSort id [ex 5 5 1] = [] := by rfl

/-- Of two spans with one id only the later one is kept. -/
theorem C27_duplicate_id_replaced :
    (preL (toTraceTrees startSort id [ex 1 0 10, ex 1 0 20])).map (fun h => h.span.start) = [20] := by
  decide +kernel

end Verif.Otel
