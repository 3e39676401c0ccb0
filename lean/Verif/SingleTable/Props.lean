import Mathlib.Data.List.Basic
import Verif.Common
import Verif.SingleTable.Model
/-!
# C25, C53: per-table results
-/
namespace Verif.SingleTable
open Verif.Lib

section
variable {F : Type}

/-! ## Specification -/

/-- The node followed by its ancestors as long as they are on the node's table. -/
def runUp (ancestors : List (Entry F)) (n : Entry F) : List (Entry F) :=
  n :: ancestors.takeWhile (fun a => a.1 = n.1)

mutual
/-- The topmost nodes that name a table, in textual order. -/
def tops : Tree (Entry F) → List (Entry F)
  | .node n cs => if n.1 = [] then topsL cs else [n]
/-- The same for a forest. -/
def topsL : List (Tree (Entry F)) → List (Entry F)
  | [] => []
  | c :: cs => tops c ++ topsL cs
end

/-- A chain of nodes on table `t` (a scan with filters above it). -/
inductive Chain (t : Str) : Tree (Entry F) → Prop where
  | leaf (x : F) : Chain t (.node (t, x) [])
  | up (x : F) (c : Tree (Entry F)) : Chain t c → Chain t (.node (t, x) [c])

/-- A plan in which every node that names a table starts a chain of nodes on that table. -/
inductive Simple : Tree (Entry F) → Prop where
  | chain (t : Str) (ht : t ≠ []) (c : Tree (Entry F)) : Chain t c → Simple c
  | inner (x : F) (cs : List (Tree (Entry F))) (h : ∀ c ∈ cs, Simple c) : Simple (.node ([], x) cs)

/-- Every node that names a table has at most one child. -/
inductive Narrow : Tree (Entry F) → Prop where
  | node (n : Entry F) (cs : List (Tree (Entry F))) (h : n.1 ≠ [] → cs.length ≤ 1)
      (hc : ∀ c ∈ cs, Narrow c) : Narrow (.node n cs)

/-! ## Lemmas -/

theorem readAll_some (es : List (Entry F)) : readAll (es.map some) = .ok es := by
  induction es with
  | nil => rfl
  | cons e r ih => rw [List.map_cons, readAll, ih]

theorem readAll_ok (l : List (Option (Entry F))) : ∀ es, readAll l = .ok es → l = es.map some := by
  induction l with
  | nil => intro es h; cases h; rfl
  | cons o r ih =>
    intro es h
    cases o with
    | none => cases h
    | some e =>
      rw [readAll] at h
      cases hr : readAll r with
      | error x => rw [hr] at h; cases h
      | ok es' =>
        rw [hr] at h; cases h
        rw [ih es' hr]; rfl

theorem readAll_panic (l : List (Option (Entry F))) :
    readAll l = .error .panic ↔ none ∈ l := by
  induction l with
  | nil => simp [readAll]
  | cons o r ih =>
    cases o with
    | none => simp [readAll]
    | some e =>
      rw [readAll]
      cases hr : readAll r with
      | error x =>
        cases x
        simp only [List.mem_cons, reduceCtorEq, false_or, true_iff]
        exact ih.mp hr
      | ok es' =>
        simp only [reduceCtorEq, List.mem_cons, false_or, false_iff]
        intro h
        rw [ih.mpr h] at hr; cases hr

/-- the current tree is headed by an ancestor in the run of nodes just above -/
def CurOk (path : List (Entry F)) (cur : Option (Entry F)) : Prop :=
  ∀ e, cur = some e → e.1 ≠ [] ∧ e ∈ path.takeWhile (fun a => a.1 = e.1)

theorem enter_curOk (path : List (Entry F)) (n : Entry F) (cur : Option (Entry F))
    (h : CurOk path cur) : CurOk (n :: path) (enter n cur).2.1 := by
  intro e he
  cases cur with
  | none =>
    rw [enter] at he
    split at he
    · rename_i hn; cases he; exact ⟨hn, by simp [List.takeWhile_cons]⟩
    · cases he
  | some e0 =>
    rw [enter] at he
    split at he
    · rename_i hn
      cases he
      obtain ⟨h1, h2⟩ := h e rfl
      exact ⟨h1, by simp [List.takeWhile_cons, hn, h2]⟩
    · split at he
      · rename_i hn; cases he; exact ⟨hn, by simp [List.takeWhile_cons]⟩
      · cases he

theorem curOk_none (path : List (Entry F)) : CurOk path none := by intro e h; cases h

/-- soundness: appended entries are the current tree or nodes that name a table -/
def FromNodes (out : List (Option (Entry F))) (cur : Option (Entry F)) (nodes : List (Entry F)) : Prop :=
  ∀ e, some e ∈ out → cur = some e ∨ (e ∈ nodes ∧ e.1 ≠ [])

mutual
theorem visit_sound : ∀ (t : Tree (Entry F)) (cur : Option (Entry F)),
    FromNodes (visit t cur).1 cur t.pre
  | .node n cs, cur => by
    have h1 : ∀ e, some e ∈ (enter n cur).1 → cur = some e := by
      intro e he
      cases cur with
      | none => rw [enter] at he; split at he <;> simp at he
      | some e0 =>
        rw [enter] at he
        split at he
        · simp at he
        · split at he
          · simp at he; rw [he]
          · simp at he; rw [he]
    have h2 : ∀ e, (enter n cur).2.1 = some e → cur = some e ∨ (e = n ∧ e.1 ≠ []) := by
      intro e he
      cases cur with
      | none =>
        rw [enter] at he
        split at he
        · rename_i hn; cases he; exact .inr ⟨rfl, hn⟩
        · cases he
      | some e0 =>
        rw [enter] at he
        split at he
        · cases he; exact .inl rfl
        · split at he
          · rename_i hn; cases he; exact .inr ⟨rfl, hn⟩
          · cases he
    intro e he
    rw [visit] at he
    rw [Tree.pre]
    simp only at he
    split at he
    · rcases List.mem_append.mp he with he | he
      · exact .inl (h1 e he)
      · rw [List.mem_singleton] at he
        rcases h2 e he.symm with h | ⟨rfl, h⟩
        · exact .inl h
        · exact .inr ⟨by simp, h⟩
    · rcases List.mem_append.mp he with he | he
      · exact .inl (h1 e he)
      · rcases visitL_sound _ cs _ _ e he with h | ⟨h, h'⟩
        · rcases h2 e h with h3 | ⟨h3, h4⟩
          · exact .inl h3
          · exact .inr ⟨by simp [h3], h4⟩
        · exact .inr ⟨by simp [h], h'⟩
theorem visitL_sound (isRoot : Bool) : ∀ (cs : List (Tree (Entry F))) (cur : Option (Entry F))
    (used : Bool), FromNodes (visitL isRoot cs cur used).1 cur (preL cs)
  | [], cur, used => by intro e he; rw [visitL] at he; cases he
  | c :: cs, cur, used => by
    intro e he
    rw [visitL] at he
    rw [preL]
    simp only at he
    have hc := visit_sound c cur e
    split at he
    · simp only [List.mem_append] at he
      rcases he with he | he | he
      · rcases hc he with h | ⟨h, h'⟩
        · exact .inl h
        · exact .inr ⟨by simp [h], h'⟩
      · split at he
        · rw [List.mem_singleton] at he; exact .inl he.symm
        · cases he
      · rcases visitL_sound isRoot cs none true e he with h | ⟨h, h'⟩
        · cases h
        · exact .inr ⟨by simp [h], h'⟩
    · simp only [List.mem_append] at he
      rcases he with he | he
      · rcases hc he with h | ⟨h, h'⟩
        · exact .inl h
        · exact .inr ⟨by simp [h], h'⟩
      · rcases visitL_sound isRoot cs cur used e he with h | ⟨h, h'⟩
        · exact .inl h
        · exact .inr ⟨by simp [h], h'⟩
end

/-- coverage: every node with a table is represented in the entries or by the current tree -/
def Covered (out : List (Option (Entry F))) (cur : Option (Entry F))
    (nodes : List (List (Entry F) × Entry F)) : Prop :=
  ∀ p ∈ nodes, p.2.1 ≠ [] → ∃ e ∈ runUp p.1 p.2, some e ∈ out ∨ cur = some e

theorem visitL_used (isRoot : Bool) : ∀ (cs : List (Tree (Entry F))) (cur : Option (Entry F)),
    (visitL isRoot cs cur true).2 = true
  | [], cur => by rw [visitL]
  | c :: cs, cur => by
    rw [visitL]
    simp only
    split
    · exact visitL_used isRoot cs none
    · exact visitL_used isRoot cs cur

mutual
theorem visit_covers : ∀ (t : Tree (Entry F)) (cur : Option (Entry F)) (path : List (Entry F)),
    CurOk path cur →
    Covered (visit t cur).1 cur (t.withPath path) ∧
      ∀ e, cur = some e → some e ∈ (visit t cur).1 ∨ (visit t cur).2 = true
  | .node n cs, cur, path, hok => by
    have hok' := enter_curOk path n cur hok
    -- on entering: a root has itself as current tree; otherwise the node has no table, or goes on
    have key : ((enter n cur).2.2.1 = true ∧ (enter n cur).2.1 = some n ∧
          ∀ e, cur = some e → some e ∈ (enter n cur).1) ∨
        ((enter n cur).2.2.1 = false ∧ n.1 = [] ∧ (enter n cur).2.1 = none ∧
          ∀ e, cur = some e → some e ∈ (enter n cur).1) ∨
        (∃ e, cur = some e ∧ n.1 = e.1 ∧ (enter n cur).2 = (some e, false, true)) := by
      cases cur with
      | none =>
        rw [enter]
        split
        · exact .inl ⟨rfl, rfl, by simp⟩
        · rename_i hn
          exact .inr (.inl ⟨rfl, by simpa using hn, rfl, by simp⟩)
      | some e0 =>
        rw [enter]
        split
        · rename_i hn; exact .inr (.inr ⟨e0, rfl, hn, rfl⟩)
        · split
          · exact .inl ⟨rfl, rfl, by simp⟩
          · rename_i hn
            exact .inr (.inl ⟨rfl, by simpa using hn, rfl, by simp⟩)
    rw [visit]
    simp only
    rcases key with ⟨hroot, hcur, hin⟩ | ⟨hroot, hn, hcur, hin⟩ | ⟨e, he, hn, henter⟩
    · -- a new tree starts here
      cases cs with
      | nil =>
        simp only [List.isEmpty_nil, hroot, Bool.and_self, if_true]
        refine ⟨?_, ?_⟩
        · intro p hp _
          rw [Tree.withPath, withPathL, List.mem_singleton] at hp
          subst hp
          exact ⟨n, by simp [runUp], .inl (by simp [hcur])⟩
        · intro e he; exact .inl (by simp [hin e he])
      | cons c cs =>
        simp only [List.isEmpty_cons, Bool.false_and, Bool.false_eq_true, if_false]
        obtain ⟨k1, k2⟩ := visitL_covers (enter n cur).2.2.1 (c :: cs) (enter n cur).2.1
          (enter n cur).2.2.2 (n :: path) hok'
        have hmem : some n ∈ (visitL (enter n cur).2.2.1 (c :: cs) (enter n cur).2.1
            (enter n cur).2.2.2).1 := k2 hroot (by simp) n hcur
        refine ⟨?_, ?_⟩
        · intro p hp hne
          rw [Tree.withPath, List.mem_cons] at hp
          rcases hp with rfl | hp
          · exact ⟨n, by simp [runUp], .inl (by simp [hmem])⟩
          · obtain ⟨e, he1, he2 | he2⟩ := k1 p hp hne
            · exact ⟨e, he1, .inl (by simp [he2])⟩
            · rw [hcur] at he2
              cases he2
              exact ⟨n, he1, .inl (by simp [hmem])⟩
        · intro e he; exact .inl (by simp [hin e he])
    · -- no table here, nothing current
      simp only [hroot, Bool.and_false, Bool.false_eq_true, if_false]
      obtain ⟨k1, k2⟩ := visitL_covers false cs (enter n cur).2.1
          (enter n cur).2.2.2 (n :: path) hok'
      refine ⟨?_, ?_⟩
      · intro p hp hne
        rw [Tree.withPath, List.mem_cons] at hp
        rcases hp with rfl | hp
        · exact absurd hn hne
        · obtain ⟨e, he1, he2 | he2⟩ := k1 p hp hne
          · exact ⟨e, he1, .inl (by simp [he2])⟩
          · rw [hcur] at he2; cases he2
      · intro e he; exact .inl (by simp [hin e he])
    · -- the node goes on with the current tree
      subst he
      have q1 : (enter n (some e)).2.1 = some e := by rw [henter]
      have q2 : (enter n (some e)).2.2.1 = false := by rw [henter]
      have q3 : (enter n (some e)).2.2.2 = true := by rw [henter]
      rw [q1] at hok'
      simp only [q1, q2, q3, Bool.and_false, Bool.false_eq_true, if_false]
      obtain ⟨k1, k2⟩ := visitL_covers false cs (some e) true (n :: path) hok'
      refine ⟨?_, ?_⟩
      · intro p hp hne
        rw [Tree.withPath, List.mem_cons] at hp
        rcases hp with rfl | hp
        · refine ⟨e, ?_, .inr rfl⟩
          have := (hok e rfl).2
          rw [runUp, List.mem_cons]
          right
          simpa [hn] using this
        · obtain ⟨e', he1, he2 | he2⟩ := k1 p hp hne
          · exact ⟨e', he1, .inl (by simp [he2])⟩
          · exact ⟨e', he1, .inr he2⟩
      · intro e' _; exact .inr (visitL_used false cs (some e))
theorem visitL_covers (isRoot : Bool) : ∀ (cs : List (Tree (Entry F))) (cur : Option (Entry F))
    (used : Bool) (path : List (Entry F)), CurOk path cur →
    Covered (visitL isRoot cs cur used).1 cur (withPathL path cs) ∧
      (isRoot = true → cs ≠ [] → ∀ e, cur = some e → some e ∈ (visitL isRoot cs cur used).1)
  | [], cur, used, path, hok => by
    refine ⟨?_, ?_⟩
    · intro p hp; rw [withPathL] at hp; cases hp
    · intro _ h; exact absurd rfl h
  | c :: cs, cur, used, path, hok => by
    obtain ⟨k1, k2⟩ := visit_covers c cur path hok
    rw [visitL]
    simp only
    by_cases hu : (visit c cur).2 = true
    · simp only [hu, if_true]
      obtain ⟨m1, _⟩ := visitL_covers isRoot cs none true path (curOk_none path)
      refine ⟨?_, ?_⟩
      · intro p hp hne
        rw [withPathL, List.mem_append] at hp
        rcases hp with hp | hp
        · obtain ⟨e, he1, he2 | he2⟩ := k1 p hp hne
          · exact ⟨e, he1, .inl (by simp [he2])⟩
          · exact ⟨e, he1, .inr he2⟩
        · obtain ⟨e, he1, he2 | he2⟩ := m1 p hp hne
          · exact ⟨e, he1, .inl (by simp [he2])⟩
          · cases he2
      · intro hr _ e he
        simp [hr, he]
    · simp only [hu, Bool.false_eq_true, if_false]
      obtain ⟨m1, _⟩ := visitL_covers isRoot cs cur used path hok
      refine ⟨?_, ?_⟩
      · intro p hp hne
        rw [withPathL, List.mem_append] at hp
        rcases hp with hp | hp
        · obtain ⟨e, he1, he2 | he2⟩ := k1 p hp hne
          · exact ⟨e, he1, .inl (by simp [he2])⟩
          · exact ⟨e, he1, .inr he2⟩
        · obtain ⟨e, he1, he2 | he2⟩ := m1 p hp hne
          · exact ⟨e, he1, .inl (by simp [he2])⟩
          · exact ⟨e, he1, .inr he2⟩
      · intro _ _ e he
        rcases k2 e he with h | h
        · simp [h]
        · exact absurd h hu
end

/-! ## Theorems -/

/-- C25: every listed entry is the table and the time of a plan node that names a table. -/
theorem C25_sound_partial (t : Tree (Entry F)) (es : List (Entry F)) (h : build t = .ok es) :
    ∀ e ∈ es, e ∈ t.pre ∧ e.1 ≠ [] := by
  intro e he
  have h' := readAll_ok _ es h
  rcases visit_sound t none e (by rw [h']; exact List.mem_map_of_mem he) with h | h
  · cases h
  · exact h

/-- C25: every plan node that names a table is represented: some entry is the node itself or an
ancestor from which all nodes down to it are on the same table. -/
theorem C25_covers (t : Tree (Entry F)) (es : List (Entry F)) (h : build t = .ok es) :
    ∀ p ∈ t.withPath [], p.2.1 ≠ [] → ∃ e ∈ runUp p.1 p.2, e ∈ es := by
  intro p hp hne
  have h' := readAll_ok _ es h
  obtain ⟨e, he, h2 | h2⟩ := (visit_covers t none [] (curOk_none _)).1 p hp hne
  · rw [h'] at h2
    obtain ⟨x, hx, hxe⟩ := List.mem_map.mp h2
    cases hxe
    exact ⟨e, he, hx⟩
  · cases h2

theorem chain_visit (t : Str) (c : Tree (Entry F)) (h : Chain t c) (e : Entry F) (he : e.1 = t) :
    visit c (some e) = ([], true) := by
  induction h with
  | leaf x =>
    rw [visit]
    simp only [enter, he, if_true, List.isEmpty_nil, Bool.and_false, Bool.false_eq_true, if_false,
      visitL, List.append_nil]
  | up x c _ ih =>
    rw [visit]
    simp only [enter, he, if_true, List.isEmpty_cons, Bool.and_false, Bool.false_eq_true, if_false,
      visitL, ih, List.append_nil]

theorem chain_tops (t : Str) (ht : t ≠ []) (c : Tree (Entry F)) (h : Chain t c) :
    visit c none = ((tops c).map some, (visit c none).2) := by
  cases h with
  | leaf x => rw [visit]; simp [enter, ht, tops]
  | up x c hc =>
    rw [visit]
    simp [enter, ht, tops, visitL, chain_visit t c hc (t, x) rfl]

mutual
theorem simple_visit : ∀ (t : Tree (Entry F)), Simple t → (visit t none).1 = (tops t).map some
  | .node n cs, h => by
    cases h with
    | chain t ht c hc => rw [chain_tops t ht _ hc]
    | inner x cs h =>
      rw [visit]
      simp only [enter, ne_eq, not_true_eq_false, if_false, Bool.and_false, Bool.false_eq_true,
        List.nil_append, tops, if_true]
      exact simpleL_visit cs h false
theorem simpleL_visit : ∀ (cs : List (Tree (Entry F))), (∀ c ∈ cs, Simple c) → ∀ used : Bool,
    (visitL false cs none used).1 = (topsL cs).map some
  | [], _, used => by simp [visitL, topsL]
  | c :: cs, h, used => by
    rw [visitL, topsL]
    simp only [Bool.false_eq_true, if_false, List.nil_append]
    have h1 := simple_visit c (h c (by simp))
    split
    · rw [h1, simpleL_visit cs (fun x hx => h x (by simp [hx])) true]; simp
    · rw [h1, simpleL_visit cs (fun x hx => h x (by simp [hx])) used]; simp
end

/-- C25: on plans whose table-bearing nodes form single chains (a scan with filters above it), the
list is exactly the topmost nodes of the chains, each once, in textual order. -/
theorem C25_once_partial (t : Tree (Entry F)) (h : Simple t) : build t = .ok (tops t) := by
  rw [build, simple_visit t h, readAll_some]

/-! ### C53: no panic -/

mutual
theorem narrow_visit : ∀ (t : Tree (Entry F)), Narrow t → ∀ cur : Option (Entry F),
    none ∉ (visit t cur).1
  | .node n cs, h, cur => by
    cases h with
    | node n cs hl hc =>
      have h1 : none ∉ (enter n cur).1 := by
        cases cur with
        | none => rw [enter]; split <;> simp
        | some e => rw [enter]; split; · simp
                    · split <;> simp
      have h2 : (enter n cur).2.2.1 = true → n.1 ≠ [] ∧ (enter n cur).2.1 = some n := by
        intro h
        cases cur with
        | none =>
          rw [enter] at h ⊢
          split
          · rename_i hn; exact ⟨hn, rfl⟩
          · rename_i hn; rw [if_neg hn] at h; cases h
        | some e =>
          rw [enter] at h ⊢
          split
          · rename_i hn; rw [if_pos hn] at h; cases h
          · rename_i hn
            rw [if_neg hn] at h
            split
            · rename_i hn'; exact ⟨hn', rfl⟩
            · rename_i hn'; rw [if_neg hn'] at h; cases h
      rw [visit]
      simp only
      split
      · rename_i hx
        have hr : (enter n cur).2.2.1 = true := by
          rw [Bool.and_eq_true] at hx; exact hx.2
        rw [(h2 hr).2]
        simp [h1]
      · rw [List.mem_append]
        rintro (hx | hx)
        · exact h1 hx
        · by_cases hr : (enter n cur).2.2.1 = true
          · obtain ⟨hn, hcur⟩ := h2 hr
            have := hl hn
            match cs, this, hc, hx with
            | [], _, _, hx => rw [visitL] at hx; cases hx
            | [c], _, hc, hx =>
              rw [hr, hcur, visitL] at hx
              simp only [visitL] at hx
              have hv := narrow_visit c (hc c (by simp)) (some n)
              split at hx
              · simp [hv] at hx
              · simp [hv] at hx
          · have hr' : (enter n cur).2.2.1 = false := by simpa using hr
            rw [hr'] at hx
            exact narrowL_visit cs hc _ _ hx
theorem narrowL_visit : ∀ (cs : List (Tree (Entry F))), (∀ c ∈ cs, Narrow c) →
    ∀ (cur : Option (Entry F)) (used : Bool), none ∉ (visitL false cs cur used).1
  | [], _, cur, used => by rw [visitL]; simp
  | c :: cs, h, cur, used => by
    rw [visitL]
    simp only [Bool.false_eq_true, if_false, List.nil_append]
    have h1 := narrow_visit c (h c (by simp)) cur
    split
    · have h2 := narrowL_visit cs (fun x hx => h x (by simp [hx])) none true
      simp [h1, h2]
    · have h2 := narrowL_visit cs (fun x hx => h x (by simp [hx])) cur used
      simp [h1, h2]
end

/-- C53: the list is computed without a panic when no node that names a table has two children. -/
theorem C53_no_panic_partial (t : Tree (Entry F)) (h : Narrow t) : ∃ es, build t = .ok es := by
  cases hb : build t with
  | ok es => exact ⟨es, rfl⟩
  | error x =>
    cases x
    exact absurd ((readAll_panic _).mp hb) (narrow_visit t h none)

end

/-! ### Concrete plans -/

/-- nodes with a numbered table and a time -/
def nd (t : Str) (x : Nat) (cs : List (Tree (Entry Nat))) : Tree (Entry Nat) := .node (t, x) cs

/-- Nested loop of a filtered scan of `a` and a scan of `b`: the good case. -/
def exGood : Tree (Entry Nat) := nd [] 9 [nd ['a'] 4 [nd ['a'] 3 []], nd [] 5 [nd ['b'] 2 []]]

example : Simple exGood := .inner _ _ (by
  intro c hc
  simp only [List.mem_cons, List.not_mem_nil, or_false] at hc
  rcases hc with rfl | rfl
  · exact .chain ['a'] (by simp) _ (.up _ _ (.leaf _))
  · refine .inner _ _ ?_
    intro c hc
    simp only [List.mem_cons, List.not_mem_nil, or_false] at hc
    subst hc
    exact .chain ['b'] (by simp) _ (.leaf _))

example : build exGood = .ok [(['a'], 4), (['b'], 2)] := by decide +kernel

/-- "No entry is listed twice" fails: a node on `a` above a chain on `b` is listed twice. -/
theorem C25_listed_twice :
    build (nd ['a'] 7 [nd ['b'] 3 [nd ['b'] 2 []]]) =
      .ok [(['a'], 7), (['b'], 3), (['a'], 7)] := by decide +kernel

/-- "Only the topmost node of a run" fails: the second child of a node on `a` is listed although
its parent is on the same table. -/
theorem C25_not_topmost :
    build (nd ['a'] 7 [nd ['a'] 3 [], nd ['a'] 2 []]) = .ok [(['a'], 7), (['a'], 2)] := by
  decide +kernel

/-- C53 fails in general: a scan of `a` with two sub plans, the first on `a` and the second a
filtered scan of `b`, crashes the computation (nil pointer). -/
theorem C53_panics :
    build (nd ['a'] 7 [nd ['a'] 3 [], nd ['b'] 5 [nd ['b'] 2 []]]) = .error .panic := by
  decide +kernel

end Verif.SingleTable
