import Verif.Builder.Spec
import Mathlib.Data.List.Perm.Subperm
import Mathlib.Data.List.Nodup
/-! # Lemmas on column combinations -/
namespace Verif.Builder
open Verif.Index Verif.Lib Spec

/-! ### String order -/

theorem not_lt_iff_le (a b : Name) : ¬(b < a) ↔ a ≤ b := List.not_lt

theorem gt_false_iff (a b : Name) : gt a b = false ↔ a ≤ b := by
  simp [gt, not_lt_iff_le]

theorem name_le_trans {a b c : Name} (h : a ≤ b) (h' : b ≤ c) : a ≤ c := List.le_trans h h'
theorem name_le_antisymm {a b : Name} (h : a ≤ b) (h' : b ≤ a) : a = b := List.le_antisymm h h'

/-! ### Combinations -/

/-- An arrangement of usable columns of `s`. -/
def Arr (s ys : List FieldColumn) : Prop :=
  ys ≠ [] ∧ ys.Nodup ∧ ∀ y ∈ ys, y ∈ s ∧ usable y = true

theorem mem_composite (ord : Order) (hord : AnyOrder ord) (depth : Nat) (path : List Nat)
    (s : List FieldColumn) (hs : s.Nodup) (hd : s.length ≤ depth) (xs : List IndexField) :
    xs ∈ composite ord depth path s ↔ ∃ ys, Arr s ys ∧ xs = ys.map (·.toIndexField) := by
  induction depth generalizing path s xs with
  | zero =>
    have : s = [] := List.length_eq_zero_iff.mp (by omega)
    subst this
    simp only [composite, List.not_mem_nil, false_iff]
    rintro ⟨ys, ⟨hne, _, hm⟩, _⟩
    cases ys with
    | nil => exact hne rfl
    | cons y _ => simpa using (hm y (by simp)).1
  | succ depth ih =>
    have hlen : ∀ fc ∈ s, (s.erase fc).length ≤ depth := by
      intro fc hfc; rw [List.length_erase_of_mem hfc]; omega
    have hmemord : ∀ fc, fc ∈ ord path s ↔ fc ∈ s := fun fc => (hord path s).mem_iff
    simp only [composite, List.mem_flatMap]
    constructor
    · rintro ⟨⟨fc, i⟩, hp, hx⟩
      have hfc : fc ∈ s := (hmemord fc).mp (List.fst_mem_of_mem_zipIdx hp)
      by_cases hu : usable fc = true
      · simp only [hu, if_true, List.cons_append, List.nil_append, List.mem_cons, List.mem_map] at hx
        rcases hx with rfl | ⟨zs, hz, rfl⟩
        · exact ⟨[fc], ⟨by simp, by simp, by simp [hfc, hu]⟩, rfl⟩
        · obtain ⟨ys, ⟨hne, hnd, hm⟩, rfl⟩ :=
            (ih (path ++ [i]) (s.erase fc) (hs.erase fc) (hlen fc hfc) zs).mp hz
          refine ⟨ys ++ [fc], ⟨by simp, ?_, ?_⟩, by simp⟩
          · rw [List.nodup_append]
            refine ⟨hnd, by simp, ?_⟩
            intro a ha b hb hab
            simp only [List.mem_singleton] at hb
            subst hb; subst hab
            exact (hs.not_mem_erase) (hm _ ha).1
          · intro y hy
            rcases List.mem_append.mp hy with hy | hy
            · exact ⟨List.mem_of_mem_erase (hm y hy).1, (hm y hy).2⟩
            · simp only [List.mem_singleton] at hy; subst hy; exact ⟨hfc, hu⟩
      · simp [hu] at hx
    · rintro ⟨ys, ⟨hne, hnd, hm⟩, rfl⟩
      obtain ⟨zs, fc, rfl⟩ : ∃ zs fc, ys = zs ++ [fc] :=
        ⟨ys.dropLast, ys.getLast hne, (List.dropLast_concat_getLast hne).symm⟩
      have hfc := hm fc (by simp)
      obtain ⟨i, hi⟩ : ∃ i, (fc, i) ∈ (ord path s).zipIdx := by
        obtain ⟨i, hi, e⟩ := List.getElem_of_mem ((hmemord fc).mpr hfc.1)
        exact ⟨i, by rw [List.mk_mem_zipIdx_iff_getElem?]; simp [hi, e]⟩
      refine ⟨(fc, i), hi, ?_⟩
      simp only [hfc.2, if_true, List.cons_append, List.nil_append, List.mem_cons, List.mem_map]
      by_cases hz : zs = []
      · left; simp [hz]
      · right
        rw [List.nodup_append] at hnd
        refine ⟨zs.map (·.toIndexField), ?_, by simp⟩
        rw [ih (path ++ [i]) (s.erase fc) (hs.erase fc) (hlen fc hfc.1)]
        refine ⟨zs, ⟨hz, hnd.1, ?_⟩, rfl⟩
        intro y hy
        refine ⟨?_, (hm y (by simp [hy])).2⟩
        rw [hs.mem_erase_iff]
        exact ⟨hnd.2.2 y hy fc (by simp), (hm y (by simp [hy])).1⟩

theorem composite_nodup (ord : Order) (hord : AnyOrder ord) (depth : Nat) (path : List Nat)
    (s : List FieldColumn) (hs : DistinctNames s) (hd : s.length ≤ depth) :
    (composite ord depth path s).Nodup := by
  induction depth generalizing path s with
  | zero => simp [composite]
  | succ depth ih =>
    have hsn : s.Nodup := hs.of_map
    simp only [composite, List.nodup_iff_pairwise_ne, List.pairwise_flatMap]
    constructor
    · rintro ⟨fc, i⟩ hp
      have hfc : fc ∈ s := (hord path s).mem_iff.mp (List.fst_mem_of_mem_zipIdx hp)
      have hlen : (s.erase fc).length ≤ depth := by rw [List.length_erase_of_mem hfc]; omega
      by_cases hu : usable fc = true
      · simp only [hu, if_true, List.cons_append, List.nil_append, List.pairwise_cons]
        constructor
        · intro a ha
          obtain ⟨zs, hz, rfl⟩ := List.mem_map.mp ha
          obtain ⟨ys, ⟨hne, _⟩, rfl⟩ :=
            (mem_composite ord hord depth _ _ (hsn.erase fc) hlen zs).mp hz
          intro e
          have := congrArg List.length e
          simp at this
          exact hne this
        · rw [List.pairwise_map]
          have := ih (path ++ [i]) (s.erase fc)
            (List.Nodup.sublist (List.Sublist.map _ List.erase_sublist) hs) hlen
          rw [List.nodup_iff_pairwise_ne] at this
          exact this.imp (fun h e => h (List.append_cancel_right e))
      · simp [hu]
    · have hpw : (ord path s).Pairwise (fun a b => a.name ≠ b.name) := by
        have : ((ord path s).map (·.name)).Nodup := ((hord path s).map _).nodup_iff.mpr hs
        rw [List.nodup_iff_pairwise_ne, List.pairwise_map] at this
        exact this
      have hpw' : (ord path s).zipIdx.Pairwise (fun a b => a.1.name ≠ b.1.name) := by
        have h := hpw
        rw [← List.zipIdx_map_fst 0 (ord path s), List.pairwise_map] at h
        exact h
      refine hpw'.imp ?_
      rintro ⟨a, i⟩ ⟨b, j⟩ hab x hx y hy e
      subst e
      have last : ∀ (c : FieldColumn) (k : Nat),
          x ∈ (if usable c = true then [[c.toIndexField]] ++
            (composite ord depth (path ++ [k]) (s.erase c)).map (· ++ [c.toIndexField]) else []) →
          x.getLast? = some c.toIndexField := by
        intro c k hc
        split at hc
        · simp only [List.cons_append, List.nil_append, List.mem_cons, List.mem_map] at hc
          rcases hc with rfl | ⟨zs, _, rfl⟩
          · rfl
          · simp
        · simp at hc
      have h1 := last a i hx
      have h2 := last b j hy
      rw [h1] at h2
      exact hab (by simpa [FieldColumn.toIndexField] using congrArg (Option.map (·.name)) h2)

/-! ### Efficiency -/

theorem refTail_iff (prev : IndexField) (r : List IndexField) :
    refTail prev r = true ↔
      (∀ f ∈ r, f.type = .reference) ∧ (prev :: r).Pairwise (fun a b => a.name ≤ b.name) := by
  induction r generalizing prev with
  | nil => simp [refTail]
  | cons f r ih =>
    simp only [refTail]
    by_cases ht : f.type = .reference
    · simp only [ht, ne_eq, not_true_eq_false, if_false]
      by_cases hg : gt prev.name f.name = true
      · simp only [hg, if_true, Bool.false_eq_true, false_iff]
        rintro ⟨_, hp⟩
        have h1 := (List.pairwise_cons.mp hp).1 f (by simp)
        have := (gt_false_iff _ _).mpr h1
        rw [this] at hg; cases hg
      · simp only [hg, Bool.false_eq_true, if_false, ih]
        have hle := (gt_false_iff _ _).mp (by simpa using hg)
        constructor
        · rintro ⟨h1, h2⟩
          refine ⟨by simpa [ht] using h1, ?_⟩
          rw [List.pairwise_cons]
          refine ⟨?_, h2⟩
          intro g hgm
          rcases List.mem_cons.mp hgm with rfl | hgm
          · exact hle
          · exact name_le_trans hle ((List.pairwise_cons.mp h2).1 g hgm)
        · rintro ⟨h1, h2⟩
          exact ⟨fun g hgm => h1 g (by simp [hgm]), (List.pairwise_cons.mp h2).2⟩
    · simp only [ht, ne_eq, not_false_eq_true, if_true, Bool.false_eq_true, false_iff]
      rintro ⟨h, _⟩; exact ht (h f (by simp))

theorem efficientLoop_refs (r : List IndexField) (h : ∀ f ∈ r, f.type = .reference)
    (hp : r.Pairwise (fun a b => a.name ≤ b.name)) : efficientLoop true r = true := by
  induction r with
  | nil => rfl
  | cons f r ih =>
    have h1 : refTail f r = true := (refTail_iff f r).mpr ⟨fun g hg => h g (by simp [hg]), hp⟩
    simp only [efficientLoop, h f (by simp), h1]
    simpa using ih (fun g hg => h g (by simp [hg])) (List.pairwise_cons.mp hp).2

theorem efficientLoop_iff (full : Bool) (l : List IndexField) :
    efficientLoop full l = true ↔ (∀ f ∈ l, f.type ≠ .reference) ∨
      (full = true ∧ ∃ a b, l = a ++ b ∧ (∀ f ∈ a, f.type ≠ .reference) ∧
        (∀ f ∈ b, f.type = .reference) ∧ b.Pairwise (fun a b => a.name ≤ b.name)) := by
  induction l with
  | nil => simp [efficientLoop]
  | cons f r ih =>
    simp only [efficientLoop]
    by_cases ht : f.type = .reference
    · simp only [ht, ne_eq, not_true_eq_false, if_false]
      cases full with
      | false =>
        simp [ht]
      | true =>
        simp only [Bool.not_true, Bool.false_eq_true, if_false]
        by_cases hr : refTail f r = true
        · have := (refTail_iff f r).mp hr
          simp only [hr, if_true]
          rw [efficientLoop_refs r this.1 (List.pairwise_cons.mp this.2).2]
          simp only [true_iff]
          exact .inr ⟨trivial, [], f :: r, rfl, by simp, by simpa [ht] using this.1, this.2⟩
        · simp only [hr, if_false, Bool.false_eq_true, false_iff]
          rintro (h | ⟨_, a, b, he, ha, hb, hp⟩)
          · exact h f (by simp) ht
          · cases a with
            | cons g a =>
              simp only [List.cons_append, List.cons.injEq] at he
              exact ha f (by simp [he.1]) ht
            | nil =>
              simp only [List.nil_append] at he
              subst he
              exact hr ((refTail_iff f r).mpr ⟨fun g hg => hb g (by simp [hg]), hp⟩)
    · simp only [ht, ne_eq, not_false_eq_true, if_true, ih]
      constructor
      · rintro (h | ⟨hf, a, b, he, ha, hb, hp⟩)
        · left; simpa [ht] using h
        · exact .inr ⟨hf, f :: a, b, by simp [he], by simpa [ht] using ha, hb, hp⟩
      · rintro (h | ⟨hf, a, b, he, ha, hb, hp⟩)
        · left; exact fun g hg => h g (by simp [hg])
        · cases a with
          | cons g a =>
            simp only [List.cons_append, List.cons.injEq] at he
            exact .inr ⟨hf, a, b, he.2, fun g hg => ha g (by simp [hg]), hb, hp⟩
          | nil =>
            simp only [List.nil_append] at he
            subst he
            exact absurd (hb f (by simp)) ht

theorem full_iff {s ys : List FieldColumn} (hys : ys.Nodup) (hs : s.Nodup)
    (hsub : ∀ y ∈ ys, y ∈ s) : ys.length = s.length ↔ ∀ c ∈ s, c ∈ ys := by
  have hsp : ys.Subperm s := List.subperm_of_subset hys hsub
  constructor
  · intro h c hc
    exact (hsp.perm_of_length_le (by omega)).mem_iff.mpr hc
  · intro h
    have h2 : s.Subperm ys := List.subperm_of_subset hs h
    exact Nat.le_antisymm hsp.length_le h2.length_le

theorem usable_iff (c : FieldColumn) :
    usable c = true ↔ c.type = .reference ∨ c.type = .condition := by
  simp [usable]

theorem mem_extractEfficient (ord : Order) (hord : AnyOrder ord) (path : List Nat)
    (s : List FieldColumn) (hs : s.Nodup) (xs : List IndexField) :
    xs ∈ extractEfficient ord path s ↔ ∃ ys, Efficient s ys ∧ xs = ys.map (·.toIndexField) := by
  simp only [extractEfficient, List.mem_filter, mem_composite ord hord s.length path s hs
    (Nat.le_refl _)]
  constructor
  · rintro ⟨⟨ys, ⟨hne, hnd, hm⟩, rfl⟩, he⟩
    refine ⟨ys, ⟨hne, hnd, fun c hc => (hm c hc).1, ?_⟩, rfl⟩
    rcases (efficientLoop_iff _ _).mp he with h | ⟨hf, a, b, hab, ha, hb, hp⟩
    · left
      intro c hc
      rcases (usable_iff c).mp (hm c hc).2 with h' | h'
      · exact absurd h' (h c.toIndexField (List.mem_map.mpr ⟨c, hc, rfl⟩))
      · exact h'
    · right
      obtain ⟨conds, refs, rfl, rfl, rfl⟩ := List.map_eq_append_iff.mp hab
      refine ⟨?_, conds, refs, rfl, ?_, ?_, ?_⟩
      · simp only [List.length_map, decide_eq_true_eq] at hf
        exact (full_iff hnd hs (fun y hy => (hm y hy).1)).mp hf
      · intro c hc
        rcases (usable_iff c).mp (hm c (by simp [hc])).2 with h' | h'
        · exact absurd h' (ha c.toIndexField (List.mem_map.mpr ⟨c, hc, rfl⟩))
        · exact h'
      · intro c hc
        exact hb c.toIndexField (List.mem_map.mpr ⟨c, hc, rfl⟩)
      · rw [List.pairwise_map] at hp; exact hp
  · rintro ⟨ys, ⟨hne, hnd, hm, hor⟩, rfl⟩
    refine ⟨⟨ys, ⟨hne, hnd, ?_⟩, rfl⟩, ?_⟩
    · intro y hy
      refine ⟨hm y hy, (usable_iff y).mpr ?_⟩
      rcases hor with h | ⟨_, conds, refs, rfl, hc, hr, _⟩
      · exact .inr (h y hy)
      · rcases List.mem_append.mp hy with hy | hy
        · exact .inr (hc y hy)
        · exact .inl (hr y hy)
    · rw [efficientLoop_iff]
      rcases hor with h | ⟨hall, conds, refs, rfl, hc, hr, hp⟩
      · left
        intro f hf
        obtain ⟨c, hc, rfl⟩ := List.mem_map.mp hf
        simp [FieldColumn.toIndexField, h c hc]
      · right
        refine ⟨?_, conds.map (·.toIndexField), refs.map (·.toIndexField), by simp, ?_, ?_, ?_⟩
        · rw [decide_eq_true_eq, List.length_map]
          exact (full_iff hnd hs hm).mpr hall
        · intro f hf
          obtain ⟨c, hcm, rfl⟩ := List.mem_map.mp hf
          simp [FieldColumn.toIndexField, hc c hcm]
        · intro f hf
          obtain ⟨c, hcm, rfl⟩ := List.mem_map.mp hf
          simp [FieldColumn.toIndexField, hr c hcm]
        · rw [List.pairwise_map]; exact hp

/-! ### The comparison -/

theorem lessNames_false_iff (a b : List Name) (h : a.length = b.length) :
    lessNames b a = false ↔ a ≤ b := by
  induction a generalizing b with
  | nil =>
    cases b with
    | nil => simp [lessNames]
    | cons _ _ => simp at h
  | cons x xs ih =>
    cases b with
    | nil => simp at h
    | cons y ys =>
      simp only [List.length_cons, Nat.add_right_cancel_iff] at h
      simp only [lessNames]
      rw [List.cons_le_cons_iff]
      by_cases e : y = x
      · subst e
        simp [ih ys h, List.lt_irrefl]
      · have e' : ¬x = y := fun h => e h.symm
        simp only [e, if_false, decide_eq_false_iff_not, e', false_and, or_false]
        rw [not_lt_iff_le, List.le_iff_lt_or_eq]
        simp [e']

theorem less_false_iff (a b : IndexTargetTable) :
    less b a = false ↔ Before a.toIndexTarget b.toIndexTarget := by
  have hn : ∀ t : IndexTargetTable, t.toIndexTarget.columns.map (·.name) =
      t.indexFields.map (·.name) := by
    intro t; simp [IndexTargetTable.toIndexTarget, newIndexTarget, Function.comp_def]
  have hl : ∀ t : IndexTargetTable, t.toIndexTarget.columns.length = t.indexFields.length := by
    intro t; simp [IndexTargetTable.toIndexTarget, newIndexTarget]
  have ht : ∀ t : IndexTargetTable, t.toIndexTarget.tableName = t.tableName := fun _ => rfl
  simp only [Before, hn, hl, ht, less]
  by_cases h1 : b.tableName = a.tableName
  · simp only [h1, ne_eq, not_true_eq_false, if_false, List.lt_irrefl, false_or, true_and]
    by_cases h2 : b.indexFields.length = a.indexFields.length
    · simp only [h2, not_true_eq_false, if_false, Nat.lt_irrefl, false_or, true_and]
      exact lessNames_false_iff _ _ (by simp [h2])
    · simp only [h2, not_false_eq_true, if_true, decide_eq_false_iff_not]
      omega
  · have h1' : ¬a.tableName = b.tableName := fun e => h1 e.symm
    simp only [h1, ne_eq, not_false_eq_true, if_true, decide_eq_false_iff_not, h1', false_and,
      or_false]
    rw [not_lt_iff_le, List.le_iff_lt_or_eq]
    simp [h1']

theorem Before.antisymm {a b : IndexTarget} (h : Before a b) (h' : Before b a) : a = b := by
  have hirr : ∀ {x y : Name}, x < y → y < x → False := fun h1 h2 => List.lt_irrefl _ (List.lt_trans h1 h2)
  obtain ⟨ta, ca⟩ := a
  obtain ⟨tb, cb⟩ := b
  simp only [Before] at h h'
  have ht : ta = tb := by
    rcases h with h | h
    · rcases h' with h' | h'
      · exact (hirr h h').elim
      · exact h'.1.symm
    · exact h.1
  subst ht
  simp only [List.lt_irrefl, false_or, true_and] at h h'
  have hc : ca.map (·.name) = cb.map (·.name) := by
    rcases h with h | h <;> rcases h' with h' | h' <;> try omega
    exact List.le_antisymm h.2 h'.2
  congr 1
  have : ∀ (x y : List IndexColumn), x.map (·.name) = y.map (·.name) → x = y := by
    intro x
    induction x with
    | nil => intro y hy; cases y <;> simp_all
    | cons p ps ih =>
      intro y hy
      cases y with
      | nil => simp at hy
      | cons q qs =>
        simp only [List.map_cons, List.cons.injEq] at hy
        rw [ih qs hy.2]
        congr 1
        cases p; cases q; simpa using hy.1
  exact this ca cb hc

/-- Sorted rearrangements of the same targets are equal after dropping the column kinds. -/
theorem sorted_unique {l l' : List IndexTargetTable}
    (hp : (l.map (·.toIndexTarget)).Perm (l'.map (·.toIndexTarget)))
    (h : l.Pairwise (fun a b => less b a = false)) (h' : l'.Pairwise (fun a b => less b a = false)) :
    l.map (·.toIndexTarget) = l'.map (·.toIndexTarget) := by
  refine List.Perm.eq_of_pairwise (le := Before) (fun a b _ _ => Before.antisymm) ?_ ?_ hp
  · rw [List.pairwise_map]; exact h.imp (fun h => (less_false_iff _ _).mp h)
  · rw [List.pairwise_map]; exact h'.imp (fun h => (less_false_iff _ _).mp h)

end Verif.Builder
