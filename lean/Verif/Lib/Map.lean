import Verif.Lib.Coll
/-! Go maps as association lists. -/
namespace Verif.Lib

section
variable {α β : Type} [DecidableEq β]

/-- `m[k] = v` -/
def mapSet (k : β) (v : α) : List (β × α) → List (β × α)
  | [] => [(k, v)]
  | (k', v') :: r => if k = k' then (k, v) :: r else (k', v') :: mapSet k v r

/-- the map after storing every element under its key -/
def mapOf (f : α → β) (l : List α) : List (β × α) := l.foldl (fun m x => mapSet (f x) x m) []

theorem mapGet_mapSet (k k' : β) (v : α) (m : List (β × α)) :
    mapGet k' (mapSet k v m) = if k' = k then some v else mapGet k' m := by
  induction m with
  | nil => simp [mapSet, mapGet]
  | cons p r ih =>
    obtain ⟨k1, v1⟩ := p
    rw [mapSet]
    by_cases h : k = k1
    · subst h
      simp only [if_true, mapGet]
      by_cases h2 : k' = k <;> simp [h2]
    · simp only [h, if_false, mapGet]
      by_cases h2 : k' = k1
      · subst h2
        have h3 : ¬ k' = k := fun e => h e.symm
        simp [h3]
      · simp [h2, ih]

theorem mapGet_none_of_not_mem (k : β) (m : List (β × α)) (h : k ∉ m.map (·.1)) : mapGet k m = none := by
  induction m with
  | nil => rfl
  | cons p r ih =>
    obtain ⟨k1, v1⟩ := p
    simp only [List.map_cons, List.mem_cons, not_or] at h
    rw [mapGet, if_neg h.1, ih h.2]

theorem mem_keys_mapSet (k k' : β) (v : α) (m : List (β × α)) :
    k' ∈ (mapSet k v m).map (·.1) ↔ k' = k ∨ k' ∈ m.map (·.1) := by
  induction m with
  | nil => simp [mapSet]
  | cons p r ih =>
    obtain ⟨k1, v1⟩ := p
    rw [mapSet]
    by_cases h : k = k1
    · subst h; simp
    · simp only [h, if_false, List.map_cons, List.mem_cons, ih]
      constructor
      · rintro (h | h | h)
        · exact .inr (.inl h)
        · exact .inl h
        · exact .inr (.inr h)
      · rintro (h | h | h)
        · exact .inr (.inl h)
        · exact .inl h
        · exact .inr (.inr h)

theorem nodup_keys_mapSet (k : β) (v : α) (m : List (β × α)) (h : (m.map (·.1)).Nodup) :
    ((mapSet k v m).map (·.1)).Nodup := by
  induction m with
  | nil => simp [mapSet]
  | cons p r ih =>
    obtain ⟨k1, v1⟩ := p
    rw [mapSet]
    simp only [List.map_cons, List.nodup_cons] at h
    by_cases hk : k = k1
    · subst hk; simpa using h
    · simp only [hk, if_false, List.map_cons, List.nodup_cons]
      refine ⟨?_, ih h.2⟩
      rw [mem_keys_mapSet]
      rintro (h' | h')
      · exact hk h'.symm
      · exact h.1 h'

theorem mem_of_mapGet (k : β) (v : α) (m : List (β × α)) (h : mapGet k m = some v) : (k, v) ∈ m := by
  induction m with
  | nil => cases h
  | cons p r ih =>
    obtain ⟨k1, v1⟩ := p
    rw [mapGet] at h
    split at h
    · rename_i hk; cases h; subst hk; simp
    · exact List.mem_cons_of_mem _ (ih h)

theorem mapGet_of_mem (k : β) (v : α) (m : List (β × α)) (hn : (m.map (·.1)).Nodup)
    (h : (k, v) ∈ m) : mapGet k m = some v := by
  induction m with
  | nil => cases h
  | cons p r ih =>
    obtain ⟨k1, v1⟩ := p
    simp only [List.map_cons, List.nodup_cons] at hn
    rw [mapGet]
    rcases List.mem_cons.mp h with h1 | h1
    · cases h1; simp
    · have : k ≠ k1 := by
        intro e
        exact hn.1 (List.mem_map.mpr ⟨(k, v), h1, e⟩)
      rw [if_neg this]
      exact ih hn.2 h1

theorem mapGet_isSome_iff (k : β) (m : List (β × α)) : (mapGet k m).isSome ↔ k ∈ m.map (·.1) := by
  induction m with
  | nil => simp [mapGet]
  | cons p r ih =>
    obtain ⟨k1, v1⟩ := p
    rw [mapGet]
    by_cases h : k = k1
    · simp [h]
    · simp [h, ih]

/-- storing elements one after another: keys stay distinct, and the last element of a key wins -/
theorem foldl_mapSet (f : α → β) (l : List α) : ∀ m : List (β × α), (m.map (·.1)).Nodup →
    ((l.foldl (fun m x => mapSet (f x) x m) m).map (·.1)).Nodup ∧
    ∀ k, mapGet k (l.foldl (fun m x => mapSet (f x) x m) m) =
      match (l.filter (fun x => f x = k)).getLast? with
      | some x => some x
      | none => mapGet k m := by
  induction l with
  | nil => intro m h; exact ⟨h, fun k => rfl⟩
  | cons a r ih =>
    intro m h
    rw [List.foldl_cons]
    obtain ⟨h1, h2⟩ := ih (mapSet (f a) a m) (nodup_keys_mapSet _ _ _ h)
    refine ⟨h1, fun k => ?_⟩
    rw [h2 k, mapGet_mapSet]
    by_cases hk : f a = k
    · subst hk
      rw [List.filter_cons_of_pos (by simp)]
      cases hr : (r.filter (fun x => f x = f a)) with
      | nil => simp
      | cons b s =>
        rw [List.getLast?_cons_cons]
        cases hg : (b :: s).getLast? with
        | none => simp at hg
        | some y => rfl
    · rw [List.filter_cons_of_neg (by simpa using hk)]
      have : ¬ k = f a := fun e => hk e.symm
      simp only [this, if_false]

theorem mapOf_nodup (f : α → β) (l : List α) : ((mapOf f l).map (·.1)).Nodup :=
  (foldl_mapSet f l [] (by simp)).1

theorem mapGet_mapOf (f : α → β) (l : List α) (k : β) :
    mapGet k (mapOf f l) = (l.filter (fun x => f x = k)).getLast? := by
  rw [mapOf, (foldl_mapSet f l [] (by simp)).2 k]
  cases (l.filter (fun x => f x = k)).getLast? <;> rfl

/-- each value of the map is stored under its own key -/
theorem mapOf_key (f : α → β) (l : List α) : ∀ p ∈ mapOf f l, f p.2 = p.1 ∧ p.2 ∈ l := by
  intro p hp
  have := mapGet_of_mem p.1 p.2 _ (mapOf_nodup f l) hp
  rw [mapGet_mapOf] at this
  have hm := List.mem_of_getLast? this
  simp only [List.mem_filter, decide_eq_true_eq] at hm
  exact ⟨hm.2, hm.1⟩

/-- the values of the map: exactly the elements that are the last with their key -/
theorem mem_mapOf_values (f : α → β) (l : List α) (x : α) :
    x ∈ (mapOf f l).map (·.2) ↔ ∃ pre post, l = pre ++ x :: post ∧ ∀ y ∈ post, f y ≠ f x := by
  have h1 : x ∈ (mapOf f l).map (·.2) ↔ (l.filter (fun y => f y = f x)).getLast? = some x := by
    rw [← mapGet_mapOf]
    constructor
    · intro h
      obtain ⟨p, hp, rfl⟩ := List.mem_map.mp h
      have hk := (mapOf_key f l p hp).1
      rw [hk]
      exact mapGet_of_mem p.1 p.2 _ (mapOf_nodup f l) hp
    · intro h
      exact List.mem_map.mpr ⟨_, mem_of_mapGet _ _ _ h, rfl⟩
  rw [h1]
  constructor
  · intro h
    obtain ⟨s, hs⟩ := List.getLast?_eq_some_iff.mp h
    -- split the list at the last occurrence
    have key : ∀ (l : List α) (s : List α), l.filter (fun y => f y = f x) = s ++ [x] →
        ∃ pre post, l = pre ++ x :: post ∧ ∀ y ∈ post, f y ≠ f x := by
      intro l
      induction l with
      | nil => intro s h; cases s <;> simp at h
      | cons a r ih =>
        intro s h
        by_cases ha : f a = f x
        · rw [List.filter_cons_of_pos (by simpa using ha)] at h
          cases s with
          | nil =>
            simp only [List.nil_append, List.cons.injEq, List.filter_eq_nil_iff,
              decide_eq_true_eq] at h
            obtain ⟨rfl, h⟩ := h
            exact ⟨[], r, rfl, h⟩
          | cons b s =>
            simp only [List.cons_append, List.cons.injEq] at h
            obtain ⟨pre, post, e, hp⟩ := ih s h.2
            exact ⟨a :: pre, post, by rw [e]; rfl, hp⟩
        · rw [List.filter_cons_of_neg (by simpa using ha)] at h
          obtain ⟨pre, post, e, hp⟩ := ih s h
          exact ⟨a :: pre, post, by rw [e]; rfl, hp⟩
    exact key l s hs
  · rintro ⟨pre, post, rfl, h⟩
    have hp : post.filter (fun y => f y = f x) = [] := by
      rw [List.filter_eq_nil_iff]
      intro y hy; simpa using h y hy
    rw [List.filter_append, List.filter_cons_of_pos (by simp), hp]
    simp

theorem mapOf_values_nodup_key (f : α → β) (l : List α) :
    (((mapOf f l).map (·.2)).map f).Nodup := by
  have : ((mapOf f l).map (·.2)).map f = (mapOf f l).map (·.1) := by
    rw [List.map_map]
    exact List.map_congr_left (fun p hp => (mapOf_key f l p hp).1)
  rw [this]; exact mapOf_nodup f l

end
end Verif.Lib
