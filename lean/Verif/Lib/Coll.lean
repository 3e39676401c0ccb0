/-!
# Small collection helpers of `/repo/lib` and `github.com/samber/lo`
-/
namespace Verif.Lib

/-- The loop of `/repo/lib/uniq.go:7-14`; `found` is the set of keys already seen. -/
def uniqGo {α β : Type} [DecidableEq β] (f : α → β) : List β → List α → List α
  | _, [] => []
  | found, v :: vs =>
    if f v ∈ found then uniqGo f found vs else v :: uniqGo f (f v :: found) vs

/-- `/repo/lib/uniq.go:3-17` `UniqBy`; with `f = id` it is `lo.Uniq` (same loop). -/
def uniqBy {α β : Type} [DecidableEq β] (f : α → β) (l : List α) : List α := uniqGo f [] l

/-- `lo.Uniq` -/
def uniq {α : Type} [DecidableEq α] (l : List α) : List α := uniqBy id l

/-- `lo.GroupBy`: a Go map from key to the list of items in input order, as an association list. -/
def groupInsert {α β : Type} [DecidableEq β] (k : β) (v : α) : List (β × List α) → List (β × List α)
  | [] => [(k, [v])]
  | (k', vs) :: r => if k' = k then (k', vs ++ [v]) :: r else (k', vs) :: groupInsert k v r

/-- Go map lookup. -/
def mapGet {α β : Type} [DecidableEq β] (k : β) : List (β × α) → Option α
  | [] => none
  | (k', v) :: r => if k = k' then some v else mapGet k r

/-- `lo.GroupBy` -/
def groupBy {α β : Type} [DecidableEq β] (f : α → β) (l : List α) : List (β × List α) :=
  l.foldl (fun m v => groupInsert (f v) v m) []

/-! ### Laws -/

section uniq
variable {α β : Type} [DecidableEq β] (f : α → β)

theorem uniqGo_sublist (found : List β) (l : List α) : (uniqGo f found l).Sublist l := by
  induction l generalizing found with
  | nil => exact .slnil
  | cons v vs ih =>
    simp only [uniqGo]; split
    · exact .cons _ (ih _)
    · exact .cons₂ _ (ih _)

theorem mem_uniqGo_key (found : List β) (l : List α) (k : β) :
    (∃ x ∈ uniqGo f found l, f x = k) ↔ (∃ x ∈ l, f x = k) ∧ k ∉ found := by
  induction l generalizing found with
  | nil => simp [uniqGo]
  | cons v vs ih =>
    simp only [uniqGo]; split
    · next h =>
      rw [ih]
      constructor
      · rintro ⟨⟨x, hx, hk⟩, hn⟩; exact ⟨⟨x, by simp [hx], hk⟩, hn⟩
      · rintro ⟨⟨x, hx, hk⟩, hn⟩
        rcases List.mem_cons.mp hx with rfl | hx
        · exact absurd (hk ▸ h) hn
        · exact ⟨⟨x, hx, hk⟩, hn⟩
    · next h =>
      have ih' := ih (f v :: found)
      constructor
      · rintro ⟨x, hx, hk⟩
        rcases List.mem_cons.mp hx with rfl | hx
        · exact ⟨⟨x, by simp, hk⟩, hk ▸ h⟩
        · obtain ⟨⟨y, hy, hyk⟩, hn⟩ := ih'.mp ⟨x, hx, hk⟩
          exact ⟨⟨y, by simp [hy], hyk⟩, fun hm => hn (by simp [hm])⟩
      · rintro ⟨⟨x, hx, hk⟩, hn⟩
        by_cases hv : f v = k
        · exact ⟨v, by simp, hv⟩
        · rcases List.mem_cons.mp hx with rfl | hx
          · exact absurd hk hv
          · obtain ⟨y, hy, hyk⟩ := ih'.mpr ⟨⟨x, hx, hk⟩, by
              simp only [List.mem_cons, not_or]; exact ⟨fun e => hv e.symm, hn⟩⟩
            exact ⟨y, by simp [hy], hyk⟩

theorem uniqGo_nodup (found : List β) (l : List α) : ((uniqGo f found l).map f).Nodup := by
  induction l generalizing found with
  | nil => simp [uniqGo]
  | cons v vs ih =>
    simp only [uniqGo]; split
    · exact ih _
    · simp only [List.map_cons, List.nodup_cons]
      refine ⟨?_, ih _⟩
      intro hm
      obtain ⟨x, hx, hk⟩ := List.mem_map.mp hm
      have := (mem_uniqGo_key f (f v :: found) vs (f v)).mp ⟨x, hx, hk⟩
      exact this.2 (by simp)

theorem uniqGo_of_nodup (found : List β) (l : List α) (h : (l.map f).Nodup)
    (hf : ∀ x ∈ l, f x ∉ found) : uniqGo f found l = l := by
  induction l generalizing found with
  | nil => rfl
  | cons v vs ih =>
    simp only [List.map_cons, List.nodup_cons] at h
    simp only [uniqGo, hf v (by simp), if_false]
    rw [ih _ h.2]
    intro x hx
    simp only [List.mem_cons, not_or]
    exact ⟨fun e => h.1 (List.mem_map.mpr ⟨x, hx, e⟩), hf x (by simp [hx])⟩

theorem uniqBy_sublist (l : List α) : (uniqBy f l).Sublist l := uniqGo_sublist f [] l
theorem uniqBy_nodup (l : List α) : ((uniqBy f l).map f).Nodup := uniqGo_nodup f [] l
theorem mem_uniqBy_key (l : List α) (k : β) : k ∈ (uniqBy f l).map f ↔ k ∈ l.map f := by
  have := mem_uniqGo_key f [] l k
  simpa [uniqBy, List.mem_map] using this
theorem uniqBy_of_nodup (l : List α) (h : (l.map f).Nodup) : uniqBy f l = l :=
  uniqGo_of_nodup f [] l h (by simp)

/-- Of the elements with one key the first is kept. -/
theorem mem_uniqGo_iff (found : List β) (l : List α) (x : α) :
    x ∈ uniqGo f found l ↔ ∃ pre post, l = pre ++ x :: post ∧ (∀ y ∈ pre, f y ≠ f x) ∧ f x ∉ found := by
  induction l generalizing found with
  | nil => simp [uniqGo]
  | cons v vs ih =>
    have key : (∃ pre post, v :: vs = pre ++ x :: post ∧ (∀ y ∈ pre, f y ≠ f x) ∧ f x ∉ found) ↔
        (v = x ∧ f x ∉ found) ∨
        (∃ pre post, vs = pre ++ x :: post ∧ (∀ y ∈ pre, f y ≠ f x) ∧ f v ≠ f x ∧ f x ∉ found) := by
      constructor
      · rintro ⟨pre, post, he, hp, hn⟩
        cases pre with
        | nil => simp at he; exact .inl ⟨he.1, hn⟩
        | cons p ps =>
          simp only [List.cons_append, List.cons.injEq] at he
          exact .inr ⟨ps, post, he.2, fun y hy => hp y (by simp [hy]), he.1 ▸ hp p (by simp), hn⟩
      · rintro (⟨rfl, hn⟩ | ⟨pre, post, he, hp, hv, hn⟩)
        · exact ⟨[], vs, rfl, by simp, hn⟩
        · refine ⟨v :: pre, post, by simp [he], ?_, hn⟩
          intro y hy
          rcases List.mem_cons.mp hy with rfl | hy
          · exact hv
          · exact hp y hy
    rw [key]
    simp only [uniqGo]; split
    · next h =>
      rw [ih]
      constructor
      · rintro ⟨pre, post, he, hp, hn⟩
        exact .inr ⟨pre, post, he, hp, fun e => hn (e ▸ h), hn⟩
      · rintro (⟨rfl, hn⟩ | ⟨pre, post, he, hp, hv, hn⟩)
        · exact absurd h hn
        · exact ⟨pre, post, he, hp, hn⟩
    · next h =>
      rw [List.mem_cons, ih]
      constructor
      · rintro (rfl | ⟨pre, post, he, hp, hn⟩)
        · exact .inl ⟨rfl, h⟩
        · simp only [List.mem_cons, not_or] at hn
          exact .inr ⟨pre, post, he, hp, fun e => hn.1 e.symm, hn.2⟩
      · rintro (⟨rfl, hn⟩ | ⟨pre, post, he, hp, hv, hn⟩)
        · exact .inl rfl
        · exact .inr ⟨pre, post, he, hp, by
            simp only [List.mem_cons, not_or]; exact ⟨fun e => hv e.symm, hn⟩⟩

theorem mem_uniqBy_iff (l : List α) (x : α) :
    x ∈ uniqBy f l ↔ ∃ pre post, l = pre ++ x :: post ∧ ∀ y ∈ pre, f y ≠ f x := by
  simpa [uniqBy] using mem_uniqGo_iff f [] l x

end uniq

theorem uniq_nodup {α : Type} [DecidableEq α] (l : List α) : (uniq l).Nodup := by
  simpa [uniq] using uniqBy_nodup id l
theorem mem_uniq {α : Type} [DecidableEq α] (l : List α) (x : α) : x ∈ uniq l ↔ x ∈ l := by
  simpa [uniq] using mem_uniqBy_key id l x
theorem uniq_sublist {α : Type} [DecidableEq α] (l : List α) : (uniq l).Sublist l :=
  uniqBy_sublist id l
theorem uniq_of_nodup {α : Type} [DecidableEq α] (l : List α) (h : l.Nodup) : uniq l = l :=
  uniqBy_of_nodup id l (by simpa using h)

section group
variable {α β : Type} [DecidableEq β] (f : α → β)

theorem groupInsert_get (k k' : β) (v : α) (m : List (β × List α)) :
    mapGet k' (groupInsert k v m) =
      if k' = k then some ((mapGet k m).getD [] ++ [v]) else mapGet k' m := by
  induction m with
  | nil => simp [groupInsert, mapGet]
  | cons p r ih =>
    obtain ⟨k0, vs⟩ := p
    simp only [groupInsert]
    by_cases h0 : k0 = k
    · subst h0
      by_cases h : k' = k0 <;> simp [mapGet, h]
    · have h0' : ¬k = k0 := fun e => h0 e.symm
      by_cases h : k' = k0
      · simp [h0, mapGet, h]
      · simp [h0, h0', mapGet, h, ih]

theorem foldl_group_get (l : List α) (m : List (β × List α)) (k : β) :
    (mapGet k (l.foldl (fun m v => groupInsert (f v) v m) m)) =
      if (∃ x ∈ l, f x = k) then some ((mapGet k m).getD [] ++ l.filter (fun x => f x = k))
      else mapGet k m := by
  induction l generalizing m with
  | nil => simp
  | cons v vs ih =>
    simp only [List.foldl_cons]
    rw [ih, groupInsert_get]
    by_cases hv : f v = k
    · subst hv
      simp only [if_true]
      by_cases hr : ∃ x ∈ vs, f x = f v
      · simp [hr]
      · have : vs.filter (fun x => f x = f v) = [] := by
          simp only [List.filter_eq_nil_iff, decide_eq_true_eq]
          exact fun x hx e => hr ⟨x, hx, e⟩
        simp [hr, this]
    · have hk : ¬k = f v := fun e => hv e.symm
      simp [hv, hk]

/-- A group is present exactly when some item has the key, and then holds those items in order. -/
theorem groupBy_get (l : List α) (k : β) :
    mapGet k (groupBy f l) =
      if (∃ x ∈ l, f x = k) then some (l.filter (fun x => f x = k)) else none := by
  rw [groupBy, foldl_group_get]; simp [mapGet]

end group

end Verif.Lib
