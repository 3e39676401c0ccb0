import Mathlib.Data.List.Basic
import Mathlib.Data.List.Nodup
import Verif.Lib.Map
/-!
# Grouping into association lists
-/
namespace Verif.Lib

variable {κ β α : Type} [DecidableEq κ]

/-- Change the value at the key, or add the key at the end with the changed initial value. -/
def upsert (k : κ) (init : β) (f : β → β) : List (κ × β) → List (κ × β)
  | [] => [(k, f init)]
  | (k', v) :: m => if k' = k then (k', f v) :: m else (k', v) :: upsert k init f m

theorem mapGet_upsert (k k' : κ) (init : β) (f : β → β) (m : List (κ × β)) :
    mapGet k' (upsert k init f m) =
      if k' = k then some (f ((mapGet k m).getD init)) else mapGet k' m := by
  induction m with
  | nil =>
    by_cases h : k' = k
    · subst h; simp [upsert, mapGet]
    · have h' : ¬ k = k' := fun e => h e.symm
      simp [upsert, mapGet, h, h']
  | cons a m ih =>
    obtain ⟨k0, v⟩ := a
    rw [upsert]
    by_cases h0 : k0 = k
    · rw [if_pos h0]
      by_cases h : k' = k
      · subst h; subst h0; simp [mapGet]
      · have h' : ¬ k0 = k' := fun e => h (by rw [← e, h0])
        have h'' : ¬ k' = k0 := fun e => h' e.symm
        simp [mapGet, h, h', h'']
    · rw [if_neg h0]
      by_cases h1 : k0 = k'
      · subst h1
        simp [mapGet, h0]
      · have h1' : ¬ k' = k0 := fun e => h1 e.symm
        have h0' : ¬ k = k0 := fun e => h0 e.symm
        by_cases h : k' = k
        · subst h
          simpa [mapGet, h0, h0', h1, h1'] using ih
        · simpa [mapGet, h0, h0', h1, h1', h] using ih

theorem keys_upsert (k : κ) (init : β) (f : β → β) (m : List (κ × β)) :
    (upsert k init f m).map (·.1) = if k ∈ m.map (·.1) then m.map (·.1) else m.map (·.1) ++ [k] := by
  induction m with
  | nil => simp [upsert]
  | cons a m ih =>
    obtain ⟨k0, v⟩ := a
    rw [upsert]
    by_cases h0 : k0 = k
    · rw [if_pos h0]; simp [h0]
    · rw [if_neg h0, List.map_cons, ih]
      have h0' : ¬ k = k0 := fun e => h0 e.symm
      by_cases hm : k ∈ m.map (·.1)
      · rw [if_pos hm, if_pos (by simp only [List.map_cons, List.mem_cons]; exact .inr hm)]; rfl
      · rw [if_neg hm, if_neg (by
          simp only [List.map_cons, List.mem_cons, not_or]; exact ⟨h0', hm⟩)]; rfl

/-- grouping a list: the value of a key is the fold over the elements with that key -/
def group (key : α → κ) (init : β) (step : α → β → β) (l : List α) (m : List (κ × β)) : List (κ × β) :=
  l.foldl (fun m a => upsert (key a) init (step a) m) m

theorem group_get (key : α → κ) (init : β) (step : α → β → β) : ∀ (l : List α) (m : List (κ × β)) (k : κ),
    mapGet k (group key init step l m) =
      if (∃ a ∈ l, key a = k) then
        some ((l.filter (fun a => key a = k)).foldl (fun b a => step a b) ((mapGet k m).getD init))
      else mapGet k m
  | [], m, k => by simp [group]
  | a :: l, m, k => by
    have e : group key init step (a :: l) m = group key init step l (upsert (key a) init (step a) m) :=
      rfl
    rw [e, group_get key init step l, mapGet_upsert]
    by_cases h : key a = k
    · subst h
      by_cases h2 : ∃ b ∈ l, key b = key a
      · rw [if_pos h2, if_pos (show ∃ b ∈ a :: l, key b = key a from ⟨a, by simp, rfl⟩)]
        simp
      · rw [if_neg h2, if_pos (show ∃ b ∈ a :: l, key b = key a from ⟨a, by simp, rfl⟩)]
        have : l.filter (fun b => key b = key a) = [] := by
          rw [List.filter_eq_nil_iff]
          intro b hb hk
          exact h2 ⟨b, hb, by simpa using hk⟩
        simp [this]
    · have h' : ¬ k = key a := fun e => h e.symm
      have h3 : (∃ b ∈ a :: l, key b = k) ↔ ∃ b ∈ l, key b = k := by
        constructor
        · rintro ⟨b, hb, hk⟩
          rcases List.mem_cons.mp hb with rfl | hb
          · exact absurd hk h
          · exact ⟨b, hb, hk⟩
        · rintro ⟨b, hb, hk⟩
          exact ⟨b, List.mem_cons_of_mem _ hb, hk⟩
      simp only [h3, h', if_false, List.filter_cons, h, decide_false, Bool.false_eq_true]

/-- each key once -/
theorem group_nodup (key : α → κ) (init : β) (step : α → β → β) : ∀ (l : List α) (m : List (κ × β)),
    (m.map (·.1)).Nodup → ((group key init step l m).map (·.1)).Nodup
  | [], _, h => h
  | a :: l, m, h => by
    apply group_nodup key init step l
    rw [keys_upsert]
    split
    · exact h
    · rename_i hm
      rw [List.nodup_append]
      refine ⟨h, by simp, ?_⟩
      intro x hx y hy
      simp at hy
      subst hy
      rintro rfl
      exact hm hx

/-- what grouping produces, key by key -/
theorem group_spec (key : α → κ) (init : β) (step : α → β → β) (l : List α) :
    ((group key init step l []).map (·.1)).Nodup ∧
    ∀ k v, (k, v) ∈ group key init step l [] ↔
      (∃ a ∈ l, key a = k) ∧ v = (l.filter (fun a => key a = k)).foldl (fun b a => step a b) init := by
  have hn := group_nodup key init step l [] (by simp)
  refine ⟨hn, fun k v => ?_⟩
  constructor
  · intro h
    have h1 := mapGet_of_mem k v _ hn h
    rw [group_get] at h1
    by_cases he : ∃ a ∈ l, key a = k
    · rw [if_pos he] at h1
      refine ⟨he, ?_⟩
      simp [mapGet] at h1
      exact h1.symm
    · rw [if_neg he] at h1
      simp [mapGet] at h1
  · rintro ⟨he, rfl⟩
    apply mem_of_mapGet
    rw [group_get, if_pos he]
    simp [mapGet]

end Verif.Lib
