import Verif.PgScope.Spec
/-!
# Children are smaller (helper lemmas)
-/
namespace Verif.PgScope
open Verif.Builder Verif.Fields Verif.PgScope.Spec

theorem size_boundKids (b : Bound) (y : Nd) (h : y ∈ boundKids b) : sizeOf y < sizeOf b + 1 := by
  cases b with
  | none => simp [boundKids] at h
  | mk e => simp only [boundKids, List.mem_singleton] at h; subst h; simp

theorem size_mapE (es : List Expr) (y : Nd) (h : y ∈ es.map Nd.e) : sizeOf y < sizeOf es + 1 := by
  simp only [List.mem_map] at h
  obtain ⟨e, he, rfl⟩ := h
  have := List.sizeOf_lt_of_mem he
  simp; omega

theorem size_mapT (es : List TableExpr) (y : Nd) (h : y ∈ es.map Nd.t) :
    sizeOf y < sizeOf es + 1 := by
  simp only [List.mem_map] at h
  obtain ⟨e, he, rfl⟩ := h
  have := List.sizeOf_lt_of_mem he
  simp; omega

theorem size_mapC (es : List Cte) (y : Nd) (h : y ∈ es.map Nd.c) :
    sizeOf y < sizeOf es + 1 := by
  simp only [List.mem_map] at h
  obtain ⟨e, he, rfl⟩ := h
  have := List.sizeOf_lt_of_mem he
  simp; omega

theorem size_ws (ws : List When) (y : Nd)
    (h : y ∈ ws.flatMap fun | .mk c v => [Nd.e c, Nd.e v]) : sizeOf y < sizeOf ws + 1 := by
  simp only [List.mem_flatMap] at h
  obtain ⟨⟨c, v⟩, hw, h⟩ := h
  have := List.sizeOf_lt_of_mem hw
  simp only [List.mem_cons, List.not_mem_nil, or_false] at h
  simp at this
  rcases h with rfl | rfl <;> simp <;> omega

theorem size_ses (ws : List SelExpr) (y : Nd)
    (h : y ∈ ws.map fun | .mk x _ => Nd.e x) : sizeOf y < sizeOf ws + 1 := by
  simp only [List.mem_map] at h
  obtain ⟨⟨e, as⟩, hw, h⟩ := h
  have := List.sizeOf_lt_of_mem hw
  subst h
  simp at this ⊢
  omega

theorem size_o (o : Option Expr) (y : Nd) (h : y ∈ o.toList.map Nd.e) :
    sizeOf y < sizeOf o + 1 := by
  cases o with
  | none => simp at h
  | some e => simp at h; subst h; simp

theorem size_over (o : Over) (y : Nd) (h : y ∈ overKids o) : sizeOf y < sizeOf o := by
  cases o with
  | none => simp [overKids] at h
  | mk ps os f =>
    cases f with
    | none =>
      rw [overKids] at h
      have := size_mapE ps y h
      simp; omega
    | mk a z =>
      simp only [overKids, List.mem_append] at h
      rcases h with h | h | h
      · have := size_mapE ps y h
        simp; omega
      · have := size_boundKids _ y h
        simp; omega
      · have := size_boundKids _ y h
        simp; omega

theorem size_overOrder (o : Over) (y : Nd) (h : y ∈ overOrder o) : sizeOf y < sizeOf o := by
  cases o with
  | none => simp [overOrder] at h
  | mk ps os f =>
    rw [overOrder] at h
    have := size_mapE os y h
    simp; omega

theorem kids_sizeOf (x y : Nd) (h : y ∈ kids x) : sizeOf y < sizeOf x := by
  unfold kids at h
  rcases List.mem_append.mp h with h | h
  · cases x with
    | e x =>
      cases x <;> simp only [near, List.not_mem_nil, List.mem_cons, or_false,
        List.mem_append] at h
      case node known kids => have := size_mapE _ y h; simp; omega
      case case subject whens els =>
        rcases h with (h | h) | h
        · subst h; simp; omega
        · subst h; simp; omega
        · have := size_ws _ y h; simp; omega
      case func args filter over orderBy =>
        rcases h with (h | h) | h
        · have := size_over _ y h; simp; omega
        · have := size_mapE _ y h; simp; omega
        · subst h; simp; omega
      case tupleStar => subst h; simp
      case columnAccess => subst h; simp; omega
      case subquery => subst h; simp; omega
    | t x =>
      cases x with
      | join l r c =>
        cases c <;> simp only [near, List.mem_cons, List.not_mem_nil, or_false] at h
        case on =>
          rcases h with h | h | h <;> (subst h; simp; omega)
        all_goals rcases h with h | h <;> (subst h; simp; omega)
      | aliased => simp only [near, List.mem_singleton] at h; subst h; simp; omega
      | subquery => simp only [near, List.mem_singleton] at h; subst h; simp; omega
      | paren => simp only [near, List.mem_singleton] at h; subst h; simp
      | rowsFrom => simp only [near] at h; have := size_mapE _ y h; simp; omega
      | _ => simp [near] at h
    | b x =>
      cases x <;> simp only [near, List.not_mem_nil, List.mem_cons, or_false,
        List.mem_append] at h
      case clause =>
        rcases h with ((((h | h) | h) | h) | h) | h
        · have := size_ses _ y h; simp; omega
        · have := size_o _ y h; simp; omega
        · have := size_o _ y h; simp; omega
        · have := size_mapE _ y h; simp; omega
        · have := size_mapE _ y h; simp; omega
        · have := size_mapT _ y h; simp; omega
      case paren => subst h; simp
      case union => rcases h with h | h <;> (subst h; simp; omega)
      case values => have := size_mapE _ y h; simp; omega
    | s x =>
      obtain ⟨id, w, orderBy, limit, body⟩ := x
      simp only [near, List.mem_cons, List.mem_append, List.not_mem_nil, or_false] at h
      rcases h with ((h | h) | h) | h
      · cases w with
        | none => simp at h
        | some w =>
          have := size_mapC _ y h
          simp at this ⊢; omega
      · have := size_mapE _ y h; simp; omega
      · cases limit with
        | none => simp at h
        | mk a z => simp at h; subst h; simp; omega
      · subst h; simp; omega
    | c x =>
      cases x <;> simp only [near, List.not_mem_nil, List.mem_cons, or_false] at h
      case mk => subst h; simp; omega
  · cases x with
    | e x =>
      cases x <;> simp only [remote, List.not_mem_nil, List.mem_append] at h
      case func =>
        rcases h with h | h
        · have := size_overOrder _ y h; simp; omega
        · have := size_mapE _ y h; simp; omega
    | s x =>
      obtain ⟨id, w, orderBy, limit, body⟩ := x
      cases limit with
      | none => simp [remote] at h
      | mk a z => simp only [remote, List.mem_singleton] at h; subst h; simp; omega
    | _ => simp [remote] at h

end Verif.PgScope
