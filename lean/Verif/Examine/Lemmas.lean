import Verif.Examine.Spec
/-! Helper lemmas: the grammar of examination histories. -/
namespace Verif.Examine
open Verif.Index Spec

/-- The name is one the code can generate for the target. -/
def NameOf (id : List Char) (it : IndexTarget) (n : List Char) : Prop :=
  ∃ rnd, rnd < 999999999 ∧ n = indexName id it rnd

/-- Grammar of the part of a history after the baseline. -/
inductive Tail (id : List Char) :
    List IndexTarget → List Event → Except Err (List IndexResult) → Prop
  | done : Tail id [] [] (.ok [])
  | createFail {it its n e} (hn : NameOf id it n) :
      Tail id (it :: its) [⟨.create n it, .error e⟩] (.error e)
  | execFail {it its n v e d} (hn : NameOf id it n) :
      Tail id (it :: its) [⟨.create n it, .ok v⟩, ⟨.execute, .error e⟩, ⟨.drop n it, d⟩] (.error e)
  | dropFail {it its n v m e} (hn : NameOf id it n) :
      Tail id (it :: its) [⟨.create n it, .ok v⟩, ⟨.execute, .ok m⟩, ⟨.drop n it, .error e⟩]
        (.error (.wrapDrop e))
  | stepErr {it its n v m v' l e} (hn : NameOf id it n) (h : Tail id its l (.error e)) :
      Tail id (it :: its)
        (⟨.create n it, .ok v⟩ :: ⟨.execute, .ok m⟩ :: ⟨.drop n it, .ok v'⟩ :: l) (.error e)
  | stepOk {it its n v m v' l rs} (hn : NameOf id it n) (h : Tail id its l (.ok rs)) :
      Tail id (it :: its)
        (⟨.create n it, .ok v⟩ :: ⟨.execute, .ok m⟩ :: ⟨.drop n it, .ok v'⟩ :: l)
        (.ok (⟨it, m⟩ :: rs))

theorem examineAll_tail (env : Env) (id : List Char) (its : List IndexTarget) (log : List Event) :
    ∃ l, (examineAll env id its log).2 = log ++ l ∧
      Tail id its l (examineAll env id its log).1 := by
  induction its generalizing log with
  | nil => exact ⟨[], by simp [examineAll], .done⟩
  | cons it its ih =>
    have hn : NameOf id it (indexName id it (env.rand log)) := ⟨_, (env.rand log).isLt, rfl⟩
    generalize hname : indexName id it (env.rand log) = n at hn
    simp only [examineAll, examine, Env.perform, hname]
    cases hc : env.answer log (.create n it) with
    | error e => exact ⟨_, rfl, .createFail hn⟩
    | ok v =>
      simp only []
      cases hx : env.answer (log ++ [⟨.create n it, .ok v⟩]) .execute with
      | error e =>
        generalize env.answer ((log ++ [⟨.create n it, .ok v⟩]) ++ [⟨.execute, .error e⟩])
          (.drop n it) = d
        exact ⟨[⟨.create n it, .ok v⟩, ⟨.execute, .error e⟩, ⟨.drop n it, d⟩], by simp, .execFail hn⟩
      | ok m =>
        cases hd : env.answer ((log ++ [⟨.create n it, .ok v⟩]) ++ [⟨.execute, .ok m⟩])
            (.drop n it) with
        | error e =>
          refine ⟨[⟨.create n it, .ok v⟩, ⟨.execute, .ok m⟩, ⟨.drop n it, .error e⟩], ?_,
            .dropFail hn⟩
          simp
        | ok v' =>
          simp only []
          obtain ⟨l, hl, ht⟩ := ih (((log ++ [⟨.create n it, .ok v⟩]) ++ [⟨.execute, .ok m⟩]) ++
            [⟨.drop n it, .ok v'⟩])
          generalize examineAll env id its (((log ++ [⟨.create n it, .ok v⟩]) ++
            [⟨.execute, .ok m⟩]) ++ [⟨.drop n it, .ok v'⟩]) = q at hl ht
          obtain ⟨r, lg⟩ := q
          cases r with
          | error e => exact ⟨_ :: _ :: _ :: l, by simp at hl ⊢; exact hl, .stepErr hn ht⟩
          | ok rs => exact ⟨_ :: _ :: _ :: l, by simp at hl ⊢; exact hl, .stepOk hn ht⟩

/-- Grammar of complete histories. -/
theorem run_grammar (env : Env) (secs : Nat) (its : List IndexTarget) :
    (∃ e, run env secs its = (.error e, [⟨.execute, .error e⟩])) ∨
    ∃ orig l, (run env secs its).2 = ⟨.execute, .ok orig⟩ :: l ∧
      ((∃ e, (run env secs its).1 = .error e ∧ Tail (dec secs) its l (.error e)) ∨
       (∃ rs, (run env secs its).1 = .ok ⟨orig, rs⟩ ∧ Tail (dec secs) its l (.ok rs))) := by
  simp only [run, Env.perform, List.nil_append]
  cases env.answer [] .execute with
  | error e => exact .inl ⟨e, rfl⟩
  | ok orig =>
    right
    obtain ⟨l, hl, ht⟩ := examineAll_tail env (dec secs) its [⟨.execute, .ok orig⟩]
    generalize hq : examineAll env (dec secs) its [⟨.execute, .ok orig⟩] = q at hl ht
    obtain ⟨r, lg⟩ := q
    simp only [hq]
    refine ⟨orig, l, ?_, ?_⟩
    · cases r <;> simpa using hl
    · cases r with
      | error e => exact .inl ⟨e, rfl, ht⟩
      | ok rs => exact .inr ⟨rs, rfl, ht⟩

/-- The three events of one target, as found when a history is cut. -/
theorem Tail.cut_create {id its l r} (h : Tail id its l r) {pre post : List Event} {n t v}
    (hl : l = pre ++ ⟨.create n t, .ok v⟩ :: post) :
    ∃ x d rest, post = ⟨.execute, x⟩ :: ⟨.drop n t, d⟩ :: rest := by
  induction h generalizing pre with
  | done => simp at hl
  | createFail hn =>
    cases pre with
    | nil => simp at hl
    | cons p ps => simp at hl
  | execFail hn =>
    rcases pre with _ | ⟨p, _ | ⟨p2, _ | ⟨p3, ps⟩⟩⟩ <;> simp at hl
    obtain ⟨⟨⟨rfl, rfl⟩, _⟩, h⟩ := hl
    exact ⟨_, _, _, h.symm⟩
  | dropFail hn =>
    rcases pre with _ | ⟨p, _ | ⟨p2, _ | ⟨p3, ps⟩⟩⟩ <;> simp at hl
    obtain ⟨⟨⟨rfl, rfl⟩, _⟩, h⟩ := hl
    exact ⟨_, _, _, h.symm⟩
  | stepErr hn h ih =>
    rcases pre with _ | ⟨p, _ | ⟨p2, _ | ⟨p3, ps⟩⟩⟩ <;> simp at hl
    · obtain ⟨⟨⟨rfl, rfl⟩, _⟩, h⟩ := hl
      exact ⟨_, _, _, h.symm⟩
    · exact ih hl.2.2.2
  | stepOk hn h ih =>
    rcases pre with _ | ⟨p, _ | ⟨p2, _ | ⟨p3, ps⟩⟩⟩ <;> simp at hl
    · obtain ⟨⟨⟨rfl, rfl⟩, _⟩, h⟩ := hl
      exact ⟨_, _, _, h.symm⟩
    · exact ih hl.2.2.2

theorem Tail.cut_drop {id its l r} (h : Tail id its l r) {pre post : List Event} {n t d}
    (hl : l = pre ++ ⟨.drop n t, d⟩ :: post) :
    ∃ pre' v x, pre = pre' ++ [⟨.create n t, .ok v⟩, ⟨.execute, x⟩] := by
  induction h generalizing pre with
  | done => simp at hl
  | createFail hn =>
    cases pre with
    | nil => simp at hl
    | cons p ps => simp at hl
  | execFail hn =>
    rcases pre with _ | ⟨p, _ | ⟨p2, _ | ⟨p3, ps⟩⟩⟩ <;> simp at hl
    obtain ⟨h1, h2, ⟨⟨rfl, rfl⟩, _⟩, h⟩ := hl
    exact ⟨[], _, _, by rw [← h1, ← h2]; rfl⟩
  | dropFail hn =>
    rcases pre with _ | ⟨p, _ | ⟨p2, _ | ⟨p3, ps⟩⟩⟩ <;> simp at hl
    obtain ⟨h1, h2, ⟨⟨rfl, rfl⟩, _⟩, h⟩ := hl
    exact ⟨[], _, _, by rw [← h1, ← h2]; rfl⟩
  | stepErr hn h ih =>
    rcases pre with _ | ⟨p, _ | ⟨p2, _ | ⟨p3, ps⟩⟩⟩ <;> simp at hl
    · obtain ⟨h1, h2, ⟨⟨rfl, rfl⟩, _⟩, h⟩ := hl
      exact ⟨[], _, _, by rw [← h1, ← h2]; rfl⟩
    · obtain ⟨pre', v, x, hp⟩ := ih hl.2.2.2
      exact ⟨p :: p2 :: p3 :: pre', v, x, by rw [hp]; rfl⟩
  | stepOk hn h ih =>
    rcases pre with _ | ⟨p, _ | ⟨p2, _ | ⟨p3, ps⟩⟩⟩ <;> simp at hl
    · obtain ⟨h1, h2, ⟨⟨rfl, rfl⟩, _⟩, h⟩ := hl
      exact ⟨[], _, _, by rw [← h1, ← h2]; rfl⟩
    · obtain ⟨pre', v, x, hp⟩ := ih hl.2.2.2
      exact ⟨p :: p2 :: p3 :: pre', v, x, by rw [hp]; rfl⟩

theorem erase_append_self [BEq α] [LawfulBEq α] (l : List α) (a : α) :
    ((l ++ [a]).erase a).Perm l := by
  have h1 : (l ++ [a]).Perm (a :: l) := List.perm_append_comm
  have h2 := h1.erase a
  simpa using h2

theorem effect_perm {a b : List (List Char × IndexTarget)} (h : a.Perm b) (e : Event) :
    (effect a e).Perm (effect b e) := by
  unfold effect
  split
  · exact h.append_right _
  · exact h.erase _
  · exact h

theorem liveAfter_perm {a b : List (List Char × IndexTarget)} (h : a.Perm b) (l : List Event) :
    (liveAfter a l).Perm (liveAfter b l) := by
  induction l generalizing a b with
  | nil => exact h
  | cons e es ih => exact ih (effect_perm h e)

theorem Tail.live {id its l r} (h : Tail id its l r)
    (hd : ∀ e ∈ l, ∀ n t, e.call = .drop n t → Succeeded e) (before) :
    (liveAfter before l).Perm before := by
  induction h generalizing before with
  | done => exact .refl _
  | createFail hn => exact .refl _
  | @execFail it its n v e d hn =>
    obtain ⟨w, hw⟩ := hd ⟨.drop n it, d⟩ (by simp) n it rfl
    simp only at hw
    subst hw
    simpa [liveAfter, effect] using erase_append_self before (n, it)
  | @dropFail it its n v m e hn =>
    obtain ⟨w, hw⟩ := hd ⟨.drop n it, .error e⟩ (by simp) n it rfl
    cases hw
  | @stepErr it its n v m v' l e hn h ih =>
    have h1 := ih (fun e he => hd e (by simp [he])) before
    have h2 := liveAfter_perm (erase_append_self before (n, it)) l
    exact h2.trans h1
  | @stepOk it its n v m v' l e hn h ih =>
    have h1 := ih (fun e he => hd e (by simp [he])) before
    have h2 := liveAfter_perm (erase_append_self before (n, it)) l
    exact h2.trans h1

theorem Tail.cut_execute {id its l r} (h : Tail id its l r) {pre post : List Event} {x}
    (hl : l = pre ++ ⟨.execute, x⟩ :: post) :
    ∃ pre' n t v, pre = pre' ++ [⟨.create n t, .ok v⟩] ∧ t ∈ its ∧ NameOf id t n ∧
      liveAfter [] pre = [(n, t)] := by
  induction h generalizing pre with
  | done => simp at hl
  | createFail hn =>
    cases pre with
    | nil => simp at hl
    | cons p ps => simp at hl
  | execFail hn =>
    rcases pre with _ | ⟨p, _ | ⟨p2, _ | ⟨p3, ps⟩⟩⟩ <;> simp at hl
    obtain ⟨h1, h2⟩ := hl
    refine ⟨[], _, _, _, by rw [← h1]; rfl, by simp, hn, by simp [← h1, liveAfter, effect]⟩
  | dropFail hn =>
    rcases pre with _ | ⟨p, _ | ⟨p2, _ | ⟨p3, ps⟩⟩⟩ <;> simp at hl
    obtain ⟨h1, h2⟩ := hl
    refine ⟨[], _, _, _, by rw [← h1]; rfl, by simp, hn, by simp [← h1, liveAfter, effect]⟩
  | stepErr hn h ih =>
    rcases pre with _ | ⟨p, _ | ⟨p2, _ | ⟨p3, ps⟩⟩⟩ <;> simp at hl
    · obtain ⟨h1, h2⟩ := hl
      refine ⟨[], _, _, _, by rw [← h1]; rfl, by simp, hn, by simp [← h1, liveAfter, effect]⟩
    · obtain ⟨pre', n, t, v, hp, ht, hn', hlv⟩ := ih hl.2.2.2
      refine ⟨p :: p2 :: p3 :: pre', n, t, v, by rw [hp]; rfl, by simp [ht], hn', ?_⟩
      rw [← hl.1, ← hl.2.1, ← hl.2.2.1]
      simpa [liveAfter, effect] using hlv
  | stepOk hn h ih =>
    rcases pre with _ | ⟨p, _ | ⟨p2, _ | ⟨p3, ps⟩⟩⟩ <;> simp at hl
    · obtain ⟨h1, h2⟩ := hl
      refine ⟨[], _, _, _, by rw [← h1]; rfl, by simp, hn, by simp [← h1, liveAfter, effect]⟩
    · obtain ⟨pre', n, t, v, hp, ht, hn', hlv⟩ := ih hl.2.2.2
      refine ⟨p :: p2 :: p3 :: pre', n, t, v, by rw [hp]; rfl, by simp [ht], hn', ?_⟩
      rw [← hl.1, ← hl.2.1, ← hl.2.2.1]
      simpa [liveAfter, effect] using hlv

theorem Tail.prefix_le_one {id its l r} (h : Tail id its l r) {pre post : List Event}
    (hl : l = pre ++ post) : (liveAfter [] pre).length ≤ 1 := by
  induction h generalizing pre with
  | done => simp at hl; simp [hl.1, liveAfter]
  | createFail hn =>
    rcases pre with _ | ⟨p, ps⟩
    · simp [liveAfter]
    · simp at hl; simp [← hl.1, hl.2.1, liveAfter, effect]
  | @execFail it its n v e d hn =>
    rcases pre with _ | ⟨p, _ | ⟨p2, _ | ⟨p3, ps⟩⟩⟩ <;> simp at hl <;>
      simp_all [liveAfter, effect]
    · simp [← hl.1, effect]
    · simp [← hl.1, ← hl.2.1, effect]
    · rw [← hl.1, ← hl.2.1, ← hl.2.2.1]
      cases d <;> simp [effect]
  | dropFail hn =>
    rcases pre with _ | ⟨p, _ | ⟨p2, _ | ⟨p3, ps⟩⟩⟩ <;> simp at hl <;>
      simp_all [liveAfter, effect]
    · simp [← hl.1, effect]
    · simp [← hl.1, ← hl.2.1, effect]
    · rw [← hl.1, ← hl.2.1, ← hl.2.2.1]
      simp [effect]
  | stepErr hn h ih =>
    rcases pre with _ | ⟨p, _ | ⟨p2, _ | ⟨p3, ps⟩⟩⟩ <;> simp at hl
    · simp [liveAfter]
    · simp [liveAfter, ← hl.1, effect]
    · simp [liveAfter, ← hl.1, ← hl.2.1, effect]
    · have := ih hl.2.2.2
      rw [← hl.1, ← hl.2.1, ← hl.2.2.1]
      simpa [liveAfter, effect] using this
  | stepOk hn h ih =>
    rcases pre with _ | ⟨p, _ | ⟨p2, _ | ⟨p3, ps⟩⟩⟩ <;> simp at hl
    · simp [liveAfter]
    · simp [liveAfter, ← hl.1, effect]
    · simp [liveAfter, ← hl.1, ← hl.2.1, effect]
    · have := ih hl.2.2.2
      rw [← hl.1, ← hl.2.1, ← hl.2.2.1]
      simpa [liveAfter, effect] using this

theorem Tail.ok_facts {id its l r} (h : Tail id its l r) {rs} (hr : r = .ok rs) :
    (∀ e ∈ l, Succeeded e) ∧ rs.map (·.target) = its ∧ times l = rs.map (·.millis) := by
  induction h generalizing rs with
  | done => cases hr; simp [times]
  | createFail hn => cases hr
  | execFail hn => cases hr
  | dropFail hn => cases hr
  | stepErr hn h ih => cases hr
  | @stepOk it its n v m v' l rs' hn h ih =>
    cases hr
    obtain ⟨h1, h2, h3⟩ := ih rfl
    refine ⟨?_, by simp [h2], ?_⟩
    · intro e he
      simp only [List.mem_cons] at he
      rcases he with rfl | rfl | rfl | he
      · exact ⟨_, rfl⟩
      · exact ⟨_, rfl⟩
      · exact ⟨_, rfl⟩
      · exact h1 e he
    · simp only [times, List.filterMap_cons, List.map_cons, List.cons.injEq, true_and]
      exact h3

theorem Tail.err_facts {id its l r} (h : Tail id its l r) {e} (hr : r = .error e) :
    ∃ pre ev post e', l = pre ++ ev :: post ∧ (∀ p ∈ pre, Succeeded p) ∧ ev.resp = .error e' ∧
      ((e = e' ∧ ∀ n t, ev.call ≠ .drop n t) ∨ (e = .wrapDrop e' ∧ ∃ n t, ev.call = .drop n t)) := by
  induction h generalizing e with
  | done => cases hr
  | createFail hn => cases hr; exact ⟨[], _, [], _, rfl, by simp, rfl, .inl ⟨rfl, by simp⟩⟩
  | @execFail it its n v e d hn =>
    cases hr
    refine ⟨[_], _, [_], _, rfl, ?_, rfl, .inl ⟨rfl, by simp⟩⟩
    intro p hp; simp only [List.mem_singleton] at hp; subst hp; exact ⟨_, rfl⟩
  | dropFail hn =>
    cases hr
    refine ⟨[_, _], _, [], _, rfl, ?_, rfl, .inr ⟨rfl, _, _, rfl⟩⟩
    intro p hp
    simp only [List.mem_cons, List.not_mem_nil, or_false] at hp
    rcases hp with rfl | rfl <;> exact ⟨_, rfl⟩
  | stepOk hn h ih => cases hr
  | @stepErr it its n v m v' l e' hn h ih =>
    cases hr
    obtain ⟨pre, ev, post, e', hl, hp, hev, hor⟩ := ih rfl
    refine ⟨_ :: _ :: _ :: pre, ev, post, e', by rw [hl]; rfl, ?_, hev, hor⟩
    intro p hpm
    simp only [List.mem_cons] at hpm
    rcases hpm with rfl | rfl | rfl | hpm
    · exact ⟨_, rfl⟩
    · exact ⟨_, rfl⟩
    · exact ⟨_, rfl⟩
    · exact hp p hpm

theorem Tail.names {id its l r} (h : Tail id its l r) :
    ∀ e ∈ l, ∀ n t, (e.call = .create n t ∨ e.call = .drop n t) → t ∈ its ∧ NameOf id t n := by
  induction h with
  | done => simp
  | createFail hn =>
    intro e he n t hc
    simp only [List.mem_singleton] at he; subst he
    simp at hc; obtain ⟨rfl, rfl⟩ := hc; exact ⟨by simp, hn⟩
  | execFail hn =>
    intro e he n t hc
    simp only [List.mem_cons, List.not_mem_nil, or_false] at he
    rcases he with rfl | rfl | rfl <;> simp at hc
    · obtain ⟨rfl, rfl⟩ := hc; exact ⟨by simp, hn⟩
    · obtain ⟨rfl, rfl⟩ := hc; exact ⟨by simp, hn⟩
  | dropFail hn =>
    intro e he n t hc
    simp only [List.mem_cons, List.not_mem_nil, or_false] at he
    rcases he with rfl | rfl | rfl <;> simp at hc
    · obtain ⟨rfl, rfl⟩ := hc; exact ⟨by simp, hn⟩
    · obtain ⟨rfl, rfl⟩ := hc; exact ⟨by simp, hn⟩
  | stepErr hn h ih =>
    intro e he n t hc
    simp only [List.mem_cons] at he
    rcases he with rfl | rfl | rfl | he
    · simp at hc; obtain ⟨rfl, rfl⟩ := hc; exact ⟨by simp, hn⟩
    · simp at hc
    · simp at hc; obtain ⟨rfl, rfl⟩ := hc; exact ⟨by simp, hn⟩
    · obtain ⟨h1, h2⟩ := ih e he n t hc; exact ⟨by simp [h1], h2⟩
  | stepOk hn h ih =>
    intro e he n t hc
    simp only [List.mem_cons] at he
    rcases he with rfl | rfl | rfl | he
    · simp at hc; obtain ⟨rfl, rfl⟩ := hc; exact ⟨by simp, hn⟩
    · simp at hc
    · simp at hc; obtain ⟨rfl, rfl⟩ := hc; exact ⟨by simp, hn⟩
    · obtain ⟨h1, h2⟩ := ih e he n t hc; exact ⟨by simp [h1], h2⟩

end Verif.Examine
