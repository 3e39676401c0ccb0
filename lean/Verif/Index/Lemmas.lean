import Verif.Index.Model
import Verif.Regex.Lemmas
/-! Helper lemmas for index targets. -/
namespace Verif.Index
open Verif.Regex

theorem wordOnly_iff (s : List Char) :
    isMatch wordOnlyReg s = true ↔ s ≠ [] ∧ ∀ c ∈ s, isWord c = true := by
  unfold isMatch wordOnlyReg
  rw [find_bos]
  cases s with
  | nil => simp [run_seq, run_cls_nil, Re.plus]
  | cons c cs =>
    simp only [run_seq, run_cls_cons, Re.plus]
    by_cases hc : isWord c = true
    · simp only [hc, if_true]
      have := run_star_greedy_cls isWord (fun s' => if s'.rest = [] then some s' else none)
        ⟨0 + 1, cs, []⟩
      rw [show (fun s' => run Re.eos s' some) = fun s' : St => if s'.rest = [] then some s' else none
        from rfl, this, greedyScan_eos]
      simp [hc]
    · simp [hc]

/-- The text of the current line. -/
abbrev lineOf (t : List Char) : List Char := t.takeWhile (· != '\n')

theorem run_body_nil (k : St → Option St) (pos caps) :
    run indexTargetBody ⟨pos, [], caps⟩ k = none := rfl

theorem run_body_nl (k : St → Option St) (pos cs caps) :
    run indexTargetBody ⟨pos, '\n' :: cs, caps⟩ k = none := rfl

theorem run_body_plus (k : St → Option St) (pos c ds caps v) (hc : c ≠ '\n')
    (h : k ⟨pos + 2, ds, (3, (c :: '+' :: ds).take ((c :: '+' :: ds).length - ds.length)) ::
      (4, ('+' :: ds).take (('+' :: ds).length - ds.length)) :: caps⟩ = some v) :
    run indexTargetBody ⟨pos, c :: '+' :: ds, caps⟩ k = some v := by
  have hcne : (c != '\n') = true := by simp [hc]
  simp only [indexTargetBody, Re.plus, Re.dot, Re.opt, run_grp, run_seq, run_cls_cons, hcne, if_true,
    run_star_lazy_cls, lazyScan, run_alt, beq_self_eq_true]
  rw [h]

theorem run_body_other (k : St → Option St) (pos c cs caps v) (hc : c ≠ '\n')
    (hp : ∀ ds, cs ≠ '+' :: ds)
    (h : k ⟨pos + 1, cs, (3, (c :: cs).take ((c :: cs).length - cs.length)) :: caps⟩ = some v) :
    run indexTargetBody ⟨pos, c :: cs, caps⟩ k = some v := by
  have hcne : (c != '\n') = true := by simp [hc]
  cases cs with
  | nil =>
    simp only [indexTargetBody, Re.plus, Re.dot, Re.opt, run_grp, run_seq, run_cls_cons, hcne, if_true,
      run_star_lazy_cls, lazyScan, run_alt, run_cls_nil, run_eps]
    rw [h]
  | cons d ds =>
    have hd : (d == '+') = false := by
      simp only [beq_eq_false_iff_ne]; intro he; exact hp ds (by rw [he])
    simp only [indexTargetBody, Re.plus, Re.dot, Re.opt, run_grp, run_seq, run_cls_cons, hcne, if_true,
      run_star_lazy_cls, lazyScan, run_alt, hd, Bool.false_eq_true, if_false, run_eps]
    rw [h]

/-- The greedy loop consumes the line, leaving groups 1 and 2 alone. -/
theorem starN_body (K : St → Option St) (hK : ∀ s, (K s).isSome) :
    ∀ (n : Nat) (pos : Nat) (rest : List Char) (caps : List (Nat × List Char)), rest.length ≤ n →
      ∃ s', starN (run indexTargetBody) true n ⟨pos, rest, caps⟩ K = K s' ∧
        s'.rest = rest.dropWhile (· != '\n') ∧
        ∃ extra, s'.caps = extra ++ caps ∧ ∀ e ∈ extra, e.1 = 3 ∨ e.1 = 4 := by
  intro n
  induction n with
  | zero =>
    intro pos rest caps hn
    refine ⟨⟨pos, rest, caps⟩, rfl, ?_, [], rfl, by simp⟩
    cases rest with
    | nil => rfl
    | cons c cs => simp at hn
  | succ n ih =>
    intro pos rest caps hn
    cases rest with
    | nil => exact ⟨⟨pos, [], caps⟩, by simp [starN, run_body_nil], rfl, [], rfl, by simp⟩
    | cons c cs =>
      have hcs : cs.length ≤ n := by simpa using hn
      by_cases hc : c = '\n'
      · subst hc
        exact ⟨⟨pos, '\n' :: cs, caps⟩, by simp [starN, run_body_nl], by simp, [], rfl, by simp⟩
      · have hdrop : (c :: cs).dropWhile (· != '\n') = cs.dropWhile (· != '\n') := by simp [hc]
        by_cases hp : ∃ ds, cs = '+' :: ds
        · obtain ⟨ds, rfl⟩ := hp
          obtain ⟨s', hs', hr, extra, he, hx⟩ := ih (pos + 2) ds
            ((3, (c :: '+' :: ds).take ((c :: '+' :: ds).length - ds.length)) ::
              (4, ('+' :: ds).take (('+' :: ds).length - ds.length)) :: caps)
            (by simp at hcs; omega)
          obtain ⟨v, hv⟩ := Option.isSome_iff_exists.mp (hK s')
          refine ⟨s', ?_, by rw [hr]; simp [hc], extra ++ [_, _], he.trans (by
            simp only [List.append_assoc, List.cons_append, List.nil_append]; rfl), ?_⟩
          · rw [starN, run_body_plus _ _ _ _ _ v hc]
            · simp [hv]
            · have hlt : ds.length < (c :: '+' :: ds).length := by simp; omega
              simp only [hlt, if_true]
              rw [hs', hv]
          · intro e hm
            rcases List.mem_append.mp hm with h | h
            · exact hx e h
            · simp at h; rcases h with h | h
              · left; rw [h]
              · right; rw [h]
        · obtain ⟨s', hs', hr, extra, he, hx⟩ := ih (pos + 1) cs
            ((3, (c :: cs).take ((c :: cs).length - cs.length)) :: caps) hcs
          obtain ⟨v, hv⟩ := Option.isSome_iff_exists.mp (hK s')
          refine ⟨s', ?_, by rw [hr, hdrop], extra ++ [_], he.trans (by
            simp only [List.append_assoc, List.cons_append, List.nil_append]; rfl), ?_⟩
          · rw [starN, run_body_other _ _ _ _ _ v hc (fun ds h => hp ⟨ds, h⟩)]
            · simp [hv]
            · have hlt : cs.length < (c :: cs).length := by simp
              simp only [hlt, if_true]
              rw [hs', hv]
          · intro e hm
            rcases List.mem_append.mp hm with h | h
            · exact hx e h
            · simp at h; left; rw [h]

theorem take_sub_dropWhile (p : Char → Bool) (l : List Char) :
    l.take (l.length - (l.dropWhile p).length) = l.takeWhile p := by
  have h := List.takeWhile_append_dropWhile (p := p) (l := l)
  have hl : l.length - (l.dropWhile p).length = (l.takeWhile p).length := by
    have := congrArg List.length h
    simp only [List.length_append] at this
    omega
  rw [hl]
  have := List.take_left' (l₁ := l.takeWhile p) (l₂ := l.dropWhile p) rfl
  rw [h] at this
  exact this

theorem lookup_skip (extra caps : List (Nat × List Char)) (n : Nat)
    (h : ∀ e ∈ extra, e.1 ≠ n) : (extra ++ caps).lookup n = caps.lookup n := by
  induction extra with
  | nil => rfl
  | cons e es ih =>
    have he : e.1 ≠ n := h e (by simp)
    have : (n == e.1) = false := by simp; exact fun x => he x.symm
    obtain ⟨a, b⟩ := e
    simp only [List.cons_append, List.lookup_cons]
    simp only at this
    rw [this]
    exact ih (fun e he => h e (by simp [he]))

theorem run_plus_body (K : St → Option St) (hK : ∀ s, (K s).isSome) (pos c cs caps)
    (hc : c ≠ '\n') :
    ∃ s', run (.plus true indexTargetBody) ⟨pos, c :: cs, caps⟩ K = K s' ∧
      s'.rest = (c :: cs).dropWhile (· != '\n') ∧
        ∃ extra, s'.caps = extra ++ caps ∧ ∀ e ∈ extra, e.1 = 3 ∨ e.1 = 4 := by
  have hdrop : (c :: cs).dropWhile (· != '\n') = cs.dropWhile (· != '\n') := by simp [hc]
  simp only [Re.plus, run_seq]
  by_cases hp : ∃ ds, cs = '+' :: ds
  · obtain ⟨ds, rfl⟩ := hp
    obtain ⟨s', hs', hr, extra, he, hx⟩ := starN_body K hK ds.length (pos + 2) ds
      ((3, (c :: '+' :: ds).take ((c :: '+' :: ds).length - ds.length)) ::
        (4, ('+' :: ds).take (('+' :: ds).length - ds.length)) :: caps) (Nat.le_refl _)
    obtain ⟨v, hv⟩ := Option.isSome_iff_exists.mp (hK s')
    refine ⟨s', ?_, by rw [hr]; simp [hc], extra ++ [_, _], he.trans (by
      simp only [List.append_assoc, List.cons_append, List.nil_append]; rfl), ?_⟩
    · rw [run_body_plus _ _ _ _ _ v hc (by rw [run_star]; rw [← hv]; exact hs'), hv]
    · intro e hm
      rcases List.mem_append.mp hm with h | h
      · exact hx e h
      · simp at h; rcases h with h | h
        · left; rw [h]
        · right; rw [h]
  · obtain ⟨s', hs', hr, extra, he, hx⟩ := starN_body K hK cs.length (pos + 1) cs
      ((3, (c :: cs).take ((c :: cs).length - cs.length)) :: caps) (Nat.le_refl _)
    obtain ⟨v, hv⟩ := Option.isSome_iff_exists.mp (hK s')
    refine ⟨s', ?_, by rw [hr, hdrop], extra ++ [_], he.trans (by
      simp only [List.append_assoc, List.cons_append, List.nil_append]; rfl), ?_⟩
    · rw [run_body_other _ _ _ _ _ v hc (fun ds h => hp ⟨ds, h⟩)
        (by rw [run_star]; rw [← hv]; exact hs'), hv]
    · intro e hm
      rcases List.mem_append.mp hm with h | h
      · exact hx e h
      · simp at h; left; rw [h]

/-- Group 2 captures the rest of the line. -/
theorem run_grp2_some (pos c cs caps) (hc : c ≠ '\n') :
    ∃ s', run (.grp 2 (.plus true indexTargetBody)) ⟨pos, c :: cs, caps⟩ some = some s' ∧
      s'.cap 2 = lineOf (c :: cs) ∧ s'.cap 1 = (caps.lookup 1).getD [] := by
  obtain ⟨s', hs', hr, extra, he, hx⟩ := run_plus_body (fun s' =>
    some { s' with caps := (2, (c :: cs).take ((c :: cs).length - s'.rest.length)) :: s'.caps })
    (fun s => rfl) pos c cs caps hc
  refine ⟨_, by rw [run_grp]; exact hs', ?_, ?_⟩
  · simp only [St.cap, List.lookup_cons_self, Option.getD_some, hr]
    exact take_sub_dropWhile _ _
  · simp only [St.cap, he]
    have : ((2 : Nat), (c :: cs).take ((c :: cs).length - s'.rest.length)) :: (extra ++ caps) =
      ((2, (c :: cs).take ((c :: cs).length - s'.rest.length)) :: extra) ++ caps := rfl
    rw [this, lookup_skip]
    intro e hm
    simp at hm
    rcases hm with rfl | hm
    · simp
    · rcases hx e hm with h | h <;> rw [h] <;> decide

theorem run_grp2_nil (pos caps) :
    run (.grp 2 (.plus true indexTargetBody)) ⟨pos, [], caps⟩ some = none := rfl

theorem run_grp2_nl (pos cs caps) :
    run (.grp 2 (.plus true indexTargetBody)) ⟨pos, '\n' :: cs, caps⟩ some = none := rfl

/-- The part of `indexTargetReg` after the lazy table name. -/
abbrev afterTable (t : List Char) : St → Option St := fun s' =>
  run (.seq (.cls (· == ':')) (.grp 2 (.plus true indexTargetBody)))
    { s' with caps := (1, t.take (t.length - s'.rest.length)) :: s'.caps } some

theorem lazyScan_table (t : List Char) : ∀ (cs a : List Char) (pos : Nat), t = a ++ cs →
    (∀ x y, lineOf cs = x ++ ':' :: y → ':' ∉ x → y ≠ [] →
      ∃ m, lazyScan (· != '\n') (afterTable t) [] pos cs = some m ∧
        m.cap 1 = a ++ x ∧ m.cap 2 = y) ∧
    ((¬∃ x y, y ≠ [] ∧ lineOf cs = x ++ ':' :: y) →
      lazyScan (· != '\n') (afterTable t) [] pos cs = none) := by
  intro cs
  induction cs with
  | nil =>
    intro a pos ht
    refine ⟨fun x y h => by simp at h, fun _ => rfl⟩
  | cons d ds ih =>
    intro a pos ht
    have hstep := ih (a ++ [d]) (pos + 1) (by simp [ht])
    by_cases hnl : d = '\n'
    · subst hnl
      refine ⟨fun x y h => by simp at h, fun _ => rfl⟩
    · have hdne : (d != '\n') = true := by simp [hnl]
      have hline : lineOf (d :: ds) = d :: lineOf ds := by simp [hnl]
      have htake : t.take (t.length - (d :: ds).length) = a := by
        rw [ht]
        have : (a ++ d :: ds).length - (d :: ds).length = a.length := by simp
        rw [this]; simp
      by_cases hcol : d = ':'
      · subst hcol
        have hk : afterTable t ⟨pos, ':' :: ds, []⟩ =
            run (.grp 2 (.plus true indexTargetBody)) ⟨pos + 1, ds, [(1, a)]⟩ some := by
          simp only [afterTable, run_seq, run_cls_cons, beq_self_eq_true, if_true, htake]
        by_cases hds : lineOf ds = []
        · have hnone : run (.grp 2 (.plus true indexTargetBody)) ⟨pos + 1, ds, [(1, a)]⟩ some
              = none := by
            cases ds with
            | nil => rfl
            | cons e es =>
              by_cases he : e = '\n'
              · subst he; rfl
              · simp [lineOf, he] at hds
          have hrec : lazyScan (· != '\n') (afterTable t) [] (pos + 1) ds = none := by
            apply hstep.2
            rintro ⟨x, y, hy, h⟩
            rw [hds] at h; simp at h
          have hall : lazyScan (· != '\n') (afterTable t) [] pos (':' :: ds) = none := by
            simp only [lazyScan, hk, hnone, hdne, if_true, hrec]
          refine ⟨?_, fun _ => hall⟩
          intro x y h hx hy
          rw [hline, hds] at h
          cases x with
          | nil => simp at h; exact absurd h hy
          | cons x0 xs => simp at h
        · cases ds with
          | nil => simp [lineOf] at hds
          | cons e es =>
            have he : e ≠ '\n' := by intro he; simp [lineOf, he] at hds
            obtain ⟨m, hm, h2, h1⟩ := run_grp2_some (pos + 1) e es [(1, a)] he
            have hall : lazyScan (· != '\n') (afterTable t) [] pos (':' :: e :: es) = some m := by
              simp only [lazyScan, hk, hm]
            refine ⟨?_, ?_⟩
            · intro x y h hx hy
              rw [hline] at h
              cases x with
              | nil =>
                simp only [List.nil_append, List.cons.injEq, true_and] at h
                exact ⟨m, hall, by rw [h1]; simp, by rw [h2, h]⟩
              | cons x0 xs =>
                simp at h hx
                exact absurd h.1 hx.1
            · intro hno
              exact absurd ⟨[], lineOf (e :: es), hds, by rw [hline]; rfl⟩ hno
      · have hk : afterTable t ⟨pos, d :: ds, []⟩ = none := by
          have : (d == ':') = false := by simp [hcol]
          simp only [afterTable, run_seq, run_cls_cons, this, Bool.false_eq_true, if_false]
        have hall : lazyScan (· != '\n') (afterTable t) [] pos (d :: ds) =
            lazyScan (· != '\n') (afterTable t) [] (pos + 1) ds := by
          simp only [lazyScan, hk, hdne, if_true]
        refine ⟨?_, ?_⟩
        · intro x y h hx hy
          rw [hline] at h
          cases x with
          | nil => simp at h; exact absurd h.1 hcol
          | cons x0 xs =>
            simp only [List.cons_append, List.cons.injEq] at h
            obtain ⟨m, hm, h1, h2⟩ := hstep.1 xs y h.2 (fun hmem => hx (by simp [hmem])) hy
            exact ⟨m, by rw [hall, hm], by rw [h1, ← h.1]; simp, h2⟩
        · intro hno
          rw [hall]
          apply hstep.2
          rintro ⟨x, y, hy, h⟩
          exact hno ⟨d :: x, y, hy, by rw [hline, h]; rfl⟩

/-- A line of the form `something:something`. -/
def hasShape (l : List Char) : Prop := ∃ a b, a ≠ [] ∧ b ≠ [] ∧ l = a ++ ':' :: b

theorem first_colon (l x y : List Char) (hy : y ≠ []) (h : l = x ++ ':' :: y) :
    ∃ x' y', l = x' ++ ':' :: y' ∧ ':' ∉ x' ∧ y' ≠ [] := by
  induction x generalizing l with
  | nil => exact ⟨[], y, h, by simp, hy⟩
  | cons c cs ih =>
    obtain ⟨x', y', hl, hx, hy'⟩ := ih (cs ++ ':' :: y) rfl
    by_cases hc : c = ':'
    · exact ⟨[], cs ++ ':' :: y, by rw [h, hc]; rfl, by simp, by simp⟩
    · exact ⟨c :: x', y', by rw [h, List.cons_append, hl]; rfl,
        by simp [hx]; exact fun h => hc h.symm, hy'⟩

theorem run_reg_cons (pos c cs) (hc : c ≠ '\n') :
    run indexTargetReg ⟨pos, c :: cs, []⟩ some =
      lazyScan (· != '\n') (afterTable (c :: cs)) [] (pos + 1) cs := by
  have hcne : (c != '\n') = true := by simp [hc]
  simp only [indexTargetReg, run_seq (.grp 1 _), run_grp, Re.plus, run_seq, Re.dot, run_cls_cons,
    hcne, if_true, run_star_lazy_cls]
  rfl

theorem splitOn_ne_nil (sep : Char) (t : List Char) : splitOn sep t ≠ [] := by
  cases t with
  | nil => simp [splitOn]
  | cons c cs =>
    simp only [splitOn]
    split
    · simp
    · split <;> simp

theorem splitOn_head (t : List Char) :
    ∃ ls, splitOn '\n' t = lineOf t :: ls := by
  induction t with
  | nil => exact ⟨[], rfl⟩
  | cons c cs ih =>
    obtain ⟨ls, h⟩ := ih
    by_cases hc : c = '\n'
    · exact ⟨splitOn '\n' cs, by simp [splitOn, hc]⟩
    · exact ⟨ls, by simp [splitOn, hc, h]⟩

/-- What the search finds: the first line with the shape, cut at its first usable colon. -/
theorem findFrom_reg : ∀ (t : List Char) (pos : Nat),
    (findFrom indexTargetReg pos t = none ∧ ∀ l ∈ splitOn '\n' t, ¬hasShape l) ∨
    ∃ m, findFrom indexTargetReg pos t = some m ∧
      ∃ ls1 line ls2, splitOn '\n' t = ls1 ++ line :: ls2 ∧ (∀ l ∈ ls1, ¬hasShape l) ∧
        line = m.cap 1 ++ ':' :: m.cap 2 ∧ m.cap 1 ≠ [] ∧ m.cap 2 ≠ [] ∧ ':' ∉ (m.cap 1).tail := by
  intro t
  induction t with
  | nil =>
    intro pos
    left
    refine ⟨rfl, ?_⟩
    intro l hl
    simp [splitOn] at hl
    subst hl
    rintro ⟨a, b, _, _, h⟩
    simp at h
  | cons c cs ih =>
    intro pos
    by_cases hc : c = '\n'
    · subst hc
      have hrun : run indexTargetReg ⟨pos, '\n' :: cs, []⟩ some = none := rfl
      have hempty : ¬hasShape [] := by rintro ⟨a, b, _, _, h⟩; simp at h
      have hsplit : splitOn '\n' ('\n' :: cs) = [] :: splitOn '\n' cs := by simp [splitOn]
      simp only [findFrom, hrun]
      rcases ih (pos + 1) with ⟨h, hl⟩ | ⟨m, h, ls1, line, ls2, hs, hl1, hrest⟩
      · left
        refine ⟨h, ?_⟩
        intro l hm
        rw [hsplit] at hm
        rcases List.mem_cons.mp hm with rfl | hm
        · exact hempty
        · exact hl l hm
      · right
        refine ⟨m, h, [] :: ls1, line, ls2, by rw [hsplit, hs]; rfl, ?_, hrest⟩
        intro l hm
        rcases List.mem_cons.mp hm with rfl | hm
        · exact hempty
        · exact hl1 l hm
    · obtain ⟨ls, hls⟩ := splitOn_head cs
      have hsplit : splitOn '\n' (c :: cs) = (c :: lineOf cs) :: ls := by simp [splitOn, hc, hls]
      have hscan := lazyScan_table (c :: cs) cs [c] (pos + 1) rfl
      by_cases hsh : ∃ x y, y ≠ [] ∧ lineOf cs = x ++ ':' :: y
      · obtain ⟨x0, y0, hy0, h0⟩ := hsh
        obtain ⟨x, y, hxy, hx, hy⟩ := first_colon _ x0 y0 hy0 h0
        obtain ⟨m, hm, h1, h2⟩ := hscan.1 x y hxy hx hy
        right
        refine ⟨m, ?_, [], c :: lineOf cs, ls, by rw [hsplit]; rfl, by simp, ?_, ?_, ?_, ?_⟩
        · simp only [findFrom, run_reg_cons _ _ _ hc, hm]
        · rw [h1, h2, hxy]; rfl
        · rw [h1]; simp
        · rw [h2]; exact hy
        · rw [h1]; simpa using hx
      · have hnone := hscan.2 hsh
        have hno : ¬hasShape (c :: lineOf cs) := by
          rintro ⟨a, b, ha, hb, h⟩
          cases a with
          | nil => exact ha rfl
          | cons a0 as =>
            simp only [List.cons_append, List.cons.injEq] at h
            exact hsh ⟨as, b, hb, h.2⟩
        have hno' : ¬hasShape (lineOf cs) := by
          rintro ⟨a, b, ha, hb, h⟩
          exact hsh ⟨a, b, hb, h⟩
        have hff : findFrom indexTargetReg pos (c :: cs) = findFrom indexTargetReg (pos + 1) cs := by
          simp only [findFrom, run_reg_cons _ _ _ hc, hnone]
        rw [hff]
        rcases ih (pos + 1) with ⟨h, hl⟩ | ⟨m, h, ls1, line, ls2, hs, hl1, hline, hrest⟩
        · left
          refine ⟨h, ?_⟩
          intro l hm
          rw [hsplit] at hm
          rcases List.mem_cons.mp hm with rfl | hm
          · exact hno
          · exact hl l (by rw [hls]; simp [hm])
        · right
          rw [hls] at hs
          cases ls1 with
          | nil =>
            simp only [List.nil_append, List.cons.injEq] at hs
            exact absurd ⟨_, _, hrest.1, hrest.2.1, hs.1.trans hline⟩ hno'
          | cons l1 ls1 =>
            simp only [List.cons_append, List.cons.injEq] at hs
            refine ⟨m, h, (c :: lineOf cs) :: ls1, line, ls2, by rw [hsplit, hs.2]; rfl, ?_,
              hline, hrest⟩
            intro l hm
            rcases List.mem_cons.mp hm with rfl | hm
            · exact hno
            · exact hl1 l (by simp [hm])

/-! ### Splitting and joining columns -/

theorem joinWith_splitOn (sep : Char) (t : List Char) :
    joinWith [sep] (splitOn sep t) = t := by
  induction t with
  | nil => rfl
  | cons c cs ih =>
    simp only [splitOn]
    split
    · rename_i h
      cases hs : splitOn sep cs with
      | nil => exact absurd hs (splitOn_ne_nil _ _)
      | cons p ps =>
        rw [hs] at ih
        simp [joinWith, ih, h]
    · cases hs : splitOn sep cs with
      | nil => exact absurd hs (splitOn_ne_nil _ _)
      | cons p ps =>
        rw [hs] at ih
        cases ps with
        | nil => simp [joinWith] at ih ⊢; exact ih
        | cons q qs => simp [joinWith] at ih ⊢; exact ih

theorem splitOn_notMem (sep : Char) (t : List Char) (h : sep ∉ t) : splitOn sep t = [t] := by
  induction t with
  | nil => rfl
  | cons c cs ih =>
    have hc : c ≠ sep := fun he => h (by simp [he])
    simp [splitOn, hc, ih (fun hm => h (by simp [hm]))]

theorem splitOn_append (sep : Char) (a t : List Char) (h : sep ∉ a) :
    splitOn sep (a ++ sep :: t) = a :: splitOn sep t := by
  induction a with
  | nil => simp [splitOn]
  | cons c cs ih =>
    have hc : c ≠ sep := fun he => h (by simp [he])
    simp [splitOn, hc, ih (fun hm => h (by simp [hm]))]

theorem splitOn_joinWith (sep : Char) (ps : List (List Char)) (hne : ps ≠ [])
    (h : ∀ p ∈ ps, sep ∉ p) : splitOn sep (joinWith [sep] ps) = ps := by
  induction ps with
  | nil => exact absurd rfl hne
  | cons p ps ih =>
    cases ps with
    | nil => exact splitOn_notMem sep p (h p (by simp))
    | cons q qs =>
      have : joinWith [sep] (p :: q :: qs) = p ++ sep :: joinWith [sep] (q :: qs) := by
        simp [joinWith]
      rw [this, splitOn_append _ _ _ (h p (by simp)),
        ih (by simp) (fun x hx => h x (by simp [hx]))]

theorem newIndexColumns_ok (ps : List (List Char)) (cols : List IndexColumn) :
    newIndexColumns ps = .ok cols ↔
      ps = cols.map (·.name) ∧ ∀ c ∈ cols, isMatch wordOnlyReg c.name = true := by
  induction ps generalizing cols with
  | nil => cases cols <;> simp [newIndexColumns]
  | cons p ps ih =>
    simp only [newIndexColumns, newIndexColumn]
    by_cases hp : isMatch wordOnlyReg p = true
    · simp only [hp, if_true]
      cases h : newIndexColumns ps with
      | error e =>
        cases cols with
        | nil => simp [bind, Except.bind]
        | cons d ds =>
          have := ih ds
          rw [h] at this
          simp [bind, Except.bind] at this ⊢
          intro h1 h2 h3
          obtain ⟨x, hx, hxf⟩ := this h2
          exact ⟨x, hx, hxf⟩
      | ok r =>
        have hr := ih r
        simp only [h, true_iff] at hr
        cases cols with
        | nil => simp [bind, Except.bind, pure, Except.pure]
        | cons d ds =>
          have := ih ds
          rw [h] at this
          simp only [Except.ok.injEq] at this
          simp only [bind, Except.bind, pure, Except.pure, Except.ok.injEq, List.cons.injEq,
            List.map_cons, List.mem_cons, forall_eq_or_imp, this]
          constructor
          · rintro ⟨rfl, h2⟩; exact ⟨⟨rfl, h2.1⟩, hp, h2.2⟩
          · rintro ⟨⟨rfl, h2⟩, _, h3⟩; exact ⟨rfl, h2, h3⟩
    · cases cols with
      | nil => simp [hp, bind, Except.bind]
      | cons d ds =>
        simp only [hp, Bool.false_eq_true, if_false, bind, Except.bind, List.map_cons,
          List.cons.injEq, List.mem_cons, forall_eq_or_imp]
        constructor
        · intro h; cases h
        · rintro ⟨⟨rfl, _⟩, h2, _⟩; exact absurd h2 hp

end Verif.Index
