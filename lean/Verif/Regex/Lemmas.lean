import Verif.Regex.Model
/-! Helper lemmas about the matcher. -/
namespace Verif.Regex

theorem run_cls_cons (p : Char → Bool) (pos : Nat) (c : Char) (cs caps) (k : St → Option St) :
    run (.cls p) ⟨pos, c :: cs, caps⟩ k = if p c then k ⟨pos + 1, cs, caps⟩ else none := rfl
theorem run_cls_nil (p : Char → Bool) (pos : Nat) (caps) (k : St → Option St) :
    run (.cls p) ⟨pos, [], caps⟩ k = none := rfl
theorem run_eps (s : St) (k : St → Option St) : run .eps s k = k s := rfl
theorem run_seq (a b : Re) (s : St) (k : St → Option St) :
    run (.seq a b) s k = run a s (fun s' => run b s' k) := rfl
theorem run_alt (a b : Re) (s : St) (k : St → Option St) :
    run (.alt a b) s k = match run a s k with | some r => some r | none => run b s k := rfl
theorem run_star (g : Bool) (r : Re) (s : St) (k : St → Option St) :
    run (.star g r) s k = starN (run r) g s.rest.length s k := rfl
theorem run_grp (n : Nat) (r : Re) (s : St) (k : St → Option St) :
    run (.grp n r) s k = run r s (fun s' =>
      k { s' with caps := (n, s.rest.take (s.rest.length - s'.rest.length)) :: s'.caps }) := rfl
theorem run_bos (s : St) (k : St → Option St) :
    run .bos s k = if s.pos = 0 then k s else none := rfl
theorem run_eos (s : St) (k : St → Option St) :
    run .eos s k = if s.rest = [] then k s else none := rfl

/-- What a lazy loop over one character class does: stop as early as the continuation allows. -/
def lazyScan (p : Char → Bool) (k : St → Option St) (caps : List (Nat × List Char)) :
    Nat → List Char → Option St
  | pos, [] => k ⟨pos, [], caps⟩
  | pos, c :: cs =>
    match k ⟨pos, c :: cs, caps⟩ with
    | some r => some r
    | none => if p c then lazyScan p k caps (pos + 1) cs else none

theorem starN_lazy_cls (p : Char → Bool) (k : St → Option St) (caps) :
    ∀ (rest : List Char) (pos : Nat) (n : Nat), rest.length ≤ n →
      starN (run (.cls p)) false n ⟨pos, rest, caps⟩ k = lazyScan p k caps pos rest := by
  intro rest
  induction rest with
  | nil =>
    intro pos n _
    cases n with
    | zero => simp [starN, lazyScan]
    | succ n => simp only [starN, lazyScan, run_cls_nil]; cases k ⟨pos, [], caps⟩ <;> simp
  | cons c cs ih =>
    intro pos n hn
    cases n with
    | zero => simp at hn
    | succ n =>
      simp only [starN, lazyScan, run_cls_cons, Bool.false_eq_true, if_false]
      cases hk : k ⟨pos, c :: cs, caps⟩ with
      | some r => rfl
      | none =>
        simp only [List.length_cons, Nat.lt_succ_self, if_true]
        by_cases hp : p c = true
        · simp only [hp, if_true]; exact ih (pos + 1) n (by simpa using hn)
        · simp [hp]

theorem run_star_lazy_cls (p : Char → Bool) (k : St → Option St) (s : St) :
    run (.star false (.cls p)) s k = lazyScan p k s.caps s.pos s.rest := by
  cases s; exact starN_lazy_cls p k _ _ _ _ (Nat.le_refl _)

/-- A greedy loop over one character class followed by a continuation that fails exactly when text
of the class remains. -/
def greedyScan (p : Char → Bool) (k : St → Option St) (caps : List (Nat × List Char)) :
    Nat → List Char → Option St
  | pos, [] => k ⟨pos, [], caps⟩
  | pos, c :: cs =>
    if p c then
      match greedyScan p k caps (pos + 1) cs with
      | some r => some r
      | none => k ⟨pos, c :: cs, caps⟩
    else k ⟨pos, c :: cs, caps⟩

theorem starN_greedy_cls (p : Char → Bool) (k : St → Option St) (caps) :
    ∀ (rest : List Char) (pos : Nat) (n : Nat), rest.length ≤ n →
      starN (run (.cls p)) true n ⟨pos, rest, caps⟩ k = greedyScan p k caps pos rest := by
  intro rest
  induction rest with
  | nil =>
    intro pos n _
    cases n with
    | zero => simp [starN, greedyScan]
    | succ n => simp [starN, greedyScan, run_cls_nil]
  | cons c cs ih =>
    intro pos n hn
    cases n with
    | zero => simp at hn
    | succ n =>
      simp only [starN, greedyScan, run_cls_cons, if_true]
      by_cases hp : p c = true
      · simp only [hp, if_true, List.length_cons, Nat.lt_succ_self]
        rw [ih (pos + 1) n (by simpa using hn)]
        cases greedyScan p k caps (pos + 1) cs <;> rfl
      · simp [hp]

theorem run_star_greedy_cls (p : Char → Bool) (k : St → Option St) (s : St) :
    run (.star true (.cls p)) s k = greedyScan p k s.caps s.pos s.rest := by
  cases s; exact starN_greedy_cls p k _ _ _ _ (Nat.le_refl _)

/-- `\w*\z` -/
theorem greedyScan_eos (p : Char → Bool) (caps) : ∀ (rest : List Char) (pos : Nat),
    (greedyScan p (fun s => if s.rest = [] then some s else none) caps pos rest).isSome
      = rest.all p := by
  intro rest
  induction rest with
  | nil => intro pos; simp [greedyScan]
  | cons c cs ih =>
    intro pos
    have := ih (pos + 1)
    by_cases hp : p c = true
    · simp only [greedyScan, hp, if_true]
      cases h : greedyScan p (fun s => if s.rest = [] then some s else none) caps (pos + 1) cs with
      | some r => rw [h] at this; simp_all
      | none => rw [h] at this; simp_all
    · simp [greedyScan, hp]

/-- No match can start after the beginning when the expression starts with `\A`. -/
theorem findFrom_bos_pos (r : Re) : ∀ (t : List Char) (pos : Nat), 0 < pos →
    findFrom (.seq .bos r) pos t = none := by
  intro t
  induction t with
  | nil => intro pos h; simp [findFrom, run]; omega
  | cons c cs ih =>
    intro pos h
    have : pos ≠ 0 := by omega
    simp [findFrom, run, this, ih (pos + 1) (by omega)]

theorem find_bos (r : Re) (t : List Char) :
    find (.seq .bos r) t = run r ⟨0, t, []⟩ some := by
  cases t with
  | nil => simp [find, findFrom, run]
  | cons c cs =>
    simp only [find, findFrom, run, if_true]
    cases run r ⟨0, c :: cs, []⟩ some with
    | some s => rfl
    | none => exact findFrom_bos_pos r cs 1 (by omega)

/-- A greedy loop followed by something that always succeeds takes everything. -/
theorem greedyScan_total (p : Char → Bool) (k : St → Option St) (caps)
    (hk : ∀ s, (k s).isSome) : ∀ (rest : List Char) (pos : Nat),
    greedyScan p k caps pos rest =
      k ⟨pos + (rest.takeWhile p).length, rest.dropWhile p, caps⟩ := by
  intro rest
  induction rest with
  | nil => intro pos; simp [greedyScan]
  | cons c cs ih =>
    intro pos
    by_cases hp : p c = true
    · simp only [greedyScan, hp, if_true, ih, List.takeWhile_cons, List.dropWhile_cons,
        List.length_cons]
      rw [show pos + 1 + (cs.takeWhile p).length = pos + ((cs.takeWhile p).length + 1) by omega]
      have := hk ⟨pos + ((cs.takeWhile p).length + 1), cs.dropWhile p, caps⟩
      cases h : k ⟨pos + ((cs.takeWhile p).length + 1), cs.dropWhile p, caps⟩ with
      | none => rw [h] at this; simp at this
      | some r => rfl
    · simp [greedyScan, hp]

end Verif.Regex
