import Verif.MysqlPlan.Numbers
import Verif.Regex.Words
/-!
# C78: the label of a line of a MySQL plan

`/repo/database/mysql/mmodel/explain_analyze_result_line.go:154-183`
-/
namespace Verif.MysqlPlan
open Verif.Regex Verif.Lib

/-! ## Model -/

@[irreducible] def colon : Str := ":".toList
@[irreducible] def joinWord : Str := " join ".toList
@[irreducible] def onWord : Str := " on ".toList
@[irreducible] def oneSpace : Str := " ".toList
@[irreducible] def joinEnd : Str := " join".toList
@[irreducible] def arrow : Str := "->".toList
@[irreducible] def openParen : Str := "(".toList

/-- `explain_analyze_result_line.go:154` -/
def titleReg : Re :=
  .seq (.lit arrow) (.seq (.plus true (.cls isSpc)) (.seq (.grp 1 (.plus true .dot))
    (.seq (.plus true (.cls isSpc)) (.lit openParen))))
/-- `explain_analyze_result_line.go:155`; group 0 is the whole match -/
def titleWordReg : Re := .grp 0 (.plus true (.cls isWord))

/-- `strings.Split(s, sep)[0]` if `strings.Contains(s, sep)`: the text before the first `sep` -/
def beforeFirst (sep : Str) : Str → Option Str
  | [] => if sep.isPrefixOf [] then some [] else none
  | c :: cs => if sep.isPrefixOf (c :: cs) then some [] else (beforeFirst sep cs).map (c :: ·)

/-- `unicode.IsSpace` -/
def isUSpace (c : Char) : Bool :=
  c == '\t' || c == '\n' || c == '\x0b' || c == '\x0c' || c == '\r' || c == ' ' || c.val == 0x85 ||
  c.val == 0xA0 || c.val == 0x1680 || (0x2000 ≤ c.val && c.val ≤ 0x200a) || c.val == 0x2028 ||
  c.val == 0x2029 || c.val == 0x202f || c.val == 0x205f || c.val == 0x3000

/-- `strings.TrimSpace` -/
def trimSpace (s : Str) : Str := ((s.dropWhile isUSpace).reverse.dropWhile isUSpace).reverse

/-- `explain_analyze_result_line.go:168-182`: the label made of the text between arrow and
parenthesis; `strings.Split` without occurrence gives the text itself. -/
def titleOf (txt : Str) : Str :=
  match beforeFirst colon txt with
  | some t => trimSpace t
  | none => match beforeFirst joinWord txt with
    | some t => trimSpace t ++ joinEnd
    | none => match beforeFirst onWord txt with
      | some t => trimSpace t
      | none => (beforeFirst oneSpace txt).getD txt

/-- `explain_analyze_result_line.go:157-183` `Title` -/
def title (text : Str) : Str :=
  match find titleReg text with
  | some m => titleOf (m.cap 1)
  | none => match find titleWordReg text with
    | some m => m.cap 0
    | none => []

/-! ## Lemmas -/

theorem beforeFirst_some (sep : Str) : ∀ (p t : Str), FirstAt sep p (sep ++ t) →
    beforeFirst sep (p ++ (sep ++ t)) = some p := by
  intro p
  induction p with
  | nil =>
    intro t _
    have hp : sep.isPrefixOf (sep ++ t) = true := List.isPrefixOf_iff_prefix.mpr (List.prefix_append _ _)
    cases h : sep ++ t with
    | nil =>
      rw [h] at hp
      rw [List.nil_append, beforeFirst, if_pos hp]
    | cons c cs =>
      rw [h] at hp
      rw [List.nil_append, beforeFirst, if_pos hp]
  | cons c cs ih =>
    intro t h
    have h0 := h [] (c :: cs) rfl (by simp)
    rw [List.cons_append, beforeFirst, if_neg (by
      rw [List.isPrefixOf_iff_prefix]; exact h0), ih t (fun p1 p2 e h2 => h (c :: p1) p2 (by rw [e]; rfl) h2)]
    rfl

theorem beforeFirst_none (sep : Str) : ∀ (t : Str), Absent sep t → beforeFirst sep t = none := by
  intro t
  induction t with
  | nil =>
    intro h
    rw [beforeFirst, if_neg (by rw [List.isPrefixOf_iff_prefix]; exact h [] [] rfl)]
  | cons c cs ih =>
    intro h
    rw [beforeFirst, if_neg (by rw [List.isPrefixOf_iff_prefix]; exact h [] (c :: cs) rfl),
      ih (fun t1 t2 e => h (c :: t1) t2 (by rw [e]; rfl))]
    rfl

theorem dropWhile_head {p : Char → Bool} : ∀ {s : Str}, (∀ c ∈ s.head?, p c = false) →
    s.dropWhile p = s
  | [], _ => rfl
  | c :: cs, h => by rw [List.dropWhile_cons, h c (by simp)]; simp

theorem trimSpace_id (s : Str) (h1 : ∀ c ∈ s.head?, isUSpace c = false)
    (h2 : ∀ c ∈ s.getLast?, isUSpace c = false) : trimSpace s = s := by
  unfold trimSpace
  rw [dropWhile_head h1, dropWhile_head (by rw [List.head?_reverse]; exact h2), List.reverse_reverse]

/-- a greedy loop reaches at least as far as any place where the rest succeeds -/
theorem greedyScan_far (p : Char → Bool) (k : St → Option St) (caps) :
    ∀ (a r : Str) (pos : Nat), (∀ c ∈ a, p c = true) → (k ⟨pos + a.length, r, caps⟩).isSome →
      ∃ a' r', a ++ r = a' ++ r' ∧ a.length ≤ a'.length ∧ (k ⟨pos + a'.length, r', caps⟩).isSome ∧
        greedyScan p k caps pos (a ++ r) = k ⟨pos + a'.length, r', caps⟩ := by
  intro a r
  induction r generalizing a with
  | nil =>
    intro pos ha hk
    refine ⟨a, [], rfl, Nat.le_refl _, hk, ?_⟩
    rw [greedyScan_run p k caps [] (by simp) a pos ha hk]
  | cons c cs ih =>
    intro pos ha hk
    by_cases hc : p c = true
    · by_cases hk' : (greedyScan p k caps (pos + a.length + 1) cs).isSome
      · -- something further succeeds
        obtain ⟨s, hs⟩ := Option.isSome_iff_exists.mp hk'
        have hpre : ∀ (b : Str) (q : Nat), (∀ x ∈ b, p x = true) → ∀ t,
            greedyScan p k caps (q + b.length) t = some s → greedyScan p k caps q (b ++ t) = some s := by
          intro b
          induction b with
          | nil => intro q _ t h; simpa using h
          | cons d ds ihb =>
            intro q hb t h
            rw [List.cons_append, greedyScan, if_pos (hb d (by simp)),
              ihb (q + 1) (fun x hx => hb x (by simp [hx])) t (by
                rw [List.length_cons] at h
                rw [show q + 1 + ds.length = q + (ds.length + 1) by omega]; exact h)]
        have hex : ∀ (t : Str) (q : Nat) , greedyScan p k caps q t = some s →
            ∃ a' r', t = a' ++ r' ∧ k ⟨q + a'.length, r', caps⟩ = some s := by
          intro t
          induction t with
          | nil => intro q h; exact ⟨[], [], rfl, by simpa [greedyScan] using h⟩
          | cons d ds iht =>
            intro q h
            rw [greedyScan] at h
            split at h
            · split at h
              · rename_i x hx
                cases h
                obtain ⟨a', r', e, hk⟩ := iht (q + 1) hx
                exact ⟨d :: a', r', by rw [e]; rfl, by
                  rw [List.length_cons, show q + (a'.length + 1) = q + 1 + a'.length by omega]; exact hk⟩
              · exact ⟨[], d :: ds, rfl, by simpa using h⟩
            · exact ⟨[], d :: ds, rfl, by simpa using h⟩
        obtain ⟨a', r', e, hk2⟩ := hex cs _ hs
        have hall : greedyScan p k caps pos (a ++ c :: cs) = some s := by
          apply hpre a pos ha
          rw [greedyScan, if_pos hc, hs]
        have hk3 : k ⟨pos + (a ++ c :: a').length, r', caps⟩ = some s := by
          rw [← hk2]; congr 2; simp; omega
        refine ⟨a ++ c :: a', r', by rw [e]; simp, by simp, by rw [hk3]; rfl, by rw [hall, hk3]⟩
      · have hn : greedyScan p k caps (pos + a.length + 1) cs = none := by
          cases h : greedyScan p k caps (pos + a.length + 1) cs with
          | none => rfl
          | some x => rw [h] at hk'; exact absurd rfl hk'
        refine ⟨a, c :: cs, rfl, Nat.le_refl _, hk, ?_⟩
        have hpre : ∀ (b : Str) (q : Nat), (∀ x ∈ b, p x = true) →
            (k ⟨q + b.length, c :: cs, caps⟩).isSome →
            greedyScan p k caps (q + b.length + 1) cs = none →
            greedyScan p k caps q (b ++ c :: cs) = k ⟨q + b.length, c :: cs, caps⟩ := by
          intro b
          induction b with
          | nil =>
            intro q _ _ h
            rw [List.nil_append, greedyScan, if_pos hc]
            simp only [List.length_nil, Nat.add_zero] at h ⊢
            rw [h]
          | cons d ds ihb =>
            intro q hb h1 h
            rw [List.length_cons, show q + (ds.length + 1) = q + 1 + ds.length by omega] at h h1 ⊢
            rw [List.cons_append, greedyScan, if_pos (hb d (by simp)),
              ihb (q + 1) (fun x hx => hb x (by simp [hx])) h1 h]
            cases hh : k ⟨q + 1 + ds.length, c :: cs, caps⟩ with
            | some x => rfl
            | none => rw [hh] at h1; cases h1
        exact hpre a pos ha hk hn
    · refine ⟨a, c :: cs, rfl, Nat.le_refl _, hk, ?_⟩
      exact greedyScan_run p k caps (c :: cs) (by simpa using hc) a pos ha hk

theorem run_plus_spc_paren (sp : Str) (r : Str) (pos : Nat) (caps) (hne : sp ≠ [])
    (hsp : ∀ c ∈ sp, isSpc c = true) :
    run (.seq (.plus true (.cls isSpc)) (.lit openParen)) ⟨pos, sp ++ '(' :: r, caps⟩ some =
      some ⟨pos + sp.length + 1, r, caps⟩ := by
  cases sp with
  | nil => exact absurd rfl hne
  | cons c cs =>
    have hp : openParen = ['('] := by unfold openParen; rfl
    simp only [Re.plus, run_seq, List.cons_append, run_cls_cons, hsp c (by simp), if_true,
      run_star_greedy_cls]
    rw [greedyScan_run]
    · rw [hp, show ('(' :: r) = ['('] ++ r from rfl, run_lit]
      simp; omega
    · intro d hd
      simp at hd
      subst hd; decide
    · intro x hx; exact hsp x (by simp [hx])
    · rw [hp, show ('(' :: r) = ['('] ++ r from rfl, run_lit]; rfl

/-- the text captured between the arrow and the last parenthesis preceded by a space: it begins the
text after the arrow and goes at least as far as `b` when ` (` follows `b` -/
theorem title_capture (ind sp b sp2 q : Str) (hind : ∀ c ∈ ind, isSpc c = true)
    (hsp : ∀ c ∈ sp, isSpc c = true) (hspne : sp ≠ [])
    (hb : b ≠ []) (hb1 : ∀ c ∈ b.head?, isSpc c = false)
    (hnl : '\n' ∉ b) (hsp2 : ∀ c ∈ sp2, isSpc c = true) (hsp2ne : sp2 ≠ []) :
    ∃ more, b ++ more <+: b ++ (sp2 ++ '(' :: q) ∧
      title (ind ++ (arrow ++ (sp ++ (b ++ (sp2 ++ '(' :: q))))) = titleOf (b ++ more) := by
  have harrow : arrow = ['-', '>'] := by unfold arrow; rfl
  cases b with
  | nil => exact absurd rfl hb
  | cons b0 bs =>
  cases sp with
  | nil => exact absurd rfl hspne
  | cons s0 ss =>
  have hdot : ∀ c ∈ b0 :: bs, (c != '\n') = true := by
    intro c hc
    rw [bne_iff_ne]
    intro e
    exact hnl (e ▸ hc)
  have hb0 : isSpc b0 = false := hb1 b0 (by simp)
  -- the continuation after the spaces
  obtain ⟨a', r', e, hlen, hk, hscan⟩ := greedyScan_far (· != '\n')
    (fun s' => run (.seq (.plus true (.cls isSpc)) (.lit openParen))
      ⟨s'.pos, s'.rest, (1, (b0 :: (bs ++ (sp2 ++ '(' :: q))).take
        ((b0 :: (bs ++ (sp2 ++ '(' :: q))).length - s'.rest.length)) :: s'.caps⟩ some) []
    bs (sp2 ++ '(' :: q) (0 + ind.length + arrow.length + 1 + ss.length + 1)
    (fun c hc => hdot c (by simp [hc])) (by
      simp only
      rw [run_plus_spc_paren _ _ _ _ hsp2ne hsp2]; rfl)
  have hpre : bs <+: a' := by
    apply List.prefix_of_prefix_length_le (l₃ := a' ++ r') _ (List.prefix_append _ _) hlen
    rw [← e]; exact List.prefix_append _ _
  obtain ⟨more, rfl⟩ := hpre
  refine ⟨more, ?_, ?_⟩
  · rw [List.cons_append, List.cons_append, e]
    exact List.cons_prefix_cons.mpr ⟨rfl, List.prefix_append _ _⟩
  have hcap : (b0 :: (bs ++ (sp2 ++ '(' :: q))).take
      ((b0 :: (bs ++ (sp2 ++ '(' :: q))).length - r'.length) = b0 :: (bs ++ more) := by
    rw [e]
    have := take_len (b0 :: (bs ++ more)) r'
    simpa using this
  have hrun : run titleReg ⟨0 + ind.length, arrow ++ ((s0 :: ss) ++ ((b0 :: bs) ++ (sp2 ++ '(' :: q))), []⟩
      some = run (.seq (.plus true (.cls isSpc)) (.lit openParen))
        ⟨0 + ind.length + arrow.length + 1 + ss.length + 1 + (bs ++ more).length, r',
          [(1, b0 :: (bs ++ more))]⟩ some := by
    have hc0 := hscan
    have hk0 := hk
    simp only [hcap] at hc0 hk0
    unfold titleReg
    clear hscan hk
    generalize (Re.seq (Re.plus true (Re.cls isSpc)) (Re.lit openParen)) = E at hc0 hk0 ⊢
    rw [run_seq, run_lit, run_seq]
    simp only [Re.plus, run_seq, List.cons_append, run_cls_cons, hsp s0 (by simp), if_true,
      run_star_greedy_cls]
    have hval : run (.grp 1 (.seq .dot (.star true .dot))) ⟨0 + ind.length + arrow.length + 1 + ss.length,
        b0 :: (bs ++ (sp2 ++ '(' :: q)), []⟩ (fun s' => run E s' some) =
        run E ⟨0 + ind.length + arrow.length + 1 + ss.length + 1 + (bs ++ more).length, r',
          [(1, b0 :: (bs ++ more))]⟩ some := by
      rw [run_grp, run_seq]
      simp only [Re.dot, run_cls_cons, hdot b0 (by simp), if_true, run_star_greedy_cls]
      exact hc0
    rw [greedyScan_run isSpc _ [] _ _ ss _ (fun c hc => hsp c (by simp [hc])), hval]
    · rw [hval]
      exact hk0
    · intro c hc; simp at hc; subst hc; exact hb0
  simp only [hcap] at hk
  have hfind : find titleReg (ind ++ (arrow ++ ((s0 :: ss) ++ ((b0 :: bs) ++ (sp2 ++ '(' :: q))))) =
      run (.seq (.plus true (.cls isSpc)) (.lit openParen))
        ⟨0 + ind.length + arrow.length + 1 + ss.length + 1 + (bs ++ more).length, r',
          [(1, b0 :: (bs ++ more))]⟩ some := by
    rw [find, find_skip, hrun]
    · intro p1 p2 he hp2 pos'
      unfold titleReg
      rw [run_seq, run_lit_none]
      intro hpre
      cases p2 with
      | nil => exact hp2 rfl
      | cons d ds =>
        rw [harrow, List.cons_append] at hpre
        have hd : '-' = d := (List.cons_prefix_cons.mp hpre).1
        have := hind d (by rw [he]; simp)
        rw [← hd] at this
        exact absurd this (by decide)
    · rw [hrun]; exact hk
  unfold title
  rw [hfind]
  -- what remains of the match keeps the capture
  have hkeep : ∀ st : St, ∀ m, run (.seq (.plus true (.cls isSpc)) (.lit openParen)) st some = some m →
      m.caps = st.caps := by
    intro st m hm
    have hp : openParen = ['('] := by unfold openParen; rfl
    obtain ⟨pos, rest, caps⟩ := st
    have hl : ∀ st' m', run (.lit openParen) st' some = some m' → m'.caps = st'.caps := by
      intro st' m' h'
      obtain ⟨pos', rest', caps'⟩ := st'
      rw [hp] at h'
      cases rest' with
      | nil => simp [Re.lit, run] at h'
      | cons d ds =>
        simp only [Re.lit, run_cls_cons] at h'
        split at h'
        · cases h'; rfl
        · cases h'
    have hg : ∀ (t : Str) (q' : Nat) m', greedyScan isSpc (fun s' => run (.lit openParen) s' some) caps q' t = some m' →
        m'.caps = caps := by
      intro t
      induction t with
      | nil => intro q' m' h'; exact hl _ _ (by simpa [greedyScan] using h')
      | cons d ds iht =>
        intro q' m' h'
        rw [greedyScan] at h'
        split at h'
        · split at h'
          · rename_i x hx
            cases h'
            exact iht _ _ hx
          · exact hl _ _ h'
        · exact hl _ _ h'
    cases rest with
    | nil => simp [Re.plus, run] at hm
    | cons d ds =>
      simp only [Re.plus, run_seq, run_cls_cons, run_star_greedy_cls] at hm
      split at hm
      · exact hg _ _ _ hm
      · cases hm
  obtain ⟨m, hm⟩ := Option.isSome_iff_exists.mp hk
  rw [hm]
  have := hkeep _ m hm
  simp only [St.cap]
  rw [this]
  simp

/-! ## C78 -/

/-- a line of a MySQL plan: indentation, an arrow, spaces, the description, spaces, and a
parenthesis -/
structure PlanLine (text desc : Str) : Prop where
  shape : ∃ ind sp sp2 q, text = ind ++ (arrow ++ (sp ++ (desc ++ (sp2 ++ '(' :: q)))) ∧
    (∀ c ∈ ind, isSpc c = true) ∧ (∀ c ∈ sp, isSpc c = true) ∧ sp ≠ [] ∧
    (∀ c ∈ sp2, isSpc c = true) ∧ sp2 ≠ []
  nonempty : desc ≠ []
  start : ∀ c ∈ desc.head?, isSpc c = false
  oneLine : '\n' ∉ desc

theorem PlanLine.capture {text desc : Str} (h : PlanLine text desc) :
    ∃ more, (desc ++ more) <:+: text ∧ title text = titleOf (desc ++ more) := by
  obtain ⟨ind, sp, sp2, q, e, h1, h2, h3, h4, h5⟩ := h.shape
  obtain ⟨more, hp, ht⟩ := title_capture ind sp desc sp2 q h1 h2 h3 h.nonempty h.start h.oneLine h4 h5
  obtain ⟨u, hu⟩ := hp
  refine ⟨more, ⟨ind ++ (arrow ++ sp), u, ?_⟩, by rw [e]; exact ht⟩
  rw [e, ← hu]; simp

/-- a trimmed text -/
def Trimmed (s : Str) : Prop := (∀ c ∈ s.head?, isUSpace c = false) ∧ (∀ c ∈ s.getLast?, isUSpace c = false)

/-- C78: the label of a line is the name of the operation: what comes before the first colon, -/
theorem C78_mysql_colon (text op rest : Str) (h : PlanLine text (op ++ ':' :: rest)) (ht : Trimmed op)
    (hc : ':' ∉ op) : title text = op := by
  obtain ⟨more, _, e⟩ := h.capture
  have hcol : colon = [':'] := by unfold colon; rfl
  rw [e, titleOf, show op ++ ':' :: rest ++ more = op ++ (colon ++ (rest ++ more)) by rw [hcol]; simp,
    beforeFirst_some]
  · exact trimSpace_id op ht.1 ht.2
  · intro p1 p2 he hp2 hpre
    cases p2 with
    | nil => exact hp2 rfl
    | cons d ds =>
      rw [hcol, List.cons_append] at hpre
      have := (List.cons_prefix_cons.mp hpre).1
      exact hc (by rw [he, this]; simp)

theorem absent_of_infix {s a t : Str} (h : Absent s t) (hi : a <:+: t) : Absent s a := by
  obtain ⟨x, y, e⟩ := hi
  intro t1 t2 he hp
  refine h (x ++ t1) (t2 ++ y) (by rw [← e, he]; simp) ?_
  exact hp.trans (List.prefix_append _ _)

/-- C78: or, without colon, what comes before the first ` join `, and `join`, -/
theorem C78_mysql_join (text op rest : Str) (h : PlanLine text (op ++ (" join ".toList ++ rest)))
    (ht : Trimmed op) (hc : ':' ∉ text) (hf : FirstAt " join ".toList op (" join ".toList ++ rest)) :
    title text = op ++ " join".toList := by
  obtain ⟨more, hi, e⟩ := h.capture
  have hj : joinWord = " join ".toList := by unfold joinWord; rfl
  have hcol : colon = [':'] := by unfold colon; rfl
  have hje : joinEnd = " join".toList := by unfold joinEnd; rfl
  have habs : Absent colon text := by
    intro t1 t2 he hp
    obtain ⟨u, hu⟩ := hp
    exact hc (by rw [he, ← hu, hcol]; simp)
  rw [e, titleOf, beforeFirst_none colon _ (absent_of_infix habs hi)]
  simp only
  rw [List.append_assoc, List.append_assoc, ← hj, beforeFirst_some, ← hje]
  · simp only
    rw [trimSpace_id op ht.1 ht.2]
  · intro p1 p2 he hp2 hpre
    refine hf p1 p2 he hp2 ?_
    rw [← hj]
    have h1 : joinWord <+: p2 ++ (joinWord ++ rest) ++ more := by
      simpa [List.append_assoc] using hpre
    exact List.prefix_of_prefix_length_le h1 (List.prefix_append _ _) (by simp; omega)

/-- C78: or, with neither, what comes before the first ` on `, -/
theorem C78_mysql_on (text op rest : Str) (h : PlanLine text (op ++ (" on ".toList ++ rest)))
    (ht : Trimmed op) (hc : ':' ∉ text) (hj : Absent " join ".toList text)
    (hf : FirstAt " on ".toList op (" on ".toList ++ rest)) : title text = op := by
  obtain ⟨more, hi, e⟩ := h.capture
  have hj' : joinWord = " join ".toList := by unfold joinWord; rfl
  have ho : onWord = " on ".toList := by unfold onWord; rfl
  have hcol : colon = [':'] := by unfold colon; rfl
  have habs : Absent colon text := by
    intro t1 t2 he hp
    obtain ⟨u, hu⟩ := hp
    exact hc (by rw [he, ← hu, hcol]; simp)
  rw [e, titleOf, beforeFirst_none colon _ (absent_of_infix habs hi)]
  simp only
  rw [beforeFirst_none joinWord _ (absent_of_infix (by rw [hj']; exact hj) hi)]
  simp only
  rw [List.append_assoc, List.append_assoc, ← ho, beforeFirst_some]
  · simp only
    rw [trimSpace_id op ht.1 ht.2]
  · intro p1 p2 he hp2 hpre
    refine hf p1 p2 he hp2 ?_
    rw [← ho]
    have h1 : onWord <+: p2 ++ (onWord ++ rest) ++ more := by
      simpa [List.append_assoc] using hpre
    exact List.prefix_of_prefix_length_le h1 (List.prefix_append _ _) (by simp; omega)

/-- C78: or else its first word. -/
theorem C78_mysql_word (text op rest : Str) (h : PlanLine text (op ++ ' ' :: rest)) (hs : ' ' ∉ op)
    (hc : ':' ∉ text) (hj : Absent " join ".toList text) (ho : Absent " on ".toList text) :
    title text = op := by
  obtain ⟨more, hi, e⟩ := h.capture
  have hj' : joinWord = " join ".toList := by unfold joinWord; rfl
  have ho' : onWord = " on ".toList := by unfold onWord; rfl
  have hsp : oneSpace = [' '] := by unfold oneSpace; rfl
  have hcol : colon = [':'] := by unfold colon; rfl
  have habs : Absent colon text := by
    intro t1 t2 he hp
    obtain ⟨u, hu⟩ := hp
    exact hc (by rw [he, ← hu, hcol]; simp)
  rw [e, titleOf, beforeFirst_none colon _ (absent_of_infix habs hi)]
  simp only
  rw [beforeFirst_none joinWord _ (absent_of_infix (by rw [hj']; exact hj) hi)]
  simp only
  rw [beforeFirst_none onWord _ (absent_of_infix (by rw [ho']; exact ho) hi)]
  simp only
  rw [show op ++ ' ' :: rest ++ more = op ++ (oneSpace ++ (rest ++ more)) by rw [hsp]; simp,
    beforeFirst_some]
  · rfl
  · intro p1 p2 he hp2 hpre
    cases p2 with
    | nil => exact hp2 rfl
    | cons d ds =>
      rw [hsp, List.cons_append] at hpre
      have := (List.cons_prefix_cons.mp hpre).1
      exact hs (by rw [he, this]; simp)

/-- C78 fails when a colon is part of a value: the label of a range scan is cut in the middle of the
value. -/
theorem C78_mysql_colon_in_value_fails :
    ∃ text op rest : Str, PlanLine text (op ++ (" on ".toList ++ rest)) ∧ Trimmed op ∧
      FirstAt " on ".toList op (" on ".toList ++ rest) ∧ title text ≠ op := by
  refine ⟨"-> Index range scan on t using i over ('10:00' <= at)  (cost=1 rows=2)".toList,
    "Index range scan".toList, "t using i over ('10:00' <= at)".toList, ⟨⟨[], " ".toList, "  ".toList,
      "cost=1 rows=2)".toList, ?_⟩, ?_, ?_, ?_⟩, ?_, ?_, ?_⟩
  · decide +kernel
  · decide +kernel
  · decide +kernel
  · decide +kernel
  · unfold Trimmed; decide +kernel
  · intro p1 p2 e h2 hp
    have hall : ∀ n < 17, ("Index range scan".toList).drop n ≠ [] → ¬ " on ".toList <+:
        ("Index range scan".toList).drop n ++
          (" on ".toList ++ "t using i over ('10:00' <= at)".toList) := by
      decide +kernel
    have hlen : ("Index range scan".toList).length = 16 := by decide +kernel
    have hd : p2 = ("Index range scan".toList).drop p1.length := by rw [e]; simp
    have hl : p1.length < 17 := by
      have := congrArg List.length e
      rw [hlen, List.length_append] at this
      omega
    rw [hd] at h2 hp
    exact hall _ hl h2 hp
  · decide +kernel

/-- a line with a colon -/
example : title "    -> Aggregate: count(0)  (actual time=10.124..10.124 rows=1 loops=1)".toList =
    "Aggregate".toList := by decide +kernel
/-- the hypotheses of `C78_mysql_on` hold for a usual line -/
example : PlanLine "-> Table scan on tasks  (cost=1 rows=3) (actual time=0.1..2 rows=3 loops=1)".toList
    ("Table scan".toList ++ (" on ".toList ++ "tasks".toList)) :=
  ⟨⟨[], " ".toList, "  ".toList, "cost=1 rows=3) (actual time=0.1..2 rows=3 loops=1)".toList,
    by decide +kernel⟩, by decide +kernel, by decide +kernel, by decide +kernel⟩
/-- a join -/
example : title "-> Nested loop inner join  (cost=1 rows=2) (actual time=0.1..3 rows=1 loops=1)".toList =
    "Nested loop inner join".toList := by decide +kernel
/-- neither -/
example : title "-> Materialize CTE c if needed  (actual time=3..3 rows=3 loops=1)".toList =
    "Materialize".toList := by decide +kernel

/-- a match leaves an ending of the text -/
theorem step_suffix (r : Re) : ∀ s s' : St, Step r s s' → s'.rest <:+ s.rest := by
  induction r with
  | cls p =>
    rintro s s' ⟨c, cs, e, -, rfl⟩
    rw [e]
    exact List.suffix_cons _ _
  | eps => rintro s s' rfl; exact List.suffix_rfl
  | seq a b ha hb =>
    rintro s s' ⟨t, h1, h2⟩
    exact (hb _ _ h2).trans (ha _ _ h1)
  | alt a b ha hb =>
    rintro s s' (h | h)
    · exact ha _ _ h
    · exact hb _ _ h
  | star g r ih =>
    intro s s' h
    replace h : Iter (Step r) s s' := h
    induction h with
    | nil s => exact List.suffix_rfl
    | cons h1 _ _ ih2 => exact ih2.trans (ih _ _ h1)
  | grp n r ih =>
    rintro s s' ⟨t, h, rfl⟩
    exact ih s t h
  | bos => rintro s s' ⟨-, rfl⟩; exact List.suffix_rfl
  | eos => rintro s s' ⟨-, rfl⟩; exact List.suffix_rfl

theorem titleReg_none (text : Str) (h : Absent "->".toList text ∨ '(' ∉ text) : find titleReg text = none := by
  rcases h with h | h
  · have harrow : arrow = "->".toList := by unfold arrow; rfl
    rw [← harrow] at h
    exact find_none_of_absent _ _ _ _ h
  · rw [find_none_iff]
    rintro a b s' rfl ⟨t1, h1, t2, h2, t3, h3, t4, h4, h5⟩
    have hopen : openParen = ['('] := by unfold openParen; rfl
    have e := ((step_lit _ _ _).mp h5).1
    rw [hopen] at e
    have hm : '(' ∈ t4.rest := by rw [e]; simp
    exact h (List.mem_append_right _ ((step_suffix _ _ _ h1).mem ((step_suffix _ _ _ h2).mem
      ((step_suffix _ _ _ h3).mem ((step_suffix _ _ _ h4).mem hm)))))

/-- C78: a line without arrow or without parenthesis is labelled with its first word, -/
theorem C78_mysql_bare (pre w r : Str)
    (h : Absent "->".toList (pre ++ (w ++ r)) ∨ '(' ∉ pre ++ (w ++ r)) (hpre : ∀ c ∈ pre, ¬ WordChar c)
    (hw : Run WordChar w) (hr : ∀ c ∈ r.head?, ¬ WordChar c) : title (pre ++ (w ++ r)) = w := by
  have hf : ∀ c, ¬ WordChar c → isWord c = false := fun c hc => by
    rw [← isWord_iff] at hc; simpa using hc
  have hrun : run titleWordReg ⟨0 + pre.length, w ++ r, []⟩ some = some ⟨0 + pre.length + w.length, r, [(0, w)]⟩ :=
    run_grp_greedy 0 isWord some [] w r _ hw.1 (fun c hc => (isWord_iff c).mpr (hw.2 c hc))
      (fun c hc => hf c (hr c hc)) rfl
  have : find titleWordReg (pre ++ (w ++ r)) = some ⟨0 + pre.length + w.length, r, [(0, w)]⟩ := by
    rw [find, find_skip _ _ _ _ (fun p1 p2 e hne pos' => ?_) (by rw [hrun]; rfl), hrun]
    refine run_grp_greedy_none _ _ _ _ _ _ fun c hc => hf c (hpre c ?_)
    cases p2 with
    | nil => exact absurd rfl hne
    | cons x p2 =>
      cases hc
      rw [e]
      simp
  rw [title, titleReg_none _ h, this]
  simp [St.cap]

/-- C78: or with nothing, if it has no word. -/
theorem C78_mysql_no_word (text : Str) (h : Absent "->".toList text ∨ '(' ∉ text) (hw : ∀ c ∈ text, ¬ WordChar c) :
    title text = [] := by
  have : find titleWordReg text = none := by
    rw [find_none_iff]
    rintro a b s' rfl hs
    obtain ⟨u, h1, h2, h3, -⟩ := (step_grp_plus _ _ _ _ _).mp hs
    cases u with
    | nil => exact h1 rfl
    | cons c u =>
      have h3 : b = c :: u ++ s'.rest := h3
      exact hw c (by rw [h3]; simp) ((isWord_iff c).mp (h2 c (by simp)))
  rw [title, titleReg_none _ h, this]

/-- a line without parenthesis: the hypotheses of `C78_mysql_bare` hold -/
example : title (" -> ".toList ++ ("Limit".toList ++ " 5 rows".toList)) = "Limit".toList :=
  C78_mysql_bare _ _ _ (.inr (by decide +kernel)) (by unfold WordChar; decide +kernel)
    ⟨by decide +kernel, by unfold WordChar; decide +kernel⟩ (by unfold WordChar; decide +kernel)

end Verif.MysqlPlan
