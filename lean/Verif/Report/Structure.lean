import Verif.Regex.Words
import Verif.Report.Json
/-!
# C86: the parts of the page

The browser reads the written file as four parts: the data, the style, the body and the script of the
page (`/repo/html/html_builder.go:25-44`).  The script looks for the element `app`
(`/repo/client/src/main.ts:4-6`, `/repo/client/src/mermaid.ts:10-12`), which has to be in the body before it.
-/
namespace Verif.Report

/-! ## The browser -/

/-- the text before the first `pat` and what follows it -/
def upTo (pat : Str) : Str → Option (Str × Str)
  | [] => none
  | c :: cs =>
    if pat.isPrefixOf (c :: cs) then some ([], (c :: cs).drop pat.length)
    else (upTo pat cs).map fun p => (c :: p.1, p.2)

/-- the text of an element whose content is raw text (a style element), up to its end tag `p`, and what follows
the `<` of the end tag (HTML standard, 13.2.5: RAWTEXT states) -/
def rawText (p : Str) : Str → Option (Str × Str)
  | [] => none
  | c :: cs =>
    if isTag p (c :: cs) = true then some ([], cs) else (rawText p cs).map fun q => (c :: q.1, q.2)

/-- what a browser finds in the file -/
structure Parts where
  data : Str
  style : Str
  body : Str
  script : Str

/-- script, style, body, script -/
def readPage (t : Str) : Option Parts :=
  (firstScript t).bind fun d =>
  (upTo "<style>".toList d.2).bind fun s =>
  (rawText "</style".toList s.2).bind fun y =>
  (upTo "<script>".toList y.2).bind fun b =>
  (scan .data b.2).map fun x => ⟨d.1, y.1, b.1, x.1⟩

/-- an element with this id, `<… id="…">` -/
def HasElement (body id : Str) : Prop :=
  ∃ a n b, Regex.Run Regex.WordChar n ∧ body = a ++ ('<' :: n ++ (" id=\"".toList ++ (id ++ ('"' :: '>' :: b))))

/-- no end tag in the style sheet -/
def StyleOk (style : Str) : Prop := ∀ a b, style ≠ a ++ '<' :: '/' :: b

/-- the script is not ended by its own text -/
def ScriptOk (script : Str) : Prop :=
  ∀ r, scan .data (script ++ ("</script>".toList ++ r)) = some (script, "/script>".toList ++ r)

/-! ## Lemmas -/

theorem upTo_first (pat x : Str) (hne : pat ≠ []) : ∀ h : Str,
    (∀ i < h.length, pat.isPrefixOf ((h ++ pat).drop i) = false) → upTo pat (h ++ (pat ++ x)) = some (h, x) := by
  intro h
  induction h with
  | nil =>
    intro _
    rw [List.nil_append]
    have hp : pat.isPrefixOf (pat ++ x) = true := List.isPrefixOf_iff_prefix.mpr (List.prefix_append _ _)
    cases hq : pat ++ x with
    | nil => exact absurd (List.append_eq_nil_iff.mp hq).1 hne
    | cons c cs => rw [hq] at hp; rw [upTo, if_pos hp, ← hq, List.drop_left]
  | cons c h ih =>
    intro hi
    have ih := ih (fun i hlt => by
      have := hi (i + 1) (by simpa using hlt)
      simpa using this)
    rw [List.cons_append, upTo, if_neg, ih]
    · rfl
    · intro hp
      have h0 := hi 0 (by simp)
      rw [List.drop_zero] at h0
      rw [List.isPrefixOf_iff_prefix] at hp
      have : pat <+: (c :: h ++ pat) := by
        apply List.prefix_of_prefix_length_le hp (l₂ := c :: h ++ pat)
        · exact ⟨x, by simp⟩
        · simp; omega
      rw [← List.isPrefixOf_iff_prefix, h0] at this
      cases this

theorem tag_slash (n : Str) (c d : Char) (cs : Str) (h : isTag ('<' :: '/' :: n) (c :: d :: cs) = true) :
    c = '<' ∧ d = '/' := by
  unfold isTag at h
  rw [Bool.and_eq_true, beq_iff_eq] at h
  have h := h.1
  simp only [List.length_cons, List.take_succ_cons, List.map_cons, List.cons.injEq] at h
  refine ⟨toLower_lt c h.1.symm, ?_⟩
  have h2 := h.2.1
  have : d.toLower = '/' → d = '/' := by
    intro hd
    unfold Char.toLower at hd
    split at hd
    · next hc =>
      exfalso
      have := congrArg Char.toNat hd
      simp only [Char.toNat] at this
      rw [UInt32.toNat_add] at this
      have h1 : 65 ≤ d.toNat := UInt32.le_iff_toNat_le.mp hc.1
      have h2 : d.toNat ≤ 90 := UInt32.le_iff_toNat_le.mp hc.2
      simp at this
      omega
    · exact hd
  exact this h2.symm

theorem rawText_style (style r : Str) (h : StyleOk style) :
    rawText "</style".toList (style ++ ("</style>".toList ++ r)) = some (style, "/style>".toList ++ r) := by
  induction style with
  | nil =>
    show rawText "</style".toList ("</style".toList ++ '>' :: r) = _
    rw [show ("</style".toList ++ '>' :: r) = '<' :: ("/style>".toList ++ r) from rfl, rawText, if_pos]
    exact isTag_self "</style".toList '>' r (by decide +kernel) (by decide)
  | cons c s ih =>
    have hs : StyleOk s := by
      intro a b e
      exact h (c :: a) b (by rw [e]; rfl)
    rw [List.cons_append, rawText, if_neg, ih hs]
    · rfl
    · intro ht
      cases s with
      | nil =>
        have := tag_slash "style".toList c '<' ("/style>".toList ++ r) ht
        exact absurd this.2 (by decide)
      | cons d s =>
        obtain ⟨rfl, rfl⟩ := tag_slash "style".toList c d _ ht
        exact h [] s rfl

theorem tame_scriptOk (s : Str) (h : Tame s) : ScriptOk s := by
  intro r
  rw [scan_tame _ _ h]
  have : scan .data ("</script>".toList ++ r) = some ([], "/script>".toList ++ r) := by
    show scan .data ('<' :: ("/script>".toList ++ r)) = _
    rw [scan, if_pos]
    refine ⟨by decide, ?_⟩
    have hcl : closeName = "</script".toList := by unfold closeName; rfl
    rw [hcl]
    exact isTag_self "</script".toList '>' r (by decide +kernel) (by decide)
  rw [this]; simp

/-! ## C86 -/

/-- **C86, the parts.** Whatever the data is, the browser finds the style and the script of the page as they were
compiled into the program, and the element that the script looks for is in the body. -/
theorem C86_parts (v : Val) (hv : NumOk v) (style script : Str) (hs : StyleOk style) (hj : ScriptOk script) :
    ∃ p, readPage (pageText v style script) = some p ∧ p.style = style ∧ p.script = script ∧
      HasElement p.body "app".toList ∧ p.data = assign ++ embed v ++ lineEnd := by
  have e : tailOf style script = "/script>\n\t".toList ++ ("<style>".toList ++ (style ++ ("</style>".toList ++
      ("\n  </head>\n  <body>\n    <div id=\"app\"></div>\n    ".toList ++ ("<script>".toList ++
        (script ++ ("</script>".toList ++ "\n  </body>\n</html>\n".toList))))))) := by
    have h1 : afterData = "/script>\n\t".toList ++ "<style>".toList := by decide +kernel
    have h2 : afterStyle = "</style>".toList ++
      ("\n  </head>\n  <body>\n    <div id=\"app\"></div>\n    ".toList ++ "<script>".toList) := by decide +kernel
    have h3 : tmplEnd = "</script>".toList ++ "\n  </body>\n</html>\n".toList := by decide +kernel
    unfold tailOf
    rw [h1, h2, h3]
    simp only [List.append_assoc]
  refine ⟨⟨assign ++ embed v ++ lineEnd, style,
    "/style>".toList ++ "\n  </head>\n  <body>\n    <div id=\"app\"></div>\n    ".toList, script⟩, ?_, rfl, rfl, ?_, rfl⟩
  · unfold readPage
    rw [C86_script v hv style script, Option.bind_some]
    simp only
    rw [e, upTo_first "<style>".toList _ (by decide) "/script>\n\t".toList (by decide +kernel), Option.bind_some]
    simp only
    rw [rawText_style style _ hs, Option.bind_some]
    simp only
    rw [← List.append_assoc "/style>".toList, upTo_first "<script>".toList _ (by decide)
      ("/style>".toList ++ "\n  </head>\n  <body>\n    <div id=\"app\"></div>\n    ".toList) (by decide +kernel),
      Option.bind_some]
    simp only
    rw [hj]; rfl
  · exact ⟨"/style>\n  </head>\n  <body>\n    ".toList, "div".toList, "</div>\n    ".toList,
      ⟨by decide, by intro c hc; exact (Regex.isWord_iff c).mp (by revert c; decide +kernel)⟩,
      by show "/style>".toList ++ _ = _; decide +kernel⟩

/-- a style sheet and a script meeting the hypotheses -/
example : StyleOk "a > b { color: red }".toList ∧ ScriptOk "new App({target: document.body})".toList := by
  refine ⟨?_, tame_scriptOk _ (by unfold Tame; decide +kernel)⟩
  intro a b e
  have : '<' ∉ "a > b { color: red }".toList := by decide +kernel
  rw [e] at this
  simp at this

end Verif.Report
