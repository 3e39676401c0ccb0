import Verif.MysqlPlan.Props
/-!
# C21: the nodes of the tree are the parsed lines

`/repo/database/mysql/mservice/explainer.go:33-70`
-/
namespace Verif.MysqlPlan
open Verif.Regex Verif.Lib

section
variable {F : Type} (pf : Str → Option F)

theorem buildLoop_nodes (lines : List Str) : ∀ (s0 s : List (Frame (Line F))), s0 ≠ [] →
    buildLoop pf lines s0 = .ok s →
    ∃ ns : List (Nat × Line F), (lines.filter (· ≠ [])).mapM (parseLine pf) = .ok ns ∧
      stackPre s = stackPre s0 ++ ns.map (fun p => (p.1 + 1, p.2)) := by
  induction lines with
  | nil =>
    intro s0 s _ h
    cases h
    exact ⟨[], rfl, by simp⟩
  | cons line r ih =>
    intro s0 s hs0 hb
    by_cases hline : line = []
    · subst hline
      rw [buildLoop, if_pos rfl] at hb
      simpa using ih s0 s hs0 hb
    · rw [buildLoop, if_neg hline] at hb
      have hf : (line :: r).filter (· ≠ []) = line :: r.filter (· ≠ []) := by simp [hline]
      cases hp : parseLine pf line with
      | error e => rw [hp] at hb; simp at hb
      | ok p =>
        obtain ⟨n, l⟩ := p
        rw [hp] at hb
        simp only at hb
        have ha := attach_spec s0 n l hs0
        by_cases hn : n < s0.length
        · obtain ⟨s', h1, h2, h3⟩ := ha.1 hn
          rw [h1] at hb
          obtain ⟨ns, k1, k2⟩ := ih s' s (by intro e; rw [e] at h2; simp at h2) hb
          refine ⟨(n, l) :: ns, ?_, ?_⟩
          · rw [hf, List.mapM_cons, hp, k1]
            rfl
          · rw [k2, h3]; simp
        · rw [ha.2 (by omega)] at hb
          cases hb

/-- C21: the nodes of the tree, in textual order and with their depths, are the lines of the plan as
read one by one: a node has the table and the numbers of its own line. -/
theorem C21_nodes_are_parsed_lines (text : Str) (t : Tree (Line F))
    (h : buildExplainNode pf text = .ok t) :
    (planLines text).mapM (parseLine pf) = .ok (withDepthL 0 t.children) := by
  unfold buildExplainNode at h
  cases hb : buildLoop pf (splitLines text) [({}, [])] with
  | error e => rw [hb] at h; simp at h
  | ok s =>
    rw [hb] at h
    obtain ⟨ns, h1, h2⟩ := buildLoop_nodes pf _ _ s (by simp) hb
    simp only at h
    cases hbot : bottom s with
    | none => simp only [hbot] at h; cases h
    | some t' =>
      simp only [hbot] at h
      have et : t' = t := Except.ok.inj h
      subst et
      have hw := bottom_stackPre s t' hbot
      rw [← hw] at h2
      obtain ⟨a, cs⟩ := t'
      simp only [Tree.withDepth, stackPre, List.length_nil, withDepthL,
        List.nil_append, List.cons_append, List.cons.injEq] at h2
      have h3 := h2.2
      rw [withDepthL_shift 0 1 cs] at h3
      have h4 := congrArg (List.map (fun p : Nat × Line F => (p.1 - 1, p.2))) h3
      simp only [List.map_map] at h4
      have e : withDepthL 0 cs = ns := by
        simpa [Function.comp_def] using h4
      rw [planLines, h1]
      show _ = Except.ok (withDepthL 0 cs)
      rw [e]

theorem mem_mapM_ok {ε α β : Type} (f : α → Except ε β) : ∀ (l : List α) (r : List β),
    l.mapM f = .ok r → ∀ b ∈ r, ∃ a ∈ l, f a = .ok b := by
  intro l
  induction l with
  | nil => intro r h b hb; cases h; cases hb
  | cons x l ih =>
    intro r h b hb
    rw [List.mapM_cons] at h
    obtain ⟨y, hy, h⟩ := bind_ok h
    obtain ⟨ys, hys, h⟩ := bind_ok h
    cases h
    rcases List.mem_cons.mp hb with rfl | hb
    · exact ⟨x, by simp, hy⟩
    · obtain ⟨a, ha, e⟩ := ih ys hys b hb
      exact ⟨a, by simp [ha], e⟩

/-- C21: every node of the tree is what its own line reads as. -/
theorem C21_node_of_line (text : Str) (t : Tree (Line F)) (h : buildExplainNode pf text = .ok t)
    (l : Line F) (hl : l ∈ preL t.children) :
    l.text ∈ planLines text ∧ parseLine pf l.text = .ok (level l.text, l) := by
  have hm := C21_nodes_are_parsed_lines pf text t h
  rw [← withDepthL_snd 0] at hl
  obtain ⟨p, hp, rfl⟩ := List.mem_map.mp hl
  obtain ⟨line, hline, e⟩ := mem_mapM_ok _ _ _ hm p hp
  obtain ⟨h1, h2⟩ := parseLine_ok pf line p.1 p.2 e
  rw [h2]
  refine ⟨hline, ?_⟩
  rw [e, ← h1]

end

/-- two lines; the tree has the numbers of both -/
example : (match buildExplainNode (F := Nat) (fun s => some s.length)
      "-> Filter: (a.x = 1)  (cost=1.5 rows=2)\n    -> Table scan on a  (cost=10.25 rows=20)".toList with
    | .ok t => (withDepthL 0 t.children).map (fun p => (p.1, p.2.estimatedCost, p.2.estimatedReturnedRows))
    | .error _ => []) = [(0, some 3, some 2), (1, some 5, some 20)] := by decide +kernel

end Verif.MysqlPlan
