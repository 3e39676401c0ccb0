import Verif.Common
import Verif.Lib.Tree
/-!
# C44, C45: the sequence diagram of a trace

`/repo/client/src/models/OtelTraceSpan.ts`, `/repo/client/src/models/trace_diagram/*.ts`
-/
namespace Verif.Client.Diagram
open Verif.Lib

abbrev Str := List Char

/-! ## Model -/

/-- `/repo/client/src/models/OtelTraceSpan.ts:5-13`; only the service name is used. -/
abbrev Span := Tree Str

/-- `/repo/client/src/models/trace_diagram/{TraceNode,TraceRepeatNode}.ts`; repeat nodes are made without
children (`OtelTraceSpan.ts:68`). -/
inductive TNode where
  | node (service : Str) (children : List TNode)
  | rep (n : Nat) (toService : Str)

/-- `/repo/client/src/models/OtelTraceSpan.ts:79-81` `isLast` -/
def isLast (s : Span) : Bool := s.children.isEmpty

/-- `/repo/client/src/models/OtelTraceSpan.ts:40-47`: the loop of `countRepeatedChildService` over the
siblings after `child` -/
def countFrom (child : Span) : List Span → Nat
  | [] => 0
  | other :: rest =>
    if isLast other = false then 0
    else if (other.val == child.val) = false then 0
    else 1 + countFrom child rest

/-- `/repo/client/src/models/OtelTraceSpan.ts:33-50` `countRepeatedChildService`, `rest` being the
siblings after `child` -/
def countRepeated (child : Span) (rest : List Span) : Nat :=
  if rest.length = 0 then 1 else 1 + countFrom child rest

/-- `/repo/client/src/models/OtelTraceSpan.ts:58-70`: the body of the loop of `createTraceNodes` -/
def nodeAt (repeatCount : Nat) (node : TNode) (service : Str) (j : Nat) : TNode :=
  if j < 3 then node
  else if j + 1 = repeatCount then node
  else .rep (repeatCount - j) service

/-- `/repo/client/src/models/OtelTraceSpan.ts:52-73` `createTraceNodes`; `node` is `span.toTraceNode()` -/
def createNodes (repeatCount : Nat) (node : TNode) (service : Str) : List TNode :=
  (List.range (min 4 repeatCount)).map (nodeAt repeatCount node service)

theorem sizeOf_drop_le {α : Type} [SizeOf α] (k : Nat) (l : List α) : sizeOf (l.drop k) ≤ sizeOf l := by
  induction l generalizing k with
  | nil => simp
  | cons a l ih =>
    cases k with
    | zero => simp
    | succ k =>
      have := ih k
      simp only [List.drop_succ_cons, List.cons.sizeOf_spec]
      omega

mutual
/-- `/repo/client/src/models/OtelTraceSpan.ts:15-31` `toTraceNode` -/
def toNode : Span → TNode
  | .node s cs => .node s (toNodes cs)
termination_by t => sizeOf t
/-- the loop of lines 18-28 over the children still to come; after a repeat `i` moves behind it -/
def toNodes : List Span → List TNode
  | [] => []
  | c :: cs =>
    if isLast c then
      createNodes (countRepeated c cs) (toNode c) c.val ++ toNodes (cs.drop (countRepeated c cs - 1))
    else toNode c :: toNodes cs
termination_by l => sizeOf l
decreasing_by
  all_goals simp only [List.cons.sizeOf_spec]
  · omega
  · have := sizeOf_drop_le (countRepeated c cs - 1) cs
    omega
  · omega
  · omega
end

/-- decimal digits, `${this.repeat}` -/
def digits (n : Nat) : Str := (toString n).toList

def TNode.service : TNode → Str
  | .node s _ => s
  | .rep _ _ => "repeat".toList

def TNode.children : TNode → List TNode
  | .node _ cs => cs
  | .rep _ _ => []

/-- `texts.join("\n")` -/
def joinNl : List Str → Str
  | [] => []
  | [x] => x
  | x :: y :: r => x ++ '\n' :: joinNl (y :: r)

/-- keywords of the diagram language -/
@[irreducible] def kwOn : Str := "activate ".toList
@[irreducible] def kwOff : Str := "deactivate ".toList
@[irreducible] def kwTo : Str := "->>".toList
@[irreducible] def kwSep : Str := ": ".toList

/-- one message line, `${from}->>${to}: ${text}` -/
def arrow (f t text : Str) : Str := f ++ kwTo ++ t ++ kwSep ++ text

/-- `/repo/client/src/models/trace_diagram/TraceRepeatNode.ts:18-23`: the text of the `j`-th arrow -/
def repLabel (n j : Nat) : Str :=
  if j = 0 then "More ".toList ++ digits n ++ " times...".toList else []

/-- `/repo/client/src/models/trace_diagram/TraceNode.ts:8-10`,
`/repo/client/src/models/trace_diagram/TraceRepeatNode.ts:14-27` `toMermaidStartArrow` -/
def startArrow (f : Str) : TNode → Str
  | .node s _ => arrow f s s
  | .rep n to =>
    joinNl ((List.range (min n 3)).map fun j : Nat => arrow f to (repLabel n j))

/-- `/repo/client/src/models/trace_diagram/TraceNode.ts:12-14`,
`/repo/client/src/models/trace_diagram/TraceRepeatNode.ts:29-31` `toMermaidEndArrow` -/
def endArrow (f : Str) : TNode → Str
  | .node s _ => arrow s f f
  | .rep _ _ => []

mutual
/-- one round of the loop of `toMermaidDiagramRecursive`,
`/repo/client/src/models/trace_diagram/TraceTree.ts:32-46` -/
def childText (f : Str) : TNode → Str
  | .node s cs =>
    startArrow f (.node s cs) ++ ['\n'] ++
    (if cs.length > 0 then kwOn ++ s ++ ['\n'] else []) ++
    childrenText s cs ++
    (if cs.length > 0 then
      endArrow f (.node s cs) ++ ['\n'] ++ (kwOff ++ s ++ ['\n']) else [])
  | .rep n to => startArrow f (.rep n to) ++ ['\n']
/-- `/repo/client/src/models/trace_diagram/TraceTree.ts:28-48` `toMermaidDiagramRecursive` for the
children of a node of service `f` -/
def childrenText (f : Str) : List TNode → Str
  | [] => []
  | c :: cs => childText f c ++ childrenText f cs
end

/-- `/repo/client/src/models/trace_diagram/TraceTree.ts:12-26` `toMermaidDiagram` -/
def diagram (root : TNode) : Str :=
  if root.children.length = 0 then
    "\n      sequenceDiagram\n      ".toList ++ root.service ++ kwTo ++ root.service ++
      kwSep ++ " \n    ".toList
  else "sequenceDiagram\r\n".toList ++ childrenText root.service root.children

/-! ## Specification -/

mutual
/-- what a node stands for: `n` calls without children for a repeat node -/
def stands : TNode → List Span
  | .node s cs => [.node s (standsL cs)]
  | .rep n s => List.replicate n (.node s [])
def standsL : List TNode → List Span
  | [] => []
  | c :: cs => stands c ++ standsL cs
end

/-! ## C44 -/

theorem standsL_append (a b : List TNode) : standsL (a ++ b) = standsL a ++ standsL b := by
  induction a with
  | nil => simp [standsL]
  | cons c a ih => simp [standsL, ih]

theorem isLast_iff (s : Span) : isLast s = true ↔ s = .node s.val [] := by
  obtain ⟨v, cs⟩ := s
  cases cs <;> simp [isLast, Tree.children, Tree.val]

theorem countFrom_spec (child : Span) (hc : isLast child = true) (rest : List Span) :
    rest = List.replicate (countFrom child rest) child ++ rest.drop (countFrom child rest) := by
  induction rest with
  | nil => simp [countFrom]
  | cons o rest ih =>
    rw [countFrom]
    by_cases h1 : isLast o = false
    · simp [h1]
    · by_cases h2 : (o.val == child.val) = false
      · simp [h1, h2]
      · have e1 := (isLast_iff o).mp (by simpa using h1)
        have e2 := (isLast_iff child).mp hc
        have e3 : o.val = child.val := by simpa using h2
        have e : o = child := by rw [e1, e2, e3]
        subst e
        have hb : (o.val == o.val) = true := by simp
        rw [if_neg h1, if_neg h2, Nat.add_comm 1, List.replicate_succ, List.drop_succ_cons,
          List.cons_append, ← ih]

theorem countRepeated_eq (child : Span) (rest : List Span) :
    countRepeated child rest = 1 + countFrom child rest := by
  unfold countRepeated
  by_cases h : rest.length = 0
  · rw [if_pos h, List.length_eq_zero_iff.mp h]
    simp [countFrom]
  · rw [if_neg h]

theorem range4 (n : Nat) (h : 1 ≤ n) : List.range (min 4 n) =
    if n = 1 then [0] else if n = 2 then [0, 1] else if n = 3 then [0, 1, 2] else [0, 1, 2, 3] := by
  rcases Nat.lt_or_ge n 4 with h4 | h4
  · have : n = 1 ∨ n = 2 ∨ n = 3 := by omega
    rcases this with rfl | rfl | rfl <;> rfl
  · rw [Nat.min_eq_left h4, if_neg (by omega), if_neg (by omega), if_neg (by omega)]
    rfl

/-- the nodes made for a run of `n` calls -/
theorem createNodes_eq (n : Nat) (h : 1 ≤ n) (node : TNode) (s : Str) : createNodes n node s =
    if n ≤ 4 then List.replicate n node else [node, node, node, .rep (n - 3) s] := by
  unfold createNodes
  rw [range4 n h]
  rcases Nat.lt_or_ge 4 n with h4 | h4
  · rw [if_neg (show ¬ n = 1 by omega), if_neg (show ¬ n = 2 by omega),
      if_neg (show ¬ n = 3 by omega), if_neg (show ¬ n ≤ 4 by omega)]
    have : ¬ 4 = n := by omega
    simp [nodeAt, this]
  · have : n = 1 ∨ n = 2 ∨ n = 3 ∨ n = 4 := by omega
    rcases this with rfl | rfl | rfl | rfl <;> rfl

theorem standsL_replicate (n : Nat) (node : TNode) (s : Span) (h : stands node = [s]) :
    standsL (List.replicate n node) = List.replicate n s := by
  induction n with
  | zero => simp [standsL]
  | succ n ih => simp [List.replicate_succ, standsL, h, ih]

theorem standsL_createNodes (n : Nat) (h : 1 ≤ n) (node : TNode) (s : Str)
    (hn : stands node = [.node s []]) :
    standsL (createNodes n node s) = List.replicate n (.node s []) := by
  rw [createNodes_eq n h]
  by_cases h4 : n ≤ 4
  · rw [if_pos h4, standsL_replicate _ _ _ hn]
  · rw [if_neg h4]
    obtain ⟨m, rfl⟩ : ∃ m, n = m + 3 := ⟨n - 3, by omega⟩
    simp [standsL, stands, hn, List.replicate_succ]

mutual
theorem stands_toNode : ∀ (s : Span), stands (toNode s) = [s]
  | .node s cs => by
    rw [toNode, stands, standsL_toNodes cs]
termination_by t => sizeOf t
theorem standsL_toNodes : ∀ (l : List Span), standsL (toNodes l) = l
  | [] => by rw [toNodes, standsL]
  | c :: cs => by
    have hc := stands_toNode c
    rw [toNodes]
    by_cases h : isLast c = true
    · have hd := standsL_toNodes (cs.drop (countRepeated c cs - 1))
      rw [if_pos h, standsL_append, hd, standsL_createNodes]
      · rw [countRepeated_eq, Nat.add_comm 1, Nat.add_sub_cancel, List.replicate_succ,
          ← (isLast_iff c).mp h, List.cons_append, ← countFrom_spec c h cs]
      · rw [countRepeated_eq]; omega
      · rw [hc]; exact congrArg (fun x => [x]) ((isLast_iff c).mp h)
    · rw [if_neg h, standsL, hc, standsL_toNodes cs]
      rfl
termination_by l => sizeOf l
decreasing_by
  all_goals simp only [List.cons.sizeOf_spec]
  · omega
  · have := sizeOf_drop_le (countRepeated c cs - 1) cs
    omega
  · omega
end

/-- C44: the nodes of the diagram stand for exactly the spans of the trace, in their places: a repeat
node for as many calls as it counts, every other node for one span. -/
theorem C44_nothing_lost (s : Span) : stands (toNode s) = [s] := stands_toNode s

/-- number of spans of a trace -/
def spanCount (s : Span) : Nat := s.pre.length

mutual
/-- spans shown plus spans counted as repeats -/
def shown : TNode → Nat
  | .node _ cs => 1 + shownL cs
  | .rep n _ => n
def shownL : List TNode → Nat
  | [] => 0
  | c :: cs => shown c + shownL cs
end

theorem preL_append {α : Type} (a b : List (Tree α)) : preL (a ++ b) = preL a ++ preL b := by
  induction a with
  | nil => simp [preL]
  | cons t a ih => simp [preL, ih]

theorem preL_replicate_leaf (n : Nat) (s : Str) :
    (preL (List.replicate n (Tree.node s []))).length = n := by
  induction n with
  | zero => simp [preL]
  | succ n ih => simp [List.replicate_succ, preL, Tree.pre, ih]

mutual
theorem shown_stands : ∀ (c : TNode), (preL (stands c)).length = shown c
  | .node s cs => by
    have := shownL_stands cs
    simp [stands, preL, Tree.pre, shown, this]
    omega
  | .rep n s => by rw [stands, shown, preL_replicate_leaf]
theorem shownL_stands : ∀ (cs : List TNode), (preL (standsL cs)).length = shownL cs
  | [] => by simp [standsL, preL, shownL]
  | c :: cs => by
    have h1 := shown_stands c
    have h2 := shownL_stands cs
    rw [standsL, preL_append, List.length_append, shownL, h1, h2]
end

/-- C44: the number of spans represented is the number of spans of the trace. -/
theorem C44_count (s : Span) : shown (toNode s) = spanCount s := by
  rw [← shown_stands, C44_nothing_lost]
  simp [preL, spanCount]

mutual
/-- every repeat node counts at least two calls and follows three nodes of a call to its service -/
def RepOk : TNode → Prop
  | .node _ cs => RepOkL [] cs
  | .rep _ _ => True
/-- `before`: the siblings already passed, the nearest first -/
def RepOkL (before : List TNode) : List TNode → Prop
  | [] => True
  | c :: cs =>
    (∀ n s, c = .rep n s → 2 ≤ n ∧ ∃ r, before = .node s [] :: .node s [] :: .node s [] :: r) ∧
    RepOk c ∧ RepOkL (c :: before) cs
end

theorem RepOkL_append (a b before : List TNode) :
    RepOkL before (a ++ b) ↔ RepOkL before a ∧ RepOkL (a.reverse ++ before) b := by
  induction a generalizing before with
  | nil => simp [RepOkL]
  | cons c a ih => simp [RepOkL, ih, and_assoc]

theorem RepOkL_replicate (n : Nat) (s : Str) (before : List TNode) :
    RepOkL before (List.replicate n (.node s [])) := by
  induction n generalizing before with
  | zero => simp [RepOkL]
  | succ n ih =>
    rw [List.replicate_succ, RepOkL]
    exact ⟨by simp, by simp [RepOk, RepOkL], ih _⟩

theorem toNode_leaf (s : Str) : toNode (.node s []) = .node s [] := by
  rw [toNode, toNodes]

mutual
theorem repOk_toNode : ∀ (s : Span), RepOk (toNode s)
  | .node s cs => by rw [toNode, RepOk]; exact repOkL_toNodes cs []
termination_by t => sizeOf t
theorem repOkL_toNodes : ∀ (l : List Span) (before : List TNode), RepOkL before (toNodes l)
  | [], _ => by rw [toNodes, RepOkL]; trivial
  | c :: cs, before => by
    have hc := repOk_toNode c
    rw [toNodes]
    by_cases h : isLast c = true
    · have hd := repOkL_toNodes (cs.drop (countRepeated c cs - 1))
      rw [if_pos h, RepOkL_append]
      refine ⟨?_, hd _⟩
      have e := (isLast_iff c).mp h
      have en : toNode c = .node c.val [] := by rw [e, toNode_leaf]; rfl
      rw [createNodes_eq _ (by rw [countRepeated_eq]; omega), en]
      by_cases h4 : countRepeated c cs ≤ 4
      · rw [if_pos h4]; exact RepOkL_replicate _ _ _
      · rw [if_neg h4]
        simp only [RepOkL, RepOk, and_true, true_and]
        refine ⟨by simp, by simp, by simp, ?_⟩
        intro n s hns
        injection hns with h1 h2
        subst h2
        exact ⟨by omega, before, rfl⟩
    · rw [if_neg h, RepOkL]
      refine ⟨?_, hc, repOkL_toNodes cs _⟩
      intro n s hns
      obtain ⟨v, ds⟩ := c
      rw [toNode] at hns
      cases hns
termination_by l => sizeOf l
decreasing_by
  all_goals simp only [List.cons.sizeOf_spec]
  · omega
  · have := sizeOf_drop_le (countRepeated c cs - 1) cs
    omega
  · omega
end

/-- C44: a repeat node stands for at least two calls and follows three drawn calls of the same
service without further calls. -/
theorem C44_repeat (s : Span) : RepOk (toNode s) := repOk_toNode s

/-- seven calls of one service around a call with a child -/
example : stands (toNode (.node ['a'] (List.replicate 6 (.node ['b'] []) ++
    [.node ['c'] [.node ['b'] []], .node ['b'] []]))) =
    [.node ['a'] (List.replicate 6 (.node ['b'] []) ++
      [.node ['c'] [.node ['b'] []], .node ['b'] []])] := C44_nothing_lost _

example : toNode (.node ['a'] (List.replicate 6 (.node ['b'] []))) =
    .node ['a'] [.node ['b'] [], .node ['b'] [], .node ['b'] [], .rep 3 ['b']] := by
  rw [toNode]
  rw [show List.replicate 6 (Tree.node ['b'] []) =
    Tree.node ['b'] [] :: List.replicate 5 (Tree.node ['b'] []) from rfl, toNodes]
  have h1 : countRepeated (Tree.node ['b'] []) (List.replicate 5 (Tree.node ['b'] [])) = 6 := by decide
  rw [h1, toNode_leaf, if_pos (by rfl), createNodes_eq 6 (by decide)]
  simp [toNodes, Tree.val]

/-! ## C45 -/

/-- lines of a sequence diagram -/
inductive Line where
  | call (f t text : Str)
  | activate (s : Str)
  | deactivate (s : Str)

def Line.text : Line → Str
  | .call f t x => arrow f t x
  | .activate s => kwOn ++ s
  | .deactivate s => kwOff ++ s

/-- the lines in the diagram language (Mermaid) -/
theorem C45_line_text (l : Line) : l.text = match l with
    | .call f t x => f ++ "->>".toList ++ t ++ ": ".toList ++ x
    | .activate s => "activate ".toList ++ s
    | .deactivate s => "deactivate ".toList ++ s := by
  cases l
  · simp only [Line.text, arrow]; unfold kwTo kwSep; rfl
  · simp only [Line.text]; unfold kwOn; rfl
  · simp only [Line.text]; unfold kwOff; rfl

/-- lines of a diagram, each with its newline -/
def render : List Line → Str
  | [] => []
  | l :: ls => l.text ++ '\n' :: render ls

/-- a reader of the diagram: the stack of active services, the innermost first, and the receiver of
the last message.  Messages are sent by the innermost active service, a service is activated by the
message it has just received, and deactivated when it has just answered the one below it. -/
def run : List Str → Str → List Line → Option (List Str)
  | stack, _, [] => some stack
  | top :: stack, _, .call f t _ :: ls => if f = top then run (top :: stack) t ls else none
  | top :: stack, last, .activate s :: ls => if s = last then run (s :: top :: stack) last ls else none
  | top :: next :: stack, last, .deactivate s :: ls =>
    if s = top ∧ last = next then run (next :: stack) last ls else none
  | _, _, _ => none

theorem render_append (a b : List Line) : render (a ++ b) = render a ++ render b := by
  induction a with
  | nil => rfl
  | cons l a ih => simp [render, ih]

/-- lines that never close more than they open and end where they began -/
def Nested (top : Str) (ls : List Line) : Prop :=
  ∀ stack last rest, ∃ last', run (top :: stack) last (ls ++ rest) = run (top :: stack) last' rest

theorem Nested.append {top : Str} {a b : List Line} (ha : Nested top a) (hb : Nested top b) :
    Nested top (a ++ b) := by
  intro stack last rest
  obtain ⟨l1, h1⟩ := ha stack last (b ++ rest)
  obtain ⟨l2, h2⟩ := hb stack l1 rest
  exact ⟨l2, by rw [List.append_assoc, h1, h2]⟩

theorem joinNl_render (ls : List Line) (h : ls ≠ []) :
    joinNl (ls.map Line.text) ++ ['\n'] = render ls := by
  induction ls with
  | nil => exact absurd rfl h
  | cons l ls ih =>
    cases ls with
    | nil => simp [joinNl, render]
    | cons l' ls =>
      have := ih (by simp)
      simp only [List.map_cons, joinNl, render] at this ⊢
      rw [List.append_assoc, List.cons_append, this]

/-- every repeat node draws at least one arrow -/
inductive Drawn : TNode → Prop where
  | node (s : Str) (cs : List TNode) : (∀ c ∈ cs, Drawn c) → Drawn (.node s cs)
  | rep (n : Nat) (s : Str) : 1 ≤ n → Drawn (.rep n s)

/-- the arrows of a repeat node -/
def repLines (f : Str) (n : Nat) (s : Str) : List Line :=
  (List.range (min n 3)).map fun j : Nat => .call f s (repLabel n j)

mutual
/-- the lines of a child, as data -/
def childLines (f : Str) : TNode → List Line
  | .node s cs =>
    .call f s s :: (if cs.isEmpty then [] else
      .activate s :: (childrenLines s cs ++ [.call s f f, .deactivate s]))
  | .rep n s => repLines f n s
def childrenLines (f : Str) : List TNode → List Line
  | [] => []
  | c :: cs => childLines f c ++ childrenLines f cs
end

theorem rep_text (f : Str) (n : Nat) (s : Str) (h : 1 ≤ n) :
    childText f (.rep n s) = render (repLines f n s) := by
  have hls : repLines f n s ≠ [] := by
    intro h0
    have := congrArg List.length h0
    simp [repLines] at this
    omega
  rw [← joinNl_render _ hls, repLines, List.map_map, childText, startArrow]
  rfl

theorem rep_nested (f : Str) (n : Nat) (s : Str) : Nested f (repLines f n s) := by
  unfold repLines
  generalize List.range (min n 3) = js
  intro stack last rest
  induction js generalizing last with
  | nil => exact ⟨last, rfl⟩
  | cons j js ih =>
    obtain ⟨l', h'⟩ := ih s
    refine ⟨l', ?_⟩
    rw [List.map_cons, List.cons_append, run, if_pos rfl, h']

mutual
theorem child_text : ∀ (c : TNode) (f : Str), Drawn c → childText f c = render (childLines f c)
  | .rep n s, f, h => by
    cases h with
    | rep _ _ hn => rw [childLines, rep_text f n s hn]
  | .node s cs, f, h => by
    cases h with
    | node _ _ hcs =>
      have h1 := children_text cs s hcs
      rw [childText, childLines]
      cases cs with
      | nil =>
        have h0 : ¬ ([] : List TNode).length > 0 := by simp
        rw [if_neg h0, if_neg h0, childrenText, List.append_nil, List.append_nil, List.append_nil]
        rfl
      | cons c cs =>
        have h0 : (c :: cs).length > 0 := by simp
        simp only [h0, if_true, h1, List.isEmpty_cons, Bool.false_eq_true, if_false, render, render_append, Line.text,
          startArrow, endArrow, List.append_assoc, List.cons_append, List.nil_append]
theorem children_text : ∀ (cs : List TNode) (f : Str), (∀ c ∈ cs, Drawn c) →
    childrenText f cs = render (childrenLines f cs)
  | [], f, _ => by rw [childrenText, childrenLines, render]
  | c :: cs, f, h => by
    rw [childrenText, childrenLines, render_append, child_text c f (h c (by simp)),
      children_text cs f (fun x hx => h x (List.mem_cons_of_mem _ hx))]
end

mutual
theorem child_nested : ∀ (c : TNode) (f : Str), Nested f (childLines f c)
  | .rep n s, f => by rw [childLines]; exact rep_nested f n s
  | .node s cs, f => by
    have h1 := children_nested cs s
    rw [childLines]
    by_cases he : cs.isEmpty = true
    · rw [if_pos he]
      intro stack last rest
      exact ⟨s, by rw [List.singleton_append, run, if_pos rfl]⟩
    · rw [if_neg he]
      intro stack last rest
      obtain ⟨l', h'⟩ := h1 (f :: stack) s ([.call s f f, .deactivate s] ++ rest)
      refine ⟨f, ?_⟩
      rw [List.cons_append, run, if_pos rfl, List.cons_append, run, if_pos rfl, List.append_assoc, h']
      simp [run]
theorem children_nested : ∀ (cs : List TNode) (f : Str), Nested f (childrenLines f cs)
  | [], f => by rw [childrenLines]; exact fun stack last rest => ⟨last, rfl⟩
  | c :: cs, f => by rw [childrenLines]; exact (child_nested c f).append (children_nested cs f)
end

theorem toNodes_ne (cs : List Span) (h : cs ≠ []) : ¬ (toNodes cs).length = 0 := by
  intro h0
  have := standsL_toNodes cs
  rw [List.length_eq_zero_iff.mp h0, standsL] at this
  exact h this.symm

theorem diagram_lines (v : Str) (ns : List TNode) (hne : ¬ ns.length = 0) (hd : ∀ c ∈ ns, Drawn c) :
    diagram (.node v ns) = "sequenceDiagram\r\n".toList ++ render (childrenLines v ns) := by
  have e : diagram (.node v ns) = "sequenceDiagram\r\n".toList ++ childrenText v ns := if_neg hne
  rw [e, children_text ns v hd]

mutual
theorem drawn_of_ok : ∀ (c : TNode), RepOk c → (∀ n s, c = .rep n s → 2 ≤ n) → Drawn c
  | .node s cs, h, _ => by
    rw [RepOk] at h
    exact .node s cs (drawnL_of_ok cs [] h)
  | .rep n s, _, h => .rep n s (by have := h n s rfl; omega)
theorem drawnL_of_ok : ∀ (cs before : List TNode), RepOkL before cs → ∀ c ∈ cs, Drawn c
  | [], _, _ => by simp
  | c :: cs, before, h => by
    rw [RepOkL] at h
    intro x hx
    rcases List.mem_cons.mp hx with e | hx
    · rw [e]
      exact drawn_of_ok c h.2.1 (fun n s e => (h.1 n s e).1)
    · exact drawnL_of_ok cs _ h.2.2 x hx
end

theorem drawn_toNode (s : Span) : Drawn (toNode s) := by
  apply drawn_of_ok _ (C44_repeat s)
  intro n t h
  obtain ⟨v, cs⟩ := s
  rw [toNode] at h
  cases h

/-- C45: the diagram of every trace with more than one span consists of message, activation and
deactivation lines that open and close in a well-nested way, starting and ending with only the root:
every message leaves the innermost active service, every activated service has just been called,
every deactivated one has just answered its caller. -/
theorem C45_balanced (s : Span) (h : s.children ≠ []) :
    ∃ ls, diagram (toNode s) = "sequenceDiagram\r\n".toList ++ render ls ∧
      ∀ last, run [s.val] last ls = some [s.val] := by
  have hd := drawn_toNode s
  obtain ⟨v, cs⟩ := s
  simp only [Tree.children] at h
  rw [toNode] at hd ⊢
  cases hd with
  | node _ _ hcs =>
    refine ⟨_, diagram_lines v _ (toNodes_ne cs h) hcs, ?_⟩
    intro last
    obtain ⟨l', h'⟩ := children_nested (toNodes cs) v [] last []
    rw [List.append_nil] at h'
    simp only [Tree.val]
    rw [h', run]

/-- a call as drawn: the service and the text on its arrow -/
abbrev Call := Str × Str

/-- Reads the lines back: a message followed by an activation begins a call with further calls, one
followed by a deactivation is the answer that ends it, any other is a call without further calls.
`path`: the calls not yet ended, the innermost first, each with what was drawn before it. -/
def readBack : List (Call × List (Tree Call)) → List (Tree Call) → List Line → Option (List (Tree Call))
  | [], cur, [] => some cur
  | path, cur, .call _ t x :: .activate s :: r =>
    if s = t then readBack (((t, x), cur) :: path) [] r else none
  | (n, before) :: path, cur, .call _ _ _ :: .deactivate _ :: r =>
    readBack path (before ++ [.node n cur]) r
  | path, cur, .call _ t x :: r => readBack path (cur ++ [.node (t, x) []]) r
  | _, _, _ => none

mutual
/-- the calls a node is to be drawn as: one for a span, with its service on the arrow; for a repeat
node up to three, the first saying how many calls it stands for -/
def calls : TNode → List (Tree Call)
  | .node s cs => [.node (s, s) (callsL cs)]
  | .rep n s => match n with
    | 0 => []
    | n + 1 => .node (s, "More ".toList ++ digits (n + 1) ++ " times...".toList) [] ::
        List.replicate (min n 2) (.node (s, []) [])
def callsL : List TNode → List (Tree Call)
  | [] => []
  | c :: cs => calls c ++ callsL cs
end

/-- what follows a call: nothing or another message -/
def Starts (ls : List Line) : Prop := ls = [] ∨ ∃ f t x r, ls = .call f t x :: r

theorem readBack_leaf (path : List (Call × List (Tree Call))) (cur : List (Tree Call)) (f t x : Str)
    (rest : List Line) (h : Starts rest) :
    readBack path cur (.call f t x :: rest) = readBack path (cur ++ [.node (t, x) []]) rest := by
  rcases h with rfl | ⟨f', t', x', r, rfl⟩ <;> cases path <;> simp [readBack]

theorem repLines_eq (f : Str) (n : Nat) (s : Str) : repLines f (n + 1) s =
    .call f s ("More ".toList ++ digits (n + 1) ++ " times...".toList) ::
      List.replicate (min n 2) (.call f s []) := by
  unfold repLines
  match n with
  | 0 => rfl
  | 1 => rfl
  | n + 2 =>
    have h1 : min (n + 2 + 1) 3 = 3 := by omega
    have h2 : min (n + 2) 2 = 2 := by omega
    rw [h1, h2]
    rfl

theorem starts_replicate (k : Nat) (f s x : Str) (rest : List Line) (h : Starts rest) :
    Starts (List.replicate k (.call f s x) ++ rest) := by
  cases k with
  | zero => simpa using h
  | succ k => exact .inr ⟨f, s, x, _, by rw [List.replicate_succ, List.cons_append]⟩

theorem readBack_replicate (k : Nat) (path : List (Call × List (Tree Call))) (cur : List (Tree Call))
    (f s x : Str) (rest : List Line) (h : Starts rest) :
    readBack path cur (List.replicate k (.call f s x) ++ rest) =
      readBack path (cur ++ List.replicate k (.node (s, x) [])) rest := by
  induction k generalizing cur with
  | zero => simp
  | succ k ih =>
    rw [List.replicate_succ, List.cons_append, readBack_leaf _ _ _ _ _ _ (starts_replicate k f s x rest h),
      ih, List.append_assoc, List.replicate_succ, List.singleton_append]

mutual
theorem starts_child : ∀ (c : TNode) (f : Str) (rest : List Line), Starts rest →
    Starts (childLines f c ++ rest)
  | .node s cs, f, rest, _ => by
    rw [childLines]
    exact .inr ⟨f, s, s, _, by rw [List.cons_append]⟩
  | .rep n s, f, rest, h => by
    rw [childLines]
    cases n with
    | zero => simpa [repLines] using h
    | succ n =>
      rw [repLines_eq]
      exact .inr ⟨f, s, _, _, by rw [List.cons_append]⟩
theorem starts_children : ∀ (cs : List TNode) (f : Str) (rest : List Line), Starts rest →
    Starts (childrenLines f cs ++ rest)
  | [], f, rest, h => by rw [childrenLines]; simpa using h
  | c :: cs, f, rest, h => by
    rw [childrenLines, List.append_assoc]
    exact starts_child c f _ (starts_children cs f rest h)
end

mutual
theorem readBack_child : ∀ (c : TNode) (f : Str) (path : List (Call × List (Tree Call)))
    (cur : List (Tree Call)) (rest : List Line), Starts rest →
    readBack path cur (childLines f c ++ rest) = readBack path (cur ++ calls c) rest
  | .node s cs, f, path, cur, rest, h => by
    rw [childLines, calls]
    cases cs with
    | nil =>
      rw [callsL]
      simp only [List.isEmpty_nil, if_true, List.singleton_append]
      exact readBack_leaf path cur f s s rest h
    | cons c cs =>
      have ih := readBack_children (c :: cs) s (((s, s), cur) :: path) []
        ([.call s f f, .deactivate s] ++ rest) (.inr ⟨s, f, f, _, rfl⟩)
      simp only [List.isEmpty_cons, Bool.false_eq_true, if_false, List.cons_append, List.append_assoc]
      rw [readBack, if_pos rfl]
      simp only [List.cons_append, List.nil_append] at ih
      rw [List.nil_append, ih, readBack]
  | .rep n s, f, path, cur, rest, h => by
    rw [childLines]
    cases n with
    | zero => simp [repLines, calls]
    | succ n =>
      rw [calls, repLines_eq, List.cons_append,
        readBack_leaf _ _ _ _ _ _ (starts_replicate _ f s [] rest h), readBack_replicate _ _ _ _ _ _ _ h,
        List.append_assoc, List.singleton_append]
theorem readBack_children : ∀ (cs : List TNode) (f : Str) (path : List (Call × List (Tree Call)))
    (cur : List (Tree Call)) (rest : List Line), Starts rest →
    readBack path cur (childrenLines f cs ++ rest) = readBack path (cur ++ callsL cs) rest
  | [], f, path, cur, rest, _ => by rw [childrenLines, callsL]; simp
  | c :: cs, f, path, cur, rest, h => by
    rw [childrenLines, callsL, List.append_assoc,
      readBack_child c f path cur _ (starts_children cs f rest h),
      readBack_children cs f path _ rest h, List.append_assoc]
end

/-- C45: the lines of the diagram, read back, are the calls of the nodes: every node below the root is
drawn as a call in its place, with its own calls inside, and repeat nodes say how often they stand. -/
theorem C45_drawn (s : Span) (h : s.children ≠ []) :
    ∃ ls ns, toNode s = .node s.val ns ∧
      diagram (toNode s) = "sequenceDiagram\r\n".toList ++ render ls ∧
      (∀ last, run [s.val] last ls = some [s.val]) ∧ readBack [] [] ls = some (callsL ns) := by
  have hd := drawn_toNode s
  obtain ⟨v, cs⟩ := s
  simp only [Tree.children] at h
  rw [toNode] at hd ⊢
  cases hd with
  | node _ _ hcs =>
    refine ⟨childrenLines v (toNodes cs), toNodes cs, rfl, diagram_lines v _ (toNodes_ne cs h) hcs, ?_, ?_⟩
    · intro last
      obtain ⟨l', h'⟩ := children_nested (toNodes cs) v [] last []
      rw [List.append_nil] at h'
      simp only [Tree.val]
      rw [h', run]
    · have := readBack_children (toNodes cs) v [] [] [] (.inl rfl)
      rw [List.append_nil, List.nil_append] at this
      rw [this, readBack]

example : readBack [] [] (childrenLines ['a'] [.node ['b'] [.node ['c'] []], .rep 5 ['d']]) =
    some [.node (['b'], ['b']) [.node (['c'], ['c']) []],
      .node (['d'], "More 5 times...".toList) [], .node (['d'], []) [], .node (['d'], []) []] := by rfl

/-- C45: a trace of one span is drawn as a message to itself, without activations. -/
theorem C45_single (s : Str) : diagram (toNode (.node s [])) =
    "\n      sequenceDiagram\n      ".toList ++ arrow s s " \n    ".toList := by
  rw [toNode_leaf]
  simp [diagram, TNode.children, TNode.service, arrow]

/-! ### the text itself -/

/-- the lines of a text, without a last empty one -/
def lines : Str → Str → List Str
  | acc, [] => if acc = [] then [] else [acc]
  | acc, c :: cs => if c = '\n' then acc :: lines [] cs else lines (acc ++ [c]) cs

/-- how a line of text opens (`some true`) or closes (`some false`) an activation -/
def opens (l : Str) : Option Bool :=
  if kwOn.isPrefixOf l then some true
  else if kwOff.isPrefixOf l then some false else none

/-- activations are never closed before they are opened; the number left open -/
def depth : Nat → List (Option Bool) → Option Nat
  | n, [] => some n
  | n, none :: r => depth n r
  | n, some true :: r => depth (n + 1) r
  | 0, some false :: _ => none
  | n + 1, some false :: r => depth n r

/-- a name of one line that does not look like an activation -/
def CleanName (s : Str) : Prop :=
  '\n' ∉ s ∧ kwOn.isPrefixOf s = false ∧ kwOff.isPrefixOf s = false

theorem lines_cons (l acc rest : Str) (h : '\n' ∉ l) :
    lines acc (l ++ '\n' :: rest) = (acc ++ l) :: lines [] rest := by
  induction l generalizing acc with
  | nil => rw [List.nil_append, lines, if_pos rfl, List.append_nil]
  | cons c l ih =>
    have hc : c ≠ '\n' := fun e => h (by simp [e])
    rw [List.cons_append, lines, if_neg hc, ih _ (fun hm => h (List.mem_cons_of_mem _ hm))]
    simp

theorem lines_render (ls : List Line) (h : ∀ l ∈ ls, '\n' ∉ l.text) :
    lines [] (render ls) = ls.map Line.text := by
  induction ls with
  | nil => rfl
  | cons l ls ih =>
    rw [render, lines_cons _ _ _ (h l (by simp)), ih (fun x hx => h x (List.mem_cons_of_mem _ hx))]
    rfl

theorem prefix_stop (p s : Str) (c : Char) (rest : Str) (hp : c ∉ p)
    (h : p.isPrefixOf s = false) : p.isPrefixOf (s ++ c :: rest) = false := by
  induction p generalizing s with
  | nil => simp at h
  | cons a p ih =>
    cases s with
    | nil =>
      rw [List.nil_append, List.isPrefixOf]
      have : (a == c) = false := by
        apply beq_eq_false_iff_ne.mpr
        intro e; exact hp (by simp [e])
      rw [this]; rfl
    | cons b s =>
      rw [List.isPrefixOf] at h
      rw [List.cons_append, List.isPrefixOf]
      cases hab : (a == b) with
      | false => rfl
      | true =>
        rw [hab, Bool.true_and] at h
        rw [Bool.true_and]
        exact ih s (fun hm => hp (List.mem_cons_of_mem _ hm)) h

theorem opens_call (f t x : Str) (h : CleanName f) : opens (arrow f t x) = none := by
  have e : arrow f t x = f ++ '-' :: (">>".toList ++ t ++ kwSep ++ x) := by
    have : kwTo = '-' :: ">>".toList := by decide +kernel
    simp [arrow, this]
  have h1 : '-' ∉ kwOn := by decide +kernel
  have h2 : '-' ∉ kwOff := by decide +kernel
  unfold opens
  rw [e, prefix_stop _ _ _ _ h1 h.2.1, prefix_stop _ _ _ _ h2 h.2.2]
  rfl

theorem isPrefixOf_append (p s : Str) : p.isPrefixOf (p ++ s) = true := by
  rw [List.isPrefixOf_iff_prefix]
  exact List.prefix_append p s

theorem opens_activate (s : Str) : opens (kwOn ++ s) = some true := by
  unfold opens
  rw [isPrefixOf_append]
  rfl

theorem opens_deactivate (s : Str) : opens (kwOff ++ s) = some false := by
  unfold opens
  rw [isPrefixOf_append]
  have : kwOn.isPrefixOf (kwOff ++ s) = false := by
    have e : kwOn = 'a' :: "ctivate ".toList := by decide +kernel
    have e2 : kwOff = 'd' :: "eactivate ".toList := by decide +kernel
    rw [e, e2, List.cons_append, List.isPrefixOf]
    rfl
  rw [this]
  rfl

def Line.CleanLine : Line → Prop
  | .call f t x => CleanName f ∧ '\n' ∉ t ∧ '\n' ∉ x
  | .activate s => '\n' ∉ s
  | .deactivate s => '\n' ∉ s

theorem clean_no_nl (l : Line) (h : l.CleanLine) : '\n' ∉ l.text := by
  have h1 : '\n' ∉ kwOn := by decide +kernel
  have h2 : '\n' ∉ kwOff := by decide +kernel
  have h3 : '\n' ∉ kwTo := by decide +kernel
  have h4 : '\n' ∉ kwSep := by decide +kernel
  cases l with
  | call f t x =>
    obtain ⟨hf, ht, hx⟩ := h
    simp only [Line.text, arrow, List.mem_append, not_or]
    exact ⟨⟨⟨⟨hf.1, h3⟩, ht⟩, h4⟩, hx⟩
  | activate s => simp only [Line.text, List.mem_append, not_or]; exact ⟨h1, h⟩
  | deactivate s => simp only [Line.text, List.mem_append, not_or]; exact ⟨h2, h⟩

theorem digits_no_nl (n : Nat) : '\n' ∉ digits n := by
  unfold digits
  intro h
  have : ∀ c ∈ (toString n).toList, c.isDigit = true := by
    intro c hc
    have : toString n = n.repr := rfl
    rw [this, Nat.toList_repr] at hc
    exact Nat.isDigit_of_mem_toDigits (by decide) (by decide) hc
  exact absurd (this _ h) (by decide)

inductive AllClean : TNode → Prop where
  | node (s : Str) (cs : List TNode) : CleanName s → (∀ c ∈ cs, AllClean c) → AllClean (.node s cs)
  | rep (n : Nat) (s : Str) : CleanName s → AllClean (.rep n s)

theorem depth_append (n m : Nat) (a b : List (Option Bool)) (h : depth n a = some m) :
    depth n (a ++ b) = depth m b := by
  induction a generalizing n with
  | nil => simp [depth] at h; subst h; rfl
  | cons x a ih =>
    rw [List.cons_append]
    cases x with
    | none => rw [depth] at h ⊢; exact ih n h
    | some v =>
      cases v with
      | true => rw [depth] at h ⊢; exact ih _ h
      | false =>
        cases n with
        | zero => rw [depth] at h; cases h
        | succ n => rw [depth] at h ⊢; exact ih n h

theorem depth_none (n : Nat) (ls : List Str) (h : ∀ l ∈ ls, opens l = none) :
    depth n (ls.map opens) = some n := by
  induction ls with
  | nil => rfl
  | cons l ls ih =>
    rw [List.map_cons, h l (by simp), depth]
    exact ih (fun x hx => h x (List.mem_cons_of_mem _ hx))

theorem repLabel_no_nl (n j : Nat) : '\n' ∉ repLabel n j := by
  have h1 : '\n' ∉ "More ".toList := by decide +kernel
  have h2 : '\n' ∉ " times...".toList := by decide +kernel
  unfold repLabel
  by_cases hj : j = 0
  · rw [if_pos hj]
    simp only [List.mem_append, not_or]
    exact ⟨⟨h1, digits_no_nl n⟩, h2⟩
  · rw [if_neg hj]; simp

mutual
theorem child_clean : ∀ (c : TNode) (f : Str), AllClean c → CleanName f →
    ∀ l ∈ childLines f c, l.CleanLine
  | .rep n s, f, hc, hf => by
    cases hc with
    | rep _ _ hs =>
      rw [childLines]
      intro l hl
      obtain ⟨j, _, rfl⟩ := List.mem_map.mp hl
      exact ⟨hf, hs.1, repLabel_no_nl n j⟩
  | .node s cs, f, hc, hf => by
    cases hc with
    | node _ _ hs hcc =>
      have h2 := children_clean cs s hcc hs
      rw [childLines]
      intro l hl
      rcases List.mem_cons.mp hl with rfl | hl
      · exact ⟨hf, hs.1, hs.1⟩
      · by_cases he : cs.isEmpty = true
        · rw [if_pos he] at hl; cases hl
        · rw [if_neg he] at hl
          simp only [List.mem_cons, List.mem_append, List.not_mem_nil, or_false] at hl
          rcases hl with rfl | hl | rfl | rfl
          · exact hs.1
          · exact h2 l hl
          · exact ⟨hs, hf.1, hf.1⟩
          · exact hs.1
theorem children_clean : ∀ (cs : List TNode) (f : Str), (∀ c ∈ cs, AllClean c) → CleanName f →
    ∀ l ∈ childrenLines f cs, l.CleanLine
  | [], f, _, _ => by rw [childrenLines]; simp
  | c :: cs, f, hc, hf => by
    rw [childrenLines]
    intro l hl
    rcases List.mem_append.mp hl with hl | hl
    · exact child_clean c f (hc c (by simp)) hf l hl
    · exact children_clean cs f (fun x hx => hc x (List.mem_cons_of_mem _ hx)) hf l hl
end

/-- what a line does to the activations -/
def Line.kind : Line → Option Bool
  | .call _ _ _ => none
  | .activate _ => some true
  | .deactivate _ => some false

theorem opens_text (l : Line) (h : l.CleanLine) : opens l.text = l.kind := by
  cases l with
  | call f t x => exact opens_call f t x h.1
  | activate s => exact opens_activate s
  | deactivate s => exact opens_deactivate s

mutual
theorem child_depth : ∀ (c : TNode) (f : Str) (n : Nat),
    depth n ((childLines f c).map Line.kind) = some n
  | .rep k s, f, n => by
    rw [childLines, repLines, List.map_map]
    generalize List.range (min k 3) = js
    induction js with
    | nil => rfl
    | cons j js ih => exact ih
  | .node s cs, f, n => by
    have h3 := children_depth cs s (n + 1)
    rw [childLines, List.map_cons, Line.kind, depth]
    by_cases he : cs.isEmpty = true
    · rw [if_pos he]; rfl
    · rw [if_neg he, List.map_cons, Line.kind, depth, List.map_append, depth_append _ _ _ _ h3]
      rfl
theorem children_depth : ∀ (cs : List TNode) (f : Str) (n : Nat),
    depth n ((childrenLines f cs).map Line.kind) = some n
  | [], f, n => by rw [childrenLines]; rfl
  | c :: cs, f, n => by
    rw [childrenLines, List.map_append, depth_append _ _ _ _ (child_depth c f n),
      children_depth cs f n]
end

theorem clean_of_span_aux : ∀ (l : List TNode), (∀ x ∈ preL (standsL l), CleanName x) →
    (∀ c ∈ l, Drawn c) → ∀ c ∈ l, AllClean c := by
  have key : ∀ (c : TNode), (∀ x ∈ preL (stands c), CleanName x) → Drawn c → AllClean c := by
    intro c
    intro h hd
    induction hd with
    | node s cs hcs ih =>
      rw [stands, preL, Tree.pre] at h
      refine .node s cs (h s (by simp)) ?_
      intro c hc
      apply ih c hc
      intro x hx
      apply h x
      simp only [preL, List.append_nil, List.mem_cons]
      right
      have : ∀ (l : List TNode), c ∈ l → ∀ x ∈ preL (stands c), x ∈ preL (standsL l) := by
        intro l
        induction l with
        | nil => simp
        | cons d l ihl =>
          intro hcl x hx
          rw [standsL, preL_append, List.mem_append]
          rcases List.mem_cons.mp hcl with rfl | hcl
          · exact .inl hx
          · exact .inr (ihl hcl x hx)
      exact this cs hc x hx
    | rep n s hn =>
      refine .rep n s (h s ?_)
      rw [stands]
      obtain ⟨m, rfl⟩ : ∃ m, n = m + 1 := ⟨n - 1, by omega⟩
      simp [List.replicate_succ, preL, Tree.pre]
  intro l h hd c hc
  apply key c _ (hd c hc)
  intro x hx
  apply h x
  clear h hd
  induction l with
  | nil => simp at hc
  | cons d l ih =>
    rw [standsL, preL_append, List.mem_append]
    rcases List.mem_cons.mp hc with rfl | hc
    · exact .inl hx
    · exact .inr (ih hc)

/-- C45: read line by line, the text of the diagram opens and closes the same number of activations and
never closes one that is not open, provided service names are single lines that do not themselves look
like activation lines. -/
theorem C45_text (s : Span) (h : s.children ≠ []) (hc : ∀ x ∈ s.pre, CleanName x) :
    depth 0 ((lines [] (diagram (toNode s))).map opens) = some 0 := by
  have hd := drawn_toNode s
  have hs := C44_nothing_lost s
  have hall : AllClean (toNode s) := by
    apply clean_of_span_aux [toNode s] _ (by simpa using hd) _ (by simp)
    intro x hx
    rw [standsL, standsL, hs] at hx
    simpa [preL] using hc x (by simpa [preL] using hx)
  obtain ⟨v, cs⟩ := s
  simp only [Tree.children] at h
  rw [toNode] at hd hall ⊢
  cases hd with
  | node _ _ hcs =>
    cases hall with
    | node _ _ hv hcc =>
      have h2 := children_clean (toNodes cs) v hcc hv
      have e : "sequenceDiagram\r\n".toList = "sequenceDiagram\r".toList ++ ['\n'] := by
        decide +kernel
      have hn : '\n' ∉ "sequenceDiagram\r".toList := by decide +kernel
      have ho : opens ("sequenceDiagram\r".toList) = none := by decide +kernel
      have hk : ((childrenLines v (toNodes cs)).map Line.text).map opens =
          (childrenLines v (toNodes cs)).map Line.kind := by
        rw [List.map_map]
        apply List.map_congr_left
        intro l hl
        exact opens_text l (h2 l hl)
      rw [diagram_lines v _ (toNodes_ne cs h) hcs, e, List.append_assoc, List.singleton_append,
        lines_cons _ _ _ hn, List.nil_append, lines_render _ (fun l hl => clean_no_nl l (h2 l hl)),
        List.map_cons, ho, depth, hk, children_depth]

/-- a trace with nesting and repeats -/
example : (∀ x ∈ (Tree.node ['a'] [.node ['b'] [.node ['a'] []], .node ['c'] []]).pre, CleanName x) ∧
    (Tree.node ['a'] [.node ['b'] [.node ['a'] []], .node ['c'] []]).children ≠ [] := by
  refine ⟨?_, by simp [Tree.children]⟩
  simp only [Tree.pre, preL]
  unfold CleanName
  decide +kernel

/-- C45 fails for a service name with a line break: it can open an activation nobody closes. -/
theorem C45_newline_unbalanced :
    depth 0 ((lines [] (diagram (toNode (.node ['a'] [.node "b\nactivate x".toList []])))).map opens) ≠
      some 0 := by
  have : toNode (.node ['a'] [.node "b\nactivate x".toList []]) =
      .node ['a'] [.node "b\nactivate x".toList []] := by
    simp [toNode, toNodes, isLast, Tree.children, countRepeated, createNodes, nodeAt, Tree.val]
  rw [this]
  decide +kernel

end Verif.Client.Diagram
