import Verif.Lib.Tree
import Verif.Regex.Numbers
/-!
# PostgreSQL `EXPLAIN (ANALYZE, BUFFERS)` lines to plan tree

`/repo/database/postgres/pmodel/explain_analyze_result_node.go` and
`/repo/database/postgres/pservice/explain_analyze_tree_builder.go`.
-/
namespace Verif.PgPlan
open Verif.Regex Verif.Lib

/-- Texts. -/
abbrev Str := List Char

/-! ## Grouping lines into nodes -/

/-- `explain_analyze_tree_builder.go:61` -/
def arrowRowReg : Re := .seq (.star true (.cls isSpc)) (.lit "-> ".toList)
/-- `explain_analyze_tree_builder.go:62`; the group is not read -/
def infoRowReg : Re :=
  .seq (.star true (.cls isSpc)) (.seq
    (.plus true (.seq (.plus true (.cls isWord)) (.opt (.cls (· == ' ')))))
    (.lit ": ".toList))
/-- `explain_analyze_tree_builder.go:63` -/
def summaryReg : Re :=
  .seq .bos (.seq (.cls isWord) (.seq (.plus true (.cls (fun c => isWord c || c == ' ')))
    (.lit ":".toList)))

/-- Is the line an info row? -/
def isInfo (line : Str) : Bool := isMatch infoRowReg line
/-- Has the line an arrow? -/
def isArrow (line : Str) : Bool := isMatch arrowRowReg line
/-- Does the summary start here? -/
def isSummary (line : Str) : Bool := isMatch summaryReg line

/-- `explain_analyze_tree_builder.go:65-69` -/
inductive LineType where
  | info | arrow | planName
deriving DecidableEq, Repr

/-- The variables of the loop. -/
structure GState where
  lineNodes : List (List Str)
  nodeLines : List Str
  prev : LineType

/-- `if len(nodeLines) > 0 { lineNodes = append(lineNodes, nodeLines); nodeLines = nil }`
(`explain_analyze_tree_builder.go:94-97,105-108,113-116`). -/
def flush (g : GState) : GState :=
  if g.nodeLines ≠ [] then { g with lineNodes := g.lineNodes ++ [g.nodeLines], nodeLines := [] } else g

/-- `nodeLines = append(nodeLines, line)` and the new line type. -/
def GState.add (g : GState) (line : Str) (t : LineType) : GState :=
  { g with nodeLines := g.nodeLines ++ [line], prev := t }

/-- `explain_analyze_tree_builder.go:100-119`: a line when the previous one is not continued. -/
def step2 (g : GState) (line : Str) : GState :=
  if isInfo line then g.add line .info
  else if isArrow line then (if g.prev = .arrow then flush g else g).add line .arrow
  else (flush g).add line .planName

/-- `explain_analyze_tree_builder.go:84-119`: a line that does not start the summary; `first` is
`i == 0`. -/
def step (first : Bool) (g : GState) (line : Str) : GState :=
  if first then g.add line .arrow
  else if g.prev = .info then
    if isInfo line then { g with nodeLines := g.nodeLines ++ [line] } else step2 (flush g) line
  else step2 g line

/-- `explain_analyze_tree_builder.go:76-120`: the loop; the second result is `summaryStartLine`,
which stays 0 without a summary. -/
def groupLoop (i : Nat) (g : GState) : List Str → GState × Nat
  | [] => (g, 0)
  | line :: r =>
    if isSummary line then (flush g, i)
    else groupLoop (i + 1) (step (i == 0) g line) r

/-- `strings.Join(lines, "\n")` -/
def joinLines : List Str → Str
  | [] => []
  | [l] => l
  | l :: ls => l ++ '\n' :: joinLines ls

/-- `explain_analyze_tree_builder.go:71-128` `groupToPlanLineNodes` -/
def groupToPlanLineNodes (lines : List Str) : List (List Str) × Str :=
  let (g, start) := groupLoop 0 ⟨[], [], .planName⟩ lines
  (g.lineNodes, if start > 0 then joinLines (lines.drop start) else [])

/-! ## Reading a node -/

/-- `explain_analyze_result_node.go:15-28`.  `F` stands for `float64`. -/
structure Node (F : Type) where
  lines : List Str := []
  tableName : Str := []
  estimatedInitCost : Option F := none
  estimatedCost : Option F := none
  estimatedReturnedRows : Option Int := none
  estimatedWidth : Option Int := none
  actualTimeFirstRow : Option F := none
  actualTimeAvg : Option F := none
  actualReturnedRows : Option Int := none
  actualLoopCount : Option Int := none
deriving DecidableEq, Repr

/-- Failures. -/
inductive Err where
  /-- a number of the given text could not be read -/
  | number (s : Str)
  /-- nil dereference or index out of range -/
  | panic
deriving DecidableEq, Repr

/-- `explain_analyze_result_node.go:30`; group 0 is the whole match -/
def prefixSpaceReg : Re := .grp 0 (.seq .bos (.star true (.cls isSpc)))
/-- `explain_analyze_result_node.go:31` -/
def onReg : Re := .seq (.lit " on ".toList) (.grp 1 (.plus true (.cls isWord)))
/-- `explain_analyze_result_node.go:32` -/
def onWithNamespaceReg : Re :=
  .seq (.lit " on ".toList) (.seq (.opt (.cls (· == '"')))
    (.seq (.grp 1 (.plus true (.cls (fun c => isWord c || c == '.')))) (.opt (.cls (· == '"')))))
/-- `explain_analyze_result_node.go:33` -/
def keyReg : Re :=
  .seq (.lit " Key: ".toList) (.seq (.grp 1 (.plus true (.cls isWord))) (.lit ".".toList))
/-- `explain_analyze_result_node.go:34` -/
def metricLineReg : Re :=
  .seq (.lit "(cost=".toList) (.seq (.plus true .dot) (.seq (.lit ")".toList)
    (.opt (.grp 1 (.seq (.lit " (actual ".toList) (.seq (.plus true .dot) (.lit ")".toList)))))))
/-- `explain_analyze_result_node.go:35` -/
def analyzeEstimationReg : Re := pairReg "(cost=".toList " rows=".toList " width=".toList
/-- `explain_analyze_result_node.go:36` -/
def analyzeActualReg : Re := pairReg "(actual time=".toList " rows=".toList " loops=".toList

/-- `strconv.ParseInt(s, 10, 64)` on runs of digits. -/
def parseInt (s : Str) : Except Err Int :=
  if digitsVal s < 2 ^ 63 then .ok (digitsVal s) else .error (.number s)

/-- `strconv.ParseFloat(s, 64)`; the conversion itself is a parameter. -/
def parseFloat {F : Type} (pf : Str → Option F) (s : Str) : Except Err F :=
  match pf s with
  | some x => .ok x
  | none => .error (.number s)

/-- `explain_analyze_result_node.go:107-125` `extractTableFromExplainAnalyzeResultLine` -/
def extractTable : List Str → Str
  | [] => []
  | line :: r =>
    match find onReg line with
    | some m => m.cap 1
    | none => match find onWithNamespaceReg line with
      | some m => m.cap 1
      | none => match find keyReg line with
        | some m => m.cap 1
        | none => extractTable r

/-- `explain_analyze_result_node.go:127-135` `getMetricLine` -/
def getMetricLine : List Str → Str
  | [] => []
  | line :: r => if isMatch metricLineReg line then line else getMetricLine r

/-- `explain_analyze_result_node.go:46-72`: the estimation part. -/
def addEstimation {F : Type} (pf : Str → Option F) (mLine : Str) (l : Node F) : Except Err (Node F) :=
  match find analyzeEstimationReg mLine with
  | none => .ok l
  | some em => do
    let initCost ← parseFloat pf (em.cap 1)
    let cost ← parseFloat pf (em.cap 2)
    let rows ← parseInt (em.cap 3)
    let width ← parseInt (em.cap 4)
    pure { l with
      estimatedInitCost := some initCost, estimatedCost := some cost,
      estimatedReturnedRows := some rows, estimatedWidth := some width }

/-- `explain_analyze_result_node.go:76-101`: the actual part. -/
def addActual {F : Type} (pf : Str → Option F) (mLine : Str) (l : Node F) : Except Err (Node F) :=
  match find analyzeActualReg mLine with
  | none => .ok l
  | some am => do
    let timeFirst ← parseFloat pf (am.cap 1)
    let time ← parseFloat pf (am.cap 2)
    let rows ← parseInt (am.cap 3)
    let loops ← parseInt (am.cap 4)
    pure { l with
      actualTimeFirstRow := some timeFirst, actualTimeAvg := some time,
      actualReturnedRows := some rows, actualLoopCount := some loops }

/-- `explain_analyze_result_node.go:103-104`; the matched characters are one byte each.  `lines[0]`
panics on an empty list. -/
def spaceSize : List Str → Except Err Int
  | [] => .error .panic
  | line :: _ =>
    .ok ((match find prefixSpaceReg line with
      | some m => m.cap 0
      | none => []).length : Nat)

/-- `explain_analyze_result_node.go:38-105` `ParseExplainAnalyzeResultLineNode` -/
def parseNode {F : Type} (pf : Str → Option F) (lines : List Str) : Except Err (Int × Node F) := do
  let l ← addEstimation pf (getMetricLine lines) { lines := lines, tableName := extractTable lines }
  let l ← addActual pf (getMetricLine lines) l
  let n ← spaceSize lines
  pure (n, l)

/-- `explain_analyze_result_node.go:137-141` `EstimatedTotalTime` -/
def Node.estimatedTotalTime {F : Type} (zero : F) (n : Node F) : F := n.actualTimeAvg.getD zero

/-! ## Building the tree -/

/-- A tree node without its children, `pmodel/explain_analyze_tree_node.go`: the space size and the
parsed lines. -/
abbrev PNode (F : Type) := Int × Node F

/-- `explain_analyze_tree_builder.go:48-51`: pop once, then while the top is not less indented.
`nodeStack.Top()` is nil on the empty stack, and reading its `SpaceSize` panics. -/
def popTo {α : Type} (sp : α → Int) (n : Int) : List (Frame α) → Except Err (List (Frame α))
  | [] => .error .panic
  | [x] => if sp x.1 ≥ n then .error .panic else .ok [x]
  | (a, cs) :: (b, ds) :: r =>
    if sp a ≥ n then popTo sp n ((b, ds ++ [.node a cs]) :: r) else .ok ((a, cs) :: (b, ds) :: r)
termination_by s => s.length

/-- `explain_analyze_tree_builder.go:44-56`: attach one node. -/
def attach {α : Type} (sp : α → Int) (s : List (Frame α)) (a : α) : Except Err (List (Frame α)) :=
  match s with
  | [] => .error .panic
  | top :: r =>
    if sp top.1 < sp a then .ok ((a, []) :: top :: r)
    else match popTo sp (sp a) (pop (top :: r)) with
      | .error e => .error e
      | .ok s' => .ok ((a, []) :: s')

/-- `explain_analyze_tree_builder.go:34-57`: the loop. -/
def buildLoop {F : Type} (pf : Str → Option F) :
    List (List Str) → List (Frame (PNode F)) → Except Err (List (Frame (PNode F)))
  | [], s => .ok s
  | ln :: r, s =>
    match parseNode pf ln with
    | .error e => .error e
    | .ok n => match attach (·.1) s n with
      | .error e => .error e
      | .ok s' => buildLoop pf r s'

/-- `explain_analyze_tree_builder.go:28-59` `collect` (and `Build`, 16-26): the tree and the summary
text. -/
def collect {F : Type} (pf : Str → Option F) (lines : List Str) : Except Err (Tree (PNode F) × Str) :=
  let (groups, summary) := groupToPlanLineNodes lines
  match buildLoop pf groups [((-1, {}), [])] with
  | .error e => .error e
  | .ok s => match bottom s with
    | some t => .ok (t, summary)
    | none => .error .panic

end Verif.PgPlan
