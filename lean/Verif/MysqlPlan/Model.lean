import Verif.Lib.Tree
import Verif.Regex.Numbers
/-!
# MySQL `EXPLAIN ANALYZE FORMAT=TREE` text to plan tree

`/repo/database/mysql/mmodel/explain_analyze_result_line.go` and
`/repo/database/mysql/mservice/explainer.go`.
-/
namespace Verif.MysqlPlan
open Verif.Regex Verif.Lib

/-- Texts. -/
abbrev Str := List Char

/-- `\w+` in group `n` -/
def word (n : Nat) : Re := .grp n (.plus true (.cls isWord))
/-- `explain_analyze_result_line.go:30`; group 0 is the whole match -/
def prefixIndentReg : Re := .grp 0 (.seq .bos (.star true (.cls isSpc)))
/-- `explain_analyze_result_line.go:31` -/
def onReg : Re := .seq (.lit " on ".toList) (word 1)
/-- `explain_analyze_result_line.go:32` -/
def filterReg : Re := .seq (.lit " Filter: (".toList) (.seq (word 1) (.lit ".".toList))
/-- `explain_analyze_result_line.go:33` -/
def sortReg : Re := .seq (.lit " Sort: ".toList) (.seq (word 1) (.lit ".".toList))
/-- `explain_analyze_result_line.go:34` -/
def aggregateReg : Re :=
  .seq (.lit " Aggregate: ".toList) (.seq (.plus true (.cls isWord))
    (.seq (.lit "(".toList) (.seq (word 1) (.lit ".".toList))))
/-- `explain_analyze_result_line.go:35` -/
def analyzeEstimationReg : Re :=
  .seq (.lit "(cost=".toList) (.seq (num 1)
    (.seq (.opt (.grp 2 (.seq (.lit "..".toList) (num 3))))
      (.seq (.opt (.grp 4 (.seq (.lit " rows=".toList) (digits 5)))) (.lit ")".toList))))
/-- `explain_analyze_result_line.go:36` -/
def analyzeActualReg : Re :=
  .seq (.lit "(actual time=".toList) (.seq (num 1) (.seq (.lit "..".toList) (.seq (num 2)
    (.seq (.lit " rows=".toList) (.seq (digits 3) (.seq (.lit " loops=".toList)
      (.seq (digits 4) (.lit ")".toList))))))))

/-- `explain_analyze_result_line.go:16-28`.  `F` stands for `float64`; a null is `none`. -/
structure Line (F : Type) where
  text : Str := []
  tableName : Str := []
  estimatedInitCost : Option F := none
  estimatedCost : Option F := none
  estimatedReturnedRows : Option Int := none
  actualTimeFirstRow : Option F := none
  actualTimeAvg : Option F := none
  actualReturnedRows : Option Int := none
  actualLoopCount : Option Int := none
deriving DecidableEq, Repr

/-- Failures. -/
inductive Err where
  /-- a number of the given text could not be read (`errors.Wrap(err, …)`) -/
  | number (s : Str)
  /-- `explainer.go:63` -/
  | invalid
  /-- nil dereference -/
  | panic
deriving DecidableEq, Repr

/-- `strconv.ParseInt(s, 10, 64)` on the texts it is called with, which are runs of digits: an
error if the value does not fit into `int64`. -/
def parseInt (s : Str) : Except Err Int :=
  if digitsVal s < 2 ^ 63 then .ok (digitsVal s) else .error (.number s)

/-- `strconv.ParseFloat(s, 64)`; the conversion itself is a parameter. -/
def parseFloat {F : Type} (pf : Str → Option F) (s : Str) : Except Err F :=
  match pf s with
  | some x => .ok x
  | none => .error (.number s)

/-- `m[n]` of the first match, if there is one. -/
def firstMatch (r : Re) (t : Str) : Option Str := (find r t).map (fun m => m.cap 1)

/-- `explain_analyze_result_line.go:108-130` `extractTableFromExplainAnalyzeResultLine` -/
def extractTable (line : Str) : Str :=
  match firstMatch onReg line with
  | some s => s
  | none => match firstMatch filterReg line with
    | some s => s
    | none => match firstMatch sortReg line with
      | some s => s
      | none => match firstMatch aggregateReg line with
        | some s => s
        | none => []

/-- `explain_analyze_result_line.go:47-64`: the costs. -/
def addCost {F : Type} (pf : Str → Option F) (em : St) (l : Line F) : Except Err (Line F) :=
  if em.cap 2 = [] then do
    let cost ← parseFloat pf (em.cap 1)
    pure { l with estimatedCost := some cost }
  else do
    let initCost ← parseFloat pf (em.cap 1)
    let cost ← parseFloat pf (em.cap 3)
    pure { l with estimatedInitCost := some initCost, estimatedCost := some cost }

/-- `explain_analyze_result_line.go:66-72`: the rows. -/
def addRows {F : Type} (em : St) (l : Line F) : Except Err (Line F) :=
  if em.cap 4 ≠ [] then do
    let rows ← parseInt (em.cap 5)
    pure { l with estimatedReturnedRows := some rows }
  else pure l

/-- `explain_analyze_result_line.go:45-73`: the estimation part. -/
def addEstimation {F : Type} (pf : Str → Option F) (line : Str) (l : Line F) : Except Err (Line F) :=
  match find analyzeEstimationReg line with
  | none => .ok l
  | some em => do
    let l ← addCost pf em l
    addRows em l

/-- `explain_analyze_result_line.go:76-101`: the actual part. -/
def addActual {F : Type} (pf : Str → Option F) (line : Str) (l : Line F) : Except Err (Line F) :=
  match find analyzeActualReg line with
  | none => .ok l
  | some am => do
    let timeFirst ← parseFloat pf (am.cap 1)
    let time ← parseFloat pf (am.cap 2)
    let rows ← parseInt (am.cap 3)
    let loops ← parseInt (am.cap 4)
    pure { l with
      actualTimeFirstRow := some timeFirst, actualTimeAvg := some time,
      actualReturnedRows := some rows, actualLoopCount := some loops }

/-- `explain_analyze_result_line.go:103-104`; the matched characters are all one byte long, so the
byte length is the number of characters.  `FindString` is `""` without a match. -/
def nestSize (line : Str) : Nat :=
  (match find prefixIndentReg line with
    | some m => m.cap 0
    | none => []).length / 4

/-- `explain_analyze_result_line.go:38-106` `ParseExplainAnalyzeResultLine` -/
def parseLine {F : Type} (pf : Str → Option F) (line : Str) : Except Err (Nat × Line F) := do
  let l ← addEstimation pf line { text := line, tableName := extractTable line }
  let l ← addActual pf line l
  pure (nestSize line, l)

/-- `strings.Split(s, "\n")` -/
def splitLines : Str → List Str
  | [] => [[]]
  | c :: cs =>
    if c = '\n' then [] :: splitLines cs
    else match splitLines cs with
      | [] => [[c]]
      | l :: ls => (c :: l) :: ls

/-- `explainer.go:57-59`: pop while the stack has more than `nest + 1` nodes (never the case with
at most one node left, since the nesting is not negative). -/
def popTo {α : Type} (nest : Nat) : List (Frame α) → List (Frame α)
  | (a, cs) :: (b, ds) :: r =>
    if nest + 1 < r.length + 2 then popTo nest ((b, ds ++ [.node a cs]) :: r)
    else (a, cs) :: (b, ds) :: r
  | s => s
termination_by s => s.length

/-- `explainer.go:53-54,60-61` and `66`: append the node to the children of the top node and push
it; a nil dereference on the empty stack. -/
def push {α : Type} (a : α) : List (Frame α) → Except Err (List (Frame α))
  | [] => .error .panic
  | x :: r => .ok ((a, []) :: x :: r)

/-- `explainer.go:52-66`: attach one line (`Size() - 1` compared with the nesting). -/
def attach {α : Type} (s : List (Frame α)) (nest : Nat) (a : α) : Except Err (List (Frame α)) :=
  if s.length = nest + 1 then push a s
  else if nest + 1 < s.length then push a (popTo nest (pop s))
  else .error .invalid

/-- `explainer.go:39-67`: the loop. -/
def buildLoop {F : Type} (pf : Str → Option F) :
    List Str → List (Frame (Line F)) → Except Err (List (Frame (Line F)))
  | [], s => .ok s
  | line :: r, s =>
    if line = [] then buildLoop pf r s
    else match parseLine pf line with
      | .error e => .error e
      | .ok (nest, l) => match attach s nest l with
        | .error e => .error e
        | .ok s' => buildLoop pf r s'

/-- `explainer.go:33-70` `buildExplainNode` -/
def buildExplainNode {F : Type} (pf : Str → Option F) (text : Str) : Except Err (Tree (Line F)) :=
  match buildLoop pf (splitLines text) [({}, [])] with
  | .error e => .error e
  | .ok s => match bottom s with
    | some t => .ok t
    | none => .error .panic

/-- What is used of `float64` arithmetic. -/
structure FloatOps (F : Type) where
  zero : F
  /-- the constant `0.0001` -/
  tenthMilli : F
  ofInt : Int → F
  mul : F → F → F

/-- `explain_analyze_result_line.go:132-141` `EstimatedTotalTime` -/
def Line.estimatedTotalTime {F : Type} [DecidableEq F] (O : FloatOps F) (l : Line F) : F :=
  if l.actualTimeAvg.getD O.zero = O.zero ∧ l.actualLoopCount.getD 0 > 1000 then
    O.mul O.tenthMilli (O.ofInt (l.actualLoopCount.getD 0))
  else O.mul (l.actualTimeAvg.getD O.zero) (O.ofInt (l.actualLoopCount.getD 0))

end Verif.MysqlPlan
