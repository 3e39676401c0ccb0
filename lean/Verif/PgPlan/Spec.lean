import Verif.Regex.Words
import Verif.PgPlan.Model
/-! # What the plan tree of a PostgreSQL explanation should be -/
namespace Verif.PgPlan
open Verif.Regex Verif.Lib

/-- Going back through the earlier nodes (latest first): the nearest one that is less indented than
`n`, then the nearest one less indented than that, and so on. -/
def ancestorsOf {α : Type} (sp : α → Int) (n : Int) : List α → List α
  | [] => []
  | x :: earlier => if sp x < n then x :: ancestorsOf sp (sp x) earlier else ancestorsOf sp n earlier

/-- Every node with the ancestors its indentation calls for. -/
def expectedPaths {α : Type} (sp : α → Int) (earlier : List α) : List α → List (List α × α)
  | [] => []
  | n :: later => (ancestorsOf sp (sp n) earlier, n) :: expectedPaths sp (n :: earlier) later

/-- Indentation of a text. -/
def indentOf (line : Str) : Nat := (line.takeWhile isSpc).length

/-- A row of a plan, `… -> …`. -/
def ArrowRow (line : Str) : Prop := ∃ a b, line = a ++ '-' :: '>' :: ' ' :: b

/-- A row about a plan, `… Filter: …`: a word, possibly a blank, a colon and a blank. -/
def InfoRow (line : Str) : Prop :=
  ∃ a c b, WordChar c ∧ (line = a ++ c :: ':' :: ' ' :: b ∨ line = a ++ c :: ' ' :: ':' :: ' ' :: b)

/-- A row of the summary, `Planning Time: …`: words from the very beginning up to a colon. -/
def SummaryRow (line : Str) : Prop :=
  ∃ c w b, WordChar c ∧ Run (fun x => WordChar x ∨ x = ' ') w ∧ line = c :: (w ++ ':' :: b)

/-- A node's lines: a row, followed by info rows; or the name of a sub plan, the plan's row and its
info rows. -/
def NodeShape (g : List Str) : Prop :=
  (∃ h t, g = h :: t ∧ ∀ x ∈ t, InfoRow x) ∨
  (∃ h a t, g = h :: a :: t ∧ ¬ InfoRow h ∧ ¬ ArrowRow h ∧ ¬ InfoRow a ∧ ArrowRow a ∧ ∀ x ∈ t, InfoRow x)

/-- Does `line` belong to the node of the line before it (`none` for the first line of the plan)?  Info rows do;
a row of a plan does after the name of a sub plan. -/
def Joined (prev : Option Str) (line : Str) : Prop :=
  InfoRow line ∨ ArrowRow line ∧ ∃ x, prev = some x ∧ ¬ InfoRow x ∧ ¬ ArrowRow x

/-- `Groups prev cur lines gs`: with the lines `cur` in the current node, the last of them `prev`, the nodes are
`gs` after `lines`. -/
inductive Groups : Option Str → List Str → List Str → List (List Str) → Prop
  | done (prev cur) : Groups prev cur [] [cur]
  | join (prev cur y r gs) : Joined prev y → Groups (some y) (cur ++ [y]) r gs → Groups prev cur (y :: r) gs
  | start (prev cur y r gs) : ¬ Joined prev y → Groups (some y) [y] r gs → Groups prev cur (y :: r) (cur :: gs)

end Verif.PgPlan
