import Verif.MysqlPlan.Model
/-! # What the plan tree of a MySQL explanation should be -/
namespace Verif.MysqlPlan
open Verif.Regex Verif.Lib

/-- The lines of the text that are not empty. -/
def planLines (text : Str) : List Str := (splitLines text).filter (· ≠ [])

/-- Indentation level: four white space characters for each level. -/
def level (line : Str) : Nat := (line.takeWhile isSpc).length / 4

/-- The numbers of the line can be read. -/
def Readable {F : Type} (pf : Str → Option F) (line : Str) : Prop := ∃ r, parseLine pf line = .ok r

/-- The first level is 0 and no level is more than one deeper than the one before. -/
def NoJump (levels : List Nat) : Prop :=
  (∀ n ∈ levels.head?, n = 0) ∧
  ∀ pre a b post, levels = pre ++ a :: b :: post → b ≤ a + 1

/-- A plan line without its indentation. -/
def Body (b : Str) : Prop := (∃ c cs, b = c :: cs ∧ isSpc c = false) ∧ '\n' ∉ b

/-- `d` levels of indentation. -/
def indented (d : Nat) (b : Str) : Str := List.replicate (4 * d) ' ' ++ b

/-- Join with newlines. -/
def joinLines : List Str → Str
  | [] => []
  | [l] => l
  | l :: ls => l ++ '\n' :: joinLines ls

/-- Print a plan, four spaces for each level. -/
def printPlan (f : List (Tree Str)) : Str :=
  joinLines ((withDepthL 0 f).map (fun p => indented p.1 p.2))

end Verif.MysqlPlan
