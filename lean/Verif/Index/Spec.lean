import Verif.Index.Model
/-!
# What an index option text means

The specification uses only core list functions and the data types of the model.
-/
namespace Verif.Index.Spec

/-- Letters, digits (ASCII) and underscore. -/
def WordChar (c : Char) : Prop := c.isAlphanum = true ∨ c = '_'

/-- A plain identifier: non-empty, word characters only. -/
def Ident (s : List Char) : Prop := s ≠ [] ∧ ∀ c ∈ s, WordChar c

/-- A target all of whose names are plain identifiers, with at least one column. -/
structure Plain (t : IndexTarget) : Prop where
  table : Ident t.tableName
  nonempty : t.columns ≠ []
  cols : ∀ c ∈ t.columns, Ident c.name

/-- The text form `table:c1+c2+...`. -/
def print (t : IndexTarget) : List Char :=
  t.tableName ++ ':' :: (['+'].intercalate (t.columns.map (·.name)))

/-- A line of the form `something:something` (both parts non-empty). -/
def Shaped (l : List Char) : Prop := ∃ a b, a ≠ [] ∧ b ≠ [] ∧ l = a ++ ':' :: b

/-- `lines` joined by newlines is the text. -/
def IsLines (lines : List (List Char)) (text : List Char) : Prop :=
  lines ≠ [] ∧ (∀ l ∈ lines, '\n' ∉ l) ∧ ['\n'].intercalate lines = text

/-- Same columns in the same order, up to the case folding `fold`. -/
def SameColumns (fold : Char → Char) (a b : IndexTarget) : Prop :=
  a.columns.map (·.name.map fold) = b.columns.map (·.name.map fold)

end Verif.Index.Spec
