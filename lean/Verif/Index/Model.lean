import Verif.Regex.Model
/-!
# Index targets (`/repo/database/dmodel`)
-/
namespace Verif.Index
open Verif.Regex

/-- `/repo/database/dmodel/index_column.go:9-11` `IndexColumn` -/
structure IndexColumn where
  name : List Char
deriving DecidableEq, Repr

/-- `/repo/database/dmodel/index_target.go:13-16` `IndexTarget` (never-nil columns). -/
structure IndexTarget where
  tableName : List Char
  columns : List IndexColumn
deriving DecidableEq, Repr

/-- Errors of the parser.  Messages carry the offending piece, as in the code. -/
inductive ParseError where
  /-- `/repo/database/dmodel/index_target.go:46` -/
  | notAppropriate (text : List Char)
  /-- `/repo/database/dmodel/index_target.go:51`, `/repo/database/dmodel/index_column.go:15` -/
  | nonWord (piece : List Char)
deriving DecidableEq, Repr

/-- The repeated body `(.+?(\+)?)` of `indexTargetReg` (`/repo/database/dmodel/index_target.go:18`). -/
def indexTargetBody : Re :=
  .grp 3 (.seq (.plus false .dot) (.opt (.grp 4 (.cls (· == '+')))))

/-- `/repo/database/dmodel/index_target.go:18`: `(.+?):((.+?(\+)?)+)` -/
def indexTargetReg : Re :=
  .seq (.grp 1 (.plus false .dot)) (.seq (.cls (· == ':')) (.grp 2 (.plus true indexTargetBody)))

/-- `/repo/database/dmodel/index_target.go:19`: `\A\w+\z` -/
def wordOnlyReg : Re := .seq .bos (.seq (.plus true (.cls isWord)) .eos)

/-- `strings.Split(s, "+")` with the one-character separator of
`/repo/database/dmodel/index_target.go:21,55`: always at least one piece. -/
def splitOn (sep : Char) : List Char → List (List Char)
  | [] => [[]]
  | c :: cs =>
    if c = sep then [] :: splitOn sep cs
    else match splitOn sep cs with
      | [] => [[c]]
      | p :: ps => (c :: p) :: ps

/-- `/repo/database/dmodel/index_column.go:13-19` `NewIndexColumn` -/
def newIndexColumn (name : List Char) : Except ParseError IndexColumn :=
  if isMatch wordOnlyReg name then .ok ⟨name⟩ else .error (.nonWord name)

/-- The column loop `/repo/database/dmodel/index_target.go:56-63`. -/
def newIndexColumns : List (List Char) → Except ParseError (List IndexColumn)
  | [] => .ok []
  | c :: cs => do
    let ic ← newIndexColumn c
    let r ← newIndexColumns cs
    return ic :: r

/-- `/repo/database/dmodel/index_target.go:43-65` `NewIndexTargetFromText` -/
def newIndexTargetFromText (text : List Char) : Except ParseError IndexTarget :=
  match find indexTargetReg text with
  | none => .error (.notAppropriate text)
  | some m =>
    let tName := m.cap 1
    if isMatch wordOnlyReg tName then do
      let cols ← newIndexColumns (splitOn '+' (m.cap 2))
      return ⟨tName, cols⟩
    else .error (.nonWord tName)

/-- `/repo/database/dmodel/index_target.go:30-41` `NewIndexTargetsFromTexts` -/
def newIndexTargetsFromTexts : List (List Char) → Except ParseError (List IndexTarget)
  | [] => .ok []
  | t :: ts =>
    match newIndexTargetFromText t with
    | .error e => .error e
    | .ok it =>
      match newIndexTargetsFromTexts ts with
      | .error e => .error e
      | .ok its => .ok (it :: its)

/-- `/repo/database/dmodel/index_target.go:23-28` `NewIndexTarget` (no validation). -/
def newIndexTarget (tableName : List Char) (columns : List (List Char)) : IndexTarget :=
  ⟨tableName, columns.map IndexColumn.mk⟩

/-- `/repo/database/dmodel/index_column.go:25-29` `SafeName`: `ReplaceAllString` of the
one-character expression `\W` by `_`, i.e. a character-wise replacement. -/
def IndexColumn.safeName (c : IndexColumn) : List Char :=
  c.name.map (fun ch => if isWord ch then ch else '_')

/-- `/repo/database/dmodel/index_column.go:31-33` `Equals` -/
def IndexColumn.equals (a b : IndexColumn) : Bool := a.name == b.name

/-- The loop of `/repo/database/dmodel/index_target.go:95-99` (lengths are equal there). -/
def columnsEqual (f : IndexColumn → IndexColumn → Bool) :
    List IndexColumn → List IndexColumn → Bool
  | a :: as, b :: bs => f a b && columnsEqual f as bs
  | _, _ => true

/-- `/repo/database/dmodel/index_target.go:87-102` `Equals` -/
def IndexTarget.equals (it other : IndexTarget) : Bool :=
  if it.tableName ≠ other.tableName then false
  else if it.columns.length ≠ other.columns.length then false
  else columnsEqual IndexColumn.equals it.columns other.columns

/-- `/repo/database/dmodel/index_target.go:104-116` `IsSafe` -/
def IndexTarget.isSafe (it : IndexTarget) : Bool :=
  if !isMatch wordOnlyReg it.tableName then false
  else it.columns.all (fun c => c.name == c.safeName)

/-- `strings.EqualFold`: equal under simple Unicode case folding, code point by code point.  The
folding table is a parameter `fold` that sends each code point to a representative of its folding
orbit; theorems hold for every such table. -/
def equalFold (fold : Char → Char) : List Char → List Char → Bool
  | [], [] => true
  | a :: as, b :: bs => (fold a == fold b) && equalFold fold as bs
  | _, _ => false

/-- `/repo/database/dmodel/index_target.go:118-130` `HasSameIdxColumns` -/
def IndexTarget.hasSameIdxColumns (fold : Char → Char) (it info : IndexTarget) : Bool :=
  if info.columns.length ≠ it.columns.length then false
  else columnsEqual (fun col mine => equalFold fold mine.name col.name) info.columns it.columns

/-- `strings.Join` / `/repo/lib/join.go:5-11` -/
def joinWith (sep : List Char) : List (List Char) → List Char
  | [] => []
  | [a] => a
  | a :: b :: r => a ++ sep ++ joinWith sep (b :: r)

/-- `/repo/client/src/models/IndexTarget.ts:14-16,28-30` `toGrIndexOption` without the surrounding
double quotes that the shell removes. -/
def IndexTarget.grIndexOption (it : IndexTarget) : List Char :=
  it.tableName ++ ":".toList ++ joinWith "+".toList (it.columns.map (·.name))

end Verif.Index
