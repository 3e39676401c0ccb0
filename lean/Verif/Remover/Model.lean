import Verif.Index.Model
import Verif.Lib.Coll
/-!
# Removing candidates already covered by an existing index

Targets are Go pointers, compared by address in `lo.Uniq`: the model takes a type `P` of pointers and
the function `deref`.
-/
namespace Verif.Remover
open Verif.Index Verif.Lib

variable {P E : Type} [DecidableEq P]

/-- `/repo/database/dservice/existing_index_remover.go:47-52`: the loop over one table's indexes;
`true` keeps the target. -/
def keepLoop (fold : Char → Char) (it : IndexTarget) : List IndexTarget → Bool
  | [] => true
  | id :: ids => if it.hasSameIdxColumns fold id then false else keepLoop fold it ids

/-- `/repo/database/dservice/existing_index_remover.go:45-56`: the filter's condition. -/
def keep (fold : Char → Char) (idxGroups : List (List Char × List IndexTarget)) (it : IndexTarget) :
    Bool :=
  match mapGet it.tableName idxGroups with
  | some idxes => keepLoop fold it idxes
  | none => true

/-- `/repo/database/dservice/existing_index_remover.go:42-57` `removeMatchedIndexTargets` -/
def removeMatched (fold : Char → Char) (deref : P → IndexTarget) (idxInfos : List IndexTarget)
    (its : List P) : List P :=
  let idxGroups := groupBy (·.tableName) idxInfos
  its.filter fun p => keep fold idxGroups (deref p)

/-- `/repo/database/dservice/existing_index_remover.go:26-40` `Remove`.  `getIndexes` is the getter
for the fixed database name. -/
def remove (fold : Char → Char) (deref : P → IndexTarget)
    (getIndexes : List (List Char) → Except E (List IndexTarget)) (its : List P) :
    Except E (List P) :=
  let idxTargets := uniq its
  let tNames := uniq (idxTargets.map fun p => (deref p).tableName)
  match getIndexes tNames with
  | .error e => .error e
  | .ok existing => .ok (removeMatched fold deref existing idxTargets)

end Verif.Remover
