import Verif.Index.Model
import Verif.Dec
/-!
# Measuring indexes (`/repo/database/dservice/examiner.go`)

The database behind the `IndexExaminer` interface (`examiner.go:14-18`) is an environment that may
answer each call in any way, depending on everything that happened before.
-/
namespace Verif.Examine
open Verif.Index

/-- An error value; only identity matters.  `wrapDrop e` is `errors.Wrap(e, "failed to drop index")`
(`/repo/database/dservice/examiner.go:93`). -/
inductive Err where
  | db (n : Nat)
  | wrapDrop (e : Err)
deriving DecidableEq, Repr

/-- Calls of the `IndexExaminer` interface, `/repo/database/dservice/examiner.go:14-18`. -/
inductive Call where
  | execute
  | create (name : List Char) (target : IndexTarget)
  | drop (name : List Char) (target : IndexTarget)
deriving DecidableEq, Repr

/-- A completed call with its answer; `Execute` answers a duration in milliseconds, the value of the
other calls' success is meaningless. -/
structure Event where
  call : Call
  resp : Except Err Int

/-- The environment: answers a call after a history; also the random numbers of
`/repo/database/dservice/examiner.go:80` (`rand.Intn(999999999)`, so always `< 999999999`). -/
structure Env where
  answer : List Event → Call → Except Err Int
  rand : List Event → Fin 999999999

/-- Perform one call, appending it to the history. -/
def Env.perform (env : Env) (log : List Event) (c : Call) : Except Err Int × List Event :=
  let r := env.answer log c
  (r, log ++ [⟨c, r⟩])

/-- `/repo/database/dmodel/examination_index_result.go` -/
structure IndexResult where
  target : IndexTarget
  millis : Int
deriving DecidableEq, Repr

/-- `/repo/database/dmodel/examination_result.go` -/
structure Result where
  origMillis : Int
  indexResults : List IndexResult
deriving DecidableEq, Repr

/-- `/repo/database/dservice/examiner.go:72` `maxIdxNameLen` -/
def maxIdxNameLen : Nat := 30

/-- The index name, `/repo/database/dservice/examiner.go:75-81`.  `len` and slicing count bytes in
Go; the id is decimal and safe names are ASCII, so characters and bytes coincide. -/
def indexName (id : List Char) (it : IndexTarget) (rnd : Nat) : List Char :=
  let n := id ++ "_".toList ++ joinWith "_".toList (it.columns.map (·.safeName))
  if n.length > maxIdxNameLen then n.take maxIdxNameLen ++ "_".toList ++ dec rnd else n

/-- `/repo/database/dservice/examiner.go:74-103` `examine`.  The deferred function (89-95) runs after
`Execute` whether or not that failed; its error replaces `err` only when `err == nil`, and
`errors.Wrap(nil, _)` is `nil`. -/
def examine (env : Env) (id : List Char) (it : IndexTarget) (log : List Event) :
    Except Err IndexResult × List Event :=
  let idxName := indexName id it (env.rand log)
  match env.perform log (.create idxName it) with
  | (.error e, log1) => (.error e, log1)
  | (.ok _, log1) =>
    match env.perform log1 .execute with
    | (x, log2) =>
      match env.perform log2 (.drop idxName it) with
      | (d, log3) =>
        match x, d with
        | .error e, _ => (.error e, log3)
        | .ok _, .error e => (.error (.wrapDrop e), log3)
        | .ok m, .ok _ => (.ok ⟨it, m⟩, log3)

/-- The loop of `/repo/database/dservice/examiner.go:39-51`. -/
def examineAll (env : Env) (id : List Char) :
    List IndexTarget → List Event → Except Err (List IndexResult) × List Event
  | [], log => (.ok [], log)
  | it :: its, log =>
    match examine env id it log with
    | (.error e, log1) => (.error e, log1)
    | (.ok r, log1) =>
      match examineAll env id its log1 with
      | (.error e, log2) => (.error e, log2)
      | (.ok rs, log2) => (.ok (r :: rs), log2)

/-- `/repo/database/dservice/examiner.go:30-70` `Run`; the per-table grouping at 37,46-50,57-67 only
feeds the log output and is not modelled.  `unixSeconds` is `time.Now().Unix()` (line 38). -/
def run (env : Env) (unixSeconds : Nat) (its : List IndexTarget) : Except Err Result × List Event :=
  match env.perform [] .execute with
  | (.error e, log) => (.error e, log)
  | (.ok orig, log) =>
    match examineAll env (dec unixSeconds) its log with
    | (.error e, log1) => (.error e, log1)
    | (.ok irs, log1) => (.ok ⟨orig, irs⟩, log1)

end Verif.Examine
