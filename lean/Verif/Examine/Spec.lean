import Verif.Examine.Model
/-!
# Specification vocabulary for examination runs

Everything here speaks only about the chronological list of database calls and their answers.
-/
namespace Verif.Examine.Spec
open Verif.Index

/-- The call failed. -/
def Failed (e : Event) : Prop := ∃ err, e.resp = .error err
/-- The call succeeded. -/
def Succeeded (e : Event) : Prop := ∃ v, e.resp = .ok v

/-- Effect of one call on the examination indexes present in the database. -/
def effect (live : List (List Char × IndexTarget)) (e : Event) : List (List Char × IndexTarget) :=
  match e.call, e.resp with
  | .create n t, .ok _ => live ++ [(n, t)]
  | .drop n t, .ok _ => live.erase (n, t)
  | _, _ => live

/-- Indexes present after a history, starting from those in `before`. -/
def liveAfter (before : List (List Char × IndexTarget)) (log : List Event) :
    List (List Char × IndexTarget) := log.foldl effect before

/-- The measured times, in order. -/
def times (log : List Event) : List Int :=
  log.filterMap fun e => match e.call, e.resp with
    | .execute, .ok m => some m
    | _, _ => none

end Verif.Examine.Spec
