import Verif.Remover.Model
import Verif.Index.Props
/-!
# Properties C11, C12: candidates already covered by an existing index
-/
namespace Verif.Remover
open Verif.Index Verif.Index.Spec Verif.Lib

variable {P E : Type} [DecidableEq P]

/-- Specification: some existing index of the target's table has the same columns. -/
def Covered (fold : Char → Char) (existing : List IndexTarget) (t : IndexTarget) : Prop :=
  ∃ i ∈ existing, i.tableName = t.tableName ∧ SameColumns fold t i

theorem keepLoop_iff (fold : Char → Char) (it : IndexTarget) (ids : List IndexTarget) :
    keepLoop fold it ids = true ↔ ∀ i ∈ ids, ¬SameColumns fold it i := by
  induction ids with
  | nil => simp [keepLoop]
  | cons i is ih =>
    simp only [keepLoop, List.mem_cons, forall_eq_or_imp]
    have := C05_same_columns_iff fold it i
    by_cases h : it.hasSameIdxColumns fold i = true
    · simp [h, this.mp h]
    · have hn : ¬SameColumns fold it i := fun hs => h (this.mpr hs)
      simp [h, ih, hn]

theorem keep_iff (fold : Char → Char) (t : IndexTarget) (existing : List IndexTarget) :
    keep fold (groupBy (·.tableName) existing) t = true ↔ ¬Covered fold existing t := by
  rw [keep, groupBy_get]
  by_cases h : ∃ x ∈ existing, x.tableName = t.tableName
  · simp only [h, if_true, keepLoop_iff, List.mem_filter, decide_eq_true_eq, Covered]
    constructor
    · rintro hk ⟨i, hi, ht, hs⟩; exact hk i ⟨hi, ht⟩ hs
    · intro hn i hi hs; exact hn ⟨i, hi.1, hi.2, hs⟩
  · simp only [h, if_false, true_iff]
    rintro ⟨i, hi, ht, _⟩; exact h ⟨i, hi, ht⟩

/-- **C11.** When the existing indexes of the candidates' tables are read as `existing`, the result
consists of exactly the candidates that are not covered, each once, in their original order. -/
theorem C11_keeps_uncovered (fold : Char → Char) (deref : P → IndexTarget)
    (get : List (List Char) → Except E (List IndexTarget)) (its out : List P)
    (h : remove fold deref get its = .ok out) :
    ∃ tables existing, get tables = .ok existing ∧
      tables.Nodup ∧ (∀ t, t ∈ tables ↔ ∃ p ∈ its, (deref p).tableName = t) ∧
      (∀ p, p ∈ out ↔ p ∈ its ∧ ¬Covered fold existing (deref p)) ∧
      out.Nodup ∧ out.Sublist its := by
  simp only [remove] at h
  split at h
  · cases h
  · next existing hg =>
    cases h
    refine ⟨_, existing, hg, uniq_nodup _, ?_, ?_, ?_, ?_⟩
    · intro t; simp [mem_uniq]
    · intro p
      simp only [removeMatched, List.mem_filter, mem_uniq, keep_iff]
    · exact (uniq_nodup _).sublist List.filter_sublist
    · exact List.Sublist.trans List.filter_sublist (uniq_sublist _)

/-- **C11.** Distinct candidates: the result is the input filtered. -/
theorem C11_is_filter (fold : Char → Char) (deref : P → IndexTarget)
    (get : List (List Char) → Except E (List IndexTarget)) (its : List P) (hn : its.Nodup)
    (existing : List IndexTarget)
    (hg : ∀ tables, tables.Nodup → (∀ t, t ∈ tables ↔ ∃ p ∈ its, (deref p).tableName = t) →
      get tables = .ok existing) :
    ∃ keep : P → Bool, (∀ p, keep p = true ↔ ¬Covered fold existing (deref p)) ∧
      remove fold deref get its = .ok (its.filter keep) := by
  refine ⟨_, fun p => keep_iff fold (deref p) existing, ?_⟩
  have := hg (uniq ((uniq its).map fun p => (deref p).tableName)) (uniq_nodup _)
    (by intro t; simp [mem_uniq])
  simp only [remove, this]
  simp only [removeMatched, uniq_of_nodup its hn]

/-- **C11.** An error while reading indexes is the result. -/
theorem C11_error (fold : Char → Char) (deref : P → IndexTarget)
    (get : List (List Char) → Except E (List IndexTarget)) (its : List P) (e : E) :
    remove fold deref get its = .error e ↔
      ∃ tables, tables = uniq ((uniq its).map fun p => (deref p).tableName) ∧
        get tables = .error e := by
  simp only [remove]
  cases hg : get (uniq ((uniq its).map fun p => (deref p).tableName)) <;> simp [hg]

/-- A database with indexes `all`: reading some tables gives the indexes of those tables. -/
def reader (all : List IndexTarget) (tables : List (List Char)) : Except E (List IndexTarget) :=
  .ok (all.filter fun i => i.tableName ∈ tables)

/-- Against a database, the result is determined by coverage in the whole database. -/
theorem mem_remove_reader (fold : Char → Char) (deref : P → IndexTarget) (all : List IndexTarget)
    (its : List P) :
    ∃ out, remove fold deref (reader (E := E) all) its = .ok out ∧
      out = (uniq its).filter (fun p => keepLoop fold (deref p)
        (all.filter fun i => i.tableName = (deref p).tableName)) ∧
      ∀ p, p ∈ out ↔ p ∈ its ∧ ¬Covered fold all (deref p) := by
  have hcong : removeMatched fold deref
      (all.filter fun i => i.tableName ∈ uniq ((uniq its).map fun p => (deref p).tableName))
      (uniq its) = (uniq its).filter (fun p => keepLoop fold (deref p)
        (all.filter fun i => i.tableName = (deref p).tableName)) := by
    simp only [removeMatched]
    apply List.filter_congr
    intro p hp
    rw [Bool.eq_iff_iff, keep_iff, keepLoop_iff]
    simp only [Covered, List.mem_filter, decide_eq_true_eq, mem_uniq, List.mem_map]
    have hp' := (mem_uniq its p).mp hp
    constructor
    · intro hn i hi hs
      exact hn ⟨i, ⟨hi.1, p, hp', hi.2.symm⟩, hi.2, hs⟩
    · rintro hn ⟨i, ⟨hi, _⟩, ht, hs⟩
      exact hn i ⟨hi, ht⟩ hs
  refine ⟨_, by simp only [remove, reader], hcong, ?_⟩
  intro p
  rw [hcong]
  simp only [List.mem_filter, mem_uniq, keepLoop_iff, decide_eq_true_eq, Covered]
  refine and_congr_right fun _ => ⟨?_, ?_⟩
  · rintro hk ⟨i, hi, ht, hs⟩; exact hk i ⟨hi, ht⟩ hs
  · intro hn i hi hs; exact hn ⟨i, hi.1, hi.2, hs⟩

/-- **C12.** Filtering a second time changes nothing. -/
theorem C12_idempotent (fold : Char → Char) (deref : P → IndexTarget) (all : List IndexTarget)
    (its out : List P) (h : remove fold deref (reader (E := E) all) its = .ok out) :
    remove fold deref (reader (E := E) all) out = .ok out := by
  obtain ⟨o1, h1, e1, _⟩ := mem_remove_reader (E := E) fold deref all its
  obtain ⟨o2, h2, e2, _⟩ := mem_remove_reader (E := E) fold deref all out
  rw [h1] at h; cases h
  rw [h2, e2]
  have hn : out.Nodup := by rw [e1]; exact (uniq_nodup _).sublist List.filter_sublist
  rw [uniq_of_nodup _ hn]
  congr 1
  rw [List.filter_eq_self]
  intro p hp
  rw [e1] at hp
  exact (List.mem_filter.mp hp).2

/-- **C12.** The order in which the database lists its indexes, and repetitions, do not matter. -/
theorem C12_order_insensitive (fold : Char → Char) (deref : P → IndexTarget)
    (all all' : List IndexTarget) (its : List P) (hp : ∀ i, i ∈ all ↔ i ∈ all') :
    remove fold deref (reader (E := E) all) its = remove fold deref (reader (E := E) all') its := by
  obtain ⟨o1, h1, e1, _⟩ := mem_remove_reader (E := E) fold deref all its
  obtain ⟨o2, h2, e2, _⟩ := mem_remove_reader (E := E) fold deref all' its
  rw [h1, h2, e1, e2]
  congr 1
  apply List.filter_congr
  intro p _
  rw [Bool.eq_iff_iff, keepLoop_iff, keepLoop_iff]
  simp [hp]

/-- **C12.** More existing indexes never yield more suggestions, nor another order. -/
theorem C12_antitone (fold : Char → Char) (deref : P → IndexTarget)
    (all more : List IndexTarget) (its out out' : List P) (hsub : ∀ i ∈ all, i ∈ more)
    (h : remove fold deref (reader (E := E) all) its = .ok out)
    (h' : remove fold deref (reader (E := E) more) its = .ok out') : out'.Sublist out := by
  obtain ⟨o1, h1, e1, _⟩ := mem_remove_reader (E := E) fold deref all its
  obtain ⟨o2, h2, e2, _⟩ := mem_remove_reader (E := E) fold deref more its
  rw [h1] at h; rw [h2] at h'; cases h; cases h'
  rw [e1, e2]
  refine List.monotone_filter_right _ ?_
  intro p hp
  rw [keepLoop_iff] at hp ⊢
  intro i hi hs
  simp only [List.mem_filter] at hi hp
  exact hp i ⟨hsub i hi.1, hi.2⟩ hs

/-- **C12.** Splitting the candidates and filtering the parts gives the same candidates. -/
theorem C12_pointwise (fold : Char → Char) (deref : P → IndexTarget) (all : List IndexTarget)
    (its its' out out' : List P) (hsub : ∀ p ∈ its', p ∈ its)
    (h : remove fold deref (reader (E := E) all) its = .ok out)
    (h' : remove fold deref (reader (E := E) all) its' = .ok out') :
    ∀ p ∈ its', (p ∈ out' ↔ p ∈ out) := by
  obtain ⟨o1, h1, _, m1⟩ := mem_remove_reader (E := E) fold deref all its
  obtain ⟨o2, h2, _, m2⟩ := mem_remove_reader (E := E) fold deref all its'
  rw [h1] at h; rw [h2] at h'; cases h; cases h'
  intro p hp
  rw [m1, m2]
  simp [hp, hsub p hp]

/-! ### A concrete case -/

/-- test data -/
def exT (t : String) (cs : List String) : IndexTarget :=
  newIndexTarget t.toList (cs.map (·.toList))
/-- test data -/
def exDeref : Nat → IndexTarget
  | 0 => exT "users" ["name"]
  | 1 => exT "users" ["name", "email"]
  | 2 => exT "tasks" ["name"]
  | _ => exT "users" ["email", "name"]

/-- The index on (`NAME`,`email`) of `users` removes candidate 1 only: not its prefix (0), not the
same columns in another order (3), not another table (2). -/
example : remove (E := Unit) Char.toLower exDeref
    (reader [exT "users" ["NAME", "email"], exT "tasks" ["id"]]) [3, 0, 1, 2, 0] = .ok [3, 0, 2] := by
  decide +kernel

end Verif.Remover
