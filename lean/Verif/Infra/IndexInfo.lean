import Mathlib.Data.List.Basic
import Mathlib.Data.List.Nodup
/-!
# C39: MySQL index rows (`/repo/infra/mysql/index_info.go`)
-/
namespace Verif.Infra

abbrev Str := List Char

/-- `/repo/infra/mysql/index_info.go:22-26` `flatIndexInfo` -/
structure FlatRow where
  table : Str
  index : Str
  column : Str
deriving DecidableEq, Repr

/-- `/repo/infra/mysql/index_info.go:17-20` `IndexInfo` -/
structure IndexInfo where
  table : Str
  columns : List Str
deriving DecidableEq, Repr

/-- `/repo/infra/mysql/index_info.go:35-36`: append a column to the last index; `none` is the index
panic of `infos[len(infos)-1]` on an empty slice. -/
def appendLast (col : Str) : List IndexInfo → Option (List IndexInfo)
  | [] => none
  | [i] => some [{ i with columns := i.columns ++ [col] }]
  | i :: j :: is => (appendLast col (j :: is)).map (i :: ·)

/-- `/repo/infra/mysql/index_info.go:33-46`: the loop, with `infos`, `lastTName` and `lastIName`. -/
def toIndexInfoLoop : List FlatRow → List IndexInfo → Str → Str → Option (List IndexInfo)
  | [], infos, _, _ => some infos
  | r :: rows, infos, lastT, lastI =>
    if lastT = r.table ∧ lastI = r.index then
      match appendLast r.column infos with
      | none => none
      | some infos => toIndexInfoLoop rows infos r.table r.index
    else toIndexInfoLoop rows (infos ++ [⟨r.table, [r.column]⟩]) r.table r.index

/-- `/repo/infra/mysql/index_info.go:28-49` `toIndexInfo`; `none` is a panic. -/
def toIndexInfo (rows : List FlatRow) : Option (List IndexInfo) := toIndexInfoLoop rows [] [] []

/-! ## Specification -/

/-- what identifies an index: table and index name -/
def FlatRow.key (r : FlatRow) : Str × Str := (r.table, r.index)

/-- the rows of one index are next to each other -/
def Contiguous (rows : List FlatRow) : Prop :=
  ∀ a r b s c, rows = a ++ r :: (b ++ s :: c) → r.key = s.key → ∀ m ∈ b, m.key = r.key

/-- the columns of an index, in row order -/
def colsOf (rows : List FlatRow) (k : Str × Str) : List Str :=
  (rows.filter (fun r => decide (r.key = k))).map (·.column)

/-- one `IndexInfo` for each index, in the order the indexes appear, each with all its columns in
row order -/
def Grouped (rows : List FlatRow) (infos : List IndexInfo) : Prop :=
  ∃ ks : List (Str × Str), ks.Nodup ∧ (∀ k, k ∈ ks ↔ ∃ r ∈ rows, r.key = k) ∧
    ks.Sublist (rows.map FlatRow.key) ∧ infos = ks.map (fun k => ⟨k.1, colsOf rows k⟩)

/-! ## Proof -/

theorem appendLast_concat (col : Str) (i : IndexInfo) : ∀ is : List IndexInfo,
    appendLast col (is ++ [i]) = some (is ++ [{ i with columns := i.columns ++ [col] }])
  | [] => rfl
  | [j] => rfl
  | j :: j' :: is => by
    have := appendLast_concat col i (j' :: is)
    simp only [List.cons_append] at this ⊢
    rw [appendLast, this]
    rfl

theorem colsOf_concat (rows : List FlatRow) (r : FlatRow) (k : Str × Str) :
    colsOf (rows ++ [r]) k = colsOf rows k ++ (if r.key = k then [r.column] else []) := by
  unfold colsOf
  rw [List.filter_append, List.map_append]
  by_cases h : r.key = k <;> simp [h]

/-- the rows read so far are grouped, and the last one belongs to the last index -/
def Inv (p : List FlatRow) (infos : List IndexInfo) (last : Str × Str) : Prop :=
  (p = [] ∧ infos = [] ∧ last = ([], [])) ∨
  (∃ p' r ks, p = p' ++ [r] ∧ r.key = last ∧ (ks ++ [last]).Nodup ∧
    (∀ k, k ∈ ks ++ [last] ↔ ∃ r ∈ p, r.key = k) ∧
    (ks ++ [last]).Sublist (p.map FlatRow.key) ∧
    infos = (ks ++ [last]).map (fun k => ⟨k.1, colsOf p k⟩))

theorem loop_spec : ∀ (rows p : List FlatRow) (infos : List IndexInfo) (lt li : Str),
    Contiguous (p ++ rows) → (∀ r ∈ rows, r.key ≠ ([], [])) → Inv p infos (lt, li) →
    ∃ out, toIndexInfoLoop rows infos lt li = some out ∧ Grouped (p ++ rows) out
  | [], p, infos, lt, li, _, _, hi => by
    refine ⟨infos, rfl, ?_⟩
    rw [List.append_nil]
    rcases hi with ⟨rfl, rfl, _⟩ | ⟨p', r, ks, hp, hk, h1, h2, h3, h4⟩
    · exact ⟨[], by simp⟩
    · exact ⟨ks ++ [(lt, li)], h1, h2, h3, h4⟩
  | r :: rows, p, infos, lt, li, hc, hne, hi => by
    have hc' : Contiguous ((p ++ [r]) ++ rows) := by simpa using hc
    have hne' : ∀ r ∈ rows, r.key ≠ ([], []) := fun x hx => hne x (List.mem_cons_of_mem _ hx)
    rw [toIndexInfoLoop]
    have happ : p ++ r :: rows = (p ++ [r]) ++ rows := by simp
    rw [happ]
    by_cases hk : lt = r.table ∧ li = r.index
    · rw [if_pos hk]
      have hkey : r.key = (lt, li) := by simp [FlatRow.key, hk.1, hk.2]
      rcases hi with ⟨_, _, hl⟩ | ⟨p', r', ks, hp, hk', h1, h2, h3, h4⟩
      · exact absurd (hkey.trans hl) (hne r (by simp))
      · rw [h4, List.map_append, List.map_singleton, appendLast_concat]
        apply loop_spec rows (p ++ [r]) _ _ _ hc' hne'
        right
        refine ⟨p, r, ks, rfl, rfl, ?_, ?_, ?_, ?_⟩
        · rw [show (r.table, r.index) = (lt, li) from hkey]; exact h1
        · intro k
          rw [show (r.table, r.index) = (lt, li) from hkey, h2 k]
          constructor
          · rintro ⟨x, hx, he⟩
            exact ⟨x, by simp [hx], he⟩
          · rintro ⟨x, hx, he⟩
            rcases List.mem_append.mp hx with hx | hx
            · exact ⟨x, hx, he⟩
            · simp at hx
              subst hx
              refine ⟨r', by simp [hp], ?_⟩
              rw [hk', ← he, hkey]
        · rw [show (r.table, r.index) = (lt, li) from hkey, List.map_append]
          exact h3.trans (List.sublist_append_left _ _)
        · rw [show (r.table, r.index) = (lt, li) from hkey, List.map_append, List.map_singleton]
          congr 1
          · apply List.map_congr_left
            intro k hkm
            rw [colsOf_concat, if_neg ?_, List.append_nil]
            intro he
            have hd := (List.nodup_append.mp h1).2.2 k hkm (lt, li) (by simp)
            exact hd (by rw [← he, hkey])
          · simp [colsOf_concat, hkey]
    · rw [if_neg hk]
      have hkey : ¬ r.key = (lt, li) := by
        intro e
        apply hk
        simp only [FlatRow.key, Prod.mk.injEq] at e
        exact ⟨e.1.symm, e.2.symm⟩
      -- the row starts a new index
      have hnew : ∀ x ∈ p, x.key ≠ r.key := by
        intro x hx he
        rcases hi with ⟨hp, _, _⟩ | ⟨p', r', ks, hp, hk', _, _, _, _⟩
        · rw [hp] at hx; cases hx
        · rw [hp] at hx
          rcases List.mem_append.mp hx with hx | hx
          · obtain ⟨a, b, hab⟩ := List.append_of_mem hx
            have := hc a x (b ++ [r']) r rows (by rw [hp, hab]; simp) he r' (by simp)
            exact hkey (by rw [← he, ← this, hk'])
          · simp at hx
            subst hx
            exact hkey (by rw [← he, hk'])
      apply loop_spec rows (p ++ [r]) _ _ _ hc' hne'
      right
      have hold : ∀ k, (∃ x ∈ p, x.key = k) → colsOf (p ++ [r]) k = colsOf p k := by
        rintro k ⟨x, hx, he⟩
        rw [colsOf_concat, if_neg (fun e => hnew x hx (he.trans e.symm)), List.append_nil]
      have hempty : colsOf (p ++ [r]) r.key = [r.column] := by
        rw [colsOf_concat, if_pos rfl]
        have : colsOf p r.key = [] := by
          unfold colsOf
          rw [List.filter_eq_nil_iff.mpr ?_]
          · rfl
          · intro x hx h
            exact hnew x hx (by simpa using h)
        rw [this]; rfl
      rcases hi with ⟨rfl, rfl, _⟩ | ⟨p', r', ks, hp, hk', h1, h2, h3, h4⟩
      · refine ⟨[], r, [], rfl, rfl, by simp, ?_, ?_, ?_⟩
        · intro k
          simp [FlatRow.key, eq_comm]
        · simp [FlatRow.key]
        · have : colsOf ([] ++ [r]) (r.table, r.index) = [r.column] := hempty
          simp only [List.nil_append, List.map_cons, List.map_nil] at this ⊢
          rw [this]
      · refine ⟨p, r, ks ++ [(lt, li)], rfl, rfl, ?_, ?_, ?_, ?_⟩
        · rw [List.nodup_append]
          refine ⟨h1, by simp, ?_⟩
          intro x hx y hy
          simp at hy
          subst hy
          obtain ⟨z, hz, he⟩ := (h2 x).mp hx
          exact fun e => hnew z hz (he.trans e)
        · intro k
          rw [List.mem_append, h2 k]
          constructor
          · rintro (⟨x, hx, he⟩ | hx)
            · exact ⟨x, by simp [hx], he⟩
            · simp at hx
              exact ⟨r, by simp, hx.symm⟩
          · rintro ⟨x, hx, he⟩
            rcases List.mem_append.mp hx with hx | hx
            · exact .inl ⟨x, hx, he⟩
            · simp at hx
              subst hx
              right
              rw [← he]
              simp [FlatRow.key]
        · rw [List.map_append]
          exact List.Sublist.append h3 (by simp [FlatRow.key])
        · rw [h4, List.map_append (l₁ := ks ++ [(lt, li)])]
          congr 1
          · apply List.map_congr_left
            intro k hkm
            rw [hold k ((h2 k).mp hkm)]
          · have : colsOf (p ++ [r]) (r.table, r.index) = [r.column] := hempty
            simp [this]

/-- C39: rows whose indexes are contiguous (and named) become exactly one index per name, with all
columns in row order. -/
theorem C39_grouped (rows : List FlatRow) (hc : Contiguous rows)
    (hne : ∀ r ∈ rows, r.table ≠ [] ∨ r.index ≠ []) :
    ∃ out, toIndexInfo rows = some out ∧ Grouped rows out := by
  have := loop_spec rows [] [] [] [] (by simpa using hc) (by
    intro r hr e
    simp only [FlatRow.key, Prod.mk.injEq] at e
    rcases hne r hr with h | h
    · exact h e.1
    · exact h e.2) (.inl ⟨rfl, rfl, rfl⟩)
  simpa [toIndexInfo] using this

/-- C39: rows in the order of the query (`ORDER BY TABLE_NAME, INDEX_NAME, …`, line 14) are contiguous,
whatever the collation, as long as names the collation calls equal are equal. -/
theorem C39_ordered (rows : List FlatRow) (le : Str × Str → Str × Str → Prop)
    (anti : ∀ a b, le a b → le b a → a = b) (ho : rows.Pairwise (fun a b => le a.key b.key))
    (hne : ∀ r ∈ rows, r.table ≠ [] ∨ r.index ≠ []) :
    ∃ out, toIndexInfo rows = some out ∧ Grouped rows out := by
  apply C39_grouped rows _ hne
  intro a r b s c he hk m hm
  rw [he, List.pairwise_append] at ho
  have h1 := List.pairwise_cons.mp ho.2.1
  have h2 := h1.1 m (by simp [hm])
  have h3 := (List.pairwise_append.mp h1.2).2.2 m hm s (by simp)
  exact (anti _ _ h2 (hk ▸ h3)).symm

/-- C39: nothing is lost: every row's column is in an index of its table, and all columns together
are as many as the rows. -/
theorem C39_total (rows : List FlatRow) (out : List IndexInfo) (h : toIndexInfo rows = some out) :
    (out.map (·.columns)).flatten = rows.map (·.column) := by
  have key : ∀ (rows : List FlatRow) (infos out : List IndexInfo) (lt li : Str),
      toIndexInfoLoop rows infos lt li = some out →
      (out.map (·.columns)).flatten = (infos.map (·.columns)).flatten ++ rows.map (·.column) := by
    intro rows
    induction rows with
    | nil => intro infos out lt li h; simp [toIndexInfoLoop] at h; simp [h]
    | cons r rows ih =>
      intro infos out lt li h
      rw [toIndexInfoLoop] at h
      split at h
      · cases ha : appendLast r.column infos with
        | none => simp [ha] at h
        | some infos' =>
          simp only [ha] at h
          rw [ih _ _ _ _ h]
          have : (infos'.map (·.columns)).flatten = (infos.map (·.columns)).flatten ++ [r.column] := by
            rcases List.eq_nil_or_concat infos with rfl | ⟨is, i, rfl⟩
            · simp [appendLast] at ha
            · rw [List.concat_eq_append, appendLast_concat, Option.some.injEq] at ha
              subst ha
              simp
          rw [this]
          simp
      · rw [ih _ _ _ _ h]
        simp
  simpa using key rows [] out [] [] h

/-- two indexes of one table with the same first column, and one of another table -/
example : (toIndexInfo [⟨['t'], ['a'], ['x']⟩, ⟨['t'], ['a'], ['y']⟩, ⟨['t'], ['b'], ['x']⟩,
      ⟨['u'], ['b'], ['z']⟩]).map (List.map fun i => (i.table, i.columns)) =
    some [(['t'], [['x'], ['y']]), (['t'], [['x']]), (['u'], [['z']])] := by decide +kernel

/-- Without contiguity an index falls apart. -/
theorem C39_not_contiguous : toIndexInfo [⟨['t'], ['a'], ['x']⟩, ⟨['T'], ['a'], ['x']⟩,
      ⟨['t'], ['a'], ['y']⟩] =
    some [⟨['t'], [['x']]⟩, ⟨['T'], [['x']]⟩, ⟨['t'], [['y']]⟩] := by decide +kernel

/-- A first row without names would crash the loop. -/
theorem C39_nameless_panics (col : Str) (rows : List FlatRow) :
    toIndexInfo (⟨[], [], col⟩ :: rows) = none := by
  simp [toIndexInfo, toIndexInfoLoop, appendLast]

end Verif.Infra
