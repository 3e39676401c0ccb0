import Verif.PgScope.Den
/-!
# What entering a clause does to the bookkeeping (helper lemmas)
-/
namespace Verif.PgScope
open Verif.Builder Verif.Fields Verif.Lib

/-! ## Generated names -/

theorem digitChar_inj (a b : Nat) (h : digitChar a = digitChar b) : a % 10 = b % 10 := by
  have key : ∀ i j : Fin 10, digitChar i.val = digitChar j.val → i = j := by decide
  have e : ∀ n, digitChar n = digitChar (n % 10) := by intro n; simp [digitChar]
  rw [e a, e b] at h
  have := key ⟨a % 10, Nat.mod_lt _ (by decide)⟩ ⟨b % 10, Nat.mod_lt _ (by decide)⟩ h
  exact congrArg Fin.val this

theorem dec_inj (a : Nat) : ∀ b, dec a = dec b → a = b := by
  induction a using Nat.strongRecOn with
  | _ a ih =>
    intro b h
    by_cases ha : a < 10
    · by_cases hb : b < 10
      · rw [dec_lt ha, dec_lt hb] at h
        have := digitChar_inj a b (by simpa using h)
        omega
      · rw [dec_lt ha, dec_ge hb] at h
        have h1 := congrArg List.length h
        have h2 : (dec (b / 10)).length ≠ 0 := by simpa using dec_ne_nil (b / 10)
        simp only [List.length_append, List.length_cons, List.length_nil] at h1
        omega
    · by_cases hb : b < 10
      · rw [dec_ge ha, dec_lt hb] at h
        have h1 := congrArg List.length h
        have h2 : (dec (a / 10)).length ≠ 0 := by simpa using dec_ne_nil (a / 10)
        simp only [List.length_append, List.length_cons, List.length_nil] at h1
        omega
      · rw [dec_ge ha, dec_ge hb] at h
        have h1 := List.append_inj' h rfl
        have h2 := digitChar_inj a b (by simpa using h1.2)
        have h3 := ih (a / 10) (by omega) (b / 10) h1.1
        omega

theorem genName_inj (pre_ : Str) (a b : Nat) (h : genName pre_ a = genName pre_ b) : a = b := by
  unfold genName at h
  simp only [List.cons.injEq, true_and, List.append_assoc, List.append_cancel_left_eq] at h
  exact dec_inj a b (List.append_inj' h rfl).1

theorem genName_ne (a b : Nat) : genName fieldPrefix a ≠ genName selectPrefix b := by
  intro h
  have e1 : fieldPrefix = ['f', 'i', 'e', 'l', 'd'] := by unfold fieldPrefix; decide +kernel
  have e2 : selectPrefix = ['s', 'e', 'l', 'e', 'c', 't'] := by unfold selectPrefix; decide +kernel
  rw [e1, e2] at h
  unfold genName at h
  simp at h

theorem genName_field_root (a : Nat) : genName fieldPrefix a ≠ rootName := by
  intro h
  have e1 : fieldPrefix = ['f', 'i', 'e', 'l', 'd'] := by unfold fieldPrefix; decide +kernel
  have e2 : rootName = ['<', 'r', 'o', 'o', 't', '>'] := by unfold rootName; decide +kernel
  rw [e1, e2] at h
  unfold genName at h
  simp at h

theorem genName_select_root (a : Nat) : genName selectPrefix a ≠ rootName := by
  intro h
  have e1 : selectPrefix = ['s', 'e', 'l', 'e', 'c', 't'] := by unfold selectPrefix; decide +kernel
  have e2 : rootName = ['<', 'r', 'o', 'o', 't', '>'] := by unfold rootName; decide +kernel
  rw [e1, e2] at h
  unfold genName at h
  simp at h

/-! ## Registrations -/

/-- the name a select has, or gets when it has no entry -/
def nameIn (infos : List (Nat × SelInfo)) (id : Nat) : Str :=
  ((mapGet id infos).map (·.name)).getD rootName

/-- names are generated and distinct -/
structure Inv (st : St) : Prop where
  shape : ∀ id i, mapGet id st.infos = some i →
    (i.fieldOf ≠ none ∧ ∃ k, k < st.counterF ∧ i.name = genName fieldPrefix k) ∨
    (i.fieldOf = none ∧ ∃ k, k < st.counterS ∧ i.name = genName selectPrefix k)
  inj : ∀ id id' i i', mapGet id st.infos = some i → mapGet id' st.infos = some i' →
    i.name = i'.name → id = id'

theorem Inv.congr {st st' : St} (h : Inv st) (h1 : st'.infos = st.infos)
    (h2 : st'.counterF = st.counterF) (h3 : st'.counterS = st.counterS) : Inv st' where
  shape := by rw [h1, h2, h3]; exact h.shape
  inj := by rw [h1]; exact h.inj

theorem Inv.addField {st : St} (h : Inv st) (id : Nat) (q : Nat) :
    Inv { st with counterF := st.counterF + 1,
                  infos := Lib.mapSet id ⟨genName fieldPrefix st.counterF, some q⟩ st.infos } where
  shape := by
    intro id' i hi
    simp only [mapGet_mapSet] at hi
    by_cases hid : id' = id
    · rw [if_pos hid] at hi
      cases hi
      exact .inl ⟨by simp, st.counterF, by simp, rfl⟩
    · rw [if_neg hid] at hi
      rcases h.shape id' i hi with ⟨h1, k, h2, h3⟩ | ⟨h1, k, h2, h3⟩
      · exact .inl ⟨h1, k, by simp; omega, h3⟩
      · exact .inr ⟨h1, k, h2, h3⟩
  inj := by
    intro id1 id2 i1 i2 h1 h2 e
    simp only [mapGet_mapSet] at h1 h2
    have key : ∀ id' i, mapGet id' st.infos = some i → i.name ≠ genName fieldPrefix st.counterF := by
      intro id' i hi e
      rcases h.shape id' i hi with ⟨_, k, h2, h3⟩ | ⟨_, k, _, h3⟩
      · have := genName_inj _ _ _ (h3.symm.trans e); omega
      · exact genName_ne _ _ (e.symm.trans h3)
    by_cases e1 : id1 = id
    · by_cases e2 : id2 = id
      · rw [e1, e2]
      · rw [if_pos e1] at h1; rw [if_neg e2] at h2
        cases h1
        exact absurd e.symm (key id2 i2 h2)
    · by_cases e2 : id2 = id
      · rw [if_neg e1] at h1; rw [if_pos e2] at h2
        cases h2
        exact absurd e (key id1 i1 h1)
      · rw [if_neg e1] at h1; rw [if_neg e2] at h2
        exact h.inj id1 id2 i1 i2 h1 h2 e

theorem Inv.addTable {st : St} (h : Inv st) (id : Nat) :
    Inv { st with counterS := st.counterS + 1,
                  infos := Lib.mapSet id ⟨genName selectPrefix st.counterS, none⟩ st.infos } where
  shape := by
    intro id' i hi
    simp only [mapGet_mapSet] at hi
    by_cases hid : id' = id
    · rw [if_pos hid] at hi
      cases hi
      exact .inr ⟨rfl, st.counterS, by simp, rfl⟩
    · rw [if_neg hid] at hi
      rcases h.shape id' i hi with ⟨h1, k, h2, h3⟩ | ⟨h1, k, h2, h3⟩
      · exact .inl ⟨h1, k, h2, h3⟩
      · exact .inr ⟨h1, k, by simp; omega, h3⟩
  inj := by
    intro id1 id2 i1 i2 h1 h2 e
    simp only [mapGet_mapSet] at h1 h2
    have key : ∀ id' i, mapGet id' st.infos = some i → i.name ≠ genName selectPrefix st.counterS := by
      intro id' i hi e
      rcases h.shape id' i hi with ⟨_, k, _, h3⟩ | ⟨_, k, h2, h3⟩
      · exact genName_ne _ _ (h3.symm.trans e)
      · have := genName_inj _ _ _ (h3.symm.trans e); omega
    by_cases e1 : id1 = id
    · by_cases e2 : id2 = id
      · rw [e1, e2]
      · rw [if_pos e1] at h1; rw [if_neg e2] at h2
        cases h1
        exact absurd e.symm (key id2 i2 h2)
    · by_cases e2 : id2 = id
      · rw [if_neg e1] at h1; rw [if_pos e2] at h2
        cases h2
        exact absurd e (key id1 i1 h1)
      · rw [if_neg e1] at h1; rw [if_neg e2] at h2
        exact h.inj id1 id2 i1 i2 h1 h2 e

/-- `F` are registered as subqueries of expressions of the scope at `p`, `S` as derived tables; nothing
else changes in the bookkeeping. -/
structure Reg (p : Nat) (F S : List Nat) (st st' : St) : Prop where
  stack : st'.stack = st.stack
  scopes : st'.scopes = st.scopes
  unknown : st'.unknown = st.unknown
  field : ∀ id ∈ F, ∃ nm, mapGet id st'.infos = some ⟨nm, some p⟩
  table : ∀ id ∈ S, ∃ nm, mapGet id st'.infos = some ⟨nm, none⟩
  other : ∀ id, id ∉ F → id ∉ S → mapGet id st'.infos = mapGet id st.infos
  inv : Inv st → Inv st'

/-- no registration, the bookkeeping being the same -/
theorem Reg.same (p : Nat) {st st' : St} (h1 : st'.stack = st.stack) (h2 : st'.scopes = st.scopes)
    (h3 : st'.unknown = st.unknown) (h4 : st'.infos = st.infos) (h5 : st'.counterF = st.counterF)
    (h6 : st'.counterS = st.counterS) : Reg p [] [] st st' where
  stack := h1
  scopes := h2
  unknown := h3
  field := by simp
  table := by simp
  other := by intros; rw [h4]
  inv := fun h => h.congr h4 h5 h6

theorem Reg.trans {p : Nat} {F S F' S' : List Nat} {st st1 st2 : St} (h : Reg p F S st st1)
    (h' : Reg p F' S' st1 st2) (hd : ∀ id, id ∈ F ∨ id ∈ S → id ∉ F' ∧ id ∉ S') :
    Reg p (F ++ F') (S ++ S') st st2 where
  stack := h'.stack.trans h.stack
  scopes := h'.scopes.trans h.scopes
  unknown := h'.unknown.trans h.unknown
  field := by
    intro id hid
    rcases List.mem_append.mp hid with h1 | h1
    · rw [h'.other id (hd id (.inl h1)).1 (hd id (.inl h1)).2]
      exact h.field id h1
    · exact h'.field id h1
  table := by
    intro id hid
    rcases List.mem_append.mp hid with h1 | h1
    · rw [h'.other id (hd id (.inr h1)).1 (hd id (.inr h1)).2]
      exact h.table id h1
    · exact h'.table id h1
  other := by
    intro id h1 h2
    simp only [List.mem_append, not_or] at h1 h2
    rw [h'.other id h1.2 h2.2, h.other id h1.1 h2.1]
  inv := fun hi => h'.inv (h.inv hi)

/-- the names of earlier registrations are not changed by later ones -/
theorem Reg.name {p : Nat} {F S : List Nat} {st st' : St} (h : Reg p F S st st') (id : Nat)
    (h1 : id ∉ F) (h2 : id ∉ S) : nameIn st'.infos id = nameIn st.infos id := by
  unfold nameIn
  rw [h.other id h1 h2]

/-! ## Expressions -/

/-- the select registered by a contribution -/
def CItem.reg : CItem → Option Nat
  | .sub (.paren s) => some s.id
  | _ => none

/-- the selects registered by a list of contributions -/
def cregs (items : List CItem) : List Nat := items.filterMap CItem.reg

/-- the column of a contribution -/
def CItem.colOf (ν : Nat → Str) : CItem → Option FieldColumn
  | .col c => some c
  | .sub (.paren s) => some { referenceName := ν s.id, table := [], name := [], type := .subquery }
  | _ => none

/-- the columns of a list of contributions -/
def colsOf (ν : Nat → Str) (items : List CItem) : List FieldColumn := items.filterMap (CItem.colOf ν)

/-- the error of a contribution -/
def CItem.errOf : CItem → Option Err
  | .err e => some e
  | _ => none

/-- the last error -/
def cerr (items : List CItem) : Option Err := (items.filterMap CItem.errOf).getLast?

/-- contributions that can be collected -/
def COk (items : List CItem) : Prop :=
  ∀ i ∈ items, i ≠ .panic ∧ ∀ b, i = .sub b → ∃ s, b = .paren s

theorem colsOf_congr (ν ν' : Nat → Str) (items : List CItem) (h : ∀ id ∈ cregs items, ν id = ν' id) :
    colsOf ν items = colsOf ν' items := by
  induction items with
  | nil => rfl
  | cons i r ih =>
    have hr : colsOf ν r = colsOf ν' r := by
      apply ih
      intro id hid
      obtain ⟨x, hx, e⟩ := List.mem_filterMap.mp hid
      exact h id (List.mem_filterMap.mpr ⟨x, by simp [hx], e⟩)
    have hi : CItem.colOf ν i = CItem.colOf ν' i := by
      rcases i with c | b | e | _
      · rfl
      · cases b with
        | paren s =>
          simp only [CItem.colOf]
          rw [h s.id (by simp [cregs, CItem.reg])]
        | _ => rfl
      · rfl
      · rfl
    unfold colsOf at hr ⊢
    rw [List.filterMap_cons, List.filterMap_cons, hi, hr]

theorem cerr_cons (i : CItem) (r : List CItem) :
    cerr (i :: r) = (cerr r).or (CItem.errOf i) := by
  unfold cerr
  cases h : CItem.errOf i with
  | none => rw [List.filterMap_cons_none h]; simp
  | some e =>
    rw [List.filterMap_cons_some h]
    cases r.filterMap CItem.errOf with
    | nil => rfl
    | cons a l => rw [List.getLast?_cons_cons]; simp [List.getLast?_cons]

theorem runC_reg (p : Nat) (items : List CItem) (hok : COk items) (hn : (cregs items).Nodup)
    (st : St) (hp : st.stack.head?.map (·.2) = some p) :
    ∃ st', runC items st = .ok (colsOf (nameIn st'.infos) items, st') ∧
      Reg p (cregs items) [] st st' ∧ st'.lastError = (cerr items).or st.lastError ∧
      st'.heap = st.heap ∧ st'.errors = st.errors := by
  induction items generalizing st with
  | nil => exact ⟨st, rfl, Reg.same p rfl rfl rfl rfl rfl rfl, rfl, rfl, rfl⟩
  | cons i r ih =>
    have hok' : COk r := fun i hi => hok i (by simp [hi])
    have hi := hok i (by simp)
    rcases i with c | b | e | _
    · obtain ⟨st', h1, h2, h3, h4, h5⟩ := ih hok' (show (cregs r).Nodup from hn) st hp
      refine ⟨st', ?_, ?_, ?_, h4, h5⟩
      · rw [runC]
        simp only [andThen, h1]
        rfl
      · exact h2
      · rw [h3, cerr_cons]; simp [CItem.errOf]
    · obtain ⟨s, rfl⟩ := hi.2 b rfl
      let st1 : St := { st with
        counterF := st.counterF + 1,
        infos := Lib.mapSet s.id ⟨genName fieldPrefix st.counterF, some p⟩ st.infos }
      have hc : cregs (.sub (.paren s) :: r) = s.id :: cregs r := rfl
      rw [hc, List.nodup_cons] at hn
      obtain ⟨st', h1, h2, h3, h4, h5⟩ := ih hok' hn.2 st1 hp
      have hr1 : Reg p [s.id] [] st st1 := by
        refine ⟨rfl, rfl, rfl, ?_, by simp, ?_, fun h => h.addField s.id p⟩
        · intro id hid
          rw [List.mem_singleton] at hid
          subst hid
          exact ⟨genName fieldPrefix st.counterF, by simp [st1, mapGet_mapSet]⟩
        · intro id hid _
          rw [List.mem_singleton] at hid
          simp only [st1, mapGet_mapSet, if_neg hid]
      have hname : nameIn st'.infos s.id = genName fieldPrefix st.counterF := by
        rw [h2.name s.id hn.1 (by simp)]
        simp [nameIn, st1, mapGet_mapSet]
      refine ⟨st', ?_, ?_, ?_, h4, h5⟩
      · have hs : subqueryRefs (.paren s) st =
            .ok ([{ referenceName := genName fieldPrefix st.counterF, table := [], name := [],
                    type := .subquery }], st1) := by
          unfold subqueryRefs newFieldInfo
          rw [hp]
        rw [runC, hs]
        simp only [andThen, h1]
        rw [← hname]
        rfl
      · rw [hc]
        refine hr1.trans h2 ?_
        intro id hid
        rcases hid with h | h
        · rw [List.mem_singleton] at h
          subst h
          exact ⟨hn.1, by simp⟩
        · simp at h
      · rw [h3, cerr_cons]; simp [CItem.errOf, st1]
    · obtain ⟨st', h1, h2, h3, h4, h5⟩ := ih hok' (show (cregs r).Nodup from hn)
        { st with lastError := some e } hp
      refine ⟨st', ?_, ?_, ?_, h4, h5⟩
      · rw [runC]
        simp only [failWith, andThen, h1]
        rfl
      · have hr1 : Reg p [] [] st { st with lastError := some e } :=
          Reg.same p rfl rfl rfl rfl rfl rfl
        have := hr1.trans h2 (by simp)
        exact this
      · rw [h3, cerr_cons]
        cases cerr r <;> rfl
    · exact absurd rfl hi.1

/-! ## FROM items -/

/-- the selects registered as subqueries of expressions -/
def TItem.regsF : TItem → List Nat
  | .field items => cregs items
  | _ => []

/-- the selects registered as derived tables -/
def TItem.regsS : TItem → List Nat
  | .derived (.paren s) _ _ => [s.id]
  | _ => []

/-- the tables of a contribution -/
def TItem.tabs (norm : Str → Str) (ν : Nat → Str) : TItem → List Table
  | .tab t => [t]
  | .derived (.paren s) as lateral => [⟨norm as, ν s.id, lateral⟩]
  | _ => []

/-- the fields of a contribution -/
def TItem.fields (ν : Nat → Str) : TItem → List Field
  | .field items => [{ columns := colsOf ν items }]
  | _ => []

/-- the last error of a contribution -/
def TItem.errOf : TItem → Option Err
  | .err e => some e
  | .field items => cerr items
  | _ => none

/-- the last error -/
def terr : List TItem → Option Err
  | [] => none
  | i :: r => (terr r).or i.errOf

/-- all selects registered -/
def tregs (items : List TItem) : List Nat := items.flatMap fun i => i.regsF ++ i.regsS

/-- contributions that can be collected -/
def TItem.Ok : TItem → Prop
  | .loop => False
  | .derived b _ _ => ∃ s, b = .paren s
  | .field items => COk items
  | _ => True

theorem TItem.tabs_congr (norm : Str → Str) (ν ν' : Nat → Str) (i : TItem)
    (h : ∀ id ∈ i.regsF ++ i.regsS, ν id = ν' id) : i.tabs norm ν = i.tabs norm ν' := by
  cases i with
  | derived b as lat =>
    cases b with
    | paren s => simp only [TItem.tabs]; rw [h s.id (by simp [TItem.regsS])]
    | _ => rfl
  | _ => rfl

theorem TItem.fields_congr (ν ν' : Nat → Str) (i : TItem)
    (h : ∀ id ∈ i.regsF ++ i.regsS, ν id = ν' id) : i.fields ν = i.fields ν' := by
  cases i with
  | field items =>
    simp only [TItem.fields]
    rw [colsOf_congr ν ν' items fun id hid => h id (by simp [TItem.regsF, hid])]
  | _ => rfl

theorem runTI_reg (norm : Str → Str) (p : Nat) (i : TItem) (hok : i.Ok)
    (hn : (i.regsF ++ i.regsS).Nodup) (st : St) (hp : st.stack.head?.map (·.2) = some p) :
    ∃ st', runTI norm st i = .ok (i.tabs norm (nameIn st'.infos), i.fields (nameIn st'.infos), st') ∧
      Reg p i.regsF i.regsS st st' ∧ st'.lastError = (i.errOf).or st.lastError ∧
      st'.heap = st.heap ∧ st'.errors = st.errors := by
  cases i with
  | tab t => exact ⟨st, rfl, Reg.same p rfl rfl rfl rfl rfl rfl, rfl, rfl, rfl⟩
  | err e =>
    exact ⟨{ st with lastError := some e }, rfl, Reg.same p rfl rfl rfl rfl rfl rfl, rfl, rfl, rfl⟩
  | loop => exact absurd hok (by simp [TItem.Ok])
  | field items =>
    obtain ⟨st', h1, h2, h3, h4, h5⟩ := runC_reg p items hok (by simpa [TItem.regsF, TItem.regsS]
      using hn) st hp
    exact ⟨st', by rw [runTI, h1]; rfl, h2, h3, h4, h5⟩
  | derived b as lat =>
    obtain ⟨s, rfl⟩ := hok
    let st1 : St := { st with
      counterS := st.counterS + 1,
      infos := Lib.mapSet s.id ⟨genName selectPrefix st.counterS, none⟩ st.infos }
    have hname : nameIn st1.infos s.id = genName selectPrefix st.counterS := by
      simp [nameIn, st1, mapGet_mapSet]
    refine ⟨st1, ?_, ?_, rfl, rfl, rfl⟩
    · simp only [TItem.tabs, TItem.fields, hname]
      rfl
    · refine ⟨rfl, rfl, rfl, by simp [TItem.regsF], ?_, ?_, fun h => h.addTable s.id⟩
      · intro id hid
        simp only [TItem.regsS, List.mem_singleton] at hid
        subst hid
        exact ⟨genName selectPrefix st.counterS, by simp [st1, mapGet_mapSet]⟩
      · intro id _ hid
        simp only [TItem.regsS, List.mem_singleton] at hid
        simp only [st1, mapGet_mapSet, if_neg hid]

theorem runT_reg (norm : Str → Str) (p : Nat) (items : List TItem) (hok : ∀ i ∈ items, i.Ok)
    (hn : (tregs items).Nodup) (st : St) (hp : st.stack.head?.map (·.2) = some p) :
    ∃ st', runT norm items st = .ok (items.flatMap (TItem.tabs norm (nameIn st'.infos)),
        items.flatMap (TItem.fields (nameIn st'.infos)), st') ∧
      Reg p (items.flatMap TItem.regsF) (items.flatMap TItem.regsS) st st' ∧
      st'.lastError = (terr items).or st.lastError ∧ st'.heap = st.heap ∧
      st'.errors = st.errors := by
  induction items generalizing st with
  | nil => exact ⟨st, rfl, Reg.same p rfl rfl rfl rfl rfl rfl, rfl, rfl, rfl⟩
  | cons i r ih =>
    rw [tregs, List.flatMap_cons, List.nodup_append] at hn
    obtain ⟨hn1, hn2, hn3⟩ := hn
    obtain ⟨st1, a1, a2, a3, a4, a5⟩ := runTI_reg norm p i (hok i (by simp)) hn1 st hp
    obtain ⟨st2, b1, b2, b3, b4, b5⟩ := ih (fun i hi => hok i (by simp [hi])) hn2 st1
      (by rw [a2.stack]; exact hp)
    have hd : ∀ id, id ∈ i.regsF ∨ id ∈ i.regsS →
        id ∉ r.flatMap TItem.regsF ∧ id ∉ r.flatMap TItem.regsS := by
      intro id hid
      have h1 : id ∈ i.regsF ++ i.regsS := List.mem_append.mpr hid
      constructor
      · intro h2
        obtain ⟨x, hx, h3⟩ := List.mem_flatMap.mp h2
        exact hn3 id h1 id (List.mem_flatMap.mpr ⟨x, hx, by simp [h3]⟩) rfl
      · intro h2
        obtain ⟨x, hx, h3⟩ := List.mem_flatMap.mp h2
        exact hn3 id h1 id (List.mem_flatMap.mpr ⟨x, hx, by simp [h3]⟩) rfl
    have hν : ∀ id ∈ i.regsF ++ i.regsS, nameIn st1.infos id = nameIn st2.infos id := by
      intro id hid
      have h1 := hd id (List.mem_append.mp hid)
      exact (b2.name id h1.1 h1.2).symm
    refine ⟨st2, ?_, a2.trans b2 hd, ?_, b4.trans a4, b5.trans a5⟩
    · rw [runT, a1]
      simp only [thenTabs, b1]
      rw [TItem.tabs_congr norm _ _ i hν, TItem.fields_congr _ _ i hν]
      rfl
    · rw [b3, a3, terr]
      cases terr r <;> cases i.errOf <;> rfl

/-! ## Parts of a clause -/

/-- the selects registered as subqueries of expressions -/
def Part.regsF : Part → List Nat
  | .expr _ items => cregs items
  | .table items => items.flatMap TItem.regsF
  | .window => []

/-- the selects registered as derived tables -/
def Part.regsS : Part → List Nat
  | .table items => items.flatMap TItem.regsS
  | _ => []

/-- the fields of a part -/
def Part.fields (ν : Nat → Str) : Part → List Field
  | .expr as items => if cerr items = none then [⟨as, colsOf ν items⟩] else []
  | .table items => items.flatMap (TItem.fields ν)
  | .window => []

/-- the errors of a part -/
def Part.errs : Part → List Err
  | .expr _ items => (cerr items).toList
  | .table items => (terr items).toList
  | .window => [.window]

/-- the new tables of the scope -/
def Part.tabs (norm : Str → Str) (ν : Nat → Str) (old : List Table) : Part → List Table
  | .table items => items.flatMap (TItem.tabs norm ν)
  | _ => old

/-- the tables of the scope after a list of parts: each FROM item overwrites -/
def ptabs (norm : Str → Str) (ν : Nat → Str) : List Part → List Table → List Table
  | [], old => old
  | i :: r, old => ptabs norm ν r (i.tabs norm ν old)

/-- parts that can be collected -/
def Part.Ok : Part → Prop
  | .expr _ items => COk items
  | .table items => ∀ i ∈ items, i.Ok
  | .window => True

/-- all selects registered -/
def pregs (parts : List Part) : List Nat := parts.flatMap fun i => i.regsF ++ i.regsS

/-- nodup for a part -/
def Part.Nodup : Part → Prop
  | .expr _ items => (cregs items).Nodup
  | .table items => (tregs items).Nodup
  | .window => True

theorem flatMap_congr' {α β : Type} {l : List α} {f g : α → List β} (h : ∀ x ∈ l, f x = g x) :
    l.flatMap f = l.flatMap g := by
  induction l with
  | nil => rfl
  | cons x r ih =>
    rw [List.flatMap_cons, List.flatMap_cons, h x (by simp), ih fun x hx => h x (by simp [hx])]

theorem mem_tregs (items : List TItem) (id : Nat) : id ∈ tregs items ↔
    id ∈ items.flatMap TItem.regsF ∨ id ∈ items.flatMap TItem.regsS := by
  simp only [tregs, List.mem_flatMap, List.mem_append]
  constructor
  · rintro ⟨x, hx, h | h⟩
    · exact .inl ⟨x, hx, h⟩
    · exact .inr ⟨x, hx, h⟩
  · rintro (⟨x, hx, h⟩ | ⟨x, hx, h⟩)
    · exact ⟨x, hx, .inl h⟩
    · exact ⟨x, hx, .inr h⟩

theorem Part.fields_congr (ν ν' : Nat → Str) (i : Part)
    (h : ∀ id ∈ i.regsF ++ i.regsS, ν id = ν' id) : i.fields ν = i.fields ν' := by
  cases i with
  | expr as items =>
    simp only [Part.fields]
    rw [colsOf_congr ν ν' items fun id hid => h id (by simp [Part.regsF, hid])]
  | table items =>
    simp only [Part.fields]
    have : ∀ x ∈ items, x.fields ν = x.fields ν' := by
      intro x hx
      apply TItem.fields_congr
      intro id hid
      apply h id
      rcases List.mem_append.mp hid with h1 | h1
      · exact List.mem_append_left _ (List.mem_flatMap.mpr ⟨x, hx, h1⟩)
      · exact List.mem_append_right _ (List.mem_flatMap.mpr ⟨x, hx, h1⟩)
    exact flatMap_congr' this
  | window => rfl

theorem Part.tabs_congr (norm : Str → Str) (ν ν' : Nat → Str) (i : Part) (old : List Table)
    (h : ∀ id ∈ i.regsF ++ i.regsS, ν id = ν' id) : i.tabs norm ν old = i.tabs norm ν' old := by
  cases i with
  | table items =>
    simp only [Part.tabs]
    have : ∀ x ∈ items, x.tabs norm ν = x.tabs norm ν' := by
      intro x hx
      apply TItem.tabs_congr
      intro id hid
      apply h id
      rcases List.mem_append.mp hid with h1 | h1
      · exact List.mem_append_left _ (List.mem_flatMap.mpr ⟨x, hx, h1⟩)
      · exact List.mem_append_right _ (List.mem_flatMap.mpr ⟨x, hx, h1⟩)
    exact flatMap_congr' this
  | _ => rfl

theorem ptabs_congr (norm : Str → Str) (ν ν' : Nat → Str) (parts : List Part) (old : List Table)
    (h : ∀ id ∈ pregs parts, ν id = ν' id) : ptabs norm ν parts old = ptabs norm ν' parts old := by
  induction parts generalizing old with
  | nil => rfl
  | cons i r ih =>
    rw [ptabs, ptabs, Part.tabs_congr norm ν ν' i old fun id hid => h id (by
      rw [pregs, List.flatMap_cons]; exact List.mem_append_left _ hid)]
    exact ih _ fun id hid => h id (by
      rw [pregs, List.flatMap_cons]; exact List.mem_append_right _ hid)

theorem pfields_congr (ν ν' : Nat → Str) (parts : List Part)
    (h : ∀ id ∈ pregs parts, ν id = ν' id) :
    parts.flatMap (Part.fields ν) = parts.flatMap (Part.fields ν') := by
  apply flatMap_congr'
  intro x hx
  apply Part.fields_congr
  intro id hid
  exact h id (List.mem_flatMap.mpr ⟨x, hx, hid⟩)

theorem modify_id {α : Type} (l : List α) (p : Nat) : l.modify p (fun c => c) = l := by
  exact List.modify_id p l

theorem runPI_reg (norm : Str → Str) (p : Nat) (i : Part) (hok : i.Ok) (hn : i.Nodup) (st : St)
    (hp : st.stack.head?.map (·.2) = some p) (hl : st.lastError = none) :
    ∃ st', runPI norm p st i = .ok (i.fields (nameIn st'.infos), st') ∧
      Reg p i.regsF i.regsS st st' ∧ st'.lastError = none ∧
      st'.heap = st.heap.modify p (fun c => { c with tables := i.tabs norm (nameIn st'.infos) c.tables }) ∧
      st'.errors = st.errors ++ i.errs := by
  cases i with
  | window =>
    refine ⟨{ st with errors := st.errors ++ [.window] }, rfl,
      Reg.same p rfl rfl rfl rfl rfl rfl, hl, ?_, rfl⟩
    exact (modify_id st.heap p).symm
  | expr as items =>
    obtain ⟨st1, h1, h2, h3, h4, h5⟩ := runC_reg p items hok hn st hp
    rw [hl, Option.or_none] at h3
    cases he : cerr items with
    | none =>
      rw [he] at h3
      refine ⟨st1, ?_, h2, h3, ?_, ?_⟩
      · rw [runPI, h1]
        simp only [keepField, h3, Part.fields, he, if_true]
      · rw [h4]; exact (modify_id st.heap p).symm
      · simp [Part.errs, he, h5]
    | some e =>
      rw [he] at h3
      refine ⟨{ st1 with lastError := none, errors := st1.errors ++ [e] }, ?_, ?_, rfl, ?_, ?_⟩
      · rw [runPI, h1]
        simp only [keepField, h3, Part.fields, he]
        simp
      · have h6 : Reg p [] [] st1 { st1 with lastError := none, errors := st1.errors ++ [e] } :=
          Reg.same p rfl rfl rfl rfl rfl rfl
        have := h2.trans h6 (by simp)
        simpa [Part.regsF, Part.regsS] using this
      · show st1.heap = _
        rw [h4]; exact (modify_id st.heap p).symm
      · simp [Part.errs, he, h5]
  | table items =>
    obtain ⟨st1, h1, h2, h3, h4, h5⟩ := runT_reg norm p items hok hn st hp
    rw [hl, Option.or_none] at h3
    have hrec : Reg p [] [] st1 ((recordError st1).update p fun c =>
        { c with tables := items.flatMap (TItem.tabs norm (nameIn st1.infos)) }) := by
      unfold recordError St.update
      cases st1.lastError <;> exact Reg.same p rfl rfl rfl rfl rfl rfl
    have hinf : ((recordError st1).update p fun c =>
        { c with tables := items.flatMap (TItem.tabs norm (nameIn st1.infos)) }).infos = st1.infos := by
      unfold recordError St.update
      cases st1.lastError <;> rfl
    refine ⟨(recordError st1).update p fun c =>
        { c with tables := items.flatMap (TItem.tabs norm (nameIn st1.infos)) }, ?_, ?_, ?_, ?_, ?_⟩
    · rw [runPI, h1, hinf]
      rfl
    · have := h2.trans hrec (by simp)
      simpa [Part.regsF, Part.regsS] using this
    · unfold recordError St.update
      cases h : st1.lastError
      · exact h
      · rfl
    · rw [hinf]
      unfold recordError St.update
      cases st1.lastError <;> (simp only [h4]; rfl)
    · unfold recordError St.update
      cases he : terr items <;> rw [he] at h3 <;> simp [h3, Part.errs, he, h5]

theorem runP_reg (norm : Str → Str) (p : Nat) (parts : List Part) (hok : ∀ i ∈ parts, i.Ok)
    (hn : ∀ i ∈ parts, i.Nodup) (hd : parts.Pairwise fun i j => ∀ id,
      id ∈ i.regsF ++ i.regsS → id ∉ j.regsF ++ j.regsS) (st : St)
    (hp : st.stack.head?.map (·.2) = some p) (hl : st.lastError = none) :
    ∃ st', runP norm p parts st = .ok (parts.flatMap (Part.fields (nameIn st'.infos)), st') ∧
      Reg p (parts.flatMap Part.regsF) (parts.flatMap Part.regsS) st st' ∧ st'.lastError = none ∧
      st'.heap = st.heap.modify p
        (fun c => { c with tables := ptabs norm (nameIn st'.infos) parts c.tables }) ∧
      st'.errors = st.errors ++ parts.flatMap Part.errs := by
  induction parts generalizing st with
  | nil =>
    refine ⟨st, rfl, Reg.same p rfl rfl rfl rfl rfl rfl, hl, ?_, by simp⟩
    exact (modify_id st.heap p).symm
  | cons i r ih =>
    obtain ⟨st1, a1, a2, a3, a4, a5⟩ := runPI_reg norm p i (hok i (by simp)) (hn i (by simp)) st hp hl
    rw [List.pairwise_cons] at hd
    obtain ⟨st2, b1, b2, b3, b4, b5⟩ := ih (fun i hi => hok i (by simp [hi]))
      (fun i hi => hn i (by simp [hi])) hd.2 st1 (by rw [a2.stack]; exact hp) a3
    have hd' : ∀ id, id ∈ i.regsF ∨ id ∈ i.regsS →
        id ∉ r.flatMap Part.regsF ∧ id ∉ r.flatMap Part.regsS := by
      intro id hid
      have h1 : id ∈ i.regsF ++ i.regsS := List.mem_append.mpr hid
      constructor
      · intro h2
        obtain ⟨x, hx, h3⟩ := List.mem_flatMap.mp h2
        exact hd.1 x hx id h1 (by simp [h3])
      · intro h2
        obtain ⟨x, hx, h3⟩ := List.mem_flatMap.mp h2
        exact hd.1 x hx id h1 (by simp [h3])
    have hν : ∀ id ∈ i.regsF ++ i.regsS, nameIn st1.infos id = nameIn st2.infos id := by
      intro id hid
      have h1 := hd' id (List.mem_append.mp hid)
      exact (b2.name id h1.1 h1.2).symm
    refine ⟨st2, ?_, a2.trans b2 hd', b3, ?_, ?_⟩
    · rw [runP, a1]
      simp only [thenFound, b1]
      rw [Part.fields_congr _ _ i hν]
      rfl
    · rw [b4, a4, List.modify_modify_eq]
      congr 1
      funext c
      simp only [Function.comp, ptabs]
      rw [Part.tabs_congr norm _ _ i c.tables hν]
    · rw [b5, a5]; simp

end Verif.PgScope
