import Mathlib.Data.List.Basic
import Mathlib.Data.List.Forall2
import Verif.Otel.Model
/-!
# C54: conversion of single spans
-/
namespace Verif.Otel
open Verif.Lib

/-! ## Specification -/

/-- the value of the last entry with the key -/
def LastEntry {β : Type} (l : List (Str × β)) (k : Str) (v : β) : Prop :=
  ∃ pre post, l = pre ++ (k, v) :: post ∧ ∀ e ∈ post, e.1 ≠ k

/-- the value of the first entry with the key -/
def FirstEntry {β : Type} (l : List (Str × β)) (k : Str) (v : β) : Prop :=
  ∃ pre post, l = pre ++ (k, v) :: post ∧ ∀ e ∈ pre, e.1 ≠ k

/-- A converted value represents a wire value: same leaves, arrays element by element, of several
entries with the same key the last. -/
inductive Represents : Wire → Datum → Prop where
  | str (s : Str) : Represents (.str s) (.str s)
  | bool (b : Bool) : Represents (.bool b) (.bool b)
  | int (n : Int) : Represents (.int n) (.int n)
  | dbl (d : Nat) : Represents (.dbl d) (.dbl d)
  | bytes (b : Bytes) : Represents (.bytes b) (.bytes b)
  | arr (vs : List Wire) (ds : List Datum) (len : vs.length = ds.length)
      (each : ∀ (i : Nat) (v : Wire) (d : Datum), vs[i]? = some v → ds[i]? = some d → Represents v d) :
      Represents (.arr vs) (.arr ds)
  | kv (vs : List (Str × Wire)) (ds : List (Str × Datum)) (f : Str → Wire → Datum)
      (present : ∀ k v, LastEntry vs k v → mapGet k ds = some (f k v))
      (each : ∀ k v, LastEntry vs k v → Represents v (f k v))
      (absent : ∀ k, (∀ v, ¬ LastEntry vs k v) → mapGet k ds = none) :
      Represents (.kv vs) (.kv ds)

mutual
/-- Is a value, or one inside it, unset? -/
def unsetIn : Wire → Bool
  | .unset => true
  | .arr vs => unsetInL vs
  | .kv vs => unsetInKV vs
  | _ => false
def unsetInL : List Wire → Bool
  | [] => false
  | v :: vs => unsetIn v || unsetInL vs
def unsetInKV : List (Str × Wire) → Bool
  | [] => false
  | (_, v) :: vs => unsetIn v || unsetInKV vs
end

/-! ## Totality -/

mutual
theorem toDatum_cases : ∀ w : Wire,
    (unsetIn w = true ∧ toDatum w = .error .panic) ∨ (unsetIn w = false ∧ ∃ d, toDatum w = .ok d)
  | .str s => by simp [unsetIn, toDatum]
  | .bool s => by simp [unsetIn, toDatum]
  | .int s => by simp [unsetIn, toDatum]
  | .dbl s => by simp [unsetIn, toDatum]
  | .bytes s => by simp [unsetIn, toDatum]
  | .unset => by simp [unsetIn, toDatum]
  | .arr vs => by
    rcases toDatumL_cases vs with ⟨h1, h2⟩ | ⟨h1, d, h2⟩ <;> simp [unsetIn, toDatum, h1, h2]
  | .kv vs => by
    rcases toDatumKV_cases vs [] with ⟨h1, h2⟩ | ⟨h1, d, h2⟩ <;> simp [unsetIn, toDatum, h1, h2]
theorem toDatumL_cases : ∀ ws : List Wire,
    (unsetInL ws = true ∧ toDatumL ws = .error .panic) ∨
      (unsetInL ws = false ∧ ∃ d, toDatumL ws = .ok d)
  | [] => by simp [unsetInL, toDatumL]
  | w :: ws => by
    rcases toDatum_cases w with ⟨h1, h2⟩ | ⟨h1, d, h2⟩
    · simp [unsetInL, toDatumL, h1, h2]
    · rcases toDatumL_cases ws with ⟨h3, h4⟩ | ⟨h3, e, h4⟩ <;>
        simp [unsetInL, toDatumL, h1, h2, h3, h4]
theorem toDatumKV_cases : ∀ (ws : List (Str × Wire)) (m : List (Str × Datum)),
    (unsetInKV ws = true ∧ toDatumKV ws m = .error .panic) ∨
      (unsetInKV ws = false ∧ ∃ d, toDatumKV ws m = .ok d)
  | [], m => by simp [unsetInKV, toDatumKV]
  | (k, w) :: ws, m => by
    rcases toDatum_cases w with ⟨h1, h2⟩ | ⟨h1, d, h2⟩
    · simp [unsetInKV, toDatumKV, h1, h2]
    · rcases toDatumKV_cases ws (mapSet k d m) with ⟨h3, h4⟩ | ⟨h3, e, h4⟩ <;>
        simp [unsetInKV, toDatumKV, h1, h2, h3, h4]
end

/-! ## Meaning -/

/-- the converted value, where there is one -/
def datum (w : Wire) : Datum := match toDatum w with
  | .ok d => d
  | .error _ => .bool false

theorem datum_of {w : Wire} {d : Datum} (h : toDatum w = .ok d) : datum w = d := by
  simp [datum, h]

theorem lastEntry_cons {β : Type} {k' : Str} {v' : β} {l : List (Str × β)} {k : Str} {v : β} :
    LastEntry ((k', v') :: l) k v ↔
      LastEntry l k v ∨ (k' = k ∧ v' = v ∧ ∀ e ∈ l, e.1 ≠ k) := by
  constructor
  · rintro ⟨pre, post, h, hp⟩
    cases pre with
    | nil =>
      simp only [List.nil_append, List.cons.injEq, Prod.mk.injEq] at h
      obtain ⟨⟨rfl, rfl⟩, rfl⟩ := h
      exact .inr ⟨rfl, rfl, hp⟩
    | cons a pre =>
      simp only [List.cons_append, List.cons.injEq] at h
      exact .inl ⟨pre, post, h.2, hp⟩
  · rintro (⟨pre, post, rfl, hp⟩ | ⟨rfl, rfl, hp⟩)
    · exact ⟨(k', v') :: pre, post, rfl, hp⟩
    · exact ⟨[], l, rfl, hp⟩

theorem lastEntry_exists {β : Type} {l : List (Str × β)} {k : Str} (h : ∃ e ∈ l, e.1 = k) :
    ∃ v, LastEntry l k v := by
  induction l with
  | nil => obtain ⟨e, he, _⟩ := h; cases he
  | cons a l ih =>
    by_cases hl : ∃ e ∈ l, e.1 = k
    · obtain ⟨v, hv⟩ := ih hl
      obtain ⟨k', v'⟩ := a
      exact ⟨v, lastEntry_cons.mpr (.inl hv)⟩
    · push Not at hl
      obtain ⟨e, he, hk⟩ := h
      rcases List.mem_cons.mp he with rfl | he
      · obtain ⟨k', v'⟩ := e
        exact ⟨v', lastEntry_cons.mpr (.inr ⟨hk, rfl, hl⟩)⟩
      · exact absurd hk (hl e he)

theorem lastEntry_key {β : Type} {l : List (Str × β)} {k : Str} {v : β} (h : LastEntry l k v) :
    (k, v) ∈ l := by
  obtain ⟨pre, post, rfl, _⟩ := h
  simp

theorem toDatumKV_get : ∀ (ws : List (Str × Wire)) (m m' : List (Str × Datum)),
    toDatumKV ws m = .ok m' →
    (∀ k v, LastEntry ws k v → mapGet k m' = some (datum v)) ∧
    (∀ k, (∀ v, ¬ LastEntry ws k v) → mapGet k m' = mapGet k m)
  | [], m, m', h => by
    rw [toDatumKV] at h
    cases h
    refine ⟨fun k v hl => ?_, fun _ _ => rfl⟩
    cases lastEntry_key hl
  | (k', w) :: ws, m, m', h => by
    rw [toDatumKV] at h
    cases hw : toDatum w with
    | error e => simp only [hw] at h; cases h
    | ok d =>
      simp only [hw] at h
      obtain ⟨h1, h2⟩ := toDatumKV_get ws _ m' h
      refine ⟨fun k v hl => ?_, fun k hk => ?_⟩
      · rcases lastEntry_cons.mp hl with hl | ⟨rfl, rfl, hn⟩
        · exact h1 k v hl
        · rw [h2 k' (fun v hv => hn _ (lastEntry_key hv) rfl), mapGet_mapSet, if_pos rfl,
            datum_of hw]
      · rw [h2 k (fun v hv => hk v (lastEntry_cons.mpr (.inl hv))), mapGet_mapSet]
        by_cases he : k = k'
        · subst he
          exfalso
          obtain ⟨v, hv⟩ := lastEntry_exists (l := (k, w) :: ws) (k := k) ⟨(k, w), by simp, rfl⟩
          exact hk v hv
        · first
            | rw [if_neg he]
            | rw [if_neg (fun h => he h.symm)]

mutual
theorem toDatum_represents : ∀ (w : Wire) (d : Datum), toDatum w = .ok d → Represents w d
  | .str s, d, h => by simp only [toDatum] at h; cases h; exact .str s
  | .bool s, d, h => by simp only [toDatum] at h; cases h; exact .bool s
  | .int s, d, h => by simp only [toDatum] at h; cases h; exact .int s
  | .dbl s, d, h => by simp only [toDatum] at h; cases h; exact .dbl s
  | .bytes s, d, h => by simp only [toDatum] at h; cases h; exact .bytes s
  | .unset, d, h => by simp only [toDatum] at h; cases h
  | .arr vs, d, h => by
    rw [toDatum] at h
    cases hw : toDatumL vs with
    | error e => simp only [hw] at h; cases h
    | ok ds =>
      simp only [hw] at h; cases h
      obtain ⟨h1, h2⟩ := toDatumL_represents vs ds hw
      exact .arr vs ds h1 h2
  | .kv vs, d, h => by
    rw [toDatum] at h
    cases hw : toDatumKV vs [] with
    | error e => simp only [hw] at h; cases h
    | ok ds =>
      simp only [hw] at h; cases h
      obtain ⟨h1, h2⟩ := toDatumKV_get vs [] ds hw
      refine .kv vs ds (fun _ v => datum v) h1 (fun k v hl => ?_) (fun k hk => ?_)
      · exact toDatumKV_represents vs [] ds hw (k, v) (lastEntry_key hl)
      · rw [h2 k hk]; rfl
theorem toDatumL_represents : ∀ (ws : List Wire) (ds : List Datum), toDatumL ws = .ok ds →
    ws.length = ds.length ∧
      ∀ (i : Nat) (v : Wire) (d : Datum), ws[i]? = some v → ds[i]? = some d → Represents v d
  | [], ds, h => by
    rw [toDatumL] at h; cases h
    exact ⟨rfl, fun i v d hv => by simp at hv⟩
  | w :: ws, ds, h => by
    rw [toDatumL] at h
    cases hw : toDatum w with
    | error e => simp only [hw] at h; cases h
    | ok d0 =>
      simp only [hw] at h
      cases hws : toDatumL ws with
      | error e => simp only [hws] at h; cases h
      | ok ds' =>
        simp only [hws] at h; cases h
        obtain ⟨h1, h2⟩ := toDatumL_represents ws ds' hws
        refine ⟨by simp [h1], fun i v d hv hd => ?_⟩
        cases i with
        | zero =>
          simp at hv hd
          subst hv; subst hd
          exact toDatum_represents w d0 hw
        | succ i =>
          simp at hv hd
          exact h2 i v d hv hd
theorem toDatumKV_represents : ∀ (ws : List (Str × Wire)) (m m' : List (Str × Datum)),
    toDatumKV ws m = .ok m' → ∀ e ∈ ws, Represents e.2 (datum e.2)
  | [], _, _, _ => by simp
  | (k, w) :: ws, m, m', h => by
    rw [toDatumKV] at h
    cases hw : toDatum w with
    | error e => simp only [hw] at h; cases h
    | ok d =>
      simp only [hw] at h
      intro e he
      rcases List.mem_cons.mp he with rfl | he
      · rw [datum_of hw]; exact toDatum_represents w d hw
      · exact toDatumKV_represents ws _ m' h e he
end

/-! ## C54 -/

/-- C54: a converted span keeps ids, name and times, and its attributes represent the given ones. -/
theorem C54_span (s : WireSpan) (h : Holder) (hc : toHolder s = .ok h) :
    h.parentId = s.parentId ∧ h.span.traceId = s.traceId ∧ h.span.spanId = s.spanId ∧
    h.span.name = s.name ∧ h.span.start = s.start ∧ h.span.stop = s.stop ∧
    Represents (.kv s.attrs) (.kv h.span.attrs) := by
  unfold toHolder at hc
  cases ha : toDatumKV s.attrs [] with
  | error e => simp only [ha] at hc; cases hc
  | ok attrs =>
    simp only [ha] at hc
    rw [Except.ok.injEq] at hc
    subst hc
    refine ⟨rfl, rfl, rfl, rfl, rfl, rfl, ?_⟩
    apply toDatum_represents
    rw [toDatum, ha]

/-- the attribute that names the service -/
def serviceAttribute : Str := "service.name".toList

theorem serviceAttribute_eq : serviceNameKey = serviceAttribute := rfl

theorem serviceOf_first : ∀ (l : List (Str × Wire)) (v : Wire), FirstEntry l serviceAttribute v →
    serviceOf l = wireString v := by
  rintro l v ⟨pre, post, rfl, hp⟩
  induction pre with
  | nil => exact if_pos rfl
  | cons a pre ih =>
    obtain ⟨k, w⟩ := a
    rw [List.cons_append, serviceOf, serviceAttribute_eq, if_neg (hp (k, w) (by simp))]
    exact ih (fun e he => hp e (List.mem_cons_of_mem _ he))

theorem serviceOf_none (l : List (Str × Wire)) (h : ∀ e ∈ l, e.1 ≠ serviceAttribute) :
    serviceOf l = [] := by
  induction l with
  | nil => rfl
  | cons a l ih =>
    obtain ⟨k, w⟩ := a
    rw [serviceOf, serviceAttribute_eq, if_neg (h (k, w) (by simp))]
    exact ih (fun e he => h e (List.mem_cons_of_mem _ he))

/-- C54: the service is the text of the resource's first `service.name`. -/
theorem C54_service (s : WireSpan) (h : Holder) (hc : toHolder s = .ok h) (r : List (Str × Wire))
    (hr : s.resource = some r) (n : Str) (hf : FirstEntry r serviceAttribute (.str n)) :
    h.span.service = n := by
  unfold toHolder at hc
  cases ha : toDatumKV s.attrs [] with
  | error e => simp only [ha] at hc; cases hc
  | ok attrs =>
    simp only [ha] at hc
    rw [Except.ok.injEq] at hc
    subst hc
    simp only [hr]
    exact serviceOf_first r _ hf

/-- C54: without resource or `service.name` the service is empty. -/
theorem C54_no_service (s : WireSpan) (h : Holder) (hc : toHolder s = .ok h)
    (hr : ∀ r, s.resource = some r → ∀ e ∈ r, e.1 ≠ serviceAttribute) : h.span.service = [] := by
  unfold toHolder at hc
  cases ha : toDatumKV s.attrs [] with
  | error e => simp only [ha] at hc; cases hc
  | ok attrs =>
    simp only [ha] at hc
    rw [Except.ok.injEq] at hc
    subst hc
    cases hres : s.resource with
    | none => simp only
    | some r => simp only; exact serviceOf_none r (hr r hres)

/-- C54: a span converts unless an unset value occurs, at any depth, in one of its attributes. -/
theorem C54_converts_iff (s : WireSpan) :
    (∃ h, toHolder s = .ok h) ↔ unsetInKV s.attrs = false := by
  unfold toHolder
  rcases toDatumKV_cases s.attrs [] with ⟨h1, h2⟩ | ⟨h1, d, h2⟩ <;> simp [h1, h2]

/-- C54: an unset value crashes the conversion. -/
theorem C54_panics_iff (s : WireSpan) :
    toHolder s = .error .panic ↔ unsetInKV s.attrs = true := by
  unfold toHolder
  rcases toDatumKV_cases s.attrs [] with ⟨h1, h2⟩ | ⟨h1, d, h2⟩ <;> simp [h1, h2]

/-- a wire span with repeated keys and a nested value -/
def exWire : WireSpan where
  traceId := [1]
  spanId := [2]
  parentId := [3]
  name := ['n']
  start := 5
  stop := 9
  attrs := [(['a'], .int 1), (['b'], .arr [.kv [(['c'], .bool true)], .str ['x']]), (['a'], .int 2)]
  resource := some [(['z'], .int 0), (serviceAttribute, .str ['s']), (serviceAttribute, .str ['t'])]

example : unsetInKV exWire.attrs = false := by decide
example : FirstEntry [(['z'], .int 0), (serviceAttribute, .str ['s']), (serviceAttribute, .str ['t'])]
    serviceAttribute (Wire.str ['s']) :=
  ⟨[(['z'], .int 0)], [(serviceAttribute, .str ['t'])], rfl, by
    intro e he; simp at he; subst he; decide +kernel⟩
example : LastEntry exWire.attrs ['a'] (.int 2) :=
  ⟨[(['a'], .int 1), (['b'], .arr [.kv [(['c'], .bool true)], .str ['x']])], [], rfl, by simp⟩
example : unsetInKV [(['a'], .arr [.str [], .kv [(['b'], .unset)]])] = true := by decide

end Verif.Otel
