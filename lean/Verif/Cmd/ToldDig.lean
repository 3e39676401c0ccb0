import Verif.Cmd.Told
import Verif.Cmd.Jaeger
import Verif.Cmd.PerfInsights
/-!
# C91 for the two commands that dig

`/repo/cmd/app/dig/jaeger.go:129-138` and `/repo/cmd/db/dig/performance_insights.go:87-95` call
`LogResultOutputPath` right after the page was written.
-/
namespace Verif.Cmd.Told

/-! ## Model -/

/-- the lines about the file of a run of `dig jaeger`, `/repo/cmd/app/dig/jaeger.go:129-136` -/
def loggedJaeger (wd : Option Str) (effs : List Jaeger.Effect) : List Str :=
  match wd with
  | none => []
  | some d => effs.filterMap fun e => match e with
    | .html p _ => some (loggedPath d p)
    | _ => none

/-- the lines about the file of a run of `dig performance-insights`,
`/repo/cmd/db/dig/performance_insights.go:88-93` -/
def loggedPi {F : Type} (wd : Option Str) (effs : List (PerfInsights.Effect F)) : List Str :=
  match wd with
  | none => []
  | some d => effs.filterMap fun e => match e with
    | .html p _ => some (loggedPath d p)
    | _ => none

/-! ## Proofs -/

theorem loggedJaeger_asks (wd : Str) (qs : List Otel.Query) (l : List Jaeger.Effect) :
    loggedJaeger (some wd) (qs.map .ask ++ l) = loggedJaeger (some wd) l := by
  induction qs with
  | nil => rfl
  | cons q qs ih => exact ih

theorem loggedPi_asks {F : Type} (wd : Str) (e : List Str) (qs : List PerfInsights.Query)
    (l : List (PerfInsights.Effect F)) :
    loggedPi (some wd) (.describe e :: qs.map .ask ++ l) = loggedPi (some wd) l := by
  induction qs with
  | nil => rfl
  | cons q qs ih => exact ih

/-- C91, `dig jaeger`: however its run ends, a line about the file is logged exactly when the command succeeded
and a report was asked for, once, with the path of `-o`, and the page is written in exactly these cases. -/
theorem C91_told_jaeger {E : Type} (wd : Str) (w : Jaeger.World E) (o : Jaeger.Options)
    (res : Except (Jaeger.Err E) Unit) (effs : List Jaeger.Effect) (h : Jaeger.run w o = some (res, effs)) :
    (res = .ok () ∧ o.output ≠ [] →
      (∃ r, .html o.output r ∈ effs) ∧ loggedJaeger (some wd) effs = [loggedPath wd o.output]) ∧
    (¬ (res = .ok () ∧ o.output ≠ []) → (∀ p r, .html p r ∉ effs) ∧ loggedJaeger (some wd) effs = []) := by
  have quiet : ∀ (e : Jaeger.Err E) (qs : List Otel.Query), (res, effs) = (.error e, qs.map .ask) →
      (res = .ok () ∧ o.output ≠ [] →
        (∃ r, .html o.output r ∈ effs) ∧ loggedJaeger (some wd) effs = [loggedPath wd o.output]) ∧
      (¬ (res = .ok () ∧ o.output ≠ []) → (∀ p r, .html p r ∉ effs) ∧ loggedJaeger (some wd) effs = []) := by
    intro e qs he
    cases he
    refine ⟨fun k => (by cases k.1), fun _ => ⟨by simp, ?_⟩⟩
    have := loggedJaeger_asks wd qs []
    rw [List.append_nil] at this
    rw [this]; rfl
  unfold Jaeger.run at h
  split at h
  · rename_i e _
    exact quiet e [] (Option.some.inj h).symm
  · rename_i p _
    split at h
    · rename_i e _
      exact quiet _ [] (Option.some.inj h).symm
    · split at h
      · cases h
      · rename_i e qs _
        exact quiet _ qs (Option.some.inj h).symm
      · rename_i trees qs _
        simp only [Option.some.injEq] at h
        unfold Jaeger.present at h
        split at h
        · exact quiet .panic qs (by rw [← h]; simp)
        · split at h
          · exact quiet .panic qs (by rw [← h]; simp)
          · simp only at h
            split at h
            · rename_i ho
              split at h
              · rename_i e _
                exact quiet (.write e) qs (by rw [← h]; simp)
              · cases h
                refine ⟨fun _ => ⟨⟨_, by simp; rfl⟩, ?_⟩, fun k => absurd ⟨rfl, ho⟩ k⟩
                rw [loggedJaeger_asks]; rfl
            · rename_i ho
              cases h
              refine ⟨fun k => absurd k.2 ho, fun _ => ⟨by simp, ?_⟩⟩
              rw [loggedJaeger_asks]; rfl

/-- C91, `dig performance-insights`: the same; this command always writes a page. -/
theorem C91_told_pi {E F : Type} (ops : Pi.LoadOps F) (wd : Str) (w : PerfInsights.World E F)
    (o : PerfInsights.Options) (res : Except (PerfInsights.Err E) Unit) (effs : List (PerfInsights.Effect F))
    (h : PerfInsights.run ops w o = some (res, effs)) :
    (res = .ok () →
      (∃ r, .html o.output r ∈ effs) ∧ loggedPi (some wd) effs = [loggedPath wd o.output]) ∧
    (res ≠ .ok () → (∀ p r, .html p r ∉ effs) ∧ loggedPi (some wd) effs = []) := by
  have quiet : ∀ (e : PerfInsights.Err E) (d : List Str) (qs : List PerfInsights.Query),
      (res, effs) = (.error e, .describe d :: qs.map .ask) →
      (res = .ok () →
        (∃ r, .html o.output r ∈ effs) ∧ loggedPi (some wd) effs = [loggedPath wd o.output]) ∧
      (res ≠ .ok () → (∀ p r, .html p r ∉ effs) ∧ loggedPi (some wd) effs = []) := by
    intro e d qs he
    cases he
    refine ⟨fun k => (by cases k), fun _ => ⟨by simp, ?_⟩⟩
    have := loggedPi_asks (F := F) wd d qs []
    rw [List.append_nil] at this
    rw [this]; rfl
  unfold PerfInsights.run at h
  split at h
  · exact quiet _ _ [] (Option.some.inj h).symm
  · split at h
    · exact quiet _ _ [] (Option.some.inj h).symm
    · split at h
      · exact quiet _ _ [] (Option.some.inj h).symm
      · rename_i start _
        split at h
        · rename_i e q _
          exact quiet _ _ q (Option.some.inj h).symm
        · rename_i avgs q _
          obtain ⟨a, b, _, _, hp⟩ := PerfInsights.present_some ops w o start avgs
          rw [hp] at h
          simp only [Option.map_some, Option.some.injEq] at h
          split at h
          · rename_i e _
            exact quiet (.write e) [PerfInsights.mysql] q (by rw [← h]; simp)
          · cases h
            refine ⟨fun _ => ⟨⟨_, by simp; rfl⟩, ?_⟩, fun k => absurd rfl k⟩
            rw [loggedPi_asks]; rfl

/-! ### Concrete cases -/

example : loggedJaeger (some exWd) [.html exOut ⟨[], 0, 0, [], []⟩] = ["/home/you/out/r.html".toList] := by
  decide +kernel

end Verif.Cmd.Told
