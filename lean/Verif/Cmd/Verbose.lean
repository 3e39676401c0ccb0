import Verif.Cmd.Suggest
import Verif.Index.Props
import Verif.Infra.HasuraClient
import Verif.Dec
/-!
# C99: what is logged with `-v` and what is not

`/repo/cmd/util/log.go:26-35` `LogNewIndexTargets`, `/repo/lib/http_transport.go` (put in place of Go's own transport by
`/repo/main.go:23`), `/repo/cmd/root.go:23-29` and `/repo/database/dmodel/index_target.go:78-85`.
-/
namespace Verif.Cmd.Verbose
open Verif.Index Verif.Infra.HClient

abbrev Str := List Char

/-! ## Model -/

/-- the levels of zerolog that are used; `log.Printf` logs at `debug` -/
inductive Level where
  | debug | info | error
deriving DecidableEq

abbrev Line := Level × Str

/-- `/repo/cmd/root.go:25-29`: the level set from `--verbose`; which messages pass it -/
def passes (verbose : Bool) : Level → Bool
  | .debug => verbose
  | _ => true

/-- the messages that get to the screen, without the time and colours of the console writer -/
def console (verbose : Bool) (ls : List Line) : List Str := (ls.filter fun l => passes verbose l.1).map (·.2)

/-- `/repo/database/dmodel/index_target.go:78-85` `CombinationString` -/
def combinationString (t : IndexTarget) : Str :=
  "table: ".toList ++ t.tableName ++ ", columns: [".toList ++ joinWith [',', ' '] (t.columns.map (·.name)) ++ "])".toList

/-- `/repo/cmd/util/log.go:29-31`: the line of one suggestion -/
def targetLine (i : Nat) (t : IndexTarget) : Str := '\t' :: (dec i ++ '.' :: combinationString t)

/-- the loop at `/repo/cmd/util/log.go:29-31`, from number `i` on -/
def targetLines : Nat → List IndexTarget → List Line
  | _, [] => []
  | i, t :: ts => (.debug, targetLine i t) :: targetLines (i + 1) ts

/-- `/repo/cmd/util/log.go:26-35` `LogNewIndexTargets` -/
def logNewIndexTargets (its : List IndexTarget) : List Line :=
  if its.length > 0 then (.debug, "Found possibly efficient index combinations:".toList) :: targetLines 0 its
  else [(.debug, "No possibly efficient index found. Perhaps already indexed?".toList)]

/-- what a SQL command logs about its suggestions, `/repo/cmd/db/suggest/mysql.go:61-76`, `postgres.go:61-76` -/
def suggestLog {T : Type} (pre : Str) (w : World T) (o : Options) : List Line :=
  match newIndexTargetsFromTexts o.indexTargets with
  | .error _ => []
  | .ok _ => match w.explain (pre ++ o.query) with
    | .error _ => []
    | .ok _ => match w.suggest o.query with
      | .error _ => []
      | .ok its => logNewIndexTargets its

/-- a request on its way through the transport -/
structure HttpReq where
  method : Str
  url : Str
  host : Str
  path : Str
  headers : List (Str × Str)
  body : Str

/-- what the transport of Go answers: an error with its message, or a status with the rest of the answer -/
inductive Outcome (R : Type) where
  | failed (why : Str)
  | answered (status : Nat) (rest : R)

/-- `/repo/lib/http_transport.go:17-33` `RoundTrip`: what is logged, what is sent on, and what is given back.
`send` is Go's own transport with the milliseconds it took, `quote` is `%q`. -/
def roundTrip {R : Type} (quote : Str → Str) (send : HttpReq → Outcome R × Nat) (r : HttpReq) :
    List Line × List HttpReq × Outcome R :=
  let first : Line := (.debug, "[http] --> ".toList ++ r.method ++ ' ' :: r.url)
  match send r with
  | (.failed why, ms) => ([first, (.debug, "[http] <-- ERROR method=".toList ++ r.method ++ " host=".toList ++ r.host ++
      " path=".toList ++ r.path ++ " status=error durationMs=".toList ++ dec ms ++ " error=".toList ++ quote why)],
      [r], .failed why)
  | (.answered status rest, ms) => ([first, (.debug, "[http] <-- method=".toList ++ r.method ++ " host=".toList ++ r.host ++
      " path=".toList ++ r.path ++ " status=".toList ++ dec status ++ " durationMs=".toList ++ dec ms)],
      [r], .answered status rest)

/-- `/repo/infra/hasura/client.go:119-130`: the request of `post` as the transport sees it (see `mkRequest`) -/
def hasuraReq (c : Client) (pathname : Str) (body : Report.Val) : HttpReq :=
  ⟨"POST".toList, (mkRequest c pathname body).url, c.base.host, pathJoin c.base.path pathname,
    (mkRequest c pathname body).headers, (mkRequest c pathname body).body⟩

/-- everything that is logged about a series of requests to Hasura -/
def httpLog {R : Type} (quote : Str → Str) (send : HttpReq → Outcome R × Nat) (rs : List HttpReq) : List Line :=
  rs.flatMap fun r => (roundTrip quote send r).1

/-! ## Specification -/

/-- the line for the suggestion with the number `i` -/
def LineFor (i : Nat) (t : IndexTarget) (line : Str) : Prop :=
  line = "\t".toList ++ dec i ++ ".table: ".toList ++ t.tableName ++ ", columns: [".toList ++
    ", ".toList.intercalate (t.columns.map (·.name)) ++ "])".toList

/-- a list of suggestions as it is told: a heading, then each suggestion with its number, in order -/
def TellsAll (its : List IndexTarget) (shown : List Str) : Prop :=
  (its = [] → shown = ["No possibly efficient index found. Perhaps already indexed?".toList]) ∧
  (its ≠ [] → shown.length = its.length + 1 ∧ shown.head? = some "Found possibly efficient index combinations:".toList ∧
    ∀ i t, its[i]? = some t → ∃ l, shown[i + 1]? = some l ∧ LineFor i t l)

/-- what an observer of the network sees of a request without looking at headers and body -/
def SameOutside (a b : HttpReq) : Prop := a.method = b.method ∧ a.url = b.url ∧ a.host = b.host ∧ a.path = b.path

/-- what the log may depend on of an answer -/
def SameFate {R : Type} : Outcome R × Nat → Outcome R × Nat → Prop
  | (.failed a, m), (.failed b, n) => a = b ∧ m = n
  | (.answered a _, m), (.answered b _, n) => a = b ∧ m = n
  | _, _ => False

/-! ## Proofs -/

theorem joinWith_intercalate (sep : Str) : ∀ l : List Str, joinWith sep l = sep.intercalate l
  | [] => rfl
  | [a] => by simp [joinWith, List.intercalate]
  | a :: b :: r => by
    rw [joinWith, joinWith_intercalate sep (b :: r)]
    simp [List.intercalate, List.intersperse]

theorem line_text : '\t' :: ([] : Str) = "\t".toList ∧ '.' :: "table: ".toList = ".table: ".toList ∧ [',', ' '] = ", ".toList := by
  decide +kernel

theorem targetLine_for (i : Nat) (t : IndexTarget) : LineFor i t (targetLine i t) := by
  unfold LineFor targetLine combinationString
  rw [joinWith_intercalate, ← line_text.1, ← line_text.2.1, line_text.2.2]
  simp only [List.append_assoc, List.cons_append, List.nil_append]

theorem targetLines_get : ∀ (its : List IndexTarget) (k i : Nat) (t : IndexTarget), its[i]? = some t →
    (targetLines k its)[i]? = some (.debug, targetLine (k + i) t)
  | [], _, _, _, h => by simp at h
  | a :: its, k, 0, t, h => by
    simp only [List.getElem?_cons_zero, Option.some.injEq] at h
    subst h
    rfl
  | a :: its, k, i + 1, t, h => by
    rw [List.getElem?_cons_succ] at h
    rw [targetLines, List.getElem?_cons_succ, targetLines_get its (k + 1) i t h, Nat.add_right_comm, Nat.add_assoc]

theorem targetLines_debug : ∀ (its : List IndexTarget) (k : Nat), ∀ l ∈ targetLines k its, l.1 = .debug
  | [], _, l, h => by cases h
  | a :: its, k, l, h => by
    rw [targetLines] at h
    rcases List.mem_cons.mp h with rfl | h
    · rfl
    · exact targetLines_debug its _ l h

theorem targetLines_length : ∀ (its : List IndexTarget) (k : Nat), (targetLines k its).length = its.length
  | [], _ => rfl
  | a :: its, k => by rw [targetLines, List.length_cons, List.length_cons, targetLines_length its]

theorem log_debug (its : List IndexTarget) : ∀ l ∈ logNewIndexTargets its, l.1 = .debug := by
  intro l h
  unfold logNewIndexTargets at h
  split at h
  · rcases List.mem_cons.mp h with rfl | h
    · rfl
    · exact targetLines_debug its 0 l h
  · simp only [List.mem_singleton] at h
    rw [h]

theorem console_true (ls : List Line) : console true ls = ls.map (·.2) := by
  unfold console
  rw [List.filter_eq_self.mpr]
  intro l _
  cases l.1 <;> rfl

theorem console_false (ls : List Line) (h : ∀ l ∈ ls, l.1 = .debug) : console false ls = [] := by
  unfold console
  rw [List.filter_eq_nil_iff.mpr, List.map_nil]
  intro l hl
  rw [h l hl]
  decide

theorem tells (its : List IndexTarget) : TellsAll its (console true (logNewIndexTargets its)) := by
  rw [console_true]
  unfold logNewIndexTargets
  refine ⟨fun h => by rw [h]; rfl, fun h => ?_⟩
  rw [if_pos (List.length_pos_iff.mpr h)]
  refine ⟨by simp [targetLines_length], rfl, fun i t hi => ⟨targetLine i t, ?_, targetLine_for i t⟩⟩
  rw [List.map_cons, List.getElem?_cons_succ, List.getElem?_map, targetLines_get its 0 i t hi, Nat.zero_add]
  rfl

/-- C99: if a report was written, then with `-v` exactly the suggestions of the report were told, each with its number,
table and columns, in the order of the report; without `-v` nothing is told about them. -/
theorem C99_report_told {T : Type} (pre : Str) (w : World T) (o : Options) (p : Str) (r : Report T)
    (h : Effect.html p r ∈ (suggestSql pre w o).2) :
    TellsAll r.targets (console true (suggestLog pre w o)) ∧ console false (suggestLog pre w o) = [] := by
  have key : suggestLog pre w o = logNewIndexTargets r.targets := by
    rcases suggestSql_spec pre w o with ⟨e, _, h1⟩ | ⟨given, h0, ⟨e, _, h1⟩ | ⟨_, e, _, _, h1⟩ | ⟨tree, its, h2, h3, h1⟩⟩
    · rw [h1] at h; simp at h
    · rw [h1] at h; simp at h
    · rw [h1] at h; simp at h
    · unfold suggestLog
      rw [h0]
      dsimp only
      rw [h2]
      dsimp only
      rw [(C42_report pre w o p r h).2.2.2.2.2.1]
  rw [key]
  exact ⟨tells _, console_false _ (log_debug _)⟩

/-- C99, negation: the lines cannot be given to `-i`; neither with nor without the number in front is one of them taken
for an index. -/
theorem C99_line_no_option (i : Nat) (t t' : IndexTarget) (h1 : '\n' ∉ t.tableName) (h2 : ∀ c ∈ t.columns, '\n' ∉ c.name) :
    newIndexTargetFromText (targetLine i t) ≠ .ok t' ∧ newIndexTargetFromText (combinationString t) ≠ .ok t' := by
  have hjoin : ∀ l : List Str, (∀ x ∈ l, '\n' ∉ x) → '\n' ∉ joinWith [',', ' '] l := by
    intro l
    induction l with
    | nil => intro _ h; cases h
    | cons a r ih =>
      intro h
      cases r with
      | nil => exact h a (by simp)
      | cons b r =>
        rw [joinWith]
        simp only [List.mem_append, not_or]
        exact ⟨⟨h a (by simp), by decide⟩, ih fun x hx => h x (List.mem_cons_of_mem _ hx)⟩
  have hlit : '\n' ∉ "table: ".toList ∧ '\n' ∉ ", columns: [".toList ∧ '\n' ∉ "])".toList ∧ ' ' ∈ "table: ".toList := by
    decide +kernel
  have hc : '\n' ∉ combinationString t := by
    unfold combinationString
    simp only [List.mem_append, not_or]
    refine ⟨⟨⟨⟨hlit.1, h1⟩, hlit.2.1⟩, hjoin _ ?_⟩, hlit.2.2.1⟩
    intro x hx
    obtain ⟨c, hc, rfl⟩ := List.mem_map.mp hx
    exact h2 c hc
  have hsp : ' ' ∈ combinationString t := by
    unfold combinationString
    simp only [List.mem_append]
    exact .inl (.inl (.inl (.inl hlit.2.2.2)))
  have hd : '\n' ∉ dec i := fun h => by
    have := dec_digits i _ h
    revert this; decide
  have hl : '\n' ∉ targetLine i t := by
    unfold targetLine
    simp only [List.mem_cons, List.mem_append, not_or]
    exact ⟨by decide, hd, by decide, hc⟩
  have hls : ' ' ∈ targetLine i t := by
    unfold targetLine
    simp only [List.mem_cons, List.mem_append]
    exact .inr (.inr (.inr hsp))
  have hword : ∀ s : Str, Spec.Ident s → ' ' ∉ s := by
    intro s hs hm
    have := hs.2 _ hm
    revert this
    unfold Spec.WordChar
    decide
  have no : ∀ text : Str, '\n' ∉ text → ' ' ∈ text → newIndexTargetFromText text ≠ .ok t' := by
    intro text hn hs he
    obtain ⟨hp, rfl⟩ := (Index.C02_one_line_iff text t' hn).mp he
    unfold Spec.print at hs
    simp only [List.mem_append, List.mem_cons] at hs
    rcases hs with hs | hs | hs
    · exact hword _ hp.table hs
    · exact absurd hs (by decide)
    · simp only [List.intercalate, List.mem_flatten] at hs
      obtain ⟨l, hl, hm⟩ := hs
      have : l = ['+'] ∨ l ∈ t'.columns.map (·.name) := by
        have gen : ∀ xs : List Str, ∀ l ∈ xs.intersperse ['+'], l = ['+'] ∨ l ∈ xs := by
          intro xs
          induction xs with
          | nil => intro l hl; simp at hl
          | cons x xs ih =>
            intro l hl
            cases xs with
            | nil => simp at hl; simp [hl]
            | cons y ys =>
              simp only [List.intersperse, List.mem_cons] at hl
              rcases hl with rfl | rfl | hl
              · simp
              · simp
              · rcases ih l (by simpa using hl) with h | h
                · exact .inl h
                · exact .inr (List.mem_cons_of_mem _ h)
        exact gen _ l hl
      rcases this with rfl | h
      · revert hm; decide
      · obtain ⟨c, hc, rfl⟩ := List.mem_map.mp h
        exact hword _ (hp.cols c hc) hm
  exact ⟨no _ hl hls, no _ hc hsp⟩

/-- C99: the transport is transparent: every request is sent on once, as it is, and its answer comes back as it is -/
theorem C99_transparent {R : Type} (quote : Str → Str) (send : HttpReq → Outcome R × Nat) (r : HttpReq) :
    (roundTrip quote send r).2 = ([r], (send r).1) := by
  unfold roundTrip
  dsimp only
  split <;> rename_i h <;> rw [h]

theorem roundTrip_log {R : Type} (quote : Str → Str) (send send' : HttpReq → Outcome R × Nat) (r r' : HttpReq)
    (h : SameOutside r r') (hf : SameFate (send r) (send' r')) : (roundTrip quote send r).1 = (roundTrip quote send' r').1 := by
  obtain ⟨h1, h2, h3, h4⟩ := h
  unfold roundTrip
  dsimp only
  generalize hs : send r = a at hf
  generalize hs' : send' r' = b at hf
  match a, b, hf with
  | (.failed a, m), (.failed b, n), hf =>
    obtain ⟨rfl, rfl⟩ := hf
    simp only [h1, h2, h3, h4]
  | (.answered a _, m), (.answered b _, n), hf =>
    obtain ⟨rfl, rfl⟩ := hf
    simp only [h1, h2, h3, h4]

/-- the requests of two clients for the same things -/
theorem hasura_outside (c c' : Client) (hb : c.base = c'.base) (pathname : Str) (b b' : Report.Val) :
    SameOutside (hasuraReq c pathname b) (hasuraReq c' pathname b') := by
  unfold hasuraReq mkRequest SameOutside
  simp only [hb, and_self]

/-- C99: the log tells nothing about the admin secret, nor about the queries and variables sent: with another secret and
other bodies at the same addresses, met by the same fates, the log is the same, line by line. -/
theorem C99_secret_not_logged {R : Type} (quote : Str → Str) (send send' : HttpReq → Outcome R × Nat) (c c' : Client)
    (hb : c.base = c'.base) : ∀ calls : List (Str × Report.Val × Report.Val),
    (∀ x ∈ calls, SameFate (send (hasuraReq c x.1 x.2.1)) (send' (hasuraReq c' x.1 x.2.2))) →
    httpLog quote send (calls.map fun x => hasuraReq c x.1 x.2.1) = httpLog quote send' (calls.map fun x => hasuraReq c' x.1 x.2.2)
  | [], _ => rfl
  | x :: calls, h => by
    have ih := C99_secret_not_logged quote send send' c c' hb calls fun y hy => h y (List.mem_cons_of_mem _ hy)
    unfold httpLog at ih ⊢
    rw [List.map_cons, List.map_cons, List.flatMap_cons, List.flatMap_cons, ih,
      roundTrip_log quote send send' _ _ (hasura_outside c c' hb x.1 x.2.1 x.2.2) (h x (by simp))]

/-- C99: two lines for every request, with its method and address, and none without `-v` -/
theorem C99_requests_told {R : Type} (quote : Str → Str) (send : HttpReq → Outcome R × Nat) (rs : List HttpReq) :
    (console true (httpLog quote send rs)).length = 2 * rs.length ∧
    (∀ i r, rs[i]? = some r → (console true (httpLog quote send rs))[2 * i]? =
      some ("[http] --> ".toList ++ r.method ++ " ".toList ++ r.url)) ∧
    console false (httpLog quote send rs) = [] := by
  have two : ∀ r, ∃ l, (roundTrip quote send r).1 = [(.debug, "[http] --> ".toList ++ r.method ++ ' ' :: r.url), (.debug, l)] := by
    intro r
    unfold roundTrip
    dsimp only
    split <;> exact ⟨_, rfl⟩
  refine ⟨?_, ?_, console_false _ ?_⟩
  · rw [console_true, List.length_map]
    induction rs with
    | nil => rfl
    | cons r rs ih =>
      obtain ⟨l, hl⟩ := two r
      unfold httpLog at ih ⊢
      rw [List.flatMap_cons, hl, List.length_append, ih, List.length_cons, List.length_cons, List.length_cons, List.length_nil]
      omega
  · rw [console_true]
    induction rs with
    | nil => intro i r h; simp at h
    | cons a rs ih =>
      intro i r h
      obtain ⟨l, hl⟩ := two a
      unfold httpLog at ih ⊢
      rw [List.flatMap_cons, hl]
      cases i with
      | zero =>
        simp only [List.getElem?_cons_zero, Option.some.injEq] at h
        subst h
        rw [show " ".toList = [' '] by decide +kernel]
        simp
      | succ i =>
        rw [List.getElem?_cons_succ] at h
        have := ih i r h
        rw [show 2 * (i + 1) = 2 * i + 1 + 1 by omega]
        simpa using this
  · intro l hl
    obtain ⟨r, _, hr⟩ := List.mem_flatMap.mp hl
    obtain ⟨m, hm⟩ := two r
    rw [hm] at hr
    simp only [List.mem_cons, List.not_mem_nil, or_false] at hr
    rcases hr with rfl | rfl <;> rfl

/-- C99, negation: but a password in the address itself is logged with `-v`, for every request -/
theorem C99_url_password_logged {R : Type} (quote : Str → Str) (send : HttpReq → Outcome R × Nat) (r : HttpReq)
    (before password after : Str) (h : r.url = before ++ password ++ after) :
    ∃ l ∈ console true (roundTrip quote send r).1, password <:+: l := by
  have := (C99_requests_told quote send [r]).2.1 0 r rfl
  rw [show httpLog quote send [r] = (roundTrip quote send r).1 by simp [httpLog]] at this
  refine ⟨_, List.mem_of_getElem? this, ?_⟩
  rw [h]
  exact ⟨"[http] --> ".toList ++ r.method ++ " ".toList ++ before, after, by simp [List.append_assoc]⟩

/-! ### Concrete cases -/

def exT : IndexTarget := ⟨['u'], [⟨['a']⟩, ⟨['b']⟩]⟩

def exW : World Unit := ⟨fun _ => .ok (), fun _ => .ok [exT], ⟨fun _ _ => .ok 0, fun _ => 0⟩, 0, fun _ _ => .ok ()⟩

/-- `C99_report_told`: a report is written -/
example : ∃ r, Effect.html ['x'] r ∈ (suggestSql [] exW ⟨false, [], ['q'], ['x']⟩).2 := by
  obtain ⟨_, r, hr, _⟩ := C42_report_written [] exW ⟨false, [], ['q'], ['x']⟩ [] [exT] () rfl rfl rfl (by decide) (fun _ => rfl)
    (by intro h; cases h)
  exact ⟨r, hr⟩

example : console true (suggestLog [] exW ⟨false, [], ['q'], ['x']⟩) =
    ["Found possibly efficient index combinations:".toList, "\t0.table: u, columns: [a, b])".toList] := by decide +kernel

/-- `C99_line_no_option` -/
example : newIndexTargetFromText (targetLine 0 exT) ≠ .ok exT := (C99_line_no_option 0 exT exT (by decide) (by decide)).1

/-- `C99_secret_not_logged`: two secrets -/
def exC (secret : Str) : Client := ⟨⟨['h'], ['l'], [], []⟩, secret⟩
example : httpLog id (fun _ => (Outcome.answered 200 (), 3)) [hasuraReq (exC ['1']) ['/', 'v'] .null] =
    httpLog id (fun _ => (Outcome.answered 200 (), 3)) [hasuraReq (exC ['2']) ['/', 'v'] .null] :=
  C99_secret_not_logged id _ _ (exC ['1']) (exC ['2']) rfl [(['/', 'v'], .null, .null)] (by intro x _; exact ⟨rfl, rfl⟩)

end Verif.Cmd.Verbose
