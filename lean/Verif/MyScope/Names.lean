import Verif.MyScope.Spec
/-!
# C70: the tables whose columns are read for a MySQL query
-/
namespace Verif.MyScope
open Verif.Builder Verif.Fields Verif.Lib Verif.MyScope.Spec

/-! ## The walk, node by node -/

/-- the walk of a node -/
def walk : Nd → List Ev
  | .e x => walkE x
  | .q x => walkQ x
  | .r x => walkR x
  | .j x => walkJ x
  | .s x => walkS x

/-- the calls made before the children -/
def opening : Nd → List Ev
  | .s s => [.enter s]
  | .r (.source src as) => [.source src as]
  | _ => []

/-- the calls made after the children -/
def closing : Nd → List Ev
  | .s s => [.leave s]
  | _ => []

theorem walkEs_eq (es : List Expr) : walkEs es = (es.map Nd.e).flatMap walk := by
  induction es with
  | nil => simp [walkEs]
  | cons e es ih => simp [walkEs, ih, walk]

theorem walkQs_eq (es : List Query) : walkQs es = (es.map Nd.q).flatMap walk := by
  induction es with
  | nil => simp [walkQs]
  | cons e es ih => simp [walkQs, ih, walk]

theorem walkCtes_eq (es : List Cte) : walkCtes es = (es.map cteNd).flatMap walk := by
  induction es with
  | nil => simp [walkCtes]
  | cons e es ih => cases e; simp [walkCtes, ih, walk, walkCte, cteNd]

theorem walkFs_eq (es : List SelField) : walkFs es = (es.flatMap fieldNds).flatMap walk := by
  induction es with
  | nil => simp [walkFs]
  | cons e es ih => cases e <;> simp [walkFs, ih, walk, walkF, fieldNds]

theorem walkO_eq (o : Option Expr) : walkO o = (o.toList.map Nd.e).flatMap walk := by
  cases o <;> simp [walkO, walk]

theorem walkW_eq (o : Option (List Cte)) : walkW o = ((o.getD []).map cteNd).flatMap walk := by
  cases o with
  | none => simp [walkW]
  | some cs => simp only [walkW, walkCtes_eq, Option.getD_some]

theorem walkFrom_eq (o : Option Join) : walkFrom o = (o.toList.map Nd.j).flatMap walk := by
  cases o <;> simp [walkFrom, walk]

theorem walkWin_eq (o : Option (List Expr)) : walkWin o = ((o.getD []).map Nd.e).flatMap walk := by
  cases o with
  | none => simp [walkWin]
  | some cs => simp only [walkWin, walkEs_eq, Option.getD_some]

theorem walkL_eq (l : Limit) : walkL l = ((limitExprs l).map Nd.e).flatMap walk := by
  cases l <;> simp [walkL, walk, limitExprs]

theorem walk_eq (x : Nd) : walk x = opening x ++ (kids x).flatMap walk ++ closing x := by
  cases x with
  | e x =>
    cases x <;> simp [walk, opening, closing, kids, walkE, walkEs_eq, List.flatMap_append]
  | q x =>
    cases x <;> simp [walk, opening, closing, kids, walkQ, walkEs_eq, walkQs_eq, walkCtes_eq,
      List.flatMap_append]
  | r x =>
    cases x with
    | source src as => cases src <;> simp [walk, opening, closing, kids, walkR, walkSrc]
    | _ => simp [walk, opening, closing, kids, walkR]
  | j x =>
    cases x
    simp [walk, opening, closing, kids, walkJ, walkO_eq]
  | s x =>
    cases x
    simp only [walk, opening, closing, kids, walkS, walkEs_eq, walkO_eq, walkW_eq, walkFrom_eq,
      walkWin_eq, walkL_eq, walkFs_eq, List.flatMap_append, List.append_assoc]

theorem mem_sizeOf {α : Type} [SizeOf α] {l : List α} {a : α} (h : a ∈ l) : sizeOf a < sizeOf l :=
  List.sizeOf_lt_of_mem h

theorem kids_sizeOf (x y : Nd) (h : y ∈ kids x) : sizeOf y < sizeOf x := by
  cases x with
  | e x =>
    cases x with
    | refused ks =>
      simp only [kids, List.mem_map] at h
      obtain ⟨a, ha, rfl⟩ := h
      have := mem_sizeOf ha
      simp; omega
    | node ks hs =>
      simp only [kids, List.mem_map, List.mem_append] at h
      obtain ⟨a, ha | ha, rfl⟩ := h <;> have := mem_sizeOf ha <;> simp <;> omega
    | matchAgainst _ a => simp [kids] at h; subst h; simp; omega
    | subquery q => simp [kids] at h; subst h; simp
    | _ => simp [kids] at h
  | q x =>
    cases x with
    | select s => simp [kids] at h; subst h; simp
    | setOpr w ps rest =>
      simp only [kids, List.mem_map, List.mem_append] at h
      obtain (⟨a, ha, rfl⟩ | ⟨a, ha, rfl⟩) | ⟨a, ha, rfl⟩ := h <;> have := mem_sizeOf ha
      · cases a; simp [cteNd] at *; omega
      · simp; omega
      · simp; omega
  | r x =>
    cases x with
    | source src as =>
      cases src <;> simp [kids] at h <;> subst h <;> simp <;> omega
    | join j => simp [kids] at h; subst h; simp
    | _ => simp [kids] at h
  | j x =>
    cases x with
    | mk l r on us =>
      simp only [kids, List.mem_append, List.mem_cons, List.not_mem_nil, or_false, List.mem_map,
        Option.mem_toList] at h
      obtain (rfl | rfl) | ⟨a, ha, rfl⟩ := h
      · simp; omega
      · simp; omega
      · cases ha; simp; omega
  | s x =>
    cases x with
    | mk v w fields from_ where_ groupBy having lists windows orderBy limit =>
      simp only [kids, List.mem_append, List.mem_map, Option.mem_toList, List.mem_flatMap] at h
      obtain (((((((((⟨a, ha, rfl⟩ | ⟨a, ha, h⟩) | ⟨a, ha, rfl⟩) | ⟨a, ha, rfl⟩) | ⟨a, ha, rfl⟩) |
        ⟨a, ha, rfl⟩) | ⟨a, ha, rfl⟩) | ⟨a, ha, rfl⟩) | ⟨a, ha, rfl⟩) | ⟨a, ha, rfl⟩) := h
      · cases w with
        | none => simp at ha
        | some w =>
          have := mem_sizeOf (l := w) ha
          cases a; simp [cteNd] at *; omega
      · have := mem_sizeOf ha
        cases a with
        | expr e as => simp [fieldNds] at h; subst h; simp at *; omega
        | star t => simp [fieldNds] at h
      · cases ha; simp; omega
      · cases ha; simp; omega
      · have := mem_sizeOf ha; simp; omega
      · cases ha; simp; omega
      · have := mem_sizeOf ha; simp; omega
      · cases windows with
        | none => simp at ha
        | some w =>
          have := mem_sizeOf (l := w) ha
          simp at *; omega
      · have := mem_sizeOf ha; simp; omega
      · cases limit with
        | none => simp [limitExprs] at ha
        | mk c o =>
          simp only [limitExprs, List.mem_cons, List.not_mem_nil, or_false] at ha
          rcases ha with rfl | rfl <;> simp <;> omega

/-! ## Running the collector -/

variable {norm : Str → Str}

theorem runTables_append (a b : List Ev) (st : TSt) :
    runTables norm (a ++ b) st = (runTables norm a st).bind (runTables norm b) := by
  simp only [runTables, List.foldlM_append]
  rfl

/-- a table of a named or no database below `x` that no WITH clause of a SELECT hides -/
def ReadIn (norm : Str → Str) (x : Nd) (n : Str) : Prop :=
  ∃ ns name as, Path selectBinds x ns (.r (.source (.table [] name) as)) ∧ norm name ∉ ns.map norm ∧
    n = norm name

/-- what a run over a node does -/
def Ran (norm : Str → Str) (x : Nd) (st st' : TSt) : Prop :=
  st'.cteTables = st.cteTables ∧
  (∀ n, n ∈ st'.tables ↔ n ∈ st.tables ∨ (ReadIn norm x n ∧ n ∉ st.cteTables.flatten)) ∧
  (st'.errors = [] ↔ st.errors = [] ∧ ∀ z, Below x z → ¬Refused z)

/-- what a run over several nodes does, with names `ns` bound around them -/
theorem run_kids (l : List Nd)
    (ih : ∀ y ∈ l, ∀ st, ∃ st', runTables norm (walk y) st = some st' ∧ Ran norm y st st') (st : TSt) :
    ∃ st', runTables norm (l.flatMap walk) st = some st' ∧ st'.cteTables = st.cteTables ∧
      (∀ n, n ∈ st'.tables ↔ n ∈ st.tables ∨
        ((∃ y ∈ l, ReadIn norm y n) ∧ n ∉ st.cteTables.flatten)) ∧
      (st'.errors = [] ↔ st.errors = [] ∧ ∀ y ∈ l, ∀ z, Below y z → ¬Refused z) := by
  induction l generalizing st with
  | nil => exact ⟨st, rfl, rfl, by simp, by simp⟩
  | cons y l ihl =>
    obtain ⟨s1, h1, r1, r2, r3⟩ := ih y (by simp) st
    obtain ⟨s2, h2, q1, q2, q3⟩ := ihl (fun z hz => ih z (by simp [hz])) s1
    refine ⟨s2, ?_, q1.trans r1, ?_, ?_⟩
    · simp only [List.flatMap_cons, runTables_append, h1, Option.bind_some, h2]
    · intro n
      rw [q2, r2, r1]
      simp only [List.mem_cons, exists_eq_or_imp]
      tauto
    · rw [q3, r3]
      simp only [List.mem_cons, forall_eq_or_imp]
      tauto

theorem path_here {b : Nd → List Str} {x z : Nd} {ns : List Str} :
    Path b x ns z ↔ (x = z ∧ ns = []) ∨ ∃ y ∈ kids x, ∃ ns', Path b y ns' z ∧ ns = b x ++ ns' := by
  constructor
  · intro h
    cases h with
    | refl => exact .inl ⟨rfl, rfl⟩
    | step _ y _ ns' hy hp => exact .inr ⟨y, hy, ns', hp, rfl⟩
  · rintro (⟨rfl, rfl⟩ | ⟨y, hy, ns', hp, rfl⟩)
    · exact .refl _
    · exact .step _ y _ _ hy hp

theorem below_here {x z : Nd} : Below x z ↔ x = z ∨ ∃ y ∈ kids x, Below y z := by
  constructor
  · intro h
    cases h with
    | refl => exact .inl rfl
    | step hy hp => exact .inr ⟨_, hy, hp⟩
  · rintro (rfl | ⟨y, hy, hp⟩)
    · exact .refl _
    · exact .step hy hp

/-- a node that binds nothing and is not a table source -/
theorem readIn_kids {x : Nd} (hb : selectBinds x = []) (hx : ∀ name as, x ≠ .r (.source (.table [] name) as))
    (n : Str) : ReadIn norm x n ↔ ∃ y ∈ kids x, ReadIn norm y n := by
  constructor
  · rintro ⟨ns, name, as, hp, h1, h2⟩
    rcases path_here.mp hp with ⟨e, -⟩ | ⟨y, hy, ns', hp', rfl⟩
    · exact absurd e (hx _ _)
    · rw [hb, List.nil_append] at h1
      exact ⟨y, hy, ns', name, as, hp', h1, h2⟩
  · rintro ⟨y, hy, ns, name, as, hp, h1, h2⟩
    refine ⟨selectBinds x ++ ns, name, as, .step _ _ _ _ hy hp, ?_, h2⟩
    rw [hb, List.nil_append]
    exact h1

theorem refused_kids {x : Nd} (hx : ¬Refused x) :
    (∀ z, Below x z → ¬Refused z) ↔ ∀ y ∈ kids x, ∀ z, Below y z → ¬Refused z := by
  constructor
  · intro h y hy z hz
    exact h z (.step hy hz)
  · intro h z hz
    rcases below_here.mp hz with rfl | ⟨y, hy, hz⟩
    · exact hx
    · exact h y hy z hz

theorem run_node (x : Nd) (st : TSt) :
    ∃ st', runTables norm (walk x) st = some st' ∧ Ran norm x st st' := by
  have ih : ∀ y ∈ kids x, ∀ st, ∃ st', runTables norm (walk y) st = some st' ∧ Ran norm y st st' :=
    fun y hy st => run_node y st
  rw [walk_eq]
  -- a node without calls of its own
  have plain : opening x = [] → closing x = [] → selectBinds x = [] →
      (∀ name as, x ≠ .r (.source (.table [] name) as)) → ¬Refused x →
      ∃ st', runTables norm (opening x ++ (kids x).flatMap walk ++ closing x) st = some st' ∧
        Ran norm x st st' := by
    intro h1 h2 h3 h4 h5
    obtain ⟨st', hr, e1, e2, e3⟩ := run_kids (kids x) ih st
    refine ⟨st', by rw [h1, h2]; simpa using hr, e1, ?_, ?_⟩
    · intro n; rw [e2, readIn_kids h3 h4]
    · rw [e3, refused_kids h5]
  cases x with
  | e x => exact plain rfl rfl rfl (by simp) nofun
  | q x => exact plain rfl rfl rfl (by simp) nofun
  | j x => exact plain rfl rfl rfl (by simp) nofun
  | s s =>
    obtain ⟨st', hr, e1, e2, e3⟩ := run_kids (kids (.s s)) ih (pushCte norm s.with_ st)
    have hrd : ∀ n, ReadIn norm (.s s) n ↔
        (∃ y ∈ kids (.s s), ReadIn norm y n) ∧ n ∉ (selectBinds (.s s)).map norm := by
      intro n
      constructor
      · rintro ⟨ns, name, as, hp, h1, h2⟩
        rcases path_here.mp hp with ⟨e, -⟩ | ⟨y, hy, ns', hp', rfl⟩
        · cases e
        · rw [List.map_append, List.mem_append, not_or] at h1
          exact ⟨⟨y, hy, ns', name, as, hp', h1.2, h2⟩, h2 ▸ h1.1⟩
      · rintro ⟨⟨y, hy, ns, name, as, hp, h1, h2⟩, h3⟩
        refine ⟨_, name, as, .step _ _ _ _ hy hp, ?_, h2⟩
        rw [List.map_append, List.mem_append, not_or]
        exact ⟨h2 ▸ h3, h1⟩
    have hrun : ∀ b, popCte s.with_ st' = some b →
        runTables norm (opening (.s s) ++ (kids (.s s)).flatMap walk ++ closing (.s s)) st = some b := by
      intro b hb
      rw [runTables_append, runTables_append]
      have h1 : runTables norm (opening (.s s)) st = some (pushCte norm s.with_ st) := rfl
      have h2 : runTables norm (closing (.s s)) st' = popCte s.with_ st' := by
        simp only [runTables, closing, List.foldlM_cons, tableStep, List.foldlM_nil]
        cases popCte s.with_ st' <;> rfl
      rw [h1, Option.bind_some, hr, Option.bind_some, h2, hb]
    cases hw : s.with_ with
    | none =>
      rw [hw] at e1 e2 e3 hrun
      refine ⟨st', hrun _ rfl, e1, ?_, ?_⟩
      · intro n
        rw [e2, hrd]
        simp [pushCte, selectBinds, hw]
      · rw [e3, refused_kids (x := .s s) nofun]; rfl
    | some w =>
      rw [hw] at e1 e2 e3 hrun
      simp only [pushCte] at e1 e2 e3
      refine ⟨{ st' with cteTables := st'.cteTables.dropLast }, hrun _ ?_, ?_, ?_, ?_⟩
      · simp [popCte, e1]
      · simp [e1]
      · intro n
        simp only [e2, hrd, selectBinds, hw, Option.getD_some, List.flatten_append, List.mem_append,
          List.flatten_cons, List.flatten_nil, List.append_nil, not_or, List.map_map]
        have : (norm ∘ Cte.name) = fun c : Cte => norm c.name := rfl
        rw [this]
        tauto
      · simp only [e3]
        rw [refused_kids (x := .s s) nofun]
  | r x =>
    cases x with
    | nil => exact plain rfl rfl rfl (by simp) nofun
    | join j => exact plain rfl rfl rfl (by simp) nofun
    | other => exact plain rfl rfl rfl (by simp) nofun
    | source src as =>
      have hrun : ∀ st', runTables norm ((kids (.r (.source src as))).flatMap walk) (addTable norm src st) =
          some st' → runTables norm (opening (.r (.source src as)) ++
            (kids (.r (.source src as))).flatMap walk ++ closing (.r (.source src as))) st = some st' := by
        intro st' h
        rw [runTables_append, runTables_append]
        have h1 : runTables norm (opening (.r (.source src as))) st = some (addTable norm src st) := rfl
        rw [h1, Option.bind_some, h]
        rfl
      obtain ⟨st', hr, e1, e2, e3⟩ := run_kids (kids (.r (.source src as))) ih (addTable norm src st)
      refine ⟨st', hrun _ hr, ?_⟩
      have bad : (∀ schema name, src ≠ .table schema name) → Refused (.r (.source src as)) →
          (addTable norm src st).cteTables = st.cteTables →
          (addTable norm src st).tables = st.tables → (addTable norm src st).errors ≠ [] →
          Ran norm (.r (.source src as)) st st' := by
        intro h1 h2 h3 h4 h5
        refine ⟨e1.trans h3, ?_, ?_⟩
        · intro n
          rw [e2, h3, h4, readIn_kids rfl (by intro a b e; cases e; exact h1 _ _ rfl)]
        · rw [e3]
          constructor
          · intro h; exact absurd h.1 h5
          · intro h; exact absurd h2 (h.2 _ (.refl _))
      cases src with
      | select s =>
        refine ⟨e1, ?_, ?_⟩
        · intro n; rw [e2, readIn_kids rfl (by simp)]; rfl
        · rw [e3, refused_kids (x := .r (.source (.select s) as)) nofun]; rfl
      | setOpr q => exact bad (by simp) (.setOpr _ _) rfl rfl (by simp [addTable])
      | join j => exact bad (by simp) (.join _ _) rfl rfl (by simp [addTable])
      | other => exact bad (by simp) (.other _) rfl rfl (by simp [addTable])
      | table schema name =>
        simp only [kids, List.not_mem_nil, false_and, exists_false, or_false, false_imp_iff,
          implies_true, and_true] at e1 e2 e3
        have hb : (∀ z, Below (.r (.source (.table schema name) as)) z → ¬Refused z) ↔ schema = [] := by
          rw [show (∀ z, Below (.r (.source (.table schema name) as)) z → ¬Refused z) ↔
            ¬Refused (.r (.source (.table schema name) as)) from ?_]
          · constructor
            · intro h
              by_cases hs : schema = []
              · exact hs
              · exact absurd (.table _ _ _ hs) h
            · intro h hr
              cases hr with | table _ _ _ h' => exact h' h
          · constructor
            · intro h; exact h _ (.refl _)
            · intro h z hz
              rcases below_here.mp hz with rfl | ⟨y, hy, -⟩
              · exact h
              · simp [kids] at hy
        by_cases hs : schema = []
        · subst hs
          have hrd : ∀ n, ReadIn norm (.r (.source (.table [] name) as)) n ↔ n = norm name := by
            intro n
            constructor
            · rintro ⟨ns, name', as', hp, h1, h2⟩
              rcases path_here.mp hp with ⟨e, -⟩ | ⟨y, hy, -⟩
              · cases e; exact h2
              · simp [kids] at hy
            · rintro rfl
              exact ⟨[], name, as, .refl _, by simp, rfl⟩
          have hc : isCteTable st (norm name) = true ↔ norm name ∈ st.cteTables.flatten := by
            simp [isCteTable, List.mem_flatten, List.any_eq_true]
          by_cases hcte : isCteTable st (norm name) = true
          · have ha : addTable norm (.table [] name) st = st := by simp [addTable, hcte]
            rw [ha] at e1 e2 e3
            refine ⟨e1, ?_, ?_⟩
            · intro n
              rw [e2, hrd]
              constructor
              · exact .inl
              · rintro (h | ⟨rfl, h⟩)
                · exact h
                · exact absurd (hc.mp hcte) h
            · rw [e3, hb]; simp
          · have ha : addTable norm (.table [] name) st = { st with tables := st.tables ++ [norm name] } := by
              simp [addTable, hcte]
            rw [ha] at e1 e2 e3
            refine ⟨e1, ?_, ?_⟩
            · intro n
              rw [e2, hrd]
              simp only [List.mem_append, List.mem_singleton]
              constructor
              · rintro (h | rfl)
                · exact .inl h
                · exact .inr ⟨rfl, fun h => hcte (hc.mpr h)⟩
              · rintro (h | ⟨rfl, -⟩)
                · exact .inl h
                · exact .inr rfl
            · rw [e3, hb]; simp
        · have ha : addTable norm (.table schema name) st =
              { st with errors := st.errors ++ [.explicitDatabase] } := by simp [addTable, hs]
          rw [ha] at e1 e2 e3
          refine ⟨e1, ?_, ?_⟩
          · intro n
            rw [e2]
            constructor
            · exact .inl
            · rintro (h | ⟨⟨ns, name', as', hp, -⟩, -⟩)
              · exact h
              · rcases path_here.mp hp with ⟨e, -⟩ | ⟨y, hy, -⟩
                · cases e; exact absurd rfl hs
                · simp [kids] at hy
          · rw [e3, hb]
            simp [hs]
termination_by sizeOf x
decreasing_by exact kids_sizeOf _ _ hy

/-! ## C70 -/

theorem uniq_mem (l : List Str) (x : Str) : x ∈ uniq l ↔ x ∈ l := mem_uniq l x

theorem names_eq (ord : List Str → List Str) (s : Select) :
    ∃ st, runTables norm (walkS s) {} = some st ∧ Ran norm (.s s) {} st ∧
      collectTableNames norm ord (.select s) =
        some (if st.errors ≠ [] then .error st.errors else .ok (ord (uniq st.tables))) := by
  obtain ⟨st, h1, h2⟩ := run_node (norm := norm) (.s s) {}
  refine ⟨st, h1, h2, ?_⟩
  have h1' : runTables norm (walkS s) {} = some st := h1
  simp only [collectTableNames, h1']
  split <;> rfl

/-- C70: whatever the statement is, collecting the table names returns, and an error list is not empty. -/
theorem C70_total (norm : Str → Str) (ord : List Str → List Str) (stmt : Stmt) :
    ∃ r, collectTableNames norm ord stmt = some r ∧ ∀ es, r = .error es → es ≠ [] := by
  cases stmt with
  | setOpr => exact ⟨_, rfl, by rintro _ ⟨⟩; simp⟩
  | other => exact ⟨_, rfl, by rintro _ ⟨⟩; simp⟩
  | select s =>
    obtain ⟨st, -, -, h⟩ := names_eq (norm := norm) ord s
    refine ⟨_, h, ?_⟩
    intro es he
    split at he
    · cases he; assumption
    · cases he

/-- C70: a statement is refused exactly if, anywhere in it, a table of a named database, a set operation
or a join in the place of a table occurs in FROM. -/
theorem C70_accepts_iff (norm : Str → Str) (ord : List Str → List Str) (s : Select) :
    (∃ names, collectTableNames norm ord (.select s) = some (.ok names)) ↔
      ∀ z, Below (.s s) z → ¬Refused z := by
  obtain ⟨st, -, ⟨-, -, h3⟩, h⟩ := names_eq (norm := norm) ord s
  rw [h]
  simp only [true_and] at h3
  rw [← h3]
  by_cases he : st.errors = [] <;> simp [he]

theorem path_selects {x z : Nd} {ns : List Str} (h : Path binds x ns z) :
    ∃ ns', (∀ n ∈ ns', n ∈ ns) ∧ Path selectBinds x ns' z := by
  induction h with
  | refl x => exact ⟨[], by simp, .refl _⟩
  | step x y z ns hy _ ih =>
    obtain ⟨ns', h1, h2⟩ := ih
    refine ⟨_, ?_, .step _ _ _ _ hy h2⟩
    intro n hn
    rcases List.mem_append.mp hn with hn | hn
    · refine List.mem_append_left _ ?_
      cases x <;> first | exact hn | simp [selectBinds] at hn
    · exact List.mem_append_right _ (h1 n hn)

theorem path_all {x z : Nd} {ns : List Str} (h : Path selectBinds x ns z)
    (hw : ∀ w ps rest, Below x (.q (.setOpr w ps rest)) → w = []) : Path binds x ns z := by
  induction h with
  | refl x => exact .refl _
  | step x y z ns hy _ ih =>
    have he : selectBinds x = binds x := by
      cases x with
      | q q =>
        cases q with
        | setOpr w ps rest => rw [hw w ps rest (.refl _)]; rfl
        | _ => rfl
      | _ => rfl
    rw [he]
    exact .step _ _ _ _ hy (ih fun w ps rest hb => hw w ps rest (.step hy hb))

/-- C70: on success the list holds, once each and in lower case, every table the statement reads. -/
theorem C70_names_complete (norm : Str → Str) (ord : List Str → List Str) (hord : ∀ l, (ord l).Perm l)
    (s : Select) (names : List Str)
    (h : collectTableNames norm ord (.select s) = some (.ok names)) :
    names.Nodup ∧ ∀ name, ReadsTable norm s name → norm name ∈ names := by
  have hacc := (C70_accepts_iff norm ord s).mp ⟨names, h⟩
  obtain ⟨st, -, ⟨-, h2, -⟩, h'⟩ := names_eq (norm := norm) ord s
  rw [h'] at h
  split at h
  · cases h
  · simp only [Option.some.injEq, Except.ok.injEq] at h
    subst h
    refine ⟨(hord _).nodup_iff.mpr (uniq_nodup _), ?_⟩
    rintro name ⟨ns, schema, as, hp, hn⟩
    rw [(hord _).mem_iff, uniq_mem, h2]
    obtain ⟨ns', hs, hp'⟩ := path_selects hp
    have hb : ∀ {x z ns}, Path selectBinds x ns z → Below x z := by
      intro x z ns h
      induction h with
      | refl => exact .refl _
      | step _ _ _ _ hy _ ih => exact .step hy ih
    have hsch : schema = [] := by
      by_cases e : schema = []
      · exact e
      · exact absurd (.table _ _ _ e) (hacc _ (hb hp'))
    subst hsch
    refine .inr ⟨⟨ns', name, as, hp', ?_, rfl⟩, by simp⟩
    intro hm
    obtain ⟨a, ha, e⟩ := List.mem_map.mp hm
    exact hn (e ▸ List.mem_map_of_mem (hs a ha))

/-- C70, for statements in which no set operation has its own WITH: and nothing else. -/
theorem C70_names_sound_partial (norm : Str → Str) (ord : List Str → List Str)
    (hord : ∀ l, (ord l).Perm l) (s : Select) (hw : NoWithOnSetOperations s) (names : List Str)
    (h : collectTableNames norm ord (.select s) = some (.ok names)) :
    ∀ n ∈ names, ∃ name, n = norm name ∧ ReadsTable norm s name := by
  obtain ⟨st, -, ⟨-, h2, -⟩, h'⟩ := names_eq (norm := norm) ord s
  rw [h'] at h
  split at h
  · cases h
  · simp only [Option.some.injEq, Except.ok.injEq] at h
    subst h
    intro n hn
    rw [(hord _).mem_iff, uniq_mem, h2] at hn
    obtain hn | ⟨⟨ns, name, as, hp, h3, rfl⟩, -⟩ := hn
    · simp at hn
    · exact ⟨name, rfl, ns, [], as, path_all hp hw, h3⟩

end Verif.MyScope
