import Verif.PgScope.Reg
import Verif.PgScope.Names
/-!
# The scopes in memory and the trees they stand for (helper definitions and lemmas)
-/
namespace Verif.PgScope
open Verif.Builder Verif.Fields Verif.Lib Verif.PgScope.Spec

/-! ## Reading the memory -/

mutual

/-- The memory at `p` holds the tree; all its cells are in the given range, children after parents. -/
def Reads (heap : List Cell) (lo hi : Nat) : Scope → Nat → Prop
  | .mk name fields fs tables ss, p =>
    lo ≤ p ∧ p < hi ∧ ∃ c, heap[p]? = some c ∧ c.name = name ∧ c.fields = fields ∧
      c.tables = tables ∧ ReadsL heap (p + 1) hi fs c.fieldScopes ∧
      ReadsL heap (p + 1) hi ss c.subScopes

/-- see `Reads` -/
def ReadsL (heap : List Cell) (lo hi : Nat) : List Scope → List Nat → Prop
  | [], [] => True
  | s :: ss, p :: ps => Reads heap lo hi s p ∧ ReadsL heap lo hi ss ps
  | _, _ => False

end

mutual

theorem Reads.mono {heap heap' : List Cell} {lo hi lo' hi' : Nat}
    (hh : ∀ q, lo ≤ q → q < hi → heap'[q]? = heap[q]?) (h1 : lo' ≤ lo) (h2 : hi ≤ hi') :
    ∀ (s : Scope) (p : Nat), Reads heap lo hi s p → Reads heap' lo' hi' s p
  | .mk name fields fs tables ss, p, h => by
    rw [Reads] at h ⊢
    obtain ⟨a, b, c, d1, d2, d3, d4, d5, d6⟩ := h
    refine ⟨by omega, by omega, c, by rw [hh p a b]; exact d1, d2, d3, d4, ?_, ?_⟩
    · exact ReadsL.mono (fun q h1 h2 => hh q (by omega) h2) (by omega) h2 fs _ d5
    · exact ReadsL.mono (fun q h1 h2 => hh q (by omega) h2) (by omega) h2 ss _ d6

theorem ReadsL.mono {heap heap' : List Cell} {lo hi lo' hi' : Nat}
    (hh : ∀ q, lo ≤ q → q < hi → heap'[q]? = heap[q]?) (h1 : lo' ≤ lo) (h2 : hi ≤ hi') :
    ∀ (ss : List Scope) (ps : List Nat), ReadsL heap lo hi ss ps → ReadsL heap' lo' hi' ss ps
  | [], [], _ => by rw [ReadsL]; trivial
  | s :: ss, p :: ps, h => by
    rw [ReadsL] at h ⊢
    exact ⟨Reads.mono hh h1 h2 s p h.1, ReadsL.mono hh h1 h2 ss ps h.2⟩
  | [], _ :: _, h => by simp [ReadsL] at h
  | _ :: _, [], h => by simp [ReadsL] at h

end

theorem ReadsL.append {heap : List Cell} {lo hi : Nat} (ss ss' : List Scope) (ps ps' : List Nat)
    (h : ReadsL heap lo hi ss ps) (h' : ReadsL heap lo hi ss' ps') :
    ReadsL heap lo hi (ss ++ ss') (ps ++ ps') := by
  induction ss generalizing ps with
  | nil =>
    cases ps with
    | nil => exact h'
    | cons p ps => simp [ReadsL] at h
  | cons s ss ih =>
    cases ps with
    | nil => simp [ReadsL] at h
    | cons p ps =>
      rw [ReadsL] at h
      rw [List.cons_append, List.cons_append, ReadsL]
      exact ⟨h.1, ih ps h.2⟩

mutual

theorem readScope_of {heap : List Cell} {lo hi : Nat} :
    ∀ (s : Scope) (p n : Nat), Reads heap lo hi s p → hi ≤ n + p → readScope heap n p = some s
  | .mk name fields fs tables ss, p, n, h, hn => by
    rw [Reads] at h
    obtain ⟨_, b, c, d1, d2, d3, d4, d5, d6⟩ := h
    cases n with
    | zero => omega
    | succ n =>
      have e1 := readScopes_of fs c.fieldScopes n d5 (by omega)
      have e2 := readScopes_of ss c.subScopes n d6 (by omega)
      rw [readScope]
      simp only [d1, e1, e2, d2, d3, d4]

theorem readScopes_of {heap : List Cell} {lo hi : Nat} :
    ∀ (ss : List Scope) (ps : List Nat) (n : Nat), ReadsL heap lo hi ss ps → hi ≤ n + lo →
      ps.mapM (readScope heap n) = some ss
  | [], [], _, _, _ => by rfl
  | s :: ss, p :: ps, n, h, hn => by
    rw [ReadsL] at h
    have hp : lo ≤ p := by
      cases s
      have := h.1
      rw [Reads] at this
      exact this.1
    have e1 := readScope_of s p n h.1 (by omega)
    have e2 := readScopes_of ss ps n h.2 hn
    rw [List.mapM_cons, e1, e2]
    rfl
  | [], _ :: _, _, h, _ => by simp [ReadsL] at h
  | _ :: _, [], _, h, _ => by simp [ReadsL] at h

end

/-! ## The subqueries of a select -/

/-- the walk below a select -/
def witemsS : Select → List WItem
  | .mk _ _ orderBy limit (.clause exprs tables where_ groupBy having _ distinctOn) =>
    witemsClause orderBy limit exprs tables where_ groupBy having distinctOn
  | _ => []

/-- the subquery of an element of the walk -/
def WItem.sel : WItem → Option (Bool × Nat × Select)
  | .sub d i (.paren s) => some (d, i, s)
  | _ => none

/-- the subqueries visited below a select, in the order of the visits: whether it is a FROM item, its
number, its select -/
def wsubs (s : Select) : List (Bool × Nat × Select) := (witemsS s).filterMap WItem.sel

theorem below_refl (x : Nd) : Below x x := ⟨[], .refl x⟩

theorem below_step {x y z : Nd} (h : y ∈ kids x) (h' : Below y z) : Below x z := by
  obtain ⟨ns, h'⟩ := h'
  exact ⟨_, .step x y z ns h h'⟩

theorem below_near {x y z : Nd} (h : y ∈ near x) (h' : Below y z) : Below x z :=
  below_step (List.mem_append.mpr (.inl h)) h'

theorem below_trans {x y z : Nd} (h : Below x y) (h' : Below y z) : Below x z := by
  obtain ⟨ns, h⟩ := h
  induction h with
  | refl => exact h'
  | step x y _ ns hy _ ih => exact below_step hy (ih h')

theorem below_sizeOf {x z : Nd} (h : Below x z) : sizeOf z ≤ sizeOf x := by
  obtain ⟨ns, h⟩ := h
  induction h with
  | refl => exact Nat.le_refl _
  | step x y _ ns hy _ ih => have := kids_sizeOf x y hy; omega

mutual

theorem wsubE : ∀ (e : Expr) (d : Bool) (i : Nat) (b : Body), .sub d i b ∈ witemsE e →
    d = false ∧ Below (.e e) (.e (.subquery i b))
  | .nil, d, i, b, h => by simp [witemsE] at h
  | .leaf known ok, d, i, b, h => by cases known <;> simp [witemsE] at h
  | .node known kids, d, i, b, h => by
    cases known
    · simp [witemsE] at h
    · simp [witemsE] at h
      obtain ⟨h1, x, hx, h2⟩ := wsubEs kids d i b h
      exact ⟨h1, below_near (by simp [near, hx]) h2⟩
  | .case subject whens els, d, i, b, h => by
    simp [witemsE] at h
    rcases h with h | h | h
    · obtain ⟨h1, h2⟩ := wsubE subject d i b h
      exact ⟨h1, below_near (y := .e subject) (by simp [near]) h2⟩
    · obtain ⟨h1, h2⟩ := wsubE els d i b h
      exact ⟨h1, below_near (y := .e els) (by simp [near]) h2⟩
    · obtain ⟨h1, x, hx, h2⟩ := wsubWs whens d i b h
      refine ⟨h1, below_near ?_ h2⟩
      rw [near]
      exact List.mem_append_right _ hx
  | .func args filter over _, d, i, b, h => by
    simp [witemsE] at h
    rcases h with h | h | h
    · obtain ⟨h1, x, hx, h2⟩ := wsubOver over d i b h
      exact ⟨h1, below_near (by simp [near, hx]) h2⟩
    · obtain ⟨h1, x, hx, h2⟩ := wsubEs args d i b h
      exact ⟨h1, below_near (by simp [near, hx]) h2⟩
    · obtain ⟨h1, h2⟩ := wsubE filter d i b h
      exact ⟨h1, below_near (y := .e filter) (by simp [near]) h2⟩
  | .name _ _, d, i, b, h => by simp [witemsE] at h
  | .unqualifiedStar, d, i, b, h => by simp [witemsE] at h
  | .tupleStar e, d, i, b, h => by
    simp [witemsE] at h
    obtain ⟨h1, h2⟩ := wsubE e d i b h
    exact ⟨h1, below_near (y := .e e) (by simp [near]) h2⟩
  | .columnAccess e _, d, i, b, h => by
    simp [witemsE] at h
    obtain ⟨h1, h2⟩ := wsubE e d i b h
    exact ⟨h1, below_near (y := .e e) (by simp [near]) h2⟩
  | .allColumns _, d, i, b, h => by simp [witemsE] at h
  | .columnItem _ _, d, i, b, h => by simp [witemsE] at h
  | .subquery id body, d, i, b, h => by
    simp [witemsE] at h
    obtain ⟨rfl, rfl, rfl⟩ := h
    exact ⟨rfl, below_refl _⟩

theorem wsubEs : ∀ (es : List Expr) (d : Bool) (i : Nat) (b : Body), .sub d i b ∈ witemsEs es →
    d = false ∧ ∃ x, x ∈ es.map Nd.e ∧ Below x (.e (.subquery i b))
  | [], d, i, b, h => by simp [witemsEs] at h
  | e :: es, d, i, b, h => by
    simp [witemsEs] at h
    rcases h with h | h
    · obtain ⟨h1, h2⟩ := wsubE e d i b h
      exact ⟨h1, _, by simp, h2⟩
    · obtain ⟨h1, x, hx, h2⟩ := wsubEs es d i b h
      exact ⟨h1, x, by rw [List.map_cons]; exact List.mem_cons_of_mem _ hx, h2⟩

theorem wsubWs : ∀ (ws : List When) (d : Bool) (i : Nat) (b : Body), .sub d i b ∈ witemsWs ws →
    d = false ∧ ∃ x, x ∈ (ws.flatMap fun | .mk c v => [Nd.e c, Nd.e v]) ∧
      Below x (.e (.subquery i b))
  | [], d, i, b, h => by simp [witemsWs] at h
  | w :: ws, d, i, b, h => by
    simp [witemsWs] at h
    rcases h with h | h
    · obtain ⟨h1, x, hx, h2⟩ := wsubW w d i b h
      exact ⟨h1, x, by rw [List.flatMap_cons]; exact List.mem_append_left _ hx, h2⟩
    · obtain ⟨h1, x, hx, h2⟩ := wsubWs ws d i b h
      exact ⟨h1, x, by rw [List.flatMap_cons]; exact List.mem_append_right _ hx, h2⟩

theorem wsubW : ∀ (w : When) (d : Bool) (i : Nat) (b : Body), .sub d i b ∈ witemsW w →
    d = false ∧ ∃ x, x ∈ (match w with | .mk c v => [Nd.e c, Nd.e v]) ∧
      Below x (.e (.subquery i b))
  | .mk c v, d, i, b, h => by
    simp [witemsW] at h
    rcases h with h | h
    · obtain ⟨h1, h2⟩ := wsubE c d i b h
      exact ⟨h1, _, by simp, h2⟩
    · obtain ⟨h1, h2⟩ := wsubE v d i b h
      exact ⟨h1, .e v, by simp, h2⟩

theorem wsubOver : ∀ (o : Over) (d : Bool) (i : Nat) (b : Body), .sub d i b ∈ witemsOver o →
    d = false ∧ ∃ x, x ∈ overKids o ∧ Below x (.e (.subquery i b))
  | .none, d, i, b, h => by simp [witemsOver] at h
  | .mk ps os .none, d, i, b, h => by
    simp [witemsOver, witemsFrame] at h
    exact wsubEs ps d i b h
  | .mk ps os (.mk a z), d, i, b, h => by
    simp [witemsOver, witemsFrame] at h
    rcases h with h | h | h
    · obtain ⟨h1, x, hx, h2⟩ := wsubEs ps d i b h
      exact ⟨h1, x, List.mem_append_left _ hx, h2⟩
    · obtain ⟨h1, x, hx, h2⟩ := wsubBound a d i b h
      exact ⟨h1, x, List.mem_append_right _ (List.mem_append_left _ hx), h2⟩
    · obtain ⟨h1, x, hx, h2⟩ := wsubBound z d i b h
      exact ⟨h1, x, List.mem_append_right _ (List.mem_append_right _ hx), h2⟩

theorem wsubBound : ∀ (o : Bound) (d : Bool) (i : Nat) (b : Body), .sub d i b ∈ witemsBound o →
    d = false ∧ ∃ x, x ∈ boundKids o ∧ Below x (.e (.subquery i b))
  | .none, d, i, b, h => by simp [witemsBound] at h
  | .mk e, d, i, b, h => by
    simp [witemsBound] at h
    obtain ⟨h1, h2⟩ := wsubE e d i b h
    exact ⟨h1, _, by simp [boundKids], h2⟩

end

/-- a subquery of the given kind -/
def subNd (d : Bool) (i : Nat) (b : Body) : Nd :=
  if d then .t (.subquery i b) else .e (.subquery i b)

theorem wsubSEs (es : List SelExpr) (d : Bool) (i : Nat) (b : Body) (h : .sub d i b ∈ witemsSEs es) :
    d = false ∧ ∃ x, x ∈ (es.map fun | .mk x _ => Nd.e x) ∧ Below x (.e (.subquery i b)) := by
  induction es with
  | nil => simp [witemsSEs] at h
  | cons e es ih =>
    obtain ⟨e, as⟩ := e
    simp [witemsSEs] at h
    rcases h with h | h
    · obtain ⟨h1, h2⟩ := wsubE e d i b h
      exact ⟨h1, _, by simp, h2⟩
    · obtain ⟨h1, x, hx, h2⟩ := ih h
      exact ⟨h1, x, by rw [List.map_cons]; exact List.mem_cons_of_mem _ hx, h2⟩

theorem wsubO (o : Option Expr) (d : Bool) (i : Nat) (b : Body) (h : .sub d i b ∈ witemsO o) :
    d = false ∧ ∃ x, x ∈ o.toList.map Nd.e ∧ Below x (.e (.subquery i b)) := by
  cases o with
  | none => simp [witemsO] at h
  | some e =>
    simp [witemsO] at h
    obtain ⟨h1, h2⟩ := wsubE e d i b h
    exact ⟨h1, _, by simp, h2⟩

theorem wsubT (t : TableExpr) (d : Bool) (i : Nat) (b : Body) (h : .sub d i b ∈ witemsT t) :
    Below (.t t) (subNd d i b) := by
  fun_induction witemsT t with
  | case1 e as l ih =>
    simp at h
    exact below_near (y := .t e) (by simp [near]) (ih h)
  | case2 id body => simp at h; obtain ⟨rfl, rfl, rfl⟩ := h; exact below_refl _
  | case8 l r c ihl ihr =>
    simp at h
    rcases h with h | h | h
    · exact below_near (y := .t l) (by cases c <;> simp [near]) (ihl h)
    · exact below_near (y := .t r) (by cases c <;> simp [near]) (ihr h)
    · cases c <;> simp [witemsC] at h
      rename_i e
      obtain ⟨h1, h2⟩ := wsubE e d i b h
      subst h1
      exact below_near (y := .e e) (by simp [near]) h2
  | case9 items =>
    simp at h
    obtain ⟨h1, x, hx, h2⟩ := wsubEs items d i b h
    subst h1
    exact below_near (by simpa [near] using hx) h2
  | _ => simp at h

theorem wsubTs (ts : List TableExpr) (d : Bool) (i : Nat) (b : Body) (h : .sub d i b ∈ witemsTs ts) :
    ∃ x, x ∈ ts.map Nd.t ∧ Below x (subNd d i b) := by
  induction ts with
  | nil => simp [witemsTs] at h
  | cons t ts ih =>
    simp [witemsTs] at h
    rcases h with h | h
    · exact ⟨_, by simp, wsubT t d i b h⟩
    · obtain ⟨x, hx, h2⟩ := ih h
      exact ⟨x, by rw [List.map_cons]; exact List.mem_cons_of_mem _ hx, h2⟩

theorem wsubS (s : Select) (d : Bool) (i : Nat) (b : Body) (h : .sub d i b ∈ witemsS s) :
    Below (.s s) (subNd d i b) := by
  obtain ⟨id, w, orderBy, limit, body⟩ := s
  cases body with
  | clause exprs tables where_ groupBy having window distinctOn =>
    have hb : ∀ y, y ∈ near (.b (.clause exprs tables where_ groupBy having window distinctOn)) →
        Below y (subNd d i b) → Below (.s (.mk id w orderBy limit
          (.clause exprs tables where_ groupBy having window distinctOn))) (subNd d i b) := by
      intro y hy hz
      refine below_near (y := .b _) ?_ (below_near hy hz)
      simp [near]
    rw [witemsS, witemsClause] at h
    simp only [List.mem_append, List.mem_singleton, reduceCtorEq, or_false] at h
    rcases h with ((((((h | h) | h) | h) | h) | h) | h) | h
    · obtain ⟨rfl, x, hx, h2⟩ := wsubEs _ d i b h
      refine below_near (y := x) ?_ h2
      simp only [near, List.mem_append, hx, true_or, or_true]
    · cases limit with
      | none => simp [witemsL] at h
      | mk c o =>
        simp [witemsL] at h
        obtain ⟨rfl, h2⟩ := wsubE c d i b h
        exact below_near (y := .e c) (by simp [near]) h2
    · obtain ⟨rfl, x, hx, h2⟩ := wsubSEs _ d i b h
      refine hb x ?_ h2
      simp only [near, List.mem_append]
      exact Or.inl (Or.inl (Or.inl (Or.inl (Or.inl hx))))
    · obtain ⟨rfl, x, hx, h2⟩ := wsubO _ d i b h
      exact hb x (by simp only [near, List.mem_append, hx]; simp) h2
    · obtain ⟨rfl, x, hx, h2⟩ := wsubO _ d i b h
      exact hb x (by simp only [near, List.mem_append, hx]; simp) h2
    · obtain ⟨rfl, x, hx, h2⟩ := wsubEs _ d i b h
      exact hb x (by simp only [near, List.mem_append, hx]; simp) h2
    · obtain ⟨rfl, x, hx, h2⟩ := wsubEs _ d i b h
      exact hb x (by simp only [near, List.mem_append, hx]; simp) h2
    · obtain ⟨x, hx, h2⟩ := wsubTs _ d i b h
      exact hb x (by simp only [near, List.mem_append, hx]; simp) h2
  | _ => simp [witemsS] at h

theorem wsubs_below (s : Select) (x : Bool × Nat × Select) (h : x ∈ wsubs s) :
    Below (.s s) (.s x.2.2) := by
  obtain ⟨i, hi, e⟩ := List.mem_filterMap.mp h
  cases i with
  | noise ev => simp [WItem.sel] at e
  | sub d id b =>
    cases b with
    | paren s' =>
      simp [WItem.sel] at e
      subst e
      refine below_trans (wsubS s d id _ hi) ?_
      cases d
      · refine below_near (y := .b (.paren s')) (by simp [near, subNd]) ?_
        exact below_near (y := .s s') (by simp [near]) (below_refl _)
      · refine below_near (y := .b (.paren s')) (by simp [near, subNd]) ?_
        exact below_near (y := .s s') (by simp [near]) (below_refl _)
    | _ => simp [WItem.sel] at e

theorem wsubs_sizeOf (s : Select) (x : Bool × Nat × Select) (h : x ∈ wsubs s) :
    sizeOf x.2.2 < sizeOf s := by
  obtain ⟨i, hi, e⟩ := List.mem_filterMap.mp h
  cases i with
  | noise ev => simp [WItem.sel] at e
  | sub d id b =>
    cases b with
    | paren s' =>
      simp [WItem.sel] at e
      subst e
      have := below_sizeOf (wsubS s d id _ hi)
      cases d <;> simp [subNd] at this <;> simp only <;> omega
    | _ => simp [WItem.sel] at e

/-- recursion over the subqueries visited -/
def foldS {α : Type} (f : Select → List (Bool × Nat × Select × α) → α) (s : Select) : α :=
  f s ((wsubs s).attach.map fun x => (x.1.1, x.1.2.1, x.1.2.2, foldS f x.1.2.2))
termination_by sizeOf s
decreasing_by exact wsubs_sizeOf s x.1 x.2

theorem foldS_eq {α : Type} (f : Select → List (Bool × Nat × Select × α) → α) (s : Select) :
    foldS f s = f s ((wsubs s).map fun x => (x.1, x.2.1, x.2.2, foldS f x.2.2)) := by
  rw [foldS]
  congr 1
  exact List.attach_map_val (f := fun x : Bool × Nat × Select => (x.1, x.2.1, x.2.2, foldS f x.2.2))
    (l := wsubs s)

end Verif.PgScope
