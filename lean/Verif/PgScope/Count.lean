import Verif.PgScope.From
/-!
# Identities occur once (helper lemmas)
-/
namespace Verif.PgScope
open Verif.Builder Verif.Fields Verif.Lib Verif.PgScope.Spec

theorem nodes_eq (x : Nd) : nodes x = x :: (kids x).flatMap nodes := by
  rw [nodes]
  congr 1
  conv_rhs => rw [← List.attach_map_subtype_val (kids x)]
  rw [List.flatMap_map]

/-- how often an identity occurs -/
def cnt (f : Nd → Option Nat) (id : Nat) (x : Nd) : Nat := ((nodes x).filterMap f).count id

/-- see `cnt` -/
def cntL (f : Nd → Option Nat) (id : Nat) (l : List Nd) : Nat := (l.map (cnt f id)).sum

theorem cntL_nil (f : Nd → Option Nat) (id : Nat) : cntL f id [] = 0 := rfl

theorem cntL_cons (f : Nd → Option Nat) (id : Nat) (x : Nd) (l : List Nd) :
    cntL f id (x :: l) = cnt f id x + cntL f id l := by simp [cntL]

theorem cntL_append (f : Nd → Option Nat) (id : Nat) (a b : List Nd) :
    cntL f id (a ++ b) = cntL f id a + cntL f id b := by simp [cntL]

theorem cnt_eq (f : Nd → Option Nat) (id : Nat) (x : Nd) :
    cnt f id x = (if f x = some id then 1 else 0) + cntL f id (kids x) := by
  have hl : ∀ l : List Nd, ((l.flatMap nodes).filterMap f).count id = cntL f id l := by
    intro l
    induction l with
    | nil => rfl
    | cons y l ih =>
      rw [List.flatMap_cons, List.filterMap_append, List.count_append, ih, cntL_cons]
      rfl
  rw [cnt, nodes_eq, List.filterMap_cons]
  cases h : f x with
  | none => simp [hl]
  | some a =>
    simp only [List.count_cons, hl, Option.some.injEq, beq_iff_eq]
    omega

theorem cnt_kids (f : Nd → Option Nat) (id : Nat) (x y : Nd) (h : y ∈ kids x) :
    (if f x = some id then 1 else 0) + cnt f id y ≤ cnt f id x := by
  rw [cnt_eq f id x]
  have : ∀ l : List Nd, y ∈ l → cnt f id y ≤ cntL f id l := by
    intro l
    induction l with
    | nil => simp
    | cons z l ih =>
      intro hm
      rw [cntL_cons]
      rcases List.mem_cons.mp hm with rfl | hm
      · omega
      · have := ih hm; omega
  have := this _ h
  omega

theorem cnt_below (f : Nd → Option Nat) (id : Nat) {x y : Nd} (h : Below x y) :
    cnt f id y ≤ cnt f id x := by
  obtain ⟨ns, h⟩ := h
  induction h with
  | refl => exact Nat.le_refl _
  | step x y z ns hy _ ih =>
    have := cnt_kids f id x y hy
    omega

/-! ## Registered and visited selects -/

variable {norm : Str → Str} {schema : Str} {k : Nat}

/-- how often a select is registered, times `k` (zero or one) -/
def rg (k id : Nat) (items : List CItem) : Nat := k * (cregs items).count id

/-- the sum of a quantity over the selects visited -/
def vs (G : Select → Nat) (items : List WItem) : Nat :=
  ((items.filterMap WItem.sel).map fun x => G x.2.2).sum

theorem rg_nil (id : Nat) : rg k id [] = 0 := rfl

theorem rg_append (id : Nat) (a b : List CItem) : rg k id (a ++ b) = rg k id a + rg k id b := by
  simp [rg, cregs, Nat.mul_add]

theorem vs_nil (G : Select → Nat) : vs G [] = 0 := rfl

theorem vs_append (G : Select → Nat) (a b : List WItem) : vs G (a ++ b) = vs G a + vs G b := by
  simp [vs]

theorem vs_noise (G : Select → Nat) (e : Ev) : vs G [.noise e] = 0 := rfl

/-- abbreviation for the count of selects -/
abbrev cs (id : Nat) (x : Nd) : Nat := cnt selId id x

/-- abbreviation for the count of selects -/
abbrev csL (id : Nat) (l : List Nd) : Nat := cntL selId id l

/-- a bound for the selects below a select -/
def Bnd (k : Nat) (G : Select → Nat) (id : Nat) : Prop :=
  ∀ x : Select, G x + k * (if x.id = id then 1 else 0) ≤ cs id (.s x)

theorem rg_body (G : Select → Nat) (id i : Nat) (d : Bool) (b : Body) (h : Bnd k G id) :
    rg k id [.sub b] + vs G [.sub d i b] ≤ cs id (.b b) := by
  cases b with
  | paren x =>
    have h1 := h x
    have h2 := cnt_kids selId id (.b (.paren x)) (.s x) (by simp [kids, near])
    have h3 : rg k id [.sub (.paren x)] = k * (if x.id = id then 1 else 0) := by
      simp [rg, cregs, CItem.reg, List.count_cons]
    have h4 : vs G [.sub d i (.paren x)] = G x := by simp [vs, WItem.sel]
    simp only [cs] at *
    omega
  | _ => exact Nat.zero_le _

theorem cs_e (id : Nat) (e : Expr) : cs id (.e e) = csL id (kids (.e e)) := by
  simp only [cs, csL]
  rw [cnt_eq]
  simp [selId]

theorem cs_t (id : Nat) (t : TableExpr) : cs id (.t t) = csL id (kids (.t t)) := by
  simp only [cs, csL]
  rw [cnt_eq]
  simp [selId]

theorem cs_b (id : Nat) (t : Body) : cs id (.b t) = csL id (kids (.b t)) := by
  simp only [cs, csL]
  rw [cnt_eq]
  simp [selId]

mutual

theorem boundE (G : Select → Nat) (id : Nat) (ty : FieldType) (hG : Bnd k G id) : ∀ e : Expr,
    rg k id (citemsE norm schema ty e) + vs G (witemsE e) ≤ cs id (.e e)
  | .nil => Nat.zero_le _
  | .leaf known ok => by
    cases known <;> cases ok <;> exact Nat.zero_le _
  | .node known ks => by
    have h := boundEs G id ty hG ks
    have e1 : csL id (kids (.e (.node known ks))) = csL id (ks.map Nd.e) := by simp [kids, near, remote]
    rw [cs_e, e1, citemsE, witemsE]
    cases known
    · simp only [Bool.false_eq_true, if_false, vs_noise]; omega
    · simp only [if_true, vs_append, vs_noise]; omega
  | .case subject whens els => by
    have h1 := boundE G id ty hG subject
    have h2 := boundE G id ty hG els
    have h3 := boundWs G id ty hG whens
    have e1 : csL id (kids (.e (.case subject whens els))) = cs id (.e subject) + (cs id (.e els) +
        csL id (whens.flatMap fun | .mk c v => [.e c, .e v])) := by
      have e0 : kids (.e (.case subject whens els)) =
        [.e subject, .e els] ++ whens.flatMap fun | .mk c v => [.e c, .e v] := List.append_nil _
      rw [e0]
      simp only [csL, cntL_append, cntL_cons, cntL_nil, cs]
      omega
    rw [cs_e, e1]
    simp only [citemsE, witemsE, vs_append, vs_noise, rg_append]
    omega
  | .func args filter over orderBy => by
    have h1 := boundEs G id ty hG args
    have h2 := boundE G id ty hG filter
    have h3 := boundOver G id ty hG over
    have h4 := boundEs G id ty hG orderBy
    have h5 := boundArgs id ty args
    have e1 : csL id (kids (.e (.func args filter over orderBy))) = csL id (overKids over) +
        csL id (args.map Nd.e) + cs id (.e filter) + (csL id (overOrder over) +
          csL id (orderBy.map Nd.e)) := by
      simp only [kids, near, remote, csL, cntL_append, cntL_cons, cntL_nil, cs]
      omega
    rw [cs_e, e1]
    simp only [citemsE, witemsE, vs_append, vs_noise, rg_append]
    omega
  | .name parts star => by
    have : rg k id (citemsE norm schema ty (.name parts star)) = 0 := by
      rw [citemsE]
      split
      · rfl
      · split <;> rfl
    rw [this]
    exact Nat.zero_le _
  | .unqualifiedStar => Nat.zero_le _
  | .tupleStar e => by
    have h := boundE G id ty hG e
    have h1 : rg k id (citemsE norm schema ty (.tupleStar e)) ≤ rg k id (citemsE norm schema ty e) := by
      cases e with
      | name parts star =>
        have : rg k id (citemsE norm schema ty (.tupleStar (.name parts star))) = 0 := by
          rw [citemsE]
          split <;> rfl
        omega
      | _ => exact Nat.le_refl _
    have e1 : csL id (kids (.e (.tupleStar e))) = cs id (.e e) := by
      simp [kids, near, remote, csL, cntL, cs]
    rw [cs_e, e1]
    simp only [witemsE, vs_append, vs_noise]
    omega
  | .columnAccess e c => by
    have h := boundE G id ty hG e
    have h1 : rg k id (citemsE norm schema ty (.columnAccess e c)) ≤ rg k id (citemsE norm schema ty e) := by
      cases e with
      | name parts star =>
        have : rg k id (citemsE norm schema ty (.columnAccess (.name parts star) c)) = 0 := by
          rw [citemsE]
          split <;> rfl
        omega
      | _ => exact Nat.le_refl _
    have e1 : csL id (kids (.e (.columnAccess e c))) = cs id (.e e) := by
      simp [kids, near, remote, csL, cntL, cs]
    rw [cs_e, e1]
    simp only [witemsE, vs_append, vs_noise]
    omega
  | .allColumns table => by
    have : rg k id (citemsE norm schema ty (.allColumns table)) = 0 := by
      rw [citemsE]
      split <;> rfl
    rw [this]
    exact Nat.zero_le _
  | .columnItem table col => by
    have : rg k id (citemsE norm schema ty (.columnItem table col)) = 0 := by
      rw [citemsE]
      split <;> rfl
    rw [this]
    exact Nat.zero_le _
  | .subquery i body => by
    have h := rg_body G id i false body hG
    have e1 : csL id (kids (.e (.subquery i body))) = cs id (.b body) := by
      simp [kids, near, remote, csL, cntL, cs]
    rw [cs_e, e1, citemsE, witemsE]
    exact h

theorem boundEs (G : Select → Nat) (id : Nat) (ty : FieldType) (hG : Bnd k G id) : ∀ es : List Expr,
    rg k id (citemsEs norm schema ty es) + vs G (witemsEs es) ≤ csL id (es.map Nd.e)
  | [] => Nat.zero_le _
  | e :: es => by
    have h1 := boundE G id ty hG e
    have h2 := boundEs G id ty hG es
    simp only [citemsEs, witemsEs, rg_append, vs_append, List.map_cons, csL, cntL_cons, cs] at *
    omega

theorem boundArgs (id : Nat) (ty : FieldType) : ∀ es : List Expr,
    rg k id (citemsArgs norm schema ty es) ≤ rg k id (citemsEs norm schema ty es)
  | [] => Nat.le_refl _
  | e :: es => by
    have h := boundArgs id ty es
    cases e with
    | unqualifiedStar =>
      rw [citemsArgs, citemsEs, rg_append]
      omega
    | _ =>
      rw [citemsArgs, citemsEs, rg_append, rg_append]
      · omega
      · intros; contradiction

theorem boundWs (G : Select → Nat) (id : Nat) (ty : FieldType) (hG : Bnd k G id) : ∀ ws : List When,
    rg k id (citemsWs norm schema ty ws) + vs G (witemsWs ws) ≤
      csL id (ws.flatMap fun | .mk c v => [.e c, .e v])
  | [] => Nat.zero_le _
  | .mk c v :: ws => by
    have h1 := boundE G id ty hG c
    have h2 := boundE G id ty hG v
    have h3 := boundWs G id ty hG ws
    simp only [citemsWs, citemsW, witemsWs, witemsW, rg_append, vs_append, List.flatMap_cons, csL,
      cntL_append, cntL_cons, cntL_nil, cs] at *
    omega

theorem boundOver (G : Select → Nat) (id : Nat) (ty : FieldType) (hG : Bnd k G id) : ∀ o : Over,
    rg k id (citemsOver norm schema ty o) + vs G (witemsOver o) ≤
      csL id (overKids o) + csL id (overOrder o)
  | .none => Nat.zero_le _
  | .mk ps os .none => by
    have h1 := boundEs G id ty hG ps
    have h2 := boundEs G id ty hG os
    simp only [citemsOver, citemsFrame, witemsOver, witemsFrame, rg_append, vs_append, vs_noise,
      overKids, overOrder, rg_nil, vs_nil] at *
    omega
  | .mk ps os (.mk a z) => by
    have h1 := boundEs G id ty hG ps
    have h2 := boundEs G id ty hG os
    have h3 := boundBound G id ty hG a
    have h4 := boundBound G id ty hG z
    simp only [citemsOver, citemsFrame, witemsOver, witemsFrame, rg_append, vs_append, vs_noise,
      overKids, overOrder, csL, cntL_append] at *
    omega

theorem boundBound (G : Select → Nat) (id : Nat) (ty : FieldType) (hG : Bnd k G id) : ∀ o : Bound,
    rg k id (citemsBound norm schema ty o) + vs G (witemsBound o) ≤ csL id (boundKids o)
  | .none => Nat.zero_le _
  | .mk e => by
    have h1 := boundE G id ty hG e
    simp only [citemsBound, witemsBound, vs_append, vs_noise, boundKids, csL, cntL_cons, cntL_nil,
      cs] at *
    omega

end

/-- how often a select is registered by a FROM item -/
def rt (k id : Nat) (items : List TItem) : Nat := k * (tregs items).count id

theorem rt_nil (id : Nat) : rt k id [] = 0 := rfl

theorem rt_append (id : Nat) (a b : List TItem) : rt k id (a ++ b) = rt k id a + rt k id b := by
  simp [rt, tregs, Nat.mul_add]

theorem rt_field (id : Nat) (items : List CItem) : rt k id [.field items] = rg k id items := by
  simp [rt, tregs, TItem.regsF, TItem.regsS, rg]

theorem boundRows (G : Select → Nat) (id : Nat) (hG : Bnd k G id) (es : List Expr) :
    rt k id (rowItems norm schema es) + vs G (witemsEs es) ≤ csL id (es.map Nd.e) := by
  induction es with
  | nil => exact Nat.zero_le _
  | cons e es ih =>
    have h1 := boundE (norm := norm) (schema := schema) G id .reference hG e
    have e1 : rowItems norm schema (e :: es) = [.field (citemsE norm schema .reference e)] ++
        rowItems norm schema es := rfl
    rw [e1]
    simp only [rt_append, rt_field, witemsEs, vs_append, List.map_cons, csL, cntL_cons, cs] at *
    omega

/-- the expression of a join condition -/
def condNds : Cond → List Nd
  | .on e => [.e e]
  | _ => []

theorem boundC (G : Select → Nat) (id : Nat) (hG : Bnd k G id) (c : Cond) :
    rt k id (citemsCond norm schema c) + vs G (witemsC c) ≤ csL id (condNds c) := by
  cases c with
  | on e =>
    have h1 := boundE (norm := norm) (schema := schema) G id .condition hG e
    simp only [citemsCond, rt_field, witemsC, vs_append, vs_noise, condNds, csL, cntL_cons, cntL_nil,
      cs] at *
    omega
  | «using» cols =>
    have : rt k id (citemsCond norm schema (.using cols)) = 0 := by
      rw [citemsCond]
      induction cols with
      | nil => rfl
      | cons c cols ih =>
        rw [List.map_cons, ← List.singleton_append, rt_append, ih]
        rfl
    rw [this]
    exact Nat.zero_le _
  | _ => exact Nat.zero_le _

theorem kids_join (l r : TableExpr) (c : Cond) :
    kids (.t (.join l r c)) = .t l :: .t r :: condNds c := by
  cases c <;> simp [kids, near, remote, condNds]

theorem boundT (G : Select → Nat) (id : Nat) (hG : Bnd k G id) (n : Nat) : ∀ t : TableExpr, sizeOf t ≤ n →
    rt k id (titems norm schema t) + vs G (witemsT t) ≤ cs id (.t t) := by
  induction n with
  | zero => intro t h; cases t <;> simp at h
  | succ n ih =>
    have hj : ∀ l r c, sizeOf (TableExpr.join l r c) ≤ n + 1 →
        rt k id (titems norm schema (.join l r c)) + vs G (witemsT (.join l r c)) ≤
          cs id (.t (.join l r c)) := by
      intro l r c hn
      simp at hn
      have h1 := ih l (by omega)
      have h2 := ih r (by omega)
      have h3 := boundC (norm := norm) (schema := schema) G id hG c
      rw [cs_t, kids_join]
      simp only [titems, witemsT, rt_append, vs_append, vs_noise, csL, cntL_cons, cs] at *
      omega
    have hd : ∀ i b, ∀ m, m ≤ rg k id [.sub b] →
        m + vs G [.sub true i b] ≤ cs id (.t (.subquery i b)) := by
      intro i b m hm
      have h := rg_body G id i true b hG
      have e1 : csL id (kids (.t (.subquery i b))) = cs id (.b b) := by
        simp [kids, near, remote, csL, cntL, cs]
      rw [cs_t, e1]
      omega
    have hr : ∀ items, rt k id (rowItems norm schema items) + vs G (witemsT (.rowsFrom items)) ≤
        cs id (.t (.rowsFrom items)) := by
      intro items
      have := boundRows (norm := norm) (schema := schema) G id hG items
      have e1 : csL id (kids (.t (.rowsFrom items))) = csL id (items.map Nd.e) := by
        simp [kids, near, remote]
      rw [cs_t, e1]
      simp only [witemsT, vs_append, vs_noise]
      omega
    have hz : ∀ t, vs G (witemsT t) ≤ cs id (.t t) → ∀ k, k = 0 →
        k + vs G (witemsT t) ≤ cs id (.t t) := by intro t h k hk; omega
    intro t hn
    cases t with
    | aliased t as lat =>
      have e1 : cs id (.t (.aliased t as lat)) = cs id (.t t) := by
        rw [cs_t]
        simp [kids, near, remote, csL, cntL, cs]
      have e2 : vs G (witemsT (.aliased t as lat)) = vs G (witemsT t) := by
        simp only [witemsT, vs_append, vs_noise]; omega
      rw [e1, e2]
      have hih := ih t (by simp at hn; omega)
      cases t with
      | join l r c => exact hj l r c (by simp at hn ⊢; omega)
      | rowsFrom items => exact hr items
      | subquery i b =>
        rw [witemsT]
        refine hd i b _ ?_
        cases b with
        | paren x => exact Nat.le_refl _
        | _ => exact Nat.zero_le _
      | tableName =>
        refine hz _ (by simp [witemsT, vs_noise]) _ ?_
        rw [titems]; split <;> rfl
      | objectName =>
        refine hz _ (by simp [witemsT, vs_noise]) _ ?_
        rw [titems]; split <;> rfl
      | aliased t' a l => exact hz _ (by omega) _ rfl
      | _ => exact hz _ (by simp [witemsT, vs_noise]) _ rfl
    | join l r c => exact hj l r c hn
    | rowsFrom items => exact hr items
    | subquery i b => exact hd i b 0 (Nat.zero_le _)
    | _ => exact hz _ (by simp [witemsT, vs_noise]) _ rfl

/-- how often a select is registered by the parts of a clause -/
def rp (k id : Nat) (parts : List Part) : Nat := k * (pregs parts).count id

theorem rp_append (id : Nat) (a b : List Part) : rp k id (a ++ b) = rp k id a + rp k id b := by
  simp [rp, pregs, Nat.mul_add]

theorem rp_expr (id : Nat) (as : Str) (items : List CItem) : rp k id [.expr as items] = rg k id items := by
  simp [rp, pregs, Part.regsF, Part.regsS, rg]

theorem rp_table (id : Nat) (items : List TItem) : rp k id [.table items] = rt k id items := by
  simp only [rp, pregs, List.flatMap_cons, List.flatMap_nil, List.append_nil, Part.regsF, Part.regsS]
  exact congrArg (k * ·) ((flatMap_append_perm' items TItem.regsF TItem.regsS).count_eq id)

theorem boundSEs (G : Select → Nat) (id : Nat) (hG : Bnd k G id) (es : List SelExpr) :
    rp k id (partsSEs norm schema es) + vs G (witemsSEs es) ≤ csL id (es.map fun | .mk x _ => .e x) := by
  induction es with
  | nil => exact Nat.zero_le _
  | cons e es ih =>
    obtain ⟨e, as⟩ := e
    have h1 := boundE (norm := norm) (schema := schema) G id .reference hG e
    have e1 : partsSEs norm schema (.mk e as :: es) = [.expr as (citemsE norm schema .reference e)] ++
        partsSEs norm schema es := rfl
    rw [e1]
    simp only [rp_append, rp_expr, witemsSEs, vs_append, vs_noise, List.map_cons, csL, cntL_cons,
      cs] at *
    omega

theorem boundPEs (G : Select → Nat) (id : Nat) (hG : Bnd k G id) (es : List Expr) :
    rp k id (partsEs norm schema es) + vs G (witemsEs es) ≤ csL id (es.map Nd.e) := by
  induction es with
  | nil => exact Nat.zero_le _
  | cons e es ih =>
    have h1 := boundE (norm := norm) (schema := schema) G id .reference hG e
    have e1 : partsEs norm schema (e :: es) = [.expr [] (citemsE norm schema .reference e)] ++
        partsEs norm schema es := rfl
    rw [e1]
    simp only [rp_append, rp_expr, witemsEs, vs_append, List.map_cons, csL, cntL_cons, cs] at *
    omega

theorem boundO (G : Select → Nat) (id : Nat) (ty : FieldType) (hG : Bnd k G id) (o : Option Expr) :
    rp k id (partsO norm schema ty o) + vs G (witemsO o) ≤ csL id (o.toList.map Nd.e) := by
  cases o with
  | none => exact Nat.zero_le _
  | some e =>
    have h1 := boundE (norm := norm) (schema := schema) G id ty hG e
    have e1 : partsO norm schema ty (some e) = [.expr [] (citemsE norm schema ty e)] := rfl
    rw [e1]
    simp only [rp_expr, witemsO, vs_append, vs_noise, Option.toList, List.map_cons, List.map_nil, csL,
      cntL_cons, cntL_nil, cs] at *
    omega

theorem boundTs (G : Select → Nat) (id : Nat) (hG : Bnd k G id) (ts : List TableExpr) :
    rp k id (partsTs norm schema ts) + vs G (witemsTs ts) ≤ csL id (ts.map Nd.t) := by
  induction ts with
  | nil => exact Nat.zero_le _
  | cons t ts ih =>
    have h1 := boundT (norm := norm) (schema := schema) G id hG _ t (Nat.le_refl _)
    have e1 : partsTs norm schema (t :: ts) = [.table (titems norm schema t)] ++
        partsTs norm schema ts := rfl
    rw [e1]
    simp only [rp_append, rp_table, witemsTs, vs_append, List.map_cons, csL, cntL_cons, cs] at *
    omega

/-- all the expressions of a limit -/
def limitNds : Limit → List Nd
  | .none => []
  | .mk c o => [.e c, .e o]

theorem boundL (G : Select → Nat) (id : Nat) (hG : Bnd k G id) (l : Limit) :
    rp k id (partsL norm schema l) + vs G (witemsL l) ≤ csL id (limitNds l) := by
  cases l with
  | none => exact Nat.zero_le _
  | mk c o =>
    have h1 := boundE (norm := norm) (schema := schema) G id .reference hG c
    have h2 := boundE (norm := norm) (schema := schema) G id .reference hG o
    have e1 : partsL norm schema (.mk c o) = [.expr [] (citemsE norm schema .reference c)] ++
        [.expr [] (citemsE norm schema .reference o)] := rfl
    rw [e1]
    simp only [rp_append, rp_expr, witemsL, vs_append, vs_noise, limitNds, csL, cntL_cons, cntL_nil,
      cs] at *
    omega

theorem boundS (G : Select → Nat) (id : Nat) (hG : Bnd k G id) (s : Select) :
    rp k id (partsS norm schema s) + vs G (witemsS s) + (if s.id = id then 1 else 0) ≤ cs id (.s s) := by
  obtain ⟨i, w, orderBy, limit, body⟩ := s
  have hid : (if (Select.mk i w orderBy limit body).id = id then 1 else 0) =
      (if selId (.s (.mk i w orderBy limit body)) = some id then 1 else 0) := by
    simp [selId]
  rw [hid]
  simp only [cs]
  rw [cnt_eq]
  cases body with
  | clause exprs tables where_ groupBy having window distinctOn =>
    have h1 := boundSEs (norm := norm) (schema := schema) G id hG exprs
    have h2 := boundTs (norm := norm) (schema := schema) G id hG tables
    have h3 := boundO (norm := norm) (schema := schema) G id .condition hG where_
    have h4 := boundPEs (norm := norm) (schema := schema) G id hG groupBy
    have h5 := boundO (norm := norm) (schema := schema) G id .reference hG having
    have h6 := boundPEs (norm := norm) (schema := schema) G id hG orderBy
    have h7 := boundL (norm := norm) (schema := schema) G id hG limit
    have h8 := boundPEs (norm := norm) (schema := schema) G id hG distinctOn
    have e1 : rp k id (if window = true then [Part.window] else []) = 0 := by
      cases window <;> rfl
    have e2 : csL id (kids (.s (.mk i w orderBy limit
        (.clause exprs tables where_ groupBy having window distinctOn)))) =
        csL id ((w.getD []).map Nd.c) + csL id (orderBy.map Nd.e) + csL id (limitNds limit) +
          csL id (kids (.b (.clause exprs tables where_ groupBy having window distinctOn))) := by
      cases limit with
      | none =>
        simp only [kids, near, remote, limitNds, csL, cntL_append, cntL_cons, cntL_nil]
        rw [← cs, cs_b]
        simp only [kids, near, remote, csL, cntL_append, cntL_nil]
        omega
      | mk c o =>
        simp only [kids, near, remote, limitNds, csL, cntL_append, cntL_cons, cntL_nil]
        have := cs_b id (.clause exprs tables where_ groupBy having window distinctOn)
        simp only [cs] at this
        rw [this]
        simp only [kids, near, remote, csL, cntL_append, cntL_nil]
        omega
    simp only [csL] at e2
    rw [e2]
    have e3 : kids (.b (.clause exprs tables where_ groupBy having window distinctOn)) =
        (exprs.map fun | .mk x _ => .e x) ++ where_.toList.map .e ++ having.toList.map .e ++
        distinctOn.map .e ++ groupBy.map .e ++ tables.map .t := List.append_nil _
    rw [e3]
    simp only [partsS, witemsS, witemsClause, rp_append, vs_append, vs_noise, e1]
    simp only [csL, cntL_append] at *
    omega
  | _ =>
    simp only [partsS, witemsS, vs_nil]
    have : rp k id [] = 0 := rfl
    omega

theorem bregs_count (id : Nat) (s : Select) :
    (bregs norm schema s).count id + (if s.id = id then 1 else 0) ≤ cs id (.s s) := by
  suffices ∀ n s, sizeOf s ≤ n →
      (bregs norm schema s).count id + (if s.id = id then 1 else 0) ≤ cs id (.s s) from
    this _ s (Nat.le_refl _)
  intro n
  induction n with
  | zero => intro s h; cases s; simp at h
  | succ n ih =>
    intro s hn
    let G : Select → Nat := fun x => if sizeOf x ≤ n then (bregs norm schema x).count id else 0
    have hG : Bnd 1 G id := by
      intro x
      simp only [G]
      split
      · rw [Nat.one_mul]; exact ih x ‹_›
      · simp only [cs, Nat.zero_add, Nat.one_mul]
        rw [cnt_eq]
        have : (if x.id = id then 1 else 0) = (if selId (.s x) = some id then 1 else 0) := by
          simp [selId]
        omega
    have h := boundS (norm := norm) (schema := schema) G id hG s
    have hv : vs G (witemsS s) = ((wsubs s).flatMap fun x => bregs norm schema x.2.2).count id := by
      rw [List.count_flatMap]
      simp only [vs]
      congr 1
      apply List.map_congr_left
      intro x hx
      have := wsubs_sizeOf s x hx
      simp only [G, Function.comp]
      rw [if_pos (by omega)]
    rw [bregs_eq, List.count_append, ← hv]
    simpa only [rp, Nat.one_mul] using h

theorem bregs_nodup {s : Select} (h : Fresh s) :
    (bregs norm schema s).Nodup ∧ s.id ∉ bregs norm schema s := by
  have hc : ∀ id, cs id (.s s) ≤ 1 := fun id => List.nodup_iff_count.mp h.1 id
  constructor
  · rw [List.nodup_iff_count]
    intro id
    have h1 := bregs_count (norm := norm) (schema := schema) id s
    have := hc id
    omega
  · intro hm
    have h1 := bregs_count (norm := norm) (schema := schema) s.id s
    rw [if_pos rfl] at h1
    have := hc s.id
    have := List.count_pos_iff.mpr hm
    omega

/-- the selects visited -/
def vids (s : Select) : List Nat :=
  foldS (fun s rs => s.id :: rs.flatMap (·.2.2.2)) s

theorem vids_eq (s : Select) : vids s = s.id :: (wsubs s).flatMap fun x => vids x.2.2 := by
  unfold vids
  rw [foldS_eq]
  simp only [List.flatMap_map]

theorem vids_count (id : Nat) (s : Select) : (vids s).count id ≤ cs id (.s s) := by
  suffices ∀ n s, sizeOf s ≤ n → (vids s).count id ≤ cs id (.s s) from this _ s (Nat.le_refl _)
  intro n
  induction n with
  | zero => intro s h; cases s; simp at h
  | succ n ih =>
    intro s hn
    let G : Select → Nat := fun x => if sizeOf x ≤ n then (vids x).count id else 0
    have hG : Bnd 0 G id := by
      intro x
      simp only [G, Nat.zero_mul, Nat.add_zero]
      split
      · exact ih x ‹_›
      · exact Nat.zero_le _
    have h := boundS (norm := fun x => x) (schema := []) G id hG s
    have hv : vs G (witemsS s) = ((wsubs s).flatMap fun x => vids x.2.2).count id := by
      rw [List.count_flatMap]
      simp only [vs]
      congr 1
      apply List.map_congr_left
      intro x hx
      have := wsubs_sizeOf s x hx
      simp only [G, Function.comp]
      rw [if_pos (by omega)]
    rw [vids_eq, List.count_cons, ← hv]
    simp only [beq_iff_eq]
    omega

theorem vids_nodup {s : Select} (h : Fresh s) : (vids s).Nodup := by
  rw [List.nodup_iff_count]
  intro id
  have h1 := vids_count id s
  have : cs id (.s s) ≤ 1 := List.nodup_iff_count.mp h.1 id
  omega

end Verif.PgScope
