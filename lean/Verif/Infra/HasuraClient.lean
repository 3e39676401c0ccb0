import Verif.Report.Json
import Verif.Examine.Props
import Verif.Examine.Ddl
import Mathlib.Data.List.Sort
/-!
# C90: what is asked of Hasura, and what its answers are taken for

`/repo/infra/hasura/{client,config,query,run_sql_args,run_sql_response,explain_request_body}.go`,
`/repo/database/hasura/hservice/index_examiner.go`, `/repo/cmd/db/suggest/hasura/postgres.go:88-97,137-160`.
-/
namespace Verif.Infra.HClient
open Verif.Lib Verif.Index Verif.Report

abbrev Str := List Char

/-! ## Model: the variables

`--json-variables` is decoded into `map[string]interface{}` and encoded again into each request. -/

/-- `float64` as used by `encoding/json`: reading the text of a number (`none`: out of range) and writing
one -/
structure Num64 (F : Type) where
  parse : Str → Option F
  fmt : F → Str

/-- the order of names in an encoded map (`sort.Strings`, by bytes); only that it is some order is used -/
def keyLe : Str → Str → Bool
  | [], _ => true
  | _ :: _, [] => false
  | a :: as, b :: bs => a.toNat < b.toNat || (a.toNat == b.toNat && keyLe as bs)

/-- `json.Marshal` sorts the names of a map -/
def sortKeys (fs : List (Str × Val)) : List (Str × Val) := fs.insertionSort fun a b => keyLe a.1 b.1 = true

/-- of equal names the last one counts -/
def goMap (fs : List (Str × Val)) : List (Str × Val) := fs.foldl (fun m p => Lib.mapSet p.1 p.2 m) []

mutual
/-- A JSON text (already read as a tree, with the texts of its numbers) decoded into `interface{}` and
encoded again: `json.Unmarshal` makes every number a `float64`, every object a map. -/
def recode {F : Type} (N : Num64 F) : Val → Option Val
  | .null => some .null
  | .bool b => some (.bool b)
  | .num none => none
  | .num (some t) => (N.parse t).map fun x => .num (some (N.fmt x))
  | .str s => some (.str s)
  | .arr vs => (recodeL N vs).map .arr
  | .obj fs => (recodeF N fs).map fun l => .obj (sortKeys (goMap l))
def recodeL {F : Type} (N : Num64 F) : List Val → Option (List Val)
  | [] => some []
  | v :: vs =>
    match recode N v, recodeL N vs with
    | some w, some ws => some (w :: ws)
    | _, _ => none
def recodeF {F : Type} (N : Num64 F) : List (Str × Val) → Option (List (Str × Val))
  | [] => some []
  | (k, v) :: fs =>
    match recode N v, recodeF N fs with
    | some w, some ws => some ((k, w) :: ws)
    | _, _ => none
end

/-- `/repo/cmd/db/suggest/hasura/postgres.go:137-144` `parseJSONToVariables`, from the tree of the text to
the value that is put into requests: an object, or `null` (a nil map). -/
def parseVariables {F : Type} (N : Num64 F) : Val → Option Val
  | .null => some .null
  | .obj fs => recode N (.obj fs)
  | _ => none

/-! ## Model: requests -/

@[irreducible] def kQuery : Str := "query".toList
@[irreducible] def kVariables : Str := "variables".toList
@[irreducible] def kUser : Str := "user".toList
@[irreducible] def kArgs : Str := "args".toList
@[irreducible] def kType : Str := "type".toList
@[irreducible] def kSql : Str := "sql".toList
@[irreducible] def kSource : Str := "source".toList
@[irreducible] def kCascade : Str := "cascade".toList
@[irreducible] def kCheck : Str := "check_metadata_consistency".toList
@[irreducible] def kReadOnly : Str := "read_only".toList
@[irreducible] def runSqlName : Str := "run_sql".toList
@[irreducible] def kResult : Str := "result".toList
@[irreducible] def kResultType : Str := "result_type".toList
@[irreducible] def secretHeader : Str := "x-hasura-admin-secret".toList

/-- `/repo/infra/hasura/client.go:14-18` -/
@[irreducible] def graphqlPath : Str := "/v1/graphql".toList
@[irreducible] def explainPath : Str := "/v1/graphql/explain".toList
@[irreducible] def queryPath : Str := "/v2/query".toList

/-- the parts of `url.URL` that matter.  Paths are taken to have no characters that must be escaped. -/
structure Url where
  scheme : Str
  host : Str
  path : Str
  rawQuery : Str

/-- `path.Clean`, the loop over the elements; `out` holds the elements kept, the last one first -/
def cleanElems (rooted : Bool) : List Str → List Str → List Str
  | [], out => out.reverse
  | e :: es, out =>
    if e = [] ∨ e = ['.'] then cleanElems rooted es out
    else if e = ['.', '.'] then
      match out with
      | o :: os => if o = ['.', '.'] then cleanElems rooted es (e :: out) else cleanElems rooted es os
      | [] => if rooted then cleanElems rooted es [] else cleanElems rooted es [e]
    else cleanElems rooted es (e :: out)

/-- `path.Clean` -/
def clean (p : Str) : Str :=
  if p.head? = some '/' then '/' :: joinWith ['/'] (cleanElems true (splitOn '/' p) [])
  else
    let r := joinWith ['/'] (cleanElems false (splitOn '/' p) [])
    if r = [] then ['.'] else r

/-- `path.Join` of two elements, the second not empty -/
def pathJoin (a b : Str) : Str := clean (if a = [] then b else a ++ '/' :: b)

/-- `url.URL.String` with a scheme and a host -/
def Url.text (u : Url) : Str :=
  u.scheme ++ [':', '/', '/'] ++ u.host ++ (if u.path ≠ [] ∧ u.path.head? ≠ some '/' then ['/'] else []) ++ u.path ++
    (if u.rawQuery = [] then [] else '?' :: u.rawQuery)

/-- `/repo/infra/hasura/client.go:149-153` `resolveURL` -/
def resolveURL (base : Url) (pathname : Str) : Str := ({ base with path := pathJoin base.path pathname } : Url).text

/-- `/repo/infra/hasura/client.go:20-33`, `config.go:10-13` -/
structure Client where
  base : Url
  secret : Str

/-- `/repo/infra/hasura/config.go:15-33` `NewConfigFromEnv`, with `/repo/lib/env.go:8-14` `GetEnv` (an unset
variable is an empty one) and `NewClient` (`client.go:25-33`); `parse` is `url.Parse`.  An error is a variable that
is missing or one that is no address. -/
def clientFromEnv {E : Type} (parse : Str → Except E Url) (getenv : Str → Str) : Except (Str ⊕ E) Client :=
  if getenv "HASURA_URL".toList = [] then .error (.inl "HASURA_URL".toList)
  else match parse (getenv "HASURA_URL".toList) with
    | .error e => .error (.inr e)
    | .ok u =>
      if getenv "HASURA_ADMIN_SECRET".toList = [] then .error (.inl "HASURA_ADMIN_SECRET".toList)
      else .ok ⟨u, getenv "HASURA_ADMIN_SECRET".toList⟩

/-- a POST request -/
structure Request where
  url : Str
  headers : List (Str × Str)
  body : Str

/-- `/repo/infra/hasura/client.go:119-130`: the request of `post` -/
def mkRequest (c : Client) (pathname : Str) (body : Val) : Request :=
  ⟨resolveURL c.base pathname, [(secretHeader, c.secret)], enc body⟩

/-- `/repo/infra/hasura/client.go:36-39`, a map, so its names are sorted -/
def gqlBody (query : Str) (vars : Val) : Val := .obj [(kQuery, .str query), (kVariables, vars)]

/-- `/repo/infra/hasura/explain_request_body.go`, `query.go`, as filled at
`/repo/cmd/db/suggest/hasura/postgres.go:89-94`: no `user`. -/
def explainBody (query : Str) (vars : Val) : Val :=
  .obj [(kQuery, .obj [(kQuery, .str query), (kVariables, vars)]), (kUser, .null)]

/-- `/repo/infra/hasura/client.go:66-70`, `run_sql_args.go`: the body of `RunSQL`; of the arguments only the statement
and `ReadOnly` are ever set -/
def sqlBody (sql : Str) (readOnly : Option Bool) : Val :=
  .obj [(kArgs, .obj [(kSql, .str sql), (kSource, .null), (kCascade, .null), (kCheck, .null),
          (kReadOnly, match readOnly with
            | none => .null
            | some b => .bool b)]),
        (kType, .str runSqlName)]

/-- `/repo/infra/hasura/client.go:60-64`: `RunRawSQL` sets only the statement -/
def runSqlBody (sql : Str) : Val := sqlBody sql none

/-- `/repo/infra/hasura/client.go:66-71`: the request of `RunSQL` -/
def sqlRequest (c : Client) (sql : Str) (readOnly : Option Bool) : Request := mkRequest c queryPath (sqlBody sql readOnly)

/-- `/repo/infra/hasura/client.go:47-51` `Explain`: its request -/
def explainRequest (c : Client) (query : Str) (vars : Val) : Request := mkRequest c explainPath (explainBody query vars)

/-! ## Model: answers -/

/-- a body: JSON, or anything else -/
inductive Body where
  | json (v : Val)
  | other (text : Str)

/-- what comes back: no answer at all, or a status with a body that can or cannot be read -/
inductive Reply where
  | noAnswer (why : Nat)
  | http (status : Nat) (body : Except Nat Body)

/-- errors of the client -/
inductive CErr where
  | transport (why : Nat)
  | status (code : Nat)
  | read (why : Nat)
  | decode
deriving DecidableEq

/-- `/repo/infra/hasura/client.go:131-147`: the rest of `post` -/
def postResult : Reply → Except CErr Body
  | .noAnswer w => .error (.transport w)
  | .http st b =>
    if st ≠ 200 then .error (.status st)
    else match b with
      | .error w => .error (.read w)
      | .ok b => .ok b

/-- `/repo/infra/hasura/client.go:40-45`: the body is not looked at -/
def queryResult (r : Reply) : Except CErr Unit :=
  match postResult r with
  | .error e => .error e
  | .ok _ => .ok ()

/-- a cell of `[][]string` (`null` leaves it empty) -/
def cellOk : Val → Bool
  | .str _ | .null => true
  | _ => false
def rowOk : Val → Bool
  | .arr vs => vs.all cellOk
  | .null => true
  | _ => false
def rowsOk : Val → Bool
  | .arr vs => vs.all rowOk
  | .null => true
  | _ => false

/-- `json.Unmarshal` into `RunSQLResponse` (`/repo/infra/hasura/run_sql_response.go`) succeeds.  Names
differing in case only are not modelled. -/
def runSqlOk : Val → Bool
  | .obj fs => ((Lib.mapGet kResult fs).map rowsOk).getD true && ((Lib.mapGet kResultType fs).map cellOk).getD true
  | .null => true
  | _ => false

/-- `/repo/infra/hasura/client.go:71-80` -/
def runSqlResult (r : Reply) : Except CErr Unit :=
  match postResult r with
  | .error e => .error e
  | .ok (.other _) => .error .decode
  | .ok (.json v) => if runSqlOk v then .ok () else .error .decode

/-! ## Model: the examiner -/

/-- the server: its answer to a request after other requests, and the time this takes -/
structure Server where
  reply : List Request → Request → Reply
  millis : List Request → Request → Int

/-- `/repo/database/hasura/hservice/index_examiner.go:27-49`: the request of each call -/
def requestOf (c : Client) (query : Str) (vars : Val) : Examine.Call → Request
  | .execute => mkRequest c graphqlPath (gqlBody query vars)
  | .create name it => mkRequest c queryPath (runSqlBody (Examine.postgresCreate name it))
  | .drop name it => mkRequest c queryPath (runSqlBody (Examine.postgresDrop name it))

/-- the requests of a history -/
def sent (c : Client) (query : Str) (vars : Val) (log : List Examine.Event) : List Request :=
  log.map fun e => requestOf c query vars e.call

/-- the answer to a call -/
def answer (S : Server) (code : CErr → Nat) (c : Client) (query : Str) (vars : Val) (log : List Examine.Event) :
    Examine.Call → Except Examine.Err Int
  | .execute =>
    match queryResult (S.reply (sent c query vars log) (requestOf c query vars .execute)) with
    | .error e => .error (.db (code e))
    | .ok _ => .ok (S.millis (sent c query vars log) (requestOf c query vars .execute))
  | call =>
    match runSqlResult (S.reply (sent c query vars log) (requestOf c query vars call)) with
    | .error e => .error (.db (code e))
    | .ok _ => .ok 0

/-- the database of an examination, seen through Hasura; `code` names the errors -/
def env (S : Server) (code : CErr → Nat) (rand : List Examine.Event → Fin 999999999) (c : Client) (query : Str)
    (vars : Val) : Examine.Env :=
  ⟨answer S code c query vars, rand⟩

/-! ## Specification -/

/-! Hasura's interface, as it is documented -/

@[irreducible] def apiGraphql : Str := "/v1/graphql".toList
@[irreducible] def apiExplain : Str := "/v1/graphql/explain".toList
@[irreducible] def apiSchema : Str := "/v2/query".toList
@[irreducible] def apiSecret : Str := "x-hasura-admin-secret".toList
@[irreducible] def apiQuery : Str := "query".toList
@[irreducible] def apiVariables : Str := "variables".toList
@[irreducible] def apiType : Str := "type".toList
@[irreducible] def apiRunSql : Str := "run_sql".toList
@[irreducible] def apiArgs : Str := "args".toList
@[irreducible] def apiSql : Str := "sql".toList
@[irreducible] def apiUser : Str := "user".toList
@[irreducible] def apiSource : Str := "source".toList
@[irreducible] def apiCascade : Str := "cascade".toList
@[irreducible] def apiCheck : Str := "check_metadata_consistency".toList
@[irreducible] def apiReadOnly : Str := "read_only".toList
@[irreducible] def apiErrors : Str := "errors".toList

theorem api_names : apiGraphql = graphqlPath ∧ apiExplain = explainPath ∧ apiSchema = queryPath ∧
    apiSecret = secretHeader ∧ apiQuery = kQuery ∧ apiVariables = kVariables ∧ apiType = kType ∧
    apiRunSql = runSqlName ∧ apiArgs = kArgs ∧ apiSql = kSql := by decide +kernel

theorem api_args : apiUser = kUser ∧ apiSource = kSource ∧ apiCascade = kCascade ∧ apiCheck = kCheck ∧
    apiReadOnly = kReadOnly := by decide +kernel

/-- one step into a JSON value -/
inductive Step where
  | key (k : Str)
  | idx (i : Nat)

/-- what stands at the end of a path -/
inductive Leaf where
  | null
  | bool (b : Bool)
  | num (t : Option Str)
  | str (s : Str)
  | arr (len : Nat)
  | obj (members : Nat)
deriving DecidableEq

def leaf : Val → Leaf
  | .null => .null
  | .bool b => .bool b
  | .num t => .num t
  | .str s => .str s
  | .arr vs => .arr vs.length
  | .obj fs => .obj fs.length

/-- follow a path -/
def look : List Step → Val → Option Leaf
  | [], v => some (leaf v)
  | .key k :: p, .obj fs => (Lib.mapGet k fs).bind (look p)
  | .idx i :: p, .arr vs => (vs[i]?).bind (look p)
  | _ :: _, _ => none

/-- the same JSON value, whatever the order of names -/
def Same (v w : Val) : Prop := ∀ p, look p v = look p w

mutual
/-- every number is an integer that a `float64` holds, written the usual way -/
def Ints : Val → Prop
  | .num t => ∃ n : Nat, n ≤ 2 ^ 53 ∧ (t = some (dec n) ∨ (0 < n ∧ t = some ('-' :: dec n)))
  | .arr vs => IntsL vs
  | .obj fs => IntsF fs
  | _ => True
def IntsL : List Val → Prop
  | [] => True
  | v :: vs => Ints v ∧ IntsL vs
def IntsF : List (Str × Val) → Prop
  | [] => True
  | (_, v) :: fs => Ints v ∧ IntsF fs
end

/-- `float64` holds the integers up to `2 ^ 53`, and writes them as integers -/
structure Num64.Ok {F : Type} (N : Num64 F) : Prop where
  pos : ∀ n : Nat, n ≤ 2 ^ 53 → ∃ x, N.parse (dec n) = some x ∧ N.fmt x = dec n
  neg : ∀ n : Nat, 0 < n → n ≤ 2 ^ 53 → ∃ x, N.parse ('-' :: dec n) = some x ∧ N.fmt x = '-' :: dec n
  /-- halfway between two neighbours the even one is taken -/
  tie : N.parse (dec (2 ^ 53 + 1)) = N.parse (dec (2 ^ 53))

/-- how a JSON reader reads a body -/
def Reads (body : Str) (v : Val) : Prop := readVal (body.length + 1) body = some (v, [])

/-- the query failed, as GraphQL says it: a member `errors` -/
def Failed : Reply → Prop
  | .http _ (.ok (.json (.obj fs))) => apiErrors ∈ fs.map (·.1)
  | _ => False

/-- the base address: elements of the path, none of them special -/
def PlainElem (e : Str) : Prop := e ≠ [] ∧ e ≠ ['.'] ∧ e ≠ ['.', '.'] ∧ '/' ∉ e


/-! ## Proofs: variables -/

theorem goMap_nodup (fs : List (Str × Val)) (h : (fs.map (·.1)).Nodup) : goMap fs = fs := by
  have key : ∀ (fs m : List (Str × Val)), ((m ++ fs).map (·.1)).Nodup →
      fs.foldl (fun m p => Lib.mapSet p.1 p.2 m) m = m ++ fs := by
    intro fs
    induction fs with
    | nil => intro m _; simp
    | cons a fs ih =>
      intro m hn
      have hs : Lib.mapSet a.1 a.2 m = m ++ [a] := by
        have hm : a.1 ∉ m.map (·.1) := by
          intro hm
          rw [List.map_append, List.nodup_append] at hn
          exact hn.2.2 _ hm _ (by simp) rfl
        clear hn ih
        induction m with
        | nil => rfl
        | cons b m ih =>
          simp only [List.map_cons, List.mem_cons, not_or] at hm
          rw [Lib.mapSet]
          simp [hm.1, ih hm.2]
      rw [List.foldl_cons, hs, ih _ (by simpa using hn)]
      simp
  simpa [goMap] using key fs [] (by simpa using h)

theorem mapGet_perm {l l' : List (Str × Val)} (h : l.Perm l') (hn : (l.map (·.1)).Nodup) (k : Str) :
    Lib.mapGet k l = Lib.mapGet k l' := by
  have hn' : (l'.map (·.1)).Nodup := (h.map _).nodup_iff.mp hn
  cases h1 : Lib.mapGet k l with
  | some v => exact (mapGet_of_mem k v l' hn' (h.mem_iff.mp (mem_of_mapGet k v l h1))).symm
  | none =>
    cases h2 : Lib.mapGet k l' with
    | none => rfl
    | some v =>
      rw [mapGet_of_mem k v l hn (h.mem_iff.mpr (mem_of_mapGet k v l' h2))] at h1
      cases h1

theorem sortKeys_perm (l : List (Str × Val)) : (sortKeys l).Perm l := List.perm_insertionSort _ _

/-- lists of the same values -/
def SameL : List Val → List Val → Prop
  | [], [] => True
  | v :: vs, w :: ws => Same v w ∧ SameL vs ws
  | _, _ => False
def SameF : List (Str × Val) → List (Str × Val) → Prop
  | [], [] => True
  | (k, v) :: vs, (l, w) :: ws => k = l ∧ Same v w ∧ SameF vs ws
  | _, _ => False

theorem SameL.length : ∀ {vs ws : List Val}, SameL vs ws → vs.length = ws.length
  | [], [], _ => rfl
  | _ :: _, _ :: _, h => by simp [SameL.length h.2]

theorem SameL.get : ∀ {vs ws : List Val}, SameL vs ws → ∀ (i : Nat) p, (vs[i]?).bind (look p) = (ws[i]?).bind (look p)
  | [], [], _, _, _ => rfl
  | v :: vs, w :: ws, h, 0, p => by simpa using h.1 p
  | _ :: _, _ :: _, h, i + 1, p => by simpa using SameL.get h.2 i p

theorem SameF.keys : ∀ {vs ws : List (Str × Val)}, SameF vs ws → vs.map (·.1) = ws.map (·.1)
  | [], [], _ => rfl
  | (k, _) :: _, (_, _) :: _, h => by simp [h.1, SameF.keys h.2.2]

theorem SameF.get : ∀ {vs ws : List (Str × Val)}, SameF vs ws → ∀ k p,
    (Lib.mapGet k vs).bind (look p) = (Lib.mapGet k ws).bind (look p)
  | [], [], _, _, _ => rfl
  | (a, v) :: vs, (b, w) :: ws, h, k, p => by
    obtain ⟨rfl, h1, h2⟩ := h
    by_cases hk : k = a
    · simpa [Lib.mapGet, hk] using h1 p
    · simpa [Lib.mapGet, hk] using SameF.get h2 k p

theorem same_arr {vs ws : List Val} (h : SameL vs ws) : Same (.arr vs) (.arr ws) := by
  intro p
  cases p with
  | nil => simp [look, leaf, h.length]
  | cons s p =>
    cases s with
    | key k => rfl
    | idx i => simpa [look] using h.get i p

theorem same_obj {vs ws ws' : List (Str × Val)} (h : SameF ws vs) (hp : ws'.Perm ws) (hn : (vs.map (·.1)).Nodup) :
    Same (.obj ws') (.obj vs) := by
  intro p
  have hl : ws'.length = vs.length := by
    rw [hp.length_eq]; simpa using congrArg List.length h.keys
  cases p with
  | nil => simp [look, leaf, hl]
  | cons s p =>
    cases s with
    | idx i => rfl
    | key k =>
      have := h.get k p
      rw [mapGet_perm hp.symm (by rw [h.keys]; exact hn)] at this
      simpa [look] using this

theorem numChar_dec (n : Nat) : dec n ≠ [] ∧ ∀ c ∈ dec n, isNumChar c = true := by
  refine ⟨dec_ne_nil n, fun c hc => ?_⟩
  have := dec_digits n c hc
  simp only [List.mem_cons, List.not_mem_nil, or_false] at this
  rcases this with rfl | rfl | rfl | rfl | rfl | rfl | rfl | rfl | rfl | rfl <;> decide

theorem soundF_perm : ∀ {l l' : List (Str × Val)}, l.Perm l' → SoundF l → SoundF l' := by
  intro l l' h
  induction h with
  | nil => exact id
  | cons a _ ih => obtain ⟨k, v⟩ := a; rw [SoundF, SoundF]; exact fun h => ⟨h.1, ih h.2⟩
  | swap a b l =>
    obtain ⟨k, v⟩ := a; obtain ⟨k', v'⟩ := b
    rw [SoundF, SoundF, SoundF, SoundF]
    exact fun h => ⟨h.2.1, h.1, h.2.2⟩
  | trans _ _ i1 i2 => exact fun h => i2 (i1 h)

theorem finiteF_perm : ∀ {l l' : List (Str × Val)}, l.Perm l' → finiteF l = finiteF l' := by
  intro l l' h
  induction h with
  | nil => rfl
  | cons a _ ih => obtain ⟨k, v⟩ := a; rw [finiteF, finiteF, ih]
  | swap a b l =>
    obtain ⟨k, v⟩ := a; obtain ⟨k', v'⟩ := b
    simp only [finiteF]
    cases finite v <;> cases finite v' <;> rfl
  | trans _ _ i1 i2 => rw [i1, i2]

mutual
theorem recode_ok {F : Type} (N : Num64 F) (hN : N.Ok) : ∀ v : Val, Sound v → Ints v →
    ∃ w, recode N v = some w ∧ Same w v ∧ Sound w ∧ finite w = true
  | .null, _, _ => ⟨.null, by rw [recode], fun _ => rfl, by simp [Sound], by simp [finite]⟩
  | .bool b, _, _ => ⟨.bool b, by rw [recode], fun _ => rfl, by simp [Sound], by simp [finite]⟩
  | .str s, _, _ => ⟨.str s, by rw [recode], fun _ => rfl, by simp [Sound], by simp [finite]⟩
  | .num t, hs, hi => by
    rw [Ints] at hi
    obtain ⟨n, hn, ht | ⟨h0, ht⟩⟩ := hi
    · obtain ⟨x, h1, h2⟩ := hN.pos n hn
      subst ht
      exact ⟨.num (some (dec n)), by rw [recode, h1, Option.map_some, h2], fun _ => rfl, hs, by rw [finite]; rfl⟩
    · obtain ⟨x, h1, h2⟩ := hN.neg n h0 hn
      subst ht
      exact ⟨.num (some ('-' :: dec n)), by rw [recode, h1, Option.map_some, h2], fun _ => rfl, hs, by rw [finite]; rfl⟩
  | .arr vs, hs, hi => by
    rw [Sound] at hs; rw [Ints] at hi
    obtain ⟨ws, h1, h2, h3, h4⟩ := recodeL_ok N hN vs hs hi
    exact ⟨.arr ws, by rw [recode, h1, Option.map_some], same_arr h2, by rw [Sound]; exact h3, by rw [finite]; exact h4⟩
  | .obj fs, hs, hi => by
    rw [Sound] at hs; rw [Ints] at hi
    obtain ⟨ws, h1, h2, h3, h4⟩ := recodeF_ok N hN fs hs.2.2 hi
    have hk := h2.keys
    have hp := sortKeys_perm ws
    refine ⟨.obj (sortKeys ws), ?_, same_obj h2 hp hs.1, ?_, ?_⟩
    · rw [recode, h1, Option.map_some, goMap_nodup ws (by rw [hk]; exact hs.1)]
    · rw [Sound]
      refine ⟨(hp.map _).nodup_iff.mpr (by rw [hk]; exact hs.1), ?_, soundF_perm hp.symm h3⟩
      rw [(hp.map (·.1)).mem_iff, hk]; exact hs.2.1
    · rw [finite, finiteF_perm hp]; exact h4
theorem recodeL_ok {F : Type} (N : Num64 F) (hN : N.Ok) : ∀ vs : List Val, SoundL vs → IntsL vs →
    ∃ ws, recodeL N vs = some ws ∧ SameL ws vs ∧ SoundL ws ∧ finiteL ws = true
  | [], _, _ => ⟨[], by rw [recodeL], by rw [SameL]; trivial, by rw [SoundL]; trivial, by rw [finiteL]⟩
  | v :: vs, hs, hi => by
    rw [SoundL] at hs; rw [IntsL] at hi
    obtain ⟨w, a1, a2, a3, a4⟩ := recode_ok N hN v hs.1 hi.1
    obtain ⟨ws, b1, b2, b3, b4⟩ := recodeL_ok N hN vs hs.2 hi.2
    exact ⟨w :: ws, by rw [recodeL, a1, b1], by rw [SameL]; exact ⟨a2, b2⟩, by rw [SoundL]; exact ⟨a3, b3⟩,
      by rw [finiteL, a4, b4]; rfl⟩
theorem recodeF_ok {F : Type} (N : Num64 F) (hN : N.Ok) : ∀ vs : List (Str × Val), SoundF vs → IntsF vs →
    ∃ ws, recodeF N vs = some ws ∧ SameF ws vs ∧ SoundF ws ∧ finiteF ws = true
  | [], _, _ => ⟨[], by rw [recodeF], by rw [SameF]; trivial, by rw [SoundF]; trivial, by rw [finiteF]⟩
  | (k, v) :: vs, hs, hi => by
    rw [SoundF] at hs; rw [IntsF] at hi
    obtain ⟨w, a1, a2, a3, a4⟩ := recode_ok N hN v hs.1 hi.1
    obtain ⟨ws, b1, b2, b3, b4⟩ := recodeF_ok N hN vs hs.2 hi.2
    exact ⟨(k, w) :: ws, by rw [recodeF, a1, b1], by rw [SameF]; exact ⟨rfl, a2, b2⟩, by rw [SoundF]; exact ⟨a3, b3⟩,
      by rw [finiteF, a4, b4]; rfl⟩
end

theorem parseVariables_ok {F : Type} (N : Num64 F) (hN : N.Ok) (vs : Val) (hs : Sound vs) (hi : Ints vs)
    (ho : vs = .null ∨ ∃ fs, vs = .obj fs) :
    ∃ w, parseVariables N vs = some w ∧ Same w vs ∧ Sound w ∧ finite w = true := by
  rcases ho with rfl | ⟨fs, rfl⟩
  · exact recode_ok N hN .null hs hi
  · exact recode_ok N hN (.obj fs) hs hi

/-! ## Proofs: bodies -/

theorem reads_enc (v : Val) (hs : Sound v) (hf : finite v = true) : Reads (enc v) v := by
  have := read_val v hs hf ((enc v).length + 1) [] (by omega) (by intro c hc; cases hc)
  rwa [List.append_nil] at this

theorem keys_distinct : [kQuery, kVariables, kUser, kArgs, kType, kSql, kSource, kCascade, kCheck, kReadOnly,
    protoKey].Nodup := by decide +kernel

/-! ## Proofs: addresses -/

theorem cleanElems_plain (r : Bool) : ∀ (es out : List Str), (∀ e ∈ es, e = [] ∨ PlainElem e) →
    cleanElems r es out = out.reverse ++ es.filter (· ≠ [])
  | [], out, _ => by simp [cleanElems]
  | e :: es, out, h => by
    have ih := fun o => cleanElems_plain r es o fun x hx => h x (List.mem_cons_of_mem _ hx)
    rcases h e List.mem_cons_self with rfl | hp
    · unfold cleanElems; rw [if_pos (.inl rfl), ih]; simp
    · unfold cleanElems; rw [if_neg (by rintro (h | h); exacts [hp.1 h, hp.2.1 h]), if_neg hp.2.2.1, ih]
      simp [hp.1]

theorem slashes_join (es : List Str) (h : es ≠ []) : '/' :: joinWith ['/'] es = es.flatMap fun e => '/' :: e := by
  induction es with
  | nil => exact absurd rfl h
  | cons e es ih =>
    cases es with
    | nil => simp [joinWith]
    | cons f es =>
      have := ih (by simp)
      simp only [List.flatMap_cons, joinWith] at this ⊢
      rw [← this]
      simp

/-- splitting a rooted path -/
theorem split_slashes (es : List Str) (h : ∀ e ∈ es, '/' ∉ e) (h0 : es ≠ []) :
    splitOn '/' (es.flatMap fun e => '/' :: e) = [] :: es := by
  rw [← slashes_join es h0, splitOn, if_pos rfl, splitOn_joinWith '/' es h0 h]

theorem clean_slashes (es : List Str) (h : ∀ e ∈ es, '/' ∉ e ∧ (e = [] ∨ PlainElem e)) (h0 : es.filter (· ≠ []) ≠ []) :
    clean (es.flatMap fun e => '/' :: e) = (es.filter (· ≠ [])).flatMap fun e => '/' :: e := by
  have hne : es ≠ [] := by rintro rfl; exact h0 rfl
  have hh : (es.flatMap fun e => '/' :: e).head? = some '/' := by
    cases es with
    | nil => exact absurd rfl hne
    | cons a as => simp
  rw [clean, if_pos hh, split_slashes es (fun e he => (h e he).1) hne, cleanElems_plain _ _ _ (by
    intro e he
    rcases List.mem_cons.mp he with rfl | he
    · exact .inl rfl
    · exact (h e he).2)]
  rw [← slashes_join _ h0]
  simp

theorem endpoint_elems : graphqlPath = [['v', '1'], "graphql".toList].flatMap (fun e => '/' :: e) ∧
    explainPath = [['v', '1'], "graphql".toList, "explain".toList].flatMap (fun e => '/' :: e) ∧
    queryPath = [['v', '2'], "query".toList].flatMap (fun e => '/' :: e) := by decide +kernel

/-- the elements of an endpoint -/
theorem endpoint (ep : Str) (h : ep ∈ [graphqlPath, explainPath, queryPath]) :
    ∃ es : List Str, es ≠ [] ∧ (∀ e ∈ es, PlainElem e) ∧ ep = es.flatMap fun e => '/' :: e := by
  simp only [List.mem_cons, List.not_mem_nil, or_false] at h
  rcases h with rfl | rfl | rfl
  · exact ⟨_, by simp, by unfold PlainElem; decide +kernel, endpoint_elems.1⟩
  · exact ⟨_, by simp, by unfold PlainElem; decide +kernel, endpoint_elems.2.1⟩
  · exact ⟨_, by simp, by unfold PlainElem; decide +kernel, endpoint_elems.2.2⟩

theorem filter_plain (es : List Str) (h : ∀ e ∈ es, PlainElem e) : es.filter (· ≠ []) = es := by
  rw [List.filter_eq_self]
  intro e he
  simpa using (h e he).1

/-! ## C90: the address -/

/-- C90: a request goes to the address in `HASURA_URL` followed by the endpoint, whether that address ends
with a slash or not. -/
theorem C90_address (scheme host : Str) (dirs : List Str) (slash : Bool) (ep : Str) (hd : ∀ e ∈ dirs, PlainElem e)
    (he : ep ∈ [apiGraphql, apiExplain, apiSchema]) :
    resolveURL ⟨scheme, host, (dirs.flatMap fun e => '/' :: e) ++ (if slash then ['/'] else []), []⟩ ep =
      scheme ++ [':', '/', '/'] ++ host ++ (dirs.flatMap fun e => '/' :: e) ++ ep := by
  rw [api_names.1, api_names.2.1, api_names.2.2.1] at he
  obtain ⟨es, hne, hp, rfl⟩ := endpoint ep he
  have hj : pathJoin ((dirs.flatMap fun e => '/' :: e) ++ (if slash then ['/'] else [])) (es.flatMap fun e => '/' :: e) =
      (dirs.flatMap fun e => '/' :: e) ++ (es.flatMap fun e => '/' :: e) := by
    have h0 : (dirs ++ es) ≠ [] := by simp [hne]
    have key : ∀ mid : List Str, (∀ e ∈ mid, e = []) →
        clean ((dirs ++ mid ++ es).flatMap fun e => '/' :: e) =
          (dirs.flatMap fun e => '/' :: e) ++ (es.flatMap fun e => '/' :: e) := by
      intro mid hm
      have hf : (dirs ++ mid ++ es).filter (· ≠ []) = dirs ++ es := by
        rw [List.filter_append, List.filter_append, filter_plain _ hd, filter_plain _ hp]
        have : mid.filter (· ≠ []) = [] := by
          rw [List.filter_eq_nil_iff]; intro e he; simp [hm e he]
        rw [this]; simp
      rw [clean_slashes _ _ (by rw [hf]; exact h0), hf, List.flatMap_append]
      intro e he
      simp only [List.mem_append] at he
      rcases he with (he | he) | he
      · exact ⟨(hd e he).2.2.2, .inr (hd e he)⟩
      · rw [hm e he]; exact ⟨by simp, .inl rfl⟩
      · exact ⟨(hp e he).2.2.2, .inr (hp e he)⟩
    unfold pathJoin
    cases slash with
    | false =>
      by_cases hde : dirs = []
      · subst hde
        have := key [] (by simp)
        simpa using this
      · rw [if_neg (by
          cases dirs with
          | nil => exact absurd rfl hde
          | cons a as => simp)]
        have := key [[]] (by simp)
        simpa [List.flatMap_append] using this
    | true =>
      rw [if_neg (by simp)]
      have := key [[], []] (by simp)
      simpa [List.flatMap_append] using this
  have hh : ((dirs.flatMap fun e => '/' :: e) ++ (es.flatMap fun e => '/' :: e)).head? = some '/' := by
    cases dirs with
    | cons a as => simp
    | nil =>
      cases es with
      | nil => exact absurd rfl hne
      | cons a as => simp
  unfold resolveURL Url.text
  simp only [hj, hh, ne_eq, not_true_eq_false, and_false, if_false, if_true, List.append_nil, List.append_assoc]

/-! ## C90: the requests -/

/-- the same statement and variables, read from the body of a request -/
def Carries (at_ : List Step) (body : Str) (query : Str) (vs : Val) : Prop :=
  ∃ b, Reads body b ∧ look (at_ ++ [.key apiQuery]) b = some (.str query) ∧
    ∀ p, look (at_ ++ .key apiVariables :: p) b = look p vs

/-- a request to run a statement as it is, with everything as usual but for `read_only` -/
def RunsSql (readOnly : Leaf) (body : Str) (sql : Str) : Prop :=
  ∃ b, Reads body b ∧ look [.key apiType] b = some (.str apiRunSql) ∧
    look [.key apiArgs, .key apiSql] b = some (.str sql) ∧ look [.key apiArgs, .key apiReadOnly] b = some readOnly ∧
    ∀ k ∈ [apiSource, apiCascade, apiCheck], look [.key apiArgs, .key k] b = some .null

/-- a request as no particular user -/
def AsNobody (body : Str) : Prop := ∃ b, Reads body b ∧ look [.key apiUser] b = some .null

theorem sound_gql (query : Str) (w : Val) (hs : Sound w) (hf : finite w = true) :
    Sound (gqlBody query w) ∧ finite (gqlBody query w) = true := by
  have hk := keys_distinct
  simp only [List.nodup_cons, List.mem_cons, not_or, List.not_mem_nil, or_false] at hk
  refine ⟨?_, by simp [gqlBody, finite, finiteF, hf]⟩
  simp only [gqlBody, Sound, SoundF, List.map_cons, List.map_nil, List.nodup_cons, List.mem_cons, List.not_mem_nil,
    or_false, not_or, List.nodup_nil, and_true, true_and]
  refine ⟨⟨?_, by simp⟩, ⟨?_, ?_⟩, hs⟩
  all_goals tauto

theorem sound_explain (query : Str) (w : Val) (hs : Sound w) (hf : finite w = true) :
    Sound (explainBody query w) ∧ finite (explainBody query w) = true := by
  have hk := keys_distinct
  simp only [List.nodup_cons, List.mem_cons, not_or, List.not_mem_nil, or_false] at hk
  refine ⟨?_, by simp [explainBody, finite, finiteF, hf]⟩
  simp only [explainBody, Sound, SoundF, List.map_cons, List.map_nil, List.nodup_cons, List.mem_cons, List.not_mem_nil,
    or_false, not_or, List.nodup_nil, and_true, true_and]
  refine ⟨⟨?_, by simp⟩, ⟨?_, ?_⟩, ⟨?_, by simp⟩, ⟨?_, ?_⟩, hs⟩
  all_goals tauto

theorem sound_runSql (sql : Str) (ro : Option Bool) : Sound (sqlBody sql ro) ∧ finite (sqlBody sql ro) = true := by
  have hk := keys_distinct
  simp only [List.nodup_cons, List.mem_cons, not_or, List.not_mem_nil, or_false] at hk
  refine ⟨?_, by cases ro <;> simp [sqlBody, finite, finiteF]⟩
  cases ro <;> simp only [sqlBody, Sound, SoundF, List.map_cons, List.map_nil, List.nodup_cons, List.mem_cons, List.not_mem_nil,
    or_false, not_or, List.nodup_nil, and_true, true_and, not_false_eq_true]
  all_goals tauto

theorem carries_gql (query : Str) (w vs : Val) (hs : Sound w) (hf : finite w = true) (h : Same w vs) :
    Carries [] (enc (gqlBody query w)) query vs := by
  unfold Carries
  obtain ⟨-, -, -, -, e1, e2, -⟩ := api_names
  rw [e1, e2]
  have hd : kVariables ≠ kQuery := by decide +kernel
  refine ⟨_, reads_enc _ (sound_gql query w hs hf).1 (sound_gql query w hs hf).2, ?_, fun p => ?_⟩
  · simp [gqlBody, look, Lib.mapGet, leaf]
  · simpa [gqlBody, look, Lib.mapGet, hd] using h p

theorem carries_explain (query : Str) (w vs : Val) (hs : Sound w) (hf : finite w = true) (h : Same w vs) :
    Carries [.key apiQuery] (enc (explainBody query w)) query vs := by
  unfold Carries
  obtain ⟨-, -, -, -, e1, e2, -⟩ := api_names
  rw [e1, e2]
  have hd : kVariables ≠ kQuery := by decide +kernel
  refine ⟨_, reads_enc _ (sound_explain query w hs hf).1 (sound_explain query w hs hf).2, ?_, fun p => ?_⟩
  · simp [explainBody, look, Lib.mapGet, leaf]
  · simpa [explainBody, look, Lib.mapGet, hd] using h p

theorem runs_sql (sql : Str) (ro : Option Bool) : RunsSql (match ro with
    | none => .null
    | some b => .bool b) (enc (sqlBody sql ro)) sql := by
  unfold RunsSql
  obtain ⟨-, -, -, -, -, -, e1, e2, e3, e4⟩ := api_names
  obtain ⟨-, f1, f2, f3, f4⟩ := api_args
  rw [e1, e2, e3, e4, f1, f2, f3, f4]
  have hd : kType ≠ kArgs := by decide +kernel
  have hk := keys_distinct
  simp only [List.nodup_cons, List.mem_cons, not_or, List.not_mem_nil, or_false] at hk
  have d1 : kReadOnly ≠ kSql ∧ kReadOnly ≠ kSource ∧ kReadOnly ≠ kCascade ∧ kReadOnly ≠ kCheck := by decide +kernel
  have d2 : kSource ≠ kSql ∧ kCascade ≠ kSql ∧ kCascade ≠ kSource ∧ kCheck ≠ kSql ∧ kCheck ≠ kSource ∧
    kCheck ≠ kCascade := by decide +kernel
  refine ⟨_, reads_enc _ (sound_runSql sql ro).1 (sound_runSql sql ro).2, ?_, ?_, ?_, ?_⟩
  · simp [sqlBody, look, Lib.mapGet, leaf, hd]
  · simp [sqlBody, look, Lib.mapGet, leaf]
  · cases ro <;> simp [sqlBody, look, Lib.mapGet, leaf, d1]
  · intro k hk
    simp only [List.mem_cons, List.not_mem_nil, or_false] at hk
    rcases hk with rfl | rfl | rfl <;> simp [sqlBody, look, Lib.mapGet, leaf, d2]

theorem as_nobody (query : Str) (w : Val) (hs : Sound w) (hf : finite w = true) :
    AsNobody (enc (explainBody query w)) := by
  unfold AsNobody
  rw [api_args.1]
  have hd : kUser ≠ kQuery := by decide +kernel
  refine ⟨_, reads_enc _ (sound_explain query w hs hf).1 (sound_explain query w hs hf).2, ?_⟩
  simp [explainBody, look, Lib.mapGet, leaf, hd]

/-- what a request of an examination should be: the statement of the call at its endpoint -/
def Asks (c : Client) (query : Str) (vs : Val) (r : Request) : Examine.Call → Prop
  | .execute => r.url = resolveURL c.base apiGraphql ∧ Carries [] r.body query vs
  | .create name it => r.url = resolveURL c.base apiSchema ∧ RunsSql .null r.body (Examine.postgresCreate name it)
  | .drop name it => r.url = resolveURL c.base apiSchema ∧ RunsSql .null r.body (Examine.postgresDrop name it)

/-- C90, requests: for variables whose numbers are integers up to 2^53, the plan that is shown and every
timed run are asked for with the query and the variables that were given, the statements go to `run_sql` as
they are, and each request carries the secret.
Missing: other numbers (`C90_variables_rounded`); names given twice and `__proto__`. -/
theorem C90_requests_partial {F : Type} (N : Num64 F) (hN : N.Ok) (c : Client) (query : Str) (vs : Val)
    (hs : Sound vs) (hi : Ints vs) (ho : vs = .null ∨ ∃ fs, vs = .obj fs) :
    ∃ w, parseVariables N vs = some w ∧
      ((explainRequest c query w).url = resolveURL c.base apiExplain ∧
        (apiSecret, c.secret) ∈ (explainRequest c query w).headers ∧
        Carries [.key apiQuery] (explainRequest c query w).body query vs ∧ AsNobody (explainRequest c query w).body) ∧
      ∀ call, Asks c query vs (requestOf c query w call) call ∧
        (apiSecret, c.secret) ∈ (requestOf c query w call).headers := by
  obtain ⟨w, h1, h2, h3, h4⟩ := parseVariables_ok N hN vs hs hi ho
  obtain ⟨e1, e2, e3, e4, -⟩ := api_names
  refine ⟨w, h1, ⟨by rw [e2]; rfl, by rw [e4]; exact List.mem_singleton.mpr rfl, carries_explain query w vs h3 h4 h2,
    as_nobody query w h3 h4⟩,
    fun call => ⟨?_, by rw [e4]; cases call <;> exact List.mem_singleton.mpr rfl⟩⟩
  cases call with
  | execute => exact ⟨by rw [e1]; rfl, carries_gql query w vs h3 h4 h2⟩
  | create name it => exact ⟨by rw [e3]; rfl, runs_sql _ none⟩
  | drop name it => exact ⟨by rw [e3]; rfl, runs_sql _ none⟩

/-- C90, lookups: a request marked as reading goes to the same address with the secret, and Hasura is told that the
statement only reads. -/
theorem C90_reading (c : Client) (sql : Str) :
    (sqlRequest c sql (some true)).url = resolveURL c.base apiSchema ∧
      (apiSecret, c.secret) ∈ (sqlRequest c sql (some true)).headers ∧
      RunsSql (.bool true) (sqlRequest c sql (some true)).body sql := by
  obtain ⟨-, -, e3, e4, -⟩ := api_names
  exact ⟨by rw [e3]; rfl, by rw [e4]; exact List.mem_singleton.mpr rfl, runs_sql _ (some true)⟩

/-- C90, the server: the address and the secret are those of `HASURA_URL` and `HASURA_ADMIN_SECRET`, both of which
must be there, and the address readable. -/
theorem C90_env {E : Type} (parse : Str → Except E Url) (getenv : Str → Str) :
    (∀ c, clientFromEnv parse getenv = .ok c ↔ getenv "HASURA_URL".toList ≠ [] ∧
      parse (getenv "HASURA_URL".toList) = .ok c.base ∧ getenv "HASURA_ADMIN_SECRET".toList ≠ [] ∧
      c.secret = getenv "HASURA_ADMIN_SECRET".toList) ∧
    ∀ e, clientFromEnv parse getenv = .error e →
      (∃ k, e = .inl k ∧ (k = "HASURA_URL".toList ∨ k = "HASURA_ADMIN_SECRET".toList) ∧ getenv k = []) ∨
      (∃ x, e = .inr x ∧ parse (getenv "HASURA_URL".toList) = .error x) := by
  unfold clientFromEnv
  generalize hu : "HASURA_URL".toList = u
  generalize ha : "HASURA_ADMIN_SECRET".toList = a
  by_cases h1 : getenv u = []
  · simp only [h1, if_true]
    exact ⟨fun c => by simp, fun e he => .inl ⟨u, (Except.error.inj he).symm, .inl rfl, h1⟩⟩
  · simp only [h1, if_false]
    cases hp : parse (getenv u) with
    | error x => exact ⟨fun c => by simp, fun e he => .inr ⟨x, (Except.error.inj he).symm, rfl⟩⟩
    | ok b =>
      by_cases h2 : getenv a = []
      · simp only [h2, if_true]
        exact ⟨fun c => by simp, fun e he => .inl ⟨a, (Except.error.inj he).symm, .inr rfl, h2⟩⟩
      · simp only [h2, if_false]
        refine ⟨fun c => ?_, fun e he => by cases he⟩
        constructor
        · intro h
          cases h
          exact ⟨h1, rfl, h2, rfl⟩
        · rintro ⟨-, hb, -, hs⟩
          obtain ⟨cb, cs⟩ := c
          cases hb
          simp only at hs
          rw [hs]

/-- variables with one number -/
def oneId (n : Nat) : Val := .obj [(['i', 'd'], .num (some (dec n)))]

/-- C90, negation: the ids 9007199254740993 and 9007199254740992 are different variables but give the very
same requests, so a plan is shown and times are taken for a row nobody asked for. -/
theorem C90_variables_rounded {F : Type} (N : Num64 F) (hN : N.Ok) (c : Client) (query : Str) :
    ¬ Same (oneId (2 ^ 53 + 1)) (oneId (2 ^ 53)) ∧
    ∃ w, parseVariables N (oneId (2 ^ 53 + 1)) = some w ∧ parseVariables N (oneId (2 ^ 53)) = some w ∧
      ¬ Carries [] (requestOf c query w .execute).body query (oneId (2 ^ 53 + 1)) := by
  have hdec : dec (2 ^ 53 + 1) ≠ dec (2 ^ 53) := by decide +kernel
  have hne : ¬ Same (oneId (2 ^ 53 + 1)) (oneId (2 ^ 53)) := by
    intro h
    have := h [.key ['i', 'd']]
    simp only [oneId, look, Lib.mapGet, if_true, Option.bind_some, leaf, Option.some.injEq, Leaf.num.injEq] at this
    exact hdec this
  refine ⟨hne, ?_⟩
  have hs : Sound (oneId (2 ^ 53)) := by
    simp only [oneId, Sound, SoundF, List.map_cons, List.map_nil, List.nodup_cons, List.not_mem_nil, not_false_eq_true,
      List.nodup_nil, and_true, true_and, List.mem_singleton]
    refine ⟨by decide +kernel, ?_⟩
    rintro x hx
    cases hx
    exact numChar_dec _
  have hi : Ints (oneId (2 ^ 53)) := by
    simp only [oneId, Ints, IntsF, and_true]
    exact ⟨2 ^ 53, Nat.le_refl _, .inl rfl⟩
  obtain ⟨w, h1, h2, h3, h4⟩ := parseVariables_ok N hN _ hs hi (.inr ⟨_, rfl⟩)
  have he : parseVariables N (oneId (2 ^ 53 + 1)) = parseVariables N (oneId (2 ^ 53)) := by
    unfold oneId parseVariables
    simp only [recode, recodeF, hN.tie]
  refine ⟨w, he.trans h1, h1, ?_⟩
  rintro ⟨b, hb, -, hv⟩
  obtain ⟨b', hb', -, hv'⟩ := carries_gql query w _ h3 h4 h2
  have : b = b' := by
    have := hb.symm.trans hb'
    simpa using this
  subst this
  exact hne fun p => (hv p).symm.trans (hv' p)

/-! ## C90: the answers -/

/-- a history in which each answer is that of the environment -/
def Answered (env : Examine.Env) (log : List Examine.Event) : Prop :=
  ∀ pre e post, log = pre ++ e :: post → e.resp = env.answer pre e.call

theorem answered_nil (env : Examine.Env) : Answered env [] := by
  intro pre e post h
  simp at h

theorem answered_perform (env : Examine.Env) (log : List Examine.Event) (c : Examine.Call) (h : Answered env log) :
    Answered env (env.perform log c).2 := by
  intro pre e post he
  simp only [Examine.Env.perform] at he
  rcases List.eq_nil_or_concat post with rfl | ⟨post', x, rfl⟩
  · have := List.append_inj' he (by simp)
    obtain ⟨rfl, h2⟩ := this
    cases h2; rfl
  · rw [List.concat_eq_append, ← List.cons_append, ← List.append_assoc] at he
    have := List.append_inj' he (by simp)
    exact h pre e post' this.1

theorem answered_examine (env : Examine.Env) (id : Str) (it : IndexTarget) (log : List Examine.Event)
    (h : Answered env log) : Answered env (Examine.examine env id it log).2 := by
  have h1 := answered_perform env log (.create (Examine.indexName id it (env.rand log)) it) h
  have h2 := answered_perform env _ .execute h1
  have h3 := answered_perform env _ (.drop (Examine.indexName id it (env.rand log)) it) h2
  unfold Examine.examine
  simp only
  split
  · rename_i e log1 he; rw [he] at h1; exact h1
  · rename_i v log1 he
    rw [he] at h2 h3
    simp only at h2 h3
    split <;> exact h3

theorem answered_examineAll (env : Examine.Env) (id : Str) (its : List IndexTarget) : ∀ (log : List Examine.Event),
    Answered env log → Answered env (Examine.examineAll env id its log).2 := by
  induction its with
  | nil => intro log h; exact h
  | cons it its ih =>
    intro log h
    have h1 := answered_examine env id it log h
    rw [Examine.examineAll]
    split
    · rename_i e log1 he; rw [he] at h1; exact h1
    · rename_i r log1 he
      rw [he] at h1
      have h2 := ih log1 h1
      split
      · rename_i e log2 he2; rw [he2] at h2; exact h2
      · rename_i rs log2 he2; rw [he2] at h2; exact h2

theorem answered_run (env : Examine.Env) (secs : Nat) (its : List IndexTarget) :
    Answered env (Examine.run env secs its).2 := by
  have h1 := answered_perform env [] .execute (answered_nil env)
  unfold Examine.run
  split
  · rename_i e log he; rw [he] at h1; exact h1
  · rename_i o log he
    rw [he] at h1
    have h2 := answered_examineAll env (dec secs) its log h1
    split
    · rename_i e log1 he2; rw [he2] at h2; exact h2
    · rename_i rs log1 he2; rw [he2] at h2; exact h2

theorem queryResult_ok (r : Reply) : queryResult r = .ok () ↔ ∃ b, r = .http 200 (.ok b) := by
  unfold queryResult postResult
  cases r with
  | noAnswer w => simp
  | http st b =>
    by_cases hs : st = 200
    · subst hs
      cases b <;> simp
    · simp [hs]

theorem runSqlResult_ok (r : Reply) : runSqlResult r = .ok () ↔ ∃ v, r = .http 200 (.ok (.json v)) ∧ runSqlOk v = true := by
  unfold runSqlResult postResult
  cases r with
  | noAnswer w => simp
  | http st b =>
    by_cases hs : st = 200
    · subst hs
      cases b with
      | error w => simp
      | ok b =>
        cases b with
        | other t => simp
        | json v =>
          cases hv : runSqlOk v <;> simp [hv]
    · simp [hs]

/-- rows of texts; `null` counts as nothing -/
def TextRows (v : Val) : Prop :=
  v = .null ∨ ∃ rows, v = .arr rows ∧ ∀ r ∈ rows, r = .null ∨ ∃ cs, r = .arr cs ∧ ∀ x ∈ cs, x = .null ∨ ∃ s, x = .str s

/-- the answer to a `run_sql`: its result, if there is one, consists of rows, its kind is a text -/
def SqlAnswer (v : Val) : Prop :=
  v = .null ∨ ∃ fs, v = .obj fs ∧ (∀ x, Lib.mapGet "result".toList fs = some x → TextRows x) ∧
    ∀ x, Lib.mapGet "result_type".toList fs = some x → x = .null ∨ ∃ s, x = .str s

theorem cellOk_iff (v : Val) : cellOk v = true ↔ v = .null ∨ ∃ s, v = .str s := by
  cases v <;> simp [cellOk]

theorem rowsOk_iff (v : Val) : rowsOk v = true ↔ TextRows v := by
  unfold TextRows
  have hr : ∀ r : Val, rowOk r = true ↔ r = .null ∨ ∃ cs, r = .arr cs ∧ ∀ x ∈ cs, x = .null ∨ ∃ s, x = .str s := by
    intro r
    cases r <;> simp [rowOk, cellOk_iff]
  cases v <;> simp [rowsOk, hr]

theorem runSqlOk_iff (v : Val) : runSqlOk v = true ↔ SqlAnswer v := by
  unfold SqlAnswer
  have e : "result".toList = kResult ∧ "result_type".toList = kResultType := by decide +kernel
  rw [e.1, e.2]
  cases v with
  | obj fs =>
    simp only [runSqlOk, Bool.and_eq_true, reduceCtorEq, false_or, Val.obj.injEq, exists_eq_left']
    refine and_congr ?_ ?_
    · cases Lib.mapGet kResult fs <;> simp [rowsOk_iff]
    · cases Lib.mapGet kResultType fs <;> simp [cellOk_iff]
  | _ => simp [runSqlOk]

/-- an answer that is taken for success -/
def Accepted (r : Reply) : Examine.Call → Prop
  | .execute => ∃ b, r = .http 200 (.ok b)
  | _ => ∃ v, r = .http 200 (.ok (.json v)) ∧ SqlAnswer v

theorem answer_ok_iff (S : Server) (code : CErr → Nat) (c : Client) (query : Str) (vs : Val) (log : List Examine.Event)
    (call : Examine.Call) : (∃ v, answer S code c query vs log call = .ok v) ↔
      Accepted (S.reply (sent c query vs log) (requestOf c query vs call)) call := by
  cases call with
  | execute =>
    rw [answer, Accepted, ← queryResult_ok]
    cases queryResult (S.reply (sent c query vs log) (requestOf c query vs .execute)) <;> simp
  | create n t =>
    simp only [Accepted, ← runSqlOk_iff]
    rw [answer, ← runSqlResult_ok]
    · cases runSqlResult (S.reply (sent c query vs log) (requestOf c query vs (.create n t))) <;> simp
    all_goals simp
  | drop n t =>
    simp only [Accepted, ← runSqlOk_iff]
    rw [answer, ← runSqlResult_ok]
    · cases runSqlResult (S.reply (sent c query vs log) (requestOf c query vs (.drop n t))) <;> simp
    all_goals simp

/-- C90, answers: an examination succeeds exactly when every request of it is answered with status 200 (and a
readable body; for the statements, the result of a `run_sql`). -/
theorem C90_success_iff (S : Server) (code : CErr → Nat) (rand) (c : Client) (query : Str) (vs : Val) (secs : Nat)
    (its : List IndexTarget) :
    (∃ r, (Examine.run (env S code rand c query vs) secs its).1 = .ok r) ↔
      ∀ pre e post, (Examine.run (env S code rand c query vs) secs its).2 = pre ++ e :: post →
        Accepted (S.reply (sent c query vs pre) (requestOf c query vs e.call)) e.call := by
  rw [Examine.C09_success_iff]
  have ha := answered_run (env S code rand c query vs) secs its
  constructor
  · intro h pre e post he
    obtain ⟨v, hv⟩ := h e (by rw [he]; simp)
    rw [ha pre e post he] at hv
    exact (answer_ok_iff S code c query vs pre e.call).mp ⟨v, hv⟩
  · intro h e he
    obtain ⟨pre, post, hp⟩ := List.append_of_mem he
    obtain ⟨v, hv⟩ := (answer_ok_iff S code c query vs pre e.call).mpr (h pre e post hp)
    exact ⟨v, (ha pre e post hp).trans hv⟩

/-- C90, answers: if the server says with the status that a query failed, then a successful examination timed
only queries that were answered without errors, and the time is that of the request.
Missing: Hasura's `/v1/graphql` says it in the body, with status 200 (`C90_failed_query_timed`). -/
theorem C90_timed_partial (S : Server) (code : CErr → Nat) (rand) (c : Client) (query : Str) (vs : Val) (secs : Nat)
    (its : List IndexTarget) (r : Examine.Result)
    (hst : ∀ h q b, S.reply h q = .http 200 b → ¬ Failed (S.reply h q))
    (hr : (Examine.run (env S code rand c query vs) secs its).1 = .ok r) :
    ∀ pre e post, (Examine.run (env S code rand c query vs) secs its).2 = pre ++ e :: post → e.call = .execute →
      ¬ Failed (S.reply (sent c query vs pre) (requestOf c query vs .execute)) ∧
      e.resp = .ok (S.millis (sent c query vs pre) (requestOf c query vs .execute)) := by
  intro pre e post he hc
  have h1 := (C90_success_iff S code rand c query vs secs its).mp ⟨r, hr⟩ pre e post he
  have h2 := answered_run (env S code rand c query vs) secs its pre e post he
  rw [hc] at h1 h2
  obtain ⟨b, hb⟩ := h1
  refine ⟨hst _ _ _ hb, ?_⟩
  rw [h2]
  show answer S code c query vs pre .execute = _
  rw [answer, (queryResult_ok _).mpr ⟨b, hb⟩]

/-- `{"errors": [...]}` -/
def errorsBody (message : Str) : Val := .obj [(apiErrors, .arr [.str message])]

/-- the answer to a statement without rows -/
def commandOk : Val := .obj [(kResultType, .str ['C', 'o', 'm', 'm', 'a', 'n', 'd', 'O', 'k']), (kResult, .null)]

/-- a server where each query fails, the way GraphQL does, and statements work -/
def failing (c : Client) (message : Str) (ms : Int) : Server where
  reply _ q := .http 200 (.ok (.json (if q.url = resolveURL c.base graphqlPath then errorsBody message else commandOk)))
  millis _ _ := ms

/-- C90, negation: when every query fails (say, because a field does not exist, or for want of a permission)
the examination of any indexes still succeeds, with a time for each. -/
theorem C90_failed_query_timed (message : Str) (ms : Int) (code : CErr → Nat) (rand) (c : Client) (query : Str)
    (vs : Val) (secs : Nat) (its : List IndexTarget) :
    (∀ h, Failed ((failing c message ms).reply h (requestOf c query vs .execute))) ∧
    (Examine.run (env (failing c message ms) code rand c query vs) secs its).1 =
      .ok ⟨ms, its.map fun it => ⟨it, ms⟩⟩ := by
  refine ⟨fun h => by simp [failing, Failed, errorsBody, requestOf, mkRequest], ?_⟩
  have hok : ∀ b : Prop, ∀ _ : Decidable b, runSqlOk (if b then errorsBody message else commandOk) = true := by
    intro b _
    have h1 : kResult ≠ apiErrors := by decide +kernel
    have h2 : kResultType ≠ apiErrors := by decide +kernel
    have h3 : kResult ≠ kResultType := by decide +kernel
    split
    · simp [runSqlOk, errorsBody, Lib.mapGet, h1, h2]
    · simp [runSqlOk, commandOk, Lib.mapGet, h3, cellOk, rowsOk]
  obtain ⟨r, hr⟩ := (C90_success_iff (failing c message ms) code rand c query vs secs its).mpr (by
    intro pre e post _
    cases e.call with
    | execute => exact ⟨_, rfl⟩
    | create n t => exact ⟨_, rfl, (runSqlOk_iff _).1 (hok _ _)⟩
    | drop n t => exact ⟨_, rfl, (runSqlOk_iff _).1 (hok _ _)⟩)
  have hf := Examine.C09_result_faithful _ secs its r hr
  have ha := answered_run (env (failing c message ms) code rand c query vs) secs its
  have ht : ∀ t ∈ Examine.Spec.times (Examine.run (env (failing c message ms) code rand c query vs) secs its).2, t = ms := by
    intro t ht
    unfold Examine.Spec.times at ht
    obtain ⟨e, he, hev⟩ := List.mem_filterMap.mp ht
    obtain ⟨pre, post, hp⟩ := List.append_of_mem he
    have h2 := ha pre e post hp
    obtain ⟨call, resp⟩ := e
    cases call with
    | execute =>
      simp only at h2
      have h3 : answer (failing c message ms) code c query vs pre .execute = .ok ms := by
        rw [answer, show queryResult ((failing c message ms).reply (sent c query vs pre) (requestOf c query vs .execute)) =
          .ok () from (queryResult_ok _).mpr ⟨_, rfl⟩]; rfl
      rw [show (env (failing c message ms) code rand c query vs).answer pre .execute = _ from h3] at h2
      subst h2
      simpa using hev.symm
    | create n t => simp at hev
    | drop n t => simp at hev
  rw [hf.2] at ht
  rw [hr]
  obtain ⟨o, rs⟩ := r
  have ho : o = ms := ht o (by simp)
  have hrs : rs = its.map fun it => ⟨it, ms⟩ := by
    rw [← hf.1, List.map_map]
    conv_lhs => rw [← List.map_id rs]
    apply List.map_congr_left
    intro x hx
    have := ht x.millis (by simp only [List.mem_cons, List.mem_map]; exact .inr ⟨x, hx, rfl⟩)
    obtain ⟨t, m⟩ := x
    simp only at this
    simp [this]
  rw [ho, hrs]

/-! ### Concrete cases -/

/-- numbers for the examples: texts, with the one tie -/
def exNum : Num64 Str where
  parse t := some (if t = dec (2 ^ 53 + 1) then dec (2 ^ 53) else t)
  fmt t := t

theorem digitChar_inj (a b : Nat) (h : digitChar a = digitChar b) : a % 10 = b % 10 := by
  have key : ∀ i j : Fin 10, digitChar i.val = digitChar j.val → i = j := by decide
  have e : ∀ n, digitChar n = digitChar (n % 10) := by intro n; simp [digitChar]
  rw [e a, e b] at h
  have := key ⟨a % 10, Nat.mod_lt _ (by decide)⟩ ⟨b % 10, Nat.mod_lt _ (by decide)⟩ h
  exact congrArg Fin.val this

theorem dec_inj (a : Nat) : ∀ b, dec a = dec b → a = b := by
  induction a using Nat.strongRecOn with
  | _ a ih =>
    intro b h
    by_cases ha : a < 10
    · by_cases hb : b < 10
      · rw [dec_lt ha, dec_lt hb] at h
        have := digitChar_inj a b (by simpa using h)
        omega
      · rw [dec_lt ha, dec_ge hb] at h
        have h1 := congrArg List.length h
        have h2 : (dec (b / 10)).length ≠ 0 := by simpa using dec_ne_nil (b / 10)
        simp only [List.length_append, List.length_cons, List.length_nil] at h1
        omega
    · by_cases hb : b < 10
      · rw [dec_ge ha, dec_lt hb] at h
        have h1 := congrArg List.length h
        have h2 : (dec (a / 10)).length ≠ 0 := by simpa using dec_ne_nil (a / 10)
        simp only [List.length_append, List.length_cons, List.length_nil] at h1
        omega
      · rw [dec_ge ha, dec_ge hb] at h
        have h1 := List.append_inj' h rfl
        have h2 := digitChar_inj a b (by simpa using h1.2)
        have h3 := ih (a / 10) (by omega) (b / 10) h1.1
        omega

theorem exNum_ok : exNum.Ok where
  pos n hn := by
    refine ⟨dec n, ?_, rfl⟩
    have : dec n ≠ dec (2 ^ 53 + 1) := by
      intro h
      have hd : n = 2 ^ 53 + 1 := dec_inj _ _ h
      omega
    simp [exNum, this]
  neg n _ hn := by
    refine ⟨'-' :: dec n, ?_, rfl⟩
    have : ¬ ('-' :: dec n = dec (2 ^ 53 + 1)) := by
      intro h
      have := dec_digits (2 ^ 53 + 1) '-' (by rw [← h]; exact List.mem_cons_self)
      revert this; decide
    simp [exNum, this]
  tie := by
    have h : dec (2 ^ 53) ≠ dec (2 ^ 53 + 1) := by decide +kernel
    simp [exNum, h]

/-- a client below a prefix -/
def exClient : Client := ⟨⟨"https".toList, "db.example".toList, "/api/".toList, []⟩, ['s']⟩

example : resolveURL exClient.base graphqlPath = "https://db.example/api/v1/graphql".toList := by decide +kernel

/-- `C90_address` on it -/
example : exClient.base.path = ([['a', 'p', 'i']].flatMap fun e => '/' :: e) ++ (if true then ['/'] else []) ∧
    ∀ e ∈ [['a', 'p', 'i']], PlainElem e := by
  unfold PlainElem; decide +kernel

/-- `{"user": {"id": -7, "tags": ["<a>", null]}, "all": true}` -/
def exVars : Val :=
  .obj [(['u'], .obj [(['i', 'd'], .num (some ('-' :: dec 7))), (['t'], .arr [.str ['<', 'a', '>'], .null])]),
        (['a'], .bool true)]

example : Sound exVars ∧ Ints exVars := by
  refine ⟨?_, ?_⟩
  · simp only [exVars, Sound, SoundF, SoundL, List.map_cons, List.map_nil]
    have hp : (['u'] ≠ protoKey ∧ ['a'] ≠ protoKey) ∧ ['i', 'd'] ≠ protoKey ∧ ['t'] ≠ protoKey := by decide +kernel
    have hn : ('-' :: dec 7) ≠ [] ∧ ∀ c ∈ '-' :: dec 7, isNumChar c = true := by decide +kernel
    simp only [List.mem_cons, List.not_mem_nil, or_false, not_or]
    refine ⟨by decide, ⟨Ne.symm hp.1.1, Ne.symm hp.1.2⟩, ⟨by decide, ⟨Ne.symm hp.2.1, Ne.symm hp.2.2⟩, ?_, ?_⟩, ?_⟩
    · rintro x hx; cases hx; exact hn
    · exact ⟨⟨trivial, trivial, trivial⟩, trivial⟩
    · exact ⟨trivial, trivial⟩
  · simp only [exVars, Ints, IntsF, IntsL]
    exact ⟨⟨⟨7, by decide, .inr ⟨by decide, rfl⟩⟩, ⟨trivial, trivial, trivial⟩, trivial⟩, trivial, trivial⟩

/-- a server that reports failures with the status, and an examination that succeeds there -/
def exServer : Server where
  reply _ _ := .http 200 (.ok (.json commandOk))
  millis h _ := 10 + h.length

example : (∀ h q b, exServer.reply h q = .http 200 b → ¬ Failed (exServer.reply h q)) ∧
    (Examine.run (env exServer (fun _ => 0) (fun _ => 7) exClient [] .null) 1600000000 [Examine.exTarget "a"]).1 =
      .ok ⟨10, [⟨Examine.exTarget "a", 12⟩]⟩ := by
  refine ⟨fun h q b _ => ?_, ?_⟩
  · have h1 : apiErrors ≠ kResultType ∧ apiErrors ≠ kResult := by decide +kernel
    simp [exServer, Failed, commandOk, h1.1, h1.2]
  · decide +kernel

end Verif.Infra.HClient
