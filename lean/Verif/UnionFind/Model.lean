import Verif.Common.OrdSet
/-!
Model of `include/ftk/basic/union_find.hh`, `simple_union_find.hh` and `duf.hh`.

`std::map<Id,Id>` is a partial function `α → Option α`; dereferencing the result of `find` for a
missing key is undefined behaviour and modelled by the outcome `none`.  `while` loops carry a fuel
argument; running out of fuel also gives `none`, so a theorem that the result is `some _` includes
termination.
-/
namespace Verif.UF
variable {α : Type}

/-- `map[k] = v` on a partial function. -/
def put [DecidableEq α] {β : Type} (P : α → Option β) (k : α) (v : β) : α → Option β :=
  fun x => if x = k then some v else P x

/-! ### union_find.hh -/

/-- `union_find` state: `eles`, `id2parent`, `sz` (union_find.hh:143-148). -/
structure UnionFind (α : Type) where
  eles : List α
  par  : α → Option α
  sz   : α → Nat

/-- `union_find::union_find()` (union_find.hh:27-29). -/
def UnionFind.init : UnionFind α := { eles := [], par := fun _ => none, sz := fun _ => 0 }

variable [LinearOrder α]

/-- `union_find::has` (union_find.hh:70-72). -/
def UnionFind.has (s : UnionFind α) (i : α) : Bool := decide (i ∈ s.eles)

/-- `union_find::add` (union_find.hh:33-42).  `map::insert` keeps an existing binding. -/
def UnionFind.add (s : UnionFind α) (i : α) : UnionFind α :=
  if s.has i then s
  else { eles := setInsert i s.eles
         par := match s.par i with
           | some _ => s.par
           | none => put s.par i i
         sz := fun x => if x = i then 1 else s.sz x }

/-- The `while` loop of `union_find::find` (union_find.hh:91-98).  `parent_i` is a *reference* to
the map slot of the argument `i0`, so reading it reads `P i0` and assigning it assigns `P[i0]`. -/
def findLoop {α : Type} [DecidableEq α] (i0 : α) : Nat → (α → Option α) → α → Option ((α → Option α) × α)
  | fuel, P, i =>
    match P i0 with                                  -- parent_i
    | none => none
    | some pi =>
      if i = pi then some (P, i)                     -- while (i != parent_i)
      else match fuel with
        | 0 => none
        | fuel + 1 =>
          match P pi, P i with
          | some g, some _ =>                        -- P[i] = P[parent_i]
            let P1 := put P i g
            match P1 i with
            | none => none
            | some i' =>                             -- i = P[i]
              match P1 i' with
              | none => none
              | some pi' => findLoop i0 fuel (put P1 i0 pi') i'   -- parent_i = P[i]
          | _, _ => none

/-- `union_find::find` (union_find.hh:86-101); state after path compression, and the root. -/
def UnionFind.find (s : UnionFind α) (i : α) : Option (UnionFind α × α) :=
  match findLoop i s.eles.length s.par i with
  | none => none
  | some (P, r) => some ({ s with par := P }, r)

/-- `union_find::unite` (union_find.hh:47-66), union by size. -/
def UnionFind.unite (s : UnionFind α) (i j : α) : Option (UnionFind α) :=
  match s.find i with
  | none => none
  | some (s1, ri) =>
    match s1.find j with
    | none => none
    | some (s2, rj) =>
      if s2.sz ri < s2.sz rj then
        match s2.par ri with
        | none => none
        | some _ => some { s2 with par := put s2.par ri rj
                                   sz := fun x => if x = rj then s2.sz rj + s2.sz ri else s2.sz x }
      else
        match s2.par rj with
        | none => none
        | some _ => some { s2 with par := put s2.par rj ri
                                   sz := fun x => if x = ri then s2.sz ri + s2.sz rj else s2.sz x }

/-- `union_find::same_set` (union_find.hh:111-117; C++ leaves the order of the two finds
unspecified, the model takes left to right). -/
def UnionFind.sameSet (s : UnionFind α) (i j : α) : Option (UnionFind α × Bool) :=
  match s.find i with
  | none => none
  | some (s1, ri) =>
    match s1.find j with
    | none => none
    | some (s2, rj) => some (s2, decide (ri = rj))

/-- `root2set[root].insert(x)` on a `std::map<Id, std::set<Id>>` kept in key order. -/
def mapAddTo (m : List (α × List α)) (r x : α) : List (α × List α) :=
  match m with
  | [] => [(r, [x])]
  | (k, v) :: m' =>
    if r < k then (r, [x]) :: (k, v) :: m'
    else if r = k then (k, setInsert x v) :: m'
    else (k, v) :: mapAddTo m' r x

/-- The loop of `union_find::get_sets` over `eles` (union_find.hh:122-127). -/
def getSetsLoop (s : UnionFind α) (m : List (α × List α)) :
    List α → Option (UnionFind α × List (α × List α))
  | [] => some (s, m)
  | x :: xs =>
    match s.find x with
    | none => none
    | some (s', r) => getSetsLoop s' (mapAddTo m r x) xs

/-- `union_find::get_sets` (union_find.hh:121-140). -/
def UnionFind.getSets (s : UnionFind α) : Option (UnionFind α × List (List α)) :=
  match getSetsLoop s [] s.eles with
  | none => none
  | some (s', m) => some (s', m.map Prod.snd)

/-- The API calls of `union_find`. -/
inductive Op (α : Type)
  | add (i : α) | unite (i j : α) | find (i : α) | sameSet (i j : α)

/-- One API call. -/
def UnionFind.step (s : UnionFind α) : Op α → Option (UnionFind α)
  | .add i => some (s.add i)
  | .unite i j => s.unite i j
  | .find i => (s.find i).map Prod.fst
  | .sameSet i j => (s.sameSet i j).map Prod.fst

/-- A history of API calls. -/
def UnionFind.run (s : UnionFind α) : List (Op α) → Option (UnionFind α)
  | [] => some s
  | o :: os => match s.step o with
    | none => none
    | some s' => s'.run os

/-! ### simple_union_find.hh -/

/-- The `while` loop of `simple_union_find::find` (simple_union_find.hh:52-58) and, with the same
shape, of `duf::find` (duf.hh:66-69): path halving on a partial parent function.  A read of a
missing key / out-of-range index is `none` (for the vector: undefined behaviour; `duf`'s
`operator[]` would insert a default, which its invariant excludes). -/
def halveLoop [DecidableEq β] : Nat → (β → Option β) → β → Option ((β → Option β) × β)
  | fuel, P, i =>
    match P i with
    | none => none
    | some p =>
      if i = p then some (P, i)
      else match fuel with
        | 0 => none
        | fuel + 1 =>
          match P p with
          | none => none
          | some g => halveLoop fuel (put P i g) g

/-- `simple_union_find` state: vectors `id2parent`, `sz` (simple_union_find.hh:65-66). -/
structure SimpleUF where
  id2parent : List Nat
  sz : List Nat

/-- constructor and `reset` (simple_union_find.hh:17-28). -/
def SimpleUF.init (n : Nat) : SimpleUF := { id2parent := List.range n, sz := List.replicate n 1 }

/-- `simple_union_find::find`'s loop (simple_union_find.hh:52-58) on the vector itself. -/
def sufLoop : Nat → List Nat → Nat → Option (List Nat × Nat)
  | fuel, P, i =>
    match P[i]? with
    | none => none
    | some p =>
      if i = p then some (P, i)
      else match fuel with
        | 0 => none
        | fuel + 1 =>
          match P[p]? with
          | none => none
          | some g => sufLoop fuel (P.set i g) g

/-- `simple_union_find::find`. -/
def SimpleUF.find (s : SimpleUF) (i : Nat) : Option (SimpleUF × Nat) :=
  match sufLoop s.id2parent.length s.id2parent i with
  | none => none
  | some (P, r) => some ({ s with id2parent := P }, r)

/-- `simple_union_find::unite` (simple_union_find.hh:33-46); always returns true. -/
def SimpleUF.unite (s : SimpleUF) (p q : Nat) : Option (SimpleUF × Bool) :=
  match s.find p with
  | none => none
  | some (s1, i) =>
    match s1.find q with
    | none => none
    | some (s2, j) =>
      match s2.sz[i]?, s2.sz[j]? with
      | some si, some sj =>
        if si < sj then
          some ({ id2parent := s2.id2parent.set i j, sz := s2.sz.set j (sj + si) }, true)
        else
          some ({ id2parent := s2.id2parent.set j i, sz := s2.sz.set i (si + sj) }, true)
      | _, _ => none

/-- `simple_union_find::same_set` (simple_union_find.hh:60-62). -/
def SimpleUF.sameSet (s : SimpleUF) (p q : Nat) : Option (SimpleUF × Bool) :=
  match s.find p with
  | none => none
  | some (s1, i) =>
    match s1.find q with
    | none => none
    | some (s2, j) => some (s2, decide (i = j))

/-- API calls of `simple_union_find`. -/
inductive SOp
  | unite (i j : Nat) | find (i : Nat) | sameSet (i j : Nat)

/-- One API call. -/
def SimpleUF.step (s : SimpleUF) : SOp → Option SimpleUF
  | .unite i j => (s.unite i j).map Prod.fst
  | .find i => (s.find i).map Prod.fst
  | .sameSet i j => (s.sameSet i j).map Prod.fst

/-- A history of API calls. -/
def SimpleUF.run (s : SimpleUF) : List SOp → Option SimpleUF
  | [] => some s
  | o :: os => match s.step o with
    | none => none
    | some s' => s'.run os

/-! ### duf.hh (local part; `sync` is a no-op in the code, its body is `#if 0`) -/

/-- `duf` state: the map `parents` (duf.hh:27), as key sequence and partial function. -/
structure Duf (α : Type) where
  keys : List α
  par  : α → Option α

/-- default constructor. -/
def Duf.init : Duf α := { keys := [], par := fun _ => none }

/-- `duf::find` (duf.hh:57-73). -/
def Duf.find (s : Duf α) (i : α) : Option (Duf α × α) :=
  match s.par i with
  | none => some ({ keys := setInsert i s.keys, par := put s.par i i }, i)
  | some _ =>
    match halveLoop s.keys.length s.par i with
    | none => none
    | some (P, r) => some ({ s with par := P }, r)

/-- the locked write of `duf::unite` (duf.hh:48-54) for `i ≠ j`, after `if (i > j) swap`. -/
def Duf.link (s : Duf α) (i j : α) : Duf α :=
  let lo := if i > j then j else i
  let hi := if i > j then i else j
  { keys := setInsert hi s.keys, par := put s.par hi lo }

/-- `duf::unite` (duf.hh:41-55), executed without interference. -/
def Duf.unite (s : Duf α) (i j : α) : Option (Duf α) :=
  match s.find i with
  | none => none
  | some (s1, ri) =>
    match s1.find j with
    | none => none
    | some (s2, rj) => if ri = rj then some s2 else some (s2.link ri rj)

/-- loop of `duf::get_roots` (duf.hh:84-93) over the keys; `kv.second` is re-read. -/
def dufRootsLoop (s : Duf α) (acc : List α) : List α → Option (Duf α × List α)
  | [] => some (s, acc)
  | k :: ks =>
    match s.par k with
    | none => none
    | some p =>
      match s.find p with
      | none => none
      | some (s', r) => dufRootsLoop s' (if k = r then setInsert k acc else acc) ks

/-- `duf::get_roots`. -/
def Duf.getRoots (s : Duf α) : Option (Duf α × List α) := dufRootsLoop s [] s.keys

/-- API calls of `duf`. -/
inductive DOp (α : Type)
  | unite (i j : α) | find (i : α)

/-- One API call. -/
def Duf.step (s : Duf α) : DOp α → Option (Duf α)
  | .unite i j => s.unite i j
  | .find i => (s.find i).map Prod.fst

/-- A sequential history. -/
def Duf.run (s : Duf α) : List (DOp α) → Option (Duf α)
  | [] => some s
  | o :: os => match s.step o with
    | none => none
    | some s' => s'.run os

/-! ### Concurrent `duf::unite` (duf.hh:41-73): the mutex makes each `find` and the final write
atomic, but nothing protects the sequence find / find / write. -/

/-- Program counter of one thread executing `unite(a,b)`. -/
inductive Pc (α : Type)
  | start (a b : α)            -- before `i = find(i)`
  | found1 (ri b : α)          -- before `j = find(j)`
  | found2 (ri rj : α)         -- before the locked write
  | done
deriving DecidableEq

/-- Shared `duf` plus the threads' program counters. -/
structure Conc (α : Type) where
  duf : Duf α
  pcs : List (Pc α)

/-- Thread `t` performs its next atomic step. -/
def Conc.step (c : Conc α) (t : Nat) : Option (Conc α) :=
  match c.pcs[t]? with
  | none => some c
  | some .done => some c
  | some (.start a b) =>
    match c.duf.find a with
    | none => none
    | some (d, ri) => some { duf := d, pcs := c.pcs.set t (.found1 ri b) }
  | some (.found1 ri b) =>
    match c.duf.find b with
    | none => none
    | some (d, rj) => some { duf := d, pcs := c.pcs.set t (.found2 ri rj) }
  | some (.found2 ri rj) =>
    some { duf := if ri = rj then c.duf else c.duf.link ri rj, pcs := c.pcs.set t .done }

/-- A schedule: which thread moves next. -/
def Conc.run (c : Conc α) : List Nat → Option (Conc α)
  | [] => some c
  | t :: ts => match c.step t with
    | none => none
    | some c' => c'.run ts

/-- Threads about to call `unite` on the given pairs. -/
def Conc.init (us : List (α × α)) : Conc α :=
  { duf := Duf.init, pcs := us.map (fun p => .start p.1 p.2) }

end Verif.UF
