import Mathlib.Algebra.Order.Field.Basic
import Mathlib.Data.List.Basic
/-! Model of `features/feature_point.hh`, `features/feature_curve.hh`, `features/feature_curve_set.hh` and
`filters/feature_curve_set_post_processor.hh`.

Coordinates, times and scalars live in a linear order `R` (a linearly ordered field where arithmetic is
used): no rounding, no NaN.  `nv` is `FTK_CP_MAX_NUM_VARS`.  Calling `front()`/`back()` on an empty curve
and `at()` out of range are the outcome `none`. -/
namespace Verif.Curve

/-- `feature_point_t` (feature_point.hh:111-122). -/
structure Point (R : Type) (nv : Nat) where
  x : Fin 3 → R
  t : R
  timestep : Int
  scalar : Fin nv → R
  v : Fin 3 → R
  type : Nat
  ordinal : Bool
  tag : Nat
  id : Int

/-- the statistics members of `feature_curve_t` (feature_curve.hh:49-53). -/
structure Stats (R : Type) (nv : Nat) where
  max : Fin nv → R
  min : Fin nv → R
  persistence : Fin nv → R
  bbmin : Fin 3 → R
  bbmax : Fin 3 → R
  tmin : R
  tmax : R
  vmmin : R
  vmmax : R
  consistent : Nat

/-- `feature_curve_t` (feature_curve.hh:8, 46-54): the points and the members.  Members that C++ leaves
uninitialised in a fresh curve are whatever the caller supplies. -/
structure Curve (R : Type) (nv : Nat) where
  pts : List (Point R nv)
  id : Int
  complete : Bool
  loop : Bool
  stats : Stats R nv

variable {R : Type} {nv : Nat}

/-- `relabel` (feature_curve.hh:95-100). -/
def relabel (c : Curve R nv) (i : Int) : Curve R nv :=
  { c with id := i, pts := c.pts.map (fun p => { p with id := i }) }

/-- `select` (feature_curve.hh:102-109) and `to_ordinals` (feature_curve.hh:234-241): indices of the points
satisfying `f`. -/
def selectFrom (f : Point R nv → Bool) : Nat → List (Point R nv) → List Nat
  | _, [] => []
  | i, p :: ps => if f p then i :: selectFrom f (i + 1) ps else selectFrom f (i + 1) ps

/-- `select` -/
def select (f : Point R nv → Bool) (c : Curve R nv) : List Nat := selectFrom f 0 c.pts
/-- `to_ordinals` -/
def toOrdinals (c : Curve R nv) : List Nat := selectFrom (fun p => p.ordinal) 0 c.pts

section order
variable [LinearOrder R]

/-- one round of the loop of `update_statistics` (feature_curve.hh:154-169). -/
def statStep (vmag : (Fin 3 → R) → R) (s : Stats R nv) (p : Point R nv) : Stats R nv :=
  { s with max := fun k => Max.max (s.max k) (p.scalar k)
           min := fun k => Min.min (s.min k) (p.scalar k)
           bbmax := fun k => Max.max (s.bbmax k) (p.x k)
           bbmin := fun k => Min.min (s.bbmin k) (p.x k)
           tmax := Max.max s.tmax p.t
           tmin := Min.min s.tmin p.t
           vmmax := Max.max s.vmmax (vmag p.v)
           vmmin := Min.min s.vmmin (vmag p.v) }

/-- the `consistent_type` loop (feature_curve.hh:174-179): `consistent_type` starts as `at(0).type`. -/
def consistentType : List (Point R nv) → Nat
  | [] => 0
  | p :: ps => if (p :: ps).all (fun q => decide (p.type = q.type)) then p.type else 0

/-- the limits and the velocity magnitude used by `update_statistics`: `lo` and `hi` are
`numeric_limits<double>::lowest()` and `max()`, `vmag` is `feature_point_t::vmag`. -/
structure Env (R : Type) where
  lo : R
  hi : R
  vmag : (Fin 3 → R) → R

/-- `update_statistics` (feature_curve.hh:142-180). -/
def updateStats [Sub R] (e : Env R) (c : Curve R nv) : Curve R nv :=
  if c.pts.isEmpty then c
  else
    let s0 : Stats R nv := { c.stats with max := fun _ => e.lo, min := fun _ => e.hi, bbmax := fun _ => e.lo
                                          bbmin := fun _ => e.hi, tmax := e.lo, tmin := e.hi, vmmax := e.lo, vmmin := e.hi }
    let s := c.pts.foldl (statStep e.vmag) s0
    { c with stats := { s with persistence := fun k => s.max k - s.min k, consistent := consistentType c.pts } }

/-- `discard` (feature_curve.hh:111-122); `fresh` is the uninitialised statistics of the local curve. -/
def discard [Sub R] (e : Env R) (fresh : Stats R nv) (f : Point R nv → Bool) (c : Curve R nv) : Curve R nv :=
  updateStats e { c with pts := c.pts.filter (fun p => !f p), stats := fresh }

/-- `discard_interval_points` (feature_curve.hh:124-126). -/
def discardInterval [Sub R] (e : Env R) (fresh : Stats R nv) (c : Curve R nv) : Curve R nv :=
  discard e fresh (fun p => !p.ordinal) c

/-- `discard_degenerate_points` (feature_curve.hh:128-132). -/
def discardDegenerate [Sub R] (e : Env R) (fresh : Stats R nv) (c : Curve R nv) : Curve R nv :=
  discard e fresh (fun p => decide (p.type = 0) || decide (p.type = 1)) c

/-- the loop of `split` (feature_curve.hh:216-229): `sub` is `subtraj`, `cur` is `current_type`. -/
def splitLoop : List (Point R nv) → Nat → List (Point R nv) → List (List (Point R nv))
  | sub, cur, p :: ps =>
    let cur := if sub.isEmpty then p.type else cur
    let sub := if p.type = cur then sub ++ [p] else sub
    if p.type ≠ cur ∨ ps = [] then
      if sub.length > 0 then sub :: splitLoop [] cur ps else splitLoop sub cur ps
    else splitLoop sub cur ps
  | _, _, [] => []

/-- `split` (feature_curve.hh:210-232): the points of the pieces. -/
def splitPts (c : Curve R nv) : List (List (Point R nv)) := splitLoop [] 0 c.pts

/-- the curves returned by `split`; `fresh` gives the members C++ leaves uninitialised. -/
def split [Sub R] (e : Env R) (fresh : Curve R nv) (c : Curve R nv) : List (Curve R nv) :=
  (splitPts c).map (fun ps => updateStats e { fresh with pts := ps, loop := false, complete := false })

/-- `rotate` (feature_curve.hh:243-254). -/
def rotate (c : Curve R nv) : Option (Curve R nv) :=
  if c.loop = false then some c
  else match c.pts.head?, c.pts.getLast? with
    | some f, some b =>
      if f.type ≠ b.type then some c
      else
        let i := (c.pts.takeWhile (fun p => decide (f.type = p.type))).length
        if i < c.pts.length then some { c with pts := c.pts.drop i ++ c.pts.take i } else some c
    | _, _ => none

/-- the flag `reverse` of `reorder` (feature_curve.hh:259-265). -/
def needsReverse (f b : Point R nv) : Bool :=
  if f.timestep = b.timestep then decide (f.t > b.t) else decide (f.timestep > b.timestep)

/-- `reorder` (feature_curve.hh:256-268). -/
def reorder (c : Curve R nv) : Curve R nv :=
  if c.loop then c
  else match c.pts.head?, c.pts.getLast? with
    | some f, some b =>
      if needsReverse f b then { c with pts := c.pts.reverse } else c
    | _, _ => c

/-- ascending loop of `adjust_time` (feature_curve.hh:272-275); `prev` is `at(i-1).t` after its update. -/
def ascend : Option R → List (Point R nv) → List (Point R nv)
  | _, [] => []
  | none, p :: ps => p :: ascend (some p.t) ps
  | some q, p :: ps =>
    if p.ordinal then p :: ascend (some p.t) ps
    else { p with t := Max.max q p.t } :: ascend (some (Max.max q p.t)) ps

/-- descending loop of `adjust_time` (feature_curve.hh:277-280). -/
def descend : List (Point R nv) → List (Point R nv)
  | [] => []
  | p :: ps =>
    match descend ps with
    | [] => [p]
    | q :: qs => (if p.ordinal then p else { p with t := Min.min q.t p.t }) :: q :: qs

/-- `adjust_time` (feature_curve.hh:270-281). -/
def adjustTime (c : Curve R nv) : Curve R nv := { c with pts := descend (ascend none c.pts) }

/-- `intercept(t0, t1)` (feature_curve.hh:344-361); `cast` is the conversion of `int` to `double`. -/
def intercept [Sub R] (e : Env R) (fresh : Curve R nv) (cast : Int → R) (c : Curve R nv) (t0 t1 : Int) : Option (Curve R nv) :=
  match c.pts.head?, c.pts.getLast? with
  | some f, some b =>
    let empty : Curve R nv := { fresh with pts := [], loop := false, complete := false }
    if cast t0 > b.t ∨ cast t1 < f.t then some empty
    else
      let pts := c.pts.filter (fun p => decide (p.t ≥ cast t0) && decide (p.t ≤ cast t1))
      if pts.length > 0 then some (updateStats e (relabel { empty with pts := pts } c.id)) else some empty
  | _, _ => none

end order

/-! ### types -/

/-- `at(k).type = ty` -/
def setType (ps : List (Point R nv)) (k : Nat) (ty : Nat) : List (Point R nv) :=
  ps.modify k (fun p => { p with type := ty })

/-- `at(k).type` -/
def typeAt (ps : List (Point R nv)) (k : Nat) : Nat := match ps[k]? with
  | some p => p.type
  | none => 0

/-- the window test of `smooth_ordinal_types` (feature_curve.hh:291-298) for ordinal number `i`. -/
def windowType (ps : List (Point R nv)) (ord : List Nat) (h i : Nat) : Nat :=
  let c := typeAt ps (ord.getD (i - h) 0)
  if ((List.range (2 * h + 1)).map (fun k => i - h + k)).all
      (fun j => decide (j = i) || decide (c = typeAt ps (ord.getD j 0))) then c else 0

/-- `pending_changes` (feature_curve.hh:288-302). -/
def pending (ps : List (Point R nv)) (ord : List Nat) (h : Nat) : List (Nat × Nat) :=
  (((List.range (ord.length - 2 * h)).map (fun k => h + k)).filter (fun i =>
    decide (windowType ps ord h i ≠ 0) && decide (typeAt ps (ord.getD i 0) ≠ windowType ps ord h i))).map
      (fun i => (ord.getD i 0, windowType ps ord h i))

/-- `smooth_ordinal_types(half_window_size)` (feature_curve.hh:283-306). -/
def smoothOrdinal (h : Nat) (c : Curve R nv) : Curve R nv :=
  if (toOrdinals c).length < h * 2 + 1 then c
  else { c with pts := (pending c.pts (toOrdinals c) h).foldl (fun ps kv => setType ps kv.1 kv.2) c.pts }

/-- `for (j = a; j < b; j ++) at(j).type = ty` -/
def fillType (ps : List (Point R nv)) (a b ty : Nat) : List (Point R nv) :=
  ((List.range (b - a)).map (fun k => a + k)).foldl (fun ps j => setType ps j ty) ps

/-- `for (j = a; j < b; j ++) if (at(j).type != ty) break;` : the final `j`. -/
def firstDiff (ps : List (Point R nv)) (ty : Nat) : Nat → Nat → Nat
  | a, 0 => a
  | a, n + 1 => if typeAt ps a ≠ ty then a else firstDiff ps ty (a + 1) n

/-- the loop over consecutive ordinals (feature_curve.hh:324-340). -/
def smoothPairs : List Nat → List (Point R nv) → List (Point R nv)
  | a :: b :: os, ps =>
    let lt := typeAt ps a
    let rt := typeAt ps b
    smoothPairs (b :: os) (if lt = rt then fillType ps a b lt
      else fillType ps (firstDiff ps lt a (b - a)) b rt)
  | _, ps => ps

/-- `smooth_interval_types` (feature_curve.hh:308-341). -/
def smoothInterval (c : Curve R nv) : Curve R nv :=
  match (toOrdinals c).head?, (toOrdinals c).getLast? with
  | some o0, some o1 =>
    let ps := fillType c.pts 0 o0 (typeAt c.pts o0)
    let ps := fillType ps o1 ps.length (typeAt ps o1)
    { c with pts := smoothPairs (toOrdinals c) ps }
  | _, _ => c

/-! ### arithmetic on coordinates -/

section field
variable [Field R] [LinearOrder R]

/-- the velocity of point `i` (feature_curve.hh:394-400). -/
def velAt (ps : List (Point R nv)) (n i : Nat) (p : Point R nv) : Fin 3 → R :=
  fun k =>
    let xs := fun j => match ps[j]? with
      | some q => q.x k
      | none => 0
    if i = 0 then xs (i + 1) - p.x k
    else if i = n - 1 then p.x k - xs (i - 1)
    else (1 / 2) * (xs (i + 1) - xs (i - 1))

/-- `derive_velocity` (feature_curve.hh:387-424). -/
def deriveVelocity (c : Curve R nv) : Curve R nv :=
  if c.pts.length < 2 then c
  else { c with pts := c.pts.mapIdx (fun i p => { p with v := velAt c.pts c.pts.length i p }) }

/-- add `d` to coordinate `k` -/
def shiftX (k : Fin 3) (d : R) (p : Point R nv) : Point R nv :=
  { p with x := fun j => if j = k then p.x j + d else p.x j }

/-- the loop of `unwrap` (feature_curve.hh:366-375) from the pair `at(i), at(i+1)` on. -/
def unwrapLoop (k : Fin 3) (period : R) : Nat → List (Point R nv) → List (Point R nv)
  | n + 1, p :: q :: ps =>
    let delta := q.x k - p.x k
    let rest := if delta ≥ period / 2 then (q :: ps).map (shiftX k (-period))
      else if delta ≤ -period / 2 then (q :: ps).map (shiftX k period)
      else q :: ps
    p :: unwrapLoop k period n rest
  | _, ps => ps

/-- `unwrap<k>(period)` (feature_curve.hh:363-385); on an empty curve `size()-1` wraps and `at` throws. -/
def unwrap (e : Env R) (k : Fin 3) (period : R) (c : Curve R nv) : Option (Curve R nv) :=
  if c.pts.isEmpty then none
  else
    let pts := unwrapLoop k period c.pts.length c.pts
    some { c with pts := pts
                  stats := { c.stats with bbmax := fun j => if j = k then pts.foldl (fun a p => Max.max a (p.x k)) e.lo else c.stats.bbmax j
                                          bbmin := fun j => if j = k then pts.foldl (fun a p => Min.min a (p.x k)) e.hi else c.stats.bbmin j } }

/-- `|a|` -/
def absR (a : R) : R := if a < 0 then -a else a

/-- the loop of `split_geo` (feature_curve.hh:191-207); `ps` starts with `at(i)`. -/
def geoLoop : List (Point R nv) → List (Point R nv) → List (List (Point R nv))
  | sub, p :: q :: ps =>
    if absR (q.x 0 - p.x 0) > 180 then (sub ++ [p]) :: geoLoop [] (q :: ps)
    else geoLoop (sub ++ [p]) (q :: ps)
  | sub, [p] => [sub ++ [p]]
  | _, [] => []

/-- `split_geo` (feature_curve.hh:184-208): the points of the pieces. -/
def splitGeo (c : Curve R nv) : List (List (Point R nv)) := geoLoop [] c.pts

end field

/-! ### feature_curve_set.hh: `std::multimap<int, feature_curve_t>` as the list of its entries in order -/

/-- `multimap::insert`: after all entries with an equal key -/
def mmInsert {V : Type} (k : Int) (v : V) : List (Int × V) → List (Int × V)
  | [] => [(k, v)]
  | (k', v') :: m => if k < k' then (k, v) :: (k', v') :: m else (k', v') :: mmInsert k v m

/-- the set -/
abbrev CurveSet (R : Type) (nv : Nat) := List (Int × Curve R nv)

/-- `get_new_id` (feature_curve_set.hh:69-72). -/
def getNewId {V : Type} (s : List (Int × V)) : Int := match s.getLast? with
  | none => 0
  | some kv => kv.1 + 1

/-- `add(curve, label)` (feature_curve_set.hh:471-476). -/
def addLabel (s : CurveSet R nv) (c : Curve R nv) (l : Int) : CurveSet R nv := mmInsert l (relabel c l) s

/-- `add(curve)` (feature_curve_set.hh:462-469): new set and returned id. -/
def add (s : CurveSet R nv) (c : Curve R nv) : CurveSet R nv × Int :=
  (mmInsert (getNewId s) (relabel c (getNewId s)) s, getNewId s)

/-- `add(std::vector)` (feature_curve_set.hh:478-484). -/
def addAll : List (Curve R nv) → CurveSet R nv → CurveSet R nv × List Int
  | [], s => (s, [])
  | c :: cs, s =>
    let r := add s c
    let r' := addAll cs r.1
    (r'.1, r.2 :: r'.2)

/-- `to_list` (feature_curve_set.hh:120-126). -/
def toList (s : CurveSet R nv) : List (Curve R nv) := s.map Prod.snd

/-- `from_list` (feature_curve_set.hh:128-132): inserted without relabelling. -/
def fromList (cs : List (Curve R nv)) (s : CurveSet R nv) : CurveSet R nv :=
  cs.foldl (fun s c => mmInsert (getNewId s) c s) s

/-- `filter` (feature_curve_set.hh:451-460). -/
def filterSet (f : Curve R nv → Bool) (s : CurveSet R nv) : CurveSet R nv := s.filter (fun kv => f kv.2)

section order
variable [LinearOrder R] [Sub R]

/-- `for (traj : result) add(traj, traj[0].id)` (feature_curve_set.hh:535-536); a piece without points
would read `traj[0]` out of range. -/
def addPieces : List (Curve R nv) → CurveSet R nv → Option (CurveSet R nv)
  | [], s => some s
  | c :: cs, s => match c.pts with
    | [] => none
    | p :: _ => addPieces cs (addLabel s c p.id)

/-- `split_all` (feature_curve_set.hh:519-537). -/
def splitAll (e : Env R) (fresh : Curve R nv) (s : CurveSet R nv) : Option (CurveSet R nv) :=
  let pieces := (s.filter (fun kv => decide (kv.2.stats.consistent = 0))).flatMap (fun kv => split e fresh kv.2)
  let kept := s.filter (fun kv => decide (kv.2.stats.consistent ≠ 0))
  addPieces pieces kept

/-- `intercept` (feature_curve_set.hh:539-549). -/
def interceptSet (e : Env R) (fresh : Curve R nv) (cast : Int → R) (t0 t1 : Int) : CurveSet R nv → CurveSet R nv → Option (CurveSet R nv)
  | [], acc => some acc
  | (k, c) :: s, acc =>
    match intercept e fresh cast c t0 t1 with
    | none => none
    | some c' => interceptSet e fresh cast t0 t1 s (if c'.pts.isEmpty then acc else mmInsert k c' acc)

end order

/-! ### feature_curve_set_post_processor.hh -/

/-- the recognised operations (feature_curve_set_post_processor.hh:24-68); the parsing of the comma
separated string is `Verif.Str.parseOps`. -/
inductive PPOp
  | smoothTypes | rotate | durationPruning | split | discardInterval | reorder | adjustTime | deriveVelocity | unknown

section field
variable [Field R] [LinearOrder R]

/-- `foreach` with a partial body -/
def mapCurves (f : Curve R nv → Option (Curve R nv)) : CurveSet R nv → Option (CurveSet R nv)
  | [] => some []
  | (k, c) :: s => match f c, mapCurves f s with
    | some c', some s' => some ((k, c') :: s')
    | _, _ => none

/-- one operation; `unknown` is `fatal`, which does not return. -/
def ppStep (e : Env R) (fresh : Curve R nv) (s : CurveSet R nv) : PPOp → Option (CurveSet R nv)
  | .smoothTypes => mapCurves (fun c => some (updateStats e (smoothInterval (smoothOrdinal 2 c)))) s
  | .rotate => mapCurves (fun c => (rotate c).map (updateStats e)) s
  | .durationPruning => some s
  | .split => splitAll e fresh s
  | .discardInterval => mapCurves (fun c => some (updateStats e (discardInterval e fresh.stats c))) s
  | .reorder => mapCurves (fun c => some (updateStats e (reorder c))) s
  | .adjustTime => mapCurves (fun c => some (updateStats e (adjustTime c))) s
  | .deriveVelocity => mapCurves (fun c => some (updateStats e (deriveVelocity (discardInterval e fresh.stats c)))) s
  | .unknown => none

/-- `filter` (feature_curve_set_post_processor.hh:21-70). -/
def postProcess (e : Env R) (fresh : Curve R nv) : List PPOp → CurveSet R nv → Option (CurveSet R nv)
  | [], s => some s
  | op :: ops, s => match ppStep e fresh s op with
    | none => none
    | some s' => postProcess e fresh ops s'

end field
end Verif.Curve
