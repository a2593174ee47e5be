import Verif.Graph.Model
import Verif.Curve.Model
import Mathlib.Data.Prod.Lex
import Mathlib.Data.List.Sort
import Mathlib.Algebra.Order.Ring.Rat
/-! Model of the feature complexes: `features/feature_line.hh`, `feature_surface.hh`, `feature_volume.hh`.
Indices are natural numbers (a negative `int` is not modelled), reading or writing past a vector is `none`.  Of
`feature_point_t` the members `id`, `timestep`, `ordinal` are modelled; the others are the payload `data`. -/
namespace Verif.Surf
open Verif.Curve (mmInsert)
variable {δ : Type}

/-- `feature_point_t` (feature_point.hh:14-60) -/
structure FPt (δ : Type) where
  id : Nat
  timestep : Int
  ordinal : Bool
  data : δ
deriving DecidableEq, Repr

/-- `std::array<int, 3>` -/
abbrev Tri := Nat × Nat × Nat
/-- `std::array<int, 4>` -/
abbrev Quad := Nat × Nat × Nat × Nat
/-- `std::array<int, 5>` -/
abbrev Penta := Nat × Nat × Nat × Nat × Nat

/-- the entries of a triangle -/
def triVs (t : Tri) : List Nat := [t.1, t.2.1, t.2.2]
/-- the entries of a quadrilateral or tetrahedron -/
def quadVs (t : Quad) : List Nat := [t.1, t.2.1, t.2.2.1, t.2.2.2]
/-- the entries of a pentagon -/
def pentaVs (t : Penta) : List Nat := [t.1, t.2.1, t.2.2.1, t.2.2.2.1, t.2.2.2.2]

/-- `feature_line_t` (feature_line.hh:28-29) -/
structure Line (δ : Type) where
  pts : List (FPt δ)
  edges : List (Nat × Nat)
deriving DecidableEq, Repr

/-- `feature_surface_t` (feature_surface.hh:36-39) -/
structure Surface (δ : Type) where
  pts : List (FPt δ)
  tris : List Tri
  quads : List Quad
  pentagons : List Penta
deriving DecidableEq, Repr

/-- `feature_volume_t` (feature_volume.hh:17-18) -/
structure Volume (δ : Type) where
  pts : List (FPt δ)
  conn : List Quad
deriving DecidableEq, Repr

/-! ### relabel -/

/-- `for (i …) pts[i].id = uf.find(i)` (feature_surface.hh:106-107), from index `i` on -/
def labelFrom : UF.SimpleUF → Nat → List (FPt δ) → Option (List (FPt δ))
  | _, _, [] => some []
  | s, i, p :: ps =>
    match s.find i with
    | none => none
    | some (s', r) => (labelFrom s' (i + 1) ps).map fun l => { p with id := r } :: l

/-- a union-find over the points, the given unions, then the labels -/
def relabelPts (us : List (Nat × Nat)) (pts : List (FPt δ)) : Option (List (FPt δ)) :=
  match (UF.SimpleUF.init pts.length).run (us.map fun u => UF.SOp.unite u.1 u.2) with
  | none => none
  | some s => labelFrom s 0 pts

/-- `feature_line_t::relabel` (feature_line.hh:49-57) -/
def Line.relabel (l : Line δ) : Option (Line δ) := (relabelPts l.edges l.pts).map fun p => { l with pts := p }

/-- the unions of `feature_surface_t::relabel` (feature_surface.hh:94-104); `j < 4` for pentagons too. -/
def Surface.unions (s : Surface δ) : List (Nat × Nat) :=
  s.tris.flatMap (fun t => [(t.1, t.2.1), (t.1, t.2.2)]) ++
  s.quads.flatMap (fun q => [(q.1, q.2.1), (q.1, q.2.2.1), (q.1, q.2.2.2)]) ++
  s.pentagons.flatMap fun p => [(p.1, p.2.1), (p.1, p.2.2.1), (p.1, p.2.2.2.1)]

/-- `feature_surface_t::relabel` (feature_surface.hh:91-108) -/
def Surface.relabel (s : Surface δ) : Option (Surface δ) :=
  (relabelPts s.unions s.pts).map fun p => { s with pts := p }

/-- `feature_volume_t::relabel` (feature_volume.hh:31-42) -/
def Volume.relabel (v : Volume δ) : Option (Volume δ) :=
  (relabelPts (v.conn.flatMap fun q => [(q.1, q.2.1), (q.1, q.2.2.1), (q.1, q.2.2.2)]) v.pts).map fun p => { v with pts := p }

/-! ### curves -/

/-- `feature_curve_t`: points and `loop` (feature_curve.hh) -/
structure CurveOut (δ : Type) where
  pts : List (FPt δ)
  loop : Bool
deriving DecidableEq, Repr

/-- `pts[linear_graph[k]]` for all `k` (feature_surface.hh:365-366) -/
def fetch (pts : List (FPt δ)) : List Nat → Option (List (FPt δ))
  | [] => some []
  | i :: is =>
    match pts[i]?, fetch pts is with
    | some p, some ps => some (p :: ps)
    | _, _ => none

/-- one linear graph: `curve_set.add(traj, traj[0].id)` (feature_surface.hh:361-369, feature_line.hh:83-90,
feature_curve_set.hh:467-472); `none` also for an empty graph. -/
def addCurve (nb : Nat → List Nat) (pts : List (FPt δ)) (acc : List (Int × CurveOut δ)) (g : List Nat) :
    Option (List (Int × CurveOut δ)) :=
  match fetch pts g with
  | some (p :: ps) => some (mmInsert p.id { pts := (p :: ps).map fun q => { q with id := p.id }, loop := Gr.isLoop nb g } acc)
  | _ => none

/-- the linear graphs of one component (feature_surface.hh:359-371) -/
def addComp (nb : Nat → List Nat) (pts : List (FPt δ)) (acc : List (Int × CurveOut δ)) (c : List Nat) :
    Option (List (Int × CurveOut δ)) :=
  match Gr.linearComponents nb c with
  | none => none
  | some gs => gs.foldlM (addCurve nb pts) acc

/-- components, linear graphs, curves (feature_surface.hh:354-371, feature_line.hh:76-93) -/
def curveSet (nb : Nat → List Nat) (pts : List (FPt δ)) : Option (List (Int × CurveOut δ)) :=
  match Gr.extractCC nb (List.range pts.length) with
  | none => none
  | some cs => cs.foldlM (addComp nb pts) []

/-- `links[v].insert(w)` on a `std::map<int, std::set<int>>` with default `{}` -/
def addLink (links : Nat → List Nat) (v w : Nat) : Nat → List Nat :=
  fun x => if x = v then setInsert w (links x) else links x

/-- the links of a line (feature_line.hh:68-72) -/
def lineLinks : List (Nat × Nat) → (Nat → List Nat) → Nat → List Nat
  | [], links => links
  | (v, w) :: es, links => lineLinks es (addLink (addLink links v w) w v)

/-- `feature_line_t::to_curve_set` (feature_line.hh:59-96) -/
def Line.toCurveSet (l : Line δ) : Option (List (Int × CurveOut δ)) := curveSet (lineLinks l.edges fun _ => []) l.pts

/-! ### slices -/

/-- the old indices of the points kept, in order: the keys of `map` (feature_surface.hh:328-336,
feature_volume.hh:48-54, 87-93) -/
def selected (f : FPt δ → Bool) (pts : List (FPt δ)) : List Nat :=
  (List.range pts.length).filter fun i => (pts[i]?).any f

/-- `map.find(i)`: the new index of the old index `i` -/
def newIndex (sel : List Nat) (i : Nat) : Option Nat := if i ∈ sel then some (sel.idxOf i) else none

/-- `pts[i].timestep == t && pts[i].ordinal` (feature_surface.hh:331, feature_volume.hh:90) -/
def atTime (t : Int) (p : FPt δ) : Bool := decide (p.timestep = t) && p.ordinal

/-- `cc` of one triangle: the new indices of its selected points, a set (feature_surface.hh:343-346) -/
def triLinks (sel : List Nat) (t : Tri) : List Nat :=
  ((triVs t).filterMap (newIndex sel)).foldl (fun acc x => setInsert x acc) []

/-- `for (k : cc) links[k].insert(cc.begin(), cc.end())` for all triangles (feature_surface.hh:340-352) -/
def sliceLinks (sel : List Nat) : List Tri → (Nat → List Nat) → Nat → List Nat
  | [], links => links
  | t :: ts, links => sliceLinks sel ts fun k =>
      if k ∈ triLinks sel t then (triLinks sel t).foldl (fun acc x => setInsert x acc) (links k) else links k

/-- `feature_surface_t::slice_time` (feature_surface.hh:319-380) -/
def Surface.sliceTime (s : Surface δ) (t : Int) : Option (List (Int × CurveOut δ)) :=
  curveSet (sliceLinks (selected (atTime t) s.pts) s.tris fun _ => []) (s.pts.filter (atTime t))

/-- `std::sort(q3.begin(), q3.end())` -/
def sort3 (a b c : Nat) : Tri :=
  match [a, b, c].insertionSort (· ≤ ·) with
  | [x, y, z] => (x, y, z)
  | _ => (a, b, c)

/-- the lexicographic order of `std::array<int, 3>` -/
abbrev TriKey := Nat ×ₗ Nat ×ₗ Nat
/-- a triangle as a key -/
def triKey (t : Tri) : TriKey := toLex (t.1, toLex (t.2.1, t.2.2))
/-- the triangle of a key -/
def ofKey (k : TriKey) : Tri := ((ofLex k).1, (ofLex (ofLex k).2).1, (ofLex (ofLex k).2).2)

/-- one tetrahedron of a slice: `q`, and `tris.insert(q3)` if `count == 3` (feature_volume.hh:57-71, 108-117) -/
def sliceTet (sel : List Nat) (tris : List TriKey) (c : Quad) : List TriKey :=
  match (quadVs c).filterMap (newIndex sel) with
  | [x, y, z] => setInsert (triKey (sort3 x y z)) tris
  | _ => tris

/-- `feature_volume_t::slice` (feature_volume.hh:44-79) -/
def Volume.slice (v : Volume δ) (f : FPt δ → Bool) : Surface δ :=
  { pts := v.pts.filter f, tris := (v.conn.foldl (sliceTet (selected f v.pts)) []).map ofKey, quads := [], pentagons := [] }

/-- `valid`: all four points have timestep `t` (feature_volume.hh:102-105); `none`: no such point. -/
def tetAt (pts : List (FPt δ)) (t : Int) (c : Quad) : Option Bool :=
  (quadVs c).foldlM (fun ok i => (pts[i]?).map fun p => ok && decide (p.timestep = t)) true

/-- the loop over the tetrahedra (feature_volume.hh:96-118) -/
def sliceTets (pts : List (FPt δ)) (t : Int) (sel : List Nat) : List Quad → List TriKey → Option (List TriKey)
  | [], tris => some tris
  | c :: cs, tris =>
    match tetAt pts t c with
    | none => none
    | some ok => sliceTets pts t sel cs (if ok then sliceTet sel tris c else tris)

/-- `feature_volume_t::slice_time` (feature_volume.hh:82-125) -/
def Volume.sliceTime (v : Volume δ) (t : Int) : Option (Surface δ) :=
  (sliceTets v.pts t (selected (atTime t) v.pts) v.conn []).map fun tris =>
    { pts := v.pts.filter (atTime t), tris := tris.map ofKey, quads := [], pentagons := [] }

/-! ### discard -/

/-- `parent` (`none` = -1) and `children` (feature_surface.hh:413-416) -/
structure Forest where
  parent : List (Option Nat)
  children : List (List Nat)

/-- the pairs `(tri[j], tri[k])`, `j ≠ k` (feature_surface.hh:423-426) -/
def triPairs (t : Tri) : List (Nat × Nat) :=
  [(t.1, t.2.1), (t.1, t.2.2), (t.2.1, t.1), (t.2.1, t.2.2), (t.2.2, t.1), (t.2.2, t.2.1)]

/-- `neighbors[v].insert(w)` in order (feature_surface.hh:418-427); `none` = out of range. -/
def neighborSets : List (Nat × Nat) → List (List Nat) → Option (List (List Nat))
  | [], ns => some ns
  | (v, w) :: ps, ns =>
    match ns[v]? with
    | none => none
    | some s => neighborSets ps (ns.set v (setInsert w s))

/-- the search for the nearest neighbour (feature_surface.hh:434-442): best distance so far (`none` = the largest
double) and its index; `none` result = no such point. -/
def nearestLoop (dist : FPt δ → FPt δ → Rat) (pts : List (FPt δ)) (p : FPt δ) : List Nat → Option (Rat × Nat) →
    Option (Option (Rat × Nat))
  | [], best => some best
  | j :: js, best =>
    match pts[j]? with
    | none => none
    | some q =>
      let d := dist p q
      nearestLoop dist pts p js (match best with
        | none => some (d, j)
        | some (m, k) => if d < m then some (d, j) else some (m, k))

/-- `while (j != -1 && parent[j] != j) j = parent[j]` (feature_surface.hh:444-446); `none` = out of range or not
finished. -/
def chase (parent : List (Option Nat)) : Nat → Option Nat → Option (Option Nat)
  | 0, _ => none
  | _ + 1, none => some none
  | fuel + 1, some j =>
    match parent[j]? with
    | none => none
    | some p => if p = some j then some (some j) else chase parent fuel p

/-- `parent[k] = j` for all `k` of a set (feature_surface.hh:468-469) -/
def setParents (j : Nat) : List Nat → List (Option Nat) → Option (List (Option Nat))
  | [], parent => some parent
  | k :: ks, parent => if k < parent.length then setParents j ks (parent.set k (some j)) else none

/-- the body for a point to be discarded, `j = nearest(i)` (feature_surface.hh:464-474).  If `j = i` the code inserts a
set into itself (formally undefined); taken as leaving the set unchanged. -/
def mergeInto (i : Nat) (j : Option Nat) (F : Forest) : Option Forest :=
  match j with
  | none => if i < F.parent.length then some { F with parent := F.parent.set i none } else none
  | some j =>
    match F.children[j]? with
    | none => none
    | some cj =>
      let ch1 := F.children.set j (setInsert i cj)
      match ch1[i]? with
      | none => none
      | some ci =>
        match ch1[j]? with
        | none => none
        | some cj1 =>
          let ch2 := ch1.set j (ci.foldl (fun acc x => setInsert x acc) cj1)
          match ch2[i]? with
          | none => none
          | some ci2 =>
            match setParents j ci2 F.parent with
            | none => none
            | some par => if i < par.length then some { parent := par.set i (some j), children := ch2.set i [] } else none

/-- the loop over the points from index `i` on (feature_surface.hh:461-476) -/
def discardLoop (dist : FPt δ → FPt δ → Rat) (f : FPt δ → Bool) (pts : List (FPt δ)) (nbs : List (List Nat)) :
    Nat → List (FPt δ) → Forest → Option Forest
  | _, [], F => some F
  | i, p :: ps, F =>
    if f p then
      match nbs[i]? with
      | none => none
      | some ns =>
        match nearestLoop dist pts p ns none with
        | none => none
        | some best =>
          match chase F.parent (pts.length + 2) (best.map Prod.snd) with
          | none => none
          | some j =>
            match mergeInto i j F with
            | none => none
            | some F' => discardLoop dist f pts nbs (i + 1) ps F'
    else discardLoop dist f pts nbs (i + 1) ps F

/-- the indices with `parent[i] == i`: the keys of `ptsmap` (feature_surface.hh:482-487) -/
def keptIndices (F : Forest) : List Nat := (List.range F.parent.length).filter fun i => decide (F.parent[i]? = some (some i))

/-- a triangle with all three points kept, renumbered (feature_surface.hh:489-498) -/
def keepTri (kept : List Nat) (t : Tri) : Option Tri :=
  match newIndex kept t.1, newIndex kept t.2.1, newIndex kept t.2.2 with
  | some a, some b, some c => some (a, b, c)
  | _, _, _ => none

/-- `feature_surface_t::discard` (feature_surface.hh:411-502); `dist` is the distance of two points. -/
def Surface.discard (dist : FPt δ → FPt δ → Rat) (s : Surface δ) (f : FPt δ → Bool) : Option (Surface δ) :=
  let n := s.pts.length
  match neighborSets (s.tris.flatMap triPairs) (List.replicate n []) with
  | none => none
  | some nbs =>
    match discardLoop dist f s.pts nbs 0 s.pts { parent := (List.range n).map some, children := List.replicate n [] } with
    | none => none
    | some F => some { s with pts := (keptIndices F).filterMap (s.pts[·]?), tris := s.tris.filterMap (keepTri (keptIndices F)) }

/-! ### reorient -/

/-- directed edges of a triangle (feature_surface.hh:275-278) -/
def dirEdges (t : Tri) : List (Nat × Nat) := [(t.1, t.2.1), (t.2.1, t.2.2), (t.2.2, t.1)]

/-- an edge without direction (feature_surface.hh:259-262) -/
def undirected (e : Nat × Nat) : Nat × Nat := if e.1 > e.2 then (e.2, e.1) else e

/-- `edge_triangle[e]`: the triangles with the undirected edge `e`, in increasing order (feature_surface.hh:265-270) -/
def edgeTriangles (tris : List Tri) (e : Nat × Nat) : List Nat :=
  (List.range tris.length).filter fun i => (tris[i]?).any fun t => decide (e ∈ (dirEdges t).map undirected)

/-- `chirality` (feature_surface.hh:272-290): the first of the nine tests that succeeds; `ea[i]` is compared with `eb[i]`.
0: the assertion at the end fails (taken as disabled). -/
def chirality (a b : Tri) : Int :=
  (((dirEdges a).zip (dirEdges b)).findSome? fun (x, y) =>
    (dirEdges b).findSome? fun z => if x = y then some 1 else if x = (z.2, z.1) then some (-1) else none).getD 0

/-- one neighbour `k` of triangle `i` (feature_surface.hh:309-317) on `(tris, visited, Q)` -/
def reorientNb (i : Nat) (st : List Tri × List Nat × List Nat) (k : Nat) : Option (List Tri × List Nat × List Nat) :=
  if k ∈ st.2.1 then some st
  else
    match st.1[i]?, st.1[k]? with
    | some a, some b =>
      some (if chirality a b < 0 then st.1.set k (b.2.1, b.1, b.2.2) else st.1, k :: st.2.1, st.2.2 ++ [k])
    | _, _ => none

/-- one edge `j` of triangle `i` (feature_surface.hh:302-317) -/
def reorientEdge (et : Nat × Nat → List Nat) (i : Nat) (st : List Tri × List Nat × List Nat) (j : Nat) :
    Option (List Tri × List Nat × List Nat) :=
  match st.1[i]? with
  | none => none
  | some t =>
    match (dirEdges t)[j]? with
    | none => none
    | some e => ((et (undirected e)).filter fun k => decide (k ≠ i)).foldlM (reorientNb i) st

/-- `while (!Q.empty())` (feature_surface.hh:298-319) -/
def reorientLoop (et : Nat × Nat → List Nat) : Nat → List Tri × List Nat × List Nat → Option (List Tri)
  | _, (ts, _, []) => some ts
  | 0, (_, _, _ :: _) => none
  | fuel + 1, (ts, vis, i :: Q) =>
    match [0, 1, 2].foldlM (reorientEdge et i) (ts, vis, Q) with
    | none => none
    | some st => reorientLoop et fuel st

/-- `feature_surface_t::reorient` (feature_surface.hh:256-320), breadth-first search from triangle 0 -/
def Surface.reorient (s : Surface δ) : Option (Surface δ) :=
  (reorientLoop (edgeTriangles s.tris) (s.tris.length + 1) (s.tris, [0], [0])).map fun ts => { s with tris := ts }

end Verif.Surf
