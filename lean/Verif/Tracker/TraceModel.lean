import Verif.Graph.Model
import Verif.Serial.Model
/-! Model of the two tracing templates of `filters/critical_point_tracker.hh`:
`trace_critical_points_online` (lines 523-637) and `trace_critical_points_offline` (lines 668-812).

They are templates over the element type `I`/`element_t` (here `α`, ordered), the points are `β`.
`discrete_critical_points` is a `std::map`, kept as a list sorted by key (`Ser.lookup`, `Ser.mapPut`).
One process: `gather` and `redistribute` move nothing (their multi-process behaviour is the subject of
`Verif.Comm`).  The `assert(linear_graphs.size() == 1)` of line 609 is taken as disabled (NDEBUG). -/
namespace Verif.Trk
open Verif.Ser (lookup mapPut mapInsert)

variable {α : Type} [LinearOrder α] {β : Type}

/-- `feature_curve_t` reduced to what the tracing code reads and writes: the points, `loop`, `complete`
(include/ftk/features/feature_curve.hh). -/
structure Traj (β : Type) where
  pts : List β
  loop : Bool
  complete : Bool
deriving DecidableEq, Repr

/-- `discrete_critical_points.erase(k)` (critical_point_tracker.hh:566, 593). -/
def eraseKey (k : α) (m : List (α × β)) : List (α × β) := m.filter fun kv => decide (kv.1 ≠ k)

/-- `for (auto i : neighbors(current)) if (discrete_critical_points.find(i) != end()) ... break;`
(critical_point_tracker.hh:555-571, 581-598): the first neighbor with an entry, and the entry. -/
def nextKey (nb : α → List α) (dcp : List (α × β)) (cur : α) : Option (α × β) :=
  (nb cur).findSome? fun i => (lookup i dcp).map fun v => (i, v)

/-- `while (1)` of one direction (critical_point_tracker.hh:553-574, 580-602): the points found, in the
order found, and the remaining entries.  `none` = not finished after `fuel` rounds. -/
def growLoop (nb : α → List α) : Nat → α → List (α × β) → Option (List β × List (α × β))
  | 0, _, _ => none
  | fuel + 1, cur, dcp =>
    match nextKey nb dcp cur with
    | none => some ([], dcp)
    | some (i, v) =>
      match growLoop nb fuel i (eraseKey i dcp) with
      | none => none
      | some (ps, rest) => some (v :: ps, rest)

/-- the lambda of `trajectories.foreach` (critical_point_tracker.hh:542-605).  `elemOf p` is
`tag_to_element(p.tag)`.  `none` = `back()` of an empty trajectory. -/
def growOne (nb : α → List α) (elemOf : β → α) (t : Traj β) (dcp : List (α × β)) :
    Option (Traj β × List (α × β)) :=
  if t.complete then some (t, dcp)
  else match t.pts.getLast? with
    | none => none
    | some b =>
      match growLoop nb (dcp.length + 1) (elemOf b) dcp with
      | none => none
      | some (fs, dcp1) =>
        match (t.pts ++ fs).head? with
        | none => none
        | some a =>
          match growLoop nb (dcp1.length + 1) (elemOf a) dcp1 with
          | none => none
          | some (bs, dcp2) =>
            some ({ t with pts := bs.reverse ++ (t.pts ++ fs), complete := fs.isEmpty && bs.isEmpty }, dcp2)

/-- `trajectories.foreach` (critical_point_tracker.hh:542-606). -/
def growAll (nb : α → List α) (elemOf : β → α) : List (Traj β) → List (α × β) →
    Option (List (Traj β) × List (α × β))
  | [], dcp => some ([], dcp)
  | t :: ts, dcp =>
    match growOne nb elemOf t dcp with
    | none => none
    | some (t', dcp') =>
      match growAll nb elemOf ts dcp' with
      | none => none
      | some (ts', dcp'') => some (t' :: ts', dcp'')

/-- the points of a curve of elements: `discrete_critical_points[linear_graph[k]]`
(critical_point_tracker.hh:619-625) or `icc->second.at(...)` (critical_point_tracker.hh:722-728);
`none` = an element without entry. -/
def curvePts (dcp : List (α × β)) : List α → Option (List β)
  | [] => some []
  | k :: ks =>
    match lookup k dcp, curvePts dcp ks with
    | some v, some vs => some (v :: vs)
    | _, _ => none

/-- the trajectories of the linear graphs of one component (critical_point_tracker.hh:611-628,
716-735). -/
def curveTrajs (nb : α → List α) (dcp : List (α × β)) : List (List α) → Option (List (Traj β))
  | [] => some []
  | g :: gs =>
    match curvePts dcp g, curveTrajs nb dcp gs with
    | some ps, some ts => some ({ pts := ps, loop := Gr.isLoop nb g, complete := false } :: ts)
    | _, _ => none

/-- loop over the connected components (critical_point_tracker.hh:606-631). -/
def compTrajs (nb : α → List α) (dcp : List (α × β)) : List (List α) → Option (List (Traj β))
  | [] => some []
  | c :: cs =>
    match Gr.linearComponents nb c with
    | none => none
    | some gs =>
      match curveTrajs nb dcp gs, compTrajs nb dcp cs with
      | some ts, some ts' => some (ts ++ ts')
      | _, _ => none

/-- `trace_critical_points_online` (critical_point_tracker.hh:523-637): the trajectories afterwards; the
entries are cleared. -/
def traceOnline (nb : α → List α) (elemOf : β → α) (trajs : List (Traj β)) (dcp : List (α × β)) :
    Option (List (Traj β)) :=
  match growAll nb elemOf trajs dcp with
  | none => none
  | some (ts, rest) =>
    match Gr.extractCC nb (rest.map Prod.fst) with
    | none => none
    | some comps =>
      match compTrajs nb rest comps with
      | none => none
      | some new => some (ts ++ new)

/-- the calls `uf.unite(kv.first, n)` (critical_point_tracker.hh:692-697). -/
def offlineOps (nb : α → List α) (dcp : List (α × β)) : List (UF.DOp α) :=
  dcp.flatMap fun kv => ((nb kv.1).filter fun n => (lookup n dcp).isSome).map fun n => UF.DOp.unite kv.1 n

/-- `for (kv : dcp) ccs[uf.find(kv.first)].insert(kv)` (critical_point_tracker.hh:703-705). -/
def groupLoop : UF.Duf α → List (α × β) → List (α × List (α × β)) → Option (List (α × List (α × β)))
  | _, [], ccs => some ccs
  | s, kv :: m, ccs =>
    match s.find kv.1 with
    | none => none
    | some (s', r) => groupLoop s' m (mapPut r (mapInsert ((lookup r ccs).getD []) kv) ccs)

/-- the map `ccs` (critical_point_tracker.hh:688-705). -/
def offlineGroups (nb : α → List α) (dcp : List (α × β)) : Option (List (α × List (α × β))) :=
  match UF.Duf.init.run (offlineOps nb dcp) with
  | none => none
  | some s => groupLoop s dcp []

/-- the body of `parallel_for_container` (critical_point_tracker.hh:711-736) on the components in the
order in which they are appended; `cp.id` is not modelled (its value depends on the schedule). -/
def offlineCurves (nb : α → List α) : List (α × List (α × β)) → Option (List (Traj β))
  | [] => some []
  | g :: gs =>
    match Gr.linearComponents nb (g.2.map Prod.fst) with
    | none => none
    | some ls =>
      match curveTrajs nb g.2 ls, offlineCurves nb gs with
      | some ts, some ts' => some (ts ++ ts')
      | _, _ => none

/-- `trace_critical_points_offline` (critical_point_tracker.hh:668-812), the components being finished in
the order of the map. -/
def traceOffline (nb : α → List α) (dcp : List (α × β)) : Option (List (Traj β)) :=
  match offlineGroups nb dcp with
  | none => none
  | some gs => offlineCurves nb gs

end Verif.Trk
