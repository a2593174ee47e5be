import Verif.UnionFind.Model
import Mathlib.Algebra.Order.Monoid.Defs
/-! Model of `algorithms/dijkstra.hh`.  Distances live in a linearly ordered commutative monoid
(no rounding, no overflow, all distances below `numeric_limits<T>::max()`); `std::map`s are partial
functions with their keys in order.  Using the uninitialised variable `u` is undefined: `none`. -/
namespace Verif.Dij

/-- `visited`, `dist` (keys in order, values), `prev` (dijkstra.hh:20-22). -/
structure St (α T : Type) where
  vis : List α
  keys : List α
  dist : α → Option T
  prev : α → Option α

section
variable {α T : Type} [LinearOrder α] [AddCommMonoid T] [LinearOrder T]

/-- `kv.second < mindist` (dijkstra.hh:30), where `none` stands for `max()`. -/
def nearer (d : T) : Option (T × α) → Bool
  | none => true
  | some (m, _) => decide (d < m)

/-- one iteration of the search for the nearest unvisited vertex (dijkstra.hh:29-33); the
accumulator is `(mindist, u)`, `none` = `max()` and uninitialised. -/
def pick (s : St α T) (acc : Option (T × α)) (k : α) : Option (T × α) :=
  match s.dist k with
  | none => acc
  | some d =>
    if k ∉ s.vis ∧ nearer d acc = true then some (d, k) else acc

/-- dijkstra.hh:27-33 -/
def select (s : St α T) : Option (T × α) := s.keys.foldl (pick s) none

/-- `dist.find(v) == dist.end() || alt < dist[v]` (dijkstra.hh:41-46). -/
def shorter (alt : T) : Option T → Bool
  | none => true
  | some dv => decide (alt < dv)

/-- the body of the neighbor loop (dijkstra.hh:40-52). -/
def relax (w : α → α → T) (u : α) (s : St α T) (v : α) : Option (St α T) :=
  match s.dist u with
  | none => none
  | some du =>
    if shorter (du + w u v) (s.dist v) = true then
      some { s with keys := setInsert v s.keys, dist := UF.put s.dist v (du + w u v), prev := UF.put s.prev v u }
    else some s

/-- the neighbor loop -/
def relaxAll (w : α → α → T) (u : α) : List α → St α T → Option (St α T)
  | [], s => some s
  | v :: vs, s => match relax w u s v with
    | none => none
    | some s' => relaxAll w u vs s'

/-- `while (1)` (dijkstra.hh:26-53): the state when `dst` is selected. -/
def loop (nb : α → List α) (w : α → α → T) (dst : α) : Nat → St α T → Option (St α T)
  | 0, _ => none
  | fuel + 1, s =>
    match select s with
    | none => none
    | some (_, u) =>
      let s := { s with vis := u :: s.vis }
      if u = dst then some s
      else match relaxAll w u (nb u) s with
        | none => none
        | some s' => loop nb w dst fuel s'

/-- building the sequence (dijkstra.hh:55-64), before the final reversal. -/
def back (src : α) (prev : α → Option α) : Nat → α → Option (List α)
  | 0, _ => none
  | fuel + 1, u =>
    if u = src then some [u]
    else match prev u with
      | none => some [u]
      | some p => (back src prev fuel p).map (fun l => u :: l)

/-- `dijkstra` (dijkstra.hh:13-66). -/
def dijkstra (fuel : Nat) (src dst : α) (nb : α → List α) (w : α → α → T) : Option (List α) :=
  match loop nb w dst fuel { vis := [], keys := [src], dist := fun x => if x = src then some 0 else none, prev := fun _ => none } with
  | none => none
  | some s => (back src s.prev fuel dst).map List.reverse

end
end Verif.Dij
