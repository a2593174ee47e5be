import Verif.Surf.Model
import Mathlib.Logic.Relation
/-! Specification for the feature complexes. -/
namespace Verif.Surf
open Relation
variable {δ : Type}

/-- the cells of a surface, as lists of point numbers -/
def Surface.cells (s : Surface δ) : List (List Nat) := s.tris.map triVs ++ s.quads.map quadVs ++ s.pentagons.map pentaVs
/-- the cells of a volume -/
def Volume.cells (v : Volume δ) : List (List Nat) := v.conn.map quadVs
/-- the cells of a line -/
def Line.cells (l : Line δ) : List (List Nat) := l.edges.map fun e => [e.1, e.2]

/-- all cells refer to existing points -/
def InRange (n : Nat) (cells : List (List Nat)) : Prop := ∀ c ∈ cells, ∀ i ∈ c, i < n

/-- connected through cells: the equivalence generated by "are vertices of a common cell" -/
def Joined (cells : List (List Nat)) : Nat → Nat → Prop := EqvGen fun a b => ∃ c ∈ cells, a ∈ c ∧ b ∈ c

/-- the points `new` are the points `old` with `id`s that number the connected components: equal for two points exactly
if they are connected; the number is that of a point of the component -/
structure Labelled (cells : List (List Nat)) (old new : List (FPt δ)) : Prop where
  same : List.Forall₂ (fun p q => q = { p with id := q.id }) old new
  ids : ∀ (i j : Nat) (p q : FPt δ), new[i]? = some p → new[j]? = some q → (p.id = q.id ↔ Joined cells i j)
  member : ∀ (i : Nat) (p : FPt δ), new[i]? = some p → p.id < old.length ∧ Joined cells i p.id

/-- the number of other points adjacent to point `i` of `n` -/
noncomputable def degree (adj : Nat → Nat → Prop) (n i : Nat) : Nat :=
  open Classical in ((List.range n).filter fun j => decide (j ≠ i ∧ adj i j)).length

/-- entry `e` of a curve set is the curve through the points numbered `g`: all points get the identifier of the first,
which is also the label; a curve is a loop if it has two or more points and the last is adjacent to the first -/
structure CurveThrough (adj : Nat → Nat → Prop) (pts : List (FPt δ)) (g : List Nat) (e : Int × CurveOut δ) : Prop where
  label : ∃ a p, g.head? = some a ∧ pts[a]? = some p ∧ e.1 = p.id ∧
    List.Forall₂ (fun i q => ∃ p', pts[i]? = some p' ∧ q = { p' with id := p.id }) g e.2.pts
  loop : e.2.loop = true ↔ 2 ≤ g.length ∧ ∃ a b, g.head? = some a ∧ g.getLast? = some b ∧ adj a b

/-- a curve set cuts the points into curves: the curves run along the relation `adj`, together they contain every point
with at most two adjacent points exactly once and no other point, and each is a connected class of such points -/
def CurvesOf (adj : Nat → Nat → Prop) (pts : List (FPt δ)) (out : List (Int × CurveOut δ)) : Prop :=
  ∃ (gs : List (List Nat)) (es : List (Int × CurveOut δ)), es.Perm out ∧ (out.map Prod.fst).Pairwise (· ≤ ·) ∧
    List.Forall₂ (CurveThrough adj pts) gs es ∧
    (∀ g ∈ gs, g ≠ [] ∧ List.IsChain adj g) ∧ gs.flatten.Nodup ∧
    (∀ i, i ∈ gs.flatten ↔ i < pts.length ∧ degree adj pts.length i ≤ 2) ∧
    ∀ g ∈ gs, ∀ x ∈ g, ∀ y ∈ gs.flatten,
      (y ∈ g ↔ EqvGen (fun a b => (a ∈ gs.flatten ∧ b ∈ gs.flatten) ∧ adj a b) x y)

/-- adjacent in a line: the two end points of an edge -/
def Line.Adj (l : Line δ) (a b : Nat) : Prop := (a, b) ∈ l.edges ∨ (b, a) ∈ l.edges

/-- adjacent in a slice of a surface: two selected points of a triangle (`sel` lists the numbers of the points in the slice) -/
def Surface.SliceAdj (s : Surface δ) (sel : List Nat) (a b : Nat) : Prop :=
  ∃ i j : Nat, sel[a]? = some i ∧ sel[b]? = some j ∧ ∃ t ∈ s.tris, i ∈ triVs t ∧ j ∈ triVs t

end Verif.Surf
