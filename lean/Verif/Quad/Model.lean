import Mathlib.Algebra.Order.Ring.Rat
import Mathlib.Algebra.Order.Field.Rat
/-! Model of the quad-tree point locator (include/ftk/mesh/point_locator_2d_quad.hh, include/ftk/mesh/aabb.hh) on a 2-D
triangle mesh.  Exact rational arithmetic; pointers and `delete` are not modelled (a subtree is owned by its parent). -/
namespace Verif.Quad

/-- a point of the plane: `coords[2*i], coords[2*i+1]` -/
abbrev P2 := Rat × Rat

/-- the three vertices of a triangle, `&coords[i0*2]`, … (point_locator_2d_quad.hh:73-74) -/
structure Tri where
  p1 : P2
  p2 : P2
  p3 : P2
deriving DecidableEq, Repr

/-- `AABB<2, F>` (aabb.hh:18-33): lower-left `A`, upper-right `B`, centroid `C`, `id`. -/
structure Box where
  A : P2
  B : P2
  C : P2
  id : Nat
deriving DecidableEq, Repr

/-- `std::numeric_limits<double>::max()` -/
@[irreducible] def dblMax : Rat := (2 ^ 53 - 1) * 2 ^ 971

/-- default constructor (aabb.hh:28-33) -/
def Box.empty : Box := ⟨(dblMax, dblMax), (-dblMax, -dblMax), (0, 0), 0⟩

/-- `contains` (aabb.hh:35-40): half open. -/
def Box.contains (b : Box) (x : P2) : Bool :=
  !(decide (x.1 < b.A.1) || decide (b.B.1 ≤ x.1)) && !(decide (x.2 < b.A.2) || decide (b.B.2 ≤ x.2))

/-- `update_centroid` (aabb.hh:53-56) -/
def Box.updateCentroid (b : Box) : Box := { b with C := ((b.A.1 + b.B.1) / 2, (b.A.2 + b.B.2) / 2) }

/-- one step of the loops computing bounds (point_locator_2d_quad.hh:143-146, 239-242). -/
def Box.join (b : Box) (lo hi : P2) : Box :=
  { b with A := (min b.A.1 lo.1, min b.A.2 lo.2), B := (max b.B.1 hi.1, max b.B.2 hi.2) }

/-- `update_bounds` (point_locator_2d_quad.hh:138-149) -/
def updateBounds (b : Box) (es : List Box) : Box :=
  (es.foldl (fun b e => b.join e.A e.B) b).updateCentroid

/-- `quad_node` with its subtree (point_locator_2d_quad.hh:24-36): `nil` = NULL pointer, `leaf` = one element,
`node` = no elements. -/
inductive QTree
  | nil
  | leaf (aabb : Box) (e : Box)
  | node (aabb : Box) (c0 c1 c2 c3 : QTree)
deriving Repr

/-- the boxes of the four children (point_locator_2d_quad.hh:160-191): left-bottom, right-bottom, right-top, left-top;
the rest is as in a new node. -/
def childBox (b : Box) (j : Nat) : Box :=
  match j with
  | 0 => { Box.empty with A := b.A, B := b.C }.updateCentroid
  | 1 => { Box.empty with A := (b.C.1, b.A.2), B := (b.B.1, b.C.2) }.updateCentroid
  | 2 => { Box.empty with A := b.C, B := b.B }.updateCentroid
  | _ => { Box.empty with A := (b.A.1, b.C.2), B := (b.C.1, b.B.2) }.updateCentroid

/-- the child an element goes to (point_locator_2d_quad.hh:193-200): the first whose box contains its centroid; `none`
= the element is in no child. -/
def childOf (b : Box) (e : Box) : Option Nat := (List.range 4).find? fun j => (childBox b j).contains e.C

/-- the elements of child `j` (point_locator_2d_quad.hh:193-200) -/
def childElems (b : Box) (es : List Box) (j : Nat) : List Box := es.filter fun e => childOf b e == some j

/-- `subdivide` (point_locator_2d_quad.hh:151-214) of a node with bounds `b` and elements `es`; `isRoot` is
`parent == NULL`.  `none` = recursion deeper than `fuel`. -/
def subdivide : Nat → Bool → Box → List Box → Option QTree
  | 0, _, _, _ => none
  | fuel + 1, isRoot, b, es =>
    match es with
    | [] => some (.node (updateBounds b []) .nil .nil .nil .nil)
    | [e] => some (.leaf (updateBounds b [e]) e)
    | es@(_ :: _ :: _) =>
      let child (j : Nat) : Option QTree :=
        if (childElems b es j).isEmpty then some .nil
        else subdivide fuel false (childBox b j) (childElems b es j)
      match child 0, child 1, child 2, child 3 with
      | some c0, some c1, some c2, some c3 =>
        some (.node (if isRoot then b else updateBounds b es) c0 c1 c2 c3)
      | _, _, _, _ => none

/-- `min3`, `max3` (aabb.hh:8-16) -/
def min3 (x y z : Rat) : Rat := min (min x y) z
/-- see `min3` (aabb.hh:13-16) -/
def max3 (x y z : Rat) : Rat := max (max x y) z

/-- the element of triangle `i` (point_locator_2d_quad.hh:248-261) -/
def triBox (i : Nat) (t : Tri) : Box :=
  { A := (min3 t.p1.1 t.p2.1 t.p3.1, min3 t.p1.2 t.p2.2 t.p3.2),
    B := (max3 t.p1.1 t.p2.1 t.p3.1, max3 t.p1.2 t.p2.2 t.p3.2),
    C := ((t.p1.1 + t.p2.1 + t.p3.1) / 3, (t.p1.2 + t.p2.2 + t.p3.2) / 3),
    id := i }

/-- `root->elements` (point_locator_2d_quad.hh:247-264) -/
def elems (tris : List Tri) : List Box := (List.range tris.length).zipWith triBox tris

/-- bounds of the root (point_locator_2d_quad.hh:236-245) -/
def rootBox (verts : List P2) : Box := (verts.foldl (fun b p => b.join p p) Box.empty).updateCentroid

/-- `initialize` (point_locator_2d_quad.hh:228-266), the triangles being given by their vertices' coordinates. -/
def init (fuel : Nat) (verts : List P2) (tris : List Tri) : Option QTree :=
  subdivide fuel true (rootBox verts) (elems tris)

/-- `coords[conn[id*3]]` …: the triangles of a mesh; `none` = a vertex that does not exist. -/
def resolve (verts : List P2) : List (Nat × Nat × Nat) → Option (List Tri)
  | [] => some []
  | (a, b, c) :: r =>
    match verts[a]?, verts[b]?, verts[c]?, resolve verts r with
    | some p, some q, some s, some ts => some (⟨p, q, s⟩ :: ts)
    | _, _, _, _ => none

/-- the denominator in `inside_triangle` (point_locator_2d_quad.hh:220, 222) -/
def den (t : Tri) : Rat := (t.p2.2 - t.p3.2) * (t.p1.1 - t.p3.1) + (t.p3.1 - t.p2.1) * (t.p1.2 - t.p3.2)

/-- `mu` after `inside_triangle` (point_locator_2d_quad.hh:219-223) -/
def baryMu (x : P2) (t : Tri) : Rat × Rat × Rat :=
  let m0 := ((t.p2.2 - t.p3.2) * (x.1 - t.p3.1) + (t.p3.1 - t.p2.1) * (x.2 - t.p3.2)) / den t
  let m1 := ((t.p3.2 - t.p1.2) * (x.1 - t.p3.1) + (t.p1.1 - t.p3.1) * (x.2 - t.p3.2)) / den t
  (m0, m1, 1 - m0 - m1)

/-- `inside_triangle` (point_locator_2d_quad.hh:216-226).  With a zero denominator the floating-point quotients are NaN or
infinite; then `mu[2]` is NaN or `-∞`, or one of the others is, and the result is `false`. -/
def insideTriangle (x : P2) (t : Tri) : Bool :=
  if den t = 0 then false
  else decide (0 ≤ (baryMu x t).1) && decide (0 ≤ (baryMu x t).2.1) && decide (0 ≤ (baryMu x t).2.2)

/-- number of nodes -/
def QTree.size : QTree → Nat
  | .nil => 0
  | .leaf _ _ => 1
  | .node _ a b c d => 1 + a.size + b.size + c.size + d.size

/-- `S.push(q->children[j])` if not NULL (point_locator_2d_quad.hh:82-84) -/
def pushChild (c : QTree) (S : List QTree) : List QTree :=
  match c with
  | .nil => S
  | c => c :: S

/-- the loop of `locate_point_nonrecursive` (point_locator_2d_quad.hh:61-88), `S` with its top first: the id and `mu`, or
`-1` as `none`.  The outer `none` = not finished after `fuel` rounds, or a triangle that does not exist. -/
def locateLoop (tris : List Tri) (x : P2) : Nat → List QTree → Option (Option (Nat × (Rat × Rat × Rat)))
  | _, [] => some none
  | 0, _ :: _ => none
  | fuel + 1, q :: S =>
    match q with
    | .nil => none
    | .leaf _ e =>
      match tris[e.id]? with
      | none => none
      | some t => if insideTriangle x t then some (some (e.id, baryMu x t)) else locateLoop tris x fuel S
    | .node bb c0 c1 c2 c3 =>
      if bb.contains x then locateLoop tris x fuel (pushChild c3 (pushChild c2 (pushChild c1 (pushChild c0 S))))
      else locateLoop tris x fuel S

/-- `locate` (point_locator_2d_quad.hh:18) -/
def locate (tris : List Tri) (q : QTree) (x : P2) : Option (Option (Nat × (Rat × Rat × Rat))) :=
  locateLoop tris x q.size [q]

/-- `locate_point_recursive` (point_locator_2d_quad.hh:92-119) -/
def locateRec (tris : List Tri) (x : P2) : QTree → Option (Option (Nat × (Rat × Rat × Rat)))
  | .nil => some none
  | .leaf bb e =>
    if bb.contains x then
      match tris[e.id]? with
      | none => none
      | some t => if insideTriangle x t then some (some (e.id, baryMu x t)) else some none
    else some none
  | .node bb c0 c1 c2 c3 =>
    if bb.contains x then
      match locateRec tris x c0 with
      | some none =>
        match locateRec tris x c1 with
        | some none =>
          match locateRec tris x c2 with
          | some none => locateRec tris x c3
          | r => r
        | r => r
      | r => r
    else some none

end Verif.Quad
