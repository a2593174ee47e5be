import Verif.Fil.Model
import Mathlib.Logic.Relation
/-! Specification for the filament tracker. -/
namespace Verif.Fil
open Relation
variable {σ S V P : Type}

/-- The triangles of the space-time mesh come in blocks of `n(2)` per timestep: first those inside the timestep, then those
between it and the next. -/
structure Layered (m : Mesh) : Prop where
  pos : 0 < m.n0
  ordinal : ∀ t i : Nat, i < m.no → ∀ v ∈ m.tri (((t * (m.no + m.ni) + i : Nat) : Int)), v / m.n0 = t
  interval : ∀ t i : Nat, i < m.ni → ∀ v ∈ m.tri (((t * (m.no + m.ni) + m.no + i : Nat) : Int)),
    v / m.n0 = t ∨ v / m.n0 = t + 1

/-- The value of the series at a space-time vertex: the snapshot of the vertex's own time, read at the vertex below. -/
def valueAt (g : Prog σ S V P) (series : List S) (v : Int) : Option V :=
  if v / g.m.n0 < 0 then none else (series[(v / g.m.n0).toNat]?).map fun s => g.rd s (v % g.m.n0)

/-- The series says that triangle `e`, first vertex time `t`, is pierced, with result `p`, the scaling state being `s`. -/
def Says (g : Prog σ S V P) (series : List S) (s : σ) (t : Nat) (e : Int) (p : P) : Prop :=
  ∃ vals, (g.m.tri e).mapM (valueAt g series) = some vals ∧ g.test s t e (g.m.tri e) vals = some p

/-- `e` is a triangle of block `t` all of whose vertices are at times below `n`. -/
def Slot (m : Mesh) (n t : Nat) (e : Int) : Prop :=
  ∃ i : Nat, e = ((t * (m.no + m.ni) + i : Nat) : Int) ∧ (i < m.no ∧ t < n ∨ i < m.no + m.ni ∧ t + 1 < n)

/-- The scaling state at timestep `t`: updated at every timestep with the snapshots of the timestep and the next. -/
def scaleAt (g : Prog σ S V P) (s0 : σ) (series : List S) : Nat → σ
  | 0 => g.pre s0 (series.take 2)
  | t + 1 => g.pre (scaleAt g s0 series t) ((series.drop (t + 1)).take 2)

/-- Every loop index is executed exactly once (what `parallel_for` guarantees, C07). -/
def Complete (m : Mesh) (ord : Order) : Prop :=
  ord.ordinal.Perm (List.range m.no) ∧ ord.interval.Perm (List.range m.ni)

/-- Cell `c` contains a facet that contains triangle `e`. -/
def CofaceOf (m : Mesh) (e c : Int) : Prop := ∃ t ∈ m.tets e, c ∈ m.pents t

end Verif.Fil
