import Verif.Dijkstra.Lemmas
import Mathlib.Order.Nat
import Mathlib.Algebra.Order.Ring.Nat
/-! C20: `dijkstra` returns a shortest path. -/
namespace Verif.Dij
variable {α T : Type} [LinearOrder α] [AddCommMonoid T] [LinearOrder T] [IsOrderedAddMonoid T]

/-- C20.  With nonnegative weights, if `dst` can be reached from `src` and the vertices that can be
reached are finitely many (all in `U`), `dijkstra` terminates and returns a path from `src` to `dst`
whose total weight is minimal among all paths from `src` to `dst`. -/
theorem C20_shortest_path (nb : α → List α) (w : α → α → T) (hw : ∀ a b, 0 ≤ w a b) (src dst : α) (U : List α)
    (hU : ∀ x p, IsPath nb p src x → x ∈ U) (hdst : ∃ p, IsPath nb p src dst) (fuel : Nat) (hf : U.length < fuel) :
    ∃ p, dijkstra fuel src dst nb w = some p ∧ IsPath nb p src dst ∧
      ∀ q, IsPath nb q src dst → weight w p ≤ weight w q := by
  have hU' : ∀ x W, Walk nb w src x W → x ∈ U := by
    intro x W h
    obtain ⟨p, hp, _⟩ := path_of_walk h
    exact hU x p hp
  obtain ⟨p0, hp0⟩ := hdst
  have hinit := inv_init nb w src
  obtain ⟨s', vs, d, e, hfin, hlen⟩ := loop_spec hw hU' ⟨_, walk_of_path p0 dst hp0⟩ fuel _ hinit
    (by intro v hv; simp at hv) (by simp) (by simpa using hf)
  have hsrc : s'.dist src = some 0 := loop_src hw fuel _ hinit e
  obtain ⟨l, eb, hp, hwt⟩ := back_spec hsrc s'.vis hfin.tree dst d fuel (by rw [hfin.vis]; simp) hfin.dist (by omega)
  refine ⟨l.reverse, ?_, hp, ?_⟩
  · unfold dijkstra
    rw [e]
    simp only [eb, Option.map_some]
  · intro q hq
    rw [hwt]
    exact hfin.best _ (walk_of_path q dst hq)

/-- C20, the other case.  If `dst` cannot be reached from `src`, then for every number of iterations
`dijkstra` never selects `dst`: it either keeps running or uses the uninitialised `u`. -/
theorem C20_unreachable_undefined (nb : α → List α) (w : α → α → T) (hw : ∀ a b, 0 ≤ w a b) (src dst : α)
    (hdst : ∀ p, ¬ IsPath nb p src dst) (fuel : Nat) : dijkstra fuel src dst nb w = none := by
  unfold dijkstra
  rw [loop_unreachable hw (fun W h => by obtain ⟨p, hp, _⟩ := path_of_walk h; exact hdst p hp) fuel _ (inv_init nb w src)]

/-- the two hypotheses of `C20_shortest_path` are met by a diamond in which the direct edge is longer -/
def exNb (x : Nat) : List Nat := if x = 0 then [1, 2, 3] else if x = 1 then [3] else if x = 2 then [3] else []
/-- weights of the example -/
def exW (a b : Nat) : Nat := if a = 0 ∧ b = 3 then 9 else if b = 1 then 1 else 2

example : dijkstra 5 0 3 exNb exW = some [0, 1, 3] := by decide +kernel
example : ∃ p, IsPath exNb p 0 3 := ⟨[0, 3], by simp, by simp, by simp [exNb]⟩
example : ∀ a b, 0 ≤ exW a b := fun _ _ => Nat.zero_le _
example : ∀ x p, IsPath exNb p 0 x → x ∈ [0, 1, 2, 3] := by
  intro x p h
  have hwk := walk_of_path (w := exW) p x h
  clear h
  generalize weight exW p = W at hwk
  induction hwk with
  | nil => simp
  | snoc _ h ih =>
    rename_i a b _ _
    unfold exNb at h
    split at h <;> (try split at h) <;> (try split at h) <;> simp_all <;> omega
example : ∀ p, ¬ IsPath exNb p 3 0 := by
  intro p h
  have hwk := walk_of_path (w := exW) p 0 h
  clear h
  generalize hx : 0 = x at hwk
  generalize weight exW p = W at hwk
  cases hwk with
  | nil => omega
  | snoc _ h =>
    subst hx
    unfold exNb at h
    split at h <;> (try split at h) <;> (try split at h) <;> simp_all

end Verif.Dij
