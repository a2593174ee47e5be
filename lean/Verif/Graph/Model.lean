import Verif.UnionFind.Model
import Mathlib.Order.Nat
import Mathlib.Order.Basic
import Mathlib.Data.Nat.Basic
/-! Model of `algorithms/{bfs,cca,cca_bfs,ccl}.hh` and `geometry/cc2curves.hh`.
`std::set` values are strictly increasing lists; `neighbors` is a pure function to the list of
neighbors in iteration order. -/
namespace Verif.Gr

/-! ### bfs.hh -/

/-- one round of the neighbor loop (bfs.hh:30-36) on `(visited, Q)`. -/
def bfsPush {α : Type} [DecidableEq α] (crit : α → Bool) (vq : List α × List α) (n : α) :
    List α × List α :=
  if n ∈ vq.1 then vq
  else if crit n then (n :: vq.1, vq.2 ++ [n]) else vq

/-- `while (!Q.empty())` (bfs.hh:24-37); the calls of `operation` are recorded, oldest first.
`none`: not finished after `fuel` rounds. -/
def bfsLoop {α : Type} [DecidableEq α] (nb : α → List α) (crit : α → Bool) :
    Nat → List α → List α → List α → Option (List α)
  | _, _, [], tr => some tr
  | 0, _, _ :: _, _ => none
  | fuel + 1, V, c :: Q, tr =>
    let vq := (nb c).foldl (bfsPush crit) (V, Q)
    bfsLoop nb crit fuel vq.1 vq.2 (tr ++ [c])

/-- `bfs` (bfs.hh:10-38). -/
def bfs {α : Type} [DecidableEq α] (fuel : Nat) (seed : α) (nb : α → List α) (crit : α → Bool) :
    Option (List α) :=
  if crit seed then bfsLoop nb crit fuel [seed] [seed] [] else some []

/-! ### ccl.hh -/

/-- the visitor `labels[i] = componentCount` applied to the visited nodes; `none` = out of bounds
(ccl.hh:22-27). -/
def setLabels (c : Nat) : List Nat → List Nat → Option (List Nat)
  | [], labels => some labels
  | x :: xs, labels => if x < labels.length then setLabels c xs (labels.set x c) else none

/-- the seed loop of `labelConnectedComponents` (ccl.hh:19-29) over the remaining seeds. -/
def labelLoop (fuel : Nat) (nb : Nat → List Nat) (crit : Nat → Bool) :
    List Nat → List Nat → Nat → Option (List Nat × Nat)
  | [], labels, cnt => some (labels, cnt)
  | s :: ss, labels, cnt =>
    match labels[s]? with
    | none => none
    | some l =>
      if l = 0 ∧ crit s then
        match bfs fuel s nb crit with
        | none => none
        | some tr =>
          match setLabels (cnt + 1) tr labels with
          | none => none
          | some labels' => labelLoop fuel nb crit ss labels' (cnt + 1)
      else labelLoop fuel nb crit ss labels cnt

/-- `labelConnectedComponents(nNodes, labels, neighbors, criterion)` (ccl.hh:10-32): labels and
count. -/
def labelComponents (n : Nat) (labels : List Nat) (nb : Nat → List Nat) (crit : Nat → Bool) :
    Option (List Nat × Nat) := labelLoop n nb crit (List.range n) labels 0

/-- `trackConnectedComponentsByLabels` (ccl.hh:34-48): the pairs inserted, in order; `none` = `labels1`
is shorter. -/
def trackByLabels : List Nat → List Nat → Option (List (Nat × Nat))
  | [], _ => some []
  | _ :: _, [] => none
  | p :: ps, q :: qs =>
    match trackByLabels ps qs with
    | none => none
    | some r => some (if p ≠ q ∧ p ≠ 0 ∧ q ≠ 0 then (p, q) :: r else r)

/-! ### cca.hh -/

variable {α : Type} [LinearOrder α]

/-- `for (auto neighbor : neighbors(current)) if (UF.has(neighbor)) UF.unite(current, neighbor)`
(cca.hh:106-110). -/
def uniteNbs (cur : α) : List α → UF.UnionFind α → Option (UF.UnionFind α)
  | [], s => some s
  | n :: ns, s =>
    if s.has n then
      match s.unite cur n with
      | none => none
      | some s' => uniteNbs cur ns s'
    else uniteNbs cur ns s

/-- the second loop over `qualified` (cca.hh:103-111). -/
def uniteAll (nb : α → List α) : List α → UF.UnionFind α → Option (UF.UnionFind α)
  | [], s => some s
  | c :: cs, s =>
    match uniteNbs c (nb c) s with
    | none => none
    | some s' => uniteAll nb cs s'

/-- `extract_connected_components(neighbors, qualified)` (cca.hh:91-116). -/
def extractCC (nb : α → List α) (qualified : List α) : Option (List (List α)) :=
  match uniteAll nb qualified (qualified.foldl UF.UnionFind.add UF.UnionFind.init) with
  | none => none
  | some s => s.getSets.map Prod.snd

/-- `extract_connected_components(nNodes, neighbors, criterion)` (cca.hh:118-134): qualified ids. -/
def extractCCn (n : Nat) (nb : Nat → List Nat) (crit : Nat → Bool) : Option (List (List Nat)) :=
  extractCC nb (((List.range n).filter crit).foldl (fun acc x => setInsert x acc) [])

/-- `extract_connected_components(nodes, neighbors, criterion)` (cca.hh:136-148). -/
def extractCCnodes (nodes : List α) (nb : α → List α) (crit : α → Bool) : Option (List (List α)) :=
  extractCC nb ((nodes.filter crit).foldl (fun acc x => setInsert x acc) [])

/-- `overlaps` (cca.hh:72-76). -/
def overlaps (s0 s1 : List α) : Bool := s0.any (fun e => decide (e ∈ s1))

/-- `track_connected_components` (cca.hh:67-88): the pairs `(i, j)` inserted. -/
def trackCC (c0 c1 : List (List α)) : List (Nat × Nat) :=
  (List.range c0.length).flatMap (fun i => ((List.range c1.length).filter (fun j =>
    overlaps (c0.getD i []) (c1.getD j []))).map (fun j => (i, j)))

/-! ### cca_bfs.hh -/

/-- neighbor loop (cca_bfs.hh:70-76) on the set `Q`. -/
def ccbPush (qualified visited : List α) (Q : List α) (n : α) : List α :=
  if n ∈ qualified ∧ n ∉ visited ∧ n ∉ Q then setInsert n Q else Q

/-- inner loop `while (!Q.empty())` (cca_bfs.hh:65-77). -/
def ccbInner (nb : α → List α) (qualified : List α) : Nat → List α → List α → Option (List α)
  | _, [], visited => some visited
  | 0, _ :: _, _ => none
  | fuel + 1, c :: Q, visited =>
    let visited' := setInsert c visited
    ccbInner nb qualified fuel ((nb c).foldl (ccbPush qualified visited') Q) visited'

/-- outer loop (cca_bfs.hh:61-83). -/
def ccbOuter (nb : α → List α) : Nat → List α → List (List α) → Option (List (List α))
  | _, [], comps => some comps
  | 0, _ :: _, _ => none
  | fuel + 1, q :: qs, comps =>
    match ccbInner nb (q :: qs) (q :: qs).length [q] [] with
    | none => none
    | some v => ccbOuter nb fuel ((q :: qs).filter (fun x => decide (x ∉ v))) (comps ++ [v])

/-- `extract_connected_components_bfs(neighbors, qualified)` (cca_bfs.hh:32-86); the overloads with a
criterion call `extract_connected_components` (cca_bfs.hh:88-118), i.e. `extractCC`. -/
def extractCCbfs (nb : α → List α) (qualified : List α) : Option (List (List α)) :=
  ccbOuter nb qualified.length qualified []

/-! ### cc2curves.hh -/

/-- `valid_neighbors` (cc2curves.hh:21-24). -/
def validNbs (nb : α → List α) (cc : List α) (x : α) : List α :=
  (nb x).filter (fun y => decide (y ≠ x ∧ y ∈ cc))

/-- `ordinary_nodes` (cc2curves.hh:19-31). -/
def ordinary (nb : α → List α) (cc : List α) : List α :=
  cc.filter (fun x => decide (¬ (validNbs nb cc x).length > 2))

/-- `special_nodes`. -/
def special (nb : α → List α) (cc : List α) : List α :=
  cc.filter (fun x => decide ((validNbs nb cc x).length > 2))

/-- the neighbor function passed to `extract_connected_components` (cc2curves.hh:34-43). -/
def ordNbs (nb : α → List α) (cc : List α) (x : α) : List α :=
  (nb x).filter (fun y => ! (decide (y ∉ cc) || decide (y ∈ special nb cc)))

/-- first neighbor that is not `cur`, in `c` and not visited (cc2curves.hh:86-98). -/
def nextNode (nb : α → List α) (c visited : List α) (cur : α) : Option α :=
  (nb cur).find? (fun y => decide (y ≠ cur ∧ y ∈ c ∧ y ∉ visited))

/-- `while (1)` of one direction (cc2curves.hh:74-100) on `(trace, visited)`; `front` tells which end
the nodes are pushed to. -/
def traceLoop (nb : α → List α) (c : List α) (front : Bool) :
    Nat → α → List α → List α → Option (List α × List α)
  | 0, _, _, _ => none
  | fuel + 1, cur, trace, visited =>
    let tv := if cur ∈ visited then (trace, visited)
      else (if front then cur :: trace else trace ++ [cur], cur :: visited)
    match nextNode nb c tv.2 cur with
    | none => some tv
    | some n => traceLoop nb c front fuel n tv.1 tv.2

/-- tracing one component (cc2curves.hh:47-107); `none` = empty component or not finished. -/
def traceComponent (nb : α → List α) (ord c : List α) : Option (List α) :=
  match c with
  | [] => none
  | seed :: _ =>
    let sn := (nb seed).filter (fun y => decide (y ≠ seed ∧ y ∈ ord))
    match sn.head?, sn.getLast? with
    | some a, some b =>
      match traceLoop nb c false (c.length + 1) a [seed] [seed] with
      | none => none
      | some (tr, vis) =>
        if sn.length = 1 then some tr
        else (traceLoop nb c true (c.length + 1) b tr vis).map Prod.fst
    | _, _ => some [seed]

/-- all components in turn -/
def traceAll (nb : α → List α) (ord : List α) : List (List α) → Option (List (List α))
  | [] => some []
  | c :: cs =>
    match traceComponent nb ord c, traceAll nb ord cs with
    | some t, some ts => some (t :: ts)
    | _, _ => none

/-- `connected_component_to_linear_components` (cc2curves.hh:10-111). -/
def linearComponents (nb : α → List α) (cc : List α) : Option (List (List α)) :=
  if cc.isEmpty then some []
  else match extractCC (ordNbs nb cc) (ordinary nb cc) with
    | none => none
    | some comps => traceAll nb (ordinary nb cc) comps

/-- `is_loop` (cc2curves.hh:113-122). -/
def isLoop (nb : α → List α) (l : List α) : Bool :=
  match l.head?, l.getLast? with
  | some a, some b => if l.length = 1 then false else decide (b ∈ nb a)
  | _, _ => false

end Verif.Gr
