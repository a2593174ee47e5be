import Verif.Common.MixedRadix
/-! Model of `mesh/lattice.hh` and `mesh/lattice_partitioner.hh`.
`size_t`/`int`/`uint64_t` values are unbounded (`Nat`/`Int`); overflow is not modelled. -/
namespace Verif.Lat

/-- `lattice` (lattice.hh:65-68): `starts_`, `sizes_`; `prod_` is a function of `sizes_`. -/
structure Lattice where
  starts : List Nat
  sizes : List Nat
deriving DecidableEq, Repr

/-- `prod_` as computed by `lattice::reshape` (lattice.hh:156-167). -/
def Lattice.prod (l : Lattice) : List Nat := strides 1 l.sizes

/-- `lattice::nd` (lattice.hh:31). -/
def Lattice.nd (l : Lattice) : Nat := l.sizes.length

/-- `lattice::n` (lattice.hh:38): `prod_[nd-1] * sizes_[nd-1]`; undefined for `nd = 0`. -/
def Lattice.n (l : Lattice) : Option Nat :=
  match l.prod[l.nd - 1]?, l.sizes[l.nd - 1]? with
  | some p, some s => some (p * s)
  | _, _ => none

/-- `lattice::contains` (lattice.hh:148-154). -/
def Lattice.containsLoop : List Nat → List Nat → List Nat → Bool
  | s :: ss, n :: ns, x :: xs =>
    if x < s || x ≥ s + n then false else containsLoop ss ns xs
  | _, _, _ => true
/-- `lattice::contains`, include/ftk/mesh/lattice.hh:148-154. -/
def Lattice.contains (l : Lattice) (x : List Nat) : Bool := Lattice.containsLoop l.starts l.sizes x

/-- `sum_j (idx1[j]-starts_[j]) * prod_[j]`. -/
def dotOff : List Int → List Nat → List Nat → Int
  | x :: xs, s :: ss, p :: ps => (x - s) * p + dotOff xs ss ps
  | _, _, _ => 0

/-- `lattice::to_integer` (lattice.hh:196-207); `prod_[0] = 1` so the code's first term `idx[0]` is
`idx[0] * prod_[0]`.  Undefined if `nd = 0` or too few coordinates are given. -/
def Lattice.toInteger (l : Lattice) (x : List Int) : Option Int :=
  if l.nd = 0 ∨ x.length < l.nd then none else some (dotOff x l.starts l.prod)

/-- `lattice::from_integer` (lattice.hh:209-223); undefined (huge loop) if `nd = 0`. -/
def Lattice.fromInteger (l : Lattice) (i : Nat) : Option (List Int) :=
  if l.nd = 0 then none
  else some (List.zipWith (fun (a b : Nat) => (a : Int) + b) (decode l.prod i) l.starts)

/-- `std::numeric_limits<int>::max()` -/
def intMax : Nat := 2147483647

/-- `lattice::nd_cuttable`, `unlimited_time` (lattice.hh:32, 59): the last dimension is not cut if
its size is `INT_MAX`. -/
def Lattice.ndCuttable (l : Lattice) : Nat :=
  match l.sizes.getLast? with
  | some s => if s = intMax then l.nd - 1 else l.nd
  | none => l.nd

/-! ### lattice_partitioner.hh -/

/-- `while (n % i == 0) { factors.push_back(i); n = n / i; }` (lattice_partitioner.hh:54-57, 60-63). -/
def divOut (i : Nat) : Nat → Nat → List Nat → Option (Nat × List Nat)
  | fuel, n, acc =>
    if n % i = 0 then
      match fuel with
      | 0 => none
      | fuel + 1 => divOut i fuel (n / i) (acc ++ [i])
    else some (n, acc)

/-- `for (int i = 3; i <= sqrt(n); i += 2) ...` (lattice_partitioner.hh:59-64); the floating-point
test `i <= sqrt(n)` is modelled as `i*i ≤ n`. -/
def oddLoop : Nat → Nat → Nat → List Nat → Option (Nat × List Nat)
  | fuel, i, n, acc =>
    if i * i ≤ n then
      match fuel with
      | 0 => none
      | fuel + 1 =>
        match divOut i n n acc with
        | none => none
        | some (n', acc') => oddLoop fuel (i + 2) n' acc'
    else some (n, acc)

/-- `lattice_partitioner::prime_factorization` (lattice_partitioner.hh:50-72); `none` = the loop does
not terminate. -/
def primeFactorization (n : Nat) : Option (List Nat) :=
  match divOut 2 n n [] with
  | none => none
  | some (n1, acc1) =>
    match oddLoop n1 3 n1 acc1 with
    | none => none
    | some (n2, acc2) => some (if n2 > 1 then acc2 ++ [n2] else acc2).reverse

/-- `is_vector_zero` (lattice_partitioner.hh:74-80). -/
def isVectorZero (v : List Nat) : Bool := v.length == 0 || (v.length == 1 && v[0]? == some 0)

/-- first loop over `given` (lattice_partitioner.hh:117-129): `none` = early return because `np` is
not divisible; otherwise the remaining `np` and `has_zero`. -/
def givenLoop : List Nat → Nat → Bool → Option (Nat × Bool)
  | [], np, hz => some (np, hz)
  | g :: gs, np, hz =>
    if g ≠ 0 then (if np % g ≠ 0 then none else givenLoop gs (np / g) hz)
    else givenLoop gs np true

/-- second loop over `given` (lattice_partitioner.hh:135-141): `prime_factors_dims[i] = factors`;
`none` = out-of-bounds write. -/
def givenFactors : List Nat → Nat → List (List Nat) → Option (List (List Nat))
  | [], _, dims => some dims
  | g :: gs, i, dims =>
    if g > 1 then
      match primeFactorization g with
      | none => none
      | some fs => if i < dims.length then givenFactors gs (i + 1) (dims.set i fs) else none
    else givenFactors gs (i + 1) dims

/-- `while(!is_vector_zero(given) && given[curr] != 0) curr = (curr + 1) % ndim;`
(lattice_partitioner.hh:150-152).  `none`: out-of-bounds read, or the loop runs for ever. -/
def skipGiven (given : List Nat) (ndim : Nat) : Nat → Nat → Option Nat
  | fuel, curr =>
    if isVectorZero given then some curr
    else match given[curr]? with
      | none => none
      | some g =>
        if g = 0 then some curr
        else match fuel with
          | 0 => none
          | fuel + 1 => skipGiven given ndim fuel ((curr + 1) % ndim)

/-- distribution of the primes over the free dimensions (lattice_partitioner.hh:148-155). -/
def distribute (given : List Nat) (ndim : Nat) : List Nat → Nat → List (List Nat) →
    Option (List (List Nat))
  | [], _, dims => some dims
  | p :: ps, curr, dims =>
    match skipGiven given ndim ndim curr with
    | none => none
    | some c =>
      match dims[c]? with
      | none => none
      | some fs => distribute given ndim ps ((c + 1) % ndim) (dims.set c (fs ++ [p]))

/-- one block cut along one dimension into `nslice` pieces (lattice_partitioner.hh:217-228): the
`(start, size)` pairs; all slices have `ns = size / nslice` points, the last takes the rest. -/
def slicesGo (sz ns nslice : Nat) : Nat → Nat → List (Nat × Nat)
  | 0, s => [(s, sz - ns * (nslice - 1))]
  | k + 1, s => (s, ns) :: slicesGo sz ns nslice k (s + ns)
/-- The slicing loop of `partition`, include/ftk/mesh/lattice_partitioner.hh:217-228: sizes of the `nslice` pieces of `[s, s+sz)`. -/
def slices (s sz nslice : Nat) : List (Nat × Nat) := slicesGo sz (sz / nslice) nslice (nslice - 1) s

/-- body of the loop over the queue (lattice_partitioner.hh:212-230): `none` = undefined,
`some none` = `return` because the block is too thin, otherwise the pieces. -/
def cutBlock (curr nslice : Nat) (p : Lattice) : Option (Option (List Lattice)) :=
  match p.starts[curr]?, p.sizes[curr]? with
  | some s, some sz =>
    if sz < nslice then some none
    else some (some ((slices s sz nslice).map (fun ab =>
      { starts := p.starts.set curr ab.1, sizes := p.sizes.set curr ab.2 })))
  | _, _ => none

/-- one pass over the queue (lattice_partitioner.hh:209-231): each of the `n` blocks at the front is
popped and its pieces are pushed at the back, so the queue afterwards is the concatenation. -/
def cutRound (curr nslice : Nat) : List Lattice → Option (Option (List Lattice))
  | [] => some (some [])
  | p :: ps =>
    match cutBlock curr nslice p with
    | none => none
    | some none => some none
    | some (some qs) =>
      match cutRound curr nslice ps with
      | none => none
      | some none => some none
      | some (some rs) => some (some (qs ++ rs))

/-- the loop over the factors of one dimension (lattice_partitioner.hh:208-232). -/
def cutDim (curr : Nat) : List Nat → List Lattice → Option (Option (List Lattice))
  | [], q => some (some q)
  | f :: fs, q =>
    match cutRound curr f q with
    | none => none
    | some none => some none
    | some (some q') => cutDim curr fs q'

/-- the loop over the dimensions (lattice_partitioner.hh:207-233). -/
def cutDims : Nat → List (List Nat) → List Lattice → Option (Option (List Lattice))
  | _, [], q => some (some q)
  | curr, fs :: rest, q =>
    match cutDim curr fs q with
    | none => none
    | some none => some none
    | some (some q') => cutDims (curr + 1) rest q'

/-- `lattice_partitioner::partition(prime_factors_dims)` (lattice_partitioner.hh:200-249) on a
partitioner with no cores yet: the cores, `[]` on early return. -/
def partitionPrimes (l : Lattice) (dims : List (List Nat)) : Option (List Lattice) :=
  match cutDims 0 dims [l] with
  | none => none
  | some none => some []
  | some (some q) => some q

/-- `given` handling and prime distribution (lattice_partitioner.hh:114-156); `some none` = early
return. -/
def factorDims (ndim np : Nat) (given : List Nat) : Option (Option (List (List Nat))) :=
  let dims0 := List.replicate ndim ([] : List Nat)
  let pre : Option (Option (Nat × List (List Nat))) :=
    if isVectorZero given then some (some (np, dims0))
    else match givenLoop given np false with
      | none => some none
      | some (np', hz) =>
        if !hz && np' > 1 then some none
        else match givenFactors given 0 dims0 with
          | none => none
          | some dims => some (some (np', dims))
  match pre with
  | none => none
  | some none => some none
  | some (some (np', dims)) =>
    if np' > 1 then
      match primeFactorization np' with
      | none => none
      | some ps =>
        match distribute given ndim ps 0 dims with
        | none => none
        | some dims' => some (some dims')
    else some (some dims)

/-- cores of `lattice_partitioner::partition(np, given, ...)` (lattice_partitioner.hh:97-160) for a
fresh partitioner: `none` = undefined behaviour / non-termination, `[]` = gave up. -/
def partitionCores (l : Lattice) (np : Nat) (given : List Nat) : Option (List Lattice) :=
  if np = 0 then some []
  else match factorDims l.ndCuttable np given with
    | none => none
    | some none => some []
    | some (some dims) => partitionPrimes l dims

/-- one dimension of `add_ghost` (lattice_partitioner.hh:318-337): new start and size.
`size_t` subtraction is truncated; with the core inside the lattice it never wraps. -/
def ghost1 (ls lz s z gl gh : Nat) : Nat × Nat :=
  let off := if gl < s - ls then gl else s - ls
  let s' := s - off
  let z' := z + off
  let off2 := if gh < (ls + lz) - (s' + z') then gh else (ls + lz) - (s' + z')
  (s', z' + off2)

/-- the loop of `add_ghost` over the dimensions `d < nd_cuttable` (lattice_partitioner.hh:317-338);
`none` = out-of-bounds read. -/
def ghostLoop (l : Lattice) (gl gh : List Nat) : Nat → Nat → Lattice → Option Lattice
  | 0, _, b => some b
  | k + 1, d, b =>
    match l.starts[d]?, l.sizes[d]?, b.starts[d]?, b.sizes[d]?, gl[d]?, gh[d]? with
    | some ls, some lz, some s, some z, some a, some c =>
      let r := ghost1 ls lz s z a c
      ghostLoop l gl gh k (d + 1) { starts := b.starts.set d r.1, sizes := b.sizes.set d r.2 }
    | _, _, _, _, _, _ => none

/-- `lattice_partitioner::add_ghost` (lattice_partitioner.hh:308-341). -/
def addGhost (l b : Lattice) (gl gh : List Nat) : Option Lattice :=
  if gl.isEmpty || gh.isEmpty then some b
  else ghostLoop l gl gh l.ndCuttable 0 b

end Verif.Lat
