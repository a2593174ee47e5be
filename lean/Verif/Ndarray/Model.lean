import Verif.Common.MixedRadix
import Verif.Lattice.Model
import Mathlib.Order.Basic
import Mathlib.Order.Nat
import Mathlib.Algebra.Order.Group.Unbundled.Abs
/-! Model of `ndarray<T>` (include/ftk/ndarray.hh, include/ftk/ndarray/ndarray_base.hh).
`size_t` is `Nat` (no overflow; `nelem()` accumulates in `int` in the code).  Reading or writing outside
`p`, `dims`, `s` or an index vector, and `fatal(...)`, are the outcome `none`. -/
namespace Verif.ND

/-- `ndarray<T>`: `dims`, strides `s`, number of component dimensions `ncd`, time flag `tv`
(ndarray_base.hh:182-185) and the data `p` (ndarray.hh:299). -/
structure Nd (T : Type) where
  dims : List Nat := []
  s : List Nat := []
  ncd : Nat := 0
  tv : Bool := false
  p : List T := []
deriving DecidableEq, Repr

variable {T : Type}

/-- `ndarray_base::nd` (ndarray_base.hh:75). -/
def Nd.nd (a : Nd T) : Nat := a.dims.length

/-- `ndarray_base::nelem` (ndarray_base.hh:79): 0 if there is no data, else the product of the dims. -/
def Nd.nelem (a : Nd T) : Nat := if a.p = [] then 0 else a.dims.foldl (· * ·) 1

/-- `std::vector::resize`: truncate, or append value-initialised elements. -/
def resize [Inhabited T] (n : Nat) (p : List T) : List T := p.take n ++ List.replicate (n - p.length) default

/-- `ndarray::reshape(dims)` (ndarray.hh:722-736): strides are running products, `p` is resized to
`s[nd-1] * dims[nd-1]`; an empty shape is `fatal`. -/
def Nd.reshape [Inhabited T] (a : Nd T) (d : List Nat) : Option (Nd T) :=
  match (strides 1 d).getLast?, d.getLast? with
  | some sl, some dl => some { a with dims := d, s := strides 1 d, p := resize (sl * dl) a.p }
  | _, _ => none

/-- `ndarray::reshape(dims, val)` (ndarray.hh:738-743). -/
def Nd.reshapeFill [Inhabited T] (a : Nd T) (d : List Nat) (v : T) : Option (Nd T) :=
  (a.reshape d).map fun b => { b with p := b.p.map fun _ => v }

/-- `ndarray::reset` (ndarray.hh:82). -/
def Nd.reset (_a : Nd T) : Nd T := {}

/-- `ndarray_base::index` (ndarray_base.hh:218-230): `idx[0] + sum_{1 ≤ j < nd} idx[j] * s[j]`; reading
`idx` beyond its end is undefined.  The fixed-arity `at(i0, i1, ...)` (ndarray.hh:103-117) compute the same sum. -/
def Nd.index (a : Nd T) : List Nat → Option Nat
  | [] => none
  | i0 :: is => if is.length < a.nd - 1 ∨ a.s.length < a.nd then none else some (i0 + dot (is.take (a.nd - 1)) a.s.tail)

/-- reading `at(idx)` (ndarray.hh:94-101). -/
def Nd.get (a : Nd T) (idx : List Nat) : Option T := (a.index idx).bind (a.p[·]?)

/-- `operator[](i) = v` on the flat data (ndarray.hh:164). -/
def Nd.setFlat (a : Nd T) (i : Nat) (v : T) : Option (Nd T) :=
  if i < a.p.length then some { a with p := a.p.set i v } else none

/-- assigning through the reference returned by `at(idx)` (ndarray.hh:94-101). -/
def Nd.set (a : Nd T) (idx : List Nat) (v : T) : Option (Nd T) := (a.index idx).bind fun k => a.setFlat k v

/-- `fill(T)` (ndarray.hh:386-389). -/
def Nd.fill (a : Nd T) (v : T) : Nd T := { a with p := a.p.map fun _ => v }

/-- `fill(const std::vector<T>&)` (ndarray.hh:392-395): the data is replaced, the shape is not. -/
def Nd.fillVec (a : Nd T) (v : List T) : Nd T := { a with p := v }

/-- `copy_vector` (ndarray.hh:428-432) and `copy(first, last)` (ndarray.hh:436-441). -/
def Nd.copyVector [Inhabited T] (a : Nd T) (v : List T) : Option (Nd T) := { a with p := v }.reshape [v.length]

/-- `from_vector` (ndarray.hh:419-425): overwrite a prefix, stop at the end of either. -/
def Nd.fromVector (a : Nd T) (v : List T) : Nd T :=
  { a with p := (List.range a.nelem).foldl (fun p i => match v[i]? with | some x => p.set i x | none => p) a.p }

/-- `for (i = 0; i < n; i ++) array[i] = f(i)` where `f` may be undefined. -/
def fillFrom (f : Nat → Option T) (n : Nat) (a : Nd T) : Option (Nd T) :=
  (List.range n).foldlM (fun b i => (f i).bind fun v => b.setFlat i v) a

/-- `from_array(const ndarray<T1>&)` (ndarray.hh:401-410), `cast` is the `static_cast`. -/
def Nd.fromArray [Inhabited T] {T1 : Type} (cast : T1 → T) (a : Nd T) (b : Nd T1) : Option (Nd T) :=
  (a.reshape b.dims).bind fun c =>
    (fillFrom (fun i => (b.p[i]?).map cast) c.p.length c).map fun d => { d with ncd := b.ncd, tv := b.tv }

/-- `operator+` (ndarray.hh:349-358): the result has the shape of the left operand. -/
def add [Inhabited T] (op : T → T → T) (l r : Nd T) : Option (Nd T) :=
  (({} : Nd T).reshape l.dims).bind fun c =>
    fillFrom (fun i => (l.p[i]?).bind fun x => (r.p[i]?).map (op x)) c.nelem c

/-- `operator+=` (ndarray.hh:337-346); the `assert` on the shapes makes a mismatch undefined. -/
def Nd.addAssign (op : T → T → T) (a x : Nd T) : Option (Nd T) :=
  if a.p = [] then some x
  else if a.dims = x.dims then
    fillFrom (fun i => (a.p[i]?).bind fun u => (x.p[i]?).map (op u)) a.p.length a
  else none

/-- `operator*=` (ndarray.hh:319-325), `operator/=` (ndarray.hh:328-334). -/
def Nd.mapAssign (f : T → T) (a : Nd T) : Nd T := { a with p := a.p.map f }

/-- All multi-indices of a shape, in the order of the nested loops `for i < dim(0) for j < dim(1) ...`. -/
def allIdx : List Nat → List (List Nat)
  | [] => [[]]
  | d :: ds => (List.range d).flatMap fun i => (allIdx ds).map (i :: ·)

/-- `get_transpose` (ndarray.hh:1124-1154): the code has one nest of loops per `nd = 2, 3, 4`; here the
nest is the list `allIdx dims`.  More than 4 dimensions are `fatal`. -/
def Nd.getTranspose [Inhabited T] (a : Nd T) : Option (Nd T) :=
  if a.nd = 0 then some {}
  else if a.nd = 1 then some a
  else if a.nd ≤ 4 then
    (({} : Nd T).reshape a.dims.reverse).bind fun b =>
      (allIdx a.dims).foldlM (fun b idx => (a.get idx).bind fun v => b.set idx.reverse v) b
  else none

/-- `slice(const lattice&)` (ndarray.hh:1021-1029); `from_integer` gives `int`s converted to `size_t`. -/
def Nd.slice [Inhabited T] (a : Nd T) (l : Lat.Lattice) : Option (Nd T) :=
  (({} : Nd T).reshape l.sizes).bind fun b => l.n.bind fun n =>
    fillFrom (fun i => (l.fromInteger i).bind fun idx => a.get (idx.map Int.toNat)) n b

/-- `subarray` (ndarray.hh:454-473) when no component dimension has to be prepended: as `slice`, keeping
`ncd`.  If `nd_cuttable() < nd()` and `ncd > 0` the code inserts into `sizes_` at an iterator of `starts_`, which is
undefined. -/
def Nd.subarray [Inhabited T] (a : Nd T) (l : Lat.Lattice) : Option (Nd T) :=
  if l.ndCuttable < a.nd ∧ 0 < a.ncd then none
  else (({} : Nd T).reshape l.sizes).bind fun b =>
    (fillFrom (fun i => (l.fromInteger i).bind fun idx => a.get (idx.map Int.toNat)) b.nelem b).map
      fun c => { c with ncd := a.ncd }

/-- `slice_time(t)` (ndarray.hh:1038-1048): the `memcpy` of `s[nd-1]` elements from `p[t*s[nd-1]]`. -/
def Nd.sliceTime [Inhabited T] (a : Nd T) (t : Nat) : Option (Nd T) :=
  (({} : Nd T).reshape (a.dims.take (a.nd - 1))).bind fun b =>
    (a.s[a.nd - 1]?).bind fun sl =>
      if t * sl + sl ≤ a.p.length ∧ sl ≤ b.p.length then
        some { b with p := (a.p.drop (t * sl)).take sl ++ b.p.drop sl }
      else none

/-- `slice_time()` (ndarray.hh:1051-1058). -/
def Nd.sliceTimes [Inhabited T] (a : Nd T) : Option (List (Nd T)) :=
  (a.dims[a.nd - 1]?).bind fun nt => (List.range nt).mapM a.sliceTime

/-- `concat` (ndarray.hh:1157-1172): component index first; `for i < n, for j < n1: result[i*n1+j] = arrays[j][i]`. -/
def concat [Inhabited T] (as : List (Nd T)) : Option (Nd T) :=
  (as.head?).bind fun a0 =>
    (({} : Nd T).reshape (as.length :: a0.dims)).bind fun r =>
      ((List.range a0.nelem).flatMap fun i => (List.range as.length).map fun j => (i, j)).foldlM
        (fun r ij => (as[ij.2]?).bind fun a => (a.p[ij.1]?).bind fun v => r.setFlat (ij.1 * as.length + ij.2) v) r

/-- `stack` (ndarray.hh:1175-1190): time index last; `for j < n1, for i < n: result[i+j*n] = arrays[j][i]`. -/
def stack [Inhabited T] (as : List (Nd T)) : Option (Nd T) :=
  (as.head?).bind fun a0 =>
    (({} : Nd T).reshape (a0.dims ++ [as.length])).bind fun r =>
      ((List.range as.length).flatMap fun j => (List.range a0.nelem).map fun i => (i, j)).foldlM
        (fun r ij => (as[ij.2]?).bind fun a => (a.p[ij.1]?).bind fun v => r.setFlat (ij.1 + ij.2 * a0.nelem) v) r

/-- `make_multicomponents` (ndarray_base.hh:237-243). -/
def Nd.makeMulticomponents [Inhabited T] (a : Nd T) : Option (Nd T) :=
  (a.reshape (1 :: a.dims)).map fun b => { b with ncd := 1 }

/-- `ncomponents` (ndarray_base.hh:194-199). -/
def Nd.ncomponents (a : Nd T) : Option Nat :=
  if a.nd < a.ncd then none else some ((a.dims.take a.ncd).foldl (· * ·) 1)

section Order
variable [LinearOrder T]

/-- `min_max` (ndarray.hh:747-757); `tmax`, `tmin` are `numeric_limits<T>::max()`, `numeric_limits<T>::min()`. -/
def Nd.minMax (tmax tmin : T) (a : Nd T) : Option (T × T) :=
  (List.range a.nelem).foldlM (fun (m : T × T) i => (a.p[i]?).map fun x => (min m.1 x, max m.2 x)) (tmax, tmin)

/-- `ftk::clamp(x, a, b)` (numeric/clamp.hh:15-20). -/
def clampVal (x a b : T) : T := min (max a x) b

/-- `clamp(min, max)` (ndarray.hh:1344-1350). -/
def Nd.clamp (lo hi : T) (a : Nd T) : Option (Nd T) :=
  fillFrom (fun i => (a.p[i]?).map fun x => clampVal x lo hi) a.nelem a

end Order

section Abs
variable [LinearOrder T] [AddCommGroup T]

/-- `maxabs` (ndarray.hh:760-767). -/
def Nd.maxabs (a : Nd T) : Option T :=
  (List.range a.nelem).foldlM (fun r i => (a.p[i]?).map fun x => max r |x|) 0

/-- `resolution` (ndarray.hh:770-778); `tmax` is `numeric_limits<T>::max()`. -/
def Nd.resolution (tmax : T) (a : Nd T) : Option T :=
  (List.range a.nelem).foldlM (fun r i => (a.p[i]?).map fun x => if x ≠ 0 then min r |x| else r) tmax

end Abs

end Verif.ND
