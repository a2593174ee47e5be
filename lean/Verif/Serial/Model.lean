import Mathlib.Order.Basic
import Mathlib.Order.Nat
import Mathlib.Data.List.Basic
/-! Model of `diy` serialization (include/ftk/external/diy/serialization.hpp), `diy::StringBuffer`
(include/ftk/utils/serialization.hh) and the serializers of ftk types.  Bytes are `UInt8`.  The in-memory image of a
trivially copyable value is modelled for the types used: integers little-endian two's complement, `bool` one byte,
`double` its 64-bit pattern (a natural number below `2^64`).  Reading past the end of a buffer is `none`. -/
namespace Verif.Ser

/-- `StringBuffer` (utils/serialization.hh:15-18): the string and the cursor. -/
structure Buf where
  str : List UInt8 := []
  pos : Nat := 0
deriving DecidableEq, Repr

/-- `save_binary` (utils/serialization.hh:24-28): grow if necessary, overwrite at the cursor, advance. -/
def Buf.saveBinary (b : Buf) (xs : List UInt8) : Buf :=
  let s := if b.pos + xs.length > b.str.length then
      b.str ++ List.replicate (b.pos + xs.length - b.str.length) 0 else b.str
  { str := s.take b.pos ++ xs ++ s.drop (b.pos + xs.length), pos := b.pos + xs.length }

/-- `load_binary` (utils/serialization.hh:34-37). -/
def Buf.loadBinary (b : Buf) (n : Nat) : Option (List UInt8 × Buf) :=
  if b.pos + n ≤ b.str.length then some ((b.str.drop b.pos).take n, { b with pos := b.pos + n }) else none

/-- `operator bool` (utils/serialization.hh:22). -/
def Buf.more (b : Buf) : Bool := b.pos < b.str.length

/-- `diy::Serialization<T>`: `save(bb, x)` and `load(bb, x)`; `load` overwrites an existing object, given as its first
argument (serialization.hpp:92-111). -/
structure Codec (α : Type) where
  save : α → Buf → Buf
  load : α → Buf → Option (α × Buf)

/-- little-endian bytes of a number -/
def encLE : Nat → Nat → List UInt8
  | 0, _ => []
  | n + 1, v => UInt8.ofNat (v % 256) :: encLE n (v / 256)

/-- number of little-endian bytes -/
def decLE : List UInt8 → Nat
  | [] => 0
  | b :: bs => b.toNat + 256 * decLE bs

/-- default serialization of an unsigned `n`-byte integer (serialization.hpp:100-101). -/
def uint (n : Nat) : Codec Nat where
  save v b := b.saveBinary (encLE n v)
  load _ b := (b.loadBinary n).map fun r => (decLE r.1, r.2)

/-- `size_t` -/
def sizeT : Codec Nat := uint 8

/-- `int` (4 bytes, two's complement) -/
def int32 : Codec Int where
  save v b := (uint 4).save (v % 2 ^ 32).toNat b
  load _ b := ((uint 4).load 0 b).map fun r => (if r.1 < 2 ^ 31 then (r.1 : Int) else (r.1 : Int) - 2 ^ 32, r.2)

/-- `bool` (one byte) -/
def boolC : Codec Bool where
  save v b := (uint 1).save v.toNat b
  load _ b := ((uint 1).load 0 b).map fun r => (r.1 != 0, r.2)

/-- `double`: its bit pattern -/
def f64 : Codec Nat := uint 8

/-- `diy::save(bb, x, n)` on `n` elements (serialization.hpp:143-151): element by element; for default-serialized
elements the code makes one copy of `sizeof(T)*n` bytes, which is the same byte sequence. -/
def saveAll {α : Type} (c : Codec α) (xs : List α) (b : Buf) : Buf := xs.foldl (fun b x => c.save x b) b

/-- `diy::load(bb, x, n)` (serialization.hpp:153-161), loading over the existing elements. -/
def loadAll {α : Type} (c : Codec α) : List α → Buf → Option (List α × Buf)
  | [], b => some ([], b)
  | x :: xs, b => (c.load x b).bind fun r => (loadAll c xs r.2).map fun q => (r.1 :: q.1, q.2)

/-- `std::array<T, n>` (default serialization of the whole array). -/
def arr {α : Type} (n : Nat) (d : α) (c : Codec α) : Codec (List α) where
  save x b := saveAll c x b
  load _ b := loadAll c (List.replicate n d) b

/-- `std::vector<U>` (serialization.hpp:192-213): size, then the elements; `load` resizes and overwrites. -/
def vec {α : Type} (d : α) (c : Codec α) : Codec (List α) where
  save v b := saveAll c v (sizeT.save v.length b)
  load v b := (sizeT.load 0 b).bind fun r =>
    loadAll c (v.take r.1 ++ List.replicate (r.1 - v.length) d) r.2

/-- `std::pair<X, Y>` (serialization.hpp:266-282); also two consecutive `diy::save` / `diy::load` calls. -/
def pair {α β : Type} (c : Codec α) (d : Codec β) : Codec (α × β) where
  save p b := d.save p.2 (c.save p.1 b)
  load p b := (c.load p.1 b).bind fun r => (d.load p.2 r.2).map fun q => ((r.1, q.1), q.2)

/-- saving / loading some members of an object -/
def members {σ α : Type} (get : σ → α) (put : σ → α → σ) (c : Codec α) : Codec σ where
  save s b := c.save (get s) b
  load s b := (c.load (get s) b).map fun r => (put s r.1, r.2)

section Maps
variable {κ : Type} [LinearOrder κ]

/-- value of a key in a `std::map`, kept as a list sorted by key -/
def lookup {ν : Type} (k : κ) : List (κ × ν) → Option ν
  | [] => none
  | (k', v) :: m => if k = k' then some v else lookup k m

/-- `m[k] = v` -/
def mapPut {ν : Type} (k : κ) (v : ν) : List (κ × ν) → List (κ × ν)
  | [] => [(k, v)]
  | (k', v') :: m => if k < k' then (k, v) :: (k', v') :: m else if k = k' then (k, v) :: m else (k', v') :: mapPut k v m

/-- `m.insert({k, v})`: an existing entry is kept -/
def mapInsert {ν : Type} (m : List (κ × ν)) (e : κ × ν) : List (κ × ν) :=
  match lookup e.1 m with
  | some _ => m
  | none => mapPut e.1 e.2 m

/-- the loading loop of `std::map` (serialization.hpp:302-307): the key is loaded into a fresh `K`, the value into
`m[k]`, which is created from a default value if absent. -/
def loadEntries {ν : Type} (dk : κ) (dv : ν) (ck : Codec κ) (cv : Codec ν) :
    Nat → List (κ × ν) → Buf → Option (List (κ × ν) × Buf)
  | 0, m, b => some (m, b)
  | n + 1, m, b => (ck.load dk b).bind fun r =>
      (cv.load ((lookup r.1 m).getD dv) r.2).bind fun q => loadEntries dk dv ck cv n (mapPut r.1 q.1 m) q.2

/-- `std::map<K, V>` (serialization.hpp:284-309). -/
def mapC {ν : Type} (dk : κ) (dv : ν) (ck : Codec κ) (cv : Codec ν) : Codec (List (κ × ν)) where
  save m b := m.foldl (fun b e => (pair ck cv).save e b) (sizeT.save m.length b)
  load m b := (sizeT.load 0 b).bind fun r => loadEntries dk dv ck cv r.1 m r.2

/-- `std::set::insert` on a sorted list. -/
def setPut (k : κ) : List κ → List κ
  | [] => [k]
  | k' :: m => if k < k' then k :: k' :: m else if k = k' then k' :: m else k' :: setPut k m

/-- the loading loop of `std::set` (serialization.hpp:329-334). -/
def loadKeys (dk : κ) (ck : Codec κ) : Nat → List κ → Buf → Option (List κ × Buf)
  | 0, m, b => some (m, b)
  | n + 1, m, b => (ck.load dk b).bind fun r => loadKeys dk ck n (setPut r.1 m) r.2

/-- `std::set<T>` (serialization.hpp:311-336). -/
def setC (dk : κ) (ck : Codec κ) : Codec (List κ) where
  save m b := saveAll ck m (sizeT.save m.length b)
  load m b := (sizeT.load 0 b).bind fun r => loadKeys dk ck r.1 m r.2

end Maps

/-- `serializeToString` (utils/serialization.hh:45-50). -/
def serializeToString {α : Type} (c : Codec α) (x : α) : List UInt8 := (c.save x {}).str

/-- `unserializeFromString` (utils/serialization.hh:71-76) into the object `x`. -/
def unserializeFromString {α : Type} (c : Codec α) (s : List UInt8) (x : α) : Option α :=
  (c.load x { str := s }).map (·.1)

/-! ### ftk types -/

/-- `feature_point_t` (features/feature_point.hh:109-120); `double`s as bit patterns. -/
structure Point where
  x : List Nat := [0, 0, 0]
  t : Nat := 0
  timestep : Int := 0
  scalar : List Nat
  v : List Nat := [0, 0, 0]
  type : Nat := 0
  ordinal : Bool := false
  tag : Nat := 0
  id : Nat := 0
deriving DecidableEq, Repr

/-- `Serialization<feature_point_t>` (features/feature_point.hh:160-189); `nv` is `FTK_CP_MAX_NUM_VARS`. -/
def pointC (nv : Nat) : Codec Point :=
  members
    (fun p => (p.x, p.t, p.timestep, p.scalar, p.v, p.type, p.ordinal, p.tag, p.id))
    (fun _ q => { x := q.1, t := q.2.1, timestep := q.2.2.1, scalar := q.2.2.2.1, v := q.2.2.2.2.1,
                  type := q.2.2.2.2.2.1, ordinal := q.2.2.2.2.2.2.1, tag := q.2.2.2.2.2.2.2.1,
                  id := q.2.2.2.2.2.2.2.2 })
    (pair (arr 3 0 f64) (pair f64 (pair int32 (pair (arr nv 0 f64) (pair (arr 3 0 f64)
      (pair (uint 4) (pair boolC (pair (uint 8) (uint 8)))))))))

/-- `feature_curve_t` (features/feature_curve.hh:46-54): members and points. -/
structure Curve where
  id : Int
  complete : Bool
  loop : Bool
  max : List Nat
  min : List Nat
  persistence : List Nat
  bbmin : List Nat
  bbmax : List Nat
  tmin : Nat
  tmax : Nat
  vmmin : Nat
  vmmax : Nat
  consistent : Nat
  pts : List Point
deriving DecidableEq, Repr

/-- `Serialization<feature_curve_t>` (features/feature_curve.hh:471-508): `id`, `loop`, `vmmin`, `vmmax` are neither
saved nor loaded. -/
def curveC (nv : Nat) : Codec Curve :=
  members
    (fun c => (c.complete, c.max, c.min, c.persistence, c.bbmin, c.bbmax, c.tmin, c.tmax, c.consistent, c.pts))
    (fun c q => { c with complete := q.1, max := q.2.1, min := q.2.2.1, persistence := q.2.2.2.1,
                         bbmin := q.2.2.2.2.1, bbmax := q.2.2.2.2.2.1, tmin := q.2.2.2.2.2.2.1,
                         tmax := q.2.2.2.2.2.2.2.1, consistent := q.2.2.2.2.2.2.2.2.1,
                         pts := q.2.2.2.2.2.2.2.2.2 })
    (pair boolC (pair (arr nv 0 f64) (pair (arr nv 0 f64) (pair (arr nv 0 f64) (pair (arr 3 0 f64) (pair (arr 3 0 f64)
      (pair f64 (pair f64 (pair (uint 4) (vec { scalar := List.replicate nv 0 } (pointC nv)))))))))))

/-- `feature_surface_t` (features/feature_surface.hh:37-41). -/
structure Surface where
  pts : List Point := []
  tris : List (List Int) := []
  quads : List (List Int) := []
  pentagons : List (List Int) := []
deriving DecidableEq, Repr

/-- `Serialization<feature_surface_t>` (features/feature_surface.hh:64-79). -/
def surfaceC (nv : Nat) : Codec Surface :=
  members (fun s => (s.pts, s.tris, s.quads, s.pentagons))
    (fun _ q => { pts := q.1, tris := q.2.1, quads := q.2.2.1, pentagons := q.2.2.2 })
    (pair (vec { scalar := List.replicate nv 0 } (pointC nv))
      (pair (vec [] (arr 3 0 int32)) (pair (vec [] (arr 4 0 int32)) (vec [] (arr 5 0 int32)))))

/-- `simplicial_regular_mesh_element` (mesh/simplicial_regular_mesh.hh): corner, dimension and type. -/
structure Elem where
  corner : List Int := []
  dim : Int := 0
  type : Int := 0
deriving DecidableEq, Repr

/-- `Serialization<simplicial_regular_mesh_element>` (mesh/simplicial_regular_mesh.hh:1102-1114). -/
def elemC : Codec Elem :=
  members (fun e => (e.corner, e.dim, e.type)) (fun _ q => { corner := q.1, dim := q.2.1, type := q.2.2 })
    (pair (vec 0 int32) (pair int32 int32))

/-- the members of `ndarray<T>` that are saved (ndarray.hh:1420-1436), with 8-byte elements given by their bits. -/
structure Nd where
  dims : List Nat := []
  s : List Nat := []
  ncd : Nat := 0
  tv : Bool := false
  p : List Nat := []
deriving DecidableEq, Repr

/-- `Serialization<ndarray<T>>` (ndarray.hh:1419-1437) for an 8-byte `T`. -/
def ndC : Codec Nd :=
  members (fun a => (a.dims, a.s, a.ncd, a.tv, a.p))
    (fun _ q => { dims := q.1, s := q.2.1, ncd := q.2.2.1, tv := q.2.2.2.1, p := q.2.2.2.2 })
    (pair (vec 0 sizeT) (pair (vec 0 sizeT) (pair sizeT (pair boolC (vec 0 f64)))))

end Verif.Ser
