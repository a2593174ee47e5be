import Mathlib.Data.Nat.Digits.Defs
/-!
# The hash and the names of the cache files

Model of `include/ftk/basic/murmurhash2.hh` (`mh` below), of `ndarray::hash` and of the cached smoothing kernels and
interpolants of the meshes.  `unsigned int` has 32 bits, `int` 4 bytes, `size_t` 8 bytes, little-endian memory; the length
of a key is below 2^31.
-/
namespace Verif.Hash

/-- A byte of memory -/
abbrev Byte := BitVec 8

/-- `m` (`mh:24`); the functions below take it as an argument. -/
def mConst : BitVec 32 := 0x5bd1e995#32

/-- `*(unsigned int *)data` (`mh:37`), little-endian -/
def word (a b c d : Byte) : BitVec 32 :=
  a.setWidth 32 ^^^ b.setWidth 32 <<< 8 ^^^ c.setWidth 32 <<< 16 ^^^ d.setWidth 32 <<< 24

/-- The mixing of one block `k` (`mh:39-41`) -/
def mix (m k : BitVec 32) : BitVec 32 :=
  let k := k * m
  let k := k ^^^ (k >>> 24)
  k * m

/-- The loop over the blocks (`mh:35-48`) and the last bytes (`mh:52-58`); the cases of the `switch` fall through. -/
def body (m : BitVec 32) : List Byte → BitVec 32 → BitVec 32
  | a :: b :: c :: d :: rest, h => body m rest ((h * m) ^^^ mix m (word a b c d))
  | [a, b, c], h => (h ^^^ c.setWidth 32 <<< 16 ^^^ b.setWidth 32 <<< 8 ^^^ a.setWidth 32) * m
  | [a, b], h => (h ^^^ b.setWidth 32 <<< 8 ^^^ a.setWidth 32) * m
  | [a], h => (h ^^^ a.setWidth 32) * m
  | [], h => h

/-- The final mixing (`mh:63-65`) -/
def final (m h : BitVec 32) : BitVec 32 :=
  let h := h ^^^ (h >>> 13)
  let h := h * m
  h ^^^ (h >>> 15)

/-- `murmurhash2(key, len, seed)` (`mh:19-68`) with `len` = the number of bytes -/
def murmur (key : List Byte) (seed : BitVec 32) : BitVec 32 := final mConst (body mConst key (seed ^^^ BitVec.ofNat 32 key.length))

/-- The bytes of a 4-byte object -/
def bytes4 (x : BitVec 32) : List Byte :=
  [x.setWidth 8, (x >>> 8).setWidth 8, (x >>> 16).setWidth 8, (x >>> 24).setWidth 8]

/-- The bytes of an 8-byte object -/
def bytes8 (x : BitVec 64) : List Byte := bytes4 (x.setWidth 32) ++ bytes4 ((x >>> 32).setWidth 32)

/-- `ndarray<int>::hash` (`ndarray.hh:315-321`) -/
def arrayHash (p : List (BitVec 32)) (dims : List (BitVec 64)) : BitVec 32 :=
  murmur (dims.flatMap bytes8) (murmur (p.flatMap bytes4) 0)

/-- A hexadecimal digit of `std::hex` -/
def hexDigit (d : Nat) : Char := (['0', '1', '2', '3', '4', '5', '6', '7', '8', '9', 'a', 'b', 'c', 'd', 'e', 'f'][d]?).getD '?'

/-- `ss << std::hex << h` -/
def hex (h : BitVec 32) : List Char :=
  if h.toNat = 0 then ['0'] else (Nat.digits 16 h.toNat).reverse.map hexDigit

/-- `default_smoothing_kernel_filename` (`mesh/simplicial_unstructured_2d_mesh.hh:251-261`): the name depends on the triangles
and on the bytes of sigma. -/
def kernelFile (tris : List (BitVec 32)) (dims : List (BitVec 64)) (sigma : List Byte) : List Char :=
  "ftk.smoothing.kernels.2d.".toList ++ hex (murmur sigma (arrayHash tris dims))

/-- `default_interpolant_filename` (`mesh/simplicial_xgc_3d_mesh.hh:170-184`): the name depends on the triangles and on
`nphi`, `iphi`, `vphi`. -/
def interpolantFile (tris : List (BitVec 32)) (dims : List (BitVec 64)) (nphi iphi vphi : BitVec 32) : List Char :=
  "xgc.interpolants.".toList ++ hex (murmur (bytes4 nphi ++ bytes4 iphi ++ bytes4 vphi) (arrayHash tris dims))

/-- `file_exists` + `read`: the content of the file of that name -/
def lookup {V : Type} (fs : List (List Char × V)) (f : List Char) : Option V := (fs.find? fun e => e.1 == f).map (·.2)

/-- `build_smoothing_kernel_cached` (`mesh/simplicial_unstructured_2d_mesh.hh:239-249`) and the same scheme in
`initialize_interpolants_cached` (`mesh/simplicial_xgc_3d_mesh.hh:155-168`): returns the table used and the directory
afterwards. -/
def cached {V : Type} (fs : List (List Char × V)) (f : List Char) (build : V) : V × List (List Char × V) :=
  match lookup fs f with
  | some v => (v, fs)
  | none => (build, fs ++ [(f, build)])

/-- A sequence of cached requests `(file, table)` in one directory, with the tables used -/
def session {V : Type} : List (List Char × V) → List (List Char × V) → List V
  | _, [] => []
  | fs, (f, b) :: rest => (cached fs f b).1 :: session (cached fs f b).2 rest

end Verif.Hash
