import Verif.Serial.Lemmas
/-! C41: serialization round-trips. -/
namespace Verif.Ser

/-! ### specification -/

/-- (specification) For all objects meeting `ok` (values that fit their C++ types) and all target objects meeting
`fresh`: unserializing the serialized string gives the object back; and if any sequence of objects is saved one after
the other into one buffer, loading as many objects gives the same sequence and consumes the buffer exactly. -/
def RoundTrips {α : Type} (c : Codec α) (ok fresh : α → Prop) : Prop :=
  (∀ a x, ok a → fresh x → unserializeFromString c (serializeToString c a) x = some a) ∧
  (∀ as xs : List α, xs.length = as.length → (∀ a ∈ as, ok a) → (∀ x ∈ xs, fresh x) →
    ∃ b, loadAll c xs { str := (saveAll c as {}).str } = some (as, b) ∧ b.more = false ∧
      b.pos = (saveAll c as {}).str.length)

theorem saveBinary_str (xs : List UInt8) : (({} : Buf).saveBinary xs).str = xs := by
  rw [saveBinary_eq _ _ (by simp)]; simp

theorem at_zero (xs : List UInt8) : At { str := xs } xs [] := ⟨by simp, by simp⟩

theorem Codes.roundtrip {α : Type} {c : Codec α} {ok fresh enc res} (h : Codes c ok fresh enc res) (a x : α) (ha : ok a)
    (hx : fresh x) : unserializeFromString c (serializeToString c a) x = some (res x a) := by
  unfold unserializeFromString serializeToString
  rw [h.save a {} ha (by simp), saveBinary_str, h.load a x _ [] ha hx (at_zero _)]
  rfl

theorem Lawful.roundTrips {α : Type} {c : Codec α} {ok fresh enc} (h : Lawful c ok fresh enc) :
    RoundTrips c ok fresh := by
  refine ⟨fun a x ha hx => Codes.roundtrip h a x ha hx, ?_⟩
  intro as xs hl ha hx
  rw [saveAll_eq h as {} ha (by simp), saveBinary_str]
  refine ⟨_, loadAll_eq h as xs _ [] hl ha hx (at_zero _), ?_, ?_⟩
  · simp [Buf.more, Buf.skip]
  · simp [Buf.skip]

/-- (specification) a value of type `double`, `size_t` or `unsigned long long` -/
def U64 (v : Nat) : Prop := v < 2 ^ 64
/-- (specification) a value of type `unsigned int` -/
def U32 (v : Nat) : Prop := v < 2 ^ 32
/-- (specification) a value of type `int` -/
def I32 (v : Int) : Prop := -2 ^ 31 ≤ v ∧ v < 2 ^ 31

theorem u64_lawful : Lawful (uint 8) U64 (fun _ => True) (encLE 8) := sizeT_lawful
theorem u32_lawful : Lawful (uint 4) U32 (fun _ => True) (encLE 4) := by
  have := uint_lawful 4
  have e : (256 : Nat) ^ 4 = 2 ^ 32 := by norm_num
  rw [e] at this
  exact this

/-! ### arrays -/

/-- (specification) members of an ndarray are `size_t`s and 8-byte elements, in vectors of `size_t` length -/
structure Nd.Fits (a : Nd) : Prop where
  dims : a.dims.length < 2 ^ 64 ∧ ∀ x ∈ a.dims, U64 x
  s : a.s.length < 2 ^ 64 ∧ ∀ x ∈ a.s, U64 x
  ncd : U64 a.ncd
  p : a.p.length < 2 ^ 64 ∧ ∀ x ∈ a.p, U64 x

theorem vecU64 : Lawful (vec 0 sizeT) (fun xs => xs.length < 2 ^ 64 ∧ ∀ x ∈ xs, U64 x) (fun xs => ∀ x ∈ xs, True)
    (fun xs => encLE 8 xs.length ++ encAll (encLE 8) xs) := vec_lawful 0 u64_lawful trivial

theorem Codes.weaken {α : Type} {c : Codec α} {ok fresh enc res ok' fresh'} (h : Codes c ok fresh enc res)
    (h1 : ∀ a, ok' a → ok a) (h2 : ∀ a, fresh' a → fresh a) : Codes c ok' fresh' enc res :=
  ⟨fun a b ha hb => h.save a b (h1 a ha) hb, fun a x b rest ha hx hb => h.load a x b rest (h1 a ha) (h2 x hx) hb⟩

/-- (proof device) encoding of an array -/
def encNd (a : Nd) : List UInt8 :=
  (encLE 8 a.dims.length ++ encAll (encLE 8) a.dims) ++ ((encLE 8 a.s.length ++ encAll (encLE 8) a.s) ++
    (encLE 8 a.ncd ++ (encLE 1 a.tv.toNat ++ (encLE 8 a.p.length ++ encAll (encLE 8) a.p))))

theorem nd_lawful : Lawful ndC Nd.Fits (fun _ => True) encNd :=
  (members_lawful (fun a : Nd => (a.dims, a.s, a.ncd, a.tv, a.p)) _
    (pair_lawful vecU64 (pair_lawful vecU64 (pair_lawful u64_lawful (pair_lawful boolC_lawful vecU64))))
    (fun _ _ => rfl)).weaken (fun _ h => ⟨h.dims, h.s, h.ncd, trivial, h.p⟩)
      (fun _ _ => ⟨fun _ _ => trivial, fun _ _ => trivial, trivial, trivial, fun _ _ => trivial⟩)

/-- **C41 (ndarray).** Saving an array and loading it over any other array gives back shape, strides, flags and data. -/
theorem C41_ndarray : RoundTrips ndC Nd.Fits (fun _ => True) := Lawful.roundTrips nd_lawful

/-! ### feature points, surfaces, mesh elements -/

/-- (specification) members of a feature point fit their types (`nv` scalars) -/
structure Point.Fits (nv : Nat) (p : Point) : Prop where
  x : p.x.length = 3 ∧ ∀ u ∈ p.x, U64 u
  t : U64 p.t
  timestep : I32 p.timestep
  scalar : p.scalar.length = nv ∧ ∀ u ∈ p.scalar, U64 u
  v : p.v.length = 3 ∧ ∀ u ∈ p.v, U64 u
  type : U32 p.type
  tag : U64 p.tag
  id : U64 p.id

/-- (proof device) encoding of a point -/
def encPoint (p : Point) : List UInt8 :=
  encAll (encLE 8) p.x ++ (encLE 8 p.t ++ (encLE 4 (p.timestep % 2 ^ 32).toNat ++ (encAll (encLE 8) p.scalar ++
    (encAll (encLE 8) p.v ++ (encLE 4 p.type ++ (encLE 1 p.ordinal.toNat ++ (encLE 8 p.tag ++ encLE 8 p.id)))))))

theorem arrU64 (n : Nat) : Lawful (arr n 0 f64) (fun xs => xs.length = n ∧ ∀ x ∈ xs, U64 x) (fun _ => True)
    (encAll (encLE 8)) := arr_lawful n 0 u64_lawful trivial

theorem point_lawful (nv : Nat) : Lawful (pointC nv) (Point.Fits nv) (fun _ => True) encPoint :=
  (members_lawful (fun p : Point => (p.x, p.t, p.timestep, p.scalar, p.v, p.type, p.ordinal, p.tag, p.id)) _
    (pair_lawful (arrU64 3) (pair_lawful u64_lawful (pair_lawful int32_lawful (pair_lawful (arrU64 nv)
      (pair_lawful (arrU64 3) (pair_lawful u32_lawful (pair_lawful boolC_lawful
        (pair_lawful u64_lawful u64_lawful))))))))
    (fun _ _ => rfl)).weaken
      (fun _ h => ⟨h.x, h.t, h.timestep, h.scalar, h.v, h.type, trivial, h.tag, h.id⟩)
      (fun _ _ => ⟨trivial, trivial, trivial, trivial, trivial, trivial, trivial, trivial, trivial⟩)

/-- **C41 (feature point).** Every member of a feature point survives saving and loading. -/
theorem C41_feature_point (nv : Nat) : RoundTrips (pointC nv) (Point.Fits nv) (fun _ => True) :=
  Lawful.roundTrips (point_lawful nv)

/-- (specification) corner coordinates, dimension and type are `int`s -/
structure Elem.Fits (e : Elem) : Prop where
  corner : e.corner.length < 2 ^ 64 ∧ ∀ u ∈ e.corner, I32 u
  dim : I32 e.dim
  type : I32 e.type

/-- (proof device) encoding of an `int` -/
def encInt (v : Int) : List UInt8 := encLE 4 (v % 2 ^ 32).toNat

/-- (proof device) encoding of a mesh element -/
def encElem (e : Elem) : List UInt8 :=
  (encLE 8 e.corner.length ++ encAll encInt e.corner) ++ (encInt e.dim ++ encInt e.type)

theorem elem_lawful : Lawful elemC Elem.Fits (fun _ => True) encElem :=
  (members_lawful (fun e : Elem => (e.corner, e.dim, e.type)) _
    (pair_lawful (vec_lawful 0 int32_lawful trivial) (pair_lawful int32_lawful int32_lawful))
    (fun _ _ => rfl)).weaken (fun _ h => ⟨h.corner, h.dim, h.type⟩) (fun _ _ => ⟨fun _ _ => trivial, trivial, trivial⟩)

/-- **C41 (mesh element).** -/
theorem C41_mesh_element : RoundTrips elemC Elem.Fits (fun _ => True) := Lawful.roundTrips elem_lawful

/-- (specification) members of a feature surface fit their types -/
structure Surface.Fits (nv : Nat) (s : Surface) : Prop where
  pts : s.pts.length < 2 ^ 64 ∧ ∀ p ∈ s.pts, p.Fits nv
  tris : s.tris.length < 2 ^ 64 ∧ ∀ t ∈ s.tris, t.length = 3 ∧ ∀ u ∈ t, I32 u
  quads : s.quads.length < 2 ^ 64 ∧ ∀ t ∈ s.quads, t.length = 4 ∧ ∀ u ∈ t, I32 u
  pentagons : s.pentagons.length < 2 ^ 64 ∧ ∀ t ∈ s.pentagons, t.length = 5 ∧ ∀ u ∈ t, I32 u

theorem vecPoint (nv : Nat) : Lawful (vec { scalar := List.replicate nv 0 } (pointC nv))
    (fun xs => xs.length < 2 ^ 64 ∧ ∀ x ∈ xs, x.Fits nv) (fun xs => ∀ x ∈ xs, True)
    (fun xs => encLE 8 xs.length ++ encAll encPoint xs) := vec_lawful _ (point_lawful nv) trivial

theorem vecTuple (n : Nat) : Lawful (vec [] (arr n 0 int32))
    (fun xs => xs.length < 2 ^ 64 ∧ ∀ t ∈ xs, t.length = n ∧ ∀ u ∈ t, I32 u) (fun xs => ∀ x ∈ xs, True)
    (fun xs => encLE 8 xs.length ++ encAll (encAll encInt) xs) :=
  vec_lawful [] (arr_lawful n 0 int32_lawful trivial) trivial

/-- **C41 (feature surface).** -/
theorem C41_feature_surface (nv : Nat) : RoundTrips (surfaceC nv) (Surface.Fits nv) (fun _ => True) :=
  Lawful.roundTrips <|
    (members_lawful (fun s : Surface => (s.pts, s.tris, s.quads, s.pentagons)) _
      (pair_lawful (vecPoint nv) (pair_lawful (vecTuple 3) (pair_lawful (vecTuple 4) (vecTuple 5))))
      (fun _ _ => rfl)).weaken (fun _ h => ⟨h.pts, h.tris, h.quads, h.pentagons⟩)
        (fun _ _ => ⟨fun _ _ => trivial, fun _ _ => trivial, fun _ _ => trivial, fun _ _ => trivial⟩)

/-! ### feature curves -/

/-- (specification) the saved members of a feature curve fit their types -/
structure Curve.Fits (nv : Nat) (c : Curve) : Prop where
  max : c.max.length = nv ∧ ∀ u ∈ c.max, U64 u
  min : c.min.length = nv ∧ ∀ u ∈ c.min, U64 u
  persistence : c.persistence.length = nv ∧ ∀ u ∈ c.persistence, U64 u
  bbmin : c.bbmin.length = 3 ∧ ∀ u ∈ c.bbmin, U64 u
  bbmax : c.bbmax.length = 3 ∧ ∀ u ∈ c.bbmax, U64 u
  tmin : U64 c.tmin
  tmax : U64 c.tmax
  consistent : U32 c.consistent
  pts : c.pts.length < 2 ^ 64 ∧ ∀ p ∈ c.pts, p.Fits nv

/-- **C41 (feature curve, partial).** Loading a saved curve over a curve `x` gives the saved curve except that the
identifier, the loop flag and the speed range are those of `x`.  Missing for the full property: these four members
are not serialized. -/
theorem C41_feature_curve_partial (nv : Nat) (a x : Curve) (ha : a.Fits nv) :
    unserializeFromString (curveC nv) (serializeToString (curveC nv) a) x =
      some { a with id := x.id, loop := x.loop, vmmin := x.vmmin, vmmax := x.vmmax } := by
  have h := members_codes (fun c : Curve => (c.complete, c.max, c.min, c.persistence, c.bbmin, c.bbmax, c.tmin, c.tmax,
      c.consistent, c.pts))
    (fun c q => { c with complete := q.1, max := q.2.1, min := q.2.2.1, persistence := q.2.2.2.1,
                         bbmin := q.2.2.2.2.1, bbmax := q.2.2.2.2.2.1, tmin := q.2.2.2.2.2.2.1,
                         tmax := q.2.2.2.2.2.2.2.1, consistent := q.2.2.2.2.2.2.2.2.1,
                         pts := q.2.2.2.2.2.2.2.2.2 })
    (pair_lawful boolC_lawful (pair_lawful (arrU64 nv) (pair_lawful (arrU64 nv) (pair_lawful (arrU64 nv)
      (pair_lawful (arrU64 3) (pair_lawful (arrU64 3) (pair_lawful u64_lawful (pair_lawful u64_lawful
        (pair_lawful u32_lawful (vecPoint nv))))))))))
  exact Codes.roundtrip h a x ⟨trivial, ha.max, ha.min, ha.persistence, ha.bbmin, ha.bbmax, ha.tmin, ha.tmax,
    ha.consistent, ha.pts⟩ ⟨trivial, trivial, trivial, trivial, trivial, trivial, trivial, trivial, trivial,
      fun _ _ => trivial⟩

/-- **C41 (finding).** A loop with identifier 7 comes back as a non-loop with another identifier. -/
theorem C41_curve_loses_loop (nv : Nat) : ∃ a x : Curve, a.Fits nv ∧ a.loop = true ∧ a.id = 7 ∧
    ∃ b, unserializeFromString (curveC nv) (serializeToString (curveC nv) a) x = some b ∧ b ≠ a ∧ b.loop = false ∧
      b.id = 0 := by
  set z := List.replicate nv 0 with hz
  have hzf : z.length = nv ∧ ∀ u ∈ z, U64 u :=
    ⟨by simp [hz], fun u hu => by rw [List.eq_of_mem_replicate hu]; simp [U64]⟩
  have h3 : ([0, 0, 0] : List Nat).length = 3 ∧ ∀ u ∈ ([0, 0, 0] : List Nat), U64 u := by simp [U64]
  have hf : ∀ i l, (⟨i, true, l, z, z, z, [0, 0, 0], [0, 0, 0], 0, 0, 0, 0, 0, []⟩ : Curve).Fits nv := fun i l =>
    ⟨hzf, hzf, hzf, h3, h3, by simp [U64], by simp [U64], by simp [U32], by simp⟩
  refine ⟨⟨7, true, true, z, z, z, [0, 0, 0], [0, 0, 0], 0, 0, 0, 0, 0, []⟩,
    ⟨0, true, false, z, z, z, [0, 0, 0], [0, 0, 0], 0, 0, 0, 0, 0, []⟩, hf _ _, rfl, rfl, _,
    C41_feature_curve_partial nv _ _ (hf _ _), ?_, rfl, rfl⟩
  intro h
  have := congrArg Curve.loop h
  simp at this

/-! ### containers -/

/-- **C41 (vectors).** If elements round-trip over every target, so do vectors of them. -/
theorem C41_vector {α : Type} (d : α) (c : Codec α) (ok : α → Prop) (enc : α → List UInt8)
    (h : Lawful c ok (fun _ => True) enc) :
    RoundTrips (vec d c) (fun xs => xs.length < 2 ^ 64 ∧ ∀ x ∈ xs, ok x) (fun _ => True) :=
  Lawful.roundTrips ((vec_lawful d h trivial).weaken (fun _ h => h) (fun _ _ _ _ => trivial))

/-- **C41 (maps).** A `std::map` whose keys and values round-trip does too, when loaded into an empty map. -/
theorem C41_map {κ ν : Type} [LinearOrder κ] (dk : κ) (dv : ν) (ck : Codec κ) (cv : Codec ν) (ok ok' fresh fresh' enc enc')
    (hk : Lawful ck ok fresh enc) (hv : Lawful cv ok' fresh' enc') (hdk : fresh dk) (hdv : fresh' dv) :
    RoundTrips (mapC dk dv ck cv) (fun m => m.length < 2 ^ 64 ∧ Sorted m ∧ ∀ e ∈ m, ok e.1 ∧ ok' e.2) (fun m => m = []) :=
  Lawful.roundTrips (mapC_lawful dk dv hk hv hdk hdv)

/-- **C41 (sets).** -/
theorem C41_set {κ : Type} [LinearOrder κ] (dk : κ) (ck : Codec κ) (ok fresh enc) (hk : Lawful ck ok fresh enc)
    (hdk : fresh dk) :
    RoundTrips (setC dk ck) (fun m => m.length < 2 ^ 64 ∧ m.Pairwise (· < ·) ∧ ∀ e ∈ m, ok e) (fun m => m = []) :=
  Lawful.roundTrips (setC_lawful dk hk hdk)

/-- **C41 (two objects in one file).** `serializeToFile(a, b)` followed by `unserializeFromFile(a', b')` gives back both
objects. -/
theorem C41_two_objects {α β : Type} (c : Codec α) (d : Codec β) (ok ok' fresh fresh' enc enc')
    (hc : Lawful c ok fresh enc) (hd : Lawful d ok' fresh' enc') (a : α) (b : β) (x : α) (y : β) (ha : ok a) (hb : ok' b)
    (hx : fresh x) (hy : fresh' y) :
    unserializeFromString (pair c d) (serializeToString (pair c d) (a, b)) (x, y) = some (a, b) :=
  (Lawful.roundTrips (pair_lawful hc hd)).1 (a, b) (x, y) ⟨ha, hb⟩ ⟨hx, hy⟩

/-- **C41 (finding).** Loading a map or a set into one that is not empty merges instead of replacing. -/
theorem C41_map_load_merges : ∃ (m x : List (Nat × Nat)),
    unserializeFromString (mapC 0 0 sizeT sizeT) (serializeToString (mapC 0 0 sizeT sizeT) m) x ≠ some m ∧
    unserializeFromString (mapC 0 0 sizeT sizeT) (serializeToString (mapC 0 0 sizeT sizeT) m) x = some [(1, 5), (2, 3)] :=
  ⟨[(2, 3)], [(1, 5)], by decide +kernel, by decide +kernel⟩

/-- **C41 (composition used by the trackers).** A map from numbers to feature points round-trips. -/
theorem C41_point_map (nv : Nat) :
    RoundTrips (mapC 0 { scalar := List.replicate nv 0 } sizeT (pointC nv))
      (fun m => m.length < 2 ^ 64 ∧ Sorted m ∧ ∀ e ∈ m, U64 e.1 ∧ e.2.Fits nv) (fun m => m = []) :=
  C41_map _ _ _ _ _ _ _ _ _ _ u64_lawful (point_lawful nv) trivial trivial

/-- A concrete point fits, and its bytes are as in memory. -/
example : ({ x := [1, 2, 3], t := 4, timestep := -1, scalar := [5], type := 2, ordinal := true, tag := 258 } : Point).Fits
    1 := ⟨by simp [U64], by simp [U64], by simp [I32], by simp [U64], by simp [U64], by simp [U32], by simp [U64],
      by simp [U64]⟩

example : serializeToString elemC { corner := [3, -1], dim := 2, type := 5 } =
    [2, 0, 0, 0, 0, 0, 0, 0, 3, 0, 0, 0, 255, 255, 255, 255, 2, 0, 0, 0, 5, 0, 0, 0] := by decide +kernel

example : unserializeFromString elemC (serializeToString elemC { corner := [3, -1], dim := 2, type := 5 }) {} =
    some { corner := [3, -1], dim := 2, type := 5 } := by decide +kernel

end Verif.Ser
