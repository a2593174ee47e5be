import Verif.Hash.Mix
import Mathlib.Data.Nat.Digits.Lemmas
/-!
# The cache files (C187)
-/
namespace Verif.Hash

theorem hexDigit_inj {a b : Nat} (ha : a < 16) (hb : b < 16) (h : hexDigit a = hexDigit b) : a = b := by
  have key : ∀ x : Fin 16, ∀ y : Fin 16, hexDigit x.1 = hexDigit y.1 → x = y := by decide +kernel
  exact Fin.mk.inj_iff.1 (key ⟨a, ha⟩ ⟨b, hb⟩ h)

theorem map_hex_inj : ∀ {l l' : List Nat}, (∀ d ∈ l, d < 16) → (∀ d ∈ l', d < 16) → l.map hexDigit = l'.map hexDigit → l = l'
  | [], [], _, _, _ => rfl
  | [], _ :: _, _, _, h => by simp at h
  | _ :: _, [], _, _, h => by simp at h
  | a :: l, b :: l', h1, h2, h => by
    simp only [List.map_cons, List.cons.injEq] at h
    rw [hexDigit_inj (h1 a (by simp)) (h2 b (by simp)) h.1,
      map_hex_inj (fun d hd => h1 d (by simp [hd])) (fun d hd => h2 d (by simp [hd])) h.2]

theorem digits_lt16 (n : Nat) : ∀ d ∈ (Nat.digits 16 n).reverse, d < 16 := fun d hd =>
  Nat.digits_lt_base (by omega) (List.mem_reverse.1 hd)

theorem hex_ne_zero {n : Nat} (hn : n ≠ 0) : (Nat.digits 16 n).reverse.map hexDigit ≠ ['0'] := by
  intro h
  have h0 : (Nat.digits 16 n).reverse = [0] :=
    map_hex_inj (digits_lt16 n) (by simp) (by rw [h]; rfl)
  have h1 : Nat.digits 16 n = [0] := by rw [← List.reverse_reverse (Nat.digits 16 n), h0]; rfl
  have := Nat.ofDigits_digits 16 n
  rw [h1] at this
  simp at this
  omega

/-- Different hash values are printed differently. -/
theorem hex_inj {a b : BitVec 32} (h : hex a = hex b) : a = b := by
  unfold hex at h
  apply BitVec.eq_of_toNat_eq
  split at h <;> split at h
  · omega
  · rename_i h1 h2; exact absurd h.symm (hex_ne_zero h2)
  · rename_i h1 h2; exact absurd h (hex_ne_zero h1)
  · have := map_hex_inj (digits_lt16 _) (digits_lt16 _) h
    have := congrArg List.reverse this
    rw [List.reverse_reverse, List.reverse_reverse] at this
    exact Nat.digits_inj_iff.1 this

attribute [local irreducible] murmur hex

/-- With a 4-byte (`float`) sigma, kernels of the same triangles for different sigmas are kept in different files. -/
theorem C187_sigma_partial (tris : List (BitVec 32)) (dims : List (BitVec 64)) (s s' : List Byte) (hs : s.length = 4)
    (hs' : s'.length = 4) (hne : s ≠ s') : kernelFile tris dims s ≠ kernelFile tris dims s' := by
  intro h
  unfold kernelFile at h
  have := hex_inj (List.append_cancel_left h)
  have hb := C186_block [] s s' [] (arrayHash tris dims) rfl hs hs' hne
  simp only [List.nil_append, List.append_nil] at hb
  exact hb this

/-- With an 8-byte (`double`) sigma there are different sigmas with the same file, for every set of triangles; and this for
any prescribed lower halves. -/
theorem C187_sigma_double (tris : List (BitVec 32)) (dims : List (BitVec 64)) (lo lo' hi : List Byte) (h1 : lo.length = 4)
    (h2 : lo'.length = 4) (h3 : hi.length = 4) (hne : lo ≠ lo') :
    ∃ hi', hi'.length = 4 ∧ lo ++ hi ≠ lo' ++ hi' ∧ kernelFile tris dims (lo ++ hi) = kernelFile tris dims (lo' ++ hi') := by
  obtain ⟨hi', h4, h5⟩ := C186_collision lo lo' hi h1 h2 h3 (arrayHash tris dims)
  refine ⟨hi', h4, fun h => hne (List.append_inj_left h (by omega)), ?_⟩
  unfold kernelFile
  rw [h5]

theorem bytes4_length (x : BitVec 32) : (bytes4 x).length = 4 := rfl

theorem bytes4_inj {x y : BitVec 32} (h : bytes4 x = bytes4 y) : x = y := by
  unfold bytes4 at h
  simp only [List.cons.injEq, and_true] at h
  obtain ⟨h1, h2, h3, h4⟩ := h
  refine BitVec.eq_of_getLsbD_eq fun i hi => ?_
  have k1 := congrArg (fun z => z.getLsbD i) h1
  have k2 := congrArg (fun z => z.getLsbD (i - 8)) h2
  have k3 := congrArg (fun z => z.getLsbD (i - 16)) h3
  have k4 := congrArg (fun z => z.getLsbD (i - 24)) h4
  simp only [BitVec.getLsbD_setWidth, BitVec.getLsbD_ushiftRight] at k1 k2 k3 k4
  have : i < 8 ∨ (8 ≤ i ∧ i < 16) ∨ (16 ≤ i ∧ i < 24) ∨ (24 ≤ i ∧ i < 32) := by omega
  rcases this with h | ⟨h, h'⟩ | ⟨h, h'⟩ | ⟨h, h'⟩
  · simpa [h] using k1
  · simpa [show i - 8 < 8 by omega, show 8 + (i - 8) = i by omega] using k2
  · simpa [show i - 16 < 8 by omega, show 16 + (i - 16) = i by omega] using k3
  · simpa [show i - 24 < 8 by omega, show 24 + (i - 24) = i by omega] using k4

/-- The interpolants for the same triangles and two settings that differ in exactly one of `nphi`, `iphi`, `vphi` are kept
in different files. -/
theorem C187_planes_partial (tris : List (BitVec 32)) (dims : List (BitVec 64)) (n i v x : BitVec 32) :
    (x ≠ n → interpolantFile tris dims x i v ≠ interpolantFile tris dims n i v) ∧
    (x ≠ i → interpolantFile tris dims n x v ≠ interpolantFile tris dims n i v) ∧
    (x ≠ v → interpolantFile tris dims n i x ≠ interpolantFile tris dims n i v) := by
  refine ⟨fun hne h => ?_, fun hne h => ?_, fun hne h => ?_⟩ <;> unfold interpolantFile at h <;> have := hex_inj (List.append_cancel_left h)
  · have hb := C186_block [] (bytes4 x) (bytes4 n) (bytes4 i ++ bytes4 v) (arrayHash tris dims) rfl rfl rfl
      (fun h => hne (bytes4_inj h))
    simp only [List.nil_append, ← List.append_assoc] at hb
    exact hb this
  · have hb := C186_block (bytes4 n) (bytes4 x) (bytes4 i) (bytes4 v) (arrayHash tris dims) (by rw [bytes4_length]) rfl rfl
      (fun h => hne (bytes4_inj h))
    exact hb this
  · have hb := C186_block (bytes4 n ++ bytes4 i) (bytes4 x) (bytes4 v) [] (arrayHash tris dims) (by rw [List.length_append, bytes4_length, bytes4_length]) rfl rfl
      (fun h => hne (bytes4_inj h))
    simp only [List.append_nil] at hb
    exact hb this

theorem lookup_append {V : Type} (fs : List (List Char × V)) (f g : List Char) (v : V) (h : lookup fs f = none) :
    lookup (fs ++ [(f, v)]) g = if g = f then some v else lookup fs g := by
  unfold lookup at *
  rw [List.find?_append]
  by_cases hg : g = f
  · subst hg
    have h' : fs.find? (fun e => e.1 == g) = none := by simpa using h
    rw [if_pos rfl, h']
    simp
  · rw [if_neg hg]
    cases hf : fs.find? (fun e => e.1 == g) with
    | some e => simp
    | none =>
      have : (f == g) = false := by simpa using fun h => hg h.symm
      simp [this]

/-- As long as the file name determines the table (`table`), every request of a session that starts in a directory of
right files gets the right table, whether it is computed or read. -/
theorem session_right {V : Type} (table : List Char → V) : ∀ (reqs : List (List Char × V)) (fs : List (List Char × V)),
    (∀ f v, lookup fs f = some v → v = table f) → (∀ r ∈ reqs, r.2 = table r.1) → session fs reqs = reqs.map (·.2)
  | [], _, _, _ => rfl
  | (f, b) :: rest, fs, hfs, hr => by
    have hb : b = table f := hr (f, b) (by simp)
    have hrest : ∀ r ∈ rest, r.2 = table r.1 := fun r h => hr r (by simp [h])
    unfold session
    cases h : lookup fs f with
    | some v =>
      have hc : cached fs f b = (v, fs) := by unfold cached; rw [h]
      rw [hc, List.map_cons, session_right table rest fs hfs hrest, hfs f v h, ← hb]
    | none =>
      have hc : cached fs f b = (b, fs ++ [(f, b)]) := by unfold cached; rw [h]
      rw [hc, List.map_cons]
      congr 1
      refine session_right table rest _ ?_ hrest
      intro g v hg
      rw [lookup_append fs f g b h] at hg
      split at hg
      · rename_i hgf; subst hgf; rw [← Option.some.inj hg]; exact hb
      · exact hfs g v hg

/-- One mesh, `float` sigmas, an empty directory: any sequence of cached requests returns, each time, the kernels for the
sigma asked for, as if they were computed.  (`build` = the kernels of that mesh as a function of sigma.) -/
theorem C187_one_mesh_partial {V : Type} (tris : List (BitVec 32)) (dims : List (BitVec 64)) (build : List Byte → V)
    (sigmas : List (List Byte)) (hs : ∀ s ∈ sigmas, s.length = 4) :
    session [] (sigmas.map fun s => (kernelFile tris dims s, build s)) = sigmas.map build := by
  classical
  rcases sigmas with _ | ⟨s0, rest⟩
  · rfl
  have hname : ∀ s s' : List Byte, s.length = 4 → s'.length = 4 → kernelFile tris dims s = kernelFile tris dims s' → s = s' := by
    intro s s' h1 h2 h
    by_contra hne
    exact C187_sigma_partial tris dims s s' h1 h2 hne h
  rw [session_right (fun f => if h : ∃ s : List Byte, s.length = 4 ∧ kernelFile tris dims s = f then build h.choose else build s0)]
  · rw [List.map_map]; rfl
  · intro f v h; simp [lookup] at h
  · intro r hr
    obtain ⟨s, hs1, rfl⟩ := List.mem_map.1 hr
    dsimp only
    have hex : ∃ t : List Byte, t.length = 4 ∧ kernelFile tris dims t = kernelFile tris dims s := ⟨s, hs s hs1, rfl⟩
    rw [dif_pos hex, hname _ _ hex.choose_spec.1 (hs s hs1) hex.choose_spec.2]

theorem session_same {V : Type} (f : List Char) (a b : V) : session [] [(f, a), (f, b)] = [a, a] := by
  simp [session, cached, lookup]

/-- Two meshes with the same triangles but different vertex coordinates share the file: in the same directory the second
one is given the kernels of the first, whatever its own are.  (`build` = the kernels as a function of coordinates and
sigma.) -/
theorem C187_coordinates_ignored {C V : Type} (tris : List (BitVec 32)) (dims : List (BitVec 64)) (build : C → List Byte → V)
    (xy xy' : C) (s : List Byte) :
    session [] [(kernelFile tris dims s, build xy s), (kernelFile tris dims s, build xy' s)] = [build xy s, build xy s] :=
  session_same _ _ _

/-- The same for the interpolants: neither the coordinates nor the magnetic equilibrium they are computed from are part of
the name. -/
theorem C187_equilibrium_ignored {C V : Type} (tris : List (BitVec 32)) (dims : List (BitVec 64)) (build : C → V) (eq eq' : C)
    (n i v : BitVec 32) :
    session [] [(interpolantFile tris dims n i v, build eq), (interpolantFile tris dims n i v, build eq')] =
      [build eq, build eq] :=
  session_same _ _ _

/-- Three sigmas, one of them twice: two files. -/
example : session [] ([[0, 0, 128, 63], [0, 0, 0, 64], [0, 0, 128, 63]].map fun s =>
    (kernelFile [0, 1, 2] [3, 1] s, s)) = [[0, 0, 128, 63], [0, 0, 0, 64], [0, 0, 128, 63]].map id :=
  C187_one_mesh_partial _ _ id _ (by decide)

end Verif.Hash
