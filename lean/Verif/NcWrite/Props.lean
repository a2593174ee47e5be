import Verif.NcWrite.Config
import Verif.NdStream.NcProps
import Verif.Str.Props
import Verif.MPAS.Seeds
import Mathlib.Tactic.Ring
/-!
# What the files of a data series contain (C191, C192)
-/
namespace Verif.NcW

variable {V : Type}

/-- The number of elements of a hyperslab -/
def size (box : List (Nat × Nat)) : Nat := (box.map fun b => b.2).prod

theorem flatten_range {α : Type} (n k : Nat) (g : Nat → α) :
    ((List.range n).flatMap fun i => (List.range k).map fun j => g (i * k + j)) = (List.range (n * k)).map g := by
  induction n with
  | zero => simp
  | succ n ih =>
    rw [List.range_succ, List.flatMap_append, ih, Nat.succ_mul, List.range_add, List.map_append]
    simp

/-- Reading a hyperslab that was written gives the memory in order. -/
theorem hyperslab_lin {α : Type} : ∀ (box : List (Nat × Nat)) (F : Option Nat → α),
    NdS.hyperslab box (fun ix => F (lin box ix)) = (List.range (size box)).map fun q => F (some q)
  | [], F => by simp [NdS.hyperslab, lin, size]
  | (st, n) :: r, F => by
    have hl : ∀ i < n, NdS.hyperslab r (fun ix => F (lin ((st, n) :: r) ((st + i) :: ix))) =
        (List.range (size r)).map fun q => F (some (i * size r + q)) := by
      intro i hi
      have e : (fun ix => F (lin ((st, n) :: r) ((st + i) :: ix))) =
          fun ix => (fun o : Option Nat => F (o.map fun q => i * size r + q)) (lin r ix) := by
        funext ix
        have : lin ((st, n) :: r) ((st + i) :: ix) = (lin r ix).map fun q => (st + i - st) * size r + q := by
          rw [lin, if_pos ⟨by omega, by omega⟩]; rfl
        rw [this, Nat.add_sub_cancel_left]
      rw [e, hyperslab_lin r (fun o => F (o.map fun q => i * size r + q))]
      rfl
    unfold NdS.hyperslab
    have e2 : ((List.range n).flatMap fun i => NdS.hyperslab r fun ix => F (lin ((st, n) :: r) ((st + i) :: ix))) =
        (List.range n).flatMap fun i => (List.range (size r)).map fun q => F (some (i * size r + q)) := by
      rw [List.flatMap_def, List.flatMap_def]
      congr 1
      exact List.map_congr_left fun i hi => hl i (List.mem_range.1 hi)
    rw [e2, flatten_range n (size r) fun q => F (some q)]
    simp [size]

/-- The names and lengths of the dimensions, slowest first -/
def wantedDims (unlimited : Bool) (names : List String) (dims : List Nat) : List (String × Option Nat) :=
  (if unlimited then [("time", none)] else []) ++ ((names.zip dims).map fun p => (p.1, some p.2)).reverse

theorem mapM_some' {α β : Type} {f : α → Option β} {g : α → β} : ∀ (l : List α), (∀ a ∈ l, f a = some (g a)) → l.mapM f = some (l.map g)
  | [], _ => rfl
  | a :: l, h => by
    rw [List.mapM_cons, h a (by simp), mapM_some' l fun b hb => h b (by simp [hb])]
    rfl

theorem defDims_eq {unlimited : Bool} {names : List String} {dims : List Nat} (h : names.length = dims.length) :
    defDims unlimited names dims = some (wantedDims unlimited names dims) := by
  unfold defDims
  rw [mapM_some' (g := fun i => (names.getD (names.length - i - 1) "", some (dims.getD (names.length - i - 1) 0)))]
  · simp only [Option.bind_eq_bind, Option.bind_some, wantedDims]
    congr 2
    apply List.ext_getElem
    · simp [h]
    · intro i h1 h2
      simp only [List.length_map, List.length_range] at h1
      simp only [List.getElem_map, List.getElem_range, List.getElem_reverse, List.getElem_zip, List.length_map, List.length_zip]
      have e : names.length - i - 1 = min names.length dims.length - 1 - i := by omega
      have l1 : min names.length dims.length - 1 - i < names.length := by omega
      have l2 : min names.length dims.length - 1 - i < dims.length := by omega
      rw [e]
      simp [List.getD_eq_getElem?_getD, List.getElem?_eq_getElem l1, List.getElem?_eq_getElem l2]
  · intro i hi
    have := List.mem_range.1 hi
    have l2 : names.length - i - 1 < dims.length := by omega
    simp [List.getD_eq_getElem?_getD, List.getElem?_eq_getElem l2]

theorem inside_self : ∀ s : List Nat, inside (s.map some) ((List.replicate s.length 0).zip s) = true
  | [] => rfl
  | n :: s => by
    rw [List.length_cons, List.replicate_succ, List.zip_cons_cons, List.map_cons]
    unfold inside
    rw [inside_self s]; simp

/-- The hyperslab of a whole array -/
def whole (unlimited : Bool) (dims : List Nat) : List (Nat × Nat) :=
  (if unlimited then [(0, 1)] else []) ++ dims.reverse.map fun d => (0, d)

theorem zip_zero (s : List Nat) : (List.replicate s.length 0).zip s = s.map fun d => (0, d) := by
  induction s with
  | nil => rfl
  | cons n s ih => rw [List.length_cons, List.replicate_succ, List.zip_cons_cons, ih]; rfl

theorem window_box (unlimited : Bool) (dims : List Nat) :
    (window unlimited dims).1.zip (window unlimited dims).2 = whole unlimited dims := by
  unfold window whole
  cases unlimited
  · simp only [Bool.false_eq_true, if_false, List.nil_append]
    rw [← zip_zero, List.length_reverse]
  · simp only [if_true, List.reverse_append, List.reverse_cons, List.reverse_nil, List.nil_append, List.singleton_append,
      List.replicate_succ, List.zip_cons_cons]
    rw [← zip_zero, List.length_reverse]

theorem wanted_shape {unlimited : Bool} {names : List String} {dims : List Nat} (h : names.length = dims.length) :
    (wantedDims unlimited names dims).map (fun d => d.2) = (if unlimited then [none] else []) ++ dims.reverse.map some := by
  unfold wantedDims
  rw [List.map_append, List.map_reverse, List.map_map]
  congr 1
  · cases unlimited <;> rfl
  · have : ((names.zip dims).map ((fun d => d.2) ∘ fun p => (p.1, some p.2))) = dims.map some := by
      have : ((fun (d : String × Option Nat) => d.2) ∘ fun (p : String × Nat) => (p.1, some p.2)) = some ∘ Prod.snd := rfl
      rw [this, ← List.map_map, List.map_snd_zip (by omega)]
    rw [List.map_reverse, this]

theorem wanted_names {unlimited : Bool} {names : List String} {dims : List Nat} (h : names.length = dims.length) :
    (wantedDims unlimited names dims).map (fun d => d.1) = (if unlimited then ["time"] else []) ++ names.reverse := by
  unfold wantedDims
  rw [List.map_append, List.map_reverse, List.map_map]
  congr 1
  · cases unlimited <;> rfl
  · have : ((names.zip dims).map ((fun d => d.1) ∘ fun p => (p.1, some p.2))) = names := by
      have : ((fun (d : String × Option Nat) => d.1) ∘ fun (p : String × Nat) => (p.1, some p.2)) = Prod.fst := rfl
      rw [this, List.map_fst_zip (by omega)]
    rw [this]

theorem inside_whole (unlimited : Bool) (dims : List Nat) :
    inside ((if unlimited then [none] else []) ++ dims.reverse.map some) (whole unlimited dims) = true := by
  unfold whole
  have := inside_self dims.reverse
  rw [zip_zero] at this
  cases unlimited
  · simpa using this
  · simpa [inside] using this

theorem size_whole (unlimited : Bool) (dims : List Nat) : size (whole unlimited dims) = dims.prod := by
  unfold size whole
  have : ∀ l : List Nat, ((l.map fun d => ((0 : Nat), d)).map fun b => b.2) = l := fun l => by rw [List.map_map]; simp [Function.comp_def]
  rw [List.map_append, this, List.prod_append, List.prod_reverse]
  cases unlimited <;> simp

/-- A well-formed array: as many elements as the dimensions say -/
def Arr.Good (a : Arr V) : Prop := a.p.length = a.dims.prod

/-- Writing succeeds for arrays whose number of dimensions is that of the configuration. -/
theorem write_eq {unlimited : Bool} {names vars : List String} {a : Arr V} (hd : names.length = a.dims.length) (ha : a.Good)
    (hn : ((if unlimited then ["time"] else []) ++ names.reverse).Nodup) (hv : vars.Nodup) :
    writeNc unlimited names vars a = some ⟨wantedDims unlimited names a.dims, vars.map fun n =>
      ⟨n, (if unlimited then [none] else []) ++ a.dims.reverse.map some, fun ix => (lin (whole unlimited a.dims) ix).bind fun q => a.p[q]?⟩⟩ := by
  unfold writeNc
  rw [defDims_eq hd]
  simp only [Option.bind_eq_bind, Option.bind_some]
  rw [if_pos ⟨by rw [wanted_names hd]; exact hn, hv⟩]
  rw [mapM_some' (g := fun n => ⟨n, (if unlimited then [none] else []) ++ a.dims.reverse.map some, fun ix =>
    (lin (whole unlimited a.dims) ix).bind fun q => a.p[q]?⟩)]
  · rfl
  · intro n _
    unfold toNetcdf putVara
    dsimp only
    rw [window_box, wanted_shape hd]
    have hlen : (whole unlimited a.dims).length = ((if unlimited then [none] else []) ++ a.dims.reverse.map some : List (Option Nat)).length := by
      unfold whole; cases unlimited <;> simp
    rw [List.take_of_length_le (by rw [hlen])]
    have hsz : ((whole unlimited a.dims).map fun b => b.2).prod = a.dims.prod := size_whole unlimited a.dims
    rw [if_pos ⟨inside_whole unlimited a.dims, by rw [hsz, ha]⟩]
    congr 2
    funext ix
    cases lin (whole unlimited a.dims) ix <;> rfl

/-- C191: a file written has the dimensions of the array, slowest first, after the record dimension `time` if time is unlimited, and the
variables asked for, each over all of them. -/
theorem C191_header_partial {unlimited : Bool} {names vars : List String} {a : Arr V} (hd : names.length = a.dims.length) (ha : a.Good)
    (hn : ((if unlimited then ["time"] else []) ++ names.reverse).Nodup) (hv : vars.Nodup) :
    ∃ f, writeNc unlimited names vars a = some f ∧ f.dims = wantedDims unlimited names a.dims ∧
      f.vars.map (fun v => v.name) = vars ∧ ∀ v ∈ f.vars, v.shape = f.dims.map fun d => d.2 := by
  refine ⟨_, write_eq hd ha hn hv, rfl, by simp [List.map_map, Function.comp_def], ?_⟩
  intro v hv'
  obtain ⟨n, -, rfl⟩ := List.mem_map.1 hv'
  rw [wanted_shape hd]

/-- C191: reading any variable of the file back as a whole, in the order of the file, gives the elements of the array in their order. -/
theorem C191_read_back_partial {unlimited : Bool} {names vars : List String} {a : Arr V} (hd : names.length = a.dims.length) (ha : a.Good)
    (hn : ((if unlimited then ["time"] else []) ++ names.reverse).Nodup) (hv : vars.Nodup) {f : File V}
    (hf : writeNc unlimited names vars a = some f) : ∀ v ∈ f.vars,
    NdS.hyperslab (whole unlimited a.dims) v.val = a.p.map some := by
  rw [write_eq hd ha hn hv] at hf
  obtain rfl := Option.some.inj hf
  intro v hv'
  obtain ⟨n, -, rfl⟩ := List.mem_map.1 hv'
  have := hyperslab_lin (whole unlimited a.dims) (fun o => o.bind fun q => a.p[q]?)
  dsimp only at this ⊢
  rw [this, size_whole, ← ha]
  apply List.ext_getElem
  · simp
  · intro i h1 h2
    simp only [List.length_map, List.length_range] at h1
    simp [List.getElem?_eq_getElem h1]

theorem lin3 {dx dy dz x y z : Nat} (hx : x < dx) (hy : y < dy) (hz : z < dz) :
    lin (whole true [dx, dy, dz]) [0, z, y, x] = some (x + dx * (y + dy * z)) := by
  simp only [whole, lin, if_true, List.reverse_cons, List.reverse_nil, List.nil_append, List.singleton_append, List.cons_append,
    List.map_cons, List.map_nil, Nat.zero_le, true_and, Nat.zero_add, hx, hy, hz, Nat.zero_lt_one, List.prod_cons, List.prod_nil,
    Option.map_some, Nat.sub_zero, Option.some.injEq]
  ring

/-- C191, in coordinates: the element `(0, z, y, x)` of a 3D variable is the element `(x, y, z)` of the array. -/
theorem C191_element_partial {nx ny nz : String} {vars : List String} {dx dy dz : Nat} {p : List V} (ha : p.length = dx * dy * dz)
    (hn : ["time", nz, ny, nx].Nodup) (hv : vars.Nodup) {f : File V} (hf : writeNc true [nx, ny, nz] vars ⟨[dx, dy, dz], p⟩ = some f)
    (v : Var V) (hvf : v ∈ f.vars) (x y z : Nat) (hx : x < dx) (hy : y < dy) (hz : z < dz) :
    v.val [0, z, y, x] = p[x + dx * (y + dy * z)]? := by
  rw [write_eq (by rfl) (by simp [Arr.Good, ha, Nat.mul_assoc]) (by simpa using hn) hv] at hf
  obtain rfl := Option.some.inj hf
  obtain ⟨n, -, rfl⟩ := List.mem_map.1 hvf
  dsimp only
  rw [lin3 hx hy hz]
  rfl

/-- The series: what the directory holds after all the frames were written -/
theorem writeAll_spec {pre suf : Str.Str} {w : Nat} {unlimited : Bool} {names vars : List String} :
    ∀ (fs : List (Nat × Arr V)) (dir : Str.Str → Option (File V)), (∀ f ∈ fs, ∃ x, writeNc unlimited names vars f.2 = some x) →
    (fs.map fun f => f.1).Nodup →
    ∃ dir', writeAll pre w suf unlimited names vars fs dir = some dir' ∧
      (∀ f ∈ fs, dir' (Str.seriesFilename pre w suf f.1) = writeNc unlimited names vars f.2) ∧
      ∀ s, (∀ f ∈ fs, s ≠ Str.seriesFilename pre w suf f.1) → dir' s = dir s
  | [], dir, _, _ => ⟨dir, rfl, by simp, by simp⟩
  | f :: fs, dir, h, hnd => by
    obtain ⟨x, hx⟩ := h f (by simp)
    rw [List.map_cons, List.nodup_cons] at hnd
    obtain ⟨dir', h1, h2, h3⟩ := writeAll_spec fs (fun s => if s = Str.seriesFilename pre w suf f.1 then some x else dir s)
      (fun g hg => h g (by simp [hg])) hnd.2
    refine ⟨dir', ?_, ?_, ?_⟩
    · unfold writeAll
      simp only [hx, Option.bind_eq_bind, Option.bind_some]
      exact h1
    · intro g hg
      rcases List.mem_cons.1 hg with rfl | hg
      · rw [h3 _ fun g' hg' heq => ?_, if_pos rfl, hx]
        have := Str.C173_names_differ _ _ _ _ _ heq
        exact hnd.1 (this ▸ List.mem_map.2 ⟨g', hg', rfl⟩)
      · exact h2 g hg
    · intro s hs
      rw [h3 s fun g hg => hs g (by simp [hg]), if_neg (hs f (by simp))]

/-- C191: after a series of frames with different time steps, the directory holds, under the name made from the time step, the file with that
frame, and is otherwise unchanged. -/
theorem C191_series_partial {pre suf : Str.Str} {w : Nat} {unlimited : Bool} {names vars : List String} (fs : List (Nat × Arr V))
    (dir : Str.Str → Option (File V)) (hd : ∀ f ∈ fs, names.length = f.2.dims.length) (ha : ∀ f ∈ fs, f.2.Good)
    (hn : ((if unlimited then ["time"] else []) ++ names.reverse).Nodup) (hv : vars.Nodup) (hs : (fs.map fun f => f.1).Nodup) :
    ∃ dir', writeAll pre w suf unlimited names vars fs dir = some dir' ∧
      (∀ f ∈ fs, ∃ x, writeNc unlimited names vars f.2 = some x ∧ dir' (Str.seriesFilename pre w suf f.1) = some x) ∧
      ∀ s, (∀ f ∈ fs, s ≠ Str.seriesFilename pre w suf f.1) → dir' s = dir s := by
  obtain ⟨dir', h1, h2, h3⟩ := writeAll_spec (pre := pre) (suf := suf) (w := w) (unlimited := unlimited) (names := names)
    (vars := vars) fs dir (fun f hf => ⟨_, write_eq (hd f hf) (ha f hf) hn hv⟩) hs
  refine ⟨dir', h1, fun f hf => ?_, h3⟩
  have := write_eq (hd f hf) (ha f hf) hn hv
  exact ⟨_, this, by rw [h2 f hf, this]⟩

theorem window_lead {lead : Option Nat} {dims : List Nat} (h1 : 1 ≤ dims.length) (h3 : dims.length ≤ 3) :
    ∃ r, NdS.window lead dims = some ((lead.map fun o => [o]).getD [] ++ dims.reverse ++ r) := by
  match dims, h1, h3 with
  | [x], _, _ => cases lead <;> exact ⟨_, rfl⟩
  | [x, y], _, _ => cases lead <;> exact ⟨_, rfl⟩
  | [x, y, z], _, _ => cases lead <;> exact ⟨_, rfl⟩

/-- C191: **round trip.**  The NetCDF stream (C148) reading a series of files with one record each and one variable, written by the
writer, yields frame after frame the arrays that were written. -/
theorem C191_round_trip_partial {names : List String} {var : String} (zero : V) (frames : List (Arr V)) (dims : List Nat)
    (hdim : ∀ a ∈ frames, a.dims = dims) (ha : ∀ a ∈ frames, a.Good) (hlen : names.length = dims.length) (h2 : 1 ≤ dims.length)
    (h3 : dims.length ≤ 3) (hn : ("time" :: names.reverse).Nodup) (files : Nat → Nat → List Nat → V)
    (hfiles : ∀ (k : Nat) (a : Arr V), frames[k]? = some a → ∃ f, writeNc true names [var] a = some f ∧
      ∀ v ∈ f.vars, ∀ ix, files k 0 ix = (v.val ix).getD zero)
    (k : Nat) (a : Arr V) (hk : frames[k]? = some a) :
    NdS.requestNc zero (some (List.replicate frames.length 1)) (dims.length + 1) 1 files (List.replicate dims.length 0) dims k = some a.p := by
  have hkl : k < frames.length := by
    by_contra hge
    rw [List.getElem?_eq_none (by omega)] at hk; cases hk
  have hmem : a ∈ frames := List.mem_of_getElem? hk
  have hloc : NdS.locate (List.replicate frames.length 1) k = (k, 0) := by
    have := NdS.C148_locate (List.replicate frames.length 1) k (by simpa using hkl)
    have hrec : NdS.records (List.replicate frames.length 1) = (List.range frames.length).map fun i => (i, 0) := by
      unfold NdS.records
      apply List.ext_getElem?
      intro i
      have key : ∀ (n s : Nat), (((List.replicate n 1).zipIdx s).flatMap fun p => (List.range p.1).map fun r => (p.2, r)) =
          (List.range n).map fun i => (s + i, 0) := by
        intro n
        induction n with
        | zero => intro s; rfl
        | succ n ih =>
          intro s
          rw [List.replicate_succ, List.zipIdx_cons, List.flatMap_cons, ih, List.range_succ_eq_map (n := n), List.map_cons, List.map_map]
          simp [Function.comp_def, Nat.add_assoc, Nat.add_comm 1]
      rw [key]; simp
    rw [hrec, List.getElem?_map, List.getElem?_range hkl] at this
    exact (Option.some.inj this).symm
  obtain ⟨r1, hw1⟩ := window_lead (lead := some 0) (dims := List.replicate dims.length 0) (by simpa using h2) (by simpa using h3)
  obtain ⟨r2, hw2⟩ := window_lead (lead := some 1) (dims := dims) h2 h3
  obtain ⟨f, hf, hval⟩ := hfiles k a hk
  have hda := hdim a hmem
  have hnames : ((if true = true then ["time"] else []) ++ names.reverse).Nodup := by simpa using hn
  have hread := C191_read_back_partial (by rw [hda, hlen]) (ha a hmem) hnames (by simp) hf
  have hvars := write_eq (V := V) (unlimited := true) (names := names) (vars := [var]) (a := a) (by rw [hda, hlen]) (ha a hmem) hnames (by simp)
  rw [hf] at hvars
  have hfv := congrArg File.vars (Option.some.inj hvars)
  simp only [List.map_cons, List.map_nil] at hfv
  have hv : f.vars.head? ≠ none := by rw [hfv]; simp
  obtain ⟨v, hvh⟩ := Option.ne_none_iff_exists'.1 hv
  have hvm : v ∈ f.vars := List.mem_of_head? hvh
  unfold NdS.requestNc
  simp only [hloc, Option.map_some, hw1, hw2, Option.bind_eq_bind, Option.bind_some, if_true, Option.getD_some]
  have hbox : (([0] ++ (List.replicate dims.length 0).reverse ++ r1).zip ([1] ++ dims.reverse ++ r2)).take (dims.length + 1) =
      whole true dims := by
    have e1 : ([0] ++ (List.replicate dims.length 0).reverse).length = ([1] ++ dims.reverse).length := by simp
    rw [List.zip_append e1, List.take_left' (by simp)]
    rw [List.reverse_replicate]
    unfold whole
    simp only [List.singleton_append, List.zip_cons_cons, if_true]
    rw [← zip_zero, List.length_reverse]
  have : NdS.readVar (dims.length + 1) ([0] ++ (List.replicate dims.length 0).reverse ++ r1) ([1] ++ dims.reverse ++ r2) (files k 0) = a.p := by
    unfold NdS.readVar
    rw [hbox]
    have e : files k 0 = fun ix => (v.val ix).getD zero := funext (hval v hvm)
    rw [e]
    have hmap : ∀ (box : List (Nat × Nat)) (g : List Nat → Option V), NdS.hyperslab box (fun ix => (g ix).getD zero) =
        (NdS.hyperslab box g).map fun o => o.getD zero := by
      intro box
      induction box with
      | nil => intro g; rfl
      | cons b r ih =>
        intro g
        obtain ⟨st, n⟩ := b
        unfold NdS.hyperslab
        rw [List.map_flatMap]
        congr 1
        funext i
        exact ih fun ix => g ((st + i) :: ix)
    rw [hmap, ← hda, hread v hvm, List.map_map]
    simp [Function.comp_def]
  rw [this]
  unfold NdS.resize
  have hl : a.p.length = dims.prod := by rw [← hda]; exact ha a hmem
  rw [← hl]; simp

/-- C191, violated: an array with a leading dimension of two components over a 2 × 2 grid, written into two variables, gives two equal
variables that hold its first four elements, the component in the place of `x`; the other four elements are lost. -/
theorem C191_components_violated (p : List V) (hp : p.length = 8) :
    ∃ f, writeNc true ["x", "y"] ["u", "v"] (⟨[2, 2, 2], p⟩ : Arr V) = some f ∧ f.dims = [("time", none), ("y", some 2), ("x", some 2)] ∧
      f.vars.map (fun v => v.name) = ["u", "v"] ∧
      ∀ v ∈ f.vars, ∀ y x, y < 2 → x < 2 → v.val [0, y, x] = p[2 * y + x]? := by
  unfold writeNc
  have e : defDims true ["x", "y"] [2, 2, 2] = some [("time", none), ("y", some 2), ("x", some 2)] := rfl
  rw [e]
  simp only [Option.bind_eq_bind, Option.bind_some]
  rw [if_pos ⟨by decide, by decide⟩]
  have t : ∀ n : String, toNetcdf (⟨n, [none, some 2, some 2], fun _ => none⟩ : Var V) (window true [2, 2, 2]) ⟨[2, 2, 2], p⟩ =
      some ⟨n, [none, some 2, some 2], fun ix => match lin [(0, 1), (0, 2), (0, 2)] ix with
        | some q => p[q]?
        | none => none⟩ := by
    intro n
    unfold toNetcdf putVara
    have : inside [none, some 2, some 2] [(0, 1), (0, 2), (0, 2)] = true ∧
      (([(0, 1), (0, 2), (0, 2)] : List (Nat × Nat)).map fun b => b.2).prod ≤ p.length := ⟨by decide, by rw [hp]; decide⟩
    exact if_pos this
  refine ⟨⟨[("time", none), ("y", some 2), ("x", some 2)], ["u", "v"].map fun n => ⟨n, [none, some 2, some 2], fun ix =>
    match lin [(0, 1), (0, 2), (0, 2)] ix with
        | some q => p[q]?
        | none => none⟩⟩, ?_, rfl, rfl, ?_⟩
  · rw [mapM_some' (g := fun n => ⟨n, [none, some 2, some 2], fun ix =>
      match lin [(0, 1), (0, 2), (0, 2)] ix with
        | some q => p[q]?
        | none => none⟩)]
    · rfl
    · exact fun n _ => t n
  intro v hv y x hy hx
  obtain ⟨n, -, rfl⟩ := List.mem_map.1 hv
  dsimp only
  have : lin [(0, 1), (0, 2), (0, 2)] [0, y, x] = some (2 * y + x) := by
    simp [lin, hy, hx, Nat.mul_comm]
  rw [this]

/-- Non-vacuity: a 2 × 3 array. -/
example : ∃ f, writeNc true ["x", "y"] ["u"] (⟨[2, 3], [1, 2, 3, 4, 5, 6]⟩ : Arr Nat) = some f ∧
    f.dims = [("time", none), ("y", some 3), ("x", some 2)] ∧ ∀ v ∈ f.vars, v.val [0, 2, 0] = some 5 ∧ v.val [1, 0, 0] = none := by
  refine ⟨_, write_eq (unlimited := true) (by rfl) rfl (by decide) (by decide), rfl, ?_⟩
  intro v hv
  obtain ⟨n, -, rfl⟩ := List.mem_map.1 hv
  exact ⟨rfl, rfl⟩

/-! ### outside the arrays (C192) -/

/-- C192: with enough dimensions in the array for the names configured, the lengths of the dimensions are in bounds; with fewer they are
not. -/
theorem C192_dims (unlimited : Bool) (names : List String) (dims : List Nat) :
    (∃ l, defDims unlimited names dims = some l) ↔ names.length ≤ dims.length := by
  constructor
  · rintro ⟨l, hl⟩
    by_contra hlt
    unfold defDims at hl
    obtain ⟨n, hn⟩ : ∃ n, names.length = n + 1 := ⟨names.length - 1, by omega⟩
    rw [hn, List.range_succ_eq_map, List.mapM_cons] at hl
    have : dims[n]? = none := List.getElem?_eq_none (by omega)
    simp [this] at hl
  · intro h
    unfold defDims
    rw [mapM_some' (g := fun i => (names.getD (names.length - i - 1) "", some (dims.getD (names.length - i - 1) 0)))]
    · exact ⟨_, rfl⟩
    · intro i hi
      have := List.mem_range.1 hi
      have l2 : names.length - i - 1 < dims.length := by omega
      simp [List.getD_eq_getElem?_getD, List.getElem?_eq_getElem l2]

/-- C192, violated: a one-dimensional array with the default dimensions: the writer reads outside the list of dimensions. -/
theorem C192_default_dims_1d (n : Nat) (p : List V) (vars : List String) : writeNc true ["x", "y", "z"] vars (⟨[n], p⟩ : Arr V) = none := by
  unfold writeNc
  have : defDims true ["x", "y", "z"] [n] = none := rfl
  rw [this]; rfl

/-- C192, violated: the diagnostic output reads four entries of `starts` and `sizes`; every array of less than four dimensions (three with
unlimited time) makes it read outside of them. -/
theorem C192_output_reads_outside (unlimited : Bool) (v : Var V) (a : Arr V)
    (h : a.dims.length + (if unlimited then 1 else 0) < 4) : toNetcdfPrinting v (window unlimited a.dims) a = none := by
  unfold toNetcdfPrinting
  rw [if_neg]
  rintro ⟨h1, -⟩
  unfold window at h1
  cases unlimited <;> simp at h h1 <;> omega

/-- C192: otherwise the output is harmless. -/
theorem C192_output_partial (unlimited : Bool) (v : Var V) (a : Arr V)
    (h : 4 ≤ a.dims.length + (if unlimited then 1 else 0)) :
    toNetcdfPrinting v (window unlimited a.dims) a = toNetcdf v (window unlimited a.dims) a := by
  unfold toNetcdfPrinting
  rw [if_pos]
  unfold window
  cases unlimited <;> simp at h ⊢ <;> omega

/-- Non-vacuity: both sorts of arrays are written by the default configurations, 2D and 3D. -/
example : toNetcdfPrinting (⟨"u", [none, some 3, some 2], fun _ => none⟩ : Var Nat) (window true [2, 3]) ⟨[2, 3], [1, 2, 3, 4, 5, 6]⟩ = none ∧
    (toNetcdfPrinting (⟨"u", [none, some 1, some 3, some 2], fun _ => none⟩ : Var Nat) (window true [2, 3, 1])
      ⟨[2, 3, 1], [1, 2, 3, 4, 5, 6]⟩).isSome = true := by
  refine ⟨C192_output_reads_outside true _ ⟨[2, 3], [1, 2, 3, 4, 5, 6]⟩ (by decide), ?_⟩
  have := C192_output_partial true (⟨"u", [none, some 1, some 3, some 2], fun _ => none⟩ : Var Nat) ⟨[2, 3, 1], [1, 2, 3, 4, 5, 6]⟩ (by decide)
  rw [this]
  rfl

end Verif.NcW
