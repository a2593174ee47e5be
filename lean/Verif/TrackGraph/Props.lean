import Verif.TrackGraph.Events
import Verif.TrackGraph.Tracker
/-! C22, C59, C60: tracking graph, events, connected component tracker. -/
namespace Verif.TG
open Relation Verif.Gr

/-! ### C22 -/

/-- C22: the type of an event is decided by the numbers of features on its two sides. -/
theorem C22_event_type {T L : Type} (e : Event T L) :
    (e.type = .none ↔ e.lhs.length = 1 ∧ e.rhs.length = 1) ∧
    (e.type = .birth ↔ e.lhs.length = 0 ∧ e.rhs.length = 1) ∧
    (e.type = .death ↔ e.lhs.length = 1 ∧ e.rhs.length = 0) ∧
    (e.type = .split ↔ e.lhs.length = 1 ∧ e.rhs.length = 2) ∧
    (e.type = .merge ↔ e.lhs.length = 2 ∧ e.rhs.length = 1) ∧
    (e.type = .recombination ↔ e.lhs.length = 2 ∧ e.rhs.length = 2) ∧
    (e.type = .compound ↔ (e.lhs.length, e.rhs.length) ∉ [(1, 1), (0, 1), (1, 0), (1, 2), (2, 1), (2, 2)]) := by
  unfold Event.type
  simp only [List.mem_cons, Prod.mk.injEq, List.not_mem_nil, or_false, not_or]
  refine ⟨?_, ?_, ?_, ?_, ?_, ?_, ?_⟩
  all_goals
    constructor
    · intro h
      repeat' split at h
      all_goals first
        | (cases h; done)
        | (refine ⟨?_, ?_⟩ <;> omega)
        | (refine ⟨?_, ?_, ?_, ?_, ?_, ?_⟩ <;> omega)
    · intro h
      repeat' split
      all_goals first
        | rfl
        | (exfalso; omega)

/-- C22 (finding): one feature splitting into three, or three merging into one, is reported as
`compound`, not as split / merge. -/
theorem C22_three_way_split_is_compound {T L : Type} (e : Event T L) (h : e.lhs.length = 1) (h' : e.rhs.length = 3) :
    e.type = .compound := by
  rw [(C22_event_type e).2.2.2.2.2.2]; simp [h, h']

/-- C22: `detect_events(t0, t1)` on a graph whose edges go forward in time appends to `events[t0]` a
correct list of events for the interval (see `EventsFor`), and changes no other event list. -/
theorem C22_detect_events_interval {T L : Type} [LinearOrder T] [LinearOrder L] (ops : List (Op T L))
    (hf : Forward ops) (t0 t1 : T) (ht : t0 < t1) :
    ∃ g evs, (Graph.build ops).detectEvents2 t0 t1 = some g ∧ EventsFor ops t0 t1 evs ∧
      g.events t0 = evs ∧ ∀ t, t ≠ t0 → g.events t = [] := by
  obtain ⟨evs, e, h⟩ := detect2_spec (GInv.build ops) hf ht
  have hev : ∀ t, (Graph.build ops).events t = [] := by
    intro t
    have : ∀ (l : List (Op T L)) (g : Graph T L), (∀ t, g.events t = []) → ∀ t, (l.foldl Graph.step g).events t = [] := by
      intro l
      induction l with
      | nil => intro g h t; exact h t
      | cons o l ih => intro g h t; exact ih _ (by intro t; cases o <;> exact h t) t
    exact this ops _ (fun _ => rfl) t
  exact ⟨_, evs, e, h, by simp [hev], fun t hne => by simp [hne, hev]⟩

/-- C22: `detect_events()` fills `events[t]` for every pair of consecutive timesteps. -/
theorem C22_detect_events {T L : Type} [LinearOrder T] [LinearOrder L] (ops : List (Op T L)) (hf : Forward ops) :
    ∃ g, (Graph.build ops).detectEvents = some g ∧ g.times = (Graph.build ops).times ∧
      (∀ (i : Nat) (t0 t1 : T), g.times[i]? = some t0 → g.times[i + 1]? = some t1 →
        EventsFor ops t0 t1 (g.events t0)) ∧
      (∀ t, (∀ i : Nat, g.times[i]? = some t → g.times[i + 1]? = none) → g.events t = []) := by
  have hev : ∀ t, (Graph.build ops).events t = [] := by
    intro t
    have : ∀ (l : List (Op T L)) (g : Graph T L), (∀ t, g.events t = []) → ∀ t, (l.foldl Graph.step g).events t = [] := by
      intro l
      induction l with
      | nil => intro g h t; exact h t
      | cons o l ih => intro g h t; exact ih _ (by intro t; cases o <;> exact h t) t
    exact this ops _ (fun _ => rfl) t
  obtain ⟨g', e, q1, -, -, -, -, q6, q7⟩ := detectLoop_spec hf (Graph.build ops).times (Graph.build ops)
    (GInv.build ops) (GInv.build ops).sortedT (fun _ h => h)
  refine ⟨g', e, q1, ?_, ?_⟩
  · intro i t0 t1 h0 h1
    rw [q1] at h0 h1
    obtain ⟨evs, h2, h3⟩ := q6 i t0 t1 h0 h1
    rw [h2, hev]; exact h3
  · intro t h
    rw [q1] at h
    rw [q7 t h, hev]

/-- C22: the timesteps are those of the added nodes and edges, in increasing order. -/
theorem C22_timesteps {T L : Type} [LinearOrder T] [LinearOrder L] (ops : List (Op T L)) :
    (Graph.build ops).times.Pairwise (· < ·) ∧
      ∀ t, t ∈ (Graph.build ops).times ↔ ∃ n, Present ops n ∧ time n = t :=
  ⟨(GInv.build ops).sortedT, (GInv.build ops).times⟩

/-- C22 (finding): events are appended, never cleared: a second `detect_events` doubles each event. -/
theorem C22_detect_twice_doubles {T L : Type} [LinearOrder T] [LinearOrder L] (g : Graph T L) (t0 t1 : T) :
    ∀ g1 g2, g.events t0 = [] → g.detectEvents2 t0 t1 = some g1 → g1.detectEvents2 t0 t1 = some g2 →
      g2.events t0 = g1.events t0 ++ g1.events t0 := by
  intro g1 g2 h0 h1 h2
  unfold Graph.detectEvents2 at h1
  split at h1
  · cases h1
  · rename_i comps e
    cases h1
    unfold Graph.detectEvents2 at h2
    simp only at h2
    have e' : extractCC (Graph.intervalNbs ({ g with
        times := setInsert t1 (setInsert t0 g.times)
        events := fun t => if t = t0 then g.events t ++ (comps.filter (fun c => decide (c.length ≠ 2))).map (mkEvent t0 t1)
                         else g.events t } : Graph T L) t0) (Graph.intervalNodes ({ g with
        times := setInsert t1 (setInsert t0 g.times)
        events := fun t => if t = t0 then g.events t ++ (comps.filter (fun c => decide (c.length ≠ 2))).map (mkEvent t0 t1)
                         else g.events t } : Graph T L) t0 t1) = some comps := e
    rw [e'] at h2
    cases h2
    simp [h0]

/-! ### C59 -/

/-- C59: after `relabel`, exactly the added nodes have a global label; the labels are exactly
`1..k`; and two nodes have the same global label iff a chain of edges links them in which every edge
is the only one leaving its source or the only one entering its target. -/
theorem C59_relabel {T L : Type} [LinearOrder T] [LinearOrder L] (ops : List (Op T L)) :
    ∃ g k, (Graph.build ops).relabel = some g ∧
      (∀ t l, g.hasGlobalLabel t l = true ↔ Present ops (node t l)) ∧
      (∀ t l, Present ops (node t l) → ∃ r, g.getGlobalLabel t l = some r ∧ 1 ≤ r ∧ r ≤ k) ∧
      (∀ r, 1 ≤ r → r ≤ k → ∃ t l, Present ops (node t l) ∧ g.getGlobalLabel t l = some r) ∧
      (∀ t l t' l', Present ops (node t l) → Present ops (node t' l') →
        (g.getGlobalLabel t l = g.getGlobalLabel t' l' ↔ SameTrack ops (node t l) (node t' l'))) := by
  obtain ⟨g, k, e, h1, h2, h3, h4⟩ := relabel_spec (GInv.build ops)
  refine ⟨g, k, e, ?_, fun t l => h2 (node t l), ?_, fun t l t' l' => h4 _ _⟩
  · intro t l
    unfold Graph.hasGlobalLabel
    by_cases hp : Present ops (node t l)
    · obtain ⟨r, hr, _⟩ := h2 _ hp
      simp [hr, hp]
    · simp [h1 _ hp, hp]
  · intro r a b
    obtain ⟨n, hn, hl⟩ := h3 r a b
    exact ⟨time n, label n, hn, hl⟩

/-- C59: a chain of one-to-one edges keeps one label. -/
theorem C59_one_to_one_edge_keeps_label {T L : Type} (ops : List (Op T L)) (a b : Node T L)
    (he : Edge ops a b) (h : ∀ b', Edge ops a b' → b' = b) : SameTrack ops a b :=
  .rel _ _ ⟨he, Or.inl h⟩

/-- C59 (finding): the comment in the code says nodes need to be simply connected, yet a split (one
node with two successors, each with a single predecessor) keeps all three nodes on one label. -/
theorem C59_split_does_not_change_label {T L : Type} (ops : List (Op T L)) (a b c : Node T L)
    (hb : Edge ops a b) (hc : Edge ops a c) (hb1 : ∀ x, Edge ops x b → x = a) (hc1 : ∀ x, Edge ops x c → x = a) :
    SameTrack ops a b ∧ SameTrack ops b c :=
  ⟨.rel _ _ ⟨hb, Or.inr hb1⟩, .trans _ _ _ (.symm _ _ (.rel _ _ ⟨hb, Or.inr hb1⟩)) (.rel _ _ ⟨hc, Or.inr hc1⟩)⟩

/-- a split: (0,1) → (1,1) and (0,1) → (1,2) -/
def exOps : List (Op Nat Nat) := [.edge 0 1 1 1, .edge 0 1 1 2]

example : Forward exOps := by
  intro t0 l0 t1 l1 h
  simp [exOps] at h
  omega
example : ((Graph.build exOps).detectEvents.map (fun g => g.events 0)) =
    some [{ interval := (0, 1), lhs := [1], rhs := [1, 2] }] := by decide +kernel
example : ((Graph.build exOps).relabel.map (fun g => (g.getGlobalLabel 0 1, g.getGlobalLabel 1 1, g.getGlobalLabel 1 2))) =
    some (some 1, some 1, some 1) := by decide +kernel
/-- two edges in and two out on both sides (a 2x2 recombination) do cut the track. -/
def exRec : List (Op Nat Nat) := [.edge 0 1 1 1, .edge 0 1 1 2, .edge 0 2 1 1, .edge 0 2 1 2]
example : ((Graph.build exRec).relabel.map (fun g => (g.getGlobalLabel 0 1, g.getGlobalLabel 1 1))) =
    some (some 1, some 3) := by decide +kernel

/-! ### C60 -/

/-- C60: driving `connected_component_tracker` with `push; advance` over any number of frames of one
size records exactly the overlaps of consecutive frames: an edge from label `p` of frame `t` to label
`q` of frame `t+1` iff both are non-zero and some cell has them; and nodes are only those that take
part in an overlap. -/
theorem C60_tracker_records_overlaps (n : Nat) (frames : List (List Nat)) (hn : ∀ f ∈ frames, f.length = n) :
    ∃ s ops, CCTracker.drive frames CCTracker.init = some s ∧ s.tg = Graph.build ops ∧ s.cur = frames.length ∧
      (∀ t p t' q, Edge ops (node t p) (node t' q) ↔ t' = t + 1 ∧ p ≠ 0 ∧ q ≠ 0 ∧
        ∃ (i : Nat) (f0 f1 : List Nat), frames[t]? = some f0 ∧ frames[t + 1]? = some f1 ∧ f0[i]? = some p ∧ f1[i]? = some q) ∧
      (∀ x, Present ops x ↔ ∃ y, Edge ops x y ∨ Edge ops y x) ∧ Forward ops := by
  obtain ⟨ops, e, h⟩ := drive_spec n frames [] [] (by simpa using hn) (by intro o; simp)
  refine ⟨_, ops, e, rfl, by simp, ?_, ?_, ?_⟩
  · intro t p t' q
    unfold Edge
    simp only [time_node, label_node]
    rw [h]
    simp only [List.nil_append, Op.edge.injEq]
    constructor
    · rintro ⟨t2, i, p2, q2, f0, f1, ⟨rfl, rfl, rfl, rfl⟩, h2, h3, h4, h5, h6, h7⟩
      exact ⟨rfl, h6, h7, i, f0, f1, h2, h3, h4, h5⟩
    · rintro ⟨rfl, h6, h7, i, f0, f1, h2, h3, h4, h5⟩
      exact ⟨t, i, p, q, f0, f1, ⟨rfl, rfl, rfl, rfl⟩, h2, h3, h4, h5, h6, h7⟩
  · intro x
    unfold Present Edge
    constructor
    · rintro (h1 | ⟨m, h1⟩ | ⟨m, h1⟩)
      · rw [h] at h1
        obtain ⟨t2, i, p2, q2, f0, f1, h2, _⟩ := h1
        cases h2
      · exact ⟨m, Or.inl h1⟩
      · exact ⟨m, Or.inr h1⟩
    · rintro ⟨m, h1 | h1⟩
      · exact Or.inr (Or.inl ⟨m, h1⟩)
      · exact Or.inr (Or.inr ⟨m, h1⟩)
  · intro t0 l0 t1 l1 ho
    rw [h] at ho
    obtain ⟨t2, i, p2, q2, f0, f1, h2, _⟩ := ho
    cases h2
    omega

/-- C60 (finding): a labelled feature that overlaps nothing in the neighboring frames never becomes a
node: births and deaths of isolated features are invisible. -/
theorem C60_isolated_feature_is_lost :
    (CCTracker.drive [[1, 0], [0, 1]] CCTracker.init).map (fun s => s.tg.times) = some [] := by decide

/-- C60 (finding): a later frame shorter than its predecessor is read out of bounds, and two pushes
before the first `advance_timestep` use timestep `0 - 1`. -/
theorem C60_undefined_uses :
    CCTracker.drive [[1, 1], [1]] CCTracker.init = none ∧
    ((CCTracker.init.push [1]).push [1]).advance = none := by
  constructor <;> rfl

example : (CCTracker.drive [[1, 1, 2], [3, 0, 4], [0, 0, 5]] CCTracker.init).map (fun s => (s.tg.times, s.cur)) =
    some ([0, 1, 2], 3) := by decide

end Verif.TG
