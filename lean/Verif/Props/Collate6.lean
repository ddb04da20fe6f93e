import Verif.Model.Collate6
import Verif.Props.Examples

/-!
# Batches with the geometry of the room (C153)
-/

namespace Torchiva.Props

open Torchiva

/-- A batch whose items have the same numbers of channels, references as long as their mixtures, one position for each microphone and
two speakers, all positions with three coordinates. -/
structure RoomBatch (batch : List Item6) (first : Item6) : Prop where
  head : batch.head? = some first
  mix : ∀ s ∈ batch, s.mix.length = first.mix.length ∧ ∀ c ∈ s.mix, c.length = s.mixLen
  ref : ∀ s ∈ batch, s.ref.length = first.ref.length ∧ ∀ c ∈ s.ref, c.length = s.mixLen
  center : ∀ s ∈ batch, s.center.length = 3
  mic : ∀ s ∈ batch, s.micPos.length = first.mix.length ∧ ∀ p ∈ s.micPos, p.length = 3
  spk : ∀ s ∈ batch, s.spk.length = 2 ∧ ∀ p ∈ s.spk, p.length = 3

/-- A whole number. -/
def IsWhole (x : ℝ) : Prop := ∃ z : ℤ, x = z

private lemma storeNum_near (b : Bool) (x : ℝ) : |storeNum b x - x| < 1 := by
  unfold storeNum
  split_ifs with h1 h2
  · simp
  · rw [abs_sub_comm, abs_lt]
    constructor <;> linarith [Int.floor_le x, Int.lt_floor_add_one x]
  · rw [abs_lt]
    constructor <;> linarith [Int.le_ceil x, Int.ceil_lt_add_one x]

private lemma storeNum_exact (b : Bool) (x : ℝ) (h : b = true ∨ IsWhole x) : storeNum b x = x := by
  unfold storeNum
  rcases h with rfl | ⟨z, rfl⟩
  · simp
  · simp

private lemma points_ok (b : Bool) (n : ℕ) (ps : List (List ℝ)) (hn : ps.length = n) (h3 : ∀ p ∈ ps, p.length = 3) :
    storePoints b n ps = .ok (ps.map (·.map (storeNum b))) := by
  unfold storePoints
  rw [if_pos hn]
  refine mapM_ok _ _ _ fun p hp => ?_
  unfold storePoint
  rw [if_pos (h3 p hp)]

private lemma collate6_value (batch : List Item6) (first : Item6) (h : RoomBatch batch first) :
    ∃ S, collate (batch.map Item6.toItem) = .ok S ∧ collate6 batch = .ok (S,
      batch.map fun s => s.center.map fun x => storeNum (first.center.any PyNum.isFloat) x.val,
      batch.map fun s => s.micPos.map (·.map (storeNum first.micFloat)),
      batch.map fun s => s.spk.map (·.map fun x => storeNum (first.spk.any fun p => p.any PyNum.isFloat) x.val)) := by
  obtain ⟨maxLen, -, -, hS⟩ := collate_spec (batch.map Item6.toItem) first.toItem (by rw [List.head?_map, h.head]; rfl)
    (fun s hs => by
      obtain ⟨s', hs', rfl⟩ := List.mem_map.1 hs
      exact h.mix s' hs')
    (fun s hs => by
      obtain ⟨s', hs', rfl⟩ := List.mem_map.1 hs
      exact h.ref s' hs')
  refine ⟨_, hS, ?_⟩
  unfold collate6
  rw [h.head]
  simp only [hS, bind, Except.bind]
  rw [mapM_ok _ (fun s => s.center.map fun x => storeNum (first.center.any PyNum.isFloat) x.val) _ fun s hs => ?_]
  · simp only []
    rw [mapM_ok _ (fun s => s.micPos.map (·.map (storeNum first.micFloat))) _ fun s hs => points_ok _ _ _ (h.mic s hs).1 (h.mic s hs).2]
    simp only []
    rw [mapM_ok _ (fun s => s.spk.map (·.map fun x => storeNum (first.spk.any fun p => p.any PyNum.isFloat) x.val)) _ fun s hs => ?_]
    · rfl
    · rw [points_ok _ _ _ (by rw [List.length_map]; exact (h.spk s hs).1) fun p hp => ?_]
      · rw [List.map_map]
        congr 1
        refine List.map_congr_left fun p _ => ?_
        simp [Function.comp_def]
      · obtain ⟨p', hp', rfl⟩ := List.mem_map.1 hp
        rw [List.length_map]; exact (h.spk s hs).2 p' hp'
  · unfold storePoint
    rw [if_pos (by rw [List.length_map]; exact h.center s hs), List.map_map]
    rfl

/-- **C153, what is missing: the coordinates may lose their fractional part** (see `collate6_geometry_violated`).  `collator_6ch` returns
for every well-formed batch; the signals are those of `collator` (C67), item `b` of the geometry is the geometry of item `b`, and a
coordinate is off by less than one. -/
theorem collate6_near_partial (batch : List Item6) (first : Item6) (h : RoomBatch batch first) :
    ∃ S center mic spk, collate6 batch = .ok (S, center, mic, spk) ∧ collate (batch.map Item6.toItem) = .ok S ∧
      List.Forall₂ (fun s p => List.Forall₂ (fun x y => |y - PyNum.val x| < 1) s.center p) batch center ∧
      List.Forall₂ (fun s ps => List.Forall₂ (List.Forall₂ fun x y => |y - x| < 1) s.micPos ps) batch mic ∧
      List.Forall₂ (fun s ps => List.Forall₂ (List.Forall₂ fun x y => |y - PyNum.val x| < 1) s.spk ps) batch spk := by
  obtain ⟨S, hS, hv⟩ := collate6_value batch first h
  refine ⟨S, _, _, _, hv, hS, ?_, ?_, ?_⟩ <;>
    simp only [List.forall₂_map_right_iff, storeNum_near, List.forall₂_same, implies_true]

/-- **C153, under the condition that the first item holds a `float` (or all coordinates are whole).**  Then the geometry is returned
as it is. -/
theorem collate6_geometry_partial (batch : List Item6) (first : Item6) (h : RoomBatch batch first)
    (hc : (∃ x ∈ first.center, x.isFloat) ∨ ∀ s ∈ batch, ∀ x ∈ s.center, IsWhole x.val)
    (hm : first.micFloat = true ∨ ∀ s ∈ batch, ∀ p ∈ s.micPos, ∀ x ∈ p, IsWhole x)
    (hk : (∃ p ∈ first.spk, ∃ x ∈ p, x.isFloat) ∨ ∀ s ∈ batch, ∀ p ∈ s.spk, ∀ x ∈ p, IsWhole x.val) :
    ∃ S, collate (batch.map Item6.toItem) = .ok S ∧ collate6 batch = .ok (S, batch.map fun s => s.center.map PyNum.val,
      batch.map fun s => s.micPos, batch.map fun s => s.spk.map (·.map PyNum.val)) := by
  obtain ⟨S, hS, hv⟩ := collate6_value batch first h
  refine ⟨S, hS, hv.trans ?_⟩
  congr 2
  refine Prod.ext ?_ (Prod.ext ?_ ?_)
  · refine List.map_congr_left fun s hs => List.map_congr_left fun x hx => storeNum_exact _ _ ?_
    exact hc.imp (fun ⟨y, hy, hf⟩ => List.any_eq_true.2 ⟨y, hy, hf⟩) fun h => h s hs x hx
  · refine List.map_congr_left fun s hs => ?_
    have : s.micPos.map (·.map (storeNum first.micFloat)) = s.micPos.map id := List.map_congr_left fun p hp => by
      have : p.map (storeNum first.micFloat) = p.map id := List.map_congr_left fun x hx =>
        storeNum_exact _ _ (hm.imp id fun h => h s hs p hp x hx)
      rw [this, List.map_id]; rfl
    rw [this, List.map_id]
  · refine List.map_congr_left fun s hs => List.map_congr_left fun p hp => List.map_congr_left fun x hx => storeNum_exact _ _ ?_
    exact hk.imp (fun ⟨q, hq, y, hy, hf⟩ => List.any_eq_true.2 ⟨q, hq, List.any_eq_true.2 ⟨y, hy, hf⟩⟩) fun h => h s hs p hp x hx

/-- Two rooms: the centre of the microphones of the first is given by whole numbers, that of the second is not. -/
noncomputable def twoRooms (first : PyNum) : List Item6 :=
  [⟨⟨[[1, 2]], [[3, 4]], 2, 2⟩, [first, .int 2, .int 1], true, [[2, 2, 1]], [[.flt 1, .flt 1, .flt 1], [.flt 3, .flt 3, .flt 1]]⟩,
    ⟨⟨[[5]], [[6]], 1, 1⟩, [.flt 2.5, .int 2, .int 1], true, [[2.5, 2, 1]], [[.flt 1.5, .flt 1, .flt 1], [.flt 3, .flt 3.5, .flt 1]]⟩]

private lemma twoRooms_ok (first : PyNum) : RoomBatch (twoRooms first) ((twoRooms first).head (by simp [twoRooms])) where
  head := rfl
  mix := by simp [twoRooms]
  ref := by simp [twoRooms]
  center := by simp [twoRooms]
  mic := by simp [twoRooms]
  spk := by simp [twoRooms]

/-- **C153 fails.**  A well-formed batch, whose items would be returned as they are one at a time, for which `collator_6ch` returns
another centre of the microphones for the second item. -/
theorem collate6_geometry_violated :
    ∃ (batch : List Item6) (first : Item6), RoomBatch batch first ∧
      (∀ s ∈ batch, ∃ S mic spk, collate6 [s] = .ok (S, [s.center.map PyNum.val], mic, spk)) ∧
      ∃ S center mic spk, collate6 batch = .ok (S, center, mic, spk) ∧ center ≠ batch.map fun s => s.center.map PyNum.val := by
  refine ⟨twoRooms (.int 2), _, twoRooms_ok _, fun s hs => ?_, ?_⟩
  · have hR : RoomBatch [s] s := by
      simp only [twoRooms, List.mem_cons, List.not_mem_nil, or_false] at hs
      rcases hs with rfl | rfl <;> constructor <;> simp
    obtain ⟨S, -, hv⟩ := collate6_value [s] s hR
    have hc : s.center.map (fun x => storeNum (s.center.any PyNum.isFloat) x.val) = s.center.map PyNum.val := by
      refine List.map_congr_left fun x hx => storeNum_exact _ _ ?_
      simp only [twoRooms, List.mem_cons, List.not_mem_nil, or_false] at hs
      rcases hs with rfl | rfl
      · right
        simp only [List.mem_cons, List.not_mem_nil, or_false] at hx
        rcases hx with rfl | rfl | rfl
        exacts [⟨2, rfl⟩, ⟨2, rfl⟩, ⟨1, rfl⟩]
      · left
        simp [PyNum.isFloat]
    simp only [List.map_cons, List.map_nil, hc] at hv
    exact ⟨S, _, _, hv⟩
  · obtain ⟨S, -, hv⟩ := collate6_value _ _ (twoRooms_ok (.int 2))
    refine ⟨S, _, _, _, hv, fun h => ?_⟩
    have h1 := congrArg (fun l => (l.getD 1 []).getD 0 0) h
    simp [twoRooms, PyNum.isFloat, storeNum, PyNum.val] at h1
    norm_num at h1

/-- With a `float` in the first item the same two rooms meet the hypotheses of `collate6_geometry_partial` (and of
`collate6_near_partial`). -/
example : RoomBatch (twoRooms (.flt 2)) ((twoRooms (.flt 2)).head (by simp [twoRooms])) ∧
    (∃ x ∈ ((twoRooms (.flt 2)).head (by simp [twoRooms])).center, x.isFloat) ∧
    ((twoRooms (.flt 2)).head (by simp [twoRooms])).micFloat = true ∧
    ∃ p ∈ ((twoRooms (.flt 2)).head (by simp [twoRooms])).spk, ∃ x ∈ p, x.isFloat :=
  ⟨twoRooms_ok _, ⟨.flt 2, by simp [twoRooms], rfl⟩, rfl, [.flt 1, .flt 1, .flt 1], by simp [twoRooms], .flt 1, by simp, rfl⟩

end Torchiva.Props
