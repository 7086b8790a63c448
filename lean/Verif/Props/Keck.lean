import Verif.Model.Keck
import Verif.Spec.Keck
import Verif.Props.Layers
import Verif.Props.Archive
import Mathlib.Tactic.Linarith
import Mathlib.Tactic.FieldSimp
import Mathlib.Tactic.NormNum
import Mathlib.Tactic.Ring
import Mathlib.Tactic.SplitIfs

/-! C415-C423: observations of the Keck telescope. -/

namespace P3.Keck
open Finset

/-! ### Image -/

theorem lower_of (c fov : ℕ) (h : fov ≤ 2 * c) : lower c fov = ((c - (fov + 1) / 2 : ℕ) : ℤ) := by
  unfold lower; rw [Int.tdiv_eq_ediv_of_nonneg (by omega)]; omega

theorem upper_of (c fov : ℕ) : upper c fov = ((c + fov / 2 : ℕ) : ℤ) := by
  unfold upper; rw [Int.tdiv_eq_ediv_of_nonneg (by omega)]; omega

theorem lower_neg (c fov : ℕ) (h : 2 * c + 2 ≤ fov) : lower c fov = c - ((fov / 2 : ℕ) : ℤ) := by
  unfold lower
  have e : (2 * (c : ℤ) - fov).tdiv 2 = -((fov - 2 * (c : ℤ)) / 2) := by
    rw [← Int.tdiv_eq_ediv_of_nonneg (by omega), ← Int.neg_tdiv]; congr 1; ring
  rw [e]; omega

theorem sliceBound_nat (n k : ℕ) : sliceBound n k = min k n := by
  unfold sliceBound; rw [if_neg (by omega)]; simp

/-- C415 (partial): with an even field of view smaller than the image and the star at least half a field away from the edges, the image
kept is the square of this size centred on the star, and the field of view recorded is the size asked for. -/
theorem crop_centred_partial (im : Img ℝ) (fov y x : ℕ) (h0 : fov ≠ 0) (hf : fov < min im.nx im.ny) (he : fov % 2 = 0)
    (hy : fov / 2 ≤ y ∧ y + fov / 2 ≤ im.nx) (hx : fov / 2 ≤ x ∧ x + fov / 2 ≤ im.ny) :
    Spec.Centred im (crop im fov y x).1 fov y x ∧ (crop im fov y x).2 = fov := by
  unfold crop
  rw [if_pos ⟨h0, hf⟩]
  refine ⟨?_, rfl⟩
  unfold sub Spec.Centred
  simp only
  rw [lower_of y fov (by omega), lower_of x fov (by omega), upper_of, upper_of]
  simp only [sliceBound_nat]
  refine ⟨by omega, by omega, by omega, by omega, by omega, by omega, ?_⟩
  intro i _ j _
  congr 2 <;> omega

/-- C415 (partial): without a field of view, or with one that does not fit, the image is kept as it is. -/
theorem crop_whole_partial (im : Img ℝ) (fov y x : ℕ) (h : fov = 0 ∨ min im.nx im.ny ≤ fov) : crop im fov y x = (im, im.nx) := by
  unfold crop; rw [if_neg (by omega)]

/-- C415 (violation): with an odd field of view the star is one pixel away from the centre, towards the end of both axes. -/
theorem crop_odd_violation (im : Img ℝ) (fov y x : ℕ) (hf : fov < min im.nx im.ny) (he : fov % 2 = 1)
    (hy : fov / 2 + 1 ≤ y ∧ y + fov / 2 ≤ im.nx) (hx : fov / 2 + 1 ≤ x ∧ x + fov / 2 ≤ im.ny) (hy' : y < im.nx) (hx' : x < im.ny) :
    ∃ out, crop im fov y x = (out, fov) ∧ out.nx = fov ∧ out.ny = fov ∧ out.px (fov / 2 + 1) (fov / 2 + 1) = im.px y x ∧
      ((∀ i j, im.px i j = im.px y x → i = y ∧ j = x) → out.px (fov / 2) (fov / 2) ≠ im.px y x) := by
  refine ⟨_, by unfold crop; rw [if_pos ⟨by omega, hf⟩], ?_, ?_, ?_, ?_⟩ <;> unfold sub <;>
    simp only [lower_of y fov (by omega), lower_of x fov (by omega), upper_of, sliceBound_nat]
  · omega
  · omega
  · congr 1 <;> omega
  · intro h hh
    have := (h _ _ hh).1
    omega

/-- C415 (violation): a star closer than half a field to the first row (by at least one pixel) makes the loading fail, whatever the image. -/
theorem crop_edge_violation (im : Img ℝ) (fov y x : ℕ) (inst : String) (coadds : ℝ) (hf : fov < min im.nx im.ny) (hy : 2 * y + 2 ≤ fov) :
    image im fov y x inst coadds = .error .value := by
  have h := lower_neg y fov hy
  have e : (crop im fov y x).1.nx = 0 := by
    unfold crop
    rw [if_pos ⟨by omega, hf⟩]
    unfold sub
    simp only
    rw [upper_of, sliceBound_nat]
    unfold sliceBound
    rw [h, if_pos (by omega)]
    omega
  unfold image isSaturated
  rw [if_pos (Or.inl e)]
  rfl

/-- C415 (violation): a star closer than half a field to the last row gives fewer rows than the field of view recorded. -/
theorem crop_last_violation (im : Img ℝ) (fov y x : ℕ) (hf : fov < min im.nx im.ny) (h0 : fov ≠ 0) (hy : fov ≤ 2 * y) (hl : im.nx < y + fov / 2) :
    (crop im fov y x).1.nx < (crop im fov y x).2 := by
  unfold crop
  rw [if_pos ⟨by omega, hf⟩]
  unfold sub
  simp only
  rw [upper_of, lower_of y fov hy, sliceBound_nat, sliceBound_nat]
  rcases le_total (y - (fov + 1) / 2) im.nx with h | h
  · rw [min_eq_left h, min_eq_right (by omega)]; omega
  · rw [min_eq_right h, min_eq_right (by omega)]; omega

example : Spec.Centred ⟨4, 6, fun i j => i + 10 * j⟩ (crop ⟨4, 6, fun i j => i + 10 * j⟩ 2 3 2).1 2 3 2 :=
  (crop_centred_partial _ 2 3 2 (by norm_num) (by norm_num) (by norm_num) (by norm_num) (by norm_num)).1
example : image ⟨256, 256, fun _ _ => 1⟩ 150 40 128 "NIRC2" 1 = .error .value :=
  crop_edge_violation _ 150 40 128 _ _ (by norm_num) (by norm_num)

/-- C416: an image is flagged exactly when a pixel of the image returned exceeds the level of its instrument times the number of
coadded frames; an instrument without a level is never flagged. -/
theorem saturated_spec (im : Img ℝ) (fov y x : ℕ) (coadds : ℝ) (out : Img ℝ) (n : ℕ) (b : Bool) (inst : String)
    (h : image im fov y x inst coadds = .ok (out, n, b)) :
    (inst = "NIRC2" → (b = true ↔ ∃ i < out.nx, ∃ j < out.ny, out.px i j > 12000 * coadds)) ∧
      (inst = "OSIRIS" → (b = true ↔ ∃ i < out.nx, ∃ j < out.ny, out.px i j > 20000 * coadds)) ∧
      (inst ≠ "NIRC2" → inst ≠ "OSIRIS" → b = false) := by
  unfold image isSaturated at h
  split_ifs at h with h1
  · cases h
  · simp only [Except.map, Except.ok.injEq, Prod.mk.injEq] at h
    obtain ⟨rfl, -, rfl⟩ := h
    unfold saturation
    refine ⟨?_, ?_, ?_⟩
    · intro e; rw [if_pos e]; simp
    · intro e; subst e; rw [if_neg (by decide), if_pos rfl]; simp
    · intro e e'; rw [if_neg e, if_neg e']

/-- C416: every image that keeps a pixel gets a flag. -/
theorem saturated_total (im : Img ℝ) (fov y x : ℕ) (coadds : ℝ) (inst : String) (h : 0 < (crop im fov y x).1.nx ∧ 0 < (crop im fov y x).1.ny) :
    ∃ b, image im fov y x inst coadds = .ok ((crop im fov y x).1, (crop im fov y x).2, b) := by
  unfold image isSaturated
  rw [if_neg (by omega)]
  exact ⟨_, rfl⟩

example : ∃ out n, image ⟨1, 2, fun _ j => if j = 1 then 30000 else 0⟩ 0 0 0 "NIRC2" 2 = .ok (out, n, true) := by
  obtain ⟨b, hb⟩ := saturated_total ⟨1, 2, fun _ j => if j = 1 then 30000 else 0⟩ 0 0 0 2 "NIRC2" (by simp [crop])
  have := ((saturated_spec _ _ _ _ _ _ _ _ _ hb).1 rfl).2 ⟨0, by simp [crop], 1, by simp [crop], by simp [crop]; norm_num⟩
  rw [this] at hb
  exact ⟨_, _, hb⟩

/-! ### Telemetry -/

/-- The file and the calibration agree: all series have the same number of frames, the residual has the commands, tip, tilt and focus,
there is one command per valid actuator and one intensity per valid subaperture, and the reconstructor has its size. -/
structure Fits (cal : Calib) (trs : Trs) : Prop where
  com : trs.com.rows = trs.slopes.rows
  res : trs.residual.rows = trs.slopes.rows
  int : trs.intensity.rows = trs.slopes.rows
  cols : trs.residual.cols = trs.com.cols + 3
  act : true ∈ cal.act → cal.act.length = cal.nAct * cal.nAct ∧ trs.com.cols = cal.act.count true
  sub : true ∈ cal.subap → cal.subap.length = cal.nSub * cal.nSub ∧ trs.intensity.cols = cal.subap.count true
  size : trs.rxSize = (trs.com.cols + 3) * trs.slopes.cols * trs.nRec

theorem place_of (n size : ℕ) (map : List Bool) (s : Series) (hr : s.rows = n)
    (hm : true ∈ map → map.length = size ∧ s.cols = map.count true) :
    ∃ u, place n size map s = .ok u ∧ u.rows = n := by
  unfold place
  split_ifs with h
  · obtain ⟨h1, h2⟩ := hm h
    unfold fill
    rw [if_neg (by omega), if_neg (by omega), if_neg (by omega)]
    exact ⟨_, rfl, rfl⟩
  · exact ⟨s, rfl, hr⟩

theorem restore_inv (cal : Calib) (m : Mode) (guid : ℝ) (trs : Trs) (d : ℕ) (o : Out) (h : restore cal m guid trs d = .ok o) :
    ∃ inten res com, place trs.slopes.rows (cal.nSub * cal.nSub) cal.subap trs.intensity = .ok inten ∧
      place trs.slopes.rows (cal.nAct * cal.nAct) cal.act (residual trs) = .ok res ∧
      place trs.slopes.rows (cal.nAct * cal.nAct) cal.act (trs.com.scale volt2meter) = .ok com ∧
      ¬(m = .lgs ∧ trs.b.isNone) ∧
      o.nExp = trs.slopes.rows ∧ o.slopes = trs.slopes.keep d ∧ o.intensity = inten ∧ (o.wfsWvl, o.ttWvl) = wavelengths m guid ∧
      o.com = com.keep d ∧ o.rec' = res.keep d ∧ o.ttSlopes = (ttSlopes trs cal.D).keep d ∧ o.ttCom = (ttCom trs cal.D).keep d ∧
      o.focus = (focus trs).keep d ∧ o.wfe = wfe (residual trs) ∧ o.R = (fun i s r => volt2meter * trs.rx i s r) ∧
      o.Rtt = (fun i s r => tilt2meter trs.b.isSome cal.D * trs.rx (trs.com.cols + i) s r) ∧
      o.freq = rate (trs.nTime - 1) trs.time ∧ o.nCom = trs.com.cols := by
  unfold restore at h
  rcases h1 : place trs.slopes.rows (cal.nSub * cal.nSub) cal.subap trs.intensity with e | inten
  · simp [h1, bind, Except.bind] at h
  · by_cases h2 : m = .lgs ∧ trs.b.isNone
    · simp only [h1, bind, Except.bind] at h; rw [if_pos h2] at h; simp at h
    · by_cases h3 : trs.rxSize = (trs.com.cols + 3) * trs.slopes.cols * trs.nRec
      · rcases h4 : place trs.slopes.rows (cal.nAct * cal.nAct) cal.act (residual trs) with e | res
        · simp only [h1, bind, Except.bind] at h; rw [if_neg h2, if_pos h3] at h; simp [h4] at h
        · rcases h5 : place trs.slopes.rows (cal.nAct * cal.nAct) cal.act (trs.com.scale volt2meter) with e | com
          · simp only [h1, bind, Except.bind] at h; rw [if_neg h2, if_pos h3] at h; simp [h4, h5] at h
          · simp only [h1, bind, Except.bind] at h
            rw [if_neg h2, if_pos h3] at h
            simp only [h4, h5, Except.ok.injEq] at h
            subst h
            exact ⟨inten, res, com, rfl, rfl, rfl, h2, rfl, rfl, rfl, rfl, rfl, rfl, rfl, rfl, rfl, rfl, rfl, rfl, rfl, rfl⟩
      · simp only [h1, bind, Except.bind] at h; rw [if_neg h2, if_neg h3] at h; simp at h

/-- C417 (partial): in NGS mode, and in LGS mode with the block of the tip-tilt sensor, telemetry that agrees with the calibration is
restored. -/
theorem restore_ok_partial (cal : Calib) (m : Mode) (guid : ℝ) (trs : Trs) (d : ℕ) (hf : Fits cal trs) (hm : m = .ngs ∨ trs.b.isSome) :
    ∃ o, restore cal m guid trs d = .ok o := by
  obtain ⟨u1, e1, -⟩ := place_of trs.slopes.rows (cal.nSub * cal.nSub) cal.subap trs.intensity hf.int hf.sub
  obtain ⟨u2, e2, -⟩ := place_of trs.slopes.rows (cal.nAct * cal.nAct) cal.act (residual trs) hf.res (by
    intro h; refine ⟨(hf.act h).1, ?_⟩
    rw [← (hf.act h).2]
    show min trs.com.cols (trs.residual.cols - 0) = _
    rw [hf.cols]; omega)
  obtain ⟨u3, e3, -⟩ := place_of trs.slopes.rows (cal.nAct * cal.nAct) cal.act (trs.com.scale volt2meter) hf.com hf.act
  unfold restore
  have h2 : ¬(m = .lgs ∧ trs.b.isNone) := by
    rintro ⟨rfl, h⟩
    rcases hm with h' | h'
    · cases h'
    · rw [Option.isNone_iff_eq_none] at h; rw [h] at h'; cases h'
  simp only [e1, bind, Except.bind]
  rw [if_neg h2, if_pos hf.size]
  simp only [e2, e3]
  exact ⟨_, rfl⟩

/-- C417 (partial): the wavelength of each sensor. The mode of the header is LGS when the laser propagates (`LSPROP` is yes in any case):
then the wavefront sensor is at 589 nm and the tip-tilt sensor at the wavelength of the header; else the wavefront sensor is at the
wavelength of the header. -/
theorem wavelengths_partial (cal : Calib) (obwf fcl fcn guid : ℝ) (prop : List Char) (trs : Trs) (d : ℕ) (o : Out)
    (h : restore cal (stage obwf fcl fcn prop).2 guid trs d = .ok o) :
    (prop.map Char.toUpper = "YES".toList → o.wfsWvl = 589e-9 ∧ o.ttWvl = some (guid * 1e-6)) ∧
      (prop.map Char.toUpper ≠ "YES".toList → o.wfsWvl = guid * 1e-6 ∧ o.ttWvl = none) := by
  obtain ⟨_, _, _, -, -, -, -, -, -, -, hw, -⟩ := restore_inv _ _ _ _ _ _ h
  unfold stage at hw
  refine ⟨fun hp => ?_, fun hp => ?_⟩
  · rw [if_pos hp] at hw; simpa [wavelengths] using hw
  · rw [if_neg hp] at hw; simpa [wavelengths] using hw

/-- C417 (violation): in LGS mode, telemetry without the block of the tip-tilt sensor cannot be loaded, although the same file is
loaded in NGS mode. -/
theorem laser_violation (cal : Calib) (guid : ℝ) (trs : Trs) (d : ℕ) (hf : Fits cal trs) (hb : trs.b = none) :
    restore cal .lgs guid trs d = .error .missing ∧ ∃ o, restore cal .ngs guid trs d = .ok o := by
  refine ⟨?_, restore_ok_partial cal .ngs guid trs d hf (Or.inl rfl)⟩
  obtain ⟨u1, e1, -⟩ := place_of trs.slopes.rows (cal.nSub * cal.nSub) cal.subap trs.intensity hf.int hf.sub
  unfold restore
  simp only [e1, bind, Except.bind]
  simp [hb]

/-! ### Places of the actuators -/

theorem rank_eq (map : List Bool) (j : ℕ) (h : j ≤ map.length) :
    rank map j = ((List.range j).filter fun i => map.getD i false).length := by
  induction j with
  | zero => simp [rank]
  | succ j ih =>
    have h' : j < map.length := h
    unfold rank at ih ⊢
    rw [List.take_add_one, List.count_append, ih (by omega), List.range_succ, List.filter_append, List.length_append]
    congr 1
    rw [List.getElem?_eq_getElem h', List.filter_singleton, List.getD_eq_getElem _ _ h']
    cases map[j] <;> simp

theorem index_of_filter (n : ℕ) (p : ℕ → Bool) (k : ℕ) (h : k < ((List.range n).filter p).length) :
    ((List.range (((List.range n).filter p)[k])).filter p).length = k := by
  set j := ((List.range n).filter p)[k] with hj
  have hm : j ∈ (List.range n).filter p := List.getElem_mem h
  rw [List.mem_filter, List.mem_range] at hm
  have e : (List.range n).filter p = (List.range j).filter p ++ j :: ((List.range (n - j - 1)).map (j + 1 + ·)).filter p := by
    have e1 : n = j + (1 + (n - j - 1)) := by omega
    conv_lhs => rw [e1, List.range_add, List.filter_append]
    congr 1
    rw [List.range_add, List.map_append, List.filter_append]
    simp [hm.2, Function.comp_def, List.map_map, add_assoc]
  have hl : ((List.range j).filter p).length < ((List.range n).filter p).length := by rw [e]; simp
  have hv : ((List.range n).filter p)[((List.range j).filter p).length]'hl = j := by
    have : ∀ (l : List ℕ) (hl : ((List.range j).filter p).length < l.length),
        l = (List.range j).filter p ++ j :: ((List.range (n - j - 1)).map (j + 1 + ·)).filter p → l[((List.range j).filter p).length] = j := by
      rintro l hl rfl
      simp
    exact this _ hl e
  have nd : ((List.range n).filter p).Nodup := List.nodup_range.filter _
  exact (List.Nodup.getElem_inj_iff nd).1 (hv.trans hj)

theorem mem_selected (map : List Bool) (j : ℕ) (h : j ∈ Spec.selected map) : j < map.length ∧ map.getD j false = true := by
  unfold Spec.selected at h
  rwa [List.mem_filter, List.mem_range] at h

theorem rank_selected (map : List Bool) (k : ℕ) (h : k < (Spec.selected map).length) :
    rank map (Spec.selected map)[k] = k := by
  have hm := mem_selected map _ (List.getElem_mem h)
  rw [rank_eq _ _ (le_of_lt hm.1)]
  exact index_of_filter _ _ k h

theorem length_selected (map : List Bool) : (Spec.selected map).length = map.count true := by
  have := rank_eq map map.length le_rfl
  rw [Spec.selected, ← this, rank, List.take_length]

theorem placed_of (n size : ℕ) (map : List Bool) (s u : Series) (h : place n size map s = .ok u) (hm : true ∈ map)
    (hr : s.rows = n) (hc : s.cols = map.count true) :
    u.rows = n ∧ u.cols = size ∧ map.length = size ∧ Spec.Placed map s.at' u.at' n := by
  unfold place at h
  rw [if_pos hm] at h
  unfold fill at h
  by_cases h1 : map.length = size
  swap
  · rw [if_pos h1] at h; cases h
  rw [if_neg (by omega), if_neg (by omega), if_neg (by omega), Except.ok.injEq] at h
  subst h
  refine ⟨rfl, rfl, h1, ?_, ?_⟩
  · intro t ht k hk
    have hj' := mem_selected map _ (List.getElem_mem hk)
    show (if map.getD _ false = true then _ else _) = _
    rw [if_pos hj'.2, rank_selected]
    congr 1
    · split_ifs with h2
      · omega
      · rfl
    · split_ifs with h2
      · rw [length_selected] at hk; omega
      · rfl
  · intro t ht j hj
    show (if map.getD _ false = true then _ else _) = _
    rw [if_neg]
    intro hh
    apply hj
    unfold Spec.selected
    rw [List.mem_filter, List.mem_range]
    refine ⟨?_, hh⟩
    by_contra hn
    rw [List.getD_eq_default _ _ (by omega)] at hh
    cases hh

/-- C418: the commands and the residuals (in metres, the latter without their mean) are those of the file, in order, at the valid
actuators; the other actuators are at zero; frames are all those of the file when none is dropped. -/
theorem actuators_placed (cal : Calib) (m : Mode) (guid : ℝ) (trs : Trs) (o : Out) (hf : Fits cal trs) (ha : true ∈ cal.act)
    (h : restore cal m guid trs 1 = .ok o) :
    o.com.rows = trs.slopes.rows ∧ o.rec'.rows = trs.slopes.rows ∧ o.com.cols = cal.nAct * cal.nAct ∧ o.rec'.cols = cal.nAct * cal.nAct ∧
      Spec.Placed cal.act (fun t k => 0.4095e-6 * trs.com.at' t k) o.com.at' trs.slopes.rows ∧
      Spec.Placed cal.act (fun t k => 0.4095e-6 * (trs.residual.at' t k - (∑ t' ∈ range trs.slopes.rows, trs.residual.at' t' k) / trs.slopes.rows))
        o.rec'.at' trs.slopes.rows := by
  obtain ⟨i, r, c, -, h2, h3, -, -, -, -, -, e1, e2, -⟩ := restore_inv _ _ _ _ _ _ h
  have hc : (residual trs).cols = cal.act.count true := by
    rw [← (hf.act ha).2]
    show min trs.com.cols (trs.residual.cols - 0) = _
    rw [hf.cols]; omega
  obtain ⟨a1, a2, a3, a4⟩ := placed_of _ _ _ _ _ h2 ha hf.res hc
  obtain ⟨b1, b2, b3, b4⟩ := placed_of _ _ _ _ _ h3 ha hf.com (hf.act ha).2
  have e1' : o.com = c := by rw [e1]; simp [Series.keep]
  have e2' : o.rec' = r := by rw [e2]; simp [Series.keep]
  rw [e1', e2']
  refine ⟨b1, a1, b2, a2, b4, ?_⟩
  have : (residual trs).at' = fun t k => 0.4095e-6 * (trs.residual.at' t k - (∑ t' ∈ range trs.slopes.rows, trs.residual.at' t' k) / trs.slopes.rows) := by
    funext t k
    show volt2meter * trs.residual.at' t (0 + k) - (∑ t' ∈ range trs.residual.rows, volt2meter * trs.residual.at' t' (0 + k)) / trs.residual.rows = _
    rw [hf.res, ← Finset.mul_sum, zero_add]
    unfold volt2meter
    ring
  rw [this] at a4
  exact a4

/-- C418: telemetry whose number of commands is neither one nor the number of valid actuators is refused. -/
theorem actuators_mismatch (cal : Calib) (m : Mode) (guid : ℝ) (trs : Trs) (d : ℕ) (ha : true ∈ cal.act)
    (h1 : trs.com.cols ≠ 1) (h2 : trs.com.cols ≠ cal.act.count true) : ∀ o, restore cal m guid trs d ≠ .ok o := by
  intro o h
  obtain ⟨i, r, c, -, -, h3, -⟩ := restore_inv _ _ _ _ _ _ h
  unfold place at h3
  rw [if_pos ha] at h3
  unfold fill at h3
  have h4 : (trs.com.scale volt2meter).cols ≠ cal.act.count true ∧ (trs.com.scale volt2meter).cols ≠ 1 := ⟨h2, h1⟩
  rw [if_pos h4] at h3
  split_ifs at h3

/-! ### Means -/

theorem keep_one (s : Series) (d : ℕ) (h : d ≤ 1) : s.keep d = s := by
  unfold Series.keep; rw [if_neg (by omega)]

theorem centre_sum (s : Series) (j : ℕ) : ∑ t ∈ range s.rows, s.centre.at' t j = 0 := by
  show ∑ t ∈ range s.rows, (s.at' t j - s.mean j) = 0
  rw [Finset.sum_sub_distrib, Finset.sum_const, Finset.card_range, nsmul_eq_mul]
  unfold Series.mean
  rcases Nat.eq_zero_or_pos s.rows with h | h
  · simp [h]
  · have : (s.rows : ℝ) ≠ 0 := by positivity
    field_simp
    ring

theorem place_sum (n size : ℕ) (map : List Bool) (s u : Series) (h : place n size map s = .ok u) (hr : s.rows = n)
    (h0 : ∀ j, ∑ t ∈ range n, s.at' t j = 0) (j : ℕ) : u.rows = n ∧ ∑ t ∈ range u.rows, u.at' t j = 0 := by
  unfold place at h
  split_ifs at h with hm
  · unfold fill at h
    by_cases h1 : map.length ≠ size
    · rw [if_pos h1] at h; cases h
    by_cases h3 : s.cols ≠ map.count true ∧ s.cols ≠ 1
    · rw [if_neg h1, if_neg (by omega), if_pos h3] at h; cases h
    rw [if_neg h1, if_neg (by omega), if_neg h3, Except.ok.injEq] at h
    subst h
    refine ⟨rfl, ?_⟩
    show ∑ t ∈ range n, (if map.getD j false = true then _ else (0 : ℝ)) = 0
    by_cases h4 : map.getD j false = true
    · simp only [if_pos h4]
      rw [← h0 (if s.cols = 1 then 0 else rank map j)]
      apply Finset.sum_congr rfl
      intro t ht
      rw [mem_range] at ht
      by_cases h5 : s.rows = 1
      · rw [if_pos h5, show t = 0 by omega]
      · rw [if_neg h5]
    · simp only [if_neg h4, Finset.sum_const_zero]
  · rw [Except.ok.injEq] at h; subst h; exact ⟨hr, by rw [hr]; exact h0 j⟩

/-- C419 (partial): when no frame is dropped, the residuals of the mirror, of the focus and of tip and tilt, and the tip-tilt commands
have a zero mean over the frames returned. -/
theorem zero_mean_partial (cal : Calib) (m : Mode) (guid : ℝ) (trs : Trs) (d : ℕ) (hd : d ≤ 1) (o : Out) (hf : Fits cal trs)
    (h : restore cal m guid trs d = .ok o) (j : ℕ) :
    ∑ t ∈ range o.rec'.rows, o.rec'.at' t j = 0 ∧ ∑ t ∈ range o.focus.rows, o.focus.at' t j = 0 ∧
      ∑ t ∈ range o.ttSlopes.rows, o.ttSlopes.at' t j = 0 ∧ ∑ t ∈ range o.ttCom.rows, o.ttCom.at' t j = 0 := by
  obtain ⟨i, r, c, -, h2, -, -, -, -, -, -, -, e2, e3, e4, e5, -⟩ := restore_inv _ _ _ _ _ _ h
  rw [e2, e3, e4, e5, keep_one _ d hd, keep_one _ d hd, keep_one _ d hd, keep_one _ d hd]
  refine ⟨(place_sum _ _ _ _ _ h2 hf.res (fun j => ?_) j).2, centre_sum _ j, centre_sum _ j, centre_sum _ j⟩
  rw [← hf.res]
  exact centre_sum _ j

/-- A series without its mean, then decimated: the frames left have a zero mean exactly when the frames kept of the series have the mean of
all of them. -/
theorem keep_centre (s : Series) (d : ℕ) (j : ℕ) (h : 0 < (s.keep d).rows) :
    ∑ t ∈ range (s.centre.keep d).rows, (s.centre.keep d).at' t j = 0 ↔ (s.keep d).mean j = s.mean j := by
  have e : (∑ t ∈ range (s.centre.keep d).rows, (s.centre.keep d).at' t j) =
      (∑ t ∈ range (s.keep d).rows, (s.keep d).at' t j) - (s.keep d).rows * s.mean j := by
    have h1 : (s.centre.keep d).rows = (s.keep d).rows := by unfold Series.keep; split_ifs <;> rfl
    have h2 : ∀ t, (s.centre.keep d).at' t j = (s.keep d).at' t j - s.mean j := by
      intro t; unfold Series.keep; split_ifs <;> rfl
    rw [h1, Finset.sum_congr rfl (fun t _ => h2 t), Finset.sum_sub_distrib, Finset.sum_const, Finset.card_range, nsmul_eq_mul]
  have hp : (0:ℝ) < (s.keep d).rows := by exact_mod_cast h
  rw [e, show (s.keep d).mean j = (∑ t ∈ range (s.keep d).rows, (s.keep d).at' t j) / (s.keep d).rows from rfl, div_eq_iff hp.ne', sub_eq_zero,
    mul_comm]

/-- C419 (partial): with any decimation the focus returned has a zero mean exactly when the frames kept of the focus measured (the last
column of the residuals) have the mean of all frames. -/
theorem focus_mean_iff_partial (cal : Calib) (m : Mode) (guid : ℝ) (trs : Trs) (d : ℕ) (o : Out)
    (h : restore cal m guid trs d = .ok o) (hr : 0 < o.focus.rows) :
    ∑ t ∈ range o.focus.rows, o.focus.at' t 0 = 0 ↔
      (∑ t ∈ range o.focus.rows, trs.residual.at' (t * max d 1) (trs.residual.cols - 1)) / o.focus.rows =
        (∑ t ∈ range trs.residual.rows, trs.residual.at' t (trs.residual.cols - 1)) / trs.residual.rows := by
  obtain ⟨i, r, c, -, -, -, -, -, -, -, -, -, -, f1, f2, f3, -⟩ := restore_inv _ _ _ _ _ _ h
  have e3 : o.focus = (focus trs).keep d := by first | exact f1 | exact f2 | exact f3
  have key := keep_centre (trs.residual.columns (trs.residual.cols - 1) 1) d 0
  have hrow : ((trs.residual.columns (trs.residual.cols - 1) 1).keep d).rows = o.focus.rows := by
    rw [e3]; unfold focus Series.keep; split_ifs <;> rfl
  rw [hrow] at key
  have hat : ∀ t, ((trs.residual.columns (trs.residual.cols - 1) 1).keep d).at' t 0 =
      trs.residual.at' (t * max d 1) (trs.residual.cols - 1) := by
    intro t
    unfold Series.keep
    split_ifs with hd
    · rw [max_eq_left hd.le]; rfl
    · rw [max_eq_right (not_lt.1 hd), mul_one]; rfl
  have := key hr
  unfold Series.mean at this
  rw [hrow, Finset.sum_congr rfl (fun t _ => hat t)] at this
  rw [e3] at this ⊢
  exact this

/-- One actuator, three frames: the residual moves in the second frame only. -/
noncomputable def pulse : Trs where
  slopes := ⟨3, 1, fun _ _ => 0⟩
  intensity := ⟨3, 1, fun _ _ => 1⟩
  com := ⟨3, 1, fun _ _ => 0⟩
  residual := ⟨3, 4, fun t _ => if t = 1 then 3 else 0⟩
  ttcom := ⟨3, 2, fun _ _ => 0⟩
  nTime := 3
  time := fun k => 10000 * k
  rx := fun _ _ _ => 1
  nRec := 1
  rxSize := 4
  b := none

/-- A single actuator and a single subaperture. -/
noncomputable def single : Calib := ⟨[true], [true], 1, 1, 10.5⟩

theorem pulse_fits : Fits single pulse := by
  constructor <;> simp [single, pulse]

/-- C419 (violation): the means are removed before frames are dropped: keeping one frame out of two of `pulse`, every frame returned is
below zero. -/
theorem zero_mean_violation : ∃ o, restore single .ngs 0.6 pulse 2 = .ok o ∧ o.rec'.rows = 2 ∧ ∀ t < 2, o.rec'.at' t 0 < 0 := by
  obtain ⟨o, h⟩ := restore_ok_partial single .ngs 0.6 pulse 2 pulse_fits (Or.inl rfl)
  refine ⟨o, h, ?_⟩
  obtain ⟨i, r, c, -, h2, -, -, -, -, -, -, -, e2, -⟩ := restore_inv _ _ _ _ _ _ h
  have : place 3 1 [true] (residual pulse) = .ok r := h2
  unfold place fill at this
  rw [if_pos (by simp), if_neg (by simp), if_neg (by simp [residual, pulse, Series.centre, Series.scale, Series.columns]),
    if_neg (by simp [residual, pulse, Series.centre, Series.scale, Series.columns]), Except.ok.injEq] at this
  subst this
  rw [e2]
  unfold Series.keep
  rw [if_pos (by norm_num)]
  refine ⟨rfl, ?_⟩
  intro t ht
  have hv : (residual pulse).at' (t * 2) 0 < 0 := by
    simp only [residual, pulse, Series.centre, Series.scale, Series.columns, Series.mean, volt2meter, Finset.sum_range_succ, Finset.sum_range_zero]
    have : t * 2 ≠ 1 := by omega
    simp only [this]
    norm_num
  simpa [residual, pulse, Series.centre, Series.scale, Series.columns] using hv

/-! ### Frame rate -/

theorem rate_eq (n : ℕ) (time : ℕ → ℝ) : rate n time = n / (100e-9 * (time n - time 0)) := by
  unfold rate
  rw [Finset.sum_range_sub]
  rcases Nat.eq_zero_or_pos n with h | h
  · simp [h]
  · have : (n : ℝ) ≠ 0 := by positivity
    rw [← mul_div_assoc, one_div_div]

/-- C420 (partial): the frame rate is the number of intervals over the time between the first and the last time stamps (in units of
100 ns), however the others are spread. -/
theorem rate_partial (cal : Calib) (m : Mode) (guid : ℝ) (trs : Trs) (d : ℕ) (o : Out) (h : restore cal m guid trs d = .ok o)
    (ht : trs.time 0 < trs.time (trs.nTime - 1)) :
    o.freq * (100e-9 * (trs.time (trs.nTime - 1) - trs.time 0)) = ((trs.nTime - 1 : ℕ) : ℝ) := by
  obtain ⟨i, r, c, -, -, -, -, -, -, -, -, -, -, -, -, -, -, -, -, e, -⟩ := restore_inv _ _ _ _ _ _ h
  rw [e, rate_eq, div_mul_cancel₀]
  have : 0 < trs.time (trs.nTime - 1) - trs.time 0 := by linarith
  positivity

/-- C420 (violation): when one frame out of `d` is kept, the rate recorded stays that of the file: for regular time stamps it is `d` times the
rate of the frames returned (frame `t` of the result was taken at the time stamp `t d`). -/
theorem rate_violation (cal : Calib) (m : Mode) (guid : ℝ) (trs : Trs) (d : ℕ) (hd : 1 < d) (o : Out) (h : restore cal m guid trs d = .ok o)
    (dt : ℝ) (hdt : 0 < dt) (ht : ∀ k, trs.time k = trs.time 0 + k * dt) (hn : 2 ≤ trs.nTime) (k : ℕ) (hk : 1 ≤ k) :
    (∀ t j, o.slopes.at' t j = trs.slopes.at' (t * d) j) ∧ o.freq = d * (k / (100e-9 * (trs.time (k * d) - trs.time 0))) ∧
      o.freq ≠ k / (100e-9 * (trs.time (k * d) - trs.time 0)) := by
  obtain ⟨i, r, c, -, -, -, -, -, es, -, -, -, -, -, -, -, -, -, -, e, -⟩ := restore_inv _ _ _ _ _ _ h
  have hk' : (0 : ℝ) < k := by positivity
  have hd' : (1 : ℝ) < d := by exact_mod_cast hd
  have hn' : (0 : ℝ) < ((trs.nTime - 1 : ℕ) : ℝ) := by
    have : 0 < trs.nTime - 1 := by omega
    exact_mod_cast this
  have key : o.freq = d * (k / (100e-9 * (trs.time (k * d) - trs.time 0))) := by
    rw [e, rate_eq, ht (trs.nTime - 1), ht (k * d)]
    push_cast
    rw [add_sub_cancel_left, add_sub_cancel_left]
    have hd0 : (0 : ℝ) < d := by linarith
    field_simp
  refine ⟨?_, key, ?_⟩
  · intro t j
    rw [es]; unfold Series.keep; rw [if_pos hd]
  · rw [key, ht (k * d)]
    push_cast
    have : 0 < k / (100e-9 * (trs.time 0 + k * d * dt - trs.time 0)) := by
      rw [add_sub_cancel_left]; positivity
    intro hh
    nlinarith

example : ∃ o, restore single .ngs 0.6 pulse 2 = .ok o ∧ o.freq = 1000 ∧ pulse.time (1 * 2) - pulse.time 0 = 20000 := by
  obtain ⟨o, h⟩ := restore_ok_partial single .ngs 0.6 pulse 2 pulse_fits (Or.inl rfl)
  refine ⟨o, h, ?_, by simp [pulse]; norm_num⟩
  have := rate_partial _ _ _ _ _ _ h (by simp [pulse])
  simp only [pulse] at this
  norm_num at this
  linarith

/-! ### Residual error -/

theorem var_eq (s : Series) (j : ℕ) : s.var j = Spec.variance s.rows (fun t => s.at' t j) := by
  unfold Series.var Spec.variance Series.mean
  rcases Nat.eq_zero_or_pos s.rows with h | h
  · simp [h]
  · have hn : (s.rows : ℝ) ≠ 0 := by positivity
    simp_rw [sub_sq]
    rw [Finset.sum_add_distrib, Finset.sum_sub_distrib, ← Finset.sum_mul, ← Finset.mul_sum, Finset.sum_const, Finset.card_range, nsmul_eq_mul]
    field_simp
    ring

theorem var_zero (s : Series) (j : ℕ) : s.var j = 0 ↔ Spec.Still s.rows (fun t => s.at' t j) := by
  unfold Series.var Spec.Still
  rcases Nat.eq_zero_or_pos s.rows with h | h
  · simp [h]
  · have hn : (s.rows : ℝ) ≠ 0 := by positivity
    rw [div_eq_zero_iff, or_iff_left hn, Finset.sum_eq_zero_iff_of_nonneg (fun _ _ => sq_nonneg _)]
    constructor
    · intro hh t ht
      have a := hh t (mem_range.2 ht)
      have b := hh 0 (mem_range.2 h)
      rw [sq_eq_zero_iff, sub_eq_zero] at a b
      simp only; rw [a, b]
    · intro hh t ht
      have hm : s.mean j = s.at' 0 j := by
        unfold Series.mean
        rw [Finset.sum_congr rfl (fun t ht => hh t (mem_range.1 ht)), Finset.sum_const, Finset.card_range, nsmul_eq_mul]
        field_simp
      rw [hm, show s.at' t j = s.at' 0 j from hh t (mem_range.1 ht)]; ring

theorem residual_at (trs : Trs) (t j : ℕ) :
    (residual trs).at' t j = volt2meter * trs.residual.at' t j - volt2meter * trs.residual.mean j := by
  show volt2meter * trs.residual.at' t (0 + j) - (∑ t' ∈ range trs.residual.rows, volt2meter * trs.residual.at' t' (0 + j)) / trs.residual.rows = _
  rw [← Finset.mul_sum, zero_add, mul_div_assoc]; rfl

theorem residual_still (trs : Trs) (j : ℕ) :
    Spec.Still trs.residual.rows (fun t => (residual trs).at' t j) ↔ Spec.Still trs.residual.rows (fun t => trs.residual.at' t j) := by
  unfold Spec.Still
  simp only [residual_at]
  have hv : volt2meter ≠ 0 := by unfold volt2meter; norm_num
  constructor <;> intro h t ht
  · have := h t ht
    have : volt2meter * trs.residual.at' t j = volt2meter * trs.residual.at' 0 j := by linarith
    exact mul_left_cancel₀ hv this
  · rw [h t ht]

theorem variance_affine (n : ℕ) (x : ℕ → ℝ) (a b : ℝ) :
    Spec.variance n (fun t => a * x t - b) = if n = 0 then 0 else a ^ 2 * Spec.variance n x := by
  unfold Spec.variance
  split_ifs with h
  · simp [h]
  · have hn : (n : ℝ) ≠ 0 := by positivity
    simp_rw [sub_sq, mul_pow]
    rw [Finset.sum_add_distrib, Finset.sum_sub_distrib, ← Finset.mul_sum, Finset.sum_const, Finset.card_range, nsmul_eq_mul, Finset.sum_sub_distrib,
      ← Finset.mul_sum, Finset.sum_const, Finset.card_range, nsmul_eq_mul]
    have : ∑ t ∈ range n, 2 * (a * x t) * b = 2 * a * b * ∑ t ∈ range n, x t := by rw [Finset.mul_sum]; apply Finset.sum_congr rfl; intros; ring
    rw [this]
    field_simp
    ring

open Classical in
/-- C421: the residual error (nm) is the root of the mean, over the actuators that move, of the variance of their residual in metres; the
actuators that do not move do not count; it is zero exactly when no actuator moves. -/
theorem wfe_spec (cal : Calib) (m : Mode) (guid : ℝ) (trs : Trs) (d : ℕ) (o : Out) (hf : Fits cal trs) (h : restore cal m guid trs d = .ok o)
    (moving : Finset ℕ)
    (hm : ∀ j, j ∈ moving ↔ j < trs.com.cols ∧ ¬Spec.Still trs.slopes.rows (fun t => trs.residual.at' t j)) :
    0 ≤ o.wfe ∧
      (o.wfe * 1e-9) ^ 2 * moving.card = ∑ j ∈ moving, Spec.variance trs.slopes.rows (fun t => 0.4095e-6 * trs.residual.at' t j) ∧
      (o.wfe = 0 ↔ moving = ∅) := by
  obtain ⟨i, r, c, -, -, -, -, -, -, -, -, -, -, -, -, -, e, -⟩ := restore_inv _ _ _ _ _ _ h
  have hc : (residual trs).cols = trs.com.cols := by
    show min trs.com.cols (trs.residual.cols - 0) = _
    rw [hf.cols]; omega
  have hr : (residual trs).rows = trs.slopes.rows := hf.res
  have hset : (range (residual trs).cols).filter (fun j => (residual trs).var j ≠ 0) = moving := by
    ext j
    rw [mem_filter, mem_range, hm, hc, Ne, var_zero, hr, ← hf.res, residual_still]
  have hvar : ∀ j ∈ moving, (residual trs).var j = Spec.variance trs.slopes.rows (fun t => 0.4095e-6 * trs.residual.at' t j) ∧ 0 < (residual trs).var j := by
    intro j hj
    have h0 : (residual trs).var j ≠ 0 := by rw [← hset, mem_filter] at hj; exact hj.2
    refine ⟨?_, lt_of_le_of_ne (by unfold Series.var; positivity) (Ne.symm h0)⟩
    have hn : trs.slopes.rows ≠ 0 := by
      intro hz
      apply ((hm j).1 hj).2
      rw [hz]; intro t ht; omega
    rw [var_eq, hr]
    simp only [residual_at]
    rw [variance_affine, if_neg hn]
    have := variance_affine trs.slopes.rows (fun t => trs.residual.at' t j) 0.4095e-6 0
    rw [if_neg hn] at this
    simp only [sub_zero] at this
    rw [this]; rfl
  have hw : o.wfe = √(∑ j ∈ moving, (residual trs).var j / moving.card) * 1e9 := by
    rw [e]; unfold wfe; simp only [hset]
  have hs : 0 ≤ ∑ j ∈ moving, (residual trs).var j / moving.card :=
    Finset.sum_nonneg fun j hj => div_nonneg (hvar j hj).2.le (by positivity)
  rcases Finset.eq_empty_or_nonempty moving with he | he
  · subst he
    rw [hw]; simp
  · have hcard : (0 : ℝ) < moving.card := by exact_mod_cast he.card_pos
    have hpos : 0 < ∑ j ∈ moving, (residual trs).var j / moving.card :=
      Finset.sum_pos (fun j hj => div_pos (hvar j hj).2 hcard) he
    refine ⟨by rw [hw]; positivity, ?_, ?_⟩
    · rw [hw, mul_assoc, show (1e9 : ℝ) * 1e-9 = 1 by norm_num, mul_one, Real.sq_sqrt hs, ← Finset.sum_div, div_mul_cancel₀ _ hcard.ne']
      exact Finset.sum_congr rfl fun j hj => (hvar j hj).1
    · constructor
      · intro hz
        rw [hw] at hz
        have : 0 < √(∑ j ∈ moving, (residual trs).var j / moving.card) := Real.sqrt_pos.2 hpos
        nlinarith
      · intro hz; exact absurd hz he.ne_empty

example : ¬Spec.Still pulse.slopes.rows (fun t => pulse.residual.at' t 0) := by
  intro h; have := h 1 (by simp [pulse]); simp [pulse] at this

/-! ### Compression of the profile -/

/-- C422 (partial): a measured profile with turbulence in all layers is compressed to any smaller number of layers: the total strength, the
isoplanatic moment of the heights and that of the winds are those of the profile. -/
theorem compress_measured_partial (l winds dirs heights : List ℝ) (n : ℕ) (h1 : 1 ≤ n) (hn : n < heights.length) (hl : l.length = heights.length)
    (hw : winds.length = heights.length) (hd : dirs.length = heights.length) (hp : ∀ c ∈ l, 0 < c) (hh : ∀ z ∈ heights, 0 ≤ z)
    (hv : ∀ v ∈ winds, 0 ≤ v) :
    ∃ v d out, compress (.numpy l) winds dirs heights n = .ok (v, d, out) ∧ v.length = n ∧ d.length = n ∧ out.length = n ∧
      (out.map Prod.fst).sum = l.sum ∧
      (out.map fun p => p.2 ^ (5 / 3 : ℝ) * p.1).sum = (List.zipWith (fun z c => z ^ (5 / 3 : ℝ) * c) heights l).sum ∧
      (List.zipWith (fun u p => u ^ (5 / 3 : ℝ) * p) v (out.map Prod.fst)).sum = (List.zipWith (fun u c => u ^ (5 / 3 : ℝ) * c) winds l).sum := by
  obtain ⟨a, ha⟩ := Layers.eqLayers_defined l winds n (5 / 3) (by omega) (by omega) hp
  obtain ⟨b, hb⟩ := Layers.eqLayers_defined l dirs n 1 (by omega) (by omega) hp
  obtain ⟨c, hc⟩ := Layers.eqLayers_defined l heights n (5 / 3) (by omega) (by omega) hp
  have ta := Layers.eqLayers_total l winds n (5 / 3) a (by omega) h1 ha
  have tb := Layers.eqLayers_total l dirs n 1 b (by omega) h1 hb
  have tc := Layers.eqLayers_total l heights n (5 / 3) c (by omega) h1 hc
  have mc := Layers.eqLayers_moment l heights n (5 / 3) c (by omega) h1 (by norm_num) (fun x hx => (hp x hx).le) hh hc
  have ma := Layers.eqLayers_moment l winds n (5 / 3) a (by omega) h1 (by norm_num) (fun x hx => (hp x hx).le) hv ha
  refine ⟨a.map (·.2), b.map (·.2), c, ?_, by simpa using ta.1, by simpa using tb.1, tc.1, tc.2.1, mc, ?_⟩
  · unfold compress
    rw [if_pos hn]
    simp [Weights.val, eqLayersOf, ha, hb, hc, Except.mapError, bind, Except.bind]
  · rw [← ma, tc.2.2, ← ta.2.2, List.zipWith_map_left, List.zipWith_map_right]
    congr 1
    exact List.zipWith_self

/-- C422 (violation): the median profile, used without measurements and when the measured profile is missing or has a missing layer, cannot be compressed:
the loading fails for every number of layers smaller than seven, one (the default) included. -/
theorem compress_median_violation (n : ℕ) (h1 : 1 ≤ n) (hn : n < 7) (dirs : List ℝ) (hd : dirs.length = 7) :
    (∀ seeing alt prof wvl, weights 0 seeing alt prof wvl = some (.plain Archive.medianWeights)) ∧
      (∀ status seeing alt prof wvl, none ∈ prof → weights status seeing alt prof wvl = some (.plain Archive.medianWeights)) ∧
      compress (.plain Archive.medianWeights) Archive.winds dirs Archive.heights n = .error .attribute := by
  refine ⟨fun _ _ _ _ => by unfold weights; rw [if_pos rfl], fun _ _ _ _ _ h => by unfold weights; split_ifs <;> simp_all, ?_⟩
  have hp : ∀ c ∈ Archive.medianWeights, 0 < c := by
    intro c hc
    simp only [Archive.medianWeights, List.mem_cons, List.not_mem_nil, or_false] at hc
    rcases hc with rfl | rfl | rfl | rfl | rfl | rfl | rfl <;> norm_num
  have hl : Archive.medianWeights.length = 7 := rfl
  obtain ⟨a, ha⟩ := Layers.eqLayers_defined Archive.medianWeights Archive.winds n (5 / 3) rfl (by omega) hp
  obtain ⟨b, hb⟩ := Layers.eqLayers_defined Archive.medianWeights dirs n 1 (by omega) (by omega) hp
  unfold compress
  rw [if_pos (by show n < 7; exact hn)]
  simp only [Weights.val, ha, hb, Except.mapError, bind, Except.bind, eqLayersOf]
  rw [if_pos ⟨by omega, by omega⟩]

/-- C422 (partial): with as many layers as the profile, nothing is changed, whatever the origin of the profile. -/
theorem compress_same_partial (w : Weights) (winds dirs heights : List ℝ) (n : ℕ) (hn : heights.length ≤ n) :
    compress w winds dirs heights n = .ok (winds, dirs, List.zip w.val heights) := by
  unfold compress; rw [if_neg (by omega)]

example : ∃ v d out, compress (.numpy Archive.medianWeights) Archive.winds [0, 0, 0, 0, 0, 0, 0] Archive.heights 3 = .ok (v, d, out) ∧ out.length = 3 := by
  obtain ⟨v, d, out, h, -, -, h3, -⟩ := compress_measured_partial Archive.medianWeights Archive.winds [0, 0, 0, 0, 0, 0, 0] Archive.heights 3
    (by norm_num) (by simp [Archive.heights]) rfl rfl rfl (by
      intro c hc
      simp only [Archive.medianWeights, List.mem_cons, List.not_mem_nil, or_false] at hc
      rcases hc with rfl | rfl | rfl | rfl | rfl | rfl | rfl <;> norm_num) (by
      intro c hc
      simp only [Archive.heights, List.mem_cons, List.not_mem_nil, or_false] at hc
      rcases hc with rfl | rfl | rfl | rfl | rfl | rfl | rfl <;> norm_num) (by
      intro c hc
      simp only [Archive.winds, List.mem_cons, List.not_mem_nil, or_false] at hc
      rcases hc with rfl | rfl | rfl | rfl | rfl | rfl | rfl <;> norm_num)
  exact ⟨v, d, out, h, h3⟩

/-! ### Reconstructor -/

/-- C423: if the residuals of the file are the slopes multiplied by one of its reconstructors, then in every frame returned the residual of the
mirror (metres, at the valid actuators in order) is the reconstructor returned applied to the slopes returned, from which their mean over the
file is removed; so are tip and tilt when they come from the wavefront sensor. -/
theorem reconstructed (cal : Calib) (m : Mode) (guid : ℝ) (trs : Trs) (d : ℕ) (o : Out) (hf : Fits cal trs) (hd : 1 ≤ d) (ha : true ∈ cal.act)
    (h : restore cal m guid trs d = .ok o) (r : ℕ)
    (hR : ∀ t < trs.slopes.rows, ∀ i < trs.com.cols + 3, trs.residual.at' t i = ∑ s ∈ range trs.slopes.cols, trs.rx i s r * trs.slopes.at' t s) :
    (∀ t, t * d < trs.slopes.rows → ∀ k (hk : k < (Spec.selected cal.act).length), o.rec'.at' t (Spec.selected cal.act)[k] =
      ∑ s ∈ range trs.slopes.cols, o.R k s r * (o.slopes.at' t s - (∑ t' ∈ range trs.slopes.rows, trs.slopes.at' t' s) / trs.slopes.rows)) ∧
    (trs.b = none → ∀ t, t * d < trs.slopes.rows → ∀ i < 2, o.ttSlopes.at' t i =
      ∑ s ∈ range trs.slopes.cols, o.Rtt i s r * (o.slopes.at' t s - (∑ t' ∈ range trs.slopes.rows, trs.slopes.at' t' s) / trs.slopes.rows)) := by
  obtain ⟨i0, res, c, -, h2, -, -, -, es, -, -, -, e2, e3, -, -, -, eR, eT, -⟩ := restore_inv _ _ _ _ _ _ h
  have hc : (residual trs).cols = cal.act.count true := by
    rw [← (hf.act ha).2]
    show min trs.com.cols (trs.residual.cols - 0) = _
    rw [hf.cols]; omega
  obtain ⟨-, -, -, a4, -⟩ := placed_of _ _ _ _ _ h2 ha hf.res hc
  have keep : ∀ (s : Series) t j, (s.keep d).at' t j = s.at' (t * d) j := by
    intro s t j
    unfold Series.keep
    split_ifs with h
    · rfl
    · have : d = 1 := by omega
      rw [this, mul_one]
  have centred : ∀ t < trs.slopes.rows, ∀ i < trs.com.cols + 3, trs.residual.at' t i - trs.residual.mean i =
      ∑ s ∈ range trs.slopes.cols, trs.rx i s r * (trs.slopes.at' t s - (∑ t' ∈ range trs.slopes.rows, trs.slopes.at' t' s) / trs.slopes.rows) := by
    intro t ht i hi
    simp_rw [mul_sub]
    rw [Finset.sum_sub_distrib, ← hR t ht i hi]
    congr 1
    unfold Series.mean
    rw [hf.res, Finset.sum_congr rfl (fun t ht => hR t (mem_range.1 ht) i hi), Finset.sum_comm, Finset.sum_div]
    apply Finset.sum_congr rfl
    intro s _
    rw [← Finset.mul_sum, mul_div_assoc]
  refine ⟨?_, ?_⟩
  · intro t ht k hk
    have hk' : k < trs.com.cols := by rw [length_selected] at hk; rw [(hf.act ha).2]; exact hk
    rw [e2, keep, a4 (t * d) ht k hk, residual_at, ← mul_sub, centred _ ht k (by omega), Finset.mul_sum, es, eR]
    apply Finset.sum_congr rfl
    intro s _
    rw [keep]; ring
  · intro hb t ht i hi
    rw [e3, keep, es, eT]
    have : (ttSlopes trs cal.D).at' (t * d) i = tilt2meter false cal.D * (trs.residual.at' (t * d) (trs.com.cols + i) - trs.residual.mean (trs.com.cols + i)) := by
      simp only [ttSlopes, hb, Series.centre, Series.scale, Series.columns, Series.mean, unitTt]
      simp only [Option.isSome_none, Bool.false_eq_true, if_false, one_mul]
      rw [← Finset.mul_sum, mul_div_assoc, mul_sub]
    rw [this, centred _ ht _ (by omega), Finset.mul_sum, hb]
    apply Finset.sum_congr rfl
    intro s _
    rw [keep]
    show _ = tilt2meter false cal.D * _ * _
    ring

/-! ### An example -/

/-- Four actuators, two of them valid; three frames, one slope, and residuals that are the slope times `i + 1`. -/
noncomputable def demo : Trs where
  slopes := ⟨3, 1, fun t _ => t⟩
  intensity := ⟨3, 1, fun _ _ => 1⟩
  com := ⟨3, 2, fun t j => t + 10 * j⟩
  residual := ⟨3, 5, fun t i => (i + 1) * t⟩
  ttcom := ⟨3, 2, fun _ _ => 0⟩
  nTime := 3
  time := fun k => 10000 * k
  rx := fun i _ _ => i + 1
  nRec := 1
  rxSize := 5
  b := none
noncomputable def four : Calib := ⟨[false, true, true, false], [true], 2, 1, 10.5⟩

theorem demo_fits : Fits four demo := by
  constructor <;> simp [four, demo]

example : Spec.selected four.act = [1, 2] := by decide
example : ∃ o, restore four .ngs 0.6 demo 1 = .ok o ∧ o.com.at' 2 2 = 0.4095e-6 * 12 ∧ o.com.at' 2 3 = 0 := by
  obtain ⟨o, h⟩ := restore_ok_partial four .ngs 0.6 demo 1 demo_fits (Or.inl rfl)
  obtain ⟨-, -, -, -, hp, -⟩ := actuators_placed _ _ _ _ _ demo_fits (by simp [four]) h
  refine ⟨o, h, ?_, hp.2 2 (by simp [demo]) 3 (by decide)⟩
  have := hp.1 2 (by simp [demo]) 1 (by decide)
  rw [show (Spec.selected four.act)[1]'(by decide) = 2 by decide] at this
  rw [this]; simp [demo]; norm_num
example : ∀ t < demo.slopes.rows, ∀ i < demo.com.cols + 3, demo.residual.at' t i = ∑ s ∈ range demo.slopes.cols, demo.rx i s 0 * demo.slopes.at' t s := by
  intro t _ i _; simp [demo]
example : ∃ o, restore four .ngs 0.6 demo 2 = .ok o ∧ o.rec'.at' 1 2 = 2 * 0.4095e-6 * (2 - 1) := by
  obtain ⟨o, h⟩ := restore_ok_partial four .ngs 0.6 demo 2 demo_fits (Or.inl rfl)
  refine ⟨o, h, ?_⟩
  have := (reconstructed _ _ _ _ _ _ demo_fits (by norm_num) (by simp [four]) h 0 (by intro t _ i _; simp [demo])).1 1 (by simp [demo]) 1 (by decide)
  rw [show (Spec.selected four.act)[1]'(by decide) = 2 by decide] at this
  obtain ⟨_, _, _, -, -, -, -, -, es, -, -, -, -, -, -, -, -, eR, -⟩ := restore_inv _ _ _ _ _ _ h
  rw [this, es, eR]
  simp only [demo, Series.keep, Finset.sum_range_succ, Finset.sum_range_zero, volt2meter]
  norm_num
example : restore single .lgs 0.6 pulse 1 = .error .missing := (laser_violation single 0.6 pulse 1 pulse_fits rfl).1
example (obwf fcl fcn : ℝ) : (stage obwf fcl fcn "yes".toList).2 = .lgs ∧ (stage obwf fcl fcn "NO".toList).2 = .ngs := by
  constructor
  · unfold stage; rw [if_pos (by decide)]
  · unfold stage; rw [if_neg (by decide)]

theorem restore_rest (cal : Calib) (m : Mode) (guid : ℝ) (trs : Trs) (d : ℕ) (o : Out) (h : restore cal m guid trs d = .ok o) :
    o.ttNExp = (ttSlopes trs cal.D).rows ∧
      o.ttFreq = (match trs.b with | some b => rate (b.nTime - 1) b.time | none => rate (trs.nTime - 1) trs.time) := by
  unfold restore at h
  rcases h1 : place trs.slopes.rows (cal.nSub * cal.nSub) cal.subap trs.intensity with e | inten
  · simp [h1, bind, Except.bind] at h
  · by_cases h2 : m = .lgs ∧ trs.b.isNone
    · simp only [h1, bind, Except.bind] at h; rw [if_pos h2] at h; simp at h
    · by_cases h3 : trs.rxSize = (trs.com.cols + 3) * trs.slopes.cols * trs.nRec
      · rcases h4 : place trs.slopes.rows (cal.nAct * cal.nAct) cal.act (residual trs) with e | res
        · simp only [h1, bind, Except.bind] at h; rw [if_neg h2, if_pos h3] at h; simp [h4] at h
        · rcases h5 : place trs.slopes.rows (cal.nAct * cal.nAct) cal.act (trs.com.scale volt2meter) with e | com
          · simp only [h1, bind, Except.bind] at h; rw [if_neg h2, if_pos h3] at h; simp [h4, h5] at h
          · simp only [h1, bind, Except.bind] at h
            rw [if_neg h2, if_pos h3] at h
            simp only [h4, h5, Except.ok.injEq] at h
            subst h
            exact ⟨rfl, rfl⟩
      · simp only [h1, bind, Except.bind] at h; rw [if_neg h2, if_neg h3] at h; simp at h

/-- C420 (partial): the rate of the tip-tilt loop is that of the block of the tip-tilt sensor when there is one, of the other loop else. -/
theorem rate_tiptilt_partial (cal : Calib) (m : Mode) (guid : ℝ) (trs : Trs) (d : ℕ) (o : Out) (h : restore cal m guid trs d = .ok o) :
    (trs.b = none → o.ttFreq = o.freq) ∧
      (∀ b, trs.b = some b → b.time 0 < b.time (b.nTime - 1) →
        o.ttFreq * (100e-9 * (b.time (b.nTime - 1) - b.time 0)) = ((b.nTime - 1 : ℕ) : ℝ)) := by
  obtain ⟨i, r, c, -, -, -, -, -, -, -, -, -, -, -, -, -, -, -, -, e, -⟩ := restore_inv _ _ _ _ _ _ h
  have e' := (restore_rest _ _ _ _ _ _ h).2
  refine ⟨fun hb => ?_, fun b hb ht => ?_⟩
  · rw [e', e, hb]
  · rw [e', hb]
    simp only
    rw [rate_eq, div_mul_cancel₀]
    have : 0 < b.time (b.nTime - 1) - b.time 0 := by linarith
    positivity

theorem keep_at (s : Series) (d t j : ℕ) (hd : 1 ≤ d) : (s.keep d).at' t j = s.at' (t * d) j := by
  unfold Series.keep
  split_ifs with h
  · rfl
  · rw [show d = 1 by omega, mul_one]

theorem mean_scale (s : Series) (a : ℝ) (j : ℕ) : (s.scale a).mean j = a * s.mean j := by
  unfold Series.mean Series.scale
  simp only
  rw [← Finset.mul_sum, mul_div_assoc]

/-- C437: the tip-tilt measurements and commands returned are those of the file, without their mean, in metres: without a block of the
tip-tilt sensor the measurements, in arcseconds, follow the commands in the residual and are the angle times the diameter; with it they
are in its units, 0.18 times 3.2 times 12.68 microns. -/
theorem tiptilt_values (cal : Calib) (m : Mode) (guid : ℝ) (trs : Trs) (d : ℕ) (hd : 1 ≤ d) (o : Out) (h : restore cal m guid trs d = .ok o) (t i : ℕ) :
    (trs.b = none → o.ttSlopes.at' t i = Real.pi / 648000 * cal.D * (trs.residual.at' (t * d) (trs.com.cols + i) - trs.residual.mean (trs.com.cols + i)) ∧
      o.ttCom.at' t i = Real.pi / 648000 * cal.D * (trs.ttcom.at' (t * d) i - trs.ttcom.mean i)) ∧
      (∀ b, trs.b = some b → o.ttSlopes.at' t i = 0.18 * 3.2 * 12.68e-6 * (b.slopes.at' (t * d) i - b.slopes.mean i) ∧
        o.ttCom.at' t i = 3.2 * 12.68e-6 * (b.com.at' (t * d) i - b.com.mean i)) := by
  obtain ⟨_, r, c, -, -, -, -, -, -, -, -, -, -, e3, e4, -⟩ := restore_inv _ _ _ _ _ _ h
  rw [e3, e4, keep_at _ _ _ _ hd, keep_at _ _ _ _ hd]
  unfold ttSlopes ttCom
  refine ⟨fun hb => ?_, fun b hb => ?_⟩
  · simp only [hb, Option.isSome_none, unitTt, tilt2meter]
    simp only [Series.centre, mean_scale]
    simp only [Series.scale, Series.columns, Series.mean]
    constructor
    · norm_num; ring
    · norm_num; ring
  · simp only [hb, Option.isSome_some, unitTt, tilt2meter]
    simp only [Series.centre, mean_scale]
    simp only [Series.scale, Series.mean, if_true]
    constructor <;> ring

/-- C437: the residual focus is the last column of the residual, without its mean. -/
theorem focus_values (cal : Calib) (m : Mode) (guid : ℝ) (trs : Trs) (d : ℕ) (hd : 1 ≤ d) (o : Out) (h : restore cal m guid trs d = .ok o)
    (hf : Fits cal trs) (t : ℕ) :
    o.focus.at' t 0 = trs.residual.at' (t * d) (trs.com.cols + 2) - trs.residual.mean (trs.com.cols + 2) := by
  obtain ⟨_, r, c, -, -, -, -, -, -, -, -, -, -, -, -, e5, -⟩ := restore_inv _ _ _ _ _ _ h
  rw [e5, keep_at _ _ _ _ hd]
  unfold focus
  simp only [Series.centre, Series.columns, Series.mean, hf.cols]
  simp

/-- C438 (partial): without decimation the numbers of frames recorded are those of the series returned. -/
theorem frames_partial (cal : Calib) (m : Mode) (guid : ℝ) (trs : Trs) (d : ℕ) (hd : d ≤ 1) (o : Out) (h : restore cal m guid trs d = .ok o) :
    o.slopes.rows = o.nExp ∧ o.ttSlopes.rows = o.ttNExp ∧
      o.ttNExp = (match trs.b with | some b => b.slopes.rows | none => trs.residual.rows) := by
  obtain ⟨_, r, c, -, -, -, -, e0, e1, -, -, -, -, e3, -⟩ := restore_inv _ _ _ _ _ _ h
  have e := (restore_rest _ _ _ _ _ _ h).1
  have : ∀ s : Series, s.keep d = s := fun s => by unfold Series.keep; rw [if_neg (by omega)]
  rw [e0, e1, e3, e, this, this]
  refine ⟨rfl, rfl, ?_⟩
  unfold ttSlopes
  cases hb : trs.b <;> rfl

/-- C438 (violation): with decimation, the numbers of frames recorded stay those of the file: they exceed the frames returned as soon as there are two. -/
theorem frames_violation (cal : Calib) (m : Mode) (guid : ℝ) (trs : Trs) (d : ℕ) (hd : 1 < d) (o : Out) (h : restore cal m guid trs d = .ok o)
    (hn : 2 ≤ trs.slopes.rows) : o.slopes.rows < o.nExp := by
  obtain ⟨_, r, c, -, -, -, -, e0, e1, -⟩ := restore_inv _ _ _ _ _ _ h
  rw [e0, e1]
  unfold Series.keep
  rw [if_pos hd]
  show (trs.slopes.rows + d - 1) / d < _
  rw [Nat.div_lt_iff_lt_mul (by omega)]
  obtain ⟨a, ha⟩ := Nat.exists_eq_add_of_le hn
  obtain ⟨b, hb⟩ := Nat.exists_eq_add_of_le hd
  rw [ha, hb]
  have : 0 ≤ a * b := Nat.zero_le _
  have : (2 + a) * (Nat.succ 1 + b) = a * b + 2 * a + 2 * b + 4 := by simp only [Nat.succ_eq_add_one]; ring
  omega

/-- C422 (partial): the profile is the measured one when there are measurements, all of them are numbers and one is not the flag -1. -/
theorem weights_measured_partial (status : ℕ) (seeing alt : ℝ) (prof : List (Option ℝ)) (wvl : ℝ) (hs : status ≠ 0) (hn : none ∉ prof) :
    ((∃ c ∈ prof, c ≠ some (-1)) → weights status seeing alt prof wvl = (Archive.atmosphere seeing alt prof wvl).map fun r => .numpy r.2) ∧
      ((∀ c ∈ prof, c = some (-1)) → weights status seeing alt prof wvl = some (.plain Archive.medianWeights)) := by
  unfold weights
  rw [if_neg hs]
  refine ⟨fun ⟨c, hc, h1⟩ => ?_, fun h => by rw [if_pos (Or.inl h)]⟩
  rw [if_neg]
  rintro (h | h)
  · exact h1 (h c hc)
  · exact hn h

/-- A case meeting the hypotheses of `rate_tiptilt_partial`, `tiptilt_values`, `focus_values`, `frames_partial` and `frames_violation`. -/
example : (∃ o, restore single .ngs 0.6 pulse 2 = .ok o ∧ o.slopes.rows < o.nExp ∧ o.ttFreq = o.freq ∧ o.focus.at' 0 0 = -1 ∧
      o.ttSlopes.at' 0 0 = -(Real.pi / 648000 * 10.5)) ∧
    ∃ o, restore single .ngs 0.6 pulse 1 = .ok o ∧ o.ttNExp = 3 := by
  obtain ⟨o, h⟩ := restore_ok_partial single .ngs 0.6 pulse 2 pulse_fits (Or.inl rfl)
  obtain ⟨o', h'⟩ := restore_ok_partial single .ngs 0.6 pulse 1 pulse_fits (Or.inl rfl)
  refine ⟨⟨o, h, frames_violation _ _ _ _ _ (by norm_num) o h (by simp [pulse]), (rate_tiptilt_partial _ _ _ _ _ o h).1 rfl, ?_, ?_⟩, o', h',
    (frames_partial _ _ _ _ _ le_rfl o' h').2.2⟩
  · rw [focus_values _ _ _ _ _ (by norm_num) o h pulse_fits 0]
    simp [pulse, Series.mean, Finset.sum_range_succ]
  · rw [((tiptilt_values _ _ _ _ _ (by norm_num) o h 0 0).1 rfl).1]
    simp [pulse, single, Series.mean, Finset.sum_range_succ]

/-- A case meeting the hypotheses of `weights_measured_partial`. -/
example := (weights_measured_partial 1 0.6 0.3 [some 1e-13, some (-1)] 500e-9 (by norm_num) (by simp)).1 ⟨some 1e-13, by simp, by norm_num⟩

/-! ### Angle of the pupil -/

/-- C474: the pupil turns with the rotator, and against the instrument for the two known ones; at the same angles it is 42.5 degrees
further for OSIRIS than for NIRC2; for another instrument it is the angle of the rotator. -/
theorem posAngle_spec (rot ang : ℝ) (inst : String) :
    (∀ d, posAngle inst (rot + d) ang = posAngle inst rot ang + d) ∧
    posAngle "NIRC2" rot ang = rot - ang ∧ posAngle "OSIRIS" rot ang = posAngle "NIRC2" rot ang + 42.5 ∧
    (inst ≠ "NIRC2" → inst ≠ "OSIRIS" → posAngle inst rot ang = rot) := by
  refine ⟨fun d => by unfold posAngle; ring, by simp [posAngle, instAngle], ?_, ?_⟩
  · simp only [posAngle, instAngle, if_true, show ("OSIRIS" = "NIRC2") ↔ False by decide, if_false]
    ring
  · intro h1 h2
    simp [posAngle, instAngle, h1, h2]

end P3.Keck
