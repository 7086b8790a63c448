import Verif.Model.Memory
import Mathlib.Tactic.Positivity
import Mathlib.Tactic.Linarith
import Mathlib.Tactic.NormNum
import Mathlib.Tactic.GCongr
import Mathlib.Tactic.Ring
import Mathlib.Tactic.FieldSimp

/-! C42: memory estimates. -/

namespace P3.Memory

/-- A system with more guide stars, sources, layers, mirrors, replicas or larger grids, same options. -/
structure Larger (d d' : Dims) : Prop where
  float32 : d'.float32 = d.float32
  gainPos : d'.gainPos = d.gainPos
  reduce : d'.reduce = d.reduce
  breakdown : d'.breakdown = d.breakdown
  nOtf : d.nOtf ≤ d'.nOtf
  res : d.res ≤ d'.res
  nTimes : d.nTimes ≤ d'.nTimes
  nGs : d.nGs ≤ d'.nGs
  nSrc : 1 ≤ d.nSrc ∧ d.nSrc ≤ d'.nSrc
  nAtm : d.nAtm ≤ d'.nAtm
  nDm : d.nDm ≤ d'.nDm

theorem total_append (a b : List (String × ℕ)) : total (a ++ b) = total a + total b := by
  simp [total]

theorem total_final_mono (d d' : Dims) (h : Larger d d') : total (finalItems d) ≤ total (finalItems d') := by
  obtain ⟨h1, h2, h3, h4, hn, hr, ht, hg, ⟨hs1, hs⟩, ha, hd⟩ := h
  have hz : d'.size = d.size := by simp [Dims.size, h1]
  unfold finalItems
  rw [h2, h3, h4, hz]
  simp only [total_append]
  refine Nat.add_le_add (Nat.add_le_add (Nat.add_le_add ?_ ?_) ?_) ?_
  · simp only [total, List.map_cons, List.map_nil, List.sum_cons, List.sum_nil]
    gcongr
  · split_ifs with g1 g2 g3 g4
    · simp only [total, List.cons_append, List.nil_append, List.map_cons, List.map_nil, List.sum_cons, List.sum_nil]
      gcongr
    · exact absurd ⟨lt_of_lt_of_le g2.1 hg, g2.2⟩ g3
    · simp only [total_append]
      refine Nat.add_le_add ?_ ((show total [] = 0 from rfl) ▸ Nat.zero_le _)
      simp only [total, List.map_cons, List.map_nil, List.sum_cons, List.sum_nil]
      gcongr
    · simp only [total, List.append_nil, List.map_cons, List.map_nil, List.sum_cons, List.sum_nil]
      gcongr
    · exact le_rfl
  · split_ifs with g1 g2 g3
    · simp only [total, List.map_cons, List.map_nil, List.sum_cons, List.sum_nil]
      gcongr
    · exact absurd (lt_of_lt_of_le g2 hg) g3
    · have : 1 ≤ d'.nSrc := hs1.trans hs
      simp only [total, List.map_cons, List.map_nil, List.sum_cons, List.sum_nil]
      gcongr
    · simp only [total, List.map_cons, List.map_nil, List.sum_cons, List.sum_nil]
      gcongr
    · exact le_rfl
  · simp only [total, List.map_cons, List.map_nil, List.sum_cons, List.sum_nil]
    gcongr

theorem total_peak_mono (d d' : Dims) (ip : Bool) (h : Larger d d') :
    total (peakItems d ip) ≤ total (peakItems d' ip) := by
  obtain ⟨h1, h2, h3, h4, hn, hr, ht, hg, ⟨hs1, hs⟩, ha, hd⟩ := h
  have hz : d'.size = d.size := by simp [Dims.size, h1]
  unfold peakItems
  rw [h2, hz]
  by_cases g : ip = true ∧ d.gainPos = true
  · rw [if_pos g, if_pos g]
    simp only [total_append]
    refine Nat.add_le_add (Nat.add_le_add (Nat.add_le_add ?_ ?_) ?_) ?_
    · split_ifs with g1 g2 g3
      · simp only [total, List.map_cons, List.map_nil, List.sum_cons, List.sum_nil]
        gcongr
      · exact absurd (lt_of_lt_of_le g1 hg) g2
      · exact Nat.zero_le _
      · exact le_rfl
    · simp only [total, List.map_cons, List.map_nil, List.sum_cons, List.sum_nil]
      gcongr
    · split_ifs with g1 g2 g3
      · simp only [total, List.map_cons, List.map_nil, List.sum_cons, List.sum_nil]
        gcongr
      · exact absurd (lt_of_lt_of_le g1 hg) g2
      · exact Nat.zero_le _
      · exact le_rfl
    · simp only [total, List.map_cons, List.map_nil, List.sum_cons, List.sum_nil]
      gcongr
  · rw [if_neg g, if_neg g]

theorem hostPeak_ge (d : Dims) : 0.028 ≤ hostPeak d := by
  unfold hostPeak
  have h1 : (0:ℝ) ≤ ((d.nGs - 1 : ℕ) : ℝ) := Nat.cast_nonneg _
  have h2 : (0:ℝ) ≤ ((d.nAtm - 1 : ℕ) : ℝ) := Nat.cast_nonneg _
  linarith

/-- C42: the estimated peak is at least the estimated final memory, on both backends, in the observable view
and in the model view. -/
theorem final_le_peak (gpu ip : Bool) (d : Dims) :
    (estimate gpu ip d).finalMB ≤ (estimate gpu ip d).peakMB ∧
    (estimate gpu ip d).modelFinalMB ≤ (estimate gpu ip d).modelPeakMB := by
  have hm : (total (finalItems d) : ℝ) / 1024 ^ 2 ≤
      ((total (finalItems d) + total (peakItems d true) : ℕ) : ℝ) / 1024 ^ 2 := by
    gcongr
    exact Nat.le_add_right _ _
  have hh : max (0.015:ℝ) (0.55 * hostPeak d) ≤ hostPeak d := by
    have := hostPeak_ge d
    refine max_le (by linarith) (by linarith)
  cases gpu <;> cases ip <;> simp only [estimate, Bool.false_eq_true, if_false, if_true, le_refl, true_and, and_true]
  · exact ⟨hm, hm⟩
  · exact ⟨hh, hm⟩

/-- C42: without the peak option the peak reported is the final memory and no temporary array is listed. -/
theorem no_peak (gpu : Bool) (d : Dims) :
    (estimate gpu false d).peakMB = (estimate gpu false d).finalMB ∧
    (estimate gpu false d).modelPeakMB = (estimate gpu false d).modelFinalMB ∧
    (estimate gpu false d).breakdownPeak = [] := by
  cases gpu <;> simp [estimate]

theorem hostPeak_mono (d d' : Dims) (h : Larger d d') : hostPeak d ≤ hostPeak d' := by
  unfold hostPeak
  have h1 : ((d.nGs - 1 : ℕ) : ℝ) ≤ ((d'.nGs - 1 : ℕ) : ℝ) := Nat.cast_le.mpr (Nat.sub_le_sub_right h.nGs 1)
  have h2 : ((d.nAtm - 1 : ℕ) : ℝ) ≤ ((d'.nAtm - 1 : ℕ) : ℝ) := Nat.cast_le.mpr (Nat.sub_le_sub_right h.nAtm 1)
  linarith

/-- C42: a larger system never has a smaller estimate, final or peak, on both backends. -/
theorem estimate_mono (gpu ip : Bool) (d d' : Dims) (h : Larger d d') :
    (estimate gpu ip d).finalMB ≤ (estimate gpu ip d').finalMB ∧
    (estimate gpu ip d).peakMB ≤ (estimate gpu ip d').peakMB ∧
    (estimate gpu ip d).modelFinalMB ≤ (estimate gpu ip d').modelFinalMB ∧
    (estimate gpu ip d).modelPeakMB ≤ (estimate gpu ip d').modelPeakMB := by
  have hf : (total (finalItems d) : ℝ) / 1024 ^ 2 ≤ (total (finalItems d') : ℝ) / 1024 ^ 2 := by
    gcongr; exact total_final_mono d d' h
  have hp : ((total (finalItems d) + total (peakItems d true) : ℕ) : ℝ) / 1024 ^ 2 ≤
      ((total (finalItems d') + total (peakItems d' true) : ℕ) : ℝ) / 1024 ^ 2 := by
    gcongr
    · exact total_final_mono d d' h
    · exact total_peak_mono d d' true h
  have hh := hostPeak_mono d d' h
  have hx : max (0.015:ℝ) (0.55 * hostPeak d) ≤ max (0.015:ℝ) (0.55 * hostPeak d') := by gcongr
  cases gpu <;> cases ip <;> simp only [estimate, Bool.false_eq_true, if_false, if_true]
  · exact ⟨hf, hf, hf, hf⟩
  · exact ⟨hf, hp, hf, hp⟩
  · exact ⟨hx, hx, hf, hf⟩
  · exact ⟨hx, hh, hf, hp⟩

/-- C42: the memory-reduction option never increases the estimate. -/
theorem reduce_le (gpu ip : Bool) (d : Dims) :
    (estimate gpu ip { d with reduce := true }).finalMB ≤ (estimate gpu ip { d with reduce := false }).finalMB ∧
    (estimate gpu ip { d with reduce := true }).peakMB ≤ (estimate gpu ip { d with reduce := false }).peakMB ∧
    (estimate gpu ip { d with reduce := true }).modelPeakMB ≤ (estimate gpu ip { d with reduce := false }).modelPeakMB := by
  have ht : total (finalItems { d with reduce := true }) ≤ total (finalItems { d with reduce := false }) := by
    unfold finalItems
    simp only [total_append, Dims.size]
    refine Nat.add_le_add (Nat.add_le_add (Nat.add_le_add le_rfl ?_) ?_) le_rfl
    · rcases d.gainPos with _ | _
      · simp
      · simp only [if_true, Bool.true_eq_false, and_false, if_false, total_append]
        refine Nat.add_le_add le_rfl ?_
        exact (show total [] = 0 from rfl) ▸ Nat.zero_le _
    · simp only [Bool.true_eq_false, or_false, or_true, if_true]
      split_ifs
      all_goals first | exact le_rfl | exact (show total [] = 0 from rfl) ▸ Nat.zero_le _
  have hpk : peakItems { d with reduce := true } ip = peakItems { d with reduce := false } ip := rfl
  have hpk' : peakItems { d with reduce := true } true = peakItems { d with reduce := false } true := rfl
  have hf : (total (finalItems { d with reduce := true }) : ℝ) / 1024 ^ 2 ≤
      (total (finalItems { d with reduce := false }) : ℝ) / 1024 ^ 2 := by gcongr
  have hp : ((total (finalItems { d with reduce := true }) + total (peakItems { d with reduce := true } true) : ℕ) : ℝ) / 1024 ^ 2 ≤
      ((total (finalItems { d with reduce := false }) + total (peakItems { d with reduce := false } true) : ℕ) : ℝ) / 1024 ^ 2 := by
    rw [hpk']
    gcongr
  have hh : hostPeak { d with reduce := true } = hostPeak { d with reduce := false } := rfl
  cases gpu <;> cases ip <;> simp only [estimate, Bool.false_eq_true, if_false, if_true, hh, le_refl, true_and]
  · exact ⟨hf, hf, hf⟩
  · exact ⟨hf, hp, hp⟩
  · exact hf
  · exact hp

theorem sum_toMB (l : List (String × ℕ)) : ((toMB l).map Prod.snd).sum = (total l : ℝ) / 1024 ^ 2 := by
  induction l with
  | nil => simp [toMB, total]
  | cons p t ih =>
    have : total (p :: t) = p.2 + total t := by simp [total]
    rw [this, Nat.cast_add, add_div, ← ih]
    simp [toMB]

/-- C42: the breakdowns returned add up to the totals returned: the final breakdown to the final memory and the
breakdown of temporary arrays to what the peak adds to it. -/
theorem breakdown_sums (gpu : Bool) (d : Dims) :
    ((estimate gpu true d).breakdownFinal.map Prod.snd).sum = (estimate gpu true d).finalMB ∧
    ((estimate gpu true d).breakdownPeak.map Prod.snd).sum =
      (estimate gpu true d).peakMB - (estimate gpu true d).finalMB := by
  cases gpu
  · simp only [estimate, Bool.false_eq_true, if_false, if_true, sum_toMB, true_and]
    push_cast; ring
  · have hh : max (0.015:ℝ) (0.55 * hostPeak d) ≤ hostPeak d := by
      have := hostPeak_ge d
      refine max_le (by linarith) (by linarith)
    simp only [estimate, if_true, List.map_cons, List.map_nil, List.sum_cons, List.sum_nil, add_zero, true_and]
    exact max_eq_left (by linarith)

/-- C42: the number of blocks of layers reported is the least number of blocks of five that holds all layers. -/
theorem nChunks_spec (gpu ip : Bool) (d : Dims) :
    d.nAtm ≤ 5 * (estimate gpu ip d).nChunks ∧ 5 * (estimate gpu ip d).nChunks < d.nAtm + 5 := by
  have : (estimate gpu ip d).nChunks = (d.nAtm + 4) / 5 := by cases gpu <;> rfl
  rw [this]; omega

/-- A multi-conjugate system and a larger one; the estimate grows. -/
example : Larger ⟨true, 64, 21, 3, 4, 2, 10, 2, true, false, true⟩ ⟨true, 128, 41, 3, 6, 9, 35, 3, true, false, true⟩ :=
  ⟨rfl, rfl, rfl, rfl, by decide, by decide, by decide, by decide, by decide, by decide, by decide⟩

/-- C42: double precision takes exactly twice the bytes of single precision, for the persistent and the temporary
arrays. -/
theorem precision_doubles (d : Dims) (ip : Bool) :
    total (finalItems { d with float32 := false }) = 2 * total (finalItems { d with float32 := true }) ∧
    total (peakItems { d with float32 := false } ip) = 2 * total (peakItems { d with float32 := true } ip) := by
  have hd : ∀ l : List (String × ℕ), total (l.map fun p => (p.1, 2 * p.2)) = 2 * total l := by
    intro l
    induction l with
    | nil => rfl
    | cons a t ih => simp only [total, List.map_cons, List.sum_cons] at ih ⊢; rw [ih]; ring
  constructor
  · rw [← hd]
    congr 1
    simp only [finalItems, Dims.size, List.map_append, List.map_cons, List.map_nil, apply_ite (List.map _)]
    congr 1
    · congr 1
      · congr 1
        · simp only [List.cons.injEq, Prod.mk.injEq, true_and, and_true, if_true]
          norm_num
          ring
        · simp only [if_true]
          norm_num
          split_ifs <;> simp <;> (try constructor) <;> ring_nf <;> trivial
      · simp only [if_true]
        norm_num
        split_ifs <;> simp <;> ring_nf <;> trivial
    · simp only [if_true]
      norm_num
      refine ⟨?_, ?_, ?_⟩ <;> ring
  · rw [← hd]
    congr 1
    simp only [peakItems, Dims.size, List.map_append, List.map_cons, List.map_nil, apply_ite (List.map _)]
    simp only [if_true]
    norm_num
    split_ifs <;> simp <;> ring_nf <;> trivial

/-- C42: the arrays listed by the estimate, by configuration. -/
theorem items_listed (d : Dims) :
    (finalItems d).map Prod.fst = ["PSD", "SF"] ++
      (if d.gainPos then ["Rx_Ry", "SxAv_SyAv", "Wphi", "h1_h2_hn"] ++
        (if 1 < d.nGs ∧ d.reduce = false then ["Walpha", "PbetaDM", "Cb", "Cphi"] else []) else []) ++
      (if d.breakdown = true ∨ d.reduce = false then ["psdFit", "psdAlias", "psdNoise", "psdSpatioTemporal",
        "psdDiffRef", "psdChromatism"] else []) ++ ["freq_arrays", "freq_arrays_AO", "otfDL_otfNCPA"] ∧
    (peakItems d true).map Prod.fst = (if d.gainPos then
      (if 1 < d.nGs then ["tomo_Cphi", "tomo_to_inv", "tomo_Wtomo", "opt_mat1", "opt_A"] else []) ++
      ["alias_avr_chunk", "alias_avr_sum", "alias_intermediates"] ++
      (if 1 < d.nGs then ["ST_proj"] else []) ++ ["fft_buffer"] else []) := by
  constructor
  · simp only [finalItems]
    split_ifs <;> simp
  · simp only [peakItems]
    split_ifs <;> simp_all

end P3.Memory
