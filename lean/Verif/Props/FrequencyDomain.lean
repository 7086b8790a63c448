import Verif.Model.FrequencyDomain
import Mathlib.Tactic.Linarith
import Mathlib.Tactic.Ring
import Mathlib.Tactic.Positivity
import Mathlib.Tactic.NormNum
import Mathlib.Tactic.FieldSimp
import Mathlib.Data.List.Sort
import Mathlib.Algebra.Order.Floor.Semifield
/-
C19-C24, C66: the frequency domain.
-/
namespace P3.Freq
open Real

/-! ### C19 -/

/-- Spec: the bins of one band: `n` equally spaced wavelengths from `c - bw/2` to `c + bw/2`. -/
noncomputable def band (bw : ℝ) (n : ℕ) (c : ℝ) : List ℝ :=
  (List.range n).map (fun i : ℕ => c - bw / 2 + i * (bw / (n - 1)))

theorem linspace_length (a b : ℝ) (n : ℕ) : (linspace a b n).length = n := by simp [linspace]

theorem linspace_band (bw c : ℝ) (n : ℕ) : linspace (c - bw / 2) (c + bw / 2) n = band bw n c := by
  unfold linspace band
  apply List.map_congr_left
  intro i hi
  rw [List.mem_range] at hi
  split_ifs with h
  · subst h
    have : i = 0 := by omega
    subst this; simp
  · ring

theorem band_length (bw c : ℝ) (n : ℕ) : (band bw n c).length = n := by simp [band]

theorem assign_exact {α : Type} (pre mid post v : List α) (h : mid.length = v.length) :
    assignSlice (pre ++ mid ++ post) pre.length (pre.length + mid.length) v = .ok (pre ++ v ++ post) := by
  unfold assignSlice
  have h1 : min pre.length (pre ++ mid ++ post).length = pre.length := by simp
  have h2 : min (pre.length + mid.length) (pre ++ mid ++ post).length = pre.length + mid.length := by
    simp
  simp only [h1, h2]
  rw [if_pos (by omega)]
  have h3 : max pre.length (pre.length + mid.length) = (pre ++ mid).length := by simp
  rw [h3, List.drop_left, List.append_assoc pre mid post, List.take_left]

theorem create_loop (bw : ℝ) (n : ℕ) (cs : List ℝ) : ∀ (j : ℕ) (pre : List ℝ), pre.length = j * n →
    ((List.range' j cs.length).zip cs).foldlM (stepCreate bw n) (pre ++ List.replicate (n * cs.length) 0) =
      .ok (pre ++ cs.flatMap (band bw n)) := by
  induction cs with
  | nil => intro j pre _; simp [List.foldlM_nil, pure, Except.pure]
  | cons c cs ih =>
    intro j pre hp
    simp only [List.length_cons, List.range'_succ, List.zip_cons_cons, List.foldlM_cons]
    have e : List.replicate (n * (cs.length + 1)) (0:ℝ) =
        List.replicate n 0 ++ List.replicate (n * cs.length) 0 := by
      rw [List.replicate_append_replicate]; congr 1; ring
    have s : stepCreate bw n (pre ++ List.replicate (n * (cs.length + 1)) 0) (j, c) =
        .ok (pre ++ band bw n c ++ List.replicate (n * cs.length) 0) := by
      unfold stepCreate
      dsimp only
      rw [e, ← List.append_assoc, linspace_band]
      have := assign_exact pre (List.replicate n (0:ℝ)) (List.replicate (n * cs.length) 0) (band bw n c)
        (by simp [band_length])
      rw [List.length_replicate, hp] at this
      rw [add_mul, one_mul]
      exact this
    rw [s]
    have := ih (j + 1) (pre ++ band bw n c) (by rw [List.length_append, band_length, hp]; ring)
    simpa [bind, Except.bind, List.append_assoc] using this

theorem create_bands (cs : List ℝ) (bw : ℝ) (n : ℕ) : createWvl cs bw n = .ok (cs.flatMap (band bw n)) := by
  unfold createWvl enum
  rw [List.range_eq_range']
  simpa using create_loop bw n cs 0 [] (by simp)

theorem flatMap_get (bw : ℝ) (n : ℕ) : ∀ (cs : List ℝ) (j i : ℕ) (c : ℝ), cs[j]? = some c → i < n →
    (cs.flatMap (band bw n))[j * n + i]? = some (c - bw / 2 + i * (bw / (n - 1))) := by
  intro cs
  induction cs with
  | nil => intro j i c h; simp at h
  | cons a cs ih =>
    intro j i c h hi
    rw [List.flatMap_cons]
    cases j with
    | zero =>
      simp only [List.getElem?_cons_zero, Option.some.injEq] at h
      subst h
      rw [List.getElem?_append_left (by rw [band_length]; omega)]
      simp only [zero_mul, zero_add, band, List.getElem?_map, List.getElem?_range hi, Option.map_some]
    | succ j =>
      rw [List.getElem?_append_right (by rw [band_length]; nlinarith), band_length]
      have : (j + 1) * n + i - n = j * n + i := by
        rw [add_mul, one_mul]; omega
      rw [this]
      exact ih j i c (by simpa using h) hi

/-- C19: the wavelength vector exists, has one block of `nBin` wavelengths per centre, in order, equally
spaced from `centre - bw/2`; with two bins or more each block ends at `centre + bw/2`, and increases when
the bandwidth is positive. -/
theorem createWvl_spec (cs : List ℝ) (bw : ℝ) (n : ℕ) : ∃ v, createWvl cs bw n = .ok v ∧
    v.length = n * cs.length ∧ ∀ j c, cs[j]? = some c →
      (∀ i < n, v[j * n + i]? = some (c - bw / 2 + i * (bw / (n - 1)))) ∧
      (1 ≤ n → v[j * n]? = some (c - bw / 2)) ∧
      (2 ≤ n → v[j * n + (n - 1)]? = some (c + bw / 2)) ∧
      (0 < bw → ∀ i i' x x', i < i' → i' < n → v[j * n + i]? = some x → v[j * n + i']? = some x' → x < x') := by
  refine ⟨_, create_bands cs bw n, ?_, fun j c hc => ⟨?_, ?_, ?_, ?_⟩⟩
  · induction cs with
    | nil => simp
    | cons c cs ih => rw [List.flatMap_cons, List.length_append, ih, band_length, List.length_cons]; ring
  · intro i hi
    exact flatMap_get bw n cs j i c hc hi
  · intro h
    have := flatMap_get bw n cs j 0 c hc (by omega)
    simpa using this
  · intro h
    rw [flatMap_get bw n cs j (n - 1) c hc (by omega)]
    have hn : ((n - 1 : ℕ) : ℝ) = n - 1 := by rw [Nat.cast_sub (by omega)]; simp
    have : (n : ℝ) - 1 ≠ 0 := by
      have : (2:ℝ) ≤ n := by exact_mod_cast h
      linarith
    rw [hn]; congr 1; field_simp; ring
  · intro hb i i' x x' hi hi' hx hx'
    rw [flatMap_get bw n cs j i c hc (by omega)] at hx
    rw [flatMap_get bw n cs j i' c hc hi'] at hx'
    cases hx; cases hx'
    have h1 : (0:ℝ) < n - 1 := by
      have : (2:ℝ) ≤ n := by exact_mod_cast (by omega : 2 ≤ n)
      linarith
    have h2 : (i : ℝ) < i' := by exact_mod_cast hi
    have : 0 < bw / (n - 1) := by positivity
    nlinarith

example : ∃ v, createWvl [1.2, 1.6] 0.1 3 = .ok v ∧ v.length = 6 := by
  obtain ⟨v, h, hl, -⟩ := createWvl_spec [1.2, 1.6] 0.1 3
  exact ⟨v, h, by simpa using hl⟩

/-- C19: the centres are the distinct wavelengths of the sources, in increasing order. -/
theorem unique_spec (l : List ℝ) : (unique l).Nodup ∧ (unique l).Pairwise (· ≤ ·) ∧ ∀ x, x ∈ unique l ↔ x ∈ l := by
  unfold unique
  have hp := List.mergeSort_perm l.dedup (fun a b => decide (a ≤ b))
  refine ⟨hp.nodup_iff.mpr l.nodup_dedup, ?_, fun x => ?_⟩
  · have := List.pairwise_mergeSort (le := fun a b : ℝ => decide (a ≤ b))
      (by intro a b c h1 h2; simp at *; linarith) (by intro a b; simp; exact le_total a b) l.dedup
    simpa using this
  · rw [hp.mem_iff, List.mem_dedup]

/-- C126 (violation): the frequency domain builds its own wavelength vector, and fails as soon as there are
several centres and several bins. -/
theorem freqWvl_iff_partial (cs : List ℝ) (bw : ℝ) (n : ℕ) :
    (freqWvl cs bw n = if n ≤ 1 ∨ cs.length ≤ 1 then createWvl cs bw n else .error .broadcast) := by
  split_ifs with h
  · unfold freqWvl createWvl
    rcases h with h | h
    · obtain rfl | rfl : n = 0 ∨ n = 1 := by omega
      · have : ∀ l : List (ℕ × ℝ), l.foldlM (stepFreq bw 0) [] = .ok [] := by
          intro l; induction l with
          | nil => rfl
          | cons p l ih =>
            rw [List.foldlM_cons]
            have : stepFreq bw 0 [] p = .ok [] := by simp [stepFreq, assignSlice, linspace]
            rw [this]; exact ih
        have h' : ∀ l : List (ℕ × ℝ), l.foldlM (stepCreate bw 0) [] = .ok [] := by
          intro l; induction l with
          | nil => rfl
          | cons p l ih =>
            rw [List.foldlM_cons]
            have : stepCreate bw 0 [] p = .ok [] := by simp [stepCreate, assignSlice, linspace]
            rw [this]; exact ih
        simp [this, h']
      · have : stepFreq bw 1 = stepCreate bw 1 := by
          funext a p; simp [stepFreq, stepCreate]
        rw [this]
    · match cs, h with
      | [], _ => rfl
      | [c], _ => simp [enum, List.range_succ, stepFreq, stepCreate]
  · push Not at h
    obtain ⟨hn, hc⟩ := h
    match cs, hc with
    | c :: c' :: cs, _ =>
      unfold freqWvl enum
      rw [List.range_eq_range']
      simp only [List.length_cons, List.range'_succ, List.zip_cons_cons, List.foldlM_cons]
      have e : List.replicate (n * (cs.length + 1 + 1)) (0:ℝ) =
          [] ++ List.replicate n 0 ++ List.replicate (n * (cs.length + 1)) 0 := by
        rw [List.nil_append, List.replicate_append_replicate]; congr 1; ring
      have s : stepFreq bw n (List.replicate (n * (cs.length + 1 + 1)) 0) (0, c) =
          .ok (band bw n c ++ List.replicate (n * (cs.length + 1)) 0) := by
        unfold stepFreq
        rw [linspace_band, e]
        have := assign_exact [] (List.replicate n (0:ℝ)) (List.replicate (n * (cs.length + 1)) 0) (band bw n c)
          (by simp [band_length])
        simpa using this
      have s2 : stepFreq bw n (band bw n c ++ List.replicate (n * (cs.length + 1)) 0) (0 + 1, c') =
          .error .broadcast := by
        unfold stepFreq assignSlice
        dsimp only
        have hl : (band bw n c ++ List.replicate (n * (cs.length + 1)) (0:ℝ)).length = n + n * (cs.length + 1) := by
          simp [band_length]
        rw [hl]
        have hb : n ≤ n * (cs.length + 1) := Nat.le_mul_of_pos_right _ (by omega)
        have h1 : min (0 + 1) (n + n * (cs.length + 1)) = 1 := by omega
        have h2 : min ((0 + 1 + 1) * n) (n + n * (cs.length + 1)) = 2 * n := by omega
        rw [h1, h2, if_neg (by rw [linspace_length]; omega)]
        split
        · rename_i x hx
          have := congrArg List.length hx
          rw [linspace_length] at this
          simp at this; omega
        · rfl
      rw [s]
      show (stepFreq bw n _ (0 + 1, c') >>= _) = _
      rw [s2]; rfl

/-- C126 (violation, concrete): two bands with three bins each. -/
theorem freqWvl_two_bands_fail : freqWvl [1.2, 1.6] 0.1 3 = .error .broadcast := by
  rw [freqWvl_iff_partial]; simp

/-- C126 (violation): a single bin is at the lower edge of the band, not at its centre. -/
theorem createWvl_single_bin (c bw : ℝ) (h : bw ≠ 0) :
    createWvl [c] bw 1 = .ok [c - bw / 2] ∧ c - bw / 2 ≠ c := by
  constructor
  · rw [create_bands]; simp [band]
  · intro e; apply h; linarith

/-! ### C20 -/

/-- C20: the oversampling factor is the least positive integer that reaches Nyquist. -/
theorem kFactor_spec (samp : ℝ) (h : 0 < samp) :
    1 ≤ kFactor samp ∧ 2 ≤ kFactor samp * samp ∧ ∀ m : ℤ, 2 ≤ m * samp → kFactor samp ≤ m := by
  unfold kFactor
  refine ⟨?_, ?_, ?_⟩
  · have : (0:ℤ) < ⌈2 / samp⌉ := Int.ceil_pos.mpr (by positivity)
    omega
  · have := Int.le_ceil (2 / samp)
    rwa [div_le_iff₀ h] at this
  · intro m hm
    rw [Int.ceil_le, div_le_iff₀ h]
    exact hm

theorem rad2mas_pos : 0 < rad2mas := by unfold rad2mas; have := Real.pi_pos; positivity

theorem sampling_pos (nyq : Bool) (ps D w : ℝ) (hp : 0 < ps) (hD : 0 < D) (hw : 0 < w) :
    0 < sampling nyq ps D w := by
  unfold sampling
  have := rad2mas_pos
  split_ifs
  · norm_num
  · positivity

theorem pixScale_sampling (nyq : Bool) (ps D w : ℝ) (hp : 0 < ps) (hD : 0 < D) (hw : 0 < w) :
    0 < pixScale nyq ps D w ∧ pixScale nyq ps D w * D * sampling nyq ps D w = w * rad2mas := by
  unfold pixScale sampling
  have := rad2mas_pos
  split_ifs
  · exact ⟨by positivity, by field_simp⟩
  · exact ⟨hp, by field_simp⟩

/-- C20: the sampling is the number of pixels (an angle of `pixScale` milliarcseconds, a milliarcsecond being the 3600000th part of a
degree) in the diffraction width `w / D`. -/
theorem sampling_angle (nyq : Bool) (ps D w : ℝ) (hp : 0 < ps) (hD : 0 < D) (hw : 0 < w) :
    sampling nyq ps D w * (pixScale nyq ps D w * (2 * π / 360 / 3600000)) = w / D := by
  have h := (pixScale_sampling nyq ps D w hp hD hw).2
  unfold rad2mas at h
  have := Real.pi_pos
  field_simp at h ⊢
  linarith

/-- The frequency step at a wavelength is the inverse of `D` times the achieved sampling. -/
theorem psdStepAt_eq (nyq : Bool) (ps D w : ℝ) (hp : 0 < ps) (hD : 0 < D) (hw : 0 < w) :
    psdStepAt nyq ps D w * (D * (kFactor (sampling nyq ps D w) * sampling nyq ps D w)) = 1 := by
  have hs := sampling_pos nyq ps D w hp hD hw
  have hk : (0:ℝ) < kFactor (sampling nyq ps D w) := by
    exact_mod_cast (kFactor_spec _ hs).1
  have ⟨hx, he⟩ := pixScale_sampling nyq ps D w hp hD hw
  have := rad2mas_pos
  unfold psdStepAt
  have e : pixScale nyq ps D w = w * rad2mas / (D * sampling nyq ps D w) := by
    rw [← he]; field_simp
  rw [e]; field_simp

theorem argmin_spec : ∀ l : List ℝ, l ≠ [] → argmin l < l.length ∧ ∀ x ∈ l, l.getD (argmin l) 0 ≤ x := by
  intro l
  induction l with
  | nil => intro h; exact absurd rfl h
  | cons x l ih =>
    intro _
    cases l with
    | nil => simp [argmin]
    | cons y l =>
      obtain ⟨h1, h2⟩ := ih (by simp)
      rw [argmin]
      split_ifs with h
      · refine ⟨by simp, fun z hz => ?_⟩
        rcases List.mem_cons.mp hz with rfl | hz
        · simp
        · simpa using h.trans (h2 z hz)
      · refine ⟨by simp at h1 ⊢; omega, fun z hz => ?_⟩
        rw [List.getD_cons_succ]
        rcases List.mem_cons.mp hz with rfl | hz
        · exact (not_le.mp h).le
        · exact h2 z hz

/-- C20: the frequency step is the smallest over the wavelengths; it is positive, is at most `1/(2D)`
(Nyquist or better at every wavelength), and is attained at one of the wavelengths. -/
theorem psdStep_spec (nyq : Bool) (ps D : ℝ) (wvl : List ℝ) (hp : 0 < ps) (hD : 0 < D) (hne : wvl ≠ [])
    (hw : ∀ w ∈ wvl, 0 < w) :
    0 < psdStep nyq ps D wvl ∧ psdStep nyq ps D wvl ≤ 1 / (2 * D) ∧
    (∀ w ∈ wvl, psdStep nyq ps D wvl ≤ psdStepAt nyq ps D w) ∧
    ∃ w ∈ wvl, psdStep nyq ps D wvl = psdStepAt nyq ps D w := by
  obtain ⟨h1, h2⟩ := argmin_spec (wvl.map (psdStepAt nyq ps D)) (by simpa using hne)
  have hmem : ∃ w ∈ wvl, psdStep nyq ps D wvl = psdStepAt nyq ps D w := by
    unfold psdStep
    have := List.getElem_mem h1
    rw [List.mem_map] at this
    obtain ⟨w, hw', e⟩ := this
    refine ⟨w, hw', ?_⟩
    rw [List.getD_eq_getElem?_getD, List.getElem?_eq_getElem h1, Option.getD_some, ← e]
  obtain ⟨w, hwm, e⟩ := hmem
  have hs := sampling_pos nyq ps D w hp hD (hw w hwm)
  have hk := kFactor_spec _ hs
  have hstep := psdStepAt_eq nyq ps D w hp hD (hw w hwm)
  have hpos : 0 < D * (kFactor (sampling nyq ps D w) * sampling nyq ps D w) :=
    mul_pos hD (by linarith [hk.2.1])
  have hx : psdStepAt nyq ps D w = 1 / (D * (kFactor (sampling nyq ps D w) * sampling nyq ps D w)) :=
    eq_one_div_of_mul_eq_one_left hstep
  refine ⟨?_, ?_, ?_, w, hwm, e⟩
  · rw [e, hx]; positivity
  · rw [e, hx]
    apply one_div_le_one_div_of_le (by positivity)
    nlinarith [hk.2.1]
  · intro w' hw'
    exact h2 _ (List.mem_map.mpr ⟨w', hw', rfl⟩)

/-- C20: with one wavelength (or with PSD expansion) the grid spans exactly the field of view: the
largest frequency times the wavelength that fixes the step is half the `nPix` pixels. -/
theorem grid_spans_fov (nPix : ℕ) (nyq : Bool) (ps D w : ℝ) (expansion : Bool) (hp : 0 < ps) (hD : 0 < D)
    (hw : 0 < w) : (nOtf nPix nyq expansion ps D [w] : ℝ) * psdStep nyq ps D [w] * (w * rad2mas) =
      nPix * pixScale nyq ps D w := by
  have hs := sampling_pos nyq ps D w hp hD hw
  have hk : (0:ℝ) < kFactor (sampling nyq ps D w) := by
    exact_mod_cast (kFactor_spec _ hs).1
  have := rad2mas_pos
  have ek : kRef nyq expansion ps D [w] = kFactor (sampling nyq ps D w) := by
    unfold kRef; cases expansion <;> simp [argmin]
  have ep : psdStep nyq ps D [w] = psdStepAt nyq ps D w := by simp [psdStep, argmin]
  unfold nOtf
  rw [ek, ep]
  unfold psdStepAt
  push_cast
  field_simp

/-- C20: the grid has at least as many points as the image has pixels, by an integer factor. -/
theorem nOtf_ge (nPix : ℕ) (nyq expansion : Bool) (ps D : ℝ) (wvl : List ℝ) (hp : 0 < ps) (hD : 0 < D)
    (hne : wvl ≠ []) (hw : ∀ w ∈ wvl, 0 < w) :
    (nPix : ℤ) ≤ nOtf nPix nyq expansion ps D wvl ∧ (nPix : ℤ) ∣ nOtf nPix nyq expansion ps D wvl := by
  refine ⟨?_, Dvd.intro _ rfl⟩
  have : 1 ≤ kRef nyq expansion ps D wvl := by
    unfold kRef
    generalize hi : (if expansion = true then argmin (wvl.map (psdStepAt nyq ps D)) else argmin wvl) = i
    have hlt : i < wvl.length := by
      rw [← hi]
      split_ifs
      · have := (argmin_spec (wvl.map (psdStepAt nyq ps D)) (by simpa using hne)).1
        simpa using this
      · exact (argmin_spec wvl hne).1
    rw [List.getD_eq_getElem?_getD, List.getElem?_eq_getElem (by simpa using hlt), Option.getD_some, List.getElem_map]
    exact (kFactor_spec _ (sampling_pos nyq ps D _ hp hD (hw _ (List.getElem_mem _)))).1
  unfold nOtf
  nlinarith [Int.natCast_nonneg nPix]

example : 0 < psdStep false 14 8 [1.6e-6, 2.2e-6] :=
  (psdStep_spec false 14 8 [1.6e-6, 2.2e-6] (by norm_num) (by norm_num) (by simp)
    (by norm_num)).1

/-! ### C21 -/

/-- C21: between 2 and 4 replicas; more for a larger grid, fewer for a larger corrected area. -/
theorem nTimes_spec (n r : ℕ) : 2 ≤ nTimes n r ∧ nTimes n r ≤ 4 ∧
    (∀ n', n ≤ n' → nTimes n r ≤ nTimes n' r) ∧ (∀ r', 0 < r → r ≤ r' → nTimes n r' ≤ nTimes n r) ∧
    (0 < r → (n ≤ 4 * r → nTimes n r = 2) ∧ (6 * r < n → nTimes n r = 4)) := by
  unfold nTimes
  refine ⟨by omega, by omega, fun n' h => ?_, fun r' h0 h => ?_, fun h0 => ⟨fun h => ?_, fun h => ?_⟩⟩
  · have : ⌈(n:ℝ) / r / 2⌉ ≤ ⌈(n':ℝ) / r / 2⌉ := Int.ceil_mono (by gcongr)
    omega
  · have : ⌈(n:ℝ) / r' / 2⌉ ≤ ⌈(n:ℝ) / r / 2⌉ := Int.ceil_mono (by
      have : (0:ℝ) < r := by exact_mod_cast h0
      gcongr)
    omega
  · have hr : (0:ℝ) < r := by exact_mod_cast h0
    have : ⌈(n:ℝ) / r / 2⌉ ≤ 2 := Int.ceil_le.mpr (by
      rw [div_div, div_le_iff₀ (by positivity)]
      have : (n:ℝ) ≤ 4 * r := by exact_mod_cast h
      push_cast; linarith)
    omega
  · have hr : (0:ℝ) < r := by exact_mod_cast h0
    have : 3 < ⌈(n:ℝ) / r / 2⌉ := Int.lt_ceil.mpr (by
      rw [div_div, lt_div_iff₀ (by positivity)]
      have : (6 * r : ℝ) < n := by exact_mod_cast h
      push_cast; linarith)
    omega

/-! ### C22 -/

/-- C22: every frequency is in exactly one of the two areas. -/
theorem masks_partition (circle : Bool) (kc kx ky : ℝ) :
    mskOut circle kc kx ky ↔ ¬ mskIn circle kc kx ky := by
  unfold mskOut mskIn
  cases circle
  · simp only [Bool.false_eq_true, if_false, not_and_or, not_lt]
  · simp

/-- C22: the corrected area is the disc of radius `kc` (circle) or the square of half-width `kc`. -/
theorem mskIn_spec (kc kx ky : ℝ) (h : 0 < kc) :
    (mskIn true kc kx ky ↔ sqrt (kx ^ 2 + ky ^ 2) < kc) ∧
    (mskIn false kc kx ky ↔ max |kx| |ky| < kc) := by
  unfold mskIn
  constructor
  · simp only [if_true]
    rw [Real.sqrt_lt' h]
  · simp

/-- C22: the fitting error is zero inside and the full spectrum outside. -/
theorem fitting_spec (spectrum : ℝ → ℝ) (circle : Bool) (kc kx ky : ℝ) :
    (mskIn circle kc kx ky → fittingPsd spectrum circle kc kx ky = 0) ∧
    (¬ mskIn circle kc kx ky → fittingPsd spectrum circle kc kx ky = spectrum (sqrt (kx ^ 2 + ky ^ 2))) := by
  unfold fittingPsd
  rw [← masks_partition]
  have := masks_partition circle kc kx ky
  constructor
  · intro h; rw [if_neg]; rw [this]; exact not_not.mpr h
  · intro h; rw [if_pos h]

/-! ### C23 -/

theorem id1_eq (n r : ℕ) : id1 n r = ((n : ℤ) - r + 1) / 2 := by
  unfold id1
  rw [Int.ceil_eq_iff]
  have h := Int.emod_add_mul_ediv ((n:ℤ) - r + 1) 2
  have h0 := Int.emod_nonneg ((n:ℤ) - r + 1) (by norm_num : (2:ℤ) ≠ 0)
  have h1 := Int.emod_lt_of_pos ((n:ℤ) - r + 1) (by norm_num : (0:ℤ) < 2)
  generalize ((n:ℤ) - r + 1) / 2 = q at *
  generalize ((n:ℤ) - r + 1) % 2 = m at *
  have hR : (m:ℝ) + 2 * q = n - r + 1 := by exact_mod_cast h
  have h0R : (0:ℝ) ≤ m := by exact_mod_cast h0
  have h1R : (m:ℝ) ≤ 1 := by exact_mod_cast (by omega : m ≤ 1)
  constructor <;> linarith

theorem id2_eq (n r : ℕ) : id2 n r = ((n : ℤ) + r + 1) / 2 := by
  unfold id2
  rw [Int.ceil_eq_iff]
  have h := Int.emod_add_mul_ediv ((n:ℤ) + r + 1) 2
  have h0 := Int.emod_nonneg ((n:ℤ) + r + 1) (by norm_num : (2:ℤ) ≠ 0)
  have h1 := Int.emod_lt_of_pos ((n:ℤ) + r + 1) (by norm_num : (0:ℤ) < 2)
  generalize ((n:ℤ) + r + 1) / 2 = q at *
  generalize ((n:ℤ) + r + 1) % 2 = m at *
  have hR : (m:ℝ) + 2 * q = n + r + 1 := by exact_mod_cast h
  have h0R : (0:ℝ) ≤ m := by exact_mod_cast h0
  have h1R : (m:ℝ) ≤ 1 := by exact_mod_cast (by omega : m ≤ 1)
  constructor <;> linarith

/-- C23: a corrected area no larger than the grid is written into an `r` x `r` block inside the grid,
pixel by pixel; everything else is untouched. -/
theorem embed_spec {α : Type} (n : ℕ) (out : ℕ → ℕ → α) (x : Img α) (hsq : x.ny = x.nx) (h2 : 2 ≤ x.nx)
    (h : x.nx ≤ n) : ∃ (y : Img α) (o : ℕ), embed n out x = .ok y ∧ o + x.nx ≤ n ∧ y.nx = n ∧ y.ny = n ∧
      (∀ i < x.nx, ∀ j < x.nx, y.px (o + i) (o + j) = x.px i j) ∧
      (∀ i j, (i < o ∨ o + x.nx ≤ i ∨ j < o ∨ o + x.nx ≤ j) → y.px i j = out i j) ∧
      (n % 2 = 0 ∨ x.nx % 2 = 1 → o + x.nx / 2 = n / 2) ∧
      (n % 2 = 1 ∧ x.nx % 2 = 0 → o + x.nx / 2 = n / 2 + 1) := by
  have e1 : sliceBound n (id1 n x.nx) = (n - x.nx + 1) / 2 := by
    rw [id1_eq]; unfold sliceBound; rw [if_neg (by omega)]; omega
  have e2 : sliceBound n (id2 n x.nx) = (n - x.nx + 1) / 2 + x.nx := by
    rw [id2_eq]; unfold sliceBound; rw [if_neg (by omega)]; omega
  refine ⟨⟨n, n, fun i j =>
      if (n - x.nx + 1) / 2 ≤ i ∧ i < (n - x.nx + 1) / 2 + x.nx ∧ (n - x.nx + 1) / 2 ≤ j ∧
          j < (n - x.nx + 1) / 2 + x.nx then
        x.px (if x.nx = 1 then 0 else i - (n - x.nx + 1) / 2) (if x.nx = 1 then 0 else j - (n - x.nx + 1) / 2)
      else out i j⟩, (n - x.nx + 1) / 2, ?_, by omega, ?_⟩
  · unfold embed assignBlock
    dsimp only
    rw [e1, e2, hsq, if_pos ⟨Or.inl (by omega), Or.inl (by omega)⟩]
  · refine ⟨rfl, rfl, fun i hi j hj => ?_, fun i j hij => ?_, by omega, by omega⟩
    · have h1 : x.nx ≠ 1 := by omega
      simp only [if_neg h1]
      rw [if_pos ⟨by omega, by omega, by omega, by omega⟩]
      congr 1 <;> omega
    · dsimp only
      rw [if_neg (by omega)]

/-- C23: a corrected area larger than the grid is refused. -/
theorem embed_refused {α : Type} (n : ℕ) (out : ℕ → ℕ → α) (x : Img α) (h2 : 2 ≤ x.nx)
    (h : n < x.nx) : embed n out x = .error .broadcast := by
  unfold embed assignBlock
  dsimp only
  rw [if_neg]
  rintro ⟨h1 | h1, -⟩
  · have b : ∀ i, sliceBound n i ≤ n ∨ 0 > i := by
      intro i; unfold sliceBound; split_ifs <;> omega
    rw [id1_eq, id2_eq] at h1
    unfold sliceBound at h1
    split_ifs at h1 <;> omega
  · omega

/-- C280 (violation): with an odd grid and an even corrected area the block is off by one pixel: the zero
frequency of the corrected area (index `r/2`) is not at the zero frequency of the grid (index `n/2`). -/
theorem embed_misaligned : ∃ (x : Img ℕ) (y : Img ℕ), embed 5 (fun _ _ => 0) x = .ok y ∧ x.nx = 4 ∧
    x.px 2 2 = 7 ∧ y.px (5 / 2) (5 / 2) ≠ 7 := by
  let x : Img ℕ := ⟨4, 4, fun i j => if i = 2 ∧ j = 2 then 7 else 0⟩
  obtain ⟨y, o, hy, hle, hnx, hny, hb, ho, -, hodd⟩ := embed_spec 5 (fun _ _ => 0) x rfl (by decide) (by decide)
  refine ⟨x, y, hy, rfl, rfl, ?_⟩
  have o1 : o = 1 := by
    have := hodd ⟨by decide, by decide⟩
    change o + 4 / 2 = 5 / 2 + 1 at this
    omega
  subst o1
  have := hb 1 (by decide) 1 (by decide)
  rw [show (5 / 2 : ℕ) = 1 + 1 by decide, this]
  decide

/-- C280 (violation): for every odd grid and every even corrected area that fits, the zero frequency of the area (index `r/2`) is written
one pixel beyond the zero frequency of the grid (index `n/2`), which gets the frequency before. -/
theorem embed_odd_violation {α : Type} (n : ℕ) (out : ℕ → ℕ → α) (x : Img α) (hsq : x.ny = x.nx) (h2 : 2 ≤ x.nx) (h : x.nx ≤ n)
    (hn : n % 2 = 1) (hx : x.nx % 2 = 0) : ∃ y, embed n out x = .ok y ∧ y.px (n / 2 + 1) (n / 2 + 1) = x.px (x.nx / 2) (x.nx / 2) ∧
      y.px (n / 2) (n / 2) = x.px (x.nx / 2 - 1) (x.nx / 2 - 1) := by
  obtain ⟨y, o, hy, -, -, -, hb, -, -, hodd⟩ := embed_spec n out x hsq h2 h
  have ho := hodd ⟨hn, hx⟩
  refine ⟨y, hy, ?_, ?_⟩
  · rw [← hb (x.nx / 2) (by omega) (x.nx / 2) (by omega), ho]
  · rw [← hb (x.nx / 2 - 1) (by omega) (x.nx / 2 - 1) (by omega)]
    congr 1 <;> omega

/-- C280 (partial): at one wavelength the corrected area fits in the grid exactly when its width at the wavelength of the image is less
than the field of view, up to a fraction of a pixel; the check compares the width at the wavelength of the atmosphere. -/
theorem fov_needed_partial (n : ℕ) (kc atmWvl w ps D : ℝ) (hk : 0 < kc) (hw : 0 < w) (hp : 0 < ps) (hD : 0 < D) :
    ∃ k : ℕ, 1 ≤ k ∧ nOtf n false false ps D [w] = n * k ∧
      (resAO [kc] (psdStep false ps D [w]) ≤ n * k ↔ 2 * (kc * w * rad2mas) / ps < n + 1 / (k : ℝ)) ∧
      (fovCheck kc atmWvl ps n ↔ 2 * (kc * atmWvl * rad2mas) / ps ≤ n) := by
  have hr := rad2mas_pos
  have hkf : 1 ≤ kFactor (sampling false ps D w) := by
    unfold kFactor
    have : 0 < sampling false ps D w := by
      unfold sampling; simp only [Bool.false_eq_true, if_false]; positivity
    exact Int.one_le_ceil_iff.2 (by positivity)
  obtain ⟨k, hk'⟩ := Int.eq_ofNat_of_zero_le (show 0 ≤ kFactor (sampling false ps D w) by omega)
  have k1 : 1 ≤ k := by rw [hk'] at hkf; exact_mod_cast hkf
  have k1R : (1:ℝ) ≤ k := by exact_mod_cast k1
  have k0 : (0:ℝ) < k := by linarith
  refine ⟨k, k1, ?_, ?_, Iff.rfl⟩
  · unfold nOtf kRef; simp [argmin, hk']
  · unfold resAO psdStep psdStepAt
    simp only [List.map_cons, List.map_nil, maxList, argmin, List.getD_cons_zero, hk', pixScale, Bool.false_eq_true, if_false]
    have e : 2 * kc / (ps / (w * rad2mas * ((k : ℤ) : ℝ))) = 2 * (kc * w * rad2mas) / ps * k := by
      push_cast; field_simp
    rw [e, ← Nat.lt_succ_iff, Nat.floor_lt (by positivity)]
    have e2 : (((n * k).succ : ℕ) : ℝ) = (n + 1 / (k : ℝ)) * k := by push_cast; field_simp
    rw [e2]
    exact mul_lt_mul_iff_left₀ k0

/-- C280 (violation): the field-of-view check uses the wavelength of the atmosphere, not the imaging
wavelength, and passes for grids smaller than the corrected area, which then fail in `embed`. -/
theorem fovCheck_too_lax : ∃ (n : ℕ) (kc atmWvl w ps D : ℝ), 0 < kc ∧ atmWvl = 5e-7 ∧ w = 2.2e-6 ∧
    nOtf n false false ps D [w] = n ∧ fovCheck kc atmWvl ps n ∧
    n < resAO [kc] (psdStep false ps D [w]) := by
  have hr := rad2mas_pos
  refine ⟨3, rad2mas⁻¹ * 10 ^ 6, 5e-7, 2.2e-6, 1, 1.1e-6 * rad2mas, by positivity, rfl, rfl, ?_, ?_, ?_⟩
  · have hk : kFactor (sampling false 1 (1.1e-6 * rad2mas) 2.2e-6) = 1 := by
      unfold kFactor sampling
      have : (2:ℝ) / (if false = true then 2 else 2.2e-6 * rad2mas / (1 * (1.1e-6 * rad2mas))) = 1 := by
        simp only [Bool.false_eq_true, if_false]; field_simp; norm_num
      rw [this]; simp
    have : kRef false false 1 (1.1e-6 * rad2mas) [2.2e-6] = 1 := by
      unfold kRef; simp [argmin, hk]
    unfold nOtf; rw [this]; simp
  · unfold fovCheck
    have : rad2mas⁻¹ * 10 ^ 6 * 5e-7 * rad2mas = 0.5 := by field_simp; norm_num
    rw [this]; norm_num
  · unfold resAO psdStep psdStepAt
    have hk : kFactor (sampling false 1 (1.1e-6 * rad2mas) 2.2e-6) = 1 := by
      unfold kFactor sampling
      have : (2:ℝ) / (if false = true then 2 else 2.2e-6 * rad2mas / (1 * (1.1e-6 * rad2mas))) = 1 := by
        simp only [Bool.false_eq_true, if_false]; field_simp; norm_num
      rw [this]; simp
    simp only [List.map_cons, List.map_nil, maxList, argmin, List.getD_cons_zero, hk, pixScale,
      Bool.false_eq_true, if_false]
    have : 2 * (rad2mas⁻¹ * 10 ^ 6) / (1 / (2.2e-6 * rad2mas * ((1:ℤ):ℝ))) = 4.4 := by
      push_cast; field_simp; norm_num
    rw [this]
    have : ⌊(4.4:ℝ)⌋₊ = 4 := by
      rw [Nat.floor_eq_iff (by norm_num)]; norm_num
    rw [this]
    norm_num

/-! ### C24 -/

/-- C24: the array has the offset (the zero frequency) at index `n//2`, a constant step, and contains the
opposite of each of its frequencies except, for even `n`, the first. -/
theorem freq_centred (n : ℕ) (L off : ℝ) :
    freqAt n L off (n / 2) = off ∧ (∀ i, freqAt n L off (i + 1) - freqAt n L off i = L) ∧
    (∀ i < n, (n % 2 = 1 ∨ 1 ≤ i) → ∃ i' < n, freqAt n L off i' - off = -(freqAt n L off i - off)) ∧
    (L ≠ 0 → n % 2 = 0 → ∀ i' < n, freqAt n L off i' - off ≠ -(freqAt n L off 0 - off)) := by
  unfold freqAt
  refine ⟨by ring, fun i => by push_cast; ring, fun i hi hc => ⟨2 * (n / 2) - i, by omega, ?_⟩, ?_⟩
  · rw [Nat.cast_sub (by omega)]; push_cast; ring
  · intro hL he i' hi' e
    have : ((i' : ℝ) - (2 * (n / 2) : ℕ)) * L = 0 := by push_cast at e ⊢; linarith
    rcases mul_eq_zero.mp this with h | h
    · have : (i' : ℝ) = ((2 * (n / 2) : ℕ) : ℝ) := by linarith
      have : i' = 2 * (n / 2) := by exact_mod_cast this
      omega
    · exact hL h

/-- C128: the angular frequencies run from `-fact/2`, in steps of `fact/n`; zero is reached exactly for an
even size (violation of centring for odd sizes). -/
theorem shift_centred_partial (n : ℕ) (fact : ℝ) (hn : 0 < n) (hf : fact ≠ 0) :
    shiftAt n fact 0 = -fact / 2 ∧ (∀ i, shiftAt n fact (i + 1) - shiftAt n fact i = fact / n) ∧
    ((∃ i < n, shiftAt n fact i = 0) ↔ n % 2 = 0) := by
  have h : (n : ℝ) ≠ 0 := by exact_mod_cast hn.ne'
  unfold shiftAt
  refine ⟨by field_simp; ring, fun i => by push_cast; field_simp; ring, ?_, ?_⟩
  · rintro ⟨i, -, e⟩
    have : (i : ℝ) - n / 2 = 0 := by
      rcases div_eq_zero_iff.mp e with e | e
      · exact (mul_eq_zero.mp e).resolve_right hf
      · exact absurd e h
    have : (2 * i : ℕ) = (n : ℝ) := by push_cast; linarith
    have : 2 * i = n := by exact_mod_cast this
    omega
  · intro he
    refine ⟨n / 2, by omega, ?_⟩
    have : ((n / 2 : ℕ) : ℝ) = n / 2 := by
      rw [Nat.cast_div (by omega) (by norm_num)]; norm_num
    rw [this]; simp

/-! ### C66: the corrected area and its integration step -/

theorem maxList_spec : ∀ l : List ℝ, l ≠ [] → maxList l ∈ l ∧ ∀ x ∈ l, x ≤ maxList l := by
  intro l
  induction l with
  | nil => intro h; exact absurd rfl h
  | cons x l ih =>
    intro _
    cases l with
    | nil => simp [maxList]
    | cons y l =>
      obtain ⟨h1, h2⟩ := ih (by simp)
      have e : maxList (x :: y :: l) = max x (maxList (y :: l)) := rfl
      rw [e]
      constructor
      · rcases max_cases x (maxList (y :: l)) with ⟨h, -⟩ | ⟨h, -⟩
        · rw [h]; simp
        · rw [h]; exact List.mem_cons_of_mem _ h1
      · intro z hz
        rcases List.mem_cons.mp hz with rfl | hz
        · exact le_max_left _ _
        · exact (h2 z hz).trans (le_max_right _ _)

theorem maxList_map (l : List ℝ) (h : l ≠ []) (step : ℝ) (hs : 0 < step) :
    maxList (l.map (fun k => 2 * k / step)) = 2 * maxList l / step := by
  obtain ⟨h1, h2⟩ := maxList_spec l h
  obtain ⟨h3, h4⟩ := maxList_spec (l.map (fun k => 2 * k / step)) (by simpa using h)
  apply le_antisymm
  · obtain ⟨k, hk, e⟩ := List.mem_map.mp h3
    rw [← e]
    have := h2 k hk
    gcongr
  · exact h4 _ (List.mem_map.mpr ⟨_, h1, rfl⟩)

/-- C66: the corrected area has the largest size that fits the cut-off frequencies: its frequencies never
exceed the largest cut-off, and one more sample would. -/
theorem resAO_spec (kc : List ℝ) (step off : ℝ) (hne : kc ≠ []) (hk : ∀ k ∈ kc, 0 < k) (hs : 0 < step) :
    (resAO kc step : ℝ) * step ≤ 2 * maxList kc ∧ 2 * maxList kc < (resAO kc step + 1) * step ∧
    ∀ i < resAO kc step, |freqAt (resAO kc step) step off i - off| ≤ maxList kc := by
  have hpos : 0 < maxList kc := hk _ (maxList_spec kc hne).1
  have e : resAO kc step = ⌊2 * maxList kc / step⌋₊ := by unfold resAO; rw [maxList_map kc hne step hs]
  have h1 := Nat.floor_le (show 0 ≤ 2 * maxList kc / step by positivity)
  have h2 := Nat.lt_floor_add_one (2 * maxList kc / step)
  rw [← e] at h1 h2
  rw [le_div_iff₀ hs] at h1
  rw [div_lt_iff₀ hs] at h2
  refine ⟨h1, h2, fun i hi => ?_⟩
  generalize resAO kc step = r at *
  unfold freqAt
  rw [add_sub_cancel_right, abs_mul, abs_of_pos hs]
  have : |(i:ℝ) - (r / 2 : ℕ)| ≤ (r : ℝ) / 2 := by
    have a1 : ((r / 2 : ℕ) : ℝ) ≤ r / 2 := Nat.cast_div_le
    have a2 : (r : ℝ) / 2 - 1 / 2 ≤ ((r / 2 : ℕ) : ℝ) := by
      have : r ≤ 2 * (r / 2) + 1 := by omega
      have : (r : ℝ) ≤ 2 * ((r / 2 : ℕ) : ℝ) + 1 := by exact_mod_cast this
      linarith
    have a3 : (i : ℝ) + 1 ≤ r := by exact_mod_cast hi
    have a4 : (0:ℝ) ≤ i := Nat.cast_nonneg i
    rw [abs_le]; constructor <;> linarith
  nlinarith

/-- C142 (violation): the PSD is integrated with the step `2 kc/resAO`, which is the sampling step of the
frequencies only if the corrected diameter is a whole number of steps; otherwise it is larger, by less
than one part in `resAO`. -/
theorem dk_vs_step_partial (kc : List ℝ) (step : ℝ) (hne : kc ≠ []) (hk : ∀ k ∈ kc, 0 < k) (hs : 0 < step)
    (hr : 0 < resAO kc step) :
    step ≤ dk (maxList kc) (resAO kc step) ∧
    dk (maxList kc) (resAO kc step) < step * (1 + 1 / resAO kc step) ∧
    (dk (maxList kc) (resAO kc step) = step ↔ ∃ m : ℕ, 2 * maxList kc = m * step) := by
  obtain ⟨h1, h2, -⟩ := resAO_spec kc step 0 hne hk hs
  have hpos : (0:ℝ) < resAO kc step := by exact_mod_cast hr
  unfold dk
  refine ⟨?_, ?_, ?_, ?_⟩
  · rw [le_div_iff₀ hpos]; linarith
  · rw [div_lt_iff₀ hpos]
    have : step * (1 + 1 / (resAO kc step : ℝ)) * resAO kc step = (resAO kc step + 1) * step := by field_simp
    rw [this]; exact h2
  · intro e
    refine ⟨resAO kc step, ?_⟩
    rw [div_eq_iff hpos.ne'] at e
    linarith
  · rintro ⟨m, hm⟩
    have : resAO kc step = m := by
      rw [hm] at h1 h2
      have a := le_of_mul_le_mul_right h1 hs
      have b := lt_of_mul_lt_mul_right h2 hs.le
      have a' : resAO kc step ≤ m := by exact_mod_cast a
      have b' : m < resAO kc step + 1 := by exact_mod_cast b
      omega
    rw [this] at hpos ⊢
    rw [hm]; field_simp

/-- Non-vacuity: an 0.2 m pitch with a step of 1/16 m^-1 gives a 80-pixel area and consistent steps. -/
example : resAO [5/2] (1/16) = 80 ∧ dk (maxList [5/2]) 80 = 1/16 := by
  have : resAO [5/2] (1/16) = 80 := by
    unfold resAO
    simp only [List.map_cons, List.map_nil, maxList]
    rw [Nat.floor_eq_iff (by norm_num)]; norm_num
  exact ⟨this, by norm_num [dk, maxList]⟩

/-- C142 (violation, concrete): a 0.3 m pitch with the same step. -/
theorem dk_violation : resAO [5/3] (1/16) = 53 ∧ dk (maxList [5/3]) 53 ≠ 1/16 := by
  have : resAO [5/3] (1/16) = 53 := by
    unfold resAO
    simp only [List.map_cons, List.map_nil, maxList]
    rw [Nat.floor_eq_iff (by norm_num)]; norm_num
  exact ⟨this, by norm_num [dk, maxList]⟩

/-- C66: cut-off frequencies given by the user are used as given provided that none of them is zero; in every
other case (none given, or one of them zero) the cut-off of each mirror is half the inverse of its pitch. -/
theorem cutoffs_spec (kcExt : Option (List ℝ)) (pitch : List ℝ) :
    (∀ l, kcExt = some l → (0 : ℝ) ∉ l → cutoffs kcExt pitch = l) ∧
    (kcExt = none ∨ (∃ l, kcExt = some l ∧ (0 : ℝ) ∈ l) →
      (cutoffs kcExt pitch).length = pitch.length ∧
      ∀ (i : ℕ) (p : ℝ), pitch[i]? = some p → (cutoffs kcExt pitch)[i]? = some (1 / (2 * p))) := by
  constructor
  · rintro l rfl h
    have : ∀ x ∈ l, x ≠ 0 := fun x hx h0 => h (h0 ▸ hx)
    simp only [cutoffs]; rw [if_pos this]
  · rintro (rfl | ⟨l, rfl, h⟩)
    · simp only [cutoffs]
      exact ⟨by simp, fun i p hp => by rw [List.getElem?_map, hp]; rfl⟩
    · have : ¬ ∀ x ∈ l, x ≠ 0 := fun hh => hh 0 h rfl
      simp only [cutoffs]; rw [if_neg this]
      exact ⟨by simp, fun i p hp => by rw [List.getElem?_map, hp]; rfl⟩

example : cutoffs (some [2, 0]) [1/4, 1/2] = [2, 1] := by
  have := (cutoffs_spec (some [2, 0]) [1/4, 1/2]).2 (.inr ⟨_, rfl, by simp⟩)
  apply List.ext_getElem?
  rintro (_ | _ | i)
  · rw [this.2 0 (1/4) rfl]; norm_num
  · rw [this.2 1 (1/2) rfl]; norm_num
  · simp only [List.getElem?_cons_succ, List.getElem?_nil]
    rw [List.getElem?_eq_none]; rw [this.1]; simp

/-! ### Cases that meet the hypotheses -/

/-- A case meeting the hypotheses of `nOtf_ge`. -/
example : (64 : ℤ) ≤ nOtf 64 false true 10 8 [1e-6, 2e-6] ∧ (64 : ℤ) ∣ nOtf 64 false true 10 8 [1e-6, 2e-6] :=
  nOtf_ge 64 false true 10 8 [1e-6, 2e-6] (by norm_num) (by norm_num) (by simp) (by norm_num)

/-- A case meeting the hypotheses of `dk_vs_step_partial`. -/
example : (3/10 : ℝ) ≤ dk (maxList [1, 2]) (resAO [1, 2] (3/10)) :=
  (dk_vs_step_partial [1, 2] (3/10) (by simp) (by norm_num) (by norm_num) (by
    unfold resAO; norm_num [maxList])).1

/-! ### Cases that meet the hypotheses -/

/-- A case meeting the hypotheses of `grid_spans_fov`. -/
example : (nOtf 100 false true 10 8 [1.6e-6] : ℝ) * psdStep false 10 8 [1.6e-6] * (1.6e-6 * rad2mas) = (100 : ℕ) * pixScale false 10 8 1.6e-6 :=
  grid_spans_fov 100 false 10 8 1.6e-6 true (by norm_num) (by norm_num) (by norm_num)

/-- A case meeting the hypotheses of `embed_spec`. -/
example : ∃ (y : Img ℕ) (o : ℕ), embed 6 (fun _ _ => 0) ⟨4, 4, fun i j => i + j⟩ = .ok y ∧ o + 4 / 2 = 6 / 2 :=
  let ⟨y, o, h, _, _, _, _, _, hc, _⟩ := embed_spec 6 (fun _ _ => 0) (⟨4, 4, fun i j => i + j⟩ : Img ℕ) rfl (by norm_num) (by norm_num)
  ⟨y, o, h, hc (Or.inl rfl)⟩

/-- A case meeting the hypotheses of `resAO_spec`. -/
example : (resAO [1, 2] (1/8) : ℝ) * (1/8) ≤ 2 * maxList [1, 2] :=
  (resAO_spec [1, 2] (1/8) 0 (by simp) (by simp) (by norm_num)).1

end P3.Freq
