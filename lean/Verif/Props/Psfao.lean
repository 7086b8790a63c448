import Verif.Model.Psfao
import Verif.Props.Otf
import Verif.Props.FrequencyDomain
import Verif.Props.Params
import Mathlib.Tactic.LinearCombination
/-
Properties of the PSFAO21 model.
-/
namespace P3.Psfao
open Finset P3.Images P3.Psf

/-! ### C169: the structure function -/

theorem half_fft2 (psd : Img ℝ) (D samp : ℝ) (k l : ℕ) : halfCov psd D samp k l =
    P3.Otf.fft2 psd.nx psd.ny (fun u v => psd.px (shiftIdx psd.nx u) (shiftIdx psd.ny v) / (D * samp) ^ 2) k l := by
  unfold halfCov fftPsd P3.Otf.fft2
  rw [Finset.sum_div]
  refine sum_congr rfl fun u _ => ?_
  rw [Finset.sum_div]
  refine sum_congr rfl fun v _ => ?_
  push_cast
  ring

/-- The covariance rebuilt from half of the transform is the transform of the PSD. -/
theorem fullCov_eq (psd : Img ℝ) (D samp : ℝ) (k l : ℕ) (hk : k < psd.nx) (hl : l < psd.ny) :
    fullCov psd D samp k l = fftPsd psd k l / ((D * samp) ^ 2 : ℝ) := by
  unfold fullCov
  rw [P3.Otf.rfftToFft_spec psd.nx psd.ny _ _ (fun k _ l _ => half_fft2 psd D samp k l) k l hk hl, ← half_fft2]
  rfl

theorem cov_eq (psd : Img ℝ) (D samp : ℝ) (k l : ℕ) (hx : 0 < psd.nx) (hy : 0 < psd.ny) :
    cov psd D samp k l = fftPsd psd (shiftIdx psd.nx k) (shiftIdx psd.ny l) / ((D * samp) ^ 2 : ℝ) :=
  fullCov_eq psd D samp _ _ (shiftIdx_lt _ _ hx) (shiftIdx_lt _ _ hy)

theorem shift_surj (n k : ℕ) (hk : k < n) : ∃ i < n, shiftIdx n i = k := by
  refine ⟨(k + n / 2) % n, Nat.mod_lt _ (by omega), ?_⟩
  unfold shiftIdx
  rw [Nat.add_sub_assoc (by omega), Nat.mod_add_mod, show k + n / 2 + (n - n / 2) = k + n by omega, Nat.add_mod_right,
    Nat.mod_eq_of_lt hk]

theorem shift_centre (n : ℕ) (hn : 0 < n) : shiftIdx n (n / 2) = 0 := by
  unfold shiftIdx
  rw [show n / 2 + n - n / 2 = n by omega, Nat.mod_self]

/-- The maximum of the covariance is the variance: its real part is the sum of the PSD over `(D samp)²`. -/
theorem max_cov (psd : Img ℝ) (D samp : ℝ) (hD : 0 < D) (hs : 0 < samp)
    (hv : ∀ i < psd.nx, ∀ j < psd.ny, 0 ≤ psd.px i j) (hx : 0 < psd.nx) (hy : 0 < psd.ny) (m : ℂ)
    (hm : IsMax psd.nx psd.ny (cov psd D samp) m) : m.re = flux psd / (D * samp) ^ 2 := by
  have hc : (0:ℝ) < (D * samp) ^ 2 := by positivity
  obtain ⟨⟨k, hk, l, hl, rfl⟩, h⟩ := hm
  apply le_antisymm
  · rw [cov_eq _ _ _ _ _ hx hy, Complex.div_ofReal_re]
    exact div_le_div_of_nonneg_right (fftPsd_le psd hv _ _) hc.le
  · have h0 : (cov psd D samp (psd.nx / 2) (psd.ny / 2)).re = flux psd / (D * samp) ^ 2 := by
      rw [cov_eq _ _ _ _ _ hx hy, shift_centre _ hx, shift_centre _ hy, Complex.div_ofReal_re, fftPsd_zero]
    rw [← h0]
    rcases h (psd.nx / 2) (by omega) (psd.ny / 2) (by omega) with h | h
    · exact h.le
    · exact h.1.le

/-- C169: for every non-negative PSD, of even or odd size, the structure function of the PSFAO21 model is that of the
PSD: twice the phase variance minus the covariance, non-negative, zero at the centre, at most four variances. -/
theorem onAxisSF_spec (psd : Img ℝ) (D samp : ℝ) (hD : 0 < D) (hs : 0 < samp)
    (hv : ∀ i < psd.nx, ∀ j < psd.ny, 0 ≤ psd.px i j) (hx : 0 < psd.nx) (hy : 0 < psd.ny) (m : ℂ)
    (hm : IsMax psd.nx psd.ny (cov psd D samp) m) (k l : ℕ) :
    onAxisSF psd D samp m k l = 2 * (∑ u ∈ range psd.nx, ∑ v ∈ range psd.ny,
        psd.px (shiftIdx psd.nx u) (shiftIdx psd.ny v) *
          (1 - Real.cos (2 * Real.pi * ((shiftIdx psd.nx k * u : ℝ) / psd.nx + (shiftIdx psd.ny l * v : ℝ) / psd.ny)))) /
        (D * samp) ^ 2 ∧
    0 ≤ onAxisSF psd D samp m k l ∧ onAxisSF psd D samp m k l ≤ 4 * (flux psd / (D * samp) ^ 2) ∧
    onAxisSF psd D samp m (psd.nx / 2) (psd.ny / 2) = 0 := by
  have hc : (0:ℝ) < (D * samp) ^ 2 := by positivity
  have key : ∀ k l, onAxisSF psd D samp m k l = 2 * (∑ u ∈ range psd.nx, ∑ v ∈ range psd.ny,
        psd.px (shiftIdx psd.nx u) (shiftIdx psd.ny v) *
          (1 - Real.cos (2 * Real.pi * ((shiftIdx psd.nx k * u : ℝ) / psd.nx + (shiftIdx psd.ny l * v : ℝ) / psd.ny)))) /
        (D * samp) ^ 2 := by
    intro k l
    unfold onAxisSF
    rw [show (2 * (m - cov psd D samp k l)).re = 2 * (m.re - (cov psd D samp k l).re) by simp,
      max_cov psd D samp hD hs hv hx hy m hm, cov_eq _ _ _ _ _ hx hy, Complex.div_ofReal_re, fftPsd_re, ← fftPsd_zero,
      fftPsd_re]
    simp only [Nat.cast_zero, zero_mul, zero_div, add_zero, mul_zero, Real.cos_zero, mul_one, mul_sub, sum_sub_distrib]
    ring
  have pos : ∀ u ∈ range psd.nx, ∀ v ∈ range psd.ny, 0 ≤ psd.px (shiftIdx psd.nx u) (shiftIdx psd.ny v) :=
    fun u _ v _ => hv _ (shiftIdx_lt psd.nx u hx) _ (shiftIdx_lt psd.ny v hy)
  refine ⟨key k l, ?_, ?_, ?_⟩
  · rw [key]
    apply div_nonneg _ hc.le
    apply mul_nonneg (by norm_num)
    refine sum_nonneg fun u hu => sum_nonneg fun v hv' => mul_nonneg (pos u hu v hv') ?_
    linarith [Real.cos_le_one (2 * Real.pi * ((shiftIdx psd.nx k * u : ℝ) / psd.nx + (shiftIdx psd.ny l * v : ℝ) / psd.ny))]
  · rw [key, ← mul_div_assoc]
    apply div_le_div_of_nonneg_right _ hc.le
    have e : flux psd = ∑ u ∈ range psd.nx, ∑ v ∈ range psd.ny, psd.px (shiftIdx psd.nx u) (shiftIdx psd.ny v) := by
      rw [← fftPsd_zero, fftPsd_re]; simp
    rw [e, show (4:ℝ) = 2 * 2 by norm_num, mul_assoc]
    apply mul_le_mul_of_nonneg_left _ (by norm_num)
    rw [mul_sum]
    refine sum_le_sum fun u hu => ?_
    rw [mul_sum]
    refine sum_le_sum fun v hv' => ?_
    nlinarith [pos u hu v hv', Real.neg_one_le_cos (2 * Real.pi * ((shiftIdx psd.nx k * u : ℝ) / psd.nx +
      (shiftIdx psd.ny l * v : ℝ) / psd.ny))]
  · rw [key, shift_centre _ hx, shift_centre _ hy]; simp

/-- Non-vacuity of C169: the maximum exists for every non-empty PSD; a flat PSD of 5 by 4 pixels is an example. -/
example : ∃ m, IsMax 5 4 (cov ⟨5, 4, fun _ _ => 1⟩ 8 2) m := isMax_exists 5 4 _ (by norm_num) (by norm_num)

/-! ### C170: anisoplanatism -/

theorem bdim_ne (a b : ℕ) (h : a ≠ b) (ha : a ≠ 1) (hb : b ≠ 1) : bdim a b = .error .broadcast := by
  unfold bdim; rw [if_neg h, if_neg ha, if_neg hb]

/-- C170 (violation): with a laser guide star and a profile of several layers, the structure function cannot be
computed: the profile is multiplied with the pixels of the anisoplanatism function instead of its layers. -/
theorem opdSF_error (n nSrc : ℕ) (sf : ℕ → ℕ → ℝ) (d : ℕ → ℕ → ℕ → ℝ) (c : List ℝ) (hn : n ≠ 1) (hc : 2 ≤ c.length)
    (hne : n ≠ c.length) : opdSF n nSrc sf (some d) c.length (some c) = .error .broadcast := by
  unfold opdSF
  simp only [if_true]
  unfold mulA bshape
  simp only [List.reverse_cons, List.reverse_nil, List.nil_append, List.cons_append]
  unfold bshapeRev
  rw [bdim_ne n c.length hne hn (by omega)]
  rfl

/-- C170 (part): without anisoplanatism the same structure function is used for all sources.  Missing: the off-axis
sources of a system with a laser guide star, see `aniso_never_applied`. -/
theorem opdSF_onaxis_partial (n nSrc : ℕ) (sf : ℕ → ℕ → ℝ) (nL : ℕ) (cn2 : Option (List ℝ)) :
    ∃ a, opdSF n nSrc sf none nL cn2 = .ok a ∧ a.shape = [n, n, nSrc] ∧ ∀ i j s, a.val [i, j, s] = sf i j := by
  unfold opdSF
  refine ⟨_, rfl, rfl, fun i j s => rfl⟩

/-- C170 (violation): whatever the number of layers and reconstructed layers, whatever the anisoplanatism function
and the parameters, when a structure function is returned it is the on-axis one for every source (unless the OTF has
exactly as many pixels as the profile has layers). -/
theorem aniso_never_applied (n nSrc nL nRec : ℕ) (sf : ℕ → ℕ → ℝ) (d : ℕ → ℕ → ℕ → ℝ) (x : List ℝ) (hx : nL ≤ x.length)
    (hn : n ≠ 1) (hne : n ≠ nL) (a : Arr) (h : opdSF n nSrc sf (some d) nL (fittedCn2 nL nRec x) = .ok a) (i j s : ℕ) :
    a.val [i, j, s] = sf i j := by
  unfold fittedCn2 at h
  split_ifs at h with hc
  · have hl : (x.take nL).length = nL := by rw [List.length_take]; omega
    have := opdSF_error n nSrc sf d (x.take nL) hn (by omega) (by omega)
    rw [hl] at this
    rw [this] at h
    exact absurd h (by simp)
  · unfold opdSF at h
    simp only [Except.ok.injEq] at h
    rw [← h]; rfl

/-- C170 (violation, by the profile): one fitted layer: the off-axis stars get the on-axis structure function;
several: `ValueError`. -/
theorem aniso_cases (n nSrc nL nRec : ℕ) (sf : ℕ → ℕ → ℝ) (d : ℕ → ℕ → ℕ → ℝ) (x : List ℝ) (hx : nL ≤ x.length)
    (hn : n ≠ 1) (hne : n ≠ nL) :
    (1 < nL ∧ 1 < nRec → opdSF n nSrc sf (some d) nL (fittedCn2 nL nRec x) = .error .broadcast) ∧
    (¬ (1 < nL ∧ 1 < nRec) → ∃ a, opdSF n nSrc sf (some d) nL (fittedCn2 nL nRec x) = .ok a ∧
      a.shape = [n, n, nSrc] ∧ ∀ i j s, a.val [i, j, s] = sf i j) := by
  constructor
  · intro h
    have hl : (x.take nL).length = nL := by rw [List.length_take]; omega
    have := opdSF_error n nSrc sf d (x.take nL) hn (by omega) (by omega)
    rw [hl] at this
    unfold fittedCn2
    rw [if_pos ⟨by omega, h⟩, this]
  · intro h
    unfold fittedCn2
    rw [if_neg (fun hc => h hc.2)]
    exact ⟨_, rfl, rfl, fun i j s => rfl⟩

/-- C170 (part): a profile of another length than that of the frequency domain is not used: each source gets the on-axis
function. -/
theorem aniso_length (n nSrc nL : ℕ) (sf : ℕ → ℕ → ℝ) (d : ℕ → ℕ → ℕ → ℝ) (c : List ℝ) (hc : c.length ≠ nL) :
    ∃ a, opdSF n nSrc sf (some d) nL (some c) = .ok a ∧ a.shape = [n, n, nSrc] ∧ ∀ i j s, a.val [i, j, s] = sf i j := by
  unfold opdSF
  simp only [hc, if_false]
  exact ⟨_, rfl, rfl, fun i j s => rfl⟩

/-- C170: the anisoplanatism function would change the result: a source with a non-zero function does not get its
structure function `sf + d`. -/
theorem aniso_violation (n nSrc : ℕ) (sf : ℕ → ℕ → ℝ) (d : ℕ → ℕ → ℕ → ℝ) (i j s : ℕ) (hd : d s i j ≠ 0) (x : List ℝ) :
    ∃ a, opdSF n nSrc sf (some d) 1 (fittedCn2 1 10 x) = .ok a ∧ a.val [i, j, s] ≠ sf i j + d s i j := by
  refine ⟨_, rfl, ?_⟩
  show sf i j ≠ sf i j + d s i j
  intro h; apply hd; linarith

/-- Non-vacuity: 256 pixels, 3 layers. -/
example (d : ℕ → ℕ → ℕ → ℝ) : opdSF 256 5 (fun _ _ => 1) (some d) 3 (fittedCn2 3 10 [1, 2, 3, 4]) = .error .broadcast :=
  (aniso_cases 256 5 3 10 _ d _ (by simp) (by norm_num) (by norm_num)).1 (by norm_num)

/-! ### C171: one PSF per source and wavelength -/

theorem bdim_self (a : ℕ) : bdim a a = .ok a := by unfold bdim; rw [if_pos rfl]
theorem bdim_one_left (b : ℕ) : bdim 1 b = .ok b := by
  unfold bdim; split_ifs with h <;> simp_all
theorem bdim_one_right (a : ℕ) : bdim a 1 = .ok a := by
  unfold bdim; split_ifs with h h' <;> simp_all

theorem psfShape_eq (fov nSrc nb : ℕ) : psfShape fov nSrc [nSrc] [nb] =
    (bdim nSrc nb).map (fun d => [fov, fov, d]) := by
  unfold psfShape bshape
  simp only [List.reverse_cons, List.reverse_nil, List.nil_append, List.cons_append]
  unfold bshapeRev
  simp only [bdim_self]
  unfold bshapeRev
  cases h : bdim nSrc nb <;> simp [bind, Except.bind, pure, Except.pure, Except.map, h, bdim_self]

theorem default_shapes (nStar nCen nBin : ℕ) : stellarShapes nStar nCen nBin none =
    (bdim nBin (nBin * nCen)).map (fun d => ([nStar, d], [nBin * nCen])) := by
  unfold stellarShapes bshape
  simp only [List.reverse_cons, List.reverse_nil, List.nil_append, List.cons_append]
  unfold bshapeRev
  rw [bdim_one_left]
  cases h : bdim nBin (nBin * nCen) <;> simp [bind, Except.bind, pure, Except.pure, Except.map, bshapeRev]

/-- C171 (part): when the vector of parameters gives the stellar parameters with one background, there is one PSF per
source and wavelength.  Missing: the default stellar parameters, see `callShape_default`. -/
theorem callShape_given_partial (fov nStar nCen nBin : ℕ) (hw : 0 < nBin * nCen) :
    callShape fov nStar nCen nBin (some 1) = .ok [fov, fov, nStar, nBin * nCen] := by
  unfold callShape stellarShapes
  simp only [bind, Except.bind, column, hw, if_true, psfShape_eq, bdim_one_right, Except.map, pure, Except.pure]

/-- C171 (violation): with the default stellar parameters and one bin per band, the array has one PSF per source and
wavelength exactly when there are as many sources as wavelengths; a single source gets an array of
`nWvl x nWvl` PSFs and the other cases are refused. -/
theorem callShape_default (fov nStar nCen : ℕ) (hc : 2 ≤ nCen) (_hs : 1 ≤ nStar) :
    (callShape fov nStar nCen 1 none = .ok [fov, fov, nStar, nCen] ↔ nStar = nCen) ∧
    (nStar = 1 → callShape fov nStar nCen 1 none = .ok [fov, fov, nCen, nCen]) ∧
    (callShape fov nStar nCen 1 none = .error .broadcast ↔ nStar ≠ 1 ∧ nStar ≠ nCen) := by
  have e : callShape fov nStar nCen 1 none = (bdim nStar nCen).map (fun d => [fov, fov, d, nCen]) := by
    unfold callShape
    rw [default_shapes, one_mul, bdim_one_left]
    simp only [bind, Except.bind, Except.map, column, show 0 < nCen by omega, if_true, psfShape_eq]
    cases h : bdim nStar nCen <;> simp [pure, Except.pure]
  rw [e]
  by_cases h1 : nStar = nCen
  · subst h1
    rw [bdim_self]
    refine ⟨by simp [Except.map], fun h => by omega, ?_⟩
    simp [Except.map]
  · by_cases h2 : nStar = 1
    · subst h2
      rw [bdim_one_left]
      refine ⟨?_, fun _ => rfl, ?_⟩
      · simp only [Except.map, Except.ok.injEq, List.cons.injEq, and_true, true_and]
        omega
      · simp [Except.map]
    · rw [bdim_ne _ _ h1 h2 (by omega)]
      simp [Except.map, h1, h2]

/-- C171 (violation): several bands of several bins are refused: the transmittance has one value per bin of a band,
not one per wavelength. -/
theorem callShape_bands (fov nStar nCen nBin : ℕ) (hb : 2 ≤ nBin) (hc : 2 ≤ nCen) :
    callShape fov nStar nCen nBin none = .error .broadcast := by
  unfold callShape
  rw [default_shapes, bdim_ne _ _ (by nlinarith) (by omega) (by nlinarith)]
  rfl

/-! ### C172: reported wavefront errors -/

theorem toNm_used (w0 wn var : ℝ) (h0 : 0 < w0) (hn : 0 < wn) : toNm wn (usedVar w0 wn var) = toNm w0 var := by
  unfold toNm usedVar
  by_cases hv : 0 ≤ var
  · rw [Real.sqrt_mul hv, Real.sqrt_sq (by positivity)]
    field_simp
  · push Not at hv
    rw [Real.sqrt_eq_zero_of_nonpos hv.le, Real.sqrt_eq_zero_of_nonpos (by nlinarith [sq_nonneg (w0 / wn)])]
    simp

/-- C172 (part): at one wavelength the reported wavefront error is that of the phase in the PSF.  Missing: several
wavelengths, see `reportedWfe_violation`. -/
theorem reportedWfe_partial (w var : ℝ) (hw : 0 < w) (hv : 0 ≤ var) :
    ∃ y, reportedWfe [w] [var] = some y ∧ 0 ≤ y ∧ (2 * Real.pi * (y * 1e-9) / w) ^ 2 = usedVar w w var := by
  have hpi := Real.pi_pos
  refine ⟨toNm w var, rfl, by unfold toNm; positivity, ?_⟩
  have : 2 * Real.pi * (toNm w var * 1e-9) / w = Real.sqrt var := by
    unfold toNm
    norm_num
    field_simp
  rw [this, Real.sq_sqrt hv]
  unfold usedVar
  field_simp

/-- C172 (violation): the PSFs at all wavelengths have the same wavefront error in nm (that of the PSD at the first
wavelength), but the reported one is larger by the ratio of the last wavelength to the first. -/
theorem reportedWfe_spec (w0 wl var : ℝ) (mid : List ℝ) (h0 : 0 < w0) (hl : 0 < wl) (hm : ∀ w ∈ mid, 0 < w) :
    (∀ w ∈ w0 :: mid ++ [wl], toNm w (usedVar w0 w var) = toNm w0 var) ∧
    reportedWfe (w0 :: mid ++ [wl]) (List.replicate (mid.length + 2) var) = some (wl / w0 * toNm w0 var) := by
  constructor
  · intro w hw
    apply toNm_used w0 w var h0
    simp only [List.cons_append, List.mem_cons, List.mem_append, List.not_mem_nil, or_false] at hw
    rcases hw with rfl | hw | rfl
    · exact h0
    · exact hm w hw
    · exact hl
  · have e : List.replicate (mid.length + 2) var = List.replicate (mid.length + 1) var ++ [var] := by
      rw [← List.replicate_succ']
    unfold reportedWfe
    rw [e, List.zipWith_append (by simp)]
    simp only [List.zipWith_cons_cons, List.zipWith_nil_left, List.getLast?_append, List.getLast?_singleton, Option.some_or,
      Option.some.injEq]
    unfold toNm
    field_simp

theorem reportedWfe_violation (w0 wl var : ℝ) (mid : List ℝ) (h0 : 0 < w0) (hl : w0 < wl) (hm : ∀ w ∈ mid, 0 < w)
    (hv : 0 < var) : ∃ r, reportedWfe (w0 :: mid ++ [wl]) (List.replicate (mid.length + 2) var) = some r ∧
      toNm w0 var < r := by
  refine ⟨_, (reportedWfe_spec w0 wl var mid h0 (by linarith) hm).2, ?_⟩
  have hp : 0 < toNm w0 var := by unfold toNm; positivity
  have : 1 < wl / w0 := by rw [one_lt_div h0]; exact hl
  nlinarith

/-! ### C173: the description of the observation -/

theorem unique_single (w : ℝ) : P3.Freq.unique [w] = [w] := by
  unfold P3.Freq.unique
  simp

theorem freq_single (w : ℝ) : P3.Freq.freqWvl (P3.Freq.unique [w]) 0 1 = .ok [w] := by
  rw [unique_single, P3.Freq.freqWvl_iff_partial, if_pos (by simp), P3.Freq.create_bands]
  simp [P3.Freq.band]

theorem foldl_init (l : List ℝ) (s : Spectral) (acc : List (Except PyErr (List ℝ))) :
    l.foldl initStep (s, acc) = ((l.getLast?.map fun w => (⟨[w], 1, 0⟩ : Spectral)).getD s, acc ++ l.map fun w => .ok [w]) := by
  induction l generalizing s acc with
  | nil => simp
  | cons a l ih =>
    rw [List.foldl_cons]
    show l.foldl initStep (⟨[a], 1, 0⟩, acc ++ [P3.Freq.freqWvl (P3.Freq.unique [a]) 0 1]) = _
    rw [ih, freq_single]
    simp only [List.map_cons, List.append_assoc, List.cons_append, List.nil_append, Prod.mk.injEq, and_true]
    cases l with
    | nil => rfl
    | cons b l =>
      rw [List.getLast?_cons_cons, List.getLast?_cons]
      rfl

/-- C173 (part): each frequency domain is at its own wavelength; at one wavelength the description of the observation
is unchanged.  Missing: at several wavelengths it is not, see `init_violation`. -/
theorem init_partial (s : Spectral) (wvl : List ℝ) :
    (1 < wvl.length → (init s wvl).2 = wvl.map fun w => .ok [w]) ∧ (wvl.length ≤ 1 → (init s wvl).1 = s) := by
  unfold init
  constructor
  · intro h; rw [if_pos h, foldl_init]; simp
  · intro h; rw [if_neg (by omega)]

/-- C173 (violation): at several wavelengths the AO system is left with the last one only, one bin and no bandwidth. -/
theorem init_violation (s : Spectral) (wvl : List ℝ) (w : ℝ) (hw : wvl.getLast? = some w) (h : 1 < wvl.length) :
    (init s wvl).1 = ⟨[w], 1, 0⟩ := by
  unfold init
  rw [if_pos h, foldl_init, hw]; rfl

/-- C173 (violation): therefore one background is read for all wavelengths, and of a vector that has one background per
wavelength, as the bounds require, all but the first are taken for static aberrations. -/
theorem background_violation {α : Type} (nStar nWvl : ℕ) (pre bk : List α)
    (hp : pre.length = 1 + 6 + 3 + 3 * (nStar * nWvl)) (hb : bk.length = nWvl) (hw : 2 ≤ nWvl) :
    (pre ++ bk).length = P3.Params.psfaoBounds 1 1 nStar nWvl 0 ∧
    (P3.Params.sortParams (P3.Params.psfaoCtx 1 1 nStar nWvl 1 0) (pre ++ bk)).bkg = some (bk.take 1) ∧
    (P3.Params.sortParams (P3.Params.psfaoCtx 1 1 nStar nWvl 1 0) (pre ++ bk)).stat = some (bk.drop 1) := by
  have e1 : (P3.Params.psfaoCtx 1 1 nStar nWvl 1 0).endTT = 10 := rfl
  have e2 : (P3.Params.psfaoCtx 1 1 nStar nWvl 1 0).endStellar = pre.length + 1 := by
    show 10 + 3 * (nStar * nWvl) + 1 = _
    omega
  have e3 : (P3.Params.psfaoCtx 1 1 nStar nWvl 1 0).nSrc = nStar * nWvl := rfl
  refine ⟨?_, ?_, ?_⟩
  · rw [List.length_append, hp, hb]
    unfold P3.Params.psfaoBounds
    rw [Nat.mul_assoc 2 nStar nWvl]
    simp only [min_self]
    omega
  · simp only [P3.Params.sortParams, e1, e2, e3, List.length_append]
    rw [if_pos (by omega)]
    unfold P3.Params.slice
    rw [List.drop_drop, show 10 + 3 * (nStar * nWvl) = pre.length by omega, List.take_append,
      List.take_of_length_le (by omega), List.drop_left]
    simp
  · simp only [P3.Params.sortParams, e2, List.length_append]
    rw [if_pos (by omega), List.drop_append, List.drop_of_length_le (by omega)]
    simp

/-! ### C174: bounds -/

/-- C253 (part): bounds can be updated exactly at one wavelength.  Missing: several wavelengths, where it fails. -/
theorem storeBounds_partial (nWvl : ℕ) : storeBounds nWvl = .ok () ↔ nWvl ≤ 1 := by
  unfold storeBounds
  split_ifs with h
  · simp only [false_iff]; omega
  · simp only [true_iff]; omega

/-- C174: every lower bound is below its upper bound (for a field of view of two pixels or more), and there are as
many as `psfaoBounds` counts. -/
theorem defineBounds_spec (nL nRec nSrc nWvl npix nModes : ℕ) (maxWvl : ℝ) (hp : 2 ≤ npix) (hw : 0 < maxWvl) :
    (defineBounds nL nRec nSrc nWvl npix nModes maxWvl).length = P3.Params.psfaoBounds nL nRec nSrc nWvl nModes ∧
    ∀ b ∈ defineBounds nL nRec nSrc nWvl npix nModes maxWvl, b.1 < b.2 := by
  constructor
  · unfold defineBounds P3.Params.psfaoBounds
    simp only [List.length_append, List.length_replicate, List.length_cons, List.length_nil]
  · intro b hb
    unfold defineBounds at hb
    simp only [List.mem_append, List.mem_replicate, List.mem_cons, List.not_mem_nil, or_false] at hb
    have pi := Real.pi_pos
    rcases hb with (((((h | h) | h) | h) | h) | h) | h
    · rw [h.2]; exact EReal.coe_lt_top _
    · rcases h with rfl | rfl | rfl | rfl | rfl | rfl
      · exact EReal.zero_lt_top
      · exact EReal.zero_lt_top
      · exact EReal.coe_lt_top _
      · exact EReal.coe_lt_coe_iff.2 (by norm_num)
      · exact EReal.coe_lt_coe_iff.2 (by linarith)
      · exact EReal.coe_lt_coe_iff.2 (by norm_num)
    · rcases h with rfl | rfl | rfl
      · exact EReal.zero_lt_top
      · exact EReal.zero_lt_top
      · exact bot_lt_top
    · rw [h.2]; exact EReal.zero_lt_top
    · rw [h.2]
      refine EReal.coe_lt_coe_iff.2 ?_
      have : ((-(npix:ℤ)) / 2 : ℤ) < ((npix / 2 : ℕ) : ℤ) := by omega
      generalize (-(npix:ℤ)) / 2 = a at this ⊢
      generalize npix / 2 = b at this ⊢
      exact_mod_cast this
    · rw [h.2]; exact bot_lt_top
    · rw [h.2]; exact EReal.coe_lt_coe_iff.2 (by nlinarith)

/-- C253 (violation): with an odd number of pixels the bounds of the positions are not symmetric. -/
theorem defineBounds_odd (nSrc nWvl q nModes : ℕ) (maxWvl : ℝ) (hs : 0 < nSrc) (hw : 0 < nWvl) :
    ((((-(q + 1 : ℤ)) : ℤ) : ℝ), ((q : ℝ))) ∈
      (defineBounds 1 1 nSrc nWvl (2 * q + 1) nModes maxWvl).map (fun b => (b.1.toReal, b.2.toReal)) := by
  rw [List.mem_map]
  refine ⟨(((((-((2 * q + 1 : ℕ) : ℤ)) / 2 : ℤ) : ℝ) : EReal), (((((2 * q + 1) / 2 : ℕ) : ℝ)) : EReal)), ?_, ?_⟩
  · unfold defineBounds
    simp only [List.mem_append, List.mem_replicate]
    refine Or.inl (Or.inl (Or.inr ⟨?_, trivial⟩))
    positivity
  · have e1 : (-((2 * q + 1 : ℕ) : ℤ)) / 2 = -(q + 1 : ℤ) := by omega
    have e2 : (2 * q + 1) / 2 = q := by omega
    simp only [EReal.toReal_coe]
    rw [e1, e2]

/-! ### Cases that meet the hypotheses -/

/-- A case meeting the hypotheses of `max_cov`. -/
example : ∃ m : ℂ, IsMax 5 4 (cov ⟨5, 4, fun i j => (i : ℝ) + j⟩ 8 2) m ∧ m.re = flux ⟨5, 4, fun i j => (i : ℝ) + j⟩ / (8 * 2) ^ 2 := by
  obtain ⟨m, hm⟩ := isMax_exists 5 4 (cov ⟨5, 4, fun i j => (i : ℝ) + j⟩ 8 2) (by norm_num) (by norm_num)
  exact ⟨m, hm, max_cov _ 8 2 (by norm_num) (by norm_num) (fun i _ j _ => by positivity) (by norm_num) (by norm_num) m hm⟩

/-- A case meeting the hypotheses of `onAxisSF_spec`. -/
example : ∃ m : ℂ, IsMax 5 4 (cov ⟨5, 4, fun i j => (i : ℝ) + j⟩ 8 2) m ∧ 0 ≤ onAxisSF ⟨5, 4, fun i j => (i : ℝ) + j⟩ 8 2 m 1 3 := by
  obtain ⟨m, hm⟩ := isMax_exists 5 4 (cov ⟨5, 4, fun i j => (i : ℝ) + j⟩ 8 2) (by norm_num) (by norm_num)
  exact ⟨m, hm, (onAxisSF_spec _ 8 2 (by norm_num) (by norm_num) (fun i _ j _ => by positivity) (by norm_num) (by norm_num) m hm 1 3).2.1⟩

/-- A case meeting the hypotheses of `reportedWfe_violation`. -/
example : ∃ r, reportedWfe [1e-6, 1.2e-6, 1.6e-6] [2, 2, 2] = some r ∧ toNm 1e-6 2 < r :=
  reportedWfe_violation 1e-6 1.6e-6 2 [1.2e-6] (by norm_num) (by norm_num) (by norm_num) (by norm_num)

/-- A case meeting the hypotheses of `aniso_never_applied`. -/
example (d : ℕ → ℕ → ℕ → ℝ) : ∃ a, opdSF 256 5 (fun i j => i + j) (some d) 1 (fittedCn2 1 10 [1, 2]) = .ok a ∧ a.val [3, 4, 2] = 7 := by
  obtain ⟨a, h, _⟩ := (aniso_cases 256 5 1 10 (fun i j => (i : ℝ) + j) d [1, 2] (by simp) (by norm_num) (by norm_num)).2 (by norm_num)
  exact ⟨a, h, by rw [aniso_never_applied 256 5 1 10 _ d [1, 2] (by simp) (by norm_num) (by norm_num) a h]; norm_num⟩

/-! ### Cases that meet the hypotheses -/

/-- A case meeting the hypotheses of `opdSF_error`. -/
example : opdSF 2 1 (fun _ _ => 1) (some fun _ _ _ => 1) 3 (some [1, 2, 3]) = .error .broadcast :=
  opdSF_error 2 1 _ _ [1, 2, 3] (by norm_num) (by simp) (by simp)

/-- A case meeting the hypotheses of `reportedWfe_spec`. -/
example : reportedWfe [1, 1.5, 2] [0.1, 0.1, 0.1] = some (2 / 1 * toNm 1 0.1) :=
  (reportedWfe_spec 1 2 0.1 [1.5] (by norm_num) (by norm_num) (by norm_num)).2

/-- A case meeting the hypotheses of `background_violation`. -/
example : (P3.Params.sortParams (P3.Params.psfaoCtx 1 1 1 2 1 0) (List.range 16 ++ [100, 200])).bkg = some [100] :=
  (background_violation 1 2 (List.range 16) [100, 200] (by simp) rfl (by norm_num)).2.1

end P3.Psfao
