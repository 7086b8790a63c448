import Verif.Props.Hardware
import Verif.Props.Psd
import Verif.Props.Air
import Verif.Props.Pupil
import Verif.Props.Fitting
import Verif.Props.FittingQuality
import Verif.Props.FieldFit
import Verif.Props.IniFile
import Verif.Props.Anisoplanatism
import Verif.Props.Reconstruction

/-! The parts that hold of properties that the code does not have in full. -/

/-- C125 (partial): a dispersion of a single row is accepted exactly when it has one value per transmittance and the
field of view is valid; with more rows the first one at least must match. Missing: the other rows. -/
theorem P3.Hardware.dispersion_partial (pix fov : Scale) (tr row : List ℚ) (rest : List (List ℚ)) :
    ((∃ d, mkDetector pix fov tr [row] = .ok d) ↔ row.length = tr.length ∧ ∃ f, fovArcsec pix fov = .ok f) ∧
    (row.length ≠ tr.length → ∃ e, mkDetector pix fov tr (row :: rest) = .error e) := by
  refine ⟨?_, fun h => (mkDetector_spec pix fov tr (row :: rest)).2.1 row rfl h⟩
  unfold mkDetector
  cases hf : fovArcsec pix fov with
  | error e => simp
  | ok f => by_cases h : row.length = tr.length <;> simp [h]

example : (∃ d, P3.Hardware.mkDetector (.one 10) (.one 100) [1, 1] [[0, 1]] = .ok d) := ⟨_, rfl⟩

/-- C127 (partial): outside the block of the corrected area, and with equal refractive indices everywhere, the
chromatism has no effect. Missing: frequencies of the block that are not corrected. -/
theorem P3.Fourier.chrom_partial (nr ng watm u : ℝ) (t : Terms) (hm : t.mcao = fun _ => 0) (ht : t.tilt = 1) :
    psdFinal u none false t = (t.fit + t.cone + t.extra) * u ^ 2 ∧
    (0 < watm → ng ≠ 0 → nr = ng → t.chrom = chromPsd nr ng watm → psdFinal u none true t =
      (t.fit + t.cone + t.extra + t.noise + t.aliasing + t.diffRef + t.st + t.vib) * u ^ 2) := by
  refine ⟨by rw [psdFinal_sum u false t hm ht]; simp, fun hw hn he hc => ?_⟩
  rw [psdFinal_sum u true t hm ht, if_pos rfl, hc, (chromPsd_spec nr ng watm hw hn).2.mpr he]
  ring

example : ∃ (t : P3.Fourier.Terms), t.mcao = (fun _ => 0) ∧ t.tilt = 1 ∧ t.chrom = P3.Fourier.chromPsd 1 1 1 :=
  ⟨⟨0, 0, 0, P3.Fourier.chromPsd 1 1 1, 0, 0, fun _ => 0, 1, 0, 1, 0⟩, rfl, rfl, rfl⟩

/-- C133 (partial): where the sensor has no signal the filter is zero at the centre, and everywhere with a
regularisation. Missing: off the centre without one. -/
theorem P3.Fourier.recon_partial (c : Bool) (reg : ℝ) (hr : 0 ≤ reg) :
    (recon c 0 0 0 reg = some 0 ↔ c = true ∨ 0 < reg) := by
  have h := (recon_none_iff c 0 0 0 reg hr).1
  simp only [true_and] at h
  constructor
  · intro he
    by_contra hn
    push Not at hn
    have : recon c 0 0 0 reg = none := h.mpr ⟨by simpa using hn.1, le_antisymm hn.2 hr⟩
    rw [he] at this
    exact absurd this (by simp)
  · intro hc
    unfold recon
    cases c with
    | true => rfl
    | false =>
      have h2 : 0 < reg := by simpa using hc
      have h3 : gPSD 0 0 reg ≠ 0 := by
        intro e
        have : recon false 0 0 0 reg = none := by simp [recon, e]
        exact h2.ne' (h.mp this).2
      simp [h3]

example : (0 : ℝ) ≤ 1 := by norm_num

/-- C135 (partial): from 1.3 micrometres on, at a wavelength that is in none of the gaps, the table used is that of a
band that contains the wavelength, and there is one band only. Missing: the gaps, where nothing is refused. -/
theorem P3.Air.index_partial (s : State) (w : ℝ) (hw : 1.3 ≤ w)
    (hg : ¬ ((2.5 < w ∧ w < 2.8) ∨ (4.2 < w ∧ w < 4.35) ∨ (5.3 < w ∧ w < 7.5) ∨ (14.1 < w ∧ w < 16) ∨ 28 < w)) :
    ∃! b : Band, b.range.1 ≤ w ∧ w ≤ b.range.2 ∧ index1 s w = matharIn b s w := by
  rw [← gaps w hw] at hg
  push Not at hg
  obtain ⟨b, h1, h2⟩ := hg
  refine ⟨b, ⟨h1, h2, (index1_model s w).2 b h1 h2⟩, fun c hc => ?_⟩
  exact (bandOf_spec c w ⟨hc.1, hc.2.1⟩).symm.trans (bandOf_spec b w ⟨h1, h2⟩)

example : (1.3 : ℝ) ≤ 2.2 ∧ ¬ ((2.5 < (2.2 : ℝ) ∧ (2.2 : ℝ) < 2.8) ∨ (4.2 < (2.2 : ℝ) ∧ (2.2 : ℝ) < 4.35) ∨
    (5.3 < (2.2 : ℝ) ∧ (2.2 : ℝ) < 7.5) ∨ (14.1 < (2.2 : ℝ) ∧ (2.2 : ℝ) < 16) ∨ 28 < (2.2 : ℝ)) := by norm_num

/-- C137 (partial): an integer start gives the same parameters as a float one exactly when every fitted value that is
used is a whole number; without a mask there is no difference. Missing: other values, which are truncated. -/
theorem P3.Fitting.merge_partial (f : List Bool) (x0 y : List ℝ) :
    mini2input .int none x0 y = mini2input .float none x0 y ∧
    ((∀ v ∈ y, ∃ z : ℤ, v = z) → mini2input .int (some f) x0 y = mini2input .float (some f) x0 y) := by
  refine ⟨rfl, fun h => ?_⟩
  have : y.map (store .int) = y.map (store .float) := by
    refine List.map_congr_left fun v hv => ?_
    obtain ⟨z, rfl⟩ := h v hv
    simp [store, trunc]
  simp only [mini2input, this]

example : ∀ v ∈ [(3 : ℝ), -2], ∃ z : ℤ, v = z := by
  intro v hv
  simp only [List.mem_cons, List.not_mem_nil, or_false] at hv
  rcases hv with rfl | rfl
  · exact ⟨3, by norm_num⟩
  · exact ⟨-2, by norm_num⟩

/-- C138 (partial): every pixel of an axis is in a tile exactly when the number of tiles divides the size. Missing:
the remainder, and rectangular tiles. -/
theorem P3.FieldFit.tiles_partial (nY n : ℕ) :
    (∀ a < nY, ∃ y i, y < n ∧ i < nY / n ∧ a = y * (nY / n) + i) ↔ n ∣ nY := by
  simp only [tile_of_pixel]
  constructor
  · intro h
    rcases Nat.eq_zero_or_pos nY with h0 | h0
    · subst h0; exact dvd_zero _
    · have h1 := h (nY - 1) (by omega)
      have h2 := Nat.mul_div_le nY n
      exact ⟨nY / n, by omega⟩
  · intro h a ha
    rw [Nat.mul_div_cancel' h]
    exact ha

example : (3 : ℕ) ∣ 12 := ⟨4, rfl⟩

/-- C139 (partial): every option written but five is read by the AO system. Missing: those five, and what an older file
leaves. -/
theorem P3.IniFile.written_read_partial (t : Tel) (p : Ini) (h : t.lgs = true) (k : String × String)
    (hk : k ∈ keys (allOps t p))
    (hn : k ∉ [("sensor_LO", "SizeLenslets"), ("sensor_LO", "ThresholdWCoG"), ("external", "Seeing"),
      ("external", "SeeingAlt"), ("external", "Cn2Weights")]) : k ∈ readKeys := by
  by_contra hr
  have : k ∈ (keys (allOps t p)).filter (fun x => x ∉ readKeys) := by simp [hk, hr]
  rw [unread t p h] at this
  exact hn this

/-- C141 (partial): the spectrum has the strength of the layers when each weight is one and `r0` is one metre. Missing:
any other turbulence. -/
theorem P3.Aniso.angularPsd_partial (a : P3.Atmosphere.Atm) (airmass thx thy kx ky : ℝ) (hr : a.r0 = 1)
    (hw : a.weights = a.heights.map fun _ => 1) :
    angularPsd a airmass thx thy kx ky = (List.zipWith (fun w h => a.r0 ^ (-(5:ℝ)/3) * w *
      (if h * airmass ≠ 0 ∧ (thx ≠ 0 ∨ thy ≠ 0) then
        2 * (1 - Real.cos (2 * Real.pi * (h * airmass) * (kx * thx + ky * thy))) * watm a kx ky else 0))
      a.weights a.heights).sum := by
  rw [hw, hr]
  unfold angularPsd
  congr 1
  generalize a.heights = l
  induction l with
  | nil => rfl
  | cons h t ih =>
    simp only [List.map_cons, List.zipWith_cons_cons, Real.one_rpow, one_mul]
    refine congrArg₂ _ rfl ?_
    simpa using ih

/-- C145 (partial): a fit by the default method with a mask, floats and bounds given by the user stays within the bounds
when it succeeds. Missing: other methods, no mask, and normalisation 2. -/
theorem P3.Fitting.bounds_partial (getFlux : List ℝ → ℝ) (solver : Solver) (hs : Honest solver) (model : List ℝ → List ℝ)
    (t : Task) (f : List Bool) (b : Bounds) (hf : t.fixed = some f) (hb : t.bounds = some b) (hd : t.dtype = .float)
    (ht : t.trf = true) (r : Result) (h : (fit getFlux solver model t).2 = .ok r) (i : ℕ) (v : ℝ) (lo hi : EReal)
    (hi' : f[i]? = some false) (hv : r.x[i]? = some v) (hlo : b.1[i]? = some lo) (hhi : b.2[i]? = some hi) :
    lo ≤ v ∧ v ≤ hi := by
  refine (fit_masked getFlux solver hs model t f hf r h).2.2.2 hd ht i v lo hi hi' hv ?_ ?_ <;>
    simpa [Task.applied, hb]

/-- C146 (partial): a cube that is summed over stars or wavelengths is clipped, and the array of the model is left as it
was. Missing: images, and cubes returned as they are. -/
theorem P3.Fitting.saturation_partial (spectral spatial : Bool) (c : ℝ) (nS nW : ℕ) (f : ℕ → ℕ → ℕ → ℕ → ℝ)
    (h : spectral = true ∨ spatial = true) :
    AllPix (· ≤ c) (imageModel spectral spatial (some c) (.im4 nS nW f)).2 ∧
    (imageModel spectral spatial (some c) (.im4 nS nW f)).1 = .im4 nS nW f :=
  ⟨imageModel_saturation spectral spatial c _ (fun _ => by simp), imageModel_pure spectral spatial (some c) nS nW f h⟩

open Classical in
/-- C147 (partial): with limits of magnitude that exclude no star, the selection succeeds exactly when enough stars are
in the tile without its border and the criterion is known. Missing: no limits, the default. -/
theorem P3.FieldFit.select_partial (stars : List Star) (y0 x0 nY nX border n : ℕ) (lo hi : ℝ) (crit : Crit)
    (key : List Star → Star → ℝ) (hm : ∀ s ∈ stars, lo < s.mag ∧ s.mag < hi) :
    (∃ out, select stars y0 x0 nY nX border n (some lo) (some hi) crit key = .ok out) ↔
      crit ≠ .other ∧ n ≤ (stars.filter fun s => decide (
        ((x0 : ℝ) - (nX / 2 : ℕ) + border < s.x ∧ s.x < (x0 : ℝ) + (nX / 2 : ℕ) - border) ∧
        ((y0 : ℝ) - (nY / 2 : ℕ) + border < s.y ∧ s.y < (y0 : ℝ) + (nY / 2 : ℕ) - border))).length := by
  rw [select_total, and_comm]
  have : ∀ s ∈ stars, (decide (Keep y0 x0 nY nX border lo hi s)) = decide (
        ((x0 : ℝ) - (nX / 2 : ℕ) + border < s.x ∧ s.x < (x0 : ℝ) + (nX / 2 : ℕ) - border) ∧
        ((y0 : ℝ) - (nY / 2 : ℕ) + border < s.y ∧ s.y < (y0 : ℝ) + (nY / 2 : ℕ) - border)) := by
    intro s hs
    rw [decide_eq_decide]
    have := hm s hs
    unfold Keep
    tauto
  rw [List.filter_congr this]

example : ∀ s ∈ [(⟨5, 5, 12⟩ : P3.FieldFit.Star)], (10 : ℝ) < s.mag ∧ s.mag < 15 := by
  intro s hs
  rw [List.mem_singleton] at hs
  subst hs
  norm_num

/-- C151 (partial): the structure function is non-negative when the noise covariance does not exceed that of the
measurements. Missing: overestimated noise. -/
theorem P3.Rec.jitter_partial (wvl samp ang : ℝ) (C Cn : Matrix (Fin 2) (Fin 2) ℝ) (h : (C - Cn).PosSemidef) (u v : ℝ) :
    0 ≤ jitterSF wvl samp ang (C - Cn) u v := (jitterSF_nonneg wvl samp ang (C - Cn) u v).2.2 h

example : ((Matrix.diagonal fun _ => 2 : Matrix (Fin 2) (Fin 2) ℝ) - Matrix.diagonal fun _ => 1).PosSemidef := by
  rw [Matrix.diagonal_sub, Matrix.posSemidef_diagonal_iff]
  intro i; norm_num

/-- C155 (partial): close to a reference, but not at it, the interpolated PSF is close to the reference: the difference is
at most proportional to the distance. Missing: the position itself. -/
theorem P3.FieldFit.interp_partial (psfs : ℕ → Im) (d : ℕ → ℝ) (ids : List ℕ) (k : ℕ) (hk : k ∈ ids) (hd : ∀ i ∈ ids, 0 < d i) :
    ∃ p, interp psfs d ids = some p ∧ ∀ a b, |p a b - psfs k a b| ≤
      d k * (ids.map fun i => |psfs i a b - psfs k a b| / d i).sum := by
  have hne : ¬ ∃ i ∈ ids, d i = 0 := by
    rintro ⟨i, hi, h0⟩
    exact (hd i hi).ne' h0
  refine ⟨_, by unfold interp; rw [if_neg hne], fun a b => ?_⟩
  set W := (ids.map fun i => 1 / d i).sum with hW
  have hkpos := hd k hk
  have hWk : 1 / d k ≤ W := by
    rw [hW]
    refine List.single_le_sum ?_ _ (List.mem_map.mpr ⟨k, hk, rfl⟩)
    intro x hx
    obtain ⟨i, hi, rfl⟩ := List.mem_map.mp hx
    have := hd i hi
    positivity
  have hW0 : 0 < W := lt_of_lt_of_le (by positivity) hWk
  have e1 : (ids.map fun i => psfs i a b * (1 / d i / W)).sum - psfs k a b =
      (ids.map fun i => (psfs i a b - psfs k a b) / d i).sum / W := by
    have h1 : ∀ l : List ℕ, (l.map fun i => psfs i a b * (1 / d i / W)).sum * W - psfs k a b * (l.map fun i => 1 / d i).sum =
        (l.map fun i => (psfs i a b - psfs k a b) / d i).sum := by
      intro l
      induction l with
      | nil => simp
      | cons x t ih =>
        simp only [List.map_cons, List.sum_cons]
        rw [← ih]
        field_simp
        ring
    have := h1 ids
    rw [← hW] at this
    rw [eq_div_iff hW0.ne', sub_mul]
    exact this
  rw [e1, abs_div, abs_of_pos hW0]
  have e2 : ∀ l : List ℕ, (∀ i ∈ l, 0 < d i) → |(l.map fun i => (psfs i a b - psfs k a b) / d i).sum| ≤
      (l.map fun i => |psfs i a b - psfs k a b| / d i).sum := by
    intro l hl
    induction l with
    | nil => simp
    | cons x t ih =>
      simp only [List.map_cons, List.sum_cons]
      have hx := hl x (List.mem_cons_self ..)
      refine (abs_add_le _ _).trans (add_le_add ?_ (ih fun i hi => hl i (List.mem_cons_of_mem _ hi)))
      rw [abs_div, abs_of_pos hx]
  have h3 := e2 ids hd
  have hs0 : 0 ≤ (ids.map fun i => |psfs i a b - psfs k a b| / d i).sum := (abs_nonneg _).trans h3
  have h4 : 1 / W ≤ d k := by
    rw [div_le_iff₀ hW0]
    rw [div_le_iff₀ hkpos] at hWk
    linarith [mul_comm W (d k)]
  calc _ ≤ (ids.map fun i => |psfs i a b - psfs k a b| / d i).sum / W := by gcongr
    _ = (1 / W) * (ids.map fun i => |psfs i a b - psfs k a b| / d i).sum := by ring
    _ ≤ _ := by gcongr

example : (1 : ℕ) ∈ [0, 1] ∧ ∀ i ∈ [0, 1], (0 : ℝ) < (fun _ => 2 : ℕ → ℝ) i := ⟨by simp, fun _ _ => by norm_num⟩
