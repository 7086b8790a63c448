import Verif.Model.Kasp
import Verif.Model.Telemetry
import Mathlib.Tactic.Ring
import Mathlib.Tactic.FieldSimp
import Mathlib.Tactic.Positivity
import Mathlib.Tactic.Linarith
import Mathlib.Algebra.Order.BigOperators.Ring.Finset
import Mathlib.Tactic.FinCases
import Mathlib.Tactic.NormNum.RealSqrt

/-! Properties of the telemetry read from a simulation file (C336-C340). -/

namespace P3.Kasp

open Matrix Finset

variable {T n c m : ℕ}

/-! ### Centring -/

theorem centre_sum (hT : 0 < T) (x : Matrix (Fin T) (Fin m) ℝ) (j : Fin m) : ∑ t, centre x t j = 0 := by
  have : (T : ℝ) ≠ 0 := by positivity
  simp only [centre, sum_sub_distrib, sum_const, card_univ, Fintype.card_fin, nsmul_eq_mul]
  field_simp
  ring

theorem centre_of_sum_zero (x : Matrix (Fin T) (Fin m) ℝ) (h : ∀ j, ∑ t, x t j = 0) : centre x = x := by
  funext t j; simp [centre, h j]

theorem centre_centre (hT : 0 < T) (x : Matrix (Fin T) (Fin m) ℝ) : centre (centre x) = centre x :=
  centre_of_sum_zero _ fun j => centre_sum hT x j

theorem centre_offset (hT : 0 < T) (x : Matrix (Fin T) (Fin m) ℝ) (o : Fin m → ℝ) :
    centre (fun t j => x t j + o j) = centre x := by
  have : (T : ℝ) ≠ 0 := by positivity
  funext t j
  simp only [centre, sum_add_distrib, sum_const, card_univ, Fintype.card_fin, nsmul_eq_mul]
  field_simp
  ring

theorem centre_smul (a : ℝ) (x : Matrix (Fin T) (Fin m) ℝ) : centre (a • x) = a • centre x := by
  funext t j
  simp only [centre, Matrix.smul_apply, smul_eq_mul, ← mul_sum]
  ring

/-- Centring commutes with a matrix acting on the columns. -/
theorem centre_mul (x : Matrix (Fin T) (Fin m) ℝ) (A : Matrix (Fin m) (Fin n) ℝ) : centre (x * A) = centre x * A := by
  funext t j
  simp only [centre, Matrix.mul_apply, sub_mul, sum_sub_distrib]
  congr 1
  rw [sum_comm, sum_div]
  exact sum_congr rfl fun k _ => by rw [← sum_mul]; ring

/-- C336: For every simulation file with at least one frame, slopes, commands, residual commands and tip-tilt
commands have zero mean over the frames. -/
theorem telemetry_centred (hT : 0 < T) (d : Data T n c) (f : ℤ) :
    (∀ j, ∑ t, (populate d f).slopes t j = 0) ∧ (∀ j, ∑ t, (populate d f).com t j = 0) ∧
    (∀ j, ∑ t, (populate d f).res t j = 0) ∧ (∀ j, ∑ t, (populate d f).ttCom t j = 0) :=
  ⟨centre_sum hT _, centre_sum hT _, centre_sum hT _, centre_sum hT _⟩

/-- C336: A static offset of the slopes, of the mirror and of the tip-tilt commands has no effect on any
field. -/
theorem static_offset (hT : 0 < T) (d : Data T n c) (f : ℤ) (os : Fin n → ℝ) (oc : Fin c → ℝ) (ot : Fin 2 → ℝ) :
    populate { d with
      slopes := fun j t => d.slopes j t + os j, com := fun j t => d.com j t + oc j,
      ttCom := fun j t => d.ttCom j t + ot j } f = populate d f := by
  have h1 : centre (Matrix.transpose fun j t => d.slopes j t + os j) = centre d.slopesᵀ := centre_offset hT d.slopesᵀ os
  have h2 : commands { d with
      slopes := fun j t => d.slopes j t + os j, com := fun j t => d.com j t + oc j,
      ttCom := fun j t => d.ttCom j t + ot j } = commands d := by
    unfold commands
    cases d.lgs
    · exact centre_offset hT d.comᵀ oc
    · have : ((d.dmttrem * (Matrix.of fun j t => d.com j t + oc j))ᵀ : Matrix (Fin T) (Fin c) ℝ) =
          fun t j => (d.dmttrem * d.com)ᵀ t j + (d.dmttrem *ᵥ oc) j := by
        funext t j
        simp [Matrix.mul_apply, Matrix.mulVec, dotProduct, mul_add, sum_add_distrib]
      simp only [if_true]
      exact (congrArg centre this).trans (centre_offset hT _ _)
  have h3 : residual { d with
      slopes := fun j t => d.slopes j t + os j, com := fun j t => d.com j t + oc j,
      ttCom := fun j t => d.ttCom j t + ot j } = residual d := by
    unfold residual
    simp only
    rw [h1]; rfl
  have h4 : centre (Matrix.transpose fun j t => d.ttCom j t + ot j) = centre d.ttComᵀ := centre_offset hT d.ttComᵀ ot
  unfold populate
  simp only [h1, h2, h4, h3, wfe]
  rfl

/-- C336: Without laser guide star the tip-tilt slopes are centred too, and a static tip-tilt changes nothing. -/
theorem tiptilt_centred_ngs (hT : 0 < T) (d : Data T n c) (f : ℤ) (h : d.lgs = false) :
    (∀ j, ∑ t, (populate d f).ttSlopes t j = 0) ∧
    ∀ o : Fin 2 → ℝ, (populate { d with ttSlopes := fun j t => d.ttSlopes j t + o j } f).ttSlopes = (populate d f).ttSlopes := by
  have e : (populate d f).ttSlopes = centre (fun t j => tilt2meter d * d.ttSlopes j t) := by
    simp [populate, ttSlopes, h]
  refine ⟨fun j => by rw [e]; exact centre_sum hT _ j, fun o => ?_⟩
  rw [e]
  have : (populate { d with ttSlopes := fun j t => d.ttSlopes j t + o j } f).ttSlopes =
      centre (fun t j => tilt2meter d * d.ttSlopes j t + tilt2meter d * o j) := by
    simp only [populate, ttSlopes, h, tilt2meter]
    simp [mul_add]
  rw [this]
  exact centre_offset hT _ _

/-- A simulation with a laser guide star whose tip-tilt measurements are one on both frames. -/
noncomputable def lgsExample : Data 2 2 2 where
  lgs := true
  geometric := false
  slopes := !![1, 3; 0, 0]
  com := !![1, 3; 2, 2]
  recon := 1
  dmttrem := !![1, -1; -1, 1]
  slttrem := 1
  ttSlopes := fun _ _ => 1
  ttCom := 0
  nCom := 2
  wfsPs := 1
  ttPs := 1
  D := 1
  ngsWvl := 1
  lgsWvl := 1
  wvlAtm := 1
  r0 := 1
  weights := [1]
  zenith := 0
  fov := 1
  gainHO := 1 / 2
  gainTT := 1 / 2

/-- C337: With a laser guide star the mean of the tip-tilt slopes is that of the file, scaled. -/
theorem tiptilt_mean_lgs_partial (d : Data T n c) (f : ℤ) (h : d.lgs = true) (j : Fin 2) :
    (∑ t, (populate d f).ttSlopes t j) =
      (∑ t, d.ttSlopes j t) * (d.ttPs * d.D / 1000 / 206264.8 / 4 / (d.ngsWvl / 8)) := by
  have e : (populate d f).ttSlopes = fun t j => d.ttSlopes j t * (tilt2meter d / (d.ngsWvl / 8)) := if_pos h
  rw [e, sum_mul]
  simp only [tilt2meter, h, if_true]

/-- C337 (violation): With a laser guide star the tip-tilt slopes are not centred. -/
theorem tiptilt_not_centred_lgs :
    ∃ d : Data 2 2 2, d.lgs = true ∧ ∀ f j, ∑ t, (populate d f).ttSlopes t j ≠ 0 := by
  refine ⟨lgsExample, rfl, fun f j => ?_⟩
  have hm := tiptilt_mean_lgs_partial lgsExample f rfl j
  rw [hm]
  simp only [lgsExample, Fin.sum_univ_two]
  norm_num

/-! ### Residuals -/

/-- C338: The residual commands are the reconstructor applied to the centred slopes: without laser guide star the
reconstructor of the file, with one the tip-tilt filtered reconstructor. -/
theorem residual_spec (hT : 0 < T) (d : Data T n c) (f : ℤ) (t : Fin T) :
    (populate d f).res t =
      if d.lgs then d.dmttrem *ᵥ (d.recon *ᵥ (d.slttrem *ᵥ (populate d f).slopes t))
      else d.recon *ᵥ (populate d f).slopes t := by
  have key : (populate d f).res = (populate d f).slopes * recMatrix d := by
    simp only [populate, residual]
    rw [centre_mul, centre_centre hT]
  rw [key]
  have row : ((populate d f).slopes * recMatrix d) t = (recMatrix d)ᵀ *ᵥ (populate d f).slopes t := by
    funext a
    simp [Matrix.mul_apply, Matrix.mulVec, dotProduct, mul_comm]
  rw [row]
  unfold recMatrix
  split <;> simp [Matrix.mulVec_mulVec]

/-- C338: With a laser guide star, whatever linear form vanishes on the filtered commands (tip, tilt) vanishes on
the commands and on the residuals of every frame. -/
theorem tiptilt_free (hT : 0 < T) (d : Data T n c) (f : ℤ) (h : d.lgs = true) (τ : Fin c → ℝ)
    (hτ : τ ᵥ* d.dmttrem = 0) (t : Fin T) :
    τ ⬝ᵥ (populate d f).com t = 0 ∧ τ ⬝ᵥ (populate d f).res t = 0 := by
  constructor
  · have hz : ∀ s, ∑ a, τ a * (d.dmttrem * d.com)ᵀ s a = 0 := by
      intro s
      have : ∑ a, τ a * (d.dmttrem * d.com)ᵀ s a = ((τ ᵥ* d.dmttrem) ᵥ* d.com) s := by
        rw [Matrix.vecMul_vecMul]; simp [Matrix.vecMul, dotProduct]
      rw [this, hτ, Matrix.zero_vecMul]; rfl
    have : τ ⬝ᵥ (populate d f).com t =
        (∑ a, τ a * (d.dmttrem * d.com)ᵀ t a) - (∑ s, ∑ a, τ a * (d.dmttrem * d.com)ᵀ s a) / (T : ℝ) := by
      simp only [populate, commands, h, if_true, centre, dotProduct, mul_sub, sum_sub_distrib]
      congr 1
      rw [sum_comm, sum_div]
      exact sum_congr rfl fun a _ => by rw [← mul_sum]; ring
    rw [this]
    simp only [hz]
    simp
  · rw [residual_spec hT, if_pos h, Matrix.dotProduct_mulVec, hτ, zero_dotProduct]

/-- C338: With a laser guide star, adding slopes removed by the tip-tilt filter changes no residual. -/
theorem tiptilt_slopes_ignored (hT : 0 < T) (d : Data T n c) (f : ℤ) (h : d.lgs = true) (e : Matrix (Fin n) (Fin T) ℝ)
    (he : d.slttrem * e = 0) :
    (populate { d with slopes := d.slopes + e } f).res = (populate d f).res ∧
    (populate { d with slopes := d.slopes + e } f).wfe = (populate d f).wfe := by
  have key : residual { d with slopes := d.slopes + e } = residual d := by
    have e0 : ((d.slopes + e)ᵀ * (d.dmttrem * (d.recon * d.slttrem))ᵀ : Matrix (Fin T) (Fin c) ℝ) =
        d.slopesᵀ * (d.dmttrem * (d.recon * d.slttrem))ᵀ := by
      rw [← Matrix.transpose_mul, ← Matrix.transpose_mul]
      congr 1
      rw [Matrix.mul_add, Matrix.mul_assoc d.dmttrem _ e, Matrix.mul_assoc d.recon _ e, he]
      simp
    unfold residual recMatrix
    simp only [h, if_true]
    rw [← centre_mul, ← centre_mul, centre_centre hT, centre_centre hT, e0]
  refine ⟨key, ?_⟩
  simp only [populate, wfe, key]

/-! ### Wavefront error -/

theorem varCol_eq (hT : 0 < T) (d : Data T n c) (a : Fin c) :
    varCol (residual d) a = (∑ t, (residual d t a) ^ 2) / (T : ℝ) := by
  unfold varCol
  rw [show ∑ s, residual d s a = 0 from centre_sum hT _ a]
  simp

/-- C339: The wavefront error in nanometres is the root of the mean square residual over the frames, summed over
the actuators and divided by the number of commands. -/
theorem wfe_spec (hT : 0 < T) (d : Data T n c) (f : ℤ) (hc : 0 < d.nCom) :
    0 ≤ (populate d f).wfe ∧
    ((populate d f).wfe / 10 ^ 9) ^ 2 * d.nCom * T = ∑ a, ∑ t, ((populate d f).res t a) ^ 2 ∧
    ((populate d f).wfe = 0 ↔ (populate d f).res = 0) := by
  have hT' : (0 : ℝ) < T := by exact_mod_cast hT
  have hs : (∑ a, varCol (residual d) a) = (∑ a, ∑ t, (residual d t a) ^ 2) / (T : ℝ) := by
    rw [sum_div]; exact sum_congr rfl fun a _ => varCol_eq hT d a
  have hn : 0 ≤ ∑ a, ∑ t, (residual d t a) ^ 2 := sum_nonneg fun a _ => sum_nonneg fun t _ => sq_nonneg _
  have h0 : 0 ≤ (∑ a, varCol (residual d) a) / d.nCom := by rw [hs]; positivity
  have e2 : ((populate d f).wfe / 10 ^ 9) ^ 2 * d.nCom * T = ∑ a, ∑ t, ((populate d f).res t a) ^ 2 := by
    simp only [populate, wfe]
    rw [mul_div_cancel_left₀ _ (by norm_num : (10 : ℝ) ^ 9 ≠ 0), Real.sq_sqrt h0, hs]
    field_simp
  refine ⟨by simp only [populate, wfe]; positivity, e2, ?_, ?_⟩
  · intro hz
    rw [hz] at e2
    have : ∑ a, ∑ t, ((populate d f).res t a) ^ 2 = 0 := by rw [← e2]; simp
    rw [sum_eq_zero_iff_of_nonneg (fun a _ => sum_nonneg fun t _ => sq_nonneg _)] at this
    funext t a
    have h1 := this a (mem_univ _)
    rw [sum_eq_zero_iff_of_nonneg (fun t _ => sq_nonneg _)] at h1
    have := h1 t (mem_univ _)
    simpa using this
  · intro hz
    rw [hz] at e2
    simp only [Matrix.zero_apply, ne_eq, OfNat.ofNat_ne_zero, not_false_eq_true, zero_pow, sum_const_zero] at e2
    have : ((populate d f).wfe / 10 ^ 9) ^ 2 = 0 := by
      rcases mul_eq_zero.mp e2 with h | h
      · rcases mul_eq_zero.mp h with h | h
        · exact h
        · exact absurd h hc.ne'
      · exact absurd h hT'.ne'
    have := pow_eq_zero_iff (two_ne_zero) |>.mp this
    linarith [div_eq_zero_iff.mp this |>.resolve_right (by norm_num)]

/-- C339: Slopes multiplied by a factor give residuals multiplied by it, and a wavefront error multiplied by its
modulus. -/
theorem wfe_scale (d : Data T n c) (f : ℤ) (a : ℝ) :
    (populate { d with slopes := a • d.slopes } f).res = a • (populate d f).res ∧
    (populate { d with slopes := a • d.slopes } f).wfe = |a| * (populate d f).wfe := by
  have key : residual { d with slopes := a • d.slopes } = a • residual d := by
    unfold residual
    have : recMatrix { d with slopes := a • d.slopes } = recMatrix d := rfl
    rw [this]
    simp only [Matrix.transpose_smul]
    rw [centre_smul, Matrix.smul_mul, centre_smul]
  refine ⟨key, ?_⟩
  have hv : ∀ j, varCol (a • residual d) j = a ^ 2 * varCol (residual d) j := by
    intro j
    have e1 : ∑ i, (a • residual d) i j = a * ∑ i, residual d i j := by
      rw [mul_sum]; rfl
    have e2 : ∀ t, ((a • residual d) t j - (∑ i, (a • residual d) i j) / (T : ℝ)) ^ 2 =
        a ^ 2 * (residual d t j - (∑ i, residual d i j) / (T : ℝ)) ^ 2 := by
      intro t
      rw [e1, Matrix.smul_apply, smul_eq_mul]
      ring
    unfold varCol
    rw [mul_div_assoc', mul_sum]
    congr 1
    exact Finset.sum_congr rfl fun t _ => e2 t
  have hc : (({ d with slopes := a • d.slopes } : Data T n c)).nCom = d.nCom := rfl
  show wfe { d with slopes := a • d.slopes } = |a| * wfe d
  unfold wfe
  rw [key, hc]
  simp only [hv, ← mul_sum]
  rw [mul_div_assoc, Real.sqrt_mul (sq_nonneg a), Real.sqrt_sq_eq_abs]
  ring

/-! ### Repetition, atmosphere, loops -/

/-- C340: Reading the fields again, from the arrays the first call altered in place, gives the same telemetry, and
a third call as well. -/
theorem populate_again (hT : 0 < T) (d : Data T n c) (f : ℤ) :
    populate (after d) f = populate d f ∧ after (after d) = after d := by
  have h1 : centre ((centre d.slopesᵀ)ᵀ)ᵀ = centre d.slopesᵀ := by
    rw [Matrix.transpose_transpose, centre_centre hT]
  have hc : commands (after d) = commands d := by
    unfold commands after
    rcases h : d.lgs
    · simp only [Bool.false_eq_true, if_false, Matrix.transpose_transpose]
      exact centre_centre hT _
    · simp
  have hr : residual (after d) = residual d := by
    unfold residual
    have : recMatrix (after d) = recMatrix d := rfl
    rw [this]
    simp only [after, h1]
  constructor
  · unfold populate
    simp only [wfe, hc, hr]
    have e1 : centre (after d).slopesᵀ = centre d.slopesᵀ := h1
    rw [e1]
    rfl
  · unfold after
    rcases h : d.lgs
    · simp only [Bool.false_eq_true, if_false, Matrix.transpose_transpose, centre_centre hT]
    · simp only [if_true, Matrix.transpose_transpose, centre_centre hT]

/-- C340: The turbulence of the layers is `r0^(-5/3)` shared by the weights; it adds up to it exactly when the
weights sum to one. The seeing times `r0` is `0.976 λ` in arcseconds, and angles are converted from radians to
arcseconds. The sensor looks at the laser when there is one, else at the natural star. -/
theorem atmosphere_spec (d : Data T n c) (f : ℤ) (hr : 0 < d.r0) :
    (populate d f).cn2.length = d.weights.length ∧
    (populate d f).cn2.sum = d.weights.sum * d.r0 ^ (-(5 : ℝ) / 3) ∧
    ((populate d f).cn2.sum = d.r0 ^ (-(5 : ℝ) / 3) ↔ d.weights.sum = 1) ∧
    (populate d f).seeing * d.r0 = 0.976 * d.wvlAtm * (3600 * (180 / Real.pi)) ∧
    (populate d f).zenith = d.zenith * (180 / Real.pi) * 3600 ∧
    (populate d f).fov = f * d.fov ∧
    (d.lgs = true → (populate d f).wfsWvl = d.lgsWvl) ∧ (d.lgs = false → (populate d f).wfsWvl = d.ngsWvl) := by
  have hp : 0 < d.r0 ^ (-(5 : ℝ) / 3) := Real.rpow_pos_of_pos hr _
  have hs : (populate d f).cn2.sum = d.weights.sum * d.r0 ^ (-(5 : ℝ) / 3) := by
    simp only [populate]
    rw [List.sum_map_mul_right]
    simp
  refine ⟨by simp [populate], hs, ?_, ?_, ?_, ?_, ?_, ?_⟩
  · rw [hs]
    constructor
    · intro h; exact mul_right_cancel₀ hp.ne' (by rw [h, one_mul])
    · intro h; rw [h, one_mul]
  · have := Real.pi_pos.ne'
    simp only [populate]; field_simp
  · simp only [populate]; ring
  · simp only [populate]; ring
  · intro h; simp [populate, h]
  · intro h; simp [populate, h]

/-- C340: The servo of each loop, at any frequency and sampling rate, is the pure integrator `g / (1 - z)` of the
gain of the file. -/
theorem loops_integrators (d : Data T n c) (f : ℤ) (fr fs : ℝ) :
    Telemetry.tfServo (fun k => ((populate d f).numHO.getD k 0 : ℝ)) (fun k => ((populate d f).denHO.getD k 0 : ℝ)) fr fs =
      d.gainHO / (1 - Complex.exp (-2 * Complex.I * Real.pi * fr / fs)) ∧
    Telemetry.tfServo (fun k => ((populate d f).numTT.getD k 0 : ℝ)) (fun k => ((populate d f).denTT.getD k 0 : ℝ)) fr fs =
      d.gainTT / (1 - Complex.exp (-2 * Complex.I * Real.pi * fr / fs)) := by
  constructor <;> simp [Telemetry.tfServo, populate, sub_eq_add_neg]

/-! ### Non-vacuity -/

/-- The tip-tilt filter of `lgsExample` removes the sum of the commands. -/
example : (![1, 1] : Fin 2 → ℝ) ᵥ* lgsExample.dmttrem = 0 := by
  funext j
  fin_cases j <;> simp [lgsExample, Matrix.vecMul, dotProduct]

/-- Its residuals are not zero. -/
example : (populate lgsExample 2).res 0 0 = -1 := by
  have := congrFun (residual_spec (T := 2) (by norm_num) lgsExample 2 0) 0
  rw [this, if_pos (show lgsExample.lgs = true from rfl)]
  simp [lgsExample, populate, centre, Matrix.mulVec, dotProduct, Fin.sum_univ_two]
  norm_num

/-! ### Cases that meet the hypotheses -/

/-- Two actuators, of which the first holds the tip-tilt; three frames. -/
noncomputable def demo : Data 3 2 2 where
  lgs := true
  geometric := true
  slopes := fun i t => i + 2 * t
  com := fun i t => i + t
  recon := 1
  dmttrem := !![0, 0; 0, 1]
  slttrem := !![0, 0; 0, 1]
  ttSlopes := fun _ _ => 1
  ttCom := fun _ _ => 2
  nCom := 2
  wfsPs := 800
  ttPs := 50
  D := 10
  ngsWvl := 1.6e-6
  lgsWvl := 589e-9
  wvlAtm := 500e-9
  r0 := 0.15
  weights := [0.7, 0.3]
  zenith := 0.5
  fov := 64
  gainHO := 0.3
  gainTT := 0.2

/-- A case meeting the hypotheses of `tiptilt_free`. -/
example : ∀ t, ![1, 0] ⬝ᵥ (populate demo 1).com t = 0 :=
  fun t => (tiptilt_free (by norm_num) demo 1 rfl ![1, 0] (by ext j; fin_cases j <;> simp [Matrix.vecMul, demo]) t).1

/-- A case meeting the hypotheses of `tiptilt_slopes_ignored`. -/
example : demo.slttrem * (!![1, 2, 3; 0, 0, 0] : Matrix (Fin 2) (Fin 3) ℝ) = 0 ∧ (!![1, 2, 3; 0, 0, 0] : Matrix (Fin 2) (Fin 3) ℝ) ≠ 0 := by
  refine ⟨?_, fun h => ?_⟩
  · ext i j; fin_cases i <;> fin_cases j <;> simp [demo, Matrix.mul_apply, Fin.sum_univ_two]
  · have := congrFun (congrFun h 0) 0; simp at this

end P3.Kasp
