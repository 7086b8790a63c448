import Verif.Props.Spectra
import Verif.Props.Observation
/-
Properties C377-C380: axes, symmetries, layers and wavelength with one guide star.
-/
namespace P3.SingleStar
open Finset P3.Fourier P3.Tomo P3.Spectra P3.Observation.Spec
open P3.Observation (act_dot act_kmod act_mskIn)

/-! ### Anisoplanatism and the direction of the target (C377) -/

/-- Anisoplanatism of turbulence layers of strengths `w` at heights `h` for a target at `th` from the guide star: the waves
of the two stars differ at frequency `k` by the phase `2π h (k·th)`. -/
noncomputable def expectedAniso (n : ℕ) (w h : ℕ → ℝ) (th k : ℝ × ℝ) : ℝ :=
  ∑ l ∈ range n, w l * ‖1 - Complex.exp ((2 * Real.pi * h l * (k.1 * th.1 + k.2 * th.2) : ℝ) * Complex.I)‖ ^ 2

theorem norm_one_sub_exp (x : ℝ) : ‖1 - Complex.exp ((x : ℂ) * Complex.I)‖ ^ 2 = 2 * (1 - Real.cos x) := by
  rw [Complex.sq_norm, Complex.normSq_apply, Complex.sub_re, Complex.sub_im, Complex.exp_ofReal_mul_I_re,
    Complex.exp_ofReal_mul_I_im, Complex.one_re, Complex.one_im]
  have := Real.sin_sq_add_cos_sq x
  nlinarith

/-- C377 (exact): the anisoplanatism spectrum is the expected one of a target whose two coordinates are exchanged. -/
theorem aniso_exchanged (s : Sys) (th : ℝ × ℝ) (c : Bool) (k : ℝ × ℝ) :
    s.aniPsd th c k = (if s.inside k then expectedAniso s.nL s.w s.hs th.swap k else 0) * s.watm c k := by
  unfold Sys.aniPsd anisoPsd expectedAniso msk
  simp only [norm_one_sub_exp, Prod.fst_swap, Prod.snd_swap]
  by_cases h : th.1 = 0 ∧ th.2 = 0
  · rw [if_pos h]; simp [h.1, h.2]
  · rw [if_neg h]
    split_ifs
    · rw [one_mul]
      congr 1
      exact sum_congr rfl fun l _ => by ring
    · simp

/-- C377 (partial): it is the expected one for targets or frequencies along a diagonal. Missing: the others
(`aniso_axes_violation`). -/
theorem aniso_diagonal_partial (s : Sys) (th : ℝ × ℝ) (c : Bool) (k : ℝ × ℝ) (h : th.1 = th.2 ∨ k.1 = k.2) :
    s.aniPsd th c k = (if s.inside k then expectedAniso s.nL s.w s.hs th k else 0) * s.watm c k := by
  rw [aniso_exchanged]
  unfold expectedAniso
  have : k.1 * th.swap.1 + k.2 * th.swap.2 = k.1 * th.1 + k.2 * th.2 := by
    simp only [Prod.fst_swap, Prod.snd_swap]
    rcases h with h | h <;> rw [h] <;> ring
  simp only [this]

/-- C377 (violation): a target displaced along the first axis has no anisoplanatism at the frequencies of this axis, and has
at those of the second axis, where its wave and the one of the guide star are identical. -/
theorem aniso_axes_violation (s : Sys) (x k : ℝ) (c : Bool) (hx : x ≠ 0) :
    s.aniPsd (x, 0) c (k, 0) = 0 ∧ expectedAniso s.nL s.w s.hs (x, 0) (0, k) = 0 ∧
    s.aniPsd (x, 0) c (0, k) =
      (if s.inside (0, k) then ∑ l ∈ range s.nL, 2 * s.w l * (1 - Real.cos (2 * Real.pi * s.hs l * (k * x))) else 0) *
        s.watm c (0, k) := by
  refine ⟨?_, ?_, ?_⟩
  · simp [Sys.aniPsd, anisoPsd]
  · simp [expectedAniso]
  · unfold Sys.aniPsd anisoPsd msk
    rw [if_neg (by simp [hx])]
    split_ifs <;> simp

/-- The tomographic phase of the same target (two stars or more) follows the right axes: it is `h (k·β)`. -/
theorem tomographic_axes {g l : ℕ} (v : Wind g l) (h : Fin l → ℝ) (x k : ℝ) (hv : ∀ n, v.speed n = 0) (n : Fin l) :
    pBetaL v h (x, 0) (k, 0) 0 n = phasor (h n * (x * k)) ∧ pBetaL v h (x, 0) (0, k) 0 n = 1 := by
  simp [pBetaL, hv, phasor_zero]

/-- Half a period: 10 km, 1e-4 rad, 0.5 cycle per metre. -/
example : ∃ v, 0 < v ∧ demo.aniPsd (1e-4, 0) false (0, 0.5) = v ∧ demo.aniPsd (1e-4, 0) false (0.5, 0) = 0 := by
  have h := aniso_axes_violation demo 1e-4 0.5 false (by norm_num)
  refine ⟨_, ?_, h.2.2, h.1⟩
  have hin : demo.inside (0, 0.5) = true := by
    simp only [Sys.inside, demo, Freq.mskIn, decide_eq_true_eq, Bool.false_eq_true, if_false]
    norm_num [abs_lt]
  rw [hin, if_pos rfl]
  have e : 2 * Real.pi * demo.hs 0 * ((0.5 : ℝ) * 1e-4) = Real.pi := by
    simp only [demo]; ring
  have hw : 0 < demo.watm false (0, 0.5) := by
    unfold Sys.watm Sys.turb Sys.piston
    have h1 := Psf.pistonFilter_pos demo.D (kmod (0, 0.5)) (by norm_num [demo])
    have h2 := Real.Gamma_pos_of_pos (show (0:ℝ) < 6/5 by norm_num)
    have h3 := Real.Gamma_pos_of_pos (show (0:ℝ) < 11/6 by norm_num)
    have h4 : 0 < demo.r0 := by norm_num [demo]
    have h5 : 0 < demo.L0 := by norm_num [demo]
    simp only [Bool.false_eq_true, if_false]
    positivity
  apply mul_pos _ hw
  show 0 < ∑ l ∈ range 1, _
  rw [sum_range_one, e, Real.cos_pi]
  norm_num [demo]

/-! ### Symmetries (C378) -/

theorem act_norm (ρ : Sym) (k : ℝ × ℝ) : (ρ.act k).1 ^ 2 + (ρ.act k).2 ^ 2 = k.1 ^ 2 + k.2 ^ 2 := by
  have := act_dot ρ k k
  nlinarith

theorem act_sincs (ρ : Sym) (d : ℝ) (k : ℝ × ℝ) :
    npSinc (d * (ρ.act k).1) * npSinc (d * (ρ.act k).2) = npSinc (d * k.1) * npSinc (d * k.2) := by
  obtain ⟨s, x, y⟩ := ρ
  rcases Int.units_eq_one_or x with rfl | rfl <;> rcases Int.units_eq_one_or y with rfl | rfl <;> cases s <;>
    simp [Sym.act, npSinc_neg, mul_comm]

/-- The same system with other wind directions. -/
noncomputable def withWind (s : Sys) (dir : ℕ → ℝ) : Sys := { s with dirDeg := dir }

/-- The wind directions `dir` are those of `s` seen through `ρ`. -/
def WindTurned (ρ : Sym) (s : Sys) (dir : ℕ → ℝ) : Prop :=
  ∀ l < s.nL, (Real.cos (dir l * Real.pi / 180), Real.sin (dir l * Real.pi / 180)) =
    ρ.act (Real.cos (s.dirDeg l * Real.pi / 180), Real.sin (s.dirDeg l * Real.pi / 180))

variable (ρ : Sym) (s : Sys) (dir : ℕ → ℝ)

theorem turb_act (k : ℝ × ℝ) : s.turb (ρ.act k) = s.turb k := by unfold Sys.turb; rw [act_kmod]
theorem watm_act (c : Bool) (k : ℝ × ℝ) : s.watm c (ρ.act k) = s.watm c k := by
  unfold Sys.watm Sys.piston; rw [turb_act, act_kmod]
theorem inside_act (k : ℝ × ℝ) : s.inside (ρ.act k) = s.inside k := by
  simp only [Sys.inside, act_mskIn]
theorem reg_act (k : ℝ × ℝ) : s.reg (ρ.act k) = s.reg k := by unfold Sys.reg; rw [turb_act]

theorem norm_av_act (k : ℝ × ℝ) : ‖s.av (ρ.act k)‖ = ‖s.av k‖ := by rw [norm_av, norm_av, act_sincs]

theorem gPSD_act (k : ℝ × ℝ) (r : ℝ) : gPSD (s.sx (ρ.act k)) (s.sy (ρ.act k)) r = gPSD (s.sx k) (s.sy k) r := by
  rw [gPSD_eq, gPSD_eq, act_norm, norm_av_act]

theorem atf_act (h : WindTurned ρ s dir) (k : ℝ × ℝ) (l : ℕ) (hl : l < s.nL) :
    (withWind s dir).atf (ρ.act k) l = s.atf k l := by
  have h1 := congrArg Prod.fst (h l hl)
  have h2 := congrArg Prod.snd (h l hl)
  simp only at h1 h2
  have e : (withWind s dir).tfreq (ρ.act k) l = s.tfreq k l := by
    have hd := act_dot ρ (Real.cos (s.dirDeg l * Real.pi / 180), Real.sin (s.dirDeg l * Real.pi / 180)) k
    simp only at hd
    show -(s.speed l * Real.cos (dir l * Real.pi / 180) * (ρ.act k).1) - s.speed l * Real.sin (dir l * Real.pi / 180) * (ρ.act k).2 =
      -(s.speed l * Real.cos (s.dirDeg l * Real.pi / 180) * k.1) - s.speed l * Real.sin (s.dirDeg l * Real.pi / 180) * k.2
    rw [h1, h2]
    linear_combination -(s.speed l) * hd
  unfold Sys.atf Sys.z
  rw [e]; rfl

theorem h_act (h : WindTurned ρ s dir) (k : ℝ × ℝ) :
    (withWind s dir).h1 (ρ.act k) = s.h1 k ∧ (withWind s dir).h2 (ρ.act k) = s.h2 k := by
  constructor
  · unfold Sys.h1 Fourier.h1
    exact sum_congr rfl fun l hl => by
      simp only [atf_act ρ s dir h k l (mem_range.1 hl)]; rfl
  · unfold Sys.h2 Fourier.h2
    exact sum_congr rfl fun l hl => by
      simp only [atf_act ρ s dir h k l (mem_range.1 hl)]; rfl

/-- What the reconstructor gives through the spectra. -/
theorem recon_act (c : Bool) (k : ℝ × ℝ) :
    (s.rx c (ρ.act k) = none ∧ s.rx c k = none) ∨
    (∃ rx ry rx' ry', s.rx c k = some rx ∧ s.ry c k = some ry ∧ s.rx c (ρ.act k) = some rx' ∧ s.ry c (ρ.act k) = some ry' ∧
      loopF rx' ry' (s.sx (ρ.act k)) (s.sy (ρ.act k)) = loopF rx ry (s.sx k) (s.sy k) ∧
      ‖rx' ^ 2 + ry' ^ 2‖ = ‖rx ^ 2 + ry ^ 2‖) := by
  unfold Sys.rx Sys.ry recon
  rw [reg_act, gPSD_act]
  cases c with
  | true =>
    right
    exact ⟨0, 0, 0, 0, by simp [loopF]⟩
  | false =>
    simp only [Bool.false_eq_true, if_false]
    by_cases hg : gPSD (s.sx k) (s.sy k) (s.reg k) = 0
    · left; simp [hg]
    · right
      simp only [hg, if_false, Option.some.injEq]
      refine ⟨_, _, _, _, rfl, rfl, rfl, rfl, ?_, ?_⟩
      · have key : ∀ q : ℝ × ℝ, ∀ G : ℝ, loopF ((starRingEnd ℂ) (s.sx q) / (G : ℂ)) ((starRingEnd ℂ) (s.sy q) / (G : ℂ)) (s.sx q) (s.sy q) =
            (((2 * Real.pi * s.dsub) ^ 2 * (q.1 ^ 2 + q.2 ^ 2) * ‖s.av q‖ ^ 2 / G : ℝ) : ℂ) := by
          intro q G
          have := gPSD_eq s q 0
          rw [add_zero] at this
          rw [← this]
          unfold loopF gPSD
          rw [div_mul_eq_mul_div, div_mul_eq_mul_div, ← add_div, Complex.conj_mul', Complex.conj_mul']
          push_cast; ring
        rw [key, key, act_norm, norm_av_act]
      · have key : ∀ q : ℝ × ℝ, ∀ G : ℝ, ‖((starRingEnd ℂ) (s.sx q) / (G : ℂ)) ^ 2 + ((starRingEnd ℂ) (s.sy q) / (G : ℂ)) ^ 2‖ =
            (2 * Real.pi * s.dsub) ^ 2 * (q.1 ^ 2 + q.2 ^ 2) * ‖s.av q‖ ^ 2 / ‖(G : ℂ)‖ ^ 2 := by
          intro q G
          rw [div_pow, div_pow, ← add_div, norm_div, norm_pow, ← map_pow, ← map_pow, ← map_add, RCLike.norm_conj]
          congr 1
          have : s.sx q ^ 2 + s.sy q ^ 2 = -(((2 * Real.pi * s.dsub) ^ 2 * (q.1 ^ 2 + q.2 ^ 2) : ℝ) : ℂ) * s.av q ^ 2 := by
            unfold Sys.sx Sys.sy shResponse
            push_cast
            linear_combination (((2 * Real.pi * q.1 * s.dsub : ℂ) * s.av q) ^ 2 + ((2 * Real.pi * q.2 * s.dsub : ℂ) * s.av q) ^ 2) * Complex.I_sq
          rw [this, norm_mul, norm_neg, Complex.norm_real, norm_pow, Real.norm_of_nonneg (by positivity)]
        rw [key, key, act_norm, norm_av_act]

/-- C378 (partial): turning the whole observation (winds and target), or taking its mirror image, turns the spectra of noise,
servo-lag, anisoplanatism, chromatism and fitting, and the spatio-temporal one for a target on axis or for the symmetries that
do not change the orientation of the exchanged axes. Missing: the others (`turned_offaxis_violation`) and aliasing. -/
theorem turned_partial (h : WindTurned ρ s dir) (ng : ℝ) (th : ℝ × ℝ) (c : Bool) (k : ℝ × ℝ) :
    (withWind s dir).noisePsd ng c (ρ.act k) = s.noisePsd ng c k ∧
    (withWind s dir).lagPsd c (ρ.act k) = s.lagPsd c k ∧
    (withWind s dir).aniPsd (ρ.act th) c (ρ.act k) = s.aniPsd th c k ∧
    (withWind s dir).chromPsd c (ρ.act k) = s.chromPsd c k ∧
    (withWind s dir).fitPsd (ρ.act k) = s.fitPsd k ∧
    (th = (0, 0) ∨ ρ.sx = ρ.sy → (withWind s dir).stPsd (ρ.act th) c (ρ.act k) = s.stPsd th c k) := by
  obtain ⟨e1, e2⟩ := h_act ρ s dir h k
  have hphase : (ρ.act k).1 * (ρ.act th).2 + (ρ.act k).2 * (ρ.act th).1 = ((ρ.sx * ρ.sy : ℤˣ) : ℤ) * (k.1 * th.2 + k.2 * th.1) := by
    obtain ⟨b, x, y⟩ := ρ
    rcases Int.units_eq_one_or x with rfl | rfl <;> rcases Int.units_eq_one_or y with rfl | rfl <;> cases b <;>
      simp [Sym.act] <;> ring
  have hz : ρ.act th = (0, 0) ↔ th = (0, 0) := by
    have := act_norm ρ th
    constructor
    · intro e
      rw [e] at this
      have h1 : th.1 = 0 := by nlinarith [sq_nonneg th.1, sq_nonneg th.2]
      have h2 : th.2 = 0 := by nlinarith [sq_nonneg th.1, sq_nonneg th.2]
      exact Prod.ext h1 h2
    · rintro rfl
      obtain ⟨b, x, y⟩ := ρ
      cases b <;> simp [Sym.act]
  refine ⟨?_, ?_, ?_, ?_, ?_, ?_⟩
  · show (s.noisePsd ng c (ρ.act k)) = _
    unfold Sys.noisePsd
    rcases recon_act ρ s c k with ⟨a, b⟩ | ⟨rx, ry, rx', ry', a1, a2, a3, a4, -, a6⟩
    · rw [a, b]; rfl
    · rw [a1, a2, a3, a4]
      simp only [Option.bind_some, noiseScao, inside_act, a6, Sys.piston, act_kmod]
  · unfold Sys.lagPsd
    rw [e1, e2]
    show ((s.rx c (ρ.act k)).bind fun rx => (s.ry c (ρ.act k)).bind fun ry =>
      some (servoLag (decide (s.gain = 0)) (s.inside (ρ.act k)) (loopF rx ry (s.sx (ρ.act k)) (s.sy (ρ.act k))) (s.h1 k) (s.h2 k)
        (s.watm c (ρ.act k)))) = _
    rcases recon_act ρ s c k with ⟨a, b⟩ | ⟨rx, ry, rx', ry', a1, a2, a3, a4, a5, -⟩
    · rw [a, b]; rfl
    · rw [a1, a2, a3, a4]
      simp only [Option.bind_some, a5, inside_act, watm_act]
  · show s.aniPsd (ρ.act th) c (ρ.act k) = _
    unfold Sys.aniPsd anisoPsd
    rw [inside_act, watm_act]
    have hz' : ((ρ.act th).1 = 0 ∧ (ρ.act th).2 = 0) ↔ (th.1 = 0 ∧ th.2 = 0) := by
      have := hz
      simp only [Prod.ext_iff] at this
      exact this
    have hcos : ∀ l, Real.cos (2 * Real.pi * s.hs l * ((ρ.act k).1 * (ρ.act th).2 + (ρ.act k).2 * (ρ.act th).1)) =
        Real.cos (2 * Real.pi * s.hs l * (k.1 * th.2 + k.2 * th.1)) := fun l => by
      rw [hphase]
      rcases Int.units_eq_one_or (ρ.sx * ρ.sy) with e | e <;> rw [e]
      · simp
      · rw [← Real.cos_neg]; congr 1; push_cast; ring
    simp only [hcos, hz']
  · show s.chromPsd c (ρ.act k) = _
    unfold Sys.chromPsd
    rw [watm_act]
  · show s.fitPsd (ρ.act k) = _
    unfold Sys.fitPsd Freq.fittingPsd
    rw [act_norm]
    refine if_congr ?_ rfl rfl
    unfold Freq.mskOut
    rw [act_norm]
    obtain ⟨b, x, y⟩ := ρ
    rcases Int.units_eq_one_or x with rfl | rfl <;> rcases Int.units_eq_one_or y with rfl | rfl <;> cases b <;>
      simp [Sym.act, or_comm]
  · intro hcase
    have hA : (withWind s dir).decorr (ρ.act th) (ρ.act k) = s.decorr th k := by
      unfold Sys.decorr Fourier.decorr
      simp only [hz]
      rcases hcase with e | e
      · simp [e]
      · show (if decide (th = (0, 0)) = true then (1:ℂ) else ∑ l ∈ range s.nL, _) = _
        have : ((ρ.sx * ρ.sy : ℤˣ) : ℤ) = 1 := by rw [e, Int.units_mul_self]; rfl
        rw [this] at hphase
        rw [hphase]
        simp only [Int.cast_one, one_mul]
        rfl
    unfold Sys.stPsd
    rw [e1, e2, hA]
    show ((s.rx c (ρ.act k)).bind fun rx => (s.ry c (ρ.act k)).bind fun ry =>
      some (spatioTemporal (decide (s.gain = 0)) (s.inside (ρ.act k)) (loopF rx ry (s.sx (ρ.act k)) (s.sy (ρ.act k))) (s.h1 k) (s.decorr th k) (s.h2 k)
        (s.watm c (ρ.act k)))) = _
    rcases recon_act ρ s c k with ⟨a, b⟩ | ⟨rx, ry, rx', ry', a1, a2, a3, a4, a5, -⟩
    · rw [a, b]; rfl
    · rw [a1, a2, a3, a4]
      simp only [Option.bind_some, a5, inside_act, watm_act]

/-- C378 (violation): turned by a quarter turn, or in a mirror, an observation of a target off axis under wind has another
residual: the wind follows the symmetry and the direction of the target goes to the opposite side. -/
theorem turned_offaxis_violation (h : WindTurned ρ s dir) (hρ : ρ.sx ≠ ρ.sy) (th k : ℝ × ℝ) (hth : th ≠ (0, 0)) (hk : Seen s k)
    (hm : s.mv = 0) (hg : s.gain ≠ 0) :
    ∃ a b, s.stPsd th false k = some a ∧ (withWind s dir).stPsd (ρ.act th) false (ρ.act k) = some b ∧
      b - a = -(if s.inside k then 4 else 0) * (s.h1 k).im * (s.decorr th k).im * s.watm false k := by
  obtain ⟨e1, e2⟩ := h_act ρ s dir h k
  have hsgn : ((ρ.sx * ρ.sy : ℤˣ) : ℤ) = -1 := by
    rcases Int.units_eq_one_or ρ.sx with a | a <;> rcases Int.units_eq_one_or ρ.sy with b | b <;> simp_all
  have hphase : (ρ.act k).1 * (ρ.act th).2 + (ρ.act k).2 * (ρ.act th).1 = -(k.1 * th.2 + k.2 * th.1) := by
    have : (ρ.act k).1 * (ρ.act th).2 + (ρ.act k).2 * (ρ.act th).1 = ((ρ.sx * ρ.sy : ℤˣ) : ℤ) * (k.1 * th.2 + k.2 * th.1) := by
      obtain ⟨b, x, y⟩ := ρ
      rcases Int.units_eq_one_or x with rfl | rfl <;> rcases Int.units_eq_one_or y with rfl | rfl <;> cases b <;>
        simp [Sym.act] <;> ring
    rw [this, hsgn]; push_cast; ring
  have hz : ρ.act th ≠ (0, 0) := by
    intro e
    have := act_norm ρ th
    rw [e] at this
    have h1 : th.1 = 0 := by nlinarith [sq_nonneg th.1, sq_nonneg th.2]
    have h2 : th.2 = 0 := by nlinarith [sq_nonneg th.1, sq_nonneg th.2]
    exact hth (Prod.ext h1 h2)
  have hA : (withWind s dir).decorr (ρ.act th) (ρ.act k) = (starRingEnd ℂ) (s.decorr th k) := by
    unfold Sys.decorr Fourier.decorr
    rw [if_neg (by simp [hz]), if_neg (by simp [hth]), map_sum]
    refine sum_congr rfl fun l _ => ?_
    rw [map_mul, Complex.conj_ofReal, ← Complex.exp_conj, map_mul, Complex.conj_ofReal, Complex.conj_I, hphase]
    congr 2
    show ((2 * Real.pi * (s.hs l * -(k.1 * th.2 + k.2 * th.1)) : ℝ) : ℂ) * Complex.I = _
    push_cast; ring
  obtain ⟨hx, hy⟩ := rx_seen s k hk hm
  have hF := loop_seen s k hk hm _ _ hx hy
  rcases recon_act ρ s false k with ⟨a, b⟩ | ⟨rx, ry, rx', ry', a1, a2, a3, a4, a5, -⟩
  · rw [hx] at b; simp at b
  · have hF' : loopF rx ry (s.sx k) (s.sy k) = 1 := loop_seen s k hk hm _ _ a1 a2
    rw [hF'] at a5
    refine ⟨spatioTemporal false (s.inside k) 1 (s.h1 k) (s.decorr th k) (s.h2 k) (s.watm false k),
      spatioTemporal false (s.inside k) 1 (s.h1 k) ((starRingEnd ℂ) (s.decorr th k)) (s.h2 k) (s.watm false k), ?_, ?_, ?_⟩
    · unfold Sys.stPsd
      rw [a1, a2]
      simp [hF', hg]
    · unfold Sys.stPsd
      rw [e1, e2, hA]
      show ((s.rx false (ρ.act k)).bind fun rx => (s.ry false (ρ.act k)).bind fun ry =>
        some (spatioTemporal (decide (s.gain = 0)) (s.inside (ρ.act k)) (loopF rx ry (s.sx (ρ.act k)) (s.sy (ρ.act k))) (s.h1 k) _ (s.h2 k)
          (s.watm false (ρ.act k)))) = _
      rw [a3, a4]
      simp [a5, hg, inside_act, watm_act]
    · unfold spatioTemporal msk
      simp only [Bool.false_eq_true, if_false, one_mul, Complex.mul_re, Complex.conj_re, Complex.conj_im]
      split_ifs <;> ring

/-- `demo` under a wind of half a metre per second, slow loop. -/
noncomputable def windy : Sys := { demo with speed := fun _ => 0.5, rate := 1 }

/-- `windy` and its quarter turn meet the hypotheses of `turned_offaxis_violation`, and the residuals differ. -/
example : ∃ a b, windy.stPsd (0, 5e-5) false (0.5, 0) = some a ∧
    (withWind windy fun _ => 90).stPsd (-5e-5, 0) false (0, 0.5) = some b ∧ a < b := by
  have hs : Seen windy (0.5, 0) := seen_of _ _ (by norm_num [windy, demo]) (by simp; norm_num) (by norm_num [windy, demo, abs_lt])
    (by norm_num [windy, demo])
  have hw : WindTurned quarter windy fun _ => 90 := by
    intro l _
    have e : (90 : ℝ) * Real.pi / 180 = Real.pi / 2 := by ring
    simp only [e, windy, demo]
    simp [quarter, Sym.act]
  obtain ⟨a, b, ha, hb, hab⟩ := turned_offaxis_violation quarter windy (fun _ => 90) hw (by decide) (0, 5e-5) (0.5, 0)
    (by simp; norm_num) hs rfl (by norm_num [windy, demo])
  have e1 : quarter.act ((0:ℝ), (5e-5:ℝ)) = (-5e-5, 0) := by simp [quarter, Sym.act]
  have e2 : quarter.act ((0.5:ℝ), (0:ℝ)) = (0, 0.5) := by simp [quarter, Sym.act]
  rw [e1, e2] at hb
  refine ⟨a, b, ha, hb, ?_⟩
  have hin : windy.inside (0.5, 0) = true := by
    simp only [Sys.inside, windy, demo, Freq.mskIn, decide_eq_true_eq, Bool.false_eq_true, if_false]
    norm_num [abs_lt]
  have hwm : 0 < windy.watm false (0.5, 0) := by
    unfold Sys.watm Sys.turb Sys.piston
    have h1 := Psf.pistonFilter_pos windy.D (kmod (0.5, 0)) (by norm_num [windy, demo])
    have h2 := Real.Gamma_pos_of_pos (show (0:ℝ) < 6/5 by norm_num)
    have h3 := Real.Gamma_pos_of_pos (show (0:ℝ) < 11/6 by norm_num)
    have h4 : 0 < windy.r0 := by norm_num [windy, demo]
    have h5 : 0 < windy.L0 := by norm_num [windy, demo]
    simp only [Bool.false_eq_true, if_false]
    positivity
  have hz : windy.z (0.5, 0) 0 = Complex.I := by
    have e : windy.tfreq (0.5, 0) 0 * (1 / 1) = -(1 / 4) := by
      simp [Sys.tfreq, Sys.vx, Sys.vy, windy, demo]; norm_num
    unfold Sys.z
    show zOf (Sys.tfreq _ _ _ * (1 / 1)) = _
    rw [e]
    unfold zOf
    have e2 : ((-2 * Real.pi * (-(1 / 4)) : ℝ) : ℂ) * Complex.I = (Real.pi : ℂ) / 2 * Complex.I := by push_cast; ring
    rw [e2, Complex.exp_pi_div_two_mul_I]
  have hatf : windy.atf (0.5, 0) 0 = -0.2 - 0.4 * Complex.I := by
    unfold Sys.atf
    rw [hz]
    show atf 2.2e-16 0.5 1 Complex.I = _
    have ho : openLoop (2.2e-16) (0.5) 1 Complex.I = -0.25 - 0.25 * Complex.I := by
      unfold openLoop hInt guardD
      have h1 : (1:ℂ) - Complex.I⁻¹ = 1 + Complex.I := by rw [Complex.inv_I]; ring
      rw [h1, if_neg]
      · rw [Complex.ofReal_one, Complex.cpow_neg, Complex.cpow_one, Complex.inv_I]
        have hne : (1 : ℂ) + Complex.I ≠ 0 := by
          intro h0; have := congrArg Complex.re h0; simp at this
        rw [div_mul_eq_mul_div, div_eq_iff hne]
        push_cast
        ring_nf
        rw [Complex.I_sq]; ring
      · rw [not_lt]
        have : (1:ℝ) ≤ ‖(1:ℂ) + Complex.I‖ := by
          have := Complex.abs_re_le_norm ((1:ℂ) + Complex.I)
          simpa using this
        linarith [show (2.2e-16 : ℝ) ≤ 1 by norm_num]
    unfold atf rtf
    rw [ho]
    unfold guardD
    rw [if_neg]
    · have hne : (1 : ℂ) + (-0.25 - 0.25 * Complex.I) ≠ 0 := by
        intro h0; have := congrArg Complex.re h0; norm_num at this
      rw [mul_one_div, div_eq_iff hne]
      ring_nf
      rw [Complex.I_sq]; ring
    · rw [not_lt]
      have h1 : (0.75:ℝ) ≤ ‖(1:ℂ) + (-0.25 - 0.25 * Complex.I)‖ := by
        have := Complex.abs_re_le_norm ((1:ℂ) + (-0.25 - 0.25 * Complex.I))
        have e : ((1:ℂ) + (-0.25 - 0.25 * Complex.I)).re = 0.75 := by norm_num
        rw [e, abs_of_pos (by norm_num)] at this
        exact this
      linarith [show (2.2e-16 : ℝ) ≤ 0.75 by norm_num]
  have hh1 : (windy.h1 (0.5, 0)).im = -0.4 := by
    unfold Sys.h1 Fourier.h1
    rw [show windy.nL = 1 from rfl, sum_range_one, sum_range_one]
    show Complex.im ((windy.w 0 : ℂ) * windy.atf (0.5, 0) 0 / ((1 : ℕ) : ℂ)) = _
    rw [hatf]
    simp [windy, demo]
  have hd : (windy.decorr (0, 5e-5) (0.5, 0)).im = 1 := by
    unfold Sys.decorr Fourier.decorr
    rw [if_neg (by simp; norm_num)]
    rw [show windy.nL = 1 from rfl, sum_range_one]
    have : (2 * Real.pi * (windy.hs 0 * ((0.5:ℝ) * 5e-5 + 0 * 0)) : ℝ) = Real.pi / 2 := by
      simp only [windy, demo]; ring
    rw [this]
    simp only [windy, demo]
    push_cast
    rw [Complex.exp_pi_div_two_mul_I]; simp
  rw [hin, hh1, hd, if_pos rfl] at hab
  nlinarith

/-! ### Layers in parts (C379) -/

/-- The system with `n'` layers, layer `l` being a part of strength `w' l` of layer `φ l` of `s`. -/
noncomputable def parts (s : Sys) (n' : ℕ) (φ : ℕ → ℕ) (w' : ℕ → ℝ) : Sys :=
  { s with nL := n', w := w', hs := fun l => s.hs (φ l), speed := fun l => s.speed (φ l), dirDeg := fun l => s.dirDeg (φ l) }

theorem parts_sum {R : Type} [CommSemiring R] (n n' : ℕ) (φ : ℕ → ℕ) (w w' : ℕ → R) (hφ : ∀ l < n', φ l < n)
    (hw : ∀ l < n, w l = ∑ l' ∈ (range n').filter (fun l' => φ l' = l), w' l') (F : ℕ → R) :
    ∑ l' ∈ range n', w' l' * F (φ l') = ∑ l ∈ range n, w l * F l := by
  rw [← sum_fiberwise_of_maps_to (s := range n') (t := range n) (g := φ) (fun l hl => mem_range.2 (hφ l (mem_range.1 hl)))]
  refine sum_congr rfl fun l hl => ?_
  rw [hw l (mem_range.1 hl), sum_mul]
  exact sum_congr rfl fun l' hl' => by rw [(mem_filter.1 hl').2]

/-- C379: with one guide star too, layers at the same height and with the same wind may be given together or in parts, in any
order, and layers without strength may be dropped: no contribution to the spectrum changes. -/
theorem layers_in_parts (s : Sys) (n' : ℕ) (φ : ℕ → ℕ) (w' : ℕ → ℝ) (hn : 1 ≤ n') (hφ : ∀ l < n', φ l < s.nL)
    (hw : ∀ l < s.nL, s.w l = ∑ l' ∈ (range n').filter (fun l' => φ l' = l), w' l')
    (ng : ℝ) (th : ℝ × ℝ) (az : ℝ) (c : Bool) (k : ℝ × ℝ) :
    (parts s n' φ w').terms ng th az c k = s.terms ng th az c k ∧
    (parts s n' φ w').lagPsd c k = s.lagPsd c k ∧ (parts s n' φ w').aniPsd th c k = s.aniPsd th c k := by
  have hs : 1 ≤ s.nL := by have := hφ 0 (by omega); omega
  have hwc : ∀ l < s.nL, (s.w l : ℂ) = ∑ l' ∈ (range n').filter (fun l' => φ l' = l), (w' l' : ℂ) := fun l hl => by
    rw [hw l hl]; push_cast; rfl
  have e1 : (parts s n' φ w').h1 k = s.h1 k := by
    unfold Sys.h1 Fourier.h1
    have := parts_sum s.nL n' φ (fun l => (s.w l : ℂ)) (fun l => (w' l : ℂ)) hφ hwc (fun l => (∑ _t ∈ range 1, s.atf k l) / (1:ℕ))
    simp only [mul_div_assoc]
    exact this
  have e2 : (parts s n' φ w').h2 k = s.h2 k := by
    unfold Sys.h2 Fourier.h2
    have := parts_sum s.nL n' φ s.w w' hφ hw (fun l => (∑ _t ∈ range 1, ‖s.atf k l‖ ^ 2) / (1:ℕ))
    simp only [mul_div_assoc]
    exact this
  have e3 : (parts s n' φ w').decorr th k = s.decorr th k := by
    unfold Sys.decorr Fourier.decorr
    have := parts_sum s.nL n' φ (fun l => (s.w l : ℂ)) (fun l => (w' l : ℂ)) hφ hwc
      (fun l => Complex.exp ((2 * Real.pi * (s.hs l * (k.1 * th.2 + k.2 * th.1)) : ℝ) * Complex.I))
    split_ifs
    · rfl
    · exact this
  have e4 : (parts s n' φ w').aniPsd th c k = s.aniPsd th c k := by
    have := parts_sum s.nL n' φ s.w w' hφ hw (fun l => 2 * (1 - Real.cos (2 * Real.pi * s.hs l * (k.1 * th.2 + k.2 * th.1))))
    have e : ∀ (n : ℕ) (v x : ℕ → ℝ), ∑ l ∈ range n, 2 * v l * (1 - Real.cos (2 * Real.pi * x l * (k.1 * th.2 + k.2 * th.1))) =
        ∑ l ∈ range n, v l * (2 * (1 - Real.cos (2 * Real.pi * x l * (k.1 * th.2 + k.2 * th.1)))) := fun n v x =>
      sum_congr rfl fun l _ => by ring
    unfold Sys.aniPsd anisoPsd
    rw [e, e]
    exact congrArg (fun y => if th.1 = 0 ∧ th.2 = 0 then 0 else msk (s.inside k) * y * s.watm c k) this
  have e5 : (parts s n' φ w').diffRefPsd az c k = s.diffRefPsd az c k := by
    set tt := Real.tan ((s.nRef - s.nGs) * Real.tan (s.zenith * Real.pi / 180)) with htt
    set cc := Real.cos (Complex.arg ⟨k.1, k.2⟩ - az) with hcc
    have := parts_sum s.nL n' φ s.w w' hφ hw (fun l => 2 * (1 - Real.cos (2 * Real.pi * s.hs l * kmod k * tt * cc)))
    have e : ∀ (n : ℕ) (v x : ℕ → ℝ), ∑ l ∈ range n, 2 * v l * (1 - Real.cos (2 * Real.pi * x l * kmod k * tt * cc)) =
        ∑ l ∈ range n, v l * (2 * (1 - Real.cos (2 * Real.pi * x l * kmod k * tt * cc))) := fun n v x =>
      sum_congr rfl fun l _ => by ring
    rw [← e, ← e] at this
    exact congrArg (fun y => if s.zenith = 0 then 0 else msk (s.inside k) * y * s.watm c k) this
  have e6 : ∀ tf q, chunkSum n' (min 5 n') ((parts s n' φ w').avrTerm tf q) = chunkSum s.nL (min 5 s.nL) (s.avrTerm tf q) := by
    intro tf q
    rw [chunkSum_code _ hn, chunkSum_code _ hs]
    exact parts_sum s.nL n' φ (fun l => (s.w l : ℂ)) (fun l => (w' l : ℂ)) hφ hwc
      (fun l => ((npSinc (q.1 * s.vx l * (s.clock / s.rate)) : ℝ) : ℂ) * ((npSinc (q.2 * s.vy l * (s.clock / s.rate)) : ℝ) : ℂ) *
        phasor ((q.1 * s.vx l + q.2 * s.vy l) * (s.clock / s.rate * s.delay)) * tf)
  have e7 : (parts s n' φ w').aliasPsd c k = s.aliasPsd c k := by
    unfold Sys.aliasPsd
    rw [e1]
    have : ∀ rx ry : ℂ, Fourier.aliasPsd (s.inside k) (shifts s.nTimes)
        (fun m => Psf.pistonFilter s.D (kmod (s.shifted k m))) (fun m => s.wmn (s.shifted k m))
        (fun m => s.qfac rx ry (s.shifted k m))
        (fun m => chunkSum n' (min 5 n') ((parts s n' φ w').avrTerm (s.h1 k) (s.shifted k m))) s.r0 =
        Fourier.aliasPsd (s.inside k) (shifts s.nTimes)
        (fun m => Psf.pistonFilter s.D (kmod (s.shifted k m))) (fun m => s.wmn (s.shifted k m))
        (fun m => s.qfac rx ry (s.shifted k m))
        (fun m => chunkSum s.nL (min 5 s.nL) (s.avrTerm (s.h1 k) (s.shifted k m))) s.r0 := fun rx ry => by
      simp only [e6]
    show ((s.rx c k).bind fun rx => (s.ry c k).bind fun ry => some (Fourier.aliasPsd (s.inside k) (shifts s.nTimes)
        (fun m => Psf.pistonFilter s.D (kmod (s.shifted k m))) (fun m => s.wmn (s.shifted k m))
        (fun m => s.qfac rx ry (s.shifted k m))
        (fun m => chunkSum n' (min 5 n') ((parts s n' φ w').avrTerm (s.h1 k) (s.shifted k m))) s.r0)) = _
    simp only [this]
  have e8 : (parts s n' φ w').stPsd th c k = s.stPsd th c k := by
    unfold Sys.stPsd
    rw [e1, e2, e3]; rfl
  have e9 : (parts s n' φ w').lagPsd c k = s.lagPsd c k := by
    unfold Sys.lagPsd
    rw [e1, e2]; rfl
  have e10 : (parts s n' φ w').noisePsd ng c k = s.noisePsd ng c k := rfl
  refine ⟨?_, e9, e4⟩
  unfold Sys.terms
  rw [e7, e8, e5, e10]; rfl

/-- The layer of `demo` in two parts. -/
example (c : Bool) (k : ℝ × ℝ) : (parts demo 2 (fun _ => 0) (fun l => if l = 0 then 0.7 else 0.3)).terms 0.3 (1e-5, 0) 90 c k =
    demo.terms 0.3 (1e-5, 0) 90 c k := by
  refine (layers_in_parts demo 2 _ _ (by norm_num) (fun l _ => by simp [demo]) (fun l hl => ?_) 0.3 (1e-5, 0) 90 c k).1
  have : l = 0 := by have : l < 1 := hl; omega
  subst this
  rw [filter_true_of_mem (by simp), sum_range_succ, sum_range_one]
  norm_num [demo]

/-! ### Science wavelength (C380) -/

/-- The same system computed at a science wavelength `x` times longer: `set_wvl` (atmosphere.py:44-46) rescales `r0`, the noise
is expressed at this wavelength (sensor.py:202-207), and `ao.atm.wvl` is this wavelength (fourierModel.py:274, 462). -/
noncomputable def longer (s : Sys) (x : ℝ) : Sys :=
  { s with r0 := s.r0 * x ^ (1.2 : ℝ), var := s.var / x ^ 2, wvlRatio := s.wvlRatio * x }

theorem power_r0 (x : ℝ) (hx : 0 < x) : (x ^ (1.2 : ℝ)) ^ (-(5:ℝ)/3) = 1 / x ^ 2 := by
  rw [← Real.rpow_mul hx.le, show (1.2 : ℝ) * (-(5:ℝ)/3) = -(2:ℕ) by norm_num, Real.rpow_neg hx.le, Real.rpow_natCast, one_div]

/-- C380 (partial): with the least-squares reconstructor the noise, aliasing, spatio-temporal and fitting errors in nanometres do
not depend on the science wavelength. Missing: the minimum-variance reconstructor (`minimum_variance_wavelength_violation`); the
chromatic terms depend on it as they should. -/
theorem wavelength_free_partial (s : Sys) (x u ng : ℝ) (hx : 0 < x) (h0 : 0 < s.r0) (hm : s.mv = 0) (th : ℝ × ℝ) (c : Bool) (k : ℝ × ℝ) :
    ((longer s x).noisePsd ng c k).map (· * (x * u) ^ 2) = (s.noisePsd ng c k).map (· * u ^ 2) ∧
    ((longer s x).aliasPsd c k).map (· * (x * u) ^ 2) = (s.aliasPsd c k).map (· * u ^ 2) ∧
    ((longer s x).stPsd th c k).map (· * (x * u) ^ 2) = (s.stPsd th c k).map (· * u ^ 2) ∧
    (longer s x).fitPsd k * (x * u) ^ 2 = s.fitPsd k * u ^ 2 := by
  have hr := Real.rpow_pos_of_pos hx (1.2 : ℝ)
  have hp := power_r0 x hx
  have hrec : ∀ (a b : ℂ), recon c a (s.sx k) (s.sy k) ((longer s x).reg k) = recon c a (s.sx k) (s.sy k) (s.reg k) := fun a b => by
    rw [reg_zero s k hm, reg_zero (longer s x) k hm]
  have hrx : (longer s x).rx c k = s.rx c k := hrec (s.sx k) 0
  have hry : (longer s x).ry c k = s.ry c k := hrec (s.sy k) 0
  have hx2 : x ^ 2 ≠ 0 := by positivity
  refine ⟨?_, ?_, ?_, ?_⟩
  · unfold Sys.noisePsd
    rw [hrx, hry]
    cases s.rx c k with
    | none => rfl
    | some rx =>
      cases s.ry c k with
      | none => rfl
      | some ry =>
        simp only [Option.bind_some, Option.map_some]
        congr 1
        show noiseScao (s.inside k) rx ry s.kc (s.piston c k) ng (s.var / x ^ 2) * (x * u) ^ 2 = _
        unfold noiseScao
        field_simp
  · have e : (longer s x).aliasPsd c k = (withR0 s (x ^ (1.2 : ℝ) * s.r0)).aliasPsd c k := by
      unfold Sys.aliasPsd
      rw [hrx, hry, (rx_r0 s _ hm c k).1, (rx_r0 s _ hm c k).2]
      show _ = ((s.rx c k).bind fun rx => (s.ry c k).bind fun ry => some (Fourier.aliasPsd _ _ _ _ _ _ (x ^ (1.2 : ℝ) * s.r0)))
      rw [mul_comm (x ^ (1.2 : ℝ))]; rfl
    rw [e, alias_r0 s _ hr h0 hm, hp, Option.map_map]
    congr 1
    funext y
    simp only [Function.comp]
    field_simp
  · have e : (longer s x).stPsd th c k = (withR0 s (x ^ (1.2 : ℝ) * s.r0)).stPsd th c k := by
      unfold Sys.stPsd
      rw [hrx, hry, (rx_r0 s _ hm c k).1, (rx_r0 s _ hm c k).2]
      have : (longer s x).watm c k = (withR0 s (x ^ (1.2 : ℝ) * s.r0)).watm c k := by
        unfold withR0
        rw [mul_comm (x ^ (1.2 : ℝ))]; rfl
      rw [this]; rfl
    rw [e, st_r0 s _ hr h0 hm, hp, Option.map_map]
    congr 1
    funext y
    simp only [Function.comp]
    field_simp
  · have e : (longer s x).fitPsd k = 1 / x ^ 2 * s.fitPsd k := by
      rw [← hp]
      unfold Sys.fitPsd Freq.fittingPsd longer
      simp only
      rw [mul_comm s.r0, Real.mul_rpow hr.le h0.le]
      split_ifs <;> ring
    rw [e]
    field_simp

/-- C380 (violation): the regularisation of the minimum-variance reconstructor, a ratio of noise to turbulence, is divided by the
square of the science wavelength, although neither the sensor nor its wavelength has changed; so is the reconstructor changed at
every frequency it measures. -/
theorem minimum_variance_wavelength_violation (s : Sys) (x : ℝ) (hx : 0 < x) (h0 : 0 < s.r0) (k : ℝ × ℝ) :
    (longer s x).reg k = s.reg k / x ^ 2 ∧
    (1 < x → 0 < s.reg k → s.sx k ≠ 0 → ∃ a b, s.rx false k = some a ∧ (longer s x).rx false k = some b ∧ ‖a‖ < ‖b‖) := by
  have hr := Real.rpow_pos_of_pos hx (1.2 : ℝ)
  have hreg : (longer s x).reg k = s.reg k / x ^ 2 := by
    have ht : (longer s x).turb k = 1 / x ^ 2 * s.turb k := by
      rw [← power_r0 x hx]
      unfold Sys.turb longer
      simp only
      rw [mul_comm s.r0, Real.mul_rpow hr.le h0.le]; ring
    unfold Sys.reg
    rw [ht]
    show s.mv * (s.var / x ^ 2 / (2 * s.kc) ^ 2) / (1 / x ^ 2 * s.turb k * (s.wvlRatio * x) ^ 2) = _
    have hx2 : x ≠ 0 := hx.ne'
    by_cases h1 : s.turb k * s.wvlRatio ^ 2 = 0
    · rw [h1, show 1 / x ^ 2 * s.turb k * (s.wvlRatio * x) ^ 2 = 1 / x ^ 2 * x ^ 2 * (s.turb k * s.wvlRatio ^ 2) by ring, h1]; simp
    · have h2 : s.turb k ≠ 0 := left_ne_zero_of_mul h1
      have h3 : s.wvlRatio ≠ 0 := by
        have := right_ne_zero_of_mul h1
        exact fun h => this (by rw [h]; simp)
      by_cases h4 : s.kc = 0
      · rw [h4]; simp
      · field_simp
  refine ⟨hreg, fun h1 h2 h3 => ?_⟩
  have hG : ∀ r, gPSD (s.sx k) (s.sy k) r = ‖s.sx k‖ ^ 2 + ‖s.sy k‖ ^ 2 + r := fun r => rfl
  have hp : 0 < ‖s.sx k‖ := norm_pos_iff.2 h3
  have hlt : s.reg k / x ^ 2 < s.reg k := div_lt_self h2 (by nlinarith)
  have hpos : 0 < s.reg k / x ^ 2 := by positivity
  refine ⟨(starRingEnd ℂ) (s.sx k) / gPSD (s.sx k) (s.sy k) (s.reg k),
    (starRingEnd ℂ) (s.sx k) / gPSD (s.sx k) (s.sy k) (s.reg k / x ^ 2), ?_, ?_, ?_⟩
  · unfold Sys.rx recon
    rw [if_neg (by simp), if_neg]
    rw [hG]; positivity
  · show recon false (s.sx k) (s.sx k) (s.sy k) ((longer s x).reg k) = _
    unfold recon
    rw [hreg, if_neg (by simp), if_neg]
    rw [hG]; positivity
  · rw [norm_div, norm_div, RCLike.norm_conj, Complex.norm_real, Complex.norm_real, Real.norm_of_nonneg, Real.norm_of_nonneg, hG, hG]
    · apply div_lt_div_of_pos_left hp (by positivity)
      linarith
    · rw [hG]; positivity
    · rw [hG]; positivity

/-! ### Cases that meet the hypotheses -/

/-- `aniso_diagonal_partial`: a target on the diagonal. -/
example (c : Bool) (k : ℝ × ℝ) : demo.aniPsd (1e-5, 1e-5) c k =
    (if demo.inside k then expectedAniso demo.nL demo.w demo.hs (1e-5, 1e-5) k else 0) * demo.watm c k :=
  aniso_diagonal_partial demo (1e-5, 1e-5) c k (Or.inl rfl)

/-- `turned_partial`: a quarter turn of `windy`, with a target on axis. -/
example (c : Bool) (k : ℝ × ℝ) : (withWind windy fun _ => 90).stPsd (quarter.act (0, 0)) c (quarter.act k) = windy.stPsd (0, 0) c k := by
  have hw : WindTurned quarter windy fun _ => 90 := by
    intro l _
    have e : (90 : ℝ) * Real.pi / 180 = Real.pi / 2 := by ring
    simp only [e, windy, demo]
    simp [quarter, Sym.act]
  exact (turned_partial quarter windy (fun _ => 90) hw 0.3 (0, 0) c k).2.2.2.2.2 (Or.inl rfl)

/-- `wavelength_free_partial`: from 0.5 to 1.65 micrometres. -/
example (c : Bool) (k : ℝ × ℝ) : ((longer demo 3.3).aliasPsd c k).map (· * (3.3 * 500) ^ 2) = (demo.aliasPsd c k).map (· * 500 ^ 2) :=
  (wavelength_free_partial demo 3.3 500 0.3 (by norm_num) (by norm_num [demo]) rfl (0, 0) c k).2.1

/-- `minimum_variance_wavelength_violation`: the same change with the minimum-variance reconstructor. -/
example : ∃ a b, ({ demo with mv := 1, var := 1 } : Sys).rx false (0.5, 0) = some a ∧
    (longer { demo with mv := 1, var := 1 } 3.3).rx false (0.5, 0) = some b ∧ ‖a‖ < ‖b‖ := by
  refine (minimum_variance_wavelength_violation { demo with mv := 1, var := 1 } 3.3 (by norm_num) (by norm_num [demo]) (0.5, 0)).2
    (by norm_num) ?_ ?_
  · unfold Sys.reg Sys.turb
    have h2 := Real.Gamma_pos_of_pos (show (0:ℝ) < 6/5 by norm_num)
    have h3 := Real.Gamma_pos_of_pos (show (0:ℝ) < 11/6 by norm_num)
    have h4 : 0 < demo.r0 := by norm_num [demo]
    have h5 : 0 < demo.L0 := by norm_num [demo]
    have h6 : 0 < demo.wvlRatio := by norm_num [demo]
    have h7 : 0 < demo.kc := by norm_num [demo]
    simp only
    positivity
  · have hs : Seen demo (0.5, 0) := seen_of _ _ (by norm_num [demo]) (by simp; norm_num) (by norm_num [demo, abs_lt])
      (by norm_num [demo])
    intro h0
    have h1 : demo.sx (0.5, 0) = 0 := h0
    have h2 : demo.sy (0.5, 0) = 0 := by simp [Sys.sy, shResponse]
    have h3 := gPSD_eq demo (0.5, 0) 0
    have h4 := seen_pos demo (0.5, 0) hs
    rw [add_zero] at h3
    rw [← h3, h1, h2] at h4
    simp [gPSD] at h4

end P3.SingleStar
