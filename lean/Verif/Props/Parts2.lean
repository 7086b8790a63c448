import Verif.Props.Profile
import Verif.Props.Psf
import Verif.Props.Pupil

namespace P3.Profile

/-- C227 (partial): the value returned with `stddev` for each ring is the standard deviation of the pixels within half a bin of its
radius, but for the first ring. Missing: the first ring. -/
theorem stddevs_partial (px : List Pixel) (bs : ℝ) (hb : 0 < bs) (rr : List ℝ) :
    (stddevs px bs rr).length = rr.length ∧ ∀ i (hi : i < rr.length), 0 < i →
    (stddevs px bs rr)[i]? = some (std ((px.filter fun p =>
      decide (rr[i] - bs / 2 ≤ p.r * bs ∧ p.r * bs < rr[i] + bs / 2)).map Pixel.v)) := by
  refine ⟨by simp [stddevs], fun i hi h0 => ?_⟩
  unfold stddevs
  rw [List.getElem?_mapIdx, List.getElem?_eq_getElem hi]
  simp only [Option.map_some, Option.some.injEq]
  rw [std_rings_partial px bs hb]
  simp [h0.ne']

/-- C224: asking for one output gives the profile of the call with two. -/
theorem one_output (R : Routines) (im : Img ℝ) (a : Args) (r p : List ℝ) (hn : a.nargout = 2)
    (h : radialProfile R im a = .ok (.two r p)) : radialProfile R im { a with nargout := 1 } = .ok (.profile p) := by
  unfold radialProfile at h ⊢
  have hf : superFlag { a with nargout := 1 } = superFlag a := rfl
  rw [hf]
  have hout : ∀ q, superOut a q = .ok (.two r p) → superOut { a with nargout := 1 } q = .ok (.profile p) := by
    intro q hq
    unfold superOut at hq ⊢
    rw [if_neg (by omega)] at hq
    by_cases he : a.ee = true
    · rw [if_pos he] at hq
      cases hs : superEe q.1 q.2 <;> rw [hs] at hq <;> simp [Bind.bind, Except.bind] at hq
    · rw [if_neg he] at hq
      simp only [Except.ok.injEq, Out.two.injEq] at hq
      simp [hq.2]
  have hfin : ∀ sup p0, finish R im a sup p0 = .ok (.two r p) → finish R im { a with nargout := 1 } sup p0 = .ok (.profile p) := by
    intro sup p0 hq
    unfold finish at hq ⊢
    have e1 : Args.px { a with nargout := 1 } im = a.px im := rfl
    have e2 : Args.bs { a with nargout := 1 } = a.bs := rfl
    simp only [e1, e2] at hq ⊢
    by_cases hs : a.stddev = true
    · rw [if_pos hs] at hq; simp at hq
    rw [if_neg hs] at hq ⊢
    split at hq
    · cases hi : interpolate1d R (crop a.maxR (radii (rMin (a.px im)) a.bs p0.length) p0).1
        (crop a.maxR (radii (rMin (a.px im)) a.bs p0.length) p0).2 a.ps _ with
      | error e => rw [hi] at hq; simp [Bind.bind, Except.bind] at hq
      | ok q => rw [hi] at hq; exact hout q hq
    · rw [if_neg (by omega)] at hq
      simp only [if_true]
      split_ifs at hq with he
      · simp at hq
      · simp only [Except.ok.injEq, Out.two.injEq] at hq
        simp [hq.2]
  cases hsf : superFlag a with
  | error e => rw [hsf] at h; simp [Bind.bind, Except.bind] at h
  | ok sup =>
    rw [hsf] at h
    simp only [Bind.bind, Except.bind] at h ⊢
    split at h
    · cases hp : a.polar with
      | none => rw [hp] at h; simp at h
      | some g =>
        rw [hp] at h
        simp only at h ⊢
        cases hi : interpolate2d R im g.1 g.2 a.ps _ with
        | error e => rw [hi] at h; simp at h
        | ok q => rw [hi] at h; exact hout q h
    · have e3 : Args.sorted R { a with nargout := 1 } im = a.sorted R im := rfl
      rw [e3]
      cases hd : discrete R.round (a.sorted R im) with
      | error e => rw [hd] at h; simp at h
      | ok p0 => rw [hd] at h; exact hfin _ _ h

end P3.Profile

/-- C75 (partial): for a motion along one direction, with amplitudes `a` and `b` along the axes, the exponent for one
wavelength is the square of the motion along the frequency, up to the factor of the code. Missing: that factor, see
`jitter_disagree`. -/
theorem P3.Psf.jitter3_line_partial (umax a b u v : ℝ) :
    jitter3 umax (a ^ 2) (b ^ 2) (a * b) u v = umax ^ 2 * (2 * Real.log 2) * (a * u + b * v) ^ 2 := by
  unfold jitter3
  have h : Real.sqrt (2 * Real.log 2) ^ 2 = 2 * Real.log 2 :=
    Real.sq_sqrt (by have := Real.log_pos (by norm_num : (1:ℝ) < 2); linarith)
  have : (umax / 2 * (2 * Real.sqrt (2 * Real.log 2))) ^ 2 = umax ^ 2 * (2 * Real.log 2) := by
    rw [mul_pow, mul_pow, h]; ring
  rw [this]; ring

/-- C88 (partial): trimming keeps the pixels between the limits, moved to the corner, and nothing else. Missing: the last
lit row and column, and the place of the segments. -/
theorem P3.Pupil.trim_partial (p : Pup) (z1 z2 i j : ℕ) :
    (removeZeroBorder p z1 z2).N = z2 - z1 ∧
    (i < z2 - z1 → j < z2 - z1 → (removeZeroBorder p z1 z2).mat i j = p.mat (i + z1) (j + z1)) ∧
    (¬ (i < z2 - z1 ∧ j < z2 - z1) → (removeZeroBorder p z1 z2).mat i j = 0) := by
  refine ⟨rfl, fun hi hj => ?_, fun h => ?_⟩
  · simp [removeZeroBorder, hi, hj]
  · simp only [removeZeroBorder, if_neg h]

/-- C291 (partial): a segment with sides has the reflectivity as amplitude and the phase error as phase wherever its shape is
lit, and is dark elsewhere. Missing: circular segments, which cannot be made. -/
theorem P3.Pupil.segment_partial (nSides : ℕ) (hn : nSides ≠ 0) (shape : Arr) (refl phase : ℝ) (hr : 0 ≤ refl) :
    ∃ m, makeSegment nSides shape refl phase = .ok (m, shape) ∧ ∀ i j,
      (shape i j = 1 → ‖m i j‖ = refl ∧ m i j = refl * (Real.cos phase + Real.sin phase * Complex.I)) ∧
      (shape i j = 0 → m i j = 0) := by
  refine ⟨_, by rw [makeSegment, if_neg hn], fun i j => ⟨fun h => ?_, fun h => by simp [h]⟩⟩
  have e : Complex.exp (Complex.I * phase) = Real.cos phase + Real.sin phase * Complex.I := by
    rw [mul_comm, Complex.exp_mul_I]; push_cast; rfl
  refine ⟨?_, by rw [h, e]; ring⟩
  rw [h, one_mul, norm_mul, mul_comm Complex.I, Complex.norm_exp_ofReal_mul_I, mul_one, Complex.norm_real, Real.norm_of_nonneg hr]

example : ∃ shape : P3.Pupil.Arr, shape 0 0 = 1 ∧ shape 1 0 = 0 := ⟨fun i _ => if i = 0 then 1 else 0, by simp, by simp⟩
