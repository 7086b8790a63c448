import Verif.Props.Focal
import Verif.Props.Deep
import Verif.Props.Metrics
import Verif.Props.Tomography
import Verif.Props.Images
import Verif.Props.Telemetry
import Mathlib.Algebra.Order.Floor.Semifield

/-! The exact conditions under which properties hold that the code does not have in full. -/

/-- C254 (partial): the map is right at every pixel exactly when the covariance of the separations on the map is even along
each axis in the quadrant convention of the code. Missing: other covariances. -/
theorem P3.Focal.map_right_partial (n : ℕ) (hn : 1 ≤ n) (F : ℤ → ℤ → ℝ) (mat : ℕ → ℕ → ℝ) (h : StationaryMatrix n F mat) :
    (∀ r c, r < 2 * n - 1 → c < 2 * n - 1 → matrixToMap n mat r c = F ((c : ℤ) - (n - 1)) ((r : ℤ) - (n - 1))) ↔
    ∀ x y : ℤ, |x| < n → |y| < n → F x y = F (-|x|) |y| := by
  constructor
  · intro hm x y hx hy
    rw [abs_lt] at hx hy
    have e1 : (((x + (n - 1)).toNat : ℕ) : ℤ) = x + (n - 1) := Int.toNat_of_nonneg (by omega)
    have e2 : (((y + (n - 1)).toNat : ℕ) : ℤ) = y + (n - 1) := Int.toNat_of_nonneg (by omega)
    have h1 := hm (y + (n - 1)).toNat (x + (n - 1)).toNat (by omega) (by omega)
    rw [map_stationary n F mat h _ _ (by omega) (by omega), e1, e2] at h1
    have a1 : x + (n - 1) - (n - 1) = x := by ring
    have a2 : y + (n - 1) - (n - 1) = y := by ring
    rw [a1, a2] at h1
    exact h1.symm
  · intro hF r c hr hc
    rw [map_stationary n F mat h r c hr hc]
    refine (hF _ _ ?_ ?_).symm <;> rw [abs_lt] <;> omega

example : ∃ (n : ℕ) (F : ℤ → ℤ → ℝ) (mat : ℕ → ℕ → ℝ), 1 ≤ n ∧ P3.Focal.StationaryMatrix n F mat :=
  ⟨1, fun _ _ => 1, fun _ _ => 1, le_refl _, by intros; unfold P3.Focal.StationaryMatrix; intros; rfl⟩

/-- C259 (partial): when the rounding moves neither bound outwards, every value drawn is within the bounds. Missing: other
roundings. -/
theorem P3.Deep.bounds_kept_partial (rnd : ℝ → ℝ) (δ lo1 hi1 lo2 hi2 : ℝ) (n : ℕ) (u v : ℕ → ℕ → ℝ) (hr : Rounding rnd δ)
    (h1 : lo1 ≤ hi1) (h2 : lo2 ≤ hi2) (hu : ∀ j t, 0 ≤ u j t ∧ u j t < 1) (hv : ∀ j t, 0 ≤ v j t ∧ v j t < 1)
    (a1 : lo1 ≤ rnd lo1) (b1 : rnd hi1 ≤ hi1) (a2 : lo2 ≤ rnd lo2) (b2 : rnd hi2 ≤ hi2) (t : ℕ) (ht : t < n * n) (j : ℕ) :
    ∃ x s, columnValues rnd lo1 hi1 lo2 hi2 n (n * n) u v j t = .ok (x, s) ∧ lo1 ≤ x ∧ x ≤ hi1 ∧ lo2 ≤ s ∧ s ≤ hi2 := by
  obtain ⟨k, hk, l, hl, -, hx⟩ := (columnValues_spec rnd δ lo1 hi1 lo2 hi2 n u v hr h1 h2 hu hv).2 t ht
  obtain ⟨x, s, e, c1, c2, -, -, c3, c4, -, -⟩ := hx j
  have hn : (0 : ℝ) < n := by exact_mod_cast (by omega : 0 < n)
  have low : ∀ lo hi : ℝ, lo ≤ hi → ∀ m : ℕ, lo ≤ lo + (hi - lo) * m / n := by
    intro lo hi h m
    have : 0 ≤ (hi - lo) * m / n := div_nonneg (mul_nonneg (by linarith) (by positivity)) hn.le
    linarith
  have up : ∀ lo hi : ℝ, lo ≤ hi → ∀ m : ℕ, m < n → lo + (hi - lo) * (m + 1 : ℕ) / n ≤ hi := by
    intro lo hi h m hm
    have hm' : ((m + 1 : ℕ) : ℝ) ≤ n := by exact_mod_cast hm
    have : (hi - lo) * (m + 1 : ℕ) / n ≤ hi - lo := by
      rw [div_le_iff₀ hn]
      exact mul_le_mul_of_nonneg_left hm' (by linarith)
    linarith
  exact ⟨x, s, e, a1.trans ((hr.mono (low lo1 hi1 h1 k)).trans c1), c2.trans ((hr.mono (up lo1 hi1 h1 k hk)).trans b1),
    a2.trans ((hr.mono (low lo2 hi2 h2 l)).trans c3), c4.trans ((hr.mono (up lo2 hi2 h2 l hl)).trans b2)⟩

example : P3.Deep.Rounding (fun x => x) 0 := ⟨fun _ _ h => h, by simp⟩

/-- C260 (partial): the number asked for is taken exactly when it is a multiple of the number of sub-folders. Missing: other
numbers. -/
theorem P3.Deep.taken_partial (nTest nPsf nSub : ℕ) (h1 : 1 ≤ nTest) (hs : 0 < nSub) :
    testPerFolder nTest nPsf nSub * nSub = nTest ↔ nSub ∣ nTest := by
  have e : testPerFolder nTest nPsf nSub = nTest / nSub := by
    unfold testPerFolder
    have : ¬ ((nTest : ℝ) < 1) := by
      push Not
      exact_mod_cast h1
    simp only [if_neg this]
    rw [Nat.floor_div_natCast, Nat.floor_natCast]
  rw [e]
  exact ⟨fun h => ⟨nTest / nSub, by rw [mul_comm]; exact h.symm⟩, Nat.div_mul_cancel⟩

example : 1 ≤ 12 ∧ 0 < 4 ∧ 4 ∣ 12 ∧ ¬ 5 ∣ 12 := by decide

/-- C262 (partial): all rows are read only from a file without rows: the last one never is. -/
theorem P3.Deep.readRows_partial {α : Type} (h1 h2 : α) (rows : List α) : readRows (h1 :: h2 :: rows) = rows ↔ rows = [] := by
  rw [readRows_violation]
  constructor
  · intro h
    have := congrArg List.length h
    rw [List.length_dropLast] at this
    exact List.length_eq_zero_iff.mp (by omega)
  · rintro rfl; rfl

/-- C285 (partial): with the default kind resampling succeeds exactly for a square image, or when the size asked for is that
of the image. Missing: rectangular images. -/
theorem P3.Metrics.interpolate_partial (fit : List ℝ → List ℝ → Img ℝ → ℝ → ℝ → ℝ) (im : Img ℝ) (mx my : ℕ) :
    (∃ out, interpolate fit true im mx my = .ok out) ↔ im.nx = im.ny ∨ (im.nx = mx ∧ im.ny = my) := by
  constructor
  · rintro ⟨out, h⟩
    by_contra hn
    push Not at hn
    rw [interpolate_rectangular fit im mx my hn.1 (by tauto)] at h
    simp at h
  · rintro (h | h)
    · unfold interpolate
      by_cases hs : im.nx = mx ∧ im.ny = my
      · exact ⟨_, if_pos hs⟩
      · rw [if_neg hs]
        have l : ∀ n, (axisGrid n).length = n := fun n => by unfold axisGrid; split_ifs <;> simp [linspace]
        simp only [if_true, l, h]
        exact ⟨_, if_pos ⟨trivial, trivial⟩⟩
    · exact ⟨im, by rw [← h.1, ← h.2]; exact interpolate_same fit true im⟩

/-- C295 (partial): with a single variance the noises are uncorrelated exactly for one sensor, or without noise. Missing:
several sensors. -/
theorem P3.Tomo.noiseCov_partial (g : ℕ) (hg : 1 ≤ g) (x : ℝ) :
    ∃ N, noiseCov g [x] = some N ∧ (∀ i, N i i = x) ∧ ((∀ i j, i ≠ j → N i j = 0) ↔ g = 1 ∨ x = 0) := by
  rcases Nat.lt_or_ge g 2 with h | h
  · have h1 : g = 1 := by omega
    subst h1
    refine ⟨Matrix.diagonal fun _ => (x : ℂ), by simp [noiseCov], fun i => ?_, ?_⟩
    · simp
    · simp only [true_or, iff_true]
      intro i j hij
      exact absurd (Subsingleton.elim i j) hij
  · obtain ⟨N, e, h1, -, -⟩ := noiseCov_single g h x
    refine ⟨N, e, fun i => h1 i i, ?_⟩
    constructor
    · intro hd
      right
      have := hd ⟨0, by omega⟩ ⟨1, by omega⟩ (by simp)
      rw [h1] at this
      exact_mod_cast this
    · rintro (h2 | rfl)
      · omega
      · intro i j _; rw [h1]; simp

/-- C296 (partial): the number of rows is restored exactly when the padding is even. Missing: odd paddings. -/
theorem P3.Images.crop_enlarge_partial (im : Img ℝ) (n : ℕ) (hn : 1 ≤ n) (ey : Even ((n - 1) * im.ny)) :
    ∃ out, enlarge im n = .ok out ∧ ((crop out n n).nx = im.nx ↔ Even ((n - 1) * im.nx)) ∧
      (Even ((n - 1) * im.nx) → (crop out n n).Same im) := by
  rcases Nat.even_or_odd ((n - 1) * im.nx) with h | h
  · obtain ⟨out, e, hs⟩ := crop_enlarge im n hn h ey
    exact ⟨out, e, ⟨fun _ => h, fun _ => hs.1⟩, fun _ => hs⟩
  · have hn2 : 2 ≤ n := by
      by_contra hc
      have : n = 1 := by omega
      subst this
      simp at h
    obtain ⟨out, e, hs⟩ := crop_enlarge_shrinks im n hn2 h
    refine ⟨out, e, ⟨fun hc => by omega, fun hc => absurd hc (Nat.not_even_iff_odd.mpr h)⟩, fun hc => absurd hc (Nat.not_even_iff_odd.mpr h)⟩

/-- C311 (partial): a profile is returned exactly when the upper seeing is not above the total one. Missing: measurements
that disagree. -/
theorem P3.Telemetry.combine_partial (seeing alt wvl : ℝ) (cn2 : List ℝ) (h0 : 0 ≤ seeing) (ha : 0 ≤ alt) :
    (∃ g, combine seeing alt cn2 wvl = some (g :: cn2)) ↔ alt ≤ seeing := by
  constructor
  · rintro ⟨g, h⟩
    by_contra hc
    rw [combine_violation seeing alt wvl cn2 h0 (by linarith)] at h
    simp at h
  · intro h
    unfold combine
    have : alt ^ (5 / 3 : ℝ) ≤ seeing ^ (5 / 3 : ℝ) := Real.rpow_le_rpow ha h (by norm_num)
    rw [if_neg (by linarith)]
    exact ⟨_, rfl⟩
