import Verif.Model.Focal
import Mathlib.Analysis.SpecialFunctions.Integrals.Basic
import Mathlib.Analysis.InnerProductSpace.Basic
import Mathlib.Algebra.Order.BigOperators.Group.List
import Mathlib.Tactic.LinearCombination
import Mathlib.Tactic.Module
import Mathlib.Tactic.Ring
import Mathlib.Tactic.FieldSimp
import Mathlib.Analysis.InnerProductSpace.PiL2
/-
Properties of the focal-angular anisoplanatism, of covariance maps and of the anisokinetism.
-/
namespace P3.Focal
open Finset

/-! ### Spec: a stationary random field -/

/-- A stationary field: the value `φ x` at each point is a vector of a real inner product space (random variables with
the covariance as inner product), and the covariance of two values depends on the separation only. -/
def Stationary {H : Type} [NormedAddCommGroup H] [InnerProductSpace ℝ H] (φ : Pt → H) (B : Pt → ℝ) : Prop :=
  ∀ x y, inner ℝ (φ x) (φ y) = B (x - y)

/-- The phase seen from the source minus the one seen from the guide star at the height `zl/g`, at the pupil point `P`. -/
def diffPhase {H : Type} [NormedAddCommGroup H] [InnerProductSpace ℝ H] (φ : Pt → H) (g zl : ℝ) (th P : Pt) : H :=
  φ (P - zl • th) - φ ((1 - g) • P)

theorem Stationary.even {H : Type} [NormedAddCommGroup H] [InnerProductSpace ℝ H] {φ : Pt → H} {B : Pt → ℝ}
    (h : Stationary φ B) (x : Pt) : B (-x) = B x := by
  have h1 := h 0 x
  have h2 := h x 0
  rw [real_inner_comm] at h1
  rw [zero_sub] at h1
  rw [sub_zero] at h2
  rw [← h1, ← h2]

theorem ialpha_even (K : ℝ → ℝ) (f0 : ℝ) (p : Pt) : ialpha K f0 (-p) = ialpha K f0 p := by
  unfold ialpha
  simp

theorem ialpha_zero (K : ℝ → ℝ) (f0 : ℝ) : ialpha K f0 0 = 3 / 5 := by
  unfold ialpha mcDonald
  simp

/-! ### C183: the focal-angular function is a variance -/

/-- C309 (exact form): for each pair of pupil points the term of the code is half the variance of the difference between
the two points of the phase of the source minus that of the star, plus an error that is odd in the second point. -/
theorem focal_exact_partial {H : Type} [NormedAddCommGroup H] [InnerProductSpace ℝ H] (φ : Pt → H) (I : Pt → ℝ)
    (hs : Stationary φ I) (h0 : I 0 = 3 / 5) (g zl : ℝ) (th P Q : Pt) :
    pairTerm I g zl th P (P - Q) = ‖diffPhase φ g zl th P - diffPhase φ g zl th Q‖ ^ 2 / 2 +
      (I (g • Q - zl • th) - I (g • Q + zl • th)) := by
  have ev := hs.even
  have e5 : I (g • (P - Q - P) - zl • th) = I (g • Q + zl • th) := by
    rw [show g • (P - Q - P) - zl • th = -(g • Q + zl • th) by module, ev]
  have key : ‖diffPhase φ g zl th P - diffPhase φ g zl th Q‖ ^ 2 = 2 * (2 * (3 / 5) - I (P - Q) - I ((1 - g) • (P - Q)) +
      I (P - Q - g • P + zl • th) - I (g • P - zl • th) - I (g • Q - zl • th) + I ((1 - g) • (P - Q) + g • P - zl • th)) := by
    rw [← real_inner_self_eq_norm_sq]
    unfold diffPhase
    simp only [inner_sub_left, inner_sub_right]
    simp only [hs _ _]
    have a1 : I (P - zl • th - (P - zl • th)) = 3 / 5 := by rw [sub_self, h0]
    have a2 : I ((1 - g) • P - (1 - g) • P) = 3 / 5 := by rw [sub_self, h0]
    have a3 : I (Q - zl • th - (Q - zl • th)) = 3 / 5 := by rw [sub_self, h0]
    have a4 : I ((1 - g) • Q - (1 - g) • Q) = 3 / 5 := by rw [sub_self, h0]
    have b1 : I (P - zl • th - (1 - g) • P) = I (g • P - zl • th) := by congr 1; module
    have b2 : I ((1 - g) • P - (P - zl • th)) = I (g • P - zl • th) := by
      rw [show (1 - g) • P - (P - zl • th) = -(g • P - zl • th) by module, ev]
    have b3 : I (Q - zl • th - (1 - g) • Q) = I (g • Q - zl • th) := by congr 1; module
    have b4 : I ((1 - g) • Q - (Q - zl • th)) = I (g • Q - zl • th) := by
      rw [show (1 - g) • Q - (Q - zl • th) = -(g • Q - zl • th) by module, ev]
    have c1 : I (P - zl • th - (Q - zl • th)) = I (P - Q) := by congr 1; module
    have c2 : I (Q - zl • th - (P - zl • th)) = I (P - Q) := by
      rw [show Q - zl • th - (P - zl • th) = -(P - Q) by module, ev]
    have c3 : I ((1 - g) • P - (1 - g) • Q) = I ((1 - g) • (P - Q)) := by congr 1; module
    have c4 : I ((1 - g) • Q - (1 - g) • P) = I ((1 - g) • (P - Q)) := by
      rw [show (1 - g) • Q - (1 - g) • P = -((1 - g) • (P - Q)) by module, ev]
    have d1 : I (P - zl • th - (1 - g) • Q) = I ((1 - g) • (P - Q) + g • P - zl • th) := by congr 1; module
    have d2 : I ((1 - g) • Q - (P - zl • th)) = I ((1 - g) • (P - Q) + g • P - zl • th) := by
      rw [show (1 - g) • Q - (P - zl • th) = -((1 - g) • (P - Q) + g • P - zl • th) by module, ev]
    have d3 : I (Q - zl • th - (1 - g) • P) = I (P - Q - g • P + zl • th) := by
      rw [show Q - zl • th - (1 - g) • P = -(P - Q - g • P + zl • th) by module, ev]
    have d4 : I ((1 - g) • P - (Q - zl • th)) = I (P - Q - g • P + zl • th) := by congr 1; module
    rw [a1, a2, a3, a4, b1, b2, b3, b4, c1, c2, c3, c4, d1, d2, d3, d4]
    ring
  rw [key]
  unfold pairTerm
  rw [e5]
  ring

/-- C183: for a source in the direction of the star, or a star at infinity, the term is half that variance.
Missing: other sources, see `focal_violation`. -/
theorem focal_onaxis {H : Type} [NormedAddCommGroup H] [InnerProductSpace ℝ H] (φ : Pt → H) (I : Pt → ℝ)
    (hs : Stationary φ I) (h0 : I 0 = 3 / 5) (g zl : ℝ) (th P Q : Pt) (h : th = 0 ∨ g = 0) :
    pairTerm I g zl th P (P - Q) = ‖diffPhase φ g zl th P - diffPhase φ g zl th Q‖ ^ 2 / 2 ∧
    0 ≤ pairTerm I g zl th P (P - Q) ∧ pairTerm I g zl th P 0 = 0 := by
  have main : ∀ Q, pairTerm I g zl th P (P - Q) = ‖diffPhase φ g zl th P - diffPhase φ g zl th Q‖ ^ 2 / 2 := by
    intro Q
    rw [focal_exact_partial φ I hs h0]
    have : I (g • Q - zl • th) = I (g • Q + zl • th) := by
      rcases h with rfl | rfl
      · simp
      · rw [zero_smul, zero_sub, zero_add, hs.even]
    rw [this]; ring
  refine ⟨main Q, by rw [main Q]; positivity, ?_⟩
  have := main P
  rw [sub_self] at this
  rw [this]; simp

/-- C309 (violation): at zero separation the term is not zero, and it is negative where the covariance increases from
`gP - zl θ` to `gP + zl θ`. -/
theorem focal_violation (I : Pt → ℝ) (ev : ∀ x, I (-x) = I x) (h0 : I 0 = 3 / 5) (g zl : ℝ) (th P : Pt) :
    pairTerm I g zl th P 0 = I (g • P - zl • th) - I (g • P + zl • th) ∧
    (I (g • P - zl • th) < I (g • P + zl • th) → pairTerm I g zl th P 0 < 0) := by
  have e : pairTerm I g zl th P 0 = I (g • P - zl • th) - I (g • P + zl • th) := by
    unfold pairTerm
    rw [smul_zero, h0, show (0:Pt) - g • P + zl • th = -(g • P - zl • th) by module, ev,
      show g • ((0:Pt) - P) - zl • th = -(g • P + zl • th) by module, ev,
      show (0:Pt) + g • P - zl • th = g • P - zl • th by module]
    ring
  exact ⟨e, fun h => by rw [e]; linarith⟩

/-- C183: a star at infinity gives the angular function ... -/
theorem focal_infinity (I : Pt → ℝ) (ev : ∀ x, I (-x) = I x) (zl : ℝ) (th P rho : Pt) (hz : zl ≠ 0) (ht : th ≠ 0) :
    pairTerm I 0 zl th P rho = angularTerm I zl th rho := by
  unfold pairTerm angularTerm
  rw [if_pos ⟨hz, by
    by_contra hc
    push Not at hc
    exact ht (Prod.ext hc.1 hc.2)⟩]
  simp only [zero_smul, sub_zero, one_smul, zero_sub, add_zero]
  rw [ev]
  ring

/-- C309 (violation): ... and so the focal-angular function of an off-axis source (the sum of both, line 174) counts the
angular part twice. -/
theorem focal_twice (I : Pt → ℝ) (ev : ∀ x, I (-x) = I x) (zl : ℝ) (th P rho : Pt) (hz : zl ≠ 0) (ht : th ≠ 0) :
    pairTerm I 0 zl th P rho + angularTerm I zl th rho = 2 * angularTerm I zl th rho := by
  rw [focal_infinity I ev zl th P rho hz ht]; ring

/-- The entries of the matrix are the terms of the pairs of samples `(x_b, y_a)`, `(x_a, y_b)`. -/
theorem focalMatrix_pair (I : Pt → ℝ) (g zl : ℝ) (th : Pt) (u : ℕ → ℝ) (n a b : ℕ) :
    focalMatrix I g zl th u n a b = pairTerm I g zl th (u (b / n), u (a % n)) ((u (b / n), u (a % n)) - (u (a / n), u (b % n))) := rfl

/-! ### C184: maps of covariance matrices -/

theorem sameBase_iff (n jy jx a b : ℕ) : sameBase n jy jx a b = true ↔
    ((a % n : ℕ) : ℤ) - (b % n : ℕ) = (jy : ℤ) - n + 1 ∧ ((b / n : ℕ) : ℤ) - (a / n : ℕ) = (jx : ℤ) - n + 1 := by
  simp [sameBase]

theorem count_pos (n jy jx : ℕ) (hy : jy < n) (hx : jx < n) :
    0 < ∑ a ∈ range (n ^ 2), ∑ b ∈ range (n ^ 2), if sameBase n jy jx a b then (1:ℝ) else 0 := by
  have hn : 0 < n := by omega
  have key : (1:ℝ) ≤ ∑ a ∈ range (n ^ 2), ∑ b ∈ range (n ^ 2), if sameBase n jy jx a b then (1:ℝ) else 0 := by
    have nn : ∀ a b, (0:ℝ) ≤ if sameBase n jy jx a b then (1:ℝ) else 0 := by intro a b; split_ifs <;> norm_num
    have ha : (n - 1 - jx) * n ∈ range (n ^ 2) := by
      rw [mem_range, pow_two]; exact Nat.mul_lt_mul_of_pos_right (by omega) hn
    have hb : n - 1 - jy ∈ range (n ^ 2) := by
      rw [mem_range, pow_two]
      calc n - 1 - jy < n * 1 := by omega
        _ ≤ n * n := Nat.mul_le_mul_left _ hn
    refine le_trans ?_ (single_le_sum (f := fun a => ∑ b ∈ range (n ^ 2), if sameBase n jy jx a b then (1:ℝ) else 0)
      (fun a _ => sum_nonneg fun b _ => nn a b) ha)
    refine le_trans ?_ (single_le_sum (f := fun b => if sameBase n jy jx ((n - 1 - jx) * n) b then (1:ℝ) else 0)
      (fun b _ => nn _ b) hb)
    have : sameBase n jy jx ((n - 1 - jx) * n) (n - 1 - jy) = true := by
      rw [sameBase_iff]
      have e1 : (n - 1 - jx) * n % n = 0 := Nat.mul_mod_left _ _
      have e2 : (n - 1 - jx) * n / n = n - 1 - jx := Nat.mul_div_cancel _ hn
      have e3 : (n - 1 - jy) % n = n - 1 - jy := Nat.mod_eq_of_lt (by omega)
      have e4 : (n - 1 - jy) / n = 0 := Nat.div_eq_of_lt (by omega)
      rw [e1, e2, e3, e4]
      omega
    show (1:ℝ) ≤ if sameBase n jy jx ((n - 1 - jx) * n) (n - 1 - jy) then (1:ℝ) else 0
    rw [if_pos this]
  linarith

/-- C184: each value of the map is a mean of entries of the matrix with one separation: it lies between their
bounds. -/
theorem quadrant_bounds (n : ℕ) (mat : ℕ → ℕ → ℝ) (jy jx : ℕ) (hy : jy < n) (hx : jx < n) (lo hi : ℝ)
    (h : ∀ a < n ^ 2, ∀ b < n ^ 2, ((a % n : ℕ) : ℤ) - (b % n : ℕ) = (jy : ℤ) - n + 1 →
      ((b / n : ℕ) : ℤ) - (a / n : ℕ) = (jx : ℤ) - n + 1 → lo ≤ mat a b ∧ mat a b ≤ hi) :
    lo ≤ quadrant n mat jy jx ∧ quadrant n mat jy jx ≤ hi := by
  have cp := count_pos n jy jx hy hx
  unfold quadrant
  constructor
  · rw [le_div_iff₀ cp, mul_sum]
    refine sum_le_sum fun a ha => ?_
    rw [mul_sum]
    refine sum_le_sum fun b hb => ?_
    split_ifs with hs
    · have := (sameBase_iff _ _ _ _ _).1 hs
      rw [mul_one]
      exact (h a (mem_range.1 ha) b (mem_range.1 hb) this.1 this.2).1
    · rw [mul_zero]
  · rw [div_le_iff₀ cp, mul_sum]
    refine sum_le_sum fun a ha => ?_
    rw [mul_sum]
    refine sum_le_sum fun b hb => ?_
    split_ifs with hs
    · have := (sameBase_iff _ _ _ _ _).1 hs
      rw [mul_one]
      exact (h a (mem_range.1 ha) b (mem_range.1 hb) this.1 this.2).2
    · rw [mul_zero]

theorem mirror_lt (n r : ℕ) (hn : 0 < n) : mirror n r < n := by
  unfold mirror; split_ifs <;> omega

theorem mirror_abs (n r : ℕ) (hr : r < 2 * n - 1) : ((mirror n r : ℕ) : ℤ) - n + 1 = -|(r : ℤ) - (n - 1)| := by
  unfold mirror
  split_ifs with h
  · rw [abs_of_nonpos (by omega)]; omega
  · rw [abs_of_nonneg (by omega)]; omega

/-- Spec: a covariance matrix of samples of a stationary process on an `n × n` grid; the sample `a` is in the column
`a / n` and the row `a % n`. -/
def StationaryMatrix (n : ℕ) (F : ℤ → ℤ → ℝ) (mat : ℕ → ℕ → ℝ) : Prop :=
  ∀ a < n ^ 2, ∀ b < n ^ 2, mat a b = F (((b / n : ℕ) : ℤ) - (a / n : ℕ)) (((b % n : ℕ) : ℤ) - (a % n : ℕ))

/-- C184 (exact form): the map of a stationary covariance. -/
theorem map_stationary (n : ℕ) (F : ℤ → ℤ → ℝ) (mat : ℕ → ℕ → ℝ) (h : StationaryMatrix n F mat) (r c : ℕ)
    (hr : r < 2 * n - 1) (hc : c < 2 * n - 1) :
    matrixToMap n mat r c = F (-|(c : ℤ) - (n - 1)|) |(r : ℤ) - (n - 1)| := by
  have hn : 0 < n := by omega
  unfold matrixToMap
  have := quadrant_bounds n mat (mirror n r) (mirror n c) (mirror_lt n r hn) (mirror_lt n c hn)
    (F (-|(c : ℤ) - (n - 1)|) |(r : ℤ) - (n - 1)|) (F (-|(c : ℤ) - (n - 1)|) |(r : ℤ) - (n - 1)|) (by
      intro a ha b hb h1 h2
      rw [mirror_abs n r hr] at h1
      rw [mirror_abs n c hc] at h2
      have h1' : ((b % n : ℕ) : ℤ) - (a % n : ℕ) = |(r : ℤ) - (n - 1)| := by linarith
      rw [h a ha b hb, h2, h1']
      exact ⟨le_rfl, le_rfl⟩)
  exact le_antisymm this.2 this.1

/-- C184: a covariance that is symmetric in each axis gives its map. -/
theorem map_even (n : ℕ) (F : ℤ → ℤ → ℝ) (mat : ℕ → ℕ → ℝ) (h : StationaryMatrix n F mat)
    (hx : ∀ x y, F (-x) y = F x y) (hy : ∀ x y, F x (-y) = F x y) (r c : ℕ) (hr : r < 2 * n - 1) (hc : c < 2 * n - 1) :
    matrixToMap n mat r c = F ((c : ℤ) - (n - 1)) ((r : ℤ) - (n - 1)) := by
  rw [map_stationary n F mat h r c hr hc, hx]
  rcases abs_choice ((c : ℤ) - (n - 1)) with e | e <;> rcases abs_choice ((r : ℤ) - (n - 1)) with e' | e' <;>
    rw [e, e'] <;> simp only [hx, hy]

/-- C254 (violation): otherwise no choice of the signs of the two axes makes it the map of the covariance. -/
theorem map_violation (n : ℕ) (hn : 2 ≤ n) (F : ℤ → ℤ → ℝ) (mat : ℕ → ℕ → ℝ) (h : StationaryMatrix n F mat)
    (ev : ∀ x y, F (-x) (-y) = F x y) (hF : F 1 1 ≠ F (-1) 1) (s t : ℤ) (hs : s = 1 ∨ s = -1) (ht : t = 1 ∨ t = -1) :
    ¬ ∀ r c, r < 2 * n - 1 → c < 2 * n - 1 →
      matrixToMap n mat r c = F (s * ((c : ℤ) - (n - 1))) (t * ((r : ℤ) - (n - 1))) := by
  intro hall
  have h1 := hall n n (by omega) (by omega)
  have h2 := hall n (n - 2) (by omega) (by omega)
  rw [map_stationary n F mat h _ _ (by omega) (by omega)] at h1 h2
  rw [show ((n : ℕ) : ℤ) - (n - 1) = 1 by ring] at h1 h2
  rw [show (((n - 2 : ℕ)) : ℤ) - (n - 1) = -1 by omega] at h2
  norm_num at h1 h2
  have e1 : F 1 (-1) = F (-1) 1 := by rw [← ev]; norm_num
  have e2 : F (-1) (-1) = F 1 1 := ev 1 1
  rcases hs with rfl | rfl <;> rcases ht with rfl | rfl <;> (try simp only [neg_neg] at h1 h2) <;>
    first | exact hF (h1.symm) | exact hF (h2.symm) | (rw [e2] at h1; exact hF h1.symm) | (rw [e2] at h2; exact hF h2.symm)

/-- C184: the value at the centre is the mean variance. -/
theorem map_trace (n : ℕ) (hn : 0 < n) (mat : ℕ → ℕ → ℝ) :
    matrixToMap n mat (n - 1) (n - 1) = (∑ a ∈ range (n ^ 2), mat a a) / (n : ℝ) ^ 2 := by
  have hm : mirror n (n - 1) = n - 1 := by unfold mirror; rw [if_pos (by omega)]
  have hs : ∀ a b, sameBase n (n - 1) (n - 1) a b = true ↔ a = b := by
    intro a b
    rw [sameBase_iff]
    constructor
    · rintro ⟨h1, h2⟩
      have h1' : a % n = b % n := by omega
      have h2' : a / n = b / n := by omega
      rw [← Nat.div_add_mod a n, ← Nat.div_add_mod b n, h1', h2']
    · rintro rfl; omega
  unfold matrixToMap quadrant
  rw [hm]
  have e1 : ∀ (f : ℕ → ℕ → ℝ), ∑ a ∈ range (n ^ 2), ∑ b ∈ range (n ^ 2),
      (if sameBase n (n - 1) (n - 1) a b then f a b else 0) = ∑ a ∈ range (n ^ 2), f a a := by
    intro f
    refine sum_congr rfl fun a ha => ?_
    rw [sum_eq_single a]
    · rw [if_pos ((hs a a).2 rfl)]
    · intro b _ hb; rw [if_neg]; intro hc; exact hb ((hs a b).1 hc).symm
    · intro hc; exact absurd ha hc
  rw [e1 mat, e1 (fun _ _ => 1)]
  simp

/-- C183: the samples of the map are a fraction `1/n` of the extent apart, and one of them is at zero. -/
theorem coord_spec (umax : ℝ) (n : ℕ) : coord umax n (n / 2) = 0 ∧ ∀ k, coord umax n (k + 1) - coord umax n k = umax / n := by
  unfold coord
  refine ⟨by simp, fun k => ?_⟩
  push_cast
  ring

example : coord 6 3 0 = -2 ∧ coord 6 3 2 = 2 := by
  obtain ⟨h, h'⟩ := coord_spec 6 3
  have a := h' 0
  have b := h' 1
  norm_num at h a b ⊢
  constructor <;> linarith

/-- C183: on a symmetric grid (an odd number of samples) the map of the code vanishes at zero separation: the errors
cancel in the mean. -/
theorem map_center (I : Pt → ℝ) (ev : ∀ x, I (-x) = I x) (h0 : I 0 = 3 / 5) (g zl umax : ℝ) (th : Pt) (m : ℕ) :
    matrixToMap (2 * m + 1) (focalMatrix I g zl th (coord umax (2 * m + 1)) (2 * m + 1)) (2 * m) (2 * m) = 0 := by
  set n := 2 * m + 1 with hn
  have hn0 : 0 < n := by omega
  have e := map_trace n hn0 (focalMatrix I g zl th (coord umax n) n)
  rw [show n - 1 = 2 * m by omega] at e
  rw [e]
  have sym : ∀ k < n, coord umax n (n - 1 - k) = -coord umax n k := by
    intro k hk
    unfold coord
    have h1 : n / 2 = m := by omega
    have h2 : ((n - 1 - k : ℕ) : ℝ) = 2 * (m : ℝ) - k := by
      rw [show n - 1 - k = 2 * m - k by omega, Nat.cast_sub (by omega)]; push_cast; ring
    rw [h1, h2]; ring
  set G : ℕ → ℝ := fun a => I (g • (coord umax n (a / n), coord umax n (a % n)) - zl • th) with hG
  have term : ∀ a ∈ range (n ^ 2), focalMatrix I g zl th (coord umax n) n a a = G a - G (n ^ 2 - 1 - a) := by
    intro a ha
    rw [mem_range] at ha
    have q1 : a / n < n := by rw [Nat.div_lt_iff_lt_mul hn0, ← pow_two]; exact ha
    have q2 : a % n < n := Nat.mod_lt _ hn0
    have dm := Nat.div_add_mod a n
    have eq : n ^ 2 - 1 - a = (n - 1 - a % n) + n * (n - 1 - a / n) := by
      obtain ⟨q, hq⟩ : ∃ q, n = a / n + 1 + q := ⟨n - 1 - a / n, by omega⟩
      obtain ⟨p, hp⟩ : ∃ p, n = a % n + 1 + p := ⟨n - 1 - a % n, by omega⟩
      have hq' : n - 1 - a / n = q := by omega
      have hp' : n - 1 - a % n = p := by omega
      rw [hq', hp']
      have : n ^ 2 = a + 1 + (p + n * q) := by
        calc n ^ 2 = n * n := pow_two n
          _ = n * (a / n + 1 + q) := by rw [← hq]
          _ = n * (a / n) + n + n * q := by ring
          _ = n * (a / n) + (a % n + 1 + p) + n * q := by rw [← hp]
          _ = (n * (a / n) + a % n) + 1 + (p + n * q) := by ring
          _ = _ := by rw [dm]
      omega
    have f1 : (n ^ 2 - 1 - a) / n = n - 1 - a / n := by
      rw [eq, Nat.add_mul_div_left _ _ hn0, Nat.div_eq_of_lt (by omega), zero_add]
    have f2 : (n ^ 2 - 1 - a) % n = n - 1 - a % n := by
      rw [eq, Nat.add_mul_mod_self_left, Nat.mod_eq_of_lt (by omega)]
    have v := (focal_violation I ev h0 g zl th (coord umax n (a / n), coord umax n (a % n))).1
    rw [focalMatrix_pair, sub_self, v, hG]
    simp only [f1, f2]
    rw [sym _ q1, sym _ q2]
    congr 1
    rw [← ev]
    congr 1
    ext <;> simp <;> ring
  rw [sum_congr rfl term, sum_sub_distrib, sum_range_reflect G (n ^ 2), sub_self, zero_div]

/-! ### C185: the anisokinetism is a covariance -/

theorem iTheta_22 (x a : ℝ) : iTheta 2 2 x a = Real.pi * (j0 x - j2 x * Real.cos (2 * a)) := by
  unfold iTheta gAngle hAngle
  norm_num; ring
theorem iTheta_33 (x a : ℝ) : iTheta 3 3 x a = Real.pi * (j0 x + j2 x * Real.cos (2 * a)) := by
  have : iTheta 3 3 x a = -Real.pi * (j2 x * Real.cos (2 * a - Real.pi) - j0 x * Real.cos 0) := by
    unfold iTheta gAngle hAngle; congr 5 <;> ring
  rw [this, Real.cos_sub_pi, Real.cos_zero]; ring
theorem iTheta_23 (x a : ℝ) : iTheta 2 3 x a = -Real.pi * (j2 x * Real.sin (2 * a)) := by
  have : iTheta 2 3 x a = -Real.pi * (j2 x * Real.cos (2 * a - Real.pi / 2) - j0 x * Real.cos (-(Real.pi / 2))) := by
    unfold iTheta gAngle hAngle; congr 5 <;> ring
  rw [this, Real.cos_sub_pi_div_two, Real.cos_neg, Real.cos_pi_div_two]; ring
theorem iTheta_symm (i j : ℕ) (x a : ℝ) : iTheta j i x a = iTheta i j x a := by
  have h1 : gAngle i j = gAngle j i := by unfold gAngle; ring
  have h2 : hAngle i j = -hAngle j i := by unfold hAngle; ring
  unfold iTheta
  rw [h1, h2, Real.cos_neg]

theorem j0_zero : j0 0 = 1 := by
  unfold j0; simp [Real.pi_ne_zero]
theorem int_cos2 : ∫ t in (0:ℝ)..Real.pi, Real.cos (2 * t) = 0 := by
  rw [intervalIntegral.integral_comp_mul_left (fun t => Real.cos t) (by norm_num : (2:ℝ) ≠ 0)]
  simp
theorem j2_zero : j2 0 = 0 := by
  unfold j2
  simp only [zero_mul, Real.cos_zero, one_mul]
  rw [int_cos2, mul_zero]

/-- The bound that makes the covariance positive. -/
theorem bessel_bound (x : ℝ) (e : ℝ) (he : |e| ≤ 1) : 0 ≤ 1 - j0 x + e * j2 x := by
  have hpi := Real.pi_pos
  have c1 : Continuous fun t : ℝ => Real.cos (x * Real.cos t) := by fun_prop
  have c2 : Continuous fun t : ℝ => Real.cos (x * Real.cos t) * Real.cos (2 * t) := by fun_prop
  have c3 : Continuous fun t : ℝ => Real.cos (2 * t) := by fun_prop
  have key : 1 - j0 x + e * j2 x =
      (1 / Real.pi) * ∫ t in (0:ℝ)..Real.pi, (1 - Real.cos (x * Real.cos t)) * (1 + e * Real.cos (2 * t)) := by
    have e1 : (∫ t in (0:ℝ)..Real.pi, (1 - Real.cos (x * Real.cos t)) * (1 + e * Real.cos (2 * t))) =
        (∫ t in (0:ℝ)..Real.pi, (1:ℝ)) + e * (∫ t in (0:ℝ)..Real.pi, Real.cos (2 * t)) -
          (∫ t in (0:ℝ)..Real.pi, Real.cos (x * Real.cos t)) -
          e * ∫ t in (0:ℝ)..Real.pi, Real.cos (x * Real.cos t) * Real.cos (2 * t) := by
      rw [← intervalIntegral.integral_const_mul, ← intervalIntegral.integral_const_mul,
        ← intervalIntegral.integral_add, ← intervalIntegral.integral_sub, ← intervalIntegral.integral_sub]
      · congr 1; ext t; ring
      all_goals (apply Continuous.intervalIntegrable; fun_prop)
    rw [e1, int_cos2, intervalIntegral.integral_const]
    unfold j0 j2
    simp only [smul_eq_mul, sub_zero, mul_one, mul_zero, add_zero]
    field_simp
    ring
  rw [key]
  refine mul_nonneg (by positivity) (intervalIntegral.integral_nonneg hpi.le fun t _ => mul_nonneg ?_ ?_)
  · linarith [Real.cos_le_one (x * Real.cos t)]
  · have h1 : |e * Real.cos (2 * t)| ≤ 1 := by
      rw [abs_mul]
      exact mul_le_one₀ he (abs_nonneg _) (Real.abs_cos_le_one _)
    linarith [neg_abs_le (e * Real.cos (2 * t))]

/-- Spec: a quadrature over positive frequencies is a positive linear functional. -/
structure PosQuad (quad : (ℝ → ℝ) → ℝ) : Prop where
  add : ∀ u v, quad (fun f => u f + v f) = quad u + quad v
  mul : ∀ (c : ℝ) u, quad (fun f => c * u f) = c * quad u
  pos : ∀ u, (∀ f, 0 < f → 0 ≤ u f) → 0 ≤ quad u

/-- C185: the covariance is symmetric. -/
theorem aniso_symm (quad : (ℝ → ℝ) → ℝ) (filt : ℝ → ℝ) (ls : List Layer) (psd : ℝ → ℝ) (D : ℝ) (s g : Pt) (j i : ℕ) :
    anisokinetism quad filt ls psd D s g j i = anisokinetism quad filt ls psd D s g i j := by
  have h : ∀ d, tiltCov quad filt ls psd d j i = tiltCov quad filt ls psd d i j := by
    intro d
    unfold tiltCov sumLayers
    simp only [iTheta_symm i j]
  unfold anisokinetism
  rw [h, h, h]

/-- C185: zero for two sources in one direction. -/
theorem aniso_same (quad : (ℝ → ℝ) → ℝ) (filt : ℝ → ℝ) (ls : List Layer) (psd : ℝ → ℝ) (D : ℝ) (s : Pt) (j i : ℕ) :
    anisokinetism quad filt ls psd D s s j i = 0 := by
  have h : ∀ d, tiltCov quad filt ls psd d j i = tiltCov quad filt ls psd d i j := by
    intro d
    unfold tiltCov sumLayers
    simp only [iTheta_symm i j]
  unfold anisokinetism
  rw [h (s - s)]; ring

theorem cos_two_arg_neg (z : ℂ) (g : ℝ) : Real.cos (2 * Complex.arg (-z) + g) = Real.cos (2 * Complex.arg z + g) := by
  by_cases hz : z = 0
  · subst hz; simp
  · have h1 : Real.cos (Complex.arg (-z)) = -Real.cos (Complex.arg z) := by
      rw [Complex.cos_arg hz, Complex.cos_arg (neg_ne_zero.2 hz)]; simp; ring
    have h2 : Real.sin (Complex.arg (-z)) = -Real.sin (Complex.arg z) := by
      rw [Complex.sin_arg, Complex.sin_arg]; simp; ring
    rw [Real.cos_add, Real.cos_add, Real.cos_two_mul, Real.cos_two_mul, Real.sin_two_mul, Real.sin_two_mul, h1, h2]
    ring

/-- C185: unchanged when the two sources are exchanged. -/
theorem aniso_exchange (quad : (ℝ → ℝ) → ℝ) (filt : ℝ → ℝ) (ls : List Layer) (psd : ℝ → ℝ) (D : ℝ) (s g : Pt) (j i : ℕ) :
    anisokinetism quad filt ls psd D s g j i = anisokinetism quad filt ls psd D g s j i := by
  have h : ∀ j i, tiltCov quad filt ls psd (s - g) j i = tiltCov quad filt ls psd (g - s) j i := by
    intro j i
    unfold tiltCov sumLayers
    congr 1
    ext f
    congr 3
    refine List.map_congr_left fun l _ => ?_
    have e : (⟨(s - g).1 * l.h, (s - g).2 * l.h⟩ : ℂ) = -⟨(g - s).1 * l.h, (g - s).2 * l.h⟩ := by
      apply Complex.ext <;> simp <;> ring
    rw [e, norm_neg]
    unfold iTheta
    rw [cos_two_arg_neg]
  unfold anisokinetism
  rw [h j i, h i j]; ring

theorem sum_combine (ls : List Layer) (u v w : Layer → ℝ) (k p a b c f h : ℝ) (hk : k = f * h) :
    a * (f * (ls.map fun l => l.w * p * u l).sum * h) + b * (f * (ls.map fun l => l.w * p * v l).sum * h) +
      c * (f * (ls.map fun l => l.w * p * w l).sum * h) =
    (ls.map fun l => k * p * l.w * (a * u l + b * v l + c * w l)).sum := by
  subst hk
  induction ls with
  | nil => simp
  | cons l t ih =>
    simp only [List.map_cons, List.sum_cons]
    rw [← ih]; ring

/-- C185: the covariance is positive semidefinite: no combination of tip and tilt has a negative variance. -/
theorem aniso_nonneg (quad : (ℝ → ℝ) → ℝ) (hq : PosQuad quad) (filt : ℝ → ℝ) (hf : ∀ f, 0 < f → 0 ≤ filt f)
    (ls : List Layer) (hw : ∀ l ∈ ls, 0 ≤ l.w) (psd : ℝ → ℝ) (hp : ∀ f, 0 < f → 0 ≤ psd f) (D : ℝ) (hD : 0 ≤ D)
    (s g : Pt) (x y : ℝ) :
    0 ≤ x ^ 2 * anisokinetism quad filt ls psd D s g 2 2 + x * y * anisokinetism quad filt ls psd D s g 2 3 +
      y * x * anisokinetism quad filt ls psd D s g 3 2 + y ^ 2 * anisokinetism quad filt ls psd D s g 3 3 := by
  rw [aniso_symm quad filt ls psd D s g 3 2]
  set d := s - g
  set d0 := s - s with hd0
  have hd0' : d0 = 0 := sub_self s
  have hgg : g - g = d0 := by rw [hd0', sub_self]
  have h32 : ∀ d, tiltCov quad filt ls psd d 3 2 = tiltCov quad filt ls psd d 2 3 := by
    intro d
    unfold tiltCov sumLayers
    simp only [iTheta_symm 2 3]
  set Q : Pt → ℝ := fun d => x ^ 2 * tiltCov quad filt ls psd d 2 2 + 2 * x * y * tiltCov quad filt ls psd d 2 3 +
      y ^ 2 * tiltCov quad filt ls psd d 3 3 with hQ
  have e1 : x ^ 2 * anisokinetism quad filt ls psd D s g 2 2 + x * y * anisokinetism quad filt ls psd D s g 2 3 +
      y * x * anisokinetism quad filt ls psd D s g 2 3 + y ^ 2 * anisokinetism quad filt ls psd D s g 3 3 =
      2 * (Q d0 - Q d) * D ^ (5/3 : ℝ) := by
    unfold anisokinetism
    rw [hgg, h32, hQ]
    simp only
    ring
  rw [e1]
  refine mul_nonneg (mul_nonneg (by norm_num) ?_) (Real.rpow_nonneg hD _)
  -- the form as one integral
  set q : Pt → ℝ → ℝ := fun d f => x ^ 2 * (f * sumLayers ls psd d 2 2 f * filt f) +
    2 * x * y * (f * sumLayers ls psd d 2 3 f * filt f) + y ^ 2 * (f * sumLayers ls psd d 3 3 f * filt f) with hq'
  have e2 : ∀ d, Q d = quad (q d) := by
    intro d
    rw [hQ, hq']
    simp only
    rw [hq.add, hq.add, hq.mul, hq.mul, hq.mul]
    rfl
  have e3 : Q d0 - Q d = quad fun f => q d0 f + (-1) * q d f := by
    rw [e2, e2, hq.add (q d0) (fun f => (-1) * q d f), hq.mul]; ring
  rw [e3]
  refine hq.pos _ fun f hf0 => ?_
  -- the sum over the layers
  have e4 : ∀ d, q d f = (ls.map fun l => f * filt f * psd f * l.w *
      (x ^ 2 * iTheta 2 2 (2 * Real.pi * f * ‖(⟨d.1 * l.h, d.2 * l.h⟩ : ℂ)‖) (Complex.arg ⟨d.1 * l.h, d.2 * l.h⟩) +
       2 * x * y * iTheta 2 3 (2 * Real.pi * f * ‖(⟨d.1 * l.h, d.2 * l.h⟩ : ℂ)‖) (Complex.arg ⟨d.1 * l.h, d.2 * l.h⟩) +
       y ^ 2 * iTheta 3 3 (2 * Real.pi * f * ‖(⟨d.1 * l.h, d.2 * l.h⟩ : ℂ)‖) (Complex.arg ⟨d.1 * l.h, d.2 * l.h⟩))).sum := by
    intro d
    rw [hq']
    simp only [sumLayers]
    exact sum_combine ls _ _ _ (f * filt f) (psd f) (x ^ 2) (2 * x * y) (y ^ 2) f (filt f) rfl
  rw [e4, e4]
  have e5 : ∀ (L : List Layer), (∀ l ∈ L, 0 ≤ l.w) →
      (L.map fun l => f * filt f * psd f * l.w *
      (x ^ 2 * iTheta 2 2 (2 * Real.pi * f * ‖(⟨d.1 * l.h, d.2 * l.h⟩ : ℂ)‖) (Complex.arg ⟨d.1 * l.h, d.2 * l.h⟩) +
       2 * x * y * iTheta 2 3 (2 * Real.pi * f * ‖(⟨d.1 * l.h, d.2 * l.h⟩ : ℂ)‖) (Complex.arg ⟨d.1 * l.h, d.2 * l.h⟩) +
       y ^ 2 * iTheta 3 3 (2 * Real.pi * f * ‖(⟨d.1 * l.h, d.2 * l.h⟩ : ℂ)‖) (Complex.arg ⟨d.1 * l.h, d.2 * l.h⟩))).sum ≤
      (L.map fun l => f * filt f * psd f * l.w *
      (x ^ 2 * iTheta 2 2 (2 * Real.pi * f * ‖(⟨d0.1 * l.h, d0.2 * l.h⟩ : ℂ)‖) (Complex.arg ⟨d0.1 * l.h, d0.2 * l.h⟩) +
       2 * x * y * iTheta 2 3 (2 * Real.pi * f * ‖(⟨d0.1 * l.h, d0.2 * l.h⟩ : ℂ)‖) (Complex.arg ⟨d0.1 * l.h, d0.2 * l.h⟩) +
       y ^ 2 * iTheta 3 3 (2 * Real.pi * f * ‖(⟨d0.1 * l.h, d0.2 * l.h⟩ : ℂ)‖) (Complex.arg ⟨d0.1 * l.h, d0.2 * l.h⟩))).sum := by
    intro L hL
    refine List.sum_le_sum fun l hl => ?_
    refine mul_le_mul_of_nonneg_left ?_ (mul_nonneg (mul_nonneg (mul_nonneg hf0.le (hf f hf0)) (hp f hf0)) (hL l hl))
    generalize hX : 2 * Real.pi * f * ‖(⟨d.1 * l.h, d.2 * l.h⟩ : ℂ)‖ = X
    generalize Complex.arg ⟨d.1 * l.h, d.2 * l.h⟩ = A
    have z : 2 * Real.pi * f * ‖(⟨d0.1 * l.h, d0.2 * l.h⟩ : ℂ)‖ = 0 := by
      rw [hd0', show (⟨(0:Pt).1 * l.h, (0:Pt).2 * l.h⟩ : ℂ) = 0 by apply Complex.ext <;> simp, norm_zero, mul_zero]
    rw [z]
    simp only [iTheta_22, iTheta_23, iTheta_33, j0_zero, j2_zero]
    have hpi := Real.pi_pos
    have b1 := bessel_bound X 1 (by norm_num)
    have b2 := bessel_bound X (-1) (by norm_num)
    have sc := Real.sin_sq_add_cos_sq (2 * A)
    generalize Real.sin (2 * A) = S at *
    generalize Real.cos (2 * A) = C at *
    generalize j0 X = a at *
    generalize j2 X = b at *
    have m : 0 ≤ (1 - a) * (x ^ 2 + y ^ 2) + b * (C * (x ^ 2 - y ^ 2) + 2 * S * (x * y)) := by
      have t1 : |C * (x ^ 2 - y ^ 2) + 2 * S * (x * y)| ≤ x ^ 2 + y ^ 2 := by
        apply abs_le_of_sq_le_sq _ (by positivity)
        nlinarith [sq_nonneg (S * (x ^ 2 - y ^ 2) - 2 * C * (x * y)), sc]
      have t2 : |b| ≤ 1 - a := abs_le.2 ⟨by linarith, by linarith⟩
      have t3 : |b * (C * (x ^ 2 - y ^ 2) + 2 * S * (x * y))| ≤ (1 - a) * (x ^ 2 + y ^ 2) := by
        rw [abs_mul]
        exact mul_le_mul t2 t1 (abs_nonneg _) (le_trans (abs_nonneg _) t2)
      linarith [neg_abs_le (b * (C * (x ^ 2 - y ^ 2) + 2 * S * (x * y)))]
    nlinarith [mul_nonneg hpi.le m]
  have := e5 ls hw
  linarith

/-! ### C186: the kernel -/

/-- C310 (exact form): the kernel on the square grid of the code (`Y` is the transpose of `X`) has no cross term. -/
theorem kernel_exact (c00 c01 c10 c11 fr0 : ℝ) (X Y : ℕ → ℕ → ℝ) (hXY : ∀ p q, Y p q = X q p) (p q : ℕ) :
    kernel c00 c01 c10 c11 fr0 X Y p q = ((c00 + c01) * X p q ^ 2 + (c11 + c10) * Y p q ^ 2) / fr0 := by
  unfold kernel
  rw [hXY q p, hXY p q]; ring

/-- C186: for uncorrelated tip and tilt it is the variance of the tilt at each point. -/
theorem kernel_uncorrelated (c00 c11 fr0 : ℝ) (hfr : 0 < fr0) (h0 : 0 ≤ c00) (h1 : 0 ≤ c11) (X Y : ℕ → ℕ → ℝ) (p q : ℕ) :
    kernel c00 0 0 c11 fr0 X Y p q =
      (c00 * X p q ^ 2 + 0 * (X p q * Y p q) + 0 * (Y p q * X p q) + c11 * Y p q ^ 2) / fr0 ∧
    0 ≤ kernel c00 0 0 c11 fr0 X Y p q := by
  have e : kernel c00 0 0 c11 fr0 X Y p q = (c00 * X p q ^ 2 + c11 * Y p q ^ 2) / fr0 := by unfold kernel; ring
  exact ⟨by rw [e]; ring, by rw [e]; positivity⟩

/-- C310 (violation): a correlated covariance gives the variance of the tilt nowhere off the diagonals, and for some
covariances negative values. -/
theorem kernel_violation (c00 c01 c11 fr0 : ℝ) (hfr : 0 < fr0) (hc : c01 ≠ 0) (X Y : ℕ → ℕ → ℝ)
    (hXY : ∀ p q, Y p q = X q p) (p q : ℕ) :
    (kernel c00 c01 c01 c11 fr0 X Y p q =
      (c00 * X p q ^ 2 + c01 * (X p q * Y p q) + c01 * (Y p q * X p q) + c11 * Y p q ^ 2) / fr0 ↔ X p q = Y p q) ∧
    (c00 < -c01 → X p q ≠ 0 → Y p q = 0 → kernel c00 c01 c01 c11 fr0 X Y p q < 0) := by
  rw [kernel_exact c00 c01 c01 c11 fr0 X Y hXY]
  refine ⟨?_, ?_⟩
  · rw [div_left_inj' hfr.ne']
    constructor
    · intro h
      have : c01 * (X p q - Y p q) ^ 2 = 0 := by linear_combination h
      rcases mul_eq_zero.1 this with h | h
      · exact absurd h hc
      · exact sub_eq_zero.1 (pow_eq_zero_iff (two_ne_zero) |>.1 h)
    · intro h; rw [h]; ring
  · intro h hx hy
    rw [hy]
    have : 0 < X p q ^ 2 := by positivity
    apply div_neg_of_neg_of_pos _ hfr
    nlinarith

/-- C310 (violation): several sources raise. -/
theorem kernel_sources_partial (nSrc : ℕ) (c : ℕ → ℕ → ℝ) :
    (∃ c', anisokinetismOf nSrc c = .ok c') ↔ nSrc = 1 := by
  unfold anisokinetismOf
  split_ifs with h <;> simp [h]

/-! ### The hypotheses can be met -/

/-- A stationary field with the covariance `3/5` (a constant phase). -/
example : Stationary (fun _ : Pt => Real.sqrt (3/5)) (fun _ => 3 / 5) := by
  intro x y
  have : Real.sqrt (3/5) * Real.sqrt (3/5) = 3 / 5 := Real.mul_self_sqrt (by norm_num)
  generalize Real.sqrt (3/5) = k at *
  rw [← this]; simp [pow_two]
/-- A field with a non-trivial covariance, `3/5 cos(x)`. -/
example : Stationary (fun p : Pt => (WithLp.toLp 2 ![Real.sqrt (3/5) * Real.cos p.1, Real.sqrt (3/5) * Real.sin p.1] : EuclideanSpace ℝ (Fin 2)))
    (fun p => 3 / 5 * Real.cos p.1) := by
  intro x y
  have : Real.sqrt (3/5) * Real.sqrt (3/5) = 3 / 5 := Real.mul_self_sqrt (by norm_num)
  generalize Real.sqrt (3/5) = k at *
  simp only [PiLp.inner_apply, Fin.sum_univ_two]
  simp [Real.cos_sub]
  linear_combination (Real.cos x.1 * Real.cos y.1 + Real.sin x.1 * Real.sin y.1) * this
example : PosQuad fun u => u 1 + 2 * u 3 :=
  ⟨fun u v => by ring, fun c u => by ring, fun u h => by linarith [h 1 (by norm_num), h 3 (by norm_num)]⟩
/-- A covariance with a preferred diagonal. -/
example : ∃ (F : ℤ → ℤ → ℝ), (∀ x y, F (-x) (-y) = F x y) ∧ F 1 1 ≠ F (-1) 1 ∧
    StationaryMatrix 2 F fun a b => F (((b / 2 : ℕ) : ℤ) - (a / 2 : ℕ)) (((b % 2 : ℕ) : ℤ) - (a % 2 : ℕ)) :=
  ⟨fun x y => x * y, fun x y => by push_cast; ring, by norm_num, fun _ _ _ _ => rfl⟩
/-- A positive definite covariance with `c00 < -c01`. -/
example : (∀ x y : ℝ, 0 ≤ 1 * x ^ 2 + (-2) * (x * y) + (-2) * (y * x) + 5 * y ^ 2) ∧ (1:ℝ) < -(-2) :=
  ⟨fun x y => by nlinarith [sq_nonneg (x - 2 * y), sq_nonneg y], by norm_num⟩

open Filter Topology in
/-- C183: the value 3/5 at zero separation continues the formula at the other separations, when `K` behaves as the Bessel function of order
5/6 near zero. -/
theorem mcDonald_continuous (K : ℝ → ℝ)
    (hK : Tendsto (fun x => x ^ (5/6 : ℝ) * K x) (𝓝[>] 0) (𝓝 (2 ^ (-1/6 : ℝ) * Real.Gamma (5/6)))) :
    Tendsto (mcDonald K) (𝓝[>] 0) (𝓝 (mcDonald K 0)) := by
  have h0 : mcDonald K 0 = 2 ^ (-1/6 : ℝ) * Real.Gamma (5/6) / (2 ^ (5/6 : ℝ) * Real.Gamma (11/6)) := by
    have hg : Real.Gamma (11/6) = 5/6 * Real.Gamma (5/6) := by
      rw [← Real.Gamma_add_one (by norm_num)]; norm_num
    have hp : (2 : ℝ) ^ (5/6 : ℝ) = 2 ^ (-1/6 : ℝ) * 2 := by
      rw [show (5/6 : ℝ) = -1/6 + 1 by norm_num, Real.rpow_add (by norm_num), Real.rpow_one]
    have hG : Real.Gamma (5/6) ≠ 0 := (Real.Gamma_pos_of_pos (by norm_num)).ne'
    have h2 : (2 : ℝ) ^ (-1/6 : ℝ) ≠ 0 := (Real.rpow_pos_of_pos (by norm_num) _).ne'
    rw [hg, hp]
    unfold mcDonald
    rw [if_pos rfl]
    field_simp
    norm_num
  rw [h0]
  refine (hK.div_const _).congr' ?_
  filter_upwards [self_mem_nhdsWithin] with x hx
  unfold mcDonald
  rw [if_neg (ne_of_gt hx)]

open Filter Topology in
/-- A function with this behaviour. -/
example : Tendsto (fun x : ℝ => x ^ (5/6 : ℝ) * (2 ^ (-1/6 : ℝ) * Real.Gamma (5/6) * x ^ (-(5/6) : ℝ))) (𝓝[>] 0) (𝓝 (2 ^ (-1/6 : ℝ) * Real.Gamma (5/6))) := by
  refine tendsto_const_nhds.congr' ?_
  filter_upwards [self_mem_nhdsWithin] with x hx
  have : x ^ (5/6 : ℝ) * x ^ (-(5/6) : ℝ) = 1 := by
    rw [← Real.rpow_add hx]; norm_num
  calc (2 : ℝ) ^ (-1/6 : ℝ) * Real.Gamma (5/6) = 2 ^ (-1/6 : ℝ) * Real.Gamma (5/6) * (x ^ (5/6 : ℝ) * x ^ (-(5/6) : ℝ)) := by rw [this, mul_one]
    _ = _ := by ring

/-! ### Cases that meet the hypotheses -/

/-- A case meeting the hypotheses of `map_even`. -/
example : matrixToMap 3 (fun a b => |(((b / 3 : ℕ) : ℝ) - (a / 3 : ℕ))| + 2 * |(((b % 3 : ℕ) : ℝ) - (a % 3 : ℕ))|) 4 3 = 1 + 2 * 2 := by
  have := map_even 3 (fun x y => |(x : ℝ)| + 2 * |(y : ℝ)|) (fun a b => |(((b / 3 : ℕ) : ℝ) - (a / 3 : ℕ))| + 2 * |(((b % 3 : ℕ) : ℝ) - (a % 3 : ℕ))|)
    (fun a _ b _ => by push_cast; rfl) (by simp) (by simp) 4 3 (by norm_num) (by norm_num)
  rw [this]; norm_num

/-- A case meeting the hypotheses of `map_violation`. -/
example : ¬ ∀ r c, r < 2 * 2 - 1 → c < 2 * 2 - 1 →
    matrixToMap 2 (fun a b => (((b / 2 : ℕ) : ℤ) - (a / 2 : ℕ) : ℤ) * ((((b % 2 : ℕ) : ℤ) - (a % 2 : ℕ) : ℤ) : ℝ)) r c =
      ((1 * ((c : ℤ) - ((2 : ℕ) - 1)) : ℤ) : ℝ) * ((1 * ((r : ℤ) - ((2 : ℕ) - 1)) : ℤ) : ℝ) :=
  map_violation 2 le_rfl (fun x y => (x : ℝ) * y) _ (fun _ _ _ _ => rfl) (fun x y => by push_cast; ring) (by norm_num) 1 1 (Or.inl rfl) (Or.inl rfl)

/-- A case meeting the hypotheses of `aniso_nonneg`. -/
example : 0 ≤ anisokinetism (fun u => u 1 + 2 * u 3) (fun _ => 1) [⟨1/2, 0⟩, ⟨1/2, 10000⟩] (fun _ => 1) 8 (1e-4, 0) (0, 1e-4) 2 2 := by
  have := aniso_nonneg (fun u => u 1 + 2 * u 3)
    ⟨fun u v => by ring, fun c u => by ring, fun u h => by linarith [h 1 (by norm_num), h 3 (by norm_num)]⟩ (fun _ => 1) (by norm_num)
    [⟨1/2, 0⟩, ⟨1/2, 10000⟩] (by norm_num) (fun _ => 1) (by norm_num) 8 (by norm_num) (1e-4, 0) (0, 1e-4) 1 0
  simpa using this

/-! ### Cases that meet the hypotheses -/

/-- A case meeting the hypotheses of `focal_infinity`. -/
example : pairTerm (fun x => ‖x‖) 0 5000 (1, 0) (3, 2) (1, 1) = angularTerm (fun x => ‖x‖) 5000 (1, 0) (1, 1) :=
  focal_infinity _ (fun x => norm_neg x) 5000 (1, 0) (3, 2) (1, 1) (by norm_num) (by simp)

/-- A case meeting the hypotheses of `kernel_uncorrelated`. -/
example : 0 ≤ kernel 1 0 0 2 0.15 (fun i _ => i) (fun _ j => j) 2 3 :=
  (kernel_uncorrelated 1 2 0.15 (by norm_num) (by norm_num) (by norm_num) _ _ 2 3).2

/-- A case meeting the hypotheses of `kernel_violation`. -/
example : kernel 1 (-2) (-2) 3 0.15 (fun i _ => i) (fun _ j => j) 2 0 < 0 :=
  (kernel_violation 1 (-2) 3 0.15 (by norm_num) (by norm_num) _ _ (fun _ _ => rfl) 2 0).2 (by norm_num) (by norm_num) (by norm_num)

/-- A case meeting the hypotheses of `quadrant_bounds`. -/
example : 0 ≤ quadrant 2 (fun a b => ((a + b : ℕ) : ℝ)) 1 1 ∧ quadrant 2 (fun a b => ((a + b : ℕ) : ℝ)) 1 1 ≤ 6 := by
  refine quadrant_bounds 2 _ 1 1 (by norm_num) (by norm_num) 0 6 fun a ha b hb _ _ => ⟨by positivity, ?_⟩
  have : a + b ≤ 6 := by omega
  exact_mod_cast this

end P3.Focal

