import Verif.Props.Metrics
import Mathlib.Algebra.Order.Floor.Div
import Mathlib.Order.Interval.Finset.Nat
namespace P3.Metrics
open Finset P3.Images

/-- Pixels of an image of `N + 1` by `N + 1` inside the circle, in units of half a pixel. -/
def inDisc (N : ℕ) : Finset (ℕ × ℕ) :=
  (range (N + 1) ×ˢ range (N + 1)).filter fun p => (2 * (p.1 : ℤ) - N) ^ 2 + (2 * (p.2 : ℤ) - N) ^ 2 ≤ (N : ℤ) ^ 2

theorem coord_value (N i : ℕ) (hN : 1 ≤ N) (hi : i ≤ N) : coord (N + 1) i = (2 * i - N) / N := by
  have hn : (N:ℝ) ≠ 0 := by positivity
  unfold coord linspace
  rw [List.getD_eq_getElem?_getD, List.getElem?_map, List.getElem?_range (by omega)]
  simp only [Option.map_some, Option.getD_some]
  rw [if_neg (by omega)]
  rw [show ((N + 1 : ℕ) : ℝ) - 1 = N by push_cast; ring]
  field_simp
  ring

theorem outside_iff (N i j : ℕ) (hN : 1 ≤ N) (hi : i ≤ N) (hj : j ≤ N) :
    ¬ outside (N + 1) i j ↔ (2 * (i : ℤ) - N) ^ 2 + (2 * (j : ℤ) - N) ^ 2 ≤ (N : ℤ) ^ 2 := by
  have hn : (0:ℝ) < N := by exact_mod_cast hN
  unfold outside
  rw [not_lt, Real.sqrt_le_left (by norm_num), one_pow, coord_value N i hN hi, coord_value N j hN hj, div_pow, div_pow, ← add_div, div_le_one (by positivity),
    add_comm]
  exact_mod_cast Iff.rfl

theorem insideCount_eq (N : ℕ) (hN : 1 ≤ N) : insideCount (N + 1) = (inDisc N).card := by
  classical
  unfold insideCount
  rw [List.countP_eq_length_filter]
  have nd : (((List.range (N + 1)).flatMap fun i => (List.range (N + 1)).map fun j => (i, j))).Nodup := by
    have := List.nodup_range (n := N + 1)
    exact this.product this
  rw [← List.toFinset_card_of_nodup (nd.filter _)]
  congr 1
  ext ⟨i, j⟩
  simp only [List.mem_toFinset, List.mem_filter, List.mem_flatMap, List.mem_map, List.mem_range, decide_eq_true_eq, inDisc, Finset.mem_filter,
    mem_product, mem_range]
  constructor
  · rintro ⟨⟨a, ha, b, hb, e⟩, h⟩
    obtain ⟨rfl, rfl⟩ := Prod.mk.inj e
    exact ⟨⟨ha, hb⟩, (outside_iff N a b hN (by omega) (by omega)).1 h⟩
  · rintro ⟨⟨ha, hb⟩, h⟩
    exact ⟨⟨i, ha, j, hb, rfl⟩, (outside_iff N i j hN (by omega) (by omega)).2 h⟩

/-- Positions within `a` half-pixels of the centre. -/
def band (N a : ℕ) : Finset ℕ := (range (N + 1)).filter fun i => |2 * (i : ℤ) - N| ≤ a

theorem band_card (N a : ℕ) (h : a ≤ N) : a ≤ (band N a).card ∧ (band N a).card ≤ a + 1 := by
  have e : band N a = Finset.Icc ((N - a + 1) / 2) ((N + a) / 2) := by
    ext i
    simp only [band, Finset.mem_filter, mem_range, mem_Icc, abs_le]
    omega
  rw [e, Nat.card_Icc]
  omega

theorem disc_majority (N : ℕ) (h : 23 ≤ N) : (N + 1) ^ 2 < 2 * (inDisc N).card := by
  set a := 4 * N / 5 with ha
  set b := 3 * N / 5 with hb
  have hab : b ≤ a := by omega
  obtain ⟨a1, a2⟩ := band_card N a (by omega)
  obtain ⟨b1, b2⟩ := band_card N b (by omega)
  have sub : band N b ⊆ band N a := by
    intro i hi
    simp only [band, Finset.mem_filter] at hi ⊢
    exact ⟨hi.1, hi.2.trans (by exact_mod_cast hab)⟩
  have key : band N a ×ˢ band N b ∪ band N b ×ˢ band N a ⊆ inDisc N := by
    rintro ⟨i, j⟩ hp
    have hA : (5 * (a:ℤ)) ≤ 4 * N := by omega
    have hB : (5 * (b:ℤ)) ≤ 3 * N := by omega
    have hs : (a:ℤ) ^ 2 + (b:ℤ) ^ 2 ≤ (N:ℤ) ^ 2 := by
      have := mul_self_le_mul_self (by positivity) hA
      have := mul_self_le_mul_self (by positivity) hB
      nlinarith
    simp only [mem_union, mem_product, band, Finset.mem_filter, inDisc] at hp ⊢
    rcases hp with ⟨⟨h1, h2⟩, h3, h4⟩ | ⟨⟨h1, h2⟩, h3, h4⟩
    · exact ⟨⟨h1, h3⟩, (add_le_add (sq_le_sq' (abs_le.1 h2).1 (abs_le.1 h2).2) (sq_le_sq' (abs_le.1 h4).1 (abs_le.1 h4).2)).trans hs⟩
    · exact ⟨⟨h1, h3⟩, (add_le_add (sq_le_sq' (abs_le.1 h2).1 (abs_le.1 h2).2) (sq_le_sq' (abs_le.1 h4).1 (abs_le.1 h4).2)).trans (by linarith)⟩
  have c1 := card_le_card key
  have c2 := card_union_add_card_inter (band N a ×ˢ band N b) (band N b ×ˢ band N a)
  have c3 : (band N a ×ˢ band N b) ∩ (band N b ×ˢ band N a) = band N b ×ˢ band N b := by
    rw [product_inter_product, inter_eq_right.2 sub, inter_eq_left.2 sub]
  rw [c3, card_product, card_product, card_product] at c2
  have c4 := card_le_card sub
  set A := (band N a).card
  set B := (band N b).card
  have hA : (4:ℤ) * N - 4 ≤ 5 * A := by omega
  have hB : (3:ℤ) * N - 4 ≤ 5 * B := by omega
  have hC : (B:ℤ) ≤ A := by exact_mod_cast c4
  have hN : (23:ℤ) ≤ N := by exact_mod_cast h
  have d1 : (2 * (A:ℤ) * B - B * B) ≤ (inDisc N).card := by
    have : 2 * A * B ≤ (inDisc N).card + B * B := by nlinarith
    have : (2 * (A:ℤ) * B) ≤ (inDisc N).card + B * B := by exact_mod_cast this
    linarith
  have d2 : (3 * (N:ℤ) - 4) * (5 * N - 4) ≤ 25 * (2 * A * B - B * B) := by nlinarith
  have : ((N:ℤ) + 1) ^ 2 < 2 * (inDisc N).card := by nlinarith
  exact_mod_cast this

/-- More than half of the pixels are inside the circle, but for five sizes. -/
theorem inside_majority (n : ℕ) : n * n < 2 * insideCount n ↔ n = 3 ∨ n = 5 ∨ n = 7 ∨ 9 ≤ n := by
  by_cases h : 24 ≤ n
  · obtain ⟨N, rfl⟩ := Nat.exists_eq_add_of_le' (show 1 ≤ n by omega)
    rw [insideCount_eq N (by omega)]
    have := disc_majority N (by omega)
    constructor
    · intro _; omega
    · intro _; rw [← sq]; exact this
  · by_cases h2 : 2 ≤ n
    · obtain ⟨N, rfl⟩ := Nat.exists_eq_add_of_le' (show 1 ≤ n by omega)
      rw [insideCount_eq N (by omega)]
      have key : ∀ N ∈ Finset.Icc 1 22, ((N + 1) * (N + 1) < 2 * (inDisc N).card ↔ N + 1 = 3 ∨ N + 1 = 5 ∨ N + 1 = 7 ∨ 9 ≤ N + 1) := by
        decide +kernel
      exact key N (by simp; omega)
    · have : n = 0 ∨ n = 1 := by omega
      rcases this with rfl | rfl
      · simp [insideCount]
      · have : insideCount 1 = 0 := by
          classical
          have : coord 1 0 = -1 := by norm_num [coord, linspace]
          have : outside 1 0 0 := by
            unfold outside
            rw [this, Real.lt_sqrt (by norm_num)]; norm_num
          simp [insideCount, this]
        rw [this]; omega

/-- C68 (violation): for a square image of non-negative pixels, of 9 pixels or more across (or 3, 5 or 7), the
background reported is zero whatever the sky, and the flux is the sum of all pixels. -/
theorem getFlux_no_background (im : Img ℝ) (h : im.nx = im.ny)
    (hv : ∀ i < im.nx, ∀ j < im.ny, 0 ≤ im.px i j) (hn : im.nx = 3 ∨ im.nx = 5 ∨ im.nx = 7 ∨ 9 ≤ im.nx) :
    getFlux im = .ok (flux im, 0) :=
  getFlux_background_zero im h hv ((inside_majority _).2 hn)

/-- C68 (violation): an image of pure sky of positive level has a positive flux, that of the sky. -/
theorem getFlux_sky_violation (n : ℕ) (s : ℝ) (hs : 0 < s) (hn : n = 3 ∨ n = 5 ∨ n = 7 ∨ 9 ≤ n) :
    getFlux ⟨n, n, fun _ _ => s⟩ = .ok (n ^ 2 * s, 0) ∧ n ^ 2 * s ≠ 0 := by
  have n0 : 0 < n := by omega
  constructor
  · rw [getFlux_no_background _ rfl (fun _ _ _ _ => hs.le) hn]
    simp [flux]; ring
  · positivity

/-- An image of 64 by 64 pixels with a sky of 5. -/
example : getFlux ⟨64, 64, fun _ _ => 5⟩ = .ok (20480, 0) := by
  rw [(getFlux_sky_violation 64 5 (by norm_num) (by norm_num)).1]; norm_num

end P3.Metrics
