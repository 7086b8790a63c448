import Verif.Model.Zenith
import Verif.Model.Anisoplanatism
import Verif.Model.Layers
import Verif.Spec.Zenith
import Verif.Props.Geometry
import Verif.Props.Atmosphere
import Mathlib.Data.List.GetD
/-
The zenith angle (C395-C400).
-/
namespace P3.Zenith
open P3.Atmosphere P3.Zenith.Spec

theorem airmass_pos (z : ℝ) (h1 : -90 < z) (h2 : z < 90) :
    0 < FieldOfView.airmass z ∧ FieldOfView.airmass z = (cosDeg z)⁻¹ ∧ 0 < cosDeg z ∧ 1 ≤ FieldOfView.airmass z := by
  have hp := Real.pi_pos
  have hc : 0 < cosDeg z := by
    unfold cosDeg
    apply Real.cos_pos_of_mem_Ioo
    constructor <;> nlinarith
  have e : FieldOfView.airmass z = (cosDeg z)⁻¹ := by unfold FieldOfView.airmass cosDeg; rw [one_div]
  refine ⟨by rw [e]; positivity, e, hc, ?_⟩
  rw [e]
  exact (one_le_inv₀ hc).2 (Real.cos_le_one _)

theorem airmass_zero : FieldOfView.airmass 0 = 1 := by simp [FieldOfView.airmass]

theorem wsum53_scale (w x : List ℝ) (a : ℝ) (ha : 0 < a) (hx : ∀ h ∈ x, 0 ≤ h) :
    wsum53 w (x.map (· * a)) = wsum53 w x * a ^ ((5:ℝ)/3) := by
  unfold wsum53
  rw [List.zipWith_map_right]
  induction w generalizing x with
  | nil => simp
  | cons b t ih =>
    cases x with
    | nil => simp
    | cons y u =>
      simp only [List.zipWith_cons_cons, List.sum_cons, ih u (fun h hh => hx h (List.mem_cons_of_mem _ hh)), add_mul]
      rw [Real.mul_rpow (hx y (by simp)) ha.le, mul_assoc]

theorem pow_cancel (x : ℝ) (hx : 0 ≤ x) : (x ^ ((5:ℝ)/3)) ^ ((3:ℝ)/5) = x := by
  rw [← Real.rpow_mul hx]; norm_num

/-- The atmosphere on the line of sight. -/
noncomputable def losAtm (o : Options) (r c : ℝ) : Atm :=
  mk o.wvl (r * c ^ ((3:ℝ)/5)) o.weights (o.heights.map (· * c⁻¹)) o.speed o.dir o.L0

theorem build_ok (o : Options) (h2 : o.zenith < 90) (h1 : -90 < o.zenith) (r : ℝ) (hr : zenithR0 o = .ok r) :
    build o = .ok ⟨some (losAtm o r (cosDeg o.zenith)), o.heights.map (· * (cosDeg o.zenith)⁻¹), (cosDeg o.zenith)⁻¹,
      o.laser * (cosDeg o.zenith)⁻¹⟩ := by
  obtain ⟨ha, he, hc, -⟩ := airmass_pos o.zenith h1 h2
  unfold build losAtm
  rw [if_neg (by linarith), hr]
  simp only [bind, Except.bind]
  rw [if_neg (by linarith), he]
  have : FieldOfView.r0Los r (cosDeg o.zenith)⁻¹ = r * (cosDeg o.zenith) ^ ((3:ℝ)/5) := by
    unfold FieldOfView.r0Los
    rw [Real.inv_rpow hc.le, ← Real.rpow_neg hc.le]; norm_num
  rw [this]

theorem theta0_none (a : Atm) (h : ∀ h ∈ a.heights, h = 0) : theta0 a = none := by unfold theta0; rw [if_pos h]

theorem theta0_some (a : Atm) (h : ¬ ∀ h ∈ a.heights, h = 0) :
    theta0 a = some (((24 * Real.Gamma (6/5) / 5) ^ (-(5:ℝ)/6) * a.r0 ^ ((5:ℝ)/3) / wsum53 a.weights a.heights) ^ ((3:ℝ)/5) *
      3600 * 180 / Real.pi) := by unfold theta0; rw [if_neg h]

/-- C395: the laws of the zenith angle. Compared to the zenith, the Fried parameter is multiplied by `c^(3/5)`, the seeing divided by
it, heights and mean height are divided by `c`, the coherence time is multiplied by `c^(3/5)`, the isoplanatic angle (infinite outer
scale) by `c^(8/5)`, and the focal anisoplanatism of a laser is divided by `√c`; `c` is the cosine of the zenith angle. -/
theorem zenith_laws (o : Options) (h1 : -90 < o.zenith) (h2 : o.zenith < 90) (r : ℝ) (hr : zenithR0 o = .ok r) (hr0 : 0 < r)
    (hw : ∀ w ∈ o.weights, 0 ≤ w) (hl : o.weights.length = o.heights.length) (hh : ∀ h ∈ o.heights, 0 ≤ h) (D : ℝ) (hD : 0 < D) :
    ∃ B0 B A0 A, build { o with zenith := 0 } = .ok B0 ∧ B0.atm = some A0 ∧ build o = .ok B ∧ B.atm = some A ∧
      A.r0 = A0.r0 * cosDeg o.zenith ^ ((3:ℝ)/5) ∧
      seeing A = seeing A0 / cosDeg o.zenith ^ ((3:ℝ)/5) ∧
      A.heights = A0.heights.map (· / cosDeg o.zenith) ∧
      meanHeight A = meanHeight A0 / cosDeg o.zenith ∧
      tau0 A = tau0 A0 * cosDeg o.zenith ^ ((3:ℝ)/5) ∧
      theta0 A = (theta0 A0).map (· * cosDeg o.zenith ^ ((8:ℝ)/5)) ∧
      Aniso.focalWfe D B.laser A = (Aniso.focalWfe D B0.laser A0).map (· / Real.sqrt (cosDeg o.zenith)) := by
  obtain ⟨-, -, hc, -⟩ := airmass_pos o.zenith h1 h2
  have hr' : zenithR0 { o with zenith := 0 } = .ok r := hr
  have b0 := build_ok { o with zenith := 0 } (by norm_num) (by norm_num) r hr'
  have b := build_ok o h2 h1 r hr
  have c1 : cosDeg 0 = 1 := by simp [cosDeg]
  simp only [c1, losAtm, inv_one, mul_one, List.map_id', Real.one_rpow] at b0
  unfold losAtm at b
  set c := cosDeg o.zenith with hcd
  have hci : 0 < c⁻¹ := by positivity
  have hs := wsum53_scale o.weights o.heights c⁻¹ hci hh
  have hn : 0 ≤ wsum53 o.weights o.heights := by
    have := le_wsum53 o.weights o.heights 0 le_rfl hl hw hh
    rw [Real.zero_rpow (by norm_num), mul_zero] at this
    exact this
  have hcp : 0 < c ^ ((3:ℝ)/5) := Real.rpow_pos_of_pos hc _
  refine ⟨_, _, _, _, b0, rfl, b, rfl, rfl, ?_, ?_, ?_, ?_, ?_, ?_⟩
  · simp only [seeing, mk]
    field_simp
  · show o.heights.map (· * c⁻¹) = o.heights.map (· / c)
    apply List.map_congr_left; intro x _; exact (div_eq_mul_inv x c).symm
  · simp only [meanHeight, mk]
    rw [hs, Real.mul_rpow hn (by positivity), pow_cancel _ hci.le]
    ring
  · simp only [tau0, meanWind, mk]
    ring
  · have hiff : (∀ h ∈ o.heights.map (· * c⁻¹), h = 0) ↔ ∀ h ∈ o.heights, h = 0 := by
      simp only [List.mem_map, forall_exists_index, and_imp, forall_apply_eq_imp_iff₂, mul_eq_zero, hci.ne', or_false]
    by_cases h0 : ∀ h ∈ o.heights, h = 0
    · rw [theta0_none _ (hiff.2 h0), theta0_none _ h0]; rfl
    · rw [theta0_some _ (fun x => h0 (hiff.1 x)), theta0_some _ h0, Option.map_some]
      simp only [mk]
      rw [hs]
      congr 1
      have e1 : (r * c ^ ((3:ℝ)/5)) ^ ((5:ℝ)/3) = r ^ ((5:ℝ)/3) * c := by
        rw [Real.mul_rpow hr0.le hcp.le, ← Real.rpow_mul hc.le]; norm_num
      have hG : 0 ≤ (24 * Real.Gamma (6/5) / 5) ^ (-(5:ℝ)/6) := by
        apply Real.rpow_nonneg
        have := Real.Gamma_pos_of_pos (show (0:ℝ) < 6/5 by norm_num)
        positivity
      have e2 : (24 * Real.Gamma (6/5) / 5) ^ (-(5:ℝ)/6) * (r ^ ((5:ℝ)/3) * c) / (wsum53 o.weights o.heights * c⁻¹ ^ ((5:ℝ)/3)) =
          ((24 * Real.Gamma (6/5) / 5) ^ (-(5:ℝ)/6) * r ^ ((5:ℝ)/3) / wsum53 o.weights o.heights) * c ^ ((8:ℝ)/3) := by
        rw [Real.inv_rpow hc.le, show (8:ℝ)/3 = 1 + 5/3 by norm_num, Real.rpow_add hc, Real.rpow_one]
        have : 0 < c ^ ((5:ℝ)/3) := Real.rpow_pos_of_pos hc _
        field_simp
      have e3 : (c ^ ((8:ℝ)/3)) ^ ((3:ℝ)/5) = c ^ ((8:ℝ)/5) := by rw [← Real.rpow_mul hc.le]; norm_num
      rw [e1, e2, Real.mul_rpow (by positivity) (by positivity), e3]
      ring
  · unfold Aniso.focalWfe
    simp only [mk]
    have ev : (List.zipWith (fun w h => if h > 0 then w * (0.5 * (h / (o.laser * c⁻¹)) ^ ((5:ℝ)/3) - 0.452 * (h / (o.laser * c⁻¹)) ^ 2) / 0.423 else 0)
        o.weights (o.heights.map (· * c⁻¹))) =
        (List.zipWith (fun w h => if h > 0 then w * (0.5 * (h / o.laser) ^ ((5:ℝ)/3) - 0.452 * (h / o.laser) ^ 2) / 0.423 else 0)
        o.weights o.heights) := by
      rw [List.zipWith_map_right]
      congr 1
      funext w h
      rw [mul_div_mul_right _ _ hci.ne']
      have : h * c⁻¹ > 0 ↔ h > 0 := by
        constructor
        · intro hx; by_contra hn; push Not at hn; nlinarith
        · intro hx; positivity
      simp only [this]
    have e1 : (D / (r * c ^ ((3:ℝ)/5))) ^ ((5:ℝ)/3) = (D / r) ^ ((5:ℝ)/3) / c := by
      rw [← div_div, Real.div_rpow (by positivity) hcp.le, ← Real.rpow_mul hc.le]; norm_num
    rw [ev, e1]
    set v := (List.zipWith (fun w h => if h > 0 then w * (0.5 * (h / o.laser) ^ ((5:ℝ)/3) - 0.452 * (h / o.laser) ^ 2) / 0.423 else 0)
        o.weights o.heights).sum
    unfold Breakdown.sqrtO
    rw [← mul_div_assoc]
    by_cases hv : 0 ≤ v * (D / r) ^ ((5:ℝ)/3)
    · rw [if_neg (by have := div_nonneg hv hc.le; linarith), if_neg (by linarith)]
      simp only [Option.map_some]
      rw [Real.sqrt_div hv]
      congr 1; ring
    · rw [if_pos (by have := div_neg_of_neg_of_pos (not_le.1 hv) hc; linarith), if_pos (by linarith)]; rfl


/-! ### Isoplanatic angle -/

/-- C396: without outer scale, the isoplanatic angle is the angle for which the structure function, summed over the layers at the
separations `height * angle`, is 2. -/
theorem isoplanatic_angle (wvl r0 : ℝ) (weights heights speed dir : List ℝ) (L0 : L0Arg) (hr : 0 < r0)
    (hw : ∀ w ∈ weights, 0 < w) (hl : weights.length = heights.length) (hh : ∀ h ∈ heights, 0 ≤ h) (hn : ∃ h ∈ heights, h ≠ 0) :
    ∃ θ : ℝ, 0 < θ ∧ theta0 (mk wvl r0 weights heights speed dir L0) = some (θ * 3600 * 180 / Real.pi) ∧
      ((mk wvl r0 weights heights speed dir L0).layers.map fun l => structureFunctionInf l.r0 (l.height * θ)).sum = 2 := by
  have hG : 0 < 24 * Real.Gamma (6/5) / 5 := by
    have := Real.Gamma_pos_of_pos (show (0:ℝ) < 6/5 by norm_num)
    positivity
  have hpos : 0 < wsum53 weights heights := by
    clear L0
    obtain ⟨h, hm, h0⟩ := hn
    induction weights generalizing heights with
    | nil => cases heights with
      | nil => simp at hm
      | cons => simp at hl
    | cons b t ih =>
      cases heights with
      | nil => simp at hl
      | cons y u =>
        have hl' : t.length = u.length := by simpa using hl
        have hu : ∀ h ∈ u, 0 ≤ h := fun h hh' => hh h (List.mem_cons_of_mem _ hh')
        have ht : ∀ w ∈ t, 0 < w := fun w hw' => hw w (List.mem_cons_of_mem _ hw')
        have hb := hw b (by simp)
        have hy := hh y (by simp)
        have hrest : 0 ≤ wsum53 t u := by
          have := le_wsum53 t u 0 le_rfl hl' (fun a ha => (ht a ha).le) hu
          rw [Real.zero_rpow (by norm_num), mul_zero] at this
          exact this
        have e : wsum53 (b :: t) (y :: u) = b * y ^ ((5:ℝ)/3) + wsum53 t u := by simp [wsum53]
        rw [e]
        rcases List.mem_cons.1 hm with rfl | hm'
        · have : 0 < h := lt_of_le_of_ne hy (Ne.symm h0)
          have : 0 < b * h ^ ((5:ℝ)/3) := by positivity
          linarith
        · have := ih u ht hl' hu hm'
          have : 0 ≤ b * y ^ ((5:ℝ)/3) := by positivity
          linarith
  set θ := ((24 * Real.Gamma (6/5) / 5) ^ (-(5:ℝ)/6) * r0 ^ ((5:ℝ)/3) / wsum53 weights heights) ^ ((3:ℝ)/5) with hθ
  have hθ0 : 0 < θ := by positivity
  refine ⟨θ, hθ0, ?_, ?_⟩
  · rw [theta0_some]
    · rfl
    · obtain ⟨h, hm, h0⟩ := hn
      exact fun x => h0 (x h hm)
  · have e53 : θ ^ ((5:ℝ)/3) = (24 * Real.Gamma (6/5) / 5) ^ (-(5:ℝ)/6) * r0 ^ ((5:ℝ)/3) / wsum53 weights heights := by
      rw [hθ, ← Real.rpow_mul (by positivity)]; norm_num
    have hterm : ∀ i < weights.length, structureFunctionInf ((at' weights i * r0 ^ (-(5:ℝ)/3)) ^ (-(3:ℝ)/5)) (at' heights i * θ) =
        2 * Atmosphere.c1 * r0 ^ (-(5:ℝ)/3) * θ ^ ((5:ℝ)/3) * (at' weights i * at' heights i ^ ((5:ℝ)/3)) := by
      intro i hi
      have hi' : i < heights.length := hl ▸ hi
      have w1 : 0 < at' weights i := by
        unfold at'; rw [List.getD_eq_getElem _ _ hi]; exact hw _ (List.getElem_mem _)
      have w2 : 0 ≤ at' heights i := by
        unfold at'; rw [List.getD_eq_getElem _ _ hi']; exact hh _ (List.getElem_mem _)
      unfold structureFunctionInf
      rw [Real.div_rpow (by positivity) (by positivity), ← Real.rpow_mul (by positivity), Real.mul_rpow w2 hθ0.le]
      rw [show -(3:ℝ)/5 * (5/3) = -1 by norm_num, Real.rpow_neg_one]
      field_simp
    have hsum : ∀ (w h : List ℝ), w.length = h.length →
        ((List.range w.length).map fun i => at' w i * at' h i ^ ((5:ℝ)/3)).sum = wsum53 w h := by
      intro w
      induction w with
      | nil => intro h _; simp [wsum53]
      | cons b t ih =>
        intro h hl
        cases h with
        | nil => simp at hl
        | cons y u =>
          rw [List.length_cons, List.range_succ_eq_map, List.map_cons, List.sum_cons, List.map_map]
          have := ih u (by simpa using hl)
          simp only [wsum53, List.zipWith_cons_cons, List.sum_cons] at this ⊢
          rw [← this]; rfl
    have : ((mk wvl r0 weights heights speed dir L0).layers.map fun l => structureFunctionInf l.r0 (l.height * θ)) =
        (List.range weights.length).map fun i => 2 * Atmosphere.c1 * r0 ^ (-(5:ℝ)/3) * θ ^ ((5:ℝ)/3) *
          (at' weights i * at' heights i ^ ((5:ℝ)/3)) := by
      simp only [mk, List.map_map]
      apply List.map_congr_left
      intro i hi
      exact hterm i (List.mem_range.1 hi)
    rw [this, List.sum_map_mul_left, hsum _ _ hl, e53]
    unfold Atmosphere.c1
    rw [show -(5:ℝ)/6 = -(5/6) by norm_num, show -(5:ℝ)/3 = -(5/3) by norm_num, Real.rpow_neg hG.le, Real.rpow_neg hr.le]
    have a1 : 0 < (24 * Real.Gamma (6/5) / 5) ^ ((5:ℝ)/6) := by positivity
    have a2 : 0 < r0 ^ ((5:ℝ)/3) := by positivity
    field_simp


/-! ### Seeing or Fried parameter (C397) -/

/-- C397: the seeing, in arcseconds at the wavelength of the atmosphere, and the Fried parameter `0.976 wavelength/seeing` are two ways
to say the same: the same system is built, its seeing at the zenith is the one given, and the automatic field of view is the same. -/
theorem seeing_or_r0 (o : Options) (h1 : -90 < o.zenith) (h2 : o.zenith < 90) (s : ℝ) (hs : o.seeing = some s) (hs0 : 0 < s)
    (hwv : 0 < o.wvl) :
    build { o with seeing := none, r0 := some (0.976 * o.wvl / (s * (Real.pi / (180 * 3600)))) } = build o ∧
    (∃ B A, build { o with zenith := 0 } = .ok B ∧ B.atm = some A ∧ seeing A = s) ∧
    (∃ B A, build o = .ok B ∧ B.atm = some A ∧ ∀ wvl pix pitch,
      FieldOfView.autoFov wvl pix pitch (some s) B.airmass A.wvl A.r0 = FieldOfView.autoFov wvl pix pitch none B.airmass A.wvl A.r0) := by
  have hp := Real.pi_pos
  have hz : zenithR0 o = .ok (FieldOfView.r0OfSeeing o.wvl s) := by unfold zenithR0; rw [hs]
  have er : 0.976 * o.wvl / (s * (Real.pi / (180 * 3600))) = FieldOfView.r0OfSeeing o.wvl s := by
    unfold FieldOfView.r0OfSeeing; field_simp
  refine ⟨?_, ?_, ?_⟩
  · unfold build
    rw [hz]
    have : zenithR0 { o with seeing := none, r0 := some (0.976 * o.wvl / (s * (Real.pi / (180 * 3600)))) } =
        .ok (FieldOfView.r0OfSeeing o.wvl s) := by rw [← er]; rfl
    rw [this]
  · refine ⟨_, _, build_ok { o with zenith := 0 } (by norm_num) (by norm_num) _ hz, rfl, ?_⟩
    have c1 : cosDeg 0 = 1 := by simp [cosDeg]
    simp only [seeing, losAtm, mk, c1, Real.one_rpow, mul_one, FieldOfView.r0OfSeeing]
    field_simp
  · refine ⟨_, _, build_ok o h2 h1 _ hz, rfl, ?_⟩
    intro wvl pix pitch
    obtain ⟨-, -, hc, -⟩ := airmass_pos o.zenith h1 h2
    have : FieldOfView.seeingArcsec (some s) (cosDeg o.zenith)⁻¹ o.wvl (losAtm o (FieldOfView.r0OfSeeing o.wvl s) (cosDeg o.zenith)).r0 =
        FieldOfView.seeingArcsec none (cosDeg o.zenith)⁻¹ o.wvl (losAtm o (FieldOfView.r0OfSeeing o.wvl s) (cosDeg o.zenith)).r0 := by
      simp only [FieldOfView.seeingArcsec, losAtm, mk, FieldOfView.r0OfSeeing]
      rw [Real.inv_rpow hc.le]
      have : 0 < cosDeg o.zenith ^ ((3:ℝ)/5) := by positivity
      field_simp
    unfold FieldOfView.autoFov
    simp only [show (losAtm o (FieldOfView.r0OfSeeing o.wvl s) (cosDeg o.zenith)).wvl = o.wvl from rfl, this]

/-! ### Heights along the line of sight (C398) -/

theorem stretch_scale (a : ℝ) (ha : 0 < a) (laser : Option ℝ) (h : ℝ) :
    FRun.stretch (laser.map (· * a)) (h * a) = FRun.stretch laser h := by
  cases laser with
  | none => rfl
  | some H =>
    simp only [Option.map_some, FRun.stretch, mul_eq_zero, ha.ne', or_false, mul_div_mul_right _ _ ha.ne']

theorem slabAlt_scale (cn2 alt : List ℝ) (p a : ℝ) (hp : 0 < p) (ha : 0 < a) (hc : ∀ x ∈ cn2, 0 ≤ x) (hh : ∀ x ∈ alt, 0 ≤ x) (i j : ℕ) :
    Layers.slabAlt cn2 (alt.map (· * a)) p i j = Layers.slabAlt cn2 alt p i j * a := by
  have hsl : Layers.slice (alt.map (· * a)) i j = (Layers.slice alt i j).map (· * a) := by
    simp [Layers.slice, List.map_take, List.map_drop]
  have hz : ∀ (x c : List ℝ), (∀ y ∈ x, 0 ≤ y) →
      (List.zipWith (fun h c => h ^ p * c) (x.map (· * a)) c).sum = (List.zipWith (fun h c => h ^ p * c) x c).sum * a ^ p := by
    intro x
    induction x with
    | nil => intro c _; simp
    | cons y u ih =>
      intro c hy
      cases c with
      | nil => simp
      | cons b t =>
        simp only [List.map_cons, List.zipWith_cons_cons, List.sum_cons, ih t (fun z hz => hy z (List.mem_cons_of_mem _ hz)), add_mul]
        rw [Real.mul_rpow (hy y (by simp)) ha.le]; ring
  have hnn : ∀ (x c : List ℝ), (∀ y ∈ x, 0 ≤ y) → (∀ y ∈ c, 0 ≤ y) → 0 ≤ (List.zipWith (fun h c => h ^ p * c) x c).sum := by
    intro x
    induction x with
    | nil => intro c _ _; simp
    | cons y u ih =>
      intro c hy hc
      cases c with
      | nil => simp
      | cons b t =>
        have h1 := hy y (by simp)
        have h2 := hc b (by simp)
        have := ih t (fun z hz => hy z (List.mem_cons_of_mem _ hz)) (fun z hz => hc z (List.mem_cons_of_mem _ hz))
        simp only [List.zipWith_cons_cons, List.sum_cons]
        positivity
  have hsub : ∀ (l : List ℝ) (y : ℝ), y ∈ Layers.slice l i j → y ∈ l := by
    intro l y hy
    exact List.mem_of_mem_take (List.mem_of_mem_drop hy)
  have s1 : ∀ y ∈ Layers.slice alt i j, 0 ≤ y := fun y hy => hh y (hsub _ _ hy)
  have s2 : ∀ y ∈ Layers.slice cn2 i j, 0 ≤ y := fun y hy => hc y (hsub _ _ hy)
  unfold Layers.slabAlt
  rw [hsl, hz _ _ s1, mul_div_right_comm, Real.mul_rpow (show 0 ≤ _ / Layers.slabCn2 cn2 i j from div_nonneg (hnn _ _ s1 s2) (List.sum_nonneg s2)) (by positivity),
    ← Real.rpow_mul ha.le, mul_one_div_cancel hp.ne', Real.rpow_one]

/-- C398 (partial): in the power spectra the zenith angle stretches distances once: every layer, as it is seen in the cone of a laser or
towards natural stars, and every layer of the compressed profile, is `1/cos` times further than at the zenith. Missing: the
anisoplanatism structure function and its wavefront error. -/
theorem heights_once_partial (o : Options) (h1 : -90 < o.zenith) (h2 : o.zenith < 90) (r : ℝ) (hr : zenithR0 o = .ok r) :
    ∃ B A, build o = .ok B ∧ B.atm = some A ∧ A.heights = o.heights.map (· / cosDeg o.zenith) ∧ B.laser = o.laser / cosDeg o.zenith ∧
      (∀ laser h, seenHeight B.airmass laser h = (seenHeight 1 laser h).map (· / cosDeg o.zenith)) ∧
      ((∀ w ∈ o.weights, 0 ≤ w) → (∀ h ∈ o.heights, 0 ≤ h) → ∀ n, Layers.eqLayers A.weights A.heights n ((5:ℝ)/3) =
        (Layers.eqLayers o.weights o.heights n ((5:ℝ)/3)).map (List.map fun l => (l.1, l.2 / cosDeg o.zenith))) := by
  obtain ⟨-, -, hc, -⟩ := airmass_pos o.zenith h1 h2
  have hci : 0 < (cosDeg o.zenith)⁻¹ := by positivity
  refine ⟨_, _, build_ok o h2 h1 r hr, rfl, ?_, (div_eq_mul_inv _ _).symm, ?_, ?_⟩
  · show o.heights.map (· * (cosDeg o.zenith)⁻¹) = _
    apply List.map_congr_left; intro x _; exact (div_eq_mul_inv _ _).symm
  · intro laser h
    unfold seenHeight
    rw [stretch_scale _ hci, stretch_scale 1 one_pos, Option.map_map]
    congr 1; funext f
    simp only [Function.comp]; ring
  · intro hw hh n
    show Layers.eqLayers o.weights (o.heights.map (· * (cosDeg o.zenith)⁻¹)) n _ = _
    unfold Layers.eqLayers
    by_cases hn : o.weights.length < n
    · rw [if_pos hn, if_pos hn]; rfl
    · rw [if_neg hn, if_neg hn, List.length_map]
      simp only
      split_ifs with hx
      · rfl
      · simp only [Except.map, List.map_map]
        congr 2
        funext i
        simp only [Function.comp]
        rw [slabAlt_scale _ _ _ _ (by norm_num) hci hw hh]
        exact congrArg _ (div_eq_mul_inv _ _).symm

/-- C398 (violation): in the angular anisoplanatism of `anisoplanatism_wfe` (and of the structure function, with the same separations)
the airmass counts twice: the PSD is the one of the same atmosphere at the zenith for a target `1/cos^2` times further, not `1/cos`. -/
theorem heights_twice_violation (o : Options) (h1 : -90 < o.zenith) (h2 : o.zenith < 90) (r : ℝ) (hr : zenithR0 o = .ok r) :
    ∃ B0 B A0 A, build { o with zenith := 0 } = .ok B0 ∧ B0.atm = some A0 ∧ build o = .ok B ∧ B.atm = some A ∧
      ∀ tx ty kx ky, Aniso.angularPsd A B.airmass tx ty kx ky =
        Aniso.angularPsd A0 B0.airmass (tx / cosDeg o.zenith ^ 2) (ty / cosDeg o.zenith ^ 2) kx ky := by
  obtain ⟨-, -, hc, -⟩ := airmass_pos o.zenith h1 h2
  refine ⟨_, _, _, _, build_ok { o with zenith := 0 } (by norm_num) (by norm_num) r hr, rfl, build_ok o h2 h1 r hr, rfl, ?_⟩
  intro tx ty kx ky
  have c1 : cosDeg 0 = 1 := by simp [cosDeg]
  unfold Aniso.angularPsd
  simp only [losAtm, mk, c1, inv_one, mul_one, List.map_id', List.map_map]
  congr 1
  apply List.map_congr_left
  intro h _
  simp only [Function.comp]
  have e1 : (h * (cosDeg o.zenith)⁻¹ * (cosDeg o.zenith)⁻¹ ≠ 0 ∧ (tx ≠ 0 ∨ ty ≠ 0)) ↔
      (h ≠ 0 ∧ (tx / cosDeg o.zenith ^ 2 ≠ 0 ∨ ty / cosDeg o.zenith ^ 2 ≠ 0)) := by
    have := hc.ne'
    constructor
    · rintro ⟨a, b⟩
      refine ⟨fun x => a (by rw [x]; ring), ?_⟩
      rcases b with b | b
      · left; positivity
      · right; positivity
    · rintro ⟨a, b⟩
      refine ⟨by positivity, ?_⟩
      rcases b with b | b
      · left; rintro rfl; simp at b
      · right; rintro rfl; simp at b
  have e2 : 2 * Real.pi * (h * (cosDeg o.zenith)⁻¹ * (cosDeg o.zenith)⁻¹) * (kx * tx + ky * ty) =
      2 * Real.pi * h * (kx * (tx / cosDeg o.zenith ^ 2) + ky * (ty / cosDeg o.zenith ^ 2)) := by
    field_simp
  have e3 : Aniso.watm (mk o.wvl (r * cosDeg o.zenith ^ ((3:ℝ)/5)) o.weights (o.heights.map fun x => x * (cosDeg o.zenith)⁻¹) o.speed o.dir o.L0) kx ky =
      Aniso.watm (mk o.wvl r o.weights o.heights o.speed o.dir o.L0) kx ky := by
    unfold Aniso.watm mk; rfl
  simp only [e1, e2]
  split_ifs
  · exact congrArg _ e3
  · rfl

/-- C398 (violation): with one layer at a height `h` above the ground, away from the zenith, there is a frequency at which a target
off axis has anisoplanatism in the spectrum of the Fourier model and none in `anisoplanatism_wfe`. -/
theorem heights_disagree_violation (o : Options) (h1 : -90 < o.zenith) (h2 : o.zenith < 90) (hz : o.zenith ≠ 0) (r : ℝ)
    (hr : zenithR0 o = .ok r) (h : ℝ) (hh : 0 < h) (ho : o.heights = [h]) (t : ℝ) (ht : t ≠ 0) :
    ∃ B A, build o = .ok B ∧ B.atm = some A ∧ ∃ k, ∀ w W, 0 < w → 0 < W →
      Aniso.angularPsd A B.airmass t t k k = 0 ∧ 0 < Fourier.anisoPsd true (t, t) 1 (fun _ => w) (fun _ => h * B.airmass) k k W := by
  obtain ⟨-, -, hc, -⟩ := airmass_pos o.zenith h1 h2
  have hp := Real.pi_pos
  have hc1 : cosDeg o.zenith < 1 := by
    refine lt_of_le_of_ne (Real.cos_le_one _) ?_
    intro he
    have := (Real.cos_eq_one_iff_of_lt_of_lt (x := o.zenith * Real.pi / 180) (by nlinarith) (by nlinarith)).1 he
    apply hz
    have : o.zenith * Real.pi = 0 := by linarith
    rcases mul_eq_zero.1 this with x | x
    · exact x
    · exact absurd x hp.ne'
  refine ⟨_, _, build_ok o h2 h1 r hr, rfl, cosDeg o.zenith ^ 2 / (2 * h * t), ?_⟩
  intro w W hw hW
  constructor
  · unfold Aniso.angularPsd
    simp only [losAtm, mk, ho, List.map_cons, List.map_nil, List.sum_cons, List.sum_nil, add_zero]
    split_ifs
    · have e : 2 * Real.pi * (h * (cosDeg o.zenith)⁻¹ * (cosDeg o.zenith)⁻¹) *
          (cosDeg o.zenith ^ 2 / (2 * h * t) * t + cosDeg o.zenith ^ 2 / (2 * h * t) * t) = 2 * Real.pi := by
        field_simp; ring
      rw [e, Real.cos_two_pi]; ring
    · rfl
  · unfold Fourier.anisoPsd
    rw [if_neg (by simp [ht])]
    simp only [Fourier.msk, Finset.sum_range_one, if_true, one_mul]
    have e : 2 * Real.pi * (h * (cosDeg o.zenith)⁻¹) *
        (cosDeg o.zenith ^ 2 / (2 * h * t) * t + cosDeg o.zenith ^ 2 / (2 * h * t) * t) = 2 * Real.pi * cosDeg o.zenith := by
      field_simp; ring
    rw [e]
    have : Real.cos (2 * Real.pi * cosDeg o.zenith) < 1 := by
      refine lt_of_le_of_ne (Real.cos_le_one _) ?_
      intro he
      have := (Real.cos_eq_one_iff_of_lt_of_lt (x := 2 * Real.pi * cosDeg o.zenith) (by nlinarith) (by nlinarith)).1 he
      have : 0 < 2 * Real.pi * cosDeg o.zenith := by positivity
      linarith
    have : 0 < 1 - Real.cos (2 * Real.pi * cosDeg o.zenith) := by linarith
    positivity

/-! ### Off the zenith and at the zenith (C399) -/

open P3.Observation P3.Tomo in
/-- C399 (several guide stars): an observation through `a` airmasses is the observation at the zenith of a field `a` times larger,
with turbulence `a` times stronger and mirrors conjugated `a` times lower. -/
theorem off_zenith_field {g l lm m q : ℕ} {ι : Type} [Fintype ι] (o : Obs g l lm m q) (a : ℝ) (ha : 0 < a)
    (pg : Matrix (Fin g) (Fin g) ℂ → Matrix (Fin g) (Fin g) ℂ)
    (pm : Matrix (Fin m) (Fin m) ℂ → Matrix (Fin m) (Fin m) ℂ) (S : Samples ι) (β : ℝ × ℝ) (f : ι) :
    (through o a).residual pg pm S β f = (wider o a).residual pg pm S (a * β.1, a * β.2) f ∧
    (through o a).noisePart pg pm S β f = (wider o a).noisePart pg pm S (a * β.1, a * β.2) f := by
  have e : Observation.Spec.stretchedBy (wider o a) a = through o a := by
    unfold Observation.Spec.stretchedBy wider through
    simp only [mul_div_cancel_left₀ _ ha.ne', mul_div_cancel₀ _ ha.ne']
    congr 1
    · funext n; exact mul_comm _ _
    · funext n; exact mul_comm _ _
  have := Geometry.heights_times_angles (wider o a) a ha.ne' pg pm S (a * β.1, a * β.2) f
  simp only [mul_div_cancel_left₀ _ ha.ne'] at this
  rw [e] at this
  exact ⟨this.2.1, this.2.2⟩

open P3.Spectra in
/-- C399 (one guide star): an observation through `a` airmasses is the observation at the zenith of a target `a` times further from the
guide star, with turbulence `a` times stronger: spatio-temporal error and anisoplanatism; the other contributions do not depend on the
heights. -/
theorem off_zenith_target (s : Sys) (a : ℝ) (ha : 0 < a) (ng : ℝ) (th : ℝ × ℝ) (c : Bool) (k : ℝ × ℝ) :
    (throughSys s a).stPsd th c k = (stronger s a).stPsd (a * th.1, a * th.2) c k ∧
    (throughSys s a).aniPsd th c k = (stronger s a).aniPsd (a * th.1, a * th.2) c k ∧
    (throughSys s a).noisePsd ng c k = (stronger s a).noisePsd ng c k ∧ (throughSys s a).aliasPsd c k = (stronger s a).aliasPsd c k ∧
    (throughSys s a).lagPsd c k = (stronger s a).lagPsd c k ∧ (throughSys s a).chromPsd c k = (stronger s a).chromPsd c k ∧
    (throughSys s a).fitPsd k = (stronger s a).fitPsd k := by
  have hd : (throughSys s a).decorr th k = (stronger s a).decorr (a * th.1, a * th.2) k := by
    unfold Sys.decorr Fourier.decorr
    have e1 : decide (th = (0, 0)) = decide ((a * th.1, a * th.2) = ((0:ℝ), (0:ℝ))) := by
      apply decide_eq_decide.2
      rw [Prod.ext_iff, Prod.ext_iff]
      simp [ha.ne']
    rw [e1]
    have e2 : (fun l => (throughSys s a).hs l * (k.1 * th.2 + k.2 * th.1)) =
        (fun l => (stronger s a).hs l * (k.1 * (a * th.1, a * th.2).2 + k.2 * (a * th.1, a * th.2).1)) := by
      funext l
      show s.hs l * a * (k.1 * th.2 + k.2 * th.1) = s.hs l * (k.1 * (a * th.2) + k.2 * (a * th.1))
      ring
    rw [e2]; rfl
  refine ⟨?_, ?_, rfl, rfl, rfl, rfl, rfl⟩
  · unfold Sys.stPsd
    rw [hd]; rfl
  · unfold Sys.aniPsd Fourier.anisoPsd
    have e1 : ((a * th.1, a * th.2).1 = 0 ∧ (a * th.1, a * th.2).2 = 0) ↔ (th.1 = 0 ∧ th.2 = 0) := by simp [ha.ne']
    simp only [e1]
    split_ifs
    · rfl
    · refine congrArg₂ (· * ·) (congrArg₂ (· * ·) rfl (Finset.sum_congr rfl ?_)) rfl
      intro l _
      show 2 * s.w l * (1 - Real.cos (2 * Real.pi * (s.hs l * a) * (k.1 * th.2 + k.2 * th.1))) = 2 * s.w l *
        (1 - Real.cos (2 * Real.pi * s.hs l * (k.1 * (a * th.2) + k.2 * (a * th.1))))
      congr 3; ring

/-! ### Accepted zenith angles (C400) -/

/-- C400 (partial): angles of 90 degrees and more are refused; those between -90 and 90 degrees give an airmass of one at least and an
atmosphere. Missing: the others. -/
theorem zenith_accepted_partial (o : Options) :
    (90 ≤ o.zenith → build o = .error .badZenith) ∧
    (-90 < o.zenith → o.zenith < 90 → ∀ r, zenithR0 o = .ok r → ∃ B A, build o = .ok B ∧ B.atm = some A ∧ 1 ≤ B.airmass) := by
  refine ⟨fun h => by unfold build; rw [if_pos h], ?_⟩
  intro h1 h2 r hr
  obtain ⟨-, he, -, h4⟩ := airmass_pos o.zenith h1 h2
  exact ⟨_, _, build_ok o h2 h1 r hr, rfl, by rw [← he]; exact h4⟩

/-- C400 (violation): angles between -270 and -90 degrees, below the horizon, are accepted: the system is built with a Fried parameter
that is not a number, and layers and laser at negative heights. -/
theorem zenith_below_violation (o : Options) (h1 : -270 < o.zenith) (h2 : o.zenith < -90) (r : ℝ) (hr : zenithR0 o = .ok r) :
    ∃ B, build o = .ok B ∧ B.atm = none ∧ B.airmass < 0 ∧ B.heights = o.heights.map (· * B.airmass) ∧ B.laser = o.laser * B.airmass := by
  have hp := Real.pi_pos
  have hc : Real.cos (o.zenith * Real.pi / 180) < 0 := by
    have : Real.cos (o.zenith * Real.pi / 180 + 2 * Real.pi) < 0 := by
      apply Real.cos_neg_of_pi_div_two_lt_of_lt <;> nlinarith
    rwa [Real.cos_add_two_pi] at this
  have ha : FieldOfView.airmass o.zenith < 0 := by
    unfold FieldOfView.airmass
    exact div_neg_of_pos_of_neg one_pos hc
  unfold build
  rw [if_neg (by linarith), hr]
  simp only [bind, Except.bind]
  rw [if_pos ha]
  exact ⟨_, rfl, rfl, ha, rfl, rfl⟩

/-! ### Cases that meet the hypotheses -/

/-- Two layers, a laser at 90 km, 60 degrees from the zenith. -/
noncomputable def low : Options :=
  ⟨60, 500e-9, some 0.8, none, [0.7, 0.3], [0, 10000], [5, 20], [0, 90], .one 25, 90000⟩

theorem low_r0 : zenithR0 low = .ok (FieldOfView.r0OfSeeing 500e-9 0.8) := rfl

theorem low_pos : 0 < FieldOfView.r0OfSeeing 500e-9 0.8 := by
  have := Real.pi_pos
  unfold FieldOfView.r0OfSeeing; positivity

theorem cos60 : cosDeg 60 = 1 / 2 := by
  unfold cosDeg
  rw [show (60:ℝ) * Real.pi / 180 = Real.pi / 3 by ring, Real.cos_pi_div_three]

/-- At 60 degrees the mean height doubles. -/
example : ∃ B0 B A0 A, build { low with zenith := 0 } = .ok B0 ∧ B0.atm = some A0 ∧ build low = .ok B ∧ B.atm = some A ∧
    meanHeight A = meanHeight A0 / (1 / 2) := by
  obtain ⟨B0, B, A0, A, h1, h2, h3, h4, -, -, -, h, -⟩ := zenith_laws low (by norm_num [low]) (by norm_num [low]) _ low_r0 low_pos
    (by intro w hw; simp [low] at hw; rcases hw with rfl | rfl <;> norm_num) rfl
    (by intro w hw; simp [low] at hw; rcases hw with rfl | rfl <;> norm_num) 8 (by norm_num)
  refine ⟨B0, B, A0, A, h1, h2, h3, h4, ?_⟩
  rw [h, show low.zenith = 60 from rfl, cos60]

example : ∃ θ : ℝ, 0 < θ ∧ ((mk 500e-9 0.15 [0.7, 0.3] [0, 10000] [5, 20] [0, 90] (.one 25)).layers.map
    fun l => structureFunctionInf l.r0 (l.height * θ)).sum = 2 := by
  obtain ⟨θ, h0, -, h⟩ := isoplanatic_angle 500e-9 0.15 [0.7, 0.3] [0, 10000] [5, 20] [0, 90] (.one 25) (by norm_num)
    (by intro w hw; simp at hw; rcases hw with rfl | rfl <;> norm_num) rfl
    (by intro w hw; simp at hw; rcases hw with rfl | rfl <;> norm_num) ⟨10000, by simp, by norm_num⟩
  exact ⟨θ, h0, h⟩

example : ∃ B A, build { low with zenith := 0 } = .ok B ∧ B.atm = some A ∧ seeing A = 0.8 :=
  (seeing_or_r0 low (by norm_num [low]) (by norm_num [low]) 0.8 rfl (by norm_num) (by norm_num [low])).2.1

/-- Laser and layers are twice as far at 60 degrees. -/
example : ∃ B A, build low = .ok B ∧ B.atm = some A ∧ A.heights = [0, 20000] ∧ B.laser = 180000 := by
  obtain ⟨B, A, h1, h2, h3, h4, -⟩ := heights_once_partial low (by norm_num [low]) (by norm_num [low]) _ low_r0
  refine ⟨B, A, h1, h2, ?_, ?_⟩
  · rw [h3, show low.zenith = 60 from rfl, cos60]; norm_num [low]
  · rw [h4, show low.zenith = 60 from rfl, cos60]; norm_num [low]

/-- One layer at 10 km seen at 60 degrees. -/
noncomputable def lowOne : Options := { low with weights := [1], heights := [10000], speed := [10], dir := [0] }

example : ∃ B A, build lowOne = .ok B ∧ B.atm = some A ∧ ∃ k, ∀ w W, 0 < w → 0 < W →
    Aniso.angularPsd A B.airmass 1e-5 1e-5 k k = 0 ∧
    0 < Fourier.anisoPsd true (1e-5, 1e-5) 1 (fun _ => w) (fun _ => 10000 * B.airmass) k k W :=
  heights_disagree_violation lowOne (by norm_num [lowOne, low]) (by norm_num [lowOne, low]) (by norm_num [lowOne, low]) _ low_r0
    10000 (by norm_num) rfl 1e-5 (by norm_num)

example (pg : Matrix (Fin 2) (Fin 2) ℂ → Matrix (Fin 2) (Fin 2) ℂ) (pm : Matrix (Fin 1) (Fin 1) ℂ → Matrix (Fin 1) (Fin 1) ℂ) :
    (through Geometry.demoLaser 2).residual pg pm (⟨fun _ => (0.3, 0.4), fun _ => false⟩ : Observation.Samples Unit) (5e-5, 0) () =
      (wider Geometry.demoLaser 2).residual pg pm ⟨fun _ => (0.3, 0.4), fun _ => false⟩ (2 * 5e-5, 2 * 0) () :=
  (off_zenith_field Geometry.demoLaser 2 (by norm_num) pg pm _ (5e-5, 0) ()).1

example : (throughSys Spectra.demo 2).stPsd (1e-5, 0) true (0.3, 0.4) =
    (stronger Spectra.demo 2).stPsd (2 * 1e-5, 2 * 0) true (0.3, 0.4) :=
  (off_zenith_target Spectra.demo 2 (by norm_num) 1 (1e-5, 0) true (0.3, 0.4)).1

example : ∃ B A, build low = .ok B ∧ B.atm = some A ∧ 1 ≤ B.airmass :=
  (zenith_accepted_partial low).2 (by norm_num [low]) (by norm_num [low]) _ low_r0

/-- 180 degrees, the other way around. -/
example : ∃ B, build { low with zenith := -180 } = .ok B ∧ B.atm = none ∧ B.airmass < 0 := by
  obtain ⟨B, h1, h2, h3, -⟩ := zenith_below_violation { low with zenith := -180 } (by norm_num) (by norm_num) _ low_r0
  exact ⟨B, h1, h2, h3⟩

end P3.Zenith
