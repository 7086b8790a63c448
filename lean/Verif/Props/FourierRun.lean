import Verif.Model.FourierRun
import Verif.Props.Psd
import Verif.Props.Breakdown
import Mathlib.Tactic.LinearCombination
import Mathlib.Analysis.SpecialFunctions.Integrals.Basic
/-
Properties of the run of the Fourier model: breakdown, repetition, heights of the modelled layers.
-/
namespace P3.FRun
open Finset P3.Fourier P3.Breakdown

variable {ι : Type}

/-! ### C175: the breakdown is the integral of the PSD -/

theorem rms_eq (u x : ℝ) (h : 0 ≤ x) : rms u x = some (Real.sqrt x * u) := by
  unfold rms sqrtO; rw [if_neg (not_lt.2 h)]; rfl

theorem rms_sq (u x : ℝ) (h : 0 ≤ x) : ∃ y, rms u x = some y ∧ y ^ 2 = x * u ^ 2 :=
  ⟨_, rms_eq u x h, by rw [mul_pow, Real.sq_sqrt h]⟩

/-- The sums that enter the breakdown of source `s` are non-negative (C39 proves it of the model's terms). -/
structure Run.Ok (r : Run ι) (s : ℕ) : Prop where
  fit : 0 ≤ r.sumAll r.fit
  aliasing : 0 ≤ r.sumAO r.aliasing
  noise : 0 ≤ r.sumAO (r.noise s)
  st : 0 ≤ r.sumAO (r.st s)
  diffRef : 0 ≤ r.sumAO (r.diffRef s)
  chrom : 0 ≤ r.sumAO (r.chrom s)
  vib : 0 ≤ r.sumAO r.vib
  mcao : 0 ≤ r.sumAll (r.mcaoArr 0)

/-- Sum of the cone-effect array, zero where it is not computed. -/
noncomputable def Run.coneSum (r : Run ι) : ℝ := if r.nGs = 1 ∧ r.height ≠ 0 then r.sumAll r.cone else 0

/-- The integral of the PSD of a source, without tilt filter, in terms of the arrays. -/
theorem psd_sum (r : Run ι) (s : ℕ) (ht : r.tiltOn = false) :
    ∑ i ∈ r.grid, r.psd s i = r.u ^ 2 * (r.sumAO (r.noise s) + r.sumAO r.aliasing + r.sumAO (r.diffRef s) +
      r.sumAO (r.chrom s) + r.sumAO (r.st s) + r.coneSum + r.sumAll (r.mcaoArr s) + r.sumAll r.fit +
      (if r.wind then r.sumAO r.vib else 0) + r.sumAll (r.extra s)) := by
  have e : ∀ i, r.psd s i = r.u ^ 2 * ((if r.block i then r.noise s i else 0) + (if r.block i then r.aliasing i else 0) +
      (if r.block i then r.diffRef s i else 0) + (if r.block i then r.chrom s i else 0) + (if r.block i then r.st s i else 0) +
      (if r.nGs = 1 ∧ r.height ≠ 0 then r.cone i else 0) + r.mcaoArr s i + r.fit i +
      (if r.wind then (if r.block i then r.vib i else 0) else 0) + r.extra s i) := by
    intro i
    unfold Run.psd psdFinal psdAdd psdCore Run.mcaoArr
    have htl : (r.terms s i).tilt = 1 := by show (if r.tiltOn then r.tilt i else 1) = 1; rw [ht]; rfl
    have hv : (r.terms s i).vib = if r.wind then r.vib i else 0 := by
      show (if r.tiltOn = false ∧ r.wind = true then r.vib i else 0) = _
      simp [ht]
    simp only [htl, hv]
    generalize (r.terms s i).mcao _ = mc
    have h1 : (r.terms s i).noise = r.noise s i := rfl
    have h2 : (r.terms s i).aliasing = r.aliasing i := rfl
    have h3 : (r.terms s i).diffRef = r.diffRef s i := rfl
    have h4 : (r.terms s i).chrom = r.chrom s i := rfl
    have h5 : (r.terms s i).st = r.st s i := rfl
    have h6 : (r.terms s i).cone = if r.nGs = 1 ∧ r.height ≠ 0 then r.cone i else 0 := rfl
    have h7 : (r.terms s i).fit = r.fit i := rfl
    have h8 : (r.terms s i).extra = r.extra s i := rfl
    rw [h1, h2, h3, h4, h5, h6, h7, h8]
    generalize (if r.nGs = 1 ∧ r.height ≠ 0 then r.cone i else 0) = cn
    cases r.block i <;> cases r.wind <;> simp only [if_true, if_false, Bool.false_eq_true] <;> ring
  rw [sum_congr rfl fun i _ => e i, ← mul_sum]
  unfold Run.sumAO Run.sumAll Run.coneSum Run.sumAll
  simp only [sum_add_distrib]
  have h6 : (∑ i ∈ r.grid, if r.nGs = 1 ∧ r.height ≠ 0 then r.cone i else 0) =
      if r.nGs = 1 ∧ r.height ≠ 0 then ∑ i ∈ r.grid, r.cone i else 0 := by split_ifs <;> simp
  have h9 : (∑ i ∈ r.grid, if r.wind then (if r.block i then r.vib i else 0) else 0) =
      if r.wind then ∑ i ∈ r.grid, (if r.block i then r.vib i else 0) else 0 := by
    cases r.wind <;> simp
  rw [h6, h9]

/-- Sum of squares of the reported errors. -/
theorem quad_total (l : List ℝ) : quad (l.map some) = some (Real.sqrt ((l.map (· ^ 2)).sum)) := by
  have key : ∀ (l : List ℝ) (a : ℝ), (l.map some).foldl (fun a x => add a (sq x)) (some a) = some (a + (l.map (· ^ 2)).sum) := by
    intro l
    induction l with
    | nil => intro a; simp
    | cons x l ih =>
      intro a
      rw [List.map_cons, List.foldl_cons]
      show (l.map some).foldl _ (some (a + x ^ 2)) = _
      rw [ih]; simp [add_assoc]
  unfold quad
  rw [key, zero_add]
  show sqrtO _ = _
  unfold sqrtO
  rw [if_neg]
  apply not_lt.2
  apply List.sum_nonneg
  intro x hx
  rw [List.mem_map] at hx
  obtain ⟨y, _, rfl⟩ := hx
  positivity

/-- C175 (exact form): whenever a breakdown is reported for a source, its total is the root of the sum of the squares
of its terms, each of which is the integral of its part of the PSD; and the integral of the PSD returned for that
source is the square of the total without static aberrations and jitter, plus the cone effect of a single laser,
plus the difference between the MCAO cone effect of this source and that of the first one, plus the difference of the
extra error of this source from the one in the breakdown. -/
theorem breakdown_exact (r : Run ι) (s : ℕ) (ok : r.Ok s) (ht : r.tiltOn = false) (hc : r.closed = true)
    (hm : r.addMcao = true → r.nGs ≠ 1 ∧ r.height ≠ 0) (n : ℝ) (hn : r.wfeNcpa = some n) :
    ∃ rep tot, r.breakdown s = .ok (some rep) ∧ rep.total = some tot ∧ 0 ≤ tot ∧ rep.ncpa = some n ∧
      (∃ y, rep.fit = some y ∧ y ^ 2 = r.u ^ 2 * r.sumAll r.fit) ∧
      (∃ y, rep.aliasing = some y ∧ y ^ 2 = r.u ^ 2 * r.sumAO r.aliasing) ∧
      (∃ y, rep.noise = some y ∧ y ^ 2 = r.u ^ 2 * r.sumAO (r.noise s)) ∧
      (∃ y, rep.st = some y ∧ y ^ 2 = r.u ^ 2 * r.sumAO (r.st s)) ∧
      (∃ y, rep.diffRef = some y ∧ y ^ 2 = r.u ^ 2 * r.sumAO (r.diffRef s)) ∧
      (∃ y, rep.chrom = some y ∧ y ^ 2 = r.u ^ 2 * r.sumAO (r.chrom s)) ∧
      ∑ i ∈ r.grid, r.psd s i = tot ^ 2 - n ^ 2 - rep.jitter ^ 2 + r.u ^ 2 * r.coneSum +
        r.u ^ 2 * (r.sumAll (r.mcaoArr s) - if r.addMcao then r.sumAll (r.mcaoArr 0) else 0) +
        (r.u ^ 2 * r.sumAll (r.extra s) - r.extraNm ^ 2) := by
  obtain ⟨f, hf, hf2⟩ := rms_sq r.u _ ok.fit
  obtain ⟨a, ha, ha2⟩ := rms_sq r.u _ ok.aliasing
  obtain ⟨no, hno, hno2⟩ := rms_sq r.u _ ok.noise
  obtain ⟨st, hst, hst2⟩ := rms_sq r.u _ ok.st
  obtain ⟨d, hd, hd2⟩ := rms_sq r.u _ ok.diffRef
  obtain ⟨ch, hch, hch2⟩ := rms_sq r.u _ ok.chrom
  obtain ⟨v, hv, hv2⟩ := rms_sq r.u _ ok.vib
  obtain ⟨m, hmm, hm2⟩ := rms_sq r.u _ ok.mcao
  have ew : r.wfeWind = some (if r.wind then v else 0) := by
    unfold Run.wfeWind
    rw [ht]
    cases r.wind <;> simp [hv]
  have em : r.wfeMcao = .ok (some (if r.addMcao then m else 0)) := by
    unfold Run.wfeMcao
    cases h : r.addMcao
    · simp
    · simp only [if_true]
      rw [if_pos (hm h), hmm]
  refine ⟨⟨some n, some f, some a, some no, some st, some d, some ch, r.wfeJitter, some (if r.addMcao then m else 0),
    some (if r.wind then v else 0), r.extraNm, _⟩, Real.sqrt (([n, f, a, st, no, d, ch, r.wfeJitter, (if r.addMcao then m else 0),
      (if r.wind then v else 0), r.extraNm].map (· ^ 2)).sum), ?_, rfl, Real.sqrt_nonneg _, rfl, ⟨f, rfl, by rw [hf2]; ring⟩,
      ⟨a, rfl, by rw [ha2]; ring⟩, ⟨no, rfl, by rw [hno2]; ring⟩, ⟨st, rfl, by rw [hst2]; ring⟩, ⟨d, rfl, by rw [hd2]; ring⟩,
      ⟨ch, rfl, by rw [hch2]; ring⟩, ?_⟩
  · unfold Run.breakdown
    rw [hc, em]
    simp only [if_true, bind, Except.bind, pure, Except.pure, hn, hf, ha, hno, hst, hd, hch, ew]
    rw [← quad_total]
    rfl
  · rw [Real.sq_sqrt (List.sum_nonneg (by
      intro x hx
      rw [List.mem_map] at hx
      obtain ⟨y, _, rfl⟩ := hx
      positivity)), psd_sum r s ht]
    simp only [List.map_cons, List.map_nil, List.sum_cons, List.sum_nil]
    have e1 : (if r.addMcao then m else 0) ^ 2 = r.u ^ 2 * (if r.addMcao then r.sumAll (r.mcaoArr 0) else 0) := by
      cases r.addMcao
      · simp
      · simp only [if_true]; rw [hm2]; ring
    have e2 : (if r.wind then v else 0) ^ 2 = r.u ^ 2 * (if r.wind then r.sumAO r.vib else 0) := by
      cases r.wind
      · simp
      · simp only [if_true]; rw [hv2]; ring
    rw [e1, e2, hf2, ha2, hno2, hst2, hd2, hch2]
    ring

/-- C175 (part): in closed loop, with natural guide stars or without cone effect, no MCAO cone effect and the extra
error of the breakdown on the source, the integral of the PSD is the total error minus static aberrations and jitter.
Missing: a single laser, off-axis sources with the MCAO cone effect, the stars of the low-order sensors, the tilt filter. -/
theorem breakdown_partial (r : Run ι) (s : ℕ) (ok : r.Ok s) (ht : r.tiltOn = false) (hc : r.closed = true)
    (hh : r.height = 0 ∨ r.nGs ≠ 1) (hm : r.addMcao = false) (hx : r.u ^ 2 * r.sumAll (r.extra s) = r.extraNm ^ 2)
    (n : ℝ) (hn : r.wfeNcpa = some n) :
    ∃ rep tot, r.breakdown s = .ok (some rep) ∧ rep.total = some tot ∧ 0 ≤ tot ∧
      tot ^ 2 = n ^ 2 + rep.jitter ^ 2 + ∑ i ∈ r.grid, r.psd s i := by
  obtain ⟨rep, tot, h1, h2, h3, _, _, _, _, _, _, _, h⟩ := breakdown_exact r s ok ht hc (by rw [hm]; intro h; cases h) n hn
  refine ⟨rep, tot, h1, h2, h3, ?_⟩
  have hcone : r.coneSum = 0 := by
    unfold Run.coneSum
    rw [if_neg]
    rintro ⟨a, b⟩
    rcases hh with h | h
    · exact b h
    · exact h a
  have hmc : r.sumAll (r.mcaoArr s) = 0 := by
    unfold Run.sumAll
    refine sum_eq_zero fun i _ => ?_
    unfold Run.mcaoArr
    have : (r.terms s i).mcao = fun _ => 0 := by
      show (if r.addMcao = true ∧ r.nGs ≠ 1 ∧ r.height ≠ 0 then r.mcao s i else fun _ => 0) = _
      rw [if_neg]; rw [hm]; rintro ⟨h, _⟩; cases h
    rw [this]
  rw [h, hcone, hmc, hm, hx]
  simp

/-- C175 (violation): with a single laser guide star the cone effect is in the PSD but not in the total. -/
theorem breakdown_cone_violation (r : Run ι) (s : ℕ) (ok : r.Ok s) (ht : r.tiltOn = false) (hc : r.closed = true)
    (hg : r.nGs = 1) (hh : r.height ≠ 0) (hm : r.addMcao = false) (hx : r.u ^ 2 * r.sumAll (r.extra s) = r.extraNm ^ 2)
    (hu : r.u ≠ 0) (hcone : 0 < r.sumAll r.cone) (n : ℝ) (hn : r.wfeNcpa = some n) :
    ∃ rep tot, r.breakdown s = .ok (some rep) ∧ rep.total = some tot ∧
      tot ^ 2 < n ^ 2 + rep.jitter ^ 2 + ∑ i ∈ r.grid, r.psd s i := by
  obtain ⟨rep, tot, h1, h2, h3, _, _, _, _, _, _, _, h⟩ := breakdown_exact r s ok ht hc (by rw [hm]; intro h; cases h) n hn
  refine ⟨rep, tot, h1, h2, ?_⟩
  have hmc : r.sumAll (r.mcaoArr s) = 0 := by
    unfold Run.sumAll
    refine sum_eq_zero fun i _ => ?_
    unfold Run.mcaoArr
    have : (r.terms s i).mcao = fun _ => 0 := by
      show (if r.addMcao = true ∧ r.nGs ≠ 1 ∧ r.height ≠ 0 then r.mcao s i else fun _ => 0) = _
      rw [if_neg]; rw [hm]; rintro ⟨h, _⟩; cases h
    rw [this]
  have e : r.coneSum = r.sumAll r.cone := by unfold Run.coneSum; rw [if_pos ⟨hg, hh⟩]
  rw [h, e, hmc, hm, hx]
  have : 0 < r.u ^ 2 * r.sumAll r.cone := by positivity
  simp only [Bool.false_eq_true, if_false]
  linarith

/-- Without vibrations the breakdown does not depend on the tilt filter. -/
theorem breakdown_tilt (r : Run ι) (s : ℕ) (b : Bool) (hw : r.wind = false) :
    ({r with tiltOn := b}).breakdown s = r.breakdown s := by
  have e : ({r with tiltOn := b}).wfeWind = r.wfeWind := by
    unfold Run.wfeWind
    simp [hw]
  unfold Run.breakdown
  rw [e]
  rfl

/-- C175 (violation): the tilt filter lowers the integral of the PSD but not the reported total. -/
theorem breakdown_tilt_violation (r : Run ι) (s : ℕ) (hw : r.wind = false) (hu : r.u ≠ 0)
    (hp : ∀ i ∈ r.grid, 0 ≤ psdCore (r.block i) (r.terms s i) + r.fit i) (ht : ∀ i ∈ r.grid, r.tilt i ≤ 1)
    (i₀ : ι) (hi : i₀ ∈ r.grid) (hp0 : 0 < psdCore (r.block i₀) (r.terms s i₀) + r.fit i₀) (ht0 : r.tilt i₀ < 1) :
    ({r with tiltOn := true}).breakdown s = ({r with tiltOn := false}).breakdown s ∧
    ∑ i ∈ r.grid, ({r with tiltOn := true}).psd s i < ∑ i ∈ r.grid, ({r with tiltOn := false}).psd s i := by
  refine ⟨by rw [breakdown_tilt r s true hw, breakdown_tilt r s false hw], ?_⟩
  have hu2 : 0 < r.u ^ 2 := by positivity
  have core : ∀ b i, psdCore (r.block i) (({r with tiltOn := b}).terms s i) = psdCore (r.block i) (r.terms s i) := by
    intro b i
    have h1 : (({r with tiltOn := b}).terms s i).noise = (r.terms s i).noise := rfl
    have h2 : (({r with tiltOn := b}).terms s i).aliasing = (r.terms s i).aliasing := rfl
    have h3 : (({r with tiltOn := b}).terms s i).diffRef = (r.terms s i).diffRef := rfl
    have h4 : (({r with tiltOn := b}).terms s i).chrom = (r.terms s i).chrom := rfl
    have h5 : (({r with tiltOn := b}).terms s i).st = (r.terms s i).st := rfl
    have h6 : (({r with tiltOn := b}).terms s i).cone = (r.terms s i).cone := rfl
    have h7 : (({r with tiltOn := b}).terms s i).mcao = (r.terms s i).mcao := rfl
    unfold psdCore
    rw [h1, h2, h3, h4, h5, h6, h7]
  have e : ∀ b i, ({r with tiltOn := b}).psd s i =
      ((psdCore (r.block i) (r.terms s i) + r.fit i) * (if b then r.tilt i else 1) + r.extra s i) * r.u ^ 2 := by
    intro b i
    have h1 : (({r with tiltOn := b}).terms s i).fit = r.fit i := rfl
    have h2 : (({r with tiltOn := b}).terms s i).tilt = if b then r.tilt i else 1 := rfl
    have h3 : (({r with tiltOn := b}).terms s i).vib = 0 := by
      have : (({r with tiltOn := b}).terms s i).vib = if b = false ∧ r.wind = true then r.vib i else 0 := rfl
      rw [this, hw, if_neg]
      rintro ⟨_, h⟩; cases h
    have h4 : (({r with tiltOn := b}).terms s i).extra = r.extra s i := rfl
    have h5 : ({r with tiltOn := b}).block i = r.block i := rfl
    have h6 : ({r with tiltOn := b}).u = r.u := rfl
    unfold Run.psd psdFinal psdAdd
    rw [h5, h6, h1, h2, h3, h4, core]
    simp
  have e1 : ∀ i, ({r with tiltOn := true}).psd s i =
      ((psdCore (r.block i) (r.terms s i) + r.fit i) * r.tilt i + r.extra s i) * r.u ^ 2 := fun i => e true i
  have e0 : ∀ i, ({r with tiltOn := false}).psd s i =
      ((psdCore (r.block i) (r.terms s i) + r.fit i) + r.extra s i) * r.u ^ 2 := fun i => by rw [e false i]; simp
  simp only [e1, e0]
  apply sum_lt_sum
  · intro i h
    apply mul_le_mul_of_nonneg_right _ hu2.le
    nlinarith [hp i h, ht i h]
  · refine ⟨i₀, hi, ?_⟩
    apply mul_lt_mul_of_pos_right _ hu2
    nlinarith

/-- Non-vacuity: a one-frequency run in closed loop with a single laser, to which `breakdown_cone_violation` and the
exact form apply. -/
example : ∃ r : Run Unit, r.Ok 0 ∧ r.tiltOn = false ∧ r.closed = true ∧ r.nGs = 1 ∧ r.height ≠ 0 ∧ r.addMcao = false ∧
    r.u ^ 2 * r.sumAll (r.extra 0) = r.extraNm ^ 2 ∧ r.u ≠ 0 ∧ 0 < r.sumAll r.cone ∧ r.wfeNcpa = some 0 := by
  refine ⟨⟨univ, fun _ => true, fun _ _ => 1, fun _ => 2, fun _ _ => 3, fun _ _ => 4, fun _ _ => 5, fun _ => 6,
    fun _ _ _ => 0, fun _ => 7, fun _ => 8, fun _ => 1, fun _ _ => 9, 1, 1, 90000, false, false, true, none, 8, (1, 1), 3,
    1, true⟩, ⟨?_, ?_, ?_, ?_, ?_, ?_, ?_, ?_⟩, rfl, rfl, rfl, ?_, rfl, ?_, ?_, ?_, rfl⟩ <;>
    (simp [Run.sumAll, Run.sumAO, Run.mcaoArr, Run.terms]; try norm_num)

/-! ### C176: when a breakdown is reported -/

/-- C176 (part): the exact cases: nothing is reported in open loop; in closed loop a report is made except when the MCAO
cone effect is requested for a single guide star or natural guide stars.  Missing: those cases. -/
theorem breakdown_cases_partial (r : Run ι) (s : ℕ) :
    (r.breakdown s = .ok none ↔ r.closed = false) ∧
    (r.breakdown s = .error .attributeError ↔ r.closed = true ∧ r.addMcao = true ∧ (r.nGs = 1 ∨ r.height = 0)) ∧
    ((∃ rep, r.breakdown s = .ok (some rep)) ↔ r.closed = true ∧ (r.addMcao = true → r.nGs ≠ 1 ∧ r.height ≠ 0)) := by
  unfold Run.breakdown Run.wfeMcao
  cases r.closed
  · simp [pure, Except.pure]
  · cases r.addMcao
    · simp [pure, Except.pure, bind, Except.bind]
    · by_cases h : r.nGs ≠ 1 ∧ r.height ≠ 0
      · simp only [if_true]
        rw [if_pos h]
        simp [pure, Except.pure, bind, Except.bind, h.1, h.2]
      · simp only [if_true]
        rw [if_neg h]
        have h' : r.nGs = 1 ∨ r.height = 0 := by
          by_contra hc
          rw [not_or] at hc
          exact h hc
        simp [bind, Except.bind, h']
        tauto

/-- C176 (violation): the tomographic error is not a number when the servo-lag error exceeds the spatio-temporal error. -/
theorem wfeTomo_nan (wst ws : ℝ) (h0 : 0 ≤ wst) (h1 : 0 ≤ ws) : wfeTomo wst ws = none ↔ wst < ws := by
  unfold wfeTomo sqrtO
  constructor
  · intro h
    split_ifs at h with hl
    nlinarith
  · intro h
    rw [if_pos (by nlinarith)]

/-- Otherwise servo-lag and tomographic errors make up the spatio-temporal error. -/
theorem wfeTomo_spec (wst ws : ℝ) (h1 : 0 ≤ ws) (h : ws ≤ wst) :
    ∃ t, wfeTomo wst ws = some t ∧ 0 ≤ t ∧ t ^ 2 + ws ^ 2 = wst ^ 2 := by
  have hn : 0 ≤ wst ^ 2 - ws ^ 2 := by nlinarith
  refine ⟨Real.sqrt (wst ^ 2 - ws ^ 2), ?_, Real.sqrt_nonneg _, ?_⟩
  · unfold wfeTomo sqrtO; rw [if_neg (not_lt.2 hn)]
  · rw [Real.sq_sqrt hn]; ring

/-- The reconstruction error is always a number. -/
theorem wfeRec_spec (u x : ℝ) : ∃ y, wfeRec u x = some y ∧ y ^ 2 = max 0 x * u ^ 2 :=
  rms_sq u (max 0 x) (le_max_left _ _)

/-! ### C177: Maréchal Strehl ratio, static aberrations -/

/-- C177: the Maréchal Strehl ratio is `100 exp(-σ²)` for the rms phase `σ = 2π wfe/λ` (error in nm, wavelength in m):
between 0 and 100, 100 exactly without error, and decreasing with the error. -/
theorem marechal_spec (w t t' : ℝ) (hw : 0 < w) (ht : 0 ≤ t) :
    marechal w t = 100 * Real.exp (-(2 * Real.pi * (t * 1e-9) / w) ^ 2) ∧ 0 < marechal w t ∧ marechal w t ≤ 100 ∧
    (marechal w t = 100 ↔ t = 0) ∧ (t < t' → marechal w t' < marechal w t) := by
  have hpi := Real.pi_pos
  have hk : 0 < 2 * Real.pi * 1e-9 / w := by positivity
  have e : ∀ t, marechal w t = 100 * Real.exp (-(t * (2 * Real.pi * 1e-9 / w)) ^ 2) := by
    intro t; unfold marechal; congr 2; ring_nf
  refine ⟨?_, ?_, ?_, ?_, ?_⟩
  · rw [e]; congr 2; ring_nf
  · rw [e]; positivity
  · rw [e]
    have : Real.exp (-(t * (2 * Real.pi * 1e-9 / w)) ^ 2) ≤ 1 := Real.exp_le_one_iff.2 (by nlinarith [sq_nonneg (t * (2 * Real.pi * 1e-9 / w))])
    linarith
  · rw [e]
    constructor
    · intro h
      have h1 : Real.exp (-(t * (2 * Real.pi * 1e-9 / w)) ^ 2) = 1 := by linarith
      rw [Real.exp_eq_one_iff] at h1
      have h2 : (t * (2 * Real.pi * 1e-9 / w)) ^ 2 = 0 := by linarith
      rw [pow_eq_zero_iff (by norm_num), mul_eq_zero] at h2
      rcases h2 with h2 | h2
      · exact h2
      · exact absurd h2 hk.ne'
    · rintro rfl; simp
  · intro h
    rw [e, e]
    apply mul_lt_mul_of_pos_left _ (by norm_num)
    apply Real.exp_lt_exp.2
    have : t * (2 * Real.pi * 1e-9 / w) < t' * (2 * Real.pi * 1e-9 / w) := mul_lt_mul_of_pos_right h hk
    have h0 : 0 ≤ t * (2 * Real.pi * 1e-9 / w) := by positivity
    nlinarith

theorem sum_map_add (l : List ℝ) (c : ℝ) : (l.map (· + c)).sum = l.sum + l.length * c := by
  induction l with
  | nil => simp
  | cons a l ih => simp [ih]; ring

/-- C177: the static error of the breakdown is non-negative, does not depend on piston, and is zero exactly for a
constant map; its square plus the squared mean is the mean square. -/
theorem std_spec (l : List ℝ) (hl : l ≠ []) : ∃ y, std l = some y ∧ 0 ≤ y ∧
    y ^ 2 + (l.sum / l.length) ^ 2 = (l.map (· ^ 2)).sum / l.length ∧
    (∀ c, std (l.map (· + c)) = std l) ∧ (y = 0 ↔ ∀ x ∈ l, x = l.sum / l.length) := by
  have hn : (0:ℝ) < l.length := by
    have : 0 < l.length := List.length_pos_of_ne_nil hl
    exact_mod_cast this
  have nonneg : ∀ m, 0 ≤ (l.map (fun x => (x - m) ^ 2)).sum := by
    intro m
    apply List.sum_nonneg
    intro x hx
    rw [List.mem_map] at hx
    obtain ⟨y, _, rfl⟩ := hx
    positivity
  have expand : ∀ (l : List ℝ) (m : ℝ), (l.map (fun x => (x - m) ^ 2)).sum = (l.map (· ^ 2)).sum - 2 * m * l.sum + l.length * m ^ 2 := by
    intro l m
    induction l with
    | nil => simp
    | cons a l ih => simp only [List.map_cons, List.sum_cons, ih, List.length_cons]; push_cast; ring
  refine ⟨_, by unfold std; rw [if_neg hl], Real.sqrt_nonneg _, ?_, ?_, ?_⟩
  · rw [Real.sq_sqrt (div_nonneg (nonneg _) hn.le), expand]
    field_simp
    ring
  · intro c
    unfold std
    rw [if_neg hl, if_neg (by simpa using hl)]
    simp only [List.length_map, List.map_map, sum_map_add]
    congr 3
    apply congrArg
    apply List.map_congr_left
    intro x _
    simp only [Function.comp]
    rw [show (l.sum + l.length * c) / l.length = l.sum / l.length + c by field_simp]
    ring
  · rw [Real.sqrt_eq_zero (div_nonneg (nonneg _) hn.le), div_eq_zero_iff]
    constructor
    · rintro (h | h)
      · intro x hx
        have hle := List.single_le_sum (l := l.map (fun x => (x - l.sum / l.length) ^ 2)) (by
          intro z hz
          rw [List.mem_map] at hz
          obtain ⟨y, _, rfl⟩ := hz
          positivity) ((x - l.sum / l.length) ^ 2) (List.mem_map.2 ⟨x, hx, rfl⟩)
        rw [h] at hle
        have : (x - l.sum / l.length) ^ 2 = 0 := le_antisymm hle (by positivity)
        have h2 : x - l.sum / l.length = 0 := by simpa using this
        linarith
      · exact absurd h hn.ne'
    · intro h
      left
      apply List.sum_eq_zero
      intro z hz
      rw [List.mem_map] at hz
      obtain ⟨y, hy, rfl⟩ := hz
      rw [← h y hy]; simp

/-- C177: the jitter of the breakdown is the rms, in nm over a circular aperture of diameter `D`, of a tilt of the
mean full width of the jitter (`fwhm` mas, that is `fwhm * pi/(180*3600*1000)` rad). -/
theorem jitter_spec {ι : Type} (r : Run ι) (hD : 0 < r.D) :
    r.wfeJitter ^ 2 = 1e9 ^ 2 * ((r.spot.1 + r.spot.2) / 2 * (Real.pi / (180 * 3600 * 1000))) ^ 2 *
      ((∫ ρ in (0:ℝ)..(r.D / 2), ∫ φ in (0:ℝ)..(2 * Real.pi), (ρ * Real.cos φ) ^ 2 * ρ) / (Real.pi * (r.D / 2) ^ 2)) := by
  have hpi := Real.pi_pos
  have hin : ∀ ρ : ℝ, ∫ φ in (0:ℝ)..(2 * Real.pi), (ρ * Real.cos φ) ^ 2 * ρ = Real.pi * ρ ^ 3 := by
    intro ρ
    have : (fun φ => (ρ * Real.cos φ) ^ 2 * ρ) = fun φ => ρ ^ 3 * Real.cos φ ^ 2 := by funext φ; ring
    rw [this, intervalIntegral.integral_const_mul, integral_cos_sq]
    simp
    ring
  simp only [hin]
  rw [intervalIntegral.integral_const_mul, integral_pow]
  unfold Run.wfeJitter
  norm_num
  field_simp
  ring

/-! ### C178: running twice -/

/-- C178 (exact form): after a first run, a second one succeeds exactly when there is at most one noise variance and the
field of view covers the corrected area at the science wavelength (the first run checked it at the wavelength of the
atmosphere); the state is then unchanged. -/
theorem second_run (kc ps : ℝ) (n : ℕ) (w : ℝ) (c : List ℝ) (s s' : State) (h : initRun kc ps n w c s = .ok s') :
    s'.wvl = w ∧ (s.noise = .unset → s'.noise = .arr c) ∧ (∀ v, s.noise = .arr v → s'.noise = .arr v ∧ v.length ≤ 1) ∧
    (∀ v, s'.noise = .arr v → ((∃ s'', initRun kc ps n w c s' = .ok s'') ↔ v.length ≤ 1 ∧ P3.Freq.fovCheck kc w ps n)) ∧
    (∀ s'', initRun kc ps n w c s' = .ok s'' → s'' = s') := by
  have main : s' = ⟨w, s'.noise⟩ ∧ (s.noise = .unset → s'.noise = .arr c) ∧
      (∀ v, s.noise = .arr v → s'.noise = .arr v ∧ v.length ≤ 1) := by
    unfold initRun at h
    split_ifs at h with hf
    cases hn : s.noise with
    | unset =>
      rw [hn] at h
      simp only [isUnset, Except.ok.injEq] at h
      rw [← h]; exact ⟨rfl, fun _ => rfl, fun v hv => (by cases hv)⟩
    | arr v =>
      rw [hn] at h
      by_cases hl : 2 ≤ v.length
      · simp [isUnset, hl] at h
      · simp only [isUnset, hl, if_false, Except.ok.injEq] at h
        rw [← h]
        refine ⟨rfl, fun h => (by cases h), fun v' hv' => ?_⟩
        cases hv'
        exact ⟨rfl, by omega⟩
  obtain ⟨m1, m2, m3⟩ := main
  have arr : ∃ v, s'.noise = .arr v := by
    cases hn : s.noise with
    | unset => exact ⟨_, m2 hn⟩
    | arr v => exact ⟨_, (m3 v hn).1⟩
  obtain ⟨v, hv⟩ := arr
  have hs : s' = ⟨w, .arr v⟩ := by rw [m1, hv]
  refine ⟨by rw [hs], m2, m3, ?_, ?_⟩
  · intro v' hv'
    rw [hv] at hv'
    cases hv'
    rw [hs]
    unfold initRun
    by_cases hf : P3.Freq.fovCheck kc w ps n
    · rw [if_neg (not_not.2 hf)]
      by_cases hl : 2 ≤ v.length
      · simp only [isUnset, hl, if_true]
        constructor
        · rintro ⟨_, h⟩; cases h
        · rintro ⟨h, _⟩; omega
      · simp only [isUnset, hl, if_false]
        exact ⟨fun _ => ⟨by omega, hf⟩, fun _ => ⟨_, rfl⟩⟩
    · rw [if_pos hf]
      constructor
      · rintro ⟨_, h⟩; cases h
      · rintro ⟨_, h⟩; exact absurd h hf
  · intro s'' h''
    rw [hs] at h'' ⊢
    unfold initRun at h''
    split_ifs at h'' with hf
    by_cases hl : 2 ≤ v.length
    · simp [isUnset, hl] at h''
    · simp only [isUnset, hl, if_false, Except.ok.injEq] at h''
      rw [← h'']

/-- C178: with one sensor and a field of view that is large enough at the science wavelength, every further run
leaves the system as the first one did.  Missing: several sensors, see `second_run_violation`. -/
theorem repeat_one (kc ps : ℝ) (n : ℕ) (w : ℝ) (c : ℝ) (s s' : State) (h : initRun kc ps n w [c] s = .ok s')
    (hf : P3.Freq.fovCheck kc w ps n) : initRun kc ps n w [c] s' = .ok s' := by
  obtain ⟨_, h2, h3, h4, h5⟩ := second_run kc ps n w [c] s s' h
  have : ∃ s'', initRun kc ps n w [c] s' = .ok s'' := by
    cases hn : s.noise with
    | unset => exact (h4 [c] (h2 hn)).2 ⟨by simp, hf⟩
    | arr v => exact (h4 v (h3 v hn).1).2 ⟨(h3 v hn).2, hf⟩
  obtain ⟨s'', hs⟩ := this
  rw [hs, h5 s'' hs]

/-- C300 (violation): with several sensors whose noise was computed, the second run raises. -/
theorem second_run_violation (kc ps : ℝ) (n : ℕ) (w : ℝ) (c : List ℝ) (hc : 2 ≤ c.length) (s s' : State)
    (hs : s.noise = .unset) (h : initRun kc ps n w c s = .ok s') (s'' : State) : initRun kc ps n w c s' ≠ .ok s'' := by
  obtain ⟨_, h2, _, h4, _⟩ := second_run kc ps n w c s s' h
  intro hc'
  have := (h4 c (h2 hs)).1 ⟨s'', hc'⟩
  omega

/-- C300 (violation): with one sensor, a field of view between the two wavelengths. -/
theorem second_run_fov (kc ps : ℝ) (n : ℕ) (w : ℝ) (c : List ℝ) (s s' : State) (h : initRun kc ps n w c s = .ok s')
    (hf : ¬ P3.Freq.fovCheck kc w ps n) : initRun kc ps n w c s' = .error .fov := by
  obtain ⟨h1, _⟩ := second_run kc ps n w c s s' h
  unfold initRun
  rw [h1, if_pos hf]

/-- Non-vacuity: a first run that succeeds. -/
example : ∃ s', initRun 1 1 1000 2 [1, 1] ⟨0, .unset⟩ = .ok s' := by
  refine ⟨⟨2, .arr [1, 1]⟩, ?_⟩
  unfold initRun P3.Freq.fovCheck
  rw [if_neg]
  · rfl
  · norm_num

/-! ### C179: heights of the modelled layers -/

/-- C179 (part): the modelled layers have the stretched heights of C48: unchanged for natural guide stars, and
`h H/(H - h)` for a laser at the height `H`.  Missing: a guide star object of height zero when the profile is compressed. -/
theorem heightMod_partial (b : Bool) (H h : ℝ) (hH : H ≠ 0) (hh : h ≠ H) :
    heightMod b none h = some h ∧ heightMod b (some H) h = some (h * H / (H - h)) ∧
    heightMod false (some 0) h = some h := by
  have hd : 1 - h / H ≠ 0 := by
    intro e
    apply hh
    field_simp at e
    linarith
  have hs : H - h ≠ 0 := sub_ne_zero.2 (Ne.symm hh)
  refine ⟨?_, ?_, ?_⟩
  · cases b <;> simp [heightMod, stretchMod, stretch]
  · have e : h * (1 / (1 - h / H)) = h * H / (H - h) := by
      rw [show 1 - h / H = (H - h) / H by field_simp]
      field_simp
    cases b <;> simp only [heightMod, stretchMod, stretch, if_true, Bool.false_eq_true, if_false, hH, hd, Option.map_some, e]
  · simp [heightMod, stretch]

/-- C179 (violation): natural guide stars described with a low-order section (a guide star object of height zero) and a
compressed profile: every layer above the ground is put on the ground, and the ground layer is not a number. -/
theorem heightMod_violation (h : ℝ) :
    heightMod true (some 0) 0 = none ∧ (0 < h → heightMod true (some 0) h = some 0 ∧ (0:ℝ) ≠ h) := by
  refine ⟨by simp [heightMod, stretchMod], fun hh => ⟨?_, hh.ne⟩⟩
  simp [heightMod, stretchMod, hh.ne']

/-! ### C180: noise and the wavelength of the atmosphere -/

/-- C180 (part): the Fried parameter at the sensor wavelength is right when the atmosphere is described at 500 nm.
Missing: other wavelengths. -/
theorem r0Wfs_exact_partial (r0 wAtm wWfs : ℝ) (hr : 0 < r0) (hA : 0 < wAtm) (hW : 0 < wWfs) :
    (r0Wfs r0 wWfs = r0 * (wWfs / wAtm) ^ (6/5 : ℝ) ↔ wAtm = 500e-9) ∧
    r0Wfs r0 wWfs = (wAtm / 500e-9) ^ (6/5 : ℝ) * (r0 * (wWfs / wAtm) ^ (6/5 : ℝ)) := by
  have e : r0Wfs r0 wWfs = (wAtm / 500e-9) ^ (6/5 : ℝ) * (r0 * (wWfs / wAtm) ^ (6/5 : ℝ)) := by
    unfold r0Wfs
    rw [show wWfs / 500e-9 = (wAtm / 500e-9) * (wWfs / wAtm) by field_simp,
      Real.mul_rpow (by positivity) (by positivity)]
    ring
  refine ⟨?_, e⟩
  constructor
  · intro h
    unfold r0Wfs at h
    have h1 := mul_left_cancel₀ hr.ne' h
    have h2 := Real.rpow_left_injOn (x := (6/5:ℝ)) (by norm_num) (show wWfs / 500e-9 ∈ {y : ℝ | 0 ≤ y} by
      show 0 ≤ wWfs / 500e-9; positivity) (show wWfs / wAtm ∈ {y : ℝ | 0 ≤ y} by show 0 ≤ wWfs / wAtm; positivity) h1
    field_simp at h2
    linarith
  · rintro rfl; rfl

/-! ### Cases that meet the hypotheses -/

/-- A run with two frequencies, one in the corrected block, and a laser at 90 km. -/
noncomputable def demo : Run Bool where
  grid := univ
  block := id
  noise := fun _ _ => 1
  aliasing := fun _ => 2
  diffRef := fun _ _ => 3
  chrom := fun _ _ => 4
  st := fun _ _ => 5
  cone := fun _ => 6
  mcao := fun _ _ _ => 0
  fit := fun _ => 7
  vib := fun _ => 8
  tilt := fun b => if b then 1 / 2 else 1
  extra := fun _ _ => 8
  u := 1
  nGs := 1
  height := 90000
  addMcao := false
  tiltOn := false
  wind := false
  opd := none
  D := 8
  spot := (1, 1)
  extraNm := 4
  wvlRef := 1
  closed := true

theorem demo_ok (h : ℝ) : ({ demo with height := h } : Run Bool).Ok 0 := by
  constructor <;> (simp [Run.sumAll, Run.sumAO, Run.mcaoArr, Run.terms, demo]; try norm_num)

theorem demo_extra : (1:ℝ) ^ 2 * demo.sumAll (demo.extra 0) = 4 ^ 2 := by
  simp [Run.sumAll, demo]; norm_num

/-- A case meeting the hypotheses of `breakdown_exact`. -/
example : ∃ rep tot, demo.breakdown 0 = .ok (some rep) ∧ rep.total = some tot ∧
    ∑ i ∈ demo.grid, demo.psd 0 i = tot ^ 2 - 0 ^ 2 - rep.jitter ^ 2 + 1 ^ 2 * demo.coneSum +
        1 ^ 2 * (demo.sumAll (demo.mcaoArr 0) - 0) + (1 ^ 2 * demo.sumAll (demo.extra 0) - 4 ^ 2) := by
  obtain ⟨rep, tot, h1, h2, _, _, _, _, _, _, _, _, h3⟩ := breakdown_exact demo 0 (demo_ok 90000) rfl rfl (by intro h; cases h) 0 rfl
  exact ⟨rep, tot, h1, h2, h3⟩

/-- A case meeting the hypotheses of `breakdown_partial`. -/
example : ∃ rep tot, ({ demo with height := 0 } : Run Bool).breakdown 0 = .ok (some rep) ∧ rep.total = some tot ∧ 0 ≤ tot ∧
    tot ^ 2 = 0 ^ 2 + rep.jitter ^ 2 + ∑ i ∈ demo.grid, ({ demo with height := 0 } : Run Bool).psd 0 i :=
  breakdown_partial _ 0 (demo_ok 0) rfl rfl (Or.inl rfl) rfl demo_extra 0 rfl

/-- A case meeting the hypotheses of `breakdown_cone_violation`. -/
example : ∃ rep tot, demo.breakdown 0 = .ok (some rep) ∧ rep.total = some tot ∧
    tot ^ 2 < 0 ^ 2 + rep.jitter ^ 2 + ∑ i ∈ demo.grid, demo.psd 0 i :=
  breakdown_cone_violation demo 0 (demo_ok 90000) rfl rfl rfl (by norm_num [demo]) rfl demo_extra (by norm_num [demo])
    (by simp [Run.sumAll, demo]) 0 rfl

/-- A case meeting the hypotheses of `breakdown_tilt_violation`. -/
example : ∑ i ∈ demo.grid, ({demo with tiltOn := true}).psd 0 i < ∑ i ∈ demo.grid, ({demo with tiltOn := false}).psd 0 i :=
  (breakdown_tilt_violation demo 0 rfl (by norm_num [demo])
    (by intro i _; cases i <;> norm_num [psdCore, Run.terms, demo]) (by intro i _; cases i <;> norm_num [demo]) true (by simp [demo])
    (by norm_num [psdCore, Run.terms, demo]) (by norm_num [demo])).2

end P3.FRun
