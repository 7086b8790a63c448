import Verif.Model.Extra
import Verif.Props.Psf
import Mathlib.Data.List.GetD
import Verif.Props.FourierRun
/-
Properties of the extra errors at science targets and guide stars.
-/
namespace P3.Extra
open Finset

variable {ι : Type}

theorem weight_nonneg (D : ℝ) (b : Band) (k : ℝ) (hk : 0 < k) : 0 ≤ weight D b k := by
  unfold weight
  split_ifs
  · exact le_refl _
  · exact le_refl _
  · exact mul_nonneg (Real.rpow_nonneg hk.le _) (Psf.pistonFilter_spec D k).1

/-- A frequency is in the band; a limit of zero is no limit. -/
def InBand (b : Band) (k : ℝ) : Prop := (0 < b.kmin → b.kmin ≤ k) ∧ (0 < b.kmax → k ≤ b.kmax)

/-- Exactly the frequencies of the band have a weight. -/
theorem weight_pos_iff (D : ℝ) (b : Band) (k : ℝ) (hD : D ≠ 0) (hk : 0 < k) : weight D b k ≠ 0 ↔ InBand b k := by
  unfold weight InBand
  split_ifs with h1 h2
  · simp only [ne_eq, not_true, false_iff]
    rintro ⟨h, _⟩
    exact absurd h1.2 (not_lt.2 (h h1.1))
  · simp only [ne_eq, not_true, false_iff]
    rintro ⟨_, h⟩
    exact absurd h2.2 (not_lt.2 (h h2.1))
  · constructor
    · intro _
      exact ⟨fun h => not_lt.1 fun h' => h1 ⟨h, h'⟩, fun h => not_lt.1 fun h' => h2 ⟨h, h'⟩⟩
    · intro _
      exact (mul_pos (Real.rpow_pos_of_pos hk _) (Psf.pistonFilter_pos D k hD)).ne'

theorem sum_pos_of (grid : Finset ι) (D : ℝ) (b : Band) (k : ι → ℝ) (hk : ∀ i ∈ grid, 0 < k i)
    (hb : ∃ i ∈ grid, weight D b (k i) ≠ 0) : 0 < ∑ j ∈ grid, weight D b (k j) := by
  obtain ⟨i, hi, hw⟩ := hb
  exact sum_pos' (fun j hj => weight_nonneg D b _ (hk j hj)) ⟨i, hi, lt_of_le_of_ne (weight_nonneg D b _ (hk i hi)) hw.symm⟩

/-- An extra error `f` (one value per frequency, `none` for `nan`) is a PSD of rms `nm`. -/
def HasRms (grid : Finset ι) (u : ℝ) (f : ι → Option ℝ) (nm : ℝ) : Prop :=
  ∃ e : ι → ℝ, (∀ i, f i = some (e i)) ∧ (∀ i ∈ grid, 0 ≤ e i) ∧ ∑ i ∈ grid, e i * u ^ 2 = nm ^ 2

theorem psd_rms (grid : Finset ι) (D u : ℝ) (k : ι → ℝ) (b : Band) (nm : ℝ) (hu : u ≠ 0) (hk : ∀ i ∈ grid, 0 < k i)
    (hb : ∃ i ∈ grid, weight D b (k i) ≠ 0) :
    HasRms grid u (hoPsd grid D u k b nm) nm ∧ HasRms grid u (loPsd grid D u k b nm) nm := by
  have hS := sum_pos_of grid D b k hk hb
  have main : ∀ f : ι → Option ℝ, (∀ i, f i = some (weight D b (k i) * nm ^ 2 / (∑ j ∈ grid, weight D b (k j)) / u ^ 2)) →
      HasRms grid u f nm := by
    intro f hf
    refine ⟨_, hf, fun i hi => ?_, ?_⟩
    · have := weight_nonneg D b _ (hk i hi)
      positivity
    · have e : ∀ i ∈ grid, weight D b (k i) * nm ^ 2 / (∑ j ∈ grid, weight D b (k j)) / u ^ 2 * u ^ 2 =
          weight D b (k i) * (nm ^ 2 / ∑ j ∈ grid, weight D b (k j)) := by
        intro i _; field_simp
      rw [sum_congr rfl e, ← sum_mul]
      field_simp
  constructor
  · apply main
    intro i
    unfold hoPsd
    simp only
    rw [if_neg hS.ne', mul_one]
  · apply main
    intro i
    unfold loPsd
    simp only
    rw [if_neg hS.ne']
    congr 1
    field_simp

theorem psd_empty (grid : Finset ι) (D u : ℝ) (k : ι → ℝ) (b : Band) (nm : ℝ) (hb : ∀ i ∈ grid, weight D b (k i) = 0) (i : ι) :
    hoPsd grid D u k b nm i = none ∧ loPsd grid D u k b nm i = none := by
  have : ∑ j ∈ grid, weight D b (k j) = 0 := sum_eq_zero hb
  constructor
  · unfold hoPsd; simp only; rw [if_pos this]
  · unfold loPsd; simp only; rw [if_pos this]

theorem mapM_ok_of {α β : Type} (f : α → Except PyErr β) (g : α → β) (l : List α) (h : ∀ a ∈ l, f a = .ok (g a)) :
    l.mapM f = .ok (l.map g) := by
  induction l with
  | nil => rfl
  | cons a t ih =>
    rw [List.mapM_cons, h a List.mem_cons_self, ih fun b hb => h b (List.mem_cons_of_mem _ hb)]
    rfl

theorem band_weight {grid : Finset ι} {D : ℝ} {b : Band} {k : ι → ℝ} (hD : D ≠ 0) (hk : ∀ i ∈ grid, 0 < k i)
    (h : ∃ i ∈ grid, InBand b (k i)) : ∃ i ∈ grid, weight D b (k i) ≠ 0 := by
  obtain ⟨i, hi, hb⟩ := h
  exact ⟨i, hi, (weight_pos_iff D b (k i) hD (hk i hi)).2 hb⟩

/-! ### C181: extra error of science targets and guide stars -/

/-- The error asked for at a star, in words: the number given, or the first value on axis, the second from the edge of
the technical field on, and linear in between. -/
noncomputable def wanted (fov : ℝ) (lo : ℝ ⊕ (ℝ × ℝ)) (z : ℝ) : ℝ :=
  match lo with
  | .inl x => x
  | .inr (y0, y1) => if fov / 2 ≤ z then y1 else (1 - z / (fov / 2)) * y0 + z / (fov / 2) * y1

/-- The option of an error. -/
def asOption : ℝ ⊕ (ℝ × ℝ) → ℝ ⊕ List ℝ
  | .inl x => .inl x
  | .inr (y0, y1) => .inr [y0, y1]

theorem loNmAt_wanted (fov : ℝ) (hf : 0 < fov) (lo : ℝ ⊕ (ℝ × ℝ)) (z : ℝ) (hz : 0 ≤ z) :
    loNmAt fov (asOption lo) z = .ok (wanted fov lo z) := by
  rcases lo with x | ⟨y0, y1⟩
  · rfl
  · show Except.ok (interp2 (fov / 2) y0 y1 z) = .ok (if fov / 2 ≤ z then y1 else _)
    unfold interp2
    congr 1
    split_ifs with h1 h2
    · rfl
    · have : z = 0 := le_antisymm h2 hz
      rw [this]; simp
    · have : fov ≠ 0 := hf.ne'
      field_simp
      ring

/-- C181 (part): science targets get an extra error of the rms asked for, and each guide star one of the rms asked for at
its distance from the axis, for a positive technical field, frequencies in both bands and a number or a pair of
non-negative sum.  Missing: see the violations below. -/
theorem extra_partial (grid : Finset ι) (D u : ℝ) (k : ι → ℝ) (fov : ℝ) (v : Values) (lo : ℝ ⊕ (ℝ × ℝ)) (zen : List ℝ)
    (nSci : ℕ) (hD : D ≠ 0) (hu : u ≠ 0) (hk : ∀ i ∈ grid, 0 < k i) (hf : 0 < fov) (hz : ∀ z ∈ zen, 0 ≤ z) (hv : v.loNm = asOption lo)
    (hs : 0 ≤ loSum v.loNm) (hnm : 0 ≤ v.nm)
    (hb : ∃ i ∈ grid, InBand v.band (k i)) (hb' : ∃ i ∈ grid, InBand v.loBand (k i)) :
    (∀ s < nSci, ∃ f, (∀ i, extraAt grid D u k fov v (nSci + zen.length) (some zen) s i = .ok (f i)) ∧
      HasRms grid u f v.nm) ∧
    (∀ j (hj : j < zen.length), ∃ f, (∀ i, extraAt grid D u k fov v (nSci + zen.length) (some zen) (nSci + j) i = .ok (f i)) ∧
      HasRms grid u f (wanted fov lo zen[j])) := by
  have hstars : loStars fov v (some zen) = .ok (zen.map (wanted fov lo)) := by
    unfold loStars
    simp only
    rw [if_pos hs, hv]
    exact mapM_ok_of _ _ _ fun z hz' => loNmAt_wanted fov hf lo z (hz z hz')
  constructor
  · intro s hsn
    by_cases hp : 0 < v.nm
    · refine ⟨_, fun i => ?_, (psd_rms grid D u k v.band v.nm hu hk (band_weight hD hk hb)).1⟩
      unfold extraAt
      rw [hstars]
      simp only [bind, Except.bind, pure, Except.pure, List.length_map]
      rw [if_neg (by omega), if_pos hp]
    · refine ⟨fun _ => some 0, fun i => ?_, fun _ => 0, fun _ => rfl, fun _ _ => le_refl _, ?_⟩
      · unfold extraAt
        rw [hstars]
        simp only [bind, Except.bind, pure, Except.pure, List.length_map]
        rw [if_neg (by omega), if_neg hp]
      · have : v.nm = 0 := le_antisymm (not_lt.1 hp) hnm
        simp [this]
  · intro j hj
    refine ⟨_, fun i => ?_, (psd_rms grid D u k v.loBand (wanted fov lo zen[j]) hu hk (band_weight hD hk hb')).2⟩
    unfold extraAt
    rw [hstars]
    simp only [bind, Except.bind, pure, Except.pure, List.length_map]
    rw [if_pos (by omega), show nSci + j + zen.length - (nSci + zen.length) = j by omega,
      List.getD_eq_getElem _ _ (by simpa using hj)]
    simp

/-- Without guide stars every source gets the error of the science targets. -/
theorem extra_science (grid : Finset ι) (D u : ℝ) (k : ι → ℝ) (fov : ℝ) (v : Values) (nSrc s : ℕ) (hD : D ≠ 0) (hu : u ≠ 0)
    (hk : ∀ i ∈ grid, 0 < k i) (hnm : 0 < v.nm) (hb : ∃ i ∈ grid, InBand v.band (k i)) :
    ∃ f, (∀ i, extraAt grid D u k fov v nSrc none s i = .ok (f i)) ∧ HasRms grid u f v.nm := by
  refine ⟨_, fun i => ?_, (psd_rms grid D u k v.band v.nm hu hk (band_weight hD hk hb)).1⟩
  unfold extraAt loStars
  simp only [bind, Except.bind, pure, Except.pure, List.length_nil]
  rw [if_neg (by omega), if_pos hnm]

/-- C181 (violation): with the default technical field (zero), every star gets the value meant for the edge. -/
theorem wanted_violation (y0 y1 z : ℝ) (hz : 0 ≤ z) : loNmAt 0 (.inr [y0, y1]) z = .ok y1 := by
  show Except.ok (interp2 (0 / 2) y0 y1 z) = _
  unfold interp2
  rw [if_pos (by linarith)]

/-- C181 (violation): a list of any other length makes the PSD of all sources fail. -/
theorem list_violation (grid : Finset ι) (D u : ℝ) (k : ι → ℝ) (fov : ℝ) (v : Values) (nSrc s : ℕ) (zen l : List ℝ)
    (hl : v.loNm = .inr l) (h2 : l.length ≠ 2) (hs : 0 ≤ l.sum) (hz : zen ≠ []) (i : ι) :
    extraAt grid D u k fov v nSrc (some zen) s i = .error .broadcast := by
  have hb : ∀ z, loNmAt fov (.inr l) z = .error .broadcast := by
    intro z
    match l, h2 with
    | [], _ => rfl
    | [_], _ => rfl
    | [_, _], h => exact absurd rfl h
    | _ :: _ :: _ :: _, _ => rfl
  unfold extraAt loStars
  simp only
  rw [hl, if_pos (show 0 ≤ loSum (.inr l) from hs)]
  obtain ⟨z, zs, rfl⟩ := List.exists_cons_of_ne_nil hz
  rw [List.mapM_cons, hb]
  rfl

/-- C181 (violation): exactly when no frequency of the grid is in the band, the PSD of the science targets is not a
number. -/
theorem band_violation (grid : Finset ι) (D u : ℝ) (k : ι → ℝ) (fov : ℝ) (v : Values) (nSrc s : ℕ) (hD : D ≠ 0)
    (hnm : 0 < v.nm) (hk : ∀ i ∈ grid, 0 < k i) (i : ι) :
    extraAt grid D u k fov v nSrc none s i = .ok none ↔ ∀ i ∈ grid, ¬ InBand v.band (k i) := by
  have e : extraAt grid D u k fov v nSrc none s i = .ok (hoPsd grid D u k v.band v.nm i) := by
    unfold extraAt loStars
    simp only [bind, Except.bind, pure, Except.pure, List.length_nil]
    rw [if_neg (by omega), if_pos hnm]
  rw [e]
  constructor
  · intro h j hj hb
    have hS := sum_pos_of grid D v.band k hk (band_weight hD hk ⟨j, hj, hb⟩)
    unfold hoPsd at h
    simp only at h
    rw [if_neg hS.ne'] at h
    cases h
  · intro h
    congr 1
    refine (psd_empty grid D u k v.band v.nm (fun j hj => ?_) i).1
    by_contra hc
    exact h j hj ((weight_pos_iff D v.band (k j) hD (hk j hj)).1 hc)

/-! ### C182: defaults of the low-order extra error -/

/-- C182 (part): without low-order options and without limits of the band, the guide stars get the PSD of the science
targets.  Missing: options `extraErrorMin` and `extraErrorMax`, see `default_violation`. -/
theorem default_partial (grid : Finset ι) (D u : ℝ) (k : ι → ℝ) (fov : ℝ) (o : Opts) (nm : ℝ) (hnm : 0 < nm)
    (ho : o = ⟨some nm, o.exp, none, none, none, none, none, none⟩) (nSrc : ℕ) (zen : List ℝ) (s s' : ℕ)
    (hs : s < nSrc) (hs' : s' < nSrc) (i : ι) :
    extraAt grid D u k fov o.values nSrc (some zen) s i = extraAt grid D u k fov o.values nSrc (some zen) s' i := by
  have hn : o.values.nm = nm := by rw [ho]; rfl
  have hl : o.values.loNm = .inl nm := by rw [ho]; rfl
  have hbd : o.values.loBand = o.values.band := by rw [ho]; rfl
  have hstars : loStars fov o.values (some zen) = .ok (zen.map fun _ => nm) := by
    unfold loStars
    simp only
    rw [hl, if_pos (show 0 ≤ loSum (.inl nm) from hnm.le)]
    exact mapM_ok_of _ _ _ fun z _ => rfl
  have key : ∀ s < nSrc, extraAt grid D u k fov o.values nSrc (some zen) s i = .ok (hoPsd grid D u k o.values.band nm i) := by
    intro s hs
    unfold extraAt
    rw [hstars]
    simp only [bind, Except.bind, pure, Except.pure, List.length_map]
    by_cases h : 0 < zen.length ∧ nSrc - s ≤ zen.length
    · rw [if_pos h, hbd, List.getD_eq_getElem _ _ (by rw [List.length_map]; omega), List.getElem_map]
      congr 1
      unfold loPsd hoPsd
      simp only
      split_ifs
      · rfl
      · congr 1
        ring
    · rw [if_neg h, hn, if_pos hnm]
  rw [key s hs, key s' hs']

/-- C182 (violation): the limits of the band are not inherited: with a lower limit, a frequency below it is without
extra error for the science targets and has some for the guide stars. -/
theorem default_violation (grid : Finset ι) (D u : ℝ) (k : ι → ℝ) (fov nm kmin : ℝ) (hnm : 0 < nm) (hm : 0 < kmin)
    (hD : D ≠ 0) (hu : u ≠ 0) (hk : ∀ i ∈ grid, 0 < k i) (nSci : ℕ) (hn : 0 < nSci) (z : ℝ) (i i' : ι) (hi : i ∈ grid) (hi' : i' ∈ grid)
    (hlow : k i < kmin) (hhigh : kmin ≤ k i') :
    let v := (Opts.values ⟨some nm, none, some kmin, none, none, none, none, none⟩)
    extraAt grid D u k fov v (nSci + 1) (some [z]) 0 i = .ok (some 0) ∧
    ∃ e, extraAt grid D u k fov v (nSci + 1) (some [z]) nSci i = .ok (some e) ∧ 0 < e := by
  intro v
  have hp := Psf.pistonFilter_pos D (k i) hD
  have hp' := Psf.pistonFilter_pos D (k i') hD
  have hl : v.loNm = .inl nm := rfl
  have hvn : v.nm = nm := rfl
  have hb : v.band = ⟨-2, kmin, 0⟩ := rfl
  have hb' : v.loBand = ⟨-2, 0, 0⟩ := rfl
  have hstars : loStars fov v (some [z]) = .ok [nm] := by
    unfold loStars
    simp only
    rw [hl, if_pos (show 0 ≤ loSum (.inl nm) from hnm.le)]
    rfl
  have hw : weight D v.band (k i) = 0 := by
    unfold weight
    rw [hb, if_pos ⟨hm, hlow⟩]
  have hw' : weight D v.band (k i') ≠ 0 := by
    unfold weight
    rw [hb, if_neg (fun h => absurd h.2 (not_lt.2 hhigh)), if_neg (fun h => absurd h.1 (lt_irrefl _))]
    exact (mul_pos (Real.rpow_pos_of_pos (hk i' hi') _) hp').ne'
  have hlo : 0 < weight D v.loBand (k i) := by
    unfold weight
    rw [hb', if_neg (fun h => absurd h.1 (lt_irrefl _)), if_neg (fun h => absurd h.1 (lt_irrefl _))]
    exact mul_pos (Real.rpow_pos_of_pos (hk i hi) _) hp
  have hS := sum_pos_of grid D v.band k hk ⟨i', hi', hw'⟩
  have hS' := sum_pos_of grid D v.loBand k hk ⟨i, hi, hlo.ne'⟩
  constructor
  · unfold extraAt
    rw [hstars]
    simp only [bind, Except.bind, pure, Except.pure, List.length_singleton]
    rw [if_neg (by omega), hvn, if_pos hnm]
    unfold hoPsd
    simp only
    rw [if_neg hS.ne', hw]
    simp
  · refine ⟨weight D v.loBand (k i) * (1 / ∑ j ∈ grid, weight D v.loBand (k j)) * nm ^ 2 * (1 / u ^ 2), ?_, ?_⟩
    · unfold extraAt
      rw [hstars]
      simp only [bind, Except.bind, pure, Except.pure, List.length_singleton]
      rw [if_pos (by omega), show nSci + 1 - (nSci + 1) = 0 by omega]
      unfold loPsd
      simp only
      rw [if_neg hS'.ne']
      rfl
    · positivity

/-! ### C175 for science targets -/

/-- C175 (part): with the extra error of the model, natural guide stars or several lasers without the MCAO cone effect,
and no tilt filter, the total reported for a science target is the integral of its PSD plus static aberrations and
jitter: no condition on the extra error is left. -/
theorem breakdown_science_partial (r : FRun.Run ι) (s : ℕ) (ok : r.Ok s) (ht : r.tiltOn = false) (hc : r.closed = true)
    (hh : r.height = 0 ∨ r.nGs ≠ 1) (hm : r.addMcao = false) (n : ℝ) (hn : r.wfeNcpa = some n)
    (D : ℝ) (k : ι → ℝ) (fov : ℝ) (v : Values) (nSrc : ℕ) (hD : D ≠ 0) (hu : r.u ≠ 0) (hk : ∀ i ∈ r.grid, 0 < k i) (hnm : 0 < v.nm)
    (hb : ∃ i ∈ r.grid, InBand v.band (k i)) (hr : r.extraNm = v.nm)
    (hx : ∀ i, extraAt r.grid D r.u k fov v nSrc none s i = .ok (some (r.extra s i))) :
    ∃ rep tot, r.breakdown s = .ok (some rep) ∧ rep.total = some tot ∧ 0 ≤ tot ∧
      tot ^ 2 = n ^ 2 + rep.jitter ^ 2 + ∑ i ∈ r.grid, r.psd s i := by
  refine FRun.breakdown_partial r s ok ht hc hh hm ?_ n hn
  obtain ⟨f, hf, e, he, _, hsum⟩ := extra_science r.grid D r.u k fov v nSrc s hD hu hk hnm hb
  have : ∀ i, r.extra s i = e i := by
    intro i
    have h1 := hx i
    rw [hf i, he i] at h1
    simp only [Except.ok.injEq, Option.some.injEq] at h1
    exact h1.symm
  unfold FRun.Run.sumAll
  rw [hr, mul_sum, ← hsum]
  exact sum_congr rfl fun i _ => by rw [this i]; ring

/-- Non-vacuity: the hypotheses on the options, two frequencies. -/
example : ∃ v : Values, v = Opts.values ⟨some 30, none, none, none, some (.inr [10, 20]), none, none, none⟩ ∧
    v.loNm = asOption (.inr (10, 20)) ∧ 0 ≤ loSum v.loNm ∧ 0 ≤ v.nm ∧ wanted 120 (.inr (10, 20)) 30 = 15 := by
  refine ⟨_, rfl, rfl, ?_, ?_, ?_⟩
  · show (0:ℝ) ≤ [10, 20].sum; norm_num
  · show (0:ℝ) ≤ 30; norm_num
  · show (if (120:ℝ) / 2 ≤ 30 then (20:ℝ) else _) = 15; norm_num

/-! ### Cases that meet the hypotheses -/

/-- A case meeting the hypotheses of `extra_partial`. -/
example : ∃ f : ℕ → Option ℝ, (∀ i, extraAt ({1, 2, 3} : Finset ℕ) 8 1 (fun i => (i : ℝ)) 120 ⟨30, ⟨-2, 0, 0⟩, .inr [10, 20], ⟨-2, 0, 2⟩⟩ 3 (some [30]) 2 i = .ok (f i)) ∧
    HasRms {1, 2, 3} 1 f 15 := by
  have hw : wanted 120 (.inr (10, 20)) 30 = 15 := by
    show (if (120:ℝ) / 2 ≤ 30 then (20:ℝ) else _) = 15; norm_num
  have := (extra_partial ({1, 2, 3} : Finset ℕ) 8 1 (fun i => (i : ℝ)) 120 ⟨30, ⟨-2, 0, 0⟩, .inr [10, 20], ⟨-2, 0, 2⟩⟩ (.inr (10, 20)) [30] 2
    (by norm_num) (by norm_num) (by intro i hi; fin_cases hi <;> norm_num) (by norm_num) (by norm_num) rfl
    (by show (0:ℝ) ≤ [10, 20].sum; norm_num) (by norm_num) ⟨1, by simp, by norm_num [InBand]⟩ ⟨1, by simp, by norm_num [InBand]⟩).2 0 (by simp)
  rw [show ([30] : List ℝ)[0] = 30 from rfl, hw] at this
  exact this

/-- A case meeting the hypotheses of `extra_science`. -/
example : ∃ f : ℕ → Option ℝ, (∀ i, extraAt ({1, 2, 3} : Finset ℕ) 8 1 (fun i => (i : ℝ)) 120 ⟨30, ⟨-2, 2, 0⟩, .inl 0, ⟨-2, 0, 2⟩⟩ 3 none 2 i = .ok (f i)) ∧
    HasRms {1, 2, 3} 1 f 30 :=
  extra_science ({1, 2, 3} : Finset ℕ) 8 1 (fun i => (i : ℝ)) 120 ⟨30, ⟨-2, 2, 0⟩, .inl 0, ⟨-2, 0, 2⟩⟩ 3 2 (by norm_num) (by norm_num) (by intro i hi; fin_cases hi <;> norm_num) (by norm_num)
    ⟨2, by simp, by norm_num [InBand]⟩

/-- A case meeting the hypotheses of `list_violation`. -/
example : extraAt ({1, 2, 3} : Finset ℕ) 8 1 (fun i => (i : ℝ)) 120 ⟨30, ⟨-2, 2, 0⟩, .inr [1, 2, 3], ⟨-2, 0, 2⟩⟩ 3 (some [30, 40]) 2 1 = .error .broadcast :=
  list_violation _ 8 1 _ 120 _ 3 2 [30, 40] [1, 2, 3] rfl (by norm_num) (by norm_num) (by simp) 1

/-- A case meeting the hypotheses of `default_partial`. -/
example : extraAt ({1, 2, 3} : Finset ℕ) 8 1 (fun i => (i : ℝ)) 120 (Opts.values ⟨some 30, none, none, none, none, none, none, none⟩) 3 (some [30]) 0 1 =
    extraAt ({1, 2, 3} : Finset ℕ) 8 1 (fun i => (i : ℝ)) 120 (Opts.values ⟨some 30, none, none, none, none, none, none, none⟩) 3 (some [30]) 2 1 :=
  default_partial _ 8 1 _ 120 _ 30 (by norm_num) rfl 3 [30] 0 2 (by norm_num) (by norm_num) 1

/-- A case meeting the hypotheses of `default_violation`. -/
example := default_violation ({1, 2, 3} : Finset ℕ) 8 1 (fun i => (i : ℝ)) 120 30 2 (by norm_num) (by norm_num) (by norm_num) (by norm_num)
  (by intro i hi; fin_cases hi <;> norm_num) 2 (by norm_num) 30 1 3 (by simp) (by simp) (by norm_num) (by norm_num)

/-- A case meeting the hypotheses of `breakdown_science_partial`. -/
example : ∃ (r : FRun.Run ℕ) (rep : _) (tot : ℝ), r.breakdown 0 = .ok (some rep) ∧ rep.total = some tot ∧
    tot ^ 2 = 0 ^ 2 + rep.jitter ^ 2 + ∑ i ∈ r.grid, r.psd 0 i := by
  obtain ⟨f, hf, e, he, hpos, hsum⟩ := extra_science ({1, 2, 3} : Finset ℕ) 8 1 (fun i => (i : ℝ)) 120 ⟨30, ⟨-2, 2, 0⟩, .inl 0, ⟨-2, 0, 2⟩⟩ 3 0
    (by norm_num) (by norm_num) (by intro i hi; fin_cases hi <;> norm_num) (by norm_num) ⟨2, by simp, by norm_num [InBand]⟩
  obtain ⟨rep, tot, h1, h2, _, h3⟩ := breakdown_science_partial (⟨{1, 2, 3}, fun _ => true, fun _ _ => 1, fun _ => 2, fun _ _ => 3, fun _ _ => 4,
    fun _ _ => 5, fun _ => 6, fun _ _ _ => 0, fun _ => 7, fun _ => 8, fun _ => 1, fun _ i => e i, 1, 1, 0, false, false, true, none, 8, (1, 1), 30,
    1, true⟩ : FRun.Run ℕ) 0 (by
      constructor <;> (simp [FRun.Run.sumAll, FRun.Run.sumAO, FRun.Run.mcaoArr, FRun.Run.terms]; try norm_num)) rfl rfl (Or.inl rfl) rfl 0 rfl 8
    (fun i => (i : ℝ)) 120 ⟨30, ⟨-2, 2, 0⟩, .inl 0, ⟨-2, 0, 2⟩⟩ 3 (by norm_num) (by norm_num) (by intro i hi; fin_cases hi <;> norm_num) (by norm_num)
    ⟨2, by simp, by norm_num [InBand]⟩ rfl (fun i => by rw [hf i, he i])
  exact ⟨_, rep, tot, h1, h2, h3⟩

end P3.Extra
