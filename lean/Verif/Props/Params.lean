import Verif.Model.Params
import Mathlib.Tactic.Ring
import Mathlib.Tactic.Linarith
/-
Property C33: the parameter vector is cut into contiguous, disjoint parts.
-/
namespace P3.Params

theorem slice_append {α : Type} (l : List α) (a b c : ℕ) (h : a ≤ b) (h' : b ≤ c) :
    slice l a b ++ slice l b c = slice l a c := by
  unfold slice
  by_cases hb : b ≤ l.length
  · have e : l.take c = l.take b ++ (l.take c).drop b := by
      conv_lhs => rw [← List.take_append_drop b (l.take c)]
      rw [List.take_take, min_eq_left h']
    conv_rhs => rw [e]
    rw [List.drop_append_of_le_length (by rw [List.length_take]; omega)]
  · have hb' : l.length ≤ b := by omega
    rw [List.take_of_length_le hb', List.take_of_length_le (by omega : l.length ≤ c), List.drop_of_length_le hb',
      List.append_nil]

theorem slice_length {α : Type} (l : List α) (a b : ℕ) (h : b ≤ l.length) : (slice l a b).length = b - a := by
  unfold slice; rw [List.length_drop, List.length_take, min_eq_left h]

/-- C33: for every vector with all the parameters of the model (`nStat ≥ 0` static ones, at least one star or
one background), the parts put end to end in the order atmosphere, phase, jitter, photometry, x, y, background,
static are exactly the vector: they are disjoint, contiguous, in order and nothing is lost. -/
theorem sortParams_spec {α : Type} (c : Ctx) (nStat : ℕ) (x : List α) (hx : x.length = c.nParam nStat)
    (hs : 0 < 3 * c.nSrc + c.nFrame) :
    let p := sortParams c x
    p.atm ++ p.dphi ++ p.jitter.getD [] ++ p.flux.getD [] ++ p.dx.getD [] ++ p.dy.getD [] ++ p.bkg.getD [] ++
      p.stat.getD [] = x ∧
    p.atm.length = c.atm ∧ p.dphi.length = c.nDphi ∧ (p.jitter.getD []).length = (if c.jitter then 3 else 0) ∧
    (p.flux.getD []).length = c.nStar * c.nWvl ∧ (p.dx.getD []).length = c.nStar * c.nWvl ∧
    (p.dy.getD []).length = c.nStar * c.nWvl ∧ (p.bkg.getD []).length = c.nFrame ∧
    (p.stat.getD []).length = nStat := by
  have hx' : x.length = c.endTT + 3 * c.nSrc + c.nFrame + nStat := hx
  have hd : c.endDphi ≤ c.endTT := by unfold Ctx.endTT; split_ifs <;> omega
  have ha : c.atm ≤ c.endDphi := by unfold Ctx.endDphi; omega
  have he : c.endStellar = c.endTT + 3 * c.nSrc + c.nFrame := rfl
  have hst : (slice x c.endTT c.endStellar).length = 3 * c.nSrc + c.nFrame := by
    rw [slice_length _ _ _ (by omega)]; omega
  have lt1 : c.endTT < x.length := by omega
  have stat : (if c.endStellar < x.length then some (x.drop c.endStellar) else none).getD [] =
      x.drop c.endStellar := by
    split_ifs with h
    · rfl
    · rw [Option.getD_none, List.drop_of_length_le (by omega)]
  have jit : (if c.jitter = true ∧ c.endDphi < x.length then some (slice x c.endDphi (c.endDphi + 3))
      else none).getD [] = slice x c.endDphi c.endTT := by
    unfold Ctx.endTT
    by_cases h : c.jitter = true
    · rw [if_pos ⟨h, by omega⟩, if_pos h]; rfl
    · rw [if_neg (by simp [h]), if_neg h]
      unfold slice
      rw [Option.getD_none, List.drop_of_length_le (by rw [List.length_take]; omega)]
  simp only [sortParams]
  rw [stat, jit, if_pos lt1, if_pos lt1, if_pos lt1, if_pos lt1]
  simp only [Option.getD_some]
  refine ⟨?_, ?_, ?_, ?_, ?_, ?_, ?_, ?_, ?_⟩
  · have s1 : slice (slice x c.endTT c.endStellar) 0 c.nSrc ++ slice (slice x c.endTT c.endStellar) c.nSrc (2 * c.nSrc)
        ++ slice (slice x c.endTT c.endStellar) (2 * c.nSrc) (3 * c.nSrc) ++
        (slice x c.endTT c.endStellar).drop (3 * c.nSrc) = slice x c.endTT c.endStellar := by
      rw [slice_append _ _ _ _ (by omega) (by omega), slice_append _ _ _ _ (by omega) (by omega)]
      unfold slice
      rw [List.drop_zero, List.take_append_drop]
    have s2 : slice x 0 c.atm ++ slice x c.atm c.endDphi ++ slice x c.endDphi c.endTT ++
        slice x c.endTT c.endStellar ++ x.drop c.endStellar = x := by
      rw [slice_append _ _ _ _ (by omega) ha, slice_append _ _ _ _ (by omega) hd,
        slice_append _ _ _ _ (by omega) (by omega)]
      unfold slice
      rw [List.drop_zero, List.take_append_drop]
    conv_rhs => rw [← s2, ← s1]
    simp only [List.append_assoc]
  · rw [slice_length _ _ _ (by omega)]; omega
  · rw [slice_length _ _ _ (by omega)]; unfold Ctx.endDphi; omega
  · rw [slice_length _ _ _ (by omega)]; unfold Ctx.endTT; split_ifs <;> omega
  · rw [slice_length _ _ _ (by omega)]; exact Nat.sub_zero _
  · rw [slice_length _ _ _ (by omega)]; show _ = c.nSrc; omega
  · rw [slice_length _ _ _ (by omega)]; show _ = c.nSrc; omega
  · rw [List.length_drop, hst]; omega
  · rw [List.length_drop]; omega

/-- Non-vacuity: two stars at one wavelength, jitter, no atmosphere, one static mode: eleven parameters. -/
example : sortParams (fourierCtx 1 1 2 1 1 1) (List.range 11) =
    ⟨[], [], some [0, 1, 2], some [3, 4], some [5, 6], some [7, 8], some [9], some [10]⟩ := rfl

/-- C33: the photometry matrix holds, for star `s` and wavelength `w`, the parameter number `s*nWvl + w`. -/
theorem reshape_spec {α : Type} (rows cols : ℕ) (l : List α) (h : l.length = rows * cols) :
    ∃ m, reshape rows cols l = some m ∧ m.length = rows ∧
      ∀ s (hs : s < m.length), (m[s]).length = cols ∧ ∀ w < cols, (m[s])[w]? = l[s * cols + w]? := by
  refine ⟨_, by unfold reshape; rw [if_pos h], by simp, ?_⟩
  intro s hs
  simp only [List.length_map, List.length_range] at hs
  simp only [List.getElem_map, List.getElem_range]
  have : (s + 1) * cols ≤ l.length := by rw [h]; exact Nat.mul_le_mul_right _ hs
  have e : (s + 1) * cols = s * cols + cols := by ring
  refine ⟨by rw [slice_length _ _ _ this]; omega, fun w hw => ?_⟩
  unfold slice
  rw [List.getElem?_drop, List.getElem?_take_of_lt (by omega)]

theorem atm_eq (c : Ctx) (h : 0 < c.nAtm) : c.atm = if 1 < c.nL ∧ 1 < c.nRec then c.nL else 1 := by
  unfold Ctx.atm; rw [if_pos h]

/-- C131 (part): the bounds of each model have one pair per parameter exactly when: for the Fourier model,
the number of stars, wavelengths and frames balance; for PSF reconstruction, the profile has one layer or several
are reconstructed; for PSFAO21, all layers are reconstructed and there is one source wavelength per model
wavelength. Missing: the other cases, where the lengths differ. -/
theorem bounds_partial (nL nRec nStar nWvl nFrame nModes : ℕ) (hL : 1 ≤ nL) (hR : 1 ≤ nRec) :
    (fourierBounds nStar = (fourierCtx nL nRec nStar nWvl nFrame nModes).nParam 0 ↔
      3 * nStar + 1 = 3 * (nStar * nWvl) + nFrame) ∧
    (psfrBounds nL nStar nModes = (psfrCtx nL nRec nStar 1 1 nModes).nParam nModes ↔ nL = 1 ∨ 1 < nRec) ∧
    (psfaoBounds nL nRec nStar nWvl nModes = (psfaoCtx nL nRec nStar nWvl nFrame nModes).nParam nModes ↔
      min nL nRec + nWvl = (if 1 < nL ∧ 1 < nRec then nL else 1) + nFrame) := by
  refine ⟨?_, ?_, ?_⟩
  · simp only [fourierBounds, fourierCtx, Ctx.nParam, Ctx.endStellar, Ctx.endTT, Ctx.endDphi, Ctx.atm, Ctx.nSrc,
      lt_irrefl, if_false, if_true]
    omega
  · have h := atm_eq (psfrCtx nL nRec nStar 1 1 nModes) (show 0 < min nL nRec by omega)
    have e : (psfrCtx nL nRec nStar 1 1 nModes).nParam nModes =
      (psfrCtx nL nRec nStar 1 1 nModes).atm + 2 + 3 * (nStar * 1) + 1 + nModes := rfl
    rw [e, h]
    show nL + 2 + nStar + 2 * nStar + 1 + nModes = (if 1 < nL ∧ 1 < nRec then nL else 1) + 2 + 3 * (nStar * 1) + 1 + nModes ↔ _
    split_ifs <;> omega
  · have h := atm_eq (psfaoCtx nL nRec nStar nWvl nFrame nModes) (show 0 < min nL nRec by omega)
    have e : (psfaoCtx nL nRec nStar nWvl nFrame nModes).nParam nModes =
      (psfaoCtx nL nRec nStar nWvl nFrame nModes).atm + 6 + 3 + 3 * (nStar * nWvl) + nFrame + nModes := rfl
    rw [e, h]
    show min nL nRec + 6 + 3 + nStar * nWvl + 2 * nStar * nWvl + nWvl + nModes =
      (if 1 < nL ∧ 1 < nRec then nL else 1) + 6 + 3 + 3 * (nStar * nWvl) + nFrame + nModes ↔ _
    rw [Nat.mul_assoc 2 nStar nWvl]
    split_ifs <;> omega

/-- C131 (violations): one star at two wavelengths in the Fourier model; several layers of which one is
reconstructed in PSF reconstruction; five layers of which three are reconstructed in PSFAO21. -/
theorem bounds_violations (nModes : ℕ) :
    fourierBounds 1 < (fourierCtx 1 1 1 2 2 0).nParam 0 ∧
    (psfrCtx 5 1 1 1 1 nModes).nParam nModes < psfrBounds 5 1 nModes ∧
    psfaoBounds 5 3 1 1 nModes < (psfaoCtx 5 3 1 1 1 nModes).nParam nModes := by
  refine ⟨by decide, ?_, ?_⟩
  · show 1 + 2 + 3 * (1 * 1) + 1 + nModes < 5 + 2 + 1 + 2 * 1 + 1 + nModes
    omega
  · show min 5 3 + 6 + 3 + 1 * 1 + 2 * 1 * 1 + 1 + nModes < 5 + 6 + 3 + 3 * (1 * 1) + 1 + nModes
    omega

/-- C131: the fitting code looks for the flux where the decoding finds it exactly when the model has a jitter and
the number of atmospheric parameters is the number decoded. -/
theorem idFlux_iff (c : Ctx) : idFlux c = c.endTT ↔
    (c.jitter = true ∧ c.nAtm = c.atm) ∨ (c.jitter = false ∧ c.nAtm + 3 = c.atm) := by
  unfold idFlux Ctx.endTT Ctx.endDphi
  cases c.jitter <;> simp <;> try omega

/-- C131 (violation): in PSF reconstruction the fitting code looks for the flux three places too far. -/
theorem idFlux_violation (nStar nWvl nFrame nModes : ℕ) :
    idFlux (psfrCtx 1 1 nStar nWvl nFrame nModes) = (psfrCtx 1 1 nStar nWvl nFrame nModes).endTT + 3 := rfl

/-- C33: the photometry at one wavelength: the parameter of the star times each transmission. -/
theorem fluxMono_spec {α : Type} [Mul α] (xs tr : List α) :
    (fluxMono xs tr).length = (fluxShape xs.length 1 tr.length).1 ∧
    ∀ s (hs : s < (fluxMono xs tr).length), ((fluxMono xs tr)[s]).length = (fluxShape xs.length 1 tr.length).2 ∧
      ∀ (t : ℕ) (x y : α), xs[s]? = some x → tr[t]? = some y → ((fluxMono xs tr)[s])[t]? = some (x * y) := by
  refine ⟨by simp [fluxMono, fluxShape], fun s hs => ⟨by simp [fluxMono, fluxShape], fun t x y hx hy => ?_⟩⟩
  have hs' : s < xs.length := by simpa [fluxMono] using hs
  have : xs[s] = x := by rw [List.getElem?_eq_getElem hs'] at hx; exact Option.some.inj hx
  simp [fluxMono, this, hy]

/-- C33: the shape of the photometry at several wavelengths is the one of `reshape_spec`. -/
theorem fluxShape_several (nStar nWvl nTrans : ℕ) (h : nWvl ≠ 1) : fluxShape nStar nWvl nTrans = (nStar, nWvl) := by
  simp [fluxShape, h]

/-- A case meeting the hypotheses of `fluxMono_spec`. -/
example : fluxMono [2, 3] [5, 7, 11] = [[10, 14, 22], [15, 21, 33]] := rfl

end P3.Params
