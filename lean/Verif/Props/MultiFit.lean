import Verif.Model.MultiFit
import Verif.Model.Params
import Verif.Props.Psfao
import Verif.Props.FieldFit
import Verif.Props.Archive
import Verif.Props.Diagnosis
import Mathlib.Tactic.Linarith
import Mathlib.Tactic.NormNum

/-! C477-C482: the fit of several sub-images of a field. -/

namespace P3.MultiFit
open FieldFit (Im)

/-! ### The start of each fit -/

/-- C477: whatever the number of detected stars, the start and the mask have the same number of values, and exactly the
background level of the power spectrum (1) and the jitter (7, 8, 9) are kept at their start. -/
theorem start_mask (t : Tile) : (start t).length = (mask t.stars.length).length ∧
    ∀ i < (start t).length, ((mask t.stars.length)[i]? = some true ↔ i = 1 ∨ i = 7 ∨ i = 8 ∨ i = 9) := by
  have e : (start t).length = 3 * t.stars.length + 11 := by simp [start, guess]; omega
  refine ⟨by rw [e]; simp [mask], fun i hi => ?_⟩
  rw [e] at hi
  by_cases h : i < 10
  · have : (mask t.stars.length)[i]? = ([false, true, false, false, false, false, false, true, true, true] : List Bool)[i]? := by
      rw [mask, List.getElem?_append_left (by simp; omega)]; rfl
    rw [this]
    interval_cases i <;> simp
  · rw [mask, List.getElem?_append_right (by simp; omega), List.getElem?_replicate]
    have : i - ([false, true, false, false, false, false, false] ++ List.replicate 3 true).length < 3 * t.stars.length + 1 := by
      simp; omega
    rw [if_pos this]
    simp; omega

/-- C477: the start is read by the model (one layer, one wavelength, `n` stars) as: r0 of half a metre, the guess of the
power spectrum, no jitter, the fluxes divided by their sum, the offsets of the stars from the central pixel (rows, then
columns), no background and no static aberration. -/
theorem start_read (t : Tile) (h : t.stars ≠ []) (c : Params.Parts ℝ)
    (hc : c = Params.sortParams (Params.psfaoCtx 1 1 t.stars.length 1 t.stars.length 0) (start t)) :
    c.atm = [0.5] ∧ c.dphi = [0, 1, 1e-1, 0.5, 0, 1.8] ∧ c.jitter = some [0, 0, 0] ∧
    c.flux = some (t.stars.map fun s => s.flux / (t.stars.map Found.flux).sum) ∧
    c.dx = some (t.stars.map fun s => s.y - ((t.ny / 2 : ℕ) : ℝ)) ∧ c.dy = some (t.stars.map fun s => s.x - ((t.nx / 2 : ℕ) : ℝ)) ∧
    c.bkg = some [0] ∧ c.stat = none := by
  have hn : 0 < t.stars.length := List.length_pos_of_ne_nil h
  have e : (start t).length = 3 * t.stars.length + 11 := by simp [start, guess]; omega
  have e2 : (Params.psfaoCtx 1 1 t.stars.length 1 t.stars.length 0).endTT = 10 := by
    simp [Params.psfaoCtx, Params.Ctx.endTT, Params.Ctx.endDphi, Params.Ctx.atm]
  have e3 : (Params.psfaoCtx 1 1 t.stars.length 1 t.stars.length 0).endStellar = 10 + 3 * t.stars.length + t.stars.length := by
    rw [Params.Ctx.endStellar, e2]; simp [Params.psfaoCtx, Params.Ctx.nSrc]
  have e4 : (Params.psfaoCtx 1 1 t.stars.length 1 t.stars.length 0).endDphi = 7 := by
    simp [Params.psfaoCtx, Params.Ctx.endDphi, Params.Ctx.atm]
  have e5 : (Params.psfaoCtx 1 1 t.stars.length 1 t.stars.length 0).atm = 1 := by
    simp [Params.psfaoCtx, Params.Ctx.atm]
  have e6 : (Params.psfaoCtx 1 1 t.stars.length 1 t.stars.length 0).nSrc = t.stars.length := by
    simp [Params.psfaoCtx, Params.Ctx.nSrc]
  set F := t.stars.map fun s => s.flux / (t.stars.map Found.flux).sum with hF
  set Y := t.stars.map fun s => s.y - ((t.ny / 2 : ℕ) : ℝ) with hY
  set X := t.stars.map fun s => s.x - ((t.nx / 2 : ℕ) : ℝ) with hX
  have lF : F.length = t.stars.length := by simp [hF]
  have lY : Y.length = t.stars.length := by simp [hY]
  have lX : X.length = t.stars.length := by simp [hX]
  have s0 : start t = guess ++ (F ++ (Y ++ (X ++ [0]))) := by simp [start, hF, hY, hX]
  have st : Params.slice (start t) 10 (10 + 3 * t.stars.length + t.stars.length) = F ++ (Y ++ (X ++ [0])) := by
    rw [Params.slice, List.take_of_length_le (by omega), s0, List.drop_append_of_le_length (by simp [guess])]
    simp [guess]
  have g10 : 10 < (start t).length := by omega
  subst hc
  simp only [Params.sortParams, e2, e3, e4, e5, e6, st, g10, if_true]
  refine ⟨?_, ?_, ?_, ?_, ?_, ?_, ?_, ?_⟩
  · rw [s0]; simp [Params.slice, guess]
  · rw [s0]; simp [Params.slice, guess]
  · rw [if_pos ⟨rfl, by omega⟩, s0]; simp [Params.slice, guess]
  · simp only [Params.slice, List.drop_zero, Option.some.injEq]
    rw [List.take_append_of_le_length (by omega), List.take_of_length_le (by omega)]
  · simp only [Params.slice, Option.some.injEq]
    rw [List.take_append, List.take_of_length_le (by omega), List.drop_append_of_le_length (by omega), List.drop_of_length_le (by omega),
      List.nil_append, lF, List.take_append_of_le_length (by omega), List.take_of_length_le (by omega)]
  · simp only [Params.slice, Option.some.injEq]
    rw [List.take_append, List.take_of_length_le (by omega), List.take_append, List.take_of_length_le (by omega),
      List.take_append_of_le_length (by omega), List.take_of_length_le (by omega), ← List.append_assoc,
      List.drop_append_of_le_length (by simp; omega), List.drop_of_length_le (by simp; omega), List.nil_append]
  · simp only [Option.some.injEq]
    rw [← List.append_assoc, ← List.append_assoc, List.drop_append_of_le_length (by simp; omega), List.drop_of_length_le (by simp; omega),
      List.nil_append]
  · rw [if_neg (by omega)]

/-- C477: for stars of non-negative fluxes that are not all zero, the fluxes at the start are non-negative and sum to one. -/
theorem start_flux (t : Tile) (h0 : ∀ s ∈ t.stars, 0 ≤ s.flux) (h1 : ∃ s ∈ t.stars, s.flux ≠ 0) :
    (t.stars.map fun s => s.flux / (t.stars.map Found.flux).sum).sum = 1 ∧
    ∀ v ∈ t.stars.map (fun s => s.flux / (t.stars.map Found.flux).sum), 0 ≤ v := by
  obtain ⟨s, hs, hne⟩ := h1
  have nn : ∀ v ∈ t.stars.map Found.flux, 0 ≤ v := by simpa using h0
  have pos : 0 < (t.stars.map Found.flux).sum :=
    lt_of_lt_of_le (lt_of_le_of_ne (h0 s hs) (Ne.symm hne)) (List.single_le_sum nn _ (List.mem_map.2 ⟨s, hs, rfl⟩))
  constructor
  · have : (t.stars.map fun s => s.flux / (t.stars.map Found.flux).sum) =
        (t.stars.map Found.flux).map fun v => v * ((t.stars.map Found.flux).sum)⁻¹ := by
      simp [div_eq_mul_inv, Function.comp_def]
    rw [this, List.sum_map_mul_right, List.map_id']
    exact mul_inv_cancel₀ pos.ne'
  · intro v hv
    obtain ⟨s, hs, rfl⟩ := List.mem_map.1 hv
    exact div_nonneg (h0 s hs) pos.le

/-- C477: for stars detected inside a sub-image not larger than the images of the model, the start is within the bounds of
the model (one layer, one wavelength, no static mode), one bound for each value. -/
theorem start_feasible (t : Tile) (npix : ℕ) (w : ℝ) (h0 : ∀ s ∈ t.stars, 0 ≤ s.flux)
    (hy : t.ny ≤ npix) (hx : t.nx ≤ npix) (hs : ∀ s ∈ t.stars, 0 ≤ s.y ∧ s.y ≤ t.ny - 1 ∧ 0 ≤ s.x ∧ s.x ≤ t.nx - 1) :
    List.Forall₂ (fun (v : ℝ) b => b.1 ≤ (v : EReal) ∧ (v : EReal) ≤ b.2) (start t)
      (Psfao.defineBounds 1 1 t.stars.length 1 npix 0 w) := by
  have pos : ∀ (v : ℝ) (N : ℕ), 0 ≤ v → v ≤ N - 1 → N ≤ npix →
      ((((-(npix : ℤ)) / 2 : ℤ) : ℝ) : EReal) ≤ ((v - ((N / 2 : ℕ) : ℝ) : ℝ) : EReal) ∧
      ((v - ((N / 2 : ℕ) : ℝ) : ℝ) : EReal) ≤ (((npix / 2 : ℕ) : ℝ) : EReal) := by
    intro v N a b c
    constructor
    · rw [EReal.coe_le_coe_iff]
      have : ((-(npix : ℤ)) / 2 : ℤ) ≤ -((N / 2 : ℕ) : ℤ) := by omega
      have : (((-(npix : ℤ)) / 2 : ℤ) : ℝ) ≤ -((N / 2 : ℕ) : ℝ) := by exact_mod_cast this
      linarith
    · rw [EReal.coe_le_coe_iff]
      have : N ≤ N / 2 + npix / 2 + 1 := by omega
      have : (N : ℝ) ≤ ((N / 2 : ℕ) : ℝ) + ((npix / 2 : ℕ) : ℝ) + 1 := by exact_mod_cast this
      linarith
  have rep : ∀ (l : List ℝ) (b : EReal × EReal), (∀ v ∈ l, b.1 ≤ (v : EReal) ∧ (v : EReal) ≤ b.2) →
      List.Forall₂ (fun (v : ℝ) b => b.1 ≤ (v : EReal) ∧ (v : EReal) ≤ b.2) l (List.replicate l.length b) := by
    intro l b
    induction l with
    | nil => intro _; exact List.Forall₂.nil
    | cons a l ih => intro h; exact List.Forall₂.cons (h a (by simp)) (ih fun v hv => h v (by simp [hv]))
  have app : ∀ {a b : List ℝ} {c d : List (EReal × EReal)},
      List.Forall₂ (fun (v : ℝ) b => b.1 ≤ (v : EReal) ∧ (v : EReal) ≤ b.2) a c →
      List.Forall₂ (fun (v : ℝ) b => b.1 ≤ (v : EReal) ∧ (v : EReal) ≤ b.2) b d →
      List.Forall₂ (fun (v : ℝ) b => b.1 ≤ (v : EReal) ∧ (v : EReal) ≤ b.2) (a ++ b) (c ++ d) := fun h1 h2 => List.rel_append h1 h2
  have two : List.replicate (2 * t.stars.length) (((((-(npix : ℤ)) / 2 : ℤ) : ℝ) : EReal), (((npix / 2 : ℕ) : ℝ) : EReal)) =
      List.replicate t.stars.length (((((-(npix : ℤ)) / 2 : ℤ) : ℝ) : EReal), (((npix / 2 : ℕ) : ℝ) : EReal)) ++
      List.replicate t.stars.length (((((-(npix : ℤ)) / 2 : ℤ) : ℝ) : EReal), (((npix / 2 : ℕ) : ℝ) : EReal)) := by
    rw [List.replicate_append_replicate]; congr 1; omega
  rw [Psfao.defineBounds]
  simp only [mul_one, two, List.replicate_zero, List.append_nil]
  rw [start, List.append_assoc _ (List.map _ _) (List.map _ _)]
  refine app (app (app ?_ ?_) (app ?_ ?_)) ?_
  · have c : ∀ (a b : ℝ), a ≤ b → (a : EReal) ≤ (b : EReal) := fun a b h => EReal.coe_le_coe_iff.2 h
    have z : ∀ (b : ℝ), 0 ≤ b → (0 : EReal) ≤ (b : EReal) := fun b h => by exact_mod_cast h
    have hpi := Real.pi_pos
    simp only [guess, min_self, List.replicate_one, List.cons_append, List.nil_append, List.forall₂_cons, List.Forall₂.nil, and_true, le_top, bot_le]
    refine ⟨c _ _ (by norm_num), z _ (by norm_num), z _ (by norm_num), c _ _ (by norm_num), ⟨c _ _ (by norm_num), c _ _ (by norm_num)⟩,
      ⟨c _ _ (by linarith), c _ _ (by linarith)⟩, ⟨c _ _ (by norm_num), c _ _ (by norm_num)⟩, z _ le_rfl, z _ le_rfl⟩
  · have := rep (t.stars.map fun s => s.flux / (t.stars.map Found.flux).sum) (0, ⊤) ?_
    · simpa using this
    · intro v hv
      obtain ⟨s, hs, rfl⟩ := List.mem_map.1 hv
      refine ⟨?_, le_top⟩
      have : 0 ≤ s.flux / (t.stars.map Found.flux).sum := div_nonneg (h0 s hs) (List.sum_nonneg (by simpa using h0))
      show (0 : EReal) ≤ _
      exact_mod_cast this
  · have := rep (t.stars.map fun s => s.y - ((t.ny / 2 : ℕ) : ℝ)) (((((-(npix : ℤ)) / 2 : ℤ) : ℝ) : EReal), (((npix / 2 : ℕ) : ℝ) : EReal)) ?_
    · simpa using this
    · intro v hv
      obtain ⟨s, hs', rfl⟩ := List.mem_map.1 hv
      exact pos _ _ (hs s hs').1 (hs s hs').2.1 hy
  · have := rep (t.stars.map fun s => s.x - ((t.nx / 2 : ℕ) : ℝ)) (((((-(npix : ℤ)) / 2 : ℤ) : ℝ) : EReal), (((npix / 2 : ℕ) : ℝ) : EReal)) ?_
    · simpa using this
    · intro v hv
      obtain ⟨s, hs', rfl⟩ := List.mem_map.1 hv
      exact pos _ _ (hs s hs').2.2.1 (hs s hs').2.2.2 hx
  · simp

/-- C478 (partial): a start has one bound of the model for each value exactly for one fitted layer, one wavelength and no
static mode. Missing: the other parameter files, for which the fit raises. -/
theorem start_bounds_partial (t : Tile) (nL nRec nWvl nModes npix : ℕ) (w : ℝ) (h : t.stars ≠ []) (hL : 1 ≤ nL) (hR : 1 ≤ nRec) (hW : 1 ≤ nWvl) :
    (start t).length = (Psfao.defineBounds nL nRec t.stars.length nWvl npix nModes w).length ↔
      min nL nRec = 1 ∧ nWvl = 1 ∧ nModes = 0 := by
  have hn : 0 < t.stars.length := List.length_pos_of_ne_nil h
  have e : (start t).length = 3 * t.stars.length + 11 := by simp [start, guess]; omega
  have e2 : (Psfao.defineBounds nL nRec t.stars.length nWvl npix nModes w).length =
      min nL nRec + 9 + (t.stars.length * nWvl + 2 * (t.stars.length * nWvl)) + nWvl + nModes := by
    simp only [Psfao.defineBounds, List.length_append, List.length_replicate, List.length_cons, List.length_nil]
    ring
  rw [e, e2]
  have hm : 1 ≤ min nL nRec := le_min hL hR
  constructor
  · intro hh
    obtain ⟨k, rfl⟩ : ∃ k, nWvl = k + 1 := ⟨nWvl - 1, by omega⟩
    have : t.stars.length * (k + 1) = t.stars.length * k + t.stars.length := by ring
    rw [this] at hh
    have hk : k = 0 := by
      have : k ≤ t.stars.length * k := Nat.le_mul_of_pos_left k hn
      omega
    subst hk
    refine ⟨?_, rfl, ?_⟩ <;> omega
  · rintro ⟨a, rfl, rfl⟩
    rw [a]; omega

/-- C478 (violation): with two layers, two wavelengths or static modes in the parameter file, no start has as many values as there
are bounds, whatever the stars. -/
theorem start_bounds_violation (t : Tile) (h : t.stars ≠ []) (npix : ℕ) (w : ℝ) :
    (start t).length ≠ (Psfao.defineBounds 2 2 t.stars.length 1 npix 0 w).length ∧
    (start t).length ≠ (Psfao.defineBounds 1 1 t.stars.length 2 npix 0 w).length ∧
    (start t).length ≠ (Psfao.defineBounds 1 1 t.stars.length 1 npix 3 w).length := by
  refine ⟨fun hh => ?_, fun hh => ?_, fun hh => ?_⟩
  · exact absurd ((start_bounds_partial t 2 2 1 0 npix w h (by norm_num) (by norm_num) (by norm_num)).1 hh).1 (by decide)
  · exact absurd ((start_bounds_partial t 1 1 2 0 npix w h (by norm_num) (by norm_num) (by norm_num)).1 hh).2.1 (by decide)
  · exact absurd ((start_bounds_partial t 1 1 1 3 npix w h (by norm_num) (by norm_num) (by norm_num)).1 hh).2.2 (by decide)

/-- A sub-image of eight by six pixels with two stars. -/
noncomputable def demo : Tile := ⟨[⟨3, 2, 4⟩, ⟨5, 4, 1⟩], 8, 6, 10, -20⟩

/-- A case of C477 and C478: the two stars are inside the sub-image and the images of the model have eight pixels. -/
example : demo.stars ≠ [] ∧ (∀ s ∈ demo.stars, 0 ≤ s.flux) ∧ (∃ s ∈ demo.stars, s.flux ≠ 0) ∧ demo.ny ≤ 8 ∧ demo.nx ≤ 8 ∧
    (∀ s ∈ demo.stars, 0 ≤ s.y ∧ s.y ≤ demo.ny - 1 ∧ 0 ≤ s.x ∧ s.x ≤ demo.nx - 1) ∧
    start demo = [0.5, 0, 1, 1e-1, 0.5, 0, 1.8, 0, 0, 0, 4 / 5, 1 / 5, -1, 1, -1, 1, 0] := by
  refine ⟨by simp [demo], ?_⟩
  simp only [demo, start, guess]
  norm_num

/-! ### What the loop returns -/

/-- What a sub-image gives, from the fit of its stars: nothing is detected, or the fit is done. -/
def Fitted (solver : Solver) (ps : ℝ) (t : Tile) (f : Fit) : Prop :=
  t.stars ≠ [] ∧ solver t (t.stars.map fun s => ((s.y - ((t.ny / 2 : ℕ) : ℝ)) * ps, (s.x - ((t.nx / 2 : ℕ) : ℝ)) * ps))
    (start t) (mask t.stars.length) = some f

theorem fitTile_some (solver : Solver) (ps : ℝ) (t : Tile) (o : Option Fit) : fitTile solver ps t = some o ↔
    (t.stars = [] ∧ o = none) ∨ ∃ f, Fitted solver ps t f ∧ o = some f := by
  unfold fitTile Fitted cooStars
  split_ifs with h
  · simp [h, eq_comm]
  · simp only [h, false_and, false_or, not_false_eq_true, ne_eq, true_and, Option.map_eq_some_iff]
    constructor
    · rintro ⟨f, a, b⟩; exact ⟨f, a, b.symm⟩
    · rintro ⟨f, a, b⟩; exact ⟨f, a, b.symm⟩

/-- C481 (partial): the calibration returns exactly when the fit of every sub-image with a star returns. Missing: a result for
the other sub-images when one fit raises. -/
theorem run_iff_partial (solver : Solver) (build : List ℝ → Im) (ps : ℝ) (tiles : List Tile) :
    (∃ r, run solver build ps tiles = some r) ↔ ∀ t ∈ tiles, t.stars ≠ [] → ∃ f, Fitted solver ps t f := by
  have key : (∃ fits, tiles.mapM (fitTile solver ps) = some fits) ↔ ∀ t ∈ tiles, t.stars ≠ [] → ∃ f, Fitted solver ps t f := by
    constructor
    · rintro ⟨fits, h⟩ t ht hs
      obtain ⟨i, hi, rfl⟩ := List.mem_iff_getElem.1 ht
      obtain ⟨h', h2⟩ := ((Archive.mapM_some_iff _ _ _).1 h).2 i hi
      rcases (fitTile_some _ _ _ _).1 h2 with h | ⟨f, h, _⟩
      · exact absurd h.1 hs
      · exact ⟨f, h⟩
    · intro h
      induction tiles with
      | nil => exact ⟨[], rfl⟩
      | cons a l ih =>
        obtain ⟨fits, hf⟩ := ih fun t ht => h t (by simp [ht])
        have : ∃ o, fitTile solver ps a = some o := by
          by_cases ha : a.stars = []
          · exact ⟨none, (fitTile_some _ _ _ _).2 (Or.inl ⟨ha, rfl⟩)⟩
          · obtain ⟨f, hf⟩ := h a (by simp) ha
            exact ⟨some f, (fitTile_some _ _ _ _).2 (Or.inr ⟨f, hf, rfl⟩)⟩
        obtain ⟨o, ho⟩ := this
        exact ⟨o :: fits, by simp [List.mapM_cons, ho, hf]⟩
  rw [← key]
  unfold run
  cases tiles.mapM (fitTile solver ps) with
  | none => simp
  | some fits => simp

/-- C481 (violation): one sub-image whose fit raises makes the whole calibration raise, whatever the number of the others. -/
theorem run_violation (solver : Solver) (build : List ℝ → Im) (ps : ℝ) (tiles : List Tile) (t : Tile) (ht : t ∈ tiles) (hs : t.stars ≠ [])
    (h : ∀ c s m, solver t c s m = none) : run solver build ps tiles = none := by
  by_contra hne
  obtain ⟨r, hr⟩ := Option.ne_none_iff_exists'.1 hne
  obtain ⟨f, _, hf⟩ := (run_iff_partial solver build ps tiles).1 ⟨r, hr⟩ t ht hs
  rw [h] at hf
  exact absurd hf (by simp)

/-- C479: the result has one column and one PSF for each sub-image, in order. Without a star both are zero. With stars, the
column has 24 rows: the seven parameters of the fit, their errors, the coordinates of the sub-image with their distance, the
six Strehl ratios and widths and the mean square error; the PSF is built with the six parameters of its own fit after a
common first one, without jitter, with one star of flux one at the centre and no background. -/
theorem run_spec (solver : Solver) (build : List ℝ → Im) (ps : ℝ) (tiles : List Tile) (X : List (List ℝ)) (psfs : List Im)
    (h : run solver build ps tiles = some (X, psfs)) : ∃ r0 : ℝ,
    X.length = tiles.length ∧ psfs.length = tiles.length ∧ ∀ (k : ℕ) (t : Tile), tiles[k]? = some t →
      (t.stars = [] ∧ X[k]? = some (List.replicate 24 0) ∧ psfs[k]? = some fun _ _ => 0) ∨
      ∃ f, Fitted solver ps t f ∧
        psfs[k]? = some (build ([r0] ++ (f.x.drop 1).take 6 ++ [0, 0, 0] ++ [1, 0, 0] ++ [0])) ∧ ∃ c : List ℝ, X[k]? = some c ∧
        (7 ≤ f.x.length → 7 ≤ f.xerr.length → c.length = 24 ∧ (∀ i < 7, c[i]? = f.x[i]?) ∧ (∀ i < 7, c[7 + i]? = f.xerr[i]?) ∧
          c[14]? = some t.y ∧ c[15]? = some t.x ∧ c[16]? = some √(t.y ^ 2 + t.x ^ 2) ∧ c[17]? = some f.srSky ∧ c[18]? = some f.srFit ∧
          c[19]? = some f.fwhmXSky ∧ c[20]? = some f.fwhmYSky ∧ c[21]? = some f.fwhmXFit ∧ c[22]? = some f.fwhmYFit ∧ c[23]? = some f.mse) := by
  unfold run at h
  cases hm : tiles.mapM (fitTile solver ps) with
  | none => rw [hm] at h; exact absurd h (by simp)
  | some fits =>
    rw [hm] at h
    simp only [Option.some.injEq, Prod.mk.injEq] at h
    obtain ⟨rfl, rfl⟩ := h
    obtain ⟨hlen, hall⟩ := (Archive.mapM_some_iff _ _ _).1 hm
    refine ⟨Metrics.median (seeing fits), by simp [hlen], by simp [hlen], fun k t hk => ?_⟩
    obtain ⟨hk', rfl⟩ := List.getElem?_eq_some_iff.1 hk
    obtain ⟨h', h2⟩ := hall k hk'
    have e : fits[k]? = some fits[k] := List.getElem?_eq_getElem h'
    rcases (fitTile_some _ _ _ _).1 h2 with ⟨a, b⟩ | ⟨f, a, b⟩
    · left
      refine ⟨a, ?_, ?_⟩
      · simp [List.getElem?_zipWith, hk, e, b, column]
      · simp [List.getElem?_map, e, b]
    · right
      refine ⟨f, a, ?_, column tiles[k] (some f), ?_, ?_⟩
      · simp [List.getElem?_map, e, b, regen, List.drop_take]
      · simp [List.getElem?_zipWith, hk, e, b]
      · intro h7 h7'
        have l1 : (f.x.take 7).length = 7 := by simp; omega
        have l2 : (f.xerr.take 7).length = 7 := by simp; omega
        have hc : column tiles[k] (some f) = f.x.take 7 ++ (f.xerr.take 7 ++ ([tiles[k].y, tiles[k].x, √(tiles[k].y ^ 2 + tiles[k].x ^ 2)] ++
            [f.srSky, f.srFit, f.fwhmXSky, f.fwhmYSky, f.fwhmXFit, f.fwhmYFit, f.mse])) := by simp [column]
        have tail : ∀ i, (column tiles[k] (some f))[14 + i]? = ([tiles[k].y, tiles[k].x, √(tiles[k].y ^ 2 + tiles[k].x ^ 2)] ++
            [f.srSky, f.srFit, f.fwhmXSky, f.fwhmYSky, f.fwhmXFit, f.fwhmYFit, f.mse])[i]? := by
          intro i
          rw [hc, List.getElem?_append_right (by omega), List.getElem?_append_right (by omega), l1, l2]
          congr 1; omega
        refine ⟨by rw [hc]; simp only [List.length_append, l1, l2]; simp, fun i hi => ?_, fun i hi => ?_, tail 0, tail 1, tail 2, tail 3, tail 4, tail 5, tail 6, tail 7, tail 8, tail 9⟩
        · rw [hc, List.getElem?_append_left (by omega), List.getElem?_take_of_lt hi]
        · rw [hc, List.getElem?_append_right (by omega), l1, Nat.add_sub_cancel_left, List.getElem?_append_left (by omega), List.getElem?_take_of_lt hi]

/-- C479: the column of a sub-image does not depend on the others: two calibrations that return give the same column to the
same sub-image. -/
theorem column_local (solver : Solver) (build : List ℝ → Im) (ps : ℝ) (l l' : List Tile) (X X' : List (List ℝ)) (P P' : List Im)
    (h : run solver build ps l = some (X, P)) (h' : run solver build ps l' = some (X', P')) (k k' : ℕ) (t : Tile)
    (hk : l[k]? = some t) (hk' : l'[k']? = some t) : X[k]? = X'[k']? := by
  have col : ∀ (l : List Tile) (X : List (List ℝ)) (P : List Im), run solver build ps l = some (X, P) → ∀ k : ℕ, l[k]? = some t →
      X[k]? = (fitTile solver ps t).map (column t) := by
    intro l X P h k hk
    unfold run at h
    cases hm : l.mapM (fitTile solver ps) with
    | none => rw [hm] at h; exact absurd h (by simp)
    | some fits =>
      rw [hm] at h
      simp only [Option.some.injEq, Prod.mk.injEq] at h
      obtain ⟨rfl, rfl⟩ := h
      obtain ⟨hlen, hall⟩ := (Archive.mapM_some_iff _ _ _).1 hm
      obtain ⟨hj, e⟩ := List.getElem?_eq_some_iff.1 hk
      obtain ⟨h', h2⟩ := hall k hj
      rw [e] at h2
      simp [List.getElem?_zipWith, hk, List.getElem?_eq_getElem h', h2]
  rw [col l X P h k hk, col l' X' P' h' k' hk']

/-! ### The common first parameter -/

theorem median_between (l : List ℝ) (hl : l ≠ []) (lo hi : ℝ) (h : ∀ v ∈ l, lo ≤ v ∧ v ≤ hi) : lo ≤ Metrics.median l ∧ Metrics.median l ≤ hi := by
  have hp := List.length_pos_of_ne_nil hl
  have g : ∀ i, i < l.length → lo ≤ (l.mergeSort fun a b => decide (a ≤ b)).getD i 0 ∧ (l.mergeSort fun a b => decide (a ≤ b)).getD i 0 ≤ hi := by
    intro i hi
    rw [List.getD_eq_getElem _ _ (by simpa using hi)]
    exact h _ (List.mem_mergeSort.1 (List.getElem_mem _))
  rw [Metrics.median]
  split_ifs
  · exact g _ (by omega)
  · have a := g (l.length / 2 - 1) (by omega)
    have b := g (l.length / 2) (by omega)
    constructor <;> linarith [a.1, a.2, b.1, b.2]

/-- First parameters of the fitted sub-images, read from the columns. -/
noncomputable def firsts (tiles : List Tile) (X : List (List ℝ)) : List ℝ :=
  ((tiles.zip X).filter fun p => !p.1.stars.isEmpty).map fun p => p.2.getD 0 0

/-- C480 (partial): the first parameter (r0) of every PSF is the median of those of the fitted sub-images, which is between their
bounds; the other six are those of the column. The PSF is that of its own column exactly when (for a model that depends on
r0) its r0 is the median. Missing: the other sub-images. -/
theorem common_partial (solver : Solver) (build : List ℝ → Im) (ps : ℝ) (tiles : List Tile) (X : List (List ℝ)) (psfs : List Im)
    (h : run solver build ps tiles = some (X, psfs)) (h7 : ∀ t c s m f, solver t c s m = some f → 7 ≤ f.x.length)
    (k : ℕ) (t : Tile) (c : List ℝ) (hk : tiles[k]? = some t) (hX : X[k]? = some c) (hs : t.stars ≠ []) :
    psfs[k]? = some (build (Metrics.median (firsts tiles X) :: (c.drop 1).take 6 ++ [0, 0, 0, 1, 0, 0, 0])) ∧
    (∀ lo hi, (∀ v ∈ firsts tiles X, lo ≤ v ∧ v ≤ hi) → lo ≤ Metrics.median (firsts tiles X) ∧ Metrics.median (firsts tiles X) ≤ hi) ∧
    ((∀ a b l, build (a :: l) = build (b :: l) → a = b) →
      (psfs[k]? = some (build (c.take 7 ++ [0, 0, 0, 1, 0, 0, 0])) ↔ c.getD 0 0 = Metrics.median (firsts tiles X))) := by
  unfold run at h
  cases hm : tiles.mapM (fitTile solver ps) with
  | none => rw [hm] at h; exact absurd h (by simp)
  | some fits =>
    rw [hm] at h
    simp only [Option.some.injEq, Prod.mk.injEq] at h
    obtain ⟨rfl, rfl⟩ := h
    have all := (Archive.mapM_some_iff _ _ _).1 hm
    obtain ⟨hlen, hall⟩ := all
    have fe : firsts tiles (List.zipWith column tiles fits) = seeing fits := by
      clear hk hX hm
      induction tiles generalizing fits with
      | nil =>
        have : fits = [] := List.length_eq_zero_iff.1 (by simpa using hlen)
        subst this; rfl
      | cons a l ih =>
        cases fits with
        | nil => simp at hlen
        | cons o os =>
          have ihh := ih os (by simpa using hlen) fun i hi => by
            obtain ⟨h', h2⟩ := hall (i + 1) (by simpa using hi)
            exact ⟨by simpa using h', by simpa using h2⟩
          obtain ⟨_, h2⟩ := hall 0 (by simp)
          simp only [List.getElem_cons_zero] at h2
          simp only [firsts, seeing] at ihh ⊢
          rcases (fitTile_some _ _ _ _).1 h2 with ⟨a1, rfl⟩ | ⟨f, a1, rfl⟩
          · simp only [List.zipWith_cons_cons, List.zip_cons_cons, List.filterMap_cons, Option.map_none]
            rw [List.filter_cons_of_neg (by simp [a1]), ihh]
          · have hf := h7 _ _ _ _ _ a1.2
            have : (column a (some f)).getD 0 0 = f.x.getD 0 0 := by
              match hx : f.x, hf with
              | v :: w, _ => simp [column, hx]
            simp only [List.zipWith_cons_cons, List.zip_cons_cons, List.filterMap_cons, Option.map_some]
            rw [List.filter_cons_of_pos (by simp [a1.1]), List.map_cons, ihh, this]
    obtain ⟨hk', rfl⟩ := List.getElem?_eq_some_iff.1 hk
    obtain ⟨h', h2⟩ := hall k hk'
    have e : fits[k]? = some fits[k] := List.getElem?_eq_getElem h'
    rcases (fitTile_some _ _ _ _).1 h2 with ⟨a, b⟩ | ⟨f, a, b⟩
    · exact absurd a hs
    · have hf := h7 _ _ _ _ _ a.2
      have hc : c = column tiles[k] (some f) := by
        simp [List.getElem?_zipWith, hk, e, b] at hX
        exact hX.symm
      have c7 : c.take 7 = f.x.take 7 := by
        rw [hc, column, List.append_assoc, List.append_assoc, List.take_append_of_le_length (by simp; omega), List.take_take]; simp
      have c6 : (c.drop 1).take 6 = (f.x.take 7).drop 1 := by rw [← c7, List.drop_take]
      have psf : ∀ g : Option Fit → Im, g (some f) = build (regen (Metrics.median (seeing fits)) f) → (fits.map g)[k]? =
          some (build (Metrics.median (seeing fits) :: (c.drop 1).take 6 ++ [0, 0, 0, 1, 0, 0, 0])) := by
        intro g hg
        rw [c6, List.getElem?_map, e, b, Option.map_some, hg]; rfl
      have ne : seeing fits ≠ [] := by
        have : f.x.getD 0 0 ∈ seeing fits := by
          rw [seeing, List.mem_filterMap]
          exact ⟨some f, by rw [← b]; exact List.getElem_mem _, rfl⟩
        exact List.ne_nil_of_mem this
      have hc7 : c.take 7 = c.getD 0 0 :: (c.drop 1).take 6 := by
        have : 7 ≤ c.length := by rw [hc]; simp [column]; omega
        match c, this with
        | v :: w, _ => simp
      rw [fe]
      refine ⟨psf _ rfl, fun lo hi hh => median_between _ ne lo hi hh, fun inj => ?_⟩
      rw [psf _ rfl, hc7, Option.some.injEq]
      constructor
      · intro hh; exact (inj _ _ _ hh).symm
      · intro hh; rw [hh]

/-- C480 (violation): with two fitted sub-images of different r0, for a model that depends on r0, neither PSF is that of its own
column. -/
theorem common_violation (solver : Solver) (build : List ℝ → Im) (ps : ℝ) (t u : Tile) (X : List (List ℝ)) (psfs : List Im)
    (h : run solver build ps [t, u] = some (X, psfs)) (h7 : ∀ t c s m f, solver t c s m = some f → 7 ≤ f.x.length)
    (c d : List ℝ) (hX : X = [c, d]) (ht : t.stars ≠ []) (hu : u.stars ≠ []) (hne : c.getD 0 0 ≠ d.getD 0 0)
    (inj : ∀ a b l, build (a :: l) = build (b :: l) → a = b) :
    psfs[0]? ≠ some (build (c.take 7 ++ [0, 0, 0, 1, 0, 0, 0])) ∧ psfs[1]? ≠ some (build (d.take 7 ++ [0, 0, 0, 1, 0, 0, 0])) := by
  have two : ∀ a b : ℝ, Metrics.median [a, b] = (a + b) / 2 := by
    intro a b
    have key : ∀ a b : ℝ, a ≤ b → Metrics.median [a, b] = (a + b) / 2 := by
      intro a b hab
      have : [a, b].mergeSort (fun a b => decide (a ≤ b)) = [a, b] := List.mergeSort_of_pairwise (by simpa using hab)
      simp [Metrics.median, this]
    rcases le_total a b with hab | hab
    · exact key a b hab
    · rw [Diag.median_perm _ _ (List.Perm.swap b a []), key b a hab, add_comm]
  have f2 : firsts [t, u] [c, d] = [c.getD 0 0, d.getD 0 0] := by simp [firsts, ht, hu]
  subst hX
  constructor
  · intro hh
    have := ((common_partial solver build ps _ _ psfs h h7 0 t c rfl rfl ht).2.2 inj).1 hh
    rw [f2, two] at this
    exact hne (by linarith)
  · intro hh
    have := ((common_partial solver build ps _ _ psfs h h7 1 u d rfl rfl hu).2.2 inj).1 hh
    rw [f2, two] at this
    exact hne (by linarith)

/-! ### Interpolation with sub-images that were not fitted -/

theorem ordered_total (a b : Option ℝ) : ordered a b ∨ ordered b a := by
  cases a <;> cases b <;> simp [ordered, le_total]

theorem ordered_trans {a b c : Option ℝ} (h : ordered a b) (h' : ordered b c) : ordered a c := by
  cases a <;> cases b <;> cases c <;> simp only [ordered] at *
  exact h.trans h'

open Classical in
theorem nearest_spec (d : ℕ → Option ℝ) (nPSF n : ℕ) :
    (nearest d nPSF n).length = min n nPSF ∧ (nearest d nPSF n).Nodup ∧ (∀ i ∈ nearest d nPSF n, i < nPSF) ∧
    ∀ i ∈ nearest d nPSF n, ∀ j < nPSF, j ∉ nearest d nPSF n → ordered (d i) (d j) := by
  unfold nearest
  set l := (List.range nPSF).insertionSort fun a b => ordered (d a) (d b) with hl
  have hperm : l.Perm (List.range nPSF) := List.perm_insertionSort _ _
  have hlen : l.length = nPSF := by rw [hperm.length_eq, List.length_range]
  have hnd : l.Nodup := hperm.nodup_iff.2 List.nodup_range
  have hsorted : l.Pairwise fun a b => ordered (d a) (d b) := by
    have : Std.Total (fun a b : ℕ => ordered (d a) (d b)) := ⟨fun a b => ordered_total _ _⟩
    have : IsTrans ℕ (fun a b : ℕ => ordered (d a) (d b)) := ⟨fun a b c => ordered_trans⟩
    exact List.pairwise_insertionSort _ _
  refine ⟨by rw [List.length_take, hlen], hnd.sublist (List.take_sublist _ _), ?_, ?_⟩
  · intro i hi
    exact List.mem_range.1 (hperm.mem_iff.1 (List.mem_of_mem_take hi))
  · intro i hi j hj hj'
    have hjl : j ∈ l := hperm.mem_iff.2 (List.mem_range.2 hj)
    rw [← List.take_append_drop n l] at hjl hsorted
    rcases List.mem_append.1 hjl with h | h
    · exact absurd h hj'
    · exact (List.pairwise_append.1 hsorted).2.2 i hi j h

/-- C482 (violation): with several PSFs per segment, one sub-image that was not fitted (a mean square error of zero) beside a fitted
one of its group leaves no interpolated PSF at all, wherever it is asked for and whatever the number of neighbours. -/
theorem unfitted_violation (psfs : ℕ → Im) (mse : ℕ → ℝ) (nMax nSeg n : ℕ) (y x : ℕ → ℝ) (yo xo : ℝ) (k a : ℕ) (hn : 0 < n)
    (hk : k < nMax * nSeg) (h1 : mse k ≠ 0) (ha : a < nMax) (h0 : mse (a * nSeg + k % nSeg) = 0) (hpos : ∀ i, 0 ≤ mse i) :
    interp psfs (dist mse nMax nSeg yo xo y x) (nearest (dist mse nMax nSeg yo xo y x) (nMax * nSeg) n) = none := by
  set d := dist mse nMax nSeg yo xo y x with hd
  have dk : d k = some 0 := by
    rw [hd, dist, weight, if_neg h1, if_pos ⟨a, ha, h0⟩]; simp
  have nonneg : ∀ i v, d i = some v → 0 ≤ v := by
    intro i v hv
    rw [hd, dist, Option.map_eq_some_iff] at hv
    obtain ⟨w, hw, rfl⟩ := hv
    refine mul_nonneg ?_ (Real.sqrt_nonneg _)
    unfold weight at hw
    split_ifs at hw
    · simp only [Option.some.injEq] at hw; rw [← hw]
    · simp only [Option.some.injEq] at hw
      rw [← hw, FieldFit.wMse]
      refine div_nonneg (div_nonneg zero_le_one (hpos _)) (List.sum_nonneg ?_)
      intro v hv
      obtain ⟨b, _, rfl⟩ := List.mem_map.1 hv
      exact div_nonneg zero_le_one (hpos _)
  obtain ⟨s1, _, s3, s4⟩ := nearest_spec d (nMax * nSeg) n
  have hex : ∃ i ∈ nearest d (nMax * nSeg) n, d i = none ∨ d i = some 0 := by
    by_cases hin : k ∈ nearest d (nMax * nSeg) n
    · exact ⟨k, hin, Or.inr dk⟩
    · have : 0 < (nearest d (nMax * nSeg) n).length := by rw [s1]; exact lt_min hn (by omega)
      obtain ⟨i, hi⟩ := List.exists_mem_of_length_pos this
      have o := s4 i hi k hk hin
      rw [dk] at o
      refine ⟨i, hi, ?_⟩
      cases hv : d i with
      | none => exact Or.inl rfl
      | some v =>
        rw [hv] at o
        right
        rw [le_antisymm (show v ≤ 0 from o) (nonneg i v hv)]
  rw [interp, if_pos hex]

/-- C482 (partial): with one PSF per segment, the interpolated PSF exists (away from the positions of the fitted sub-images) exactly
when there are as many fitted sub-images as neighbours used; then only fitted ones are used, the nearest of them, and the
result is their interpolation. Missing: fewer fitted sub-images than neighbours, several PSFs per segment. -/
theorem unfitted_partial (psfs : ℕ → Im) (mse : ℕ → ℝ) (nPSF n : ℕ) (y x : ℕ → ℝ) (yo xo : ℝ)
    (away : ∀ i < nPSF, mse i ≠ 0 → √((yo - y i) ^ 2 + (xo - x i) ^ 2) ≠ 0) (ids : List ℕ)
    (hids : ids = nearest (dist mse 1 nPSF yo xo y x) nPSF n) :
    ((∃ im, interp psfs (dist mse 1 nPSF yo xo y x) ids = some im) ↔ min n nPSF ≤ ((List.range nPSF).filter fun i => decide (mse i ≠ 0)).length) ∧
    ∀ im, interp psfs (dist mse 1 nPSF yo xo y x) ids = some im → ids.length = min n nPSF ∧
      (∀ i ∈ ids, i < nPSF ∧ mse i ≠ 0 ∧ ∀ j < nPSF, mse j ≠ 0 → j ∉ ids → √((yo - y i) ^ 2 + (xo - x i) ^ 2) ≤ √((yo - y j) ^ 2 + (xo - x j) ^ 2)) ∧
      FieldFit.interp psfs (fun i => √((yo - y i) ^ 2 + (xo - x i) ^ 2)) ids = some im := by
  set d := dist mse 1 nPSF yo xo y x with hd
  have dz : ∀ i, mse i = 0 → d i = none := by
    intro i hi; rw [hd, dist, weight, if_pos hi]; rfl
  have dv : ∀ i < nPSF, mse i ≠ 0 → d i = some √((yo - y i) ^ 2 + (xo - x i) ^ 2) := by
    intro i hi h
    have hex : ¬∃ a < 1, mse (a * nPSF + i % nPSF) = 0 := by
      rintro ⟨a, ha, h0⟩
      obtain rfl : a = 0 := by omega
      rw [Nat.mod_eq_of_lt hi] at h0
      exact h (by simpa using h0)
    rw [hd, dist, weight, if_neg h, if_neg hex, FieldFit.wMse_single_partial mse nPSF i hi h]
    simp
  obtain ⟨s1, s2, s3, s4⟩ := nearest_spec d nPSF n
  rw [← hids] at s1 s2 s3 s4
  have ok : (∃ i ∈ ids, d i = none ∨ d i = some 0) ↔ ∃ i ∈ ids, mse i = 0 := by
    constructor
    · rintro ⟨i, hi, h⟩
      by_contra hc
      push Not at hc
      rw [dv i (s3 i hi) (hc i hi)] at h
      rcases h with h | h
      · exact absurd h (by simp)
      · exact away i (s3 i hi) (hc i hi) (by simpa using h)
    · rintro ⟨i, hi, h⟩
      exact ⟨i, hi, Or.inl (dz i h)⟩
  have some_iff : (∃ im, interp psfs d ids = some im) ↔ ∀ i ∈ ids, mse i ≠ 0 := by
    unfold interp
    constructor
    · rintro ⟨im, h⟩ i hi h0
      rw [if_pos (ok.2 ⟨i, hi, h0⟩)] at h
      exact absurd h (by simp)
    · intro h
      have hno : ¬∃ i ∈ ids, d i = none ∨ d i = some 0 := fun hh => by
        obtain ⟨i, hi, h0⟩ := ok.1 hh
        exact h i hi h0
      rw [if_neg hno, FieldFit.interp, if_neg]
      · exact ⟨_, rfl⟩
      · rintro ⟨i, hi, h0⟩
        rw [dv i (s3 i hi) (h i hi)] at h0
        exact away i (s3 i hi) (h i hi) h0
  constructor
  · rw [some_iff]
    constructor
    · intro h
      rw [← s1]
      refine (List.Subperm.length_le (List.Nodup.subperm s2 fun i hi => ?_))
      exact List.mem_filter.2 ⟨List.mem_range.2 (s3 i hi), by simpa using h i hi⟩
    · intro h i hi h0
      have sub : ∀ j ∈ (List.range nPSF).filter (fun i => decide (mse i ≠ 0)), j ∈ ids.erase i := by
        intro j hj
        obtain ⟨a, b⟩ := List.mem_filter.1 hj
        have b' : mse j ≠ 0 := by simpa using b
        have hj' := List.mem_range.1 a
        have hin : j ∈ ids := by
          by_contra hno
          have o := s4 i hi j hj' hno
          rw [dz i h0, dv j hj' b'] at o
          exact o
        exact (List.mem_erase_of_ne (by rintro rfl; exact b' h0)).2 hin
      have l1 := (List.Nodup.subperm (List.nodup_range.filter _) sub).length_le
      rw [List.length_erase_of_mem hi] at l1
      have : 0 < ids.length := List.length_pos_of_mem hi
      omega
  · intro im him
    have good := some_iff.1 ⟨im, him⟩
    refine ⟨s1, fun i hi => ⟨s3 i hi, good i hi, fun j hj hj0 hno => ?_⟩, ?_⟩
    · have o := s4 i hi j hj hno
      rw [dv i (s3 i hi) (good i hi), dv j hj hj0] at o
      exact o
    · have hno : ¬∃ i ∈ ids, d i = none ∨ d i = some 0 := fun hh => by
        obtain ⟨i, hi, h0⟩ := ok.1 hh
        exact good i hi h0
      rw [interp, if_neg hno] at him
      rw [← him, FieldFit.interp, FieldFit.interp]
      have e : ∀ i ∈ ids, (d i).getD 0 = √((yo - y i) ^ 2 + (xo - x i) ^ 2) := fun i hi => by
        rw [dv i (s3 i hi) (good i hi)]; rfl
      have e1 : (ids.map fun i => 1 / (d i).getD 0) = ids.map fun i => 1 / √((yo - y i) ^ 2 + (xo - x i) ^ 2) :=
        List.map_congr_left fun i hi => by rw [e i hi]
      have n1 : ¬∃ i ∈ ids, √((yo - y i) ^ 2 + (xo - x i) ^ 2) = 0 := by
        rintro ⟨i, hi, h⟩; exact away i (s3 i hi) (good i hi) h
      have n2 : ¬∃ i ∈ ids, (d i).getD 0 = 0 := by
        rintro ⟨i, hi, h⟩; rw [e i hi] at h; exact n1 ⟨i, hi, h⟩
      rw [if_neg n1, if_neg n2, e1]
      congr 1
      funext a b
      congr 1
      exact List.map_congr_left fun i hi => by rw [e i hi]

/-- A case of C482: four sub-images on a line, the third not fitted, two neighbours asked at the origin. -/
example : (∀ i : ℕ, i < 4 → (if i = 2 then (0 : ℝ) else 1) ≠ 0 → √((0 - ((i : ℝ) + 1)) ^ 2 + (0 - (0 : ℝ)) ^ 2) ≠ 0) ∧
    min 2 4 ≤ ((List.range 4).filter fun i => decide ((if i = 2 then (0 : ℝ) else 1) ≠ 0)).length := by
  constructor
  · intro i _ _
    have : (0 : ℝ) < (0 - ((i : ℝ) + 1)) ^ 2 + (0 - (0 : ℝ)) ^ 2 := by
      have : (0 : ℝ) ≤ i := Nat.cast_nonneg i
      nlinarith
    exact (Real.sqrt_pos.2 this).ne'
  · simp [List.range_succ]

/-- A case of the violation of C482: two PSFs for each of two segments, the second of the first segment not fitted. -/
example (psfs : ℕ → Im) : interp psfs (dist (fun i => if i = 2 then 0 else 1) 2 2 5 5 (fun _ => 0) fun i => i)
    (nearest (dist (fun i => if i = 2 then 0 else 1) 2 2 5 5 (fun _ => 0) fun i => i) (2 * 2) 4) = none :=
  unfitted_violation psfs _ 2 2 4 _ _ 5 5 0 1 (by norm_num) (by norm_num) (by norm_num) (by norm_num) (by norm_num)
    fun i => by split_ifs <;> norm_num

/-- A solver whose first parameter is the row of the sub-image. -/
noncomputable def demoSolver : Solver := fun t _ _ _ => some ⟨[t.y, 0, 0, 0, 0, 0, 0], [0, 0, 0, 0, 0, 0, 0], 0, 0, 0, 0, 0, 0, 1⟩

/-- A case of C479, C480 and C481: two sub-images with stars and one without. -/
example : ∃ X psfs, run demoSolver (fun l _ _ => l.getD 0 0) 1 [demo, ⟨[], 8, 8, 0, 0⟩, { demo with y := 30 }] = some (X, psfs) ∧
    X.map (fun c => c.getD 0 0) = [10, 0, 30] := by
  have a : demo.stars ≠ [] := by simp [demo]
  refine ⟨_, _, by simp only [run, List.mapM_cons, List.mapM_nil, fitTile, demoSolver, demo, Option.map_some, if_true, if_neg (List.cons_ne_nil _ _)]; rfl, ?_⟩
  simp [column]

end P3.MultiFit
