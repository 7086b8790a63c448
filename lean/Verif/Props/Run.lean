import Verif.Model.Run
import Verif.Props.Layers
import Mathlib.Data.String.Basic
import Mathlib.Tactic.Ring
import Mathlib.Tactic.FieldSimp
import Mathlib.Tactic.NormNum
namespace P3.Run
open P3.Atmosphere

/-- C241: the names of the columns are distinct, a row has one value per column, and these columns hold what their names
say. -/
theorem row_spec (o : Obs) (r : Res) (c0 c05 c1 c2 c4 c8 c16 : ℝ) (h : o.cn2 = [c0, c05, c1, c2, c4, c8, c16]) :
    ∃ row o', unpack o r = some (row, o') ∧ row.length = colnames.length ∧ colnames.Nodup ∧
      cell row "DATE" = some (.str o.date) ∧ cell row "ID" = some (.str o.ident) ∧
      cell row "AOMODE" = some (.str o.aoMode) ∧ cell row "AIRMASS" = some (.num o.airmass) ∧
      cell row "WVL [µm]" = some (.num (o.wvl * 1e6)) ∧ cell row "BANDWIDTH [µm]" = some (.num (o.bandwidth * 1e6)) ∧
      cell row "PUP ANG [DEG]" = some (.num o.pupilAngle) ∧ cell row "PUP MASK" = some (.str o.pupMask) ∧
      cell row "PUP RES [PX]" = some (.num o.resolution) ∧ cell row "CAM PS [MAS]" = some (.num o.psInMas) ∧
      cell row "CAM FOV [PX]" = some (.num o.fov) ∧ cell row "CAM FWHMX [MAS]" = some (.num r.fwhmXSky) ∧
      cell row "CAM FWHMY [MAS]" = some (.num r.fwhmYSky) ∧ cell row "CAM FIT BKG" = some (.num r.bkg) ∧
      cell row "CAM SATURATION" = some (.flag o.saturated) ∧ cell row "SEEING DIMM [AS]" = some (.num o.seeingDimm) ∧
      cell row "SEEING MASS" = some (.num o.seeingMass) ∧ cell row "CN2 0KM" = some (.num c0) ∧
      cell row "CN2 0.5KM" = some (.num c05) ∧ cell row "CN2 1KM" = some (.num c1) ∧
      cell row "CN2 2KM" = some (.num c2) ∧ cell row "CN2 4KM" = some (.num c4) ∧ cell row "CN2 8KM" = some (.num c8) ∧
      cell row "CN2 16KM" = some (.num c16) ∧ cell row "HO GAIN" = some (.num o.hoGain) ∧
      cell row "HO RATE [Hz]" = some (.num o.hoRate) ∧ cell row "HO NPH" = some (.num o.hoNph) ∧
      cell row "HO WFE [NM]" = some (.num o.hoWfe) ∧ cell row "TT GAIN" = some (.num o.ttGain) ∧
      cell row "TT RATE [Hz]" = some (.num o.ttRate) ∧ cell row "JITTERX [MAS]" = some (.num o.spotX) ∧
      cell row "JITTERY [MAS]" = some (.num o.spotY) ∧ cell row "JITTERXY [MAS]" = some (.num o.spotXY) ∧
      cell row "TEL R0 [CM]" = some (.num (o.r0Tel * 100)) ∧ cell row "TEL L0 [M]" = some (.num o.L0Tel) ∧
      cell row "TEL TAU0 [MS]" = some (.num (o.tau0Tel * 1000)) ∧ cell row "TEL V [M/S]" = some (.num o.v0Tel) ∧
      cell row "TEL THETA0 [AS]" = some (.num (o.theta0 (o.atmR0 * (500e-9 / o.atmWvl) ^ (1.2 : ℝ)))) ∧
      cell row "WFE NCPA [NM]" = some (.num (o.wfe "NCPA")) ∧ cell row "WFE FITTING [NM]" = some (.num (o.wfe "FITTING")) ∧
      cell row "WFE ALIASING [NM]" = some (.num (o.wfe "ALIASING")) ∧
      cell row "WFE HO NOISE [NM]" = some (.num (o.wfe "HO NOISE")) ∧
      cell row "WFE TT NOISE [NM]" = some (.num (o.wfe "TT NOISE")) ∧
      cell row "WFE SERVO-LAG [NM]" = some (.num (o.wfe "SERVO-LAG")) ∧
      cell row "WFE JITTER [NM]" = some (.num (o.wfe "TIP-TILT")) ∧
      cell row "WFE ANGULAR ANISO [NM]" = some (.num (o.wfe "ANGULAR ANISOPLANATISM")) ∧
      cell row "WFE TOTAL [NM]" = some (.num (o.wfe "TOTAL WFE")) ∧
      cell row "PSF PIXEL [NM]" = some (.num (o.wfe "PIXEL TF")) ∧
      cell row "PSFR SR PEAK" = some (.num (o.wfe "PSFR SR PEAK" / 100)) ∧
      cell row "PSFR SR OTF" = some (.num (o.wfe "PSFR SR OTF" / 100)) ∧
      cell row "PSFR FWHMX" = some (.num r.fwhmXFit) ∧ cell row "PSFR FWHMY" = some (.num r.fwhmYFit) ∧
      cell row "PSFR MSE" = some (.num r.mse) := by
  unfold unpack
  rw [h]
  have e2 : (1e2 : ℝ) = 100 := by norm_num
  have e3 : (1e3 : ℝ) = 1000 := by norm_num
  refine ⟨_, _, rfl, rfl, by decide +kernel, ?_⟩
  rw [← e2, ← e3]
  repeat' constructor

/-- C242: the latencies are in frames, and the noise columns hold variances. -/
theorem row_units_partial (o : Obs) (r : Res) (row : List Val) (o' : Obs) (h : unpack o r = some (row, o')) (hr : 0 < o.hoRate)
    (ht : 0 < o.ttRate) :
    cell row "HO LAT [ms]" = some (.num o.hoDelay) ∧ cell row "TT LAT [ms]" = some (.num o.ttDelay) ∧
    (cell row "HO LAT [ms]" = some (.num (1000 * (o.hoDelay / o.hoRate))) ↔ o.hoDelay = 0 ∨ o.hoRate = 1000) ∧
    (cell row "TT LAT [ms]" = some (.num (1000 * (o.ttDelay / o.ttRate))) ↔ o.ttDelay = 0 ∨ o.ttRate = 1000) ∧
    cell row "HO NOISE [RAD]" = some (.num o.hoNoiseVar) ∧ cell row "TT NOISE [RAD]" = some (.num o.ttNoiseVar) ∧
    (0 ≤ o.hoNoiseVar → (cell row "HO NOISE [RAD]" = some (.num (Real.sqrt o.hoNoiseVar)) ↔
      o.hoNoiseVar = 0 ∨ o.hoNoiseVar = 1)) := by
  unfold unpack at h
  split at h
  · rename_i heq
    obtain ⟨rfl, rfl⟩ := Prod.mk.inj (Option.some.inj h)
    have aux : ∀ d x : ℝ, 0 < x → (some (Val.num d) = some (Val.num (1000 * (d / x))) ↔ d = 0 ∨ x = 1000) := by
      intro d x hx
      rw [Option.some.injEq, Val.num.injEq]
      constructor
      · intro e
        have : d * (x - 1000) = 0 := by
          field_simp at e
          linarith
        rcases mul_eq_zero.1 this with h | h
        · exact Or.inl h
        · right; linarith
      · rintro (rfl | rfl)
        · simp
        · field_simp
    refine ⟨rfl, rfl, aux _ _ hr, aux _ _ ht, rfl, rfl, ?_⟩
    intro h0
    have : (some (Val.num o.hoNoiseVar) = some (Val.num (Real.sqrt o.hoNoiseVar)) ↔
      o.hoNoiseVar = 0 ∨ o.hoNoiseVar = 1) := by
      rw [Option.some.injEq, Val.num.injEq]
      constructor
      · intro e
        have h2 := Real.mul_self_sqrt h0
        rw [← e] at h2
        have : o.hoNoiseVar * (o.hoNoiseVar - 1) = 0 := by linarith
        rcases mul_eq_zero.1 this with h | h
        · exact Or.inl h
        · right; linarith
      · rintro (h | h) <;> simp [h]
    exact this
  · exact absurd h (by simp)

/-- C243: the columns of the tip-tilt loop that repeat the high-order loop. -/
theorem row_tiptilt_partial (o : Obs) (r : Res) (row : List Val) (o' : Obs) (h : unpack o r = some (row, o')) :
    cell row "TT WFE [NM]" = cell row "HO WFE [NM]" ∧ cell row "TT NPH" = some (.num o.hoNph) ∧
    (cell row "TT NPH" = some (.num o.ttNph) ↔ o.ttNph = o.hoNph) := by
  unfold unpack at h
  split at h
  · obtain ⟨rfl, rfl⟩ := Prod.mk.inj (Option.some.inj h)
    refine ⟨rfl, rfl, ?_⟩
    have : (some (Val.num o.hoNph) = some (Val.num o.ttNph) ↔ o.ttNph = o.hoNph) := by
      rw [Option.some.injEq, Val.num.injEq, eq_comm]
    exact this
  · exact absurd h (by simp)

/-- C244: the columns of focal and tip-tilt anisoplanatism are exchanged. -/
theorem row_swapped_partial (o : Obs) (r : Res) (row : List Val) (o' : Obs) (h : unpack o r = some (row, o')) :
    cell row "WFE FOCAL ANISO [NM]" = some (.num (o.wfe "ANISOKINETISM")) ∧
    cell row "WFE TT ANISO [NM]" = some (.num (o.wfe "FOCAL ANISOPLANATISM")) ∧
    (cell row "WFE FOCAL ANISO [NM]" = some (.num (o.wfe "FOCAL ANISOPLANATISM")) ↔
      o.wfe "FOCAL ANISOPLANATISM" = o.wfe "ANISOKINETISM") := by
  unfold unpack at h
  split at h
  · obtain ⟨rfl, rfl⟩ := Prod.mk.inj (Option.some.inj h)
    refine ⟨rfl, rfl, ?_⟩
    have : (some (Val.num (o.wfe "ANISOKINETISM")) = some (Val.num (o.wfe "FOCAL ANISOPLANATISM")) ↔
        o.wfe "FOCAL ANISOPLANATISM" = o.wfe "ANISOKINETISM") := by
      rw [Option.some.injEq, Val.num.injEq, eq_comm]
    exact this
  · exact absurd h (by simp)

/-- C245: the Strehl ratio of the image in the table: right without a fit, divided by 100 with one. -/
theorem row_strehl_partial (o : Obs) (r : Res) (row : List Val) (o' : Obs) (fit : Bool) (s : ℝ) (hs : r.srSky = srSky fit s)
    (h : unpack o r = some (row, o')) :
    (fit = false → cell row "CAM SR" = some (.num s)) ∧ (fit = true → cell row "CAM SR" = some (.num (s / 100))) := by
  unfold unpack at h
  split at h
  · obtain ⟨rfl, rfl⟩ := Prod.mk.inj (Option.some.inj h)
    have e : ∀ x, r.srSky / 1e2 = x → some (Val.num (r.srSky / 1e2)) = some (Val.num x) := by rintro x rfl; rfl
    constructor
    · rintro rfl
      refine e _ ?_
      rw [hs]; simp only [srSky]; norm_num
    · rintro rfl
      refine e _ ?_
      rw [hs]; simp only [srSky]; norm_num
  · exact absurd h (by simp)

/-- C246: reading the results moves the atmosphere to 500 nm; a second reading gives the same row; the system is
unchanged only if it was already at 500 nm. -/
theorem unpack_effect (o : Obs) (r : Res) (row : List Val) (o' : Obs) (h : unpack o r = some (row, o')) (hw : 0 < o.atmWvl)
    (_hr : 0 < o.atmR0) :
    o'.atmWvl = 500e-9 ∧ o'.atmR0 = o.atmR0 * (500e-9 / o.atmWvl) ^ (1.2 : ℝ) ∧ unpack o' r = some (row, o') ∧
    (o' = o ↔ o.atmWvl = 500e-9) := by
  have key : ∀ o : Obs, setWvl (setWvl o 500e-9) 500e-9 = setWvl o 500e-9 := by
    intro o
    have : (500e-9 : ℝ) / 500e-9 = 1 := div_self (by norm_num)
    unfold setWvl
    simp only [this, Real.one_rpow, mul_one]
  have hs : o' = setWvl o 500e-9 := by
    unfold unpack at h
    split at h
    · exact (Prod.mk.inj (Option.some.inj h)).2.symm
    · exact absurd h (by simp)
  refine ⟨by rw [hs]; rfl, by rw [hs]; rfl, ?_, ?_⟩
  · subst hs
    have hc : (setWvl o 500e-9).cn2 = o.cn2 := rfl
    unfold unpack at h ⊢
    rw [hc]
    split at h
    · obtain ⟨rfl, -⟩ := Prod.mk.inj (Option.some.inj h)
      simp only [key]
      rfl
    · exact absurd h (by simp)
  · rw [hs]
    constructor
    · intro e
      have := congrArg Obs.atmWvl e
      simpa [setWvl] using this.symm
    · intro e
      unfold setWvl
      rw [← e, div_self hw.ne', Real.one_rpow, mul_one]

/-- C247: files are matched by identifier: one run per identifier that both lists have, in increasing order, on the first
file of each list with this identifier. -/
theorem matched_spec (idS idF : String → String) (sav fits : List String) :
    ((matched idS idF sav fits).map fun p => idS p.1).Pairwise (· < ·) ∧
    (∀ p ∈ matched idS idF sav fits, p.1 ∈ sav ∧ p.2 ∈ fits ∧ idS p.1 = idF p.2 ∧
      (∀ j : ℕ, (∃ s, sav[j]? = some s ∧ idS s = idS p.1) → ∃ i ≤ j, sav[i]? = some p.1) ∧
      (∀ j : ℕ, (∃ s, fits[j]? = some s ∧ idF s = idF p.2) → ∃ i ≤ j, fits[i]? = some p.2)) ∧
    (∀ s ∈ sav, ∀ f ∈ fits, idS s = idF f → ∃ p ∈ matched idS idF sav fits, idS p.1 = idS s ∧ idF p.2 = idF f) := by
  have pick : ∀ (g : String → String) (l : List String) (i : String), i ∈ l.map g →
      l.getD ((l.map g).idxOf i) "" ∈ l ∧ g (l.getD ((l.map g).idxOf i) "") = i ∧
      ∀ j : ℕ, (∃ s, l[j]? = some s ∧ g s = i) → ∃ k ≤ j, l[k]? = some (l.getD ((l.map g).idxOf i) "") := by
    intro g l i hi
    have hlt := List.idxOf_lt_length_of_mem hi
    have hlt' : (l.map g).idxOf i < l.length := by simpa using hlt
    rw [List.getD_eq_getElem _ _ hlt']
    refine ⟨List.getElem_mem _, ?_, ?_⟩
    · have := List.getElem_idxOf hlt
      rwa [List.getElem_map] at this
    · rintro j ⟨s, hs, rfl⟩
      refine ⟨_, ?_, List.getElem?_eq_getElem hlt'⟩
      obtain ⟨hj, rfl⟩ := List.getElem?_eq_some_iff.1 hs
      have h1 : (l.map g)[j]? = some (g l[j]) := by simp [hj]
      by_contra hc
      push Not at hc
      have := List.not_of_lt_findIdx (xs := l.map g) (p := (· == g l[j])) hc
      simp at this
  set ids := ((fits.map idF).toFinset ∩ (sav.map idS).toFinset).sort (· ≤ ·) with hids
  have hmem : ∀ i ∈ ids, i ∈ fits.map idF ∧ i ∈ sav.map idS := by
    intro i hi
    rw [hids, Finset.mem_sort, Finset.mem_inter, List.mem_toFinset, List.mem_toFinset] at hi
    exact hi
  have hm : matched idS idF sav fits =
      ids.map fun i => (sav.getD ((sav.map idS).idxOf i) "", fits.getD ((fits.map idF).idxOf i) "") := rfl
  refine ⟨?_, ?_, ?_⟩
  · rw [hm, List.map_map]
    have : ids.map ((fun p : String × String => idS p.1) ∘
        fun i => (sav.getD ((sav.map idS).idxOf i) "", fits.getD ((fits.map idF).idxOf i) "")) = ids := by
      conv_rhs => rw [← List.map_id ids]
      refine List.map_congr_left fun i hi => ?_
      exact (pick idS sav i (hmem i hi).2).2.1
    rw [this]
    have := (Finset.sortedLT_sort ((fits.map idF).toFinset ∩ (sav.map idS).toFinset)).pairwise
    exact this
  · intro p hp
    rw [hm, List.mem_map] at hp
    obtain ⟨i, hi, rfl⟩ := hp
    obtain ⟨a1, a2, a3⟩ := pick idS sav i (hmem i hi).2
    obtain ⟨b1, b2, b3⟩ := pick idF fits i (hmem i hi).1
    refine ⟨a1, b1, by rw [a2, b2], ?_, ?_⟩
    · intro j hj; simp only [a2] at hj; exact a3 j hj
    · intro j hj; simp only [b2] at hj; exact b3 j hj
  · intro s hs f hf e
    have hi : idS s ∈ ids := by
      rw [hids, Finset.mem_sort, Finset.mem_inter, List.mem_toFinset, List.mem_toFinset]
      exact ⟨e ▸ List.mem_map_of_mem hf, List.mem_map_of_mem hs⟩
    refine ⟨_, by rw [hm]; exact List.mem_map_of_mem hi, ?_, ?_⟩
    · exact (pick idS sav _ (hmem _ hi).2).2.1
    · rw [← e]; exact (pick idF fits _ (hmem _ hi).1).2.1

theorem mergedName_excluded (pref : List Char) : hasSub "merged".toList (mergedName pref) = true := by
  unfold hasSub mergedName
  rw [decide_eq_true_eq]
  exact ⟨pref ++ "_psfr_".toList, ".csv".toList, by simp⟩

/-- C248: merging returns the rows of all tables that were not merged, each once, sorted by date; it never reads its own
output: merging again, after any number of saved merges, gives the same rows. -/
theorem merge_spec (f : Folder) (tocsv : Bool) (l' : List (String × ℕ)) (hs : Sorts (gathered f) l')
    (rows : List (String × ℕ)) (f' : Folder) (h : merge f tocsv l' = some (rows, f')) :
    rows.Perm ((f.filter fun t => hasSub ".csv".toList t.1 && !hasSub "merged".toList t.1).flatMap Prod.snd) ∧
    rows.Pairwise (fun a b => a.1 ≤ b.1) ∧ gathered f' = gathered f ∧
    ∀ l'' tocsv', Sorts (gathered f') l'' → ∃ f'', merge f' tocsv' l'' = some (l'', f'') ∧ l''.Perm rows := by
  unfold merge at h
  split at h
  · exact absurd h (by simp)
  rename_i t tl heq
  obtain ⟨rfl, rfl⟩ := Prod.mk.inj (Option.some.inj h)
  have hn := mergedName_excluded (t.1.takeWhile (· ≠ '_'))
  simp only
  generalize mergedName (t.1.takeWhile (· ≠ '_')) = nm at hn ⊢
  have hg : (if tocsv then (f.filter fun x => x.1 ≠ nm) ++ [(nm, l')] else f).filter
        (fun t => hasSub ".csv".toList t.1 && !hasSub "merged".toList t.1) =
      f.filter fun t => hasSub ".csv".toList t.1 && !hasSub "merged".toList t.1 := by
    split_ifs
    · rw [List.filter_append, List.filter_filter]
      have e1 : [(nm, l')].filter (fun t => hasSub ".csv".toList t.1 && !hasSub "merged".toList t.1) = [] := by
        rw [List.filter_eq_nil_iff]
        intro x hx
        rw [List.mem_singleton] at hx
        rw [hx]
        simp only [hn]
        simp
      rw [e1, List.append_nil]
      apply List.filter_congr
      intro x _
      by_cases hx : x.1 = nm
      · rw [hx, hn]; simp
      · rw [decide_eq_true hx, Bool.and_true]
    · rfl
  refine ⟨hs.1, hs.2, ?_, ?_⟩
  · unfold gathered
    rw [hg]
  · intro l'' tocsv' hs''
    have hp : l''.Perm l' := by
      refine hs''.1.trans (List.Perm.trans ?_ hs.1.symm)
      unfold gathered
      rw [hg]
    unfold merge
    rw [hg, heq]
    exact ⟨_, rfl, hp⟩

/-- C248: an empty folder, or one with merged tables only, is refused. -/
theorem merge_empty (f : Folder) (tocsv : Bool) (l' : List (String × ℕ))
    (h : ∀ t ∈ f, hasSub ".csv".toList t.1 = true → hasSub "merged".toList t.1 = true) : merge f tocsv l' = none := by
  have : f.filter (fun t => hasSub ".csv".toList t.1 && !hasSub "merged".toList t.1) = [] := by
    rw [List.filter_eq_nil_iff]
    intro t ht
    have := h t ht
    by_cases c : hasSub ".csv".toList t.1 = true
    · rw [this c]; simp
    · rw [Bool.eq_false_iff.2 c]; simp
  unfold merge
  rw [this]

/-- C249: the table on simulations: `R0` and `L0` are the estimates; `TRUE R0` and `TRUE L0` are those of the simulation
only when they were given to the reconstruction, else the estimates; the two coherence times differ by a factor `1e6` when
they are equal. -/
theorem kasp_spec (b : Bool) (r0 L0 v0 tau0 : ℝ) (a : TAtm) :
    (kaspCells (kasp b r0 L0 v0 a).2 tau0).lookup "R0" = some r0 ∧
    (kaspCells (kasp b r0 L0 v0 a).2 tau0).lookup "L0" = some L0 ∧
    (kaspCells (kasp b r0 L0 v0 a).2 tau0).lookup "V0" = some v0 ∧
    (b = true → (kaspCells (kasp b r0 L0 v0 a).2 tau0).lookup "TRUE R0" = some a.r0 ∧
      (kaspCells (kasp b r0 L0 v0 a).2 tau0).lookup "TRUE L0" = some a.L0) ∧
    (b = false → (kaspCells (kasp b r0 L0 v0 a).2 tau0).lookup "TRUE R0" = some r0 ∧
      (kaspCells (kasp b r0 L0 v0 a).2 tau0).lookup "TRUE L0" = some L0) ∧
    (kaspCells (kasp b r0 L0 v0 a).2 tau0).lookup "TAU0" = some (0.314 * r0 / v0) ∧
    (tau0 = 1000 * (0.314 * r0 / v0) →
      (kaspCells (kasp b r0 L0 v0 a).2 tau0).lookup "TRUE TAU0" = some (1000000 * (0.314 * r0 / v0))) := by
  refine ⟨by cases b <;> rfl, by cases b <;> rfl, by cases b <;> rfl, ?_, ?_, by cases b <;> rfl, ?_⟩
  · rintro rfl; exact ⟨rfl, rfl⟩
  · rintro rfl; exact ⟨rfl, rfl⟩
  · rintro rfl
    have : ∀ e : TAtm, ∀ t, (kaspCells e t).lookup "TRUE TAU0" = some (t * 1e3) := fun _ _ => rfl
    rw [this]
    congr 1
    norm_num
    ring

/-- C250: the Fried parameter of the system read from the parameter file: `0.976` times the estimate, and smaller away from
the zenith; with the value of the simulation, `0.976 / 0.978` times it. -/
theorem r0_read_partial (r0 L0 v0 am : ℝ) (a : TAtm) (hw : a.wvl ≠ 0) (hr : r0 ≠ 0) (ha : a.r0 ≠ 0) :
    r0Read (kasp false r0 L0 v0 a).1 am = 0.976 * r0 * am ^ (-3 / 5 : ℝ) ∧
    r0Read (kasp true r0 L0 v0 a).1 am = 0.976 / 0.978 * a.r0 * am ^ (-3 / 5 : ℝ) ∧
    (0 < r0 → 1 ≤ am → r0Read (diagnose r0 L0 v0 a) am < r0) := by
  have hpi := Real.pi_pos.ne'
  have e1 : r0Read (diagnose r0 L0 v0 a) am = 0.976 * r0 * am ^ (-3 / 5 : ℝ) := by
    simp only [r0Read, diagnose, rad2arc]
    congr 1
    field_simp
  refine ⟨e1, ?_, ?_⟩
  · simp only [r0Read, kasp, diagnose, if_true]
    congr 1
    field_simp
  · intro h0 h1
    rw [e1]
    have : am ^ (-3 / 5 : ℝ) ≤ 1 := Real.rpow_le_one_of_one_le_of_nonpos h1 (by norm_num)
    have h2 : 0.976 * r0 * am ^ (-3 / 5 : ℝ) ≤ 0.976 * r0 * 1 := mul_le_mul_of_nonneg_left this (by positivity)
    norm_num at h2 ⊢
    linarith

/-- C251: after the diagnosis the wind of the profile, weighted by the turbulence, is the estimated one; the coherence time
is `0.314 r0 / v`, and its uncertainty is at most the sum of the two relative uncertainties. -/
theorem diagnose_wind (r0 L0 v0 : ℝ) (a : TAtm) (hl : a.wSpeed.length = a.weights.length) (hv : 0 < v0)
    (hw : ∀ w ∈ a.weights, 0 < w) (hs : ∀ v ∈ a.wSpeed, 0 < v) (h1 : a.weights.sum = 1) :
    wsum53 (diagnose r0 L0 v0 a).weights (diagnose r0 L0 v0 a).wSpeed ^ (3 / 5 : ℝ) = v0 := by
  have h53 : (v0 ^ ((5 : ℝ) / 3)) ^ (3 / 5 : ℝ) = v0 := by
    rw [← Real.rpow_mul hv.le]; norm_num
  have hne : a.weights ≠ [] := by rintro e; rw [e] at h1; simp at h1
  by_cases hn : 1 < a.weights.length
  · set vm := P3.Layers.slabAlt a.weights a.wSpeed (5 / 3) 0 a.wSpeed.length with hvm
    have hS : ∀ (w v : List ℝ), w.length = v.length → w ≠ [] → (∀ x ∈ w, 0 < x) → (∀ x ∈ v, 0 < x) →
        0 < (List.zipWith (fun h c => h ^ (5 / 3 : ℝ) * c) v w).sum := by
      intro w v hwv hne h1 h2
      apply List.sum_pos
      · intro x hx
        obtain ⟨i, hi, rfl⟩ := List.getElem_of_mem hx
        rw [List.getElem_zipWith]
        exact mul_pos (Real.rpow_pos_of_pos (h2 _ (List.getElem_mem _)) _) (h1 _ (List.getElem_mem _))
      · intro e
        have := congrArg List.length e
        simp [← hwv] at this
        exact hne this
    have hvm' : vm ^ ((5 : ℝ) / 3) = (List.zipWith (fun h c => h ^ (5 / 3 : ℝ) * c) a.wSpeed a.weights).sum := by
      rw [hvm]
      unfold P3.Layers.slabAlt P3.Layers.slabCn2 P3.Layers.slice
      rw [List.take_length, hl, List.take_length, List.drop_zero, List.drop_zero, h1, div_one, ← Real.rpow_mul]
      · norm_num
      · exact (hS _ _ hl.symm hne hw hs).le
    have hvm0 : 0 < vm := by
      have := hS _ _ hl.symm hne hw hs
      rw [← hvm'] at this
      rw [hvm]
      unfold P3.Layers.slabAlt
      apply Real.rpow_pos_of_pos
      unfold P3.Layers.slabCn2 P3.Layers.slice
      rw [List.take_length, hl, List.take_length, List.drop_zero, List.drop_zero, h1, div_one]
      exact hS _ _ hl.symm hne hw hs
    have e : (diagnose r0 L0 v0 a).wSpeed = a.wSpeed.map fun v => v0 * v / vm := by
      simp only [diagnose, if_pos hn, hvm]
    have e' : (diagnose r0 L0 v0 a).weights = a.weights := rfl
    rw [e, e']
    have hscale : ∀ (w v : List ℝ), (∀ x ∈ v, 0 < x) →
        wsum53 w (v.map fun x => v0 * x / vm) =
          v0 ^ ((5 : ℝ) / 3) / vm ^ ((5 : ℝ) / 3) * (List.zipWith (fun h c => h ^ (5 / 3 : ℝ) * c) v w).sum := by
      intro w
      unfold wsum53
      induction w with
      | nil => intro v _; simp
      | cons x w ih =>
        intro v hv'
        cases v with
        | nil => simp
        | cons y v =>
          simp only [List.map_cons, List.zipWith_cons_cons, List.sum_cons]
          rw [ih v fun z hz => hv' z (List.mem_cons_of_mem _ hz)]
          have hy := hv' y List.mem_cons_self
          rw [Real.div_rpow (by positivity) hvm0.le, Real.mul_rpow hv.le hy.le]
          ring
    rw [hscale _ _ hs, ← hvm', div_mul_cancel₀ _ (Real.rpow_pos_of_pos hvm0 _).ne', h53]
  · have e : (diagnose r0 L0 v0 a).wSpeed = [v0] := by simp only [diagnose, if_neg hn]
    have e' : (diagnose r0 L0 v0 a).weights = a.weights := rfl
    rw [e, e']
    have hlen : a.weights.length = 1 := by
      have := List.length_pos_iff.2 hne
      omega
    obtain ⟨w, hw1⟩ := List.length_eq_one_iff.1 hlen
    rw [hw1] at h1 ⊢
    simp only [List.sum_singleton] at h1
    simp only [wsum53, List.zipWith_cons_cons, List.zipWith_nil_left, List.sum_singleton, h1, one_mul]
    exact h53

/-- C251: the uncertainty of the coherence time combines the two relative uncertainties. -/
theorem dtau0_spec (r0 v0 dr0 dv0 : ℝ) (hr : 0 < r0) (hv : 0 < v0) :
    dtau0 r0 v0 dr0 dv0 = 0.314 * r0 / v0 * Real.sqrt ((dr0 / r0) ^ 2 + (dv0 / v0) ^ 2) := by
  unfold dtau0
  have : (dr0 / v0) ^ 2 + (r0 * dv0 / v0 ^ 2) ^ 2 = (r0 / v0) ^ 2 * ((dr0 / r0) ^ 2 + (dv0 / v0) ^ 2) := by
    field_simp
  rw [this, Real.sqrt_mul (sq_nonneg _), Real.sqrt_sq (by positivity)]
  ring

/-- C252: a scatter plot without a number of bins is not drawn (`TypeError`); a negative number is refused, others are
accepted. -/
theorem bins_spec_partial (valY : Bool) (nBins : Option ℤ) :
    (binsRefused valY nBins = none ↔ valY = true ∧ nBins = none) ∧
    (binsRefused valY nBins = some true ↔ (valY = false ∧ nBins = none) ∨ ∃ n, nBins = some n ∧ n < 0) := by
  cases valY <;> cases nBins <;> simp [binsRefused]

/-- Non-vacuous: a folder with a table, a merged table and another file. -/
example : ∃ f : Folder, ∃ l f', Sorts (gathered f) l ∧ merge f true l = some (l, f') ∧ l.length = 2 ∧ f.length = 3 := by
  refine ⟨[("keck_a.csv".toList, [("2", 0), ("1", 1)]), ("keck_merged.csv".toList, [("3", 0)]), ("x.txt".toList, [])],
    [("1", 1), ("2", 0)], _, ⟨?_, ?_⟩, rfl, rfl, rfl⟩
  · have : gathered [("keck_a.csv".toList, [("2", 0), ("1", 1)]), ("keck_merged.csv".toList, [("3", 0)]), ("x.txt".toList, [])]
      = [("2", 0), ("1", 1)] := by decide +kernel
    rw [this]
    exact List.Perm.swap _ _ _
  · simp only [List.pairwise_cons, List.mem_singleton, List.not_mem_nil, false_implies, implies_true, List.Pairwise.nil,
      and_true, forall_eq]
    decide +kernel

/-- Non-vacuous: a row is produced. -/
example : ∃ (o : Obs) (r : Res) (row : List Val) (o' : Obs), unpack o r = some (row, o') ∧ 0 < o.hoRate ∧ 0 < o.ttRate ∧
    0 < o.atmWvl ∧ 0 < o.atmR0 ∧ 0 ≤ o.hoNoiseVar :=
  ⟨⟨"20130801", "N0004", "NGS", "LARGEHEX", 1, 1.6e-6, 0.3e-6, 0, 200, 10, 256, false, 0.6, 0.3, [1, 1, 1, 1, 1, 1, 1],
    0.3, 1.5, 500, 100, 200, 0.3, 2, 250, 50, 5, 6, 1, 0.15, 30, 0.004, 10, 0.6, 1.6e-6, id, 0.1, 0.1, fun _ => 50⟩,
    ⟨40, 40, 41, 42, 43, 0, 1⟩, _, _, rfl, by norm_num, by norm_num, by norm_num, by norm_num, by norm_num⟩

/-- Non-vacuous: two layers. -/
example : ∃ a : TAtm, a.wSpeed.length = a.weights.length ∧ (∀ w ∈ a.weights, 0 < w) ∧ (∀ v ∈ a.wSpeed, 0 < v) ∧
    a.weights.sum = 1 ∧ 1 < a.weights.length :=
  ⟨⟨500e-9, 0.1, 25, 1, 0, 0, 0, 0, [1 / 2, 1 / 2], [5, 20]⟩, rfl, by simp, by simp, by norm_num, by simp⟩

/-! ### Cases that meet the hypotheses -/

/-- A case meeting the hypotheses of `diagnose_wind`. -/
example : wsum53 (diagnose 0.15 25 10 ⟨500e-9, 0.2, 30, 0.5, 0, 0, 0, 0, [0.7, 0.3], [5, 20]⟩).weights
    (diagnose 0.15 25 10 ⟨500e-9, 0.2, 30, 0.5, 0, 0, 0, 0, [0.7, 0.3], [5, 20]⟩).wSpeed ^ (3 / 5 : ℝ) = 10 :=
  diagnose_wind 0.15 25 10 _ rfl (by norm_num) (by norm_num) (by norm_num) (by norm_num)

end P3.Run
