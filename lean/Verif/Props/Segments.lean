import Verif.Model.Segments
import Verif.Props.Pupil

/-! C441-C444: segments made from the reference segment. -/

namespace P3.Segments

open P3.Pupil

/-- The constructor accepts the pupil of one segment. -/
theorem construct_one (plain : Arr) (ref : Seg) : ∃ p, construct plain ref 1 0 0 (fun _ _ => 1) [(0, 0)] = .ok p := by
  have hN : pupilSize 1 0 0 ref.n = ref.n := by simp [pupilSize]
  unfold construct makePupil
  simp only [makeSegList, List.map_cons, List.map_nil, List.foldlM_cons, List.foldlM_nil, hN]
  unfold addAt
  have hw : ∀ s : Seg, s.n = ref.n → s.posX = 0 → s.posY = 0 → s.posXError = 0 → s.posYError = 0 → ∀ (l : List Seg) (m : Arr),
      window ⟨ref.n, 1, (ref.n : ℝ) / 2, (ref.n : ℝ) / 2, l, m, fun _ _ => 1⟩ s = some (0, 0) := by
    intro s h1 h2 h3 h4 h5 l m
    have e : (ref.n : ℝ) / 2 + -(ref.n : ℝ) / 2 = 0 := by ring
    simp [window, sliceOffset, rowStart, colStart, h1, h2, h3, h4, h5, e]
  rw [hw ⟨ref.n, ref.mat, plain, 1, 0, 0, 0, 0, 0⟩ rfl rfl rfl rfl rfl]
  exact ⟨_, rfl⟩

theorem makePupil_frame (p q : Pup) (h : makePupil p = .ok q) : ∃ m, q = { p with mat := m } := by
  have main : ∀ (l : List Seg) (a b : Pup), l.foldlM (fun q s => addAt q s s.mat) a = Except.ok b →
      ∃ m, b = { a with mat := m } := by
    intro l
    induction l with
    | nil =>
      intro a b hb
      have : a = b := by simpa [pure, Except.pure] using hb
      exact ⟨a.mat, this ▸ rfl⟩
    | cons s t ih =>
      intro a b hb
      rw [List.foldlM_cons] at hb
      unfold addAt at hb
      cases hw : window a s with
      | none => rw [hw] at hb; simp [bind, Except.bind] at hb
      | some w =>
        rw [hw] at hb
        simp only [bind, Except.bind] at hb
        obtain ⟨m, hm⟩ := ih _ _ hb
        exact ⟨m, hm⟩
  obtain ⟨m, hm⟩ := main _ _ _ h
  exact ⟨m, hm⟩

/-- C441 (partial): the pupil has one segment per coordinate, in the same order, with the size and the map of the
reference, at these coordinates and without displacement. -/
theorem copies_partial (plain : Arr) (ref : Seg) (coords : List (ℝ × ℝ)) :
    (makeSegList plain ref coords).length = coords.length ∧
    ∀ (k : ℕ) (s : Seg), (makeSegList plain ref coords)[k]? = some s →
      s.n = ref.n ∧ s.mat = ref.mat ∧ coords[k]? = some (s.posX, s.posY) ∧ s.posXError = 0 ∧ s.posYError = 0 := by
  refine ⟨by simp [makeSegList], fun k s h => ?_⟩
  simp only [makeSegList, List.getElem?_map, Option.map_eq_some_iff] at h
  obtain ⟨c, hc, rfl⟩ := h
  exact ⟨rfl, rfl, hc, rfl, rfl⟩

/-- C441 (partial): the pupil that is built has these segments around its centre, on a map of the size that holds their
coordinates, and its map is the sum of the segments times the masks. -/
theorem construct_partial (plain : Arr) (ref : Seg) (ratio lo hi : ℝ) (mask : ℕ → ℕ → ℝ) (coords : List (ℝ × ℝ)) (p : Pup)
    (h : construct plain ref ratio lo hi mask coords = .ok p) :
    p.segs = makeSegList plain ref coords ∧ (p.N : ℤ) = max (⌈(hi - lo) * ratio⌉ + ref.n) 0 ∧ p.ratio = ratio ∧
    2 * p.cX = p.N ∧ 2 * p.cY = p.N ∧ p.mask = mask ∧
    ∀ i j, p.mat i j = (p.segs.map fun s => contrib p s i j).sum * (mask i j : ℂ) := by
  unfold construct at h
  simp only at h
  split at h
  · cases h
  · next q hq =>
    cases h
    obtain ⟨h1, h2, h3⟩ := makePupil_spec _ _ hq
    obtain ⟨m, hm⟩ := makePupil_frame _ _ hq
    subst hm
    refine ⟨rfl, ?_, rfl, ?_, ?_, rfl, fun i j => ?_⟩
    · simp only [applyMasks, pupilSize, Int.toNat_eq_max]
    · simp only [applyMasks]; ring
    · simp only [applyMasks]; ring
    · have e := h1 i j
      simp only at e
      simp only [applyMasks]
      rw [e]
      rfl

/-- C441 (violation): the other attributes are not those of the reference, unless the reference has the defaults:
polygon of angle zero, reflectivity one and no phase. -/
theorem copies_violation (plain : Arr) (ref : Seg) (coords : List (ℝ × ℝ)) (s : Seg) (hs : s ∈ makeSegList plain ref coords) :
    (s.shape = ref.shape ∧ s.refl = ref.refl ∧ s.phaseError = ref.phaseError) ↔
      (ref.shape = plain ∧ ref.refl = 1 ∧ ref.phaseError = 0) := by
  simp only [makeSegList, List.mem_map] at hs
  obtain ⟨c, -, rfl⟩ := hs
  simp only
  constructor <;> rintro ⟨h1, h2, h3⟩ <;> exact ⟨h1.symm, h2.symm, h3.symm⟩

example : ∃ (plain : Arr) (ref : Seg) (coords : List (ℝ × ℝ)) (s : Seg), s ∈ makeSegList plain ref coords ∧ ref.refl = 0.9 := by
  refine ⟨fun _ _ => 1, ⟨2, fun _ _ => 0.9, fun _ _ => 1, 0.9, 0, 0, 0, 0, 0⟩, [(1, 2)], _, List.mem_singleton.mpr rfl, rfl⟩

/-- A segment without a pixel of modulus one is not removed. -/
theorem remove_dim (p : Pup) (s : Seg) (hdim : ∀ a b, ‖s.mat a b‖ ≠ 1) : remove1 p s = .ok p := by
  unfold remove1
  rw [if_neg]
  rintro ⟨a, -, b, -, h⟩
  exact hdim a b h

/-- C442 (violation): segments made from a reference of reflectivity other than one: a phase of zero adds the polygon
to the segment, which is still there. -/
theorem dim_phase_violation (plain : Arr) (ref : Seg) (coords : List (ℝ × ℝ)) (p : Pup)
    (hp : p.segs = makeSegList plain ref coords) (hdim : ∀ a b, ‖ref.mat a b‖ ≠ 1) (k : ℕ) (s : Seg)
    (hk : p.segs[k]? = some s) (w : ℕ × ℕ) (hw : window p s = some w) :
    (phase1 p k fun _ _ => 0).2 = none ∧
    ∀ i j, (phase1 p k fun _ _ => 0).1.mat i j = (p.mat i j + placed ref.n w plain i j) * (p.mask i j : ℂ) := by
  have hk' := hk
  rw [hp] at hk'
  obtain ⟨h1, h2, -⟩ := (copies_partial plain ref coords).2 k s hk'
  have hsh : s.shape = plain ∧ s.refl = 1 := by
    simp only [makeSegList, List.getElem?_map, Option.map_eq_some_iff] at hk'
    obtain ⟨c, -, rfl⟩ := hk'
    exact ⟨rfl, rfl⟩
  have hrem : remove1 p s = .ok p := remove_dim p s (by rw [h2]; exact hdim)
  have hw' : ∀ (m : Arr) (segs : List Seg), window { p with segs := segs } { s with mat := m } = some w := fun m segs => hw
  unfold phase1
  simp only [hk, hrem]
  unfold addAt
  rw [hw']
  refine ⟨rfl, fun i j => ?_⟩
  simp only [applyMasks]
  congr 2
  rw [h1, hsh.1, hsh.2]
  congr 1
  funext a b
  simp

/-- C442 (violation): moving such a segment by nothing doubles its pixels. -/
theorem dim_shift_violation (p : Pup) (k : ℕ) (s : Seg) (hk : p.segs[k]? = some s) (hdim : ∀ a b, ‖s.mat a b‖ ≠ 1)
    (hf : Fits p s) (hr : 0 < p.ratio) :
    (shift1 p k 0 0).2 = none ∧
    ∀ i j, (shift1 p k 0 0).1.mat i j = (p.mat i j + contrib p s i j) * (p.mask i j : ℂ) := by
  have hrem : remove1 p s = .ok p := remove_dim p s hdim
  have hw := window_fits p s hf
  have hc : ∀ i j, contrib p s i j = placed s.n ((rowStart p s).toNat, (colStart p s).toNat) s.mat i j := by
    intro i j; simp only [contrib, hw]
  obtain ⟨f1, f2, f3, f4⟩ := hf
  have hn : (0:ℤ) ≤ s.n := by positivity
  have g1 : (rowStart p s : ℝ) ≤ p.N := by
    have : rowStart p s ≤ p.N := by rw [(window_size p s).1] at f2; omega
    exact_mod_cast this
  have g2 : (colStart p s : ℝ) ≤ p.N := by
    have : colStart p s ≤ p.N := by rw [(window_size p s).2] at f4; omega
    exact_mod_cast this
  have g3 : (rowEnd p s : ℝ) ≤ p.N := by exact_mod_cast f2
  have g4 : (colEnd p s : ℝ) ≤ p.N := by exact_mod_cast f4
  have hlim : ¬ (((p.N : ℝ) - rowEnd p s) / p.ratio < 0 ∨ 0 < (-(p.N : ℝ) + rowStart p s) / p.ratio ∨
         ((p.N : ℝ) - colEnd p s) / p.ratio < 0 ∨ 0 < (-(p.N : ℝ) + colStart p s) / p.ratio) := by
    rw [div_lt_iff₀ hr, lt_div_iff₀ hr, div_lt_iff₀ hr, lt_div_iff₀ hr]
    push Not
    refine ⟨?_, ?_, ?_, ?_⟩ <;> linarith
  have hw' : ∀ segs : List Seg, window { p with segs := segs } { s with posXError := s.posXError + 0, posYError := s.posYError + 0 } =
      some ((rowStart p s).toNat, (colStart p s).toNat) := by
    intro segs
    simp only [add_zero]
    exact hw
  unfold shift1
  simp only [hk, hrem]
  rw [if_neg hlim]
  unfold addAt
  rw [hw']
  refine ⟨rfl, fun i j => ?_⟩
  simp only [applyMasks]
  rw [hc]

/-- C442 (partial): for a reference of zeros and ones, applying a phase of zero to a segment of a pupil whose segments
do not overlap, without masks, leaves the pupil as it is exactly when the reference is the polygon of angle zero, not
shrunk. -/
theorem zero_phase_partial (plain : Arr) (ref : Seg) (coords : List (ℝ × ℝ)) (p : Pup)
    (hp : p.segs = makeSegList plain ref coords) (hu : ∀ a b, ref.mat a b = 0 ∨ ref.mat a b = 1) (k : ℕ) (s : Seg)
    (hk : p.segs[k]? = some s) (hf : Fits p s) (ha : Assembled p) (hd : NoOverlap p) (hmask : ∀ i j, p.mask i j = 1) :
    (phase1 p k fun _ _ => 0).2 = none ∧
    ((∀ i j, (phase1 p k fun _ _ => 0).1.mat i j = p.mat i j) ↔ ∀ a < ref.n, ∀ b < ref.n, plain a b = ref.mat a b) := by
  have hk' := hk
  rw [hp] at hk'
  obtain ⟨h1, h2, -⟩ := (copies_partial plain ref coords).2 k s hk'
  have hsh : s.shape = plain ∧ s.refl = 1 := by
    simp only [makeSegList, List.getElem?_map, Option.map_eq_some_iff] at hk'
    obtain ⟨c, -, rfl⟩ := hk'
    exact ⟨rfl, rfl⟩
  have hus : UnitSeg s := by
    intro a b
    rw [h2]
    rcases hu a b with h | h
    · exact Or.inl h
    · right; rw [h]; simp
  obtain ⟨g1, -, g3⟩ := phase_spec p k s hk hf ha hd hus (fun _ _ => 0) _ rfl
  refine ⟨g1, ?_⟩
  set w : ℕ × ℕ := ((rowStart p s).toNat, (colStart p s).toNat) with hwd
  have hw : window p s = some w := window_fits p s hf
  have hc1 : ∀ i j, contrib p s i j = placed ref.n w ref.mat i j := by
    intro i j; simp only [contrib, hw, h1, h2]
  have hc2 : ∀ i j, contrib p { s with mat := fun a b => s.shape a b * s.refl * Complex.exp (Complex.I * ((0:ℝ):ℂ)) } i j =
      placed ref.n w plain i j := by
    intro i j
    have : window p { s with mat := fun a b => s.shape a b * s.refl * Complex.exp (Complex.I * ((0:ℝ):ℂ)) } = some w := hw
    unfold contrib
    rw [this]
    simp only [placed, h1, hsh.1, hsh.2]
    simp
  have key : ∀ i j, (phase1 p k fun _ _ => 0).1.mat i j = p.mat i j ↔ placed ref.n w plain i j = placed ref.n w ref.mat i j := by
    intro i j
    rw [g3, hc2, ha i j, sum_eraseIdx p.segs _ k s hk, hc1, hmask]
    constructor
    · intro h
      have : ((1:ℝ):ℂ) = 1 := by norm_num
      rw [this, mul_one, add_comm] at h
      exact add_right_cancel h
    · intro h
      rw [h]; push_cast; ring
  constructor
  · intro h a ha' b hb'
    have := (key (w.1 + a) (w.2 + b)).mp (h _ _)
    unfold placed at this
    rw [if_pos (by omega), if_pos (by omega)] at this
    simpa using this
  · intro h i j
    rw [key]
    unfold placed
    split_ifs with hin
    · exact h _ (by omega) _ (by omega)
    · rfl

/-- C443 (violation): a gap that was filled opens again when a phase of zero is applied to the segment that fills it. -/
theorem filled_violation (plain : Arr) (ref : Seg) (mid infX minY maxY : ℕ) (gap : Arr) (coords : List (ℝ × ℝ)) (p : Pup)
    (hp : p.segs = filledList plain ref mid infX minY maxY gap coords)
    (hu : ∀ a b, fillGapSeg mid infX minY maxY ref.mat gap a b = 0 ∨ fillGapSeg mid infX minY maxY ref.mat gap a b = 1)
    (hplain : ref.mat = plain) (k : ℕ) (s : Seg)
    (hk : p.segs[k]? = some s) (hf : Fits p s) (ha : Assembled p) (hd : NoOverlap p)
    (a b : ℕ) (ha' : a < ref.n) (hb' : b < ref.n) (hdark : ref.mat a b = 0)
    (hfill : fillGapSeg mid infX minY maxY ref.mat gap a b = 1) :
    ∃ i j, p.mat i j = 1 ∧ (phase1 p k fun _ _ => 0).1.mat i j = 0 := by
  have hk' := hk
  rw [hp] at hk'
  obtain ⟨h1, h2, -⟩ := (copies_partial plain { ref with mat := fillGapSeg mid infX minY maxY ref.mat gap } coords).2 k s hk'
  simp only at h1 h2
  have hsh : s.shape = plain ∧ s.refl = 1 := by
    simp only [filledList, makeSegList, List.getElem?_map, Option.map_eq_some_iff] at hk'
    obtain ⟨c, -, rfl⟩ := hk'
    exact ⟨rfl, rfl⟩
  have hus : UnitSeg s := by
    intro x y
    rw [h2]
    rcases hu x y with h | h
    · exact Or.inl h
    · right; rw [h]; simp
  obtain ⟨g1, -, g3⟩ := phase_spec p k s hk hf ha hd hus (fun _ _ => 0) _ rfl
  set w : ℕ × ℕ := ((rowStart p s).toNat, (colStart p s).toNat) with hwd
  have hw : window p s = some w := window_fits p s hf
  have hin : w.1 ≤ w.1 + a ∧ w.1 + a < w.1 + s.n ∧ w.2 ≤ w.2 + b ∧ w.2 + b < w.2 + s.n := by omega
  have hc1 : contrib p s (w.1 + a) (w.2 + b) = 1 := by
    simp only [contrib, hw, placed, if_pos hin, h2]
    simpa using hfill
  have hne : contrib p s (w.1 + a) (w.2 + b) ≠ 0 := by rw [hc1]; exact one_ne_zero
  have hrest := overlap_zero p hd k s hk _ _ hne
  refine ⟨w.1 + a, w.2 + b, ?_, ?_⟩
  · rw [ha, sum_eraseIdx p.segs _ k s hk, hrest, hc1, add_zero]
  · rw [g3, hrest]
    have : window p { s with mat := fun a b => s.shape a b * s.refl * Complex.exp (Complex.I * ((0:ℝ):ℂ)) } = some w := hw
    unfold contrib
    rw [this]
    simp only [placed, if_pos hin, hsh.1, hsh.2, ← hplain]
    simp [hdark]

/-- A pupil of one segment of two pixels by two, which fills it. -/
noncomputable def one (plain : Arr) (ref : Seg) : Pup :=
  ⟨2, 1, 1, 1, makeSegList plain ref [(0, 0)], placed 2 (0, 0) ref.mat, fun _ _ => 1⟩

theorem one_ok (plain : Arr) (ref : Seg) (h : ref.n = 2) :
    ∃ s, (one plain ref).segs[0]? = some s ∧ Fits (one plain ref) s ∧ Assembled (one plain ref) ∧ NoOverlap (one plain ref) := by
  set s : Seg := { n := ref.n, mat := ref.mat, shape := plain, refl := 1, phaseError := 0,
                        posX := 0, posY := 0, posXError := 0, posYError := 0 } with hs
  have hsegs : (one plain ref).segs = [s] := rfl
  have r1 : rowStart (one plain ref) s = 0 := by simp [rowStart, one, hs, h]
  have r2 : colStart (one plain ref) s = 0 := by simp [colStart, one, hs, h]
  have r3 : rowEnd (one plain ref) s = 2 := by rw [(window_size _ _).1, r1, hs]; simp [h]
  have r4 : colEnd (one plain ref) s = 2 := by rw [(window_size _ _).2, r2, hs]; simp [h]
  have hf : Fits (one plain ref) s := ⟨by rw [r1], by rw [r3]; simp [one], by rw [r2], by rw [r4]; simp [one]⟩
  refine ⟨s, by rw [hsegs]; rfl, hf, fun i j => ?_, ?_⟩
  · rw [hsegs]
    simp only [List.map_cons, List.map_nil, List.sum_cons, List.sum_nil, add_zero, contrib, window_fits _ s hf, r1, r2]
    rw [show s.n = 2 from h]
    rfl
  · unfold NoOverlap; rw [hsegs]; exact List.pairwise_singleton _ _

/-- The cases of C442 exist: a reference of reflectivity 0.9, and one of reflectivity one that is not the polygon. -/
example : (∃ (plain : Arr) (ref : Seg) (p : Pup) (s : Seg), p.segs = makeSegList plain ref [(0, 0)] ∧
      (∀ a b, ‖ref.mat a b‖ ≠ 1) ∧ p.segs[0]? = some s ∧ Fits p s ∧ 0 < p.ratio) ∧
    ∃ (plain : Arr) (ref : Seg) (p : Pup) (s : Seg), p.segs = makeSegList plain ref [(0, 0)] ∧
      (∀ a b, ref.mat a b = 0 ∨ ref.mat a b = 1) ∧ p.segs[0]? = some s ∧ Fits p s ∧ Assembled p ∧ NoOverlap p ∧
      (∀ i j, p.mask i j = 1) ∧ ref.n = 2 ∧ plain 0 0 ≠ ref.mat 0 0 := by
  constructor
  · obtain ⟨s, h1, h2, -, -⟩ := one_ok (fun _ _ => 1) ⟨2, fun _ _ => (0.9:ℝ), fun _ _ => 1, 0.9, 0, 0, 0, 0, 0⟩ rfl
    refine ⟨_, _, _, s, rfl, fun a b => ?_, h1, h2, by norm_num [one]⟩
    simp only [Complex.norm_real]
    norm_num
  · obtain ⟨s, h1, h2, h3, h4⟩ := one_ok (fun _ _ => 1) ⟨2, fun a _ => if a = 0 then 0 else 1, fun _ _ => 1, 1, 0, 0, 0, 0, 0⟩ rfl
    refine ⟨_, _, _, s, rfl, fun a b => ?_, h1, h2, h3, h4, fun _ _ => rfl, rfl, by simp⟩
    simp only
    split_ifs <;> simp

/-- The case of C443 exists: a segment with one lit pixel, filled along its first row. -/
example : ∃ (plain gap : Arr) (ref : Seg) (p : Pup) (s : Seg), p.segs = filledList plain ref 1 0 0 0 gap [(0, 0)] ∧
    (∀ a b, fillGapSeg 1 0 0 0 ref.mat gap a b = 0 ∨ fillGapSeg 1 0 0 0 ref.mat gap a b = 1) ∧ ref.mat = plain ∧
    p.segs[0]? = some s ∧ Fits p s ∧ Assembled p ∧ NoOverlap p ∧ (∀ i j, p.mask i j = 1) ∧ ref.n = 2 ∧
    ref.mat 0 1 = 0 ∧ fillGapSeg 1 0 0 0 ref.mat gap 0 1 = 1 := by
  set seg : Arr := fun a b => if a = 0 ∧ b = 0 then 1 else 0 with hseg
  set ref : Seg := ⟨2, seg, seg, 1, 0, 0, 0, 0, 0⟩ with href
  obtain ⟨s, h1, h2, h3, h4⟩ := one_ok seg { ref with mat := fillGapSeg 1 0 0 0 seg (gapMatrix seg) } rfl
  refine ⟨seg, gapMatrix seg, ref, _, s, rfl, fun a b => ?_, rfl, h1, h2, h3, h4, fun _ _ => rfl, rfl, by simp [href, hseg], ?_⟩
  · simp only [href, fillGapSeg, gapMatrix, hseg]
    split_ifs <;> simp_all
  · simp [href, fillGapSeg, gapMatrix, hseg]

/-- C444 (partial): the modes of segments are defined exactly over the lit pixels of the reference when these have
modulus one. -/
theorem modes_partial (nJ : ℕ) (hJ : nJ ≠ 0) (ref : Seg) (hu : UnitSeg ref) (nPetal : ℕ) (petal : ℕ → ℕ → ℕ → ℝ)
    (pupil mask : ℕ → ℕ → ℝ) :
    ∃ pix, computeModes nJ .segment ref nPetal petal pupil mask = .over pix ∧ ∀ i j, pix i j ↔ ref.mat i j ≠ 0 := by
  refine ⟨fun i j => ‖ref.mat i j‖ = 1, by simp [computeModes, hJ], fun i j => ⟨fun h h0 => ?_, fun h => ?_⟩⟩
  · simp only [h0] at h; simp at h
  · exact (hu i j).resolve_left h

/-- C444 (partial): the modes of a petal are defined exactly over its lit pixels, when petals, pupil and masks are maps
of zeros and ones. -/
theorem petal_modes_partial (nJ : ℕ) (hJ : nJ ≠ 0) (ref : Seg) (nPetal : ℕ) (petal : ℕ → ℕ → ℕ → ℝ) (pupil mask : ℕ → ℕ → ℝ)
    (h1 : ∀ k i j, petal k i j = 0 ∨ petal k i j = 1) (h2 : ∀ i j, pupil i j = 0 ∨ pupil i j = 1)
    (h3 : ∀ i j, mask i j = 0 ∨ mask i j = 1) :
    ∃ pix, computeModes nJ .petal ref nPetal petal pupil mask = .petals nPetal pix ∧
      ∀ k i j, pix k i j ↔ petal k i j = 1 ∧ pupil i j = 1 ∧ mask i j = 1 := by
  refine ⟨fun k i j => |petal k i j| * pupil i j * mask i j = 1, by simp [computeModes, hJ], fun k i j => ?_⟩
  rcases h1 k i j with a | a <;> rcases h2 i j with b | b <;> rcases h3 i j with c | c <;> simp [a, b, c]

/-- C444 (violation): with a reference of reflectivity other than one the modes are defined nowhere. -/
theorem modes_violation (nJ : ℕ) (hJ : nJ ≠ 0) (ref : Seg) (plain : Arr) (r : ℝ) (hr : |r| ≠ 1)
    (h01 : ∀ a b, plain a b = 0 ∨ plain a b = 1) (hm : ∀ a b, ref.mat a b = plain a b * r)
    (nPetal : ℕ) (petal : ℕ → ℕ → ℕ → ℝ) (pupil mask : ℕ → ℕ → ℝ) :
    ∃ pix, computeModes nJ .segment ref nPetal petal pupil mask = .over pix ∧ ∀ i j, ¬ pix i j := by
  refine ⟨fun i j => ‖ref.mat i j‖ = 1, by simp [computeModes, hJ], fun i j h => ?_⟩
  simp only [hm] at h
  rcases h01 i j with h0 | h0 <;> rw [h0] at h
  · simp at h
  · rw [one_mul, Complex.norm_real, Real.norm_eq_abs] at h
    exact hr h

/-- C444 (violation): another area than these two ends in an error of Python; an empty list of modes in a message. -/
theorem modes_other (nJ : ℕ) (ref : Seg) (nPetal : ℕ) (petal : ℕ → ℕ → ℕ → ℝ) (pupil mask : ℕ → ℕ → ℝ) :
    (nJ ≠ 0 → computeModes nJ .other ref nPetal petal pupil mask = .unboundLocal) ∧
    ∀ a, computeModes 0 a ref nPetal petal pupil mask = .nothing := by
  refine ⟨fun h => by simp [computeModes, h], fun a => by simp [computeModes]⟩

end P3.Segments
