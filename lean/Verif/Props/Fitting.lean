import Verif.Model.Fitting
import Verif.Props.Images
import Verif.Props.Params
import Mathlib.Tactic.Linarith
import Mathlib.Tactic.NormNum

/-! C51, C52, C55 and related: fitting a PSF model to an image. -/

namespace P3.Fitting

open P3.Images (minL denormalize Param)

/-! ### Free and fixed parameters -/

theorem takeAt_ok {α : Type} (x : List α) (ind : List ℕ) (l : List α) (h : takeAt x ind = .ok l) :
    l.length = ind.length ∧ ∀ k i : ℕ, ind[k]? = some i → ∃ v, x[i]? = some v ∧ l[k]? = some v := by
  induction ind generalizing l with
  | nil =>
    have : l = [] := by simpa [takeAt, pure, Except.pure, eq_comm] using h
    subst this; simp
  | cons a t ih =>
    unfold takeAt at h
    rw [List.mapM_cons] at h
    rcases ha : look x a with e | v
    · rw [ha] at h; simp [bind, Except.bind] at h
    · rw [ha] at h
      have ha : x[a]? = some v := by
        unfold look at ha
        cases hx : x[a]? with
        | none => rw [hx] at ha; simp at ha
        | some w => rw [hx] at ha; simpa using ha
      rcases hr : (List.mapM (look x) t : Except Err (List α)) with e | r
      · rw [hr] at h; simp [bind, Except.bind] at h
      · rw [hr] at h
        have hl : l = v :: r := by
          have := h
          simp [bind, Except.bind, pure, Except.pure] at this
          exact this.symm
        obtain ⟨h1, h2⟩ := ih r hr
        subst hl
        refine ⟨by simp [h1], ?_⟩
        intro k i hk
        cases k with
        | zero =>
          have : a = i := by simpa using hk
          exact ⟨v, by rw [← this]; exact ha, by simp⟩
        | succ k =>
          have hk' : t[k]? = some i := by simpa using hk
          obtain ⟨w, hw1, hw2⟩ := h2 k i hk'
          exact ⟨w, hw1, by simpa using hw2⟩

theorem takeAt_short {α : Type} (x : List α) (ind : List ℕ) (h : ∃ i ∈ ind, x.length ≤ i) : takeAt x ind = .error .indexError := by
  induction ind with
  | nil => obtain ⟨i, hi, -⟩ := h; cases hi
  | cons a l ih =>
    unfold takeAt at ih ⊢
    rw [List.mapM_cons]
    unfold look
    cases ha : x[a]? with
    | none => rfl
    | some v =>
      have hl : ∃ i ∈ l, x.length ≤ i := by
        obtain ⟨i, hi, hx⟩ := h
        rcases List.mem_cons.1 hi with rfl | hi
        · rw [List.getElem?_eq_none hx] at ha; cases ha
        · exact ⟨i, hi, hx⟩
      have := ih hl
      unfold look at this
      simp only [bind, Except.bind] at this ⊢
      rw [this]

theorem takeAt_exists {α : Type} (x : List α) (ind : List ℕ) (h : ∀ i ∈ ind, i < x.length) : ∃ l, takeAt x ind = .ok l := by
  induction ind with
  | nil => exact ⟨[], rfl⟩
  | cons a t ih =>
    obtain ⟨l, hl⟩ := ih fun i hi => h i (List.mem_cons_of_mem _ hi)
    have hal : a < x.length := h a (by simp)
    have ha : look x a = .ok x[a] := by unfold look; rw [List.getElem?_eq_getElem hal]
    refine ⟨x[a] :: l, ?_⟩
    unfold takeAt at hl ⊢
    rw [List.mapM_cons, ha, hl]
    rfl

theorem indFree_mem (f : List Bool) (i : ℕ) : i ∈ indFree f ↔ i < f.length ∧ f.getD i false = false := by
  simp [indFree]

theorem indFree_nodup (f : List Bool) : (indFree f).Nodup := List.nodup_range.filter _

theorem indFree_sorted (f : List Bool) : (indFree f).Pairwise (· < ·) :=
  List.Pairwise.filter _ List.pairwise_lt_range

theorem scatter_length (l : List (ℕ × ℝ)) (x : List ℝ) : (scatter x l).length = x.length := by
  induction l generalizing x with
  | nil => rfl
  | cons p t ih => show (scatter (x.set p.1 p.2) t).length = _; rw [ih]; simp

theorem scatter_out (l : List (ℕ × ℝ)) (x : List ℝ) (i : ℕ) (h : i ∉ l.map Prod.fst) : (scatter x l)[i]? = x[i]? := by
  induction l generalizing x with
  | nil => rfl
  | cons p t ih =>
    simp only [List.map_cons, List.mem_cons, not_or] at h
    show (scatter (x.set p.1 p.2) t)[i]? = _
    rw [ih _ h.2, List.getElem?_set_ne (Ne.symm h.1)]

theorem scatter_in (l : List (ℕ × ℝ)) (x : List ℝ) (hd : (l.map Prod.fst).Nodup) (i : ℕ) (v : ℝ) (hm : (i, v) ∈ l)
    (hi : i < x.length) : (scatter x l)[i]? = some v := by
  induction l generalizing x with
  | nil => simp at hm
  | cons p t ih =>
    simp only [List.map_cons, List.nodup_cons] at hd
    show (scatter (x.set p.1 p.2) t)[i]? = _
    rcases List.mem_cons.mp hm with h | h
    · rw [← h] at hd ⊢
      rw [scatter_out _ _ _ hd.1]
      simp [hi]
    · exact ih _ hd.2 h (by simpa using hi)

/-- C51: merging keeps the number of parameters and every fixed one, and puts the values of the minimiser at the free
positions in order (truncated when the start is a list of integers). -/
theorem merge_spec (dt : DType) (f : List Bool) (x0 y x : List ℝ) (hl : f.length = x0.length)
    (hy : y.length = (indFree f).length) (h : mini2input dt (some f) x0 y = .ok x) :
    x.length = x0.length ∧ (∀ i : ℕ, f[i]? = some true → x[i]? = x0[i]?) ∧
    ∀ k i : ℕ, (indFree f)[k]? = some i → x[i]? = (y[k]?).map (store dt) := by
  unfold mini2input at h
  simp only [hy, lt_irrefl, if_false] at h
  have hx := (Except.ok.inj h).symm
  have hfst : ((indFree f).zip (y.map (store dt))).map Prod.fst = indFree f :=
    List.map_fst_zip (by simp [hy])
  subst hx
  refine ⟨scatter_length _ _, ?_, ?_⟩
  · intro i hi
    apply scatter_out
    rw [hfst, indFree_mem]
    rintro ⟨-, h2⟩
    rw [List.getD_eq_getElem?_getD, hi] at h2
    simp at h2
  · intro k i hk
    have hkl : k < (indFree f).length := by
      by_contra hc; rw [List.getElem?_eq_none (by omega)] at hk; simp at hk
    have hki : k < y.length := by omega
    have hmem : i ∈ indFree f := List.mem_of_getElem? hk
    have hilt : i < x0.length := by rw [← hl]; exact ((indFree_mem f i).mp hmem).1
    rw [List.getElem?_eq_getElem hki]
    refine scatter_in _ _ (by rw [hfst]; exact indFree_nodup f) i _ ?_ hilt
    have : ((indFree f).zip (y.map (store dt)))[k]? = some (i, store dt y[k]) := by
      rw [List.getElem?_zip_eq_some]
      exact ⟨hk, by simp [List.getElem?_eq_getElem hki]⟩
    exact List.mem_of_getElem? this

/-- C51: extracting the free parameters always succeeds when the mask has the right length. -/
theorem extract_exists (f : List Bool) (x : List ℝ) (hl : f.length = x.length) :
    ∃ y, input2mini (some f) x = .ok y ∧ y.length = (indFree f).length := by
  obtain ⟨y, hy⟩ := takeAt_exists x (indFree f) fun i hi => by rw [← hl]; exact ((indFree_mem f i).mp hi).1
  exact ⟨y, hy, (takeAt_ok _ _ _ hy).1⟩

/-- C51: extracting and merging back gives the start vector. -/
theorem merge_extract (f : List Bool) (x0 y x : List ℝ) (hl : f.length = x0.length)
    (h1 : input2mini (some f) x0 = .ok y) (h2 : mini2input .float (some f) x0 y = .ok x) : x = x0 := by
  obtain ⟨hlen, hget⟩ := takeAt_ok _ _ _ h1
  obtain ⟨a1, a2, a3⟩ := merge_spec .float f x0 y x hl hlen h2
  apply List.ext_getElem?
  intro i
  by_cases hi : i < f.length
  · cases hf : f[i] with
    | true => exact a2 i (by rw [List.getElem?_eq_getElem hi, hf])
    | false =>
      have hm : i ∈ indFree f := (indFree_mem f i).mpr ⟨hi, by rw [List.getD_eq_getElem?_getD, List.getElem?_eq_getElem hi, hf]; rfl⟩
      obtain ⟨k, hk⟩ := List.mem_iff_getElem?.mp hm
      obtain ⟨v, hv1, hv2⟩ := hget k i hk
      rw [a3 k i hk, hv2, hv1]; rfl
  · rw [List.getElem?_eq_none (by omega), List.getElem?_eq_none (by omega)]

/-- C51: merging the output of the minimiser and extracting again gives the output. -/
theorem extract_merge (f : List Bool) (x0 y x : List ℝ) (hl : f.length = x0.length) (hy : y.length = (indFree f).length)
    (h : mini2input .float (some f) x0 y = .ok x) : input2mini (some f) x = .ok y := by
  obtain ⟨a1, -, a3⟩ := merge_spec .float f x0 y x hl hy h
  obtain ⟨z, hz, hzl⟩ := extract_exists f x (by rw [hl, a1])
  rw [hz]
  congr 1
  obtain ⟨-, hget⟩ := takeAt_ok _ _ _ hz
  apply List.ext_getElem?
  intro k
  by_cases hk : k < (indFree f).length
  · obtain ⟨v, hv1, hv2⟩ := hget k (indFree f)[k] (List.getElem?_eq_getElem hk)
    rw [hv2, ← hv1, a3 k _ (List.getElem?_eq_getElem hk)]
    rw [List.getElem?_eq_getElem (by omega : k < y.length)]
    rfl
  · rw [List.getElem?_eq_none (by omega), List.getElem?_eq_none (by omega)]

/-- C137 (violation): with a start vector of integers and a mask, the fitted values are truncated. -/
theorem merge_violation : mini2input .int (some [false, true]) [1, 2] [1/2] = .ok [0, 2] := by
  have : store .int (1/2) = 0 := by
    simp only [store, trunc]
    rw [if_pos (by norm_num)]
    norm_num
  have this' : store .int 2⁻¹ = 0 := by rw [← this]; norm_num
  simp [mini2input, indFree, scatter, this', List.range_succ]

example : ∃ x, mini2input .float (some [false, true, false]) [1, 2, 3] [7, 9] = .ok x ∧ x = [7, 2, 9] :=
  ⟨_, rfl, by simp [indFree, scatter, store, List.range_succ]⟩

/-! ### The image of the caller -/

/-- C52: the image is left as it was exactly when no pixel is negative. -/
theorem image_unchanged_iff_partial (getFlux : List ℝ → ℝ) (solver : Solver) (model : List ℝ → List ℝ) (t : Task)
    (hne : t.image ≠ []) : (fit getFlux solver model t).1 = t.image ↔ ∀ v ∈ t.image, 0 ≤ v := by
  show shifted t.image = t.image ↔ _
  unfold shifted
  by_cases h : minL t.image < 0
  · rw [if_pos h]
    constructor
    · intro he
      exfalso
      have hm := Images.minL_mem t.image hne
      have : minL t.image - minL t.image ∈ t.image.map (· - minL t.image) := List.mem_map.mpr ⟨_, hm, rfl⟩
      have hlen : t.image.length ≠ 0 := by simpa using hne
      obtain ⟨k, hk, hkv⟩ := List.mem_iff_getElem.mp hm
      have e : (t.image.map (· - minL t.image))[k]'(by simpa using hk) = t.image[k] := by simp only [he]
      rw [List.getElem_map, hkv] at e
      linarith
    · intro hall
      exact absurd (hall _ (Images.minL_mem t.image hne)) (by linarith)
  · rw [if_neg h]
    simp only [true_iff]
    intro v hv
    have := Images.minL_le t.image v hv
    linarith

/-- C52: otherwise every pixel has been raised so that the smallest is zero. -/
theorem image_shifted (im : List ℝ) (hne : im ≠ []) : ∀ v ∈ shifted im, 0 ≤ v := by
  intro v hv
  unfold shifted at hv
  split_ifs at hv with h
  · obtain ⟨w, hw, rfl⟩ := List.mem_map.mp hv
    have := Images.minL_le im w hw
    linarith
  · have := Images.minL_le im v hv
    linarith

/-- C52 (violation). -/
theorem image_violation (getFlux : List ℝ → ℝ) (solver : Solver) (model : List ℝ → List ℝ) (t : Task)
    (h : t.image = [-1, 2]) : (fit getFlux solver model t).1 = [0, 3] := by
  show shifted t.image = _
  have hm : minL [-1, 2] = -1 := by norm_num [minL]
  rw [h]
  unfold shifted
  rw [hm, if_pos (by norm_num)]
  norm_num

/-! ### Bounds -/

/-- What is asked of the minimiser: a vector of the same length, within the bounds if there are any. -/
def Honest (solver : Solver) : Prop :=
  (∀ s b, (solver s b).length = s.length) ∧
  ∀ s b, Admissible s b → ∀ (i : ℕ) (v : ℝ) (lo hi : EReal), (solver s (some b))[i]? = some v → b.1[i]? = some lo →
    b.2[i]? = some hi → lo ≤ v ∧ v ≤ hi

/-- The bounds that apply: those of the user, or of the model. -/
def Task.applied (t : Task) : Bounds := t.bounds.getD t.modelBounds

theorem fit_ok (getFlux : List ℝ → ℝ) (solver : Solver) (model : List ℝ → List ℝ) (t : Task) (r : Result)
    (h : (fit getFlux solver model t).2 = .ok r) :
    ∃ start y, checkFixed t = .ok () ∧ input2mini t.fixed t.x0 = .ok start ∧ minimise solver t start = .ok y ∧
      (∃ q, (Images.normalize getFlux t.normType (shifted t.image)).2 = .num q) ∧
      (∃ m, (Images.normalize getFlux t.normType (shifted t.image)).1 = some m) ∧
      mini2input t.dtype t.fixed t.x0 y = .ok r.x ∧
      scaleBack t.normType (model r.x) (Images.normalize getFlux t.normType (shifted t.image)).2 = .ok r.imFit ∧
      r.imSky = shifted t.image ∧ r.imDif = List.zipWith (· - ·) r.imSky r.imFit := by
  unfold fit at h
  simp only at h
  rcases h1 : checkFixed t with e | u
  · rw [h1] at h; simp [bind, Except.bind] at h
  rw [h1] at h
  rcases h2 : input2mini t.fixed t.x0 with e | start
  · rw [h2] at h; simp [bind, Except.bind] at h
  rw [h2] at h
  rcases h3 : minimise solver t start with e | y
  · simp [bind, Except.bind, h3] at h
  rcases h4 : checkParam (Images.normalize getFlux t.normType (shifted t.image)).2 with e | q
  · simp [bind, Except.bind, h3, h4] at h
  rcases h5 : (Images.normalize getFlux t.normType (shifted t.image)).1 with _ | m
  · simp [bind, Except.bind, h3, h4, h5] at h
  rcases h6 : mini2input t.dtype t.fixed t.x0 y with e | x
  · simp [bind, Except.bind, h3, h4, h5, h6] at h
  rcases h7 : scaleBack t.normType (model x) (Images.normalize getFlux t.normType (shifted t.image)).2 with e | f
  · simp [bind, Except.bind, h3, h4, h5, h6, h7] at h
  simp [bind, Except.bind, h3, h4, h5, h6, h7] at h
  subst h
  refine ⟨start, y, rfl, rfl, h3, ?_, ⟨m, rfl⟩, h6, h7, rfl, rfl⟩
  cases hp : (Images.normalize getFlux t.normType (shifted t.image)).2 with
  | num q => exact ⟨q, rfl⟩
  | pair lo hi => rw [hp] at h4; simp [checkParam] at h4

/-- C92: when a fit with a mask succeeds, the fixed parameters have their start value and each free one lies within
the bounds given for its own position. -/
theorem fit_masked (getFlux : List ℝ → ℝ) (solver : Solver) (hs : Honest solver) (model : List ℝ → List ℝ) (t : Task)
    (f : List Bool) (hf : t.fixed = some f) (r : Result) (h : (fit getFlux solver model t).2 = .ok r) :
    f.length = t.x0.length ∧ r.x.length = t.x0.length ∧ (∀ i : ℕ, f[i]? = some true → r.x[i]? = t.x0[i]?) ∧
    (t.dtype = .float → t.trf = true → ∀ (i : ℕ) (v : ℝ) (lo hi : EReal), f[i]? = some false → r.x[i]? = some v →
      t.applied.1[i]? = some lo → t.applied.2[i]? = some hi → lo ≤ v ∧ v ≤ hi) := by
  obtain ⟨start, y, h1, h2, h3, -, -, h6, -⟩ := fit_ok _ _ _ _ _ h
  have hfl : f.length = t.x0.length := by
    unfold checkFixed at h1
    rw [hf] at h1
    simp only at h1
    by_contra hc
    rw [if_pos hc] at h1; simp at h1
  rw [hf] at h2 h6
  obtain ⟨hsl, hsg⟩ := takeAt_ok _ _ _ h2
  have hyl : y.length = (indFree f).length := by
    unfold minimise at h3
    split_ifs at h3 with ht hl
    · split at h3
      · simp at h3
      · split_ifs at h3
        rw [← Except.ok.inj h3, hs.1, hsl]
    · rw [← Except.ok.inj h3, hs.1, hsl]
  obtain ⟨a1, a2, a3⟩ := merge_spec t.dtype f t.x0 y r.x hfl hyl h6
  refine ⟨hfl, a1, a2, ?_⟩
  intro hdt htrf i v lo hi hfi hxi hlo hhi
  have hil : i < f.length := by
    by_contra hc; rw [List.getElem?_eq_none (by omega)] at hfi; simp at hfi
  have hm : i ∈ indFree f := (indFree_mem f i).mpr ⟨hil, by rw [List.getD_eq_getElem?_getD, hfi]; rfl⟩
  obtain ⟨k, hk⟩ := List.mem_iff_getElem?.mp hm
  have hyk : y[k]? = some v := by
    have := a3 k i hk
    rw [hxi, hdt] at this
    cases hy : y[k]? with
    | none => rw [hy] at this; simp at this
    | some w => rw [hy] at this; simpa [store] using this.symm
  unfold minimise at h3
  rw [if_pos htrf] at h3
  have hb : ∃ b : Bounds, getBounds t.fixed t.bounds t.modelBounds = .ok b ∧
      takeAt t.applied.1 (indFree f) = .ok b.1 ∧ takeAt t.applied.2 (indFree f) = .ok b.2 := by
    rcases hg : getBounds t.fixed t.bounds t.modelBounds with e | b
    · rw [hg] at h3; simp at h3
    · refine ⟨b, rfl, ?_⟩
      unfold getBounds at hg
      rw [hf] at hg
      unfold Task.applied
      cases hub : t.bounds with
      | none =>
        rw [hub] at hg
        simp only [Option.getD_none] at hg ⊢
        rcases ha : takeAt t.modelBounds.1 (indFree f) with e | lo
        · rw [ha] at hg; simp [bind, Except.bind] at hg
        rcases hb : takeAt t.modelBounds.2 (indFree f) with e | hi
        · rw [ha, hb] at hg; simp [bind, Except.bind] at hg
        rw [ha, hb] at hg
        simp [bind, Except.bind] at hg
        rw [← hg]; simp
      | some ub =>
        rw [hub] at hg
        simp only [Option.getD_some] at hg ⊢
        rcases ha : takeAt ub.1 (indFree f) with e | lo
        · rw [ha] at hg; simp [bind, Except.bind] at hg
        rcases hb : takeAt ub.2 (indFree f) with e | hi
        · rw [ha, hb] at hg; simp [bind, Except.bind] at hg
        rw [ha, hb] at hg
        simp [bind, Except.bind] at hg
        rw [← hg]; simp
  obtain ⟨b, hb1, hb2, hb3⟩ := hb
  rw [hb1] at h3
  simp only at h3
  split_ifs at h3 with hadm
  obtain ⟨-, g2⟩ := takeAt_ok _ _ _ hb2
  obtain ⟨-, g3⟩ := takeAt_ok _ _ _ hb3
  obtain ⟨lo', e1, e2⟩ := g2 k i hk
  obtain ⟨hi', e3, e4⟩ := g3 k i hk
  rw [hlo] at e1
  rw [hhi] at e3
  have := Except.ok.inj h3
  refine hs.2 start b hadm k v lo hi (by rw [this]; exact hyk) (by rw [e2]; exact e1.symm) (by rw [e4]; exact e3.symm)

/-- C145 (violation): bounds of the user without a mask of fixed parameters always raise. -/
theorem bounds_violation (getFlux : List ℝ → ℝ) (solver : Solver) (model : List ℝ → List ℝ) (t : Task) (b : Bounds)
    (hf : t.fixed = none) (hb : t.bounds = some b) (ht : t.trf = true) : (fit getFlux solver model t).2 = .error .nameError := by
  have h3 : ∀ s, minimise solver t s = .error .nameError := by
    intro s
    unfold minimise getBounds
    simp [ht, hb, hf]
  unfold fit
  simp [checkFixed, hf, input2mini, bind, Except.bind, h3]

/-- C145 (violation): lower bounds that stop before a free parameter make the fit raise an `IndexError`. -/
theorem bounds_short_violation (getFlux : List ℝ → ℝ) (solver : Solver) (model : List ℝ → List ℝ) (t : Task) (b : Bounds) (f : List Bool)
    (hf : t.fixed = some f) (hl : f.length = t.x0.length) (hb : t.bounds = some b) (ht : t.trf = true)
    (i : ℕ) (hi : f[i]? = some false) (hs : b.1.length ≤ i) : (fit getFlux solver model t).2 = .error .indexError := by
  have hil : i < f.length := by
    by_contra hc; rw [List.getElem?_eq_none (by omega)] at hi; cases hi
  have hm : i ∈ indFree f := (indFree_mem f i).mpr ⟨hil, by rw [List.getD_eq_getElem?_getD, hi]; rfl⟩
  have h3 : ∀ s, minimise solver t s = .error .indexError := by
    intro s
    unfold minimise getBounds
    simp [ht, hb, hf, takeAt_short b.1 (indFree f) ⟨i, hm, hs⟩, bind, Except.bind]
  obtain ⟨y, hy⟩ := takeAt_exists t.x0 (indFree f) fun i hi => by rw [← hl]; exact ((indFree_mem f i).mp hi).1
  unfold fit
  simp [checkFixed, hf, hl, input2mini, hy, bind, Except.bind, h3]

/-- C145 (violation): with any method other than `trf`, the bounds are ignored: the minimiser gets none. -/
theorem bounds_ignored (solver : Solver) (t : Task) (s y : List ℝ) (ht : t.trf = false) (h : minimise solver t s = .ok y) :
    y = solver s none := by
  unfold minimise at h
  rw [if_neg (by simp [ht])] at h
  split_ifs at h
  exact (Except.ok.inj h).symm

/-- C92: without mask and bounds, the fit stays within the bounds of the model. -/
theorem fit_unmasked (getFlux : List ℝ → ℝ) (solver : Solver) (hs : Honest solver) (model : List ℝ → List ℝ) (t : Task)
    (hf : t.fixed = none) (hb : t.bounds = none) (ht : t.trf = true) (r : Result)
    (h : (fit getFlux solver model t).2 = .ok r) :
    r.x.length = t.x0.length ∧ ∀ (i : ℕ) (v : ℝ) (lo hi : EReal), r.x[i]? = some v →
      t.modelBounds.1[i]? = some lo → t.modelBounds.2[i]? = some hi → lo ≤ v ∧ v ≤ hi := by
  obtain ⟨start, y, -, h2, h3, -, -, h6, -⟩ := fit_ok _ _ _ _ _ h
  rw [hf] at h2 h6
  have e1 : start = t.x0 := (Except.ok.inj h2).symm
  have e2 : r.x = y := (Except.ok.inj h6).symm
  unfold minimise getBounds at h3
  rw [if_pos ht, hb, hf] at h3
  simp only at h3
  split_ifs at h3 with hadm
  have e3 := Except.ok.inj h3
  rw [e2, ← e3, ← e1]
  exact ⟨hs.1 _ _, fun i v lo hi a b c => hs.2 start _ hadm i v lo hi a b c⟩

/-- C145: with normalisation between minimum and maximum, no fit can be made. -/
theorem norm2_violation (getFlux : List ℝ → ℝ) (solver : Solver) (model : List ℝ → List ℝ) (t : Task) (h2 : t.normType = 2)
    (r : Result) : (fit getFlux solver model t).2 ≠ .ok r := by
  intro h
  obtain ⟨-, -, -, -, -, ⟨q, hq⟩, -⟩ := fit_ok _ _ _ _ _ h
  rw [h2] at hq
  simp [Images.normalize] at hq

/-! ### Residual -/

/-- C93: the residual image is the normalised residual in the units of the image: pixel by pixel, it is `param` times
the residual that is minimised. -/
theorem residual_units (getFlux : List ℝ → ℝ) (solver : Solver) (model : List ℝ → List ℝ) (t : Task) (r : Result)
    (h : (fit getFlux solver model t).2 = .ok r) :
    ∃ q m, Images.normalize getFlux t.normType (shifted t.image) = (some m, .num q) ∧
      r.imDif = (List.zipWith (· - ·) m (model r.x)).map (fun d => d * q) := by
  obtain ⟨start, y, -, -, -, ⟨q, hq⟩, ⟨m, hm⟩, -, h7, h8, h9⟩ := fit_ok _ _ _ _ _ h
  refine ⟨q, m, Prod.ext hm hq, ?_⟩
  have hn : Images.normalize getFlux t.normType (shifted t.image) = (some m, .num q) := Prod.ext hm hq
  have hback := Images.normalize_roundtrip getFlux t.normType (shifted t.image) m (.num q) hn
  rw [hq] at h7
  rw [h9, h8]
  unfold scaleBack at h7
  by_cases h0 : t.normType = 0
  · rw [h0] at hn h7
    simp [Images.normalize] at hn
    have hq1 : q = 1 := by
      have := hn.2; exact this.symm
    simp [denormalize] at h7
    rw [← h7, hq1, hn.1]
    simp
  · by_cases h2 : t.normType = 2
    · rw [h2] at hn; simp [Images.normalize] at hn
    · simp only [denormalize, h0, h2, if_false] at h7 hback
      have e1 := Except.ok.inj h7
      have e2 := Except.ok.inj hback
      rw [← e1, ← e2]
      rw [List.zipWith_map, List.map_zipWith]
      congr 1
      funext a b
      ring

/-- C93: the quantity minimised is the sum of the squared differences, each weighted by its weight: the weights
multiply the squares. -/
theorem residual_cost (w im m : List ℝ) (hw : ∀ x ∈ w, 0 ≤ x) :
    ((residual w im m).map (· ^ 2)).sum =
      (List.zipWith (fun w d => w * d ^ 2) w (List.zipWith (· - ·) im m)).sum := by
  unfold residual
  generalize List.zipWith (· - ·) im m = d
  induction w generalizing d with
  | nil => simp
  | cons a t ih =>
    cases d with
    | nil => simp
    | cons b d =>
      simp only [List.zipWith_cons_cons, List.map_cons, List.sum_cons]
      rw [ih (fun x hx => hw x (List.mem_cons_of_mem _ hx)), mul_pow, Real.sq_sqrt (hw a (by simp))]

example : ((residual [4, 9] [1, 2] [0, 0]).map (· ^ 2)).sum = 40 := by
  rw [residual_cost _ _ _ (by simp)]; norm_num

/-! ### Cases that meet the hypotheses -/

/-- A fit whose hypotheses are met: two parameters within bounds, a minimiser that stays at the start. -/
example : ∃ r, (fit List.sum (fun s _ => s) (fun x => x) ⟨[1, 3], 1, [1, 1], .float, none, none, ([0, 0], [2, 2]), true⟩).2 = .ok r ∧
    r.x.length = 2 := by
  have hs : Honest (fun s _ => s) := ⟨fun _ _ => rfl, fun s b ⟨_, _, h⟩ i v lo hi h1 h2 h3 => (h i v lo hi h1 h2 h3).2⟩
  have ha : Admissible [1, 1] (([0, 0], [2, 2]) : Bounds) := by
    have h0 : (0 : EReal) ≤ ((1:ℝ) : EReal) := by exact_mod_cast zero_le_one
    have h2 : ((1:ℝ) : EReal) ≤ 2 := by exact_mod_cast one_le_two
    refine ⟨rfl, rfl, fun i v lo hi h1 h2' h3 => ?_⟩
    match i, h1, h2', h3 with
    | 0, h1, h2', h3 =>
      simp only [List.getElem?_cons_zero, Option.some.injEq] at h1 h2' h3
      subst h1 h2' h3
      exact ⟨by norm_num, h0, h2⟩
    | 1, h1, h2', h3 =>
      simp only [List.getElem?_cons_succ, List.getElem?_cons_zero, Option.some.injEq] at h1 h2' h3
      subst h1 h2' h3
      exact ⟨by norm_num, h0, h2⟩
    | i + 2, h1, h2', h3 => simp at h1
  cases h : (fit List.sum (fun s _ => s) (fun x => x) ⟨[1, 3], 1, [1, 1], .float, none, none, ([0, 0], [2, 2]), true⟩).2 with
  | ok r => exact ⟨r, rfl, (fit_unmasked List.sum (fun s _ => s) hs (fun x => x) ⟨[1, 3], 1, [1, 1], .float, none, none, ([0, 0], [2, 2]), true⟩ rfl rfl rfl r h).1⟩
  | error e =>
    exfalso
    simp [fit, checkFixed, input2mini, minimise, getBounds, ha, bind, Except.bind, Images.normalize, Images.divO, checkParam, mini2input, scaleBack, denormalize, shifted, minL] at h
    have h1 : ¬ ((1:ℝ) < 0) := by norm_num
    have h4 : ¬ ((1:ℝ) + 3 = 0) := by norm_num
    simp [h1, h4] at h

/-! ### Cases that meet the hypotheses -/

/-- A case meeting the hypotheses of `merge_spec`. -/
example : ∃ x, mini2input .float (some [true, false, true]) [1, 2, 3] [7] = .ok x ∧ x.length = 3 ∧ x[0]? = some 1 ∧ x[1]? = some 7 := by
  have h : ∃ x, mini2input .float (some [true, false, true]) [1, 2, 3] [7] = .ok x := by
    exact ⟨_, rfl⟩
  obtain ⟨x, h⟩ := h
  obtain ⟨h1, h2, h3⟩ := merge_spec .float [true, false, true] [1, 2, 3] [7] x rfl rfl h
  exact ⟨x, h, h1, h2 0 rfl, h3 0 1 rfl⟩

end P3.Fitting
