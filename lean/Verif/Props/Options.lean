import Verif.Model.Options
import Verif.Props.Config
/-
C461-C467: every option of the parameter file reaches the object it describes.
-/
namespace P3.Options
open P3.Config
open P3.Paths (Str)

/-! ### Specification -/

/-- The attribute `a` holds the option `o` of section `s` as written in the file, and `d` when the file does not
give it. -/
def Carries (m : Map) (s o : String) (d a : Arg) : Prop :=
  (∀ v, get m s o = some v → a = .val v) ∧ (get m s o = none → a = d)

/-- The attribute holds the text of the option, made a path. -/
def CarriesPath (env : Env) (m : Map) (o : String) (d a : Option Str) : Prop :=
  (∀ t, get m "telescope" o = some (.str t) →
    a = some (Paths.resolve env.isfile t.toList env.root env.p3 env.tiptop)) ∧
  (get m "telescope" o = none → a = d)

/-- `m` and `m'` give the same value to every option of section `s` except those listed. -/
def AgreeExcept (m m' : Map) (s : String) (l : List String) : Prop :=
  ∀ o, o ∉ l → get m s o = get m' s o

/-- The options of a detector that a section `s` describes, with their defaults (`spots` and `photons` are those of
the spot size and of the flux; `photons` is not used for the wavefront sensors, whose flux is a list). -/
def DetectorCarries (m : Map) (s : String) (spots : Arg) (d : Detector) : Prop :=
  Carries m s "PixelScale" (.val .none) d.psInMas ∧
  Carries m s "Binning" (.val (.int 1)) d.binning ∧
  Carries m s "SpotFWHM" spots d.spotFWHM ∧
  Carries m s "SpectralBandwidth" (num 0) d.bandwidth ∧
  Carries m s "Transmittance" (.val (.lst [1])) d.transmittance ∧
  Carries m s "Dispersion" (.val (.mat [[0], [0]])) d.dispersion ∧
  Carries m s "SigmaRON" (num 0) d.ron ∧
  Carries m s "Gain" (.val (.int 1)) d.gain ∧
  Carries m s "Dark" (num 0) d.dark ∧
  Carries m s "SkyBackground" (num 0) d.sky ∧
  Carries m s "ExcessNoiseFactor" (num 1) d.excess

/-- The `k`-th entry of a list option. -/
def EntryOf (m : Map) (s o : String) (k : ℕ) (q : ℚ) : Prop :=
  ∀ l, get m s o = some (.lst l) → l[k]? = some q

/-- The argument is the number `q`, written as a float or as an integer. -/
def IsNumber (a : Arg) (q : ℚ) : Prop := a = num q ∨ ∃ z : ℤ, a = .val (.int z) ∧ q = z

/-- `arcsec` is the field `fov` (pixels) in arcsec, for a pixel scale `ps` in mas: one entry per entry of the lists. -/
def FieldInArcsec (ps fov : Arg) (arcsec : List ℚ) : Prop :=
  (∀ p f, IsNumber ps p → IsNumber fov f → arcsec = [p * f / 1000]) ∧
  (∀ p F, IsNumber ps p → fov = .val (.lst F) →
    arcsec.length = F.length ∧ ∀ k, ∀ h : k < F.length, arcsec[k]? = some (p * F[k] / 1000)) ∧
  (∀ P f, ps = .val (.lst P) → IsNumber fov f →
    arcsec.length = P.length ∧ ∀ k, ∀ h : k < P.length, arcsec[k]? = some (P[k] * f / 1000)) ∧
  (∀ P F, ps = .val (.lst P) → fov = .val (.lst F) → F.length ≤ P.length ∧ arcsec.length = F.length ∧
    ∀ k, ∀ h : k < F.length, ∀ h' : k < P.length, arcsec[k]? = some (P[k] * F[k] / 1000))

/-- A number, or a list of numbers. -/
def NumberOrList (a : Arg) : Prop := (∃ q, IsNumber a q) ∨ ∃ l, a = .val (.lst l)

/-! ### Lemmas -/

theorem scalarOrList_number {a : Arg} {q : ℚ} (h : IsNumber a q) : scalarOrList a = .ok (.inl q) := by
  rcases h with rfl | ⟨z, rfl, rfl⟩ <;> rfl

theorem scalarOrList_ok {a : Arg} {r : ℚ ⊕ List ℚ} (h : scalarOrList a = .ok r) :
    (∃ q, r = .inl q ∧ IsNumber a q) ∨ ∃ l, r = .inr l ∧ a = .val (.lst l) := by
  unfold scalarOrList at h
  split at h <;> simp only [Except.ok.injEq, reduceCtorEq] at h
  · exact .inl ⟨_, h.symm, .inr ⟨_, rfl, rfl⟩⟩
  · exact .inl ⟨_, h.symm, .inl rfl⟩
  · exact .inr ⟨_, h.symm, rfl⟩

theorem fovArcsec_spec {ps fov : Arg} {l : List ℚ} (h : fovArcsec ps fov = .ok l) : FieldInArcsec ps fov l := by
  unfold fovArcsec at h
  simp only [bind_ok_iff] at h
  obtain ⟨a, ha, b, hb, h⟩ := h
  refine ⟨?_, ?_, ?_, ?_⟩
  · intro p f hp hf
    obtain rfl : Sum.inl p = a := Except.ok.inj ((scalarOrList_number hp).symm.trans ha)
    obtain rfl : Sum.inl f = b := Except.ok.inj ((scalarOrList_number hf).symm.trans hb)
    exact (Except.ok.inj h).symm
  · rintro p F hp rfl
    obtain rfl : Sum.inl p = a := Except.ok.inj ((scalarOrList_number hp).symm.trans ha)
    obtain rfl : Sum.inr F = b := Except.ok.inj hb
    obtain rfl := Except.ok.inj h
    exact ⟨by simp, fun k hk => by simp [hk]⟩
  · rintro P f rfl hf
    obtain rfl : Sum.inr P = a := Except.ok.inj ha
    obtain rfl : Sum.inl f = b := Except.ok.inj ((scalarOrList_number hf).symm.trans hb)
    obtain rfl := Except.ok.inj h
    exact ⟨by simp, fun k hk => by simp [hk]⟩
  · rintro P F rfl rfl
    obtain rfl : Sum.inr P = a := Except.ok.inj ha
    obtain rfl : Sum.inr F = b := Except.ok.inj hb
    simp only [bind_ok_iff, require_ok_iff] at h
    obtain ⟨-, hl, h⟩ := h
    obtain rfl := Except.ok.inj h
    exact ⟨hl, by simp [hl], fun k hk hk' => by simp [hk, hk']⟩

/-- C461: a detector is built exactly when its pixel scale and its field of view are numbers or lists, the list of scales
at least as long as that of fields when both are lists, and the dispersion has as many columns as there are
transmittances. -/
theorem detector_builds (a : DetectorArgs) : (∃ d, detector a = .ok d) ↔
    NumberOrList a.pixel_scale ∧ NumberOrList a.fov ∧
    (∀ P F, a.pixel_scale = .val (.lst P) → a.fov = .val (.lst F) → F.length ≤ P.length) ∧
    ∃ tr row rows, a.transmittance = .val (.lst tr) ∧ a.dispersion = .val (.mat (row :: rows)) ∧
      row.length = tr.length := by
  constructor
  · rintro ⟨d, h⟩
    unfold detector at h
    simp only [bind_ok_iff, require_ok_iff] at h
    obtain ⟨x, hx, t, ht, l, hl, -, hlt, -⟩ := h
    refine ⟨?_, ?_, fun P F h1 h2 => ((fovArcsec_spec hx).2.2.2 P F h1 h2).1, ?_⟩
    · unfold fovArcsec at hx
      simp only [bind_ok_iff] at hx
      obtain ⟨u, hu, -⟩ := hx
      rcases scalarOrList_ok hu with ⟨q, -, h⟩ | ⟨q, -, h⟩
      exacts [.inl ⟨q, h⟩, .inr ⟨q, h⟩]
    · unfold fovArcsec at hx
      simp only [bind_ok_iff] at hx
      obtain ⟨u, hu, v, hv, -⟩ := hx
      rcases scalarOrList_ok hv with ⟨q, -, h⟩ | ⟨q, -, h⟩
      exacts [.inl ⟨q, h⟩, .inr ⟨q, h⟩]
    · unfold lenOf at ht
      unfold lenOfFirst at hl
      split at ht <;> simp only [Except.ok.injEq, reduceCtorEq] at ht
      split at hl <;> simp only [Except.ok.injEq, reduceCtorEq] at hl
      rename_i tr e1 _ row rows e2
      exact ⟨tr, row, rows, e1, e2, by omega⟩
  · rintro ⟨h1, h2, h3, tr, row, rows, e1, e2, e3⟩
    have : ∃ x, fovArcsec a.pixel_scale a.fov = .ok x := by
      unfold fovArcsec
      rcases h1 with ⟨p, hp⟩ | ⟨P, hP⟩ <;> rcases h2 with ⟨f, hf⟩ | ⟨F, hF⟩
      · rw [scalarOrList_number hp, scalarOrList_number hf]; exact ⟨_, rfl⟩
      · rw [scalarOrList_number hp, hF]; exact ⟨_, rfl⟩
      · rw [hP, scalarOrList_number hf]; exact ⟨_, rfl⟩
      · have := h3 P F hP hF
        rw [hP, hF]
        simp only [scalarOrList, bind, Except.bind, require, this, if_true]
        exact ⟨_, rfl⟩
    obtain ⟨x, hx⟩ := this
    unfold detector
    rw [hx, e1, e2]
    simp only [lenOf, lenOfFirst, bind, Except.bind, require, e3, if_true]
    exact ⟨_, rfl⟩

/-- A detector with a list of scales and a list of fields. -/
example : ∃ d, detector ⟨.val (.lst [10, 20]), .val (.lst [100, 200]), .val (.int 1), .val .none, .inf, .inf, num 0, .val (.lst [1]),
    .val (.mat [[0], [0]]), num 0, num 1, num 0, num 0, num 1, .val .none⟩ = .ok d ∧ d.fovInArcsec = [1, 4] := by
  refine ⟨_, rfl, ?_⟩
  norm_num [fovArcsec]

theorem opt_carries (m : Map) (s o : String) (d : Arg) : Carries m s o d (opt m s o d) := by
  unfold opt
  constructor
  · intro v h; rw [h]
  · intro h; rw [h]

theorem path_carries (env : Env) (m : Map) (o : String) (d : Option Str) :
    CarriesPath env m o d (pathOpt env m o d) := by
  unfold pathOpt
  constructor
  · intro v h; rw [h]
  · intro h; rw [h]

theorem mapM_ok {α β ε : Type} (f : α → Except ε β) : ∀ (l : List α) (r : List β), l.mapM f = .ok r →
    r.length = l.length ∧ ∀ k, ∀ hk : k < l.length, ∀ hr : k < r.length, f l[k] = .ok r[k]
  | [], r, h => by
    simp only [List.mapM_nil, pure, Except.pure, Except.ok.injEq] at h
    subst h
    simp
  | a :: l, r, h => by
    rw [List.mapM_cons, bind_ok_iff] at h
    obtain ⟨b, hb, h⟩ := h
    rw [bind_ok_iff] at h
    obtain ⟨r', hr', h⟩ := h
    simp only [pure, Except.pure, Except.ok.injEq] at h
    subst h
    obtain ⟨i1, i2⟩ := mapM_ok f l r' hr'
    refine ⟨by simp [i1], ?_⟩
    intro k hk hr
    cases k with
    | zero => simpa using hb
    | succ k =>
      simp only [List.getElem_cons_succ]
      exact i2 k (by simpa using hk) (by simpa using hr)

theorem detector_fields {a : DetectorArgs} {d : Detector} (h : detector a = .ok d) :
    d.psInMas = a.pixel_scale ∧ d.fovInPix = a.fov ∧ fovArcsec a.pixel_scale a.fov = .ok d.fovInArcsec ∧
    d.spotFWHM = a.spotFWHM ∧ d.saturation = a.saturation ∧ d.bandwidth = a.bandwidth ∧
    d.transmittance = a.transmittance ∧ d.dispersion = a.dispersion ∧ d.nph = a.nph ∧ d.ron = a.ron ∧
    d.dark = a.dark ∧ d.sky = a.sky ∧ d.excess = a.excess ∧ d.gain = a.gain ∧ d.binning = a.binning ∧
    d.tag = a.tag ∧ lenOf a.transmittance = .ok d.nWvl ∧ lenOfFirst a.dispersion = .ok d.nWvl := by
  unfold detector at h
  simp only [bind_ok_iff, require_ok_iff] at h
  obtain ⟨x, hx, t, ht, l, hl, -, hlt, h⟩ := h
  simp only [pure, Except.pure, Except.ok.injEq] at h
  subst h
  subst hlt
  exact ⟨rfl, rfl, hx, rfl, rfl, rfl, rfl, rfl, rfl, rfl, rfl, rfl, rfl, rfl, rfl, rfl, ht, hl⟩

/-- What a successful `sensor` call returns. -/
theorem sensor_fields {a : SensorArgs} {s : Sensor} (h : sensor a = .ok s) :
    s.wfstype = a.wfstype ∧ s.nWfs = a.nL.length ∧ s.tag = a.tag ∧ s.algorithm = a.algorithm ∧
    s.settings = a.algo_param ∧ s.noiseVar = a.noiseVar ∧ a.nL.length ≤ a.dsub.length ∧
    s.optics = List.zipWith (fun nL d => ⟨nL, d, 4, a.wfstype, a.modulation⟩) a.nL a.dsub ∧
    s.detector.length = a.nL.length ∧
    ∃ nph, photons a.nph a.nL.length = .ok nph ∧ ∀ k, ∀ hk : k < s.detector.length,
      ∃ hn : k < nph.length, detector
             { pixel_scale := a.pixel_scale, fov := a.fov, binning := a.binning,
               spotFWHM := a.spotFWHM, saturation := .inf, nph := nph[k],
               bandwidth := a.bandwidth, transmittance := a.transmittance,
               dispersion := a.dispersion, ron := a.ron, gain := a.gain, dark := a.dark,
               sky := a.sky, excess := a.excess, tag := .val (.str "DETECTOR") } = .ok s.detector[k] := by
  unfold sensor at h
  simp only [bind_ok_iff, require_ok_iff] at h
  obtain ⟨-, h1, nph, h2, ds, h3, h⟩ := h
  simp only [pure, Except.pure, Except.ok.injEq] at h
  subst h
  obtain ⟨e1, e2⟩ := mapM_ok _ _ _ h3
  refine ⟨rfl, rfl, rfl, rfl, rfl, rfl, h1, rfl, by simpa using e1, nph, h2, ?_⟩
  intro k hk
  have hk' : k < ds.length := hk
  have := e2 k (by rw [← e1]; exact hk) hk
  simp only [List.getElem_range, bind_ok_iff, require_ok_iff] at this
  obtain ⟨-, hn, hd⟩ := this
  refine ⟨hn, ?_⟩
  have e : nph.getD k .inf = nph[k] := by simp [hn]
  rw [e] at hd
  exact hd

theorem lstOpt_some {m : Map} {s o : String} {d l : List ℚ} (h : lstOpt m s o d = .ok l) :
    (∀ l', get m s o = some (.lst l') → l = l') ∧ (get m s o = none → l = d) := by
  unfold lstOpt at h
  constructor
  · intro l' e; rw [e] at h; simpa using h.symm
  · intro e; rw [e] at h; simpa using h.symm

/-- The flux of one detector: the entry of the list of the file when it is long enough, the number of the file for a
single sensor, infinite without the option or with `None`. -/
theorem photons_spec {m : Map} {s : String} {d : Arg} {n : ℕ} {l : List Arg} (hd : d = .inf ∨ d = .infs)
    (h : photons (opt m s "NumberPhotons" d) n = .ok l) :
    (∀ f, get m s "NumberPhotons" = some (.lst f) → n ≤ f.length → l = f.map num) ∧
    (∀ q, get m s "NumberPhotons" = some (.flt q) → n ≤ 1 → l = [num q]) ∧
    (get m s "NumberPhotons" = none ∨ get m s "NumberPhotons" = some .none → n ≤ 1 → l = [.inf]) := by
  unfold opt at h
  refine ⟨?_, ?_, ?_⟩
  · intro f e hn
    rw [e] at h
    simp only [photons, List.length_map, Except.ok.injEq] at h
    rw [if_neg (by omega)] at h
    exact h.symm
  · intro q e hn
    rw [e] at h
    simp only [photons, List.length_singleton, Except.ok.injEq] at h
    rw [if_neg (by omega)] at h
    exact h.symm
  · rintro (e | e) hn
    · rw [e] at h
      rcases hd with rfl | rfl <;>
      · simp only [photons, List.length_singleton, Except.ok.injEq] at h
        rw [if_neg (by omega)] at h
        exact h.symm
    · rw [e] at h
      simp only [photons, List.length_singleton, Except.ok.injEq] at h
      rw [if_neg (by omega)] at h
      exact h.symm

/-- The flux the detectors of a section hold. -/
def FluxCarried (m : Map) (s : String) (S : Sensor) : Prop :=
  (∀ f, get m s "NumberPhotons" = some (.lst f) → S.nWfs ≤ f.length →
    ∀ k, ∀ hk : k < S.detector.length, ∀ hf : k < f.length, S.detector[k].nph = num f[k]) ∧
  (∀ q, get m s "NumberPhotons" = some (.flt q) → S.nWfs ≤ 1 → ∀ d ∈ S.detector, d.nph = num q) ∧
  (get m s "NumberPhotons" = none ∨ get m s "NumberPhotons" = some .none → S.nWfs ≤ 1 → ∀ d ∈ S.detector, d.nph = .inf)

theorem flux_of {m : Map} {s : String} {d : Arg} {a : SensorArgs} {S : Sensor} (hd : d = .inf ∨ d = .infs)
    (ha : a.nph = opt m s "NumberPhotons" d) (h : sensor a = .ok S) : FluxCarried m s S := by
  obtain ⟨-, hn, -, -, -, -, -, -, hl, nph, hp, hk⟩ := sensor_fields h
  rw [ha] at hp
  obtain ⟨p1, p2, p3⟩ := photons_spec hd hp
  refine ⟨?_, ?_, ?_⟩
  · intro f e hf k hkk hkf
    obtain ⟨hn', hdet⟩ := hk k hkk
    have e1 := p1 f e (by omega)
    subst e1
    have := (detector_fields hdet).2.2.2.2.2.2.2.2.1
    rw [this]; simp
  · intro q e hf x hx
    have e1 := p2 q e (by omega)
    subst e1
    obtain ⟨k, hkk, rfl⟩ := List.mem_iff_getElem.mp hx
    obtain ⟨hn', hdet⟩ := hk k hkk
    have := (detector_fields hdet).2.2.2.2.2.2.2.2.1
    rw [this]; simp
  · intro e hf x hx
    have e1 := p3 e (by omega)
    subst e1
    obtain ⟨k, hkk, rfl⟩ := List.mem_iff_getElem.mp hx
    obtain ⟨hn', hdet⟩ := hk k hkk
    have := (detector_fields hdet).2.2.2.2.2.2.2.2.1
    rw [this]; simp

/-- The detectors of a sensor built from the options of a section. -/
theorem detectors_of {m : Map} {s : String} {a : SensorArgs} {S : Sensor} (spots : Arg)
    (h : sensor a = .ok S)
    (h1 : a.pixel_scale = opt m s "PixelScale" (.val .none)) (h2 : a.binning = opt m s "Binning" (.val (.int 1)))
    (h3 : a.spotFWHM = opt m s "SpotFWHM" spots) (h4 : a.bandwidth = opt m s "SpectralBandwidth" (num 0))
    (h5 : a.transmittance = opt m s "Transmittance" (.val (.lst [1])))
    (h6 : a.dispersion = opt m s "Dispersion" (.val (.mat [[0], [0]])))
    (h7 : a.ron = opt m s "SigmaRON" (num 0)) (h8 : a.gain = opt m s "Gain" (.val (.int 1)))
    (h9 : a.dark = opt m s "Dark" (num 0)) (h10 : a.sky = opt m s "SkyBackground" (num 0))
    (h11 : a.excess = opt m s "ExcessNoiseFactor" (num 1)) (h12 : a.fov = opt m s "FieldOfView" (.val .none)) :
    ∀ d ∈ S.detector, DetectorCarries m s spots d ∧ Carries m s "FieldOfView" (.val .none) d.fovInPix ∧
      FieldInArcsec d.psInMas d.fovInPix d.fovInArcsec := by
  intro d hd
  obtain ⟨-, -, -, -, -, -, -, -, -, nph, -, hk⟩ := sensor_fields h
  obtain ⟨k, hkk, rfl⟩ := List.mem_iff_getElem.mp hd
  obtain ⟨hn', hdet⟩ := hk k hkk
  obtain ⟨e1, e2, e3, e4, -, e6, e7, e8, -, e10, e11, e12, e13, e14, e15, -, -, -⟩ := detector_fields hdet
  refine ⟨⟨?_, ?_, ?_, ?_, ?_, ?_, ?_, ?_, ?_, ?_, ?_⟩, ?_, ?_⟩
  · rw [e1]; exact h1 ▸ opt_carries m s _ _
  · rw [e15]; exact h2 ▸ opt_carries m s _ _
  · rw [e4]; exact h3 ▸ opt_carries m s _ _
  · rw [e6]; exact h4 ▸ opt_carries m s _ _
  · rw [e7]; exact h5 ▸ opt_carries m s _ _
  · rw [e8]; exact h6 ▸ opt_carries m s _ _
  · rw [e10]; exact h7 ▸ opt_carries m s _ _
  · rw [e14]; exact h8 ▸ opt_carries m s _ _
  · rw [e11]; exact h9 ▸ opt_carries m s _ _
  · rw [e12]; exact h10 ▸ opt_carries m s _ _
  · rw [e13]; exact h11 ▸ opt_carries m s _ _
  · rw [e2]; exact h12 ▸ opt_carries m s _ _
  · rw [e1, e2]; exact fovArcsec_spec e3

/-- The optics of a sensor. -/
theorem optics_of {a : SensorArgs} {S : Sensor} (h : sensor a = .ok S) :
    S.optics.length = S.nWfs ∧ ∀ k, ∀ hk : k < S.optics.length,
      a.nL[k]? = some S.optics[k].nL ∧ a.dsub[k]? = some S.optics[k].dsub ∧
      S.optics[k].wfstype = a.wfstype ∧ S.optics[k].modulation = a.modulation := by
  obtain ⟨-, hn, -, -, -, -, hle, ho, -, -⟩ := sensor_fields h
  have hlen : S.optics.length = S.nWfs := by rw [ho, hn, List.length_zipWith]; omega
  refine ⟨hlen, ?_⟩
  intro k hk
  have h1 : k < a.nL.length := by omega
  have h2 : k < a.dsub.length := by omega
  have e : S.optics[k] = ⟨a.nL[k], a.dsub[k], 4, a.wfstype, a.modulation⟩ := by
    simp [ho]
  rw [e]
  exact ⟨by simp [h1], by simp [h2], rfl, rfl⟩

/-! ### C461: high-order sensor -/

/-- C461: every option of the high-order section reaches the attribute of the sensor that bears its meaning, unaltered,
and an option that is left out has a fixed default; the sizes of the lenslets are by default the diameter divided by
their number. -/
theorem ho_options {m : Map} {S : Sensor} (h : hoSensor m = .ok S) :
    (∀ d ∈ S.detector, DetectorCarries m "sensor_HO" (.val (.mat [[0, 0]])) d ∧
      Carries m "sensor_HO" "FieldOfView" (.val .none) d.fovInPix ∧
      FieldInArcsec d.psInMas d.fovInPix d.fovInArcsec) ∧
    FluxCarried m "sensor_HO" S ∧
    S.detector.length = S.nWfs ∧ S.optics.length = S.nWfs ∧
    (∀ l, get m "sensor_HO" "NumberLenslets" = some (.lst l) → S.nWfs = l.length) ∧
    (get m "sensor_HO" "NumberLenslets" = none → S.nWfs = 1 ∧ ∀ o ∈ S.optics, o.nL = 20) ∧
    (∀ k, ∀ hk : k < S.optics.length,
      EntryOf m "sensor_HO" "NumberLenslets" k S.optics[k].nL ∧
      EntryOf m "sensor_HO" "SizeLenslets" k S.optics[k].dsub ∧
      (get m "sensor_HO" "SizeLenslets" = none →
        ∃ D, diameter m = .ok D ∧ S.optics[k].dsub = D / S.optics[k].nL) ∧
      Carries m "sensor_HO" "WfsType" (.val (.str "Shack-Hartmann")) S.optics[k].wfstype ∧
      Carries m "sensor_HO" "Modulation" (.val .none) S.optics[k].modulation) ∧
    Carries m "sensor_HO" "WfsType" (.val (.str "Shack-Hartmann")) S.wfstype ∧
    Carries m "sensor_HO" "NoiseVariance" .nones S.noiseVar ∧
    Carries m "sensor_HO" "Algorithm" (.val (.str "wcog")) S.algorithm ∧
    ∃ wr thr nv, S.settings = [wr, thr, nv] ∧ Carries m "sensor_HO" "WindowRadiusWCoG" (num 5) wr ∧
      Carries m "sensor_HO" "ThresholdWCoG" (num 0) thr ∧ Carries m "sensor_HO" "NewValueThrPix" (num 0) nv := by
  unfold hoSensor at h
  simp only [bind_ok_iff, require_ok_iff] at h
  obtain ⟨D, hD, -, -, -, -, -, -, nL, hnL, dsub, hdsub, h⟩ := h
  obtain ⟨f1, f2, f3, f4, f5, f6, f7, f8, f9, -⟩ := sensor_fields h
  obtain ⟨o1, o2⟩ := optics_of h
  obtain ⟨l1, l2⟩ := lstOpt_some hnL
  obtain ⟨s1, s2⟩ := lstOpt_some hdsub
  refine ⟨detectors_of _ h rfl rfl rfl rfl rfl rfl rfl rfl rfl rfl rfl rfl, flux_of (.inr rfl) rfl h,
    by rw [f9, f2], o1, ?_, ?_, ?_, ?_, ?_, ?_, _, _, _, f5, opt_carries _ _ _ _, opt_carries _ _ _ _,
    opt_carries _ _ _ _⟩
  · intro l e; rw [f2]; exact congrArg _ (l1 l e)
  · intro e
    have e1 := l2 e
    subst e1
    refine ⟨f2, ?_⟩
    intro o ho
    obtain ⟨k, hk, rfl⟩ := List.mem_iff_getElem.mp ho
    have hk0 : k = 0 := by rw [o1, f2] at hk; simpa using hk
    subst hk0
    simpa using (o2 0 hk).1.symm
  · intro k hk
    obtain ⟨p1, p2, p3, p4⟩ := o2 k hk
    refine ⟨?_, ?_, ?_, ?_, ?_⟩
    · intro l e; rw [← l1 l e]; exact p1
    · intro l e; rw [← s1 l e]; exact p2
    · intro e
      refine ⟨D, hD, ?_⟩
      have e1 := s2 e
      simp only at p1 p2
      rw [e1, List.getElem?_map, p1] at p2
      simpa using p2.symm
    · rw [p3]; exact opt_carries _ _ _ _
    · rw [p4]; exact opt_carries _ _ _ _
  · rw [f1]; exact opt_carries _ _ _ _
  · rw [f6]; exact opt_carries _ _ _ _
  · rw [f4]; exact opt_carries _ _ _ _

theorem photons_length {m : Map} {s : String} {d : Arg} {n : ℕ} {l : List Arg} (hd : d = .inf ∨ d = .infs)
    (h : photons (opt m s "NumberPhotons" d) n = .ok l) :
    nphLen (get m s "NumberPhotons") n = .ok l.length := by
  have pad : ∀ l : List Arg, (if l.length < n then l ++ [Arg.val (.lst (List.replicate (n - l.length) 0))]
      else l).length = if l.length < n then l.length + 1 else l.length := by
    intro l; split <;> simp
  unfold opt at h
  cases e : get m s "NumberPhotons" with
  | none =>
    rw [e] at h
    rcases hd with rfl | rfl <;>
    · simp only [photons, Except.ok.injEq] at h
      rw [← h, pad]; rfl
  | some v =>
    rw [e] at h
    cases v with
    | int z => cases h
    | str z => cases h
    | mat z => cases h
    | flt q => simp only [photons, Except.ok.injEq] at h; rw [← h, pad]; rfl
    | none => simp only [photons, Except.ok.injEq] at h; rw [← h, pad]; rfl
    | lst l => simp only [photons, Except.ok.injEq] at h; rw [← h, pad]; simp [nphLen]

theorem spectral_of {m : Map} {s : String} {n : ℕ}
    (h1 : lenOf (opt m s "Transmittance" (.val (.lst [1]))) = .ok n)
    (h2 : lenOfFirst (opt m s "Dispersion" (.val (.mat [[0], [0]]))) = .ok n) :
    spectralCheck m s = .ok () := by
  unfold spectralCheck
  simp only [bind_ok_iff, require_ok_iff]
  have e1 : ∃ l, lstOpt m s "Transmittance" [1] = .ok l ∧ l.length = n := by
    unfold opt at h1
    unfold lstOpt
    cases e : get m s "Transmittance" with
    | none => rw [e] at h1; exact ⟨_, rfl, by simpa [lenOf] using h1⟩
    | some v =>
      rw [e] at h1
      cases v with
      | int z => simp [lenOf] at h1
      | str z => simp [lenOf] at h1
      | flt z => simp [lenOf] at h1
      | none => simp [lenOf] at h1
      | mat l => simp [lenOf] at h1
      | lst l => exact ⟨_, rfl, by simpa [lenOf] using h1⟩
  obtain ⟨l, hl, hln⟩ := e1
  refine ⟨l, hl, n, ?_, hln.symm⟩
  unfold opt at h2
  cases e : get m s "Dispersion" with
  | none => rw [e] at h2; simpa [lenOfFirst] using h2
  | some v =>
    rw [e] at h2
    cases v with
    | int z => simp [lenOfFirst] at h2
    | str z => simp [lenOfFirst] at h2
    | flt z => simp [lenOfFirst] at h2
    | none => simp [lenOfFirst] at h2
    | lst l => cases l <;> simp [lenOfFirst] at h2
    | mat l =>
      cases l with
      | nil => simp [lenOfFirst] at h2
      | cons r l => simpa [lenOfFirst] using h2

/-- The sensor of this model passes the checks of the model of the constructor (`Verif/Model/Config.lean`), with the
same number of wavefront sensors. -/
theorem ho_refines {m : Map} {S : Sensor} (h : hoSensor m = .ok S) :
    wfsStage m "sensor_HO" [20] true = .ok S.nWfs := by
  unfold hoSensor at h
  simp only [bind_ok_iff, require_ok_iff] at h
  obtain ⟨D, hD, -, -, -, g1, -, g2, nL, hnL, dsub, hdsub, h⟩ := h
  obtain ⟨f1, f2, f3, f4, f5, f6, f7, f8, f9, nph, hp, hk⟩ := sensor_fields h
  have hd' : ∃ l, lstOpt m "sensor_HO" "SizeLenslets" nL = .ok l ∧ nL.length ≤ l.length := by
    unfold lstOpt at hdsub ⊢
    cases e : get m "sensor_HO" "SizeLenslets" with
    | none => exact ⟨_, rfl, le_rfl⟩
    | some v =>
      rw [e] at hdsub
      cases v <;> simp at hdsub ⊢
      subst hdsub; exact f7
  obtain ⟨l, hl, hll⟩ := hd'
  unfold wfsStage
  simp only [bind_ok_iff, require_ok_iff, if_true]
  refine ⟨(), g1, (), g2, nL, hnL, l, hl, (), hll, _, photons_length (.inr rfl) hp, ?_⟩
  by_cases h0 : nL.length = 0
  · rw [if_pos h0, f2]
    exact congrArg _ h0.symm
  · rw [if_neg h0]
    have hpos : 0 < S.detector.length := by rw [f9]; exact Nat.pos_of_ne_zero h0
    obtain ⟨hn0, hdet⟩ := hk 0 hpos
    obtain ⟨-, -, -, -, -, -, -, -, -, -, -, -, -, -, -, -, e1, e2⟩ := detector_fields hdet
    simp only [bind_ok_iff, require_ok_iff]
    refine ⟨(), spectral_of e1 e2, (), ?_, by rw [f2]; rfl⟩
    have hlast : nL.length - 1 < S.detector.length := by rw [f9]; exact Nat.sub_lt (Nat.pos_of_ne_zero h0) one_pos
    obtain ⟨hn, hdet'⟩ := hk _ hlast
    omega

/-! ### C462: low-order sensor -/

/-- C462 (partial): every option of the low-order section reaches the sensor, except the four of the next theorem;
`'optimize'` stands for a window radius of 1. -/
theorem lo_options_partial {m : Map} {S : Sensor} (h : loSensor m = .ok S) :
    (∀ d ∈ S.detector, DetectorCarries m "sensor_LO" (.val (.mat [[0, 0]])) d ∧
      Carries m "sensor_LO" "FieldOfView" (.val .none) d.fovInPix ∧
      FieldInArcsec d.psInMas d.fovInPix d.fovInArcsec) ∧
    FluxCarried m "sensor_LO" S ∧
    S.detector.length = S.nWfs ∧ S.optics.length = S.nWfs ∧
    (∀ l, get m "sensor_LO" "NumberLenslets" = some (.lst l) → S.nWfs = l.length) ∧
    (get m "sensor_LO" "NumberLenslets" = none → S.nWfs = 1 ∧ ∀ o ∈ S.optics, o.nL = 1) ∧
    (∀ k, ∀ hk : k < S.optics.length, EntryOf m "sensor_LO" "NumberLenslets" k S.optics[k].nL) ∧
    Carries m "sensor_LO" "NoiseVariance" .nones S.noiseVar ∧
    Carries m "sensor_LO" "Algorithm" (.val (.str "wcog")) S.algorithm ∧
    ∃ wr thr nv, S.settings = [wr, thr, nv] ∧
      (get m "sensor_LO" "WindowRadiusWCoG" = some (.str "optimize") → wr = num 1) ∧
      (get m "sensor_LO" "WindowRadiusWCoG" ≠ some (.str "optimize") →
        Carries m "sensor_LO" "WindowRadiusWCoG" (num 1) wr) ∧
      Carries m "sensor_LO" "NewValueThrPix" (num 0) nv := by
  unfold loSensor at h
  simp only [bind_ok_iff, require_ok_iff] at h
  obtain ⟨D, hD, -, -, -, -, nL, hnL, h⟩ := h
  obtain ⟨f1, f2, f3, f4, f5, f6, f7, f8, f9, -⟩ := sensor_fields h
  obtain ⟨o1, o2⟩ := optics_of h
  obtain ⟨l1, l2⟩ := lstOpt_some hnL
  refine ⟨detectors_of _ h rfl rfl rfl rfl rfl rfl rfl rfl rfl rfl rfl rfl, flux_of (.inl rfl) rfl h,
    by rw [f9, f2], o1, ?_, ?_, ?_, ?_, ?_, _, _, _, f5, ?_, ?_, opt_carries _ _ _ _⟩
  · intro l e; rw [f2]; exact congrArg _ (l1 l e)
  · intro e
    have e1 := l2 e
    subst e1
    refine ⟨f2, ?_⟩
    intro o ho
    obtain ⟨k, hk, rfl⟩ := List.mem_iff_getElem.mp ho
    have hk0 : k = 0 := by rw [o1, f2] at hk; simpa using hk
    subst hk0
    simpa using (o2 0 hk).1.symm
  · intro k hk l e
    rw [← l1 l e]; exact (o2 k hk).1
  · rw [f6]; exact opt_carries _ _ _ _
  · rw [f4]; exact opt_carries _ _ _ _
  · intro e; simp [loWindow, opt, e]
  · intro e
    constructor
    · intro v hv
      cases v <;> simp only [loWindow, opt, hv]
      rename_i t
      rw [if_pos]
      rintro rfl
      exact e hv
    · intro hv; simp [loWindow, opt, hv, num]

/-- C462 (violation): the size of the lenslets, the type of the sensor, the modulation and the threshold written in the
low-order section have no effect: two files that differ by these only build the same sensor, which is a
Shack-Hartmann with lenslets of the diameter divided by their number. -/
theorem lo_ignored_violation {m m' : Map} (hD : get m "telescope" "TelescopeDiameter" = get m' "telescope" "TelescopeDiameter")
    (hag : AgreeExcept m m' "sensor_LO" ["SizeLenslets", "WfsType", "Modulation", "ThresholdWCoG"]) :
    loSensor m = loSensor m' ∧
    ∀ S, loSensor m = .ok S → S.wfstype = .val (.str "Shack-Hartmann") ∧
      ∀ o ∈ S.optics, o.modulation = .val .none ∧ ∃ D, diameter m = .ok D ∧ o.dsub = D / o.nL := by
  have g : ∀ o, o ∉ ["SizeLenslets", "WfsType", "Modulation", "ThresholdWCoG"] → get m "sensor_LO" o = get m' "sensor_LO" o := hag
  constructor
  · unfold loSensor diameter numOpt lstOpt loWindow opt
    rw [hD]
    simp only [g "PixelScale" (by decide), g "FieldOfView" (by decide), g "Binning" (by decide),
      g "SpotFWHM" (by decide), g "NumberPhotons" (by decide), g "Gain" (by decide), g "SigmaRON" (by decide),
      g "SkyBackground" (by decide), g "Dark" (by decide), g "ExcessNoiseFactor" (by decide),
      g "SpectralBandwidth" (by decide), g "Transmittance" (by decide), g "Dispersion" (by decide),
      g "NumberLenslets" (by decide), g "NoiseVariance" (by decide), g "Algorithm" (by decide),
      g "WindowRadiusWCoG" (by decide), g "ThresholdWCoG = 0.0" (by decide), g "NewValueThrPix" (by decide)]
  · intro S h
    unfold loSensor at h
    simp only [bind_ok_iff, require_ok_iff] at h
    obtain ⟨D, hD, -, -, -, -, nL, hnL, h⟩ := h
    obtain ⟨f1, -⟩ := sensor_fields h
    obtain ⟨o1, o2⟩ := optics_of h
    refine ⟨f1, ?_⟩
    intro o ho
    obtain ⟨k, hk, rfl⟩ := List.mem_iff_getElem.mp ho
    obtain ⟨p1, p2, p3, p4⟩ := o2 k hk
    refine ⟨p4, D, hD, ?_⟩
    simp only at p1 p2
    rw [List.getElem?_map, p1] at p2
    simpa using p2.symm

/-! ### C463: science camera -/

/-- C463: every option of the science section reaches the camera, with its default when it is left out; the field of
view is the one settled by the constructor. -/
theorem camera_options {m : Map} {f : ℤ} {d : Detector} (h : camera m f = .ok d) :
    DetectorCarries m "sensor_science" (.val (.mat [[0, 0, 0]])) d ∧
    d.fovInPix = .val (.int f) ∧
    (∀ q, get m "sensor_science" "PixelScale" = some (.flt q) → d.fovInArcsec = [q * f / 1000]) ∧
    Carries m "sensor_science" "NumberPhotons" .inf d.nph ∧
    Carries m "sensor_science" "Saturation" .inf d.saturation ∧
    Carries m "sensor_science" "Name" (.val (.str "SCIENCE CAM")) d.tag ∧
    (∀ l, get m "sensor_science" "Transmittance" = some (.lst l) → d.nWvl = l.length) := by
  unfold camera at h
  simp only [bind_ok_iff, require_ok_iff] at h
  obtain ⟨-, -, -, -, h⟩ := h
  obtain ⟨e1, e2, e3, e4, e5, e6, e7, e8, e9, e10, e11, e12, e13, e14, e15, e16, e17, e18⟩ := detector_fields h
  refine ⟨⟨?_, ?_, ?_, ?_, ?_, ?_, ?_, ?_, ?_, ?_, ?_⟩, e2, ?_, ?_, ?_, ?_, ?_⟩
  · rw [e1]; exact opt_carries _ _ _ _
  · rw [e15]; exact opt_carries _ _ _ _
  · rw [e4]; exact opt_carries _ _ _ _
  · rw [e6]; exact opt_carries _ _ _ _
  · rw [e7]; exact opt_carries _ _ _ _
  · rw [e8]; exact opt_carries _ _ _ _
  · rw [e10]; exact opt_carries _ _ _ _
  · rw [e14]; exact opt_carries _ _ _ _
  · rw [e11]; exact opt_carries _ _ _ _
  · rw [e12]; exact opt_carries _ _ _ _
  · rw [e13]; exact opt_carries _ _ _ _
  · intro q hq
    simp only [opt, hq] at e3
    simpa [fovArcsec, scalarOrList, bind, Except.bind, pure, Except.pure] using e3.symm
  · rw [e9]; exact opt_carries _ _ _ _
  · rw [e5]; exact opt_carries _ _ _ _
  · rw [e16]; exact opt_carries _ _ _ _
  · intro l hl
    simp only [opt, hl] at e17
    simpa [lenOf] using e17.symm

/-! ### C464: telescope and atmosphere -/

/-- C464: every option of the telescope section reaches the telescope (or the system), with its default; the paths are
resolved; the extra error of the low-order stars is by default that of the science targets in size and exponent. -/
theorem telescope_options {env : Env} {m : Map} {T : Telescope} (h : telescope env m = .ok T) :
    (∃ v, get m "telescope" "TelescopeDiameter" = some v ∧ T.D = .val v) ∧
    Carries m "telescope" "ZenithAngle" (num 0) T.zenith_angle ∧
    Carries m "telescope" "ObscurationRatio" (num 0) T.obsRatio ∧
    Carries m "telescope" "Resolution" (.val (.int 256)) T.resolution ∧
    Carries m "telescope" "PupilAngle" (num 0) T.pupilAngle ∧
    Carries m "telescope" "zCoefStaticOn" (.val (.lst [])) T.zcoef_static_on ∧
    Carries m "telescope" "extraErrorNm" (.val (.int 0)) T.extraErrorNm ∧
    Carries m "telescope" "extraErrorExp" (.val (.int (-2))) T.extraErrorExp ∧
    Carries m "telescope" "extraErrorMin" (.val (.int 0)) T.extraErrorMin ∧
    Carries m "telescope" "extraErrorMax" (.val (.int 0)) T.extraErrorMax ∧
    Carries m "telescope" "extraErrorLoNm" T.extraErrorNm T.extraErrorLoNm ∧
    Carries m "telescope" "extraErrorLoExp" T.extraErrorExp T.extraErrorLoExp ∧
    Carries m "telescope" "extraErrorLoMin" (.val (.int 0)) T.extraErrorLoMin ∧
    Carries m "telescope" "extraErrorLoMax" (.val (.int 0)) T.extraErrorLoMax ∧
    Carries m "telescope" "TechnicalFoV" (.val (.int 0)) T.technicalFoV ∧
    CarriesPath env m "PathPupil" (some []) T.path_pupil ∧
    CarriesPath env m "PathStaticOn" none T.path_static_on ∧
    CarriesPath env m "PathStaticOff" none T.path_static_off ∧
    CarriesPath env m "PathStaticPos" none T.path_static_pos ∧
    CarriesPath env m "PathApodizer" (some []) T.path_apodizer ∧
    CarriesPath env m "PathStatModes" (some []) T.path_statModes ∧
    CarriesPath env m "windPsdFile" none T.windPsdFile := by
  unfold telescope at h
  simp only [bind_ok_iff] at h
  obtain ⟨z, hz, h⟩ := h
  simp only [pure, Except.pure, Except.ok.injEq] at h
  subst h
  have hD : (get m "telescope" "TelescopeDiameter").isSome = true := by
    unfold telescopeStage at hz
    simp only [bind_ok_iff, require_ok_iff] at hz
    obtain ⟨-, -, -, hD, -⟩ := hz
    exact hD
  obtain ⟨v, hv⟩ := Option.isSome_iff_exists.mp hD
  refine ⟨⟨v, hv, by simp [opt, hv]⟩, ?_⟩
  refine ⟨?_, ?_, ?_, ?_, ?_, ?_, ?_, ?_, ?_, ?_, ?_, ?_, ?_, ?_, ?_, ?_, ?_, ?_, ?_, ?_, ?_⟩ <;>
    first | exact opt_carries _ _ _ _ | exact path_carries _ _ _ _

/-- C464: the options of the atmosphere section reach the atmosphere; the wind blows by default along the first axis in
every layer. -/
theorem atmosphere_options {m : Map} {A : Atmosphere} (h : atmosphere m = .ok A) :
    Carries m "atmosphere" "Wavelength" (num (1/2000000)) A.wvl ∧
    Carries m "atmosphere" "L0" (.val (.int 25)) A.L0 ∧
    Carries m "atmosphere" "Cn2Weights" (.val (.lst [1])) A.weights ∧
    Carries m "atmosphere" "WindSpeed" (.val (.lst [10])) A.wSpeed ∧
    (∀ v, get m "atmosphere" "WindDirection" = some v → A.wDir = .val v) ∧
    (get m "atmosphere" "WindDirection" = none →
      ∃ l, A.wSpeed = .val (.lst l) ∧ A.wDir = .val (.lst (List.replicate l.length 0))) := by
  unfold atmosphere at h
  simp only [bind_ok_iff] at h
  obtain ⟨p, hp, h⟩ := h
  simp only [pure, Except.pure, Except.ok.injEq] at h
  subst h
  unfold atmosphereStage at hp
  simp only [bind_ok_iff, require_ok_iff] at hp
  obtain ⟨-, -, q, -, hp⟩ := hp
  have core : ∃ w v d, lstOpt m "atmosphere" "Cn2Weights" [1] = .ok w ∧ lstOpt m "atmosphere" "WindSpeed" [10] = .ok v ∧
      lstOpt m "atmosphere" "WindDirection" (v.map (· * 0)) = .ok d ∧ p.weights = w ∧ p.wSpeed = v ∧ p.wDir = d := by
    cases e : get m "atmosphere" "Seeing" with
    | none =>
      rw [e] at hp
      simp only [bind_ok_iff, require_ok_iff] at hp
      obtain ⟨-, -, w, hw, -, -, hh, -, v, hv, d, hd, -, -, hp⟩ := hp
      simp only [pure, Except.pure, Except.ok.injEq] at hp
      subst hp
      exact ⟨w, v, d, hw, hv, hd, rfl, rfl, rfl⟩
    | some x =>
      rw [e] at hp
      simp only [bind_ok_iff, require_ok_iff] at hp
      obtain ⟨s, -, -, -, w, hw, -, -, hh, -, v, hv, d, hd, -, -, hp⟩ := hp
      simp only [pure, Except.pure, Except.ok.injEq] at hp
      subst hp
      exact ⟨w, v, d, hw, hv, hd, rfl, rfl, rfl⟩
  obtain ⟨w, v, d, hw, hv, hd, e1, e2, e3⟩ := core
  simp only [e1, e2, e3]
  have key : ∀ {o : String} {d l : List ℚ}, lstOpt m "atmosphere" o d = .ok l →
      Carries m "atmosphere" o (.val (.lst d)) (.val (.lst l)) := by
    intro o d l hl
    unfold lstOpt at hl
    constructor
    · intro v e
      rw [e] at hl
      cases v <;> simp at hl
      rw [hl]
    · intro e
      rw [e] at hl
      simp at hl
      rw [hl]
  refine ⟨opt_carries _ _ _ _, opt_carries _ _ _ _, key hw, key hv, (key hd).1, ?_⟩
  intro e
  refine ⟨v, rfl, ?_⟩
  have := (key hd).2 e
  rw [this]
  congr 2
  apply List.ext_getElem <;> simp

/-! ### C465: loops and mirrors -/

/-- C465: the options of the loops reach the real-time computer, and there is a tip-tilt loop exactly when its gain,
rate and delay are all given (a gain to be optimised is not given). -/
theorem rtc_options (m : Map) :
    Carries m "RTC" "LoopGain_HO" (num (1/2)) (rtc m).holoop.gain ∧
    Carries m "RTC" "SensorFrameRate_HO" (num 500) (rtc m).holoop.rate ∧
    Carries m "RTC" "LoopDelaySteps_HO" (.val (.int 2)) (rtc m).holoop.delay ∧
    Carries m "RTC" "ResidualError" (.val .none) (rtc m).wfe ∧
    (∀ l, (rtc m).ttloop = some l ↔
      ∃ g r d, get m "RTC" "LoopGain_LO" = some g ∧ g ≠ .none ∧ g ≠ .str "optimize" ∧
        get m "RTC" "SensorFrameRate_LO" = some r ∧ r ≠ .none ∧
        get m "RTC" "LoopDelaySteps_LO" = some d ∧ d ≠ .none ∧ l = ⟨.val g, .val r, .val d⟩) := by
  refine ⟨opt_carries _ _ _ _, opt_carries _ _ _ _, opt_carries _ _ _ _, opt_carries _ _ _ _, ?_⟩
  intro l
  have hg : ∀ g, loGain m = .val g ∧ g ≠ .none ↔
      get m "RTC" "LoopGain_LO" = some g ∧ g ≠ .none ∧ g ≠ .str "optimize" := by
    intro g
    unfold loGain opt
    cases e : get m "RTC" "LoopGain_LO" with
    | none => constructor <;> rintro ⟨h1, h2⟩ <;> simp_all
    | some v =>
      cases v with
      | str t =>
        by_cases ht : t = "optimize"
        · subst ht; constructor
          · rintro ⟨h1, h2⟩; simp at h1; exact absurd h1.symm h2
          · rintro ⟨h1, h2, h3⟩; simp at h1; exact absurd h1.symm h3
        · simp only [ne_eq, ht, not_false_eq_true, if_true, Arg.val.injEq, Option.some.injEq]
          constructor
          · rintro ⟨rfl, h2⟩; exact ⟨rfl, h2, by simpa using ht⟩
          · rintro ⟨rfl, h2, -⟩; exact ⟨rfl, h2⟩
      | int z => simp only [Arg.val.injEq, Option.some.injEq]; constructor <;> rintro ⟨rfl, _⟩ <;> simp
      | flt z => simp only [Arg.val.injEq, Option.some.injEq]; constructor <;> rintro ⟨rfl, _⟩ <;> simp
      | lst z => simp only [Arg.val.injEq, Option.some.injEq]; constructor <;> rintro ⟨rfl, _⟩ <;> simp
      | mat z => simp only [Arg.val.injEq, Option.some.injEq]; constructor <;> rintro ⟨rfl, _⟩ <;> simp
      | none => simp only [Arg.val.injEq, Option.some.injEq]; constructor <;> rintro ⟨rfl, h⟩ <;> simp at h
  have hloGain : ∃ g, loGain m = .val g := by
    unfold loGain opt
    cases e : get m "RTC" "LoopGain_LO" with
    | none => exact ⟨_, rfl⟩
    | some v =>
      cases v with
      | str t => by_cases ht : t ≠ "optimize" <;> simp [ht]
      | int z => exact ⟨_, rfl⟩
      | flt z => exact ⟨_, rfl⟩
      | lst z => exact ⟨_, rfl⟩
      | mat z => exact ⟨_, rfl⟩
      | none => exact ⟨_, rfl⟩
  have ho : ∀ o, ∀ v, v ≠ Val.none → (opt m "RTC" o (.val .none) = .val v ↔ get m "RTC" o = some v) := by
    intro o v hv
    unfold opt
    cases e : get m "RTC" o with
    | none => simp [Ne.symm hv]
    | some w => simp
  have hoe : ∀ o, ∃ v, opt m "RTC" o (.val .none) = .val v := by
    intro o
    unfold opt
    cases e : get m "RTC" o with
    | none => exact ⟨_, rfl⟩
    | some w => exact ⟨_, rfl⟩
  simp only [rtc]
  constructor
  · intro h
    split at h
    · rename_i hc
      obtain ⟨c1, c2, c3⟩ := hc
      obtain ⟨g, eg⟩ := hloGain
      obtain ⟨r, er⟩ := hoe "SensorFrameRate_LO"
      obtain ⟨d, ed⟩ := hoe "LoopDelaySteps_LO"
      rw [eg] at c1 h
      rw [er] at c2 h
      rw [ed] at c3 h
      have n1 : g ≠ .none := fun e => c1 (by rw [e])
      have n2 : r ≠ .none := fun e => c2 (by rw [e])
      have n3 : d ≠ .none := fun e => c3 (by rw [e])
      obtain ⟨a1, a2, a3⟩ := (hg g).mp ⟨eg, n1⟩
      exact ⟨g, r, d, a1, a2, a3, (ho _ r n2).mp er, n2, (ho _ d n3).mp ed, n3, by simpa using h.symm⟩
    · cases h
  · rintro ⟨g, r, d, a1, a2, a3, b1, b2, c1, c2, rfl⟩
    have e1 := ((hg g).mpr ⟨a1, a2, a3⟩).1
    have e2 := (ho _ r b2).mpr b1
    have e3 := (ho _ d c2).mpr c1
    rw [e1, e2, e3, if_pos]
    simp [a2, b2, c2]

/-- C465: the options of the mirrors reach them. -/
theorem mirrors_options {m : Map} {M : Mirrors} (h : mirrors m = .ok M) :
    Carries m "DM" "InfModel" (.val (.str "gaussian")) M.modes ∧
    Carries m "DM" "NumberReconstructedLayers" (.val (.int 10)) M.nRecLayers ∧
    Carries m "DM" "OptimizationConditioning" (num 100) M.opt_cond ∧
    Carries m "DM" "AoArea" (.val (.str "circle")) M.aoArea ∧
    Carries m "DM" "OptimizationZenith" (.val (.lst [0])) (.val (.lst M.opt_zenith)) ∧
    Carries m "DM" "OptimizationAzimuth" (.val (.lst [0])) (.val (.lst M.opt_azimuth)) ∧
    Carries m "DM" "OptimizationWeight" (.val (.lst [0])) (.val (.lst M.opt_weights)) ∧
    M.opt_zenith.length = M.opt_weights.length ∧ M.opt_azimuth.length = M.opt_weights.length := by
  unfold mirrors at h
  simp only [bind_ok_iff] at h
  obtain ⟨p, hp, w, hw, a, ha, z, hz, h⟩ := h
  simp only [pure, Except.pure, Except.ok.injEq] at h
  subst h
  have key : ∀ {o : String} {d l : List ℚ}, lstOpt m "DM" o d = .ok l →
      Carries m "DM" o (.val (.lst d)) (.val (.lst l)) := by
    intro o d l hl
    unfold lstOpt at hl
    constructor
    · intro v e
      rw [e] at hl
      cases v <;> simp at hl
      rw [hl]
    · intro e
      rw [e] at hl
      simp at hl
      rw [hl]
  refine ⟨opt_carries _ _ _ _, opt_carries _ _ _ _, opt_carries _ _ _ _, opt_carries _ _ _ _, key hz, key ha,
    key hw, ?_⟩
  unfold dmStage at hp
  simp only [bind_ok_iff, require_ok_iff] at hp
  obtain ⟨-, -, -, -, q, -, -, -, hgt, -, nA, -, c, -, w', hw', a', ha', z', hz', -, ⟨l1, l2⟩, -⟩ := hp
  rw [hw] at hw'
  rw [ha] at ha'
  rw [hz] at hz'
  simp only [Except.ok.injEq] at hw' ha' hz'
  subst hw' ha' hz'
  exact ⟨l2, by rw [← l2]; exact l1.symm⟩

/-! ### C466: documented defaults -/

/-- Two values of a file denote the same number: `1` and `1.0`. -/
def norm : Arg → Arg
  | .val (.int z) => .val (.flt z)
  | a => a

/-- The defaults written in the comments of p3/aoSystem/parFiles/template.ini (lines 67-164) for the options of a
detector that the three sensor sections share. -/
def documentedDetector : List (String × Arg) :=
  [("Binning", num 1), ("SpectralBandwidth", num 0), ("Transmittance", .val (.lst [1])),
   ("Dispersion", .val (.mat [[0], [0]])), ("SigmaRON", num 0), ("Dark", num 0), ("SkyBackground", num 0), ("Gain", num 1)]

/-- The attribute of the detector named by an option. -/
def Detector.attr (d : Detector) : String → Arg
  | "Binning" => d.binning
  | "SpectralBandwidth" => d.bandwidth
  | "Transmittance" => d.transmittance
  | "Dispersion" => d.dispersion
  | "SigmaRON" => d.ron
  | "Dark" => d.dark
  | "SkyBackground" => d.sky
  | "Gain" => d.gain
  | "ExcessNoiseFactor" => d.excess
  | _ => .val .none

theorem documented_of {m : Map} {s : String} {spots : Arg} {d : Detector} (h : DetectorCarries m s spots d) :
    ∀ p ∈ documentedDetector, get m s p.1 = none → norm (d.attr p.1) = norm p.2 := by
  obtain ⟨-, h2, -, h4, h5, h6, h7, h8, h9, h10, -⟩ := h
  intro p hp
  simp only [documentedDetector, List.mem_cons, List.not_mem_nil, or_false] at hp
  rcases hp with rfl | rfl | rfl | rfl | rfl | rfl | rfl | rfl <;> intro e <;> simp only [Detector.attr]
  · rw [h2.2 e]; simp [norm, num]
  · rw [h4.2 e]
  · rw [h5.2 e]
  · rw [h6.2 e]
  · rw [h7.2 e]
  · rw [h9.2 e]
  · rw [h10.2 e]
  · rw [h8.2 e]; simp [norm, num]

/-- C466 (partial): an option of a detector left out has the documented default in the three sensor sections (excess
noise apart), and so have the type of the high-order sensor, the algorithms, the thresholds of the high-order sensor and
the options of the mirrors (weights of the directions apart), of the atmosphere and of the telescope (compare C464 and
C465). -/
theorem documented_defaults_partial {m : Map} :
    (∀ S, hoSensor m = .ok S → (∀ d ∈ S.detector, ∀ p ∈ documentedDetector,
        get m "sensor_HO" p.1 = none → norm (d.attr p.1) = norm p.2) ∧
      (get m "sensor_HO" "WfsType" = none → S.wfstype = .val (.str "Shack-Hartmann")) ∧
      (get m "sensor_HO" "Algorithm" = none → S.algorithm = .val (.str "wcog")) ∧
      (get m "sensor_HO" "ThresholdWCoG" = none → S.settings[1]? = some (num 0)) ∧
      (get m "sensor_HO" "NewValueThrPix" = none → S.settings[2]? = some (num 0))) ∧
    (∀ S, loSensor m = .ok S → (∀ d ∈ S.detector, ∀ p ∈ documentedDetector,
        get m "sensor_LO" p.1 = none → norm (d.attr p.1) = norm p.2) ∧
      (get m "sensor_LO" "Algorithm" = none → S.algorithm = .val (.str "wcog")) ∧
      (get m "sensor_LO" "NewValueThrPix" = none → S.settings[2]? = some (num 0))) ∧
    (∀ f d, camera m f = .ok d → (∀ p ∈ documentedDetector,
        get m "sensor_science" p.1 = none → norm (d.attr p.1) = norm p.2) ∧
      (get m "sensor_science" "ExcessNoiseFactor" = none → d.excess = num 1) ∧
      (get m "sensor_science" "SpotFWHM" = none → d.spotFWHM = .val (.mat [[0, 0, 0]]))) := by
  refine ⟨?_, ?_, ?_⟩
  · intro S h
    obtain ⟨h1, -, -, -, -, -, -, h8, -, h10, wr, thr, nv, hs, -, ht, hn⟩ := ho_options h
    refine ⟨fun d hd => documented_of (h1 d hd).1, h8.2, h10.2, ?_, ?_⟩
    · intro e; rw [hs]; simp [ht.2 e]
    · intro e; rw [hs]; simp [hn.2 e]
  · intro S h
    obtain ⟨h1, -, -, -, -, -, -, -, h9, wr, thr, nv, hs, -, -, hn⟩ := lo_options_partial h
    refine ⟨fun d hd => documented_of (h1 d hd).1, h9.2, ?_⟩
    intro e; rw [hs]; simp [hn.2 e]
  · intro f d h
    obtain ⟨h1, -⟩ := camera_options h
    exact ⟨documented_of h1, h1.2.2.2.2.2.2.2.2.2.2.2, h1.2.2.1.2⟩

/-- C466 (violation): the documented defaults of the excess noise factor of the wavefront sensors (2.0), of the window
radius (2), of the weight of the optimisation directions ([1.0]) and of the flux of the camera (1500) are not those
used (1, 5 or 1, [0], infinite), whatever the rest of the file. -/
theorem documented_defaults_violation {m : Map} :
    (∀ S, hoSensor m = .ok S → get m "sensor_HO" "ExcessNoiseFactor" = none → ∀ d ∈ S.detector,
      d.excess = num 1 ∧ d.excess ≠ num 2) ∧
    (∀ S, loSensor m = .ok S → get m "sensor_LO" "ExcessNoiseFactor" = none → ∀ d ∈ S.detector,
      d.excess = num 1 ∧ d.excess ≠ num 2) ∧
    (∀ S, hoSensor m = .ok S → get m "sensor_HO" "WindowRadiusWCoG" = none → S.settings[0]? = some (num 5)) ∧
    (∀ S, loSensor m = .ok S → get m "sensor_LO" "WindowRadiusWCoG" = none → S.settings[0]? = some (num 1)) ∧
    (∀ M, mirrors m = .ok M → get m "DM" "OptimizationWeight" = none → M.opt_weights = [0] ∧ M.opt_weights ≠ [1]) ∧
    (∀ f d, camera m f = .ok d → get m "sensor_science" "NumberPhotons" = none → d.nph = .inf ∧ d.nph ≠ num 1500) := by
  refine ⟨?_, ?_, ?_, ?_, ?_, ?_⟩
  · intro S h e d hd
    have := ((ho_options h).1 d hd).1.2.2.2.2.2.2.2.2.2.2.2 e
    rw [this]; exact ⟨rfl, by decide⟩
  · intro S h e d hd
    have := ((lo_options_partial h).1 d hd).1.2.2.2.2.2.2.2.2.2.2.2 e
    rw [this]; exact ⟨rfl, by decide⟩
  · intro S h e
    obtain ⟨-, -, -, -, -, -, -, -, -, -, wr, thr, nv, hs, hw, -⟩ := ho_options h
    rw [hs]; simp [hw.2 e]
  · intro S h e
    obtain ⟨-, -, -, -, -, -, -, -, -, wr, thr, nv, hs, -, hw, -⟩ := lo_options_partial h
    rw [hs]; simp [(hw (by rw [e]; simp)).2 e]
  · intro M h e
    have := (mirrors_options h).2.2.2.2.2.2.1.2 e
    simp only [Arg.val.injEq, Val.lst.injEq] at this
    rw [this]; exact ⟨rfl, by decide⟩
  · intro f d h e
    have := (camera_options h).2.2.2.1.2 e
    rw [this]; exact ⟨rfl, by decide⟩

/-- The documentation calls the field of view of the camera optional (150 by default); a file without it is refused. -/
theorem documented_fov_violation (env : Env) (m : Map) (w p : List ℚ) (ps : ℚ)
    (h : get m "sensor_science" "FieldOfView" = none) :
    scienceFov env m w ps p = .error (.missingOption "sensor_science" "FieldOfView") := by
  simp [scienceFov, h]

/-! ### C467: the template -/

/-- p3/aoSystem/parFiles/template.ini, with `l` for the option `NumberLenslets` of the low-order section (line 161);
`NoiseVariance = [None]` (line 129) is left out: the constructor keeps it as it is. -/
def template (l : Val) : Map := ofTable
  [("telescope", [("TelescopeDiameter", .flt (105/10)), ("ZenithAngle", .flt 0), ("ObscurationRatio", .flt (2311/10000)),
     ("Resolution", .int 100), ("PathPupil", .str ""), ("PathStaticOn", .str ""), ("PathStaticOff", .str ""),
     ("PathStaticPos", .str ""), ("PathApodizer", .str ""), ("PathStatModes", .str ""), ("PupilAngle", .flt 0)]),
   ("atmosphere", [("Wavelength", .flt (1/2000000)), ("Seeing", .flt (6/10)), ("L0", .flt 25), ("Cn2Weights", .lst [1]),
     ("Cn2Heights", .lst [0]), ("WindSpeed", .lst [10]), ("WindDirection", .lst [0])]),
   ("sources_science", [("Wavelength", .lst [2118/1000000000]), ("Zenith", .lst [0]), ("Azimuth", .lst [0])]),
   ("sources_HO", [("Wavelength", .flt (624/1000000000)), ("Zenith", .lst [0]), ("Azimuth", .lst [0]), ("Height", .flt 0)]),
   ("sources_LO", [("Wavelength", .flt (624/1000000000)), ("Zenith", .lst [0]), ("Azimuth", .lst [0])]),
   ("sensor_science", [("PixelScale", .flt (9942/1000)), ("FieldOfView", .int 150), ("Binning", .int 1),
     ("NumberPhotons", .lst [1500]), ("SpotFWHM", .mat [[0, 0, 0]]), ("SpectralBandwidth", .flt 0),
     ("Transmittance", .lst [1]), ("Dispersion", .mat [[0], [0]]), ("SigmaRON", .lst [0]), ("Dark", .flt 0),
     ("SkyBackground", .flt 0), ("Gain", .flt 1), ("ExcessNoiseFactor", .flt 1)]),
   ("sensor_HO", [("WfsType", .str "Shack-Hartmann"), ("Modulation", .none), ("PixelScale", .int 200),
     ("FieldOfView", .int 240), ("Binning", .int 1), ("NumberPhotons", .lst [500]), ("SpotFWHM", .mat [[0, 0, 0]]),
     ("SpectralBandwidth", .flt 0), ("Transmittance", .lst [1]), ("Dispersion", .mat [[0], [0]]),
     ("SigmaRON", .flt (2/10)), ("Dark", .flt 0), ("SkyBackground", .flt 0), ("Gain", .flt 1),
     ("ExcessNoiseFactor", .flt 2), ("NumberLenslets", .lst [20]), ("SizeLenslets", .lst [1/2]),
     ("Algorithm", .str "wcog"), ("WindowRadiusWCoG", .int 2), ("ThresholdWCoG", .flt 0), ("NewValueThrPix", .flt 0)]),
   ("sensor_LO", [("PixelScale", .flt 40), ("FieldOfView", .int 200), ("Binning", .int 1),
     ("NumberPhotons", .lst [62, 62, 62]), ("SpotFWHM", .mat [[0, 0, 0]]), ("SigmaRON", .flt 0), ("Dark", .flt 0),
     ("SkyBackground", .flt 0), ("Gain", .flt 1), ("ExcessNoiseFactor", .flt 2), ("NumberLenslets", l),
     ("Algorithm", .str "wcog"), ("WindowRadiusWCoG", .int 2), ("ThresholdWCoG", .flt 0), ("NewValueThrPix", .flt 0)]),
   ("DM", [("NumberActuators", .lst [21]), ("DmPitchs", .lst [5625/10000]), ("InfModel", .str "gaussian"),
     ("InfCoupling", .lst [1/5]), ("DmHeights", .lst [0]), ("OptimizationZenith", .lst [0]),
     ("OptimizationAzimuth", .lst [0]), ("OptimizationWeight", .lst [1]), ("OptimizationConditioning", .flt 100),
     ("NumberReconstructedLayers", .int 10), ("AoArea", .str "circle")]),
   ("RTC", [("LoopGain_HO", .flt (1/2)), ("SensorFrameRate_HO", .flt 500), ("LoopDelaySteps_HO", .int 2),
     ("LoopGain_LO", .flt (1/2)), ("SensorFrameRate_LO", .flt 500), ("LoopDelaySteps_LO", .int 3)])]

/-- C467 (violation): a number of lenslets of the low-order sensor that is not a list is refused, in any file: the template
of the package, with `NumberLenslets = 4`, is refused by a `TypeError` and not by an error naming the option. -/
theorem template_violation :
    (∀ env m (z : ℤ), hasSec m "sensor_LO" = true → get m "sensor_LO" "NumberLenslets" = some (.int z) →
      ∀ s, construct env m ≠ .ok s) ∧
    raised (construct env1 (template (.int 4))) = some (.py .typeError) ∧
    (∀ S, loSensor (template (.int 4)) ≠ .ok S) := by
  refine ⟨?_, by decide +kernel, ?_⟩
  · intro env m z hs hz s h
    unfold construct at h
    simp only [bind_ok_iff] at h
    obtain ⟨_, -, _, -, _, -, _, -, h⟩ := h
    unfold configLO_SC at h
    simp only [bind_ok_iff] at h
    obtain ⟨_, -, _, -, _, -, t, ht, -⟩ := h
    rw [if_pos hs] at ht
    have : wfsStage m "sensor_LO" [1] false ≠ .ok (t.getD 0) := by
      intro hw
      unfold wfsStage at hw
      simp only [bind_ok_iff, lstOpt, hz] at hw
      obtain ⟨_, -, _, -, _, hl, -⟩ := hw
      cases hl
    cases hw : wfsStage m "sensor_LO" [1] false with
    | error e => rw [hw] at ht; cases ht
    | ok n => rw [hw] at ht; cases ht; exact this hw
  · intro S h
    unfold loSensor at h
    simp only [bind_ok_iff] at h
    obtain ⟨_, -, _, -, _, -, _, hl, -⟩ := h
    have e : get (template (.int 4)) "sensor_LO" "NumberLenslets" = some (.int 4) := by decide +kernel
    simp only [lstOpt, e] at hl
    cases hl

/-- C467 (partial): with a list of one to three numbers the template is accepted. -/
theorem template_partial :
    raised (construct env1 (template (.lst [4]))) = none ∧
    raised (construct env1 (template (.lst [4, 4, 4]))) = none := by
  constructor <;> decide +kernel

/-! ### Witnesses -/

/-- Was the sensor built? -/
def built {α : Type} (r : Except Err α) : Bool := match r with | .ok _ => true | .error _ => false

example : built (hoSensor (template (.lst [4]))) = true ∧ built (loSensor (template (.lst [4]))) = true ∧
    built (camera (template (.lst [4])) 150) = true ∧ built (telescope env1 (template (.lst [4]))) = true ∧
    built (atmosphere (template (.lst [4]))) = true ∧ built (mirrors (template (.lst [4]))) = true ∧
    (rtc (template (.lst [4]))).ttloop.isSome = true := by decide +kernel

example : (match loSensor (template (.lst [4])) with
    | .ok S => (S.nWfs, S.optics.map (fun o => (o.nL, o.dsub)), S.detector.map (·.nph), S.settings)
    | .error _ => (0, [], [], [])) =
    (1, [(4, 105/40)], [num 62], [.val (.int 2), num 0, .val (.flt 0)]) := by decide +kernel

/-- Two files that differ by the threshold only. -/
example : AgreeExcept (template (.lst [4])) (put (template (.lst [4])) "sensor_LO" "ThresholdWCoG" (.flt 9)) "sensor_LO"
    ["SizeLenslets", "WfsType", "Modulation", "ThresholdWCoG"] := by
  intro o ho
  have : o ≠ "ThresholdWCoG" := fun e => ho (by simp [e])
  unfold Config.get put
  simp only [if_true]
  cases template (.lst [4]) "sensor_LO" <;> simp [this]

end P3.Options
