import Verif.Spec.Config
import Mathlib.Tactic.Common
import Mathlib.Tactic.NormNum
import Mathlib.Tactic.Linarith
/-
Helper lemmas for the configuration theorems: each stage, on a typed map, is a cascade of tests.
-/
namespace P3.Config

theorem require_bind {ε β : Type} (c : Prop) [Decidable c] (e : ε) (f : Unit → Except ε β) :
    (require c e >>= f) = if c then f () else .error e := by
  unfold require; split <;> rfl

theorem ok_bind {ε α β : Type} (a : α) (f : α → Except ε β) :
    ((Except.ok a : Except ε α) >>= f) = f a := rfl

theorem bind_ok_iff {ε α β : Type} (x : Except ε α) (f : α → Except ε β) (b : β) :
    (x >>= f) = .ok b ↔ ∃ a, x = .ok a ∧ f a = .ok b := by
  cases x with
  | error e => simp [bind, Except.bind]
  | ok a => simp [bind, Except.bind]

theorem bind_error_iff {ε α β : Type} (x : Except ε α) (f : α → Except ε β) (e : ε) :
    (x >>= f) = .error e ↔ x = .error e ∨ ∃ a, x = .ok a ∧ f a = .error e := by
  cases x with
  | error e => simp [bind, Except.bind]
  | ok a => simp [bind, Except.bind]

theorem numOpt_typed {m : Map} {s o : String} {d : ℚ} (h : IsNum m s o) :
    numOpt m s o d = .ok (numVal m s o d) := by
  unfold numOpt numVal IsNum at *
  cases hg : get m s o with
  | none => rfl
  | some v => rcases h v hg with ⟨z, rfl⟩ | ⟨q, rfl⟩ <;> rfl

theorem lstOpt_typed {m : Map} {s o : String} {d : List ℚ} (h : IsLst m s o) :
    lstOpt m s o d = .ok (lstVal m s o d) := by
  unfold lstOpt lstVal IsLst at *
  cases hg : get m s o with
  | none => rfl
  | some v => obtain ⟨l, rfl⟩ := h v hg; rfl

theorem wvlOpt_typed {m : Map} {s : String} (h : IsNumOrLst m s "Wavelength") :
    wvlOpt m s = if (get m s "Wavelength").isSome = true then .ok (wvlVal m s)
      else .error (.missingOption s "Wavelength") := by
  unfold wvlOpt wvlVal IsNumOrLst at *
  cases hg : get m s "Wavelength" with
  | none => rfl
  | some v => rcases h v hg with ⟨z, rfl⟩ | ⟨q, rfl⟩ | ⟨l, rfl⟩ <;> rfl

/-- The file check of one option, as a proposition. -/
def FileOk (env : Env) (m : Map) (o : String) : Prop :=
  ∀ n, get m "telescope" o = some (.str n) →
    Paths.resolve env.isfile n.toList env.root env.p3 env.tiptop = [] ∨
    env.isfile (Paths.resolve env.isfile n.toList env.root env.p3 env.tiptop) = true

open Classical in
theorem fileOpt_typed {env : Env} {m : Map} {o : String} (h : IsFile m "telescope" o) :
    fileOpt env m "telescope" o =
      if FileOk env m o then .ok () else .error (.fileNotFound o) := by
  unfold fileOpt IsFile at *
  cases hg : get m "telescope" o with
  | none =>
    have : FileOk env m o := by intro n hn; rw [hg] at hn; cases hn
    simp [this]
  | some v =>
    rcases h v hg with rfl | ⟨n, rfl⟩
    · have : FileOk env m o := by intro n hn; rw [hg] at hn; simp at hn
      simp [this]
    · have : FileOk env m o ↔
        (Paths.resolve env.isfile n.toList env.root env.p3 env.tiptop = [] ∨
          env.isfile (Paths.resolve env.isfile n.toList env.root env.p3 env.tiptop) = true) := by
        constructor
        · intro hf; exact hf n hg
        · intro hf n' hn'; rw [hg] at hn'; cases hn'; exact hf
      simp only [require, this]

end P3.Config

namespace P3.Config

theorem require_ok_iff {ε : Type} (c : Prop) [Decidable c] (e : ε) (u : Unit) :
    require c e = .ok u ↔ c := by
  unfold require; split <;> simp [*]

theorem require_error_iff {ε : Type} (c : Prop) [Decidable c] (e e' : ε) :
    require c e = .error e' ↔ ¬ c ∧ e = e' := by
  unfold require; split <;> simp [*]

theorem Typed.num' {m : Map} (h : Typed m) (s o : String)
    (hm : (s, o) ∈ numOptions := by decide) : IsNum m s o := h.num (s, o) hm
theorem Typed.lst' {m : Map} (h : Typed m) (s o : String)
    (hm : (s, o) ∈ lstOptions := by decide) : IsLst m s o := h.lst (s, o) hm

theorem fileOpt_ok {env : Env} {m : Map} {o : String} {u : Unit} (h : IsFile m "telescope" o) :
    fileOpt env m "telescope" o = .ok u ↔ FileOk env m o := by
  rw [fileOpt_typed h]; split <;> simp [*]

theorem fileOpt_err {env : Env} {m : Map} {o : String} {e : Err} (h : IsFile m "telescope" o) :
    fileOpt env m "telescope" o = .error e ↔ ¬ FileOk env m o ∧ e = .fileNotFound o := by
  rw [fileOpt_typed h]; split <;> simp [*, eq_comm]

/-- The precision check as a function. -/
def precisionCheck (m : Map) : Except Err Unit :=
  match get m "COMPUTATION" "precision" with
  | none => .ok ()
  | some (.str p) => require (p.toLower = "single" ∨ p.toLower = "double") .badPrecision
  | some _ => .error .badPrecision

def PrecisionOk (m : Map) : Prop := ∀ v, get m "COMPUTATION" "precision" = some v →
    ∃ p : String, v = .str p ∧ (p.toLower = "single" ∨ p.toLower = "double")

theorem precisionCheck_ok {m : Map} {u : Unit} : precisionCheck m = .ok u ↔ PrecisionOk m := by
  unfold precisionCheck PrecisionOk
  cases get m "COMPUTATION" "precision" with
  | none => simp
  | some v => cases v <;> simp [require_ok_iff]

theorem precisionCheck_err {m : Map} {e : Err} :
    precisionCheck m = .error e ↔ ¬ PrecisionOk m ∧ e = .badPrecision := by
  have h := @precisionCheck_ok m ()
  cases hc : precisionCheck m with
  | ok u => rw [hc] at h; simp at h; simp [h]
  | error e' =>
    rw [hc] at h; simp at h
    have : e' = .badPrecision := by
      unfold precisionCheck at hc
      split at hc
      · cases hc
      · rw [require_error_iff] at hc; exact hc.2.symm
      · cases hc; rfl
    simp [h, this, eq_comm]

theorem telescopeStage_eq (env : Env) (m : Map) : telescopeStage env m = (do
    require (hasSec m "telescope" = true) (.missingSection "telescope")
    require ((get m "telescope" "TelescopeDiameter").isSome = true)
      (.missingOption "telescope" "TelescopeDiameter")
    let z ← numOpt m "telescope" "ZenithAngle" 0
    require (z < 90) .badZenith
    fileOpt env m "telescope" "PathPupil"
    fileOpt env m "telescope" "PathStaticOn"
    fileOpt env m "telescope" "PathStaticOff"
    fileOpt env m "telescope" "PathStaticPos"
    fileOpt env m "telescope" "PathApodizer"
    fileOpt env m "telescope" "PathStatModes"
    precisionCheck m
    fileOpt env m "telescope" "windPsdFile"
    pure z) := by
  unfold telescopeStage precisionCheck
  cases get m "COMPUTATION" "precision" with
  | none => rfl
  | some v => cases v <;> rfl

theorem ite_ok {ε α : Type} (c : Prop) [Decidable c] (x : Except ε α) (e : ε) (b : α) :
    (if c then x else .error e) = .ok b ↔ c ∧ x = .ok b := by
  split <;> simp [*]

theorem ite_err {ε α : Type} (c : Prop) [Decidable c] (x : Except ε α) (e e' : ε) :
    (if c then x else .error e) = .error e' ↔ (¬ c ∧ e' = e) ∨ (c ∧ x = .error e') := by
  split <;> simp [*, eq_comm]

theorem ite_bind' {ε α β : Type} (c : Prop) [Decidable c] (a : α) (e : ε) (f : α → Except ε β) :
    ((if c then Except.ok a else Except.error e) >>= f) = if c then f a else .error e := by
  split <;> rfl

open Classical in
/-- The precision check as a cascade. -/
theorem precisionCheck_ite (m : Map) :
    precisionCheck m = if PrecisionOk m then .ok () else .error .badPrecision := by
  split_ifs with h
  · exact precisionCheck_ok.mpr h
  · exact precisionCheck_err.mpr ⟨h, rfl⟩

theorem pure_eq {ε α : Type} (a : α) : (pure a : Except ε α) = .ok a := rfl

open Classical in
theorem telescopeStage_cascade {env : Env} {m : Map} (h : Typed m) : telescopeStage env m =
    if hasSec m "telescope" = true then
    if (get m "telescope" "TelescopeDiameter").isSome = true then
    if numVal m "telescope" "ZenithAngle" 0 < 90 then
    if FileOk env m "PathPupil" then
    if FileOk env m "PathStaticOn" then
    if FileOk env m "PathStaticOff" then
    if FileOk env m "PathStaticPos" then
    if FileOk env m "PathApodizer" then
    if FileOk env m "PathStatModes" then
    if PrecisionOk m then
    if FileOk env m "windPsdFile" then .ok (numVal m "telescope" "ZenithAngle" 0)
    else .error (.fileNotFound "windPsdFile")
    else .error .badPrecision
    else .error (.fileNotFound "PathStatModes")
    else .error (.fileNotFound "PathApodizer")
    else .error (.fileNotFound "PathStaticPos")
    else .error (.fileNotFound "PathStaticOff")
    else .error (.fileNotFound "PathStaticOn")
    else .error (.fileNotFound "PathPupil")
    else .error .badZenith
    else .error (.missingOption "telescope" "TelescopeDiameter")
    else .error (.missingSection "telescope") := by
  have hf : ∀ o ∈ fileOptions, IsFile m "telescope" o := h.file
  simp only [fileOptions, List.forall_mem_cons] at hf
  obtain ⟨f1, f2, f3, f4, f5, f6, f7, -⟩ := hf
  rw [telescopeStage_eq]
  simp only [require_bind, numOpt_typed (h.num' "telescope" "ZenithAngle"), ok_bind,
    fileOpt_typed f1, fileOpt_typed f2, fileOpt_typed f3, fileOpt_typed f4, fileOpt_typed f5,
    fileOpt_typed f6, fileOpt_typed f7, precisionCheck_ite, ite_bind', pure_eq]

theorem atmosphereStage_cascade {m : Map} (h : Typed m) : atmosphereStage m =
    if hasSec m "atmosphere" = true then
    if (get m "atmosphere" "Seeing").isSome = true ∨ (get m "atmosphere" "r0_value").isSome = true then
    if numVal m "atmosphere" "Seeing" 1 ≠ 0 then
    if |(lstVal m "atmosphere" "Cn2Weights" [1]).sum - 1| ≤ 1/1000 then
    if (lstVal m "atmosphere" "Cn2Weights" [1]).length =
        (lstVal m "atmosphere" "Cn2Heights" [0]).length ∧
      (lstVal m "atmosphere" "Cn2Heights" [0]).length =
        (lstVal m "atmosphere" "WindSpeed" [10]).length ∧
      (lstVal m "atmosphere" "WindSpeed" [10]).length =
        (lstVal m "atmosphere" "WindDirection"
          ((lstVal m "atmosphere" "WindSpeed" [10]).map (fun _ => 0))).length then
    .ok ⟨lstVal m "atmosphere" "Cn2Weights" [1],
        lstVal m "atmosphere" "Cn2Heights" [0], lstVal m "atmosphere" "WindSpeed" [10],
        lstVal m "atmosphere" "WindDirection"
          ((lstVal m "atmosphere" "WindSpeed" [10]).map (fun _ => 0))⟩
    else .error (.notSameLength "atmosphere"
      ["Cn2Weights","Cn2Heights","WindSpeed","WindDirection"])
    else .error .badWeights
    else .error (.py .zeroDivision)
    else .error (.missingOption "atmosphere" "Seeing")
    else .error (.missingSection "atmosphere") := by
  unfold atmosphereStage
  simp only [require_bind, numOpt_typed (h.num' "atmosphere" "Wavelength"),
    numOpt_typed (h.num' "atmosphere" "Seeing"), ok_bind,
    lstOpt_typed (h.lst' "atmosphere" "Cn2Weights"), lstOpt_typed (h.lst' "atmosphere" "Cn2Heights"),
    lstOpt_typed (h.lst' "atmosphere" "WindSpeed"), lstOpt_typed (h.lst' "atmosphere" "WindDirection"),
    pure_eq, mul_zero, not_lt, gt_iff_lt]
  cases hs : get m "atmosphere" "Seeing" with
  | none =>
    have h1 : numVal m "atmosphere" "Seeing" 1 ≠ 0 := by simp [numVal, hs]
    simp [h1]
  | some v => simp

theorem hoStage_cascade {m : Map} (h : Typed m) : hoStage m =
    if hasSec m "sources_HO" = true then
    if (get m "sources_HO" "Wavelength").isSome = true then
    if (lstVal m "sources_HO" "Zenith" [0]).length = (lstVal m "sources_HO" "Azimuth" [0]).length then
    .ok (wvlVal m "sources_HO", lstVal m "sources_HO" "Zenith" [0],
      lstVal m "sources_HO" "Azimuth" [0], numVal m "sources_HO" "Height" 0)
    else .error (.notSameLength "sources_HO" ["Azimuth","Zenith"])
    else .error (.missingOption "sources_HO" "Wavelength")
    else .error (.missingSection "sources_HO") := by
  unfold hoStage
  simp only [require_bind, wvlOpt_typed (h.wvl "sources_HO" (by decide)), ite_bind', ok_bind,
    lstOpt_typed (h.lst' "sources_HO" "Zenith"), lstOpt_typed (h.lst' "sources_HO" "Azimuth"),
    numOpt_typed (h.num' "sources_HO" "Height"), pure_eq]

/-- The low-order guide stars of a map. -/
def loSrc (m : Map) : Src ℚ := mkSource (wvlVal m "sources_LO")
  (lstVal m "sources_LO" "Zenith" []) (lstVal m "sources_LO" "Azimuth" []) 0

theorem loStage_cascade {m : Map} (h : Typed m) : loStage m =
    if hasSec m "sources_LO" = true then
    if (get m "sources_LO" "Wavelength").isSome = true then
    if (get m "sources_LO" "Zenith").isSome = true then
    if (get m "sources_LO" "Azimuth").isSome = true then
    if (lstVal m "sources_LO" "Zenith" []).length = (lstVal m "sources_LO" "Azimuth" []).length then
    .ok (some (loSrc m))
    else .error (.notSameLength "sources_LO" ["Zenith","Azimuth"])
    else .error (.py .keyError)
    else .error (.py .keyError)
    else .error (.missingOption "sources_LO" "Wavelength")
    else .ok none := by
  unfold loStage loSrc
  simp only [require_bind, wvlOpt_typed (h.wvl "sources_LO" (by decide)), ite_bind', ok_bind,
    lstOpt_typed (h.lst' "sources_LO" "Zenith"), lstOpt_typed (h.lst' "sources_LO" "Azimuth"),
    pure_eq]

/-- Positions requested for the science targets: zenith (resp. azimuth) angles, followed by those of the
natural guide stars when asked for. -/
def sciPos (env : Env) (m : Map) (o : String) : List ℚ :=
  lstVal m "sources_science" o [0] ++
    if env.getPSDatNGS = true ∧ (get m "sources_LO" "Wavelength").isSome = true then
      lstVal m "sources_LO" o [] else []

theorem sciStage_cascade {env : Env} {m : Map} (h : Typed m) (hc : env.coo = none) :
    sciStage env m =
    if hasSec m "sources_science" = true then
    if (get m "sources_science" "Wavelength").isSome = true then
    if (lstVal m "sources_science" "Zenith" [0]).length =
      (lstVal m "sources_science" "Azimuth" [0]).length then
    if (env.getPSDatNGS = true ∧ (get m "sources_LO" "Wavelength").isSome = true) →
      (get m "sources_LO" "Zenith").isSome = true then
    if (env.getPSDatNGS = true ∧ (get m "sources_LO" "Wavelength").isSome = true) →
      (get m "sources_LO" "Azimuth").isSome = true then
    .ok (mkSource (wvlVal m "sources_science") (sciPos env m "Zenith") (sciPos env m "Azimuth") 0,
      wvlVal m "sources_science")
    else .error (.py .keyError)
    else .error (.py .keyError)
    else .error (.notSameLength "sources_science" ["Zenith","Azimuth"])
    else .error (.missingOption "sources_science" "Wavelength")
    else .error (.missingSection "sources_science") := by
  unfold sciStage sciPos
  simp only [require_bind, wvlOpt_typed (h.wvl "sources_science" (by decide)), ite_bind', ok_bind,
    lstOpt_typed (h.lst' "sources_LO" "Zenith"), lstOpt_typed (h.lst' "sources_LO" "Azimuth"),
    lstOpt_typed (h.lst' "sources_science" "Zenith"),
    lstOpt_typed (h.lst' "sources_science" "Azimuth"), pure_eq, hc, addLO, Option.isSome_none,
    Bool.false_eq_true, if_false]
  by_cases hq : env.getPSDatNGS = true ∧ (get m "sources_LO" "Wavelength").isSome = true
  · simp [hq]
  · simp [hq]

theorem spectral_cascade {m : Map} {s : String} (h1 : IsLst m s "Transmittance")
    (h2 : IsMat m s "Dispersion") : spectralCheck m s =
    if colsVal m s "Dispersion" = (lstVal m s "Transmittance" [1]).length then .ok ()
    else .error .dispersion := by
  unfold spectralCheck colsVal
  rw [lstOpt_typed h1]
  cases hg : get m s "Dispersion" with
  | none => rfl
  | some v => obtain ⟨r, l, rfl⟩ := h2 v hg; rfl

theorem nphLen_typed {m : Map} {s : String} (h : IsPhotons m s "NumberPhotons") (n : ℕ) :
    nphLen (get m s "NumberPhotons") n =
      .ok (if photonsVal m s < n then photonsVal m s + 1 else photonsVal m s) := by
  unfold nphLen photonsVal
  cases hg : get m s "NumberPhotons" with
  | none => rfl
  | some v => rcases h v hg with rfl | ⟨q, rfl⟩ | ⟨l, rfl⟩ <;> rfl

theorem wfsStage_cascade {m : Map} {s : String} {nL : List ℚ} {sz : Bool}
    (h1 : IsLst m s "Transmittance") (h2 : IsMat m s "Dispersion")
    (h3 : IsPhotons m s "NumberPhotons") (h4 : IsLst m s "NumberLenslets")
    (h5 : sz = true → IsLst m s "SizeLenslets") : wfsStage m s nL sz =
    if (get m s "PixelScale").isSome = true then
    if (get m s "FieldOfView").isSome = true then
    if sz = true → (lstVal m s "NumberLenslets" nL).length ≤
      (lstVal m s "SizeLenslets" (lstVal m s "NumberLenslets" nL)).length then
    if (lstVal m s "NumberLenslets" nL) ≠ [] →
      colsVal m s "Dispersion" = (lstVal m s "Transmittance" [1]).length then
    if (lstVal m s "NumberLenslets" nL).length ≤ photonsVal m s + 1 then
    .ok (lstVal m s "NumberLenslets" nL).length
    else .error (.py .indexError)
    else .error .dispersion
    else .error (.py .indexError)
    else .error (.missingOption s "FieldOfView")
    else .error (.missingOption s "PixelScale") := by
  unfold wfsStage
  have e : (lstVal m s "NumberLenslets" nL).length = 0 ↔ lstVal m s "NumberLenslets" nL = [] :=
    List.length_eq_zero_iff
  have e2 : (lstVal m s "NumberLenslets" nL).length ≤ (if photonsVal m s <
        (lstVal m s "NumberLenslets" nL).length then photonsVal m s + 1 else photonsVal m s) ↔
        (lstVal m s "NumberLenslets" nL).length ≤ photonsVal m s + 1 := by
      split <;> omega
  cases sz with
  | true =>
    simp only [require_bind, lstOpt_typed h4, ok_bind, nphLen_typed h3, spectral_cascade h1 h2,
      ite_bind', pure_eq, if_true, lstOpt_typed (h5 rfl), e2, e]
    by_cases hz : lstVal m s "NumberLenslets" nL = []
    · simp [hz]
    · simp [hz]
  | false =>
    simp only [require_bind, lstOpt_typed h4, ok_bind, nphLen_typed h3, spectral_cascade h1 h2,
      ite_bind', pure_eq, e2, e]
    by_cases hz : lstVal m s "NumberLenslets" nL = []
    · simp [hz]
    · simp [hz]

theorem rtcStage_ok {m : Map} (h : Typed m) :
    ∃ b, rtcStage m = .ok (numVal m "RTC" "LoopGain_HO" (1/2), b) := by
  unfold rtcStage
  simp only [numOpt_typed (h.num' "RTC" "LoopGain_HO"),
    numOpt_typed (h.num' "RTC" "SensorFrameRate_HO"),
    numOpt_typed (h.num' "RTC" "LoopDelaySteps_HO"), ok_bind, pure_eq]
  exact ⟨_, rfl⟩

theorem bcast_length {α β γ : Type} (f : α → β → γ) (xs : List α) (ys : List β) :
    (∃ l, bcast f xs ys = .ok l ∧
      ((xs.length = 1 ∧ l.length = ys.length) ∨ (ys.length = 1 ∧ l.length = xs.length) ∨
      (xs.length = ys.length ∧ l.length = xs.length))) ∨
    (bcast f xs ys = .error .broadcast ∧ xs.length ≠ ys.length) := by
  unfold bcast
  split
  · left; exact ⟨_, rfl, by simp⟩
  · left; exact ⟨_, rfl, by simp⟩
  · split
    · left; exact ⟨_, rfl, by simp [*]⟩
    · right; exact ⟨rfl, ‹_›⟩

/-- Number of actuator counts computed or given (aoSystem.py:679-684, deformableMirror.py:42-46). -/
def nActs (m : Map) (h p : List ℚ) : Except Err ℕ :=
  match get m "DM" "NumberActuators" with
    | none => match bcast (fun (_ _ : ℚ) => ()) h p with
      | .ok l => .ok l.length
      | .error e => .error (.py e)
    | some (.int _) => .ok 1
    | some (.flt _) => .ok 1
    | some (.lst l) => .ok l.length
    | some _ => .error (.py .typeError)

/-- The coupling values kept by the mirrors. -/
def couplingVal (c : List ℚ) (n : ℕ) : List ℚ :=
  if c.length < n then List.replicate n (c.headD 0) else c.take n

theorem padCoupling_ite (c : List ℚ) (n : ℕ) : padCoupling c n =
    if n = 0 ∨ c ≠ [] then .ok (couplingVal c n) else .error (.py .indexError) := by
  unfold padCoupling couplingVal
  cases c with
  | nil => cases n <;> simp
  | cons x xs => simp; split <;> rfl

theorem dmStage_cascade {m : Map} (h : Typed m) : dmStage m =
    if hasSec m "DM" = true then
    if (get m "DM" "DmPitchs").isSome = true then
    if (get m "DM" "DmHeights").isSome = true ∨ ¬ (lstVal m "DM" "DmPitchs" []).length > 1 then
    (nActs m (lstVal m "DM" "DmHeights" [0]) (lstVal m "DM" "DmPitchs" []) >>= fun nA =>
    if (lstVal m "DM" "OptimizationZenith" [0]).length =
        (lstVal m "DM" "OptimizationAzimuth" [0]).length ∧
       (lstVal m "DM" "OptimizationZenith" [0]).length =
        (lstVal m "DM" "OptimizationWeight" [0]).length then
    if nA = (lstVal m "DM" "DmPitchs" []).length ∧
      (lstVal m "DM" "DmHeights" [0]).length = (lstVal m "DM" "DmPitchs" []).length then
    if (lstVal m "DM" "DmPitchs" []).length = 0 ∨ lstVal m "DM" "InfCoupling" [1/5] ≠ [] then
    .ok ⟨lstVal m "DM" "DmPitchs" [], lstVal m "DM" "DmHeights" [0],
      couplingVal (lstVal m "DM" "InfCoupling" [1/5]) (lstVal m "DM" "DmPitchs" []).length,
      numVal m "DM" "NumberReconstructedLayers" 10⟩
    else .error (.py .indexError)
    else .error .dmSizes
    else .error (.notSameLength "DM"
      ["OptimizationZenith","OptimizationAzimuth","OptimizationWeight"]))
    else .error (.missingOption "DM" "DmHeights")
    else .error (.missingOption "DM" "DmPitchs")
    else .error (.missingSection "DM") := by
  unfold dmStage
  simp only [require_bind, ok_bind, lstOpt_typed (h.lst' "DM" "DmPitchs"),
    lstOpt_typed (h.lst' "DM" "DmHeights"), lstOpt_typed (h.lst' "DM" "InfCoupling"),
    lstOpt_typed (h.lst' "DM" "OptimizationWeight"), lstOpt_typed (h.lst' "DM" "OptimizationAzimuth"),
    lstOpt_typed (h.lst' "DM" "OptimizationZenith"),
    numOpt_typed (h.num' "DM" "NumberReconstructedLayers"), padCoupling_ite, ite_bind', pure_eq]
  rfl

theorem nActs_cases {m : Map} (h : IsNumOrLst m "DM" "NumberActuators") (hs p : List ℚ) :
    (get m "DM" "NumberActuators" = none ∧
      ((∃ k, nActs m hs p = .ok k ∧ (hs.length = p.length → k = p.length)) ∨
        (nActs m hs p = .error (.py .broadcast) ∧ hs.length ≠ p.length))) ∨
    ((get m "DM" "NumberActuators").isSome = true ∧
      (∀ v, get m "DM" "NumberActuators" = some v → ∀ l, v ≠ .lst l) ∧ nActs m hs p = .ok 1) ∨
    (∃ l, get m "DM" "NumberActuators" = some (.lst l) ∧ nActs m hs p = .ok l.length) := by
  cases hg : get m "DM" "NumberActuators" with
  | none =>
    left
    refine ⟨rfl, ?_⟩
    unfold nActs
    rw [hg]
    rcases bcast_length (fun (_ _ : ℚ) => ()) hs p with ⟨l, hl, hlen⟩ | ⟨he, hne⟩
    · left
      simp only [hl]
      exact ⟨_, rfl, by omega⟩
    · right; simp only [he]; exact ⟨trivial, hne⟩
  | some v =>
    right
    rcases h v hg with ⟨z, rfl⟩ | ⟨q, rfl⟩ | ⟨l, rfl⟩
    · left; simp [nActs, hg]
    · left; simp [nActs, hg]
    · right; exact ⟨l, rfl, by simp [nActs, hg]⟩

theorem dmStage_ok {m : Map} (h : Typed m) (d : DM) : dmStage m = .ok d ↔
    WFMirrors m ∧ d = ⟨lstVal m "DM" "DmPitchs" [], lstVal m "DM" "DmHeights" [0],
      couplingVal (lstVal m "DM" "InfCoupling" [1/5]) (lstVal m "DM" "DmPitchs" []).length,
      numVal m "DM" "NumberReconstructedLayers" 10⟩ := by
  rw [dmStage_cascade h]
  have hc := nActs_cases h.actuators (lstVal m "DM" "DmHeights" [0]) (lstVal m "DM" "DmPitchs" [])
  constructor
  · intro hd
    simp only [ite_ok, bind_ok_iff] at hd
    obtain ⟨h1, h2, h3, k, hk, h4, h5, h6, hd⟩ := hd
    · cases hd
      refine ⟨⟨h1, h2, ?_, h5.2, ?_, ?_, ?_, h4.1.symm, h4.2.symm⟩, rfl⟩
      · rcases h3 with h3 | h3
        · exact Or.inr h3
        · exact Or.inl (by omega)
      · intro hv hh
        rcases hc with ⟨hn, -⟩ | ⟨-, -, he⟩ | ⟨l, hl, -⟩
        · rw [Has, hn] at hh; simp at hh
        · rw [he] at hk; cases hk; exact h5.1.symm
        · exact absurd rfl (hv _ hl l)
      · intro l hl
        rcases hc with ⟨hn, -⟩ | ⟨-, hv, he⟩ | ⟨l', hl', he⟩
        · rw [hn] at hl; cases hl
        · exact absurd rfl (hv _ hl l)
        · rw [hl] at hl'; cases hl'; rw [he] at hk; cases hk; exact h5.1
      · rcases h6 with h6 | h6
        · left; exact List.length_eq_zero_iff.mp h6
        · right; exact h6
  · rintro ⟨⟨h1, h2, h3, h4, h5, h6, h7, h8, h9⟩, rfl⟩
    have e3 : (get m "DM" "DmHeights").isSome = true ∨ ¬ (lstVal m "DM" "DmPitchs" []).length > 1 := by
      rcases h3 with h3 | h3
      · right; omega
      · left; exact h3
    have hk : nActs m (lstVal m "DM" "DmHeights" [0]) (lstVal m "DM" "DmPitchs" []) =
        .ok (lstVal m "DM" "DmPitchs" []).length := by
      rcases hc with ⟨hn, ⟨k, hk, hk2⟩ | ⟨-, hne⟩⟩ | ⟨hs, hv, he⟩ | ⟨l, hl, he⟩
      · rw [hk, hk2 h4]
      · exact absurd h4 hne
      · rw [he, h5 hv hs]
      · rw [he, h6 l hl]
    have e7 : (lstVal m "DM" "DmPitchs" []).length = 0 ∨ lstVal m "DM" "InfCoupling" [1/5] ≠ [] := by
      rcases h7 with h7 | h7
      · left; simp [h7]
      · right; exact h7
    simp only [ite_ok, bind_ok_iff]
    exact ⟨h1, h2, e3, _, hk, ⟨h8.symm, h9.symm⟩, ⟨rfl, h4⟩, e7, trivial⟩

theorem get_put_ne (m : Map) {s o s' o' : String} (v : Val) (h : s ≠ s' ∨ o ≠ o') :
    get (put m s o v) s' o' = get m s' o' := by
  unfold get put
  by_cases hs : s' = s
  · subst hs
    simp only [if_true]
    rcases h with h | h
    · exact absurd rfl h
    · cases m s' with
      | none => rfl
      | some f => simp [Ne.symm h]
  · simp [hs]

theorem get_put_eq (m : Map) {s o : String} (v : Val) (h : hasSec m s = true) :
    get (put m s o v) s o = some v := by
  unfold get put hasSec at *
  cases hm : m s with
  | none => simp [hm] at h
  | some f => simp

theorem hasSec_put (m : Map) (s o s' : String) (v : Val) :
    hasSec (put m s o v) s' = hasSec m s' := by
  unfold hasSec put
  by_cases hs : s' = s
  · subst hs; simp
  · simp [hs]

/-- Field of view after validation and expansion. -/
def fovResult (env : Env) (wvl : List ℚ) (f0 : ℤ) : ℤ :=
  if env.psdExpansion = true ∧ wvl.length > 1 then f0 * wvlRatio wvl else f0

theorem camStage_cascade {env : Env} {m : Map} (h : Typed m) (wvl pitch : List ℚ) :
    camStage env m wvl pitch =
    if hasSec m "sensor_science" = true then
    if (get m "sensor_science" "PixelScale").isSome = true then
    (scienceFov env m wvl (numVal m "sensor_science" "PixelScale" 1) pitch >>= fun f0 =>
    if colsVal m "sensor_science" "Dispersion" =
      (lstVal m "sensor_science" "Transmittance" [1]).length then
    .ok (fovResult env wvl f0, put m "sensor_science" "FieldOfView" (.int (fovResult env wvl f0)))
    else .error .dispersion)
    else .error (.missingOption "sensor_science" "PixelScale")
    else .error (.missingSection "sensor_science") := by
  unfold camStage
  simp only [require_bind, ok_bind, numOpt_typed (h.num' "sensor_science" "PixelScale")]
  congr 3
  funext f0
  have g1 : ∀ v, get (put m "sensor_science" "FieldOfView" v) "sensor_science" "Transmittance" =
      get m "sensor_science" "Transmittance" := fun v => get_put_ne m v (Or.inr (by decide))
  have g2 : ∀ v, get (put m "sensor_science" "FieldOfView" v) "sensor_science" "Dispersion" =
      get m "sensor_science" "Dispersion" := fun v => get_put_ne m v (Or.inr (by decide))
  have e : ∀ v, spectralCheck (put m "sensor_science" "FieldOfView" v) "sensor_science" =
      spectralCheck m "sensor_science" := by
    intro v; unfold spectralCheck lstOpt; rw [g1, g2]
  rw [e, spectral_cascade (h.lst' "sensor_science" "Transmittance")
    (h.mat "sensor_science" (by decide)), ite_bind', pure_eq]
  rfl

theorem telescopeStage_ok {env : Env} {m : Map} (h : Typed m) (z : ℚ) :
    telescopeStage env m = .ok z ↔
      WFTelescope env m ∧ z = numVal m "telescope" "ZenithAngle" 0 := by
  rw [telescopeStage_cascade h]
  simp only [ite_ok, Except.ok.injEq]
  constructor
  · rintro ⟨h1, h2, h3, g1, g2, g3, g4, g5, g6, g7, g8, rfl⟩
    refine ⟨⟨h1, h2, h3, ?_, g7⟩, rfl⟩
    simp only [fileOptions, List.forall_mem_cons]
    exact ⟨g1, g2, g3, g4, g5, g6, g8, by simp⟩
  · rintro ⟨⟨h1, h2, h3, hfiles, g7⟩, rfl⟩
    simp only [fileOptions, List.forall_mem_cons] at hfiles
    obtain ⟨g1, g2, g3, g4, g5, g6, g8, -⟩ := hfiles
    exact ⟨h1, h2, h3, g1, g2, g3, g4, g5, g6, g7, g8, rfl⟩

/-- The profile of a map. -/
def profileOf (m : Map) : Profile :=
  ⟨lstVal m "atmosphere" "Cn2Weights" [1],
        lstVal m "atmosphere" "Cn2Heights" [0], lstVal m "atmosphere" "WindSpeed" [10],
        lstVal m "atmosphere" "WindDirection"
          ((lstVal m "atmosphere" "WindSpeed" [10]).map (fun _ => 0))⟩

theorem atmosphereStage_ok {m : Map} (h : Typed m) (p : Profile) :
    atmosphereStage m = .ok p ↔ WFAtmosphere m ∧ p = profileOf m := by
  rw [atmosphereStage_cascade h]
  simp only [ite_ok, Except.ok.injEq]
  have hd := h.lst' "atmosphere" "WindDirection"
  constructor
  · rintro ⟨h1, h2, h3, h4, ⟨h5, h6, h7⟩, rfl⟩
    refine ⟨⟨h1, h2, h3, h4, h5.symm, by omega, ?_⟩, rfl⟩
    intro l hl
    have : lstVal m "atmosphere" "WindDirection"
          ((lstVal m "atmosphere" "WindSpeed" [10]).map (fun _ => 0)) = l := by
      simp [lstVal, hl]
    rw [this] at h7; omega
  · rintro ⟨⟨h1, h2, h3, h4, h5, h6, h7⟩, rfl⟩
    refine ⟨h1, h2, h3, h4, ⟨h5.symm, by omega, ?_⟩, rfl⟩
    cases hg : get m "atmosphere" "WindDirection" with
    | none => simp [lstVal, hg]
    | some v =>
      obtain ⟨l, rfl⟩ := hd v hg
      have : lstVal m "atmosphere" "WindDirection"
          ((lstVal m "atmosphere" "WindSpeed" [10]).map (fun _ => 0)) = l := by
        simp [lstVal, hg]
      rw [this, h7 l hg, h6]

theorem scienceFov_ok (env : Env) (m : Map) (wvl : List ℚ) (ps : ℚ) (pitch : List ℚ) :
    (∃ f, scienceFov env m wvl ps pitch = .ok f) ↔
     ∃ q : ℚ, (get m "sensor_science" "FieldOfView" = some (.flt q) ∨
      ∃ z : ℤ, get m "sensor_science" "FieldOfView" = some (.int z) ∧ q = z) ∧
    (0 < q ∨ |q - (-1)| ≤ 1001/100000000) := by
  have e : (1/100000000 + 1/100000 : ℚ) = 1001/100000000 := by norm_num
  unfold scienceFov
  simp only [e, sub_neg_eq_add]
  cases hg : get m "sensor_science" "FieldOfView" with
  | none => simp
  | some v =>
    cases v with
    | int z =>
      simp only [Option.some.injEq, Val.int.injEq, reduceCtorEq, false_or]
      constructor
      · rintro ⟨f, hf⟩
        refine ⟨z, ⟨z, rfl, rfl⟩, ?_⟩
        split_ifs at hf with h1 h2
        · exact Or.inr h1
        · exact Or.inl h2
      · rintro ⟨q, ⟨z', rfl, rfl⟩, hq⟩
        split_ifs with h1 h2
        · exact ⟨_, rfl⟩
        · exact ⟨_, rfl⟩
        · rcases hq with hq | hq
          · exact absurd hq h2
          · exact absurd hq h1
    | flt q =>
      simp only [Option.some.injEq, Val.flt.injEq, reduceCtorEq, false_and, exists_false, or_false]
      constructor
      · rintro ⟨f, hf⟩
        refine ⟨q, rfl, ?_⟩
        split_ifs at hf with h1 h2
        · exact Or.inr h1
        · exact Or.inl h2
      · rintro ⟨q', rfl, hq⟩
        split_ifs with h1 h2
        · exact ⟨_, rfl⟩
        · exact ⟨_, rfl⟩
        · rcases hq with hq | hq
          · exact absurd hq h2
          · exact absurd hq h1
    | _ => simp

theorem scienceFov_err (env : Env) (m : Map) (wvl : List ℚ) (ps : ℚ) (pitch : List ℚ) (e : Err)
    (h : scienceFov env m wvl ps pitch = .error e) :
    (get m "sensor_science" "FieldOfView" = none ∧
      e = .missingOption "sensor_science" "FieldOfView") ∨ 
    ((get m "sensor_science" "FieldOfView").isSome = true ∧ e = .badFov ∧ 
      ¬ ∃ f, scienceFov env m wvl ps pitch = .ok f) := by
  have hn : ¬ ∃ f, scienceFov env m wvl ps pitch = .ok f := by
    rintro ⟨f, hf⟩; rw [hf] at h; cases h
  unfold scienceFov at h
  cases hg : get m "sensor_science" "FieldOfView" with
  | none => rw [hg] at h; cases h; exact Or.inl ⟨rfl, rfl⟩
  | some v =>
    right
    refine ⟨rfl, ?_, hn⟩
    rw [hg] at h
    cases v with
    | int z => 
      simp only at h; split_ifs at h; cases h; rfl
    | flt q => simp only at h; split_ifs at h; cases h; rfl
    | _ => cases h; rfl

theorem hoStage_ok {m : Map} (h : Typed m) (r : List ℚ × List ℚ × List ℚ × ℚ) :
    hoStage m = .ok r ↔ WFGuideStars m ∧ r = (wvlVal m "sources_HO",
      lstVal m "sources_HO" "Zenith" [0], lstVal m "sources_HO" "Azimuth" [0],
      numVal m "sources_HO" "Height" 0) := by
  rw [hoStage_cascade h]
  simp only [ite_ok, Except.ok.injEq]
  constructor
  · rintro ⟨h1, h2, h3, rfl⟩; exact ⟨⟨h1, h2, h3⟩, rfl⟩
  · rintro ⟨⟨h1, h2, h3⟩, rfl⟩; exact ⟨h1, h2, h3, rfl⟩

/-- The low-order stars, if any. -/
def loOpt (m : Map) : Option (Src ℚ) := if hasSec m "sources_LO" = true then some (loSrc m) else none

theorem loStage_ok {m : Map} (h : Typed m) (r : Option (Src ℚ)) :
    loStage m = .ok r ↔ WFLowOrder m ∧ r = loOpt m := by
  rw [loStage_cascade h, loOpt]
  by_cases hs : hasSec m "sources_LO" = true
  · simp only [hs, if_true, ite_ok, Except.ok.injEq]
    constructor
    · rintro ⟨h1, h2, h3, h4, rfl⟩
      exact ⟨⟨fun _ => h1, fun _ => h2, fun _ => h3, fun _ => h4⟩, rfl⟩
    · rintro ⟨⟨h1, h2, h3, h4⟩, rfl⟩; exact ⟨h1 hs, h2 hs, h3 hs, h4 hs, rfl⟩
  · rw [if_neg hs, if_neg hs, Except.ok.injEq]
    constructor
    · rintro rfl
      exact ⟨⟨fun h => absurd h hs, fun h => absurd h hs, fun h => absurd h hs,
        fun h => absurd h hs⟩, rfl⟩
    · rintro ⟨-, rfl⟩; rfl

theorem hasSec_of_get {m : Map} {s o : String} (h : (get m s o).isSome = true) :
    hasSec m s = true := by
  unfold get hasSec at *
  cases hm : m s with
  | none => simp [hm] at h
  | some f => rfl

/-- The science source of a map. -/
def sciSrc (env : Env) (m : Map) : Src ℚ :=
  mkSource (wvlVal m "sources_science") (sciPos env m "Zenith") (sciPos env m "Azimuth") 0

theorem sciStage_ok {env : Env} {m : Map} (h : Typed m) (hc : env.coo = none)
    (hlo : WFLowOrder m) (r : Src ℚ × List ℚ) :
    sciStage env m = .ok r ↔ WFScience m ∧ r = (sciSrc env m, wvlVal m "sources_science") := by
  rw [sciStage_cascade h hc]
  simp only [ite_ok, Except.ok.injEq]
  constructor
  · rintro ⟨h1, h2, h3, -, -, rfl⟩; exact ⟨⟨h1, h2, h3⟩, rfl⟩
  · rintro ⟨⟨h1, h2, h3⟩, rfl⟩
    exact ⟨h1, h2, h3, fun hq => hlo.zenith (hasSec_of_get hq.2),
      fun hq => hlo.azimuth (hasSec_of_get hq.2), rfl⟩

theorem wfsHO_ok {m : Map} (h : Typed m) (n : ℕ) :
    wfsStage m "sensor_HO" [20] true = .ok n ↔ (WFSensor m "sensor_HO" [20] ∧
      (∀ l, get m "sensor_HO" "SizeLenslets" = some (.lst l) →
        (lstVal m "sensor_HO" "NumberLenslets" [20]).length ≤ l.length)) ∧
      n = (lstVal m "sensor_HO" "NumberLenslets" [20]).length := by
  have hd := h.lst' "sensor_HO" "SizeLenslets"
  rw [wfsStage_cascade (h.lst' "sensor_HO" "Transmittance") (h.mat "sensor_HO" (by decide))
    (h.photons "sensor_HO" (by decide)) (h.lst' "sensor_HO" "NumberLenslets") (fun _ => hd)]
  simp only [ite_ok, Except.ok.injEq, true_imp_iff]
  constructor
  · rintro ⟨h1, h2, h3, h4, h5, rfl⟩
    refine ⟨⟨⟨h1, h2, h5, h4⟩, ?_⟩, rfl⟩
    intro l hl
    simpa [lstVal, hl] using h3
  · rintro ⟨⟨⟨h1, h2, h5, h4⟩, h3⟩, rfl⟩
    refine ⟨h1, h2, ?_, h4, h5, rfl⟩
    cases hg : get m "sensor_HO" "SizeLenslets" with
    | none => simp [lstVal, hg]
    | some v =>
      obtain ⟨l, rfl⟩ := hd v hg
      have : lstVal m "sensor_HO" "SizeLenslets" (lstVal m "sensor_HO" "NumberLenslets" [20]) = l := by
        simp [lstVal, hg]
      rw [this]; exact h3 l hg

theorem wfsLO_ok {m : Map} (h : Typed m) (n : ℕ) :
    wfsStage m "sensor_LO" [1] false = .ok n ↔ WFSensor m "sensor_LO" [1] ∧
      n = (lstVal m "sensor_LO" "NumberLenslets" [1]).length := by
  rw [wfsStage_cascade (h.lst' "sensor_LO" "Transmittance") (h.mat "sensor_LO" (by decide))
    (h.photons "sensor_LO" (by decide)) (h.lst' "sensor_LO" "NumberLenslets") (by simp)]
  simp only [ite_ok, Except.ok.injEq, Bool.false_eq_true, false_imp_iff, true_and]
  constructor
  · rintro ⟨h1, h2, h4, h5, rfl⟩; exact ⟨⟨h1, h2, h5, h4⟩, rfl⟩
  · rintro ⟨⟨h1, h2, h5, h4⟩, rfl⟩; exact ⟨h1, h2, h4, h5, rfl⟩

/-- Optional tip-tilt sensor. -/
def ttsStage (m : Map) : Except Err (Option ℕ) :=
  if hasSec m "sensor_LO" = true then (wfsStage m "sensor_LO" [1] false).map some else pure none

/-- Number of low-order sensors, if the section exists. -/
def nTtsVal (m : Map) : Option ℕ :=
  if hasSec m "sensor_LO" = true then some (lstVal m "sensor_LO" "NumberLenslets" [1]).length
  else none

theorem ttsStage_ok {m : Map} (h : Typed m) (n : Option ℕ) :
    ttsStage m = .ok n ↔ (hasSec m "sensor_LO" = true → WFSensor m "sensor_LO" [1]) ∧
      n = nTtsVal m := by
  unfold ttsStage nTtsVal
  by_cases hs : hasSec m "sensor_LO" = true
  · simp only [hs, if_true, true_imp_iff]
    constructor
    · intro hn
      cases hw : wfsStage m "sensor_LO" [1] false with
      | error e => rw [hw] at hn; cases hn
      | ok k =>
        rw [hw] at hn
        have := (wfsLO_ok h k).mp hw
        refine ⟨this.1, ?_⟩
        cases hn; rw [this.2]
    · rintro ⟨hw, rfl⟩
      rw [(wfsLO_ok h _).mpr ⟨hw, rfl⟩]; rfl
  · simp [hs, pure_eq, eq_comm]

theorem camStage_ok {env : Env} {m : Map} (h : Typed m) (wvl pitch : List ℚ) (r : ℤ × Map) :
    camStage env m wvl pitch = .ok r ↔ WFCamera m ∧ ∃ f0,
      scienceFov env m wvl (numVal m "sensor_science" "PixelScale" 1) pitch = .ok f0 ∧
      r = (fovResult env wvl f0,
        put m "sensor_science" "FieldOfView" (.int (fovResult env wvl f0))) := by
  rw [camStage_cascade h]
  simp only [ite_ok, bind_ok_iff, Except.ok.injEq]
  constructor
  · rintro ⟨h1, h2, f0, hf, h3, rfl⟩
    exact ⟨⟨h1, h2, (scienceFov_ok env m wvl _ pitch).mp ⟨f0, hf⟩, h3⟩, f0, hf, rfl⟩
  · rintro ⟨⟨h1, h2, -, h3⟩, f0, hf, rfl⟩
    exact ⟨h1, h2, f0, hf, h3, rfl⟩

/-- What `configLO_SC` requires. -/
structure WFRest (m : Map) : Prop where
  sci : WFScience m
  ho_section : hasSec m "sensor_HO" = true
  ho : WFSensor m "sensor_HO" [20]
  ho_sizes : ∀ l, get m "sensor_HO" "SizeLenslets" = some (.lst l) →
    (lstVal m "sensor_HO" "NumberLenslets" [20]).length ≤ l.length
  lo_sensor : hasSec m "sensor_LO" = true → WFSensor m "sensor_LO" [1]
  dm : WFMirrors m
  cam : WFCamera m

/-- The mirrors of a map. -/
def dmOf (m : Map) : DM := ⟨lstVal m "DM" "DmPitchs" [], lstVal m "DM" "DmHeights" [0],
      couplingVal (lstVal m "DM" "InfCoupling" [1/5]) (lstVal m "DM" "DmPitchs" []).length,
      numVal m "DM" "NumberReconstructedLayers" 10⟩

/-- `configLO_SC` succeeds exactly on well-formed maps, and its result is determined. -/
theorem configLO_SC_ok {env : Env} {m : Map} (h : Typed m) (hc : env.coo = none)
    (hlo : WFLowOrder m) (z : ℚ) (p : Profile) (lgs ngs : Option (Src ℚ)) (s : System) :
    configLO_SC env m z p lgs ngs = .ok s ↔ WFRest m ∧ ∃ f0 tt,
      scienceFov env m (wvlVal m "sources_science") (numVal m "sensor_science" "PixelScale" 1)
        (lstVal m "DM" "DmPitchs" []) = .ok f0 ∧
      rtcStage m = .ok (numVal m "RTC" "LoopGain_HO" (1/2), tt) ∧
      s = { map := put m "sensor_science" "FieldOfView"
              (.int (fovResult env (wvlVal m "sources_science") f0)),
            zenithAngle := z, profile := p, lgs := lgs, ngs := ngs, src := sciSrc env m,
            nWfs := (lstVal m "sensor_HO" "NumberLenslets" [20]).length, nTts := nTtsVal m,
            gainHO := numVal m "RTC" "LoopGain_HO" (1/2), ttloop := tt, dms := dmOf m,
            fov := fovResult env (wvlVal m "sources_science") f0,
            mode := aoMode lgs (lstVal m "DM" "DmPitchs" []).length
              (numVal m "DM" "NumberReconstructedLayers" 10) } := by
  obtain ⟨b, hb⟩ := rtcStage_ok h
  have key : configLO_SC env m z p lgs ngs = (do
      let r ← sciStage env m
      require (hasSec m "sensor_HO" = true) (.missingSection "sensor_HO")
      let nWfs ← wfsStage m "sensor_HO" [20] true
      let nTts ← ttsStage m
      let gt ← rtcStage m
      let dm ← dmStage m
      let fm ← camStage env m r.2 dm.pitch
      pure (⟨fm.2, z, p, lgs, ngs, r.1, nWfs, nTts, gt.1, gt.2, dm, fm.1,
        aoMode lgs dm.pitch.length dm.nRecLayers⟩ : System)) := rfl
  rw [key]
  simp only [bind_ok_iff, require_ok_iff, exists_const, sciStage_ok h hc hlo, wfsHO_ok h,
    ttsStage_ok h, dmStage_ok h, camStage_ok h, hb, Except.ok.injEq, pure_eq]
  constructor
  · rintro ⟨r, ⟨w1, rfl⟩, w2, n, ⟨⟨w3, w4⟩, rfl⟩, k, ⟨w5, rfl⟩, gt, rfl, d, ⟨w6, rfl⟩, fm,
      ⟨w7, f0, hf, rfl⟩, rfl⟩
    exact ⟨⟨w1, w2, w3, w4, w5, w6, w7⟩, f0, b, hf, rfl, rfl⟩
  · rintro ⟨⟨w1, w2, w3, w4, w5, w6, w7⟩, f0, tt, hf, htt, rfl⟩
    cases htt
    exact ⟨_, ⟨w1, rfl⟩, w2, _, ⟨⟨w3, w4⟩, rfl⟩, _, ⟨w5, rfl⟩, _, rfl, _, ⟨w6, rfl⟩, _,
      ⟨w7, f0, hf, rfl⟩, rfl⟩

/-- Laser guide stars of a map. -/
def lgsOf (m : Map) : Option (Src ℚ) :=
  if numVal m "sources_HO" "Height" 0 = 0 ∧ ¬ hasSec m "sources_LO" = true then none
  else some (mkSource (wvlVal m "sources_HO") (lstVal m "sources_HO" "Zenith" [0])
      (lstVal m "sources_HO" "Azimuth" [0]) (numVal m "sources_HO" "Height" 0))

/-- Natural guide stars of a map. -/
def ngsOf (m : Map) : Option (Src ℚ) :=
  if hasSec m "sources_LO" = true then some (loSrc m)
  else if numVal m "sources_HO" "Height" 0 = 0 then
    some (mkSource (wvlVal m "sources_HO") (lstVal m "sources_HO" "Zenith" [0])
      (lstVal m "sources_HO" "Azimuth" [0]) 0)
  else none

theorem construct_ok {env : Env} {m : Map} (h : Typed m) (s : System) :
    construct env m = .ok s ↔ WFTelescope env m ∧ WFAtmosphere m ∧ WFGuideStars m ∧ WFLowOrder m ∧
      configLO_SC env m (numVal m "telescope" "ZenithAngle" 0) (profileOf m) (lgsOf m) (ngsOf m)
        = .ok s := by
  unfold construct
  simp only [bind_ok_iff, telescopeStage_ok h, atmosphereStage_ok h, hoStage_ok h, loStage_ok h]
  have e1 : (match loOpt m with
      | some s => some s
      | none => if numVal m "sources_HO" "Height" 0 = 0 ∧ ¬ hasSec m "sources_LO" = true then
          some (mkSource (wvlVal m "sources_HO") (lstVal m "sources_HO" "Zenith" [0])
            (lstVal m "sources_HO" "Azimuth" [0]) 0) else none) = ngsOf m := by
    unfold loOpt ngsOf
    by_cases hs : hasSec m "sources_LO" = true <;> simp [hs]
  constructor
  · rintro ⟨_, ⟨w1, rfl⟩, _, ⟨w2, rfl⟩, _, ⟨w3, rfl⟩, _, ⟨w4, rfl⟩, hk⟩
    refine ⟨w1, w2, w3, w4, ?_⟩
    rw [← e1]; exact hk
  · rintro ⟨w1, w2, w3, w4, hk⟩
    refine ⟨_, ⟨w1, rfl⟩, _, ⟨w2, rfl⟩, _, ⟨w3, rfl⟩, _, ⟨w4, rfl⟩, ?_⟩
    rw [← e1] at hk; exact hk

theorem not_isSome {α : Type} {o : Option α} (h : ¬ o.isSome = true) : o = none := by
  cases o with
  | none => rfl
  | some a => simp at h

theorem not_FileOk {env : Env} {m : Map} {o : String} (h : ¬ FileOk env m o) :
    Defect env m (.fileNotFound o) := by
  unfold FileOk at h
  push Not at h
  obtain ⟨n, h1, -, h3⟩ := h
  exact ⟨n, h1, by simpa using h3⟩

theorem telescopeStage_err {env : Env} {m : Map} (h : Typed m) {e : Err}
    (he : telescopeStage env m = .error e) : Defect env m e := by
  rw [telescopeStage_cascade h] at he
  simp only [ite_err, reduceCtorEq, and_false, or_false] at he
  rcases he with ⟨h1, rfl⟩ | ⟨h1, ⟨h2, rfl⟩ | ⟨-, ⟨h3, rfl⟩ | ⟨-, ⟨h4, rfl⟩ | ⟨-, ⟨h4, rfl⟩ |
    ⟨-, ⟨h4, rfl⟩ | ⟨-, ⟨h4, rfl⟩ | ⟨-, ⟨h4, rfl⟩ | ⟨-, ⟨h4, rfl⟩ | ⟨-, ⟨h5, rfl⟩ | ⟨-, h4, rfl⟩⟩⟩⟩⟩⟩⟩⟩⟩⟩
  · simpa [Defect] using h1
  · exact ⟨h1, not_isSome h2⟩
  · simpa [Defect] using h3
  all_goals try exact not_FileOk h4
  unfold PrecisionOk at h5
  push Not at h5
  exact h5

theorem atmosphereStage_err {env : Env} {m : Map} (h : Typed m) {e : Err}
    (he : atmosphereStage m = .error e) : Defect env m e := by
  rw [atmosphereStage_cascade h] at he
  simp only [ite_err, reduceCtorEq, and_false, or_false] at he
  rcases he with ⟨h1, rfl⟩ | ⟨h1, ⟨h2, rfl⟩ | ⟨-, ⟨h3, rfl⟩ | ⟨-, ⟨h4, rfl⟩ | ⟨-, h5, rfl⟩⟩⟩⟩
  · simpa [Defect] using h1
  · push Not at h2
    exact ⟨h1, not_isSome (by simp [h2.1])⟩
  · left; exact ⟨rfl, by simpa using h3⟩
  · simpa [Defect] using h4
  · have len : ∀ o d, (lstVal m "atmosphere" o [d]).length = listLen m "atmosphere" o := by
      intro o d
      unfold listLen lstVal
      split <;> rfl
    rw [len, len, len] at h5
    simp only [Defect]
    by_contra hcon
    push Not at hcon
    refine h5 ⟨hcon _ (by simp) _ (by simp), hcon _ (by simp) _ (by simp), ?_⟩
    have hd := h.lst' "atmosphere" "WindDirection"
    cases hg : get m "atmosphere" "WindDirection" with
    | none => 
      have : lstVal m "atmosphere" "WindDirection"
          (List.map (fun _ => 0) (lstVal m "atmosphere" "WindSpeed" [10])) = 
          (List.map (fun _ => (0:ℚ)) (lstVal m "atmosphere" "WindSpeed" [10])) := by 
        simp [lstVal, hg]
      rw [this, List.length_map, len]
    | some v =>
      obtain ⟨l, rfl⟩ := hd v hg
      have e1 : lstVal m "atmosphere" "WindDirection"
          (List.map (fun _ => 0) (lstVal m "atmosphere" "WindSpeed" [10])) = l := by
        simp [lstVal, hg]
      have e2 : listLen m "atmosphere" "WindDirection" = l.length := by simp [listLen, lstVal, hg]
      rw [e1, ← e2]
      exact hcon _ (by simp) _ (by simp)

theorem hoStage_err {env : Env} {m : Map} (h : Typed m) {e : Err}
    (he : hoStage m = .error e) : Defect env m e := by
  rw [hoStage_cascade h] at he
  simp only [ite_err, reduceCtorEq, and_false, or_false] at he
  rcases he with ⟨h1, rfl⟩ | ⟨h1, ⟨h2, rfl⟩ | ⟨-, h3, rfl⟩⟩
  · simpa [Defect] using h1
  · exact ⟨h1, not_isSome h2⟩
  · exact ⟨"Zenith", by simp, "Azimuth", by simp, h3⟩

theorem listLen_of_has {m : Map} (h : Typed m) {s o : String} (d : List ℚ)
    (hm : (s, o) ∈ lstOptions) (hh : (get m s o).isSome = true) :
    (lstVal m s o d).length = listLen m s o := by
  obtain ⟨v, hv⟩ := Option.isSome_iff_exists.mp hh
  obtain ⟨l, rfl⟩ := h.lst (s, o) hm v hv
  simp [listLen, lstVal, hv]

theorem loStage_err {env : Env} {m : Map} (h : Typed m) {e : Err}
    (he : loStage m = .error e) : Defect env m e := by
  rw [loStage_cascade h] at he
  by_cases h1 : hasSec m "sources_LO" = true
  · rw [if_pos h1] at he
    simp only [ite_err, reduceCtorEq, and_false, or_false] at he
    rcases he with ⟨h2, rfl⟩ | ⟨-, ⟨h3, rfl⟩ | ⟨h3, ⟨h4, rfl⟩ | ⟨h4, h5, rfl⟩⟩⟩
    · exact ⟨h1, not_isSome h2⟩
    · right; left; exact ⟨rfl, h1, Or.inl (not_isSome h3)⟩
    · right; left; exact ⟨rfl, h1, Or.inr (not_isSome h4)⟩
    · refine ⟨"Zenith", by simp, "Azimuth", by simp, ?_⟩
      rw [← listLen_of_has h [] (by decide) h3, ← listLen_of_has h [] (by decide) h4]
      exact h5
  · rw [if_neg h1] at he; cases he

theorem sciStage_err {env : Env} {m : Map} (h : Typed m) (hc : env.coo = none) {e : Err}
    (he : sciStage env m = .error e) : Defect env m e := by
  rw [sciStage_cascade h hc] at he
  simp only [ite_err, reduceCtorEq, and_false, or_false] at he
  rcases he with ⟨h1, rfl⟩ | ⟨h1, ⟨h2, rfl⟩ | ⟨-, ⟨h3, rfl⟩ | ⟨-, ⟨h4, rfl⟩ | ⟨-, h4, rfl⟩⟩⟩⟩
  · simpa [Defect] using h1
  · exact ⟨h1, not_isSome h2⟩
  · exact ⟨"Zenith", by simp, "Azimuth", by simp, h3⟩
  · push Not at h4
    right; left; exact ⟨rfl, hasSec_of_get h4.1.2, Or.inl (not_isSome (by simp [h4.2]))⟩
  · push Not at h4
    right; left; exact ⟨rfl, hasSec_of_get h4.1.2, Or.inr (not_isSome (by simp [h4.2]))⟩

theorem wfsHO_err {env : Env} {m : Map} (h : Typed m) (hs : hasSec m "sensor_HO" = true) {e : Err}
    (he : wfsStage m "sensor_HO" [20] true = .error e) : Defect env m e := by
  rw [wfsStage_cascade (h.lst' "sensor_HO" "Transmittance") (h.mat "sensor_HO" (by decide))
    (h.photons "sensor_HO" (by decide)) (h.lst' "sensor_HO" "NumberLenslets")
    (fun _ => h.lst' "sensor_HO" "SizeLenslets")] at he
  simp only [ite_err, reduceCtorEq, and_false, or_false, true_imp_iff] at he
  rcases he with ⟨h1, rfl⟩ | ⟨-, ⟨h2, rfl⟩ | ⟨-, ⟨h3, rfl⟩ | ⟨-, ⟨h4, rfl⟩ | ⟨-, h5, rfl⟩⟩⟩⟩
  · exact ⟨hs, not_isSome h1⟩
  · exact ⟨hs, not_isSome h2⟩
  · right; right; right; exact ⟨rfl, by right; right; right; omega⟩
  · push Not at h4; exact ⟨"sensor_HO", by simp, h4.2⟩
  · right; right; right; exact ⟨rfl, by right; left; omega⟩

theorem wfsLO_err {env : Env} {m : Map} (h : Typed m) (hs : hasSec m "sensor_LO" = true) {e : Err}
    (he : wfsStage m "sensor_LO" [1] false = .error e) : Defect env m e := by
  rw [wfsStage_cascade (h.lst' "sensor_LO" "Transmittance") (h.mat "sensor_LO" (by decide))
    (h.photons "sensor_LO" (by decide)) (h.lst' "sensor_LO" "NumberLenslets") (by simp)] at he
  simp only [ite_err, reduceCtorEq, and_false, or_false, Bool.false_eq_true, false_imp_iff,
    not_true_eq_false, false_and, true_and, false_or] at he
  rcases he with ⟨h1, rfl⟩ | ⟨-, ⟨h2, rfl⟩ | ⟨-, ⟨h4, rfl⟩ | ⟨-, h5, rfl⟩⟩⟩
  · exact ⟨hs, not_isSome h1⟩
  · exact ⟨hs, not_isSome h2⟩
  · push Not at h4; exact ⟨"sensor_LO", by simp, h4.2⟩
  · right; right; right; exact ⟨rfl, by right; right; left; omega⟩

theorem ttsStage_err {env : Env} {m : Map} (h : Typed m) {e : Err}
    (he : ttsStage m = .error e) : Defect env m e := by
  unfold ttsStage at he
  split at he
  · rename_i hs
    cases hw : wfsStage m "sensor_LO" [1] false with
    | ok n => rw [hw] at he; cases he
    | error e' => rw [hw] at he; cases he; exact wfsLO_err h hs hw
  · cases he

theorem dmStage_err {env : Env} {m : Map} (h : Typed m) {e : Err}
    (he : dmStage m = .error e) : Defect env m e := by
  rw [dmStage_cascade h] at he
  simp only [ite_err, bind_error_iff, reduceCtorEq, and_false, or_false] at he
  have hc := nActs_cases h.actuators (lstVal m "DM" "DmHeights" [0]) (lstVal m "DM" "DmPitchs" [])
  rcases he with ⟨h1, rfl⟩ | ⟨h1, ⟨h2, rfl⟩ | ⟨-, ⟨h3, rfl⟩ | ⟨-, hk | ⟨k, hk, ⟨h4, rfl⟩ |
    ⟨-, ⟨h5, rfl⟩ | ⟨-, h6, rfl⟩⟩⟩⟩⟩⟩
  · simpa [Defect] using h1
  · exact ⟨h1, not_isSome h2⟩
  · push Not at h3
    exact ⟨h1, not_isSome (by simp [h3.1])⟩
  · rcases hc with ⟨hn, ⟨k, hk', -⟩ | ⟨hk', hne⟩⟩ | ⟨-, -, hk'⟩ | ⟨l, -, hk'⟩
    · rw [hk'] at hk; cases hk
    · rw [hk'] at hk; cases hk
      right; right; left; exact ⟨rfl, hne⟩
    · rw [hk'] at hk; cases hk
    · rw [hk'] at hk; cases hk
  · simp only [Defect]
    by_contra hcon
    push Not at hcon
    exact h4 ⟨hcon _ (by simp) _ (by simp), hcon _ (by simp) _ (by simp)⟩
  · by_cases hh : (lstVal m "DM" "DmHeights" [0]).length = (lstVal m "DM" "DmPitchs" []).length
    · have h5' : k ≠ (lstVal m "DM" "DmPitchs" []).length := fun hkk => h5 ⟨hkk, hh⟩
      rcases hc with ⟨hn, ⟨k', hk', hk2⟩ | ⟨hk', hne⟩⟩ | ⟨hs, -, hk'⟩ | ⟨l, hl, hk'⟩
      · rw [hk'] at hk; cases hk; exact absurd (hk2 hh) h5'
      · exact absurd hh hne
      · rw [hk'] at hk; cases hk
        right; right; exact ⟨hs, Ne.symm h5'⟩
      · rw [hk'] at hk; cases hk
        right; left; exact ⟨l, hl, h5'⟩
    · left; exact hh
  · push Not at h6
    right; right; right; exact ⟨rfl, Or.inl h6.2⟩

theorem camStage_err {env : Env} {m : Map} (h : Typed m) {wvl pitch : List ℚ} {e : Err}
    (he : camStage env m wvl pitch = .error e) : Defect env m e := by
  rw [camStage_cascade h] at he
  simp only [ite_err, bind_error_iff, reduceCtorEq, and_false, or_false] at he
  rcases he with ⟨h1, rfl⟩ | ⟨h1, ⟨h2, rfl⟩ | ⟨-, h3 | ⟨f0, -, h4, rfl⟩⟩⟩
  · simpa [Defect] using h1
  · exact ⟨h1, not_isSome h2⟩
  · rcases scienceFov_err env m wvl _ pitch e h3 with ⟨h4, rfl⟩ | ⟨-, rfl, h5⟩
    · exact ⟨h1, h4⟩
    · rw [scienceFov_ok] at h5
      intro q hq
      by_contra hcon
      exact h5 ⟨q, hq, Or.inl (by linarith [not_le.mp hcon])⟩
  · exact ⟨"sensor_science", by simp, h4⟩

theorem configLO_SC_err {env : Env} {m : Map} (h : Typed m) (hc : env.coo = none)
    {z : ℚ} {p : Profile} {lgs ngs : Option (Src ℚ)} {e : Err}
    (he : configLO_SC env m z p lgs ngs = .error e) : Defect env m e := by
  obtain ⟨b, hb⟩ := rtcStage_ok h
  have key : configLO_SC env m z p lgs ngs = (do
      let r ← sciStage env m
      require (hasSec m "sensor_HO" = true) (.missingSection "sensor_HO")
      let nWfs ← wfsStage m "sensor_HO" [20] true
      let nTts ← ttsStage m
      let gt ← rtcStage m
      let dm ← dmStage m
      let fm ← camStage env m r.2 dm.pitch
      pure (⟨fm.2, z, p, lgs, ngs, r.1, nWfs, nTts, gt.1, gt.2, dm, fm.1,
        aoMode lgs dm.pitch.length dm.nRecLayers⟩ : System)) := rfl
  rw [key] at he
  simp only [bind_error_iff, hb, require_error_iff, require_ok_iff] at he
  rcases he with h1 | ⟨r, -, h2 | ⟨-, hs, h3 | ⟨n, -, h4 | ⟨k, -, h5 | ⟨gt, -, h6 | ⟨d, -, h7 |
    ⟨fm, -, h8⟩⟩⟩⟩⟩⟩⟩
  · exact sciStage_err h hc h1
  · obtain ⟨h2, rfl⟩ := h2; simpa [Defect] using h2
  · exact wfsHO_err h hs h3
  · exact ttsStage_err h h4
  · cases h5
  · exact dmStage_err h h6
  · exact camStage_err h h7
  · cases h8

/-- Writing the science field of view does not change any other option. -/
theorem get_putFov (m : Map) (v : Val) {s o : String}
    (h : (s, o) ≠ ("sensor_science", "FieldOfView")) :
    get (put m "sensor_science" "FieldOfView" v) s o = get m s o := by
  apply get_put_ne
  by_contra hcon
  push Not at hcon
  exact h (by rw [← hcon.1, ← hcon.2])

theorem Typed.putFov {m : Map} (h : Typed m) (v : Val) :
    Typed (put m "sensor_science" "FieldOfView" v) := by
  constructor
  · intro p hp w hw
    rw [get_putFov m v (by intro he; rw [show p = ("sensor_science", "FieldOfView") from he] at hp; revert hp; decide)] at hw
    exact h.num p hp w hw
  · intro p hp w hw
    rw [get_putFov m v (by intro he; rw [show p = ("sensor_science", "FieldOfView") from he] at hp; revert hp; decide)] at hw
    exact h.lst p hp w hw
  · intro p hp w hw
    rw [get_putFov m v (by intro he; injection he with h1 h2; revert h2; decide)] at hw
    exact h.wvl p hp w hw
  · intro p hp w hw
    rw [get_putFov m v (by intro he; injection he with h1 h2; revert h2; decide)] at hw
    exact h.mat p hp w hw
  · intro p hp w hw
    rw [get_putFov m v (by intro he; injection he with h1 h2; revert h2; decide)] at hw
    exact h.photons p hp w hw
  · intro w hw
    rw [get_putFov m v (by decide)] at hw
    exact h.actuators w hw
  · intro p hp w hw
    rw [get_putFov m v (by intro he; injection he with h1 h2; revert h1; decide)] at hw
    exact h.file p hp w hw

theorem wvlVal_putFov (m : Map) (v : Val) (s : String) :
    wvlVal (put m "sensor_science" "FieldOfView" v) s = wvlVal m s := by
  unfold wvlVal
  rw [get_putFov m v (by intro he; injection he with h1 h2; revert h2; decide)]

theorem WFLowOrder.putFov {m : Map} (h : WFLowOrder m) (v : Val) :
    WFLowOrder (put m "sensor_science" "FieldOfView" v) := by
  obtain ⟨h1, h2, h3, h4⟩ := h
  constructor
  · rw [hasSec_put, Has, get_putFov m v (by decide)]; exact h1
  · rw [hasSec_put, Has, get_putFov m v (by decide)]; exact h2
  · rw [hasSec_put, Has, get_putFov m v (by decide)]; exact h3
  · rw [hasSec_put, lstVal, lstVal, get_putFov m v (by decide), get_putFov m v (by decide)]
    exact h4

theorem mkSource_pos {α : Type} (w z a : List α) (h : α) (hl : z.length = a.length) :
    (mkSource w z a h).zenith = z ∧ (mkSource w z a h).azimuth = a ∧
    (mkSource w z a h).nSrc = z.length := by
  unfold mkSource
  dsimp only
  match z, a, w, hl with
  | [], [], _, _ => simp
  | [z], [a], [], _ => simp
  | [z], [a], [w], _ => simp
  | [z], [a], w :: w' :: ws, _ => simp
  | z :: z' :: zs, a :: a' :: as, w, _ => simp

end P3.Config
