import Verif.Model.EmptyPath
import Verif.Props.Options
/-! C470: an empty path. -/
namespace P3.Options
open P3.Config P3.Paths

/-- The six options that name the maps of a telescope. -/
def mapOptions : List String := ["PathPupil", "PathApodizer", "PathStaticOn", "PathStaticOff", "PathStaticPos", "PathStatModes"]

/-- `m` is `m'` with empty names of maps written instead of left out. -/
def Blank (m m' : Map) : Prop :=
  (∀ o, o ∉ mapOptions → get m "telescope" o = get m' "telescope" o) ∧
    ∀ o ∈ mapOptions, get m "telescope" o = get m' "telescope" o ∨
      (get m "telescope" o = some (.str "") ∧ get m' "telescope" o = none)

theorem readFile_blank (env : Env) (h0 : env.isfile [] = false) (m m' : Map) (o : String) (d : Option Str)
    (hd : d = none ∨ d = some []) (h : get m "telescope" o = get m' "telescope" o ∨
      (get m "telescope" o = some (.str "") ∧ get m' "telescope" o = none)) :
    readFile env.isfile (pathOpt env m o d) = readFile env.isfile (pathOpt env m' o d) := by
  rcases h with h | ⟨h, h'⟩
  · unfold pathOpt; rw [h]
  · unfold pathOpt
    rw [h, h']
    have e : Paths.resolve env.isfile "".toList env.root env.p3 env.tiptop = [] := by unfold Paths.resolve; simp
    simp only [e]
    rcases hd with rfl | rfl
    · unfold readFile; simp [h0]
    · rfl

/-- C470 (partial): writing an empty name for any of the maps of the telescope is the same as leaving the option out: the same maps are
read. -/
theorem empty_path_partial (env : Env) (h0 : env.isfile [] = false) (m m' : Map) (hb : Blank m m') (T T' : Telescope)
    (h : telescope env m = .ok T) (h' : telescope env m' = .ok T') :
    maps env.isfile T = maps env.isfile T' ∧ ∀ b, vibrationFile b T = vibrationFile b T' := by
  unfold telescope at h h'
  simp only [bind_ok_iff] at h h'
  obtain ⟨z, -, h⟩ := h
  obtain ⟨z', -, h'⟩ := h'
  simp only [pure, Except.pure, Except.ok.injEq] at h h'
  subst h h'
  have r : ∀ o ∈ mapOptions, ∀ d : Option Str, d = none ∨ d = some [] →
      readFile env.isfile (pathOpt env m o d) = readFile env.isfile (pathOpt env m' o d) :=
    fun o ho d hd => readFile_blank env h0 m m' o d hd (hb.2 o ho)
  constructor
  · unfold maps
    simp only
    rw [r "PathPupil" (by decide) _ (Or.inr rfl), r "PathApodizer" (by decide) _ (Or.inr rfl),
      r "PathStaticOn" (by decide) _ (Or.inl rfl), r "PathStaticOff" (by decide) _ (Or.inl rfl),
      r "PathStaticPos" (by decide) _ (Or.inl rfl), r "PathStatModes" (by decide) _ (Or.inr rfl)]
  · intro b
    unfold vibrationFile pathOpt
    rw [hb.1 "windPsdFile" (by decide)]

/-- C470 (violation): an empty name for the vibrations is accepted as well, but the spectrum can then not be computed, while without
the option it can. -/
theorem empty_vibration_violation (env : Env) (m m' : Map) (hw : get m' "telescope" "windPsdFile" = none)
    (hm : ∀ s o, get m s o = if s = "telescope" ∧ o = "windPsdFile" then some (.str "") else get m' s o)
    (hs : ∀ s, hasSec m s = hasSec m' s) (T' : Telescope) (h' : telescope env m' = .ok T') :
    ∃ T, telescope env m = .ok T ∧ vibrationFile false T = .error () ∧ vibrationFile false T' = .ok none := by
  have g : ∀ o, o ≠ "windPsdFile" → get m "telescope" o = get m' "telescope" o := fun o ho => by
    rw [hm, if_neg (fun h => ho h.2)]
  have gw : get m "telescope" "windPsdFile" = some (.str "") := by rw [hm, if_pos ⟨rfl, rfl⟩]
  have gc : get m "COMPUTATION" "precision" = get m' "COMPUTATION" "precision" := by
    rw [hm, if_neg (by decide)]
  have e : Paths.resolve env.isfile "".toList env.root env.p3 env.tiptop = [] := by unfold Paths.resolve; simp
  have f : ∀ o, o ≠ "windPsdFile" → fileOpt env m "telescope" o = fileOpt env m' "telescope" o := fun o ho => by
    unfold fileOpt; rw [g o ho]
  have fw : fileOpt env m "telescope" "windPsdFile" = .ok () := by
    unfold fileOpt; rw [gw]; simp only [e]; simp [require]
  have fw' : fileOpt env m' "telescope" "windPsdFile" = .ok () := by
    unfold fileOpt; rw [hw]
  have st : telescopeStage env m = telescopeStage env m' := by
    unfold telescopeStage numOpt
    rw [hs, g _ (by decide), g "ZenithAngle" (by decide), f "PathPupil" (by decide), f "PathStaticOn" (by decide),
      f "PathStaticOff" (by decide), f "PathStaticPos" (by decide), f "PathApodizer" (by decide), f "PathStatModes" (by decide),
      gc, fw, fw']
  unfold telescope at h' ⊢
  simp only [bind_ok_iff] at h' ⊢
  obtain ⟨z, hz, h'⟩ := h'
  simp only [pure, Except.pure, Except.ok.injEq] at h' ⊢
  subst h'
  refine ⟨_, ⟨z, by rw [st]; exact hz, rfl⟩, ?_, ?_⟩
  · unfold vibrationFile pathOpt
    rw [gw]; simp only [e]; rfl
  · unfold vibrationFile pathOpt
    rw [hw]; rfl

/-- The template, which has empty names for its maps, and the same file without the name of the pupil. -/
def noPupil : Map := fun s => if s = "telescope" then
  (template (.lst [4]) s).map (fun f o => if o = "PathPupil" then none else f o) else template (.lst [4]) s

example : Blank (template (.lst [4])) noPupil := by
  have key : ∀ o, o ≠ "PathPupil" → get (template (.lst [4])) "telescope" o = get noPupil "telescope" o := by
    intro o ho
    unfold noPupil Config.get
    simp only [if_true]
    cases template (.lst [4]) "telescope" <;> simp [ho]
  refine ⟨fun o ho => key o (fun h => ho (by rw [h]; decide)), fun o _ => ?_⟩
  by_cases h : o = "PathPupil"
  · subst h; right; constructor <;> decide +kernel
  · exact Or.inl (key o h)

example : built (telescope env1 noPupil) = true ∧ built (telescope env1 (template (.lst [4]))) = true ∧ env1.isfile [] = false ∧
    get (template (.lst [4])) "telescope" "windPsdFile" = none := by decide +kernel

/-- The template with an empty name for the vibrations. -/
example : (∀ s o, get (put (template (.lst [4])) "telescope" "windPsdFile" (.str "")) s o =
      if s = "telescope" ∧ o = "windPsdFile" then some (.str "") else get (template (.lst [4])) s o) := by
  intro s o
  unfold Config.get put
  by_cases hs : s = "telescope"
  · subst hs
    have : (template (.lst [4]) "telescope").isSome = true := by decide +kernel
    cases h : template (.lst [4]) "telescope" with
    | none => rw [h] at this; cases this
    | some f => by_cases ho : o = "windPsdFile" <;> simp [ho]
  · simp [hs]

end P3.Options
