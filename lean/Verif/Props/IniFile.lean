import Verif.Model.IniFile
import Mathlib.Tactic.FinCases

/-! C59 and C103: generated and adjusted parameter files. -/

namespace P3.IniFile

/-- The last value given to an option by a sequence of operations (`some none`: removed; `none`: not touched). -/
def lastWrite : List Op → String → String → Option (Option String)
  | [], _, _ => none
  | o :: l, s, k => match lastWrite l s k with
    | some w => some w
    | none => match o with
      | .ensure _ => none
      | .set s' k' v => if s = s' ∧ k = k' then some (some v) else none
      | .remove s' k' => if s = s' ∧ k = k' then some none else none

/-- Sections created by a sequence of operations. -/
def created : List Op → List String
  | [] => []
  | .ensure s :: l => s :: created l
  | _ :: l => created l

/-- Every operation acts on a section that is known or created before it. -/
def Known : List Op → (String → Bool) → Prop
  | [], _ => True
  | .ensure s :: l, sec => Known l fun x => x == s || sec x
  | .set s _ _ :: l, sec => sec s = true ∧ Known l sec
  | .remove s _ :: l, sec => sec s = true ∧ Known l sec

theorem run_spec : ∀ (ops : List Op) (p : Ini), Known ops p.sec → ∃ q, run ops p = some q ∧
    (∀ s, q.sec s = (decide (s ∈ created ops) || p.sec s)) ∧
    ∀ s k, q.get s k = (lastWrite ops s k).getD (p.get s k) := by
  intro ops
  induction ops with
  | nil => intro p _; exact ⟨p, rfl, by simp [created], by simp [lastWrite]⟩
  | cons o l ih =>
    intro p h
    cases o with
    | ensure s =>
      obtain ⟨q, h1, h2, h3⟩ := ih { p with sec := fun x => x == s || p.sec x } h
      refine ⟨q, by simp only [run, step, Option.bind_some]; exact h1, ?_, ?_⟩
      · intro x; rw [h2]; simp only [created, List.mem_cons]
        by_cases hx : x = s
        · simp [hx]
        · have : (x == s) = false := by simpa using hx
          simp [hx, this]
      · intro x y; rw [h3]; simp only [lastWrite]; split <;> simp_all
    | set s k v =>
      obtain ⟨hs, h⟩ := h
      obtain ⟨q, h1, h2, h3⟩ := ih { p with get := fun x y => if x = s ∧ y = k then some v else p.get x y } h
      refine ⟨q, by simp only [run, step, hs, if_true, Option.bind_some]; exact h1, h2, ?_⟩
      intro x y
      rw [h3]
      simp only [lastWrite]
      cases hl : lastWrite l x y with
      | some w => rfl
      | none => by_cases hx : x = s ∧ y = k <;> simp [hx]
    | remove s k =>
      obtain ⟨hs, h⟩ := h
      obtain ⟨q, h1, h2, h3⟩ := ih { p with get := fun x y => if x = s ∧ y = k then none else p.get x y } h
      refine ⟨q, by simp only [run, step, hs, if_true, Option.bind_some]; exact h1, h2, ?_⟩
      intro x y
      rw [h3]
      simp only [lastWrite]
      cases hl : lastWrite l x y with
      | some w => rfl
      | none => by_cases hx : x = s ∧ y = k <;> simp [hx]

theorem run_append (a b : List Op) (p : Ini) : run (a ++ b) p = (run a p).bind (run b) := by
  induction a generalizing p with
  | nil => rfl
  | cons o l ih =>
    simp only [List.cons_append, run]
    cases step p o with
    | none => rfl
    | some q => simp only [Option.bind_some]; exact ih q

theorem write_eq (t : Tel) (p : Ini) : write t p = run (part1 t ++ part2 t p ++ tailOps t) p := by
  have hk : Known (part1 t) p.sec := by
    unfold part1 pathOp
    cases t.pathPupil <;> cases t.pathNcpa <;> cases t.pathTelstat <;> simp [Known]
  obtain ⟨q, h1, h2, h3⟩ := run_spec (part1 t) p hk
  have hc : "sources_HO" ∉ created (part1 t) := by
    unfold part1 pathOp
    cases t.pathPupil <;> cases t.pathNcpa <;> cases t.pathTelstat <;> simp [created]
  have hsec : q.sec "sources_HO" = p.sec "sources_HO" := by rw [h2]; simp [hc]
  have hp : part2 t q = part2 t p := by unfold part2; rw [hsec]
  unfold write
  rw [h1, Option.bind_some, hp, run_append, run_append, h1]
  rfl

/-- All the operations of the writer. -/
def allOps (t : Tel) (p : Ini) : List Op := part1 t ++ part2 t p ++ tailOps t

theorem known_all (t : Tel) (p : Ini) : Known (allOps t p) p.sec := by
  cases hs : p.sec "sources_HO" <;>
  · unfold allOps tailOps part1 part2 part3 part4 part5 part6 part7 pathOp
    rw [hs]
    cases t.pathPupil <;> cases t.pathNcpa <;> cases t.pathTelstat <;> cases t.lgs <;> cases t.hasTT <;> simp [Known, hs]

/-- Names of the options touched by operations. -/
def keys : List Op → List (String × String)
  | [] => []
  | .ensure _ :: l => keys l
  | .set s k _ :: l => (s, k) :: keys l
  | .remove s k :: l => (s, k) :: keys l

theorem lastWrite_none : ∀ (ops : List Op) (s k : String), (s, k) ∉ keys ops → lastWrite ops s k = none := by
  intro ops
  induction ops with
  | nil => intros; rfl
  | cons o l ih =>
    intro s k h
    cases o with
    | ensure x => simp only [keys] at h; simp only [lastWrite, ih s k h]
    | set a b v =>
      simp only [keys, List.mem_cons, not_or, Prod.mk.injEq] at h
      simp only [lastWrite, ih s k h.2, if_neg h.1]
    | remove a b =>
      simp only [keys, List.mem_cons, not_or, Prod.mk.injEq] at h
      simp only [lastWrite, ih s k h.2, if_neg h.1]

theorem lastWrite_set : ∀ (ops : List Op), (keys ops).Nodup → ∀ s k v, Op.set s k v ∈ ops → lastWrite ops s k = some (some v) := by
  intro ops
  induction ops with
  | nil => intro _ s k v h; cases h
  | cons o l ih =>
    intro hn s k v h
    cases o with
    | ensure x =>
      simp only [keys] at hn
      have h' : Op.set s k v ∈ l := by simpa using h
      simp only [lastWrite, ih hn s k v h']
    | set a b w =>
      simp only [keys, List.nodup_cons] at hn
      rcases List.mem_cons.1 h with h' | h'
      · injection h' with e1 e2 e3
        subst e1 e2 e3
        simp only [lastWrite, lastWrite_none l s k hn.1, and_self, if_true]
      · simp only [lastWrite, ih hn.2 s k v h']
    | remove a b =>
      simp only [keys, List.nodup_cons] at hn
      have h' : Op.set s k v ∈ l := by simpa using h
      simp only [lastWrite, ih hn.2 s k v h']

theorem lastWrite_remove : ∀ (ops : List Op), (keys ops).Nodup → ∀ s k, Op.remove s k ∈ ops → lastWrite ops s k = some none := by
  intro ops
  induction ops with
  | nil => intro _ s k h; cases h
  | cons o l ih =>
    intro hn s k h
    cases o with
    | ensure x =>
      simp only [keys] at hn
      have h' : Op.remove s k ∈ l := by simpa using h
      simp only [lastWrite, ih hn s k h']
    | remove a b =>
      simp only [keys, List.nodup_cons] at hn
      rcases List.mem_cons.1 h with h' | h'
      · injection h' with e1 e2
        subst e1 e2
        simp only [lastWrite, lastWrite_none l s k hn.1, and_self, if_true]
      · simp only [lastWrite, ih hn.2 s k h']
    | set a b w =>
      simp only [keys, List.nodup_cons] at hn
      have h' : Op.remove s k ∈ l := by simpa using h
      simp only [lastWrite, ih hn.2 s k h']

theorem keys_append (a b : List Op) : keys (a ++ b) = keys a ++ keys b := by
  induction a with
  | nil => rfl
  | cons o l ih => cases o <;> simp [keys, ih]

/-- The names of the options do not depend on the values. -/
theorem keys_all (t : Tel) (p : Ini) : keys (allOps t p) =
    keys (allOps ⟨fun _ => "", t.lgs, none, none, none, t.hasTT⟩ ⟨fun _ => p.sec "sources_HO", fun _ _ => none⟩) := by
  cases hs : p.sec "sources_HO" <;>
  · unfold allOps tailOps part1 part2 part3 part4 part5 part6 part7 pathOp
    rw [hs]
    cases t.pathPupil <;> cases t.pathNcpa <;> cases t.pathTelstat <;> cases t.lgs <;> cases t.hasTT <;> rfl

theorem nodup_all (t : Tel) (p : Ini) : (keys (allOps t p)).Nodup := by
  rw [keys_all]
  cases p.sec "sources_HO" <;> cases t.lgs <;> cases t.hasTT <;> decide +kernel

theorem mem_created (s : String) : ∀ ops : List Op, s ∈ created ops ↔ Op.ensure s ∈ ops := by
  intro ops
  induction ops with
  | nil => simp [created]
  | cons o l ih => cases o <;> simp [created, ih]

theorem sec_after (t : Tel) (p : Ini) : (decide ("sources_HO" ∈ created (allOps t p)) || p.sec "sources_HO") = true := by
  cases hs : p.sec "sources_HO"
  · have : Op.ensure "sources_HO" ∈ allOps t p := by
      unfold allOps part2
      rw [hs]
      simp
    simp [(mem_created _ _).2 this]
  · simp

theorem keys_sub (t : Tel) (p : Ini) (x : String × String) (h : x ∉ keys (allOps t p)) : x ∉ keys (part1 t ++ tailOps t) := by
  unfold allOps at h
  rw [keys_append, keys_append] at h
  rw [keys_append]
  simp only [List.mem_append, not_or] at h ⊢
  exact ⟨h.1.1, h.2⟩

/-! ### Statements -/

/-- C59: the file can always be written over any existing one, and every option given by the telemetry reads back with
its value; an absent path is removed. -/
theorem write_reads (t : Tel) (p : Ini) : ∃ q, write t p = some q ∧
    (∀ s k v, Op.set s k v ∈ part1 t ++ tailOps t → q.get s k = some v) ∧
    (t.pathPupil = none → q.get "telescope" "PathPupil" = none) ∧
    (t.pathNcpa = none → q.get "telescope" "PathStaticOn" = none) ∧
    (t.pathTelstat = none → q.get "telescope" "PathStatModes" = none) := by
  obtain ⟨q, h1, h2, h3⟩ := run_spec (allOps t p) p (known_all t p)
  have hn := nodup_all t p
  have hmem : ∀ o, o ∈ part1 t ++ tailOps t → o ∈ allOps t p := by
    intro o ho
    unfold allOps
    simp only [List.mem_append] at ho ⊢
    tauto
  have hrem : ∀ k, Op.remove "telescope" k ∈ part1 t → q.get "telescope" k = none := by
    intro k hk
    rw [h3, lastWrite_remove _ hn _ _ (hmem _ (List.mem_append_left _ hk))]
    rfl
  refine ⟨q, by rw [write_eq]; exact h1, ?_, ?_, ?_, ?_⟩
  · intro s k v hv
    rw [h3, lastWrite_set _ hn s k v (hmem _ hv)]
    rfl
  all_goals
    intro h
    apply hrem
    simp [part1, pathOp, h]

/-- C59: some of the options, by name. -/
theorem write_values (t : Tel) (p : Ini) : ∃ q, write t p = some q ∧
    q.get "telescope" "TelescopeDiameter" = some (t.str "tel.D") ∧ q.get "atmosphere" "Seeing" = some (t.str "atm.seeing") ∧
    q.get "RTC" "LoopGain_HO" = some (t.str "holoop.gain") ∧ q.get "sensor_science" "PixelScale" = some (t.str "cam.psInMas") ∧
    (t.lgs = true → q.get "sources_HO" "Height" = some (t.str "lgs.height") ∧ q.get "sources_LO" "Zenith" = some (t.str "ngs.zenith")) ∧
    (t.lgs = false → q.get "sources_HO" "Height" = some "0" ∧ q.get "sources_HO" "Zenith" = some (t.str "ngs.zenith")) ∧
    ∀ f, t.pathPupil = some f → q.get "telescope" "PathPupil" = some ("'" ++ f ++ "'") := by
  obtain ⟨q, h1, h2, _⟩ := write_reads t p
  refine ⟨q, h1, ?_, ?_, ?_, ?_, ?_, ?_, ?_⟩
  · apply h2; simp [part1]
  · apply h2; simp [part1]
  · apply h2; simp [tailOps, part6]
  · apply h2; simp [tailOps, part7]
  · intro h; constructor <;> apply h2 <;> simp [tailOps, part3, h]
  · intro h; constructor <;> apply h2 <;> simp [tailOps, part3, h]
  · intro f h; apply h2; simp [part1, pathOp, h]

/-- C59: an option that the writer does not name keeps its value. -/
theorem write_frame (t : Tel) (p q : Ini) (h : write t p = some q) (s k : String)
    (hk : (s, k) ∉ keys (part1 t ++ tailOps t)) (hw : (s, k) ≠ ("sources_HO", "Wavelength")) : q.get s k = p.get s k := by
  obtain ⟨q', h1, h2, h3⟩ := run_spec (allOps t p) p (known_all t p)
  rw [write_eq] at h
  have : q' = q := Option.some.inj (h1.symm.trans h)
  subst this
  rw [h3, lastWrite_none]
  · rfl
  · unfold allOps
    rw [keys_append, keys_append] at *
    simp only [List.mem_append, not_or] at hk ⊢
    refine ⟨⟨hk.1, ?_⟩, hk.2⟩
    unfold part2
    split
    · simp [keys]
    · simp only [keys, List.mem_cons, List.not_mem_nil, or_false]
      exact hw

/-- C139: the wavelength of the guide star is written in a new file only; in an existing one the previous value remains. -/
theorem write_wavelength (t : Tel) (p q : Ini) (h : write t p = some q) :
    q.get "sources_HO" "Wavelength" =
      if p.sec "sources_HO" then p.get "sources_HO" "Wavelength" else some (t.str "wfs.wvl") := by
  obtain ⟨q', h1, h2, h3⟩ := run_spec (allOps t p) p (known_all t p)
  rw [write_eq] at h
  have : q' = q := Option.some.inj (h1.symm.trans h)
  subst this
  rw [h3]
  split
  · rename_i hs
    rw [lastWrite_none]
    · rfl
    · rw [keys_all, hs]
      cases t.lgs <;> cases t.hasTT <;> decide +kernel
  · rename_i hs
    rw [lastWrite_set _ (nodup_all t p) _ _ (t.str "wfs.wvl")]
    · rfl
    · simp [allOps, part2, hs]

/-- C139: a wavelength of the guide star that differs from the one of the existing file is lost. -/
theorem wavelength_violation : ∃ (t : Tel) (p q : Ini), write t p = some q ∧ t.str "wfs.wvl" = "589e-9" ∧
    q.get "sources_HO" "Wavelength" = some "640e-9" := by
  let t : Tel := ⟨fun _ => "589e-9", true, none, none, none, true⟩
  let p : Ini := ⟨fun s => s == "sources_HO", fun s k => if s = "sources_HO" ∧ k = "Wavelength" then some "640e-9" else none⟩
  obtain ⟨q, h, _⟩ := write_reads t p
  refine ⟨t, p, q, h, rfl, ?_⟩
  rw [write_wavelength t p q h]
  rfl

/-- C59: writing twice gives the same file as once. -/
theorem write_idempotent (t : Tel) (p q : Ini) (h : write t p = some q) : write t q = some q := by
  obtain ⟨p', h1, h2, h3⟩ := run_spec (allOps t p) p (known_all t p)
  have hq : p' = q := by rw [write_eq] at h; exact Option.some.inj (h1.symm.trans h)
  subst hq
  obtain ⟨q', g1, g2, g3⟩ := run_spec (allOps t p') p' (known_all t p')
  have hHO : p'.sec "sources_HO" = true := by rw [h2]; exact sec_after t p
  have hmem : ∀ o, o ∈ allOps t p' → o ∈ allOps t p := by
    intro o ho
    unfold allOps part2 at ho ⊢
    rw [hHO] at ho
    simp only [List.mem_append, if_true, List.not_mem_nil, or_false] at ho ⊢
    tauto
  have hsec : ∀ s, q'.sec s = p'.sec s := by
    intro s
    rw [g2]
    by_cases hs : s ∈ created (allOps t p')
    · have : s ∈ created (allOps t p) := (mem_created _ _).2 (hmem _ ((mem_created _ _).1 hs))
      rw [h2]
      simp [this]
    · simp [hs]
  have hget : ∀ s k, q'.get s k = p'.get s k := by
    intro s k
    rw [g3]
    cases hl : lastWrite (allOps t p') s k with
    | none => rfl
    | some w =>
      have hn := nodup_all t p
      -- find the operation
      have hex : ∀ (ops : List Op), lastWrite ops s k = some w →
          (∃ v, w = some v ∧ Op.set s k v ∈ ops) ∨ (w = none ∧ Op.remove s k ∈ ops) := by
        intro ops
        induction ops with
        | nil => intro h; cases h
        | cons o l ih =>
          intro h
          simp only [lastWrite] at h
          cases hl2 : lastWrite l s k with
          | some w' =>
            rw [hl2] at h
            have hw' : w' = w := Option.some.inj h
            rw [hw'] at hl2
            rcases ih hl2 with ⟨v, e, m⟩ | ⟨e, m⟩
            · exact Or.inl ⟨v, e, List.mem_cons_of_mem _ m⟩
            · exact Or.inr ⟨e, List.mem_cons_of_mem _ m⟩
          | none =>
            rw [hl2] at h
            cases o with
            | ensure x => cases h
            | set a b v =>
              by_cases hc : s = a ∧ k = b
              · obtain ⟨e1, e2⟩ := hc
                subst e1 e2
                simp at h
                exact Or.inl ⟨v, h.symm, by simp⟩
              · simp [hc] at h
            | remove a b =>
              by_cases hc : s = a ∧ k = b
              · obtain ⟨e1, e2⟩ := hc
                subst e1 e2
                simp at h
                exact Or.inr ⟨h.symm, by simp⟩
              · simp [hc] at h
      rw [h3]
      rcases hex _ hl with ⟨v, e, m⟩ | ⟨e, m⟩
      · rw [lastWrite_set _ hn s k v (hmem _ m), e]; rfl
      · rw [lastWrite_remove _ hn s k (hmem _ m), e]; rfl
  have : q' = p' := by
    have e1 : q'.sec = p'.sec := funext hsec
    have e2 : q'.get = p'.get := funext fun s => funext fun k => hget s k
    cases q'; cases p'; simp_all
  rw [write_eq]
  rw [this] at g1
  exact g1

/-- C139: the options written for a laser-guide-star system that the AO system never reads. -/
theorem unread (t : Tel) (p : Ini) (h : t.lgs = true) : (keys (allOps t p)).filter (fun x => x ∉ readKeys) =
    [("sensor_LO", "SizeLenslets"), ("sensor_LO", "ThresholdWCoG"), ("external", "Seeing"), ("external", "SeeingAlt"),
     ("external", "Cn2Weights")] := by
  rw [keys_all, h]
  cases p.sec "sources_HO" <;> cases t.hasTT <;> decide +kernel

/-- C139: rewriting the file of a laser-guide-star system for natural guide stars leaves the low-order section. -/
theorem stale_section (t t' : Tel) (p q q' : Ini) (h : t.lgs = true) (h' : t'.lgs = false) (hw : write t p = some q)
    (hw' : write t' q = some q') : q'.get "sources_LO" "Zenith" = some (t.str "ngs.zenith") := by
  rw [write_frame t' q q' hw' _ _ _ (by decide)]
  · obtain ⟨q2, e1, _, _, _, _, e2, _⟩ := write_values t p
    have : q2 = q := Option.some.inj (e1.symm.trans hw)
    subst this
    exact (e2 h).2
  · apply keys_sub t' q
    rw [keys_all, h']
    cases q.sec "sources_HO" <;> cases t'.hasTT <;> decide +kernel

/-! ### Adjusted file -/

/-- C103: adjusting the file to an image changes, among the options that the AO system reads, only the wavelength of the
guide star and three options of the wavefront sensor. -/
theorem adjust_reads_partial (pms ncpa pa wvl nPix bw disp tr : String) (p q : Ini) (h : adjust pms ncpa pa wvl nPix bw disp tr p = some q)
    (s k : String) (hr : (s, k) ∈ readKeys) :
    q.get s k = if (s, k) = ("sources_HO", "Wavelength") then some wvl
      else if (s, k) = ("sensor_HO", "SpectralBandwidth") then some bw
      else if (s, k) = ("sensor_HO", "Dispersion") then some disp
      else if (s, k) = ("sensor_HO", "Transmittance") then some tr else p.get s k := by
  unfold adjust at h
  cases hp : pupilFile pms with
  | none => rw [hp] at h; cases h
  | some pup =>
    rw [hp, Option.bind_some] at h
    have hn : (keys (adjustOps pup ncpa pa wvl nPix bw disp tr)).Nodup := by
      show (keys (adjustOps "" "" "" "" "" "" "" "")).Nodup
      decide +kernel
    have hk : Known (adjustOps pup ncpa pa wvl nPix bw disp tr) p.sec := by
      have g : ∀ (ops : List Op) (p q : Ini), run ops p = some q → Known ops p.sec := by
        intro ops
        induction ops with
        | nil => intros; trivial
        | cons o l ih =>
          intro p q h
          cases o with
          | ensure x => exact ih _ q h
          | set a b v =>
            simp only [run, step] at h
            split at h
            · rename_i hsec
              exact ⟨hsec, ih { p with get := fun x y => if x = a ∧ y = b then some v else p.get x y } q h⟩
            · cases h
          | remove a b =>
            simp only [run, step] at h
            split at h
            · rename_i hsec
              exact ⟨hsec, ih { p with get := fun x y => if x = a ∧ y = b then none else p.get x y } q h⟩
            · cases h
      exact g _ _ _ h
    obtain ⟨q', h1, _, h3⟩ := run_spec _ p hk
    have : q' = q := Option.some.inj (h1.symm.trans h)
    subst this
    rw [h3]
    split_ifs with c1 c2 c3 c4
    · obtain ⟨e1, e2⟩ := Prod.mk.inj c1; subst e1 e2
      rw [lastWrite_set _ hn _ _ wvl (by simp [adjustOps])]; rfl
    · obtain ⟨e1, e2⟩ := Prod.mk.inj c2; subst e1 e2
      rw [lastWrite_set _ hn _ _ bw (by simp [adjustOps])]; rfl
    · obtain ⟨e1, e2⟩ := Prod.mk.inj c3; subst e1 e2
      rw [lastWrite_set _ hn _ _ disp (by simp [adjustOps])]; rfl
    · obtain ⟨e1, e2⟩ := Prod.mk.inj c4; subst e1 e2
      rw [lastWrite_set _ hn _ _ tr (by simp [adjustOps])]; rfl
    · rw [lastWrite_none]
      · rfl
      · intro hm
        have a1 : ("telescope", "path_pupil") ∉ readKeys := by decide +kernel
        have a2 : ("telescope", "Path_static") ∉ readKeys := by decide +kernel
        have a3 : ("telescope", "pupilAngle") ∉ readKeys := by decide +kernel
        have a4 : ("sensor_science", "FiedOfView") ∉ readKeys := by decide +kernel
        simp only [adjustOps, keys, List.mem_cons, List.not_mem_nil, or_false] at hm
        rcases hm with e | e | e | e | e | e | e | e
        · exact a1 (e ▸ hr)
        · exact a2 (e ▸ hr)
        · exact a3 (e ▸ hr)
        · exact c1 e
        · exact a4 (e ▸ hr)
        · exact c2 e
        · exact c3 e
        · exact c4 e

/-- C103: the pupil, the static aberrations, the pupil angle and the field of view used by the fit are those of the
previous file, whatever the image. -/
theorem adjust_violation (pms ncpa pa wvl nPix bw disp tr : String) (p q : Ini)
    (h : adjust pms ncpa pa wvl nPix bw disp tr p = some q) :
    q.get "telescope" "PathPupil" = p.get "telescope" "PathPupil" ∧
    q.get "telescope" "PathStaticOn" = p.get "telescope" "PathStaticOn" ∧
    q.get "telescope" "PupilAngle" = p.get "telescope" "PupilAngle" ∧
    q.get "sensor_science" "FieldOfView" = p.get "sensor_science" "FieldOfView" ∧
    q.get "sources_science" "Wavelength" = p.get "sources_science" "Wavelength" := by
  refine ⟨?_, ?_, ?_, ?_, ?_⟩ <;>
  · rw [adjust_reads_partial pms ncpa pa wvl nPix bw disp tr p q h _ _ (by decide +kernel)]
    simp

/-- C103: choosing the static modes changes nothing that the AO system reads. -/
theorem chooseModes_violation (mode : String) (p q : Ini) (h : chooseModes mode p = some q) (s k : String)
    (hr : (s, k) ∈ readKeys) : q.get s k = p.get s k := by
  unfold chooseModes at h
  cases hm : modesFile mode with
  | none => rw [hm] at h; cases h
  | some f =>
    rw [hm, Option.bind_some] at h
    simp only [run, step] at h
    split at h
    · have h' := Option.some.inj h
      rw [← h']
      simp only
      rw [if_neg]
      rintro ⟨rfl, rfl⟩
      revert hr
      decide +kernel
    · cases h

/-- C103: both need the sections to exist and a known mask or mode. -/
theorem adjust_total (pms ncpa pa wvl nPix bw disp tr : String) (p : Ini)
    (hs : ∀ s ∈ ["telescope", "sources_HO", "sensor_science", "sensor_HO"], p.sec s = true) :
    (∃ q, adjust pms ncpa pa wvl nPix bw disp tr p = some q) ↔ pms = "OPEN" ∨ pms = "LARGEHEX" := by
  have h1 := hs "telescope" (by simp)
  have h2 := hs "sources_HO" (by simp)
  have h3 := hs "sensor_science" (by simp)
  have h4 := hs "sensor_HO" (by simp)
  have key : ∀ pup, ∃ q, run (adjustOps pup ncpa pa wvl nPix bw disp tr) p = some q := by
    intro pup
    obtain ⟨q, h, _⟩ := run_spec (adjustOps pup ncpa pa wvl nPix bw disp tr) p (by simp [adjustOps, Known, h1, h2, h3, h4])
    exact ⟨q, h⟩
  constructor
  · rintro ⟨q, h⟩
    unfold adjust pupilFile at h
    split_ifs at h with a b
    · exact Or.inl a
    · exact Or.inr b
    · cases h
  · rintro (rfl | rfl)
    · obtain ⟨q, h⟩ := key "aoSystem/data/KECK_CALIBRATION/NIRC2_MASK/keck_pupil_open_240px.fits"
      exact ⟨q, h⟩
    · obtain ⟨q, h⟩ := key "aoSystem/data/KECK_CALIBRATION/NIRC2_MASK/keck_pupil_largeHex_272px.fits"
      exact ⟨q, h⟩

/-- C139: the options that the AO system reads and that the file written for a laser-guide-star system never has, so that an older value
remains or the default applies. -/
theorem unwritten (t : Tel) (p : Ini) (h : t.lgs = true) (ht : t.hasTT = true) (hs : p.sec "sources_HO" = false) :
    readKeys.filter (fun x => x ∉ keys (allOps t p)) =
    [("telescope", "PathStaticOff"), ("telescope", "PathStaticPos"), ("telescope", "PathApodizer"), ("telescope", "TechnicalFoV"),
     ("telescope", "zCoefStaticOn"), ("telescope", "windPsdFile"), ("telescope", "extraErrorNm"), ("telescope", "extraErrorExp"),
     ("telescope", "extraErrorMin"), ("telescope", "extraErrorMax"), ("telescope", "extraErrorLoNm"), ("telescope", "extraErrorLoExp"),
     ("telescope", "extraErrorLoMin"), ("telescope", "extraErrorLoMax"), ("atmosphere", "r0_value"),
     ("sensor_HO", "addMcaoWFsensConeError"), ("sensor_science", "Binning"), ("sensor_science", "Dark"),
     ("sensor_science", "ExcessNoiseFactor"), ("sensor_science", "NumberPhotons"), ("sensor_science", "Saturation"),
     ("sensor_science", "SkyBackground")] := by
  rw [keys_all, h, ht, hs]
  decide +kernel

/-- C59: sections of the file written when there was none. -/
theorem write_sections (t : Tel) (q : Ini) (h : write t Ini.empty = some q) (s : String) : q.sec s = true ↔
    s ∈ ["telescope", "atmosphere", "sources_science", "sources_HO", "sensor_HO", "DM", "RTC", "sensor_science", "external"] ∨
    t.lgs = true ∧ s ∈ ["sources_LO", "sensor_LO"] := by
  obtain ⟨q', h1, h2, _⟩ := run_spec (allOps t Ini.empty) Ini.empty (known_all t Ini.empty)
  have h' : run (allOps t Ini.empty) Ini.empty = some q := by rw [← h, write_eq]; rfl
  have : q' = q := Option.some.inj (h1.symm.trans h')
  subst this
  have e : Ini.empty.sec s = false := rfl
  rw [h2, e, Bool.or_false, decide_eq_true_eq]
  have c : created (allOps t Ini.empty) = ["telescope", "atmosphere", "sources_science", "sources_HO"] ++ (if t.lgs then ["sources_LO"] else []) ++
      ["sensor_HO"] ++ (if t.lgs then ["sensor_LO"] else []) ++ ["DM", "RTC", "sensor_science", "external"] := by
    rcases t with ⟨f, lgs, a, b, c, tt⟩
    cases lgs <;> cases a <;> cases b <;> cases c <;> cases tt <;> rfl
  rw [c]
  cases t.lgs <;> simp only [List.mem_append, List.mem_cons, List.not_mem_nil, if_true, if_false, Bool.false_eq_true, or_false, false_and, true_and] <;> tauto

/-- C103: the static modes chosen, and the two names that exist. -/
theorem chooseModes_spec (mode : String) (p : Ini) (hs : p.sec "telescope" = true) :
    ((∃ q, chooseModes mode p = some q) ↔ mode = "Piston" ∨ mode = "Zernike") ∧
    ∀ q, chooseModes mode p = some q → q.get "telescope" "path_statModes" =
      some (if mode = "Piston" then "'aoSystem/data/KECK_CALIBRATION/KECK_STAT/keck_piston_modes_200px.fits'"
        else "'aoSystem/data/KECK_CALIBRATION/KECK_STAT/keck_piston_modes_200px_all_lr.fits'") := by
  have key : ∀ f, run [.set "telescope" "path_statModes" (quoted f)] p =
      some { p with get := fun x y => if x = "telescope" ∧ y = "path_statModes" then some (quoted f) else p.get x y } := by
    intro f
    simp only [run, step, hs, if_true, Option.bind_some]
  unfold chooseModes modesFile
  by_cases h1 : mode = "Piston"
  · subst h1
    simp only [if_true, Option.bind_some, key]
    refine ⟨⟨fun _ => by simp, fun _ => ⟨_, rfl⟩⟩, ?_⟩
    intro q hq
    rw [← Option.some.inj hq]
    simp only [and_self, if_true, quoted]
    congr 1
  · by_cases h2 : mode = "Zernike"
    · subst h2
      simp only [if_neg h1, if_true, Option.bind_some, key]
      refine ⟨⟨fun _ => by simp, fun _ => ⟨_, rfl⟩⟩, ?_⟩
      intro q hq
      rw [← Option.some.inj hq]
      simp only [and_self, if_true, quoted]
      congr 1
    · simp only [if_neg h1, if_neg h2, Option.bind_none]
      refine ⟨⟨?_, ?_⟩, ?_⟩
      · rintro ⟨q, hq⟩; cases hq
      · rintro (h | h) <;> simp_all
      · intro q hq; cases hq

/-! ### Cases that meet the hypotheses -/

example : ∃ q, write ⟨fun a => a, true, some "pupil.fits", none, none, true⟩ Ini.empty = some q ∧
    q.get "telescope" "PathPupil" = some "'pupil.fits'" := by
  obtain ⟨q, h, _, _, _, _, _, _, h2⟩ := write_values ⟨fun a => a, true, some "pupil.fits", none, none, true⟩ Ini.empty
  exact ⟨q, h, h2 _ rfl⟩

example : ∃ q, adjust "OPEN" "a" "b" "c" "d" "e" "f" "g" ⟨fun _ => true, fun _ _ => none⟩ = some q :=
  (adjust_total "OPEN" "a" "b" "c" "d" "e" "f" "g" _ fun _ _ => rfl).2 (Or.inl rfl)

/-- Section, option, attribute of the telemetry (`jitter` is the computed one) and whether it is quoted, for every system. -/
def always : List (String × String × String × Bool) :=
  [("telescope", "TelescopeDiameter", "tel.D", false), ("telescope", "ObscurationRatio", "tel.cobs", false),
   ("telescope", "ZenithAngle", "tel.zenith_angle", false), ("telescope", "Resolution", "tel.resolution", false),
   ("telescope", "PupilAngle", "tel.pupilAngle", false), ("atmosphere", "Wavelength", "atm.wvl", false),
   ("atmosphere", "Seeing", "atm.seeing", false), ("atmosphere", "L0", "atm.L0", false),
   ("atmosphere", "Cn2Weights", "atm.Cn2Weights", false), ("atmosphere", "Cn2Heights", "atm.Cn2Heights", false),
   ("atmosphere", "WindSpeed", "atm.wSpeed", false), ("atmosphere", "WindDirection", "atm.wDir", false),
   ("sources_science", "Wavelength", "cam.wvl", false), ("sources_science", "Zenith", "cam.zenith", false),
   ("sources_science", "Azimuth", "cam.azimuth", false), ("sensor_HO", "WfsType", "wfs.type", true),
   ("sensor_HO", "Modulation", "wfs.modulation", false), ("sensor_HO", "PixelScale", "wfs.pixel_scale", false),
   ("sensor_HO", "FieldOfView", "wfs.fov", false), ("sensor_HO", "Binning", "wfs.binning", false),
   ("sensor_HO", "NumberPhotons", "wfs.nph", false), ("sensor_HO", "SpotFWHM", "wfs.spot_fwhm", false),
   ("sensor_HO", "SpectralBandwidth", "wfs.bw", false), ("sensor_HO", "Transmittance", "wfs.tr", false),
   ("sensor_HO", "Dispersion", "wfs.disp", false), ("sensor_HO", "SigmaRON", "wfs.ron", false),
   ("sensor_HO", "Dark", "wfs.dark", false), ("sensor_HO", "SkyBackground", "wfs.sky", false),
   ("sensor_HO", "Gain", "wfs.gain", false), ("sensor_HO", "ExcessNoiseFactor", "wfs.excess", false),
   ("sensor_HO", "NumberLenslets", "wfs.nSubap", false), ("sensor_HO", "SizeLenslets", "wfs.dsub", false),
   ("sensor_HO", "NoiseVariance", "wfs.noiseVar", false), ("sensor_HO", "Algorithm", "wfs.algo", true),
   ("sensor_HO", "WindowRadiusWCoG", "wfs.win", false), ("sensor_HO", "ThresholdWCoG", "wfs.thres", false),
   ("sensor_HO", "NewValueThrPix", "wfs.new", false), ("DM", "NumberActuators", "dm.nActuators", false),
   ("DM", "DmPitchs", "dm.pitch", false), ("DM", "InfModel", "dm.modes", true),
   ("DM", "InfCoupling", "dm.mechCoupling", false), ("DM", "DmHeights", "dm.heights", false),
   ("DM", "OptimizationZenith", "dm.opt_zen", false), ("DM", "OptimizationAzimuth", "dm.opt_azi", false),
   ("DM", "OptimizationWeight", "dm.opt_weight", false), ("DM", "OptimizationConditioning", "dm.opt_cond", false),
   ("DM", "NumberReconstructedLayers", "dm.nrec", false), ("DM", "AoArea", "dm.area", true),
   ("RTC", "LoopGain_HO", "holoop.gain", false), ("RTC", "SensorFrameRate_HO", "holoop.freq", false),
   ("RTC", "LoopDelaySteps_HO", "holoop.lat * holoop.freq", false), ("RTC", "ResidualError", "rec.wfe", false),
   ("sensor_science", "Name", "cam.name", true), ("sensor_science", "FieldOfView", "cam.fov", false),
   ("sensor_science", "PixelScale", "cam.psInMas", false), ("sensor_science", "SigmaRON", "cam.ron", false),
   ("sensor_science", "Gain", "cam.gain", false), ("sensor_science", "Transmittance", "cam.transmission", false),
   ("sensor_science", "SpectralBandwidth", "cam.bw", false),
   ("sensor_science", "Dispersion", "cam.dispersion", false), ("external", "Seeing", "atm.seeing_dimm", false),
   ("external", "SeeingAlt", "atm.seeing_mass", false), ("external", "Cn2Weights", "atm.Cn2_mass", false),
   ("sensor_science", "SpotFWHM", "jitter", false)]

/-- The same for laser guide stars. -/
def withLaser : List (String × String × String × Bool) :=
  [("sources_HO", "Zenith", "lgs.zenith", false), ("sources_HO", "Azimuth", "lgs.azimuth", false),
   ("sources_HO", "Height", "lgs.height", false), ("sources_LO", "Wavelength", "tipTilt.wvl", false),
   ("sources_LO", "Zenith", "ngs.zenith", false), ("sources_LO", "Azimuth", "ngs.azimuth", false),
   ("sensor_LO", "PixelScale", "tipTilt.pixel_scale", false), ("sensor_LO", "FieldOfView", "tipTilt.fov", false),
   ("sensor_LO", "Binning", "tipTilt.binning", false), ("sensor_LO", "NumberPhotons", "tipTilt.nph", false),
   ("sensor_LO", "SpotFWHM", "tipTilt.spot_fwhm", false), ("sensor_LO", "SpectralBandwidth", "tipTilt.bw", false),
   ("sensor_LO", "Transmittance", "tipTilt.tr", false), ("sensor_LO", "Dispersion", "tipTilt.disp", false),
   ("sensor_LO", "SigmaRON", "tipTilt.ron", false), ("sensor_LO", "Dark", "tipTilt.dark", false),
   ("sensor_LO", "SkyBackground", "tipTilt.sky", false), ("sensor_LO", "Gain", "tipTilt.gain", false),
   ("sensor_LO", "ExcessNoiseFactor", "tipTilt.excess", false),
   ("sensor_LO", "NumberLenslets", "tipTilt.nSubap", false), ("sensor_LO", "SizeLenslets", "tipTilt.dsub", false),
   ("sensor_LO", "NoiseVariance", "tipTilt.noiseVar", false), ("sensor_LO", "Algorithm", "tipTilt.algo", true),
   ("sensor_LO", "WindowRadiusWCoG", "tipTilt.win", false), ("sensor_LO", "ThresholdWCoG", "tipTilt.thres", false),
   ("sensor_LO", "NewValueThrPix", "tipTilt.new", false)]

/-- The same with a tip-tilt loop. -/
def withTipTilt : List (String × String × String × Bool) :=
  [("RTC", "LoopGain_LO", "ttloop.gain", false), ("RTC", "SensorFrameRate_LO", "ttloop.freq", false),
   ("RTC", "LoopDelaySteps_LO", "ttloop.lat * ttloop.freq", false)]

/-- Text of the attribute in the file. -/
def textOf (t : Tel) (attr : String) (quote : Bool) : String := if quote then "'" ++ t.str attr ++ "'" else t.str attr

/-- C59: every option of the file holds the attribute of the telemetry it is named for. -/
theorem write_table (t : Tel) (p : Ini) : ∃ q, write t p = some q ∧
    (∀ e ∈ always, q.get e.1 e.2.1 = some (textOf t e.2.2.1 e.2.2.2)) ∧
    (t.lgs = true → ∀ e ∈ withLaser, q.get e.1 e.2.1 = some (textOf t e.2.2.1 e.2.2.2)) ∧
    (t.hasTT = true → ∀ e ∈ withTipTilt, q.get e.1 e.2.1 = some (textOf t e.2.2.1 e.2.2.2)) := by
  obtain ⟨q, h1, h2, _⟩ := write_reads t p
  refine ⟨q, h1, ?_, ?_, ?_⟩
  · intro e he
    refine h2 _ _ _ ?_
    unfold tailOps part1 part4 part6 part7
    fin_cases he <;> simp [textOf, quoted]
  · intro hl e he
    refine h2 _ _ _ ?_
    unfold tailOps part3 part5
    fin_cases he <;> simp [textOf, quoted, hl]
  · intro hl e he
    refine h2 _ _ _ ?_
    unfold tailOps part6
    fin_cases he <;> simp [textOf, hl]

/-! ### Cases that meet the hypotheses -/

/-- A case meeting the hypotheses of `stale_section`. -/
example : ∃ q q', write ⟨fun a => a, true, none, none, none, true⟩ Ini.empty = some q ∧ write ⟨fun a => "x" ++ a, false, none, none, none, true⟩ q = some q' ∧
    q'.get "sources_LO" "Zenith" = some "ngs.zenith" := by
  obtain ⟨q, h, _⟩ := write_values ⟨fun a => a, true, none, none, none, true⟩ Ini.empty
  obtain ⟨q', h', _⟩ := write_values ⟨fun a => "x" ++ a, false, none, none, none, true⟩ q
  refine ⟨q, q', h, h', ?_⟩
  have := stale_section _ _ _ q q' rfl rfl h h'
  rw [this]

end P3.IniFile
