import Mathlib.Data.List.GetD
import Mathlib.Algebra.Order.BigOperators.Ring.Finset
import Mathlib.Algebra.BigOperators.Ring.List
import Mathlib.Tactic.Linarith
import Mathlib.Tactic.FieldSimp
import Mathlib.Tactic.Positivity
import Mathlib.Tactic.NormNum
import Mathlib.Tactic.Ring
import Verif.Model.Archive
import Verif.Props.Telemetry

/-! C312-C321: archive of seeing measurements, filters and pointing of the Keck telescope. -/

namespace P3.Archive

open P3.Telemetry

/-! ### Downloads -/

/-- C312: once the folder exists, a load changes no file and does not depend on the network. -/
theorem load_existing (d : Disk) (h : d.dir = true) (net net' : Kind → Dl) :
    (load d net).1 = d ∧ (load d net).2 = (load d net').2 := by
  unfold load
  simp [h]

theorem fetch_dir (d : Disk) (net : Kind → Dl) : (fetch d net).1.dir = true := by
  unfold fetch
  rcases net .dimm with _ | _ | _ | (_ | _) <;> simp [retrieve, Disk.put]
  rcases net .mass with _ | _ | _ | (_ | _) <;> simp [retrieve, Disk.put]
  rcases net .prof with _ | _ | _ | (_ | _) <;> simp [retrieve, Disk.put]

theorem load_dir (d : Disk) (net : Kind → Dl) : (load d net).1.dir = true := by
  unfold load
  by_cases h : d.dir = true
  · simp [h]
  · rw [if_neg h]
    have := fetch_dir d net
    revert this
    rcases fetch d net with ⟨d', e⟩
    cases e <;> simp

theorem loads_existing (d : Disk) (h : d.dir = true) (l : List (Kind → Dl)) :
    loads d l = (d, List.replicate l.length (load d fun _ => .refused).2) := by
  induction l with
  | nil => rfl
  | cons net l ih =>
    have e := load_existing d h net (fun _ => .refused)
    simp only [loads, e.1, ih, List.length_cons, List.replicate_succ, e.2]

/-- C312: a night whose three files were downloaded is loaded from them at once and by every later load, whatever the network;
measurements are used by a load only if the three files are there. -/
theorem measured_once (net : Kind → Dl) (hn : ∀ k, net k = .ok) (l : List (Kind → Dl)) :
    (loads fresh (net :: l)).2 = List.replicate (l.length + 1) (.measured true) ∧
    (∀ k, (loads fresh (net :: l)).1.file k = some true) := by
  have e : load fresh net = (⟨true, fun _ => some true⟩, .measured true) := by
    unfold load
    rw [if_neg (by simp [fresh])]
    simp only [fetch, hn, retrieve, Disk.put, use]
    simp
    funext k; cases k <;> simp
  simp only [loads, e]
  rw [loads_existing _ rfl]
  refine ⟨?_, fun k => rfl⟩
  simp [load, use, List.replicate_succ]

theorem measured_files (d : Disk) (net : Kind → Dl) (w : Bool) (h : (load d net).2 = .measured w) :
    (∀ k, ((load d net).1.file k).isSome = true) ∧ (w = true ↔ ∀ k, (load d net).1.file k = some true) := by
  have key : ∀ (d : Disk) (n : ℕ), use d n = .measured w → (∀ k, (d.file k).isSome = true) ∧ (w = true ↔ ∀ k, d.file k = some true) := by
    intro d n hu
    rcases n with _ | n
    · simp [use] at hu
    · rcases h1 : d.file .dimm with _ | a <;> rcases h2 : d.file .mass with _ | b <;> rcases h3 : d.file .prof with _ | c <;>
        simp only [use, h1, h2, h3] at hu <;> try cases hu
      refine ⟨fun k => by cases k <;> simp [h1, h2, h3], ?_⟩
      constructor
      · intro hw
        have : a = true ∧ b = true ∧ c = true := by
          revert hw; cases a <;> cases b <;> cases c <;> simp
        intro k; cases k <;> simp [h1, h2, h3, this]
      · intro hw
        have a1 := hw .dimm; have a2 := hw .mass; have a3 := hw .prof
        rw [h1] at a1; rw [h2] at a2; rw [h3] at a3
        cases a1; cases a2; cases a3; rfl
  unfold load at h ⊢
  by_cases hd : d.dir = true
  · rw [if_pos hd] at h ⊢; exact key _ _ h
  · rw [if_neg hd] at h ⊢
    rcases he : fetch d net with ⟨d', e⟩
    rw [he] at h
    cases e with
    | status n => exact key _ _ h
    | raised => cases h
    | killed => cases h

example : ∀ k : Kind, (fun _ : Kind => Dl.ok) k = .ok := fun _ => rfl

/-- C313: what really happens, for every state of the network at the first load and every number of later loads: only a night
whose DIMM file was never opened stays with the median conditions, without an exception; one whose DIMM file was written, even in
part, but not the two others, raises at every later load. -/
theorem later_loads_partial (net : Kind → Dl) (l : List (Kind → Dl)) :
    (loads fresh (net :: l)).2.tail = List.replicate l.length
      (if net .dimm = .refused ∨ net .dimm = .killed false then Atm.median
       else if net .dimm = .ok ∧ (net .mass = .ok ∧ (net .prof = .ok ∨ net .prof = .cut ∨ net .prof = .killed true))
         then .measured (net .prof = .ok) else .raised) := by
  simp only [loads, List.tail_cons]
  rw [loads_existing _ (load_dir _ _)]
  congr 1
  unfold load
  rw [if_neg (show ¬ fresh.dir = true by simp [fresh])]
  unfold fetch
  rcases net .dimm with _ | _ | _ | (_ | _) <;> simp [retrieve, Disk.put, use, fresh]
  rcases net .mass with _ | _ | _ | (_ | _) <;> simp [retrieve, Disk.put, use]
  rcases net .prof with _ | _ | _ | (_ | _) <;> simp [retrieve, Disk.put, use]

/-- C313: an archive that is down once, or a process killed before the first file, and the night keeps the median conditions although
every file can now be downloaded; if the MASS file failed, every later load raises; and two loads of the same observation
differ when the DIMM file was cut. -/
theorem retry_violation (l : List (Kind → Dl)) :
    (loads fresh ((fun _ => .refused) :: l)).2 = List.replicate (l.length + 1) .median ∧
    (loads fresh ((fun _ => .killed false) :: l)).2 = .killed :: List.replicate l.length .median ∧
    (loads fresh ((fun k => if k = .dimm then .ok else .refused) :: l)).2 = List.replicate (l.length + 1) .raised ∧
    (loads fresh ((fun k => if k = .dimm then .cut else .ok) :: l)).2 = .median :: List.replicate l.length .raised := by
  refine ⟨?_, ?_, ?_, ?_⟩
  · have h := later_loads_partial (fun _ => .refused) l
    simp only [loads, List.tail_cons] at h ⊢
    rw [h]; rfl
  · have h := later_loads_partial (fun _ => .killed false) l
    simp only [loads, List.tail_cons] at h ⊢
    rw [h]; rfl
  · have h := later_loads_partial (fun k => if k = .dimm then .ok else .refused) l
    simp only [loads, List.tail_cons] at h ⊢
    rw [h]; rfl
  · have h := later_loads_partial (fun k => if k = .dimm then .cut else .ok) l
    simp only [loads, List.tail_cons] at h ⊢
    rw [h]; rfl

/-! ### Profile -/

/-- C314: as many weights as heights and winds; the median ones are positive and sum to one. -/
theorem median_profile : medianWeights.sum = 1 ∧ (∀ w ∈ medianWeights, 0 < w) ∧ medianWeights.length = heights.length ∧
    winds.length = heights.length := by
  refine ⟨?_, ?_, rfl, rfl⟩
  · simp [medianWeights]; norm_num
  · intro w hw
    simp only [medianWeights, List.mem_cons, List.not_mem_nil, or_false] at hw
    rcases hw with h | h | h | h | h | h | h <;> rw [h] <;> norm_num

theorem filterMap_some (l : List ℝ) : (l.map some).filterMap id = l := by
  induction l with
  | nil => rfl
  | cons a l ih => simp [ih]

/-- C314: the layers double in height from 500 metres; the winds are those of the median profile; the median seeing is that of a Fried parameter of 16 centimetres
at 500 nanometres, 0.632 arcsecond. -/
theorem median_values : heights = 0 :: (List.range 6).map (fun i => 500 * 2 ^ i) ∧ |medianSeeing - 0.632| ≤ 0.001 ∧
    medianSeeing * (Real.pi / 180 / 3600) = 0.98 * (500e-9 / 0.16) := by
  have p1 := Real.pi_gt_d4
  have p2 := Real.pi_lt_d4
  have e : medianSeeing = 1.9845 / Real.pi := by
    unfold medianSeeing rad2arc; norm_num; ring
  refine ⟨?_, ?_, ?_⟩
  · simp [heights, List.range_succ]; norm_num
  · have a1 : 0.6316 ≤ 1.9845 / Real.pi := by rw [le_div_iff₀ Real.pi_pos]; linarith
    have a2 : 1.9845 / Real.pi ≤ 0.6325 := by rw [div_le_iff₀ Real.pi_pos]; linarith
    rw [e, abs_le]; constructor <;> linarith
  · unfold medianSeeing rad2arc; field_simp

/-- C314: without a profile (all layers missing, or one that is not a number) the median conditions are used. -/
theorem atmosphere_median (seeing alt wvl : ℝ) (prof : List (Option ℝ)) (h : (∀ c ∈ prof, c = some (-1)) ∨ none ∈ prof) :
    atmosphere seeing alt prof wvl = some (medianSeeing, medianWeights) := by
  unfold atmosphere
  rw [if_pos h]

/-- C314: with six measured layers, not all zero, the weights are seven, non-negative, sum to one, and the six upper ones are
proportional to the measured layers; when the MASS seeing is missing or agrees with its profile, and does not exceed the DIMM seeing,
the ground layer completes the profile to the DIMM seeing. -/
theorem atmosphere_weights (seeing wvl : ℝ) (cn2 : List ℝ) (hw : 0 < wvl) (hl : cn2.length = 6) (h0 : ∀ c ∈ cn2, 0 ≤ c) (hp : 0 < cn2.sum)
    (alt : ℝ) (ha : alt = -1 ∨ alt = (mu0 wvl * cn2.sum) ^ (3 / 5 : ℝ))
    (hs : (mu0 wvl * cn2.sum) ^ (3 / 5 : ℝ) ≤ seeing) :
    ∃ g T : ℝ, 0 ≤ g ∧ mu0 wvl * T = seeing ^ (5 / 3 : ℝ) ∧ 0 < T ∧
      atmosphere seeing alt (cn2.map some) wvl = some (seeing, (g :: cn2).map (· / T)) ∧
      ((g :: cn2).map (· / T)).sum = 1 ∧ (∀ w ∈ (g :: cn2).map (· / T), 0 ≤ w) ∧ ((g :: cn2).map (· / T)).length = heights.length := by
  have hm := mu0_pos wvl hw
  have hq : 0 ≤ mu0 wvl * cn2.sum := by positivity
  have hc : mu0 wvl * cn2.sum = ((mu0 wvl * cn2.sum) ^ (3 / 5 : ℝ)) ^ (5 / 3 : ℝ) := by
    rw [← Real.rpow_mul hq]; norm_num
  obtain ⟨g, e1, e2, e3⟩ := combine_spec seeing ((mu0 wvl * cn2.sum) ^ (3 / 5 : ℝ)) wvl cn2 hw (Real.rpow_nonneg hq _) hs hc
  have hT : 0 < (g :: cn2).sum := by rw [List.sum_cons]; linarith
  refine ⟨g, (g :: cn2).sum, e2, e3, hT, ?_, ?_, ?_, by simp [hl, heights]⟩
  · unfold atmosphere
    have hne : cn2 ≠ [] := by rintro rfl; simp at hl
    obtain ⟨c, hc'⟩ := List.exists_mem_of_ne_nil _ hne
    rw [if_neg]
    · simp only [filterMap_some]
      have : (if alt = -1 then (mu0 wvl * cn2.sum) ^ (3 / 5 : ℝ) else alt) = (mu0 wvl * cn2.sum) ^ (3 / 5 : ℝ) := by
        by_cases h : alt = -1
        · rw [if_pos h]
        · rw [if_neg h]; rcases ha with h' | h'
          · exact absurd h' h
          · exact h'
      rw [this, e1]
      simp only [Option.bind_some]
      rw [if_neg hT.ne']
    · rintro (h | h)
      · have := h (some c) (List.mem_map_of_mem hc')
        have h1 := h0 c hc'
        rw [Option.some.injEq] at this
        rw [this] at h1
        norm_num at h1
      · simp at h
  · have : ((g :: cn2).map (· / (g :: cn2).sum)) = ((g :: cn2).map (· * (g :: cn2).sum⁻¹)) := by
      apply List.map_congr_left; intro a _; rw [div_eq_mul_inv]
    rw [this, List.sum_map_mul_right]
    simp only [List.map_id']
    exact mul_inv_cancel₀ hT.ne'
  · intro w hw'
    obtain ⟨a, ha', rfl⟩ := List.mem_map.1 hw'
    apply div_nonneg _ hT.le
    rcases List.mem_cons.1 ha' with h | h
    · rw [h]; exact e2
    · exact h0 a h

/-- A profile of six equal layers under a large seeing. -/
example : (∀ c ∈ List.replicate 6 (1 : ℝ), 0 ≤ c) ∧ 0 < (List.replicate 6 (1 : ℝ)).sum := by
  constructor
  · intro c hc; rw [(List.mem_replicate.1 hc).2]; norm_num
  · rw [List.sum_replicate]; norm_num

/-- C315: the median conditions are used when the profile is missing in whole. -/
theorem missing_whole_partial (seeing alt wvl : ℝ) : atmosphere seeing alt (List.replicate 6 (some (-1))) wvl = some (medianSeeing, medianWeights) :=
  atmosphere_median _ _ _ _ (Or.inl fun _ hc => (List.mem_replicate.1 hc).2)

/-- C315: a profile with one missing layer (flagged by minus one) is used as if it were measured, and the weights are negative numbers
and numbers above one. -/
theorem missing_layer_violation (wvl : ℝ) (hw : 0 < wvl) (m : ℝ) (hm : m = mu0 wvl) : ∃ s, 0 ≤ s ∧
    atmosphere s 0 [some (-1), some 0, some 0, some 0, some 0, some 0] wvl = some (s, [2, -1, 0, 0, 0, 0, 0]) := by
  have hm0 := mu0_pos wvl hw
  rw [← hm] at hm0
  refine ⟨(2 * m) ^ (3 / 5 : ℝ), by positivity, ?_⟩
  have e : ((2 * m) ^ (3 / 5 : ℝ)) ^ (5 / 3 : ℝ) = 2 * m := by
    rw [← Real.rpow_mul (by positivity)]; norm_num
  unfold atmosphere
  rw [if_neg]
  · have h1 : ((0:ℝ)) ^ (5 / 3 : ℝ) = 0 := Real.zero_rpow (by norm_num)
    simp only [List.filterMap_cons, id, List.filterMap_nil]
    rw [if_neg (by norm_num)]
    unfold combine
    rw [e, h1, if_neg (by linarith), sub_zero, e, ← hm]
    have : 2 * m / m = 2 := by field_simp
    rw [this]
    simp only [Option.bind_some]
    rw [if_neg (by norm_num)]
    norm_num
  · rintro (h | h)
    · have := h (some 0) (by simp)
      norm_num at this
    · simp at h

/-! ### Tables of images -/

theorem appendLoop_eq (arch : String → Option (Table × Table × Table)) (cur : Option (Table × Table × Table)) (l : List Shot) :
    appendLoop arch none cur l = l.mapM fun s => (arch s.date).map fun t => values t s.hour := by
  induction l generalizing cur with
  | nil => rfl
  | cons s l ih =>
    simp only [appendLoop, List.mapM_cons]
    rw [if_pos (by simp)]
    cases h : arch s.date with
    | none => rfl
    | some t => simp only [Option.map_some, Option.bind_eq_bind, Option.bind_some, ih]

/-- The row of the monitor closest in time to an image, with its difference. -/
def Closest (t : Table) (h : ℝ) (k : ℕ) : Prop :=
  k ≤ t.n ∧ (∀ j ≤ t.n, |t.time k - h| ≤ |t.time j - h|) ∧ ∀ j < k, |t.time k - h| < |t.time j - h|

theorem at_eq (t : Table) (c : ℕ) (h : ℝ) (k : ℕ) (hk : Closest t h k) : t.at c h = (t.val c k, |t.time k - h|) := by
  unfold Table.at
  obtain ⟨k', a1, a2, a3, a4, a5⟩ := indexTime_spec_partial t.time (t.val c) t.n false h
  have : k' = k := by
    rcases Nat.lt_trichotomy k' k with g | g | g
    · have := hk.2.2 k' g; have := a2 k hk.1; linarith
    · exact g
    · have := a3 k g; have := hk.2.1 k' a1; linarith
  subst this
  apply Prod.ext
  · rw [a5, if_neg (by simp)]
  · exact a4

theorem closest_exists (t : Table) (h : ℝ) : ∃ k, Closest t h k := by
  obtain ⟨k', a1, a2, a3, a4, a5⟩ := indexTime_spec_partial t.time (t.val 0) t.n false h
  exact ⟨k', a1, a2, a3⟩

theorem mapM_some_iff {α β : Type} (f : α → Option β) (l : List α) (out : List β) :
    l.mapM f = some out ↔ out.length = l.length ∧ ∀ i, ∀ h : i < l.length, ∃ h' : i < out.length, f l[i] = some out[i] := by
  induction l generalizing out with
  | nil => simp [eq_comm]
  | cons a l ih =>
    simp only [List.mapM_cons]
    constructor
    · intro h
      cases ha : f a with
      | none => rw [ha] at h; cases h
      | some b =>
        rw [ha] at h
        cases hl : l.mapM f with
        | none => rw [hl] at h; cases h
        | some bs =>
          rw [hl] at h
          have e : out = b :: bs := by
            have : some (b :: bs) = some out := h
            exact (Option.some.inj this).symm
          obtain ⟨e1, e2⟩ := (ih bs).1 hl
          subst e
          refine ⟨by simp [e1], ?_⟩
          intro i hi
          cases i with
          | zero => exact ⟨by simp, ha⟩
          | succ i =>
            obtain ⟨g, g'⟩ := e2 i (by simpa using hi)
            exact ⟨by simpa using g, by simpa using g'⟩
    · rintro ⟨h1, h2⟩
      cases out with
      | nil => simp at h1
      | cons b bs =>
        obtain ⟨_, g⟩ := h2 0 (by simp)
        simp only [List.getElem_cons_zero] at g
        rw [g]
        have : l.mapM f = some bs := by
          rw [ih]
          refine ⟨by simpa using h1, fun i hi => ?_⟩
          obtain ⟨g1, g2⟩ := h2 (i + 1) (by simpa using hi)
          exact ⟨by simpa using g1, by simpa using g2⟩
        rw [this]; rfl

/-- C316: one row of values per image and one value per column; each row holds the measurements of the files of its own date closest in
time to the image, whatever the other rows and their order: DIMM seeing and its distance in time, MASS seeing and its distance, the six
layers of the profile and their distance. It fails, writing nothing, if the files of a date are missing. -/
theorem append_spec (arch : String → Option (Table × Table × Table)) (l : List Shot) :
    ((append arch l).isSome ↔ ∀ s ∈ l, (arch s.date).isSome) ∧
    ∀ out, append arch l = some out → out.length = l.length ∧
      ∀ i, ∀ hi : i < l.length, ∃ (hi' : i < out.length) (t : Table × Table × Table), arch l[i].date = some t ∧
        out[i].length = appended.length ∧
        ∀ k1 k2 k3, Closest t.1 l[i].hour k1 → Closest t.2.1 l[i].hour k2 → Closest t.2.2 l[i].hour k3 →
          out[i] = [t.1.val 0 k1, |t.1.time k1 - l[i].hour|, t.2.1.val 0 k2, |t.2.1.time k2 - l[i].hour|,
            t.2.2.val 0 k3, t.2.2.val 1 k3, t.2.2.val 2 k3, t.2.2.val 3 k3, t.2.2.val 4 k3, t.2.2.val 5 k3,
            |t.2.2.time k3 - l[i].hour|] := by
  unfold append
  rw [appendLoop_eq]
  constructor
  · induction l with
    | nil => simp
    | cons s l ih =>
      simp only [List.mapM_cons]
      cases h : arch s.date with
      | none => simp [h]
      | some t =>
        simp only [Option.map_some, Option.bind_eq_bind, Option.bind_some, List.mem_cons, forall_eq_or_imp, h, Option.isSome_some, true_and]
        rw [← ih]
        cases List.mapM (fun s => (arch s.date).map fun t => values t s.hour) l <;> simp
  · intro out h
    obtain ⟨h1, h2⟩ := (mapM_some_iff _ _ _).1 h
    refine ⟨h1, fun i hi => ?_⟩
    obtain ⟨g1, g2⟩ := h2 i hi
    obtain ⟨t, t1, t2⟩ := Option.map_eq_some_iff.1 g2
    refine ⟨g1, t, t1, by rw [← t2]; simp [values, appended], ?_⟩
    intro k1 k2 k3 c1 c2 c3
    rw [← t2]
    unfold values
    rw [at_eq _ _ _ _ c1, at_eq _ _ _ _ c2]
    simp only [at_eq _ _ _ _ c3]
    rfl

/-- C316: column names are distinct. -/
theorem appended_distinct : appended.Nodup ∧ appended.length = 11 := by decide +kernel

/-- Two images of different nights in one table. -/
example : ∃ arch : String → Option (Table × Table × Table), (arch "20130801").isSome ∧ (arch "20130802").isSome ∧ arch "20130801" ≠ arch "20130802" :=
  ⟨fun s => if s = "20130801" then some (⟨0, fun _ => 0, fun _ _ => 0⟩, ⟨0, fun _ => 0, fun _ _ => 0⟩, ⟨0, fun _ => 0, fun _ _ => 0⟩)
    else some (⟨1, fun _ => 0, fun _ _ => 0⟩, ⟨0, fun _ => 0, fun _ _ => 0⟩, ⟨0, fun _ => 0, fun _ _ => 0⟩), by simp, by simp, by simp⟩

/-! ### Date of an image -/

/-- C317: seconds since the first day. -/
def instant (w : When) : ℤ := w.day * 86400 + w.sec

/-- C317: the UT date and time are those ten hours after the local time, itself the one of the header, or one day later for a header of the
second kind and a time before noon; the time of day is valid. Images of a night, from noon to noon, are dated in order. -/
theorem imageUT_spec (shutter : Bool) (w : When) :
    instant (imageUT shutter w) = instant w + 36000 + (if shutter = false ∧ w.sec < 43200 then 86400 else 0) ∧
    (imageUT shutter w).sec < 86400 := by
  refine ⟨?_, ?_⟩
  · unfold imageUT hawaiiToUT instant
    cases shutter
    · by_cases h : w.sec < 43200
      · simp only [Bool.false_eq_true, if_false, show w.sec < 12 * 3600 by omega, if_true, h, and_self]
        push_cast; omega
      · simp only [Bool.false_eq_true, if_false, show ¬ w.sec < 12 * 3600 by omega, h, and_false]
        push_cast; omega
    · simp only [if_true, Bool.true_eq_false, false_and, if_false]
      push_cast; omega
  · unfold imageUT hawaiiToUT
    exact Nat.mod_lt _ (by norm_num)

/-- C317: with a header of the second kind, the images of the night that starts on `day` follow each other from noon to noon, and those
taken from 14 h to 12 h local time are of the next UT day. -/
theorem imageUT_night (day : ℤ) (a b : ℕ) (ha : a < 86400) :
    (43200 ≤ a → b < 43200 → instant (imageUT false ⟨day, a⟩) < instant (imageUT false ⟨day, b⟩)) ∧
    ((a < 43200 ∨ 50400 ≤ a) → (imageUT false ⟨day, a⟩).day = day + 1) := by
  constructor
  · intro h1 h2
    rw [(imageUT_spec false ⟨day, a⟩).1, (imageUT_spec false ⟨day, b⟩).1]
    simp only [instant]
    simp [show ¬ a < 43200 by omega, h2]
    omega
  · intro h
    unfold imageUT hawaiiToUT
    rcases h with h | h
    · simp only [Bool.false_eq_true, if_false, show a < 12 * 3600 by omega, if_true]
      have : (a + 36000) / 86400 = 0 := by omega
      rw [this]; simp
    · simp only [Bool.false_eq_true, if_false, show ¬ a < 12 * 3600 by omega]
      have : (a + 36000) / 86400 = 1 := by omega
      rw [this]; simp

/-- C317: the twelve-hour clock: each time of the day is read once, before or after noon as marked. -/
theorem parse12_spec (h m s : ℕ) (pm : Bool) (h1 : 1 ≤ h) (h2 : h ≤ 12) (hm : m < 60) (hs : s < 60) :
    parse12 h m s pm < 86400 ∧ (parse12 h m s pm < 43200 ↔ pm = false) ∧
    parse12 h m s pm % 43200 = (if h = 12 then 0 else h) * 3600 + m * 60 + s := by
  unfold parse12
  rcases Nat.lt_or_ge h 12 with g | g
  · rw [Nat.mod_eq_of_lt g, if_neg (show ¬ h = 12 by omega)]
    cases pm <;> simp <;> omega
  · have : h = 12 := by omega
    subst this
    cases pm <;> simp <;> omega

example : imageUT false ⟨10, parse12 1 30 0 false⟩ = ⟨11, 41400⟩ := by decide

/-! ### Filters -/

/-- C318: a filter is found whatever the case and the underscores of its name, and no other one is. -/
theorem filterFile_spec (s : List Char) (f : String)
    (hf : f ∈ ["J", "H", "K", "Kcont", "Kp", "Ks", "Lp", "Ms", "Hcont", "Brgamma", "FeII"]) :
    filterFile s = some (f ++ ".dat") ↔ (s.filter (· != '_')).map Char.toUpper = f.toList.map Char.toUpper := by
  have key : ∀ u : List Char, ((filters.find? fun f => upper f.toList = u).map (· ++ ".dat") = some (f ++ ".dat")) ↔ u = upper f.toList := by
    intro u
    constructor
    · intro h
      obtain ⟨g, hg, e⟩ := Option.map_eq_some_iff.1 h
      have e' : g = f := by
        have := congrArg String.toList e
        simp only [String.toList_append] at this
        exact String.toList_inj.1 (List.append_cancel_right this)
      subst e'
      have := List.find?_some hg
      simpa using (of_decide_eq_true this).symm
    · intro h
      subst h
      have hd : ∀ f ∈ filters, (filters.find? fun g => upper g.toList = upper f.toList) = some f := by decide +kernel
      have hf' : f ∈ filters := by
        have hall : ∀ g ∈ ["J", "H", "K", "Kcont", "Kp", "Ks", "Lp", "Ms", "Hcont", "Brgamma", "FeII"], g ∈ filters := by decide
        exact hall f hf
      rw [hd f hf']; rfl
  unfold filterFile
  exact key _

/-- C318: the filter is the one of the first wheel, or of the second if the first holds a `PK` element. -/
theorem filterName_spec (fwi fwo : String) : ((∃ r, fwi.toList = 'P' :: 'K' :: r) → filterName fwi fwo = fwo) ∧
    ((¬ ∃ r, fwi.toList = 'P' :: 'K' :: r) → filterName fwi fwo = fwi) := by
  unfold filterName
  generalize fwi.toList = l
  have e : "PK".toList = ['P', 'K'] := by decide
  rw [e]
  constructor
  · rintro ⟨r, rfl⟩; simp
  · intro h
    rw [if_neg]
    intro hp
    apply h
    obtain ⟨r, hr⟩ := List.isPrefixOf_iff_prefix.1 hp
    exact ⟨r, by rw [← hr]; rfl⟩

/-- C318: the curve holds the rows of more than one percent, in their order, in metres and as fractions. -/
theorem curve_spec (w t : ℕ → ℝ) (n : ℕ) (ht : ∀ k < n, t k ≤ 100) :
    (∀ p ∈ curve w t n, 1 / 100 < p.2 ∧ p.2 ≤ 1) ∧
    ∀ p, p ∈ curve w t n ↔ ∃ k < n, 1 < t k ∧ p = (fixWaves 1e-7 w k * 1e-6, t k / 100) := by
  have h : ∀ p, p ∈ curve w t n ↔ ∃ k < n, 1 < t k ∧ p = (fixWaves 1e-7 w k * 1e-6, t k / 100) := by
    intro p
    unfold curve
    simp only [List.mem_map, List.mem_filter, List.mem_range, gt_iff_lt, decide_eq_true_eq]
    constructor
    · rintro ⟨k, ⟨h1, h2⟩, rfl⟩; exact ⟨k, h1, h2, rfl⟩
    · rintro ⟨k, h1, h2, rfl⟩; exact ⟨k, ⟨h1, h2⟩, rfl⟩
  refine ⟨?_, h⟩
  intro p hp
  obtain ⟨k, h1, h2, rfl⟩ := (h p).1 hp
  have := ht k h1
  constructor
  · simp only; linarith
  · simp only; linarith

/-! ### Sampling of a filter -/

theorem top_spec (l : List ℝ) (h : l ≠ []) : top l ∈ l ∧ ∀ x ∈ l, x ≤ top l := by
  induction l with
  | nil => exact absurd rfl h
  | cons a l ih =>
    cases l with
    | nil => simp [top]
    | cons b l =>
      obtain ⟨h1, h2⟩ := ih (by simp)
      have e : top (a :: b :: l) = max a (top (b :: l)) := rfl
      rw [e]
      constructor
      · rcases max_choice a (top (b :: l)) with g | g <;> rw [g]
        · simp
        · exact List.mem_cons_of_mem _ h1
      · intro x hx
        rcases List.mem_cons.1 hx with g | g
        · rw [g]; exact le_max_left _ _
        · exact le_trans (h2 x g) (le_max_right _ _)

theorem bottom_spec (l : List ℝ) (h : l ≠ []) : bottom l ∈ l ∧ ∀ x ∈ l, bottom l ≤ x := by
  induction l with
  | nil => exact absurd rfl h
  | cons a l ih =>
    cases l with
    | nil => simp [bottom]
    | cons b l =>
      obtain ⟨h1, h2⟩ := ih (by simp)
      have e : bottom (a :: b :: l) = min a (bottom (b :: l)) := rfl
      rw [e]
      constructor
      · rcases min_choice a (bottom (b :: l)) with g | g <;> rw [g]
        · simp
        · exact List.mem_cons_of_mem _ h1
      · intro x hx
        rcases List.mem_cons.1 hx with g | g
        · rw [g]; exact min_le_left _ _
        · exact le_trans (min_le_right _ _) (h2 x g)

theorem list_sum_range (l : List (ℝ × ℝ)) (f : ℝ × ℝ → ℝ) : (l.map f).sum = ∑ k ∈ Finset.range l.length, f (l.getD k (0, 0)) := by
  induction l with
  | nil => simp
  | cons a l ih =>
    rw [List.map_cons, List.sum_cons, ih, List.length_cons, Finset.sum_range_succ']
    simp [add_comm]

/-- Normal equations: the residuals of the line have zero sum, and zero sum against the wavelengths. -/
theorem normal_equations (n : ℕ) (x y : ℕ → ℝ) (hn : 0 < n)
    (hd : (n : ℝ) * (∑ k ∈ Finset.range n, x k ^ 2) - (∑ k ∈ Finset.range n, x k) ^ 2 ≠ 0) :
    ∑ k ∈ Finset.range n, (y k - (slope n x y * x k + offset n x y)) = 0 ∧
    ∑ k ∈ Finset.range n, (y k - (slope n x y * x k + offset n x y)) * x k = 0 := by
  have hn' : (n : ℝ) ≠ 0 := by positivity
  have e1 : ∑ k ∈ Finset.range n, (y k - (slope n x y * x k + offset n x y)) =
      ∑ k ∈ Finset.range n, y k - slope n x y * (∑ k ∈ Finset.range n, x k) - n * offset n x y := by
    rw [Finset.sum_sub_distrib, Finset.sum_add_distrib, Finset.sum_const, Finset.card_range, nsmul_eq_mul, ← Finset.mul_sum]
    ring
  have e2 : ∑ k ∈ Finset.range n, (y k - (slope n x y * x k + offset n x y)) * x k =
      ∑ k ∈ Finset.range n, x k * y k - slope n x y * (∑ k ∈ Finset.range n, x k ^ 2) - offset n x y * ∑ k ∈ Finset.range n, x k := by
    rw [Finset.mul_sum, Finset.mul_sum, ← Finset.sum_sub_distrib, ← Finset.sum_sub_distrib]
    apply Finset.sum_congr rfl; intro k _; ring
  have ho : (n : ℝ) * offset n x y = ∑ k ∈ Finset.range n, y k - slope n x y * ∑ k ∈ Finset.range n, x k := by
    unfold offset; field_simp
  have hs : slope n x y * (n * (∑ k ∈ Finset.range n, x k ^ 2) - (∑ k ∈ Finset.range n, x k) ^ 2) =
      n * (∑ k ∈ Finset.range n, x k * y k) - (∑ k ∈ Finset.range n, x k) * ∑ k ∈ Finset.range n, y k := by
    unfold Telemetry.slope; exact div_mul_cancel₀ _ hd
  refine ⟨by rw [e1, ho]; ring, ?_⟩
  rw [e2]
  have : (n : ℝ) * (∑ k ∈ Finset.range n, x k * y k - slope n x y * (∑ k ∈ Finset.range n, x k ^ 2) - offset n x y * ∑ k ∈ Finset.range n, x k) = 0 := by
    have : (n : ℝ) * (offset n x y * ∑ k ∈ Finset.range n, x k) = (∑ k ∈ Finset.range n, y k - slope n x y * ∑ k ∈ Finset.range n, x k) * ∑ k ∈ Finset.range n, x k := by
      rw [← ho]; ring
    linear_combination (-1) * hs - this
  rcases mul_eq_zero.1 this with h | h
  · exact absurd h hn'
  · exact h

/-- Two different abscissae make the regression well posed. -/
theorem well_posed (n : ℕ) (x : ℕ → ℝ) (i j : ℕ) (hi : i < n) (hj : j < n) (h : x i ≠ x j) :
    (n : ℝ) * (∑ k ∈ Finset.range n, x k ^ 2) - (∑ k ∈ Finset.range n, x k) ^ 2 ≠ 0 := by
  have hn' : (n : ℝ) ≠ 0 := by have : 0 < n := by omega
                               positivity
  set m := (∑ k ∈ Finset.range n, x k) / n with hm
  have hS : ∑ k ∈ Finset.range n, x k = n * m := by rw [hm]; field_simp
  have e : (n : ℝ) * (∑ k ∈ Finset.range n, x k ^ 2) - (∑ k ∈ Finset.range n, x k) ^ 2 = n * ∑ k ∈ Finset.range n, (x k - m) ^ 2 := by
    have : ∑ k ∈ Finset.range n, (x k - m) ^ 2 = ∑ k ∈ Finset.range n, x k ^ 2 - 2 * m * (∑ k ∈ Finset.range n, x k) + n * m ^ 2 := by
      rw [Finset.mul_sum, ← Finset.sum_sub_distrib]
      rw [show (n : ℝ) * m ^ 2 = ∑ k ∈ Finset.range n, m ^ 2 by rw [Finset.sum_const, Finset.card_range, nsmul_eq_mul]]
      rw [← Finset.sum_add_distrib]
      apply Finset.sum_congr rfl; intro k _; ring
    rw [this, hS]; ring
  rw [e]
  intro h0
  rcases mul_eq_zero.1 h0 with g | g
  · exact hn' g
  · rw [Finset.sum_eq_zero_iff_of_nonneg (fun k _ => sq_nonneg _)] at g
    have g1 := g i (Finset.mem_range.2 hi); have g2 := g j (Finset.mem_range.2 hj)
    rw [sq_eq_zero_iff] at g1 g2
    exact h (by linarith)

theorem line_posed (l : List (ℝ × ℝ)) (p q : ℝ × ℝ) (hp : p ∈ l) (hq : q ∈ l) (hpq : p.1 ≠ q.1) :
    0 < l.length ∧ (l.length : ℝ) * (∑ k ∈ Finset.range l.length, (l.getD k (0, 0)).1 ^ 2) - (∑ k ∈ Finset.range l.length, (l.getD k (0, 0)).1) ^ 2 ≠ 0 := by
  obtain ⟨i, hi, ei⟩ := List.mem_iff_getElem.1 hp
  obtain ⟨j, hj, ej⟩ := List.mem_iff_getElem.1 hq
  refine ⟨by omega, ?_⟩
  apply well_posed l.length (fun k => (l.getD k (0, 0)).1) i j hi hj
  simp only [List.getD_eq_getElem _ _ hi, List.getD_eq_getElem _ _ hj, ei, ej]
  exact hpq

/-- C319: the line is the least-squares one: no other line is closer to the selected rows. -/
theorem line_optimal (l : List (ℝ × ℝ)) (p q : ℝ × ℝ) (hp : p ∈ l) (hq : q ∈ l) (hpq : p.1 ≠ q.1) (a b : ℝ) :
    (l.map fun r => (r.2 - line l r.1) ^ 2).sum ≤ (l.map fun r => (r.2 - (a * r.1 + b)) ^ 2).sum := by
  obtain ⟨h0, hd⟩ := line_posed l p q hp hq hpq
  obtain ⟨n1, n2⟩ := normal_equations l.length (fun k => (l.getD k (0, 0)).1) (fun k => (l.getD k (0, 0)).2) h0 hd
  rw [list_sum_range, list_sum_range]
  unfold line
  simp only
  set s := slope l.length (fun k => (l.getD k (0, 0)).1) (fun k => (l.getD k (0, 0)).2)
  set o := offset l.length (fun k => (l.getD k (0, 0)).1) (fun k => (l.getD k (0, 0)).2)
  have e : ∑ k ∈ Finset.range l.length, ((l.getD k (0, 0)).2 - (a * (l.getD k (0, 0)).1 + b)) ^ 2 =
      ∑ k ∈ Finset.range l.length, ((l.getD k (0, 0)).2 - (s * (l.getD k (0, 0)).1 + o)) ^ 2 +
      ∑ k ∈ Finset.range l.length, ((s - a) * (l.getD k (0, 0)).1 + (o - b)) ^ 2 +
      2 * (s - a) * ∑ k ∈ Finset.range l.length, ((l.getD k (0, 0)).2 - (s * (l.getD k (0, 0)).1 + o)) * (l.getD k (0, 0)).1 +
      2 * (o - b) * ∑ k ∈ Finset.range l.length, ((l.getD k (0, 0)).2 - (s * (l.getD k (0, 0)).1 + o)) := by
    rw [Finset.mul_sum, Finset.mul_sum, ← Finset.sum_add_distrib, ← Finset.sum_add_distrib, ← Finset.sum_add_distrib]
    apply Finset.sum_congr rfl; intro k _; ring
  rw [e, n1, n2]
  have := Finset.sum_nonneg (s := Finset.range l.length) (f := fun k => ((s - a) * (l.getD k (0, 0)).1 + (o - b)) ^ 2) (fun k _ => sq_nonneg _)
  linarith

/-- C319: a linear curve is sampled exactly. -/
theorem line_exact (l : List (ℝ × ℝ)) (p q : ℝ × ℝ) (hp : p ∈ l) (hq : q ∈ l) (hpq : p.1 ≠ q.1) (a b : ℝ) (h : ∀ r ∈ l, r.2 = a + b * r.1)
    (x : ℝ) : line l x = a + b * x := by
  obtain ⟨h0, hd⟩ := line_posed l p q hp hq hpq
  obtain ⟨e1, e2⟩ := regression_exact l.length (fun k => (l.getD k (0, 0)).1) a b h0 hd
  have hc : ∀ k ∈ Finset.range l.length, (l.getD k (0, 0)).2 = a + b * (l.getD k (0, 0)).1 := by
    intro k hk
    have hk := Finset.mem_range.1 hk
    rw [List.getD_eq_getElem _ _ hk]
    exact h _ (List.getElem_mem hk)
  have c1 : slope l.length (fun k => (l.getD k (0, 0)).1) (fun k => (l.getD k (0, 0)).2) = b := by
    refine Eq.trans ?_ e1
    unfold Telemetry.slope
    have a1 : ∑ k ∈ Finset.range l.length, (l.getD k (0, 0)).1 * (l.getD k (0, 0)).2 =
        ∑ k ∈ Finset.range l.length, (l.getD k (0, 0)).1 * (a + b * (l.getD k (0, 0)).1) :=
      Finset.sum_congr rfl fun k hk => by rw [hc k hk]
    simp only [a1, Finset.sum_congr rfl hc]
  have c2 : offset l.length (fun k => (l.getD k (0, 0)).1) (fun k => (l.getD k (0, 0)).2) = a := by
    refine Eq.trans ?_ e2
    unfold offset
    simp only [c1, e1, Finset.sum_congr rfl hc]
  unfold line
  simp only [c1, c2]
  ring

/-- C319: rows selected by `samplingFilterProfile`: those above the fraction `thr` of the largest transmission; the one of the
largest transmission is among them. -/
theorem selected_spec (c : List (ℝ × ℝ)) (thr : ℝ) (ht : thr < 1) (hc : ∃ p ∈ c, 0 < p.2) :
    (∀ p, p ∈ selected c thr ↔ p ∈ c ∧ ∃ m ∈ c, (∀ q ∈ c, q.2 ≤ m.2) ∧ thr * m.2 < p.2) ∧ selected c thr ≠ [] := by
  obtain ⟨p0, hp0, hpos⟩ := hc
  have hne : c.map (·.2) ≠ [] := by
    intro h; rw [List.map_eq_nil_iff] at h; rw [h] at hp0; cases hp0
  obtain ⟨t1, t2⟩ := top_spec _ hne
  obtain ⟨m, hm, em⟩ := List.mem_map.1 t1
  have hmax : ∀ q ∈ c, q.2 ≤ m.2 := fun q hq => by rw [em]; exact t2 _ (List.mem_map_of_mem hq)
  have key : ∀ p, p ∈ selected c thr ↔ p ∈ c ∧ thr * m.2 < p.2 := by
    intro p
    unfold selected
    simp only [List.mem_filter, gt_iff_lt, decide_eq_true_eq, em]
  refine ⟨fun p => ?_, ?_⟩
  · rw [key p]
    constructor
    · rintro ⟨h1, h2⟩; exact ⟨h1, m, hm, hmax, h2⟩
    · rintro ⟨h1, m', hm', hmax', h2⟩
      have : m'.2 = m.2 := le_antisymm (hmax _ hm') (hmax' _ hm)
      rw [← this]; exact ⟨h1, h2⟩
  · apply List.ne_nil_of_mem (a := m)
    rw [key]
    refine ⟨hm, ?_⟩
    have := hmax p0 hp0
    nlinarith

theorem linspace_get (a b : ℝ) (n k : ℕ) (h : k < n) : (linspace a b n).getD k 0 = a + k * ((b - a) / (n - 1)) := by
  unfold linspace
  rw [List.getD_eq_getElem _ _ (by simpa using h)]
  simp

/-- C319: for a filter wider than `bwMin` and at least two requested wavelengths, the wavelengths are the requested number, evenly spaced
from the shortest to the longest selected one (so inside the band), the bandwidth is their difference and each transmission is the one of the
fitted line; there is one dispersion per wavelength. A narrower filter gives the central wavelength of the header and a zero bandwidth. -/
theorem sampling_spec (c : List (ℝ × ℝ)) (cen : ℝ) (n : ℕ) (thr bwMin : ℝ) (ht : thr < 1) (hc : ∃ p ∈ c, 0 < p.2) :
    ∃ lo ∈ selected c thr, ∃ hi ∈ selected c thr, (∀ p ∈ selected c thr, lo.1 ≤ p.1 ∧ p.1 ≤ hi.1) ∧
      (bwMin < hi.1 - lo.1 → 2 ≤ n → ∃ w : List ℝ, sampling c cen n thr bwMin = (w, hi.1 - lo.1, w.map (line (selected c thr)), n) ∧
        w.length = n ∧ w.getD 0 0 = lo.1 ∧ w.getD (n - 1) 0 = hi.1 ∧
        (∀ k, k + 1 < n → w.getD (k + 1) 0 - w.getD k 0 = (hi.1 - lo.1) / (n - 1)) ∧ ∀ x ∈ w, lo.1 ≤ x ∧ x ≤ hi.1) ∧
      (hi.1 - lo.1 ≤ bwMin → sampling c cen n thr bwMin = ([cen], 0, [line (selected c thr) cen], 1)) := by
  obtain ⟨_, hne⟩ := selected_spec c thr ht hc
  have hne' : (selected c thr).map (·.1) ≠ [] := by simpa using hne
  obtain ⟨t1, t2⟩ := top_spec _ hne'
  obtain ⟨b1, b2⟩ := bottom_spec _ hne'
  obtain ⟨hi, hhi, ehi⟩ := List.mem_map.1 t1
  obtain ⟨lo, hlo, elo⟩ := List.mem_map.1 b1
  have hle : lo.1 ≤ hi.1 := by rw [elo]; exact b2 _ (List.mem_map_of_mem hhi)
  refine ⟨lo, hlo, hi, hhi, fun p hp => ⟨by rw [elo]; exact b2 _ (List.mem_map_of_mem hp), by rw [ehi]; exact t2 _ (List.mem_map_of_mem hp)⟩, ?_, ?_⟩
  · intro hb h2
    refine ⟨linspace lo.1 hi.1 n, ?_, by simp [linspace], ?_, ?_, ?_, ?_⟩
    · unfold sampling
      simp only [← ehi, ← elo]
      have hb' : ¬ hi.1 - lo.1 ≤ bwMin := not_le.2 hb
      have h2' : n > 1 := h2
      simp only [if_neg hb', if_pos h2']
    · rw [linspace_get _ _ _ _ (by omega)]; simp
    · have h1 : n - 1 < n := by omega
      have h3 : ((n - 1 : ℕ) : ℝ) = n - 1 := by push_cast [show 1 ≤ n by omega]; ring
      have h4 : (n : ℝ) - 1 ≠ 0 := by
        have : (2 : ℝ) ≤ n := by exact_mod_cast h2
        intro h; linarith
      rw [linspace_get _ _ _ _ h1, h3]
      field_simp
      ring
    · intro k hk
      have h1 : k < n := by omega
      rw [linspace_get _ _ _ _ h1, linspace_get _ _ _ _ hk]
      push_cast
      ring
    · intro x hx
      obtain ⟨k, hk, rfl⟩ := List.mem_map.1 hx
      have hk := List.mem_range.1 hk
      have h2' : (2 : ℝ) ≤ n := by exact_mod_cast h2
      have hk' : (k : ℝ) ≤ n - 1 := by
        have : k + 1 ≤ n := by omega
        have : (k : ℝ) + 1 ≤ n := by exact_mod_cast this
        linarith
      have hk0 : (0 : ℝ) ≤ k := by positivity
      have hq : (0 : ℝ) ≤ (hi.1 - lo.1) / (n - 1) := div_nonneg (by linarith) (by linarith)
      have hq' : ((n : ℝ) - 1) * ((hi.1 - lo.1) / (n - 1)) = hi.1 - lo.1 := by
        have : (n : ℝ) - 1 ≠ 0 := by intro h; linarith
        field_simp
      constructor
      · nlinarith
      · nlinarith
  · intro hb
    unfold sampling
    simp only [← ehi, ← elo]
    rw [if_pos hb]
    simp

/-- C320: as many dispersions as wavelengths, for at least one requested wavelength. -/
theorem dispersions_partial (c : List (ℝ × ℝ)) (cen : ℝ) (n : ℕ) (thr bwMin : ℝ) (hn : 1 ≤ n) :
    (sampling c cen n thr bwMin).1.length = (sampling c cen n thr bwMin).2.2.2 ∧
    (sampling c cen n thr bwMin).2.2.1.length = (sampling c cen n thr bwMin).2.2.2 := by
  unfold sampling
  simp only [List.length_map, and_self]
  split_ifs with h1 h2 h3
  · omega
  · rfl
  · simp [linspace]
  · simp; omega

/-- C320: zero requested wavelengths give the central wavelength of a narrow filter with its dispersion, but of a wide filter without. -/
theorem dispersions_violation (c : List (ℝ × ℝ)) (cen thr bwMin : ℝ)
    (h : bwMin < top ((selected c thr).map (·.1)) - bottom ((selected c thr).map (·.1))) :
    (sampling c cen 0 thr bwMin).1 = [cen] ∧ (sampling c cen 0 thr bwMin).2.2.2 = 0 := by
  unfold sampling
  simp only
  rw [if_neg (not_le.2 h)]
  simp

/-- A filter of three rows with a flat top. -/
example : ∃ p ∈ ([(1, 1), (2, 1), (3, 1)] : List (ℝ × ℝ)), (0 : ℝ) < p.2 := ⟨(1, 1), by simp, by norm_num⟩

/-! ### Pointing -/

/-- C321: above the horizon the airmass is at least one, is one only at the zenith, and decreases with elevation; it is the inverse of the
sine of the elevation, and the zenith angle completes the elevation to ninety degrees. -/
theorem airmass_spec (el : ℝ) (h0 : 0 < el) (h1 : el ≤ 90) :
    (airmass el).1 + el = 90 ∧ (airmass el).2 = 1 / Real.sin (el * Real.pi / 180) ∧ 1 ≤ (airmass el).2 ∧ ((airmass el).2 = 1 ↔ el = 90) ∧
    ∀ el', el < el' → el' ≤ 90 → (airmass el').2 < (airmass el).2 := by
  have hpi := Real.pi_pos
  have e : ∀ x : ℝ, (airmass x).2 = 1 / Real.sin (x * Real.pi / 180) := by
    intro x
    unfold airmass
    simp only
    rw [show (90 - x) * Real.pi / 180 = Real.pi / 2 - x * Real.pi / 180 by ring, Real.cos_pi_div_two_sub]
  have pos : ∀ x : ℝ, 0 < x → x ≤ 90 → 0 < Real.sin (x * Real.pi / 180) := by
    intro x h h'
    apply Real.sin_pos_of_pos_of_lt_pi (by positivity)
    nlinarith
  have dec : ∀ x y : ℝ, 0 < x → x < y → y ≤ 90 → (airmass y).2 < (airmass x).2 := by
    intro x y hx hxy hy
    rw [e, e]
    apply one_div_lt_one_div_of_lt (pos x hx (by linarith))
    apply Real.sin_lt_sin_of_lt_of_le_pi_div_two
    · have : 0 < x * Real.pi / 180 := by positivity
      linarith
    · nlinarith
    · nlinarith
  have z : (airmass 90).2 = 1 := by
    rw [e, show (90 : ℝ) * Real.pi / 180 = Real.pi / 2 by ring, Real.sin_pi_div_two]; norm_num
  refine ⟨by unfold airmass; simp, e el, ?_, ?_, fun y h h' => dec el y h0 h h'⟩
  · rw [e]
    rw [le_div_iff₀ (pos el h0 h1), one_mul]
    exact Real.sin_le_one _
  · constructor
    · intro h
      by_contra hne
      have := dec el 90 h0 (lt_of_le_of_ne h1 hne) le_rfl
      linarith
    · rintro rfl; exact z

example : (0 : ℝ) < 30 ∧ (30 : ℝ) ≤ 90 := by norm_num

/-! ### Cases that meet the hypotheses -/

/-- A case meeting the hypotheses of `atmosphere_weights`. -/
example : ∃ w, atmosphere ((mu0 500e-9 * 6e-13) ^ (3 / 5 : ℝ)) (-1) ([1e-13, 1e-13, 1e-13, 1e-13, 1e-13, 1e-13].map some) 500e-9 =
    some ((mu0 500e-9 * 6e-13) ^ (3 / 5 : ℝ), w) ∧ w.sum = 1 := by
  have hsum : ([1e-13, 1e-13, 1e-13, 1e-13, 1e-13, 1e-13] : List ℝ).sum = 6e-13 := by norm_num
  obtain ⟨g, T, _, _, _, h, h1, _⟩ := atmosphere_weights ((mu0 500e-9 * 6e-13) ^ (3 / 5 : ℝ)) 500e-9
    [1e-13, 1e-13, 1e-13, 1e-13, 1e-13, 1e-13] (by norm_num) rfl (by norm_num) (by norm_num) (-1) (Or.inl rfl) (by rw [hsum])
  exact ⟨_, h, h1⟩

/-- A case meeting the hypotheses of `parse12_spec`. -/
example : parse12 12 30 5 false < 43200 := ((parse12_spec 12 30 5 false (by norm_num) (by norm_num) (by norm_num) (by norm_num)).2.1).2 rfl

/-- A case meeting the hypotheses of `line_exact`. -/
example : line [(0, 1), (1, 3), (2, 5)] 10 = 1 + 2 * 10 :=
  line_exact _ (0, 1) (2, 5) (by simp) (by simp) (by norm_num) 1 2 (by norm_num) 10

/-! ### Cases that meet the hypotheses -/

/-- A case meeting the hypotheses of `line_optimal`. -/
example (a b : ℝ) : (([(0, 1), (1, 3), (2, 4)] : List (ℝ × ℝ)).map fun r => (r.2 - line [(0, 1), (1, 3), (2, 4)] r.1) ^ 2).sum ≤
    (([(0, 1), (1, 3), (2, 4)] : List (ℝ × ℝ)).map fun r => (r.2 - (a * r.1 + b)) ^ 2).sum :=
  line_optimal [(0, 1), (1, 3), (2, 4)] (0, 1) (1, 3) (by simp) (by simp) (by norm_num) a b

end P3.Archive
