import Verif.Model.Detect
import Mathlib.Data.List.Infix

/-! C424-C425: detection of the folder of TIPTOP. -/

namespace P3.Detect

/-- C424 (partial): an installed package gives the folder that contains it. -/
theorem installed_partial (root : Path) (stack : List Path) (f : String) :
    detect (.regular (root ++ ["tiptop", f])) stack = .ok (some root) := by
  unfold detect
  simp [List.dropLast_append_cons]

theorem frame_some (p r : Path) (h : frame p = some r) :
    ∃ rest, p = r ++ "tiptop" :: rest ∧ "tiptop" ∉ rest := by
  unfold frame at h
  rw [Option.map_eq_some_iff] at h
  obtain ⟨q, hq, rfl⟩ := h
  rw [List.find?_eq_some_iff_append] at hq
  obtain ⟨hl, as, bs, e, hno⟩ := hq
  have hl' : q.getLast? = some "tiptop" := by simpa using hl
  have hqm : q ∈ p.inits := by rw [← List.mem_reverse, e]; simp
  rw [List.mem_inits] at hqm
  obtain ⟨rest, rfl⟩ := hqm
  have hq' : q = q.dropLast ++ ["tiptop"] := by
    rw [List.getLast?_eq_some_iff] at hl'
    obtain ⟨ys, rfl⟩ := hl'
    simp
  refine ⟨rest, ?_, ?_⟩
  · conv_lhs => rw [hq']
    simp
  · intro hm
    obtain ⟨a, b, rfl⟩ := List.append_of_mem hm
    set q2 := q ++ (a ++ ["tiptop"]) with hq2
    have hin : q2 ∈ (q ++ (a ++ "tiptop" :: b)).inits.reverse := by
      rw [List.mem_reverse, List.mem_inits]
      exact ⟨b, by simp [hq2]⟩
    -- the longer prefix comes first
    have hpos : q2 ∈ as ∨ q2 ∈ q :: bs := by rw [e] at hin; simpa using hin
    rcases hpos with hp | hp
    · have := hno q2 hp
      simp [hq2] at this
    · have hsort : ((q ++ (a ++ "tiptop" :: b)).inits.reverse).Pairwise (fun x y => y.length < x.length) := by
        rw [List.pairwise_reverse]
        have : ∀ l : List String, l.inits.Pairwise (fun x y => x.length < y.length) := by
          intro l
          induction l with
          | nil => simp
          | cons c l ih =>
            rw [List.inits_cons, List.pairwise_cons]
            refine ⟨?_, ?_⟩
            · intro x hx; rw [List.mem_map] at hx; obtain ⟨y, -, rfl⟩ := hx; simp
            · rw [List.pairwise_map]; exact ih.imp (by intro x y h; simpa using h)
        exact this _
      rw [e, List.pairwise_append] at hsort
      have h2 := hsort.2.1
      rw [List.pairwise_cons] at h2
      rcases List.mem_cons.1 hp with h3 | h3
      · have := congrArg List.length h3; simp [hq2] at this
      · have := h2.1 q2 h3
        simp [hq2] at this
        omega

theorem frame_none (p : Path) : frame p = none ↔ "tiptop" ∉ p := by
  unfold frame
  rw [Option.map_eq_none_iff, List.find?_eq_none]
  constructor
  · intro h hm
    obtain ⟨a, b, rfl⟩ := List.append_of_mem hm
    have := h (a ++ ["tiptop"]) (by rw [List.mem_reverse, List.mem_inits]; exact ⟨b, by simp⟩)
    simp at this
  · intro h q hq hl
    rw [List.mem_reverse, List.mem_inits] at hq
    obtain ⟨r, rfl⟩ := hq
    have hl' : q.getLast? = some "tiptop" := by simpa using hl
    apply h
    exact List.mem_append_left _ (List.mem_of_getLast? hl')

/-- C424 (partial): without the package, the folder found contains a folder `tiptop` on the way to the file of the first caller that has one,
the deepest of them; nothing is found exactly when no caller has one. -/
theorem stack_partial (stack : List Path) :
    (detect .absent stack = .ok none ↔ ∀ p ∈ stack, "tiptop" ∉ p) ∧
      ∀ r, detect .absent stack = .ok (some r) ↔ ∃ before rest after, stack = before ++ (r ++ "tiptop" :: rest) :: after ∧ "tiptop" ∉ rest ∧
        ∀ p ∈ before, "tiptop" ∉ p := by
  unfold detect
  simp only [Except.ok.injEq]
  refine ⟨by rw [List.findSome?_eq_none_iff]; simp only [frame_none], fun r => ?_⟩
  rw [List.findSome?_eq_some_iff]
  constructor
  · rintro ⟨l, p, l', rfl, hp, hb⟩
    obtain ⟨rest, rfl, hr⟩ := frame_some p r hp
    exact ⟨l, rest, l', rfl, hr, fun p h => (frame_none p).1 (hb p h)⟩
  · rintro ⟨before, rest, after, rfl, hr, hb⟩
    refine ⟨before, _, after, rfl, ?_, fun p h => (frame_none p).2 (hb p h)⟩
    rcases h : frame (r ++ "tiptop" :: rest) with _ | r'
    · rw [frame_none] at h; simp at h
    · obtain ⟨rest', e, hr'⟩ := frame_some _ _ h
      have := List.append_inj_left' (s₁ := r) (s₂ := r') (t₁ := "tiptop" :: rest) (t₂ := "tiptop" :: rest') e ?_
      · rw [this]
      · -- the last occurrence is at the same place
        have key : ∀ (a b c d : List String), "tiptop" ∉ b → "tiptop" ∉ d → a ++ "tiptop" :: b = c ++ "tiptop" :: d → b.length ≤ d.length := by
          intro a b c d hb hd he
          by_contra hlt
          have hlen := congrArg List.length he
          simp at hlen
          have h1 : (a ++ "tiptop" :: b)[c.length]? = some "tiptop" := by rw [he]; simp
          rw [List.getElem?_append_right (by omega)] at h1
          have hk : c.length - a.length = (c.length - a.length - 1) + 1 := by omega
          rw [hk, List.getElem?_cons_succ] at h1
          exact hb (List.mem_of_getElem? h1)
        have k1 := key _ _ _ _ hr hr' e
        have k2 := key _ _ _ _ hr' hr e.symm
        simp only [List.length_cons]; omega

/-- C424 (violation): a script run from the home of a user called `tiptop` is taken for TIPTOP, and its folder is the one of all users. -/
theorem stack_violation : detect .absent [["usr", "lib", "p3", "aoSystem", "__init__.py"], ["home", "tiptop", "project", "script.py"]] =
    .ok (some ["home"]) := by decide +kernel

/-- C425 (partial): P3 can be imported when TIPTOP is installed and when nothing of this name is found. -/
theorem import_partial (pkg : Pkg) (h : pkg ≠ .folder) (stack : List Path) : ∃ r, importP3 pkg stack = .ok r := by
  unfold importP3 detect
  cases pkg with
  | absent => exact ⟨_, rfl⟩
  | regular f => exact ⟨_, rfl⟩
  | folder => exact absurd rfl h

/-- C425 (violation): P3 cannot be imported when Python finds a folder `tiptop` that is not a package, wherever the program is. -/
theorem import_violation (stack : List Path) : importP3 .folder stack = .error .typeError := rfl

/-- C424 (partial): what is kept at import is what is found in the callers at that time. -/
theorem import_stack_partial (stack : List Path) :
    (importP3 .absent stack = .ok none ↔ ∀ p ∈ stack, "tiptop" ∉ p) ∧
      ∀ r, importP3 .absent stack = .ok (some r) ↔ ∃ before rest after, stack = before ++ (r ++ "tiptop" :: rest) :: after ∧
        "tiptop" ∉ rest ∧ ∀ p ∈ before, "tiptop" ∉ p := stack_partial stack

/-- C424 (partial): a folder found at import is kept whatever the later callers; else they are looked at. -/
theorem folder_partial (pkg : Pkg) (s s' : List Path) (r : Option Path) (h : importP3 pkg s = .ok r) :
    (∀ p, r = some p → folder r pkg s' = .ok (some p)) ∧ (r = none → pkg = .absent ∧ folder r pkg s' = detect .absent s') := by
  refine ⟨?_, ?_⟩
  · rintro p rfl; rfl
  · rintro rfl
    unfold importP3 detect at h
    cases pkg with
    | absent => exact ⟨rfl, rfl⟩
    | regular f => cases h
    | folder => cases h

example : detect .absent [["opt", "p3", "x.py"], ["home", "u", "tiptop", "tiptop", "base.py"]] = .ok (some ["home", "u", "tiptop"]) := by decide +kernel

end P3.Detect
