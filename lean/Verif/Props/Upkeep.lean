import Verif.Model.Upkeep
import Mathlib.Tactic.Ring
import Mathlib.Tactic.FieldSimp
import Mathlib.Tactic.Positivity
import Mathlib.Tactic.Linarith

/-! Properties of the positivity term, the weights of a fit, the query of SPARTA data and printed descriptions
(C347-C352). -/

namespace P3.Upkeep

/-! ### Positivity -/

/-- The cost of a fit. -/
noncomputable def cost (alpha : Option ℝ) (w im m : List ℝ) : ℝ := ((residual alpha w im m).map (· ^ 2)).sum

/-- Sum over the pixels of `w (im - m)^2 f`, where `f` depends on the sign of the residual. -/
noncomputable def weightedSum (f : ℝ → ℝ) (w im m : List ℝ) : ℝ :=
  (List.zipWith (fun w d => w * d ^ 2 * f d) w (List.zipWith (· - ·) im m)).sum

theorem cost_eq (alpha : Option ℝ) (ha : ∀ a, alpha = some a → 0 ≤ a) (w im m : List ℝ) (hw : ∀ x ∈ w, 0 ≤ x) :
    cost alpha w im m = weightedSum (fun d => match alpha with | none => 1 | some a => 1 + (if 0 < d then 0 else a)) w im m := by
  unfold cost residual weightedSum
  generalize List.zipWith (· - ·) im m = D
  induction w generalizing D with
  | nil => simp
  | cons x w ih =>
    cases D with
    | nil => simp
    | cons d D =>
      simp only [List.zipWith_cons_cons, List.map_cons, List.sum_cons]
      rw [ih (fun y hy => hw y (List.mem_cons_of_mem _ hy)) D]
      congr 1
      have hx : 0 ≤ x := hw x (by simp)
      rw [mul_pow, mul_pow, Real.sq_sqrt hx]
      congr 1
      cases alpha with
      | none => simp
      | some a =>
        have h0 := ha a rfl
        unfold regularization
        rw [Real.sq_sqrt]
        · split <;> ring
        · split
          · simp
          · linarith

/-- C347: With the positivity term the cost is that of the plain fit plus `alpha` times the part of it where the
model exceeds the image. -/
theorem positivity_cost (a : ℝ) (ha : 0 ≤ a) (w im m : List ℝ) (hw : ∀ x ∈ w, 0 ≤ x) :
    cost (some a) w im m = cost none w im m + a * weightedSum (fun d => if d < 0 then 1 else 0) w im m := by
  rw [cost_eq (some a) (by rintro b ⟨⟩; exact ha) w im m hw, cost_eq none (by rintro b ⟨⟩) w im m hw]
  unfold weightedSum
  generalize List.zipWith (· - ·) im m = D
  induction w generalizing D with
  | nil => simp
  | cons x w ih =>
    cases D with
    | nil => simp
    | cons d D =>
      simp only [List.zipWith_cons_cons, List.sum_cons]
      rw [ih (fun y hy => hw y (List.mem_cons_of_mem _ hy)) D]
      rcases lt_trichotomy d 0 with h | h | h
      · rw [if_neg (by linarith), if_pos h]; ring
      · subst h; simp
      · rw [if_pos h, if_neg (by linarith)]; ring

theorem weightedSum_nonneg (f : ℝ → ℝ) (hf : ∀ d, 0 ≤ f d) (w im m : List ℝ) (hw : ∀ x ∈ w, 0 ≤ x) :
    0 ≤ weightedSum f w im m := by
  unfold weightedSum
  generalize List.zipWith (· - ·) im m = D
  induction w generalizing D with
  | nil => simp
  | cons x w ih =>
    cases D with
    | nil => simp
    | cons d D =>
      simp only [List.zipWith_cons_cons, List.sum_cons]
      have := ih (fun y hy => hw y (List.mem_cons_of_mem _ hy)) D
      have := hf d
      have hx : 0 ≤ x := hw x (by simp)
      have : 0 ≤ x * d ^ 2 * f d := by positivity
      linarith

theorem weightedSum_mono (f g : ℝ → ℝ) (hf : ∀ d, f d ≤ g d) (w im m : List ℝ) (hw : ∀ x ∈ w, 0 ≤ x) :
    weightedSum f w im m ≤ weightedSum g w im m := by
  unfold weightedSum
  generalize List.zipWith (· - ·) im m = D
  induction w generalizing D with
  | nil => simp
  | cons x w ih =>
    cases D with
    | nil => simp
    | cons d D =>
      simp only [List.zipWith_cons_cons, List.sum_cons]
      have := ih (fun y hy => hw y (List.mem_cons_of_mem _ hy)) D
      have hx : 0 ≤ x := hw x (by simp)
      have : x * d ^ 2 * f d ≤ x * d ^ 2 * g d := mul_le_mul_of_nonneg_left (hf d) (by positivity)
      linarith

/-- C347: The cost grows with `alpha`, lies between that of the plain fit and `1 + alpha` times it, and vanishes for
the same models. -/
theorem positivity_bounds (a b : ℝ) (ha : 0 ≤ a) (hab : a ≤ b) (w im m : List ℝ) (hw : ∀ x ∈ w, 0 ≤ x) :
    cost (some a) w im m ≤ cost (some b) w im m ∧ cost none w im m ≤ cost (some a) w im m ∧
    cost (some a) w im m ≤ (1 + a) * cost none w im m ∧ (cost (some a) w im m = 0 ↔ cost none w im m = 0) := by
  have hA := positivity_cost a ha w im m hw
  have hB := positivity_cost b (le_trans ha hab) w im m hw
  have hn : 0 ≤ weightedSum (fun d => if d < 0 then 1 else 0) w im m :=
    weightedSum_nonneg _ (fun d => by split <;> norm_num) w im m hw
  have hle : weightedSum (fun d => if d < 0 then 1 else 0) w im m ≤ cost none w im m := by
    rw [cost_eq none (by rintro b ⟨⟩) w im m hw]
    exact weightedSum_mono _ _ (fun d => by dsimp only; split <;> norm_num) w im m hw
  have h0 : 0 ≤ cost none w im m := le_trans hn hle
  refine ⟨by rw [hA, hB]; nlinarith, by rw [hA]; nlinarith, by rw [hA]; nlinarith, ?_, ?_⟩
  · intro h; rw [hA] at h; nlinarith
  · intro h
    rw [h] at hle
    rw [hA, h, le_antisymm hle hn]; ring

/-- Three pixels, one of them with a model above the image. -/
example : cost (some 3) [1, 1, 4] [1, 0, 2] [0, 1, 1] = 9 ∧ cost none [1, 1, 4] [1, 0, 2] [0, 1, 1] = 6 := by
  constructor
  · rw [cost_eq _ (by rintro b ⟨⟩; norm_num) _ _ _ (by simp)]
    norm_num [weightedSum]
  · rw [cost_eq none (by rintro b ⟨⟩) _ _ _ (by simp)]
    norm_num [weightedSum]

/-! ### Weights -/

open P3.Psfao

theorem bshape_self : ∀ s : List ℕ, bshapeRev s s = .ok s := by
  intro s
  induction s with
  | nil => rfl
  | cons x s ih => simp [bshapeRev, bdim, ih, bind, Except.bind, pure, Except.pure]

/-- C348: Weights of the shape of the image weigh pixel by pixel, for images of two axes longer than one pixel. -/
theorem weights_same_partial (d w : Arr) (n m : ℕ) (hn : n ≠ 1) (hm : m ≠ 1) (hd : d.shape = [n, m]) (hw : w.shape = [n, m]) :
    ∃ r, weighted d w = .cost r ∧ r.shape = [n, m] ∧ ∀ i j, r.val [i, j] = √(w.val [i, j]) * d.val [i, j] := by
  have hb : bshape [n, m] [n, m] = .ok [n, m] := by
    unfold bshape; rw [bshape_self]; rfl
  refine ⟨⟨[n, m], fun idx => √(w.val (bidx [n, m] idx)) * d.val (bidx [n, m] idx)⟩, ?_, rfl, ?_⟩
  · simp [weighted, len, hd, hw, mulA, hb, bind, Except.bind, pure, Except.pure]
  · intro i j
    simp [bidx, hn, hm]

/-- C348 (violation): For a square image, a list of weights with one value per row is accepted, and weighs the
columns. -/
theorem weights_vector_violation (d w : Arr) (n : ℕ) (hn : n ≠ 1) (hd : d.shape = [n, n]) (hw : w.shape = [n]) :
    ∃ r, weighted d w = .cost r ∧ r.shape = [n, n] ∧ ∀ i j, r.val [i, j] = √(w.val [j]) * d.val [i, j] := by
  have hb : bshape [n] [n, n] = .ok [n, n] := by
    simp [bshape, bshapeRev, bdim, bind, Except.bind, pure, Except.pure]
  refine ⟨⟨[n, n], fun idx => √(w.val (bidx [n] idx)) * d.val (bidx [n, n] idx)⟩, ?_, rfl, ?_⟩
  · simp [weighted, len, hd, hw, mulA, hb, bind, Except.bind, pure, Except.pure]
  · intro i j
    simp [bidx, hn]

/-- C348: Weights with another number of rows are refused. -/
theorem weights_refused (d w : Arr) (n k : ℕ) (s t : List ℕ) (h : n ≠ k) (hd : d.shape = n :: s) (hw : w.shape = k :: t) :
    weighted d w = .refused := by
  simp [weighted, len, hd, hw, h]

/-- An image of two by two pixels and the weights 1 and 4. -/
example : ∃ r, weighted ⟨[2, 2], fun _ => 3⟩ ⟨[2], fun i => if i = [0] then 1 else 4⟩ = .cost r ∧ r.val [1, 1] = 6 := by
  obtain ⟨r, h1, _, h3⟩ := weights_vector_violation ⟨[2, 2], fun _ => 3⟩ ⟨[2], fun i => if i = [0] then 1 else 4⟩ 2 (by norm_num) rfl rfl
  refine ⟨r, h1, ?_⟩
  rw [h3]
  simp only
  rw [if_neg (by decide), show (4 : ℝ) = 2 ^ 2 by norm_num, Real.sqrt_sq (by norm_num)]
  norm_num

/-! ### Query of SPARTA data -/

/-- A script that ends well leaves a file of the visible sensor. -/
def Faithful (script : Script) : Prop := ∀ e, (script e).2 = true → hasWfs (script e).1 = true

/-- C349: A query that goes to its end asks for exactly the folders without data of the visible sensor (all folders
with `redo`), in their order, each once. -/
theorem query_complete (redo : Bool) (script : Script) (l : List Entry) (h : (queryYear redo script l).alive = true) :
    (queryYear redo script l).queried = (l.filter (wanted redo)).map Entry.name ∧
    (queryYear redo script l).entries.map Entry.name = l.map Entry.name := by
  induction l with
  | nil => simp [queryYear]
  | cons e l ih =>
    unfold queryYear at h ⊢
    by_cases hw : wanted redo e = true
    · simp only [hw, if_true] at h ⊢
      by_cases hr : (script e).2 = true
      · simp only [hr, if_true] at h ⊢
        obtain ⟨h1, h2⟩ := ih h
        simp [h1, h2, hw]
      · simp [hr] at h
    · simp only [hw, Bool.false_eq_true, if_false] at h ⊢
      obtain ⟨h1, h2⟩ := ih h
      simp [h1, h2, hw]

/-- C349: Folders that have their data are left as they are, and the query goes to its end when the script raises
nothing. -/
theorem query_keeps (script : Script) (l : List Entry) :
    (∀ e ∈ l, wanted false e = false → e ∈ (queryYear false script l).entries) ∧
    ((∀ e ∈ l, (script e).2 = true) → (queryYear false script l).alive = true) := by
  induction l with
  | nil => simp [queryYear]
  | cons x l ih =>
    unfold queryYear
    by_cases hw : wanted false x = true
    · simp only [hw, if_true]
      by_cases hr : (script x).2 = true
      · simp only [hr, if_true]
        constructor
        · intro e he hne
          rcases List.mem_cons.mp he with rfl | he
          · rw [hw] at hne; cases hne
          · exact List.mem_cons_of_mem _ (ih.1 e he hne)
        · intro h; exact ih.2 fun e he => h e (List.mem_cons_of_mem _ he)
      · simp only [hr]
        constructor
        · intro e he hne
          rcases List.mem_cons.mp he with rfl | he
          · rw [hw] at hne; cases hne
          · exact List.mem_cons_of_mem _ he
        · intro h; exact absurd (h x (by simp)) hr
    · simp only [hw, Bool.false_eq_true, if_false]
      constructor
      · intro e he hne
        rcases List.mem_cons.mp he with rfl | he
        · simp
        · exact List.mem_cons_of_mem _ (ih.1 e he hne)
      · intro h; exact ih.2 fun e he => h e (List.mem_cons_of_mem _ he)

/-- After a query that went to its end, no folder is wanted any more. -/
theorem query_settled (script : Script) (hf : Faithful script) (l : List Entry) (h : (queryYear false script l).alive = true) :
    ∀ e ∈ (queryYear false script l).entries, wanted false e = false := by
  induction l with
  | nil => simp [queryYear]
  | cons x l ih =>
    unfold queryYear at h ⊢
    by_cases hw : wanted false x = true
    · simp only [hw, if_true] at h ⊢
      by_cases hr : (script x).2 = true
      · simp only [hr, if_true] at h ⊢
        intro e he
        rcases List.mem_cons.mp he with rfl | he
        · simp [wanted, hf x hr]
        · exact ih h e he
      · simp [hr] at h
    · simp only [hw, Bool.false_eq_true, if_false] at h ⊢
      intro e he
      rcases List.mem_cons.mp he with rfl | he
      · simpa using hw
      · exact ih h e he

theorem query_nothing (script : Script) (l : List Entry) (h : ∀ e ∈ l, wanted false e = false) :
    queryYear false script l = ⟨l, [], true⟩ := by
  induction l with
  | nil => rfl
  | cons x l ih =>
    unfold queryYear
    simp [h x (by simp), ih fun e he => h e (List.mem_cons_of_mem _ he)]

/-- C349: A second query, whatever its script, asks for nothing and changes nothing. -/
theorem query_twice (script script' : Script) (hf : Faithful script) (l : List Entry) (h : (queryYear false script l).alive = true) :
    queryYear false script' (queryYear false script l).entries = ⟨(queryYear false script l).entries, [], true⟩ :=
  query_nothing script' _ (query_settled script hf l h)

/-- C350: A query interrupted in any folder, by a script that leaves the folder as it was when it raises, is resumed by
the next one: the folders end as after one query without interruption, and those already asked for are not asked for
again. `s1` is the script of the interrupted query, `s2` that of the next, which agree where `s1` succeeds. -/
theorem query_resumed_partial (s1 s2 : Script) (hf : Faithful s1) (hkeep : ∀ e, (s1 e).2 = false → (s1 e).1 = e.files)
    (hagree : ∀ e, (s1 e).2 = true → s2 e = s1 e) (l : List Entry) :
    (queryYear false s2 (queryYear false s1 l).entries).entries = (queryYear false s2 l).entries ∧
    (queryYear false s2 (queryYear false s1 l).entries).alive = (queryYear false s2 l).alive ∧
    ((queryYear false s1 l).alive = false →
      (queryYear false s1 l).queried.dropLast ++ (queryYear false s2 (queryYear false s1 l).entries).queried =
        (queryYear false s2 l).queried) := by
  induction l with
  | nil => simp [queryYear]
  | cons x l ih =>
    by_cases hw : wanted false x = true
    · by_cases hr : (s1 x).2 = true
      · have hs2 : s2 x = s1 x := hagree x hr
        have hw' : wanted false { x with files := (s1 x).1 } = false := by simp [wanted, hf x hr]
        have e1 : queryYear false s1 (x :: l) =
            ⟨{ x with files := (s1 x).1 } :: (queryYear false s1 l).entries, x.name :: (queryYear false s1 l).queried, (queryYear false s1 l).alive⟩ := by
          rw [queryYear]; simp [hw, hr]
        have e2 : queryYear false s2 (x :: l) =
            ⟨{ x with files := (s1 x).1 } :: (queryYear false s2 l).entries, x.name :: (queryYear false s2 l).queried, (queryYear false s2 l).alive⟩ := by
          rw [queryYear]; simp [hw, hs2, hr]
        have e3 : ∀ t, queryYear false s2 ({ x with files := (s1 x).1 } :: t) =
            ⟨{ x with files := (s1 x).1 } :: (queryYear false s2 t).entries, (queryYear false s2 t).queried, (queryYear false s2 t).alive⟩ := by
          intro t; rw [queryYear]; simp [hw']
        rw [e1, e2]
        simp only
        rw [e3]
        simp only
        refine ⟨by rw [ih.1], ih.2.1, ?_⟩
        intro ha
        have hq := ih.2.2 ha
        have hne : (queryYear false s1 l).queried ≠ [] := by
          have : ∀ t : List Entry, (queryYear false s1 t).alive = false → (queryYear false s1 t).queried ≠ [] := by
            intro t
            induction t with
            | nil => simp [queryYear]
            | cons y t iht =>
              rw [queryYear]
              by_cases h1 : wanted false y = true
              · by_cases h2 : (s1 y).2 = true <;> simp [h1, h2]
              · simpa [h1] using iht
          exact this l ha
        rw [List.dropLast_cons_of_ne_nil hne, List.cons_append, hq]
      · have hr' : (s1 x).2 = false := by simpa using hr
        have e1 : queryYear false s1 (x :: l) = ⟨x :: l, [x.name], false⟩ := by
          rw [queryYear]
          simp only [hw, if_true, hr', hkeep x hr', Bool.false_eq_true, if_false]
        rw [e1]
        exact ⟨rfl, rfl, fun _ => by simp⟩
    · have e1 : ∀ s : Script, ∀ t, queryYear false s (x :: t) = ⟨x :: (queryYear false s t).entries, (queryYear false s t).queried, (queryYear false s t).alive⟩ := by
        intro s t; rw [queryYear]; simp [hw]
      rw [e1 s1, e1 s2, e1 s2]
      exact ⟨by rw [ih.1], ih.2.1, ih.2.2⟩

/-- A script stopped after it wrote the first file of the folder `a`. -/
def stopped : Script := fun e => if e.name = "a" then (["sparta_visible_WFS.csv"], false) else (["sparta_visible_WFS.csv", "all.csv"], true)

/-- The same script when it works. -/
def works : Script := fun _ => (["sparta_visible_WFS.csv", "all.csv"], true)

/-- C350 (violation): A script interrupted after it wrote the file of the visible sensor: its folder is never completed. -/
theorem query_interrupted_violation :
    Faithful stopped ∧ Faithful works ∧ (∀ e, (stopped e).2 = true → works e = stopped e) ∧
    (queryYear false works (queryYear false stopped [⟨"a", true, []⟩]).entries).entries ≠
      (queryYear false works [⟨"a", true, []⟩]).entries := by
  refine ⟨?_, ?_, ?_, by decide⟩
  · intro e h
    unfold stopped at h ⊢
    by_cases hn : e.name = "a"
    · simp [hn] at h
    · simp only [hn, if_false]; decide
  · intro e _; unfold works; decide
  · intro e h
    unfold stopped at h ⊢
    by_cases hn : e.name = "a"
    · simp [hn] at h
    · simp only [hn, if_false]; rfl

/-- C350: A file beside the folders of the years stops the query: the folders after it are not asked for. -/
theorem query_stray_violation (redo : Bool) (script : Script) (y z : List (Option (List Entry))) :
    (queryAll redo script (y ++ none :: z)).2 = false ∧
    (queryAll redo script (y ++ none :: z)).1 = (queryAll redo script y).1 := by
  induction y with
  | nil => exact ⟨rfl, rfl⟩
  | cons a y ih =>
    cases a with
    | none => exact ⟨rfl, rfl⟩
    | some f =>
      simp only [List.cons_append, queryAll]
      split
      · exact ⟨ih.1, by rw [ih.2]⟩
      · exact ⟨rfl, rfl⟩

/-- Non-vacuity: two folders, one of them complete. -/
example : queryYear false works [⟨"a", true, []⟩, ⟨"b", true, ["x_sparta_visible_WFS.csv"]⟩, ⟨"c.txt", false, []⟩] =
    ⟨[⟨"a", true, ["sparta_visible_WFS.csv", "all.csv"]⟩, ⟨"b", true, ["x_sparta_visible_WFS.csv"]⟩, ⟨"c.txt", false, []⟩], ["a"], true⟩ := by
  decide

/-! ### Printing -/

/-- C351 (violation): No AO system with at least one mirror can be printed: the number of actuators is a float. -/
theorem print_violation (n : ℕ) (hn : 1 ≤ n) (sh : Bool) (modu : PyVal) : printSystem n sh modu = false := by
  obtain ⟨k, rfl⟩ : ∃ k, n = k + 1 := ⟨n - 1, by omega⟩
  have : printMirrors (k + 1) = false := by
    unfold printMirrors
    rw [List.range_succ_eq_map]
    simp [fstringD]
  simp [printSystem, this]

/-- C351: The optics of a sensor alone can be printed, those of a pyramid when its modulation is a number. -/
theorem print_optics_partial (sh : Bool) (modu : PyVal) :
    printOptics sh modu = true ↔ sh = true ∨ modu = .int ∨ modu = .float := by
  cases sh <;> cases modu <;> simp [printOptics, percentD]

/-- C352: The delay of the high-order loop is printed in milliseconds; that of the low-order loop is right exactly
when both loops have the same rate or there is no delay. -/
theorem printed_delay_partial (rHO rLO dHO dLO : ℝ) (h1 : 0 < rHO) (h2 : 0 < rLO) :
    (printedDelays rHO dHO dLO).1 = 1000 * (dHO / rHO) ∧
    ((printedDelays rHO dHO dLO).2 = 1000 * (dLO / rLO) ↔ rHO = rLO ∨ dLO = 0) := by
  refine ⟨by unfold printedDelays; ring, ?_⟩
  unfold printedDelays
  simp only
  constructor
  · intro h
    by_cases hd : dLO = 0
    · exact Or.inr hd
    · left
      field_simp at h
      exact h.symm
  · rintro (h | h)
    · rw [h]; ring
    · rw [h]; simp

/-- C352 (violation): A low-order loop at 100 Hz beside a high-order one at 1 kHz, two frames of delay: 20 ms are
printed as 2 ms. -/
theorem printed_delay_violation : (printedDelays 1000 2 2).2 = 2 ∧ 1000 * ((2 : ℝ) / 100) = 20 := by
  constructor <;> norm_num [printedDelays]

/-! ### Cases that meet the hypotheses -/

/-- A case meeting the hypotheses of `weights_same_partial`. -/
example : ∃ r, weighted ⟨[2, 3], fun i => (i.sum : ℝ)⟩ ⟨[2, 3], fun _ => 4⟩ = .cost r :=
  let ⟨r, h, _⟩ := weights_same_partial ⟨[2, 3], fun i => (i.sum : ℝ)⟩ ⟨[2, 3], fun _ => 4⟩ 2 3 (by norm_num) (by norm_num) rfl rfl
  ⟨r, h⟩

/-! ### Cases that meet the hypotheses -/

/-- A case meeting the hypotheses of `positivity_bounds`. -/
example : cost (some 1) [1, 2] [3, 4] [1, -1] ≤ cost (some 2) [1, 2] [3, 4] [1, -1] :=
  (positivity_bounds 1 2 (by norm_num) (by norm_num) [1, 2] [3, 4] [1, -1] (by simp)).1

/-- A case meeting the hypotheses of `weights_refused`. -/
example : weighted ⟨[2, 3], fun _ => 1⟩ ⟨[3, 3], fun _ => 4⟩ = .refused :=
  weights_refused _ _ 2 3 [3] [3] (by norm_num) rfl rfl

end P3.Upkeep
