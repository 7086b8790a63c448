import Verif.Model.FieldRun
import Verif.Props.FieldFit
import Verif.Props.MultiFit
import Verif.Props.Noise
import Verif.Lemmas.Config
import Mathlib.Tactic.Ring
import Mathlib.Tactic.Linarith

/-! Theorems about the whole calibration of a field (C99, C101, C484–C491). -/

namespace P3.FieldRun
open FieldFit (Im Star Crit Keep extract select)
open IniFile (Ini)

/-! ### The parameter file -/

/-- The two states of the disk: `q` is `p` with the field of view `v` and nothing else changed. -/
def FieldSet (p q : Ini) (v : String) : Prop :=
  q.sec = p.sec ∧ q.get "sensor_science" "FieldOfView" = some v ∧
    ∀ s k, ¬(s = "sensor_science" ∧ k = "FieldOfView") → q.get s k = p.get s k

/-- `p` with the field of view `v`. -/
def put (p : Ini) (v : String) : Ini :=
  ⟨p.sec, fun x y => if x = "sensor_science" ∧ y = "FieldOfView" then some v else p.get x y⟩

theorem setField_some (nPx fact : ℕ) (p : Ini) : setField nPx fact (some p) =
    if p.sec "sensor_science" then some (put p (toString (2 * (nPx * fact / 2)))) else none := rfl

/-- C484: the only effect of the calibration on the parameter file, whatever its result, is the field of view, twice the half
of the enlarged size; a file without the section is left as it is and the call raises. -/
theorem generate_file (w : World) (a : Args) (p : Ini) :
    (p.sec "sensor_science" = true → ∃ q, (generate w a (some p)).2 = some q ∧ FieldSet p q (toString (2 * (a.nPx * a.fact / 2)))) ∧
    (p.sec "sensor_science" = false → generate w a (some p) = (.error .noSection, some p)) := by
  constructor
  · intro h
    unfold generate
    rw [setField_some, if_pos h]
    refine ⟨_, rfl, rfl, by simp [put], fun s k hsk => ?_⟩
    simp only [put]
    rw [if_neg hsk]
  · intro h
    unfold generate
    rw [setField_some, if_neg (by simp [h])]

/-- C484: a parameter file that does not exist is not created. -/
theorem generate_missing (w : World) (a : Args) : generate w a none = (.error .noSection, none) := rfl

/-- C484: the result does not depend on the field of view of the file: two files that differ by it only give the same result
and are left equal. -/
theorem generate_forgets (w : World) (a : Args) (p q : Ini) (v : String) (h : p.sec "sensor_science" = true) (hq : FieldSet p q v) :
    generate w a (some q) = generate w a (some p) := by
  obtain ⟨h1, _, h3⟩ := hq
  have e : setField a.nPx a.fact (some q) = setField a.nPx a.fact (some p) := by
    rw [setField_some, setField_some, if_pos h, if_pos (h1 ▸ h)]
    obtain ⟨ps, pg⟩ := p
    obtain ⟨qs, qg⟩ := q
    simp only at h1 h3
    subst h1
    simp only [put]
    congr 2
    funext x y
    split_ifs with c
    · rfl
    · exact h3 x y c
  unfold generate
  rw [e, setField_some, if_pos h]

/-- C484: a second calibration with the same arguments, on the file left by the first, gives the same result and the same
file. -/
theorem generate_again (w : World) (a : Args) (disk : Option Ini) :
    generate w a (generate w a disk).2 = generate w a disk := by
  cases disk with
  | none => rfl
  | some p =>
    by_cases h : p.sec "sensor_science" = true
    · obtain ⟨q, hq, hs⟩ := (generate_file w a p).1 h
      rw [hq]
      exact generate_forgets w a p q _ h hs
    · have := (generate_file w a p).2 (by simpa using h)
      rw [this]; simp only; rw [this]

/-- C485 (partial): a call leaves the file as it was exactly when the section is not there or the field of view was already the
one that is written. Missing: a call that fails leaves the file as it was. -/
theorem untouched_partial (w : World) (a : Args) (p : Ini) :
    (generate w a (some p)).2 = some p ↔ (p.sec "sensor_science" = false ∨
      p.get "sensor_science" "FieldOfView" = some (toString (2 * (a.nPx * a.fact / 2)))) := by
  constructor
  · intro h
    by_cases hs : p.sec "sensor_science" = true
    · right
      obtain ⟨q, hq, hf⟩ := (generate_file w a p).1 hs
      rw [h] at hq
      cases hq
      exact hf.2.1
    · left; simpa using hs
  · rintro (h | h)
    · rw [(generate_file w a p).2 h]
    · by_cases hs : p.sec "sensor_science" = true
      · unfold generate
        rw [setField_some, if_pos hs]
        obtain ⟨ps, pg⟩ := p
        simp only [put] at h ⊢
        congr 2
        funext x y
        split_ifs with c
        · rw [c.1, c.2, h]
        · rfl
      · rw [(generate_file w a p).2 (by simpa using hs)]

theorem centers_ne (nY nX n : ℕ) (hn : n ≠ 0) : ∃ c l, FieldFit.centers nY nX n = c :: l := by
  obtain ⟨m, rfl⟩ := Nat.exists_eq_succ_of_ne_zero hn
  refine ⟨_, _, by rw [FieldFit.centers, List.range_succ_eq_map]; simp only [List.flatMap_cons, List.map_cons, List.cons_append]; rfl⟩

theorem chosen_none (a : Args) (hn : a.n ≠ 0) (hl : a.lo = none ∨ a.hi = none) : chosen a = .error (.of .typeError) := by
  unfold chosen
  rw [if_neg hn]
  obtain ⟨c, l, hc⟩ := centers_ne a.nY a.nX a.n hn
  have hs : ∀ c : ℕ × ℕ, select a.stars c.1 c.2 (a.nY / a.n) (a.nX / a.n) (a.nPx / 2) a.nMax a.lo a.hi a.crit (key a.crit c.1 c.2) =
      .error .typeError := by
    intro c
    unfold select
    rcases hl with h | h
    · rw [h]
    · rw [h]; cases a.lo <;> rfl
  rw [hc, List.mapM_cons, hs]
  rfl

/-- C485 (violation): with the default limits of magnitude the call fails and the file of the user is changed, unless it had
that field of view. -/
theorem untouched_violation (w : World) (a : Args) (p : Ini) (hn : a.n ≠ 0) (hl : a.lo = none ∨ a.hi = none)
    (hs : p.sec "sensor_science" = true) (hf : p.get "sensor_science" "FieldOfView" ≠ some (toString (2 * (a.nPx * a.fact / 2)))) :
    (generate w a (some p)).1 = .error (.of .typeError) ∧ (generate w a (some p)).2 ≠ some p := by
  refine ⟨?_, fun h => ?_⟩
  · unfold generate
    rw [setField_some, if_pos hs]
    simp only [calibrate, chosen_none a hn hl]
    rfl
  · rcases (untouched_partial w a p).1 h with h | h
    · rw [hs] at h; exact absurd h (by simp)
    · exact hf h

/-! ### The stars selected -/

theorem mapM_ok_iff {ε α β : Type} (f : α → Except ε β) : ∀ (l : List α) (r : List β), l.mapM f = .ok r ↔
    r.length = l.length ∧ ∀ i (h : i < l.length), ∃ h' : i < r.length, f l[i] = .ok r[i] := by
  intro l
  induction l with
  | nil => intro r; simp [pure, Except.pure, eq_comm]
  | cons a l ih =>
    intro r
    rw [List.mapM_cons]
    cases ha : f a with
    | error e =>
      refine ⟨fun h => by simp [bind, Except.bind] at h, fun ⟨h, h'⟩ => ?_⟩
      obtain ⟨_, h2⟩ := h' 0 (by simp)
      rw [List.getElem_cons_zero, ha] at h2
      exact absurd h2 (by simp)
    | ok b =>
      cases hl : l.mapM f with
      | error e =>
        refine ⟨fun h => by simp [bind, Except.bind] at h, fun ⟨h, h'⟩ => ?_⟩
        cases r with
        | nil => simp at h
        | cons b' r =>
          have := (ih r).2 ⟨by simpa using h, fun i hi => by
            obtain ⟨h1, h2⟩ := h' (i + 1) (by simpa using hi)
            exact ⟨by simpa using h1, by simpa using h2⟩⟩
          rw [hl] at this
          exact absurd this (by simp)
      | ok r' =>
        have h0 := (ih r').1 hl
        constructor
        · intro h
          have : r = b :: r' := by simpa [bind, Except.bind, pure, Except.pure, eq_comm] using h
          subst this
          refine ⟨by simp [h0.1], fun i hi => ?_⟩
          cases i with
          | zero => exact ⟨by simp, by simpa using ha⟩
          | succ i =>
            obtain ⟨h1, h2⟩ := h0.2 i (by simpa using hi)
            exact ⟨by simpa using h1, by simpa using h2⟩
        · rintro ⟨h, h'⟩
          cases r with
          | nil => simp at h
          | cons b' r =>
            have := (ih r).2 ⟨by simpa using h, fun i hi => by
              obtain ⟨h1, h2⟩ := h' (i + 1) (by simpa using hi)
              exact ⟨by simpa using h1, by simpa using h2⟩⟩
            rw [hl] at this
            obtain ⟨_, h2⟩ := h' 0 (by simp)
            rw [List.getElem_cons_zero, ha] at h2
            cases this; cases h2
            rfl

theorem flatten_const {α : Type} (m : ℕ) (hm : 0 < m) : ∀ (l : List (List α)), (∀ x ∈ l, x.length = m) →
    l.flatten.length = l.length * m ∧ ∀ k < l.length * m, ∃ x, l[k / m]? = some x ∧ l.flatten[k]? = x[k % m]? := by
  intro l
  induction l with
  | nil => simp
  | cons a l ih =>
    intro h
    obtain ⟨h1, h2⟩ := ih fun x hx => h x (by simp [hx])
    have ha := h a (by simp)
    refine ⟨by simp [h1, ha]; ring, fun k hk => ?_⟩
    by_cases hkm : k < m
    · refine ⟨a, by simp [Nat.div_eq_of_lt hkm], ?_⟩
      rw [List.flatten_cons, List.getElem?_append_left (by omega), Nat.mod_eq_of_lt hkm]
    · have hk' : k - m < l.length * m := by
        rw [List.length_cons, Nat.add_mul] at hk; omega
      obtain ⟨x, hx1, hx2⟩ := h2 (k - m) hk'
      have e : k = (k - m) + m := by omega
      have e1 : k / m = (k - m) / m + 1 := by conv_lhs => rw [e, Nat.add_div_right _ hm]
      have e2 : k % m = (k - m) % m := by conv_lhs => rw [e, Nat.add_mod_right]
      refine ⟨x, by rw [e1]; simpa using hx1, ?_⟩
      rw [List.flatten_cons, List.getElem?_append_right (by omega), ha, hx2, e2]

/-- What a star of the tile at row `yt` and column `xt` must meet to be a candidate: the tiles are `nY / n` by `nX / n` pixels,
half of a sub-image is left free on each side, and the magnitude is within the limits. -/
def Candidate (a : Args) (lo hi : ℝ) (yt xt : ℕ) (s : Star) : Prop :=
  let top : ℝ := ((yt * (a.nY / a.n) + a.nY / a.n / 2 : ℕ) : ℝ)
  let left : ℝ := ((xt * (a.nX / a.n) + a.nX / a.n / 2 : ℕ) : ℝ)
  let by' : ℝ := ((a.nY / a.n / 2 : ℕ) : ℝ) - ((a.nPx / 2 : ℕ) : ℝ)
  let bx : ℝ := ((a.nX / a.n / 2 : ℕ) : ℝ) - ((a.nPx / 2 : ℕ) : ℝ)
  (top - by' < s.y ∧ s.y < top + by') ∧ (left - bx < s.x ∧ s.x < left + bx) ∧ lo < s.mag ∧ s.mag < hi

theorem candidate_iff (a : Args) (lo hi : ℝ) (yt xt : ℕ) (s : Star) : Candidate a lo hi yt xt s ↔
    Keep (yt * (a.nY / a.n) + a.nY / a.n / 2) (xt * (a.nX / a.n) + a.nX / a.n / 2) (a.nY / a.n) (a.nX / a.n) (a.nPx / 2) lo hi s := by
  unfold Candidate Keep
  simp only
  constructor
  · rintro ⟨⟨h1, h2⟩, ⟨h3, h4⟩, h5⟩
    exact ⟨⟨by linarith, by linarith⟩, ⟨by linarith, by linarith⟩, h5⟩
  · rintro ⟨⟨h1, h2⟩, ⟨h3, h4⟩, h5⟩
    exact ⟨⟨by linarith, by linarith⟩, ⟨by linarith, by linarith⟩, h5⟩

theorem lift_ok {α : Type} (x : Except FieldFit.Err α) (v : α) : lift x = .ok v ↔ x = .ok v := by
  cases x <;> simp [lift, Except.mapError]

theorem centers_length (nY nX n : ℕ) : (FieldFit.centers nY nX n).length = n * n := by
  unfold FieldFit.centers
  simp [List.length_flatMap]

theorem centers_get (nY nX n t : ℕ) (ht : t < n * n) : (FieldFit.centers nY nX n)[t]? =
    some (t / n * (nY / n) + nY / n / 2, t % n * (nX / n) + nX / n / 2) := by
  have hn : 0 < n := Nat.pos_of_ne_zero fun h => by simp [h] at ht
  have h1 : t / n < n := Nat.div_lt_of_lt_mul ht
  have h2 : t % n < n := Nat.mod_lt _ hn
  have := FieldFit.centers_spec nY nX n (t / n) (t % n) hn h1 h2
  rw [show t / n * n + t % n = t from Nat.div_add_mod' t n] at this
  have hl : t < (FieldFit.centers nY nX n).length := by rw [centers_length]; exact ht
  rw [List.getElem?_eq_getElem hl, ← this, List.getD_eq_getElem?_getD, List.getElem?_eq_getElem hl]
  rfl

/-- The stars selected: the number asked for each tile, tile after tile in row order, all candidates of their tile. -/
theorem chosen_spec (a : Args) (hm : 0 < a.nMax) (l : List Star) (h : chosen a = .ok l) : 0 < a.n ∧ ∃ lo hi, a.lo = some lo ∧ a.hi = some hi ∧
    l.length = a.n * a.n * a.nMax ∧ ∀ k s, l[k]? = some s → s ∈ a.stars ∧ Candidate a lo hi (k / a.nMax / a.n) (k / a.nMax % a.n) s := by
  unfold chosen at h
  split_ifs at h with hn
  obtain ⟨ll, h1, h2⟩ := (Config.bind_ok_iff _ _ _).1 h
  cases h2
  obtain ⟨hlen, hall⟩ := (mapM_ok_iff _ _ _).1 h1
  rw [centers_length] at hlen
  have hlim : ∃ lo hi, a.lo = some lo ∧ a.hi = some hi := by
    by_contra hne
    have : a.lo = none ∨ a.hi = none := by
      cases h1 : a.lo with
      | none => exact Or.inl rfl
      | some lo => cases h2 : a.hi with
        | none => exact Or.inr rfl
        | some hi => exact absurd ⟨lo, hi, h1, h2⟩ hne
    have := chosen_none a hn this
    unfold chosen at this
    rw [if_neg hn, h1] at this
    exact absurd this (by simp [bind, Except.bind, pure, Except.pure])
  obtain ⟨lo, hi, hlo, hhi⟩ := hlim
  have tile : ∀ (t : ℕ) (x : List Star), ll[t]? = some x → x.length = a.nMax ∧
      ∀ s ∈ x, s ∈ a.stars ∧ Candidate a lo hi (t / a.n) (t % a.n) s := by
    intro t x hx
    obtain ⟨ht, rfl⟩ := List.getElem?_eq_some_iff.1 hx
    have ht' : t < a.n * a.n := by rw [← hlen]; exact ht
    obtain ⟨_, hs⟩ := hall t (by rw [centers_length]; exact ht')
    have hc := centers_get a.nY a.nX a.n t ht'
    obtain ⟨hc', hc⟩ := List.getElem?_eq_some_iff.1 hc
    rw [lift_ok, hc, hlo, hhi] at hs
    obtain ⟨p1, p2, _⟩ := FieldFit.select_spec _ _ _ _ _ _ _ _ _ _ _ _ hs
    exact ⟨p1, fun s hs => ⟨(p2 s hs).1, (candidate_iff a lo hi _ _ s).2 (p2 s hs).2⟩⟩
  obtain ⟨f1, f2⟩ := flatten_const a.nMax hm ll fun x hx => by
    obtain ⟨t, ht, rfl⟩ := List.mem_iff_getElem.1 hx
    exact (tile t _ (List.getElem?_eq_getElem ht)).1
  refine ⟨by omega, lo, hi, hlo, hhi, by rw [f1, hlen], fun k s hk => ?_⟩
  have hk' : k < ll.length * a.nMax := by
    obtain ⟨h, _⟩ := List.getElem?_eq_some_iff.1 hk
    rwa [f1] at h
  obtain ⟨x, hx, hx2⟩ := f2 k hk'
  rw [hk] at hx2
  exact (tile _ x hx).2 s (List.mem_of_getElem? hx2.symm)

open Classical in
/-- The selection succeeds exactly when there is a tile, limits of magnitude, a criterion and enough candidates in every
tile. -/
theorem chosen_iff (a : Args) : (∃ l, chosen a = .ok l) ↔ 0 < a.n ∧ a.crit ≠ .other ∧ ∃ lo hi, a.lo = some lo ∧ a.hi = some hi ∧
    ∀ yt < a.n, ∀ xt < a.n, a.nMax ≤ (a.stars.filter fun s => decide (Candidate a lo hi yt xt s)).length := by
  by_cases hn : a.n = 0
  · simp [chosen, hn]
  by_cases hl : a.lo = none ∨ a.hi = none
  · rw [chosen_none a hn hl]
    refine ⟨fun ⟨_, h⟩ => absurd h (by simp), fun ⟨_, _, lo, hi, h1, h2, _⟩ => ?_⟩
    rcases hl with h | h
    · rw [h] at h1; exact absurd h1 (by simp)
    · rw [h] at h2; exact absurd h2 (by simp)
  push Not at hl
  obtain ⟨lo, hlo⟩ := Option.ne_none_iff_exists'.1 hl.1
  obtain ⟨hi, hhi⟩ := Option.ne_none_iff_exists'.1 hl.2
  have filt : ∀ t, t < a.n * a.n → ((∃ out, lift (select a.stars (t / a.n * (a.nY / a.n) + a.nY / a.n / 2)
      (t % a.n * (a.nX / a.n) + a.nX / a.n / 2) (a.nY / a.n) (a.nX / a.n) (a.nPx / 2) a.nMax a.lo a.hi a.crit
      (key a.crit (t / a.n * (a.nY / a.n) + a.nY / a.n / 2) (t % a.n * (a.nX / a.n) + a.nX / a.n / 2))) = .ok out) ↔
      a.nMax ≤ (a.stars.filter fun s => decide (Candidate a lo hi (t / a.n) (t % a.n) s)).length ∧ a.crit ≠ .other) := by
    intro t ht
    simp only [lift_ok, hlo, hhi]
    rw [FieldFit.select_total]
    simp only [candidate_iff]
  have hmap : (∃ l, chosen a = .ok l) ↔ ∀ t < a.n * a.n, a.nMax ≤ (a.stars.filter fun s => decide (Candidate a lo hi (t / a.n) (t % a.n) s)).length ∧ a.crit ≠ .other := by
    unfold chosen
    rw [if_neg hn]
    constructor
    · rintro ⟨l, h⟩ t ht
      obtain ⟨ll, h1, _⟩ := (Config.bind_ok_iff _ _ _).1 h
      obtain ⟨hlen, hall⟩ := (mapM_ok_iff _ _ _).1 h1
      rw [centers_length] at hlen
      obtain ⟨_, hs⟩ := hall t (by rw [centers_length]; exact ht)
      obtain ⟨hc', hc⟩ := List.getElem?_eq_some_iff.1 (centers_get a.nY a.nX a.n t ht)
      rw [hc] at hs
      exact (filt t ht).1 ⟨_, hs⟩
    · intro h
      choose! g hg using fun t ht => (filt t ht).2 (h t ht)
      refine ⟨((List.range (a.n * a.n)).map g).flatten, (Config.bind_ok_iff _ _ _).2 ⟨(List.range (a.n * a.n)).map g, ?_, rfl⟩⟩
      rw [mapM_ok_iff]
      refine ⟨by simp [centers_length], fun i hi => ?_⟩
      rw [centers_length] at hi
      refine ⟨by simpa using hi, ?_⟩
      obtain ⟨hc', hc⟩ := List.getElem?_eq_some_iff.1 (centers_get a.nY a.nX a.n i hi)
      rw [hc]
      simpa using hg i hi
  rw [hmap]
  have hn' : 0 < a.n := Nat.pos_of_ne_zero hn
  constructor
  · intro h
    refine ⟨hn', (h 0 (by positivity)).2, lo, hi, hlo, hhi, fun yt hy xt hx => ?_⟩
    have hlt : yt * a.n + xt < a.n * a.n := by nlinarith
    have := (h (yt * a.n + xt) hlt).1
    rwa [show (yt * a.n + xt) / a.n = yt by rw [Nat.add_comm, Nat.add_mul_div_right _ _ hn', Nat.div_eq_of_lt hx, Nat.zero_add],
      show (yt * a.n + xt) % a.n = xt by rw [Nat.add_comm, Nat.add_mul_mod_self_right, Nat.mod_eq_of_lt hx]] at this
  · rintro ⟨_, hc, lo', hi', h1, h2, h3⟩ t ht
    rw [hlo] at h1; rw [hhi] at h2
    cases h1; cases h2
    exact ⟨h3 _ (Nat.div_lt_of_lt_mul ht) _ (Nat.mod_lt _ hn'), hc⟩

/-! ### The whole calibration -/

/-- The stars of one sub-image as they are detected in it, with its coordinates. -/
noncomputable def tileOf (w : World) (a : Args) (c : ℝ × ℝ) (sub : Im) : MultiFit.Tile := ⟨w.detect sub, a.nPx, a.nPx, c.1, c.2⟩

/-- The calibration, step by step. -/
theorem calibrate_ok (w : World) (a : Args) (p : Ini) (o : Out) : calibrate w a p = .ok o ↔
    ∃ stars subs, chosen a = .ok stars ∧ (stars.map (centred a)).mapM (cutOut a) = .ok subs ∧ w.ready p = true ∧
      ∃ X psfs, MultiFit.run (w.solver p) (w.build p) (w.psArcsec p) (List.zipWith (tileOf w a) (stars.map (centred a)) subs) = some (X, psfs) ∧
      ((a.interpolation = .psfs ∧ o = ⟨(grid a).map (byPsfs a.nMax psfs (stars.map (centred a)) X), field a.nPx a.fact, psfs,
          field a.nPx a.fact, X, subs, grid a, stars.map (centred a)⟩) ∨
        (a.interpolation = .parameters ∧ a.nPx ≤ field a.nPx a.fact ∧
          o = ⟨(grid a).map (byParameters (w.buildAt p a.nPx) (spatial w.polyfit X)), a.nPx, psfs, field a.nPx a.fact, X, subs, grid a,
            stars.map (centred a)⟩)) := by
  unfold calibrate
  constructor
  · intro h
    obtain ⟨stars, h1, h⟩ := (Config.bind_ok_iff _ _ _).1 h
    obtain ⟨subs, h2, h⟩ := (Config.bind_ok_iff _ _ _).1 h
    by_cases hr : w.ready p = true
    · simp only [hr, not_true_eq_false, if_false] at h
      refine ⟨stars, subs, h1, h2, hr, ?_⟩
      change (match MultiFit.run (w.solver p) (w.build p) (w.psArcsec p) (List.zipWith (tileOf w a) (stars.map (centred a)) subs) with
        | none => _ | some (X, psfs) => _) = _ at h
      cases hm : MultiFit.run (w.solver p) (w.build p) (w.psArcsec p) (List.zipWith (tileOf w a) (stars.map (centred a)) subs) with
      | none => rw [hm] at h; cases h
      | some r =>
        obtain ⟨X, psfs⟩ := r
        rw [hm] at h
        refine ⟨X, psfs, rfl, ?_⟩
        cases hi : a.interpolation with
        | psfs => rw [hi] at h; exact Or.inl ⟨rfl, (Except.ok.inj h).symm⟩
        | parameters =>
          rw [hi] at h
          by_cases hf : field a.nPx a.fact < a.nPx
          · simp only [hf, if_true] at h; cases h
          · simp only [hf, if_false] at h
            exact Or.inr ⟨rfl, by omega, (Except.ok.inj h).symm⟩
        | other => rw [hi] at h; cases h
    · simp only [hr] at h; cases h
  · rintro ⟨stars, subs, h1, h2, hr, X, psfs, hm, h⟩
    refine (Config.bind_ok_iff _ _ _).2 ⟨stars, h1, (Config.bind_ok_iff _ _ _).2 ⟨subs, h2, ?_⟩⟩
    simp only [hr, not_true_eq_false, if_false]
    change (match MultiFit.run (w.solver p) (w.build p) (w.psArcsec p) (List.zipWith (tileOf w a) (stars.map (centred a)) subs) with
        | none => _ | some (X, psfs) => _) = _
    rw [hm]
    rcases h with ⟨hi, rfl⟩ | ⟨hi, hf, rfl⟩
    · simp only [hi]; rfl
    · simp only [hi, not_lt.2 hf, if_false]; rfl

theorem cutOut_centred (a : Args) (s : Star) : cutOut a (centred a s) = lift (extract a.im a.nY a.nX s.y s.x a.nPx) := by
  unfold cutOut centred
  simp only [sub_add_cancel]

theorem generate_ok (w : World) (a : Args) (p : Ini) (o : Out) (q : Option Ini) (h : generate w a (some p) = (.ok o, q)) :
    ∃ q', calibrate w a q' = .ok o := by
  unfold generate at h
  cases hs : setField a.nPx a.fact (some p) with
  | none => rw [hs] at h; cases (Prod.mk.inj h).1
  | some q' => rw [hs] at h; exact ⟨q', (Prod.mk.inj h).1⟩

/-- C486: what is returned by a calibration of `n` by `n` tiles with `m` stars each. There are `n * n * m` coordinates,
sub-images, columns and fitted PSFs, and `n * n` interpolated PSFs and points. The entries number `k` all belong to the same
star, a candidate of tile number `k / m` in row order: its coordinates from the centre of the image, the sub-image cut
around it, the fit of that sub-image, with the coordinates in rows 14 and 15 - or zeros when nothing was detected there. -/
theorem generate_spec (w : World) (a : Args) (hm : 0 < a.nMax) (p : Ini) (o : Out) (q : Option Ini) (h : generate w a (some p) = (.ok o, q)) :
    o.coo.length = a.n * a.n * a.nMax ∧ o.subs.length = a.n * a.n * a.nMax ∧ o.X.length = a.n * a.n * a.nMax ∧
    o.fits.length = a.n * a.n * a.nMax ∧ o.interp.length = a.n * a.n ∧ o.cooInterp.length = a.n * a.n ∧
    ∃ lo hi, a.lo = some lo ∧ a.hi = some hi ∧ ∀ k < a.n * a.n * a.nMax, ∃ s ∈ a.stars, ∃ sub,
      Candidate a lo hi (k / a.nMax / a.n) (k / a.nMax % a.n) s ∧
      o.coo[k]? = some (s.y - ((a.nY / 2 : ℕ) : ℝ), s.x - ((a.nX / 2 : ℕ) : ℝ)) ∧
      o.subs[k]? = some sub ∧ extract a.im a.nY a.nX s.y s.x a.nPx = .ok sub ∧
      (w.detect sub = [] → o.X[k]? = some (List.replicate 24 0) ∧ o.fits[k]? = some fun _ _ => 0) ∧
      (w.detect sub ≠ [] → ∃ q' f, w.solver q' ⟨w.detect sub, a.nPx, a.nPx, s.y - ((a.nY / 2 : ℕ) : ℝ), s.x - ((a.nX / 2 : ℕ) : ℝ)⟩
          ((w.detect sub).map fun u => ((u.y - ((a.nPx / 2 : ℕ) : ℝ)) * w.psArcsec q', (u.x - ((a.nPx / 2 : ℕ) : ℝ)) * w.psArcsec q'))
          (MultiFit.start ⟨w.detect sub, a.nPx, a.nPx, s.y - ((a.nY / 2 : ℕ) : ℝ), s.x - ((a.nX / 2 : ℕ) : ℝ)⟩)
          (MultiFit.mask (w.detect sub).length) = some f ∧
        ∃ c, o.X[k]? = some c ∧ (7 ≤ f.x.length → 7 ≤ f.xerr.length → (∀ i < 7, c[i]? = f.x[i]?) ∧ (∀ i < 7, c[7 + i]? = f.xerr[i]?) ∧
          c[14]? = some (s.y - ((a.nY / 2 : ℕ) : ℝ)) ∧ c[15]? = some (s.x - ((a.nX / 2 : ℕ) : ℝ)) ∧ c[23]? = some f.mse)) := by
  obtain ⟨q', hc⟩ := generate_ok w a p o q h
  obtain ⟨stars, subs, h1, h2, _, X, psfs, h3, h4⟩ := (calibrate_ok w a q' o).1 hc
  obtain ⟨_, lo, hi, hlo, hhi, hlen, hst⟩ := chosen_spec a hm stars h1
  obtain ⟨hl2, hsub⟩ := (mapM_ok_iff _ _ _).1 h2
  have hzl : (List.zipWith (tileOf w a) (stars.map (centred a)) subs).length = stars.length := by
    rw [List.length_zipWith, hl2]; simp
  obtain ⟨r0, r1, r2, r3⟩ := MultiFit.run_spec _ _ _ _ _ _ h3
  rw [hzl] at r1 r2
  have hgrid : (grid a).length = a.n * a.n := by unfold grid; simp [List.length_flatMap]
  have hcoo : o.coo = stars.map (centred a) := by rcases h4 with ⟨_, rfl⟩ | ⟨_, _, rfl⟩ <;> rfl
  have hsubs : o.subs = subs := by rcases h4 with ⟨_, rfl⟩ | ⟨_, _, rfl⟩ <;> rfl
  have hX : o.X = X := by rcases h4 with ⟨_, rfl⟩ | ⟨_, _, rfl⟩ <;> rfl
  have hf : o.fits = psfs := by rcases h4 with ⟨_, rfl⟩ | ⟨_, _, rfl⟩ <;> rfl
  have hi1 : o.interp.length = a.n * a.n := by rcases h4 with ⟨_, rfl⟩ | ⟨_, _, rfl⟩ <;> simp [hgrid]
  have hi2 : o.cooInterp.length = a.n * a.n := by rcases h4 with ⟨_, rfl⟩ | ⟨_, _, rfl⟩ <;> simp [hgrid]
  refine ⟨by rw [hcoo, List.length_map, hlen], by rw [hsubs, hl2, List.length_map, hlen], by rw [hX, r1, hlen], by rw [hf, r2, hlen], hi1, hi2,
    lo, hi, hlo, hhi, fun k hk => ?_⟩
  have hks : k < stars.length := by rw [hlen]; exact hk
  obtain ⟨hmem, hcand⟩ := hst k stars[k] (List.getElem?_eq_getElem hks)
  obtain ⟨hk', hs⟩ := hsub k (by simpa using hks)
  rw [List.getElem_map, cutOut_centred, lift_ok] at hs
  have hz : (List.zipWith (tileOf w a) (stars.map (centred a)) subs)[k]? = some (tileOf w a (centred a stars[k]) subs[k]) := by
    rw [List.getElem?_zipWith, List.getElem?_map, List.getElem?_eq_getElem hks, List.getElem?_eq_getElem hk']
    rfl
  refine ⟨stars[k], hmem, subs[k], hcand, ?_, ?_, hs, ?_, ?_⟩
  · rw [hcoo, List.getElem?_map, List.getElem?_eq_getElem hks]; rfl
  · rw [hsubs, List.getElem?_eq_getElem hk']
  · intro hd
    rcases r3 k _ hz with ⟨_, b, c⟩ | ⟨f, b, _⟩
    · rw [hX, hf]; exact ⟨b, c⟩
    · exact absurd hd b.1
  · intro hd
    rcases r3 k _ hz with ⟨b, _⟩ | ⟨f, b, _, c, hc, hc'⟩
    · exact absurd b hd
    · refine ⟨q', f, b.2, c, by rw [hX]; exact hc, fun h7 h7' => ?_⟩
      obtain ⟨_, c1, c2, c3, c4, _, _, _, _, _, _, _, c5⟩ := hc' h7 h7'
      exact ⟨c1, c2, c3, c4, c5⟩

open Classical in
/-- C487: for even sub-images, when the PSF model can be made and the fits return, the calibration returns exactly when the
parameter file has the section, there is at least one tile, the criterion and the interpolation are known, the limits of
magnitude are given, every tile has enough candidates and, for an interpolation of the parameters, the enlarged field is not
smaller than the sub-images. In particular no candidate is too near to a border to be cut out. -/
theorem generate_iff (w : World) (a : Args) (p : Ini) (half : ℕ) (he : a.nPx = 2 * half) (hm : 0 < a.nMax) (hr : ∀ q, w.ready q = true)
    (hf : ∀ q t c s m, w.solver q t c s m ≠ none) :
    (∃ o q, generate w a (some p) = (.ok o, q)) ↔ p.sec "sensor_science" = true ∧ 0 < a.n ∧ a.crit ≠ .other ∧ a.interpolation ≠ .other ∧
      (a.interpolation = .parameters → a.nPx ≤ 2 * (a.nPx * a.fact / 2)) ∧ ∃ lo hi, a.lo = some lo ∧ a.hi = some hi ∧
        ∀ yt < a.n, ∀ xt < a.n, a.nMax ≤ (a.stars.filter fun s => decide (Candidate a lo hi yt xt s)).length := by
  constructor
  · rintro ⟨o, q, h⟩
    have hs : p.sec "sensor_science" = true := by
      by_contra hs
      rw [(generate_file w a p).2 (by simpa using hs)] at h
      cases (Prod.mk.inj h).1
    obtain ⟨q', hc⟩ := generate_ok w a p o q h
    obtain ⟨stars, subs, h1, _, _, X, psfs, _, h4⟩ := (calibrate_ok w a q' o).1 hc
    obtain ⟨a1, a2, a3⟩ := (chosen_iff a).1 ⟨stars, h1⟩
    refine ⟨hs, a1, a2, ?_, ?_, a3⟩
    · rcases h4 with ⟨h, _⟩ | ⟨h, _⟩ <;> rw [h] <;> simp
    · intro hp
      rcases h4 with ⟨h, _⟩ | ⟨_, h, _⟩
      · rw [h] at hp; cases hp
      · exact h
  · rintro ⟨hs, hn, hc, hi, hp, hcand⟩
    obtain ⟨stars, h1⟩ := (chosen_iff a).2 ⟨hn, hc, hcand⟩
    obtain ⟨_, lo, hi', hlo, hhi, hlen, hst⟩ := chosen_spec a hm stars h1
    have hcut : ∀ c ∈ stars.map (centred a), ∃ sub, cutOut a c = .ok sub := by
      intro c hc
      obtain ⟨s, hs, rfl⟩ := List.mem_map.1 hc
      obtain ⟨k, hk, rfl⟩ := List.mem_iff_getElem.1 hs
      have hcd := (candidate_iff _ _ _ _ _ _).1 (hst k _ (List.getElem?_eq_getElem hk)).2
      rw [hlen] at hk
      have hkm : k / a.nMax < a.n * a.n := Nat.div_lt_of_lt_mul (by rw [Nat.mul_comm]; exact hk)
      rw [he] at hcd
      obtain ⟨sub, h⟩ := FieldFit.candidate_extracted a.im a.nY a.nX a.n _ _ half hn (Nat.div_lt_of_lt_mul hkm) (Nat.mod_lt _ hn) lo hi' _ hcd
      exact ⟨sub, by rw [cutOut_centred, lift_ok, he]; exact h⟩
    obtain ⟨subs, h2⟩ : ∃ subs, (stars.map (centred a)).mapM (cutOut a) = .ok subs := by
      generalize stars.map (centred a) = l at hcut
      induction l with
      | nil => exact ⟨[], rfl⟩
      | cons c l ih =>
        obtain ⟨r, hr⟩ := ih fun c hc => hcut c (by simp [hc])
        obtain ⟨s, hs⟩ := hcut c (by simp)
        exact ⟨s :: r, by rw [List.mapM_cons, hs, hr]; rfl⟩
    obtain ⟨q, hq, _⟩ := (generate_file w a p).1 hs
    obtain ⟨⟨X, psfs⟩, h3⟩ := (MultiFit.run_iff_partial (w.solver q) (w.build q) (w.psArcsec q)
      (List.zipWith (tileOf w a) (stars.map (centred a)) subs)).2 fun t _ ht => by
        obtain ⟨f, hf⟩ := Option.ne_none_iff_exists'.1 (hf q t _ _ _)
        exact ⟨f, ht, hf⟩
    have : ∃ o, calibrate w a q = .ok o := by
      cases hint : a.interpolation with
      | psfs => exact ⟨_, (calibrate_ok w a q _).2 ⟨stars, subs, h1, h2, hr q, X, psfs, h3, Or.inl ⟨hint, rfl⟩⟩⟩
      | parameters => exact ⟨_, (calibrate_ok w a q _).2 ⟨stars, subs, h1, h2, hr q, X, psfs, h3, Or.inr ⟨hint, hp hint, rfl⟩⟩⟩
      | other => exact absurd hint hi
    obtain ⟨o, ho⟩ := this
    refine ⟨o, some q, ?_⟩
    unfold generate at hq ⊢
    rw [setField_some, if_pos hs] at hq ⊢
    simp only [Option.some.injEq] at hq ⊢
    subst hq
    rw [ho]

/-- C488 (partial): a calibration with an unknown interpolation never returns. Missing: it is refused for that reason, before
anything is done. -/
theorem unknown_partial (w : World) (a : Args) (disk : Option Ini) (h : a.interpolation = .other) (o : Out) : (generate w a disk).1 ≠ .ok o := by
  intro hg
  cases disk with
  | none => cases hg
  | some p =>
    obtain ⟨q, hc⟩ := generate_ok w a p o _ (Prod.ext hg rfl)
    obtain ⟨_, _, _, _, _, _, _, _, h4⟩ := (calibrate_ok w a q o).1 hc
    rcases h4 with ⟨h', _⟩ | ⟨h', _⟩ <;> rw [h] at h' <;> cases h'

/-- C488 (violation): whatever the interpolation, the limits of magnitude are looked at first, then the PSF model and the
fits: an unknown interpolation is not what is reported when one of them raises. -/
theorem unknown_violation (w : World) (a : Args) (p : Ini) (hs : p.sec "sensor_science" = true) (hn : a.n ≠ 0) :
    (a.lo = none ∨ a.hi = none → (generate w a (some p)).1 = .error (.of .typeError)) ∧
    ∀ o q, generate w a (some p) = (.ok o, q) → ∀ w' : World, w'.ready = (fun _ => false) →
      (generate w' { a with interpolation := .other } (some p)).1 = .error .model := by
  have e : ∀ w, ∀ a : Args, (generate w a (some p)).1 = calibrate w a (put p (toString (2 * (a.nPx * a.fact / 2)))) := by
    intro w a
    unfold generate
    rw [setField_some, if_pos hs]
  constructor
  · intro hl
    rw [e]
    simp only [calibrate, chosen_none a hn hl]
    rfl
  · intro o q h w' hw
    obtain ⟨q', hc⟩ := generate_ok w a p o q h
    obtain ⟨stars, subs, h1, h2, _⟩ := (calibrate_ok w a q' o).1 hc
    rw [e]
    have c1 : chosen { a with interpolation := .other } = .ok stars := h1
    have c2 : (stars.map (centred { a with interpolation := .other })).mapM (cutOut { a with interpolation := .other }) = .ok subs := h2
    unfold calibrate
    rw [c1]
    change (((stars.map (centred { a with interpolation := .other })).mapM (cutOut { a with interpolation := .other })) >>= _) = _
    rw [c2, hw]
    rfl

/-- C489 (partial): the fitted PSFs, and the PSFs interpolated between them, have the size of the field of view written in the
parameter file, which is the enlarged size exactly when that one is even. Missing: all PSFs have the enlarged size. -/
theorem size_partial (w : World) (a : Args) (disk q : Option Ini) (o : Out) (h : generate w a disk = (.ok o, q)) :
    o.sizeFits = 2 * (a.nPx * a.fact / 2) ∧ (a.interpolation = .psfs → o.sizeInterp = o.sizeFits) ∧
      (o.sizeFits = a.fact * a.nPx ↔ Even (a.fact * a.nPx)) ∧ (a.interpolation = .parameters → o.sizeInterp = a.nPx) := by
  cases disk with
  | none => cases (Prod.mk.inj h).1
  | some p =>
    obtain ⟨q', hc⟩ := generate_ok w a p o q h
    obtain ⟨_, _, _, _, _, _, _, _, h4⟩ := (calibrate_ok w a q' o).1 hc
    have hs : o.sizeFits = 2 * (a.nPx * a.fact / 2) := by rcases h4 with ⟨_, rfl⟩ | ⟨_, _, rfl⟩ <;> rfl
    refine ⟨hs, fun hi => ?_, ?_, fun hi => ?_⟩
    · rcases h4 with ⟨_, rfl⟩ | ⟨h', _⟩
      · rfl
      · rw [hi] at h'; cases h'
    · rw [hs, Nat.mul_comm a.nPx, Nat.even_iff]; omega
    · rcases h4 with ⟨h', _⟩ | ⟨_, _, rfl⟩
      · rw [hi] at h'; cases h'
      · rfl

/-- C489 (violation): interpolating the parameters gives PSFs of the size of the sub-images, not of the enlarged size, for
every factor but one; an odd enlarged size is never that of a fitted PSF. -/
theorem size_violation (w : World) (a : Args) (disk q : Option Ini) (o : Out) (h : generate w a disk = (.ok o, q)) (hp : 0 < a.nPx) :
    (a.interpolation = .parameters → a.fact ≠ 1 → o.sizeInterp ≠ a.fact * a.nPx) ∧ (Odd (a.fact * a.nPx) → o.sizeFits + 1 = a.fact * a.nPx) := by
  obtain ⟨h1, _, _, h4⟩ := size_partial w a disk q o h
  refine ⟨fun hi hf => ?_, fun ho => ?_⟩
  · rw [h4 hi]
    intro e
    exact hf (Nat.eq_of_mul_eq_mul_right hp (by omega))
  · rw [h1, Nat.mul_comm a.nPx]
    rw [Nat.odd_iff] at ho
    omega

/-- C490 (violation): one sub-image in which nothing is detected leaves no PSF at all when the parameters are interpolated. -/
theorem parameters_violation (w : World) (a : Args) (hm : 0 < a.nMax) (p : Ini) (o : Out) (q : Option Ini)
    (h : generate w a (some p) = (.ok o, q)) (hi : a.interpolation = .parameters) (sub : Im) (hs : sub ∈ o.subs) (hd : w.detect sub = []) :
    ∀ v ∈ o.interp, v = none := by
  obtain ⟨_, l2, _, _, _, _, lo, hi', _, _, hall⟩ := generate_spec w a hm p o q h
  obtain ⟨k, hk, rfl⟩ := List.mem_iff_getElem.1 hs
  obtain ⟨s, _, sub', _, _, e, _, hz, _⟩ := hall k (by rw [← l2]; exact hk)
  rw [List.getElem?_eq_getElem hk] at e
  obtain ⟨hx, _⟩ := hz (by rw [← Option.some.inj e]; exact hd)
  obtain ⟨q', hc⟩ := generate_ok w a p o q h
  obtain ⟨_, _, _, _, _, X, _, _, h4⟩ := (calibrate_ok w a q' o).1 hc
  rcases h4 with ⟨h', _⟩ | ⟨_, _, rfl⟩
  · rw [hi] at h'; cases h'
  · simp only at hx ⊢
    have h0 : (0 : ℝ) ∈ row X 7 := by
      unfold row
      exact List.mem_map.2 ⟨_, List.mem_of_getElem? hx, by simp⟩
    have : spatial w.polyfit X = none := by
      unfold spatial flat
      rw [FieldFit.wMean_zero _ _ h0]
      rfl
    rw [this]
    intro v hv
    obtain ⟨_, _, rfl⟩ := List.mem_map.1 hv
    rfl

/-- C490 (partial): when the errors of the parameters without variation are positive (that of the background of the power spectrum, kept
fixed, may be zero), every PSF interpolated from the parameters is the
image of the model for parameters of which the five without variation are between the smallest and the largest fitted ones,
and the two others are the polynomials of the distance fitted to them, at every point. Missing: the sub-images without stars are left out. -/
theorem parameters_partial (build : List ℝ → Im) (polyfit : List ℝ → List ℝ → List ℝ) (X : List (List ℝ)) (hX : X ≠ [])
    (he : ∀ i ∈ [7, 10, 12, 13], ∀ c ∈ X, 0 < c.getD i 0) (hC : ∀ c ∈ X, 0 ≤ c.getD 8 0) (out : ℝ × ℝ) :
    ∃ r0 C ax th be A B : ℝ, byParameters build (spatial polyfit X) out =
        some (build ([r0, C, A, ax, B, th, be] ++ [0, 0, 0] ++ [1, 0, 0] ++ [0])) ∧
      A = FieldFit.polyval (polyfit (X.map fun c => c.getD 16 0) (X.map fun c => c.getD 2 0)) √(out.1 ^ 2 + out.2 ^ 2) ∧
      B = FieldFit.polyval (polyfit (X.map fun c => c.getD 16 0) (X.map fun c => c.getD 4 0)) √(out.1 ^ 2 + out.2 ^ 2) ∧
      ∀ u : ℝ × ℕ, u ∈ [(r0, 0), (C, 1), (ax, 3), (th, 5), (be, 6)] → ∀ lo hi : ℝ, (∀ c ∈ X, lo ≤ c.getD u.2 0 ∧ c.getD u.2 0 ≤ hi) →
        lo ≤ u.1 ∧ u.1 ≤ hi := by
  have mean : ∀ i e, e.length = X.length → (∀ x ∈ e, 0 < x) → ∃ m, flat (row X i) e = some [0, 0, m] ∧
      ∀ lo hi : ℝ, (∀ c ∈ X, lo ≤ c.getD i 0 ∧ c.getD i 0 ≤ hi) → lo ≤ m ∧ m ≤ hi := by
    intro i e hl he
    have hne : e ≠ [] := fun h => hX (List.length_eq_zero_iff.1 (by rw [← hl, h]; rfl))
    have b := fun lo hi hb => FieldFit.wMean_bounds (row X i) e lo hi (by simp [row, hl]) hne he hb
    have h0 : (0:ℝ) ∉ e := fun h => lt_irrefl _ (he 0 h)
    refine ⟨_, by unfold flat FieldFit.wMean; rw [if_neg h0]; rfl, fun lo hi hb => ?_⟩
    obtain ⟨m, hm, h1⟩ := b lo hi fun x hx => by
      obtain ⟨c, hc, rfl⟩ := List.mem_map.1 hx
      exact hb c hc
    unfold FieldFit.wMean at hm
    rw [if_neg h0] at hm
    cases hm
    exact h1
  have pos : ∀ i ∈ [7, 10, 12, 13], ∀ x ∈ row X i, 0 < x := by
    intro i hi x hx
    obtain ⟨c, hc, rfl⟩ := List.mem_map.1 hx
    exact he i hi c hc
  obtain ⟨r0, e0, b0⟩ := mean 0 (row X 7) (by simp [row]) (pos 7 (by simp))
  obtain ⟨C, e1, b1⟩ := mean 1 ((row X 8).map (· + 1e-20)) (by simp [row]) fun x hx => by
    obtain ⟨y, hy, rfl⟩ := List.mem_map.1 hx
    obtain ⟨c, hc, rfl⟩ := List.mem_map.1 hy
    have := hC c hc
    positivity
  obtain ⟨ax, e2, b2⟩ := mean 3 (row X 10) (by simp [row]) (pos 10 (by simp))
  obtain ⟨th, e3, b3⟩ := mean 5 (row X 12) (by simp [row]) (pos 12 (by simp))
  obtain ⟨be, e4, b4⟩ := mean 6 (row X 13) (by simp [row]) (pos 13 (by simp))
  have hsp : spatial polyfit X = some [[0, 0, r0], [0, 0, C], polyfit (row X 16) (row X 2), [0, 0, ax], polyfit (row X 16) (row X 4),
      [0, 0, th], [0, 0, be]] := by
    unfold spatial
    rw [e0, e1, e2, e3, e4]
    rfl
  have pv : ∀ m r : ℝ, FieldFit.polyval [0, 0, m] r = m := fun m r => FieldFit.polyval_const 2 m r
  refine ⟨r0, C, ax, th, be, FieldFit.polyval (polyfit (row X 16) (row X 2)) √(out.1 ^ 2 + out.2 ^ 2),
    FieldFit.polyval (polyfit (row X 16) (row X 4)) √(out.1 ^ 2 + out.2 ^ 2), ?_, rfl, rfl, ?_⟩
  · rw [hsp]
    simp [byParameters, pv]
  · intro u hu lo hi hb
    simp only [List.mem_cons, List.not_mem_nil, or_false] at hu
    rcases hu with rfl | rfl | rfl | rfl | rfl
    · exact b0 lo hi hb
    · exact b1 lo hi hb
    · exact b2 lo hi hb
    · exact b3 lo hi hb
    · exact b4 lo hi hb

/-! ### Which stars, which points -/

/-- The stars a tile offers. -/
def Offered (a : Args) (lo hi : ℝ) (t : ℕ) (kept : List Star) : Prop :=
  kept.Sublist a.stars ∧ ∀ s, s ∈ kept ↔ s ∈ a.stars ∧ Candidate a lo hi (t / a.n) (t % a.n) s

open Classical in
theorem chosen_best (a : Args) (hm : 0 < a.nMax) (l : List Star) (h : chosen a = .ok l) (lo hi : ℝ) (hlo : a.lo = some lo) (hhi : a.hi = some hi)
    (t : ℕ) (ht : t < a.n * a.n) : ∃ kept, Offered a lo hi t kept ∧ ∀ u ∈ kept, (∃ k, k / a.nMax = t ∧ l[k]? = some u) ∨
      ∀ k s, k / a.nMax = t → l[k]? = some s →
        (a.crit = .isolated → (kept.map fun v => √((v.y - u.y) ^ 2 + (v.x - u.x) ^ 2)).sum / ((kept.length : ℝ) - 1) ≤
          (kept.map fun v => √((v.y - s.y) ^ 2 + (v.x - s.x) ^ 2)).sum / ((kept.length : ℝ) - 1)) ∧
        (a.crit = .center → √((s.y - ((t / a.n * (a.nY / a.n) + a.nY / a.n / 2 : ℕ) : ℝ)) ^ 2 + (s.x - ((t % a.n * (a.nX / a.n) + a.nX / a.n / 2 : ℕ) : ℝ)) ^ 2) ≤
          √((u.y - ((t / a.n * (a.nY / a.n) + a.nY / a.n / 2 : ℕ) : ℝ)) ^ 2 + (u.x - ((t % a.n * (a.nX / a.n) + a.nX / a.n / 2 : ℕ) : ℝ)) ^ 2)) := by
  unfold chosen at h
  split_ifs at h with hn
  obtain ⟨ll, h1, h2⟩ := (Config.bind_ok_iff _ _ _).1 h
  cases h2
  obtain ⟨hlen, hall⟩ := (mapM_ok_iff _ _ _).1 h1
  rw [centers_length] at hlen
  have sel : ∀ (t : ℕ) (x : List Star), ll[t]? = some x → select a.stars (t / a.n * (a.nY / a.n) + a.nY / a.n / 2)
      (t % a.n * (a.nX / a.n) + a.nX / a.n / 2) (a.nY / a.n) (a.nX / a.n) (a.nPx / 2) a.nMax (some lo) (some hi) a.crit
      (key a.crit (t / a.n * (a.nY / a.n) + a.nY / a.n / 2) (t % a.n * (a.nX / a.n) + a.nX / a.n / 2)) = .ok x := by
    intro t x hx
    obtain ⟨ht, rfl⟩ := List.getElem?_eq_some_iff.1 hx
    have ht' : t < a.n * a.n := by rw [← hlen]; exact ht
    obtain ⟨_, hs⟩ := hall t (by rw [centers_length]; exact ht')
    obtain ⟨hc', hc⟩ := List.getElem?_eq_some_iff.1 (centers_get a.nY a.nX a.n t ht')
    rw [lift_ok, hc, hlo, hhi] at hs
    exact hs
  obtain ⟨f1, f2⟩ := flatten_const a.nMax hm ll fun x hx => by
    obtain ⟨t, ht, rfl⟩ := List.mem_iff_getElem.1 hx
    exact (FieldFit.select_spec _ _ _ _ _ _ _ _ _ _ _ _ (sel t _ (List.getElem?_eq_getElem ht))).1
  have htl : t < ll.length := by rw [hlen]; exact ht
  have hx := List.getElem?_eq_getElem htl
  obtain ⟨p1, p2, rest, kept, p3, p4, p5⟩ := FieldFit.select_spec _ _ _ _ _ _ _ _ _ _ _ _ (sel t _ hx)
  have hmem : ∀ s, s ∈ kept ↔ s ∈ a.stars ∧ Candidate a lo hi (t / a.n) (t % a.n) s := by
    intro s
    rw [p4, List.mem_filter, candidate_iff]
    simp
  refine ⟨kept, ⟨by rw [p4]; exact List.filter_sublist, hmem⟩, fun u hu => ?_⟩
  rcases List.mem_append.1 (p3.mem_iff.1 hu) with ho | hr
  · left
    obtain ⟨j, hj, rfl⟩ := List.mem_iff_getElem.1 ho
    have hj' : j < a.nMax := by rw [← p1]; exact hj
    have e1 : (t * a.nMax + j) / a.nMax = t := by
      rw [Nat.add_comm, Nat.add_mul_div_right _ _ hm, Nat.div_eq_of_lt hj', Nat.zero_add]
    have e2 : (t * a.nMax + j) % a.nMax = j := by rw [Nat.add_comm, Nat.add_mul_mod_self_right, Nat.mod_eq_of_lt hj']
    refine ⟨t * a.nMax + j, e1, ?_⟩
    obtain ⟨x, hx', hx2⟩ := f2 (t * a.nMax + j) (by nlinarith)
    rw [e1, hx] at hx'
    cases hx'
    rw [hx2, e2, List.getElem?_eq_getElem hj]
  · right
    intro k s hk hs
    have hk' : k < ll.length * a.nMax := by
      obtain ⟨h, _⟩ := List.getElem?_eq_some_iff.1 hs
      rwa [f1] at h
    obtain ⟨x, hx', hx2⟩ := f2 k hk'
    rw [hk, hx] at hx'
    cases hx'
    rw [hs] at hx2
    obtain ⟨q1, q2⟩ := p5 s (List.mem_of_getElem? hx2.symm) u hr
    refine ⟨fun hc => ?_, fun hc => ?_⟩
    · have := q1 hc
      simpa only [key, hc] using this
    · have := q2 hc
      simpa only [key, hc] using this

/-- C486: no star left out of a tile is better placed than one that was taken in it: for `isolated` its mean distance to the stars the
tile offers is not larger, for `center` its distance to the centre of the tile is not smaller. (`c` is the coordinate of
a star taken, from the centre of the image.) -/
theorem generate_best (w : World) (a : Args) (hm : 0 < a.nMax) (p : Ini) (o : Out) (q : Option Ini) (h : generate w a (some p) = (.ok o, q)) :
    ∃ lo hi, a.lo = some lo ∧ a.hi = some hi ∧ ∀ t < a.n * a.n, ∃ kept, Offered a lo hi t kept ∧ ∀ u ∈ kept,
      (∃ k, k / a.nMax = t ∧ o.coo[k]? = some (u.y - ((a.nY / 2 : ℕ) : ℝ), u.x - ((a.nX / 2 : ℕ) : ℝ))) ∨
      ∀ k c, k / a.nMax = t → o.coo[k]? = some c → ∃ y x : ℝ, c = (y - ((a.nY / 2 : ℕ) : ℝ), x - ((a.nX / 2 : ℕ) : ℝ)) ∧
        (a.crit = .isolated → (kept.map fun v => √((v.y - u.y) ^ 2 + (v.x - u.x) ^ 2)).sum / ((kept.length : ℝ) - 1) ≤
          (kept.map fun v => √((v.y - y) ^ 2 + (v.x - x) ^ 2)).sum / ((kept.length : ℝ) - 1)) ∧
        (a.crit = .center → √((y - ((t / a.n * (a.nY / a.n) + a.nY / a.n / 2 : ℕ) : ℝ)) ^ 2 + (x - ((t % a.n * (a.nX / a.n) + a.nX / a.n / 2 : ℕ) : ℝ)) ^ 2) ≤
          √((u.y - ((t / a.n * (a.nY / a.n) + a.nY / a.n / 2 : ℕ) : ℝ)) ^ 2 + (u.x - ((t % a.n * (a.nX / a.n) + a.nX / a.n / 2 : ℕ) : ℝ)) ^ 2)) := by
  obtain ⟨q', hc⟩ := generate_ok w a p o q h
  obtain ⟨stars, subs, h1, _, _, X, psfs, _, h4⟩ := (calibrate_ok w a q' o).1 hc
  obtain ⟨_, lo, hi, hlo, hhi, _⟩ := chosen_spec a hm stars h1
  have hcoo : o.coo = stars.map (centred a) := by rcases h4 with ⟨_, rfl⟩ | ⟨_, _, rfl⟩ <;> rfl
  refine ⟨lo, hi, hlo, hhi, fun t ht => ?_⟩
  obtain ⟨kept, ho, hb⟩ := chosen_best a hm stars h1 lo hi hlo hhi t ht
  refine ⟨kept, ho, fun u hu => ?_⟩
  rcases hb u hu with ⟨k, hk, hl⟩ | hb
  · left
    exact ⟨k, hk, by rw [hcoo, List.getElem?_map, hl]; rfl⟩
  · right
    intro k c hk hc
    rw [hcoo, List.getElem?_map, Option.map_eq_some_iff] at hc
    obtain ⟨s, hs, rfl⟩ := hc
    exact ⟨s.y, s.x, rfl, hb k s hk hs⟩

theorem grid_get (a : Args) (t : ℕ) (ht : t < a.n * a.n) : (grid a)[t]? =
    some (FieldFit.gridPoint a.nY a.n (t / a.n), FieldFit.gridPoint a.nX a.n (t % a.n)) := by
  have hn : 0 < a.n := Nat.pos_of_ne_zero fun h => by simp [h] at ht
  have := FieldFit.flatMap_range_getD (fun i j => (FieldFit.gridPoint a.nY a.n i, FieldFit.gridPoint a.nX a.n j)) (0, 0) a.n a.n (t / a.n) (t % a.n)
    (Nat.div_lt_of_lt_mul ht) (Nat.mod_lt _ hn)
  rw [show t / a.n * a.n + t % a.n = t from Nat.div_add_mod' t a.n] at this
  have hl : t < (grid a).length := by unfold grid; simpa [List.length_flatMap] using ht
  rw [List.getElem?_eq_getElem hl, ← this, List.getD_eq_getElem?_getD]
  change some _ = some ((grid a)[t]?.getD (0, 0))
  rw [List.getElem?_eq_getElem hl]
  rfl

/-- C101: with even tiles that divide the image, the points at which a calibration interpolates are the centres of the tiles in row
order, from the centre of the image, rows first. -/
theorem generate_points (w : World) (a : Args) (p : Ini) (o : Out) (q : Option Ini) (h : generate w a (some p) = (.ok o, q)) (my mx : ℕ)
    (hy : a.nY = 2 * my * a.n) (hx : a.nX = 2 * mx * a.n) (t : ℕ) (ht : t < a.n * a.n) : o.cooInterp[t]? =
      some (((t / a.n * (a.nY / a.n) + a.nY / a.n / 2 : ℕ) : ℝ) - ((a.nY / 2 : ℕ) : ℝ), ((t % a.n * (a.nX / a.n) + a.nX / a.n / 2 : ℕ) : ℝ) - ((a.nX / 2 : ℕ) : ℝ)) := by
  obtain ⟨q', hc⟩ := generate_ok w a p o q h
  obtain ⟨_, _, _, _, _, _, _, _, h4⟩ := (calibrate_ok w a q' o).1 hc
  have e : o.cooInterp = grid a := by rcases h4 with ⟨_, rfl⟩ | ⟨_, _, rfl⟩ <;> rfl
  have hn : 0 < a.n := Nat.pos_of_ne_zero fun h => by simp [h] at ht
  rw [e, grid_get a t ht, hy, hx, FieldFit.grid_centers my a.n _ hn (Nat.div_lt_of_lt_mul ht), FieldFit.grid_centers mx a.n _ hn (Nat.mod_lt _ hn)]

/-- C491: with one star per tile, a PSF interpolated at a point at which there is no star is a number exactly when at least four
sub-images (all of them when there are fewer tiles) were fitted with an error that is not zero; it is then the mean of four
fitted PSFs weighted by the inverses of their distances; they are different, and no other such star is nearer. -/
theorem generate_interp (w : World) (a : Args) (p : Ini) (o : Out) (q : Option Ini) (h : generate w a (some p) = (.ok o, q))
    (hm : a.nMax = 1) (hi : a.interpolation = .psfs) (t : ℕ) (pt : ℝ × ℝ) (hpt : o.cooInterp[t]? = some pt) (away : ∀ c ∈ o.coo, c ≠ pt) :
    ((∃ im, o.interp[t]? = some (some im)) ↔
      min 4 (a.n * a.n) ≤ ((List.range (a.n * a.n)).filter fun k => decide ((o.X.getD k []).getD 23 0 ≠ 0)).length) ∧
    ∀ im, o.interp[t]? = some (some im) → ∃ (ids : List ℕ) (d : ℕ → ℝ), (∀ k c, o.coo[k]? = some c → d k = √((pt.1 - c.1) ^ 2 + (pt.2 - c.2) ^ 2)) ∧
      ids.length = min 4 (a.n * a.n) ∧ ids.Nodup ∧
      (∀ k ∈ ids, k < a.n * a.n ∧ (o.X.getD k []).getD 23 0 ≠ 0 ∧ ∀ j < a.n * a.n, (o.X.getD j []).getD 23 0 ≠ 0 → j ∉ ids → d k ≤ d j) ∧
      ∀ i j, im i j = (ids.map fun k => (o.fits.getD k fun _ _ => 0) i j * (1 / d k / (ids.map fun l => 1 / d l).sum)).sum := by
  obtain ⟨l1, _, l3, l4, _, _, _⟩ := generate_spec w a (by omega) p o q h
  rw [hm, Nat.mul_one] at l1 l3 l4
  obtain ⟨q', hc⟩ := generate_ok w a p o q h
  obtain ⟨stars, subs, _, _, _, X, psfs, _, h4⟩ := (calibrate_ok w a q' o).1 hc
  rcases h4 with ⟨_, rfl⟩ | ⟨h', _⟩
  swap
  · rw [hi] at h'; cases h'
  simp only at hpt away l1 l3 l4 ⊢
  set coo := stars.map (centred a) with hcoo
  rw [List.getElem?_map, hpt]
  simp only [Option.map_some, Option.some.injEq]
  unfold byPsfs
  simp only [hm, Nat.div_one, l4]
  set y : ℕ → ℝ := fun k => (coo.getD k (0, 0)).1 with hy
  set x : ℕ → ℝ := fun k => (coo.getD k (0, 0)).2 with hx
  have hmse : (fun k => (row X 23).getD k 0) = fun k => (X.getD k []).getD 23 0 := by
    funext k
    unfold row
    simp only [List.getD_eq_getElem?_getD, List.getElem?_map]
    cases X[k]? <;> simp
  rw [hmse]
  obtain ⟨r0, r⟩ := MultiFit.unfitted_partial (fun k => psfs.getD k fun _ _ => 0) (fun k => (X.getD k []).getD 23 0) (a.n * a.n) 4 y x pt.1 pt.2
    (fun k hk _ => by
      have hk' : k < coo.length := by rw [l1]; exact hk
      have hne := away coo[k] (List.getElem_mem hk')
      have e1 : y k = coo[k].1 := by simp [hy, List.getD_eq_getElem?_getD, List.getElem?_eq_getElem hk']
      have e2 : x k = coo[k].2 := by simp [hx, List.getD_eq_getElem?_getD, List.getElem?_eq_getElem hk']
      rw [e1, e2]
      intro h0
      rw [Real.sqrt_eq_zero (by positivity)] at h0
      have a1 : pt.1 - coo[k].1 = 0 := by nlinarith [sq_nonneg (pt.1 - coo[k].1), sq_nonneg (pt.2 - coo[k].2)]
      have a2 : pt.2 - coo[k].2 = 0 := by nlinarith [sq_nonneg (pt.1 - coo[k].1), sq_nonneg (pt.2 - coo[k].2)]
      exact hne (Prod.ext (by linarith) (by linarith))) _ rfl
  refine ⟨r0, fun im him => ?_⟩
  obtain ⟨r1, r2, r3⟩ := r im him
  refine ⟨_, fun k => √((pt.1 - y k) ^ 2 + (pt.2 - x k) ^ 2), fun k c hk => ?_, r1, (MultiFit.nearest_spec _ _ _).2.1, r2, ?_⟩
  · simp [hy, hx, List.getD_eq_getElem?_getD, hk]
  · intro i j
    unfold FieldFit.interp at r3
    split_ifs at r3 with h0
    simp only [Option.some.injEq] at r3
    rw [← r3]


/-! ### Witnesses -/

/-- One tile of eight by eight pixels with one star in the middle. -/
def exArgs (interpolation : Interp) : Args :=
  ⟨fun _ _ => 0, 8, 8, [⟨4, 4, 5⟩], 1, 2, 1, 2, some 0, some 10, .center, interpolation⟩

/-- A model that can always be made and fitted, in which `stars` are detected. -/
def exWorld (stars : List MultiFit.Found) : World :=
  ⟨fun _ => true, fun _ => stars, fun _ _ _ _ _ => some ⟨[1, 0, 1, 1, 1, 0, 2], [1, 1, 1, 1, 1, 1, 1], 0, 0, 0, 0, 0, 0, 1⟩,
    fun _ _ _ _ => 0, fun _ _ _ _ _ => 0, fun _ => 1, fun _ _ => [0]⟩

/-- A parameter file with the section only. -/
def exFile : Ini := ⟨fun s => s == "sensor_science", fun _ _ => none⟩

theorem ex_runs (stars : List MultiFit.Found) (i : Interp) (hi : i ≠ .other) :
    ∃ o q, generate (exWorld stars) (exArgs i) (some exFile) = (.ok o, q) := by
  classical
  rw [generate_iff (exWorld stars) (exArgs i) exFile 1 rfl (by simp [exArgs]) (fun _ => rfl) (fun _ _ _ _ _ => by simp [exWorld])]
  refine ⟨rfl, by simp [exArgs], by simp [exArgs], hi, fun _ => by simp [exArgs], 0, 10, rfl, rfl, fun yt hy xt hx => ?_⟩
  have e1 : yt = 0 := by have : yt < 1 := hy; omega
  have e2 : xt = 0 := by have : xt < 1 := hx; omega
  subst e1 e2
  have : Candidate (exArgs i) 0 10 0 0 ⟨4, 4, 5⟩ := by
    unfold Candidate exArgs
    norm_num
  have h : (exArgs i).stars = [⟨4, 4, 5⟩] := rfl
  rw [h, List.filter_cons_of_pos (by simpa using this)]
  simp [exArgs]

-- C484, C485: the file of the user gets a field of view of four pixels, by calls that return and by calls that fail
example : (generate (exWorld []) (exArgs .psfs) (some exFile)).2 ≠ some exFile ∧
    (generate (exWorld []) { exArgs .psfs with lo := none } (some exFile)).2 ≠ some exFile := by
  constructor
  · intro h
    rcases (untouched_partial _ _ _).1 h with h | h
    · exact absurd h (by decide)
    · exact absurd h (by simp [exFile])
  · exact (untouched_violation (exWorld []) { exArgs .psfs with lo := none } exFile (by decide) (Or.inl rfl) (by decide) (by simp [exFile])).2

-- C484: two files that differ by the field of view
example : FieldSet exFile (put exFile "7") "7" ∧ exFile.sec "sensor_science" = true :=
  ⟨⟨rfl, by simp [put], fun s k h => by simp only [put]; rw [if_neg h]⟩, rfl⟩

-- C486, C489: calibrations that return, for both interpolations
example : ∃ o q, generate (exWorld [⟨1, 1, 3⟩]) (exArgs .psfs) (some exFile) = (.ok o, q) ∧ o.coo = [(0, 0)] ∧ o.sizeInterp = 4 := by
  obtain ⟨o, q, h⟩ := ex_runs [⟨1, 1, 3⟩] .psfs (by decide)
  obtain ⟨h1, h2, _⟩ := size_partial _ _ _ _ _ h
  obtain ⟨l, _, _, _, _, _, lo, hi, _, _, hk⟩ := generate_spec _ _ (by decide) _ _ _ h
  obtain ⟨s, hs, sub, _, hc, _⟩ := hk 0 (by decide)
  have e : s = ⟨4, 4, 5⟩ := by
    have : s ∈ [(⟨4, 4, 5⟩ : Star)] := hs
    simpa using this
  subst e
  refine ⟨o, q, h, ?_, by rw [h2 rfl, h1]; rfl⟩
  have l' : o.coo.length = 1 := l
  obtain ⟨c, hc'⟩ := List.length_eq_one_iff.1 l'
  rw [hc'] at hc ⊢
  have : c = ((4:ℝ) - ((8 / 2 : ℕ) : ℝ), (4:ℝ) - ((8 / 2 : ℕ) : ℝ)) := by simpa [exArgs] using hc
  rw [this]
  norm_num

-- C489, C490: a calibration by parameters, with a sub-image in which nothing is detected
example : ∃ o q, generate (exWorld []) (exArgs .parameters) (some exFile) = (.ok o, q) ∧ o.sizeInterp ≠ 2 * 2 ∧
    o.interp.length = 1 ∧ ∀ v ∈ o.interp, v = none := by
  obtain ⟨o, q, h⟩ := ex_runs [] .parameters (by decide)
  obtain ⟨_, l2, _, _, l5, _⟩ := generate_spec _ _ (by decide) _ _ _ h
  have l2' : o.subs.length = 1 := l2
  obtain ⟨sub, hsub⟩ := List.length_eq_one_iff.1 l2'
  exact ⟨o, q, h, (size_violation _ _ _ _ _ h (by decide)).1 rfl (by decide), l5,
    parameters_violation _ _ (by decide) _ _ _ h rfl sub (by simp [hsub]) rfl⟩

-- C488: an unknown interpolation with default limits
example : (generate (exWorld []) { exArgs .other with lo := none, hi := none } (some exFile)).1 = .error (.of .typeError) :=
  (unknown_violation (exWorld []) _ exFile (by decide) (by decide)).1 (Or.inl rfl)

-- C491: a star one pixel beside the point
example : ∃ (a : Args) (o : Out) (q : Option Ini), generate (exWorld [⟨1, 1, 3⟩]) a (some exFile) = (.ok o, q) ∧ a.nMax = 1 ∧ a.interpolation = .psfs ∧
    o.cooInterp[0]? = some (0, 0) ∧ (∀ c ∈ o.coo, c ≠ (0, 0)) ∧ ∃ im, o.interp[0]? = some (some im) := by
  classical
  have hrun : ∃ o q, generate (exWorld [⟨1, 1, 3⟩]) { exArgs .psfs with stars := [⟨4, 5, 5⟩] } (some exFile) = (.ok o, q) := by
    rw [generate_iff (exWorld [⟨1, 1, 3⟩]) _ exFile 1 rfl (by simp [exArgs]) (fun _ => rfl) (fun _ _ _ _ _ => by simp [exWorld])]
    refine ⟨rfl, by simp [exArgs], by simp [exArgs], by simp [exArgs], fun _ => by simp [exArgs], 0, 10, rfl, rfl, fun yt hy xt hx => ?_⟩
    have e1 : yt = 0 := by have : yt < 1 := hy; omega
    have e2 : xt = 0 := by have : xt < 1 := hx; omega
    subst e1 e2
    have : Candidate { exArgs .psfs with stars := [⟨4, 5, 5⟩] } 0 10 0 0 ⟨4, 5, 5⟩ := by
      unfold Candidate exArgs
      norm_num
    simp only
    rw [List.filter_cons_of_pos (by simpa using this)]
    simp [exArgs]
  obtain ⟨o, q, h⟩ := hrun
  have hpt : o.cooInterp[0]? = some (0, 0) := by
    rw [generate_points _ _ _ _ _ h 4 4 rfl rfl 0 (by decide)]
    norm_num [exArgs]
  obtain ⟨l, _, _, _, _, _, lo, hi, _, _, hk⟩ := generate_spec _ _ (by decide) _ _ _ h
  obtain ⟨s, hs, sub, _, hc, _, _, _, hf⟩ := hk 0 (by decide)
  have e : s = ⟨4, 5, 5⟩ := by
    have : s ∈ [(⟨4, 5, 5⟩ : Star)] := hs
    simpa using this
  subst e
  have hcoo : ∀ c ∈ o.coo, c ≠ (0, 0) := by
    have l' : o.coo.length = 1 := l
    obtain ⟨c, hc'⟩ := List.length_eq_one_iff.1 l'
    rw [hc'] at hc ⊢
    have : c = ((4:ℝ) - ((8 / 2 : ℕ) : ℝ), (5:ℝ) - ((8 / 2 : ℕ) : ℝ)) := by simpa [exArgs] using hc
    rw [this]
    intro c hc
    rw [List.mem_singleton.1 hc]
    intro h
    have := (Prod.mk.inj h).2
    norm_num at this
  refine ⟨_, o, q, h, rfl, rfl, hpt, hcoo, (generate_interp _ _ _ _ _ h rfl rfl 0 _ hpt hcoo).1.2 ?_⟩
  obtain ⟨q', f, hsol, c, hX, hX'⟩ := hf (by simp [exWorld])
  have ef : f = ⟨[1, 0, 1, 1, 1, 0, 2], [1, 1, 1, 1, 1, 1, 1], 0, 0, 0, 0, 0, 0, 1⟩ := (Option.some.inj hsol).symm
  subst ef
  have hc23 := (hX' (by simp) (by simp)).2.2.2.2
  have : (o.X.getD 0 []).getD 23 0 = 1 := by
    have e0 : o.X.getD 0 [] = c := by rw [List.getD_eq_getElem?_getD, hX]; rfl
    rw [e0, List.getD_eq_getElem?_getD, hc23]; rfl
  have e1 : (exArgs .psfs).n = 1 := rfl
  simp only [e1, Nat.mul_one, List.range_one]
  rw [List.filter_cons_of_pos (by rw [this]; simp)]
  simp

-- C490: errors that are positive
example : ∃ X : List (List ℝ), X ≠ [] ∧ (∀ i ∈ [7, 10, 12, 13], ∀ c ∈ X, 0 < c.getD i 0) ∧ ∀ c ∈ X, 0 ≤ c.getD 8 0 :=
  ⟨[List.replicate 24 1, List.replicate 24 2], by simp, by simp, by simp⟩

end P3.FieldRun
