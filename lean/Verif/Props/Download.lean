import Verif.Model.Download
import Mathlib.Tactic.Linarith

/-! C439, C440, C446: files downloaded and saved. -/

namespace P3.Download

open P3.Sphere (Name split)

/-! ### Paths -/

theorem split_ne_nil (c : Char) (p : Name) : split c p ≠ [] := by
  cases p with
  | nil => simp [split]
  | cons a t =>
    unfold split
    split_ifs
    · simp
    · split <;> simp

theorem split_join (c : Char) (a b : Name) : split c (a ++ c :: b) = split c a ++ split c b := by
  induction a with
  | nil => simp [split]
  | cons x t ih =>
    simp only [List.cons_append, split, ih]
    split_ifs with h
    · simp
    · cases hs : split c t with
      | nil => exact absurd hs (split_ne_nil c t)
      | cons h' r => simp

theorem split_plain (c : Char) (x : Name) (h : c ∉ x) : split c x = [x] := by
  induction x with
  | nil => rfl
  | cons a t ih =>
    simp only [List.mem_cons, not_or] at h
    simp only [split, if_neg (Ne.symm h.1), ih h.2]

theorem split_glue (c : Char) (a x : Name) (h : c ∉ x) :
    ∃ i l, split c a = i ++ [l] ∧ split c (a ++ x) = i ++ [l ++ x] ∧ (a ≠ [] → a.getLast? ≠ some c → l ≠ []) := by
  induction a with
  | nil => exact ⟨[], [], rfl, by simp [split_plain c x h], fun h => absurd rfl h⟩
  | cons y t ih =>
    obtain ⟨i, l, h1, h2, h3⟩ := ih
    simp only [List.cons_append, split, h1, h2]
    split_ifs with hy
    · refine ⟨[] :: i, l, by simp, by simp, fun _ hl => ?_⟩
      have ht : t ≠ [] := by
        rintro rfl
        exact hl (by simp [hy])
      refine h3 ht ?_
      rwa [List.getLast?_cons_of_ne_nil ht] at hl
    · cases i with
      | nil => exact ⟨[], y :: l, by simp, by simp, fun _ _ => by simp⟩
      | cons i0 i' =>
        refine ⟨(y :: i0) :: i', l, by simp, by simp, fun _ hl => ?_⟩
        have ht : t ≠ [] := by
          rintro rfl
          have := congrArg List.length h1
          simp [split] at this
        refine h3 ht ?_
        rwa [List.getLast?_cons_of_ne_nil ht] at hl

/-- A name of a file: not empty, no separator. -/
def IsName (x : Name) : Prop := x ≠ [] ∧ '/' ∉ x

/-- The file of a name in the folder of a path, as the system finds it. -/
def inFolder (path name : Name) : Bool × List Name := ((resolve path).1 || path == [], (resolve path).2 ++ [name])

theorem resolve_join (p x : Name) (h : IsName x) : resolve (p ++ '/' :: x) = inFolder p x := by
  have e : (split '/' (p ++ '/' :: x)).filter (fun c => c ≠ []) = (resolve p).2 ++ [x] := by
    rw [split_join, List.filter_append, split_plain _ _ h.2, resolve]
    simp [h.1]
  unfold inFolder
  rw [← e]
  unfold resolve
  cases p <;> simp

theorem resolve_glue (p x : Name) (h : IsName x) (hp : p ≠ []) (hl : p.getLast? ≠ some '/') :
    (resolve (p ++ x)).2.length = (resolve p).2.length := by
  obtain ⟨i, l, h1, h2, h3⟩ := split_glue '/' p x h.2
  have hne := h3 hp hl
  simp only [resolve, h1, h2, List.filter_append, List.length_append]
  congr 1
  simp [hne]

theorem resolve_slash (p x : Name) (h : IsName x) (hl : p.getLast? = some '/') : resolve (p ++ x) = inFolder p x := by
  obtain ⟨q, rfl⟩ : ∃ q, p = q ++ ['/'] := List.getLast?_eq_some_iff.mp hl
  have h1 : q ++ ['/'] ++ x = q ++ '/' :: x := by simp
  rw [h1, resolve_join q x h]
  unfold inFolder resolve
  rw [show q ++ ['/'] = q ++ '/' :: [] from rfl, split_join]
  cases q <;> simp [split]

/-- C439: `path + name` is in the folder of `path` exactly when the path ends with a separator. -/
theorem glued_iff (p x : Name) (h : IsName x) : resolve (p ++ x) = inFolder p x ↔ p.getLast? = some '/' := by
  refine ⟨fun e => ?_, resolve_slash p x h⟩
  by_contra hl
  by_cases hp : p = []
  · subst hp
    have := congrArg Prod.fst e
    obtain ⟨hx, hs⟩ := h
    cases x with
    | nil => exact hx rfl
    | cons a t =>
      simp only [List.mem_cons, not_or] at hs
      simp [resolve, inFolder] at this
      exact hs.1 this.symm
  · have h1 := resolve_glue p x h hp hl
    have h2 := congrArg (fun r => r.2.length) e
    simp only [inFolder, List.length_append, List.length_singleton] at h2
    omega

example : IsName "trs.sav".toList ∧ ("data/".toList).getLast? = some '/' ∧ ("data".toList).getLast? ≠ some '/' := by
  refine ⟨⟨by decide, by decide⟩, by decide, by decide⟩

/-! ### Downloads -/

/-- C439 (partial): with a path that ends with a separator, a call that does not fail leaves the file in the folder:
the one that was there, or the one of the server; no other file changes, and a further call downloads nothing. -/
theorem download_partial (remote : List ℕ) (t : Transfer) (path name : Name) (fs : Files) (hn : IsName name)
    (hp : path.getLast? = some '/') (hok : (getDataFile remote t path name fs).2.1 = false) :
    let fs' := (getDataFile remote t path name fs).1
    fs' (inFolder path name) = some ((fs (inFolder path name)).getD remote) ∧
    (∀ q, q ≠ inFolder path name → fs' q = fs q) ∧
    ∀ t', getDataFile remote t' path name fs' = (fs', false, false) := by
  intro fs'
  have e1 := resolve_join path name hn
  have e2 := resolve_slash path name hn hp
  have main : fs' (inFolder path name) = some ((fs (inFolder path name)).getD remote) ∧
      (∀ q, q ≠ inFolder path name → fs' q = fs q) := by
    simp only [fs']
    unfold getDataFile at hok ⊢
    rw [e1, e2] at hok ⊢
    split_ifs at hok ⊢ with hs
    · obtain ⟨v, hv⟩ := Option.isSome_iff_exists.mp hs
      simp [hv]
    · have hnone : fs (inFolder path name) = none := by simpa using hs
      cases t with
      | unreachable => simp [urlretrieve] at hok
      | stopped k => simp [urlretrieve] at hok
      | complete =>
        simp only [urlretrieve]
        refine ⟨by simp [hnone], fun q hq => Function.update_of_ne hq _ _⟩
  refine ⟨main.1, main.2, fun t' => ?_⟩
  unfold getDataFile
  rw [e1, main.1]
  simp

/-- C439: whatever the path, a call fails exactly when the file is not in the folder and the transfer does not end;
it downloads exactly when the file is not in the folder. -/
theorem getDataFile_fails_iff (remote : List ℕ) (t : Transfer) (path name : Name) (fs : Files) (hn : IsName name) :
    ((getDataFile remote t path name fs).2.1 = true ↔ fs (inFolder path name) = none ∧ t ≠ .complete) ∧
    ((getDataFile remote t path name fs).2.2 = true ↔ fs (inFolder path name) = none) := by
  unfold getDataFile
  rw [resolve_join path name hn]
  cases h : fs (inFolder path name) <;> cases t <;> simp [urlretrieve]

example : IsName "trs.sav".toList ∧ (Transfer.stopped 3) ≠ .complete := ⟨⟨by decide, by decide⟩, by simp⟩

/-- C439 (violation): with any other path the file is never found: whatever the calls and the transfers, it is not in
the folder, every call downloads again, and a complete transfer replaces a file next to the folder. -/
theorem download_violation (remote : List ℕ) (path name : Name) (fs : Files) (hn : IsName name)
    (hp : path.getLast? ≠ some '/') (h0 : fs (inFolder path name) = none) (ts : List Transfer) :
    calls remote path name ts fs (inFolder path name) = none ∧
    ∀ t, (getDataFile remote t path name (calls remote path name ts fs)).2.2 = true ∧
      (t = .complete → (getDataFile remote t path name (calls remote path name ts fs)).1 (resolve (path ++ name)) = some remote) := by
  have e1 := resolve_join path name hn
  have hne : inFolder path name ≠ resolve (path ++ name) := fun h => hp ((glued_iff path name hn).mp h.symm)
  have main : ∀ (ts : List Transfer) (fs : Files), fs (inFolder path name) = none →
      calls remote path name ts fs (inFolder path name) = none := by
    intro ts
    induction ts with
    | nil => intro fs h; exact h
    | cons t ts ih =>
      intro fs h
      refine ih _ ?_
      unfold getDataFile
      rw [e1, h]
      cases t <;> simp [urlretrieve, Function.update_of_ne hne, h]
  have h1 := main ts fs h0
  refine ⟨h1, fun t => ?_⟩
  unfold getDataFile
  rw [e1, h1]
  refine ⟨by simp, fun ht => ?_⟩
  subst ht
  simp [urlretrieve]

example : ∃ fs : Files, fs (inFolder "data".toList "trs.sav".toList) = none ∧ IsName "trs.sav".toList ∧
    ("data".toList).getLast? ≠ some '/' := ⟨fun _ => none, rfl, ⟨by decide, by decide⟩, by decide⟩

/-! ### Interrupted downloads -/

/-- C440 (partial): without an interrupted transfer, a file that was not there is absent or complete after any calls. -/
theorem whole_partial (remote : List ℕ) (path name : Name) (fs : Files) (hn : IsName name)
    (h0 : fs (inFolder path name) = none) (ts : List Transfer) (hts : ∀ t ∈ ts, ∀ k, t ≠ .stopped k) :
    calls remote path name ts fs (inFolder path name) = none ∨
    calls remote path name ts fs (inFolder path name) = some remote := by
  have e1 := resolve_join path name hn
  have main : ∀ (ts : List Transfer), (∀ t ∈ ts, ∀ k, t ≠ Transfer.stopped k) → ∀ (fs : Files),
      (fs (inFolder path name) = none ∨ fs (inFolder path name) = some remote) →
      (calls remote path name ts fs (inFolder path name) = none ∨ calls remote path name ts fs (inFolder path name) = some remote) := by
    intro ts
    induction ts with
    | nil => intro _ fs h; exact h
    | cons t ts ih =>
      intro hts fs h
      refine ih (fun u hu => hts u (List.mem_cons_of_mem _ hu)) _ ?_
      unfold getDataFile
      rw [e1]
      rcases h with h | h
      · rw [h]
        cases t with
        | unreachable => simp [urlretrieve, h]
        | stopped k => exact absurd rfl (hts _ (List.mem_cons_self ..) k)
        | complete =>
          simp only [Option.isSome_none, Bool.false_eq_true, if_false, urlretrieve]
          by_cases hr : inFolder path name = resolve (path ++ name)
          · rw [hr, Function.update_self]; exact Or.inr rfl
          · rw [Function.update_of_ne hr]; exact Or.inl h
      · rw [h]; simp [h]
  exact main ts hts fs (Or.inl h0)

/-- C440 (violation): after a transfer that stopped after `k` bytes, no later call, whatever happens, repairs the
file: its first `k` bytes are there for good, and every call returns without error and without a download. -/
theorem truncated_violation (remote : List ℕ) (path name : Name) (fs : Files) (hn : IsName name)
    (hp : path.getLast? = some '/') (h0 : fs (inFolder path name) = none) (k : ℕ) (ts : List Transfer) :
    calls remote path name (.stopped k :: ts) fs (inFolder path name) = some (remote.take k) ∧
    ∀ t, getDataFile remote t path name (calls remote path name (.stopped k :: ts) fs) =
      (calls remote path name (.stopped k :: ts) fs, false, false) := by
  have e1 := resolve_join path name hn
  have e2 := resolve_slash path name hn hp
  have main : ∀ (ts : List Transfer) (fs : Files) (v : List ℕ), fs (inFolder path name) = some v →
      calls remote path name ts fs (inFolder path name) = some v := by
    intro ts
    induction ts with
    | nil => intro fs v h; exact h
    | cons t ts ih =>
      intro fs v h
      refine ih _ v ?_
      unfold getDataFile
      rw [e1, h]; simp [h]
  have h1 : calls remote path name (.stopped k :: ts) fs (inFolder path name) = some (remote.take k) := by
    refine main ts _ _ ?_
    unfold getDataFile
    rw [e1, h0, e2]
    simp [urlretrieve]
  refine ⟨h1, fun t => ?_⟩
  unfold getDataFile
  rw [e1, h1]
  simp

example : ∃ (remote : List ℕ) (k : ℕ), remote.take k ≠ remote := ⟨[1, 2], 1, by decide⟩

/-! ### Several databases -/

open P3.Run (Folder gathered hasSub merge Sorts mergedName)

theorem tableName_inj {a b : Name} (h : tableName a = tableName b) : a = b := by
  unfold tableName at h
  generalize "keck_psfr_".toList = x at h
  generalize ".csv".toList = y at h
  exact List.append_cancel_left (List.append_cancel_right h)

theorem csv_table (d : Name) : hasSub ".csv".toList (tableName d) = true := by
  simp only [hasSub, decide_eq_true_eq]
  exact ⟨"keck_psfr_".toList ++ d, [], List.append_nil _⟩

theorem merged_name (p : List Char) : hasSub "merged".toList (mergedName p) = true := by
  simp only [hasSub, decide_eq_true_eq]
  refine ⟨p ++ "_psfr_".toList, ".csv".toList, ?_⟩
  unfold mergedName
  rw [List.append_assoc, List.append_assoc]
  rfl

theorem gathered_append (f g : Folder) : gathered (f ++ g) = gathered f ++ gathered g := by
  simp [gathered]

theorem gathered_one (d : Name) (r : List (String × ℕ)) (hm : hasSub "merged".toList (tableName d) = false) :
    gathered [(tableName d, r)] = r := by
  have h1 := csv_table d
  unfold gathered
  rw [List.filter_cons_of_pos (by simp only [h1, hm]; rfl)]
  simp

/-- The rows of the tables of a folder that are not those of the given dates. -/
def others (dates : List Name) (f : Folder) : List (String × ℕ) :=
  gathered (f.filter fun t => t.1 ∉ dates.map tableName)

theorem saveAll_gathered (rows : Name → Option (List (String × ℕ))) (ds : List Name) :
    ∀ (f : Folder), ds.Nodup → (∀ d ∈ ds, hasSub "merged".toList (tableName d) = false) → (∀ d ∈ ds, (rows d).isSome) →
      (saveAll rows ds f).2 = true ∧
      (gathered (saveAll rows ds f).1).Perm (others ds f ++ ds.flatMap fun d => (rows d).getD []) := by
  induction ds with
  | nil =>
    intro f _ _ _
    have : f.filter (fun t => t.1 ∉ ([] : List Name).map tableName) = f := by simp
    simp only [saveAll, others, this, List.flatMap_nil, List.append_nil]
    exact ⟨trivial, List.Perm.refl _⟩
  | cons d ds ih =>
    intro f hnd hm hr
    obtain ⟨r, hrd⟩ := Option.isSome_iff_exists.mp (hr d (List.mem_cons_self ..))
    obtain ⟨hd, hnd'⟩ := List.nodup_cons.mp hnd
    obtain ⟨h1, h2⟩ := ih (save f (tableName d) r) hnd' (fun x hx => hm x (List.mem_cons_of_mem _ hx))
      (fun x hx => hr x (List.mem_cons_of_mem _ hx))
    simp only [saveAll, hrd]
    refine ⟨h1, h2.trans ?_⟩
    have hd' : tableName d ∉ ds.map tableName := by
      intro h
      obtain ⟨e, he, hee⟩ := List.mem_map.mp h
      exact hd (tableName_inj hee ▸ he)
    have e : others ds (save f (tableName d) r) = others (d :: ds) f ++ r := by
      unfold others save
      rw [List.filter_append, gathered_append, List.filter_filter]
      congr 1
      · congr 1
        refine List.filter_congr fun t _ => ?_
        simp only [List.map_cons, List.mem_cons, not_or, Bool.decide_and, ne_eq]
        rw [Bool.and_comm]
      · rw [List.filter_cons_of_pos (by simpa using hd'), List.filter_nil]
        exact gathered_one d r (hm d (List.mem_cons_self ..))
    rw [e, List.flatMap_cons, hrd, Option.getD_some, List.append_assoc]

theorem others_save (dates : List Name) (f : Folder) (d : Name) (hd : d ∈ dates) (r : List (String × ℕ)) :
    others dates (save f (tableName d) r) = others dates f := by
  unfold others save
  have hmem : tableName d ∈ dates.map tableName := List.mem_map_of_mem hd
  rw [List.filter_append, gathered_append, List.filter_filter]
  have h0 : [(tableName d, r)].filter (fun t => decide (t.1 ∉ dates.map tableName)) = [] := by
    rw [List.filter_cons_of_neg (by simpa using hmem), List.filter_nil]
  rw [h0]
  have : gathered [] = [] := rfl
  rw [this, List.append_nil]
  congr 1
  refine List.filter_congr fun t _ => ?_
  by_cases h : t.1 = tableName d
  · simp [h, hmem]
  · simp [h]

theorem others_saveAll (dates : List Name) (rows : Name → Option (List (String × ℕ))) (ds : List Name) :
    ∀ f : Folder, (∀ d ∈ ds, d ∈ dates) → others dates (saveAll rows ds f).1 = others dates f := by
  induction ds with
  | nil => intro f _; rfl
  | cons d ds ih =>
    intro f h
    unfold saveAll
    cases hr : rows d with
    | none => rfl
    | some r =>
      simp only
      rw [ih _ (fun x hx => h x (List.mem_cons_of_mem _ hx)), others_save dates f d (h d (List.mem_cons_self ..))]

theorem gathered_merged (g : Folder) (dates : List Name) (p : List Char) (l : List (String × ℕ)) :
    others dates ((g.filter fun x => x.1 ≠ mergedName p) ++ [(mergedName p, l)]) = others dates g := by
  have hm := merged_name p
  unfold others gathered
  rw [List.filter_append, List.filter_append, List.flatMap_append]
  have h0 : (([(mergedName p, l)].filter fun t => decide (t.1 ∉ dates.map tableName)).filter
      fun t => hasSub ".csv".toList t.1 && !hasSub "merged".toList t.1) = [] := by
    rw [List.filter_eq_nil_iff]
    intro t ht
    have := List.mem_of_mem_filter ht
    simp only [List.mem_singleton] at this
    rw [this]
    simp only [hm, Bool.not_true, Bool.and_false]
    simp
  rw [h0, List.flatMap_nil, List.append_nil, List.filter_filter, List.filter_filter, List.filter_filter]
  congr 1
  refine List.filter_congr fun t _ => ?_
  by_cases h : t.1 = mergedName p
  · simp only [h, hm, Bool.not_true, Bool.and_false, Bool.false_and]
  · simp [h]

theorem others_multiple (dates : List Name) (rows : Name → Option (List (String × ℕ))) (mergeDf : Bool)
    (sorted : List (String × ℕ) → List (String × ℕ)) (f : Folder) :
    others dates (multiple rows dates mergeDf sorted f).2 = others dates f := by
  have h := others_saveAll dates rows dates f (fun _ h => h)
  unfold multiple
  split
  · next g hg => rw [hg] at h; exact h
  · next g hg =>
    rw [hg] at h
    split_ifs
    · split
      · exact h
      · next l k hk =>
        unfold merge at hk
        split at hk
        · cases hk
        · cases hk
          simp only [if_true]
          rw [gathered_merged]
          exact h
    · exact h

/-- C446: with a merge asked and no database failing, the rows returned are those of each database given, once, and
those of the other tables that were in the folder, sorted by date. -/
theorem multiple_rows (rows : Name → Option (List (String × ℕ))) (dates : List Name) (hne : dates ≠ [])
    (hnd : dates.Nodup) (hm : ∀ d ∈ dates, hasSub "merged".toList (tableName d) = false)
    (hr : ∀ d ∈ dates, (rows d).isSome) (sorted : List (String × ℕ) → List (String × ℕ))
    (hs : ∀ l, Sorts l (sorted l)) (f : Folder) :
    ∃ l, (multiple rows dates true sorted f).1 = some (some l) ∧
      l.Perm (others dates f ++ dates.flatMap fun d => (rows d).getD []) ∧ l.Pairwise (fun a b => a.1 ≤ b.1) := by
  obtain ⟨h1, h2⟩ := saveAll_gathered rows dates f hnd hm hr
  unfold multiple
  split
  · next g hg => rw [hg] at h1; cases h1
  · next g hg =>
    rw [hg] at h2
    simp only [if_true]
    have hmem : ∃ r, (tableName (dates.head hne), r) ∈ g := by
      have key : ∀ (ds : List Name) (f : Folder) (n : Name), (∀ d ∈ ds, (rows d).isSome) →
          (n ∈ ds.map tableName ∨ ∃ r, (n, r) ∈ f) → ∃ r, (n, r) ∈ (saveAll rows ds f).1 := by
        intro ds
        induction ds with
        | nil => intro f n _ h; simpa [saveAll] using h
        | cons d ds ih =>
          intro f n hsome h
          obtain ⟨r, hrd⟩ := Option.isSome_iff_exists.mp (hsome d (List.mem_cons_self ..))
          simp only [saveAll, hrd]
          refine ih _ _ (fun x hx => hsome x (List.mem_cons_of_mem _ hx)) ?_
          by_cases hn : n = tableName d
          · exact Or.inr ⟨r, by simp [save, hn]⟩
          · rcases h with h | ⟨r', h⟩
            · simp only [List.map_cons, List.mem_cons] at h
              exact Or.inl (h.resolve_left hn)
            · exact Or.inr ⟨r', by simp [save, h, hn]⟩
      obtain ⟨r, h⟩ := key dates f _ hr (Or.inl (List.mem_map_of_mem (List.head_mem hne)))
      rw [hg] at h
      exact ⟨r, h⟩
    obtain ⟨r, hmem⟩ := hmem
    have hfil : (tableName (dates.head hne), r) ∈ g.filter fun t => hasSub ".csv".toList t.1 && !hasSub "merged".toList t.1 := by
      refine List.mem_filter.mpr ⟨hmem, ?_⟩
      simp only [csv_table, hm _ (List.head_mem hne), Bool.not_false, Bool.and_true]
    unfold merge
    split
    · next hmg =>
      split at hmg
      · next hnil => rw [hnil] at hfil; cases hfil
      · cases hmg
    · next l k hmg =>
      split at hmg
      · cases hmg
      · cases hmg
        exact ⟨_, rfl, (hs _).1.trans h2, (hs _).2⟩

/-- C446: a database that fails ends the run: the tables of the dates before it are saved, nothing else is, and no
table is merged. -/
theorem multiple_failure (rows : Name → Option (List (String × ℕ))) (pre post : List Name) (d : Name)
    (hpre : ∀ x ∈ pre, (rows x).isSome) (hd : rows d = none) (mergeDf : Bool)
    (sorted : List (String × ℕ) → List (String × ℕ)) (f : Folder) :
    multiple rows (pre ++ d :: post) mergeDf sorted f =
      (none, pre.foldl (fun g x => save g (tableName x) ((rows x).getD [])) f) := by
  have key : ∀ (pre : List Name) (f : Folder), (∀ x ∈ pre, (rows x).isSome) → saveAll rows (pre ++ d :: post) f =
      (pre.foldl (fun g x => save g (tableName x) ((rows x).getD [])) f, false) := by
    intro pre
    induction pre with
    | nil => intro f _; simp [saveAll, hd]
    | cons x pre ih =>
      intro f h
      obtain ⟨r, hr⟩ := Option.isSome_iff_exists.mp (h x (List.mem_cons_self ..))
      simp only [List.cons_append, saveAll, hr, List.foldl_cons, Option.getD_some]
      exact ih _ (fun y hy => h y (List.mem_cons_of_mem _ hy))
  unfold multiple
  rw [key pre f hpre]

/-- C446: whatever runs were made before in the folder, for the same dates, failed or not, a run that goes to its end
returns the rows it would have returned without them. -/
theorem multiple_again (attempts : List (Name → Option (List (String × ℕ)))) (rows : Name → Option (List (String × ℕ)))
    (dates : List Name) (hne : dates ≠ []) (hnd : dates.Nodup)
    (hm : ∀ d ∈ dates, hasSub "merged".toList (tableName d) = false) (hr : ∀ d ∈ dates, (rows d).isSome)
    (sorted : List (String × ℕ) → List (String × ℕ)) (hs : ∀ l, Sorts l (sorted l)) (mergeDf : Bool) (f : Folder) :
    ∃ l l', (multiple rows dates true sorted f).1 = some (some l) ∧
      (multiple rows dates true sorted (attempts.foldl (fun g a => (multiple a dates mergeDf sorted g).2) f)).1 = some (some l') ∧
      l'.Perm l := by
  obtain ⟨l, h1, h2, -⟩ := multiple_rows rows dates hne hnd hm hr sorted hs f
  have e : ∀ (as : List (Name → Option (List (String × ℕ)))) (f : Folder),
      others dates (as.foldl (fun g a => (multiple a dates mergeDf sorted g).2) f) = others dates f := by
    intro as
    induction as with
    | nil => intro f; rfl
    | cons a as ih => intro f; rw [List.foldl_cons, ih, others_multiple]
  obtain ⟨l', h3, h4, -⟩ := multiple_rows rows dates hne hnd hm hr sorted hs
    (attempts.foldl (fun g a => (multiple a dates mergeDf sorted g).2) f)
  refine ⟨l, l', h1, h3, h4.trans ?_⟩
  rw [e]
  exact h2.symm

example : let dates := ["20130203".toList, "20130801".toList]
    dates ≠ [] ∧ dates.Nodup ∧ (∀ d ∈ dates, hasSub "merged".toList (tableName d) = false) ∧
    ∃ sorted : List (String × ℕ) → List (String × ℕ), ∀ l, Sorts l (sorted l) := by
  refine ⟨by decide, by decide, by decide, fun l => l.mergeSort (fun a b => decide (a.1 ≤ b.1)), fun l => ⟨List.mergeSort_perm _ _, ?_⟩⟩
  have := List.pairwise_mergeSort (le := fun a b : String × ℕ => decide (a.1 ≤ b.1))
    (fun a b c h1 h2 => by simp only [decide_eq_true_eq] at *; exact String.le_trans h1 h2)
    (fun a b => by simp only [Bool.or_eq_true, decide_eq_true_eq]; exact String.le_total _ _) l
  exact this.imp (by intro a b h; simpa using h)

theorem isName_table (d : Name) (hd : '/' ∉ d) : IsName (tableName d) := by
  have h1 : '/' ∉ "keck_psfr_".toList := by decide
  have h2 : '/' ∉ ".csv".toList := by decide
  have h3 : "keck_psfr_".toList ≠ [] := by decide
  unfold tableName
  generalize "keck_psfr_".toList = a at *
  generalize ".csv".toList = b at *
  refine ⟨fun h => h3 (List.append_eq_nil_iff.mp (List.append_eq_nil_iff.mp h).1).1, ?_⟩
  simp only [List.mem_append, not_or]
  exact ⟨⟨h1, hd⟩, h2⟩

/-- C448 (partial): a folder given with its separator: the tables are saved in it. -/
theorem saved_partial (path : Name) (d : Name) (hd : '/' ∉ d) (hp : path.getLast? = some '/') :
    resolve (path ++ tableName d) = inFolder path (tableName d) := resolve_slash path _ (isName_table d hd) hp

/-- C448 (violation): a folder given without its separator: the tables are saved next to it, not in it. -/
theorem saved_violation (path : Name) (d : Name) (hd : '/' ∉ d) (hp : path.getLast? ≠ some '/') :
    resolve (path ++ tableName d) ≠ inFolder path (tableName d) :=
  fun h => hp ((glued_iff path _ (isName_table d hd)).mp h)

example : '/' ∉ "20130801".toList ∧ ("results/".toList).getLast? = some '/' ∧ ("results".toList).getLast? ≠ some '/' := by
  refine ⟨by decide, by decide, by decide⟩

end P3.Download
