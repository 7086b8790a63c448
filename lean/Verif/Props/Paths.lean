import Verif.Model.Paths
import Mathlib.Tactic.Common
/-
C01. Configuration paths resolve with a fixed priority.
-/
namespace P3.Paths

/-- `path` is `k` slashes followed by `rest`, and `rest` does not begin with a slash
(so `rest` is the name with its leading slashes removed). -/
def SlashSplit (path : Str) (k : Nat) (rest : Str) : Prop :=
  path = List.replicate k '/' ++ rest ∧ rest.head? ≠ some '/'

private theorem lstrip_split {path : Str} {k : Nat} {rest : Str} (h : SlashSplit path k rest) :
    lstripSlash path = rest := by
  obtain ⟨rfl, h⟩ := h
  unfold lstripSlash
  induction k with
  | zero =>
    cases rest with
    | nil => rfl
    | cons c cs => simp at h; simp [h]
  | succ n ih => simpa [List.replicate_succ] using ih

/-- Every path splits uniquely into leading slashes and the rest. -/
theorem slashSplit_exists (path : Str) : ∃ k rest, SlashSplit path k rest := by
  induction path with
  | nil => exact ⟨0, [], by simp [SlashSplit]⟩
  | cons c cs ih =>
    by_cases hc : c = '/'
    · obtain ⟨k, rest, h1, h2⟩ := ih
      exact ⟨k + 1, rest, by simp [hc, h1, List.replicate_succ], h2⟩
    · exact ⟨0, c :: cs, by simp [SlashSplit, hc]⟩

private theorem isPrefixOf_false {p l : Str} (h : ¬ p <+: l) : p.isPrefixOf l = false := by
  cases hb : p.isPrefixOf l with
  | false => rfl
  | true => exact absurd (List.isPrefixOf_iff_prefix.mp hb) h

variable (isfile : Str → Bool) (path root p3 : Str) (tiptop : Option Str)

/-- C01: the empty path resolves to the empty path, whatever the file system. -/
theorem resolve_empty : resolve isfile [] root p3 tiptop = [] := by simp [resolve]

/-- C01: a non-empty `path_root` under which the file exists always wins. -/
theorem resolve_root_priority (hp : path ≠ []) (hr : root ≠ [])
    (hf : isfile (join root path) = true) :
    resolve isfile path root p3 tiptop = join root path := by
  simp [resolve, hp, hr, hf]

example : resolve (fun p => p == "/data/aoSystem/x.fits".toList) "aoSystem/x.fits".toList
    "/data".toList "/p3".toList none = "/data/aoSystem/x.fits".toList := by decide

/-- C01: otherwise, a name that starts with `aoSystem` once its leading slashes are removed
is looked up under the P3 installation, whether or not the file exists there. -/
theorem resolve_p3 {k : Nat} {rest : Str} (hs : SlashSplit path k rest)
    (ha : "aoSystem".toList <+: rest)
    (hroot : root = [] ∨ isfile (join root path) = false) :
    resolve isfile path root p3 tiptop = join p3 rest := by
  have hne : path ≠ [] := by
    rintro rfl
    obtain ⟨h1, -⟩ := hs
    have : rest = [] := by simp at h1; exact h1.2
    subst this
    simp at ha
  have hnr : ¬ (root ≠ [] ∧ isfile (join root path) = true) := by
    rcases hroot with h | h <;> simp [h]
  unfold resolve
  rw [if_neg hne, if_neg hnr, lstrip_split hs]
  simp only [if_pos (List.isPrefixOf_iff_prefix.mpr ha)]

example : resolve (fun _ => false) "//aoSystem/data/x.fits".toList [] "/p3".toList none
    = "/p3/aoSystem/data/x.fits".toList := by decide

/-- C01: otherwise, when a TIPTOP installation is known, a name that starts with `tiptop` once its
leading slashes are removed is looked up there. -/
theorem resolve_tiptop {k : Nat} {rest t : Str} (hs : SlashSplit path k rest)
    (htt : tiptop = some t) (ht : t ≠ []) (ha : "tiptop".toList <+: rest)
    (hroot : root = [] ∨ isfile (join root path) = false) :
    resolve isfile path root p3 tiptop = join t rest := by
  have hne : path ≠ [] := by
    rintro rfl
    obtain ⟨h1, -⟩ := hs
    have : rest = [] := by simp at h1; exact h1.2
    subst this
    simp at ha
  have hnr : ¬ (root ≠ [] ∧ isfile (join root path) = true) := by
    rcases hroot with h | h <;> simp [h]
  have hna : ¬ "aoSystem".toList <+: rest := by
    intro h
    rcases List.prefix_or_prefix_of_prefix h ha with h | h <;> revert h <;> decide
  unfold resolve
  rw [if_neg hne, if_neg hnr, lstrip_split hs]
  have ha' : ("tiptop".toList.isPrefixOf rest) = true := List.isPrefixOf_iff_prefix.mpr ha
  simp only [isPrefixOf_false hna, htt, Option.getD_some, ha']
  simp only [ne_eq, ht, not_false_eq_true, and_self, if_true, Bool.false_eq_true, if_false]

example : resolve (fun _ => true) "/tiptop/perfTest/a.ini".toList [] "/p3".toList
    (some "/tt".toList) = "/tt/tiptop/perfTest/a.ini".toList := by decide

/-- The path is claimed neither by `path_root`, nor by the P3 nor the TIPTOP installation. -/
structure Unclaimed (rest : Str) : Prop where
  nonempty : path ≠ []
  noRoot : root = [] ∨ isfile (join root path) = false
  notP3 : ¬ "aoSystem".toList <+: rest
  notTiptop : tiptop = none ∨ tiptop = some [] ∨ ¬ "tiptop".toList <+: rest

private theorem resolve_unclaimed {k : Nat} {rest : Str} (hs : SlashSplit path k rest)
    (hu : Unclaimed isfile path root tiptop rest) :
    resolve isfile path root p3 tiptop =
      if isfile path then path
      else if path.head? = some '/' ∧ rest ≠ path ∧ isfile (join p3 rest) = true then
        join p3 rest
      else path := by
  obtain ⟨hne, hroot, hna, htt⟩ := hu
  have hnr : ¬ (root ≠ [] ∧ isfile (join root path) = true) := by
    rcases hroot with h | h <;> simp [h]
  have htt' : ¬ ((tiptop.getD []) ≠ [] ∧ "tiptop".toList.isPrefixOf rest = true) := by
    rcases htt with h | h | h
    · simp [h]
    · simp [h]
    · intro h2; exact h (List.isPrefixOf_iff_prefix.mp h2.2)
  unfold resolve
  rw [if_neg hne, if_neg hnr, lstrip_split hs]
  simp only [isPrefixOf_false hna, if_neg htt']
  simp

/-- C01: an unclaimed path that is a file is used as it is. -/
theorem resolve_asIs {k : Nat} {rest : Str} (hs : SlashSplit path k rest)
    (hu : Unclaimed isfile path root tiptop rest) (hf : isfile path = true) :
    resolve isfile path root p3 tiptop = path := by
  rw [resolve_unclaimed isfile path root p3 tiptop hs hu, if_pos hf]

/-- C01: an unclaimed path that is not a file but starts with at least one slash is looked up
without its leading slashes under P3, and used if it is a file there. -/
theorem resolve_lastResort {k : Nat} {rest : Str} (hs : SlashSplit path (k + 1) rest)
    (hu : Unclaimed isfile path root tiptop rest) (hf : isfile path = false)
    (hp3 : isfile (join p3 rest) = true) :
    resolve isfile path root p3 tiptop = join p3 rest := by
  have h1 : path.head? = some '/' := by simp [hs.1, List.replicate_succ]
  have h2 : rest ≠ path := by
    intro h; exact hs.2 (h ▸ h1)
  rw [resolve_unclaimed isfile path root p3 tiptop hs hu]
  simp [hf, h1, h2, hp3]

/-- C01: in all remaining cases the path is returned unchanged. -/
theorem resolve_default {k : Nat} {rest : Str} (hs : SlashSplit path k rest)
    (hu : Unclaimed isfile path root tiptop rest) (_hf : isfile path = false)
    (hp3 : k = 0 ∨ isfile (join p3 rest) = false) :
    resolve isfile path root p3 tiptop = path := by
  rw [resolve_unclaimed isfile path root p3 tiptop hs hu]
  rcases hp3 with h | h
  · have hh := hs.2
    have h1 := hs.1
    simp [h] at h1
    subst h1
    simp [hh]
  · simp [h]

example : ∃ k rest, SlashSplit "/keck/pup.fits".toList (k + 1) rest ∧
    Unclaimed (fun p => p == "/p3/keck/pup.fits".toList) "/keck/pup.fits".toList [] none rest ∧
    resolve (fun p => p == "/p3/keck/pup.fits".toList) "/keck/pup.fits".toList [] "/p3".toList none
      = "/p3/keck/pup.fits".toList :=
  ⟨0, "keck/pup.fits".toList, by unfold SlashSplit; decide,
    ⟨by decide, Or.inl rfl, by decide, Or.inl rfl⟩, by decide⟩

example : Unclaimed (fun _ => true) "pup.fits".toList [] none "pup.fits".toList ∧
    SlashSplit "pup.fits".toList 0 "pup.fits".toList :=
  ⟨⟨by decide, Or.inl rfl, by decide, Or.inl rfl⟩, by unfold SlashSplit; decide⟩

/-- C01: no other path is ever produced. -/
theorem resolve_range {k : Nat} {rest : Str} (hs : SlashSplit path k rest) :
    resolve isfile path root p3 tiptop ∈
      [path, join root path, join p3 rest, join (tiptop.getD []) rest] := by
  have h := lstrip_split hs
  unfold resolve
  rw [h]
  by_cases hp : path = []
  · simp [hp]
  · simp only [hp, if_false]
    repeat' split
    all_goals simp

/-- C01: a non-empty path never resolves to the empty string (given that the empty string
is not a file, as for `os.path.isfile`). -/
theorem resolve_eq_nil_iff (h0 : isfile [] = false) :
    resolve isfile path root p3 tiptop = [] ↔ path = [] := by
  have hj : ∀ a b : Str, join a b = [] → b = [] := by
    intro a b; unfold join; split_ifs <;> simp
  constructor
  · intro h
    by_contra hp
    unfold resolve at h
    simp only [hp, if_false] at h
    split_ifs at h with h1 h2 h3 h4 h5
    · exact hp (hj _ _ h)
    · have := hj _ _ h; rw [this] at h2; simp at h2
    · have := hj _ _ h; rw [this] at h3; simp at h3
    · exact hp h
    · rw [h] at h5; simp [h0] at h5
    · exact hp h
  · rintro rfl; simp [resolve]

/-- C01: the result depends on the file system only through the three candidate files. -/
theorem resolve_congr {isfile' : Str → Bool} {k : Nat} {rest : Str} (hs : SlashSplit path k rest)
    (h1 : isfile (join root path) = isfile' (join root path))
    (h2 : isfile path = isfile' path)
    (h3 : isfile (join p3 rest) = isfile' (join p3 rest)) :
    resolve isfile path root p3 tiptop = resolve isfile' path root p3 tiptop := by
  have h := lstrip_split hs
  unfold resolve
  rw [h, h1, h2]
  simp only [h3]

/-- C01 (`os.path.join`): a relative name is placed below the root directory. -/
theorem join_relative {a b : Str} (hb : b.head? ≠ some '/') (ha : a ≠ [])
    (hl : a.getLast? ≠ some '/') : join a b = a ++ ['/'] ++ b := by
  simp [join, hb, ha, hl]

/-- C01 (`os.path.join`): an absolute name ignores the root directory. -/
theorem join_absolute {a b : Str} (hb : b.head? = some '/') : join a b = b := by
  simp [join, hb]

/-- C01 (`os.path.join`): a root directory written with a trailing slash is the same directory: the name is
put right after the slash, and no second slash appears. -/
theorem join_trailing {a b : Str} (hb : b.head? ≠ some '/') : join (a ++ ['/']) b = a ++ ['/'] ++ b := by
  simp [join, hb]

/-- C01 (`os.path.join`): an empty root directory leaves the name as it is. -/
theorem join_empty (b : Str) : join [] b = b := by
  unfold join; split_ifs <;> simp_all

example : join "root/".toList "a.ini".toList = join "root".toList "a.ini".toList := by decide

/-! ### Cases that meet the hypotheses -/

/-- A case meeting the hypotheses of `resolve_tiptop`. -/
example : resolve (fun _ => true) "//tiptop/perfTest/a.ini".toList [] "/p3".toList (some "/tt".toList) = join "/tt".toList "tiptop/perfTest/a.ini".toList :=
  resolve_tiptop _ _ _ _ _ (k := 2) (rest := "tiptop/perfTest/a.ini".toList) (by unfold SlashSplit; decide) rfl (by decide) (by decide) (Or.inl rfl)

/-! ### Cases that meet the hypotheses -/

/-- A case meeting the hypotheses of `resolve_root_priority`. -/
example : resolve (fun _ => true) "a.ini".toList "/data".toList "/p3".toList "/tip".toList = join "/data".toList "a.ini".toList :=
  resolve_root_priority _ _ _ _ _ (by decide) (by decide) rfl

/-- A case meeting the hypotheses of `resolve_congr`. -/
example : SlashSplit "//aoSystem/parFiles/x.ini".toList 2 "aoSystem/parFiles/x.ini".toList := by
  refine ⟨by decide, by decide⟩

end P3.Paths
