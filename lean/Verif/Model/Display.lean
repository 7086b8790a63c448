import Verif.Model.Images
/-
Numbers and labels of the figures of a simulation: `displayResults` and `displayPsfMetricsContours`, fourierModel.py:2053-2211.
Matplotlib is not modelled: a figure is the numbers given to it and the numbers written in its title.
-/
namespace P3.Display

/-- The value at `R` (mas) read in a curve of energies sampled every `ps` mas, fourierModel.py:2115-2119, 2128-2132, 2178-2182 and
2194-2198 (`R` non-negative: `int` is then the floor); `none` is the `IndexError`. -/
noncomputable def shown (ee : List ℝ) (ps R : ℝ) : Option ℝ :=
  let n := ⌊R / ps⌋₊
  match ee[n]?, ee[n + 1]? with
  | some lo, some hi => some ((R / ps - n) * hi + (n + 1 - R / ps) * lo)
  | _, _ => none

/-- What is drawn for the ensquared energies: the length in the title and the value of a source. -/
structure Square where
  side : ℝ
  value : ℝ

/-- `displayResults`, fourierModel.py:2114-2125: the title has the side `eeRadiusInMas`. -/
noncomputable def squareSimple (ee : List ℝ) (ps : List ℝ) (R : ℝ) : Option Square :=
  match ps[0]? with
  | some p => (shown ee p R).map fun v => ⟨R, v⟩
  | none => none

/-- `displayPsfMetricsContours`, fourierModel.py:2177-2191: the title has the side `2*eeRadiusInMas`, and the pixel is that of the
first wavelength whatever the wavelength shown; `ee` is the curve of wavelength `j`. -/
noncomputable def squareContour (ee : List ℝ) (ps : List ℝ) (_j : ℕ) (R : ℝ) : Option Square :=
  match ps[0]? with
  | some p => (shown ee p R).map fun v => ⟨R * 2, v⟩
  | none => none

/-- The encircled energy of the contours, fourierModel.py:2193-2207, with the pixel of wavelength `j`; the title has a diameter. -/
noncomputable def circleContour (ee : List ℝ) (ps : List ℝ) (j : ℕ) (R : ℝ) : Option Square :=
  match ps[j]? with
  | some p => (shown ee p R).map fun v => ⟨R * 2, v⟩
  | none => none

/-- `argmin` of numpy: index of the first smallest element. -/
noncomputable def argmin : List ℝ → ℕ
  | [] => 0
  | [_] => 0
  | x :: y :: l => if x ≤ (y :: l).getD (argmin (y :: l)) 0 then 0 else argmin (y :: l) + 1

/-- `argmax` of numpy: index of the first largest element. -/
noncomputable def argmax (l : List ℝ) : ℕ := argmin (l.map (- ·))

/-- The two images of the figure of the PSFs and the two angles of its title, fourierModel.py:2074-2090, with several sources. -/
structure Pair where
  left : ℕ
  right : ℕ
  leftAngle : ℝ
  rightAngle : ℝ

/-- fourierModel.py:2074-2090: with one wavelength the title has the angles of the images, with several those of the first and the
last source. -/
noncomputable def pair (zenith : List ℝ) (nWvl : ℕ) : Pair :=
  if nWvl = 1 then ⟨argmin zenith, argmax zenith, zenith.getD (argmin zenith) 0, zenith.getD (argmax zenith) 0⟩
  else ⟨argmin zenith, argmax zenith, zenith.getD 0 0, zenith.getD (zenith.length - 1) 0⟩

/-- Whether the contours are drawn, fourierModel.py:2150-2152: the number of sources is a square (`int(np.sqrt(n))`, exact for the
numbers of sources in use). -/
def drawn (nSrc : ℕ) : Bool := Nat.sqrt nSrc ^ 2 == nSrc

/-- Position in the grid of source `k` (`np.reshape(·, (nn, nn))`, fourierModel.py:2154-2158): row and column. -/
def cell (nSrc k : ℕ) : ℕ × ℕ := (k / Nat.sqrt nSrc, k % Nat.sqrt nSrc)

end P3.Display
