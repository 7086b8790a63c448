import Verif.Model.Metrics
import Verif.Model.SegModes
import Mathlib.Data.Nat.Find

/-! Model of the resizing of an image by linear interpolation, `interpolateSupport(image, n_out, kind='linear')`
(p3/aoSystem/FourierUtils.py 727-795), with the interpolant of scipy written out, and of the segmented modes at low resolution
(p3/aoSystem/createSegmentedModes.py 33-51). Also the nearest pixel, `kind='nearest'`. Arithmetic is exact. -/

namespace P3.Resize

/-- A spline of degree one through `f k` at `xs[k]`, as scipy evaluates `RectBivariateSpline(..., kx=1, ky=1)` along an axis
(FourierUtils.py 785 and 793): the abscissa is first brought into the range of the samples, then the last interval that starts at or below
it is used. At least two samples. -/
noncomputable def along (xs : List ℝ) (f : ℕ → ℝ) (t : ℝ) : ℝ :=
  open Classical in
  let s := max (xs.getD 0 0) (min t (xs.getD (xs.length - 1) 0))
  let k := Nat.findGreatest (fun k => xs.getD k 0 ≤ s) (xs.length - 2)
  f k + (s - xs.getD k 0) / (xs.getD (k + 1) 0 - xs.getD k 0) * (f (k + 1) - f k)

/-- `fun_real(x, y)` of the samples `im[i, j]` at `(xs[i], ys[j])`, FourierUtils.py 785 and 795. -/
noncomputable def surface (xs ys : List ℝ) (im : Img ℝ) (x y : ℝ) : ℝ := along xs (fun i => along ys (fun j => im.px i j) y) x

/-- `interpolateSupport(image, (mx, my), kind='linear')` of a real image, FourierUtils.py 727-795. scipy refuses fewer than two samples
along an axis (`none`), after the test of the shape (741). -/
noncomputable def resize (im : Img ℝ) (mx my : ℕ) : Option (Img ℝ) :=
  if ¬ (im.nx = mx ∧ im.ny = my) ∧ (im.nx < 2 ∨ im.ny < 2) then none else (Metrics.interpolate surface false im mx my).toOption

/-- `mode_lr[i]`, createSegmentedModes.py 34 and 49: the sum over the segments of the angles resized. `n` pixels across at high
resolution, `m` at low; `none` if an image cannot be resized. -/
noncomputable def lowRes (n m : ℕ) {s : ℕ} (lit : Fin n × Fin n → Bool) (seg : Fin s → Fin n × Fin n → Bool) (z : Fin n × Fin n → ℝ) :
    Option (ℕ → ℕ → ℝ) :=
  let angle (j : Fin s) : Img ℝ := ⟨n, n, fun a b =>
    if h : a < n ∧ b < n then (SegModes.piston lit (seg j) (SegModes.value lit (seg j) z) (⟨a, h.1⟩, ⟨b, h.2⟩)).arg else 0⟩
  ((List.finRange s).mapM fun j => resize (angle j) m m).map fun l a b => (l.map fun im => im.px a b).sum

/-- Pixel used by `scnd.zoom(..., order=0)` for pixel `i` of `m` from `n`, FourierUtils.py 746-747: the first and last pixels of both arrays
are matched (a single new pixel takes the first), and the nearest position is used, the next one for a tie. -/
noncomputable def zoomPos (n m i : ℕ) : ℕ := ⌊(i : ℝ) * (if m = 1 then 1 else ((n : ℝ) - 1) / ((m : ℝ) - 1)) + 1 / 2⌋₊

/-- `interpolateSupport(image, (mx, my), kind='nearest')` of a real image of at least one pixel, FourierUtils.py 741-751. -/
noncomputable def nearest (im : Img ℝ) (mx my : ℕ) : Img ℝ :=
  if im.nx = mx ∧ im.ny = my then im else ⟨mx, my, fun i j => im.px (zoomPos im.nx mx i) (zoomPos im.ny my j)⟩

end P3.Resize
