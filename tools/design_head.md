# Design

Formal model of astro-tiptop/P3 (Python, `/repo/p3`) in Lean 4 + Mathlib.
(This file is generated by `tools/design.py`; the plan per property was written before the proofs.)

## Approach

* P3 is a numerical Python package. Index, shape, configuration and list-processing code is modelled
  by total computable functions over `List`, `Nat`, `Int`; Python exceptions are values
  (`Except`, or `Option` where only failure matters), Python slices, negative indices, broadcasting and aliasing are
  modelled where they matter.
* Numerical code is modelled over exact real/complex numbers (Mathlib `ℝ`, `ℂ`), pixel by pixel or frequency by
  frequency when the code works element-wise, and with matrices where it uses linear algebra.
* Where the code violates a property we prove the negation on a concrete witness, or the exact condition under which it
  holds, and a `_partial` theorem under the guard that excludes the failing case.
* A property whose statement had a true and a false part was split: the true part keeps its number, the false one is a
  separate property (C124 to C156 and C253 to C311, C313, C315, C320, C323, C326, C327, C330, C331, C333, C335, C337, C342, C344, C345,
  C346, C348, C350, C351, C352, C355, C356, C359, C361,
  C362, C364, C367, C370, C375, C377, C378, C380, C381,
  C382, C386, C387, C388, C390, C391, C392, C394, C398, C400, C402, C403, C404, C406, C407, C409, C410, C411, C412, C413, C414, C415, C417, C419, C420, C422, C424, C425, C428, C431, C433, C434, C438, C439, C440, C441, C442, C443, C444, C445, C448, C449, C450, C456, C462, C466, C467, C468, C469, C470, C471, C472, C475, C478, C480, C481, C482, C485, C488, C489, C490, C492, C495, C498).

## Layout

* `lean/Verif/Model/*.lean` — the model; each definition cites the file and lines it models and its simplifications.
* `lean/Verif/Spec/*.lean` — specifications that do not use the model (most properties are stated directly in the
  theorem with standard Mathlib notions instead).
* `lean/Verif/Lemmas/*.lean` — general mathematics (discrete Fourier transform, positive semi-definite matrices).
* `lean/Verif/Props/*.lean` — the theorems, with the property number in the comment, helper lemmas, and examples that
  meet the hypotheses.
* `seeded/` — wrong programs: `run.py` applies an edit to a copy of the model and rebuilds; `LOG.jsonl` has one line
  per attempt.
* `tools/` — generators of `properties.jsonl`, `MANIFEST.json` (which checks the names) and this file.

## Trusted base

* Lean 4.33.0's kernel (the theorems are replayed by `vcheck`), and Mathlib's definitions of reals, complex numbers,
  matrices, sums and integrals.
* Axioms: every theorem of the manifest depends on a subset of `propext`, `Classical.choice`, `Quot.sound`
  (checked with `#print axioms`). No other axiom, no `native_decide`, no `bv_decide`.
* The reading of the code: the model was written by hand from the source, and is not extracted from it. The tie is the
  citation on each definition.
* Python/numpy semantics as modelled: list and slice indexing, broadcasting, truncation of integers, in-place
  operators, dictionary order, `None`. Assumptions on libraries appear as parameters or hypotheses: the optimiser of a
  fit answers within the bounds it is given, `scipy` interpolants go through their samples, `numpy.linalg.pinv` is the
  Moore-Penrose inverse, singular value decompositions satisfy their equations.

## What is modelled

| source | modelled | not modelled |
|---|---|---|
| `aoSystem/__init__.py` | path resolution | import-time detection of GPUs |
| `aoSystem/aoSystem.py` | reading and validation of the parameter file, field of view, modes, positions, error breakdown | messages printed, `__repr__` |
| `aoSystem/source.py, detector.py, rtc.py, sensor.py, deformableMirror.py` | constructors, noise variance, index conversion, which descriptions can be printed, steps of the influence functions up to their exception | |
| `aoSystem/atmosphere.py` | all computations (modified Bessel function as a parameter) | `__repr__` |
| `aoSystem/telescope.py, spiders.py, pupil.py, segment.py` | default pupil, static aberrations, segments, spiders, petals, histories of a pupil, choice and size of the maps read from files | contents of FITS files, `scipy.ndimage.rotate` (a parameter), display |
| `aoSystem/zernike.py` | indices, polynomials, maps, projections | display |
| `aoSystem/airRefraction.py` | both models with their tables | |
| `aoSystem/anisoplanatismModel.py` | variances, spectra, the state machine of the guide star, structure functions as sums | numerical quadratures |
| `aoSystem/frequencyDomain.py` | grids, masks, sizes, steps | GPU copies |
| `aoSystem/FourierUtils.py` | binning, cropping, normalisation, PSF sampling, OTFs, energies, metrics, parameter decoding, Bessel sums, radial profiles, PSD to OTF to PSF, layer compression, dead pixels, memory estimates | fits of Gaussians and Moffats, the tracing of contours (matplotlib; FWHM from a given contour is modelled), FFT (its mathematical definition is used) |
| `aoSystem/fourierModel.py` | controllers, all PSD terms, tomography, projection, PSDs to PSFs, memory, numbers and titles of the figures | drawing itself, timing |
| `psfFitting/*` | parameter masks, bounds, fit driver, image model, quality, confidence intervals, field fit, tiling, interpolation, the whole calibration of a field | the optimiser |
| `psfao21/psfao21.py` | construction, bounds, structure function, shapes, reported errors | the PSD of the `maoppy` package |
| `psfr/*` | structure functions (fitting, aliasing, servo-lag, noise), modal and zonal OTFs, breakdown, batch runs over data bases | reading telemetry |
| `telemetry/*` | dates, seeing tables, noise, transfer functions, parameter files, headers, downloads of seeing measurements, filters, SPHERE data sets, diagnosis of the loop (noise, photons, seeing from telemetry) | file formats, plots |
| `deepLoop/*` | test data, parameter values, verification, metrics | drawing, running of the networks |
| `aoSystem/createSegmentedModes.py` | modes at high and low resolution | files |
| `aoSystem/defineAoSystem.py` | — | dead code: imported by nothing |
| tests, demos | — | batch scripts around the modelled API |

Floating-point rounding is modelled in `Model/Machine.lean` only (C426-C436): every operation returns a closest number with `p` significant
bits, for any `p`, any choice at ties and an unbounded exponent; the violations there are computed for 53 bits. All other modules compute
with reals.

Everywhere: overflow, underflow, NaN propagation beyond what is noted, GPU (cupy) execution, printing, plotting and
file formats are outside the model.
