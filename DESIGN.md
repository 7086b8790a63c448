# Design

Formal model of astro-tiptop/P3 (Python, `/repo/p3`) in Lean 4 + Mathlib.
(This file is generated by `tools/design.py`; the plan per property was written before the proofs.)

## Approach

* P3 is a numerical Python package. Index, shape, configuration and list-processing code is modelled
  by total computable functions over `List`, `Nat`, `Int`; Python exceptions are values
  (`Except`, or `Option` where only failure matters), Python slices, negative indices, broadcasting and aliasing are
  modelled where they matter.
* Numerical code is modelled over exact real/complex numbers (Mathlib `ℝ`, `ℂ`), pixel by pixel or frequency by
  frequency when the code works element-wise, and with matrices where it uses linear algebra.
* Where the code violates a property we prove the negation on a concrete witness, or the exact condition under which it
  holds, and a `_partial` theorem under the guard that excludes the failing case.
* A property whose statement had a true and a false part was split: the true part keeps its number, the false one is a
  separate property (C124 to C156 and C253 to C311, C313, C315, C320, C323, C326, C327, C330, C331, C333, C335, C337, C342, C344, C345,
  C346, C348, C350, C351, C352, C355, C356, C359, C361,
  C362, C364, C367, C370, C375, C377, C378, C380, C381,
  C382, C386, C387, C388, C390, C391, C392, C394, C398, C400, C402, C403, C404, C406, C407, C409, C410, C411, C412, C413, C414, C415, C417, C419, C420, C422, C424, C425, C428, C431, C433, C434, C438, C439, C440, C441, C442, C443, C444, C445, C448, C449, C450, C456, C462, C466, C467, C468, C469, C470, C471, C472, C475, C478, C480, C481, C482, C485, C488, C489, C490, C492, C495, C498).

## Layout

* `lean/Verif/Model/*.lean` — the model; each definition cites the file and lines it models and its simplifications.
* `lean/Verif/Spec/*.lean` — specifications that do not use the model (most properties are stated directly in the
  theorem with standard Mathlib notions instead).
* `lean/Verif/Lemmas/*.lean` — general mathematics (discrete Fourier transform, positive semi-definite matrices).
* `lean/Verif/Props/*.lean` — the theorems, with the property number in the comment, helper lemmas, and examples that
  meet the hypotheses.
* `seeded/` — wrong programs: `run.py` applies an edit to a copy of the model and rebuilds; `LOG.jsonl` has one line
  per attempt.
* `tools/` — generators of `properties.jsonl`, `MANIFEST.json` (which checks the names) and this file.

## Trusted base

* Lean 4.33.0's kernel (the theorems are replayed by `vcheck`), and Mathlib's definitions of reals, complex numbers,
  matrices, sums and integrals.
* Axioms: every theorem of the manifest depends on a subset of `propext`, `Classical.choice`, `Quot.sound`
  (checked with `#print axioms`). No other axiom, no `native_decide`, no `bv_decide`.
* The reading of the code: the model was written by hand from the source, and is not extracted from it. The tie is the
  citation on each definition.
* Python/numpy semantics as modelled: list and slice indexing, broadcasting, truncation of integers, in-place
  operators, dictionary order, `None`. Assumptions on libraries appear as parameters or hypotheses: the optimiser of a
  fit answers within the bounds it is given, `scipy` interpolants go through their samples, `numpy.linalg.pinv` is the
  Moore-Penrose inverse, singular value decompositions satisfy their equations.

## What is modelled

| source | modelled | not modelled |
|---|---|---|
| `aoSystem/__init__.py` | path resolution | import-time detection of GPUs |
| `aoSystem/aoSystem.py` | reading and validation of the parameter file, field of view, modes, positions, error breakdown | messages printed, `__repr__` |
| `aoSystem/source.py, detector.py, rtc.py, sensor.py, deformableMirror.py` | constructors, noise variance, index conversion, which descriptions can be printed, steps of the influence functions up to their exception | |
| `aoSystem/atmosphere.py` | all computations (modified Bessel function as a parameter) | `__repr__` |
| `aoSystem/telescope.py, spiders.py, pupil.py, segment.py` | default pupil, static aberrations, segments, spiders, petals, histories of a pupil, choice and size of the maps read from files | contents of FITS files, `scipy.ndimage.rotate` (a parameter), display |
| `aoSystem/zernike.py` | indices, polynomials, maps, projections | display |
| `aoSystem/airRefraction.py` | both models with their tables | |
| `aoSystem/anisoplanatismModel.py` | variances, spectra, the state machine of the guide star, structure functions as sums | numerical quadratures |
| `aoSystem/frequencyDomain.py` | grids, masks, sizes, steps | GPU copies |
| `aoSystem/FourierUtils.py` | binning, cropping, normalisation, PSF sampling, OTFs, energies, metrics, parameter decoding, Bessel sums, radial profiles, PSD to OTF to PSF, layer compression, dead pixels, memory estimates | fits of Gaussians and Moffats, the tracing of contours (matplotlib; FWHM from a given contour is modelled), FFT (its mathematical definition is used) |
| `aoSystem/fourierModel.py` | controllers, all PSD terms, tomography, projection, PSDs to PSFs, memory, numbers and titles of the figures | drawing itself, timing |
| `psfFitting/*` | parameter masks, bounds, fit driver, image model, quality, confidence intervals, field fit, tiling, interpolation, the whole calibration of a field | the optimiser |
| `psfao21/psfao21.py` | construction, bounds, structure function, shapes, reported errors | the PSD of the `maoppy` package |
| `psfr/*` | structure functions (fitting, aliasing, servo-lag, noise), modal and zonal OTFs, breakdown, batch runs over data bases | reading telemetry |
| `telemetry/*` | dates, seeing tables, noise, transfer functions, parameter files, headers, downloads of seeing measurements, filters, SPHERE data sets, diagnosis of the loop (noise, photons, seeing from telemetry) | file formats, plots |
| `deepLoop/*` | test data, parameter values, verification, metrics | drawing, running of the networks |
| `aoSystem/createSegmentedModes.py` | modes at high and low resolution | files |
| `aoSystem/defineAoSystem.py` | — | dead code: imported by nothing |
| tests, demos | — | batch scripts around the modelled API |

Floating-point rounding is modelled in `Model/Machine.lean` only (C426-C436): every operation returns a closest number with `p` significant
bits, for any `p`, any choice at ties and an unbounded exponent; the violations there are computed for 53 bits. All other modules compute
with reals.

Everywhere: overflow, underflow, NaN propagation beyond what is noted, GPU (cupy) execution, printing, plotting and
file formats are outside the model.

## Plan per property

* **C01 Configuration paths resolve with a fixed priority** — Model `os.path.join`, `lstrip`, `isfile` (an arbitrary predicate on strings) and the function branch by branch; spec = ordered list of (condition, result). Case analysis.
* **C02 A parameter file is rejected unless it is complete and consistent** — Parameter map as section -> option -> value; the constructor's validation as an `Except Err` program in source order; spec = a list of defects; soundness and completeness by case analysis.
* **C03 The length-mismatch error names the offending section** — Model `str.format` with positional arguments; refute with a witness, prove for a one-element list.
* **C04 The science field of view covers the corrected area and the seeing** — Real arithmetic (ceil on R); order lemmas on `Int.ceil`.
* **C05 The AO mode is determined by guide stars, mirrors and reconstructed layers** — Decision function over counts; spec table.
* **C06 Processing the low-order section again changes nothing, without PSD expansion or at one wavelength** — State machine with the stored FieldOfView; refute idempotence; prove it when the ratio rounds to one.
* **C07 NGS positions of the parameter file are appended after the science positions** — Lists; index lemma i - nSrc + nLO.
* **C08 The error breakdown is an orthogonal sum** — Reals, `Real.sqrt`, `Real.exp`.
* **C09 The low-order centroiding threshold given by the user is used** — Parameter map lookup; refute by witness (the key looked up is never the option's name).
* **C10 Sources get one direction, wavelength and height each** — Lists of reals, branches of the constructor.
* **C11 The Fried parameter follows the wavelength whatever the history** — State machine of wavelength assignments; invariant by induction on the history; `Real.rpow`.
* **C12 Layers share the turbulence strength** — Lists + rpow; refute after wavelength change.
* **C13 The WFS noise model rejects unphysical inputs and behaves physically** — Reals, Except; monotonicity by `gcongr`-style inequalities.
* **C14 Missing photon counts are padded per WFS** — Python list of numbers-or-lists; refute by witness; partial when enough counts.
* **C15 Actuator index conversion is a bijection on square arrays** — Naturals/Int; refute on 2x3; prove for square shapes.
* **C16 Each deformable mirror gets one coupling value and one height** — Lists; structural lemmas.
* **C17 Spectral dispersion must match the transmittance** — Lists.
* **C18 The tip-tilt loop exists only when fully described** — Options and reals.
* **C19 The wavelength vector samples every band** — List of reals; numpy slice assignment with broadcasting error.
* **C20 The computation grid satisfies Nyquist** — `Int.ceil` on positive reals.
* **C21 The number of aliasing replicas is bounded** — Nat/Int arithmetic.
* **C22 Corrected and uncorrected frequencies partition the spectrum** — Pointwise on arbitrary functions.
* **C23 The AO-corrected PSD is embedded in the full grid** — Nat/Int arithmetic with ceil of halves.
* **C24 Spatial frequency arrays are centred** — Int arithmetic.
* **C25 Binning conserves flux** — Finite sums over ranges (Mathlib `Finset.sum`).
* **C26 Cropping keeps the centre, enlarging keeps the flux** — Images as size + pixel function.
* **C27 Image normalisation can be undone** — Case analysis on type; reals.
* **C28 PSFs carry the requested flux** — Finite sums.
* **C29 An optical transfer function never amplifies** — `Real.exp`.
* **C30 Encircled energy grows from the centre to one** — Lists, prefix sums.
* **C31 Ensquared energy grows with the box while the box is inside the image** — Python slices with negative indices; refute; partial for boxes inside the image.
* **C32 Layer compression conserves turbulence** — Finite sums over slabs; rpow.
* **C33 The parameter vector is decoded without overlap** — Offsets as naturals.
* **C34 The piston filter removes piston only** — Reals; the Bessel-like function is an arbitrary parameter.
* **C35 Symmetrised spectra reproduce the one they came from** — Index functions; refute.
* **C36 Polar sampling refines with radius** — Loop with carried state; refute.
* **C37 Closed-loop transfer functions are complementary** — Complex numbers.
* **C38 The reconstructor inverts the sensor where it measures** — Complex numbers.
* **C39 The residual PSD is the sum of its contributions and non-negative** — Fold over flags.
* **C40 Extra wavefront errors are met** — Finite sums.
* **C41 Chunked aliasing sums equal the full sum** — Lists split into chunks; induction.
* **C42 Memory estimates are consistent** — Naturals.
* **C43 Phase structure functions are non-negative and vanish at the origin** — Finite cosine sums.
* **C44 No anisoplanatism towards the guide star** — Reals.
* **C45 Negative-order Bessel functions obey the reflection formula** — Integers; refute for even order.
* **C46 Zernike indices follow Noll's ordering one to one** — Integer square root; `Nat.sqrt`.
* **C47 The default pupil is an annulus** — Pointwise.
* **C48 Focal anisoplanatism is non-negative, and grows with altitude in most of the range** — Reals.
* **C49 Refractive index is defined at every wavelength** — Piecewise on reals.
* **C50 Segment operations keep the pupil consistent** — State machine of operations with `Except`.
* **C51 Free and fixed parameters are merged losslessly** — Lists with masks; induction.
* **C52 Fitting does not alter the caller's image** — Heap with references.
* **C53 Image tiling is a partition** — Index arithmetic.
* **C54 PSF interpolation weights sum to one** — Reals.
* **C55 Fit quality compares the sky with the model** — Heap with aliasing.
* **C56 Strehl and wavefront error convert back and forth** — exp/log.
* **C57 Local time converts to UT before 14 h and within a month** — Calendar arithmetic.
* **C58 Delayed commands of one actuator are interpolated with unit weight** — Reals, ceil/floor.
* **C59 Generated parameter files keep what was written** — Key-value map state machine.
* **C60 Star coordinates given directly are the evaluated directions** — Reals; arctan2 as a parameter-free definition; refute on the swapped arguments.
* **C61 Effective height, wind and coherence time lie between those of the layers** — State machine of wavelength changes; weighted means of lists bounded by their extremes.
* **C62 Phase statistics are consistent at zero separation** — Real powers; the Bessel function kv is a parameter.
* **C63 Angular anisoplanatism depends on the separation** — Finite sums of `1 - cos`; bounds term by term.
* **C64 Anisokinetism vanishes towards the tip-tilt star** — Reals; closed formulas of the variances of tip-tilt anisoplanatism.
* **C65 Computing anisoplanatism leaves the guide star in place** — State machine with an exception at any step of the computation.
* **C66 The AO-corrected area fits the cut-off frequency** — Floor and maxima of lists of reals.
* **C67 Off-axis targets get an anisoplanatism structure function** — Decision function over modes with exceptions.
* **C68 The estimated flux excludes the sky background** — Median of a list; refute: masked pixels are in the median.
* **C69 The wavelength vector covers each band evenly** — Lists of reals, insertion sort.
* **C70 Resampling an image keeps its centre and its samples** — Interpolant as a parameter that goes through its samples.
* **C71 The mean square error measures the difference of two images** — Index arithmetic of the window, sums of squares.
* **C72 The width of a peak inside a profile is the distance between its half-maximum crossings** — Lists of reals, first and last index above half maximum.
* **C73 Measuring an image does not modify it** — Heap semantics: functions return the array of the caller after the call.
* **C74 Sources appear where they were put** — Discrete phasors; complex exponentials and shifts of indices.
* **C75 Residual jitter only blurs** — Real quadratic forms; unit comparison of the two functions.
* **C76 Strehl ratios are percentages that decrease with turbulence** — Norms of products and sums of complex numbers.
* **C77 PSFs can be computed with the default stellar parameters** — Shapes of arrays.
* **C78 PSF metrics can be stored for every sampling** — Shapes of arrays.
* **C79 Winds of compressed layers belong to the layers that were grouped** — Lists, linspace.
* **C80 Tilt and focus filters lie between zero and one** — Reals.
* **C81 Vibrations are filtered by the power rejection of the loop** — Complex numbers; refute with an imaginary rejection.
* **C82 Zernike modes are orthonormal over the unit disc** — Integrals over the disc: Fourier orthogonality in angle, polynomial integrals in radius, with Mathlib's interval integral.
* **C83 Zernike maps on a pixel grid carry the requested modes** — Pointwise on a pixel grid.
* **C84 Static aberrations given by Zernike coefficients have the requested RMS** — Finite sums; quadratic form of the coefficients.
* **C85 Field-dependent aberration files are recognised whatever their axis order** — Shapes of arrays.
* **C86 Collecting area and airmass follow from the geometry** — Reals.
* **C87 A segmented pupil can be built for every set of segment positions** — Ceil arithmetic of the allocated size.
* **C88 Padding or trimming a segmented pupil keeps segments in place** — Maps of pixels with windows given by positions.
* **C89 Reflectivity and phase act on one segment of a pupil** — Complex pixels; modulus and phase.
* **C90 Filling gaps keeps lit pixels and lights dark ones only** — Sets of pixels.
* **C91 Petals partition the pupil** — Labelled maps.
* **C92 Fixed parameters and bounds are honoured by a masked fit** — The optimiser is an arbitrary function that answers inside the bounds it gets.
* **C93 The residual image is in units of the observed image** — Lists; scaling of residuals.
* **C94 The PSF returned by a fit at one wavelength has unit flux and neither offset nor background** — Lists; model vector rebuilt from the fit.
* **C95 Confidence intervals of fitted parameters follow from the residual and the Jacobian** — Gram matrices, inverse, quantile as a parameter.
* **C96 Bounds narrowed after a first fit contain the fitted power-spectrum parameters** — Intervals of extended reals.
* **C97 The image model superposes stars without losing flux** — Arrays of two to four dimensions with the caller's array returned, to see in-place changes.
* **C98 Better fits weigh more in the interpolation of PSFs** — Reals; comparison of weights.
* **C99 Candidates for the fit are the best stars of each tile** — Lists; sorting by a key that is a parameter.
* **C100 Selected stars can be extracted with even windows** — Index arithmetic.
* **C101 PSFs are interpolated at the centres of even tiles** — Index arithmetic.
* **C102 The field value of a parameter lies within its estimates** — Weighted means.
* **C103 Adjusting a parameter file to an image describes that image** — Key-value map state machine.
* **C104 The seeing monitor returns the measurement closest in time** — Minimum over a table, calendar arithmetic.
* **C105 The ground layer completes the turbulence profile** — Real powers, finite sums.
* **C106 The noise covariance estimated from telemetry is a covariance** — Finite sums over frames; quadratic forms as sums of squares.
* **C107 Transfer functions of the loop from telemetry are consistent** — Complex numbers.
* **C108 Confidence quantiles decrease with the number of samples** — Tables decided by the kernel (the quantifier is the table).
* **C109 Decorrelation time and wind speed follow from exact data** — Lines through points; logarithms.
* **C110 Decimating telemetry keeps statistics** — Lists of frames.
* **C111 Headers give the delays of an observation** — Tables and strings.
* **C112 The structure function of modal coefficients is that of their covariance** — Matrices: singular value decomposition as a hypothesis, autocorrelation by finite sums over the pupil.
* **C113 The error breakdown of a reconstructed PSF is an orthogonal sum** — Reals with `none` for not-a-number.
* **C114 The structure function of jitter is a quadratic form** — Quadratic forms of 2x2 matrices.
* **C115 The pixel attenuates but loses no frequency** — `sinc` bounds (Jordan's inequality).
* **C116 The reconstructed structure function sums its contributions** — Finite sums.
* **C117 The zonal transfer function averages over couples of points** — Positive semi-definite matrices, exponentials.
* **C118 Open-loop slopes add the delayed commands** — Index arithmetic of the flattened array.
* **C119 The tomographic reconstructor is the minimum-variance estimator** — Complex matrices: Loewner order, normal equations, Moore-Penrose inverse; optimality by completing the square.
* **C120 Noises of different sensors with one variance each are independent** — Broadcasting of a one-by-one matrix.
* **C121 The projection on the mirrors has the least error over the field** — Least squares with Tikhonov regularisation in complex matrices; refute with two mirrors and an asymmetrical field.
* **C122 Mirrors do nothing beyond their cut-off** — Pointwise with the cut-off mask.
* **C123 Tomographic spectra are physical** — Complex matrices and phasors.
* **C124 A breakdown is reported for every system that can be built** — split from an earlier property; same model, see below.
* **C125 Both rows of a spectral dispersion match the transmittance** — split from an earlier property; same model, see below.
* **C126 The frequency domain has the wavelengths of the observation** — split from an earlier property; same model, see below.
* **C127 Chromatism is confined to the corrected area** — split from an earlier property; same model, see below.
* **C128 Angular frequency arrays are centred** — split from an earlier property; same model, see below.
* **C129 Cropping inverts enlarging when the padding is even** — split from an earlier property; same model, see below.
* **C130 PSFs exist at every wavelength of the observation** — split from an earlier property; same model, see below.
* **C131 Bounds and flux index of a fit match the parameter vector** — split from an earlier property; same model, see below.
* **C132 The noise gain of the loop is non-negative for increasing frequencies** — split from an earlier property; same model, see below.
* **C133 The reconstructor is a number where the sensor is blind** — split from an earlier property; same model, see below.
* **C134 The imposed total wavefront error is met** — split from an earlier property; same model, see below.
* **C135 No table of refraction is extrapolated** — split from an earlier property; same model, see below.
* **C136 Segments can be rotated, shrunk and moved as far as the map allows** — split from an earlier property; same model, see below.
* **C137 Start vectors may be integers** — split from an earlier property; same model, see below.
* **C138 No pixel is lost or scrambled by tiling** — split from an earlier property; same model, see below.
* **C139 Generated parameter files describe the telemetry to the AO system** — split from an earlier property; same model, see below.
* **C140 The temporal covariance at zero delay is the variance** — split from an earlier property; same model, see below.
* **C141 Angular anisoplanatism depends on the turbulence** — split from an earlier property; same model, see below.
* **C142 The PSD is integrated with the sampling step** — split from an earlier property; same model, see below.
* **C143 Zernike maps can be given unit norm** — split from an earlier property; same model, see below.
* **C144 Spiders given by the user are drawn** — split from an earlier property; same model, see below.
* **C145 Bounds given by the user are always honoured** — split from an earlier property; same model, see below.
* **C146 Saturation applies to every image and alters no array of the model** — split from an earlier property; same model, see below.
* **C147 Without limits of magnitude all stars qualify** — split from an earlier property; same model, see below.
* **C148 Delays, sensors and frequencies of the telemetry have their physical values** — split from an earlier property; same model, see below.
* **C149 Dates select the calibration that exists for them** — split from an earlier property; same model, see below.
* **C150 The wavelengths of a filter curve with isolated duplicates become strictly increasing** — split from an earlier property; same model, see below.
* **C151 Jitter corrected for noise only blurs** — split from an earlier property; same model, see below.
* **C152 The PSF reported with the breakdown uses the profile of the parameter file** — split from an earlier property; same model, see below.
* **C153 The points of the zonal covariance match the grid of separations when the pitch divides the aperture** — split from an earlier property; same model, see below.
* **C154 The noise spectrum fits the array of all systems** — split from an earlier property; same model, see below.
* **C155 Interpolation reproduces the references** — split from an earlier property; same model, see below.
* **C156 Fit quality of a cube compares the sky with the model at each wavelength** — split from an earlier property; same model, see below.
* **C157 The transfer function of a pupil is a Hermitian autocorrelation** — Correlation theorem on Z/N x Z/N and Cauchy-Schwarz.
* **C158 With a sampling of two or more nothing is folded** — Padded index arithmetic: no wrap-around when N >= 2n-1.
* **C159 The PSF of a pupil is its diffraction pattern** — Transform of the linear autocorrelation is a squared modulus.
* **C160 Static aberrations never improve the image** — Triangle inequality pixel by pixel.
* **C161 Static aberrations are seen in the PSF as they are** — Refute with opposite maps and tilts.
* **C162 Static modes given by the user are applied** — Case split on the lengths.
* **C163 The telescope OTF is the autocorrelation of the pupil, centred** — Convolution theorem; equality case of the mean inequality; symmetric and asymmetric pupils.
* **C164 The OTF of an image never amplifies** — Triangle inequality.
* **C165 OTFs of any shape can be transformed** — Shape arithmetic.
* **C166 Recentring brings the peak to the centre** — Shift theorem of the inverse transform.
* **C167 The full Fourier transform follows from half of it** — Hermitian symmetry and case split on the assignments.
* **C168 The structure function of a phase map is a mean over pairs of points** — Correlations of 0/1 arrays are below N^2.
* **C169 The PSFAO21 structure function is that of its PSD** — Half-transform theorem (C167), then cosines.
* **C170 PSFAO21 applies anisoplanatism to off-axis stars** — Shapes with numpy broadcasting; case split on the profile.
* **C171 PSFAO21 returns one PSF per source and wavelength** — Shapes with numpy broadcasting.
* **C172 The reported wavefront error is that of the PSF** — Last element of the loop; algebra.
* **C173 Building PSFAO21 leaves the description of the observation as it is** — Induction over the loop; slices of the vector.
* **C174 Bounds of PSFAO21 are intervals** — Enumeration of the blocks of bounds.
* **C175 The error breakdown is the integral of the PSD** — Sums over the grid of the PSD terms.
* **C176 A breakdown is reported for every configuration** — Case split on the flags.
* **C177 Marechal Strehl ratio and static error** — Monotonicity of the exponential; sums over lists.
* **C178 The computation can be repeated with one sensor** — Two applications of the state transformer.
* **C179 Heights of the modelled layers** — Case split on the guide star.
* **C180 Noise does not depend on the wavelength at which the atmosphere is described** — Injectivity of real powers.
* **C181 Extra errors of science targets and guide stars have the rms asked for** — Sums over the grid; positivity of the piston filter.
* **C182 Low-order extra errors default to those of the science targets** — Equality of the two formulas; a frequency below the limit.
* **C183 The focal structure function of a source in the direction of the star is the variance of the differential phase** — Inner product space of random variables; expansion of the norm, module arithmetic, reflection of the grid.
* **C184 The map of a covariance matrix even in both axes is the covariance as a function of the separation** — Means over the classes of equal separation; a witness of the class.
* **C185 The anisokinetism of two sources is a covariance matrix** — Bessel integrals, positivity of the integrand, positive linear functional.
* **C186 The anisokinetism structure function of uncorrelated tip and tilt is the variance of the differential tilt** — Algebra of the kernel with Y the transpose of X.
* **C187 Contour points are at the level** — Case analysis of boundary pixels; convex combination.
* **C188 The filter of outliers keeps half of a contour that is not round** — The median minimises the mean distance; Chebyshev around the median.
* **C189 The width of an image by cutting or contour is a length on the sky, whatever the resampling** — Homogeneity of maxima and minima, each method; scaled contours.
* **C190 The width of an image is returned for every documented method and output** — Case analysis over the methods.
* **C191 The turbulent variance of a Zernike coefficient depends on its radial order only** — Loop invariant over the ends of runs; parity of n - m from C46.
* **C192 Without outer scale the Zernike variances follow Noll: positive, decreasing with the order, proportional to (D/r0)^(5/3)** — Recurrence of the Gamma function.
* **C193 The hypergeometric series of the outer scale are summed to the tolerance** — Loop invariant; geometric tail; a crest of the series.
* **C194 The number of photons is the mean of the brightest pixels** — Sorted lists, exchange argument for the largest elements.
* **C195 Actuators are selected inside a ring** — Induction on the argmax; filter of a range.
* **C196 Averages over the radial orders return one value per order** — Medians of constant lists; sorted lists of distinct orders are determined by their elements.
* **C197 The covariance of the Zernike coefficients does not depend on static commands, piston or earlier calls** — Sums over frames and actuators.
* **C198 Mirror commands are projected onto the Zernike modes by least squares** — Injectivity of the Gram matrix, Pythagoras.
* **C199 Every method of noise estimation returns the noise of each command and leaves the telemetry alone** — Case analysis; centring is idempotent.
* **C200 The number of sub-folders of test data is the divisor of the number of files closest to the one asked for** — First minimum of a sorted list of divisors.
* **C201 No test file is lost or duplicated when they are distributed over new sub-folders, even by a crash** — Induction over the moves with distinct names; counting of quotients.
* **C202 Each pair of intervals has one sub-folder with values in both intervals** — Monotone rounding; division with remainder.
* **C203 The images of the data base of static aberrations depend on the parameters of their labels** — Comparison of the two branches.
* **C204 Each image has its own file and the test data are taken equally from the sub-folders** — Steps larger than twice the rounding error; floors.
* **C205 The intervals of a data base are read back from the names of its sub-folders** — Sorted lists are determined by their elements; tokens of the names.
* **C206 A verified data base has its values above the lower edge of their interval** — Sorted rows; a column that is not checked.
* **C207 All rows of a result file that ends with another line are read** — Lists.
* **C208 Accuracy metrics: Pearson coefficient and relative error** — Cauchy-Schwarz by a discriminant.
* **C209 Data sets with a corrupted image are set aside** — Linear arithmetic on the chain of comparisons.
* **C210 Setting data sets aside in an existing folder moves each of them as a whole** — Induction over the moves.
* **C211 Stacked frames are recentred on their peaks** — Slices with negative bounds by arithmetic; first maximum.
* **C212 Every telemetry file has a date, found from its name** — Induction over the characters.
* **C213 Sorting telemetry by date loses no file, can be interrupted anywhere and run again** — Induction over the operations; files moved are distinct; a prefix of the operations.
* **C214 Starting point and fixed parameters of the SPHERE fit agree** — Lists of fixed length; logarithm and powers.
* **C215 The fit of a SPHERE image returns all parameters, with or without static modes** — Case analysis.
* **C216 Values of the SPHERE table are in the column of their name** — Positions in concatenated lists.
* **C217 Removing tip and tilt from a phase is an orthogonal projection** — Identities of the pseudo-inverse.
* **C218 The low-wind-effect error scales with the coefficients** — Homogeneity of the standard deviation.
* **C219 Sensor window, delay and gain are monotone in the magnitude and the frame rate** — Case analysis.
* **C220 The flux of the sensor is taken around the time of the observation** — First minimum of a monotone sequence.
* **C221 Header values of SPHERE are passed on unchanged, with safe replacements** — Lists.
* **C222 A radial profile is the mean over rings** — Sorted pixels are cut into slices at the changes of bin; sums of slices.
* **C223 The radius returned with a profile is that of the pixels, for bins not smaller than a pixel** — From every pixel a walk to the centre goes back by at most one ring per step.
* **C224 Supersampled profiles agree with the profile and are not negative** — Lists; the spline is a parameter assumed to interpolate.
* **C225 The encircled energy of a supersampled profile is the energy in the disc** — Sums of prefixes; arithmetic progression.
* **C226 Radii, profile and encircled energy have the same length** — Cropping keeps a prefix.
* **C227 The standard deviation of a ring is that of its pixels** — Rewriting of the inequality; explicit 3 x 3 image.
* **C228 A profile over a range of position angles uses the pixels of the range only** — Bounds of the argument; filters of lists.
* **C229 An OTF computed from a power spectrum is a transfer function** — Transform of a non-negative array is largest at 0; lexicographic maximum; reindexing of the sum.
* **C230 A PSF computed on an odd grid from a power spectrum is non-negative with its peak at the centre** — exp of a transform is the sum of transforms of repeated convolutions, all non-negative.
* **C231 A PSF without aberration has no negative pixel** — Geometric sums at half-integers.
* **C232 A piston does not degrade the OTF of even size** — Formula of C229 for one non-zero pixel.
* **C233 The structure functions of the reconstruction are those of the PSD** — Formula of C229.
* **C234 Fitting and aliasing structure functions are those of their PSD and scale as r0^(-5/3)** — Value of each structure function, and linearity of the transform.
* **C235 telescopePsf has the requested pixel scale from two pixels per lambda/D on** — Sizes and steps of the successive arrays.
* **C236 otfShannon2psf has the requested pixel scale and field** — Same.
* **C237 Couples of points at a separation are all found** — Positions embedded injectively in the larger array; both lists sorted, equal as sets after translation.
* **C238 The zonal OTF is the average of exp(-D/2) over the couples at a separation** — Sum over the list of C237 as a sum over all couples.
* **C239 The zonal OTF is one at the origin, between 0 and 1, and even** — Positive semi-definiteness on differences of unit vectors; exchange of the two points.
* **C240 Without a mask, the zonal OTF is that of all points of the grid** — Row numbers of two points of the same row are equal, so the structure function used is zero.
* **C241 The table of reconstructions has one value per column** — Row and names as lists; each cell computed.
* **C242 Units of the table: latencies in milliseconds, noise in radians** — Same cells, equation solved for the rate.
* **C243 The tip-tilt columns of the table describe the tip-tilt loop** — Same cells.
* **C244 The anisoplanatism columns of the table hold the terms they name** — Same cells.
* **C245 The Strehl ratio of the image in the table is a fraction** — Same cell with the two definitions of the Strehl ratio.
* **C246 Reading results twice gives the same row** — Setter of the wavelength; a second call is the identity.
* **C247 Telemetry and images are matched by identifier** — Sorted intersection; first index.
* **C248 Merging tables is repeatable** — The name of the saved table is always excluded.
* **C249 The table on simulations holds the estimates and, with true_r0, the truth** — State of the telemetry through the run.
* **C250 The reconstruction uses the estimated Fried parameter** — Composition of the seeing written and the Fried parameter read.
* **C251 The diagnosis scales the wind profile to the estimated wind** — Homogeneity of the weighted mean.
* **C252 plot_metrics needs a number of bins only for histograms** — Case analysis.
* **C253 Bounds of PSFAO21 can be updated and are symmetric in position** — See C174; witness or exact characterisation.
* **C254 The map of a covariance matrix is right for every stationary process** — See C184; witness or exact characterisation.
* **C255 Read-out noise is the scatter of the pixels in time** — See C194; witness or exact characterisation.
* **C256 One diameter is enough to select actuators, around the centre of the pupil** — See C195; witness or exact characterisation.
* **C257 The tip-tilt covariance is a two by two matrix** — See C197; witness or exact characterisation.
* **C258 The distribution of test files can be resumed and never replaces a file** — See C201; witness or exact characterisation.
* **C259 Random parameters lie within the bounds asked for** — See C202; witness or exact characterisation.
* **C260 Any number of test data can be taken** — See C204; witness or exact characterisation.
* **C261 The intervals of a data base are read back also after an interrupted run** — See C205; witness or exact characterisation.
* **C262 The last row of a result file is read** — See C207; witness or exact characterisation.
* **C263 Setting data sets aside creates the folder of the outliers** — See C210; witness or exact characterisation.
* **C264 Frames of any size can be stacked, with the neutral density of their header** — See C211; witness or exact characterisation.
* **C265 The starting r0 of the SPHERE fit follows the turbulence theory** — See C214; witness or exact characterisation.
* **C266 The width along y and the number of modes of the SPHERE table are right** — See C216; witness or exact characterisation.
* **C267 The coefficients returned without tip and tilt describe the phase that remains** — See C217; witness or exact characterisation.
* **C268 The low-wind-effect error of rows that were not fitted is -1** — See C218; witness or exact characterisation.
* **C269 Missing telemetry of the sensor is handled** — See C220; witness or exact characterisation.
* **C270 The outermost ring is part of a radial profile** — See C222; witness or exact characterisation.
* **C271 The radius returned with a profile is that of the pixels for bins smaller than a pixel** — See C223; witness or exact characterisation.
* **C272 The standard deviation over a range of position angles uses the pixels of the range only** — See C228; witness or exact characterisation.
* **C273 Reading results does not change the reconstruction** — See C246; witness or exact characterisation.
* **C274 The table on simulations compares the estimates with the truth in the same units** — See C249; witness or exact characterisation.
* **C275 Processing the low-order section again changes nothing, with PSD expansion** — See C06; witness or exact characterisation.
* **C276 NGS positions are appended after star positions given as an array** — See C07; witness or exact characterisation.
* **C277 One zenith can be shared by several azimuths at several wavelengths** — See C10; witness or exact characterisation.
* **C278 An extracted layer is at the current wavelength** — See C12; witness or exact characterisation.
* **C279 Actuator index conversion is a bijection on rectangular arrays** — See C15; witness or exact characterisation.
* **C280 The AO-corrected PSD is centred on odd grids, and grids that are too small are found out in advance** — See C23; witness or exact characterisation.
* **C281 Ensquared energy grows with the box up to the whole image** — See C31; witness or exact characterisation.
* **C282 Focal anisoplanatism grows up to the laser and the two functions reporting it agree** — See C48; witness or exact characterisation.
* **C283 Local time converts to UT on the last evening of a month** — See C57; witness or exact characterisation.
* **C284 Delayed commands of several actuators or whole delays are interpolated with unit weight** — See C58; witness or exact characterisation.
* **C285 Rectangular images can be resampled with the default kind** — See C70; witness or exact characterisation.
* **C286 The width of any profile is defined** — See C72; witness or exact characterisation.
* **C287 Sources appear where they were put at every wavelength** — See C74; witness or exact characterisation.
* **C288 The PSF returned by a fit at several wavelengths has unit flux and neither offset nor background** — See C94; witness or exact characterisation.
* **C289 Bounds narrowed after a first fit can be used for a second fit** — See C96; witness or exact characterisation.
* **C290 Changing the reflectivity of a segment keeps a phase applied before** — See C89; witness or exact characterisation.
* **C291 Filling gaps only lights pixels between segments** — See C90; witness or exact characterisation.
* **C292 Selected stars can be extracted with odd windows** — See C100; witness or exact characterisation.
* **C293 PSFs are interpolated at the centres of odd tiles** — See C101; witness or exact characterisation.
* **C294 The field value of a parameter lies within its estimates also when some have no error** — See C102; witness or exact characterisation.
* **C295 One variance for all sensors describes independent noises** — See C120; witness or exact characterisation.
* **C296 Cropping inverts enlarging when the padding is odd** — See C129; witness or exact characterisation.
* **C297 The noise gain of every loop is non-negative** — See C132; witness or exact characterisation.
* **C298 The wavelengths of a filter curve with repeated duplicates become strictly increasing** — See C150; witness or exact characterisation.
* **C299 The points of the zonal covariance match the grid of separations for any aperture** — See C153; witness or exact characterisation.
* **C300 The computation can be repeated with several sensors** — See C178; witness or exact characterisation.
* **C301 Contour points around a single bright pixel are at the level** — See C187; witness or exact characterisation.
* **C302 The filter of outliers keeps a round contour** — See C188; witness or exact characterisation.
* **C303 The width of an image by fitting does not depend on the resampling, and round contours are measured** — See C189; witness or exact characterisation.
* **C304 The images of the data base of r0 depend on r0** — See C203; witness or exact characterisation.
* **C305 A verified data base has all its values below the upper edge of their interval** — See C206; witness or exact characterisation.
* **C306 Sorting telemetry works in every folder** — See C213; witness or exact characterisation.
* **C307 A piston does not degrade the OTF of odd size** — See C232; witness or exact characterisation.
* **C308 telescopePsf has the requested pixel scale below two pixels per lambda/D** — See C235; witness or exact characterisation.
* **C309 The focal-angular structure function of an off-axis source is the variance of the differential phase** — See C183; witness or exact characterisation.
* **C310 The anisokinetism structure function is the variance of the differential tilt** — See C186; witness or exact characterisation.
* **C311 The ground layer is a number** — See C105; witness or exact characterisation.
* **C312 Seeing measurements downloaded once serve every later load** — Folder of a night as a state; induction over the loads.
* **C313 A download of seeing measurements that failed or was interrupted is tried again** — Same model; the outcome of later loads by cases on the first.
* **C314 The weights of the turbulence profile sum to one** — Normalisation of the combined profile.
* **C315 Missing layers of a measured profile are not used** — Same function; witness.
* **C316 append_mass_dimm gives each image the measurements of its own night** — Loop as a map over the rows; argmin of the monitor.
* **C317 get_mass_dimm_for_image looks up the right UT night** — Arithmetic of days and seconds.
* **C318 The transmission curve of a filter is found by its name** — Search in the list of names.
* **C319 samplingFilterProfile samples the band of the filter** — Normal equations of the regression; evenly spaced points.
* **C320 samplingFilterProfile returns one dispersion per wavelength** — Length of the lists.
* **C321 The airmass follows from the elevation** — Monotonicity of the sine.
* **C322 A test of six parameters simulates and fits the PSFs of those parameters** — Parameter vectors as lists; the fit as a partial function.
* **C323 The static coefficients of a test are those of its PSFs** — Same model, with the static phase of the PSF model.
* **C324 The accuracy of an estimated PSF is measured consistently** — Least squares and norms over lists.
* **C325 A random start of a fit stays within the range of the test** — Clipping between the extremes.
* **C326 The start is scattered by the amplitude asked for** — Same function; witness.
* **C327 The accuracy tables give the bias and scatter of the errors in percent** — Means over a table; witness.
* **C328 The result folders are analysed in the order of their numbers** — Stable sort of a list.
* **C329 The second stage of the split fit refines the first** — Bounds of the two stages; scatter of the free parameters.
* **C330 The split fit completes whatever was fixed in the first stage** — Same model; the starting point must be strictly inside the bounds.
* **C331 split_fitting_psfao and joint_fit use the start, mask and weights given** — Arguments as a record.
* **C332 fits_2_dict names each column of the table of fits** — Distinctness of the list of names; index in it.
* **C333 fit_all_PSFs fits every PSF of the folder once** — Loop over the draws as filterMap.
* **C334 read_catalog reads the catalogue of stars** — Lines of words; mapM over columns.
* **C335 read_catalog skips the header lines** — Same function; lengths of columns and numpy repetition.
* **C336 Simulated telemetry is free of static offsets** — Matrices over the frames; centring as a linear projection.
* **C337 Simulated tip-tilt slopes are free of static offsets with a laser guide star** — Counterexample with two frames.
* **C338 Residuals of simulated telemetry are the reconstructed slopes, without tip-tilt for a laser guide star** — Matrix identities.
* **C339 The wavefront error of simulated telemetry is the rms of its residuals in nanometres** — Sum of squares of the centred residual.
* **C340 Simulated telemetry can be read again and describes atmosphere and loops** — Idempotence of centring; polynomials of the servo.
* **C341 Spiders are straight bars of the requested width** — Cross products with the four edges in rotated coordinates.
* **C342 Petals can be used whenever they were asked for** — Same function, early return.
* **C343 A phase applied to petals changes the phase only, petal by petal** — Modulus of a complex exponential; permutation of a sum.
* **C344 Phases applied to petals one after the other add up** — The stored phase is not updated.
* **C345 Reset restores the pupil as it was built** — Induction over the history.
* **C346 Building a pupil does not alter the segment it is built from** — Iteration of the constructor on a shared map; concrete counterexample.
* **C347 The positivity term penalises models above the image only** — Sum over lists by induction.
* **C348 Weights of a fit have the shape of the image** — numpy broadcasting of shapes.
* **C349 query_sparta_data asks for missing data only** — Induction over the folders.
* **C350 An interrupted query of SPARTA data is completed by the next** — Induction over the folders with a script that raises.
* **C351 AO systems can be printed** — Formatting codes and types.
* **C352 Printed delays are those of the loops** — Field arithmetic.
* **C353 The temporal error is the turbulence filtered by the rejection of the loop** — Algebra of the transfer functions and the reconstructor.
* **C354 The noise spectrum of a Shack-Hartmann follows one convention** — Algebra of the reconstructor.
* **C355 Directions mean the same with one guide star and with several** — Sums over the layers, counter-examples.
* **C356 Differential refraction acts along the azimuth of the source** — Trigonometry, counter-example.
* **C357 The residual scales with the strength of the turbulence** — Homogeneity of each spectrum.
* **C358 Aliasing is the one of a Shack-Hartmann** — Sums over the replicas.
* **C359 Spectra are the same at opposite frequencies** — Symmetry of each spectrum; difference of the sums of replicas, bounds of the Bessel function.
* **C360 The cone effect of one laser is an error of the turbulence above the ground** — Norm of centred samples, interpolation between bounds.
* **C361 Frequencies the mirror does not correct hold the turbulence once** — Two samples of a sine in a ratio; interpolation.
* **C362 The cone effect is defined for every profile** — A sampled sine is not constant; counter-example.
* **C363 The cone effect of a constellation never exceeds the turbulence and follows its geometry** — Sums over the layers, monotonicity of the filter.
* **C364 Vibrations are reported with their residual power** — Sums over the frequencies.
* **C365 Reducing the memory does not change the results** — Runs of programs over an attribute store, free interpretation evaluated by the kernel for each configuration.
* **C366 Spectrum and breakdown can be computed again** — Invariant over histories.
* **C367 Spectrum and breakdown can be computed again after the memory was reduced** — Invariant over histories.
* **C368 The Strehl ratio of the image is at least the Marechal one** — Parseval for the autocorrelation of the pupil and the covariance, then exp x >= 1 + x.
* **C369 Each additional error lowers the Strehl ratio, and not too much** — Structure functions add up and are bounded by four times the variance.
* **C370 Strehl ratios at several wavelengths are relative to the diffraction limit of each** — Sum of the OTF over one pixel out of k as a sum over residue classes.
* **C371 The description of the turbulence profile in layers does not matter** — Sums over the fibres of the splitting.
* **C372 Sensors on the same star share its light without loss** — Generalised inverse of the sensor covariance through the splitting; inverse of regularised matrices.
* **C373 Turning the whole observation turns its spectra** — Every factor is a function of scalar products and norms.
* **C374 Spectra are even** — Complex conjugation of every factor and of generalised inverses.
* **C375 The list of optimisation directions is a weighting of the field** — Sums over the fibres; refute from one direction to two.
* **C376 Tomographic errors in nanometres do not depend on the science wavelength** — Scaling of the generalised inverse.
* **C377 Anisoplanatism is along the direction of the target** — Rewrite as the expected spectrum of the exchanged target; refute.
* **C378 Turning an observation with one guide star turns its spectra** — Scalar products and norms; refute off axis with the exact difference.
* **C379 Layers may be given in parts, with one guide star** — Sums over the fibres of the splitting in every term.
* **C380 Errors in nanometres do not depend on the science wavelength, with one guide star** — Scaling with r0 and noise; refute the regularisation.
* **C381 Only relative directions matter** — Unitary diagonal factors through generalised inverses; refute the regularised inverse of two mirrors in closed form.
* **C382 Turbulence at the height of the mirror is corrected alike in the whole field** — Common phase of mirror and layers; refute with lasers in closed form.
* **C383 Heights and angles count through their products** — Every factor depends on products.
* **C384 Delay and distance of the target add up as displacements of the layers** — Phases of the layers.
* **C385 Only the ratio of wind speed and loop rate matters** — Every factor depends on ratios.
* **C386 Dead pixels are replaced by the weighted mean of their neighbours** — Loop over the rows; characterise success; refute.
* **C387 Rotating a pupil rotates its reflexivity and its phase and records its angle** — Moduli and phases pixel by pixel; refute by histories.
* **C388 Resizing a pupil gives the size asked for and keeps its geometry** — Records after one call; refute by two calls.
* **C389 Gaps are filled from a surrounded segment whenever there is one** — Induction on the loop.
* **C390 Files given for a telescope are used or reported** — Characterise the search in the name; refute.
* **C391 Maps read from files have the resolution of the telescope** — Sizes through the steps; refute.
* **C392 Influence functions and example masks can be computed** — Follow the steps to the first exception; refute.
* **C393 Means along diagonals recover a stationary covariance** — Sums of constants.
* **C394 Reading a parameter file of SPHERE does not change it** — Options of a parser; refute by two calls.
* **C395 The atmosphere follows the laws of the zenith angle** — Powers of products through the sums over layers.
* **C396 The isoplanatic angle is where the structure function is two** — Solve for the angle; sums over layers.
* **C397 Seeing and Fried parameter are two ways to say the same** — Algebra of the two conversions.
* **C398 The zenith angle stretches heights exactly once** — Scaling of cones and slabs; refute.
* **C399 Off the zenith is at the zenith with a larger field and stronger turbulence** — Heights times angles (C383); sums over layers.
* **C400 Zenith angles are accepted above the horizon only** — Signs of the cosine; refute.
* **C401 The unit of length does not matter** — Powers of the ratio through every function of the spectra.
* **C402 A star too faint corrects nothing** — The reconstructor in closed form (one star), continuity of the matrix inverse (several); refute.
* **C403 Fainter guide stars never improve the correction** — Trade-off of two quadratic forms minimised together; a quadratic function of the part kept; refute.
* **C404 Correcting is never worse than not correcting** — C403 and the limit C402; refute.
* **C405 The pixel of a reconstructed PSF is one detector pixel** — Integral of each harmonic over a square.
* **C406 The pixel option of the Fourier model is one detector pixel** — C405; strict decrease of the sinc; refute.
* **C407 A PSF with pixel holds what the detector records** — Dirichlet kernel of the binning on one harmonic; refute.
* **C408 The pixel option attenuates and lowers the Strehl ratio** — Bounds of the sinc, sums.
* **C409 The result of a call does not depend on earlier calls** — Model of the state kept between calls; induction over histories; refute with a tilt.
* **C410 The angle given for the static map is applied** — Same model with an abstract rotation; refute with a slit.
* **C411 PSF reconstruction returns one image per star and wavelength** — Broadcasting of shapes; refute.
* **C412 PSFAO21 keeps the Strehl ratios of all images of a call** — Last assignment of a loop; refute.
* **C413 SpotFWHM is the FWHM of the jitter** — Characteristic function of the normal distribution on each harmonic; bounds of ln 2 and pi; refute.
* **C414 The jitter of the breakdown is that of the PSF** — Integral of tilts over a disc and over the normal distribution; refute.
* **C415 A cropped image has the size asked for and is centred on the star** — Slices with Python bounds and truncation; refute at the edges.
* **C416 Saturated images are flagged** — Definition of the flag for all images.
* **C417 The mode and wavelengths of the sensors come from the header, and telemetry loads in both modes** — Model of the loading with its exceptions; refute.
* **C418 Commands and residuals are at their actuators** — Boolean masks as ranks in the list of selected entries; induction.
* **C419 The series of residuals have a zero mean** — Sums of centred series; refute with a pulse.
* **C420 The frame rate is the one of the frames returned** — Telescoping sum of the intervals; refute for regular time stamps.
* **C421 The residual error counts the actuators that move** — Variance of affine series; sum over the actuators that move.
* **C422 The turbulence profile can be compressed whatever its origin** — Theorems of the compression of profiles; Python type of the weights; refute.
* **C423 The reconstructor returned maps the slopes returned to the residuals returned** — Linearity of the mean; exchange of sums.
* **C424 The folder of TIPTOP is found** — Prefixes of paths, first match from the deepest; refute.
* **C425 P3 can be imported whatever is around** — Cases of the import; refute.
* **C426 Integer sizes are not changed by floating-point division** — Rounding to nearest as an abstract operator; integers are machine numbers, quotients are far enough from them.
* **C427 Zernike orders are exact in floating point** — Error of the square root against the gap between triangular numbers.
* **C428 A PSF of any size smaller than the field of view can be asked for** — Exact value of two roundings for 44 out of 100; bound of two roundings else.
* **C429 The number of actuators is not changed by rounding** — Error of four roundings below one half.
* **C430 Computed frequencies are never zero and have the right sign** — Monotony of rounding; integers are exact.
* **C431 The grid of frequencies is symmetric** — Absorption of the offset; refute by the lower bound of a rounding.
* **C432 The PSF is computed at Nyquist sampling or better, in floating point** — Two roundings.
* **C433 The size of the corrected area does not depend on the wavelength at Nyquist sampling** — Calculus of accumulated roundings; refute with the exact values of each step.
* **C434 Actuators are located for any pitch** — The same; refute with the exact values of each step.
* **C435 The flux of a computed PSF is the one asked for, within the rounding of sums** — Induction on the tree of additions.
* **C436 Compressed profiles keep their weights to single precision** — Induction on the list, then one rounding to another precision.
* **C437 Tip-tilt and focus telemetry is in the units of its sensor** — Columns, means and scales of series.
* **C438 The numbers of frames recorded are those of the series** — Rows of series; refute.
* **C439 A data file that is fetched is in the folder given** — Paths as the system resolves them; exact condition on the folder; refute otherwise by induction on the calls.
* **C440 A fetched data file is complete** — Transfers that stop after any number of bytes; invariant over calls.
* **C441 The segments of a pupil are copies of the reference segment** — The list of segments; exact condition on the reference.
* **C442 A phase of zero or a displacement of zero changes nothing on a segment** — Removal by modulus one; exact condition for zeros and ones; refute for other reflectivities.
* **C443 Gaps that were filled stay filled** — The filled map against the shape of the segments; refute.
* **C444 Modes are defined over what they are applied to** — Pixels of modulus one; refute for other reflectivities.
* **C445 The precision of a model can be changed** — Invariant over calls; refute after a computation.
* **C446 Reconstruction over several databases gives the results of each once, also after a failure** — Tables by name, permutations of rows; independence of the earlier runs.
* **C447 Values read in SPHERE headers** — Direct, from the definitions of the header readers.
* **C448 The tables of results are saved in the folder given** — Paths as the system resolves them.
* **C449 A segment with a phase can be moved** — Floating-point cosine, sine and modulus; exact condition; refute with a phase in double precision.
* **C450 The refractivity of air follows the pressure and the temperature** — Bounds of each column of the tables over the box of states, against an ideal gas; refute at the ends of the Q band.
* **C451 Covariance and structure functions are those of the power spectrum** — Bessel function by its integral; Gaussian integrals over the plane and Fubini; strict monotonicity under the integral; dominated convergence.
* **C452 An infinite outer scale is the limit of large ones** — Change of scale, dominated convergence, integration by parts, reflection formula of Gamma.
* **C453 The Fried parameter is that of the turbulence** — Bounds of Gamma(6/5) from logarithmic convexity.
* **C454 The coherence time is the time during which the phase changes by one radian** — Scaling of the 5/3 moment; numerical bounds of real powers.
* **C455 The isoplanatic angle of an infinite outer scale separates directions by two square radians** — Scaling of the 5/3 moment of the heights.
* **C456 The isoplanatic angle of a finite outer scale exists** — Continuity and limit at infinity of the structure function (dominated convergence), strict monotonicity, intermediate value theorem; bound of the variance for the violation.
* **C457 Structure functions of the anisoplanatism are those of the turbulence** — Fourier representation of the covariance (C451) gives a field in L2 of the plane; the code's combination is a squared norm (C183); numerical bounds of Gamma.
* **C458 The variances of the Zernike coefficients sum to that of the turbulence without piston** — Telescoping hypergeometric sum, monotone convergence; bounds of Gamma at rationals from logarithmic convexity.
* **C459 All modules use one spectrum of the turbulence** — Bounds of the constant of the spectrum.
* **C460 The fitting error of PSFAO21 is that of its spectrum** — The trapezoidal rule as a weighted double sum; monotonicity term by term.
* **C461 Every option of the high-order sensor section reaches the sensor** — Model of the reads, of the keyword arguments and of the constructors; each attribute traced back to its option.
* **C462 Every option of the low-order sensor section reaches the sensor** — The same; two files that differ by the ignored options build the same sensor.
* **C463 Every option of the science section reaches the camera** — The same for the camera.
* **C464 Every option of the telescope and atmosphere sections reaches its object** — The same for the telescope and the atmosphere.
* **C465 Every option of the loops and mirrors reaches its object** — The same for the loops and the mirrors.
* **C466 Options left out have the documented defaults** — Table of the comments of template.ini against the defaults found above.
* **C467 The template parameter file builds a system** — The list operations on a scalar fail in every file; evaluation of the template with and without a list.
* **C468 Turning the loop off** — Model of the open-loop branch; comparison with the limit of the closed loop for a fading star (C402).
* **C469 Stars outside the image are refused** — Slices of Python with negative bounds; exact set of the positions extracted.
* **C470 An empty path is the same as no path** — Model of the files read by the telescope and by the spectrum; comparison of two parameter files option by option.
* **C471 Energies on the figures** — Model of the numbers and titles of the figures; floor of the radius in pixels, case split on the cell of the curve.
* **C472 Sources on the figures** — Induction on the list for argmin and argmax; division of the index by the side of the grid.
* **C473 Refining the frequencies converges** — Sums over the grid as integrals of step functions; dominated convergence; the border of the corrected area has measure zero.
* **C474 Angle of the pupil of Keck** — Case split on the name of the instrument.
* **C475 Both breakdowns report the same fitting error** — Polar coordinates and the antiderivative for the integral outside of a disc; dominated convergence on wide grids; numerical bounds of the Gamma function.
* **C476 Textbook noise of a Shack-Hartmann** — Case split on the algorithm; conversion of angles to pixels.
* **C477 Start of the fit of each sub-image of a field** — Lists; the start decoded by the model of the parameter decoding, compared with the bounds of the model entry by entry.
* **C478 The fit of a field accepts every parameter file** — Count of the bounds; exact condition and violation.
* **C479 Result of the fit of the sub-images of a field** — The loop as a traversal with an abstract fit; rows spelled out.
* **C480 The PSF of a sub-image is that of its fit** — Median of the fitted values; exact condition and violation.
* **C481 A sub-image that cannot be fitted does not lose the field** — The traversal returns exactly when every fit does.
* **C482 Interpolation over a field with sub-images without star** — Numpy's divisions by zero with an option type; sorted order with what is not a number last.
* **C483 Read-out noise of the Keck camera** — Real powers; monotony.
* **C484 Effect of the calibration of a field on the parameter file** — The file as a state read and written; equality of whole states, also of a second run.
* **C485 A calibration that fails leaves the parameter file as it was** — Exact condition on the file before; violation by the default limits.
* **C486 The results of the calibration of a field belong together** — Traversals with constant numbers per tile, composed with the results for the selection, the cut and the fits.
* **C487 When a field can be calibrated** — Composition of the conditions of each step; the cut of candidates is total by the margins.
* **C488 An unknown interpolation is refused as such** — Order of the steps; no path returns with an unknown name.
* **C489 Size of the PSFs of a calibrated field** — Integer division; case split on the interpolation.
* **C490 Interpolation of the parameters over a field with sub-images without star** — A zero error propagates through the means; bounds of weighted means.
* **C491 PSF interpolated in a calibrated field** — Composition of the grid, the fits and the interpolation with what is not a number.
* **C492 Segmented modes are the means of the modes over the segments** — Argument of the exponential; a sum with one term that is not zero.
* **C493 Linear resizing stays within the range of the image** — Position along an axis as an interval and a weight that do not depend on the samples; convexity.
* **C494 Enlarging then reducing gives the image back** — Whole positions of the enlarged grid; a node of the samples gives its value.
* **C495 Reducing an image averages its pixels** — Same positions; two images that differ in the pixels that are not kept.
* **C496 Segmented modes at low resolution are the resized ones** — Common weights for all segments and a finite sum.
* **C497 Resizing by the nearest pixel only uses values of the image** — Positions as whole divisions.
* **C498 The centre of an image stays at the centre when it is resized** — Case split on the parities; the pixel at the centre as a test image.
* **C499 A loaded pupil or apodizer stays between zero and one** — Composition of the reading with C493; the rotation of scipy is not modelled, hence only without rotation.

## Disagreements between the code and the properties

The model follows the code. Where the code does not have the property, the theorems listed here refute it on a witness or characterise exactly when it holds; the property stays `partial`. A theorem named `..._partial` proves the property, or its true part, under the guard in its statement; `..._violation` and similar names are refutations.

* **C02 A parameter file is rejected unless it is complete and consistent** — For files whose options have the documented types, acceptance is characterised exactly and every error names a defect the file has. The claim as stated is false of the code in the cases shown by the last three theorems (KeyError/IndexError/TypeError instead of ValueError), so the error class is not always ValueError. (`construct_accepts_iff_partial`, `construct_error_truthful`, `construct_profile`, `table1_wellFormed`, `construct_missing_LO_position_is_keyError`, `construct_three_wfs_default_photons`, `construct_integer_photons`, `rejection_is_valueError_partial`)
* **C03 The length-mismatch error names the offending section** — False of the code: the format call drops the section whenever two option names are passed (refuted by notSameLength_message_ignores_section). (`message_names_section_partial`, `notSameLength_message_ignores_section`, `notSameLength_atmosphere_message`)
* **C09 The low-order centroiding threshold given by the user is used** — False of the code: the option name tested is 'ThresholdWCoG = 0.0'. (`threshold_partial`, `loThreshold_ignores_option`)
* **C14 Missing photon counts are padded per WFS** — False of the code as soon as a count is missing (appends a list, then fails, and alters the caller's list); proved when enough counts are given. (`photonCounts_enough_partial`, `photonCounts_one_missing`, `photonCounts_more_missing`, `photonCounts_retry`)
* **C35 Symmetrised spectra reproduce the one they came from** — False of the code: fftsym_not_mirror. (`fftsym_partial`, `fftsym_not_mirror`)
* **C36 Polar sampling refines with radius** — False of the code: every circle gets min(7, n_theta) samples. (`polarCounts_stuck`, `polarCounts_capped_partial`)
* **C45 Negative-order Bessel functions obey the reflection formula** — False of the code for even orders. (`bessel_recurrence_partial`, `bessel_reflection_iff`, `bessel_violation`)
* **C52 Fitting does not alter the caller's image** — Exactly characterised: the caller's image is altered whenever its minimum is subtracted in place. (`image_unchanged_iff_partial`, `image_shifted`, `image_violation`)
* **C60 Star coordinates given directly are the evaluated directions** — False of the code: arctan2 gets its arguments swapped and radians are used as degrees (cooStar_swapped, cooStar_positive_side). (`cooStar_swapped`, `cooStar_positive_side`, `cooStar_distance_partial`, `cooStar_right_iff_partial`, `positions_axis_violation`, `positions_partial`)
* **C65 Computing anisoplanatism leaves the guide star in place** — False of the code if the focal part raises (star_lost). (`star_restored_partial`, `structureFunction_ok_iff`, `star_lost`)
* **C67 Off-axis targets get an anisoplanatism structure function** — False of the code for NGS systems (dphiAni_ngs_fails). (`dphiAni_partial`, `dphiAni_ngs_fails`)
* **C68 The estimated flux excludes the sky background** — False of the code: the median includes the masked pixels, so the background is zero for non-negative images. (`getFlux_partial`, `getFlux_background_zero`, `getFlux_rectangular`, `getFlux_violation`, `getFlux_no_background`, `getFlux_sky_violation`, `inside_majority`)
* **C73 Measuring an image does not modify it** — False of the code for the normalised profile, the 'max' Strehl method and images with negative pixels. (`unchanged_partial`, `radialProfile_modifies`, `strehlMax_modifies`, `addNoise_modifies`, `radialProfile_peak`, `strehlMax_value`)
* **C75 Residual jitter only blurs** — False of the code: the two functions use different units and a zero jitter can raise UnboundLocalError. (`jitter4_nonneg_partial`, `jitter4_amplifies`, `jitter_disagree`, `jitterFlow_violation`, `jitter3_line_partial`)
* **C77 PSFs can be computed with the default stellar parameters** — False of the code: the default value has one dimension and is indexed with two. (`flux4_partial`, `flux4_default`)
* **C78 PSF metrics can be stored for every sampling** — False of the code for every binned PSF. (`storeEnsquared_partial`, `storeEnsquared_iff`, `storeEnsquared_violation`)
* **C79 Winds of compressed layers belong to the layers that were grouped** — The winds are as many as the layers and span the range, but are spread evenly whatever the layers: with a wind decreasing with height the modelled profile is reversed (windMod_violation), and an end layer is only right when the extreme wind is in its group (windMod_ends_violation). (`windMod_partial`, `windMod_violation`, `windMod_ends_violation`)
* **C81 Vibrations are filtered by the power rejection of the loop** — False of the code: the square of the complex rejection is used instead of its squared modulus. (`windPower_partial`, `windPower_violation`)
* **C84 Static aberrations given by Zernike coefficients have the requested RMS** — Proved when the modes are orthogonal on the pupil; otherwise the cross terms remain (staticMap_two). (`normaliseMode_partial`, `staticMap_rms`, `staticMap_two`, `staticMap_violation`)
* **C85 Field-dependent aberration files are recognised whatever their axis order** — False when two axes have the same length, and for cubes of off-axis maps. (`modeAxis_partial`, `modeAxis_violation`, `offAxis_violation`)
* **C87 A segmented pupil can be built for every set of segment positions** — Proved when the extreme coordinates are opposite; false for a segment off axis (size_violation). (`size_fits_partial`, `size_violation`)
* **C88 Padding or trimming a segmented pupil keeps segments in place** — The padded map is right; the windows are misplaced by any padding and by any trimming. (`pad_map`, `pad_window_partial`, `pad_violation`, `trim_violation`, `trim_partial`)
* **C98 Better fits weigh more in the interpolation of PSFs** — False: the worse fit gets the larger weight (quality_inverted) and qualities are compared across tiles (quality_pairing). (`wMse_single_partial`, `quality_inverted`, `quality_pairing`)
* **C103 Adjusting a parameter file to an image describes that image** — Only wavelength and sampling options are read back; mask, aberrations and angle are written under names that are not read. (`adjust_reads_partial`, `adjust_violation`, `chooseModes_violation`, `adjust_total`, `chooseModes_spec`)
* **C104 The seeing monitor returns the measurement closest in time** — Proved within a day; false across midnight, and gaps are flagged in verbose mode only. (`indexTime_spec_partial`, `indexTime_violation`, `midnight_violation`, `timeInHours_spec`)
* **C108 Confidence quantiles decrease with the number of samples** — Monotone in the probability; the row for seven repeats the row for five. (`student_increasing_partial`, `student_violation`, `student_large`)
* **C110 Decimating telemetry keeps statistics** — The number of frames is not updated: the covariance is scaled by the decimation. (`decimated_cov_partial`, `decimated_violation`, `decimate_spec`, `cov_spec`)
* **C112 The structure function of modal coefficients is that of their covariance** — Exact for pupils of lit and dark pixels, with V diag(s) V^T in place of the covariance; the code uses the columns of V instead of its rows, so the covariance is the given one only for symmetric V. The Uij formula ignores variances; a zero covariance raises. (`dphiUij_three`, `dphiVii_spec`, `dphiVii_nonneg`, `modes2Dphi_nonneg`, `dphiVii_covariance_partial`, `dphiVii_transposed`, `dphiVii_negative`, `dphiVii_grey`, `dphiUij_ignores`, `dphiUij_two`, `modes2Dphi_ok_iff`, `svd_example`, `uij_spec`, `half_shift`)
* **C113 The error breakdown of a reconstructed PSF is an orthogonal sum** — Everything but aliasing, which is reported and not summed (breakdown_total_violation); with more noise than signal the total is not a number. (`breakdown_differences`, `breakdown_total_partial`, `breakdown_marechal`, `strehlSF_spec`, `breakdown_complete`, `breakdown_noise_servo`, `sample_total`, `breakdown_ignores_aliasing`, `breakdown_total_violation`, `breakdown_servo_nan`)
* **C118 Open-loop slopes add the delayed commands** — False of the code: exactly characterised (present command and preceding element of the flattened array). (`olSlopes_spec_partial`)
* **C121 The projection on the mirrors has the least error over the field** — Optimal for one direction, and for symmetrical directions up to the regularisation; false otherwise because the code transposes without conjugating (projector_violation). (`projector_one_direction`, `projector_regularised`, `projector_symmetric_partial`, `tikhonov_isUnit`, `lambdaReg_real`, `projector_violation`)
* **C124 A breakdown is reported for every system that can be built** — Proved when the noise variance is available; with two or more noise variances in the parameter file the breakdown raises. (`breakdown_defined_partial`, `breakdown_two_noise_variances`)
* **C125 Both rows of a spectral dispersion match the transmittance** — False of the code: only the first row is compared. (`dispersion_second_row_unchecked`, `mkDetector_spec`, `dispersion_partial`)
* **C126 The frequency domain has the wavelengths of the observation** — freqWvl_iff_partial is the exact characterisation: several centres with several bins raise; a single bin is the lower edge. (`freqWvl_iff_partial`, `freqWvl_two_bands_fail`, `createWvl_single_bin`)
* **C127 Chromatism is confined to the corrected area** — False of the code: the term is not masked. (`chrom_outside`, `chrom_partial`)
* **C128 Angular frequency arrays are centred** — shift_centred_partial is the exact characterisation: no zero for odd sizes. (`shift_centred_partial`)
* **C130 PSFs exist at every wavelength of the observation** — Exact condition: the binned grid must be at least as large as the detector. (`detectorPsf_spec`, `detectorPsf_too_small`, `detectorPsf_violation`)
* **C131 Bounds and flux index of a fit match the parameter vector** — Exact conditions proved for the three models; they fail for the sizes of bounds_violations. (`bounds_partial`, `bounds_violations`, `idFlux_iff`, `idFlux_violation`)
* **C133 The reconstructor is a number where the sensor is blind** — Exact condition: without regularisation, off the centre, the code divides zero by zero. (`recon_none_iff`, `recon_partial`)
* **C134 The imposed total wavefront error is met** — False: the unit factor is applied twice; imposed_total_iff_partial says when it is met. (`imposed_total`, `imposed_total_iff_partial`)
* **C135 No table of refraction is extrapolated** — False: in the gaps listed the K table is used, and the visible formula has a pole in the far ultraviolet. (`bandOf_gap`, `gaps`, `ciddor_pole`, `index_partial`)
* **C136 Segments can be rotated, shrunk and moved as far as the map allows** — False: rotation and shrinking always raise and the segment is lost; limits are those of the other axis. (`rotate_violation`, `shift_violation_axis`, `shift_violation_wrap`, `shift_spec`)
* **C137 Start vectors may be integers** — False: fitted values are truncated (merge_spec with the integer type says how). (`merge_spec`, `merge_violation`, `merge_partial`)
* **C138 No pixel is lost or scrambled by tiling** — False: remainders are dropped, and some cubes of rectangular tiles are accepted and scrambled. (`tile_of_pixel`, `tiles_violation`, `cubeToImage_violation`, `tiles_partial`)
* **C139 Generated parameter files describe the telemetry to the AO system** — False: the wavelength of the guide star and the low-order section of an older file remain; five options are never read. (`write_wavelength`, `wavelength_violation`, `unread`, `stale_section`, `unwritten`, `written_read_partial`)
* **C140 The temporal covariance at zero delay is the variance** — False for several layers: each contributes the variance of the whole atmosphere. (`temporalCovariance_zero`, `temporalCovariance_two_layers`, `temporalCovariance_one_layer_partial`)
* **C141 Angular anisoplanatism depends on the turbulence** — False: neither r0 nor the weights are used. (`angularPsd_ignores_strength`, `angularPsd_partial`)
* **C142 The PSD is integrated with the sampling step** — Exact condition: 2kc a whole number of steps; otherwise larger by less than one part in resAO. (`dk_vs_step_partial`, `dk_violation`)
* **C143 Zernike maps can be given unit norm** — One mode only: several raise, unless as many as pixels across, and then off-diagonal pixels are cleared. (`unitNorm_partial`, `unitNorm_violation`)
* **C144 Spiders given by the user are drawn** — nSpiders_iff is the exact condition: with coordinates and no resolution none is drawn. (`spiders_partial`, `spiders_violation`, `nSpiders_iff`)
* **C145 Bounds given by the user are always honoured** — False: bounds without a mask raise NameError, other methods ignore bounds, and normalisation 2 always raises. (`fit_masked`, `bounds_violation`, `bounds_ignored`, `norm2_violation`, `bounds_short_violation`, `bounds_partial`)
* **C146 Saturation applies to every image and alters no array of the model** — False for two-dimensional images (not clipped) and without stacking (clipped in place). (`imageModel_violation_2D`, `imageModel_violation_inplace`, `saturation_partial`)
* **C147 Without limits of magnitude all stars qualify** — False: raises TypeError whatever the stars. (`select_default`, `select_partial`)
* **C148 Delays, sensors and frequencies of the telemetry have their physical values** — False: pi is left out of both phases; the first frequency is right only if the rate equals the number of frames (freq_first_partial). (`delay_violation`, `wfs_violation`, `freq_first_partial`, `tfWfs_partial`)
* **C149 Dates select the calibration that exists for them** — Other months share a name without a month. (`ncpa_spec_partial`, `ncpa_violation`, `ncpa_other_violation`)
* **C151 Jitter corrected for noise only blurs** — False when the estimated noise exceeds the signal. (`jitterSF_nonneg`, `jitterSF_noise_violation`, `jitter_partial`)
* **C152 The PSF reported with the breakdown uses the profile of the parameter file** — Proved for one layer or several reconstructed ones; misread otherwise, and anisoplanatism is dropped without a decoded profile. (`breakdownVector_decoded_partial`, `totalSF_drops_anisoplanatism`, `breakdownVector_misread`)
* **C154 The noise spectrum fits the array of all systems** — Exact condition: fails for several stars with a zero first variance unless there are as many sources as frequencies across (or a single frequency). (`noiseAssigned_iff_partial`)
* **C155 Interpolation reproduces the references** — False: zero distance gives not-a-number. (`interp_violation`, `nearest_spec`, `interp_partial`)
* **C156 Fit quality of a cube compares the sky with the model at each wavelength** — False: arrays are shared, so sky metrics are overwritten by those of the fit; exact condition proved. (`evaluate_3D`, `evaluate_3D_iff_partial`, `evaluate_failures`)
* **C161 Static aberrations are seen in the PSF as they are** — False: only the real part of the OTF is kept, so opposite maps are not distinguished, a tilt makes a symmetric double image and every PSF is point-symmetric. (`static_sign_lost`, `static_tilt_partial`, `real_otf_symmetric`)
* **C162 Static modes given by the user are applied** — False: coefficients of another number than the modes are silently ignored. (`staticPhase_partial`, `staticPhase_ignored`)
* **C163 The telescope OTF is the autocorrelation of the pupil, centred** — False: it is the self-convolution, equal to the autocorrelation moved by one or two pixels for symmetrical pupils; for pupils without a point of symmetry its normalised sum is too large. (`telescopeOtf_conv`, `telescopeOtf_le`, `telescopeOtf_shifted_partial`, `telescopeOtf_off_centre`, `telescopeOtf_asymmetric`, `sum_dlOtf`)
* **C165 OTFs of any shape can be transformed** — Exact condition proved; False for rectangular arrays with an even number of rows. (`otf2psf_rectangular_partial`, `otf2psf_rectangular_violation`)
* **C166 Recentring brings the peak to the centre** — False: the image is moved by (d-1)/2 pixels for a peak d pixels away. (`centerPsf_half`, `centerPsf_exact_partial`)
* **C168 The structure function of a phase map is a mean over pairs of points** — False: the normalisation by the number of pairs never happens and piston gives negative values; only the value at zero separation is right. (`phaseToSf_unnormalised`, `phaseToSf_piston`, `phaseToSf_piston_row`, `phaseToSf_zero_partial`)
* **C170 PSFAO21 applies anisoplanatism to off-axis stars** — False: with one fitted layer the off-axis stars get the on-axis function, with several the arrays cannot be multiplied. (`opdSF_onaxis_partial`, `aniso_never_applied`, `aniso_cases`, `aniso_length`, `opdSF_error`, `aniso_violation`)
* **C171 PSFAO21 returns one PSF per source and wavelength** — False with the default stellar parameters unless there are as many sources as wavelengths. (`callShape_given_partial`, `callShape_default`, `callShape_bands`)
* **C172 The reported wavefront error is that of the PSF** — False at several wavelengths: too large by the ratio of the last wavelength to the first. (`reportedWfe_partial`, `reportedWfe_spec`, `reportedWfe_violation`)
* **C173 Building PSFAO21 leaves the description of the observation as it is** — False at several wavelengths: the last one is left, and one background is decoded. (`init_partial`, `init_violation`, `background_violation`)
* **C175 The error breakdown is the integral of the PSD** — Exact balance between total and integral. False with a single laser (the cone effect is in the PSD, not in the total), with the tilt filter (PSD filtered, terms not), for off-axis sources with the MCAO cone effect (that of the first source is reported). (`psd_sum`, `breakdown_exact`, `breakdown_partial`, `breakdown_cone_violation`, `breakdown_tilt`, `breakdown_tilt_violation`, `breakdown_science_partial`)
* **C176 A breakdown is reported for every configuration** — Exact cases. Nothing is reported in open loop; AttributeError if the MCAO cone error is asked for with one guide star or natural guide stars; the tomographic error is nan when the servo-lag error exceeds the spatio-temporal one. (`breakdown_cases_partial`, `wfeTomo_nan`, `wfeTomo_spec`, `wfeRec_spec`)
* **C179 Heights of the modelled layers** — False for a guide star object of height zero with a compressed profile: division by zero puts the layers on the ground. (`heightMod_partial`, `heightMod_violation`)
* **C180 Noise does not depend on the wavelength at which the atmosphere is described** — Holds exactly when the atmosphere is described at 500 nm. (`r0Wfs_exact_partial`)
* **C181 Extra errors of science targets and guide stars have the rms asked for** — Proved for a positive technical field, non-empty bands and a number or a pair. With the default technical field the value on axis is never used, lists of other lengths raise, an empty band gives nan. (`weight_pos_iff`, `extra_partial`, `extra_science`, `wanted_violation`, `list_violation`, `band_violation`)
* **C182 Low-order extra errors default to those of the science targets** — The limits of the band are not inherited. (`default_partial`, `default_violation`)
* **C193 The hypergeometric series of the outer scale are summed to the tolerance** — The stopping rule compares two consecutive terms, not a term with the tolerance: it stops at the crest of the series where two terms are equal (tip-tilt for (pi D/L0)^2 = 7/2 stops at 2, the sum is over 2.35). (`series_sum`, `series_zero`, `series_accurate_partial`, `series_violation`, `series_violation_far`, `unParam_tilt`, `tilt_series`)
* **C199 Every method of noise estimation returns the noise of each command and leaves the telemetry alone** — 'rtf' always raises, 'interpolation' works on frames instead of commands, unknown names give zero, and the telemetry is centred in place. (`noise_autocorrelation_partial`, `noise_rtf_violation`, `noise_other_violation`, `noise_interpolation_violation`)
* **C209 Data sets with a corrupted image are set aside** — The criteria are one chain of comparisons between sums: no image is ever found corrupted; only the test of the telemetry works. (`corrupted_range`, `corrupted_never_partial`, `corrupted_raises`)
* **C215 The fit of a SPHERE image returns all parameters, with or without static modes** — With the default arguments it always raises; without static modes the fit runs twice. (`fit_default`, `fit_spec_partial`)
* **C219 Sensor window, delay and gain are monotone in the magnitude and the frame rate** — The gain rises to 0.6 at magnitude 10.5 and is None from 11.3; the window of 1.5 pixels is never used; other filters raise. (`window_spec_partial`, `delay_spec`, `gain_spec`, `grab_spec`)
* **C225 The encircled energy of a supersampled profile is the energy in the disc** — The profile is integrated along the radius instead of over the disc: linear for a uniform image. (`superEe_spec_partial`, `superEe_uniform`)
* **C226 Radii, profile and encircled energy have the same length** — A maximal radius shortens the radii and the profile but not the energy. (`ee_lengths_partial`)
* **C227 The standard deviation of a ring is that of its pixels** — The limit of the first ring mixes bins and units: right only for bins of one unit. (`std_rings_partial`, `std_spec`, `std_first_ring_wrong`, `stddevs_partial`)
* **C231 A PSF without aberration has no negative pixel** — Holds for odd sizes; refuted for every even size from 4: the half-pixel shift gives a negative pixel. (`psf_odd`, `psf_even_negative`)
* **C240 Without a mask, the zonal OTF is that of all points of the grid** — Refuted: row numbers are used as positions; along one axis the OTF does not depend on the covariance at all. (`otfNone_refuted`)
* **C242 Units of the table: latencies in milliseconds, noise in radians** — Refuted: latencies are in frames (right only at 1 kHz) and the noise columns hold variances. (`row_units_partial`)
* **C243 The tip-tilt columns of the table describe the tip-tilt loop** — Refuted: both repeat the high-order loop. (`row_tiptilt_partial`)
* **C244 The anisoplanatism columns of the table hold the terms they name** — Refuted: the two columns are exchanged. (`row_swapped_partial`)
* **C245 The Strehl ratio of the image in the table is a fraction** — Right without a fit; with a fit the value is divided by 100. (`row_strehl_partial`)
* **C250 The reconstruction uses the estimated Fried parameter** — Refuted: the value read is 0.976 times the estimate, times airmass to the -3/5. (`r0_read_partial`)
* **C252 plot_metrics needs a number of bins only for histograms** — Refuted for a scatter plot without bins (TypeError). (`bins_spec_partial`)
* **C253 Bounds of PSFAO21 can be updated and are symmetric in position** — The update works at one wavelength only; the bounds of positions are asymmetric for odd fields. (`storeBounds_partial`, `defineBounds_odd`)
* **C254 The map of a covariance matrix is right for every stationary process** — Refuted: one quadrant is computed and mirrored. (`map_violation`, `map_right_partial`)
* **C255 Read-out noise is the scatter of the pixels in time** — Refuted: pixels are sorted first, so exposures that are rearrangements of one another give zero; fewer than 101 actuators raise IndexError (photons_cases). (`ron_violation`)
* **C256 One diameter is enough to select actuators, around the centre of the pupil** — Refuted: one diameter alone raises TypeError; the centre is half a pixel off. (`select_one_violation`, `select_centre_violation`, `select_ring`, `select_valid`)
* **C257 The tip-tilt covariance is a two by two matrix** — Refuted: without laser it is the variance of the first reconstructed mode. (`czTt_violation`)
* **C258 The distribution of test files can be resumed and never replaces a file** — Refuted: files of the same name are replaced; the files left may not divide into the sub-folders asked for. (`split_overwrites`, `split_resume_violation`, `resume_prime_violation`, `split_done`, `split_crash`)
* **C259 Random parameters lie within the bounds asked for** — Refuted: the rounding of the edges can exceed the bounds. (`bounds_violation`, `bounds_kept_partial`)
* **C260 Any number of test data can be taken** — Refuted: fewer than the number of sub-folders gives none, too many fails. (`testPerFolder_violation`, `taken_partial`)
* **C261 The intervals of a data base are read back also after an interrupted run** — Refuted: the folder test_data raises. (`recover_violation`, `recover_spec`)
* **C262 The last row of a result file is read** — Refuted: the last line is ignored. (`readRows_violation`, `readRows_partial`)
* **C263 Setting data sets aside creates the folder of the outliers** — Refuted: the first data set is renamed to the destination. (`moveAll_noOut`, `moveAll_spec`)
* **C264 Frames of any size can be stacked, with the neutral density of their header** — Refuted in all cases. (`stack_odd`, `crop_repeats`, `stack_density`, `crop_iff`)
* **C265 The starting r0 of the SPHERE fit follows the turbulence theory** — Refuted: it grows as the square of the wavelength. (`guessR0_spec_partial`)
* **C266 The width along y and the number of modes of the SPHERE table are right** — Refuted: it holds the width along x; the number of modes is wrong when they are on the last axis. (`table_fwhm`, `numberModes_iff_partial`)
* **C267 The coefficients returned without tip and tilt describe the phase that remains** — True only if the modes contain tip and tilt. (`tiptilt_coeffs_partial`, `tiptilt_coeffs_remain`, `tiptilt_coeffs_iff_partial`)
* **C268 The low-wind-effect error of rows that were not fitted is -1** — Refuted: rows that were not fitted hold -1 and get the error of these values; rows of zeros raise without the removal of tip-tilt. (`lwe_unfitted`, `lwe_zero`, `lwe_marker`)
* **C269 Missing telemetry of the sensor is handled** — Refuted: both raise. (`sparta_raises`)
* **C270 The outermost ring is part of a radial profile** — Refuted: the outermost ring is left out, and a single ring raises. (`profile_fails`, `profile_two_partial`)
* **C271 The radius returned with a profile is that of the pixels for bins smaller than a pixel** — Refuted: empty rings are skipped in the profile but not in the radii. (`small_bins_wrong_radius`)
* **C272 The standard deviation over a range of position angles uses the pixels of the range only** — Refuted: the range is ignored. (`std_ignores_range`)
* **C273 Reading results does not change the reconstruction** — Refuted: true only if the atmosphere was described at 500 nm. (`unpack_effect`)
* **C274 The table on simulations compares the estimates with the truth in the same units** — Refuted: without true_r0 the truth is overwritten by the estimate; the coherence times differ by a factor of a million. (`kasp_spec`)
* **C275 Processing the low-order section again changes nothing, with PSD expansion** — Refuted: it is multiplied by the ratio of the wavelengths each time. (`reconfigure_fov`, `reconfigure_not_idempotent`)
* **C276 NGS positions are appended after star positions given as an array** — Refuted: numpy adds the coordinates. (`coo_stars_positions_are_added`, `coo_stars_violation`, `science_positions`)
* **C277 One zenith can be shared by several azimuths at several wavelengths** — Refuted: one source is reported, and its directions raise. (`source_multiwavelength_azimuths`, `direction_spec`)
* **C278 An extracted layer is at the current wavelength** — Refuted: it has the new wavelength with the strength at the old one. (`slab_stale_after_setWvl`, `slab_spec`)
* **C279 Actuator index conversion is a bijection on rectangular arrays** — Refuted; roundtrip_iff_partial is the exact condition on the shape. (`roundtrip_iff_partial`, `ind2sub_sub2ind`, `roundtrip_fails`)
* **C280 The AO-corrected PSD is centred on odd grids, and grids that are too small are found out in advance** — Refuted: one pixel off; the check uses the wavelength of the atmosphere. (`embed_misaligned`, `fovCheck_too_lax`, `embed_odd_violation`, `fov_needed_partial`)
* **C281 Ensquared energy grows with the box up to the whole image** — Refuted: the Python slice wraps around at the lower edge. (`ensquared_wraps`, `ensquared_last_centred`, `ensquared_violation`, `ensquared_mono`)
* **C282 Focal anisoplanatism grows up to the laser and the two functions reporting it agree** — Refuted: the constants differ, and both decrease near the laser. (`focal_not_monotone`, `focal_reports_disagree`, `focal_altitude`)
* **C283 Local time converts to UT on the last evening of a month** — Refuted: the 32nd of January. (`toUT_iff`, `toUT_violation`)
* **C284 Delayed commands of several actuators or whole delays are interpolated with unit weight** — Refuted: whole delays count twice and actuators are mixed. (`comDelta_integer`, `comDelta_axis`, `comDelta_single`)
* **C285 Rectangular images can be resampled with the default kind** — Refuted: always raises. (`interpolate_rectangular`, `interpolate_partial`)
* **C286 The width of any profile is defined** — Refuted; fwhm1d_raises_iff_partial is the exact condition under which it raises. (`fwhm1d_raises_iff_partial`, `fwhm1d_violation`, `fwhm1d_flat_top`)
* **C287 Sources appear where they were put at every wavelength** — Refuted for a binning of two and for wavelengths binned differently. (`astrometry_violation`, `astrometry_exact`)
* **C288 The PSF returned by a fit at several wavelengths has unit flux and neither offset nor background** — Refuted: fitted offsets and backgrounds remain. (`psfParams_violation`, `psfParams_iff_partial`)
* **C289 Bounds narrowed after a first fit can be used for a second fit** — Refuted: parameters without error get equal bounds; the number is right for one layer, star, wavelength and frame only. (`updateBounds_degenerate`, `updateBounds_length_partial`)
* **C290 Changing the reflectivity of a segment keeps a phase applied before** — Refuted: the phase is erased. (`reflect_violation`, `reflect_spec`)
* **C291 Filling gaps only lights pixels between segments** — Refuted: a single segment gets whole rows lit; circular segments raise. (`fillGap_violation`, `circle_violation`, `segment_partial`)
* **C292 Selected stars can be extracted with odd windows** — Refuted: a pixel can be lost at the border. (`extract_odd_violation`, `candidate_odd_iff_partial`)
* **C293 PSFs are interpolated at the centres of odd tiles** — Refuted: one pixel off. (`grid_violation`, `grid_odd_partial`)
* **C294 The field value of a parameter lies within its estimates also when some have no error** — Refuted for both. (`wMean_violation`, `wMean_zero`, `wMean_bounds`, `wMean_outside_violation`)
* **C295 One variance for all sensors describes independent noises** — Refuted: it is constant, that is fully correlated noise. (`noiseCov_single`, `noiseCov_partial`)
* **C296 Cropping inverts enlarging when the padding is odd** — Refuted: a row is lost. (`crop_enlarge_shrinks`, `crop_enlarge_violation`, `crop_enlarge_partial`)
* **C297 The noise gain of every loop is non-negative** — Refuted: below 0.002 Hz the frequencies decrease. (`noiseGain_negative`, `noiseGain_nonneg`)
* **C298 The wavelengths of a filter curve with repeated duplicates become strictly increasing** — Refuted. (`fixWaves_violation`, `fixWaves_isolated`)
* **C299 The points of the zonal covariance match the grid of separations for any aperture** — Refuted. (`pointLoc_violation`, `pointLoc_fraction_partial`)
* **C300 The computation can be repeated with several sensors** — Refuted with several sensors, and when the field of view is too small at the science wavelength only. (`second_run_violation`, `second_run_fov`, `second_run`)
* **C301 Contour points around a single bright pixel are at the level** — Refuted: the point is the peak. (`contour_violation`, `contour_level`)
* **C302 The filter of outliers keeps a round contour** — Refuted: all points are removed. (`keep_violation`, `keep_half`)
* **C303 The width of an image by fitting does not depend on the resampling, and round contours are measured** — Refuted: the resampling factor is ignored; a round contour is never measured. (`rebin_violation`, `round_violation`)
* **C304 The images of the data base of r0 depend on r0** — Refuted. (`totalPsd_violation`, `totalPsd_stat`)
* **C305 A verified data base has all its values below the upper edge of their interval** — Refuted: the last column is not compared. (`verified_violation`, `verified_lower`)
* **C306 Sorting telemetry works in every folder** — Refuted: the run stops at the date. (`sort_blocked`)
* **C307 A piston does not degrade the OTF of odd size** — Refuted: fftshift moves the zero frequency one pixel too far. (`piston`)
* **C308 telescopePsf has the requested pixel scale below two pixels per lambda/D** — Refuted: the pixels are half of what was asked. (`telescopePsf_undersampled`, `telescopePsf_sampling`)
* **C309 The focal-angular structure function of an off-axis source is the variance of the differential phase** — Refuted: one term has the wrong sign of the direction (focal_exact_partial), and the angular part is counted twice. (`focal_exact_partial`, `focal_violation`, `focal_twice`)
* **C310 The anisokinetism structure function is the variance of the differential tilt** — Refuted: the cross terms multiply by a transposed array; several sources raise. (`kernel_exact`, `kernel_violation`, `kernel_sources_partial`)
* **C311 The ground layer is a number** — Refuted: not a number. (`combine_violation`, `combine_partial`)
* **C313 A download of seeing measurements that failed or was interrupted is tried again** — Refuted: the folder made by the first load stops any later download; the outcome of all later loads is given for every failure and crash point. (`later_loads_partial`, `retry_violation`)
* **C315 Missing layers of a measured profile are not used** — Only when all layers are missing; refuted with one missing layer. (`missing_whole_partial`, `missing_layer_violation`)
* **C320 samplingFilterProfile returns one dispersion per wavelength** — Refuted for nWvl = 0 and a wide filter. (`dispersions_partial`, `dispersions_violation`)
* **C323 The static coefficients of a test are those of its PSFs** — Refuted: the last coefficient is dropped, so that all are ignored, and fits with static modes always raise. (`p2x_modes_partial`, `static_violation`, `fit_static_violation`)
* **C326 The start is scattered by the amplitude asked for** — Only for 20 percent: the amplitude is ignored. (`init_partial`, `init_violation`)
* **C327 The accuracy tables give the bias and scatter of the errors in percent** — The mean bias only; the scatter is zero for one test, and fractions of opposite sign are reported for percents. (`bias_mean_partial`, `std_violation`, `percent_violation`)
* **C330 The split fit completes whatever was fixed in the first stage** — Refuted for a fixed PSD parameter, or when the confidence interval failed. (`second_start_partial`, `second_stage_violation`)
* **C331 split_fitting_psfao and joint_fit use the start, mask and weights given** — Start and mask of the split fit only; weights are ignored by both, all three by the joint fit. (`split_args_partial`, `joint_args_partial`, `args_violation`)
* **C333 fit_all_PSFs fits every PSF of the folder once** — Files are drawn with replacement; raises unless there are 36 static modes. (`fitAll_partial`, `fitAll_violation`, `fitAll_modes_violation`)
* **C335 read_catalog skips the header lines** — Refuted for every nSkip but 1: it raises, or repeats the first star. (`catalog_violation`, `catalog_two`, `catalog_spec`)
* **C337 Simulated tip-tilt slopes are free of static offsets with a laser guide star** — Refuted: the mean of the file is kept, scaled. (`tiptilt_mean_lgs_partial`, `tiptilt_not_centred_lgs`)
* **C342 Petals can be used whenever they were asked for** — Refuted for spiders thinner than a pixel. (`petals_available_partial`, `petals_thin_violation`, `petals_iff_partial`)
* **C344 Phases applied to petals one after the other add up** — Refuted: a call replaces the petal phase of the one before. (`petal_replaces_partial`, `petal_accumulate_violation`, `petal_accumulate_iff_partial`)
* **C345 Reset restores the pupil as it was built** — For maps of zeros and ones; refuted for partly reflecting segments. (`reset_restores_partial`, `reset_reflexivity_violation`, `reset_restores_iff_partial`)
* **C346 Building a pupil does not alter the segment it is built from** — Without filling of gaps; refuted with it (the default). Pupils of one segment. (`build_keeps_partial`, `fillRef_lit`, `build_shared_violation`, `build_alters_violation`, `fillRef_rows`)
* **C348 Weights of a fit have the shape of the image** — Only the number of rows is checked: a vector weighs the columns. (`weights_same_partial`, `weights_refused`, `weights_vector_violation`)
* **C350 An interrupted query of SPARTA data is completed by the next** — When the script leaves the folder alone as it fails; refuted when it wrote the file of the sensor, or beside a stray file. (`query_resumed_partial`, `query_interrupted_violation`, `query_stray_violation`)
* **C351 AO systems can be printed** — Refuted: the description of the mirrors raises. (`print_optics_partial`, `print_violation`)
* **C352 Printed delays are those of the loops** — Low-order loop only when both rates agree. (`printed_delay_partial`, `printed_delay_violation`)
* **C355 Directions mean the same with one guide star and with several** — Refuted: with one guide star the two components of the separation are exchanged. (`decorr_exchanged_partial`, `tomography_direction`, `separation_violation`)
* **C356 Differential refraction acts along the azimuth of the source** — Refuted: the azimuth in degrees is used as radians. (`refraction_azimuth_partial`, `refraction_azimuth_violation`)
* **C359 Spectra are the same at opposite frequencies** — Refuted for aliasing: the replicas go from -n to n-1. (`opposite_frequencies_partial`, `aliasing_opposite_difference`, `aliasing_opposite_violation`)
* **C361 Frequencies the mirror does not correct hold the turbulence once** — Refuted: layers add their cone effect up to kc/(1-h/H). (`cone_far_partial`, `cone_beyond_cutoff_violation`)
* **C362 The cone effect is defined for every profile** — Refuted for a layer at the altitude of the laser. (`conePsd_defined_partial`, `cone_at_laser_violation`)
* **C364 Vibrations are reported with their residual power** — Refuted: the share of the frequencies of tilt outside the corrected area is lost. (`windVar_share_partial`, `windVar_violation`)
* **C367 Spectrum and breakdown can be computed again after the memory was reduced** — Refuted: exact set of the histories that raise nothing. (`reduced_history_partial`, `reduced_violation`)
* **C370 Strehl ratios at several wavelengths are relative to the diffraction limit of each** — Refuted: all wavelengths are divided by the diffraction-limited OTF of the reference one. Exact value when the padded pupils are multiples of the OTF; the interpolant of scipy is assumed to go through its samples. (`reference_partial`, `perfect_strehl`, `longer_violation`, `square_violation`)
* **C375 The list of optimisation directions is a weighting of the field** — Refuted: with one direction there is no conditioning, with several there is. (`directions_split_partial`, `one_direction_twice_violation`)
* **C377 Anisoplanatism is along the direction of the target** — Refuted: the two coordinates of the target are exchanged. (`aniso_diagonal_partial`, `aniso_exchanged`, `aniso_axes_violation`, `tomographic_axes`)
* **C378 Turning an observation with one guide star turns its spectra** — Refuted for targets off axis under wind, as the coordinates of the target are exchanged and those of the wind are not. Aliasing is not included. (`turned_partial`, `turned_offaxis_violation`)
* **C380 Errors in nanometres do not depend on the science wavelength, with one guide star** — Refuted with the minimum-variance reconstructor, whose regularisation divides a noise at the science wavelength by a turbulence at the wavelength of the sensor. (`wavelength_free_partial`, `minimum_variance_wavelength_violation`)
* **C381 Only relative directions matter** — Refuted with two mirrors and two optimisation directions: the regularised inverse takes transposes without conjugation. Proved with one optimisation direction or mirrors at the same height. (`pointing_partial`, `pointing_violation`)
* **C382 Turbulence at the height of the mirror is corrected alike in the whole field** — Refuted with lasers: heights of layers are stretched, heights of mirrors are not. Proved for the heights as the model has them. (`conjugated_uniform_partial`, `conjugated_laser_violation`)
* **C386 Dead pixels are replaced by the weighted mean of their neighbours** — Refuted: lists cannot be made, and the correction of an image only succeeds by doing nothing; with two neighbours the pixel becomes their sum. One-dimensional images. (`dead_pixels_partial`, `dead_pixels_fails_violation`, `dead_pixels_sum_violation`, `frame_violation`)
* **C387 Rotating a pupil rotates its reflexivity and its phase and records its angle** — Refuted: the recorded angle is that of the last call and phases of petals are lost. The rotation of scipy is any function. (`rotation_partial`, `rotation_zero`, `rotation_angle_violation`, `rotation_petals_violation`)
* **C388 Resizing a pupil gives the size asked for and keeps its geometry** — Refuted without replacement and for segments. (`resize_partial`, `resize_back_violation`, `resize_segments_violation`)
* **C390 Files given for a telescope are used or reported** — Refuted: missing files are ignored; the test of the name takes any character for the dot, anywhere in the path. (`telescope_files_partial`, `telescope_missing_violation`, `telescope_names_violation`)
* **C391 Maps read from files have the resolution of the telescope** — Refuted for maps that are not square and have the right number of rows. (`loaded_map_partial`, `loaded_columns_violation`)
* **C392 Influence functions and example masks can be computed** — Refuted: both always raise. (`influence_partial`, `influence_violation`, `example_masks_violation`)
* **C394 Reading a parameter file of SPHERE does not change it** — Refuted: the basis is written to the file. (`read_ini_partial`, `read_ini_violation`)
* **C398 The zenith angle stretches heights exactly once** — Refuted for the anisoplanatism structure function and wavefront error, where heights on the line of sight are multiplied by the airmass again. (`heights_once_partial`, `heights_twice_violation`, `heights_disagree_violation`)
* **C400 Zenith angles are accepted above the horizon only** — Refuted: angles between -270 and -90 degrees are accepted. (`zenith_accepted_partial`, `zenith_below_violation`)
* **C402 A star too faint corrects nothing** — Refuted for one guide star with the default MV = 0, where the noise grows without bound; proved with MV > 0 and with several stars. (`faint_star_partial`, `faint_field`, `faint_star_violation`)
* **C403 Fainter guide stars never improve the correction** — Proved in still air towards the optimised direction and, with MV = 0, in general; refuted with a wind that turns the correction into its opposite. (`fainter_stars_partial`, `fainter_star_partial`, `fainter_star_default_partial`, `fainter_stars_violation`)
* **C404 Correcting is never worse than not correcting** — As C403; refuted with wind, and with one star when the noise gain times the squared ratio of wavelengths exceeds twice the static gain. (`correction_helps_partial`, `fainter_star_partial`, `correction_hurts_violation`, `correction_hurts_one_violation`)
* **C406 The pixel option of the Fourier model is one detector pixel** — Proved for an oversampling of two, refuted for every other one: the square is two fine pixels wide. (`pixel_option_partial`, `pixel_option_violation`)
* **C407 A PSF with pixel holds what the detector records** — Proved for reconstructed PSFs without binning; refuted with binning, where the pixel is counted twice, and for the Fourier model with every oversampling. (`recorded_once_partial`, `recorded_twice_violation`, `option_never_recorded_violation`)
* **C409 The result of a call does not depend on earlier calls** — Proved for calls with static coefficients, after calls without any, for vectors of one length (fits) and for the Fourier model at several wavelengths. Refuted otherwise: a call without static coefficients uses those of an earlier call. (`call3_fresh_partial`, `call4_fresh_partial`, `same_length_partial`, `repeat_partial`, `last_coefficients`, `stale_violation`, `not_memoryless`)
* **C410 The angle given for the static map is applied** — Proved for the function for several wavelengths when the static OTF is computed again; refuted elsewhere: the angle is ignored, also by psfR. (`rotation_partial`, `rotation_ignored`, `rotation_violation`)
* **C411 PSF reconstruction returns one image per star and wavelength** — Proved for one star at one wavelength. Refuted for several stars (ValueError) and several wavelengths (the same image at all of them). (`psfao_cube`, `psfr_one_partial`, `psfr_stars_violation`, `psfr_wavelengths_violation`)
* **C412 PSFAO21 keeps the Strehl ratios of all images of a call** — Only the last wavelength is kept. (`kept_one_partial`, `kept_last_violation`)
* **C413 SpotFWHM is the FWHM of the jitter** — Proved to be Gaussian blurs, of known covariance; refuted that the numbers given are their FWHM. (`umax_pixel`, `jitter_gauss`, `jitter_gauss_exists`, `jitter_axes_partial`, `jitter_variance`, `jitter_fwhm_violation`, `jitter_contrast_violation`, `jitter_variance_violation`)
* **C414 The jitter of the breakdown is that of the PSF** — Within a factor of two thirds; always underestimated. (`breakdown_partial`, `breakdown_violation`)
* **C415 A cropped image has the size asked for and is centred on the star** — Even fields and stars far from the edges. Refuted: odd fields are off by one pixel, a star near the first rows makes the loading fail, near the last ones the image is smaller than recorded. (`crop_centred_partial`, `crop_whole_partial`, `crop_odd_violation`, `crop_edge_violation`, `crop_last_violation`)
* **C417 The mode and wavelengths of the sensors come from the header, and telemetry loads in both modes** — Refuted in LGS mode without the block of the tip-tilt sensor: the loading fails. (`restore_ok_partial`, `wavelengths_partial`, `laser_violation`)
* **C419 The series of residuals have a zero mean** — Without decimation; refuted with it: means are removed before. (`zero_mean_partial`, `zero_mean_violation`, `focus_mean_iff_partial`)
* **C420 The frame rate is the one of the frames returned** — Rate of the file; refuted for the frames kept by a decimation. (`rate_partial`, `rate_tiptilt_partial`, `rate_violation`)
* **C422 The turbulence profile can be compressed whatever its origin** — Proved for measured profiles; refuted for the median one: the loading fails for fewer than seven layers (one is the default). (`weights_measured_partial`, `compress_measured_partial`, `compress_same_partial`, `compress_median_violation`)
* **C424 The folder of TIPTOP is found** — Installed packages, and characterisation of what is found in the call stack; refuted: any folder of this name is taken for TIPTOP. (`installed_partial`, `stack_partial`, `folder_partial`, `stack_violation`, `import_stack_partial`)
* **C425 P3 can be imported whatever is around** — Refuted when Python finds a folder tiptop that is not a package (TypeError). (`import_partial`, `import_violation`)
* **C428 A PSF of any size smaller than the field of view can be asked for** — Proved when the ratio of the sizes is a machine number; always within one pixel. Refuted: 44 pixels out of 100 fail (ValueError). (`psfSide_partial`, `boxSide_near_partial`, `psfSide_violation`, `crop_100_44`)
* **C431 The grid of frequencies is symmetric** — Symmetric when the offset is lost by rounding or zero; refuted in double precision. (`freqAt_symmetric_partial`, `freqAt_symmetric_violation`)
* **C433 The size of the corrected area does not depend on the wavelength at Nyquist sampling** — Within one element; refuted: 39 m and one metre give 77 at 1.25 microns and 78 at 2.2 microns. (`nyquistResAO_partial`, `nyquistResAO_violation`)
* **C434 Actuators are located for any pitch** — Proved when nothing is rounded; one point too many at worst. Refuted for 3.6 m and 7.2 cm (IndexError). (`pointWise_partial`, `pointWise_violation`)
* **C438 The numbers of frames recorded are those of the series** — Without decimation; refuted with it. (`frames_partial`, `frames_violation`)
* **C439 A data file that is fetched is in the folder given** — Proved for folders given with a final separator; refuted for all others, for which the file is saved next to the folder and downloaded at each call. (`download_partial`, `glued_iff`, `download_violation`, `getDataFile_fails_iff`)
* **C440 A fetched data file is complete** — Proved without interrupted transfers; after one, the truncated file is kept for good. (`whole_partial`, `truncated_violation`)
* **C441 The segments of a pupil are copies of the reference segment** — Map and coordinates; the other attributes are those of the reference exactly when it has the defaults. (`copies_partial`, `construct_partial`, `copies_violation`)
* **C442 A phase of zero or a displacement of zero changes nothing on a segment** — Exactly for references equal to the default polygon; refuted for the others. (`zero_phase_partial`, `dim_phase_violation`, `dim_shift_violation`)
* **C443 Gaps that were filled stay filled** — Refuted: a phase of zero opens the gap again. (`zero_phase_partial`, `filled_violation`)
* **C444 Modes are defined over what they are applied to** — Refuted for references of reflectivity other than one; an unknown area ends in UnboundLocalError. (`modes_partial`, `petal_modes_partial`, `modes_violation`, `modes_other`)
* **C445 The precision of a model can be changed** — Proved before the first computation; the grid and the maps of the telescope keep their precision afterwards. (`precision_pair`, `precision_partial`, `precision_violation`, `maps_violation`)
* **C448 The tables of results are saved in the folder given** — Proved for folders given with a final separator; refuted for all others. (`saved_partial`, `saved_violation`)
* **C449 A segment with a phase can be moved** — Exactly when the computed modulus of the pixel is one; refuted in double precision for a phase of 41/64 radian, for which the pixels are doubled. (`moved_partial`, `modulus_near_partial`, `moved_zero_partial`, `moved_violation`)
* **C450 The refractivity of air follows the pressure and the temperature** — Proved from 0.4 to 1.3 micrometres, in K, L, M, N and in the middle of Q; refuted at the ends of Q, where the refractivity is negative or twice too large (the entries of the last two rows of the Q table for temperature and humidity are of the sizes of each other). (`mathar_gas_partial`, `ciddor_gas`, `mathar_violation`)
* **C456 The isoplanatic angle of a finite outer scale exists** — Unique when it exists; it exists exactly when the variance of the phase of the layers above the ground exceeds one square radian. False otherwise: with an outer scale below two Fried parameters (thermal infrared) the equation given to fsolve has no solution. (`isoplanatic_finite_partial`, `isoplanatic_violation`)
* **C462 Every option of the low-order sensor section reaches the sensor** — SizeLenslets, WfsType, Modulation and ThresholdWCoG have no effect. (`lo_options_partial`, `lo_ignored_violation`)
* **C466 Options left out have the documented defaults** — Excess noise factor, window radius, weight of the directions, flux and field of the camera have other defaults. (`documented_defaults_partial`, `documented_defaults_violation`, `documented_fov_violation`)
* **C467 The template parameter file builds a system** — NumberLenslets = 4 in sensor_LO is refused by a TypeError. (`template_partial`, `template_violation`)
* **C468 Turning the loop off** — The limit holds in the corrected area, refraction and chromatism apart; outside it the loop that is off removes the piston, the other does not. (`open_loop`, `open_limit_partial`, `open_limit_violation`)
* **C469 Stars outside the image are refused** — Refused when the window crosses a border; taken from the opposite corner when it is wholly before the first pixel. (`extract_outside_violation`, `extract_iff_partial`)
* **C470 An empty path is the same as no path** — Holds for the six maps of the telescope; an empty file of vibrations is accepted and fails when the spectrum is computed. (`empty_path_partial`, `empty_vibration_violation`)
* **C471 Energies on the figures** — Interpolation, growth and range hold; the square shown has the side 2R+ps, the titles say R or 2R, and the contours use the pixel of the first wavelength. (`shown_defined`, `shown_line`, `shown_mono`, `square_partial`, `square_violation`, `contour_scale_violation`)
* **C472 Sources on the figures** — With several wavelengths the title has the angles of the first and last sources. (`pair_partial`, `pair_violation`, `contours_iff`)
* **C475 Both breakdowns report the same fitting error** — With the default round corrected area the ratio is A (1 + (2 pitch / L0)^2)^(-5/12) with 1.08 < A < 1.1: more than 5 percent apart for an outer scale above ten pitches. With a square area they agree within 2 percent for a large outer scale, and the Fourier one is at most 1 percent above. (`fitting_ratio_partial`, `fitting_differs_violation`, `fitting_square_partial`, `fitting_run_limit`, `plane_limit`, `left_spectrum`)
* **C478 The fit of a field accepts every parameter file** — Exactly one fitted layer, one wavelength and no static mode; otherwise the numbers differ for every number of stars (violation) and the fit raises. (`start_bounds_partial`, `start_bounds_violation`)
* **C480 The PSF of a sub-image is that of its fit** — r0 is the median of the fitted ones, between their bounds, the other parameters are the sub-image's; own PSF exactly when its r0 is the median. With two different r0 neither PSF is its own (violation). (`common_partial`, `common_violation`)
* **C481 A sub-image that cannot be fitted does not lose the field** — A result exists exactly when every sub-image with a star is fitted; one failure loses all (violation). (`run_iff_partial`, `run_violation`)
* **C482 Interpolation over a field with sub-images without star** — One PSF per segment: defined exactly when at least as many fitted sub-images as neighbours used, and then the nearest fitted ones. With several PSFs per segment one sub-image without star leaves no number anywhere (violation). (`unfitted_partial`, `unfitted_violation`)
* **C485 A calibration that fails leaves the parameter file as it was** — Unchanged exactly without the section or when the field of view was already the one written; the default limits of magnitude fail after the file is rewritten (violation). (`untouched_partial`, `untouched_violation`)
* **C488 An unknown interpolation is refused as such** — Never returns, but the name is looked at last: any other failure is reported instead (violation). (`unknown_partial`, `unknown_violation`)
* **C489 Size of the PSFs of a calibrated field** — Exact sizes; the enlarged size only when it is even and the PSFs are interpolated, not the parameters (violation). (`size_partial`, `size_violation`)
* **C490 Interpolation of the parameters over a field with sub-images without star** — With positive errors everywhere every PSF is that of parameters between the fitted ones; one sub-image without detection leaves none (violation). (`parameters_partial`, `parameters_violation`)
* **C492 Segmented modes are the means of the modes over the segments** — The mean exactly when it is within half a turn, otherwise up to turns of 2 pi (violation). Low resolution: C496. (`mode_partial`, `mode_violation`)
* **C495 Reducing an image averages its pixels** — False: one pixel per block is kept and the others are ignored. (`reduce_partial`, `reduce_violation`)
* **C498 The centre of an image stays at the centre when it is resized** — True for the linear kind; for the nearest pixel the exact condition on the sizes, which fails for reductions by more than two to an even size. (`centre_linear_partial`, `centre_nearest_partial`, `centre_violation`)
* **C499 A loaded pupil or apodizer stays between zero and one** — Without rotation of the pupil. (`loaded_range_partial`)

## Notes on proved properties

* **C06** — reconfigure_fov is the exact effect in all cases.
* **C08** — Existence of the breakdown is C124.
* **C17** — The second row is C125.
* **C19** — The copy made by the frequency domain and single bins are C126.
* **C22** — The chromatic term is C127.
* **C23** — embed_spec gives the exact offset also for the other parities.
* **C27** — Exact arithmetic; normalize_finite says exactly when the normalisation divides by zero.
* **C28** — Existence for every wavelength is C130.
* **C30** — Proved as stated; the curve is normalised without the outermost bin (encircled_ignores_last_bin).
* **C33** — Bounds and the index of the flux are C131.
* **C34** — J1(x)/x is Poisson's integral.
* **C46** — Proved for every index; a list passed to the method that is longer than the object's own list fails (findNMList_violation).
* **C49** — Wavelengths outside all bands are C135, states other than the reference C450.
* **C50** — Rotation, shrinking and the limits are C136.
* **C51** — Integer start vectors are C137.
* **C53** — Rectangular tiles and sizes that do not divide are C138.
* **C59** — C139 for the options that are not read or not updated.
* **C69** — A single bin: wavelength_single_bin and C126.
* **C89** — In floating point the modulus of exp(i phase) may differ from one, which is outside the model.
* **C92** — Other cases are C145.
* **C114** — After subtraction of noise: C151.
* **C160** — Without resampling of the OTF (spline interpolation is not modelled).
* **C185** — Without lag; the quadrature is a parameter (positive linear functional); J0 and J2 are Bessel's integrals.
* **C190** — Which calls return widths, and how many values. Given the cuts, see C72.
* **C191** — An empty list raises IndexError.
* **C198** — The pseudo-inverse is any generalised inverse of the Gram matrix: modes whose singular values fall under rcond are not covered.
* **C213** — A file of the same name in the folder of the date is replaced.
* **C224** — The cubic spline is assumed to pass through its points.
* **C233** — Even sizes for the formula, all sizes for the bounds.
* **C234** — Without the final interpolation.
* **C236** — When the padding and the intermediate size are exact.
* **C237** — Separations inside the output grid, points within nPh pitches.
* **C238** — Before the final interpolation.
* **C239** — Before the final interpolation.
* **C241** — The other eight columns are those of C242 to C245.
* **C247** — File names are opaque; other files with the same identifier are never used.
* **C248** — Rows are opaque but for their date; the order of equal dates is left open.
* **C312** — The content of truncated files is not modelled.
* **C314** — MASS seeing missing or equal to the one of its profile, at most the DIMM seeing (see C311 for the other case).
* **C317** — Dates are day numbers; the calendar is that of datetime.
* **C318** — ASCII case.
* **C319** — polyfit as the exact least-squares line; two wavelengths must differ.
* **C324** — Exact arithmetic.
* **C329** — The solver respects its bounds; real arithmetic.
* **C332** — Tables of fits with 36 static modes, the only ones written.
* **C334** — Words instead of numbers.
* **C336** — Exact arithmetic.
* **C341** — Points on the border of a bar count as outside.
* **C343** — Petal numbers that are not negative.
* **C349** — The script is a parameter.
* **C353** — Exact arithmetic.
* **C365** — For every value of the arrays; all configurations.
* **C366** — Induction over the calls.
* **C368** — The OTF has the size of the padded pupil (no interpolation). Exact arithmetic.
* **C371** — Any generalised inverse for the sensors; the one of numpy has no cut-off in exact arithmetic.
* **C372** — The noise variances are positive.
* **C374** — On grids of frequencies closed under the change of sign.
* **C376** — The noise is rescaled by the model; the cut-off frequencies do not depend on the wavelength.
* **C389** — Windows inside the map.
* **C395** — Non-negative weights and heights; isoplanatic angle for an infinite outer scale only.
* **C396** — Infinite outer scale, layers of positive weight.
* **C399** — Heights on the line of sight are the data of the modelled observations, see C398 for how they are made.
* **C401** — Away from the zero frequency, except at the sample taken for the centre.
* **C405** — Without Nyquist sampling option.
* **C418** — A single command is repeated by numpy at all actuators.
* **C426** — Floating-point model: every operation rounded to nearest, any precision, any choice at ties; unbounded exponents.
* **C451** — The Bessel function of scipy is its integral representation (Spec/Turbulence.lean).
* **C453** — Within three thousandths.
* **C457** — The Bessel function of scipy is its integral representation (Spec/Turbulence.lean). Off-axis sources of the focal function: C309.
* **C460** — Real arithmetic.
* **C461** — Flux lists shorter than the number of sensors: C14.
* **C463** — The field of view in pixels: C04.
* **C464** — Fried parameter and heights, which depend on the airmass: C395, C398.
* **C465** — Pitches, heights, numbers of actuators, couplings: C16.
* **C473** — The densities are inputs (bounded, continuous almost everywhere); that of the fitting error is the spectrum of the atmosphere of the code.
* **C477** — Every number of stars; start_read for one layer and one wavelength, the files C478 accepts.
* **C479** — Detection and the fit of one sub-image are arguments.
* **C484** — Detection, PSF model, fit and polyfit are arguments.
* **C486** — At least one star per tile asked.
* **C487** — Odd sub-images: C292.
* **C491** — One star per tile; several: C482. At a star: C155.
* **C493** — The degree-one interpolant of scipy is written out, with abscissas brought into the range of the samples.
* **C496** — Segments without common pixel for the bound of half a turn.
