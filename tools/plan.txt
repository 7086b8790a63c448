C01 Model `os.path.join`, `lstrip`, `isfile` (an arbitrary predicate on strings) and the function branch by branch; spec = ordered list of (condition, result). Case analysis.
C02 Parameter map as section -> option -> value; the constructor's validation as an `Except Err` program in source order; spec = a list of defects; soundness and completeness by case analysis.
C03 Model `str.format` with positional arguments; refute with a witness, prove for a one-element list.
C04 Real arithmetic (ceil on R); order lemmas on `Int.ceil`.
C05 Decision function over counts; spec table.
C06 State machine with the stored FieldOfView; refute idempotence; prove it when the ratio rounds to one.
C07 Lists; index lemma i - nSrc + nLO.
C08 Reals, `Real.sqrt`, `Real.exp`.
C09 Parameter map lookup; refute by witness (the key looked up is never the option's name).
C10 Lists of reals, branches of the constructor.
C11 State machine of wavelength assignments; invariant by induction on the history; `Real.rpow`.
C12 Lists + rpow; refute after wavelength change.
C13 Reals, Except; monotonicity by `gcongr`-style inequalities.
C14 Python list of numbers-or-lists; refute by witness; partial when enough counts.
C15 Naturals/Int; refute on 2x3; prove for square shapes.
C16 Lists; structural lemmas.
C17 Lists.
C18 Options and reals.
C19 List of reals; numpy slice assignment with broadcasting error.
C20 `Int.ceil` on positive reals.
C21 Nat/Int arithmetic.
C22 Pointwise on arbitrary functions.
C23 Nat/Int arithmetic with ceil of halves.
C24 Int arithmetic.
C25 Finite sums over ranges (Mathlib `Finset.sum`).
C26 Images as size + pixel function.
C27 Case analysis on type; reals.
C28 Finite sums.
C29 `Real.exp`.
C30 Lists, prefix sums.
C31 Python slices with negative indices; refute; partial for boxes inside the image.
C32 Finite sums over slabs; rpow.
C33 Offsets as naturals.
C34 Reals; the Bessel-like function is an arbitrary parameter.
C35 Index functions; refute.
C36 Loop with carried state; refute.
C37 Complex numbers.
C38 Complex numbers.
C39 Fold over flags.
C40 Finite sums.
C41 Lists split into chunks; induction.
C42 Naturals.
C43 Finite cosine sums.
C44 Reals.
C45 Integers; refute for even order.
C46 Integer square root; `Nat.sqrt`.
C47 Pointwise.
C48 Reals.
C49 Piecewise on reals.
C50 State machine of operations with `Except`.
C51 Lists with masks; induction.
C52 Heap with references.
C53 Index arithmetic.
C54 Reals.
C55 Heap with aliasing.
C56 exp/log.
C57 Calendar arithmetic.
C58 Reals, ceil/floor.
C59 Key-value map state machine.
C60 Reals; arctan2 as a parameter-free definition; refute on the swapped arguments.
C61 State machine of wavelength changes; weighted means of lists bounded by their extremes.
C62 Real powers; the Bessel function kv is a parameter.
C63 Finite sums of `1 - cos`; bounds term by term.
C64 Reals; closed formulas of the variances of tip-tilt anisoplanatism.
C65 State machine with an exception at any step of the computation.
C66 Floor and maxima of lists of reals.
C67 Decision function over modes with exceptions.
C68 Median of a list; refute: masked pixels are in the median.
C69 Lists of reals, insertion sort.
C70 Interpolant as a parameter that goes through its samples.
C71 Index arithmetic of the window, sums of squares.
C72 Lists of reals, first and last index above half maximum.
C73 Heap semantics: functions return the array of the caller after the call.
C74 Discrete phasors; complex exponentials and shifts of indices.
C75 Real quadratic forms; unit comparison of the two functions.
C76 Norms of products and sums of complex numbers.
C77 Shapes of arrays.
C78 Shapes of arrays.
C79 Lists, linspace.
C80 Reals.
C81 Complex numbers; refute with an imaginary rejection.
C82 Integrals over the disc: Fourier orthogonality in angle, polynomial integrals in radius, with Mathlib's interval integral.
C83 Pointwise on a pixel grid.
C84 Finite sums; quadratic form of the coefficients.
C85 Shapes of arrays.
C86 Reals.
C87 Ceil arithmetic of the allocated size.
C88 Maps of pixels with windows given by positions.
C89 Complex pixels; modulus and phase.
C90 Sets of pixels.
C91 Labelled maps.
C92 The optimiser is an arbitrary function that answers inside the bounds it gets.
C93 Lists; scaling of residuals.
C94 Lists; model vector rebuilt from the fit.
C95 Gram matrices, inverse, quantile as a parameter.
C96 Intervals of extended reals.
C97 Arrays of two to four dimensions with the caller's array returned, to see in-place changes.
C98 Reals; comparison of weights.
C99 Lists; sorting by a key that is a parameter.
C100 Index arithmetic.
C101 Index arithmetic.
C102 Weighted means.
C103 Key-value map state machine.
C104 Minimum over a table, calendar arithmetic.
C105 Real powers, finite sums.
C106 Finite sums over frames; quadratic forms as sums of squares.
C107 Complex numbers.
C108 Tables decided by the kernel (the quantifier is the table).
C109 Lines through points; logarithms.
C110 Lists of frames.
C111 Tables and strings.
C112 Matrices: singular value decomposition as a hypothesis, autocorrelation by finite sums over the pupil.
C113 Reals with `none` for not-a-number.
C114 Quadratic forms of 2x2 matrices.
C115 `sinc` bounds (Jordan's inequality).
C116 Finite sums.
C117 Positive semi-definite matrices, exponentials.
C118 Index arithmetic of the flattened array.
C119 Complex matrices: Loewner order, normal equations, Moore-Penrose inverse; optimality by completing the square.
C120 Broadcasting of a one-by-one matrix.
C121 Least squares with Tikhonov regularisation in complex matrices; refute with two mirrors and an asymmetrical field.
C122 Pointwise with the cut-off mask.
C123 Complex matrices and phasors.
C157 Correlation theorem on Z/N x Z/N and Cauchy-Schwarz.
C158 Padded index arithmetic: no wrap-around when N >= 2n-1.
C159 Transform of the linear autocorrelation is a squared modulus.
C160 Triangle inequality pixel by pixel.
C161 Refute with opposite maps and tilts.
C162 Case split on the lengths.
C163 Convolution theorem; equality case of the mean inequality; symmetric and asymmetric pupils.
C164 Triangle inequality.
C165 Shape arithmetic.
C166 Shift theorem of the inverse transform.
C167 Hermitian symmetry and case split on the assignments.
C168 Correlations of 0/1 arrays are below N^2.
C169 Half-transform theorem (C167), then cosines.
C170 Shapes with numpy broadcasting; case split on the profile.
C171 Shapes with numpy broadcasting.
C172 Last element of the loop; algebra.
C173 Induction over the loop; slices of the vector.
C174 Enumeration of the blocks of bounds.
C175 Sums over the grid of the PSD terms.
C176 Case split on the flags.
C177 Monotonicity of the exponential; sums over lists.
C178 Two applications of the state transformer.
C179 Case split on the guide star.
C180 Injectivity of real powers.
C181 Sums over the grid; positivity of the piston filter.
C182 Equality of the two formulas; a frequency below the limit.
C183 Inner product space of random variables; expansion of the norm, module arithmetic, reflection of the grid.
C184 Means over the classes of equal separation; a witness of the class.
C185 Bessel integrals, positivity of the integrand, positive linear functional.
C186 Algebra of the kernel with Y the transpose of X.
C187 Case analysis of boundary pixels; convex combination.
C188 The median minimises the mean distance; Chebyshev around the median.
C189 Homogeneity of maxima and minima, each method; scaled contours.
C190 Case analysis over the methods.
C191 Loop invariant over the ends of runs; parity of n - m from C46.
C192 Recurrence of the Gamma function.
C193 Loop invariant; geometric tail; a crest of the series.
C194 Sorted lists, exchange argument for the largest elements.
C195 Induction on the argmax; filter of a range.
C196 Medians of constant lists; sorted lists of distinct orders are determined by their elements.
C197 Sums over frames and actuators.
C198 Injectivity of the Gram matrix, Pythagoras.
C199 Case analysis; centring is idempotent.
C200 First minimum of a sorted list of divisors.
C201 Induction over the moves with distinct names; counting of quotients.
C202 Monotone rounding; division with remainder.
C203 Comparison of the two branches.
C204 Steps larger than twice the rounding error; floors.
C205 Sorted lists are determined by their elements; tokens of the names.
C206 Sorted rows; a column that is not checked.
C207 Lists.
C208 Cauchy-Schwarz by a discriminant.
C209 Linear arithmetic on the chain of comparisons.
C210 Induction over the moves.
C211 Slices with negative bounds by arithmetic; first maximum.
C212 Induction over the characters.
C213 Induction over the operations; files moved are distinct; a prefix of the operations.
C214 Lists of fixed length; logarithm and powers.
C215 Case analysis.
C216 Positions in concatenated lists.
C217 Identities of the pseudo-inverse.
C218 Homogeneity of the standard deviation.
C219 Case analysis.
C220 First minimum of a monotone sequence.
C221 Lists.
C222 Sorted pixels are cut into slices at the changes of bin; sums of slices.
C223 From every pixel a walk to the centre goes back by at most one ring per step.
C224 Lists; the spline is a parameter assumed to interpolate.
C225 Sums of prefixes; arithmetic progression.
C226 Cropping keeps a prefix.
C227 Rewriting of the inequality; explicit 3 x 3 image.
C228 Bounds of the argument; filters of lists.
C229 Transform of a non-negative array is largest at 0; lexicographic maximum; reindexing of the sum.
C230 exp of a transform is the sum of transforms of repeated convolutions, all non-negative.
C231 Geometric sums at half-integers.
C232 Formula of C229 for one non-zero pixel.
C233 Formula of C229.
C234 Value of each structure function, and linearity of the transform.
C235 Sizes and steps of the successive arrays.
C236 Same.
C237 Positions embedded injectively in the larger array; both lists sorted, equal as sets after translation.
C238 Sum over the list of C237 as a sum over all couples.
C239 Positive semi-definiteness on differences of unit vectors; exchange of the two points.
C240 Row numbers of two points of the same row are equal, so the structure function used is zero.
C241 Row and names as lists; each cell computed.
C242 Same cells, equation solved for the rate.
C243 Same cells.
C244 Same cells.
C245 Same cell with the two definitions of the Strehl ratio.
C246 Setter of the wavelength; a second call is the identity.
C247 Sorted intersection; first index.
C248 The name of the saved table is always excluded.
C249 State of the telemetry through the run.
C250 Composition of the seeing written and the Fried parameter read.
C251 Homogeneity of the weighted mean.
C252 Case analysis.
C253 See C174; witness or exact characterisation.
C254 See C184; witness or exact characterisation.
C255 See C194; witness or exact characterisation.
C256 See C195; witness or exact characterisation.
C257 See C197; witness or exact characterisation.
C258 See C201; witness or exact characterisation.
C259 See C202; witness or exact characterisation.
C260 See C204; witness or exact characterisation.
C261 See C205; witness or exact characterisation.
C262 See C207; witness or exact characterisation.
C263 See C210; witness or exact characterisation.
C264 See C211; witness or exact characterisation.
C265 See C214; witness or exact characterisation.
C266 See C216; witness or exact characterisation.
C267 See C217; witness or exact characterisation.
C268 See C218; witness or exact characterisation.
C269 See C220; witness or exact characterisation.
C270 See C222; witness or exact characterisation.
C271 See C223; witness or exact characterisation.
C272 See C228; witness or exact characterisation.
C273 See C246; witness or exact characterisation.
C274 See C249; witness or exact characterisation.
C275 See C06; witness or exact characterisation.
C276 See C07; witness or exact characterisation.
C277 See C10; witness or exact characterisation.
C278 See C12; witness or exact characterisation.
C279 See C15; witness or exact characterisation.
C280 See C23; witness or exact characterisation.
C281 See C31; witness or exact characterisation.
C282 See C48; witness or exact characterisation.
C283 See C57; witness or exact characterisation.
C284 See C58; witness or exact characterisation.
C285 See C70; witness or exact characterisation.
C286 See C72; witness or exact characterisation.
C287 See C74; witness or exact characterisation.
C288 See C94; witness or exact characterisation.
C289 See C96; witness or exact characterisation.
C290 See C89; witness or exact characterisation.
C291 See C90; witness or exact characterisation.
C292 See C100; witness or exact characterisation.
C293 See C101; witness or exact characterisation.
C294 See C102; witness or exact characterisation.
C295 See C120; witness or exact characterisation.
C296 See C129; witness or exact characterisation.
C297 See C132; witness or exact characterisation.
C298 See C150; witness or exact characterisation.
C299 See C153; witness or exact characterisation.
C300 See C178; witness or exact characterisation.
C301 See C187; witness or exact characterisation.
C302 See C188; witness or exact characterisation.
C303 See C189; witness or exact characterisation.
C304 See C203; witness or exact characterisation.
C305 See C206; witness or exact characterisation.
C306 See C213; witness or exact characterisation.
C307 See C232; witness or exact characterisation.
C308 See C235; witness or exact characterisation.
C309 See C183; witness or exact characterisation.
C310 See C186; witness or exact characterisation.
C311 See C105; witness or exact characterisation.
C312 Folder of a night as a state; induction over the loads.
C313 Same model; the outcome of later loads by cases on the first.
C314 Normalisation of the combined profile.
C315 Same function; witness.
C316 Loop as a map over the rows; argmin of the monitor.
C317 Arithmetic of days and seconds.
C318 Search in the list of names.
C319 Normal equations of the regression; evenly spaced points.
C320 Length of the lists.
C321 Monotonicity of the sine.
C322 Parameter vectors as lists; the fit as a partial function.
C323 Same model, with the static phase of the PSF model.
C324 Least squares and norms over lists.
C325 Clipping between the extremes.
C326 Same function; witness.
C327 Means over a table; witness.
C328 Stable sort of a list.
C329 Bounds of the two stages; scatter of the free parameters.
C330 Same model; the starting point must be strictly inside the bounds.
C331 Arguments as a record.
C332 Distinctness of the list of names; index in it.
C333 Loop over the draws as filterMap.
C334 Lines of words; mapM over columns.
C335 Same function; lengths of columns and numpy repetition.
C336 Matrices over the frames; centring as a linear projection.
C337 Counterexample with two frames.
C338 Matrix identities.
C339 Sum of squares of the centred residual.
C340 Idempotence of centring; polynomials of the servo.
C341 Cross products with the four edges in rotated coordinates.
C342 Same function, early return.
C343 Modulus of a complex exponential; permutation of a sum.
C344 The stored phase is not updated.
C345 Induction over the history.
C346 Iteration of the constructor on a shared map; concrete counterexample.
C347 Sum over lists by induction.
C348 numpy broadcasting of shapes.
C349 Induction over the folders.
C350 Induction over the folders with a script that raises.
C351 Formatting codes and types.
C352 Field arithmetic.
C353 Algebra of the transfer functions and the reconstructor.
C354 Algebra of the reconstructor.
C355 Sums over the layers, counter-examples.
C356 Trigonometry, counter-example.
C357 Homogeneity of each spectrum.
C358 Sums over the replicas.
C359 Symmetry of each spectrum; difference of the sums of replicas, bounds of the Bessel function.
C360 Norm of centred samples, interpolation between bounds.
C361 Two samples of a sine in a ratio; interpolation.
C362 A sampled sine is not constant; counter-example.
C363 Sums over the layers, monotonicity of the filter.
C364 Sums over the frequencies.
C365 Runs of programs over an attribute store, free interpretation evaluated by the kernel for each configuration.
C366 Invariant over histories.
C367 Invariant over histories.
C368 Parseval for the autocorrelation of the pupil and the covariance, then exp x >= 1 + x.
C369 Structure functions add up and are bounded by four times the variance.
C370 Sum of the OTF over one pixel out of k as a sum over residue classes.
C371 Sums over the fibres of the splitting.
C372 Generalised inverse of the sensor covariance through the splitting; inverse of regularised matrices.
C373 Every factor is a function of scalar products and norms.
C374 Complex conjugation of every factor and of generalised inverses.
C375 Sums over the fibres; refute from one direction to two.
C376 Scaling of the generalised inverse.
C377 Rewrite as the expected spectrum of the exchanged target; refute.
C378 Scalar products and norms; refute off axis with the exact difference.
C379 Sums over the fibres of the splitting in every term.
C380 Scaling with r0 and noise; refute the regularisation.
C381 Unitary diagonal factors through generalised inverses; refute the regularised inverse of two mirrors in closed form.
C382 Common phase of mirror and layers; refute with lasers in closed form.
C383 Every factor depends on products.
C384 Phases of the layers.
C385 Every factor depends on ratios.
C386 Loop over the rows; characterise success; refute.
C387 Moduli and phases pixel by pixel; refute by histories.
C388 Records after one call; refute by two calls.
C389 Induction on the loop.
C390 Characterise the search in the name; refute.
C391 Sizes through the steps; refute.
C392 Follow the steps to the first exception; refute.
C393 Sums of constants.
C394 Options of a parser; refute by two calls.
C395 Powers of products through the sums over layers.
C396 Solve for the angle; sums over layers.
C397 Algebra of the two conversions.
C398 Scaling of cones and slabs; refute.
C399 Heights times angles (C383); sums over layers.
C400 Signs of the cosine; refute.
C401 Powers of the ratio through every function of the spectra.
C402 The reconstructor in closed form (one star), continuity of the matrix inverse (several); refute.
C403 Trade-off of two quadratic forms minimised together; a quadratic function of the part kept; refute.
C404 C403 and the limit C402; refute.
C405 Integral of each harmonic over a square.
C406 C405; strict decrease of the sinc; refute.
C407 Dirichlet kernel of the binning on one harmonic; refute.
C408 Bounds of the sinc, sums.
C409 Model of the state kept between calls; induction over histories; refute with a tilt.
C410 Same model with an abstract rotation; refute with a slit.
C411 Broadcasting of shapes; refute.
C412 Last assignment of a loop; refute.
C413 Characteristic function of the normal distribution on each harmonic; bounds of ln 2 and pi; refute.
C414 Integral of tilts over a disc and over the normal distribution; refute.
C415 Slices with Python bounds and truncation; refute at the edges.
C416 Definition of the flag for all images.
C417 Model of the loading with its exceptions; refute.
C418 Boolean masks as ranks in the list of selected entries; induction.
C419 Sums of centred series; refute with a pulse.
C420 Telescoping sum of the intervals; refute for regular time stamps.
C421 Variance of affine series; sum over the actuators that move.
C422 Theorems of the compression of profiles; Python type of the weights; refute.
C423 Linearity of the mean; exchange of sums.
C424 Prefixes of paths, first match from the deepest; refute.
C425 Cases of the import; refute.
C426 Rounding to nearest as an abstract operator; integers are machine numbers, quotients are far enough from them.
C427 Error of the square root against the gap between triangular numbers.
C428 Exact value of two roundings for 44 out of 100; bound of two roundings else.
C429 Error of four roundings below one half.
C430 Monotony of rounding; integers are exact.
C431 Absorption of the offset; refute by the lower bound of a rounding.
C432 Two roundings.
C433 Calculus of accumulated roundings; refute with the exact values of each step.
C434 The same; refute with the exact values of each step.
C435 Induction on the tree of additions.
C436 Induction on the list, then one rounding to another precision.
C437 Columns, means and scales of series.
C438 Rows of series; refute.
C439 Paths as the system resolves them; exact condition on the folder; refute otherwise by induction on the calls.
C440 Transfers that stop after any number of bytes; invariant over calls.
C441 The list of segments; exact condition on the reference.
C442 Removal by modulus one; exact condition for zeros and ones; refute for other reflectivities.
C443 The filled map against the shape of the segments; refute.
C444 Pixels of modulus one; refute for other reflectivities.
C445 Invariant over calls; refute after a computation.
C446 Tables by name, permutations of rows; independence of the earlier runs.
C447 Direct, from the definitions of the header readers.
C448 Paths as the system resolves them.
C449 Floating-point cosine, sine and modulus; exact condition; refute with a phase in double precision.
C450 Bounds of each column of the tables over the box of states, against an ideal gas; refute at the ends of the Q band.
C451 Bessel function by its integral; Gaussian integrals over the plane and Fubini; strict monotonicity under the integral; dominated convergence.
C452 Change of scale, dominated convergence, integration by parts, reflection formula of Gamma.
C453 Bounds of Gamma(6/5) from logarithmic convexity.
C454 Scaling of the 5/3 moment; numerical bounds of real powers.
C455 Scaling of the 5/3 moment of the heights.
C456 Continuity and limit at infinity of the structure function (dominated convergence), strict monotonicity, intermediate value theorem; bound of the variance for the violation.
C457 Fourier representation of the covariance (C451) gives a field in L2 of the plane; the code's combination is a squared norm (C183); numerical bounds of Gamma.
C458 Telescoping hypergeometric sum, monotone convergence; bounds of Gamma at rationals from logarithmic convexity.
C459 Bounds of the constant of the spectrum.
C460 The trapezoidal rule as a weighted double sum; monotonicity term by term.
C461 Model of the reads, of the keyword arguments and of the constructors; each attribute traced back to its option.
C462 The same; two files that differ by the ignored options build the same sensor.
C463 The same for the camera.
C464 The same for the telescope and the atmosphere.
C465 The same for the loops and the mirrors.
C466 Table of the comments of template.ini against the defaults found above.
C467 The list operations on a scalar fail in every file; evaluation of the template with and without a list.
C468 Model of the open-loop branch; comparison with the limit of the closed loop for a fading star (C402).
C469 Slices of Python with negative bounds; exact set of the positions extracted.
C470 Model of the files read by the telescope and by the spectrum; comparison of two parameter files option by option.
C471 Model of the numbers and titles of the figures; floor of the radius in pixels, case split on the cell of the curve.
C472 Induction on the list for argmin and argmax; division of the index by the side of the grid.
C473 Sums over the grid as integrals of step functions; dominated convergence; the border of the corrected area has measure zero.
C474 Case split on the name of the instrument.
C475 Polar coordinates and the antiderivative for the integral outside of a disc; dominated convergence on wide grids; numerical bounds of the Gamma function.
C476 Case split on the algorithm; conversion of angles to pixels.
C477 Lists; the start decoded by the model of the parameter decoding, compared with the bounds of the model entry by entry.
C478 Count of the bounds; exact condition and violation.
C479 The loop as a traversal with an abstract fit; rows spelled out.
C480 Median of the fitted values; exact condition and violation.
C481 The traversal returns exactly when every fit does.
C482 Numpy's divisions by zero with an option type; sorted order with what is not a number last.
C483 Real powers; monotony.
C484 The file as a state read and written; equality of whole states, also of a second run.
C485 Exact condition on the file before; violation by the default limits.
C486 Traversals with constant numbers per tile, composed with the results for the selection, the cut and the fits.
C487 Composition of the conditions of each step; the cut of candidates is total by the margins.
C488 Order of the steps; no path returns with an unknown name.
C489 Integer division; case split on the interpolation.
C490 A zero error propagates through the means; bounds of weighted means.
C491 Composition of the grid, the fits and the interpolation with what is not a number.
C492 Argument of the exponential; a sum with one term that is not zero.
C493 Position along an axis as an interval and a weight that do not depend on the samples; convexity.
C494 Whole positions of the enlarged grid; a node of the samples gives its value.
C495 Same positions; two images that differ in the pixels that are not kept.
C496 Common weights for all segments and a finite sum.
C497 Positions as whole divisions.
C498 Case split on the parities; the pixel at the centre as a test image.
C499 Composition of the reading with C493; the rotation of scipy is not modelled, hence only without rotation.
