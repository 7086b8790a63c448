{"id": "C01", "title": "Configuration paths resolve with a fixed priority", "statement": "resolve_config_path returns '' exactly for an empty path; otherwise it returns the file found under a non-empty path_root if there is one, else a path under the P3 (resp. TIPTOP) installation for names that start, leading slashes removed, with 'aoSystem' (resp. 'tiptop'), else the path unchanged if it is a file, else the slash-stripped path under P3 if that is a file, else the path unchanged. It never invents any other path.", "quantifier": "every path string, path_root, install roots (TIPTOP present or absent) and every state of the file system", "why_tests_cant": "the space of file systems and path strings is infinite; a test fixes one directory tree", "anchors": ["p3/aoSystem/__init__.py:resolve_config_path"]}
{"id": "C02", "title": "A parameter file is rejected unless it is complete and consistent", "statement": "Constructing aoSystem raises ValueError before building anything from the section whenever a required section or option is missing, the zenith angle is >= 90, the Cn2 weights do not sum to 1 within 1e-3, the turbulence profile lists have different lengths, source zenith/azimuth lists differ in length, or several DMs are given without matching heights; and it never raises one of these errors for a file that has none of these defects.", "quantifier": "every parsed parameter map (any sections, options and list lengths)", "why_tests_cant": "the combinations of missing or inconsistent options are unbounded", "anchors": ["p3/aoSystem/aoSystem.py:aoSystem.__init__", "p3/aoSystem/aoSystem.py:raiseMissingRequiredOpt", "p3/aoSystem/aoSystem.py:raiseNotSameLength", "p3/aoSystem/deformableMirror.py:deformableMirror.__init__"]}
{"id": "C03", "title": "The length-mismatch error names the offending section", "statement": "When two or more lists of one section have different lengths, the message of the ValueError names that section.", "quantifier": "every list of option names and every section name", "why_tests_cant": "a test looks at one message", "anchors": ["p3/aoSystem/aoSystem.py:aoSystem.raiseNotSameLength"]}
{"id": "C04", "title": "The science field of view covers the corrected area and the seeing", "statement": "With FieldOfView = -1 the computed field of view is an even number of pixels, at least 2, whose half-width is at least both the DM-corrected radius and the seeing FWHM in pixels, and is the smallest such; a positive FieldOfView is rounded up to an integer >= 1; every other value raises ValueError.", "quantifier": "every wavelength list, pixel scale, DM pitch list, seeing, airmass and raw FieldOfView value", "why_tests_cant": "rounding at every real-valued boundary cannot be sampled", "anchors": ["p3/aoSystem/aoSystem.py:_compute_science_field_of_view", "p3/aoSystem/aoSystem.py:get_science_field_of_view"]}
{"id": "C05", "title": "The AO mode is determined by guide stars, mirrors and reconstructed layers", "statement": "A system without laser guide stars is SCAO; with a single laser star it is SLAO; with several laser stars it is MCAO when there are several mirrors, otherwise LTAO when several layers are reconstructed, otherwise GLAO. Each configuration gets exactly one of these five modes.", "quantifier": "every number of guide stars, mirrors and reconstructed layers", "why_tests_cant": "infinitely many configurations; boundary cases interact", "anchors": ["p3/aoSystem/aoSystem.py:aoSystem.__init__"]}
{"id": "C06", "title": "Processing the low-order section again changes nothing, without PSD expansion or at one wavelength", "statement": "Without PSD expansion, or with a single science wavelength, configuring the low-order/science detector again leaves the field of view as it was, and in all cases everything else.", "quantifier": "all parameter files of the documented types that are accepted, all environments without coo_stars", "why_tests_cant": "the defect only shows for some wavelength ratios and after a history of calls", "anchors": ["p3/aoSystem/aoSystem.py:configLO_SC", "p3/aoSystem/aoSystem.py:configLO"]}
{"id": "C07", "title": "NGS positions of the parameter file are appended after the science positions", "statement": "When PSFs at the NGS positions are requested and positions come from the parameter file, the evaluated directions are the science directions followed by the NGS directions, in order; otherwise the science directions only.", "quantifier": "all parameter files of the documented types that are accepted", "why_tests_cant": "the index arithmetic has to be right for every pair of sizes", "anchors": ["p3/aoSystem/aoSystem.py:configLO", "p3/aoSystem/fourierModel.py:powerSpectrumDensity"]}
{"id": "C08", "title": "The error breakdown is an orthogonal sum", "statement": "The reported total wavefront error is the root of the sum of squares of the reported terms, so it is at least every individual term, and the derived Strehl ratio lies in (0, 1], decreasing with the total.", "quantifier": "every set of real-valued error terms", "why_tests_cant": "a real-valued inequality over all inputs", "anchors": ["p3/aoSystem/aoSystem.py:errorBreakdown", "p3/aoSystem/fourierModel.py:errorBreakDown"]}
{"id": "C09", "title": "The low-order centroiding threshold given by the user is used", "statement": "The low-order sensor is built with the centroiding threshold found in the sensor_LO section.", "quantifier": "every threshold value and every parameter map", "why_tests_cant": "a test with the default value cannot notice that the option is never read", "anchors": ["p3/aoSystem/aoSystem.py:configLOsensor"]}
{"id": "C10", "title": "Sources get one direction, wavelength and height each", "statement": "When zenith and azimuth lists have the same length, or one azimuth is given, or one zenith and one wavelength, every source i is at tan(zenith_i)(cos azimuth_i, sin azimuth_i), single values being shared by all sources, and there is one height per source.", "quantifier": "all such lists", "why_tests_cant": "every combination of list lengths matters", "anchors": ["p3/aoSystem/source.py:source.__init__"]}
{"id": "C11", "title": "The Fried parameter follows the wavelength whatever the history", "statement": "After any sequence of changes of the atmosphere wavelength, r0 equals the initial r0 times (current/initial wavelength)^(6/5); in particular coming back to the original wavelength restores r0, and the seeing angle scales as wavelength^(-1/5).", "quantifier": "every initial r0 > 0, every finite sequence of positive wavelengths", "why_tests_cant": "an invariant over unbounded histories", "anchors": ["p3/aoSystem/atmosphere.py:atmosphere.wvl", "p3/aoSystem/atmosphere.py:atmosphere.seeing"]}
{"id": "C12", "title": "Layers share the turbulence strength", "statement": "The strengths of the layers of an atmosphere (r0^(-5/3)) add up to the total strength when the weights sum to one, and extracting any layer of an atmosphere as it was built yields exactly the strength, height, wind and outer scale of that layer; indices outside the profile are refused.", "quantifier": "all profiles and layer indices", "why_tests_cant": "profiles and histories are unbounded", "anchors": ["p3/aoSystem/atmosphere.py:atmosphere.__init__", "p3/aoSystem/atmosphere.py:atmosphere.slab"]}
{"id": "C13", "title": "The WFS noise model rejects unphysical inputs and behaves physically", "statement": "The noise variance is refused for r0 <= 0, wavelength <= 0, negative readout noise or photon flux, non-positive sub-aperture size, unknown algorithm or WFS type; otherwise it is non-negative, non-decreasing with readout noise and non-increasing with flux.", "quantifier": "all real parameter values and all algorithm names", "why_tests_cant": "real-valued monotonicity", "anchors": ["p3/aoSystem/sensor.py:sensor.NoiseVariance"]}
{"id": "C14", "title": "Missing photon counts are padded per WFS", "statement": "When fewer photon counts than wavefront sensors are given, the missing ones are treated as zero and each WFS gets a number; the caller's list is not altered.", "quantifier": "every number of WFS and every list of counts", "why_tests_cant": "a boundary in list lengths", "anchors": ["p3/aoSystem/sensor.py:sensor.__init__"]}
{"id": "C15", "title": "Actuator index conversion is a bijection on square arrays", "statement": "For square arrays converting (row, column) to a linear index and back gives the same pair; for all shapes distinct in-range pairs have distinct row-major indices and -1 marks exactly the pairs whose linear index is outside the array.", "quantifier": "all square shapes, index pairs; all shapes for the second part", "why_tests_cant": "holds for square arrays, so tests on square grids pass", "anchors": ["p3/aoSystem/deformableMirror.py:sub2ind", "p3/aoSystem/deformableMirror.py:ind2sub"]}
{"id": "C16", "title": "Each deformable mirror gets one coupling value and one height", "statement": "The mirror object has as many heights and mechanical couplings as pitches: when enough couplings are supplied they are kept in order and extra ones are dropped, otherwise every mirror gets the first one; mismatching pitch/height or direction/weight lists raise ValueError.", "quantifier": "all list lengths", "why_tests_cant": "list-length boundaries", "anchors": ["p3/aoSystem/deformableMirror.py:deformableMirror.__init__"]}
{"id": "C17", "title": "Spectral dispersion must match the transmittance", "statement": "A detector is refused when its spectral dispersion (its first row, the one that is used per wavelength) and its transmittance have different lengths; an accepted detector has one wavelength per transmittance, and a field of view in arcsec of pixel scale times pixels for each entry.", "quantifier": "all list lengths", "why_tests_cant": "list-length boundaries", "anchors": ["p3/aoSystem/detector.py:detector.__init__"]}
{"id": "C18", "title": "The tip-tilt loop exists only when fully described", "statement": "A tip-tilt loop is created exactly when gain, rate and delay of the low-order loop are all given; its bandwidth is non-negative and increases with rate.", "quantifier": "all presence combinations and real values", "why_tests_cant": "presence combinations and real values", "anchors": ["p3/aoSystem/rtc.py:rtc.__init__", "p3/aoSystem/rtc.py:rtc"]}
{"id": "C19", "title": "The wavelength vector samples every band", "statement": "For every list of band centres with a bandwidth and a number of bins per band, the wavelength vector has one block of bins per centre, in order, each starting at centre - bandwidth/2 with a constant increasing step and, with two bins or more, ending at centre + bandwidth/2; the centres are the distinct wavelengths of the sources in increasing order.", "quantifier": "all numbers of bands and bins, all real centres and bandwidths", "why_tests_cant": "the faulty slice only shows for several bands and several bins", "anchors": ["p3/aoSystem/frequencyDomain.py:frequencyDomain.wvlCen", "p3/aoSystem/FourierUtils.py:create_wavelength_vector"]}
{"id": "C20", "title": "The computation grid satisfies Nyquist", "statement": "The oversampling factor k is the least positive integer with k * sampling >= 2 at every wavelength, so the PSF is computed at Nyquist or better and binned back by an integer.", "quantifier": "every positive sampling and every list of wavelengths", "why_tests_cant": "a ceiling over the reals", "anchors": ["p3/aoSystem/frequencyDomain.py:frequencyDomain.wvl", "p3/aoSystem/frequencyDomain.py:frequencyDomain.nOtf"]}
{"id": "C21", "title": "The number of aliasing replicas is bounded", "statement": "The number of aliased spectrum replicas is always between 2 and 4, and grows with the ratio of the grid to the corrected area.", "quantifier": "all grid sizes and corrected-area sizes", "why_tests_cant": "all integers", "anchors": ["p3/aoSystem/frequencyDomain.py:frequencyDomain.nTimes"]}
{"id": "C22", "title": "Corrected and uncorrected frequencies partition the spectrum", "statement": "Every spatial frequency of the grid is either in the corrected area or outside it, never both, for circular and square control areas; the fitting error is zero inside the corrected area and the full atmospheric spectrum outside; noise, aliasing, servo-lag, tomographic error, anisoplanatism and differential refraction are zero outside.", "quantifier": "every grid, cutoff and frequency", "why_tests_cant": "a pointwise partition over arbitrary grids", "anchors": ["p3/aoSystem/frequencyDomain.py:mskIn_", "p3/aoSystem/frequencyDomain.py:mskOut_", "p3/aoSystem/fourierModel.py:fittingPSD"]}
{"id": "C23", "title": "The AO-corrected PSD is embedded in the full grid", "statement": "The corrected PSD is written pixel by pixel into a block inside the full grid and nothing outside the block is touched; the zero frequency is on the zero frequency for an even grid or an odd corrected area; a corrected area larger than the grid is refused.", "quantifier": "all grid and corrected-area sizes", "why_tests_cant": "parities of both sizes interact", "anchors": ["p3/aoSystem/fourierModel.py:powerSpectrumDensity", "p3/aoSystem/fourierModel.py:initComputations"]}
{"id": "C24", "title": "Spatial frequency arrays are centred", "statement": "The frequency array of size n has zero frequency at index n//2 and steps of constant size; it contains the opposite of every frequency except, for even n, the most negative one.", "quantifier": "all sizes, steps and offsets", "why_tests_cant": "all sizes and parities", "anchors": ["p3/aoSystem/FourierUtils.py:freq_array"]}
{"id": "C25", "title": "Binning conserves flux", "statement": "Binning an image by an integer factor k gives floor(n/k) x floor(m/k) pixels, each the sum of its k x k block, so the total flux of the retained area is conserved, and the whole flux when k divides both sizes.", "quantifier": "all image sizes, contents and factors", "why_tests_cant": "all sizes", "anchors": ["p3/aoSystem/FourierUtils.py:binning"]}
{"id": "C26", "title": "Cropping keeps the centre, enlarging keeps the flux", "statement": "Cropping selects a centred window (margins equal up to one pixel) fully inside the image; enlarging pads with zeros, equally on both sides, and keeps the total flux.", "quantifier": "all sizes, factors and contents", "why_tests_cant": "integer truncation for all sizes", "anchors": ["p3/aoSystem/FourierUtils.py:cropSupport", "p3/aoSystem/FourierUtils.py:enlargeSupport"]}
{"id": "C27", "title": "Image normalisation can be undone", "statement": "Normalising an image and denormalising with the returned parameter gives the original image for every normalisation type; normalised images sum to one (sum type), have positive pixels that sum to one (positive-flux type) or lie in [0,1] and attain both ends (min-max type).", "quantifier": "all images and normalisation types", "why_tests_cant": "degenerate images (zero flux, constant) break it", "anchors": ["p3/aoSystem/FourierUtils.py:normalizeImage"]}
{"id": "C28", "title": "PSFs carry the requested flux", "statement": "Each PSF obtained from a structure function has total intensity equal to the requested flux plus the background level times the number of pixels, whatever the binning and cropping.", "quantifier": "all structure functions, fluxes, backgrounds and sizes", "why_tests_cant": "real-valued arrays of any size", "anchors": ["p3/aoSystem/FourierUtils.py:sf_3D_to_psf_3D"]}
{"id": "C29", "title": "An optical transfer function never amplifies", "statement": "The OTF obtained from a non-negative structure function lies in (0, 1] and is 1 at the origin; larger phase variance lowers it.", "quantifier": "all structure functions", "why_tests_cant": "all reals", "anchors": ["p3/aoSystem/FourierUtils.py:sf2otf", "p3/aoSystem/fourierModel.py:phaseStructureFunction"]}
{"id": "C30", "title": "Encircled energy grows from the centre to one", "statement": "The encircled energy curve of a non-negative image is non-decreasing, lies in [0,1] and ends at 1.", "quantifier": "all images and centres", "why_tests_cant": "all images", "anchors": ["p3/aoSystem/FourierUtils.py:getEncircledEnergy", "p3/aoSystem/FourierUtils.py:radial_profile"]}
{"id": "C31", "title": "Ensquared energy grows with the box while the box is inside the image", "statement": "For half-widths that do not exceed the distance of the peak from the lower edges, each value of the curve is the flux fraction inside the box centred on the peak, and the curve of a non-negative image is non-decreasing and in [0, 1].", "quantifier": "all images, peak positions and such half-widths", "why_tests_cant": "fails only for off-centre peaks or odd sizes", "anchors": ["p3/aoSystem/FourierUtils.py:getEnsquaredEnergy"]}
{"id": "C32", "title": "Layer compression conserves turbulence", "statement": "Compressing a Cn2 profile to nEq equivalent layers yields nEq layers with the same total strength and the same 5/3-moment of altitude, grouping consecutive layers; asking for more layers than available raises ValueError.", "quantifier": "all profiles and numbers of layers", "why_tests_cant": "all sizes; rounding in slab positions", "anchors": ["p3/aoSystem/FourierUtils.py:eqLayers"]}
{"id": "C33", "title": "The parameter vector is decoded without overlap", "statement": "The model parameter vector is cut into atmosphere, phase, jitter, photometry, astrometry, background and static parts that are disjoint, contiguous and in order; photometry and astrometry are arranged by star and wavelength.", "quantifier": "all numbers of layers, sources, frames and modes", "why_tests_cant": "offsets must add up for all counts", "anchors": ["p3/aoSystem/FourierUtils.py:sort_params_from_labels", "p3/aoSystem/fourierModel.py:define_bounds", "p3/psfr/psfR.py:define_bounds", "p3/psfao21/psfao21.py:define_bounds"]}
{"id": "C34", "title": "The piston filter removes piston only", "statement": "The piston filter takes values in [0,1], so multiplying a PSD by it never increases it, and at zero frequency it is at most (pi D 1e-10)^2 (below 1e-16 for telescopes up to 39 m).", "quantifier": "all frequencies and diameters", "why_tests_cant": "all reals", "anchors": ["p3/aoSystem/FourierUtils.py:pistonFilter"]}
{"id": "C35", "title": "Symmetrised spectra reproduce the one they came from", "statement": "The symmetric Fourier array assembled by fftsym equals its input mirrored about the origin (out[i,j] = x[-i,-j]).", "quantifier": "all arrays of all sizes", "why_tests_cant": "boundary rows and columns only", "anchors": ["p3/aoSystem/FourierUtils.py:fftsym"]}
{"id": "C36", "title": "Polar sampling refines with radius", "statement": "The number of azimuthal samples of the polar grid used for radial averages grows with the radius up to the requested maximum.", "quantifier": "all grid sizes", "why_tests_cant": "loop-carried state", "anchors": ["p3/aoSystem/FourierUtils.py:precompute_polar_grid"]}
{"id": "C37", "title": "Closed-loop transfer functions are complementary", "statement": "At every temporal frequency the rejection and aliasing (closed-loop) transfer functions of the loop add up to one (where the denominator is below the machine precision, which replaces it, to less than one), a zero gain rejects nothing, and the averaged gains used in the PSDs satisfy E|h|^2 >= |E h|^2 with both non-negative.", "quantifier": "all gains, delays, rates, frequencies and wind profiles", "why_tests_cant": "all reals", "anchors": ["p3/aoSystem/fourierModel.py:controller"]}
{"id": "C38", "title": "The reconstructor inverts the sensor where it measures", "statement": "Without regularisation the reconstruction filter is an exact inverse of the sensor wherever it has signal, and zero at the central frequency; with regularisation the sensor-reconstructor product lies in [0,1); the pyramid's sensitivity is bounded and has its zones.", "quantifier": "all frequencies and regularisation weights", "why_tests_cant": "all reals including singular points", "anchors": ["p3/aoSystem/fourierModel.py:reconstructionFilter"]}
{"id": "C39", "title": "The residual PSD is the sum of its contributions and non-negative", "statement": "The residual PSD at each science direction is the fitting PSD plus, inside the corrected area, the sum of the enabled contributions; each contribution is non-negative, so enabling an error source never lowers the PSD (unless a total error is imposed, which rescales all of it).", "quantifier": "all sets of enabled errors, all grids and directions", "why_tests_cant": "subsets of flags times real arrays", "anchors": ["p3/aoSystem/fourierModel.py:powerSpectrumDensity"]}
{"id": "C40", "title": "Extra wavefront errors are met", "statement": "When an extra error in nanometres is given, the integral of the corresponding PSD equals the square of that error, and directions of low-order stars get the error of their own star.", "quantifier": "all grids and error values", "why_tests_cant": "all reals; units conversions compose", "anchors": ["p3/aoSystem/fourierModel.py:powerSpectrumDensity", "p3/aoSystem/fourierModel.py:extraErrorPSD"]}
{"id": "C41", "title": "Chunked aliasing sums equal the full sum", "statement": "Computing the aliasing PSD in blocks of layers gives the same value as summing all layers at once, for every number of layers and block size.", "quantifier": "all numbers of layers and chunk sizes", "why_tests_cant": "remainder blocks", "anchors": ["p3/aoSystem/fourierModel.py:aliasingPSD"]}
{"id": "C42", "title": "Memory estimates are consistent", "statement": "The estimated peak memory is at least the final memory, is monotone in grid size, number of sources and layers, and memory reduction never increases it.", "quantifier": "all dimensions", "why_tests_cant": "all naturals", "anchors": ["p3/aoSystem/fourierModel.py:estimate_memory_usage"]}
{"id": "C43", "title": "Phase structure functions are non-negative and vanish at the origin", "statement": "The structure function obtained from a PSD is non-negative and zero at zero separation.", "quantifier": "all non-negative PSDs of all sizes", "why_tests_cant": "a positive-definiteness fact about all arrays", "anchors": ["p3/aoSystem/fourierModel.py:phaseStructureFunction", "p3/aoSystem/FourierUtils.py:cov2sf"]}
{"id": "C44", "title": "No anisoplanatism towards the guide star", "statement": "The anisoplanatism PSD is non-negative and is zero at every frequency for a target in the guide-star direction; differential-refraction error vanishes at zenith or at the guide-star wavelength; chromatic error vanishes at the sensing wavelength.", "quantifier": "all profiles and directions", "why_tests_cant": "all reals", "anchors": ["p3/aoSystem/fourierModel.py:anisoplanatismPSD", "p3/aoSystem/fourierModel.py:differentialRefractionPSD", "p3/aoSystem/fourierModel.py:chromatismPSD"]}
{"id": "C45", "title": "Negative-order Bessel functions obey the reflection formula", "statement": "besselj__n(-n, z) = (-1)^n besselj__n(n, z).", "quantifier": "all orders and arguments", "why_tests_cant": "parity of the order", "anchors": ["p3/aoSystem/fourierModel.py:besselj__n"]}
{"id": "C46", "title": "Zernike indices follow Noll's ordering one to one", "statement": "Every positive Noll index j gives radial order n and azimuthal order m with 0 <= m <= n, n - m even, n(n+1)/2 < j <= (n+1)(n+2)/2; different j give different (n, m, parity) and all valid modes are reached.", "quantifier": "all positive integers", "why_tests_cant": "a bijection on an infinite set; a float sqrt", "anchors": ["p3/aoSystem/zernike.py:findNM", "p3/aoSystem/zernike.py:nModeFromRadialOrder"]}
{"id": "C47", "title": "The default pupil is an annulus", "statement": "A pupil pixel is lit exactly when its distance to the centre is at most D/2 and more than obscuration*D/2; more obstruction never adds light.", "quantifier": "all resolutions and obstructions", "why_tests_cant": "all grid sizes", "anchors": ["p3/aoSystem/telescope.py:telescope.__init__"]}
{"id": "C48", "title": "Focal anisoplanatism is non-negative, and grows with altitude in most of the range", "statement": "The focal-anisoplanatism errors reported are zero without turbulence above the ground, non-negative numbers with layers below the laser, and grow with the altitude of a layer up to 94 % (resp. 78 %) of the laser height.", "quantifier": "all altitudes, weights and laser heights", "why_tests_cant": "all reals", "anchors": ["p3/aoSystem/anisoplanatismModel.py:focal_anisoplanatism_variance"]}
{"id": "C49", "title": "Refractive index is defined at every wavelength", "statement": "A refractive index is returned for each wavelength of every non-empty list, in order and depending only on that wavelength; below 1.3 micrometres it is Ciddor's, positive above 0.2 micrometres and decreasing, and within an infrared band it is Mathar's with the table of that band, physical in the reference atmosphere; the bands do not overlap.", "quantifier": "all wavelengths", "why_tests_cant": "gaps between bands", "anchors": ["p3/aoSystem/airRefraction.py:get_refractive_index"]}
{"id": "C50", "title": "Segment operations keep the pupil consistent", "statement": "Building a segmented pupil adds every segment; removing a segment darkens exactly its pixels; shifting one within the limits and inside the map moves it unchanged; in all cases the other segments and the map size are preserved.", "quantifier": "all pupils, segments and displacements", "why_tests_cant": "unbounded operation histories", "anchors": ["p3/aoSystem/pupil.py:pupil.removeSegment", "p3/aoSystem/pupil.py:pupil.shiftSegment", "p3/aoSystem/pupil.py:pupil.rotateSegment"]}
{"id": "C51", "title": "Free and fixed parameters are merged losslessly", "statement": "Extracting the free parameters of a start vector and merging them back gives the same vector; merging any optimiser output keeps every fixed parameter at its start value and places the others in order.", "quantifier": "all vectors of floats and all fixed/free masks", "why_tests_cant": "all masks", "anchors": ["p3/psfFitting/psfFitting.py:mini2input", "p3/psfFitting/psfFitting.py:input2mini", "p3/psfFitting/psfFitting.py:psfFitting"]}
{"id": "C52", "title": "Fitting does not alter the caller's image", "statement": "Fitting a PSF model leaves the image passed by the caller unchanged.", "quantifier": "all images", "why_tests_cant": "in-place mutation depends on type and values", "anchors": ["p3/psfFitting/psfFitting.py:psfFitting"]}
{"id": "C53", "title": "Image tiling is a partition", "statement": "Cutting an image into n x n tiles gives contiguous parts in row order; a pixel belongs to at most one tile, and to one when n divides the size; reassembling the tiles of a square image whose size is divided by n gives back the image; centres of tiles are in their middle; a number of square tiles that is not a square is refused.", "quantifier": "all image sizes and numbers of tiles", "why_tests_cant": "all sizes", "anchors": ["p3/psfFitting/fittingUtils.py:segment_image_in_tiles", "p3/psfFitting/fittingUtils.py:psf_cube_to_image"]}
{"id": "C54", "title": "PSF interpolation weights sum to one", "statement": "Interpolating PSFs at a position other than those of the references uses the nearest ones with positive weights that sum to one, keeps their common flux and stays between their values.", "quantifier": "all positions away from the references, all numbers of references", "why_tests_cant": "all reals", "anchors": ["p3/psfFitting/fittingUtils.py:interpolate_psfs_in_fov"]}
{"id": "C55", "title": "Fit quality compares the sky with the model", "statement": "The reported sky and fit metrics (Strehl, FWHM, ...) of a two-dimensional image are computed from the observed image and the fitted image respectively.", "quantifier": "all monochromatic images and models", "why_tests_cant": "array aliasing in one branch", "anchors": ["p3/psfFitting/psfFitting.py:evaluateFittingQuality"]}
{"id": "C56", "title": "Strehl and wavefront error convert back and forth", "statement": "Converting a Strehl ratio in (0,1] to a wavefront error and back is the identity, as is the converse for non-negative errors, at any positive wavelength; a larger error is a smaller Strehl ratio; and exactly the ratios in (0,1] have an error.", "quantifier": "all reals", "why_tests_cant": "all reals", "anchors": ["p3/psfr/psfrUtils.py:sr2wfe", "p3/psfr/psfrUtils.py:wfe2sr"]}
{"id": "C57", "title": "Local time converts to UT before 14 h and within a month", "statement": "Converting Hawaii local time to UT gives the time of day ten hours later in all cases, and the right calendar date for times before 14 h and for days that are not the last of the month; in the other cases the date is never valid.", "quantifier": "all dates and times", "why_tests_cant": "month and year ends", "anchors": ["p3/telemetry/massdimm.py"]}
{"id": "C58", "title": "Delayed commands of one actuator are interpolated with unit weight", "statement": "For one actuator and a delay that is not whole, the delayed command is an affine combination of two successive commands with non-negative weights of sum one.", "quantifier": "all such delays and commands", "why_tests_cant": "fails exactly at integer delays", "anchors": ["p3/telemetry/systemDiagnosis.py"]}
{"id": "C59", "title": "Generated parameter files keep what was written", "statement": "Writing the parameter file succeeds over any existing file; every option given by the telemetry reads back with its value, options not named keep theirs, and writing twice gives the same file.", "quantifier": "all telemetry inputs and histories of writes", "why_tests_cant": "histories of writes", "anchors": ["p3/telemetry/configFile.py", "p3/telemetry/keckUtils.py"]}
{"id": "C60", "title": "Star coordinates given directly are the evaluated directions", "statement": "When star coordinates (x, y) are passed to the AO system instead of the science section's zenith/azimuth, the evaluated directions of the science sources are these coordinates.", "quantifier": "all lists of coordinates", "why_tests_cant": "every quadrant and angle unit matters; a test on one axis cannot tell", "anchors": ["p3/aoSystem/aoSystem.py:aoSystem.__init__", "p3/aoSystem/source.py:source.direction"]}
{"id": "C61", "title": "Effective height, wind and coherence time lie between those of the layers", "statement": "For normalised non-negative Cn2 weights the effective height and wind speed of an atmosphere lie between the smallest and the largest layer values; the coherence time is 0.314 r0/wind and follows the wavelength with the same 6/5 power; a uniform outer scale is the effective outer scale.", "quantifier": "all profiles and wavelength histories", "why_tests_cant": "all reals and histories", "anchors": ["p3/aoSystem/atmosphere.py:atmosphere"]}
{"id": "C62", "title": "Phase statistics are consistent at zero separation", "statement": "The structure function is zero at zero separation, the angular structure function is zero for a zero angle, the angular covariance of a zero angle is the total phase variance, after any history of wavelengths; the variance is positive and proportional to the strength; the von Karman spectrum is positive and decreasing in frequency.", "quantifier": "all profiles, wavelengths and separations", "why_tests_cant": "all reals", "anchors": ["p3/aoSystem/atmosphere.py:atmosphere"]}
{"id": "C63", "title": "Angular anisoplanatism depends on the separation", "statement": "The angular anisoplanatism spectrum is non-negative, at most four times the turbulence spectrum per layer, zero towards the guide star and for ground turbulence, and the same for opposite separations.", "quantifier": "all profiles, separations and frequencies", "why_tests_cant": "all reals", "anchors": ["p3/aoSystem/anisoplanatismModel.py:anisoplanatism_wfe", "p3/aoSystem/anisoplanatismModel.py:angular_function"]}
{"id": "C64", "title": "Anisokinetism vanishes towards the tip-tilt star", "statement": "The anisokinetism error is zero for a target in the direction of the tip-tilt star and symmetric in the two directions.", "quantifier": "all directions and profiles", "why_tests_cant": "all reals", "anchors": ["p3/aoSystem/anisoplanatismModel.py:anisokinetism_wfe"]}
{"id": "C65", "title": "Computing anisoplanatism leaves the guide star in place", "statement": "Computing the anisoplanatic structure functions leaves the laser guide star object unchanged, whether the computation succeeds or raises at any point; the focal part is evaluated with the star on axis and the angular part with the star in its place.", "quantifier": "all star positions and all crash points", "why_tests_cant": "a test does not make each internal step fail", "anchors": ["p3/aoSystem/anisoplanatismModel.py:anisoplanatism_structure_function"]}
{"id": "C66", "title": "The AO-corrected area fits the cut-off frequency", "statement": "Cut-off frequencies given by the user (none of them zero) are used, otherwise half the inverse of each pitch; the number of samples of the AO-corrected area is the largest that fits in twice the largest cut-off frequency, and all its frequencies are within the cut-off.", "quantifier": "all pitches and frequency steps", "why_tests_cant": "the mismatch appears only when the ratio is not a whole number", "anchors": ["p3/aoSystem/frequencyDomain.py:frequencyDomain.pitch", "p3/aoSystem/fourierModel.py:fourierModel.powerSpectrumDensity"]}
{"id": "C67", "title": "Off-axis targets get an anisoplanatism structure function", "statement": "With one guide star (natural or laser), when the anisoplanatism computation is enabled, an off-axis target gets the layer-weighted anisoplanatism structure function; an on-axis NGS target gets none.", "quantifier": "all modes, targets and profiles", "why_tests_cant": "depends on mode and geometry", "anchors": ["p3/aoSystem/frequencyDomain.py:frequencyDomain.anisoplanatismPhaseStructureFunction"]}
{"id": "C68", "title": "The estimated flux excludes the sky background", "statement": "The flux estimate of an image is the sum of its pixels minus the number of pixels times the sky level measured outside the inscribed circle, so an image of pure uniform sky has zero flux; rectangular images are accepted.", "quantifier": "all image sizes, contents and sky levels", "why_tests_cant": "the bias depends on the fraction of pixels inside the circle and on the sign of the pixels", "anchors": ["p3/aoSystem/FourierUtils.py:getFlux"]}
{"id": "C69", "title": "The wavelength vector covers each band evenly", "statement": "The vector of wavelengths has one block per distinct source wavelength, in increasing order; each block has the number of bins of the camera and, with two bins or more, is evenly spaced over the bandwidth and symmetric about the source wavelength.", "quantifier": "all source wavelength lists, bandwidths and numbers of bins", "why_tests_cant": "all lists and bin counts", "anchors": ["p3/aoSystem/FourierUtils.py:create_wavelength_vector"]}
{"id": "C70", "title": "Resampling an image keeps its centre and its samples", "statement": "Resampling a square image, or any image with the linear kind, on a grid k times finer succeeds, keeps the central pixel at the centre and goes through all the original samples; resampling on the same grid returns the image. (The interpolant of scipy is assumed to go through its samples.)", "quantifier": "all such images and zoom factors", "why_tests_cant": "square test images hide the swapped axes", "anchors": ["p3/aoSystem/FourierUtils.py:interpolateSupport"]}
{"id": "C71", "title": "The mean square error measures the difference of two images", "statement": "The error between two images of the same size is zero exactly when they agree on the central window compared, is never negative for a positive reference flux, and does not depend on the flux unit.", "quantifier": "all image pairs, windows and norms", "why_tests_cant": "all reals", "anchors": ["p3/aoSystem/FourierUtils.py:getMSE"]}
{"id": "C72", "title": "The width of a peak inside a profile is the distance between its half-maximum crossings", "statement": "For a profile whose part above half maximum is one interval away from both ends, rising after it enters and falling before it leaves, the width is the distance between the linearly interpolated crossings of half maximum; one bin above half maximum has width one.", "quantifier": "all such profiles", "why_tests_cant": "failures appear for peaks near the edge and for flat tops", "anchors": ["p3/aoSystem/FourierUtils.py:fwhm_1d"]}
{"id": "C73", "title": "Measuring an image does not modify it", "statement": "Computing a radial profile, a Strehl ratio or a noisy realisation of an image leaves the caller's image unchanged.", "quantifier": "all images and options", "why_tests_cant": "the modification is a side effect on the argument", "anchors": ["p3/aoSystem/FourierUtils.py:radial_profile", "p3/aoSystem/FourierUtils.py:getStrehl", "p3/aoSystem/FourierUtils.py:addNoise"]}
{"id": "C74", "title": "Sources appear where they were put", "statement": "At one wavelength a source requested at an offset of (dx, dy) detector pixels appears at that offset whatever the binning; at several wavelengths, exactly at those whose binning is the reference one (one for a reference of one or two).", "quantifier": "all offsets and binning factors", "why_tests_cant": "the factor is wrong for one value of the binning only", "anchors": ["p3/aoSystem/FourierUtils.py:sf_3D_to_psf_3D", "p3/aoSystem/FourierUtils.py:sf_3D_to_psf_4D"]}
{"id": "C75", "title": "Residual jitter only blurs", "statement": "A residual jitter never raises any value of the optical transfer function, a zero jitter leaves the PSF unchanged, and the two functions that compute PSFs give the same meaning to the jitter values.", "quantifier": "all jitter values, frequencies and wavelength sets", "why_tests_cant": "all reals", "anchors": ["p3/aoSystem/FourierUtils.py:sf_3D_to_psf_3D", "p3/aoSystem/FourierUtils.py:sf_3D_to_psf_4D"]}
{"id": "C76", "title": "Strehl ratios are percentages that decrease with turbulence", "statement": "The Strehl ratio of an instrument without static aberrations is between 0 and 100 percent and does not increase when the structure function grows.", "quantifier": "all non-negative structure functions, jitters and positions", "why_tests_cant": "all reals", "anchors": ["p3/aoSystem/FourierUtils.py:sf_3D_to_psf_3D", "p3/aoSystem/FourierUtils.py:sf_3D_to_psf_4D"]}
{"id": "C77", "title": "PSFs can be computed with the default stellar parameters", "statement": "Computing a PSF cube without giving stellar parameters yields unit-flux, centred PSFs without background for every number of sources and wavelengths.", "quantifier": "all numbers of sources and wavelengths", "why_tests_cant": "all shapes", "anchors": ["p3/aoSystem/FourierUtils.py:sf_3D_to_psf_4D"]}
{"id": "C78", "title": "PSF metrics can be stored for every sampling", "statement": "The ensquared-energy curves of all PSFs of a model can be computed and stored, whatever the detector sampling.", "quantifier": "all detector sizes and samplings", "why_tests_cant": "the array size is wrong only for undersampled detectors", "anchors": ["p3/aoSystem/fourierModel.py:fourierModel.getPsfMetrics"]}
{"id": "C79", "title": "Winds of compressed layers belong to the layers that were grouped", "statement": "When the profile is compressed for the reconstruction, the wind speed and direction of each compressed layer lie within the range of those of the layers it groups.", "quantifier": "all wind speeds and directions and numbers of layers", "why_tests_cant": "directions wrap around at 360 degrees, which test profiles avoid", "anchors": ["p3/aoSystem/FourierUtils.py:eqLayers", "p3/aoSystem/atmosphere.py:atmosphere.__init__"]}
{"id": "C80", "title": "Tilt and focus filters lie between zero and one", "statement": "The filters that remove tilt and focus from a PSD multiply every frequency by a number between zero and one, for every telescope diameter.", "quantifier": "all frequencies and diameters", "why_tests_cant": "it is an inequality between Bessel functions over all reals", "anchors": ["p3/aoSystem/fourierModel.py:fourierModel.TiltFilter", "p3/aoSystem/fourierModel.py:fourierModel.FocusFilter"]}
{"id": "C81", "title": "Vibrations are filtered by the power rejection of the loop", "statement": "The residual variance of a wind-shake spectrum after the tip-tilt loop is the integral of the spectrum times the squared modulus of the rejection transfer function; it is real and non-negative.", "quantifier": "all spectra, gains, delays and frequency grids", "why_tests_cant": "the sign and the phase depend on the spectrum", "anchors": ["p3/aoSystem/fourierModel.py:fourierModel.windShakePSD"]}
{"id": "C82", "title": "Zernike modes are orthonormal over the unit disc", "statement": "The mode returned for a Noll index has mean square one over the unit disc (zero mean except piston), and two different indices give orthogonal modes.", "quantifier": "all pairs of Noll indices", "why_tests_cant": "it is an integral identity between polynomials of every degree", "anchors": ["p3/aoSystem/zernike.py:zernike.polynomials", "p3/aoSystem/zernike.py:zernike.findNM"]}
{"id": "C83", "title": "Zernike maps on a pixel grid carry the requested modes", "statement": "Each map of the cube holds the values of the corresponding mode at the pixel coordinates inside the pupil and zero outside, on a regular symmetric grid of the unit square, with the amplitude of Noll.", "quantifier": "all lists of indices, resolutions and pupils", "why_tests_cant": "the order of the modes and the empty rows depend on the list", "anchors": ["p3/aoSystem/zernike.py:zernike.polynomials", "p3/aoSystem/zernike.py:zernike.__init__"]}
{"id": "C84", "title": "Static aberrations given by Zernike coefficients have the requested RMS", "statement": "A static aberration built from Zernike coefficients has, on the pupil, an RMS equal to the norm of the coefficients.", "quantifier": "all pupils, modes and coefficients", "why_tests_cant": "modes are not orthogonal on every pupil", "anchors": ["p3/aoSystem/telescope.py:telescope.__init__"]}
{"id": "C85", "title": "Field-dependent aberration files are recognised whatever their axis order", "statement": "A cube of static modes or of field-dependent maps is read with the axis of the modes recognised, whatever its position, and interpolated in the field.", "quantifier": "all cube shapes", "why_tests_cant": "the axis is guessed from the sizes", "anchors": ["p3/aoSystem/telescope.py:telescope.__init__"]}
{"id": "C86", "title": "Collecting area and airmass follow from the geometry", "statement": "The collecting area is that of the annulus, decreasing in the obstruction, and the airmass is the secant of the zenith angle, at least one.", "quantifier": "all diameters, obstructions and zenith angles", "why_tests_cant": "it is an inequality over reals", "anchors": ["p3/aoSystem/telescope.py:telescope.area", "p3/aoSystem/telescope.py:telescope.airmass"]}
{"id": "C87", "title": "A segmented pupil can be built for every set of segment positions", "statement": "The map allocated for the pupil contains every segment, whatever the coordinates.", "quantifier": "all coordinates and segment sizes", "why_tests_cant": "the size depends on the extreme coordinates over both axes", "anchors": ["p3/aoSystem/pupil.py:pupil.__init__", "p3/aoSystem/pupil.py:pupil.makePupil"]}
{"id": "C88", "title": "Padding or trimming a segmented pupil keeps segments in place", "statement": "After zero-padding or removing the dark border, an operation on a segment acts on the pixels of that segment, and no lit pixel has been lost.", "quantifier": "all pupils and paddings", "why_tests_cant": "the error appears only in a later operation", "anchors": ["p3/aoSystem/pupil.py:pupil.zeroPad", "p3/aoSystem/pupil.py:pupil.removeZeroBorder"]}
{"id": "C89", "title": "Reflectivity and phase act on one segment of a pupil", "statement": "Changing the reflectivity of a segment replaces it by its shape times the new reflectivity and the phase of its construction; changing its phase keeps its modulus; other segments are untouched.", "quantifier": "all assembled pupils without overlap, segments, phases and reflectivities", "why_tests_cant": "it depends on the history of operations", "anchors": ["p3/aoSystem/pupil.py:pupil.applyReflexivitySegment", "p3/aoSystem/pupil.py:pupil.applyPhaseErrorSegment"]}
{"id": "C90", "title": "Filling gaps keeps lit pixels and lights dark ones only", "statement": "Filling the gaps keeps lit pixels as they are and lights only pixels that no segment lights.", "quantifier": "all segment shapes and layouts", "why_tests_cant": "it depends on the layout", "anchors": ["p3/aoSystem/pupil.py:pupil.fillGap", "p3/aoSystem/segment.py:segment.makeSegment"]}
{"id": "C91", "title": "Petals partition the pupil", "statement": "The petals separated by spiders are disjoint maps of value one that together cover the lit pixels of the mask.", "quantifier": "all numbers of spiders, coordinates and masks", "why_tests_cant": "the labels come from a connected-component search over the whole mask", "anchors": ["p3/aoSystem/spiders.py:spiders.__init__", "p3/aoSystem/spiders.py:spiders.makeSpiders"]}
{"id": "C92", "title": "Fixed parameters and bounds are honoured by a masked fit", "statement": "In a fit by the trust-region method with a mask, parameters declared fixed come back exactly as given and each free one lies within the bounds in force for its own position; without mask and bounds the fit stays within the bounds of the model.", "quantifier": "all float start vectors, masks, bounds, flux conventions and optimiser answers within the bounds handed over", "why_tests_cant": "the optimiser may return any point of the box", "anchors": ["p3/psfFitting/psfFitting.py:psfFitting"]}
{"id": "C93", "title": "The residual image is in units of the observed image", "statement": "The residual image returned by a fit, once multiplied back by the normalisation, is the difference between the fitted and the observed image in units of the latter.", "quantifier": "all images, models and normalisations", "why_tests_cant": "the scale cancels only for every normalisation", "anchors": ["p3/psfFitting/psfFitting.py:psfFitting"]}
{"id": "C94", "title": "The PSF returned by a fit at one wavelength has unit flux and neither offset nor background", "statement": "With one wavelength, one frame and the flux index of the decoding, the PSF returned beside the fitted image is the model with the fitted PSD parameters, a star of unit flux, no offset and no background.", "quantifier": "all numbers of stars and parameter layouts", "why_tests_cant": "the indices of the fluxes depend on all the sizes", "anchors": ["p3/psfFitting/psfFitting.py:psfFitting"]}
{"id": "C95", "title": "Confidence intervals of fitted parameters follow from the residual and the Jacobian", "statement": "The half-width returned for each free parameter is the Student quantile times the square root of the residual variance times the diagonal of the inverse of the normal matrix; it exists exactly for more data than parameters and a full-rank Jacobian, is zero for an exact fit and scales with the residual.", "quantifier": "all Jacobians and residuals of any size", "why_tests_cant": "it is a linear-algebra identity over all matrices", "anchors": ["p3/psfFitting/confidenceInterval.py:confidence_interval"]}
{"id": "C96", "title": "Bounds narrowed after a first fit contain the fitted power-spectrum parameters", "statement": "Updating the bounds from a first fit gives, for the seven parameters of the power spectrum, an interval that contains the fitted value and is inside the model bounds.", "quantifier": "all fitted values and precisions", "why_tests_cant": "the precision may be anything, including the code for no precision", "anchors": ["p3/psfao21/psfao21.py:psfao21.update_bounds"]}
{"id": "C97", "title": "The image model superposes stars without losing flux", "statement": "Stacking PSFs keeps the total intensity and the caller's array; images of at least three dimensions are clipped at the saturation; when something is summed the array of the caller is untouched.", "quantifier": "all cubes of PSFs, numbers of stars and saturation levels", "why_tests_cant": "aliasing shows only on later uses of the cube", "anchors": ["p3/psfFitting/imageModel.py:imageModel"]}
{"id": "C98", "title": "Better fits weigh more in the interpolation of PSFs", "statement": "At equal distances of the target, the PSF of the better fit gets the larger weight, and the quality of fits is compared within a tile.", "quantifier": "all fit qualities, positions and numbers of PSFs per tile", "why_tests_cant": "a single PSF per tile hides the weights", "anchors": ["p3/psfFitting/fittingUtils.py:interpolate_psfs_in_fov"]}
{"id": "C99", "title": "Candidates for the fit are the best stars of each tile", "statement": "The selected stars of a tile lie inside it without its border, within the magnitude range, are as many as requested, and no other star that qualifies is better by the criterion; the selection succeeds exactly when enough stars qualify and the criterion is known.", "quantifier": "all star lists, tiles, borders, magnitude limits and criteria", "why_tests_cant": "the order of distances is arbitrary", "anchors": ["p3/psfFitting/fittingUtils.py:select_candidates_for_fitting", "p3/psfFitting/fittingUtils.py:generate_psfs_grid_from_image"]}
{"id": "C100", "title": "Selected stars can be extracted with even windows", "statement": "A window of the requested even size, centred on the pixel that holds the star, is extracted for every selected star.", "quantifier": "all star positions, tile layouts and even window sizes", "why_tests_cant": "rounding matters only for positions close to a border", "anchors": ["p3/psfFitting/fittingUtils.py:extract_multiple_psf"]}
{"id": "C101", "title": "PSFs are interpolated at the centres of even tiles", "statement": "For an even tile size that divides the image, the points of interpolation are the centres of the tiles.", "quantifier": "all numbers of tiles and even tile sizes", "why_tests_cant": "rounding depends on parities and remainders", "anchors": ["p3/psfFitting/fittingUtils.py:generate_psfs_grid_from_image"]}
{"id": "C102", "title": "The field value of a parameter lies within its estimates", "statement": "For positive errors the field value of a parameter is between the smallest and the largest of its estimates.", "quantifier": "all estimates and positive errors", "why_tests_cant": "special codes and fixed parameters give special errors", "anchors": ["p3/psfFitting/fittingUtils.py:create_spatial_variations_psf_model", "p3/psfFitting/fittingUtils.py:compute_psfs_grid"]}
{"id": "C103", "title": "Adjusting a parameter file to an image describes that image", "statement": "After the parameter file is adjusted to an image, the options read by the AO system describe the pupil mask, static aberrations, pupil angle, wavelength and field of that image, and all others are unchanged.", "quantifier": "all files and images", "why_tests_cant": "which options are read is spread over several modules", "anchors": ["p3/psfFitting/fittingUtils.py:adjust_init_file", "p3/psfFitting/fittingUtils.py:choose_stat_modes", "p3/aoSystem/aoSystem.py:aoSystem"]}
{"id": "C104", "title": "The seeing monitor returns the measurement closest in time", "statement": "The value given for a time is the one of the recorded row closest in time; beyond one hour it is flagged as missing.", "quantifier": "all tables and times", "why_tests_cant": "rows around midnight and gaps of any length", "anchors": ["p3/telemetry/massdimm.py:DIMM.indexTime"]}
{"id": "C105", "title": "The ground layer completes the turbulence profile", "statement": "When the seeing of the upper layers does not exceed the total one, the ground layer is non-negative and the profile has the total seeing.", "quantifier": "all seeings and profiles", "why_tests_cant": "the two instruments are noisy, each may exceed the other", "anchors": ["p3/telemetry/massdimm.py:CombineMASSandDIMM"]}
{"id": "C106", "title": "The noise covariance estimated from telemetry is a covariance", "statement": "The covariance of the noise estimated by autocorrelation is symmetric and positive semidefinite, equals half the mean square of the differences of frames separated by the shift, and is zero for commands that do not change.", "quantifier": "all telemetry histories, numbers of frames and actuators and shifts", "why_tests_cant": "positivity is over all combinations of actuators", "anchors": ["p3/telemetry/systemDiagnosis.py:systemDiagnosis.get_noise_variance"]}
{"id": "C107", "title": "Transfer functions of the loop from telemetry are consistent", "statement": "Closed-loop and rejection functions sum to one, the noise function is servo times rejection, delays keep amplitudes, the last frequency is half the frame rate, and integrals of spectra are non-negative.", "quantifier": "all frequencies, gains, delays and durations", "why_tests_cant": "continuous ranges of frequencies", "anchors": ["p3/telemetry/systemDiagnosis.py:systemDiagnosis.temporal_transfer_function"]}
{"id": "C108", "title": "Confidence quantiles decrease with the number of samples", "statement": "The quantiles of the Student law used for the regression increase with the probability and decrease with the number of degrees of freedom.", "quantifier": "all rows of the table and sample sizes", "why_tests_cant": "the table is typed by hand", "anchors": ["p3/telemetry/systemDiagnosis.py"]}
{"id": "C109", "title": "Decorrelation time and wind speed follow from exact data", "statement": "If the logarithm of the correlation is a line the decorrelation time is where the line crosses the threshold; the wind speed is positive for positive times, inversely proportional to them, and inverts the law of decorrelation of radial orders.", "quantifier": "all lines, thresholds, orders and times", "why_tests_cant": "all reals", "anchors": ["p3/telemetry/systemDiagnosis.py"]}
{"id": "C110", "title": "Decimating telemetry keeps statistics", "statement": "Keeping one frame out of several keeps the covariance of a stationary series (it is the covariance of the kept frames).", "quantifier": "all series and decimation factors", "why_tests_cant": "only visible for factors above one", "anchors": ["p3/telemetry/telemetryKeck.py", "p3/telemetry/systemDiagnosis.py"]}
{"id": "C111", "title": "Headers give the delays of an observation", "statement": "Delays are known for the eight programs of the camera and only them, and exceed the time of the camera.", "quantifier": "all headers", "why_tests_cant": "dates and curves are data", "anchors": ["p3/telemetry/keckUtils.py"]}
{"id": "C112", "title": "The structure function of modal coefficients is that of their covariance", "statement": "The structure function computed from the covariance of modal coefficients is, at each separation, the mean over the pairs of lit pixels of the variance of the phase difference; it is non-negative, vanishes at zero separation, and exists for a perfect correction too.", "quantifier": "all pupils, modes, covariances and singular value decompositions", "why_tests_cant": "depends on the order of the singular values and on the pupil's grey levels", "anchors": ["p3/psfr/psfrUtils.py:modes2Otf", "p3/psfr/psfR.py:residual_phase_structure_function"]}
{"id": "C113", "title": "The error breakdown of a reconstructed PSF is an orthogonal sum", "statement": "The total error of the report is the root sum square of the reported independent terms and at least each of them; every term is a number for a physical system; noise and servo-lag share the measured residual; the Marechal Strehl is a percentage.", "quantifier": "all telemetry, OTFs and structure functions", "why_tests_cant": "all reals; differences of squares can be negative", "anchors": ["p3/psfr/psfR.py:get_error_breakdown"]}
{"id": "C114", "title": "The structure function of jitter is a quadratic form", "statement": "The structure function of residual jitter is the quadratic form of the tip-tilt covariance at the separation turned by the pupil angle: zero at the origin, even, non-negative, monotone in the covariance, and insensitive to rotation when the jitter is isotropic.", "quantifier": "all series of measurements, positive semi-definite covariances, angles and separations", "why_tests_cant": "all reals", "anchors": ["p3/psfr/psfR.py:jitter_phase_structure_function"]}
{"id": "C115", "title": "The pixel attenuates but loses no frequency", "statement": "The transfer function of the pixel is one at zero frequency, at most one in modulus, even, and above (2/pi)^2 over the band of the detector.", "quantifier": "all telescopes, wavelengths, pixel scales and frequencies in the band", "why_tests_cant": "all reals", "anchors": ["p3/psfr/psfR.py:pixel_optical_transfer_function"]}
{"id": "C116", "title": "The reconstructed structure function sums its contributions", "statement": "The total structure function is the weighted sum of residual, jitter, fitting, aliasing and (with one strength per layer) anisoplanatism; it is non-negative and vanishes where they do.", "quantifier": "all gains, profiles and separations, any number of (reconstructed) layers", "why_tests_cant": "wrong only for some numbers of layers", "anchors": ["p3/psfr/psfR.py:phase_structure_function", "p3/psfr/psfR.py:get_error_breakdown"]}
{"id": "C117", "title": "The zonal transfer function averages over couples of points", "statement": "The transfer function from a covariance between points is the normalised sum over the couples at that separation of exp(-D/2): one at zero separation, between zero and the fraction of couples elsewhere.", "quantifier": "all covariances and lists of couples", "why_tests_cant": "all positive semi-definite matrices; fails when the pitch does not divide the aperture", "anchors": ["p3/psfr/psfrUtils.py:mkotf", "p3/psfr/psfrUtils.py:pointWiseLocation", "p3/psfr/psfrUtils.py:zonalCovarianceToOtf"]}
{"id": "C118", "title": "Open-loop slopes add the delayed commands", "statement": "Pseudo-open-loop slopes add to each slope the command of the same actuator one and two frames before, with weights that sum to one.", "quantifier": "all series, actuators and delays", "why_tests_cant": "wrong shift of a flattened array", "anchors": ["p3/psfr/psfrUtils.py:getOLslopes"]}
{"id": "C119", "title": "The tomographic reconstructor is the minimum-variance estimator", "statement": "At every spatial frequency the reconstructor gives the linear estimate of the layers with the least error covariance for the noise and turbulence it is given; the error does not grow when noise decreases or a guide star is added; and it is exact without noise when the stars separate the layers.", "quantifier": "all guide stars, layers, noise covariances, frequencies and pseudo-inverses", "why_tests_cant": "an optimum over all linear estimators", "anchors": ["p3/aoSystem/fourierModel.py:fourierModel.tomographicReconstructor"]}
{"id": "C120", "title": "Noises of different sensors with one variance each are independent", "statement": "With one variance per sensor the noise covariance is diagonal with these variances; other numbers of variances raise, except a single one.", "quantifier": "all numbers of sensors and variances", "why_tests_cant": "numpy broadcasts silently", "anchors": ["p3/aoSystem/fourierModel.py:fourierModel.tomographicReconstructor"]}
{"id": "C121", "title": "The projection on the mirrors has the least error over the field", "statement": "The commands of the mirrors minimise the weighted error over the optimisation directions plus a regularisation that vanishes with the inverse of the conditioning.", "quantifier": "all mirrors, layers, directions, weights and frequencies", "why_tests_cant": "an optimum over all commands; wrong only for asymmetrical directions", "anchors": ["p3/aoSystem/fourierModel.py:fourierModel.optimalProjector"]}
{"id": "C122", "title": "Mirrors do nothing beyond their cut-off", "statement": "A mirror gets no command at frequencies beyond its cut-off; where all are beyond, no noise is injected and the residual is the turbulence.", "quantifier": "all mirrors and frequencies", "why_tests_cant": "all frequencies", "anchors": ["p3/aoSystem/fourierModel.py:fourierModel.optimalProjector", "p3/aoSystem/fourierModel.py:fourierModel.spatioTemporalPSD"]}
{"id": "C123", "title": "Tomographic spectra are physical", "statement": "The residual and noise spectra of a tomographic system are non-negative quadratic forms, the residual vanishes for a noiseless system without wind whose stars separate the layers, wind blurs and displaces the measurements, and heights are stretched for laser stars.", "quantifier": "all systems, winds and frequencies", "why_tests_cant": "all reals; fails for several stars without noise", "anchors": ["p3/aoSystem/fourierModel.py:fourierModel.spatioTemporalPSD", "p3/aoSystem/fourierModel.py:fourierModel.noisePSD", "p3/aoSystem/fourierModel.py:fourierModel.powerSpectrumDensity"]}
{"id": "C124", "title": "A breakdown is reported for every system that can be built", "statement": "Every physical system with a wavefront sensor gets a complete error breakdown.", "quantifier": "all systems", "why_tests_cant": "depends on the form in which the noise is given", "anchors": ["p3/aoSystem/aoSystem.py:aoSystem.errorBreakdown"]}
{"id": "C125", "title": "Both rows of a spectral dispersion match the transmittance", "statement": "A detector whose dispersion has a second row (the other axis) of a different length is refused.", "quantifier": "all list lengths", "why_tests_cant": "only visible for dispersions along two axes", "anchors": ["p3/aoSystem/detector.py:detector.__init__"]}
{"id": "C126", "title": "The frequency domain has the wavelengths of the observation", "statement": "The frequency domain is built for every number of bands and bins with the wavelength vector of the observation, and a single bin is the centre of its band.", "quantifier": "all numbers of bands and bins", "why_tests_cant": "the copy in the frequency domain is only exercised for some sizes", "anchors": ["p3/aoSystem/frequencyDomain.py:frequencyDomain.wvl", "p3/aoSystem/FourierUtils.py:create_wavelength_vector"]}
{"id": "C127", "title": "Chromatism is confined to the corrected area", "statement": "The chromatic error is zero outside the corrected area, so that the residual never exceeds the turbulence there.", "quantifier": "every frequency", "why_tests_cant": "only visible in the corners of a circular area", "anchors": ["p3/aoSystem/fourierModel.py:fourierModel.chromatismPSD"]}
{"id": "C128", "title": "Angular frequency arrays are centred", "statement": "The array of angular frequencies of size n has constant steps and contains the zero frequency.", "quantifier": "all sizes", "why_tests_cant": "parity", "anchors": ["p3/aoSystem/FourierUtils.py:shift_array"]}
{"id": "C129", "title": "Cropping inverts enlarging when the padding is even", "statement": "Cropping an image enlarged by a whole factor gives back the image when the padding is even on both axes.", "quantifier": "all such images and factors", "why_tests_cant": "parity of the padding", "anchors": ["p3/aoSystem/FourierUtils.py:cropSupport", "p3/aoSystem/FourierUtils.py:enlargeSupport"]}
{"id": "C130", "title": "PSFs exist at every wavelength of the observation", "statement": "The sampling of a PSF by the detector succeeds at every wavelength and for every detector size.", "quantifier": "all sizes, binning factors and wavelength sets", "why_tests_cant": "fails only for wavelengths that need more binning than the reference", "anchors": ["p3/aoSystem/FourierUtils.py:sf_3D_to_psf_3D", "p3/aoSystem/FourierUtils.py:sf_3D_to_psf_4D"]}
{"id": "C131", "title": "Bounds and flux index of a fit match the parameter vector", "statement": "The bounds returned for the optimiser have one pair per parameter, and the fitting code finds the flux where the model decodes it.", "quantifier": "all numbers of layers, stars, wavelengths, frames and modes, for the three models", "why_tests_cant": "lengths agree for the usual sizes", "anchors": ["p3/aoSystem/fourierModel.py:fourierModel.define_bounds", "p3/psfr/psfR.py:psfR.define_bounds", "p3/psfao21/psfao21.py:psfao21.define_bounds", "p3/psfFitting/psfFitting.py"]}
{"id": "C132", "title": "The noise gain of the loop is non-negative for increasing frequencies", "statement": "For increasing frequencies and a non-negative spectrum the noise gain is non-negative, and it is one for a flat spectrum over the whole band.", "quantifier": "all such samples and loop periods", "why_tests_cant": "only slow loops fail", "anchors": ["p3/aoSystem/fourierModel.py:fourierModel.controller"]}
{"id": "C133", "title": "The reconstructor is a number where the sensor is blind", "statement": "At frequencies where the sensor has no signal the reconstruction filter is zero.", "quantifier": "all frequencies", "why_tests_cant": "isolated frequencies", "anchors": ["p3/aoSystem/fourierModel.py:fourierModel.reconstructionFilter"]}
{"id": "C134", "title": "The imposed total wavefront error is met", "statement": "When a total wavefront error in nanometres is imposed, the integral of the residual PSD equals its square.", "quantifier": "all grids and errors", "why_tests_cant": "needs the normalisation of the grid", "anchors": ["p3/aoSystem/fourierModel.py:fourierModel.powerSpectrumDensity"]}
{"id": "C135", "title": "No table of refraction is extrapolated", "statement": "Wavelengths for which there is no model of the refractive index are refused.", "quantifier": "all wavelengths", "why_tests_cant": "gaps between bands and the far ultraviolet", "anchors": ["p3/aoSystem/airRefraction.py"]}
{"id": "C136", "title": "Segments can be rotated, shrunk and moved as far as the map allows", "statement": "Rotating or shrinking a segment succeeds; a displacement is accepted exactly when the segment stays inside the map, and a refused operation leaves the pupil as it was.", "quantifier": "all pupils, segments and displacements", "why_tests_cant": "limits taken from the wrong axis", "anchors": ["p3/aoSystem/pupil.py"]}
{"id": "C137", "title": "Start vectors may be integers", "statement": "A start vector of integers gives the same fit as the same vector of floats.", "quantifier": "all vectors and masks", "why_tests_cant": "depends on the type of the array", "anchors": ["p3/psfFitting/psfFitting.py:mini2input"]}
{"id": "C138", "title": "No pixel is lost or scrambled by tiling", "statement": "Every pixel is in a tile, and reassembling rectangular tiles puts them side by side or is refused.", "quantifier": "all sizes and numbers of tiles", "why_tests_cant": "only for rectangular images or remainders", "anchors": ["p3/psfFitting/fittingUtils.py"]}
{"id": "C139", "title": "Generated parameter files describe the telemetry to the AO system", "statement": "Every option written is one that the AO system reads, and a file written over an older one describes the new telemetry only.", "quantifier": "all telemetry inputs and histories of writes", "why_tests_cant": "needs a history of two writes", "anchors": ["p3/telemetry/configFile.py"]}
{"id": "C140", "title": "The temporal covariance at zero delay is the variance", "statement": "The temporal covariance of a zero delay is the total phase variance.", "quantifier": "all profiles", "why_tests_cant": "only for several layers", "anchors": ["p3/aoSystem/atmosphere.py:atmosphere.temporalCovariance"]}
{"id": "C141", "title": "Angular anisoplanatism depends on the turbulence", "statement": "The angular anisoplanatism spectrum is proportional to the strength of each layer.", "quantifier": "all profiles", "why_tests_cant": "all reals", "anchors": ["p3/aoSystem/anisoplanatismModel.py"]}
{"id": "C142", "title": "The PSD is integrated with the sampling step", "statement": "The PSD in nm^2 is the density times the area of a frequency cell.", "quantifier": "all pitches and frequency steps", "why_tests_cant": "equal when the ratio is whole", "anchors": ["p3/aoSystem/frequencyDomain.py"]}
{"id": "C143", "title": "Zernike maps can be given unit norm", "statement": "With unit normalisation each map of the cube has unit norm.", "quantifier": "all lists of indices and resolutions", "why_tests_cant": "one mode works", "anchors": ["p3/aoSystem/zernike.py"]}
{"id": "C144", "title": "Spiders given by the user are drawn", "statement": "Every spider given is drawn.", "quantifier": "all numbers of spiders and coordinates", "why_tests_cant": "needs coordinates without a resolution", "anchors": ["p3/aoSystem/spiders.py"]}
{"id": "C145", "title": "Bounds given by the user are always honoured", "statement": "A fit with bounds succeeds and stays inside them, whatever the method, the mask and the normalisation.", "quantifier": "all options", "why_tests_cant": "bounds without a mask, other methods", "anchors": ["p3/psfFitting/psfFitting.py"]}
{"id": "C146", "title": "Saturation applies to every image and alters no array of the model", "statement": "Every image is clipped at the saturation, and the model's own cube of PSFs is never altered.", "quantifier": "all cubes and saturation levels", "why_tests_cant": "depends on the number of dimensions", "anchors": ["p3/psfFitting/imageModel.py"]}
{"id": "C147", "title": "Without limits of magnitude all stars qualify", "statement": "The selection of candidates without limits of magnitude, as the calibration makes it by default, succeeds.", "quantifier": "all star lists", "why_tests_cant": "default arguments", "anchors": ["p3/psfFitting/fittingUtils.py"]}
{"id": "C148", "title": "Delays, sensors and frequencies of the telemetry have their physical values", "statement": "A delay has the phase of the delay, the sensor averages over a frame, and the first frequency is the inverse of the duration.", "quantifier": "all rates, delays and durations", "why_tests_cant": "all reals", "anchors": ["p3/telemetry/systemDiagnosis.py:systemDiagnosis.temporal_transfer_function"]}
{"id": "C149", "title": "Dates select the calibration that exists for them", "statement": "Each date selects the non-common-path calibration of its period.", "quantifier": "all dates", "why_tests_cant": "four months are known", "anchors": ["p3/telemetry/keckUtils.py"]}
{"id": "C150", "title": "The wavelengths of a filter curve with isolated duplicates become strictly increasing", "statement": "After the correction, sorted wavelengths with isolated duplicates are strictly increasing.", "quantifier": "all such curves", "why_tests_cant": "needs three equal wavelengths", "anchors": ["p3/telemetry/keckUtils.py"]}
{"id": "C151", "title": "Jitter corrected for noise only blurs", "statement": "After subtraction of the noise the structure function of jitter is non-negative.", "quantifier": "all measurements and noise covariances", "why_tests_cant": "needs more noise than signal", "anchors": ["p3/psfr/psfR.py:jitter_phase_structure_function"]}
{"id": "C152", "title": "The PSF reported with the breakdown uses the profile of the parameter file", "statement": "The PSF computed with the breakdown has the turbulence of the parameter file and unit gains, and off-axis anisoplanatism is included for every profile.", "quantifier": "any number of (reconstructed) layers", "why_tests_cant": "wrong only for some numbers of layers", "anchors": ["p3/psfr/psfR.py:get_error_breakdown"]}
{"id": "C153", "title": "The points of the zonal covariance match the grid of separations when the pitch divides the aperture", "statement": "When the aperture is a whole number of pitches the points go from one edge to the other and are as many as the grid of separations assumes.", "quantifier": "all pitches and such apertures", "why_tests_cant": "fails when the pitch does not divide the aperture", "anchors": ["p3/psfr/psfrUtils.py:pointWiseLocation", "p3/psfr/psfrUtils.py:zonalCovarianceToOtf"]}
{"id": "C154", "title": "The noise spectrum fits the array of all systems", "statement": "The noise spectrum can be stored for every number of guide stars and sources, with and without noise.", "quantifier": "all numbers of stars and sources, all variances", "why_tests_cant": "several stars without noise", "anchors": ["p3/aoSystem/fourierModel.py:fourierModel.noisePSD", "p3/aoSystem/fourierModel.py:fourierModel.powerSpectrumDensity"]}
{"id": "C155", "title": "Interpolation reproduces the references", "statement": "At the position of a reference PSF the interpolated PSF is that reference.", "quantifier": "all references", "why_tests_cant": "isolated positions", "anchors": ["p3/psfFitting/fittingUtils.py"]}
{"id": "C156", "title": "Fit quality of a cube compares the sky with the model at each wavelength", "statement": "The reported metrics of a hyperspectral cube are, at each wavelength, those of the observed and of the fitted image.", "quantifier": "all cubes and numbers of wavelengths", "why_tests_cant": "arrays sharing memory", "anchors": ["p3/psfFitting/psfFitting.py"]}
{"id": "C157", "title": "The transfer function of a pupil is a Hermitian autocorrelation", "statement": "For every non-negative pupil transmission and every phase, the OTF has its peak at the central pixel (total power over the number of pixels), is nowhere larger in modulus, is Hermitian about the centre, and is real and non-negative without aberrations.", "quantifier": "all pupils, phases and paddings", "why_tests_cant": "Cauchy-Schwarz over arrays of any size", "anchors": ["p3/aoSystem/FourierUtils.py:pupil2otf", "p3/aoSystem/FourierUtils.py:fftCorrel"]}
{"id": "C158", "title": "With a sampling of two or more nothing is folded", "statement": "With an oversampling of at least two the OTF at each separation is the sum over the pupil of the field times its shifted conjugate, the field being zero outside the pupil, and it is zero for separations of at least the pupil size.", "quantifier": "all pupils, phases, samplings >= 2 and separations", "why_tests_cant": "all sizes; periodic transforms fold otherwise", "anchors": ["p3/aoSystem/FourierUtils.py:pupil2otf", "p3/aoSystem/FourierUtils.py:enlargeSupport"]}
{"id": "C159", "title": "The PSF of a pupil is its diffraction pattern", "statement": "PSFs computed from an OTF have unit sum; with a sampling of at least two the PSF of a pupil is at every pixel the squared modulus of the Fourier transform of the pupil field at the position of the pixel (centred between the four central pixels for even sizes), normalised, hence never negative.", "quantifier": "all non-opaque pupils, phases, samplings >= 2, even and odd sizes", "why_tests_cant": "equality of two transforms for every array", "anchors": ["p3/aoSystem/FourierUtils.py:pupil2psf", "p3/aoSystem/FourierUtils.py:otf2psf"]}
{"id": "C160", "title": "Static aberrations never improve the image", "statement": "The instrumental OTF is one at its centre and at most the diffraction-limited OTF in modulus at every frequency, so that the Strehl ratio with static aberrations is at most 100 percent.", "quantifier": "all pupils, static phases, structure functions, jitters and positions", "why_tests_cant": "inequality at every frequency", "anchors": ["p3/aoSystem/FourierUtils.py:getStaticOTF", "p3/aoSystem/FourierUtils.py:sf_3D_to_psf_3D"]}
{"id": "C161", "title": "Static aberrations are seen in the PSF as they are", "statement": "A static OPD map gives the PSF of that map: a tilt moves the image, and a map and its opposite give mirrored images.", "quantifier": "all static maps", "why_tests_cant": "symmetrical test maps (defocus, astigmatism) do not reveal it", "anchors": ["p3/aoSystem/FourierUtils.py:getStaticOTF"]}
{"id": "C162", "title": "Static modes given by the user are applied", "statement": "The coefficients of static modes are applied (in nm) to the modes of the telescope, on top of the OPD map, or an error is raised.", "quantifier": "all numbers of modes and coefficients", "why_tests_cant": "all lengths of lists", "anchors": ["p3/aoSystem/FourierUtils.py:getStaticOTF"]}
{"id": "C163", "title": "The telescope OTF is the autocorrelation of the pupil, centred", "statement": "telescopeOtf returns the OTF of the pupil with its peak at the central pixel; the Strehl ratio divides by the sum of it.", "quantifier": "all pupils", "why_tests_cant": "wrong by a shift, and in amplitude only for asymmetrical pupils", "anchors": ["p3/aoSystem/FourierUtils.py:telescopeOtf", "p3/aoSystem/FourierUtils.py:getStrehl"]}
{"id": "C164", "title": "The OTF of an image never amplifies", "statement": "The OTF computed from an image without negative pixels is one at zero frequency and at most one in modulus.", "quantifier": "all non-negative images", "why_tests_cant": "all arrays", "anchors": ["p3/aoSystem/FourierUtils.py:psf2otf"]}
{"id": "C165", "title": "OTFs of any shape can be transformed", "statement": "otf2psf accepts square and rectangular arrays.", "quantifier": "all shapes", "why_tests_cant": "fails for rectangular arrays with an even number of rows only", "anchors": ["p3/aoSystem/FourierUtils.py:otf2psf"]}
{"id": "C166", "title": "Recentring brings the peak to the centre", "statement": "centerPsf moves the image by the offset of its peak from the centre.", "quantifier": "all offsets", "why_tests_cant": "all positions", "anchors": ["p3/aoSystem/FourierUtils.py:centerPsf"]}
{"id": "C167", "title": "The full Fourier transform follows from half of it", "statement": "From the half transform of a real image the full transform is obtained, for every even or odd size.", "quantifier": "all real images of all sizes", "why_tests_cant": "index arithmetic for every parity and size", "anchors": ["p3/aoSystem/FourierUtils.py:_rfft2_to_fft2"]}
{"id": "C168", "title": "The structure function of a phase map is a mean over pairs of points", "statement": "The structure function of a phase map at a separation is the mean, over the pairs of pupil points so separated, of the squared phase difference: it is never negative and zero for a constant phase.", "quantifier": "all phase maps, pupils and separations", "why_tests_cant": "all arrays", "anchors": ["p3/aoSystem/FourierUtils.py:phase_to_structure_function"]}
{"id": "C169", "title": "The PSFAO21 structure function is that of its PSD", "statement": "The on-axis structure function of the PSFAO21 model is twice the sum of the PSD times one minus the cosine of the phase, over the squared support: non-negative, zero at the centre, at most four times the variance.", "quantifier": "all non-negative PSDs of all sizes, telescopes and samplings", "why_tests_cant": "all arrays, all parities of the size", "anchors": ["p3/psfao21/psfao21.py:get_opd_structure_function"]}
{"id": "C170", "title": "PSFAO21 applies anisoplanatism to off-axis stars", "statement": "When the system has an anisoplanatism function, the structure function of each off-axis star is the on-axis one plus the anisoplanatism of that star for the fitted profile.", "quantifier": "all numbers of layers, sources, sizes and anisoplanatism functions", "why_tests_cant": "a test has one size and one profile", "anchors": ["p3/psfao21/psfao21.py:get_opd_structure_function", "p3/aoSystem/frequencyDomain.py:anisoplanatismPhaseStructureFunction", "p3/aoSystem/FourierUtils.py:sort_params_from_labels"]}
{"id": "C171", "title": "PSFAO21 returns one PSF per source and wavelength", "statement": "Calling the model at several wavelengths returns an array with one PSF for each source and wavelength, with or without the stellar parameters in the vector.", "quantifier": "all numbers of sources, bands and bins", "why_tests_cant": "all combinations of lengths", "anchors": ["p3/psfao21/psfao21.py:__call__", "p3/aoSystem/FourierUtils.py:sort_params_from_labels", "p3/aoSystem/FourierUtils.py:sf_3D_to_psf_3D"]}
{"id": "C172", "title": "The reported wavefront error is that of the PSF", "statement": "After a call the reported wavefront error in nm is the rms of the phase in the PSFs returned.", "quantifier": "all wavelengths and PSDs", "why_tests_cant": "all lists of wavelengths", "anchors": ["p3/psfao21/psfao21.py:get_power_spectrum_density", "p3/psfao21/psfao21.py:__call__"]}
{"id": "C173", "title": "Building PSFAO21 leaves the description of the observation as it is", "statement": "The model has one frequency domain per wavelength and leaves wavelengths, number of bins and bandwidth of the AO system unchanged, so that one background per wavelength is decoded.", "quantifier": "all wavelength vectors", "why_tests_cant": "a change of state seen only by later calls", "anchors": ["p3/psfao21/psfao21.py:__init__", "p3/psfao21/psfao21.py:__call__", "p3/aoSystem/FourierUtils.py:sort_params_from_labels"]}
{"id": "C174", "title": "Bounds of PSFAO21 are intervals", "statement": "Each lower bound is below its upper bound.", "quantifier": "all numbers of layers, sources, wavelengths, pixels and modes", "why_tests_cant": "all sizes", "anchors": ["p3/psfao21/psfao21.py:define_bounds", "p3/psfao21/psfao21.py:update_bounds"]}
{"id": "C175", "title": "The error breakdown is the integral of the PSD", "statement": "For every source, the square of the total error reported by the breakdown is the integral of the PSD computed for that source plus the squares of the static aberrations and of the jitter; each term is the integral of its part of the PSD.", "quantifier": "all grids, sources, PSD contributions and flags", "why_tests_cant": "all configurations of guide stars and flags", "anchors": ["p3/aoSystem/fourierModel.py:errorBreakDown", "p3/aoSystem/fourierModel.py:powerSpectrumDensity"]}
{"id": "C176", "title": "A breakdown is reported for every configuration", "statement": "Asking for the error breakdown gives, whatever the loop gain, the guide stars and the optional terms, an error for each source; the tomographic and servo-lag errors make up the spatio-temporal one.", "quantifier": "all configurations", "why_tests_cant": "combinations of flags and guide stars", "anchors": ["p3/aoSystem/fourierModel.py:errorBreakDown"]}
{"id": "C177", "title": "Marechal Strehl ratio and static error", "statement": "The Marechal Strehl ratio of the breakdown is 100 exp(-s^2) for the rms phase s at the reference wavelength: in (0,100], 100 only without error, decreasing with the error. The static error does not depend on piston, is zero exactly for a constant map, and is the root of mean square minus squared mean. The jitter error is the rms over a circular aperture of a tilt by the mean full width.", "quantifier": "all errors, wavelengths and maps", "why_tests_cant": "all real errors and all maps", "anchors": ["p3/aoSystem/fourierModel.py:errorBreakDown"]}
{"id": "C178", "title": "The computation can be repeated with one sensor", "statement": "With one sensor and a field of view that is large enough at the science wavelength every further run leaves the system as the first one did; second_run says exactly when a second run succeeds.", "quantifier": "all fields of view, wavelengths and noise variances", "why_tests_cant": "histories of calls", "anchors": ["p3/aoSystem/fourierModel.py:initComputations", "p3/aoSystem/frequencyDomain.py"]}
{"id": "C179", "title": "Heights of the modelled layers", "statement": "The layers used by the tomographic reconstructor have the heights given, unchanged for natural guide stars and stretched by 1/(1-h/H) for lasers at the height H, with or without compression of the profile.", "quantifier": "all heights and guide stars", "why_tests_cant": "all heights", "anchors": ["p3/aoSystem/fourierModel.py:initComputations"]}
{"id": "C180", "title": "Noise does not depend on the wavelength at which the atmosphere is described", "statement": "The Fried parameter used for the noise of a sensor is the one of the atmosphere scaled to the wavelength of the sensor, whatever the wavelength at which the atmosphere is described.", "quantifier": "all wavelengths and Fried parameters", "why_tests_cant": "all wavelengths", "anchors": ["p3/aoSystem/sensor.py:NoiseVariance", "p3/aoSystem/fourierModel.py:initComputations"]}
{"id": "C181", "title": "Extra errors of science targets and guide stars have the rms asked for", "statement": "When PSDs are asked for at the low-order stars, each science target gets an extra error of the rms given for it and each star one of the rms given for its distance from the axis (a number, or a value on axis and one at the edge of the technical field with linear interpolation); without stars all sources get the science value.", "quantifier": "all grids, options, numbers of sources and stars, positions", "why_tests_cant": "all options and positions", "anchors": ["p3/aoSystem/fourierModel.py:extraErrorLoPSD", "p3/aoSystem/fourierModel.py:extraErrorPSD", "p3/aoSystem/fourierModel.py:powerSpectrumDensity"]}
{"id": "C182", "title": "Low-order extra errors default to those of the science targets", "statement": "Without options for the low-order stars, they get the same extra error, in the same band, as the science targets.", "quantifier": "all options of the extra error", "why_tests_cant": "combinations of options", "anchors": ["p3/aoSystem/aoSystem.py", "p3/aoSystem/fourierModel.py:extraErrorLoPSD"]}
{"id": "C183", "title": "The focal structure function of a source in the direction of the star is the variance of the differential phase", "statement": "For a source in the direction of the star, or a star at infinity, each term is half the variance of the differential phase, non-negative and zero at zero separation; on a symmetric grid the map vanishes at zero separation for all sources.", "quantifier": "all stationary processes, heights, directions and pairs of points", "why_tests_cant": "all pairs of points and geometries", "anchors": ["p3/aoSystem/anisoplanatismModel.py:focal_angular_function", "p3/aoSystem/anisoplanatismModel.py:anisoplanatism_structure_function", "p3/aoSystem/FourierUtils.py:Ialpha"]}
{"id": "C184", "title": "The map of a covariance matrix even in both axes is the covariance as a function of the separation", "statement": "For samples of a stationary process whose covariance is even along each axis, as isotropic turbulence, the map has at each pixel the covariance for the separation of this pixel; for all matrices the value at the centre is the mean variance.", "quantifier": "all sizes of the grid, all such covariances", "why_tests_cant": "all matrices", "anchors": ["p3/aoSystem/FourierUtils.py:matrix_to_map", "p3/aoSystem/anisoplanatismModel.py:vector_to_separation"]}
{"id": "C185", "title": "The anisokinetism of two sources is a covariance matrix", "statement": "The matrix of tip and tilt anisokinetism of two directions is symmetric and positive semidefinite, zero for equal directions and unchanged when the two sources are exchanged.", "quantifier": "all layers with non-negative weights, spectra, filters, directions, telescope diameters", "why_tests_cant": "all profiles and directions", "anchors": ["p3/aoSystem/zernike.py:anisokinetism", "p3/aoSystem/zernike.py:tiltsAngularCovariance"]}
{"id": "C186", "title": "The anisokinetism structure function of uncorrelated tip and tilt is the variance of the differential tilt", "statement": "For uncorrelated tip and tilt and one source, the value at each separation is the variance of the differential tilt.", "quantifier": "all variances and grids", "why_tests_cant": "all covariances", "anchors": ["p3/aoSystem/anisoplanatismModel.py:anisokinetism_function", "p3/aoSystem/zernike.py:anisokinetism"]}
{"id": "C187", "title": "Contour points are at the level", "statement": "A contour point of a pixel below the level, next to one above, lies on the ray from the peak to a pixel above the level other than the peak, where the linear interpolation of the two values is the level; contour points come from exactly these pixels.", "quantifier": "all images and levels", "why_tests_cant": "all images", "anchors": ["p3/aoSystem/FourierUtils.py:find_contour_points"]}
{"id": "C188", "title": "The filter of outliers keeps half of a contour that is not round", "statement": "If the distances to the peak are not all equal, the filter keeps at least half of the points.", "quantifier": "all such contours", "why_tests_cant": "all sets of points", "anchors": ["p3/aoSystem/FourierUtils.py:find_contour_points"]}
{"id": "C189", "title": "The width of an image by cutting or contour is a length on the sky, whatever the resampling", "statement": "Widths are proportional to the pixel scale for all methods; with the cutting and contour methods they do not depend on the resampling; a contour has the largest and smallest distance to the centre of its box as widths, wherever it is, a circle its diameter; the ellipticity is their ratio.", "quantifier": "all contours, cuts, pixel scales and resampling factors", "why_tests_cant": "all images and factors", "anchors": ["p3/aoSystem/FourierUtils.py:getFWHM"]}
{"id": "C190", "title": "The width of an image is returned for every documented method and output", "statement": "Every documented method returns widths for every image whose cuts can be measured; only unknown methods raise, and only when the method matters; each of the four outputs has its number of values.", "quantifier": "all images, methods, numbers of outputs", "why_tests_cant": "all methods and images", "anchors": ["p3/aoSystem/FourierUtils.py:getFWHM"]}
{"id": "C191", "title": "The turbulent variance of a Zernike coefficient depends on its radial order only", "statement": "For every list of indices, in any order and with repetitions, each coefficient gets the variance of its radial order; without outer scale that of the piston is infinite.", "quantifier": "all lists of indices, values of D/r0 and D/L0", "why_tests_cant": "all lists of indices", "anchors": ["p3/aoSystem/zernike.py:CoefficientsVariance"]}
{"id": "C192", "title": "Without outer scale the Zernike variances follow Noll: positive, decreasing with the order, proportional to (D/r0)^(5/3)", "statement": "The variances of all modes but the piston are positive, proportional to (D/r0)^(5/3) and strictly decreasing with the radial order.", "quantifier": "all orders and values of D/r0", "why_tests_cant": "all orders", "anchors": ["p3/aoSystem/zernike.py:CoefficientsVariance"]}
{"id": "C193", "title": "The hypergeometric series of the outer scale are summed to the tolerance", "statement": "The series used for a finite outer scale are summed until the remainder is below the tolerance.", "quantifier": "all parameters and arguments", "why_tests_cant": "all arguments", "anchors": ["p3/aoSystem/zernike.py:CoefficientsVariance"]}
{"id": "C194", "title": "The number of photons is the mean of the brightest pixels", "statement": "With more than 100 actuators, the flux estimated from the maps of the wavefront sensor is the mean, over exposures, of the mean of the brightest pixels of each exposure (half the number of measurements seen by an actuator, rounded up).", "quantifier": "all maps, gains and reconstructors with more than 100 actuators", "why_tests_cant": "all maps", "anchors": ["p3/telemetry/systemDiagnosis.py:get_number_photons"]}
{"id": "C195", "title": "Actuators are selected inside a ring", "statement": "Without diameters the valid actuators are selected; with an inner and an outer diameter, those whose peak is at a distance between the two radii from the centre used by the code.", "quantifier": "all influence functions, maps of valid actuators and diameters", "why_tests_cant": "all influence functions", "anchors": ["p3/telemetry/systemDiagnosis.py:select_actuators"]}
{"id": "C196", "title": "Averages over the radial orders return one value per order", "statement": "There is one value per distinct radial order, in increasing order, whatever the order of the modes; values that depend on the order only are returned unchanged.", "quantifier": "all lists of modes and values", "why_tests_cant": "all lists of modes", "anchors": ["p3/telemetry/systemDiagnosis.py:average_radial_order"]}
{"id": "C197", "title": "The covariance of the Zernike coefficients does not depend on static commands, piston or earlier calls", "statement": "It is symmetric and positive semi-definite, it is unchanged by a static command or a piston of each frame, and by an earlier estimate of the noise (which modifies the commands in place); the reconstructed modes are those asked for.", "quantifier": "all telemetry, reconstructors and selections", "why_tests_cant": "all telemetry", "anchors": ["p3/telemetry/systemDiagnosis.py:reconstruct_zernike"]}
{"id": "C198", "title": "Mirror commands are projected onto the Zernike modes by least squares", "statement": "A shape of the mirror that is a combination of independent modes is decomposed exactly; in general the coefficients minimise the distance to the shape.", "quantifier": "all modes, influence functions and commands", "why_tests_cant": "all matrices", "anchors": ["p3/telemetry/systemDiagnosis.py:reconstruct_zernike"]}
{"id": "C199", "title": "Every method of noise estimation returns the noise of each command and leaves the telemetry alone", "statement": "Each of the documented methods returns the covariance of the noise of the commands; unknown methods are refused; the telemetry is not modified.", "quantifier": "all methods, telemetry and sizes", "why_tests_cant": "all telemetry and sizes", "anchors": ["p3/telemetry/systemDiagnosis.py:get_noise_variance"]}
{"id": "C200", "title": "The number of sub-folders of test data is the divisor of the number of files closest to the one asked for", "statement": "It divides the number of files; it is the number asked for if that is a divisor, else the closest divisor; the distribution is refused when that is one.", "quantifier": "all numbers of files and of sub-folders", "why_tests_cant": "all numbers", "anchors": ["p3/deepLoop/dataGenerator.py:split_test_data"]}
{"id": "C201", "title": "No test file is lost or duplicated when they are distributed over new sub-folders, even by a crash", "statement": "At every moment of the distribution, whatever the random sample and wherever it is interrupted, each file is in exactly one place with its contents and other files are untouched; once done all are in sub-folders, as many in each.", "quantifier": "all file systems without files of these names in the sub-folders, samples, numbers of files and crash points", "why_tests_cant": "all crash points and samples", "anchors": ["p3/deepLoop/dataGenerator.py:split_test_data"]}
{"id": "C202", "title": "Each pair of intervals has one sub-folder with values in both intervals", "statement": "Each pair of intervals of the main parameter and the residual variance has exactly one sub-folder, and the values drawn for it lie in the intervals, whose edges are the bounds up to the rounding.", "quantifier": "all bounds, roundings, numbers of intervals and random draws", "why_tests_cant": "all random draws", "anchors": ["p3/deepLoop/dataGenerator.py:generate_parameters_values"]}
{"id": "C203", "title": "The images of the data base of static aberrations depend on the parameters of their labels", "statement": "With static aberrations as main parameter the PSD of an image is that of the model for its labels.", "quantifier": "all parameters", "why_tests_cant": "all parameters", "anchors": ["p3/deepLoop/dataGenerator.py:generate_psf"]}
{"id": "C204", "title": "Each image has its own file and the test data are taken equally from the sub-folders", "statement": "The labels of the images of a sub-folder differ; the same number of test data is taken from each sub-folder, as many as asked for in total when it is a multiple of their number and not more than there are images.", "quantifier": "all numbers of images, roundings and test data", "why_tests_cant": "all numbers", "anchors": ["p3/deepLoop/dataGenerator.py:generate_psf"]}
{"id": "C205", "title": "The intervals of a data base are read back from the names of its sub-folders", "statement": "Whatever the order of the folders, the lower edges of the intervals are returned, sorted and without repetition, when all entries are sub-folders of the data base.", "quantifier": "all data bases and orders of the folders", "why_tests_cant": "all orders of a directory", "anchors": ["p3/deepLoop/recover_list.py:recover_main_parameters_values_from_subfolders"]}
{"id": "C206", "title": "A verified data base has its values above the lower edge of their interval", "statement": "In an accepted data base all values exceed the lower edge of their interval, and all but those of the last column are below the upper one.", "quantifier": "all data bases", "why_tests_cant": "all values", "anchors": ["p3/deepLoop/dataBaseVerification.py:verifyDataBase"]}
{"id": "C207", "title": "All rows of a result file that ends with another line are read", "statement": "Each row after the two lines of header, up to the last line, is part of the statistics.", "quantifier": "all files", "why_tests_cant": "all files", "anchors": ["p3/deepLoop/deepLoopPerformance.py:read_txt_files"]}
{"id": "C208", "title": "Accuracy metrics: Pearson coefficient and relative error", "statement": "The coefficient lies between -1 and 1 and is 1 for estimates that are an increasing affine function of the true values; the relative error of an estimate off by a constant factor is that factor.", "quantifier": "all lists of values", "why_tests_cant": "all lists", "anchors": ["p3/deepLoop/deepLoopPerformance.py:get_parameters_metrics"]}
{"id": "C209", "title": "Data sets with a corrupted image are set aside", "statement": "A data set whose image is not centred, is too faint, or was taken in bad conditions is moved to the outliers, and so is one without telemetry; the others stay.", "quantifier": "all lists of data sets, images and headers", "why_tests_cant": "all images and headers", "anchors": ["p3/telemetry/sphereUtils.py:remove_corrupted_data", "p3/telemetry/sphereUtils.py:read_strehl_value"]}
{"id": "C210", "title": "Setting data sets aside in an existing folder moves each of them as a whole", "statement": "When the folder of the outliers exists, each data set found corrupted is found in it under its name, also after an interruption, and the others are where they were.", "quantifier": "all sets of folders and points of interruption", "why_tests_cant": "all states of the disk", "anchors": ["p3/telemetry/sphereUtils.py:remove_corrupted_data"]}
{"id": "C211", "title": "Stacked frames are recentred on their peaks", "statement": "For an even size and peaks far enough from the edges, the stack has the size asked for, its largest pixel is the central one and is the mean of the peaks of the frames over the exposure time.", "quantifier": "all such cubes, sizes and positions of the peaks", "why_tests_cant": "all images and sizes", "anchors": ["p3/telemetry/sphereUtils.py:process_clean_data"]}
{"id": "C212", "title": "Every telemetry file has a date, found from its name", "statement": "For every name containing .fits the date is determined without error; it has no dot and no T, so that the folder of a date is never taken for a file.", "quantifier": "all file names", "why_tests_cant": "all strings", "anchors": ["p3/telemetry/sphereUtils.py:sort_telemetry_folder"]}
{"id": "C213", "title": "Sorting telemetry by date loses no file, can be interrupted anywhere and run again", "statement": "For a year without a sub-folder named .fits nor a file named as a date, a complete run moves each file to the folder of its date; interrupted at any point each file is in exactly one of the two places with its contents and others are untouched; running again completes the sort.", "quantifier": "all folders, orders of listing and points of interruption", "why_tests_cant": "all crash points and listing orders", "anchors": ["p3/telemetry/sphereUtils.py:sort_telemetry_folder"]}
{"id": "C214", "title": "Starting point and fixed parameters of the SPHERE fit agree", "statement": "Both have one entry per parameter of the model; r0 is fitted exactly when the image contains the corrected area; the starting variance is that of a Strehl ratio between 0 and 1.", "quantifier": "all images, wavelengths, Strehl ratios and numbers of modes", "why_tests_cant": "all real inputs", "anchors": ["p3/telemetry/sphereUtils.py:define_initial_guess", "p3/telemetry/sphereUtils.py:define_fixed_parameters"]}
{"id": "C215", "title": "The fit of a SPHERE image returns all parameters, with or without static modes", "statement": "The number of parameters and errors returned does not depend on whether the modes are fitted; those that are not are marked by -1.", "quantifier": "all images, Strehl ratios and numbers of modes", "why_tests_cant": "all inputs", "anchors": ["p3/telemetry/sphereUtils.py:fitting_image"]}
{"id": "C216", "title": "Values of the SPHERE table are in the column of their name", "statement": "The row has as many entries as there are columns, and each parameter, mode, error and metric but the width along y is under its name.", "quantifier": "all numbers of modes and results", "why_tests_cant": "all numbers of modes", "anchors": ["p3/telemetry/sphereUtils.py:define_database_colnames", "p3/telemetry/sphereUtils.py:update_data_struct", "p3/telemetry/sphereUtils.py:get_number_modes"]}
{"id": "C217", "title": "Removing tip and tilt from a phase is an orthogonal projection", "statement": "What is removed is tip and tilt, what remains is orthogonal to both and the least that can be reached, doing it again changes nothing, and the outside of the pupil is untouched.", "quantifier": "all phases, pupils and modal bases", "why_tests_cant": "all phases", "anchors": ["p3/telemetry/sphereUtils.py:compute_tiptilt_filtering_matrix", "p3/telemetry/sphereUtils.py:remove_tiptilt_from_phase"]}
{"id": "C218", "title": "The low-wind-effect error scales with the coefficients", "statement": "Multiplying all coefficients multiplies the error by the absolute value; tip and tilt are not counted when they are removed.", "quantifier": "all rows and modal bases", "why_tests_cant": "all rows", "anchors": ["p3/telemetry/sphereUtils.py:compute_lwe_wavefront_error"]}
{"id": "C219", "title": "Sensor window, delay and gain are monotone in the magnitude and the frame rate", "statement": "A fainter star never has a larger window or gain, a faster loop never a smaller delay, and all are defined for every star.", "quantifier": "all magnitudes, frame rates and filters", "why_tests_cant": "all real magnitudes", "anchors": ["p3/telemetry/sphereUtils.py:define_wfs_window", "p3/telemetry/sphereUtils.py:define_loop_gain", "p3/telemetry/sphereUtils.py:define_loop_delay", "p3/telemetry/sphereUtils.py:grab_wfs_parameters"]}
{"id": "C220", "title": "The flux of the sensor is taken around the time of the observation", "statement": "For a night whose table has fluxes, the rows used contain the one closest to the observation and extend over the exposure; there always is one.", "quantifier": "all tables with increasing dates, observation dates and exposure times", "why_tests_cant": "all tables", "anchors": ["p3/telemetry/sphereUtils.py:read_sparta_data"]}
{"id": "C221", "title": "Header values of SPHERE are passed on unchanged, with safe replacements", "statement": "All temperatures written as decimal numbers are returned with their names, the read-out noise is never zero, the seeing never negative, and date and time are the parts of the keyword; temperatures written as integers are dropped.", "quantifier": "all headers", "why_tests_cant": "all headers", "anchors": ["p3/telemetry/sphereUtils.py:get_temperature", "p3/telemetry/sphereUtils.py:get_detector_config", "p3/telemetry/sphereUtils.py:get_date", "p3/telemetry/sphereUtils.py:instantiate_psfao_model"]}
{"id": "C222", "title": "A radial profile is the mean over rings", "statement": "For an image with pixels in more than one ring, each value of the profile is the mean of the pixels whose distance to the centre rounds to the same number of bins; it lies between the faintest and the brightest pixel, and the flux of all rings but the outermost is that of the pixels in them.", "quantifier": "all images, centres, bins, ranges of angles and maximal radii", "why_tests_cant": "all images and centres", "anchors": ["p3/aoSystem/FourierUtils.py:radial_profile"]}
{"id": "C223", "title": "The radius returned with a profile is that of the pixels, for bins not smaller than a pixel", "statement": "With bins of at least one pixel around a pixel or a corner, the radius returned with each value is the distance of the pixels it was computed from, within one bin.", "quantifier": "all images, pixel scales and such bins", "why_tests_cant": "all images and bins", "anchors": ["p3/aoSystem/FourierUtils.py:radial_profile"]}
{"id": "C224", "title": "Supersampled profiles agree with the profile and are not negative", "statement": "Interpolation along the profile gives its values at its radii, and interpolation on circles the mean over each circle, in flux per element of the finer step; radii advance by the step and no value is negative.", "quantifier": "all profiles, images, steps and grids", "why_tests_cant": "all profiles and steps", "anchors": ["p3/aoSystem/FourierUtils.py:interpolate_1d", "p3/aoSystem/FourierUtils.py:interpolate_2d", "p3/aoSystem/FourierUtils.py:radial_profile"]}
{"id": "C225", "title": "The encircled energy of a supersampled profile is the energy in the disc", "statement": "The curve never decreases, ends at one and is the fraction of the flux inside the radius.", "quantifier": "all profiles and steps", "why_tests_cant": "all profiles", "anchors": ["p3/aoSystem/FourierUtils.py:radial_profile"]}
{"id": "C226", "title": "Radii, profile and encircled energy have the same length", "statement": "The three arrays returned have one entry per ring, also with a maximal radius.", "quantifier": "all images and maximal radii", "why_tests_cant": "all images and radii", "anchors": ["p3/aoSystem/FourierUtils.py:radial_profile"]}
{"id": "C227", "title": "The standard deviation of a ring is that of its pixels", "statement": "With the option stddev each value is the standard deviation of the pixels within half a bin of the radius.", "quantifier": "all images, pixel scales and bins", "why_tests_cant": "all images and bins", "anchors": ["p3/aoSystem/FourierUtils.py:radial_profile"]}
{"id": "C228", "title": "A profile over a range of position angles uses the pixels of the range only", "statement": "The mean profile does not depend on the image outside the range, and the range from -180 to 180 degrees is the whole image.", "quantifier": "all images and ranges", "why_tests_cant": "all images and ranges", "anchors": ["p3/aoSystem/FourierUtils.py:radial_profile"]}
{"id": "C229", "title": "An OTF computed from a power spectrum is a transfer function", "statement": "For a non-negative PSD the OTF is real, one at the origin, in (0, 1] elsewhere and at least exp(-2 variance); for even sizes it equals exp(-D/2) of the structure function D of the PSD, for odd ones that of the PSD moved by one pixel.", "quantifier": "all non-negative PSDs of all sizes and pixel scales", "why_tests_cant": "all arrays", "anchors": ["p3/aoSystem/FourierUtils.py:psd2otf", "p3/aoSystem/FourierUtils.py:psd2cov", "p3/aoSystem/FourierUtils.py:cov2sf", "p3/aoSystem/FourierUtils.py:sf2otf"]}
{"id": "C230", "title": "A PSF computed on an odd grid from a power spectrum is non-negative with its peak at the centre", "statement": "For a non-negative PSD of odd size the PSF has unit sum, no negative pixel, its largest pixel at the centre, at least exp(-variance) there, and a halo at least exp(-variance) times the PSD with the frequencies as the code takes them.", "quantifier": "all non-negative PSDs of odd sizes", "why_tests_cant": "positive-definiteness of a function of all arrays", "anchors": ["p3/aoSystem/FourierUtils.py:psd2psf", "p3/aoSystem/FourierUtils.py:otf2psf"]}
{"id": "C231", "title": "A PSF without aberration has no negative pixel", "statement": "With a zero PSD the PSF returned has unit sum and no negative pixel.", "quantifier": "all array sizes", "why_tests_cant": "all sizes", "anchors": ["p3/aoSystem/FourierUtils.py:psd2psf", "p3/aoSystem/FourierUtils.py:otf2psf"]}
{"id": "C232", "title": "A piston does not degrade the OTF of even size", "statement": "A PSD limited to its central pixel gives the OTF one for even sizes.", "quantifier": "all even sizes, pixel scales and values", "why_tests_cant": "all sizes", "anchors": ["p3/aoSystem/FourierUtils.py:psd2otf", "p3/aoSystem/FourierUtils.py:psd2cov"]}
{"id": "C233", "title": "The structure functions of the reconstruction are those of the PSD", "statement": "They vanish at the central pixel, are non-negative, at most four times the variance, and equal twice the sum of the PSD weighted by 1 - cos of the phase between the two points.", "quantifier": "all non-negative PSDs and even sizes", "why_tests_cant": "all arrays", "anchors": ["p3/psfr/psfR.py:fitting_phase_structure_function", "p3/psfr/psfR.py:aliasing_phase_structure_function"]}
{"id": "C234", "title": "Fitting and aliasing structure functions are those of their PSD and scale as r0^(-5/3)", "statement": "Their value at a pixel is that of the structure function of the fitting (resp. aliasing) PSD taken on frequency steps 1/(D samp), they are proportional to r0^(-5/3) and the aliasing one does not depend on the Fried parameter stored in the system.", "quantifier": "all PSDs, Fried parameters and pixels", "why_tests_cant": "all values", "anchors": ["p3/psfr/psfR.py:fitting_phase_structure_function", "p3/psfr/psfR.py:aliasing_phase_structure_function"]}
{"id": "C235", "title": "telescopePsf has the requested pixel scale from two pixels per lambda/D on", "statement": "For a sampling of at least two pixels per lambda/D and an exact padding the PSF has the size of the pupil and the pixels asked for.", "quantifier": "all sizes and such samplings", "why_tests_cant": "all samplings", "anchors": ["p3/aoSystem/FourierUtils.py:telescopePsf", "p3/aoSystem/FourierUtils.py:telescopeOtf"]}
{"id": "C236", "title": "otfShannon2psf has the requested pixel scale and field", "statement": "From an OTF sampled at Shannon the PSF has fovInPixel pixels of lambda/(2 nqSmpl D).", "quantifier": "all sampling factors and fields", "why_tests_cant": "all samplings", "anchors": ["p3/aoSystem/FourierUtils.py:otfShannon2psf"]}
{"id": "C237", "title": "Couples of points at a separation are all found", "statement": "For points of a grid under a mask, the couples used for a separation are exactly the ordered couples of valid points that differ by it, each once, and no index leaves the work array.", "quantifier": "all masks, pitches, origins and separations of the output grid", "why_tests_cant": "all masks", "anchors": ["p3/psfr/psfrUtils.py:mkotf_indpts", "p3/psfr/psfrUtils.py:pointWiseLocation"]}
{"id": "C238", "title": "The zonal OTF is the average of exp(-D/2) over the couples at a separation", "statement": "Before interpolation the OTF at a separation is the sum of exp(-D/2) over the couples of valid points at this separation over the number of valid points.", "quantifier": "all covariance matrices, masks and separations", "why_tests_cant": "all matrices", "anchors": ["p3/psfr/psfrUtils.py:mkotf", "p3/psfr/psfrUtils.py:zonalCovarianceToOtf"]}
{"id": "C239", "title": "The zonal OTF is one at the origin, between 0 and 1, and even", "statement": "For a covariance matrix the zonal OTF is 1 at zero, in [0, 1] and even, and vanishes only at separations that no two valid points have.", "quantifier": "all positive semi-definite covariances, masks, separations", "why_tests_cant": "all matrices", "anchors": ["p3/psfr/psfrUtils.py:mkotf", "p3/psfr/psfrUtils.py:zonalCovarianceToOtf"]}
{"id": "C240", "title": "Without a mask, the zonal OTF is that of all points of the grid", "statement": "zonalCovarianceToOtf without idxValid uses the covariance of every couple of points of the grid.", "quantifier": "all covariance matrices and grids", "why_tests_cant": "all matrices", "anchors": ["p3/psfr/psfrUtils.py:zonalCovarianceToOtf", "p3/psfr/psfrUtils.py:pointWiseLocation"]}
{"id": "C241", "title": "The table of reconstructions has one value per column", "statement": "A row has as many values as there are column names, names are distinct, and each of 54 columns holds the quantity it names in the unit it names.", "quantifier": "all reconstructions with a seven-layer profile", "why_tests_cant": "all values", "anchors": ["p3/psfr/psfrRun.py:unpack_results", "p3/psfr/psfrRun.py:define_database_colnames"]}
{"id": "C242", "title": "Units of the table: latencies in milliseconds, noise in radians", "statement": "HO LAT and TT LAT hold latencies in ms, HO NOISE a standard deviation in rad.", "quantifier": "all loops", "why_tests_cant": "all values", "anchors": ["p3/psfr/psfrRun.py:unpack_results"]}
{"id": "C243", "title": "The tip-tilt columns of the table describe the tip-tilt loop", "statement": "TT NPH and TT WFE hold the photons and the error of the tip-tilt loop.", "quantifier": "all loops", "why_tests_cant": "all values", "anchors": ["p3/psfr/psfrRun.py:unpack_results"]}
{"id": "C244", "title": "The anisoplanatism columns of the table hold the terms they name", "statement": "WFE FOCAL ANISO holds focal anisoplanatism and WFE TT ANISO anisokinetism.", "quantifier": "all error breakdowns", "why_tests_cant": "all values", "anchors": ["p3/psfr/psfrRun.py:unpack_results"]}
{"id": "C245", "title": "The Strehl ratio of the image in the table is a fraction", "statement": "CAM SR is the Strehl ratio of the image between 0 and 1, with and without a fit.", "quantifier": "all images", "why_tests_cant": "all values", "anchors": ["p3/psfr/psfrRun.py:unpack_results", "p3/psfr/psfrRun.py:run_keck_psfr", "p3/psfFitting/psfFitting.py:evaluateFittingQuality"]}
{"id": "C246", "title": "Reading results twice gives the same row", "statement": "unpack_results called again gives the same row; it leaves the atmosphere at 500 nm with the Fried parameter scaled to it.", "quantifier": "all reconstructions and wavelengths of the atmosphere", "why_tests_cant": "all states", "anchors": ["p3/psfr/psfrRun.py:unpack_results", "p3/aoSystem/atmosphere.py:set_wvl"]}
{"id": "C247", "title": "Telemetry and images are matched by identifier", "statement": "One run per identifier present in both lists, in increasing order, on the first file of each list with this identifier.", "quantifier": "all lists of files", "why_tests_cant": "all lists", "anchors": ["p3/psfr/psfrRun.py:psfr_on_database"]}
{"id": "C248", "title": "Merging tables is repeatable", "statement": "merge_dataframe returns all rows of the tables that are not merged ones, sorted by date; saving and merging again gives the same rows.", "quantifier": "all folders and sequences of merges", "why_tests_cant": "all histories", "anchors": ["p3/psfr/psfrRun.py:merge_dataframe"]}
{"id": "C249", "title": "The table on simulations holds the estimates and, with true_r0, the truth", "statement": "R0, L0, V0 are the estimates, and with true_r0 TRUE R0 and TRUE L0 are the values of the simulation.", "quantifier": "all simulations", "why_tests_cant": "all values", "anchors": ["p3/psfr/psfrRun.py:psfr_kasp_simulations"]}
{"id": "C250", "title": "The reconstruction uses the estimated Fried parameter", "statement": "The Fried parameter read from the parameter file written after the diagnosis is the one estimated on the line of sight.", "quantifier": "all estimates and airmasses", "why_tests_cant": "all values", "anchors": ["p3/telemetry/systemDiagnosis.py:systemDiagnosis", "p3/telemetry/configFile.py:configFile", "p3/aoSystem/aoSystem.py:aoSystem", "p3/psfr/psfrRun.py:psfr_kasp_simulations"]}
{"id": "C251", "title": "The diagnosis scales the wind profile to the estimated wind", "statement": "The turbulence-weighted wind of the updated profile is the estimated wind, and the relative uncertainty of the coherence time combines those of r0 and of the wind.", "quantifier": "all profiles and estimates", "why_tests_cant": "all values", "anchors": ["p3/telemetry/systemDiagnosis.py:systemDiagnosis", "p3/telemetry/systemDiagnosis.py:get_atmosphere_statistics"]}
{"id": "C252", "title": "plot_metrics needs a number of bins only for histograms", "statement": "Negative numbers of bins are refused, and None is accepted for a scatter plot.", "quantifier": "all arguments", "why_tests_cant": "all values", "anchors": ["p3/psfr/psfrRun.py:plot_metrics"]}
{"id": "C253", "title": "Bounds of PSFAO21 can be updated and are symmetric in position", "statement": "The bounds can be updated after a first fit at any number of wavelengths and the bounds of the positions are symmetric.", "quantifier": "all numbers of wavelengths and pixels", "why_tests_cant": "all sizes", "anchors": ["p3/psfao21/psfao21.py:define_bounds", "p3/psfao21/psfao21.py:update_bounds"]}
{"id": "C254", "title": "The map of a covariance matrix is right for every stationary process", "statement": "The map has at each pixel the covariance for its separation, also for covariances that are not even along each axis.", "quantifier": "all stationary covariances", "why_tests_cant": "all matrices", "anchors": ["p3/aoSystem/FourierUtils.py:matrix_to_map", "p3/aoSystem/anisoplanatismModel.py:vector_to_separation"]}
{"id": "C255", "title": "Read-out noise is the scatter of the pixels in time", "statement": "The read-out noise estimated from the maps is the scatter of each pixel over the exposures, for any number of actuators.", "quantifier": "all maps and reconstructors", "why_tests_cant": "all maps", "anchors": ["p3/telemetry/systemDiagnosis.py:get_number_photons"]}
{"id": "C256", "title": "One diameter is enough to select actuators, around the centre of the pupil", "statement": "An inner or an outer diameter alone selects the actuators outside or inside it, and distances are from the centre of the pupil.", "quantifier": "all diameters and influence functions", "why_tests_cant": "all influence functions", "anchors": ["p3/telemetry/systemDiagnosis.py:select_actuators"]}
{"id": "C257", "title": "The tip-tilt covariance is a two by two matrix", "statement": "With and without laser the covariance of tip and tilt has two rows and two columns.", "quantifier": "all telemetry", "why_tests_cant": "all telemetry", "anchors": ["p3/telemetry/systemDiagnosis.py:reconstruct_zernike"]}
{"id": "C258", "title": "The distribution of test files can be resumed and never replaces a file", "statement": "An interrupted distribution can be run again, and files already in the sub-folders are kept.", "quantifier": "all file systems and crash points", "why_tests_cant": "all crash points and samples", "anchors": ["p3/deepLoop/dataGenerator.py:split_test_data"]}
{"id": "C259", "title": "Random parameters lie within the bounds asked for", "statement": "No value drawn exceeds the bounds given by the user.", "quantifier": "all bounds and roundings", "why_tests_cant": "all random draws", "anchors": ["p3/deepLoop/dataGenerator.py:generate_parameters_values"]}
{"id": "C260", "title": "Any number of test data can be taken", "statement": "The number of test data taken is the one asked for.", "quantifier": "all numbers of test data and sub-folders", "why_tests_cant": "all numbers", "anchors": ["p3/deepLoop/dataGenerator.py:generate_psf"]}
{"id": "C261", "title": "The intervals of a data base are read back also after an interrupted run", "statement": "Folders left by an interrupted selection of test data do not prevent the reading.", "quantifier": "all data bases", "why_tests_cant": "all orders of a directory", "anchors": ["p3/deepLoop/recover_list.py:recover_main_parameters_values_from_subfolders"]}
{"id": "C262", "title": "The last row of a result file is read", "statement": "The last line of the file is part of the statistics.", "quantifier": "all files", "why_tests_cant": "all files", "anchors": ["p3/deepLoop/deepLoopPerformance.py:read_txt_files"]}
{"id": "C263", "title": "Setting data sets aside creates the folder of the outliers", "statement": "When the destination does not exist it is created, and each data set is in it under its name.", "quantifier": "all sets of folders", "why_tests_cant": "all states of the disk", "anchors": ["p3/telemetry/sphereUtils.py:remove_corrupted_data"]}
{"id": "C264", "title": "Frames of any size can be stacked, with the neutral density of their header", "statement": "Odd sizes and peaks near the edge are handled, a window never repeats a pixel, and the transmission of the neutral density is that of the header.", "quantifier": "all cubes, sizes, positions and headers", "why_tests_cant": "all images and sizes", "anchors": ["p3/telemetry/sphereUtils.py:process_clean_data"]}
{"id": "C265", "title": "The starting r0 of the SPHERE fit follows the turbulence theory", "statement": "It grows as the power 6/5 of the wavelength and is finite when no Strehl ratio is known.", "quantifier": "all wavelengths and Strehl ratios", "why_tests_cant": "all real inputs", "anchors": ["p3/telemetry/sphereUtils.py:define_initial_guess", "p3/telemetry/sphereUtils.py:define_fixed_parameters"]}
{"id": "C266", "title": "The width along y and the number of modes of the SPHERE table are right", "statement": "FWHMY FIT holds the width along y, and the number of modes is that of the file of modes.", "quantifier": "all results and files of modes", "why_tests_cant": "all numbers of modes", "anchors": ["p3/telemetry/sphereUtils.py:define_database_colnames", "p3/telemetry/sphereUtils.py:update_data_struct", "p3/telemetry/sphereUtils.py:get_number_modes"]}
{"id": "C267", "title": "The coefficients returned without tip and tilt describe the phase that remains", "statement": "The coefficients, on the modes given, of the filtered phase give back the filtered phase.", "quantifier": "all modal bases", "why_tests_cant": "all phases", "anchors": ["p3/telemetry/sphereUtils.py:compute_tiptilt_filtering_matrix", "p3/telemetry/sphereUtils.py:remove_tiptilt_from_phase"]}
{"id": "C268", "title": "The low-wind-effect error of rows that were not fitted is -1", "statement": "Rows without fitted coefficients, and rows of zeros, give a value that marks them.", "quantifier": "all rows", "why_tests_cant": "all rows", "anchors": ["p3/telemetry/sphereUtils.py:compute_lwe_wavefront_error"]}
{"id": "C269", "title": "Missing telemetry of the sensor is handled", "statement": "A night without a file, or whose table has no flux, gives a replacement value.", "quantifier": "all nights", "why_tests_cant": "all tables", "anchors": ["p3/telemetry/sphereUtils.py:read_sparta_data"]}
{"id": "C270", "title": "The outermost ring is part of a radial profile", "statement": "The profile has one value for every ring with pixels, also when there is one ring.", "quantifier": "all images", "why_tests_cant": "all images and centres", "anchors": ["p3/aoSystem/FourierUtils.py:radial_profile"]}
{"id": "C271", "title": "The radius returned with a profile is that of the pixels for bins smaller than a pixel", "statement": "Small bins do not shift the radii.", "quantifier": "all bins", "why_tests_cant": "all images and bins", "anchors": ["p3/aoSystem/FourierUtils.py:radial_profile"]}
{"id": "C272", "title": "The standard deviation over a range of position angles uses the pixels of the range only", "statement": "The option stddev with a range does not depend on the image outside the range.", "quantifier": "all images and ranges", "why_tests_cant": "all images and ranges", "anchors": ["p3/aoSystem/FourierUtils.py:radial_profile"]}
{"id": "C273", "title": "Reading results does not change the reconstruction", "statement": "unpack_results leaves the system as it was.", "quantifier": "all wavelengths of the atmosphere", "why_tests_cant": "all states", "anchors": ["p3/psfr/psfrRun.py:unpack_results", "p3/aoSystem/atmosphere.py:set_wvl"]}
{"id": "C274", "title": "The table on simulations compares the estimates with the truth in the same units", "statement": "TRUE R0 is the value of the simulation also without true_r0, and TAU0 and TRUE TAU0 have the same unit.", "quantifier": "all simulations", "why_tests_cant": "all values", "anchors": ["p3/psfr/psfrRun.py:psfr_kasp_simulations"]}
{"id": "C275", "title": "Processing the low-order section again changes nothing, with PSD expansion", "statement": "With PSD expansion and several wavelengths configuring the low-order/science detector again leaves the field of view as it was.", "quantifier": "all parameter files", "why_tests_cant": "the defect only shows for some wavelength ratios and after a history of calls", "anchors": ["p3/aoSystem/aoSystem.py:configLO_SC", "p3/aoSystem/aoSystem.py:configLO"]}
{"id": "C276", "title": "NGS positions are appended after star positions given as an array", "statement": "When the science positions are given with coo_stars, the evaluated directions are these followed by the NGS directions.", "quantifier": "all numbers of stars and NGS", "why_tests_cant": "the index arithmetic has to be right for every pair of sizes", "anchors": ["p3/aoSystem/aoSystem.py:configLO", "p3/aoSystem/fourierModel.py:powerSpectrumDensity"]}
{"id": "C277", "title": "One zenith can be shared by several azimuths at several wavelengths", "statement": "A source object built from one zenith, several azimuths and several wavelengths has one direction per azimuth.", "quantifier": "all such lists", "why_tests_cant": "every combination of list lengths matters", "anchors": ["p3/aoSystem/source.py:source.__init__"]}
{"id": "C278", "title": "An extracted layer is at the current wavelength", "statement": "After a change of wavelength an extracted layer has the strength of the layer at the new wavelength.", "quantifier": "all profiles and wavelength histories", "why_tests_cant": "profiles and histories are unbounded", "anchors": ["p3/aoSystem/atmosphere.py:atmosphere.__init__", "p3/aoSystem/atmosphere.py:atmosphere.slab"]}
{"id": "C279", "title": "Actuator index conversion is a bijection on rectangular arrays", "statement": "The conversion back gives the same (row, column) for every shape, and out-of-range pairs give -1.", "quantifier": "all shapes and index pairs", "why_tests_cant": "holds for square arrays, so tests on square grids pass", "anchors": ["p3/aoSystem/deformableMirror.py:sub2ind", "p3/aoSystem/deformableMirror.py:ind2sub"]}
{"id": "C280", "title": "The AO-corrected PSD is centred on odd grids, and grids that are too small are found out in advance", "statement": "For an odd grid and an even corrected area the zero frequencies coincide, and the check of the field of view refuses the grids smaller than the corrected area.", "quantifier": "all grid and corrected-area sizes, wavelengths", "why_tests_cant": "parities of both sizes interact", "anchors": ["p3/aoSystem/fourierModel.py:powerSpectrumDensity", "p3/aoSystem/fourierModel.py:initComputations"]}
{"id": "C281", "title": "Ensquared energy grows with the box up to the whole image", "statement": "The last value of the curve is one and the curve is non-decreasing.", "quantifier": "all images and peak positions", "why_tests_cant": "fails only for off-centre peaks or odd sizes", "anchors": ["p3/aoSystem/FourierUtils.py:getEnsquaredEnergy"]}
{"id": "C282", "title": "Focal anisoplanatism grows up to the laser and the two functions reporting it agree", "statement": "The error grows with altitude up to the laser height, and the two functions reporting it give the same value.", "quantifier": "all altitudes and laser heights", "why_tests_cant": "all reals", "anchors": ["p3/aoSystem/anisoplanatismModel.py:focal_anisoplanatism_variance"]}
{"id": "C283", "title": "Local time converts to UT on the last evening of a month", "statement": "Converting Hawaii local time to UT gives a valid calendar date.", "quantifier": "all dates and times", "why_tests_cant": "month and year ends", "anchors": ["p3/telemetry/massdimm.py"]}
{"id": "C284", "title": "Delayed commands of several actuators or whole delays are interpolated with unit weight", "statement": "For whole delays and several actuators the delayed command is an affine combination of two successive commands of the same actuator.", "quantifier": "all delays and numbers of actuators", "why_tests_cant": "fails exactly at integer delays", "anchors": ["p3/telemetry/systemDiagnosis.py"]}
{"id": "C285", "title": "Rectangular images can be resampled with the default kind", "statement": "Resampling a rectangular image with the default kind succeeds.", "quantifier": "all rectangular images", "why_tests_cant": "square test images hide the swapped axes", "anchors": ["p3/aoSystem/FourierUtils.py:interpolateSupport"]}
{"id": "C286", "title": "The width of any profile is defined", "statement": "The width of a profile that is above half maximum at an end, or has a flat top, is the distance between the crossings.", "quantifier": "all profiles", "why_tests_cant": "failures appear for peaks near the edge and for flat tops", "anchors": ["p3/aoSystem/FourierUtils.py:fwhm_1d"]}
{"id": "C287", "title": "Sources appear where they were put at every wavelength", "statement": "At several wavelengths a source requested at an offset appears at that offset at every wavelength.", "quantifier": "all offsets, binning factors and wavelength sets", "why_tests_cant": "the factor is wrong for one value of the binning only", "anchors": ["p3/aoSystem/FourierUtils.py:sf_3D_to_psf_3D", "p3/aoSystem/FourierUtils.py:sf_3D_to_psf_4D"]}
{"id": "C288", "title": "The PSF returned by a fit at several wavelengths has unit flux and neither offset nor background", "statement": "The same with several wavelengths.", "quantifier": "all numbers of wavelengths", "why_tests_cant": "the indices of the fluxes depend on all the sizes", "anchors": ["p3/psfFitting/psfFitting.py:psfFitting"]}
{"id": "C289", "title": "Bounds narrowed after a first fit can be used for a second fit", "statement": "There is one pair of bounds per parameter, with room between them.", "quantifier": "all numbers of layers, stars, wavelengths, frames and fixed parameters", "why_tests_cant": "the precision may be anything, including the code for no precision", "anchors": ["p3/psfao21/psfao21.py:psfao21.update_bounds"]}
{"id": "C290", "title": "Changing the reflectivity of a segment keeps a phase applied before", "statement": "Reflectivity and phase can be changed in any order.", "quantifier": "all pupils, segments, phases and reflectivities", "why_tests_cant": "it depends on the history of operations", "anchors": ["p3/aoSystem/pupil.py:pupil.applyReflexivitySegment", "p3/aoSystem/pupil.py:pupil.applyPhaseErrorSegment"]}
{"id": "C291", "title": "Filling gaps only lights pixels between segments", "statement": "Filling the gaps lights nothing but pixels between segments, and circular segments can be made.", "quantifier": "all segment shapes and layouts", "why_tests_cant": "it depends on the layout", "anchors": ["p3/aoSystem/pupil.py:pupil.fillGap", "p3/aoSystem/segment.py:segment.makeSegment"]}
{"id": "C292", "title": "Selected stars can be extracted with odd windows", "statement": "A window of the requested odd size is extracted for every selected star.", "quantifier": "all star positions, tile layouts and odd window sizes", "why_tests_cant": "rounding matters only for positions close to a border", "anchors": ["p3/psfFitting/fittingUtils.py:extract_multiple_psf"]}
{"id": "C293", "title": "PSFs are interpolated at the centres of odd tiles", "statement": "For odd tile sizes the points of interpolation are the centres of the tiles.", "quantifier": "all numbers of tiles and tile sizes", "why_tests_cant": "rounding depends on parities and remainders", "anchors": ["p3/psfFitting/fittingUtils.py:generate_psfs_grid_from_image"]}
{"id": "C294", "title": "The field value of a parameter lies within its estimates also when some have no error", "statement": "Estimates without error, marked -1 or zero, do not spoil the field value.", "quantifier": "all estimates and errors", "why_tests_cant": "special codes and fixed parameters give special errors", "anchors": ["p3/psfFitting/fittingUtils.py:create_spatial_variations_psf_model", "p3/psfFitting/fittingUtils.py:compute_psfs_grid"]}
{"id": "C295", "title": "One variance for all sensors describes independent noises", "statement": "With a single variance the noise covariance of several sensors is diagonal.", "quantifier": "all numbers of sensors", "why_tests_cant": "numpy broadcasts silently", "anchors": ["p3/aoSystem/fourierModel.py:fourierModel.tomographicReconstructor"]}
{"id": "C296", "title": "Cropping inverts enlarging when the padding is odd", "statement": "Cropping an image enlarged by a whole factor gives back the image for every size.", "quantifier": "all images and factors", "why_tests_cant": "parity of the padding", "anchors": ["p3/aoSystem/FourierUtils.py:cropSupport", "p3/aoSystem/FourierUtils.py:enlargeSupport"]}
{"id": "C297", "title": "The noise gain of every loop is non-negative", "statement": "The noise gain is non-negative whatever the loop rate.", "quantifier": "all loop rates", "why_tests_cant": "only slow loops fail", "anchors": ["p3/aoSystem/fourierModel.py:fourierModel.controller"]}
{"id": "C298", "title": "The wavelengths of a filter curve with repeated duplicates become strictly increasing", "statement": "Three equal wavelengths become increasing.", "quantifier": "all curves", "why_tests_cant": "needs three equal wavelengths", "anchors": ["p3/telemetry/keckUtils.py"]}
{"id": "C299", "title": "The points of the zonal covariance match the grid of separations for any aperture", "statement": "The same for apertures that are not a whole number of pitches.", "quantifier": "all pitches and apertures", "why_tests_cant": "fails when the pitch does not divide the aperture", "anchors": ["p3/psfr/psfrUtils.py:pointWiseLocation", "p3/psfr/psfrUtils.py:zonalCovarianceToOtf"]}
{"id": "C300", "title": "The computation can be repeated with several sensors", "statement": "A second run succeeds when the first one did.", "quantifier": "all numbers of sensors and fields of view", "why_tests_cant": "histories of calls", "anchors": ["p3/aoSystem/fourierModel.py:initComputations", "p3/aoSystem/frequencyDomain.py"]}
{"id": "C301", "title": "Contour points around a single bright pixel are at the level", "statement": "Where the only pixel above the level is the peak, contour points are at the level.", "quantifier": "all images", "why_tests_cant": "all images", "anchors": ["p3/aoSystem/FourierUtils.py:find_contour_points"]}
{"id": "C302", "title": "The filter of outliers keeps a round contour", "statement": "A contour with all points at one distance of the peak is kept.", "quantifier": "all round contours", "why_tests_cant": "all sets of points", "anchors": ["p3/aoSystem/FourierUtils.py:find_contour_points"]}
{"id": "C303", "title": "The width of an image by fitting does not depend on the resampling, and round contours are measured", "statement": "The Gaussian and Moffat methods give the same widths after resampling, and the contour method measures a round contour.", "quantifier": "all images and resampling factors", "why_tests_cant": "all images and factors", "anchors": ["p3/aoSystem/FourierUtils.py:getFWHM"]}
{"id": "C304", "title": "The images of the data base of r0 depend on r0", "statement": "With r0 as main parameter, the default, the images depend on r0.", "quantifier": "all parameters", "why_tests_cant": "all parameters", "anchors": ["p3/deepLoop/dataGenerator.py:generate_psf"]}
{"id": "C305", "title": "A verified data base has all its values below the upper edge of their interval", "statement": "Also those of the last column.", "quantifier": "all data bases", "why_tests_cant": "all values", "anchors": ["p3/deepLoop/dataBaseVerification.py:verifyDataBase"]}
{"id": "C306", "title": "Sorting telemetry works in every folder", "statement": "A file named as a date does not stop the sort.", "quantifier": "all folders", "why_tests_cant": "all crash points and listing orders", "anchors": ["p3/telemetry/sphereUtils.py:sort_telemetry_folder"]}
{"id": "C307", "title": "A piston does not degrade the OTF of odd size", "statement": "A PSD limited to its central pixel gives the OTF one for odd sizes.", "quantifier": "all odd sizes", "why_tests_cant": "all sizes", "anchors": ["p3/aoSystem/FourierUtils.py:psd2otf", "p3/aoSystem/FourierUtils.py:psd2cov"]}
{"id": "C308", "title": "telescopePsf has the requested pixel scale below two pixels per lambda/D", "statement": "For coarser samplings the PSF has the pixels asked for.", "quantifier": "all sizes and samplings", "why_tests_cant": "all samplings", "anchors": ["p3/aoSystem/FourierUtils.py:telescopePsf", "p3/aoSystem/FourierUtils.py:telescopeOtf"]}
{"id": "C309", "title": "The focal-angular structure function of an off-axis source is the variance of the differential phase", "statement": "The same for off-axis sources and stars at finite distance.", "quantifier": "all directions", "why_tests_cant": "all pairs of points and geometries", "anchors": ["p3/aoSystem/anisoplanatismModel.py:focal_angular_function", "p3/aoSystem/anisoplanatismModel.py:anisoplanatism_structure_function", "p3/aoSystem/FourierUtils.py:Ialpha"]}
{"id": "C310", "title": "The anisokinetism structure function is the variance of the differential tilt", "statement": "Also for correlated tip and tilt and several sources.", "quantifier": "all covariances and numbers of sources", "why_tests_cant": "all covariances", "anchors": ["p3/aoSystem/anisoplanatismModel.py:anisokinetism_function", "p3/aoSystem/zernike.py:anisokinetism"]}
{"id": "C311", "title": "The ground layer is a number", "statement": "Also when the seeing of the upper layers exceeds the total one.", "quantifier": "all seeings", "why_tests_cant": "the two instruments are noisy, each may exceed the other", "anchors": ["p3/telemetry/massdimm.py:CombineMASSandDIMM"]}
{"id": "C312", "title": "Seeing measurements downloaded once serve every later load", "statement": "After a load that downloaded the three files of a night, this load and every later one of the night use the measurements, whatever the network; later loads change no file and measurements are used only when the three files exist.", "quantifier": "all sequences of loads of a night, all states of the network", "why_tests_cant": "all histories", "anchors": ["p3/telemetry/massdimm.py:fetch_data", "p3/telemetry/telemetryKeck.py:telemetryKeck"]}
{"id": "C313", "title": "A download of seeing measurements that failed or was interrupted is tried again", "statement": "When files could not be downloaded, or the process was killed, a later load of the night downloads them.", "quantifier": "all failures and crash points of the first load, all later loads", "why_tests_cant": "all crash points", "anchors": ["p3/telemetry/massdimm.py:fetch_data", "p3/telemetry/telemetryKeck.py:telemetryKeck"]}
{"id": "C314", "title": "The weights of the turbulence profile sum to one", "statement": "Seven non-negative weights that sum to one, proportional to the measured layers above the ground and with the DIMM seeing in total; the median profile when none was measured.", "quantifier": "all seeings and measured profiles", "why_tests_cant": "all values", "anchors": ["p3/telemetry/telemetryKeck.py:telemetryKeck", "p3/telemetry/massdimm.py:CombineMASSandDIMM"]}
{"id": "C315", "title": "Missing layers of a measured profile are not used", "statement": "A profile with layers flagged as missing is replaced by the median one.", "quantifier": "all profiles", "why_tests_cant": "all values", "anchors": ["p3/telemetry/telemetryKeck.py:telemetryKeck"]}
{"id": "C316", "title": "append_mass_dimm gives each image the measurements of its own night", "statement": "One row of eleven values per image: the measurements closest in time in the files of its UT date and their distances in time, whatever the other rows; it fails without output if a file is missing.", "quantifier": "all tables of images and archives", "why_tests_cant": "all tables", "anchors": ["p3/telemetry/massdimm.py:append_mass_dimm"]}
{"id": "C317", "title": "get_mass_dimm_for_image looks up the right UT night", "statement": "The UT date and time are ten hours after the local ones, headers of the second kind being dated from noon to noon; the twelve-hour clock is read right.", "quantifier": "all dates and times", "why_tests_cant": "all dates", "anchors": ["p3/telemetry/massdimm.py:get_mass_dimm_for_image"]}
{"id": "C318", "title": "The transmission curve of a filter is found by its name", "statement": "The curve of a known filter is found whatever the case and underscores of the name, no other one is; the name is the one of the wheel that does not hold a PK element; the curve holds the rows above one percent in metres and fractions.", "quantifier": "all names and curves", "why_tests_cant": "all names", "anchors": ["p3/telemetry/keckUtils.py:getFilterName", "p3/telemetry/keckUtils.py:getFilterProfile"]}
{"id": "C319", "title": "samplingFilterProfile samples the band of the filter", "statement": "For a filter wider than bwMin and nWvl at least 2: nWvl wavelengths evenly spaced from the shortest to the longest one above the threshold, their bandwidth, and the transmissions of the least-squares line (exact for a linear curve); otherwise the central wavelength with no bandwidth.", "quantifier": "all curves, thresholds below 1 and numbers of wavelengths", "why_tests_cant": "all curves", "anchors": ["p3/telemetry/keckUtils.py:samplingFilterProfile"]}
{"id": "C320", "title": "samplingFilterProfile returns one dispersion per wavelength", "statement": "As many dispersions and transmissions as wavelengths.", "quantifier": "all curves and numbers of wavelengths", "why_tests_cant": "all numbers", "anchors": ["p3/telemetry/keckUtils.py:samplingFilterProfile"]}
{"id": "C321", "title": "The airmass follows from the elevation", "statement": "Zenith angle and elevation sum to 90 degrees; the airmass is 1 at the zenith, above 1 elsewhere, and decreases with elevation.", "quantifier": "all elevations above the horizon", "why_tests_cant": "all values", "anchors": ["p3/telemetry/keckUtils.py:getTelescopeAirmass"]}
{"id": "C322", "title": "A test of six parameters simulates and fits the PSFs of those parameters", "statement": "In deepLoopPerformance, a test with the six PSD parameters builds the PSFs of these with zero orientation, no jitter, unit flux, centred, without background or static modes; a fit of it always runs and the six fitted parameters are the ones kept.", "quantifier": "all values of the six parameters, all solvers", "why_tests_cant": "all parameters", "anchors": ["p3/deepLoop/deepLoopPerformance.py:get_psf_metrics"]}
{"id": "C323", "title": "The static coefficients of a test are those of its PSFs", "statement": "With static modes, the PSFs of a test have its static coefficients and a fit of it gives one per mode.", "quantifier": "all numbers of modes and coefficients", "why_tests_cant": "all numbers", "anchors": ["p3/deepLoop/deepLoopPerformance.py:get_psf_metrics"]}
{"id": "C324", "title": "The accuracy of an estimated PSF is measured consistently", "statement": "The photometric error of an estimate c times the truth plus a background is -2.5 log10 c; the PSF error is non-negative, zero only for the true PSF and independent of the flux unit; the rms difference is at least the mean absolute one.", "quantifier": "all images that are not constant", "why_tests_cant": "all images", "anchors": ["p3/deepLoop/deepLoopPerformance.py:get_psf_metrics"]}
{"id": "C325", "title": "A random start of a fit stays within the range of the test", "statement": "Each parameter of the start is within the extreme values of the test, and is the true value times the random factor when that is within; the other starts are the truth or the median, anything else is refused.", "quantifier": "all tests and random factors", "why_tests_cant": "all values", "anchors": ["p3/deepLoop/deepLoopPerformance.py:get_psf_metrics"]}
{"id": "C326", "title": "The start is scattered by the amplitude asked for", "statement": "init=a draws the start at a relative distance of standard deviation a from the truth.", "quantifier": "all amplitudes", "why_tests_cant": "all values", "anchors": ["p3/deepLoop/deepLoopPerformance.py:get_psf_metrics"]}
{"id": "C327", "title": "The accuracy tables give the bias and scatter of the errors in percent", "statement": "measure_accuracy_metrics reports the mean of the errors and their scatter over all PSFs, in percent as labelled.", "quantifier": "all tests and errors", "why_tests_cant": "all values", "anchors": ["p3/deepLoop/deepLoopPerformance.py:measure_accuracy_metrics"]}
{"id": "C328", "title": "The result folders are analysed in the order of their numbers", "statement": "measure_accuracy_metrics_multiple_folders takes each folder once, in increasing order of the number at the end of its name, and fails if a name has none.", "quantifier": "all lists of folders", "why_tests_cant": "all lists", "anchors": ["p3/deepLoop/deepLoopPerformance.py:measure_accuracy_metrics_multiple_folders"]}
{"id": "C329", "title": "The second stage of the split fit refines the first", "statement": "When the first stage ended within ordered bounds with positive errors on the seven PSD parameters, the second stage runs; each PSD parameter stays within 5/3 of its error of the first value and within the bounds, jitter is zero, and flux, position, background and static modes are within their bounds.", "quantifier": "all results of the first stage, bounds and solvers that respect bounds", "why_tests_cant": "all values", "anchors": ["p3/psfFitting/fittingUtils.py:split_fitting_psfao"]}
{"id": "C330", "title": "The split fit completes whatever was fixed in the first stage", "statement": "Fixing PSD parameters in the first stage does not prevent the second from running.", "quantifier": "all masks", "why_tests_cant": "all masks", "anchors": ["p3/psfFitting/fittingUtils.py:split_fitting_psfao"]}
{"id": "C331", "title": "split_fitting_psfao and joint_fit use the start, mask and weights given", "statement": "The arguments x0, fixed and weights are those of the fit.", "quantifier": "all arguments", "why_tests_cant": "all arguments", "anchors": ["p3/psfFitting/fittingUtils.py:split_fitting_psfao", "p3/psfFitting/fittingUtils.py:joint_fit"]}
{"id": "C332", "title": "fits_2_dict names each column of the table of fits", "statement": "111 distinct names: the descriptors, then the fifty parameters, then their errors; each gives its column, in the order of the rows.", "quantifier": "all tables", "why_tests_cant": "all tables", "anchors": ["p3/psfFitting/fittingUtils.py:fits_2_dict"]}
{"id": "C333", "title": "fit_all_PSFs fits every PSF of the folder once", "statement": "One row per file that passes the selection, each file once, with any number of static modes.", "quantifier": "all folders, draws and numbers of modes", "why_tests_cant": "all random draws", "anchors": ["p3/psfFitting/fittingUtils.py:fit_all_PSFs"]}
{"id": "C334", "title": "read_catalog reads the catalogue of stars", "statement": "With one header line, the labels are the words of the first line and column k holds the k-th value of each line in order.", "quantifier": "all files", "why_tests_cant": "all files", "anchors": ["p3/psfFitting/fittingUtils.py:read_catalog"]}
{"id": "C335", "title": "read_catalog skips the header lines", "statement": "With nSkip header lines, the columns hold the values of the lines after them.", "quantifier": "all files and nSkip", "why_tests_cant": "all files", "anchors": ["p3/psfFitting/fittingUtils.py:read_catalog"]}
{"id": "C336", "title": "Simulated telemetry is free of static offsets", "statement": "Slopes, commands, residual commands and tip-tilt commands read by telemetryKASP have zero mean over the frames, and without LGS the tip-tilt slopes too; adding a constant to the measurements of a sensor or to the commands of an actuator changes no field.", "quantifier": "all simulation files with at least two frames", "why_tests_cant": "all numbers of frames and all values", "anchors": ["p3/telemetry/telemetryKASP.py:populating_fields"]}
{"id": "C337", "title": "Simulated tip-tilt slopes are free of static offsets with a laser guide star", "statement": "With a laser guide star, the tip-tilt slopes read by telemetryKASP have zero mean over the frames.", "quantifier": "all simulation files with a laser guide star", "why_tests_cant": "all values", "anchors": ["p3/telemetry/telemetryKASP.py:populating_fields"]}
{"id": "C338", "title": "Residuals of simulated telemetry are the reconstructed slopes, without tip-tilt for a laser guide star", "statement": "Each frame of residual commands is the reconstructor applied to the centred slopes; with a laser guide star both filters are applied, commands and residuals have no component the mirror filter removes, and slopes the sensor filter removes do not change the residuals.", "quantifier": "all simulation files, filters and reconstructors", "why_tests_cant": "all matrices", "anchors": ["p3/telemetry/telemetryKASP.py:populating_fields"]}
{"id": "C339", "title": "The wavefront error of simulated telemetry is the rms of its residuals in nanometres", "statement": "rec.wfe is non-negative, its square times the number of commands is the sum over the actuators of the mean square residual in nm^2, it is zero only without residuals, and scales with the slopes.", "quantifier": "all simulation files with a positive number of commands", "why_tests_cant": "all values", "anchors": ["p3/telemetry/telemetryKASP.py:populating_fields"]}
{"id": "C340", "title": "Simulated telemetry can be read again and describes atmosphere and loops", "statement": "Reading the fields again from the loaded data, altered in place by the first reading, gives the same telemetry; Cn2 is r0^(-5/3) shared by the weights, seeing times r0 is 0.976 wavelengths in arcseconds, zenith angles are in arcseconds, and both loops are pure integrators of their gain.", "quantifier": "all simulation files, any number of readings", "why_tests_cant": "all histories of readings", "anchors": ["p3/telemetry/telemetryKASP.py:populating_fields"]}
{"id": "C341", "title": "Spiders are straight bars of the requested width", "statement": "A symmetric spider through the centre darkens exactly the pixels closer to its line than half its width; a one-sided one those on the side opposite to its angle, from its starting point; the width differs from the one asked for by less than a relative (w/D)^2/8.", "quantifier": "all widths of at least a pixel up to the aperture, angles, starting points in the map, resolutions and pixels", "why_tests_cant": "all pixels and angles", "anchors": ["p3/aoSystem/spiders.py:makeSpiders"]}
{"id": "C342", "title": "Petals can be used whenever they were asked for", "statement": "After makeSpiders(getPetal=True) the number of petals can be read.", "quantifier": "all spiders", "why_tests_cant": "all widths", "anchors": ["p3/aoSystem/spiders.py:makeSpiders", "p3/aoSystem/pupil.py:applyPhasePetal"]}
{"id": "C343", "title": "A phase applied to petals changes the phase only, petal by petal", "statement": "applyPhasePetal keeps the amplitude of every pixel and adds to the stored phase the given coefficients times the modes of the petals, whatever their order; petals that do not exist are ignored; with the wrong number of coefficients nothing changes.", "quantifier": "all pupils, modes, petals and coefficients", "why_tests_cant": "all maps and lists", "anchors": ["p3/aoSystem/pupil.py:applyPhasePetal"]}
{"id": "C344", "title": "Phases applied to petals one after the other add up", "statement": "Two calls of applyPhasePetal give the sum of their phases.", "quantifier": "all pupils and sequences of calls", "why_tests_cant": "all histories", "anchors": ["p3/aoSystem/pupil.py:applyPhasePetal"]}
{"id": "C345", "title": "Reset restores the pupil as it was built", "statement": "After any sequence of petal phases, reset gives the map, phase and reflexivity of the pupil when it was built.", "quantifier": "all pupils and histories", "why_tests_cant": "all histories", "anchors": ["p3/aoSystem/pupil.py:reset"]}
{"id": "C346", "title": "Building a pupil does not alter the segment it is built from", "statement": "The segment given to (or the default of) pupil is unchanged, so that pupils built one after the other from it are the same.", "quantifier": "all segments and numbers of pupils", "why_tests_cant": "all histories", "anchors": ["p3/aoSystem/pupil.py:pupil", "p3/aoSystem/pupil.py:fillGap"]}
{"id": "C347", "title": "The positivity term penalises models above the image only", "statement": "With alpha_positivity the cost is the weighted sum of squares plus alpha times its part where the model exceeds the image: it grows with alpha, is at most 1+alpha times the plain cost and vanishes for the same models.", "quantifier": "all images, models, non-negative weights and alpha", "why_tests_cant": "all values", "anchors": ["p3/psfFitting/psfFitting.py:psfFitting"]}
{"id": "C348", "title": "Weights of a fit have the shape of the image", "statement": "Weights that are not of the size of the image are refused with a ValueError; others weigh pixel by pixel.", "quantifier": "all shapes of weights", "why_tests_cant": "all shapes", "anchors": ["p3/psfFitting/psfFitting.py:psfFitting"]}
{"id": "C349", "title": "query_sparta_data asks for missing data only", "statement": "A query that ends asks once for each folder without data of the visible sensor (for all with redo), in order, leaves the others alone, and a second one asks for nothing.", "quantifier": "all folders, and scripts that leave a file of the sensor when they succeed", "why_tests_cant": "all folders and histories", "anchors": ["p3/telemetry/sphereUtils.py:query_sparta_data"]}
{"id": "C350", "title": "An interrupted query of SPARTA data is completed by the next", "statement": "After a query stopped by an exception in any folder, the next one completes all folders without asking again for those that were done.", "quantifier": "all points of interruption and contents of folders", "why_tests_cant": "all crash points", "anchors": ["p3/telemetry/sphereUtils.py:query_sparta_data"]}
{"id": "C351", "title": "AO systems can be printed", "statement": "print(aoSystem) describes the system.", "quantifier": "all systems", "why_tests_cant": "all systems", "anchors": ["p3/aoSystem/deformableMirror.py:__repr__", "p3/aoSystem/optics.py:__repr__", "p3/aoSystem/aoSystem.py:__repr__"]}
{"id": "C352", "title": "Printed delays are those of the loops", "statement": "The delays printed in milliseconds are the numbers of frames divided by the rate of the loop.", "quantifier": "all rates and delays", "why_tests_cant": "all values", "anchors": ["p3/aoSystem/rtc.py:__repr__"]}
{"id": "C353", "title": "The temporal error is the turbulence filtered by the rejection of the loop", "statement": "With one guide star and the least-squares reconstructor, the residual of a frequency the sensor measures is, on axis, the sum over the layers of the turbulence times the squared rejection of the loop at the temporal frequency of the layer; turbulence that does not move is corrected up to the machine precision, and off axis leaves the anisoplanatism reported.", "quantifier": "all systems with one guide star, layers, winds, gains and measured frequencies", "why_tests_cant": "all real parameters", "anchors": ["p3/aoSystem/fourierModel.py:spatioTemporalPSD", "p3/aoSystem/fourierModel.py:controller", "p3/aoSystem/fourierModel.py:anisoplanatismPSD"]}
{"id": "C354", "title": "The noise spectrum of a Shack-Hartmann follows one convention", "statement": "The noise spectrum is the noise variance times the gain of the loop divided by the squared response of the sensor; with sub-apertures of the size of the pitch the response is the one used with several guide stars.", "quantifier": "all systems with one guide star and measured frequencies", "why_tests_cant": "all real parameters", "anchors": ["p3/aoSystem/fourierModel.py:noisePSD", "p3/aoSystem/fourierModel.py:reconstructionFilter", "p3/aoSystem/fourierModel.py:tomographicReconstructor"]}
{"id": "C355", "title": "Directions mean the same with one guide star and with several", "statement": "The decorrelation between a source and the guide star is that of their separation in both coordinates, as in tomography.", "quantifier": "all systems, directions and frequencies", "why_tests_cant": "all real parameters", "anchors": ["p3/aoSystem/fourierModel.py:spatioTemporalPSD", "p3/aoSystem/fourierModel.py:anisoplanatismPSD"]}
{"id": "C356", "title": "Differential refraction acts along the azimuth of the source", "statement": "The refraction error of a source at an azimuth in degrees is that of a shift in this direction.", "quantifier": "all systems, azimuths and frequencies", "why_tests_cant": "all real parameters", "anchors": ["p3/aoSystem/fourierModel.py:differentialRefractionPSD"]}
{"id": "C357", "title": "The residual scales with the strength of the turbulence", "statement": "With the least-squares reconstructor each spectrum but noise is multiplied by r^(-5/3) when r0 is multiplied by r; noise is unchanged.", "quantifier": "all systems with one guide star, frequencies and factors", "why_tests_cant": "all real parameters", "anchors": ["p3/aoSystem/fourierModel.py:powerSpectrumDensity", "p3/aoSystem/fourierModel.py:aliasingPSD"]}
{"id": "C358", "title": "Aliasing is the one of a Shack-Hartmann", "statement": "With the least-squares reconstructor the aliasing of a frequency is the sum over its replicas of the turbulence times the weight given by Rigaut, filtered by the loop and the wind; the centre has none; on an axis only the replicas along it alias.", "quantifier": "all systems, frequencies and numbers of replicas", "why_tests_cant": "all real parameters", "anchors": ["p3/aoSystem/fourierModel.py:aliasingPSD"]}
{"id": "C359", "title": "Spectra are the same at opposite frequencies", "statement": "The power spectrum of a real phase is the same at a frequency and its opposite.", "quantifier": "all systems, sources and frequencies", "why_tests_cant": "all real parameters", "anchors": ["p3/aoSystem/fourierModel.py:powerSpectrumDensity", "p3/aoSystem/fourierModel.py:aliasingPSD"]}
{"id": "C360", "title": "The cone effect of one laser is an error of the turbulence above the ground", "statement": "When it is defined it is between zero and four times the turbulence at each frequency, and zero when all the turbulence is on the ground.", "quantifier": "all telescopes, profiles, laser altitudes, grids and frequencies", "why_tests_cant": "all real parameters and lists of frequencies", "anchors": ["p3/aoSystem/fourierModel.py:focalAnisoplanatismPSD"]}
{"id": "C361", "title": "Frequencies the mirror does not correct hold the turbulence once", "statement": "With one laser, a frequency beyond the cut-off of the mirror gets the spectrum of the turbulence and no cone effect.", "quantifier": "all telescopes, profiles, laser altitudes and frequencies", "why_tests_cant": "all real parameters", "anchors": ["p3/aoSystem/fourierModel.py:focalAnisoplanatismPSD", "p3/aoSystem/fourierModel.py:powerSpectrumDensity"]}
{"id": "C362", "title": "The cone effect is defined for every profile", "statement": "The spectrum with one laser is a number for every profile of turbulence.", "quantifier": "all profiles and altitudes of the laser", "why_tests_cant": "all real parameters", "anchors": ["p3/aoSystem/fourierModel.py:focalAnisoplanatismPSD"]}
{"id": "C363", "title": "The cone effect of a constellation never exceeds the turbulence and follows its geometry", "statement": "The residual with the error of the constellation is at most the larger of residual and turbulence; the error is zero towards sources in the field that the lasers cover together, grows with the distance to the axis up to the lasers and decreases outside.", "quantifier": "all constellations, profiles, sources and frequencies", "why_tests_cant": "all real parameters", "anchors": ["p3/aoSystem/fourierModel.py:mcaoWFsensConePSD"]}
{"id": "C364", "title": "Vibrations are reported with their residual power", "statement": "The variance reported for the vibrations is their residual power.", "quantifier": "all grids, masks and powers", "why_tests_cant": "all grids", "anchors": ["p3/aoSystem/fourierModel.py:windShakePSD", "p3/aoSystem/fourierModel.py:errorBreakDown"]}
{"id": "C365", "title": "Reducing the memory does not change the results", "statement": "The spectrum and the breakdown of a model built with reduce_memory are those of the model built without, and one is built exactly when the other is.", "quantifier": "all configurations and all values of the arrays", "why_tests_cant": "all orders of computing and freeing arrays", "anchors": ["p3/aoSystem/fourierModel.py:powerSpectrumDensity", "p3/aoSystem/fourierModel.py:errorBreakDown", "p3/aoSystem/fourierModel.py:spatialReconstructor"]}
{"id": "C366", "title": "Spectrum and breakdown can be computed again", "statement": "Without reduce_memory, after any sequence of calls of powerSpectrumDensity and errorBreakDown nothing was raised and the numbers are those of the first calls.", "quantifier": "all configurations and histories of calls", "why_tests_cant": "all histories", "anchors": ["p3/aoSystem/fourierModel.py:powerSpectrumDensity", "p3/aoSystem/fourierModel.py:errorBreakDown"]}
{"id": "C367", "title": "Spectrum and breakdown can be computed again after the memory was reduced", "statement": "With reduce_memory, after any sequence of calls of powerSpectrumDensity and errorBreakDown nothing was raised and the numbers are those of the first calls.", "quantifier": "all configurations and histories of calls", "why_tests_cant": "all histories", "anchors": ["p3/aoSystem/fourierModel.py:powerSpectrumDensity", "p3/aoSystem/fourierModel.py:errorBreakDown"]}
{"id": "C368", "title": "The Strehl ratio of the image is at least the Marechal one", "statement": "Without static aberrations and jitter, the Strehl ratio of the image is between 100 exp(-s^2) and 100 percent, where s is the rms of the residual phase at the wavelength of the image; so the Marechal Strehl ratio of the breakdown never exceeds it.", "quantifier": "all pupils, spectra, wavelengths and positions of the source", "why_tests_cant": "an inequality between sums over arrays of any size", "anchors": ["p3/aoSystem/FourierUtils.py:sf_3D_to_psf_4D", "p3/aoSystem/fourierModel.py:phaseStructureFunction", "p3/aoSystem/fourierModel.py:errorBreakDown"]}
{"id": "C369", "title": "Each additional error lowers the Strehl ratio, and not too much", "statement": "Adding an error of rms phase s to the spectrum lowers the Strehl ratio, at most by the factor exp(-2 s^2), whatever the static aberrations, jitter, pixel and position; with the same instrument a longer wavelength has a higher Strehl ratio.", "quantifier": "all instruments, spectra and wavelengths", "why_tests_cant": "an inequality between sums over arrays of any size", "anchors": ["p3/aoSystem/FourierUtils.py:sf_3D_to_psf_4D", "p3/aoSystem/fourierModel.py:phaseStructureFunction"]}
{"id": "C370", "title": "Strehl ratios at several wavelengths are relative to the diffraction limit of each", "statement": "A telescope without any error has a Strehl ratio of 100 percent at every wavelength.", "quantifier": "all pupils and samplings", "why_tests_cant": "all sizes and pupils", "anchors": ["p3/aoSystem/FourierUtils.py:sf_3D_to_psf_4D", "p3/aoSystem/FourierUtils.py:getStaticOTF", "p3/aoSystem/frequencyDomain.py"]}
{"id": "C371", "title": "The description of the turbulence profile in layers does not matter", "statement": "With several guide stars, layers at the same height and with the same wind may be given together or in parts, in any order, and layers without strength may be dropped: the commands of the mirrors and the residual and noise spectra of every source are the same.", "quantifier": "all observations, splittings and frequencies", "why_tests_cant": "matrices of any size", "anchors": ["p3/aoSystem/fourierModel.py:tomographicReconstructor", "p3/aoSystem/fourierModel.py:optimalProjector", "p3/aoSystem/fourierModel.py:spatioTemporalPSD", "p3/aoSystem/fourierModel.py:noisePSD"]}
{"id": "C372", "title": "Sensors on the same star share its light without loss", "statement": "With several guide stars, several sensors on the same star are equivalent to one whose inverse noise variance is the sum of theirs: the commands are shared in proportion and the spectra are the same; in particular the order of the guide stars does not matter.", "quantifier": "all observations, splittings and frequencies", "why_tests_cant": "matrices of any size and their generalised inverses", "anchors": ["p3/aoSystem/fourierModel.py:tomographicReconstructor", "p3/aoSystem/fourierModel.py:spatioTemporalPSD", "p3/aoSystem/fourierModel.py:noisePSD"]}
{"id": "C373", "title": "Turning the whole observation turns its spectra", "statement": "With several guide stars, a quarter turn or a mirror image of stars, optimisation directions, winds and target turns the residual and noise spectra.", "quantifier": "all observations and symmetries of the square", "why_tests_cant": "all geometries and frequencies", "anchors": ["p3/aoSystem/fourierModel.py:tomographicReconstructor", "p3/aoSystem/fourierModel.py:optimalProjector", "p3/aoSystem/fourierModel.py:spatioTemporalPSD", "p3/aoSystem/fourierModel.py:noisePSD"]}
{"id": "C374", "title": "Spectra are even", "statement": "With several guide stars the residual and noise spectra, which are those of a real phase, are the same at opposite frequencies.", "quantifier": "all observations and frequencies", "why_tests_cant": "all geometries and frequencies", "anchors": ["p3/aoSystem/fourierModel.py:spatioTemporalPSD", "p3/aoSystem/fourierModel.py:noisePSD"]}
{"id": "C375", "title": "The list of optimisation directions is a weighting of the field", "statement": "Optimisation directions may be given several times, in parts whose weights add up, or in another order, without a change of commands and spectra.", "quantifier": "all observations and frequencies", "why_tests_cant": "matrices of any size and their generalised inverses", "anchors": ["p3/aoSystem/fourierModel.py:optimalProjector"]}
{"id": "C376", "title": "Tomographic errors in nanometres do not depend on the science wavelength", "statement": "With several guide stars and a noise computed by the model, the commands and the residual and noise errors in nanometres are the same whatever the science wavelength of reference.", "quantifier": "all observations and wavelengths", "why_tests_cant": "all real wavelengths", "anchors": ["p3/aoSystem/fourierModel.py:tomographicReconstructor", "p3/aoSystem/fourierModel.py:spatioTemporalPSD", "p3/aoSystem/fourierModel.py:noisePSD", "p3/aoSystem/sensor.py:computeNoiseVarianceAtWavelength"]}
{"id": "C377", "title": "Anisoplanatism is along the direction of the target", "statement": "With one guide star, the anisoplanatism spectrum at a frequency is given by the component along this frequency of the offset between target and star.", "quantifier": "all systems, targets and frequencies", "why_tests_cant": "all real directions and frequencies", "anchors": ["p3/aoSystem/fourierModel.py:anisoplanatismPSD", "p3/aoSystem/fourierModel.py:spatioTemporalPSD"]}
{"id": "C378", "title": "Turning an observation with one guide star turns its spectra", "statement": "A quarter turn or a mirror image of winds and target turns the spectra of noise, servo-lag, anisoplanatism, chromatism, fitting and the spatio-temporal one.", "quantifier": "all systems and symmetries of the square", "why_tests_cant": "all geometries and frequencies", "anchors": ["p3/aoSystem/fourierModel.py:spatioTemporalPSD", "p3/aoSystem/fourierModel.py:servoLagPSD", "p3/aoSystem/fourierModel.py:anisoplanatismPSD"]}
{"id": "C379", "title": "Layers may be given in parts, with one guide star", "statement": "With one guide star, layers at the same height and with the same wind may be given together or in parts, in any order, and layers without strength may be dropped: no contribution to the spectrum changes.", "quantifier": "all systems and splittings", "why_tests_cant": "sums over any number of layers", "anchors": ["p3/aoSystem/fourierModel.py:controller", "p3/aoSystem/fourierModel.py:aliasingPSD", "p3/aoSystem/fourierModel.py:spatioTemporalPSD", "p3/aoSystem/fourierModel.py:differentialRefractionPSD"]}
{"id": "C380", "title": "Errors in nanometres do not depend on the science wavelength, with one guide star", "statement": "With one guide star and a noise computed by the model, the noise, aliasing, spatio-temporal and fitting errors in nanometres are the same whatever the science wavelength of reference.", "quantifier": "all systems and wavelengths", "why_tests_cant": "all real wavelengths", "anchors": ["p3/aoSystem/fourierModel.py:spatialReconstructor", "p3/aoSystem/fourierModel.py:noisePSD", "p3/aoSystem/fourierModel.py:aliasingPSD", "p3/aoSystem/fourierModel.py:spatioTemporalPSD", "p3/aoSystem/fourierModel.py:fittingPSD"]}
{"id": "C381", "title": "Only relative directions matter", "statement": "With several guide stars, displacing guide stars, optimisation directions and target together changes neither the residual nor the noise of the target.", "quantifier": "all observations, displacements and frequencies", "why_tests_cant": "all real directions; matrices of any size", "anchors": ["p3/aoSystem/fourierModel.py:tomographicReconstructor", "p3/aoSystem/fourierModel.py:optimalProjector", "p3/aoSystem/fourierModel.py:spatioTemporalPSD", "p3/aoSystem/fourierModel.py:noisePSD"]}
{"id": "C382", "title": "Turbulence at the height of the mirror is corrected alike in the whole field", "statement": "When all the turbulence is at the height with which the mirrors are conjugated, the residual and noise spectra are the same towards all targets.", "quantifier": "all such observations, targets and frequencies", "why_tests_cant": "all real directions; matrices of any size", "anchors": ["p3/aoSystem/fourierModel.py:spatioTemporalPSD", "p3/aoSystem/fourierModel.py:noisePSD", "p3/aoSystem/fourierModel.py:optimalProjector", "p3/aoSystem/fourierModel.py:initComputations"]}
{"id": "C383", "title": "Heights and angles count through their products", "statement": "With several guide stars, multiplying the heights of layers and mirrors by a factor and dividing all angles by it changes neither commands nor spectra.", "quantifier": "all observations, factors and frequencies", "why_tests_cant": "all real factors; matrices of any size", "anchors": ["p3/aoSystem/fourierModel.py:tomographicReconstructor", "p3/aoSystem/fourierModel.py:optimalProjector", "p3/aoSystem/fourierModel.py:spatioTemporalPSD", "p3/aoSystem/fourierModel.py:noisePSD"]}
{"id": "C384", "title": "Delay and distance of the target add up as displacements of the layers", "statement": "With several guide stars and mirrors on the ground, two delays and targets for which every layer is displaced alike (line of sight minus way of the wind) have the same residual spectrum.", "quantifier": "all observations, delays and targets", "why_tests_cant": "all real delays, winds and directions", "anchors": ["p3/aoSystem/fourierModel.py:spatioTemporalPSD"]}
{"id": "C385", "title": "Only the ratio of wind speed and loop rate matters", "statement": "Multiplying the wind speeds and the loop rate by the same factor changes no contribution to the spectrum, with one or with several guide stars (for a noise variance that is given).", "quantifier": "all systems, factors and frequencies", "why_tests_cant": "all real speeds and rates", "anchors": ["p3/aoSystem/fourierModel.py:controller", "p3/aoSystem/fourierModel.py:aliasingPSD", "p3/aoSystem/fourierModel.py:spatioTemporalPSD", "p3/aoSystem/fourierModel.py:reconstructionFilter"]}
{"id": "C386", "title": "Dead pixels are replaced by the weighted mean of their neighbours", "statement": "A list of dead pixels can be made from any map of them, and correcting an image with it replaces each listed pixel by the weighted mean of its good neighbours and leaves the other pixels as they are.", "quantifier": "all images, maps and lists", "why_tests_cant": "lists of any size, all pixel values and weights", "anchors": ["p3/aoSystem/FourierUtils.py:createDeadPixFrame", "p3/aoSystem/FourierUtils.py:correctFromDeadPixels"]}
{"id": "C387", "title": "Rotating a pupil rotates its reflexivity and its phase and records its angle", "statement": "After a rotation, map, reflexivity, phase and support agree, the aberrations present before are rotated with the pupil, and the recorded angle is that of the pupil.", "quantifier": "all pupils, angles and histories of rotations", "why_tests_cant": "histories of any length and any aberrations", "anchors": ["p3/aoSystem/pupil.py:rotatePupil", "p3/aoSystem/pupil.py:applyPhasePetal"]}
{"id": "C388", "title": "Resizing a pupil gives the size asked for and keeps its geometry", "statement": "After resize the map has the number of pixels asked for, the diameter in metres is kept, and segments keep their size in metres.", "quantifier": "all pupils and histories of sizes", "why_tests_cant": "histories of any length", "anchors": ["p3/aoSystem/pupil.py:resize", "p3/aoSystem/pupil.py:getPosSeg"]}
{"id": "C389", "title": "Gaps are filled from a surrounded segment whenever there is one", "statement": "The reference segment for the filling of gaps is the first one whose window is lit at its corners and in the middle of its sides; the first segment when there is none.", "quantifier": "all numbers and sizes of segments", "why_tests_cant": "any number of segments", "anchors": ["p3/aoSystem/pupil.py:findBestSegmentforFillGap"]}
{"id": "C390", "title": "Files given for a telescope are used or reported", "statement": "The pupil of a telescope is read from the file that is given when this is a FITS file; a path that cannot be used is reported.", "quantifier": "all paths and file systems", "why_tests_cant": "all names of files", "anchors": ["p3/aoSystem/telescope.py:telescope.__init__"]}
{"id": "C391", "title": "Maps read from files have the resolution of the telescope", "statement": "Pupil, apodizer and aberration maps read from files are square maps of the resolution of the telescope, with zeros in place of what is not a number.", "quantifier": "all maps, angles and resolutions", "why_tests_cant": "all sizes", "anchors": ["p3/aoSystem/telescope.py:telescope.__init__", "p3/aoSystem/FourierUtils.py:interpolateSupport"]}
{"id": "C392", "title": "Influence functions and example masks can be computed", "statement": "A deformable mirror with a resolution gets its influence functions, and the masks of Keck and of the VLT given as examples can be made.", "quantifier": "all mirrors and resolutions", "why_tests_cant": "all parameters of mirrors", "anchors": ["p3/aoSystem/deformableMirror.py:setInfluenceFunction", "p3/aoSystem/spiders.py:keckSpiderMask", "p3/aoSystem/spiders.py:vltSpiderMask"]}
{"id": "C393", "title": "Means along diagonals recover a stationary covariance", "statement": "On a matrix whose entries depend on the distance to the diagonal only, get_diags gives these entries and toeplitz the same times the lengths of the diagonals.", "quantifier": "all sizes, also rectangular", "why_tests_cant": "all sizes and values", "anchors": ["p3/aoSystem/FourierUtils.py:get_diags", "p3/aoSystem/FourierUtils.py:toeplitz"]}
{"id": "C394", "title": "Reading a parameter file of SPHERE does not change it", "statement": "Reading a parameter file, with or without another modal basis, gives its contents with this basis and changes no file.", "quantifier": "all files and bases", "why_tests_cant": "all contents of files and histories of calls", "anchors": ["p3/telemetry/sphereUtils.py:reading_ini_file"]}
{"id": "C395", "title": "The atmosphere follows the laws of the zenith angle", "statement": "Compared to the zenith, an observation at a zenith angle with cosine c has a Fried parameter and a coherence time multiplied by c^(3/5), a seeing divided by it, heights and mean height divided by c, an isoplanatic angle (infinite outer scale) multiplied by c^(8/5), and a focal anisoplanatism error of the laser divided by the square root of c.", "quantifier": "all profiles, zenith angles between -90 and 90 degrees and diameters", "why_tests_cant": "real powers, profiles of any length", "anchors": ["p3/aoSystem/aoSystem.py:aoSystem.__init__", "p3/aoSystem/atmosphere.py:atmosphere.theta0", "p3/aoSystem/atmosphere.py:atmosphere.tau0", "p3/aoSystem/atmosphere.py:atmosphere.meanHeight"]}
{"id": "C396", "title": "The isoplanatic angle is where the structure function is two", "statement": "Without outer scale, at a separation of the isoplanatic angle the structure functions of all layers at the separations of the two beams sum up to two.", "quantifier": "all profiles with a layer above the ground", "why_tests_cant": "profiles of any length", "anchors": ["p3/aoSystem/atmosphere.py:atmosphere.theta0", "p3/aoSystem/atmosphere.py:atmosphere.structureFunction"]}
{"id": "C397", "title": "Seeing and Fried parameter are two ways to say the same", "statement": "A parameter file with the seeing and one with the Fried parameter that corresponds to it give the same system, the seeing of this system at the zenith is the one given, and the automatic field of view is the same.", "quantifier": "all profiles, angles, seeings and wavelengths", "why_tests_cant": "real numbers", "anchors": ["p3/aoSystem/aoSystem.py:aoSystem.__init__", "p3/aoSystem/atmosphere.py:atmosphere.seeing", "p3/aoSystem/fourierModel.py:fourierModel.__init__"]}
{"id": "C398", "title": "The zenith angle stretches heights exactly once", "statement": "All distances to layers are multiplied by the airmass, once, wherever they are used: in the spectra, in the compressed profile and in the anisoplanatism.", "quantifier": "all profiles, lasers and angles", "why_tests_cant": "profiles of any length, all frequencies", "anchors": ["p3/aoSystem/aoSystem.py:aoSystem.__init__", "p3/aoSystem/fourierModel.py:initComputations", "p3/aoSystem/anisoplanatismModel.py:anisoplanatism_wfe", "p3/aoSystem/anisoplanatismModel.py:anisoplanatism_structure_function"]}
{"id": "C399", "title": "Off the zenith is at the zenith with a larger field and stronger turbulence", "statement": "The spectra of an observation through a airmasses are those at the zenith of a field a times larger, with turbulence a times stronger and mirrors conjugated a times lower.", "quantifier": "all observations with one or several guide stars, frequencies and directions", "why_tests_cant": "all frequencies and geometries", "anchors": ["p3/aoSystem/aoSystem.py:aoSystem.__init__", "p3/aoSystem/fourierModel.py:powerSpectrumDensity"]}
{"id": "C400", "title": "Zenith angles are accepted above the horizon only", "statement": "A system is built for angles above the horizon, with an airmass of one at least, and refused for the others.", "quantifier": "all angles", "why_tests_cant": "real numbers", "anchors": ["p3/aoSystem/aoSystem.py:aoSystem.__init__", "p3/aoSystem/telescope.py:telescope.airmass"]}
{"id": "C401", "title": "The unit of length does not matter", "statement": "Describing the same system in another unit of length (diameters, pitches, heights, Fried parameter, outer scale and wind in it, frequencies in its inverse) multiplies every spectrum by the squared ratio of the units and leaves the final PSD, per sample, as it is.", "quantifier": "all systems with one or several guide stars, frequencies, directions and ratios of units", "why_tests_cant": "no finite set of systems shows that no constant with a length is hidden in the code", "anchors": ["p3/aoSystem/fourierModel.py:powerSpectrumDensity", "p3/aoSystem/fourierModel.py:reconstructionFilter", "p3/aoSystem/fourierModel.py:tomographicReconstructor"]}
{"id": "C402", "title": "A star too faint corrects nothing", "statement": "As the noise of the guide stars grows, the noise and the aliasing of the correction vanish and the spectrum tends to that of the turbulence without correction.", "quantifier": "all systems with one or several guide stars", "why_tests_cant": "a limit", "anchors": ["p3/aoSystem/fourierModel.py:noisePSD", "p3/aoSystem/fourierModel.py:spatioTemporalPSD", "p3/aoSystem/fourierModel.py:reconstructionFilter", "p3/aoSystem/fourierModel.py:tomographicReconstructor"]}
{"id": "C403", "title": "Fainter guide stars never improve the correction", "statement": "Multiplying the noise variance of the guide stars by a larger factor never decreases the sum of the spatio-temporal error and of the noise.", "quantifier": "all systems, noises and frequencies", "why_tests_cant": "all pairs of noises, any number of stars and layers", "anchors": ["p3/aoSystem/fourierModel.py:noisePSD", "p3/aoSystem/fourierModel.py:spatioTemporalPSD", "p3/aoSystem/fourierModel.py:tomographicReconstructor"]}
{"id": "C404", "title": "Correcting is never worse than not correcting", "statement": "Within the corrected area the sum of the spatio-temporal error and of the noise is at most the turbulence.", "quantifier": "all systems, noises and frequencies", "why_tests_cant": "any number of stars, layers and mirrors", "anchors": ["p3/aoSystem/fourierModel.py:noisePSD", "p3/aoSystem/fourierModel.py:spatioTemporalPSD"]}
{"id": "C405", "title": "The pixel of a reconstructed PSF is one detector pixel", "statement": "In PSF reconstruction the transfer function of the pixel blurs the high-resolution PSF by a square of the size of one detector pixel, whatever the wavelength, the pixel scale and the oversampling of the computation.", "quantifier": "all transfer functions, positions, wavelengths, pixel scales, diameters and oversampling factors", "why_tests_cant": "all transfer functions and positions", "anchors": ["p3/psfr/psfR.py:pixel_optical_transfer_function", "p3/psfr/psfR.py:__init__", "p3/aoSystem/frequencyDomain.py:sampRef"]}
{"id": "C406", "title": "The pixel option of the Fourier model is one detector pixel", "statement": "With addOtfPixel the high-resolution PSF is blurred by a square of the size of one detector pixel.", "quantifier": "all transfer functions, sizes and oversampling factors", "why_tests_cant": "all transfer functions and factors", "anchors": ["p3/aoSystem/fourierModel.py:point_spread_function", "p3/aoSystem/FourierUtils.py:instantiateAngularFrequencies"]}
{"id": "C407", "title": "A PSF with pixel holds what the detector records", "statement": "With the transfer function of the pixel, each pixel of the PSF before normalisation holds the flux of the fine PSF integrated over this pixel.", "quantifier": "all transfer functions, sizes and oversampling factors", "why_tests_cant": "all transfer functions and factors", "anchors": ["p3/aoSystem/fourierModel.py:point_spread_function", "p3/psfr/psfR.py:pixel_optical_transfer_function", "p3/aoSystem/FourierUtils.py:binning", "p3/aoSystem/FourierUtils.py:sf_3D_to_psf_3D", "p3/aoSystem/FourierUtils.py:sf_3D_to_psf_4D"]}
{"id": "C408", "title": "The pixel option attenuates and lowers the Strehl ratio", "statement": "The transfer function of the pixel is one at zero frequency and at most one elsewhere; the Strehl ratio reported with the pixel option is at most the one without, and lower as soon as a frequency other than zero is transmitted.", "quantifier": "all optics, structure functions, wavelengths and sizes", "why_tests_cant": "all transfer functions", "anchors": ["p3/aoSystem/fourierModel.py:point_spread_function", "p3/psfr/psfR.py:pixel_optical_transfer_function", "p3/aoSystem/FourierUtils.py:sf_3D_to_psf_4D"]}
{"id": "C409", "title": "The result of a call does not depend on earlier calls", "statement": "A PSF model called with a vector of parameters returns the images and Strehl ratios that a new model would return, whatever vectors it was called with before.", "quantifier": "all telescopes, static modes, parameter vectors and histories of calls", "why_tests_cant": "all histories of calls", "anchors": ["p3/aoSystem/FourierUtils.py:sf_3D_to_psf_3D", "p3/aoSystem/FourierUtils.py:sf_3D_to_psf_4D", "p3/aoSystem/FourierUtils.py:getStaticOTF", "p3/aoSystem/fourierModel.py:point_spread_function", "p3/psfao21/psfao21.py:__call__", "p3/psfr/psfR.py:__call__", "p3/aoSystem/frequencyDomain.py:__init__"]}
{"id": "C410", "title": "The angle given for the static map is applied", "statement": "Images computed with an angle of the pupil are those of the telescope whose map of static aberrations was rotated by this angle.", "quantifier": "all telescopes, maps, angles, wavelengths and parameter vectors", "why_tests_cant": "all maps and angles", "anchors": ["p3/aoSystem/FourierUtils.py:getStaticOTF", "p3/aoSystem/FourierUtils.py:sf_3D_to_psf_3D", "p3/aoSystem/FourierUtils.py:sf_3D_to_psf_4D", "p3/psfr/psfR.py:__init__", "p3/psfr/psfR.py:__call__"]}
{"id": "C411", "title": "PSF reconstruction returns one image per star and wavelength", "statement": "Calling the reconstruction returns one image for each star and wavelength, with the flux asked for above the background.", "quantifier": "all numbers of stars and wavelengths, image sizes, images, fluxes and backgrounds", "why_tests_cant": "all numbers of stars and wavelengths", "anchors": ["p3/psfr/psfR.py:__call__", "p3/aoSystem/FourierUtils.py:sf_3D_to_psf_3D", "p3/aoSystem/FourierUtils.py:sort_params_from_labels", "p3/psfao21/psfao21.py:__call__"]}
{"id": "C412", "title": "PSFAO21 keeps the Strehl ratios of all images of a call", "statement": "After a call the Strehl ratios kept by the model are those of all images returned.", "quantifier": "all numbers of stars and wavelengths", "why_tests_cant": "all numbers of wavelengths", "anchors": ["p3/psfao21/psfao21.py:__call__"]}
{"id": "C413", "title": "SpotFWHM is the FWHM of the jitter", "statement": "A residual jitter blurs the PSF by Gaussian random displacements whose FWHM in mas is the SpotFWHM of the parameter file (or the jitter in the vector of parameters).", "quantifier": "all transfer functions, sizes, samplings and jitters", "why_tests_cant": "all transfer functions and jitters", "anchors": ["p3/aoSystem/FourierUtils.py:sf_3D_to_psf_3D", "p3/aoSystem/FourierUtils.py:sf_3D_to_psf_4D", "p3/aoSystem/aoSystem.py:aoSystem", "p3/aoSystem/parFiles/template.ini"]}
{"id": "C414", "title": "The jitter of the breakdown is that of the PSF", "statement": "The jitter term of the error breakdown is the rms wavefront error over a circular aperture of the jitter that blurs the PSF.", "quantifier": "all diameters and jitters", "why_tests_cant": "all jitters", "anchors": ["p3/aoSystem/fourierModel.py:errorBreakDown", "p3/aoSystem/FourierUtils.py:sf_3D_to_psf_4D"]}
{"id": "C415", "title": "A cropped image has the size asked for and is centred on the star", "statement": "Loading an observation with a field of view smaller than the image keeps the square of this size centred on the star, and records its size; otherwise the whole image is kept.", "quantifier": "all images, fields of view and positions of the star", "why_tests_cant": "stars near all edges, all parities", "anchors": ["p3/telemetry/telemetryKeck.py:restoringInstrumentData"]}
{"id": "C416", "title": "Saturated images are flagged", "statement": "The image returned is flagged as saturated exactly when one of its pixels exceeds the level of the instrument times the number of coadded frames.", "quantifier": "all images, instruments and numbers of coadded frames", "why_tests_cant": "all images", "anchors": ["p3/telemetry/telemetryKeck.py:restoringInstrumentData", "p3/telemetry/keckUtils.py:getSaturationLevel"]}
{"id": "C417", "title": "The mode and wavelengths of the sensors come from the header, and telemetry loads in both modes", "statement": "Telemetry that agrees with the calibration is loaded in NGS and LGS modes, with or without a block for the tip-tilt sensor; the wavefront sensor is at 589 nm in LGS mode and at the wavelength of the header in NGS mode.", "quantifier": "all telemetry files, headers and calibrations", "why_tests_cant": "all combinations of modes and blocks", "anchors": ["p3/telemetry/telemetryKeck.py:restoringTelemetry", "p3/telemetry/keckUtils.py:getStagePositionWFS", "p3/telemetry/keckUtils.py:getWFSwavelength"]}
{"id": "C418", "title": "Commands and residuals are at their actuators", "statement": "In each frame the commands and the residuals, in metres, are at the valid actuators in the order of the file, and zero elsewhere; files with another number of commands are refused.", "quantifier": "all telemetry files and maps of actuators", "why_tests_cant": "all maps of actuators", "anchors": ["p3/telemetry/telemetryKeck.py:restoringTelemetry"]}
{"id": "C419", "title": "The series of residuals have a zero mean", "statement": "The residuals of the mirror, of focus and of tip and tilt and the tip-tilt commands returned have a zero mean over the frames returned.", "quantifier": "all telemetry files and decimations", "why_tests_cant": "all series and decimations", "anchors": ["p3/telemetry/telemetryKeck.py:restoringTelemetry"]}
{"id": "C420", "title": "The frame rate is the one of the frames returned", "statement": "The rate recorded is the number of intervals between the frames returned over their duration, however regular they are.", "quantifier": "all time stamps and decimations", "why_tests_cant": "all time stamps and decimations", "anchors": ["p3/telemetry/telemetryKeck.py:restoringTelemetry"]}
{"id": "C421", "title": "The residual error counts the actuators that move", "statement": "The wavefront error recorded is the root mean square residual over the actuators that move; it is zero exactly when none moves.", "quantifier": "all telemetry files", "why_tests_cant": "all series", "anchors": ["p3/telemetry/telemetryKeck.py:restoringTelemetry"]}
{"id": "C422", "title": "The turbulence profile can be compressed whatever its origin", "statement": "A profile loaded with fewer layers than it has keeps its strength and its moments, whether it was measured or is the median profile.", "quantifier": "all profiles and numbers of layers", "why_tests_cant": "all profiles and numbers of layers", "anchors": ["p3/telemetry/telemetryKeck.py:restoringCalibrationData", "p3/aoSystem/FourierUtils.py:eqLayers"]}
{"id": "C423", "title": "The reconstructor returned maps the slopes returned to the residuals returned", "statement": "If the file holds residuals computed by one of its reconstructors, the reconstructor returned (in metres) applied to the slopes returned without their mean gives the residuals returned, also for tip and tilt measured by the wavefront sensor.", "quantifier": "all telemetry files, reconstructors, maps of actuators and decimations", "why_tests_cant": "all series", "anchors": ["p3/telemetry/telemetryKeck.py:restoringTelemetry"]}
{"id": "C424", "title": "The folder of TIPTOP is found", "statement": "The folder used for paths starting with tiptop is the one that contains the package TIPTOP, installed or running from its sources.", "quantifier": "all installations, call stacks and paths", "why_tests_cant": "all call stacks", "anchors": ["p3/aoSystem/__init__.py:detect_tiptop_path", "p3/aoSystem/aoSystem.py:resolve_path"]}
{"id": "C425", "title": "P3 can be imported whatever is around", "statement": "Importing P3 does not depend on what is found under the name tiptop.", "quantifier": "all results of the import of tiptop and all call stacks", "why_tests_cant": "all environments", "anchors": ["p3/aoSystem/__init__.py:detect_tiptop_path"]}
{"id": "C426", "title": "Integer sizes are not changed by floating-point division", "statement": "Sizes obtained by truncating a quotient of integers or a square root (binned images, default PSF sizes, PSD expansion factor, side of a square map) are the exact integer quotients and square roots, in floating point.", "quantifier": "all sizes below 2^51 and all roundings to nearest", "why_tests_cant": "all sizes", "anchors": ["p3/aoSystem/FourierUtils.py:binning", "p3/aoSystem/FourierUtils.py:sf_3D_to_psf_4D", "p3/aoSystem/frequencyDomain.py:frequencyDomain", "p3/psfr/psfrUtils.py:modes2Otf"]}
{"id": "C427", "title": "Zernike orders are exact in floating point", "statement": "The radial and azimuthal orders of a mode computed with floating-point square roots are those of its index.", "quantifier": "all modes up to 2^48 and all roundings to nearest", "why_tests_cant": "all indices", "anchors": ["p3/aoSystem/zernike.py:findNM"]}
{"id": "C428", "title": "A PSF of any size smaller than the field of view can be asked for", "statement": "Asking for a PSF of n pixels, n below the field of view of the camera, returns n by n pixels; boxes of n pixels have n pixels.", "quantifier": "all sizes and fields of view, all roundings to nearest", "why_tests_cant": "all pairs of sizes", "anchors": ["p3/aoSystem/FourierUtils.py:sf_3D_to_psf_3D", "p3/aoSystem/FourierUtils.py:cropSupport", "p3/aoSystem/FourierUtils.py:getMSE"]}
{"id": "C429", "title": "The number of actuators is not changed by rounding", "statement": "For a diameter of n pitches, both rounded when they are read, n actuator pitches (and n + 1 actuators) are found.", "quantifier": "all diameters, pitches and roundings to nearest", "why_tests_cant": "all diameters and pitches", "anchors": ["p3/psfr/psfrUtils.py:zonalCovarianceToOtf", "p3/aoSystem/aoSystem.py:aoSystem"]}
{"id": "C430", "title": "Computed frequencies are never zero and have the right sign", "statement": "In floating point, frequencies are negative before the centre of the grid, the offset at the centre, positive from there on.", "quantifier": "all sizes, steps and offsets, all roundings to nearest", "why_tests_cant": "all steps", "anchors": ["p3/aoSystem/FourierUtils.py:freq_array"]}
{"id": "C431", "title": "The grid of frequencies is symmetric", "statement": "The frequencies on the two sides of the centre are opposite.", "quantifier": "all sizes, steps and offsets, all roundings to nearest", "why_tests_cant": "all steps", "anchors": ["p3/aoSystem/FourierUtils.py:freq_array"]}
{"id": "C432", "title": "The PSF is computed at Nyquist sampling or better, in floating point", "statement": "The sampling used is at least two pixels per resolution element within two roundings, with the smallest possible factor.", "quantifier": "all samplings of the camera, all roundings to nearest", "why_tests_cant": "all samplings", "anchors": ["p3/aoSystem/frequencyDomain.py:frequencyDomain"]}
{"id": "C433", "title": "The size of the corrected area does not depend on the wavelength at Nyquist sampling", "statement": "With Nyquist sampling the number of elements of the corrected area is twice the diameter over the pitch, at all wavelengths.", "quantifier": "all diameters, wavelengths, pitches and roundings to nearest", "why_tests_cant": "all wavelengths", "anchors": ["p3/aoSystem/frequencyDomain.py:frequencyDomain"]}
{"id": "C434", "title": "Actuators are located for any pitch", "statement": "For a diameter of n pitches and a mask of n + 1 by n + 1 valid actuators, the positions of the valid actuators are returned.", "quantifier": "all diameters, pitches, masks and roundings to nearest", "why_tests_cant": "all diameters and pitches", "anchors": ["p3/psfr/psfrUtils.py:pointWiseLocation"]}
{"id": "C435", "title": "The flux of a computed PSF is the one asked for, within the rounding of sums", "statement": "The pixels of the PSF are non-negative, in the order of the exact ones, and add up to the flux asked for within one rounding per level of the sum and two more, in whatever order numpy adds.", "quantifier": "all PSFs, fluxes, orders of summation, precisions and roundings to nearest", "why_tests_cant": "all PSFs", "anchors": ["p3/aoSystem/FourierUtils.py:sf_3D_to_psf_3D", "p3/aoSystem/FourierUtils.py:sf_3D_to_psf_4D"]}
{"id": "C436", "title": "Compressed profiles keep their weights to single precision", "statement": "The weights of compressed layers are single-precision numbers, the exact sums within one rounding per layer in double precision and one in single precision.", "quantifier": "all profiles and roundings to nearest", "why_tests_cant": "all profiles", "anchors": ["p3/aoSystem/FourierUtils.py:eqLayers"]}
{"id": "C437", "title": "Tip-tilt and focus telemetry is in the units of its sensor", "statement": "The tip-tilt measurements and commands and the focus of a Keck telemetry file are returned without their mean, scaled to metres by the factor of the sensor they come from.", "quantifier": "all telemetry files and decimations", "why_tests_cant": "all files", "anchors": ["p3/telemetry/telemetryKeck.py:restoringTelemetry"]}
{"id": "C438", "title": "The numbers of frames recorded are those of the series", "statement": "The numbers of exposures recorded for the wavefront and tip-tilt sensors are those of the series returned.", "quantifier": "all telemetry files and decimations", "why_tests_cant": "all decimations", "anchors": ["p3/telemetry/telemetryKeck.py:restoringTelemetry"]}
{"id": "C439", "title": "A data file that is fetched is in the folder given", "statement": "After get_data_file(folder, name) returns, the file is in the folder, no other file changed, and a further call downloads nothing.", "quantifier": "all folders, names, contents of the disk and sequences of calls", "why_tests_cant": "all paths and histories", "anchors": ["p3/psfr/psfrUtils.py:get_data_file"]}
{"id": "C440", "title": "A fetched data file is complete", "statement": "A data file found by get_data_file is the whole file of the server, also after downloads that were interrupted.", "quantifier": "all sequences of calls and all points at which a transfer stops", "why_tests_cant": "all crash points", "anchors": ["p3/psfr/psfrUtils.py:get_data_file"]}
{"id": "C441", "title": "The segments of a pupil are copies of the reference segment", "statement": "A pupil has one segment per coordinate, at these coordinates, with the map, shape, reflectivity and phase of the reference segment.", "quantifier": "all reference segments and lists of coordinates", "why_tests_cant": "all references", "anchors": ["p3/aoSystem/pupil.py:makeSegList"]}
{"id": "C442", "title": "A phase of zero or a displacement of zero changes nothing on a segment", "statement": "Applying a phase of zero to a segment, or moving it by zero, leaves the pupil as it is.", "quantifier": "all reference segments, coordinates and segments", "why_tests_cant": "all references", "anchors": ["p3/aoSystem/pupil.py:applyPhaseErrorSegment", "p3/aoSystem/pupil.py:shiftSegment", "p3/aoSystem/pupil.py:removeSegment", "p3/aoSystem/pupil.py:makeSegList"]}
{"id": "C443", "title": "Gaps that were filled stay filled", "statement": "Operations that change nothing on a segment leave the filled gaps of the pupil filled.", "quantifier": "all pupils with filled gaps", "why_tests_cant": "all pupils", "anchors": ["p3/aoSystem/pupil.py:fillGap", "p3/aoSystem/pupil.py:applyPhaseErrorSegment", "p3/aoSystem/pupil.py:makeSegList"]}
{"id": "C444", "title": "Modes are defined over what they are applied to", "statement": "The modes of segments (petals) are defined over the lit pixels of the reference segment (of the petal); another area is refused.", "quantifier": "all reference segments, petals, masks and areas", "why_tests_cant": "all references", "anchors": ["p3/aoSystem/pupil.py:computeModes"]}
{"id": "C445", "title": "The precision of a model can be changed", "statement": "set_precision accepts single and double and raises otherwise; real and complex numbers have the same precision; computations made afterwards are in this precision and take the memory announced.", "quantifier": "all sequences of changes of precision and computations", "why_tests_cant": "all histories", "anchors": ["p3/aoSystem/fourierModel.py:set_precision", "p3/aoSystem/fourierModel.py:initComputations", "p3/aoSystem/fourierModel.py:estimate_memory_usage", "p3/aoSystem/aoSystem.py:aoSystem", "p3/aoSystem/frequencyDomain.py:frequencyDomain"]}
{"id": "C446", "title": "Reconstruction over several databases gives the results of each once, also after a failure", "statement": "The merged table has the rows of each database given, once, and those of the other tables of the folder, sorted by date; a failing database ends the run with the tables before it saved; running again gives what one run would have given.", "quantifier": "all lists of dates, results, contents of the folder, failures and numbers of earlier runs", "why_tests_cant": "all histories", "anchors": ["p3/psfr/psfrRun.py:psfr_on_multiple_databases", "p3/psfr/psfrRun.py:psfr_on_database", "p3/psfr/psfrRun.py:merge_dataframe"]}
{"id": "C447", "title": "Values read in SPHERE headers", "statement": "The wavelength is the mean of those of the file and the bandwidth their spread; the airmass is half way between start and end; identifiers and coordinates are those of the header; a missing keyword is an error.", "quantifier": "all headers, file names and lists of wavelengths", "why_tests_cant": "all headers", "anchors": ["p3/telemetry/sphereUtils.py:get_wavelength", "p3/telemetry/sphereUtils.py:get_telescope_pointing", "p3/telemetry/sphereUtils.py:get_obs_id", "p3/telemetry/sphereUtils.py:get_moon_position", "p3/telemetry/sphereUtils.py:get_star_coordinates"]}
{"id": "C448", "title": "The tables of results are saved in the folder given", "statement": "The table of a database is saved in the folder given to psfr_on_database.", "quantifier": "all folders and dates", "why_tests_cant": "all paths", "anchors": ["p3/psfr/psfrRun.py:psfr_on_database", "p3/psfr/psfrRun.py:merge_dataframe"]}
{"id": "C449", "title": "A segment with a phase can be moved", "statement": "Moving a segment of a pupil by zero leaves its pixels as they are, also when a phase was applied to it.", "quantifier": "all phases, and all roundings of floating-point numbers", "why_tests_cant": "all phases; the rounding errors are those of each value", "anchors": ["p3/aoSystem/pupil.py:removeSegment", "p3/aoSystem/pupil.py:shiftSegment", "p3/aoSystem/segment.py:applyPhase"]}
{"id": "C450", "title": "The refractivity of air follows the pressure and the temperature", "statement": "In observing conditions and at every wavelength of the bands, the refractivity is that of an ideal gas within ten percent.", "quantifier": "all temperatures, pressures, humidities in observing conditions and all wavelengths", "why_tests_cant": "all states and wavelengths", "anchors": ["p3/aoSystem/airRefraction.py:get_refractive_index"]}
{"id": "C451", "title": "Covariance and structure functions are those of the power spectrum", "statement": "The covariance of the phase is the Fourier transform of its power spectrum and its variance the integral of the spectrum; the structure function is twice the difference, zero and continuous at zero separation, increasing, and below twice the variance; the angular structure function is its weighted sum over the layers.", "quantifier": "all Fried parameters, outer scales, profiles, separations and angles", "why_tests_cant": "integrals over the plane, all separations", "anchors": ["p3/aoSystem/atmosphere.py:covariance", "p3/aoSystem/atmosphere.py:variance", "p3/aoSystem/atmosphere.py:structureFunction", "p3/aoSystem/atmosphere.py:spectrum", "p3/aoSystem/atmosphere.py:angularStructureFunction"]}
{"id": "C452", "title": "An infinite outer scale is the limit of large ones", "statement": "The structure function for an infinite outer scale is the limit of the structure function when the outer scale grows.", "quantifier": "all Fried parameters and separations", "why_tests_cant": "a limit", "anchors": ["p3/aoSystem/atmosphere.py:structureFunction"]}
{"id": "C453", "title": "The Fried parameter is that of the turbulence", "statement": "For an infinite outer scale the structure function is 6.88 times the separation in units of the Fried parameter to the power 5/3.", "quantifier": "all Fried parameters and separations", "why_tests_cant": "all separations", "anchors": ["p3/aoSystem/atmosphere.py:structureFunction"]}
{"id": "C454", "title": "The coherence time is the time during which the phase changes by one radian", "statement": "During the coherence time the frozen layers move so that the phase at a point of the pupil changes by one square radian in the mean, within one percent.", "quantifier": "all Fried parameters and profiles of the wind", "why_tests_cant": "every profile, and real powers", "anchors": ["p3/aoSystem/atmosphere.py:tau0", "p3/aoSystem/atmosphere.py:meanWind"]}
{"id": "C455", "title": "The isoplanatic angle of an infinite outer scale separates directions by two square radians", "statement": "For an infinite outer scale the phases of two directions separated by the isoplanatic angle differ by two square radians in the mean.", "quantifier": "all Fried parameters and profiles of the turbulence", "why_tests_cant": "every profile, and real powers", "anchors": ["p3/aoSystem/atmosphere.py:theta0"]}
{"id": "C456", "title": "The isoplanatic angle of a finite outer scale exists", "statement": "For a finite outer scale exactly one angle solves the equation the isoplanatic angle is computed from.", "quantifier": "all Fried parameters, outer scales and profiles", "why_tests_cant": "existence and uniqueness of the root of an integral equation", "anchors": ["p3/aoSystem/atmosphere.py:theta0", "p3/aoSystem/atmosphere.py:angularStructureFunction", "p3/aoSystem/atmosphere.py:structureFunction"]}
{"id": "C457", "title": "Structure functions of the anisoplanatism are those of the turbulence", "statement": "The angular structure function (Flicker) of a layer, and the focal one for a source in the direction of the star, times the Fried parameter to the power -5/3, are the mean squares of the difference between two points of the phase of the source minus that of the star, for every field with the covariance of the turbulence given by the atmosphere, up to one constant equal to 1 within 1.5 percent; such a field exists; so the angular function is never negative.", "quantifier": "all Fried parameters, outer scales, layers, directions and pairs of points", "why_tests_cant": "all fields and points of the plane", "anchors": ["p3/aoSystem/anisoplanatismModel.py:angular_function", "p3/aoSystem/anisoplanatismModel.py:focal_angular_function", "p3/aoSystem/FourierUtils.py:Ialpha", "p3/aoSystem/FourierUtils.py:mcDonald", "p3/aoSystem/atmosphere.py:covariance"]}
{"id": "C458", "title": "The variances of the Zernike coefficients sum to that of the turbulence without piston", "statement": "Without outer scale the variances of all modes but the piston sum to 1.03 (D/r0)^(5/3) within two percent; tip and tilt carry 10/23 of it each; the residual after the correction of all the modes up to any radial order is a given product of it.", "quantifier": "all D/r0 and all radial orders", "why_tests_cant": "an infinite sum", "anchors": ["p3/aoSystem/zernike.py:CoefficientsVariance"]}
{"id": "C459", "title": "All modules use one spectrum of the turbulence", "statement": "The spectrum of the fitting error used by PSFAO21 and by the PSF reconstruction is the one of the Fourier model within one percent: that of the atmosphere at the frequencies that the mirror does not correct, zero elsewhere.", "quantifier": "all Fried parameters, outer scales, cut-off frequencies and frequencies", "why_tests_cant": "every frequency", "anchors": ["p3/aoSystem/frequencyDomain.py:frequencyDomain", "p3/aoSystem/fourierModel.py:fittingPSD", "p3/aoSystem/atmosphere.py:spectrum"]}
{"id": "C460", "title": "The fitting error of PSFAO21 is that of its spectrum", "statement": "The fitting error reported by PSFAO21 is the square root of the integral of the spectrum of the turbulence over the frequencies that the mirror does not correct (trapezoidal rule), in nanometres; it decreases when the cut-off frequency or the Fried parameter grows.", "quantifier": "all cut-off frequencies, outer scales, grids, wavelengths and Fried parameters", "why_tests_cant": "every grid", "anchors": ["p3/psfao21/psfao21.py:get_power_spectrum_density", "p3/aoSystem/frequencyDomain.py:frequencyDomain"]}
{"id": "C461", "title": "Every option of the high-order sensor section reaches the sensor", "statement": "Each option of sensor_HO is found unaltered in the attribute of the sensor, its optics, detectors or processing that bears its meaning; the lists give one entry to each wavefront sensor; an option left out has a fixed default, the size of the lenslets being the diameter divided by their number.", "quantifier": "all parameter files that are accepted", "why_tests_cant": "all files and numbers of sensors", "anchors": ["p3/aoSystem/aoSystem.py:configLO_SC", "p3/aoSystem/sensor.py:sensor", "p3/aoSystem/detector.py:detector", "p3/aoSystem/optics.py:optics", "p3/aoSystem/processing.py:processing"]}
{"id": "C462", "title": "Every option of the low-order sensor section reaches the sensor", "statement": "Each option of sensor_LO is found unaltered in the tip-tilt sensor, with a fixed default when it is left out.", "quantifier": "all parameter files that are accepted", "why_tests_cant": "all files", "anchors": ["p3/aoSystem/aoSystem.py:configLOsensor", "p3/aoSystem/sensor.py:sensor"]}
{"id": "C463", "title": "Every option of the science section reaches the camera", "statement": "Each option of sensor_science is found unaltered in the camera, with a fixed default when it is left out; its field in arcseconds is that of the pixels settled by the constructor.", "quantifier": "all parameter files that are accepted", "why_tests_cant": "all files", "anchors": ["p3/aoSystem/aoSystem.py:configLO_SC", "p3/aoSystem/detector.py:detector"]}
{"id": "C464", "title": "Every option of the telescope and atmosphere sections reaches its object", "statement": "Each option of the sections telescope and atmosphere is found in the telescope, the atmosphere or the system, with a fixed default when it is left out; the paths are resolved.", "quantifier": "all parameter files that are accepted", "why_tests_cant": "all files", "anchors": ["p3/aoSystem/aoSystem.py:aoSystem", "p3/aoSystem/aoSystem.py:resolve_path", "p3/aoSystem/telescope.py:telescope", "p3/aoSystem/atmosphere.py:atmosphere"]}
{"id": "C465", "title": "Every option of the loops and mirrors reaches its object", "statement": "Each option of the sections RTC and DM that is used as it is is found in the loops and mirrors, with a fixed default; there is a tip-tilt loop exactly when its gain, rate and delay are given, with these values.", "quantifier": "all parameter files that are accepted", "why_tests_cant": "all files", "anchors": ["p3/aoSystem/aoSystem.py:configLO_SC", "p3/aoSystem/rtc.py:rtc", "p3/aoSystem/deformableMirror.py:deformableMirror"]}
{"id": "C466", "title": "Options left out have the documented defaults", "statement": "An option left out has the default written in the comments of the template parameter file.", "quantifier": "all parameter files and documented options", "why_tests_cant": "all files", "anchors": ["p3/aoSystem/aoSystem.py:configLO_SC", "p3/aoSystem/aoSystem.py:configLOsensor", "p3/aoSystem/aoSystem.py:get_science_field_of_view"]}
{"id": "C467", "title": "The template parameter file builds a system", "statement": "The parameter file shipped as a template is accepted by the constructor.", "quantifier": "the template and all files with a scalar number of low-order lenslets", "why_tests_cant": "all the files sharing the defect", "anchors": ["p3/aoSystem/aoSystem.py:configLOsensor", "p3/aoSystem/aoSystem.py:aoSystem"]}
{"id": "C468", "title": "Turning the loop off", "statement": "With a null gain the spectrum is that of the turbulence without piston: positive, at most that of the turbulence, independent of guide stars, sensor and sources; and it is the limit of that of a loop whose star fades.", "quantifier": "all systems, gains and frequencies", "why_tests_cant": "a limit, over all frequencies", "anchors": ["p3/aoSystem/fourierModel.py:fourierModel.powerSpectrumDensity", "p3/aoSystem/FourierUtils.py:pistonFilter"]}
{"id": "C469", "title": "Stars outside the image are refused", "statement": "A window that is not inside the image is never extracted.", "quantifier": "all images, window sizes and positions of stars", "why_tests_cant": "all positions, near each border", "anchors": ["p3/psfFitting/fittingUtils.py:extract_multiple_psf"]}
{"id": "C470", "title": "An empty path is the same as no path", "statement": "In a parameter file, an option that names a file and is empty has the same effect as the option left out.", "quantifier": "all parameter files, file systems and options", "why_tests_cant": "all combinations of options and files", "anchors": ["p3/aoSystem/aoSystem.py:aoSystem", "p3/aoSystem/telescope.py:telescope", "p3/aoSystem/fourierModel.py:fourierModel.powerSpectrumDensity"]}
{"id": "C471", "title": "Energies on the figures", "statement": "The energies drawn by the figures of a simulation are those of the squares and discs in their titles: interpolated, growing with the radius, and refused beyond the curve.", "quantifier": "all images, curves, pixel scales and radii", "why_tests_cant": "real radii, all curves", "anchors": ["p3/aoSystem/fourierModel.py:fourierModel.displayResults", "p3/aoSystem/fourierModel.py:fourierModel.displayPsfMetricsContours"]}
{"id": "C472", "title": "Sources on the figures", "statement": "The figure of the images shows the sources nearest to and farthest from the axis, with their angles in the title; contours are drawn when the sources make a square grid, each source in its cell.", "quantifier": "all lists of sources and numbers of wavelengths", "why_tests_cant": "all lists", "anchors": ["p3/aoSystem/fourierModel.py:fourierModel.displayResults", "p3/aoSystem/fourierModel.py:fourierModel.displayPsfMetricsContours"]}
{"id": "C473", "title": "Refining the frequencies converges", "statement": "When the grid of frequencies is refined at a fixed width, every error of the breakdown tends to the square root of the integral of its density: over the corrected area for the noise, aliasing, servo-lag, refraction and chromatic errors, outside of it for the fitting error.", "quantifier": "all corrected areas, widths, wavelengths, atmospheres and densities bounded and continuous almost everywhere", "why_tests_cant": "a limit over all grids", "anchors": ["p3/aoSystem/fourierModel.py:fourierModel.errorBreakDown", "p3/aoSystem/frequencyDomain.py:frequencyDomain", "p3/aoSystem/FourierUtils.py:freq_array"]}
{"id": "C474", "title": "Angle of the pupil of Keck", "statement": "The angle of the pupil of an observation is that of the rotator less that of the instrument, with an offset of 42.5 degrees for OSIRIS; for an unknown instrument it is that of the rotator.", "quantifier": "all headers", "why_tests_cant": "real angles, all names of instruments", "anchors": ["p3/telemetry/keckUtils.py:getPA", "p3/telemetry/keckUtils.py:getInstAngle"]}
{"id": "C475", "title": "Both breakdowns report the same fitting error", "statement": "The fitting error of the analytic breakdown is that of the Fourier model of the same system on fine and wide grids of frequencies.", "quantifier": "all systems, corrected areas set by the pitch, and grids", "why_tests_cant": "a limit over all grids, real parameters", "anchors": ["p3/aoSystem/aoSystem.py:aoSystem.errorBreakdown", "p3/aoSystem/fourierModel.py:fourierModel.errorBreakDown", "p3/aoSystem/fourierModel.py:fourierModel.fittingPSD"]}
{"id": "C476", "title": "Textbook noise of a Shack-Hartmann", "statement": "The noise variance of a Shack-Hartmann is, for each of the four centroiding algorithms, the formula of Thomas et al. (2006) and the quad-cell one, with the diffraction core and the spot in pixels of at least one, and the window never below the spot.", "quantifier": "all detectors, lenslets, fluxes, seeings and windows", "why_tests_cant": "real parameters", "anchors": ["p3/aoSystem/sensor.py:sensor.NoiseVariance"]}
{"id": "C477", "title": "Start of the fit of each sub-image of a field", "statement": "When the sub-images of a field are fitted, the start of each fit has one value for each entry of the mask whatever the number of detected stars; exactly the background of the power spectrum and the three jitter values are kept fixed; the model reads from it r0 = 0.5, the guessed power spectrum, no jitter, the fluxes divided by their sum (non-negative, summing to one), the offsets of the stars from the central pixel, no background and no static aberration; and for stars inside a sub-image not larger than the images of the model it is within the bounds of the model.", "quantifier": "every number of detected stars, fluxes, positions and sizes of sub-image", "why_tests_cant": "Tests fit a few images with a few stars; the layout must hold for any number of detections.", "anchors": ["p3/psfFitting/fittingUtils.py:fit_multiple_psfs", "p3/aoSystem/FourierUtils.py:sort_params_from_labels", "p3/psfao21/psfao21.py:define_bounds"]}
{"id": "C478", "title": "The fit of a field accepts every parameter file", "statement": "The fit of the sub-images of a field can start for every valid parameter file of the PSF model: the start has one value for each bound.", "quantifier": "every number of layers, wavelengths, static modes and stars", "why_tests_cant": "Tests use one parameter file; the number of bounds depends on the file and the start does not.", "anchors": ["p3/psfFitting/fittingUtils.py:fit_multiple_psfs", "p3/psfao21/psfao21.py:define_bounds"]}
{"id": "C479", "title": "Result of the fit of the sub-images of a field", "statement": "The fit of the sub-images of a field returns one column and one PSF per sub-image, in order. A sub-image without a star has a column and a PSF of zeros. Otherwise the 24 rows are the seven parameters, their errors, the coordinates and their distance, the Strehl ratios and widths of the image and of the fit and the mean square error, and the PSF is built without jitter from one centred star of flux one without background. The column of a sub-image does not depend on the other sub-images.", "quantifier": "every list of sub-images, detections and results of the fits", "why_tests_cant": "Tests fit a few sub-images; alignment and independence are about every list.", "anchors": ["p3/psfFitting/fittingUtils.py:fit_multiple_psfs"]}
{"id": "C480", "title": "The PSF of a sub-image is that of its fit", "statement": "The PSF returned for a fitted sub-image of a field is the one of the parameters returned for it.", "quantifier": "every list of sub-images, every PSF model that depends on r0", "why_tests_cant": "Holds in a test with one sub-image; r0 is replaced by the median over the field.", "anchors": ["p3/psfFitting/fittingUtils.py:fit_multiple_psfs"]}
{"id": "C481", "title": "A sub-image that cannot be fitted does not lose the field", "statement": "When the fit of one sub-image of a field raises, the results of the other sub-images are returned.", "quantifier": "every list of sub-images and set of failing fits", "why_tests_cant": "Tests use images that can be fitted.", "anchors": ["p3/psfFitting/fittingUtils.py:fit_multiple_psfs"]}
{"id": "C482", "title": "Interpolation over a field with sub-images without star", "statement": "PSFs interpolated over a field in which some sub-images have no detected star are numbers, obtained from the nearest fitted sub-images.", "quantifier": "every set of sub-images without star, positions, numbers of neighbours and of PSFs per segment", "why_tests_cant": "Tests interpolate between fitted PSFs; what happens depends on which sub-images were fitted and how they are grouped.", "anchors": ["p3/psfFitting/fittingUtils.py:interpolate_psfs_in_fov", "p3/psfFitting/fittingUtils.py:fit_multiple_psfs"]}
{"id": "C483", "title": "Read-out noise of the Keck camera", "statement": "The read-out noise given for the Keck camera in correlated double sampling is that of one multiple read, sixteen reads give 15 electrons, and more reads never give more noise.", "quantifier": "every sampling mode and numbers of reads", "why_tests_cant": "Tests read a header; monotony is about all numbers of reads.", "anchors": ["p3/telemetry/keckUtils.py:getExposureConfig"]}
{"id": "C484", "title": "Effect of the calibration of a field on the parameter file", "statement": "The only effect of the calibration of a field on the parameter file is its field of view, set to twice the half of the enlarged size, whatever the result of the call; without the section of the science detector the call raises and the file is left as it is or not created. The result does not depend on the field of view the file had, and a second call with the same arguments gives the same result and leaves the same file.", "quantifier": "every parameter file, arguments, detections and fits, and histories of two calls", "why_tests_cant": "Tests run one file once; the file is both an input and an output.", "anchors": ["p3/psfFitting/fittingUtils.py:generate_psfs_grid_from_image"]}
{"id": "C485", "title": "A calibration that fails leaves the parameter file as it was", "statement": "When the calibration of a field raises, the parameter file of the user is unchanged.", "quantifier": "every parameter file and failing call", "why_tests_cant": "Tests do not look at the file after a failure.", "anchors": ["p3/psfFitting/fittingUtils.py:generate_psfs_grid_from_image"]}
{"id": "C486", "title": "The results of the calibration of a field belong together", "statement": "A calibration of n by n tiles with m stars each returns n*n*m coordinates, sub-images, columns and fitted PSFs and n*n interpolated PSFs and points; the entries of rank k belong to one star of the catalogue, a candidate of tile k/m: its coordinates from the centre of the image, the sub-image around it and the fit of that sub-image (or zeros when nothing is detected in it).", "quantifier": "every image, catalogue, numbers of tiles and of stars per tile, detections and fits", "why_tests_cant": "Tests use one field; the alignment of the outputs must hold for every numbers of tiles and stars.", "anchors": ["p3/psfFitting/fittingUtils.py:generate_psfs_grid_from_image", "p3/psfFitting/fittingUtils.py:fit_multiple_psfs"]}
{"id": "C487", "title": "When a field can be calibrated", "statement": "With even sub-images, a model that can be made and fits that return, the calibration returns exactly when the file has the section of the detector, there is at least one tile, the criterion and the interpolation are known, the limits of magnitude are given and every tile has enough candidates (and, for an interpolation of the parameters, the enlarged field is not smaller than the sub-images): no candidate is too near to a border to be cut out.", "quantifier": "every image size, catalogue, numbers of tiles and of stars per tile, even sizes of sub-images", "why_tests_cant": "The failing cases depend on the positions of the stars relative to the tiles and to the borders.", "anchors": ["p3/psfFitting/fittingUtils.py:generate_psfs_grid_from_image", "p3/psfFitting/fittingUtils.py:extract_multiple_psf"]}
{"id": "C488", "title": "An unknown interpolation is refused as such", "statement": "The calibration of a field refuses an unknown interpolation for that reason, before the fits.", "quantifier": "every other argument, parameter file and model", "why_tests_cant": "Tests of a wrong name use otherwise valid arguments; the order of the checks shows only when two are wrong or a fit is long.", "anchors": ["p3/psfFitting/fittingUtils.py:generate_psfs_grid_from_image"]}
{"id": "C489", "title": "Size of the PSFs of a calibrated field", "statement": "The fitted and the interpolated PSFs of a field have the size of the sub-images times the factor.", "quantifier": "every size of sub-image, factor and interpolation", "why_tests_cant": "Tests use an even size and one interpolation.", "anchors": ["p3/psfFitting/fittingUtils.py:generate_psfs_grid_from_image", "p3/psfFitting/fittingUtils.py:compute_psfs_grid"]}
{"id": "C490", "title": "Interpolation of the parameters over a field with sub-images without star", "statement": "PSFs computed from the parameters interpolated over a field are numbers also when nothing is detected in some sub-images.", "quantifier": "every set of sub-images without star", "why_tests_cant": "Tests interpolate between fitted sub-images.", "anchors": ["p3/psfFitting/fittingUtils.py:create_spatial_variations_psf_model", "p3/psfFitting/fittingUtils.py:compute_psfs_grid", "p3/psfFitting/fittingUtils.py:generate_psfs_grid_from_image"]}
{"id": "C491", "title": "PSF interpolated in a calibrated field", "statement": "With one star per tile, a PSF interpolated at a point without star is a number exactly when at least four sub-images (or all) were fitted with an error that is not zero; it is the mean of four different fitted PSFs weighted by the inverses of their distances to the point, and no other fitted one is nearer.", "quantifier": "every image, catalogue, number of tiles, detections and fits, and point of the grid", "why_tests_cant": "Tests look at one field; the choice of the neighbours depends on all positions and fits.", "anchors": ["p3/psfFitting/fittingUtils.py:generate_psfs_grid_from_image", "p3/psfFitting/fittingUtils.py:interpolate_psfs_in_fov"]}
{"id": "C492", "title": "Segmented modes are the means of the modes over the segments", "statement": "A segmented mode is zero outside the segments and, on each segment, the mean of the mode over its lit pixels.", "quantifier": "every layout of segments without common pixels, pupil and mode", "why_tests_cant": "Tests look at small amplitudes; the angle of a complex pupil wraps.", "anchors": ["p3/aoSystem/createSegmentedModes.py", "p3/aoSystem/pupil.py:applyPhaseErrorSegment"]}
{"id": "C493", "title": "Linear resizing stays within the range of the image", "statement": "Resizing an image by linear interpolation gives the size asked for, never leaves the range of its pixels (a transmission stays between zero and one, a constant image stays constant), and the result depends linearly on the image.", "quantifier": "every image of at least two pixels along each axis, every size asked for and every pair of images combined", "why_tests_cant": "Tests resize a pupil to one size; the statement is about every pair of sizes, odd or even, with the points at the border that fall outside of the samples.", "anchors": ["p3/aoSystem/FourierUtils.py:interpolateSupport", "p3/aoSystem/telescope.py:telescope", "p3/aoSystem/pupil.py:pupil"]}
{"id": "C494", "title": "Enlarging then reducing gives the image back", "statement": "An image enlarged by whole factors with linear interpolation, then reduced to its first size, is the same image.", "quantifier": "every image of at least two pixels along each axis and every pair of whole factors", "why_tests_cant": "The centre of the grids depends on the parity of both sizes.", "anchors": ["p3/aoSystem/FourierUtils.py:interpolateSupport"]}
{"id": "C495", "title": "Reducing an image averages its pixels", "statement": "When an image or a pupil is reduced by a whole factor, each new pixel is the mean of the block of pixels that it covers, so that the light is kept.", "quantifier": "every image, every whole factor", "why_tests_cant": "A smooth image hardly shows the difference.", "anchors": ["p3/aoSystem/FourierUtils.py:interpolateSupport", "p3/aoSystem/telescope.py:telescope"]}
{"id": "C496", "title": "Segmented modes at low resolution are the resized ones", "statement": "The segmented modes at low resolution are the modes at high resolution resized, and they stay within half a turn.", "quantifier": "every layout of segments, pupil, mode and pair of sizes", "why_tests_cant": "Each segment is interpolated separately and the results are added; equality holds by linearity for all layouts.", "anchors": ["p3/aoSystem/createSegmentedModes.py", "p3/aoSystem/FourierUtils.py:interpolateSupport"]}
{"id": "C497", "title": "Resizing by the nearest pixel only uses values of the image", "statement": "Resizing by the nearest pixel gives the size asked for, holds only values that the image has (a mask of zeros and ones stays one) and keeps the corners.", "quantifier": "every image and size; at least two new pixels along each axis for the corners", "why_tests_cant": "Ties and rounding of positions occur only for some pairs of sizes.", "anchors": ["p3/aoSystem/FourierUtils.py:interpolateSupport"]}
{"id": "C498", "title": "The centre of an image stays at the centre when it is resized", "statement": "Whatever the kind of interpolation, the centre of the image goes to the centre of the resized one.", "quantifier": "every image and pair of sizes, odd or even", "why_tests_cant": "It depends on the ratio and the parities of the sizes.", "anchors": ["p3/aoSystem/FourierUtils.py:interpolateSupport"]}
{"id": "C499", "title": "A loaded pupil or apodizer stays between zero and one", "statement": "A map of a telescope read from a file has the resolution asked for and, if its valid values are between two bounds around zero, such as zero and one, so are those loaded, with zero where the file has no number.", "quantifier": "every square map of at least two pixels across, resolution, and position of the values that are not numbers", "why_tests_cant": "Interpolation near the edges and next to missing values can overshoot for some maps only.", "anchors": ["p3/aoSystem/telescope.py:telescope", "p3/aoSystem/FourierUtils.py:interpolateSupport"]}
