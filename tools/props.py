#!/usr/bin/env python3
"""Regenerates ../properties.jsonl from the table below."""
import json, os
P = []
def p(title, statement, quantifier, why, anchors):
    P.append(dict(id="C%02d" % (len(P)+1), title=title, statement=statement,
                  quantifier=quantifier, why_tests_cant=why, anchors=anchors))
A="p3/aoSystem/"
def e(i, **kw): P[int(i[1:])-1].update(kw)
# ---------------------------------------------------------------- configuration
p("Configuration paths resolve with a fixed priority",
  "resolve_config_path returns '' exactly for an empty path; otherwise it returns the file found under a non-empty path_root if there is one, else a path under the P3 (resp. TIPTOP) installation for names that start, leading slashes removed, with 'aoSystem' (resp. 'tiptop'), else the path unchanged if it is a file, else the slash-stripped path under P3 if that is a file, else the path unchanged. It never invents any other path.",
  "every path string, path_root, install roots (TIPTOP present or absent) and every state of the file system",
  "the space of file systems and path strings is infinite; a test fixes one directory tree",
  [A+"__init__.py:resolve_config_path"])
p("A parameter file is rejected unless it is complete and consistent",
  "Constructing aoSystem raises ValueError before building anything from the section whenever a required section or option is missing, the zenith angle is >= 90, the Cn2 weights do not sum to 1 within 1e-3, the turbulence profile lists have different lengths, source zenith/azimuth lists differ in length, or several DMs are given without matching heights; and it never raises one of these errors for a file that has none of these defects.",
  "every parsed parameter map (any sections, options and list lengths)",
  "the combinations of missing or inconsistent options are unbounded",
  [A+"aoSystem.py:aoSystem.__init__", A+"aoSystem.py:raiseMissingRequiredOpt", A+"aoSystem.py:raiseNotSameLength", A+"deformableMirror.py:deformableMirror.__init__"])
p("The length-mismatch error names the offending section",
  "When two or more lists of one section have different lengths, the message of the ValueError names that section.",
  "every list of option names and every section name",
  "a test looks at one message",
  [A+"aoSystem.py:aoSystem.raiseNotSameLength"])
p("The science field of view covers the corrected area and the seeing",
  "With FieldOfView = -1 the computed field of view is an even number of pixels, at least 2, whose half-width is at least both the DM-corrected radius and the seeing FWHM in pixels, and is the smallest such; a positive FieldOfView is rounded up to an integer >= 1; every other value raises ValueError.",
  "every wavelength list, pixel scale, DM pitch list, seeing, airmass and raw FieldOfView value",
  "rounding at every real-valued boundary cannot be sampled",
  [A+"aoSystem.py:_compute_science_field_of_view", A+"aoSystem.py:get_science_field_of_view"])
p("The AO mode is determined by guide stars, mirrors and reconstructed layers",
  "A system without laser guide stars is SCAO; with a single laser star it is SLAO; with several laser stars it is MCAO when there are several mirrors, otherwise LTAO when several layers are reconstructed, otherwise GLAO. Each configuration gets exactly one of these five modes.",
  "every number of guide stars, mirrors and reconstructed layers",
  "infinitely many configurations; boundary cases interact",
  [A+"aoSystem.py:aoSystem.__init__"])
p("Processing the low-order section twice changes nothing",
  "Configuring the low-order/science detector a second time on the same object leaves the science field of view as the first time.",
  "every field of view, wavelength list and number of repeated calls",
  "the defect only shows for some wavelength ratios and after a history of calls",
  [A+"aoSystem.py:configLO_SC", A+"aoSystem.py:configLO"])
p("NGS positions are appended after the science positions",
  "When PSFs at the NGS positions are requested, the evaluated directions are the science directions followed by the NGS directions, in order; each NGS keeps its own zenith/azimuth pair, and the extra low-order error is applied to exactly these last directions.",
  "every number of science targets and NGS",
  "the index arithmetic has to be right for every pair of sizes",
  [A+"aoSystem.py:configLO", A+"fourierModel.py:powerSpectrumDensity"])
p("The error breakdown is an orthogonal sum",
  "The reported total wavefront error is the root of the sum of squares of the reported terms, so it is at least every individual term, and the derived Strehl ratio lies in (0, 1], decreasing with the total.",
  "every set of real-valued error terms",
  "a real-valued inequality over all inputs",
  [A+"aoSystem.py:errorBreakdown", A+"fourierModel.py:errorBreakDown"])
p("The low-order centroiding threshold given by the user is used",
  "The low-order sensor is built with the centroiding threshold found in the sensor_LO section.",
  "every threshold value and every parameter map",
  "a test with the default value cannot notice that the option is never read",
  [A+"aoSystem.py:configLOsensor"])
# ---------------------------------------------------------------- components
p("Sources get one direction, wavelength and height each",
  "A source object built from zenith, azimuth and wavelength lists has nSrc directions and a wavelength list; when the lists are compatible (equal length or length one) every source i is at tan(zenith_i)(cos azimuth_i, sin azimuth_i) with single values shared by all sources.",
  "all lists of zenith, azimuth and wavelengths",
  "every combination of list lengths matters",
  [A+"source.py:source.__init__"])
p("The Fried parameter follows the wavelength whatever the history",
  "After any sequence of changes of the atmosphere wavelength, r0 equals the initial r0 times (current/initial wavelength)^(6/5); in particular coming back to the original wavelength restores r0, and the seeing angle scales as wavelength^(-1/5).",
  "every initial r0 > 0, every finite sequence of positive wavelengths",
  "an invariant over unbounded histories",
  [A+"atmosphere.py:atmosphere.wvl", A+"atmosphere.py:atmosphere.seeing"])
p("Layers share the turbulence strength",
  "The strengths of the layers of an atmosphere (r0^(-5/3)) add up to the total strength when the weights sum to one, and extracting any layer yields an atmosphere carrying exactly the strength, height, wind and outer scale of that layer, at the current wavelength.",
  "every profile, every layer index, every wavelength history",
  "profiles and histories are unbounded",
  [A+"atmosphere.py:atmosphere.__init__", A+"atmosphere.py:atmosphere.slab"])
p("The WFS noise model rejects unphysical inputs and behaves physically",
  "The noise variance is refused for r0 <= 0, wavelength <= 0, negative readout noise or photon flux, non-positive sub-aperture size, unknown algorithm or WFS type; otherwise it is non-negative, non-decreasing with readout noise and non-increasing with flux.",
  "all real parameter values and all algorithm names",
  "real-valued monotonicity",
  [A+"sensor.py:sensor.NoiseVariance"])
p("Missing photon counts are padded per WFS",
  "When fewer photon counts than wavefront sensors are given, the missing ones are treated as zero and each WFS gets a number; the caller's list is not altered.",
  "every number of WFS and every list of counts",
  "a boundary in list lengths",
  [A+"sensor.py:sensor.__init__"])
p("Actuator index conversion is a bijection",
  "Converting (row, column) to a linear index and back gives the same (row, column) for every in-range pair and every array shape, and out-of-range pairs give -1.",
  "all shapes and all index pairs",
  "holds for square arrays, so tests on square grids pass",
  [A+"deformableMirror.py:sub2ind", A+"deformableMirror.py:ind2sub"])
p("Each deformable mirror gets one coupling value and one height",
  "The mirror object has as many heights and mechanical couplings as pitches: when enough couplings are supplied they are kept in order and extra ones are dropped, otherwise every mirror gets the first one; mismatching pitch/height or direction/weight lists raise ValueError.",
  "all list lengths",
  "list-length boundaries",
  [A+"deformableMirror.py:deformableMirror.__init__"])
p("Spectral dispersion must match the transmittance",
  "A detector is refused when its spectral dispersion list and transmittance list have different lengths; an accepted detector has one transmittance per wavelength.",
  "all list lengths",
  "list-length boundaries",
  [A+"detector.py:detector.__init__"])
p("The tip-tilt loop exists only when fully described",
  "A tip-tilt loop is created exactly when gain, rate and delay of the low-order loop are all given; its bandwidth is non-negative and increases with rate.",
  "all presence combinations and real values",
  "presence combinations and real values",
  [A+"rtc.py:rtc.__init__", A+"rtc.py:rtc"])
# ---------------------------------------------------------------- frequency domain
p("The wavelength vector samples every band",
  "For every list of band centres with a bandwidth and a number of bins per band, the wavelength vector has one block of bins per centre, in order, each spanning centre - bandwidth/2 to centre + bandwidth/2 with increasing wavelengths.",
  "all numbers of bands and bins, all real centres and bandwidths",
  "the faulty slice only shows for several bands and several bins",
  [A+"frequencyDomain.py:frequencyDomain.wvlCen", A+"FourierUtils.py:create_wavelength_vector"])
p("The computation grid satisfies Nyquist",
  "The oversampling factor k is the least positive integer with k * sampling >= 2 at every wavelength, so the PSF is computed at Nyquist or better and binned back by an integer.",
  "every positive sampling and every list of wavelengths",
  "a ceiling over the reals",
  [A+"frequencyDomain.py:frequencyDomain.wvl", A+"frequencyDomain.py:frequencyDomain.nOtf"])
p("The number of aliasing replicas is bounded",
  "The number of aliased spectrum replicas is always between 2 and 4, and grows with the ratio of the grid to the corrected area.",
  "all grid sizes and corrected-area sizes",
  "all integers",
  [A+"frequencyDomain.py:frequencyDomain.nTimes"])
p("Corrected and uncorrected frequencies partition the spectrum",
  "Every spatial frequency of the grid is either in the corrected area or outside it, never both, for circular and square control areas; the fitting error is zero inside the corrected area and the full atmospheric spectrum outside; the AO-corrected terms are zero outside.",
  "every grid, cutoff and frequency",
  "a pointwise partition over arbitrary grids",
  [A+"frequencyDomain.py:mskIn_", A+"frequencyDomain.py:mskOut_", A+"fourierModel.py:fittingPSD"])
p("The AO-corrected PSD is embedded in the full grid",
  "The resAO x resAO corrected PSD is written into a resAO x resAO block, inside the full grid and with the zero frequency on the zero frequency, and nothing outside the block is touched; a corrected area larger than the grid is refused.",
  "all grid and corrected-area sizes",
  "parities of both sizes interact",
  [A+"fourierModel.py:powerSpectrumDensity", A+"fourierModel.py:initComputations"])
p("Frequency arrays are centred",
  "The frequency array of size n has zero frequency at index n//2 and steps of constant size; it contains the opposite of every frequency except, for even n, the most negative one.",
  "all sizes, steps and offsets",
  "all sizes and parities",
  [A+"FourierUtils.py:freq_array"])
# ---------------------------------------------------------------- images
p("Binning conserves flux",
  "Binning an image by an integer factor k gives floor(n/k) x floor(m/k) pixels, each the sum of its k x k block, so the total flux of the retained area is conserved, and the whole flux when k divides both sizes.",
  "all image sizes, contents and factors",
  "all sizes",
  [A+"FourierUtils.py:binning"])
p("Cropping keeps the centre and inverts enlarging",
  "Cropping selects a centred window fully inside the image; enlarging pads with zeros, keeps total flux, and cropping an enlarged image by the same factor gives back the image.",
  "all sizes, factors and contents",
  "integer truncation for all sizes",
  [A+"FourierUtils.py:cropSupport", A+"FourierUtils.py:enlargeSupport"])
p("Image normalisation can be undone",
  "Normalising an image and denormalising with the returned parameter gives the original image for every normalisation type; normalised images sum to one (sum type), have positive pixels that sum to one (positive-flux type) or lie in [0,1] and attain both ends (min-max type).",
  "all images and normalisation types",
  "degenerate images (zero flux, constant) break it",
  [A+"FourierUtils.py:normalizeImage"])
p("PSFs carry the requested flux",
  "Each PSF obtained from a structure function has total intensity equal to the requested flux plus the background level times the number of pixels, whatever the binning and cropping.",
  "all structure functions, fluxes, backgrounds and sizes",
  "real-valued arrays of any size",
  [A+"FourierUtils.py:sf_3D_to_psf_3D"])
p("An optical transfer function never amplifies",
  "The OTF obtained from a non-negative structure function lies in (0, 1] and is 1 at the origin; larger phase variance lowers it.",
  "all structure functions",
  "all reals",
  [A+"FourierUtils.py:sf2otf", A+"fourierModel.py:phaseStructureFunction"])
p("Encircled energy grows from the centre to one",
  "The encircled energy curve of a non-negative image is non-decreasing, lies in [0,1] and ends at 1.",
  "all images and centres",
  "all images",
  [A+"FourierUtils.py:getEncircledEnergy", A+"FourierUtils.py:radial_profile"])
p("Ensquared energy grows with the box",
  "The ensquared energy curve of a non-negative image is non-decreasing with box size and each value is the flux fraction inside the box centred on the peak.",
  "all images and peak positions",
  "fails only for off-centre peaks or odd sizes",
  [A+"FourierUtils.py:getEnsquaredEnergy"])
p("Layer compression conserves turbulence",
  "Compressing a Cn2 profile to nEq equivalent layers yields nEq layers with the same total strength and the same 5/3-moment of altitude, grouping consecutive layers; asking for more layers than available raises ValueError.",
  "all profiles and numbers of layers",
  "all sizes; rounding in slab positions",
  [A+"FourierUtils.py:eqLayers"])
p("The parameter vector is decoded without overlap",
  "The model parameter vector is cut into atmosphere, phase, jitter, photometry, astrometry, background and static parts that are disjoint, contiguous and in order; bounds returned for the optimiser have one pair per parameter.",
  "all numbers of layers, sources, frames and modes",
  "offsets must add up for all counts",
  [A+"FourierUtils.py:sort_params_from_labels", A+"fourierModel.py:define_bounds", "p3/psfr/psfR.py:define_bounds", "p3/psfao21/psfao21.py:define_bounds"])
p("The piston filter removes piston only",
  "The piston filter takes values in [0,1], is 0 at zero frequency and multiplying a PSD by it never increases it.",
  "all frequencies and diameters",
  "all reals",
  [A+"FourierUtils.py:pistonFilter"])
p("Symmetrised spectra reproduce the one they came from",
  "The symmetric Fourier array assembled by fftsym equals its input mirrored about the origin (out[i,j] = x[-i,-j]).",
  "all arrays of all sizes",
  "boundary rows and columns only",
  [A+"FourierUtils.py:fftsym"])
p("Polar sampling refines with radius",
  "The number of azimuthal samples of the polar grid used for radial averages grows with the radius up to the requested maximum.",
  "all grid sizes",
  "loop-carried state",
  [A+"FourierUtils.py:precompute_polar_grid"])
# ---------------------------------------------------------------- Fourier model
p("Closed-loop transfer functions are complementary",
  "At every temporal frequency the rejection and aliasing (closed-loop) transfer functions of the loop add up to one, a zero gain rejects nothing, and the averaged gains used in the PSDs satisfy E|h|^2 >= |E h|^2 with both non-negative.",
  "all gains, delays, rates, frequencies and wind profiles",
  "all reals",
  [A+"fourierModel.py:controller"])
p("The reconstructor inverts the sensor where it measures",
  "Without regularisation the reconstruction filter is an exact inverse of the sensor wherever it has signal and zero where it has none; with regularisation the sensor-reconstructor product lies in [0,1).",
  "all frequencies and regularisation weights",
  "all reals including singular points",
  [A+"fourierModel.py:reconstructionFilter"])
p("The residual PSD is the sum of its contributions and non-negative",
  "The residual PSD at each science direction is the fitting PSD plus, inside the corrected area, the sum of the enabled contributions; each contribution is non-negative, so enabling an error source never lowers the PSD (unless a total error is imposed, which rescales all of it).",
  "all sets of enabled errors, all grids and directions",
  "subsets of flags times real arrays",
  [A+"fourierModel.py:powerSpectrumDensity"])
p("Imposed wavefront errors are met",
  "When a total wavefront error or an extra error in nanometres is imposed, the integral of the corresponding returned PSD equals the square of that error.",
  "all grids and error values",
  "all reals; units conversions compose",
  [A+"fourierModel.py:powerSpectrumDensity", A+"fourierModel.py:extraErrorPSD"])
p("Chunked aliasing sums equal the full sum",
  "Computing the aliasing PSD in blocks of layers gives the same value as summing all layers at once, for every number of layers and block size.",
  "all numbers of layers and chunk sizes",
  "remainder blocks",
  [A+"fourierModel.py:aliasingPSD"])
p("Memory estimates are consistent",
  "The estimated peak memory is at least the final memory, is monotone in grid size, number of sources and layers, and memory reduction never increases it.",
  "all dimensions",
  "all naturals",
  [A+"fourierModel.py:estimate_memory_usage"])
p("Phase structure functions are non-negative and vanish at the origin",
  "The structure function obtained from a PSD is non-negative and zero at zero separation.",
  "all non-negative PSDs of all sizes",
  "a positive-definiteness fact about all arrays",
  [A+"fourierModel.py:phaseStructureFunction", A+"FourierUtils.py:cov2sf"])
p("No anisoplanatism towards the guide star",
  "The anisoplanatism PSD is non-negative and is zero at every frequency for a target in the guide-star direction; differential-refraction error vanishes at zenith or at the guide-star wavelength; chromatic error vanishes at the sensing wavelength.",
  "all profiles and directions",
  "all reals",
  [A+"fourierModel.py:anisoplanatismPSD", A+"fourierModel.py:differentialRefractionPSD", A+"fourierModel.py:chromatismPSD"])
p("Negative-order Bessel functions obey the reflection formula",
  "besselj__n(-n, z) = (-1)^n besselj__n(n, z).",
  "all orders and arguments",
  "parity of the order",
  [A+"fourierModel.py:besselj__n"])
# ---------------------------------------------------------------- optics / zernike
p("Zernike indices follow Noll's ordering one to one",
  "Every positive Noll index j gives radial order n and azimuthal order m with 0 <= m <= n, n - m even, n(n+1)/2 < j <= (n+1)(n+2)/2; different j give different (n, m, parity) and all valid modes are reached.",
  "all positive integers",
  "a bijection on an infinite set; a float sqrt",
  [A+"zernike.py:findNM", A+"zernike.py:nModeFromRadialOrder"])
p("The default pupil is an annulus",
  "A pupil pixel is lit exactly when its distance to the centre is at most D/2 and more than obscuration*D/2; more obstruction never adds light.",
  "all resolutions and obstructions",
  "all grid sizes",
  [A+"telescope.py:telescope.__init__"])
p("Focal anisoplanatism is physical",
  "The focal-anisoplanatism variance is zero at the ground, non-negative and grows with altitude up to the laser height, and the two functions reporting it agree.",
  "all altitudes and laser heights",
  "all reals",
  [A+"anisoplanatismModel.py:focal_anisoplanatism_variance"])
p("Refractive index is defined at every wavelength",
  "The refractive index of air is available for every positive wavelength, using the band that contains the wavelength.",
  "all wavelengths",
  "gaps between bands",
  [A+"airRefraction.py:get_refractive_index"])
p("Segment operations keep the pupil consistent",
  "Removing, adding, shifting, rotating or shrinking a segment of a segmented pupil succeeds for a valid index and changes only that segment; the other segments and the map size are preserved.",
  "all sequences of operations and all segment indices",
  "unbounded operation histories",
  [A+"pupil.py:pupil.removeSegment", A+"pupil.py:pupil.shiftSegment", A+"pupil.py:pupil.rotateSegment"])
# ---------------------------------------------------------------- fitting
p("Free and fixed parameters are merged losslessly",
  "Extracting the free parameters of a start vector and merging them back gives the same vector; merging any optimiser output keeps every fixed parameter at its start value and places the others in order.",
  "all vectors and all fixed/free masks",
  "all masks",
  ["p3/psfFitting/psfFitting.py:mini2input", "p3/psfFitting/psfFitting.py:input2mini", "p3/psfFitting/psfFitting.py:psfFitting"])
p("Fitting does not alter the caller's image",
  "Fitting a PSF model leaves the image passed by the caller unchanged.",
  "all images",
  "in-place mutation depends on type and values",
  ["p3/psfFitting/psfFitting.py:psfFitting"])
p("Image tiling is a partition",
  "Cutting an image into tiles and reassembling gives the original image when the sizes divide; tiles never overlap.",
  "all image sizes and numbers of tiles",
  "all sizes",
  ["p3/psfFitting/fittingUtils.py:segment_image_in_tiles", "p3/psfFitting/fittingUtils.py:psf_cube_to_image"])
p("PSF interpolation weights sum to one",
  "Interpolating PSFs at a position uses non-negative weights that sum to one, and reproduces the reference PSF at its own position.",
  "all positions and numbers of references",
  "all reals",
  ["p3/psfFitting/fittingUtils.py:interpolate_psfs_in_fov"])
p("Fit quality compares the sky with the model",
  "The reported sky and fit metrics (Strehl, FWHM, ...) are computed from the observed image and the fitted image respectively, for monochromatic and hyperspectral images.",
  "all images and numbers of wavelengths",
  "array aliasing in one branch",
  ["p3/psfFitting/psfFitting.py:evaluateFittingQuality"])
p("Strehl and wavefront error convert back and forth",
  "Converting a Strehl ratio in (0,1] to a wavefront error and back is the identity, as is the converse for non-negative errors, at any positive wavelength; a larger error is a smaller Strehl ratio; and exactly the ratios in (0,1] have an error.",
  "all reals",
  "all reals",
  ["p3/psfr/psfrUtils.py:sr2wfe", "p3/psfr/psfrUtils.py:wfe2sr"])
# ---------------------------------------------------------------- telemetry
p("Local time converts to a valid UT date",
  "Converting Hawaii local time to UT gives a valid calendar date and time ten hours later.",
  "all dates and times",
  "month and year ends",
  ["p3/telemetry/massdimm.py"])
p("Delayed commands are interpolated with unit weight",
  "The delayed command used to rebuild the pseudo-open-loop slopes is an affine combination of two successive commands: the weights are non-negative and sum to one.",
  "all delays",
  "fails exactly at integer delays",
  ["p3/telemetry/systemDiagnosis.py"])
p("Generated parameter files are read back",
  "Every option written by the parameter-file generator is an option that the AO system reads, and writing twice gives the same file.",
  "all telemetry inputs and histories of writes",
  "histories of writes",
  ["p3/telemetry/configFile.py", "p3/telemetry/keckUtils.py"])
# ---------------------------------------------------------------- added while modelling
p("Star coordinates given directly are the evaluated directions",
  "When star coordinates (x, y) are passed to the AO system instead of the science section's zenith/azimuth, the evaluated directions of the science sources are these coordinates.",
  "all lists of coordinates",
  "every quadrant and angle unit matters; a test on one axis cannot tell",
  [A+"aoSystem.py:aoSystem.__init__", A+"source.py:source.direction"])
p("Effective height, wind and coherence time lie between those of the layers",
  "For normalised non-negative Cn2 weights the effective height and wind speed of an atmosphere lie between the smallest and the largest layer values; the coherence time is 0.314 r0/wind and follows the wavelength with the same 6/5 power; a uniform outer scale is the effective outer scale.",
  "all profiles and wavelength histories",
  "all reals and histories",
  [A+"atmosphere.py:atmosphere"])
p("Phase statistics are consistent at zero separation",
  "The structure function is zero at zero separation, the angular structure function is zero for a zero angle, the angular covariance of a zero angle and the temporal covariance of a zero delay are the total phase variance; the von Karman spectrum is positive and decreasing in frequency.",
  "all profiles, wavelengths and separations",
  "all reals",
  [A+"atmosphere.py:atmosphere"])
p("Angular anisoplanatism depends on the separation and on the turbulence",
  "The angular anisoplanatism spectrum is non-negative, at most four times the turbulence spectrum per layer, zero towards the guide star and for ground turbulence, the same for opposite separations, and proportional to the strength of each layer.",
  "all profiles, separations and frequencies",
  "all reals",
  [A+"anisoplanatismModel.py:anisoplanatism_wfe", A+"anisoplanatismModel.py:angular_function"])
p("Anisokinetism vanishes towards the tip-tilt star",
  "The anisokinetism error is zero for a target in the direction of the tip-tilt star and symmetric in the two directions.",
  "all directions and profiles",
  "all reals",
  [A+"anisoplanatismModel.py:anisokinetism_wfe"])
p("Computing anisoplanatism leaves the guide star in place",
  "Computing the anisoplanatic structure functions leaves the laser guide star object unchanged, whether the computation succeeds or raises at any point; the focal part is evaluated with the star on axis and the angular part with the star in its place.",
  "all star positions and all crash points",
  "a test does not make each internal step fail",
  [A+"anisoplanatismModel.py:anisoplanatism_structure_function"])
p("The AO-corrected area fits the cut-off frequency and its PSD is integrated with the sampling step",
  "The number of samples of the AO-corrected area is the largest that fits in twice the largest cut-off frequency, all its frequencies are within the cut-off, and the PSD in nm^2 is the density times the area of a frequency cell.",
  "all pitches and frequency steps",
  "the mismatch appears only when the ratio is not a whole number",
  [A+"frequencyDomain.py:frequencyDomain.pitch", A+"fourierModel.py:fourierModel.powerSpectrumDensity"])
p("Off-axis targets get an anisoplanatism structure function",
  "With one guide star (natural or laser), when the anisoplanatism computation is enabled, an off-axis target gets the layer-weighted anisoplanatism structure function; an on-axis NGS target gets none.",
  "all modes, targets and profiles",
  "depends on mode and geometry",
  [A+"frequencyDomain.py:frequencyDomain.anisoplanatismPhaseStructureFunction"])
p("The estimated flux excludes the sky background",
  "The flux estimate of an image is the sum of its pixels minus the number of pixels times the sky level measured outside the inscribed circle, so an image of pure uniform sky has zero flux; rectangular images are accepted.",
  "all image sizes, contents and sky levels",
  "the bias depends on the fraction of pixels inside the circle and on the sign of the pixels",
  [A+"FourierUtils.py:getFlux"])
p("The wavelength vector covers each band evenly",
  "The vector of wavelengths has one block per distinct source wavelength, in increasing order; each block has the number of bins of the camera, evenly spaced over the bandwidth and centred on the source wavelength.",
  "all source wavelength lists, bandwidths and numbers of bins",
  "all lists and bin counts",
  [A+"FourierUtils.py:create_wavelength_vector"])
p("Resampling an image keeps its centre and its samples",
  "Resampling an image on a grid k times finer succeeds, keeps the central pixel at the centre and goes through all the original samples; resampling on the same grid returns the image.",
  "all image shapes and zoom factors",
  "square test images hide the swapped axes",
  [A+"FourierUtils.py:interpolateSupport"])
p("The mean square error measures the difference of two images",
  "The error between two images of the same size is zero exactly when they agree on the central window compared, is never negative for a positive reference flux, and does not depend on the flux unit.",
  "all image pairs, windows and norms",
  "all reals",
  [A+"FourierUtils.py:getMSE"])
p("The width of a profile is the distance between its half-maximum crossings",
  "The full width at half maximum of any one-dimensional profile is defined, and is the distance between the linearly interpolated crossings of half maximum.",
  "all profiles",
  "failures appear for peaks near the edge and for flat tops",
  [A+"FourierUtils.py:fwhm_1d"])
p("Measuring an image does not modify it",
  "Computing a radial profile, a Strehl ratio or a noisy realisation of an image leaves the caller's image unchanged.",
  "all images and options",
  "the modification is a side effect on the argument",
  [A+"FourierUtils.py:radial_profile", A+"FourierUtils.py:getStrehl", A+"FourierUtils.py:addNoise"])
p("Sources appear where they were put",
  "A source requested at an offset of (dx, dy) detector pixels appears at that offset in the PSF cube, at every wavelength and whatever the binning.",
  "all offsets, binning factors and wavelength sets",
  "the factor is wrong for one value of the binning only",
  [A+"FourierUtils.py:sf_3D_to_psf_3D", A+"FourierUtils.py:sf_3D_to_psf_4D"])
p("Residual jitter only blurs",
  "A residual jitter never raises any value of the optical transfer function, a zero jitter leaves the PSF unchanged, and the two functions that compute PSFs give the same meaning to the jitter values.",
  "all jitter values, frequencies and wavelength sets",
  "all reals",
  [A+"FourierUtils.py:sf_3D_to_psf_3D", A+"FourierUtils.py:sf_3D_to_psf_4D"])
p("Strehl ratios are percentages that decrease with turbulence",
  "The Strehl ratio of an instrument without static aberrations is between 0 and 100 percent and does not increase when the structure function grows.",
  "all non-negative structure functions, jitters and positions",
  "all reals",
  [A+"FourierUtils.py:sf_3D_to_psf_3D", A+"FourierUtils.py:sf_3D_to_psf_4D"])
p("PSFs can be computed with the default stellar parameters",
  "Computing a PSF cube without giving stellar parameters yields unit-flux, centred PSFs without background for every number of sources and wavelengths.",
  "all numbers of sources and wavelengths",
  "all shapes",
  [A+"FourierUtils.py:sf_3D_to_psf_4D"])
p("PSF metrics can be stored for every sampling",
  "The ensquared-energy curves of all PSFs of a model can be computed and stored, whatever the detector sampling.",
  "all detector sizes and samplings",
  "the array size is wrong only for undersampled detectors",
  [A+"fourierModel.py:fourierModel.getPsfMetrics"])
p("Winds of compressed layers belong to the layers that were grouped",
  "When the profile is compressed for the reconstruction, the wind speed and direction of each compressed layer lie within the range of those of the layers it groups.",
  "all wind speeds and directions and numbers of layers",
  "directions wrap around at 360 degrees, which test profiles avoid",
  [A+"FourierUtils.py:eqLayers", A+"atmosphere.py:atmosphere.__init__"])
p("Tilt and focus filters lie between zero and one",
  "The filters that remove tilt and focus from a PSD multiply every frequency by a number between zero and one, for every telescope diameter.",
  "all frequencies and diameters",
  "it is an inequality between Bessel functions over all reals",
  [A+"fourierModel.py:fourierModel.TiltFilter", A+"fourierModel.py:fourierModel.FocusFilter"])
p("Vibrations are filtered by the power rejection of the loop",
  "The residual variance of a wind-shake spectrum after the tip-tilt loop is the integral of the spectrum times the squared modulus of the rejection transfer function; it is real and non-negative.",
  "all spectra, gains, delays and frequency grids",
  "the sign and the phase depend on the spectrum",
  [A+"fourierModel.py:fourierModel.windShakePSD"])
p("Zernike modes are orthonormal over the unit disc",
  "The mode returned for a Noll index has mean square one over the unit disc (zero mean except piston), and two different indices give orthogonal modes.",
  "all pairs of Noll indices",
  "it is an integral identity between polynomials of every degree",
  [A+"zernike.py:zernike.polynomials", A+"zernike.py:zernike.findNM"])
p("Zernike maps on a pixel grid carry the requested modes",
  "Each map of the cube holds the values of the corresponding mode at the pixel coordinates inside the unit circle, in the order of the indices, and with unit normalisation has unit RMS on the pupil.",
  "all lists of indices, resolutions and pupils",
  "the order of the modes and the empty rows depend on the list",
  [A+"zernike.py:zernike.polynomials", A+"zernike.py:zernike.__init__"])
p("Static aberrations given by Zernike coefficients have the requested RMS",
  "A static aberration built from Zernike coefficients has, on the pupil, an RMS equal to the norm of the coefficients.",
  "all pupils, modes and coefficients",
  "modes are not orthogonal on every pupil",
  [A+"telescope.py:telescope.__init__"])
p("Field-dependent aberration files are recognised whatever their axis order",
  "A cube of static modes or of field-dependent maps is read with the axis of the modes recognised, whatever its position, and interpolated in the field.",
  "all cube shapes",
  "the axis is guessed from the sizes",
  [A+"telescope.py:telescope.__init__"])
p("Collecting area and airmass follow from the geometry",
  "The collecting area is that of the annulus, decreasing in the obstruction, and the airmass is the secant of the zenith angle, at least one.",
  "all diameters, obstructions and zenith angles",
  "it is an inequality over reals",
  [A+"telescope.py:telescope.area", A+"telescope.py:telescope.airmass"])
p("A segmented pupil can be built for every set of segment positions",
  "The map allocated for the pupil contains every segment, whatever the coordinates.",
  "all coordinates and segment sizes",
  "the size depends on the extreme coordinates over both axes",
  [A+"pupil.py:pupil.__init__", A+"pupil.py:pupil.makePupil"])
p("Padding or trimming a segmented pupil keeps segments in place",
  "After zero-padding or removing the dark border, an operation on a segment acts on the pixels of that segment, and no lit pixel has been lost.",
  "all pupils and paddings",
  "the error appears only in a later operation",
  [A+"pupil.py:pupil.zeroPad", A+"pupil.py:pupil.removeZeroBorder"])
p("Reflectivity and phase of a segment are independent",
  "Changing the reflectivity of a segment scales its modulus and keeps its phase and shape; changing its phase keeps its modulus; other segments are untouched.",
  "all pupils, segments, phases and reflectivities, in any order",
  "it depends on the history of operations",
  [A+"pupil.py:pupil.applyReflexivitySegment", A+"pupil.py:pupil.applyPhaseErrorSegment"])
p("Filling gaps only lights pixels between segments",
  "Filling the gaps lights pixels that lie between segments, keeps lit pixels as they are, and lights nothing outside the outline of the pupil.",
  "all segment shapes and layouts",
  "it depends on the layout",
  [A+"pupil.py:pupil.fillGap", "p3/aoSystem/segment.py:segment.makeSegment"])
p("Spiders given by the user are drawn, and petals partition the pupil",
  "Every spider given is drawn, and the petals it separates are disjoint maps of value one that together cover the mask.",
  "all numbers of spiders, coordinates and masks",
  "the labels come from a connected-component search over the whole mask",
  [A+"spiders.py:spiders.__init__", A+"spiders.py:spiders.makeSpiders"])
p("Bounds of a fit are honoured and fixed parameters are kept",
  "The fitted parameters stay inside the bounds given by the user (or by the model by default), and parameters declared fixed come back exactly as given.",
  "all start vectors, masks, bounds, flux conventions and optimiser answers",
  "the optimiser may return any point of the box",
  ["p3/psfFitting/psfFitting.py:psfFitting"])
p("The residual image is in units of the observed image",
  "The residual image returned by a fit, once multiplied back by the normalisation, is the difference between the fitted and the observed image in units of the latter.",
  "all images, models and normalisations",
  "the scale cancels only for every normalisation",
  ["p3/psfFitting/psfFitting.py:psfFitting"])
p("The PSF returned by a fit has unit flux and neither offset nor background",
  "The PSF returned beside the fitted image is the model with the fitted PSD parameters, a single star of unit flux, no offset and no background.",
  "all numbers of stars, wavelengths, frames and parameter layouts",
  "the indices of the fluxes depend on all the sizes",
  ["p3/psfFitting/psfFitting.py:psfFitting"])
p("Confidence intervals of fitted parameters follow from the residual and the Jacobian",
  "The half-width returned for each free parameter is the Student quantile times the square root of the residual variance times the diagonal of the inverse of the normal matrix; it exists exactly for more data than parameters and a full-rank Jacobian, is zero for an exact fit and scales with the residual.",
  "all Jacobians and residuals of any size",
  "it is a linear-algebra identity over all matrices",
  ["p3/psfFitting/confidenceInterval.py:confidence_interval"])
p("Bounds narrowed after a first fit still contain the fitted values",
  "Updating the bounds from a first fit gives an interval around each fitted value, inside the model bounds.",
  "all fitted values and precisions",
  "the precision may be anything, including the code for no precision",
  ["p3/psfao21/psfao21.py:psfao21.update_bounds"])
p("The image model superposes stars without losing flux",
  "The image of several stars is the sum of their PSFs and the background, with pixels above the saturation replaced by it, and the model's own cube of PSFs is not altered.",
  "all cubes of PSFs, numbers of stars and saturation levels",
  "aliasing shows only on later uses of the cube",
  ["p3/psfFitting/imageModel.py:imageModel"])
p("Better fits weigh more in the interpolation of PSFs",
  "At equal distances of the target, the PSF of the better fit gets the larger weight, and the quality of fits is compared within a tile.",
  "all fit qualities, positions and numbers of PSFs per tile",
  "a single PSF per tile hides the weights",
  ["p3/psfFitting/fittingUtils.py:interpolate_psfs_in_fov"])
p("Candidates for the fit are the best stars of each tile",
  "The selected stars of a tile lie inside it without its border, within the magnitude range, are as many as requested, and no other star that qualifies is better by the criterion; without limits of magnitude all stars qualify.",
  "all star lists, tiles, borders, magnitude limits and criteria",
  "the order of distances is arbitrary",
  ["p3/psfFitting/fittingUtils.py:select_candidates_for_fitting", "p3/psfFitting/fittingUtils.py:generate_psfs_grid_from_image"])
p("Selected stars can be extracted",
  "A window of the requested size, centred on the pixel that holds the star, is extracted for every selected star.",
  "all star positions, tile layouts and window sizes",
  "rounding matters only for positions close to a border",
  ["p3/psfFitting/fittingUtils.py:extract_multiple_psf"])
p("PSFs are interpolated at the centres of the tiles",
  "The points at which PSFs are interpolated are the centres of the tiles, counted from the centre of the image.",
  "all image sizes and numbers of tiles",
  "rounding depends on parities and remainders",
  ["p3/psfFitting/fittingUtils.py:generate_psfs_grid_from_image"])
p("The field value of a parameter lies within its estimates",
  "A parameter assumed constant over the field gets the mean of its estimates weighted by their precision, between the smallest and the largest one, at every position.",
  "all estimates and errors",
  "special codes and fixed parameters give special errors",
  ["p3/psfFitting/fittingUtils.py:create_spatial_variations_psf_model", "p3/psfFitting/fittingUtils.py:compute_psfs_grid"])
p("Adjusting a parameter file to an image describes that image",
  "After the parameter file is adjusted to an image, the options read by the AO system describe the pupil mask, static aberrations, pupil angle, wavelength and field of that image, and all others are unchanged.",
  "all files and images", "which options are read is spread over several modules",
  ["p3/psfFitting/fittingUtils.py:adjust_init_file", "p3/psfFitting/fittingUtils.py:choose_stat_modes", "p3/aoSystem/aoSystem.py:aoSystem"])
p("The seeing monitor returns the measurement closest in time",
  "The value given for a time is the one of the recorded row closest in time; beyond one hour it is flagged as missing.",
  "all tables and times", "rows around midnight and gaps of any length",
  ["p3/telemetry/massdimm.py:DIMM.indexTime"])
p("The ground layer completes the turbulence profile",
  "Combining the total seeing and the upper profile gives non-negative layers, which integrate to the total seeing.",
  "all seeings and profiles", "the two instruments are noisy, each may exceed the other",
  ["p3/telemetry/massdimm.py:CombineMASSandDIMM"])
p("The noise covariance estimated from telemetry is a covariance",
  "The covariance of the noise estimated by autocorrelation is symmetric and positive semidefinite, equals half the mean square of the differences of frames separated by the shift, and is zero for commands that do not change.",
  "all telemetry histories, numbers of frames and actuators and shifts", "positivity is over all combinations of actuators",
  ["p3/telemetry/systemDiagnosis.py:systemDiagnosis.get_noise_variance"])
p("Transfer functions of the loop from telemetry are consistent",
  "Closed-loop and rejection functions sum to one, the noise function is servo times rejection, delays keep amplitudes and have the phase of the delay, the sensor averages over a frame, and frequencies go from the inverse of the duration to half the frame rate.",
  "all frequencies, gains, delays and durations", "continuous ranges of frequencies",
  ["p3/telemetry/systemDiagnosis.py:systemDiagnosis.temporal_transfer_function"])
p("Confidence quantiles decrease with the number of samples",
  "The quantiles of the Student law used for the regression increase with the probability and decrease with the number of degrees of freedom.",
  "all rows of the table and sample sizes", "the table is typed by hand",
  ["p3/telemetry/systemDiagnosis.py"])
p("Decorrelation time and wind speed follow from exact data",
  "If the logarithm of the correlation is a line the decorrelation time is where the line crosses the threshold; the wind speed is positive for positive times, inversely proportional to them, and inverts the law of decorrelation of radial orders.",
  "all lines, thresholds, orders and times", "all reals",
  ["p3/telemetry/systemDiagnosis.py"])
p("Decimating telemetry keeps statistics",
  "Keeping one frame out of several keeps the covariance of a stationary series (it is the covariance of the kept frames).",
  "all series and decimation factors", "only visible for factors above one",
  ["p3/telemetry/telemetryKeck.py", "p3/telemetry/systemDiagnosis.py"])
p("Headers give the delays, calibrations and filters of an observation",
  "Delays are known for all programs of the camera; each date selects the calibration that exists for it; the wavelengths of a filter are strictly increasing.",
  "all headers, dates and filter curves", "dates and curves are data",
  ["p3/telemetry/keckUtils.py"])
p("The structure function of modal coefficients is that of their covariance",
  "The structure function computed from the covariance of modal coefficients is, at each separation, the mean over the pairs of lit pixels of the variance of the phase difference; it is non-negative, vanishes at zero separation, and exists for a perfect correction too.",
  "all pupils, modes, covariances and singular value decompositions", "depends on the order of the singular values and on the pupil's grey levels",
  ["p3/psfr/psfrUtils.py:modes2Otf", "p3/psfr/psfR.py:residual_phase_structure_function"])
p("The error breakdown of a reconstructed PSF is an orthogonal sum",
  "The total error of the report is the root sum square of the reported independent terms and at least each of them; every term is a number for a physical system; noise and servo-lag share the measured residual; the Marechal Strehl is a percentage.",
  "all telemetry, OTFs and structure functions", "all reals; differences of squares can be negative",
  ["p3/psfr/psfR.py:get_error_breakdown"])
p("The structure function of jitter is a quadratic form",
  "The structure function of residual jitter is the quadratic form of the tip-tilt covariance at the separation turned by the pupil angle: zero at the origin, even, non-negative, monotone in the covariance, and insensitive to rotation when the jitter is isotropic.",
  "all measurements, noise covariances, angles and separations", "all reals",
  ["p3/psfr/psfR.py:jitter_phase_structure_function"])
p("The pixel attenuates but loses no frequency",
  "The transfer function of the pixel is one at zero frequency, at most one in modulus, even, and above (2/pi)^2 over the band of the detector.",
  "all telescopes, wavelengths, pixel scales and frequencies in the band", "all reals",
  ["p3/psfr/psfR.py:pixel_optical_transfer_function"])
p("The reconstructed structure function sums its contributions",
  "The total structure function is the weighted sum of residual, jitter, fitting, aliasing and (off axis) anisoplanatism; it is non-negative; and the PSF reported with the breakdown uses the profile of the parameter file with unit gains.",
  "all gains, profiles and separations, any number of (reconstructed) layers", "wrong only for some numbers of layers",
  ["p3/psfr/psfR.py:phase_structure_function", "p3/psfr/psfR.py:get_error_breakdown"])
p("The zonal transfer function averages over couples of points",
  "The transfer function from a covariance between points is the normalised sum over the couples at that separation of exp(-D/2): one at zero separation, between zero and the fraction of couples elsewhere; the points cover the aperture and match the grid of separations.",
  "all covariances, apertures and pitches", "all positive semi-definite matrices; fails when the pitch does not divide the aperture",
  ["p3/psfr/psfrUtils.py:mkotf", "p3/psfr/psfrUtils.py:pointWiseLocation", "p3/psfr/psfrUtils.py:zonalCovarianceToOtf"])
p("Open-loop slopes add the delayed commands",
  "Pseudo-open-loop slopes add to each slope the command of the same actuator one and two frames before, with weights that sum to one.",
  "all series, actuators and delays", "wrong shift of a flattened array",
  ["p3/psfr/psfrUtils.py:getOLslopes"])
p("The tomographic reconstructor is the minimum-variance estimator",
  "At every spatial frequency the reconstructor gives the linear estimate of the layers with the least error covariance for the noise and turbulence it is given; the error does not grow when noise decreases or a guide star is added; and it is exact without noise when the stars separate the layers.",
  "all guide stars, layers, noise covariances, frequencies and pseudo-inverses", "an optimum over all linear estimators",
  ["p3/aoSystem/fourierModel.py:fourierModel.tomographicReconstructor"])
p("Noise of different sensors is independent",
  "The noise covariance used for tomography is diagonal with the variance of each sensor; one given variance applies to each sensor.",
  "all numbers of sensors and lists of variances", "numpy broadcasts silently",
  ["p3/aoSystem/fourierModel.py:fourierModel.tomographicReconstructor"])
p("The projection on the mirrors has the least error over the field",
  "The commands of the mirrors minimise the weighted error over the optimisation directions plus a regularisation that vanishes with the inverse of the conditioning.",
  "all mirrors, layers, directions, weights and frequencies", "an optimum over all commands; wrong only for asymmetrical directions",
  ["p3/aoSystem/fourierModel.py:fourierModel.optimalProjector"])
p("Mirrors do nothing beyond their cut-off",
  "A mirror gets no command at frequencies beyond its cut-off; where all are beyond, no noise is injected and the residual is the turbulence.",
  "all mirrors and frequencies", "all frequencies",
  ["p3/aoSystem/fourierModel.py:fourierModel.optimalProjector", "p3/aoSystem/fourierModel.py:fourierModel.spatioTemporalPSD"])
p("Tomographic spectra are physical",
  "The residual and noise spectra of a tomographic system are non-negative, the residual vanishes for a noiseless system without wind whose stars separate the layers, wind blurs and displaces the measurements, heights are stretched for laser stars, and the spectra exist for all systems.",
  "all systems, winds and frequencies", "all reals; fails for several stars without noise",
  ["p3/aoSystem/fourierModel.py:fourierModel.spatioTemporalPSD", "p3/aoSystem/fourierModel.py:fourierModel.noisePSD", "p3/aoSystem/fourierModel.py:fourierModel.powerSpectrumDensity"])
# ---- properties narrowed to what holds, the rest stated separately
p('A breakdown is reported for every system that can be built',
  'Every physical system with a wavefront sensor gets a complete error breakdown.',
  'all systems', 'depends on the form in which the noise is given',
  ['p3/aoSystem/aoSystem.py:aoSystem.errorBreakdown'])
e('C17', statement='A detector is refused when its spectral dispersion (its first row, the one that is used per wavelength) and its transmittance have different lengths; an accepted detector has one wavelength per transmittance, and a field of view in arcsec of pixel scale times pixels for each entry.')
p('Both rows of a spectral dispersion match the transmittance',
  'A detector whose dispersion has a second row (the other axis) of a different length is refused.',
  'all list lengths', 'only visible for dispersions along two axes',
  ['p3/aoSystem/detector.py:detector.__init__'])
e('C19', statement='For every list of band centres with a bandwidth and a number of bins per band, the wavelength vector has one block of bins per centre, in order, each starting at centre - bandwidth/2 with a constant increasing step and, with two bins or more, ending at centre + bandwidth/2; the centres are the distinct wavelengths of the sources in increasing order.')
p('The frequency domain has the wavelengths of the observation',
  'The frequency domain is built for every number of bands and bins with the wavelength vector of the observation, and a single bin is the centre of its band.',
  'all numbers of bands and bins', 'the copy in the frequency domain is only exercised for some sizes',
  ['p3/aoSystem/frequencyDomain.py:frequencyDomain.wvl', 'p3/aoSystem/FourierUtils.py:create_wavelength_vector'])
e('C22', statement='Every spatial frequency of the grid is either in the corrected area or outside it, never both, for circular and square control areas; the fitting error is zero inside the corrected area and the full atmospheric spectrum outside; noise, aliasing, servo-lag, tomographic error, anisoplanatism and differential refraction are zero outside.')
p('Chromatism is confined to the corrected area',
  'The chromatic error is zero outside the corrected area, so that the residual never exceeds the turbulence there.',
  'every frequency', 'only visible in the corners of a circular area',
  ['p3/aoSystem/fourierModel.py:fourierModel.chromatismPSD'])
e('C24', title='Spatial frequency arrays are centred')
p('Angular frequency arrays are centred',
  'The array of angular frequencies of size n has constant steps and contains the zero frequency.',
  'all sizes', 'parity',
  ['p3/aoSystem/FourierUtils.py:shift_array'])
e('C26', title='Cropping keeps the centre, enlarging keeps the flux', statement='Cropping selects a centred window (margins equal up to one pixel) fully inside the image; enlarging pads with zeros, equally on both sides, and keeps the total flux.')
p('Cropping inverts enlarging',
  'Cropping an image enlarged by a factor by the same factor gives back the image.',
  'all sizes and factors', 'parity of the padding',
  ['p3/aoSystem/FourierUtils.py:cropSupport', 'p3/aoSystem/FourierUtils.py:enlargeSupport'])
p('PSFs exist at every wavelength of the observation',
  'The sampling of a PSF by the detector succeeds at every wavelength and for every detector size.',
  'all sizes, binning factors and wavelength sets', 'fails only for wavelengths that need more binning than the reference',
  ['p3/aoSystem/FourierUtils.py:sf_3D_to_psf_3D', 'p3/aoSystem/FourierUtils.py:sf_3D_to_psf_4D'])
e('C33', statement='The model parameter vector is cut into atmosphere, phase, jitter, photometry, astrometry, background and static parts that are disjoint, contiguous and in order; photometry and astrometry are arranged by star and wavelength.')
p('Bounds and flux index of a fit match the parameter vector',
  'The bounds returned for the optimiser have one pair per parameter, and the fitting code finds the flux where the model decodes it.',
  'all numbers of layers, stars, wavelengths, frames and modes, for the three models', 'lengths agree for the usual sizes',
  ['p3/aoSystem/fourierModel.py:fourierModel.define_bounds', 'p3/psfr/psfR.py:psfR.define_bounds', 'p3/psfao21/psfao21.py:psfao21.define_bounds', 'p3/psfFitting/psfFitting.py'])
e('C34', statement='The piston filter takes values in [0,1], so multiplying a PSD by it never increases it, and at zero frequency it is at most (pi D 1e-10)^2 (below 1e-16 for telescopes up to 39 m).')
e('C37', statement='At every temporal frequency the rejection and aliasing (closed-loop) transfer functions of the loop add up to one (where the denominator is below the machine precision, which replaces it, to less than one), a zero gain rejects nothing, and the averaged gains used in the PSDs satisfy E|h|^2 >= |E h|^2 with both non-negative.')
p('The noise gain of the loop is non-negative',
  'The noise gain is the integral of the squared noise transfer function over the band of the loop: non-negative, exact for affine functions, proportional to the length of the band for flat ones.',
  'all loop rates and transfer functions', 'only slow loops fail',
  ['p3/aoSystem/fourierModel.py:fourierModel.controller'])
e('C38', statement="Without regularisation the reconstruction filter is an exact inverse of the sensor wherever it has signal, and zero at the central frequency; with regularisation the sensor-reconstructor product lies in [0,1); the pyramid's sensitivity is bounded and has its zones.")
p('The reconstructor is a number where the sensor is blind',
  'At frequencies where the sensor has no signal the reconstruction filter is zero.',
  'all frequencies', 'isolated frequencies',
  ['p3/aoSystem/fourierModel.py:fourierModel.reconstructionFilter'])
e('C40', title='Extra wavefront errors are met', statement='When an extra error in nanometres is given, the integral of the corresponding PSD equals the square of that error, and directions of low-order stars get the error of their own star.')
p('The imposed total wavefront error is met',
  'When a total wavefront error in nanometres is imposed, the integral of the residual PSD equals its square.',
  'all grids and errors', 'needs the normalisation of the grid',
  ['p3/aoSystem/fourierModel.py:fourierModel.powerSpectrumDensity'])
e('C49', statement="A refractive index is returned for each wavelength of every non-empty list, in order and depending only on that wavelength; below 1.3 micrometres it is Ciddor's, positive above 0.2 micrometres and decreasing, and within an infrared band it is Mathar's with the table of that band, physical in the reference atmosphere; the bands do not overlap.")
p('No table of refraction is extrapolated',
  'Wavelengths for which there is no model of the refractive index are refused.',
  'all wavelengths', 'gaps between bands and the far ultraviolet',
  ['p3/aoSystem/airRefraction.py'])
e('C50', statement='Building a segmented pupil adds every segment; removing a segment darkens exactly its pixels; shifting one within the limits and inside the map moves it unchanged; in all cases the other segments and the map size are preserved.', quantifier='all pupils, segments and displacements')
p('Segments can be rotated, shrunk and moved as far as the map allows',
  'Rotating or shrinking a segment succeeds; a displacement is accepted exactly when the segment stays inside the map, and a refused operation leaves the pupil as it was.',
  'all pupils, segments and displacements', 'limits taken from the wrong axis',
  ['p3/aoSystem/pupil.py'])
e('C51', quantifier='all vectors of floats and all fixed/free masks')
p('Start vectors may be integers',
  'A start vector of integers gives the same fit as the same vector of floats.',
  'all vectors and masks', 'depends on the type of the array',
  ['p3/psfFitting/psfFitting.py:mini2input'])
e('C53', statement='Cutting an image into n x n tiles gives contiguous parts in row order; a pixel belongs to at most one tile, and to one when n divides the size; reassembling the tiles of a square image whose size is divided by n gives back the image; centres of tiles are in their middle; a number of square tiles that is not a square is refused.')
p('No pixel is lost or scrambled by tiling',
  'Every pixel is in a tile, and reassembling rectangular tiles puts them side by side or is refused.',
  'all sizes and numbers of tiles', 'only for rectangular images or remainders',
  ['p3/psfFitting/fittingUtils.py'])
e('C59', title='Generated parameter files keep what was written', statement='Writing the parameter file succeeds over any existing file; every option given by the telemetry reads back with its value, options not named keep theirs, and writing twice gives the same file.')
p('Generated parameter files describe the telemetry to the AO system',
  'Every option written is one that the AO system reads, and a file written over an older one describes the new telemetry only.',
  'all telemetry inputs and histories of writes', 'needs a history of two writes',
  ['p3/telemetry/configFile.py'])
e('C62', statement='The structure function is zero at zero separation, the angular structure function is zero for a zero angle, the angular covariance of a zero angle is the total phase variance, after any history of wavelengths; the variance is positive and proportional to the strength; the von Karman spectrum is positive and decreasing in frequency.')
p('The temporal covariance at zero delay is the variance',
  'The temporal covariance of a zero delay is the total phase variance.',
  'all profiles', 'only for several layers',
  ['p3/aoSystem/atmosphere.py:atmosphere.temporalCovariance'])
e('C63', title='Angular anisoplanatism depends on the separation', statement='The angular anisoplanatism spectrum is non-negative, at most four times the turbulence spectrum per layer, zero towards the guide star and for ground turbulence, and the same for opposite separations.')
p('Angular anisoplanatism depends on the turbulence',
  'The angular anisoplanatism spectrum is proportional to the strength of each layer.',
  'all profiles', 'all reals',
  ['p3/aoSystem/anisoplanatismModel.py'])
e('C66', title='The AO-corrected area fits the cut-off frequency', statement='Cut-off frequencies given by the user (none of them zero) are used, otherwise half the inverse of each pitch; the number of samples of the AO-corrected area is the largest that fits in twice the largest cut-off frequency, and all its frequencies are within the cut-off.')
p('The PSD is integrated with the sampling step',
  'The PSD in nm^2 is the density times the area of a frequency cell.',
  'all pitches and frequency steps', 'equal when the ratio is whole',
  ['p3/aoSystem/frequencyDomain.py'])
e('C69', statement='The vector of wavelengths has one block per distinct source wavelength, in increasing order; each block has the number of bins of the camera and, with two bins or more, is evenly spaced over the bandwidth and symmetric about the source wavelength.')
e('C83', statement='Each map of the cube holds the values of the corresponding mode at the pixel coordinates inside the pupil and zero outside, on a regular symmetric grid of the unit square, with the amplitude of Noll.')
p('Zernike maps can be given unit norm',
  'With unit normalisation each map of the cube has unit norm.',
  'all lists of indices and resolutions', 'one mode works',
  ['p3/aoSystem/zernike.py'])
e('C91', title='Petals partition the pupil', statement='The petals separated by spiders are disjoint maps of value one that together cover the lit pixels of the mask.')
p('Spiders given by the user are drawn',
  'Every spider given is drawn.',
  'all numbers of spiders and coordinates', 'needs coordinates without a resolution',
  ['p3/aoSystem/spiders.py'])
e('C92', title='Fixed parameters and bounds are honoured by a masked fit', statement='In a fit by the trust-region method with a mask, parameters declared fixed come back exactly as given and each free one lies within the bounds in force for its own position; without mask and bounds the fit stays within the bounds of the model.', quantifier='all float start vectors, masks, bounds, flux conventions and optimiser answers within the bounds handed over')
p('Bounds given by the user are always honoured',
  'A fit with bounds succeeds and stays inside them, whatever the method, the mask and the normalisation.',
  'all options', 'bounds without a mask, other methods',
  ['p3/psfFitting/psfFitting.py'])
e('C97', statement="Stacking PSFs keeps the total intensity and the caller's array; images of at least three dimensions are clipped at the saturation; when something is summed the array of the caller is untouched.")
p('Saturation applies to every image and alters no array of the model',
  "Every image is clipped at the saturation, and the model's own cube of PSFs is never altered.",
  'all cubes and saturation levels', 'depends on the number of dimensions',
  ['p3/psfFitting/imageModel.py'])
e('C99', statement='The selected stars of a tile lie inside it without its border, within the magnitude range, are as many as requested, and no other star that qualifies is better by the criterion; the selection succeeds exactly when enough stars qualify and the criterion is known.')
p('Without limits of magnitude all stars qualify',
  'The selection of candidates without limits of magnitude, as the calibration makes it by default, succeeds.',
  'all star lists', 'default arguments',
  ['p3/psfFitting/fittingUtils.py'])
e('C107', statement='Closed-loop and rejection functions sum to one, the noise function is servo times rejection, delays keep amplitudes, the last frequency is half the frame rate, and integrals of spectra are non-negative.')
p('Delays, sensors and frequencies of the telemetry have their physical values',
  'A delay has the phase of the delay, the sensor averages over a frame, and the first frequency is the inverse of the duration.',
  'all rates, delays and durations', 'all reals',
  ['p3/telemetry/systemDiagnosis.py:systemDiagnosis.temporal_transfer_function'])
e('C111', title='Headers give the delays of an observation', statement='Delays are known for the eight programs of the camera and only them, and exceed the time of the camera.', quantifier='all headers')
p('Dates select the calibration that exists for them',
  'Each date selects the non-common-path calibration of its period.',
  'all dates', 'four months are known',
  ['p3/telemetry/keckUtils.py'])
p('The wavelengths of a filter curve are strictly increasing',
  'Equal wavelengths of a filter curve are separated so that the curve can be interpolated.',
  'all filter curves', 'needs three equal wavelengths',
  ['p3/telemetry/keckUtils.py'])
e('C114', quantifier='all series of measurements, positive semi-definite covariances, angles and separations')
p('Jitter corrected for noise only blurs',
  'After subtraction of the noise the structure function of jitter is non-negative.',
  'all measurements and noise covariances', 'needs more noise than signal',
  ['p3/psfr/psfR.py:jitter_phase_structure_function'])
e('C116', statement='The total structure function is the weighted sum of residual, jitter, fitting, aliasing and (with one strength per layer) anisoplanatism; it is non-negative and vanishes where they do.')
p('The PSF reported with the breakdown uses the profile of the parameter file',
  'The PSF computed with the breakdown has the turbulence of the parameter file and unit gains, and off-axis anisoplanatism is included for every profile.',
  'any number of (reconstructed) layers', 'wrong only for some numbers of layers',
  ['p3/psfr/psfR.py:get_error_breakdown'])
e('C117', statement='The transfer function from a covariance between points is the normalised sum over the couples at that separation of exp(-D/2): one at zero separation, between zero and the fraction of couples elsewhere.', quantifier='all covariances and lists of couples')
p('The points of the zonal covariance match the grid of separations',
  'The points cover the aperture and are as many as the grid of separations assumes.',
  'all apertures and pitches', 'fails when the pitch does not divide the aperture',
  ['p3/psfr/psfrUtils.py:pointWiseLocation', 'p3/psfr/psfrUtils.py:zonalCovarianceToOtf'])
e('C123', statement='The residual and noise spectra of a tomographic system are non-negative quadratic forms, the residual vanishes for a noiseless system without wind whose stars separate the layers, wind blurs and displaces the measurements, and heights are stretched for laser stars.')
p('The noise spectrum fits the array of all systems',
  'The noise spectrum can be stored for every number of guide stars and sources, with and without noise.',
  'all numbers of stars and sources, all variances', 'several stars without noise',
  ['p3/aoSystem/fourierModel.py:fourierModel.noisePSD', 'p3/aoSystem/fourierModel.py:fourierModel.powerSpectrumDensity'])
e('C54', statement='Interpolating PSFs at a position other than those of the references uses the nearest ones with positive weights that sum to one, keeps their common flux and stays between their values.', quantifier='all positions away from the references, all numbers of references')
p('Interpolation reproduces the references',
  'At the position of a reference PSF the interpolated PSF is that reference.',
  'all references', 'isolated positions',
  ['p3/psfFitting/fittingUtils.py'])
e('C55', statement='The reported sky and fit metrics (Strehl, FWHM, ...) of a two-dimensional image are computed from the observed image and the fitted image respectively.', quantifier='all monochromatic images and models')
p('Fit quality of a cube compares the sky with the model at each wavelength',
  'The reported metrics of a hyperspectral cube are, at each wavelength, those of the observed and of the fitted image.',
  'all cubes and numbers of wavelengths', 'arrays sharing memory',
  ['p3/psfFitting/psfFitting.py'])
p('The transfer function of a pupil is a Hermitian autocorrelation',
  'For every non-negative pupil transmission and every phase, the OTF has its peak at the central pixel (total power over the number of pixels), is nowhere larger in modulus, is Hermitian about the centre, and is real and non-negative without aberrations.',
  'all pupils, phases and paddings', 'Cauchy-Schwarz over arrays of any size',
  ['p3/aoSystem/FourierUtils.py:pupil2otf', 'p3/aoSystem/FourierUtils.py:fftCorrel'])
p('With a sampling of two or more nothing is folded',
  'With an oversampling of at least two the OTF at each separation is the sum over the pupil of the field times its shifted conjugate, the field being zero outside the pupil, and it is zero for separations of at least the pupil size.',
  'all pupils, phases, samplings >= 2 and separations', 'all sizes; periodic transforms fold otherwise',
  ['p3/aoSystem/FourierUtils.py:pupil2otf', 'p3/aoSystem/FourierUtils.py:enlargeSupport'])
p('The PSF of a pupil is its diffraction pattern',
  'PSFs computed from an OTF have unit sum; with a sampling of at least two the PSF of a pupil is at every pixel the squared modulus of the Fourier transform of the pupil field at the position of the pixel (centred between the four central pixels for even sizes), normalised, hence never negative.',
  'all non-opaque pupils, phases, samplings >= 2, even and odd sizes', 'equality of two transforms for every array',
  ['p3/aoSystem/FourierUtils.py:pupil2psf', 'p3/aoSystem/FourierUtils.py:otf2psf'])
p('Static aberrations never improve the image',
  'The instrumental OTF is one at its centre and at most the diffraction-limited OTF in modulus at every frequency, so that the Strehl ratio with static aberrations is at most 100 percent.',
  'all pupils, static phases, structure functions, jitters and positions', 'inequality at every frequency',
  ['p3/aoSystem/FourierUtils.py:getStaticOTF', 'p3/aoSystem/FourierUtils.py:sf_3D_to_psf_3D'])
p('Static aberrations are seen in the PSF as they are',
  'A static OPD map gives the PSF of that map: a tilt moves the image, and a map and its opposite give mirrored images.',
  'all static maps', 'symmetrical test maps (defocus, astigmatism) do not reveal it',
  ['p3/aoSystem/FourierUtils.py:getStaticOTF'])
p('Static modes given by the user are applied',
  'The coefficients of static modes are applied (in nm) to the modes of the telescope, on top of the OPD map, or an error is raised.',
  'all numbers of modes and coefficients', 'all lengths of lists',
  ['p3/aoSystem/FourierUtils.py:getStaticOTF'])
p('The telescope OTF is the autocorrelation of the pupil, centred',
  'telescopeOtf returns the OTF of the pupil with its peak at the central pixel; the Strehl ratio divides by the sum of it.',
  'all pupils', 'wrong by a shift, and in amplitude only for asymmetrical pupils',
  ['p3/aoSystem/FourierUtils.py:telescopeOtf', 'p3/aoSystem/FourierUtils.py:getStrehl'])
p('The OTF of an image never amplifies',
  'The OTF computed from an image without negative pixels is one at zero frequency and at most one in modulus.',
  'all non-negative images', 'all arrays',
  ['p3/aoSystem/FourierUtils.py:psf2otf'])
p('OTFs of any shape can be transformed',
  'otf2psf accepts square and rectangular arrays.',
  'all shapes', 'fails for rectangular arrays with an even number of rows only',
  ['p3/aoSystem/FourierUtils.py:otf2psf'])
p('Recentring brings the peak to the centre',
  'centerPsf moves the image by the offset of its peak from the centre.',
  'all offsets', 'all positions',
  ['p3/aoSystem/FourierUtils.py:centerPsf'])
p('The full Fourier transform follows from half of it',
  'From the half transform of a real image the full transform is obtained, for every even or odd size.',
  'all real images of all sizes', 'index arithmetic for every parity and size',
  ['p3/aoSystem/FourierUtils.py:_rfft2_to_fft2'])
p('The structure function of a phase map is a mean over pairs of points',
  'The structure function of a phase map at a separation is the mean, over the pairs of pupil points so separated, of the squared phase difference: it is never negative and zero for a constant phase.',
  'all phase maps, pupils and separations', 'all arrays',
  ['p3/aoSystem/FourierUtils.py:phase_to_structure_function'])
p('The PSFAO21 structure function is that of its PSD',
  'The on-axis structure function of the PSFAO21 model is twice the sum of the PSD times one minus the cosine of the phase, over the squared support: non-negative, zero at the centre, at most four times the variance.',
  'all non-negative PSDs of all sizes, telescopes and samplings', 'all arrays, all parities of the size',
  ['p3/psfao21/psfao21.py:get_opd_structure_function'])
p('PSFAO21 applies anisoplanatism to off-axis stars',
  'When the system has an anisoplanatism function, the structure function of each off-axis star is the on-axis one plus the anisoplanatism of that star for the fitted profile.',
  'all numbers of layers, sources, sizes and anisoplanatism functions', 'a test has one size and one profile',
  ['p3/psfao21/psfao21.py:get_opd_structure_function', 'p3/aoSystem/frequencyDomain.py:anisoplanatismPhaseStructureFunction', 'p3/aoSystem/FourierUtils.py:sort_params_from_labels'])
p('PSFAO21 returns one PSF per source and wavelength',
  'Calling the model at several wavelengths returns an array with one PSF for each source and wavelength, with or without the stellar parameters in the vector.',
  'all numbers of sources, bands and bins', 'all combinations of lengths',
  ['p3/psfao21/psfao21.py:__call__', 'p3/aoSystem/FourierUtils.py:sort_params_from_labels', 'p3/aoSystem/FourierUtils.py:sf_3D_to_psf_3D'])
p('The reported wavefront error is that of the PSF',
  'After a call the reported wavefront error in nm is the rms of the phase in the PSFs returned.',
  'all wavelengths and PSDs', 'all lists of wavelengths',
  ['p3/psfao21/psfao21.py:get_power_spectrum_density', 'p3/psfao21/psfao21.py:__call__'])
p('Building PSFAO21 leaves the description of the observation as it is',
  'The model has one frequency domain per wavelength and leaves wavelengths, number of bins and bandwidth of the AO system unchanged, so that one background per wavelength is decoded.',
  'all wavelength vectors', 'a change of state seen only by later calls',
  ['p3/psfao21/psfao21.py:__init__', 'p3/psfao21/psfao21.py:__call__', 'p3/aoSystem/FourierUtils.py:sort_params_from_labels'])
p('Bounds of PSFAO21 are intervals that can be updated',
  'Each lower bound is below its upper bound, position bounds are symmetric, and the bounds can be updated after a first fit at any number of wavelengths.',
  'all numbers of layers, sources, wavelengths, pixels and modes', 'all sizes',
  ['p3/psfao21/psfao21.py:define_bounds', 'p3/psfao21/psfao21.py:update_bounds'])
p('The error breakdown is the integral of the PSD',
  'For every source, the square of the total error reported by the breakdown is the integral of the PSD computed for that source plus the squares of the static aberrations and of the jitter; each term is the integral of its part of the PSD.',
  'all grids, sources, PSD contributions and flags', 'all configurations of guide stars and flags',
  ['p3/aoSystem/fourierModel.py:errorBreakDown', 'p3/aoSystem/fourierModel.py:powerSpectrumDensity'])
p('A breakdown is reported for every configuration',
  'Asking for the error breakdown gives, whatever the loop gain, the guide stars and the optional terms, an error for each source; the tomographic and servo-lag errors make up the spatio-temporal one.',
  'all configurations', 'combinations of flags and guide stars',
  ['p3/aoSystem/fourierModel.py:errorBreakDown'])
p('Marechal Strehl ratio and static error',
  'The Marechal Strehl ratio of the breakdown is 100 exp(-s^2) for the rms phase s at the reference wavelength: in (0,100], 100 only without error, decreasing with the error. The static error does not depend on piston, is zero exactly for a constant map, and is the root of mean square minus squared mean. The jitter error is the rms over a circular aperture of a tilt by the mean full width.',
  'all errors, wavelengths and maps', 'all real errors and all maps',
  ['p3/aoSystem/fourierModel.py:errorBreakDown'])
p('The computation can be repeated',
  'Initialising the computations a second time on the same AO system succeeds when the first one did and leaves the system unchanged.',
  'all systems, states and numbers of sensors', 'histories of calls',
  ['p3/aoSystem/fourierModel.py:initComputations', 'p3/aoSystem/frequencyDomain.py'])
p('Heights of the modelled layers',
  'The layers used by the tomographic reconstructor have the heights given, unchanged for natural guide stars and stretched by 1/(1-h/H) for lasers at the height H, with or without compression of the profile.',
  'all heights and guide stars', 'all heights',
  ['p3/aoSystem/fourierModel.py:initComputations'])
p('Noise does not depend on the wavelength at which the atmosphere is described',
  'The Fried parameter used for the noise of a sensor is the one of the atmosphere scaled to the wavelength of the sensor, whatever the wavelength at which the atmosphere is described.',
  'all wavelengths and Fried parameters', 'all wavelengths',
  ['p3/aoSystem/sensor.py:NoiseVariance', 'p3/aoSystem/fourierModel.py:initComputations'])
p('Extra errors of science targets and guide stars have the rms asked for',
  'When PSDs are asked for at the low-order stars, each science target gets an extra error of the rms given for it and each star one of the rms given for its distance from the axis (a number, or a value on axis and one at the edge of the technical field with linear interpolation); without stars all sources get the science value.',
  'all grids, options, numbers of sources and stars, positions', 'all options and positions',
  ['p3/aoSystem/fourierModel.py:extraErrorLoPSD', 'p3/aoSystem/fourierModel.py:extraErrorPSD', 'p3/aoSystem/fourierModel.py:powerSpectrumDensity'])
p('Low-order extra errors default to those of the science targets',
  'Without options for the low-order stars, they get the same extra error, in the same band, as the science targets.',
  'all options of the extra error', 'combinations of options',
  ['p3/aoSystem/aoSystem.py', 'p3/aoSystem/fourierModel.py:extraErrorLoPSD'])
p('The focal-angular structure function is the variance of the differential phase',
  'For each pair of pupil points, the focal-angular anisoplanatism is the variance of the difference between the points of the phase of the source (through the cylinder) minus that of the guide star (through the cone): never negative, zero at zero separation.',
  'all covariances of the turbulence, layers, heights of the star, directions, pairs of points', 'all pairs of points and geometries',
  ['p3/aoSystem/anisoplanatismModel.py:focal_angular_function', 'p3/aoSystem/anisoplanatismModel.py:anisoplanatism_structure_function', 'p3/aoSystem/FourierUtils.py:Ialpha'])
p('The map of a covariance matrix is the covariance as a function of the separation',
  'Turning the covariance matrix of the samples of a stationary process into a map gives, at each pixel, the covariance for the separation of this pixel; the value at the centre is the mean variance.',
  'all sizes of the grid, all matrices', 'all matrices',
  ['p3/aoSystem/FourierUtils.py:matrix_to_map', 'p3/aoSystem/anisoplanatismModel.py:vector_to_separation'])
p('The anisokinetism of two sources is a covariance matrix',
  'The matrix of tip and tilt anisokinetism of two directions is symmetric and positive semidefinite, zero for equal directions and unchanged when the two sources are exchanged.',
  'all layers with non-negative weights, spectra, filters, directions, telescope diameters', 'all profiles and directions',
  ['p3/aoSystem/zernike.py:anisokinetism', 'p3/aoSystem/zernike.py:tiltsAngularCovariance'])
p('The anisokinetism structure function is the variance of the differential tilt at each separation',
  'The structure function of the anisokinetism at each separation is the quadratic form of the tip-tilt covariance, never negative, for any number of sources.',
  'all covariances, grids, numbers of sources', 'all covariances',
  ['p3/aoSystem/anisoplanatismModel.py:anisokinetism_function', 'p3/aoSystem/zernike.py:anisokinetism'])
p('Contour points are at the level',
  'Each point of the half-maximum contour of an image lies between a pixel below and a pixel above the level, at the distance from the peak where the linear interpolation of their values is the level; every pixel below the level with a neighbour above it gives one.',
  'all images and levels', 'all images',
  ['p3/aoSystem/FourierUtils.py:find_contour_points'])
p('The filter of outliers keeps the contour',
  'Removing the outliers of a contour (points more than two deviations from the median distance) keeps at least half of its points.',
  'all lists of contour points', 'all sets of points',
  ['p3/aoSystem/FourierUtils.py:find_contour_points'])
p('The width of an image is a length on the sky, whatever the method and the resampling',
  'The widths are proportional to the pixel scale and do not depend on the resampling factor; the contour method gives the largest and smallest diameter of the half-maximum contour (the diameter for a round image), and the ellipticity is their ratio, at least one.',
  'all images, pixel scales, resampling factors, methods', 'all images and factors',
  ['p3/aoSystem/FourierUtils.py:getFWHM'])
p('The width of an image is returned for every documented method and output',
  'Every documented method returns widths for every image whose cuts can be measured; only unknown methods raise, and only when the method matters; each of the four outputs has its number of values.',
  'all images, methods, numbers of outputs', 'all methods and images',
  ['p3/aoSystem/FourierUtils.py:getFWHM'])
p('The turbulent variance of a Zernike coefficient depends on its radial order only',
  'For every list of indices, in any order and with repetitions, each coefficient gets the variance of its radial order; without outer scale that of the piston is infinite.',
  'all lists of indices, values of D/r0 and D/L0', 'all lists of indices',
  ['p3/aoSystem/zernike.py:CoefficientsVariance'])
p('Without outer scale the Zernike variances follow Noll: positive, decreasing with the order, proportional to (D/r0)^(5/3)',
  'The variances of all modes but the piston are positive, proportional to (D/r0)^(5/3) and strictly decreasing with the radial order.',
  'all orders and values of D/r0', 'all orders',
  ['p3/aoSystem/zernike.py:CoefficientsVariance'])
p('The hypergeometric series of the outer scale are summed to the tolerance',
  'The series used for a finite outer scale are summed until the remainder is below the tolerance.',
  'all parameters and arguments', 'all arguments',
  ['p3/aoSystem/zernike.py:CoefficientsVariance'])
p('The number of photons is the mean of the brightest pixels',
  'The flux estimated from the maps of the wavefront sensor is the mean, over exposures, of the mean of the brightest pixels of each exposure (half the number of measurements seen by an actuator, rounded up); the read-out noise is the scatter of the pixels in time.',
  'all maps, gains and reconstructors', 'all maps',
  ['p3/telemetry/systemDiagnosis.py:get_number_photons'])
p('Actuators are selected inside a ring centred on the pupil',
  'Without diameters the valid actuators are selected; with an inner or an outer diameter, those inside the ring, centred on the pupil.',
  'all influence functions, maps of valid actuators and diameters', 'all influence functions',
  ['p3/telemetry/systemDiagnosis.py:select_actuators'])
p('Averages over the radial orders return one value per order',
  'There is one value per distinct radial order, in increasing order, whatever the order of the modes; values that depend on the order only are returned unchanged.',
  'all lists of modes and values', 'all lists of modes',
  ['p3/telemetry/systemDiagnosis.py:average_radial_order'])
p('The covariance of the Zernike coefficients does not depend on static commands, piston or earlier calls',
  'It is symmetric and positive semi-definite, it is unchanged by a static command or a piston of each frame, and by an earlier estimate of the noise (which modifies the commands in place); the tip-tilt covariance is a two by two matrix.',
  'all telemetry, reconstructors and selections', 'all telemetry',
  ['p3/telemetry/systemDiagnosis.py:reconstruct_zernike'])
p('Mirror commands are projected onto the Zernike modes by least squares',
  'A shape of the mirror that is a combination of independent modes is decomposed exactly; in general the coefficients minimise the distance to the shape.',
  'all modes, influence functions and commands', 'all matrices',
  ['p3/telemetry/systemDiagnosis.py:reconstruct_zernike'])
p('Every method of noise estimation returns the noise of each command and leaves the telemetry alone',
  'Each of the documented methods returns the covariance of the noise of the commands; unknown methods are refused; the telemetry is not modified.',
  'all methods, telemetry and sizes', 'all telemetry and sizes',
  ['p3/telemetry/systemDiagnosis.py:get_noise_variance'])
p('The number of sub-folders of test data is the divisor of the number of files closest to the one asked for',
  'It divides the number of files; it is the number asked for if that is a divisor, else the closest divisor; the distribution is refused when that is one.',
  'all numbers of files and of sub-folders', 'all numbers',
  ['p3/deepLoop/dataGenerator.py:split_test_data'])
p('No test file is lost or duplicated when they are distributed over sub-folders, even by a crash',
  'At every moment of the distribution, whatever the random sample and wherever it is interrupted, each file is in exactly one place with its contents and other files are untouched; once done all are in sub-folders, as many in each; an interrupted distribution can be resumed.',
  'all file systems, samples, numbers of files and crash points', 'all crash points and samples',
  ['p3/deepLoop/dataGenerator.py:split_test_data'])
p('Random parameters lie within their bounds and cover each pair of intervals once',
  'Each pair of intervals of the main parameter and the residual variance has exactly one sub-folder, and the values drawn for it lie in the intervals, within the bounds.',
  'all bounds, roundings, numbers of intervals and random draws', 'all random draws',
  ['p3/deepLoop/dataGenerator.py:generate_parameters_values'])
p('The images of the data base depend on the parameters of their labels',
  'The image labelled with r0, background, variance and static aberrations is that of the model for these values.',
  'all parameters and grids', 'all parameters',
  ['p3/deepLoop/dataGenerator.py:generate_psf'])
p('Each image has its own file and the test data are taken equally from the sub-folders',
  'The labels of the images of a sub-folder differ; the same number of test data is taken from each sub-folder, as many as asked for in total.',
  'all numbers of images, roundings and test data', 'all numbers',
  ['p3/deepLoop/dataGenerator.py:generate_psf'])
p('The intervals of a data base are read back from the names of its sub-folders',
  'Whatever the order of the folders, the lower edges of the intervals are returned, sorted and without repetition.',
  'all data bases and orders of the folders', 'all orders of a directory',
  ['p3/deepLoop/recover_list.py:recover_main_parameters_values_from_subfolders'])
p('A verified data base has all its values in the intervals of its sub-folders',
  'If the verification passes, the values in the labels are inside the intervals.',
  'all data bases', 'all values',
  ['p3/deepLoop/dataBaseVerification.py:verifyDataBase'])
p('All rows of a result file are read',
  'Each row after the two lines of header is part of the statistics.',
  'all files', 'all files',
  ['p3/deepLoop/deepLoopPerformance.py:read_txt_files'])
p('Accuracy metrics: Pearson coefficient and relative error',
  'The coefficient lies between -1 and 1 and is 1 for estimates that are an increasing affine function of the true values; the relative error of an estimate off by a constant factor is that factor.',
  'all lists of values', 'all lists',
  ['p3/deepLoop/deepLoopPerformance.py:get_parameters_metrics'])
p('Data sets with a corrupted image are set aside',
  'A data set whose image is not centred, is too faint, or was taken in bad conditions is moved to the outliers, and so is one without telemetry; the others stay.',
  'all lists of data sets, images and headers', 'all images and headers',
  ['p3/telemetry/sphereUtils.py:remove_corrupted_data', 'p3/telemetry/sphereUtils.py:read_strehl_value'])
p('Setting data sets aside moves each of them as a whole',
  'Each data set found corrupted is found in the folder of the outliers under its name, also after an interruption, and the others are where they were.',
  'all sets of folders, destinations and points of interruption', 'all states of the disk',
  ['p3/telemetry/sphereUtils.py:remove_corrupted_data'])
p('Stacked frames are recentred on their peaks',
  'The stack has the size asked for, its largest pixel is the central one and is the mean of the peaks of the frames, over the exposure time and the transmission of the neutral density.',
  'all cubes, sizes and positions of the peaks', 'all images and sizes',
  ['p3/telemetry/sphereUtils.py:process_clean_data'])
p('Every telemetry file has a date, found from its name',
  'For every name containing .fits the date is determined without error; it has no dot and no T, so that the folder of a date is never taken for a file.',
  'all file names', 'all strings',
  ['p3/telemetry/sphereUtils.py:sort_telemetry_folder'])
p('Sorting telemetry by date loses no file, can be interrupted anywhere and run again',
  'Whatever the order in which files are listed, at the end each .fits file is in the folder of its date; wherever the run is interrupted each file is in exactly one of both places; running again gives the same result as an uninterrupted run.',
  'all folders, listing orders and crash points', 'all crash points and listing orders',
  ['p3/telemetry/sphereUtils.py:sort_telemetry_folder'])
p('Starting point and fixed parameters of the SPHERE fit agree',
  'Both have one entry per parameter of the model; r0 is fitted exactly when the image contains the corrected area; the starting variance is that of the Strehl ratio and r0 follows the turbulence theory.',
  'all images, wavelengths, Strehl ratios and numbers of modes', 'all real inputs',
  ['p3/telemetry/sphereUtils.py:define_initial_guess', 'p3/telemetry/sphereUtils.py:define_fixed_parameters'])
p('The fit of a SPHERE image returns all parameters, with or without static modes',
  'The number of parameters and errors returned does not depend on whether the modes are fitted; those that are not are marked by -1.',
  'all images, Strehl ratios and numbers of modes', 'all inputs',
  ['p3/telemetry/sphereUtils.py:fitting_image'])
p('Each value of the SPHERE table is in the column of its name',
  'The row has as many entries as there are columns, and each parameter, mode, error and metric is under its name.',
  'all numbers of modes and results', 'all numbers of modes',
  ['p3/telemetry/sphereUtils.py:define_database_colnames', 'p3/telemetry/sphereUtils.py:update_data_struct', 'p3/telemetry/sphereUtils.py:get_number_modes'])
p('Removing tip and tilt from a phase is an orthogonal projection',
  'What is removed is tip and tilt, what remains is orthogonal to both and the least that can be reached, doing it again changes nothing, and the outside of the pupil is untouched; the coefficients returned describe what remains.',
  'all phases, pupils and modal bases', 'all phases',
  ['p3/telemetry/sphereUtils.py:compute_tiptilt_filtering_matrix', 'p3/telemetry/sphereUtils.py:remove_tiptilt_from_phase'])
p('The low-wind-effect error scales with the coefficients and is -1 where they were not fitted',
  'Multiplying all coefficients multiplies the error by the absolute value; rows without fitted coefficients are marked by -1.',
  'all rows and modal bases', 'all rows',
  ['p3/telemetry/sphereUtils.py:compute_lwe_wavefront_error'])
p('Sensor window, delay and gain are monotone in the magnitude and the frame rate',
  'A fainter star never has a larger window or gain, a faster loop never a smaller delay, and all are defined for every star.',
  'all magnitudes, frame rates and filters', 'all real magnitudes',
  ['p3/telemetry/sphereUtils.py:define_wfs_window', 'p3/telemetry/sphereUtils.py:define_loop_gain', 'p3/telemetry/sphereUtils.py:define_loop_delay', 'p3/telemetry/sphereUtils.py:grab_wfs_parameters'])
p('The flux of the sensor is taken around the time of the observation',
  'The rows used contain the one closest to the observation and extend over the exposure; there always is one when the night has a table.',
  'all tables with increasing dates, observation dates and exposure times', 'all tables',
  ['p3/telemetry/sphereUtils.py:read_sparta_data'])
p('Header values of SPHERE are passed on unchanged, with safe replacements',
  'All temperatures of the header are returned with their names, the read-out noise is never zero, the seeing never negative, and date and time are the parts of the keyword.',
  'all headers', 'all headers',
  ['p3/telemetry/sphereUtils.py:get_temperature', 'p3/telemetry/sphereUtils.py:get_detector_config', 'p3/telemetry/sphereUtils.py:get_date', 'p3/telemetry/sphereUtils.py:instantiate_psfao_model'])
p('A radial profile is the mean over rings',
  'Each value of the profile is the mean of the pixels whose distance to the centre rounds to the same number of bins; it lies between the faintest and the brightest pixel, and the flux of all rings is that of the image.',
  'all images, centres, bins, ranges of angles and maximal radii', 'all images and centres',
  ['p3/aoSystem/FourierUtils.py:radial_profile'])
p('The radius returned with a profile is that of the pixels',
  'The radius returned with each value is the distance of the pixels it was computed from, within one bin.',
  'all images, pixel scales and bin sizes', 'all images and bins',
  ['p3/aoSystem/FourierUtils.py:radial_profile'])
p('Supersampled profiles agree with the profile and are not negative',
  'Interpolation along the profile gives its values at its radii, and interpolation on circles the mean over each circle, in flux per element of the finer step; radii advance by the step and no value is negative.',
  'all profiles, images, steps and grids', 'all profiles and steps',
  ['p3/aoSystem/FourierUtils.py:interpolate_1d', 'p3/aoSystem/FourierUtils.py:interpolate_2d', 'p3/aoSystem/FourierUtils.py:radial_profile'])
p('The encircled energy of a supersampled profile is the energy in the disc',
  'The curve never decreases, ends at one and is the fraction of the flux inside the radius.',
  'all profiles and steps', 'all profiles',
  ['p3/aoSystem/FourierUtils.py:radial_profile'])
p('Radii, profile and encircled energy have the same length',
  'The three arrays returned have one entry per ring, also with a maximal radius.',
  'all images and maximal radii', 'all images and radii',
  ['p3/aoSystem/FourierUtils.py:radial_profile'])
p('The standard deviation of a ring is that of its pixels',
  'With the option stddev each value is the standard deviation of the pixels within half a bin of the radius.',
  'all images, pixel scales and bins', 'all images and bins',
  ['p3/aoSystem/FourierUtils.py:radial_profile'])
p('A profile over a range of position angles uses the pixels of the range only',
  'The result does not depend on the image outside the range, and the range from -180 to 180 degrees is the whole image.',
  'all images and ranges', 'all images and ranges',
  ['p3/aoSystem/FourierUtils.py:radial_profile'])
p('An OTF computed from a power spectrum is a transfer function',
  'For a non-negative PSD the OTF is real, one at the origin, in (0, 1] elsewhere, at least exp(-2 variance), and equal to exp(-D/2) of the structure function D of the PSD.',
  'all non-negative PSDs of all sizes and pixel scales', 'all arrays',
  ['p3/aoSystem/FourierUtils.py:psd2otf', 'p3/aoSystem/FourierUtils.py:psd2cov', 'p3/aoSystem/FourierUtils.py:cov2sf', 'p3/aoSystem/FourierUtils.py:sf2otf'])
p('A PSF computed from a power spectrum is non-negative with its peak at the centre',
  'For a non-negative PSD the PSF has unit sum, no negative pixel, its largest pixel at the centre, at least exp(-variance) there, and a halo at least exp(-variance) times the PSD.',
  'all non-negative PSDs of all sizes', 'positive-definiteness of a function of all arrays',
  ['p3/aoSystem/FourierUtils.py:psd2psf', 'p3/aoSystem/FourierUtils.py:otf2psf'])
p('A PSF without aberration has no negative pixel',
  'With a zero PSD the PSF returned has unit sum and no negative pixel.',
  'all array sizes', 'all sizes',
  ['p3/aoSystem/FourierUtils.py:psd2psf', 'p3/aoSystem/FourierUtils.py:otf2psf'])
p('A piston does not degrade the OTF',
  'A PSD whose only non-zero value is at the zero frequency gives an OTF equal to one.',
  'all sizes, amplitudes and pixel scales', 'all sizes',
  ['p3/aoSystem/FourierUtils.py:psd2otf', 'p3/aoSystem/FourierUtils.py:psd2cov'])
p('The structure functions of the reconstruction are those of the PSD',
  'They vanish at the central pixel, are non-negative, at most four times the variance, and equal twice the sum of the PSD weighted by 1 - cos of the phase between the two points.',
  'all non-negative PSDs and even sizes', 'all arrays',
  ['p3/psfr/psfR.py:fitting_phase_structure_function', 'p3/psfr/psfR.py:aliasing_phase_structure_function'])
p('Fitting and aliasing structure functions are those of their PSD and scale as r0^(-5/3)',
  'Their value at a pixel is that of the structure function of the fitting (resp. aliasing) PSD taken on frequency steps 1/(D samp), they are proportional to r0^(-5/3) and the aliasing one does not depend on the Fried parameter stored in the system.',
  'all PSDs, Fried parameters and pixels', 'all values',
  ['p3/psfr/psfR.py:fitting_phase_structure_function', 'p3/psfr/psfR.py:aliasing_phase_structure_function'])
p('telescopePsf has the requested pixel scale',
  'The PSF of telescopePsf has the size of the pupil and samp pixels per lambda/D.',
  'all samplings and pupil sizes', 'all samplings',
  ['p3/aoSystem/FourierUtils.py:telescopePsf', 'p3/aoSystem/FourierUtils.py:telescopeOtf'])
p('otfShannon2psf has the requested pixel scale and field',
  'From an OTF sampled at Shannon the PSF has fovInPixel pixels of lambda/(2 nqSmpl D).',
  'all sampling factors and fields', 'all samplings',
  ['p3/aoSystem/FourierUtils.py:otfShannon2psf'])
p('Couples of points at a separation are all found',
  'For points of a grid under a mask, the couples used for a separation are exactly the ordered couples of valid points that differ by it, each once, and no index leaves the work array.',
  'all masks, pitches, origins and separations of the output grid', 'all masks',
  ['p3/psfr/psfrUtils.py:mkotf_indpts', 'p3/psfr/psfrUtils.py:pointWiseLocation'])
p('The zonal OTF is the average of exp(-D/2) over the couples at a separation',
  'Before interpolation the OTF at a separation is the sum of exp(-D/2) over the couples of valid points at this separation over the number of valid points.',
  'all covariance matrices, masks and separations', 'all matrices',
  ['p3/psfr/psfrUtils.py:mkotf', 'p3/psfr/psfrUtils.py:zonalCovarianceToOtf'])
p('The zonal OTF is one at the origin, between 0 and 1, and even',
  'For a covariance matrix the zonal OTF is 1 at zero, in [0, 1] and even, and vanishes only at separations that no two valid points have.',
  'all positive semi-definite covariances, masks, separations', 'all matrices',
  ['p3/psfr/psfrUtils.py:mkotf', 'p3/psfr/psfrUtils.py:zonalCovarianceToOtf'])
p('Without a mask, the zonal OTF is that of all points of the grid',
  'zonalCovarianceToOtf without idxValid uses the covariance of every couple of points of the grid.',
  'all covariance matrices and grids', 'all matrices',
  ['p3/psfr/psfrUtils.py:zonalCovarianceToOtf', 'p3/psfr/psfrUtils.py:pointWiseLocation'])
p('The table of reconstructions has one value per column',
  'A row has as many values as there are column names, names are distinct, and each of 54 columns holds the quantity it names in the unit it names.',
  'all reconstructions with a seven-layer profile', 'all values',
  ['p3/psfr/psfrRun.py:unpack_results', 'p3/psfr/psfrRun.py:define_database_colnames'])
p('Units of the table: latencies in milliseconds, noise in radians',
  'HO LAT and TT LAT hold latencies in ms, HO NOISE a standard deviation in rad.',
  'all loops', 'all values', ['p3/psfr/psfrRun.py:unpack_results'])
p('The tip-tilt columns of the table describe the tip-tilt loop',
  'TT NPH and TT WFE hold the photons and the error of the tip-tilt loop.',
  'all loops', 'all values', ['p3/psfr/psfrRun.py:unpack_results'])
p('The anisoplanatism columns of the table hold the terms they name',
  'WFE FOCAL ANISO holds focal anisoplanatism and WFE TT ANISO anisokinetism.',
  'all error breakdowns', 'all values', ['p3/psfr/psfrRun.py:unpack_results'])
p('The Strehl ratio of the image in the table is a fraction',
  'CAM SR is the Strehl ratio of the image between 0 and 1, with and without a fit.',
  'all images', 'all values', ['p3/psfr/psfrRun.py:unpack_results', 'p3/psfr/psfrRun.py:run_keck_psfr', 'p3/psfFitting/psfFitting.py:evaluateFittingQuality'])
p('Reading results does not change the reconstruction',
  'unpack_results leaves the system as it was; calling it twice gives the same row.',
  'all reconstructions and wavelengths of the atmosphere', 'all states', ['p3/psfr/psfrRun.py:unpack_results', 'p3/aoSystem/atmosphere.py:set_wvl'])
p('Telemetry and images are matched by identifier',
  'One run per identifier present in both lists, in increasing order, on the first file of each list with this identifier.',
  'all lists of files', 'all lists', ['p3/psfr/psfrRun.py:psfr_on_database'])
p('Merging tables is repeatable',
  'merge_dataframe returns all rows of the tables that are not merged ones, sorted by date; saving and merging again gives the same rows.',
  'all folders and sequences of merges', 'all histories', ['p3/psfr/psfrRun.py:merge_dataframe'])
p('The table on simulations compares the estimates with the truth',
  'R0, L0, TAU0 are the estimates and TRUE R0, TRUE L0, TRUE TAU0 the values of the simulation, in the same units.',
  'all simulations, with and without true_r0', 'all values', ['p3/psfr/psfrRun.py:psfr_kasp_simulations'])
p('The reconstruction uses the estimated Fried parameter',
  'The Fried parameter read from the parameter file written after the diagnosis is the one estimated on the line of sight.',
  'all estimates and airmasses', 'all values', ['p3/telemetry/systemDiagnosis.py:systemDiagnosis', 'p3/telemetry/configFile.py:configFile', 'p3/aoSystem/aoSystem.py:aoSystem', 'p3/psfr/psfrRun.py:psfr_kasp_simulations'])
p('The diagnosis scales the wind profile to the estimated wind',
  'The turbulence-weighted wind of the updated profile is the estimated wind, and the relative uncertainty of the coherence time combines those of r0 and of the wind.',
  'all profiles and estimates', 'all values', ['p3/telemetry/systemDiagnosis.py:systemDiagnosis', 'p3/telemetry/systemDiagnosis.py:get_atmosphere_statistics'])
p('plot_metrics needs a number of bins only for histograms',
  'Negative numbers of bins are refused, and None is accepted for a scatter plot.',
  'all arguments', 'all values', ['p3/psfr/psfrRun.py:plot_metrics'])
e('C174', title='Bounds of PSFAO21 are intervals', statement='Each lower bound is below its upper bound.', quantifier='all numbers of layers, sources, wavelengths, pixels and modes')
p('Bounds of PSFAO21 can be updated and are symmetric in position',
  'The bounds can be updated after a first fit at any number of wavelengths and the bounds of the positions are symmetric.',
  'all numbers of wavelengths and pixels', 'all sizes',
  ['p3/psfao21/psfao21.py:define_bounds', 'p3/psfao21/psfao21.py:update_bounds'])
e('C184', title='The map of a covariance matrix even in both axes is the covariance as a function of the separation', statement='For samples of a stationary process whose covariance is even along each axis, as isotropic turbulence, the map has at each pixel the covariance for the separation of this pixel; for all matrices the value at the centre is the mean variance.', quantifier='all sizes of the grid, all such covariances')
p('The map of a covariance matrix is right for every stationary process',
  'The map has at each pixel the covariance for its separation, also for covariances that are not even along each axis.',
  'all stationary covariances', 'all matrices',
  ['p3/aoSystem/FourierUtils.py:matrix_to_map', 'p3/aoSystem/anisoplanatismModel.py:vector_to_separation'])
e('C194', title='The number of photons is the mean of the brightest pixels', statement='With more than 100 actuators, the flux estimated from the maps of the wavefront sensor is the mean, over exposures, of the mean of the brightest pixels of each exposure (half the number of measurements seen by an actuator, rounded up).', quantifier='all maps, gains and reconstructors with more than 100 actuators')
p('Read-out noise is the scatter of the pixels in time',
  'The read-out noise estimated from the maps is the scatter of each pixel over the exposures, for any number of actuators.',
  'all maps and reconstructors', 'all maps',
  ['p3/telemetry/systemDiagnosis.py:get_number_photons'])
e('C195', title='Actuators are selected inside a ring', statement='Without diameters the valid actuators are selected; with an inner and an outer diameter, those whose peak is at a distance between the two radii from the centre used by the code.', quantifier='all influence functions, maps of valid actuators and diameters')
p('One diameter is enough to select actuators, around the centre of the pupil',
  'An inner or an outer diameter alone selects the actuators outside or inside it, and distances are from the centre of the pupil.',
  'all diameters and influence functions', 'all influence functions',
  ['p3/telemetry/systemDiagnosis.py:select_actuators'])
e('C197', title='The covariance of the Zernike coefficients does not depend on static commands, piston or earlier calls', statement='It is symmetric and positive semi-definite, it is unchanged by a static command or a piston of each frame, and by an earlier estimate of the noise (which modifies the commands in place); the reconstructed modes are those asked for.', quantifier='all telemetry, reconstructors and selections')
p('The tip-tilt covariance is a two by two matrix',
  'With and without laser the covariance of tip and tilt has two rows and two columns.',
  'all telemetry', 'all telemetry',
  ['p3/telemetry/systemDiagnosis.py:reconstruct_zernike'])
e('C201', title='No test file is lost or duplicated when they are distributed over new sub-folders, even by a crash', statement='At every moment of the distribution, whatever the random sample and wherever it is interrupted, each file is in exactly one place with its contents and other files are untouched; once done all are in sub-folders, as many in each.', quantifier='all file systems without files of these names in the sub-folders, samples, numbers of files and crash points')
p('The distribution of test files can be resumed and never replaces a file',
  'An interrupted distribution can be run again, and files already in the sub-folders are kept.',
  'all file systems and crash points', 'all crash points and samples',
  ['p3/deepLoop/dataGenerator.py:split_test_data'])
e('C202', title='Each pair of intervals has one sub-folder with values in both intervals', statement='Each pair of intervals of the main parameter and the residual variance has exactly one sub-folder, and the values drawn for it lie in the intervals, whose edges are the bounds up to the rounding.', quantifier='all bounds, roundings, numbers of intervals and random draws')
p('Random parameters lie within the bounds asked for',
  'No value drawn exceeds the bounds given by the user.',
  'all bounds and roundings', 'all random draws',
  ['p3/deepLoop/dataGenerator.py:generate_parameters_values'])
e('C204', title='Each image has its own file and the test data are taken equally from the sub-folders', statement='The labels of the images of a sub-folder differ; the same number of test data is taken from each sub-folder, as many as asked for in total when it is a multiple of their number and not more than there are images.', quantifier='all numbers of images, roundings and test data')
p('Any number of test data can be taken',
  'The number of test data taken is the one asked for.',
  'all numbers of test data and sub-folders', 'all numbers',
  ['p3/deepLoop/dataGenerator.py:generate_psf'])
e('C205', title='The intervals of a data base are read back from the names of its sub-folders', statement='Whatever the order of the folders, the lower edges of the intervals are returned, sorted and without repetition, when all entries are sub-folders of the data base.', quantifier='all data bases and orders of the folders')
p('The intervals of a data base are read back also after an interrupted run',
  'Folders left by an interrupted selection of test data do not prevent the reading.',
  'all data bases', 'all orders of a directory',
  ['p3/deepLoop/recover_list.py:recover_main_parameters_values_from_subfolders'])
e('C207', title='All rows of a result file that ends with another line are read', statement='Each row after the two lines of header, up to the last line, is part of the statistics.', quantifier='all files')
p('The last row of a result file is read',
  'The last line of the file is part of the statistics.',
  'all files', 'all files',
  ['p3/deepLoop/deepLoopPerformance.py:read_txt_files'])
e('C210', title='Setting data sets aside in an existing folder moves each of them as a whole', statement='When the folder of the outliers exists, each data set found corrupted is found in it under its name, also after an interruption, and the others are where they were.', quantifier='all sets of folders and points of interruption')
p('Setting data sets aside creates the folder of the outliers',
  'When the destination does not exist it is created, and each data set is in it under its name.',
  'all sets of folders', 'all states of the disk',
  ['p3/telemetry/sphereUtils.py:remove_corrupted_data'])
e('C211', title='Stacked frames are recentred on their peaks', statement='For an even size and peaks far enough from the edges, the stack has the size asked for, its largest pixel is the central one and is the mean of the peaks of the frames over the exposure time.', quantifier='all such cubes, sizes and positions of the peaks')
p('Frames of any size can be stacked, with the neutral density of their header',
  'Odd sizes and peaks near the edge are handled, a window never repeats a pixel, and the transmission of the neutral density is that of the header.',
  'all cubes, sizes, positions and headers', 'all images and sizes',
  ['p3/telemetry/sphereUtils.py:process_clean_data'])
e('C214', title='Starting point and fixed parameters of the SPHERE fit agree', statement='Both have one entry per parameter of the model; r0 is fitted exactly when the image contains the corrected area; the starting variance is that of a Strehl ratio between 0 and 1.', quantifier='all images, wavelengths, Strehl ratios and numbers of modes')
p('The starting r0 of the SPHERE fit follows the turbulence theory',
  'It grows as the power 6/5 of the wavelength and is finite when no Strehl ratio is known.',
  'all wavelengths and Strehl ratios', 'all real inputs',
  ['p3/telemetry/sphereUtils.py:define_initial_guess', 'p3/telemetry/sphereUtils.py:define_fixed_parameters'])
e('C216', title='Values of the SPHERE table are in the column of their name', statement='The row has as many entries as there are columns, and each parameter, mode, error and metric but the width along y is under its name.', quantifier='all numbers of modes and results')
p('The width along y and the number of modes of the SPHERE table are right',
  'FWHMY FIT holds the width along y, and the number of modes is that of the file of modes.',
  'all results and files of modes', 'all numbers of modes',
  ['p3/telemetry/sphereUtils.py:define_database_colnames', 'p3/telemetry/sphereUtils.py:update_data_struct', 'p3/telemetry/sphereUtils.py:get_number_modes'])
e('C217', title='Removing tip and tilt from a phase is an orthogonal projection', statement='What is removed is tip and tilt, what remains is orthogonal to both and the least that can be reached, doing it again changes nothing, and the outside of the pupil is untouched.', quantifier='all phases, pupils and modal bases')
p('The coefficients returned without tip and tilt describe the phase that remains',
  'The coefficients, on the modes given, of the filtered phase give back the filtered phase.',
  'all modal bases', 'all phases',
  ['p3/telemetry/sphereUtils.py:compute_tiptilt_filtering_matrix', 'p3/telemetry/sphereUtils.py:remove_tiptilt_from_phase'])
e('C218', title='The low-wind-effect error scales with the coefficients', statement='Multiplying all coefficients multiplies the error by the absolute value; tip and tilt are not counted when they are removed.', quantifier='all rows and modal bases')
p('The low-wind-effect error of rows that were not fitted is -1',
  'Rows without fitted coefficients, and rows of zeros, give a value that marks them.',
  'all rows', 'all rows',
  ['p3/telemetry/sphereUtils.py:compute_lwe_wavefront_error'])
e('C220', title='The flux of the sensor is taken around the time of the observation', statement='For a night whose table has fluxes, the rows used contain the one closest to the observation and extend over the exposure; there always is one.', quantifier='all tables with increasing dates, observation dates and exposure times')
p('Missing telemetry of the sensor is handled',
  'A night without a file, or whose table has no flux, gives a replacement value.',
  'all nights', 'all tables',
  ['p3/telemetry/sphereUtils.py:read_sparta_data'])
e('C221', title='Header values of SPHERE are passed on unchanged, with safe replacements', statement='All temperatures written as decimal numbers are returned with their names, the read-out noise is never zero, the seeing never negative, and date and time are the parts of the keyword; temperatures written as integers are dropped.', quantifier='all headers')
e('C222', title='A radial profile is the mean over rings', statement='For an image with pixels in more than one ring, each value of the profile is the mean of the pixels whose distance to the centre rounds to the same number of bins; it lies between the faintest and the brightest pixel, and the flux of all rings but the outermost is that of the pixels in them.', quantifier='all images, centres, bins, ranges of angles and maximal radii')
p('The outermost ring is part of a radial profile',
  'The profile has one value for every ring with pixels, also when there is one ring.',
  'all images', 'all images and centres',
  ['p3/aoSystem/FourierUtils.py:radial_profile'])
e('C223', title='The radius returned with a profile is that of the pixels, for bins not smaller than a pixel', statement='With bins of at least one pixel around a pixel or a corner, the radius returned with each value is the distance of the pixels it was computed from, within one bin.', quantifier='all images, pixel scales and such bins')
p('The radius returned with a profile is that of the pixels for bins smaller than a pixel',
  'Small bins do not shift the radii.',
  'all bins', 'all images and bins',
  ['p3/aoSystem/FourierUtils.py:radial_profile'])
e('C228', title='A profile over a range of position angles uses the pixels of the range only', statement='The mean profile does not depend on the image outside the range, and the range from -180 to 180 degrees is the whole image.', quantifier='all images and ranges')
p('The standard deviation over a range of position angles uses the pixels of the range only',
  'The option stddev with a range does not depend on the image outside the range.',
  'all images and ranges', 'all images and ranges',
  ['p3/aoSystem/FourierUtils.py:radial_profile'])
e('C229', title='An OTF computed from a power spectrum is a transfer function', statement='For a non-negative PSD the OTF is real, one at the origin, in (0, 1] elsewhere and at least exp(-2 variance); for even sizes it equals exp(-D/2) of the structure function D of the PSD, for odd ones that of the PSD moved by one pixel.', quantifier='all non-negative PSDs of all sizes and pixel scales')
e('C230', title='A PSF computed on an odd grid from a power spectrum is non-negative with its peak at the centre', statement='For a non-negative PSD of odd size the PSF has unit sum, no negative pixel, its largest pixel at the centre, at least exp(-variance) there, and a halo at least exp(-variance) times the PSD with the frequencies as the code takes them.', quantifier='all non-negative PSDs of odd sizes')
e('C246', title='Reading results twice gives the same row', statement='unpack_results called again gives the same row; it leaves the atmosphere at 500 nm with the Fried parameter scaled to it.', quantifier='all reconstructions and wavelengths of the atmosphere')
p('Reading results does not change the reconstruction',
  'unpack_results leaves the system as it was.',
  'all wavelengths of the atmosphere', 'all states',
  ['p3/psfr/psfrRun.py:unpack_results', 'p3/aoSystem/atmosphere.py:set_wvl'])
e('C249', title='The table on simulations holds the estimates and, with true_r0, the truth', statement='R0, L0, V0 are the estimates, and with true_r0 TRUE R0 and TRUE L0 are the values of the simulation.', quantifier='all simulations')
p('The table on simulations compares the estimates with the truth in the same units',
  'TRUE R0 is the value of the simulation also without true_r0, and TAU0 and TRUE TAU0 have the same unit.',
  'all simulations', 'all values',
  ['p3/psfr/psfrRun.py:psfr_kasp_simulations'])
e('C06', title='Processing the low-order section again changes nothing, without PSD expansion or at one wavelength', statement='Without PSD expansion, or with a single science wavelength, configuring the low-order/science detector again leaves the field of view as it was, and in all cases everything else.', quantifier='all parameter files of the documented types that are accepted, all environments without coo_stars')
p('Processing the low-order section again changes nothing, with PSD expansion',
  'With PSD expansion and several wavelengths configuring the low-order/science detector again leaves the field of view as it was.',
  'all parameter files', 'the defect only shows for some wavelength ratios and after a history of calls',
  ['p3/aoSystem/aoSystem.py:configLO_SC', 'p3/aoSystem/aoSystem.py:configLO'])
e('C07', title='NGS positions of the parameter file are appended after the science positions', statement='When PSFs at the NGS positions are requested and positions come from the parameter file, the evaluated directions are the science directions followed by the NGS directions, in order; otherwise the science directions only.', quantifier='all parameter files of the documented types that are accepted')
p('NGS positions are appended after star positions given as an array',
  'When the science positions are given with coo_stars, the evaluated directions are these followed by the NGS directions.',
  'all numbers of stars and NGS', 'the index arithmetic has to be right for every pair of sizes',
  ['p3/aoSystem/aoSystem.py:configLO', 'p3/aoSystem/fourierModel.py:powerSpectrumDensity'])
e('C10', title='Sources get one direction, wavelength and height each', statement='When zenith and azimuth lists have the same length, or one azimuth is given, or one zenith and one wavelength, every source i is at tan(zenith_i)(cos azimuth_i, sin azimuth_i), single values being shared by all sources, and there is one height per source.', quantifier='all such lists')
p('One zenith can be shared by several azimuths at several wavelengths',
  'A source object built from one zenith, several azimuths and several wavelengths has one direction per azimuth.',
  'all such lists', 'every combination of list lengths matters',
  ['p3/aoSystem/source.py:source.__init__'])
e('C12', title='Layers share the turbulence strength', statement='The strengths of the layers of an atmosphere (r0^(-5/3)) add up to the total strength when the weights sum to one, and extracting any layer of an atmosphere as it was built yields exactly the strength, height, wind and outer scale of that layer; indices outside the profile are refused.', quantifier='all profiles and layer indices')
p('An extracted layer is at the current wavelength',
  'After a change of wavelength an extracted layer has the strength of the layer at the new wavelength.',
  'all profiles and wavelength histories', 'profiles and histories are unbounded',
  ['p3/aoSystem/atmosphere.py:atmosphere.__init__', 'p3/aoSystem/atmosphere.py:atmosphere.slab'])
e('C15', title='Actuator index conversion is a bijection on square arrays', statement='For square arrays converting (row, column) to a linear index and back gives the same pair; for all shapes distinct in-range pairs have distinct row-major indices and -1 marks exactly the pairs whose linear index is outside the array.', quantifier='all square shapes, index pairs; all shapes for the second part')
p('Actuator index conversion is a bijection on rectangular arrays',
  'The conversion back gives the same (row, column) for every shape, and out-of-range pairs give -1.',
  'all shapes and index pairs', 'holds for square arrays, so tests on square grids pass',
  ['p3/aoSystem/deformableMirror.py:sub2ind', 'p3/aoSystem/deformableMirror.py:ind2sub'])
e('C23', title='The AO-corrected PSD is embedded in the full grid', statement='The corrected PSD is written pixel by pixel into a block inside the full grid and nothing outside the block is touched; the zero frequency is on the zero frequency for an even grid or an odd corrected area; a corrected area larger than the grid is refused.', quantifier='all grid and corrected-area sizes')
p('The AO-corrected PSD is centred on odd grids, and grids that are too small are found out in advance',
  'For an odd grid and an even corrected area the zero frequencies coincide, and the check of the field of view refuses the grids smaller than the corrected area.',
  'all grid and corrected-area sizes, wavelengths', 'parities of both sizes interact',
  ['p3/aoSystem/fourierModel.py:powerSpectrumDensity', 'p3/aoSystem/fourierModel.py:initComputations'])
e('C31', title='Ensquared energy grows with the box while the box is inside the image', statement='For half-widths that do not exceed the distance of the peak from the lower edges, each value of the curve is the flux fraction inside the box centred on the peak, and the curve of a non-negative image is non-decreasing and in [0, 1].', quantifier='all images, peak positions and such half-widths')
p('Ensquared energy grows with the box up to the whole image',
  'The last value of the curve is one and the curve is non-decreasing.',
  'all images and peak positions', 'fails only for off-centre peaks or odd sizes',
  ['p3/aoSystem/FourierUtils.py:getEnsquaredEnergy'])
e('C48', title='Focal anisoplanatism is non-negative, and grows with altitude in most of the range', statement='The focal-anisoplanatism errors reported are zero without turbulence above the ground, non-negative numbers with layers below the laser, and grow with the altitude of a layer up to 94 % (resp. 78 %) of the laser height.', quantifier='all altitudes, weights and laser heights')
p('Focal anisoplanatism grows up to the laser and the two functions reporting it agree',
  'The error grows with altitude up to the laser height, and the two functions reporting it give the same value.',
  'all altitudes and laser heights', 'all reals',
  ['p3/aoSystem/anisoplanatismModel.py:focal_anisoplanatism_variance'])
e('C57', title='Local time converts to UT before 14 h and within a month', statement='Converting Hawaii local time to UT gives the time of day ten hours later in all cases, and the right calendar date for times before 14 h and for days that are not the last of the month; in the other cases the date is never valid.', quantifier='all dates and times')
p('Local time converts to UT on the last evening of a month',
  'Converting Hawaii local time to UT gives a valid calendar date.',
  'all dates and times', 'month and year ends',
  ['p3/telemetry/massdimm.py'])
e('C58', title='Delayed commands of one actuator are interpolated with unit weight', statement='For one actuator and a delay that is not whole, the delayed command is an affine combination of two successive commands with non-negative weights of sum one.', quantifier='all such delays and commands')
p('Delayed commands of several actuators or whole delays are interpolated with unit weight',
  'For whole delays and several actuators the delayed command is an affine combination of two successive commands of the same actuator.',
  'all delays and numbers of actuators', 'fails exactly at integer delays',
  ['p3/telemetry/systemDiagnosis.py'])
e('C70', title='Resampling an image keeps its centre and its samples', statement='Resampling a square image, or any image with the linear kind, on a grid k times finer succeeds, keeps the central pixel at the centre and goes through all the original samples; resampling on the same grid returns the image. (The interpolant of scipy is assumed to go through its samples.)', quantifier='all such images and zoom factors')
p('Rectangular images can be resampled with the default kind',
  'Resampling a rectangular image with the default kind succeeds.',
  'all rectangular images', 'square test images hide the swapped axes',
  ['p3/aoSystem/FourierUtils.py:interpolateSupport'])
e('C72', title='The width of a peak inside a profile is the distance between its half-maximum crossings', statement='For a profile whose part above half maximum is one interval away from both ends, rising after it enters and falling before it leaves, the width is the distance between the linearly interpolated crossings of half maximum; one bin above half maximum has width one.', quantifier='all such profiles')
p('The width of any profile is defined',
  'The width of a profile that is above half maximum at an end, or has a flat top, is the distance between the crossings.',
  'all profiles', 'failures appear for peaks near the edge and for flat tops',
  ['p3/aoSystem/FourierUtils.py:fwhm_1d'])
e('C74', title='Sources appear where they were put', statement='At one wavelength a source requested at an offset of (dx, dy) detector pixels appears at that offset whatever the binning; at several wavelengths, exactly at those whose binning is the reference one (one for a reference of one or two).', quantifier='all offsets and binning factors')
p('Sources appear where they were put at every wavelength',
  'At several wavelengths a source requested at an offset appears at that offset at every wavelength.',
  'all offsets, binning factors and wavelength sets', 'the factor is wrong for one value of the binning only',
  ['p3/aoSystem/FourierUtils.py:sf_3D_to_psf_3D', 'p3/aoSystem/FourierUtils.py:sf_3D_to_psf_4D'])
e('C94', title='The PSF returned by a fit at one wavelength has unit flux and neither offset nor background', statement='With one wavelength, one frame and the flux index of the decoding, the PSF returned beside the fitted image is the model with the fitted PSD parameters, a star of unit flux, no offset and no background.', quantifier='all numbers of stars and parameter layouts')
p('The PSF returned by a fit at several wavelengths has unit flux and neither offset nor background',
  'The same with several wavelengths.',
  'all numbers of wavelengths', 'the indices of the fluxes depend on all the sizes',
  ['p3/psfFitting/psfFitting.py:psfFitting'])
e('C96', title='Bounds narrowed after a first fit contain the fitted power-spectrum parameters', statement='Updating the bounds from a first fit gives, for the seven parameters of the power spectrum, an interval that contains the fitted value and is inside the model bounds.', quantifier='all fitted values and precisions')
p('Bounds narrowed after a first fit can be used for a second fit',
  'There is one pair of bounds per parameter, with room between them.',
  'all numbers of layers, stars, wavelengths, frames and fixed parameters', 'the precision may be anything, including the code for no precision',
  ['p3/psfao21/psfao21.py:psfao21.update_bounds'])
e('C89', title='Reflectivity and phase act on one segment of a pupil', statement='Changing the reflectivity of a segment replaces it by its shape times the new reflectivity and the phase of its construction; changing its phase keeps its modulus; other segments are untouched.', quantifier='all assembled pupils without overlap, segments, phases and reflectivities')
p('Changing the reflectivity of a segment keeps a phase applied before',
  'Reflectivity and phase can be changed in any order.',
  'all pupils, segments, phases and reflectivities', 'it depends on the history of operations',
  ['p3/aoSystem/pupil.py:pupil.applyReflexivitySegment', 'p3/aoSystem/pupil.py:pupil.applyPhaseErrorSegment'])
e('C90', title='Filling gaps keeps lit pixels and lights dark ones only', statement='Filling the gaps keeps lit pixels as they are and lights only pixels that no segment lights.', quantifier='all segment shapes and layouts')
p('Filling gaps only lights pixels between segments',
  'Filling the gaps lights nothing but pixels between segments, and circular segments can be made.',
  'all segment shapes and layouts', 'it depends on the layout',
  ['p3/aoSystem/pupil.py:pupil.fillGap', 'p3/aoSystem/segment.py:segment.makeSegment'])
e('C100', title='Selected stars can be extracted with even windows', statement='A window of the requested even size, centred on the pixel that holds the star, is extracted for every selected star.', quantifier='all star positions, tile layouts and even window sizes')
p('Selected stars can be extracted with odd windows',
  'A window of the requested odd size is extracted for every selected star.',
  'all star positions, tile layouts and odd window sizes', 'rounding matters only for positions close to a border',
  ['p3/psfFitting/fittingUtils.py:extract_multiple_psf'])
e('C101', title='PSFs are interpolated at the centres of even tiles', statement='For an even tile size that divides the image, the points of interpolation are the centres of the tiles.', quantifier='all numbers of tiles and even tile sizes')
p('PSFs are interpolated at the centres of odd tiles',
  'For odd tile sizes the points of interpolation are the centres of the tiles.',
  'all numbers of tiles and tile sizes', 'rounding depends on parities and remainders',
  ['p3/psfFitting/fittingUtils.py:generate_psfs_grid_from_image'])
e('C102', title='The field value of a parameter lies within its estimates', statement='For positive errors the field value of a parameter is between the smallest and the largest of its estimates.', quantifier='all estimates and positive errors')
p('The field value of a parameter lies within its estimates also when some have no error',
  'Estimates without error, marked -1 or zero, do not spoil the field value.',
  'all estimates and errors', 'special codes and fixed parameters give special errors',
  ['p3/psfFitting/fittingUtils.py:create_spatial_variations_psf_model', 'p3/psfFitting/fittingUtils.py:compute_psfs_grid'])
e('C120', title='Noises of different sensors with one variance each are independent', statement='With one variance per sensor the noise covariance is diagonal with these variances; other numbers of variances raise, except a single one.', quantifier='all numbers of sensors and variances')
p('One variance for all sensors describes independent noises',
  'With a single variance the noise covariance of several sensors is diagonal.',
  'all numbers of sensors', 'numpy broadcasts silently',
  ['p3/aoSystem/fourierModel.py:fourierModel.tomographicReconstructor'])
e('C129', title='Cropping inverts enlarging when the padding is even', statement='Cropping an image enlarged by a whole factor gives back the image when the padding is even on both axes.', quantifier='all such images and factors')
p('Cropping inverts enlarging when the padding is odd',
  'Cropping an image enlarged by a whole factor gives back the image for every size.',
  'all images and factors', 'parity of the padding',
  ['p3/aoSystem/FourierUtils.py:cropSupport', 'p3/aoSystem/FourierUtils.py:enlargeSupport'])
e('C132', title='The noise gain of the loop is non-negative for increasing frequencies', statement='For increasing frequencies and a non-negative spectrum the noise gain is non-negative, and it is one for a flat spectrum over the whole band.', quantifier='all such samples and loop periods')
p('The noise gain of every loop is non-negative',
  'The noise gain is non-negative whatever the loop rate.',
  'all loop rates', 'only slow loops fail',
  ['p3/aoSystem/fourierModel.py:fourierModel.controller'])
e('C150', title='The wavelengths of a filter curve with isolated duplicates become strictly increasing', statement='After the correction, sorted wavelengths with isolated duplicates are strictly increasing.', quantifier='all such curves')
p('The wavelengths of a filter curve with repeated duplicates become strictly increasing',
  'Three equal wavelengths become increasing.',
  'all curves', 'needs three equal wavelengths',
  ['p3/telemetry/keckUtils.py'])
e('C153', title='The points of the zonal covariance match the grid of separations when the pitch divides the aperture', statement='When the aperture is a whole number of pitches the points go from one edge to the other and are as many as the grid of separations assumes.', quantifier='all pitches and such apertures')
p('The points of the zonal covariance match the grid of separations for any aperture',
  'The same for apertures that are not a whole number of pitches.',
  'all pitches and apertures', 'fails when the pitch does not divide the aperture',
  ['p3/psfr/psfrUtils.py:pointWiseLocation', 'p3/psfr/psfrUtils.py:zonalCovarianceToOtf'])
e('C178', title='The computation can be repeated with one sensor', statement='With one sensor and a field of view that is large enough at the science wavelength every further run leaves the system as the first one did; second_run says exactly when a second run succeeds.', quantifier='all fields of view, wavelengths and noise variances')
p('The computation can be repeated with several sensors',
  'A second run succeeds when the first one did.',
  'all numbers of sensors and fields of view', 'histories of calls',
  ['p3/aoSystem/fourierModel.py:initComputations', 'p3/aoSystem/frequencyDomain.py'])
e('C187', title='Contour points are at the level', statement='A contour point of a pixel below the level, next to one above, lies on the ray from the peak to a pixel above the level other than the peak, where the linear interpolation of the two values is the level; contour points come from exactly these pixels.', quantifier='all images and levels')
p('Contour points around a single bright pixel are at the level',
  'Where the only pixel above the level is the peak, contour points are at the level.',
  'all images', 'all images',
  ['p3/aoSystem/FourierUtils.py:find_contour_points'])
e('C188', title='The filter of outliers keeps half of a contour that is not round', statement='If the distances to the peak are not all equal, the filter keeps at least half of the points.', quantifier='all such contours')
p('The filter of outliers keeps a round contour',
  'A contour with all points at one distance of the peak is kept.',
  'all round contours', 'all sets of points',
  ['p3/aoSystem/FourierUtils.py:find_contour_points'])
e('C189', title='The width of an image by cutting or contour is a length on the sky, whatever the resampling', statement='Widths are proportional to the pixel scale for all methods; with the cutting and contour methods they do not depend on the resampling; a contour has the largest and smallest distance to the centre of its box as widths, wherever it is, a circle its diameter; the ellipticity is their ratio.', quantifier='all contours, cuts, pixel scales and resampling factors')
p('The width of an image by fitting does not depend on the resampling, and round contours are measured',
  'The Gaussian and Moffat methods give the same widths after resampling, and the contour method measures a round contour.',
  'all images and resampling factors', 'all images and factors',
  ['p3/aoSystem/FourierUtils.py:getFWHM'])
e('C203', title='The images of the data base of static aberrations depend on the parameters of their labels', statement='With static aberrations as main parameter the PSD of an image is that of the model for its labels.', quantifier='all parameters')
p('The images of the data base of r0 depend on r0',
  'With r0 as main parameter, the default, the images depend on r0.',
  'all parameters', 'all parameters',
  ['p3/deepLoop/dataGenerator.py:generate_psf'])
e('C206', title='A verified data base has its values above the lower edge of their interval', statement='In an accepted data base all values exceed the lower edge of their interval, and all but those of the last column are below the upper one.', quantifier='all data bases')
p('A verified data base has all its values below the upper edge of their interval',
  'Also those of the last column.',
  'all data bases', 'all values',
  ['p3/deepLoop/dataBaseVerification.py:verifyDataBase'])
e('C213', title='Sorting telemetry by date loses no file, can be interrupted anywhere and run again', statement='For a year without a sub-folder named .fits nor a file named as a date, a complete run moves each file to the folder of its date; interrupted at any point each file is in exactly one of the two places with its contents and others are untouched; running again completes the sort.', quantifier='all folders, orders of listing and points of interruption')
p('Sorting telemetry works in every folder',
  'A file named as a date does not stop the sort.',
  'all folders', 'all crash points and listing orders',
  ['p3/telemetry/sphereUtils.py:sort_telemetry_folder'])
e('C232', title='A piston does not degrade the OTF of even size', statement='A PSD limited to its central pixel gives the OTF one for even sizes.', quantifier='all even sizes, pixel scales and values')
p('A piston does not degrade the OTF of odd size',
  'A PSD limited to its central pixel gives the OTF one for odd sizes.',
  'all odd sizes', 'all sizes',
  ['p3/aoSystem/FourierUtils.py:psd2otf', 'p3/aoSystem/FourierUtils.py:psd2cov'])
e('C235', title='telescopePsf has the requested pixel scale from two pixels per lambda/D on', statement='For a sampling of at least two pixels per lambda/D and an exact padding the PSF has the size of the pupil and the pixels asked for.', quantifier='all sizes and such samplings')
p('telescopePsf has the requested pixel scale below two pixels per lambda/D',
  'For coarser samplings the PSF has the pixels asked for.',
  'all sizes and samplings', 'all samplings',
  ['p3/aoSystem/FourierUtils.py:telescopePsf', 'p3/aoSystem/FourierUtils.py:telescopeOtf'])
e('C183', title='The focal structure function of a source in the direction of the star is the variance of the differential phase', statement='For a source in the direction of the star, or a star at infinity, each term is half the variance of the differential phase, non-negative and zero at zero separation; on a symmetric grid the map vanishes at zero separation for all sources.', quantifier='all stationary processes, heights, directions and pairs of points')
p('The focal-angular structure function of an off-axis source is the variance of the differential phase',
  'The same for off-axis sources and stars at finite distance.',
  'all directions', 'all pairs of points and geometries',
  ['p3/aoSystem/anisoplanatismModel.py:focal_angular_function', 'p3/aoSystem/anisoplanatismModel.py:anisoplanatism_structure_function', 'p3/aoSystem/FourierUtils.py:Ialpha'])
e('C186', title='The anisokinetism structure function of uncorrelated tip and tilt is the variance of the differential tilt', statement='For uncorrelated tip and tilt and one source, the value at each separation is the variance of the differential tilt.', quantifier='all variances and grids')
p('The anisokinetism structure function is the variance of the differential tilt',
  'Also for correlated tip and tilt and several sources.',
  'all covariances and numbers of sources', 'all covariances',
  ['p3/aoSystem/anisoplanatismModel.py:anisokinetism_function', 'p3/aoSystem/zernike.py:anisokinetism'])
e('C105', title='The ground layer completes the turbulence profile', statement='When the seeing of the upper layers does not exceed the total one, the ground layer is non-negative and the profile has the total seeing.', quantifier='all seeings and profiles')
p('The ground layer is a number',
  'Also when the seeing of the upper layers exceeds the total one.',
  'all seeings', 'the two instruments are noisy, each may exceed the other',
  ['p3/telemetry/massdimm.py:CombineMASSandDIMM'])
p('Seeing measurements downloaded once serve every later load',
  'After a load that downloaded the three files of a night, this load and every later one of the night use the measurements, whatever the network; later loads change no file and measurements are used only when the three files exist.',
  'all sequences of loads of a night, all states of the network', 'all histories', ['p3/telemetry/massdimm.py:fetch_data', 'p3/telemetry/telemetryKeck.py:telemetryKeck'])
p('A download of seeing measurements that failed or was interrupted is tried again',
  'When files could not be downloaded, or the process was killed, a later load of the night downloads them.',
  'all failures and crash points of the first load, all later loads', 'all crash points', ['p3/telemetry/massdimm.py:fetch_data', 'p3/telemetry/telemetryKeck.py:telemetryKeck'])
p('The weights of the turbulence profile sum to one',
  'Seven non-negative weights that sum to one, proportional to the measured layers above the ground and with the DIMM seeing in total; the median profile when none was measured.',
  'all seeings and measured profiles', 'all values', ['p3/telemetry/telemetryKeck.py:telemetryKeck', 'p3/telemetry/massdimm.py:CombineMASSandDIMM'])
p('Missing layers of a measured profile are not used',
  'A profile with layers flagged as missing is replaced by the median one.',
  'all profiles', 'all values', ['p3/telemetry/telemetryKeck.py:telemetryKeck'])
p('append_mass_dimm gives each image the measurements of its own night',
  'One row of eleven values per image: the measurements closest in time in the files of its UT date and their distances in time, whatever the other rows; it fails without output if a file is missing.',
  'all tables of images and archives', 'all tables', ['p3/telemetry/massdimm.py:append_mass_dimm'])
p('get_mass_dimm_for_image looks up the right UT night',
  'The UT date and time are ten hours after the local ones, headers of the second kind being dated from noon to noon; the twelve-hour clock is read right.',
  'all dates and times', 'all dates', ['p3/telemetry/massdimm.py:get_mass_dimm_for_image'])
p('The transmission curve of a filter is found by its name',
  'The curve of a known filter is found whatever the case and underscores of the name, no other one is; the name is the one of the wheel that does not hold a PK element; the curve holds the rows above one percent in metres and fractions.',
  'all names and curves', 'all names', ['p3/telemetry/keckUtils.py:getFilterName', 'p3/telemetry/keckUtils.py:getFilterProfile'])
p('samplingFilterProfile samples the band of the filter',
  'For a filter wider than bwMin and nWvl at least 2: nWvl wavelengths evenly spaced from the shortest to the longest one above the threshold, their bandwidth, and the transmissions of the least-squares line (exact for a linear curve); otherwise the central wavelength with no bandwidth.',
  'all curves, thresholds below 1 and numbers of wavelengths', 'all curves', ['p3/telemetry/keckUtils.py:samplingFilterProfile'])
p('samplingFilterProfile returns one dispersion per wavelength',
  'As many dispersions and transmissions as wavelengths.',
  'all curves and numbers of wavelengths', 'all numbers', ['p3/telemetry/keckUtils.py:samplingFilterProfile'])
p('The airmass follows from the elevation',
  'Zenith angle and elevation sum to 90 degrees; the airmass is 1 at the zenith, above 1 elsewhere, and decreases with elevation.',
  'all elevations above the horizon', 'all values', ['p3/telemetry/keckUtils.py:getTelescopeAirmass'])
p('A test of six parameters simulates and fits the PSFs of those parameters',
  'In deepLoopPerformance, a test with the six PSD parameters builds the PSFs of these with zero orientation, no jitter, unit flux, centred, without background or static modes; a fit of it always runs and the six fitted parameters are the ones kept.',
  'all values of the six parameters, all solvers', 'all parameters', ['p3/deepLoop/deepLoopPerformance.py:get_psf_metrics'])
p('The static coefficients of a test are those of its PSFs',
  'With static modes, the PSFs of a test have its static coefficients and a fit of it gives one per mode.',
  'all numbers of modes and coefficients', 'all numbers', ['p3/deepLoop/deepLoopPerformance.py:get_psf_metrics'])
p('The accuracy of an estimated PSF is measured consistently',
  'The photometric error of an estimate c times the truth plus a background is -2.5 log10 c; the PSF error is non-negative, zero only for the true PSF and independent of the flux unit; the rms difference is at least the mean absolute one.',
  'all images that are not constant', 'all images', ['p3/deepLoop/deepLoopPerformance.py:get_psf_metrics'])
p('A random start of a fit stays within the range of the test',
  'Each parameter of the start is within the extreme values of the test, and is the true value times the random factor when that is within; the other starts are the truth or the median, anything else is refused.',
  'all tests and random factors', 'all values', ['p3/deepLoop/deepLoopPerformance.py:get_psf_metrics'])
p('The start is scattered by the amplitude asked for',
  'init=a draws the start at a relative distance of standard deviation a from the truth.',
  'all amplitudes', 'all values', ['p3/deepLoop/deepLoopPerformance.py:get_psf_metrics'])
p('The accuracy tables give the bias and scatter of the errors in percent',
  'measure_accuracy_metrics reports the mean of the errors and their scatter over all PSFs, in percent as labelled.',
  'all tests and errors', 'all values', ['p3/deepLoop/deepLoopPerformance.py:measure_accuracy_metrics'])
p('The result folders are analysed in the order of their numbers',
  'measure_accuracy_metrics_multiple_folders takes each folder once, in increasing order of the number at the end of its name, and fails if a name has none.',
  'all lists of folders', 'all lists', ['p3/deepLoop/deepLoopPerformance.py:measure_accuracy_metrics_multiple_folders'])
p('The second stage of the split fit refines the first',
  'When the first stage ended within ordered bounds with positive errors on the seven PSD parameters, the second stage runs; each PSD parameter stays within 5/3 of its error of the first value and within the bounds, jitter is zero, and flux, position, background and static modes are within their bounds.',
  'all results of the first stage, bounds and solvers that respect bounds', 'all values', ['p3/psfFitting/fittingUtils.py:split_fitting_psfao'])
p('The split fit completes whatever was fixed in the first stage',
  'Fixing PSD parameters in the first stage does not prevent the second from running.',
  'all masks', 'all masks', ['p3/psfFitting/fittingUtils.py:split_fitting_psfao'])
p('split_fitting_psfao and joint_fit use the start, mask and weights given',
  'The arguments x0, fixed and weights are those of the fit.',
  'all arguments', 'all arguments', ['p3/psfFitting/fittingUtils.py:split_fitting_psfao', 'p3/psfFitting/fittingUtils.py:joint_fit'])
p('fits_2_dict names each column of the table of fits',
  '111 distinct names: the descriptors, then the fifty parameters, then their errors; each gives its column, in the order of the rows.',
  'all tables', 'all tables', ['p3/psfFitting/fittingUtils.py:fits_2_dict'])
p('fit_all_PSFs fits every PSF of the folder once',
  'One row per file that passes the selection, each file once, with any number of static modes.',
  'all folders, draws and numbers of modes', 'all random draws', ['p3/psfFitting/fittingUtils.py:fit_all_PSFs'])
p('read_catalog reads the catalogue of stars',
  'With one header line, the labels are the words of the first line and column k holds the k-th value of each line in order.',
  'all files', 'all files', ['p3/psfFitting/fittingUtils.py:read_catalog'])
p('read_catalog skips the header lines',
  'With nSkip header lines, the columns hold the values of the lines after them.',
  'all files and nSkip', 'all files', ['p3/psfFitting/fittingUtils.py:read_catalog'])
p('Simulated telemetry is free of static offsets',
  'Slopes, commands, residual commands and tip-tilt commands read by telemetryKASP have zero mean over the frames, and without LGS the tip-tilt slopes too; adding a constant to the measurements of a sensor or to the commands of an actuator changes no field.',
  'all simulation files with at least two frames', 'all numbers of frames and all values', ['p3/telemetry/telemetryKASP.py:populating_fields'])
p('Simulated tip-tilt slopes are free of static offsets with a laser guide star',
  'With a laser guide star, the tip-tilt slopes read by telemetryKASP have zero mean over the frames.',
  'all simulation files with a laser guide star', 'all values', ['p3/telemetry/telemetryKASP.py:populating_fields'])
p('Residuals of simulated telemetry are the reconstructed slopes, without tip-tilt for a laser guide star',
  'Each frame of residual commands is the reconstructor applied to the centred slopes; with a laser guide star both filters are applied, commands and residuals have no component the mirror filter removes, and slopes the sensor filter removes do not change the residuals.',
  'all simulation files, filters and reconstructors', 'all matrices', ['p3/telemetry/telemetryKASP.py:populating_fields'])
p('The wavefront error of simulated telemetry is the rms of its residuals in nanometres',
  'rec.wfe is non-negative, its square times the number of commands is the sum over the actuators of the mean square residual in nm^2, it is zero only without residuals, and scales with the slopes.',
  'all simulation files with a positive number of commands', 'all values', ['p3/telemetry/telemetryKASP.py:populating_fields'])
p('Simulated telemetry can be read again and describes atmosphere and loops',
  'Reading the fields again from the loaded data, altered in place by the first reading, gives the same telemetry; Cn2 is r0^(-5/3) shared by the weights, seeing times r0 is 0.976 wavelengths in arcseconds, zenith angles are in arcseconds, and both loops are pure integrators of their gain.',
  'all simulation files, any number of readings', 'all histories of readings', ['p3/telemetry/telemetryKASP.py:populating_fields'])
p('Spiders are straight bars of the requested width',
  'A symmetric spider through the centre darkens exactly the pixels closer to its line than half its width; a one-sided one those on the side opposite to its angle, from its starting point; the width differs from the one asked for by less than a relative (w/D)^2/8.',
  'all widths of at least a pixel up to the aperture, angles, starting points in the map, resolutions and pixels', 'all pixels and angles', ['p3/aoSystem/spiders.py:makeSpiders'])
p('Petals can be used whenever they were asked for',
  'After makeSpiders(getPetal=True) the number of petals can be read.',
  'all spiders', 'all widths', ['p3/aoSystem/spiders.py:makeSpiders', 'p3/aoSystem/pupil.py:applyPhasePetal'])
p('A phase applied to petals changes the phase only, petal by petal',
  'applyPhasePetal keeps the amplitude of every pixel and adds to the stored phase the given coefficients times the modes of the petals, whatever their order; petals that do not exist are ignored; with the wrong number of coefficients nothing changes.',
  'all pupils, modes, petals and coefficients', 'all maps and lists', ['p3/aoSystem/pupil.py:applyPhasePetal'])
p('Phases applied to petals one after the other add up',
  'Two calls of applyPhasePetal give the sum of their phases.',
  'all pupils and sequences of calls', 'all histories', ['p3/aoSystem/pupil.py:applyPhasePetal'])
p('Reset restores the pupil as it was built',
  'After any sequence of petal phases, reset gives the map, phase and reflexivity of the pupil when it was built.',
  'all pupils and histories', 'all histories', ['p3/aoSystem/pupil.py:reset'])
p('Building a pupil does not alter the segment it is built from',
  'The segment given to (or the default of) pupil is unchanged, so that pupils built one after the other from it are the same.',
  'all segments and numbers of pupils', 'all histories', ['p3/aoSystem/pupil.py:pupil', 'p3/aoSystem/pupil.py:fillGap'])
p('The positivity term penalises models above the image only',
  'With alpha_positivity the cost is the weighted sum of squares plus alpha times its part where the model exceeds the image: it grows with alpha, is at most 1+alpha times the plain cost and vanishes for the same models.',
  'all images, models, non-negative weights and alpha', 'all values', ['p3/psfFitting/psfFitting.py:psfFitting'])
p('Weights of a fit have the shape of the image',
  'Weights that are not of the size of the image are refused with a ValueError; others weigh pixel by pixel.',
  'all shapes of weights', 'all shapes', ['p3/psfFitting/psfFitting.py:psfFitting'])
p('query_sparta_data asks for missing data only',
  'A query that ends asks once for each folder without data of the visible sensor (for all with redo), in order, leaves the others alone, and a second one asks for nothing.',
  'all folders, and scripts that leave a file of the sensor when they succeed', 'all folders and histories', ['p3/telemetry/sphereUtils.py:query_sparta_data'])
p('An interrupted query of SPARTA data is completed by the next',
  'After a query stopped by an exception in any folder, the next one completes all folders without asking again for those that were done.',
  'all points of interruption and contents of folders', 'all crash points', ['p3/telemetry/sphereUtils.py:query_sparta_data'])
p('AO systems can be printed',
  'print(aoSystem) describes the system.',
  'all systems', 'all systems', ['p3/aoSystem/deformableMirror.py:__repr__', 'p3/aoSystem/optics.py:__repr__', 'p3/aoSystem/aoSystem.py:__repr__'])
p('Printed delays are those of the loops',
  'The delays printed in milliseconds are the numbers of frames divided by the rate of the loop.',
  'all rates and delays', 'all values', ['p3/aoSystem/rtc.py:__repr__'])
p('The temporal error is the turbulence filtered by the rejection of the loop',
  'With one guide star and the least-squares reconstructor, the residual of a frequency the sensor measures is, on axis, the sum over the layers of the turbulence times the squared rejection of the loop at the temporal frequency of the layer; turbulence that does not move is corrected up to the machine precision, and off axis leaves the anisoplanatism reported.',
  'all systems with one guide star, layers, winds, gains and measured frequencies', 'all real parameters', ['p3/aoSystem/fourierModel.py:spatioTemporalPSD', 'p3/aoSystem/fourierModel.py:controller', 'p3/aoSystem/fourierModel.py:anisoplanatismPSD'])
p('The noise spectrum of a Shack-Hartmann follows one convention',
  'The noise spectrum is the noise variance times the gain of the loop divided by the squared response of the sensor; with sub-apertures of the size of the pitch the response is the one used with several guide stars.',
  'all systems with one guide star and measured frequencies', 'all real parameters', ['p3/aoSystem/fourierModel.py:noisePSD', 'p3/aoSystem/fourierModel.py:reconstructionFilter', 'p3/aoSystem/fourierModel.py:tomographicReconstructor'])
p('Directions mean the same with one guide star and with several',
  'The decorrelation between a source and the guide star is that of their separation in both coordinates, as in tomography.',
  'all systems, directions and frequencies', 'all real parameters', ['p3/aoSystem/fourierModel.py:spatioTemporalPSD', 'p3/aoSystem/fourierModel.py:anisoplanatismPSD'])
p('Differential refraction acts along the azimuth of the source',
  'The refraction error of a source at an azimuth in degrees is that of a shift in this direction.',
  'all systems, azimuths and frequencies', 'all real parameters', ['p3/aoSystem/fourierModel.py:differentialRefractionPSD'])
p('The residual scales with the strength of the turbulence',
  'With the least-squares reconstructor each spectrum but noise is multiplied by r^(-5/3) when r0 is multiplied by r; noise is unchanged.',
  'all systems with one guide star, frequencies and factors', 'all real parameters', ['p3/aoSystem/fourierModel.py:powerSpectrumDensity', 'p3/aoSystem/fourierModel.py:aliasingPSD'])
p('Aliasing is the one of a Shack-Hartmann',
  'With the least-squares reconstructor the aliasing of a frequency is the sum over its replicas of the turbulence times the weight given by Rigaut, filtered by the loop and the wind; the centre has none; on an axis only the replicas along it alias.',
  'all systems, frequencies and numbers of replicas', 'all real parameters', ['p3/aoSystem/fourierModel.py:aliasingPSD'])
p('Spectra are the same at opposite frequencies',
  'The power spectrum of a real phase is the same at a frequency and its opposite.',
  'all systems, sources and frequencies', 'all real parameters', ['p3/aoSystem/fourierModel.py:powerSpectrumDensity', 'p3/aoSystem/fourierModel.py:aliasingPSD'])
p('The cone effect of one laser is an error of the turbulence above the ground',
  'When it is defined it is between zero and four times the turbulence at each frequency, and zero when all the turbulence is on the ground.',
  'all telescopes, profiles, laser altitudes, grids and frequencies', 'all real parameters and lists of frequencies', ['p3/aoSystem/fourierModel.py:focalAnisoplanatismPSD'])
p('Frequencies the mirror does not correct hold the turbulence once',
  'With one laser, a frequency beyond the cut-off of the mirror gets the spectrum of the turbulence and no cone effect.',
  'all telescopes, profiles, laser altitudes and frequencies', 'all real parameters', ['p3/aoSystem/fourierModel.py:focalAnisoplanatismPSD', 'p3/aoSystem/fourierModel.py:powerSpectrumDensity'])
p('The cone effect is defined for every profile',
  'The spectrum with one laser is a number for every profile of turbulence.',
  'all profiles and altitudes of the laser', 'all real parameters', ['p3/aoSystem/fourierModel.py:focalAnisoplanatismPSD'])
p('The cone effect of a constellation never exceeds the turbulence and follows its geometry',
  'The residual with the error of the constellation is at most the larger of residual and turbulence; the error is zero towards sources in the field that the lasers cover together, grows with the distance to the axis up to the lasers and decreases outside.',
  'all constellations, profiles, sources and frequencies', 'all real parameters', ['p3/aoSystem/fourierModel.py:mcaoWFsensConePSD'])
p('Vibrations are reported with their residual power',
  'The variance reported for the vibrations is their residual power.',
  'all grids, masks and powers', 'all grids', ['p3/aoSystem/fourierModel.py:windShakePSD', 'p3/aoSystem/fourierModel.py:errorBreakDown'])
p('Reducing the memory does not change the results',
  'The spectrum and the breakdown of a model built with reduce_memory are those of the model built without, and one is built exactly when the other is.',
  'all configurations and all values of the arrays', 'all orders of computing and freeing arrays', ['p3/aoSystem/fourierModel.py:powerSpectrumDensity', 'p3/aoSystem/fourierModel.py:errorBreakDown', 'p3/aoSystem/fourierModel.py:spatialReconstructor'])
p('Spectrum and breakdown can be computed again',
  'Without reduce_memory, after any sequence of calls of powerSpectrumDensity and errorBreakDown nothing was raised and the numbers are those of the first calls.',
  'all configurations and histories of calls', 'all histories', ['p3/aoSystem/fourierModel.py:powerSpectrumDensity', 'p3/aoSystem/fourierModel.py:errorBreakDown'])
p('Spectrum and breakdown can be computed again after the memory was reduced',
  'With reduce_memory, after any sequence of calls of powerSpectrumDensity and errorBreakDown nothing was raised and the numbers are those of the first calls.',
  'all configurations and histories of calls', 'all histories', ['p3/aoSystem/fourierModel.py:powerSpectrumDensity', 'p3/aoSystem/fourierModel.py:errorBreakDown'])
p('The Strehl ratio of the image is at least the Marechal one',
  'Without static aberrations and jitter, the Strehl ratio of the image is between 100 exp(-s^2) and 100 percent, where s is the rms of the residual phase at the wavelength of the image; so the Marechal Strehl ratio of the breakdown never exceeds it.',
  'all pupils, spectra, wavelengths and positions of the source', 'an inequality between sums over arrays of any size', ['p3/aoSystem/FourierUtils.py:sf_3D_to_psf_4D', 'p3/aoSystem/fourierModel.py:phaseStructureFunction', 'p3/aoSystem/fourierModel.py:errorBreakDown'])
p('Each additional error lowers the Strehl ratio, and not too much',
  'Adding an error of rms phase s to the spectrum lowers the Strehl ratio, at most by the factor exp(-2 s^2), whatever the static aberrations, jitter, pixel and position; with the same instrument a longer wavelength has a higher Strehl ratio.',
  'all instruments, spectra and wavelengths', 'an inequality between sums over arrays of any size', ['p3/aoSystem/FourierUtils.py:sf_3D_to_psf_4D', 'p3/aoSystem/fourierModel.py:phaseStructureFunction'])
p('Strehl ratios at several wavelengths are relative to the diffraction limit of each',
  'A telescope without any error has a Strehl ratio of 100 percent at every wavelength.',
  'all pupils and samplings', 'all sizes and pupils', ['p3/aoSystem/FourierUtils.py:sf_3D_to_psf_4D', 'p3/aoSystem/FourierUtils.py:getStaticOTF', 'p3/aoSystem/frequencyDomain.py'])
p('The description of the turbulence profile in layers does not matter',
  'With several guide stars, layers at the same height and with the same wind may be given together or in parts, in any order, and layers without strength may be dropped: the commands of the mirrors and the residual and noise spectra of every source are the same.',
  'all observations, splittings and frequencies', 'matrices of any size', ['p3/aoSystem/fourierModel.py:tomographicReconstructor', 'p3/aoSystem/fourierModel.py:optimalProjector', 'p3/aoSystem/fourierModel.py:spatioTemporalPSD', 'p3/aoSystem/fourierModel.py:noisePSD'])
p('Sensors on the same star share its light without loss',
  'With several guide stars, several sensors on the same star are equivalent to one whose inverse noise variance is the sum of theirs: the commands are shared in proportion and the spectra are the same; in particular the order of the guide stars does not matter.',
  'all observations, splittings and frequencies', 'matrices of any size and their generalised inverses', ['p3/aoSystem/fourierModel.py:tomographicReconstructor', 'p3/aoSystem/fourierModel.py:spatioTemporalPSD', 'p3/aoSystem/fourierModel.py:noisePSD'])
p('Turning the whole observation turns its spectra',
  'With several guide stars, a quarter turn or a mirror image of stars, optimisation directions, winds and target turns the residual and noise spectra.',
  'all observations and symmetries of the square', 'all geometries and frequencies', ['p3/aoSystem/fourierModel.py:tomographicReconstructor', 'p3/aoSystem/fourierModel.py:optimalProjector', 'p3/aoSystem/fourierModel.py:spatioTemporalPSD', 'p3/aoSystem/fourierModel.py:noisePSD'])
p('Spectra are even',
  'With several guide stars the residual and noise spectra, which are those of a real phase, are the same at opposite frequencies.',
  'all observations and frequencies', 'all geometries and frequencies', ['p3/aoSystem/fourierModel.py:spatioTemporalPSD', 'p3/aoSystem/fourierModel.py:noisePSD'])
p('The list of optimisation directions is a weighting of the field',
  'Optimisation directions may be given several times, in parts whose weights add up, or in another order, without a change of commands and spectra.',
  'all observations and frequencies', 'matrices of any size and their generalised inverses', ['p3/aoSystem/fourierModel.py:optimalProjector'])
p('Tomographic errors in nanometres do not depend on the science wavelength',
  'With several guide stars and a noise computed by the model, the commands and the residual and noise errors in nanometres are the same whatever the science wavelength of reference.',
  'all observations and wavelengths', 'all real wavelengths', ['p3/aoSystem/fourierModel.py:tomographicReconstructor', 'p3/aoSystem/fourierModel.py:spatioTemporalPSD', 'p3/aoSystem/fourierModel.py:noisePSD', 'p3/aoSystem/sensor.py:computeNoiseVarianceAtWavelength'])
p('Anisoplanatism is along the direction of the target',
  'With one guide star, the anisoplanatism spectrum at a frequency is given by the component along this frequency of the offset between target and star.',
  'all systems, targets and frequencies', 'all real directions and frequencies', ['p3/aoSystem/fourierModel.py:anisoplanatismPSD', 'p3/aoSystem/fourierModel.py:spatioTemporalPSD'])
p('Turning an observation with one guide star turns its spectra',
  'A quarter turn or a mirror image of winds and target turns the spectra of noise, servo-lag, anisoplanatism, chromatism, fitting and the spatio-temporal one.',
  'all systems and symmetries of the square', 'all geometries and frequencies', ['p3/aoSystem/fourierModel.py:spatioTemporalPSD', 'p3/aoSystem/fourierModel.py:servoLagPSD', 'p3/aoSystem/fourierModel.py:anisoplanatismPSD'])
p('Layers may be given in parts, with one guide star',
  'With one guide star, layers at the same height and with the same wind may be given together or in parts, in any order, and layers without strength may be dropped: no contribution to the spectrum changes.',
  'all systems and splittings', 'sums over any number of layers', ['p3/aoSystem/fourierModel.py:controller', 'p3/aoSystem/fourierModel.py:aliasingPSD', 'p3/aoSystem/fourierModel.py:spatioTemporalPSD', 'p3/aoSystem/fourierModel.py:differentialRefractionPSD'])
p('Errors in nanometres do not depend on the science wavelength, with one guide star',
  'With one guide star and a noise computed by the model, the noise, aliasing, spatio-temporal and fitting errors in nanometres are the same whatever the science wavelength of reference.',
  'all systems and wavelengths', 'all real wavelengths', ['p3/aoSystem/fourierModel.py:spatialReconstructor', 'p3/aoSystem/fourierModel.py:noisePSD', 'p3/aoSystem/fourierModel.py:aliasingPSD', 'p3/aoSystem/fourierModel.py:spatioTemporalPSD', 'p3/aoSystem/fourierModel.py:fittingPSD'])
p('Only relative directions matter',
  'With several guide stars, displacing guide stars, optimisation directions and target together changes neither the residual nor the noise of the target.',
  'all observations, displacements and frequencies', 'all real directions; matrices of any size', ['p3/aoSystem/fourierModel.py:tomographicReconstructor', 'p3/aoSystem/fourierModel.py:optimalProjector', 'p3/aoSystem/fourierModel.py:spatioTemporalPSD', 'p3/aoSystem/fourierModel.py:noisePSD'])
p('Turbulence at the height of the mirror is corrected alike in the whole field',
  'When all the turbulence is at the height with which the mirrors are conjugated, the residual and noise spectra are the same towards all targets.',
  'all such observations, targets and frequencies', 'all real directions; matrices of any size', ['p3/aoSystem/fourierModel.py:spatioTemporalPSD', 'p3/aoSystem/fourierModel.py:noisePSD', 'p3/aoSystem/fourierModel.py:optimalProjector', 'p3/aoSystem/fourierModel.py:initComputations'])
p('Heights and angles count through their products',
  'With several guide stars, multiplying the heights of layers and mirrors by a factor and dividing all angles by it changes neither commands nor spectra.',
  'all observations, factors and frequencies', 'all real factors; matrices of any size', ['p3/aoSystem/fourierModel.py:tomographicReconstructor', 'p3/aoSystem/fourierModel.py:optimalProjector', 'p3/aoSystem/fourierModel.py:spatioTemporalPSD', 'p3/aoSystem/fourierModel.py:noisePSD'])
p('Delay and distance of the target add up as displacements of the layers',
  'With several guide stars and mirrors on the ground, two delays and targets for which every layer is displaced alike (line of sight minus way of the wind) have the same residual spectrum.',
  'all observations, delays and targets', 'all real delays, winds and directions', ['p3/aoSystem/fourierModel.py:spatioTemporalPSD'])
p('Only the ratio of wind speed and loop rate matters',
  'Multiplying the wind speeds and the loop rate by the same factor changes no contribution to the spectrum, with one or with several guide stars (for a noise variance that is given).',
  'all systems, factors and frequencies', 'all real speeds and rates', ['p3/aoSystem/fourierModel.py:controller', 'p3/aoSystem/fourierModel.py:aliasingPSD', 'p3/aoSystem/fourierModel.py:spatioTemporalPSD', 'p3/aoSystem/fourierModel.py:reconstructionFilter'])
p('Dead pixels are replaced by the weighted mean of their neighbours',
  'A list of dead pixels can be made from any map of them, and correcting an image with it replaces each listed pixel by the weighted mean of its good neighbours and leaves the other pixels as they are.',
  'all images, maps and lists', 'lists of any size, all pixel values and weights', ['p3/aoSystem/FourierUtils.py:createDeadPixFrame', 'p3/aoSystem/FourierUtils.py:correctFromDeadPixels'])
p('Rotating a pupil rotates its reflexivity and its phase and records its angle',
  'After a rotation, map, reflexivity, phase and support agree, the aberrations present before are rotated with the pupil, and the recorded angle is that of the pupil.',
  'all pupils, angles and histories of rotations', 'histories of any length and any aberrations', ['p3/aoSystem/pupil.py:rotatePupil', 'p3/aoSystem/pupil.py:applyPhasePetal'])
p('Resizing a pupil gives the size asked for and keeps its geometry',
  'After resize the map has the number of pixels asked for, the diameter in metres is kept, and segments keep their size in metres.',
  'all pupils and histories of sizes', 'histories of any length', ['p3/aoSystem/pupil.py:resize', 'p3/aoSystem/pupil.py:getPosSeg'])
p('Gaps are filled from a surrounded segment whenever there is one',
  'The reference segment for the filling of gaps is the first one whose window is lit at its corners and in the middle of its sides; the first segment when there is none.',
  'all numbers and sizes of segments', 'any number of segments', ['p3/aoSystem/pupil.py:findBestSegmentforFillGap'])
p('Files given for a telescope are used or reported',
  'The pupil of a telescope is read from the file that is given when this is a FITS file; a path that cannot be used is reported.',
  'all paths and file systems', 'all names of files', ['p3/aoSystem/telescope.py:telescope.__init__'])
p('Maps read from files have the resolution of the telescope',
  'Pupil, apodizer and aberration maps read from files are square maps of the resolution of the telescope, with zeros in place of what is not a number.',
  'all maps, angles and resolutions', 'all sizes', ['p3/aoSystem/telescope.py:telescope.__init__', 'p3/aoSystem/FourierUtils.py:interpolateSupport'])
p('Influence functions and example masks can be computed',
  'A deformable mirror with a resolution gets its influence functions, and the masks of Keck and of the VLT given as examples can be made.',
  'all mirrors and resolutions', 'all parameters of mirrors', ['p3/aoSystem/deformableMirror.py:setInfluenceFunction', 'p3/aoSystem/spiders.py:keckSpiderMask', 'p3/aoSystem/spiders.py:vltSpiderMask'])
p('Means along diagonals recover a stationary covariance',
  'On a matrix whose entries depend on the distance to the diagonal only, get_diags gives these entries and toeplitz the same times the lengths of the diagonals.',
  'all sizes, also rectangular', 'all sizes and values', ['p3/aoSystem/FourierUtils.py:get_diags', 'p3/aoSystem/FourierUtils.py:toeplitz'])
p('Reading a parameter file of SPHERE does not change it',
  'Reading a parameter file, with or without another modal basis, gives its contents with this basis and changes no file.',
  'all files and bases', 'all contents of files and histories of calls', ['p3/telemetry/sphereUtils.py:reading_ini_file'])
p('The atmosphere follows the laws of the zenith angle',
  'Compared to the zenith, an observation at a zenith angle with cosine c has a Fried parameter and a coherence time multiplied by c^(3/5), a seeing divided by it, heights and mean height divided by c, an isoplanatic angle (infinite outer scale) multiplied by c^(8/5), and a focal anisoplanatism error of the laser divided by the square root of c.',
  'all profiles, zenith angles between -90 and 90 degrees and diameters', 'real powers, profiles of any length', ['p3/aoSystem/aoSystem.py:aoSystem.__init__', 'p3/aoSystem/atmosphere.py:atmosphere.theta0', 'p3/aoSystem/atmosphere.py:atmosphere.tau0', 'p3/aoSystem/atmosphere.py:atmosphere.meanHeight'])
p('The isoplanatic angle is where the structure function is two',
  'Without outer scale, at a separation of the isoplanatic angle the structure functions of all layers at the separations of the two beams sum up to two.',
  'all profiles with a layer above the ground', 'profiles of any length', ['p3/aoSystem/atmosphere.py:atmosphere.theta0', 'p3/aoSystem/atmosphere.py:atmosphere.structureFunction'])
p('Seeing and Fried parameter are two ways to say the same',
  'A parameter file with the seeing and one with the Fried parameter that corresponds to it give the same system, the seeing of this system at the zenith is the one given, and the automatic field of view is the same.',
  'all profiles, angles, seeings and wavelengths', 'real numbers', ['p3/aoSystem/aoSystem.py:aoSystem.__init__', 'p3/aoSystem/atmosphere.py:atmosphere.seeing', 'p3/aoSystem/fourierModel.py:fourierModel.__init__'])
p('The zenith angle stretches heights exactly once',
  'All distances to layers are multiplied by the airmass, once, wherever they are used: in the spectra, in the compressed profile and in the anisoplanatism.',
  'all profiles, lasers and angles', 'profiles of any length, all frequencies', ['p3/aoSystem/aoSystem.py:aoSystem.__init__', 'p3/aoSystem/fourierModel.py:initComputations', 'p3/aoSystem/anisoplanatismModel.py:anisoplanatism_wfe', 'p3/aoSystem/anisoplanatismModel.py:anisoplanatism_structure_function'])
p('Off the zenith is at the zenith with a larger field and stronger turbulence',
  'The spectra of an observation through a airmasses are those at the zenith of a field a times larger, with turbulence a times stronger and mirrors conjugated a times lower.',
  'all observations with one or several guide stars, frequencies and directions', 'all frequencies and geometries', ['p3/aoSystem/aoSystem.py:aoSystem.__init__', 'p3/aoSystem/fourierModel.py:powerSpectrumDensity'])
p('Zenith angles are accepted above the horizon only',
  'A system is built for angles above the horizon, with an airmass of one at least, and refused for the others.',
  'all angles', 'real numbers', ['p3/aoSystem/aoSystem.py:aoSystem.__init__', 'p3/aoSystem/telescope.py:telescope.airmass'])
p('The unit of length does not matter',
  'Describing the same system in another unit of length (diameters, pitches, heights, Fried parameter, outer scale and wind in it, frequencies in its inverse) multiplies every spectrum by the squared ratio of the units and leaves the final PSD, per sample, as it is.',
  'all systems with one or several guide stars, frequencies, directions and ratios of units', 'no finite set of systems shows that no constant with a length is hidden in the code', ['p3/aoSystem/fourierModel.py:powerSpectrumDensity', 'p3/aoSystem/fourierModel.py:reconstructionFilter', 'p3/aoSystem/fourierModel.py:tomographicReconstructor'])
p('A star too faint corrects nothing',
  'As the noise of the guide stars grows, the noise and the aliasing of the correction vanish and the spectrum tends to that of the turbulence without correction.',
  'all systems with one or several guide stars', 'a limit', ['p3/aoSystem/fourierModel.py:noisePSD', 'p3/aoSystem/fourierModel.py:spatioTemporalPSD', 'p3/aoSystem/fourierModel.py:reconstructionFilter', 'p3/aoSystem/fourierModel.py:tomographicReconstructor'])
p('Fainter guide stars never improve the correction',
  'Multiplying the noise variance of the guide stars by a larger factor never decreases the sum of the spatio-temporal error and of the noise.',
  'all systems, noises and frequencies', 'all pairs of noises, any number of stars and layers', ['p3/aoSystem/fourierModel.py:noisePSD', 'p3/aoSystem/fourierModel.py:spatioTemporalPSD', 'p3/aoSystem/fourierModel.py:tomographicReconstructor'])
p('Correcting is never worse than not correcting',
  'Within the corrected area the sum of the spatio-temporal error and of the noise is at most the turbulence.',
  'all systems, noises and frequencies', 'any number of stars, layers and mirrors', ['p3/aoSystem/fourierModel.py:noisePSD', 'p3/aoSystem/fourierModel.py:spatioTemporalPSD'])
p('The pixel of a reconstructed PSF is one detector pixel',
  'In PSF reconstruction the transfer function of the pixel blurs the high-resolution PSF by a square of the size of one detector pixel, whatever the wavelength, the pixel scale and the oversampling of the computation.',
  'all transfer functions, positions, wavelengths, pixel scales, diameters and oversampling factors', 'all transfer functions and positions', ['p3/psfr/psfR.py:pixel_optical_transfer_function', 'p3/psfr/psfR.py:__init__', 'p3/aoSystem/frequencyDomain.py:sampRef'])
p('The pixel option of the Fourier model is one detector pixel',
  'With addOtfPixel the high-resolution PSF is blurred by a square of the size of one detector pixel.',
  'all transfer functions, sizes and oversampling factors', 'all transfer functions and factors', ['p3/aoSystem/fourierModel.py:point_spread_function', 'p3/aoSystem/FourierUtils.py:instantiateAngularFrequencies'])
p('A PSF with pixel holds what the detector records',
  'With the transfer function of the pixel, each pixel of the PSF before normalisation holds the flux of the fine PSF integrated over this pixel.',
  'all transfer functions, sizes and oversampling factors', 'all transfer functions and factors', ['p3/aoSystem/fourierModel.py:point_spread_function', 'p3/psfr/psfR.py:pixel_optical_transfer_function', 'p3/aoSystem/FourierUtils.py:binning', 'p3/aoSystem/FourierUtils.py:sf_3D_to_psf_3D', 'p3/aoSystem/FourierUtils.py:sf_3D_to_psf_4D'])
p('The pixel option attenuates and lowers the Strehl ratio',
  'The transfer function of the pixel is one at zero frequency and at most one elsewhere; the Strehl ratio reported with the pixel option is at most the one without, and lower as soon as a frequency other than zero is transmitted.',
  'all optics, structure functions, wavelengths and sizes', 'all transfer functions', ['p3/aoSystem/fourierModel.py:point_spread_function', 'p3/psfr/psfR.py:pixel_optical_transfer_function', 'p3/aoSystem/FourierUtils.py:sf_3D_to_psf_4D'])
p('The result of a call does not depend on earlier calls',
  'A PSF model called with a vector of parameters returns the images and Strehl ratios that a new model would return, whatever vectors it was called with before.',
  'all telescopes, static modes, parameter vectors and histories of calls', 'all histories of calls', ['p3/aoSystem/FourierUtils.py:sf_3D_to_psf_3D', 'p3/aoSystem/FourierUtils.py:sf_3D_to_psf_4D', 'p3/aoSystem/FourierUtils.py:getStaticOTF', 'p3/aoSystem/fourierModel.py:point_spread_function', 'p3/psfao21/psfao21.py:__call__', 'p3/psfr/psfR.py:__call__', 'p3/aoSystem/frequencyDomain.py:__init__'])
p('The angle given for the static map is applied',
  'Images computed with an angle of the pupil are those of the telescope whose map of static aberrations was rotated by this angle.',
  'all telescopes, maps, angles, wavelengths and parameter vectors', 'all maps and angles', ['p3/aoSystem/FourierUtils.py:getStaticOTF', 'p3/aoSystem/FourierUtils.py:sf_3D_to_psf_3D', 'p3/aoSystem/FourierUtils.py:sf_3D_to_psf_4D', 'p3/psfr/psfR.py:__init__', 'p3/psfr/psfR.py:__call__'])
p('PSF reconstruction returns one image per star and wavelength',
  'Calling the reconstruction returns one image for each star and wavelength, with the flux asked for above the background.',
  'all numbers of stars and wavelengths, image sizes, images, fluxes and backgrounds', 'all numbers of stars and wavelengths', ['p3/psfr/psfR.py:__call__', 'p3/aoSystem/FourierUtils.py:sf_3D_to_psf_3D', 'p3/aoSystem/FourierUtils.py:sort_params_from_labels', 'p3/psfao21/psfao21.py:__call__'])
p('PSFAO21 keeps the Strehl ratios of all images of a call',
  'After a call the Strehl ratios kept by the model are those of all images returned.',
  'all numbers of stars and wavelengths', 'all numbers of wavelengths', ['p3/psfao21/psfao21.py:__call__'])
p('SpotFWHM is the FWHM of the jitter',
  'A residual jitter blurs the PSF by Gaussian random displacements whose FWHM in mas is the SpotFWHM of the parameter file (or the jitter in the vector of parameters).',
  'all transfer functions, sizes, samplings and jitters', 'all transfer functions and jitters', ['p3/aoSystem/FourierUtils.py:sf_3D_to_psf_3D', 'p3/aoSystem/FourierUtils.py:sf_3D_to_psf_4D', 'p3/aoSystem/aoSystem.py:aoSystem', 'p3/aoSystem/parFiles/template.ini'])
p('The jitter of the breakdown is that of the PSF',
  'The jitter term of the error breakdown is the rms wavefront error over a circular aperture of the jitter that blurs the PSF.',
  'all diameters and jitters', 'all jitters', ['p3/aoSystem/fourierModel.py:errorBreakDown', 'p3/aoSystem/FourierUtils.py:sf_3D_to_psf_4D'])
p('A cropped image has the size asked for and is centred on the star',
  'Loading an observation with a field of view smaller than the image keeps the square of this size centred on the star, and records its size; otherwise the whole image is kept.',
  'all images, fields of view and positions of the star', 'stars near all edges, all parities', ['p3/telemetry/telemetryKeck.py:restoringInstrumentData'])
p('Saturated images are flagged',
  'The image returned is flagged as saturated exactly when one of its pixels exceeds the level of the instrument times the number of coadded frames.',
  'all images, instruments and numbers of coadded frames', 'all images', ['p3/telemetry/telemetryKeck.py:restoringInstrumentData', 'p3/telemetry/keckUtils.py:getSaturationLevel'])
p('The mode and wavelengths of the sensors come from the header, and telemetry loads in both modes',
  'Telemetry that agrees with the calibration is loaded in NGS and LGS modes, with or without a block for the tip-tilt sensor; the wavefront sensor is at 589 nm in LGS mode and at the wavelength of the header in NGS mode.',
  'all telemetry files, headers and calibrations', 'all combinations of modes and blocks', ['p3/telemetry/telemetryKeck.py:restoringTelemetry', 'p3/telemetry/keckUtils.py:getStagePositionWFS', 'p3/telemetry/keckUtils.py:getWFSwavelength'])
p('Commands and residuals are at their actuators',
  'In each frame the commands and the residuals, in metres, are at the valid actuators in the order of the file, and zero elsewhere; files with another number of commands are refused.',
  'all telemetry files and maps of actuators', 'all maps of actuators', ['p3/telemetry/telemetryKeck.py:restoringTelemetry'])
p('The series of residuals have a zero mean',
  'The residuals of the mirror, of focus and of tip and tilt and the tip-tilt commands returned have a zero mean over the frames returned.',
  'all telemetry files and decimations', 'all series and decimations', ['p3/telemetry/telemetryKeck.py:restoringTelemetry'])
p('The frame rate is the one of the frames returned',
  'The rate recorded is the number of intervals between the frames returned over their duration, however regular they are.',
  'all time stamps and decimations', 'all time stamps and decimations', ['p3/telemetry/telemetryKeck.py:restoringTelemetry'])
p('The residual error counts the actuators that move',
  'The wavefront error recorded is the root mean square residual over the actuators that move; it is zero exactly when none moves.',
  'all telemetry files', 'all series', ['p3/telemetry/telemetryKeck.py:restoringTelemetry'])
p('The turbulence profile can be compressed whatever its origin',
  'A profile loaded with fewer layers than it has keeps its strength and its moments, whether it was measured or is the median profile.',
  'all profiles and numbers of layers', 'all profiles and numbers of layers', ['p3/telemetry/telemetryKeck.py:restoringCalibrationData', 'p3/aoSystem/FourierUtils.py:eqLayers'])
p('The reconstructor returned maps the slopes returned to the residuals returned',
  'If the file holds residuals computed by one of its reconstructors, the reconstructor returned (in metres) applied to the slopes returned without their mean gives the residuals returned, also for tip and tilt measured by the wavefront sensor.',
  'all telemetry files, reconstructors, maps of actuators and decimations', 'all series', ['p3/telemetry/telemetryKeck.py:restoringTelemetry'])
p('The folder of TIPTOP is found',
  'The folder used for paths starting with tiptop is the one that contains the package TIPTOP, installed or running from its sources.',
  'all installations, call stacks and paths', 'all call stacks', ['p3/aoSystem/__init__.py:detect_tiptop_path', 'p3/aoSystem/aoSystem.py:resolve_path'])
p('P3 can be imported whatever is around',
  'Importing P3 does not depend on what is found under the name tiptop.',
  'all results of the import of tiptop and all call stacks', 'all environments', ['p3/aoSystem/__init__.py:detect_tiptop_path'])
p('Integer sizes are not changed by floating-point division',
  'Sizes obtained by truncating a quotient of integers or a square root (binned images, default PSF sizes, PSD expansion factor, side of a square map) are the exact integer quotients and square roots, in floating point.',
  'all sizes below 2^51 and all roundings to nearest', 'all sizes', ['p3/aoSystem/FourierUtils.py:binning', 'p3/aoSystem/FourierUtils.py:sf_3D_to_psf_4D', 'p3/aoSystem/frequencyDomain.py:frequencyDomain', 'p3/psfr/psfrUtils.py:modes2Otf'])
p('Zernike orders are exact in floating point',
  'The radial and azimuthal orders of a mode computed with floating-point square roots are those of its index.',
  'all modes up to 2^48 and all roundings to nearest', 'all indices', ['p3/aoSystem/zernike.py:findNM'])
p('A PSF of any size smaller than the field of view can be asked for',
  'Asking for a PSF of n pixels, n below the field of view of the camera, returns n by n pixels; boxes of n pixels have n pixels.',
  'all sizes and fields of view, all roundings to nearest', 'all pairs of sizes', ['p3/aoSystem/FourierUtils.py:sf_3D_to_psf_3D', 'p3/aoSystem/FourierUtils.py:cropSupport', 'p3/aoSystem/FourierUtils.py:getMSE'])
p('The number of actuators is not changed by rounding',
  'For a diameter of n pitches, both rounded when they are read, n actuator pitches (and n + 1 actuators) are found.',
  'all diameters, pitches and roundings to nearest', 'all diameters and pitches', ['p3/psfr/psfrUtils.py:zonalCovarianceToOtf', 'p3/aoSystem/aoSystem.py:aoSystem'])
p('Computed frequencies are never zero and have the right sign',
  'In floating point, frequencies are negative before the centre of the grid, the offset at the centre, positive from there on.',
  'all sizes, steps and offsets, all roundings to nearest', 'all steps', ['p3/aoSystem/FourierUtils.py:freq_array'])
p('The grid of frequencies is symmetric',
  'The frequencies on the two sides of the centre are opposite.',
  'all sizes, steps and offsets, all roundings to nearest', 'all steps', ['p3/aoSystem/FourierUtils.py:freq_array'])
p('The PSF is computed at Nyquist sampling or better, in floating point',
  'The sampling used is at least two pixels per resolution element within two roundings, with the smallest possible factor.',
  'all samplings of the camera, all roundings to nearest', 'all samplings', ['p3/aoSystem/frequencyDomain.py:frequencyDomain'])
p('The size of the corrected area does not depend on the wavelength at Nyquist sampling',
  'With Nyquist sampling the number of elements of the corrected area is twice the diameter over the pitch, at all wavelengths.',
  'all diameters, wavelengths, pitches and roundings to nearest', 'all wavelengths', ['p3/aoSystem/frequencyDomain.py:frequencyDomain'])
p('Actuators are located for any pitch',
  'For a diameter of n pitches and a mask of n + 1 by n + 1 valid actuators, the positions of the valid actuators are returned.',
  'all diameters, pitches, masks and roundings to nearest', 'all diameters and pitches', ['p3/psfr/psfrUtils.py:pointWiseLocation'])
p('The flux of a computed PSF is the one asked for, within the rounding of sums',
  'The pixels of the PSF are non-negative, in the order of the exact ones, and add up to the flux asked for within one rounding per level of the sum and two more, in whatever order numpy adds.',
  'all PSFs, fluxes, orders of summation, precisions and roundings to nearest', 'all PSFs', ['p3/aoSystem/FourierUtils.py:sf_3D_to_psf_3D', 'p3/aoSystem/FourierUtils.py:sf_3D_to_psf_4D'])
p('Compressed profiles keep their weights to single precision',
  'The weights of compressed layers are single-precision numbers, the exact sums within one rounding per layer in double precision and one in single precision.',
  'all profiles and roundings to nearest', 'all profiles', ['p3/aoSystem/FourierUtils.py:eqLayers'])
p('Tip-tilt and focus telemetry is in the units of its sensor',
  'The tip-tilt measurements and commands and the focus of a Keck telemetry file are returned without their mean, scaled to metres by the factor of the sensor they come from.',
  'all telemetry files and decimations', 'all files', ['p3/telemetry/telemetryKeck.py:restoringTelemetry'])
p('The numbers of frames recorded are those of the series',
  'The numbers of exposures recorded for the wavefront and tip-tilt sensors are those of the series returned.',
  'all telemetry files and decimations', 'all decimations', ['p3/telemetry/telemetryKeck.py:restoringTelemetry'])
p('A data file that is fetched is in the folder given',
  'After get_data_file(folder, name) returns, the file is in the folder, no other file changed, and a further call downloads nothing.',
  'all folders, names, contents of the disk and sequences of calls', 'all paths and histories', ['p3/psfr/psfrUtils.py:get_data_file'])
p('A fetched data file is complete',
  'A data file found by get_data_file is the whole file of the server, also after downloads that were interrupted.',
  'all sequences of calls and all points at which a transfer stops', 'all crash points', ['p3/psfr/psfrUtils.py:get_data_file'])
p('The segments of a pupil are copies of the reference segment',
  'A pupil has one segment per coordinate, at these coordinates, with the map, shape, reflectivity and phase of the reference segment.',
  'all reference segments and lists of coordinates', 'all references', ['p3/aoSystem/pupil.py:makeSegList'])
p('A phase of zero or a displacement of zero changes nothing on a segment',
  'Applying a phase of zero to a segment, or moving it by zero, leaves the pupil as it is.',
  'all reference segments, coordinates and segments', 'all references', ['p3/aoSystem/pupil.py:applyPhaseErrorSegment', 'p3/aoSystem/pupil.py:shiftSegment', 'p3/aoSystem/pupil.py:removeSegment', 'p3/aoSystem/pupil.py:makeSegList'])
p('Gaps that were filled stay filled',
  'Operations that change nothing on a segment leave the filled gaps of the pupil filled.',
  'all pupils with filled gaps', 'all pupils', ['p3/aoSystem/pupil.py:fillGap', 'p3/aoSystem/pupil.py:applyPhaseErrorSegment', 'p3/aoSystem/pupil.py:makeSegList'])
p('Modes are defined over what they are applied to',
  'The modes of segments (petals) are defined over the lit pixels of the reference segment (of the petal); another area is refused.',
  'all reference segments, petals, masks and areas', 'all references', ['p3/aoSystem/pupil.py:computeModes'])
p('The precision of a model can be changed',
  'set_precision accepts single and double and raises otherwise; real and complex numbers have the same precision; computations made afterwards are in this precision and take the memory announced.',
  'all sequences of changes of precision and computations', 'all histories', ['p3/aoSystem/fourierModel.py:set_precision', 'p3/aoSystem/fourierModel.py:initComputations', 'p3/aoSystem/fourierModel.py:estimate_memory_usage', 'p3/aoSystem/aoSystem.py:aoSystem', 'p3/aoSystem/frequencyDomain.py:frequencyDomain'])
p('Reconstruction over several databases gives the results of each once, also after a failure',
  'The merged table has the rows of each database given, once, and those of the other tables of the folder, sorted by date; a failing database ends the run with the tables before it saved; running again gives what one run would have given.',
  'all lists of dates, results, contents of the folder, failures and numbers of earlier runs', 'all histories', ['p3/psfr/psfrRun.py:psfr_on_multiple_databases', 'p3/psfr/psfrRun.py:psfr_on_database', 'p3/psfr/psfrRun.py:merge_dataframe'])
p('Values read in SPHERE headers',
  'The wavelength is the mean of those of the file and the bandwidth their spread; the airmass is half way between start and end; identifiers and coordinates are those of the header; a missing keyword is an error.',
  'all headers, file names and lists of wavelengths', 'all headers', ['p3/telemetry/sphereUtils.py:get_wavelength', 'p3/telemetry/sphereUtils.py:get_telescope_pointing', 'p3/telemetry/sphereUtils.py:get_obs_id', 'p3/telemetry/sphereUtils.py:get_moon_position', 'p3/telemetry/sphereUtils.py:get_star_coordinates'])
p('The tables of results are saved in the folder given',
  'The table of a database is saved in the folder given to psfr_on_database.',
  'all folders and dates', 'all paths', ['p3/psfr/psfrRun.py:psfr_on_database', 'p3/psfr/psfrRun.py:merge_dataframe'])
p('A segment with a phase can be moved',
  'Moving a segment of a pupil by zero leaves its pixels as they are, also when a phase was applied to it.',
  'all phases, and all roundings of floating-point numbers', 'all phases; the rounding errors are those of each value', ['p3/aoSystem/pupil.py:removeSegment', 'p3/aoSystem/pupil.py:shiftSegment', 'p3/aoSystem/segment.py:applyPhase'])
p('The refractivity of air follows the pressure and the temperature',
  'In observing conditions and at every wavelength of the bands, the refractivity is that of an ideal gas within ten percent.',
  'all temperatures, pressures, humidities in observing conditions and all wavelengths', 'all states and wavelengths', ['p3/aoSystem/airRefraction.py:get_refractive_index'])
p('Covariance and structure functions are those of the power spectrum',
  'The covariance of the phase is the Fourier transform of its power spectrum and its variance the integral of the spectrum; the structure function is twice the difference, zero and continuous at zero separation, increasing, and below twice the variance; the angular structure function is its weighted sum over the layers.',
  'all Fried parameters, outer scales, profiles, separations and angles', 'integrals over the plane, all separations', ['p3/aoSystem/atmosphere.py:covariance', 'p3/aoSystem/atmosphere.py:variance', 'p3/aoSystem/atmosphere.py:structureFunction', 'p3/aoSystem/atmosphere.py:spectrum', 'p3/aoSystem/atmosphere.py:angularStructureFunction'])
p('An infinite outer scale is the limit of large ones',
  'The structure function for an infinite outer scale is the limit of the structure function when the outer scale grows.',
  'all Fried parameters and separations', 'a limit', ['p3/aoSystem/atmosphere.py:structureFunction'])
p('The Fried parameter is that of the turbulence',
  'For an infinite outer scale the structure function is 6.88 times the separation in units of the Fried parameter to the power 5/3.',
  'all Fried parameters and separations', 'all separations', ['p3/aoSystem/atmosphere.py:structureFunction'])
p('The coherence time is the time during which the phase changes by one radian',
  'During the coherence time the frozen layers move so that the phase at a point of the pupil changes by one square radian in the mean, within one percent.',
  'all Fried parameters and profiles of the wind', 'every profile, and real powers', ['p3/aoSystem/atmosphere.py:tau0', 'p3/aoSystem/atmosphere.py:meanWind'])
p('The isoplanatic angle of an infinite outer scale separates directions by two square radians',
  'For an infinite outer scale the phases of two directions separated by the isoplanatic angle differ by two square radians in the mean.',
  'all Fried parameters and profiles of the turbulence', 'every profile, and real powers', ['p3/aoSystem/atmosphere.py:theta0'])
p('The isoplanatic angle of a finite outer scale exists',
  'For a finite outer scale exactly one angle solves the equation the isoplanatic angle is computed from.',
  'all Fried parameters, outer scales and profiles', 'existence and uniqueness of the root of an integral equation', ['p3/aoSystem/atmosphere.py:theta0', 'p3/aoSystem/atmosphere.py:angularStructureFunction', 'p3/aoSystem/atmosphere.py:structureFunction'])
p('Structure functions of the anisoplanatism are those of the turbulence',
  'The angular structure function (Flicker) of a layer, and the focal one for a source in the direction of the star, times the Fried parameter to the power -5/3, are the mean squares of the difference between two points of the phase of the source minus that of the star, for every field with the covariance of the turbulence given by the atmosphere, up to one constant equal to 1 within 1.5 percent; such a field exists; so the angular function is never negative.',
  'all Fried parameters, outer scales, layers, directions and pairs of points', 'all fields and points of the plane', ['p3/aoSystem/anisoplanatismModel.py:angular_function', 'p3/aoSystem/anisoplanatismModel.py:focal_angular_function', 'p3/aoSystem/FourierUtils.py:Ialpha', 'p3/aoSystem/FourierUtils.py:mcDonald', 'p3/aoSystem/atmosphere.py:covariance'])
p('The variances of the Zernike coefficients sum to that of the turbulence without piston',
  'Without outer scale the variances of all modes but the piston sum to 1.03 (D/r0)^(5/3) within two percent; tip and tilt carry 10/23 of it each; the residual after the correction of all the modes up to any radial order is a given product of it.',
  'all D/r0 and all radial orders', 'an infinite sum', ['p3/aoSystem/zernike.py:CoefficientsVariance'])
p('All modules use one spectrum of the turbulence',
  'The spectrum of the fitting error used by PSFAO21 and by the PSF reconstruction is the one of the Fourier model within one percent: that of the atmosphere at the frequencies that the mirror does not correct, zero elsewhere.',
  'all Fried parameters, outer scales, cut-off frequencies and frequencies', 'every frequency', ['p3/aoSystem/frequencyDomain.py:frequencyDomain', 'p3/aoSystem/fourierModel.py:fittingPSD', 'p3/aoSystem/atmosphere.py:spectrum'])
p('The fitting error of PSFAO21 is that of its spectrum',
  'The fitting error reported by PSFAO21 is the square root of the integral of the spectrum of the turbulence over the frequencies that the mirror does not correct (trapezoidal rule), in nanometres; it decreases when the cut-off frequency or the Fried parameter grows.',
  'all cut-off frequencies, outer scales, grids, wavelengths and Fried parameters', 'every grid', ['p3/psfao21/psfao21.py:get_power_spectrum_density', 'p3/aoSystem/frequencyDomain.py:frequencyDomain'])
p('Every option of the high-order sensor section reaches the sensor',
  'Each option of sensor_HO is found unaltered in the attribute of the sensor, its optics, detectors or processing that bears its meaning; the lists give one entry to each wavefront sensor; an option left out has a fixed default, the size of the lenslets being the diameter divided by their number.',
  'all parameter files that are accepted', 'all files and numbers of sensors', ['p3/aoSystem/aoSystem.py:configLO_SC', 'p3/aoSystem/sensor.py:sensor', 'p3/aoSystem/detector.py:detector', 'p3/aoSystem/optics.py:optics', 'p3/aoSystem/processing.py:processing'])
p('Every option of the low-order sensor section reaches the sensor',
  'Each option of sensor_LO is found unaltered in the tip-tilt sensor, with a fixed default when it is left out.',
  'all parameter files that are accepted', 'all files', ['p3/aoSystem/aoSystem.py:configLOsensor', 'p3/aoSystem/sensor.py:sensor'])
p('Every option of the science section reaches the camera',
  'Each option of sensor_science is found unaltered in the camera, with a fixed default when it is left out; its field in arcseconds is that of the pixels settled by the constructor.',
  'all parameter files that are accepted', 'all files', ['p3/aoSystem/aoSystem.py:configLO_SC', 'p3/aoSystem/detector.py:detector'])
p('Every option of the telescope and atmosphere sections reaches its object',
  'Each option of the sections telescope and atmosphere is found in the telescope, the atmosphere or the system, with a fixed default when it is left out; the paths are resolved.',
  'all parameter files that are accepted', 'all files', ['p3/aoSystem/aoSystem.py:aoSystem', 'p3/aoSystem/aoSystem.py:resolve_path', 'p3/aoSystem/telescope.py:telescope', 'p3/aoSystem/atmosphere.py:atmosphere'])
p('Every option of the loops and mirrors reaches its object',
  'Each option of the sections RTC and DM that is used as it is is found in the loops and mirrors, with a fixed default; there is a tip-tilt loop exactly when its gain, rate and delay are given, with these values.',
  'all parameter files that are accepted', 'all files', ['p3/aoSystem/aoSystem.py:configLO_SC', 'p3/aoSystem/rtc.py:rtc', 'p3/aoSystem/deformableMirror.py:deformableMirror'])
p('Options left out have the documented defaults',
  'An option left out has the default written in the comments of the template parameter file.',
  'all parameter files and documented options', 'all files', ['p3/aoSystem/aoSystem.py:configLO_SC', 'p3/aoSystem/aoSystem.py:configLOsensor', 'p3/aoSystem/aoSystem.py:get_science_field_of_view'])
p('The template parameter file builds a system',
  'The parameter file shipped as a template is accepted by the constructor.',
  'the template and all files with a scalar number of low-order lenslets', 'all the files sharing the defect', ['p3/aoSystem/aoSystem.py:configLOsensor', 'p3/aoSystem/aoSystem.py:aoSystem'])
p('Turning the loop off',
  'With a null gain the spectrum is that of the turbulence without piston: positive, at most that of the turbulence, independent of guide stars, sensor and sources; and it is the limit of that of a loop whose star fades.',
  'all systems, gains and frequencies', 'a limit, over all frequencies', ['p3/aoSystem/fourierModel.py:fourierModel.powerSpectrumDensity', 'p3/aoSystem/FourierUtils.py:pistonFilter'])
p('Stars outside the image are refused',
  'A window that is not inside the image is never extracted.',
  'all images, window sizes and positions of stars', 'all positions, near each border', ['p3/psfFitting/fittingUtils.py:extract_multiple_psf'])
p('An empty path is the same as no path',
  'In a parameter file, an option that names a file and is empty has the same effect as the option left out.',
  'all parameter files, file systems and options', 'all combinations of options and files', ['p3/aoSystem/aoSystem.py:aoSystem', 'p3/aoSystem/telescope.py:telescope', 'p3/aoSystem/fourierModel.py:fourierModel.powerSpectrumDensity'])
p('Energies on the figures',
  'The energies drawn by the figures of a simulation are those of the squares and discs in their titles: interpolated, growing with the radius, and refused beyond the curve.',
  'all images, curves, pixel scales and radii', 'real radii, all curves', ['p3/aoSystem/fourierModel.py:fourierModel.displayResults', 'p3/aoSystem/fourierModel.py:fourierModel.displayPsfMetricsContours'])
p('Sources on the figures',
  'The figure of the images shows the sources nearest to and farthest from the axis, with their angles in the title; contours are drawn when the sources make a square grid, each source in its cell.',
  'all lists of sources and numbers of wavelengths', 'all lists', ['p3/aoSystem/fourierModel.py:fourierModel.displayResults', 'p3/aoSystem/fourierModel.py:fourierModel.displayPsfMetricsContours'])
p('Refining the frequencies converges',
  'When the grid of frequencies is refined at a fixed width, every error of the breakdown tends to the square root of the integral of its density: over the corrected area for the noise, aliasing, servo-lag, refraction and chromatic errors, outside of it for the fitting error.',
  'all corrected areas, widths, wavelengths, atmospheres and densities bounded and continuous almost everywhere', 'a limit over all grids', ['p3/aoSystem/fourierModel.py:fourierModel.errorBreakDown', 'p3/aoSystem/frequencyDomain.py:frequencyDomain', 'p3/aoSystem/FourierUtils.py:freq_array'])
p('Angle of the pupil of Keck',
  'The angle of the pupil of an observation is that of the rotator less that of the instrument, with an offset of 42.5 degrees for OSIRIS; for an unknown instrument it is that of the rotator.',
  'all headers', 'real angles, all names of instruments', ['p3/telemetry/keckUtils.py:getPA', 'p3/telemetry/keckUtils.py:getInstAngle'])
p('Both breakdowns report the same fitting error',
  'The fitting error of the analytic breakdown is that of the Fourier model of the same system on fine and wide grids of frequencies.',
  'all systems, corrected areas set by the pitch, and grids', 'a limit over all grids, real parameters', ['p3/aoSystem/aoSystem.py:aoSystem.errorBreakdown', 'p3/aoSystem/fourierModel.py:fourierModel.errorBreakDown', 'p3/aoSystem/fourierModel.py:fourierModel.fittingPSD'])
p('Textbook noise of a Shack-Hartmann',
  'The noise variance of a Shack-Hartmann is, for each of the four centroiding algorithms, the formula of Thomas et al. (2006) and the quad-cell one, with the diffraction core and the spot in pixels of at least one, and the window never below the spot.',
  'all detectors, lenslets, fluxes, seeings and windows', 'real parameters', ['p3/aoSystem/sensor.py:sensor.NoiseVariance'])
p('Start of the fit of each sub-image of a field',
  'When the sub-images of a field are fitted, the start of each fit has one value for each entry of the mask whatever the number of detected stars; exactly the background of the power spectrum and the three jitter values are kept fixed; the model reads from it r0 = 0.5, the guessed power spectrum, no jitter, the fluxes divided by their sum (non-negative, summing to one), the offsets of the stars from the central pixel, no background and no static aberration; and for stars inside a sub-image not larger than the images of the model it is within the bounds of the model.',
  'every number of detected stars, fluxes, positions and sizes of sub-image',
  'Tests fit a few images with a few stars; the layout must hold for any number of detections.',
  ['p3/psfFitting/fittingUtils.py:fit_multiple_psfs','p3/aoSystem/FourierUtils.py:sort_params_from_labels','p3/psfao21/psfao21.py:define_bounds'])
p('The fit of a field accepts every parameter file',
  'The fit of the sub-images of a field can start for every valid parameter file of the PSF model: the start has one value for each bound.',
  'every number of layers, wavelengths, static modes and stars',
  'Tests use one parameter file; the number of bounds depends on the file and the start does not.',
  ['p3/psfFitting/fittingUtils.py:fit_multiple_psfs','p3/psfao21/psfao21.py:define_bounds'])
p('Result of the fit of the sub-images of a field',
  'The fit of the sub-images of a field returns one column and one PSF per sub-image, in order. A sub-image without a star has a column and a PSF of zeros. Otherwise the 24 rows are the seven parameters, their errors, the coordinates and their distance, the Strehl ratios and widths of the image and of the fit and the mean square error, and the PSF is built without jitter from one centred star of flux one without background. The column of a sub-image does not depend on the other sub-images.',
  'every list of sub-images, detections and results of the fits',
  'Tests fit a few sub-images; alignment and independence are about every list.',
  ['p3/psfFitting/fittingUtils.py:fit_multiple_psfs'])
p('The PSF of a sub-image is that of its fit',
  'The PSF returned for a fitted sub-image of a field is the one of the parameters returned for it.',
  'every list of sub-images, every PSF model that depends on r0',
  'Holds in a test with one sub-image; r0 is replaced by the median over the field.',
  ['p3/psfFitting/fittingUtils.py:fit_multiple_psfs'])
p('A sub-image that cannot be fitted does not lose the field',
  'When the fit of one sub-image of a field raises, the results of the other sub-images are returned.',
  'every list of sub-images and set of failing fits',
  'Tests use images that can be fitted.',
  ['p3/psfFitting/fittingUtils.py:fit_multiple_psfs'])
p('Interpolation over a field with sub-images without star',
  'PSFs interpolated over a field in which some sub-images have no detected star are numbers, obtained from the nearest fitted sub-images.',
  'every set of sub-images without star, positions, numbers of neighbours and of PSFs per segment',
  'Tests interpolate between fitted PSFs; what happens depends on which sub-images were fitted and how they are grouped.',
  ['p3/psfFitting/fittingUtils.py:interpolate_psfs_in_fov','p3/psfFitting/fittingUtils.py:fit_multiple_psfs'])
p('Read-out noise of the Keck camera',
  'The read-out noise given for the Keck camera in correlated double sampling is that of one multiple read, sixteen reads give 15 electrons, and more reads never give more noise.',
  'every sampling mode and numbers of reads',
  'Tests read a header; monotony is about all numbers of reads.',
  ['p3/telemetry/keckUtils.py:getExposureConfig'])
p('Effect of the calibration of a field on the parameter file',
  'The only effect of the calibration of a field on the parameter file is its field of view, set to twice the half of the enlarged size, whatever the result of the call; without the section of the science detector the call raises and the file is left as it is or not created. The result does not depend on the field of view the file had, and a second call with the same arguments gives the same result and leaves the same file.',
  'every parameter file, arguments, detections and fits, and histories of two calls',
  'Tests run one file once; the file is both an input and an output.',
  ['p3/psfFitting/fittingUtils.py:generate_psfs_grid_from_image'])
p('A calibration that fails leaves the parameter file as it was',
  'When the calibration of a field raises, the parameter file of the user is unchanged.',
  'every parameter file and failing call',
  'Tests do not look at the file after a failure.',
  ['p3/psfFitting/fittingUtils.py:generate_psfs_grid_from_image'])
p('The results of the calibration of a field belong together',
  'A calibration of n by n tiles with m stars each returns n*n*m coordinates, sub-images, columns and fitted PSFs and n*n interpolated PSFs and points; the entries of rank k belong to one star of the catalogue, a candidate of tile k/m: its coordinates from the centre of the image, the sub-image around it and the fit of that sub-image (or zeros when nothing is detected in it).',
  'every image, catalogue, numbers of tiles and of stars per tile, detections and fits',
  'Tests use one field; the alignment of the outputs must hold for every numbers of tiles and stars.',
  ['p3/psfFitting/fittingUtils.py:generate_psfs_grid_from_image','p3/psfFitting/fittingUtils.py:fit_multiple_psfs'])
p('When a field can be calibrated',
  'With even sub-images, a model that can be made and fits that return, the calibration returns exactly when the file has the section of the detector, there is at least one tile, the criterion and the interpolation are known, the limits of magnitude are given and every tile has enough candidates (and, for an interpolation of the parameters, the enlarged field is not smaller than the sub-images): no candidate is too near to a border to be cut out.',
  'every image size, catalogue, numbers of tiles and of stars per tile, even sizes of sub-images',
  'The failing cases depend on the positions of the stars relative to the tiles and to the borders.',
  ['p3/psfFitting/fittingUtils.py:generate_psfs_grid_from_image','p3/psfFitting/fittingUtils.py:extract_multiple_psf'])
p('An unknown interpolation is refused as such',
  'The calibration of a field refuses an unknown interpolation for that reason, before the fits.',
  'every other argument, parameter file and model',
  'Tests of a wrong name use otherwise valid arguments; the order of the checks shows only when two are wrong or a fit is long.',
  ['p3/psfFitting/fittingUtils.py:generate_psfs_grid_from_image'])
p('Size of the PSFs of a calibrated field',
  'The fitted and the interpolated PSFs of a field have the size of the sub-images times the factor.',
  'every size of sub-image, factor and interpolation',
  'Tests use an even size and one interpolation.',
  ['p3/psfFitting/fittingUtils.py:generate_psfs_grid_from_image','p3/psfFitting/fittingUtils.py:compute_psfs_grid'])
p('Interpolation of the parameters over a field with sub-images without star',
  'PSFs computed from the parameters interpolated over a field are numbers also when nothing is detected in some sub-images.',
  'every set of sub-images without star',
  'Tests interpolate between fitted sub-images.',
  ['p3/psfFitting/fittingUtils.py:create_spatial_variations_psf_model','p3/psfFitting/fittingUtils.py:compute_psfs_grid','p3/psfFitting/fittingUtils.py:generate_psfs_grid_from_image'])
p('PSF interpolated in a calibrated field',
  'With one star per tile, a PSF interpolated at a point without star is a number exactly when at least four sub-images (or all) were fitted with an error that is not zero; it is the mean of four different fitted PSFs weighted by the inverses of their distances to the point, and no other fitted one is nearer.',
  'every image, catalogue, number of tiles, detections and fits, and point of the grid',
  'Tests look at one field; the choice of the neighbours depends on all positions and fits.',
  ['p3/psfFitting/fittingUtils.py:generate_psfs_grid_from_image','p3/psfFitting/fittingUtils.py:interpolate_psfs_in_fov'])
p('Segmented modes are the means of the modes over the segments',
  'A segmented mode is zero outside the segments and, on each segment, the mean of the mode over its lit pixels.',
  'every layout of segments without common pixels, pupil and mode',
  'Tests look at small amplitudes; the angle of a complex pupil wraps.',
  ['p3/aoSystem/createSegmentedModes.py','p3/aoSystem/pupil.py:applyPhaseErrorSegment'])
p('Linear resizing stays within the range of the image',
  'Resizing an image by linear interpolation gives the size asked for, never leaves the range of its pixels (a transmission stays between zero and one, a constant image stays constant), and the result depends linearly on the image.',
  'every image of at least two pixels along each axis, every size asked for and every pair of images combined',
  'Tests resize a pupil to one size; the statement is about every pair of sizes, odd or even, with the points at the border that fall outside of the samples.',
  ['p3/aoSystem/FourierUtils.py:interpolateSupport','p3/aoSystem/telescope.py:telescope','p3/aoSystem/pupil.py:pupil'])
p('Enlarging then reducing gives the image back',
  'An image enlarged by whole factors with linear interpolation, then reduced to its first size, is the same image.',
  'every image of at least two pixels along each axis and every pair of whole factors',
  'The centre of the grids depends on the parity of both sizes.',
  ['p3/aoSystem/FourierUtils.py:interpolateSupport'])
p('Reducing an image averages its pixels',
  'When an image or a pupil is reduced by a whole factor, each new pixel is the mean of the block of pixels that it covers, so that the light is kept.',
  'every image, every whole factor',
  'A smooth image hardly shows the difference.',
  ['p3/aoSystem/FourierUtils.py:interpolateSupport','p3/aoSystem/telescope.py:telescope'])
p('Segmented modes at low resolution are the resized ones',
  'The segmented modes at low resolution are the modes at high resolution resized, and they stay within half a turn.',
  'every layout of segments, pupil, mode and pair of sizes',
  'Each segment is interpolated separately and the results are added; equality holds by linearity for all layouts.',
  ['p3/aoSystem/createSegmentedModes.py','p3/aoSystem/FourierUtils.py:interpolateSupport'])
p('Resizing by the nearest pixel only uses values of the image',
  'Resizing by the nearest pixel gives the size asked for, holds only values that the image has (a mask of zeros and ones stays one) and keeps the corners.',
  'every image and size; at least two new pixels along each axis for the corners',
  'Ties and rounding of positions occur only for some pairs of sizes.',
  ['p3/aoSystem/FourierUtils.py:interpolateSupport'])
p('The centre of an image stays at the centre when it is resized',
  'Whatever the kind of interpolation, the centre of the image goes to the centre of the resized one.',
  'every image and pair of sizes, odd or even',
  'It depends on the ratio and the parities of the sizes.',
  ['p3/aoSystem/FourierUtils.py:interpolateSupport'])
p('A loaded pupil or apodizer stays between zero and one',
  'A map of a telescope read from a file has the resolution asked for and, if its valid values are between two bounds around zero, such as zero and one, so are those loaded, with zero where the file has no number.',
  'every square map of at least two pixels across, resolution, and position of the values that are not numbers',
  'Interpolation near the edges and next to missing values can overshoot for some maps only.',
  ['p3/aoSystem/telescope.py:telescope','p3/aoSystem/FourierUtils.py:interpolateSupport'])
here=os.path.dirname(os.path.abspath(__file__))
with open(os.path.join(here,"..","properties.jsonl"),"w") as f:
    for d in P: f.write(json.dumps(d)+"\n")
print(len(P))
