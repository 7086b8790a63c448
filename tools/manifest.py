#!/usr/bin/env python3
"""Generates /verif/MANIFEST.json; run from anywhere."""
import json, os, re, sys
C = []
def claim(prop, status, ns, names, note=""):
    C.append({"property": prop, "status": status,
              "theorems": [ns + "." + n for n in names.split()], "note": note})

def update(prop, status, names, note=""):
    c, = [c for c in C if c["property"] == prop]
    c.update(status=status, theorems=names.split(), note=note)

claim("C01", "proved", "P3.Paths", "resolve_empty resolve_root_priority resolve_p3 resolve_tiptop resolve_asIs resolve_lastResort resolve_default resolve_range resolve_eq_nil_iff resolve_congr join_relative join_absolute join_trailing join_empty")
claim("C02", "partial", "P3.Config", "construct_accepts_iff_partial construct_error_truthful construct_profile table1_wellFormed construct_missing_LO_position_is_keyError construct_three_wfs_default_photons construct_integer_photons",
      "For files whose options have the documented types, acceptance is characterised exactly and every error names a defect the file has. The claim as stated is false of the code in the cases shown by the last three theorems (KeyError/IndexError/TypeError instead of ValueError), so the error class is not always ValueError.")
claim("C03", "partial", "P3.Config", "message_names_section_partial notSameLength_message_ignores_section notSameLength_atmosphere_message",
      "False of the code: the format call drops the section whenever two option names are passed (refuted by notSameLength_message_ignores_section).")
claim("C05", "proved", "P3.Config", "mode_spec ttloop_iff ttloop_system")
claim("C06", "partial", "P3.Config", "reconfigure_fov reconfigure_fov_same reconfigure_not_idempotent reconfigure_rest",
      "False of the code with PSD expansion and several wavelengths (reconfigure_not_idempotent); reconfigure_fov says exactly what happens.")
claim("C07", "partial", "P3.Config", "science_positions science_positions_off coo_stars_positions_are_added",
      "False when positions come from coo_stars (numpy addition instead of concatenation).")
claim("C09", "partial", "P3.Config", "threshold_partial loThreshold_ignores_option",
      "False of the code: the option name tested is 'ThresholdWCoG = 0.0'.")

claim("C04", "proved", "P3.FieldOfView", "autoFov_spec autoFov_error_iff seeing_consistent scienceFov_spec scienceFov_other")
claim("C10", "partial", "P3.Source", "direction_spec source_multiwavelength_azimuths source_height_wvl",
      "False of the code for several wavelengths with a shared zenith (source_multiwavelength_azimuths); proved otherwise.")
claim("C60", "partial", "P3.Source", "cooStar_swapped cooStar_positive_side cooStar_distance_partial",
      "False of the code: arctan2 gets its arguments swapped and radians are used as degrees (cooStar_swapped, cooStar_positive_side).")
claim("C14", "partial", "P3.Hardware", "photonCounts_enough_partial photonCounts_one_missing photonCounts_more_missing photonCounts_retry",
      "False of the code as soon as a count is missing (appends a list, then fails, and alters the caller's list); proved when enough counts are given.")
claim("C15", "partial", "P3.Hardware", "sub2ind_inRange sub2ind_injective ind2sub_sub2ind roundtrip_iff_partial roundtrip_square roundtrip_fails sub2ind_neg_one_iff",
      "False for non-square shapes; roundtrip_iff_partial characterises exactly when the round trip works.")
claim("C16", "proved", "P3.Hardware", "mkDM_ok_iff mkDM_spec radialOrder_spec")
claim("C17", "partial", "P3.Hardware", "mkDetector_spec fovArcsec_spec dispersion_second_row_unchecked",
      "Only the first row of a two-row dispersion is checked.")
claim("C18", "proved", "P3.Hardware", "ttloop_iff bandwidth_mono holoop_spec")
claim("C11", "proved", "P3.Atmosphere", "r0_after_history r0_restored seeing_after_history")
claim("C12", "partial", "P3.Atmosphere", "layers_strength slab_spec slab_stale_after_setWvl",
      "False after a wavelength change (slab_stale_after_setWvl); proved before any change.")
claim("C61", "proved", "P3.Atmosphere", "meanHeight_meanWind_between tau0_after_history L0_uniform")
claim("C62", "partial", "P3.Atmosphere", "structureFunction_zero variance_strength spectrum_spec angularStructureFunction_zero angularCovariance_zero temporalCovariance_zero temporalCovariance_two_layers temporalCovariance_one_layer_partial structureFunction_spec",
      "In the temporal covariance every layer contributes the whole variance (temporalCovariance_two_layers); everything else proved.")
claim("C13", "proved", "P3.Noise", "noise_refused_iff noise_per_wfs noise_monotone noise_photon_scaling noise_infinite_flux noiseAt_spec")
claim("C08", "partial", "P3.Breakdown", "breakdown_spec strehl_antitone breakdown_defined_partial breakdown_fitting_aliasing breakdown_pitch_mono breakdown_two_noise_variances breakdown_terms mean_spec",
      "Whenever a breakdown is reported it has all the stated properties, and physical systems get one; with two or more noise variances in the file the breakdown raises (breakdown_two_noise_variances).")
claim("C48", "partial", "P3.Aniso", "focal_ground focal_nonneg_both focal_altitude focal_not_monotone focal_reports_disagree",
      "The two reports use different constants (0.425 vs 0.452/0.423) and both decrease near the laser height.")
claim("C63", "partial", "P3.Aniso", "angularPsd_spec angularPsd_ignores_strength",
      "The code ignores r0 and the weights (angularPsd_ignores_strength); the rest is proved.")
claim("C64", "proved", "P3.Aniso", "anisokinetism_spec sasiela_layers anisokinetism_value")
claim("C65", "partial", "P3.Aniso", "star_restored_partial structureFunction_ok_iff star_lost",
      "False of the code if the focal part raises (star_lost).")
claim("C67", "partial", "P3.Aniso", "dphiAni_partial dphiAni_ngs_fails",
      "False of the code for NGS systems (dphiAni_ngs_fails).")
claim("C19", "partial", "P3.Freq", "createWvl_spec unique_spec freqWvl_iff_partial freqWvl_two_bands_fail createWvl_single_bin",
      "Proved for the wavelength vector; the frequency domain's own copy fails with several centres and bins (freqWvl_iff_partial is the exact characterisation), and a single bin sits at the lower edge.")
claim("C20", "proved", "P3.Freq", "kFactor_spec psdStep_spec grid_spans_fov nOtf_ge")
claim("C21", "proved", "P3.Freq", "nTimes_spec")
claim("C22", "partial", "P3.Freq", "masks_partition mskIn_spec fitting_spec",
      "The masks, the fitting error and the masked terms. False for the chromatic term, which the code does not mask (chrom_outside).")
C[-1]["theorems"] += ["P3.Fourier.corrected_terms_zero", "P3.Fourier.chrom_outside"]
claim("C23", "partial", "P3.Freq", "embed_spec embed_refused embed_misaligned fovCheck_too_lax",
      "False for an odd grid with an even corrected area (embed_misaligned); embed_spec gives the exact offset in every case.")
claim("C24", "partial", "P3.Freq", "freq_centred shift_centred_partial",
      "Spatial frequencies fully; the angular-frequency array has no zero for odd sizes (shift_centred_partial).")
claim("C66", "partial", "P3.Freq", "cutoffs_spec resAO_spec dk_vs_step_partial dk_violation",
      "The integration step is 2kc/resAO, equal to the sampling step only if the ratio is whole (dk_vs_step_partial).")

claim("C25", "proved", "P3.Images", "binning_spec binning_flux")
claim("C26", "partial", "P3.Images", "crop_spec crop_centre enlarge_spec crop_enlarge crop_enlarge_shrinks crop_enlarge_violation",
      "Crop and enlarge are fully specified; cropping an enlarged image gives the image back exactly when the padding is even, and loses a row otherwise (crop_enlarge_shrinks).")
claim("C27", "proved", "P3.Images", "normalize_roundtrip normalize_finite normalize_sum normalize_positive_sum normalize_minmax",
      "Exact arithmetic; normalize_finite says exactly when the normalisation divides by zero.")
claim("C30", "proved", "P3.Images", "encircled_spec encircled_ignores_last_bin",
      "Proved as stated; the curve is normalised without the outermost bin (encircled_ignores_last_bin).")
claim("C31", "partial", "P3.Images", "ensquared_box ensquared_mono ensquared_wraps ensquared_last_centred ensquared_violation",
      "False once the box reaches the lower edge: the Python slice wraps around (last three theorems).")
claim("C36", "partial", "P3.Images", "polarCounts_stuck polarCounts_capped_partial",
      "False of the code: every circle gets min(7, n_theta) samples.")
claim("C68", "partial", "P3.Metrics", "getFlux_partial getFlux_background_zero getFlux_rectangular getFlux_violation",
      "False of the code: the median includes the masked pixels, so the background is zero for non-negative images.")
claim("C69", "partial", "P3.Metrics", "wavelengthVector_spec block_spec wavelength_single_bin",
      "Proved for two bins or more; a single bin is at the edge of the band (wavelength_single_bin).")
claim("C70", "partial", "P3.Metrics", "axisGrid_spec interpolate_zoom interpolate_same interpolate_rectangular",
      "scipy's interpolant is a parameter assumed to go through its samples. False for rectangular images with the default kind.")
claim("C71", "proved", "P3.Metrics", "mseWindow_size getMSE_zero_iff getMSE_scale")
claim("C72", "partial", "P3.Metrics", "fwhm1d_spec fwhm1d_raises_iff_partial fwhm1d_violation fwhm1d_flat_top fwhm1d_single",
      "False for profiles above half maximum at an end (exactly characterised) and for flat tops.")
claim("C73", "partial", "P3.Metrics", "unchanged_partial radialProfile_modifies strehlMax_modifies addNoise_modifies radialProfile_peak strehlMax_value",
      "False of the code for the normalised profile, the 'max' Strehl method and images with negative pixels.")
claim("C28", "partial", "P3.Psf", "psf_flux detectorPsf_spec detectorPsf_full detectorPsf_too_small detectorPsf_violation",
      "Flux proved whenever a PSF is returned; the sampling fails when the binned grid is smaller than the detector (detectorPsf_too_small).")
claim("C29", "proved", "P3.Psf", "sf2otf_spec sf2otf_scale sf2otf_marechal")
claim("C34", "partial", "P3.Psf", "sombrero1_bounds pistonFilter_spec pistonFilter_unclipped",
      "All but the exact zero at zero frequency: the code evaluates at 1e-10, so the value is only bounded by (pi D 1e-10)^2. J1(x)/x is Poisson's integral.")
claim("C35", "partial", "P3.Psf", "fftsym_partial fftsym_not_mirror",
      "False of the code: fftsym_not_mirror.")
claim("C43", "proved", "P3.Psf", "phaseSF_spec cov2sf_spec isMax_exists cov2sf_real")
claim("C74", "partial", "P3.Psf", "phasor_shift astrometry astrometry_exact astrometry_violation",
      "False in the multi-wavelength function for a binning of two and for wavelengths binned differently; exactly characterised.")
claim("C75", "partial", "P3.Psf", "jitter4_nonneg_partial jitter4_amplifies jitter_disagree jitterFlow_violation",
      "False of the code: the two functions use different units and a zero jitter can raise UnboundLocalError.")
claim("C76", "proved", "P3.Psf", "norm_otfTot strehl_range")
claim("C77", "partial", "P3.Psf", "flux4_partial flux4_default",
      "False of the code: the default value has one dimension and is indexed with two.")
claim("C78", "partial", "P3.Psf", "storeEnsquared_partial storeEnsquared_iff storeEnsquared_violation",
      "False of the code for every binned PSF.")

claim("C32", "proved", "P3.Layers", "eqLayers_refused_iff eqLayers_defined eqLayers_total eqLayers_moment eqLayers_altitude groups_flatten posSlab_eq repair_noop")
claim("C79", "partial", "P3.Layers", "windMod_partial windMod_violation",
      "The winds are as many as the layers and span the range, but are spread evenly whatever the layers: with a wind decreasing with height the modelled profile is reversed (windMod_violation), and an end layer is only right when the extreme wind is in its group (windMod_ends_violation).")
claim("C33", "partial", "P3.Params", "sortParams_spec reshape_spec bounds_partial bounds_violations idFlux_iff idFlux_violation",
      "The decoding is proved; the bounds have the right length only in the cases of bounds_partial, and the flux index is exact only under idFlux_iff.")
claim("C37", "partial", "P3.Fourier", "rtf_add_atf zero_gain norm_ntf h1_le_h2 noiseGain_nonneg noiseGain_negative rtf_integrator trapz_affine noiseGain_flat",
      "The sum is one except where the denominator is replaced by eps (rtf_add_atf states it); the noise gain is non-negative on sorted frequencies only.")
claim("C38", "partial", "P3.Fourier", "recon_inverse recon_none_iff recon_regularised pyr_bounded pyr_zones",
      "Where there is no signal off centre the code divides zero by zero (recon_none_iff) instead of returning zero.")
claim("C39", "proved", "P3.Fourier", "noiseScao_nonneg noiseTomo_nonneg tomoPsd_nonneg aliasPsd_nonneg spatioTemporal_nonneg spatioTemporal_on_axis norm_decorr_le conePsd_nonneg mcaoPsd_spec psdFinal_sum psdFinal_nonneg psdFinal_mono")
claim("C40", "partial", "P3.Fourier", "imposed_total imposed_total_iff_partial extra_met extraOf_spec",
      "False for the imposed total: the unit factor is applied twice (imposed_total_iff_partial says when it is met); the extra error is met.")
claim("C41", "proved", "P3.Fourier", "chunkSum_eq chunkSum_code")
claim("C44", "proved", "P3.Fourier", "anisoPsd_spec diffRefPsd_spec chromPsd_spec diffRefPsd_even")
claim("C45", "partial", "P3.Fourier", "bessel_recurrence_partial bessel_reflection_iff bessel_violation",
      "False of the code for even orders.")
claim("C80", "proved", "P3.Fourier", "tiltFilter_range focusFilter_range focusFilter_projection")
claim("C81", "partial", "P3.Fourier", "windPower_partial windPower_violation",
      "False of the code: the square of the complex rejection is used instead of its squared modulus.")

claim("C42", "proved", "P3.Memory", "final_le_peak no_peak estimate_mono reduce_le breakdown_sums nChunks_spec precision_doubles items_listed")
claim("C46", "proved", "P3.Zernike", "findNM_valid findNM_injective findNM_surjective nMode_spec nmOrder_eq findNMList_partial findNMList_violation findN_iff",
      "Proved for every index; a list passed to the method that is longer than the object's own list fails (findNMList_violation).")
claim("C47", "proved", "P3.Telescope", "pupil_spec pupil_antitone axis_spec pupil_symmetric pupil_dark")
claim("C49", "partial", "P3.Air", "refractiveIndex_spec bandOf_spec bandOf_gap gaps bands_disjoint mathar_reference ciddor_pos ciddor_decreasing ciddor_dry ciddor_pole aboveResonance_of index1_model partial_pressures refractiveIndex_shape",
      "Defined for every wavelength, but between the tabulated bands the K table is extrapolated (gaps), and the dispersion formula has a pole in the far ultraviolet (ciddor_pole).")
claim("C50", "partial", "P3.Pupil", "makePupil_spec window_size window_fits remove1_spec remove_others shift_spec shift_zero rotate_violation shift_violation_axis shift_violation_wrap",
      "Building, removing and shifting inside the map are proved; rotating and shrinking always raise, and the limits of a shift are those of the other axis.")
claim("C82", "proved", "P3.Zernike", "zernike_orthonormal zernike_piston zernike_zero_mean zernike_low radial_one")
claim("C83", "partial", "P3.Zernike", "grid_spec modeMap_spec nollNorm_spec unitNorm_partial unitNorm_violation",
      "The values and the order are proved; the unit normalisation fails on a dark pupil or a mode that vanishes on it.")
claim("C84", "partial", "P3.Telescope", "normaliseMode_partial staticMap_rms staticMap_two staticMap_violation",
      "Proved when the modes are orthogonal on the pupil; otherwise the cross terms remain (staticMap_two).")
claim("C85", "partial", "P3.Telescope", "modeAxis_partial modeAxis_violation offAxis_violation",
      "False when two axes have the same length, and for cubes of off-axis maps.")
claim("C86", "proved", "P3.Telescope", "area_spec airmass_spec")
claim("C87", "partial", "P3.Pupil", "size_fits_partial size_violation",
      "Proved when the extreme coordinates are opposite; false for a segment off axis (size_violation).")
claim("C88", "partial", "P3.Pupil", "pad_map pad_window_partial pad_violation trim_violation",
      "The padded map is right; the windows are misplaced by any padding and by any trimming.")
claim("C89", "partial", "P3.Pupil", "reflect_spec reflect_one phase_spec phase_modulus reflect_violation",
      "Exactly characterised; false when a phase was applied before the reflectivity. In floating point the modulus of exp(i phase) may differ from one, which is outside the model.")
claim("C90", "partial", "P3.Pupil", "fillGap_spec fillGap_violation circle_violation",
      "Lit pixels are kept and only dark ones are lit; but they need not lie between segments (fillGap_violation).")
claim("C91", "partial", "P3.Pupil", "petals_partition spiders_partial spiders_violation nSpiders_iff",
      "The petals are a partition; spiders given by coordinates without a resolution are not drawn.")

claim("C51", "partial", "P3.Fitting", "merge_spec extract_exists merge_extract extract_merge merge_violation",
      "Proved for float start vectors; an integer start vector truncates the free values (merge_violation).")
claim("C52", "partial", "P3.Fitting", "image_unchanged_iff_partial image_shifted image_violation",
      "Exactly characterised: the caller's image is altered whenever its minimum is subtracted in place.")
claim("C53", "partial", "P3.FieldFit", "tiles_spec tile_of_pixel tile_unique tiles_roundtrip roundtrip_smaller centers_spec cubeToImage_spec cubeToImage_not_square tiles_violation cubeToImage_violation",
      "Proved when the number of tiles divides the size of a square image; otherwise the last pixels are lost, and rectangular tiles may be scrambled.")
claim("C54", "partial", "P3.FieldFit", "weights_sum interp_spec nearest_spec interp_violation",
      "Proved away from the references; at the position of a reference the result is not a number.")
claim("C55", "partial", "P3.Fitting", "evaluate_2D evaluate_3D evaluate_3D_iff_partial evaluate_failures",
      "Proved for monochromatic images; for cubes the sky metrics are those of the fit.")
claim("C92", "partial", "P3.Fitting", "fit_ok fit_masked fit_unmasked bounds_violation bounds_ignored norm2_violation",
      "Fixed parameters are kept and model bounds are honoured; bounds given by the user are ignored in some cases (bounds_ignored), see the theorems.")
claim("C93", "proved", "P3.Fitting", "residual_units residual_cost")
claim("C94", "partial", "P3.Fitting", "psfParams_get psfParams_single psfParams_violation",
      "Proved for one wavelength and one frame.")
claim("C95", "proved", "P3.Fitting", "confidence_spec confidence_underdetermined confidence_exact confidence_scale confidence_units gram_posDef")
claim("C96", "partial", "P3.Fitting", "updateBounds_contain updateBounds_degenerate updateBounds_length_partial")
claim("C97", "partial", "P3.Fitting", "imageModel_total imageModel_saturation imageModel_pure imageModel_violation_2D imageModel_violation_inplace",
      "Flux and saturation are proved; for one star the cube of PSFs is altered in place.")
claim("C98", "partial", "P3.FieldFit", "wMse_single_partial quality_inverted quality_pairing",
      "False: the worse fit gets the larger weight (quality_inverted) and qualities are compared across tiles (quality_pairing).")
claim("C99", "partial", "P3.FieldFit", "select_spec select_total select_default",
      "Proved for given limits; the limits that the calibration passes by default raise.")
claim("C100", "partial", "P3.FieldFit", "extract_even candidate_extracted extract_odd_violation",
      "Proved for windows of even size.")
claim("C101", "partial", "P3.FieldFit", "grid_centers grid_violation",
      "Proved for even tile sizes that divide the image.")
claim("C102", "partial", "P3.FieldFit", "wMean_bounds polyval_const wMean_violation wMean_zero",
      "Proved for positive errors; false for the code -1 and for parameters kept fixed.")

claim("C57", "partial", "P3.Telemetry", "toUT_iff toUT_violation toUT_time",
      "Exact condition proved; false on the last day of a month from 14 h. The time of day is always right.")
claim("C58", "partial", "P3.Telemetry", "comDelta_single comDelta_integer comDelta_axis",
      "Proved for one actuator and delays that are not whole; a whole delay counts twice and several actuators are mixed.")
claim("C59", "partial", "P3.IniFile", "write_reads write_values write_frame write_wavelength wavelength_violation write_idempotent unread stale_section write_table",
      "Read-back, frame and idempotence proved for all histories; the guide-star wavelength of an existing file is kept, the options that are never read are listed.")
claim("C103", "partial", "P3.IniFile", "adjust_reads_partial adjust_violation chooseModes_violation adjust_total",
      "Only wavelength and sampling options are read back; mask, aberrations and angle are written under names that are not read.")
claim("C104", "partial", "P3.Telemetry", "indexTime_spec_partial indexTime_violation midnight_violation",
      "Proved within a day; false across midnight, and gaps are flagged in verbose mode only.")
claim("C105", "partial", "P3.Telemetry", "combine_spec combine_violation",
      "Proved for an upper seeing below the total one; otherwise not a number.")
claim("C106", "proved", "P3.Telemetry", "noiseCov_symm noiseCov_quad noiseCov_psd noiseCov_static", "")
claim("C107", "partial", "P3.Telemetry", "tf_sum tf_noise tfDelay_norm delay_violation wfs_violation freq_last freq_first_partial trapz_nonneg",
      "Identities proved; phase of delay and sensor omit pi, and the first frequency is wrong.")
claim("C108", "partial", "P3.Telemetry", "student_increasing_partial student_violation student_large",
      "Monotone in the probability; the row for seven repeats the row for five.")
claim("C109", "proved", "P3.Telemetry", "regression_exact crossing_exact windSpeed_pos windSpeed_scale windSpeed_law", "")
claim("C110", "partial", "P3.Telemetry", "decimated_cov_partial decimated_violation",
      "The number of frames is not updated: the covariance is scaled by the decimation.")
claim("C111", "partial", "P3.Telemetry", "loopDelay_spec ncpa_violation ncpa_spec_partial fixWaves_isolated fixWaves_violation",
      "Delays proved; months without calibration give a name without a month; wavelengths proved for isolated duplicates.")
claim("C56", "proved", "P3.Rec", "sr2wfe_iff wfe2sr_sr2wfe sr2wfe_wfe2sr wfe2sr_anti")
claim("C112", "partial", "P3.Rec", "dphiUij_three dphiVii_spec dphiVii_nonneg modes2Dphi_nonneg dphiVii_covariance_partial dphiVii_transposed dphiVii_negative dphiVii_grey dphiUij_ignores dphiUij_two modes2Dphi_ok_iff svd_example",
      "Exact for pupils of lit and dark pixels, with V diag(s) V^T in place of the covariance; the code uses the columns of V instead of its rows, so the covariance is the given one only for symmetric V. The Uij formula ignores variances; a zero covariance raises.")
claim("C113", "partial", "P3.Rec", "breakdown_differences breakdown_total_partial breakdown_marechal strehlSF_spec breakdown_complete breakdown_noise_servo sample_total breakdown_ignores_aliasing breakdown_total_violation breakdown_servo_nan",
      "Everything but aliasing, which is reported and not summed (breakdown_total_violation); with more noise than signal the total is not a number.")
claim("C114", "partial", "P3.Rec", "jitterSF_spec jitterSF_nonneg jitterSF_rotation jitterSF_mono sampleCov_posSemidef jitterSF_noise_violation",
      "Non-negative for a positive semi-definite covariance; false after the subtraction of a noise larger than the signal.")
claim("C115", "proved", "P3.Rec", "otfPixel_axes otfPixel_bound otfPixel_band")
claim("C116", "partial", "P3.Rec", "totalSF_spec totalSF_nonneg breakdownVector_decoded_partial totalSF_drops_anisoplanatism breakdownVector_misread",
      "Proved for one layer or several reconstructed ones; with several layers of which one is reconstructed the parameters are misread, and without a decoded profile anisoplanatism is dropped.")
claim("C117", "partial", "P3.Rec", "nPh_nearest zonalOtf_spec zonalOtf_bounds pointLoc_whole pointLoc_violation",
      "The couples of points are given; the grid matches when the pitch divides the aperture.")
claim("C118", "partial", "P3.Rec", "olSlopes_spec_partial",
      "False of the code: exactly characterised (present command and preceding element of the flattened array).")
claim("C119", "proved", "P3.Tomo", "tomo_normal errCov_around tomo_optimal tomo_error tomo_noise_mono tomo_extra_star tomo_zero_frequency tomo_exact tomo_unique reconstructor_optimal mp_apply kernel_spectrum meas_spec")
claim("C120", "partial", "P3.Tomo", "noiseCov_independent noiseCov_single noiseCov_none",
      "Independent when there is one variance per sensor; a single variance is broadcast to all entries (fully correlated noise, noiseCov_single).")
claim("C121", "partial", "P3.Tomo", "projector_one_direction projector_regularised projector_symmetric_partial tikhonov_isUnit lambdaReg_real projector_violation",
      "Optimal for one direction, and for symmetrical directions up to the regularisation; false otherwise because the code transposes without conjugating (projector_violation).")
claim("C122", "proved", "P3.Tomo", "projector_cutoff uncorrected")
claim("C123", "partial", "P3.Tomo", "stretched_spec residualPsd_eq spectra_nonneg noisePsd_eq noiseAssigned_iff_partial mpAlpha_still mpAlpha_wind perfect_correction",
      "All but existence: several stars and sources with a zero first noise variance give an array that cannot be assigned (noiseAssigned_iff_partial).")
# ---- properties narrowed to what holds, the rest stated separately
update('C08', 'proved', 'P3.Breakdown.breakdown_spec P3.Breakdown.strehl_antitone P3.Breakdown.breakdown_fitting_aliasing P3.Breakdown.breakdown_pitch_mono P3.Breakdown.breakdown_terms P3.Breakdown.mean_spec', 'Existence of the breakdown is C124.')
claim("C124", 'partial', 'P3.Breakdown', 'breakdown_defined_partial breakdown_two_noise_variances',
      'Proved when the noise variance is available; with two or more noise variances in the parameter file the breakdown raises.')
update('C17', 'proved', 'P3.Hardware.mkDetector_spec P3.Hardware.fovArcsec_spec', 'The second row is C125.')
claim("C125", 'partial', 'P3.Hardware', 'dispersion_second_row_unchecked mkDetector_spec',
      'False of the code: only the first row is compared.')
update('C19', 'proved', 'P3.Freq.createWvl_spec P3.Freq.unique_spec', 'The copy made by the frequency domain and single bins are C126.')
claim("C126", 'partial', 'P3.Freq', 'freqWvl_iff_partial freqWvl_two_bands_fail createWvl_single_bin',
      'freqWvl_iff_partial is the exact characterisation: several centres with several bins raise; a single bin is the lower edge.')
update('C22', 'proved', 'P3.Freq.masks_partition P3.Freq.mskIn_spec P3.Freq.fitting_spec P3.Fourier.corrected_terms_zero', 'The chromatic term is C127.')
claim("C127", 'partial', 'P3.Fourier', 'chrom_outside',
      'False of the code: the term is not masked.')
update('C24', 'proved', 'P3.Freq.freq_centred', '')
claim("C128", 'partial', 'P3.Freq', 'shift_centred_partial',
      'shift_centred_partial is the exact characterisation: no zero for odd sizes.')
update('C26', 'proved', 'P3.Images.crop_spec P3.Images.crop_centre P3.Images.enlarge_spec', '')
claim("C129", 'partial', 'P3.Images', 'crop_enlarge crop_enlarge_shrinks crop_enlarge_violation',
      'Exactly when the padding is even; a row is lost otherwise.')
update('C28', 'proved', 'P3.Psf.psf_flux P3.Psf.detectorPsf_spec P3.Psf.detectorPsf_full', 'Existence for every wavelength is C130.')
claim("C130", 'partial', 'P3.Psf', 'detectorPsf_spec detectorPsf_too_small detectorPsf_violation',
      'Exact condition: the binned grid must be at least as large as the detector.')
update('C33', 'proved', 'P3.Params.sortParams_spec P3.Params.reshape_spec', 'Bounds and the index of the flux are C131.')
claim("C131", 'partial', 'P3.Params', 'bounds_partial bounds_violations idFlux_iff idFlux_violation',
      'Exact conditions proved for the three models; they fail for the sizes of bounds_violations.')
update('C34', 'proved', 'P3.Psf.sombrero1_bounds P3.Psf.pistonFilter_spec P3.Psf.pistonFilter_unclipped P3.Psf.sombrero1_lt P3.Psf.pistonFilter_pos P3.Psf.domainPiston_spec', "J1(x)/x is Poisson's integral.")
update('C37', 'proved', 'P3.Fourier.rtf_add_atf P3.Fourier.zero_gain P3.Fourier.norm_ntf P3.Fourier.h1_le_h2 P3.Fourier.rtf_integrator', '')
claim("C132", 'partial', 'P3.Fourier', 'noiseGain_nonneg noiseGain_negative trapz_affine noiseGain_flat',
      'Proved for increasing frequencies; loops slower than 0.002 Hz integrate backwards.')
update('C38', 'proved', 'P3.Fourier.recon_inverse P3.Fourier.recon_none_iff P3.Fourier.recon_regularised P3.Fourier.pyr_bounded P3.Fourier.pyr_zones', '')
claim("C133", 'partial', 'P3.Fourier', 'recon_none_iff',
      'Exact condition: without regularisation, off the centre, the code divides zero by zero.')
update('C40', 'proved', 'P3.Fourier.extra_met P3.Fourier.extraOf_spec', '')
claim("C134", 'partial', 'P3.Fourier', 'imposed_total imposed_total_iff_partial',
      'False: the unit factor is applied twice; imposed_total_iff_partial says when it is met.')
update('C49', 'proved', 'P3.Air.refractiveIndex_spec P3.Air.bandOf_spec P3.Air.bands_disjoint P3.Air.mathar_reference P3.Air.ciddor_pos P3.Air.ciddor_decreasing P3.Air.ciddor_dry P3.Air.aboveResonance_of P3.Air.index1_model P3.Air.partial_pressures P3.Air.refractiveIndex_shape', 'Wavelengths outside the bands are C135.')
claim("C135", 'partial', 'P3.Air', 'bandOf_gap gaps ciddor_pole',
      'False: in the gaps listed the K table is used, and the visible formula has a pole in the far ultraviolet.')
update('C50', 'proved', 'P3.Pupil.makePupil_spec P3.Pupil.window_size P3.Pupil.window_fits P3.Pupil.remove1_spec P3.Pupil.remove_others P3.Pupil.shift_spec P3.Pupil.shift_zero', 'Rotation, shrinking and the limits are C136.')
claim("C136", 'partial', 'P3.Pupil', 'rotate_violation shift_violation_axis shift_violation_wrap shift_spec',
      'False: rotation and shrinking always raise and the segment is lost; limits are those of the other axis.')
update('C51', 'proved', 'P3.Fitting.merge_spec P3.Fitting.extract_exists P3.Fitting.merge_extract P3.Fitting.extract_merge', 'Integer start vectors are C137.')
claim("C137", 'partial', 'P3.Fitting', 'merge_spec merge_violation',
      'False: fitted values are truncated (merge_spec with the integer type says how).')
update('C53', 'proved', 'P3.FieldFit.tiles_spec P3.FieldFit.tile_of_pixel P3.FieldFit.tile_unique P3.FieldFit.tiles_roundtrip P3.FieldFit.roundtrip_smaller P3.FieldFit.centers_spec P3.FieldFit.cubeToImage_spec P3.FieldFit.cubeToImage_not_square', 'Rectangular tiles and sizes that do not divide are C138.')
claim("C138", 'partial', 'P3.FieldFit', 'tile_of_pixel tiles_violation cubeToImage_violation',
      'False: remainders are dropped, and some cubes of rectangular tiles are accepted and scrambled.')
update('C59', 'proved', 'P3.IniFile.write_reads P3.IniFile.write_values P3.IniFile.write_frame P3.IniFile.write_idempotent P3.IniFile.write_table', 'C139 for the options that are not read or not updated.')
claim("C139", 'partial', 'P3.IniFile', 'write_wavelength wavelength_violation unread stale_section',
      'False: the wavelength of the guide star and the low-order section of an older file remain; five options are never read.')
update('C62', 'proved', 'P3.Atmosphere.structureFunction_zero P3.Atmosphere.variance_strength P3.Atmosphere.spectrum_spec P3.Atmosphere.angularStructureFunction_zero P3.Atmosphere.angularCovariance_zero P3.Atmosphere.structureFunction_spec', '')
claim("C140", 'partial', 'P3.Atmosphere', 'temporalCovariance_zero temporalCovariance_two_layers temporalCovariance_one_layer_partial',
      'False for several layers: each contributes the variance of the whole atmosphere.')
update('C63', 'proved', 'P3.Aniso.angularPsd_spec P3.Aniso.watm_turbulence', '')
claim("C141", 'partial', 'P3.Aniso', 'angularPsd_ignores_strength',
      'False: neither r0 nor the weights are used.')
update('C66', 'proved', 'P3.Freq.cutoffs_spec P3.Freq.resAO_spec', '')
claim("C142", 'partial', 'P3.Freq', 'dk_vs_step_partial dk_violation',
      'Exact condition: 2kc a whole number of steps; otherwise larger by less than one part in resAO.')
update('C69', 'proved', 'P3.Metrics.wavelengthVector_spec P3.Metrics.block_spec', 'A single bin: wavelength_single_bin and C126.')
update('C83', 'proved', 'P3.Zernike.grid_spec P3.Zernike.modeMap_spec P3.Zernike.nollNorm_spec', '')
claim("C143", 'partial', 'P3.Zernike', 'unitNorm_partial unitNorm_violation',
      'One mode only: several raise, unless as many as pixels across, and then off-diagonal pixels are cleared.')
update('C91', 'proved', 'P3.Pupil.petals_partition', '')
claim("C144", 'partial', 'P3.Pupil', 'spiders_partial spiders_violation nSpiders_iff',
      'nSpiders_iff is the exact condition: with coordinates and no resolution none is drawn.')
update('C92', 'proved', 'P3.Fitting.fit_ok P3.Fitting.fit_masked P3.Fitting.fit_unmasked', 'Other cases are C145.')
claim("C145", 'partial', 'P3.Fitting', 'fit_masked bounds_violation bounds_ignored norm2_violation',
      'False: bounds without a mask raise NameError, other methods ignore bounds, and normalisation 2 always raises.')
update('C97', 'proved', 'P3.Fitting.imageModel_total P3.Fitting.imageModel_saturation P3.Fitting.imageModel_pure', '')
claim("C146", 'partial', 'P3.Fitting', 'imageModel_violation_2D imageModel_violation_inplace',
      'False for two-dimensional images (not clipped) and without stacking (clipped in place).')
update('C99', 'proved', 'P3.FieldFit.select_spec P3.FieldFit.select_total', '')
claim("C147", 'partial', 'P3.FieldFit', 'select_default',
      'False: raises TypeError whatever the stars.')
update('C107', 'proved', 'P3.Telemetry.tf_sum P3.Telemetry.tf_noise P3.Telemetry.tfDelay_norm P3.Telemetry.freq_last P3.Telemetry.trapz_nonneg', '')
claim("C148", 'partial', 'P3.Telemetry', 'delay_violation wfs_violation freq_first_partial',
      'False: pi is left out of both phases; the first frequency is right only if the rate equals the number of frames (freq_first_partial).')
update('C111', 'proved', 'P3.Telemetry.loopDelay_spec', '')
claim("C149", 'partial', 'P3.Telemetry', 'ncpa_spec_partial ncpa_violation',
      'Other months share a name without a month.')
claim("C150", 'partial', 'P3.Telemetry', 'fixWaves_isolated fixWaves_violation',
      'Proved for isolated duplicates; three equal ones stay equal.')
update('C114', 'proved', 'P3.Rec.jitterSF_spec P3.Rec.jitterSF_nonneg P3.Rec.jitterSF_rotation P3.Rec.jitterSF_mono P3.Rec.sampleCov_posSemidef', 'After subtraction of noise: C151.')
claim("C151", 'partial', 'P3.Rec', 'jitterSF_nonneg jitterSF_noise_violation',
      'False when the estimated noise exceeds the signal.')
update('C116', 'proved', 'P3.Rec.totalSF_spec P3.Rec.totalSF_nonneg', '')
claim("C152", 'partial', 'P3.Rec', 'breakdownVector_decoded_partial totalSF_drops_anisoplanatism breakdownVector_misread',
      'Proved for one layer or several reconstructed ones; misread otherwise, and anisoplanatism is dropped without a decoded profile.')
update('C117', 'proved', 'P3.Rec.zonalOtf_spec P3.Rec.zonalOtf_bounds', '')
claim("C153", 'partial', 'P3.Rec', 'nPh_nearest pointLoc_whole pointLoc_violation',
      'Proved when the pitch divides the aperture.')
update('C123', 'proved', 'P3.Tomo.stretched_spec P3.Tomo.residualPsd_eq P3.Tomo.spectra_nonneg P3.Tomo.noisePsd_eq P3.Tomo.mpAlpha_still P3.Tomo.mpAlpha_wind P3.Tomo.perfect_correction', '')
claim("C154", 'partial', 'P3.Tomo', 'noiseAssigned_iff_partial',
      'Exact condition: fails for several stars with a zero first variance unless there are as many sources as frequencies across (or a single frequency).')
update('C54', 'proved', 'P3.FieldFit.weights_sum P3.FieldFit.interp_spec P3.FieldFit.nearest_spec', '')
claim("C155", 'partial', 'P3.FieldFit', 'interp_violation nearest_spec',
      'False: zero distance gives not-a-number.')
update('C55', 'proved', 'P3.Fitting.evaluate_2D', '')
claim("C156", 'partial', 'P3.Fitting', 'evaluate_3D evaluate_3D_iff_partial evaluate_failures',
      'False: arrays are shared, so sky metrics are overwritten by those of the fit; exact condition proved.')
claim("C157", 'proved', 'P3.Otf', 'pupil2otf_spec pupil2otf_flat', '')
claim("C158", 'proved', 'P3.Otf', 'padOf_two pupil2otf_linear pupil2otf_cutoff', '')
claim("C159", 'proved', 'P3.Otf', 'otf2psf_unit pupil2psf_farField', '')
claim("C160", 'proved', 'P3.Otf', 'staticOtf_spec strehl_static', 'Without resampling of the OTF (spline interpolation is not modelled).')
claim("C161", 'partial', 'P3.Otf', 'static_sign_lost static_tilt_partial real_otf_symmetric',
      'False: only the real part of the OTF is kept, so opposite maps are not distinguished, a tilt makes a symmetric double image and every PSF is point-symmetric.')
claim("C162", 'partial', 'P3.Otf', 'staticPhase_partial staticPhase_ignored',
      'False: coefficients of another number than the modes are silently ignored.')
claim("C163", 'partial', 'P3.Otf', 'telescopeOtf_conv telescopeOtf_le telescopeOtf_shifted_partial telescopeOtf_off_centre telescopeOtf_asymmetric sum_dlOtf',
      'False: it is the self-convolution, equal to the autocorrelation moved by one or two pixels for symmetrical pupils; for pupils without a point of symmetry its normalised sum is too large.')
claim("C164", 'proved', 'P3.Otf', 'psf2otf_spec', '')
claim("C165", 'partial', 'P3.Otf', 'otf2psf_rectangular_partial otf2psf_rectangular_violation',
      'Exact condition proved; False for rectangular arrays with an even number of rows.')
claim("C166", 'partial', 'P3.Otf', 'centerPsf_half centerPsf_exact_partial',
      'False: the image is moved by (d-1)/2 pixels for a peak d pixels away.')
claim("C167", 'proved', 'P3.Otf', 'rfftToFft_spec rfftCols_fit', '')
claim("C168", 'partial', 'P3.Otf', 'phaseToSf_unnormalised phaseToSf_piston phaseToSf_piston_row phaseToSf_zero_partial',
      'False: the normalisation by the number of pairs never happens and piston gives negative values; only the value at zero separation is right.')
claim("C169", 'proved', 'P3.Psfao', 'onAxisSF_spec max_cov fullCov_eq', '')
claim("C170", 'partial', 'P3.Psfao', 'opdSF_onaxis_partial aniso_never_applied aniso_cases aniso_length opdSF_error aniso_violation',
      'False: with one fitted layer the off-axis stars get the on-axis function, with several the arrays cannot be multiplied.')
claim("C171", 'partial', 'P3.Psfao', 'callShape_given_partial callShape_default callShape_bands',
      'False with the default stellar parameters unless there are as many sources as wavelengths.')
claim("C172", 'partial', 'P3.Psfao', 'reportedWfe_partial reportedWfe_spec reportedWfe_violation',
      'False at several wavelengths: too large by the ratio of the last wavelength to the first.')
claim("C173", 'partial', 'P3.Psfao', 'init_partial init_violation background_violation',
      'False at several wavelengths: the last one is left, and one background is decoded.')
claim("C174", 'partial', 'P3.Psfao', 'defineBounds_spec storeBounds_partial defineBounds_odd',
      'Order of the bounds proved; the update fails at several wavelengths and positions have asymmetric bounds for odd fields.')
claim("C175", "partial", "P3.FRun", "psd_sum breakdown_exact breakdown_partial breakdown_cone_violation breakdown_tilt breakdown_tilt_violation",
      "Exact balance between total and integral. False with a single laser (the cone effect is in the PSD, not in the total), with the tilt filter (PSD filtered, terms not), for off-axis sources with the MCAO cone effect (that of the first source is reported).")
claim("C176", "partial", "P3.FRun", "breakdown_cases_partial wfeTomo_nan wfeTomo_spec wfeRec_spec",
      "Exact cases. Nothing is reported in open loop; AttributeError if the MCAO cone error is asked for with one guide star or natural guide stars; the tomographic error is nan when the servo-lag error exceeds the spatio-temporal one.")
claim("C177", "proved", "P3.FRun", "marechal_spec std_spec jitter_spec", "")
claim("C178", "partial", "P3.FRun", "second_run repeat_one second_run_violation second_run_fov",
      "Exact condition for the second run. With several sensors it raises (truth value of the array of variances computed by the first run); the field of view is checked at another wavelength the second time.")
claim("C179", "partial", "P3.FRun", "heightMod_partial heightMod_violation",
      "False for a guide star object of height zero with a compressed profile: division by zero puts the layers on the ground.")
claim("C180", "partial", "P3.FRun", "r0Wfs_exact_partial",
      "Holds exactly when the atmosphere is described at 500 nm.")
claim("C181", "partial", "P3.Extra", "weight_pos_iff extra_partial extra_science wanted_violation list_violation band_violation",
      "Proved for a positive technical field, non-empty bands and a number or a pair. With the default technical field the value on axis is never used, lists of other lengths raise, an empty band gives nan.")
claim("C182", "partial", "P3.Extra", "default_partial default_violation",
      "The limits of the band are not inherited.")
for _c in C:
    if _c["property"] == "C175": _c["theorems"].append("P3.Extra.breakdown_science_partial")
claim("C183", "partial", "P3.Focal", "focal_exact_partial focal_onaxis focal_violation focal_infinity focal_twice coord_spec map_center mcDonald_continuous",
      "One term of the code has the wrong sign of the direction: an off-axis source has a non-zero, possibly negative term at zero separation (it cancels in the mean over a symmetric grid), and the angular part is counted twice.")
claim("C184", "partial", "P3.Focal", "quadrant_bounds map_stationary map_even map_violation map_trace",
      "The code computes one quadrant and mirrors it: true for covariances symmetric in each axis only.")
claim("C185", "proved", "P3.Focal", "aniso_symm aniso_same aniso_exchange bessel_bound aniso_nonneg",
      "Without lag; the quadrature is a parameter (positive linear functional); J0 and J2 are Bessel's integrals.")
claim("C186", "partial", "P3.Focal", "kernel_exact kernel_uncorrelated kernel_violation kernel_sources_partial",
      "The cross terms multiply by a transposed array: wrong for correlated tip and tilt (can be negative), and several sources raise.")
claim("C187", "partial", "P3.Fwhm", "contour_level contour_violation raw_spec peakPix_spec findContour_spec",
      "False where the only pixel above the level is the peak: the point is the peak itself. Pixels exactly at the level give no point.")
claim("C188", "partial", "P3.Fwhm", "median_l1 keep_half keep_violation",
      "All points at one distance of the peak (a round contour) are all removed.")
claim("C189", "partial", "P3.Fwhm", "widths_scale ofContour_order ofContour_circle round_violation aRatio_spec rebin_cut rebin_violation widths_flat ofContour_shift",
      "The Gaussian and Moffat methods ignore the resampling factor; the contour method never measures a round contour.")
claim("C190", "proved", "P3.Fwhm", "widths_raises output_spec measure_contour output_mean",
      "Which calls return widths, and how many values. Given the cuts, see C72.")
claim("C191", "proved", "P3.ZVar", "variance_order", "An empty list raises IndexError.")
claim("C192", "proved", "P3.ZVar", "noll_decreasing noll_scale", "")
claim("C193", "partial", "P3.ZVar", "series_sum series_zero series_accurate_partial series_violation series_violation_far unParam_tilt tilt_series",
      "The stopping rule compares two consecutive terms, not a term with the tolerance: it stops at the crest of the series where two terms are equal (tip-tilt for (pi D/L0)^2 = 7/2 stops at 2, the sum is over 2.35).")
claim("C194", "partial", "P3.Diag", "photons_spec top_sum top_mean photons_cases ron_violation",
      "The read-out noise is computed on sorted pixels: zero for exposures that are rearrangements of one another. Fewer than 101 actuators raise IndexError.")
claim("C195", "partial", "P3.Diag", "select_ring select_valid select_one_violation select_centre_violation",
      "One diameter alone raises TypeError; the centre of the ring is half a pixel off.")
claim("C196", "proved", "P3.Diag", "averageOrder_spec averageOrder_perm", "")
claim("C197", "partial", "P3.Diag", "coeffs_offset czHo_centre czHo_psd jIndex_spec czTt_violation",
      "Without laser the tip-tilt covariance is the variance of the first reconstructed mode.")
claim("C198", "proved", "P3.Diag", "u2z_exact u2z_least", "The pseudo-inverse is any generalised inverse of the Gram matrix: modes whose singular values fall under rcond are not covered.")
claim("C199", "partial", "P3.Diag", "noise_autocorrelation_partial noise_rtf_violation noise_other_violation noise_interpolation_violation",
      "'rtf' always raises, 'interpolation' works on frames instead of commands, unknown names give zero, and the telemetry is centred in place.")
claim("C200", "proved", "P3.Deep", "chooseSub_spec", "")
claim("C201", "partial", "P3.Deep", "split_crash split_done split_overwrites split_resume_violation",
      "Proved for sub-folders without files of the same names, which are otherwise silently replaced; an interrupted distribution cannot always be resumed.")
claim("C202", "partial", "P3.Deep", "columnValues_spec columnValues_sizes bounds_violation bounds_accepted",
      "The bounds hold up to the rounding of the edges.")
claim("C203", "partial", "P3.Deep", "totalPsd_stat totalPsd_violation",
      "With r0 as main parameter, the default, the images do not depend on r0.")
claim("C204", "partial", "P3.Deep", "labels_distinct testPerFolder_spec testPerFolder_violation",
      "Fewer test data than sub-folders gives none, too many fails.")
claim("C205", "partial", "P3.Deep", "recover_spec recover_violation recover_short", "Fails when the folder test_data is left by an interrupted run.")
claim("C206", "partial", "P3.Deep", "verified_lower verified_violation", "The last column of each interval is not compared with its upper edge.")
claim("C207", "partial", "P3.Deep", "readRows_spec readRows_violation", "The last row is ignored unless another line follows.")
claim("C208", "proved", "P3.Deep", "pearson_le pearson_affine relErr_spec", "")
claim("C209", "partial", "P3.Sphere", "corrupted_range corrupted_never_partial corrupted_raises",
      "The criteria are one chain of comparisons between sums: no image is ever found corrupted; only the test of the telemetry works.")
claim("C210", "partial", "P3.Sphere", "moveAll_spec moveAll_noOut moveAll_exists",
      "When the destination does not exist the first data set is renamed to it.")
claim("C211", "partial", "P3.Sphere", "crop_iff stack_spec stack_odd crop_repeats stack_density",
      "An odd size or a peak near the edge raises, a window larger than the frame may repeat one pixel, and the neutral density is not read from the header.")
claim("C212", "proved", "P3.Sphere", "split_spec date_ok", "")
claim("C213", "partial", "P3.Sphere", "sort_complete sort_crash sort_resume sort_blocked",
      "One year; no sub-folder named with .fits and no file named as a date. A file of the same name in the folder of the date is replaced.")
claim("C214", "partial", "P3.Sphere", "guess_length fixed_spec guessSig2_spec guessR0_spec_partial",
      "r0 grows as the square of the wavelength instead of the power 6/5; the marker of a missing Strehl ratio gives no finite start.")
claim("C215", "partial", "P3.Sphere", "fit_default fit_spec_partial", "With the default arguments it always raises; without static modes the fit runs twice.")
claim("C216", "partial", "P3.Sphere", "table_aligned table_fwhm numberModes_iff_partial",
      "The column FWHMY FIT holds the width along x; the number of modes is wrong for a file with the modes on the last axis.")
claim("C217", "partial", "P3.Sphere", "tiptilt_filter tiptilt_same tiptilt_coeffs_partial tiptilt_coeffs_remain",
      "The coefficients describe what remains only if the modes contain tip and tilt.")
claim("C218", "partial", "P3.Sphere", "lwe_marker lwe_unfitted lwe_zero lwe_scale lwe_tiptilt",
      "Rows that were not fitted hold -1 and get the error of these values; rows of zeros raise without the removal of tip-tilt.")
claim("C219", "partial", "P3.Sphere", "window_spec_partial delay_spec gain_spec grab_spec",
      "The gain rises to 0.6 at magnitude 10.5 and is None from 11.3; the window of 1.5 pixels is never used; other filters raise.")
claim("C220", "partial", "P3.Sphere", "findClosest_spec sparta_ok sparta_raises",
      "A missing file or a table without flux raises.")
claim("C221", "partial", "P3.Sphere", "temperatures_spec detector_spec getDate_spec seeingUsed_nonneg",
      "Temperatures written as integers are dropped.")
claim("C222", "partial", "P3.Profile", "profile_spec profile_bounds profile_flux profile_fails profile_two_partial",
      "The outermost ring is left out; an image whose pixels are all in one ring raises.")
claim("C223", "partial", "P3.Profile", "rings_consecutive radius_of_ring centre_default small_bins_wrong_radius",
      "Proved for bins not smaller than the pixels and centres on a pixel or a corner; refuted for smaller bins.")
claim("C224", "proved", "P3.Profile", "super1d_spec super2d_spec",
      "The cubic spline is assumed to pass through its points.")
claim("C225", "partial", "P3.Profile", "superEe_spec_partial superEe_uniform",
      "The profile is integrated along the radius instead of over the disc: linear for a uniform image.")
claim("C226", "partial", "P3.Profile", "ee_lengths_partial", "A maximal radius shortens the radii and the profile but not the energy.")
claim("C227", "partial", "P3.Profile", "std_rings_partial std_spec std_first_ring_wrong",
      "The limit of the first ring mixes bins and units: right only for bins of one unit.")
claim("C228", "partial", "P3.Profile", "full_range range_only std_ignores_range", "The option stddev ignores the range.")
claim("C229", "partial", "P3.PsdPsf", "otf_spec",
      "All bounds for all sizes; the structure function is that of the PSD for even sizes, for odd sizes the frequencies are off by one pixel (see C232).")
claim("C230", "partial", "P3.PsdPsf", "psf_odd",
      "Proved for odd sizes (the halo is bounded with the frequencies as the code takes them); for even sizes see C231.")
claim("C231", "partial", "P3.PsdPsf", "psf_odd psf_even_negative",
      "Holds for odd sizes; refuted for every even size from 4: the half-pixel shift gives a negative pixel.")
claim("C232", "partial", "P3.PsdPsf", "piston", "Holds for even sizes; refuted for odd ones: fftshift moves the zero frequency one pixel too far.")
claim("C233", "proved", "P3.PsdPsf", "sfOf_spec", "Even sizes for the formula, all sizes for the bounds.")
claim("C234", "proved", "P3.PsdPsf", "sf_values sf_scaling", "Without the final interpolation.")
claim("C235", "partial", "P3.PsdPsf", "telescopePsf_sampling telescopePsf_undersampled",
      "Right from two pixels per lambda/D; below, the pixels are half of what was asked.")
claim("C236", "proved", "P3.PsdPsf", "shannon_sampling", "When the padding and the intermediate size are exact.")
claim("C237", "proved", "P3.Zonal", "indpts_spec points_spec", "Separations inside the output grid, points within nPh pitches.")
claim("C238", "proved", "P3.Zonal", "otfAt_spec mask_otf", "Before the final interpolation.")
claim("C239", "proved", "P3.Zonal", "otfAt_bounds", "Before the final interpolation.")
claim("C240", "partial", "P3.Zonal", "otfNone_refuted",
      "Refuted: row numbers are used as positions; along one axis the OTF does not depend on the covariance at all.")
claim("C241", "proved", "P3.Run", "row_spec", "The other eight columns are those of C242 to C245.")
claim("C242", "partial", "P3.Run", "row_units_partial", "Refuted: latencies are in frames (right only at 1 kHz) and the noise columns hold variances.")
claim("C243", "partial", "P3.Run", "row_tiptilt_partial", "Refuted: both repeat the high-order loop.")
claim("C244", "partial", "P3.Run", "row_swapped_partial", "Refuted: the two columns are exchanged.")
claim("C245", "partial", "P3.Run", "row_strehl_partial", "Right without a fit; with a fit the value is divided by 100.")
claim("C246", "partial", "P3.Run", "unpack_effect", "Same row twice; the system is moved to 500 nm, and unchanged only if it was there.")
claim("C247", "proved", "P3.Run", "matched_spec", "File names are opaque; other files with the same identifier are never used.")
claim("C248", "proved", "P3.Run", "merge_spec merge_empty", "Rows are opaque but for their date; the order of equal dates is left open.")
claim("C249", "partial", "P3.Run", "kasp_spec", "Refuted without true_r0 (the truth is overwritten by the estimate) and for the unit of the coherence time.")
claim("C250", "partial", "P3.Run", "r0_read_partial", "Refuted: the value read is 0.976 times the estimate, times airmass to the -3/5.")
claim("C251", "proved", "P3.Run", "diagnose_wind dtau0_spec", "")
claim("C252", "partial", "P3.Run", "bins_spec_partial", "Refuted for a scatter plot without bins (TypeError).")
update('C174', "proved", 'P3.Psfao.defineBounds_spec', '')
claim("C253", "partial", 'P3.Psfao', 'storeBounds_partial defineBounds_odd',
      'The update works at one wavelength only; the bounds of positions are asymmetric for odd fields.')
update('C184', "proved", 'P3.Focal.quadrant_bounds P3.Focal.map_stationary P3.Focal.map_even P3.Focal.map_trace', '')
claim("C254", "partial", 'P3.Focal', 'map_violation',
      'Refuted: one quadrant is computed and mirrored.')
update('C194', "proved", 'P3.Diag.photons_spec P3.Diag.top_sum P3.Diag.top_mean P3.Diag.photons_cases', '')
claim("C255", "partial", 'P3.Diag', 'ron_violation',
      'Refuted: pixels are sorted first, so exposures that are rearrangements of one another give zero; fewer than 101 actuators raise IndexError (photons_cases).')
update('C195', "proved", 'P3.Diag.select_ring P3.Diag.select_valid', '')
claim("C256", "partial", 'P3.Diag', 'select_one_violation select_centre_violation',
      'Refuted: one diameter alone raises TypeError; the centre is half a pixel off.')
update('C197', "proved", 'P3.Diag.coeffs_offset P3.Diag.czHo_centre P3.Diag.czHo_psd P3.Diag.jIndex_spec', '')
claim("C257", "partial", 'P3.Diag', 'czTt_violation',
      'Refuted: without laser it is the variance of the first reconstructed mode.')
update('C201', "proved", 'P3.Deep.split_crash P3.Deep.split_done', '')
claim("C258", "partial", 'P3.Deep', 'split_overwrites split_resume_violation',
      'Refuted: files of the same name are replaced; the files left may not divide into the sub-folders asked for.')
update('C202', "proved", 'P3.Deep.columnValues_spec P3.Deep.columnValues_sizes P3.Deep.bounds_accepted', '')
claim("C259", "partial", 'P3.Deep', 'bounds_violation',
      'Refuted: the rounding of the edges can exceed the bounds.')
update('C204', "proved", 'P3.Deep.labels_distinct P3.Deep.testPerFolder_spec', '')
claim("C260", "partial", 'P3.Deep', 'testPerFolder_violation',
      'Refuted: fewer than the number of sub-folders gives none, too many fails.')
update('C205', "proved", 'P3.Deep.recover_spec P3.Deep.recover_short', '')
claim("C261", "partial", 'P3.Deep', 'recover_violation',
      'Refuted: the folder test_data raises.')
update('C207', "proved", 'P3.Deep.readRows_spec', '')
claim("C262", "partial", 'P3.Deep', 'readRows_violation',
      'Refuted: the last line is ignored.')
update('C210', "proved", 'P3.Sphere.moveAll_spec P3.Sphere.moveAll_exists', '')
claim("C263", "partial", 'P3.Sphere', 'moveAll_noOut',
      'Refuted: the first data set is renamed to the destination.')
update('C211', "proved", 'P3.Sphere.crop_iff P3.Sphere.stack_spec', '')
claim("C264", "partial", 'P3.Sphere', 'stack_odd crop_repeats stack_density',
      'Refuted in all cases.')
update('C214', "proved", 'P3.Sphere.guess_length P3.Sphere.fixed_spec P3.Sphere.guessSig2_spec', '')
claim("C265", "partial", 'P3.Sphere', 'guessR0_spec_partial',
      'Refuted: it grows as the square of the wavelength.')
update('C216', "proved", 'P3.Sphere.table_aligned', '')
claim("C266", "partial", 'P3.Sphere', 'table_fwhm numberModes_iff_partial',
      'Refuted: it holds the width along x; the number of modes is wrong when they are on the last axis.')
update('C217', "proved", 'P3.Sphere.tiptilt_filter P3.Sphere.tiptilt_same', '')
claim("C267", "partial", 'P3.Sphere', 'tiptilt_coeffs_partial tiptilt_coeffs_remain',
      'True only if the modes contain tip and tilt.')
update('C218', "proved", 'P3.Sphere.lwe_scale P3.Sphere.lwe_tiptilt P3.Sphere.lwe_marker', '')
claim("C268", "partial", 'P3.Sphere', 'lwe_unfitted lwe_zero',
      'Refuted: rows that were not fitted hold -1 and get the error of these values; rows of zeros raise without the removal of tip-tilt.')
update('C220', "proved", 'P3.Sphere.findClosest_spec P3.Sphere.sparta_ok', '')
claim("C269", "partial", 'P3.Sphere', 'sparta_raises',
      'Refuted: both raise.')
update('C221', "proved", 'P3.Sphere.temperatures_spec P3.Sphere.detector_spec P3.Sphere.getDate_spec P3.Sphere.seeingUsed_nonneg', '')
update('C222', "proved", 'P3.Profile.profile_spec P3.Profile.profile_bounds P3.Profile.profile_flux', '')
claim("C270", "partial", 'P3.Profile', 'profile_fails profile_two_partial',
      'Refuted: the outermost ring is left out, and a single ring raises.')
update('C223', "proved", 'P3.Profile.rings_consecutive P3.Profile.radius_of_ring P3.Profile.centre_default', '')
claim("C271", "partial", 'P3.Profile', 'small_bins_wrong_radius',
      'Refuted: empty rings are skipped in the profile but not in the radii.')
update('C228', "proved", 'P3.Profile.full_range P3.Profile.range_only', '')
claim("C272", "partial", 'P3.Profile', 'std_ignores_range',
      'Refuted: the range is ignored.')
update('C229', "proved", 'P3.PsdPsf.otf_spec', '')
update('C230', "proved", 'P3.PsdPsf.psf_odd', '')
update('C246', "proved", 'P3.Run.unpack_effect', '')
claim("C273", "partial", 'P3.Run', 'unpack_effect',
      'Refuted: true only if the atmosphere was described at 500 nm.')
update('C249', "proved", 'P3.Run.kasp_spec', '')
claim("C274", "partial", 'P3.Run', 'kasp_spec',
      'Refuted: without true_r0 the truth is overwritten by the estimate; the coherence times differ by a factor of a million.')
update('C06', "proved", 'P3.Config.reconfigure_fov P3.Config.reconfigure_fov_same P3.Config.reconfigure_rest', 'reconfigure_fov is the exact effect in all cases.')
claim("C275", "partial", 'P3.Config', 'reconfigure_fov reconfigure_not_idempotent',
      'Refuted: it is multiplied by the ratio of the wavelengths each time.')
update('C07', "proved", 'P3.Config.science_positions P3.Config.science_positions_off', '')
claim("C276", "partial", 'P3.Config', 'coo_stars_positions_are_added',
      'Refuted: numpy adds the coordinates.')
update('C10', "proved", 'P3.Source.direction_spec P3.Source.source_height_wvl', '')
claim("C277", "partial", 'P3.Source', 'source_multiwavelength_azimuths',
      'Refuted: one source is reported, and its directions raise.')
update('C12', "proved", 'P3.Atmosphere.layers_strength P3.Atmosphere.slab_spec', '')
claim("C278", "partial", 'P3.Atmosphere', 'slab_stale_after_setWvl',
      'Refuted: it has the new wavelength with the strength at the old one.')
update('C15', "proved", 'P3.Hardware.sub2ind_inRange P3.Hardware.sub2ind_injective P3.Hardware.roundtrip_square P3.Hardware.sub2ind_neg_one_iff', '')
claim("C279", "partial", 'P3.Hardware', 'roundtrip_iff_partial ind2sub_sub2ind roundtrip_fails',
      'Refuted; roundtrip_iff_partial is the exact condition on the shape.')
update('C23', "proved", 'P3.Freq.embed_spec P3.Freq.embed_refused', 'embed_spec gives the exact offset also for the other parities.')
claim("C280", "partial", 'P3.Freq', 'embed_misaligned fovCheck_too_lax',
      'Refuted: one pixel off; the check uses the wavelength of the atmosphere.')
update('C31', "proved", 'P3.Images.ensquared_box P3.Images.ensquared_mono', '')
claim("C281", "partial", 'P3.Images', 'ensquared_wraps ensquared_last_centred ensquared_violation',
      'Refuted: the Python slice wraps around at the lower edge.')
update('C48', "proved", 'P3.Aniso.focal_ground P3.Aniso.focal_nonneg_both P3.Aniso.focal_altitude', '')
claim("C282", "partial", 'P3.Aniso', 'focal_not_monotone focal_reports_disagree',
      'Refuted: the constants differ, and both decrease near the laser.')
update('C57', "proved", 'P3.Telemetry.toUT_iff P3.Telemetry.toUT_time', '')
claim("C283", "partial", 'P3.Telemetry', 'toUT_iff toUT_violation',
      'Refuted: the 32nd of January.')
update('C58', "proved", 'P3.Telemetry.comDelta_single', '')
claim("C284", "partial", 'P3.Telemetry', 'comDelta_integer comDelta_axis',
      'Refuted: whole delays count twice and actuators are mixed.')
update('C70', "proved", 'P3.Metrics.axisGrid_spec P3.Metrics.interpolate_zoom P3.Metrics.interpolate_same', '')
claim("C285", "partial", 'P3.Metrics', 'interpolate_rectangular',
      'Refuted: always raises.')
update('C72', "proved", 'P3.Metrics.fwhm1d_spec P3.Metrics.fwhm1d_single', '')
claim("C286", "partial", 'P3.Metrics', 'fwhm1d_raises_iff_partial fwhm1d_violation fwhm1d_flat_top',
      'Refuted; fwhm1d_raises_iff_partial is the exact condition under which it raises.')
update('C74', "proved", 'P3.Psf.phasor_shift P3.Psf.astrometry P3.Psf.astrometry_exact', '')
claim("C287", "partial", 'P3.Psf', 'astrometry_violation astrometry_exact',
      'Refuted for a binning of two and for wavelengths binned differently.')
update('C94', "proved", 'P3.Fitting.psfParams_get P3.Fitting.psfParams_single', '')
claim("C288", "partial", 'P3.Fitting', 'psfParams_violation',
      'Refuted: fitted offsets and backgrounds remain.')
update('C96', "proved", 'P3.Fitting.updateBounds_contain', '')
claim("C289", "partial", 'P3.Fitting', 'updateBounds_degenerate updateBounds_length_partial',
      'Refuted: parameters without error get equal bounds; the number is right for one layer, star, wavelength and frame only.')
update('C89', "proved", 'P3.Pupil.reflect_spec P3.Pupil.reflect_one P3.Pupil.phase_spec P3.Pupil.phase_modulus', 'In floating point the modulus of exp(i phase) may differ from one, which is outside the model.')
claim("C290", "partial", 'P3.Pupil', 'reflect_violation',
      'Refuted: the phase is erased.')
update('C90', "proved", 'P3.Pupil.fillGap_spec', '')
claim("C291", "partial", 'P3.Pupil', 'fillGap_violation circle_violation',
      'Refuted: a single segment gets whole rows lit; circular segments raise.')
update('C100', "proved", 'P3.FieldFit.extract_even P3.FieldFit.candidate_extracted', '')
claim("C292", "partial", 'P3.FieldFit', 'extract_odd_violation',
      'Refuted: a pixel can be lost at the border.')
update('C101', "proved", 'P3.FieldFit.grid_centers', '')
claim("C293", "partial", 'P3.FieldFit', 'grid_violation',
      'Refuted: one pixel off.')
update('C102', "proved", 'P3.FieldFit.wMean_bounds P3.FieldFit.polyval_const', '')
claim("C294", "partial", 'P3.FieldFit', 'wMean_violation wMean_zero',
      'Refuted for both.')
update('C120', "proved", 'P3.Tomo.noiseCov_independent P3.Tomo.noiseCov_none', '')
claim("C295", "partial", 'P3.Tomo', 'noiseCov_single',
      'Refuted: it is constant, that is fully correlated noise.')
update('C129', "proved", 'P3.Images.crop_enlarge', '')
claim("C296", "partial", 'P3.Images', 'crop_enlarge_shrinks crop_enlarge_violation',
      'Refuted: a row is lost.')
update('C132', "proved", 'P3.Fourier.noiseGain_nonneg P3.Fourier.trapz_affine P3.Fourier.noiseGain_flat', '')
claim("C297", "partial", 'P3.Fourier', 'noiseGain_negative',
      'Refuted: below 0.002 Hz the frequencies decrease.')
update('C150', "proved", 'P3.Telemetry.fixWaves_isolated', '')
claim("C298", "partial", 'P3.Telemetry', 'fixWaves_violation',
      'Refuted.')
update('C153', "proved", 'P3.Rec.nPh_nearest P3.Rec.pointLoc_whole', '')
claim("C299", "partial", 'P3.Rec', 'pointLoc_violation',
      'Refuted.')
update('C178', "proved", 'P3.FRun.second_run P3.FRun.repeat_one', '')
claim("C300", "partial", 'P3.FRun', 'second_run_violation second_run_fov',
      'Refuted with several sensors, and when the field of view is too small at the science wavelength only.')
update('C187', "proved", 'P3.Fwhm.contour_level P3.Fwhm.raw_spec P3.Fwhm.peakPix_spec P3.Fwhm.findContour_spec', '')
claim("C301", "partial", 'P3.Fwhm', 'contour_violation',
      'Refuted: the point is the peak.')
update('C188', "proved", 'P3.Fwhm.median_l1 P3.Fwhm.keep_half', '')
claim("C302", "partial", 'P3.Fwhm', 'keep_violation',
      'Refuted: all points are removed.')
update('C189', "proved", 'P3.Fwhm.widths_scale P3.Fwhm.ofContour_order P3.Fwhm.ofContour_circle P3.Fwhm.ofContour_shift P3.Fwhm.aRatio_spec P3.Fwhm.rebin_cut P3.Fwhm.widths_flat', '')
claim("C303", "partial", 'P3.Fwhm', 'rebin_violation round_violation',
      'Refuted: the resampling factor is ignored; a round contour is never measured.')
update('C203', "proved", 'P3.Deep.totalPsd_stat', '')
claim("C304", "partial", 'P3.Deep', 'totalPsd_violation',
      'Refuted.')
update('C206', "proved", 'P3.Deep.verified_lower', '')
claim("C305", "partial", 'P3.Deep', 'verified_violation',
      'Refuted: the last column is not compared.')
update('C213', "proved", 'P3.Sphere.sort_complete P3.Sphere.sort_crash P3.Sphere.sort_resume', 'A file of the same name in the folder of the date is replaced.')
claim("C306", "partial", 'P3.Sphere', 'sort_blocked',
      'Refuted: the run stops at the date.')
update('C232', "proved", 'P3.PsdPsf.piston', '')
claim("C307", "partial", 'P3.PsdPsf', 'piston',
      'Refuted: fftshift moves the zero frequency one pixel too far.')
update('C235', "proved", 'P3.PsdPsf.telescopePsf_sampling', '')
claim("C308", "partial", 'P3.PsdPsf', 'telescopePsf_undersampled',
      'Refuted: the pixels are half of what was asked.')
update('C183', "proved", 'P3.Focal.focal_onaxis P3.Focal.focal_infinity P3.Focal.map_center P3.Focal.mcDonald_continuous', '')
claim("C309", "partial", 'P3.Focal', 'focal_exact_partial focal_violation focal_twice',
      'Refuted: one term has the wrong sign of the direction (focal_exact_partial), and the angular part is counted twice.')
update('C186', "proved", 'P3.Focal.kernel_uncorrelated', '')
claim("C310", "partial", 'P3.Focal', 'kernel_exact kernel_violation kernel_sources_partial',
      'Refuted: the cross terms multiply by a transposed array; several sources raise.')
update('C105', "proved", 'P3.Telemetry.combine_spec', '')
claim("C311", "partial", 'P3.Telemetry', 'combine_violation',
      'Refuted: not a number.')
claim("C312", "proved", "P3.Archive", "measured_once load_existing measured_files", "The content of truncated files is not modelled.")
claim("C313", "partial", "P3.Archive", "later_loads_partial retry_violation", "Refuted: the folder made by the first load stops any later download; the outcome of all later loads is given for every failure and crash point.")
claim("C314", "proved", "P3.Archive", "median_profile median_values atmosphere_median atmosphere_weights", "MASS seeing missing or equal to the one of its profile, at most the DIMM seeing (see C311 for the other case).")
claim("C315", "partial", "P3.Archive", "missing_whole_partial missing_layer_violation", "Only when all layers are missing; refuted with one missing layer.")
claim("C316", "proved", "P3.Archive", "append_spec appended_distinct", "")
claim("C317", "proved", "P3.Archive", "imageUT_spec imageUT_night parse12_spec", "Dates are day numbers; the calendar is that of datetime.")
claim("C318", "proved", "P3.Archive", "filterFile_spec filterName_spec curve_spec", "ASCII case.")
claim("C319", "proved", "P3.Archive", "sampling_spec selected_spec line_optimal line_exact", "polyfit as the exact least-squares line; two wavelengths must differ.")
claim("C320", "partial", "P3.Archive", "dispersions_partial dispersions_violation", "Refuted for nWvl = 0 and a wide filter.")
claim("C321", "proved", "P3.Archive", "airmass_spec", "")
claim("C322", "proved", "P3.Campaign", "p2x_six fit_six mask_spec", "")
claim("C323", "partial", "P3.Campaign", "p2x_modes_partial static_violation fit_static_violation", "Refuted: the last coefficient is dropped, so that all are ignored, and fits with static modes always raise.")
claim("C324", "proved", "P3.Campaign", "magErr_scale mse_spec rms_ge", "Exact arithmetic.")
claim("C325", "proved", "P3.Campaign", "start_range start_others", "")
claim("C326", "partial", "P3.Campaign", "init_partial init_violation", "Only for 20 percent: the amplitude is ignored.")
claim("C327", "partial", "P3.Campaign", "bias_mean_partial std_violation percent_violation", "The mean bias only; the scatter is zero for one test, and fractions of opposite sign are reported for percents.")
claim("C328", "proved", "P3.Campaign", "folders_spec", "")
claim("C329", "proved", "P3.Campaign", "second_stage", "The solver respects its bounds; real arithmetic.")
claim("C330", "partial", "P3.Campaign", "second_start_partial second_stage_violation", "Refuted for a fixed PSD parameter, or when the confidence interval failed.")
claim("C331", "partial", "P3.Campaign", "split_args_partial joint_args_partial args_violation", "Start and mask of the split fit only; weights are ignored by both, all three by the joint fit.")
claim("C332", "proved", "P3.Campaign", "names_spec dict_spec", "Tables of fits with 36 static modes, the only ones written.")
claim("C333", "partial", "P3.Campaign", "fitAll_partial fitAll_violation fitAll_modes_violation", "Files are drawn with replacement; raises unless there are 36 static modes.")
claim("C334", "proved", "P3.Campaign", "catalog_spec", "Words instead of numbers.")
claim("C335", "partial", "P3.Campaign", "catalog_violation catalog_two", "Refuted for every nSkip but 1: it raises, or repeats the first star.")
claim("C336", "proved", "P3.Kasp", "telemetry_centred static_offset tiptilt_centred_ngs", "Exact arithmetic.")
claim("C337", "partial", "P3.Kasp", "tiptilt_mean_lgs_partial tiptilt_not_centred_lgs", "Refuted: the mean of the file is kept, scaled.")
claim("C338", "proved", "P3.Kasp", "residual_spec tiptilt_free tiptilt_slopes_ignored", "")
claim("C339", "proved", "P3.Kasp", "wfe_spec wfe_scale", "")
claim("C340", "proved", "P3.Kasp", "populate_again atmosphere_spec loops_integrators", "")
claim("C341", "proved", "P3.Petals", "bar_width symmetric_spider onesided_spider mask_zero_iff", "Points on the border of a bar count as outside.")
claim("C342", "partial", "P3.Petals", "petals_available_partial petals_thin_violation", "Refuted for spiders thinner than a pixel.")
claim("C343", "proved", "P3.Petals", "petal_amplitude petal_phase petal_order", "Petal numbers that are not negative.")
claim("C344", "partial", "P3.Petals", "petal_replaces_partial petal_accumulate_violation", "Refuted: a call replaces the petal phase of the one before.")
claim("C345", "partial", "P3.Petals", "reset_restores_partial reset_reflexivity_violation", "For maps of zeros and ones; refuted for partly reflecting segments.")
claim("C346", "partial", "P3.Petals", "build_keeps_partial fillRef_lit build_shared_violation", "Without filling of gaps; refuted with it (the default). Pupils of one segment.")
claim("C347", "proved", "P3.Upkeep", "positivity_cost positivity_bounds", "")
claim("C348", "partial", "P3.Upkeep", "weights_same_partial weights_refused weights_vector_violation", "Only the number of rows is checked: a vector weighs the columns.")
claim("C349", "proved", "P3.Upkeep", "query_complete query_keeps query_twice", "The script is a parameter.")
claim("C350", "partial", "P3.Upkeep", "query_resumed_partial query_interrupted_violation query_stray_violation", "When the script leaves the folder alone as it fails; refuted when it wrote the file of the sensor, or beside a stray file.")
claim("C351", "partial", "P3.Upkeep", "print_optics_partial print_violation", "Refuted: the description of the mirrors raises.")
claim("C352", "partial", "P3.Upkeep", "printed_delay_partial printed_delay_violation", "Low-order loop only when both rates agree.")
claim("C353", "proved", "P3.Spectra", "servoLag_rejection static_corrected static_off_axis watm_spectrum corrected_area temporal_frequency", "Exact arithmetic.")
claim("C354", "proved", "P3.Spectra", "noise_shack noise_convention", "")
claim("C355", "partial", "P3.Spectra", "decorr_exchanged_partial tomography_direction separation_violation", "Refuted: with one guide star the two components of the separation are exchanged.")
claim("C356", "partial", "P3.Spectra", "refraction_azimuth_partial refraction_azimuth_violation", "Refuted: the azimuth in degrees is used as radians.")
claim("C357", "proved", "P3.Spectra", "residual_scales", "")
claim("C358", "proved", "P3.Spectra", "aliasing_rigaut aliasing_centre aliasing_axis", "")
claim("C359", "partial", "P3.Spectra", "opposite_frequencies_partial aliasing_opposite_difference aliasing_opposite_violation", "Refuted for aliasing: the replicas go from -n to n-1.")
claim("C360", "proved", "P3.Cone", "conePsd_bounds conePsd_ground", "")
claim("C361", "partial", "P3.Cone", "cone_far_partial cone_beyond_cutoff_violation", "Refuted: layers add their cone effect up to kc/(1-h/H).")
claim("C362", "partial", "P3.Cone", "conePsd_defined_partial cone_at_laser_violation", "Refuted for a layer at the altitude of the laser.")
claim("C363", "proved", "P3.Cone", "lasers_bound lasers_inside lasers_radial", "")
claim("C364", "partial", "P3.Cone", "windVar_share_partial windVar_violation", "Refuted: the share of the frequencies of tilt outside the corrected area is lost.")
claim("C365", "proved", "P3.Reuse", "reduce_same built_some", "For every value of the arrays; all configurations.")
claim("C366", "proved", "P3.Reuse", "unreduced_history", "Induction over the calls.")
claim("C367", "partial", "P3.Reuse", "reduced_history_partial reduced_violation", "Refuted: exact set of the histories that raise nothing.")
claim("C368", "proved", "P3.Strehl", "marechal_bound breakdown_below_image", "The OTF has the size of the padded pupil (no interpolation). Exact arithmetic.")
claim("C369", "proved", "P3.Strehl", "more_error longer_wavelength", "")
claim("C370", "partial", "P3.Strehl", "reference_partial perfect_strehl longer_violation square_violation", "Refuted: all wavelengths are divided by the diffraction-limited OTF of the reference one. Exact value when the padded pupils are multiples of the OTF; the interpolant of scipy is assumed to go through its samples.")
claim("C371", "proved", "P3.Observation", "layers_split", "Any generalised inverse for the sensors; the one of numpy has no cut-off in exact arithmetic.")
claim("C372", "proved", "P3.Observation", "sensors_split", "The noise variances are positive.")
claim("C373", "proved", "P3.Observation", "turned", "")
claim("C374", "proved", "P3.Observation", "opposite", "On grids of frequencies closed under the change of sign.")
claim("C375", "partial", "P3.Observation", "directions_split_partial one_direction_twice_violation", "Refuted: with one direction there is no conditioning, with several there is.")
claim("C376", "proved", "P3.Observation", "wavelength_free", "The noise is rescaled by the model; the cut-off frequencies do not depend on the wavelength.")
claim("C377", "partial", "P3.SingleStar", "aniso_diagonal_partial aniso_exchanged aniso_axes_violation tomographic_axes", "Refuted: the two coordinates of the target are exchanged.")
claim("C378", "partial", "P3.SingleStar", "turned_partial turned_offaxis_violation", "Refuted for targets off axis under wind, as the coordinates of the target are exchanged and those of the wind are not. Aliasing is not included.")
claim("C379", "proved", "P3.SingleStar", "layers_in_parts", "")
claim("C380", "partial", "P3.SingleStar", "wavelength_free_partial minimum_variance_wavelength_violation", "Refuted with the minimum-variance reconstructor, whose regularisation divides a noise at the science wavelength by a turbulence at the wavelength of the sensor.")
claim("C381", "partial", "P3.Geometry", "pointing_partial pointing_violation", "Refuted with two mirrors and two optimisation directions: the regularised inverse takes transposes without conjugation. Proved with one optimisation direction or mirrors at the same height.")
claim("C382", "partial", "P3.Geometry", "conjugated_uniform_partial conjugated_laser_violation", "Refuted with lasers: heights of layers are stretched, heights of mirrors are not. Proved for the heights as the model has them.")
claim("C383", "proved", "P3.Geometry", "heights_times_angles", "")
claim("C384", "proved", "P3.Geometry", "lag_is_displacement", "")
claim("C385", "proved", "P3.Geometry", "speed_over_rate speed_over_rate_one", "")
claim("C386", "partial", "P3.Remaining", "dead_pixels_partial dead_pixels_fails_violation dead_pixels_sum_violation frame_violation", "Refuted: lists cannot be made, and the correction of an image only succeeds by doing nothing; with two neighbours the pixel becomes their sum. One-dimensional images.")
claim("C387", "partial", "P3.Remaining", "rotation_partial rotation_zero rotation_angle_violation rotation_petals_violation", "Refuted: the recorded angle is that of the last call and phases of petals are lost. The rotation of scipy is any function.")
claim("C388", "partial", "P3.Remaining", "resize_partial resize_back_violation resize_segments_violation", "Refuted without replacement and for segments.")
claim("C389", "proved", "P3.Remaining", "best_segment", "Windows inside the map.")
claim("C390", "partial", "P3.Remaining", "telescope_files_partial telescope_missing_violation telescope_names_violation", "Refuted: missing files are ignored; the test of the name takes any character for the dot, anywhere in the path.")
claim("C391", "partial", "P3.Remaining", "loaded_map_partial loaded_columns_violation", "Refuted for maps that are not square and have the right number of rows.")
claim("C392", "partial", "P3.Remaining", "influence_partial influence_violation example_masks_violation", "Refuted: both always raise.")
claim("C393", "proved", "P3.Remaining", "diagonals", "")
claim("C394", "partial", "P3.Remaining", "read_ini_partial read_ini_violation", "Refuted: the basis is written to the file.")
claim("C395", "proved", "P3.Zenith", "zenith_laws", "Non-negative weights and heights; isoplanatic angle for an infinite outer scale only.")
claim("C396", "proved", "P3.Zenith", "isoplanatic_angle", "Infinite outer scale, layers of positive weight.")
claim("C397", "proved", "P3.Zenith", "seeing_or_r0", "")
claim("C398", "partial", "P3.Zenith", "heights_once_partial heights_twice_violation heights_disagree_violation", "Refuted for the anisoplanatism structure function and wavefront error, where heights on the line of sight are multiplied by the airmass again.")
claim("C399", "proved", "P3.Zenith", "off_zenith_field off_zenith_target", "Heights on the line of sight are the data of the modelled observations, see C398 for how they are made.")
claim("C400", "partial", "P3.Zenith", "zenith_accepted_partial zenith_below_violation", "Refuted: angles between -270 and -90 degrees are accepted.")
claim("C401", "proved", "P3.Limits", "units_of_length units_of_length_field", "Away from the zero frequency, except at the sample taken for the centre.")
claim("C402", "partial", "P3.Limits", "faint_star_partial faint_field faint_star_violation", "Refuted for one guide star with the default MV = 0, where the noise grows without bound; proved with MV > 0 and with several stars.")
claim("C403", "partial", "P3.Limits", "fainter_stars_partial fainter_star_partial fainter_star_default_partial fainter_stars_violation", "Proved in still air towards the optimised direction and, with MV = 0, in general; refuted with a wind that turns the correction into its opposite.")
claim("C404", "partial", "P3.Limits", "correction_helps_partial fainter_star_partial correction_hurts_violation correction_hurts_one_violation", "As C403; refuted with wind, and with one star when the noise gain times the squared ratio of wavelengths exceeds twice the static gain.")
claim("C405", "proved", "P3.Pixel", "pixel_of_reconstruction", "Without Nyquist sampling option.")
claim("C406", "partial", "P3.Pixel", "pixel_option_partial pixel_option_violation", "Proved for an oversampling of two, refuted for every other one: the square is two fine pixels wide.")
claim("C407", "partial", "P3.Pixel", "recorded_once_partial recorded_twice_violation option_never_recorded_violation", "Proved for reconstructed PSFs without binning; refuted with binning, where the pixel is counted twice, and for the Fourier model with every oversampling.")
claim("C408", "proved", "P3.Pixel", "pixel_attenuates pixel_strehl pixel_strehl_strict", "")
claim("C409", "partial", "P3.Calls", "call3_fresh_partial call4_fresh_partial same_length_partial repeat_partial last_coefficients stale_violation not_memoryless", "Proved for calls with static coefficients, after calls without any, for vectors of one length (fits) and for the Fourier model at several wavelengths. Refuted otherwise: a call without static coefficients uses those of an earlier call.")
claim("C410", "partial", "P3.Calls", "rotation_partial rotation_ignored rotation_violation", "Proved for the function for several wavelengths when the static OTF is computed again; refuted elsewhere: the angle is ignored, also by psfR.")
claim("C411", "partial", "P3.Calls", "psfao_cube psfr_one_partial psfr_stars_violation psfr_wavelengths_violation", "Proved for one star at one wavelength. Refuted for several stars (ValueError) and several wavelengths (the same image at all of them).")
claim("C412", "partial", "P3.Calls", "kept_one_partial kept_last_violation", "Only the last wavelength is kept.")
claim("C413", "partial", "P3.Jitter", "umax_pixel jitter_gauss jitter_gauss_exists jitter_axes_partial jitter_variance jitter_fwhm_violation jitter_contrast_violation jitter_variance_violation", "Proved to be Gaussian blurs, of known covariance; refuted that the numbers given are their FWHM.")
claim("C414", "partial", "P3.Jitter", "breakdown_partial breakdown_violation", "Within a factor of two thirds; always underestimated.")
claim("C415", "partial", "P3.Keck", "crop_centred_partial crop_whole_partial crop_odd_violation crop_edge_violation crop_last_violation", "Even fields and stars far from the edges. Refuted: odd fields are off by one pixel, a star near the first rows makes the loading fail, near the last ones the image is smaller than recorded.")
claim("C416", "proved", "P3.Keck", "saturated_spec saturated_total", "")
claim("C417", "partial", "P3.Keck", "restore_ok_partial wavelengths_partial laser_violation", "Refuted in LGS mode without the block of the tip-tilt sensor: the loading fails.")
claim("C418", "proved", "P3.Keck", "actuators_placed actuators_mismatch", "A single command is repeated by numpy at all actuators.")
claim("C419", "partial", "P3.Keck", "zero_mean_partial zero_mean_violation", "Without decimation; refuted with it: means are removed before.")
claim("C420", "partial", "P3.Keck", "rate_partial rate_tiptilt_partial rate_violation", "Rate of the file; refuted for the frames kept by a decimation.")
claim("C421", "proved", "P3.Keck", "wfe_spec", "")
claim("C422", "partial", "P3.Keck", "weights_measured_partial compress_measured_partial compress_same_partial compress_median_violation", "Proved for measured profiles; refuted for the median one: the loading fails for fewer than seven layers (one is the default).")
claim("C423", "proved", "P3.Keck", "reconstructed", "")
claim("C424", "partial", "P3.Detect", "installed_partial stack_partial folder_partial stack_violation", "Installed packages, and characterisation of what is found in the call stack; refuted: any folder of this name is taken for TIPTOP.")
claim("C425", "partial", "P3.Detect", "import_partial import_violation", "Refuted when Python finds a folder tiptop that is not a package (TypeError).")
claim("C426", "proved", "P3.Machine", "intQuot_eq nTimes_eq intSqrt_eq", "Floating-point model: every operation rounded to nearest, any precision, any choice at ties; unbounded exponents.")
claim("C427", "proved", "P3.Machine", "findN_eq nmOrder_eq", "")
claim("C428", "partial", "P3.Machine", "psfSide_partial boxSide_near_partial psfSide_violation crop_100_44", "Proved when the ratio of the sizes is a machine number; always within one pixel. Refuted: 44 pixels out of 100 fail (ValueError).")
claim("C429", "proved", "P3.Machine", "roundQuot_eq", "")
claim("C430", "proved", "P3.Machine", "freqAt_sign", "")
claim("C431", "partial", "P3.Machine", "freqAt_symmetric_partial freqAt_symmetric_violation", "Symmetric when the offset is lost by rounding or zero; refuted in double precision.")
claim("C432", "proved", "P3.Machine", "sampOut_near", "")
claim("C433", "partial", "P3.Machine", "nyquistResAO_partial nyquistResAO_violation", "Within one element; refuted: 39 m and one metre give 77 at 1.25 microns and 78 at 2.2 microns.")
claim("C434", "partial", "P3.Machine", "pointWise_partial pointWise_violation", "Proved when nothing is rounded; one point too many at worst. Refuted for 3.6 m and 7.2 cm (IndexError).")
claim("C435", "proved", "P3.Machine", "sum_value scaled_flux scaled_mono", "")
claim("C436", "proved", "P3.Machine", "slabWeight_near", "")
claim("C437", "proved", "P3.Keck", "tiptilt_values focus_values", "")
claim("C438", "partial", "P3.Keck", "frames_partial frames_violation", "Without decimation; refuted with it.")
claim("C439", "partial", "P3.Download", "download_partial glued_iff download_violation", "Proved for folders given with a final separator; refuted for all others, for which the file is saved next to the folder and downloaded at each call.")
claim("C440", "partial", "P3.Download", "whole_partial truncated_violation", "Proved without interrupted transfers; after one, the truncated file is kept for good.")
claim("C441", "partial", "P3.Segments", "copies_partial construct_partial copies_violation", "Map and coordinates; the other attributes are those of the reference exactly when it has the defaults.")
claim("C442", "partial", "P3.Segments", "zero_phase_partial dim_phase_violation dim_shift_violation", "Exactly for references equal to the default polygon; refuted for the others.")
claim("C443", "partial", "P3.Segments", "zero_phase_partial filled_violation", "Refuted: a phase of zero opens the gap again.")
claim("C444", "partial", "P3.Segments", "modes_partial petal_modes_partial modes_violation modes_other", "Refuted for references of reflectivity other than one; an unknown area ends in UnboundLocalError.")
claim("C445", "partial", "P3.Headers", "precision_pair precision_partial precision_violation maps_violation", "Proved before the first computation; the grid and the maps of the telescope keep their precision afterwards.")
claim("C446", "proved", "P3.Download", "multiple_rows multiple_failure multiple_again", "")
claim("C447", "proved", "P3.Headers", "obsId_spec wavelength_spec pointing_spec coordinates_spec", "")
claim("C448", "partial", "P3.Download", "saved_partial saved_violation", "Proved for folders given with a final separator; refuted for all others.")
claim("C449", "partial", "P3.MachinePupil", "moved_partial modulus_near_partial moved_zero_partial moved_violation", "Exactly when the computed modulus of the pixel is one; refuted in double precision for a phase of 41/64 radian, for which the pixels are doubled.")
claim("C450", "partial", "P3.Air", "mathar_gas_partial ciddor_gas mathar_violation", "Proved from 0.4 to 1.3 micrometres, in K, L, M, N and in the middle of Q; refuted at the ends of Q, where the refractivity is negative or twice too large (the entries of the last two rows of the Q table for temperature and humidity are of the sizes of each other).")
update('C49', 'proved', 'P3.Air.refractiveIndex_spec P3.Air.bandOf_spec P3.Air.bands_disjoint P3.Air.mathar_reference P3.Air.ciddor_pos P3.Air.ciddor_decreasing P3.Air.ciddor_dry P3.Air.aboveResonance_of P3.Air.index1_model P3.Air.partial_pressures P3.Air.refractiveIndex_shape P3.Air.humidity_spec P3.Air.svp_increasing P3.Air.svp_value P3.Air.svp_hot P3.Air.ciddor_gas P3.Air.standard_conditions', 'Wavelengths outside all bands are C135, states other than the reference C450.')
claim("C451", "proved", "P3.Turbulence", "wiener_khinchin variance_integral structure_spec angular_structure angular_increasing", "The Bessel function of scipy is its integral representation (Spec/Turbulence.lean).")
claim("C452", "proved", "P3.Turbulence", "infinite_outer_scale", "")
claim("C453", "proved", "P3.Turbulence", "fried c1_value", "Within three thousandths.")
claim("C454", "proved", "P3.Turbulence", "coherence_time", "")
claim("C455", "proved", "P3.Turbulence", "isoplanatic_infinite", "")
claim("C456", "partial", "P3.Turbulence", "isoplanatic_finite_partial isoplanatic_violation", "Unique when it exists; it exists exactly when the variance of the phase of the layers above the ground exceeds one square radian. False otherwise: with an outer scale below two Fried parameters (thermal infrared) the equation given to fsolve has no solution.")
claim("C457", "proved", "P3.Turbulence", "flicker_turbulence focal_turbulence stationary_field kappa_value flicker_nonneg", "The Bessel function of scipy is its integral representation (Spec/Turbulence.lean). Off-axis sources of the focal function: C309.")
claim("C458", "proved", "P3.ZVar", "noll_total", "")
claim("C459", "proved", "P3.Kolmogorov", "kolmo_spectrum", "")
claim("C460", "proved", "P3.Kolmogorov", "fit_error fit_decreasing", "Real arithmetic.")
claim("C461", "proved", "P3.Options", "ho_options ho_refines", "Flux lists shorter than the number of sensors: C14.")
claim("C462", "partial", "P3.Options", "lo_options_partial lo_ignored_violation", "SizeLenslets, WfsType, Modulation and ThresholdWCoG have no effect.")
claim("C463", "proved", "P3.Options", "camera_options", "The field of view in pixels: C04.")
claim("C464", "proved", "P3.Options", "telescope_options atmosphere_options", "Fried parameter and heights, which depend on the airmass: C395, C398.")
claim("C465", "proved", "P3.Options", "rtc_options mirrors_options", "Pitches, heights, numbers of actuators, couplings: C16.")
claim("C466", "partial", "P3.Options", "documented_defaults_partial documented_defaults_violation documented_fov_violation", "Excess noise factor, window radius, weight of the directions, flux and field of the camera have other defaults.")
claim("C467", "partial", "P3.Options", "template_partial template_violation", "NumberLenslets = 4 in sensor_LO is refused by a TypeError.")
claim("C468", "partial", "P3.Cone", "open_loop open_limit_partial open_limit_violation", "The limit holds in the corrected area, refraction and chromatism apart; outside it the loop that is off removes the piston, the other does not.")
claim("C469", "partial", "P3.FieldFit", "extract_outside_violation extract_iff_partial", "Refused when the window crosses a border; taken from the opposite corner when it is wholly before the first pixel.")
def more(prop, names):
    c, = [c for c in C if c["property"] == prop]
    c["theorems"] += [n for n in names.split() if n not in c["theorems"]]
more('C08', 'P3.Breakdown.modesSum_value P3.Breakdown.modesSum_tt_le P3.Breakdown.tt_noise_given')
more('C02', 'P3.Config.rejection_is_valueError_partial')
more('C424', 'P3.Detect.import_stack_partial')
more('C145', 'P3.Fitting.bounds_short_violation')
claim("C470", "partial", "P3.Options", "empty_path_partial empty_vibration_violation", "Holds for the six maps of the telescope; an empty file of vibrations is accepted and fails when the spectrum is computed.")
claim("C471", "partial", "P3.Display", "shown_defined shown_line shown_mono square_partial square_violation contour_scale_violation", "Interpolation, growth and range hold; the square shown has the side 2R+ps, the titles say R or 2R, and the contours use the pixel of the first wavelength.")
claim("C472", "partial", "P3.Display", "pair_partial pair_violation contours_iff", "With several wavelengths the title has the angles of the first and last sources.")
more('C60', 'P3.Source.cooStar_right_iff_partial P3.Source.positions_axis_violation P3.Source.positions_partial')
more('C276', 'P3.Config.coo_stars_violation')
more('C292','P3.FieldFit.candidate_odd_iff_partial')
more('C293','P3.FieldFit.grid_odd_partial')
more('C288','P3.Fitting.psfParams_iff_partial')
more('C299','P3.Rec.pointLoc_fraction_partial')
more('C345','P3.Petals.reset_restores_iff_partial')
more('C344','P3.Petals.petal_accumulate_iff_partial')
more('C342','P3.Petals.petals_iff_partial')
more('C280','P3.Freq.embed_odd_violation P3.Freq.fov_needed_partial')
more('C149','P3.Telemetry.ncpa_other_violation')
more('C258','P3.Deep.resume_prime_violation')
more('C79','P3.Layers.windMod_ends_violation')
more('C20','P3.Freq.sampling_angle')
more('C190','P3.Fwhm.getFWHM_spec')
more('C267','P3.Sphere.tiptilt_coeffs_iff_partial')
more('C419','P3.Keck.focus_mean_iff_partial')
claim("C473", "proved", "P3.Refine", "breakdown_limit density_limit area_limit outside_limit spectrum_meets", "The densities are inputs (bounded, continuous almost everywhere); that of the fitting error is the spectrum of the atmosphere of the code.")
claim("C474", "proved", "P3.Keck", "posAngle_spec", "")
more('C59','P3.IniFile.write_sections')
more('C139','P3.IniFile.unwritten')
more('C103','P3.IniFile.chooseModes_spec')
claim("C475", "partial", "P3.Refine", "fitting_ratio_partial fitting_differs_violation fitting_square_partial fitting_run_limit plane_limit left_spectrum", "With the default round corrected area the ratio is A (1 + (2 pitch / L0)^2)^(-5/12) with 1.08 < A < 1.1: more than 5 percent apart for an outer scale above ten pitches. With a square area they agree within 2 percent for a large outer scale, and the Fourier one is at most 1 percent above.")
claim("C476", "proved", "P3.Noise", "noise_textbook", "")
more('C33','P3.Params.fluxMono_spec P3.Params.fluxShape_several')
more('C346','P3.Petals.build_alters_violation P3.Petals.fillRef_rows')
more('C461','P3.Options.detector_builds P3.Options.fovArcsec_spec')
more('C68','P3.Metrics.getFlux_no_background P3.Metrics.getFlux_sky_violation P3.Metrics.inside_majority')
more('C439','P3.Download.getDataFile_fails_iff')
more('C125','P3.Hardware.dispersion_partial')
more('C127','P3.Fourier.chrom_partial')
more('C133','P3.Fourier.recon_partial')
more('C135','P3.Air.index_partial')
more('C137','P3.Fitting.merge_partial')
more('C138','P3.FieldFit.tiles_partial')
more('C139','P3.IniFile.written_read_partial')
more('C141','P3.Aniso.angularPsd_partial')
more('C145','P3.Fitting.bounds_partial')
more('C146','P3.Fitting.saturation_partial')
more('C147','P3.FieldFit.select_partial')
more('C151','P3.Rec.jitter_partial')
more('C155','P3.FieldFit.interp_partial')
more('C227','P3.Profile.stddevs_partial')
more('C224','P3.Profile.one_output')
more('C75','P3.Psf.jitter3_line_partial')
more('C88','P3.Pupil.trim_partial')
more('C291','P3.Pupil.segment_partial')
more('C254','P3.Focal.map_right_partial')
more('C256','P3.Diag.select_ring P3.Diag.select_valid')
more('C259','P3.Deep.bounds_kept_partial')
more('C260','P3.Deep.taken_partial')
more('C261','P3.Deep.recover_spec')
more('C262','P3.Deep.readRows_partial')
more('C263','P3.Sphere.moveAll_spec')
more('C264','P3.Sphere.crop_iff')
more('C276','P3.Config.science_positions')
more('C277','P3.Source.direction_spec')
more('C278','P3.Atmosphere.slab_spec')
more('C281','P3.Images.ensquared_mono')
more('C282','P3.Aniso.focal_altitude')
more('C284','P3.Telemetry.comDelta_single')
more('C285','P3.Metrics.interpolate_partial')
more('C290','P3.Pupil.reflect_spec')
more('C294','P3.FieldFit.wMean_bounds')
more('C295','P3.Tomo.noiseCov_partial')
more('C296','P3.Images.crop_enlarge_partial')
more('C297','P3.Fourier.noiseGain_nonneg')
more('C298','P3.Telemetry.fixWaves_isolated')
more('C311','P3.Telemetry.combine_partial')
more('C335','P3.Campaign.catalog_spec')
claim("C477","proved","P3.MultiFit","start_mask start_read start_flux start_feasible","Every number of stars; start_read for one layer and one wavelength, the files C478 accepts.")
claim("C478","partial","P3.MultiFit","start_bounds_partial start_bounds_violation","Exactly one fitted layer, one wavelength and no static mode; otherwise the numbers differ for every number of stars (violation) and the fit raises.")
claim("C479","proved","P3.MultiFit","run_spec column_local","Detection and the fit of one sub-image are arguments.")
claim("C480","partial","P3.MultiFit","common_partial common_violation","r0 is the median of the fitted ones, between their bounds, the other parameters are the sub-image's; own PSF exactly when its r0 is the median. With two different r0 neither PSF is its own (violation).")
claim("C481","partial","P3.MultiFit","run_iff_partial run_violation","A result exists exactly when every sub-image with a star is fitted; one failure loses all (violation).")
claim("C482","partial","P3.MultiFit","unfitted_partial unfitted_violation","One PSF per segment: defined exactly when at least as many fitted sub-images as neighbours used, and then the nearest fitted ones. With several PSFs per segment one sub-image without star leaves no number anywhere (violation).")
claim("C483","proved","P3.Telemetry","readNoise_spec","")
more('C112','P3.Rec.uij_spec P3.Rec.half_shift')
more('C104','P3.Telemetry.timeInHours_spec')
more('C105','P3.Telemetry.mu0_spec')
more('C148','P3.Telemetry.tfWfs_partial')
more('C107','P3.Telemetry.trapz_line')
more('C110','P3.Telemetry.decimate_spec P3.Telemetry.cov_spec')
more('C111','P3.Telemetry.loopDelay_values')
more('C294','P3.FieldFit.wMean_outside_violation')
more('C305','P3.Deep.verified_lower')
more('C304','P3.Deep.totalPsd_stat')
more('C302','P3.Fwhm.keep_half')
more('C258','P3.Deep.split_done P3.Deep.split_crash')
more('C308','P3.PsdPsf.telescopePsf_sampling')
more('C300','P3.FRun.second_run')
more('C301','P3.Fwhm.contour_level')
more('C268','P3.Sphere.lwe_marker')
claim("C484","proved","P3.FieldRun","generate_file generate_missing generate_forgets generate_again","Detection, PSF model, fit and polyfit are arguments.")
claim("C485","partial","P3.FieldRun","untouched_partial untouched_violation","Unchanged exactly without the section or when the field of view was already the one written; the default limits of magnitude fail after the file is rewritten (violation).")
claim("C486","proved","P3.FieldRun","generate_spec","At least one star per tile asked.")
claim("C487","proved","P3.FieldRun","generate_iff","Odd sub-images: C292.")
claim("C488","partial","P3.FieldRun","unknown_partial unknown_violation","Never returns, but the name is looked at last: any other failure is reported instead (violation).")
claim("C489","partial","P3.FieldRun","size_partial size_violation","Exact sizes; the enlarged size only when it is even and the PSFs are interpolated, not the parameters (violation).")
claim("C490","partial","P3.FieldRun","parameters_partial parameters_violation","With positive errors everywhere every PSF is that of parameters between the fitted ones; one sub-image without detection leaves none (violation).")
claim("C491","proved","P3.FieldRun","generate_interp","One star per tile; several: C482. At a star: C155.")
more('C99','P3.FieldRun.generate_best')
more('C101','P3.FieldRun.generate_points')
more('C486','P3.FieldRun.generate_best')
claim("C492","partial","P3.SegModes","mode_partial mode_violation","The mean exactly when it is within half a turn, otherwise up to turns of 2 pi (violation). Low resolution: C496.")
claim("C493","proved","P3.Resize","resize_range resize_linear","The degree-one interpolant of scipy is written out, with abscissas brought into the range of the samples.")
claim("C494","proved","P3.Resize","enlarge_reduce","")
claim("C495","partial","P3.Resize","reduce_partial reduce_violation","False: one pixel per block is kept and the others are ignored.")
claim("C496","proved","P3.Resize","lowRes_spec","Segments without common pixel for the bound of half a turn.")
claim("C497","proved","P3.Resize","nearest_values","")
claim("C498","partial","P3.Resize","centre_linear_partial centre_nearest_partial centre_violation","True for the linear kind; for the nearest pixel the exact condition on the sizes, which fails for reductions by more than two to an even size.")
claim("C499","partial","P3.Resize","loaded_range_partial","Without rotation of the pupil.")

here = os.path.dirname(os.path.abspath(__file__))
C.sort(key=lambda c: int(c["property"][1:]))
json.dump({"claims": C}, open(os.path.join(here, "..", "MANIFEST.json"), "w"), indent=1)
# check that each theorem exists in the sources
src = {}
for root, _, fs in os.walk(os.path.join(here, "..", "lean", "Verif")):
    for f in fs:
        if f.endswith(".lean"):
            ns = []
            for line in open(os.path.join(root, f)):
                m = re.match(r"namespace (\S+)", line)
                if m: ns.append(m.group(1))
                m = re.match(r"end (\S+)", line)
                if m and ns and ns[-1] == m.group(1): ns.pop()
                m = re.match(r"(?:private |protected )?theorem (\S+)", line)
                if m: src[".".join(ns + [m.group(1)])] = f
bad = [t for c in C for t in c["theorems"] if t not in src]
props = [json.loads(l)["id"] for l in open(os.path.join(here, "..", "properties.jsonl"))]
print("unknown theorems:", bad)
print("unclaimed properties:", [p for p in props if p not in {c["property"] for c in C}])
