{
 "claims": [
  {
   "property": "C01",
   "status": "proved",
   "theorems": [
    "P3.Paths.resolve_empty",
    "P3.Paths.resolve_root_priority",
    "P3.Paths.resolve_p3",
    "P3.Paths.resolve_tiptop",
    "P3.Paths.resolve_asIs",
    "P3.Paths.resolve_lastResort",
    "P3.Paths.resolve_default",
    "P3.Paths.resolve_range",
    "P3.Paths.resolve_eq_nil_iff",
    "P3.Paths.resolve_congr",
    "P3.Paths.join_relative",
    "P3.Paths.join_absolute",
    "P3.Paths.join_trailing",
    "P3.Paths.join_empty"
   ],
   "note": ""
  },
  {
   "property": "C02",
   "status": "partial",
   "theorems": [
    "P3.Config.construct_accepts_iff_partial",
    "P3.Config.construct_error_truthful",
    "P3.Config.construct_profile",
    "P3.Config.table1_wellFormed",
    "P3.Config.construct_missing_LO_position_is_keyError",
    "P3.Config.construct_three_wfs_default_photons",
    "P3.Config.construct_integer_photons",
    "P3.Config.rejection_is_valueError_partial"
   ],
   "note": "For files whose options have the documented types, acceptance is characterised exactly and every error names a defect the file has. The claim as stated is false of the code in the cases shown by the last three theorems (KeyError/IndexError/TypeError instead of ValueError), so the error class is not always ValueError."
  },
  {
   "property": "C03",
   "status": "partial",
   "theorems": [
    "P3.Config.message_names_section_partial",
    "P3.Config.notSameLength_message_ignores_section",
    "P3.Config.notSameLength_atmosphere_message"
   ],
   "note": "False of the code: the format call drops the section whenever two option names are passed (refuted by notSameLength_message_ignores_section)."
  },
  {
   "property": "C04",
   "status": "proved",
   "theorems": [
    "P3.FieldOfView.autoFov_spec",
    "P3.FieldOfView.autoFov_error_iff",
    "P3.FieldOfView.seeing_consistent",
    "P3.FieldOfView.scienceFov_spec",
    "P3.FieldOfView.scienceFov_other"
   ],
   "note": ""
  },
  {
   "property": "C05",
   "status": "proved",
   "theorems": [
    "P3.Config.mode_spec",
    "P3.Config.ttloop_iff",
    "P3.Config.ttloop_system"
   ],
   "note": ""
  },
  {
   "property": "C06",
   "status": "proved",
   "theorems": [
    "P3.Config.reconfigure_fov",
    "P3.Config.reconfigure_fov_same",
    "P3.Config.reconfigure_rest"
   ],
   "note": "reconfigure_fov is the exact effect in all cases."
  },
  {
   "property": "C07",
   "status": "proved",
   "theorems": [
    "P3.Config.science_positions",
    "P3.Config.science_positions_off"
   ],
   "note": ""
  },
  {
   "property": "C08",
   "status": "proved",
   "theorems": [
    "P3.Breakdown.breakdown_spec",
    "P3.Breakdown.strehl_antitone",
    "P3.Breakdown.breakdown_fitting_aliasing",
    "P3.Breakdown.breakdown_pitch_mono",
    "P3.Breakdown.breakdown_terms",
    "P3.Breakdown.mean_spec",
    "P3.Breakdown.modesSum_value",
    "P3.Breakdown.modesSum_tt_le",
    "P3.Breakdown.tt_noise_given"
   ],
   "note": "Existence of the breakdown is C124."
  },
  {
   "property": "C09",
   "status": "partial",
   "theorems": [
    "P3.Config.threshold_partial",
    "P3.Config.loThreshold_ignores_option"
   ],
   "note": "False of the code: the option name tested is 'ThresholdWCoG = 0.0'."
  },
  {
   "property": "C10",
   "status": "proved",
   "theorems": [
    "P3.Source.direction_spec",
    "P3.Source.source_height_wvl"
   ],
   "note": ""
  },
  {
   "property": "C11",
   "status": "proved",
   "theorems": [
    "P3.Atmosphere.r0_after_history",
    "P3.Atmosphere.r0_restored",
    "P3.Atmosphere.seeing_after_history"
   ],
   "note": ""
  },
  {
   "property": "C12",
   "status": "proved",
   "theorems": [
    "P3.Atmosphere.layers_strength",
    "P3.Atmosphere.slab_spec"
   ],
   "note": ""
  },
  {
   "property": "C13",
   "status": "proved",
   "theorems": [
    "P3.Noise.noise_refused_iff",
    "P3.Noise.noise_per_wfs",
    "P3.Noise.noise_monotone",
    "P3.Noise.noise_photon_scaling",
    "P3.Noise.noise_infinite_flux",
    "P3.Noise.noiseAt_spec"
   ],
   "note": ""
  },
  {
   "property": "C14",
   "status": "partial",
   "theorems": [
    "P3.Hardware.photonCounts_enough_partial",
    "P3.Hardware.photonCounts_one_missing",
    "P3.Hardware.photonCounts_more_missing",
    "P3.Hardware.photonCounts_retry"
   ],
   "note": "False of the code as soon as a count is missing (appends a list, then fails, and alters the caller's list); proved when enough counts are given."
  },
  {
   "property": "C15",
   "status": "proved",
   "theorems": [
    "P3.Hardware.sub2ind_inRange",
    "P3.Hardware.sub2ind_injective",
    "P3.Hardware.roundtrip_square",
    "P3.Hardware.sub2ind_neg_one_iff"
   ],
   "note": ""
  },
  {
   "property": "C16",
   "status": "proved",
   "theorems": [
    "P3.Hardware.mkDM_ok_iff",
    "P3.Hardware.mkDM_spec",
    "P3.Hardware.radialOrder_spec"
   ],
   "note": ""
  },
  {
   "property": "C17",
   "status": "proved",
   "theorems": [
    "P3.Hardware.mkDetector_spec",
    "P3.Hardware.fovArcsec_spec"
   ],
   "note": "The second row is C125."
  },
  {
   "property": "C18",
   "status": "proved",
   "theorems": [
    "P3.Hardware.ttloop_iff",
    "P3.Hardware.bandwidth_mono",
    "P3.Hardware.holoop_spec"
   ],
   "note": ""
  },
  {
   "property": "C19",
   "status": "proved",
   "theorems": [
    "P3.Freq.createWvl_spec",
    "P3.Freq.unique_spec"
   ],
   "note": "The copy made by the frequency domain and single bins are C126."
  },
  {
   "property": "C20",
   "status": "proved",
   "theorems": [
    "P3.Freq.kFactor_spec",
    "P3.Freq.psdStep_spec",
    "P3.Freq.grid_spans_fov",
    "P3.Freq.nOtf_ge",
    "P3.Freq.sampling_angle"
   ],
   "note": ""
  },
  {
   "property": "C21",
   "status": "proved",
   "theorems": [
    "P3.Freq.nTimes_spec"
   ],
   "note": ""
  },
  {
   "property": "C22",
   "status": "proved",
   "theorems": [
    "P3.Freq.masks_partition",
    "P3.Freq.mskIn_spec",
    "P3.Freq.fitting_spec",
    "P3.Fourier.corrected_terms_zero"
   ],
   "note": "The chromatic term is C127."
  },
  {
   "property": "C23",
   "status": "proved",
   "theorems": [
    "P3.Freq.embed_spec",
    "P3.Freq.embed_refused"
   ],
   "note": "embed_spec gives the exact offset also for the other parities."
  },
  {
   "property": "C24",
   "status": "proved",
   "theorems": [
    "P3.Freq.freq_centred"
   ],
   "note": ""
  },
  {
   "property": "C25",
   "status": "proved",
   "theorems": [
    "P3.Images.binning_spec",
    "P3.Images.binning_flux"
   ],
   "note": ""
  },
  {
   "property": "C26",
   "status": "proved",
   "theorems": [
    "P3.Images.crop_spec",
    "P3.Images.crop_centre",
    "P3.Images.enlarge_spec"
   ],
   "note": ""
  },
  {
   "property": "C27",
   "status": "proved",
   "theorems": [
    "P3.Images.normalize_roundtrip",
    "P3.Images.normalize_finite",
    "P3.Images.normalize_sum",
    "P3.Images.normalize_positive_sum",
    "P3.Images.normalize_minmax"
   ],
   "note": "Exact arithmetic; normalize_finite says exactly when the normalisation divides by zero."
  },
  {
   "property": "C28",
   "status": "proved",
   "theorems": [
    "P3.Psf.psf_flux",
    "P3.Psf.detectorPsf_spec",
    "P3.Psf.detectorPsf_full"
   ],
   "note": "Existence for every wavelength is C130."
  },
  {
   "property": "C29",
   "status": "proved",
   "theorems": [
    "P3.Psf.sf2otf_spec",
    "P3.Psf.sf2otf_scale",
    "P3.Psf.sf2otf_marechal"
   ],
   "note": ""
  },
  {
   "property": "C30",
   "status": "proved",
   "theorems": [
    "P3.Images.encircled_spec",
    "P3.Images.encircled_ignores_last_bin"
   ],
   "note": "Proved as stated; the curve is normalised without the outermost bin (encircled_ignores_last_bin)."
  },
  {
   "property": "C31",
   "status": "proved",
   "theorems": [
    "P3.Images.ensquared_box",
    "P3.Images.ensquared_mono"
   ],
   "note": ""
  },
  {
   "property": "C32",
   "status": "proved",
   "theorems": [
    "P3.Layers.eqLayers_refused_iff",
    "P3.Layers.eqLayers_defined",
    "P3.Layers.eqLayers_total",
    "P3.Layers.eqLayers_moment",
    "P3.Layers.eqLayers_altitude",
    "P3.Layers.groups_flatten",
    "P3.Layers.posSlab_eq",
    "P3.Layers.repair_noop"
   ],
   "note": ""
  },
  {
   "property": "C33",
   "status": "proved",
   "theorems": [
    "P3.Params.sortParams_spec",
    "P3.Params.reshape_spec",
    "P3.Params.fluxMono_spec",
    "P3.Params.fluxShape_several"
   ],
   "note": "Bounds and the index of the flux are C131."
  },
  {
   "property": "C34",
   "status": "proved",
   "theorems": [
    "P3.Psf.sombrero1_bounds",
    "P3.Psf.pistonFilter_spec",
    "P3.Psf.pistonFilter_unclipped",
    "P3.Psf.sombrero1_lt",
    "P3.Psf.pistonFilter_pos",
    "P3.Psf.domainPiston_spec"
   ],
   "note": "J1(x)/x is Poisson's integral."
  },
  {
   "property": "C35",
   "status": "partial",
   "theorems": [
    "P3.Psf.fftsym_partial",
    "P3.Psf.fftsym_not_mirror"
   ],
   "note": "False of the code: fftsym_not_mirror."
  },
  {
   "property": "C36",
   "status": "partial",
   "theorems": [
    "P3.Images.polarCounts_stuck",
    "P3.Images.polarCounts_capped_partial"
   ],
   "note": "False of the code: every circle gets min(7, n_theta) samples."
  },
  {
   "property": "C37",
   "status": "proved",
   "theorems": [
    "P3.Fourier.rtf_add_atf",
    "P3.Fourier.zero_gain",
    "P3.Fourier.norm_ntf",
    "P3.Fourier.h1_le_h2",
    "P3.Fourier.rtf_integrator"
   ],
   "note": ""
  },
  {
   "property": "C38",
   "status": "proved",
   "theorems": [
    "P3.Fourier.recon_inverse",
    "P3.Fourier.recon_none_iff",
    "P3.Fourier.recon_regularised",
    "P3.Fourier.pyr_bounded",
    "P3.Fourier.pyr_zones"
   ],
   "note": ""
  },
  {
   "property": "C39",
   "status": "proved",
   "theorems": [
    "P3.Fourier.noiseScao_nonneg",
    "P3.Fourier.noiseTomo_nonneg",
    "P3.Fourier.tomoPsd_nonneg",
    "P3.Fourier.aliasPsd_nonneg",
    "P3.Fourier.spatioTemporal_nonneg",
    "P3.Fourier.spatioTemporal_on_axis",
    "P3.Fourier.norm_decorr_le",
    "P3.Fourier.conePsd_nonneg",
    "P3.Fourier.mcaoPsd_spec",
    "P3.Fourier.psdFinal_sum",
    "P3.Fourier.psdFinal_nonneg",
    "P3.Fourier.psdFinal_mono"
   ],
   "note": ""
  },
  {
   "property": "C40",
   "status": "proved",
   "theorems": [
    "P3.Fourier.extra_met",
    "P3.Fourier.extraOf_spec"
   ],
   "note": ""
  },
  {
   "property": "C41",
   "status": "proved",
   "theorems": [
    "P3.Fourier.chunkSum_eq",
    "P3.Fourier.chunkSum_code"
   ],
   "note": ""
  },
  {
   "property": "C42",
   "status": "proved",
   "theorems": [
    "P3.Memory.final_le_peak",
    "P3.Memory.no_peak",
    "P3.Memory.estimate_mono",
    "P3.Memory.reduce_le",
    "P3.Memory.breakdown_sums",
    "P3.Memory.nChunks_spec",
    "P3.Memory.precision_doubles",
    "P3.Memory.items_listed"
   ],
   "note": ""
  },
  {
   "property": "C43",
   "status": "proved",
   "theorems": [
    "P3.Psf.phaseSF_spec",
    "P3.Psf.cov2sf_spec",
    "P3.Psf.isMax_exists",
    "P3.Psf.cov2sf_real"
   ],
   "note": ""
  },
  {
   "property": "C44",
   "status": "proved",
   "theorems": [
    "P3.Fourier.anisoPsd_spec",
    "P3.Fourier.diffRefPsd_spec",
    "P3.Fourier.chromPsd_spec",
    "P3.Fourier.diffRefPsd_even"
   ],
   "note": ""
  },
  {
   "property": "C45",
   "status": "partial",
   "theorems": [
    "P3.Fourier.bessel_recurrence_partial",
    "P3.Fourier.bessel_reflection_iff",
    "P3.Fourier.bessel_violation"
   ],
   "note": "False of the code for even orders."
  },
  {
   "property": "C46",
   "status": "proved",
   "theorems": [
    "P3.Zernike.findNM_valid",
    "P3.Zernike.findNM_injective",
    "P3.Zernike.findNM_surjective",
    "P3.Zernike.nMode_spec",
    "P3.Zernike.nmOrder_eq",
    "P3.Zernike.findNMList_partial",
    "P3.Zernike.findNMList_violation",
    "P3.Zernike.findN_iff"
   ],
   "note": "Proved for every index; a list passed to the method that is longer than the object's own list fails (findNMList_violation)."
  },
  {
   "property": "C47",
   "status": "proved",
   "theorems": [
    "P3.Telescope.pupil_spec",
    "P3.Telescope.pupil_antitone",
    "P3.Telescope.axis_spec",
    "P3.Telescope.pupil_symmetric",
    "P3.Telescope.pupil_dark"
   ],
   "note": ""
  },
  {
   "property": "C48",
   "status": "proved",
   "theorems": [
    "P3.Aniso.focal_ground",
    "P3.Aniso.focal_nonneg_both",
    "P3.Aniso.focal_altitude"
   ],
   "note": ""
  },
  {
   "property": "C49",
   "status": "proved",
   "theorems": [
    "P3.Air.refractiveIndex_spec",
    "P3.Air.bandOf_spec",
    "P3.Air.bands_disjoint",
    "P3.Air.mathar_reference",
    "P3.Air.ciddor_pos",
    "P3.Air.ciddor_decreasing",
    "P3.Air.ciddor_dry",
    "P3.Air.aboveResonance_of",
    "P3.Air.index1_model",
    "P3.Air.partial_pressures",
    "P3.Air.refractiveIndex_shape",
    "P3.Air.humidity_spec",
    "P3.Air.svp_increasing",
    "P3.Air.svp_value",
    "P3.Air.svp_hot",
    "P3.Air.ciddor_gas",
    "P3.Air.standard_conditions"
   ],
   "note": "Wavelengths outside all bands are C135, states other than the reference C450."
  },
  {
   "property": "C50",
   "status": "proved",
   "theorems": [
    "P3.Pupil.makePupil_spec",
    "P3.Pupil.window_size",
    "P3.Pupil.window_fits",
    "P3.Pupil.remove1_spec",
    "P3.Pupil.remove_others",
    "P3.Pupil.shift_spec",
    "P3.Pupil.shift_zero"
   ],
   "note": "Rotation, shrinking and the limits are C136."
  },
  {
   "property": "C51",
   "status": "proved",
   "theorems": [
    "P3.Fitting.merge_spec",
    "P3.Fitting.extract_exists",
    "P3.Fitting.merge_extract",
    "P3.Fitting.extract_merge"
   ],
   "note": "Integer start vectors are C137."
  },
  {
   "property": "C52",
   "status": "partial",
   "theorems": [
    "P3.Fitting.image_unchanged_iff_partial",
    "P3.Fitting.image_shifted",
    "P3.Fitting.image_violation"
   ],
   "note": "Exactly characterised: the caller's image is altered whenever its minimum is subtracted in place."
  },
  {
   "property": "C53",
   "status": "proved",
   "theorems": [
    "P3.FieldFit.tiles_spec",
    "P3.FieldFit.tile_of_pixel",
    "P3.FieldFit.tile_unique",
    "P3.FieldFit.tiles_roundtrip",
    "P3.FieldFit.roundtrip_smaller",
    "P3.FieldFit.centers_spec",
    "P3.FieldFit.cubeToImage_spec",
    "P3.FieldFit.cubeToImage_not_square"
   ],
   "note": "Rectangular tiles and sizes that do not divide are C138."
  },
  {
   "property": "C54",
   "status": "proved",
   "theorems": [
    "P3.FieldFit.weights_sum",
    "P3.FieldFit.interp_spec",
    "P3.FieldFit.nearest_spec"
   ],
   "note": ""
  },
  {
   "property": "C55",
   "status": "proved",
   "theorems": [
    "P3.Fitting.evaluate_2D"
   ],
   "note": ""
  },
  {
   "property": "C56",
   "status": "proved",
   "theorems": [
    "P3.Rec.sr2wfe_iff",
    "P3.Rec.wfe2sr_sr2wfe",
    "P3.Rec.sr2wfe_wfe2sr",
    "P3.Rec.wfe2sr_anti"
   ],
   "note": ""
  },
  {
   "property": "C57",
   "status": "proved",
   "theorems": [
    "P3.Telemetry.toUT_iff",
    "P3.Telemetry.toUT_time"
   ],
   "note": ""
  },
  {
   "property": "C58",
   "status": "proved",
   "theorems": [
    "P3.Telemetry.comDelta_single"
   ],
   "note": ""
  },
  {
   "property": "C59",
   "status": "proved",
   "theorems": [
    "P3.IniFile.write_reads",
    "P3.IniFile.write_values",
    "P3.IniFile.write_frame",
    "P3.IniFile.write_idempotent",
    "P3.IniFile.write_table",
    "P3.IniFile.write_sections"
   ],
   "note": "C139 for the options that are not read or not updated."
  },
  {
   "property": "C60",
   "status": "partial",
   "theorems": [
    "P3.Source.cooStar_swapped",
    "P3.Source.cooStar_positive_side",
    "P3.Source.cooStar_distance_partial",
    "P3.Source.cooStar_right_iff_partial",
    "P3.Source.positions_axis_violation",
    "P3.Source.positions_partial"
   ],
   "note": "False of the code: arctan2 gets its arguments swapped and radians are used as degrees (cooStar_swapped, cooStar_positive_side)."
  },
  {
   "property": "C61",
   "status": "proved",
   "theorems": [
    "P3.Atmosphere.meanHeight_meanWind_between",
    "P3.Atmosphere.tau0_after_history",
    "P3.Atmosphere.L0_uniform"
   ],
   "note": ""
  },
  {
   "property": "C62",
   "status": "proved",
   "theorems": [
    "P3.Atmosphere.structureFunction_zero",
    "P3.Atmosphere.variance_strength",
    "P3.Atmosphere.spectrum_spec",
    "P3.Atmosphere.angularStructureFunction_zero",
    "P3.Atmosphere.angularCovariance_zero",
    "P3.Atmosphere.structureFunction_spec"
   ],
   "note": ""
  },
  {
   "property": "C63",
   "status": "proved",
   "theorems": [
    "P3.Aniso.angularPsd_spec",
    "P3.Aniso.watm_turbulence"
   ],
   "note": ""
  },
  {
   "property": "C64",
   "status": "proved",
   "theorems": [
    "P3.Aniso.anisokinetism_spec",
    "P3.Aniso.sasiela_layers",
    "P3.Aniso.anisokinetism_value"
   ],
   "note": ""
  },
  {
   "property": "C65",
   "status": "partial",
   "theorems": [
    "P3.Aniso.star_restored_partial",
    "P3.Aniso.structureFunction_ok_iff",
    "P3.Aniso.star_lost"
   ],
   "note": "False of the code if the focal part raises (star_lost)."
  },
  {
   "property": "C66",
   "status": "proved",
   "theorems": [
    "P3.Freq.cutoffs_spec",
    "P3.Freq.resAO_spec"
   ],
   "note": ""
  },
  {
   "property": "C67",
   "status": "partial",
   "theorems": [
    "P3.Aniso.dphiAni_partial",
    "P3.Aniso.dphiAni_ngs_fails"
   ],
   "note": "False of the code for NGS systems (dphiAni_ngs_fails)."
  },
  {
   "property": "C68",
   "status": "partial",
   "theorems": [
    "P3.Metrics.getFlux_partial",
    "P3.Metrics.getFlux_background_zero",
    "P3.Metrics.getFlux_rectangular",
    "P3.Metrics.getFlux_violation",
    "P3.Metrics.getFlux_no_background",
    "P3.Metrics.getFlux_sky_violation",
    "P3.Metrics.inside_majority"
   ],
   "note": "False of the code: the median includes the masked pixels, so the background is zero for non-negative images."
  },
  {
   "property": "C69",
   "status": "proved",
   "theorems": [
    "P3.Metrics.wavelengthVector_spec",
    "P3.Metrics.block_spec"
   ],
   "note": "A single bin: wavelength_single_bin and C126."
  },
  {
   "property": "C70",
   "status": "proved",
   "theorems": [
    "P3.Metrics.axisGrid_spec",
    "P3.Metrics.interpolate_zoom",
    "P3.Metrics.interpolate_same"
   ],
   "note": ""
  },
  {
   "property": "C71",
   "status": "proved",
   "theorems": [
    "P3.Metrics.mseWindow_size",
    "P3.Metrics.getMSE_zero_iff",
    "P3.Metrics.getMSE_scale"
   ],
   "note": ""
  },
  {
   "property": "C72",
   "status": "proved",
   "theorems": [
    "P3.Metrics.fwhm1d_spec",
    "P3.Metrics.fwhm1d_single"
   ],
   "note": ""
  },
  {
   "property": "C73",
   "status": "partial",
   "theorems": [
    "P3.Metrics.unchanged_partial",
    "P3.Metrics.radialProfile_modifies",
    "P3.Metrics.strehlMax_modifies",
    "P3.Metrics.addNoise_modifies",
    "P3.Metrics.radialProfile_peak",
    "P3.Metrics.strehlMax_value"
   ],
   "note": "False of the code for the normalised profile, the 'max' Strehl method and images with negative pixels."
  },
  {
   "property": "C74",
   "status": "proved",
   "theorems": [
    "P3.Psf.phasor_shift",
    "P3.Psf.astrometry",
    "P3.Psf.astrometry_exact"
   ],
   "note": ""
  },
  {
   "property": "C75",
   "status": "partial",
   "theorems": [
    "P3.Psf.jitter4_nonneg_partial",
    "P3.Psf.jitter4_amplifies",
    "P3.Psf.jitter_disagree",
    "P3.Psf.jitterFlow_violation",
    "P3.Psf.jitter3_line_partial"
   ],
   "note": "False of the code: the two functions use different units and a zero jitter can raise UnboundLocalError."
  },
  {
   "property": "C76",
   "status": "proved",
   "theorems": [
    "P3.Psf.norm_otfTot",
    "P3.Psf.strehl_range"
   ],
   "note": ""
  },
  {
   "property": "C77",
   "status": "partial",
   "theorems": [
    "P3.Psf.flux4_partial",
    "P3.Psf.flux4_default"
   ],
   "note": "False of the code: the default value has one dimension and is indexed with two."
  },
  {
   "property": "C78",
   "status": "partial",
   "theorems": [
    "P3.Psf.storeEnsquared_partial",
    "P3.Psf.storeEnsquared_iff",
    "P3.Psf.storeEnsquared_violation"
   ],
   "note": "False of the code for every binned PSF."
  },
  {
   "property": "C79",
   "status": "partial",
   "theorems": [
    "P3.Layers.windMod_partial",
    "P3.Layers.windMod_violation",
    "P3.Layers.windMod_ends_violation"
   ],
   "note": "The winds are as many as the layers and span the range, but are spread evenly whatever the layers: with a wind decreasing with height the modelled profile is reversed (windMod_violation), and an end layer is only right when the extreme wind is in its group (windMod_ends_violation)."
  },
  {
   "property": "C80",
   "status": "proved",
   "theorems": [
    "P3.Fourier.tiltFilter_range",
    "P3.Fourier.focusFilter_range",
    "P3.Fourier.focusFilter_projection"
   ],
   "note": ""
  },
  {
   "property": "C81",
   "status": "partial",
   "theorems": [
    "P3.Fourier.windPower_partial",
    "P3.Fourier.windPower_violation"
   ],
   "note": "False of the code: the square of the complex rejection is used instead of its squared modulus."
  },
  {
   "property": "C82",
   "status": "proved",
   "theorems": [
    "P3.Zernike.zernike_orthonormal",
    "P3.Zernike.zernike_piston",
    "P3.Zernike.zernike_zero_mean",
    "P3.Zernike.zernike_low",
    "P3.Zernike.radial_one"
   ],
   "note": ""
  },
  {
   "property": "C83",
   "status": "proved",
   "theorems": [
    "P3.Zernike.grid_spec",
    "P3.Zernike.modeMap_spec",
    "P3.Zernike.nollNorm_spec"
   ],
   "note": ""
  },
  {
   "property": "C84",
   "status": "partial",
   "theorems": [
    "P3.Telescope.normaliseMode_partial",
    "P3.Telescope.staticMap_rms",
    "P3.Telescope.staticMap_two",
    "P3.Telescope.staticMap_violation"
   ],
   "note": "Proved when the modes are orthogonal on the pupil; otherwise the cross terms remain (staticMap_two)."
  },
  {
   "property": "C85",
   "status": "partial",
   "theorems": [
    "P3.Telescope.modeAxis_partial",
    "P3.Telescope.modeAxis_violation",
    "P3.Telescope.offAxis_violation"
   ],
   "note": "False when two axes have the same length, and for cubes of off-axis maps."
  },
  {
   "property": "C86",
   "status": "proved",
   "theorems": [
    "P3.Telescope.area_spec",
    "P3.Telescope.airmass_spec"
   ],
   "note": ""
  },
  {
   "property": "C87",
   "status": "partial",
   "theorems": [
    "P3.Pupil.size_fits_partial",
    "P3.Pupil.size_violation"
   ],
   "note": "Proved when the extreme coordinates are opposite; false for a segment off axis (size_violation)."
  },
  {
   "property": "C88",
   "status": "partial",
   "theorems": [
    "P3.Pupil.pad_map",
    "P3.Pupil.pad_window_partial",
    "P3.Pupil.pad_violation",
    "P3.Pupil.trim_violation",
    "P3.Pupil.trim_partial"
   ],
   "note": "The padded map is right; the windows are misplaced by any padding and by any trimming."
  },
  {
   "property": "C89",
   "status": "proved",
   "theorems": [
    "P3.Pupil.reflect_spec",
    "P3.Pupil.reflect_one",
    "P3.Pupil.phase_spec",
    "P3.Pupil.phase_modulus"
   ],
   "note": "In floating point the modulus of exp(i phase) may differ from one, which is outside the model."
  },
  {
   "property": "C90",
   "status": "proved",
   "theorems": [
    "P3.Pupil.fillGap_spec"
   ],
   "note": ""
  },
  {
   "property": "C91",
   "status": "proved",
   "theorems": [
    "P3.Pupil.petals_partition"
   ],
   "note": ""
  },
  {
   "property": "C92",
   "status": "proved",
   "theorems": [
    "P3.Fitting.fit_ok",
    "P3.Fitting.fit_masked",
    "P3.Fitting.fit_unmasked"
   ],
   "note": "Other cases are C145."
  },
  {
   "property": "C93",
   "status": "proved",
   "theorems": [
    "P3.Fitting.residual_units",
    "P3.Fitting.residual_cost"
   ],
   "note": ""
  },
  {
   "property": "C94",
   "status": "proved",
   "theorems": [
    "P3.Fitting.psfParams_get",
    "P3.Fitting.psfParams_single"
   ],
   "note": ""
  },
  {
   "property": "C95",
   "status": "proved",
   "theorems": [
    "P3.Fitting.confidence_spec",
    "P3.Fitting.confidence_underdetermined",
    "P3.Fitting.confidence_exact",
    "P3.Fitting.confidence_scale",
    "P3.Fitting.confidence_units",
    "P3.Fitting.gram_posDef"
   ],
   "note": ""
  },
  {
   "property": "C96",
   "status": "proved",
   "theorems": [
    "P3.Fitting.updateBounds_contain"
   ],
   "note": ""
  },
  {
   "property": "C97",
   "status": "proved",
   "theorems": [
    "P3.Fitting.imageModel_total",
    "P3.Fitting.imageModel_saturation",
    "P3.Fitting.imageModel_pure"
   ],
   "note": ""
  },
  {
   "property": "C98",
   "status": "partial",
   "theorems": [
    "P3.FieldFit.wMse_single_partial",
    "P3.FieldFit.quality_inverted",
    "P3.FieldFit.quality_pairing"
   ],
   "note": "False: the worse fit gets the larger weight (quality_inverted) and qualities are compared across tiles (quality_pairing)."
  },
  {
   "property": "C99",
   "status": "proved",
   "theorems": [
    "P3.FieldFit.select_spec",
    "P3.FieldFit.select_total",
    "P3.FieldRun.generate_best"
   ],
   "note": ""
  },
  {
   "property": "C100",
   "status": "proved",
   "theorems": [
    "P3.FieldFit.extract_even",
    "P3.FieldFit.candidate_extracted"
   ],
   "note": ""
  },
  {
   "property": "C101",
   "status": "proved",
   "theorems": [
    "P3.FieldFit.grid_centers",
    "P3.FieldRun.generate_points"
   ],
   "note": ""
  },
  {
   "property": "C102",
   "status": "proved",
   "theorems": [
    "P3.FieldFit.wMean_bounds",
    "P3.FieldFit.polyval_const"
   ],
   "note": ""
  },
  {
   "property": "C103",
   "status": "partial",
   "theorems": [
    "P3.IniFile.adjust_reads_partial",
    "P3.IniFile.adjust_violation",
    "P3.IniFile.chooseModes_violation",
    "P3.IniFile.adjust_total",
    "P3.IniFile.chooseModes_spec"
   ],
   "note": "Only wavelength and sampling options are read back; mask, aberrations and angle are written under names that are not read."
  },
  {
   "property": "C104",
   "status": "partial",
   "theorems": [
    "P3.Telemetry.indexTime_spec_partial",
    "P3.Telemetry.indexTime_violation",
    "P3.Telemetry.midnight_violation",
    "P3.Telemetry.timeInHours_spec"
   ],
   "note": "Proved within a day; false across midnight, and gaps are flagged in verbose mode only."
  },
  {
   "property": "C105",
   "status": "proved",
   "theorems": [
    "P3.Telemetry.combine_spec",
    "P3.Telemetry.mu0_spec"
   ],
   "note": ""
  },
  {
   "property": "C106",
   "status": "proved",
   "theorems": [
    "P3.Telemetry.noiseCov_symm",
    "P3.Telemetry.noiseCov_quad",
    "P3.Telemetry.noiseCov_psd",
    "P3.Telemetry.noiseCov_static"
   ],
   "note": ""
  },
  {
   "property": "C107",
   "status": "proved",
   "theorems": [
    "P3.Telemetry.tf_sum",
    "P3.Telemetry.tf_noise",
    "P3.Telemetry.tfDelay_norm",
    "P3.Telemetry.freq_last",
    "P3.Telemetry.trapz_nonneg",
    "P3.Telemetry.trapz_line"
   ],
   "note": ""
  },
  {
   "property": "C108",
   "status": "partial",
   "theorems": [
    "P3.Telemetry.student_increasing_partial",
    "P3.Telemetry.student_violation",
    "P3.Telemetry.student_large"
   ],
   "note": "Monotone in the probability; the row for seven repeats the row for five."
  },
  {
   "property": "C109",
   "status": "proved",
   "theorems": [
    "P3.Telemetry.regression_exact",
    "P3.Telemetry.crossing_exact",
    "P3.Telemetry.windSpeed_pos",
    "P3.Telemetry.windSpeed_scale",
    "P3.Telemetry.windSpeed_law"
   ],
   "note": ""
  },
  {
   "property": "C110",
   "status": "partial",
   "theorems": [
    "P3.Telemetry.decimated_cov_partial",
    "P3.Telemetry.decimated_violation",
    "P3.Telemetry.decimate_spec",
    "P3.Telemetry.cov_spec"
   ],
   "note": "The number of frames is not updated: the covariance is scaled by the decimation."
  },
  {
   "property": "C111",
   "status": "proved",
   "theorems": [
    "P3.Telemetry.loopDelay_spec",
    "P3.Telemetry.loopDelay_values"
   ],
   "note": ""
  },
  {
   "property": "C112",
   "status": "partial",
   "theorems": [
    "P3.Rec.dphiUij_three",
    "P3.Rec.dphiVii_spec",
    "P3.Rec.dphiVii_nonneg",
    "P3.Rec.modes2Dphi_nonneg",
    "P3.Rec.dphiVii_covariance_partial",
    "P3.Rec.dphiVii_transposed",
    "P3.Rec.dphiVii_negative",
    "P3.Rec.dphiVii_grey",
    "P3.Rec.dphiUij_ignores",
    "P3.Rec.dphiUij_two",
    "P3.Rec.modes2Dphi_ok_iff",
    "P3.Rec.svd_example",
    "P3.Rec.uij_spec",
    "P3.Rec.half_shift"
   ],
   "note": "Exact for pupils of lit and dark pixels, with V diag(s) V^T in place of the covariance; the code uses the columns of V instead of its rows, so the covariance is the given one only for symmetric V. The Uij formula ignores variances; a zero covariance raises."
  },
  {
   "property": "C113",
   "status": "partial",
   "theorems": [
    "P3.Rec.breakdown_differences",
    "P3.Rec.breakdown_total_partial",
    "P3.Rec.breakdown_marechal",
    "P3.Rec.strehlSF_spec",
    "P3.Rec.breakdown_complete",
    "P3.Rec.breakdown_noise_servo",
    "P3.Rec.sample_total",
    "P3.Rec.breakdown_ignores_aliasing",
    "P3.Rec.breakdown_total_violation",
    "P3.Rec.breakdown_servo_nan"
   ],
   "note": "Everything but aliasing, which is reported and not summed (breakdown_total_violation); with more noise than signal the total is not a number."
  },
  {
   "property": "C114",
   "status": "proved",
   "theorems": [
    "P3.Rec.jitterSF_spec",
    "P3.Rec.jitterSF_nonneg",
    "P3.Rec.jitterSF_rotation",
    "P3.Rec.jitterSF_mono",
    "P3.Rec.sampleCov_posSemidef"
   ],
   "note": "After subtraction of noise: C151."
  },
  {
   "property": "C115",
   "status": "proved",
   "theorems": [
    "P3.Rec.otfPixel_axes",
    "P3.Rec.otfPixel_bound",
    "P3.Rec.otfPixel_band"
   ],
   "note": ""
  },
  {
   "property": "C116",
   "status": "proved",
   "theorems": [
    "P3.Rec.totalSF_spec",
    "P3.Rec.totalSF_nonneg"
   ],
   "note": ""
  },
  {
   "property": "C117",
   "status": "proved",
   "theorems": [
    "P3.Rec.zonalOtf_spec",
    "P3.Rec.zonalOtf_bounds"
   ],
   "note": ""
  },
  {
   "property": "C118",
   "status": "partial",
   "theorems": [
    "P3.Rec.olSlopes_spec_partial"
   ],
   "note": "False of the code: exactly characterised (present command and preceding element of the flattened array)."
  },
  {
   "property": "C119",
   "status": "proved",
   "theorems": [
    "P3.Tomo.tomo_normal",
    "P3.Tomo.errCov_around",
    "P3.Tomo.tomo_optimal",
    "P3.Tomo.tomo_error",
    "P3.Tomo.tomo_noise_mono",
    "P3.Tomo.tomo_extra_star",
    "P3.Tomo.tomo_zero_frequency",
    "P3.Tomo.tomo_exact",
    "P3.Tomo.tomo_unique",
    "P3.Tomo.reconstructor_optimal",
    "P3.Tomo.mp_apply",
    "P3.Tomo.kernel_spectrum",
    "P3.Tomo.meas_spec"
   ],
   "note": ""
  },
  {
   "property": "C120",
   "status": "proved",
   "theorems": [
    "P3.Tomo.noiseCov_independent",
    "P3.Tomo.noiseCov_none"
   ],
   "note": ""
  },
  {
   "property": "C121",
   "status": "partial",
   "theorems": [
    "P3.Tomo.projector_one_direction",
    "P3.Tomo.projector_regularised",
    "P3.Tomo.projector_symmetric_partial",
    "P3.Tomo.tikhonov_isUnit",
    "P3.Tomo.lambdaReg_real",
    "P3.Tomo.projector_violation"
   ],
   "note": "Optimal for one direction, and for symmetrical directions up to the regularisation; false otherwise because the code transposes without conjugating (projector_violation)."
  },
  {
   "property": "C122",
   "status": "proved",
   "theorems": [
    "P3.Tomo.projector_cutoff",
    "P3.Tomo.uncorrected"
   ],
   "note": ""
  },
  {
   "property": "C123",
   "status": "proved",
   "theorems": [
    "P3.Tomo.stretched_spec",
    "P3.Tomo.residualPsd_eq",
    "P3.Tomo.spectra_nonneg",
    "P3.Tomo.noisePsd_eq",
    "P3.Tomo.mpAlpha_still",
    "P3.Tomo.mpAlpha_wind",
    "P3.Tomo.perfect_correction"
   ],
   "note": ""
  },
  {
   "property": "C124",
   "status": "partial",
   "theorems": [
    "P3.Breakdown.breakdown_defined_partial",
    "P3.Breakdown.breakdown_two_noise_variances"
   ],
   "note": "Proved when the noise variance is available; with two or more noise variances in the parameter file the breakdown raises."
  },
  {
   "property": "C125",
   "status": "partial",
   "theorems": [
    "P3.Hardware.dispersion_second_row_unchecked",
    "P3.Hardware.mkDetector_spec",
    "P3.Hardware.dispersion_partial"
   ],
   "note": "False of the code: only the first row is compared."
  },
  {
   "property": "C126",
   "status": "partial",
   "theorems": [
    "P3.Freq.freqWvl_iff_partial",
    "P3.Freq.freqWvl_two_bands_fail",
    "P3.Freq.createWvl_single_bin"
   ],
   "note": "freqWvl_iff_partial is the exact characterisation: several centres with several bins raise; a single bin is the lower edge."
  },
  {
   "property": "C127",
   "status": "partial",
   "theorems": [
    "P3.Fourier.chrom_outside",
    "P3.Fourier.chrom_partial"
   ],
   "note": "False of the code: the term is not masked."
  },
  {
   "property": "C128",
   "status": "partial",
   "theorems": [
    "P3.Freq.shift_centred_partial"
   ],
   "note": "shift_centred_partial is the exact characterisation: no zero for odd sizes."
  },
  {
   "property": "C129",
   "status": "proved",
   "theorems": [
    "P3.Images.crop_enlarge"
   ],
   "note": ""
  },
  {
   "property": "C130",
   "status": "partial",
   "theorems": [
    "P3.Psf.detectorPsf_spec",
    "P3.Psf.detectorPsf_too_small",
    "P3.Psf.detectorPsf_violation"
   ],
   "note": "Exact condition: the binned grid must be at least as large as the detector."
  },
  {
   "property": "C131",
   "status": "partial",
   "theorems": [
    "P3.Params.bounds_partial",
    "P3.Params.bounds_violations",
    "P3.Params.idFlux_iff",
    "P3.Params.idFlux_violation"
   ],
   "note": "Exact conditions proved for the three models; they fail for the sizes of bounds_violations."
  },
  {
   "property": "C132",
   "status": "proved",
   "theorems": [
    "P3.Fourier.noiseGain_nonneg",
    "P3.Fourier.trapz_affine",
    "P3.Fourier.noiseGain_flat"
   ],
   "note": ""
  },
  {
   "property": "C133",
   "status": "partial",
   "theorems": [
    "P3.Fourier.recon_none_iff",
    "P3.Fourier.recon_partial"
   ],
   "note": "Exact condition: without regularisation, off the centre, the code divides zero by zero."
  },
  {
   "property": "C134",
   "status": "partial",
   "theorems": [
    "P3.Fourier.imposed_total",
    "P3.Fourier.imposed_total_iff_partial"
   ],
   "note": "False: the unit factor is applied twice; imposed_total_iff_partial says when it is met."
  },
  {
   "property": "C135",
   "status": "partial",
   "theorems": [
    "P3.Air.bandOf_gap",
    "P3.Air.gaps",
    "P3.Air.ciddor_pole",
    "P3.Air.index_partial"
   ],
   "note": "False: in the gaps listed the K table is used, and the visible formula has a pole in the far ultraviolet."
  },
  {
   "property": "C136",
   "status": "partial",
   "theorems": [
    "P3.Pupil.rotate_violation",
    "P3.Pupil.shift_violation_axis",
    "P3.Pupil.shift_violation_wrap",
    "P3.Pupil.shift_spec"
   ],
   "note": "False: rotation and shrinking always raise and the segment is lost; limits are those of the other axis."
  },
  {
   "property": "C137",
   "status": "partial",
   "theorems": [
    "P3.Fitting.merge_spec",
    "P3.Fitting.merge_violation",
    "P3.Fitting.merge_partial"
   ],
   "note": "False: fitted values are truncated (merge_spec with the integer type says how)."
  },
  {
   "property": "C138",
   "status": "partial",
   "theorems": [
    "P3.FieldFit.tile_of_pixel",
    "P3.FieldFit.tiles_violation",
    "P3.FieldFit.cubeToImage_violation",
    "P3.FieldFit.tiles_partial"
   ],
   "note": "False: remainders are dropped, and some cubes of rectangular tiles are accepted and scrambled."
  },
  {
   "property": "C139",
   "status": "partial",
   "theorems": [
    "P3.IniFile.write_wavelength",
    "P3.IniFile.wavelength_violation",
    "P3.IniFile.unread",
    "P3.IniFile.stale_section",
    "P3.IniFile.unwritten",
    "P3.IniFile.written_read_partial"
   ],
   "note": "False: the wavelength of the guide star and the low-order section of an older file remain; five options are never read."
  },
  {
   "property": "C140",
   "status": "partial",
   "theorems": [
    "P3.Atmosphere.temporalCovariance_zero",
    "P3.Atmosphere.temporalCovariance_two_layers",
    "P3.Atmosphere.temporalCovariance_one_layer_partial"
   ],
   "note": "False for several layers: each contributes the variance of the whole atmosphere."
  },
  {
   "property": "C141",
   "status": "partial",
   "theorems": [
    "P3.Aniso.angularPsd_ignores_strength",
    "P3.Aniso.angularPsd_partial"
   ],
   "note": "False: neither r0 nor the weights are used."
  },
  {
   "property": "C142",
   "status": "partial",
   "theorems": [
    "P3.Freq.dk_vs_step_partial",
    "P3.Freq.dk_violation"
   ],
   "note": "Exact condition: 2kc a whole number of steps; otherwise larger by less than one part in resAO."
  },
  {
   "property": "C143",
   "status": "partial",
   "theorems": [
    "P3.Zernike.unitNorm_partial",
    "P3.Zernike.unitNorm_violation"
   ],
   "note": "One mode only: several raise, unless as many as pixels across, and then off-diagonal pixels are cleared."
  },
  {
   "property": "C144",
   "status": "partial",
   "theorems": [
    "P3.Pupil.spiders_partial",
    "P3.Pupil.spiders_violation",
    "P3.Pupil.nSpiders_iff"
   ],
   "note": "nSpiders_iff is the exact condition: with coordinates and no resolution none is drawn."
  },
  {
   "property": "C145",
   "status": "partial",
   "theorems": [
    "P3.Fitting.fit_masked",
    "P3.Fitting.bounds_violation",
    "P3.Fitting.bounds_ignored",
    "P3.Fitting.norm2_violation",
    "P3.Fitting.bounds_short_violation",
    "P3.Fitting.bounds_partial"
   ],
   "note": "False: bounds without a mask raise NameError, other methods ignore bounds, and normalisation 2 always raises."
  },
  {
   "property": "C146",
   "status": "partial",
   "theorems": [
    "P3.Fitting.imageModel_violation_2D",
    "P3.Fitting.imageModel_violation_inplace",
    "P3.Fitting.saturation_partial"
   ],
   "note": "False for two-dimensional images (not clipped) and without stacking (clipped in place)."
  },
  {
   "property": "C147",
   "status": "partial",
   "theorems": [
    "P3.FieldFit.select_default",
    "P3.FieldFit.select_partial"
   ],
   "note": "False: raises TypeError whatever the stars."
  },
  {
   "property": "C148",
   "status": "partial",
   "theorems": [
    "P3.Telemetry.delay_violation",
    "P3.Telemetry.wfs_violation",
    "P3.Telemetry.freq_first_partial",
    "P3.Telemetry.tfWfs_partial"
   ],
   "note": "False: pi is left out of both phases; the first frequency is right only if the rate equals the number of frames (freq_first_partial)."
  },
  {
   "property": "C149",
   "status": "partial",
   "theorems": [
    "P3.Telemetry.ncpa_spec_partial",
    "P3.Telemetry.ncpa_violation",
    "P3.Telemetry.ncpa_other_violation"
   ],
   "note": "Other months share a name without a month."
  },
  {
   "property": "C150",
   "status": "proved",
   "theorems": [
    "P3.Telemetry.fixWaves_isolated"
   ],
   "note": ""
  },
  {
   "property": "C151",
   "status": "partial",
   "theorems": [
    "P3.Rec.jitterSF_nonneg",
    "P3.Rec.jitterSF_noise_violation",
    "P3.Rec.jitter_partial"
   ],
   "note": "False when the estimated noise exceeds the signal."
  },
  {
   "property": "C152",
   "status": "partial",
   "theorems": [
    "P3.Rec.breakdownVector_decoded_partial",
    "P3.Rec.totalSF_drops_anisoplanatism",
    "P3.Rec.breakdownVector_misread"
   ],
   "note": "Proved for one layer or several reconstructed ones; misread otherwise, and anisoplanatism is dropped without a decoded profile."
  },
  {
   "property": "C153",
   "status": "proved",
   "theorems": [
    "P3.Rec.nPh_nearest",
    "P3.Rec.pointLoc_whole"
   ],
   "note": ""
  },
  {
   "property": "C154",
   "status": "partial",
   "theorems": [
    "P3.Tomo.noiseAssigned_iff_partial"
   ],
   "note": "Exact condition: fails for several stars with a zero first variance unless there are as many sources as frequencies across (or a single frequency)."
  },
  {
   "property": "C155",
   "status": "partial",
   "theorems": [
    "P3.FieldFit.interp_violation",
    "P3.FieldFit.nearest_spec",
    "P3.FieldFit.interp_partial"
   ],
   "note": "False: zero distance gives not-a-number."
  },
  {
   "property": "C156",
   "status": "partial",
   "theorems": [
    "P3.Fitting.evaluate_3D",
    "P3.Fitting.evaluate_3D_iff_partial",
    "P3.Fitting.evaluate_failures"
   ],
   "note": "False: arrays are shared, so sky metrics are overwritten by those of the fit; exact condition proved."
  },
  {
   "property": "C157",
   "status": "proved",
   "theorems": [
    "P3.Otf.pupil2otf_spec",
    "P3.Otf.pupil2otf_flat"
   ],
   "note": ""
  },
  {
   "property": "C158",
   "status": "proved",
   "theorems": [
    "P3.Otf.padOf_two",
    "P3.Otf.pupil2otf_linear",
    "P3.Otf.pupil2otf_cutoff"
   ],
   "note": ""
  },
  {
   "property": "C159",
   "status": "proved",
   "theorems": [
    "P3.Otf.otf2psf_unit",
    "P3.Otf.pupil2psf_farField"
   ],
   "note": ""
  },
  {
   "property": "C160",
   "status": "proved",
   "theorems": [
    "P3.Otf.staticOtf_spec",
    "P3.Otf.strehl_static"
   ],
   "note": "Without resampling of the OTF (spline interpolation is not modelled)."
  },
  {
   "property": "C161",
   "status": "partial",
   "theorems": [
    "P3.Otf.static_sign_lost",
    "P3.Otf.static_tilt_partial",
    "P3.Otf.real_otf_symmetric"
   ],
   "note": "False: only the real part of the OTF is kept, so opposite maps are not distinguished, a tilt makes a symmetric double image and every PSF is point-symmetric."
  },
  {
   "property": "C162",
   "status": "partial",
   "theorems": [
    "P3.Otf.staticPhase_partial",
    "P3.Otf.staticPhase_ignored"
   ],
   "note": "False: coefficients of another number than the modes are silently ignored."
  },
  {
   "property": "C163",
   "status": "partial",
   "theorems": [
    "P3.Otf.telescopeOtf_conv",
    "P3.Otf.telescopeOtf_le",
    "P3.Otf.telescopeOtf_shifted_partial",
    "P3.Otf.telescopeOtf_off_centre",
    "P3.Otf.telescopeOtf_asymmetric",
    "P3.Otf.sum_dlOtf"
   ],
   "note": "False: it is the self-convolution, equal to the autocorrelation moved by one or two pixels for symmetrical pupils; for pupils without a point of symmetry its normalised sum is too large."
  },
  {
   "property": "C164",
   "status": "proved",
   "theorems": [
    "P3.Otf.psf2otf_spec"
   ],
   "note": ""
  },
  {
   "property": "C165",
   "status": "partial",
   "theorems": [
    "P3.Otf.otf2psf_rectangular_partial",
    "P3.Otf.otf2psf_rectangular_violation"
   ],
   "note": "Exact condition proved; False for rectangular arrays with an even number of rows."
  },
  {
   "property": "C166",
   "status": "partial",
   "theorems": [
    "P3.Otf.centerPsf_half",
    "P3.Otf.centerPsf_exact_partial"
   ],
   "note": "False: the image is moved by (d-1)/2 pixels for a peak d pixels away."
  },
  {
   "property": "C167",
   "status": "proved",
   "theorems": [
    "P3.Otf.rfftToFft_spec",
    "P3.Otf.rfftCols_fit"
   ],
   "note": ""
  },
  {
   "property": "C168",
   "status": "partial",
   "theorems": [
    "P3.Otf.phaseToSf_unnormalised",
    "P3.Otf.phaseToSf_piston",
    "P3.Otf.phaseToSf_piston_row",
    "P3.Otf.phaseToSf_zero_partial"
   ],
   "note": "False: the normalisation by the number of pairs never happens and piston gives negative values; only the value at zero separation is right."
  },
  {
   "property": "C169",
   "status": "proved",
   "theorems": [
    "P3.Psfao.onAxisSF_spec",
    "P3.Psfao.max_cov",
    "P3.Psfao.fullCov_eq"
   ],
   "note": ""
  },
  {
   "property": "C170",
   "status": "partial",
   "theorems": [
    "P3.Psfao.opdSF_onaxis_partial",
    "P3.Psfao.aniso_never_applied",
    "P3.Psfao.aniso_cases",
    "P3.Psfao.aniso_length",
    "P3.Psfao.opdSF_error",
    "P3.Psfao.aniso_violation"
   ],
   "note": "False: with one fitted layer the off-axis stars get the on-axis function, with several the arrays cannot be multiplied."
  },
  {
   "property": "C171",
   "status": "partial",
   "theorems": [
    "P3.Psfao.callShape_given_partial",
    "P3.Psfao.callShape_default",
    "P3.Psfao.callShape_bands"
   ],
   "note": "False with the default stellar parameters unless there are as many sources as wavelengths."
  },
  {
   "property": "C172",
   "status": "partial",
   "theorems": [
    "P3.Psfao.reportedWfe_partial",
    "P3.Psfao.reportedWfe_spec",
    "P3.Psfao.reportedWfe_violation"
   ],
   "note": "False at several wavelengths: too large by the ratio of the last wavelength to the first."
  },
  {
   "property": "C173",
   "status": "partial",
   "theorems": [
    "P3.Psfao.init_partial",
    "P3.Psfao.init_violation",
    "P3.Psfao.background_violation"
   ],
   "note": "False at several wavelengths: the last one is left, and one background is decoded."
  },
  {
   "property": "C174",
   "status": "proved",
   "theorems": [
    "P3.Psfao.defineBounds_spec"
   ],
   "note": ""
  },
  {
   "property": "C175",
   "status": "partial",
   "theorems": [
    "P3.FRun.psd_sum",
    "P3.FRun.breakdown_exact",
    "P3.FRun.breakdown_partial",
    "P3.FRun.breakdown_cone_violation",
    "P3.FRun.breakdown_tilt",
    "P3.FRun.breakdown_tilt_violation",
    "P3.Extra.breakdown_science_partial"
   ],
   "note": "Exact balance between total and integral. False with a single laser (the cone effect is in the PSD, not in the total), with the tilt filter (PSD filtered, terms not), for off-axis sources with the MCAO cone effect (that of the first source is reported)."
  },
  {
   "property": "C176",
   "status": "partial",
   "theorems": [
    "P3.FRun.breakdown_cases_partial",
    "P3.FRun.wfeTomo_nan",
    "P3.FRun.wfeTomo_spec",
    "P3.FRun.wfeRec_spec"
   ],
   "note": "Exact cases. Nothing is reported in open loop; AttributeError if the MCAO cone error is asked for with one guide star or natural guide stars; the tomographic error is nan when the servo-lag error exceeds the spatio-temporal one."
  },
  {
   "property": "C177",
   "status": "proved",
   "theorems": [
    "P3.FRun.marechal_spec",
    "P3.FRun.std_spec",
    "P3.FRun.jitter_spec"
   ],
   "note": ""
  },
  {
   "property": "C178",
   "status": "proved",
   "theorems": [
    "P3.FRun.second_run",
    "P3.FRun.repeat_one"
   ],
   "note": ""
  },
  {
   "property": "C179",
   "status": "partial",
   "theorems": [
    "P3.FRun.heightMod_partial",
    "P3.FRun.heightMod_violation"
   ],
   "note": "False for a guide star object of height zero with a compressed profile: division by zero puts the layers on the ground."
  },
  {
   "property": "C180",
   "status": "partial",
   "theorems": [
    "P3.FRun.r0Wfs_exact_partial"
   ],
   "note": "Holds exactly when the atmosphere is described at 500 nm."
  },
  {
   "property": "C181",
   "status": "partial",
   "theorems": [
    "P3.Extra.weight_pos_iff",
    "P3.Extra.extra_partial",
    "P3.Extra.extra_science",
    "P3.Extra.wanted_violation",
    "P3.Extra.list_violation",
    "P3.Extra.band_violation"
   ],
   "note": "Proved for a positive technical field, non-empty bands and a number or a pair. With the default technical field the value on axis is never used, lists of other lengths raise, an empty band gives nan."
  },
  {
   "property": "C182",
   "status": "partial",
   "theorems": [
    "P3.Extra.default_partial",
    "P3.Extra.default_violation"
   ],
   "note": "The limits of the band are not inherited."
  },
  {
   "property": "C183",
   "status": "proved",
   "theorems": [
    "P3.Focal.focal_onaxis",
    "P3.Focal.focal_infinity",
    "P3.Focal.map_center",
    "P3.Focal.mcDonald_continuous"
   ],
   "note": ""
  },
  {
   "property": "C184",
   "status": "proved",
   "theorems": [
    "P3.Focal.quadrant_bounds",
    "P3.Focal.map_stationary",
    "P3.Focal.map_even",
    "P3.Focal.map_trace"
   ],
   "note": ""
  },
  {
   "property": "C185",
   "status": "proved",
   "theorems": [
    "P3.Focal.aniso_symm",
    "P3.Focal.aniso_same",
    "P3.Focal.aniso_exchange",
    "P3.Focal.bessel_bound",
    "P3.Focal.aniso_nonneg"
   ],
   "note": "Without lag; the quadrature is a parameter (positive linear functional); J0 and J2 are Bessel's integrals."
  },
  {
   "property": "C186",
   "status": "proved",
   "theorems": [
    "P3.Focal.kernel_uncorrelated"
   ],
   "note": ""
  },
  {
   "property": "C187",
   "status": "proved",
   "theorems": [
    "P3.Fwhm.contour_level",
    "P3.Fwhm.raw_spec",
    "P3.Fwhm.peakPix_spec",
    "P3.Fwhm.findContour_spec"
   ],
   "note": ""
  },
  {
   "property": "C188",
   "status": "proved",
   "theorems": [
    "P3.Fwhm.median_l1",
    "P3.Fwhm.keep_half"
   ],
   "note": ""
  },
  {
   "property": "C189",
   "status": "proved",
   "theorems": [
    "P3.Fwhm.widths_scale",
    "P3.Fwhm.ofContour_order",
    "P3.Fwhm.ofContour_circle",
    "P3.Fwhm.ofContour_shift",
    "P3.Fwhm.aRatio_spec",
    "P3.Fwhm.rebin_cut",
    "P3.Fwhm.widths_flat"
   ],
   "note": ""
  },
  {
   "property": "C190",
   "status": "proved",
   "theorems": [
    "P3.Fwhm.widths_raises",
    "P3.Fwhm.output_spec",
    "P3.Fwhm.measure_contour",
    "P3.Fwhm.output_mean",
    "P3.Fwhm.getFWHM_spec"
   ],
   "note": "Which calls return widths, and how many values. Given the cuts, see C72."
  },
  {
   "property": "C191",
   "status": "proved",
   "theorems": [
    "P3.ZVar.variance_order"
   ],
   "note": "An empty list raises IndexError."
  },
  {
   "property": "C192",
   "status": "proved",
   "theorems": [
    "P3.ZVar.noll_decreasing",
    "P3.ZVar.noll_scale"
   ],
   "note": ""
  },
  {
   "property": "C193",
   "status": "partial",
   "theorems": [
    "P3.ZVar.series_sum",
    "P3.ZVar.series_zero",
    "P3.ZVar.series_accurate_partial",
    "P3.ZVar.series_violation",
    "P3.ZVar.series_violation_far",
    "P3.ZVar.unParam_tilt",
    "P3.ZVar.tilt_series"
   ],
   "note": "The stopping rule compares two consecutive terms, not a term with the tolerance: it stops at the crest of the series where two terms are equal (tip-tilt for (pi D/L0)^2 = 7/2 stops at 2, the sum is over 2.35)."
  },
  {
   "property": "C194",
   "status": "proved",
   "theorems": [
    "P3.Diag.photons_spec",
    "P3.Diag.top_sum",
    "P3.Diag.top_mean",
    "P3.Diag.photons_cases"
   ],
   "note": ""
  },
  {
   "property": "C195",
   "status": "proved",
   "theorems": [
    "P3.Diag.select_ring",
    "P3.Diag.select_valid"
   ],
   "note": ""
  },
  {
   "property": "C196",
   "status": "proved",
   "theorems": [
    "P3.Diag.averageOrder_spec",
    "P3.Diag.averageOrder_perm"
   ],
   "note": ""
  },
  {
   "property": "C197",
   "status": "proved",
   "theorems": [
    "P3.Diag.coeffs_offset",
    "P3.Diag.czHo_centre",
    "P3.Diag.czHo_psd",
    "P3.Diag.jIndex_spec"
   ],
   "note": ""
  },
  {
   "property": "C198",
   "status": "proved",
   "theorems": [
    "P3.Diag.u2z_exact",
    "P3.Diag.u2z_least"
   ],
   "note": "The pseudo-inverse is any generalised inverse of the Gram matrix: modes whose singular values fall under rcond are not covered."
  },
  {
   "property": "C199",
   "status": "partial",
   "theorems": [
    "P3.Diag.noise_autocorrelation_partial",
    "P3.Diag.noise_rtf_violation",
    "P3.Diag.noise_other_violation",
    "P3.Diag.noise_interpolation_violation"
   ],
   "note": "'rtf' always raises, 'interpolation' works on frames instead of commands, unknown names give zero, and the telemetry is centred in place."
  },
  {
   "property": "C200",
   "status": "proved",
   "theorems": [
    "P3.Deep.chooseSub_spec"
   ],
   "note": ""
  },
  {
   "property": "C201",
   "status": "proved",
   "theorems": [
    "P3.Deep.split_crash",
    "P3.Deep.split_done"
   ],
   "note": ""
  },
  {
   "property": "C202",
   "status": "proved",
   "theorems": [
    "P3.Deep.columnValues_spec",
    "P3.Deep.columnValues_sizes",
    "P3.Deep.bounds_accepted"
   ],
   "note": ""
  },
  {
   "property": "C203",
   "status": "proved",
   "theorems": [
    "P3.Deep.totalPsd_stat"
   ],
   "note": ""
  },
  {
   "property": "C204",
   "status": "proved",
   "theorems": [
    "P3.Deep.labels_distinct",
    "P3.Deep.testPerFolder_spec"
   ],
   "note": ""
  },
  {
   "property": "C205",
   "status": "proved",
   "theorems": [
    "P3.Deep.recover_spec",
    "P3.Deep.recover_short"
   ],
   "note": ""
  },
  {
   "property": "C206",
   "status": "proved",
   "theorems": [
    "P3.Deep.verified_lower"
   ],
   "note": ""
  },
  {
   "property": "C207",
   "status": "proved",
   "theorems": [
    "P3.Deep.readRows_spec"
   ],
   "note": ""
  },
  {
   "property": "C208",
   "status": "proved",
   "theorems": [
    "P3.Deep.pearson_le",
    "P3.Deep.pearson_affine",
    "P3.Deep.relErr_spec"
   ],
   "note": ""
  },
  {
   "property": "C209",
   "status": "partial",
   "theorems": [
    "P3.Sphere.corrupted_range",
    "P3.Sphere.corrupted_never_partial",
    "P3.Sphere.corrupted_raises"
   ],
   "note": "The criteria are one chain of comparisons between sums: no image is ever found corrupted; only the test of the telemetry works."
  },
  {
   "property": "C210",
   "status": "proved",
   "theorems": [
    "P3.Sphere.moveAll_spec",
    "P3.Sphere.moveAll_exists"
   ],
   "note": ""
  },
  {
   "property": "C211",
   "status": "proved",
   "theorems": [
    "P3.Sphere.crop_iff",
    "P3.Sphere.stack_spec"
   ],
   "note": ""
  },
  {
   "property": "C212",
   "status": "proved",
   "theorems": [
    "P3.Sphere.split_spec",
    "P3.Sphere.date_ok"
   ],
   "note": ""
  },
  {
   "property": "C213",
   "status": "proved",
   "theorems": [
    "P3.Sphere.sort_complete",
    "P3.Sphere.sort_crash",
    "P3.Sphere.sort_resume"
   ],
   "note": "A file of the same name in the folder of the date is replaced."
  },
  {
   "property": "C214",
   "status": "proved",
   "theorems": [
    "P3.Sphere.guess_length",
    "P3.Sphere.fixed_spec",
    "P3.Sphere.guessSig2_spec"
   ],
   "note": ""
  },
  {
   "property": "C215",
   "status": "partial",
   "theorems": [
    "P3.Sphere.fit_default",
    "P3.Sphere.fit_spec_partial"
   ],
   "note": "With the default arguments it always raises; without static modes the fit runs twice."
  },
  {
   "property": "C216",
   "status": "proved",
   "theorems": [
    "P3.Sphere.table_aligned"
   ],
   "note": ""
  },
  {
   "property": "C217",
   "status": "proved",
   "theorems": [
    "P3.Sphere.tiptilt_filter",
    "P3.Sphere.tiptilt_same"
   ],
   "note": ""
  },
  {
   "property": "C218",
   "status": "proved",
   "theorems": [
    "P3.Sphere.lwe_scale",
    "P3.Sphere.lwe_tiptilt",
    "P3.Sphere.lwe_marker"
   ],
   "note": ""
  },
  {
   "property": "C219",
   "status": "partial",
   "theorems": [
    "P3.Sphere.window_spec_partial",
    "P3.Sphere.delay_spec",
    "P3.Sphere.gain_spec",
    "P3.Sphere.grab_spec"
   ],
   "note": "The gain rises to 0.6 at magnitude 10.5 and is None from 11.3; the window of 1.5 pixels is never used; other filters raise."
  },
  {
   "property": "C220",
   "status": "proved",
   "theorems": [
    "P3.Sphere.findClosest_spec",
    "P3.Sphere.sparta_ok"
   ],
   "note": ""
  },
  {
   "property": "C221",
   "status": "proved",
   "theorems": [
    "P3.Sphere.temperatures_spec",
    "P3.Sphere.detector_spec",
    "P3.Sphere.getDate_spec",
    "P3.Sphere.seeingUsed_nonneg"
   ],
   "note": ""
  },
  {
   "property": "C222",
   "status": "proved",
   "theorems": [
    "P3.Profile.profile_spec",
    "P3.Profile.profile_bounds",
    "P3.Profile.profile_flux"
   ],
   "note": ""
  },
  {
   "property": "C223",
   "status": "proved",
   "theorems": [
    "P3.Profile.rings_consecutive",
    "P3.Profile.radius_of_ring",
    "P3.Profile.centre_default"
   ],
   "note": ""
  },
  {
   "property": "C224",
   "status": "proved",
   "theorems": [
    "P3.Profile.super1d_spec",
    "P3.Profile.super2d_spec",
    "P3.Profile.one_output"
   ],
   "note": "The cubic spline is assumed to pass through its points."
  },
  {
   "property": "C225",
   "status": "partial",
   "theorems": [
    "P3.Profile.superEe_spec_partial",
    "P3.Profile.superEe_uniform"
   ],
   "note": "The profile is integrated along the radius instead of over the disc: linear for a uniform image."
  },
  {
   "property": "C226",
   "status": "partial",
   "theorems": [
    "P3.Profile.ee_lengths_partial"
   ],
   "note": "A maximal radius shortens the radii and the profile but not the energy."
  },
  {
   "property": "C227",
   "status": "partial",
   "theorems": [
    "P3.Profile.std_rings_partial",
    "P3.Profile.std_spec",
    "P3.Profile.std_first_ring_wrong",
    "P3.Profile.stddevs_partial"
   ],
   "note": "The limit of the first ring mixes bins and units: right only for bins of one unit."
  },
  {
   "property": "C228",
   "status": "proved",
   "theorems": [
    "P3.Profile.full_range",
    "P3.Profile.range_only"
   ],
   "note": ""
  },
  {
   "property": "C229",
   "status": "proved",
   "theorems": [
    "P3.PsdPsf.otf_spec"
   ],
   "note": ""
  },
  {
   "property": "C230",
   "status": "proved",
   "theorems": [
    "P3.PsdPsf.psf_odd"
   ],
   "note": ""
  },
  {
   "property": "C231",
   "status": "partial",
   "theorems": [
    "P3.PsdPsf.psf_odd",
    "P3.PsdPsf.psf_even_negative"
   ],
   "note": "Holds for odd sizes; refuted for every even size from 4: the half-pixel shift gives a negative pixel."
  },
  {
   "property": "C232",
   "status": "proved",
   "theorems": [
    "P3.PsdPsf.piston"
   ],
   "note": ""
  },
  {
   "property": "C233",
   "status": "proved",
   "theorems": [
    "P3.PsdPsf.sfOf_spec"
   ],
   "note": "Even sizes for the formula, all sizes for the bounds."
  },
  {
   "property": "C234",
   "status": "proved",
   "theorems": [
    "P3.PsdPsf.sf_values",
    "P3.PsdPsf.sf_scaling"
   ],
   "note": "Without the final interpolation."
  },
  {
   "property": "C235",
   "status": "proved",
   "theorems": [
    "P3.PsdPsf.telescopePsf_sampling"
   ],
   "note": ""
  },
  {
   "property": "C236",
   "status": "proved",
   "theorems": [
    "P3.PsdPsf.shannon_sampling"
   ],
   "note": "When the padding and the intermediate size are exact."
  },
  {
   "property": "C237",
   "status": "proved",
   "theorems": [
    "P3.Zonal.indpts_spec",
    "P3.Zonal.points_spec"
   ],
   "note": "Separations inside the output grid, points within nPh pitches."
  },
  {
   "property": "C238",
   "status": "proved",
   "theorems": [
    "P3.Zonal.otfAt_spec",
    "P3.Zonal.mask_otf"
   ],
   "note": "Before the final interpolation."
  },
  {
   "property": "C239",
   "status": "proved",
   "theorems": [
    "P3.Zonal.otfAt_bounds"
   ],
   "note": "Before the final interpolation."
  },
  {
   "property": "C240",
   "status": "partial",
   "theorems": [
    "P3.Zonal.otfNone_refuted"
   ],
   "note": "Refuted: row numbers are used as positions; along one axis the OTF does not depend on the covariance at all."
  },
  {
   "property": "C241",
   "status": "proved",
   "theorems": [
    "P3.Run.row_spec"
   ],
   "note": "The other eight columns are those of C242 to C245."
  },
  {
   "property": "C242",
   "status": "partial",
   "theorems": [
    "P3.Run.row_units_partial"
   ],
   "note": "Refuted: latencies are in frames (right only at 1 kHz) and the noise columns hold variances."
  },
  {
   "property": "C243",
   "status": "partial",
   "theorems": [
    "P3.Run.row_tiptilt_partial"
   ],
   "note": "Refuted: both repeat the high-order loop."
  },
  {
   "property": "C244",
   "status": "partial",
   "theorems": [
    "P3.Run.row_swapped_partial"
   ],
   "note": "Refuted: the two columns are exchanged."
  },
  {
   "property": "C245",
   "status": "partial",
   "theorems": [
    "P3.Run.row_strehl_partial"
   ],
   "note": "Right without a fit; with a fit the value is divided by 100."
  },
  {
   "property": "C246",
   "status": "proved",
   "theorems": [
    "P3.Run.unpack_effect"
   ],
   "note": ""
  },
  {
   "property": "C247",
   "status": "proved",
   "theorems": [
    "P3.Run.matched_spec"
   ],
   "note": "File names are opaque; other files with the same identifier are never used."
  },
  {
   "property": "C248",
   "status": "proved",
   "theorems": [
    "P3.Run.merge_spec",
    "P3.Run.merge_empty"
   ],
   "note": "Rows are opaque but for their date; the order of equal dates is left open."
  },
  {
   "property": "C249",
   "status": "proved",
   "theorems": [
    "P3.Run.kasp_spec"
   ],
   "note": ""
  },
  {
   "property": "C250",
   "status": "partial",
   "theorems": [
    "P3.Run.r0_read_partial"
   ],
   "note": "Refuted: the value read is 0.976 times the estimate, times airmass to the -3/5."
  },
  {
   "property": "C251",
   "status": "proved",
   "theorems": [
    "P3.Run.diagnose_wind",
    "P3.Run.dtau0_spec"
   ],
   "note": ""
  },
  {
   "property": "C252",
   "status": "partial",
   "theorems": [
    "P3.Run.bins_spec_partial"
   ],
   "note": "Refuted for a scatter plot without bins (TypeError)."
  },
  {
   "property": "C253",
   "status": "partial",
   "theorems": [
    "P3.Psfao.storeBounds_partial",
    "P3.Psfao.defineBounds_odd"
   ],
   "note": "The update works at one wavelength only; the bounds of positions are asymmetric for odd fields."
  },
  {
   "property": "C254",
   "status": "partial",
   "theorems": [
    "P3.Focal.map_violation",
    "P3.Focal.map_right_partial"
   ],
   "note": "Refuted: one quadrant is computed and mirrored."
  },
  {
   "property": "C255",
   "status": "partial",
   "theorems": [
    "P3.Diag.ron_violation"
   ],
   "note": "Refuted: pixels are sorted first, so exposures that are rearrangements of one another give zero; fewer than 101 actuators raise IndexError (photons_cases)."
  },
  {
   "property": "C256",
   "status": "partial",
   "theorems": [
    "P3.Diag.select_one_violation",
    "P3.Diag.select_centre_violation",
    "P3.Diag.select_ring",
    "P3.Diag.select_valid"
   ],
   "note": "Refuted: one diameter alone raises TypeError; the centre is half a pixel off."
  },
  {
   "property": "C257",
   "status": "partial",
   "theorems": [
    "P3.Diag.czTt_violation"
   ],
   "note": "Refuted: without laser it is the variance of the first reconstructed mode."
  },
  {
   "property": "C258",
   "status": "partial",
   "theorems": [
    "P3.Deep.split_overwrites",
    "P3.Deep.split_resume_violation",
    "P3.Deep.resume_prime_violation",
    "P3.Deep.split_done",
    "P3.Deep.split_crash"
   ],
   "note": "Refuted: files of the same name are replaced; the files left may not divide into the sub-folders asked for."
  },
  {
   "property": "C259",
   "status": "partial",
   "theorems": [
    "P3.Deep.bounds_violation",
    "P3.Deep.bounds_kept_partial"
   ],
   "note": "Refuted: the rounding of the edges can exceed the bounds."
  },
  {
   "property": "C260",
   "status": "partial",
   "theorems": [
    "P3.Deep.testPerFolder_violation",
    "P3.Deep.taken_partial"
   ],
   "note": "Refuted: fewer than the number of sub-folders gives none, too many fails."
  },
  {
   "property": "C261",
   "status": "partial",
   "theorems": [
    "P3.Deep.recover_violation",
    "P3.Deep.recover_spec"
   ],
   "note": "Refuted: the folder test_data raises."
  },
  {
   "property": "C262",
   "status": "partial",
   "theorems": [
    "P3.Deep.readRows_violation",
    "P3.Deep.readRows_partial"
   ],
   "note": "Refuted: the last line is ignored."
  },
  {
   "property": "C263",
   "status": "partial",
   "theorems": [
    "P3.Sphere.moveAll_noOut",
    "P3.Sphere.moveAll_spec"
   ],
   "note": "Refuted: the first data set is renamed to the destination."
  },
  {
   "property": "C264",
   "status": "partial",
   "theorems": [
    "P3.Sphere.stack_odd",
    "P3.Sphere.crop_repeats",
    "P3.Sphere.stack_density",
    "P3.Sphere.crop_iff"
   ],
   "note": "Refuted in all cases."
  },
  {
   "property": "C265",
   "status": "partial",
   "theorems": [
    "P3.Sphere.guessR0_spec_partial"
   ],
   "note": "Refuted: it grows as the square of the wavelength."
  },
  {
   "property": "C266",
   "status": "partial",
   "theorems": [
    "P3.Sphere.table_fwhm",
    "P3.Sphere.numberModes_iff_partial"
   ],
   "note": "Refuted: it holds the width along x; the number of modes is wrong when they are on the last axis."
  },
  {
   "property": "C267",
   "status": "partial",
   "theorems": [
    "P3.Sphere.tiptilt_coeffs_partial",
    "P3.Sphere.tiptilt_coeffs_remain",
    "P3.Sphere.tiptilt_coeffs_iff_partial"
   ],
   "note": "True only if the modes contain tip and tilt."
  },
  {
   "property": "C268",
   "status": "partial",
   "theorems": [
    "P3.Sphere.lwe_unfitted",
    "P3.Sphere.lwe_zero",
    "P3.Sphere.lwe_marker"
   ],
   "note": "Refuted: rows that were not fitted hold -1 and get the error of these values; rows of zeros raise without the removal of tip-tilt."
  },
  {
   "property": "C269",
   "status": "partial",
   "theorems": [
    "P3.Sphere.sparta_raises"
   ],
   "note": "Refuted: both raise."
  },
  {
   "property": "C270",
   "status": "partial",
   "theorems": [
    "P3.Profile.profile_fails",
    "P3.Profile.profile_two_partial"
   ],
   "note": "Refuted: the outermost ring is left out, and a single ring raises."
  },
  {
   "property": "C271",
   "status": "partial",
   "theorems": [
    "P3.Profile.small_bins_wrong_radius"
   ],
   "note": "Refuted: empty rings are skipped in the profile but not in the radii."
  },
  {
   "property": "C272",
   "status": "partial",
   "theorems": [
    "P3.Profile.std_ignores_range"
   ],
   "note": "Refuted: the range is ignored."
  },
  {
   "property": "C273",
   "status": "partial",
   "theorems": [
    "P3.Run.unpack_effect"
   ],
   "note": "Refuted: true only if the atmosphere was described at 500 nm."
  },
  {
   "property": "C274",
   "status": "partial",
   "theorems": [
    "P3.Run.kasp_spec"
   ],
   "note": "Refuted: without true_r0 the truth is overwritten by the estimate; the coherence times differ by a factor of a million."
  },
  {
   "property": "C275",
   "status": "partial",
   "theorems": [
    "P3.Config.reconfigure_fov",
    "P3.Config.reconfigure_not_idempotent"
   ],
   "note": "Refuted: it is multiplied by the ratio of the wavelengths each time."
  },
  {
   "property": "C276",
   "status": "partial",
   "theorems": [
    "P3.Config.coo_stars_positions_are_added",
    "P3.Config.coo_stars_violation",
    "P3.Config.science_positions"
   ],
   "note": "Refuted: numpy adds the coordinates."
  },
  {
   "property": "C277",
   "status": "partial",
   "theorems": [
    "P3.Source.source_multiwavelength_azimuths",
    "P3.Source.direction_spec"
   ],
   "note": "Refuted: one source is reported, and its directions raise."
  },
  {
   "property": "C278",
   "status": "partial",
   "theorems": [
    "P3.Atmosphere.slab_stale_after_setWvl",
    "P3.Atmosphere.slab_spec"
   ],
   "note": "Refuted: it has the new wavelength with the strength at the old one."
  },
  {
   "property": "C279",
   "status": "partial",
   "theorems": [
    "P3.Hardware.roundtrip_iff_partial",
    "P3.Hardware.ind2sub_sub2ind",
    "P3.Hardware.roundtrip_fails"
   ],
   "note": "Refuted; roundtrip_iff_partial is the exact condition on the shape."
  },
  {
   "property": "C280",
   "status": "partial",
   "theorems": [
    "P3.Freq.embed_misaligned",
    "P3.Freq.fovCheck_too_lax",
    "P3.Freq.embed_odd_violation",
    "P3.Freq.fov_needed_partial"
   ],
   "note": "Refuted: one pixel off; the check uses the wavelength of the atmosphere."
  },
  {
   "property": "C281",
   "status": "partial",
   "theorems": [
    "P3.Images.ensquared_wraps",
    "P3.Images.ensquared_last_centred",
    "P3.Images.ensquared_violation",
    "P3.Images.ensquared_mono"
   ],
   "note": "Refuted: the Python slice wraps around at the lower edge."
  },
  {
   "property": "C282",
   "status": "partial",
   "theorems": [
    "P3.Aniso.focal_not_monotone",
    "P3.Aniso.focal_reports_disagree",
    "P3.Aniso.focal_altitude"
   ],
   "note": "Refuted: the constants differ, and both decrease near the laser."
  },
  {
   "property": "C283",
   "status": "partial",
   "theorems": [
    "P3.Telemetry.toUT_iff",
    "P3.Telemetry.toUT_violation"
   ],
   "note": "Refuted: the 32nd of January."
  },
  {
   "property": "C284",
   "status": "partial",
   "theorems": [
    "P3.Telemetry.comDelta_integer",
    "P3.Telemetry.comDelta_axis",
    "P3.Telemetry.comDelta_single"
   ],
   "note": "Refuted: whole delays count twice and actuators are mixed."
  },
  {
   "property": "C285",
   "status": "partial",
   "theorems": [
    "P3.Metrics.interpolate_rectangular",
    "P3.Metrics.interpolate_partial"
   ],
   "note": "Refuted: always raises."
  },
  {
   "property": "C286",
   "status": "partial",
   "theorems": [
    "P3.Metrics.fwhm1d_raises_iff_partial",
    "P3.Metrics.fwhm1d_violation",
    "P3.Metrics.fwhm1d_flat_top"
   ],
   "note": "Refuted; fwhm1d_raises_iff_partial is the exact condition under which it raises."
  },
  {
   "property": "C287",
   "status": "partial",
   "theorems": [
    "P3.Psf.astrometry_violation",
    "P3.Psf.astrometry_exact"
   ],
   "note": "Refuted for a binning of two and for wavelengths binned differently."
  },
  {
   "property": "C288",
   "status": "partial",
   "theorems": [
    "P3.Fitting.psfParams_violation",
    "P3.Fitting.psfParams_iff_partial"
   ],
   "note": "Refuted: fitted offsets and backgrounds remain."
  },
  {
   "property": "C289",
   "status": "partial",
   "theorems": [
    "P3.Fitting.updateBounds_degenerate",
    "P3.Fitting.updateBounds_length_partial"
   ],
   "note": "Refuted: parameters without error get equal bounds; the number is right for one layer, star, wavelength and frame only."
  },
  {
   "property": "C290",
   "status": "partial",
   "theorems": [
    "P3.Pupil.reflect_violation",
    "P3.Pupil.reflect_spec"
   ],
   "note": "Refuted: the phase is erased."
  },
  {
   "property": "C291",
   "status": "partial",
   "theorems": [
    "P3.Pupil.fillGap_violation",
    "P3.Pupil.circle_violation",
    "P3.Pupil.segment_partial"
   ],
   "note": "Refuted: a single segment gets whole rows lit; circular segments raise."
  },
  {
   "property": "C292",
   "status": "partial",
   "theorems": [
    "P3.FieldFit.extract_odd_violation",
    "P3.FieldFit.candidate_odd_iff_partial"
   ],
   "note": "Refuted: a pixel can be lost at the border."
  },
  {
   "property": "C293",
   "status": "partial",
   "theorems": [
    "P3.FieldFit.grid_violation",
    "P3.FieldFit.grid_odd_partial"
   ],
   "note": "Refuted: one pixel off."
  },
  {
   "property": "C294",
   "status": "partial",
   "theorems": [
    "P3.FieldFit.wMean_violation",
    "P3.FieldFit.wMean_zero",
    "P3.FieldFit.wMean_bounds",
    "P3.FieldFit.wMean_outside_violation"
   ],
   "note": "Refuted for both."
  },
  {
   "property": "C295",
   "status": "partial",
   "theorems": [
    "P3.Tomo.noiseCov_single",
    "P3.Tomo.noiseCov_partial"
   ],
   "note": "Refuted: it is constant, that is fully correlated noise."
  },
  {
   "property": "C296",
   "status": "partial",
   "theorems": [
    "P3.Images.crop_enlarge_shrinks",
    "P3.Images.crop_enlarge_violation",
    "P3.Images.crop_enlarge_partial"
   ],
   "note": "Refuted: a row is lost."
  },
  {
   "property": "C297",
   "status": "partial",
   "theorems": [
    "P3.Fourier.noiseGain_negative",
    "P3.Fourier.noiseGain_nonneg"
   ],
   "note": "Refuted: below 0.002 Hz the frequencies decrease."
  },
  {
   "property": "C298",
   "status": "partial",
   "theorems": [
    "P3.Telemetry.fixWaves_violation",
    "P3.Telemetry.fixWaves_isolated"
   ],
   "note": "Refuted."
  },
  {
   "property": "C299",
   "status": "partial",
   "theorems": [
    "P3.Rec.pointLoc_violation",
    "P3.Rec.pointLoc_fraction_partial"
   ],
   "note": "Refuted."
  },
  {
   "property": "C300",
   "status": "partial",
   "theorems": [
    "P3.FRun.second_run_violation",
    "P3.FRun.second_run_fov",
    "P3.FRun.second_run"
   ],
   "note": "Refuted with several sensors, and when the field of view is too small at the science wavelength only."
  },
  {
   "property": "C301",
   "status": "partial",
   "theorems": [
    "P3.Fwhm.contour_violation",
    "P3.Fwhm.contour_level"
   ],
   "note": "Refuted: the point is the peak."
  },
  {
   "property": "C302",
   "status": "partial",
   "theorems": [
    "P3.Fwhm.keep_violation",
    "P3.Fwhm.keep_half"
   ],
   "note": "Refuted: all points are removed."
  },
  {
   "property": "C303",
   "status": "partial",
   "theorems": [
    "P3.Fwhm.rebin_violation",
    "P3.Fwhm.round_violation"
   ],
   "note": "Refuted: the resampling factor is ignored; a round contour is never measured."
  },
  {
   "property": "C304",
   "status": "partial",
   "theorems": [
    "P3.Deep.totalPsd_violation",
    "P3.Deep.totalPsd_stat"
   ],
   "note": "Refuted."
  },
  {
   "property": "C305",
   "status": "partial",
   "theorems": [
    "P3.Deep.verified_violation",
    "P3.Deep.verified_lower"
   ],
   "note": "Refuted: the last column is not compared."
  },
  {
   "property": "C306",
   "status": "partial",
   "theorems": [
    "P3.Sphere.sort_blocked"
   ],
   "note": "Refuted: the run stops at the date."
  },
  {
   "property": "C307",
   "status": "partial",
   "theorems": [
    "P3.PsdPsf.piston"
   ],
   "note": "Refuted: fftshift moves the zero frequency one pixel too far."
  },
  {
   "property": "C308",
   "status": "partial",
   "theorems": [
    "P3.PsdPsf.telescopePsf_undersampled",
    "P3.PsdPsf.telescopePsf_sampling"
   ],
   "note": "Refuted: the pixels are half of what was asked."
  },
  {
   "property": "C309",
   "status": "partial",
   "theorems": [
    "P3.Focal.focal_exact_partial",
    "P3.Focal.focal_violation",
    "P3.Focal.focal_twice"
   ],
   "note": "Refuted: one term has the wrong sign of the direction (focal_exact_partial), and the angular part is counted twice."
  },
  {
   "property": "C310",
   "status": "partial",
   "theorems": [
    "P3.Focal.kernel_exact",
    "P3.Focal.kernel_violation",
    "P3.Focal.kernel_sources_partial"
   ],
   "note": "Refuted: the cross terms multiply by a transposed array; several sources raise."
  },
  {
   "property": "C311",
   "status": "partial",
   "theorems": [
    "P3.Telemetry.combine_violation",
    "P3.Telemetry.combine_partial"
   ],
   "note": "Refuted: not a number."
  },
  {
   "property": "C312",
   "status": "proved",
   "theorems": [
    "P3.Archive.measured_once",
    "P3.Archive.load_existing",
    "P3.Archive.measured_files"
   ],
   "note": "The content of truncated files is not modelled."
  },
  {
   "property": "C313",
   "status": "partial",
   "theorems": [
    "P3.Archive.later_loads_partial",
    "P3.Archive.retry_violation"
   ],
   "note": "Refuted: the folder made by the first load stops any later download; the outcome of all later loads is given for every failure and crash point."
  },
  {
   "property": "C314",
   "status": "proved",
   "theorems": [
    "P3.Archive.median_profile",
    "P3.Archive.median_values",
    "P3.Archive.atmosphere_median",
    "P3.Archive.atmosphere_weights"
   ],
   "note": "MASS seeing missing or equal to the one of its profile, at most the DIMM seeing (see C311 for the other case)."
  },
  {
   "property": "C315",
   "status": "partial",
   "theorems": [
    "P3.Archive.missing_whole_partial",
    "P3.Archive.missing_layer_violation"
   ],
   "note": "Only when all layers are missing; refuted with one missing layer."
  },
  {
   "property": "C316",
   "status": "proved",
   "theorems": [
    "P3.Archive.append_spec",
    "P3.Archive.appended_distinct"
   ],
   "note": ""
  },
  {
   "property": "C317",
   "status": "proved",
   "theorems": [
    "P3.Archive.imageUT_spec",
    "P3.Archive.imageUT_night",
    "P3.Archive.parse12_spec"
   ],
   "note": "Dates are day numbers; the calendar is that of datetime."
  },
  {
   "property": "C318",
   "status": "proved",
   "theorems": [
    "P3.Archive.filterFile_spec",
    "P3.Archive.filterName_spec",
    "P3.Archive.curve_spec"
   ],
   "note": "ASCII case."
  },
  {
   "property": "C319",
   "status": "proved",
   "theorems": [
    "P3.Archive.sampling_spec",
    "P3.Archive.selected_spec",
    "P3.Archive.line_optimal",
    "P3.Archive.line_exact"
   ],
   "note": "polyfit as the exact least-squares line; two wavelengths must differ."
  },
  {
   "property": "C320",
   "status": "partial",
   "theorems": [
    "P3.Archive.dispersions_partial",
    "P3.Archive.dispersions_violation"
   ],
   "note": "Refuted for nWvl = 0 and a wide filter."
  },
  {
   "property": "C321",
   "status": "proved",
   "theorems": [
    "P3.Archive.airmass_spec"
   ],
   "note": ""
  },
  {
   "property": "C322",
   "status": "proved",
   "theorems": [
    "P3.Campaign.p2x_six",
    "P3.Campaign.fit_six",
    "P3.Campaign.mask_spec"
   ],
   "note": ""
  },
  {
   "property": "C323",
   "status": "partial",
   "theorems": [
    "P3.Campaign.p2x_modes_partial",
    "P3.Campaign.static_violation",
    "P3.Campaign.fit_static_violation"
   ],
   "note": "Refuted: the last coefficient is dropped, so that all are ignored, and fits with static modes always raise."
  },
  {
   "property": "C324",
   "status": "proved",
   "theorems": [
    "P3.Campaign.magErr_scale",
    "P3.Campaign.mse_spec",
    "P3.Campaign.rms_ge"
   ],
   "note": "Exact arithmetic."
  },
  {
   "property": "C325",
   "status": "proved",
   "theorems": [
    "P3.Campaign.start_range",
    "P3.Campaign.start_others"
   ],
   "note": ""
  },
  {
   "property": "C326",
   "status": "partial",
   "theorems": [
    "P3.Campaign.init_partial",
    "P3.Campaign.init_violation"
   ],
   "note": "Only for 20 percent: the amplitude is ignored."
  },
  {
   "property": "C327",
   "status": "partial",
   "theorems": [
    "P3.Campaign.bias_mean_partial",
    "P3.Campaign.std_violation",
    "P3.Campaign.percent_violation"
   ],
   "note": "The mean bias only; the scatter is zero for one test, and fractions of opposite sign are reported for percents."
  },
  {
   "property": "C328",
   "status": "proved",
   "theorems": [
    "P3.Campaign.folders_spec"
   ],
   "note": ""
  },
  {
   "property": "C329",
   "status": "proved",
   "theorems": [
    "P3.Campaign.second_stage"
   ],
   "note": "The solver respects its bounds; real arithmetic."
  },
  {
   "property": "C330",
   "status": "partial",
   "theorems": [
    "P3.Campaign.second_start_partial",
    "P3.Campaign.second_stage_violation"
   ],
   "note": "Refuted for a fixed PSD parameter, or when the confidence interval failed."
  },
  {
   "property": "C331",
   "status": "partial",
   "theorems": [
    "P3.Campaign.split_args_partial",
    "P3.Campaign.joint_args_partial",
    "P3.Campaign.args_violation"
   ],
   "note": "Start and mask of the split fit only; weights are ignored by both, all three by the joint fit."
  },
  {
   "property": "C332",
   "status": "proved",
   "theorems": [
    "P3.Campaign.names_spec",
    "P3.Campaign.dict_spec"
   ],
   "note": "Tables of fits with 36 static modes, the only ones written."
  },
  {
   "property": "C333",
   "status": "partial",
   "theorems": [
    "P3.Campaign.fitAll_partial",
    "P3.Campaign.fitAll_violation",
    "P3.Campaign.fitAll_modes_violation"
   ],
   "note": "Files are drawn with replacement; raises unless there are 36 static modes."
  },
  {
   "property": "C334",
   "status": "proved",
   "theorems": [
    "P3.Campaign.catalog_spec"
   ],
   "note": "Words instead of numbers."
  },
  {
   "property": "C335",
   "status": "partial",
   "theorems": [
    "P3.Campaign.catalog_violation",
    "P3.Campaign.catalog_two",
    "P3.Campaign.catalog_spec"
   ],
   "note": "Refuted for every nSkip but 1: it raises, or repeats the first star."
  },
  {
   "property": "C336",
   "status": "proved",
   "theorems": [
    "P3.Kasp.telemetry_centred",
    "P3.Kasp.static_offset",
    "P3.Kasp.tiptilt_centred_ngs"
   ],
   "note": "Exact arithmetic."
  },
  {
   "property": "C337",
   "status": "partial",
   "theorems": [
    "P3.Kasp.tiptilt_mean_lgs_partial",
    "P3.Kasp.tiptilt_not_centred_lgs"
   ],
   "note": "Refuted: the mean of the file is kept, scaled."
  },
  {
   "property": "C338",
   "status": "proved",
   "theorems": [
    "P3.Kasp.residual_spec",
    "P3.Kasp.tiptilt_free",
    "P3.Kasp.tiptilt_slopes_ignored"
   ],
   "note": ""
  },
  {
   "property": "C339",
   "status": "proved",
   "theorems": [
    "P3.Kasp.wfe_spec",
    "P3.Kasp.wfe_scale"
   ],
   "note": ""
  },
  {
   "property": "C340",
   "status": "proved",
   "theorems": [
    "P3.Kasp.populate_again",
    "P3.Kasp.atmosphere_spec",
    "P3.Kasp.loops_integrators"
   ],
   "note": ""
  },
  {
   "property": "C341",
   "status": "proved",
   "theorems": [
    "P3.Petals.bar_width",
    "P3.Petals.symmetric_spider",
    "P3.Petals.onesided_spider",
    "P3.Petals.mask_zero_iff"
   ],
   "note": "Points on the border of a bar count as outside."
  },
  {
   "property": "C342",
   "status": "partial",
   "theorems": [
    "P3.Petals.petals_available_partial",
    "P3.Petals.petals_thin_violation",
    "P3.Petals.petals_iff_partial"
   ],
   "note": "Refuted for spiders thinner than a pixel."
  },
  {
   "property": "C343",
   "status": "proved",
   "theorems": [
    "P3.Petals.petal_amplitude",
    "P3.Petals.petal_phase",
    "P3.Petals.petal_order"
   ],
   "note": "Petal numbers that are not negative."
  },
  {
   "property": "C344",
   "status": "partial",
   "theorems": [
    "P3.Petals.petal_replaces_partial",
    "P3.Petals.petal_accumulate_violation",
    "P3.Petals.petal_accumulate_iff_partial"
   ],
   "note": "Refuted: a call replaces the petal phase of the one before."
  },
  {
   "property": "C345",
   "status": "partial",
   "theorems": [
    "P3.Petals.reset_restores_partial",
    "P3.Petals.reset_reflexivity_violation",
    "P3.Petals.reset_restores_iff_partial"
   ],
   "note": "For maps of zeros and ones; refuted for partly reflecting segments."
  },
  {
   "property": "C346",
   "status": "partial",
   "theorems": [
    "P3.Petals.build_keeps_partial",
    "P3.Petals.fillRef_lit",
    "P3.Petals.build_shared_violation",
    "P3.Petals.build_alters_violation",
    "P3.Petals.fillRef_rows"
   ],
   "note": "Without filling of gaps; refuted with it (the default). Pupils of one segment."
  },
  {
   "property": "C347",
   "status": "proved",
   "theorems": [
    "P3.Upkeep.positivity_cost",
    "P3.Upkeep.positivity_bounds"
   ],
   "note": ""
  },
  {
   "property": "C348",
   "status": "partial",
   "theorems": [
    "P3.Upkeep.weights_same_partial",
    "P3.Upkeep.weights_refused",
    "P3.Upkeep.weights_vector_violation"
   ],
   "note": "Only the number of rows is checked: a vector weighs the columns."
  },
  {
   "property": "C349",
   "status": "proved",
   "theorems": [
    "P3.Upkeep.query_complete",
    "P3.Upkeep.query_keeps",
    "P3.Upkeep.query_twice"
   ],
   "note": "The script is a parameter."
  },
  {
   "property": "C350",
   "status": "partial",
   "theorems": [
    "P3.Upkeep.query_resumed_partial",
    "P3.Upkeep.query_interrupted_violation",
    "P3.Upkeep.query_stray_violation"
   ],
   "note": "When the script leaves the folder alone as it fails; refuted when it wrote the file of the sensor, or beside a stray file."
  },
  {
   "property": "C351",
   "status": "partial",
   "theorems": [
    "P3.Upkeep.print_optics_partial",
    "P3.Upkeep.print_violation"
   ],
   "note": "Refuted: the description of the mirrors raises."
  },
  {
   "property": "C352",
   "status": "partial",
   "theorems": [
    "P3.Upkeep.printed_delay_partial",
    "P3.Upkeep.printed_delay_violation"
   ],
   "note": "Low-order loop only when both rates agree."
  },
  {
   "property": "C353",
   "status": "proved",
   "theorems": [
    "P3.Spectra.servoLag_rejection",
    "P3.Spectra.static_corrected",
    "P3.Spectra.static_off_axis",
    "P3.Spectra.watm_spectrum",
    "P3.Spectra.corrected_area",
    "P3.Spectra.temporal_frequency"
   ],
   "note": "Exact arithmetic."
  },
  {
   "property": "C354",
   "status": "proved",
   "theorems": [
    "P3.Spectra.noise_shack",
    "P3.Spectra.noise_convention"
   ],
   "note": ""
  },
  {
   "property": "C355",
   "status": "partial",
   "theorems": [
    "P3.Spectra.decorr_exchanged_partial",
    "P3.Spectra.tomography_direction",
    "P3.Spectra.separation_violation"
   ],
   "note": "Refuted: with one guide star the two components of the separation are exchanged."
  },
  {
   "property": "C356",
   "status": "partial",
   "theorems": [
    "P3.Spectra.refraction_azimuth_partial",
    "P3.Spectra.refraction_azimuth_violation"
   ],
   "note": "Refuted: the azimuth in degrees is used as radians."
  },
  {
   "property": "C357",
   "status": "proved",
   "theorems": [
    "P3.Spectra.residual_scales"
   ],
   "note": ""
  },
  {
   "property": "C358",
   "status": "proved",
   "theorems": [
    "P3.Spectra.aliasing_rigaut",
    "P3.Spectra.aliasing_centre",
    "P3.Spectra.aliasing_axis"
   ],
   "note": ""
  },
  {
   "property": "C359",
   "status": "partial",
   "theorems": [
    "P3.Spectra.opposite_frequencies_partial",
    "P3.Spectra.aliasing_opposite_difference",
    "P3.Spectra.aliasing_opposite_violation"
   ],
   "note": "Refuted for aliasing: the replicas go from -n to n-1."
  },
  {
   "property": "C360",
   "status": "proved",
   "theorems": [
    "P3.Cone.conePsd_bounds",
    "P3.Cone.conePsd_ground"
   ],
   "note": ""
  },
  {
   "property": "C361",
   "status": "partial",
   "theorems": [
    "P3.Cone.cone_far_partial",
    "P3.Cone.cone_beyond_cutoff_violation"
   ],
   "note": "Refuted: layers add their cone effect up to kc/(1-h/H)."
  },
  {
   "property": "C362",
   "status": "partial",
   "theorems": [
    "P3.Cone.conePsd_defined_partial",
    "P3.Cone.cone_at_laser_violation"
   ],
   "note": "Refuted for a layer at the altitude of the laser."
  },
  {
   "property": "C363",
   "status": "proved",
   "theorems": [
    "P3.Cone.lasers_bound",
    "P3.Cone.lasers_inside",
    "P3.Cone.lasers_radial"
   ],
   "note": ""
  },
  {
   "property": "C364",
   "status": "partial",
   "theorems": [
    "P3.Cone.windVar_share_partial",
    "P3.Cone.windVar_violation"
   ],
   "note": "Refuted: the share of the frequencies of tilt outside the corrected area is lost."
  },
  {
   "property": "C365",
   "status": "proved",
   "theorems": [
    "P3.Reuse.reduce_same",
    "P3.Reuse.built_some"
   ],
   "note": "For every value of the arrays; all configurations."
  },
  {
   "property": "C366",
   "status": "proved",
   "theorems": [
    "P3.Reuse.unreduced_history"
   ],
   "note": "Induction over the calls."
  },
  {
   "property": "C367",
   "status": "partial",
   "theorems": [
    "P3.Reuse.reduced_history_partial",
    "P3.Reuse.reduced_violation"
   ],
   "note": "Refuted: exact set of the histories that raise nothing."
  },
  {
   "property": "C368",
   "status": "proved",
   "theorems": [
    "P3.Strehl.marechal_bound",
    "P3.Strehl.breakdown_below_image"
   ],
   "note": "The OTF has the size of the padded pupil (no interpolation). Exact arithmetic."
  },
  {
   "property": "C369",
   "status": "proved",
   "theorems": [
    "P3.Strehl.more_error",
    "P3.Strehl.longer_wavelength"
   ],
   "note": ""
  },
  {
   "property": "C370",
   "status": "partial",
   "theorems": [
    "P3.Strehl.reference_partial",
    "P3.Strehl.perfect_strehl",
    "P3.Strehl.longer_violation",
    "P3.Strehl.square_violation"
   ],
   "note": "Refuted: all wavelengths are divided by the diffraction-limited OTF of the reference one. Exact value when the padded pupils are multiples of the OTF; the interpolant of scipy is assumed to go through its samples."
  },
  {
   "property": "C371",
   "status": "proved",
   "theorems": [
    "P3.Observation.layers_split"
   ],
   "note": "Any generalised inverse for the sensors; the one of numpy has no cut-off in exact arithmetic."
  },
  {
   "property": "C372",
   "status": "proved",
   "theorems": [
    "P3.Observation.sensors_split"
   ],
   "note": "The noise variances are positive."
  },
  {
   "property": "C373",
   "status": "proved",
   "theorems": [
    "P3.Observation.turned"
   ],
   "note": ""
  },
  {
   "property": "C374",
   "status": "proved",
   "theorems": [
    "P3.Observation.opposite"
   ],
   "note": "On grids of frequencies closed under the change of sign."
  },
  {
   "property": "C375",
   "status": "partial",
   "theorems": [
    "P3.Observation.directions_split_partial",
    "P3.Observation.one_direction_twice_violation"
   ],
   "note": "Refuted: with one direction there is no conditioning, with several there is."
  },
  {
   "property": "C376",
   "status": "proved",
   "theorems": [
    "P3.Observation.wavelength_free"
   ],
   "note": "The noise is rescaled by the model; the cut-off frequencies do not depend on the wavelength."
  },
  {
   "property": "C377",
   "status": "partial",
   "theorems": [
    "P3.SingleStar.aniso_diagonal_partial",
    "P3.SingleStar.aniso_exchanged",
    "P3.SingleStar.aniso_axes_violation",
    "P3.SingleStar.tomographic_axes"
   ],
   "note": "Refuted: the two coordinates of the target are exchanged."
  },
  {
   "property": "C378",
   "status": "partial",
   "theorems": [
    "P3.SingleStar.turned_partial",
    "P3.SingleStar.turned_offaxis_violation"
   ],
   "note": "Refuted for targets off axis under wind, as the coordinates of the target are exchanged and those of the wind are not. Aliasing is not included."
  },
  {
   "property": "C379",
   "status": "proved",
   "theorems": [
    "P3.SingleStar.layers_in_parts"
   ],
   "note": ""
  },
  {
   "property": "C380",
   "status": "partial",
   "theorems": [
    "P3.SingleStar.wavelength_free_partial",
    "P3.SingleStar.minimum_variance_wavelength_violation"
   ],
   "note": "Refuted with the minimum-variance reconstructor, whose regularisation divides a noise at the science wavelength by a turbulence at the wavelength of the sensor."
  },
  {
   "property": "C381",
   "status": "partial",
   "theorems": [
    "P3.Geometry.pointing_partial",
    "P3.Geometry.pointing_violation"
   ],
   "note": "Refuted with two mirrors and two optimisation directions: the regularised inverse takes transposes without conjugation. Proved with one optimisation direction or mirrors at the same height."
  },
  {
   "property": "C382",
   "status": "partial",
   "theorems": [
    "P3.Geometry.conjugated_uniform_partial",
    "P3.Geometry.conjugated_laser_violation"
   ],
   "note": "Refuted with lasers: heights of layers are stretched, heights of mirrors are not. Proved for the heights as the model has them."
  },
  {
   "property": "C383",
   "status": "proved",
   "theorems": [
    "P3.Geometry.heights_times_angles"
   ],
   "note": ""
  },
  {
   "property": "C384",
   "status": "proved",
   "theorems": [
    "P3.Geometry.lag_is_displacement"
   ],
   "note": ""
  },
  {
   "property": "C385",
   "status": "proved",
   "theorems": [
    "P3.Geometry.speed_over_rate",
    "P3.Geometry.speed_over_rate_one"
   ],
   "note": ""
  },
  {
   "property": "C386",
   "status": "partial",
   "theorems": [
    "P3.Remaining.dead_pixels_partial",
    "P3.Remaining.dead_pixels_fails_violation",
    "P3.Remaining.dead_pixels_sum_violation",
    "P3.Remaining.frame_violation"
   ],
   "note": "Refuted: lists cannot be made, and the correction of an image only succeeds by doing nothing; with two neighbours the pixel becomes their sum. One-dimensional images."
  },
  {
   "property": "C387",
   "status": "partial",
   "theorems": [
    "P3.Remaining.rotation_partial",
    "P3.Remaining.rotation_zero",
    "P3.Remaining.rotation_angle_violation",
    "P3.Remaining.rotation_petals_violation"
   ],
   "note": "Refuted: the recorded angle is that of the last call and phases of petals are lost. The rotation of scipy is any function."
  },
  {
   "property": "C388",
   "status": "partial",
   "theorems": [
    "P3.Remaining.resize_partial",
    "P3.Remaining.resize_back_violation",
    "P3.Remaining.resize_segments_violation"
   ],
   "note": "Refuted without replacement and for segments."
  },
  {
   "property": "C389",
   "status": "proved",
   "theorems": [
    "P3.Remaining.best_segment"
   ],
   "note": "Windows inside the map."
  },
  {
   "property": "C390",
   "status": "partial",
   "theorems": [
    "P3.Remaining.telescope_files_partial",
    "P3.Remaining.telescope_missing_violation",
    "P3.Remaining.telescope_names_violation"
   ],
   "note": "Refuted: missing files are ignored; the test of the name takes any character for the dot, anywhere in the path."
  },
  {
   "property": "C391",
   "status": "partial",
   "theorems": [
    "P3.Remaining.loaded_map_partial",
    "P3.Remaining.loaded_columns_violation"
   ],
   "note": "Refuted for maps that are not square and have the right number of rows."
  },
  {
   "property": "C392",
   "status": "partial",
   "theorems": [
    "P3.Remaining.influence_partial",
    "P3.Remaining.influence_violation",
    "P3.Remaining.example_masks_violation"
   ],
   "note": "Refuted: both always raise."
  },
  {
   "property": "C393",
   "status": "proved",
   "theorems": [
    "P3.Remaining.diagonals"
   ],
   "note": ""
  },
  {
   "property": "C394",
   "status": "partial",
   "theorems": [
    "P3.Remaining.read_ini_partial",
    "P3.Remaining.read_ini_violation"
   ],
   "note": "Refuted: the basis is written to the file."
  },
  {
   "property": "C395",
   "status": "proved",
   "theorems": [
    "P3.Zenith.zenith_laws"
   ],
   "note": "Non-negative weights and heights; isoplanatic angle for an infinite outer scale only."
  },
  {
   "property": "C396",
   "status": "proved",
   "theorems": [
    "P3.Zenith.isoplanatic_angle"
   ],
   "note": "Infinite outer scale, layers of positive weight."
  },
  {
   "property": "C397",
   "status": "proved",
   "theorems": [
    "P3.Zenith.seeing_or_r0"
   ],
   "note": ""
  },
  {
   "property": "C398",
   "status": "partial",
   "theorems": [
    "P3.Zenith.heights_once_partial",
    "P3.Zenith.heights_twice_violation",
    "P3.Zenith.heights_disagree_violation"
   ],
   "note": "Refuted for the anisoplanatism structure function and wavefront error, where heights on the line of sight are multiplied by the airmass again."
  },
  {
   "property": "C399",
   "status": "proved",
   "theorems": [
    "P3.Zenith.off_zenith_field",
    "P3.Zenith.off_zenith_target"
   ],
   "note": "Heights on the line of sight are the data of the modelled observations, see C398 for how they are made."
  },
  {
   "property": "C400",
   "status": "partial",
   "theorems": [
    "P3.Zenith.zenith_accepted_partial",
    "P3.Zenith.zenith_below_violation"
   ],
   "note": "Refuted: angles between -270 and -90 degrees are accepted."
  },
  {
   "property": "C401",
   "status": "proved",
   "theorems": [
    "P3.Limits.units_of_length",
    "P3.Limits.units_of_length_field"
   ],
   "note": "Away from the zero frequency, except at the sample taken for the centre."
  },
  {
   "property": "C402",
   "status": "partial",
   "theorems": [
    "P3.Limits.faint_star_partial",
    "P3.Limits.faint_field",
    "P3.Limits.faint_star_violation"
   ],
   "note": "Refuted for one guide star with the default MV = 0, where the noise grows without bound; proved with MV > 0 and with several stars."
  },
  {
   "property": "C403",
   "status": "partial",
   "theorems": [
    "P3.Limits.fainter_stars_partial",
    "P3.Limits.fainter_star_partial",
    "P3.Limits.fainter_star_default_partial",
    "P3.Limits.fainter_stars_violation"
   ],
   "note": "Proved in still air towards the optimised direction and, with MV = 0, in general; refuted with a wind that turns the correction into its opposite."
  },
  {
   "property": "C404",
   "status": "partial",
   "theorems": [
    "P3.Limits.correction_helps_partial",
    "P3.Limits.fainter_star_partial",
    "P3.Limits.correction_hurts_violation",
    "P3.Limits.correction_hurts_one_violation"
   ],
   "note": "As C403; refuted with wind, and with one star when the noise gain times the squared ratio of wavelengths exceeds twice the static gain."
  },
  {
   "property": "C405",
   "status": "proved",
   "theorems": [
    "P3.Pixel.pixel_of_reconstruction"
   ],
   "note": "Without Nyquist sampling option."
  },
  {
   "property": "C406",
   "status": "partial",
   "theorems": [
    "P3.Pixel.pixel_option_partial",
    "P3.Pixel.pixel_option_violation"
   ],
   "note": "Proved for an oversampling of two, refuted for every other one: the square is two fine pixels wide."
  },
  {
   "property": "C407",
   "status": "partial",
   "theorems": [
    "P3.Pixel.recorded_once_partial",
    "P3.Pixel.recorded_twice_violation",
    "P3.Pixel.option_never_recorded_violation"
   ],
   "note": "Proved for reconstructed PSFs without binning; refuted with binning, where the pixel is counted twice, and for the Fourier model with every oversampling."
  },
  {
   "property": "C408",
   "status": "proved",
   "theorems": [
    "P3.Pixel.pixel_attenuates",
    "P3.Pixel.pixel_strehl",
    "P3.Pixel.pixel_strehl_strict"
   ],
   "note": ""
  },
  {
   "property": "C409",
   "status": "partial",
   "theorems": [
    "P3.Calls.call3_fresh_partial",
    "P3.Calls.call4_fresh_partial",
    "P3.Calls.same_length_partial",
    "P3.Calls.repeat_partial",
    "P3.Calls.last_coefficients",
    "P3.Calls.stale_violation",
    "P3.Calls.not_memoryless"
   ],
   "note": "Proved for calls with static coefficients, after calls without any, for vectors of one length (fits) and for the Fourier model at several wavelengths. Refuted otherwise: a call without static coefficients uses those of an earlier call."
  },
  {
   "property": "C410",
   "status": "partial",
   "theorems": [
    "P3.Calls.rotation_partial",
    "P3.Calls.rotation_ignored",
    "P3.Calls.rotation_violation"
   ],
   "note": "Proved for the function for several wavelengths when the static OTF is computed again; refuted elsewhere: the angle is ignored, also by psfR."
  },
  {
   "property": "C411",
   "status": "partial",
   "theorems": [
    "P3.Calls.psfao_cube",
    "P3.Calls.psfr_one_partial",
    "P3.Calls.psfr_stars_violation",
    "P3.Calls.psfr_wavelengths_violation"
   ],
   "note": "Proved for one star at one wavelength. Refuted for several stars (ValueError) and several wavelengths (the same image at all of them)."
  },
  {
   "property": "C412",
   "status": "partial",
   "theorems": [
    "P3.Calls.kept_one_partial",
    "P3.Calls.kept_last_violation"
   ],
   "note": "Only the last wavelength is kept."
  },
  {
   "property": "C413",
   "status": "partial",
   "theorems": [
    "P3.Jitter.umax_pixel",
    "P3.Jitter.jitter_gauss",
    "P3.Jitter.jitter_gauss_exists",
    "P3.Jitter.jitter_axes_partial",
    "P3.Jitter.jitter_variance",
    "P3.Jitter.jitter_fwhm_violation",
    "P3.Jitter.jitter_contrast_violation",
    "P3.Jitter.jitter_variance_violation"
   ],
   "note": "Proved to be Gaussian blurs, of known covariance; refuted that the numbers given are their FWHM."
  },
  {
   "property": "C414",
   "status": "partial",
   "theorems": [
    "P3.Jitter.breakdown_partial",
    "P3.Jitter.breakdown_violation"
   ],
   "note": "Within a factor of two thirds; always underestimated."
  },
  {
   "property": "C415",
   "status": "partial",
   "theorems": [
    "P3.Keck.crop_centred_partial",
    "P3.Keck.crop_whole_partial",
    "P3.Keck.crop_odd_violation",
    "P3.Keck.crop_edge_violation",
    "P3.Keck.crop_last_violation"
   ],
   "note": "Even fields and stars far from the edges. Refuted: odd fields are off by one pixel, a star near the first rows makes the loading fail, near the last ones the image is smaller than recorded."
  },
  {
   "property": "C416",
   "status": "proved",
   "theorems": [
    "P3.Keck.saturated_spec",
    "P3.Keck.saturated_total"
   ],
   "note": ""
  },
  {
   "property": "C417",
   "status": "partial",
   "theorems": [
    "P3.Keck.restore_ok_partial",
    "P3.Keck.wavelengths_partial",
    "P3.Keck.laser_violation"
   ],
   "note": "Refuted in LGS mode without the block of the tip-tilt sensor: the loading fails."
  },
  {
   "property": "C418",
   "status": "proved",
   "theorems": [
    "P3.Keck.actuators_placed",
    "P3.Keck.actuators_mismatch"
   ],
   "note": "A single command is repeated by numpy at all actuators."
  },
  {
   "property": "C419",
   "status": "partial",
   "theorems": [
    "P3.Keck.zero_mean_partial",
    "P3.Keck.zero_mean_violation",
    "P3.Keck.focus_mean_iff_partial"
   ],
   "note": "Without decimation; refuted with it: means are removed before."
  },
  {
   "property": "C420",
   "status": "partial",
   "theorems": [
    "P3.Keck.rate_partial",
    "P3.Keck.rate_tiptilt_partial",
    "P3.Keck.rate_violation"
   ],
   "note": "Rate of the file; refuted for the frames kept by a decimation."
  },
  {
   "property": "C421",
   "status": "proved",
   "theorems": [
    "P3.Keck.wfe_spec"
   ],
   "note": ""
  },
  {
   "property": "C422",
   "status": "partial",
   "theorems": [
    "P3.Keck.weights_measured_partial",
    "P3.Keck.compress_measured_partial",
    "P3.Keck.compress_same_partial",
    "P3.Keck.compress_median_violation"
   ],
   "note": "Proved for measured profiles; refuted for the median one: the loading fails for fewer than seven layers (one is the default)."
  },
  {
   "property": "C423",
   "status": "proved",
   "theorems": [
    "P3.Keck.reconstructed"
   ],
   "note": ""
  },
  {
   "property": "C424",
   "status": "partial",
   "theorems": [
    "P3.Detect.installed_partial",
    "P3.Detect.stack_partial",
    "P3.Detect.folder_partial",
    "P3.Detect.stack_violation",
    "P3.Detect.import_stack_partial"
   ],
   "note": "Installed packages, and characterisation of what is found in the call stack; refuted: any folder of this name is taken for TIPTOP."
  },
  {
   "property": "C425",
   "status": "partial",
   "theorems": [
    "P3.Detect.import_partial",
    "P3.Detect.import_violation"
   ],
   "note": "Refuted when Python finds a folder tiptop that is not a package (TypeError)."
  },
  {
   "property": "C426",
   "status": "proved",
   "theorems": [
    "P3.Machine.intQuot_eq",
    "P3.Machine.nTimes_eq",
    "P3.Machine.intSqrt_eq"
   ],
   "note": "Floating-point model: every operation rounded to nearest, any precision, any choice at ties; unbounded exponents."
  },
  {
   "property": "C427",
   "status": "proved",
   "theorems": [
    "P3.Machine.findN_eq",
    "P3.Machine.nmOrder_eq"
   ],
   "note": ""
  },
  {
   "property": "C428",
   "status": "partial",
   "theorems": [
    "P3.Machine.psfSide_partial",
    "P3.Machine.boxSide_near_partial",
    "P3.Machine.psfSide_violation",
    "P3.Machine.crop_100_44"
   ],
   "note": "Proved when the ratio of the sizes is a machine number; always within one pixel. Refuted: 44 pixels out of 100 fail (ValueError)."
  },
  {
   "property": "C429",
   "status": "proved",
   "theorems": [
    "P3.Machine.roundQuot_eq"
   ],
   "note": ""
  },
  {
   "property": "C430",
   "status": "proved",
   "theorems": [
    "P3.Machine.freqAt_sign"
   ],
   "note": ""
  },
  {
   "property": "C431",
   "status": "partial",
   "theorems": [
    "P3.Machine.freqAt_symmetric_partial",
    "P3.Machine.freqAt_symmetric_violation"
   ],
   "note": "Symmetric when the offset is lost by rounding or zero; refuted in double precision."
  },
  {
   "property": "C432",
   "status": "proved",
   "theorems": [
    "P3.Machine.sampOut_near"
   ],
   "note": ""
  },
  {
   "property": "C433",
   "status": "partial",
   "theorems": [
    "P3.Machine.nyquistResAO_partial",
    "P3.Machine.nyquistResAO_violation"
   ],
   "note": "Within one element; refuted: 39 m and one metre give 77 at 1.25 microns and 78 at 2.2 microns."
  },
  {
   "property": "C434",
   "status": "partial",
   "theorems": [
    "P3.Machine.pointWise_partial",
    "P3.Machine.pointWise_violation"
   ],
   "note": "Proved when nothing is rounded; one point too many at worst. Refuted for 3.6 m and 7.2 cm (IndexError)."
  },
  {
   "property": "C435",
   "status": "proved",
   "theorems": [
    "P3.Machine.sum_value",
    "P3.Machine.scaled_flux",
    "P3.Machine.scaled_mono"
   ],
   "note": ""
  },
  {
   "property": "C436",
   "status": "proved",
   "theorems": [
    "P3.Machine.slabWeight_near"
   ],
   "note": ""
  },
  {
   "property": "C437",
   "status": "proved",
   "theorems": [
    "P3.Keck.tiptilt_values",
    "P3.Keck.focus_values"
   ],
   "note": ""
  },
  {
   "property": "C438",
   "status": "partial",
   "theorems": [
    "P3.Keck.frames_partial",
    "P3.Keck.frames_violation"
   ],
   "note": "Without decimation; refuted with it."
  },
  {
   "property": "C439",
   "status": "partial",
   "theorems": [
    "P3.Download.download_partial",
    "P3.Download.glued_iff",
    "P3.Download.download_violation",
    "P3.Download.getDataFile_fails_iff"
   ],
   "note": "Proved for folders given with a final separator; refuted for all others, for which the file is saved next to the folder and downloaded at each call."
  },
  {
   "property": "C440",
   "status": "partial",
   "theorems": [
    "P3.Download.whole_partial",
    "P3.Download.truncated_violation"
   ],
   "note": "Proved without interrupted transfers; after one, the truncated file is kept for good."
  },
  {
   "property": "C441",
   "status": "partial",
   "theorems": [
    "P3.Segments.copies_partial",
    "P3.Segments.construct_partial",
    "P3.Segments.copies_violation"
   ],
   "note": "Map and coordinates; the other attributes are those of the reference exactly when it has the defaults."
  },
  {
   "property": "C442",
   "status": "partial",
   "theorems": [
    "P3.Segments.zero_phase_partial",
    "P3.Segments.dim_phase_violation",
    "P3.Segments.dim_shift_violation"
   ],
   "note": "Exactly for references equal to the default polygon; refuted for the others."
  },
  {
   "property": "C443",
   "status": "partial",
   "theorems": [
    "P3.Segments.zero_phase_partial",
    "P3.Segments.filled_violation"
   ],
   "note": "Refuted: a phase of zero opens the gap again."
  },
  {
   "property": "C444",
   "status": "partial",
   "theorems": [
    "P3.Segments.modes_partial",
    "P3.Segments.petal_modes_partial",
    "P3.Segments.modes_violation",
    "P3.Segments.modes_other"
   ],
   "note": "Refuted for references of reflectivity other than one; an unknown area ends in UnboundLocalError."
  },
  {
   "property": "C445",
   "status": "partial",
   "theorems": [
    "P3.Headers.precision_pair",
    "P3.Headers.precision_partial",
    "P3.Headers.precision_violation",
    "P3.Headers.maps_violation"
   ],
   "note": "Proved before the first computation; the grid and the maps of the telescope keep their precision afterwards."
  },
  {
   "property": "C446",
   "status": "proved",
   "theorems": [
    "P3.Download.multiple_rows",
    "P3.Download.multiple_failure",
    "P3.Download.multiple_again"
   ],
   "note": ""
  },
  {
   "property": "C447",
   "status": "proved",
   "theorems": [
    "P3.Headers.obsId_spec",
    "P3.Headers.wavelength_spec",
    "P3.Headers.pointing_spec",
    "P3.Headers.coordinates_spec"
   ],
   "note": ""
  },
  {
   "property": "C448",
   "status": "partial",
   "theorems": [
    "P3.Download.saved_partial",
    "P3.Download.saved_violation"
   ],
   "note": "Proved for folders given with a final separator; refuted for all others."
  },
  {
   "property": "C449",
   "status": "partial",
   "theorems": [
    "P3.MachinePupil.moved_partial",
    "P3.MachinePupil.modulus_near_partial",
    "P3.MachinePupil.moved_zero_partial",
    "P3.MachinePupil.moved_violation"
   ],
   "note": "Exactly when the computed modulus of the pixel is one; refuted in double precision for a phase of 41/64 radian, for which the pixels are doubled."
  },
  {
   "property": "C450",
   "status": "partial",
   "theorems": [
    "P3.Air.mathar_gas_partial",
    "P3.Air.ciddor_gas",
    "P3.Air.mathar_violation"
   ],
   "note": "Proved from 0.4 to 1.3 micrometres, in K, L, M, N and in the middle of Q; refuted at the ends of Q, where the refractivity is negative or twice too large (the entries of the last two rows of the Q table for temperature and humidity are of the sizes of each other)."
  },
  {
   "property": "C451",
   "status": "proved",
   "theorems": [
    "P3.Turbulence.wiener_khinchin",
    "P3.Turbulence.variance_integral",
    "P3.Turbulence.structure_spec",
    "P3.Turbulence.angular_structure",
    "P3.Turbulence.angular_increasing"
   ],
   "note": "The Bessel function of scipy is its integral representation (Spec/Turbulence.lean)."
  },
  {
   "property": "C452",
   "status": "proved",
   "theorems": [
    "P3.Turbulence.infinite_outer_scale"
   ],
   "note": ""
  },
  {
   "property": "C453",
   "status": "proved",
   "theorems": [
    "P3.Turbulence.fried",
    "P3.Turbulence.c1_value"
   ],
   "note": "Within three thousandths."
  },
  {
   "property": "C454",
   "status": "proved",
   "theorems": [
    "P3.Turbulence.coherence_time"
   ],
   "note": ""
  },
  {
   "property": "C455",
   "status": "proved",
   "theorems": [
    "P3.Turbulence.isoplanatic_infinite"
   ],
   "note": ""
  },
  {
   "property": "C456",
   "status": "partial",
   "theorems": [
    "P3.Turbulence.isoplanatic_finite_partial",
    "P3.Turbulence.isoplanatic_violation"
   ],
   "note": "Unique when it exists; it exists exactly when the variance of the phase of the layers above the ground exceeds one square radian. False otherwise: with an outer scale below two Fried parameters (thermal infrared) the equation given to fsolve has no solution."
  },
  {
   "property": "C457",
   "status": "proved",
   "theorems": [
    "P3.Turbulence.flicker_turbulence",
    "P3.Turbulence.focal_turbulence",
    "P3.Turbulence.stationary_field",
    "P3.Turbulence.kappa_value",
    "P3.Turbulence.flicker_nonneg"
   ],
   "note": "The Bessel function of scipy is its integral representation (Spec/Turbulence.lean). Off-axis sources of the focal function: C309."
  },
  {
   "property": "C458",
   "status": "proved",
   "theorems": [
    "P3.ZVar.noll_total"
   ],
   "note": ""
  },
  {
   "property": "C459",
   "status": "proved",
   "theorems": [
    "P3.Kolmogorov.kolmo_spectrum"
   ],
   "note": ""
  },
  {
   "property": "C460",
   "status": "proved",
   "theorems": [
    "P3.Kolmogorov.fit_error",
    "P3.Kolmogorov.fit_decreasing"
   ],
   "note": "Real arithmetic."
  },
  {
   "property": "C461",
   "status": "proved",
   "theorems": [
    "P3.Options.ho_options",
    "P3.Options.ho_refines",
    "P3.Options.detector_builds",
    "P3.Options.fovArcsec_spec"
   ],
   "note": "Flux lists shorter than the number of sensors: C14."
  },
  {
   "property": "C462",
   "status": "partial",
   "theorems": [
    "P3.Options.lo_options_partial",
    "P3.Options.lo_ignored_violation"
   ],
   "note": "SizeLenslets, WfsType, Modulation and ThresholdWCoG have no effect."
  },
  {
   "property": "C463",
   "status": "proved",
   "theorems": [
    "P3.Options.camera_options"
   ],
   "note": "The field of view in pixels: C04."
  },
  {
   "property": "C464",
   "status": "proved",
   "theorems": [
    "P3.Options.telescope_options",
    "P3.Options.atmosphere_options"
   ],
   "note": "Fried parameter and heights, which depend on the airmass: C395, C398."
  },
  {
   "property": "C465",
   "status": "proved",
   "theorems": [
    "P3.Options.rtc_options",
    "P3.Options.mirrors_options"
   ],
   "note": "Pitches, heights, numbers of actuators, couplings: C16."
  },
  {
   "property": "C466",
   "status": "partial",
   "theorems": [
    "P3.Options.documented_defaults_partial",
    "P3.Options.documented_defaults_violation",
    "P3.Options.documented_fov_violation"
   ],
   "note": "Excess noise factor, window radius, weight of the directions, flux and field of the camera have other defaults."
  },
  {
   "property": "C467",
   "status": "partial",
   "theorems": [
    "P3.Options.template_partial",
    "P3.Options.template_violation"
   ],
   "note": "NumberLenslets = 4 in sensor_LO is refused by a TypeError."
  },
  {
   "property": "C468",
   "status": "partial",
   "theorems": [
    "P3.Cone.open_loop",
    "P3.Cone.open_limit_partial",
    "P3.Cone.open_limit_violation"
   ],
   "note": "The limit holds in the corrected area, refraction and chromatism apart; outside it the loop that is off removes the piston, the other does not."
  },
  {
   "property": "C469",
   "status": "partial",
   "theorems": [
    "P3.FieldFit.extract_outside_violation",
    "P3.FieldFit.extract_iff_partial"
   ],
   "note": "Refused when the window crosses a border; taken from the opposite corner when it is wholly before the first pixel."
  },
  {
   "property": "C470",
   "status": "partial",
   "theorems": [
    "P3.Options.empty_path_partial",
    "P3.Options.empty_vibration_violation"
   ],
   "note": "Holds for the six maps of the telescope; an empty file of vibrations is accepted and fails when the spectrum is computed."
  },
  {
   "property": "C471",
   "status": "partial",
   "theorems": [
    "P3.Display.shown_defined",
    "P3.Display.shown_line",
    "P3.Display.shown_mono",
    "P3.Display.square_partial",
    "P3.Display.square_violation",
    "P3.Display.contour_scale_violation"
   ],
   "note": "Interpolation, growth and range hold; the square shown has the side 2R+ps, the titles say R or 2R, and the contours use the pixel of the first wavelength."
  },
  {
   "property": "C472",
   "status": "partial",
   "theorems": [
    "P3.Display.pair_partial",
    "P3.Display.pair_violation",
    "P3.Display.contours_iff"
   ],
   "note": "With several wavelengths the title has the angles of the first and last sources."
  },
  {
   "property": "C473",
   "status": "proved",
   "theorems": [
    "P3.Refine.breakdown_limit",
    "P3.Refine.density_limit",
    "P3.Refine.area_limit",
    "P3.Refine.outside_limit",
    "P3.Refine.spectrum_meets"
   ],
   "note": "The densities are inputs (bounded, continuous almost everywhere); that of the fitting error is the spectrum of the atmosphere of the code."
  },
  {
   "property": "C474",
   "status": "proved",
   "theorems": [
    "P3.Keck.posAngle_spec"
   ],
   "note": ""
  },
  {
   "property": "C475",
   "status": "partial",
   "theorems": [
    "P3.Refine.fitting_ratio_partial",
    "P3.Refine.fitting_differs_violation",
    "P3.Refine.fitting_square_partial",
    "P3.Refine.fitting_run_limit",
    "P3.Refine.plane_limit",
    "P3.Refine.left_spectrum"
   ],
   "note": "With the default round corrected area the ratio is A (1 + (2 pitch / L0)^2)^(-5/12) with 1.08 < A < 1.1: more than 5 percent apart for an outer scale above ten pitches. With a square area they agree within 2 percent for a large outer scale, and the Fourier one is at most 1 percent above."
  },
  {
   "property": "C476",
   "status": "proved",
   "theorems": [
    "P3.Noise.noise_textbook"
   ],
   "note": ""
  },
  {
   "property": "C477",
   "status": "proved",
   "theorems": [
    "P3.MultiFit.start_mask",
    "P3.MultiFit.start_read",
    "P3.MultiFit.start_flux",
    "P3.MultiFit.start_feasible"
   ],
   "note": "Every number of stars; start_read for one layer and one wavelength, the files C478 accepts."
  },
  {
   "property": "C478",
   "status": "partial",
   "theorems": [
    "P3.MultiFit.start_bounds_partial",
    "P3.MultiFit.start_bounds_violation"
   ],
   "note": "Exactly one fitted layer, one wavelength and no static mode; otherwise the numbers differ for every number of stars (violation) and the fit raises."
  },
  {
   "property": "C479",
   "status": "proved",
   "theorems": [
    "P3.MultiFit.run_spec",
    "P3.MultiFit.column_local"
   ],
   "note": "Detection and the fit of one sub-image are arguments."
  },
  {
   "property": "C480",
   "status": "partial",
   "theorems": [
    "P3.MultiFit.common_partial",
    "P3.MultiFit.common_violation"
   ],
   "note": "r0 is the median of the fitted ones, between their bounds, the other parameters are the sub-image's; own PSF exactly when its r0 is the median. With two different r0 neither PSF is its own (violation)."
  },
  {
   "property": "C481",
   "status": "partial",
   "theorems": [
    "P3.MultiFit.run_iff_partial",
    "P3.MultiFit.run_violation"
   ],
   "note": "A result exists exactly when every sub-image with a star is fitted; one failure loses all (violation)."
  },
  {
   "property": "C482",
   "status": "partial",
   "theorems": [
    "P3.MultiFit.unfitted_partial",
    "P3.MultiFit.unfitted_violation"
   ],
   "note": "One PSF per segment: defined exactly when at least as many fitted sub-images as neighbours used, and then the nearest fitted ones. With several PSFs per segment one sub-image without star leaves no number anywhere (violation)."
  },
  {
   "property": "C483",
   "status": "proved",
   "theorems": [
    "P3.Telemetry.readNoise_spec"
   ],
   "note": ""
  },
  {
   "property": "C484",
   "status": "proved",
   "theorems": [
    "P3.FieldRun.generate_file",
    "P3.FieldRun.generate_missing",
    "P3.FieldRun.generate_forgets",
    "P3.FieldRun.generate_again"
   ],
   "note": "Detection, PSF model, fit and polyfit are arguments."
  },
  {
   "property": "C485",
   "status": "partial",
   "theorems": [
    "P3.FieldRun.untouched_partial",
    "P3.FieldRun.untouched_violation"
   ],
   "note": "Unchanged exactly without the section or when the field of view was already the one written; the default limits of magnitude fail after the file is rewritten (violation)."
  },
  {
   "property": "C486",
   "status": "proved",
   "theorems": [
    "P3.FieldRun.generate_spec",
    "P3.FieldRun.generate_best"
   ],
   "note": "At least one star per tile asked."
  },
  {
   "property": "C487",
   "status": "proved",
   "theorems": [
    "P3.FieldRun.generate_iff"
   ],
   "note": "Odd sub-images: C292."
  },
  {
   "property": "C488",
   "status": "partial",
   "theorems": [
    "P3.FieldRun.unknown_partial",
    "P3.FieldRun.unknown_violation"
   ],
   "note": "Never returns, but the name is looked at last: any other failure is reported instead (violation)."
  },
  {
   "property": "C489",
   "status": "partial",
   "theorems": [
    "P3.FieldRun.size_partial",
    "P3.FieldRun.size_violation"
   ],
   "note": "Exact sizes; the enlarged size only when it is even and the PSFs are interpolated, not the parameters (violation)."
  },
  {
   "property": "C490",
   "status": "partial",
   "theorems": [
    "P3.FieldRun.parameters_partial",
    "P3.FieldRun.parameters_violation"
   ],
   "note": "With positive errors everywhere every PSF is that of parameters between the fitted ones; one sub-image without detection leaves none (violation)."
  },
  {
   "property": "C491",
   "status": "proved",
   "theorems": [
    "P3.FieldRun.generate_interp"
   ],
   "note": "One star per tile; several: C482. At a star: C155."
  },
  {
   "property": "C492",
   "status": "partial",
   "theorems": [
    "P3.SegModes.mode_partial",
    "P3.SegModes.mode_violation"
   ],
   "note": "The mean exactly when it is within half a turn, otherwise up to turns of 2 pi (violation). Low resolution: C496."
  },
  {
   "property": "C493",
   "status": "proved",
   "theorems": [
    "P3.Resize.resize_range",
    "P3.Resize.resize_linear"
   ],
   "note": "The degree-one interpolant of scipy is written out, with abscissas brought into the range of the samples."
  },
  {
   "property": "C494",
   "status": "proved",
   "theorems": [
    "P3.Resize.enlarge_reduce"
   ],
   "note": ""
  },
  {
   "property": "C495",
   "status": "partial",
   "theorems": [
    "P3.Resize.reduce_partial",
    "P3.Resize.reduce_violation"
   ],
   "note": "False: one pixel per block is kept and the others are ignored."
  },
  {
   "property": "C496",
   "status": "proved",
   "theorems": [
    "P3.Resize.lowRes_spec"
   ],
   "note": "Segments without common pixel for the bound of half a turn."
  },
  {
   "property": "C497",
   "status": "proved",
   "theorems": [
    "P3.Resize.nearest_values"
   ],
   "note": ""
  },
  {
   "property": "C498",
   "status": "partial",
   "theorems": [
    "P3.Resize.centre_linear_partial",
    "P3.Resize.centre_nearest_partial",
    "P3.Resize.centre_violation"
   ],
   "note": "True for the linear kind; for the nearest pixel the exact condition on the sizes, which fails for reductions by more than two to an even size."
  },
  {
   "property": "C499",
   "status": "partial",
   "theorems": [
    "P3.Resize.loaded_range_partial"
   ],
   "note": "Without rotation of the pupil."
  }
 ]
}