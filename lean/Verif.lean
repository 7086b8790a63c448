import Verif.Props.Paths
import Verif.Props.Config
import Verif.Props.FieldOfView
import Verif.Props.Source
import Verif.Props.Hardware
import Verif.Props.Atmosphere
import Verif.Props.Noise
import Verif.Props.Breakdown
import Verif.Props.BreakdownDefined
import Verif.Props.Anisoplanatism
import Verif.Props.FrequencyDomain
import Verif.Props.Images
import Verif.Props.Energy
import Verif.Props.Metrics
import Verif.Props.Psf
import Verif.Props.Layers
import Verif.Props.Params
import Verif.Props.Controller
import Verif.Props.Psd
import Verif.Props.Memory
import Verif.Props.Zernike
import Verif.Props.ZernikeOrtho
import Verif.Props.Telescope
import Verif.Props.Air
import Verif.Props.Pupil
import Verif.Props.Fitting
import Verif.Props.FittingQuality
import Verif.Props.FieldFit
import Verif.Props.IniFile
import Verif.Props.Telemetry
import Verif.Model.Reconstruction
import Verif.Lemmas.Dft
import Verif.Props.Reconstruction
import Verif.Model.Tomography
import Verif.Spec.Tomography
import Verif.Lemmas.Linear
import Verif.Props.Tomography
import Verif.Model.Otf
import Verif.Props.Otf
import Verif.Model.Psfao
import Verif.Props.Psfao
import Verif.Model.FourierRun
import Verif.Props.FourierRun
import Verif.Model.Extra
import Verif.Props.Extra
import Verif.Model.Focal
import Verif.Props.Focal
import Verif.Model.Fwhm
import Verif.Props.Fwhm
import Verif.Model.ZernikeVar
import Verif.Props.ZernikeVar
import Verif.Model.Diagnosis
import Verif.Props.Diagnosis
import Verif.Model.Deep
import Verif.Props.Deep
import Verif.Model.Sphere
import Verif.Props.Sphere
import Verif.Model.Profile
import Verif.Props.Profile
import Verif.Model.PsdPsf
import Verif.Props.PsdPsf
import Verif.Model.Zonal
import Verif.Props.Zonal
import Verif.Model.Run
import Verif.Props.Run
import Verif.Model.Archive
import Verif.Props.Archive
import Verif.Model.Campaign
import Verif.Props.Campaign
import Verif.Model.Kasp
import Verif.Props.Kasp
import Verif.Model.Petals
import Verif.Props.Petals
import Verif.Model.Upkeep
import Verif.Props.Upkeep
import Verif.Model.Spectra
import Verif.Props.Spectra
import Verif.Model.Cone
import Verif.Props.Cone
import Verif.Model.Reuse
import Verif.Props.Reuse
import Verif.Model.Strehl
import Verif.Props.Strehl
import Verif.Model.Observation
import Verif.Spec.Observation
import Verif.Props.Observation
import Verif.Props.SingleStar
import Verif.Spec.Geometry
import Verif.Props.Geometry
import Verif.Model.Remaining
import Verif.Spec.Remaining
import Verif.Props.Remaining
import Verif.Model.Zenith
import Verif.Spec.Zenith
import Verif.Props.Zenith
import Verif.Spec.Limits
import Verif.Props.Limits
import Verif.Model.Pixel
import Verif.Spec.Pixel
import Verif.Props.Pixel
import Verif.Model.Calls
import Verif.Spec.Calls
import Verif.Props.Calls
import Verif.Model.Jitter
import Verif.Spec.Jitter
import Verif.Props.Jitter
import Verif.Model.Keck
import Verif.Spec.Keck
import Verif.Props.Keck
import Verif.Model.Detect
import Verif.Props.Detect
import Verif.Model.Machine
import Verif.Props.Rounding
import Verif.Props.Machine
import Verif.Model.Download
import Verif.Props.Download
import Verif.Model.Segments
import Verif.Props.Segments
import Verif.Model.Headers
import Verif.Props.Headers
import Verif.Model.MachinePupil
import Verif.Props.MachinePupil
import Verif.Props.AirGas
import Verif.Spec.Turbulence
import Verif.Props.Turbulence
import Verif.Props.Isoplanatic
import Verif.Model.Kolmogorov
import Verif.Props.Anisophase
import Verif.Props.Noll
import Verif.Props.Kolmogorov
import Verif.Model.Options
import Verif.Props.Options
import Verif.Props.OpenLoop
import Verif.Props.EmptyPath
import Verif.Props.Display
import Verif.Props.Refine
import Verif.Props.FittingError
import Verif.Props.MetricsFlux
import Verif.Props.Parts
import Verif.Props.Parts2
import Verif.Props.Parts3
import Verif.Model.MultiFit
import Verif.Props.MultiFit
import Verif.Props.Parts4
import Verif.Model.FieldRun
import Verif.Props.FieldRun
import Verif.Model.SegModes
import Verif.Props.SegModes
import Verif.Model.Resize
import Verif.Props.Resize
